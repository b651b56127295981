import Verif.Serv.TopdownSpec
import Mathlib.Tactic.Linarith
import Mathlib.Tactic.Ring
import Mathlib.Tactic.Positivity
import Mathlib.Tactic.FieldSimp

/-! # C124: the top-down percentages of perf_topdown -/

namespace Verif.Topdown
open Verif Verif.Cali

theorem field_eq (raw : BitVec 64) (k : Nat) : field raw k = (raw.extractLsb' (8 * k) 8).toNat := by
  unfold field
  rw [BitVec.toNat_and, BitVec.toNat_ushiftRight, BitVec.extractLsb'_toNat]
  have : (0xff#64).toNat = 2 ^ 8 - 1 := rfl
  rw [this, Nat.and_two_pow_sub_one_eq_mod]

theorem field_lt (raw : BitVec 64) (k : Nat) : field raw k ≤ 255 := by
  rw [field_eq]
  have := (raw.extractLsb' (8 * k) 8).isLt
  omega

/-- **C124** (no slots lost): the slots in a thread's records and those counted since the last record are all slots that passed -/
theorem C124_conserved (all : Bool) : ∀ (h : List Meas) (acc : Nat),
    sumOf (run all acc h).1 (str "topdown.slots") + (run all acc h).2 = acc + (h.map Prod.fst).sum
  | [], acc => by simp [run, sumOf]
  | (d, raw) :: h, acc => by
    have ih := C124_conserved all h (snapshot all acc d raw).2
    simp only [run, sumOf, List.map_cons, List.sum_cons] at ih ⊢
    have e : valueOf (snapshot all acc d raw).1 (str "topdown.slots") + (snapshot all acc d raw).2 = acc + d := by
      unfold snapshot
      split
      · simp [valueOf]
      · simp [valueOf, entries]
    omega

/-- **C124** (when): a snapshot gets entries if and only if at least 480000 slots have passed since the last one with entries; then these are the slots since then -/
theorem C124_when (all : Bool) (acc d : Nat) (raw : BitVec 64) :
    ((snapshot all acc d raw).1 ≠ [] ↔ 480000 ≤ acc + d) ∧
    (480000 ≤ acc + d → valueOf (snapshot all acc d raw).1 (str "topdown.slots") = acc + d ∧ (snapshot all acc d raw).2 = 0) := by
  unfold snapshot
  split
  · rename_i h
    exact ⟨⟨fun h => absurd rfl h, fun h' => by omega⟩, fun h' => by omega⟩
  · rename_i h
    exact ⟨⟨fun _ => by omega, fun _ => by simp [entries]⟩, fun _ => ⟨by simp [valueOf, entries], rfl⟩⟩

theorem find_sum (ns : List Str) (g : Str → Nat) (n : Str) (hn : n ∈ ns) (hs : ∀ a ∈ ns, str "sum#" ++ a ≠ n) (b : Str) (hb : b = n ∨ b = str "sum#" ++ n) :
    (ns.map fun a => (str "sum#" ++ a, g a)).find? (fun e => e.1 = str "sum#" ++ n ∨ e.1 = b) = some (str "sum#" ++ n, g n) := by
  induction ns with
  | nil => simp at hn
  | cons a ns ih =>
    rw [List.map_cons, List.find?_cons]
    by_cases e : a = n
    · subst e; simp
    · have h1 : ¬ (str "sum#" ++ a = str "sum#" ++ n) := by simpa using e
      have h2 : ¬ (str "sum#" ++ a = b) := by
        rcases hb with rfl | rfl
        · exact hs a List.mem_cons_self
        · exact h1
      have : (decide (str "sum#" ++ a = str "sum#" ++ n ∨ str "sum#" ++ a = b)) = false := by simp [h1, h2]
      simp only [this]
      refine ih ?_ (fun x hx => hs x (List.mem_cons_of_mem _ hx))
      rcases List.mem_cons.1 hn with h | h
      · exact absurd h.symm e
      · exact h

/-- the entries of other services in front do not matter -/
theorem find_pre (pre l : List (Str × Nat)) (p : Str × Nat → Bool) (h : ∀ e ∈ pre, p e = false) : (pre ++ l).find? p = l.find? p := by
  rw [List.find?_append]
  have : pre.find? p = none := by
    rw [List.find?_eq_none]
    intro x hx
    rw [h x hx]; simp
  rw [this]; rfl

/-- the slots of the four parts -/
def parts (m : Meas) (k : Nat) : Nat := field m.2 k * (m.1 / 255)

theorem value_entries (all : Bool) (m : Meas) :
    valueOf (entries all m.1 m.2) (str "topdown.slots") = m.1 ∧ valueOf (entries all m.1 m.2) (str "topdown.retiring.slots") = parts m 0 ∧
    valueOf (entries all m.1 m.2) (str "topdown.bad_spec.slots") = parts m 1 ∧ valueOf (entries all m.1 m.2) (str "topdown.fe_bound.slots") = parts m 2 ∧
    valueOf (entries all m.1 m.2) (str "topdown.be_bound.slots") = parts m 3 := by
  refine ⟨?_, ?_, ?_, ?_, ?_⟩ <;> rfl

theorem value_entries_all (m : Meas) :
    valueOf (entries true m.1 m.2) (str "topdown.heavy_ops.slots") = parts m 4 ∧ valueOf (entries true m.1 m.2) (str "topdown.br_mispred.slots") = parts m 5 ∧
    valueOf (entries true m.1 m.2) (str "topdown.fetch_lat.slots") = parts m 6 ∧ valueOf (entries true m.1 m.2) (str "topdown.mem_bound.slots") = parts m 7 := by
  refine ⟨?_, ?_, ?_, ?_⟩ <;> rfl

theorem ok_field {m : Meas} (h : m.Ok) : field m.2 0 + field m.2 1 + field m.2 2 + field m.2 3 = 255 := by
  simp only [field_eq]; exact h.2

/-- **C124** (parts): the slots of the four parts of an interval add up to its slots, up to 254 slots; and each part is its fraction of the slots, up to rounding by the fraction -/
theorem C124_parts_partial (all : Bool) (m : Meas) (h : m.Ok) :
    let v := fun n => valueOf (entries all m.1 m.2) (str n)
    v "topdown.retiring.slots" + v "topdown.bad_spec.slots" + v "topdown.fe_bound.slots" + v "topdown.be_bound.slots" ≤ m.1 ∧
    m.1 < v "topdown.retiring.slots" + v "topdown.bad_spec.slots" + v "topdown.fe_bound.slots" + v "topdown.be_bound.slots" + 255 ∧
    v "topdown.retiring.slots" * 255 ≤ (m.2.extractLsb' 0 8).toNat * m.1 ∧ (m.2.extractLsb' 0 8).toNat * m.1 ≤ v "topdown.retiring.slots" * 255 + 255 * 254 := by
  obtain ⟨_, v1, v2, v3, v4⟩ := value_entries all m
  have hf := ok_field h
  intro v
  have e1 : v "topdown.retiring.slots" = field m.2 0 * (m.1 / 255) := v1
  have e2 : v "topdown.bad_spec.slots" = field m.2 1 * (m.1 / 255) := v2
  have e3 : v "topdown.fe_bound.slots" = field m.2 2 * (m.1 / 255) := v3
  have e4 : v "topdown.be_bound.slots" = field m.2 3 * (m.1 / 255) := v4
  have s : v "topdown.retiring.slots" + v "topdown.bad_spec.slots" + v "topdown.fe_bound.slots" + v "topdown.be_bound.slots" = 255 * (m.1 / 255) := by
    rw [e1, e2, e3, e4, ← Nat.add_mul, ← Nat.add_mul, ← Nat.add_mul, hf]
  rw [s, e1]
  have e0 : (m.2.extractLsb' 0 8).toNat = field m.2 0 := (field_eq m.2 0).symm
  rw [e0]
  have hl := field_lt m.2 0
  have hd := Nat.div_add_mod m.1 255
  have hm := Nat.mod_lt m.1 (show 0 < 255 by omega)
  generalize m.1 / 255 = q at *
  generalize m.1 % 255 = r at *
  refine ⟨by omega, by omega, ?_, ?_⟩
  · rw [← hd]; nlinarith
  · rw [← hd]; nlinarith

theorem sums_ok (all : Bool) (ms : List Meas) (h : ∀ m ∈ ms, m.Ok) :
    let S := fun n => sumOf (ms.map fun m => entries all m.1 m.2) (str n)
    480000 * ms.length ≤ S "topdown.slots" ∧
    S "topdown.retiring.slots" + S "topdown.bad_spec.slots" + S "topdown.fe_bound.slots" + S "topdown.be_bound.slots" ≤ S "topdown.slots" ∧
    S "topdown.slots" ≤ S "topdown.retiring.slots" + S "topdown.bad_spec.slots" + S "topdown.fe_bound.slots" + S "topdown.be_bound.slots" + 254 * ms.length := by
  induction ms with
  | nil => simp [sumOf]
  | cons m ms ih =>
    have ih := ih (fun x hx => h x (List.mem_cons_of_mem _ hx))
    have hp := C124_parts_partial all m (h m List.mem_cons_self)
    have h0 := (h m List.mem_cons_self).1
    have hv := (value_entries all m).1
    simp only [sumOf, List.map_cons, List.sum_cons, List.length_cons] at ih hp ⊢
    rw [hv]
    omega

theorem names_ok (all : Bool) : ∀ n ∈ names all, ∀ a ∈ names all, str "sum#" ++ a ≠ n := by
  cases all <;> decide +kernel

/-- what the record of some snapshots has for one of the attributes -/
theorem getValue_agg (all : Bool) (pre : List (Str × Nat)) (ss : List (List (Str × Nat))) (hpre : ∀ e ∈ pre, e.1 ∉ names true ∧ ∀ a ∈ names true, e.1 ≠ str "sum#" ++ a)
    (n : Str) (hn : n ∈ names all) (hn' : n ∈ names true) (f : Rat) : getValue (pre ++ aggregated all ss) f (str "sum#" ++ n) n = sumOf ss n * f := by
  have := find_sum (names all) (sumOf ss) n hn (names_ok all n hn) n (Or.inl rfl)
  unfold getValue
  rw [find_pre]
  · unfold aggregated
    rw [this]
  · intro e he
    have := hpre e he
    have h1 : e.1 ≠ str "sum#" ++ n := this.2 n hn'
    have h2 : e.1 ≠ n := by rintro h; exact this.1 (h ▸ hn')
    simp [h1, h2]

theorem names_true (all : Bool) (n : Str) (h : n ∈ names false) : n ∈ names all ∧ n ∈ names true := by
  have e : names true = names false ++ [str "topdown.heavy_ops.slots", str "topdown.br_mispred.slots", str "topdown.fetch_lat.slots", str "topdown.mem_bound.slots"] := rfl
  have ht : n ∈ names true := e ▸ List.mem_append_left _ h
  cases all
  · exact ⟨h, ht⟩
  · exact ⟨ht, ht⟩

/-- the percentages of a record of some snapshots, of which at least one has slots -/
theorem percents_agg (all : Bool) (pre : List (Str × Nat)) (ss : List (List (Str × Nat))) (hpre : ∀ e ∈ pre, e.1 ∉ names true ∧ ∀ a ∈ names true, e.1 ≠ str "sum#" ++ a)
    (hs : 0 < sumOf ss (str "topdown.slots")) :
    let S := fun n => sumOf ss (str ("topdown." ++ n ++ ".slots")) * (100 / (sumOf ss (str "topdown.slots") : Rat))
    percents all (pre ++ aggregated all ss) =
      [(str "topdown.retiring", S "retiring"), (str "topdown.bad_spec", S "bad_spec"), (str "topdown.fe_bound", S "fe_bound"), (str "topdown.be_bound", S "be_bound")] ++
      if all then
        [(str "topdown.heavy_ops", S "heavy_ops"), (str "topdown.light_ops", S "retiring" - S "heavy_ops"),
         (str "topdown.br_mispred", S "br_mispred"), (str "topdown.machine_clears", S "bad_spec" - S "br_mispred"),
         (str "topdown.fetch_lat", S "fetch_lat"), (str "topdown.fetch_bw", S "fe_bound" - S "fetch_lat"),
         (str "topdown.mem_bound", S "mem_bound"), (str "topdown.core_bound", S "be_bound" - S "mem_bound")]
      else [] := by
  intro S
  have hf : (pre ++ aggregated all ss).find? (fun e => e.1 = str "sum#topdown.slots") = some (str "sum#topdown.slots", sumOf ss (str "topdown.slots")) := by
    have hm : str "topdown.slots" ∈ names all := by cases all <;> exact List.mem_cons_self
    have hm' : str "topdown.slots" ∈ names true := List.mem_cons_self
    have e : str "sum#" ++ str "topdown.slots" = str "sum#topdown.slots" := by decide +kernel
    have := find_sum (names all) (sumOf ss) _ hm (names_ok all _ hm) (str "sum#" ++ str "topdown.slots") (Or.inr rfl)
    simp only [or_self, e] at this
    rw [find_pre]
    · exact this
    · intro x hx
      have := (hpre x hx).2 _ hm'
      rw [e] at this
      simp [this]
  have cat : ∀ n ∈ ["retiring", "bad_spec", "fe_bound", "be_bound", "heavy_ops", "br_mispred", "fetch_lat", "mem_bound"],
      str ("sum#topdown." ++ n ++ ".slots") = str "sum#" ++ str ("topdown." ++ n ++ ".slots") := by decide +kernel
  have in4 : ∀ n ∈ ["retiring", "bad_spec", "fe_bound", "be_bound"], str ("topdown." ++ n ++ ".slots") ∈ names false := by decide +kernel
  have in8 : ∀ n ∈ ["heavy_ops", "br_mispred", "fetch_lat", "mem_bound"], str ("topdown." ++ n ++ ".slots") ∈ names true := by decide +kernel
  have v4 : ∀ n ∈ ["retiring", "bad_spec", "fe_bound", "be_bound"], ∀ f : Rat,
      getValue (pre ++ aggregated all ss) f (str ("sum#topdown." ++ n ++ ".slots")) (str ("topdown." ++ n ++ ".slots")) = sumOf ss (str ("topdown." ++ n ++ ".slots")) * f := by
    intro n hn f
    rw [cat n (List.mem_append_left ["heavy_ops", "br_mispred", "fetch_lat", "mem_bound"] hn)]
    obtain ⟨a, b⟩ := names_true all _ (in4 n hn)
    exact getValue_agg all pre ss hpre _ a b f
  have v8 : all = true → ∀ n ∈ ["heavy_ops", "br_mispred", "fetch_lat", "mem_bound"], ∀ f : Rat,
      getValue (pre ++ aggregated all ss) f (str ("sum#topdown." ++ n ++ ".slots")) (str ("topdown." ++ n ++ ".slots")) = sumOf ss (str ("topdown." ++ n ++ ".slots")) * f := by
    rintro rfl n hn f
    rw [cat n (List.mem_append_right ["retiring", "bad_spec", "fe_bound", "be_bound"] hn)]
    exact getValue_agg true pre ss hpre _ (in8 n hn) (in8 n hn) f
  unfold percents
  rw [hf, Option.some_or]
  obtain ⟨k, hk⟩ : ∃ k, sumOf ss (str "topdown.slots") = k + 1 := ⟨_, (Nat.succ_pred_eq_of_pos hs).symm⟩
  simp only [hk, S]
  have a1 := v4 "retiring" (by simp); have a2 := v4 "bad_spec" (by simp); have a3 := v4 "fe_bound" (by simp); have a4 := v4 "be_bound" (by simp)
  cases all with
  | false =>
    simp only [a1, a2, a3, a4]
    rfl
  | true =>
    have b1 := v8 rfl "heavy_ops" (by simp); have b2 := v8 rfl "br_mispred" (by simp); have b3 := v8 rfl "fetch_lat" (by simp); have b4 := v8 rfl "mem_bound" (by simp)
    simp only [a1, a2, a3, a4, b1, b2, b3, b4]

/-- **C124** (percentages): in the aggregated record of any snapshots whose intervals are long enough and whose fractions add up to one, the four percentages are those of the sums of the parts in the sum
of the slots, they are not negative, and they add up to 100 % up to 0.053 % -/
theorem C124_percent_partial (all : Bool) (pre : List (Str × Nat)) (hpre : ∀ e ∈ pre, e.1 ∉ names true ∧ ∀ a ∈ names true, e.1 ≠ str "sum#" ++ a)
    (ms : List Meas) (h : ∀ m ∈ ms, m.Ok) (hne : ms ≠ []) :
    let ss := ms.map fun m => entries all m.1 m.2
    let p := percent (percents all (pre ++ aggregated all ss))
    (∀ n ∈ ["retiring", "bad_spec", "fe_bound", "be_bound"],
      p n = sumOf ss (str ("topdown." ++ n ++ ".slots")) * 100 / (sumOf ss (str "topdown.slots") : Rat) ∧ 0 ≤ p n) ∧
    p "retiring" + p "bad_spec" + p "fe_bound" + p "be_bound" ≤ 100 ∧ 100 - 53 / 1000 < p "retiring" + p "bad_spec" + p "fe_bound" + p "be_bound" := by
  intro ss p
  obtain ⟨h1, h2, h3⟩ := sums_ok all ms h
  have hl : 0 < ms.length := List.length_pos_iff.2 hne
  have hs : 0 < sumOf ss (str "topdown.slots") := by
    have : 480000 * ms.length ≤ sumOf ss (str "topdown.slots") := h1
    omega
  have hp := percents_agg all pre ss hpre hs
  have key : ∀ n ∈ ["retiring", "bad_spec", "fe_bound", "be_bound"],
      p n = sumOf ss (str ("topdown." ++ n ++ ".slots")) * (100 / (sumOf ss (str "topdown.slots") : Rat)) := by
    intro n hn
    simp only [p]
    rw [hp]
    have hname : ∀ i ∈ ["retiring", "bad_spec", "fe_bound", "be_bound"], ∀ j ∈ ["retiring", "bad_spec", "fe_bound", "be_bound"],
        i ≠ j → str ("topdown." ++ i) ≠ str ("topdown." ++ j) := by decide +kernel
    have t1 : str ("topdown." ++ "retiring") = str "topdown.retiring" := rfl
    simp only [List.mem_cons, List.not_mem_nil, or_false] at hn
    rcases hn with rfl | rfl | rfl | rfl
    · rfl
    · rfl
    · rfl
    · rfl
  have hS : (0 : Rat) < sumOf ss (str "topdown.slots") := by exact_mod_cast hs
  refine ⟨fun n hn => ?_, ?_, ?_⟩
  · rw [key n hn]
    exact ⟨by ring, by positivity⟩
  all_goals
    rw [key "retiring" (by simp), key "bad_spec" (by simp), key "fe_bound" (by simp), key "be_bound" (by simp)]
    have h2' : ((sumOf ss (str "topdown.retiring.slots") + sumOf ss (str "topdown.bad_spec.slots") + sumOf ss (str "topdown.fe_bound.slots") +
      sumOf ss (str "topdown.be_bound.slots") : Nat) : Rat) ≤ sumOf ss (str "topdown.slots") := by exact_mod_cast h2
    have h3' : (sumOf ss (str "topdown.slots") : Rat) ≤ ((sumOf ss (str "topdown.retiring.slots") + sumOf ss (str "topdown.bad_spec.slots") +
      sumOf ss (str "topdown.fe_bound.slots") + sumOf ss (str "topdown.be_bound.slots") + 254 * ms.length : Nat) : Rat) := by exact_mod_cast h3
    have h1' : ((480000 * ms.length : Nat) : Rat) ≤ sumOf ss (str "topdown.slots") := by exact_mod_cast h1
    push_cast at h1' h2' h3'
    change _
    have r1 : str ("topdown." ++ "retiring" ++ ".slots") = str "topdown.retiring.slots" := rfl
    have r2 : str ("topdown." ++ "bad_spec" ++ ".slots") = str "topdown.bad_spec.slots" := rfl
    have r3 : str ("topdown." ++ "fe_bound" ++ ".slots") = str "topdown.fe_bound.slots" := rfl
    have r4 : str ("topdown." ++ "be_bound" ++ ".slots") = str "topdown.be_bound.slots" := rfl
    rw [r1, r2, r3, r4, ← add_mul, ← add_mul, ← add_mul]
    generalize (sumOf ss (str "topdown.retiring.slots") : Rat) = x1 at *
    generalize (sumOf ss (str "topdown.bad_spec.slots") : Rat) = x2 at *
    generalize (sumOf ss (str "topdown.fe_bound.slots") : Rat) = x3 at *
    generalize (sumOf ss (str "topdown.be_bound.slots") : Rat) = x4 at *
    generalize (sumOf ss (str "topdown.slots") : Rat) = T at *
    generalize (ms.length : Rat) = L at *
    rw [mul_div_assoc']
  · rw [div_le_iff₀ hS]; linarith
  · rw [lt_div_iff₀ hS]; linarith

/-- **C124** (second level): the two parts of each of the four add up to it -/
theorem C124_level_two (pre : List (Str × Nat)) (hpre : ∀ e ∈ pre, e.1 ∉ names true ∧ ∀ a ∈ names true, e.1 ≠ str "sum#" ++ a)
    (ss : List (List (Str × Nat))) (hs : 0 < sumOf ss (str "topdown.slots")) :
    let p := percent (percents true (pre ++ aggregated true ss))
    p "light_ops" + p "heavy_ops" = p "retiring" ∧ p "machine_clears" + p "br_mispred" = p "bad_spec" ∧
    p "fetch_bw" + p "fetch_lat" = p "fe_bound" ∧ p "core_bound" + p "mem_bound" = p "be_bound" ∧
    p "heavy_ops" = sumOf ss (str "topdown.heavy_ops.slots") * (100 / (sumOf ss (str "topdown.slots") : Rat)) ∧
    p "br_mispred" = sumOf ss (str "topdown.br_mispred.slots") * (100 / (sumOf ss (str "topdown.slots") : Rat)) ∧
    p "fetch_lat" = sumOf ss (str "topdown.fetch_lat.slots") * (100 / (sumOf ss (str "topdown.slots") : Rat)) ∧
    p "mem_bound" = sumOf ss (str "topdown.mem_bound.slots") * (100 / (sumOf ss (str "topdown.slots") : Rat)) := by
  intro p
  have hp := percents_agg true pre ss hpre hs
  simp only [p]
  rw [hp]
  refine ⟨?_, ?_, ?_, ?_, rfl, rfl, rfl, rfl⟩
  · exact sub_add_cancel _ _
  · exact sub_add_cancel _ _
  · exact sub_add_cancel _ _
  · exact sub_add_cancel _ _

/-- an example: two intervals -/
def msEx : List Meas := [(510000, 0x0c0a05403f403f41#64), (1020000, 0x0000000000ff0000#64)]

theorem C124_example :
    (msEx.map fun m => (entries true m.1 m.2).map Prod.snd) =
      [[510000, 130000, 126000, 128000, 126000, 128000, 10000, 20000, 24000], [1020000, 0, 0, 1020000, 0, 0, 0, 0, 0]] ∧
    (∀ m ∈ msEx, m.Ok) := by
  refine ⟨by decide +kernel, ?_⟩
  intro m hm
  simp only [msEx, List.mem_cons, List.not_mem_nil, or_false] at hm
  rcases hm with rfl | rfl <;> exact ⟨by decide, by decide +kernel⟩

/-- **C124**, violation: an interval of less than 480000 slots has no entries, and its slots are in the record of the next interval instead, whatever region that is in -/
theorem C124_violation_short (all : Bool) (d₁ d₂ : Nat) (r₁ r₂ : BitVec 64) (h1 : d₁ < 480000) (h2 : 480000 ≤ d₁ + d₂) :
    (run all 0 [(d₁, r₁), (d₂, r₂)]).1.map (fun s => valueOf s (str "topdown.slots")) = [0, d₁ + d₂] := by
  have e1 : snapshot all 0 d₁ r₁ = ([], d₁) := by simp [snapshot, h1]
  have e2 : snapshot all d₁ d₂ r₂ = (entries all (d₁ + d₂) r₂, 0) := if_neg (by omega)
  simp only [run, e1, e2, List.map_cons, List.map_nil]
  rfl

end Verif.Topdown
