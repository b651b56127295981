import Verif.Serv.VariorumSpec
import Mathlib.Data.List.Induction

/-! # C119: the variorum service records the power of each configured domain -/

namespace Verif.Serv.Variorum
open Verif Verif.Cali

theorem run_append (ms : List Info) : ∀ (a b : Hist) (s : VSt),
    run ms s (a ++ b) = ((run ms s a).1 ++ (run ms (run ms s a).2 b).1, (run ms (run ms s a).2 b).2)
  | [], b, s => rfl
  | x :: a, b, s => by
    simp only [List.cons_append, run]
    rw [run_append ms a b]

theorem lastRead_snoc (th : Nat) (d : Str) (h : Hist) (x : Nat × (Str → Option (BitVec 64))) :
    lastRead th d (h ++ [x]) = if x.1 = th then (x.2 d).getD (lastRead th d h) else lastRead th d h := by
  unfold lastRead
  rw [List.filter_append, List.reverse_append]
  by_cases hx : x.1 = th
  · simp only [List.filter_cons, hx, decide_true, if_true, List.filter_nil, List.reverse_cons, List.reverse_nil, List.nil_append,
      List.cons_append, List.findSome?_cons]
    cases x.2 d <;> rfl
  · simp [List.filter_cons, hx]

/-- the info of the only domain -/
theorem infos_one (chn : Nat) (d : Str) :
    infos chn [d] = [⟨d, str "variorum.val." ++ d, str "variorum." ++ d, str "variorum.pv." ++ str (toString chn) ++ d⟩] := rfl

theorem avg (v p : BitVec 64) (h : v.toNat + p.toNat < 2 ^ 64) : (v + p) / 2#64 = BitVec.ofNat 64 ((v.toNat + p.toNat) / 2) := by
  apply BitVec.eq_of_toNat_eq
  rw [BitVec.toNat_udiv, BitVec.toNat_add, Nat.mod_eq_of_lt h, BitVec.toNat_ofNat, BitVec.toNat_ofNat]
  have e : 2 % 2 ^ 64 = 2 := rfl
  rw [e]
  omega

/-- the state after the history `h` -/
theorem after_one (chn : Nat) (d : Str) (h : Hist) :
    (∀ th, (run (infos chn [d]) VSt.new h).2.prev th (str "variorum.pv." ++ str (toString chn) ++ d) = lastRead th d h) ∧
    (run (infos chn [d]) VSt.new h).2.errors = failures [d] h := by
  induction h using List.reverseRecOn with
  | nil => exact ⟨fun _ => rfl, rfl⟩
  | append_singleton h x ih =>
    rw [run_append]
    obtain ⟨th, read⟩ := x
    generalize hs : (run (infos chn [d]) VSt.new h).2 = s at ih ⊢
    simp only [run, infos_one, snapLoop]
    have hf : failures [d] (h ++ [(th, read)]) = failures [d] h + if read d = none then 1 else 0 := by
      simp only [failures, List.map_append, List.sum_append, List.map_cons, List.map_nil, List.sum_cons, List.sum_nil, Nat.add_zero]
      congr 1
      by_cases e : read d = none <;> simp [e]
    rw [hf]
    cases e : read d with
    | none =>
      refine ⟨fun t => ?_, ?_⟩
      · rw [lastRead_snoc]
        simp only [e, Option.getD_none, ite_self]
        exact ih.1 t
      · simp [ih.2]
    | some v =>
      refine ⟨fun t => ?_, ?_⟩
      · rw [lastRead_snoc]
        simp only [e, Option.getD_some, and_true]
        by_cases ht : t = th
        · simp [ht]
        · have : ¬ th = t := fun e => ht e.symm
          simp only [ht, this, false_and, if_false]
          exact ih.1 t
      · simp [ih.2]

/-- **C119** (one configured domain): in every snapshot of any history, on any threads, the service adds the reading of the domain under its name and the average
of it and the last reading in a snapshot of the same thread; nothing if the library fails -/
theorem C119_record_partial (chn : Nat) (d : Str) (h : Hist) (th : Nat) (read : Str → Option (BitVec 64))
    (hw : ∀ x ∈ h ++ [(th, read)], ∀ v, x.2 d = some v → v.toNat < 2 ^ 63) :
    (run (infos chn [d]) VSt.new (h ++ [(th, read)])).1 = (run (infos chn [d]) VSt.new h).1 ++ [wanted d h th read] := by
  rw [run_append]
  obtain ⟨hp, -⟩ := after_one chn d h
  generalize run (infos chn [d]) VSt.new h = r at hp ⊢
  simp only [run, infos_one, snapLoop, wanted]
  cases e : read d with
  | none => rfl
  | some v =>
    have hv : v.toNat < 2 ^ 63 := hw (th, read) (by simp) v e
    have hl : (lastRead th d h).toNat < 2 ^ 63 := by
      unfold lastRead
      cases e2 : (h.filter fun x => x.1 = th).reverse.findSome? fun x => x.2 d with
      | none => simp
      | some w =>
        obtain ⟨x, hx, hxw⟩ := List.exists_of_findSome?_eq_some e2
        exact hw x (List.mem_append_left _ (List.mem_filter.mp (List.mem_reverse.mp hx)).1) w hxw
    simp only [hp]
    rw [avg v _ (by omega)]

/-- **C119** (one configured domain): failures are counted -/
theorem C119_errors_partial (chn : Nat) (d : Str) (h : Hist) : (run (infos chn [d]) VSt.new h).2.errors = failures [d] h := (after_one chn d h).2

/-! ## several domains -/

theorem info_last (chn : Nat) (ds : List Str) (l d : Str) : createInfo chn (ds ++ [l]) d =
    ⟨d, str "variorum.val." ++ l, str "variorum." ++ l, str "variorum.pv." ++ str (toString chn) ++ l⟩ := by
  rw [createInfo, List.foldl_append]
  have : ∀ (ds : List Str) (m : Info), (ds.foldl (setAttrs chn) m).domain = m.domain := by
    intro ds
    induction ds with
    | nil => intro m; rfl
    | cons x ds ih => intro m; exact ih _
  simp [setAttrs, this ds]

theorem snap_names (th : Nat) (read : Str → Option (BitVec 64)) (l : Str) : ∀ (ms : List Info)
    (_ : ∀ m ∈ ms, m.value = str "variorum.val." ++ l ∧ m.delta = str "variorum." ++ l) (s : VSt),
    ∀ e ∈ (snapLoop th read ms s).1, e.1 = str "variorum.val." ++ l ∨ e.1 = str "variorum." ++ l
  | [], _, s, e, he => by cases he
  | m :: ms, h, s, e, he => by
    simp only [snapLoop] at he
    cases hr : read m.domain with
    | none =>
      rw [hr] at he
      exact snap_names th read l ms (fun x hx => h x (List.mem_cons_of_mem _ hx)) _ e he
    | some v =>
      rw [hr] at he
      simp only [List.mem_cons] at he
      rcases he with rfl | rfl | he
      · exact .inl (h m (by simp)).1
      · exact .inr (h m (by simp)).2
      · exact snap_names th read l ms (fun x hx => h x (List.mem_cons_of_mem _ hx)) _ e he

/-- **C119**, violation: with any list of domains, everything is recorded under the name of the last one; nothing is ever recorded for the others -/
theorem C119_violation_names (chn : Nat) (ds : List Str) (l : Str) (h : Hist) :
    ∀ r ∈ (run (infos chn (ds ++ [l])) VSt.new h).1, ∀ e ∈ r, e.1 = str "variorum.val." ++ l ∨ e.1 = str "variorum." ++ l := by
  have hm : ∀ m ∈ infos chn (ds ++ [l]), m.value = str "variorum.val." ++ l ∧ m.delta = str "variorum." ++ l := by
    intro m hm
    obtain ⟨d, -, rfl⟩ := List.mem_map.mp hm
    rw [info_last]
    exact ⟨rfl, rfl⟩
  generalize VSt.new = s
  induction h generalizing s with
  | nil => intro r hr; cases hr
  | cons x h ih =>
    intro r hr
    simp only [run, List.mem_cons] at hr
    rcases hr with rfl | hr
    · exact snap_names x.1 x.2 l _ hm s
    · exact ih _ r hr

/-- a reading for each of two domains -/
def readEx (a b : BitVec 64) : Str → Option (BitVec 64) := fun d => if d = str "cpu" then some a else if d = str "gpu" then some b else none

/-- **C119**, violation: two domains with constant power of 100 and 30 watts: both appear under the second one's name, whose average is of both -/
theorem C119_violation_mixed : (run (infos 1 [str "cpu", str "gpu"]) VSt.new [(0, readEx 100 30), (0, readEx 100 30)]).1 =
    [[(str "variorum.val.gpu", 100), (str "variorum.gpu", 50), (str "variorum.val.gpu", 30), (str "variorum.gpu", 65)],
     [(str "variorum.val.gpu", 100), (str "variorum.gpu", 65), (str "variorum.val.gpu", 30), (str "variorum.gpu", 65)]] := by
  decide +kernel

/-- **C119**, violation: the first average of each thread is half of the reading -/
theorem C119_violation_first (chn : Nat) (d : Str) (th : Nat) (v : BitVec 64) (hv : v.toNat < 2 ^ 63) :
    (run (infos chn [d]) VSt.new [(th, fun _ => some v)]).1 =
      [[(str "variorum.val." ++ d, v), (str "variorum." ++ d, BitVec.ofNat 64 (v.toNat / 2))]] := by
  have := C119_record_partial chn d [] th (fun _ => some v) (by simp [hv])
  rw [List.nil_append] at this
  rw [this]
  rfl

theorem C119_example : (run (infos 1 [str "cpu"]) VSt.new [(0, readEx 100 30), (1, fun _ => none), (0, readEx 50 30), (1, readEx 20 30)]).1 =
    [[(str "variorum.val.cpu", 100), (str "variorum.cpu", 50)], [], [(str "variorum.val.cpu", 50), (str "variorum.cpu", 75)],
     [(str "variorum.val.cpu", 20), (str "variorum.cpu", 10)]] ∧
    (run (infos 1 [str "cpu"]) VSt.new [(0, readEx 100 30), (1, fun _ => none), (0, readEx 50 30), (1, readEx 20 30)]).2.errors = 1 := by
  refine ⟨?_, ?_⟩ <;> decide +kernel

end Verif.Serv.Variorum
