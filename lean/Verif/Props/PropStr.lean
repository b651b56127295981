import Verif.PropStr.Lemmas

/-! C38: attribute property strings. -/

namespace Verif.PropStr

open Verif.Cali

/-- A property word with only defined flags, at most one of the three scopes. -/
def Valid (p : BitVec 32) : Prop :=
  p &&& ~~~(0x70fff#32) = 0#32 ∧
  (p &&& 60#32 = 0#32 ∨ p &&& 60#32 = 12#32 ∨ p &&& 60#32 = 20#32 ∨ p &&& 60#32 = 24#32)

/-- The C string in a buffer. -/
def cstring (mem : Nat → Byte) (n : Nat) : List Byte := (List.range n).map mem

theorem holds_cstring {b : Buf} {s : List Byte} (h : Holds b s) : cstring b.mem s.length = s := by
  refine List.ext_getElem (by simp [cstring]) ?_
  intro i h1 h2
  simp only [cstring, List.getElem_map, List.getElem_range]
  rw [h.chars i h2]
  simp [List.getD, h2]

theorem names_ne : ∀ p ∈ propmap, p.name ≠ [] := by decide
theorem names_colon : ∀ p ∈ propmap, ch ':' ∉ p.name := by decide
theorem names_nul : ∀ p ∈ propmap, (0 : Byte) ∉ p.name := by decide
theorem names_len : ∀ p ∈ propmap, p.name.length ≤ 13 := by decide
theorem names_infix : ∀ p ∈ propmap, ∀ q ∈ propmap, q.name ≠ p.name → ¬ p.name <:+: q.name := by decide +kernel

theorem selected_sub (prop : BitVec 32) : ∀ t ∈ selected prop propmap, ∃ p ∈ propmap, p.name = t := by
  intro t ht
  simp only [selected, List.mem_map, List.mem_filter] at ht
  obtain ⟨p, ⟨hp, _⟩, e⟩ := ht
  exact ⟨p, hp, e⟩

/-- **C38** (reading): for every list of property names, in any order and with
repetitions, joined by ':', `cali_string2prop` returns exactly the union of the
properties named. -/
theorem C38_string2prop_names (ts : List (List Byte)) (hts : ∀ t ∈ ts, ∃ p ∈ propmap, p.name = t) :
    string2prop (joinC ts) =
      propmap.foldl (fun a p => if p.name ∈ ts then a ||| p.prop else a) 0 := by
  unfold string2prop
  have key : ∀ p ∈ propmap, hasWord (joinC ts) p.name = decide (p.name ∈ ts) := by
    intro p hp
    by_cases hm : p.name ∈ ts
    · rw [decide_eq_true hm]
      refine hasWord_join_some (names_ne p hp) (names_colon p hp) hm ?_
      intro t ht hne
      obtain ⟨q, hq, rfl⟩ := hts t ht
      exact names_infix p hp q hq hne
    · rw [decide_eq_false hm]
      refine hasWord_join_none (names_ne p hp) (names_colon p hp) ?_
      intro t ht
      obtain ⟨q, hq, rfl⟩ := hts t ht
      exact names_infix p hp q hq (fun e => hm (e ▸ ht))
  have gen : ∀ (ps : List PropEnt) (a : BitVec 32), (∀ p ∈ ps, p ∈ propmap) →
      ps.foldl (fun prop p => if hasWord (joinC ts) p.name then prop ||| p.prop else prop) a =
      ps.foldl (fun a p => if p.name ∈ ts then a ||| p.prop else a) a := by
    intro ps
    induction ps with
    | nil => intro a _; rfl
    | cons p ps ih =>
      intro a h
      simp only [List.foldl_cons]
      rw [key p (h p List.mem_cons_self)]
      simp only [decide_eq_true_eq]
      exact ih _ (fun q hq => h q (List.mem_cons_of_mem _ hq))
  exact gen propmap 0 (fun p hp => hp)

theorem mem_selected (prop : BitVec 32) : ∀ p ∈ propmap, (p.name ∈ selected prop propmap ↔ prop &&& p.mask = p.prop) := by
  intro p hp
  simp only [selected, List.mem_map, List.mem_filter, decide_eq_true_eq]
  constructor
  · rintro ⟨q, ⟨hq, hs⟩, e⟩
    have : ∀ p ∈ propmap, ∀ q ∈ propmap, q.name = p.name → q.mask = p.mask ∧ q.prop = p.prop := by decide
    obtain ⟨e1, e2⟩ := this p hp q hq e
    rw [← e1, ← e2]; exact hs
  · intro h; exact ⟨p, ⟨hp, h⟩, rfl⟩

def stepE (p a : BitVec 32) (e : PropEnt) : BitVec 32 := if p &&& e.mask = e.prop then a ||| e.prop else a

theorem step_bit (p : BitVec 32) (n : List Byte) (m : BitVec 32) (h : p &&& m = m ∨ p &&& m = 0#32) (a : BitVec 32) :
    stepE p a ⟨n, m, m⟩ = a ||| (p &&& m) := by
  simp only [stepE]
  by_cases hm : p &&& m = m
  · rw [if_pos hm, hm]
  · rw [if_neg hm, h.resolve_left hm, BitVec.or_zero]

/-- a single-bit mask -/
theorem bit_or (k : Nat) (hk : k < 32) (x : BitVec 32) : x &&& BitVec.twoPow 32 k = BitVec.twoPow 32 k ∨ x &&& BitVec.twoPow 32 k = 0#32 := by
  cases hx : x.getLsbD k
  · right
    apply BitVec.eq_of_getLsbD_eq
    intro i hi
    simp only [BitVec.getLsbD_and, BitVec.getLsbD_twoPow, BitVec.getLsbD_zero]
    by_cases h : k = i
    · subst h; simp [hx]
    · simp [h]
  · left
    apply BitVec.eq_of_getLsbD_eq
    intro i hi
    simp only [BitVec.getLsbD_and, BitVec.getLsbD_twoPow]
    by_cases h : k = i
    · subst h; simp [hx]
    · simp [h]

theorem step_scope (p a : BitVec 32) (n1 n2 n3 : List Byte)
    (h : p &&& 60#32 = 0#32 ∨ p &&& 60#32 = 12#32 ∨ p &&& 60#32 = 20#32 ∨ p &&& 60#32 = 24#32) :
    stepE p (stepE p (stepE p a ⟨n1, 12#32, 60#32⟩) ⟨n2, 20#32, 60#32⟩) ⟨n3, 24#32, 60#32⟩ = a ||| (p &&& 60#32) := by
  simp only [stepE]
  rcases h with h | h | h | h <;> rw [h] <;> simp

theorem level_cases (p : BitVec 32) : p &&& 0x70000#32 = 0#32 ∨ p &&& 0x70000#32 = 0x10000#32 ∨ p &&& 0x70000#32 = 0x20000#32 ∨
    p &&& 0x70000#32 = 0x30000#32 ∨ p &&& 0x70000#32 = 0x40000#32 ∨ p &&& 0x70000#32 = 0x50000#32 ∨
    p &&& 0x70000#32 = 0x60000#32 ∨ p &&& 0x70000#32 = 0x70000#32 := by
  have e : p &&& 0x70000#32 = (p &&& BitVec.twoPow 32 16) ||| (p &&& BitVec.twoPow 32 17) ||| (p &&& BitVec.twoPow 32 18) := by
    rw [← BitVec.and_or_distrib_left, ← BitVec.and_or_distrib_left]; rfl
  rw [e]
  rcases bit_or 16 (by decide) p with h1 | h1 <;> rcases bit_or 17 (by decide) p with h2 | h2 <;>
    rcases bit_or 18 (by decide) p with h3 | h3 <;> rw [h1, h2, h3] <;> decide

/-- The entries of the level group. -/
def levels : List PropEnt := propmap.drop 12

theorem step_miss (p a x : BitVec 32) : ∀ (ps : List PropEnt), (∀ e ∈ ps, e.mask = 0x70000#32 ∧ e.prop ≠ x) →
    p &&& 0x70000#32 = x → ps.foldl (stepE p) a = a
  | [], _, _ => rfl
  | e :: ps, h, hx => by
    obtain ⟨h1, h2⟩ := h e List.mem_cons_self
    have : stepE p a e = a := by
      simp only [stepE]; rw [if_neg]; rw [h1, hx]; exact fun h => h2 h.symm
    rw [List.foldl_cons, this]
    exact step_miss p a x ps (fun q hq => h q (List.mem_cons_of_mem _ hq)) hx

theorem step_level (p a : BitVec 32) : levels.foldl (stepE p) a = a ||| (p &&& 0x70000#32) := by
  have key : ∀ (x : BitVec 32) (k : Nat) (e : PropEnt), levels = levels.take k ++ e :: levels.drop (k + 1) →
      e.mask = 0x70000#32 → e.prop = x → (∀ q ∈ levels.take k, q.mask = 0x70000#32 ∧ q.prop ≠ x) →
      (∀ q ∈ levels.drop (k + 1), q.mask = 0x70000#32 ∧ q.prop ≠ x) → p &&& 0x70000#32 = x →
      levels.foldl (stepE p) a = a ||| (p &&& 0x70000#32) := by
    intro x k e hs hm hp h1 h2 hx
    rw [hs, List.foldl_append, step_miss p a x _ h1 hx, List.foldl_cons]
    have : stepE p a e = a ||| x := by simp only [stepE]; rw [if_pos (by rw [hm, hp]; exact hx), hp]
    rw [this, step_miss p _ x _ h2 hx, hx]
  rcases level_cases p with h | h | h | h | h | h | h | h
  · exact key _ 0 ⟨str "level_0", 0#32, 0x70000#32⟩ rfl rfl rfl (by decide) (by decide) h
  · exact key _ 1 ⟨str "level_1", 0x10000#32, 0x70000#32⟩ rfl rfl rfl (by decide) (by decide) h
  · exact key _ 2 ⟨str "level_2", 0x20000#32, 0x70000#32⟩ rfl rfl rfl (by decide) (by decide) h
  · exact key _ 3 ⟨str "level_3", 0x30000#32, 0x70000#32⟩ rfl rfl rfl (by decide) (by decide) h
  · exact key _ 4 ⟨str "level_4", 0x40000#32, 0x70000#32⟩ rfl rfl rfl (by decide) (by decide) h
  · exact key _ 5 ⟨str "level_5", 0x50000#32, 0x70000#32⟩ rfl rfl rfl (by decide) (by decide) h
  · exact key _ 6 ⟨str "level_6", 0x60000#32, 0x70000#32⟩ rfl rfl rfl (by decide) (by decide) h
  · exact key _ 7 ⟨str "level_7", 0x70000#32, 0x70000#32⟩ rfl rfl rfl (by decide) (by decide) h

theorem union_valid (p : BitVec 32) (hv : Valid p) : propmap.foldl (stepE p) 0#32 = p := by
  have hsplit : propmap = ⟨str "default", 0#32, 0#32⟩ :: ⟨str "asvalue", 1#32, 1#32⟩ :: ⟨str "nomerge", 2#32, 2#32⟩ ::
      ⟨str "process_scope", 12#32, 60#32⟩ :: ⟨str "thread_scope", 20#32, 60#32⟩ :: ⟨str "task_scope", 24#32, 60#32⟩ ::
      ⟨str "skip_events", 64#32, 64#32⟩ :: ⟨str "hidden", 128#32, 128#32⟩ :: ⟨str "nested", 256#32, 256#32⟩ ::
      ⟨str "global", 512#32, 512#32⟩ :: ⟨str "unaligned", 1024#32, 1024#32⟩ :: ⟨str "aggregatable", 2048#32, 2048#32⟩ :: levels := rfl
  rw [hsplit]
  simp only [List.foldl_cons]
  rw [step_level, step_bit p _ 2048#32 (bit_or 11 (by decide) p), step_bit p _ 1024#32 (bit_or 10 (by decide) p),
    step_bit p _ 512#32 (bit_or 9 (by decide) p), step_bit p _ 256#32 (bit_or 8 (by decide) p),
    step_bit p _ 128#32 (bit_or 7 (by decide) p), step_bit p _ 64#32 (bit_or 6 (by decide) p), step_scope p _ _ _ _ hv.2,
    step_bit p _ 2#32 (bit_or 1 (by decide) p), step_bit p _ 1#32 (bit_or 0 (by decide) p)]
  have d0 : ∀ n, stepE p 0#32 ⟨n, 0#32, 0#32⟩ = 0#32 := by intro n; simp [stepE]
  rw [d0]
  have hz : p = p &&& 0x70fff#32 := by
    have : p = (p &&& 0x70fff#32) ||| (p &&& ~~~(0x70fff#32)) := by
      rw [← BitVec.and_or_distrib_left, BitVec.or_not_self, BitVec.and_allOnes]
    rw [hv.1] at this
    rw [this]
    conv => rhs; rw [BitVec.and_comm, BitVec.and_or_distrib_left, BitVec.and_comm]
    rw [BitVec.and_assoc, BitVec.and_self]
    simp
  conv => rhs; rw [hz]
  simp only [← BitVec.and_or_distrib_left, BitVec.zero_or]
  congr 1

/-- **C38** (round trip): for every valid property word, reading the printed
string gives back the word. -/
theorem C38_roundtrip (p : BitVec 32) (hv : Valid p) : string2prop (joinC (selected p propmap)) = p := by
  rw [C38_string2prop_names _ (selected_sub p)]
  conv => rhs; rw [← union_valid p hv]
  have gen : ∀ (ps : List PropEnt) (a : BitVec 32), (∀ e ∈ ps, e ∈ propmap) →
      ps.foldl (fun a e => if e.name ∈ selected p propmap then a ||| e.prop else a) a =
      ps.foldl (stepE p) a := by
    intro ps
    induction ps with
    | nil => intro a _; rfl
    | cons e ps ih =>
      intro a h
      simp only [List.foldl_cons, stepE]
      have := mem_selected p e (h e List.mem_cons_self)
      by_cases hm : p &&& e.mask = e.prop
      · rw [if_pos (this.2 hm), if_pos hm]; exact ih _ (fun q hq => h q (List.mem_cons_of_mem _ hq))
      · rw [if_neg (fun h => hm (this.1 h)), if_neg hm]; exact ih _ (fun q hq => h q (List.mem_cons_of_mem _ hq))
  exact gen propmap 0 (fun e he => he)

/-- What `cali_prop2string` does with a buffer in which every single name fits:
it prints all names, never returns -1, and writes exactly the string and its
NUL — however long the buffer is. -/
theorem C38_written (p : BitVec 32) (mem : Nat → Byte) (len : Nat) (hlen : 15 ≤ len) :
    ∃ n, (prop2string p mem len).2 = some n ∧
      cstring (prop2string p mem len).1.mem n = joinC (selected p propmap) ∧
      (prop2string p mem len).1.mem n = 0 ∧ (0 : Byte) ∉ joinC (selected p propmap) ∧
      (prop2string p mem len).1.written = n + 1 := by
  have h0 : Holds ⟨mem, 0⟩ (joinC []) := ⟨by simp [joinC], by simp [joinC], rfl⟩
  obtain ⟨b', e, h⟩ := loop_spec p len propmap ⟨mem, 0⟩ [] names_ne (by simp) h0
    (fun q hq _ => by have := names_len q hq; omega)
  have e' : prop2string p mem len = (b', some (joinC (selected p propmap)).length) := e
  rw [List.nil_append] at h
  have hne : joinC (selected p propmap) ≠ [] := by
    have hs : selected p propmap = str "default" :: selected p propmap.tail := by
      simp [selected, propmap]
    rw [hs]
    by_cases ht : selected p propmap.tail = []
    · rw [ht]; decide
    · rw [joinC_cons ht]; simp [str]
  rw [e']
  refine ⟨_, rfl, holds_cstring h, h.nul hne, ?_, by rw [h.wr, if_neg hne]⟩
  have gen : ∀ ts : List (List Byte), (∀ t ∈ ts, (0 : Byte) ∉ t) → (0 : Byte) ∉ joinC ts := by
    intro ts
    induction ts with
    | nil => intro _; simp [joinC]
    | cons t ts ih =>
      intro h
      by_cases hts : ts = []
      · subst hts; exact h t (by simp)
      · rw [joinC_cons hts]
        intro hm
        rcases List.mem_append.1 hm with hm | hm
        · exact h t (by simp) hm
        · rcases List.mem_cons.1 hm with hm | hm
          · exact absurd hm (by decide)
          · exact ih (fun x hx => h x (List.mem_cons_of_mem _ hx)) hm
  refine gen _ ?_
  intro t ht
  obtain ⟨q, hq, rfl⟩ := selected_sub p t ht
  exact names_nul q hq

theorem joinC_length (ts : List (List Byte)) : (joinC ts).length ≤ (ts.map (fun t => t.length + 1)).sum := by
  induction ts with
  | nil => simp [joinC]
  | cons t ts ih =>
    by_cases hts : ts = []
    · subst hts; simp [joinC]
    · rw [joinC_cons hts]
      simp only [List.length_append, List.length_cons, List.map_cons, List.sum_cons]
      omega

theorem joinC_length' (ts : List (List Byte)) (h : ts ≠ []) : (joinC ts).length + 1 = (ts.map (fun t => t.length + 1)).sum := by
  induction ts with
  | nil => exact absurd rfl h
  | cons t ts ih =>
    by_cases hts : ts = []
    · subst hts; simp [joinC]
    · rw [joinC_cons hts]
      have := ih hts
      simp only [List.length_append, List.length_cons, List.map_cons, List.sum_cons]
      omega

theorem selected_sum (p : BitVec 32) (ps : List PropEnt) :
    ((selected p ps).map (fun t => t.length + 1)).sum =
      (ps.map (fun e => if p &&& e.mask = e.prop then e.name.length + 1 else 0)).sum := by
  induction ps with
  | nil => rfl
  | cons e ps ih =>
    by_cases h : p &&& e.mask = e.prop
    · simp only [selected, List.filter_cons, h, decide_true, if_true, List.map_cons, List.sum_cons]
      simp only [selected] at ih
      rw [ih]
    · simp only [selected, List.filter_cons, h, decide_false, Bool.false_eq_true, if_false, List.map_cons, List.sum_cons, Nat.zero_add]
      simp only [selected] at ih
      rw [ih]

def cost (p : BitVec 32) (e : PropEnt) : Nat := if p &&& e.mask = e.prop then e.name.length + 1 else 0

theorem cost_le (p : BitVec 32) (e : PropEnt) : cost p e ≤ e.name.length + 1 := by
  unfold cost; split <;> omega

/-- Of entries with one mask and different values at most one is printed. -/
theorem cost_group (p m : BitVec 32) (B : Nat) : ∀ (ps : List PropEnt), (∀ e ∈ ps, e.mask = m ∧ e.name.length + 1 ≤ B) →
    ps.Pairwise (fun a b => a.prop ≠ b.prop) → (ps.map (cost p)).sum ≤ B
  | [], _, _ => Nat.zero_le _
  | e :: ps, h, hp => by
    obtain ⟨h1, h2⟩ := h e List.mem_cons_self
    rw [List.pairwise_cons] at hp
    rw [List.map_cons, List.sum_cons]
    by_cases hs : p &&& e.mask = e.prop
    · have hz : (ps.map (cost p)).sum = 0 := by
        have : ∀ q ∈ ps, cost p q = 0 := by
          intro q hq
          have hm := (h q (List.mem_cons_of_mem _ hq)).1
          unfold cost
          rw [if_neg]
          rw [hm, ← h1, hs]
          exact hp.1 q hq
        rw [List.map_congr_left this]
        simp
      rw [hz]
      have := cost_le p e
      omega
    · have : cost p e = 0 := by unfold cost; rw [if_neg hs]
      rw [this, Nat.zero_add]
      exact cost_group p m B ps (fun q hq => h q (List.mem_cons_of_mem _ hq)) hp.2

theorem selected_bound (p : BitVec 32) : ((selected p propmap).map (fun t => t.length + 1)).sum ≤ 102 := by
  rw [selected_sum]
  show (propmap.map (cost p)).sum ≤ 102
  have hsplit : propmap = propmap.take 3 ++ ((propmap.drop 3).take 3 ++ ((propmap.drop 6).take 6 ++ levels)) := rfl
  rw [hsplit]
  simp only [List.map_append, List.sum_append]
  have flags : ∀ ps : List PropEnt, (ps.map (cost p)).sum ≤ (ps.map (fun e => e.name.length + 1)).sum := by
    intro ps
    induction ps with
    | nil => exact Nat.le_refl _
    | cons e ps ih =>
      have := cost_le p e
      simp only [List.map_cons, List.sum_cons]; omega
  have a := flags (propmap.take 3)
  have a' : ((propmap.take 3).map (fun e => e.name.length + 1)).sum = 24 := by decide
  have b := flags ((propmap.drop 6).take 6)
  have b' : (((propmap.drop 6).take 6).map (fun e => e.name.length + 1)).sum = 56 := by decide
  have c := cost_group p 60 14 ((propmap.drop 3).take 3) (by decide) (by decide)
  have d := cost_group p 0x70000 8 levels (by decide) (by decide)
  omega

/-- **C38** (buffers): for every property word and every buffer of at least 102
bytes, `cali_prop2string` stays inside the buffer, does not fail, and what it
prints reads back as the word if that is valid. -/
theorem C38_buffer_partial (p : BitVec 32) (mem : Nat → Byte) (len : Nat) (hlen : 102 ≤ len) :
    ∃ n, (prop2string p mem len).2 = some n ∧ (prop2string p mem len).1.written ≤ len ∧
      (prop2string p mem len).1.mem n = 0 ∧
      (Valid p → string2prop (cstring (prop2string p mem len).1.mem n) = p) := by
  obtain ⟨n, h1, h2, h3, h4, h5⟩ := C38_written p mem len (by omega)
  refine ⟨n, h1, ?_, h3, fun hv => by rw [h2]; exact C38_roundtrip p hv⟩
  rw [h5]
  have hl : (joinC (selected p propmap)).length = n := by rw [← h2]; simp [cstring]
  have hb := selected_bound p
  have hne : selected p propmap ≠ [] := by
    have hs : selected p propmap = str "default" :: selected p propmap.tail := by
      simp [selected, propmap]
    rw [hs]; simp
  have := joinC_length' _ hne
  omega

/-- **C38** is false for shorter buffers: only each single name is compared
with the buffer length, so whenever the whole string does not fit (but 15 bytes
are given), the function writes beyond the buffer and reports success. -/
theorem C38_violation_overflow (p : BitVec 32) (mem : Nat → Byte) (len : Nat) (hlen : 15 ≤ len)
    (hshort : len ≤ (joinC (selected p propmap)).length) :
    ∃ n, (prop2string p mem len).2 = some n ∧ len < (prop2string p mem len).1.written := by
  obtain ⟨n, h1, h2, h3, h4, h5⟩ := C38_written p mem len hlen
  have hl : (joinC (selected p propmap)).length = n := by rw [← h2]; simp [cstring]
  exact ⟨n, h1, by omega⟩

/-- Such a call: `cali_prop2string(CALI_ATTR_NESTED, buf, 16)` writes 23 bytes. -/
example : 16 ≤ (joinC (selected 256 propmap)).length ∧ ((prop2string 256 (fun _ => 0) 16).1.written = 23) := by
  decide +kernel

/-- Valid words: nested, thread scope, level 3. -/
example : Valid (256 ||| 20 ||| 0x30000) ∧
    joinC (selected (256 ||| 20 ||| 0x30000) propmap) = str "default:thread_scope:nested:level_3" := by
  unfold Valid; decide +kernel

/-- A word that contains a property name hides the name itself (`strstr` looks
at the first occurrence only), and a property name is recognised inside a
longer word with an underscore. -/
theorem C38_other_words : string2prop (str "xasvalue:asvalue") = 0 ∧ string2prop (str "my_nested") = 256 := by
  decide +kernel

/-- Type names round-trip for every type. -/
theorem C39_type_names (t : Nat) (ht : t ≤ 9) : string2type (type2string t) = t := by
  interval_cases t <;> decide +kernel

/-- A text that is not a type name is the invalid type. -/
theorem C39_unknown_type (s : List Byte) (h : ∀ t, 1 ≤ t → t ≤ 9 → s ≠ type2string t) : string2type s = 0 := by
  by_cases h0 : s = str "inv"
  · subst h0; decide +kernel
  have hn : typemap.find? (fun e => e.1 = s) = none := by
    rw [List.find?_eq_none]
    intro e he
    simp only [decide_eq_true_eq]
    intro e1
    have : ∃ t, t ≤ 9 ∧ e.1 = type2string t := by
      have hall : ∀ e ∈ typemap, ∃ t ∈ List.range 10, e.1 = type2string t := by decide +kernel
      obtain ⟨t, ht, e2⟩ := hall e he
      exact ⟨t, by simp at ht; omega, e2⟩
    obtain ⟨t, ht, e2⟩ := this
    rcases Nat.eq_zero_or_pos t with rfl | hp
    · apply h0
      rw [← e1, e2]; decide +kernel
    · exact h t hp ht (by rw [← e1, e2])
  unfold string2type
  rw [hn]; rfl

/-- A name counts only as a whole word: with a letter or digit right after or before it, it is not recognised; with any other byte it is. -/
theorem C38_whole_words (c : Byte) :
    string2prop (str "asvalue" ++ [c]) =
      (if c ∈ str "0123456789abcdefghijklmnopqrstuvwxyzABCDEFGHIJKLMNOPQRSTUVWXYZ" then 0 else 1) ∧
    string2prop (c :: str "asvalue") =
      (if c ∈ str "0123456789abcdefghijklmnopqrstuvwxyzABCDEFGHIJKLMNOPQRSTUVWXYZ" then 0 else 1) := by
  have key : ∀ i : Fin 256, string2prop (str "asvalue" ++ [BitVec.ofNat 8 i]) =
      (if BitVec.ofNat 8 i ∈ str "0123456789abcdefghijklmnopqrstuvwxyzABCDEFGHIJKLMNOPQRSTUVWXYZ" then 0 else 1) ∧
    string2prop (BitVec.ofNat 8 i :: str "asvalue") =
      (if BitVec.ofNat 8 i ∈ str "0123456789abcdefghijklmnopqrstuvwxyzABCDEFGHIJKLMNOPQRSTUVWXYZ" then 0 else 1) := by
    decide +kernel
  have := key ⟨c.toNat, c.isLt⟩
  simpa using this

end Verif.PropStr
