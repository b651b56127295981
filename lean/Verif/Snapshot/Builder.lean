/-!
# Snapshot builder

Model of `SnapshotBuilder` (`/repo/include/caliper/SnapshotRecord.h:63-124`).  The target memory is a total function from
positions to entries, so that writes outside the builder's range would be visible; `eq` is `operator==` on entries
(`Entry.h:109-115`), an arbitrary boolean relation here.
-/
namespace Verif.Snap

variable {α : Type}

/-- `class SnapshotBuilder` (`SnapshotRecord.h:65-68`) -/
structure Builder (α : Type) where
  cap : Nat
  mem : Nat → α
  len : Nat
  skipped : Nat

/-- write one cell -/
def wr (m : Nat → α) (i : Nat) (x : α) : Nat → α := fun j => if j = i then x else m j

/-- first loop of `remove` (`SnapshotRecord.h:91-96`): position of the first equal entry, or `len` -/
def findPos (eq : α → α → Bool) (m : Nat → α) (e : α) (len : Nat) : Nat → Nat → Nat
  | 0, pos => pos
  | fuel + 1, pos => if pos < len then (if eq e (m pos) then pos else findPos eq m e len fuel (pos + 1)) else pos

/-- second loop of `remove` (`SnapshotRecord.h:97-98`) -/
def shift (len : Nat) : Nat → Nat → (Nat → α) → (Nat → α)
  | 0, _, m => m
  | fuel + 1, pos, m => if pos < len then shift len fuel (pos + 1) (wr m pos (m (pos + 1))) else m

/-- `remove(e)` (`SnapshotRecord.h:88-99`) -/
def Builder.remove (eq : α → α → Bool) (b : Builder α) (e : α) : Builder α :=
  let pos := findPos eq b.mem e b.len b.len 0
  let len := if pos < b.len then b.len - 1 else b.len
  { b with len := len, mem := shift len len pos b.mem }

/-- `append(e)` (`SnapshotRecord.h:101-107`) -/
def Builder.append (b : Builder α) (e : α) : Builder α :=
  if b.len < b.cap then { b with mem := wr b.mem b.len e, len := b.len + 1 } else { b with skipped := b.skipped + 1 }

/-- `std::copy_n(entries, n, dst)` -/
def copyN : List α → Nat → Nat → (Nat → α) → (Nat → α)
  | x :: xs, n + 1, dst, m => copyN xs n (dst + 1) (wr m dst x)
  | _, _, _, m => m

/-- `append(n, entries)` and `append(view)` (`SnapshotRecord.h:109-118`) -/
def Builder.appendN (b : Builder α) (es : List α) : Builder α :=
  let n := min es.length (b.cap - b.len)
  { b with mem := copyN es n b.len b.mem, len := b.len + n, skipped := b.skipped + (es.length - n) }

/-- `view()` (`SnapshotRecord.h:120`) -/
def Builder.view (b : Builder α) : List α := (List.range b.len).map b.mem

/-- builder operations -/
inductive BOp (α : Type) where
  | append (e : α)
  | appendN (es : List α)
  | remove (e : α)

/-- one operation -/
def Builder.step (eq : α → α → Bool) (b : Builder α) : BOp α → Builder α
  | .append e => b.append e
  | .appendN es => b.appendN es
  | .remove e => b.remove eq e

/-- a history of operations -/
def Builder.run (eq : α → α → Bool) (b : Builder α) : List (BOp α) → Builder α
  | [] => b
  | op :: ops => (b.step eq op).run eq ops

/-- fresh builder over given memory (`SnapshotRecord.h:73-75`) -/
def Builder.init (cap : Nat) (mem : Nat → α) : Builder α := ⟨cap, mem, 0, 0⟩

/-! ### specification: a bounded list -/

/-- contents and number of dropped entries -/
structure BSpec (α : Type) where
  l : List α
  skipped : Nat

/-- append as much as fits, count the rest; remove the first equal entry -/
def BSpec.step (eq : α → α → Bool) (cap : Nat) (s : BSpec α) : BOp α → BSpec α
  | .append e => ⟨(s.l ++ [e]).take cap, s.skipped + (s.l.length + 1 - cap)⟩
  | .appendN es => ⟨(s.l ++ es).take cap, s.skipped + (s.l.length + es.length - cap)⟩
  | .remove e => ⟨s.l.eraseP (eq e), s.skipped⟩

@[inherit_doc BSpec.step]
def BSpec.run (eq : α → α → Bool) (cap : Nat) (s : BSpec α) : List (BOp α) → BSpec α
  | [] => s
  | op :: ops => (s.step eq cap op).run eq cap ops

/-! ### lemmas -/

theorem view_wr_ge (m : Nat → α) (n i : Nat) (x : α) (h : n ≤ i) : (List.range n).map (wr m i x) = (List.range n).map m := by
  apply List.map_congr_left
  intro j hj
  simp only [List.mem_range] at hj
  simp [wr, show j ≠ i by omega]

theorem copyN_spec (es : List α) (n dst : Nat) (m : Nat → α) (hn : n ≤ es.length) :
    (∀ j, j < dst ∨ dst + n ≤ j → copyN es n dst m j = m j) ∧
    (List.range (dst + n)).map (copyN es n dst m) = (List.range dst).map m ++ es.take n := by
  induction es generalizing n dst m with
  | nil =>
    have : n = 0 := by simpa using hn
    subst this
    exact ⟨fun _ _ => rfl, by simp [copyN]⟩
  | cons x xs ih =>
    cases n with
    | zero => exact ⟨fun _ _ => rfl, by simp [copyN]⟩
    | succ n =>
      obtain ⟨h1, h2⟩ := ih n (dst + 1) (wr m dst x) (by simpa using hn)
      simp only [copyN]
      constructor
      · intro j hj
        rw [h1 j (by omega)]
        simp [wr, show j ≠ dst by omega]
      · rw [show dst + (n + 1) = dst + 1 + n by omega, h2, List.range_succ, List.map_append, view_wr_ge _ _ _ _ (Nat.le_refl _)]
        simp [wr]

theorem findPos_spec (eq : α → α → Bool) (m : Nat → α) (e : α) (len : Nat) (fuel pos : Nat) (hf : len ≤ pos + fuel) (hp : pos ≤ len) :
    pos ≤ findPos eq m e len fuel pos ∧ findPos eq m e len fuel pos ≤ len ∧
    (∀ j, pos ≤ j → j < findPos eq m e len fuel pos → eq e (m j) = false) ∧
    (findPos eq m e len fuel pos < len → eq e (m (findPos eq m e len fuel pos)) = true) := by
  induction fuel generalizing pos with
  | zero =>
    simp only [findPos]
    exact ⟨Nat.le_refl _, hp, fun j a b => by omega, fun h => by omega⟩
  | succ fuel ih =>
    simp only [findPos]
    split
    · split
      · rename_i h1 h2
        exact ⟨Nat.le_refl _, hp, fun j a b => by omega, fun _ => h2⟩
      · rename_i h1 h2
        obtain ⟨a, b, c, d⟩ := ih (pos + 1) (by omega) (by omega)
        refine ⟨by omega, b, fun j h3 h4 => ?_, d⟩
        by_cases e : j = pos
        · subst e; simpa using h2
        · exact c j (by omega) h4
    · exact ⟨Nat.le_refl _, hp, fun j a b => by omega, fun h => by omega⟩

theorem shift_spec (len : Nat) (fuel pos : Nat) (m : Nat → α) (hf : len ≤ pos + fuel) (j : Nat) :
    shift len fuel pos m j = if pos ≤ j ∧ j < len then m (j + 1) else m j := by
  induction fuel generalizing pos m with
  | zero =>
    simp only [shift]
    rw [if_neg (by omega)]
  | succ fuel ih =>
    simp only [shift]
    split
    · rw [ih (pos + 1) _ (by omega)]
      simp only [wr]
      by_cases h1 : pos + 1 ≤ j ∧ j < len
      · rw [if_pos h1, if_neg (by omega), if_pos (by omega)]
      · rw [if_neg h1]
        by_cases h2 : j = pos
        · subst h2; simp [*]
        · rw [if_neg h2, if_neg (by omega)]
    · rw [if_neg (by omega)]

theorem eraseP_split {p : α → Bool} {l₁ l₂ : List α} {a : α} (h1 : ∀ x ∈ l₁, p x = false) (h2 : p a = true) :
    (l₁ ++ a :: l₂).eraseP p = l₁ ++ l₂ := by
  induction l₁ with
  | nil => simp [h2]
  | cons x xs ih =>
    have := h1 x (by simp)
    simp only [List.cons_append, List.eraseP_cons, this]
    rw [ih (fun y hy => h1 y (by simp [hy]))]
    rfl

theorem view_split (m : Nat → α) {k n : Nat} (h : k < n) :
    (List.range n).map m = (List.range k).map m ++ m k :: (List.range (n - k - 1)).map (fun j => m (k + 1 + j)) := by
  apply List.ext_getElem
  · simp; omega
  · intro i h1 h2
    simp only [List.length_map, List.length_range] at h1
    simp only [List.getElem_map, List.getElem_range]
    by_cases hi : i < k
    · rw [List.getElem_append_left (by simpa using hi)]; simp
    · rw [List.getElem_append_right (by simp; omega)]
      simp only [List.length_map, List.length_range]
      by_cases he : i = k
      · subst he; simp
      · rw [List.getElem_cons]
        rw [dif_neg (by omega)]
        simp only [List.getElem_map, List.getElem_range]
        congr 1; omega

theorem remove_view (eq : α → α → Bool) (b : Builder α) (e : α) : (b.remove eq e).view = b.view.eraseP (eq e) := by
  obtain ⟨h1, h2, h3, h4⟩ := findPos_spec eq b.mem e b.len b.len 0 (by omega) (by omega)
  unfold Builder.remove Builder.view
  simp only
  generalize findPos eq b.mem e b.len b.len 0 = pos at *
  by_cases hp : pos < b.len
  · rw [if_pos hp]
    rw [view_split b.mem hp, eraseP_split (fun x hx => ?_) (h4 hp)]
    · apply List.ext_getElem
      · simp; omega
      · intro i k1 k2
        simp only [List.length_map, List.length_range] at k1
        simp only [List.getElem_map, List.getElem_range]
        rw [shift_spec _ _ _ _ (by omega)]
        by_cases hi : i < pos
        · rw [List.getElem_append_left (by simpa using hi), if_neg (by omega)]; simp
        · rw [List.getElem_append_right (by simp; omega), if_pos (by omega)]
          simp only [List.getElem_map, List.getElem_range, List.length_map, List.length_range]
          congr 1; omega
    · simp only [List.mem_map, List.mem_range] at hx
      obtain ⟨j, hj, rfl⟩ := hx
      exact h3 j (by omega) hj
  · rw [if_neg hp]
    have : pos = b.len := by omega
    subst this
    rw [List.eraseP_of_forall_not]
    · apply List.map_congr_left
      intro j hj
      rw [shift_spec _ _ _ _ (by omega), if_neg (by omega)]
    · intro x hx
      simp only [List.mem_map, List.mem_range] at hx
      obtain ⟨j, hj, rfl⟩ := hx
      simp [h3 j (by omega) hj]

theorem step_spec (eq : α → α → Bool) (b : Builder α) (hb : b.len ≤ b.cap) (op : BOp α) :
    (b.step eq op).cap = b.cap ∧ (b.step eq op).len ≤ b.cap ∧
    (⟨(b.step eq op).view, (b.step eq op).skipped⟩ : BSpec α) = BSpec.step eq b.cap ⟨b.view, b.skipped⟩ op ∧
    (∀ i, b.cap ≤ i → (b.step eq op).mem i = b.mem i) := by
  have hlen : b.view.length = b.len := by simp [Builder.view]
  cases op with
  | append e =>
    simp only [Builder.step, Builder.append, BSpec.step, hlen]
    split
    · rename_i h
      refine ⟨rfl, h, ?_, fun i hi => ?_⟩
      · rw [List.take_of_length_le (by simp [hlen]; omega)]
        congr 1
        · simp only [Builder.view, List.range_succ, List.map_append, List.map_cons, List.map_nil]
          rw [view_wr_ge _ _ _ _ (Nat.le_refl _)]
          simp [wr]
        · simp only; omega
      · simp [wr, show i ≠ b.len by omega]
    · rename_i h
      refine ⟨rfl, hb, ?_, fun i hi => rfl⟩
      have : b.cap = b.len := by omega
      rw [this, List.take_append_of_le_length (by rw [hlen]; exact Nat.le_refl _), List.take_of_length_le (by rw [hlen]; exact Nat.le_refl _)]
      congr 1
      simp only; omega
  | appendN es =>
    simp only [Builder.step, Builder.appendN, BSpec.step, hlen]
    obtain ⟨h1, h2⟩ := copyN_spec es (min es.length (b.cap - b.len)) b.len b.mem (by omega)
    refine ⟨trivial, by omega, ?_, fun i hi => h1 i (by omega)⟩
    congr 1
    · simp only [Builder.view] at hlen ⊢
      rw [h2, List.take_append, hlen]
      have e1 : ((List.range b.len).map b.mem).take b.cap = (List.range b.len).map b.mem := List.take_of_length_le (by rw [hlen]; exact hb)
      rw [e1]
      congr 1
      by_cases h : es.length ≤ b.cap - b.len
      · rw [Nat.min_eq_left h, List.take_of_length_le (Nat.le_refl _), List.take_of_length_le h]
      · rw [Nat.min_eq_right (by omega)]
    · omega
  | remove e =>
    have hv := remove_view eq b e
    simp only [Builder.step, BSpec.step]
    rw [hv]
    have hc : (b.remove eq e).cap = b.cap := rfl
    have hs : (b.remove eq e).skipped = b.skipped := rfl
    have hl : (b.remove eq e).len ≤ b.len := by
      unfold Builder.remove; simp only; split <;> omega
    refine ⟨hc, by omega, by rw [hs], fun i hi => ?_⟩
    unfold Builder.remove
    simp only
    obtain ⟨h1, h2, _, _⟩ := findPos_spec eq b.mem e b.len b.len 0 (by omega) (by omega)
    rw [shift_spec _ _ _ _ (by split <;> omega), if_neg (by split <;> omega)]

end Verif.Snap
