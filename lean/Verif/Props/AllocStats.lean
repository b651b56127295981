import Verif.Serv.AllocStatsSpec
import Mathlib.Data.List.Nodup
import Mathlib.Data.List.Infix
import Mathlib.Data.List.Induction
import Mathlib.Data.List.Dedup
/-!
# C89: allocation statistics
-/
namespace Verif.Serv.AllocStats

/-! ## histories -/

theorem live_snoc (h : List Ev) (e : Ev) : live (h ++ [e]) = match e with
    | .alloc a s r => live h ++ [⟨a, s, r⟩]
    | .free a => (live h).filter fun b => decide (b.addr ≠ a)
    | .snap => live h := by
  simp only [live, List.foldl_append, List.foldl_cons, List.foldl_nil]
  cases e <;> rfl

/-- an address is allocated -/
def IsLive (p : Nat) (h : List Ev) : Prop := ∃ b ∈ live h, b.addr = p

theorem tally_eq (r : Nat) (h : List Ev) : tally r h = ((live h).map fun b => if b.region = r then b.size else 0).sum := by
  unfold tally
  generalize live h = l
  induction l with
  | nil => rfl
  | cons b l ih =>
    by_cases hr : b.region = r
    · simp [List.filter_cons, hr, ih]
    · simp [List.filter_cons, hr, ih]

theorem sum_remove (g : Block → Nat) : ∀ (l : List Block) (b : Block), (l.map Block.addr).Nodup → b ∈ l →
    ((l.filter fun x => decide (x.addr ≠ b.addr)).map g).sum + g b = (l.map g).sum := by
  intro l b
  induction l with
  | nil => intro _ h; cases h
  | cons x l ih =>
    intro hn hb
    simp only [List.map_cons, List.nodup_cons] at hn
    rcases List.mem_cons.mp hb with rfl | hb
    · have : (l.filter fun x => decide (x.addr ≠ b.addr)) = l := by
        rw [List.filter_eq_self]
        intro x hx
        apply decide_eq_true
        intro he
        exact hn.1 (he ▸ List.mem_map_of_mem hx)
      rw [List.filter_cons_of_neg (by simp), this, List.map_cons, List.sum_cons]
      omega
    · have hne : x.addr ≠ b.addr := fun he => hn.1 (he ▸ List.mem_map_of_mem hb)
      rw [List.filter_cons_of_pos (by simpa using hne), List.map_cons, List.sum_cons, List.map_cons, List.sum_cons]
      have := ih hn.2 hb
      omega

theorem sum_filter_le (g : Block → Nat) (p : Block → Bool) (l : List Block) : ((l.filter p).map g).sum ≤ (l.map g).sum := by
  induction l with
  | nil => exact Nat.le_refl _
  | cons b l ih =>
    by_cases hb : p b = true
    · rw [List.filter_cons_of_pos hb]; simp; omega
    · rw [List.filter_cons_of_neg hb]; simp; omega

theorem sizes_snoc (r : Nat) (h : List Ev) (e : Ev) : sizes r (h ++ [e]) = sizes r h ++ (match e with
    | .alloc _ s r' => if r' = r then [s] else []
    | _ => []) := by
  simp only [sizes, List.filterMap_append]
  congr 1
  cases e with
  | alloc a s r' => by_cases hr : r' = r <;> simp [hr]
  | free a => rfl
  | snap => rfl

theorem allSizes_snoc (h : List Ev) (e : Ev) : allSizes (h ++ [e]) = allSizes h ++ (match e with
    | .alloc _ s _ => [s]
    | _ => []) := by
  simp only [allSizes, List.filterMap_append]
  congr 1
  cases e <;> rfl

theorem sizes_sum_le (r : Nat) (h : List Ev) : (sizes r h).sum ≤ (allSizes h).sum := by
  induction h using List.reverseRecOn with
  | nil => exact Nat.le_refl _
  | append_singleton h e ih =>
    rw [sizes_snoc, allSizes_snoc]
    cases e with
    | alloc a s r' => by_cases hr : r' = r <;> simp [hr] <;> omega
    | free a => simpa using ih
    | snap => simpa using ih

theorem bytes_le (h : List Ev) : bytes h ≤ (allSizes h).sum := by
  induction h using List.reverseRecOn with
  | nil => exact Nat.le_refl _
  | append_singleton h e ih =>
    unfold bytes at *
    rw [allSizes_snoc, live_snoc]
    cases e with
    | alloc a s r' => simp; exact ih
    | free a =>
      simp only [List.append_nil]
      refine le_trans ?_ ih
      exact sum_filter_le _ _ _
    | snap => simpa using ih

theorem tally_le (r : Nat) (h : List Ev) : tally r h ≤ bytes h := by
  unfold tally bytes
  exact sum_filter_le _ _ _

theorem live_sizes (h : List Ev) : ∀ b ∈ live h, b.size ∈ sizes b.region h := by
  induction h using List.reverseRecOn with
  | nil => intro b hb; cases hb
  | append_singleton h e ih =>
    intro b hb
    rw [live_snoc] at hb
    rw [sizes_snoc]
    cases e with
    | alloc a s r =>
      rcases List.mem_append.mp hb with hb | hb
      · exact List.mem_append_left _ (ih b hb)
      · obtain rfl := List.mem_singleton.mp hb
        simp
    | free a => exact List.mem_append_left _ (ih b (List.mem_filter.mp hb).1)
    | snap => exact List.mem_append_left _ (ih b hb)

theorem IsPeak.snoc {f : List Ev → Nat} {h : List Ev} {m : Nat} (hp : IsPeak f h m) (e : Ev) : IsPeak f (h ++ [e]) (Nat.max m (f (h ++ [e]))) := by
  obtain ⟨h1, q, hq, hm⟩ := hp
  constructor
  · intro q hq
    rcases List.prefix_concat_iff.mp hq with rfl | hq
    · exact Nat.le_max_right _ _
    · exact le_trans (h1 q hq) (Nat.le_max_left _ _)
  · rcases Nat.le_total (f (h ++ [e])) m with hle | hle
    · exact ⟨q, hq.trans (List.prefix_append _ _), by rw [hm]; exact (Nat.max_eq_left hle).symm⟩
    · exact ⟨h ++ [e], List.prefix_refl _, (Nat.max_eq_right hle).symm⟩

theorem IsPeak.snoc_le {f : List Ev → Nat} {h : List Ev} {m : Nat} (hp : IsPeak f h m) (e : Ev) (hle : f (h ++ [e]) ≤ f h) : IsPeak f (h ++ [e]) m := by
  have := hp.snoc e
  have h2 := hp.1 h (List.prefix_refl _)
  rwa [show Nat.max m (f (h ++ [e])) = m from Nat.max_eq_left (le_trans hle h2)] at this

/-! ## concurrent runs -/

def cur (tr : List (Nat × Act)) (c : Nat → Option Ev) : Nat → Option Ev := tr.foldl callStep c

theorem hist_append (ev : (Nat → Option Ev) → Nat × Act → List Ev) (a b : List (Nat × Act)) : ∀ c, hist ev (a ++ b) c = hist ev a c ++ hist ev b (cur a c) := by
  induction a with
  | nil => intro c; rfl
  | cons x a ih => intro c; simp [hist, ih, cur]

theorem Valid_append (a b : List (Nat × Act)) : ∀ s, Valid s (a ++ b) ↔ Valid s a ∧ Valid (run s a) b := by
  induction a with
  | nil => intro s; simp [Valid, run]
  | cons x a ih => intro s; simp [Valid, ih, run, and_assoc]

/-- what is known about a region's entry -/
def RegOK (r : Nat) (h : List Ev) (R : Option RegionInfo) : Prop :=
  (sizes r h = [] → R = none) ∧
  (sizes r h ≠ [] → ∃ i, R = some i ∧ i.current = tally r h ∧ i.total = (sizes r h).sum ∧ (i.max ∈ sizes r h ∧ ∀ n ∈ sizes r h, n ≤ i.max) ∧
    IsPeak (tally r) h i.hwm ∧ i.count = (sizes r h).length ∧ i.path = some r)

/-- what is known about a thread -/
def AtOK (s : St) (c : Option Ev) (rh mh : List Ev) : At → Prop
  | .idle => True
  | .trackRegion p n r => s.allocs p = some ⟨n, r⟩ ∧ ¬ IsLive p rh ∧ ¬ IsLive p mh ∧ c = some (.alloc p n r)
  | .trackMark p n => ∃ r, s.allocs p = some ⟨n, r⟩ ∧ ⟨p, n, r⟩ ∈ live rh ∧ ¬ IsLive p mh ∧ c = some (.alloc p n r)
  | .untrackRegion p i => s.allocs p = none ∧ ⟨p, i.bytes, i.path⟩ ∈ live rh ∧ ⟨p, i.bytes, i.path⟩ ∈ live mh ∧ c = some (.free p)
  | .untrackMark p b => s.allocs p = none ∧ ¬ IsLive p rh ∧ (∃ r, ⟨p, b, r⟩ ∈ live mh) ∧ c = some (.free p)

/-- a snapshot interval starts here -/
def Starts (a : List Ev) : Prop := a = [] ∨ ∃ a', a = a' ++ [.snap]

structure Inv (s : St) (c : Nat → Option Ev) (rh mh : List Ev) : Prop where
  pend : ∀ t, AtOK s (c t) rh mh (s.at_ t)
  uniq : ∀ t u p, (s.at_ t).addr = some p → (s.at_ u).addr = some p → t = u
  gone : ∀ p, (∀ t, (s.at_ t).addr ≠ some p) → s.allocs p = none → ¬ IsLive p rh ∧ ¬ IsLive p mh
  used : ∀ p i, (∀ t, (s.at_ t).addr ≠ some p) → s.allocs p = some i → ⟨p, i.bytes, i.path⟩ ∈ live rh ∧ ⟨p, i.bytes, i.path⟩ ∈ live mh
  nodR : ((live rh).map Block.addr).Nodup
  nodM : ((live mh).map Block.addr).Nodup
  regs : ∀ r, RegOK r rh (s.regions r)
  act : s.active = bytes mh
  now : ∀ a b, mh = a ++ b → Starts a → Ev.snap ∉ b → IsPeak (fun q => bytes (a ++ q)) b s.mark
  len : s.out.length = mh.count .snap
  outs : ∀ a b d, mh = a ++ b ++ .snap :: d → Starts a → Ev.snap ∉ b → ∃ m, s.out[a.count .snap]? = some m ∧ IsPeak (fun q => bytes (a ++ q)) b m


theorem upd_same {β : Type} (f : Nat → β) (a : Nat) (b : β) : upd f a b a = b := if_pos rfl
theorem upd_ne {β : Type} (f : Nat → β) {a x : Nat} (b : β) (h : x ≠ a) : upd f a b x = f x := if_neg h

theorem Inv.init : Inv St.init (fun _ => none) [] [] where
  pend t := trivial
  uniq t u p h := by simp [St.init, At.addr] at h
  gone p _ _ := ⟨fun ⟨b, hb, _⟩ => (by cases hb), fun ⟨b, hb, _⟩ => (by cases hb)⟩
  used p i _ h := by simp [St.init] at h
  nodR := List.nodup_nil
  nodM := List.nodup_nil
  regs r := ⟨fun _ => rfl, fun h => absurd rfl h⟩
  act := rfl
  now a b h _ _ := by
    obtain ⟨rfl, rfl⟩ := List.append_eq_nil_iff.mp h.symm
    refine ⟨fun q hq => ?_, [], List.prefix_refl _, rfl⟩
    obtain rfl := List.prefix_nil.mp hq
    exact Nat.le_refl _
  len := rfl
  outs a b d h := by simp at h

theorem isLive_alloc (p a n r : Nat) (h : List Ev) : IsLive p (h ++ [.alloc a n r]) ↔ IsLive p h ∨ p = a := by
  unfold IsLive
  rw [live_snoc]
  constructor
  · rintro ⟨b, hb, hp⟩
    rcases List.mem_append.mp hb with hb | hb
    · exact .inl ⟨b, hb, hp⟩
    · obtain rfl := List.mem_singleton.mp hb
      exact .inr hp.symm
  · rintro (⟨b, hb, hp⟩ | rfl)
    · exact ⟨b, List.mem_append_left _ hb, hp⟩
    · exact ⟨⟨p, n, r⟩, by simp, rfl⟩

theorem isLive_free (p a : Nat) (h : List Ev) : IsLive p (h ++ [.free a]) ↔ IsLive p h ∧ p ≠ a := by
  unfold IsLive
  rw [live_snoc]
  constructor
  · rintro ⟨b, hb, rfl⟩
    obtain ⟨h1, h2⟩ := List.mem_filter.mp hb
    exact ⟨⟨b, h1, rfl⟩, of_decide_eq_true h2⟩
  · rintro ⟨⟨b, hb, rfl⟩, h2⟩
    exact ⟨b, List.mem_filter.mpr ⟨hb, decide_eq_true h2⟩, rfl⟩

theorem mem_live_alloc (b : Block) (a n r : Nat) (h : List Ev) : b ∈ live (h ++ [.alloc a n r]) ↔ b ∈ live h ∨ b = ⟨a, n, r⟩ := by
  rw [live_snoc]; simp

theorem mem_live_free (b : Block) (a : Nat) (h : List Ev) : b ∈ live (h ++ [.free a]) ↔ b ∈ live h ∧ b.addr ≠ a := by
  rw [live_snoc]; simp

theorem nod_alloc {a : Nat} {h : List Ev} (n r : Nat) (hn : ((live h).map Block.addr).Nodup) (hl : ¬ IsLive a h) : ((live (h ++ [.alloc a n r])).map Block.addr).Nodup := by
  rw [live_snoc]
  simp only [List.map_append, List.map_cons, List.map_nil]
  rw [List.nodup_append]
  refine ⟨hn, List.nodup_singleton _, ?_⟩
  intro x hx y hy he
  obtain ⟨b, hb, rfl⟩ := List.mem_map.mp hx
  exact hl ⟨b, hb, he.trans (List.mem_singleton.mp hy)⟩

theorem nod_free (a : Nat) {h : List Ev} (hn : ((live h).map Block.addr).Nodup) : ((live (h ++ [.free a])).map Block.addr).Nodup := by
  rw [live_snoc]
  exact hn.sublist (List.filter_sublist.map _)

/-- what is known about the other threads does not depend on what happens to an address that is not theirs -/
theorem AtOK.other {s s' : St} {c : Option Ev} {rh mh rh' mh' : List Ev} {x : At} {a : Nat} (hx : AtOK s c rh mh x) (hne : x.addr ≠ some a)
    (hs : ∀ p, p ≠ a → s'.allocs p = s.allocs p) (hr : ∀ b : Block, b.addr ≠ a → (b ∈ live rh' ↔ b ∈ live rh))
    (hm : ∀ b : Block, b.addr ≠ a → (b ∈ live mh' ↔ b ∈ live mh)) : AtOK s' c rh' mh' x := by
  have lr : ∀ p, p ≠ a → (IsLive p rh' ↔ IsLive p rh) := by
    intro p hp
    constructor <;> rintro ⟨b, hb, rfl⟩
    · exact ⟨b, (hr b hp).mp hb, rfl⟩
    · exact ⟨b, (hr b hp).mpr hb, rfl⟩
  have lm : ∀ p, p ≠ a → (IsLive p mh' ↔ IsLive p mh) := by
    intro p hp
    constructor <;> rintro ⟨b, hb, rfl⟩
    · exact ⟨b, (hm b hp).mp hb, rfl⟩
    · exact ⟨b, (hm b hp).mpr hb, rfl⟩
  cases x with
  | idle => trivial
  | trackRegion p n r =>
    have hp : p ≠ a := fun h => hne (by rw [h]; rfl)
    obtain ⟨h1, h2, h3, h4⟩ := hx
    exact ⟨(hs p hp).trans h1, fun h => h2 ((lr p hp).mp h), fun h => h3 ((lm p hp).mp h), h4⟩
  | trackMark p n =>
    have hp : p ≠ a := fun h => hne (by rw [h]; rfl)
    obtain ⟨r, h1, h2, h3, h4⟩ := hx
    exact ⟨r, (hs p hp).trans h1, (hr _ hp).mpr h2, fun h => h3 ((lm p hp).mp h), h4⟩
  | untrackRegion p i =>
    have hp : p ≠ a := fun h => hne (by rw [h]; rfl)
    obtain ⟨h1, h2, h3, h4⟩ := hx
    exact ⟨(hs p hp).trans h1, (hr _ hp).mpr h2, (hm _ hp).mpr h3, h4⟩
  | untrackMark p b =>
    have hp : p ≠ a := fun h => hne (by rw [h]; rfl)
    obtain ⟨h1, h2, ⟨r, h3⟩, h4⟩ := hx
    exact ⟨(hs p hp).trans h1, fun h => h2 ((lr p hp).mp h), ⟨r, (hm _ hp).mpr h3⟩, h4⟩

theorem AtOK.congr {s s' : St} {c : Option Ev} {rh mh mh' : List Ev} {x : At} (hx : AtOK s c rh mh x) (hl : live mh' = live mh) (hs : s'.allocs = s.allocs := by rfl) : AtOK s' c rh mh' x := by
  cases x <;> simp only [AtOK, IsLive, hl, hs] at * <;> exact hx

/-- how one step of a thread affects the part of the invariant about addresses -/
structure Shape (s : St) (c : Nat → Option Ev) (rh mh : List Ev) : Prop where
  pend : ∀ t, AtOK s (c t) rh mh (s.at_ t)
  uniq : ∀ t u p, (s.at_ t).addr = some p → (s.at_ u).addr = some p → t = u
  gone : ∀ p, (∀ t, (s.at_ t).addr ≠ some p) → s.allocs p = none → ¬ IsLive p rh ∧ ¬ IsLive p mh
  used : ∀ p i, (∀ t, (s.at_ t).addr ≠ some p) → s.allocs p = some i → ⟨p, i.bytes, i.path⟩ ∈ live rh ∧ ⟨p, i.bytes, i.path⟩ ∈ live mh

theorem Inv.shape {s : St} {c : Nat → Option Ev} {rh mh : List Ev} (h : Inv s c rh mh) : Shape s c rh mh := ⟨h.pend, h.uniq, h.gone, h.used⟩

/-- a step of thread `t` for address `a`, which no other thread works on -/
theorem Shape.step {s s' : St} {c c' : Nat → Option Ev} {rh mh rh' mh' : List Ev} (h : Shape s c rh mh) (t a : Nat)
    (hother : ∀ u, u ≠ t → (s.at_ u).addr ≠ some a) (hc : ∀ u, u ≠ t → c' u = c u)
    (hat : ∀ u, u ≠ t → s'.at_ u = s.at_ u) (ht : (s.at_ t).addr = none ∨ (s.at_ t).addr = some a) (ht' : (s'.at_ t).addr = none ∨ (s'.at_ t).addr = some a)
    (hs : ∀ p, p ≠ a → s'.allocs p = s.allocs p) (hr : ∀ b : Block, b.addr ≠ a → (b ∈ live rh' ↔ b ∈ live rh))
    (hm : ∀ b : Block, b.addr ≠ a → (b ∈ live mh' ↔ b ∈ live mh))
    (hp : AtOK s' (c' t) rh' mh' (s'.at_ t))
    (hidle : (s'.at_ t).addr = none → (s'.allocs a = none → ¬ IsLive a rh' ∧ ¬ IsLive a mh') ∧ ∀ i, s'.allocs a = some i → ⟨a, i.bytes, i.path⟩ ∈ live rh' ∧ ⟨a, i.bytes, i.path⟩ ∈ live mh') :
    Shape s' c' rh' mh' := by
  have lr : ∀ p, p ≠ a → (IsLive p rh' ↔ IsLive p rh) := by
    intro p hp
    constructor <;> rintro ⟨b, hb, rfl⟩
    · exact ⟨b, (hr b hp).mp hb, rfl⟩
    · exact ⟨b, (hr b hp).mpr hb, rfl⟩
  have lm : ∀ p, p ≠ a → (IsLive p mh' ↔ IsLive p mh) := by
    intro p hp
    constructor <;> rintro ⟨b, hb, rfl⟩
    · exact ⟨b, (hm b hp).mp hb, rfl⟩
    · exact ⟨b, (hm b hp).mpr hb, rfl⟩
  have hfree : ∀ p, p ≠ a → (∀ u, (s'.at_ u).addr ≠ some p) → ∀ u, (s.at_ u).addr ≠ some p := by
    intro p hpa hu u
    by_cases hut : u = t
    · subst hut
      rcases ht with ht | ht <;> rw [ht]
      · simp
      · intro he; injection he with he; exact hpa he.symm
    · rw [← hat u hut]; exact hu u
  constructor
  · intro u
    by_cases hut : u = t
    · subst hut; exact hp
    · rw [hat u hut, hc u hut]
      exact (h.pend u).other (hother u hut) hs hr hm
  · intro u v p hu hv
    by_cases hut : u = t
    · by_cases hvt : v = t
      · rw [hut, hvt]
      · exfalso
        subst hut
        rw [hat v hvt] at hv
        rcases ht' with h1 | h1 <;> rw [h1] at hu
        · cases hu
        · rw [← hu] at hv; exact hother v hvt hv
    · by_cases hvt : v = t
      · exfalso
        subst hvt
        rw [hat u hut] at hu
        rcases ht' with h1 | h1 <;> rw [h1] at hv
        · cases hv
        · rw [← hv] at hu; exact hother u hut hu
      · rw [hat u hut] at hu; rw [hat v hvt] at hv
        exact h.uniq u v p hu hv
  · intro p hu hn
    by_cases hpa : p = a
    · subst hpa
      exact (hidle (by rcases ht' with h1 | h1 <;> [exact h1; exact absurd h1 (hu t)])).1 hn
    · rw [hs p hpa] at hn
      obtain ⟨h1, h2⟩ := h.gone p (hfree p hpa hu) hn
      exact ⟨fun h => h1 ((lr p hpa).mp h), fun h => h2 ((lm p hpa).mp h)⟩
  · intro p i hu hn
    by_cases hpa : p = a
    · subst hpa
      exact (hidle (by rcases ht' with h1 | h1 <;> [exact h1; exact absurd h1 (hu t)])).2 i hn
    · rw [hs p hpa] at hn
      obtain ⟨h1, h2⟩ := h.used p i (hfree p hpa hu) hn
      exact ⟨(hr _ hpa).mpr h1, (hm _ hpa).mpr h2⟩

/-! ## region entries -/

theorem RegOK.alloc {r n a : Nat} {h : List Ev} {R : Option RegionInfo} (hR : RegOK r h R) (hb : (allSizes (h ++ [.alloc a n r])).sum < 2 ^ 64) (hc : h.length < 2 ^ 64 - 1) :
    RegOK r (h ++ [.alloc a n r]) (some (addRegion R n r)) := by
  have hsz : sizes r (h ++ [.alloc a n r]) = sizes r h ++ [n] := by rw [sizes_snoc]; simp
  have htl : tally r (h ++ [.alloc a n r]) = tally r h + n := by rw [tally_eq, tally_eq, live_snoc]; simp
  have hle : tally r h + n < 2 ^ 64 := by
    rw [← htl]; exact lt_of_le_of_lt (le_trans (tally_le _ _) (bytes_le _)) hb
  have hsum : (sizes r h).sum + n < 2 ^ 64 := by
    have := sizes_sum_le r (h ++ [.alloc a n r])
    rw [hsz] at this
    simp at this
    omega
  have hlen : (sizes r h).length ≤ h.length := List.length_filterMap_le _ _
  refine ⟨fun h0 => by rw [hsz] at h0; simp at h0, fun _ => ?_⟩
  rw [hsz]
  by_cases h0 : sizes r h = []
  · rw [hR.1 h0, h0]
    have ht0 : ∀ q, q <+: h → tally r q = 0 := by
      intro q hq
      obtain ⟨w, rfl⟩ := hq
      have : sizes r q = [] := by
        simp only [sizes, List.filterMap_append, List.append_eq_nil_iff] at h0
        exact h0.1
      unfold tally
      have : ((live q).filter fun b => decide (b.region = r)) = [] := by
        rw [List.filter_eq_nil_iff]
        intro b hb hd
        have := live_sizes q b hb
        rw [of_decide_eq_true hd] at this
        simp_all
      rw [this]; rfl
    refine ⟨_, rfl, ?_, ?_, ⟨?_, ?_⟩, ?_, ?_, rfl⟩
    · rw [htl, ht0 h (List.prefix_refl _)]; simp [addRegion]
    · simp [addRegion]
    · simp [addRegion]
    · simp [addRegion]
    · have : IsPeak (tally r) h 0 := ⟨fun q hq => by rw [ht0 q hq], h, List.prefix_refl _, ht0 h (List.prefix_refl _)⟩
      have h2 := this.snoc (.alloc a n r)
      rw [htl, ht0 h (List.prefix_refl _)] at h2
      simpa [addRegion] using h2
    · rfl
  · obtain ⟨i, rfl, h1, h2, ⟨h3, h3'⟩, h4, h5, h6⟩ := hR.2 h0
    have hcur : add64 i.current n = tally r (h ++ [.alloc a n r]) := by
      rw [htl, h1]; exact Nat.mod_eq_of_lt hle
    refine ⟨_, rfl, hcur, ?_, ⟨?_, ?_⟩, ?_, ?_, h6⟩
    · show add64 i.total n = _
      rw [h2]; simp only [List.sum_append, List.sum_cons, List.sum_nil, Nat.add_zero]
      exact Nat.mod_eq_of_lt hsum
    · show Nat.max i.max n ∈ _
      rcases Nat.le_total i.max n with hle | hle
      · rw [show Nat.max i.max n = n from Nat.max_eq_right hle]; simp
      · rw [show Nat.max i.max n = i.max from Nat.max_eq_left hle]; simp [h3]
    · intro m hm
      show m ≤ Nat.max i.max n
      rcases List.mem_append.mp hm with hm | hm
      · exact le_trans (h3' m hm) (Nat.le_max_left _ _)
      · rw [List.mem_singleton.mp hm]; exact Nat.le_max_right _ _
    · show IsPeak _ _ (Nat.max i.hwm (add64 i.current n))
      rw [hcur]; exact h4.snoc _
    · show add64 i.count 1 = _
      rw [h5, List.length_append]
      exact Nat.mod_eq_of_lt (by simp; omega)

/-- an event that is not an allocation of the region and does not add to its blocks -/
theorem RegOK.same {r : Nat} {h : List Ev} {R R' : Option RegionInfo} (e : Ev) (hR : RegOK r h R) (hs : sizes r (h ++ [e]) = sizes r h) (hle : tally r (h ++ [e]) ≤ tally r h)
    (h0 : R = none → R' = none) (h1 : ∀ i, R = some i → i.current = tally r h → R' = some { i with current := tally r (h ++ [e]) }) : RegOK r (h ++ [e]) R' := by
  refine ⟨fun hn => h0 (hR.1 (hs ▸ hn)), fun hn => ?_⟩
  rw [hs]
  obtain ⟨i, hi, g1, g2, g3, g4, g5, g6⟩ := hR.2 (hs ▸ hn)
  exact ⟨_, h1 i hi g1, rfl, g2, g3, g4.snoc_le e hle, g5, g6⟩

theorem RegOK.alloc_other {r r' n a : Nat} {h : List Ev} {R : Option RegionInfo} (hR : RegOK r' h R) (hne : r ≠ r') : RegOK r' (h ++ [.alloc a n r]) R := by
  have : tally r' (h ++ [.alloc a n r]) = tally r' h := by rw [tally_eq, tally_eq, live_snoc]; simp [hne]
  refine hR.same _ (by rw [sizes_snoc]; simp [hne]) (le_of_eq this) id (fun i hi hc => ?_)
  rw [this, ← hc, hi]

theorem tally_free (r : Nat) {h : List Ev} (hn : ((live h).map Block.addr).Nodup) (b : Block) (hb : b ∈ live h) :
    tally r (h ++ [.free b.addr]) + (if b.region = r then b.size else 0) = tally r h := by
  rw [tally_eq, tally_eq, live_snoc]
  exact sum_remove (fun b => if b.region = r then b.size else 0) (live h) b hn hb

theorem bytes_free {h : List Ev} (hn : ((live h).map Block.addr).Nodup) (b : Block) (hb : b ∈ live h) : bytes (h ++ [.free b.addr]) + b.size = bytes h := by
  unfold bytes
  rw [live_snoc]
  exact sum_remove Block.size (live h) b hn hb

theorem sub64_eq {a b : Nat} (ha : a < 2 ^ 64) (hb : b ≤ a) : sub64 a b = a - b := by
  unfold sub64
  rw [Nat.mod_eq_of_lt (lt_of_le_of_lt hb ha), show a + (2 ^ 64 - b) = (a - b) + 2 ^ 64 by omega, Nat.add_mod_right, Nat.mod_eq_of_lt (by omega)]

theorem RegOK.free {h : List Ev} {R : Option RegionInfo} (hn : ((live h).map Block.addr).Nodup) (b : Block) (hb : b ∈ live h) (hR : RegOK b.region h R) (hle : (allSizes h).sum < 2 ^ 64) :
    RegOK b.region (h ++ [.free b.addr]) (some (subRegion R b.size)) := by
  have ht := tally_free b.region hn b hb
  simp only [if_true] at ht
  have hne : sizes b.region h ≠ [] := List.ne_nil_of_mem (live_sizes h b hb)
  have hlt : tally b.region h < 2 ^ 64 := lt_of_le_of_lt (le_trans (tally_le _ _) (bytes_le _)) hle
  obtain ⟨i, rfl, h1, -⟩ := hR.2 hne
  refine hR.same _ (by rw [sizes_snoc]; simp) (by omega) (by simp) (fun j hj hc => ?_)
  injection hj with hj
  subst hj
  simp only [subRegion]
  rw [hc, sub64_eq hlt (by omega)]
  congr 2
  omega

theorem RegOK.free_other {r : Nat} {h : List Ev} {R : Option RegionInfo} (hn : ((live h).map Block.addr).Nodup) (b : Block) (hb : b ∈ live h) (hR : RegOK r h R) (hne : b.region ≠ r) :
    RegOK r (h ++ [.free b.addr]) R := by
  have ht := tally_free r hn b hb
  rw [if_neg hne, Nat.add_zero] at ht
  refine hR.same _ (by rw [sizes_snoc]; simp) (le_of_eq ht) id (fun i hi hc => ?_)
  rw [ht, ← hc, hi]

/-! ## the high-water mark -/

structure Marks (mark : Nat) (out : List Nat) (mh : List Ev) : Prop where
  now : ∀ a b, mh = a ++ b → Starts a → Ev.snap ∉ b → IsPeak (fun q => bytes (a ++ q)) b mark
  len : out.length = mh.count .snap
  outs : ∀ a b d, mh = a ++ b ++ .snap :: d → Starts a → Ev.snap ∉ b → ∃ m, out[a.count .snap]? = some m ∧ IsPeak (fun q => bytes (a ++ q)) b m

theorem Inv.marks {s : St} {c : Nat → Option Ev} {rh mh : List Ev} (h : Inv s c rh mh) : Marks s.mark s.out mh := ⟨h.now, h.len, h.outs⟩

theorem Marks.event {mark mark' : Nat} {out : List Nat} {mh : List Ev} (h : Marks mark out mh) (e : Ev) (he : e ≠ .snap)
    (hm : ∀ {f : List Ev → Nat} {b : List Ev}, f (b ++ [e]) = bytes (mh ++ [e]) → f b = bytes mh → IsPeak f b mark → IsPeak f (b ++ [e]) mark') : Marks mark' out (mh ++ [e]) := by
  constructor
  · intro a b hab ha hb
    rcases List.eq_nil_or_concat b with rfl | ⟨b', x, rfl⟩
    · exfalso
      rw [List.append_nil] at hab
      rcases ha with rfl | ⟨a', rfl⟩
      · simp at hab
      · exact he (by simpa using (List.append_inj' hab rfl).2)
    · rw [List.concat_eq_append] at *
      rw [← List.append_assoc] at hab
      obtain ⟨h1, h2⟩ := List.append_inj' hab rfl
      obtain rfl : e = x := by simpa using h2
      refine hm (by rw [h1, List.append_assoc]) (by rw [h1]) (h.now a b' h1 ha (fun h => hb (List.mem_append_left _ h)))
  · rw [h.len, List.count_append, List.count_eq_zero_of_not_mem (a := Ev.snap) (l := [e]) (by simpa using Ne.symm he)]
    rfl
  · intro a b d hd ha hb
    rcases List.eq_nil_or_concat d with rfl | ⟨d', x, rfl⟩
    · exact absurd (by simpa using (List.append_inj' hd rfl).2) he
    · have : mh ++ [e] = (a ++ b ++ .snap :: d') ++ [x] := by rw [hd]; simp
      obtain ⟨h1, -⟩ := List.append_inj' this rfl
      exact h.outs a b d' h1 ha hb

theorem Marks.snap {mark : Nat} {out : List Nat} {mh : List Ev} (h : Marks mark out mh) : Marks (bytes mh) (out ++ [mark]) (mh ++ [.snap]) := by
  have hby : bytes (mh ++ [.snap]) = bytes mh := by unfold bytes; rw [live_snoc]
  constructor
  · intro a b hab ha hb
    rcases List.eq_nil_or_concat b with rfl | ⟨b', x, rfl⟩
    · rw [List.append_nil] at hab
      subst hab
      refine ⟨fun q hq => ?_, [], List.prefix_refl _, by simp only [List.append_nil]; exact hby⟩
      obtain rfl := List.prefix_nil.mp hq
      simp only [List.append_nil]; exact le_of_eq hby
    · exfalso
      rw [List.concat_eq_append] at *
      rw [← List.append_assoc] at hab
      obtain ⟨-, h2⟩ := List.append_inj' hab rfl
      obtain rfl : Ev.snap = x := by simpa using h2
      exact hb (by simp)
  · simp [h.len]
  · intro a b d hd ha hb
    rcases List.eq_nil_or_concat d with rfl | ⟨d', x, rfl⟩
    · obtain ⟨h1, -⟩ := List.append_inj' hd rfl
      refine ⟨mark, ?_, h.now a b h1 ha hb⟩
      have : a.count .snap = out.length := by
        rw [h.len, h1, List.count_append, List.count_eq_zero_of_not_mem hb]; rfl
      rw [this]; simp
    · have : mh ++ [.snap] = (a ++ b ++ .snap :: d') ++ [x] := by rw [hd]; simp
      obtain ⟨h1, -⟩ := List.append_inj' this rfl
      obtain ⟨m, h2, h3⟩ := h.outs a b d' h1 ha hb
      refine ⟨m, ?_, h3⟩
      rw [List.getElem?_append_left (List.getElem?_eq_some_iff.mp h2).1]
      exact h2

/-! ## one step -/

theorem foldl_mul64 (d : List Nat) : ∀ x, d.foldl mul64 (x % 2 ^ 64) = x * d.prod % 2 ^ 64 := by
  induction d with
  | nil => intro x; simp
  | cons y d ih =>
    intro x
    rw [List.foldl_cons, List.prod_cons, show mul64 (x % 2 ^ 64) y = x * y % 2 ^ 64 by unfold mul64; rw [Nat.mod_mul_mod], ih, Nat.mul_assoc]

theorem size_eq {e : Nat} {d : List Nat} (h : sizeOf e d < 2 ^ 64) : d.foldl mul64 (e % 2 ^ 64) = sizeOf e d := by
  rw [foldl_mul64]; exact Nat.mod_eq_of_lt h

theorem Inv.mk' {s : St} {c : Nat → Option Ev} {rh mh : List Ev} (h1 : Shape s c rh mh) (h2 : ((live rh).map Block.addr).Nodup) (h3 : ((live mh).map Block.addr).Nodup)
    (h4 : ∀ r, RegOK r rh (s.regions r)) (h5 : s.active = bytes mh) (h6 : Marks s.mark s.out mh) : Inv s c rh mh :=
  ⟨h1.pend, h1.uniq, h1.gone, h1.used, h2, h3, h4, h5, h6.now, h6.len, h6.outs⟩

theorem Inv.others {s : St} {c : Nat → Option Ev} {rh mh : List Ev} (h : Inv s c rh mh) {t p : Nat} (hp : (s.at_ t).addr = some p) :
    ∀ u, u ≠ t → (s.at_ u).addr ≠ some p := fun u hut hu => hut (h.uniq u t p hu hp)

theorem Inv.step {s : St} {c : Nat → Option Ev} {rh mh : List Ev} (h : Inv s c rh mh) (t : Nat) (x : Act) (ha : Allowed s t x)
    (hx : ∀ a e d r, x = .track a e d (some r) → sizeOf e d < 2 ^ 64)
    (hR : (allSizes (rh ++ regionEv c (t, x))).sum < 2 ^ 64) (hM : (allSizes (mh ++ markEv c (t, x))).sum < 2 ^ 64) (hc : rh.length < 2 ^ 64 - 1) :
    Inv (step s t x) (callStep c (t, x)) (rh ++ regionEv c (t, x)) (mh ++ markEv c (t, x)) := by
  cases x with
  | track a e d p =>
    obtain ⟨h1, h2, h3⟩ := ha
    simp only [regionEv, markEv, List.append_nil]
    cases p with
    | none =>
      have : AllocStats.step s t (.track a e d none) = s := by simp [AllocStats.step, h1]
      rw [this]; exact h
    | some r =>
      have hsz := size_eq (hx a e d r rfl)
      have hst : AllocStats.step s t (.track a e d (some r)) = { s with allocs := upd s.allocs a (some ⟨sizeOf e d, r⟩), at_ := upd s.at_ t (.trackRegion a (sizeOf e d) r) } := by
        simp only [AllocStats.step, h1, hsz]
      rw [hst]
      obtain ⟨g1, g2⟩ := h.gone a h3 h2
      refine Inv.mk' ?_ h.nodR h.nodM h.regs h.act h.marks
      refine h.shape.step t a (fun u _ => h3 u) (fun u hu => upd_ne _ _ hu) (fun u hu => upd_ne _ _ hu) (.inl (by rw [h1]; rfl)) ?_ (fun p hp => upd_ne _ _ hp)
        (fun _ _ => Iff.rfl) (fun _ _ => Iff.rfl) ?_ ?_
      · right; simp only [upd_same]; rfl
      · simp only [upd_same, callStep]
        exact ⟨upd_same _ _ _, g1, g2, rfl⟩
      · simp only [upd_same]; intro hh; cases hh
  | trackRegion =>
    obtain ⟨a, n, r, h1⟩ := ha
    obtain ⟨p1, p2, p3, p4⟩ : AtOK s (c t) rh mh (.trackRegion a n r) := h1 ▸ h.pend t
    have hre : regionEv c (t, .trackRegion) = [.alloc a n r] := by simp [regionEv, p4]
    rw [hre] at hR ⊢
    simp only [markEv, List.append_nil]
    have hst : AllocStats.step s t .trackRegion = { s with regions := upd s.regions r (some (addRegion (s.regions r) n r)), at_ := upd s.at_ t (.trackMark a n) } := by
      simp only [AllocStats.step, h1]
    rw [hst]
    refine Inv.mk' ?_ (nod_alloc n r h.nodR p2) h.nodM ?_ h.act h.marks
    · refine h.shape.step t a (h.others (by rw [h1]; rfl)) (fun u hu => rfl) (fun u hu => upd_ne _ _ hu) (.inr (by rw [h1]; rfl)) ?_ (fun p hp => rfl)
        (fun b hb => ?_) (fun _ _ => Iff.rfl) ?_ ?_
      · right; simp only [upd_same]; rfl
      · rw [mem_live_alloc]
        constructor
        · rintro (hb' | rfl) <;> [exact hb'; exact absurd rfl hb]
        · exact .inl
      · simp only [upd_same, callStep]
        exact ⟨r, p1, (mem_live_alloc _ _ _ _ _).mpr (.inr rfl), p3, p4⟩
      · simp only [upd_same]; intro hh; cases hh
    · intro r'
      by_cases hr : r' = r
      · subst hr
        simp only [upd_same]
        exact (h.regs r').alloc hR hc
      · simp only [upd_ne _ _ hr]
        exact (h.regs r').alloc_other (Ne.symm hr)
  | trackMark =>
    obtain ⟨a, n, h1⟩ := ha
    obtain ⟨r, p1, p2, p3, p4⟩ : AtOK s (c t) rh mh (.trackMark a n) := h1 ▸ h.pend t
    have hre : markEv c (t, .trackMark) = [.alloc a n r] := by simp [markEv, p4]
    rw [hre] at hM ⊢
    simp only [regionEv, List.append_nil]
    have hst : AllocStats.step s t .trackMark = { s with active := add64 s.active n, mark := Nat.max s.mark (add64 s.active n), at_ := upd s.at_ t .idle } := by
      simp only [AllocStats.step, h1]
    have hby : bytes (mh ++ [.alloc a n r]) = bytes mh + n := by unfold bytes; rw [live_snoc]; simp
    have hadd : add64 s.active n = bytes (mh ++ [.alloc a n r]) := by
      rw [h.act, hby]; exact Nat.mod_eq_of_lt (by rw [← hby]; exact lt_of_le_of_lt (bytes_le _) hM)
    rw [hst, hadd]
    refine Inv.mk' ?_ h.nodR (nod_alloc n r h.nodM p3) h.regs rfl ?_
    · refine h.shape.step t a (h.others (by rw [h1]; rfl)) (fun u hu => rfl) (fun u hu => upd_ne _ _ hu) (.inr (by rw [h1]; rfl)) ?_ (fun p hp => rfl)
        (fun _ _ => Iff.rfl) (fun b hb => ?_) ?_ ?_
      · left; simp only [upd_same]; rfl
      · rw [mem_live_alloc]
        constructor
        · rintro (hb' | rfl) <;> [exact hb'; exact absurd rfl hb]
        · exact .inl
      · simp only [upd_same]; trivial
      · intro _
        refine ⟨fun hn => ?_, fun i hi => ?_⟩
        · rw [show s.allocs a = none from hn] at p1; cases p1
        · rw [show s.allocs a = some i from hi] at p1
          injection p1 with p1
          subst p1
          exact ⟨p2, (mem_live_alloc _ _ _ _ _).mpr (.inr rfl)⟩
    · refine h.marks.event _ (by simp) ?_
      intro f b h2 _ hp
      rw [← h2]; exact hp.snoc _
  | untrack a =>
    obtain ⟨h1, h3⟩ := ha
    simp only [regionEv, markEv, List.append_nil]
    cases hal : s.allocs a with
    | none =>
      have hst : AllocStats.step s t (.untrack a) = s := by simp only [AllocStats.step, h1, hal]
      rw [hst]
      refine Inv.mk' ?_ h.nodR h.nodM h.regs h.act h.marks
      refine h.shape.step t a (fun u _ => h3 u) (fun u hu => upd_ne _ _ hu) (fun u hu => rfl) (.inl (by rw [h1]; rfl)) (.inl (by rw [h1]; rfl)) (fun p hp => rfl)
        (fun _ _ => Iff.rfl) (fun _ _ => Iff.rfl) (by rw [h1]; trivial) (fun _ => ⟨fun hn => h.gone a h3 hn, fun i hi => h.used a i h3 hi⟩)
    | some i =>
      have hst : AllocStats.step s t (.untrack a) = { s with allocs := upd s.allocs a none, at_ := upd s.at_ t (.untrackRegion a i) } := by simp only [AllocStats.step, h1, hal]
      rw [hst]
      obtain ⟨g1, g2⟩ := h.used a i h3 hal
      refine Inv.mk' ?_ h.nodR h.nodM h.regs h.act h.marks
      refine h.shape.step t a (fun u _ => h3 u) (fun u hu => upd_ne _ _ hu) (fun u hu => upd_ne _ _ hu) (.inl (by rw [h1]; rfl)) ?_ (fun p hp => upd_ne _ _ hp)
        (fun _ _ => Iff.rfl) (fun _ _ => Iff.rfl) ?_ ?_
      · right; simp only [upd_same]; rfl
      · simp only [upd_same, callStep]
        exact ⟨upd_same _ _ _, g1, g2, rfl⟩
      · simp only [upd_same]; intro hh; cases hh
  | untrackRegion =>
    obtain ⟨a, i, h1⟩ := ha
    obtain ⟨p1, p2, p3, p4⟩ : AtOK s (c t) rh mh (.untrackRegion a i) := h1 ▸ h.pend t
    have hre : regionEv c (t, .untrackRegion) = [.free a] := by simp [regionEv, p4]
    rw [hre] at hR ⊢
    simp only [markEv, List.append_nil]
    have hst : AllocStats.step s t .untrackRegion = { s with regions := upd s.regions i.path (some (subRegion (s.regions i.path) i.bytes)), at_ := upd s.at_ t (.untrackMark a i.bytes) } := by
      simp only [AllocStats.step, h1]
    rw [hst]
    refine Inv.mk' ?_ (nod_free a h.nodR) h.nodM ?_ h.act h.marks
    · refine h.shape.step t a (h.others (by rw [h1]; rfl)) (fun u hu => rfl) (fun u hu => upd_ne _ _ hu) (.inr (by rw [h1]; rfl)) ?_ (fun p hp => rfl)
        (fun b hb => ?_) (fun _ _ => Iff.rfl) ?_ ?_
      · right; simp only [upd_same]; rfl
      · rw [mem_live_free]; exact ⟨And.left, fun h => ⟨h, hb⟩⟩
      · simp only [upd_same, callStep]
        exact ⟨p1, fun hl => ((isLive_free _ _ _).mp hl).2 rfl, ⟨_, p3⟩, p4⟩
      · simp only [upd_same]; intro hh; cases hh
    · have hb : (allSizes rh).sum < 2 ^ 64 := by
        rw [allSizes_snoc] at hR; simpa using hR
      intro r'
      by_cases hr : r' = i.path
      · subst hr
        simp only [upd_same]
        exact (h.regs _).free h.nodR ⟨a, i.bytes, i.path⟩ p2 hb
      · simp only [upd_ne _ _ hr]
        exact (h.regs r').free_other h.nodR ⟨a, i.bytes, i.path⟩ p2 (Ne.symm hr)
  | untrackMark =>
    obtain ⟨a, b, h1⟩ := ha
    obtain ⟨p1, p2, ⟨r, p3⟩, p4⟩ : AtOK s (c t) rh mh (.untrackMark a b) := h1 ▸ h.pend t
    have hre : markEv c (t, .untrackMark) = [.free a] := by simp [markEv, p4]
    rw [hre] at hM ⊢
    simp only [regionEv, List.append_nil]
    have hst : AllocStats.step s t .untrackMark = { s with active := sub64 s.active b, at_ := upd s.at_ t .idle } := by
      simp only [AllocStats.step, h1]
    have hby : bytes (mh ++ [.free a]) + b = bytes mh := bytes_free h.nodM ⟨a, b, r⟩ p3
    have hsub : sub64 s.active b = bytes (mh ++ [.free a]) := by
      rw [h.act, sub64_eq]
      · omega
      · refine lt_of_le_of_lt (bytes_le _) ?_
        rw [allSizes_snoc] at hM; simpa using hM
      · omega
    rw [hst, hsub]
    refine Inv.mk' ?_ h.nodR (nod_free a h.nodM) h.regs rfl ?_
    · refine h.shape.step t a (h.others (by rw [h1]; rfl)) (fun u hu => rfl) (fun u hu => upd_ne _ _ hu) (.inr (by rw [h1]; rfl)) ?_ (fun p hp => rfl)
        (fun _ _ => Iff.rfl) (fun b hb => ?_) ?_ ?_
      · left; simp only [upd_same]; rfl
      · rw [mem_live_free]; exact ⟨And.left, fun h => ⟨h, hb⟩⟩
      · simp only [upd_same]; trivial
      · intro _
        refine ⟨fun hn => ⟨p2, fun hl => ((isLive_free _ _ _).mp hl).2 rfl⟩, fun i hi => ?_⟩
        rw [show s.allocs a = some i from hi] at p1; cases p1
    · refine h.marks.event _ (by simp) ?_
      intro f q h2 h3 hp
      exact hp.snoc_le _ (by rw [h2, h3]; omega)
  | snapshot =>
    have hst : AllocStats.step s t .snapshot = { s with out := s.out ++ [s.mark], mark := s.active } := by
      simp only [AllocStats.step, show s.at_ t = .idle from ha]
    rw [hst]
    simp only [regionEv, markEv, List.append_nil]
    have hl : live (mh ++ [.snap]) = live mh := live_snoc _ _
    refine Inv.mk' ⟨?_, h.uniq, ?_, ?_⟩ h.nodR (by rw [hl]; exact h.nodM) h.regs ?_ ?_
    · intro u
      exact (h.pend u).congr hl
    · intro p hp hn
      have := h.gone p hp hn
      unfold IsLive at *
      rw [hl]; exact this
    · intro p i hp hn
      rw [hl]; exact h.used p i hp hn
    · show s.active = _
      rw [h.act]; unfold bytes; rw [hl]
    · show Marks s.active _ _
      rw [h.act]; exact h.marks.snap

/-! ## runs -/

/-- bytes a thread is about to add to its region -/
def pendR : At → Nat
  | .trackRegion _ n _ => n
  | _ => 0
/-- bytes a thread is about to add to the active memory -/
def pendM : At → Nat
  | .trackRegion _ n _ => n
  | .trackMark _ n => n
  | _ => 0

theorem sum_upd (g : At → Nat) (f : Nat → At) (t : Nat) (v : At) : ∀ (T : List Nat), T.Nodup → t ∈ T →
    (T.map fun u => g (upd f t v u)).sum + g (f t) = (T.map fun u => g (f u)).sum + g v := by
  intro T
  induction T with
  | nil => intro _ h; cases h
  | cons u T ih =>
    intro hn ht
    simp only [List.map_cons, List.sum_cons]
    obtain ⟨h1, h2⟩ := List.nodup_cons.mp hn
    rcases List.mem_cons.mp ht with rfl | ht
    · rw [upd_same]
      have : (T.map fun u => g (upd f t v u)) = T.map fun u => g (f u) := by
        apply List.map_congr_left
        intro u hu
        rw [upd_ne]
        rintro rfl
        exact h1 hu
      rw [this]; omega
    · have hut : u ≠ t := by rintro rfl; exact h1 ht
      rw [upd_ne _ _ hut]
      have := ih h2 ht
      omega

/-- bytes of an allocation call -/
def vol (x : Nat × Act) : Nat := match x.2 with
  | .track _ e d (some _) => sizeOf e d
  | _ => 0

theorem volume_eq (tr : List (Nat × Act)) : volume tr = (tr.map vol).sum := rfl

structure Bound (T : List Nat) (s : St) (rh mh : List Ev) (V n : Nat) : Prop where
  reg : (allSizes rh).sum + (T.map fun u => pendR (s.at_ u)).sum ≤ V
  mrk : (allSizes mh).sum + (T.map fun u => pendM (s.at_ u)).sum ≤ V
  len : rh.length ≤ n

theorem le_sum_of_mem {g : Nat → Nat} {T : List Nat} {t : Nat} (h : t ∈ T) : g t ≤ (T.map g).sum := by
  induction T with
  | nil => cases h
  | cons u T ih =>
    simp only [List.map_cons, List.sum_cons]
    rcases List.mem_cons.mp h with rfl | h
    · omega
    · have := ih h; omega

theorem sum_upd' (g : At → Nat) (f : Nat → At) (t : Nat) (v : At) (k m : Nat) {T : List Nat} (hT : T.Nodup) (ht : t ∈ T) (hk : g (f t) = k) (hm : g v = m) :
    (T.map fun u => g (upd f t v u)).sum + k = (T.map fun u => g (f u)).sum + m ∧ k ≤ (T.map fun u => g (f u)).sum := by
  subst hk hm
  exact ⟨sum_upd g f t v T hT ht, le_sum_of_mem (g := fun u => g (f u)) ht⟩

theorem allSizes_single (h : List Ev) (e : Ev) : (allSizes (h ++ [e])).sum = (allSizes h).sum + (match e with | .alloc _ s _ => s | _ => 0) := by
  rw [allSizes_snoc]; cases e <;> simp

theorem Bound.step {T : List Nat} (hT : T.Nodup) {s : St} {c : Nat → Option Ev} {rh mh : List Ev} {V n : Nat} (h : Inv s c rh mh) (hB : Bound T s rh mh V n) (t : Nat) (ht : t ∈ T) (x : Act)
    (ha : Allowed s t x) (hx : ∀ a e d r, x = .track a e d (some r) → sizeOf e d < 2 ^ 64) :
    (allSizes (rh ++ regionEv c (t, x))).sum ≤ V ∧ (allSizes (mh ++ markEv c (t, x))).sum ≤ V ∧
    Bound T (step s t x) (rh ++ regionEv c (t, x)) (mh ++ markEv c (t, x)) (V + vol (t, x)) (n + 1) := by
  have b1 := hB.reg
  have b2 := hB.mrk
  have b3 := hB.len
  cases x with
  | track a e d p =>
    obtain ⟨h1, h2, h3⟩ := ha
    simp only [regionEv, markEv, List.append_nil]
    refine ⟨by omega, by omega, ?_⟩
    cases p with
    | none =>
      have : AllocStats.step s t (.track a e d none) = s := by simp [AllocStats.step, h1]
      rw [this]; exact ⟨b1, b2, by omega⟩
    | some r =>
      have hsz := size_eq (hx a e d r rfl)
      have hst : (AllocStats.step s t (.track a e d (some r))).at_ = upd s.at_ t (.trackRegion a (sizeOf e d) r) := by
        simp only [AllocStats.step, h1, hsz]
      have u1 := sum_upd' pendR s.at_ t (.trackRegion a (sizeOf e d) r) 0 (sizeOf e d) hT ht (by rw [h1]; rfl) rfl
      have u2 := sum_upd' pendM s.at_ t (.trackRegion a (sizeOf e d) r) 0 (sizeOf e d) hT ht (by rw [h1]; rfl) rfl
      refine ⟨?_, ?_, by omega⟩ <;> rw [hst] <;> simp only [vol] <;> omega
  | trackRegion =>
    obtain ⟨a, n', r, h1⟩ := ha
    obtain ⟨p1, p2, p3, p4⟩ : AtOK s (c t) rh mh (.trackRegion a n' r) := h1 ▸ h.pend t
    have hre : regionEv c (t, .trackRegion) = [.alloc a n' r] := by simp [regionEv, p4]
    rw [hre]
    have hst : (AllocStats.step s t .trackRegion).at_ = upd s.at_ t (.trackMark a n') := by simp only [AllocStats.step, h1]
    simp only [markEv, List.append_nil]
    have u1 := sum_upd' pendR s.at_ t (.trackMark a n') n' 0 hT ht (by rw [h1]; rfl) rfl
    have u2 := sum_upd' pendM s.at_ t (.trackMark a n') n' n' hT ht (by rw [h1]; rfl) rfl
    have := allSizes_single rh (.alloc a n' r)
    simp only at this
    refine ⟨by omega, by omega, ⟨?_, ?_, by simp; omega⟩⟩ <;> rw [hst] <;> omega
  | trackMark =>
    obtain ⟨a, n', h1⟩ := ha
    obtain ⟨r, p1, p2, p3, p4⟩ : AtOK s (c t) rh mh (.trackMark a n') := h1 ▸ h.pend t
    have hre : markEv c (t, .trackMark) = [.alloc a n' r] := by simp [markEv, p4]
    rw [hre]
    have hst : (AllocStats.step s t .trackMark).at_ = upd s.at_ t .idle := by simp only [AllocStats.step, h1]
    simp only [regionEv, List.append_nil]
    have u1 := sum_upd' pendR s.at_ t .idle 0 0 hT ht (by rw [h1]; rfl) rfl
    have u2 := sum_upd' pendM s.at_ t .idle n' 0 hT ht (by rw [h1]; rfl) rfl
    have := allSizes_single mh (.alloc a n' r)
    simp only at this
    refine ⟨by omega, by omega, ⟨?_, ?_, by omega⟩⟩ <;> rw [hst] <;> omega
  | untrack a =>
    obtain ⟨h1, h3⟩ := ha
    simp only [regionEv, markEv, List.append_nil]
    refine ⟨by omega, by omega, ?_⟩
    cases hal : s.allocs a with
    | none =>
      have hst : AllocStats.step s t (.untrack a) = s := by simp only [AllocStats.step, h1, hal]
      rw [hst]; exact ⟨by omega, by omega, by omega⟩
    | some i =>
      have hst : (AllocStats.step s t (.untrack a)).at_ = upd s.at_ t (.untrackRegion a i) := by simp only [AllocStats.step, h1, hal]
      have u1 := sum_upd' pendR s.at_ t (.untrackRegion a i) 0 0 hT ht (by rw [h1]; rfl) rfl
      have u2 := sum_upd' pendM s.at_ t (.untrackRegion a i) 0 0 hT ht (by rw [h1]; rfl) rfl
      refine ⟨?_, ?_, by omega⟩ <;> rw [hst] <;> omega
  | untrackRegion =>
    obtain ⟨a, i, h1⟩ := ha
    obtain ⟨p1, p2, p3, p4⟩ : AtOK s (c t) rh mh (.untrackRegion a i) := h1 ▸ h.pend t
    have hre : regionEv c (t, .untrackRegion) = [.free a] := by simp [regionEv, p4]
    rw [hre]
    have hst : (AllocStats.step s t .untrackRegion).at_ = upd s.at_ t (.untrackMark a i.bytes) := by simp only [AllocStats.step, h1]
    simp only [markEv, List.append_nil]
    have u1 := sum_upd' pendR s.at_ t (.untrackMark a i.bytes) 0 0 hT ht (by rw [h1]; rfl) rfl
    have u2 := sum_upd' pendM s.at_ t (.untrackMark a i.bytes) 0 0 hT ht (by rw [h1]; rfl) rfl
    have := allSizes_single rh (.free a)
    simp only at this
    refine ⟨by omega, by omega, ⟨?_, ?_, by simp; omega⟩⟩ <;> rw [hst] <;> omega
  | untrackMark =>
    obtain ⟨a, b, h1⟩ := ha
    obtain ⟨p1, p2, ⟨r, p3⟩, p4⟩ : AtOK s (c t) rh mh (.untrackMark a b) := h1 ▸ h.pend t
    have hre : markEv c (t, .untrackMark) = [.free a] := by simp [markEv, p4]
    rw [hre]
    have hst : (AllocStats.step s t .untrackMark).at_ = upd s.at_ t .idle := by simp only [AllocStats.step, h1]
    simp only [regionEv, List.append_nil]
    have u1 := sum_upd' pendR s.at_ t .idle 0 0 hT ht (by rw [h1]; rfl) rfl
    have u2 := sum_upd' pendM s.at_ t .idle 0 0 hT ht (by rw [h1]; rfl) rfl
    have := allSizes_single mh (.free a)
    simp only at this
    refine ⟨by omega, by omega, ⟨?_, ?_, by omega⟩⟩ <;> rw [hst] <;> omega
  | snapshot =>
    have hst : (AllocStats.step s t .snapshot).at_ = s.at_ := by simp only [AllocStats.step, show s.at_ t = .idle from ha]
    simp only [regionEv, markEv, List.append_nil]
    have := allSizes_single mh .snap
    simp only at this
    refine ⟨by omega, by omega, ⟨?_, ?_, by omega⟩⟩ <;> rw [hst] <;> omega

theorem run_inv {tr : List (Nat × Act)} (hv : Valid St.init tr) (hf : Fits tr) : Inv (run St.init tr) (cur tr fun _ => none) (regionHist tr) (markHist tr) := by
  suffices H : ∀ pre, pre <+: tr → Inv (run St.init pre) (cur pre fun _ => none) (regionHist pre) (markHist pre) ∧
      Bound (tr.map Prod.fst).dedup (run St.init pre) (regionHist pre) (markHist pre) (volume pre) pre.length from (H tr (List.prefix_refl _)).1
  intro pre
  induction pre using List.reverseRecOn with
  | nil =>
    intro _
    refine ⟨Inv.init, ?_⟩
    have : ∀ (T : List Nat) (g : At → Nat), g .idle = 0 → (T.map fun u => g ((run St.init []).at_ u)).sum = 0 := by
      intro T g hg
      induction T with
      | nil => rfl
      | cons u T ih => simpa [run, St.init, hg] using ih
    exact ⟨by rw [this _ pendR rfl]; exact Nat.le_refl _, by rw [this _ pendM rfl]; exact Nat.le_refl _, Nat.le_refl _⟩
  | append_singleton pre x ih =>
    intro hp
    obtain ⟨h1, h2⟩ := ih ((List.prefix_append _ _).trans hp)
    obtain ⟨w, hw⟩ := hp
    rw [← hw, List.append_assoc, Valid_append] at hv
    have hal : Allowed (run St.init pre) x.1 x.2 := hv.2.1
    have ht : x.1 ∈ (tr.map Prod.fst).dedup := by
      rw [List.mem_dedup, ← hw]; simp
    have hvol : volume pre + vol x ≤ volume tr := by
      rw [volume_eq, volume_eq, ← hw]; simp
    have hlen : pre.length + 1 ≤ tr.length := by rw [← hw]; simp
    have hx : ∀ a e d r, x.2 = .track a e d (some r) → sizeOf e d < 2 ^ 64 := by
      intro a e d r he
      have : vol x = sizeOf e d := by unfold vol; rw [he]
      have := hf.1
      omega
    obtain ⟨s1, s2, s3⟩ := h2.step (List.nodup_dedup _) h1 x.1 ht x.2 hal hx
    have hrun : run St.init (pre ++ [x]) = step (run St.init pre) x.1 x.2 := by simp [run]
    have hcur : cur (pre ++ [x]) (fun _ => none) = callStep (cur pre fun _ => none) x := by simp [cur]
    have hrh : regionHist (pre ++ [x]) = regionHist pre ++ regionEv (cur pre fun _ => none) x := by
      unfold regionHist; rw [hist_append]; simp [hist]
    have hmh : markHist (pre ++ [x]) = markHist pre ++ markEv (cur pre fun _ => none) x := by
      unfold markHist; rw [hist_append]; simp [hist]
    have hf1 := hf.1
    have hf2 := hf.2
    have hl := h2.len
    rw [hrun, hcur, hrh, hmh]
    refine ⟨h1.step x.1 x.2 hal hx (by omega) (by omega) (by omega), ?_⟩
    rw [show volume (pre ++ [x]) = volume pre + vol x by rw [volume_eq, volume_eq]; simp, List.length_append]
    exact s3

/-! ## C89 -/

/-- the statistics `flush_cb` reports for a region: the most bytes of the region that were allocated at the same time, the number of its allocations, the largest of them, and their average (rounded down).
A region without allocations is not reported. -/
theorem C89_regions {tr : List (Nat × Act)} (hv : Valid St.init tr) (hf : Fits tr) (r : Nat) :
    (sizes r (regionHist tr) = [] → (run St.init tr).regions r = none) ∧
    (sizes r (regionHist tr) ≠ [] → ∃ i rec, (run St.init tr).regions r = some i ∧ flushRec i = some rec ∧ rec.path = some r ∧
      IsPeak (tally r) (regionHist tr) rec.tally ∧ rec.count = (sizes r (regionHist tr)).length ∧
      (rec.max ∈ sizes r (regionHist tr) ∧ ∀ n ∈ sizes r (regionHist tr), n ≤ rec.max) ∧ rec.avg = (sizes r (regionHist tr)).sum / (sizes r (regionHist tr)).length) := by
  have h := (run_inv hv hf).regs r
  refine ⟨h.1, fun hne => ?_⟩
  obtain ⟨i, h1, h2, h3, h4, h5, h6, h7⟩ := h.2 hne
  refine ⟨i, ⟨i.path, i.hwm, i.count, i.max, i.total / i.count⟩, h1, ?_, h7, h5, h6, h4, ?_⟩
  · unfold flushRec
    rw [if_neg]
    rw [h6]
    intro h0
    exact hne (List.length_eq_zero_iff.mp h0)
  · rw [h3, h6]

/-- each snapshot reports the largest amount of memory allocated at any moment since the snapshot before it -/
theorem C89_high_water_mark {tr : List (Nat × Act)} (hv : Valid St.init tr) (hf : Fits tr) :
    (run St.init tr).out.length = (markHist tr).count .snap ∧
    ∀ a b d, markHist tr = a ++ b ++ .snap :: d → (a = [] ∨ ∃ a', a = a' ++ [.snap]) → Ev.snap ∉ b →
      ∃ m, (run St.init tr).out[a.count .snap]? = some m ∧ IsPeak (fun q => bytes (a ++ q)) b m :=
  ⟨(run_inv hv hf).len, (run_inv hv hf).outs⟩

/-- when no call is in progress, the blocks of both histories are the tracked ones -/
theorem C89_quiescent {tr : List (Nat × Act)} (hv : Valid St.init tr) (hf : Fits tr) (hq : ∀ t, (run St.init tr).at_ t = .idle) (b : Block) :
    (b ∈ live (regionHist tr) ↔ (run St.init tr).allocs b.addr = some ⟨b.size, b.region⟩) ∧
    (b ∈ live (markHist tr) ↔ (run St.init tr).allocs b.addr = some ⟨b.size, b.region⟩) := by
  have h := run_inv hv hf
  have hna : ∀ t, ((run St.init tr).at_ t).addr ≠ some b.addr := by intro t; rw [hq t]; simp [At.addr]
  have uniq : ∀ {l : List Block}, (l.map Block.addr).Nodup → ∀ x ∈ l, ∀ y ∈ l, x.addr = y.addr → x = y :=
    fun hn x hx y hy he => List.inj_on_of_nodup_map hn hx hy he
  cases hal : (run St.init tr).allocs b.addr with
  | none =>
    obtain ⟨g1, g2⟩ := h.gone _ hna hal
    exact ⟨⟨fun hb => absurd ⟨b, hb, rfl⟩ g1, fun h => nomatch h⟩, ⟨fun hb => absurd ⟨b, hb, rfl⟩ g2, fun h => nomatch h⟩⟩
  | some i =>
    obtain ⟨g1, g2⟩ := h.used _ i hna hal
    refine ⟨⟨fun hb => ?_, fun he => ?_⟩, ⟨fun hb => ?_, fun he => ?_⟩⟩
    · rw [uniq h.nodR b hb _ g1 rfl]
    · injection he with he; subst he; exact g1
    · rw [uniq h.nodM b hb _ g2 rfl]
    · injection he with he; subst he; exact g2

/-! ## sysalloc -/

/-- the steps of a program that calls the C library -/
def sysTrace : St → List Call → List (Nat × Act)
  | _, [] => []
  | s, c :: cs => seqSteps s c.thread (wrapper c.path c.call) ++ sysTrace (run s (seqSteps s c.thread (wrapper c.path c.call))) cs

theorem run_append (s : St) (a b : List (Nat × Act)) : run s (a ++ b) = run (run s a) b := by simp [run]

structure Seq (s : St) (h : List HBlock) : Prop where
  idle : ∀ t, s.at_ t = .idle
  tracked : ∀ p n r, s.allocs p = some ⟨n, r⟩ ↔ (⟨p, n, some r⟩ : HBlock) ∈ h

theorem upd_idle {f : Nat → At} {t : Nat} (h : ∀ u, f u = .idle) (x y : At) : upd (upd (upd f t x) t y) t .idle = f := by
  funext u
  by_cases hu : u = t
  · subst hu; rw [upd_same, h]
  · rw [upd_ne _ _ hu, upd_ne _ _ hu, upd_ne _ _ hu]

theorem seq_track {s : St} {h : List HBlock} (hs : Seq s h) (t a e : Nat) (d : List Nat) (path : Option Nat) (hsz : sizeOf e d < 2 ^ 64) (hnew : ∀ b ∈ h, b.addr ≠ a) :
    Valid s (callSteps s t (.track a e d path)) ∧ Seq (run s (callSteps s t (.track a e d path))) (h ++ [⟨a, sizeOf e d, path⟩]) := by
  have hi := hs.idle t
  have hnone : s.allocs a = none := by
    cases hal : s.allocs a with
    | none => rfl
    | some i => exact absurd rfl (hnew _ ((hs.tracked a i.bytes i.path).mp hal))
  have hal : Allowed s t (.track a e d path) := ⟨hi, hnone, fun u => by rw [hs.idle u]; simp [At.addr]⟩
  cases path with
  | none =>
    have hst : AllocStats.step s t (.track a e d none) = s := by simp [AllocStats.step, hi]
    have : callSteps s t (.track a e d none) = [(t, .track a e d none)] := by unfold callSteps; rw [if_pos (by rw [hst]; exact hi)]
    rw [this]
    refine ⟨⟨hal, trivial⟩, ?_⟩
    rw [show run s [(t, Act.track a e d none)] = s by simp [run, hst]]
    exact ⟨hs.idle, fun p n r => by rw [hs.tracked]; simp⟩
  | some r =>
    have hst : AllocStats.step s t (.track a e d (some r)) = { s with allocs := upd s.allocs a (some ⟨sizeOf e d, r⟩), at_ := upd s.at_ t (.trackRegion a (sizeOf e d) r) } := by
      simp only [AllocStats.step, hi, size_eq hsz]
    have : callSteps s t (.track a e d (some r)) = [(t, .track a e d (some r)), (t, .trackRegion), (t, .trackMark)] := by
      unfold callSteps; rw [if_neg (by rw [hst]; simp [upd_same])]; rfl
    rw [this]
    refine ⟨⟨hal, ⟨a, sizeOf e d, r, by rw [hst]; exact upd_same _ _ _⟩, ⟨a, sizeOf e d, ?_⟩, trivial⟩, ?_⟩
    · rw [hst]; simp [AllocStats.step, upd_same]
    · have hat : (run s [(t, Act.track a e d (some r)), (t, .trackRegion), (t, .trackMark)]).at_ = s.at_ := by
        simp only [run, List.foldl_cons, List.foldl_nil, hst]
        simp only [AllocStats.step, upd_same]
        exact upd_idle hs.idle _ _
      have hall : (run s [(t, Act.track a e d (some r)), (t, .trackRegion), (t, .trackMark)]).allocs = upd s.allocs a (some ⟨sizeOf e d, r⟩) := by
        simp only [run, List.foldl_cons, List.foldl_nil, hst]
        simp only [AllocStats.step, upd_same]
      refine ⟨by rw [hat]; exact hs.idle, fun p n r' => ?_⟩
      rw [hall]
      by_cases hp : p = a
      · subst hp
        rw [upd_same]
        constructor
        · intro he; injection he with he; injection he with h1 h2; subst h1 h2; simp
        · intro hb
          rcases List.mem_append.mp hb with hb | hb
          · exact absurd rfl (hnew _ hb)
          · simp at hb; rw [hb.1, hb.2]
      · rw [upd_ne _ _ hp, hs.tracked]
        simp [hp]

theorem seq_untrack {s : St} {h : List HBlock} (hs : Seq s h) (t a : Nat) :
    Valid s (callSteps s t (.untrack a)) ∧ Seq (run s (callSteps s t (.untrack a))) (h.filter fun b => decide (b.addr ≠ a)) := by
  have hi := hs.idle t
  have hal : Allowed s t (.untrack a) := ⟨hi, fun u => by rw [hs.idle u]; simp [At.addr]⟩
  cases hx : s.allocs a with
  | none =>
    have hst : AllocStats.step s t (.untrack a) = s := by simp only [AllocStats.step, hi, hx]
    have : callSteps s t (.untrack a) = [(t, .untrack a)] := by unfold callSteps; rw [if_pos (by rw [hst]; exact hi)]
    rw [this]
    refine ⟨⟨hal, trivial⟩, ?_⟩
    rw [show run s [(t, Act.untrack a)] = s by simp [run, hst]]
    refine ⟨hs.idle, fun p n r => ?_⟩
    rw [hs.tracked, List.mem_filter]
    refine ⟨fun hb => ⟨hb, decide_eq_true ?_⟩, And.left⟩
    rintro rfl
    rw [(hs.tracked p n r).mpr hb] at hx
    cases hx
  | some i =>
    have hst : AllocStats.step s t (.untrack a) = { s with allocs := upd s.allocs a none, at_ := upd s.at_ t (.untrackRegion a i) } := by simp only [AllocStats.step, hi, hx]
    have : callSteps s t (.untrack a) = [(t, .untrack a), (t, .untrackRegion), (t, .untrackMark)] := by
      unfold callSteps; rw [if_neg (by rw [hst]; simp [upd_same])]; rfl
    rw [this]
    refine ⟨⟨hal, ⟨a, i, by rw [hst]; exact upd_same _ _ _⟩, ⟨a, i.bytes, ?_⟩, trivial⟩, ?_⟩
    · rw [hst]; simp [AllocStats.step, upd_same]
    · have hat : (run s [(t, Act.untrack a), (t, .untrackRegion), (t, .untrackMark)]).at_ = s.at_ := by
        simp only [run, List.foldl_cons, List.foldl_nil, hst]
        simp only [AllocStats.step, upd_same]
        exact upd_idle hs.idle _ _
      have hall : (run s [(t, Act.untrack a), (t, .untrackRegion), (t, .untrackMark)]).allocs = upd s.allocs a none := by
        simp only [run, List.foldl_cons, List.foldl_nil, hst]
        simp only [AllocStats.step, upd_same]
      refine ⟨by rw [hat]; exact hs.idle, fun p n r => ?_⟩
      rw [hall, List.mem_filter]
      by_cases hp : p = a
      · subst hp; rw [upd_same]; simp
      · rw [upd_ne _ _ hp, hs.tracked]
        exact ⟨fun h => ⟨h, decide_eq_true hp⟩, And.left⟩

theorem seq_two {s : St} {t : Nat} {a b : Act} {h1 h2 : List HBlock} (ha : Valid s (callSteps s t a) ∧ Seq (run s (callSteps s t a)) h1)
    (hb : ∀ s', Seq s' h1 → Valid s' (callSteps s' t b) ∧ Seq (run s' (callSteps s' t b)) h2) : Valid s (seqSteps s t [a, b]) ∧ Seq (run s (seqSteps s t [a, b])) h2 := by
  simp only [seqSteps, List.append_nil]
  rw [Valid_append, run_append]
  exact ⟨⟨ha.1, (hb _ ha.2).1⟩, (hb _ ha.2).2⟩

theorem seq_call {s : St} {h : List HBlock} (hs : Seq s h) (c : Call) (hc : CallOk h c.call) :
    Valid s (seqSteps s c.thread (wrapper c.path c.call)) ∧ Seq (run s (seqSteps s c.thread (wrapper c.path c.call))) (heapStep h c.path c.call) := by
  obtain ⟨t, path, c⟩ := c
  cases c with
  | malloc size ret =>
    obtain ⟨h1, h2, h3⟩ := hc
    have := seq_track hs t ret 1 [size] path (by simpa [sizeOf] using h2) h3
    simpa [wrapper, seqSteps, heapStep, h1, sizeOf] using this
  | calloc num size ret =>
    obtain ⟨h1, h2, h3⟩ := hc
    have := seq_track hs t ret size [num] path (by simpa [sizeOf] using h2) h3
    simpa [wrapper, seqSteps, heapStep, h1, sizeOf] using this
  | realloc ptr size ret =>
    obtain ⟨h1, h2, h3⟩ := hc
    have e : heapStep h path (.realloc ptr size ret) = (h.filter fun b => decide (b.addr ≠ ptr)) ++ [⟨ret, sizeOf 1 [size], path⟩] := by simp [heapStep, h1, sizeOf]
    show Valid s (seqSteps s t [_, _]) ∧ Seq (run s (seqSteps s t [_, _])) (heapStep h path (.realloc ptr size ret))
    rw [e]
    refine seq_two (seq_untrack hs t ptr) (fun s' hs' => seq_track hs' t ret 1 [size] path (by simpa [sizeOf] using h2) ?_)
    intro b hb he
    obtain ⟨g1, g2⟩ := List.mem_filter.mp hb
    exact (of_decide_eq_true g2) (he.trans (h3 b g1 he))
  | free ptr =>
    have := seq_untrack hs t ptr
    simpa [wrapper, seqSteps, heapStep] using this

theorem seq_calls : ∀ (cs : List Call) {s : St} {h : List HBlock}, Seq s h → Calls h cs →
    Valid s (sysTrace s cs) ∧ Seq (run s (sysTrace s cs)) (cs.foldl (fun h c => heapStep h c.path c.call) h) := by
  intro cs
  induction cs with
  | nil => intro s h hs _; exact ⟨trivial, hs⟩
  | cons c cs ih =>
    intro s h hs hc
    obtain ⟨g1, g2⟩ := seq_call hs c hc.1
    obtain ⟨g3, g4⟩ := ih g2 hc.2
    simp only [sysTrace]
    rw [Valid_append, run_append]
    exact ⟨⟨g1, g3⟩, g4⟩

/-- programs whose calls of the C library succeed are among the runs the other theorems talk about, and the tracked blocks are the blocks of the heap that were allocated inside a region -/
theorem C89_sysalloc {cs : List Call} (hc : Calls [] cs) :
    Valid St.init (sysTrace St.init cs) ∧ (∀ t, (run St.init (sysTrace St.init cs)).at_ t = .idle) ∧
    ∀ p n r, (run St.init (sysTrace St.init cs)).allocs p = some ⟨n, r⟩ ↔ (⟨p, n, some r⟩ : HBlock) ∈ heap cs := by
  obtain ⟨h1, h2⟩ := seq_calls cs (s := St.init) (h := []) ⟨fun _ => rfl, fun p n r => by simp [St.init]⟩ hc
  exact ⟨h1, h2.idle, h2.tracked⟩

/-! ## what does not hold -/

/-- an allocation that fails is counted as one that succeeded, at address zero, and the memory is never given back: the next snapshots all report it -/
theorem C89_violation_failed_malloc (n r : Nat) (hn : n < 2 ^ 64) :
    heap [⟨1, some r, .malloc n 0⟩] = [] ∧
    (run St.init (seqSteps St.init 1 (wrapper (some r) (.malloc n 0)))).allocs 0 = some ⟨n, r⟩ ∧
    (run St.init (seqSteps St.init 1 (wrapper (some r) (.malloc n 0)) ++ [(1, .snapshot), (1, .snapshot)])).out = [n, n] := by
  have hm : n % 2 ^ 64 = n := Nat.mod_eq_of_lt hn
  simp [heap, heapStep, wrapper, seqSteps, callSteps, AllocStats.step, St.init, run, complete, upd, mul64, add64, hm]

/-- a `realloc` that fails leaves the block where it is, but it is no longer tracked -/
theorem C89_violation_failed_realloc :
    heap [⟨1, some 7, .malloc 100 8⟩, ⟨1, some 7, .realloc 8 200 0⟩] = [⟨8, 100, some 7⟩] ∧
    (run St.init (sysTrace St.init [⟨1, some 7, .malloc 100 8⟩, ⟨1, some 7, .realloc 8 200 0⟩])).allocs 8 = none ∧
    (run St.init (sysTrace St.init [⟨1, some 7, .malloc 100 8⟩, ⟨1, some 7, .realloc 8 200 0⟩])).allocs 0 = some ⟨200, 7⟩ := by decide +kernel

/-- memory that is freed while the channel is not active stays in the statistics when its address is used again: after the allocation, the unseen deallocation and the
second allocation of the address 100 bytes are allocated, and 200 are reported; after the last deallocation nothing is allocated, and 100 are reported -/
theorem C89_violation_inactive :
    heap [⟨1, some 7, .malloc 100 8⟩, ⟨1, some 7, .free 8⟩, ⟨1, some 7, .malloc 100 8⟩] = [⟨8, 100, some 7⟩] ∧
    (run St.init (sysTrace St.init [⟨1, some 7, .malloc 100 8⟩, ⟨1, some 7, .malloc 100 8⟩])).active = 200 ∧
    (run St.init (sysTrace St.init [⟨1, some 7, .malloc 100 8⟩, ⟨1, some 7, .malloc 100 8⟩, ⟨1, some 7, .free 8⟩])).active = 100 := by decide +kernel

/-- the peak is shared by the threads: thread 1 allocates and frees 100 bytes between two of its snapshots, thread 2 takes a snapshot before the second one, and gets the 100 bytes -/
theorem C89_violation_shared_peak :
    (run St.init ([(1, .snapshot)] ++ seqSteps St.init 1 [.track 8 1 [100] (some 7), .untrack 8] ++ [(2, .snapshot), (1, .snapshot)])).out = [0, 100, 0] := by decide +kernel

/-- memory allocated while no region is open does not count: with 1000 bytes allocated before the region and 10 inside it, the snapshot reports 10 -/
theorem C89_violation_outside :
    heap [⟨1, none, .malloc 1000 8⟩, ⟨1, some 7, .malloc 10 2000⟩] = [⟨8, 1000, none⟩, ⟨2000, 10, some 7⟩] ∧
    (run St.init (sysTrace St.init [⟨1, none, .malloc 1000 8⟩, ⟨1, some 7, .malloc 10 2000⟩] ++ [(1, .snapshot)])).out = [10] := by decide +kernel

/-! ## a case that meets the hypotheses -/

/-- two threads, two regions, calls that overlap -/
def exampleRun : List (Nat × Act) :=
  [(1, .track 100 8 [2, 3] (some 7)), (2, .track 200 1 [10] (some 9)), (2, .trackRegion), (1, .trackRegion), (2, .trackMark), (2, .snapshot), (1, .trackMark),
   (2, .untrack 200), (1, .track 300 1 [30] (some 7)), (2, .untrackRegion), (1, .trackRegion), (2, .untrackMark), (1, .trackMark), (1, .snapshot), (2, .untrack 100), (2, .untrackRegion), (2, .untrackMark), (1, .snapshot)]

theorem exampleRun_valid : Valid St.init exampleRun := by
  simp [exampleRun, Valid, Allowed, step, St.init, upd, mul64, At.addr]
  refine ⟨?_, ?_, ?_, ?_⟩ <;> intro u <;> by_cases h1 : u = 1 <;> by_cases h2 : u = 2 <;> simp_all

theorem exampleRun_fits : Fits exampleRun := ⟨by decide, by decide⟩

theorem C89_witness : (run St.init exampleRun).out = [10, 78, 78] ∧ ((run St.init exampleRun).regions 7).bind flushRec = some ⟨some 7, 78, 2, 48, 39⟩ ∧
    ((run St.init exampleRun).regions 9).bind flushRec = some ⟨some 9, 10, 1, 10, 10⟩ ∧
    sizes 7 (regionHist exampleRun) = [48, 30] ∧ tally 7 (regionHist exampleRun) = 30 ∧ bytes (markHist exampleRun) = 30 := by decide +kernel

/-- a program that meets the hypotheses of `C89_sysalloc` -/
theorem C89_sysalloc_witness : Calls [] [⟨1, some 7, .malloc 100 8⟩, ⟨2, none, .calloc 4 4 200⟩, ⟨1, some 9, .realloc 8 300 8⟩, ⟨1, some 9, .free 200⟩] ∧
    heap [⟨1, some 7, .malloc 100 8⟩, ⟨2, none, .calloc 4 4 200⟩, ⟨1, some 9, .realloc 8 300 8⟩, ⟨1, some 9, .free 200⟩] = [⟨8, 300, some 9⟩] := by
  refine ⟨?_, by decide⟩
  simp [Calls, CallOk, heapStep]

end Verif.Serv.AllocStats
