import Verif.Agg.Model
/-!
# The aggregation database implements a list of groups

The hash table, the entry list and the flat key and kernel vectors represent a list of groups, in order of creation.
-/
namespace Verif.Agg
open Verif Verif.Cali

/-- a group of snapshots with the same key -/
structure Grp where
  slot : Nat
  key : List DEnt
  kerns : List Kern
  count : Nat

/-- abstract state: the groups and the number of skipped snapshots -/
structure Abs where
  groups : List Grp
  skipped : Nat

/-- what identifies a key entry: its node, and its value if it is an immediate entry -/
def Env.norm (E : Env) (e : DEnt) : Option Nat × Option Val := (e.node, if E.isImm e then some e.val else none)

/-- what identifies a group -/
def Env.gid (E : Env) (g : Grp) : Nat × List (Option Nat × Option Val) := (g.slot, g.key.map E.norm)

/-- updating the kernels of a group -/
def updK (O : DblOps) (rec : List DEnt) : List Nat → List Kern → List Kern
  | a :: as, k :: ks => (match getImm rec a with
      | none => k
      | some e => k.update O e.val) :: updK O rec as ks
  | _, ks => ks

/-- a snapshot added to a group -/
def Grp.bump (O : DblOps) (info : Info) (rec : List DEnt) (g : Grp) : Grp :=
  { g with count := g.count + 1, kerns := updK O rec (info.aggr.take (Nat.min g.kerns.length info.aggr.length)) g.kerns }

/-- processing a snapshot: add to its group; else create the group, or skip it if there is no room (`room = false`) -/
def Abs.step (O : DblOps) (E : Env) (s : Abs) (info : Info) (rec : List DEnt) (room : Bool) : Abs :=
  let key := (E.keyEntries info rec).take maxKeyLen
  let h := E.slotOf info rec
  match s.groups.findIdx? fun g => decide (E.gid g = (h, key.map E.norm)) with
  | some i => { s with groups := s.groups.modify i (Grp.bump O info rec) }
  | none =>
    if room then { s with groups := s.groups ++ [Grp.bump O info rec ⟨h, key, List.replicate info.aggr.length Kern.new, 0⟩] }
    else { s with skipped := s.skipped + 1 }

theorem keyEq_iff (E : Env) (ls : List DEnt) : ∀ rs, E.keyEq ls rs = true ↔ ls.map E.norm = rs.map E.norm := by
  have ent : ∀ l r : DEnt, E.entEq l r = true ↔ E.norm l = E.norm r := by
    intro l r
    unfold Env.entEq Env.norm
    simp only [Bool.and_eq_true, decide_eq_true_eq, Bool.or_eq_true, Bool.not_eq_true', Prod.mk.injEq]
    constructor
    · rintro ⟨h1, h2⟩
      have hi : E.isImm l = E.isImm r := by unfold Env.isImm; rw [h1]
      refine ⟨h1, ?_⟩
      rw [← hi]
      cases hl : E.isImm l with
      | false => simp
      | true =>
        rw [hl] at h2
        simp at h2
        simp [h2]
    · rintro ⟨h1, h2⟩
      have hi : E.isImm l = E.isImm r := by unfold Env.isImm; rw [h1]
      refine ⟨h1, ?_⟩
      rw [← hi] at h2
      cases hl : E.isImm l with
      | false => simp
      | true => rw [hl] at h2; simp at h2; simp [h2]
  induction ls with
  | nil => intro rs; cases rs <;> simp [Env.keyEq]
  | cons l ls ih =>
    intro rs
    cases rs with
    | nil => simp [Env.keyEq]
    | cons r rs => simp [Env.keyEq, ent, ih]

/-- sum of the lengths -/
def lens {α β : Type} (f : α → List β) (l : List α) : Nat := (l.map fun x => (f x).length).sum

theorem lens_append {α β : Type} (f : α → List β) (l l' : List α) : lens f (l ++ l') = lens f l + lens f l' := by
  simp [lens]

theorem flatMap_length {α β : Type} (f : α → List β) (l : List α) : (l.flatMap f).length = lens f l := by
  simp [lens, List.length_flatMap]

theorem split_at {α : Type} {l : List α} {i : Nat} {x : α} (h : l[i]? = some x) : l = l.take i ++ x :: l.drop (i + 1) := by
  obtain ⟨hi, rfl⟩ := List.getElem?_eq_some_iff.1 h
  rw [List.getElem_cons_drop, List.take_append_drop]

/-- the slice of a concatenation belonging to one element -/
theorem slice_flatMap {α β : Type} (f : α → List β) (base : List β) {l : List α} {i : Nat} {x : α} (h : l[i]? = some x) :
    ((base ++ l.flatMap f).drop (base.length + lens f (l.take i))).take (f x).length = f x := by
  have e : l.flatMap f = (l.take i).flatMap f ++ (f x ++ (l.drop (i + 1)).flatMap f) := by
    conv => lhs; rw [split_at h]
    simp
  rw [e, ← List.append_assoc, List.drop_left' (by rw [List.length_append, flatMap_length]), List.take_left']
  rfl

/-- a hash chain -/
inductive Chain (entries : List AEntry) : Nat → List Nat → Prop
  | nil : Chain entries 0 []
  | cons {idx : Nat} {e : AEntry} {l : List Nat} : 0 < idx → entries[idx]? = some e → e.next < idx → Chain entries e.next l →
      Chain entries idx (idx :: l)

theorem Chain.mono {es : List AEntry} {idx : Nat} {l : List Nat} (h : Chain es idx l) {es' : List AEntry}
    (hm : ∀ (i : Nat) (e : AEntry), es[i]? = some e → ∃ e' : AEntry, es'[i]? = some e' ∧ e'.next = e.next) : Chain es' idx l := by
  induction h with
  | nil => exact .nil
  | cons h1 h2 h3 _ ih =>
    obtain ⟨e', a, b⟩ := hm _ _ h2
    exact .cons h1 a (by omega) (by rw [b]; exact ih)

theorem Chain.lt {es : List AEntry} {idx : Nat} {l : List Nat} (h : Chain es idx l) (hp : 0 < es.length) : idx < es.length := by
  induction h with
  | nil => exact hp
  | cons _ h2 => exact (List.getElem?_eq_some_iff.1 h2).1

/-- an entry represents a group -/
structure EntRep (base : Nat) (gs : List Grp) (i : Nat) (g : Grp) (e : AEntry) : Prop where
  count : e.count = g.count
  keyIdx : e.keyIdx = base + lens Grp.key (gs.take i)
  keyLen : e.keyLen = g.key.length
  kIdx : e.kIdx = lens Grp.kerns (gs.take i)
  nK : e.nK = g.kerns.length

/-- the database represents the abstract state; `base` are the key entries before those of the groups -/
structure Rep (E : Env) (base : List DEnt) (db : ADB) (s : Abs) : Prop where
  first : ∃ e0, db.entries[0]? = some e0 ∧ e0.count = s.skipped ∧ e0.nK = 0 ∧ e0.keyIdx = 0 ∧ e0.keyLen = 1
  len : db.entries.length = s.groups.length + 1
  ents : ∀ i g, s.groups[i]? = some g → ∃ e, db.entries[i + 1]? = some e ∧ EntRep base.length s.groups i g e
  keyents : db.keyents = base ++ s.groups.flatMap Grp.key
  kernels : db.kernels = s.groups.flatMap Grp.kerns
  chains : ∀ h, ∃ l, Chain db.entries (db.hash h) l ∧ ∀ i, i ∈ l ↔ ∃ j g, i = j + 1 ∧ s.groups[j]? = some g ∧ g.slot = h
  distinct : (s.groups.map E.gid).Nodup

theorem Rep.init (E : Env) (sk : DEnt) : Rep E [sk] (ADB.init sk) ⟨[], 0⟩ := by
  refine ⟨⟨_, rfl, rfl, rfl, rfl, rfl⟩, rfl, by simp, by simp [ADB.init], by simp [ADB.init], ?_, by simp⟩
  intro h
  exact ⟨[], .nil, by simp⟩

theorem findLoop_spec {E : Env} {base : List DEnt} {db : ADB} {s : Abs} (hr : Rep E base db s) (key : List DEnt) {idx : Nat}
    {l : List Nat} (hc : Chain db.entries idx l) : ∀ fuel, idx < fuel →
    (∃ j g, findLoop E db key fuel idx = some (j + 1) ∧ j + 1 ∈ l ∧ s.groups[j]? = some g ∧ key.map E.norm = g.key.map E.norm) ∨
    (findLoop E db key fuel idx = none ∧ ∀ j g, j + 1 ∈ l → s.groups[j]? = some g → key.map E.norm ≠ g.key.map E.norm) := by
  induction hc with
  | nil =>
    intro fuel hf
    obtain ⟨k, rfl⟩ : ∃ k, fuel = k + 1 := ⟨fuel - 1, by omega⟩
    right
    simp [findLoop]
  | @cons idx e l h1 h2 h3 _ ih =>
    intro fuel hf
    obtain ⟨k, rfl⟩ : ∃ k, fuel = k + 1 := ⟨fuel - 1, by omega⟩
    simp only [findLoop, h2, if_neg (show idx ≠ 0 by omega)]
    obtain ⟨j, rfl⟩ : ∃ j, idx = j + 1 := ⟨idx - 1, by omega⟩
    have hj : j < s.groups.length := by
      have := (List.getElem?_eq_some_iff.1 h2).1
      rw [hr.len] at this; omega
    have hg : s.groups[j]? = some s.groups[j] := List.getElem?_eq_getElem hj
    obtain ⟨e', he', rep⟩ := hr.ents j _ hg
    rw [h2] at he'; cases he'
    have hslice : (db.keyents.drop e.keyIdx).take e.keyLen = s.groups[j].key := by
      rw [hr.keyents, rep.keyIdx, rep.keyLen]
      exact slice_flatMap Grp.key base hg
    rw [hslice]
    by_cases hm : key.length = e.keyLen ∧ E.keyEq key s.groups[j].key = true
    · rw [if_pos hm]
      exact .inl ⟨j, _, rfl, by simp, hg, (keyEq_iff E _ _).1 hm.2⟩
    · rw [if_neg hm]
      have hne : key.map E.norm ≠ s.groups[j].key.map E.norm := by
        intro h
        refine hm ⟨?_, (keyEq_iff E _ _).2 h⟩
        have := congrArg List.length h
        simpa [rep.keyLen] using this
      rcases ih k (by omega) with ⟨j', g, a, b, c, d⟩ | ⟨a, b⟩
      · exact .inl ⟨j', g, a, List.mem_cons_of_mem _ b, c, d⟩
      · refine .inr ⟨a, ?_⟩
        intro j' g hj' hg'
        rcases List.mem_cons.1 hj' with h | h
        · have : j' = j := by omega
          subst this
          rw [hg] at hg'
          cases hg'
          exact hne
        · exact b j' g h hg'

theorem modify_mid {α : Type} (A : List α) (x : α) (B : List α) (f : α → α) : (A ++ x :: B).modify A.length f = A ++ f x :: B := by
  induction A with
  | nil => simp
  | cons a A ih => simp [ih]

theorem updLoop_slice (O : DblOps) (rec : List DEnt) (as : List Nat) : ∀ (base a : Nat) (A K1 K B : List Kern), A.length = base →
    K1.length = a → as.length ≤ K.length →
    updLoop O rec base as a (A ++ K1 ++ K ++ B) = A ++ K1 ++ updK O rec as K ++ B := by
  induction as with
  | nil => intro base a A K1 K B _ _ _; simp [updLoop, updK]
  | cons x as ih =>
    intro base a A K1 K B h1 h2 h3
    cases K with
    | nil => simp at h3
    | cons k ks =>
      simp only [updLoop, updK]
      have hmod : ∀ f : Kern → Kern, (A ++ K1 ++ k :: ks ++ B).modify (base + a) f = A ++ (K1 ++ [f k]) ++ ks ++ B := by
        intro f
        have hl : base + a = (A ++ K1).length := by simp; omega
        have e : A ++ K1 ++ k :: ks ++ B = (A ++ K1) ++ (k :: (ks ++ B)) := by simp
        rw [e, hl, modify_mid]
        simp
      have hlen : as.length ≤ ks.length := by simp at h3; omega
      cases hx : getImm rec x with
      | none =>
        simp only
        have := ih base (a + 1) A (K1 ++ [k]) ks B h1 (by simp [h2]) hlen
        simp only [List.append_assoc, List.singleton_append, List.cons_append] at this ⊢
        exact this
      | some e =>
        simp only [hmod]
        have := ih base (a + 1) A (K1 ++ [k.update O e.val]) ks B h1 (by simp [h2]) hlen
        simp only [List.append_assoc, List.singleton_append, List.cons_append] at this ⊢
        exact this

theorem updK_length (O : DblOps) (rec : List DEnt) (as : List Nat) : ∀ ks, (updK O rec as ks).length = ks.length := by
  induction as with
  | nil => intro ks; cases ks <;> rfl
  | cons a as ih =>
    intro ks
    cases ks with
    | nil => rfl
    | cons k ks => simp [updK, ih]

theorem lens_modify {f : Grp → List Kern} {b : Grp → Grp} (hb : ∀ g, (f (b g)).length = (f g).length) (gs : List Grp) (i j : Nat) :
    lens f ((gs.modify i b).take j) = lens f (gs.take j) := by
  unfold lens
  congr 1
  apply List.ext_getElem?
  intro k
  simp only [List.getElem?_map, List.getElem?_take, List.getElem?_modify]
  by_cases hk : k < j
  · simp only [hk, if_true]
    cases gs[k]? with
    | none => rfl
    | some g => by_cases hik : i = k <;> simp [hik, hb]
  · simp [hk]

theorem lens_modify' {f : Grp → List DEnt} {b : Grp → Grp} (hb : ∀ g, (f (b g)).length = (f g).length) (gs : List Grp) (i j : Nat) :
    lens f ((gs.modify i b).take j) = lens f (gs.take j) := by
  unfold lens
  congr 1
  apply List.ext_getElem?
  intro k
  simp only [List.getElem?_map, List.getElem?_take, List.getElem?_modify]
  by_cases hk : k < j
  · simp only [hk, if_true]
    cases gs[k]? with
    | none => rfl
    | some g => by_cases hik : i = k <;> simp [hik, hb]
  · simp [hk]

/-- updating the entry of an existing group -/
theorem Rep.bump {O : DblOps} {E : Env} {base : List DEnt} {db : ADB} {s : Abs} (hr : Rep E base db s) (info : Info) (rec : List DEnt)
    {j : Nat} {g : Grp} (hg : s.groups[j]? = some g) :
    ∃ e, (db.entries.modify (j + 1) (fun e => { e with count := e.count + 1 }))[j + 1]? = some e ∧
    Rep E base { db with entries := db.entries.modify (j + 1) (fun e => { e with count := e.count + 1 })
                         kernels := updLoop O rec e.kIdx (info.aggr.take (Nat.min e.nK info.aggr.length)) 0 db.kernels }
      { s with groups := s.groups.modify j (Grp.bump O info rec) } := by
  obtain ⟨e, he, rep⟩ := hr.ents j g hg
  refine ⟨{ e with count := e.count + 1 }, by simp [List.getElem?_modify, he], ?_⟩
  have hbk : ∀ g, (Grp.bump O info rec g).key = g.key := fun g => rfl
  have hbl : ∀ g, ((Grp.bump O info rec g).kerns).length = g.kerns.length := fun g => updK_length O rec _ _
  refine ⟨?_, ?_, ?_, ?_, ?_, ?_, ?_⟩
  · obtain ⟨e0, a, b, c⟩ := hr.first
    exact ⟨e0, by simp [List.getElem?_modify, a], b, c⟩
  · simp [hr.len]
  · intro i g' hi
    simp only [List.getElem?_modify] at hi ⊢
    cases hgi : s.groups[i]? with
    | none => simp [hgi] at hi
    | some g0 =>
      obtain ⟨e1, he1, r1⟩ := hr.ents i g0 hgi
      rw [hgi] at hi
      replace hi : (if j = i then Grp.bump O info rec g0 else g0) = g' := by
        by_cases c : j = i <;> simpa [c] using hi
      by_cases hij : j = i
      · subst hij
        rw [if_pos rfl] at hi
        rw [he] at he1
        cases he1
        subst hi
        refine ⟨{ e with count := e.count + 1 }, by simp [he], ⟨?_, ?_, r1.keyLen, ?_, ?_⟩⟩
        · simp [Grp.bump, r1.count]
        · show e.keyIdx = _
          rw [lens_modify' (fun g => by rw [hbk]), r1.keyIdx]
        · show e.kIdx = _
          rw [lens_modify hbl, r1.kIdx]
        · show e.nK = _
          rw [hbl, r1.nK]
      · rw [if_neg hij] at hi
        subst hi
        refine ⟨e1, ?_, ⟨r1.count, ?_, r1.keyLen, ?_, r1.nK⟩⟩
        · simp [he1, hij]
        · rw [lens_modify' (fun g => by rw [hbk]), r1.keyIdx]
        · rw [lens_modify hbl, r1.kIdx]
  · show db.keyents = _
    rw [hr.keyents]
    congr 1
    rw [List.flatMap_def, List.flatMap_def]
    congr 1
    apply List.ext_getElem?
    intro k
    simp only [List.getElem?_map, List.getElem?_modify]
    cases s.groups[k]? with
    | none => rfl
    | some g => by_cases hjk : j = k <;> simp [hjk, hbk]
  · show updLoop O rec e.kIdx _ 0 db.kernels = _
    have e1 : s.groups.flatMap Grp.kerns = (s.groups.take j).flatMap Grp.kerns ++ [] ++ g.kerns ++ (s.groups.drop (j + 1)).flatMap Grp.kerns := by
      conv => lhs; rw [split_at hg]
      simp
    have e2 : (s.groups.modify j (Grp.bump O info rec)).flatMap Grp.kerns =
        (s.groups.take j).flatMap Grp.kerns ++ [] ++ (Grp.bump O info rec g).kerns ++ (s.groups.drop (j + 1)).flatMap Grp.kerns := by
      have hj := (List.getElem?_eq_some_iff.1 hg).1
      have : s.groups.modify j (Grp.bump O info rec) = s.groups.take j ++ Grp.bump O info rec g :: s.groups.drop (j + 1) := by
        rw [List.modify_eq_take_cons_drop hj]
        rw [(List.getElem?_eq_some_iff.1 hg).2]
      rw [this]; simp
    rw [e2, hr.kernels, e1, rep.nK]
    exact updLoop_slice O rec _ _ 0 _ [] g.kerns _ (by rw [flatMap_length, rep.kIdx]) rfl (by
      rw [List.length_take]
      exact Nat.le_trans (Nat.min_le_left _ _) (Nat.min_le_left _ _))
  · intro h
    obtain ⟨l, hc, hl⟩ := hr.chains h
    refine ⟨l, hc.mono ?_, ?_⟩
    · intro i e' hi
      by_cases hij : j + 1 = i
      · subst hij
        exact ⟨{ e' with count := e'.count + 1 }, by simp [List.getElem?_modify, hi], rfl⟩
      · exact ⟨e', by simp [List.getElem?_modify, hi, hij], rfl⟩
    · intro i
      rw [hl]
      constructor
      · rintro ⟨j', g', a, b, c⟩
        by_cases hjj : j = j'
        · exact ⟨j', Grp.bump O info rec g', a, by simp [List.getElem?_modify, b, hjj], c⟩
        · exact ⟨j', g', a, by simp [List.getElem?_modify, b, hjj], c⟩
      · rintro ⟨j', g', a, b, c⟩
        simp only [List.getElem?_modify] at b
        cases hgi : s.groups[j']? with
        | none => simp [hgi] at b
        | some g0 =>
          rw [hgi] at b
          replace b : (if j = j' then Grp.bump O info rec g0 else g0) = g' := by
            by_cases c : j = j' <;> simpa [c] using b
          refine ⟨j', g0, a, hgi, ?_⟩
          subst b
          by_cases hjj : j = j' <;> simpa [hjj, Grp.bump] using c
  · have : (s.groups.modify j (Grp.bump O info rec)).map E.gid = s.groups.map E.gid := by
      apply List.ext_getElem?
      intro k
      simp only [List.getElem?_map, List.getElem?_modify]
      cases s.groups[k]? with
      | none => rfl
      | some g => by_cases hjk : j = k <;> simp [hjk, Env.gid, Grp.bump]
    rw [this]; exact hr.distinct

/-- creating an entry -/
theorem Rep.create {E : Env} {base : List DEnt} {db : ADB} {s : Abs} (hr : Rep E base db s) (key : List DEnt) (h n : Nat)
    (hnew : ∀ g ∈ s.groups, E.gid g ≠ (h, key.map E.norm)) (c1 c2 c3 : Nat) :
    Rep E base { entries := db.entries ++ [⟨0, db.keyents.length, key.length, db.kernels.length, n, db.hash h⟩]
                 keyents := db.keyents ++ key
                 kernels := db.kernels ++ List.replicate n Kern.new
                 hash := fun x => if x = h then db.entries.length else db.hash x
                 capEntries := c1, capKeyents := c2, capKernels := c3 }
      { s with groups := s.groups ++ [⟨h, key, List.replicate n Kern.new, 0⟩] } := by
  have hpos : 0 < db.entries.length := by rw [hr.len]; omega
  have lift : ∀ (i : Nat) (e : AEntry), db.entries[i]? = some e →
      (db.entries ++ [⟨0, db.keyents.length, key.length, db.kernels.length, n, db.hash h⟩])[i]? = some e := by
    intro i e hi
    rw [List.getElem?_append_left (List.getElem?_eq_some_iff.1 hi).1, hi]
  refine ⟨?_, ?_, ?_, ?_, ?_, ?_, ?_⟩
  · obtain ⟨e0, a, b⟩ := hr.first
    exact ⟨e0, lift 0 e0 a, b⟩
  · simp [hr.len]
  · intro i g hi
    rcases Nat.lt_or_ge i s.groups.length with hlt | hge
    · simp only [List.getElem?_append_left hlt] at hi
      obtain ⟨e, he, r⟩ := hr.ents i g hi
      refine ⟨e, lift _ _ he, ⟨r.count, ?_, r.keyLen, ?_, r.nK⟩⟩
      · rw [r.keyIdx, List.take_append_of_le_length (by omega)]
      · rw [r.kIdx, List.take_append_of_le_length (by omega)]
    · simp only [List.getElem?_append_right hge] at hi
      have hi0 : i = s.groups.length := by
        have := (List.getElem?_eq_some_iff.1 hi).1
        simp at this; omega
      subst hi0
      simp at hi
      subst hi
      refine ⟨⟨0, db.keyents.length, key.length, db.kernels.length, n, db.hash h⟩, ?_, ⟨rfl, ?_, rfl, ?_, ?_⟩⟩
      · rw [← hr.len]; simp
      · show db.keyents.length = _
        rw [hr.keyents, List.length_append, flatMap_length]
        simp
      · show db.kernels.length = _
        rw [hr.kernels, flatMap_length]
        simp
      · simp
  · show db.keyents ++ key = _
    rw [hr.keyents]; simp
  · show db.kernels ++ _ = _
    rw [hr.kernels]; simp
  · intro h'
    obtain ⟨l, hc, hl⟩ := hr.chains h'
    have hc' : Chain (db.entries ++ [⟨0, db.keyents.length, key.length, db.kernels.length, n, db.hash h⟩]) (db.hash h') l :=
      hc.mono fun i e hi => ⟨e, lift i e hi, rfl⟩
    have grow : ∀ i, (∃ j g, i = j + 1 ∧ (s.groups ++ [(⟨h, key, List.replicate n Kern.new, 0⟩ : Grp)])[j]? = some g ∧ g.slot = h') ↔
        (i ∈ l ∨ (i = s.groups.length + 1 ∧ h = h')) := by
      intro i
      constructor
      · rintro ⟨j, g, rfl, b, c⟩
        rcases Nat.lt_or_ge j s.groups.length with hlt | hge
        · rw [List.getElem?_append_left hlt] at b
          exact .inl ((hl _).2 ⟨j, g, rfl, b, c⟩)
        · rw [List.getElem?_append_right hge] at b
          have hj : j = s.groups.length := by
            have := (List.getElem?_eq_some_iff.1 b).1
            simp at this; omega
          subst hj
          simp at b
          subst b
          exact .inr ⟨rfl, c⟩
      · rintro (hi | ⟨rfl, rfl⟩)
        · obtain ⟨j, g, a, b, c⟩ := (hl i).1 hi
          exact ⟨j, g, a, by rw [List.getElem?_append_left (List.getElem?_eq_some_iff.1 b).1, b], c⟩
        · exact ⟨s.groups.length, (⟨h, key, List.replicate n Kern.new, 0⟩ : Grp), rfl, by simp, rfl⟩
    by_cases hh : h' = h
    · subst hh
      have hlt : db.hash h' < db.entries.length := hc.lt hpos
      refine ⟨db.entries.length :: l, ?_, ?_⟩
      · simp only [if_true]
        exact .cons hpos (e := ⟨0, db.keyents.length, key.length, db.kernels.length, n, db.hash h'⟩) (by simp) hlt hc'
      · intro i
        rw [grow, List.mem_cons, hr.len]
        constructor
        · rintro (h | h)
          · exact .inr ⟨h, rfl⟩
          · exact .inl h
        · rintro (h | ⟨h, _⟩)
          · exact .inr h
          · exact .inl h
    · refine ⟨l, by simpa [hh] using hc', ?_⟩
      intro i
      rw [grow]
      constructor
      · exact .inl
      · rintro (h | ⟨_, h⟩)
        · exact h
        · exact absurd h.symm hh
  · simp only [List.map_append, List.map_cons, List.map_nil]
    refine List.nodup_append.2 ⟨hr.distinct, by simp, ?_⟩
    intro a ha b hb
    obtain ⟨g, hg, rfl⟩ := List.mem_map.1 ha
    simp at hb
    subst hb
    exact hnew g hg

/-- whether a new entry may be created -/
def ADB.room (db : ADB) (nAttrs keyLen : Nat) (canAlloc : Bool) : Bool :=
  canAlloc || decide (db.kernels.length + nAttrs < db.capKernels ∧ db.keyents.length + keyLen < db.capKeyents ∧
    db.entries.length + 1 < db.capEntries)

/-- processing a snapshot refines the abstract step -/
theorem Rep.process {O : DblOps} {E : Env} {base : List DEnt} {db : ADB} {s : Abs} (hr : Rep E base db s) (info : Info)
    (rec : List DEnt) (ca : Bool) :
    Rep E base (db.process O E info rec ca)
      (s.step O E info rec (db.room info.aggr.length ((E.keyEntries info rec).take maxKeyLen).length ca)) := by
  unfold ADB.process findOrCreate Abs.step
  generalize hk : (E.keyEntries info rec).take maxKeyLen = key
  generalize hh : E.slotOf info rec = h
  obtain ⟨l, hc, hl⟩ := hr.chains h
  have hlt : db.hash h < db.entries.length + 1 := by
    have := hc.lt (by rw [hr.len]; omega)
    omega
  rcases findLoop_spec hr key hc (db.entries.length + 1) hlt with ⟨j, g, hf, hj, hg, hkey⟩ | ⟨hf, hno⟩
  · simp only [hf]
    have hgs : g.slot = h := by
      obtain ⟨j', g', a, b, c⟩ := (hl _).1 hj
      have : j' = j := by omega
      subst this
      rw [hg] at b
      cases b
      exact c
    have hidx : s.groups.findIdx? (fun g => decide (E.gid g = (h, key.map E.norm))) = some j := by
      rw [List.findIdx?_eq_some_iff_getElem]
      obtain ⟨hjl, hje⟩ := List.getElem?_eq_some_iff.1 hg
      refine ⟨hjl, by simp [hje, Env.gid, hgs, hkey], ?_⟩
      intro k hkj
      simp only [decide_eq_true_eq]
      intro hc
      have h1 : (s.groups.map E.gid)[k]? = (s.groups.map E.gid)[j]? := by
        simp only [List.getElem?_map, hg, List.getElem?_eq_getElem (show k < s.groups.length by omega), Option.map_some, hc]
        simp [Env.gid, hgs, hkey]
      have := (List.getElem?_inj (by simp; omega) hr.distinct).1 h1
      omega
    simp only [hidx]
    obtain ⟨e, he, hrep⟩ := hr.bump (O := O) info rec hg
    simp only [he]
    exact hrep
  · simp only [hf]
    have hnew : ∀ g ∈ s.groups, E.gid g ≠ (h, key.map E.norm) := by
      intro g hg hc
      obtain ⟨j, hj⟩ := List.mem_iff_getElem?.1 hg
      simp only [Env.gid, Prod.mk.injEq] at hc
      exact hno j g ((hl _).2 ⟨j, g, rfl, hj, hc.1⟩) hj hc.2.symm
    have hidx : s.groups.findIdx? (fun g => decide (E.gid g = (h, key.map E.norm))) = none := by
      rw [List.findIdx?_eq_none_iff]
      intro g hg
      simpa using hnew g hg
    simp only [hidx]
    by_cases hroom : db.room info.aggr.length key.length ca = true
    · have hc' : ¬ ((!ca) = true ∧ (db.capKernels ≤ db.kernels.length + info.aggr.length ∨ db.capKeyents ≤ db.keyents.length + key.length ∨
          db.capEntries ≤ db.entries.length + 1)) := by
        rintro ⟨h1, h2⟩
        have : ca = false := by simpa using h1
        subst this
        simp only [ADB.room, Bool.false_or, decide_eq_true_eq] at hroom
        omega
      rw [if_neg hc', if_pos hroom]
      have hcr := hr.create key h info.aggr.length hnew (E.newCap db.capEntries (db.entries.length + 1))
        (E.newCap db.capKeyents (db.keyents.length + key.length)) (E.newCap db.capKernels (db.kernels.length + info.aggr.length))
      obtain ⟨e, he, hrep⟩ := hcr.bump (O := O) info rec (j := s.groups.length) (g := ⟨h, key, List.replicate info.aggr.length Kern.new, 0⟩)
        (by simp)
      simp only [← hr.len] at he hrep
      simp only [he]
      have e2 : (s.groups ++ [(⟨h, key, List.replicate info.aggr.length Kern.new, 0⟩ : Grp)]).modify s.groups.length (Grp.bump O info rec) =
          s.groups ++ [Grp.bump O info rec ⟨h, key, List.replicate info.aggr.length Kern.new, 0⟩] := modify_mid _ _ _ _
      rw [e2] at hrep
      exact hrep
    · have hc' : (!ca) = true ∧ (db.capKernels ≤ db.kernels.length + info.aggr.length ∨ db.capKeyents ≤ db.keyents.length + key.length ∨
          db.capEntries ≤ db.entries.length + 1) := by
        unfold ADB.room at hroom
        simp only [Bool.or_eq_true, not_or, decide_eq_true_eq] at hroom
        refine ⟨by simpa using hroom.1, ?_⟩
        have := hroom.2
        omega
      rw [if_pos hc', if_neg hroom]
      obtain ⟨e0, a, b, c, d⟩ := hr.first
      have hmod : (db.entries.modify 0 (fun e => { e with count := e.count + 1 }))[0]? = some { e0 with count := e0.count + 1 } := by
        simp [List.getElem?_modify, a]
      simp only [hmod, c]
      have e1 : updLoop O rec e0.kIdx (info.aggr.take (Nat.min 0 info.aggr.length)) 0 db.kernels = db.kernels := by
        have : Nat.min 0 info.aggr.length = 0 := Nat.zero_min _
        rw [this]; rfl
      rw [e1]
      refine ⟨⟨_, hmod, by simp [b], c, d⟩, by simp [hr.len], ?_, hr.keyents, hr.kernels, ?_, hr.distinct⟩
      · intro i g hg
        obtain ⟨e, he, r⟩ := hr.ents i g hg
        exact ⟨e, by simp [List.getElem?_modify, he], r⟩
      · intro h'
        obtain ⟨l', hc2, hl2⟩ := hr.chains h'
        refine ⟨l', hc2.mono ?_, hl2⟩
        intro i e hi
        cases i with
        | zero => exact ⟨{ e with count := e.count + 1 }, by simp [List.getElem?_modify, hi], rfl⟩
        | succ i => exact ⟨e, by simp [List.getElem?_modify, hi], rfl⟩

end Verif.Agg
