import Verif.Agg.Spec
/-!
# C28, C29: on-line aggregation
-/
namespace Verif.Agg
open Verif Verif.Cali

/-- one call of `process_snapshot`: the attributes known at that time, the record, and whether memory may be allocated (not in a
signal handler) -/
structure Call where
  info : Info
  snap : List DEnt
  canAlloc : Bool

/-- a sequence of `process_snapshot` calls -/
def ADB.run (O : DblOps) (E : Env) (db : ADB) (cs : List Call) : ADB := cs.foldl (fun db c => db.process O E c.info c.snap c.canAlloc) db

/-- the record `r` reports count `n` -/
def CountIs (info : Info) (n : Nat) (r : List DEnt) : Prop :=
  ∃ pre slot, r = pre ++ [⟨some info.countA, .uint (BitVec.ofNat 64 n)⟩, ⟨some info.slotA, .uint (BitVec.ofNat 64 slot)⟩]

/-- total number of snapshots in an abstract state -/
def Abs.total (s : Abs) : Nat := s.skipped + (s.groups.map Grp.count).sum

theorem sum_modify_count (gs : List Grp) (f : Grp → Grp) (hf : ∀ g, (f g).count = g.count + 1) : ∀ i, i < gs.length →
    ((gs.modify i f).map Grp.count).sum = (gs.map Grp.count).sum + 1 := by
  induction gs with
  | nil => intro i h; simp at h
  | cons g gs ih =>
    intro i h
    cases i with
    | zero => simp [hf]; omega
    | succ i =>
      have := ih i (by simpa using h)
      simp only [List.modify_succ_cons, List.map_cons, List.sum_cons, this]
      omega

theorem Abs.step_total (O : DblOps) (E : Env) (s : Abs) (info : Info) (rec : List DEnt) (room : Bool) :
    (s.step O E info rec room).total = s.total + 1 := by
  unfold Abs.step
  simp only
  split
  · rename_i i hi
    unfold Abs.total
    simp only
    rw [sum_modify_count _ _ (fun g => rfl) i (by
      rw [List.findIdx?_eq_some_iff_getElem] at hi
      exact hi.1)]
    omega
  · split
    · simp [Abs.total, Grp.bump]; omega
    · simp [Abs.total]; omega

theorem run_rep {O : DblOps} {E : Env} {base : List DEnt} (cs : List Call) : ∀ {db : ADB} {s : Abs}, Rep E base db s →
    ∃ s', Rep E base (db.run O E cs) s' ∧ s'.total = s.total + cs.length := by
  induction cs with
  | nil => intro db s h; exact ⟨s, h, rfl⟩
  | cons c cs ih =>
    intro db s h
    obtain ⟨s', h1, h2⟩ := ih (h.process (O := O) c.info c.snap c.canAlloc)
    refine ⟨s', h1, ?_⟩
    rw [h2, Abs.step_total, List.length_cons]
    omega

theorem outRecs_counts (O : DblOps) (info : Info) (ts : List (List DEnt × List Kern × Nat)) : ∀ n, ∃ counts : List Nat,
    List.Forall₂ (CountIs info) counts (outRecs O info n ts) ∧ counts.sum = (ts.map fun t => t.2.2).sum ∧ ∀ c ∈ counts, c ≠ 0 := by
  induction ts with
  | nil => intro n; exact ⟨[], .nil, rfl, by simp⟩
  | cons t ts ih =>
    intro n
    by_cases ht : t.2.2 = 0
    · obtain ⟨cs, h1, h2, h3⟩ := ih n
      exact ⟨cs, by simpa [outRecs, ht] using h1, by simp [ht, h2], h3⟩
    · obtain ⟨cs, h1, h2, h3⟩ := ih (n + 1)
      refine ⟨t.2.2 :: cs, ?_, by simp [h2], ?_⟩
      · simp only [outRecs, if_neg ht]
        exact .cons ⟨_, n, rfl⟩ h1
      · intro c hc
        rcases List.mem_cons.1 hc with rfl | hc
        · exact ht
        · exact h3 c hc

/-- C28 (counts): for every sequence of `process_snapshot` calls - any records, keys of any length, attributes changing from
call to call, with and without memory allocation - `flush` reads only existing key entries, and the (non-zero) counts of the
records it writes add up to the number of snapshots processed. -/
theorem C28_counts_total (O : DblOps) (E : Env) (sk : DEnt) (cs : List Call) (info : Info) :
    ∃ out counts, ((ADB.init sk).run O E cs).flush O info = some out ∧ List.Forall₂ (CountIs info) counts out ∧
      counts.sum = cs.length ∧ ∀ c ∈ counts, c ≠ 0 := by
  obtain ⟨s, h1, h2⟩ := run_rep (O := O) cs (Rep.init E sk)
  obtain ⟨counts, a, b, c⟩ := outRecs_counts O info (([sk], [], s.skipped) :: s.groups.map fun g => (g.key, g.kerns, g.count)) 0
  refine ⟨_, counts, h1.flush info, a, ?_, c⟩
  rw [b]
  have e : s.total = cs.length := by rw [h2]; simp [Abs.total]
  rw [← e, List.map_cons, List.sum_cons, List.map_map]
  rfl

/-- the record of the skipped snapshots -/
def skippedRecord (info : Info) (sk : DEnt) (n : Nat) : List DEnt :=
  [sk, ⟨some info.countA, .uint (BitVec.ofNat 64 n)⟩, ⟨some info.slotA, .uint (BitVec.ofNat 64 0)⟩]

theorem run_state {O : DblOps} {E : Env} {base : List DEnt} {info : Info} (cs : List (List DEnt × Bool))
    (hk : ∀ c ∈ cs, (E.keyEntries info c.1).length ≤ maxKeyLen) : ∀ {db : ADB} {s : Abs} {recs : List (List DEnt)}, Rep E base db s →
    E.IsState O info recs s.groups →
    ∃ s' mask, mask.length = cs.length ∧ Rep E base (db.run O E (cs.map fun c => ⟨info, c.1, c.2⟩)) s' ∧
      E.IsState O info (recs ++ ((cs.zip mask).filter (fun p => p.2)).map (fun p => p.1.1)) s'.groups ∧
      s'.skipped = s.skipped + mask.countP (fun b => !b) ∧ ∀ p ∈ cs.zip mask, p.2 = false → p.1.2 = false := by
  induction cs with
  | nil => intro db s recs h hs; exact ⟨s, [], rfl, h, by simpa using hs, rfl, by simp⟩
  | cons c cs ih =>
    intro db s recs h hs
    have hk' := hk c (by simp)
    have ih := fun {db s recs} => @ih (fun c hc => hk c (List.mem_cons_of_mem _ hc)) db s recs
    have hp := h.process (O := O) info c.1 c.2
    rcases IsState.step hs c.1 (db.room info.aggr.length ((E.keyEntries info c.1).take maxKeyLen).length c.2) hk' with ⟨h1, h2⟩ | ⟨h0, h1, h2⟩
    · obtain ⟨s', mask, a, b, d, e, f⟩ := ih hp h1
      refine ⟨s', true :: mask, by simp [a], b, ?_, ?_, ?_⟩
      · simpa using d
      · rw [e, h2]; simp
      · intro p hp hf
        simp only [List.zip_cons_cons, List.mem_cons] at hp
        rcases hp with rfl | hp
        · simp at hf
        · exact f p hp hf
    · obtain ⟨s', mask, a, b, d, e, f⟩ := ih hp (h1 ▸ hs)
      refine ⟨s', false :: mask, by simp [a], b, ?_, ?_, ?_⟩
      · simpa using d
      · rw [e, h2]; simp; omega
      · intro p hp hf
        simp only [List.zip_cons_cons, List.mem_cons] at hp
        rcases hp with rfl | hp
        · simp only [ADB.room, Bool.or_eq_false_iff] at h0
          exact h0.1
        · exact f p hp hf

theorem firsts_same {E : Env} {info : Info} {recs reps : List (List DEnt)} (h : E.Firsts info recs reps) :
    ∀ r ∈ reps, (E.sameKey info recs r).length ≠ 0 := by
  intro r hr hc
  have : r ∈ E.sameKey info recs r := by
    unfold Env.sameKey
    rw [List.mem_filter]
    exact ⟨h.sub.subset hr, by simp⟩
  rw [List.length_eq_zero_iff.1 hc] at this
  simp at this

theorem keyId_split (E : Env) (info : Info) (hat : ∀ a ∈ info.immKey, E.isAttr a = true) (r : List DEnt) :
    E.keyId info r = (E.refNodes r).map (fun i => (some i, none)) ++ (keyValues r info.immKey).map (fun p => (some p.1, some p.2)) := by
  unfold Env.keyId Env.keyEntries
  rw [List.map_append]
  congr 1
  · induction r with
    | nil => rfl
    | cons e r ih =>
      cases hn : e.node with
      | none => simp [Env.refNodes, hn, ih]
      | some i =>
        have him : E.isImm e = E.isAttr i := by simp [Env.isImm, hn]
        cases hi : E.isAttr i with
        | true => simp [Env.refNodes, hn, him, hi, ih]
        | false => simp [Env.refNodes, hn, him, hi, ih, Env.norm]
  · have getImm_node : ∀ a e, getImm r a = some e → e.node = some a := by
      intro a e h
      have := List.find?_some h
      simpa using this
    generalize info.immKey = as at hat
    induction as with
    | nil => rfl
    | cons a as ih =>
      have hv := valueIn_eq a r
      have iha := ih fun x hx => hat x (List.mem_cons_of_mem _ hx)
      cases h : getImm r a with
      | none => rw [h] at hv; simp [keyValues, hv, h, iha]
      | some e =>
        rw [h] at hv
        have := getImm_node a e h
        simp [keyValues, hv, h, iha, Env.norm, this, Env.isImm, hat a (by simp)]

/-- C28 (what a group is): two snapshots are counted under the same key exactly if they have the same reference nodes (region
paths) in the same order and the same values, including absence, of the key attributes stored as values.  And the record
reported for a key carries it: its key entries have the reference nodes of the snapshots, and their key attribute values. -/
theorem C28_key_meaning (E : Env) (info : Info) (hat : ∀ a ∈ info.immKey, E.isAttr a = true) (r r' : List DEnt) :
    (E.keyId info r = E.keyId info r' ↔
      E.refNodes r = E.refNodes r' ∧ keyValues r info.immKey = keyValues r' info.immKey) ∧
    E.refNodes (E.keyEntries info r) = E.refNodes r ∧
    (∀ a ∈ info.immKey, valueIn a (E.keyEntries info r) = valueIn a r) := by
  refine ⟨?_, ?_, ?_⟩
  · rw [keyId_split E info hat, keyId_split E info hat]
    constructor
    · intro h
      have inj1 : ∀ (l l' : List Nat) (m m' : List (Nat × Val)),
          l.map (fun i => ((some i, none) : Option Nat × Option Val)) ++ m.map (fun p => (some p.1, some p.2)) =
            l'.map (fun i => (some i, none)) ++ m'.map (fun p => (some p.1, some p.2)) → l = l' ∧ m = m' := by
        intro l
        induction l with
        | nil =>
          intro l' m m' h
          cases l' with
          | cons i l' => cases m <;> simp at h
          | nil =>
            refine ⟨rfl, ?_⟩
            have hi : Function.Injective (fun p : Nat × Val => ((some p.1, some p.2) : Option Nat × Option Val)) := by
              rintro ⟨a, b⟩ ⟨c, d⟩ h; simp at h; simp [h]
            exact (List.map_injective_iff.2 hi) (by simpa using h)
        | cons i l ih =>
          intro l' m m' h
          cases l' with
          | nil => cases m' <;> simp at h
          | cons j l' =>
            simp only [List.map_cons, List.cons_append, List.cons.injEq, Prod.mk.injEq, Option.some.injEq, and_true] at h
            obtain ⟨h1, h2⟩ := h
            obtain ⟨a, b⟩ := ih l' m m' h2
            exact ⟨by rw [h1, a], b⟩
      exact inj1 _ _ _ _ h
    · rintro ⟨h1, h2⟩
      rw [h1, h2]
  · have app : ∀ l l' : List DEnt, E.refNodes (l ++ l') = E.refNodes l ++ E.refNodes l' := by
      intro l l'
      induction l with
      | nil => rfl
      | cons e l ih =>
        simp only [List.cons_append, Env.refNodes]
        split
        · split <;> simp [ih]
        · exact ih
    have fil : ∀ l : List DEnt, E.refNodes (l.filter (fun e => e.node.isSome && !E.isImm e)) = E.refNodes l := by
      intro l
      induction l with
      | nil => rfl
      | cons e l ih =>
        cases hn : e.node with
        | none => simp [Env.refNodes, hn, ih]
        | some i =>
          have him : E.isImm e = E.isAttr i := by simp [Env.isImm, hn]
          cases hi : E.isAttr i with
          | true => simp [Env.refNodes, hn, him, hi, ih]
          | false => simp [Env.refNodes, hn, him, hi, ih]
    have imm : ∀ as : List Nat, (∀ a ∈ as, E.isAttr a = true) → E.refNodes (as.filterMap (getImm r)) = [] := by
      intro as
      induction as with
      | nil => intro _; rfl
      | cons a as ih =>
        intro h
        have iha := ih fun x hx => h x (List.mem_cons_of_mem _ hx)
        cases hg : getImm r a with
        | none => simp [hg, iha]
        | some e =>
          have hn : e.node = some a := by simpa using List.find?_some hg
          simp [hg, Env.refNodes, hn, h a (by simp), iha]
    rw [Env.keyEntries, app, fil, imm _ hat, List.append_nil]
  · intro a ha
    have skip : ∀ l m : List DEnt, (∀ e ∈ l, e.node ≠ some a) → valueIn a (l ++ m) = valueIn a m := by
      intro l m h
      induction l with
      | nil => rfl
      | cons e l ih =>
        simp only [List.cons_append, valueIn, if_neg (h e (by simp))]
        exact ih fun x hx => h x (List.mem_cons_of_mem _ hx)
    rw [Env.keyEntries, skip]
    · have all : ∀ as : List Nat, a ∈ as → valueIn a (as.filterMap (getImm r)) = valueIn a r := by
        intro as
        induction as with
        | nil => intro h; cases h
        | cons b as ih =>
          intro h
          by_cases hb : b = a
          · subst hb
            rw [valueIn_eq b r]
            cases hg : getImm r b with
            | some e =>
              have hn : e.node = some b := by simpa using List.find?_some hg
              simp [hg, valueIn, hn]
            | none =>
              rw [show List.filterMap (getImm r) (b :: as) = List.filterMap (getImm r) as by simp [hg]]
              have := skip (as.filterMap (getImm r)) [] (by
                intro e he hc
                obtain ⟨c, _, hc'⟩ := List.mem_filterMap.1 he
                have hn : e.node = some c := by simpa using List.find?_some hc'
                rw [hn] at hc
                cases hc
                rw [hg] at hc'
                cases hc')
              simpa [valueIn] using this
          · have h' : a ∈ as := by
              rcases List.mem_cons.1 h with h | h
              · exact absurd h.symm hb
              · exact h
            cases hg : getImm r b with
            | none => simpa [hg] using ih h'
            | some e =>
              have hn : e.node = some b := by simpa using List.find?_some hg
              simp only [List.filterMap_cons, hg, valueIn, hn]
              rw [if_neg (by simpa using hb)]
              exact ih h'
      exact all _ ha
    · intro e he hn
      have := (List.mem_filter.1 he).2
      simp [hn, Env.isImm, hat a ha] at this

/-- C28 (statistics, with a fixed set of attributes and keys of at most 16 entries): for every sequence of snapshots there is a
subset of them that is skipped - only snapshots that could not allocate memory - and `flush` writes the record of the skipped
ones, if any, followed by exactly one record for every distinct key of the others, in order of first occurrence, with the number
of snapshots with that key and the statistics of each aggregated attribute over just those snapshots. -/
theorem C28_statistics_partial (O : DblOps) (E : Env) (sk : DEnt) (info : Info) (cs : List (List DEnt × Bool))
    (hk : ∀ c ∈ cs, (E.keyEntries info c.1).length ≤ maxKeyLen) :
    ∃ (mask : List Bool) (reps : List (List DEnt)), mask.length = cs.length ∧ (∀ p ∈ cs.zip mask, p.2 = false → p.1.2 = false) ∧
      let kept := ((cs.zip mask).filter (fun p => p.2)).map (fun p => p.1.1)
      let skipped := mask.countP (fun b => !b)
      E.Firsts info kept reps ∧
      ((ADB.init sk).run O E (cs.map fun c => ⟨info, c.1, c.2⟩)).flush O info = some
        ((if skipped = 0 then [] else [skippedRecord info sk skipped]) ++
          reps.mapIdx fun i r => E.report (kernStats O) info kept r ((if skipped = 0 then 0 else 1) + i)) := by
  have h0 : E.IsState O info [] ([] : List Grp) := ⟨[], ⟨.slnil, by simp, by simp, by simp⟩, rfl⟩
  obtain ⟨s', mask, a, b, d, e, f⟩ := run_state (O := O) (info := info) cs hk (Rep.init E sk) h0
  obtain ⟨reps, hf, hg⟩ := d
  rw [List.nil_append] at hf hg
  refine ⟨mask, reps, a, f, hf, ?_⟩
  rw [b.flush info, hg]
  congr 1
  have e' : s'.skipped = mask.countP (fun b => !b) := by rw [e]; simp
  rw [e']
  simp only [outRecs]
  split
  · rw [outRecs_state O E info _ reps (firsts_same hf)]
    simp
  · rw [outRecs_state O E info _ reps (firsts_same hf)]
    have hke : kernEntries O info.res [] = [] := by cases info.res <;> rfl
    simp only [outRec, hke]
    rfl

/-- C28 (statistics, no snapshot skipped): with memory allocation allowed, `flush` writes exactly one record for every distinct
key, in order of first occurrence, with the statistics over all snapshots with that key. -/
theorem C28_statistics_alloc_partial (O : DblOps) (E : Env) (sk : DEnt) (info : Info) (recs : List (List DEnt))
    (hk : ∀ r ∈ recs, (E.keyEntries info r).length ≤ maxKeyLen) :
    ∃ reps, E.Firsts info recs reps ∧
      ((ADB.init sk).run O E (recs.map fun r => ⟨info, r, true⟩)).flush O info =
        some (reps.mapIdx fun i r => E.report (kernStats O) info recs r i) := by
  obtain ⟨mask, reps, a, b, hf, ho⟩ := C28_statistics_partial O E sk info (recs.map fun r => (r, true)) (by
    intro c hc
    obtain ⟨r, hr, rfl⟩ := List.mem_map.1 hc
    exact hk r hr)
  have hm : ∀ (l : List (List DEnt)) (m : List Bool), m.length = (l.map fun r => (r, true)).length →
      (∀ p ∈ (l.map fun r => (r, true)).zip m, p.2 = false → p.1.2 = false) →
      ((((l.map fun r => (r, true)).zip m).filter (fun p => p.2)).map (fun p => p.1.1) = l) ∧ m.countP (fun b => !b) = 0 := by
    intro l
    induction l with
    | nil => intro m h _; simp at h; simp [h]
    | cons r l ih =>
      intro m h h2
      cases m with
      | nil => simp at h
      | cons x m =>
        have hx : x = true := by
          have := h2 ((r, true), x) (by simp)
          simpa using this
        subst hx
        have := ih m (by simpa using h) (fun p hp => h2 p (by simp only [List.map_cons, List.zip_cons_cons]; exact List.mem_cons_of_mem _ hp))
        simp [this]
  obtain ⟨h1, h2⟩ := hm recs mask a b
  simp only [h1, h2] at hf ho
  refine ⟨reps, hf, ?_⟩
  simpa [List.map_map, Function.comp_def] using ho

/-! ## The statistics are exact -/

/-- the values computed by one branch of `update_minmaxsum` -/
theorem upd_exact {O : DblOps} {C : U64 → Val} {add : U64 → U64 → U64} {lt : U64 → U64 → Bool} (hb : ∀ x, bitsOf (C x) = x)
    (hw : ∀ x y, withBits (C x) y = C y) (hi : ∀ x, C x ≠ .inv)
    (hu : ∀ k x, k.min ≠ .inv → Kern.minmaxsum O k (C x) = k.upd add lt x)
    (hirr : ∀ x, lt x x = false) (htr : ∀ x y z, lt x y = true → lt y z = true → lt x z = true) (x : U64) (xs : List U64) :
    ∃ lo hi', lo ∈ x :: xs ∧ hi' ∈ x :: xs ∧ (∀ y ∈ x :: xs, lt y lo = false) ∧ (∀ y ∈ x :: xs, lt hi' y = false) ∧ lt hi' lo = false ∧
      kernOf O ((x :: xs).map C) = ⟨C lo, C hi', C (xs.foldl add x), xs.length + 1⟩ := by
  induction xs using List.reverseRecOn with
  | nil =>
    refine ⟨x, x, by simp, by simp, by simpa using hirr x, by simpa using hirr x, hirr x, ?_⟩
    simp [kernOf, Kern.update, Kern.minmaxsum, Kern.new]
  | append_singleton xs y ih =>
    obtain ⟨lo, hi', h1, h2, h3, h4, h5, hk⟩ := ih
    have e : (x :: (xs ++ [y])).map C = (x :: xs).map C ++ [C y] := by simp
    rw [e, kernOf_snoc, hk]
    have hmem : ∀ z, z ∈ x :: (xs ++ [y]) ↔ z ∈ x :: xs ∨ z = y := by intro z; simp [or_assoc]
    have hupd : Kern.update O ⟨C lo, C hi', C (xs.foldl add x), xs.length + 1⟩ (C y) =
        (let k : Kern := Kern.upd add lt ⟨C lo, C hi', C (xs.foldl add x), xs.length + 1⟩ y
         { k with count := k.count + 1 }) := by
      unfold Kern.update
      simp only [hu _ _ (show (⟨C lo, C hi', C (xs.foldl add x), xs.length + 1⟩ : Kern).min ≠ .inv from hi lo)]
    rw [hupd]
    have hfold : (xs ++ [y]).foldl add x = add (xs.foldl add x) y := by simp [List.foldl_append]
    rw [hfold]
    unfold Kern.upd
    simp only [hb, hw, List.length_append, List.length_singleton]
    by_cases hlo : lt y lo = true
    · refine ⟨y, hi', by simp, (hmem _).2 (.inl h2), ?_, ?_, ?_, by simp [hlo]⟩
      · intro z hz
        rcases (hmem z).1 hz with hz | rfl
        · by_contra hc
          have := htr z y lo (by simpa using hc) hlo
          rw [h3 z hz] at this
          simp at this
        · exact hirr z
      · intro z hz
        rcases (hmem z).1 hz with hz | rfl
        · exact h4 z hz
        · by_contra hc
          have := htr hi' z lo (by simpa using hc) hlo
          rw [h5] at this
          simp at this
      · by_contra hc
        have := htr hi' y lo (by simpa using hc) hlo
        rw [h5] at this
        simp at this
    · have hlo' : lt y lo = false := by simpa using hlo
      by_cases hhi : lt hi' y = true
      · refine ⟨lo, y, (hmem _).2 (.inl h1), by simp, ?_, ?_, hlo', by simp [hlo', hhi]⟩
        · intro z hz
          rcases (hmem z).1 hz with hz | rfl
          · exact h3 z hz
          · exact hlo'
        · intro z hz
          rcases (hmem z).1 hz with hz | rfl
          · by_contra hc
            have := htr hi' y z hhi (by simpa using hc)
            rw [h4 z hz] at this
            simp at this
          · exact hirr z
      · have hhi' : lt hi' y = false := by simpa using hhi
        refine ⟨lo, hi', (hmem _).2 (.inl h1), (hmem _).2 (.inl h2), ?_, ?_, h5, by simp [hlo', hhi']⟩
        · intro z hz
          rcases (hmem z).1 hz with hz | rfl
          · exact h3 z hz
          · exact hlo'
        · intro z hz
          rcases (hmem z).1 hz with hz | rfl
          · exact h4 z hz
          · exact hhi'

/-- C28 (statistics of signed values): `min` and `max` are the least and greatest value, `sum` is the sum modulo 2^64 and the
average the truncated quotient. -/
theorem C28_int_stats (O : DblOps) (xs : List U64) (h : xs ≠ []) :
    ∃ lo hi, lo ∈ xs ∧ hi ∈ xs ∧ (∀ y ∈ xs, lo.toInt ≤ y.toInt) ∧ (∀ y ∈ xs, y.toInt ≤ hi.toInt) ∧
      kernStats O (xs.map .int) = ⟨.int lo, .int hi, .int xs.sum, .int (BitVec.ofInt 64 (xs.sum.toInt.tdiv xs.length))⟩ := by
  cases xs with
  | nil => exact absurd rfl h
  | cons x xs =>
    obtain ⟨lo, hi, h1, h2, h3, h4, _, hk⟩ := upd_exact (O := O) (C := .int) (add := (· + ·)) (lt := fun a b => decide (a.toInt < b.toInt))
      (fun _ => rfl) (fun _ _ => rfl) (by simp) (fun k x hk => by simp [Kern.minmaxsum, hk]) (by simp)
      (fun a b c => by simp only [decide_eq_true_eq]; omega) x xs
    refine ⟨lo, hi, h1, h2, fun y hy => by simpa using h3 y hy, fun y hy => by simpa using h4 y hy, ?_⟩
    have hs : xs.foldl (· + ·) x = (x :: xs).sum := by
      rw [List.sum_eq_foldl]
      simp
    simp only [kernStats, hk, hs, divVal, List.length_map]

/-- C28 (statistics of unsigned values) -/
theorem C28_uint_stats (O : DblOps) (xs : List U64) (h : xs ≠ []) :
    ∃ lo hi, lo ∈ xs ∧ hi ∈ xs ∧ (∀ y ∈ xs, lo.toNat ≤ y.toNat) ∧ (∀ y ∈ xs, y.toNat ≤ hi.toNat) ∧
      kernStats O (xs.map .uint) = ⟨.uint lo, .uint hi, .uint xs.sum, .uint (BitVec.ofNat 64 (xs.sum.toNat / xs.length))⟩ := by
  cases xs with
  | nil => exact absurd rfl h
  | cons x xs =>
    obtain ⟨lo, hi, h1, h2, h3, h4, _, hk⟩ := upd_exact (O := O) (C := .uint) (add := (· + ·)) (lt := fun a b => decide (a.toNat < b.toNat))
      (fun _ => rfl) (fun _ _ => rfl) (by simp) (fun k x hk => by simp [Kern.minmaxsum, hk]) (by simp)
      (fun a b c => by simp only [decide_eq_true_eq]; omega) x xs
    refine ⟨lo, hi, h1, h2, fun y hy => by simpa using h3 y hy, fun y hy => by simpa using h4 y hy, ?_⟩
    have hs : xs.foldl (· + ·) x = (x :: xs).sum := by
      rw [List.sum_eq_foldl]
      simp
    simp only [kernStats, hk, hs, divVal, List.length_map]

/-- C28 (statistics of floating-point values): with a comparison that is irreflexive and transitive, as IEEE `<` is, no value
compares less than `min` or greater than `max`, both are among the values, `sum` is the left-to-right sum and the average that sum
divided by the number of values. -/
theorem C28_double_stats (O : DblOps) (hirr : ∀ x, O.lt x x = false) (htr : ∀ x y z, O.lt x y = true → O.lt y z = true → O.lt x z = true)
    (x : U64) (xs : List U64) :
    ∃ lo hi, lo ∈ x :: xs ∧ hi ∈ x :: xs ∧ (∀ y ∈ x :: xs, O.lt y lo = false) ∧ (∀ y ∈ x :: xs, O.lt hi y = false) ∧
      kernStats O ((x :: xs).map .double) =
        ⟨.double lo, .double hi, .double (xs.foldl O.add x), .double (O.div (xs.foldl O.add x) (xs.length + 1))⟩ := by
  obtain ⟨lo, hi, h1, h2, h3, h4, _, hk⟩ := upd_exact (O := O) (C := .double) (add := O.add) (lt := O.lt)
    (fun _ => rfl) (fun _ _ => rfl) (by simp) (fun k x hk => by simp [Kern.minmaxsum, hk]) hirr htr x xs
  refine ⟨lo, hi, h1, h2, h3, h4, ?_⟩
  simp only [kernStats, hk, divVal, List.length_map, List.length_cons]

/-- where sums do not overflow, the signed sum is the mathematical sum -/
theorem C28_int_sum_exact (xs : List U64) (h : ∀ ys, ys <+: xs → -(2 ^ 63) ≤ (ys.map BitVec.toInt).sum ∧ (ys.map BitVec.toInt).sum < 2 ^ 63) :
    xs.sum.toInt = (xs.map BitVec.toInt).sum := by
  induction xs using List.reverseRecOn with
  | nil => rfl
  | append_singleton xs y ih =>
    have ih := ih (fun ys hys => h ys (hys.trans (List.prefix_append _ _)))
    have hb := h _ (List.prefix_refl _)
    have e : (xs ++ [y]).sum = xs.sum + y := by simp
    rw [e, BitVec.toInt_add, ih]
    simp only [List.map_append, List.map_cons, List.map_nil, List.sum_append, List.sum_cons, List.sum_nil, Int.add_zero] at hb ⊢
    rw [Int.bmod_eq_of_le]
    · omega
    · omega

/-- where sums do not overflow, the unsigned sum is the mathematical sum -/
theorem C28_uint_sum_exact (xs : List U64) (h : (xs.map BitVec.toNat).sum < 2 ^ 64) : xs.sum.toNat = (xs.map BitVec.toNat).sum := by
  induction xs with
  | nil => rfl
  | cons x xs ih =>
    simp only [List.map_cons, List.sum_cons] at h ⊢
    rw [BitVec.toNat_add, ih (by omega)]
    omega

/-! ## What does not hold -/

/-- arithmetic for the examples (no floating-point values occur) -/
def exOps : DblOps := ⟨(· + ·), fun a b => decide (a.toNat < b.toNat), fun a _ => a⟩
/-- nodes above 1000 are attributes -/
def exEnv : Env := ⟨fun i => decide (1000 ≤ i ∧ i < 2000), fun _ => 0, fun c n => 2 * c + n⟩
/-- attribute 1001 is aggregated, 1002 is a key attribute -/
def exInfo : Info := ⟨[1002], [1001], [⟨1003, 1004, 1005, 1006⟩], 1007, 1008⟩

/-- C28 is violated for an attribute that becomes known after the first snapshot with a key: its values in later snapshots with
that key are not aggregated. -/
theorem C28_violated_late_attribute : ∃ (c1 c2 : Call) (info : Info),
    c1.canAlloc = true ∧ c2.canAlloc = true ∧ c2.info = info ∧ info.aggr = [1001] ∧ info.res = [⟨1003, 1004, 1005, 1006⟩] ∧
    valuesOf 1001 [c1.snap, c2.snap] = [.int 5] ∧
    ((ADB.init ⟨some 1, .inv⟩).run exOps exEnv [c1, c2]).flush exOps info =
      some [[⟨some 20, .inv⟩, ⟨some 1007, .uint 2⟩, ⟨some 1008, .uint 0⟩]] :=
  ⟨⟨⟨[], [], [], 1007, 1008⟩, [⟨some 20, .inv⟩], true⟩, ⟨exInfo, [⟨some 20, .inv⟩, ⟨some 1001, .int 5⟩], true⟩, exInfo,
    by decide, by decide, rfl, rfl, rfl, by decide +kernel, by decide +kernel⟩

/-- the hypothesis of `C28_key_meaning` is met, and both kinds of keys occur -/
example : (∀ a ∈ exInfo.immKey, exEnv.isAttr a = true) ∧
    exEnv.refNodes [⟨some 3, .inv⟩, ⟨some 1001, .int 4⟩, ⟨some 1002, .uint 9⟩] = [3] ∧
    keyValues [⟨some 3, .inv⟩, ⟨some 1001, .int 4⟩, ⟨some 1002, .uint 9⟩] exInfo.immKey = [(1002, .uint 9)] := by decide

/-- 17 references, the last of them `n` -/
def longKey (n : Nat) : List DEnt := (List.range 16).map (fun i => ⟨some (i + 1), .inv⟩) ++ [⟨some n, .inv⟩]

/-- C28 is violated for keys of more than 16 entries: snapshots with distinct keys are reported as one, under a truncated key. -/
theorem C28_violated_long_keys :
    exEnv.keyId exInfo (longKey 17) ≠ exEnv.keyId exInfo (longKey (17 + 8192)) ∧
    ((ADB.init ⟨some 1, .inv⟩).run exOps exEnv [⟨exInfo, longKey 17, true⟩, ⟨exInfo, longKey (17 + 8192), true⟩]).flush exOps exInfo =
      some [(List.range 16).map (fun i => ⟨some (i + 1), .inv⟩) ++ [⟨some 1007, .uint 2⟩, ⟨some 1008, .uint 0⟩]] := by
  constructor
  · decide +kernel
  · decide +kernel

/-- and a longer key can also be reported twice under the same truncated key -/
theorem C28_violated_long_keys_twice :
    ((ADB.init ⟨some 1, .inv⟩).run exOps exEnv [⟨exInfo, longKey 17, true⟩, ⟨exInfo, longKey 18, true⟩]).flush exOps exInfo =
      some [(List.range 16).map (fun i => ⟨some (i + 1), .inv⟩) ++ [⟨some 1007, .uint 1⟩, ⟨some 1008, .uint 0⟩],
            (List.range 16).map (fun i => ⟨some (i + 1), .inv⟩) ++ [⟨some 1007, .uint 1⟩, ⟨some 1008, .uint 1⟩]] := by
  decide +kernel

/-- the hypotheses of `C28_statistics_partial` are met by records with colliding hash values -/
example : (∀ c ∈ [([⟨some 3, .inv⟩, ⟨some 1001, .int 4⟩, ⟨some 1002, .uint 9⟩], true), ([⟨some 8195, .inv⟩], false),
      ([⟨some 3, .inv⟩, ⟨some 1001, .int (-2)⟩, ⟨some 1002, .uint 9⟩], true)], (exEnv.keyEntries exInfo c.1).length ≤ maxKeyLen) ∧
    ((ADB.init ⟨some 1, .inv⟩).run exOps exEnv
      [⟨exInfo, [⟨some 3, .inv⟩, ⟨some 1001, .int 4⟩, ⟨some 1002, .uint 9⟩], true⟩, ⟨exInfo, [⟨some 8195, .inv⟩], false⟩,
       ⟨exInfo, [⟨some 3, .inv⟩, ⟨some 1001, .int (-2)⟩, ⟨some 1002, .uint 9⟩], true⟩]).flush exOps exInfo =
      some [[⟨some 3, .inv⟩, ⟨some 1002, .uint 9⟩, ⟨some 1003, .int (-2)⟩, ⟨some 1004, .int 4⟩, ⟨some 1005, .int 2⟩,
             ⟨some 1006, .int 1⟩, ⟨some 1007, .uint 2⟩, ⟨some 1008, .uint 0⟩],
            [⟨some 8195, .inv⟩, ⟨some 1007, .uint 1⟩, ⟨some 1008, .uint 1⟩]] := by
  constructor <;> decide +kernel

/-! ## Clearing -/

theorem Rep.clear {E : Env} {base : List DEnt} {db : ADB} {s : Abs} (h : Rep E base db s) : Rep E [] db.clear ⟨[], 0⟩ := by
  obtain ⟨e0, a, b, c, d, e⟩ := h.first
  have ht : db.entries.take 1 = [e0] := by
    cases hes : db.entries with
    | nil => rw [hes] at a; simp at a
    | cons x xs => rw [hes] at a; simp at a; simp [a]
  refine ⟨⟨{ e0 with count := 0 }, by simp [ADB.clear, ht], rfl, c, d, e⟩, by simp [ADB.clear, ht], by simp, by simp [ADB.clear],
    by simp [ADB.clear], ?_, by simp⟩
  intro h
  exact ⟨[], .nil, by simp⟩

theorem Rep.flush_noskip {O : DblOps} {E : Env} {base : List DEnt} {db : ADB} {s : Abs} (hr : Rep E base db s) (hs : s.skipped = 0)
    (info : Info) : db.flush O info = some (outRecs O info 0 (s.groups.map fun g => (g.key, g.kerns, g.count))) := by
  obtain ⟨e0, a, b, c, d, e⟩ := hr.first
  have hlen := hr.len
  unfold ADB.flush
  cases hes : db.entries with
  | nil => rw [hes] at hlen; simp at hlen
  | cons x xs =>
    have hx : x = e0 := by rw [hes] at a; simpa using a
    subst hx
    rw [flushLoop, if_pos (by rw [b, hs])]
    refine flushLoop_eq ?_ 0
    rw [List.forall₂_iff_get]
    rw [hes] at hlen
    simp at hlen
    refine ⟨by simp [hlen], ?_⟩
    intro i hi1 hi2
    simp only [List.get_eq_getElem, List.getElem_map]
    have hig : i < s.groups.length := by omega
    obtain ⟨e', he', r⟩ := hr.ents i _ (List.getElem?_eq_getElem hig)
    rw [hes] at he'
    simp [List.getElem?_eq_getElem hi1] at he'
    subst he'
    have hsl := slice_flatMap Grp.key base (List.getElem?_eq_getElem hig)
    have hsk := slice_flatMap Grp.kerns [] (List.getElem?_eq_getElem hig)
    refine ⟨?_, ?_, ?_, r.count⟩
    · rw [r.keyIdx, r.keyLen, hr.keyents, List.length_append, flatMap_length]
      have : lens Grp.key s.groups = lens Grp.key (s.groups.take i) + lens Grp.key (s.groups.drop i) := by
        rw [← lens_append, List.take_append_drop]
      rw [this]
      have : (s.groups[i]).key.length ≤ lens Grp.key (s.groups.drop i) := by
        rw [List.drop_eq_getElem_cons hig]
        unfold lens
        rw [List.map_cons, List.sum_cons]
        omega
      omega
    · rw [r.keyIdx, r.keyLen, hr.keyents]; exact hsl
    · rw [r.kIdx, r.nK, hr.kernels]
      simpa using hsk

/-- the abstract state after calls that may all allocate memory -/
def Abs.run (O : DblOps) (E : Env) (s : Abs) (cs : List Call) : Abs := cs.foldl (fun s c => s.step O E c.info c.snap true) s

theorem run_alloc {O : DblOps} {E : Env} {base : List DEnt} (cs : List Call) (hc : ∀ c ∈ cs, c.canAlloc = true) :
    ∀ {db : ADB} {s : Abs}, Rep E base db s → Rep E base (db.run O E cs) (s.run O E cs) := by
  induction cs with
  | nil => intro db s h; exact h
  | cons c cs ih =>
    intro db s h
    have h1 := h.process (O := O) c.info c.snap c.canAlloc
    have : db.room c.info.aggr.length ((E.keyEntries c.info c.snap).take maxKeyLen).length c.canAlloc = true := by
      simp [ADB.room, hc c (by simp)]
    rw [this] at h1
    exact ih (fun c h => hc c (List.mem_cons_of_mem _ h)) h1

theorem Abs.run_skipped (O : DblOps) (E : Env) (cs : List Call) : ∀ s : Abs, (s.run O E cs).skipped = s.skipped := by
  induction cs with
  | nil => intro s; rfl
  | cons c cs ih =>
    intro s
    show (Abs.run O E (s.step O E c.info c.snap true) cs).skipped = _
    rw [ih]
    unfold Abs.step
    simp only
    split
    · rfl
    · simp

/-- C29 (no snapshots skipped afterwards): after any sequence of snapshots followed by `clear`, processing any further snapshots
while memory may be allocated and flushing yields exactly the records a newly created database yields.  Missing: snapshots
that cannot allocate memory (from signal handlers), where the property is false - see `C29_violated_skipped`. -/
theorem C29_clear_partial (O : DblOps) (E : Env) (sk : DEnt) (before after : List Call) (info : Info) (h : ∀ c ∈ after, c.canAlloc = true) :
    ((((ADB.init sk).run O E before).clear).run O E after).flush O info = ((ADB.init sk).run O E after).flush O info := by
  obtain ⟨s, hr, _⟩ := run_rep (O := O) before (Rep.init E sk)
  have h1 := run_alloc (O := O) after h hr.clear
  have h2 := run_alloc (O := O) after h (Rep.init E sk)
  rw [h1.flush_noskip (by rw [Abs.run_skipped]) info, h2.flush_noskip (by rw [Abs.run_skipped]) info]

/-- C29 (repeated clearing): clearing and reusing the database any number of times -/
theorem C29_clear_repeated_partial (O : DblOps) (E : Env) (sk : DEnt) (rounds : List (List Call)) (after : List Call) (info : Info)
    (h : ∀ c ∈ after, c.canAlloc = true) :
    (((rounds.foldl (fun db cs => (db.run O E cs).clear) (ADB.init sk))).run O E after).flush O info =
      ((ADB.init sk).run O E after).flush O info := by
  have key : ∀ (rounds : List (List Call)) (db : ADB), (∃ base, Rep E base db ⟨[], 0⟩) →
      ∃ base, Rep E base (rounds.foldl (fun db cs => (db.run O E cs).clear) db) ⟨[], 0⟩ := by
    intro rounds
    induction rounds with
    | nil => intro db h; exact h
    | cons cs rounds ih =>
      intro db h
      obtain ⟨base, hb⟩ := h
      obtain ⟨s, hs, _⟩ := run_rep (O := O) cs hb
      exact ih _ ⟨[], hs.clear⟩
  obtain ⟨base, hb⟩ := key rounds _ ⟨_, Rep.init E sk⟩
  have h1 := run_alloc (O := O) after h hb
  have h2 := run_alloc (O := O) after h (Rep.init E sk)
  rw [h1.flush_noskip (by rw [Abs.run_skipped]) info, h2.flush_noskip (by rw [Abs.run_skipped]) info]

/-- C29 is violated: after `clear`, a snapshot that has to be skipped (no memory allocation allowed and no room) makes `flush` read
beyond the end of the key entries, because `clear` drops the `SKIPPED` key.  A newly created database reports it. -/
theorem C29_violated_skipped (O : DblOps) (E : Env) (sk : DEnt) (before : List Call) (info : Info) (r : List DEnt)
    (hroom : ((ADB.init sk).run O E before).clear.room info.aggr.length ((E.keyEntries info r).take maxKeyLen).length false = false) :
    ((((ADB.init sk).run O E before).clear).run O E [⟨info, r, false⟩]).flush O info = none := by
  obtain ⟨s, hr, _⟩ := run_rep (O := O) before (Rep.init E sk)
  have h1 := hr.clear.process (O := O) info r false
  rw [hroom] at h1
  have hst : Abs.step O E ⟨[], 0⟩ info r false = ⟨[], 1⟩ := by simp [Abs.step]
  rw [hst] at h1
  show ADB.flush O (ADB.process O E (ADB.run O E (ADB.init sk) before).clear info r false) info = none
  generalize ADB.process O E (ADB.run O E (ADB.init sk) before).clear info r false = db at h1
  obtain ⟨e0, a, b, c, d, e⟩ := h1.first
  have hk := h1.keyents
  have hl := h1.len
  unfold ADB.flush
  cases hes : db.entries with
  | nil => rw [hes] at hl; simp at hl
  | cons x xs =>
    have hx : x = e0 := by rw [hes] at a; simpa using a
    subst hx
    rw [flushLoop, if_neg (by rw [b]; decide), flushEntry, if_pos (by rw [hk, d, e]; simp)]

/-- the hypothesis is met: a cleared database and a snapshot with as many aggregated attributes as the kernel vector has room for -/
example : (((ADB.init ⟨some 1, .inv⟩).run exOps exEnv [⟨exInfo, [⟨some 3, .inv⟩], true⟩]).clear).room
    (List.replicate 16384 1001).length 0 false = false := by
  rw [List.length_replicate]
  decide +kernel

end Verif.Agg
