import Verif.Agg.Refine
import Mathlib.Data.List.Induction
import Mathlib.Data.List.Forall2
/-!
# What on-line aggregation should report

A small specification in terms of the processed snapshot records only.
-/
namespace Verif.Agg
open Verif Verif.Cali

/-- what identifies the key of a snapshot record: the nodes of its references in order, then the key attributes with their
values -/
def Env.keyId (E : Env) (info : Info) (rec : List DEnt) : List (Option Nat × Option Val) := (E.keyEntries info rec).map E.norm

/-- the value of attribute `a` in a record: that of the first entry for it -/
def valueIn (a : Nat) : List DEnt → Option Val
  | [] => none
  | e :: r => if e.node = some a then some e.val else valueIn a r

/-- the values of attribute `a` in a list of records -/
def valuesOf (a : Nat) (recs : List (List DEnt)) : List Val := recs.filterMap (valueIn a)

theorem valueIn_eq (a : Nat) (r : List DEnt) : valueIn a r = (getImm r a).map DEnt.val := by
  induction r with
  | nil => rfl
  | cons e r ih =>
    simp only [valueIn, getImm, List.find?_cons] at *
    by_cases h : e.node = some a
    · simp [h]
    · simp [h, ih]

/-- the nodes of the reference entries of a record, in order: its region paths -/
def Env.refNodes (E : Env) : List DEnt → List Nat
  | [] => []
  | e :: r => match e.node with
    | some i => if E.isAttr i then E.refNodes r else i :: E.refNodes r
    | none => E.refNodes r

/-- the values of the key attributes a record has, in the order in which the key attributes were given -/
def keyValues (rec : List DEnt) : List Nat → List (Nat × Val)
  | [] => []
  | a :: as => match valueIn a rec with
    | some v => (a, v) :: keyValues rec as
    | none => keyValues rec as

/-- the records with the key of `r` -/
def Env.sameKey (E : Env) (info : Info) (recs : List (List DEnt)) (r : List DEnt) : List (List DEnt) :=
  recs.filter fun r' => decide (E.keyId info r' = E.keyId info r)

/-- the statistics of a list of values -/
structure Stats where
  min : Val
  max : Val
  sum : Val
  avg : Val

/-- the result entries for one aggregated attribute -/
def Stats.entries (s : Stats) (r : ResAttr) : List DEnt := [⟨some r.min, s.min⟩, ⟨some r.max, s.max⟩, ⟨some r.sum, s.sum⟩, ⟨some r.avg, s.avg⟩]

/-- the result entries for all aggregated attributes: nothing for an attribute without values -/
def statEntries (stats : List Val → Stats) (recs : List (List DEnt)) : List (Nat × ResAttr) → List DEnt
  | [] => []
  | (a, r) :: as => (if valuesOf a recs = [] then [] else (stats (valuesOf a recs)).entries r) ++ statEntries stats recs as

/-- the record reported for the key of `r`: the key, the statistics, the number of snapshots and the slot number -/
def Env.report (E : Env) (stats : List Val → Stats) (info : Info) (recs : List (List DEnt)) (r : List DEnt) (slot : Nat) : List DEnt :=
  E.keyEntries info r ++ statEntries stats (E.sameKey info recs r) (info.aggr.zip info.res) ++
    [⟨some info.countA, .uint (BitVec.ofNat 64 (E.sameKey info recs r).length)⟩, ⟨some info.slotA, .uint (BitVec.ofNat 64 slot)⟩]

/-- `reps` are the first records with each key, in order -/
structure Env.Firsts (E : Env) (info : Info) (recs reps : List (List DEnt)) : Prop where
  sub : reps.Sublist recs
  nodup : (reps.map (E.keyId info)).Nodup
  all : ∀ r ∈ recs, ∃ r' ∈ reps, E.keyId info r' = E.keyId info r
  first : ∀ r ∈ reps, recs.find? (fun r' => decide (E.keyId info r' = E.keyId info r)) = some r

/-- the statistics computed by updating a kernel with all values in order -/
def kernOf (O : DblOps) (vs : List Val) : Kern := vs.foldl (Kern.update O) Kern.new

/-- … as statistics -/
def kernStats (O : DblOps) (vs : List Val) : Stats :=
  let k := kernOf O vs
  ⟨k.min, k.max, k.sum, divVal O k.sum vs.length⟩

/-! ## The groups computed -/

/-- the group of `r` -/
def Env.grpOf (O : DblOps) (E : Env) (info : Info) (recs : List (List DEnt)) (r : List DEnt) : Grp :=
  ⟨E.slotOf info r, E.keyEntries info r, info.aggr.map fun a => kernOf O (valuesOf a (E.sameKey info recs r)), (E.sameKey info recs r).length⟩

theorem kernOf_snoc (O : DblOps) (vs : List Val) (v : Val) : kernOf O (vs ++ [v]) = (kernOf O vs).update O v := by
  simp [kernOf, List.foldl_append]

theorem kernOf_count (O : DblOps) (vs : List Val) : (kernOf O vs).count = vs.length := by
  induction vs using List.reverseRecOn with
  | nil => rfl
  | append_singleton vs v ih =>
    rw [kernOf_snoc, List.length_append, List.length_singleton, ← ih]
    have : ∀ (k : Kern), (k.minmaxsum O v).count = k.count := by
      intro k
      have hu : ∀ add lt x, (Kern.upd add lt k x).count = k.count := by
        intro add lt x
        unfold Kern.upd
        dsimp only
        split
        · rfl
        · split <;> rfl
      unfold Kern.minmaxsum
      split
      · rfl
      · split <;> first | rfl | apply hu
    show (Kern.minmaxsum O _ v).count + 1 = _
    rw [this]

theorem updK_map (O : DblOps) (rec : List DEnt) (as : List Nat) (f : Nat → Kern) :
    updK O rec as (as.map f) = as.map fun a => match getImm rec a with
      | none => f a
      | some e => (f a).update O e.val := by
  induction as with
  | nil => rfl
  | cons a as ih =>
    simp only [List.map_cons, updK, ih]
    congr 1

theorem sameKey_snoc (E : Env) (info : Info) (recs : List (List DEnt)) (rec r : List DEnt) :
    E.sameKey info (recs ++ [rec]) r = if E.keyId info rec = E.keyId info r then E.sameKey info recs r ++ [rec] else E.sameKey info recs r := by
  unfold Env.sameKey
  by_cases h : E.keyId info rec = E.keyId info r <;> simp [List.filter_append, h]

theorem grpOf_snoc_ne (O : DblOps) (E : Env) (info : Info) (recs : List (List DEnt)) {rec r : List DEnt}
    (h : E.keyId info rec ≠ E.keyId info r) : E.grpOf O info (recs ++ [rec]) r = E.grpOf O info recs r := by
  unfold Env.grpOf
  rw [sameKey_snoc, if_neg h]

theorem bump_map (O : DblOps) (info : Info) (rec : List DEnt) (slot : Nat) (key : List DEnt) (n : Nat) (recs : List (List DEnt)) :
    Grp.bump O info rec ⟨slot, key, info.aggr.map (fun a => kernOf O (valuesOf a recs)), n⟩ =
      ⟨slot, key, info.aggr.map (fun a => kernOf O (valuesOf a (recs ++ [rec]))), n + 1⟩ := by
  unfold Grp.bump
  have : info.aggr.take (Nat.min (info.aggr.map (fun a => kernOf O (valuesOf a recs))).length info.aggr.length) = info.aggr := by
    apply List.take_of_length_le
    rw [List.length_map]
    exact Nat.le_of_eq (Nat.min_self _).symm
  simp only [this, updK_map]
  congr 1
  apply List.map_congr_left
  intro a _
  unfold valuesOf
  have hv := valueIn_eq a rec
  cases h : getImm rec a with
  | none => rw [h] at hv; simp [List.filterMap_append, List.filterMap_cons, hv]
  | some e => rw [h] at hv; simp [List.filterMap_append, List.filterMap_cons, hv, kernOf_snoc]

theorem grpOf_snoc_eq (O : DblOps) (E : Env) (info : Info) (recs : List (List DEnt)) {rec r : List DEnt}
    (h : E.keyId info rec = E.keyId info r) : E.grpOf O info (recs ++ [rec]) r = Grp.bump O info rec (E.grpOf O info recs r) := by
  unfold Env.grpOf
  rw [bump_map, sameKey_snoc, if_pos h]
  simp

theorem slot_of_norm (E : Env) {l l' : List DEnt} (h : l.map E.norm = l'.map E.norm) : l.map E.entHash = l'.map E.entHash := by
  have hx : ∀ e : DEnt, E.entHash e = (match E.norm e with
      | (n, v) => n.getD 0 + (match v with
        | some v => E.valHash v
        | none => 0)) := by
    intro e
    unfold Env.entHash Env.norm
    cases E.isImm e <;> simp
  have : ∀ l : List DEnt, l.map E.entHash = (l.map E.norm).map (fun p => match p with
      | (n, v) => n.getD 0 + (match v with
        | some v => E.valHash v
        | none => 0)) := by
    intro l
    rw [List.map_map]
    exact List.map_congr_left fun e _ => hx e
  rw [this, this, h]

/-- with keys of at most 16 entries, groups are identified by the key -/
theorem gid_iff (O : DblOps) (E : Env) (info : Info) (recs : List (List DEnt)) (rec r : List DEnt)
    (h1 : (E.keyEntries info rec).length ≤ maxKeyLen) :
    E.gid (E.grpOf O info recs r) = (E.slotOf info rec, ((E.keyEntries info rec).take maxKeyLen).map E.norm) ↔
      E.keyId info r = E.keyId info rec := by
  rw [List.take_of_length_le h1]
  unfold Env.gid Env.grpOf Env.keyId
  simp only [Prod.mk.injEq]
  constructor
  · exact fun h => h.2
  · intro h
    refine ⟨?_, h⟩
    unfold Env.slotOf
    rw [slot_of_norm E h]

/-- the state after the records `recs` (those not skipped) -/
def Env.IsState (O : DblOps) (E : Env) (info : Info) (recs : List (List DEnt)) (gs : List Grp) : Prop :=
  ∃ reps, E.Firsts info recs reps ∧ gs = reps.map (E.grpOf O info recs)

theorem IsState.step {O : DblOps} {E : Env} {info : Info} {recs : List (List DEnt)} {s : Abs} (h : E.IsState O info recs s.groups)
    (rec : List DEnt) (room : Bool) (hk : (E.keyEntries info rec).length ≤ maxKeyLen) :
    (E.IsState O info (recs ++ [rec]) (s.step O E info rec room).groups ∧ (s.step O E info rec room).skipped = s.skipped) ∨
    (room = false ∧ (s.step O E info rec room).groups = s.groups ∧ (s.step O E info rec room).skipped = s.skipped + 1) := by
  obtain ⟨reps, hf, hg⟩ := h
  unfold Abs.step
  simp only
  cases hi : s.groups.findIdx? (fun g => decide (E.gid g = (E.slotOf info rec, ((E.keyEntries info rec).take maxKeyLen).map E.norm))) with
  | some i =>
    left
    refine ⟨⟨reps, ?_, ?_⟩, rfl⟩
    all_goals
      rw [List.findIdx?_eq_some_iff_getElem] at hi
      obtain ⟨hil, hie, hlt⟩ := hi
      simp only [hg, List.length_map] at hil
      simp only [hg, List.getElem_map, decide_eq_true_eq, gid_iff O E info recs rec _ hk] at hie
    · refine ⟨hf.sub.trans (List.sublist_append_left _ _), hf.nodup, ?_, ?_⟩
      · intro r hr
        rcases List.mem_append.1 hr with hr | hr
        · exact hf.all r hr
        · rw [List.mem_singleton] at hr
          subst hr
          exact ⟨_, List.getElem_mem hil, hie⟩
      · intro r hr
        rw [List.find?_append, hf.first r hr]; rfl
    · simp only [hg]
      apply List.ext_getElem?
      intro k
      rw [List.getElem?_modify]
      simp only [List.getElem?_map]
      cases hrk : reps[k]? with
      | none => rfl
      | some r =>
        by_cases hik : i = k
        · subst hik
          have : reps[i] = r := (List.getElem?_eq_some_iff.1 hrk).2
          rw [this] at hie
          simp [grpOf_snoc_eq O E info recs hie.symm]
        · have hne : E.keyId info rec ≠ E.keyId info r := by
            intro hc
            have h1 : (reps.map (E.keyId info))[i]? = (reps.map (E.keyId info))[k]? := by
              simp [hrk, List.getElem?_eq_getElem hil, hie, hc]
            exact hik ((List.getElem?_inj (by simpa using hil) hf.nodup).1 h1)
          simp [hik, grpOf_snoc_ne O E info recs hne]
  | none =>
    have hno : ∀ r ∈ reps, E.keyId info r ≠ E.keyId info rec := by
      intro r hr hc
      rw [List.findIdx?_eq_none_iff] at hi
      have := hi (E.grpOf O info recs r) (by rw [hg]; exact List.mem_map_of_mem hr)
      simp only [decide_eq_false_iff_not, gid_iff O E info recs rec r hk] at this
      exact this hc
    have hno' : ∀ r ∈ recs, E.keyId info r ≠ E.keyId info rec := by
      intro r hr hc
      obtain ⟨r', h1, h2⟩ := hf.all r hr
      exact hno r' h1 (h2.trans hc)
    cases room with
    | false => right; exact ⟨rfl, rfl, rfl⟩
    | true =>
      left
      refine ⟨⟨reps ++ [rec], ⟨?_, ?_, ?_, ?_⟩, ?_⟩, rfl⟩
      · exact List.Sublist.append hf.sub (List.Sublist.refl _)
      · rw [List.map_append, List.nodup_append]
        refine ⟨hf.nodup, by simp, ?_⟩
        intro a ha b hb
        obtain ⟨r, hr, rfl⟩ := List.mem_map.1 ha
        simp at hb
        subst hb
        exact hno r hr
      · intro r hr
        rcases List.mem_append.1 hr with hr | hr
        · obtain ⟨r', h1, h2⟩ := hf.all r hr
          exact ⟨r', List.mem_append_left _ h1, h2⟩
        · exact ⟨r, List.mem_append_right _ hr, rfl⟩
      · intro r hr
        rw [List.find?_append]
        rcases List.mem_append.1 hr with hr | hr
        · rw [hf.first r hr]; rfl
        · rw [List.mem_singleton] at hr
          subst hr
          have : recs.find? (fun r' => decide (E.keyId info r' = E.keyId info r)) = none := by
            rw [List.find?_eq_none]
            intro x hx
            simpa using hno' x hx
          rw [this]; simp
      · simp only [if_true, List.map_append, List.map_cons, List.map_nil, hg]
        congr 1
        · apply List.map_congr_left
          intro r hr
          exact (grpOf_snoc_ne O E info recs (fun h => hno r hr h.symm)).symm
        · have e0 : E.sameKey info recs rec = [] := by
            unfold Env.sameKey
            rw [List.filter_eq_nil_iff]
            intro x hx
            simpa using hno' x hx
          rw [grpOf_snoc_eq O E info recs rfl]
          congr 2
          unfold Env.grpOf
          rw [e0, List.take_of_length_le hk]
          have : List.replicate info.aggr.length Kern.new = info.aggr.map (fun a => kernOf O (valuesOf a [])) := by
            exact (List.map_const' (l := info.aggr) (b := Kern.new)).symm
          rw [this]
          rfl

/-! ## The records written by `flush` -/

/-- the record for a key, kernels and count -/
def outRec (O : DblOps) (info : Info) (t : List DEnt × List Kern × Nat) (slot : Nat) : List DEnt :=
  t.1 ++ kernEntries O info.res t.2.1 ++
    [⟨some info.countA, .uint (BitVec.ofNat 64 t.2.2)⟩, ⟨some info.slotA, .uint (BitVec.ofNat 64 slot)⟩]

/-- the records for a list of groups, numbered from `n` -/
def outRecs (O : DblOps) (info : Info) : Nat → List (List DEnt × List Kern × Nat) → List (List DEnt)
  | _, [] => []
  | n, t :: ts => if t.2.2 = 0 then outRecs O info n ts else outRec O info t n :: outRecs O info (n + 1) ts

/-- an entry refers to a key and kernels -/
def EntOf (db : ADB) (e : AEntry) (t : List DEnt × List Kern × Nat) : Prop :=
  e.keyIdx + e.keyLen ≤ db.keyents.length ∧ (db.keyents.drop e.keyIdx).take e.keyLen = t.1 ∧
    (db.kernels.drop e.kIdx).take e.nK = t.2.1 ∧ e.count = t.2.2

theorem flushLoop_eq {O : DblOps} {db : ADB} {info : Info} {es : List AEntry} {ts : List (List DEnt × List Kern × Nat)}
    (h : List.Forall₂ (EntOf db) es ts) : ∀ n, flushLoop O db info n es = some (outRecs O info n ts) := by
  induction h with
  | nil => intro n; rfl
  | cons h _ ih =>
    intro n
    obtain ⟨h1, h2, h3, h4⟩ := h
    simp only [flushLoop, outRecs, h4, ih]
    split
    · rfl
    · simp only [flushEntry, if_neg (Nat.not_lt.2 h1), h2, h3, h4, outRec]

theorem Rep.flush {O : DblOps} {E : Env} {sk : DEnt} {db : ADB} {s : Abs} (hr : Rep E [sk] db s) (info : Info) :
    db.flush O info = some (outRecs O info 0 (([sk], [], s.skipped) :: s.groups.map fun g => (g.key, g.kerns, g.count))) := by
  refine flushLoop_eq ?_ 0
  obtain ⟨e0, a, b, c, d, e⟩ := hr.first
  have hlen := hr.len
  cases hes : db.entries with
  | nil => rw [hes] at hlen; simp at hlen
  | cons x xs =>
    have hx : x = e0 := by rw [hes] at a; simpa using a
    subst hx
    refine .cons ⟨?_, ?_, ?_, b⟩ ?_
    · rw [d, e, hr.keyents]; simp
    · rw [d, e, hr.keyents]; simp
    · rw [c]; rfl
    · rw [List.forall₂_iff_get]
      rw [hes] at hlen
      simp at hlen
      refine ⟨by simp [hlen], ?_⟩
      intro i hi1 hi2
      simp only [List.get_eq_getElem, List.getElem_map]
      have hig : i < s.groups.length := by omega
      obtain ⟨e', he', r⟩ := hr.ents i _ (List.getElem?_eq_getElem hig)
      rw [hes] at he'
      simp [List.getElem?_eq_getElem hi1] at he'
      subst he'
      have hsl := slice_flatMap Grp.key [sk] (List.getElem?_eq_getElem hig)
      have hsk := slice_flatMap Grp.kerns [] (List.getElem?_eq_getElem hig)
      refine ⟨?_, ?_, ?_, r.count⟩
      · rw [r.keyIdx, r.keyLen, hr.keyents, List.length_append, flatMap_length]
        have : lens Grp.key s.groups = lens Grp.key (s.groups.take i) + lens Grp.key (s.groups.drop i) := by
          rw [← lens_append, List.take_append_drop]
        rw [this]
        have : (s.groups[i]).key.length ≤ lens Grp.key (s.groups.drop i) := by
          rw [List.drop_eq_getElem_cons hig]
          unfold lens
          rw [List.map_cons, List.sum_cons]
          omega
        omega
      · rw [r.keyIdx, r.keyLen, hr.keyents]; exact hsl
      · rw [r.kIdx, r.nK, hr.kernels]
        simpa using hsk

theorem kernEntries_eq (O : DblOps) (recs : List (List DEnt)) (as : List Nat) : ∀ rs : List ResAttr,
    kernEntries O rs (as.map fun a => kernOf O (valuesOf a recs)) = statEntries (kernStats O) recs (as.zip rs) := by
  induction as with
  | nil => intro rs; cases rs <;> rfl
  | cons a as ih =>
    intro rs
    cases rs with
    | nil => rfl
    | cons r rs =>
      simp only [List.map_cons, kernEntries, List.zip_cons_cons, statEntries, ih, kernOf_count]
      congr 1
      by_cases h : valuesOf a recs = []
      · simp [h]
      · have : ¬ (valuesOf a recs).length = 0 := by simpa using h
        rw [if_neg this, if_neg h]
        rfl

theorem outRecs_state (O : DblOps) (E : Env) (info : Info) (recs reps : List (List DEnt))
    (h : ∀ r ∈ reps, (E.sameKey info recs r).length ≠ 0) : ∀ n,
    outRecs O info n ((reps.map (E.grpOf O info recs)).map fun g => (g.key, g.kerns, g.count)) =
      reps.mapIdx fun i r => E.report (kernStats O) info recs r (n + i) := by
  induction reps with
  | nil => intro n; rfl
  | cons r reps ih =>
    intro n
    simp only [List.map_cons, outRecs]
    rw [if_neg (by simpa [Env.grpOf] using h r (by simp)), ih (fun r hr => h r (List.mem_cons_of_mem _ hr)), List.mapIdx_cons]
    congr 1
    · simp [outRec, Env.report, Env.grpOf, kernEntries_eq]
    · congr 1
      funext i r
      congr 1
      omega

end Verif.Agg
