import Verif.Query.Kernels
/-!
# What the kernels report

The closed form of the reported records: per group, and per kernel, in terms of the records that belong to the group.
-/
namespace Verif.Query
open Verif Verif.Cali Verif.Agg

/-- sum of values -/
def sumOf (O : XOps) (vs : List Val) : Val := vs.foldl (addVal O.toFOps) .inv

/-- `r` lies below the region of group `K`: `K` is the key of `r` with a proper, non-empty prefix of the path of `r` -/
def QCfg.below (C : QCfg) (K : List KEnt) (r : List QEnt) : Bool := decide (∃ p ∈ ancestors (C.pathOf r), K = C.preKey r ++ [.node p])

/-- the records of group `K`, for inclusive kernels with the records below `K` -/
def QCfg.inGroup (C : QCfg) (incl : Bool) (K : List KEnt) (recs : List (List QEnt)) : List (List QEnt) :=
  recs.filter fun r => decide (K = C.keyOf r) || (incl && C.below K r)

/-- the entry for attribute `d`, if there is a value -/
def shown (d : Nat) (v : Val) : List QEnt := if v = .inv then [] else [.imm d v]

/-- contribution of an entry to the sum, the sum of squares, and the count of a variance -/
def varContrib (O : XOps) (t sum sq cnt : Nat) (e : QEnt) : Option U64 × Option U64 × Nat :=
  if e.attr = t then (some (O.ofVal e.value), some (O.mul (O.ofVal e.value) (O.ofVal e.value)), 1)
  else if e.attr = sum then (some (O.ofVal e.value), none, 0)
  else if e.attr = sq then (none, some (O.ofVal e.value), 0)
  else if e.attr = cnt then (none, none, (toU64 O.toFOps e.value).toNat)
  else (none, none, 0)

/-- what kernel `k` reports for group `K` after the records `recs` -/
def XCfg.reports (O : XOps) (C : QCfg) (recs : List (List QEnt)) (K : List KEnt) (k : XCfg) : List QEnt :=
  match k with
  | .ratio t1 d1 t2 d2 res f i =>
    let s1 := sumOf O ((C.inGroup i K recs).flatMap (matching C.known t1 d1))
    let s2 := sumOf O ((C.inGroup i K recs).flatMap (matching C.known t2 d2))
    shown d1 s1 ++ shown d2 s2 ++
      if s1 ≠ .inv ∧ s2 ≠ .inv then [.imm res (.double (O.fdiv (O.mul f (O.ofVal s1)) (O.ofVal s2)))] else []
  | .scale t d res f i =>
    let s := sumOf O ((C.inGroup i K recs).flatMap (matching C.known t d))
    shown d s ++ if s ≠ .inv then [.imm res (.double (O.mul f (O.ofVal s)))] else []
  | .pct t d res i =>
    let own := sumOf O ((C.inGroup false K recs).flatMap (matching C.known t d))
    let s := sumOf O ((C.inGroup i K recs).flatMap (matching C.known t d))
    let total := sumOf O (recs.flatMap (matching C.known t d))
    if s ≠ .inv ∧ O.pos (O.ofVal total) = true then
      [.imm d own, .imm res (.double (O.fdiv (O.mul O.hundred (O.ofVal s)) (O.ofVal total)))]
    else []
  | .any t d =>
    shown d ((((C.inGroup false K recs).map fun r => ((matching C.known t d r).getLast?).getD .inv).find? (· ≠ .inv)).getD .inv)
  | .scount c res f =>
    let n := (((C.inGroup false K recs).map (countOf O.toFOps c)).sum).toNat
    if n = 0 then [] else [.imm c (.uint (BitVec.ofNat 64 n)), .imm res (.double (O.mul f (O.ofNat n)))]
  | .variance t res cnt sum sq =>
    let es := if C.known t then (C.inGroup false K recs).flatten else []
    let n := (es.map fun e => (varContrib O t sum sq cnt e).2.2).sum % 4294967296
    let s := (es.filterMap fun e => (varContrib O t sum sq cnt e).1).foldl O.add 0
    let q := (es.filterMap fun e => (varContrib O t sum sq cnt e).2.1).foldl O.add 0
    if n = 0 then []
    else
      [.imm res (.double (O.sub (O.fdiv q (O.ofNat n)) (O.mul (O.fdiv s (O.ofNat n)) (O.fdiv s (O.ofNat n))))),
       .imm sum (.double s), .imm sq (.double q), .imm cnt (.uint (BitVec.ofNat 64 n))]

/-- an inclusive kernel finds a value in `r` -/
def XCfg.propagates (C : QCfg) (r : List QEnt) : XCfg → Prop
  | .ratio t1 d1 t2 d2 _ _ i => i = true ∧ (matching C.known t1 d1 r ≠ [] ∨ matching C.known t2 d2 r ≠ [])
  | .scale t d _ _ i => i = true ∧ matching C.known t d r ≠ []
  | .pct t d _ i => i = true ∧ matching C.known t d r ≠ []
  | _ => False

/-- there is a group `K` -/
def XPresent (C : QCfg) (ks : List XCfg) (recs : List (List QEnt)) (K : List KEnt) : Prop :=
  ∃ r ∈ recs, K = C.keyOf r ∨ (C.below K r = true ∧ ∃ k ∈ ks, k.propagates C r)

/-! ## Proofs -/

/-- the state of kernel `k` in group `K` after the records `recs` -/
def XCfg.stateOf (O : XOps) (C : QCfg) (recs : List (List QEnt)) (K : List KEnt) (k : XCfg) : XSt :=
  match k with
  | .ratio t1 d1 t2 d2 _ _ i =>
    { v1 := sumOf O ((C.inGroup i K recs).flatMap (matching C.known t1 d1)), v2 := sumOf O ((C.inGroup i K recs).flatMap (matching C.known t2 d2)) }
  | .scale t d _ _ i => { v1 := sumOf O ((C.inGroup i K recs).flatMap (matching C.known t d)) }
  | .pct t d _ i =>
    { v1 := sumOf O ((C.inGroup false K recs).flatMap (matching C.known t d)), v2 := sumOf O ((C.inGroup i K recs).flatMap (matching C.known t d)) }
  | .any t d => { v1 := (((C.inGroup false K recs).map fun r => ((matching C.known t d r).getLast?).getD .inv).find? (· ≠ .inv)).getD .inv }
  | .scount c _ _ => { n := (((C.inGroup false K recs).map (countOf O.toFOps c)).sum).toNat }
  | .variance t _ cnt sum sq =>
    let es := if C.known t then (C.inGroup false K recs).flatten else []
    { n := (es.map fun e => (varContrib O t sum sq cnt e).2.2).sum % 4294967296
      d1 := (es.filterMap fun e => (varContrib O t sum sq cnt e).1).foldl O.add 0
      d2 := (es.filterMap fun e => (varContrib O t sum sq cnt e).2.1).foldl O.add 0 }

/-- the total of kernel `k` -/
def XCfg.totalOf (O : XOps) (C : QCfg) (recs : List (List QEnt)) : XCfg → Val
  | .pct t d _ _ => sumOf O (recs.flatMap (matching C.known t d))
  | _ => .inv

theorem reports_eq (O : XOps) (C : QCfg) (recs : List (List QEnt)) (K : List KEnt) (k : XCfg) :
    k.result O (k.totalOf O C recs) (k.stateOf O C recs K) = k.reports O C recs K := by
  cases k with
  | ratio t1 d1 t2 d2 res f i =>
    simp only [XCfg.result, XCfg.stateOf, XCfg.reports, shown]
    by_cases hx : sumOf O ((C.inGroup i K recs).flatMap (matching C.known t1 d1)) = .inv <;>
      by_cases hy : sumOf O ((C.inGroup i K recs).flatMap (matching C.known t2 d2)) = .inv <;> simp [hx, hy]
  | scale t d res f i =>
    simp only [XCfg.result, XCfg.stateOf, XCfg.reports, shown]
    split <;> simp_all
  | pct t d res i => rfl
  | any t d => rfl
  | scount c res f => rfl
  | variance t res cnt sum sq => rfl

/-- new state of kernel `k` in group `K` with record `r` -/
def XCfg.next (O : XOps) (C : QCfg) (K : List KEnt) (r : List QEnt) (k : XCfg) (s : XSt) : XSt :=
  if K = C.keyOf r then (k.agg O C.known s r).1
  else if k.incl = true ∧ 0 < (k.agg O C.known (XSt.mk .inv .inv 0 0 0) r).2 ∧ C.below K r = true then k.parentAgg O C.known s r
  else s

theorem agg_matches (O : XOps) (known : Nat → Bool) (k : XCfg) (s : XSt) (r : List QEnt) (h : k.incl = true) :
    (k.agg O known s r).2 = (k.agg O known (XSt.mk .inv .inv 0 0 0) r).2 := by
  cases k <;> simp_all [XCfg.incl, XCfg.agg]

theorem propagates_iff (O : XOps) (C : QCfg) (k : XCfg) (r : List QEnt) :
    (k.incl = true ∧ 0 < (k.agg O C.known (XSt.mk .inv .inv 0 0 0) r).2) ↔ k.propagates C r := by
  cases k <;> simp [XCfg.incl, XCfg.agg, XCfg.propagates, List.length_pos_iff, Nat.add_pos_iff_pos_or_pos]

theorem xparents_st (O : XOps) (C : QCfg) (r : List QEnt) (ck : XCfg × Nat) (ps : List (List (Nat × Val))) (hps : ps.Nodup) : ∀ A : XAgg,
    let B := ps.foldl (fun (A : XAgg) p =>
      let K := C.preKey r ++ [.node p]
      let A := A.touch K
      A.put K ck.2 (ck.1.parentAgg O C.known (A.st K ck.2) r)) A
    (∀ K' k', B.st K' k' = if k' = ck.2 ∧ ∃ p ∈ ps, K' = C.preKey r ++ [.node p] then ck.1.parentAgg O C.known (A.st K' k') r else A.st K' k') ∧
    (∀ K', K' ∈ B.keys ↔ K' ∈ A.keys ∨ ∃ p ∈ ps, K' = C.preKey r ++ [.node p]) ∧ B.tot = A.tot ∧ (A.keys.Nodup → B.keys.Nodup) := by
  induction ps with
  | nil => intro A; simp
  | cons p ps ih =>
    intro A
    obtain ⟨hp, hps'⟩ := List.nodup_cons.1 hps
    obtain ⟨h1, h2, h3, h4⟩ := ih hps' ((A.touch (C.preKey r ++ [.node p])).put (C.preKey r ++ [.node p]) ck.2
      (ck.1.parentAgg O C.known ((A.touch (C.preKey r ++ [.node p])).st (C.preKey r ++ [.node p]) ck.2) r))
    have hts : (A.touch (C.preKey r ++ [KEnt.node p])).st = A.st := by unfold XAgg.touch; split <;> rfl
    have htt : (A.touch (C.preKey r ++ [KEnt.node p])).tot = A.tot := by unfold XAgg.touch; split <;> rfl
    refine ⟨?_, ?_, ?_, ?_⟩
    · intro K' k'
      simp only [List.foldl_cons]
      rw [h1]
      simp only [XAgg.put, hts]
      by_cases hk : k' = ck.2
      · subst hk
        by_cases hK : K' = C.preKey r ++ [.node p]
        · subst hK
          have hno : ¬ ∃ q ∈ ps, C.preKey r ++ [KEnt.node p] = C.preKey r ++ [.node q] := by
            rintro ⟨q, hq, he⟩
            have := List.append_cancel_left he
            simp at this
            subst this
            exact hp hq
          rw [if_neg (fun h => hno h.2), if_pos ⟨rfl, rfl⟩, if_pos ⟨rfl, p, by simp, rfl⟩]
        · have e : (∃ q ∈ p :: ps, K' = C.preKey r ++ [KEnt.node q]) ↔ ∃ q ∈ ps, K' = C.preKey r ++ [KEnt.node q] := by
            simp [hK]
          simp only [hK, false_and, if_false]
          simp only [e]
      · simp [hk]
    · intro K'
      simp only [List.foldl_cons]
      rw [h2]
      show K' ∈ (A.touch (C.preKey r ++ [.node p])).keys ∨ _ ↔ _
      unfold XAgg.touch
      simp only [List.mem_cons, exists_eq_or_imp]
      by_cases hm : C.preKey r ++ [KEnt.node p] ∈ A.keys
      · simp only [hm, if_true]
        constructor
        · rintro (h | h)
          · exact .inl h
          · exact .inr (.inr h)
        · rintro (h | h | h)
          · exact .inl h
          · exact .inl (h ▸ hm)
          · exact .inr h
      · simp only [hm, if_false, List.mem_append, List.mem_singleton]
        exact or_assoc
    · simp only [List.foldl_cons]
      rw [h3]
      exact htt
    · intro hnd
      simp only [List.foldl_cons]
      apply h4
      show (A.touch (C.preKey r ++ [.node p])).keys.Nodup
      unfold XAgg.touch
      split
      · exact hnd
      · rename_i hm
        exact List.nodup_append.2 ⟨hnd, by simp, by rintro x hx y hy rfl; simp at hy; subst hy; exact hm hx⟩

theorem xkernel_st (O : XOps) (C : QCfg) (r : List QEnt) (ck : XCfg × Nat) (A : XAgg) (hA : C.keyOf r ∈ A.keys) :
    (∀ K' k', (A.kernel O C r ck).st K' k' = if k' = ck.2 then ck.1.next O C K' r (A.st K' k') else A.st K' k') ∧
    (∀ K', K' ∈ (A.kernel O C r ck).keys ↔ K' ∈ A.keys ∨ (C.below K' r = true ∧ ck.1.propagates C r)) ∧
    (∀ k', (A.kernel O C r ck).tot k' = if k' = ck.2 then ck.1.addTotal O C.known (A.tot k') r else A.tot k') ∧
    (A.keys.Nodup → (A.kernel O C r ck).keys.Nodup) := by
  have hpr := propagates_iff O C ck.1 r
  have hne : ∀ K', C.below K' r = true → K' ≠ C.keyOf r ∧ C.pathOf r ≠ [] := by
    intro K' h
    obtain ⟨p, hp, rfl⟩ := of_decide_eq_true h
    refine ⟨mkKey_ne hp, ?_⟩
    intro h0
    rw [h0, ancestors_nil] at hp
    simp at hp
  have hiff : ∀ K', (∃ p ∈ ancestors (C.pathOf r), K' = C.preKey r ++ [KEnt.node p]) ↔ C.below K' r = true := by
    intro K'; unfold QCfg.below; simp
  unfold XAgg.kernel
  by_cases hc : (ck.1.incl && decide (0 < (ck.1.agg O C.known (A.st (C.keyOf r) ck.2) r).2) && decide (C.pathOf r ≠ [])) = true
  · simp only [hc, if_true]
    simp only [Bool.and_eq_true, decide_eq_true_eq] at hc
    have hprop : ck.1.propagates C r := hpr.1 ⟨hc.1.1, by rw [← agg_matches O C.known ck.1 _ r hc.1.1]; exact hc.1.2⟩
    obtain ⟨h1, h2, h3, h4⟩ := xparents_st O C r ck _ (ancestors_nodup (C.pathOf r))
      { A.put (C.keyOf r) ck.2 (ck.1.agg O C.known (A.st (C.keyOf r) ck.2) r).1 with
        tot := fun j => if j = ck.2 then ck.1.addTotal O C.known (A.tot j) r else A.tot j }
    refine ⟨?_, ?_, ?_, ?_⟩
    · intro K' k'
      refine (h1 K' k').trans ?_
      simp only [XAgg.put]
      by_cases hk : k' = ck.2
      · subst hk
        simp only [true_and, and_true, if_true, hiff]
        unfold XCfg.next
        by_cases hb : C.below K' r = true
        · simp only [hb, if_true, (hne K' hb).1, if_false, hpr.2 hprop, and_self]
        · simp only [hb, and_false, if_false]
          simp
          by_cases hK : K' = C.keyOf r
          · simp [hK]
          · simp [hK]
      · simp [hk]
    · intro K'
      refine (h2 K').trans ?_
      simp only [hiff, hprop, and_true]
      rfl
    · intro k'
      exact congrFun h3 k'
    · intro hnd
      exact h4 hnd
  · rw [if_neg hc]
    have hno : ∀ K', ¬ (C.below K' r = true ∧ ck.1.propagates C r) := by
      rintro K' ⟨hb, hp⟩
      apply hc
      have := hpr.2 hp
      simp only [Bool.and_eq_true, decide_eq_true_eq]
      exact ⟨⟨this.1, by rw [agg_matches O C.known ck.1 _ r this.1]; exact this.2⟩, (hne K' hb).2⟩
    refine ⟨?_, ?_, fun _ => rfl, fun h => h⟩
    · intro K' k'
      simp only [XAgg.put]
      by_cases hk : k' = ck.2
      · subst hk
        simp only [and_true, if_true]
        unfold XCfg.next
        by_cases hK : K' = C.keyOf r
        · simp [hK]
        · simp only [hK, if_false]
          rw [if_neg]
          rintro ⟨ha, hb, hcc⟩
          exact hno K' ⟨hcc, hpr.1 ⟨ha, hb⟩⟩
      · simp [hk]
    · intro K'
      simp only [hno K', or_false]
      rfl

theorem xkernels_st (O : XOps) (C : QCfg) (r : List QEnt) (ks : List XCfg) : ∀ (n : Nat) (A : XAgg), C.keyOf r ∈ A.keys →
    let B := (ks.zipIdx n).foldl (XAgg.kernel O C r) A
    (∀ K' i, ∀ k, ks[i]? = some k → B.st K' (n + i) = k.next O C K' r (A.st K' (n + i)) ∧ B.tot (n + i) = k.addTotal O C.known (A.tot (n + i)) r) ∧
    (∀ K' j, j < n → B.st K' j = A.st K' j ∧ B.tot j = A.tot j) ∧
    (∀ K', K' ∈ B.keys ↔ K' ∈ A.keys ∨ (C.below K' r = true ∧ ∃ k ∈ ks, k.propagates C r)) ∧
    (A.keys.Nodup → B.keys.Nodup) := by
  induction ks with
  | nil => intro n A hA; simp
  | cons k ks ih =>
    intro n A hA
    obtain ⟨a1, a2, a3, a4⟩ := xkernel_st O C r (k, n) A hA
    obtain ⟨b1, b2, b3, b4⟩ := ih (n + 1) (A.kernel O C r (k, n)) ((a2 _).2 (.inl hA))
    simp only [List.zipIdx_cons, List.foldl_cons]
    refine ⟨?_, ?_, ?_, ?_⟩
    · intro K' i k' hk'
      cases i with
      | zero =>
        simp at hk'
        subst hk'
        obtain ⟨c1, c2⟩ := b2 K' n (by omega)
        simp only [Nat.add_zero]
        rw [c1, c2, a1, a3]
        simp
      | succ i =>
        have hk'' : ks[i]? = some k' := by simpa using hk'
        obtain ⟨c1, c2⟩ := b1 K' i k' hk''
        have e : n + (i + 1) = n + 1 + i := by omega
        rw [e, c1, c2, a1, a3]
        have : n + 1 + i ≠ n := by omega
        simp [this]
    · intro K' j hj
      obtain ⟨c1, c2⟩ := b2 K' j (by omega)
      rw [c1, c2, a1, a3]
      have : j ≠ n := by omega
      simp [this]
    · intro K'
      rw [b3, a2]
      simp only [List.mem_cons, exists_eq_or_imp]
      tauto
    · intro h
      exact b4 (a4 h)


theorem inGroup_snoc (C : QCfg) (i : Bool) (K : List KEnt) (recs : List (List QEnt)) (r : List QEnt) :
    C.inGroup i K (recs ++ [r]) = C.inGroup i K recs ++ if K = C.keyOf r ∨ (i = true ∧ C.below K r = true) then [r] else [] := by
  unfold QCfg.inGroup
  rw [List.filter_append, List.filter_cons, List.filter_nil]
  congr 1
  simp only [Bool.or_eq_true, Bool.and_eq_true, decide_eq_true_eq]

theorem sumOf_append (O : XOps) (l m : List Val) : sumOf O (l ++ m) = m.foldl (addVal O.toFOps) (sumOf O l) := by
  unfold sumOf; rw [List.foldl_append]

theorem sum_inGroup_snoc (O : XOps) (C : QCfg) (i : Bool) (K : List KEnt) (recs : List (List QEnt)) (r : List QEnt) (f : List QEnt → List Val) :
    sumOf O ((C.inGroup i K (recs ++ [r])).flatMap f) =
      if K = C.keyOf r ∨ (i = true ∧ C.below K r = true) then (f r).foldl (addVal O.toFOps) (sumOf O ((C.inGroup i K recs).flatMap f))
      else sumOf O ((C.inGroup i K recs).flatMap f) := by
  rw [inGroup_snoc, List.flatMap_append, sumOf_append]
  split <;> simp

theorem varStep_fold (O : XOps) (t cnt sum sq : Nat) (es : List QEnt) : ∀ (s : XSt) (m : Nat), s.n < 4294967296 →
    (es.foldl (varStep O t cnt sum sq) (s, m)).1 =
      { s with
        n := (s.n + (es.map fun e => (varContrib O t sum sq cnt e).2.2).sum) % 4294967296
        d1 := (es.filterMap fun e => (varContrib O t sum sq cnt e).1).foldl O.add s.d1
        d2 := (es.filterMap fun e => (varContrib O t sum sq cnt e).2.1).foldl O.add s.d2 } := by
  induction es with
  | nil =>
    intro s m h
    simp [Nat.mod_eq_of_lt h]
  | cons e es ih =>
    intro s m h
    rw [List.foldl_cons]
    have hlt : (varStep O t cnt sum sq (s, m) e).1.n < 4294967296 := by
      unfold varStep
      repeat' split
      all_goals first | exact h | exact Nat.mod_lt _ (by decide)
    rw [show varStep O t cnt sum sq (s, m) e = ((varStep O t cnt sum sq (s, m) e).1, (varStep O t cnt sum sq (s, m) e).2) from rfl, ih _ _ hlt]
    unfold varStep varContrib
    by_cases h1 : e.attr = t
    · simp only [List.map_cons, List.filterMap_cons, List.sum_cons, if_pos h1, List.foldl_cons]
      congr 1
      omega
    · by_cases h2 : e.attr = sum
      · simp only [List.map_cons, List.filterMap_cons, List.sum_cons, if_neg h1, if_pos h2, List.foldl_cons, Nat.zero_add]
      · by_cases h3 : e.attr = sq
        · simp only [List.map_cons, List.filterMap_cons, List.sum_cons, if_neg h1, if_neg h2, if_pos h3, List.foldl_cons, Nat.zero_add]
        · by_cases h4 : e.attr = cnt
          · simp only [List.map_cons, List.filterMap_cons, List.sum_cons, if_neg h1, if_neg h2, if_neg h3, if_pos h4]
            congr 1
            omega
          · simp only [List.map_cons, List.filterMap_cons, List.sum_cons, if_neg h1, if_neg h2, if_neg h3, if_neg h4, Nat.zero_add]

theorem foldl_last (vs : List Val) (v : Val) : vs.foldl (fun _ x => x) v = (vs.getLast?).getD v := by
  induction vs generalizing v with
  | nil => rfl
  | cons x vs ih =>
    rw [List.foldl_cons, ih, List.getLast?_cons]
    simp

theorem next_stateOf (O : XOps) (C : QCfg) (recs : List (List QEnt)) (r : List QEnt) (K : List KEnt) (k : XCfg) :
    k.next O C K r (k.stateOf O C recs K) = k.stateOf O C (recs ++ [r]) K := by
  have hnb : K = C.keyOf r → C.below K r = false := by
    intro hK
    by_contra hb
    simp only [Bool.not_eq_false] at hb
    obtain ⟨p, hp, he⟩ := of_decide_eq_true hb
    exact mkKey_ne hp (he.symm.trans hK)
  -- records without a value do not matter
  have hiff := propagates_iff O C k r
  cases k with
  | ratio t1 d1 t2 d2 res f i =>
    simp only [XCfg.stateOf, sum_inGroup_snoc, XCfg.next]
    by_cases hK : K = C.keyOf r
    · simp [hK, XCfg.agg]
    · simp only [hK, if_false, false_or]
      by_cases hb : i = true ∧ C.below K r = true
      · by_cases hp : (XCfg.ratio t1 d1 t2 d2 res f i).propagates C r
        · have := hiff.2 hp
          rw [if_pos ⟨this.1, this.2, hb.2⟩]
          simp [hb, XCfg.parentAgg, XCfg.agg]
        · rw [if_neg (fun h => hp (hiff.1 ⟨h.1, h.2.1⟩))]
          simp only [XCfg.propagates, hb.1, true_and, not_or, not_not] at hp
          simp [hp]
      · rw [if_neg (fun h => hb ⟨h.1, h.2.2⟩)]
        simp [hb]
  | scale t d res f i =>
    simp only [XCfg.stateOf, sum_inGroup_snoc, XCfg.next]
    by_cases hK : K = C.keyOf r
    · simp [hK, XCfg.agg]
    · simp only [hK, if_false, false_or]
      by_cases hb : i = true ∧ C.below K r = true
      · by_cases hp : (XCfg.scale t d res f i).propagates C r
        · have := hiff.2 hp
          rw [if_pos ⟨this.1, this.2, hb.2⟩]
          simp [hb, XCfg.parentAgg, XCfg.agg]
        · rw [if_neg (fun h => hp (hiff.1 ⟨h.1, h.2.1⟩))]
          simp only [XCfg.propagates, hb.1, true_and, not_not] at hp
          simp [hp]
      · rw [if_neg (fun h => hb ⟨h.1, h.2.2⟩)]
        simp [hb]
  | pct t d res i =>
    simp only [XCfg.stateOf, sum_inGroup_snoc, XCfg.next]
    by_cases hK : K = C.keyOf r
    · simp [hK, XCfg.agg]
    · simp only [hK, if_false, false_or]
      by_cases hb : i = true ∧ C.below K r = true
      · by_cases hp : (XCfg.pct t d res i).propagates C r
        · have := hiff.2 hp
          rw [if_pos ⟨this.1, this.2, hb.2⟩]
          simp [hb, XCfg.parentAgg]
        · rw [if_neg (fun h => hp (hiff.1 ⟨h.1, h.2.1⟩))]
          simp only [XCfg.propagates, hb.1, true_and, not_not] at hp
          simp [hp]
      · rw [if_neg (fun h => hb ⟨h.1, h.2.2⟩)]
        simp [hb]
  | any t d =>
    simp only [XCfg.stateOf, XCfg.next, XCfg.incl, Bool.false_eq_true, false_and, if_false, inGroup_snoc, or_false]
    by_cases hK : K = C.keyOf r
    · simp only [hK, if_true, XCfg.agg, List.map_append, List.map_cons, List.map_nil, List.find?_append]
      cases hf : (((C.inGroup false (C.keyOf r) recs).map fun r => ((matching C.known t d r).getLast?).getD .inv).find? (· ≠ .inv)) with
      | none =>
        simp only [Option.getD_none, if_true, Option.none_or, foldl_last]
        congr 1
        generalize (matching C.known t d r).getLast?.getD .inv = w
        by_cases hw : w = .inv <;> simp [List.find?_cons, hw]
      | some w =>
        have hw := List.find?_some hf
        simp only [decide_eq_true_eq] at hw
        simp [hw]
    · simp [hK]
  | scount c res f =>
    simp only [XCfg.stateOf, XCfg.next, XCfg.incl, Bool.false_eq_true, false_and, if_false, inGroup_snoc, or_false]
    by_cases hK : K = C.keyOf r
    · simp [hK, XCfg.agg, List.sum_append]
    · simp [hK]
  | variance t res cnt sum sq =>
    simp only [XCfg.stateOf, XCfg.next, XCfg.incl, Bool.false_eq_true, false_and, if_false, inGroup_snoc, or_false]
    by_cases hK : K = C.keyOf r
    · simp only [hK, if_true, XCfg.agg]
      by_cases hk : C.known t = true
      · simp only [hk, if_true]
        rw [varStep_fold _ _ _ _ _ _ _ _ (Nat.mod_lt _ (by decide))]
        simp [List.filterMap_append, List.sum_append]
      · simp [hk]
    · simp [hK]

theorem xrun_st (O : XOps) (C : QCfg) (ks : List XCfg) (recs : List (List QEnt)) :
    let A := recs.foldl (fun (A : XAgg) r => A.process O C ks r) {}
    (∀ K i k, ks[i]? = some k → A.st K i = k.stateOf O C recs K ∧ A.tot i = k.totalOf O C recs) ∧
    (∀ K, K ∈ A.keys ↔ XPresent C ks recs K) ∧ A.keys.Nodup := by
  induction recs using List.reverseRecOn with
  | nil =>
    refine ⟨?_, by simp [XPresent], by simp⟩
    intro K i k _
    constructor
    · cases k <;> simp [XCfg.stateOf, QCfg.inGroup, sumOf]
    · cases k <;> rfl
  | append_singleton recs r ih =>
    simp only [List.foldl_append, List.foldl_cons, List.foldl_nil] at ih ⊢
    obtain ⟨h1, h2, h3⟩ := ih
    generalize recs.foldl (fun (A : XAgg) r => A.process O C ks r) {} = A at h1 h2 h3
    have ht : C.keyOf r ∈ (A.touch (C.keyOf r)).keys := by
      unfold XAgg.touch
      by_cases h : C.keyOf r ∈ A.keys <;> simp [h]
    have hts : (A.touch (C.keyOf r)).st = A.st ∧ (A.touch (C.keyOf r)).tot = A.tot := by unfold XAgg.touch; split <;> exact ⟨rfl, rfl⟩
    obtain ⟨b1, _, b3, b4⟩ := xkernels_st O C r ks 0 (A.touch (C.keyOf r)) ht
    refine ⟨?_, ?_, ?_⟩
    · intro K i k hk
      obtain ⟨c1, c2⟩ := b1 K i k hk
      rw [Nat.zero_add] at c1 c2
      unfold XAgg.process
      rw [c1, c2, hts.1, hts.2, (h1 K i k hk).1, (h1 K i k hk).2, next_stateOf]
      refine ⟨rfl, ?_⟩
      cases k <;> simp [XCfg.addTotal, XCfg.totalOf, sumOf_append]
    · intro K
      unfold XAgg.process
      rw [b3]
      have e1 : K ∈ (A.touch (C.keyOf r)).keys ↔ K ∈ A.keys ∨ K = C.keyOf r := by
        unfold XAgg.touch
        by_cases h : C.keyOf r ∈ A.keys
        · simp only [h, if_true]
          constructor
          · exact .inl
          · rintro (h' | h')
            · exact h'
            · exact h' ▸ h
        · simp [h]
      rw [e1, h2]
      unfold XPresent
      constructor
      · rintro ((⟨x, hx, h⟩ | h) | h)
        · exact ⟨x, List.mem_append_left _ hx, h⟩
        · exact ⟨r, by simp, .inl h⟩
        · exact ⟨r, by simp, .inr h⟩
      · rintro ⟨x, hx, h⟩
        rcases List.mem_append.1 hx with hx | hx
        · exact .inl (.inl ⟨x, hx, h⟩)
        · simp at hx
          subst hx
          rcases h with h | h
          · exact .inl (.inr h)
          · exact .inr h
    · unfold XAgg.process
      apply b4
      unfold XAgg.touch
      split
      · exact h3
      · rename_i hm
        exact List.nodup_append.2 ⟨h3, by simp, by rintro x hx y hy rfl; simp at hy; subst hy; exact hm hx⟩

/-- the reported records -/
theorem xreport_eq (O : XOps) (C : QCfg) (ks : List XCfg) (recs : List (List QEnt)) :
    ∃ keys : List (List KEnt), keys.Nodup ∧ (∀ K, K ∈ keys ↔ XPresent C ks recs K) ∧
      xreport O C ks recs = keys.map fun K => K.map KEnt.toQ ++ ks.flatMap (XCfg.reports O C recs K) := by
  obtain ⟨h1, h2, h3⟩ := xrun_st O C ks recs
  refine ⟨_, h3, h2, ?_⟩
  unfold xreport XAgg.flush
  apply List.map_congr_left
  intro K _
  congr 1
  generalize recs.foldl (fun (A : XAgg) r => A.process O C ks r) {} = A at h1
  have : ∀ (cs : List XCfg) (n : Nat), (∀ i k, cs[i]? = some k → A.st K (n + i) = k.stateOf O C recs K ∧ A.tot (n + i) = k.totalOf O C recs) →
      ((cs.zipIdx n).flatMap fun ck => ck.1.result O (A.tot ck.2) (A.st K ck.2)) = cs.flatMap (XCfg.reports O C recs K) := by
    intro cs
    induction cs with
    | nil => intros; rfl
    | cons c cs ih =>
      intro n h
      simp only [List.zipIdx_cons, List.flatMap_cons]
      rw [ih (n + 1) (fun i k hi => by
        have := h (i + 1) k (by simpa using hi)
        rwa [show n + (i + 1) = n + 1 + i by omega] at this)]
      have h0 := h 0 c (by simp)
      rw [Nat.add_zero] at h0
      rw [h0.1, h0.2, reports_eq]
  exact this ks 0 (fun i k hi => by rw [Nat.zero_add]; exact h1 K i k hi)

end Verif.Query
