import Verif.Annot.Exec
import Verif.Props.Runtime
/-!
# C75: scoped annotation objects

Vocabulary: `Verif/Annot/Model.lean` (programs and what they call), `Verif/Annot/Spec.lean` (`Ok`: well-formed programs, `fresh`: attributes that
must have no value at the start, `At`: points during the execution), `Verif/Runtime/Spec.lean` (`OpenRegions`, `OpenUnaligned`, `Query`).
-/
namespace Verif.Annot
open MTree RT

theorem Scoped.mem {th : Nat} {ops : List Op} {A : List Attr} (h : Scoped th ops A) : ∀ a ∈ A, ∃ op ∈ ops, op.attr = a := by
  induction h with
  | nil => simp
  | append _ _ ih1 ih2 =>
    intro a ha
    rcases List.mem_append.1 ha with ha | ha
    · obtain ⟨op, h1, h2⟩ := ih1 a ha; exact ⟨op, by simp [h1], h2⟩
    · obtain ⟨op, h1, h2⟩ := ih2 a ha; exact ⟨op, by simp [h1], h2⟩
  | wrap a v _ _ _ ih =>
    intro b hb
    obtain ⟨op, h1, h2⟩ := ih b hb; exact ⟨op, by simp [h1], h2⟩
  | wrapV a v _ _ ih =>
    intro b hb
    rcases List.mem_cons.1 hb with rfl | hb
    · exact ⟨_, List.mem_cons_self .., rfl⟩
    · obtain ⟨op, h1, h2⟩ := ih b hb; exact ⟨op, by simp [h1], h2⟩
  | wrapSet a v _ _ ih =>
    intro b hb
    rcases List.mem_cons.1 hb with rfl | hb
    · exact ⟨_, List.mem_cons_self .., rfl⟩
    · obtain ⟨op, h1, h2⟩ := ih b hb; exact ⟨op, by simp [h1], h2⟩

theorem Inside.mem {th : Nat} {ops : List Op} {stk : List (Attr × Val)} {A : List Attr} (h : Inside th ops stk A) :
    ∀ a ∈ A, ∃ op ∈ ops, op.attr = a := by
  induction h with
  | here h => exact h.mem
  | after h1 _ ih2 =>
    intro a ha
    rcases List.mem_append.1 ha with ha | ha
    · obtain ⟨op, h1, h2⟩ := h1.mem a ha; exact ⟨op, by simp [h1], h2⟩
    · obtain ⟨op, h1, h2⟩ := ih2 a ha; exact ⟨op, by simp [h1], h2⟩
  | begin a v _ _ ih =>
    intro b hb
    obtain ⟨op, h1, h2⟩ := ih b hb; exact ⟨op, by simp [h1], h2⟩
  | set a v _ _ ih =>
    intro b hb
    rcases List.mem_cons.1 hb with rfl | hb
    · exact ⟨_, List.mem_cons_self .., rfl⟩
    · obtain ⟨op, h1, h2⟩ := ih b hb; exact ⟨op, by simp [h1], h2⟩

theorem free_of {s : State} {c : Abs} (R : RelS s c) {th : Nat} {idOf : Name → Nat} {op fr : List Name} {A : List Attr}
    (hA : From idOf op fr A) (hv : ∀ a ∈ A, a.Valid s.tree)
    (hq : ∀ n ∈ fr, ∀ a : Attr, a.Valid s.tree → a.id = idOf n → Query s th a = some none) : Free c th A := by
  intro a ha l hl
  obtain ⟨n, h1, _, h3⟩ := hA a ha
  have := hq n h1 a (hv a ha) h3
  rw [R.query (hv a ha), hl] at this
  simpa using this

/-- C75: a well-formed program with `Function`, `ScopeAnnotation`, `Loop`, `Loop::Iteration`, `Annotation` and `Guard` objects, started with
no value for the attributes in `fresh`, leaves every context path and every query on every thread and channel as it was, and raises no error.
(Partial: needs `Ok`; see the violations below.) -/
theorem C75_scoped_partial {s : State} (h : RtReach s) {E : Env} {idOf : Name → Nat} {types : Name → AttrType} {val : Name → Bool}
    (H : EnvOk E idOf types val) {db : DB} (hdb : DbOk idOf types val db) {th : Nat} {p : Prog} (hp : Ok types val [] [] [] p)
    {ops : List Op} (ho : (exec E th p ⟨db, [], []⟩).2 = ops) (ha : ∀ op ∈ ops, op.attr.Valid s.tree)
    (hq : ∀ n ∈ fresh val [] [] p, ∀ a : Attr, a.Valid s.tree → a.id = idOf n → Query s th a = some none)
    (he : s.err th = false) (nl : NoLoss s (run s ops)) :
    (∀ l p, OpenRegions (run s ops) l p ↔ OpenRegions s l p) ∧
    (∀ l p, OpenUnaligned (run s ops) l p ↔ OpenUnaligned s l p) ∧
    (∀ th' a, a.Valid s.tree → Query (run s ops) th' a = Query s th' a) ∧
    (∀ ch a, a.Valid s.tree → QueryCh (run s ops) ch a = QueryCh s ch a) ∧
    (run s ops).err = s.err ∧ (run s ops).dead = false := by
  obtain ⟨c, R⟩ := h.rel
  obtain ⟨A, _, _, _, hs, hf⟩ := exec_ok H th p hp (s := ⟨db, [], []⟩) ⟨hdb, by simp, by simp⟩
  rw [ho] at hs
  have hv : ∀ a ∈ A, a.Valid s.tree := by
    intro a hA
    obtain ⟨op, h1, h2⟩ := hs.mem a hA
    rw [← h2]; exact ha op h1
  have S := run_sim R ha nl
  have R' := S.1
  obtain ⟨h1, h2⟩ := abs_scoped hs s.active s.isActive (c := c) (by rw [← R.err]; exact he) (free_of R hf hv hq)
  refine ⟨fun l p => by rw [R'.regions, R.regions, h1], fun l p => by rw [R'.unaligned, R.unaligned, h1], fun th' a hv => ?_,
    fun ch a hv => ?_, by rw [R'.err, R.err, h2], R'.dead⟩
  · rw [R'.query (hv.ext S.2.1), R.query hv, h1]
  · rw [R'.queryCh (hv.ext S.2.1), R.queryCh hv, h1]

/-- C75: at every point during the execution, the context paths are those from before the program followed by exactly the values of the
enclosing blocks, outermost first; and a query for an attribute of an enclosing block returns the value of the innermost such block.
(Partial: needs `Ok`.) -/
theorem C75_inside_partial {s : State} (h : RtReach s) {E : Env} {idOf : Name → Nat} {types : Name → AttrType} {val : Name → Bool}
    (H : EnvOk E idOf types val) {db : DB} (hdb : DbOk idOf types val db) {th : Nat} {p : Prog} (hp : Ok types val [] [] [] p)
    {pre : List Op} {stk : List (Attr × Val)} (hat : At E th p ⟨db, [], []⟩ pre stk) (ha : ∀ op ∈ pre, op.attr.Valid s.tree)
    (hq : ∀ n ∈ fresh val [] [] p, ∀ a : Attr, a.Valid s.tree → a.id = idOf n → Query s th a = some none)
    (he : s.err th = false) (nl : NoLoss s (run s pre)) :
    (∀ l p q, OpenRegions s l p → (OpenRegions (run s pre) l q ↔ q = p ++ stackOf th l .region stk)) ∧
    (∀ l p q, OpenUnaligned s l p → (OpenUnaligned (run s pre) l q ↔ q = p ++ stackOf th l .unaligned stk)) ∧
    (∀ x y a v, stk = x ++ (a, v) :: y → (∀ e ∈ y, e.1.id ≠ a.id) → a.Valid s.tree → scopeLoc a th ≠ none →
      Query (run s pre) th a = some (some v)) ∧
    (run s pre).err = s.err ∧ (run s pre).dead = false := by
  obtain ⟨c, R⟩ := h.rel
  obtain ⟨A, hs, hf⟩ := at_ok H th hat hp (s := ⟨db, [], []⟩) ⟨hdb, by simp, by simp⟩
  have hv : ∀ a ∈ A, a.Valid s.tree := by
    intro a hA
    obtain ⟨op, h1, h2⟩ := hs.mem a hA
    rw [← h2]; exact ha op h1
  have S := run_sim R ha nl
  have R' := S.1
  obtain ⟨h1, h2⟩ := abs_inside hs s.active s.isActive (c := c) (by rw [← R.err]; exact he) (free_of R hf hv hq)
  refine ⟨fun l p q hp => ?_, fun l p q hp => ?_, fun x y a v hstk hy hva hl => ?_, by rw [R'.err, R.err, h2], R'.dead⟩
  · rw [R.regions] at hp
    rw [R'.regions, h1, push_region, hp]
  · rw [R.unaligned] at hp
    rw [R'.unaligned, h1, push_unal, hp]
  · obtain ⟨l, hl⟩ := Option.ne_none_iff_exists'.1 hl
    rw [R'.query (hva.ext S.2.1), hl]
    simp only [Option.bind_some]
    rw [h1, hstk, push_get _ _ _ _ hl hy]

/-! ### a concrete process: `exA` is `region`, `exB` is `loop`, `exW` (as-value) the iteration attribute of loop `x`, `exU` is `u` -/

/-- names -/
def nX : Name := [120#8]
@[inherit_doc nX]
def nU : Name := [117#8]

/-- ids: those of the concrete attributes, and different ones for other names -/
def exId (n : Name) : Nat :=
  if n = regionName then 12 else if n = loopName then 13 else if n = nU then 14 else if n = iterPrefix ++ nX then 15
  else 16 + n.foldl (fun k b => k * 256 + b.toNat) 1

/-- the concrete process -/
def exE : Env where
  region := exA
  loop := exB
  make n _ opt := ⟨.cell 0 (exId n), exId n,
    if n = regionName ∨ n = loopName then 20#32 else if n = nU then 1044#32 else if opt &&& 1#32 = 0 then 20#32 else 13#32⟩
  toDouble i := i.signExtend 64

/-- types -/
def exTy (n : Name) : AttrType := if iterPrefix <+: n then .int else if n = nU then .int else .string
/-- iteration attributes are as-value -/
def exVal (n : Name) : Bool := decide (iterPrefix <+: n)

theorem digits_ge (n : Name) (k : Nat) : k * 256 ^ n.length ≤ n.foldl (fun k b => k * 256 + b.toNat) k ∧
    n.foldl (fun k b => k * 256 + b.toNat) k < (k + 1) * 256 ^ n.length := by
  induction n generalizing k with
  | nil => simp
  | cons b n ih =>
    have := ih (k * 256 + b.toNat)
    have hb := b.isLt
    simp only [List.foldl_cons, List.length_cons]
    have h1 : k * 256 ^ (n.length + 1) = k * 256 * 256 ^ n.length := by rw [Nat.pow_succ]; rw [Nat.mul_assoc, Nat.mul_comm 256]
    have h2 : (k + 1) * 256 ^ (n.length + 1) = (k + 1) * 256 * 256 ^ n.length := by
      rw [Nat.pow_succ]; rw [Nat.mul_assoc, Nat.mul_comm 256]
    rw [h1, h2]
    constructor
    · exact Nat.le_trans (Nat.mul_le_mul_right _ (by omega)) this.1
    · exact Nat.lt_of_lt_of_le this.2 (Nat.mul_le_mul_right _ (by omega))

theorem digits_inj (n m : Name) (k : Nat) (hl : n.length = m.length)
    (h : n.foldl (fun k b => k * 256 + b.toNat) k = m.foldl (fun k b => k * 256 + b.toNat) k) : n = m := by
  induction n using List.reverseRecOn generalizing m k with
  | nil => cases m <;> simp_all
  | append_singleton n b ih =>
    rcases List.eq_nil_or_concat m with rfl | ⟨m, c, rfl⟩
    · simp at hl
    · simp only [List.concat_eq_append, List.foldl_append, List.foldl_cons, List.foldl_nil, List.length_append, List.length_cons,
        List.length_nil] at h hl ⊢
      have hb := b.isLt
      have hc := c.isLt
      have h1 : b.toNat = c.toNat := by omega
      have h2 := ih m k (by omega) (by omega)
      rw [h2, BitVec.eq_of_toNat_eq h1]

theorem digits_len (n m : Name) (h : n.foldl (fun k b => k * 256 + b.toNat) 1 = m.foldl (fun k b => k * 256 + b.toNat) 1) :
    n.length = m.length := by
  have h1 := digits_ge n 1
  have h2 := digits_ge m 1
  rw [h] at h1
  have key : ∀ x y z : Nat, 1 * 256 ^ x ≤ z → z < (1 + 1) * 256 ^ x → 1 * 256 ^ y ≤ z → z < (1 + 1) * 256 ^ y → ¬ x < y := by
    intro x y z a1 a2 a3 a4 hlt
    have : 256 ^ (x + 1) ≤ 256 ^ y := Nat.pow_le_pow_right (by omega) hlt
    rw [Nat.pow_succ] at this
    omega
  rcases Nat.lt_trichotomy n.length m.length with hlt | he | hlt
  · exact absurd hlt (key _ _ _ h1.1 h1.2 h2.1 h2.2)
  · exact he
  · exact absurd hlt (key _ _ _ h2.1 h2.2 h1.1 h1.2)

theorem exEnvOk : EnvOk exE exId exTy exVal where
  inj n m h := by
    unfold exId at h
    repeat' split at h
    all_goals first | (subst_vars; rfl) | omega | skip
    have := digits_len n m (by omega)
    exact digits_inj n m 1 this (by omega)
  make n ty opt := rfl
  plain n ty opt h := by
    have key : ∀ (x : BitVec 32), x &&& 1#32 = 0 → (⟨.cell 0 (exId n), exId n, x⟩ : Attr).kind ≠ .value := by
      intro x hx
      simp only [Attr.kind, Attr.asValue, hx, ne_eq, not_true_eq_false, decide_false, Bool.false_eq_true, if_false]
      split <;> simp
    refine key _ ?_
    split
    · decide
    · split
      · decide
      · decide
  region := by decide
  loop := by decide
  iter n := by simp [exTy, exVal]

/-- `{ Function f("x"); Annotation u("u"); { Loop l("x"); { iteration(0); Guard g(u.begin(5)); } { iteration(1); } l.end(); { Function f("u"); } } }` -/
def exP : Prog :=
  .region nX (.declAnn nU 0#32 false (.loopEnd nX
    (.seq (.iter 0 0#32 (.guard 0 (.int 5#32) .skip)) (.iter 0 1#32 (.guardSet 0 (.int 6#32) .skip)))
    (.region nU .skip)))

/-- the hypotheses of the theorems are met by this program -/
example : Ok exTy exVal [] [] [] exP ∧ DbOk exId exTy exVal (fun _ => none) ∧
    (exec exE 3 exP ⟨fun _ => none, [], []⟩).2.length = 14 ∧
    (∀ op ∈ (exec exE 3 exP ⟨fun _ => none, [], []⟩).2, op.attr.Valid exS.tree) ∧
    (∀ n ∈ fresh exVal [] [] exP, ∀ a : Attr, a.id = exId n → a = exW ∨ a = exU → Query exS 3 a = some none) ∧
    NoLoss exS (run exS (exec exE 3 exP ⟨fun _ => none, [], []⟩).2) := by
  have e : (exec exE 3 exP ⟨fun _ => none, [], []⟩).2 = [.begin 3 exA (.str nX), .begin 3 exB (.str nX), .begin 3 exW (.ofInt 0),
      .begin 3 exU (.ofInt 5), .endR 3 exU, .endR 3 exW, .begin 3 exW (.ofInt 1), .set 3 exU (.ofInt 6), .endR 3 exU, .endR 3 exW,
      .endR 3 exB, .begin 3 exA (.str nU), .endR 3 exA, .endR 3 exA] := rfl
  refine ⟨⟨by decide, ⟨⟨⟨nX, rfl, by decide, nU, rfl, by decide, by decide, by decide, trivial⟩,
    ⟨nX, rfl, by decide, nU, rfl, by decide, by decide, by decide, trivial⟩⟩, trivial⟩⟩, by simp [DbOk], by rw [e]; rfl, ?_, ?_, ?_⟩
  · rw [e]
    have := exValid
    intro op ho
    simp only [List.mem_cons, List.not_mem_nil, or_false] at ho
    rcases ho with rfl | rfl | rfl | rfl | rfl | rfl | rfl | rfl | rfl | rfl | rfl | rfl | rfl | rfl <;>
      first | exact this.1 | exact this.2.1 | exact this.2.2.1 | exact this.2.2.2
  · rintro n _ a _ (rfl | rfl) <;> decide
  · rw [e]
    exact noLoss_of _ _ [.thread 3, .process] (by decide) (by decide +kernel) (by decide +kernel)

/-! ### programs for which it fails -/

/-- C75 (violated): a loop with iterations inside an iteration of a loop of the same name, as in a recursive function
`void f(k) { Loop l("x"); for (i) { Iteration it(l.iteration(i)); f(k - 1); } }`: when the inner iteration ends, the outer iteration's value is gone, the
destructor of the outer iteration is a mismatched end, and from then on all annotations of the thread are dropped: a function called later is
not recorded. -/
theorem C75_violation_recursion :
    let p := Prog.loop nX (.iter 0 0#32 (.loop nX (.iter 0 7#32 .skip)))
    let ops := (exec exE 3 p ⟨fun _ => none, [], []⟩).2
    let after := run exS (ops ++ [.begin 3 exA (.str nU)])
    RtReach exS ∧ NoLoss exS (run exS ops) ∧ (run exS ops).err 3 = true ∧ Query after 3 exA = some none ∧
    Query (run exS [.begin 3 exA (.str nU)]) 3 exA = some (some (.str nU)) := by
  have e : (exec exE 3 (Prog.loop nX (.iter 0 0#32 (.loop nX (.iter 0 7#32 .skip)))) ⟨fun _ => none, [], []⟩).2 =
    [.begin 3 exB (.str nX), .begin 3 exW (.ofInt 0), .begin 3 exB (.str nX), .begin 3 exW (.ofInt 7), .endR 3 exW, .endR 3 exB,
     .endR 3 exW, .endR 3 exB] := rfl
  simp only [e]
  refine ⟨.init exTree_reach _ _, noLoss_of _ _ [.thread 3, .process] (by decide) (by decide +kernel) (by decide +kernel), ?_⟩
  decide +kernel

/-- the attribute `u` exists, with type double -/
def dbU : DB := fun n => if n = nU then some ⟨exU, .double⟩ else none

/-- C75 (violated): a value of another type than the attribute's is ignored by `begin` but the guard still ends: with
`u` of type double, `Annotation a("u"), b("u"); Guard g(a.begin(1.0)); { Guard g2(b.begin(5)); } …` removes the value of the enclosing block.
(The integer is not converted, because the fresh object `b` has not looked up its attribute yet.)  On the object `a`, which has, it is
converted. -/
theorem C75_violation_type :
    let d1 : Val := ⟨.double, .inr 7⟩
    let inner := Prog.declAnn nU 0#32 false (.guard 0 (.int 5#32) .skip)
    let p := Prog.declAnn nU 0#32 false (.guard 0 (.val d1) inner)
    let p' := Prog.declAnn nU 0#32 false (.guard 0 (.val d1) (.guard 0 (.int 5#32) .skip))
    (exec exE 3 p ⟨dbU, [], []⟩).2 = [.begin 3 exU d1, .endR 3 exU, .endR 3 exU] ∧
    Query (run exS [.begin 3 exU d1]) 3 exU = some (some d1) ∧ Query (run exS [.begin 3 exU d1, .endR 3 exU]) 3 exU = some none ∧
    (run exS (exec exE 3 p ⟨dbU, [], []⟩).2).err 3 = true ∧
    (exec exE 3 p' ⟨dbU, [], []⟩).2 =
      [.begin 3 exU d1, .begin 3 exU ⟨.double, .inr (exE.toDouble 5#32)⟩, .endR 3 exU, .endR 3 exU] := by
  refine ⟨rfl, by decide +kernel, by decide +kernel, ?_, rfl⟩
  show (run exS [.begin 3 exU ⟨.double, .inr 7⟩, .endR 3 exU, .endR 3 exU]).err 3 = true
  decide +kernel

/-- C75 (violated): a guard around `set` (the usage shown in `Annotation.h`) inside another block of the same attribute replaces the outer
block's value and then removes it: the outer block's end is a mismatched end. -/
theorem C75_violation_set :
    let p := Prog.declAnn nU 0#32 false (.guard 0 (.int 1#32) (.guardSet 0 (.int 2#32) .skip))
    let ops := (exec exE 3 p ⟨fun _ => none, [], []⟩).2
    ops = [.begin 3 exU (.ofInt 1), .set 3 exU (.ofInt 2), .endR 3 exU, .endR 3 exU] ∧ (run exS ops).err 3 = true := by
  refine ⟨rfl, ?_⟩
  show (run exS [.begin 3 exU (.ofInt 1), .set 3 exU (.ofInt 2), .endR 3 exU, .endR 3 exU]).err 3 = true
  decide +kernel

end Verif.Annot
