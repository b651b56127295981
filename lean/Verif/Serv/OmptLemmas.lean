import Verif.Serv.OmptSpec
import Verif.Runtime.AbsLemmas
/-!
# The OMPT callbacks record what the thread is doing
-/
namespace Verif.Serv.Ompt
open Verif RT MTree

/-- values of one attribute in a list of open values -/
def vals (a : Nat) (l : PathL) : List Val := (l.filter fun e => decide (e.1 = a)).map Prod.snd

theorem innermost_vals (a : Nat) (l : PathL) : innermost a l = (vals a l).getLast? := by
  unfold innermost vals
  rw [List.getLast?_map, ← List.head?_reverse, ← List.filter_reverse, List.head?_filter]

theorem vals_append (a : Nat) (l m : PathL) : vals a (l ++ m) = vals a l ++ vals a m := by simp [vals]

theorem vals_erase_ne {a b : Nat} (h : b ≠ a) (l : PathL) : vals b (eraseInner a l) = vals b l := by
  rcases inner_cases a l with h1 | ⟨l₁, v, l₂, rfl, h2⟩
  · have : eraseInner a l = l := by
      unfold eraseInner
      rw [List.eraseP_of_forall_not (by simpa using h1), List.reverse_reverse]
    rw [this]
  · have : eraseInner a (l₁ ++ [(a, v)] ++ l₂) = l₁ ++ l₂ := by
      unfold eraseInner
      simp only [List.reverse_append, List.reverse_cons, List.reverse_nil, List.nil_append, List.append_assoc, List.singleton_append]
      rw [List.eraseP_append_right _ (by simpa using h2)]
      simp
    rw [this]
    simp [vals, List.filter_cons, Ne.symm h]

theorem vals_erase (a : Nat) (l : PathL) : vals a (eraseInner a l) = (vals a l).dropLast := by
  rcases inner_cases a l with h1 | ⟨l₁, v, l₂, rfl, h2⟩
  · have : eraseInner a l = l := by
      unfold eraseInner
      rw [List.eraseP_of_forall_not (by simpa using h1), List.reverse_reverse]
    rw [this]
    have : vals a l = [] := by simp [vals, List.filter_eq_nil_iff]; simpa using h1
    rw [this]; rfl
  · have : eraseInner a (l₁ ++ [(a, v)] ++ l₂) = l₁ ++ l₂ := by
      unfold eraseInner
      simp only [List.reverse_append, List.reverse_cons, List.reverse_nil, List.nil_append, List.append_assoc, List.singleton_append]
      rw [List.eraseP_append_right _ (by simpa using h2)]
      simp
    rw [this]
    have e2 : vals a l₂ = [] := by simp [vals, List.filter_eq_nil_iff]; simpa using h2
    rw [vals_append, vals_append, vals_append, e2]
    simp [vals]

/-- the abstract context agrees with what the thread is doing -/
structure Agree (A : Attrs) (r0 : PathL) (c : Abs) (th : Nat) (d : Doing) : Prop where
  err : c.err th = false
  region : (c.ctx (.thread th)).region = r0 ++ d.cons.map (Con.entry A)
  type : vals A.threadType.id (c.ctx (.thread th)).unal = (d.info.map fun x => Val.ofString (TypeName x.1)).toList
  proc : vals A.procId.id (c.ctx (.thread th)).unal = (d.info.bind fun x => if x.2.toInt < 0 then none else some (Val.ofInt x.2)).toList
  thread : vals A.threadId.id (c.ctx (.thread th)).unal = d.tasks.map fun x => Val.ofInt x.2
  team : vals A.numThreads.id (c.ctx (.thread th)).unal = d.tasks.map fun x => Val.ofInt x.1
  /-- user constructs are user regions -/
  user : ∀ a v, Con.user a v ∈ d.cons → a.kind = .region ∧ scopeLoc a th = some (.thread th) ∧ ¬ A.has a.id

theorem abs_begin {ac ia} {c : Abs} {th : Nat} {a : Attr} {v : Val} {l : Loc} (he : c.err th = false) (hl : scopeLoc a th = some l) :
    (c.step ac ia (.begin th a v)).ctx l = (c.ctx l).begin a v ∧ (c.step ac ia (.begin th a v)).err = c.err := by
  simp [Abs.step, he, hl]

theorem abs_end {ac ia} {c : Abs} {th : Nat} {a : Attr} {v : Val} {l : Loc} (he : c.err th = false) (hl : scopeLoc a th = some l)
    (hv : (c.ctx l).endable a = some v) :
    (c.step ac ia (.endR th a)).ctx l = (c.ctx l).endR a ∧ (c.step ac ia (.endR th a)).err = c.err := by
  simp only [Abs.step]
  rw [abs_endCore_ok ac he hl hv (.inl rfl)]
  simp

theorem abs_endC {ac ia} {c : Abs} {th : Nat} {a : Attr} {v : Val} {l : Loc} (he : c.err th = false) (hl : scopeLoc a th = some l)
    (hv : (c.ctx l).endable a = some v) :
    (c.step ac ia (.endCheck th a v)).ctx l = (c.ctx l).endR a ∧ (c.step ac ia (.endCheck th a v)).err = c.err := by
  simp only [Abs.step]
  rw [abs_endCore_ok ac he hl hv (.inr rfl)]
  simp

theorem kindR {a : Attr} (h : a.prop = 20#32) (th : Nat) : a.kind = .region ∧ scopeLoc a th = some (.thread th) := by
  unfold Attr.kind scopeLoc Attr.asValue Attr.unaligned Attr.scope
  rw [h]; exact ⟨by decide, by simp [scopeThread]⟩

theorem kindU {a : Attr} (h : a.prop = 1044#32 ∨ a.prop = 1108#32) (th : Nat) :
    a.kind = .unaligned ∧ scopeLoc a th = some (.thread th) := by
  unfold Attr.kind scopeLoc Attr.asValue Attr.unaligned Attr.scope
  rcases h with h | h <;> rw [h] <;> exact ⟨by decide, by simp [scopeThread]⟩

theorem workName_eq (t : Int) : workName t = WorkName t := by
  unfold workName
  split
  · rename_i h
    have : t = 1 ∨ t = 2 ∨ t = 3 ∨ t = 4 ∨ t = 5 ∨ t = 6 ∨ t = 7 ∨ t = 8 := by omega
    rcases this with rfl | rfl | rfl | rfl | rfl | rfl | rfl | rfl <;> rfl
  · unfold WorkName
    split <;> first | rfl | omega

theorem syncName_eq (t : Int) : syncName t = SyncName t := by
  unfold syncName
  split
  · rename_i h
    have : t = 1 ∨ t = 2 ∨ t = 3 ∨ t = 4 ∨ t = 5 ∨ t = 6 ∨ t = 7 ∨ t = 8 ∨ t = 9 ∨ t = 10 := by omega
    rcases this with rfl | rfl | rfl | rfl | rfl | rfl | rfl | rfl | rfl | rfl <;> rfl
  · unfold SyncName
    split <;> first | rfl | omega

theorem typeName_eq (t : Nat) : typeName t = TypeName t := by
  unfold typeName TypeName
  split
  · subst_vars; rfl
  split
  · subst_vars; rfl
  split
  · subst_vars; rfl
  · split <;> first | rfl | omega

/-- concrete and abstract state in step, and the attributes still exist -/
structure Sync (s0 s : State) (c : Abs) : Prop where
  rel : RelS s c
  ext : Ext s0.tree s.tree

theorem Sync.step {s0 s : State} {c : Abs} (h : Sync s0 s c) {op : Op} (ha : op.attr.Valid s0.tree) (nl : NoLoss s (RT.step s op)) :
    Sync s0 (RT.step s op) (c.step s.active s.isActive op) :=
  let r := step_sim h.rel (ha.ext h.ext) nl
  ⟨r.1, h.ext.trans r.2.1⟩

theorem Sync.has {s0 s : State} {c : Abs} (h : Sync s0 s c) {a : Attr} {th : Nat} (ha : a.Valid s0.tree)
    (hl : scopeLoc a th = some (.thread th)) : hasValue s th a = ((c.ctx (.thread th)).get a).isSome := by
  have q := h.rel.query (th := th) (ha.ext h.ext)
  rw [hl] at q
  unfold Query at q
  unfold hasValue
  cases hg : getEntry s th a with
  | none => rw [hg] at q; simp at q
  | some e =>
    rw [hg] at q
    simp only [Option.map_some, Option.some.injEq, Option.bind_some] at q
    rw [← q]
    simp

end Verif.Serv.Ompt
