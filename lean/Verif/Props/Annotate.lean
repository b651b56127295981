import Verif.Py.AnnotateSpec
import Verif.Props.Kokkos
import Mathlib.Data.List.Forall2

/-! # C120: the Python decorator `annotate_function` puts a region around each call of the function -/

namespace Verif.Py.Annotate
open Verif Verif.CApi Verif.AttrReg Verif.RT Verif.Serv.Kokkos

/-- the default configuration: thread scope, no presets -/
structure Default (cfg : Config) : Prop where
  scope : cfg.defScope = 20
  preset : cfg.preset = fun _ => none
  agg : cfg.aggId ≠ typeAttr

/-- the properties of the region attributes -/
def propOf : RegionKind → BitVec 32
  | .region => 276
  | .phase => 276 + 0x40000
  | .comm => 276 + 0x10000

/-- the entry of a running function -/
def entry (x : RegionKind × List Byte) : Name × Val := (x.1.name, Val.str x.2)

structure Q (S : Spec) (th : Nat) (R : Vals) : Prop where
  att : ∀ k : RegionKind, S.attrs k.name = some ⟨.string, propOf k⟩
  ctx : (S.ctx (.thread th)).region = R
  proc : (S.ctx .process).region = []
  err : S.err th = false

theorem locK (k : RegionKind) (th : Nat) : (⟨.string, propOf k⟩ : Ann).loc th = some (.thread th) := by
  cases k <;> exact if_pos (by decide)

theorem plainK (k : RegionKind) : ¬ (⟨.string, propOf k⟩ : Ann).asValue ∧ ¬ (⟨.string, propOf k⟩ : Ann).unaligned := by
  unfold Ann.asValue Ann.unaligned; cases k <;> decide

theorem nestedK (k : RegionKind) : (⟨.string, propOf k⟩ : Ann).nested := by
  unfold Ann.nested; cases k <;> decide

theorem nbK (k : RegionKind) : ¬ Builtin k.name := by
  unfold Builtin; cases k <;> decide

theorem begin_Q {S : Spec} {th : Nat} {R : Vals} (h : Q S th R) (k : RegionKind) (v : List Byte) :
    Q (S.begin th k.name (Val.str v)) th (R ++ [entry (k, v)]) := by
  have e : S.begin th k.name (Val.str v) = S.put (.thread th) ((S.ctx (.thread th)).begin k.name ⟨.string, propOf k⟩ (Val.str v)) := by
    simp only [Spec.begin, h.att k, locK k th, h.err, if_neg Bool.false_ne_true]
  rw [e]
  refine ⟨h.att, ?_, h.proc, h.err⟩
  simp only [Spec.put, if_true]
  rw [NCtx.begin, if_neg (plainK k).1, if_neg (plainK k).2, h.ctx]
  rfl

theorem end_Q {S : Spec} {th : Nat} {R : Vals} (k : RegionKind) (v : List Byte) (h : Q S th (R ++ [entry (k, v)])) :
    Q (S.end_ th k.name (some (Val.str v))) th R := by
  have hc : (S.ctx (.thread th)).closes k.name ⟨.string, propOf k⟩ = some (Val.str v) := by
    rw [NCtx.closes, if_neg (plainK k).1, if_neg (plainK k).2, h.ctx]
    simp [entry]
  have e : S.end_ th k.name (some (Val.str v)) = S.put (.thread th) ((S.ctx (.thread th)).close k.name ⟨.string, propOf k⟩) := by
    simp only [Spec.end_, h.att k, locK k th, h.err, if_neg Bool.false_ne_true, hc]
    rw [if_pos (.inr trivial)]
  rw [e]
  refine ⟨h.att, ?_, h.proc, h.err⟩
  simp only [Spec.put, if_true]
  rw [NCtx.close, if_neg (plainK k).1, if_neg (plainK k).2]
  simp only [h.ctx, List.dropLast_concat]

/-- the state of the specification after calls of thread `th` -/
abbrev after (cfg : Config) (th : Nat) (cs : List Call) : Spec := (Spec.init cfg).run cfg (cs.map fun c => (th, c))

theorem after_snoc (cfg : Config) (th : Nat) (cs : List Call) (c : Call) : after cfg th (cs ++ [c]) = (after cfg th cs).call cfg th c := by
  simp only [after, List.map_append, srun_append]; rfl

def Good (cfg : Config) (th : Nat) (cs : List Call) (path : List (RegionKind × List Byte)) : Prop :=
  Q (after cfg th cs) th (path.map entry) ∧ ∀ c ∈ cs, ¬ Builtin c.name

theorem good_begin {cfg : Config} {th : Nat} {cs : List Call} {path : List (RegionKind × List Byte)} (h : Good cfg th cs path) (k : RegionKind)
    (v : List Byte) : Good cfg th (cs ++ [.beginRegion k v]) (path ++ [(k, v)]) := by
  refine ⟨?_, ?_⟩
  · rw [after_snoc, List.map_append]; exact begin_Q h.1 k v
  · intro c hc
    rcases List.mem_append.mp hc with hc | hc
    · exact h.2 c hc
    · simp only [List.mem_singleton] at hc; subst hc; exact nbK k

theorem good_end {cfg : Config} {th : Nat} {cs : List Call} {path : List (RegionKind × List Byte)} (k : RegionKind) (v : List Byte)
    (h : Good cfg th cs (path ++ [(k, v)])) : Good cfg th (cs ++ [.endRegion k v]) path := by
  refine ⟨?_, ?_⟩
  · rw [after_snoc]
    have := h.1
    rw [List.map_append] at this
    exact end_Q k v this
  · intro c hc
    rcases List.mem_append.mp hc with hc | hc
    · exact h.2 c hc
    · simp only [List.mem_singleton] at hc; subst hc; exact nbK k

theorem probes_append : ∀ (a b : List (Option Call)) (pre : List Call), probes pre (a ++ b) = probes pre a ++ probes (pre ++ a.filterMap id) b
  | [], b, pre => by simp [probes]
  | none :: a, b, pre => by
    simp only [List.cons_append, probes]
    rw [probes_append a b pre]
    simp
  | some c :: a, b, pre => by
    simp only [List.cons_append, probes]
    rw [probes_append a b (pre ++ [c])]
    simp

theorem raised_eq : ∀ (p : Py) (path : List (RegionKind × List Byte)), (running path p).2 = (exec p).2
  | .skip, _ => rfl
  | .raise, _ => rfl
  | .probe, _ => rfl
  | .tryExcept _, _ => rfl
  | .seq a b, path => by
    simp only [running, exec, raised_eq a path]
    cases h : (exec a).2 with
    | true => simp only [if_true]; rw [raised_eq a path, h]
    | false => simp only [if_neg Bool.false_ne_true]; exact raised_eq b path
  | .func k name fname body, path => by
    simp only [running, exec]
    rw [raised_eq body]
    cases (exec body).2 <;> rfl

theorem name_eq (name : Option (List Byte)) (fname : List Byte) : (name.filter (· ≠ [])).getD fname = realName name fname := by
  cases name with
  | none => rfl
  | some n => by_cases h : n = [] <;> simp [realName, Option.filter, h]

theorem main {cfg : Config} {th : Nat} : ∀ (p : Py) (pre : List Call) (path : List (RegionKind × List Byte)), Contained p → Good cfg th pre path →
    List.Forall₂ (Good cfg th) (probes pre (exec p).1) (running path p).1 ∧ Good cfg th (pre ++ (exec p).1.filterMap id) path
  | .skip, pre, path, _, hg => by simp [exec, running, probes, hg]
  | .raise, pre, path, _, hg => by simp [exec, running, probes, hg]
  | .probe, pre, path, _, hg => by simp [exec, running, probes, hg]
  | .tryExcept b, pre, path, hc, hg => main b pre path hc hg
  | .seq a b, pre, path, hc, hg => by
    obtain ⟨h1, h2⟩ := main a pre path hc.1 hg
    have ea := raised_eq a path
    have ea' := raised_eq a []
    simp only [exec, running, ea]
    cases h : (exec a).2 with
    | true => exact ⟨h1, h2⟩
    | false =>
      obtain ⟨g1, g2⟩ := main b _ path (hc.2 (ea'.trans h)) h2
      simp only [if_neg Bool.false_ne_true]
      rw [probes_append, List.filterMap_append, ← List.append_assoc]
      exact ⟨List.rel_append h1 g1, g2⟩
  | .func k name fname body, pre, path, hc, hg => by
    have hr : (exec body).2 = false := (raised_eq body []).symm.trans hc.2
    obtain ⟨h1, h2⟩ := main body (pre ++ [.beginRegion k (realName name fname)]) (path ++ [(k, realName name fname)]) hc.1
      (good_begin hg k _)
    simp only [exec, running, hr, if_neg Bool.false_ne_true, name_eq]
    constructor
    · rw [probes_append]
      simp only [probes, List.append_nil]
      exact h1
    · have := good_end k _ h2
      simpa using this

theorem mention_other (cfg : Config) (S : Spec) (m x : Name) (p : BitVec 32) (h : m ≠ x) : (S.mention cfg m .string p).attrs x = S.attrs x := by
  unfold Spec.mention
  split
  · rfl
  · exact if_neg (Ne.symm h)

theorem mention_same (cfg : Config) (S : Spec) (x : Name) (p : BitVec 32) (h : S.attrs x = none) :
    (S.mention cfg x .string p).attrs x = some ⟨.string, newProp cfg x p⟩ := by
  simp only [Spec.mention, h]
  exact if_pos trivial

theorem mention_ctx (cfg : Config) (S : Spec) (m : Name) (p : BitVec 32) :
    (S.mention cfg m .string p).ctx = S.ctx ∧ (S.mention cfg m .string p).err = S.err := by
  unfold Spec.mention
  split <;> exact ⟨rfl, rfl⟩

theorem init_Q {cfg : Config} (hc : Default cfg) (th : Nat) : Q (Spec.init cfg) th [] := by
  have hn : ∀ x p, newProp cfg x p = Presets.withScope 20 p := by
    intro x p
    rw [newProp, hc.preset, hc.scope]
    rfl
  refine ⟨fun k => ?_, ?_, ?_, ?_⟩
  · unfold Spec.init
    cases k with
    | region =>
      rw [mention_other _ _ _ _ _ (by decide), mention_other _ _ _ _ _ (by decide)]
      refine (mention_same cfg _ (nm "region") 256 ?_).trans ?_
      · rw [mention_other _ _ _ _ _ (by decide)]
      · rw [hn]; congr 2
    | phase =>
      rw [mention_other _ _ _ _ _ (by decide)]
      refine (mention_same cfg _ (nm "phase") (256 + 0x40000) ?_).trans ?_
      · rw [mention_other _ _ _ _ _ (by decide), mention_other _ _ _ _ _ (by decide)]
      · rw [hn]; congr 2
    | comm =>
      refine (mention_same cfg _ (nm "comm.region") (256 + 0x10000) ?_).trans ?_
      · rw [mention_other _ _ _ _ _ (by decide), mention_other _ _ _ _ _ (by decide), mention_other _ _ _ _ _ (by decide)]
      · rw [hn]; congr 2
  all_goals
    unfold Spec.init
    simp only [mention_ctx]

variable {cfg : Config} {npb nb : Nat} {g : Nat → Nat} {active : List Nat} {isActive : Nat → Bool}

/-- **C120** (no exception leaves a decorated function): in any program of decorated functions, wherever we look, the context of the thread consists of exactly the decorated
functions that are running, outermost first, each under its given name or its own, and the current region is the innermost of them. -/
theorem C120_context_partial (hc : Default cfg) (hr : Room npb nb) (th : Nat) (p : Py) (hp : Contained p) :
    List.Forall₂ (fun cs path =>
        ((after cfg th cs).ctx (.thread th)).region = path.map (fun x => (x.1.name, Val.str x.2)) ∧ (after cfg th cs).err th = false ∧
        (Lossless (runCalls cfg (start cfg npb nb g active isActive) (cs.map fun c => (th, c))) →
          ∀ alt, (runCalls cfg (start cfg npb nb g active isActive) (cs.map fun c => (th, c))).currentRegion th alt =
            some ((path.getLast?.map Prod.snd).getD alt)))
      (probes [] (exec p).1) (running [] p).1 := by
  obtain ⟨h1, -⟩ := main (cfg := cfg) (th := th) p [] [] hp ⟨init_Q hc th, by simp⟩
  refine h1.imp fun cs path hg => ⟨hg.1.ctx, hg.1.err, fun hl alt => ?_⟩
  have hin : (after cfg th cs).innerNested (path.map entry) = path.getLast?.map fun x => Val.str x.2 := by
    rcases List.eq_nil_or_concat path with rfl | ⟨l, x, rfl⟩
    · rfl
    · rw [List.concat_eq_append, List.map_append, List.map_cons, List.map_nil, innerNested_snoc]
      have : (after cfg th cs).attrs (entry x).1 = some ⟨.string, propOf x.1⟩ := hg.1.att x.1
      simp only [this, decide_eq_true (nestedK x.1), if_true]
      simp [entry]
  have hcur := C104_current_region_partial hr.h1 hr.h2 hr.h3 hc.agg (cs.map fun c => (th, c))
    (by intro x hx; obtain ⟨c, hcm, rfl⟩ := List.mem_map.mp hx; exact hg.2 c hcm) hl th alt (by
      rintro loc (rfl | rfl)
      · rw [hg.1.ctx, hin]
        cases e : path.getLast? with
        | none => left; rw [List.getLast?_eq_none_iff.mp e]; rfl
        | some f => right; rfl
      · left; exact hg.1.proc)
  rw [hcur, Spec.region, hg.1.ctx, hin, hg.1.proc]
  cases path.getLast? <;> rfl

/-- **C120** (no exception leaves a decorated function): after the program nothing is left open and the thread is not disabled -/
theorem C120_balanced_partial (hc : Default cfg) (th : Nat) (p : Py) (hp : Contained p) :
    ((after cfg th ((exec p).1.filterMap id)).ctx (.thread th)).region = [] ∧ (after cfg th ((exec p).1.filterMap id)).err th = false := by
  obtain ⟨-, h2⟩ := main (cfg := cfg) (th := th) p [] [] hp ⟨init_Q hc th, by simp⟩
  rw [List.nil_append] at h2
  exact ⟨h2.1.ctx, h2.1.err⟩

/-- **C120**: the decorator does not change what exceptions do -/
theorem C120_exceptions (p : Py) (path : List (RegionKind × List Byte)) : (exec p).2 = (running path p).2 := (raised_eq p path).symm

/-! ## examples and violations -/

/-- `main` (decorated) calls `f` (decorated, phase, named) which handles an exception of an undecorated function, twice -/
def pyEx : Py :=
  .func .region none [1] (.seq .probe (.seq (.func .phase (some [2]) [3] (.seq .probe (.tryExcept (.seq .probe .raise)))) (.func .region (some []) [4] .probe)))

theorem C120_example : Contained pyEx ∧ Default cfgEx ∧ Room 64 4 ∧
    (running [] pyEx).1 = [[(.region, [1])], [(.region, [1]), (.phase, [2])], [(.region, [1]), (.phase, [2])], [(.region, [1]), (.region, [4])]] ∧
    (probes [] (exec pyEx).1).map (fun cs => (runCalls cfgEx startEx (cs.map fun c => (0, c))).currentRegion 0 []) =
      [some [1], some [2], some [2], some [4]] := by
  refine ⟨by simp [pyEx, Contained, running], ⟨rfl, rfl, by decide⟩, ⟨by decide, by decide, by decide⟩, ?_, ?_⟩ <;> decide +kernel

/-- **C120**, violation: an exception that leaves a decorated function leaves its region open: code that runs after the handler appears to be in it -/
theorem C120_violation_open :
    let p : Py := .seq (.tryExcept (.func .region none [1] .raise)) .probe
    (running [] p).1 = [[]] ∧
    (probes [] (exec p).1).map (fun cs => (runCalls cfgEx startEx (cs.map fun c => (0, c))).currentRegion 0 []) = [some [1]] := by
  refine ⟨?_, ?_⟩ <;> decide +kernel

/-- **C120**, violation: and when a decorated function that handled such an exception returns, its end does not match: the thread's annotations are disabled
for the rest of the program -/
theorem C120_violation_disabled :
    let p : Py := .seq (.func .region none [1] (.tryExcept (.func .region none [2] .raise))) (.func .region none [3] .probe)
    (exec p).2 = false ∧ (running [] p).1 = [[(.region, [3])]] ∧
    (probes [] (exec p).1).map (fun cs => ((runCalls cfgEx startEx (cs.map fun c => (0, c))).rt.err 0,
      (runCalls cfgEx startEx (cs.map fun c => (0, c))).currentRegion 0 [])) = [(true, some [2])] := by
  refine ⟨?_, ?_, ?_⟩ <;> decide +kernel

end Verif.Py.Annotate
