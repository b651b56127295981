import Verif.Serv.KokkosSpec
import Verif.Props.CCalls

/-! # C118: Kokkos kernels and regions appear in the context, nested as they run -/

namespace Verif.Serv.Kokkos
open Verif Verif.CApi Verif.AttrReg Verif.RT

theorem srun_append (cfg : Config) : ∀ (xs ys : List (Nat × Call)) (S : Spec), S.run cfg (xs ++ ys) = (S.run cfg xs).run cfg ys
  | [], _, _ => rfl
  | _ :: xs, ys, S => srun_append cfg xs ys _

/-- the attributes `region` and `kernel_type`, and what is open on the threads -/
structure P (S : Spec) (R : Nat → Vals) (b : Bool) : Prop where
  reg : S.attrs rg = some ⟨.string, 276⟩
  kto : S.attrs kt = none ∨ S.attrs kt = some ⟨.string, 84⟩
  kty : b = true → S.attrs kt = some ⟨.string, 84⟩
  ctx : ∀ th, (S.ctx (.thread th)).region = R th
  proc : (S.ctx .process).region = []
  err : ∀ th, S.err th = false

def upd (R : Nat → Vals) (th : Nat) (x : Vals) : Nat → Vals := fun t => if t = th then x else R t

theorem kr : kt ≠ rg := by decide

theorem loc276 (th : Nat) : (⟨.string, 276⟩ : Ann).loc th = some (.thread th) := by
  unfold Ann.loc; exact if_pos (by decide)
theorem loc84 (th : Nat) : (⟨.string, 84⟩ : Ann).loc th = some (.thread th) := by
  unfold Ann.loc; exact if_pos (by decide)

theorem plain276 : ¬ (⟨.string, 276⟩ : Ann).asValue ∧ ¬ (⟨.string, 276⟩ : Ann).unaligned := by
  unfold Ann.asValue Ann.unaligned; decide
theorem plain84 : ¬ (⟨.string, 84⟩ : Ann).asValue ∧ ¬ (⟨.string, 84⟩ : Ann).unaligned := by
  unfold Ann.asValue Ann.unaligned; decide

theorem begin_P {S : Spec} {R : Nat → Vals} {b : Bool} (h : P S R b) (th : Nat) {n : Name} {a : Ann} (v : Val) (ha : S.attrs n = some a)
    (hl : a.loc th = some (.thread th)) (hp : ¬ a.asValue ∧ ¬ a.unaligned) : P (S.begin th n v) (upd R th (R th ++ [(n, v)])) b := by
  have e : S.begin th n v = S.put (.thread th) ((S.ctx (.thread th)).begin n a v) := by
    simp only [Spec.begin, ha, hl, h.err th, if_neg Bool.false_ne_true]
  rw [e]
  refine ⟨h.reg, h.kto, h.kty, fun t => ?_, h.proc, h.err⟩
  by_cases ht : t = th
  · subst ht
    simp only [Spec.put, if_true, upd]
    rw [NCtx.begin, if_neg hp.1, if_neg hp.2, h.ctx]
  · have : Loc.thread t ≠ Loc.thread th := fun e => ht (by cases e; rfl)
    simp only [Spec.put, if_neg this, upd, if_neg ht, h.ctx]

theorem end_P {S : Spec} {R : Nat → Vals} {b : Bool} (h : P S R b) (th : Nat) {n : Name} {a : Ann} (v : Val) (X : Vals) (o : Option Val)
    (ho : o = none ∨ o = some v) (hR : R th = X ++ [(n, v)])
    (ha : S.attrs n = some a) (hl : a.loc th = some (.thread th)) (hp : ¬ a.asValue ∧ ¬ a.unaligned) :
    P (S.end_ th n o) (upd R th X) b := by
  have hc : (S.ctx (.thread th)).closes n a = some v := by
    rw [NCtx.closes, if_neg hp.1, if_neg hp.2, h.ctx, hR]
    simp
  have e : S.end_ th n o = S.put (.thread th) ((S.ctx (.thread th)).close n a) := by
    simp only [Spec.end_, ha, hl, h.err th, if_neg Bool.false_ne_true, hc]
    rw [if_pos ho]
  rw [e]
  refine ⟨h.reg, h.kto, h.kty, fun t => ?_, h.proc, h.err⟩
  by_cases ht : t = th
  · subst ht
    simp only [Spec.put, if_true, upd]
    rw [NCtx.close, if_neg hp.1, if_neg hp.2]
    simp only [h.ctx, hR, List.dropLast_concat]
  · have : Loc.thread t ≠ Loc.thread th := fun e => ht (by cases e; rfl)
    simp only [Spec.put, if_neg this, upd, if_neg ht, h.ctx]

/-- the default configuration: thread scope, no presets for the two attributes -/
structure Plain (cfg : Config) : Prop where
  scope : cfg.defScope = 20
  region : cfg.preset rg = none
  kernel : cfg.preset kt = none
  agg : cfg.aggId ≠ typeAttr

theorem mention_kt {cfg : Config} (hc : Plain cfg) {S : Spec} {R : Nat → Vals} {b : Bool} (h : P S R b) :
    P (S.mention cfg kt .string 64) R true := by
  rcases h.kto with e | e
  · have : S.mention cfg kt .string 64 = { S with attrs := fun m => if m = kt then some ⟨.string, 84⟩ else S.attrs m } := by
      have h84 : newProp cfg kt 64 = 84 := by
        rw [newProp, hc.kernel, hc.scope]; decide
      simp only [Spec.mention, e, h84]
    rw [this]
    have e2 : (fun m => if m = kt then some (⟨.string, 84⟩ : Ann) else S.attrs m) kt = some ⟨.string, 84⟩ := if_pos rfl
    refine ⟨?_, .inr e2, fun _ => e2, h.ctx, h.proc, h.err⟩
    have e3 : (fun m => if m = kt then some (⟨.string, 84⟩ : Ann) else S.attrs m) rg = S.attrs rg := if_neg (Ne.symm kr)
    exact e3.trans h.reg
  · have : S.mention cfg kt .string 64 = S := by simp only [Spec.mention, e]
    rw [this]
    exact ⟨h.reg, h.kto, fun _ => e, h.ctx, h.proc, h.err⟩

theorem mention_rg {cfg : Config} {S : Spec} {R : Nat → Vals} {b : Bool} (h : P S R b) : S.mention cfg rg .string 0 = S := by
  simp only [Spec.mention, h.reg]

theorem upd_upd (R : Nat → Vals) (th : Nat) (x y : Vals) : upd (upd R th x) th y = upd R th y := by
  funext t; unfold upd; split <;> rfl

theorem upd_at (R : Nat → Vals) (th : Nat) (x : Vals) : upd R th x th = x := if_pos rfl

theorem upd_self (R : Nat → Vals) (th : Nat) : upd R th (R th) = R := by
  funext t; unfold upd; split
  · rename_i e; rw [e]
  · rfl

def pair (k : Kernel) (name : List Byte) : Vals := [(kt, Val.str k.type), (rg, Val.str name)]

def pushCalls (th : Nat) (k : Kernel) (name : List Byte) : List (Nat × Call) :=
  [(th, Call.create kt .string 64), (th, Call.begin kt (.string k.type)), (th, Call.create rg .string 0), (th, Call.begin rg (.string name))]

def popCalls (th : Nat) : List (Nat × Call) := [(th, Call.end_ rg), (th, Call.end_ kt)]

theorem push_P {cfg : Config} (hc : Plain cfg) {S : Spec} {R : Nat → Vals} {b : Bool} (h : P S R b) (th : Nat) (k : Kernel) (name : List Byte) :
    P (S.run cfg (pushCalls th k name)) (upd R th (R th ++ pair k name)) true := by
  have h1 := mention_kt hc h
  have h2 := begin_P h1 th (Val.str k.type) (h1.kty rfl) (loc84 th) plain84
  have h3 := begin_P h2 th (Val.str name) h2.reg (loc276 th) plain276
  rw [upd_at, upd_upd, List.append_assoc] at h3
  simp only [pushCalls, Spec.run, Spec.call]
  have e := mention_rg (cfg := cfg) h2
  change P (Spec.begin (Spec.mention cfg (Spec.begin (Spec.mention cfg S kt .string 64) th kt (Val.str k.type)) rg .string 0) th rg (Val.str name)) _ _
  rw [e]
  exact h3

theorem pop_P {cfg : Config} {S : Spec} {R : Nat → Vals} (h : P S R true) (th : Nat) (k : Kernel) (name : List Byte) (X : Vals)
    (hR : R th = X ++ pair k name) : P (S.run cfg (popCalls th)) (upd R th X) true := by
  have h1 := end_P h th (Val.str name) (X ++ [(kt, Val.str k.type)]) none (.inl rfl) (by rw [hR]; simp [pair]) h.reg (loc276 th) plain276
  have h2 := end_P h1 th (Val.str k.type) X none (.inl rfl) (upd_at ..) (h1.kty rfl) (loc84 th) plain84
  rw [upd_upd] at h2
  exact h2

theorem pushes_P {cfg : Config} (hc : Plain cfg) (th : Nat) (k : Kernel) (name : List Byte) : ∀ (n : Nat) {S : Spec} {R : Nat → Vals} {b : Bool}, P S R b →
    P (S.run cfg (List.replicate n (pushCalls th k name)).flatten) (upd R th (R th ++ (List.replicate n (pair k name)).flatten)) (decide (0 < n) || b)
  | 0, S, R, b, h => by
    simp only [List.replicate_zero, List.flatten_nil, List.append_nil, upd_self]
    exact h
  | n + 1, S, R, b, h => by
    have h1 := push_P hc h th k name
    have h2 := pushes_P hc th k name n h1
    rw [upd_upd, upd_at, List.append_assoc] at h2
    rw [List.replicate_succ, List.flatten_cons, srun_append, List.replicate_succ, List.flatten_cons]
    simpa using h2

theorem pops_P {cfg : Config} (th : Nat) (k : Kernel) (name : List Byte) : ∀ (n : Nat) {S : Spec} {R : Nat → Vals} (X : Vals), P S R true →
    R th = X ++ (List.replicate n (pair k name)).flatten → P (S.run cfg (List.replicate n (popCalls th)).flatten) (upd R th X) true
  | 0, S, R, X, h, hR => by
    simp only [List.replicate_zero, List.flatten_nil, List.append_nil] at hR ⊢
    rw [← hR, upd_self]
    exact h
  | n + 1, S, R, X, h, hR => by
    rw [List.replicate_succ', List.flatten_append, ← List.append_assoc] at hR
    simp only [List.flatten_cons, List.flatten_nil, List.append_nil] at hR
    have h1 := pop_P (cfg := cfg) h th k name _ hR
    have h2 := pops_P (cfg := cfg) th k name n X h1 (upd_at ..)
    rw [upd_upd] at h2
    rw [List.replicate_succ, List.flatten_cons, srun_append]
    exact h2

variable {cfg : Config} {npb nb : Nat} {g : Nat → Nat} {active : List Nat} {isActive : Nat → Bool}

/-- memory enough for the bootstrap nodes -/
structure Room (npb nb : Nat) : Prop where
  h1 : 12 ≤ npb
  h2 : 1 ≤ nb
  h3 : nb * 256 ≤ invId

theorem typeOf_string (hc : Plain cfg) (hr : Room npb nb) (xs ys : List (Nat × Call)) (hb : ∀ x ∈ xs, ¬ Builtin x.2.name)
    (hl : Lossless (runCalls cfg (start cfg npb nb g active isActive) (xs ++ ys))) {n : Name} (hn : ¬ Builtin n) {p : BitVec 32}
    (ha : ((Spec.init cfg).run cfg xs).attrs n = some ⟨.string, p⟩) :
    (runCalls cfg (start cfg npb nb g active isActive) xs).typeOf n = some (Val.ofType .string) := by
  have h := (C104_calls_partial hr.h1 hr.h2 hr.h3 hc.agg xs hb hl.left).1 n hn
  have := (h.2.1 _ ha).2.1
  rw [this, if_neg (by intro e; cases e)]

theorem nb_kt : ¬ Builtin kt := by unfold Builtin; decide
theorem nb_rg : ¬ Builtin rg := by unfold Builtin; decide

theorem push_run (hc : Plain cfg) (hr : Room npb nb) (xs ys : List (Nat × Call)) (hb : ∀ x ∈ xs, ¬ Builtin x.2.name) (th : Nat) (k : Kernel)
    (name : List Byte) {R : Nat → Vals} {b : Bool} (hp : P ((Spec.init cfg).run cfg xs) R b)
    (hl : Lossless (runCalls cfg (start cfg npb nb g active isActive) (xs ++ pushCalls th k name ++ ys))) :
    push cfg th k.type name (runCalls cfg (start cfg npb nb g active isActive) xs) =
      runCalls cfg (start cfg npb nb g active isActive) (xs ++ pushCalls th k name) := by
  have hb1 : ∀ x ∈ xs ++ [(th, Call.create kt .string 64)], ¬ Builtin x.2.name := by
    intro x hx
    rcases List.mem_append.mp hx with hx | hx
    · exact hb x hx
    · simp only [List.mem_singleton] at hx; subst hx; exact nb_kt
  have hp1 : P ((Spec.init cfg).run cfg (xs ++ [(th, Call.create kt .string 64)])) R true := by
    rw [srun_append]; exact mention_kt hc hp
  have t1 := typeOf_string (g := g) (active := active) (isActive := isActive) hc hr (xs ++ [(th, Call.create kt .string 64)])
    ([(th, Call.begin kt (.string k.type)), (th, Call.create rg .string 0), (th, Call.begin rg (.string name))] ++ ys) hb1
    (by simpa [pushCalls] using hl) nb_kt (hp1.kty rfl)
  let xs3 := xs ++ [(th, Call.create kt .string 64), (th, Call.begin kt (.string k.type)), (th, Call.create rg .string 0)]
  have hb3 : ∀ x ∈ xs3, ¬ Builtin x.2.name := by
    intro x hx
    rcases List.mem_append.mp hx with hx | hx
    · exact hb x hx
    · simp only [List.mem_cons, List.not_mem_nil, or_false] at hx
      rcases hx with rfl | rfl | rfl
      · exact nb_kt
      · exact nb_kt
      · exact nb_rg
  have hp2 := begin_P hp1 th (Val.str k.type) (hp1.kty rfl) (loc84 th) plain84
  have hp3 : ((Spec.init cfg).run cfg xs3).attrs rg = some ⟨.string, 276⟩ := by
    have e : (Spec.init cfg).run cfg xs3 =
        (((Spec.init cfg).run cfg (xs ++ [(th, Call.create kt .string 64)])).begin th kt (Val.str k.type)).mention cfg rg .string 0 := by
      simp only [xs3, srun_append]; rfl
    rw [e, mention_rg hp2]
    exact hp2.reg
  have t3 := typeOf_string (g := g) (active := active) (isActive := isActive) hc hr xs3 ([(th, Call.begin rg (.string name))] ++ ys) hb3
    (by simpa [pushCalls, xs3] using hl) nb_rg hp3
  simp only [runCalls_append, xs3, runCalls] at t1 t3
  have a1 : annBegin cfg (runCalls cfg (start cfg npb nb g active isActive) xs) th kt 64 k.type = _ := if_pos t1
  rw [push, a1]
  have a3 : annBegin cfg (call cfg (call cfg (runCalls cfg (start cfg npb nb g active isActive) xs) th (Call.create kt .string 64)) th
    (Call.begin kt (CArg.string k.type))) th rg 0 name = _ := if_pos t3
  rw [a3]
  simp only [runCalls_append, pushCalls, runCalls]

theorem pushes_run (hc : Plain cfg) (hr : Room npb nb) (th : Nat) (k : Kernel) (name : List Byte) : ∀ (l : List Inst) (xs ys : List (Nat × Call))
    (_ : ∀ x ∈ xs, ¬ Builtin x.2.name) {R : Nat → Vals} {b : Bool} (_ : P ((Spec.init cfg).run cfg xs) R b)
    (_ : Lossless (runCalls cfg (start cfg npb nb g active isActive) (xs ++ (List.replicate l.length (pushCalls th k name)).flatten ++ ys))),
    l.foldl (fun t _ => push cfg th k.type name t) (runCalls cfg (start cfg npb nb g active isActive) xs) =
      runCalls cfg (start cfg npb nb g active isActive) (xs ++ (List.replicate l.length (pushCalls th k name)).flatten)
  | [], xs, ys, hb, R, b, hp, hl => by simp
  | i :: l, xs, ys, hb, R, b, hp, hl => by
    rw [List.length_cons, List.replicate_succ, List.flatten_cons] at hl ⊢
    rw [List.foldl_cons, push_run hc hr xs ((List.replicate l.length (pushCalls th k name)).flatten ++ ys) hb th k name hp (by simpa using hl)]
    rw [pushes_run hc hr th k name l (xs ++ pushCalls th k name) ys ?_ (R := upd R th (R th ++ pair k name)) (b := true) ?_ (by simpa using hl)]
    · simp
    · intro x hx
      rcases List.mem_append.mp hx with hx | hx
      · exact hb x hx
      · simp only [pushCalls, List.mem_cons, List.not_mem_nil, or_false] at hx
        rcases hx with rfl | rfl | rfl | rfl
        · exact nb_kt
        · exact nb_kt
        · exact nb_rg
        · exact nb_rg
    · rw [srun_append]; exact push_P hc hp th k name

theorem pops_run (th : Nat) : ∀ (l : List Inst) (s : St), (∀ i ∈ l, i.started = true) →
    l.foldl (fun t i => if i.started then pop cfg th t else t) s = runCalls cfg s (List.replicate l.length (popCalls th)).flatten
  | [], s, _ => rfl
  | i :: l, s, h => by
    rw [List.foldl_cons, if_pos (h i (by simp)), pops_run th l _ (fun x hx => h x (by simp [hx])), List.length_cons, List.replicate_succ,
      List.flatten_cons, runCalls_append]
    rfl

theorem calls_nb {n th : Nat} {a : Act} {F G : Nat → List Frame} (h : nestStep F th a = some G) : ∀ x ∈ calls n th a, ¬ Builtin x.2.name := by
  intro x hx
  cases a with
  | kbegin k name =>
    simp only [calls, List.mem_flatten, List.mem_replicate] at hx
    obtain ⟨l, ⟨_, rfl⟩, hx⟩ := hx
    simp only [List.mem_cons, List.not_mem_nil, or_false] at hx
    rcases hx with rfl | rfl | rfl | rfl
    · exact nb_kt
    · exact nb_kt
    · exact nb_rg
    · exact nb_rg
  | kend k =>
    simp only [calls, List.mem_flatten, List.mem_replicate] at hx
    obtain ⟨l, ⟨_, rfl⟩, hx⟩ := hx
    simp only [List.mem_cons, List.not_mem_nil, or_false] at hx
    rcases hx with rfl | rfl
    · exact nb_rg
    · exact nb_kt
  | prog c =>
    simp only [calls, List.mem_singleton] at hx
    subst hx
    cases c with
    | beginRegion k v => cases k with
      | region => exact nb_rg
      | _ => cases h
    | endRegion k v => cases k with
      | region => exact nb_rg
      | _ => cases h
    | _ => cases h
  | register => cases hx
  | finish i => cases hx

def shownAll (n : Nat) (F : Nat → List Frame) : Nat → Vals := fun th => (F th).flatMap (Frame.shown n)

theorem shownAll_push (n : Nat) (F : Nat → List Frame) (th : Nat) (f : Frame) :
    shownAll n (fun t => if t = th then F th ++ [f] else F t) = upd (shownAll n F) th (shownAll n F th ++ f.shown n) := by
  funext t
  unfold shownAll upd
  by_cases h : t = th <;> simp [h]

theorem shownAll_pop (n : Nat) (F : Nat → List Frame) (th : Nat) :
    shownAll n (fun t => if t = th then (F th).dropLast else F t) = upd (shownAll n F) th ((F th).dropLast.flatMap (Frame.shown n)) := by
  funext t
  unfold shownAll upd
  by_cases h : t = th <;> simp [h]

theorem last_shown {n : Nat} {F : Nat → List Frame} {th : Nat} {f : Frame} (h : (F th).getLast? = some f) :
    shownAll n F th = (F th).dropLast.flatMap (Frame.shown n) ++ f.shown n := by
  obtain ⟨l, hl⟩ := List.getLast?_eq_some_iff.mp h
  simp [shownAll, hl]

/-- one step: the instances make the calls of the specification, and the context changes as the frames do -/
theorem step_run (hc : Plain cfg) (hr : Room npb nb) {n : Nat} (hn : 0 < n) {F G : Nat → List Frame} {th : Nat} {a : Act} (ha : nestStep F th a = some G)
    (xs ys : List (Nat × Call)) (hb : ∀ x ∈ xs, ¬ Builtin x.2.name) {b : Bool} (hp : P ((Spec.init cfg).run cfg xs) (shownAll n F) b)
    (hk : b = false → ∀ t k name, Frame.kernel k name ∉ F t)
    (hl : Lossless (runCalls cfg (start cfg npb nb g active isActive) (xs ++ calls n th a ++ ys))) :
    ∃ b', act cfg ⟨runCalls cfg (start cfg npb nb g active isActive) xs, List.replicate n ⟨true, b⟩⟩ th a =
        some ⟨runCalls cfg (start cfg npb nb g active isActive) (xs ++ calls n th a), List.replicate n ⟨true, b'⟩⟩ ∧
      P ((Spec.init cfg).run cfg (xs ++ calls n th a)) (shownAll n G) b' ∧ (b' = false → ∀ t k name, Frame.kernel k name ∉ G t) := by
  have hall : (List.replicate n (⟨true, b⟩ : Inst)).all Inst.alive = true := by simp
  cases a with
  | kbegin k name =>
    cases ha
    refine ⟨true, ?_, ?_, fun h => by cases h⟩
    · have := pushes_run (g := g) (active := active) (isActive := isActive) hc hr th k name (List.replicate n ⟨true, b⟩) xs ys hb hp
        (by rw [List.length_replicate]; exact hl)
      rw [List.length_replicate] at this
      simp only [act, hall, if_true, this, List.map_replicate]
      rfl
    · rw [srun_append, shownAll_push]
      have := pushes_P hc th k name n hp
      rw [decide_eq_true hn, Bool.true_or] at this
      exact this
  | kend k =>
    simp only [nestStep] at ha
    split at ha
    · rename_i k' name hlast
      split at ha
      · rename_i hkk
        subst hkk
        cases ha
        have hbt : b = true := by
          cases b with
          | true => rfl
          | false => exact absurd (List.mem_of_getLast? hlast) (hk rfl th k' name)
        subst hbt
        refine ⟨true, ?_, ?_, fun h => by cases h⟩
        · have := pops_run (cfg := cfg) th (List.replicate n ⟨true, true⟩) (runCalls cfg (start cfg npb nb g active isActive) xs)
            (by intro i hi; rw [(List.mem_replicate.mp hi).2])
          simp only [act, hall, if_true, this, List.length_replicate, runCalls_append]
          rfl
        · rw [srun_append, shownAll_pop]
          exact pops_P th k' name n _ hp (last_shown hlast)
      · cases ha
    · cases ha
  | prog c =>
    have e : act cfg ⟨runCalls cfg (start cfg npb nb g active isActive) xs, List.replicate n ⟨true, b⟩⟩ th (.prog c) =
        some ⟨runCalls cfg (start cfg npb nb g active isActive) (xs ++ [(th, c)]), List.replicate n ⟨true, b⟩⟩ := by
      simp only [act, runCalls_append, runCalls]
    cases c with
    | beginRegion k v =>
      cases k with
      | region =>
        cases ha
        refine ⟨b, e, ?_, ?_⟩
        · rw [srun_append, shownAll_push]
          exact begin_P hp th (Val.str v) hp.reg (loc276 th) plain276
        · intro hbf t k name hm
          dsimp only at hm
          split at hm
          · rename_i ht
            rcases List.mem_append.mp hm with hm | hm
            · exact hk hbf th k name hm
            · simp at hm
          · exact hk hbf t k name hm
      | _ => cases ha
    | endRegion k v =>
      cases k with
      | region =>
        simp only [nestStep] at ha
        split at ha
        · rename_i hlast
          cases ha
          refine ⟨b, e, ?_, ?_⟩
          · rw [srun_append, shownAll_pop]
            exact end_P hp th (Val.str v) _ (some (Val.str v)) (.inr rfl) (last_shown hlast) hp.reg (loc276 th) plain276
          · intro hbf t k name hm
            dsimp only at hm
            split at hm
            · exact hk hbf th k name (List.mem_of_mem_dropLast hm)
            · exact hk hbf t k name hm
        · cases ha
      | _ => cases ha
    | _ => cases ha
  | register => cases ha
  | finish i => cases ha

theorem hist_run (hc : Plain cfg) (hr : Room npb nb) {n : Nat} (hn : 0 < n) : ∀ (h : List (Nat × Act)) {F G : Nat → List Frame}
    (_ : nest F h = some G) (xs : List (Nat × Call)) (_ : ∀ x ∈ xs, ¬ Builtin x.2.name) {b : Bool} (_ : P ((Spec.init cfg).run cfg xs) (shownAll n F) b)
    (_ : b = false → ∀ t k name, Frame.kernel k name ∉ F t)
    (_ : Lossless (runCalls cfg (start cfg npb nb g active isActive) (xs ++ allCalls n h))),
    ∃ b', run cfg ⟨runCalls cfg (start cfg npb nb g active isActive) xs, List.replicate n ⟨true, b⟩⟩ h =
        some ⟨runCalls cfg (start cfg npb nb g active isActive) (xs ++ allCalls n h), List.replicate n ⟨true, b'⟩⟩ ∧
      P ((Spec.init cfg).run cfg (xs ++ allCalls n h)) (shownAll n G) b' ∧ (∀ x ∈ xs ++ allCalls n h, ¬ Builtin x.2.name) ∧
      (b' = false → ∀ t k name, Frame.kernel k name ∉ G t)
  | [], F, G, hG, xs, hb, b, hp, hk, hl => by
    cases hG
    exact ⟨b, by simp [run, allCalls], by simpa [allCalls] using hp, by simpa [allCalls] using hb, hk⟩
  | (th, a) :: h, F, G, hG, xs, hb, b, hp, hk, hl => by
    simp only [nest] at hG
    cases e : nestStep F th a with
    | none => rw [e] at hG; cases hG
    | some F' =>
      rw [e, Option.bind_some] at hG
      have ec : xs ++ allCalls n ((th, a) :: h) = xs ++ calls n th a ++ allCalls n h := by simp [allCalls]
      rw [ec] at hl ⊢
      obtain ⟨b1, h1, h2, h3⟩ := step_run hc hr hn e xs (allCalls n h) hb hp hk hl
      have hb' : ∀ x ∈ xs ++ calls n th a, ¬ Builtin x.2.name := by
        intro x hx
        rcases List.mem_append.mp hx with hx | hx
        · exact hb x hx
        · exact calls_nb e x hx
      obtain ⟨b2, g1, g2, g3⟩ := hist_run hc hr hn h hG (xs ++ calls n th a) hb' h2 h3 hl
      refine ⟨b2, ?_, g2, g3⟩
      simp only [run, h1]
      exact g1

theorem init_P (hc : Plain cfg) (n : Nat) : P (Spec.init cfg) (shownAll n fun _ => []) false := by
  have e : newProp cfg rg 256 = 276 := by rw [newProp, hc.region, hc.scope]; decide
  have m1 : ∀ (S : Spec) (m x : Name) (p : BitVec 32), m ≠ x → (S.mention cfg m .string p).attrs x = S.attrs x := by
    intro S m x p h
    unfold Spec.mention
    split
    · rfl
    · exact if_neg (Ne.symm h)
  have m2 : ∀ (S : Spec) (m : Name) (p : BitVec 32), (S.mention cfg m .string p).ctx = S.ctx ∧ (S.mention cfg m .string p).err = S.err := by
    intro S m p
    unfold Spec.mention
    split <;> exact ⟨rfl, rfl⟩
  have m3 : ∀ (S : Spec) (p : BitVec 32), S.attrs rg = none → (S.mention cfg rg .string p).attrs rg = some ⟨.string, newProp cfg rg p⟩ := by
    intro S p h
    simp only [Spec.mention, h]
    exact if_pos trivial
  have k0 : (Spec.init cfg).attrs kt = none := by
    unfold Spec.init
    rw [m1 _ _ _ _ (by decide), m1 _ _ _ _ (by decide), m1 _ _ _ _ (by decide), m1 _ _ _ _ (by decide)]
  refine ⟨?_, .inl k0, (fun h => Bool.noConfusion h), (fun th => ?_), ?_, (fun th => ?_)⟩
  · unfold Spec.init
    rw [m1 _ _ _ _ (by decide), m1 _ _ _ _ (by decide)]
    have := m3 ((⟨fun _ => none, fun _ => ⟨[], [], fun _ => none⟩, fun _ => false⟩ : Spec).mention cfg (nm "loop") .string 256) 256
      (by rw [m1 _ _ _ _ (by decide)])
    rw [e] at this
    exact this
  · unfold Spec.init
    rw [(m2 _ _ _).1, (m2 _ _ _).1, (m2 _ _ _).1, (m2 _ _ _).1]
    rfl
  · unfold Spec.init
    rw [(m2 _ _ _).1, (m2 _ _ _).1, (m2 _ _ _).1, (m2 _ _ _).1]
  · unfold Spec.init
    rw [(m2 _ _ _).2, (m2 _ _ _).2, (m2 _ _ _).2, (m2 _ _ _).2]

theorem latest_append (n : Name) (a b : Vals) : latest n (a ++ b) = (latest n b).or (latest n a) := by
  rw [latest, List.reverse_append, List.lookup_append]; rfl

theorem latest_one (n : Name) (v : Val) : latest n [(n, v)] = some v := by simp [latest]

theorem latest_other {n m : Name} (v : Val) (h : n ≠ m) : latest n [(m, v)] = none := by
  have : (n == m) = false := by simpa using h
  simp [latest, List.lookup, this]

theorem latest_pair (k : Kernel) (name : List Byte) : latest rg (pair k name) = some (Val.str name) ∧ latest kt (pair k name) = some (Val.str k.type) := by
  have e : pair k name = [(kt, Val.str k.type)] ++ [(rg, Val.str name)] := rfl
  rw [e, latest_append, latest_append, latest_one, latest_one, latest_other _ kr]
  exact ⟨rfl, rfl⟩

theorem shown_kernel {n : Nat} (hn : 0 < n) (k : Kernel) (name : List Byte) : ∃ X, (Frame.kernel k name).shown n = X ++ pair k name := by
  obtain ⟨m, rfl⟩ : ∃ m, n = m + 1 := ⟨n - 1, by omega⟩
  exact ⟨(List.replicate m (pair k name)).flatten, by
    change (List.replicate (m + 1) (pair k name)).flatten = _
    rw [List.replicate_succ', List.flatten_append]; simp⟩

theorem latest_frames {n : Nat} (hn : 0 < n) (l : List Frame) :
    latest rg (l.flatMap (Frame.shown n)) = l.getLast?.map (fun f => Val.str f.name) ∧
    latest kt (l.flatMap (Frame.shown n)) = (l.reverse.findSome? Frame.type).map Val.str := by
  induction l using List.reverseRecOn with
  | nil => exact ⟨rfl, rfl⟩
  | append_singleton l f ih =>
    rw [List.flatMap_append, latest_append, latest_append, ih.1, ih.2]
    simp only [List.flatMap_cons, List.flatMap_nil, List.append_nil, List.getLast?_append, List.getLast?_singleton, Option.or_some, Option.map_some,
      List.reverse_append, List.reverse_cons, List.reverse_nil, List.nil_append, List.cons_append, List.findSome?_cons]
    cases f with
    | kernel k name =>
      obtain ⟨X, hX⟩ := shown_kernel hn k name
      rw [hX, latest_append, latest_append, (latest_pair k name).1, (latest_pair k name).2]
      exact ⟨rfl, rfl⟩
    | region v =>
      have e : (Frame.region v).shown n = [(rg, Val.str v)] := rfl
      rw [e, latest_one, latest_other _ kr]
      exact ⟨rfl, rfl⟩

theorem last_frames {n : Nat} (hn : 0 < n) (l : List Frame) (f : Frame) : ∃ X, (l ++ [f]).flatMap (Frame.shown n) = X ++ [(rg, Val.str f.name)] := by
  rw [List.flatMap_append]
  cases f with
  | kernel k name =>
    obtain ⟨X, hX⟩ := shown_kernel hn k name
    exact ⟨l.flatMap (Frame.shown n) ++ X ++ [(kt, Val.str k.type)], by simp [hX, pair, Frame.name]⟩
  | region v => exact ⟨l.flatMap (Frame.shown n), rfl⟩

theorem register_run : ∀ (n : Nat) (s : St) (l : List Inst) (h : List (Nat × Act)),
    run cfg ⟨s, l⟩ (List.replicate n (0, .register) ++ h) = run cfg ⟨s, l ++ List.replicate n ⟨true, false⟩⟩ h
  | 0, s, l, h => by simp
  | n + 1, s, l, h => by
    rw [List.replicate_succ, List.cons_append, run]
    simp only [act]
    rw [register_run n, List.append_assoc, List.replicate_succ]
    rfl

/-- **C118** (default configuration, channels made before the first kernel and alive after the last): with `n` channels with the service, after any history of
Kokkos kernels and regions and of the program's regions on any threads, properly nested on each thread, the context of each thread consists of the open
kernels and regions in the order in which they began, each kernel with its kind and name `n` times; the current region is the innermost one, the kernel
type is that of the innermost kernel, no thread is in an error state. -/
theorem C118_context_partial (hc : Plain cfg) (hr : Room npb nb) (n : Nat) (hn : 0 < n) (h : List (Nat × Act)) (F : Nat → List Frame)
    (hF : nest (fun _ => []) h = some F) (hl : Lossless (runCalls cfg (start cfg npb nb g active isActive) (allCalls n h))) :
    ∃ s, run cfg ⟨start cfg npb nb g active isActive, []⟩ (List.replicate n (0, .register) ++ h) = some s ∧
      s.st = runCalls cfg (start cfg npb nb g active isActive) (allCalls n h) ∧ ∀ th,
      (((Spec.init cfg).run cfg (allCalls n h)).ctx (.thread th)).region = (F th).flatMap (Frame.shown n) ∧
      s.st.get th (nm "region") = some ((F th).getLast?.map fun f => Val.str f.name) ∧
      s.st.get th (nm "kernel_type") = some (((F th).reverse.findSome? Frame.type).map Val.str) ∧
      (∀ alt, s.st.currentRegion th alt = some (((F th).getLast?.map Frame.name).getD alt)) ∧
      s.st.rt.err th = false := by
  obtain ⟨b, h1, h2, h3, h4⟩ := hist_run hc hr hn h hF [] (by simp) (init_P hc n) (by simp) (by simpa using hl)
  rw [List.nil_append] at h1 h2 h3
  have hcalls := C104_calls_partial hr.h1 hr.h2 hr.h3 hc.agg (allCalls n h) h3 hl
  simp only at hcalls
  have hS : ∀ th, (((Spec.init cfg).run cfg (allCalls n h)).ctx (.thread th)).region = (F th).flatMap (Frame.shown n) := h2.ctx
  refine ⟨⟨runCalls cfg (start cfg npb nb g active isActive) (allCalls n h), List.replicate n ⟨true, b⟩⟩, ?_, rfl, fun th => ⟨hS th, ?_, ?_, ?_, ?_⟩⟩
  · rw [register_run, List.nil_append]; exact h1
  · change (runCalls cfg (start cfg npb nb g active isActive) (allCalls n h)).get th rg = _
    rw [(hcalls.1 rg nb_rg).2.2 th, Spec.get, h2.reg, Option.bind_some, loc276, Option.bind_some, NCtx.get, if_neg plain276.1, if_neg plain276.2, hS,
      (latest_frames hn _).1]
  · change (runCalls cfg (start cfg npb nb g active isActive) (allCalls n h)).get th kt = _
    rw [(hcalls.1 kt nb_kt).2.2 th, Spec.get, ← (latest_frames hn _).2]
    rcases h2.kto with e | e
    · rw [e, Option.bind_none]
      congr 1
      rw [(latest_frames hn _).2]
      have hb : b = false := by
        cases b with
        | false => rfl
        | true => rw [h2.kty rfl] at e; cases e
      have : (F th).reverse.findSome? Frame.type = none := by
        rw [List.findSome?_eq_none_iff]
        intro f hf
        cases f with
        | kernel k name => exact absurd (List.mem_reverse.mp hf) (h4 hb th k name)
        | region v => rfl
      rw [this]
      rfl
    · rw [e, Option.bind_some, loc84, Option.bind_some, NCtx.get, if_neg plain84.1, if_neg plain84.2, hS]
  · intro alt
    have hin : ∀ (l : List Frame), ((Spec.init cfg).run cfg (allCalls n h)).innerNested (l.flatMap (Frame.shown n)) =
        l.getLast?.map fun f => Val.str f.name := by
      intro l
      induction l using List.reverseRecOn with
      | nil => rfl
      | append_singleton l f _ =>
        obtain ⟨X, hX⟩ := last_frames hn l f
        rw [hX, innerNested_snoc]
        simp only [h2.reg]
        rw [if_pos (by unfold Ann.nested; decide)]
        simp
    have hcur := C104_current_region_partial hr.h1 hr.h2 hr.h3 hc.agg (allCalls n h) h3 hl th alt (by
      rintro loc (rfl | rfl)
      · rw [hS, hin]
        cases e : (F th).getLast? with
        | none => left; rw [List.getLast?_eq_none_iff.mp e]; rfl
        | some f => right; rfl
      · left; exact h2.proc)
    rw [hcur, Spec.region, hS, hin, h2.proc]
    cases (F th).getLast? with
    | none => rfl
    | some f => rfl
  · rw [hcalls.2.1]; exact h2.err th

/-- **C118**: with one channel each kernel appears exactly once, between what was open when it began and what began in it -/
theorem C118_once_partial (hc : Plain cfg) (hr : Room npb nb) (h : List (Nat × Act)) (F : Nat → List Frame)
    (hF : nest (fun _ => []) h = some F) (hl : Lossless (runCalls cfg (start cfg npb nb g active isActive) (allCalls 1 h))) (th : Nat) :
    (((Spec.init cfg).run cfg (allCalls 1 h)).ctx (.thread th)).region = (F th).flatMap fun
      | .kernel k name => [(nm "kernel_type", Val.str k.type), (nm "region", Val.str name)]
      | .region v => [(nm "region", Val.str v)] := by
  obtain ⟨s, _, _, h3⟩ := C118_context_partial hc hr 1 (by decide) h F hF hl
  rw [(h3 th).1]
  congr 1

/-! ## a program, and what goes wrong otherwise -/

theorem plainEx : Plain cfgEx := ⟨rfl, rfl, rfl, by decide⟩

def startEx : St := start cfgEx 64 4 (fun _ => 0) [] (fun _ => true)

/-- two threads: a region with a parallel_for with a fence in it; a user region -/
def histEx : List (Nat × Act) :=
  [(0, .prog (.beginRegion .region [1])), (1, .kbegin .user [2]), (0, .kbegin .pfor [3]), (0, .kbegin .fence [4]), (0, .kend .fence),
   (0, .prog (.beginRegion .region [5])), (1, .kend .user), (1, .kbegin .scan [6])]

/-- the hypotheses are met -/
theorem C118_example :
    (nest (fun _ => []) histEx).map (fun F => (F 0, F 1)) = some ([.region [1], .kernel .pfor [3], .region [5]], [.kernel .scan [6]]) ∧
    Lossless (runCalls cfgEx startEx (allCalls 1 histEx)) ∧ Plain cfgEx ∧ Room 64 4 ∧
    (run cfgEx ⟨startEx, []⟩ ((0, .register) :: histEx)).map (fun s => (s.st.get 0 rg, s.st.get 0 kt, s.st.get 1 rg, s.st.rt.err 0)) =
      some (some (some (Val.str [5])), some (some (Val.str (nm "kokkos.parallel_for"))), some (some (Val.str [6])), false) := by
  refine ⟨by decide +kernel, ?_, plainEx, ⟨by decide, by decide, by decide⟩, by decide +kernel⟩
  exact lossless_of 2 _ (by decide +kernel) (by decide +kernel) (by decide +kernel) (by decide +kernel)

/-- **C118** (kinds): the kinds of the kernels are the texts users know -/
theorem C118_kinds :
    (([Kernel.pfor, .reduce, .scan, .fence, .user].map fun k =>
      (run cfgEx ⟨startEx, []⟩ [(0, .register), (0, .kbegin k [3])]).map fun s => s.st.get 0 (nm "kernel_type")) =
    [nm "kokkos.parallel_for", nm "kokkos.parallel_reduce", nm "kokkos.parallel_scan", nm "kokkos.fence", nm "kokkos.user_region"].map
      fun t => some (some (some (Val.str t)))) ∧ ∀ k : Kernel, k ∈ [Kernel.pfor, .reduce, .scan, .fence, .user] := by
  refine ⟨by decide +kernel, fun k => by cases k <;> decide⟩

/-- **C118**, violation: with two channels with the service each kernel appears twice in the context, in both channels -/
theorem C118_violation_twice :
    (((Spec.init cfgEx).run cfgEx (allCalls 2 [(0, .kbegin .pfor [3])])).ctx (.thread 0)).region =
      [(kt, Val.str (nm "kokkos.parallel_for")), (rg, Val.str [3]), (kt, Val.str (nm "kokkos.parallel_for")), (rg, Val.str [3])] ∧
    (run cfgEx ⟨startEx, []⟩ [(0, .register), (0, .register), (0, .kbegin .pfor [3])]).map (fun s => s.st.currentRegion 0 []) = some (some [3]) ∧
    (run cfgEx ⟨startEx, []⟩ [(0, .register), (0, .register), (0, .kbegin .pfor [3])]).map (fun s => (pop cfgEx 0 s.st).currentRegion 0 []) =
      some (some [3]) := by
  refine ⟨?_, ?_, ?_⟩ <;> decide +kernel

/-- **C118**, violation: after a channel with the service is finished, the next kernel uses its deleted instance -/
theorem C118_violation_finished (k : Kernel) (name : List Byte) :
    run cfgEx ⟨startEx, []⟩ [(0, .register), (0, .finish 0), (0, .kbegin k name)] = none := rfl

/-- **C118**, violation: a channel that is made inside a kernel, and sees another kernel in it, ends the outer kernel without having begun it: the
thread's annotations are disabled from then on -/
theorem C118_violation_late :
    (nest (fun _ => []) [(0, .kbegin .user [1]), (0, .kbegin .pfor [2]), (0, .kend .pfor), (0, .kend .user)]).isSome ∧
    (run cfgEx ⟨startEx, []⟩ [(0, .kbegin .user [1]), (0, .register), (0, .kbegin .pfor [2]), (0, .kend .pfor), (0, .kend .user)]).map
      (fun s => s.st.rt.err 0) = some true := by
  refine ⟨?_, ?_⟩ <;> decide +kernel

/-- **C118**, violation: if the program has used the name `kernel_type` for another type of values, no kernel type is begun but one is ended: the thread's
annotations are disabled -/
theorem C118_violation_type :
    (run cfgEx ⟨startEx, []⟩ [(0, .register), (0, .prog (.create kt .int 0)), (0, .kbegin .pfor [2]), (0, .kend .pfor)]).map
      (fun s => s.st.rt.err 0) = some true := by
  decide +kernel

/-- **C118**, violation: ends are not matched with the kernel they belong to: of two kernels that overlap, the end of the first one ends the second one -/
theorem C118_violation_overlap :
    (run cfgEx ⟨startEx, []⟩ [(0, .register), (0, .kbegin .pfor [1]), (0, .kbegin .scan [2]), (0, .kend .pfor)]).map
      (fun s => (s.st.get 0 rg, s.st.get 0 kt)) = some (some (some (Val.str [1])), some (some (Val.str (nm "kokkos.parallel_for")))) := by
  decide +kernel

end Verif.Serv.Kokkos
