import Verif.Serv.BindingSpec
import Mathlib.Data.List.Induction
/-!
# C101: third-party tools see the regions as annotated
-/
namespace Verif.Bind
open Verif

theorem check_iff (C : BCfg) (a : BAttr) : C.check a = true ↔ Bound C a := by
  unfold BCfg.check Bound
  cases a.skip <;> by_cases h : C.names = [] <;> simp [h]

theorem pass_iff (C : BCfg) (v : Val) : C.pass v = true ↔ Wanted C v := by
  unfold BCfg.pass Wanted Serv.hasFilters
  cases C.filter.excl <;> cases C.filter.incl <;> simp

theorem run_append (C : BCfg) (h h' : List BOp) (m : List Nat) :
    run C m (h ++ h') = ((run C (run C m h).1 h').1, (run C m h).2 ++ (run C (run C m h).1 h').2) := by
  induction h generalizing m with
  | nil => simp [run]
  | cons o os ih => simp only [List.cons_append, run]; rw [ih]; simp

/-- the marked attributes are the known ones -/
theorem marked_iff (C : BCfg) (h : List BOp) (id : Nat) : id ∈ (run C [] h).1 ↔ Known C h id := by
  induction h using List.reverseRecOn with
  | nil => simp [run, Known]
  | append_singleton h o ih =>
    rw [run_append]
    simp only [run]
    have mono : Known C h id → Known C (h ++ [o]) id := by
      rintro ⟨a, h1, h2, h3⟩
      refine ⟨a, h1, h2, ?_⟩
      rcases h3 with ⟨h3, h4⟩ | h3
      · exact .inl ⟨by simp [h3], h4⟩
      · exact .inr (by simp [h3])
    have inv : Known C (h ++ [o]) id → Known C h id ∨ ∃ a : BAttr, a.id = id ∧ Bound C a ∧ ((o = .announce a ∧ a.subs = false) ∨ o = .subscribe a) := by
      rintro ⟨a, h1, h2, h3⟩
      simp only [List.mem_append, List.mem_singleton] at h3
      rcases h3 with ⟨h3 | h3, h4⟩ | h3 | h3
      · exact .inl ⟨a, h1, h2, .inl ⟨h3, h4⟩⟩
      · exact .inr ⟨a, h1, h2, .inl ⟨h3.symm, h4⟩⟩
      · exact .inl ⟨a, h1, h2, .inr h3⟩
      · exact .inr ⟨a, h1, h2, .inr h3.symm⟩
    cases o with
    | announce a =>
      simp only [step]
      by_cases hs : a.subs = true
      · rw [if_pos hs]
        rw [ih]
        refine ⟨mono, fun k => (inv k).elim (fun x => x) ?_⟩
        rintro ⟨b, -, -, ⟨e, e2⟩ | e⟩
        · cases e; simp [hs] at e2
        · cases e
      · rw [if_neg hs]
        by_cases hc : C.check a = true
        · rw [if_pos hc]
          simp only [List.mem_cons, ih]
          constructor
          · rintro (e | k)
            · exact ⟨a, e.symm, (check_iff C a).1 hc, .inl ⟨by simp, by simpa using hs⟩⟩
            · exact mono k
          · intro k
            rcases inv k with k | ⟨b, e1, -, ⟨e, -⟩ | e⟩
            · exact .inr k
            · cases e; exact .inl e1.symm
            · cases e
        · rw [if_neg hc]
          rw [ih]
          refine ⟨mono, fun k => (inv k).elim (fun x => x) ?_⟩
          rintro ⟨b, -, e3, ⟨e, e2⟩ | e⟩
          · cases e; exact absurd ((check_iff C a).2 e3) hc
          · cases e
    | subscribe a =>
      simp only [step]
      by_cases hc : C.check a = true
      · rw [if_pos hc]
        simp only [List.mem_cons, ih]
        constructor
        · rintro (e | k)
          · exact ⟨a, e.symm, (check_iff C a).1 hc, .inr (by simp)⟩
          · exact mono k
        · intro k
          rcases inv k with k | ⟨b, e1, -, ⟨e, -⟩ | e⟩
          · exact .inr k
          · cases e
          · cases e; exact .inl e1.symm
      · rw [if_neg hc]
        rw [ih]
        refine ⟨mono, fun k => (inv k).elim (fun x => x) ?_⟩
        rintro ⟨b, -, e3, ⟨e, e2⟩ | e⟩
        · cases e
        · cases e; exact absurd ((check_iff C a).2 e3) hc
    | begin th a v =>
      simp only [step]
      rw [ih]
      refine ⟨mono, fun k => (inv k).elim (fun x => x) ?_⟩
      rintro ⟨b, -, -, ⟨e, -⟩ | e⟩ <;> cases e
    | end_ th a v =>
      simp only [step]
      rw [ih]
      refine ⟨mono, fun k => (inv k).elim (fun x => x) ?_⟩
      rintro ⟨b, -, -, ⟨e, -⟩ | e⟩ <;> cases e

open Classical in
/-- **C101** (exactness).  After every history, a begin or end is forwarded to the tool, once and in order, exactly if its attribute
is to be forwarded and was announced before and the region passes the filters; nothing else makes calls. -/
theorem C101_forwarded (C : BCfg) (h : List BOp) :
    calls C [] = []
    ∧ (∀ th a v, calls C (h ++ [.begin th a v]) = calls C h ++ if Known C h a ∧ Wanted C v then [.onBegin th a v] else [])
    ∧ (∀ th a v, calls C (h ++ [.end_ th a v]) = calls C h ++ if Known C h a ∧ Wanted C v then [.onEnd th a v] else [])
    ∧ (∀ a, calls C (h ++ [.announce a]) = calls C h) ∧ (∀ a, calls C (h ++ [.subscribe a]) = calls C h) := by
  have e : ∀ a v, ((run C [] h).1.contains a && C.pass v) = true ↔ Known C h a ∧ Wanted C v := by
    intro a v
    rw [Bool.and_eq_true, List.contains_iff_mem, marked_iff, pass_iff]
  refine ⟨rfl, ?_, ?_, ?_, ?_⟩
  · intro th a v
    unfold calls
    rw [run_append]
    simp only [run, step, List.append_nil]
    by_cases k : Known C h a ∧ Wanted C v
    · rw [if_pos k, if_pos ((e a v).2 k)]
    · rw [if_neg k, if_neg (mt (e a v).1 k)]
  · intro th a v
    unfold calls
    rw [run_append]
    simp only [run, step, List.append_nil]
    by_cases k : Known C h a ∧ Wanted C v
    · rw [if_pos k, if_pos ((e a v).2 k)]
    · rw [if_neg k, if_neg (mt (e a v).1 k)]
  · intro a
    unfold calls
    rw [run_append]
    simp only [run, step]
    split <;> simp
  · intro a
    unfold calls
    rw [run_append]
    simp [run, step]

theorem Bal.append {w w' : Word} (h : Bal w) (h' : Bal w') : Bal (w ++ w') := by
  induction h with
  | nil => exact h'
  | pair h1 _ _ ih2 =>
    rw [List.append_assoc, List.cons_append]
    exact .pair h1 ih2

theorem Bal.filter {w : Word} (h : Bal w) (p : Nat × Val → Bool) : Bal (w.filter fun e => p e.2) := by
  induction h with
  | nil => exact .nil
  | @pair a v w w' _ _ ih1 ih2 =>
    rw [List.filter_append]
    by_cases hp : p (a, v) = true
    · simp only [List.filter_cons, hp, if_true]
      exact .pair ih1 ih2
    · simp only [List.filter_cons, hp]
      exact ih1.append ih2

open Classical in
/-- the calls of a thread are the regions of the thread, filtered, if the attributes are announced early -/
theorem seen_eq (C : BCfg) (h : List BOp) (hE : Early h) (th : Nat) :
    seen th (calls C h) = (regions th h).filter fun e => decide (Known C h e.2.1 ∧ Wanted C e.2.2) := by
  have key : ∀ h₁ h₂, h = h₁ ++ h₂ →
      seen th (calls C h₁) = (regions th h₁).filter fun e => decide (Known C h e.2.1 ∧ Wanted C e.2.2) := by
    intro h₁
    induction h₁ using List.reverseRecOn with
    | nil => intro h₂ _; rfl
    | append_singleton h₁ o ih =>
      intro h₂ e
      have ih' := ih (o :: h₂) (by rw [e]; simp)
      obtain ⟨-, f1, f2, f3, f4⟩ := C101_forwarded C h₁
      have known : ∀ a, (∃ t v, o = .begin t a v ∨ o = .end_ t a v) → (Known C h₁ a ↔ Known C h a) := by
        rintro a ⟨t, v, ho⟩
        constructor
        · rintro ⟨b, e1, e2, e3⟩
          refine ⟨b, e1, e2, ?_⟩
          rcases e3 with ⟨e3, e4⟩ | e3
          · exact .inl ⟨by rw [e]; simp [e3], e4⟩
          · exact .inr (by rw [e]; simp [e3])
        · rintro ⟨b, e1, e2, e3⟩
          refine ⟨b, e1, e2, ?_⟩
          have loc : ∀ q, (q = BOp.announce b ∨ q = .subscribe b) → q ∈ h → q ∈ h₁ := by
            intro q hq hm
            rw [e, List.append_assoc] at hm
            rcases List.mem_append.1 hm with hm | hm
            · exact hm
            · exfalso
              rcases List.mem_cons.1 hm with hm | hm
              · subst hm
                rcases hq with hq | hq <;> subst hq <;> rcases ho with ho | ho <;> cases ho
              · obtain ⟨x, y, hxy⟩ := List.append_of_mem hm
                have := hE (h₁ ++ o :: x) y q b (by rw [e, show h₂ = x ++ q :: y from hxy]; simp) hq t v
                rw [e1] at this
                rcases ho with ho | ho
                · exact this.1 (by simp [ho])
                · exact this.2 (by simp [ho])
          rcases e3 with ⟨e3, e4⟩ | e3
          · exact .inl ⟨loc _ (.inl rfl) e3, e4⟩
          · exact .inr (loc _ (.inr rfl) e3)
      have rapp : regions th (h₁ ++ [o]) = regions th h₁ ++ regions th [o] := by simp [regions]
      have sapp : ∀ c c', seen th (c ++ c') = seen th c ++ seen th c' := by intro c c'; simp [seen]
      rw [rapp, List.filter_append, ← ih']
      cases o with
      | announce a => rw [f3]; simp [regions]
      | subscribe a => rw [f4]; simp [regions]
      | begin t a v =>
        rw [f1, sapp]
        congr 1
        rw [known a ⟨t, v, .inl rfl⟩]
        by_cases ht : t = th <;> by_cases hk : Known C h a ∧ Wanted C v <;> simp [regions, seen, ht, hk]
      | end_ t a v =>
        rw [f2, sapp]
        congr 1
        rw [known a ⟨t, v, .inr rfl⟩]
        by_cases ht : t = th <;> by_cases hk : Known C h a ∧ Wanted C v <;> simp [regions, seen, ht, hk]
  exact key h [] (by simp)

/-- **C101** (nesting, if attributes are announced before their first use).  If a thread's regions are properly nested, the tool sees
properly nested regions of this thread, whatever is filtered: every begin with its end. -/
theorem C101_nested_partial (C : BCfg) (h : List BOp) (hE : Early h) (th : Nat) (hb : Bal (regions th h)) :
    Bal (seen th (calls C h)) := by
  classical
  rw [seen_eq C h hE th]
  exact hb.filter fun e => decide (Known C h e.1 ∧ Wanted C e.2)

/-- **C101** (RocTX, if the most recent region of an attribute always ends first).  Every region is started with its message, and
every end of a region of a non-nested attribute stops the range started for this region. -/
theorem C101_roctx_partial (nested : Nat → Bool) (cs : List Call) (hl : LastFirst nested (fun _ => []) cs) :
    meaning [] (rocRun nested ⟨fun _ => [], 0⟩ cs) = should nested cs := by
  have key : ∀ (cs : List Call) (s : RState) (st : Nat → List Val) (started : List (Nat × Val)),
      (∀ a, nested a = false → List.Forall₂ (fun i v => started.lookup i = some v) (s.ranges a) (st a)) →
      (∀ a, ∀ i ∈ s.ranges a, i < s.next) → LastFirst nested st cs →
      meaning started (rocRun nested s cs) = should nested cs := by
    intro cs
    induction cs with
    | nil => intros; rfl
    | cons c cs ih =>
      intro s st started h1 h2 h3
      cases c with
      | onBegin th a v =>
        simp only [LastFirst] at h3
        simp only [rocRun, rocStep]
        by_cases hn : nested a = true
        · rw [if_pos hn]
          simp only [List.cons_append, List.nil_append, meaning, should, List.map_cons]
          congr 1
          refine ih s _ started ?_ h2 h3
          intro b hb
          rw [if_neg (fun e => by rw [e, hn] at hb; cases hb)]
          exact h1 b hb
        · rw [if_neg hn]
          simp only [List.cons_append, List.nil_append, meaning, should, List.map_cons]
          congr 1
          have old : ∀ b, nested b = false → List.Forall₂ (fun i w => ((s.next, v) :: started).lookup i = some w) (s.ranges b) (st b) := by
            intro b hb
            have h1b := h1 b hb
            have h2b := h2 b
            revert h1b h2b
            generalize s.ranges b = is
            generalize st b = vs
            intro h1b h2b
            induction h1b with
            | nil => exact .nil
            | cons e _ ih' =>
              refine .cons ?_ (ih' (fun i hi => h2b i (List.mem_cons_of_mem _ hi)))
              rw [List.lookup_cons]
              have := h2b _ List.mem_cons_self
              rw [show (_ == s.next) = false by simp; omega]
              exact e
          refine ih _ _ _ ?_ ?_ h3
          · intro b hb
            simp only
            by_cases e : b = a
            · subst e
              simp only [if_true]
              exact .cons (by simp) (old b hb)
            · simp only [if_neg e]
              exact old b hb
          · intro b i hi
            simp only at hi ⊢
            split at hi
            · rcases List.mem_cons.1 hi with e | e
              · omega
              · have := h2 b i e; omega
            · have := h2 b i hi; omega
      | onEnd th a v =>
        simp only [LastFirst] at h3
        simp only [rocRun, rocStep]
        by_cases hn : nested a = true
        · rw [if_pos hn] at h3 ⊢
          simp only [List.cons_append, List.nil_append, meaning, should, List.map_cons, hn, if_true]
          congr 1
          exact ih s st started h1 h2 h3
        · rw [if_neg hn] at h3 ⊢
          obtain ⟨vs, e1, e2⟩ := h3
          have hf := h1 a (by simpa using hn)
          rw [e1] at hf
          cases hr : s.ranges a with
          | nil => rw [hr] at hf; cases hf
          | cons i is =>
            rw [hr] at hf
            cases hf with
            | cons hi hrest =>
              simp only [List.cons_append, List.nil_append, meaning, should, List.map_cons, hn]
              rw [hi]
              simp only [Bool.false_eq_true, if_false]
              congr 1
              refine ih _ _ started ?_ ?_ e2
              · intro b hb
                simp only
                by_cases e : b = a
                · subst e; simp only [if_true]; exact hrest
                · simp only [if_neg e]; exact h1 b hb
              · intro b j hj
                simp only at hj ⊢
                split at hj
                · rename_i e; subst e
                  exact h2 b j (by rw [hr]; exact List.mem_cons_of_mem _ hj)
                · exact h2 b j hj
  exact key cs _ _ [] (fun _ _ => .nil) (by simp) hl

/-- **C101** (VTune, if the contents of a string never changes).  The tasks have the names of the regions. -/
theorem C101_vtune_partial (l : List (Nat × List Byte)) (h : ∀ x ∈ l, ∀ y ∈ l, x.1 = y.1 → x.2 = y.2) :
    ittNames [] l = l.map Prod.snd := by
  have key : ∀ (l m : List (Nat × List Byte)), (∀ x ∈ m ++ l, ∀ y ∈ m ++ l, x.1 = y.1 → x.2 = y.2) →
      ittNames m l = l.map Prod.snd := by
    intro l
    induction l with
    | nil => intros; rfl
    | cons x l ih =>
      intro m hm
      obtain ⟨p, t⟩ := x
      simp only [ittNames]
      cases hl : m.lookup p with
      | none =>
        simp only [List.map_cons]
        congr 1
        refine ih _ ?_
        intro x hx y hy
        refine hm x ?_ y ?_
        · simp only [List.cons_append, List.mem_cons, List.mem_append] at hx ⊢; tauto
        · simp only [List.cons_append, List.mem_cons, List.mem_append] at hy ⊢; tauto
      | some n =>
        simp only [List.map_cons]
        have hmem : (p, n) ∈ m := by
          clear hm ih
          induction m with
          | nil => simp at hl
          | cons z m ihm =>
            obtain ⟨q, k⟩ := z
            rw [List.lookup_cons] at hl
            by_cases e : p = q
            · subst e; simp at hl; subst hl; exact List.mem_cons_self
            · rw [show (p == q) = false by simpa using e] at hl
              exact List.mem_cons_of_mem _ (ihm hl)
        have : n = t := hm (p, n) (by simp [hmem]) (p, t) (by simp) rfl
        subst this
        congr 1
        exact ih m (fun x hx y hy => hm x (by simp at hx ⊢; tauto) y (by simp at hy ⊢; tauto))
  exact key l [] (by simpa using h)

/-! ## non-vacuity and violations -/

namespace Demo

def val (n : Nat) : Val := ⟨.int, .inr (BitVec.ofNat 64 n)⟩
/-- a nested attribute and one that is not -/
def foo : BAttr := ⟨20, [], true, false, false⟩
def bar : BAttr := ⟨21, [], false, false, false⟩
def cfg : BCfg := ⟨[], ⟨none, none⟩, fun _ => []⟩

/-- two threads, one attribute forwarded and one not -/
def hist : List BOp := [.announce foo, .announce bar, .begin 1 20 (val 1), .begin 2 20 (val 2), .begin 1 21 (val 3), .end_ 1 21 (val 3),
  .end_ 1 20 (val 1), .end_ 2 20 (val 2)]

example : Early hist ∧ Bal (regions 1 hist) ∧ seen 1 (calls cfg hist) = [(true, 20, val 1), (false, 20, val 1)] := by
  refine ⟨?_, ?_, by decide +kernel⟩
  · intro h₁ h₂ o a e ho th v
    rcases h₁ with _ | ⟨o1, _ | ⟨o2, _ | ⟨o3, h₁⟩⟩⟩
    · simp
    · simp [hist] at e; rw [← e.1]; simp
    · simp [hist] at e
      rcases ho with ho | ho <;> rw [ho] at e <;> simp at e
    · exfalso
      simp only [hist, List.cons_append, List.cons.injEq] at e
      obtain ⟨-, -, -, e⟩ := e
      have : o ∈ ([.begin 2 20 (val 2), .begin 1 21 (val 3), .end_ 1 21 (val 3), .end_ 1 20 (val 1), .end_ 2 20 (val 2)] : List BOp) := by
        rw [e]; simp
      simp only [List.mem_cons, List.not_mem_nil, or_false] at this
      rcases ho with ho | ho <;> subst ho <;> simp at this
  · have : regions 1 hist = (true, 20, val 1) :: ((true, 21, val 3) :: [] ++ (false, 21, val 3) :: []) ++ (false, 20, val 1) :: [] := by
      decide +kernel
    rw [this]
    exact .pair (.pair .nil .nil) .nil

/-- overlapping regions of two attributes, nested regions of one -/
example : LastFirst (fun _ => false) (fun _ => []) [.onBegin 1 20 (val 1), .onBegin 1 20 (val 2), .onBegin 1 21 (val 3), .onEnd 1 20 (val 2),
    .onEnd 1 21 (val 3), .onEnd 1 20 (val 1)] := by
  refine ⟨_, rfl, _, rfl, _, rfl, trivial⟩

end Demo
open Demo

/-- **C101 is violated**: another thread uses a new attribute before the binding has marked it; the tool sees an end without begin. -/
theorem C101_violated_race : seen 2 (calls cfg [.begin 2 20 (val 1), .announce foo, .end_ 2 20 (val 1)]) = [(false, 20, val 1)]
    ∧ regions 2 [.begin 2 20 (val 1), .announce foo, .end_ 2 20 (val 1)] = [(true, 20, val 1), (false, 20, val 1)] := by
  decide +kernel

/-- **C101 is violated**: two threads with a region of the same non-nested attribute; the end of thread 1's region stops thread 2's
range. -/
theorem C101_violated_roctx_threads :
    rocRun (fun _ => false) ⟨fun _ => [], 0⟩ [.onBegin 1 21 (val 1), .onBegin 2 21 (val 2), .onEnd 1 21 (val 1), .onEnd 2 21 (val 2)]
      = [.start 0 (val 1), .start 1 (val 2), .stop 1, .stop 0] := by decide +kernel

/-- **C101 is violated**: a program that reuses the memory of a region name gets the old name in VTune. -/
theorem C101_violated_vtune : ittNames [] [(4096, [1]), (4096, [2])] = [[1], [1]] := by decide +kernel

end Verif.Bind
