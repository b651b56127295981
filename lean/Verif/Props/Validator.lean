import Verif.Serv.ValidatorSpec
import Verif.Props.Runtime
import Mathlib.Data.List.Nodup
import Mathlib.Data.List.Induction
/-!
# C58: the validator reports improper nesting exactly
-/
namespace Verif
open RT

namespace Serv.Valid

/-! ### proper nesting and stacks -/

/-- run a stack; `none`: an end that does not match -/
def runB {α : Type} [DecidableEq α] : List α → List (Br α) → Option (List α)
  | s, [] => some s
  | s, .b x :: w => runB (x :: s) w
  | [], .e _ :: _ => none
  | y :: s, .e x :: w => if x = y then runB s w else none

theorem runB_append {α : Type} [DecidableEq α] (s : List α) (v w : List (Br α)) : runB s (v ++ w) = (runB s v).bind fun t => runB t w := by
  induction v generalizing s with
  | nil => rfl
  | cons x v ih =>
    cases x with
    | b x => exact ih _
    | e x => cases s with
      | nil => rfl
      | cons y s =>
        simp only [List.cons_append, runB]
        split
        · exact ih _
        · rfl

theorem runB_dyck {α : Type} [DecidableEq α] {w : List (Br α)} (h : Dyck w) (s : List α) : runB s w = some s := by
  induction h generalizing s with
  | nil => rfl
  | wrap x _ ih => simp [runB, runB_append, ih]
  | append _ _ ih1 ih2 => simp [runB_append, ih1, ih2]

/-- the word closes the stack -/
inductive Closes {α : Type} : List α → List (Br α) → Prop
  | nil {w} : Dyck w → Closes [] w
  | cons {x s d w} : Dyck d → Closes s w → Closes (x :: s) (d ++ .e x :: w)

theorem Closes.prepend {α : Type} {s : List α} {w d : List (Br α)} (hd : Dyck d) (h : Closes s w) : Closes s (d ++ w) := by
  cases h with
  | nil hw => exact .nil (hd.append hw)
  | cons h1 h2 => rw [← List.append_assoc]; exact .cons (hd.append h1) h2

theorem closes_cons {α : Type} {x : α} {s : List α} {w : List (Br α)} (h : Closes (x :: s) w) : ∃ d w', Dyck d ∧ Closes s w' ∧ w = d ++ .e x :: w' := by
  cases h with
  | cons h1 h2 => exact ⟨_, _, h1, h2, rfl⟩

theorem closes_of_run {α : Type} [DecidableEq α] (w : List (Br α)) (s : List α) (h : runB s w = some []) : Closes s w := by
  induction w generalizing s with
  | nil => simp [runB] at h; subst h; exact .nil .nil
  | cons c w ih =>
    cases c with
    | b x =>
      obtain ⟨d, w', hd, hc, rfl⟩ := closes_cons (ih _ h)
      have := hc.prepend (Dyck.wrap x hd)
      simpa using this
    | e x =>
      cases s with
      | nil => cases h
      | cons y s =>
        simp only [runB] at h
        split at h
        · rename_i hxy
          subst hxy
          exact Closes.cons (d := []) .nil (ih _ h)
        · cases h

theorem dyck_iff {α : Type} [DecidableEq α] (w : List (Br α)) : Dyck w ↔ runB [] w = some [] := by
  constructor
  · intro h; exact runB_dyck h []
  · intro h
    cases closes_of_run w [] h with
    | nil h => exact h

/-! ### stacks -/

/-- distinct keys, no empty stacks -/
def StkWF (m : Stacks) : Prop := (m.map Prod.fst).Nodup ∧ ∀ x ∈ m, x.2 ≠ []

theorem get_nil (a : Nat) : Stacks.get [] a = [] := rfl

theorem get_cons (x : Nat × List Val) (m : Stacks) (a : Nat) : Stacks.get (x :: m) a = if x.1 = a then x.2 else Stacks.get m a := by
  unfold Stacks.get
  by_cases h : x.1 = a <;> simp [h]

theorem get_of_not_mem {m : Stacks} {a : Nat} (h : a ∉ m.map Prod.fst) : m.get a = [] := by
  induction m with
  | nil => rfl
  | cons x m ih =>
    simp only [List.map_cons, List.mem_cons, not_or] at h
    rw [get_cons, if_neg (Ne.symm h.1), ih h.2]

theorem get_push (m : Stacks) (a b : Nat) (v : Val) : (m.push a v).get b = if b = a then m.get a ++ [v] else m.get b := by
  induction m with
  | nil =>
    simp only [Stacks.push, get_cons, get_nil]
    by_cases h : b = a
    · simp [h]
    · simp [h, Ne.symm h]
  | cons x m ih =>
    simp only [Stacks.push]
    by_cases hx : x.1 = a
    · rw [if_pos hx, get_cons, get_cons, get_cons]
      simp only
      by_cases h : b = a
      · simp [h, hx]
      · rw [if_neg h, if_neg (Ne.symm h), if_neg (by rw [hx]; exact Ne.symm h)]
    · rw [if_neg hx, get_cons, get_cons, get_cons, ih]
      by_cases h : b = a
      · subst h; simp [hx]
      · simp [h]

theorem get_drop {m : Stacks} (hm : StkWF m) (a b : Nat) : (m.drop a).get b = if b = a then (m.get a).dropLast else m.get b := by
  induction m with
  | nil => simp [Stacks.drop, get_nil]
  | cons x m ih =>
    have hm' : StkWF m := ⟨(List.nodup_cons.1 hm.1).2, fun y hy => hm.2 y (List.mem_cons_of_mem _ hy)⟩
    have hx0 : x.1 ∉ m.map Prod.fst := (List.nodup_cons.1 hm.1).1
    simp only [Stacks.drop]
    by_cases hx : x.1 = a
    · rw [if_pos hx, get_cons, get_cons, if_pos hx]
      by_cases h : b = a
      · subst h
        rw [if_pos rfl]
        split
        · rename_i h0; rw [h0]; exact get_of_not_mem (hx ▸ hx0)
        · rw [get_cons, if_pos rfl]
      · rw [if_neg h, if_neg (show ¬ x.1 = b by rw [hx]; exact Ne.symm h)]
        split
        · rfl
        · rw [get_cons, if_neg (Ne.symm h)]
    · rw [if_neg hx, get_cons, get_cons, get_cons, ih hm']
      by_cases h : b = a
      · subst h; simp [hx]
      · simp [h]

theorem push_keys (m : Stacks) (a : Nat) (v : Val) : ∀ k, k ∈ (m.push a v).map Prod.fst ↔ k = a ∨ k ∈ m.map Prod.fst := by
  induction m with
  | nil => intro k; simp [Stacks.push]
  | cons x m ih =>
    intro k
    simp only [Stacks.push]
    split
    · rename_i h; simp [h]
    · simp only [List.map_cons, List.mem_cons, ih k]; tauto

theorem push_wf {m : Stacks} (hm : StkWF m) (a : Nat) (v : Val) : StkWF (m.push a v) := by
  induction m with
  | nil => exact ⟨by simp [Stacks.push], by simp [Stacks.push]⟩
  | cons x m ih =>
    have hm' : StkWF m := ⟨(List.nodup_cons.1 hm.1).2, fun y hy => hm.2 y (List.mem_cons_of_mem _ hy)⟩
    have hx0 : x.1 ∉ m.map Prod.fst := (List.nodup_cons.1 hm.1).1
    simp only [Stacks.push]
    split
    · rename_i hx
      refine ⟨?_, ?_⟩
      · simp only [List.map_cons, List.nodup_cons]; exact ⟨hx ▸ hx0, hm'.1⟩
      · intro y hy
        rcases List.mem_cons.1 hy with rfl | hy
        · simp
        · exact hm'.2 y hy
    · rename_i hx
      have := ih hm'
      refine ⟨?_, ?_⟩
      · simp only [List.map_cons, List.nodup_cons, push_keys]
        exact ⟨by rintro (h | h); exact hx h; exact hx0 h, this.1⟩
      · intro y hy
        rcases List.mem_cons.1 hy with rfl | hy
        · exact hm.2 _ (List.mem_cons_self ..)
        · exact this.2 y hy

theorem drop_keys (m : Stacks) (a : Nat) : ∀ k, k ∈ (m.drop a).map Prod.fst → k ∈ m.map Prod.fst := by
  induction m with
  | nil => intro k; simp [Stacks.drop]
  | cons x m ih =>
    intro k
    simp only [Stacks.drop]
    split
    · rename_i hx
      split
      · intro h; simp only [List.map_cons, List.mem_cons]; exact .inr h
      · simp [hx]
    · simp only [List.map_cons, List.mem_cons]
      rintro (h | h)
      · exact .inl h
      · exact .inr (ih k h)

theorem drop_wf {m : Stacks} (hm : StkWF m) (a : Nat) : StkWF (m.drop a) := by
  induction m with
  | nil => exact hm
  | cons x m ih =>
    have hm' : StkWF m := ⟨(List.nodup_cons.1 hm.1).2, fun y hy => hm.2 y (List.mem_cons_of_mem _ hy)⟩
    have hx0 : x.1 ∉ m.map Prod.fst := (List.nodup_cons.1 hm.1).1
    simp only [Stacks.drop]
    split
    · rename_i hx
      split
      · exact hm'
      · rename_i hd
        refine ⟨?_, ?_⟩
        · simp only [List.map_cons, List.nodup_cons]; exact ⟨hx ▸ hx0, hm'.1⟩
        · intro y hy
          rcases List.mem_cons.1 hy with rfl | hy
          · exact hd
          · exact hm'.2 y hy
    · have := ih hm'
      refine ⟨?_, ?_⟩
      · simp only [List.map_cons, List.nodup_cons]
        exact ⟨fun h => hx0 (drop_keys _ _ _ h), this.1⟩
      · intro y hy
        rcases List.mem_cons.1 hy with rfl | hy
        · exact hm.2 _ (List.mem_cons_self ..)
        · exact this.2 y hy

theorem stk_empty {m : Stacks} (hm : StkWF m) (h : ∀ a, m.get a = []) : m = [] := by
  cases m with
  | nil => rfl
  | cons x m =>
    have := h x.1
    rw [get_cons, if_pos rfl] at this
    exact absurd this (hm.2 x (List.mem_cons_self ..))

/-! ### one validator -/

/-- what one validator does on an event -/
def SV.step (I : VInfo) (s : SV) (e : Event) : SV :=
  match e.kind with
  | .preBegin => (s.checkBegin I e.attr e.val).1
  | .preEnd => (s.checkEnd I e.attr e.val).1
  | _ => s

/-- no error so far, and the stacks are `S` (nested attributes) and `f` (others), innermost first -/
structure Rel (I : VInfo) (s : SV) (S : List (Nat × Val)) (f : Nat → List (Nat × Val)) : Prop where
  ok : s.err = false
  wf : StkWF s.stacks
  nst : s.nst = (S.map Prod.fst).reverse
  ne : ∀ x ∈ S, I.nested x.1 = true ∧ x.2.ty ≠ .inv
  fe : ∀ a, ∀ x ∈ f a, x.1 = a ∧ x.2.ty ≠ .inv
  stk : ∀ a, s.stacks.get a = (((if I.nested a then S.filter fun x => decide (x.1 = a) else f a)).map Prod.snd).reverse

theorem rel_new (I : VInfo) : Rel I SV.new [] fun _ => [] :=
  ⟨rfl, ⟨by simp [SV.new], by simp [SV.new]⟩, rfl, by simp, by simp, by intro a; simp [SV.new, get_nil]⟩

theorem step_err (I : VInfo) {s : SV} (h : s.err = true) (e : Event) : s.step I e = s := by
  unfold SV.step SV.checkBegin SV.checkEnd
  cases e.kind <;> simp [h]

theorem run_err (I : VInfo) {s : SV} (h : s.err = true) (es : List Event) : es.foldl (SV.step I) s = s := by
  induction es with
  | nil => rfl
  | cons e es ih => rw [List.foldl_cons, step_err I h, ih]

theorem brackets_cons (p : Event → Bool) (e : Event) (es : List Event) : brackets p (e :: es) =
    (if p e then match e.kind with
      | .preBegin => [.b (e.attr, e.val)]
      | .preEnd => [.e (e.attr, e.val)]
      | _ => []
    else []) ++ brackets p es := by
  unfold brackets
  rw [List.filterMap_cons]
  by_cases h : p e = true
  · simp only [h, if_true]
    cases e.kind <;> rfl
  · simp [h]

/-- after the events no error was found and nothing is open -/
def SV.Fine (s : SV) : Prop := s.err = false ∧ s.stacks = []

theorem sv_run (I : VInfo) (es : List Event) (hv : ∀ e ∈ es, e.val.ty ≠ .inv) (s : SV) (S : List (Nat × Val)) (f : Nat → List (Nat × Val))
    (h : Rel I s S f) : (es.foldl (SV.step I) s).Fine ↔
      (runB S (brackets (fun e => I.nested e.attr) es) = some [] ∧
       ∀ a, I.nested a = false → runB (f a) (brackets (fun e => decide (e.attr = a)) es) = some []) := by
  induction es generalizing s S f with
  | nil =>
    simp only [List.foldl_nil, brackets, List.filterMap_nil, runB, Option.some.injEq]
    constructor
    · rintro ⟨-, h0⟩
      have hg : ∀ a, (((if I.nested a then S.filter fun x => decide (x.1 = a) else f a)).map Prod.snd).reverse = [] := by
        intro a; rw [← h.stk a, h0]; rfl
      constructor
      · cases S with
        | nil => rfl
        | cons x S =>
          have := hg x.1
          rw [if_pos (h.ne x (List.mem_cons_self ..)).1] at this
          simp at this
      · intro a ha
        have := hg a
        rw [ha] at this
        simpa using this
    · rintro ⟨rfl, hf⟩
      refine ⟨h.ok, stk_empty h.wf ?_⟩
      intro a
      rw [h.stk a]
      cases ha : I.nested a with
      | true => simp
      | false => simp [hf a ha]
  | cons e es ih =>
    have hv' := fun x hx => hv x (List.mem_cons_of_mem e hx)
    have he := hv e (List.mem_cons_self ..)
    rw [List.foldl_cons, brackets_cons]
    have dead : (s.step I e).err = true → ¬(es.foldl (SV.step I) (s.step I e)).Fine := by
      intro hd hf
      rw [run_err I hd] at hf
      rw [hf.1] at hd; cases hd
    cases hk : e.kind with
    | postBegin =>
      have hs : s.step I e = s := by unfold SV.step; simp [hk]
      simp only [brackets_cons, hk, ite_self, List.nil_append, hs]
      exact ih hv' s S f h
    | preSet =>
      have hs : s.step I e = s := by unfold SV.step; simp [hk]
      simp only [brackets_cons, hk, ite_self, List.nil_append, hs]
      exact ih hv' s S f h
    | preBegin =>
      cases hn : I.nested e.attr with
      | true =>
        have hr : Rel I (s.step I e) ((e.attr, e.val) :: S) f := by
          have hs : s.step I e = { s with stacks := s.stacks.push e.attr e.val, nst := s.nst ++ [e.attr] } := by
            unfold SV.step SV.checkBegin; simp [hk, h.ok, hn]
          rw [hs]
          refine ⟨h.ok, push_wf h.wf _ _, by simp [h.nst], ?_, h.fe, ?_⟩
          · intro x hx
            rcases List.mem_cons.1 hx with rfl | hx
            · exact ⟨hn, he⟩
            · exact h.ne x hx
          · intro a
            simp only
            rw [get_push]
            by_cases ha : a = e.attr
            · subst ha
              rw [if_pos rfl, h.stk, hn]
              simp
            · rw [if_neg ha, h.stk a]
              cases I.nested a with
              | true => simp [Ne.symm ha]
              | false => rfl
        rw [ih hv' _ _ _ hr]
        simp only [if_true, List.singleton_append, runB]
        refine and_congr_right fun _ => forall_congr' fun a => imp_congr_right fun ha => ?_
        have : ¬ e.attr = a := fun hx => by rw [hx, ha] at hn; cases hn
        rw [brackets_cons]
        simp [this]
      | false =>
        have hr : Rel I (s.step I e) S (fun a => if a = e.attr then (e.attr, e.val) :: f e.attr else f a) := by
          have hs : s.step I e = { s with stacks := s.stacks.push e.attr e.val } := by
            unfold SV.step SV.checkBegin; simp [hk, h.ok, hn]
          rw [hs]
          refine ⟨h.ok, push_wf h.wf _ _, h.nst, h.ne, ?_, ?_⟩
          · intro a x hx
            split at hx
            · rename_i ha
              rcases List.mem_cons.1 hx with rfl | hx
              · exact ⟨ha.symm, he⟩
              · exact ha ▸ h.fe _ x hx
            · exact h.fe a x hx
          · intro a
            simp only
            rw [get_push]
            by_cases ha : a = e.attr
            · subst ha
              rw [if_pos rfl, h.stk, hn]
              simp
            · rw [if_neg ha, h.stk a]
              simp [ha]
        rw [ih hv' _ _ _ hr]
        simp only [Bool.false_eq_true, if_false, List.nil_append]
        refine and_congr_right fun _ => forall_congr' fun a => imp_congr_right fun ha => ?_
        rw [brackets_cons]
        by_cases hx : e.attr = a
        · subst hx; simp [hk, runB]
        · simp [hx, Ne.symm hx]
    | preEnd =>
      cases hn : I.nested e.attr with
      | true =>
        have hstk := h.stk e.attr
        rw [hn, if_pos rfl] at hstk
        have hother : ∀ a, I.nested a = false → brackets (fun e => decide (e.attr = a)) (e :: es) = brackets (fun e => decide (e.attr = a)) es := by
          intro a ha
          have : ¬ e.attr = a := fun hx => by rw [hx, ha] at hn; cases hn
          rw [brackets_cons]
          simp [this]
        simp only [if_true, List.singleton_append]
        cases S with
        | nil =>
          have hs : (s.step I e).err = true := by
            unfold SV.step SV.checkEnd SV.pop
            simp only [hk, h.ok, hstk]
            simp [Val.empty]
          constructor
          · intro hf; exact absurd hf (dead hs)
          · rintro ⟨h1, -⟩; cases h1
        | cons x S =>
          by_cases hx : x = (e.attr, e.val)
          · subst hx
            have hr : Rel I (s.step I e) S f := by
              have hs : s.step I e = { s with stacks := s.stacks.drop e.attr, nst := s.nst.dropLast } := by
                unfold SV.step SV.checkEnd SV.pop SV.popN
                have hl : (s.stacks.get e.attr).getLast? = some e.val := by rw [hstk]; simp
                have hl2 : s.nst.getLast? = some e.attr := by rw [h.nst]; simp
                simp [hk, h.ok, hl, he, hn, hl2]
              rw [hs]
              refine ⟨h.ok, drop_wf h.wf _, by simp [h.nst], fun y hy => h.ne y (List.mem_cons_of_mem _ hy), h.fe, ?_⟩
              intro a
              simp only
              rw [get_drop h.wf]
              by_cases ha : a = e.attr
              · subst ha
                rw [if_pos rfl, hstk, hn]
                simp
              · rw [if_neg ha, h.stk a]
                cases I.nested a with
                | true => simp [Ne.symm ha]
                | false => rfl
            rw [ih hv' _ _ _ hr]
            simp only [runB, if_true]
            refine and_congr_right fun _ => forall_congr' fun a => imp_congr_right fun ha => ?_
            rw [hother a ha]
          · have hs : (s.step I e).err = true := by
              unfold SV.step SV.checkEnd SV.pop SV.popN
              simp only [hk, h.ok]
              cases hl : (s.stacks.get e.attr).getLast? with
              | none => simp [Val.empty]
              | some v =>
                have hl2 : s.nst.getLast? = some x.1 := by rw [h.nst]; simp
                simp only [hn, hl2]
                by_cases hvt : v.ty = .inv
                · simp [hvt]
                · by_cases hxa : x.1 = e.attr
                  · rw [hstk] at hl
                    simp only [List.filter_cons, hxa, decide_true, if_true, List.map_cons, List.reverse_cons, List.getLast?_append,
                      List.getLast?_singleton, Option.some_or, Option.some.injEq] at hl
                    have hvx : ¬ e.val = v := by
                      intro hev
                      exact hx (Prod.ext hxa (hl.trans hev.symm))
                    simp [hvt, hxa, hvx]
                  · simp [hvt, hxa]
            constructor
            · intro hf; exact absurd hf (dead hs)
            · rintro ⟨h1, -⟩
              simp only [runB] at h1
              rw [if_neg (Ne.symm hx)] at h1; cases h1
      | false =>
        have hstk := h.stk e.attr
        rw [hn] at hstk
        simp only [Bool.false_eq_true, if_false, List.nil_append] at hstk ⊢
        have hbr : brackets (fun x => decide (x.attr = e.attr)) (e :: es) = .e (e.attr, e.val) :: brackets (fun x => decide (x.attr = e.attr)) es := by
          rw [brackets_cons]; simp [hk]
        cases hf : f e.attr with
        | nil =>
          rw [hf] at hstk
          have hs : (s.step I e).err = true := by
            unfold SV.step SV.checkEnd SV.pop
            simp only [hk, h.ok, hstk]
            simp [Val.empty]
          constructor
          · intro hfine; exact absurd hfine (dead hs)
          · rintro ⟨-, h1⟩
            have := h1 e.attr hn
            rw [hbr, hf] at this; cases this
        | cons x r =>
          rw [hf] at hstk
          have hx1 := h.fe e.attr x (by rw [hf]; exact List.mem_cons_self ..)
          have hl : (s.stacks.get e.attr).getLast? = some x.2 := by rw [hstk]; simp
          by_cases hx : e.val = x.2
          · have hr : Rel I (s.step I e) S (fun a => if a = e.attr then r else f a) := by
              have hs : s.step I e = { s with stacks := s.stacks.drop e.attr } := by
                unfold SV.step SV.checkEnd SV.pop
                simp [hk, h.ok, hl, hx1.2, hn, hx]
              rw [hs]
              refine ⟨h.ok, drop_wf h.wf _, h.nst, h.ne, ?_, ?_⟩
              · intro a y hy
                split at hy
                · rename_i ha; subst ha; exact h.fe _ y (by rw [hf]; exact List.mem_cons_of_mem _ hy)
                · exact h.fe a y hy
              · intro a
                simp only
                rw [get_drop h.wf]
                by_cases ha : a = e.attr
                · subst ha
                  rw [if_pos rfl, hstk, hn]
                  simp
                · rw [if_neg ha, h.stk a]
                  simp [ha]
            rw [ih hv' _ _ _ hr]
            refine and_congr_right fun _ => forall_congr' fun a => imp_congr_right fun ha => ?_
            by_cases hxa : a = e.attr
            · subst hxa
              rw [hbr, hf]
              simp only [if_true, runB]
              rw [if_pos (Prod.ext hx1.1.symm hx)]
            · rw [brackets_cons]
              simp [hxa, Ne.symm hxa]
          · have hs : (s.step I e).err = true := by
              unfold SV.step SV.checkEnd SV.pop
              simp [hk, h.ok, hl, hx1.2, hn, hx]
            constructor
            · intro hfine; exact absurd hfine (dead hs)
            · rintro ⟨-, h1⟩
              have := h1 e.attr hn
              rw [hbr, hf] at this
              simp only [runB] at this
              rw [if_neg (fun h => hx (congrArg Prod.snd h))] at this
              cases this

/-! ### the service -/

theorem step_wf (I : VInfo) {s : SV} (h : StkWF s.stacks) (e : Event) : StkWF (s.step I e).stacks := by
  unfold SV.step
  cases e.kind with
  | preBegin =>
    simp only [SV.checkBegin]
    split
    · exact h
    · cases I.nested e.attr <;> exact push_wf h _ _
  | preEnd =>
    have hp : StkWF (s.pop e.attr).1.stacks := by
      unfold SV.pop
      split
      · exact h
      · exact drop_wf h _
    have hq : StkWF (s.pop e.attr).1.popN.1.stacks := by
      unfold SV.popN
      split <;> exact hp
    simp only [SV.checkEnd]
    split
    · exact h
    · split
      · exact hp
      · cases I.nested e.attr
        · simp only [Bool.false_eq_true, if_false, Bool.false_and]; split <;> exact hp
        · simp only [if_true]; split
          · exact hq
          · split <;> exact hq
  | _ => exact h

theorem begin_flag (I : VInfo) (s : SV) (a : Nat) (v : Val) : (s.checkBegin I a v).2 = (s.checkBegin I a v).1.err := by
  unfold SV.checkBegin
  cases h : s.err with
  | true => simp [h]
  | false => cases I.nested a <;> simp [h]

theorem pop_err (s : SV) (a : Nat) : (s.pop a).1.err = s.err := by unfold SV.pop; split <;> rfl

theorem popN_err (s : SV) : s.popN.1.err = s.err := by unfold SV.popN; split <;> rfl

theorem end_flag (I : VInfo) (s : SV) (a : Nat) (v : Val) : (s.checkEnd I a v).2 = (s.checkEnd I a v).1.err := by
  unfold SV.checkEnd
  cases h : s.err with
  | true => simp [h]
  | false =>
    by_cases h1 : (s.pop a).2.ty = .inv
    · simp [h1]
    · by_cases h2 : v = (s.pop a).2
      · cases hn : I.nested a with
        | false => simp [h1, h2, pop_err, h]
        | true =>
          by_cases h3 : (s.pop a).1.popN.2 = some a
          · simp [h1, h2, h3, popN_err, pop_err, h]
          · simp [h1, h3]
      · cases hn : I.nested a with
        | false => simp [h1, h2]
        | true =>
          by_cases h3 : (s.pop a).1.popN.2 = some a
          · simp [h1, h2, h3]
          · simp [h1, h3]

theorem mem_store (s : VState) (th : Nat) (v : SV) : (th, v) ∈ (s.store th v).threads := by
  unfold VState.store
  split
  · rename_i h
    obtain ⟨x, hx, rfl⟩ := List.mem_map.1 h
    exact List.mem_map.2 ⟨x, hx, by simp⟩
  · simp

theorem acquire_store (s : VState) (th t : Nat) (v : SV) : (s.store th v).acquire t = if t = th then v else s.acquire t := by
  unfold VState.store VState.acquire
  split
  · rename_i h
    generalize s.threads = l at h
    simp only
    induction l with
    | nil => simp at h
    | cons x l ih =>
      rw [List.map_cons, List.find?_cons, List.find?_cons]
      by_cases hx : x.1 = th
      · simp only [hx, if_true]
        by_cases ht : t = th
        · simp [ht]
        · simp only [ht, Ne.symm ht, decide_false, if_false]
          have : l.map (fun x => if x.1 = th then (th, v) else x) = l.map (fun x => if x.1 = th then (th, v) else x) := rfl
          by_cases hl : th ∈ l.map Prod.fst
          · simpa [ht] using ih hl
          · have : l.map (fun x => if x.1 = th then (th, v) else x) = l := by
              conv_rhs => rw [← List.map_id l]
              refine List.map_congr_left fun y hy => ?_
              rw [if_neg (fun hyt => hl (List.mem_map.2 ⟨y, hy, hyt⟩))]; rfl
            rw [this]
      · simp only [hx, if_false]
        have hl : th ∈ l.map Prod.fst := by
          rcases List.mem_cons.1 h with h | h
          · exact absurd h.symm hx
          · exact h
        by_cases hxt : x.1 = t
        · have : ¬ t = th := fun h => hx (hxt.trans h)
          simp [hxt, this]
        · simp only [hxt, decide_false]; exact ih hl
  · rename_i h
    simp only [List.find?_append]
    by_cases ht : t = th
    · subst ht
      have : s.threads.find? (fun x => decide (x.1 = t)) = none := by
        rw [List.find?_eq_none]
        intro x hx
        simp only [decide_eq_true_eq]
        intro hxt
        exact h (List.mem_map.2 ⟨x, hx, hxt⟩)
      simp [this]
    · simp [ht, Ne.symm ht]

theorem store_keys (s : VState) (th : Nat) (v : SV) (h : (s.threads.map Prod.fst).Nodup) : ((s.store th v).threads.map Prod.fst).Nodup := by
  unfold VState.store
  split
  · simp only [List.map_map]
    have : (Prod.fst ∘ fun x : Nat × SV => if x.1 = th then (th, v) else x) = Prod.fst := by
      funext x
      simp only [Function.comp]
      split
      · rename_i h; exact h.symm
      · rfl
    rw [this]; exact h
  · rename_i hn
    simp only [List.map_append, List.map_cons, List.map_nil]
    rw [List.nodup_append]
    refine ⟨h, by simp, ?_⟩
    intro a ha b hb
    simp at hb
    rintro rfl
    exact hn (hb ▸ ha)

theorem acquire_mem {s : VState} (h : (s.threads.map Prod.fst).Nodup) {x : Nat × SV} (hx : x ∈ s.threads) : s.acquire x.1 = x.2 := by
  unfold VState.acquire
  generalize s.threads = l at h hx
  induction l with
  | nil => cases hx
  | cons y l ih =>
    rw [List.map_cons, List.nodup_cons] at h
    rcases List.mem_cons.1 hx with rfl | hx
    · simp
    · have : ¬ y.1 = x.1 := fun hy => h.1 (hy ▸ List.mem_map.2 ⟨x, hx, rfl⟩)
      rw [List.find?_cons]
      simp only [this, decide_false]
      exact ih h.2 hx

/-- what holds of the service's state -/
structure VInv (s : VState) : Prop where
  keys : (s.threads.map Prod.fst).Nodup
  pwf : StkWF s.proc.stacks
  twf : ∀ t, StkWF (s.acquire t).stacks
  err : 0 < s.errors → s.proc.err = true ∨ ∃ t, (s.acquire t).err = true

theorem event_proc (I : VInfo) (s : VState) (e : Event) : (s.event I e).proc = if I.process e.attr then s.proc.step I e else s.proc := by
  have hs : ∀ th v, (s.store th v).proc = s.proc := by intro th v; unfold VState.store; split <;> rfl
  unfold VState.event SV.step
  cases e.kind <;> cases I.process e.attr <;> simp [hs]

theorem event_thread (I : VInfo) (s : VState) (e : Event) (t : Nat) :
    (s.event I e).acquire t = if !I.process e.attr && decide (e.th = t) then (s.acquire t).step I e else s.acquire t := by
  have ha : ∀ (x : VState) n t, VState.acquire { x with errors := n } t = x.acquire t := fun _ _ _ => rfl
  have hb : ∀ (x : VState) p n t, VState.acquire { x with proc := p, errors := n } t = x.acquire t := fun _ _ _ _ => rfl
  unfold VState.event SV.step
  cases e.kind <;> cases I.process e.attr <;> simp only [Bool.false_eq_true, if_false, if_true, ha, hb, acquire_store, Bool.not_false, Bool.not_true,
    Bool.true_and, Bool.false_and, decide_eq_true_eq, ite_self]
  all_goals
    by_cases h : t = e.th
    · subst h; simp
    · simp [h, Ne.symm h]

theorem event_inv (I : VInfo) {s : VState} (h : VInv s) (e : Event) : VInv (s.event I e) := by
  have hst : ∀ {x : SV}, x.err = true → (x.step I e).err = true := by
    intro x hx; rw [step_err I hx]; exact hx
  refine ⟨?_, ?_, ?_, ?_⟩
  · unfold VState.event
    cases e.kind <;> cases I.process e.attr <;> simp only [Bool.false_eq_true, if_false, if_true]
    all_goals first | exact h.keys | exact store_keys _ _ _ h.keys
  · rw [event_proc]
    split
    · exact step_wf I h.pwf e
    · exact h.pwf
  · intro t
    rw [event_thread]
    split
    · exact step_wf I (h.twf t) e
    · exact h.twf t
  · intro hpos
    by_cases h0 : 0 < s.errors
    · rcases h.err h0 with hp | ⟨t, ht⟩
      · left; rw [event_proc]; split
        · exact hst hp
        · exact hp
      · right; refine ⟨t, ?_⟩; rw [event_thread]; split
        · exact hst ht
        · exact ht
    · have h0 : s.errors = 0 := by omega
      have hs : ∀ th v, (s.store th v).errors = s.errors := by intro th v; unfold VState.store; split <;> rfl
      have key : (if I.process e.attr then s.proc.step I e else (s.acquire e.th).step I e).err = true := by
        unfold VState.event at hpos
        unfold SV.step
        cases hk : e.kind with
        | preBegin =>
          rw [hk] at hpos
          cases hp : I.process e.attr
          · simp only [hp, Bool.false_eq_true, if_false, hs, h0, begin_flag] at hpos ⊢
            split at hpos
            · assumption
            · omega
          · simp only [hp, if_true, h0, begin_flag] at hpos ⊢
            split at hpos
            · assumption
            · omega
        | preEnd =>
          rw [hk] at hpos
          cases hp : I.process e.attr
          · simp only [hp, Bool.false_eq_true, if_false, hs, h0, end_flag] at hpos ⊢
            split at hpos
            · assumption
            · omega
          · simp only [hp, if_true, h0, end_flag] at hpos ⊢
            split at hpos
            · assumption
            · omega
        | postBegin => rw [hk] at hpos; simp only [h0] at hpos; omega
        | preSet => rw [hk] at hpos; simp only [h0] at hpos; omega
      cases hp : I.process e.attr
      · rw [hp] at key
        right; refine ⟨e.th, ?_⟩; rw [event_thread]; simpa [hp] using key
      · rw [hp] at key
        left; rw [event_proc]; simpa [hp] using key

theorem new_inv : VInv VState.new := by
  refine ⟨by simp [VState.new], ⟨by simp [VState.new, SV.new], by simp [VState.new, SV.new]⟩, ?_, by simp [VState.new]⟩
  intro t
  exact ⟨by simp [VState.acquire, VState.new, SV.new], by simp [VState.acquire, VState.new, SV.new]⟩

theorem run_inv (I : VInfo) (es : List Event) : VInv (es.foldl (VState.event I) VState.new) ∧
    (es.foldl (VState.event I) VState.new).proc = (es.filter fun e => I.process e.attr).foldl (SV.step I) SV.new ∧
    ∀ t, (es.foldl (VState.event I) VState.new).acquire t =
      (es.filter fun e => !I.process e.attr && decide (e.th = t)).foldl (SV.step I) SV.new := by
  induction es using List.reverseRecOn with
  | nil => exact ⟨new_inv, rfl, fun _ => rfl⟩
  | append_singleton es e ih =>
    obtain ⟨h1, h2, h3⟩ := ih
    rw [List.foldl_concat]
    refine ⟨event_inv I h1 e, ?_, ?_⟩
    · rw [event_proc, List.filter_append, List.foldl_append, h2]
      cases h : I.process e.attr <;> simp [List.filter_cons, h]
    · intro t
      rw [event_thread, List.filter_append, List.foldl_append, h3 t]
      by_cases h : (!I.process e.attr && decide (e.th = t)) = true
      · rw [if_pos h]; simp only [List.filter_cons, h, if_true, List.filter_nil, List.foldl_cons, List.foldl_nil]
      · rw [if_neg h]; simp only [List.filter_cons, h, if_false, List.filter_nil, List.foldl_nil]; rfl

theorem checkFinal_fine {s : SV} (h : StkWF s.stacks) : s.checkFinal = false ↔ s.Fine := by
  unfold SV.checkFinal SV.Fine
  rw [Bool.or_eq_false_iff]
  refine and_congr_right fun _ => ?_
  constructor
  · intro h0
    cases hs : s.stacks with
    | nil => rfl
    | cons x m =>
      rw [hs] at h h0
      have := h.2 x (List.mem_cons_self ..)
      simp [this] at h0
  · intro h0; rw [h0]; rfl

theorem final_fine {s : VState} (h : VInv s) : s.final = false ↔ s.proc.Fine ∧ ∀ t, (s.acquire t).Fine := by
  unfold VState.final
  simp only [decide_eq_false_iff_not, Nat.not_lt, Nat.le_zero, Nat.add_eq_zero_iff, List.length_eq_zero_iff]
  constructor
  · rintro ⟨h1, h2⟩
    have hp : s.proc.checkFinal = false := by
      cases hc : s.proc.checkFinal with
      | false => rfl
      | true => rw [hc] at h1; simp at h1
    refine ⟨(checkFinal_fine h.pwf).1 hp, fun t => ?_⟩
    by_cases ht : t ∈ s.threads.map Prod.fst
    · obtain ⟨x, hx, rfl⟩ := List.mem_map.1 ht
      refine (checkFinal_fine (h.twf x.1)).1 ?_
      rw [acquire_mem h.keys hx]
      rw [List.filter_eq_nil_iff] at h2
      simpa using h2 x hx
    · have : s.acquire t = SV.new := by
        unfold VState.acquire
        rw [List.find?_eq_none.2 ?_]; rfl
        intro x hx
        simp only [decide_eq_true_eq]
        intro hxt
        exact ht (List.mem_map.2 ⟨x, hx, hxt⟩)
      rw [this]; exact ⟨rfl, rfl⟩
  · rintro ⟨h1, h2⟩
    have he : s.errors = 0 := by
      by_contra hne
      rcases h.err (by omega) with hp | ⟨t, ht⟩
      · rw [h1.1] at hp; cases hp
      · rw [(h2 t).1] at ht; cases ht
    refine ⟨by rw [(checkFinal_fine h.pwf).2 h1]; simpa using he, ?_⟩
    rw [List.filter_eq_nil_iff]
    intro x hx
    rw [← acquire_mem h.keys hx, (checkFinal_fine (h.twf x.1)).2 (h2 x.1)]
    simp

theorem brackets_filter (p q : Event → Bool) (es : List Event) : brackets p (es.filter q) = brackets (fun e => q e && p e) es := by
  induction es with
  | nil => rfl
  | cons e es ih =>
    rw [brackets_cons, List.filter_cons]
    cases hq : q e with
    | true => rw [if_pos rfl, brackets_cons, ih]; simp
    | false => simp [ih]

theorem fine_proper (I : VInfo) (q : Event → Bool) (es : List Event) (hv : ∀ e ∈ es, e.val.ty ≠ .inv) :
    ((es.filter q).foldl (SV.step I) SV.new).Fine ↔
      Dyck (brackets (fun e => q e && I.nested e.attr) es) ∧
      ∀ a, I.nested a = false → Dyck (brackets (fun e => q e && decide (e.attr = a)) es) := by
  rw [sv_run I _ (fun e he => hv e (List.mem_of_mem_filter he)) _ _ _ (rel_new I)]
  simp only [brackets_filter, dyck_iff]

end Serv.Valid

open Serv.Valid in
/-- **C58** (partial).  For every sequence of region events of any number of threads, with values that are not empty: the validator reports
nesting errors at the end exactly if the regions of the process, or those of some thread, are not properly nested — an end that does not match
the innermost open region, or a region that is never closed.  Missing: ends for which the runtime delivers no event
(`C58_violation_unmatched_end`), regions changed by `set` (`C58_violation_set`), empty values (`C58_violation_empty`). -/
theorem C58_reports_partial (I : VInfo) (es : List Event) (hv : ∀ e ∈ es, e.val.ty ≠ .inv) :
    report I es = true ↔ ¬(Proper I es none ∧ ∀ t, Proper I es (some t)) := by
  obtain ⟨h1, h2, h3⟩ := run_inv I es
  have h := final_fine h1
  rw [h2] at h
  simp only [h3] at h
  rw [fine_proper I _ es hv] at h
  simp only [fine_proper I _ es hv] at h
  rw [← Bool.not_eq_false]
  exact not_congr h

/-- attribute 12 is nested, 13 is not, 15 has process scope and is nested -/
def exVInfo : Serv.Valid.VInfo := ⟨fun a => a == 12 || a == 14 || a == 15, fun a => a == 15⟩

open Serv.Valid in
/-- non-vacuity: interleaved threads, overlapping regions of a non-nested attribute, all proper; and an improper one -/
example :
    let es : List Event := [⟨.preBegin, 7, 3, 12, .ofInt 1⟩, ⟨.preBegin, 7, 5, 12, .ofInt 2⟩, ⟨.preBegin, 7, 3, 13, .ofInt 9⟩, ⟨.preSet, 7, 3, 12, .ofInt 6⟩,
      ⟨.preBegin, 7, 3, 15, .ofInt 4⟩, ⟨.preEnd, 7, 3, 12, .ofInt 1⟩, ⟨.preEnd, 7, 5, 15, .ofInt 4⟩, ⟨.preEnd, 7, 3, 13, .ofInt 9⟩, ⟨.preEnd, 7, 5, 12, .ofInt 2⟩]
    (∀ e ∈ es, e.val.ty ≠ .inv) ∧ report exVInfo es = false ∧
    report exVInfo (es ++ [⟨.preBegin, 7, 3, 12, .ofInt 1⟩, ⟨.preBegin, 7, 3, 14, .ofInt 1⟩, ⟨.preEnd, 7, 3, 12, .ofInt 1⟩, ⟨.preEnd, 7, 3, 14, .ofInt 1⟩]) = true := by
  decide +kernel

open Serv.Valid in
/-- **C58** is violated: an `end` without a `begin` on a fresh runtime, followed by anything proper, is not reported — the runtime delivers
no event for it (`Caliper.cpp:985-1005`). -/
theorem C58_violation_unmatched_end :
    report exVInfo (run exS [.endR 3 exA, .begin 5 exA (.ofInt 1), .endR 5 exA]).log = false ∧
    report exVInfo (run exS [.endR 3 exA, .begin 3 exA (.ofInt 1)]).log = false := by
  decide +kernel

open Serv.Valid in
/-- **C58** is violated: matched `begin` and `end` are reported if `set` replaced the value of the region in between. -/
theorem C58_violation_set :
    report exVInfo (run exS [.begin 3 exA (.ofInt 1), .set 3 exA (.ofInt 2), .endR 3 exA]).log = true ∧
    report exVInfo (run exS [.begin 3 exA (.ofInt 1), .endR 3 exA]).log = false := by
  decide +kernel

open Serv.Valid in
/-- **C58** is violated: matched `begin` and `end` of a region with an empty value are reported. -/
theorem C58_violation_empty :
    report exVInfo (run exS [.begin 3 exA Val.empty, .endR 3 exA]).log = true := by
  decide +kernel

end Verif
