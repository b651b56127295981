import Verif.ConfMgr.SpecLemmas
/-!
# Specs that are errors
-/
namespace Verif.ConfMgr
open Verif Verif.Cali Verif.Parse
open Verif.Query.CalQL (Spaces dropWhile_spaces readCharL_spaces)

/-- a spec that is an error: it has no name, its configuration is not a dictionary, or a query in the old notation has no level -/
inductive Faulty (l : List (Str × J)) : Prop
  | noName : lastVal l (str "name") = none → Faulty l
  | config {x} : lastVal l (str "config") = some (.list x) → Faulty l
  | noLevel {qs : List (List (Str × J))} {q} : lastVal l (str "query") = some (.list (qs.map .dict)) → q ∈ qs → lastVal q (str "level") = none → Faulty l

theorem spaces_end {d : Str} (h : Spaces d) : readChar ⟨d, true⟩ = (eofc, ⟨[], false⟩) := by
  unfold readChar
  simp only [if_true]
  have := readCharL_spaces h []
  rw [List.append_nil] at this
  rw [this]
  rfl

theorem recVal_end {sep : Str} (hs : ∀ x ∈ sep, x ∈ str "{}[],:\"\\") {j : J} {ws t d : Str} (hw : Spaces ws) (h : JText j t) (hd : Spaces d) :
    ∃ v s, recVal sep ⟨ws ++ t ++ d, true⟩ = some (v, s) ∧ readChar s = (eofc, ⟨[], false⟩) := by
  cases d with
  | cons c d =>
    have hc := hd c (by simp)
    obtain ⟨v, h1, _⟩ := recVal_ok hs hw h (r := c :: d) ⟨c, d, rfl, by rintro rfl; revert hc; decide, by rintro rfl; revert hc; decide, by simp [hc]⟩
    exact ⟨v, _, h1, spaces_end hd⟩
  | nil =>
    have hbr : ∀ {o c : Byte} {b : Str}, Bracket o c → Nest o c b → t = o :: (b ++ [c]) →
        recVal sep ⟨ws ++ t ++ [], true⟩ = some (t, ⟨[], true⟩) := by
      intro o c b hB hb ht
      have e : ws ++ t ++ [] = ws ++ o :: (b ++ c :: []) := by rw [ht]; simp
      have hx : readChar ⟨ws ++ t ++ [], true⟩ = (o, ⟨b ++ c :: [], true⟩) := by
        rw [e]
        refine readChar_ws hw ?_
        rcases hB with ⟨rfl, rfl⟩ | ⟨rfl, rfl⟩ <;> decide
      unfold recVal
      simp only [hx]
      have := nestedVal_ok hB (r := []) hb
      rcases hB with ⟨rfl, rfl⟩ | ⟨rfl, rfl⟩
      · rw [if_pos rfl, this, ht]
      · rw [if_neg (by decide), if_pos rfl, this, ht]
    cases h with
    | @word w _ hw' =>
      obtain ⟨c, cs, rfl, hc, h1, h2⟩ := jword_head hw'
      have hx : readChar ⟨ws ++ (c :: cs) ++ [], true⟩ = (c, ⟨cs ++ [], true⟩) := by
        rw [List.append_assoc, List.cons_append]; exact readChar_ws hw hc
      have := readWordL_jword hw' hs []
      refine ⟨w, ⟨[], false⟩, ?_, by rfl⟩
      unfold recVal
      simp only [hx, h1, h2, if_false, IS.unget, if_true]
      unfold readWord
      simp only [if_true]
      rw [List.dropWhile_cons_of_neg (by simp [hc])]
      simp only
      rw [← List.cons_append, this, readWordL.eq_def]
      simp
    | dict hb => exact ⟨_, _, hbr (.inl ⟨rfl, rfl⟩) (dbody_nest (.inl ⟨rfl, rfl⟩) hb) rfl, rfl⟩
    | list0 hb => exact ⟨_, _, hbr (.inr ⟨rfl, rfl⟩) (Bracket.spaces (.inr ⟨rfl, rfl⟩) hb) rfl, rfl⟩
    | list hb => exact ⟨_, _, hbr (.inr ⟨rfl, rfl⟩) (lbody_nest (.inr ⟨rfl, rfl⟩) hb) rfl, rfl⟩

theorem recListL_open {l : List J} {b : Str} (h : LBody l b) (n : Nat) (hn : l.length ≤ n) : (recListL n ⟨b, true⟩).2.2 = eofc := by
  induction n generalizing l b with
  | zero => cases h <;> simp at hn
  | succ n ih =>
    cases h with
    | @one j a t d ha hj hne hd =>
      obtain ⟨v, s, hv, hx⟩ := recVal_end (sep := [ch ',', ch ']']) (by decide) ha hj hd
      unfold recListL
      rw [hv]
      simp only [hx]
      rw [if_neg (by decide)]
    | @cons j l a t d r' ha hj hne hd hl =>
      obtain ⟨v, hv, hk⟩ := recVal_ok (sep := [ch ',', ch ']']) (by decide) ha hj
        (Stop.spaces hd (stop_of (c := ch ',') (by decide) (by decide) (by decide) r'))
      have hx : readChar ⟨d ++ ch ',' :: r', true⟩ = (ch ',', ⟨r', true⟩) := readChar_ws hd (by decide)
      unfold recListL
      rw [hv]
      simp only [hx]
      rw [if_pos (by decide)]
      exact ih hl (by simpa using hn)

/-- a list without its closing bracket -/
theorem recList_open {l : List J} {ws b : Str} (hw : Spaces ws) (h : LBody l b) : (recList (ws ++ ch '[' :: b)).2 = false := by
  have hx : readChar ⟨ws ++ ch '[' :: b, true⟩ = (ch '[', ⟨b, true⟩) := readChar_ws hw (by decide)
  have h1 := recListL_open h ((ws ++ ch '[' :: b).length + 1) (by have := lbody_length h; simp; omega)
  unfold recList
  simp only [hx, decide_true, if_true, h1]
  simp
  exact fun _ => by decide

theorem recDictL_open {l : List (Str × J)} {b : Str} (h : DBody l b) (n : Nat) (hn : l.length ≤ n) : (recDictL n ⟨b, true⟩).2.2 = eofc := by
  induction n generalizing l b with
  | zero => cases h <;> simp at hn
  | succ n ih =>
    cases h with
    | @one k j a tk b c t d ha hk0 hk hb hc hj hd =>
      have h1 : readWord [ch ':'] ⟨a ++ tk ++ (b ++ ch ':' :: (c ++ t ++ d)), true⟩ = (k, ⟨b ++ ch ':' :: (c ++ t ++ d), true⟩) :=
        readWord_jword hk (by decide) ha (Stop.spaces hb (stop_of (by decide) (by decide) (by decide) _))
      have h2 : readChar ⟨b ++ ch ':' :: (c ++ t ++ d), true⟩ = (ch ':', ⟨c ++ t ++ d, true⟩) := readChar_ws hb (by decide)
      obtain ⟨v, s, hv, hx⟩ := recVal_end (sep := [ch ',', ch '}']) (by decide) hc hj hd
      unfold recDictL
      simp only [h1, h2]
      rw [if_neg (by simp), hv]
      simp only [hx]
      rw [if_neg (by decide)]
    | @cons k j l a tk b c t d r' ha hk0 hk hb hc hj hd hl =>
      have h1 : readWord [ch ':'] ⟨a ++ tk ++ (b ++ ch ':' :: (c ++ t ++ (d ++ ch ',' :: r'))), true⟩ =
          (k, ⟨b ++ ch ':' :: (c ++ t ++ (d ++ ch ',' :: r')), true⟩) :=
        readWord_jword hk (by decide) ha (Stop.spaces hb (stop_of (by decide) (by decide) (by decide) _))
      have h2 : readChar ⟨b ++ ch ':' :: (c ++ t ++ (d ++ ch ',' :: r')), true⟩ =
          (ch ':', ⟨c ++ t ++ (d ++ ch ',' :: r'), true⟩) := readChar_ws hb (by decide)
      obtain ⟨v, hv, hkv⟩ := recVal_ok (sep := [ch ',', ch '}']) (by decide) hc hj
        (Stop.spaces hd (stop_of (c := ch ',') (by decide) (by decide) (by decide) r'))
      have h3 : readChar ⟨d ++ ch ',' :: r', true⟩ = (ch ',', ⟨r', true⟩) := readChar_ws hd (by decide)
      unfold recDictL
      simp only [h1, h2]
      rw [if_neg (by simp), hv]
      simp only [h3]
      rw [if_pos (by decide)]
      exact ih hl (by simpa using hn)

/-- a dictionary without its closing bracket -/
theorem recDict_open {l : List (Str × J)} {ws b : Str} (hw : Spaces ws) (h : DBody l b) : (recDict (ws ++ ch '{' :: b)).2 = false := by
  have hx : readChar ⟨ws ++ ch '{' :: b, true⟩ = (ch '{', ⟨b, true⟩) := readChar_ws hw (by decide)
  have h1 := recDictL_open h ((ws ++ ch '{' :: b).length + 1) (by have := dbody_length h; simp; omega)
  unfold recDict
  simp only [hx, if_true, h1]
  simp
  exact fun _ => by decide

/-- the first character is not `{` -/
theorem recDict_not {c : Byte} {ws r : Str} (hw : Spaces ws) (hc : isSpace c = false) (h : c ≠ ch '{') : recDict (ws ++ c :: r) = ([], false) := by
  unfold recDict
  rw [readChar_ws hw hc]
  simp only
  rw [if_neg h]

theorem parseQueryArgs_err (vs : List Str) (m : List (Str × Str)) : (parseQueryArgs vs m true).2 = true := by
  unfold parseQueryArgs
  induction vs generalizing m with
  | nil => rfl
  | cons v vs ih =>
    rw [List.foldl_cons]
    simp only
    split <;> exact ih _

theorem noLevel_err {qs : List (List (Str × J))} {vs : List Str} (hk : List.Forall₂ Kept (qs.map J.dict) vs) {q : List (Str × J)} (hq : q ∈ qs)
    (hl : lastVal q (str "level") = none) (m : List (Str × Str)) (e : Bool) : (parseQueryArgs vs m e).2 = true := by
  induction qs generalizing vs m e with
  | nil => cases hq
  | cons p qs ih =>
    cases hk with
    | @cons _ v _ vs k1 k2 =>
      unfold parseQueryArgs
      rw [List.foldl_cons]
      simp only
      rcases List.mem_cons.1 hq with rfl | hq
      · obtain ⟨us, hr, hf⟩ := recDict_kept k1
        have : (setAll [] us).lookup (str "level") = none := by
          rcases kept_get hf (str "level") with ⟨_, h⟩ | ⟨j, w, h, _⟩
          · exact h
          · rw [hl] at h; cases h
        simp only [hr, this]
        exact parseQueryArgs_err vs m
      · exact ih k2 hq _ _

/-- a faulty spec is an error and adds nothing -/
theorem parseSpec_faulty {l : List (Str × J)} {v : Str} (hk : Kept (.dict l) v) (h : Faulty l) (S : Specs) :
    parseSpec S (recDict v).1 = { S with err := true } := by
  obtain ⟨vs, hr, hf⟩ := recDict_kept hk
  have hq : ∀ (ok : Bool), (queryEntry (setAll [] vs) ok).2.1 = true → ok = true := by
    intro ok h
    unfold queryEntry at h
    cases ok with
    | true => rfl
    | false => split at h <;> simp at h
  cases h with
  | noName h =>
    have : (setAll [] vs).lookup (str "name") = none := by
      rcases kept_get hf (str "name") with ⟨_, h'⟩ | ⟨j, w, h', _⟩
      · exact h'
      · rw [h] at h'; cases h'
    unfold parseSpec
    simp only [hr, this]
  | @config x h =>
    have hd : ∀ ok, (dictEntry (setAll [] vs) ok "config").2 = false := by
      intro ok
      rcases kept_get hf (str "config") with ⟨h', _⟩ | ⟨j, w, h', h2, h3⟩
      · rw [h] at h'; cases h'
      · rw [h] at h'; cases h'
        unfold dictEntry
        rw [h2]
        simp only [kept_list_not_dict h3]
        cases ok <;> rfl
    unfold parseSpec
    simp only [hr]
    generalize hs : listEntry _ _ "inherit" = ih
    have hd' := hd ih.2
    generalize dictEntry _ _ _ = cf at hd' ⊢
    have : (queryEntry (setAll [] vs) cf.2).2.1 = false := by
      cases e : (queryEntry (setAll [] vs) cf.2).2.1 with
      | false => rfl
      | true => have := hq _ e; rw [hd'] at this; cases this
    split
    · rfl
    · rw [if_pos (by simp [this])]
  | @noLevel qs q h hmem hlev =>
    unfold parseSpec
    simp only [hr]
    generalize dictEntry _ _ _ = cf
    have : (!(queryEntry (setAll [] vs) cf.2).2.1 || (queryEntry (setAll [] vs) cf.2).2.2) = true := by
      cases hc : cf.2 with
      | false =>
        cases e : (queryEntry (setAll [] vs) false).2.1 with
        | false => simp
        | true => have := hq _ e; cases this
      | true =>
        rcases kept_get hf (str "query") with ⟨h', _⟩ | ⟨j, w, h', h2, h3⟩
        · rw [h] at h'; cases h'
        · rw [h] at h'; cases h'
          obtain ⟨us, h4, h5⟩ := recList_kept h3
          unfold queryEntry
          rw [h2]
          unfold parseQuery
          simp only [if_true, kept_list_not_dict h3, Bool.false_eq_true, if_false, h4, noLevel_err h5 hmem hlev]
          simp
    split
    · rfl
    · rw [if_pos this]

theorem addList_err (S : Specs) (hS : S.err = true) (vs : List Str) : S.addList vs = S := by
  unfold Specs.addList
  induction vs with
  | nil => rfl
  | cons v vs ih => rw [List.foldl_cons]; simp only [hS, if_true]; exact ih

theorem addList_append (S : Specs) (a b : List Str) : S.addList (a ++ b) = (S.addList a).addList b := by
  unfold Specs.addList; exact List.foldl_append

end Verif.ConfMgr
