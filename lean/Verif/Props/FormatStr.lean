import Verif.Query.FormatStrSpec
import Verif.Props.Expand
/-!
# C72: format strings
-/
namespace Verif
open Verif.Cali Verif.Query Verif.Query.FmtStr Verif.Util
open Verif.Query.Json (Str)
open Verif.Query.Expand (joined)

namespace Query.FmtStr

variable {F : DblFmt}

theorem split_none {sep : Byte} {p : Str} (h : sep ∉ p) : ∀ acc, split sep acc p = if (acc ++ p).isEmpty then [] else [acc ++ p] := by
  induction p with
  | nil => intro acc; simp [split]
  | cons c p ih =>
    rw [List.mem_cons, not_or] at h
    intro acc
    rw [split, if_neg (Ne.symm h.1), ih h.2]
    simp

theorem split_sep {sep : Byte} {p t : Str} (h : sep ∉ p) : ∀ acc, split sep acc (p ++ sep :: t) = (acc ++ p) :: split sep [] t := by
  induction p with
  | nil => intro acc; simp [split]
  | cons c p ih =>
    rw [List.mem_cons, not_or] at h
    intro acc
    rw [List.cons_append, split, if_neg (Ne.symm h.1), ih h.2]
    simp

theorem tok_none {ts : List Byte} {p : Str} (h : ∀ c ∈ p, c ∉ ts) : ∀ acc, tokenize ts acc p = if (acc ++ p).isEmpty then [] else [acc ++ p] := by
  induction p with
  | nil => intro acc; simp [tokenize]
  | cons c p ih =>
    intro acc
    rw [tokenize, if_neg (h c (by simp)), ih (fun x hx => h x (List.mem_cons_of_mem _ hx))]
    simp

theorem tok_sep {ts : List Byte} {p t : Str} {s : Byte} (hs : s ∈ ts) (h : ∀ c ∈ p, c ∉ ts) : ∀ acc,
    tokenize ts acc (p ++ s :: t) = (if (acc ++ p).isEmpty then [] else [acc ++ p]) ++ [s] :: tokenize ts [] t := by
  induction p with
  | nil => intro acc; rw [List.nil_append, tokenize, if_pos hs]; simp
  | cons c p ih =>
    intro acc
    rw [List.cons_append, tokenize, if_neg (h c (by simp)), ih (fun x hx => h x (List.mem_cons_of_mem _ hx))]
    simp

theorem digitsVal_stop (c : Byte) (cs : Str) (hc : ∀ d, digitVal c = some d → ¬d < 10) (ds : Str) (h : AllDig 10 ds) : ∀ (v k : Nat),
    digitsVal 10 (ds ++ c :: cs) v k = digitsVal 10 ds v k := by
  induction ds with
  | nil =>
    intro v k
    rw [List.nil_append, digitsVal, digitsVal]
    cases hd : digitVal c with
    | none => rfl
    | some d => simp only [if_neg (hc d hd)]
  | cons x ds ih =>
    intro v k
    obtain ⟨d, hd, rfl⟩ := h x (by simp)
    obtain ⟨f0, _⟩ := digitChar_facts d (by omega)
    simp only [List.cons_append, digitsVal, f0, if_pos hd]
    exact ih (fun y hy => h y (List.mem_cons_of_mem _ hy)) _ _

theorem stoi_width (w : Nat) (al : Option Align) (hw : w ≤ 80) : stoi (widthText w al) = some (w : Int) := by
  have hd := digitsVal_digits 10 (by omega) (by omega) w
  have hpos := List.length_pos_iff.2 (digits_ne_nil 10 (by omega) w)
  obtain ⟨d, ds, hd10, e⟩ := digits_cons 10 (by omega) w
  have f := digitChar_facts d (by omega)
  have hv : digitsVal 10 (widthText w al) 0 0 = (w, (digitsLoop 10 w []).length) := by
    unfold widthText
    cases al with
    | none => rw [List.append_nil, hd]
    | some a =>
      rw [← hd]
      cases a with
      | left => exact digitsVal_stop (ch 'l') [] (by decide) _ (digits_all 10 (by omega) w) 0 0
      | right => exact digitsVal_stop (ch 'r') [] (by decide) _ (digits_all 10 (by omega) w) 0 0
      | center => exact digitsVal_stop (ch 'c') [] (by decide) _ (digits_all 10 (by omega) w) 0 0
  have h1 : (widthText w al).dropWhile isSpace = widthText w al := by
    unfold widthText
    rw [e, List.cons_append, List.dropWhile_cons_of_neg]; rw [f.2.2.2.2.2.2.2.2.2.2.2]; simp
  have h2 : sign (widthText w al) = (false, widthText w al) := by
    unfold widthText
    rw [e, List.cons_append]
    simp only [sign]; rw [if_neg f.2.2.2.2.1, if_neg f.2.2.2.2.2.1]
  unfold stoi
  rw [h1, h2]
  simp only [hv]
  rw [if_neg (by omega)]
  simp only [Bool.false_eq_true, if_false]
  rw [if_neg (by omega)]

theorem width_chars (w : Nat) (al : Option Align) : ∀ c ∈ widthText w al, c ≠ ch '%' ∧ c ∉ [ch '[', ch ']'] := by
  intro c hc
  unfold widthText at hc
  rcases List.mem_append.1 hc with hc | hc
  · obtain ⟨d, hd, rfl⟩ := digits_all 10 (by omega) w c hc
    interval_cases d <;> decide
  · cases al with
    | none => cases hc
    | some a =>
      cases a
      · simp only [Align.letter, str, List.mem_map] at hc
        obtain ⟨x, hx, rfl⟩ := hc
        have : x = 'l' := by simpa using hx
        subst this; decide
      · simp only [Align.letter, str, List.mem_map] at hc
        obtain ⟨x, hx, rfl⟩ := hc
        have : x = 'r' := by simpa using hx
        subst this; decide
      · simp only [Align.letter, str, List.mem_map] at hc
        obtain ⟨x, hx, rfl⟩ := hc
        have : x = 'c' := by simpa using hx
        subst this; decide

theorem width_ne_nil (w : Nat) (al : Option Align) : widthText w al ≠ [] := by
  unfold widthText
  intro h
  exact digits_ne_nil 10 (by omega) w (List.append_eq_nil_iff.1 h).1

theorem parseField_place (p : Place) (hn : p.name ≠ [] ∧ ch '%' ∉ p.name ∧ ch '[' ∉ p.name ∧ ch ']' ∉ p.name) (hw : p.w ≤ 80) :
    parseField (fieldText p) = some ((p.w : Int), p.name) := by
  obtain ⟨h0, _, h2, h3⟩ := hn
  have hname : ∀ c ∈ p.name, c ∉ [ch '[', ch ']'] := by
    intro c hc
    simp only [List.mem_cons, List.not_mem_nil, or_false, not_or]
    exact ⟨by rintro rfl; exact h2 hc, by rintro rfl; exact h3 hc⟩
  have hnb : p.name ≠ [ch '['] := by intro h; rw [h] at h2; simp at h2
  have hne : p.name ≠ [ch ']'] := by intro h; rw [h] at h3; simp at h3
  have hwb : ∀ w al, widthText w al ≠ [ch '['] ∧ widthText w al ≠ [ch ']'] := by
    intro w al
    have := width_chars w al
    constructor
    · intro h; rw [h] at this; exact (this (ch '[') (by simp)).2 (by simp)
    · intro h; rw [h] at this; exact (this (ch ']') (by simp)).2 (by simp)
  have hbe : [ch '['] ≠ [ch ']'] := by decide
  unfold Place.w at *
  rcases hp : p.width with _ | ⟨w, al⟩ | ⟨w, al⟩
  · have ht : tokenize [ch '[', ch ']'] [] (fieldText p) = [p.name] := by
      unfold fieldText; rw [hp]; simp only
      rw [tok_none hname]; simp [h0]
    unfold parseField
    rw [ht]
    simp [lastPos, List.findIdx?_cons, hnb, hne]
  · rw [hp] at hw
    simp only at hw
    have ht : tokenize [ch '[', ch ']'] [] (fieldText p) = [[ch '['], widthText w al, [ch ']'], p.name] := by
      unfold fieldText; rw [hp]; simp only
      have := tok_sep (ts := [ch '[', ch ']']) (s := ch '[') (p := []) (t := widthText w al ++ ch ']' :: p.name) (by simp) (by simp) []
      rw [List.nil_append] at this
      rw [this, tok_sep (by simp) (fun c hc => (width_chars w al c hc).2), tok_none hname]
      simp [h0, width_ne_nil]
    unfold parseField
    rw [ht]
    have hb := hwb w al
    simp [lastPos, List.findIdx?_cons, hnb, hne, hb, hbe, hbe.symm, stoi_width w al hw]
  · rw [hp] at hw
    simp only at hw
    have ht : tokenize [ch '[', ch ']'] [] (fieldText p) = [p.name, [ch '['], widthText w al, [ch ']']] := by
      unfold fieldText; rw [hp]; simp only
      rw [tok_sep (by simp) hname, tok_sep (by simp) (fun c hc => (width_chars w al c hc).2)]
      simp [h0, width_ne_nil, tokenize]
    unfold parseField
    rw [ht]
    have hb := hwb w al
    simp [lastPos, List.findIdx?_cons, hnb, hne, hb, hbe, hbe.symm, stoi_width w al hw]

/-- the parsed field of a place -/
def Place.fld (p : Place) : Fld := ⟨p.before, p.name, none, p.w, false⟩

theorem parse_fmt (f : Fmt) (h : f.Ok) : parseFmt f.text = some (f.places.map Place.fld ++ if f.tail = [] then [] else [⟨f.tail, [], none, 0, false⟩]) := by
  obtain ⟨ps, tail⟩ := f
  obtain ⟨hb, ht, hn, hw⟩ := h
  unfold parseFmt Fmt.text
  simp only at *
  induction ps with
  | nil =>
    rw [List.flatMap_nil, List.nil_append, split_none ht]
    by_cases h0 : tail = []
    · simp [h0, parsePieces]
    · simp [h0, parsePieces]
  | cons p ps ih =>
    have hf : ch '%' ∉ fieldText p := by
      have hnm := (hn p (by simp)).2.1
      unfold fieldText
      rcases p.width with _ | ⟨w, al⟩ | ⟨w, al⟩
      · exact hnm
      · have := fun hc => (width_chars w al (ch '%') hc).1 rfl
        simp only [List.mem_cons, List.mem_append, not_or]
        exact ⟨by decide, this, by decide, hnm⟩
      · have := fun hc => (width_chars w al (ch '%') hc).1 rfl
        simp only [List.mem_cons, List.mem_append, not_or]
        exact ⟨hnm, by decide, this, by decide, by simp⟩
    have e : (p :: ps).flatMap Place.text ++ tail = p.before ++ ch '%' :: (fieldText p ++ ch '%' :: (ps.flatMap Place.text ++ tail)) := by
      rw [List.flatMap_cons]
      unfold Place.text
      simp
    rw [e, split_sep (hb p (by simp)), split_sep hf]
    simp only [List.nil_append, parsePieces]
    rw [parseField_place p (hn p (by simp)) (hw p (by simp)),
      ih (fun q hq => hb q (List.mem_cons_of_mem _ hq)) (fun q hq => hn q (List.mem_cons_of_mem _ hq)) (fun q hq => hw q (List.mem_cons_of_mem _ hq))]
    simp [Place.fld]

/-! ## values -/

theorem joined_snoc (sep : Byte) (x : Str) : ∀ (l : List Str), l ≠ [] → joined sep (l ++ [x]) = joined sep l ++ sep :: x
  | [], h => absurd rfl h
  | [y], _ => by simp [joined]
  | y :: z :: l, _ => by
    have := joined_snoc sep x (z :: l) (by simp)
    simp only [List.cons_append] at this ⊢
    rw [joined, joined, this]; simp

theorem joined_ne_nil (sep : Byte) : ∀ {l : List Str}, l ≠ [] → (∀ x ∈ l, x ≠ []) → joined sep l ≠ []
  | [], h, _ => absurd rfl h
  | [y], _, h => by simpa [joined] using h
  | y :: z :: l, _, h => by simp [joined]

theorem pathText_eq (a : Nat) (path : List (Nat × Val)) (hne : ∀ v ∈ entryVals a (.ref path), v.toStr F ≠ []) :
    pathText F a path = joined (ch '/') ((entryVals a (.ref path)).map (·.toStr F)) := by
  unfold pathText
  have hgen : ∀ (path : List (Nat × Val)) (done : List Str), (∀ x ∈ done, x ≠ []) → (∀ n ∈ path, n.1 = a → n.2.toStr F ≠ []) →
      path.foldl (fun s n => if n.1 = a then n.2.toStr F ++ (if s.isEmpty then [] else str "/") ++ s else s) (joined (ch '/') done) =
        joined (ch '/') (((path.filter fun x => x.1 = a).map fun x => x.2.toStr F).reverse ++ done) := by
    intro path
    induction path with
    | nil => intro done _ _; simp
    | cons n path ih =>
      intro done hd hp
      rw [List.foldl_cons]
      by_cases hn : n.1 = a
      · have hn' := hp n (by simp) hn
        rw [if_pos hn]
        have e : n.2.toStr F ++ (if (joined (ch '/') done).isEmpty then [] else str "/") ++ joined (ch '/') done = joined (ch '/') (n.2.toStr F :: done) := by
          cases done with
          | nil => simp [joined]
          | cons d ds =>
            have : joined (ch '/') (d :: ds) ≠ [] := joined_ne_nil _ (by simp) hd
            simp [this, joined, str]
        rw [e, ih (n.2.toStr F :: done) (by intro x hx; rcases List.mem_cons.1 hx with rfl | hx; exacts [hn', hd x hx])
          (fun m hm => hp m (List.mem_cons_of_mem _ hm))]
        simp [List.filter_cons, hn]
      · rw [if_neg hn, ih done hd (fun m hm => hp m (List.mem_cons_of_mem _ hm))]
        simp [List.filter_cons, hn]
  have := hgen path [] (by simp) (by
    intro n hn hna
    apply hne
    simp only [entryVals, List.mem_reverse, List.mem_map, List.mem_filter, decide_eq_true_eq]
    exact ⟨n, ⟨hn, hna⟩, rfl⟩)
  rw [joined] at this
  rw [this]
  simp [entryVals, Function.comp_def]

theorem entText_eq (a : Nat) (e : QEnt) (hne : ∀ v ∈ entryVals a e, v.toStr F ≠ []) :
    entText F a e = joined (ch '/') ((entryVals a e).map (·.toStr F)) := by
  cases e with
  | ref path => exact pathText_eq a path hne
  | imm b v =>
    by_cases h : b = a <;> simp [entText, entryVals, h, joined]

theorem entText_isEmpty (a : Nat) (e : QEnt) (hne : ∀ v ∈ entryVals a e, v.toStr F ≠ []) :
    (entText F a e).isEmpty = !decide (entryVals a e ≠ []) := by
  rw [entText_eq a e hne]
  by_cases h : entryVals a e = []
  · simp [h, joined]
  · have := joined_ne_nil (ch '/') (l := (entryVals a e).map (·.toStr F)) (by simpa using h)
      (by intro x hx; obtain ⟨v, hv, rfl⟩ := List.mem_map.1 hx; exact hne v hv)
    simp [h, this]

theorem userText_eq (a : Nat) (r : List QEnt) (hne : NoEmptyValues F r) : userText F a r = valueText F r a := by
  unfold valueText
  induction r with
  | nil => rfl
  | cons e es ih =>
    have h1 := hne e (by simp) a
    rw [userText, List.find?_cons, ih (fun x hx => hne x (List.mem_cons_of_mem _ hx))]
    simp only [entText_isEmpty a e h1]
    by_cases h : entryVals a e = []
    · simp [h]
    · simp [h, entText_eq a e h1]

theorem hasAttr_eq (a : Nat) (e : QEnt) : hasAttr a e = decide (entryVals a e ≠ []) := by
  cases e with
  | imm b v => unfold hasAttr entryVals; split <;> simp_all
  | ref path =>
    unfold hasAttr entryVals
    rw [Bool.eq_iff_iff]
    simp

theorem spaces_eq (w : Nat) (h : w ≤ 80) : spaces w = List.replicate w (ch ' ') := by
  unfold spaces
  split
  · rw [List.drop_replicate]; congr 1; omega
  · have : w = 0 := by omega
    subst this; rfl

theorem userPrint_eq (f : Fmt) (hf : f.Ok) (hal : ∀ p ∈ f.places, p.align = none ∨ p.align = some .left) (D : FDB) (r : List QEnt)
    (h0 : D.lookup [] = none) (hne : NoEmptyValues F r) :
    userPrint F (f.places.map Place.fld ++ if f.tail = [] then [] else [⟨f.tail, [], none, 0, false⟩]) D r =
      f.fill F (fun _ => false) D r ++ str "\n" := by
  unfold userPrint Fmt.fill
  rw [List.flatMap_append]
  congr 2
  · rw [List.flatMap_map]
    apply List.flatMap_congr
    intro p hp
    have hw := hf.width p hp
    have hr : p.side (fun _ => false) D = false := by
      unfold Place.side
      rcases hal p hp with h | h
      · rw [h]; simp only; split <;> rfl
      · rw [h]; rfl
    rw [hr]
    have hs : userValue F D r p.fld.name = nameText F D r p.name := by
      unfold nameText Place.fld userValue
      simp only
      cases D.lookup p.name with
      | none => rfl
      | some a => exact userText_eq a r hne
    simp only [hs]
    have hu : usize (p.fld.width) = p.w := by unfold usize Place.fld; simp only; omega
    rw [hu]
    generalize nameText F D r p.name = s
    unfold pad
    simp only [Bool.false_eq_true, if_false, Place.fld, List.append_assoc]
    congr 2
    split
    · rw [spaces_eq _ (by omega)]; congr 1; omega
    · rw [spaces_eq _ (by omega)]; congr 1; omega
  · by_cases ht : f.tail = []
    · simp [ht]
    · simp [ht, h0, usize, spaces, userValue]

/-! ## `SnapshotTextFormatter` -/

/-- a field after the first use -/
def Place.used (D : FDB) (p : Place) : Fld :=
  ⟨p.before, [], D.lookup p.name, p.w, isNumeric D (D.lookup p.name)⟩

theorem snapText_eq (a : Nat) (r : List QEnt) (hne : NoEmptyValues F r) :
    snapText F r (some a) = valueText F r a := by
  unfold valueText snapText
  have : (fun e => decide (entryVals a e ≠ [])) = hasAttr a := by funext e; rw [hasAttr_eq]
  rw [this]
  simp only
  cases hfind : r.find? (hasAttr a) with
  | none => rfl
  | some e =>
    have hm := List.mem_of_find?_eq_some hfind
    have ha := List.find?_some hfind
    cases e with
    | ref path => exact pathText_eq a path (hne _ hm a)
    | imm b v =>
      unfold hasAttr at ha
      have : b = a := of_decide_eq_true ha
      simp [entryVals, this, joined]

theorem snapField_used (p : Place) (hn : p.name ≠ []) (hw : p.w ≤ 80) (hal : p.align = none) (D D' : FDB) (r : List QEnt)
    (hl : D'.lookup p.name = D.lookup p.name) (hnum : D'.numeric = D.numeric) (hne : NoEmptyValues F r) (fld : Fld) (hfld : fld = p.fld ∨ fld = p.used D) :
    snapField F D' r fld = (p.used D, p.before ++ pad (p.side D'.numeric D') p.w (nameText F D' r p.name)) := by
  have hf : (if fld.name.isEmpty then fld else
    { fld with name := [], attr := D'.lookup fld.name, right := isNumeric D' (D'.lookup fld.name) }) = p.used D := by
    rcases hfld with rfl | rfl
    · cases h : D.lookup p.name <;> simp [Place.fld, Place.used, hn, hl, hnum, isNumeric, h]
    · simp [Place.used]
  unfold snapField
  simp only [hf]
  have hside : p.side D'.numeric D' = isNumeric D (D.lookup p.name) := by
    unfold Place.side isNumeric
    rw [hal, hl, hnum]
    cases D.lookup p.name <;> rfl
  have hs : snapText F r (p.used D).attr = nameText F D' r p.name := by
    unfold nameText Place.used
    simp only [hl]
    cases D.lookup p.name with
    | none => rfl
    | some a => exact snapText_eq a r hne
  simp only [hs]
  generalize nameText F D' r p.name = s
  have hwid : (p.used D).width = p.w := rfl
  have hpre : (p.used D).pre = p.before := rfl
  have hright : (p.used D).right = isNumeric D (D.lookup p.name) := rfl
  rw [hwid, hpre, hright, hside]
  have hsp : spaces (if (s.length : Int) < (p.w : Int) then min ((p.w : Int) - s.length).toNat 80 else 0) = List.replicate (p.w - s.length) (ch ' ') := by
    split
    · rw [spaces_eq _ (by omega)]; congr 1; omega
    · rw [spaces_eq _ (by omega)]; congr 1; omega
  rw [hsp]
  rfl

theorem snapPrint_eq (f : Fmt) (hf : f.Ok) (hal : ∀ p ∈ f.places, p.align = none) (D D' : FDB) (r : List QEnt)
    (hl : ∀ p ∈ f.places, D'.lookup p.name = D.lookup p.name) (hnum : D'.numeric = D.numeric) (hne : NoEmptyValues F r)
    (g : Place → Fld) (hg : g = Place.fld ∨ g = Place.used D) :
    snapPrint F (f.places.map g ++ if f.tail = [] then [] else [⟨f.tail, [], none, 0, false⟩]) D' r =
      (f.places.map (Place.used D) ++ (if f.tail = [] then [] else [⟨f.tail, [], none, 0, false⟩]), f.fill F D'.numeric D' r) := by
  have hfield : ∀ p ∈ f.places, snapField F D' r (g p) = (p.used D, p.before ++ pad (p.side D'.numeric D') p.w (nameText F D' r p.name)) := by
    intro p hp
    refine snapField_used p (hf.name p hp).1 (hf.width p hp) (hal p hp) D D' r (hl p hp) hnum hne _ ?_
    rcases hg with rfl | rfl
    · exact Or.inl rfl
    · exact Or.inr rfl
  unfold snapPrint Fmt.fill
  refine Prod.ext ?_ ?_
  · simp only [List.map_append, List.map_map]
    congr 1
    · apply List.map_congr_left
      intro p hp
      simp only [Function.comp, hfield p hp]
    · by_cases ht : f.tail = []
      · simp [ht]
      · simp [ht, snapField]
  · simp only [List.map_append, List.flatMap_append, List.map_map]
    congr 1
    · rw [List.flatMap_map]
      apply List.flatMap_congr
      intro p hp
      simp only [Function.comp, hfield p hp]
    · by_cases ht : f.tail = []
      · simp [ht]
      · simp [ht, snapField, snapText, spaces]

end Query.FmtStr

/-- **C72.**  For every format with places for values, `cali-query -q "... FORMAT string"` writes the title and a line for each record: the texts of the
format with the values of the attributes put in, filled up with blanks to the width.

Missing: alignment to the right or to the center (`C72_violation_align`), more than 80 blanks (`C72_violation_width`), empty values
(`C72_violation_empty`), attributes with empty names, percent signs and brackets. -/
theorem C72_string_partial (F : DblFmt) (f : Fmt) (hf : f.Ok) (hal : ∀ p ∈ f.places, p.align = none ∨ p.align = some .left)
    (title : Option Str) (recs : List (FDB × List QEnt)) (hr : ∀ x ∈ recs, x.1.lookup [] = none ∧ NoEmptyValues F x.2) :
    userOut F title (some f.text) recs =
      some ((match title with
        | some t => t ++ str "\n"
        | none => []) ++ recs.flatMap fun x => f.fill F (fun _ => false) x.1 x.2 ++ str "\n") := by
  unfold userOut
  simp only [parse_fmt f hf, Option.map_some]
  congr 2
  apply List.flatMap_congr
  intro x hx
  exact userPrint_eq f hf hal x.1 x.2 (hr x hx).1 (hr x hx).2

/-- **C72.**  A snapshot text formatter whose attributes exist when it is used first produces, in every call, the texts of the format with the values
put in, numbers aligned to the right.

Missing: attributes created after the first call (`C72_violation_late`), and the cases named at `C72_string_partial`. -/
theorem C72_snapshot_partial (F : DblFmt) (f : Fmt) (hf : f.Ok) (hal : ∀ p ∈ f.places, p.align = none) (calls : List (FDB × List QEnt))
    (hne : ∀ x ∈ calls, NoEmptyValues F x.2)
    (hdb : ∀ x ∈ calls, ∀ y ∈ calls, x.1.numeric = y.1.numeric ∧ ∀ p ∈ f.places, x.1.lookup p.name = y.1.lookup p.name) :
    snapOut F f.text calls = some (calls.map fun x => f.fill F x.1.numeric x.1 x.2) := by
  unfold snapOut
  rw [parse_fmt f hf, Option.map_some]
  congr 1
  cases calls with
  | nil => rfl
  | cons x xs =>
    rw [snapRun, snapPrint_eq f hf hal x.1 x.1 x.2 (fun _ _ => rfl) rfl (hne x (by simp)) Place.fld (Or.inl rfl), List.map_cons]
    congr 1
    have : ∀ ys : List (FDB × List QEnt), (∀ y ∈ ys, y ∈ x :: xs) →
        snapRun F (f.places.map (Place.used x.1) ++ if f.tail = [] then [] else [⟨f.tail, [], none, 0, false⟩]) ys =
          ys.map fun x => f.fill F x.1.numeric x.1 x.2 := by
      intro ys
      induction ys with
      | nil => intro _; rfl
      | cons y ys ih =>
        intro hy
        have hy' := hy y (by simp)
        have hd := hdb y hy' x (by simp)
        rw [snapRun, snapPrint_eq f hf hal x.1 y.1 y.2 hd.2 hd.1 (hne y hy') (Place.used x.1) (Or.inr rfl), List.map_cons,
          ih (fun z hz => hy z (List.mem_cons_of_mem _ hz))]
    exact this xs (fun y hy => List.mem_cons_of_mem _ hy)

/-- **C72.**  File names for output are format strings: the values of a record (such as the MPI rank) are put in; `stdout` and `stderr` are the streams. -/
theorem C72_filename_partial (F : DblFmt) (f : Fmt) (hf : f.Ok) (hal : ∀ p ∈ f.places, p.align = none) (D : FDB) (r : List QEnt)
    (hne : NoEmptyValues F r) (h1 : f.text ≠ str "stdout") (h2 : f.text ≠ str "stderr") :
    setFilename F f.text D r = some (.file (f.fill F D.numeric D r)) := by
  unfold setFilename
  rw [if_neg h1, if_neg h2, parse_fmt f hf, Option.map_some,
    snapPrint_eq f hf hal D D r (fun _ _ => rfl) rfl hne Place.fld (Or.inl rfl)]

theorem C72_streams (F : DblFmt) (D : FDB) (r : List QEnt) :
    setFilename F (str "stdout") D r = some .stdout ∧ setFilename F (str "stderr") D r = some .stderr := by
  constructor
  · unfold setFilename; rw [if_pos rfl]
  · unfold setFilename; rw [if_neg (by decide), if_pos rfl]

/-! ## Hypotheses are met -/

/-- attributes `region` (1) and `rank` (2, a number) -/
def c72DB : FDB := ⟨fun n => if n = str "region" then some 1 else if n = str "rank" then some 2 else none, fun a => a == 2⟩

/-- `out-%[4]rank%:%region%%region[9l]%.` -/
def c72Fmt : Fmt := ⟨[⟨str "out-", str "rank", .front 4 none⟩, ⟨str ":", str "region", .no⟩, ⟨[], str "region", .back 9 (some .left)⟩], str "."⟩

def c72Rec : List QEnt := [.ref [(1, .string (str "foo")), (1, .string (str "main"))], .imm 2 (.int 7)]

example : c72Fmt.text = str "out-%[4]rank%:%region%%region[9l]%." := by decide +kernel
example : c72Fmt.Ok := ⟨by decide, by decide, by decide, by decide⟩
example : c72DB.lookup [] = none := by decide
theorem c72_noEmpty : NoEmptyValues c56Fmt c72Rec := by
  intro e he a v hv
  simp only [c72Rec, List.mem_cons, List.not_mem_nil, or_false] at he
  rcases he with rfl | rfl
  · simp only [entryVals, List.mem_reverse, List.mem_map, List.mem_filter, List.mem_cons, List.not_mem_nil, or_false] at hv
    obtain ⟨x, ⟨rfl | rfl, _⟩, rfl⟩ := hv <;> decide
  · simp only [entryVals] at hv
    split at hv
    · rw [List.mem_singleton] at hv; subst hv; decide +kernel
    · cases hv
example : userOut c56Fmt (some (str "T")) (some c72Fmt.text) [(c72DB, c72Rec), (c72DB, [])] =
    some (str "T\nout-7   :main/foomain/foo .\nout-    :         .\n") := by decide +kernel
example : snapOut c56Fmt (str "%[4]rank%,%[9]region%") [(c72DB, c72Rec), (c72DB, [])] = some [str "   7,main/foo ", str "    ,         "] := by
  decide +kernel
example : setFilename c56Fmt (str "out-%[4]rank%.cali") c72DB c72Rec = some (.file (str "out-   7.cali")) := by decide +kernel

/-! ## Violations -/

/-- **Violation (alignment).**  The letters for the alignment are read over. -/
theorem C72_violation_align : let f : Fmt := ⟨[⟨[], str "region", .front 6 (some .right)⟩], []⟩
    let r : List QEnt := [.imm 1 (.string (str "foo"))]
    userOut c56Fmt none (some f.text) [(c72DB, r)] = some (str "foo   \n") ∧ f.fill c56Fmt (fun _ => false) c72DB r = str "   foo" := by
  decide +kernel

/-- **Violation (width).**  There are never more than 80 blanks. -/
theorem C72_violation_width : let f : Fmt := ⟨[⟨[], str "region", .front 90 none⟩], []⟩
    userOut c56Fmt none (some f.text) [(c72DB, [])] = some (List.replicate 80 (ch ' ') ++ str "\n") ∧
    (f.fill c56Fmt (fun _ => false) c72DB []).length = 90 := by
  decide +kernel

/-- **Violation (empty values).**  Empty values in a path disappear: `main//foo` is shown as `main/foo`. -/
theorem C72_violation_empty : let r : List QEnt := [.ref [(1, .string []), (1, .string (str "main"))]]
    userOut c56Fmt none (some (str "%region%")) [(c72DB, r)] = some (str "main\n") ∧ valueText c56Fmt r 1 = str "main/" := by
  decide +kernel

/-- **Violation (late attributes).**  If the attribute does not exist when the formatter is used first, its values are never shown. -/
theorem C72_violation_late :
    snapOut c56Fmt (str "%region%.") [(⟨fun _ => none, fun _ => false⟩, []), (c72DB, [.imm 1 (.string (str "foo"))])] = some [str ".", str "."] := by
  decide +kernel

/-- **Violation (wrong widths).**  A width that is not a number ends the program with an exception. -/
theorem C72_violation_exception : userOut c56Fmt none (some (str "%[r6]region%")) [(c72DB, c72Rec)] = none := by
  decide +kernel

/-- **Violation (large and negative widths).**  A width of 2^31 or more ends the program with an exception, and a negative one gives 80 blanks. -/
theorem C72_violation_range : userOut c56Fmt none (some (str "%[2147483648]region%")) [(c72DB, [])] = none ∧
    userOut c56Fmt none (some (str "%[-2147483649]region%")) [(c72DB, [])] = none ∧
    userOut c56Fmt none (some (str "%[2147483647]region%")) [(c72DB, [])] = some (List.replicate 80 (ch ' ') ++ str "\n") ∧
    userOut c56Fmt none (some (str "%[-1]region%")) [(c72DB, [])] = some (List.replicate 80 (ch ' ') ++ str "\n") := by
  refine ⟨?_, ?_, ?_, ?_⟩ <;> decide +kernel

end Verif
