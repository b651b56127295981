import Verif.Mpi.Filter
import Mathlib.Data.List.Nodup
import Mathlib.Data.List.Induction
import Mathlib.Tactic.Tauto
/-!
# C83: MPI function filters
-/
namespace Verif.MpiFilter
open Verif Verif.Cali Verif.Parse Verif.Config

/-! ## The lists of names -/

theorem splitL_text {ws : List Str} {t : Str} (h : NamesText ws t) : ∀ n, t.length < n → stringListL [ch ',', ch ':'] n ⟨t, true⟩ = ws := by
  induction h with
  | nil =>
    intro n hn
    obtain ⟨n, rfl⟩ : ∃ m, n = m + 1 := ⟨n - 1, by omega⟩
    simp [stringListL, readWord, readChar]
  | one h =>
    intro n hn
    obtain ⟨n, rfl⟩ : ∃ m, n = m + 1 := ⟨n - 1, by omega⟩
    have := readWord_text h [] [] (by simp) (.inl rfl)
    simp only [List.nil_append, List.append_nil] at this
    unfold stringListL
    simp [this, h.1, readChar]
  | cons h hc hr ih =>
    intro n hn
    obtain ⟨n, rfl⟩ : ∃ m, n = m + 1 := ⟨n - 1, by omega⟩
    rename_i w t c w' ws r
    have hcs : isSpace c = false ∧ c ≠ ch '\\' ∧ c ≠ ch '"' ∧ [ch ',', ch ':'].contains c = true := by
      rcases hc with rfl | rfl <;> decide
    have h1 := readWord_text h [] (c :: r) (by simp) (.inr ⟨_, _, rfl, hcs.2.1, hcs.2.2.1, by rw [hcs.2.2.2, Bool.or_true]⟩)
    simp only [List.nil_append] at h1
    unfold stringListL
    simp only [h1, List.isEmpty_cons, Bool.not_false]
    rw [readChar_cons hcs.1]
    simp only [if_neg h.1]
    rw [if_pos (by rw [hcs.2.2.2]; rfl), ih n (by simp only [List.length_append, List.length_cons] at hn; omega)]
    rfl

theorem splitNames_text {ws : List Str} {t : Str} (h : NamesText ws t) : splitNames t = ws := splitL_text h _ (by omega)

/-! ## The filter -/

theorem mem_ite_cons {x g : Str} (h : x ≠ g) (e : Bool) (l : List Str) : (x ∈ if e = true then g :: l else l) ↔ x ∈ l := by
  cases e <;> simp [h]

theorem filter_fold (all haveW haveB : Bool) (table : List Str) (hn : table.Nodup) : ∀ s : FSt, (∀ f ∈ table, f ∉ s.enabled) →
    (∀ f, f ∈ (table.foldl (filterStep all haveW haveB) s).enabled ↔ f ∈ s.enabled ∨ (f ∈ table ∧
      if haveB = true then if f ∈ s.black then False else if haveW = false then True else all = true ∨ (haveW = true ∧ f ∈ s.white)
      else all = true ∨ (haveW = true ∧ f ∈ s.white))) := by
  induction table with
  | nil => intro s _ f; simp
  | cons g table ih =>
    intro s hs f
    obtain ⟨hg, hn'⟩ := List.nodup_cons.1 hn
    rw [List.foldl_cons, ih hn' _ (by
      intro x hx
      have h1 := hs x (by simp [hx])
      have h2 : x ≠ g := by rintro rfl; exact hg hx
      exact fun hx => h1 ((mem_ite_cons h2 _ _).1 hx))]
    by_cases hfg : f = g
    · subst hfg
      have h1 : f ∉ s.enabled := hs f (by simp)
      simp only [hg, false_and, or_false, List.mem_cons, true_or, true_and]
      unfold filterStep
      simp only
      cases haveB <;> cases haveW <;> cases all <;> by_cases hw : f ∈ s.white <;> by_cases hb : f ∈ s.black <;> simp [h1, hw, hb]
    · have e1 : f ∈ (filterStep all haveW haveB s g).enabled ↔ f ∈ s.enabled := mem_ite_cons hfg _ _
      have e2 : f ∈ (filterStep all haveW haveB s g).white ↔ f ∈ s.white := by
        unfold filterStep
        simp only
        split
        · exact List.mem_erase_of_ne hfg
        · rfl
      have e3 : f ∈ (filterStep all haveW haveB s g).black ↔ f ∈ s.black := by
        unfold filterStep
        simp only
        split
        · exact List.mem_erase_of_ne hfg
        · rfl
      simp only [e1, e2, e3, List.mem_cons, hfg, false_or]

/-- **C83**, filters: the functions a channel instruments are those its whitelist and blacklist say. -/
theorem C83_filter (table : List Str) (hn : table.Nodup) (white black : List Str) (wl bl : Str) (hw : NamesText white wl) (hb : NamesText black bl) (f : Str) :
    f ∈ (setupFilter table wl bl).enabled ↔ f ∈ table ∧ Instrumented white black f := by
  unfold setupFilter
  rw [splitNames_text hw, splitNames_text hb]
  unfold Instrumented
  by_cases h0 : white = []
  · subst h0
    by_cases h1 : black = []
    · subst h1; simp
    · have : ¬black.length = 0 := by simpa using h1
      have hp : black.length > 0 := by omega
      simp only [List.length_nil, gt_iff_lt, Nat.lt_irrefl, decide_false, Bool.not_false, hp, decide_true, Bool.not_true, Bool.and_false, Bool.false_eq_true, if_false,
        Bool.false_and, if_true]
      rw [filter_fold false false true table hn _ (by simp)]
      simp [h1]
  · have : ¬white.length = 0 := by simpa using h0
    have hp : white.length > 0 := by omega
    have hd : ∀ {d : Bool}, (d = true ↔ white.head? = some (str "all")) → (f ∈ (if d then white.tail else white) ∨ d = true ↔ f ∈ white ∨ white.head? = some (str "all")) := by
      intro d hd
      cases d with
      | false => simp at hd; simp [hd]
      | true =>
        have := hd.1 rfl
        simp [this]
    simp only [hp, decide_true, Bool.not_true, Bool.false_and, Bool.false_eq_true, if_false, Bool.true_and, if_neg h0]
    rw [filter_fold _ _ _ table hn _ (by simp)]
    simp only [List.not_mem_nil, false_or]
    have hd := hd (d := decide (white.head? = some (str "all"))) (by simp)
    rw [← hd]
    by_cases h1 : black = []
    · subst h1; simp only [List.length_nil, gt_iff_lt, Nat.lt_irrefl, decide_false, Bool.false_eq_true, if_false, List.not_mem_nil, not_false_eq_true, true_and]; tauto
    · have : ¬black.length = 0 := by simpa using h1
      have hp : black.length > 0 := by omega
      simp only [hp, decide_true, if_true, Bool.true_eq_false, if_false]
      by_cases hfb : f ∈ black <;> simp [hfb]
      tauto

theorem left_fold (all haveW haveB : Bool) (table : List Str) : ∀ s : FSt, s.white.Nodup → s.black.Nodup → (haveW = false → s.white = []) → (haveB = false → s.black = []) →
    (table.foldl (filterStep all haveW haveB) s).white = s.white.filter (fun f => decide (f ∉ table)) ∧
    (table.foldl (filterStep all haveW haveB) s).black = s.black.filter (fun f => decide (f ∉ table)) := by
  have key : ∀ (b : Bool) (l : List Str) (f : Str), l.Nodup → (b = false → l = []) → (if b && l.contains f then l.erase f else l) = l.filter (fun x => decide (x ≠ f)) := by
    intro b l f hn hb
    cases b with
    | false => rw [hb rfl]; rfl
    | true =>
      rw [Bool.true_and]
      split
      · rw [hn.erase_eq_filter]
        apply List.filter_congr
        intro x _
        by_cases h : x = f <;> simp [h]
      · rename_i h
        symm
        rw [List.filter_eq_self]
        intro x hx
        have : x ≠ f := by rintro rfl; exact h (by simpa using hx)
        simpa using this
  induction table with
  | nil =>
    intro s _ _ _ _
    constructor <;> symm <;> exact List.filter_eq_self.2 fun x _ => by simp
  | cons g table ih =>
    intro s hw hb h1 h2
    have e1 : (filterStep all haveW haveB s g).white = s.white.filter (fun x => decide (x ≠ g)) := key haveW s.white g hw h1
    have e2 : (filterStep all haveW haveB s g).black = s.black.filter (fun x => decide (x ≠ g)) := key haveB s.black g hb h2
    obtain ⟨i1, i2⟩ := ih (filterStep all haveW haveB s g) (by rw [e1]; exact hw.filter _) (by rw [e2]; exact hb.filter _)
      (by intro h; rw [e1, h1 h]; rfl) (by intro h; rw [e2, h2 h]; rfl)
    rw [List.foldl_cons, i1, i2, e1, e2, List.filter_filter, List.filter_filter]
    constructor <;> apply List.filter_congr <;> intro x _ <;> by_cases h : x = g <;> simp [h]

/-- **C83**, warnings (partial: for lists without duplicates): the names about which the service warns are exactly those that are not MPI functions. -/
theorem C83_warnings_partial (table : List Str) (white black : List Str) (wl bl : Str) (hw : NamesText white wl) (hb : NamesText black bl) (hwn : white.Nodup) (hbn : black.Nodup) :
    (setupFilter table wl bl).white = (if white.head? = some (str "all") then white.tail else white).filter (fun f => decide (f ∉ table)) ∧
    (setupFilter table wl bl).black = black.filter (fun f => decide (f ∉ table)) := by
  unfold setupFilter
  rw [splitNames_text hw, splitNames_text hb]
  dsimp only
  split
  · rename_i h
    simp only [Bool.and_eq_true, Bool.not_eq_true', decide_eq_false_iff_not, gt_iff_lt, Nat.not_lt, Nat.le_zero, List.length_eq_zero_iff] at h
    obtain ⟨rfl, rfl⟩ := h
    exact ⟨rfl, rfl⟩
  · have e : (decide (white.length > 0) && decide (white.head? = some (str "all"))) = decide (white.head? = some (str "all")) := by
      cases white <;> simp
    have e2 : (if decide (white.head? = some (str "all")) = true then white.tail else white) = if white.head? = some (str "all") then white.tail else white := by
      by_cases h : white.head? = some (str "all") <;> simp [h]
    rw [e, e2]
    apply left_fold
    · dsimp only; split
      · exact hwn.sublist (List.tail_sublist _)
      · exact hwn
    · exact hbn
    · intro h
      have : white = [] := by simpa using h
      simp [this]
    · intro h
      simpa using h

/-! ## Regions -/

/-- every registered channel has well-formed lists, and no channel is registered twice -/
structure Ok (h : List Op) : Prop where
  text : ∀ c wl bl, Op.register c wl bl ∈ h → (∃ w, NamesText w wl) ∧ ∃ b, NamesText b bl
  once : (h.filterMap fun o => match o with | .register c _ _ => some c | _ => none).Nodup

/-- a channel that is alive after `h` instruments `f` -/
def Wanted (table : List Str) (h : List Op) (f : Str) : Prop :=
  ∃ c wl bl w b, (c, wl, bl) ∈ live h ∧ NamesText w wl ∧ NamesText b bl ∧ f ∈ table ∧ Instrumented w b f

/-- the configuration for a channel -/
def cfgOf (table : List Str) (x : Nat × Str × Str) : Nat × List Str := (x.1, (setupFilter table x.2.1 x.2.2).enabled)

/-- invariant -/
structure Inv (table : List Str) (s : Sys) (h : List Op) : Prop where
  cfgs : s.cfgs = (live h).map (cfgOf table)
  count : ∀ f, s.count f = ((s.cfgs.countP fun p => decide (f ∈ p.2) : Nat) : Int)
  sub : ∀ x ∈ live h, Op.register x.1 x.2.1 x.2.2 ∈ h
  nd : ((live h).map Prod.fst).Nodup

theorem live_append (h : List Op) (o : Op) : live (h ++ [o]) = match o with
    | .finish c => (live h).filter fun x => x.1 ≠ c
    | .register c wl bl => (c, wl, bl) :: live h
    | _ => live h := by
  unfold live
  rw [List.reverse_append]
  cases o <;> rfl

theorem filter_eq_eraseP {l : List (Nat × List Str)} (hn : (l.map Prod.fst).Nodup) (c : Nat) :
    l.filter (fun x => decide (x.1 ≠ c)) = l.eraseP (fun p => p.1 == c) := by
  induction l with
  | nil => rfl
  | cons x l ih =>
    simp only [List.map_cons, List.nodup_cons] at hn
    by_cases hx : x.1 = c
    · rw [List.eraseP_cons_of_pos (by simp [hx]), List.filter_cons_of_neg (by simp [hx])]
      rw [List.filter_eq_self]
      intro y hy
      have : y.1 ≠ x.1 := fun e => hn.1 (e ▸ List.mem_map_of_mem hy)
      rw [hx] at this
      simpa using this
    · rw [List.eraseP_cons_of_neg (by simp [hx]), List.filter_cons_of_pos (by simp [hx]), ih hn.2]

theorem countP_eraseP {α : Type} (l : List α) (p q : α → Bool) (x : α) (h : l.find? p = some x) : l.countP q = (l.eraseP p).countP q + if q x then 1 else 0 := by
  induction l with
  | nil => simp at h
  | cons y l ih =>
    by_cases hp : p y = true
    · rw [List.find?_cons_of_pos hp] at h
      cases h
      rw [List.eraseP_cons_of_pos hp, List.countP_cons]
    · rw [List.find?_cons_of_neg hp] at h
      rw [List.eraseP_cons_of_neg hp, List.countP_cons, List.countP_cons, ih h]
      omega

theorem inv_run (table : List Str) (h : List Op) (ho : Ok h) : Inv table (run table {} h) h := by
  induction h using List.reverseRecOn with
  | nil => exact ⟨rfl, (fun f => rfl), (fun x hx => nomatch hx), List.nodup_nil⟩
  | append_singleton h o ih =>
    have ho' : Ok h := ⟨fun c wl bl hm => ho.text c wl bl (by simp [hm]), by
      have := ho.once; rw [List.filterMap_append] at this; exact (List.nodup_append.1 this).1⟩
    have I := ih ho'
    have hr : run table {} (h ++ [o]) = step table (run table {} h) o := by simp [run]
    rw [hr]
    generalize run table {} h = s at I
    cases o with
    | register c wl bl =>
      have hnc : c ∉ (live h).map Prod.fst := by
        intro hc
        obtain ⟨x, hx, rfl⟩ := List.mem_map.1 hc
        have h1 := I.sub x hx
        have h2 := ho.once
        rw [List.filterMap_append, List.nodup_append] at h2
        exact h2.2.2 x.1 (List.mem_filterMap.2 ⟨_, h1, rfl⟩) x.1 (by simp) rfl
      have hf : s.cfgs.find? (fun p => p.1 == c) = none := by
        rw [List.find?_eq_none]
        intro p hp
        rw [I.cfgs] at hp
        obtain ⟨x, hx, rfl⟩ := List.mem_map.1 hp
        have : x.1 ≠ c := fun e => hnc (e ▸ List.mem_map_of_mem hx)
        simpa [cfgOf] using this
      have e : step table s (.register c wl bl) = { s with cfgs := (c, (setupFilter table wl bl).enabled) :: s.cfgs, count := addCount s.count (setupFilter table wl bl).enabled 1 } := by
        simp only [step, initConfig, hf]
      rw [e]
      refine ⟨?_, ?_, ?_, ?_⟩
      · rw [live_append]
        simp only [List.map_cons, I.cfgs]
        rfl
      · intro f
        show addCount s.count _ 1 f = _
        unfold addCount
        rw [List.countP_cons, I.count f]
        split <;> rename_i hm <;> simp [hm]
      · rw [live_append]
        intro x hx
        rcases List.mem_cons.1 hx with rfl | hx
        · simp
        · simp [I.sub x hx]
      · rw [live_append]
        simp only [List.map_cons, List.nodup_cons]
        exact ⟨hnc, I.nd⟩
    | finish c =>
      have hnd : (s.cfgs.map Prod.fst).Nodup := by
        rw [I.cfgs, List.map_map]
        exact I.nd
      have hfil : s.cfgs.filter (fun x => decide (x.1 ≠ c)) = ((live h).filter fun x => decide (x.1 ≠ c)).map (cfgOf table) := by
        rw [I.cfgs, List.filter_map]
        rfl
      have hsub : ∀ x ∈ live (h ++ [.finish c]), Op.register x.1 x.2.1 x.2.2 ∈ h ++ [.finish c] := by
        rw [live_append]
        intro x hx
        simp [I.sub x (List.mem_of_mem_filter hx)]
      have hnd' : ((live (h ++ [.finish c])).map Prod.fst).Nodup := by
        rw [live_append]
        exact I.nd.sublist (List.Sublist.map _ List.filter_sublist)
      cases hf : s.cfgs.find? (fun p => p.1 == c) with
      | none =>
        have e : step table s (.finish c) = s := by simp only [step, hf]
        rw [e]
        refine ⟨?_, I.count, hsub, hnd'⟩
        rw [live_append, ← hfil]
        symm
        rw [List.filter_eq_self]
        intro p hp
        have := List.find?_eq_none.1 hf p hp
        simpa using this
      | some p =>
        have e : step table s (.finish c) = { s with count := addCount s.count p.2 (-1), cfgs := s.cfgs.eraseP (fun p => p.1 == c) } := by simp only [step, hf]
        rw [e]
        refine ⟨?_, ?_, hsub, hnd'⟩
        · rw [live_append]
          show s.cfgs.eraseP _ = _
          rw [← hfil, filter_eq_eraseP hnd]
        · intro f
          show addCount s.count p.2 (-1) f = _
          have := countP_eraseP s.cfgs (fun p => p.1 == c) (fun p => decide (f ∈ p.2)) p hf
          have h2 := I.count f
          unfold addCount
          rw [h2, this]
          split <;> rename_i hm <;> simp [hm]
    | enter t f =>
      have e : (step table s (.enter t f)).cfgs = s.cfgs ∧ (step table s (.enter t f)).count = s.count := by simp only [step]; split <;> simp
      refine ⟨by rw [live_append, e.1]; exact I.cfgs, by rw [e.1, e.2]; exact I.count, ?_, by rw [live_append]; exact I.nd⟩
      rw [live_append]; intro x hx; simp [I.sub x hx]
    | leave t f =>
      have e : (step table s (.leave t f)).cfgs = s.cfgs ∧ (step table s (.leave t f)).count = s.count := by simp only [step]; split <;> simp
      refine ⟨by rw [live_append, e.1]; exact I.cfgs, by rw [e.1, e.2]; exact I.count, ?_, by rw [live_append]; exact I.nd⟩
      rw [live_append]; intro x hx; simp [I.sub x hx]

theorem count_pos (table : List Str) (hn : table.Nodup) (h : List Op) (ho : Ok h) (f : Str) : (run table {} h).count f > 0 ↔ Wanted table h f := by
  have I := inv_run table h ho
  rw [I.count f]
  have : ((run table {} h).cfgs.countP fun p => decide (f ∈ p.2)) > 0 ↔ Wanted table h f := by
    rw [gt_iff_lt, List.countP_pos_iff, I.cfgs]
    constructor
    · rintro ⟨p, hp, hf⟩
      obtain ⟨x, hx, rfl⟩ := List.mem_map.1 hp
      obtain ⟨⟨w, hw⟩, b, hb⟩ := ho.text _ _ _ (I.sub x hx)
      have hf : f ∈ (setupFilter table x.2.1 x.2.2).enabled := of_decide_eq_true hf
      exact ⟨x.1, x.2.1, x.2.2, w, b, hx, hw, hb, (C83_filter table hn w b _ _ hw hb f).1 hf⟩
    · rintro ⟨c, wl, bl, w, b, hx, hw, hb, hf⟩
      refine ⟨_, List.mem_map_of_mem hx, ?_⟩
      have := (C83_filter table hn w b _ _ hw hb f).2 hf
      exact decide_eq_true this
  rw [← this]
  omega

/-- **C83**, regions: a call of an MPI function is marked at its begin exactly if a channel alive then instruments the function, and at its end likewise. -/
theorem C83_regions (table : List Str) (hn : table.Nodup) (h : List Op) (ho : Ok h) (t : Nat) (f : Str) :
    (Wanted table h f → (run table {} (h ++ [.enter t f])).out = (run table {} h).out ++ [.begin t f] ∧
      (run table {} (h ++ [.leave t f])).out = (run table {} h).out ++ [.fin t f]) ∧
    (¬Wanted table h f → (run table {} (h ++ [.enter t f])).out = (run table {} h).out ∧ (run table {} (h ++ [.leave t f])).out = (run table {} h).out) := by
  have hr : ∀ o, run table {} (h ++ [o]) = step table (run table {} h) o := by intro o; simp [run]
  rw [hr, hr]
  have hc := count_pos table hn h ho f
  constructor
  · intro hw
    simp only [step, if_pos (hc.2 hw), and_self]
  · intro hw
    simp only [step, if_neg (mt hc.1 hw), and_self]

/-- changes to the set of channels -/
def Op.changes : Op → Bool
  | .register .. => true
  | .finish _ => true
  | _ => false

theorem live_mid (mid : List Op) (hm : ∀ o ∈ mid, o.changes = false) (h : List Op) : live (h ++ mid) = live h := by
  induction mid using List.reverseRecOn with
  | nil => simp
  | append_singleton mid o ih =>
    rw [← List.append_assoc, live_append]
    have h1 := ih fun o ho => hm o (by simp [ho])
    have h2 := hm o (by simp)
    cases o <;> first | exact h1 | simp [Op.changes] at h2

/-- **C83**, pairs (partial: while no channel is made or finishes during the call): begin and end of a call are both marked or both not. -/
theorem C83_pairs_partial (table : List Str) (hn : table.Nodup) (h mid : List Op) (t : Nat) (f : Str) (hm : ∀ o ∈ mid, o.changes = false)
    (ho : Ok (h ++ .enter t f :: mid)) :
    ((run table {} (h ++ [.enter t f])).out = (run table {} h).out ++ [.begin t f] ∧
      (run table {} (h ++ .enter t f :: mid ++ [.leave t f])).out = (run table {} (h ++ .enter t f :: mid)).out ++ [.fin t f]) ∨
    ((run table {} (h ++ [.enter t f])).out = (run table {} h).out ∧
      (run table {} (h ++ .enter t f :: mid ++ [.leave t f])).out = (run table {} (h ++ .enter t f :: mid)).out) := by
  have ho' : Ok h := ⟨fun c wl bl hm => ho.text c wl bl (by simp [hm]), by
    have := ho.once; rw [List.filterMap_append] at this; exact (List.nodup_append.1 this).1⟩
  have hl : live (h ++ .enter t f :: mid) = live h := live_mid (.enter t f :: mid) (by
    intro o ho
    rcases List.mem_cons.1 ho with rfl | ho
    · rfl
    · exact hm o ho) h
  have hw : Wanted table (h ++ .enter t f :: mid) f ↔ Wanted table h f := by unfold Wanted; rw [hl]
  have h1 := C83_regions table hn h ho' t f
  have h2 := C83_regions table hn _ ho t f
  by_cases hx : Wanted table h f
  · exact .inl ⟨(h1.1 hx).1, (h2.1 (hw.2 hx)).2⟩
  · exact .inr ⟨(h1.2 hx).1, (h2.2 (mt hw.1 hx)).2⟩

/-! ## A case -/

/-- some functions -/
def tab : List Str := [str "MPI_Send", str "MPI_Recv", str "MPI_Wait"]

/-- one channel with everything but `MPI_Wait`, one with `MPI_Wait`, which finishes -/
def hist : List Op := [.register 1 (str "all") (str "MPI_Wait"), .register 2 (str "MPI_Wait") [], .enter 0 (str "MPI_Wait"), .leave 0 (str "MPI_Wait"), .finish 2]

theorem plainText (w : Str) (h : w ≠ [] ∧ ∀ c ∈ w, c ≠ ch '\\' ∧ c ≠ ch '"' ∧ isSpace c = false ∧ [ch ',', ch ':'].contains c = false) : NamesText [w] w := .one ⟨h.1, .inr ⟨rfl, h.2⟩⟩

theorem hist_ok : Ok hist := by
  refine ⟨?_, by decide⟩
  intro c wl bl hm
  simp only [hist, List.mem_cons, Op.register.injEq, reduceCtorEq, List.not_mem_nil, or_false] at hm
  rcases hm with ⟨rfl, rfl, rfl⟩ | ⟨rfl, rfl, rfl⟩
  · exact ⟨⟨_, plainText _ (by decide)⟩, _, plainText _ (by decide)⟩
  · exact ⟨⟨_, plainText _ (by decide)⟩, _, .nil⟩

example : (run tab {} (hist ++ [.enter 0 (str "MPI_Send"), .leave 0 (str "MPI_Send"), .enter 0 (str "MPI_Wait"), .leave 0 (str "MPI_Wait")])).out =
    [.begin 0 (str "MPI_Wait"), .fin 0 (str "MPI_Wait"), .begin 0 (str "MPI_Send"), .fin 0 (str "MPI_Send")] := by decide +kernel

example : Wanted tab hist (str "MPI_Send") ∧ tab.Nodup :=
  ⟨⟨1, str "all", str "MPI_Wait", [str "all"], [str "MPI_Wait"], by decide +kernel, plainText _ (by decide), plainText _ (by decide), by decide, by unfold Instrumented; decide⟩, by decide⟩

example : NamesText [str "MPI_Send", str "MPI_Recv"] (str "MPI_Send:\"MPI_Recv\"") :=
  .cons (t := str "MPI_Send") (c := ch ':') ⟨by decide, .inr ⟨rfl, by unfold Parse.Plain; decide⟩⟩ (.inr rfl) (.one ⟨by decide, .inl (by decide)⟩)

/-! ## Violations -/

/-- A channel that whitelists only `MPI_Recv` sees regions of `MPI_Send`, because another channel wants these: the region is marked for all channels. -/
theorem C83_violation_other_channel :
    let h : List Op := [.register 1 (str "MPI_Recv") [], .register 2 (str "MPI_Send") []]
    (1, str "MPI_Recv", []) ∈ live h ∧ ¬Instrumented [str "MPI_Recv"] [] (str "MPI_Send") ∧
    (run tab {} (h ++ [.enter 0 (str "MPI_Send")])).out = [.begin 0 (str "MPI_Send")] := by
  refine ⟨by decide +kernel, by unfold Instrumented; decide, by decide +kernel⟩

/-- The only channel that instruments `MPI_Recv` finishes while a thread is in `MPI_Recv`: the region is never closed.  A channel made meanwhile closes a region that
was not opened. -/
theorem C83_violation_unpaired :
    (run tab {} [.register 1 (str "MPI_Recv") [], .enter 0 (str "MPI_Recv"), .finish 1, .leave 0 (str "MPI_Recv")]).out = [.begin 0 (str "MPI_Recv")] ∧
    (run tab {} [.enter 0 (str "MPI_Recv"), .register 1 (str "MPI_Recv") [], .leave 0 (str "MPI_Recv")]).out = [.fin 0 (str "MPI_Recv")] := by
  constructor <;> decide +kernel

/-- A function that is in the whitelist twice is reported as unknown. -/
theorem C83_violation_warning : (setupFilter tab (str "MPI_Send,MPI_Send") []).white = [str "MPI_Send"] := by decide +kernel

end Verif.MpiFilter
