import Verif.Io.Spec
import Mathlib.Data.List.Induction
/-!
# Lemmas about the io service
-/
namespace Verif.Io
open Verif

/-! ## The mount tree -/

/-- the nodes for a table -/
def nodesOf (table : List (Path × Str)) : List Node := (table.filter fun x => decide (x.1 ≠ [])).map fun x => ⟨x.1, x.1, x.2⟩

theorem has_nodesOf (table : List (Path × Str)) (k : Path) : (Mounts.mk [] (nodesOf table)).has k = true ↔ k ≠ [] ∧ k ∈ table.map Prod.fst := by
  simp only [Mounts.has, nodesOf, List.any_map, List.any_eq_true, List.mem_filter, Function.comp, decide_eq_true_eq, List.mem_map]
  constructor
  · rintro ⟨x, ⟨hx, hne⟩, rfl⟩; exact ⟨hne, x, hx, rfl⟩
  · rintro ⟨hne, x, hx, rfl⟩; exact ⟨x, ⟨hx, hne⟩, rfl⟩

/-- where the search stops: at `cur ++ a`, before the component `c` -/
theorem getMountL_spec (m : Mounts) : ∀ (cs cur : Path) (name : Option Str), cs ≠ [] → m.has (cur ++ cs) = false →
    ∃ a c b, cs = a ++ c :: b ∧ getMountL m cur name cs = (cur ++ a, some c) ∧ m.has (cur ++ a ++ [c]) = false ∧
      (a ≠ [] → m.has (cur ++ a) = true)
  | [], _, _, h, _ => absurd rfl h
  | c :: cs, cur, name, _, hn => by
    by_cases hc : m.has (cur ++ [c]) = true
    · have hne : cs ≠ [] := by rintro rfl; rw [hc] at hn; cases hn
      obtain ⟨a, d, b, e, hg, hh, hl⟩ := getMountL_spec m cs (cur ++ [c]) (some c) hne (by simpa [List.append_assoc] using hn)
      refine ⟨c :: a, d, b, by rw [e]; rfl, ?_, by simpa [List.append_assoc] using hh, fun _ => ?_⟩
      · rw [getMountL, if_pos hc, hg]; simp
      · rcases a with _ | ⟨x, a⟩
        · simpa using hc
        · simpa [List.append_assoc] using hl (by simp)
    · refine ⟨[], c, cs, rfl, ?_, by simpa using hc, fun h => absurd rfl h⟩
      rw [getMountL, if_neg hc]; simp

/-- prefixes of mount points are mount points -/
theorem closed_of_tidy {table : List (Path × Str)} (ht : Tidy table) (k : Nat) :
    ∀ q : Path, q.length ≤ k → q ∈ table.map Prod.fst → ∀ r, r <+: q → r ≠ [] → r ∈ table.map Prod.fst := by
  induction k with
  | zero =>
    intro q hl _ r hr hne
    exact absurd (List.length_eq_zero_iff.1 (Nat.le_zero.1 (Nat.le_trans hr.length_le hl))) hne
  | succ k ih =>
    intro q hl hq r hr hne
    by_cases he : r = q
    · exact he ▸ hq
    · obtain ⟨x, hx, rfl⟩ := List.mem_map.1 hq
      obtain ⟨a, b, hab⟩ := List.append_of_mem hx
      have hx0 : x.1 ≠ [] := by rintro h0; rw [h0] at hr; exact hne (List.prefix_nil.1 hr)
      have hd := (ht.step a x b hab hx0).1
      have hrd : r <+: x.1.dropLast := by
        obtain ⟨s, hs⟩ := hr
        have hs0 : s ≠ [] := by rintro rfl; exact he (by simpa using hs)
        rw [← hs, List.dropLast_append_of_ne_nil hs0]
        exact List.prefix_append _ _
      rcases hd with hd | hd
      · rw [hd] at hrd; exact absurd (List.prefix_nil.1 hrd) hne
      · refine ih x.1.dropLast (by rw [List.length_dropLast]; omega) ?_ r hrd hne
        obtain ⟨y, hy, hye⟩ := List.mem_map.1 hd
        exact List.mem_map.2 ⟨y, by rw [hab]; exact List.mem_append_left _ hy, hye⟩

theorem tidy_left {a b : List (Path × Str)} (h : Tidy (a ++ b)) : Tidy a := by
  refine ⟨fun u x v e hx => ?_⟩
  exact h.step u x (v ++ b) (by rw [e]; simp) hx

/-- the search in the tree of a tidy table finds the longest mount point above the path -/
theorem getMount_tidy {table : List (Path × Str)} (ht : Tidy table) (p : Path) (hp0 : p ≠ []) (hp : p ∉ table.map Prod.fst) :
    ∃ a c b, p = a ++ c :: b ∧ getMount ⟨[], nodesOf table⟩ p = (a, some c) ∧ (a ≠ [] → a ∈ table.map Prod.fst) ∧
      ∀ q ∈ table.map Prod.fst, q <+: p → q.length ≤ a.length := by
  have hh : (Mounts.mk [] (nodesOf table)).has ([] ++ p) = false := by
    rw [Bool.eq_false_iff, ne_eq, has_nodesOf]; exact fun h => hp h.2
  obtain ⟨a, c, b, e, hg, hn, ha⟩ := getMountL_spec ⟨[], nodesOf table⟩ p [] none hp0 hh
  simp only [List.nil_append] at hg hn ha
  refine ⟨a, c, b, e, hg, fun h => ((has_nodesOf _ _).1 (ha h)).2, fun q hq hqp => ?_⟩
  by_contra hlt
  have hac : a ++ [c] <+: p := ⟨b, by rw [e]; simp⟩
  have hpre : a ++ [c] <+: q := List.prefix_of_prefix_length_le hac hqp (by simp; omega)
  have hm := closed_of_tidy ht q.length q (Nat.le_refl _) hq (a ++ [c]) hpre (by simp)
  rw [Bool.eq_false_iff, ne_eq, has_nodesOf] at hn
  exact hn ⟨by simp, hm⟩

/-- the tree of a tidy table -/
theorem initMounts_tidy (table : List (Path × Str)) (ht : Tidy table) : initMounts table = ⟨[], nodesOf table⟩ := by
  induction table using List.reverseRecOn with
  | nil => rfl
  | append_singleton a x ih =>
    have hta : Tidy a := tidy_left ht
    rw [initMounts, List.foldl_append]
    show addMount (initMounts a) x = _
    rw [ih hta]
    by_cases hx : x.1 = []
    · simp [addMount, hx, nodesOf, List.filter_append]
    · obtain ⟨hd, hn, hl⟩ := ht.step a x [] rfl hx
      obtain ⟨u, c, v, e, hg, hu, hmax⟩ := getMount_tidy hta x.1 hx hn
      have hv : v = [] := by
        by_contra hv
        have hdl : x.1.dropLast = u ++ c :: v.dropLast := by
          rw [e, List.dropLast_append_of_ne_nil (by simp), List.dropLast_cons_of_ne_nil hv]
        rcases hd with hd | hd
        · rw [hd] at hdl; simp at hdl
        · have := hmax _ hd (List.dropLast_prefix _)
          rw [hdl, List.length_append, List.length_cons] at this
          omega
      subst hv
      have hdl : x.1.dropLast = u := by rw [e]; simp
      have hlast : x.1.getLast? = some c := by rw [e]; simp
      rw [hdl, hlast] at hl
      simp only [addMount, if_neg hx, hg, if_neg hl]
      simp [nodesOf, List.filter_append, hx, ← e]

theorem find_nodesOf : ∀ (table : List (Path × Str)) (x : Path × Str), x ∈ table → x.1 ≠ [] → (∀ y ∈ table, y.1 = x.1 → y = x) →
    (nodesOf table).find? (fun n => decide (n.key = x.1)) = some ⟨x.1, x.1, x.2⟩
  | [], _, h, _, _ => nomatch h
  | y :: l, x, h, hx, hu => by
    by_cases hy : y.1 = x.1
    · have := hu y (List.mem_cons_self) hy
      subst this
      simp [nodesOf, hx]
    · have hl : x ∈ l := by
        rcases List.mem_cons.1 h with rfl | h
        · exact absurd rfl hy
        · exact h
      have ih := find_nodesOf l x hl hx (fun z hz => hu z (List.mem_cons_of_mem _ hz))
      by_cases h0 : y.1 = []
      · simpa [nodesOf, h0] using ih
      · simp only [nodesOf, List.filter_cons, decide_eq_true h0, if_true, List.map_cons, List.find?_cons, hy, decide_false]
        exact ih

/-- the entries of a tidy table that are not the root have distinct mount points -/
theorem tidy_unique {table : List (Path × Str)} (ht : Tidy table) {x y : Path × Str} (hx : x ∈ table) (hy : y ∈ table) (h0 : x.1 ≠ []) (he : y.1 = x.1) : y = x := by
  obtain ⟨a, b, hab⟩ := List.append_of_mem hx
  have hya : y ∉ a := fun h => (ht.step a x b hab h0).2.1 (he ▸ List.mem_map.2 ⟨y, h, rfl⟩)
  rw [hab] at hy
  rcases List.mem_append.1 hy with h | h
  · exact absurd h hya
  · rcases List.mem_cons.1 h with h | h
    · exact h
    · obtain ⟨c, d, hcd⟩ := List.append_of_mem h
      have := (ht.step (a ++ x :: c) y d (by rw [hab, hcd]; simp) (he ▸ h0)).2.1
      exact absurd (List.mem_map.2 ⟨x, by simp, he.symm⟩) this

/-- the answer for a path below a mount other than the root -/
theorem getFilesystem_tidy {table : List (Path × Str)} (ht : Tidy table) {p m : Path} {fs : Str} (hb : Below table p) (hg : Governs table p m fs) :
    getFilesystem (initMounts table) p = ⟨some fs, some m⟩ := by
  obtain ⟨hp, z, hz, hz0, hzp⟩ := hb
  have hp0 : p ≠ [] := by rintro rfl; exact hz0 (List.prefix_nil.1 hzp)
  obtain ⟨a, c, b, e, hgm, ha, hmax⟩ := getMount_tidy ht p hp0 hp
  have ha0 : a ≠ [] := by
    rintro rfl
    have := hmax _ (List.mem_map.2 ⟨z, hz, rfl⟩) hzp
    exact hz0 (List.length_eq_zero_iff.1 (Nat.le_zero.1 this))
  obtain ⟨y, hy, hye⟩ := List.mem_map.1 (ha ha0)
  have hap : a <+: p := ⟨c :: b, e.symm⟩
  have h1 : a.length ≤ m.length := by
    have := hg.longest y hy (by rw [hye]; exact hap)
    rwa [hye] at this
  have h2 : m.length ≤ a.length := hmax _ (List.mem_map.2 ⟨_, hg.listed, rfl⟩) hg.above
  have ham : a = m := List.IsPrefix.eq_of_length (List.prefix_of_prefix_length_le hap hg.above h1) (by omega)
  subst ham
  rw [initMounts_tidy table ht, getFilesystem]
  simp only [hgm, if_neg ha0]
  rw [find_nodesOf table (a, fs) hg.listed ha0 (fun y hy he => tidy_unique ht hg.listed hy ha0 he)]

/-- the answer for other paths -/
theorem getFilesystem_root {table : List (Path × Str)} (ht : Tidy table) {p : Path} (hn : ∀ x ∈ table, x.1 <+: p → x.1 = []) :
    getFilesystem (initMounts table) p = ⟨some [], some []⟩ := by
  rw [initMounts_tidy table ht, getFilesystem]
  by_cases hp0 : p = []
  · subst hp0; rfl
  · have hp : p ∉ table.map Prod.fst := fun h => by
      obtain ⟨x, hx, rfl⟩ := List.mem_map.1 h
      exact hp0 (hn x hx List.prefix_rfl)
    obtain ⟨a, c, b, e, hgm, ha, hmax⟩ := getMount_tidy ht p hp0 hp
    have ha0 : a = [] := by
      by_contra h0
      obtain ⟨y, hy, hye⟩ := List.mem_map.1 (ha h0)
      exact h0 (hye ▸ hn y hy (hye ▸ ⟨c :: b, e.symm⟩))
    subst ha0
    simp only [hgm, if_true]

/-- the answer for a mount point itself: the root -/
theorem getFilesystem_mountPoint (m : Mounts) : ∀ (p cur : Path) (name : Option Str), (∀ r, r <+: p → r ≠ [] → m.has (cur ++ r) = true) → (getMountL m cur name p).1 = []
  | [], _, _, _ => rfl
  | c :: cs, cur, name, h => by
    rw [getMountL, if_pos (h [c] ⟨cs, rfl⟩ (by simp))]
    refine getFilesystem_mountPoint m cs (cur ++ [c]) _ fun r hr hne => ?_
    have := h (c :: r) (by simpa using hr) (by simp)
    simpa [List.append_assoc] using this

/-! ## Files -/

theorem record_place {table : List (Path × Str)} (ht : Tidy table) {t : Target} (hg : t.Good table) {w : Where} (hw : Place table t w) :
    record (initMounts table) t = w := by
  cases hw with
  | file p m fs h => exact getFilesystem_tidy ht hg h
  | pipe => rfl
  | other => rfl

theorem lookup_setAt (l : List Where) (x : Where) (i j : Nat) : lookup (setAt l x ⟨none, none⟩ i) j = if j = i then x else lookup l j := by
  unfold setAt lookup
  by_cases h : i < l.length
  · have h0 : i - l.length = 0 := by omega
    simp only [h0, List.replicate_zero, List.append_nil, h, if_true, List.getElem?_set]
    by_cases hj : i = j
    · subst hj; simp [h]
    · rw [if_neg hj, if_neg (fun e => hj e.symm)]
  · have hlen : (l ++ List.replicate (i - l.length) (⟨none, none⟩ : Where)).length = i := by simp; omega
    have hlt : ¬ i < (l ++ List.replicate (i - l.length) (⟨none, none⟩ : Where)).length := by omega
    simp only [if_neg hlt]
    by_cases hj : j = i
    · subst hj
      rw [List.getElem?_append_right (by omega), hlen]; simp
    · rw [if_neg hj]
      by_cases hji : j < i
      · rw [List.getElem?_append_left (by omega)]
        by_cases hjl : j < l.length
        · rw [List.getElem?_append_left hjl]
        · rw [List.getElem?_append_right (by omega), List.getElem?_eq_none (l := l) (by omega), List.getElem?_replicate]
          split <;> rfl
      · rw [List.getElem?_eq_none (by rw [List.length_append, hlen]; simp; omega), List.getElem?_eq_none (by omega)]

theorem lookup_register (m : Mounts) (l : List Where) (fd : Int) (t : Target) (j : Nat) :
    lookup (register m l fd t) j = if (j : Int) = fd then record m t else lookup l j := by
  unfold register
  by_cases h : fd < 0
  · rw [if_pos h, if_neg (by omega)]
  · rw [if_neg h]
    by_cases hl : fd.toNat < l.length
    · rw [if_pos hl]
      unfold lookup
      rw [List.getElem?_set]
      by_cases hj : fd.toNat = j
      · rw [if_pos hj, if_pos hl, if_pos (by omega)]; rfl
      · rw [if_neg hj, if_neg (by omega)]
    · rw [if_neg hl, lookup_setAt]
      by_cases hj : j = fd.toNat
      · rw [if_pos hj, if_pos (by omega)]
      · rw [if_neg hj, if_neg (by omega)]

theorem lookup_deregister (l : List Where) (fd j : Nat) (h : j ≠ fd) : lookup (deregister l fd) j = lookup l j := by
  unfold deregister
  split
  · unfold lookup
    rw [List.getElem?_set, if_neg (fun e => h e.symm)]
  · rfl

theorem lookup_std (m : Mounts) : ∀ (l : List Target) (n : Nat) (f : List Where) (j : Nat),
    lookup ((l.zipIdx n).foldl (fun f x => register m f x.2 x.1) f) j =
      if h : n ≤ j ∧ j < n + l.length then record m (l[j - n]'(by omega)) else lookup f j
  | [], n, f, j => by rw [dif_neg (by rintro ⟨_, h⟩; simp at h; omega)]; rfl
  | t :: l, n, f, j => by
    rw [List.zipIdx_cons, List.foldl_cons, lookup_std m l (n + 1), lookup_register]
    by_cases h1 : n + 1 ≤ j ∧ j < n + 1 + l.length
    · rw [dif_pos h1, dif_pos (by simp; omega)]
      congr 1
      rw [List.getElem_cons, dif_neg (by omega)]
      congr 1
    · rw [dif_neg h1]
      by_cases h2 : j = n
      · subst h2
        rw [if_pos rfl, dif_pos (by simp)]
        simp
      · rw [if_neg (by omega), dif_neg (by simp; omega)]

/-! ## Calls -/

theorem pre_post_out (s : St) (k : Kind) (w : Where) (n : Nat) (hk : k = .metadata → n = 0) :
    (post (pre s k w) k n).out = s.out ++ callEvents s.insts k w n := by
  simp only [pre, post, callEvents, List.append_assoc]
  congr 3
  funext c
  by_cases hn : n = 0
  · simp [hn]
  · have hkm : k ≠ .metadata := fun e => hn (hk e)
    simp [hn, hkm, Nat.pos_of_ne_zero hn]

/-- agreement with the specification -/
structure Agrees (O : Sys) (s : St) (cs : List Nat) (f : Fds) : Prop where
  on : s.enabled = true
  act : 0 < s.active
  wr : s.wrapped = true
  mounts : s.mounts = initMounts O.mounts
  insts : s.insts = cs
  good : ∀ i t, f i = some t → t.Good O.mounts ∧ lookup s.files i = record s.mounts t
  nobody : s.dead = []
  ok : s.bad = false

theorem agrees_post {O : Sys} {s : St} {cs : List Nat} {f : Fds} (h : Agrees O s cs f) (k : Kind) (w : Where) (n : Nat) : Agrees O (post (pre s k w) k n) cs f := by
  refine ⟨h.on, h.act, h.wr, h.mounts, h.insts, h.good, h.nobody, ?_⟩
  simp [pre, post, h.ok, h.nobody]

theorem good_sub {O : Sys} {s : St} {cs : List Nat} {f g : Fds} (h : Agrees O s cs f) (hg : ∀ i t, g i = some t → f i = some t) : Agrees O s cs g :=
  ⟨h.on, h.act, h.wr, h.mounts, h.insts, fun i t e => h.good i t (hg i t e), h.nobody, h.ok⟩

theorem run_expect (O : Sys) (ht : Tidy O.mounts) : ∀ (l : List Step) (s : St) (cs : List Nat) (f : Fds) (e : List Ev), Agrees O s cs f →
    (∀ x ∈ l, x.Good O.mounts) → Expect O.mounts cs f l e → (run O s l).out = s.out ++ e ∧ (run O s l).bad = false
  | [], s, cs, f, e, ha, _, he => by cases he; exact ⟨by simp [run], ha.ok⟩
  | x :: l, s, cs, f, e, ha, hg, he => by
    have hx := hg x (List.mem_cons_self)
    have hgl : ∀ y ∈ l, y.Good O.mounts := fun y hy => hg y (List.mem_cons_of_mem _ hy)
    show (run O (step O s x) l).out = _ ∧ (run O (step O s x) l).bad = false
    have look : ∀ {fd : Nat} {t w}, f fd = some t → Place O.mounts t w → lookup s.files fd = w := by
      intro fd t w h1 h2
      obtain ⟨h3, h4⟩ := ha.good fd t h1
      rw [h4, ha.mounts]; exact record_place ht h3 h2
    cases he with
    | init _ _ c _ _ h =>
      have : Agrees O (step O s (.init c)) (cs ++ [c]) f := by
        have hact : s.active ≠ 0 := Nat.pos_iff_ne_zero.1 ha.act
        simp only [step, initStep, if_neg hact, ha.wr, if_true]
        exact ⟨ha.on, Nat.succ_pos _, rfl, ha.mounts, by simp [append, ha.insts], ha.good, ha.nobody, ha.ok⟩
      obtain ⟨h1, h2⟩ := run_expect O ht l _ _ _ _ this hgl h
      refine ⟨?_, h2⟩
      rw [h1]
      have hact : s.active ≠ 0 := Nat.pos_iff_ne_zero.1 ha.act
      simp only [step, initStep, if_neg hact, ha.wr, if_true]
    | opn _ _ p fd t w _ e' hw h =>
      obtain ⟨hbp, hbt⟩ := hx
      have hfs : getFilesystem s.mounts p = w := by rw [ha.mounts]; exact record_place (t := .file p) ht hbp hw
      have hst : step O s (.opn p fd t) = post (pre { s with files := register s.mounts s.files fd t } .metadata w) .metadata 0 := by
        have hon := ha.on
        simp only [step, hon, if_true, hfs, pre]
      have : Agrees O { s with files := register s.mounts s.files fd t } cs (f.after (.opn p fd t)) := by
        refine ⟨ha.on, ha.act, ha.wr, ha.mounts, ha.insts, fun i u hu => ?_, ha.nobody, ha.ok⟩
        simp only [Fds.after] at hu
        simp only [lookup_register]
        by_cases hi : (i : Int) = fd
        · rw [if_pos hi] at hu ⊢
          cases hu
          exact ⟨hbt, rfl⟩
        · rw [if_neg hi] at hu ⊢
          exact ha.good i u hu
      rw [hst]
      obtain ⟨h1, h2⟩ := run_expect O ht l _ _ _ _ (agrees_post this .metadata w 0) hgl h
      refine ⟨?_, h2⟩
      rw [h1, pre_post_out _ _ _ _ (fun _ => rfl), List.append_assoc]
      rw [show ({ s with files := register s.mounts s.files fd t } : St).insts = cs from ha.insts]
    | close _ _ fd t w _ e' h0 hw h =>
      have hst : step O s (.close fd) = post (pre s .metadata w) .metadata 0 := by simp only [step, ha.on, if_true, look h0 hw]
      have : Agrees O s cs (f.after (.close fd)) := good_sub ha fun i u hu => by
        simp only [Fds.after] at hu; split at hu
        · cases hu
        · exact hu
      rw [hst]
      obtain ⟨h1, h2⟩ := run_expect O ht l _ _ _ _ (agrees_post this .metadata w 0) hgl h
      refine ⟨?_, h2⟩
      rw [h1, pre_post_out _ _ _ _ (fun _ => rfl), List.append_assoc, ha.insts]
    | fclose _ _ fd t w _ e' h0 hw h =>
      have hst : step O s (.fclose fd) = post (pre { s with files := deregister s.files fd } .metadata w) .metadata 0 := by
        simp only [step, ha.on, if_true, look h0 hw]
      have : Agrees O { s with files := deregister s.files fd } cs (f.after (.fclose fd)) := by
        refine ⟨ha.on, ha.act, ha.wr, ha.mounts, ha.insts, fun i u hu => ?_, ha.nobody, ha.ok⟩
        simp only [Fds.after] at hu
        split at hu
        · cases hu
        · next hi => rw [lookup_deregister _ _ _ hi]; exact ha.good i u hu
      rw [hst]
      obtain ⟨h1, h2⟩ := run_expect O ht l _ _ _ _ (agrees_post this .metadata w 0) hgl h
      refine ⟨?_, h2⟩
      rw [h1, pre_post_out _ _ _ _ (fun _ => rfl), List.append_assoc]
      rw [show ({ s with files := deregister s.files fd } : St).insts = cs from ha.insts]
    | rw _ _ k fd ret t w _ e' hk h0 hw h =>
      have hr : Int.toNat (ret % 2 ^ 64) = ret.toNat := by
        obtain ⟨ha, hb⟩ := hx
        have : ret % 2 ^ 64 = ret := Int.emod_eq_of_lt ha (by omega)
        rw [this]
      have hst : step O s (.rw k fd ret) = post (pre s k w) k ret.toNat := by simp only [step, ha.on, if_true, look h0 hw, hr]
      rw [hst]
      obtain ⟨h1, h2⟩ := run_expect O ht l _ _ _ _ (agrees_post ha k w ret.toNat) hgl h
      refine ⟨?_, h2⟩
      rw [h1, pre_post_out _ _ _ _ (fun e => by rcases hk with hk | hk <;> rw [hk] at e <;> cases e), List.append_assoc, ha.insts]
    | frw _ _ k fd size ret t w _ e' hk h0 hw h =>
      have hst : step O s (.frw k fd size ret) = post (pre s k w) k (ret * size) := by simp only [step, ha.on, if_true, look h0 hw]
      rw [hst]
      obtain ⟨h1, h2⟩ := run_expect O ht l _ _ _ _ (agrees_post ha k w (ret * size)) hgl h
      refine ⟨?_, h2⟩
      rw [h1, pre_post_out _ _ _ _ (fun e => by rcases hk with hk | hk <;> rw [hk] at e <;> cases e), List.append_assoc, ha.insts]
    | unseen => exact absurd hx id

theorem agrees_init (O : Sys) (hs : ∀ t ∈ O.std, t.Good O.mounts) (c : Nat) : Agrees O (step O {} (.init c)) [c] (stdFds O) ∧ (step O {} (.init c)).out = [] := by
  refine ⟨?_, rfl⟩
  refine ⟨rfl, Nat.succ_pos _, rfl, rfl, rfl, fun i t hi => ?_, rfl, rfl⟩
  have hi' : O.std[i]? = some t := hi
  obtain ⟨hl, he⟩ := List.getElem?_eq_some_iff.1 hi'
  refine ⟨hs t (he ▸ List.getElem_mem _), ?_⟩
  show lookup ((O.std.zipIdx).foldl (fun f x => register (initMounts O.mounts) f x.2 x.1) []) i = record (initMounts O.mounts) t
  rw [lookup_std, dif_pos (by omega)]
  simp [he]

/-! ## The end of a channel -/

theorem deregCb_noblock (c : Nat) : ∀ (fuel j : Nat) (l : List Nat), (∀ x ∈ l.drop j, x ≠ c) → deregCb c fuel j 0 l = l
  | 0, _, _, _ => rfl
  | fuel + 1, j, l, h => by
    rw [deregCb]
    cases hj : l[j]? with
    | none => rfl
    | some d =>
      obtain ⟨hl, he⟩ := List.getElem?_eq_some_iff.1 hj
      have hd : d ≠ c := h d (by rw [List.drop_eq_getElem_cons hl, he]; exact List.mem_cons_self)
      simp only [if_neg hd, Nat.lt_irrefl, if_false]
      exact deregCb_noblock c fuel (j + 1) l fun x hx => h x (by rw [List.drop_eq_getElem_cons hl]; exact List.mem_cons_of_mem _ hx)

theorem deregCb_skip (c : Nat) (l : List Nat) : ∀ (n fuel j : Nat), n ≤ fuel → j + n ≤ l.length → (∀ i, j ≤ i → i < j + n → l[i]? ≠ some c) →
    deregCb c fuel j 0 l = deregCb c (fuel - n) (j + n) 0 l
  | 0, fuel, j, _, _, _ => rfl
  | n + 1, 0, j, h, _, _ => by omega
  | n + 1, fuel + 1, j, h, hl, hc => by
    rw [deregCb]
    have hj : j < l.length := by omega
    rw [List.getElem?_eq_getElem hj]
    have hd : l[j] ≠ c := fun e => hc j (Nat.le_refl _) (by omega) (by rw [List.getElem?_eq_getElem hj, e])
    simp only [if_neg hd, Nat.lt_irrefl, if_false]
    rw [deregCb_skip c l n fuel (j + 1) (by omega) (by omega) (fun i h1 h2 => hc i (by omega) (by omega))]
    congr 1 <;> omega

/-- the callbacks left when a channel finishes that is not the last one made: the last one is gone -/
theorem deregCb_mid (c z : Nat) (a b : List Nat) (ha : c ∉ a) (hb : c ∉ b) (hz : c ≠ z) :
    deregCb c (a ++ c :: (b ++ [z])).length 0 0 (a ++ c :: (b ++ [z])) = a ++ b ++ [(c :: b).getLast (by simp)] := by
  have hlen : (a ++ c :: (b ++ [z])).length = a.length + b.length + 2 := by simp; omega
  rw [deregCb_skip c _ a.length _ 0 (by omega) (by omega) (fun i _ hi e => by
    rw [List.getElem?_append_left (by omega)] at e
    exact ha (List.mem_of_getElem? e))]
  rw [hlen, show a.length + b.length + 2 - a.length = (b.length + 1) + 1 by omega, Nat.zero_add, deregCb]
  rw [List.getElem?_append_right (Nat.le_refl _), Nat.sub_self]
  simp only [List.getElem?_cons_zero, if_true]
  rw [deregCb, List.getElem?_append_right (by omega), show a.length + 1 - a.length = 1 by omega]
  have hd : (c :: (b ++ [z]))[1]? = some ((b ++ [z]).head (by simp)) := by
    cases b <;> rfl
  rw [hd]
  have hne : (b ++ [z]).head (by simp) ≠ c := by
    intro e
    have : (b ++ [z]).head (by simp) ∈ b ++ [z] := List.head_mem _
    rw [e] at this
    rcases List.mem_append.1 this with h | h
    · exact hb h
    · exact hz (List.mem_singleton.1 h)
  simp only [if_neg hne, Nat.lt_add_one, if_true, Nat.zero_add, Nat.add_sub_cancel]
  have hrem : remove (a ++ c :: (b ++ [z])) a.length 1 = a ++ b ++ [(c :: b).getLast (by simp)] := by
    unfold remove
    simp only [hlen]
    rw [if_neg (by push_cast; omega), if_neg (by push_cast; omega), if_neg (by omega)]
    have ht : ((((a.length + b.length + 2 : Nat) : Int) - 1) - ((1 : Nat) : Int) - (a.length : Int)).toNat = b.length := by push_cast; omega
    rw [ht]
    have h1 : (a ++ c :: (b ++ [z])).take a.length = a := List.take_left
    have h2 : ((a ++ c :: (b ++ [z])).drop (a.length + 1)).take b.length = b := by
      rw [List.drop_append, List.drop_eq_nil_of_le (by omega)]
      simp
    have h3 : (a ++ c :: (b ++ [z])).drop (a.length + b.length) = [(c :: b).getLast (by simp), z] := by
      rw [show a ++ c :: (b ++ [z]) = (a ++ (c :: b).dropLast) ++ [(c :: b).getLast (by simp), z] by
        have := List.dropLast_append_getLast (show c :: b ≠ [] by simp)
        calc a ++ c :: (b ++ [z]) = a ++ ((c :: b) ++ [z]) := rfl
          _ = a ++ (((c :: b).dropLast ++ [(c :: b).getLast (by simp)]) ++ [z]) := by rw [this]
          _ = _ := by simp]
      exact List.drop_left' (by simp)
    rw [h1, h2, h3, show a.length + b.length + 2 - 1 = a.length + b.length + 1 by omega]
    rw [show a ++ b ++ [(c :: b).getLast (by simp), z] = (a ++ b ++ [(c :: b).getLast (by simp)]) ++ [z] by simp]
    exact List.take_left' (by simp; omega)
  rw [hrem]
  apply deregCb_noblock
  intro x hx e
  subst e
  have hx' : x ∈ (b ++ [(x :: b).getLast (by simp)]).drop 2 := by
    rw [List.append_assoc, List.drop_append, List.drop_eq_nil_of_le (by omega), List.nil_append] at hx
    rwa [show a.length + 1 + 1 - a.length = 2 by omega] at hx
  rcases b with _ | ⟨y, b⟩
  · simp at hx'
  · rcases List.mem_append.1 (List.mem_of_mem_drop hx') with h | h
    · exact hb h
    · have h5 : x = (x :: y :: b).getLast (by simp) := List.mem_singleton.1 h
      rw [List.getLast_cons (by simp)] at h5
      exact hb (h5 ▸ List.getLast_mem _)

/-- the callbacks left when the last channel made finishes: all -/
theorem deregCb_last (c : Nat) (a : List Nat) (ha : c ∉ a) : deregCb c (a ++ [c]).length 0 0 (a ++ [c]) = a ++ [c] := by
  have hlen : (a ++ [c]).length = a.length + 1 := by simp
  rw [deregCb_skip c _ a.length _ 0 (by omega) (by omega) (fun i _ hi e => by
    rw [List.getElem?_append_left (by omega)] at e
    exact ha (List.mem_of_getElem? e))]
  rw [hlen, show a.length + 1 - a.length = 0 + 1 by omega, show 0 + a.length = a.length by omega, deregCb, List.getElem?_append_right (Nat.le_refl _), Nat.sub_self]
  simp only [List.getElem?_cons_zero, if_true, deregCb, Nat.zero_lt_one, Nat.zero_add, remove, hlen]
  rw [if_neg (by push_cast; omega), if_pos (by push_cast; omega)]

end Verif.Io
