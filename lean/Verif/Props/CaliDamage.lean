import Verif.Props.CaliFile
/-!
# C100: damaged and truncated `.cali` files

The file of a program that was killed ends anywhere; files may hold lines of other programs.
-/
namespace Verif.Cali
open Verif

/-! ## lemmas -/

/-- text that ends with a line -/
def WholeLines (a : List Byte) : Prop := a = [] ∨ ∃ a', a = a' ++ [ch '\n']

theorem splitLines_append (a b cur : List Byte) :
    splitLines (a ++ ch '\n' :: b) cur = splitLines (a ++ [ch '\n']) cur ++ splitLines b [] := by
  induction a generalizing cur with
  | nil => simp [splitLines]
  | cons c a ih =>
    simp only [List.cons_append, splitLines]
    split
    · rw [ih]; rfl
    · rw [ih]

theorem parseFile_append {a : List Byte} (h : WholeLines a) (b : List Byte) : parseFile (a ++ b) = parseFile a ++ parseFile b := by
  rcases h with h | ⟨a', h⟩
  · subst h; simp [parseFile, splitLines]
  · subst h
    simp only [parseFile, List.append_assoc, List.cons_append, List.nil_append]
    rw [splitLines_append, List.filter_append, List.map_append]

theorem RState.lines_append (F : DblFmt) (ps qs : List Parsed) (s : RState) :
    s.lines F (ps ++ qs) = (s.lines F ps).bind fun s => s.lines F qs := by
  induction ps generalizing s with
  | nil => rfl
  | cons p ps ih =>
    simp only [List.cons_append, RState.lines]
    cases s.line F p with
    | none => rfl
    | some s' => exact ih s'

theorem RState.line_err (F : DblFmt) (p : Parsed) (s : RState) :
    RState.line F { s with err := true } p = (s.line F p).map fun s => { s with err := true } := by
  cases p with
  | bad => rfl
  | node f => simp only [RState.line]; cases s.db.mergeNodeText F s.idmap f.id.toNat f.attr.toNat f.parent.toNat f.data <;> rfl
  | record k f => cases k <;> simp [RState.line]

theorem RState.lines_err (F : DblFmt) (ps : List Parsed) (s : RState) :
    RState.lines F { s with err := true } ps = (s.lines F ps).map fun s => { s with err := true } := by
  induction ps generalizing s with
  | nil => rfl
  | cons p ps ih =>
    simp only [RState.lines]
    rw [RState.line_err]
    cases s.line F p with
    | none => rfl
    | some s' => exact ih s'

theorem splitLines_one {l : List Byte} (h : ch '\n' ∉ l) (cur : List Byte) :
    splitLines l cur = if cur ++ l = [] then [] else [cur ++ l] := by
  induction l generalizing cur with
  | nil => simp [splitLines]
  | cons c l ih =>
    have hc : c ≠ ch '\n' := fun e => h (by simp [e])
    simp only [splitLines, if_neg hc]
    rw [ih (fun e => h (List.mem_cons_of_mem _ e))]
    simp

theorem parseFile_one {l : List Byte} (h : ch '\n' ∉ l) : parseFile l = if l = [] then [] else [parseLine l] := by
  unfold parseFile
  rw [splitLines_one h]
  by_cases e : l = [] <;> simp [e]

theorem splitLines_last {l : List Byte} (h : ch '\n' ∉ l) (cur : List Byte) : splitLines (l ++ [ch '\n']) cur = [cur ++ l] := by
  induction l generalizing cur with
  | nil => simp [splitLines]
  | cons c l ih =>
    have hc : c ≠ ch '\n' := fun e => h (by simp [e])
    simp only [List.cons_append, splitLines, if_neg hc]
    rw [ih (fun e => h (List.mem_cons_of_mem _ e))]
    simp

theorem parseFile_line {l : List Byte} (h : ch '\n' ∉ l) (hne : l ≠ []) : parseFile (l ++ [ch '\n']) = [parseLine l] := by
  unfold parseFile
  rw [splitLines_last h]
  simp [hne]

/-- every text is whole lines and a rest without newline -/
theorem lastLine (a : List Byte) : ∃ w r, a = w ++ r ∧ WholeLines w ∧ ch '\n' ∉ r := by
  induction a with
  | nil => exact ⟨[], [], rfl, .inl rfl, by simp⟩
  | cons c a ih =>
    obtain ⟨w, r, h1, h2, h3⟩ := ih
    rcases h2 with h2 | ⟨w', h2⟩
    · subst h2
      by_cases hc : c = ch '\n'
      · exact ⟨[c], r, by simpa using h1, .inr ⟨[], by simp [hc]⟩, h3⟩
      · exact ⟨[], c :: r, by simpa using h1, .inl rfl, by simp [h3, Ne.symm hc]⟩
    · exact ⟨c :: w, r, by simp [h1], .inr ⟨c :: w', by simp [h2]⟩, h3⟩

theorem RState.line_recs {F : DblFmt} {s s' : RState} {p : Parsed} (hl : s.line F p = some s') :
    s'.recs = s.recs ∨ ∃ r, s'.recs = s.recs ++ [r] := by
  cases p with
  | bad => simp [RState.line] at hl; subst hl; exact .inl rfl
  | node f =>
    simp only [RState.line] at hl
    cases hm : s.db.mergeNodeText F s.idmap f.id.toNat f.attr.toNat f.parent.toNat f.data with
    | none => simp [hm] at hl
    | some r => rw [hm] at hl; simp at hl; subst hl; exact .inl rfl
  | record k f =>
    cases k with
    | snapshot => simp [RState.line] at hl; subst hl; exact .inr ⟨_, rfl⟩
    | globals => simp only [RState.line, Option.some.injEq] at hl; subst hl; exact .inl rfl

/-! ## the specification -/

/-- a line that is no record: it does not begin with one of the three record headers, or nothing follows the header -/
def NoRecord (l : List Byte) : Prop :=
  ∀ h ∈ [str "__rec=node,", str "__rec=ctx,", str "__rec=globals,"], ¬ (h <+: l ∧ h ≠ l)

/-- whether the reader can use a node line: the attribute is known, the parent, if there is one, is known, and the text is
a value of the attribute's type -/
def Usable (F : DblFmt) (s : RState) (f : NodeFields) : Prop :=
  (s.db.attribute? (mapId s.idmap f.attr.toNat)).isSome
  ∧ (mapId s.idmap f.parent.toNat = invN ∨ (s.db.node? (mapId s.idmap f.parent.toNat)).isSome)
  ∧ (s.db.hidden (s.db.attribute? (mapId s.idmap f.attr.toNat)) = false →
      makeVar F (s.db.attrType (s.db.attribute? (mapId s.idmap f.attr.toNat))) f.data ≠ .inv)
  ∧ mapId s.idmap f.attr.toNat ≠ invN

theorem Val.isEmpty_iff (v : Val) : v.isEmpty = true ↔ v = .inv := by cases v <;> simp [Val.isEmpty]

theorem mergeNodeText_none {F : DblFmt} {s : RState} {f : NodeFields} (hid : f.id.toNat ≠ invN) :
    s.db.mergeNodeText F s.idmap f.id.toNat f.attr.toNat f.parent.toNat f.data = none ↔ ¬ Usable F s f := by
  unfold DB.mergeNodeText DB.mergeNodeMap DB.mergeNode Usable
  simp only
  cases ha : s.db.attribute? (mapId s.idmap f.attr.toNat) with
  | none => simp
  | some a =>
    simp only [hid, false_or, DB.node?, Option.isSome_some, true_and]
    by_cases h1 : mapId s.idmap f.attr.toNat = invN
    · simp [h1]
    · by_cases h2 : s.db.hidden (some a) = true
      · simp only [h2, if_true, Val.isEmpty]
        by_cases h3 : mapId s.idmap f.parent.toNat ≠ invN ∧ s.db.nodes.length ≤ mapId s.idmap f.parent.toNat
        · simp [h1, h3]
        · rw [if_neg (by simp [h1]), if_neg h3]
          have : mapId s.idmap f.parent.toNat = invN ∨ (s.db.nodes[mapId s.idmap f.parent.toNat]?).isSome := by
            by_contra hc
            rw [not_or] at hc
            refine h3 ⟨hc.1, ?_⟩
            simpa using hc.2
          simp only [this, h1, ne_eq, not_false_eq_true, Bool.true_eq_false, false_imp_iff, and_self, not_true, iff_false]
          generalize s.db.findOrCreate (mapId s.idmap (BitVec.toNat f.attr)) (.usr []) (if mapId s.idmap (BitVec.toNat f.parent) = invN then none else some (mapId s.idmap (BitVec.toNat f.parent))) = q
          by_cases hc : q.1.nodes.length ≠ s.db.nodes.length ∧ mapId s.idmap (BitVec.toNat f.attr) = 8
          · rw [if_pos hc]; simp
          · rw [if_neg hc]; simp
      · simp only [Bool.not_eq_true] at h2
        simp only [h2, Bool.false_eq_true, if_false, Val.isEmpty_iff, h1, false_or, true_imp_iff]
        by_cases h4 : makeVar F (s.db.attrType (some a)) f.data = .inv
        · simp [h4]
        · rw [if_neg h4]
          by_cases h3 : mapId s.idmap f.parent.toNat ≠ invN ∧ s.db.nodes.length ≤ mapId s.idmap f.parent.toNat
          · simp [h3]
          · rw [if_neg h3]
            have : mapId s.idmap f.parent.toNat = invN ∨ (s.db.nodes[mapId s.idmap f.parent.toNat]?).isSome := by
              by_contra hc
              rw [not_or] at hc
              refine h3 ⟨hc.1, ?_⟩
              simpa using hc.2
            simp only [this, h4, h1, ne_eq, not_false_eq_true, and_self, not_true, iff_false]
            generalize s.db.findOrCreate (mapId s.idmap (BitVec.toNat f.attr)) (makeVar F (s.db.attrType (some a)) f.data) (if mapId s.idmap (BitVec.toNat f.parent) = invN then none else some (mapId s.idmap (BitVec.toNat f.parent))) = q
            by_cases hc : q.1.nodes.length ≠ s.db.nodes.length ∧ mapId s.idmap (BitVec.toNat f.attr) = 8
            · rw [if_pos hc]; simp
            · rw [if_neg hc]; simp

theorem matchKey_noRecord {l : List Byte} (h : NoRecord l) {k : List Byte}
    (hk : k ∈ [str "__rec=node,", str "__rec=ctx,", str "__rec=globals,"]) : matchKey k l = none := by
  unfold matchKey
  rw [if_neg]
  rintro ⟨h1, h2⟩
  refine h k hk ⟨?_, fun e => by rw [e] at h1; omega⟩
  rw [← h2]
  exact List.take_prefix _ _

/-! ## theorems -/

/-- **C100** (foreign lines).  A line that is no record changes nothing but the error flag: the file is read as without the
line, whatever comes before and after. -/
theorem C100_foreign_line (F : DblFmt) (db : DB) (a l b : List Byte) (ha : WholeLines a) (hl : NoRecord l) (hn : ch '\n' ∉ l)
    (hne : l ≠ []) :
    readCali F db (a ++ l ++ [ch '\n'] ++ b) = (readCali F db (a ++ b)).map fun s => { s with err := true } := by
  have hw : WholeLines (l ++ [ch '\n']) := .inr ⟨l, rfl⟩
  have e1 : parseFile (a ++ l ++ [ch '\n'] ++ b) = parseFile a ++ (Parsed.bad :: parseFile b) := by
    rw [show a ++ l ++ [ch '\n'] ++ b = a ++ ((l ++ [ch '\n']) ++ b) by simp, parseFile_append ha, parseFile_append hw,
      parseFile_line hn hne]
    have : parseLine l = .bad := by
      unfold parseLine
      rw [matchKey_noRecord hl (by simp), matchKey_noRecord hl (by simp), matchKey_noRecord hl (by simp)]
    rw [this]
    rfl
  unfold readCali
  rw [e1, parseFile_append ha, RState.lines_append, RState.lines_append]
  cases RState.lines F ⟨db, [], false, []⟩ (parseFile a) with
  | none => rfl
  | some s =>
    simp only [Option.bind_some, RState.lines, RState.line]
    exact RState.lines_err F _ s

/-- **C100** (any bytes).  Whatever the file contains — unless the reader crashes — the database is consistent with what was
there before, and every entry of every record is empty or refers to a node of the database, which has exactly one path. -/
theorem C100_consistent (F : DblFmt) (db : DB) (hdb : Reachable F db) (file : List Byte) (s : RState)
    (hr : readCali F db file = some s) :
    (∀ i n, db.node? i = some n → s.db.node? i = some n)
    ∧ ∀ r ∈ s.recs, ∀ e ∈ r, (e.node = none ∧ e.val = .inv) ∨ ∃ i D, e.node = some i ∧ (s.db.node? i).isSome
        ∧ Denotes s.db.node? i D ∧ ∀ D', Denotes s.db.node? i D' → D' = D := by
  refine ⟨(C27_earlier_nodes_unchanged F db hdb file s hr).1, ?_⟩
  have key : ∀ (ps : List Parsed) (t u : RState), t.db.OK → t.lines F ps = some u →
      (∀ r ∈ t.recs, ∀ e ∈ r, (e.node = none ∧ e.val = .inv) ∨ ∃ i, e.node = some i ∧ (t.db.node? i).isSome) →
      ∀ r ∈ u.recs, ∀ e ∈ r, (e.node = none ∧ e.val = .inv) ∨ ∃ i, e.node = some i ∧ (u.db.node? i).isSome := by
    intro ps
    induction ps with
    | nil => intro t u _ h1 h2; simp [RState.lines] at h1; subst h1; exact h2
    | cons p ps ih =>
      intro t u ht h1 h2
      simp only [RState.lines] at h1
      cases hm : t.line F p with
      | none => simp [hm] at h1
      | some t1 =>
        rw [hm] at h1
        obtain ⟨o, x, _⟩ := RState.line_ok ht hm
        refine ih t1 u o h1 ?_
        have old : ∀ r ∈ t.recs, ∀ e ∈ r, (e.node = none ∧ e.val = .inv) ∨ ∃ i, e.node = some i ∧ (t1.db.node? i).isSome := by
          intro r hr e he
          rcases h2 r hr e he with h | ⟨i, h3, h4⟩
          · exact .inl h
          · obtain ⟨n, hn⟩ := Option.isSome_iff_exists.1 h4
            exact .inr ⟨i, h3, by rw [show t1.db.node? i = some n from x.node hn]; rfl⟩
        cases p with
        | bad => simp [RState.line] at hm; subst hm; exact old
        | node f =>
          have : t1.recs = t.recs := by
            simp only [RState.line] at hm
            cases hq : t.db.mergeNodeText F t.idmap f.id.toNat f.attr.toNat f.parent.toNat f.data with
            | none => simp [hq] at hm
            | some r => rw [hq] at hm; simp at hm; subst hm; rfl
          rw [this]; exact old
        | record k f =>
          cases k with
          | globals =>
            have : t1.recs = t.recs := by simp only [RState.line, Option.some.injEq] at hm; subst hm; rfl
            rw [this]; exact old
          | snapshot =>
            simp [RState.line] at hm
            subst hm
            intro r hr e he
            rcases List.mem_append.1 hr with hr | hr
            · exact old r hr e he
            · simp only [List.mem_singleton] at hr
              subst hr
              rcases List.mem_append.1 he with he | he
              · obtain ⟨id, -, rfl⟩ := List.mem_map.1 he
                unfold DB.mergeRef
                cases hq : t.db.node? (mapId t.idmap id.toNat) with
                | none => exact .inl ⟨rfl, rfl⟩
                | some n => exact .inr ⟨_, rfl, by rw [hq]; rfl⟩
              · obtain ⟨q, -, rfl⟩ := List.mem_map.1 he
                unfold DB.mergeImm
                cases hq : t.db.attribute? (mapId t.idmap q.1.toNat) with
                | none => exact .inl ⟨rfl, rfl⟩
                | some a =>
                  refine .inr ⟨a, rfl, ?_⟩
                  have := DB.OK.attribute_lt (db := t.db) (a := mapId t.idmap q.1.toNat) (by rw [hq]; rfl)
                  have e := DB.attribute?_self hq
                  subst e
                  simp [DB.node?, this]
  intro r hr' e he
  rcases key _ _ _ hdb.ok hr (by simp) r hr' e he with h | ⟨i, h1, h2⟩
  · exact .inl h
  · obtain ⟨D, hD, hu⟩ := C27_every_node_one_path F s.db (.read hdb hr) i h2
    exact .inr ⟨i, D, h1, h2, hD, hu⟩

/-- **C100** (truncation).  Cut off at any byte, the file of a killed program gives what its complete lines give, exactly as
in the whole file: the same nodes and the same records; the rest of a line adds at most one more record, unless it
crashes the reader.  Cut off after a line, it gives exactly that. -/
theorem C100_truncated_partial (F : DblFmt) (db : DB) (hdb : Reachable F db) (file : List Byte) (s : RState)
    (hr : readCali F db file = some s) (k : Nat) :
    ∃ w rest s0, file.take k = w ++ rest ∧ WholeLines w ∧ ch '\n' ∉ rest ∧ readCali F db w = some s0
      ∧ s0.recs <+: s.recs ∧ (∀ i n, s0.db.node? i = some n → s.db.node? i = some n)
      ∧ (rest = [] → readCali F db (file.take k) = some s0)
      ∧ ∀ s1, readCali F db (file.take k) = some s1 → (s1.recs = s0.recs ∨ ∃ r, s1.recs = s0.recs ++ [r])
          ∧ ∀ i n, s0.db.node? i = some n → s1.db.node? i = some n := by
  obtain ⟨w, rest, h1, h2, h3⟩ := lastLine (file.take k)
  have hfile : file = w ++ (rest ++ file.drop k) := by
    rw [← List.append_assoc, ← h1, List.take_append_drop]
  unfold readCali at hr
  rw [hfile, parseFile_append h2, RState.lines_append] at hr
  cases h0 : RState.lines F ⟨db, [], false, []⟩ (parseFile w) with
  | none => simp [h0] at hr
  | some s0 =>
    rw [h0, Option.bind_some] at hr
    have ok0 := (RState.lines_ok hdb.ok h0).1
    obtain ⟨-, x, p⟩ := RState.lines_ok ok0 hr
    refine ⟨w, rest, s0, h1, h2, h3, h0, p, fun i n h => x.node h, ?_, ?_⟩
    · intro e
      subst e
      rw [h1, List.append_nil]
      exact h0
    · intro s1 hs
      unfold readCali at hs
      rw [h1, parseFile_append h2, RState.lines_append, h0, Option.bind_some, parseFile_one h3] at hs
      have x1 := (RState.lines_ok ok0 hs).2.1
      refine ⟨?_, fun i n h => x1.node h⟩
      by_cases e : rest = []
      · rw [if_pos e] at hs
        simp [RState.lines] at hs
        subst hs
        exact .inl rfl
      · rw [if_neg e] at hs
        simp only [RState.lines] at hs
        cases hm : s0.line F (parseLine rest) with
        | none => simp [hm] at hs
        | some t =>
          rw [hm] at hs
          simp at hs
          subst hs
          exact RState.line_recs hm

/-- **C100** (crashes).  The reader crashes on a file exactly if, reading its lines in order, it comes to a complete node
record (with id and attribute) which it cannot use: the attribute or the parent is unknown at this point, or the text is not a
value of the attribute's type. -/
theorem C100_crash_exactly (F : DblFmt) (db : DB) (file : List Byte) :
    readCali F db file = none ↔ ∃ pre f post s, parseFile file = pre ++ Parsed.node f :: post
      ∧ RState.lines F ⟨db, [], false, []⟩ pre = some s ∧ ¬ Usable F s f := by
  have hid : ∀ l f, parseLine l = .node f → f.id.toNat ≠ invN := by
    intro l f h
    unfold parseLine at h
    split at h
    · simp only at h
      split at h
      · cases h
      · rename_i hne
        cases h
        intro e
        refine hne (.inl ?_)
        apply BitVec.eq_of_toNat_eq
        rw [e]
        rfl
    · split at h
      · cases h
      · split at h <;> cases h
  have key : ∀ (ps : List Parsed) (t : RState), (∀ f, Parsed.node f ∈ ps → f.id.toNat ≠ invN) →
      (t.lines F ps = none ↔ ∃ pre f post s, ps = pre ++ Parsed.node f :: post ∧ t.lines F pre = some s ∧ ¬ Usable F s f) := by
    intro ps
    induction ps with
    | nil => intro t _; simp [RState.lines]
    | cons p ps ih =>
      intro t hf
      simp only [RState.lines]
      cases hm : t.line F p with
      | none =>
        simp only [true_iff]
        cases p with
        | bad => simp [RState.line] at hm
        | record k f => cases k <;> simp [RState.line] at hm
        | node f =>
          refine ⟨[], f, ps, t, rfl, rfl, ?_⟩
          simp only [RState.line] at hm
          cases hq : t.db.mergeNodeText F t.idmap f.id.toNat f.attr.toNat f.parent.toNat f.data with
          | none => exact (mergeNodeText_none (hf f List.mem_cons_self)).1 hq
          | some r => rw [hq] at hm; simp at hm
      | some t1 =>
        simp only
        rw [ih t1 (fun f h => hf f (List.mem_cons_of_mem _ h))]
        constructor
        · rintro ⟨pre, f, post, s, h1, h2, h3⟩
          refine ⟨p :: pre, f, post, s, by rw [h1]; rfl, ?_, h3⟩
          simp only [RState.lines, hm]
          exact h2
        · rintro ⟨pre, f, post, s, h1, h2, h3⟩
          cases pre with
          | nil =>
            exfalso
            simp only [List.nil_append, List.cons.injEq] at h1
            simp [RState.lines] at h2
            subst h2
            rw [h1.1] at hm
            simp only [RState.line] at hm
            rw [(mergeNodeText_none (hf f (by simp [h1.1]))).2 h3] at hm
            simp at hm
          | cons p' pre =>
            simp only [List.cons_append, List.cons.injEq] at h1
            obtain ⟨e1, e2⟩ := h1
            subst e1
            simp only [RState.lines, hm] at h2
            exact ⟨pre, f, post, s, e2, h2, h3⟩
  refine key _ _ ?_
  intro f hf
  unfold parseFile at hf
  obtain ⟨l, -, h⟩ := List.mem_map.1 hf
  exact hid l f h

/-! ## non-vacuity and violations -/

namespace DamageDemo
open Demo

/-- a file the writer makes: a record with a region path and a counter -/
def file : List Byte := caliFile F (DB.asSource src) [(Kind.snapshot, rec1)]

/-- the file is read without error and has one record -/
example : (readCali F DB.init file).map (fun s => (s.err, s.recs.length)) = some (false, 1) := by decide +kernel

/-- hypotheses of the theorem on foreign lines -/
example : WholeLines file ∧ NoRecord (str "hello") ∧ ch '\n' ∉ str "hello" ∧ str "hello" ≠ [] := by
  refine ⟨.inr ⟨file.dropLast, by decide +kernel⟩, ?_, by decide +kernel, by decide +kernel⟩
  intro h hh
  simp only [List.mem_cons, List.not_mem_nil, or_false] at hh
  rcases hh with rfl | rfl | rfl <;> decide +kernel

end DamageDemo

open Demo DamageDemo

/-- **C100 is violated**: a file cut off within a node line crashes the reader (here the writer's own file, cut in the middle of
the attribute id of the first line). -/
theorem C100_violated_truncated_crash : ∃ k, k < file.length ∧ readCali F DB.init (file.take k) = none
    ∧ (readCali F DB.init file).isSome := by
  refine ⟨23, ?_⟩
  decide +kernel

/-- **C100 is violated**: cut off within a record, the last value is wrong and no error is reported: the counter 42 becomes 4. -/
theorem C100_violated_truncated_value : (readCali F DB.init (file.take (file.length - 2))).map (fun s => (s.err, s.recs)) =
      some (false, [[⟨some 20, .string (str "fo=o,")⟩, ⟨some 16, .int 4⟩]])
    ∧ (readCali F DB.init file).map (fun s => (s.err, s.recs)) = some (false, [[⟨some 20, .string (str "fo=o,")⟩, ⟨some 16, .int 42⟩]]) := by decide +kernel

/-- **C100 is violated**: a reference to an unknown node gives an empty entry, and no error is reported. -/
theorem C100_violated_unknown_ref : (readCali F DB.init (str "__rec=ctx,ref=99\n")).map (fun s => (s.err, s.recs)) =
    some (false, [[⟨none, .inv⟩]]) := by decide +kernel

/-- **C100 is violated**: a node line with an unknown attribute crashes the reader. -/
theorem C100_violated_unknown_attribute : readCali F DB.init (str "__rec=node,id=50,attr=40,data=x\n") = none := by decide +kernel

end Verif.Cali
