import Verif.Out.RecTableSpec
import Verif.Props.TableFmt
import Mathlib.Data.List.Forall2

/-! # C123: global values are printed one to a line, aligned, and not cut without need -/

namespace Verif.RecTable
open Verif Verif.Cali Verif.Query.Fmt

theorem foldl_add (p : List Item) : ∀ s : Info, p.foldl Info.add s =
    ⟨s.entries ++ p, max s.maxKey (longest (p.map Item.key)), max s.maxRight (longest ((p.filter Item.right).map Item.val))⟩ := by
  induction p with
  | nil => intro s; simp [longest]
  | cons i p ih =>
    intro s
    rw [List.foldl_cons, ih]
    cases h : i.right <;> simp [Info.add, h, longest, Nat.max_assoc]

theorem unpack_eq (l : List Ent) : unpack l =
    ⟨items l, longest ((items l).map Item.key), longest (((items l).filter Item.right).map Item.val)⟩ := by
  have key : ∀ (l : List Ent) (s : Info), l.foldl Info.ent s = (items l).foldl Info.add s := by
    intro l
    induction l with
    | nil => intro s; rfl
    | cons e l ih =>
      intro s
      rw [List.foldl_cons, ih]
      cases e <;> simp [items, Info.ent, List.foldl_append]
  unfold unpack
  rw [key, foldl_add]
  simp

theorem longest_ge {s : Str} : ∀ {l : List Str}, s ∈ l → s.length ≤ longest l
  | [], h => by simp at h
  | t :: l, h => by
    rcases List.mem_cons.1 h with rfl | h
    · exact Nat.le_max_left _ _
    · exact Nat.le_trans (longest_ge h) (Nat.le_max_right _ _)

theorem cut_clamp (s : Str) (w : Nat) : Cut s (clampStr s w) w := _root_.Verif.C64_cut s w

theorem writeLoop_lines (s : Info) : ∀ (l : List Item) (n : Nat),
    writeLoop s n l = if n > 0 then (l.map fun e => str "\n" ++ line s e).flatten else List.intercalate (str "\n") (l.map (line s))
  | [], n => by simp [writeLoop]
  | e :: l, n => by
    rw [writeLoop, writeLoop_lines s l (n + 1), if_pos (Nat.succ_pos n)]
    by_cases hn : n > 0
    · simp [hn]
    · rw [if_neg hn, if_neg hn]
      rw [List.nil_append]
      have : ∀ (x : Str) (l : List Item), x ++ (l.map fun e => str "\n" ++ line s e).flatten = List.intercalate (str "\n") (x :: l.map (line s)) := by
        intro x l
        induction l generalizing x with
        | nil => simp [List.intercalate]
        | cons y l ih =>
          simp only [List.map_cons, List.flatten_cons, List.append_assoc]
          rw [ih]
          simp [List.intercalate, List.intersperse]
      exact this _ _

/-- **C123**: every record is printed as one line for each value in it, in the order of the record, the colons in one column, at most 24 characters of names before it; numbers are shown completely
and end in one column, other values are shown completely up to 52 characters. -/
theorem C123_lines (l : List Ent) : ∃ lines : List Str,
    format l = List.intercalate (str "\n") lines ++ str "\n" ∧
    List.Forall₂ (LineOf (min (longest ((items l).map Item.key)) 24) (longest (((items l).filter Item.right).map Item.val))) (items l) lines := by
  refine ⟨(items l).map (line (unpack l)), ?_, ?_⟩
  · unfold format
    rw [writeLoop_lines, if_neg (Nat.lt_irrefl 0)]
    rw [show (unpack l).entries = items l by rw [unpack_eq]]
  · rw [List.forall₂_map_right_iff, List.forall₂_same]
    intro i hi
    rw [unpack_eq]
    simp only [line]
    refine ⟨_, (if i.right then padLeft i.val (longest (((items l).filter Item.right).map Item.val)) else clampStr i.val 52), cut_clamp i.key _, ?_, ?_⟩
    · rw [padRight_eq (clampStr_length _ _)]
    · cases h : i.right with
      | false => exact cut_clamp _ _
      | true =>
        have : i.val.length ≤ longest (((items l).filter Item.right).map Item.val) :=
          longest_ge (List.mem_map_of_mem (List.mem_filter.2 ⟨hi, h⟩))
        simp only [if_true]
        rw [padLeft_eq this]
        simp

/-- the test of the repository, with a longer name and a path of two nodes -/
def recEx : List Ent :=
  [.imm ⟨str "aaaa", str "42", true⟩, .imm ⟨str "bb", str "4242", true⟩, .ref [⟨str "str", str "a string value", false⟩, ⟨str "str", str "main", false⟩],
   .imm ⟨str "a.name.of.twenty.six.chars", str "1", false⟩]

theorem C123_example : format recEx = str "aaaa                     :   42 \nbb                       : 4242 \nstr                      : a string value\nstr                      : main\na.name.of.t~~y.six.chars : 1\n" := by
  decide +kernel

/-- **C123**, violation: if there is nothing to print, an empty line is printed -/
theorem C123_violation_empty : format [] = str "\n" := rfl

/-- **C123**, violation: two names with the same first and last eleven characters are printed as the same name -/
theorem C123_violation_same (a b x y : Str) (ha : a.length = 11) (hb : b.length = 11) (hx : 3 ≤ x.length) (hy : 3 ≤ y.length) (v : Str) :
    format [.imm ⟨a ++ x ++ b, v, false⟩] = format [.imm ⟨a ++ y ++ b, v, false⟩] := by
  have c : ∀ z : Str, 3 ≤ z.length → clampStr (a ++ z ++ b) 24 = a ++ (str "~~" ++ b) := by
    intro z hz
    unfold clampStr
    rw [if_neg (by simp; omega), if_neg (by decide)]
    have e1 : (a ++ z ++ b).take 11 = a := by rw [List.append_assoc, ← ha, List.take_left]
    have e2 : (a ++ z ++ b).drop ((a ++ z ++ b).length - 11) = b := by
      rw [show (a ++ z ++ b).length - 11 = (a ++ z).length by simp; omega, List.drop_left]
    rw [show 24 / 2 - 1 = 11 from rfl, e1, e2]
  have u : ∀ z : Str, 3 ≤ z.length → format [.imm ⟨a ++ z ++ b, v, false⟩] =
      padRight (a ++ (str "~~" ++ b)) 24 ++ str ": " ++ clampStr v 52 ++ str "\n" := by
    intro z hz
    have hk : min (max 0 (a ++ z ++ b).length) 24 = 24 := by simp; omega
    simp only [format, unpack, List.foldl_cons, List.foldl_nil, Info.ent, Info.add, List.nil_append, writeLoop, line, hk, c z hz]
    simp
  rw [u x hx, u y hy]

/-- **C123**, violation: the value of a nested global is printed backwards, the innermost first, and each part looks like a value of its own -/
theorem C123_violation_path : format [.ref [⟨str "p", str "c", false⟩, ⟨str "p", str "b", false⟩, ⟨str "p", str "a", false⟩]] = str "p : c\np : b\np : a\n" := by
  decide +kernel

end Verif.RecTable
