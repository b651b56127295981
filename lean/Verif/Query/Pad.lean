import Verif.Cali.Text
/-!
# Padding and clamping of table cells

Model of `/repo/src/common/util/format_util.cpp`.
-/
namespace Verif.Query.Fmt
open Verif Verif.Cali

abbrev Str := List Byte

/-- `whitespace` (`format_util.cpp:9-11`): 80 blanks and the terminating NUL -/
def whitespace : Str := List.replicate 80 (ch ' ')

/-- the loop `for (; s > 80; s -= 80) os << whitespace; os << whitespace + (80 - s)` (`format_util.cpp:24-27`, `38-41`) -/
def blanks : Nat → Nat → Str
  | 0, _ => []
  | f + 1, s => if s > 80 then whitespace ++ blanks f (s - 80) else whitespace.drop (80 - s)

/-- `pad_right` (`format_util.cpp:15-31`) -/
def padRight (s : Str) (width : Nat) : Str :=
  if s.length > width then s ++ [ch ' '] else s ++ blanks (width + 1) (1 + width - s.length)

/-- `pad_left` (`format_util.cpp:33-47`) -/
def padLeft (s : Str) (width : Nat) : Str :=
  (if s.length < width then blanks (width + 1) (width - s.length) else []) ++ (s ++ [ch ' '])

/-- `clamp_string` (`format_util.cpp:49-63`) -/
def clampStr (s : Str) (w : Nat) : Str :=
  if s.length ≤ w then s
  else if w < 4 then s.take w
  else s.take (w / 2 - 1) ++ (str "~~" ++ s.drop (s.length - (w / 2 - 1)))

/-- `column_width` (`TreeFormatter.cpp:63-66`, `TableFormatter.cpp:65-68`); `maxw` is 0 here for every non-positive setting -/
def colWidth (maxw base : Nat) : Nat := max (if maxw > 0 then min base maxw else base) 4

/-! ### facts -/

theorem blanks_eq : ∀ (f s : Nat), s < f → blanks f s = List.replicate s (ch ' ')
  | 0, s, h => by omega
  | f + 1, s, h => by
    unfold blanks
    by_cases h80 : s > 80
    · rw [if_pos h80, blanks_eq f (s - 80) (by omega), whitespace, List.replicate_append_replicate]
      congr 1; omega
    · rw [if_neg h80, whitespace, List.drop_replicate]
      congr 1; omega

theorem padRight_eq {s : Str} {w : Nat} (h : s.length ≤ w) : padRight s w = s ++ List.replicate (w + 1 - s.length) (ch ' ') := by
  unfold padRight
  rw [if_neg (by omega)]
  by_cases h0 : s.length = 0
  · have : s = [] := List.length_eq_zero_iff.1 h0
    subst this
    simp only [List.length_nil, Nat.sub_zero, List.nil_append]
    -- the loop needs one more round of fuel than characters only in the empty case
    unfold blanks
    by_cases h80 : 1 + w > 80
    · rw [if_pos h80, blanks_eq w _ (by omega), whitespace, List.replicate_append_replicate]
      congr 1; omega
    · rw [if_neg h80, whitespace, List.drop_replicate]
      congr 1; omega
  · rw [blanks_eq _ _ (by omega)]
    congr 2; omega

theorem padLeft_eq {s : Str} {w : Nat} (h : s.length ≤ w) : padLeft s w = List.replicate (w - s.length) (ch ' ') ++ (s ++ [ch ' ']) := by
  unfold padLeft
  by_cases h1 : s.length < w
  · rw [if_pos h1, blanks_eq _ _ (by omega)]
  · rw [if_neg h1]
    have : w - s.length = 0 := by omega
    rw [this]; rfl

theorem clampStr_length (s : Str) (w : Nat) : (clampStr s w).length ≤ w := by
  unfold clampStr
  by_cases h1 : s.length ≤ w
  · rw [if_pos h1]; exact h1
  · rw [if_neg h1]
    by_cases h2 : w < 4
    · rw [if_pos h2, List.length_take]; omega
    · rw [if_neg h2]
      simp only [List.length_append, List.length_take, List.length_drop]
      have : (str "~~").length = 2 := by decide
      omega

theorem clampStr_id {s : Str} {w : Nat} (h : s.length ≤ w) : clampStr s w = s := if_pos h

theorem padRight_length {s : Str} {w : Nat} (h : s.length ≤ w) : (padRight s w).length = w + 1 := by
  rw [padRight_eq h, List.length_append, List.length_replicate]; omega

theorem padLeft_length {s : Str} {w : Nat} (h : s.length ≤ w) : (padLeft s w).length = w + 1 := by
  rw [padLeft_eq h]; simp; omega

theorem colWidth_ge (maxw base : Nat) : 4 ≤ colWidth maxw base := by unfold colWidth; omega

/-- with no limit, or a limit that is large enough, a column is as wide as its widest cell -/
theorem colWidth_fit {maxw base n : Nat} (h : n ≤ base) (hm : maxw = 0 ∨ n ≤ maxw) : n ≤ colWidth maxw base := by
  unfold colWidth
  split <;> omega

end Verif.Query.Fmt
