import Verif.ConfMgr.StringSpec
/-!
# Metadata from options and files
-/
namespace Verif.ConfMgr
open Verif Verif.Cali Verif.Parse
open Verif.Query.CalQL (Spaces)

/-- `key=value` pairs separated by commas -/
inductive PairsT : Args → Str → Prop
  | one {a k tk b c v tv d} : Spaces a → IsText [ch '='] k tk → Spaces b → Spaces c → IsText (str ",()") v tv → Spaces d →
      PairsT [(k, v)] (a ++ tk ++ (b ++ ch '=' :: (c ++ tv ++ d)))
  | cons {a k tk b c v tv d l r} : Spaces a → IsText [ch '='] k tk → Spaces b → Spaces c → IsText (str ",()") v tv → Spaces d → PairsT l r →
      PairsT ((k, v) :: l) (a ++ tk ++ (b ++ ch '=' :: (c ++ tv ++ (d ++ ch ',' :: r))))

/-- words with a separator between them -/
inductive WordsT (sep : Byte) : List Str → Str → Prop
  | one {a w tw d} : Spaces a → IsText [sep] w tw → Spaces d → WordsT sep [w] (a ++ tw ++ d)
  | cons {a w tw d l r} : Spaces a → IsText [sep] w tw → Spaces d → WordsT sep l r → WordsT sep (w :: l) (a ++ tw ++ (d ++ sep :: r))

/-- the value at a path -/
def J.at : List Str → J → Option J
  | [], j => some j
  | k :: p, .dict l => (lastVal l k).bind (J.at p)
  | _ :: _, _ => none

mutual
/-- strings do not begin with a brace -/
def J.Solid : J → Prop
  | .word w => (w.dropWhile isSpace).head? ≠ some (ch '{')
  | .dict l => J.SolidD l
  | .list _ => True
def J.SolidD : List (Str × J) → Prop
  | [] => True
  | (_, j) :: l => j.Solid ∧ J.SolidD l
end

mutual
/-- the metadata entries for a value: strings and lists as one entry, dictionaries as one entry for each of their values, with dots in the names -/
inductive Flat : Str → J → Args → Prop
  | word {key w} : Flat key (.word w) [(key, w)]
  | list {key l t} : JText (.list l) t → Flat key (.list l) [(key, t)]
  | dict {key l m es} : MapOf l m → FlatL key m es → Flat key (.dict l) es
inductive FlatL : Str → List (Str × J) → Args → Prop
  | nil {key} : FlatL key [] []
  | cons {key k j m es rest} : Flat (key ++ ch '.' :: k) j es → FlatL key m rest → FlatL key ((k, j) :: m) (es ++ rest)
end

/-- the metadata entries for a list of keys; keys that are not in the file are left out -/
inductive Selected (d : List (Str × J)) : List Str → Args → Prop
  | nil : Selected d [] []
  | found {k p j es ks rest} : WordsT (ch '.') p k → (J.dict d).at p = some j → Flat k j es → Selected d ks rest → Selected d (k :: ks) (es ++ rest)
  | missing {k p ks rest} : WordsT (ch '.') p k → (J.dict d).at p = none → Selected d ks rest → Selected d (k :: ks) rest

/-- the metadata entries from a file: for the given keys, or for all of them -/
def FileEntries (d : List (Str × J)) (keys : Str) (es : Args) : Prop :=
  (keys = [] ∧ ∃ m, MapOf d m ∧ Selected d (m.map Prod.fst) es) ∨ ∃ ks, WordsT (ch ',') ks keys ∧ Selected d ks es

/-- the metadata entries for an option: the option itself with its value, or for the `metadata` option the pairs in it, or those from a file -/
inductive MetaOf (files : Str → Option Str) : Str × Str → Args → Prop
  | option {k v} : k ≠ str "metadata" → MetaOf files (k, v) [(str "opts:" ++ k, v)]
  | pairs {v l} : PairsT l v → l.lookup (str "file") = none → MetaOf files (str "metadata", v) l
  | noFile {v l f} : PairsT l v → l.lookup (str "file") = some f → files f = none → MetaOf files (str "metadata", v) []
  | noDict {v l f t} : PairsT l v → l.lookup (str "file") = some f → files f = some t → (t.dropWhile isSpace).head? ≠ some (ch '{') →
      MetaOf files (str "metadata", v) []
  | file {v l f ws t rest d es} : PairsT l v → l.lookup (str "file") = some f → files f = some (ws ++ t ++ rest) → Spaces ws → JText (.dict d) t →
      (J.dict d).Solid → FileEntries d ((l.lookup (str "keys")).getD []) es → MetaOf files (str "metadata", v) es

end Verif.ConfMgr
