import Verif.ConfMgr.Model
import Verif.Query.CalQLSpec
/-!
# Written specs and config strings, and what they mean
-/
namespace Verif.ConfMgr
open Verif Verif.Cali Verif.Parse
open Verif.Query.CalQL (Spaces)

/-! ## Nested text -/

/-- text inside quotes -/
inductive Quoted : Str → Prop
  | nil : Quoted []
  | chr {c r} : c ≠ ch '"' → c ≠ ch '\\' → Quoted r → Quoted (c :: r)
  | esc {c r} : Quoted r → Quoted (ch '\\' :: c :: r)

/-- text in which the brackets `o` and `c` are balanced outside quotes -/
inductive Nest (o c : Byte) : Str → Prop
  | nil : Nest o c []
  | chr {x r} : x ≠ ch '"' → x ≠ ch '\\' → x ≠ o → x ≠ c → Nest o c r → Nest o c (x :: r)
  | esc {x r} : Nest o c r → Nest o c (ch '\\' :: x :: r)
  | quo {q r} : Quoted q → Nest o c r → Nest o c (ch '"' :: (q ++ ch '"' :: r))
  | brk {t r} : Nest o c t → Nest o c r → Nest o c (o :: (t ++ c :: r))

/-! ## Structured texts -/

/-- structured values: strings (and numbers), dictionaries, lists -/
inductive J where
  | word (w : Str)
  | dict (l : List (Str × J))
  | list (l : List J)

/-- a string in quotes, or a word without special characters as it is -/
def JWord (w t : Str) : Prop :=
  t = quote w ∨ (t = w ∧ w ≠ [] ∧ ∀ c ∈ w, c ∉ str "{}[],:\"\\" ∧ isSpace c = false)

mutual
/-- how a value is written -/
inductive JText : J → Str → Prop
  | word {w t} : JWord w t → JText (.word w) t
  | dict {l b} : DBody l b → JText (.dict l) (ch '{' :: (b ++ [ch '}']))
  | list0 {ws} : Spaces ws → JText (.list []) (ch '[' :: (ws ++ [ch ']']))
  | list {l b} : LBody l b → JText (.list l) (ch '[' :: (b ++ [ch ']']))
/-- the entries of a dictionary, with any white space around the parts; there must be an entry, and the keys must not be empty -/
inductive DBody : List (Str × J) → Str → Prop
  | one {k j a tk b c t d} : Spaces a → k ≠ [] → JWord k tk → Spaces b → Spaces c → JText j t → Spaces d →
      DBody [(k, j)] (a ++ tk ++ (b ++ ch ':' :: (c ++ t ++ d)))
  | cons {k j l a tk b c t d r} : Spaces a → k ≠ [] → JWord k tk → Spaces b → Spaces c → JText j t → Spaces d → DBody l r →
      DBody ((k, j) :: l) (a ++ tk ++ (b ++ ch ':' :: (c ++ t ++ (d ++ ch ',' :: r))))
/-- the elements of a list; empty strings are not allowed -/
inductive LBody : List J → Str → Prop
  | one {j a t d} : Spaces a → JText j t → j ≠ .word [] → Spaces d → LBody [j] (a ++ t ++ d)
  | cons {j l a t d r} : Spaces a → JText j t → j ≠ .word [] → Spaces d → LBody l r → LBody (j :: l) (a ++ t ++ (d ++ ch ',' :: r))
end

/-- how a value is kept: strings without their quotes, lists and dictionaries as they are written -/
def Kept : J → Str → Prop
  | .word w, s => s = w
  | j, s => JText j s

/-! ## What specs declare -/

/-- the last value given for a key -/
def lastVal {α : Type} (l : List (Str × α)) (k : Str) : Option α := (l.reverse.find? fun e => decide (e.1 = k)).map Prod.snd

/-- a map has exactly these entries, the last one for each key, in the order of the keys -/
def MapOf {α : Type} (l m : List (Str × α)) : Prop := m.Pairwise (fun a b => Query.Json.strLt a.1 b.1 = true) ∧ ∀ q, m.lookup q = lastVal l q

/-- strings separated by commas -/
def commas (l : List Str) : Str := List.intercalate [ch ','] l

/-- an entry with a string; nothing if there is none -/
def StrF (l : List (Str × J)) (k : String) (v : Str) : Prop :=
  (lastVal l (str k) = none ∧ v = []) ∨ lastVal l (str k) = some (.word v)

/-- a value is a list of strings, or just one string -/
def IsList (j : J) (vs : List Str) : Prop :=
  j = .list (vs.map .word) ∨ ∃ w, j = .word w ∧ vs = [w] ∧ w ≠ [] ∧ ∀ c ∈ w, c ∉ str "{}[],:\"\\" ∧ isSpace c = false

/-- an entry with a list of strings; empty if there is none -/
def ListF (l : List (Str × J)) (k : String) (vs : List Str) : Prop :=
  (lastVal l (str k) = none ∧ vs = []) ∨ ∃ j, lastVal l (str k) = some j ∧ IsList j vs

/-- an entry with a dictionary of strings; empty if there is none -/
def MapF (l : List (Str × J)) (k : String) (m : List (Str × Str)) : Prop :=
  (lastVal l (str k) = none ∧ m = []) ∨
  ∃ kvs : List (Str × Str), lastVal l (str k) = some (.dict (kvs.map fun e => (e.1, .word e.2))) ∧ MapOf kvs m

/-- an expression in the old notation for SELECT -/
def SelItem : J → Str → Prop
  | .word w, t => t = w ∧ (w.dropWhile isSpace).head? ≠ some (ch '{')
  | .dict d, t => ∃ e a u, lastVal d (str "expr") = some (.word e) ∧ e ≠ [] ∧
      ((lastVal d (str "as") = none ∧ a = []) ∨ ∃ w, lastVal d (str "as") = some (.word w) ∧ a = str " as \"" ++ w ++ str "\"") ∧
      ((lastVal d (str "unit") = none ∧ u = []) ∨ ∃ w, lastVal d (str "unit") = some (.word w) ∧ u = str " unit \"" ++ w ++ str "\"") ∧
      t = e ++ a ++ u
  | .list _, _ => False

/-- a clause in the old notation for queries -/
def ClauseF (q : List (Str × J)) (k : String) (t : Str) : Prop :=
  (lastVal q (str k) = none ∧ t = []) ∨ ∃ j vs, lastVal q (str k) = some j ∧ IsList j vs ∧ t = str " " ++ str k ++ str " " ++ commas vs

/-- the SELECT clause in the old notation -/
def SelectF (q : List (Str × J)) (t : Str) : Prop :=
  (lastVal q (str "select") = none ∧ t = []) ∨
  ∃ items ts, lastVal q (str "select") = some (.list items) ∧ List.Forall₂ SelItem items ts ∧
    t = if ts = [] then [] else str " select " ++ commas ts

/-- a query in the old notation: its level and its text -/
def OldQuery (q : List (Str × J)) (p : Str × Str) : Prop :=
  lastVal q (str "level") = some (.word p.1) ∧ ∃ g l w a o s, ClauseF q "group by" g ∧ ClauseF q "let" l ∧ ClauseF q "where" w ∧
    ClauseF q "aggregate" a ∧ ClauseF q "order by" o ∧ SelectF q s ∧ p.2 = g ++ l ++ w ++ a ++ o ++ s

/-- the queries of an option: a dictionary from levels to texts, or the old notation -/
def QueryF (l : List (Str × J)) (m : List (Str × Str)) : Prop :=
  MapF l "query" m ∨
  ∃ (qs : List (List (Str × J))) (ps : List (Str × Str)), lastVal l (str "query") = some (.list (qs.map .dict)) ∧ List.Forall₂ OldQuery qs ps ∧ MapOf ps m

/-- an option spec declares the option `name` -/
def Declares (l : List (Str × J)) (name : Str) (o : Opt) : Prop :=
  lastVal l (str "name") = some (.word name) ∧ StrF l "type" o.type ∧ StrF l "description" o.description ∧ StrF l "category" o.category ∧
  ListF l "services" o.services ∧ ListF l "inherit" o.inherited ∧ MapF l "config" o.config ∧ QueryF l o.query

/-- the options from a list of option specs: the last one for each name -/
def Options (decls : List (List (Str × J))) (D0 D : List (Str × Opt)) : Prop :=
  ∃ os : List (Str × Opt), List.Forall₂ (fun l e => Declares l e.1 e.2) decls os ∧
    ∀ q, D.lookup q = (lastVal os q).or (D0.lookup q)

/-- the option specs in a config spec -/
def OptionsF (l : List (Str × J)) (decls : List (List (Str × J))) : Prop :=
  (lastVal l (str "options") = none ∧ decls = []) ∨ lastVal l (str "options") = some (.list (decls.map .dict))

/-- the variable with the list of services -/
def servicesVar : Str := str "CALI_SERVICES_ENABLE"

/-- the initial channel configuration: the given one, with the services added to its list of services -/
def InitialConfig (l : List (Str × J)) (services : List Str) (m : List (Str × Str)) : Prop :=
  ∃ cfg, MapF l "config" cfg ∧ m.Pairwise (fun a b => Query.Json.strLt a.1 b.1 = true) ∧
    ∀ q, m.lookup q = if q = servicesVar ∧ services ≠ [] then some ((cfg.lookup q).getD [] ++ commas services) else cfg.lookup q

/-- a config spec declares the config `c` with these services and other names -/
def DeclaresConfig (l : List (Str × J)) (services others : List Str) (c : CSpec) : Prop :=
  lastVal l (str "name") = some (.word c.name) ∧ ListF l "services" services ∧ ListF l "alias" others ∧ ListF l "categories" c.categories ∧
  StrF l "description" c.description ∧ MapF l "defaults" c.defaults ∧ InitialConfig l services c.initial ∧
  ∃ decls, OptionsF l decls ∧ Options decls [] c.opts.data

end Verif.ConfMgr
