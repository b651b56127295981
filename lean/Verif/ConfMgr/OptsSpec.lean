import Verif.ConfMgr.StringSpec
import Mathlib.Logic.Relation
/-!
# What options do
-/
namespace Verif.ConfMgr
open Verif Verif.Cali Verif.Parse
open Verif.Query.CalQL (Spaces)

/-- option `a` is declared and inherits option `b` -/
def Inh (D : List (Str × Opt)) (a b : Str) : Prop := ∃ o, D.lookup a = some o ∧ b ∈ o.inherited

/-- a value turns an option on: all values do, except that the value of a bool option must mean true -/
def TurnsOn (o : Opt) (v : Str) : Prop := o.type = str "bool" → toBoolStr v = some true

/-- an option is on: it, or an option that inherits it (also through others), is declared and given with a value that turns it on -/
def On (D : List (Str × Opt)) (args : Args) (k : Str) : Prop :=
  ∃ a v o, (a, v) ∈ args ∧ D.lookup a = some o ∧ TurnsOn o v ∧ Relation.ReflTransGen (Inh D) a k

mutual
/-- the options inherited by an option, in order: for each one, those it inherits and then itself -/
inductive Expands (D : List (Str × Opt)) : Str → List Str → Prop
  | unknown {k} : D.lookup k = none → Expands D k []
  | known {k o l} : D.lookup k = some o → ExpandsL D o.inherited l → Expands D k l
/-- the same for a list of inherited options -/
inductive ExpandsL (D : List (Str × Opt)) : List Str → List Str → Prop
  | nil : ExpandsL D [] []
  | cons {i l is r} : Expands D i l → ExpandsL D is r → ExpandsL D (i :: is) (l ++ i :: r)
end

/-- the options turned on by arguments, in order: for each argument its option and then those it inherits -/
inductive Listed (D : List (Str × Opt)) : Args → List Str → Prop
  | nil : Listed D [] []
  | off {k v args l} : (∀ o, D.lookup k = some o → ¬TurnsOn o v) → Listed D args l → Listed D ((k, v) :: args) l
  | on {k v o args x l} : D.lookup k = some o → TurnsOn o v → Expands D k x → Listed D args l → Listed D ((k, v) :: args) (k :: (x ++ l))

/-- the first occurrences of the elements of a list, in their order -/
def Firsts (l r : List Str) : Prop := (∀ x, x ∈ r ↔ x ∈ l) ∧ r.Pairwise fun x y => l.idxOf x < l.idxOf y

/-- the settings an enabled option makes: the text of the setting, with the value of the option for `{}` if the option is given itself -/
def Opts.settings (o : Opts) (k : Str) : List (Str × Str) :=
  match o.data.lookup k with
  | none => []
  | some d => d.config.map fun e => (e.1, match o.args.lookup k with | none => e.2 | some v => expand v e.2)

/-- the text an enabled option adds to a query -/
def Opts.queryText (o : Opts) (level k : Str) : Str :=
  match (o.data.lookup k).bind fun d => d.query.lookup level with
  | none => []
  | some q => ch ' ' :: expand ((o.args.lookup k).getD []) q

end Verif.ConfMgr
