import Verif.Config.Model
/-!
# Specification of the configuration precedence and of config files
-/
namespace Verif.Config
open Verif Verif.Cali Verif.Parse

/-- the first source that has a value -/
def firstOf (l : List (Option Str)) : Option Str := l.findSome? id

/-- value a `set` or `import` call gives to a variable -/
def Op.sets (k : Str) : Op → Option Str
  | .set k' v => if k' = k then some v else none
  | .import_ l => l.get k
  | _ => none

/-- value a `preset` call gives to a variable -/
def Op.presets (k : Str) : Op → Option Str
  | .preset k' v => if k' = k then some v else none
  | _ => none

/-- `allow_read_env` calls -/
def Op.allows : Op → Option Bool
  | .allow b => some b
  | _ => none

/-- calls that read the configuration files if that was not yet done -/
def Op.starts : Op → Bool
  | .init _ _ => true
  | .get _ _ => true
  | _ => false

/-- the last value in a history of calls -/
def lastOf {α : Type} (f : Op → Option α) (h : List (World × Op)) : Option α := (h.map Prod.snd).reverse.findSome? f

/-- value of the environment variable, if reading the environment is allowed -/
def envOf (h : List (World × Op)) (W : World) (k : Str) : Option Str := if (lastOf Op.allows h).getD true then W.env k else none

/-- calls before the configuration files are read -/
def before (h : List (World × Op)) : List (World × Op) := h.takeWhile fun x => !x.2.starts
/-- the call with which the files are read, and later calls -/
def since (h : List (World × Op)) : List (World × Op) := h.dropWhile fun x => !x.2.starts
/-- the files and environment at that time; `W` if it is the current call -/
def startWorld (h : List (World × Op)) (W : World) : World := (((since h).head?).map Prod.fst).getD W

/-- variables read at the start -/
def filesVar : Str := str "CALI_CONFIG_FILE"
@[inherit_doc filesVar]
def profilesVar : Str := str "CALI_CONFIG_PROFILE"

variable (builtin : List Byte)

/-- the profiles defined in the built-in text and the config files, which the user names by a `set` call, the environment, or a `preset`
call -/
def profilesOf (h0 : List (World × Op)) (W : World) : SMap Prof :=
  readFiles builtin W .empty (stringList ((firstOf
    [lastOf (Op.sets filesVar) h0, envOf h0 W filesVar, lastOf (Op.presets filesVar) h0]).getD (str "caliper.config")))

/-- value in the default profile -/
def defaultValue (P : SMap Prof) (k : Str) : Option Str := (P.get (str "default")).bind fun p => p.get k

/-- the profiles the user selects by a `set` call, the environment, the default profile of the config files, or a `preset` call -/
def selectedOf (h0 : List (World × Op)) (W : World) : List Str :=
  stringList ((firstOf [lastOf (Op.sets profilesVar) h0, envOf h0 W profilesVar, defaultValue (profilesOf builtin h0 W) profilesVar,
    lastOf (Op.presets profilesVar) h0]).getD (str "default"))

/-- value in the selected profiles: later ones override earlier ones -/
def selectedValue (P : SMap Prof) (names : List Str) (k : Str) : Option Str := names.reverse.findSome? fun n => (P.get n).bind fun p => p.get k

/-- where the value of variable `k` comes from, by precedence -/
def sources (h : List (World × Op)) (W : World) (k : Str) : List (Option Str) :=
  let P := profilesOf builtin (before h) (startWorld h W)
  [lastOf (Op.sets k) h,
   envOf h W k,
   lastOf (Op.presets k) (since h),
   selectedValue P (selectedOf builtin (before h) (startWorld h W)) k,
   defaultValue P k,
   lastOf (Op.presets k) (before h)]

/-! ### config files -/

/-- the lines of a config file -/
inductive Line where
  | blank
  | comment (t : List Byte)
  | junk (t : List Byte)
  | group (pre name post : List Byte)
  | assign (var val text : List Byte)

/-- their text -/
def Line.text : Line → List Byte
  | .blank => []
  | .comment t => ch '#' :: t
  | .junk t => t
  | .group pre name post => ch '#' :: (pre ++ [ch '['] ++ name ++ [ch ']'] ++ post)
  | .assign var _ text => var ++ [ch '='] ++ text

/-- well-written lines: comments have no brackets or nothing in the brackets, other lines without `=` say nothing, profile names are not empty, and values are words
that are quoted if needed, maybe between white space -/
def Line.Ok : Line → Prop
  | .blank => True
  | .comment t => ch '\n' ∉ t ∧ (ch '[' ∉ t ∨ ch ']' ∉ t ∨ ∃ pre post, t = pre ++ ch '[' :: ch ']' :: post ∧ ch '[' ∉ pre ∧ ch ']' ∉ pre)
  | .junk t => t ≠ [] ∧ t.head? ≠ some (ch '#') ∧ ch '\n' ∉ t ∧ ch '=' ∉ t
  | .group pre name post => name ≠ [] ∧ ch '\n' ∉ pre ++ name ++ post ∧ ch '=' ∉ pre ++ name ++ post ∧ ch '[' ∉ pre ∧ ch ']' ∉ pre ++ name
  | .assign var val text => var ≠ [] ∧ ch '\n' ∉ var ++ text ∧ var.head? ≠ some (ch '#') ∧ ch '=' ∉ var ∧
      ∃ ws t rest, text = ws ++ t ++ rest ∧ (∀ c ∈ ws, isSpace c = true) ∧ (rest = [] ∨ ∃ c cs, rest = c :: cs ∧ isSpace c = true) ∧
        (IsText [] val t ∨ (val = [] ∧ t = [] ∧ rest = []))

/-- the sections of a file: profile name and assignments; the first one belongs to the default profile -/
def sectionsFrom : Str → List (Str × Str) → List Line → List (Str × List (Str × Str))
  | n, acc, [] => [(n, acc)]
  | n, acc, .assign var val _ :: r => sectionsFrom n (acc ++ [(var, val)]) r
  | n, acc, .group _ name _ :: r => (n, acc) :: sectionsFrom name [] r
  | n, acc, _ :: r => sectionsFrom n acc r

@[inherit_doc sectionsFrom]
def sections (ls : List Line) : List (Str × List (Str × Str)) := sectionsFrom (str "default") [] ls

/-- the last assignment of a variable -/
def lastDef (l : List (Str × Str)) (k : Str) : Option Str := l.reverse.findSome? fun e => if e.1 = k then some e.2 else none

/-- the documented meaning: the last definition of a variable in the profile, in the files in order, counts -/
def documented (files : List (List Line)) (profile k : Str) : Option Str :=
  lastDef ((files.flatMap sections).filter (fun s => decide (s.1 = profile)) |>.flatMap Prod.snd) k

end Verif.Config
