import Verif.Query.Preproc
import Verif.Query.SelectSpec
/-!
# What LET should compute
-/
namespace Verif.Query.Pre
open Verif Verif.Cali Verif.Query

/-- innermost value of attribute `a` in an entry -/
def inner (a : Nat) (e : QEnt) : Option Val := (((pairs [e]).filter fun x => decide (x.1 = a)).map Prod.snd).head?

/-- `v` is the value of attribute `a` in the record: the one of the first entry that has a (non-empty) value for it -/
def FirstVal (rec : List QEnt) (a : Nat) (v : Val) : Prop :=
  ∃ pre e post, rec = pre ++ e :: post ∧ inner a e = some v ∧ v ≠ .inv ∧ ∀ e' ∈ pre, ∀ w, inner a e' = some w → w = .inv

/-- `v` is the value of the attribute named `n` -/
def Has (D : PDB) (rec : List QEnt) (n : Str) (v : Val) : Prop := ∃ a, D.attr n = some a ∧ FirstVal rec a.id v

/-- the values of those of the named attributes that are in the record, in order -/
inductive Present (D : PDB) (rec : List QEnt) : List Str → List Val → Prop
  | nil : Present D rec [] []
  | has {n ns v vs} : Has D rec n v → Present D rec ns vs → Present D rec (n :: ns) (v :: vs)
  | skip {n ns vs} : (¬∃ v, Has D rec n v) → Present D rec ns vs → Present D rec (n :: ns) vs

/-- `v` is the innermost value on the region path of an entry -/
def PathLeaf (D : PDB) (e : QEnt) (v : Val) : Prop :=
  ∃ p1 a p2, e = .ref (p1 ++ (a, v) :: p2) ∧ D.isNested a = true ∧ ∀ x ∈ p1, D.isNested x.1 = false

/-- `v` is the first of the values `G` that has type `t` -/
def FirstOfType (G : QEnt → Val → Prop) (t : AttrType) (rec : List QEnt) (v : Val) : Prop :=
  ∃ pre e post, rec = pre ++ e :: post ∧ G e v ∧ v.ty = t ∧ ∀ e' ∈ pre, ∀ w, G e' w → w.ty ≠ t

/-- The value of an operator for a record; `rt` is the type of the result attribute (used by `leaf`). -/
def Computes (O : POps) (D : PDB) (rt : AttrType) (rec : List QEnt) : LOp → Val → Prop
  | .ratio n d s, v => ∃ x y, Has D rec n x ∧ Has D rec d y ∧ O.nonzero (O.ofVal y) = true ∧ v = .double (O.mul s (O.fdiv (O.ofVal x) (O.ofVal y)))
  | .scale t s, v => ∃ x, Has D rec t x ∧ v = .double (O.mul s (O.ofVal x))
  | .truncate t f, v => ∃ a x, D.attr t = some a ∧ FirstVal rec a.id x ∧
      let r := O.sub (O.ofVal x) (O.fmod (O.ofVal x) f)
      match a.ty with
      | .int => v = .int ((O.toI32 r).signExtend 64)
      | .uint => v = .uint (O.absU r)
      | _ => v = .double r
  | .first ts, v => ∃ pre n post, ts = pre ++ n :: post ∧ Has D rec n v ∧ ∀ m ∈ pre, ¬∃ w, Has D rec m w
  | .sum ts, v => ∃ x xs, Present D rec ts (x :: xs) ∧ v = xs.foldl (addVal O.toFOps) x
  | .leafPath, v => FirstOfType (PathLeaf D) rt rec v
  | .leaf t, v => ∃ a, D.attr t = some a ∧ FirstOfType (fun e w => inner a.id e = some w) rt rec v

/-- Databases only grow, by the attribute named `n`. -/
def Grows (D D' : PDB) (n : Str) : Prop :=
  (∀ m a, D.attr m = some a → D'.attr m = some a) ∧ (∀ m, m ≠ n → D'.attr m = D.attr m) ∧
  (∀ i, D'.isNested i = D.isNested i)

/-- One LET: if the condition holds and the operator has a value for the record, the value is added under the given name, else the record
stays as it is. -/
def LetStep (O : POps) (dcmp : U64 → U64 → Int) (F : DblFmt) (L : LetDef) (D : PDB) (rec : List QEnt) (D' : PDB) (rec' : List QEnt) : Prop :=
  Grows D D' L.target ∧
  if (D.sel dcmp F).pass [L.cond] rec then
    (∃ a v, D'.attr L.target = some a ∧ Computes O D a.ty rec L.op v ∧ rec' = rec ++ [.imm a.id v]) ∨
    ((∀ rt, (∀ a, D'.attr L.target = some a → a.ty = rt) → ¬∃ v, Computes O D rt rec L.op v) ∧ rec' = rec)
  else D' = D ∧ rec' = rec

/-- several LETs, each sees the results of the ones before it -/
inductive LetChain (O : POps) (dcmp : U64 → U64 → Int) (F : DblFmt) : List LetDef → PDB → List QEnt → PDB → List QEnt → Prop
  | nil {D rec} : LetChain O dcmp F [] D rec D rec
  | cons {L Ls D rec D1 rec1 D2 rec2} : LetStep O dcmp F L D rec D1 rec1 → LetChain O dcmp F Ls D1 rec1 D2 rec2 →
      LetChain O dcmp F (L :: Ls) D rec D2 rec2

/-- The attributes used by the operators do not occur as metadata of other attributes. -/
def MetaFree (meta_ : Nat → List (Nat × Val)) (D : PDB) (Ls : List LetDef) : Prop :=
  ∀ L ∈ Ls, ∀ n ∈ L.op.names, ∀ a, D.attr n = some a → ∀ b, ∀ x ∈ meta_ b, x.1 ≠ a.id

end Verif.Query.Pre
