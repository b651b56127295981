import Verif.E2E.Model
import Verif.Query.SnapTree
import Verif.Query.SnapTreeSpec
import Verif.Query.FormatStr
import Verif.E2E.ThreadsSpec
/-!
# The tree `cali-query` prints

The rows of a query go to the formatter the query names (`FormatProcessor::create_formatter`, `/repo/src/reader/FormatProcessor.cpp:62-91`); here it is the tree formatter.

Simplified: `info` is the metadata database at the end (the attributes of a row are known when the formatter gets it);
the metadata database of `Verif/Query/Preproc` has no hidden and global flags: the attributes that can be columns here are results of aggregation kernels, which have
neither (`Aggregator.cpp:60`, `93-107`).  `alias` gives the `attribute.alias` of an attribute; `toInt` is `StringConverter::to_int`.
-/
namespace Verif.E2E
open Verif Verif.Cali Verif.Query Verif.Query.Pre Verif.Query.Pipe Verif.Prof

/-- parts of the formatter that are parameters -/
structure FmtEnv where
  alias_ : Nat → Option Str
  toInt : Str → Option Int
  dbl : DblFmt
  dcmp : U64 → U64 → Int

/-- keyword arguments of FORMAT -/
def fmtArg (s : CalQL.Spec) (k : Str) : Option Str := s.fmt.bind fun x => x.2.lookup k

/-- the tree formatter for a parsed query: constructor, `configure`, display names, `init_sort_info`, columns
(`TreeFormatter.cpp:68-116`, `168-178`, `189-198`, `325-354`, `394-399`); a width that is no number or not positive means no maximum (`TreeFormatter.cpp:63-66`) -/
def treeCfg (W : FmtEnv) (s : CalQL.Spec) (D : PDB) : Tree.TCfg :=
  { info := fun a => (D.byId a).map fun A => ⟨A.name, A.ty, false, false, A.nested⟩
    disp := fun a => match D.byId a with
      | none => []
      | some A => match s.aliases.lookup A.name with
        | some n => n
        | none => (W.alias_ a).getD A.name
    pathNames := match fmtArg s (str "path-attributes") with
      | some v => FmtStr.split (ch ',') [] v
      | none => []
    maxWidth := match fmtArg s (str "column-width") with
      | some v => ((W.toInt v).getD (-1)).toNat
      | none => 48
    dbl := W.dbl
    dcmp := W.dcmp
    select := match s.selSel with
      | .default => none
      | .all => none
      | .list => some (s.sel.filterMap fun n => (D.attr n).map PAttr.id)
      | .none => some []
    selectAll := decide (s.selSel = .all)
    sort := s.sort.filterMap fun x => (D.attr x.attr).map fun a => (a.id, !x.desc) }

/-- what `cali-query -q text file` prints with FORMAT tree (without `print-globals`); `none` also for another format -/
def printTree (F : DblFmt) (Q : Pipe.Env) (stod : Str → Option U64) (one : U64) (W : FmtEnv) (srt : Util.Sorter) (text file : List Byte) : Option (List Byte) :=
  match (CalQL.parse text).1.fmt with
  | none => none
  | some (d, _) =>
    if d.id = 5 then
      (queryText F Q stod one text file).map fun x =>
        (treeCfg W (CalQL.parse text).1 x.1).flush srt ((treeCfg W (CalQL.parse text).1 x.1).build x.2)
    else none

/-! ## What it should say -/

/-- a (attribute, value) pair with the attribute's name -/
def lab (D : PDB) (x : Nat × Cali.Val) : Option Str × Cali.Val := (nameIn D x.1, x.2)

/-- the values shown for the regions `P`: the time with exactly these regions open, if a thread was there at a call, and the time with these regions open -/
def dataAll (Ts : List (Nat × MTree.PathL)) (h : List (Nat × RT.Op)) (P : MTree.PathL) : List (Option Str × Cali.Val) :=
  (if ∃ x ∈ Ts, P ∈ visits x.1 x.2 h then [(some (str "sum#sum#time.duration.ns"), Cali.Val.uint (BitVec.ofNat 64 (Ts.map fun x => spent x.1 P x.2 0 h).sum))] else []) ++
  [(some (str "inclusive#sum#time.duration.ns"), Cali.Val.uint (BitVec.ofNat 64 (Ts.map fun x => within x.1 P x.2 0 h).sum))]

end Verif.E2E
