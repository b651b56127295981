import Verif.ConfMgr.MetaLemmas
import Verif.Props.ConfSpecs
/-!
# C69: metadata from options and files
-/
namespace Verif.ConfMgr
open Verif Verif.Cali Verif.Parse
open Verif.Query.CalQL (Spaces)

/-- C69: the metadata of a channel has an entry for each option that is given, the pairs of the `metadata` options and the values in the files they
name; for each name the last one counts -/
theorem C69_metadata (files : Str → Option Str) (o : Opts) (h : ∀ a ∈ o.args, ∃ es, MetaOf files a es) (info : List (Str × Str)) :
    ∃ ess, List.Forall₂ (MetaOf files) o.args ess ∧
      ∀ q, (o.updateMetadata (fileMetadata files) info).lookup q = (lastVal ess.flatten q).or (info.lookup q) := by
  suffices ∃ ess, List.Forall₂ (MetaOf files) o.args ess ∧ o.updateMetadata (fileMetadata files) info = setAll info ess.flatten by
    obtain ⟨ess, h1, h2⟩ := this
    exact ⟨ess, h1, fun q => by rw [h2, setAll_lookup]⟩
  unfold Opts.updateMetadata
  generalize o.args = args at h
  induction args generalizing info with
  | nil => exact ⟨[], .nil, rfl⟩
  | cons a args ih =>
    obtain ⟨es', h1⟩ := h a (by simp)
    obtain ⟨es, h2, h3⟩ := metaOf_ok h1 info
    obtain ⟨ess, h4, h5⟩ := ih (setAll info es) (fun x hx => h x (by simp [hx]))
    refine ⟨es :: ess, .cons h2 h4, ?_⟩
    rw [List.foldl_cons, h3, h5, List.flatten_cons, setAll_append]

/-! ### examples -/

/-- a file with nested dictionaries -/
def demoDoc : List (Str × J) :=
  [(str "run", .dict [(str "id", .word (str "7")), (str "host", .dict [(str "name", .word (str "a"))])]), (str "who", .word (str "me"))]

def demoFiles : Str → Option Str := fun f => if f = str "m.json" then some (str " " ++ (J.dict demoDoc).write ++ []) else none

example : (J.dict demoDoc).write = str "{\"run\":{\"id\":\"7\",\"host\":{\"name\":\"a\"}},\"who\":\"me\"}" := by
  simp [demoDoc, J.write, J.writeD]; decide +kernel

theorem isText_self {sep w : Str} (h : w ≠ []) (hp : ∀ c ∈ w, c ≠ ch '\\' ∧ c ≠ ch '"' ∧ isSpace c = false ∧ sep.contains c = false) : IsText sep w w :=
  ⟨h, .inr ⟨rfl, hp⟩⟩

theorem demo_flat : Flat (str "run") (.dict [(str "id", .word (str "7")), (str "host", .dict [(str "name", .word (str "a"))])])
    [(str "run.host.name", str "a"), (str "run.id", str "7")] := by
  refine .dict (mapOf_setAll [(str "id", J.word (str "7")), (str "host", J.dict [(str "name", J.word (str "a"))])]) ?_
  have e : setAll [] [(str "id", J.word (str "7")), (str "host", .dict [(str "name", .word (str "a"))])] =
      [(str "host", .dict [(str "name", .word (str "a"))]), (str "id", J.word (str "7"))] := by
    unfold setAll
    simp only [List.foldl_cons, List.foldl_nil, mset]
    rw [if_neg (by decide), if_pos (by decide)]
  rw [e]
  refine FlatL.cons (es := [(str "run.host.name", str "a")]) (rest := [(str "run.id", str "7")]) ?_ (FlatL.cons (es := [(str "run.id", str "7")]) (rest := []) ?_ .nil)
  · refine .dict (mapOf_setAll [(str "name", J.word (str "a"))]) ?_
    exact FlatL.cons (m := []) (es := [(str "run.host.name", str "a")]) (rest := []) .word .nil
  · exact .word

/-- hypotheses of `C69_metadata`: an option, pairs, all of a file, and two keys of a file -/
example : ∀ a ∈ [(str "time", str "true"), (str "metadata", str "a=1, b = \"x,y\""), (str "metadata", str "file=m.json"),
    (str "metadata", str "file=m.json,keys=\"run.host,none\"")], ∃ es, MetaOf demoFiles a es := by
  have hdoc : demoFiles (str "m.json") = some (str " " ++ (J.dict demoDoc).write ++ []) := by unfold demoFiles; rw [if_pos rfl]
  have htxt : JText (.dict demoDoc) (J.dict demoDoc).write := jtext_write _ (by simp [demoDoc, J.Ok, J.OkD, str])
  have hsolid : (J.dict demoDoc).Solid := by simp only [demoDoc, J.Solid, J.SolidD]; decide
  have sp : ∀ s : Str, (∀ c ∈ s, isSpace c = true) → Spaces s := fun _ h => h
  intro a ha
  simp only [List.mem_cons, List.not_mem_nil, or_false] at ha
  rcases ha with rfl | rfl | rfl | rfl
  · exact ⟨_, .option (by decide)⟩
  · refine ⟨_, .pairs (l := [(str "a", str "1"), (str "b", str "x,y")]) ?_ (by decide)⟩
    exact PairsT.cons (a := []) (tk := str "a") (b := []) (c := []) (tv := str "1") (d := []) (r := str " b = \"x,y\"") (sp _ (by decide)) (isText_self (by decide) (by decide))
      (sp _ (by decide)) (sp _ (by decide)) (isText_self (by decide) (by decide)) (sp _ (by decide))
      (PairsT.one (a := str " ") (tk := str "b") (b := str " ") (c := str " ") (tv := str "\"x,y\"") (d := []) (sp _ (by decide)) (isText_self (by decide) (by decide))
        (sp _ (by decide)) (sp _ (by decide)) ⟨by decide, .inl (by decide)⟩ (sp _ (by decide)))
  · refine ⟨[(str "run.host.name", str "a"), (str "run.id", str "7")] ++ ([(str "who", str "me")] ++ []),
      .file (l := [(str "file", str "m.json")]) (PairsT.one (a := []) (tk := str "file") (b := []) (c := []) (tv := str "m.json") (d := [])
        (sp _ (by decide)) (isText_self (by decide) (by decide)) (sp _ (by decide)) (sp _ (by decide)) (isText_self (by decide) (by decide)) (sp _ (by decide)))
      rfl hdoc (sp _ (by decide)) htxt hsolid (.inl ⟨by decide, setAll [] demoDoc, mapOf_setAll _, ?_⟩)⟩
    have e : (setAll [] demoDoc).map Prod.fst = [str "run", str "who"] := by
      unfold setAll demoDoc
      simp only [List.foldl_cons, List.foldl_nil, mset]
      rw [if_neg (by decide), if_neg (by decide)]; rfl
    rw [e]
    refine .found (p := [str "run"]) (j := .dict [(str "id", .word (str "7")), (str "host", .dict [(str "name", .word (str "a"))])]) ?_ ?_ demo_flat
      (.found (p := [str "who"]) (j := .word (str "me")) ?_ ?_ .word .nil)
    · exact WordsT.one (a := []) (tw := str "run") (d := []) (sp _ (by decide)) (isText_self (by decide) (by decide)) (sp _ (by decide))
    · rw [J.at]; rfl
    · exact WordsT.one (a := []) (tw := str "who") (d := []) (sp _ (by decide)) (isText_self (by decide) (by decide)) (sp _ (by decide))
    · rw [J.at]; rfl
  · refine ⟨[(str "run.host.name", str "a")] ++ [], .file (l := [(str "file", str "m.json"), (str "keys", str "run.host,none")]) (PairsT.cons (a := []) (tk := str "file") (b := []) (c := [])
        (tv := str "m.json") (d := []) (r := str "keys=\"run.host,none\"")
        (sp _ (by decide)) (isText_self (by decide) (by decide)) (sp _ (by decide)) (sp _ (by decide)) (isText_self (by decide) (by decide)) (sp _ (by decide))
        (PairsT.one (a := []) (tk := str "keys") (b := []) (c := []) (tv := str "\"run.host,none\"") (d := [])
        (sp _ (by decide)) (isText_self (by decide) (by decide)) (sp _ (by decide)) (sp _ (by decide)) ⟨by decide, .inl (by decide)⟩ (sp _ (by decide))))
      rfl hdoc (sp _ (by decide)) htxt hsolid (.inr ⟨[str "run.host", str "none"], ?_, ?_⟩)⟩
    · exact WordsT.cons (a := []) (tw := str "run.host") (d := []) (r := str "none") (sp _ (by decide)) (isText_self (by decide) (by decide)) (sp _ (by decide))
        (WordsT.one (a := []) (tw := str "none") (d := []) (sp _ (by decide)) (isText_self (by decide) (by decide)) (sp _ (by decide)))
    · refine .found (p := [str "run", str "host"]) (j := .dict [(str "name", .word (str "a"))]) ?_ ?_ ?_ (.missing (p := [str "none"]) ?_ ?_ .nil)
      · exact WordsT.cons (a := []) (tw := str "run") (d := []) (r := str "host") (sp _ (by decide)) (isText_self (by decide) (by decide)) (sp _ (by decide))
          (WordsT.one (a := []) (tw := str "host") (d := []) (sp _ (by decide)) (isText_self (by decide) (by decide)) (sp _ (by decide)))
      · rw [J.at]; rfl
      · refine .dict (mapOf_setAll [(str "name", J.word (str "a"))]) ?_
        exact FlatL.cons (m := []) (es := [(str "run.host.name", str "a")]) (rest := []) .word .nil
      · exact WordsT.one (a := []) (tw := str "none") (d := []) (sp _ (by decide)) (isText_self (by decide) (by decide)) (sp _ (by decide))
      · rw [J.at]; rfl

/-! ### where metadata is not what is written -/

/-- C69 fails for names with a dot in a file: such a value is left out if no keys are given -/
theorem C69_violation_dotted (files : Str → Option Str) (h : files (str "f") = some (str "{\"a.b\":\"1\"}")) : fileMetadata files (str "f") [] [] = [] := by
  have h1 : recDict (str "{\"a.b\":\"1\"}") = ([(str "a.b", str "1")], true) := by decide +kernel
  have h2 : findKey (Config.stringListL [ch '.'] ((str "a.b").length + 1) ⟨str "a.b", true⟩) [(str "a.b", str "1")] = none := by decide +kernel
  unfold fileMetadata
  rw [h]
  simp only [h1, if_true, show Config.stringList [] = [] by decide +kernel, List.map_cons, List.map_nil, List.foldl_cons, List.foldl_nil, h2]

/-- C69 fails for strings in braces in a file: they are taken for dictionaries -/
theorem C69_violation_braces (files : Str → Option Str) (h : files (str "f") = some (str "{\"a\":\"{b:c}\"}")) :
    fileMetadata files (str "f") [] [] = [(str "a.b", str "c")] := by
  have h1 : recDict (str "{\"a\":\"{b:c}\"}") = ([(str "a", str "{b:c}")], true) := by decide +kernel
  have h2 : findKey (Config.stringListL [ch '.'] ((str "a").length + 1) ⟨str "a", true⟩) [(str "a", str "{b:c}")] = some (str "{b:c}") := by decide +kernel
  have h3 : addEntries ((str "{\"a\":\"{b:c}\"}").length + 1) (str "a") (str "{b:c}") [] = [(str "a.b", str "c")] := by decide +kernel
  unfold fileMetadata
  rw [h]
  simp only [h1, if_true, show Config.stringList [] = [] by decide +kernel, List.map_cons, List.map_nil, List.foldl_cons, List.foldl_nil, h2, h3]

/-- C69 fails for a name without a value: it is taken as a part of the next name, without an error -/
theorem C69_violation_no_value : keyvals (str "a=1,b,c=2") = [(str "a", str "1"), (str "b,c", str "2")] := by decide +kernel

/-- C69 fails for pairs next to a file: they are left out -/
theorem C69_violation_pairs_with_file (files : Str → Option Str) (h : files (str "f") = none) :
    addMetadata (fileMetadata files) (str "a=1,file=f") [] = [] := by
  have h1 : keyvals (str "a=1,file=f") = [(str "a", str "1"), (str "file", str "f")] := by decide +kernel
  unfold addMetadata
  simp only [h1]
  rw [show List.lookup (str "file") [(str "a", str "1"), (str "file", str "f")] = some (str "f") by decide]
  simp only
  unfold fileMetadata
  rw [h]

end Verif.ConfMgr
