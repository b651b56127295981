import Verif.Config.Model
/-!
# MPI function filters and function regions

Model of `MpiWrapperConfig` in `/repo/src/services/mpiwrap/Wrapper.w` (75-240): which MPI functions a channel wants wrapped, and the counters that decide whether a
wrapper marks the function as a region (`push_mpifn`, `pop_mpifn`).

Simplified: `table` is the list of the names of all MPI functions, generated by `wrap.py`; the linked list of the configurations is a list; steps of all threads are
interleaved, each step is atomic.
-/
namespace Verif.MpiFilter
open Verif Verif.Cali Verif.Parse Verif.Config

/-- `StringConverter(...).to_stringlist(",:")` (`Wrapper.w:188-191`) -/
def splitNames (s : Str) : List Str := Config.stringListL [ch ',', ch ':'] (s.length + 1) ⟨s, true⟩

/-- the variables of the loop in `setup_filter`: the functions enabled so far, and what is left of the lists -/
structure FSt where
  enabled : List Str := []
  white : List Str
  black : List Str
  deriving DecidableEq, Repr

/-- one round (`Wrapper.w:215-238`): the function is enabled by "all", by the whitelist, or because it is not on the blacklist and there is no whitelist -/
def filterStep (all haveW haveB : Bool) (s : FSt) (f : Str) : FSt :=
  let inW := haveW && s.white.contains f
  let e := all || inW
  let white := if inW then s.white.erase f else s.white
  let inB := haveB && s.black.contains f
  let black := if inB then s.black.erase f else s.black
  let e := if haveB then if inB then false else if !haveW then true else e else e
  ⟨if e then f :: s.enabled else s.enabled, white, black⟩

/-- `setup_filter` (`Wrapper.w:187-244`): the enabled functions, and the unknown functions in the two lists about which it warns -/
def setupFilter (table : List Str) (whitelist blacklist : Str) : FSt :=
  let white := splitNames whitelist
  let black := splitNames blacklist
  let haveW := decide (white.length > 0)
  let haveB := decide (black.length > 0)
  if !haveW && !haveB then ⟨[], [], []⟩
  else
    let all := haveW && decide (white.head? = some (str "all"))
    table.foldl (filterStep all haveW haveB) ⟨[], if all then white.tail else white, black⟩

/-- begin or end of the region for an MPI function, by a thread -/
inductive Ev where
  | begin (t : Nat) (f : Str)
  | fin (t : Nat) (f : Str)
  deriving DecidableEq, Repr

/-- the configurations of the channels (`s_mwcs`), and the counters `(Foo)_wrap_count` -/
structure Sys where
  cfgs : List (Nat × List Str) := []
  count : Str → Int := fun _ => 0
  out : List Ev := []

/-- what happens: a channel with the mpi service is made (`mpiwrap_init`) or finishes; a thread enters or leaves (the wrapper of) an MPI function -/
inductive Op where
  | register (c : Nat) (whitelist blacklist : Str)
  | finish (c : Nat)
  | enter (t : Nat) (f : Str)
  | leave (t : Nat) (f : Str)
  deriving DecidableEq, Repr

/-- `inc_wrap_counters`, `dec_wrap_counters` (`Wrapper.w:172-184`) -/
def addCount (count : Str → Int) (enabled : List Str) (d : Int) : Str → Int := fun f => if f ∈ enabled then count f + d else count f

/-- `init_wrapper_config` (`Wrapper.w:84-101`): makes a configuration for the channel unless there is one -/
def initConfig (table : List Str) (cfgs : List (Nat × List Str)) (c : Nat) (wl bl : Str) : List (Nat × List Str) × List Str :=
  match cfgs.find? (fun p => p.1 == c) with
  | some p => (cfgs, p.2)
  | none => let e := (setupFilter table wl bl).enabled; ((c, e) :: cfgs, e)

/-- one step; `enter`, `leave`: `push_mpifn`, `pop_mpifn` (`Wrapper.w:55-73`) with `(Foo)_wrap_count > 0`; `finish`: the `finish_evt` callback (`Wrapper.w:1416-1421`)
with `delete_wrapper_config` (`114-129`) -/
def step (table : List Str) (s : Sys) : Op → Sys
  | .register c wl bl =>
    let x := initConfig table s.cfgs c wl bl
    { s with cfgs := x.1, count := addCount s.count x.2 1 }
  | .finish c =>
    match s.cfgs.find? (fun p => p.1 == c) with
    | some p => { s with count := addCount s.count p.2 (-1), cfgs := s.cfgs.eraseP (fun p => p.1 == c) }
    | none => s
  | .enter t f => if s.count f > 0 then { s with out := s.out ++ [.begin t f] } else s
  | .leave t f => if s.count f > 0 then { s with out := s.out ++ [.fin t f] } else s

/-- a run -/
def run (table : List Str) (s : Sys) (l : List Op) : Sys := l.foldl (step table) s

/-! ## Specification -/

/-- the text of a list of names: separated by commas or colons, each plain or quoted -/
inductive NamesText : List Str → Str → Prop where
  | nil : NamesText [] []
  | one {w t : Str} (h : IsText [ch ',', ch ':'] w t) : NamesText [w] t
  | cons {w t : Str} {c : Byte} {w' : Str} {ws : List Str} {r : Str} (h : IsText [ch ',', ch ':'] w t) (hc : c = ch ',' ∨ c = ch ':') (hr : NamesText (w' :: ws) r) :
      NamesText (w :: w' :: ws) (t ++ c :: r)

/-- which functions are instrumented (documentation of `CALI_MPI_WHITELIST`, `CALI_MPI_BLACKLIST`): by default none; with a whitelist, those in it (all if it begins with
"all"); with only a blacklist, all; and the functions in the blacklist never -/
def Instrumented (white black : List Str) (f : Str) : Prop :=
  f ∉ black ∧ if white = [] then black ≠ [] else f ∈ white ∨ white.head? = some (str "all")

/-- the channels alive after a history, with their lists -/
def alive : List Op → List (Nat × Str × Str)
  | [] => []
  | .finish c :: h => (alive h).filter fun x => x.1 ≠ c
  | .register c wl bl :: h => (c, wl, bl) :: alive h
  | _ :: h => alive h

/-- the channels alive after `h` -/
def live (h : List Op) : List (Nat × Str × Str) := alive h.reverse

end Verif.MpiFilter
