import Verif.Channel.Model
/-!
# Channel controllers

Model of `ChannelController` (`/repo/src/caliper/ChannelController.cpp`), the object through which `ConfigManager` starts, stops and flushes a channel, on top of
the channel functions of `Verif/Channel/Model`.

`hist` is the list of runtime calls made so far (by controllers and by the program); the state of the runtime is the result of running them.
A `Channel` object is a shared pointer: `held` says whether the program keeps a copy.  `none` as result of a call is undefined behaviour.  Left out: the
configuration and metadata handed to `create_channel`, failure of `create_channel`, what `flush_and_write` writes (that it is called is recorded),
copies of a controller object (`mP` is shared but the callback refers to one of the copies).
-/
namespace Verif.Chan
open RT

/-- controllers (numbered), and the runtime -/
structure CS where
  /-- runtime calls so far -/
  hist : List Op
  /-- `mP->channel` of a controller (`ChannelController.cpp:24`) -/
  own : Nat → Option Nat
  /-- the controller that connected to `finish_evt` of a channel (`ChannelController.cpp:101`) -/
  cb : Nat → Option Nat
  /-- the program connected another function to `finish_evt` after that -/
  late : Nat → Bool
  held : Nat → Bool
  /-- `Caliper::release()` was called, or the program is past the static destructors (`s_init_lock == 2`, `Caliper.cpp:340-342`) -/
  released : Bool
  /-- channels `flush_and_write` was called for -/
  wrote : List Nat

/-- the runtime -/
def CS.rt (t : MTree.Tree) (s : CS) : State := run (init t) s.hist

/-- a runtime call -/
def CS.call (s : CS) (op : Op) : CS := { s with hist := s.hist ++ [op] }

/-- the function connected in `create()`: `mP->channel = Channel()` (`ChannelController.cpp:101`) -/
def finishCb (s : CS) (c : Nat) : CS :=
  match s.cb c with
  | some k => { s with own := BB.upd s.own k none }
  | none => s

/-- `Caliper::delete_channel` with the callback (`Caliper.cpp:1393-1410`) -/
def CS.delete (s : CS) (c : Nat) : CS := finishCb (s.call (.delete c)) c

/-- `create` (`ChannelController.cpp:78-104`); after `release`, `Caliper c` has no thread data and `c.create_channel` uses it (`Caliper.cpp:1338`, `1472-1474`) -/
def CS.create (t : MTree.Tree) (s : CS) (k : Nat) : Option CS :=
  match s.own k with
  | some _ => some s
  | none =>
    if s.released then none
    else
      let c := (s.rt t).next
      some { s.call .create with own := BB.upd s.own k (some c), cb := BB.upd s.cb c (some k) }

/-- `if (mP->channel) c.activate_channel(mP->channel)` (`ChannelController.cpp:112-113`) -/
def CS.activate (s : CS) (k : Nat) : CS :=
  match s.own k with
  | some c => s.call (.activate c)
  | none => s

/-- `start` (`ChannelController.cpp:106-114`) -/
def CS.start (t : MTree.Tree) (s : CS) (k : Nat) : Option CS := (s.create t k).map fun s => s.activate k

/-- `stop` (`ChannelController.cpp:116-120`) -/
def CS.stop (s : CS) (k : Nat) : CS :=
  match s.own k with
  | some c => s.call (.deactivate c)
  | none => s

/-- `is_active` (`ChannelController.cpp:122-125`) -/
def CS.isActive (t : MTree.Tree) (s : CS) (k : Nat) : Bool :=
  match s.own k with
  | some c => (s.rt t).rt.isActive c
  | none => false

/-- `is_instantiated` (`ChannelController.cpp:127-130`) -/
def CS.isInstantiated (s : CS) (k : Nat) : Bool := (s.own k).isSome

/-- `flush` (`ChannelController.cpp:132-137`) -/
def CS.flush (s : CS) (k : Nat) : CS :=
  match s.own k with
  | some c => { s with wrote := s.wrote ++ [c] }
  | none => s

/-- the destructor (`ChannelController.cpp:30-36`): `delete_channel` runs the functions connected to `finish_evt` of the channel one after the other; that of the controller drops the
controller's pointer to the channel.  If that was the last one the channel and the list of functions are gone, and the next function is taken from freed memory (`callback.hpp:31-32`). -/
def CS.destroy (s : CS) (k : Nat) : Option CS :=
  match s.own k with
  | some c => if s.late c && !s.held c then none else some (s.delete c)
  | none => some s

/-- `Caliper::release` (`Caliper.cpp:1520-1529`): `finalize` deletes all channels -/
def CS.release (t : MTree.Tree) (s : CS) : CS :=
  if s.released then s
  else { ((s.rt t).all.foldl finishCb (s.call .finalize)) with released := true }

/-- calls of the program -/
inductive COp where
  | start (k : Nat)
  | stop (k : Nat)
  | flush (k : Nat)
  | destroy (k : Nat)
  /-- keep a copy of `ctrl.channel()` -/
  | hold (k : Nat)
  /-- `ctrl.channel().events().finish_evt.connect(…)` -/
  | connect (k : Nat)
  /-- `Caliper` functions called with `ctrl.channel()` -/
  | activate (k : Nat)
  | deactivate (k : Nat)
  | delete (k : Nat)
  | release
  /-- any other runtime call -/
  | other (op : Op)

/-- one call -/
def CS.step (t : MTree.Tree) (s : CS) : COp → Option CS
  | .start k => s.start t k
  | .stop k => some (s.stop k)
  | .flush k => some (s.flush k)
  | .destroy k => s.destroy k
  | .hold k => some { s with held := match s.own k with | some c => BB.upd s.held c true | none => s.held }
  | .connect k => some { s with late := match s.own k with | some c => BB.upd s.late c true | none => s.late }
  | .activate k => some (s.activate k)
  | .deactivate k => some (s.stop k)
  | .delete k => some (match s.own k with | some c => s.delete c | none => s)
  | .release => some (s.release t)
  | .other op => some (s.call op)

/-- a history -/
def CS.runC (t : MTree.Tree) (s : CS) : List COp → Option CS
  | [] => some s
  | op :: ops => (s.step t op).bind fun s => s.runC t ops

/-- at the beginning -/
def CS.init : CS := ⟨[], fun _ => none, fun _ => none, fun _ => false, fun _ => false, false, []⟩

/-- `ConfigManager::start`, `stop`, `flush` (`ConfigManager.cpp:1508-1524`): the same call for every controller -/
def mgr (f : Nat → COp) (ks : List Nat) : List COp := ks.map f

end Verif.Chan
