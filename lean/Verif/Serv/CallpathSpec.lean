import Verif.Serv.Callpath
/-!
# Specification of the callpath service
-/
namespace Verif.Serv.Callpath
open Verif Verif.Cali

/-- a frame inside the Caliper library that is to be left out -/
def Internal (c : Cfg) (f : Frame) : Prop := c.skipInternal = true ∧ c.start ≤ f.ip ∧ f.ip < c.stop

instance (c : Cfg) (f : Frame) : Decidable (Internal c f) := inferInstanceAs (Decidable (_ ∧ _))

/-- the frames that are recorded, outermost first: without the first `skip_frames` ones and those of Caliper, the 40 innermost -/
def kept (c : Cfg) (frames : List Frame) : List Frame := (((frames.drop c.skipFrames).filter fun f => ¬ Internal c f).take 40).reverse

/-- the function name shown for a frame -/
def shown (f : Frame) : Str :=
  match f.name with
  | some s => if s.length < 100 then s else str "UNKNOWN"
  | none => str "UNKNOWN"

end Verif.Serv.Callpath
