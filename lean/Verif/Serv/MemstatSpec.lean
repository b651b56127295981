import Verif.Serv.Memstat

/-! # The text of `/proc/self/statm` (proc(5)): size resident shared text lib data dt, in pages -/

namespace Verif.Memstat
open Verif.Cali

/-- what the kernel reports -/
structure Statm where
  size : Nat
  resident : Nat
  shared : Nat
  text : Nat
  lib : Nat
  data : Nat
  dt : Nat

/-- a number in decimal -/
def dec (n : Nat) : List Byte := digitsLoop 10 n []

/-- the kernel's text (`%lu %lu %lu %lu %lu %lu %lu\n`) -/
def Statm.print (s : Statm) : List Byte :=
  dec s.size ++ ch ' ' :: (dec s.resident ++ ch ' ' :: (dec s.shared ++ ch ' ' :: (dec s.text ++ ch ' ' ::
    (dec s.lib ++ ch ' ' :: (dec s.data ++ ch ' ' :: (dec s.dt ++ [ch '\n']))))))

/-- all numbers have at most twelve digits (with 4 KiB pages: less than 4 exabytes; 64-bit Linux processes have at most 64 petabytes) -/
def Statm.Small (s : Statm) : Prop :=
  s.size < 10 ^ 12 ∧ s.resident < 10 ^ 12 ∧ s.shared < 10 ^ 12 ∧ s.text < 10 ^ 12 ∧ s.lib < 10 ^ 12 ∧ s.data < 10 ^ 12

end Verif.Memstat
