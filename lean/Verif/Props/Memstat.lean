import Verif.Serv.MemstatSpec
import Verif.Cali.TextLemmas

/-! # C115: the memory values of a record are those the system reported when the snapshot was taken -/

namespace Verif.Memstat
open Verif.Cali

theorem scan_digits : ∀ (ds : List Byte) (_ : AllDig 10 ds) (rest : List Byte) (nn : Nat) (_ : nn < 6) (a : Nat → U64),
    scan (ds ++ rest) nn a = scan rest nn (set a nn (evalU (a nn) ds))
  | [], _, rest, nn, hn, a => by
    congr 1; funext j; simp only [set, evalU, List.foldl_nil]; split <;> simp_all
  | c :: ds, h, rest, nn, hn, a => by
    obtain ⟨d, hd, rfl⟩ := h c (by simp)
    simp only [List.cons_append, scan]
    rw [if_pos hn, if_pos (digitChar_dec d hd).1, scan_digits ds (fun x hx => h x (List.mem_cons_of_mem _ hx)) rest nn hn]
    congr 1
    funext j
    simp only [set, evalU, List.foldl_cons, if_true]
    split <;> rfl

theorem scan_dec (n : Nat) (rest : List Byte) (nn : Nat) (hn : nn < 6) (a : Nat → U64) (h0 : a nn = 0) :
    scan (dec n ++ rest) nn a = scan rest nn (set a nn (BitVec.ofNat 64 n)) := by
  unfold dec
  rw [scan_digits _ (digits_all 10 (by omega) n) rest nn hn, h0, evalU_digits]

theorem scan_space (rest : List Byte) (nn : Nat) (hn : nn < 6) (a : Nat → U64) : scan (ch ' ' :: rest) nn a = scan rest (nn + 1) a := by
  simp only [scan]
  rw [if_pos hn, if_neg (by decide), if_pos trivial]

theorem scan_done (l : List Byte) (nn : Nat) (hn : ¬ nn < 6) (a : Nat → U64) : scan l nn a = a := by
  cases l with
  | nil => rfl
  | cons c l => simp only [scan]; rw [if_neg hn]

theorem dec_len (k n : Nat) (h : n < 10 ^ (k + 1)) : (dec n).length ≤ k + 1 := by
  induction k generalizing n with
  | zero => unfold dec; rw [digits_lt 10 n (by omega)]; simp
  | succ k ih =>
    by_cases h1 : n < 10
    · unfold dec; rw [digits_lt 10 n h1]; simp
    · unfold dec
      rw [digits_ge 10 n (by omega) (by omega)]
      have := ih (n / 10) (by rw [Nat.div_lt_iff_lt_mul (by omega)]; rw [Nat.pow_succ] at h; exact h)
      unfold dec at this
      simp; omega

/-- the six numbers the service can use, up to where the sixth one ends -/
def six (s : Statm) : List Byte :=
  dec s.size ++ ch ' ' :: (dec s.resident ++ ch ' ' :: (dec s.shared ++ ch ' ' :: (dec s.text ++ ch ' ' :: (dec s.lib ++ ch ' ' :: dec s.data))))

theorem print_six (s : Statm) : s.print = six s ++ ch ' ' :: (dec s.dt ++ [ch '\n']) := by
  simp [Statm.print, six, List.append_assoc]

def nums (s : Statm) : Nat → U64
  | 0 => BitVec.ofNat 64 s.size
  | 1 => BitVec.ofNat 64 s.resident
  | 2 => BitVec.ofNat 64 s.shared
  | 3 => BitVec.ofNat 64 s.text
  | 4 => BitVec.ofNat 64 s.lib
  | 5 => BitVec.ofNat 64 s.data
  | _ => 0

theorem scan_six (s : Statm) (rest : List Byte) : scan (six s ++ rest) 0 (fun _ => 0) = scan rest 5 (nums s) := by
  simp only [six, List.append_assoc, List.cons_append]
  rw [scan_dec _ _ 0 (by omega) _ rfl, scan_space _ _ (by omega), scan_dec _ _ 1 (by omega) _ rfl, scan_space _ _ (by omega),
    scan_dec _ _ 2 (by omega) _ rfl, scan_space _ _ (by omega), scan_dec _ _ 3 (by omega) _ rfl, scan_space _ _ (by omega),
    scan_dec _ _ 4 (by omega) _ rfl, scan_space _ _ (by omega), scan_dec _ _ 5 (by omega) _ rfl]
  congr 1
  funext j
  match j with
  | 0 => rfl | 1 => rfl | 2 => rfl | 3 => rfl | 4 => rfl | 5 => rfl
  | j + 6 => simp [set, nums]

theorem six_len (s : Statm) (h : s.Small) : (six s).length ≤ 77 := by
  obtain ⟨h1, h2, h3, h4, h5, h6⟩ := h
  have := dec_len 11 _ h1
  have := dec_len 11 _ h2
  have := dec_len 11 _ h3
  have := dec_len 11 _ h4
  have := dec_len 11 _ h5
  have := dec_len 11 _ h6
  simp [six]; omega

theorem six_take (s : Statm) : ∀ rest, rest <+: ch ' ' :: (dec s.dt ++ [ch '\n']) → scan rest 5 (nums s) = nums s := by
  intro rest h
  cases rest with
  | nil => rfl
  | cons c r =>
    obtain ⟨t, e⟩ := h
    simp only [List.cons_append, List.cons.injEq] at e
    rw [e.1, scan_space _ _ (by omega), scan_done _ _ (by omega)]

/-- **C115** (whenever the six numbers fit into the buffer): the record gets exactly the size, the resident size and the data size that
the system reported -/
theorem C115_values_fit (s : Statm) (failed : Nat) (h : (six s).length ≤ 80) :
    snapshotCb (some s.print) failed =
      ([(.vmsize, BitVec.ofNat 64 s.size), (.vmrss, BitVec.ofNat 64 s.resident), (.data, BitVec.ofNat 64 s.data)], failed) := by
  have e : parseStatm (s.print.take bufSize) = nums s := by
    rw [print_six, List.take_append, List.take_of_length_le (by exact h)]
    unfold parseStatm
    rw [scan_six]
    exact six_take s _ (List.take_prefix _ _)
  simp only [snapshotCb, e, nums]

/-- **C115**: for every process whose sizes have at most twelve digits (any process of a 64-bit Linux system): the record gets the
size, the resident size and the data size of the process in pages, exactly as numbers; no other entries, and no failure is counted -/
theorem C115_values (s : Statm) (failed : Nat) (h : s.Small) :
    ∃ a b d : U64, snapshotCb (some s.print) failed = ([(.vmsize, a), (.vmrss, b), (.data, d)], failed) ∧
      a.toNat = s.size ∧ b.toNat = s.resident ∧ d.toNat = s.data := by
  refine ⟨_, _, _, C115_values_fit s failed (by have := six_len s h; omega), ?_, ?_, ?_⟩ <;>
    rw [BitVec.toNat_ofNat] <;> apply Nat.mod_eq_of_lt
  · have := h.1; omega
  · have := h.2.1; omega
  · have := h.2.2.2.2.2; omega

/-- **C115**: when the file cannot be read the record gets no entries, and the failure is counted -/
theorem C115_unreadable (failed : Nat) : snapshotCb none failed = ([], failed + 1) := rfl

/-- **C115**: over a whole run: the number reported at the end is the number of snapshots for which the file could not be read -/
theorem C115_failures (files : List (Option (List Byte))) (n : Nat) :
    files.foldl (fun k f => (snapshotCb f k).2) n = n + (files.filter Option.isNone).length := by
  induction files generalizing n with
  | nil => rfl
  | cons f fs ih =>
    rw [List.foldl_cons, ih]
    cases f <;> simp [snapshotCb]; omega

theorem C115_example :
    snapshotCb (some (str "2034 1024 700 3 0 512 0\n")) 0 = ([(.vmsize, 2034), (.vmrss, 1024), (.data, 512)], 0) ∧
    (Statm.print ⟨2034, 1024, 700, 3, 0, 512, 0⟩ = str "2034 1024 700 3 0 512 0\n") := by
  refine ⟨?_, ?_⟩ <;> decide +kernel

/-- **C115**, the limit: with numbers of fourteen digits the buffer is too small and the data size loses digits -/
theorem C115_violation_long :
    (snapshotCb (some (Statm.print ⟨12345678901234, 12345678901234, 12345678901234, 12345678901234, 12345678901234, 12345678901234, 0⟩)) 0).1.getLast?
      = some (.data, 12345) := by
  decide +kernel

end Verif.Memstat
