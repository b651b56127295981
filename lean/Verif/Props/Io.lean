import Verif.Io.Lemmas
/-!
# C84, C85: the io service
-/
namespace Verif.Io
open Verif

/-! ## C84 -/

/-- a table of mounts: `/`, `/proc`, `/home`, `/home/data` -/
def exTable : List (Path × Str) := [([], [1]), ([[10]], [2]), ([[20]], [3]), ([[20], [21]], [4])]

theorem exTidy : Tidy exTable := by
  refine ⟨fun a x b e hx => ?_⟩
  have hl : a.length < 4 := by
    have := congrArg List.length e
    simp [exTable] at this
    omega
  have ha : a = exTable.take a.length := by rw [e]; simp
  have hx' : exTable[a.length]? = some x := by rw [e]; simp
  generalize a.length = n at *
  subst ha
  rcases n with _ | _ | _ | _ | n
  · obtain rfl := Option.some.inj hx'; exact absurd rfl hx
  · obtain rfl := Option.some.inj hx'; decide
  · obtain rfl := Option.some.inj hx'; decide
  · obtain rfl := Option.some.inj hx'; decide
  · omega

/-- The service attributes a path to the mount it is on, with the file system of the mount: for tables that list the directories of mounts as mounts, and paths below a mount
other than the root that are not mount points themselves. -/
theorem C84_mount_partial (table : List (Path × Str)) (ht : Tidy table) (p m : Path) (fs : Str) (hp : Below table p) (hg : Governs table p m fs) :
    getFilesystem (initMounts table) p = ⟨some fs, some m⟩ := getFilesystem_tidy ht hp hg

/-- the hypotheses hold of `/home/data/x`, on `/home/data` -/
example : Tidy exTable ∧ Below exTable [[20], [21], [5]] ∧ Governs exTable [[20], [21], [5]] [[20], [21]] [4] := by
  refine ⟨exTidy, ⟨by decide, ([[20]], [3]), by decide, by decide, ⟨[[21], [5]], rfl⟩⟩, ⟨by decide, ⟨[[5]], rfl⟩, ?_⟩⟩
  decide

/-- A path below no mount but the root is attributed to the root, but its file system is empty, whatever the table says (`root.filesystem` is only replaced if it is
not empty, `mount_tree.c:127-132`). -/
theorem C84_violation_root (table : List (Path × Str)) (ht : Tidy table) (p : Path) (hn : ∀ x ∈ table, x.1 <+: p → x.1 = []) :
    getFilesystem (initMounts table) p = ⟨some [], some []⟩ := getFilesystem_root ht hn

/-- `/etc` is on the root, file system type `[1]` -/
example : Tidy exTable ∧ (∀ x ∈ exTable, x.1 <+: [[30]] → x.1 = []) ∧ Governs exTable [[30]] [] [1] := by
  refine ⟨exTidy, by decide, by decide, ⟨_, rfl⟩, by decide⟩

/-- The root's file system is never known, for any table. -/
theorem C84_violation_rootFs (table : List (Path × Str)) : (initMounts table).rootFs = [] := by
  induction table using List.reverseRecOn with
  | nil => rfl
  | append_singleton a x ih =>
    rw [initMounts, List.foldl_append]
    show (addMount (initMounts a) x).rootFs = []
    unfold addMount
    by_cases hx : x.1 = []
    · rw [if_pos hx, if_neg (by rw [ih]; simp)]; exact ih
    · rw [if_neg hx]
      simp only
      split
      · exact ih
      · split <;> exact ih

/-- A path that is itself a mount point (for instance `open("/home/data", O_DIRECTORY)`) is attributed to the root (`mount_tree.c:118`). -/
theorem C84_violation_mount_point (table : List (Path × Str)) (ht : Tidy table) (p : Path) (hp : p ∈ table.map Prod.fst) :
    getFilesystem (initMounts table) p = ⟨some [], some []⟩ := by
  rw [initMounts_tidy table ht, getFilesystem]
  have : (getMount ⟨[], nodesOf table⟩ p).1 = [] := by
    refine getFilesystem_mountPoint _ p [] none fun r hr hne => ?_
    rw [List.nil_append, has_nodesOf]
    exact ⟨hne, closed_of_tidy ht p.length p (Nat.le_refl _) hp r hr hne⟩
  simp only [this, if_true]

example : Tidy exTable ∧ [[20], [21]] ∈ exTable.map Prod.fst ∧ Governs exTable [[20], [21]] [[20], [21]] [4] :=
  ⟨exTidy, by decide, by decide, ⟨[], rfl⟩, by decide⟩

/-- A mount `/a/b` whose directory `/a` is on the root: a node is made for `b` below the node the search stops at, under the name of the component it stopped
at (`mount_tree.c:139-145`), so that `/a/x` is attributed to `/a/b`. -/
theorem C84_violation_directory (a b x : Str) (f r : Str) (_hb : x ≠ b) :
    getFilesystem (initMounts [([], r), ([a, b], f)]) [a, x] = ⟨some f, some [a, b]⟩ ∧ Governs [([], r), ([a, b], f)] [a, x] [] r := by
  constructor
  · simp [initMounts, addMount, getMount, getMountL, Mounts.has, getFilesystem]
  · refine ⟨by simp, ⟨_, rfl⟩, fun y hy hpre => ?_⟩
    simp only [List.mem_cons, List.not_mem_nil, or_false] at hy
    rcases hy with rfl | rfl
    · simp
    · have := hpre.eq_of_length rfl
      simp at this
      exact absurd this.symm _hb

/-- A mount listed twice is entered a second time, under the root: `/b/x` is then attributed to `/a/b`. -/
theorem C84_violation_twice : getFilesystem (initMounts [([], [1]), ([[10]], [2]), ([[10], [11]], [3]), ([[10], [11]], [4])]) [[11], [5]] =
    ⟨some [4], some [[10], [11]]⟩ := by decide

/-- A mount `/a/a` is not entered (`mount_tree.c:139`): `/a/a/x` is attributed to `/a`. -/
theorem C84_violation_same_name : getFilesystem (initMounts [([], [1]), ([[10]], [2]), ([[10], [10]], [3])]) [[10], [10], [5]] =
    ⟨some [2], some [[10]]⟩ := by decide

/-! ## C85 -/

/-- Each I/O call makes one region and at most one byte count per channel with the io service, on the mount of the file the descriptor refers to, with the bytes the call
moved: when the first channel starts before the files are opened, no channel finishes, descriptors change by the wrapped functions only, reads and writes
succeed, and the files are as in `C84_mount_partial`. -/
theorem C85_records_partial (O : Sys) (ht : Tidy O.mounts) (hs : ∀ t ∈ O.std, t.Good O.mounts) (c : Nat) (l : List Step) (hl : ∀ x ∈ l, x.Good O.mounts)
    (e : List Ev) (he : Expect O.mounts [c] (stdFds O) l e) :
    (run O {} (.init c :: l)).out = e ∧ (run O {} (.init c :: l)).bad = false := by
  obtain ⟨ha, ho⟩ := agrees_init O hs c
  have := run_expect O ht l _ _ _ _ ha hl he
  rw [ho] at this
  simpa [run] using this

/-- the system of the examples: standard input is a pipe, output and errors something else -/
def exSys : Sys := ⟨exTable, [.pipe [7], .other, .other]⟩

theorem exGov : Governs exTable [[20], [21], [5]] [[20], [21]] [4] := ⟨by decide, ⟨[[5]], rfl⟩, by decide⟩

/-- a file is opened, written, read and closed, while a second channel starts -/
example : Tidy exSys.mounts ∧ (∀ t ∈ exSys.std, t.Good exSys.mounts) ∧
    (∀ x ∈ [Step.rw .read 0 12, .opn [[20], [21], [5]] 3 (.file [[20], [21], [5]]), .init 2, .rw .write 3 100, .frw .read 3 8 0, .fclose 3], x.Good exSys.mounts) ∧
    Expect exSys.mounts [1] (stdFds exSys) [.rw .read 0 12, .opn [[20], [21], [5]] 3 (.file [[20], [21], [5]]), .init 2, .rw .write 3 100, .frw .read 3 8 0, .fclose 3]
      [.begin 1 .read ⟨none, some [[7]]⟩, .snap 1 .read 12, .fin 1,
       .begin 1 .metadata ⟨some [4], some [[20], [21]]⟩, .fin 1,
       .begin 1 .write ⟨some [4], some [[20], [21]]⟩, .begin 2 .write ⟨some [4], some [[20], [21]]⟩, .snap 1 .write 100, .fin 1, .snap 2 .write 100, .fin 2,
       .begin 1 .read ⟨some [4], some [[20], [21]]⟩, .begin 2 .read ⟨some [4], some [[20], [21]]⟩, .fin 1, .fin 2,
       .begin 1 .metadata ⟨some [4], some [[20], [21]]⟩, .begin 2 .metadata ⟨some [4], some [[20], [21]]⟩, .fin 1, .fin 2] := by
  have hb : Below exSys.mounts [[20], [21], [5]] := ⟨by decide, ([[20]], [3]), by decide, by decide, ⟨[[21], [5]], rfl⟩⟩
  refine ⟨exTidy, fun t ht => ?_, ?_, ?_⟩
  · simp only [exSys, List.mem_cons, List.not_mem_nil, or_false] at ht
    rcases ht with rfl | rfl | rfl <;> trivial
  · intro x hx
    simp only [List.mem_cons, List.not_mem_nil, or_false] at hx
    rcases hx with rfl | rfl | rfl | rfl | rfl | rfl
    · exact ⟨by decide, by decide⟩
    · exact ⟨hb, hb⟩
    · trivial
    · exact ⟨by decide, by decide⟩
    · trivial
    · trivial
  · refine .rw [1] _ .read 0 12 (.pipe [7]) _ _ _ (.inl rfl) rfl (.pipe _) (.opn [1] _ _ _ _ _ _ _ (.file _ _ _ exGov) (.init [1] _ 2 _ _
      (.rw [1, 2] _ .write 3 100 (.file [[20], [21], [5]]) _ _ _ (.inr rfl) rfl (.file _ _ _ exGov)
      (.frw [1, 2] _ .read 3 8 0 (.file [[20], [21], [5]]) _ _ _ (.inl rfl) rfl (.file _ _ _ exGov)
      (.fclose [1, 2] _ 3 (.file [[20], [21], [5]]) _ _ _ rfl (.file _ _ _ exGov) (.nil _ _))))))

/-- A failed `read` or `write` (result -1) is recorded as 2^64-1 bytes (`wrappers.c:246`, `IOService.cpp:53-61`). -/
theorem C85_violation_failed (O : Sys) (s : St) (c : Nat) (k : Kind) (fd : Nat) (hk : k ≠ .metadata) (hon : s.enabled = true) (hi : s.insts = [c]) :
    (step O s (.rw k fd (-1))).out = s.out ++ [.begin c k (lookup s.files fd), .snap c k (2 ^ 64 - 1), .fin c] := by
  simp [step, hon, pre, post, hi, hk]

example : (step exSys {} (.init 1)).enabled = true ∧ (step exSys {} (.init 1)).insts = [1] := by decide

/-- the channel of an event -/
def Ev.chan : Ev → Nat
  | .begin c _ _ | .snap c _ _ | .fin c => c

theorem mem_remove {z : Nat} {l : List Nat} {i n : Nat} (h : z ∈ remove l i n) : z ∈ l := by
  unfold remove at h
  simp only at h
  split at h
  · exact h
  · split at h
    · exact h
    · split at h
      · exact h
      · have h := List.mem_of_mem_take h
        simp only [List.mem_append] at h
        rcases h with (h | h) | h
        · exact List.mem_of_mem_take h
        · exact List.mem_of_mem_drop (List.mem_of_mem_take h)
        · exact List.mem_of_mem_drop h

theorem mem_deregCb {z d : Nat} : ∀ (fuel j bl : Nat) (l : List Nat), z ∈ deregCb d fuel j bl l → z ∈ l := by
  intro fuel
  induction fuel with
  | zero =>
    intro j bl l h
    rw [deregCb] at h
    split at h
    · exact mem_remove h
    · exact h
  | succ fuel ih =>
    intro j bl l h
    rw [deregCb] at h
    split at h
    · split at h
      · exact mem_remove h
      · exact h
    · split at h
      · exact ih _ _ _ h
      · split at h
        · exact mem_remove (ih _ _ _ h)
        · exact ih _ _ _ h

/-- a channel without callbacks records nothing until it starts again -/
theorem silent (O : Sys) (z : Nat) : ∀ (l : List Step) (s : St), z ∉ s.insts → (∀ x ∈ l, x ≠ .init z) →
    ∃ e, (run O s l).out = s.out ++ e ∧ ∀ v ∈ e, v.chan ≠ z
  | [], s, _, _ => ⟨[], by simp [run], by simp⟩
  | x :: l, s, hz, hl => by
    have hpp : ∀ (t : St) (k : Kind) (w : Where) (n : Nat), t.insts = s.insts → t.out = s.out → z ∉ (post (pre t k w) k n).insts ∧
        ∃ e, (post (pre t k w) k n).out = s.out ++ e ∧ ∀ v ∈ e, v.chan ≠ z := by
      intro t k w n ht ho
      refine ⟨by show z ∉ t.insts; rw [ht]; exact hz, s.insts.map (fun c => Ev.begin c k w) ++
        s.insts.flatMap (fun c => (if k ≠ .metadata ∧ n > 0 then [Ev.snap c k n] else []) ++ [Ev.fin c]), ?_, ?_⟩
      · simp only [post, pre, ht, ho, List.append_assoc]
      · intro v hv
        rcases List.mem_append.1 hv with h | h
        · obtain ⟨c, hc, rfl⟩ := List.mem_map.1 h
          rintro rfl; exact hz hc
        · obtain ⟨c, hc, h⟩ := List.mem_flatMap.1 h
          have : v.chan = c := by
            rcases List.mem_append.1 h with h | h
            · split at h
              · rw [List.mem_singleton.1 h]; rfl
              · cases h
            · rw [List.mem_singleton.1 h]; rfl
          rw [this]; rintro rfl; exact hz hc
    have h1 : z ∉ (step O s x).insts ∧ ∃ e, (step O s x).out = s.out ++ e ∧ ∀ v ∈ e, v.chan ≠ z := by
      have hno : z ∉ s.insts ∧ ∃ e, s.out = s.out ++ e ∧ ∀ v ∈ e, v.chan ≠ z := ⟨hz, [], by simp, by simp⟩
      cases x with
      | init d =>
        have hd : z ≠ d := fun e => hl _ (List.mem_cons_self) (by rw [e])
        refine ⟨?_, [], ?_, by simp⟩
        · simp only [step, initStep, append]
          split <;> split <;> simp [hd, hz]
        · simp only [step, initStep]
          split <;> split <;> simp
      | finalize d =>
        refine ⟨?_, [], ?_, by simp⟩
        · simp only [step, finalizeStep]
          split
          · simp
          · exact fun h => hz (mem_deregCb _ _ _ _ h)
        · simp only [step, finalizeStep]
          split <;> simp
      | opn p fd t =>
        simp only [step]
        split
        · exact hpp { s with files := register s.mounts s.files fd t } .metadata (getFilesystem s.mounts p) 0 rfl rfl
        · exact hno
      | close =>
        simp only [step]
        split
        · exact hpp s _ _ _ rfl rfl
        · exact hno
      | fclose fd =>
        simp only [step]
        split
        · exact hpp { s with files := deregister s.files fd } _ _ _ rfl rfl
        · exact hno
      | rw =>
        simp only [step]
        split
        · exact hpp s _ _ _ rfl rfl
        · exact hno
      | frw =>
        simp only [step]
        split
        · exact hpp s _ _ _ rfl rfl
        · exact hno
      | unseen => exact hno
    obtain ⟨h2, e1, he1, hc1⟩ := h1
    obtain ⟨e2, he2, hc2⟩ := silent O z l (step O s x) h2 (fun y hy => hl y (List.mem_cons_of_mem _ hy))
    refine ⟨e1 ++ e2, ?_, fun v hv => (List.mem_append.1 hv).elim (hc1 v) (hc2 v)⟩
    show (run O (step O s x) l).out = _
    rw [he2, he1, List.append_assoc]

/-- When a channel finishes while others have the io service, and it is not the one made last, the one made last loses its callbacks (`dynamic_array.c:70-82` moves one
element too few): whatever the program does next, nothing more is recorded for it. -/
theorem C85_violation_finish_mid (O : Sys) (s : St) (a b : List Nat) (c z : Nat) (hi : s.insts = a ++ c :: (b ++ [z])) (hd : s.insts.Nodup) (hact : s.active = s.insts.length)
    (l : List Step) (hl : ∀ x ∈ l, x ≠ .init z) :
    z ≠ c ∧ ∃ e, (run O s (.finalize c :: l)).out = s.out ++ e ∧ ∀ v ∈ e, v.chan ≠ z := by
  rw [hi] at hd hact
  have hc : c ∉ a ∧ c ∉ b ∧ c ≠ z ∧ z ∉ a ∧ z ∉ b := by
    simp only [List.nodup_append, List.nodup_cons, List.mem_append, List.mem_cons, List.not_mem_nil, or_false] at hd
    obtain ⟨-, ⟨h1, -, -, h2⟩, h3⟩ := hd
    exact ⟨fun h => h3 c h c (.inl rfl) rfl, fun h => h1 (.inl h), fun h => h1 (.inr h), fun h => h3 z h z (.inr (.inr rfl)) rfl, fun h => h2 z h z rfl rfl⟩
  have hne : s.active - 1 ≠ 0 := by rw [hact, List.length_append, List.length_cons, List.length_append]; simp
  have hz : z ∉ (step O s (.finalize c)).insts := by
    simp only [step, finalizeStep, if_neg hne, hi]
    rw [deregCb_mid c z a b hc.1 hc.2.1 hc.2.2.1]
    intro h
    simp only [List.mem_append, List.mem_singleton] at h
    rcases h with (h | h) | h
    · exact hc.2.2.2.1 h
    · exact hc.2.2.2.2 h
    · have : z ∈ c :: b := h ▸ List.getLast_mem _
      rcases List.mem_cons.1 this with h | h
      · exact hc.2.2.1 h.symm
      · exact hc.2.2.2.2 h
  refine ⟨hc.2.2.1.symm, ?_⟩
  obtain ⟨e, he, hv⟩ := silent O z l _ hz hl
  refine ⟨e, ?_, hv⟩
  show (run O (step O s (.finalize c)) l).out = _
  rw [he]
  simp only [step, finalizeStep, if_neg hne]

/-- When the channel made last finishes while others have the io service, its callbacks stay, and the next I/O call uses its deleted data: `remove_from_curious_dynamic_array`
refuses to remove a block at the end of the array (`dynamic_array.c:56`). -/
theorem C85_violation_finish_last (O : Sys) (s : St) (a : List Nat) (c : Nat) (ha : a ≠ []) (hi : s.insts = a ++ [c]) (hd : c ∉ a) (hact : s.active = s.insts.length)
    (hon : s.enabled = true) (k : Kind) (fd : Nat) (ret : Int) :
    (step O (step O s (.finalize c)) (.rw k fd ret)).bad = true := by
  have hne : s.active - 1 ≠ 0 := by
    have := List.length_pos_iff.2 ha
    rw [hact, hi]; simp; omega
  simp only [step, finalizeStep, if_neg hne, hi, deregCb_last c a hd, hon, if_true]
  simp [pre, post]

/-- two channels, the first or the second finishes -/
example : (run exSys {} [.init 1, .init 2]).insts = [] ++ 1 :: ([] ++ [2]) ∧ (run exSys {} [.init 1, .init 2]).insts = [1] ++ [2] ∧
    (run exSys {} [.init 1, .init 2]).insts.Nodup ∧ (run exSys {} [.init 1, .init 2]).active = 2 ∧ (run exSys {} [.init 1, .init 2]).enabled = true := by decide

/-- Once the last channel with the io service has finished, later ones record nothing: the wrappers are switched off and not switched on again (`curious.c:25-29`, `40`). -/
theorem C85_violation_restart (O : Sys) (c : Nat) (l : List Step) : (run O {} (.init c :: .finalize c :: l)).out = [] := by
  have key : ∀ (l : List Step) (s : St), s.enabled = false → s.wrapped = true → (run O s l).out = s.out := by
    intro l
    induction l with
    | nil => intro s _ _; rfl
    | cons x l ih =>
      intro s h1 h2
      show (run O (step O s x) l).out = s.out
      have : (step O s x).enabled = false ∧ (step O s x).wrapped = true ∧ (step O s x).out = s.out := by
        cases x with
        | init d =>
          simp only [step, initStep]
          by_cases h : s.active = 0
          · simp only [if_pos h, h2, if_true, h1, and_self]
          · simp only [if_neg h, h2, if_true, h1, and_self]
        | finalize d =>
          simp only [step, finalizeStep]
          split
          · exact ⟨rfl, h2, rfl⟩
          · exact ⟨h1, h2, rfl⟩
        | opn => simp [step, h1, h2]
        | close => simp [step, h1, h2]
        | fclose => simp [step, h1, h2]
        | rw => simp [step, h1, h2]
        | frw => simp [step, h1, h2]
        | unseen => simp [step, h1, h2]
      rw [ih _ this.1 this.2.1, this.2.2]
  show (run O (step O (step O {} (.init c)) (.finalize c)) l).out = []
  rw [key l _ rfl rfl]
  rfl

/-- A descriptor that is reused by a function that is not wrapped (`socket`, `dup2`, ...) after `close` is attributed to the file it referred to before: `close` does not remove
the record (`wrappers.c:333-375`). -/
theorem C85_violation_stale (O : Sys) (s : St) (fd : Nat) (t : Target) (k : Kind) (ret : Int) (hon : s.enabled = true) (c : Nat) (hi : s.insts = [c]) :
    ∃ e, (run O s [.close fd, .unseen fd t, .rw k fd ret]).out = s.out ++ [.begin c .metadata (lookup s.files fd), .fin c, .begin c k (lookup s.files fd)] ++ e := by
  refine ⟨(if k ≠ .metadata ∧ Int.toNat (ret % 2 ^ 64) > 0 then [.snap c k (Int.toNat (ret % 2 ^ 64))] else []) ++ [.fin c], ?_⟩
  simp [run, step, hon, pre, post, hi]

/-- A file opened before the first channel starts is unknown (only descriptors 0, 1, 2 are looked up, `file_registry.c:12-21`). -/
theorem C85_violation_earlier (O : Sys) (c : Nat) (fd : Nat) (h : O.std.length ≤ fd) : lookup (run O {} [.init c]).files fd = ⟨none, none⟩ := by
  show lookup ((O.std.zipIdx).foldl (fun f x => register (initMounts O.mounts) f x.2 x.1) []) fd = _
  rw [lookup_std, dif_neg (by omega)]
  rfl

example : exSys.std.length ≤ 3 := by decide

end Verif.Io
