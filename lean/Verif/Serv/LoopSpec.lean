import Verif.Serv.Loop
/-!
# Loops, iterations, and what the loop services should record
-/
namespace Verif.Serv.Loop
open Verif RT

/-- `b` and `e` are the begin and end of a region of attribute `a` with value `v` -/
def Pair (b e : TEv) (a : Nat) (v : Val) : Prop :=
  b.e.kind = .preBegin ∧ b.e.attr = a ∧ b.e.val = v ∧ e.e.kind = .preEnd ∧ e.e.attr = a ∧ e.e.val = v

/-- properly nested events inside a loop; `xs` are the numbers of the iterations of that loop, in the order of their begin.  With `seq`,
iterations of the same loop are not nested in each other. -/
inductive Body (I : LInfo) (seq : Prop) : List TEv → List Int → Prop
  | nil : Body I seq [] []
  | skip {x} : x.e.kind ≠ .preBegin → x.e.kind ≠ .preEnd → Body I seq [x] []
  | other {b e a v w xs} : Pair b e a v → a ≠ I.loop → I.iter a = false → Body I seq w xs → Body I seq (b :: (w ++ [e])) xs
  | iter {b e a v w xs} : Pair b e a v → a ≠ I.loop → I.iter a = true → Body I seq w xs → (seq → xs = []) →
      Body I seq (b :: (w ++ [e])) (I.toInt v :: xs)
  | loop {b e v w xs} : Pair b e I.loop v → Body I seq w xs → Body I seq (b :: (w ++ [e])) []
  | append {u w xs ys} : Body I seq u xs → Body I seq w ys → Body I seq (u ++ w) (xs ++ ys)

/-- properly nested events outside the loops of interest (those whose value satisfies `T`); `L` are the iteration numbers of each outermost
loop of interest, in order -/
inductive Prog (I : LInfo) (T : Val → Prop) (seq : Prop) : List TEv → List (List Int) → Prop
  | nil : Prog I T seq [] []
  | skip {x} : x.e.kind ≠ .preBegin → x.e.kind ≠ .preEnd → Prog I T seq [x] []
  | other {b e a v w L} : Pair b e a v → a ≠ I.loop → Prog I T seq w L → Prog I T seq (b :: (w ++ [e])) L
  | loop {b e v w L} : Pair b e I.loop v → ¬T v → Prog I T seq w L → Prog I T seq (b :: (w ++ [e])) L
  | target {b e v w xs} : Pair b e I.loop v → T v → Body I seq w xs → Prog I T seq (b :: (w ++ [e])) [xs]
  | append {u w L M} : Prog I T seq u L → Prog I T seq w M → Prog I T seq (u ++ w) (L ++ M)

/-- the snapshot that covers the iterations `c` -/
def covers (c : List Int) : Snap := ⟨c.length, c.head?⟩

/-- the loops of interest: all, or those with one of the given names -/
def named (I : LInfo) (C : LMConf) (v : Val) : Prop := C.targets = [] ∨ I.text v ∈ C.targets

/-- how the snapshots of one loop cover its iterations: one at the begin of the loop that covers none, then consecutive blocks `cs` -/
def blocks (cs : List (List Int)) : List Snap := covers [] :: cs.map covers

/-- the blocks of a loop with iteration interval `N` and no time interval: `N` iterations each, and the rest (less than `N`) at the end -/
def Even (N : Nat) (cs : List (List Int)) : Prop :=
  ∃ cs' l, cs = cs' ++ [l] ∧ (N = 0 → cs' = []) ∧ (0 < N → (∀ c ∈ cs', c.length = N) ∧ l.length < N)

/-- properly nested events, with what loop_statistics should record: for each iteration of a loop the time from its begin to its end, for each
loop (at its end) the number `n` of its iterations.  `d`: inside a loop. -/
inductive Stat (I : LInfo) : Bool → List TEv → Nat → List SOut → Prop
  | nil {d} : Stat I d [] 0 []
  | skip {d x} : x.e.kind ≠ .preBegin → x.e.kind ≠ .preEnd → Stat I d [x] 0 []
  | other {d b e a v w n o} : Pair b e a v → a ≠ I.loop → (d = false ∨ I.iter a = false) → Stat I d w n o → Stat I d (b :: (w ++ [e])) n o
  | iter {b e a v w o} : Pair b e a v → a ≠ I.loop → I.iter a = true → Stat I true w 0 o →
      Stat I true (b :: (w ++ [e])) 1 (o ++ [.duration (e.now - b.now)])
  | loop {d b e v w n o} : Pair b e I.loop v → Stat I true w n o → Stat I d (b :: (w ++ [e])) 0 (o ++ [.count n])
  | append {d u w m n o p} : Stat I d u m o → Stat I d w n p → Stat I d (u ++ w) (m + n) (o ++ p)

end Verif.Serv.Loop
