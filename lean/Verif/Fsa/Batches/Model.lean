import Verif.Fsa.Vec.Model
import Verif.Ragged.Transpose

/-!
# `GetStateBatches` (k2/csrc/fsa_utils.cu 679-899) and `MakeTransposable` (k2/csrc/ragged_ops.cu 915-1001)

`none` stands for a failed check, an access outside an array, an element that is read although no thread
has written it, or two threads that write the same element.

Simplifications: the threads of `lambda_set_batch_info` that return at once because `j` is not a multiple
of `jobs_multiple` (802-804) are left out; the values of `log_power` on the CPU (0) and the GPU (4) are
the parameter `lp0`.
-/

namespace Verif.Fsa.Bat
open Verif.Ragged Verif.Util
variable {W : Type}

/-- `std::numeric_limits<int32_t>::max()`. -/
def intMax : Nat := 2147483647

/-- `MonotonicLowerBound` on the CPU, k2/csrc/array_ops_inl.h 743-750: the loop from the back; the second
component is `min_value` after the elements of the list. -/
def lowerBoundLoop : List Nat → List Nat × Nat
  | [] => ([], intMax)
  | x :: xs => (min x (lowerBoundLoop xs).2 :: (lowerBoundLoop xs).1, min x (lowerBoundLoop xs).2)

/-- `MonotonicLowerBound`. -/
def monotonicLowerBound (l : List Nat) : List Nat := (lowerBoundLoop l).1

/-- `log_power`, fsa_utils.cu 692-697. -/
def logPower (maxStates : Nat) : Nat → Nat
  | 0 => 0
  | lp + 1 => if maxStates < 2 ^ (lp + 2) then logPower maxStates lp else lp + 1

/-- `dest_state`, fsa_utils.cu 731-733: `a` is the first arc of the state or of a later one. -/
def firstDest (v : FsaVec W) (low : List Nat) (a : Nat) : Option Nat :=
  if a < v.arcs.length then low[a]? else some intMax

/-- `lambda_set_dest_states`, fsa_utils.cu 712-738: row 0 of `dest_states_powers`. -/
def jumps (v : FsaVec W) (low : List Nat) : Option (List Nat) :=
  (List.range v.id1.length).mapM (fun s => do
    let a ← v.sp2[s]?
    let d ← firstDest v low a
    if s < d then some d else none)

/-- `lambda_square_array`, fsa_utils.cu 778-787. -/
def square (row : List Nat) : Option (List Nat) :=
  (List.range row.length).mapM (fun s => do
    let d ← row[s]?
    if d < row.length then row[d]? else some intMax)

/-- The rows of `dest_states_powers` from a row on, fsa_utils.cu 775-788. -/
def powers : Nat → List Nat → Option (List (List Nat))
  | 0, row => some [row]
  | lp + 1, row => do
    let next ← square row
    let rest ← powers lp next
    some (row :: rest)

/-- The loop that advances `task_idx` steps, fsa_utils.cu 826-835, over the bits `m`: the values of `i`
and `cur_state_idx01`; the inner `none` says that the thread returns. -/
def advance (rows : List (List Nat)) (e t : Nat) : List Nat → Nat × Nat → Option (Option (Nat × Nat))
  | [], st => some (some st)
  | m :: ms, st =>
    if t.testBit m then do
      let row ← rows[m]?
      let next ← row[st.2]?
      if e ≤ next then some none else advance rows e t ms (st.1 + 2 ^ m, next)
    else advance rows e t ms st

/-- The `while (1)` loop, fsa_utils.cu 838-858: the writes to `batch_starts` and to
`num_batches_per_fsa[fsa_idx]`.  `fuel` bounds the number of iterations; running out is `none`. -/
def chase (row0 rowL : List Nat) (b e jobs : Nat) : Nat → Nat → Nat → Option (List (Nat × Nat) × List Nat)
  | 0, _, _ => none
  | fuel + 1, i, cur =>
    if e - b ≤ i then some ([], [])
    else do
      let next ← rowL[cur]?
      if e ≤ next then do
        let one ← row0[cur]?
        some ([(b + i, cur)], if e ≤ one then [i + 1] else [])
      else do
        let r ← chase row0 rowL b e jobs fuel (i + jobs) next
        some ((b + i, cur) :: r.1, r.2)

/-- One thread of `lambda_set_batch_info`, fsa_utils.cu 799-859. -/
def batchTask (v : FsaVec W) (lp : Nat) (rows : List (List Nat)) (r t : Nat) :
    Option (List (Nat × Nat) × List Nat) := do
  let b ← v.sp1[r]?
  let e ← v.sp1[r + 1]?
  if e - b ≤ t then some ([], [])
  else do
    let st ← advance rows e t (List.range lp) (0, b)
    match st with
    | none => some ([], [])
    | some st =>
      if st.1 ≠ t then none
      else do
        let row0 ← rows[0]?
        let rowL ← rows[lp]?
        chase row0 rowL b e (2 ^ lp) (e - b + 1) st.1 st.2

/-- The value of an element that exactly one thread has written. -/
def readWritten (ws : List (Nat × Nat)) (p : Nat) : Option Nat :=
  match ws.filter (fun w => w.1 == p) with
  | [w] => some w.2
  | _ => none

/-- The number of batches of an FSA: 0 unless a thread has written it, fsa_utils.cu 744. -/
def readCount : List Nat → Option Nat
  | [] => some 0
  | [n] => some n
  | _ => none

/-- `lambda_set_batch_info`: `batch_starts` as the list of writes, and `num_batches_per_fsa`. -/
def batchInfo (v : FsaVec W) (lp : Nat) (rows : List (List Nat)) : Option (List (Nat × Nat) × List Nat) := do
  let per ← (List.range (v.sp1.length - 1)).mapM (fun r => do
    let l ← (List.range (2 ^ lp)).mapM (fun t => batchTask v lp rows r t)
    let c ← readCount (l.flatMap Prod.snd)
    some (l.flatMap Prod.fst, c))
  some (per.flatMap Prod.fst, per.map Prod.snd)

/-- `lambda_set_ans_row_splits2` and the last element, fsa_utils.cu 861-886. -/
def batchSplits (v : FsaVec W) (starts : List (Nat × Nat)) (sp1 id1 : List Nat) : Option (List Nat) := do
  let l ← (List.range id1.length).mapM (fun i => do
    let r ← id1[i]?
    let x ← sp1[r]?
    let b ← v.sp1[r]?
    readWritten starts (b + (i - x)))
  some (l ++ [v.id1.length])

/-- The largest row of a layer (`MaxSize`, k2/csrc/ragged.cu 136-152). -/
def maxSize (splits : List Nat) : Option Nat := do
  let l ← (List.range (splits.length - 1)).mapM (fun i => do
    let a : Nat ← splits[i]?
    let b : Nat ← splits[i + 1]?
    some (b - a))
  some (l.foldr max 0)

/-- `GetStateBatches(fsas, false)`: the layers [fsa][batch][state]; the values are 0, 1, 2, ... -/
def stateBatches (lp0 : Nat) (v : FsaVec W) : Option (List (List Nat × List Nat)) := do
  let dest ← destStates v
  let row0 ← jumps v (monotonicLowerBound dest)
  let ms ← maxSize v.sp1
  let rows ← powers (logPower ms lp0) row0
  let info ← batchInfo v (logPower ms lp0) rows
  let sp1 := psum info.2
  let id1 ← rowSplitsToRowIds sp1 info.2.sum
  let sp2 ← batchSplits v info.1 sp1 id1
  let id2 ← rowSplitsToRowIds sp2 v.id1.length
  some [(sp1, id1), (sp2, id2)]

/-- `lambda_set_row_splits2`, ragged_ops.cu 962-979. -/
def padSplits (sp1 sp2 : List Nat) (m tot : Nat) : Option (List Nat) :=
  (List.range (tot + 1)).mapM (fun i =>
    if i = tot then sp2[sp2.length - 1]?
    else do
      let x ← sp1[i / m]?
      let y ← sp1[i / m + 1]?
      if i % m < y - x then sp2[x + i % m]? else sp2[y]?)

/-- `lambda_set_row_ids2`, ragged_ops.cu 989-995. -/
def padIds (sp1 id1 id2 : List Nat) (m : Nat) : Option (List Nat) :=
  (List.range id2.length).mapM (fun i => do
    let s ← id2[i]?
    let r ← id1[s]?
    let x ← sp1[r]?
    some (r * m + (s - x)))

/-- `MakeTransposable` on shapes with at least three axes, ragged_ops.cu 915-1001. -/
def makeTransposable : List (List Nat × List Nat) → Option (List (List Nat × List Nat))
  | (sp1, id1) :: (sp2, id2) :: rest =>
    if sp1.length - 1 ≤ 1 then some ((sp1, id1) :: (sp2, id2) :: rest)
    else do
      let m ← maxSize sp1
      if m = 0 then some ((sp1, id1) :: (sp2, id2) :: rest)
      else do
        let sp2' ← padSplits sp1 sp2 m (m * (sp1.length - 1))
        let id2' ← padIds sp1 id1 id2 m
        some (((List.range (sp1.length - 1 + 1)).map (fun i => i * m),
          (List.range (m * (sp1.length - 1))).map (fun i => i / m)) :: (sp2', id2') :: rest)
  | _ => none

/-- `GetStateBatches(fsas, true)`: the layers [batch][fsa][state] and the values (fsa_utils.cu 888-899;
the values of the argument of `Transpose` are 0, 1, 2, ..., so `value_indexes` is the answer's values). -/
def stateBatchesT (lp0 : Nat) (v : FsaVec W) : Option (List (List Nat × List Nat) × List Nat) := do
  let sh ← stateBatches lp0 v
  let p ← makeTransposable sh
  transpose p

end Verif.Fsa.Bat
