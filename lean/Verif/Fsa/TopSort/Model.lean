import Verif.Fsa.Sort.Model
import Verif.Fsa.Connect.Model

/-!
# `TopSort` (k2/csrc/top_sort.cu) and `RenumberFsaVec` (k2/csrc/fsa_utils.cu 2787-2874)

`none` stands for a failed check, an access outside an array, a value that is read without having been
written, or two threads that write different values to the same place.

The kernel of `GetNextBatch` decrements shared counters.  A schedule says in which order its threads do
so; the model has it as a parameter.

Simplifications: the shape of the leaving arcs (`ComposeRaggedShapes`) is replaced by the list of the
leaving arcs in its order, and `Cat` on axis 1 by concatenating row by row.
-/

namespace Verif.Fsa.Top
open Verif.Ragged
variable {W : Type}

/-- A `Ragged<int32_t>` with axes [fsa][state]. -/
structure Batch where
  splits : List Nat
  ids : List Nat
  vals : List Nat
  deriving DecidableEq

/-- `lambda_set_keep_arc`, top_sort.cu 246-251. -/
def keepNonLoop (v : FsaVec W) (dest : List Nat) : Option (List Bool) :=
  (List.range v.arcs.length).mapM (fun i => do
    let d ← dest[i]?
    let s ← v.id2[i]?
    some (decide (d ≠ s)))

/-- The CPU loop of `GetCounts`, k2/csrc/array_ops.cu 308-311. -/
def countLoop : List Nat → List Nat → Option (List Nat)
  | [], ans => some ans
  | x :: xs, ans => do
    let c ← ans[x]?
    countLoop xs (ans.set x (c + 1))

/-- `lambda_inc_final_state_in_degree`, top_sort.cu 259-269; `rs` are the FSA indexes. -/
def incFinals (sp1 : List Nat) : List Nat → List Nat → Option (List Nat)
  | [], deg => some deg
  | r :: rs, deg => do
    let b ← sp1[r]?
    let e ← sp1[r + 1]?
    if b < e then do
      let c ← deg[e - 1]?
      incFinals sp1 rs (deg.set (e - 1) (c + 1))
    else incFinals sp1 rs deg

/-- `InitDestStatesAndInDegree`, top_sort.cu 229-270: the array `state_in_degree_`. -/
def initDegrees (v : FsaVec W) (dest : List Nat) : Option (List Nat) := do
  let keep ← keepNonLoop v dest
  let n2o ← new2old keep
  let ds ← gather dest n2o
  let deg ← countLoop ds (List.replicate v.id1.length 0)
  incFinals v.sp1 (List.range (v.sp1.length - 1)) deg

/-- A ragged array from its row_ids. -/
def mkBatch (numFsas : Nat) (ids vals : List Nat) : Option Batch := do
  let splits ← rowIdsToRowSplits ids numFsas
  some ⟨splits, ids, vals⟩

/-- `GetInitialBatch`, top_sort.cu 54-83. -/
def initialBatch (v : FsaVec W) (deg : List Nat) : Option Batch := do
  let vals ← new2old (deg.map (fun n => decide (n = 0)))
  let ids ← gather v.id1 vals
  mkBatch (v.sp1.length - 1) ids vals

/-- `lambda_set_start_state_present`, top_sort.cu 299-317. -/
def startPresent (v : FsaVec W) (b : Batch) : Option Bool := do
  let l ← (List.range (v.sp1.length - 1)).mapM (fun r => do
    let s ← v.sp1[r]?
    let e ← v.sp1[r + 1]?
    if s < e then do
      let p ← b.splits[r]?
      let x ← b.vals[p]?
      some (decide (x = s))
    else some true)
  some (l.all id)

/-- The arcs leaving the current states with their FSA and state, top_sort.cu 96-112. -/
def leavingArcs (sp2 : List Nat) (b : Batch) : Option (List (Nat × Nat × Nat)) := do
  let l ← (List.range b.vals.length).mapM (fun i => do
    let s ← b.vals[i]?
    let r ← b.ids[i]?
    let es ← rowElems sp2 s
    some (es.map (fun j => (r, s, j))))
  some l.flatten

/-- One thread of `lambda_set_arc_renumbering`, top_sort.cu 138-161, on the degrees and `keep`;
`AtomicDecAndCompareZero` is k2/csrc/utils.h 340-352. -/
def decStep (dest : List Nat) (items : List (Nat × Nat × Nat)) (st : List Nat × List Bool) (i : Nat) :
    Option (List Nat × List Bool) := do
  let x ← items[i]?
  let d ← dest[x.2.2]?
  if d = x.2.1 then some (st.1, st.2.set i false)
  else do
    let n ← st.1[d]?
    if n = 0 then none else some (st.1.set d (n - 1), st.2.set i (decide (n - 1 = 0)))

/-- The threads in the order in which they decrement. -/
def decLoop (dest : List Nat) (items : List (Nat × Nat × Nat)) :
    List Nat → List Nat × List Bool → Option (List Nat × List Bool)
  | [], st => some st
  | i :: is, st => do
    let st ← decStep dest items st i
    decLoop dest items is st

/-- `LessThan<int32_t>`. -/
def natLt (a b : Nat) : Bool := decide (a < b)

/-- The new batch from the arcs that are kept, top_sort.cu 170-200. -/
def newBatch (numFsas : Nat) (dest : List Nat) (items : List (Nat × Nat × Nat)) (n2o : List Nat) :
    Option Batch := do
  let vals ← n2o.mapM (fun i => do
    let x ← items[i]?
    dest[x.2.2]?)
  let ids ← n2o.mapM (fun i => do
    let x ← items[i]?
    some x.1)
  let b ← mkBatch numFsas ids vals
  let s ← sortSublists natLt b.splits b.vals
  some ⟨b.splits, b.ids, s.1⟩

/-- `GetNextBatch`, top_sort.cu 93-201: the degrees afterwards and the next batch. -/
def nextBatch (v : FsaVec W) (dest : List Nat) (sched : Nat → List Nat) (deg : List Nat) (b : Batch) :
    Option (List Nat × Option Batch) := do
  let items ← leavingArcs v.sp2 b
  let st ← decLoop dest items (sched items.length) (deg, List.replicate items.length false)
  let n2o ← new2old st.2
  if n2o = [] then some (st.1, none)
  else do
    let nb ← newBatch (v.sp1.length - 1) dest items n2o
    some (st.1, some nb)

/-- The loop top_sort.cu 325-326: all batches from `b` on.  `fuel` bounds the number of iterations; that
it is never used up is proved.  Each iteration has its own schedule. -/
def topLoop (v : FsaVec W) (dest : List Nat) (sched : Nat → Nat → List Nat) :
    Nat → List Nat → Batch → Option (List Batch)
  | 0, _, _ => none
  | fuel + 1, deg, b => do
    let r ← nextBatch v dest (sched fuel) deg b
    match r.2 with
    | none => some [b]
    | some b' => do
      let rest ← topLoop v dest sched fuel r.1 b'
      some (b :: rest)

/-- Row `r` of a batch. -/
def Batch.row (b : Batch) (r : Nat) : Option (List Nat) := do
  let x ← b.splits[r]?
  let y ← b.splits[r + 1]?
  some ((b.vals.drop x).take (y - x))

/-- Row `r` of `GetFinalBatch`, top_sort.cu 203-227. -/
def finalRow (sp1 : List Nat) (r : Nat) : Option (List Nat) := do
  let b ← sp1[r]?
  let e ← sp1[r + 1]?
  some (if b < e then [e - 1] else [])

/-- The values of `Cat(1, ...)` of the batches and of the final batch, top_sort.cu 328-334. -/
def catBatches (sp1 : List Nat) (bs : List Batch) : Option (List Nat) := do
  let rows ← (List.range (sp1.length - 1)).mapM (fun r => do
    let l ← bs.mapM (fun b => b.row r)
    let f ← finalRow sp1 r
    some (l.flatten ++ f))
  some rows.flatten

/-- The array `old2new_map` of `RenumberFsaVec`, fsa_utils.cu 2793-2812. -/
def oldToNew (order : List Nat) : Nat → List (Option Nat) → Option (List (Option Nat))
  | i, o2n =>
    match order with
    | [] => some o2n
    | s :: rest =>
      match o2n[s]? with
      | some none => oldToNew rest (i + 1) (o2n.set s (some i))
      | _ => none

/-- `lambda_set_arcs` of `RenumberFsaVec`, fsa_utils.cu 2845-2870: arc `i` of the result with its
position in the input. -/
def renArcAt (v : FsaVec W) (order : List Nat) (o2n : List (Option Nat)) (sp1 id1 sp2 id2 : List Nat) (i : Nat) :
    Option (Arc W × Nat) := do
  let idx01 ← id2[i]?
  let idx01x ← sp2[idx01]?
  let idx0 ← id1[idx01]?
  let idx0x ← sp1[idx0]?
  let s ← order[idx01]?
  let sx ← v.sp2[s]?
  let a ← v.arcs[sx + (i - idx01x)]?
  let off ← v.sp1[idx0]?
  let ns ← o2n[off + a.src]?
  let nd ← o2n[off + a.dst]?
  let nd ← nd
  if ns = some idx01 ∧ idx0x ≤ nd then
    some (⟨idx01 - idx0x, nd - idx0x, a.label, a.score⟩, sx + (i - idx01x))
  else none

/-- The row_splits and row_ids of axis 1 of the result of `RenumberFsaVec`, fsa_utils.cu 2814-2823. -/
def renLayer1 (v : FsaVec W) (order : List Nat) : Option (List Nat × List Nat) :=
  if order.length = v.id1.length then some (v.sp1, v.id1)
  else do
    let ids ← gather v.id1 order
    let sp ← rowIdsToRowSplits ids (v.sp1.length - 1)
    some (sp, ids)

/-- `RenumberFsaVec`: the result and the arc map. -/
def renumberVec (v : FsaVec W) (order : List Nat) : Option (FsaVec W × List Nat) := do
  if v.id1.length < order.length then none
  else do
    let o2n ← oldToNew order 0 (List.replicate v.id1.length none)
    let nums ← order.mapM (fun s => do
      let b ← v.sp2[s]?
      let e ← v.sp2[s + 1]?
      some (e - b))
    let l1 ← renLayer1 v order
    let sp2 := runningSums 0 nums
    let id2 ← rowSplitsToRowIds sp2 nums.sum
    let arcs ← (List.range nums.sum).mapM (renArcAt v order o2n l1.1 l1.2 sp2 id2)
    some (⟨l1.1, l1.2, sp2, id2, arcs.map Prod.fst⟩, arcs.map Prod.snd)

/-- `TopSorter::TopSort`, top_sort.cu 279-343. -/
def topSortVec (sched : Nat → Nat → List Nat) (v : FsaVec W) : Option (FsaVec W × List Nat) := do
  let dest ← destStates v
  let deg ← initDegrees v dest
  let b ← initialBatch v deg
  let ok ← startPresent v b
  if ok = true then do
    let bs ← topLoop v dest sched (v.id1.length + 1) deg b
    let order ← catBatches v.sp1 bs
    if order.length = v.id1.length then renumberVec v order else none
  else none

end Verif.Fsa.Top
