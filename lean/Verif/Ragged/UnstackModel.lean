import Verif.Ragged.CatModel
import Verif.Ragged.EditModel
import Verif.Ragged.IndexModel

/-!
# `Unstack`

Model of `SelectAxis0` and `Unstack`, k2/csrc/ragged_ops.cu 1134-1423, with `MaxSize`
(k2/csrc/ragged.cu 136-160), `ComposeRaggedShapes` and `DecomposeRaggedShape` (ragged_ops.cu
2118-2132).  A shape is the list of its layers, as in `StackModel.lean`.  Jobs are as in
`IndexModel.lean`: the source ranges of the entries of the index vector on one axis.  `SelectAxis0`
runs each kernel once for all outputs; the model looks at one output `g` and keeps those writes that
go to `g`.  An entry that is never written is `none`.  The split map is always computed.  The limit
of five layers of the accessors is not modelled.
-/

namespace Verif.Ragged
open Verif.Util

/-- The writes of a kernel that go to output `g`. -/
def toOutput (g : Nat) (ws : List (Nat × Nat × Nat)) : List (Nat × Nat) :=
  (ws.filter (fun w => w.1 == g)).map (fun w => w.2)

/-- `tot_sizes(g, axis)`, ragged_ops.cu 1166-1172, from row `axis` of `new_offsets`. -/
def selTot (idx : List Nat × List Nat) (g : Nat) (noff : List Nat) : Option Nat := do
  let b ← idx.1[g]?
  let e ← idx.1[g + 1]?
  let x ← noff[b]?
  let y ← noff[e]?
  some (y - x)

/-- `lambda_set_row_split1`, ragged_ops.cu 1230-1248: `noff` is row 1 of `new_offsets`. -/
def selSplits1 (idx : List Nat × List Nat) (g tot : Nat) (noff : List Nat) : Option (List Nat) := do
  let ws ← (List.range tot).mapM (fun t => do
    let g' ← idx.2[t]?
    let b ← idx.1[g']?
    let x ← noff[t]?
    let x0 ← noff[b]?
    let y ← noff[t + 1]?
    some ((g', t - b, x - x0) ::
      if t + 1 = tot ∨ idx.2[t + 1]? ≠ some g' then [(g', t - b + 1, y - x0)] else []))
  let n ← selTot idx g (List.range (tot + 1))
  scatter (n + 1) (toOutput g ws.flatten)

/-- The common part of `lambda_set_row_splits_and_ids`, ragged_ops.cu 1272-1290: position `i` of the
axis belongs to entry `t` of the index vector; that entry is in row `g'` of the index array, which
begins at entry `b`; `i` is element number `i - begin0` of the entry.  `f` computes the value
that is written to output `g'` at `this_idx01 = i - beginBase`. -/
def selKernel (idx : List Nat × List Nat) (noff : List Nat) (tot : Nat)
    (f : (t b k : Nat) → Option Nat) : Option (List (Nat × Nat × Nat)) := do
  let composed ← rowSplitsToRowIds noff tot
  (List.range tot).mapM (fun i => do
    let t ← composed[i]?
    let g' ← idx.2[t]?
    let b ← idx.1[g']?
    let beginBase ← noff[b]?
    let begin0 ← noff[t]?
    let v ← f t b (i - begin0)
    some (g', i - beginBase, v))

/-- `lambda_set_row_splits_and_ids` writing row_ids, ragged_ops.cu 1292-1307: `jobsP` and `noffP` are
the ranges and the new offsets on `axis - 1`, `jobs` the ranges on `axis`. -/
def selIds (idx : List Nat × List Nat) (g : Nat) (oldIds noffP : List Nat)
    (jobsP jobs : List (Nat × Nat)) : Option (List Nat) := do
  let ws ← selKernel idx (psum (sizes jobs)) (sizes jobs).sum (fun t b k => do
    let newPrev ← noffP[t]?
    let newPrevBase ← noffP[b]?
    let jobP ← jobsP[t]?
    let job ← jobs[t]?
    let v ← oldIds[job.1 + k]?
    some (v + newPrev - jobP.1 - newPrevBase))
  let n ← selTot idx g (psum (sizes jobs))
  scatter n (toOutput g ws)

/-- `lambda_set_last_row_splits` and `lambda_set_row_splits_and_ids` writing row_splits, ragged_ops.cu
1252-1263, 1309-1320: `jobs` are the ranges on `axis`, `jobs'` those on `axis + 1`. -/
def selSplits (idx : List Nat × List Nat) (g : Nat) (rs : List Nat) (jobs jobs' : List (Nat × Nat)) :
    Option (List Nat) := do
  let noffN := psum (sizes jobs')
  let last ← (List.range (idx.1.length - 1)).mapM (fun g' => do
    let pos ← selTot idx g' (psum (sizes jobs))
    let v ← selTot idx g' noffN
    some (g', pos, v))
  let ws ← selKernel idx (psum (sizes jobs)) (sizes jobs).sum (fun t b k => do
    let newNext ← noffN[t]?
    let newNextBase ← noffN[b]?
    let job ← jobs[t]?
    let job' ← jobs'[t]?
    let v ← rs[job.1 + k]?
    some (newNext + v - job'.1 - newNextBase))
  let n ← selTot idx g (psum (sizes jobs))
  scatter (n + 1) (toOutput g (last ++ ws))

/-- `lambda_set_row_splits_and_ids` writing the split map, ragged_ops.cu 1298-1299. -/
def selElems (idx : List Nat × List Nat) (g : Nat) (jobs : List (Nat × Nat)) : Option (List Nat) := do
  let ws ← selKernel idx (psum (sizes jobs)) (sizes jobs).sum (fun t _ k => do
    let job ← jobs[t]?
    some (job.1 + k))
  let n ← selTot idx g (psum (sizes jobs))
  scatter n (toOutput g ws)

/-- The layers of output `g` after the first one, from the ranges on their rows. -/
def selGo (idx : List Nat × List Nat) (g : Nat) :
    List (List Nat) → List (Nat × Nat) → Option (Shape × List Nat)
  | [], jobs => do
    let elems ← selElems idx g jobs
    some ([], elems)
  | rs :: rest, jobs => do
    let jobs' ← nextJobs rs jobs
    let splits ← selSplits idx g rs jobs jobs'
    let oldIds ← rowSplitsToRowIds rs (rs.getLastD 0)
    let ids ← selIds idx g oldIds (psum (sizes jobs)) jobs jobs'
    let (layers, elems) ← selGo idx g rest jobs'
    some ((splits, ids) :: layers, elems)

/-- Output `g` of `SelectAxis0`.  On axis 0 every entry of the index vector counts as one row, also -1
(`GetOldAndNewOffsets`, ragged_ops.cu 396-406), so row 0 of `new_offsets` is 0, 1, 2, ... -/
def selectOne (layers : List (List Nat)) (idx : List Nat × List Nat) (vals : List Int) (g : Nat) :
    Option (Shape × List Nat) :=
  match layers with
  | [] => none
  | rs :: rest => do
    let jobs' ← nextJobs rs (jobs0 vals)
    let splits ← selSplits1 idx g vals.length (psum (sizes jobs'))
    let oldIds ← rowSplitsToRowIds rs (rs.getLastD 0)
    let ids ← selIds idx g oldIds (List.range (vals.length + 1)) (jobs0 vals) jobs'
    let (ls, elems) ← selGo idx g rest jobs'
    some ((splits, ids) :: ls, elems)

/-- `SelectAxis0`, ragged_ops.cu 1134-1322; `idx` is the layer of the index array, `vals` its values. -/
def selectAxis0 (src : Shape) (idx : List Nat × List Nat) (vals : List Int) :
    Option (List (Shape × List Nat)) :=
  (List.range (idx.1.length - 1)).mapM (selectOne (src.map Prod.fst) idx vals)

/-- `MaxSize(axis)`, k2/csrc/ragged.cu 136-160. -/
def maxSize (src : Shape) (axis : Nat) : Option Nat := do
  let l ← src[axis - 1]?
  let lens ← (List.range (l.1.length - 1)).mapM (fun i => rowLen l.1 i)
  some (lens.foldl max 0)

/-- `TrivialShape`, ragged_ops.cu 1449-1456. -/
def trivialLayer (n : Nat) : List Nat × List Nat := ([0, n], List.replicate n 0)

/-- `ComposeRaggedShapes`, ragged_ops.cu 144-160: the number of elements of `a` must be the number of
rows of `b`. -/
def composeShapes (a b : Shape) : Option Shape :=
  if a ≠ [] ∧ b ≠ [] ∧ totSize a a.length = totSize b 0 then some (a ++ b) else none

/-- `DecomposeRaggedShape`, ragged_ops.cu 2118-2132. -/
def decomposeShape (src : Shape) (axis : Nat) : Option (Shape × Shape) :=
  if 1 ≤ axis ∧ axis < src.length then some (src.take axis, src.drop axis) else none

/-- `lambda_set_indexes`, ragged_ops.cu 1357-1374: an array of -1 into which the kernel writes. -/
def unstackIndexes (layer : List Nat × List Nat) (numOut rows : Nat) (padRight : Bool) :
    Option (List Int) := do
  let ws ← (List.range layer.2.length).mapM (fun i => do
    let r ← layer.2[i]?
    let b ← layer.1[r]?
    let e ← layer.1[r + 1]?
    let row := if padRight then i - b else numOut - (e - b) + (i - b)
    if row * rows + r < numOut * rows then some (row * rows + r, i) else none)
  some ((List.range (numOut * rows)).map (fun p =>
    match ws.find? (fun w => w.1 == p) with
    | some w => (w.2 : Int)
    | none => -1))

/-- What `Unstack` does with each output of `SelectAxis0`, ragged_ops.cu 1404-1412. -/
def unstackFinish (top : Shape) (removeAxis0 removeLast : Bool) (out : Shape × List Nat) :
    Option (Shape × List Nat) := do
  let s ← composeShapes top out.1
  let s ← if removeAxis0 && !removeLast then removeAxis s 0 else some s
  if removeLast then do
    let s ← removeEmptyLists s (s.length + 1 - 2)
    let s ← removeAxis s s.length
    some (s, out.2)
  else some (s, out.2)

/-- The extra layer below the last axis, ragged_ops.cu 1376-1386. -/
def addLast (src : Shape) (axis tot : Nat) : Option Shape :=
  if axis = src.length then composeShapes src [regularLayer tot 1] else some src

/-- The extra layer above axis 0, ragged_ops.cu 1391-1399. -/
def addFirst (top : Shape) (dim0 : Nat) : Option Shape :=
  if top.length = 1 then composeShapes [trivialLayer dim0] top else some top

/-- `Unstack` for `axis ≥ 1`, ragged_ops.cu 1343-1415.  The first component is the value that `src`, a
reference to the shape of the caller, has afterwards (line 1384). -/
def unstackPos (src : Shape) (axis : Nat) (padRight : Bool) :
    Option (Shape × List (Shape × List Nat)) := do
  let rows ← totSize src (axis - 1)
  let layer ← src[axis - 1]?
  let numOut ← maxSize src axis
  let vals ← unstackIndexes layer numOut rows padRight
  let tot ← totSize src src.length
  let src' ← addLast src axis tot
  let (top, bottom) ← decomposeShape src' axis
  let dim0 ← totSize top 0
  let top' ← addFirst top dim0
  let top'' ← removeAxis top' top'.length
  let outs ← selectAxis0 bottom (regularLayer numOut rows) vals
  let res ← outs.mapM (unstackFinish top'' (top.length == 1) (axis == src.length))
  some (src', res)

/-- `Unstack`, ragged_ops.cu 1324-1415. -/
def unstack (src : Shape) (axis : Nat) (padRight : Bool) :
    Option (Shape × List (Shape × List Nat)) :=
  if axis = 0 then do
    let dim0 ← totSize src 0
    if src.length = 1 then do
      let s ← composeShapes [trivialLayer dim0] src
      let r ← unstackPos s 1 padRight
      some (src, r.2)
    else do
      let outs ← selectAxis0 src (regularLayer dim0 1) ((List.range dim0).map (fun i : Nat => (i : Int)))
      let res ← outs.mapM (fun o => do
        let s ← removeAxis o.1 0
        some (s, o.2))
      some (src, res)
  else unstackPos src axis padRight

end Verif.Ragged
