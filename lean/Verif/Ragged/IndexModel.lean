import Verif.Ragged.Layer

/-!
# `Index` along axis 0

Model of `GetOldAndNewOffsets` and `IndexAxis0` (k2/csrc/ragged_ops.cu 378-422, 427-548).  For
each entry `j` of the index vector and each axis the code keeps the begin of a range of rows in
the source (`old_offsets`) and in the answer (`new_offsets`).  Here a *job* is the pair (begin,
end) of the source range of entry `j` on the current axis, and `psum (sizes jobs)` is the row of
`new_offsets` for that axis.  The kernels are maps over the positions they write.  The limits on
the number of axes (5 layers) are not modelled.  `none` is an out-of-range read.
-/

namespace Verif.Ragged

/-- Sizes of the ranges: `offset_diff`, ragged_ops.cu 417. -/
def sizes (jobs : List (Nat × Nat)) : List Nat := jobs.map (fun p => p.2 - p.1)

/-- The source ranges on axis 0, ragged_ops.cu 396-406: entry -1 gives the empty range (0, 0). -/
def jobs0 (idx : List Int) : List (Nat × Nat) :=
  idx.map (fun i => if i = -1 then (0, 0) else (i.toNat, i.toNat + 1))

/-- The source ranges on the next axis, ragged_ops.cu 414-416. -/
def nextJobs (rs : List Nat) (jobs : List (Nat × Nat)) : Option (List (Nat × Nat)) :=
  jobs.mapM (fun p => do
    let b ← rs[p.1]?
    let e ← rs[p.2]?
    some (b, e))

/-- `lambda_set_row_splits_and_ids` writing row_splits, ragged_ops.cu 480-526: `jobs` are the
ranges on `axis` (the rows of the layer), `jobs'` those on `axis + 1`. -/
def indexSplits (rs : List Nat) (jobs jobs' : List (Nat × Nat)) : Option (List Nat) := do
  let tot := (sizes jobs).sum
  let composed ← rowSplitsToRowIds (psum (sizes jobs)) tot
  (List.range (tot + 1)).mapM (fun i =>
    if i = tot then (psum (sizes jobs'))[jobs.length]?
    else do
      let j ← composed[i]?
      let jobBegin ← (psum (sizes jobs))[j]?
      let newNext ← (psum (sizes jobs'))[j]?
      let job ← jobs[j]?
      let job' ← jobs'[j]?
      let v ← rs[job.1 + (i - jobBegin)]?
      some (newNext + v - job'.1))

/-- `lambda_set_row_splits_and_ids` writing row_ids, ragged_ops.cu 493-509: `jobs` are the ranges
on `axis - 1`, `jobs'` those on `axis` (the elements of the layer), `oldIds` the row_ids of the
source layer. -/
def indexIds (oldIds : List Nat) (jobs jobs' : List (Nat × Nat)) : Option (List Nat) := do
  let tot := (sizes jobs').sum
  let composed ← rowSplitsToRowIds (psum (sizes jobs')) tot
  (List.range tot).mapM (fun i => do
    let j ← composed[i]?
    let jobBegin ← (psum (sizes jobs'))[j]?
    let newPrev ← (psum (sizes jobs))[j]?
    let job ← jobs[j]?
    let job' ← jobs'[j]?
    let v ← oldIds[job'.1 + (i - jobBegin)]?
    some (v + newPrev - job.1))

/-- `lambda_set_row_splits_and_ids` writing elem_indexes, ragged_ops.cu 511-512. -/
def indexElems (jobs : List (Nat × Nat)) : Option (List Nat) := do
  let tot := (sizes jobs).sum
  let composed ← rowSplitsToRowIds (psum (sizes jobs)) tot
  (List.range tot).mapM (fun i => do
    let j ← composed[i]?
    let jobBegin ← (psum (sizes jobs))[j]?
    let job ← jobs[j]?
    some (job.1 + (i - jobBegin)))

/-- The layers after the first one, from the ranges on their rows. -/
def indexGo : List (List Nat) → List (Nat × Nat) → Option (List (List Nat × List Nat) × List Nat)
  | [], jobs => do
    let elems ← indexElems jobs
    some ([], elems)
  | rs :: rest, jobs => do
    let jobs' ← nextJobs rs jobs
    let splits ← indexSplits rs jobs jobs'
    let oldIds ← rowSplitsToRowIds rs (rs.getLastD 0)
    let ids ← indexIds oldIds jobs jobs'
    let (layers, elems) ← indexGo rest jobs'
    some ((splits, ids) :: layers, elems)

/-- `IndexAxis0`, k2/csrc/ragged_ops.cu 427-548.  The result is the list of (row_splits, row_ids)
of the layers and `elem_indexes`.  The first layer is set at 459-467. -/
def indexAxis0 (layers : List (List Nat)) (idx : List Int) :
    Option (List (List Nat × List Nat) × List Nat) :=
  if idx.length = 0 then
    -- EmptyRaggedShape, ragged_ops.cu 437-440
    some (layers.map (fun _ => ([0], [])), [])
  else
    match layers with
    | [] => none
    | rs :: rest => do
      let jobs' ← nextJobs rs (jobs0 idx)
      let ids ← rowSplitsToRowIds (psum (sizes jobs')) (sizes jobs').sum
      let (layers, elems) ← indexGo rest jobs'
      some ((psum (sizes jobs'), ids) :: layers, elems)

end Verif.Ragged
