import Verif.Ragged.Layer

/-!
# `RemoveAxis` and `Unsqueeze`

Model of k2/csrc/ragged_ops.cu 257-318 and 887-913.  A shape is the list of its layers, each with
row_splits and row_ids (in the code row_ids may be missing and are then computed on demand by
`RowIds()`, k2/csrc/ragged.cu 112-132; `RemoveAxis` calls `Populate()` first, so they are there).
A shape with `k` layers has `k + 1` axes.  `none` is a failed `K2_CHECK`.
-/

namespace Verif.Ragged

/-- `array[indexes]` (`Array1::operator[](Array1<int32_t>)`, k2/csrc/array.h). -/
def gather (l idx : List Nat) : Option (List Nat) := idx.mapM (fun i => l[i]?)

/-- `RemoveAxis`, k2/csrc/ragged_ops.cu 887-913. -/
def removeAxis (layers : List (List Nat × List Nat)) (axis : Nat) :
    Option (List (List Nat × List Nat)) :=
  if layers.length + 1 ≤ 2 ∨ layers.length + 1 ≤ axis then none
  else if axis = 0 then
    -- axes_out[i] = axes_in[i + 1]
    some (layers.drop 1)
  else if axis + 1 < layers.length + 1 then
    match layers[axis - 1]?, layers[axis]? with
    | some (splits1, ids1), some (splits2, ids2) => do
      let ids ← gather ids1 ids2
      let splits ← gather splits2 splits1
      some (layers.take (axis - 1) ++ (splits, ids) :: layers.drop (axis + 1))
    | _, _ => none
  else some (layers.take (axis - 1))

/-- `TotSize(axis)`, k2/csrc/ragged.cu 258-276: Dim0 for axis 0, else the number of elements of
layer `axis - 1`. -/
def totSize (layers : List (List Nat × List Nat)) (axis : Nat) : Option Nat :=
  if axis = 0 then layers[0]?.map (fun l => l.1.length - 1)
  else layers[axis - 1]?.map (fun l => l.1.getLastD 0)

/-- `Unsqueeze`, k2/csrc/ragged_ops.cu 257-318.  The inserted layer is written as the two parts of
`mem`: for axis 0 the splits `[0, dim0]` and zero ids, otherwise `i % (tot_size + 1)`. -/
def unsqueeze (layers : List (List Nat × List Nat)) (axis : Nat) :
    Option (List (List Nat × List Nat)) :=
  if layers.length + 1 < axis then none
  else if axis = 0 then do
    let dim0 ← totSize layers 0
    let mem := (List.range (2 + dim0)).map (fun i => if i = 1 then dim0 else 0)
    some ((mem.take 2, mem.drop 2) :: layers)
  else do
    let tot ← totSize layers axis
    let mem := (List.range (tot + 1 + tot)).map (fun i => i % (tot + 1))
    some (layers.take axis ++ (mem.take (tot + 1), mem.drop (tot + 1)) :: layers.drop axis)

end Verif.Ragged
