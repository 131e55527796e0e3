import Verif.Ragged.UniqueModel
import Verif.Ragged.StackModel

/-!
# `Index` along any axis, and removing values

`Index` of k2/csrc/ragged_ops.cu 567-605 with `Index` of a ragged tensor, k2/csrc/ragged_ops.h 1483-1492;
`SubsetRagged` on the last axis, k2/csrc/ragged_ops.h 957-966 and ragged_ops.cu 1991-1997; `RemoveValuesLeq` and
`RemoveValuesEq`, k2/csrc/ragged_ops_inl.h 308-332; `Index` of an array by a ragged tensor, k2/csrc/ragged_ops.h.

A shape is the list of its layers, see `removeAxis`.  The check of ragged_ops.cu 578-582 is one of debug builds;
`RowIdsToRowSplits` (`rowIdsToRowSplits`) fails on the same inputs.
-/

namespace Verif.Ragged

/-- `Index(RaggedShape, axis, indexes, elem_indexes)`, k2/csrc/ragged_ops.cu 567-605.  In the last branch the shape is
cut at `axis`; the upper part is indexed on its last axis, the lower part on axis 0.  Negative indexes, which
`IndexAxis0` allows, are left out. -/
def indexAxis (shape : Shape) (axis : Nat) (idx : List Nat) : Option (Shape × List Nat) :=
  if shape.length + 1 ≤ axis then none
  else if axis = 0 then indexAxis0 (shape.map Prod.fst) (idx.map (fun n : Nat => (n : Int)))
  else if axis = shape.length then do
    let last ← shape[axis - 1]?
    let l ← indexLast last idx
    some (shape.take (axis - 1) ++ [l], idx)
  else do
    let last ← shape[axis - 1]?
    let l ← indexLast last idx
    let bottom ← indexAxis0 ((shape.drop axis).map Prod.fst) (idx.map (fun n : Nat => (n : Int)))
    some (shape.take (axis - 1) ++ l :: bottom.1, bottom.2)

/-- `Index(Ragged, axis, indexes, value_indexes_out)`, k2/csrc/ragged_ops.h 1483-1492. -/
def indexRagged {X : Type} (shape : Shape) (vals : List X) (axis : Nat) (idx : List Nat) :
    Option (Shape × List X × List Nat) := do
  let r ← indexAxis shape axis idx
  let v ← r.2.mapM (fun e => vals[e]?)
  some (r.1, v, r.2)

/-- `SubsetRagged` on the last axis: k2/csrc/ragged_ops.cu 1991-1997 with its check. -/
def subsetLast {X : Type} (shape : Shape) (vals : List X) (keep : List Bool) : Option (Shape × List X) :=
  if keep.length = vals.length then do
    let n2o ← new2old keep
    let r ← indexRagged shape vals shape.length n2o
    some (r.1, r.2.1)
  else none

/-- `RemoveValuesLeq`, k2/csrc/ragged_ops_inl.h 308-319. -/
def removeValuesLeq (shape : Shape) (vals : List Int) (cutoff : Int) : Option (Shape × List Int) :=
  subsetLast shape vals (vals.map (fun x => decide (cutoff < x)))

/-- `RemoveValuesEq`, k2/csrc/ragged_ops_inl.h 321-332. -/
def removeValuesEq (shape : Shape) (vals : List Int) (target : Int) : Option (Shape × List Int) :=
  subsetLast shape vals (vals.map (fun x => x != target))

end Verif.Ragged
