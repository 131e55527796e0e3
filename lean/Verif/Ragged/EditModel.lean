import Verif.Ragged.StackModel
import Verif.Util.Ragged

/-!
# Row-level edits of ragged arrays

Model of `Prefix`, `Arange`, `ChangeSublistSize`, `ChangeSublistSizePinned`, `AddSuffixToRagged`,
`AddPrefixToRagged`, `Renumbering` and `RemoveEmptyLists` (k2/csrc/ragged_ops.cu 1681-1990 and
2118-2225, k2/csrc/algorithms.cu 29-66).  Kernels that fill an array are modelled by the set of
their writes (`scatter`).  On a GPU the kernel `lambda_set_row_ids1` of `ChangeSublistSize` reads
the row_splits that another stream is writing; the model runs the kernels one after the other,
which is what the CPU does.
-/

namespace Verif.Ragged
open Verif.Util
variable {α : Type}

/-- `Array1::Arange(start, end)`, k2/csrc/array.h 175-182. -/
def arangeL (l : List α) (s e : Nat) : Option (List α) :=
  if s ≤ l.length ∧ s ≤ e ∧ e ≤ l.length then some ((l.drop s).take (e - s)) else none

/-- The loop of `Prefix`, k2/csrc/ragged_ops.cu 1801-1809. -/
def prefixGo : Shape → Nat → Option Shape
  | [], _ => some []
  | (splits, ids) :: rest, rowEnd => do
    let sp ← arangeL splits 0 (rowEnd + 1)
    let rowEnd' ← splits[rowEnd]?
    let id ← arangeL ids 0 rowEnd'
    let r ← prefixGo rest rowEnd'
    some ((sp, id) :: r)

/-- `Prefix`, k2/csrc/ragged_ops.cu 1791-1811. -/
def prefixShape (src : Shape) (n : Nat) : Option Shape := do
  let dim0 ← totSize src 0
  if n ≤ dim0 then prefixGo src n else none

/-- The loops of `Arange`, k2/csrc/ragged_ops.cu 1881-1914; the second component is
`value_range`. -/
def arangeGo : Shape → Nat → Nat → Option (Shape × Nat × Nat)
  | [], b, e => some ([], b, e)
  | (splits, ids) :: rest, b, e => do
    let sp ← arangeL splits b (e + 1)
    let b' ← splits[b]?
    let e' ← splits[e]?
    let id ← arangeL ids b' e'
    let r ← arangeGo rest b' e'
    some ((sp.map (fun x => x - b'), id.map (fun x => x - b)) :: r.1, r.2)

/-- `Arange`, k2/csrc/ragged_ops.cu 1854-1916.  An empty range returns an empty shape and
`value_range = (begin, end)`. -/
def arangeShape (src : Shape) (axis b e : Nat) : Option (Shape × Nat × Nat) :=
  if src.length ≤ axis then none else do
    let tot ← totSize src axis
    if b ≤ e ∧ e ≤ tot then
      if b = e then some (List.replicate (src.length - axis) ([0], []), b, e)
      else arangeGo (src.drop axis) b e
    else none

/-- `Arange` on `Ragged<T>`, k2/csrc/ragged_ops.h 498-504. -/
def arangeRagged (src : Shape) (vals : List α) (axis b e : Nat) : Option (Shape × List α) := do
  let r ← arangeShape src axis b e
  let v ← arangeL vals r.2.1 r.2.2
  some (r.1, v)

/-- The last layer computed by `ChangeSublistSize`, k2/csrc/ragged_ops.cu 1693-1744.  `none` if a
row_splits entry or the number of elements would be negative, or if some row_ids entry is never
written. -/
def changeLayer (splits ids : List Nat) (delta : Int) : Option (List Nat × List Nat) := do
  let newSplits ← (List.range splits.length).mapM (fun i : Nat => do
    let v ← splits[i]?
    if 0 ≤ (v : Int) + delta * (i : Int) then some ((v : Int) + delta * (i : Int)).toNat else none)
  let numElems ← newSplits[newSplits.length - 1]?
  let writes1 ← (List.range ids.length).mapM (fun i => do
    let r ← ids[i]?
    let x ← splits[r]?
    let b ← newSplits[r]?
    let e ← newSplits[r + 1]?
    some (if b + (i - x) < e then [(b + (i - x), r)] else []))
  let writes2 ← (List.range ((splits.length - 1) * delta.toNat)).mapM (fun i => do
    let next ← newSplits[i / delta.toNat + 1]?
    some [(next - 1 - i % delta.toNat, i / delta.toNat)])
  let newIds ← scatter numElems (writes1.flatten ++ writes2.flatten)
  some (newSplits, newIds)

/-- `ChangeSublistSize`: only the last layer changes. -/
def changeSublistSize (src : Shape) (delta : Int) : Option Shape := do
  let l ← src.getLast?
  let l' ← changeLayer l.1 l.2 delta
  some (src.dropLast ++ [l'])

/-- The last layer computed by `ChangeSublistSizePinned`, k2/csrc/ragged_ops.cu 1764-1788. -/
def changeLayerPinned (splits : List Nat) (delta : Int) : Option (List Nat × List Nat) := do
  let sizes ← (List.range (splits.length - 1)).mapM (fun i => do
    let a : Nat ← splits[i]?
    let b : Nat ← splits[i + 1]?
    if (b : Int) - (a : Int) = 0 ∨ (b : Int) - (a : Int) + delta ≤ 0 then some 0
    else some ((b : Int) - (a : Int) + delta).toNat)
  let sp := runningSums 0 sizes
  let ids ← rowSplitsToRowIds sp (sp.getLastD 0)
  some (sp, ids)

/-- `ChangeSublistSizePinned`. -/
def changeSublistSizePinned (src : Shape) (delta : Int) : Option Shape := do
  let l ← src.getLast?
  let l' ← changeLayerPinned l.1 delta
  some (src.dropLast ++ [l'])

/-- `AddSuffixToRagged`, k2/csrc/ragged_ops.cu 1921-1953. -/
def addSuffix (src : Shape) (vals : List α) (suffix : List α) : Option (Shape × List α) := do
  let rows ← src.getLast?
  if suffix.length = rows.1.length - 1 then do
    let dst ← changeSublistSize src 1
    let l ← dst.getLast?
    let v ← (List.range l.2.length).mapM (fun i => do
      let idx0 ← l.2[i]?
      let e ← l.1[idx0 + 1]?
      if i = e - 1 then suffix[idx0]? else vals[i - idx0]?)
    some (dst, v)
  else none

/-- `AddPrefixToRagged`, k2/csrc/ragged_ops.cu 1956-1988. -/
def addPrefix (src : Shape) (vals : List α) (pre : List α) : Option (Shape × List α) := do
  let rows ← src.getLast?
  if pre.length = rows.1.length - 1 then do
    let dst ← changeSublistSize src 1
    let l ← dst.getLast?
    let v ← (List.range l.2.length).mapM (fun i => do
      let idx0 ← l.2[i]?
      let b ← l.1[idx0]?
      if i = b then pre[idx0]? else vals[i - idx0 - 1]?)
    some (dst, v)
  else none

/-- `Renumbering::ComputeOld2New`, k2/csrc/algorithms.cu 29-36 (with the extra element). -/
def old2new (keep : List Bool) : List Nat := runningSums 0 (keep.map Bool.toNat)

/-- `Renumbering::ComputeNew2Old`, k2/csrc/algorithms.cu 41-66.  The last element of the array is
the old dimension; it is cut off at the end. -/
def new2old (keep : List Bool) : Option (List Nat) := do
  let writes ← (List.range (keep.length + 1)).mapM (fun i => do
    let a ← (old2new keep)[i]?
    if i = keep.length then some [(a, i)]
    else do
      let b ← (old2new keep)[i + 1]?
      some (if a < b then [(a, i)] else []))
  let n := (old2new keep).getLastD 0
  let l ← scatter (n + 1) writes.flatten
  some (l.take n)

/-- `RenumberAxis0Simple`, k2/csrc/ragged_ops.cu 2175-2225. -/
def renumberAxis0Simple (src : Shape) (keep : List Bool) : Option Shape :=
  match src with
  | [] => none
  | (splits, ids) :: rest =>
    if keep.length = splits.length - 1 then do
      let n2o ← new2old keep
      let newIds ← gather ((old2new keep).take keep.length) ids
      let newSplits ← (List.range (n2o.length + 1)).mapM (fun i =>
        if i = n2o.length then some (splits.getLastD 0)
        else do
          let old ← n2o[i]?
          splits[old]?)
      some ((newSplits, newIds) :: rest)
    else none

/-- The `keep` array of `RemoveEmptyListsAxis0`, k2/csrc/ragged_ops.cu 2156-2173. -/
def keepNonEmpty (splits : List Nat) : Option (List Bool) :=
  (List.range (splits.length - 1)).mapM (fun i => do
    let a ← splits[i]?
    let b ← splits[i + 1]?
    some (b != a))

/-- `RemoveEmptyLists` (2132-2145): axis 0, or the layers above renumbered on their last axis with
`Index` (572-594) and the layers below as for axis 0. -/
def removeEmptyLists (src : Shape) (axis : Nat) : Option Shape :=
  if axis = 0 then
    match src with
    | [] => none
    | l :: rest => do
      let keep ← keepNonEmpty l.1
      renumberAxis0Simple (l :: rest) keep
  else if src.length ≤ axis then none
  else do
    let b ← src[axis]?
    let keep ← keepNonEmpty b.1
    let bottom ← renumberAxis0Simple (src.drop axis) keep
    let t ← src[axis - 1]?
    if keep.length = t.2.length then do
      let n2o ← new2old keep
      let ids ← gather t.2 n2o
      let splits ← rowIdsToRowSplits ids (t.1.length - 1)
      some (src.take (axis - 1) ++ (splits, ids) :: bottom)
    else none

end Verif.Ragged
