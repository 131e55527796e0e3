import Verif.Ragged.Hash
import Verif.Ragged.EditModel
import Verif.Ragged.IndexModel
import Verif.Ragged.AxisModel

/-!
# `UniqueSequences` (k2/csrc/ragged_ops.cu 2614-2672)

The hash function is a parameter of the model (`hash64` is the one of the code), so that the
theorems say what the result is for any hash and what it needs of the hash.
-/

namespace Verif.Ragged

/-- The 64-bit hash of a sequence, as a signed number: `ComputeHash<int64_t>`, ragged_ops.cu
2558-2568. -/
def hash64 (l : List Int) : Int := (hashCpu (R := BitVec 64) l).toInt

/-- The loop over the rows of the CPU branch of `ComputeHash`, ragged_ops.cu 2578-2590; the list
holds `row_splits[1], ...` and `j` is the position in the values. -/
def hashRows (hash : List Int → Int) (vals : List Int) (j : Nat) : List Nat → Option (List Int)
  | [] => some []
  | rowEnd :: rest =>
    if vals.length < rowEnd then none
    else do
      let out ← hashRows hash vals (max j rowEnd) rest
      some (hash ((vals.drop j).take (rowEnd - j)) :: out)

/-- `ComputeHash` on the CPU. -/
def computeHash (hash : List Int → Int) (splits : List Nat) (vals : List Int) : Option (List Int) := do
  let j ← splits[0]?
  hashRows hash vals j (splits.drop 1)

/-- The comparison of `std::stable_sort` with `LessThan`: an element stays before another one unless
the other one is smaller. -/
def notLess (a b : Int) : Bool := !decide (b < a)

/-- The array `order` of `SortSublistsCpu`, k2/csrc/ragged_ops_inl.h 387-407: the positions of each
sub-list, sorted by their values with a stable sort. -/
def sortOrder (splits : List Nat) (p : List Int) : Option (List Nat) := do
  let rows ← (List.range (splits.length - 1)).mapM (fun i => do
    let cur ← splits[i]?
    let next ← splits[i + 1]?
    if p.length < next then none
    else some ((List.range' cur (next - cur)).mergeSort
      (fun a b => notLess (p.getD a 0) (p.getD b 0))))
  some rows.flatten

/-- The values after `SortSublistsCpu`. -/
def sortValues (splits : List Nat) (p : List Int) : Option (List Int) := do
  let rows ← (List.range (splits.length - 1)).mapM (fun i => do
    let cur ← splits[i]?
    let next ← splits[i + 1]?
    if p.length < next then none
    else some (((p.drop cur).take (next - cur)).mergeSort notLess))
  some rows.flatten

/-- `lambda_set_keep`, ragged_ops.cu 2636-2646. -/
def keepFirst (splits ids : List Nat) (sorted : List Int) : Option (List Bool) :=
  (List.range sorted.length).mapM (fun i => do
    let r ← ids[i]?
    let b ← splits[r]?
    if i = b then some true
    else do
      let x ← sorted[i]?
      let y ← sorted[i - 1]?
      some (x != y))

/-- `Index` on the last axis of a shape, ragged_ops.cu 575-596: the last layer of the answer. -/
def indexLast (layer : List Nat × List Nat) (idx : List Nat) : Option (List Nat × List Nat) := do
  let ids ← gather layer.2 idx
  let splits ← rowIdsToRowSplits ids (layer.1.length - 1)
  some (splits, ids)

/-- `set_num_repeats`, ragged_ops.cu 2655-2662. -/
def numRepeats (n2o : List Nat) (dim : Nat) : Option (List Nat) :=
  (List.range n2o.length).mapM (fun i => do
    let a ← n2o[i]?
    if i < n2o.length - 1 then do
      let b ← n2o[i + 1]?
      some (b - a)
    else some (dim - a))

/-- What `UniqueSequences` returns: the answer, `num_repeats` and `new2old_indexes`. -/
structure Unique where
  shape : Shape
  values : List Int
  repeatsLayer : List Nat × List Nat
  repeats : List Nat
  indexes : List Nat
  deriving DecidableEq

/-- `UniqueSequences` on a ragged array with at least three axes, ragged_ops.cu 2625-2671; `l1` and
`l2` are its last two layers and `pre` the ones before.  `Index(src, NumAxes() - 2, ...)` decomposes
the shape, indexes the last axis of the top part and axis 0 of the bottom part (597-604). -/
def uniqueSequences (hash : List Int → Int) (pre : Shape) (l1 l2 : List Nat × List Nat)
    (vals : List Int) : Option Unique := do
  let hashes ← computeHash hash l2.1 vals
  let order ← sortOrder l1.1 hashes
  let sorted ← sortValues l1.1 hashes
  let keep ← keepFirst l1.1 l1.2 sorted
  let n2o ← new2old keep
  let n2u ← gather order n2o
  let top ← indexLast l1 n2u
  let bottom ← indexAxis0 [l2.1] (n2u.map (fun n : Nat => (n : Int)))
  let v ← bottom.2.mapM (fun e => vals[e]?)
  let reps ← numRepeats n2o hashes.length
  some ⟨pre ++ top :: bottom.1, v, top, reps, n2u⟩

/-- `UniqueSequences` on a ragged array with two axes, ragged_ops.cu 2619-2624: `Unsqueeze(src, 0)`,
then the above, then `RemoveAxis(0)` of the answer. -/
def uniqueSequences2 (hash : List Int → Int) (l : List Nat × List Nat) (vals : List Int) :
    Option Unique := do
  let sh ← unsqueeze [l] 0
  match sh with
  | [l1, l2] => do
    let u ← uniqueSequences hash [] l1 l2 vals
    let shape ← removeAxis u.shape 0
    some { u with shape := shape }
  | _ => none

end Verif.Ragged
