import Verif.Ragged.AxisModel

/-!
# `Stack` and `Cat` along axis 0

Model of k2/csrc/ragged_ops.cu 608-632 (`GetOffsets`), 686-842 (`StackAxis0`) and the axis-0 branch
of `Cat` (844-854) and of `Stack` (1065-1076).  The lambda of `StackAxis0` reads
`composed_row_ids[i]` and then overwrites that same entry with the row id; since no other entry is
touched, reading and writing are modelled as separate arrays.  The limit of six axes
(`K2_CHECK(num_axes_out <= 6)`) is not modelled.
-/

namespace Verif.Ragged

abbrev Shape := List (List Nat × List Nat)

/-- Running sums, k2/csrc/ragged_ops.cu 622-629. -/
def runningSums (sum : Nat) : List Nat → List Nat
  | [] => [sum]
  | x :: xs => sum :: runningSums (sum + x) xs

/-- Row `axis` of `GetOffsets`: one per source on row 0, otherwise `TotSize(axis - 1)`. -/
def offsetsRow (srcs : List Shape) (axis : Nat) : Option (List Nat) := do
  let ts ← srcs.mapM (fun s => if axis = 0 then some 1 else totSize s (axis - 1))
  some (runningSums 0 ts)

/-- "Composed row ids" of an output axis: the source of each element, lines 732-738. -/
def composedIds (offs : List Nat) : Option (List Nat) := rowSplitsToRowIds offs (offs.getLastD 0)

/-- row_splits written by the lambda at `axis` (1 ≤ axis < num_axes_out - 1), lines 790-812. -/
def stackSplits (srcs : List Shape) (axis : Nat) : Option (List Nat) := do
  let offs ← offsetsRow srcs axis
  let next ← offsetsRow srcs (axis + 1)
  let comp ← composedIds offs
  (List.range (offs.getLastD 0 + 1)).mapM (fun i =>
    if i = offs.getLastD 0 then next[srcs.length]?
    else do
      let j ← comp[i]?
      let b ← offs[j]?
      let o ← next[j]?
      let s ← srcs[j]?
      let l ← s[axis - 1]?
      let v ← l.1[i - b]?
      some (o + v))

/-- row_ids written by the lambda at `axis` (2 ≤ axis), lines 776-785. -/
def stackIds (srcs : List Shape) (axis : Nat) : Option (List Nat) := do
  let offs ← offsetsRow srcs axis
  let prev ← offsetsRow srcs (axis - 1)
  let comp ← composedIds offs
  (List.range (offs.getLastD 0)).mapM (fun i => do
    let j ← comp[i]?
    let b ← offs[j]?
    let o ← prev[j]?
    let s ← srcs[j]?
    let l ← s[axis - 2]?
    let v ← l.2[i - b]?
    some (v + o))

/-- The merge map, line 788: source plus `num_srcs` times the position in the source. -/
def stackMergeMap (srcs : List Shape) (axis : Nat) : Option (List Nat) := do
  let offs ← offsetsRow srcs axis
  let comp ← composedIds offs
  (List.range (offs.getLastD 0)).mapM (fun i => do
    let j ← comp[i]?
    let b ← offs[j]?
    some (j + srcs.length * (i - b)))

/-- `StackAxis0`. -/
def stackAxis0 (srcs : List Shape) : Option (Shape × List Nat) :=
  match srcs with
  | [] => none
  | [s] => do
    -- TrivialShape(Dim0) composed with the source; merge_map = Arange(0, NumElements)
    let dim0 ← totSize s 0
    let tot ← totSize s s.length
    some (([0, dim0], List.replicate dim0 0) :: s, List.range tot)
  | s :: rest =>
    if rest.all (fun t => t.length == s.length) && s.length != 0 then do
      let offs1 ← offsetsRow srcs 1
      let ids1 ← composedIds offs1
      let layers ← (List.range s.length).mapM (fun a => do
        let sp ← stackSplits srcs (a + 1)
        let ids ← stackIds srcs (a + 2)
        some (sp, ids))
      let mm ← stackMergeMap srcs (s.length + 1)
      some ((offs1, ids1) :: layers, mm)
    else none

/-- `Cat` with axis 0: `StackAxis0` without its first layer. -/
def catAxis0 (srcs : List Shape) : Option (Shape × List Nat) := do
  let r ← stackAxis0 srcs
  some (r.1.drop 1, r.2)

end Verif.Ragged
