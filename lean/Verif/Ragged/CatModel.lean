import Verif.Ragged.StackModel

/-!
# `Stack` and `Cat` along any axis, and `Merge`

Model of k2/csrc/ragged_utils.cu 31-305 (`CheckLayerEqual`, `IntersperseRaggedLayer`,
`MergeRaggedLayer`, `SubsampleRaggedLayer`) and of k2/csrc/ragged_ops.cu 844-885 (`Cat`),
1065-1108 (`Stack`), 1425-1447 (`Merge`), 1458-1469 (`RegularRaggedShape`).  A shape is the list
of its layers, as in `StackModel.lean`.  The merge map is always computed (the code skips it when
the caller passes a null pointer).  Numbers are natural numbers: overflow of the 32-bit merge map
is not modelled.  The final constructor validates the shape (`RaggedShape(ans_layers)`); it has no
effect on valid shapes and is not modelled.
-/

namespace Verif.Ragged

/-- The device of the sources: `IntersperseRaggedLayer` computes row_splits in a different way on
the CPU, and on the GPU for at most 16 sources and for more. -/
inductive Dev
  | cpu
  | gpu
  deriving DecidableEq

/-- `CheckLayerEqual`, ragged_utils.cu 31-81.  The contents are compared only in debug builds
(`#ifndef NDEBUG`); the shortcut for equal addresses has no effect. -/
def checkLayerEqual (debug : Bool) (srcs : List Shape) (layer : Nat) : Option Unit :=
  match srcs with
  | [] => some ()
  | [_] => some ()
  | s0 :: rest => do
    let dim ← totSize s0 layer
    let tot ← totSize s0 (layer + 1)
    if rest.all (fun s => totSize s layer == some dim && totSize s (layer + 1) == some tot) &&
        (!debug || rest.all (fun s => s[layer]?.map Prod.fst == s0[layer]?.map Prod.fst))
    then some () else none

/-- `row_splits[i + 1] - row_splits[i]`. -/
def rowLen (rs : List Nat) (i : Nat) : Option Nat := do
  let e ← rs[i + 1]?
  let b ← rs[i]?
  some (e - b)

/-- row_splits on the CPU, ragged_utils.cu 122-132: rows outermost, sources inside. -/
def interSplitsCpu (rss : List (List Nat)) (numRows : Nat) : Option (List Nat) := do
  let lens ← (List.range numRows).mapM (fun i => rss.mapM (fun rs => rowLen rs i))
  some (runningSums 0 lens.flatten)

/-- row_splits on the GPU for at most 16 sources, ragged_utils.cu 134-150: the sum of the
`num_srcs` row_splits numbered `i, ..., i + num_srcs - 1`. -/
def interSplitsFew (rss : List (List Nat)) (numRows : Nat) : Option (List Nat) :=
  (List.range (numRows * rss.length + 1)).mapM (fun i => do
    let vs ← (List.range' i rss.length).mapM (fun j => do
      let rs ← rss[j % rss.length]?
      rs[j / rss.length]?)
    some vs.sum)

/-- row_splits on the GPU for more sources, ragged_utils.cu 151-161: sizes, then `ExclusiveSum`. -/
def interSplitsMany (rss : List (List Nat)) (numRows : Nat) : Option (List Nat) := do
  let lens ← (List.range (numRows * rss.length)).mapM (fun i => do
    let rs ← rss[i % rss.length]?
    rowLen rs (i / rss.length))
  some (runningSums 0 lens)

/-- The row_splits of `IntersperseRaggedLayer`. -/
def interSplits (dev : Dev) (rss : List (List Nat)) (numRows : Nat) : Option (List Nat) :=
  if dev = .cpu then interSplitsCpu rss numRows
  else if rss.length ≤ 16 then interSplitsFew rss numRows
  else interSplitsMany rss numRows

/-- `IntersperseRaggedLayer`, ragged_utils.cu 84-185: the new layer and the merge map. -/
def intersperse (dev : Dev) (srcs : List Shape) (layer : Nat) :
    Option ((List Nat × List Nat) × List Nat) :=
  match srcs with
  | [] => none
  | [s] => do
    let l ← s[layer]?
    let tot ← totSize s (layer + 1)
    some (l, List.range tot)
  | s0 :: _ => do
    let numRows ← totSize s0 layer
    if srcs.all (fun s => s.length == s0.length && totSize s layer == some numRows) then do
      let rss ← srcs.mapM (fun s => s[layer]?.map Prod.fst)
      let tots ← srcs.mapM (fun s => totSize s (layer + 1))
      let rs ← interSplits dev rss numRows
      let ids ← rowSplitsToRowIds rs tots.sum
      let mm ← (List.range tots.sum).mapM (fun idx01 => do
        let idx0 ← ids[idx01]?
        let idx0x ← rs[idx0]?
        let srs ← rss[idx0 % srcs.length]?
        let s0x ← srs[idx0 / srcs.length]?
        some (idx0 % srcs.length + srcs.length * (s0x + (idx01 - idx0x))))
      some ((rs, ids), mm)
    else none

/-- `MergeRaggedLayer`, ragged_utils.cu 188-250: the new layer and the next merge map. -/
def mergeLayer (srcs : List Shape) (layer : Nat) (mm : List Nat) :
    Option ((List Nat × List Nat) × List Nat) := do
  let dims ← srcs.mapM (fun s => totSize s layer)
  let tots ← srcs.mapM (fun s => totSize s (layer + 1))
  let rss ← srcs.mapM (fun s => s[layer]?.map Prod.fst)
  if srcs ≠ [] ∧ dims.sum = mm.length then do
    let lens ← mm.mapM (fun m => do
      let rs ← rss[m % srcs.length]?
      rowLen rs (m / srcs.length))
    let rs := runningSums 0 lens
    let ids ← rowSplitsToRowIds rs tots.sum
    let mm' ← (List.range tots.sum).mapM (fun idx01 => do
      let idx0 ← ids[idx01]?
      let idx0x ← rs[idx0]?
      let m ← mm[idx0]?
      let srs ← rss[m % srcs.length]?
      let s0x ← srs[m / srcs.length]?
      some (m % srcs.length + srcs.length * (s0x + (idx01 - idx0x))))
    some ((rs, ids), mm')
  else none

/-- `SubsampleRaggedLayer`, ragged_utils.cu 253-305, on a shape with one layer. -/
def subsample (l : List Nat × List Nat) (factor : Nat) : Option (List Nat × List Nat) :=
  if (l.1.length - 1) % factor = 0 then do
    let rs ← (List.range ((l.1.length - 1) / factor + 1)).mapM (fun i => l.1[i * factor]?)
    some (rs, l.2.map (fun r => r / factor))
  else none

/-- `RegularRaggedShape`, ragged_ops.cu 1458-1469. -/
def regularLayer (dim0 dim1 : Nat) : List Nat × List Nat :=
  ((List.range (dim0 + 1)).map (fun i => i * dim1),
    (List.range dim0).flatMap (fun i => List.replicate dim1 i))

/-- The loop over the layers below the axis, ragged_ops.cu 875-882, 1098-1105, 1437-1444: `l` is
the first of them and `k` their number. -/
def mergeRest (srcs : List Shape) : (l k : Nat) → List Nat → Option (Shape × List Nat)
  | _, 0, mm => some ([], mm)
  | l, k + 1, mm => do
    let (layer, mm') ← mergeLayer srcs l mm
    let (rest, m) ← mergeRest srcs (l + 1) k mm'
    some (layer :: rest, m)

/-- `Stack`, ragged_ops.cu 1065-1108. -/
def stackAxis (dev : Dev) (debug : Bool) (srcs : List Shape) (axis : Nat) :
    Option (Shape × List Nat) :=
  match srcs with
  | [] => none
  | s0 :: _ =>
    if s0.length + 1 ≤ axis then none
    else if axis = 0 then stackAxis0 srcs
    else do
      let _ ← (List.range (axis - 1)).mapM (checkLayerEqual debug srcs)
      let (s, mm) ← intersperse dev srcs (axis - 1)
      let (rest, m) ← mergeRest srcs axis (s0.length - axis) mm
      some (s0.take (axis - 1) ++
        regularLayer ((s.1.length - 1) / srcs.length) srcs.length :: s :: rest, m)

/-- `Cat`, ragged_ops.cu 844-885. -/
def catAxis (dev : Dev) (debug : Bool) (srcs : List Shape) (axis : Nat) :
    Option (Shape × List Nat) :=
  match srcs with
  | [] => none
  | s0 :: _ =>
    if axis = 0 then catAxis0 srcs
    else if s0.length + 1 ≤ axis then none
    else do
      let _ ← (List.range (axis - 1)).mapM (checkLayerEqual debug srcs)
      let (s, mm) ← intersperse dev srcs (axis - 1)
      let t ← subsample s srcs.length
      let (rest, m) ← mergeRest srcs axis (s0.length - axis) mm
      some (s0.take (axis - 1) ++ t :: rest, m)

/-- `Merge`, ragged_ops.cu 1425-1447. -/
def mergeShapes (srcs : List Shape) (mm : List Nat) : Option (Shape × List Nat) :=
  match srcs with
  | [] => none
  | s0 :: _ => mergeRest srcs 0 s0.length mm

end Verif.Ragged
