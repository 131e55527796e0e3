import Verif.Fsa.Vec.Model
import Verif.Ragged.EditModel
import Verif.Ragged.UnstackModel

/-!
# `ConvertDenseToFsaVec` (k2/csrc/fsa_utils.cu 1040-1120)

The scores are the rows of the matrix `src.scores`.  The kernel is the list of its writes; `none` stands for a failed
check, an access outside an array or an array element that is never written.
-/

namespace Verif.Fsa.Dv
open Verif.Ragged Verif.Util
variable {W : Type}

/-- What one thread writes: into `arcs`, `row_ids2` and `row_splits2`. -/
structure Writes (W : Type) where
  arcs : List (Nat × Arc W)
  ids : List (Nat × Nat)
  splits : List (Nat × Nat)

/-- `lambda_set_arcs_etc`, fsa_utils.cu 1068-1116, for the state `i` and the symbol `s`; `n` is `num_symbols`, `sp`
and `ids` are those of `src.shape`, `id1` the row_ids of `fsa2state`. -/
def thread (sp ids id1 : List Nat) (scores : List (List W)) (n numStates numArcs i s : Nat) : Option (Writes W) := do
  let r ← ids[i]?
  let b ← sp[r]?
  let e ← sp[r + 1]?
  let st := i - b
  let ans := i + r
  let arc : Int := (b : Int) * n - (r : Int) * ((n : Int) - 1) + (st : Int) * n + s
  if arc < 0 then none
  else
    let last := decide (st + 1 = e - b)
    if last = true ∧ 0 < s then some ⟨[], [], []⟩
    else do
      let row ← scores[i]?
      let x ← row[if last then s else s + 1]?
      let label : Int := if last then (s : Int) - 1 else s
      if s = 0 ∧ id1[ans]? ≠ some r then none
      else some ⟨[(arc.toNat, ⟨st, st + 1, label, x⟩)], [(arc.toNat, ans)],
        (if last then [(ans + 1, arc.toNat + 1)] else []) ++
          (if s = 0 then [(ans, arc.toNat)] ++ (if i = 0 then [(numStates, numArcs)] else []) else [])⟩

/-- `ConvertDenseToFsaVec`; `cols` is `src.scores.Dim1()`. -/
def convertDense (shape : List Nat × List Nat) (cols : Nat) (scores : List (List W)) : Option (FsaVec W) := do
  let n := cols - 1
  let numFsas := shape.1.length - 1
  let f2s ← changeSublistSize [shape] 1
  let l1 ← f2s[0]?
  let numElems := shape.2.length
  let numStates := numElems + numFsas
  let numArcs : Int := (numElems : Int) * n - ((n : Int) - 1) * numFsas
  if numArcs < 0 then none
  else do
    let ws ← ((List.range numElems).flatMap (fun i => (List.range n).map (fun s => (i, s)))).mapM
      (fun p => thread shape.1 shape.2 l1.2 scores n numStates numArcs.toNat p.1 p.2)
    let sp2 ← scatter (numStates + 1) (ws.flatMap Writes.splits)
    let id2 ← scatter numArcs.toNat (ws.flatMap Writes.ids)
    let arcs ← scatter numArcs.toNat (ws.flatMap Writes.arcs)
    if sp2.getLastD 0 ≠ numArcs.toNat then none
    else do
      let sh ← composeShapes f2s [(sp2, id2)]
      match sh with
      | [a, b] => some ⟨a.1, a.2, b.1, b.2, arcs⟩
      | _ => none

end Verif.Fsa.Dv
