import Verif.Fsa.Random.Model
import Verif.Fsa.Ctc.Batch
import Verif.Ragged.IndexAxisModel

/-!
# `Nbest.from_lattice` (k2/python/k2/nbest.py 99-195)

The sampled paths are those of `randomPaths`.  `none` stands for a failed assertion or whatever stands for in the
functions called.  Autograd is not modelled.
-/

namespace Verif.Fsa.Nb
open Verif.Ragged Verif.Fsa.Bat Verif.Fsa.Rp Verif.Fsa.CtcB
variable {W K : Type} [Field K] [LinearOrder K]

/-- The attribute `aux_labels` of an FSA: a tensor, or a ragged tensor with axes [arc][word]. -/
inductive Aux where
  | tensor (vals : List Int)
  | ragged (splits : List Nat) (vals : List Int)
  deriving DecidableEq

/-- The number of arcs that the attribute is for, fsa.py 398 and 424. -/
def Aux.dim : Aux → Nat
  | tensor vals => vals.length
  | ragged splits _ => splits.length - 1

/-- The row_ids are computed when they are needed, k2/csrc/ragged.cu 112-132. -/
def layer (sp : List Nat) : Option (List Nat × List Nat) := do
  let ids ← rowSplitsToRowIds sp (sp.getLastD 0)
  some (sp, ids)

/-- `word_seq`, nbest.py 143-147.  For a tensor `Index(Array1, Ragged)` (k2/csrc/ragged_ops.h 1565-1569; the indexes
are not negative), otherwise `Index(Ragged, Ragged)` (k2/csrc/ragged_ops_inl.h 535-540) and `remove_axis`. -/
def wordSeq (aux : Aux) (shape : Shape) (idx : List Nat) : Option (Shape × List Int) :=
  match aux with
  | .tensor vals => do
    let v ← idx.mapM (fun i => vals[i]?)
    some (shape, v)
  | .ragged splits vals => do
    let l ← layer splits
    let r ← indexRagged [l] vals 0 idx
    let sh ← removeAxis (shape ++ r.1) ((shape ++ r.1).length + 1 - 2)
    some (sh, r.2.1)

/-- The `aux_labels` of the answer, nbest.py 176-186. -/
def auxIndex (aux : Aux) (idx : List Nat) : Option Aux :=
  match aux with
  | .tensor vals => do
    let v ← idx.mapM (fun i => vals[i]?)
    some (.tensor v)
  | .ragged splits vals => do
    let l ← layer splits
    let r ← indexRagged [l] vals 0 idx
    match r.1 with
    | [l'] => some (.ragged l'.1 r.2.1)
    | _ => none

/-- Assigning `lattice.scores`, fsa.py 418-422; the assertion on the size is line 398. -/
def setScores (v : FsaVec W) (scores : List W) : Option (FsaVec W) :=
  if scores.length = v.arcs.length then
    some { v with arcs := List.zipWith (fun a s => { a with score := s }) v.arcs scores }
  else none

/-- What `Nbest.__init__` keeps, nbest.py 79-92, and the `aux_labels` of `fsa`. -/
structure Nbest (W : Type) where
  fsa : FsaVec W
  aux : Aux
  shape : List Nat × List Nat
  keptShape : Shape
  kept : List Nat
  deriving DecidableEq

/-- `Nbest.__init__` with its assertion, nbest.py 86-87. -/
def mkNbest (fsa : FsaVec W) (aux : Aux) (shape : List Nat × List Nat) (keptShape : Shape) (kept : List Nat) :
    Option (Nbest W) :=
  if totSize [shape] 1 = some (fsa.sp1.length - 1) then some ⟨fsa, aux, shape, keptShape, kept⟩ else none

/-- nbest.py 165-195, after the paths have been chosen: axis 0 is removed, the labels without -1 make linear FSAs,
which get the auxiliary labels and the scores of the arcs of the paths. -/
def nbestOf [Zero W] (v : FsaVec W) (aux : Aux) (keptShape : Shape) (kept : List Nat) : Option (Nbest W) := do
  let top ← keptShape[0]?
  let sh ← removeAxis keptShape 0
  let labels ← kept.mapM (fun i => (v.arcs[i]?).map (fun a => a.label))
  let r ← removeValuesEq sh labels (-1)
  match r.1 with
  | [l] => do
    let aux' ← auxIndex aux kept
    let fsa ← linearBatch (W := W) l.1 r.2
    if aux'.dim = fsa.arcs.length then do
      let scores ← kept.mapM (fun i => (v.arcs[i]?).map (fun a => a.score))
      let fsa' ← setScores fsa scores
      mkNbest fsa' aux' top sh kept
    else none
  | _ => none

/-- `Nbest.from_lattice`, nbest.py 99-195.  Multiplying a score by `nbest_scale` is `scale`. -/
def fromLattice [Zero W] (hash : List Int → Int) (gpu : Bool) (lp0 : Nat) (low : K) (wt : W → K) (mid : K → K → K)
    (scale : W → W) (n : Nat) (v : FsaVec W) (aux : Aux) : Option (Nbest W) := do
  let scaled ← setScores v (v.arcs.map (fun a => scale a.score))
  let p ← randomPaths gpu lp0 low wt mid n scaled
  let l1 ← layer p.1
  let l2 ← layer p.2.1
  let w ← wordSeq aux [l1, l2] p.2.2
  let w' ← removeValuesLeq w.1 w.2 0
  match w'.1 with
  | [w1, w2] => do
    let u ← uniqueSequences hash [] w1 w2 w'.2
    let kept ← indexRagged [l1, l2] p.2.2 1 u.indexes
    nbestOf v aux kept.1 kept.2.1
  | _ => none

end Verif.Fsa.Nb
