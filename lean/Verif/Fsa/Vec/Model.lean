import Verif.Ragged.EditModel
import Verif.Ragged.AxisModel
import Verif.Fsa.Core

/-!
# Vectors of FSAs as flat arrays

`FsaVec` is `Ragged<Arc>` with axes [fsa][state][arc] (k2/csrc/fsa.h 118-127): the row_splits and
row_ids of its two layers, and the arcs.  `flat` lays out a list of FSAs, each of them a list of
states, each of them a list of arcs.  Names such as `idx01` follow k2/csrc/utils.h: an index of a
state in the whole vector is an `idx01`, of an arc an `idx012`.
-/

namespace Verif.Fsa
open Verif.Ragged

/-- `FsaVec`. -/
structure FsaVec (W : Type) where
  sp1 : List Nat
  id1 : List Nat
  sp2 : List Nat
  id2 : List Nat
  arcs : List (Arc W)
  deriving DecidableEq

variable {W : Type}

/-- The layout of a list of FSAs. -/
def flat (T : List (List (List (Arc W)))) : FsaVec W :=
  ⟨psum (T.map List.length), idsFrom 0 (T.map List.length), psum (T.flatten.map List.length),
    idsFrom 0 (T.flatten.map List.length), T.flatten.flatten⟩

/-- An FSA given by the arcs of each state: the arcs say which state they leave and stay inside the
FSA. -/
def RowsOk (f : List (List (Arc W))) : Prop :=
  ∀ (s : Nat) (row : List (Arc W)), f[s]? = some row → ∀ a ∈ row, a.src = s ∧ a.dst < f.length

/-- The FSA that the rows denote. -/
def rowsFsa (f : List (List (Arc W))) : Fsa W := ⟨f.length, f.flatten⟩

/-- `GetDestStates(fsas, true)`, k2/csrc/fsa_utils.cu 663-676. -/
def destStates (v : FsaVec W) : Option (List Nat) :=
  (List.range v.arcs.length).mapM (fun i => do
    let a ← v.arcs[i]?
    let r ← v.id2[i]?
    some (a.dst + (r - a.src)))

/-- The elements of row `s` of a layer: the loop that a kernel over a ragged shape runs for `s`. -/
def rowElems (splits : List Nat) (s : Nat) : Option (List Nat) := do
  let b ← splits[s]?
  let e ← splits[s + 1]?
  some (List.range' b (e - b))

/-- The loop of `GetTransposeReorderingCpu` that fills the buckets, k2/csrc/ragged_ops.cu 1489-1492. -/
def fillBuckets : List Nat → Nat → List (List Nat) → Option (List (List Nat))
  | [], _, b => some b
  | v :: vs, i, b => do
    let l ← b[v]?
    fillBuckets vs (i + 1) (b.set v (l ++ [i]))

/-- `GetTransposeReordering`, k2/csrc/ragged_ops.cu 1482-1501 (the CPU version). -/
def transposeReordering (vals : List Nat) (numCols : Nat) : Option (List Nat) := do
  let b ← fillBuckets vals 0 (List.replicate numCols [])
  some b.flatten

/-- The last layer (row_splits) and the values of `GetIncomingArcs`, k2/csrc/fsa_utils.cu 901-927. -/
def incomingArcs (dest : List Nat) (numStates : Nat) : Option (List Nat × List Nat) := do
  let order ← transposeReordering dest numStates
  let ids ← gather dest order
  let splits ← rowIdsToRowSplits ids numStates
  some (splits, order)

end Verif.Fsa
