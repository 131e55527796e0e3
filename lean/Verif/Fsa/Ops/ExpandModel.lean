import Verif.Fsa.Rows
import Verif.Fsa.Cover

/-!
# `ExpandArcs` and `Invert` (k2/csrc/fsa_algo.cu 1495-1799), one FSA

`ExpandArcs` replaces the arc `i` by a chain of `max 1 l` arcs, where `l` is the length of the
`i`-th list of labels.  The code describes the new states by a ragged shape
`[state][foo][ostate]`, where `foo = 0` is the old state and `foo = k + 1` stands for the new
states inside the chain of the `k`-th arc that leaves the state.  We build the same ragged array,
with the meaning of each new state as its value.
-/

namespace Verif.Fsa
open Verif.Util
variable {W : Type}

/-- A state of the result: an old state, or the `j`-th state inside the chain of the `k`-th arc
leaving state `s`. -/
inductive OState where
  | orig (s : Nat)
  | mid (s k j : Nat)
  deriving DecidableEq, Repr

/-- The arcs leaving state `s`. -/
def row (f : Fsa W) (s : Nat) : List (Arc W) := f.arcs.filter (fun a => a.src == s)

/-- `labels_len1` of the `k`-th arc of state `s`: `fsa_idx012 = fsa_idx01x + fsa_idx2`,
fsa_algo.cu 1553-1561, 1668-1675. -/
def labelsLen (f : Fsa W) (aux : List (List Int)) (s k : Nat) : Nat :=
  (aux.getD (splits f.rows s + k) []).length

/-- The row of `state_to_foo` of state `s` with the new states of each `foo`: one for the state,
`max(labels_len1 - 1, 0)` for an arc; fsa_algo.cu 1513-1566. -/
def fooRow (f : Fsa W) (aux : List (List Int)) (s : Nat) : List (List OState) :=
  [OState.orig s] :: (List.range (row f s).length).map (fun k =>
    (List.range (labelsLen f aux s k - 1)).map (OState.mid s k))

def fooRows (f : Fsa W) (aux : List (List Int)) : List (List (List OState)) :=
  (List.range f.numStates).map (fooRow f aux)

/-- All new states, `to_ostates_shape`, fsa_algo.cu 1568-1577. -/
def ostates (f : Fsa W) (aux : List (List Int)) : List OState := (fooRows f aux).flatten.flatten

/-- `orig_dest_idx0123 = tos_row_splits3[tos_row_splits2[dest_idx01]]`, fsa_algo.cu 1679-1682. -/
def origNum (f : Fsa W) (aux : List (List Int)) (s : Nat) : Nat :=
  splits (fooRows f aux).flatten (splits (fooRows f aux) s)

/-- `dest_idx0123`, fsa_algo.cu 1694-1700: `foo` is the arc plus one, the `ostate` is the position
in the sequence. -/
def midNum (f : Fsa W) (aux : List (List Int)) (s k q : Nat) : Nat :=
  splits (fooRows f aux).flatten (splits (fooRows f aux) s + (k + 1)) + q

/-- The arc at position `q` of the chain of the `k`-th arc `a` of state `s`, leaving the new state
number `pos`; fsa_algo.cu 1684-1724.  The score component also carries the entries of
`fsas_arc_map` and `labels_arc_map`. -/
def oarc [Zero W] (f : Fsa W) (aux : List (List Int)) (pos s k q : Nat) (a : Arc W) :
    Arc (W × Int × Int) where
  src := pos
  dst := if q + 1 ≥ labelsLen f aux s k then origNum f aux a.dst else midNum f aux s k q
  label := if a.label ≠ -1 then (if q = 0 then a.label else 0)
    else (if q + 1 ≥ labelsLen f aux s k then -1 else 0)
  score := (if q = 0 then a.score else 0,
    if q = 0 then ((splits f.rows s + k : Nat) : Int) else -1,
    if q < labelsLen f aux s k then ((splits aux (splits f.rows s + k) + q : Nat) : Int) else -1)

/-- The arcs leaving a new state, fsa_algo.cu 1584-1610 (how many) and 1640-1667 (which). -/
def oarcsOf [Zero W] (f : Fsa W) (aux : List (List Int)) (pos : Nat) :
    OState → List (Arc (W × Int × Int))
  | .orig s => (row f s).mapIdx (fun k a => oarc f aux pos s k 0 a)
  | .mid s k j => ((row f s)[k]?).toList.map (fun a => oarc f aux pos s k (j + 1) a)

/-- `ExpandArcs` with the two arc maps attached to the arcs. -/
def expandTagged [Zero W] (f : Fsa W) (aux : List (List Int)) : Fsa (W × Int × Int) :=
  ⟨(ostates f aux).length, ((ostates f aux).mapIdx (oarcsOf f aux)).flatten⟩

/-- Forget the arc maps. -/
def untag (a : Arc (W × Int × Int)) : Arc W := ⟨a.src, a.dst, a.label, a.score.1⟩

/-- `ExpandArcs`, fsa_algo.cu 1495-1737: the FSA, `fsas_arc_map`, `labels_arc_map`. -/
def expandArcs [Zero W] (f : Fsa W) (aux : List (List Int)) : Fsa W × List Int × List Int :=
  let t := expandTagged f aux
  (⟨t.numStates, t.arcs.map untag⟩, t.arcs.map (fun a => a.score.2.1),
    t.arcs.map (fun a => a.score.2.2))

/-- `src_aux_labels_data[i]`, or 0 for `i = -1`, fsa_algo.cu 1788-1791. -/
def auxAt (aux : List (List Int)) (i : Int) : Int :=
  if i = -1 then 0 else aux.flatten.getD i.toNat 0

/-- The new label of an arc of `Invert`, fsa_algo.cu 1788-1791. -/
def invArc (aux : List (List Int)) (a : Arc (W × Int × Int)) : Arc W :=
  ⟨a.src, a.dst, auxAt aux a.score.2.2, a.score.1⟩

/-- The new aux labels of an arc, fsa_algo.cu 1762-1770, 1781-1786: no entry for a zero label. -/
def invAux (a : Arc (W × Int × Int)) : List Int := if a.label = 0 then [] else [a.label]

/-- `Invert`, fsa_algo.cu 1740-1799: expand, then exchange the label of each arc with its aux
label.  The result is the FSA, the aux labels and the arc map. -/
def invert [Zero W] (f : Fsa W) (aux : List (List Int)) : Fsa W × List (List Int) × List Int :=
  (⟨(expandTagged f aux).numStates, (expandTagged f aux).arcs.map (invArc aux)⟩,
    (expandTagged f aux).arcs.map invAux, (expandTagged f aux).arcs.map (fun a => a.score.2.1))

end Verif.Fsa
