import Mathlib.Order.Defs.LinearOrder
import Mathlib.Algebra.Group.Defs
import Verif.Fsa.Core
import Verif.Fsa.Sort.Model

/-!
# `RemoveEpsilonDevice` on one FSA

Modelled code: `k2/csrc/rm_epsilon.cu`, which `RemoveEpsilon` (k2/csrc/fsa_algo.cu 281-292) uses for
FSAs that may have cycles and for FSAs on the GPU.

* One FSA.  The code handles all FSAs of a vector in the same kernels, with state indexes shifted by
  the first state of the FSA.
* The arcs of an FSA are a list ordered by source state, and each arc carries its row of the arc map
  (an `Item`).  The rows always name arcs of the source: the composition with the arc maps of earlier
  steps (`ComposeArcMaps`, `Index`, lines 771, 1068-1069) is done at once.
* `Renumbering` is `renum` (`Old2New`) and `kept` (`New2Old`); they are proved correct for the code in
  `Verif.Ragged.RemoveEmptyProps`.  Sorting the sub-lists is the stable sort of
  `Verif.Fsa.Sort.Model`, row by row.
* Scores are elements of a linearly ordered group: no rounding.
-/

namespace Verif.Fsa.Rmd
variable {W : Type}

/-- An arc with its row of the arc map. -/
abbrev Item (W : Type) := Arc W × List Nat

/-- `Old2New()` at `s`: the number of kept states before `s`. -/
def renum (keep : Nat → Bool) (s : Nat) : Nat := (List.range s).countP keep

/-- `New2Old()`. -/
def keptList (keep : Nat → Bool) (n : Nat) : List Nat := (List.range n).filter keep

/-- `state_keep_data`, rm_epsilon.cu 460-490 and 557-587: the states that an arc selected by `sel`
enters or leaves; the start state and the final state are also kept, if there is an arc. -/
def stateKeep (sel : Arc W → Bool) (f : Fsa W) (s : Nat) : Bool :=
  f.arcs.any (fun a => sel a && (a.src == s || a.dst == s)) ||
    (!f.arcs.isEmpty && (s == 0 || s == f.final))

/-- The arcs selected by `sel` with renumbered states, rm_epsilon.cu 505-530 and 602-628. -/
def subset (sel : Arc W → Bool) (f : Fsa W) : List (Item W) :=
  (f.arcs.zipIdx.filter (fun x => sel x.1)).map (fun x =>
    (⟨renum (stateKeep sel f) x.1.src, renum (stateKeep sel f) x.1.dst, x.1.label, x.1.score⟩, [x.2]))

/-- The number of states of the subset. -/
def subsetStates (sel : Arc W → Bool) (f : Fsa W) : Nat := (keptList (stateKeep sel f) f.numStates).length

/-- The test of `ComputeEpsilonSubset`. -/
def isEps (a : Arc W) : Bool := a.label == 0

/-- The test of `ComputeNonEpsilonSubset`. -/
def isNonEps (a : Arc W) : Bool := a.label != 0

/-- The arcs leaving state `s`: `row_splits2[s]` to `row_splits2[s + 1]`. -/
def row (l : List (Item W)) (s : Nat) : List (Item W) := l.filter (fun x => x.1.src == s)

variable [AddCommGroup W] [LinearOrder W]

/-- `ArcComparer`, rm_epsilon.cu 32-41. -/
def closureLt (a b : Arc W) : Bool :=
  if a.dst ≠ b.dst then decide (a.dst < b.dst) else decide (b.score < a.score)

/-- `lambda_set_expand_arcs`, rm_epsilon.cu 911-947: an arc and its combinations with the arcs that
leave its destination. -/
def expandArc (l : List (Item W)) (x : Item W) : List (Item W) :=
  x :: (row l x.1.dst).map (fun y => (⟨x.1.src, y.1.dst, 0, x.1.score + y.1.score⟩, x.2 ++ y.2))

/-- `lambda_set_keep`, rm_epsilon.cu 960-981: the first of consecutive arcs with the same destination
(`prev` is the destination of the previous arc of the row). -/
def keepFirst (prev : Option Nat) : List (Item W) → List (Item W)
  | [] => []
  | x :: l => if prev = some x.1.dst then keepFirst (some x.1.dst) l
    else x :: keepFirst (some x.1.dst) l

/-- The result of a program that may abort (`K2_CHECK`). -/
inductive Outcome (α : Type) where
  | aborted : Outcome α
  | done (x : α) : Outcome α

/-- `ComputeEpsilonClosureOneIter`, rm_epsilon.cu 813-1018, for an FSA with `n` states. -/
def oneIter (n : Nat) (l : List (Item W)) : Outcome (List (Item W)) :=
  if l.any (fun x => x.1.src == x.1.dst && decide (0 < x.1.score)) then .aborted
  else .done ((List.range n).flatMap fun s =>
    keepFirst none ((row (l.flatMap (expandArc l)) s).mergeSort (fun a b => !closureLt b.1 a.1)))

/-- The loop of `ComputeEpsilonClosure`, rm_epsilon.cu 760-772: `old` is `epsilon_fsa_arcs`, `new` is
`closure_fsa`. -/
def closureLoop (n : Nat) : Nat → List (Item W) → List (Item W) → Option (Outcome (List (Item W)))
  | 0, _, _ => none
  | k + 1, old, new =>
    if new.map Prod.fst = old.map Prod.fst then some (.done new)
    else
      match oneIter n new with
      | .aborted => some .aborted
      | .done next => closureLoop n k new next

/-- `ComputeEpsilonClosure`, rm_epsilon.cu 747-787. -/
def closure (n : Nat) (l : List (Item W)) : Option (Outcome (List (Item W))) :=
  match oneIter n l with
  | .aborted => some .aborted
  | .done new =>
    match closureLoop n (n + 2) l new with
    | none => none
    | some .aborted => some .aborted
    | some (.done c) => some (.done (c.filter (fun x => x.1.src != x.1.dst)))

/-- `epsilon_to_noneps_state_map`, rm_epsilon.cu 93-106. -/
def toNonEps (f : Fsa W) (s : Nat) : Option Nat :=
  match (keptList (stateKeep isEps f) f.numStates)[s]? with
  | none => none
  | some t => if stateKeep isNonEps f t then some (renum (stateKeep isNonEps f) t) else none

/-- `MapFsaVecStates`, rm_epsilon.cu 637-745, for a state map that is increasing: the arcs whose states
are both mapped, ordered by their new source state; `n` is the number of states of the result. -/
def mapStates (m : Nat → Option Nat) (n : Nat) (l : List (Item W)) : List (Item W) :=
  let mapped := l.filterMap fun x =>
    match m x.1.src, m x.1.dst with
    | some s, some t => some (⟨s, t, x.1.label, x.1.score⟩, x.2)
    | _, _ => none
  (List.range n).flatMap (row mapped)

/-- The number of non-epsilon arcs that enter state `s`. -/
def numEntering (l : List (Item W)) (s : Nat) : Nat := l.countP (fun x => x.1.dst == s)

/-- Whether an epsilon arc is combined with the following arcs, rm_epsilon.cu 195-200. -/
def withFollowing (non : List (Item W)) (e : Item W) : Bool :=
  e.1.src == 0 || decide ((row non e.1.dst).length < numEntering non e.1.src)

/-- `CombineWithFollowingNonEpsilonArcs`, rm_epsilon.cu 241-307. -/
def combineFollowing (eps non : List (Item W)) : List (Item W) :=
  eps.flatMap fun e =>
    if withFollowing non e then
      (row non e.1.dst).map fun a => (⟨e.1.src, a.1.dst, a.1.label, e.1.score + a.1.score⟩, e.2 ++ a.2)
    else []

/-- `CombineWithPrecedingNonEpsilonArcs`, rm_epsilon.cu 346-441, with the arc maps of lines 1117-1119
and 1139-1144. -/
def combinePreceding (prec non : List (Item W)) : List (Item W) :=
  non.flatMap fun a =>
    (row prec a.1.dst).map fun e => (⟨a.1.src, e.1.dst, a.1.label, a.1.score + e.1.score⟩, a.2 ++ e.2)

/-- `GetFsaBasicProperties(...) & kFsaPropertiesArcSorted`, fsa.cu 144-157, for one state. -/
def rowSorted : List (Item W) → Bool
  | x :: y :: l =>
    !(decide (u32 y.1.label < u32 x.1.label) || decide (y.1.label = x.1.label ∧ y.1.dst < x.1.dst)) &&
      rowSorted (y :: l)
  | _ => true

/-- `Arc::operator<`, k2/csrc/fsa.h 56-64. -/
def itemLt (x y : Item W) : Bool :=
  if x.1.label ≠ y.1.label then decide (u32 x.1.label < u32 y.1.label) else decide (x.1.dst < y.1.dst)

/-- The last part of `RemoveEpsilonDevice`, rm_epsilon.cu 1085-1167: `eps` is
`epsilon_closure_mapped`, `non` is `non_epsilon_fsa`, `n` their number of states.  The four FSAs are
concatenated on the last axis and the arcs sorted unless they are sorted. -/
def combine (n : Nat) (eps non : List (Item W)) : List (Item W) :=
  let foll := combineFollowing eps non
  let prec := eps.filter (fun e => !withFollowing non e)
  let precNon := combinePreceding prec non
  let precFoll := combinePreceding prec foll
  let rows := (List.range n).map fun s => row foll s ++ row precNon s ++ row precFoll s ++ row non s
  if rows.all rowSorted then rows.flatten
  else (rows.map fun r => r.mergeSort (fun a b => !itemLt b a)).flatten

/-- `RemoveEpsilonDevice`, rm_epsilon.cu 1020-1167: the FSA and the arc map. -/
def removeEpsilonDevice (f : Fsa W) : Option (Outcome (Fsa W × List (List Nat))) :=
  match closure (subsetStates isEps f) (subset isEps f) with
  | none => none
  | some .aborted => some .aborted
  | some (.done c) =>
    let n := subsetStates isNonEps f
    let items := combine n (mapStates (toNonEps f) n c) (subset isNonEps f)
    some (.done (⟨n, items.map Prod.fst⟩, items.map Prod.snd))

end Verif.Fsa.Rmd
