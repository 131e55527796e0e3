import Verif.Fsa.Shortest.Model
import Mathlib.Algebra.Field.Defs

/-!
# Back-propagation of scores (k2/csrc/fsa_utils.cu, k2/python/csrc/torch/fsa.cu, k2/python/k2/autograd.py)

Scores of the log semiring are given by their exponentials, in a field `K`: minus infinity is 0, the sum of two
scores is the product, `LogAdd` is the sum and `exp` of a difference is the quotient.  Derivatives are in the
field itself.  Scores of the tropical semiring are given as they are, in `S`, with derivatives in `K`.

`none` stands for a failed check, an access outside an array, a value read before it is written, or two threads
that write the same element.  Rounding is not modelled.
-/

namespace Verif.Fsa.Grd
open Verif.Ragged Verif.Util Verif.Fsa.Bat Verif.Fsa.Sco Verif.Fsa.Best
variable {W K S : Type}

/-! ## One batch -/

/-- The first state and the end of batch `i`, its first arc and its arcs: `arc_batches_splitter.GetElement(b)`
and `GetOffset(b, 2)`, fsa_utils.cu 1502-1504 and 1532-1534. -/
def batchArcs (layers : List (List Nat × List Nat)) (ab3 : List Nat × List Nat) (i : Nat) :
    Option (Nat × Nat × Nat × List Nat) := do
  let sb ← batchBegin layers i
  let se ← batchBegin layers (i + 1)
  let ab ← ab3.1[sb]?
  let ae ← ab3.1[se]?
  let js ← (List.range (ae - ab)).mapM (fun k => ab3.2[ab + k]?)
  some (sb, se, ab, js)

/-- One thread of `lambda_modify_state_score_derivs`, fsa_utils.cu 1545-1553. -/
def addTo [Add K] (cur : List K) (w : Nat × K) : Option (Nat × K) := do
  let x ← cur[w.1]?
  some (w.1, x + w.2)

/-- All threads of `lambda_modify_state_score_derivs`. -/
def addAll [Add K] (cur : List K) (sums : List (Nat × K)) : Option (List K) := do
  let ws ← sums.mapM (addTo cur)
  writeAll cur ws

/-- The body of the loop over the batches, fsa_utils.cu 1499-1554 (1580-1615 in the tropical semiring) and
1681-1735 (1742-1786); `arcGrad` is what `lambda_set_arc_deriv_etc` computes for an arc.  The state is
`backward_scores_deriv` or `forward_scores_deriv`, and `arc_scores_deriv`. -/
def gradBatch [Add K] [Zero K] (arcGrad : List K → Nat → Option K) (layers : List (List Nat × List Nat))
    (states : List Nat) (ab3 : List Nat × List Nat) (st : List K × List (Option K)) (i : Nat) :
    Option (List K × List (Option K)) := do
  let b ← batchArcs layers ab3 i
  let vals ← b.2.2.2.mapM (arcGrad st.1)
  let ag ← writeAll st.2 (b.2.2.2.zip (vals.map some))
  let sums ← batchScores (· + ·) 0 states ab3.1 b.1 b.2.1 b.2.2.1 vals
  let cur ← addAll st.1 sums
  some (cur, ag)

/-! ## Log semiring -/

/-- `alpha`, fsa_utils.cu 1518-1526 and 1702-1711: the quotient, 0 if the denominator is the exponential of
minus infinity; checked to be less than 1.1. -/
def alpha [Field K] [LinearOrder K] (num den : K) : Option K :=
  if (if den = 0 then 0 else num / den) < 11 / 10 then some (if den = 0 then 0 else num / den) else none

/-- `lambda_set_arc_deriv_etc` of `BackpropGetForwardScores`, fsa_utils.cu 1689-1715. -/
def forwardArc [Field K] [LinearOrder K] (v : FsaVec W) (wt : W → K) (fwd cur : List K) (j : Nat) : Option K := do
  let a ← v.arcs[j]?
  let s ← v.id2[j]?
  let x ← fwd[s]?
  let y ← fwd[s - a.src + a.dst]?
  let al ← alpha (x * wt a.score) y
  let d ← cur[s - a.src + a.dst]?
  some (al * d)

/-- `lambda_set_arc_deriv_etc` of `BackpropGetBackwardScores`, fsa_utils.cu 1507-1530. -/
def backwardArc [Field K] [LinearOrder K] (v : FsaVec W) (wt : W → K) (bwd cur : List K) (j : Nat) : Option K := do
  let a ← v.arcs[j]?
  let s ← v.id2[j]?
  let x ← bwd[s - a.src + a.dst]?
  let y ← bwd[s]?
  let al ← alpha (x * wt a.score) y
  let d ← cur[s]?
  some (al * d)

/-- `BackpropGetForwardScores` in the log semiring, fsa_utils.cu 1632-1735, called as in
k2/python/k2/autograd.py 165-196: the derivatives of the arcs' scores from those of the forward scores. -/
def backpropForward [Field K] [LinearOrder K] (lp0 : Nat) (wt : W → K) (v : FsaVec W) (fwd deriv : List K) :
    Option (List K) :=
  if fwd.length ≠ v.id1.length ∨ deriv.length ≠ v.id1.length then none else do
  let sb ← stateBatchesT lp0 v
  let ab ← leavingBatches v sb.2
  let st ← (List.range (numBatches sb.1)).reverse.foldlM
    (gradBatch (forwardArc v wt fwd) sb.1 sb.2 ab) (deriv, List.replicate v.arcs.length none)
  st.2.mapM id

/-- `BackpropGetBackwardScores` in the log semiring, fsa_utils.cu 1455-1554, called as in autograd.py 240-266. -/
def backpropBackward [Field K] [LinearOrder K] (lp0 : Nat) (wt : W → K) (v : FsaVec W) (bwd deriv : List K) :
    Option (List K) :=
  if bwd.length ≠ v.id1.length ∨ deriv.length ≠ v.id1.length then none else do
  let sb ← stateBatchesT lp0 v
  let ab ← enteringBatches v sb.2
  let st ← (List.range (numBatches sb.1)).foldlM
    (gradBatch (backwardArc v wt bwd) sb.1 sb.2 ab) (deriv, List.replicate v.arcs.length none)
  st.2.mapM id

/-! ## Tropical semiring -/

/-- `arc_deriv`, fsa_utils.cu 1592-1597 and 1759-1763: the derivative of state `g` if the best arc of the
state is this one, else 0. -/
def bestGrad [Zero K] (best : List (Option Nat)) (cur : List K) (j g : Nat) : Option K := do
  let e ← best[g]?
  if e = some j then cur[g]? else some 0

/-- `lambda_set_arc_deriv_etc` of `BackpropGetForwardScores`, fsa_utils.cu 1749-1766. -/
def forwardArcT [Zero K] (v : FsaVec W) (ent : List (Option Nat)) (cur : List K) (j : Nat) : Option K := do
  let a ← v.arcs[j]?
  let s ← v.id2[j]?
  bestGrad ent cur j (s - a.src + a.dst)

/-- `lambda_set_arc_deriv_etc` of `BackpropGetBackwardScores`, fsa_utils.cu 1588-1600. -/
def backwardArcT [Zero K] (v : FsaVec W) (best : List (Option Nat)) (cur : List K) (j : Nat) : Option K := do
  let s ← v.id2[j]?
  bestGrad best cur j s

/-- `BackpropGetForwardScores` in the tropical semiring, fsa_utils.cu 1632-1680 and 1736-1790. -/
def backpropForwardT [Add K] [Zero K] (lp0 : Nat) (v : FsaVec W) (ent : List (Option Nat)) (deriv : List K) :
    Option (List K) :=
  if ent.length ≠ v.id1.length ∨ deriv.length ≠ v.id1.length then none else do
  let sb ← stateBatchesT lp0 v
  let ab ← leavingBatches v sb.2
  let st ← (List.range (numBatches sb.1)).reverse.foldlM
    (gradBatch (forwardArcT v ent) sb.1 sb.2 ab) (deriv, List.replicate v.arcs.length none)
  st.2.mapM id

/-- `lambda_set_arc_begin_scores`, fsa_utils.cu 1562-1573. -/
def beginScores (v : FsaVec W) (mul : S → W → S) (bwd : List S) : Option (List S) :=
  (List.range v.arcs.length).mapM (arcValue v mul (destState v) bwd)

/-- `ArgMaxPerSublist`, k2/csrc/ragged_ops_inl.h 627-655. -/
def argMaxRows [LinearOrder S] (bot : S) (sp : List Nat) (vals : List S) : Option (List (Option Nat)) :=
  (List.range (sp.length - 1)).mapM (fun r => do
    let lo ← sp[r]?
    let hi ← sp[r + 1]?
    some (argMaxFrom bot none lo ((vals.drop lo).take (hi - lo))))

/-- `BackpropGetBackwardScores` in the tropical semiring, fsa_utils.cu 1455-1498 and 1555-1615. -/
def backpropBackwardT [LinearOrder S] [Add K] [Zero K] (lp0 : Nat) (mul : S → W → S) (bot : S) (v : FsaVec W)
    (bwd : List S) (deriv : List K) : Option (List K) :=
  if bwd.length ≠ v.id1.length ∨ deriv.length ≠ v.id1.length then none else do
  let sb ← stateBatchesT lp0 v
  let ab ← enteringBatches v sb.2
  let vals ← beginScores v mul bwd
  let best ← argMaxRows bot v.sp2 vals
  let st ← (List.range (numBatches sb.1)).foldlM
    (gradBatch (backwardArcT v best) sb.1 sb.2 ab) (deriv, List.replicate v.arcs.length none)
  st.2.mapM id

/-! ## Arc posteriors -/

/-- `SumPerSublist`, k2/csrc/ragged_ops_inl.h 46-75: the sums of the rows. -/
def sumRows [Add K] [Zero K] (sp : List Nat) (vals : List K) : Option (List K) :=
  (List.range (sp.length - 1)).mapM (fun r => do
    let lo ← sp[r]?
    let hi ← sp[r + 1]?
    some (reduceRow (· + ·) 0 ((vals.drop lo).take (hi - lo))))

/-- One thread of `lambda_set_deriv_for_start_and_final_state`, fsa_utils.cu 1323-1333: the positions of the
start and of the final state, and their derivative. -/
def endDeriv [Field K] (v : FsaVec W) (tot : List K) (r : Nat) : Option (List (Nat × Nat × K)) := do
  let b ← v.sp1[r]?
  let e ← v.sp1[r + 1]?
  let t ← tot[r]?
  some (if b < e then [(b, e - 1, -(1 / 2) * t)] else [])

/-- `BackpropGetArcPost`, fsa_utils.cu 1281-1335, called as in autograd.py 320-346: the derivatives of the
forward and of the backward scores from those of the arc posteriors. -/
def backpropArcPost [Field K] (v : FsaVec W) (deriv : List K) : Option (List K × List K) :=
  if deriv.length ≠ v.arcs.length then none else do
  let fw ← sumRows v.sp2 deriv
  let dest ← destStates v
  let inc ← incomingArcs dest v.id1.length
  let gi ← inc.2.mapM (fun j => deriv[j]?)
  let bw ← sumRows inc.1 gi
  let sp ← v.sp1.mapM (fun i => v.sp2[i]?)
  let tot ← sumRows sp deriv
  let ends ← (List.range (v.sp1.length - 1)).mapM (endDeriv v tot)
  let fw' ← writeAll fw (ends.flatten.map (fun x => (x.2.1, x.2.2)))
  let bw' ← writeAll bw (ends.flatten.map (fun x => (x.1, x.2.2)))
  some (fw', bw')

/-! ## Total scores -/

/-- `GetTotScoresLogBackward`, k2/python/csrc/torch/fsa.cu 544-592; `post` are the exponentials of the arc
posteriors. -/
def totScoresBackward [Mul K] (v : FsaVec W) (post deriv : List K) : Option (List K) :=
  if post.length ≠ v.arcs.length ∨ deriv.length + 1 ≠ v.sp1.length then none else
  (List.range v.arcs.length).mapM (fun j => do
    let s ← v.id2[j]?
    let r ← v.id1[s]?
    let p ← post[j]?
    let d ← deriv[r]?
    some (p * d))

/-- One thread of `GetTotScoresTropicalBackward`, fsa.cu 525-533. -/
def bestWrite (v : FsaVec W) (deriv : List K) (j : Nat) : Option (Nat × K) := do
  let s ← v.id2[j]?
  let r ← v.id1[s]?
  let d ← deriv[r]?
  some (j, d)

/-- `GetTotScoresTropicalBackward`, fsa.cu 493-535; `best` are the values of the arc indexes that
`shortest_path` returns. -/
def totScoresBackwardT [Zero K] (v : FsaVec W) (best : List Nat) (deriv : List K) : Option (List K) :=
  if deriv.length + 1 ≠ v.sp1.length then none else do
  let ws ← best.mapM (bestWrite v deriv)
  writeAll (List.replicate v.arcs.length 0) ws

end Verif.Fsa.Grd
