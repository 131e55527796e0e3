import Verif.Fsa.Batches.Model
import Mathlib.Algebra.Ring.Defs

/-!
# Forward scores, backward scores and arc posteriors (k2/csrc/fsa_utils.cu)

The scores of states have a type `K` and the scores of arcs a type `W`; `mul x w` is the score `x` extended
by an arc of score `w` (`+` on floats), `op` is the operation of the reduction (`LogAdd` or `max`), `bot` is
minus infinity and `one` is the score 0.

`none` stands for a failed check, an access outside an array, or two threads that write the same element.

Simplifications: of the shapes of `RaggedShapeAxis0Splitter` only the offsets and the last row_splits are
modelled, the code reads nothing else; rounding is not modelled; on the GPU the reduction is in another
order than in the loop below, which makes no difference for an associative and commutative operation.
-/

namespace Verif.Fsa.Sco
open Verif.Ragged Verif.Util Verif.Fsa.Bat
variable {W K : Type}

/-! ## The arcs of the batches -/

/-- `lambda_set_ans_row_splits3`, fsa_utils.cu 945-955 and 1001-1012: the numbers of arcs of the states;
`sp` is the row_splits of the arcs (leaving) or of the incoming arcs (entering). -/
def arcCounts (sp states : List Nat) : Option (List Nat) :=
  states.mapM (fun s => do
    let a ← sp[s]?
    let b ← sp[s + 1]?
    some (b - a))

/-- `lambda_set_ans_values`, fsa_utils.cu 963-974 and 1020-1035; `arcAt` is the identity for leaving arcs
and the array of incoming arcs for entering arcs. -/
def arcIndexes (sp states sp3 id3 : List Nat) (arcAt : Nat → Option Nat) : Option (List Nat) :=
  (List.range id3.length).mapM (fun i => do
    let r ← id3[i]?
    let s ← states[r]?
    let x ← sp[s]?
    let y ← sp3[r]?
    arcAt (x + (i - y)))

/-- The row_splits of the last axis and the values of `GetLeavingArcIndexBatches` (fsa_utils.cu 930-977)
or `GetEnteringArcIndexBatches` (979-1038). -/
def arcBatches (numArcs : Nat) (sp states : List Nat) (arcAt : Nat → Option Nat) :
    Option (List Nat × List Nat) := do
  let ns ← arcCounts sp states
  let id3 ← rowSplitsToRowIds (psum ns) numArcs
  let vals ← arcIndexes sp states (psum ns) id3 arcAt
  some (psum ns, vals)

/-- `GetLeavingArcIndexBatches`. -/
def leavingBatches (v : FsaVec W) (states : List Nat) : Option (List Nat × List Nat) :=
  arcBatches v.arcs.length v.sp2 states some

/-- `GetEnteringArcIndexBatches` with `GetIncomingArcs` and `GetDestStates`. -/
def enteringBatches (v : FsaVec W) (states : List Nat) : Option (List Nat × List Nat) := do
  let dest ← destStates v
  let inc ← incomingArcs dest v.id1.length
  arcBatches v.arcs.length inc.1 states (fun k => inc.2[k]?)

/-! ## One batch -/

/-- `composite_row_splits_(2, i)`, k2/csrc/ragged_ops.cu 2342-2356: the first state of batch `i`. -/
def batchBegin : List (List Nat × List Nat) → Nat → Option Nat
  | [l1, l2], i => do
    let p ← l1.1[i]?
    l2.1[p]?
  | _, _ => none

/-- Element `p` of the last row_splits of `GetElement(i)`, ragged_ops.cu 2346-2350, 2390-2410 and
2436-2452: 0 at the beginning, else the next element of the source minus the offset `ab` of the batch. -/
def localSplit (sp3 : List Nat) (sb ab p : Nat) : Option Nat :=
  if p = 0 then some 0 else do
    let x ← sp3[sb + p]?
    some (x - ab)

/-- `lambda_set_entering_arc_score` (fsa_utils.cu 1184-1194) and `lambda_set_leaving_arc_score`
(1399-1411); `other` gives the state at the other end of an arc. -/
def arcValue (v : FsaVec W) (mul : K → W → K) (other : Nat → Option Nat) (cur : List K) (j : Nat) :
    Option K := do
  let a ← v.arcs[j]?
  let o ← other j
  let x ← cur[o]?
  some (mul x a.score)

/-- `SegmentedReduce` of one row on the CPU, k2/csrc/ragged_ops_inl.h 64-75. -/
def reduceRow (op : K → K → K) (bot : K) (l : List K) : K := l.foldl (fun val elem => op elem val) bot

/-- Writes of parallel threads: no element is written twice and none outside the array. -/
def writeAll (cur : List K) (ws : List (Nat × K)) : Option (List K) :=
  if (ws.map Prod.fst).Nodup ∧ ∀ w ∈ ws, w.1 < cur.length then
    some (ws.foldl (fun c w => c.set w.1 w.2) cur)
  else none

/-- The states and scores of a batch: the rows of the reduction. -/
def batchScores (op : K → K → K) (bot : K) (states sp3 : List Nat) (sb se ab : Nat) (vals : List K) :
    Option (List (Nat × K)) :=
  (List.range (se - sb)).mapM (fun p => do
    let lo ← localSplit sp3 sb ab p
    let hi ← localSplit sp3 sb ab (p + 1)
    let s ← states[sb + p]?
    some (s, reduceRow op bot ((vals.drop lo).take (hi - lo))))

/-- `lambda_copy_state_scores`, fsa_utils.cu 1251-1267 and 1432-1449; `keep` says that the state is a start
state (forward) or a final state (backward). -/
def copyScore [DecidableEq K] (bot : K) (keep : Nat → Option Bool) (w : Nat × K) : Option (List (Nat × K)) := do
  let k ← keep w.1
  some (if w.2 ≠ bot ∨ k = false then [w] else [])

/-- The first state and the end of a batch, its first arc and the values of its arcs, fsa_utils.cu 1165-1194
and 1383-1411. -/
def batchValues (v : FsaVec W) (mul : K → W → K) (other : Nat → Option Nat) (layers : List (List Nat × List Nat))
    (ab3 : List Nat × List Nat) (cur : List K) (i : Nat) : Option (Nat × Nat × Nat × List K) := do
  let sb ← batchBegin layers i
  let se ← batchBegin layers (i + 1)
  let ab ← ab3.1[sb]?
  let ae ← ab3.1[se]?
  let vals ← (List.range (ae - ab)).mapM (fun k => do
    let j ← ab3.2[ab + k]?
    arcValue v mul other cur j)
  some (sb, se, ab, vals)

/-- All threads of `lambda_copy_state_scores`. -/
def copyScores [DecidableEq K] (bot : K) (keep : Nat → Option Bool) (cur : List K) (scores : List (Nat × K)) :
    Option (List K) := do
  let ws ← scores.mapM (copyScore bot keep)
  writeAll cur ws.flatten

/-- The body of the loop over the batches, fsa_utils.cu 1165-1268 and 1383-1450, without entering_arcs. -/
def sweepBatch [DecidableEq K] (v : FsaVec W) (mul : K → W → K) (op : K → K → K) (bot : K)
    (other : Nat → Option Nat) (keep : Nat → Option Bool) (layers : List (List Nat × List Nat))
    (states : List Nat) (ab3 : List Nat × List Nat) (cur : List K) (i : Nat) : Option (List K) := do
  let b ← batchValues v mul other layers ab3 cur i
  let scores ← batchScores op bot states ab3.1 b.1 b.2.1 b.2.2.1 b.2.2.2
  copyScores bot keep cur scores

/-! ## Forward and backward scores -/

/-- `state_scores` before the loop: `bot`, and `one` at the states `at?`, fsa_utils.cu 1149-1162 and
1368-1381. -/
def initScores (v : FsaVec W) (bot one : K) (pos : Nat → Nat → Nat) : Option (List K) := do
  let ws ← (List.range (v.sp1.length - 1)).mapM (fun r => do
    let b ← v.sp1[r]?
    let e ← v.sp1[r + 1]?
    some (if b < e then [(pos b e, one)] else []))
  writeAll (List.replicate v.id1.length bot) ws.flatten

/-- Is the state the start state of its FSA?  fsa_utils.cu 1261-1263. -/
def isStart (v : FsaVec W) (s : Nat) : Option Bool := do
  let r ← v.id1[s]?
  let b ← v.sp1[r]?
  some (s == b)

/-- Is the state the final state of its FSA?  fsa_utils.cu 1438-1441. -/
def isFinal (v : FsaVec W) (s : Nat) : Option Bool := do
  let r ← v.id1[s]?
  let e ← v.sp1[r + 1]?
  some (s + 1 == e)

/-- `src_state_idx01`, fsa_utils.cu 1191. -/
def srcState (v : FsaVec W) (j : Nat) : Option Nat := v.id2[j]?

/-- `dest_state_idx01`, fsa_utils.cu 1404-1408. -/
def destState (v : FsaVec W) (j : Nat) : Option Nat := do
  let a ← v.arcs[j]?
  let s ← v.id2[j]?
  some (s - a.src + a.dst)

/-- The number of batches: `state_batches.Dim0()`. -/
def numBatches (layers : List (List Nat × List Nat)) : Nat :=
  match layers with
  | l :: _ => l.1.length - 1
  | [] => 0

/-- `GetForwardScores`, fsa_utils.cu 1123-1272, with the arguments computed by `GetStateBatches` and
`GetEnteringArcIndexBatches` as in k2/python/k2/fsa.py 560-640. -/
def forwardScores [DecidableEq K] (lp0 : Nat) (mul : K → W → K) (op : K → K → K) (bot one : K) (v : FsaVec W) :
    Option (List K) := do
  let sb ← stateBatchesT lp0 v
  let ab ← enteringBatches v sb.2
  let init ← initScores v bot one (fun b _ => b)
  (List.range (numBatches sb.1)).foldlM
    (fun cur i => sweepBatch v mul op bot (srcState v) (isStart v) sb.1 sb.2 ab cur i) init

/-- `GetBackwardScores`, fsa_utils.cu 1345-1453. -/
def backwardScores [DecidableEq K] (lp0 : Nat) (mul : K → W → K) (op : K → K → K) (bot one : K) (v : FsaVec W) :
    Option (List K) := do
  let sb ← stateBatchesT lp0 v
  let ab ← leavingBatches v sb.2
  let init ← initScores v bot one (fun _ e => e - 1)
  (List.range (numBatches sb.1)).reverse.foldlM
    (fun cur i => sweepBatch v mul op bot (destState v) (isFinal v) sb.1 sb.2 ab cur i) init

/-- `GetTotScores`, fsa_utils.cu 1808-1835. -/
def totScores (v : FsaVec W) (bot : K) (fwd : List K) : Option (List K) :=
  if fwd.length ≠ v.id1.length then none else
  (List.range (v.sp1.length - 1)).mapM (fun r => do
    let b ← v.sp1[r]?
    let e ← v.sp1[r + 1]?
    if b < e then fwd[e - 1]? else some bot)

/-- `lambda_set_fsa_scores`, fsa_utils.cu 1865-1881; `mid x y` is `0.5 * (x + y)` and `neg x` is `-x`, or
minus infinity for minus infinity. -/
def negTotScores (v : FsaVec W) (one : K) (mid : K → K → K) (neg : K → K) (fwd bwd : List K) : Option (List K) :=
  (List.range (v.sp1.length - 1)).mapM (fun r => do
    let b ← v.sp1[r]?
    let e ← v.sp1[r + 1]?
    if b ≠ e then do
      let x ← fwd[e - 1]?
      let y ← bwd[b]?
      some (neg (mid x y))
    else some (neg one))

/-- `lambda_get_arc_scores`, fsa_utils.cu 1883-1900. -/
def arcPostOf (v : FsaVec W) (mul : K → W → K) (add : K → K → K) (fwd bwd negTot : List K) (j : Nat) : Option K := do
  let a ← v.arcs[j]?
  let g ← v.id2[j]?
  let r ← v.id1[g]?
  let x ← v.sp1[r]?
  let f ← fwd[x + a.src]?
  let b ← bwd[x + a.dst]?
  let t ← negTot[r]?
  some (add (add (mul f a.score) b) t)

/-- `GetArcPost`, fsa_utils.cu 1838-1904. -/
def arcPost (v : FsaVec W) (one : K) (mul : K → W → K) (add : K → K → K) (mid : K → K → K) (neg : K → K)
    (fwd bwd : List K) : Option (List K) :=
  if fwd.length ≠ v.id1.length ∨ bwd.length ≠ v.id1.length then none else do
  let negTot ← negTotScores v one mid neg fwd bwd
  (List.range v.arcs.length).mapM (arcPostOf v mul add fwd bwd negTot)

end Verif.Fsa.Sco
