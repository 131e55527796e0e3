import Verif.Fsa.Scores.Model
import Verif.Ragged.EditModel
import Mathlib.Algebra.Order.Field.Basic

/-!
# Model of `prune_on_arc_post`

`PruneOnArcPost` of k2/csrc/fsa_utils.cu, the branch of `Index` of k2/csrc/ragged_ops.cu it calls, and
`prune_on_arc_post` of k2/python/k2/fsa_algo.py.

Simplifications.  Weights stand for the exponentials of scores, as in the model of `get_arc_post`: the posteriors
are probabilities and the threshold is not replaced by its logarithm (the logarithm is strictly increasing, so the
comparison of lines 2709-2717 is the same).  Rounding is not modelled.  The other attributes of the FSA, which
`fsa_from_unary_function_tensor` copies with the arc map, are the subject of other models.
-/

namespace Verif.Fsa.Pap
open Verif.Ragged Verif.Util Verif.Fsa.Bat Verif.Fsa.Sco
variable {W K : Type}

/-- The branch for the last axis of `Index`, k2/csrc/ragged_ops.cu 574-596, and `Index` of a ragged tensor,
k2/csrc/ragged_ops.h 1483-1492.  The second value is `value_indexes_out`.  The check of lines 578-582 is one of
debug builds; `RowIdsToRowSplits` has the same one. -/
def indexLast (v : FsaVec W) (indexes : List Nat) : Option (FsaVec W × List Nat) := do
  let ids ← gather v.id2 indexes
  let splits ← rowIdsToRowSplits ids (v.sp2.length - 1)
  let arcs ← indexes.mapM (fun i => v.arcs[i]?)
  some (⟨v.sp1, v.id1, splits, ids, arcs⟩, indexes)

variable [Field K] [LinearOrder K]

/-- The flags of `lambda_set_keep`, k2/csrc/fsa_utils.cu 2706-2718. -/
def keepPost (threshold : K) (arcPost : List K) : List Bool :=
  arcPost.map (fun p => if p < threshold then false else true)

/-- `PruneOnArcPost`, k2/csrc/fsa_utils.cu 2688-2721, with the checks of lines 2693-2696. -/
def pruneOnArcPost (v : FsaVec W) (arcPost : List K) (threshold : K) : Option (FsaVec W × List Nat) :=
  if 0 < threshold ∧ threshold < 1 ∧ v.arcs.length = arcPost.length then do
    let n2o ← new2old (keepPost threshold arcPost)
    indexLast v n2o
  else none

/-- `prune_on_arc_post`, k2/python/k2/fsa_algo.py 976-1006: the posteriors of `get_arc_post` with the log
semiring, then `PruneOnArcPost`; the values are the pruned arcs and the arc map. -/
def pruneOnArcPostPy (lp0 lp1 : Nat) (wt : W → K) (mid : K → K → K) (threshold : K) (v : FsaVec W) :
    Option (FsaVec W × List Nat) := do
  let fwd ← forwardScores lp0 (fun x w => x * wt w) (· + ·) 0 1 v
  let bwd ← backwardScores lp1 (fun x w => x * wt w) (· + ·) 0 1 v
  let post ← arcPost v 1 (fun x w => x * wt w) (· * ·) mid (·⁻¹) fwd bwd
  pruneOnArcPost v post threshold

end Verif.Fsa.Pap
