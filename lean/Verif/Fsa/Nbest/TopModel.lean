import Verif.Fsa.Nbest.Model
import Verif.Fsa.Scores.Model
import Verif.Fsa.Sort.Model
import Verif.Ragged.PadModel
import Mathlib.Algebra.Order.Monoid.WithTop

/-!
# `Nbest.total_scores` and `Nbest.top_k` (k2/python/k2/nbest.py 240-294)

`none` stands for a failed assertion.  Minus infinity is `⊥`.  Scores are not rounded: `scores.float()` is the
identity.  `sort_` is the stable sort of the CPU.  Autograd is not modelled.
-/

namespace Verif.Fsa.Nb
open Verif.Ragged Verif.Fsa.Sco
variable {W : Type} [AddCommMonoid W] [LinearOrder W]

/-- `Nbest.total_scores`, nbest.py 240-252: `get_tot_scores` in the tropical semiring, one score per FSA. -/
def totalScores (lp0 : Nat) (v : FsaVec W) : Option (List (WithBot W)) := do
  let fwd ← forwardScores lp0 (fun (x : WithBot W) (w : W) => x + (w : WithBot W)) max ⊥ 0 v
  totScores v ⊥ fwd

/-- `index_fsa`, k2/python/k2/ops.py 159-195, with `aux_labels` as the only attribute. -/
def indexFsa (v : FsaVec W) (aux : Aux) (idx : List Nat) : Option (FsaVec W × Aux) := do
  let r ← indexRagged [(v.sp1, v.id1), (v.sp2, v.id2)] v.arcs 0 idx
  match r.1 with
  | [l1, l2] => do
    let aux' ← auxIndex aux r.2.2
    some (⟨l1.1, l1.2, l2.1, l2.2, r.2.1⟩, aux')
  | _ => none

/-- `Nbest.top_k`, nbest.py 254-294, for a `k` that is not negative.  The answer has no `kept_path`. -/
def topK (lp0 k : Nat) (nb : Nbest W) : Option (Nbest W) := do
  let scores ← totalScores lp0 nb.fsa
  if totSize [nb.shape] 1 ≠ some scores.length then none else
  let sorted ← sortSublists (fun a b => decide (b < a)) nb.shape.1 scores
  let padded ← padRagged [nb.shape] (sorted.2.map (fun n : Nat => (n : Int))) "replicate" (-1) false
  if padded.all (fun row => row.all (fun x => decide (0 ≤ x))) then do
    let top := (padded.map (fun row => row.take k)).flatten
    let r ← indexFsa nb.fsa nb.aux (top.map Int.toNat)
    mkNbest r.1 r.2 (regularLayer (nb.shape.1.length - 1) k) [] []
  else none

end Verif.Fsa.Nb
