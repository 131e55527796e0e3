import Verif.Fsa.Nbest.Model
import Verif.Ragged.ReduceLemmas

/-!
# `MWERLoss` (k2/python/k2/mwer_loss.py) and `_get_texts` (k2/python/k2/nbest.py)

`none` stands for a failed assertion or check, an access outside an array or a division by zero.  Scores are real
numbers; there is no rounding.  Autograd is not modelled.
-/

namespace Verif.Fsa.Mwer
open Verif.Ragged Verif.Fsa.Bat Verif.Fsa.Nb

/-- `_get_texts` with `return_ragged`, nbest.py 40-60.  The checks on the sizes are those of `ComposeRaggedShapes`
(k2/csrc/ragged_ops.cu) and of the constructor of `RaggedTensor`. -/
def getTexts {W : Type} (fsa : FsaVec W) (aux : Aux) : Option (Shape × List Int) :=
  let arcsShape : Shape := [(fsa.sp1, fsa.id1), (fsa.sp2, fsa.id2)]
  match aux with
  | .ragged splits vals => do
    let l ← layer splits
    let a ← removeValuesLeq [l] vals 0
    if aux.dim = fsa.arcs.length then do
      let s1 ← removeAxis (arcsShape ++ a.1) 1
      let s2 ← removeAxis s1 1
      some (s2, a.2)
    else none
  | .tensor vals => do
    let s1 ← removeAxis arcsShape 1
    if aux.dim = fsa.arcs.length then removeValuesLeq s1 vals 0 else none

/-- `wers`, mwer_loss.py 94-107, one number for each path.  `wer ref hyp` is minus the total score of the alignment of
the Levenshtein graphs of `ref` and `hyp`.  `hyp_to_ref_map` is `map`; its size has to be the number of hypotheses
(k2/csrc/intersect.cu, `IntersectDevice`). -/
def wersOf (wer : List Int → List Int → Option ℝ) (refs : List (List Int)) (map : List Nat) (sp : List Nat)
    (vals : List Int) : Option (List ℝ) :=
  if map.length + 1 = sp.length then
    (List.range map.length).mapM (fun k => do
      let m ← map[k]?
      let ref ← refs[m]?
      let lo ← sp[k]?
      let hi ← sp[k + 1]?
      wer ref ((vals.drop lo).take (hi - lo)))
  else none

/-- `prob_normalized` after the division by the sum and before the multiplication by `wers`,
mwer_loss.py 109-117. -/
noncomputable def pathProbs (cut : WithBot ℝ) (temperature : ℝ) (nb : Nbest ℝ) : Option (List ℝ) :=
  match nb.keptShape with
  | [l] => do
    let sums ← segmentedReduce (· + ·) 0 l.1 (nb.fsa.arcs.map (fun a => a.score))
    if temperature = 0 then none else do
      let norm ← normalizeLog cut nb.shape.1 nb.shape.2 (sums.map (fun x => ((x / temperature : ℝ) : WithBot ℝ)))
      some (norm.map expB)
  | _ => none

/-- `MWERLoss.forward` up to the reduction, mwer_loss.py 83-119: the row_splits and the values of the loss with
`reduction == 'none'`. -/
noncomputable def lossOf (cut : WithBot ℝ) (temperature : ℝ) (wer : List Int → List Int → Option ℝ)
    (refs : List (List Int)) (nb : Nbest ℝ) : Option (List Nat × List ℝ) := do
  let t ← getTexts nb.fsa nb.aux
  match t.1 with
  | [h] => do
    let wers ← wersOf wer refs nb.shape.2 h.1 t.2
    let probs ← pathProbs cut temperature nb
    if probs.length = wers.length then some (nb.shape.1, List.zipWith (· * ·) probs wers) else none
  | _ => none

/-- `mwer_loss` with `reduction='none'`, mwer_loss.py 83-126. -/
noncomputable def mwerLoss (hash : List Int → Int) (gpu : Bool) (lp0 : Nat) (low : ℝ) (mid : ℝ → ℝ → ℝ) (cut : WithBot ℝ)
    (scale temperature : ℝ) (n : Nat) (wer : List Int → List Int → Option ℝ) (refs : List (List Int)) (v : FsaVec ℝ)
    (aux : Aux) : Option (List Nat × List ℝ) := do
  let nb ← fromLattice hash gpu lp0 low Real.exp mid (fun w => w * scale) n v aux
  lossOf cut temperature wer refs nb

/-- `reduction='sum'`, mwer_loss.py 120-121. -/
noncomputable def reduceSum (loss : List Nat × List ℝ) : ℝ := loss.2.sum

/-- `reduction='mean'`, mwer_loss.py 122-123; the mean of no numbers is not a number. -/
noncomputable def reduceMean (loss : List Nat × List ℝ) : Option ℝ :=
  if loss.2.length = 0 then none else some (loss.2.sum / loss.2.length)

end Verif.Fsa.Mwer
