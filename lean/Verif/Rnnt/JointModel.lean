import Verif.Rnnt.MutualInfoModel
import Mathlib.Analysis.SpecialFunctions.Log.Basic
import Mathlib.Algebra.Order.Monoid.WithTop

/-!
# Model of `joint_mutual_information_recursion`

k2/python/k2/mutual_information.py 314-424, one element of the batch.  Scores are real numbers or minus
infinity (`WithBot ℝ`); rounding is not modelled.  The forward and backward passes are those of
`MutualInfoModel`, which work with exponentials.
-/

namespace Verif.Rnnt
open Classical

/-- A tensor of scores for one element of the batch. -/
abbrev Table := Nat → Nat → WithBot ℝ

/-- The exponential; that of minus infinity is 0. -/
noncomputable def expB (x : WithBot ℝ) : ℝ := match x with
  | ⊥ => 0
  | (x : ℝ) => Real.exp x

/-- `clamp(min=m)`. -/
noncomputable def clampB (m : ℝ) (x : WithBot ℝ) : ℝ := match x with
  | ⊥ => m
  | (x : ℝ) => max x m

/-- `px_cat.sum(dim=0)`, lines 378-379. -/
noncomputable def totTable (ps : List Table) : Table := fun s t => (ps.map (fun p => p s t)).sum

/-- `_inner_product` of a gradient and a clamped tensor with `n` rows and `k` columns, lines 299-311. -/
noncomputable def inner (m : ℝ) (n k : Nat) (g : Nat → Nat → ℝ) (p : Table) : ℝ :=
  ∑ s ∈ Finset.range n, ∑ t ∈ Finset.range k, g s t * clampB m (p s t)

/-- The last axis of `px`, line 368. -/
def colsX (modified : Bool) (T : Nat) : Nat := if modified then T else T + 1

/-- The table of the forward pass, lines 395-398. -/
noncomputable def jointTable (modified : Bool) (px py : List Table) (sb tb se te : Nat) (p0 : Nat → Nat → ℝ) : Nat → Nat → ℝ :=
  miForward modified (fun s t => expB (totTable px s t)) (fun s t => expB (totTable py s t)) sb tb se te p0

/-- `px_grad` and `py_grad`, lines 400-407: the gradient is 1. -/
noncomputable def jointGrads (modified : Bool) (px py : List Table) (sb tb se te : Nat) (p0 : Nat → Nat → ℝ) : Grads ℝ :=
  miBackward modified (fun s t => expB (totTable px s t)) (jointTable modified px py sb tb se te p0) sb tb se te 1

/-- `prods`, lines 409-423. -/
noncomputable def jointProds (m : ℝ) (modified : Bool) (S T : Nat) (px py : List Table) (sb tb se te : Nat)
    (p0 : Nat → Nat → ℝ) : List ℝ :=
  let g := jointGrads modified px py sb tb se te p0
  (px.zip py).map (fun q => inner m S (colsX modified T) g.px q.1 + inner m (S + 1) T g.py q.2)

/-- The logarithm; that of 0 is minus infinity. -/
noncomputable def logB (x : ℝ) : WithBot ℝ := if x = 0 then ⊥ else (Real.log x : ℝ)

/-- Lines 424-427: add `tot_probs - prods.sum(dim=0)` to the first entry. -/
noncomputable def addFirst (tot : WithBot ℝ) (prods : List ℝ) : List (WithBot ℝ) :=
  match prods with
  | [] => []
  | a :: l => ((a : WithBot ℝ) + (tot + ((-(a :: l).sum : ℝ) : WithBot ℝ))) :: l.map (fun x : ℝ => (x : WithBot ℝ))

/-- `joint_mutual_information_recursion`, lines 314-428; `none` stands for a failed assertion.  `m` is the
least number of the floating point type, `p0` the contents of the table before. -/
noncomputable def joint (m : ℝ) (modified : Bool) (S T : Nat) (px py : List Table) (sb tb se te : Nat)
    (p0 : Nat → Nat → ℝ) : Option (List (WithBot ℝ)) :=
  if py.length = px.length ∧ 0 < px.length ∧ sb ≤ se ∧ se ≤ S ∧ tb ≤ te ∧ te ≤ T then
    some (addFirst (logB (jointTable modified px py sb tb se te p0 se te)) (jointProds m modified S T px py sb tb se te p0))
  else none

/-- The gradient for `px[n][s][t]` that autograd computes if `c` is the gradient of the result: `px_grad`,
`py_grad`, and the offset are constants, and `clamp` passes a gradient to entries that are not below `m`. -/
noncomputable def jointBackX (m : ℝ) (modified : Bool) (px py : List Table) (sb tb se te : Nat) (p0 : Nat → Nat → ℝ)
    (c : Nat → ℝ) (n s t : Nat) : ℝ :=
  if (m : WithBot ℝ) ≤ (px.getD n (fun _ _ => 0)) s t then c n * (jointGrads modified px py sb tb se te p0).px s t else 0

/-- The same for `py[n][s][t]`. -/
noncomputable def jointBackY (m : ℝ) (modified : Bool) (px py : List Table) (sb tb se te : Nat) (p0 : Nat → Nat → ℝ)
    (c : Nat → ℝ) (n s t : Nat) : ℝ :=
  if (m : WithBot ℝ) ≤ (py.getD n (fun _ _ => 0)) s t then c n * (jointGrads modified px py sb tb se te p0).py s t else 0

end Verif.Rnnt
