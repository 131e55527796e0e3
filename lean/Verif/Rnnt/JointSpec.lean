import Verif.Rnnt.Alignments
import Mathlib.Analysis.SpecialFunctions.Log.NegMulLog
import Mathlib.Algebra.Order.Monoid.WithTop

/-!
# Specification of `joint_mutual_information_recursion`

The score of an alignment, its posterior and the entropy of the posteriors.
-/

namespace Verif.Rnnt

/-- The sum of the entries along an alignment that starts at `(s, t)`. -/
def alongB {A : Type} [AddMonoid A] (modified : Bool) (px py : Nat → Nat → A) : Nat → Nat → List Step → A
  | _, _, [] => 0
  | s, t, .X :: l => px s t + alongB modified px py (s + 1) (t + Step.X.frames modified) l
  | s, t, .Y :: l => py s t + alongB modified px py s (t + 1) l

/-- The sum of some tables: "`px_sum`, `py_sum` are the sums of the elements of `px` and `py`". -/
noncomputable def sumTables (ps : List (Nat → Nat → WithBot ℝ)) : Nat → Nat → WithBot ℝ :=
  fun s t => (ps.map (fun p => p s t)).sum

/-- The exponential of a score. -/
noncomputable def likeli (x : WithBot ℝ) : ℝ := match x with
  | ⊥ => 0
  | (x : ℝ) => Real.exp x

/-- The posterior of an alignment: its share in the sum over all alignments from `(sb, tb)` to
`(se, te)`. -/
noncomputable def posterior (modified : Bool) (px py : Nat → Nat → WithBot ℝ) (sb tb se te : Nat) (l : List Step) : ℝ :=
  likeli (alongB modified px py sb tb l) /
    ∑ k ∈ alignments modified (se - sb) (te - tb), likeli (alongB modified px py sb tb k)

/-- The entropy of the posteriors. -/
noncomputable def entropy (modified : Bool) (px py : Nat → Nat → WithBot ℝ) (sb tb se te : Nat) : ℝ :=
  ∑ l ∈ alignments modified (se - sb) (te - tb), Real.negMulLog (posterior modified px py sb tb se te l)

/-- The expectation of the score of one pair of tables. -/
noncomputable def expected (modified : Bool) (px py qx qy : Nat → Nat → WithBot ℝ) (sb tb se te : Nat) : ℝ :=
  ∑ l ∈ alignments modified (se - sb) (te - tb), posterior modified px py sb tb se te l *
    (alongB modified qx qy sb tb l).unbotD 0

end Verif.Rnnt
