import Verif.Fsa.Grad.DerivProps
import Verif.Fsa.Grad.TropProps

/-!
# Cases that meet the hypotheses of C67 to C70

The first FSA of `batchExample` has the paths 0 1 3 4 and 0 2 3 4, the second one only an arc.
-/

namespace Verif.Fsa
open Verif.Ragged Verif.Util Verif.Fsa.Top Verif.Fsa.Bat Verif.Fsa.Sco Verif.Fsa.Best Verif.Fsa.Grd

/-! ## C67 to C69 -/

/-- Of the derivative 3 of the forward score of the final state, each of the two paths gets a half. -/
example : backpropForward 0 (fun w : Nat => ((w : Rat) + 1)) (flat batchExample) [1, 2, 2, 8, 8, 1, 1]
    [0, 1, 2, 0, 3, 0, 5] = some [1 + 3 / 2, 2 + 3 / 2, 3 / 2, 3 / 2, 3, 5] := by decide +kernel

example : backpropBackward 4 (fun w : Nat => ((w : Rat) + 1)) (flat batchExample) [8, 2, 2, 1, 1, 1, 1]
    [4, 1, 2, 0, 3, 5, 0] = some [2, 2, 2 + 1, 2 + 2, 4 + 1 + 2, 5] := by decide +kernel

/-- The paths to state 3 of the first FSA, and the ones with arc 2. -/
example : pathsTo (batchExample.getD 0 []).flatten 0 4 3 = [[0, 2], [1, 3]] := by decide

example : occupancy (fun w : Nat => ((w : Rat) + 1)) (batchExample.getD 0 []).flatten 5
    (fun s => if s = 3 then 6 else 0) (fun s => pathsTo (batchExample.getD 0 []).flatten 0 5 s)
    (fun s => (pathsTo (batchExample.getD 0 []).flatten 0 5 s).filter (2 ∈ ·)) = 3 := by decide +kernel

example : backpropArcPost (flat batchExample) ([1, 2, 3, 4, 5, 6] : List Rat) =
    some ([3, 3, 4, 5, -15 / 2, 6, -3], [-15 / 2, 1, 2, 7, 5, -3, 6]) := by decide +kernel

example : totScoresBackward (flat batchExample) ([1 / 2, 1 / 2, 1 / 2, 1 / 2, 1, 1] : List Rat) [4, 3] =
    some [2, 2, 2, 2, 4, 3] := by decide +kernel

/-- There are scores for all weights, so the hypotheses of the theorems on derivatives can be met. -/
example (θ δ : Nat → ℝ) : ∃ F : ℝ → List ℝ, ∀ ε, ∃ lp,
    forwardScores lp (fun x w => x * moved θ δ ε w) (· + ·) 0 1 (flat batchExample) = some (F ε) := by
  have h := fun ε => forward_scores_are_path_sums (moved θ δ ε) batchExample batchExample_ok (by decide) (by decide)
  choose F h using h
  exact ⟨F, fun ε => ⟨0, (h ε).1 0⟩⟩

/-! ## C70 -/

/-- The best paths of the first FSA of `shortestExample` are 1; 0; 1 3; 1 3 4. -/
example : (forwardBest 0 extend ⊥ (0 : WithBot Int) (flat shortestExample)).map Prod.snd =
    some [none, some 0, some 1, some 3, some 4, none, none, some 5] := by decide +kernel

example : backpropForwardT 0 (flat shortestExample) [none, some 0, some 1, some 3, some 4, none, none, some 5]
    ([1, 10, 100, 1000, 10000, 3, 0, 0] : List Rat) = some [10, 11100, 0, 11000, 10000, 0] := by decide +kernel

example : backwardScores 0 extend max ⊥ (0 : WithBot Int) (flat shortestExample) =
    some [((-3 : Int) : WithBot Int), ((-4 : Int) : WithBot Int), (0 : Int), (0 : Int), (0 : Int), ⊥, ((7 : Int) : WithBot Int), (0 : Int)] := by
  decide +kernel

example : backpropBackwardT 0 extend ⊥ (flat shortestExample)
    [((-3 : Int) : WithBot Int), ((-4 : Int) : WithBot Int), (0 : Int), (0 : Int), (0 : Int), ⊥, ((7 : Int) : WithBot Int), (0 : Int)]
    ([1, 10, 100, 1000, 10000, 3, 0, 0] : List Rat) = some [0, 1, 10, 101, 1111, 0] := by decide +kernel

example : totScoresBackwardT (flat shortestExample) [1, 3, 4] ([7, 8, 9] : List Rat) = some [0, 7, 0, 7, 7, 0] := by
  decide +kernel

/-- State 2 cannot be reached from the start state. -/
def unreachedExample : List (List (List (Arc Int))) :=
  [[[⟨0, 3, -1, 0⟩], [⟨1, 2, 1, 5⟩], [⟨2, 3, -1, 0⟩], []]]

/-- The forward score of a state that cannot be reached does not depend on any arc. In the tropical semiring its
derivative still goes to the arcs before it, here arc 1; in the log semiring they get zero. -/
theorem unreached_state_has_gradient :
    (forwardBest 0 extend ⊥ (0 : WithBot Int) (flat unreachedExample)) =
      some ([((0 : Int) : WithBot Int), ⊥, ⊥, ((0 : Int) : WithBot Int)], [none, none, some 1, some 0]) ∧
    (¬ ∃ is, IPath (unreachedExample.getD 0 []).flatten 0 is 2) ∧
    backpropForwardT 0 (flat unreachedExample) [none, none, some 1, some 0] ([0, 0, 7, 0] : List Rat) =
      some [0, 7, 0] ∧
    backpropForward 0 (fun w : Int => ((w : Rat) + 1)) (flat unreachedExample) [1, 0, 0, 1] [0, 0, 7, 0] =
      some [0, 0, 0] := by
  refine ⟨by decide +kernel, ?_, by decide +kernel, by decide +kernel⟩
  rintro ⟨is, h⟩
  have := (allPaths_from (unreachedExample.getD 0 []).flatten (by decide) 0 2 3 (by omega)).2 is
  have h2 := this.mpr h
  have e : pathsFrom (unreachedExample.getD 0 []).flatten 2 3 0 = [] := by decide
  rw [e] at h2
  cases h2

end Verif.Fsa
