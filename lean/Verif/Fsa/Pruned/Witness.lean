import Verif.Fsa.Pruned.Props
import Mathlib.Data.Rat.Defs
import Mathlib.Algebra.Order.Ring.Rat

/-!
# Concrete cases
-/

namespace Verif.Fsa.Dp
open Verif.Ragged Verif.Util Verif.Fsa.Dn

/-- A finite score. -/
def w (x : ℚ) : WithBot ℚ := x

/-- A graph with a loop and a final arc. -/
def exGraph : List (List (Arc (WithBot ℚ))) :=
  [[⟨0, 0, 0, w 0⟩, ⟨0, 1, 1, w (-1)⟩], [⟨1, 1, 0, w 0⟩, ⟨1, 2, -1, w 2⟩], []]

/-- Two sequences, of two frames and of one. -/
def exFrames : List (List (List (WithBot ℚ))) :=
  [[[⊥, w (-1), w (-2)], [⊥, w (-3), w (-1)], [w 0, ⊥, ⊥]], [[⊥, w (-5), w 0], [w 0, ⊥, ⊥]]]

def exArgs (part : Bool) : Args ℚ :=
  ⟨flat [exGraph], ⟨[0, 3, 5], 3, 3, exFrames.flatten.flatten⟩, 8, 4, 1, 10, part⟩

theorem lab_final (x : WithBot ℚ) (k : Nat) (l : Int) (h : 0 ≤ l) :
    labScore (x :: List.replicate k (⊥ : WithBot ℚ)) l = ⊥ := by
  obtain ⟨n, rfl⟩ := Int.eq_ofNat_of_zero_le h
  unfold labScore
  rw [show ((n : Int) + 1).toNat = n + 1 by omega, List.getD_eq_getElem?_getD, List.getElem?_cons_succ,
    List.getElem?_replicate]
  split <;> rfl

theorem ex_graph : GraphOk 3 exGraph := by
  constructor
  · intro s row h a ha
    match s, h with
    | 0, h => obtain rfl := Option.some.inj h; revert a; decide
    | 1, h => obtain rfl := Option.some.inj h; revert a; decide
    | 2, h => obtain rfl := Option.some.inj h; simp at ha
  · decide
  · decide
  · decide

/-- The hypotheses hold. -/
theorem ex_args (part : Bool) : ArgsOk (exArgs part) [exGraph] exFrames := by
  constructor
  · rfl
  · rfl
  · show ∀ row ∈ exFrames.flatten, row.length = 3
    decide
  · intro i row k x h1 h2
    have hi := (List.getElem?_eq_some_iff.mp h1).1
    have hi : i < 5 := hi
    have hk := (List.getElem?_eq_some_iff.mp h2).1
    have hrow : row.length = 3 := by
      have : ∀ r ∈ exFrames.flatten, r.length = 3 := by decide
      exact this row (List.mem_of_getElem? h1)
    rw [hrow] at hk
    have : ∀ i < 5, ∀ k < 3, (exFrames.flatten[i]?.bind (·[k]?)) = exFrames.flatten.flatten[i * 3 + k]? := by
      decide
    have := this i hi k hk
    rw [h1, Option.bind_some, h2] at this
    exact this.symm
  · exact Or.inr rfl
  · decide
  · show (0 : ℚ) < 8; norm_num
  · show (0 : ℚ) < 4; norm_num
  · show 1 < 10
    decide
  · intro f hf
    obtain rfl := List.mem_singleton.mp hf
    exact ex_graph
  · intro fr hfr
    rcases List.mem_cons.mp hfr with rfl | hfr
    · refine ⟨by decide, fun l hl => lab_final (w 0) 2 l hl, ?_⟩
      intro t ht
      match t, ht with
      | 0, _ => rfl
      | 1, _ => rfl
    · obtain rfl := List.mem_singleton.mp hfr
      refine ⟨by decide, fun l hl => lab_final (w 0) 2 l hl, ?_⟩
      intro t ht
      match t, ht with
      | 0, _ => rfl

/-- The arcs of frame `t` are inserted from the first to the last. -/
def inOrder : Nat → Nat → List Nat := fun _ n => List.range n

/-- The result of the example. -/
example : (intersectDensePruned (exArgs false) inOrder).map (fun r => (r.1.sp1, r.1.sp2, r.2.1, r.2.2)) =
    some ([0, 5, 8], [0, 2, 3, 4, 5, 5, 6, 7, 7], [0, 1, 1, 2, 3, 1, 3], [1, 2, 5, 4, 6, 11, 12]) := by
  decide +kernel

/-- The alignment of the second sequence is in the search beam and in the output beam. -/
example : alignScore [⟨0, 1, 1, w (-1)⟩, ⟨1, 2, -1, w 2⟩] (exFrames.getD 1 []) = w 1 := by decide +kernel

/-! ## Partial results -/

/-- The final state cannot be reached in two arcs. -/
def longGraph : List (List (Arc (WithBot ℚ))) :=
  [[⟨0, 1, 1, w 0⟩], [⟨1, 2, 1, w 5⟩], [⟨2, 3, -1, w 0⟩], []]

/-- One frame for which label 1 has score 7, and the last frame. -/
def longArgs (part : Bool) : Args ℚ :=
  ⟨flat [longGraph], ⟨[0, 2], 3, 3, [⊥, w 0, w 7, w 0, ⊥, ⊥]⟩, 8, 4, 1, 10, part⟩

/-- Without partial results there is no path. -/
theorem partial_off : (intersectDensePruned (longArgs false) inOrder).map (fun r => (r.1.arcs, r.2.1, r.2.2)) =
    some ([], [], []) := by decide +kernel

/-- With them, the result has the score of an arc that is not taken, which is 5.  Its last arc is mapped to no
arc of the graph, but to an impossible score of the last frame. -/
theorem partial_on : (intersectDensePruned (longArgs true) inOrder).map (fun r => (r.1.arcs, r.2.1, r.2.2)) =
    some ([⟨0, 1, 1, w 7⟩, ⟨1, 2, -1, w 5⟩], [0, -1], [2, 5]) ∧ (longArgs true).b.mem[5]? = some ⊥ := by
  decide +kernel

/-- A graph that ends in a state without arcs. -/
def stopGraph : List (List (Arc (WithBot ℚ))) := [[⟨0, 1, 1, w 0⟩], [], []]

/-- The state in which the path ends has no arc and is not made final. -/
theorem partial_none : (intersectDensePruned
      ⟨flat [stopGraph], ⟨[0, 2], 3, 3, [⊥, w 0, w 7, w 0, ⊥, ⊥]⟩, 8, 4, 1, 10, true⟩ inOrder).map
    (fun r => (r.1.arcs, r.2.1, r.2.2)) = some ([], [], []) := by decide +kernel

/-! ## Dead ends -/

/-- State 2 has no final arc. -/
def deadGraph : List (List (Arc (WithBot ℚ))) :=
  [[⟨0, 1, 0, w 0⟩, ⟨0, 2, 1, w 0⟩], [⟨1, 1, 0, w 0⟩, ⟨1, 3, -1, w 0⟩], [⟨2, 2, 1, w 0⟩], []]

/-- Twenty frames and the last one. -/
def deadArgs : Args ℚ :=
  ⟨flat [deadGraph], ⟨[0, 21], 3, 3,
    ((List.replicate 20 [⊥, w 0, w 0]).flatten ++ [w 0, ⊥, ⊥])⟩, 8, 4, 1, 10, false⟩

/-- States that are entered, are not the last one, and have no arc. -/
def deadEnds (v : FsaVec (WithBot ℚ)) : List Nat :=
  (List.range (v.sp2.length - 2)).filter (fun x =>
    v.arcs.any (fun a => a.dst = x) && !v.arcs.any (fun a => a.src = x))

/-- The result has a state from which the final state cannot be reached; it is reached after ten arcs. -/
theorem dead_end : ∃ r, intersectDensePruned deadArgs inOrder = some r ∧ deadEnds r.1 = [20] := by
  have h : (intersectDensePruned deadArgs inOrder).map (fun r => deadEnds r.1) = some [20] := by decide +kernel
  obtain ⟨r, h1, h2⟩ := Option.map_eq_some_iff.mp h
  exact ⟨r, h1, h2⟩

/-- Batches of only one frame succeed; without frames the function fails. -/
theorem no_frames : intersectDensePruned
      (⟨flat [exGraph], ⟨[0, 0], 3, 3, []⟩, 8, 4, 1, 10, false⟩ : Args ℚ) inOrder = none := by decide +kernel

end Verif.Fsa.Dp
