import Verif.Fsa.Dense.Props
import Mathlib.Algebra.Order.Group.Int

/-!
# `IntersectDense`: examples, and inputs outside the conditions of the theorems

A frame has a column for the label -1, which only the last frame of a sequence allows, and for the labels
0, 1, ...
-/

namespace Verif.Fsa.Dn
open Verif.Ragged Verif.Util

/-- The scores of the examples. -/
abbrev Sc := WithBot Int

/-! ## The theorems apply -/

/-- Two FSAs: `0` or `1`, then any number of `1`; and `1`. -/
def exF : List (List (List (Arc Sc))) :=
  [[[⟨0, 1, 0, 0⟩, ⟨0, 1, 1, ((-1 : Int) : Sc)⟩], [⟨1, 1, 1, 0⟩, ⟨1, 2, -1, 0⟩], []],
    [[⟨0, 1, 1, 0⟩], [⟨1, 2, -1, 0⟩], []]]

/-- Two sequences, of two frames and one frame, each with the last frame that allows the label -1. -/
def exB : List (List (List Sc)) :=
  [[[⊥, (-1 : Int), (-2 : Int)], [⊥, (-4 : Int), (-1 : Int)], [0, ⊥, ⊥]],
    [[⊥, (-1 : Int), (-2 : Int)], [0, ⊥, ⊥]]]

/-- Their memory, with one unused number after each row. -/
def exDense : Dense Sc := ⟨[0, 3, 5], 4, 3, (exB.flatten.map (fun row => row ++ [7])).flatten⟩

theorem exDense_ok : DenseOk exB exDense := by
  refine ⟨by decide, by decide, by decide, ?_⟩
  have hB : exB.flatten.length = 5 := by decide
  intro i row c x hi hc
  have h1 := (List.getElem?_eq_some_iff.mp hi).1
  have h2 : ∀ row ∈ exB.flatten, row.length = 3 := by decide
  have h3 := h2 row (List.mem_of_getElem? hi)
  have h4 := (List.getElem?_eq_some_iff.mp hc).1
  have key : ∀ i < 5, ∀ c < 3, exDense.mem[i * exDense.stride + c]? = (exB.flatten[i]?).bind (fun row => row[c]?) := by
    decide
  rw [key i (by omega) c (by omega), hi]
  exact hc

theorem exArgs_ok : ArgsOk exF exB exDense [0, 1] := by
  refine ⟨by decide, ?_, by decide, by decide, by decide, by decide, by decide, by decide, by decide, by decide⟩
  have key : ∀ f ∈ exF, ∀ s < f.length, ∀ a ∈ f.getD s [], a.src = s ∧ a.dst < f.length := by decide
  intro f hf s row hs a ha
  have := key f hf s (List.getElem?_eq_some_iff.mp hs).1 a (by
    rw [List.getD_eq_getElem?_getD, hs]; exact ha)
  exact this

/-- The theorem gives a result for them, and this is the result: with the beam 2 the second arc of the first
FSA is not used. -/
example : (∃ res L, intersectDense .cpu true 1 100 (fun x _ _ => x) (flat exF) exDense [0, 1] ((-2 : Int) : Sc)
      100 100 = some res ∧ Lattices exF exB exDense [0, 1] ((-2 : Int) : Sc) L res) ∧
    intersectDense .cpu true 1 100 (fun x _ _ => x) (flat exF) exDense [0, 1] ((-2 : Int) : Sc) 100 100 =
      some (flat [[[⟨0, 1, 0, ((-1 : Int) : Sc)⟩], [⟨1, 2, 1, ((-1 : Int) : Sc)⟩], [⟨2, 3, -1, 0⟩], []],
        [[⟨0, 1, 1, ((-2 : Int) : Sc)⟩], [⟨1, 2, -1, 0⟩], []]], [0, 2, 3, 4, 5], [1, 6, 8, 14, 16]) :=
  ⟨intersectDense_complete exF exB exDense [0, 1] .cpu true 1 100 (fun x _ _ => x) _ 100 100 exDense_ok exArgs_ok
    (by decide) (by decide) ⟨by decide, by decide⟩ (by decide) (by decide), by decide +kernel⟩

/-- With a limit of 2 states for 4 times it does not end. -/
example (fuel : Nat) : intersectDense .cpu true fuel 100 (fun x _ _ => x) (flat exF) exDense [0, 1]
    ((-2 : Int) : Sc) 2 100 = none :=
  intersectDense_never_ends exF exB exDense [0, 1] .cpu true fuel 100 _ _ 2 100 exDense_ok exArgs_ok (by decide)
    (by decide) (fun _ _ _ h => h) 0 exF[0] 0 exB[0] rfl rfl rfl [0, 2, 3]
    [⟨0, 1, 0, 0⟩, ⟨1, 1, 1, 0⟩, ⟨1, 2, -1, 0⟩] ⟨by decide, by simp [Chain, exF], by decide, by decide⟩ (by decide) (by decide)

/-! ## A label without a column -/

/-- Two sequences with scores for the labels -1 and 0. -/
def twoB : List (List (List Sc)) := [[[⊥, (-5 : Int)], [0, ⊥]], [[⊥, (-3 : Int)], [0, ⊥]]]

def twoDense : Dense Sc := ⟨[0, 2, 4], 2, 2, twoB.flatten.flatten⟩

theorem twoDense_ok : DenseOk twoB twoDense := by
  refine ⟨by decide, by decide, by decide, ?_⟩
  have hB : twoB.flatten.length = 4 := by decide
  intro i row c x hi hc
  have h1 := (List.getElem?_eq_some_iff.mp hi).1
  have h2 : ∀ row ∈ twoB.flatten, row.length = 2 := by decide
  have h3 := h2 row (List.mem_of_getElem? hi)
  have h4 := (List.getElem?_eq_some_iff.mp hc).1
  have key : ∀ i < 4, ∀ c < 2, twoDense.mem[i * twoDense.stride + c]? =
      (twoB.flatten[i]?).bind (fun row => row[c]?) := by decide
  rw [key i (by omega) c (by omega), hi]
  exact hc

/-- The network has scores for the labels -1 and 0 only.  An FSA that accepts just the label 1 is accepted with
the score 0: the comparison `label_plus_one <= scores_num_cols` lets the label through and the score is that of
the label -1 in the next frame. -/
theorem label_one_too_large :
    intersectDense .cpu true 1 100 (fun x _ _ => x) (flat [[[⟨0, 1, 1, 0⟩], [⟨1, 2, -1, 0⟩], []]]) twoDense [0]
      ((-2 : Int) : Sc) 100 100 = some (flat [[[⟨0, 1, 1, 0⟩], [⟨1, 2, -1, 0⟩], []]], [0, 1], [2, 2]) := by
  decide +kernel

/-- The same FSA with the last sequence: a score behind the end of the memory is read. -/
theorem label_read_behind_end :
    intersectDense .cpu true 1 100 (fun x _ _ => x) (flat [[[⟨0, 1, 1, 0⟩], [⟨1, 2, -1, 0⟩], []]]) twoDense [1]
      ((-2 : Int) : Sc) 100 100 = none := by
  decide +kernel

/-- The label 4 is far out of range and the passes give its arc the score minus infinity.  `FormatOutput` does
not check the range: the arc is in the result, with a score of the other sequence, because it is parallel to an
arc that is kept. -/
theorem label_far_too_large :
    intersectDense .cpu true 1 100 (fun x _ _ => x)
      (flat [[[⟨0, 1, 0, 0⟩, ⟨0, 1, 4, 0⟩], [⟨1, 2, -1, 0⟩], []]]) twoDense [0] ((-2 : Int) : Sc) 100 100 =
      some (flat [[[⟨0, 1, 0, ((-5 : Int) : Sc)⟩, ⟨0, 1, 4, ((-3 : Int) : Sc)⟩], [⟨1, 2, -1, 0⟩], []]], [0, 1, 2], [1, 5, 2]) := by
  decide +kernel

/-- Labels are stored in 16 bits: the label 65536 is taken for the label 0 and the result has the label 0. -/
theorem label_wraps :
    intersectDense .cpu true 1 100 (fun x _ _ => x) (flat [[[⟨0, 1, 65536, 0⟩], [⟨1, 2, -1, 0⟩], []]]) twoDense [0]
      ((-2 : Int) : Sc) 100 100 = some (flat [[[⟨0, 1, 0, ((-5 : Int) : Sc)⟩], [⟨1, 2, -1, 0⟩], []]], [0, 1], [1, 2]) := by
  decide +kernel

/-- So the function does not compute the lattices for all FSAs: the conditions on the labels are needed. -/
theorem intersectDense_needs_labels :
    ∃ (F : List (List (List (Arc Sc)))) (res : FsaVec Sc × List Nat × List Nat), (∀ f ∈ F, RowsOk f) ∧
      DenseOk twoB twoDense ∧
      intersectDense .cpu true 1 100 (fun x _ _ => x) (flat F) twoDense [0] ((-2 : Int) : Sc) 100 100 = some res ∧
      ∀ L, ¬ Lattices F twoB twoDense [0] ((-2 : Int) : Sc) L res := by
  refine ⟨[[[⟨0, 1, 1, 0⟩], [⟨1, 2, -1, 0⟩], []]], _, ?_, twoDense_ok, label_one_too_large, ?_⟩
  · intro f hf
    obtain rfl := List.mem_singleton.mp hf
    have key : ∀ s < 3, ∀ a ∈ ([[⟨0, 1, 1, 0⟩], [⟨1, 2, -1, 0⟩], []] : List (List (Arc Sc))).getD s [],
      a.src = s ∧ a.dst < 3 := by decide
    intro s row hs a ha
    exact key s (List.getElem?_eq_some_iff.mp hs).1 a (by rw [List.getD_eq_getElem?_getD, hs]; exact ha)
  · intro L hL
    have h1 := hL.length
    match L, hL, h1 with
    | [x], hL, _ =>
      have hfs := hL.fsas
      have hl := hL.each 0 _ 0 _ x rfl rfl rfl rfl
      have hm := hL.mapA
      simp only [List.mapIdx_cons, List.mapIdx_nil, List.flatten_cons, List.flatten_nil, List.append_nil,
        Util.splits_zero, Nat.zero_add, List.map_id'] at hm
      have hg : x.1.flatten = [⟨0, 1, 1, 0⟩, ⟨1, 2, -1, 0⟩] := by
        have := congrArg FsaVec.arcs hfs
        simpa [flat] using this.symm
      have hn : x.1.length = 3 := by
        have := congrArg FsaVec.sp1 hfs
        simp [flat, psum, psumFrom] at this
        omega
      obtain ⟨js, p, h2, h3, h4, h5, -⟩ := hl.sound [0, 1] [⟨0, 1, 1, 0⟩, ⟨1, 2, -1, 0⟩] (by omega)
        (by rw [hn]; simp [Chain]) (by rw [hg]; rfl)
      rw [← hm] at h2
      have hjs : js = [0, 1] := by
        have : js.map some = [0, 1].map some := by rw [← h2]; rfl
        exact (List.map_injective_iff.mpr (Option.some_injective _)) this
      subst hjs
      have h6 := h3.arcs
      have hp : p = [⟨0, 1, 1, 0⟩, ⟨1, 2, -1, 0⟩] := by
        have : p.map some = ([⟨0, 1, 1, 0⟩, ⟨1, 2, -1, 0⟩] : List (Arc Sc)).map some := by rw [← h6]; rfl
        exact (List.map_injective_iff.mpr (Option.some_injective _)) this
      rw [hp] at h5
      exact absurd h5 (by decide)

end Verif.Fsa.Dn
