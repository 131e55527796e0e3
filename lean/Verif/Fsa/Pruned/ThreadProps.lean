import Verif.Fsa.Pruned.Schedule

/-!
# Properties of the threads of `IntersectDensePruned`
-/

namespace Verif.Fsa.Dp
open Verif.Ragged Verif.Util Verif.Fsa.Dn

section
variable {K : Type} [Field K] [LinearOrder K] [IsStrictOrderedRing K]

local notation "S" => WithBot K

/-- No run of the threads goes on forever. -/
def Ends (p : Args K) (order : Nat → Nat → List Nat) (x0 : Th K) : Prop :=
  ∀ run : Nat → Th K, run 0 = x0 →
    ∃ n, ¬ Step p order p.maxFrames (pruneRanges p.maxFrames 0) (run n) (run (n + 1))

/-- For valid arguments, no step of a thread fails, the threads never block each other, every run ends, and
the result is the same however they are scheduled. -/
theorem intersectDensePruned_threads {p : Args K} {F : List (List (List (Arc (WithBot K))))}
    {B : List (List (List (WithBot K)))} (hA : ArgsOk p F B) (order : Nat → Nat → List Nat)
    (ho : ∀ t n, (order t n).Perm (List.range n)) : ∃ s0 G res, initialFrame p = some s0 ∧ Results p F B G res ∧
    intersectDensePruned p order = some res ∧ Ends p order (thInit p s0) ∧
    ∀ x, Reach p order p.maxFrames (pruneRanges p.maxFrames 0) (thInit p s0) x →
      (∃ y, Step p order p.maxFrames (pruneRanges p.maxFrames 0) x y) ∨
      (x.finished p.maxFrames ∧ formatOutput p x.s.fs = some res) := by
  obtain ⟨G, res, h1, h2, -⟩ := intersectDensePruned_decodes hA order ho
  have h3 := h1
  unfold intersectDensePruned at h3
  split at h3
  on_goal 2 => simp at h3
  obtain ⟨s0, h4, -⟩ := Option.bind_eq_some_iff.mp h3
  refine ⟨s0, G, res, h4, h2, h1, ?_, ?_⟩
  · intro run h0
    by_contra hall
    have hall : ∀ n, Step p order p.maxFrames (pruneRanges p.maxFrames 0) (run n) (run (n + 1)) :=
      fun n => by by_contra h; exact hall ⟨n, h⟩
    have hreach : ∀ n, Reach p order p.maxFrames (pruneRanges p.maxFrames 0) (thInit p s0) (run n) := by
      intro n
      induction n with
      | zero => rw [h0]; exact .refl _
      | succ n ih => exact .step _ _ _ ih (hall n)
    have hw : ∀ n, work p.maxFrames (run n) + n ≤ work p.maxFrames (run 0) := by
      intro n
      induction n with
      | zero => exact le_rfl
      | succ n ih =>
        have := (threads_result p order s0 res h4 h1 _ (hreach n)).2.2 _ (hall n)
        omega
    have := hw (work p.maxFrames (run 0) + 1)
    omega
  · intro x hx
    obtain ⟨g1, g2, -⟩ := threads_result p order s0 res h4 h1 x hx
    by_cases hf : x.finished p.maxFrames
    · exact .inr ⟨hf, g1 hf⟩
    · exact .inl (g2 hf)

end

/-- With 45 frames, the rounds of pruning. -/
example : pruneRanges 45 0 = [(0, 20), (10, 40), (30, 45)] := by decide +kernel

/-- A round that did not wait for the forward pass would look for frames that are not there. -/
example {K : Type} [Field K] [LinearOrder K] (p : Args K) (s : Pend K) (h : s.fs.length = 0) :
    pstep p (0, 20) s = none := by simp [pstep, h]

end Verif.Fsa.Dp
