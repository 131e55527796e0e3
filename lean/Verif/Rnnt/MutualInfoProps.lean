import Verif.Rnnt.MutualInfoBackward
import Mathlib.Algebra.Order.BigOperators.Ring.Finset
import Mathlib.Algebra.Order.Field.Basic
import Mathlib.Algebra.Order.Ring.Rat

/-!
# Properties of `mutual_information_recursion`: C46, C47

The specification is `alignments` / `weight` / `TakesAt` of `Verif.Rnnt.Alignments`: lists of
steps, no tables, no loops.
-/

namespace Verif.Rnnt

/-- C46.  Entry `(s, t)` of the table, hence in particular the returned score at
`(s_end, t_end)`, is the sum over all alignments from `(s_begin, t_begin)` to `(s, t)` of the
product of their px / py entries, whatever the table contained before. -/
theorem miForward_total {W : Type} [CommSemiring W] (md : Bool) (px py : Nat → Nat → W)
    {sb tb se te : Nat} (hse : sb ≤ se) (hte : tb ≤ te) (p0 : Nat → Nat → W) {s t : Nat}
    (h1 : sb ≤ s) (h2 : s ≤ se) (h3 : tb ≤ t) (h4 : t ≤ te) :
    miForward md px py sb tb se te p0 s t =
      ∑ l ∈ alignments md (s - sb) (t - tb), weight md px py sb tb l :=
  miForward_spec md px py sb tb hse hte p0 h1 h2 h3 h4

/-- Two symbols, two frames, all entries 1: the table counts alignments, C(4,2) = 6 regular
ones and one modified one. -/
example : miForward (W := Nat) false (fun _ _ => 1) (fun _ _ => 1) 0 0 2 2 (fun _ _ => 9) 2 2 = 6 ∧
    miForward (W := Nat) true (fun _ _ => 1) (fun _ _ => 1) 0 0 2 2 (fun _ _ => 9) 2 2 = 1 := by
  decide +kernel

/-- C46.  The table is not written outside the boundary rectangle. -/
theorem miForward_untouched {W : Type} [CommSemiring W] (md : Bool) (px py : Nat → Nat → W)
    {sb tb se te : Nat} (p0 : Nat → Nat → W) {s t : Nat} (hse : sb ≤ se) (hte : tb ≤ te)
    (h : s < sb ∨ se < s ∨ t < tb ∨ te < t) :
    miForward md px py sb tb se te p0 s t = p0 s t := by
  simp only [miForward]
  apply Loop.forUp_inv (fun _ (p : Nat → Nat → W) => p s t = p0 s t) _ _ _ _ (by omega)
  · simp only [miFirstRow]
    apply Loop.forUp_inv (fun _ (p : Nat → Nat → W) => p s t = p0 s t) _ _ _ _ (by omega)
    · simp only [miFirstColumn]
      apply Loop.forUp_inv (fun _ (p : Nat → Nat → W) => p s t = p0 s t) _ _ _ _ (by omega)
      · exact Loop.upd_other _ _ (by omega)
      · intro i p h1 h2 hp
        rw [Loop.upd_other _ _ (by omega), hp]
    · intro i p h1 h2 hp
      rw [Loop.upd_other _ _ (by omega), hp]
  · intro i p h1 h2 hp
    simp only [miRow]
    apply Loop.forUp_inv (fun _ (st : (Nat → Nat → W) × W) => st.1 s t = p0 s t) _ _ _ _ (by omega)
    · exact hp
    · intro j st h3 h4 hst
      simp only
      rw [Loop.upd_other _ _ (by omega), hst]

/-- C47, auxiliary: gradients outside the rectangle stay zero. -/
theorem miBackward_untouched {W : Type} [Field W] [DecidableEq W] (md : Bool)
    (px p : Nat → Nat → W) {sb tb se te : Nat} (g : W) {s t : Nat} (hse : sb ≤ se) (hte : tb ≤ te)
    (h : s < sb ∨ se < s ∨ t < tb ∨ te < t) :
    (miBackward md px p sb tb se te g).px s t = 0 ∧
      (miBackward md px p sb tb se te g).py s t = 0 := by
  simp only [miBackward]
  let P : Nat → Grads W → Prop := fun _ st => st.px s t = 0 ∧ st.py s t = 0
  have h2 : P tb (Loop.forDown te tb (fun t (st : Grads W) =>
        { st with
          p := Loop.upd st.p sb (t - 1) (st.p sb (t - 1) + st.p sb t)
          py := Loop.upd st.py sb (t - 1) (st.p sb t) })
      (Loop.forDown se sb (fun s st =>
        Loop.forDown te tb (fun t st => miBackStep md px p s t st) st)
        { p := Loop.upd (fun _ _ => 0) se te g, px := fun _ _ => 0, py := fun _ _ => 0 })) := by
    apply Loop.forDown_inv P _ _ _ _ hte
    · apply Loop.forDown_inv P _ _ _ _ hse
      · exact ⟨rfl, rfl⟩
      · intro i st h1 h2 hst
        apply Loop.forDown_inv P _ _ _ _ hte
        · exact hst
        · intro j st h3 h4 hst
          simp only [P, miBackStep]
          refine ⟨?_, ?_⟩
          · rw [Loop.upd_other _ _ (by cases md <;> simp <;> omega)]; exact hst.1
          · rw [Loop.upd_other _ _ (by omega)]; exact hst.2
    · intro j st h3 h4 hst
      simp only [P]
      refine ⟨hst.1, ?_⟩
      rw [Loop.upd_other _ _ (by omega)]; exact hst.2
  split
  · exact h2
  · apply Loop.forDown_inv P _ _ _ _ hse
    · exact h2
    · intro j st h3 h4 hst
      simp only [P]
      refine ⟨?_, hst.2⟩
      rw [Loop.upd_other _ _ (by omega)]; exact hst.1

section gradients
variable {W : Type} [Field W] [LinearOrder W] [IsStrictOrderedRing W]

theorem weight_nonneg (md : Bool) (px py : Nat → Nat → W) (hpx : ∀ s t, 0 ≤ px s t)
    (hpy : ∀ s t, 0 ≤ py s t) (s t : Nat) (l : List Step) : 0 ≤ weight md px py s t l := by
  induction l generalizing s t with
  | nil => simp [weight]
  | cons a l ih =>
    cases a with
    | X => exact mul_nonneg (hpx _ _) (ih _ _)
    | Y => exact mul_nonneg (hpy _ _) (ih _ _)

theorem alpha_nonneg (md : Bool) (px py : Nat → Nat → W) (hpx : ∀ s t, 0 ≤ px s t)
    (hpy : ∀ s t, 0 ≤ py s t) (sb tb s t : Nat) : 0 ≤ alpha md px py sb tb s t := by
  unfold alpha total
  exact Finset.sum_nonneg (fun _ _ => weight_nonneg md px py hpx hpy _ _ _)

open Classical in
/-- C47.  With the table of the forward pass, non-negative entries (they are exponentials) and
a non-zero total, the gradient the backward pass returns for `px[s][t]` is `ans_grad` times the
share, in the total, of the alignments that take an X step at `(s, t)`; likewise for `py`.
This holds at every index, so it is zero on padding.  The gradient that arrives at the start,
which the code compares with `ans_grad` as its sanity check, is `ans_grad`. -/
theorem miBackward_occupation (md : Bool) (px py : Nat → Nat → W)
    (hpx : ∀ s t, 0 ≤ px s t) (hpy : ∀ s t, 0 ≤ py s t)
    {sb tb se te : Nat} (hse : sb ≤ se) (hte : tb ≤ te) (p0 : Nat → Nat → W) (g : W)
    (hA : ∑ l ∈ alignments md (se - sb) (te - tb), weight md px py sb tb l ≠ 0) :
    let grads := miBackward md px (miForward md px py sb tb se te p0) sb tb se te g
    let all := alignments md (se - sb) (te - tb)
    (∀ s t, grads.px s t =
      g * (∑ l ∈ all with TakesAt md sb tb .X s t l, weight md px py sb tb l) /
        ∑ l ∈ all, weight md px py sb tb l) ∧
    (∀ s t, grads.py s t =
      g * (∑ l ∈ all with TakesAt md sb tb .Y s t l, weight md px py sb tb l) /
        ∑ l ∈ all, weight md px py sb tb l) ∧
    grads.p sb tb = g := by
  intro grads all
  have hz : ∀ s t, sb < s → s ≤ se → tb < t → t ≤ te → alpha md px py sb tb s t = 0 →
      alpha md px py sb tb (s - 1) (if md then t - 1 else t) *
        px (s - 1) (if md then t - 1 else t) = 0 := by
    intro s t h1 h2 h3 h4 h0
    have hin := alpha_inner md px py sb tb h1 h3
    rw [h0] at hin
    have e1 : 0 ≤ alpha md px py sb tb (s - 1) (if md then t - 1 else t) *
        px (s - 1) (if md then t - 1 else t) :=
      mul_nonneg (alpha_nonneg md px py hpx hpy _ _ _ _) (hpx _ _)
    have e2 : 0 ≤ alpha md px py sb tb s (t - 1) * py s (t - 1) :=
      mul_nonneg (alpha_nonneg md px py hpx hpy _ _ _ _) (hpy _ _)
    linarith
  have spec := fun (s t : Nat) => @miBackward_spec W _ _ md px py sb tb se te g hA
    (miForward md px py sb tb se te p0) hse hte
    (fun s t h1 h2 h3 h4 => miForward_spec md px py sb tb hse hte p0 h1 h2 h3 h4) hz s t
  have out : ∀ (a : Step) s t, (s < sb ∨ se < s + numX [a] ∨ t < tb ∨ te < t + numT md [a]) →
      ∑ l ∈ all with TakesAt md sb tb a s t l, weight md px py sb tb l = 0 := by
    intro a s t h
    apply Finset.sum_eq_zero
    intro l hl
    simp only [all, Finset.mem_filter, mem_alignments] at hl
    obtain ⟨⟨h1, h2⟩, l1, l2, rfl, h3, h4⟩ := hl
    rw [show l1 ++ a :: l2 = l1 ++ ([a] ++ l2) from rfl] at h1 h2
    simp only [numX_append, numT_append] at h1 h2
    omega
  refine ⟨?_, ?_, ?_⟩
  · intro s t
    by_cases hin : sb ≤ s ∧ s ≤ se ∧ tb ≤ t ∧ t ≤ te
    · obtain ⟨h1, h2, h3, h4⟩ := hin
      rw [(spec s t h1 h2 h3 h4).2.1]
      simp only [XT]
      by_cases hs : s + 1 ≤ se ∧ t + Step.X.frames md ≤ te
      · rw [sum_takesAt md px py h1 h3 (by simp [numX]; omega) (by simp [numT]; omega)]
        simp only [alpha, beta, if_pos hs, numX, numT, weight, mul_one, Nat.zero_add,
          Nat.add_zero]
        rw [show se - sb - (s - sb) - 1 = se - (s + 1) by omega,
          show te - tb - (t - tb) - Step.X.frames md = te - (t + Step.X.frames md) by omega]
        rfl
      · rw [out .X s t (by simp [numX, numT]; omega)]
        simp only [beta, if_neg hs]
        simp
    · rw [(miBackward_untouched md px _ g hse hte (by omega)).1, out .X s t (by omega)]
      simp
  · intro s t
    by_cases hin : sb ≤ s ∧ s ≤ se ∧ tb ≤ t ∧ t ≤ te
    · obtain ⟨h1, h2, h3, h4⟩ := hin
      rw [(spec s t h1 h2 h3 h4).2.2]
      simp only [YT]
      by_cases hs : s ≤ se ∧ t + 1 ≤ te
      · rw [sum_takesAt md px py h1 h3 (by simp [numX]; omega)
          (by simp [numT, Step.frames]; omega)]
        simp only [alpha, beta, if_pos hs, numX, numT, weight, mul_one, Nat.add_zero,
          Step.frames]
        rw [show se - sb - (s - sb) - 0 = se - s by omega,
          show te - tb - (t - tb) - 1 = te - (t + 1) by omega]
        rfl
      · rw [out .Y s t (by simp [numX, numT, Step.frames]; omega)]
        simp only [beta, if_neg hs]
        simp
    · rw [(miBackward_untouched md px _ g hse hte (by omega)).2, out .Y s t (by omega)]
      simp
  · have := (spec sb tb (Nat.le_refl _) hse (Nat.le_refl _) hte).1
    rw [this]
    simp only [GT]
    rw [alpha_start, one_mul, beta_begin md px py sb tb hse hte]
    have : alpha md px py sb tb se te ≠ 0 := hA
    field_simp

end gradients

/-- Two symbols, two frames, all entries 1, ans_grad 12: three of the six alignments start with
an X step, so `px_grad[0][0]` is 12 * 3 / 6. -/
example : (miBackward (W := ℚ) false (fun _ _ => 1)
      (miForward false (fun _ _ => 1) (fun _ _ => 1) 0 0 2 2 (fun _ _ => 0)) 0 0 2 2 12).px 0 0 = 6 ∧
    (alignments false 2 2).card = 6 := by
  decide +kernel

/-- C47, disagreement.  If no alignment has positive weight (total 0, the returned score is
minus infinity) the code still distributes `ans_grad`: here every px and py entry is 0, and
`py_grad` on the last frame is 1. -/
theorem miBackward_zero_total :
    let px : Nat → Nat → ℚ := fun _ _ => 0
    let p := miForward false px px 0 0 1 1 (fun _ _ => 0)
    p 1 1 = 0 ∧ (miBackward false px p 0 0 1 1 1).py 1 0 = 1 ∧
      (miBackward false px p 0 0 1 1 1).px 0 0 = 1 := by
  decide +kernel

end Verif.Rnnt
