import Verif.Ragged.NormalizeProps
import Mathlib.Tactic.IntervalCases

/-! # Concrete cases for C71 and C72 -/

namespace Verif.Ragged

/-- Rows [3, 1, 3], [] and [2]. -/
def reduceRows : List (List Int) := [[3, 1, 3], [], [2]]

example : segmentedReduce (· + ·) 0 (psum (reduceRows.map List.length)) reduceRows.flatten = some [7, 0, 2] := by
  decide

example : segmentedReduce maxOp (-5) (psum (reduceRows.map List.length)) reduceRows.flatten = some [3, -5, 2] := by
  decide

/-- The last maximum; `-1` for an empty row. -/
example : argMaxPerSublist (-5) (psum (reduceRows.map List.length)) reduceRows.flatten = some [2, -1, 3] := by
  decide

/-- `-1` for a row below the initial value. -/
example : argMaxPerSublist 3 (psum (reduceRows.map List.length)) reduceRows.flatten = some [2, -1, -1] := by
  decide

/-- A GPU may add the elements of the first row as (1 + 3) + (0 + 3). -/
example : GpuRow (· + ·) (0 : Int) [3, 1, 3] 7 :=
  ⟨[1, 3, 0, 3], by decide, .node (l := [1, 3]) (m := [0, 3]) (.node (.leaf 1) (.leaf 3)) (.node (.leaf 0) (.leaf 3))⟩

/-- The hypothesis of `argmax_gpu` is met: an order of evaluation that begins with the initial pair. -/
example : GpuArgMax (-5 : Int) (psum [2]) [4, 4] [1] := by
  refine ⟨[(4, 1)], rows_gpu (L := [[((4 : Int), (0 : Int)), (4, 1)]]) rfl ?_, rfl⟩
  intro r row hr
  cases r with
  | zero =>
    obtain rfl := Option.some.inj hr
    refine ⟨_, rfl, [(-5, -1), (4, 0), (4, 1)], List.Perm.refl _, ?_⟩
    exact .node (l := [(-5, -1)]) (m := [(4, 0), (4, 1)]) (.leaf _) (.node (l := [(4, 0)]) (m := [(4, 1)]) (.leaf _) (.leaf _))
  | succ r => simp at hr

example : segmentedReduce (· &&& ·) (0b111#3) (psum [2, 0]) [0b110#3, 0b011#3] = some [0b010#3, 0b111#3] := by decide

example : exclusiveSumRows (psum (reduceRows.map List.length)) reduceRows.flatten = some [0, 3, 4, 0] := by decide

example : exclusiveSumInt (psum (reduceRows.map List.length)) (idsFrom 0 (reduceRows.map List.length)) reduceRows.flatten =
    some [0, 3, 4, 0] := by decide

example : exclusiveSumFloat (psum (reduceRows.map List.length)) (idsFrom 0 (reduceRows.map List.length))
    reduceRows.flatten = some [0, 3, 4, 0] := by decide

example : addPerSublist (psum (reduceRows.map List.length)) (idsFrom 0 (reduceRows.map List.length)) reduceRows.flatten
    [10, 20, 30] 2 = some [23, 21, 23, 62] := by decide

/-- Without `use_log`, epsilon 1/4: the row [1, 2] becomes [4/13, 8/13]. -/
example : normalizeSum (1 / 4 : Rat) (psum [2]) (idsFrom 0 [2]) [1, 2] = some [4 / 13, 8 / 13] := by decide +kernel

/-- Rows [0, -inf, 1] and []: the hypotheses of `normalize_log`. -/
noncomputable def logRows : List (List (WithBot ℝ)) := [[((0 : ℝ) : WithBot ℝ), ⊥, ((1 : ℝ) : WithBot ℝ)], []]

example : ∃ sums R, Reduced (logAdd ⊥) ⊥ logRows sums ∧
    normalizeLogWith (idsFrom 0 (logRows.map List.length)) logRows.flatten sums = some (List.flatten R) ∧
    ∃ out, R[0]? = some out ∧ (out.map expB).sum = 1 := by
  obtain ⟨sums, h1, _⟩ := reduce_defined (logAdd ⊥) ⊥ logRows
  obtain ⟨R, h2, _, h3⟩ := normalize_log_exact logRows sums (Or.inl h1) (by
    intro row hrow hne
    simp only [logRows, List.mem_cons, List.not_mem_nil, or_false] at hrow
    rcases hrow with rfl | rfl
    · exact ⟨((0 : ℝ) : WithBot ℝ), by simp, WithBot.coe_ne_bot⟩
    · exact absurd rfl hne)
  obtain ⟨out, h4, c, _, h5⟩ := h3 0 _ rfl
  exact ⟨sums, R, Or.inl h1, h2, out, h4, h5 (by simp)⟩

/-- Gradients with a stride of zero: all outputs have weight 2. -/
example : ∃ g, sumGrad 0 (idsFrom 0 [2, 0, 1]) [(2 : ℝ)] = some g ∧
    ∀ (D : List (List ℝ)), D.map List.length = [2, 0, 1] → ∀ out : ℝ → List ℝ,
      (∀ ε, Reduced (· + ·) 0 (shift [[5, 6], [], [7]] D ε) (out ε)) →
      HasDerivAt (fun ε => dotp [2, 2, 2] (out ε)) (dotp g D.flatten) 0 :=
  sum_gradient 0 [[5, 6], [], [7]] 0 [2] [2, 2, 2] rfl (by
    intro r hr
    simp at hr
    interval_cases r <;> rfl)

/-- The log-sums of rows of finite numbers are finite. -/
theorem logsum_real_exists (init : WithBot ℝ) (L : List (List ℝ)) (hne : init ≠ ⊥ ∨ ∀ row ∈ L, row ≠ []) :
    ∃ sums : List ℝ, Reduced (logAdd ⊥) init (L.map (fun row => row.map (fun x : ℝ => (x : WithBot ℝ))))
      (sums.map (fun x : ℝ => (x : WithBot ℝ))) := by
  obtain ⟨out, h1, h2⟩ := reduce_defined (logAdd ⊥) init (L.map (fun row => row.map (fun x : ℝ => (x : WithBot ℝ))))
  obtain ⟨h3, h4⟩ := logsum_exact init _ _ (Or.inl h1)
  refine ⟨out.map (fun v => v.unbotD 0), Or.inl ?_⟩
  rw [h1]
  refine congrArg some ?_
  rw [List.map_map]
  apply List.ext_getElem?
  intro r
  rw [List.getElem?_map]
  by_cases hr : r < L.length
  · obtain ⟨v, hv, e⟩ := h4 r (L[r].map (fun x : ℝ => (x : WithBot ℝ))) (by simp [hr])
    have hp := exp_sum_pos init L[r] (hne.imp id (fun h => h _ (List.getElem_mem hr)))
    have e' : expB v = expB init + (L[r].map Real.exp).sum := by rw [e, List.map_map]; rfl
    rw [← e', expB_pos] at hp
    obtain ⟨c, rfl⟩ := WithBot.ne_bot_iff_exists.mp hp
    simp [hv]
  · rw [List.getElem?_eq_none (by simpa [h2] using hr)]
    rfl

/-- The hypotheses of `logsum_gradient`, with the weights 1 and -3. -/
example : ∃ sums g, logSumGrad 1 (idsFrom 0 [2, 1]) [(5 : ℝ), 6, 7] sums [1, -3] = some g :=
  let ⟨sums, h⟩ := logsum_real_exists ⊥ [[5, 6], [7]] (Or.inr (by simp))
  let ⟨g, hg, _⟩ := logsum_gradient ⊥ [[5, 6], [7]] 1 [1, -3] [1, -3] sums (Or.inr (by simp)) rfl (by simp) h
  ⟨sums, g, hg⟩

/-- The outputs of normalizing finite numbers are finite. -/
theorem normalize_real_exists (L : List (List ℝ)) : ∃ sums, ∃ out : List ℝ,
    Reduced (logAdd ⊥) ⊥ (L.map (fun row => row.map (fun x : ℝ => (x : WithBot ℝ)))) sums ∧
    normalizeLogWith (idsFrom 0 (L.map List.length)) (L.flatten.map (fun x : ℝ => (x : WithBot ℝ))) sums =
      some (out.map (fun x : ℝ => (x : WithBot ℝ))) := by
  have hlen : (L.map (fun row => row.map (fun x : ℝ => (x : WithBot ℝ)))).map List.length = L.map List.length := by
    simp [Function.comp_def]
  have hflat : (L.map (fun row => row.map (fun x : ℝ => (x : WithBot ℝ)))).flatten =
      L.flatten.map (fun x : ℝ => (x : WithBot ℝ)) := by rw [List.map_flatten]
  obtain ⟨sums, h1, _⟩ := reduce_defined (logAdd ⊥) ⊥ (L.map (fun row => row.map (fun x : ℝ => (x : WithBot ℝ))))
  obtain ⟨R, h2, h3, h4⟩ := normalize_log_exact _ sums (Or.inl h1) (by
    intro row hrow hne
    obtain ⟨row', _, rfl⟩ := List.mem_map.mp hrow
    cases row' with
    | nil => simp at hne
    | cons x row' => exact ⟨x, by simp, WithBot.coe_ne_bot⟩)
  rw [hlen, hflat] at h2
  refine ⟨sums, R.flatten.map (fun v => v.unbotD 0), Or.inl h1, ?_⟩
  rw [h2]
  refine congrArg some ?_
  rw [List.map_map]
  conv_lhs => rw [← List.map_id R.flatten]
  apply List.map_congr_left
  intro v hv
  obtain ⟨row, hrow, hv⟩ := List.mem_flatten.mp hv
  obtain ⟨r, hr⟩ := List.mem_iff_getElem?.mp hrow
  have hl := (List.getElem?_eq_some_iff.mp hr).1
  rw [h3, List.length_map] at hl
  obtain ⟨out, ho, c, e, _⟩ := h4 r (L[r].map (fun x : ℝ => (x : WithBot ℝ))) (by simp [hl])
  obtain rfl := Option.some.inj (hr.symm.trans ho)
  rw [e, List.map_map] at hv
  obtain ⟨x, _, rfl⟩ := List.mem_map.mp hv
  rfl

/-- The hypotheses of `normalize_gradient`, with different weights and with a stride of zero. -/
example : ∃ o g, normalizeGrad 1 (psum [2, 0, 1]) (idsFrom 0 [2, 0, 1]) o [(1 : ℝ), 2, 3] = some g :=
  let ⟨sums, o, h1, h2⟩ := normalize_real_exists [[5, 6], [], [7]]
  let ⟨g, hg, _⟩ := normalize_gradient [[5, 6], [], [7]] [[1, 2], [], [3]] 1 [1, 2, 3] o sums rfl (by simp) (by simp) h1 h2
  ⟨o, g, hg⟩

example : ∃ o g, normalizeGrad 0 (psum [2, 0, 1]) (idsFrom 0 [2, 0, 1]) o [(4 : ℝ)] = some g :=
  let ⟨sums, o, h1, h2⟩ := normalize_real_exists [[5, 6], [], [7]]
  let ⟨g, hg, _⟩ := normalize_gradient [[5, 6], [], [7]] [[4, 4], [], [4]] 0 [4] o sums rfl (by
    intro i hi
    simp at hi
    interval_cases i <;> rfl) (by simp) h1 h2
  ⟨o, g, hg⟩

end Verif.Ragged
