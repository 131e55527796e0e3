import Verif.Swoosh.Model
import Mathlib.Analysis.SpecialFunctions.Log.Deriv
import Mathlib.Analysis.SpecialFunctions.ExpDeriv
import Mathlib.MeasureTheory.Integral.IntervalIntegral.Basic

/-! # Values and gradients of the swoosh functions -/

namespace Verif.Swoosh

/-- The function of the documentation. -/
noncomputable def swoosh (c : Consts) (x : ℝ) : ℝ := Real.log (1 + Real.exp (x - c.shift)) - c.coeff * x - c.offset

/-- With dropout: for the random number `r` of the element, 0 or the value divided by the probability to be kept. -/
noncomputable def dropped (c : Consts) (p r x : ℝ) : ℝ :=
  if p ≠ 0 ∧ r < p then 0 else swoosh c x / (1 - p)

/-- The derivative of the documentation. -/
noncomputable def slope (c : Consts) (x : ℝ) : ℝ := 1 - c.coeff - 1 / (1 + Real.exp (x - c.shift))

/-- The derivative with dropout. -/
noncomputable def droppedSlope (c : Consts) (p r x : ℝ) : ℝ :=
  if p ≠ 0 ∧ r < p then 0 else slope c x / (1 - p)

/-! ## Values -/

theorem logPart_close (m t : ℝ) (hm : 0 < m) : |logPart m t - Real.log (1 + Real.exp t)| ≤ 1 / m := by
  unfold logPart
  split
  · rename_i h
    have e : Real.log (1 + Real.exp t) = t + Real.log (1 + Real.exp (-t)) := by
      have : 1 + Real.exp t = Real.exp t * (1 + Real.exp (-t)) := by
        rw [mul_add, mul_one, ← Real.exp_add, add_neg_cancel, Real.exp_zero, add_comm]
      rw [this, Real.log_mul (Real.exp_pos _).ne' (by positivity), Real.log_exp]
    have h1 : 0 ≤ Real.log (1 + Real.exp (-t)) := Real.log_nonneg (by linarith [Real.exp_pos (-t)])
    have h2 : Real.log (1 + Real.exp (-t)) ≤ Real.exp (-t) := by
      have := Real.log_le_sub_one_of_pos (show 0 < 1 + Real.exp (-t) by positivity)
      linarith
    have h3 : Real.exp (-t) ≤ 1 / m := by
      rw [Real.exp_neg, ← one_div]
      exact one_div_le_one_div_of_le hm h.le
    rw [e, abs_le]
    constructor <;> linarith
  · rw [sub_self, abs_zero]
    positivity

/-- All three functions return the value of the documentation, up to the inverse of the largest number. -/
theorem swoosh_value (c : Consts) (m x r r2 : ℝ) (hm : 0 < m) :
    |plainCell c m x - swoosh c x| ≤ 1 / m ∧ |(derivCell c m x).1 - swoosh c x| ≤ 1 / m ∧
      |(forwardCell c m 0 x r r2).1 - swoosh c x| ≤ 1 / m := by
  have h := logPart_close m (x - c.shift) hm
  have e : logPart m (x - c.shift) - c.coeff * x - c.offset - swoosh c x =
      logPart m (x - c.shift) - Real.log (1 + Real.exp (x - c.shift)) := by unfold swoosh; ring
  refine ⟨?_, ?_, ?_⟩
  · unfold plainCell
    rw [e]
    exact h
  · unfold derivCell
    simp only [e]
    exact h
  · unfold forwardCell
    simp only [ne_eq, not_true_eq_false, if_false, e]
    exact h

/-- With dropout and without overflow, the value is 0 or the value divided by the probability. -/
theorem dropout_value (c : Consts) (m p x r r2 : ℝ) (h : Real.exp (x - c.shift) ≤ m) :
    (forwardCell c m p x r r2).1 = dropped c p r x := by
  have hl : logPart m (x - c.shift) = Real.log (1 + Real.exp (x - c.shift)) := if_neg (not_lt.2 h)
  unfold forwardCell dropped swoosh
  by_cases hp : p = 0
  · simp [hp, hl]
  · by_cases hr : r < p
    · simp [hp, hr]
    · simp only [ne_eq, hp, not_false_eq_true, if_true, hr, if_false, and_false, hl]
      rw [mul_one_div]

/-! ## Derivatives -/

theorem swoosh_hasDerivAt (c : Consts) (x : ℝ) : HasDerivAt (swoosh c) (slope c x) x := by
  have hpos : (1 + Real.exp (x - c.shift)) ≠ 0 := by positivity
  have h1 : HasDerivAt (fun x : ℝ => Real.exp (x - c.shift)) (Real.exp (x - c.shift)) x := by
    simpa using ((hasDerivAt_id x).sub_const c.shift).exp
  have h2 := ((h1.const_add 1).log hpos).sub ((hasDerivAt_id x).const_mul c.coeff)
  have h3 := h2.sub_const c.offset
  have e : slope c x = Real.exp (x - c.shift) / (1 + Real.exp (x - c.shift)) - c.coeff * 1 := by
    unfold slope
    field_simp
    ring
  rw [e]
  exact h3

theorem dropped_hasDerivAt (c : Consts) (p r x : ℝ) : HasDerivAt (dropped c p r) (droppedSlope c p r x) x := by
  unfold dropped droppedSlope
  by_cases h : p ≠ 0 ∧ r < p
  · simp only [if_pos h]
    exact hasDerivAt_const x 0
  · simp only [if_neg h]
    exact (swoosh_hasDerivAt c x).div_const _

/-- `SwooshForwardAndDeriv` returns the derivative. -/
theorem deriv_value (c : Consts) (hc : c.coeff = 0.08) (m x : ℝ) (h : Real.exp (x - c.shift) ≤ m) :
    HasDerivAt (swoosh c) (derivCell c m x).2 x := by
  have e : (derivCell c m x).2 = slope c x := by
    unfold derivCell slope invPart
    rw [if_neg (not_lt.2 h), hc]
    norm_num
  rw [e]
  exact swoosh_hasDerivAt c x

/-! ## The byte -/

/-- What is rounded to a byte: the derivative without dropout plus `coeff`, scaled. -/
noncomputable def coded (c : Consts) (m p x r : ℝ) : ℝ :=
  if p ≠ 0 ∧ r < p then c.coeff else 1 - invPart m (x - c.shift)

theorem forwardCell_byte (c : Consts) (m p x r r2 : ℝ) :
    (forwardCell c m p x r r2).2 = ⌊coded c m p x r * (255 / 1.005) + r2⌋ := by
  unfold forwardCell coded
  by_cases hp : p = 0
  · simp [hp]
  · by_cases hr : r < p
    · simp [hp, hr]
    · simp [hp, hr]

theorem coded_range (c : Consts) (hc : 0 ≤ c.coeff ∧ c.coeff ≤ 1) (m p x r : ℝ) :
    0 ≤ coded c m p x r ∧ coded c m p x r ≤ 1 := by
  have hi : 0 ≤ invPart m (x - c.shift) ∧ invPart m (x - c.shift) ≤ 1 := by
    unfold invPart
    split
    · exact ⟨le_refl _, zero_le_one⟩
    · refine ⟨by positivity, ?_⟩
      rw [div_le_one (by positivity)]
      linarith [Real.exp_pos (x - c.shift)]
  unfold coded
  split
  · exact hc
  · constructor <;> linarith [hi.1, hi.2]

/-- The number fits into a byte, for all values and all random numbers below 1. -/
theorem byte_range (c : Consts) (hc : 0 ≤ c.coeff ∧ c.coeff ≤ 1) (m p x r r2 : ℝ) (h2 : 0 ≤ r2 ∧ r2 < 1) :
    0 ≤ (forwardCell c m p x r r2).2 ∧ (forwardCell c m p x r r2).2 ≤ 254 := by
  obtain ⟨h0, h1⟩ := coded_range c hc m p x r
  rw [forwardCell_byte]
  constructor
  · rw [Int.floor_nonneg]
    have := h2.1
    positivity
  · have : coded c m p x r * (255 / 1.005) + r2 < ((255 : ℤ) : ℝ) := by
      have : coded c m p x r * (255 / 1.005) ≤ 1 * (255 / 1.005) := mul_le_mul_of_nonneg_right h1 (by norm_num)
      have h3 : (1 : ℝ) * (255 / 1.005) < 254 := by norm_num
      push_cast
      linarith [h2.2]
    have := Int.floor_lt.2 this
    omega

/-- The decoded number minus `coeff` over the probability, before rounding, is the derivative. -/
theorem coded_slope (c : Consts) (m p x r : ℝ) (h : Real.exp (x - c.shift) ≤ m) :
    (coded c m p x r - c.coeff) / (1 - p) = droppedSlope c p r x := by
  unfold coded droppedSlope slope invPart
  rw [if_neg (not_lt.2 h)]
  split
  · rw [sub_self, zero_div]
  · congr 1
    ring

/-- The gradient differs from the right one by less than a step of the byte. -/
theorem gradient_close (c : Consts) (m p x r r2 oi : ℝ) (h : Real.exp (x - c.shift) ≤ m) (hp : p < 1)
    (h2 : 0 ≤ r2 ∧ r2 < 1) :
    |backwardCell c p oi (forwardCell c m p x r r2).2 - oi * droppedSlope c p r x| ≤ |oi| * (1.005 / 255 / (1 - p)) := by
  rw [forwardCell_byte, ← coded_slope c m p x r h]
  unfold backwardCell
  generalize coded c m p x r = a
  have f1 := Int.floor_le (a * (255 / 1.005) + r2)
  have f2 := Int.lt_floor_add_one (a * (255 / 1.005) + r2)
  generalize ((⌊a * (255 / 1.005) + r2⌋ : ℤ) : ℝ) = g at f1 f2
  have hq : 0 < 1 - p := by linarith
  have e : oi * ((g * (1.005 / 255) - c.coeff) / (1 - p)) - oi * ((a - c.coeff) / (1 - p)) =
      oi * ((g * (1.005 / 255) - a) / (1 - p)) := by ring
  rw [e, abs_mul]
  refine mul_le_mul_of_nonneg_left ?_ (abs_nonneg _)
  rw [abs_div, abs_of_pos hq]
  refine div_le_div_of_nonneg_right ?_ hq.le
  have e2 : g * (1.005 / 255) - a = (g - a * (255 / 1.005)) * (1.005 / 255) := by
    rw [sub_mul, mul_assoc a]
    norm_num
  rw [e2, abs_mul, abs_of_pos (show (0 : ℝ) < 1.005 / 255 by norm_num)]
  have : |g - a * (255 / 1.005)| ≤ 1 := by
    rw [abs_le]
    constructor <;> linarith [h2.1, h2.2]
  calc _ ≤ 1 * (1.005 / 255 : ℝ) := mul_le_mul_of_nonneg_right this (by norm_num)
    _ = _ := one_mul _

/-- Rounding with a random number keeps the mean. -/
theorem floor_mean (a : ℝ) : ∫ r in (0 : ℝ)..1, ((⌊a + r⌋ : ℤ) : ℝ) = a := by
  have hmono : Monotone (fun r : ℝ => ((⌊a + r⌋ : ℤ) : ℝ)) := by
    intro x y hxy
    exact Int.cast_le.2 (Int.floor_le_floor (by linarith))
  have hf0 := Int.fract_nonneg a
  have hf1 := Int.fract_lt_one a
  have hfa := Int.floor_add_fract a
  rw [← intervalIntegral.integral_add_adjacent_intervals (b := 1 - Int.fract a) hmono.intervalIntegrable
    hmono.intervalIntegrable]
  have i1 : ∫ r in (0 : ℝ)..(1 - Int.fract a), ((⌊a + r⌋ : ℤ) : ℝ) = ∫ _r in (0 : ℝ)..(1 - Int.fract a), (⌊a⌋ : ℝ) := by
    refine intervalIntegral.integral_congr_Ioo_of_le (by linarith) ?_
    intro r hr
    have : ⌊a + r⌋ = ⌊a⌋ := by
      rw [Int.floor_eq_iff]
      constructor <;> linarith [hr.1, hr.2]
    simp only [this]
  have i2 : ∫ r in (1 - Int.fract a)..(1 : ℝ), ((⌊a + r⌋ : ℤ) : ℝ) = ∫ _r in (1 - Int.fract a)..(1 : ℝ), ((⌊a⌋ : ℝ) + 1) := by
    refine intervalIntegral.integral_congr_Ioo_of_le (by linarith) ?_
    intro r hr
    have : ⌊a + r⌋ = ⌊a⌋ + 1 := by
      rw [Int.floor_eq_iff]
      push_cast
      constructor <;> linarith [hr.1, hr.2]
    simp only [this]
    push_cast
    rfl
  rw [i1, i2, intervalIntegral.integral_const, intervalIntegral.integral_const, smul_eq_mul, smul_eq_mul]
  linear_combination hfa

/-- The mean of the gradient over the random numbers of the rounding is the right gradient. -/
theorem gradient_mean (c : Consts) (m p x r oi : ℝ) (h : Real.exp (x - c.shift) ≤ m) :
    ∫ r2 in (0 : ℝ)..1, backwardCell c p oi (forwardCell c m p x r r2).2 = oi * droppedSlope c p r x := by
  rw [← coded_slope c m p x r h]
  simp only [forwardCell_byte]
  generalize coded c m p x r = a
  have hmono : Monotone (fun r : ℝ => ((⌊a * (255 / 1.005) + r⌋ : ℤ) : ℝ)) := by
    intro x y hxy
    exact Int.cast_le.2 (Int.floor_le_floor (by linarith))
  have e : ∀ r2 : ℝ, backwardCell c p oi ⌊a * (255 / 1.005) + r2⌋ =
      (oi * (1.005 / 255) / (1 - p)) * ((⌊a * (255 / 1.005) + r2⌋ : ℤ) : ℝ) - oi * c.coeff / (1 - p) := by
    intro r2
    unfold backwardCell
    ring
  simp only [e]
  rw [intervalIntegral.integral_sub (hmono.intervalIntegrable.const_mul _) intervalIntegrable_const,
    intervalIntegral.integral_const_mul, floor_mean, intervalIntegral.integral_const, smul_eq_mul]
  have : (1.005 / 255 : ℝ) * (255 / 1.005) = 1 := by norm_num
  linear_combination (oi * a / (1 - p)) * this

/-- The gradient of an element that was set to 0 is never 0, although the output does not depend on the input. -/
theorem dropped_gradient_neg (c : Consts) (hc : c.coeff = 0.08) (m p x r r2 oi : ℝ) (hp : p ≠ 0) (hp1 : p < 1) (hr : r < p)
    (ho : oi ≠ 0) : (forwardCell c m p x r r2).1 = 0 ∧ backwardCell c p oi (forwardCell c m p x r r2).2 ≠ 0 := by
  constructor
  · simp [forwardCell, hp, hr]
  · generalize (forwardCell c m p x r r2).2 = g
    unfold backwardCell
    rw [hc]
    refine mul_ne_zero ho (div_ne_zero ?_ (by linarith))
    intro e
    have : (1005 : ℝ) * g = 20400 := by
      norm_num at e
      linarith
    have h2 : (1005 : ℤ) * g = 20400 := by exact_mod_cast this
    omega

/-- The constants of both functions satisfy the hypotheses; at `x = 4` half of the byte is used. -/
example : (0 ≤ swooshL.coeff ∧ swooshL.coeff ≤ 1) ∧ (0 ≤ swooshR.coeff ∧ swooshR.coeff ≤ 1) ∧
    slope swooshL 4 = 0.42 ∧ (forwardCell swooshL 100 0 4 0 0.5).2 = 127 := by
  refine ⟨by norm_num [swooshL], by norm_num [swooshR], ?_, ?_⟩
  · norm_num [slope, swooshL]
  · rw [forwardCell_byte, Int.floor_eq_iff]
    norm_num [coded, invPart, swooshL]

end Verif.Swoosh
