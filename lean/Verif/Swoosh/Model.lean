import Mathlib.Analysis.SpecialFunctions.Log.Basic

/-!
# The activation functions swoosh_l and swoosh_r (k2/python/csrc/torch/v2/autograd/swoosh.cu)

Numbers are real numbers; rounding is not modelled.  Overflow is: `m` is the largest number, and above it `expf` is
infinite, so that its inverse is 0 and its logarithm infinite.  `r` and `r2` are the random numbers of one element.
-/

namespace Verif.Swoosh

/-- `SwooshLConstants` and `SwooshRConstants`, lines 115-125. -/
structure Consts where
  shift : ℝ
  coeff : ℝ
  offset : ℝ

noncomputable def swooshL : Consts := ⟨4, 0.08, 0.035⟩

noncomputable def swooshR : Consts := ⟨1, 0.08, 0.313261687⟩

/-- `log1pf(e)`, replaced by the argument of the exponential if it is infinite, lines 195-200. -/
noncomputable def logPart (m t : ℝ) : ℝ := if m < Real.exp t then t else Real.log (1 + Real.exp t)

/-- `1 / (1 + e)`. -/
noncomputable def invPart (m t : ℝ) : ℝ := if m < Real.exp t then 0 else 1 / (1 + Real.exp t)

/-- The output and the byte for the gradient of one element, lines 191-216.  The cast to `uint8_t` cuts off the fraction;
`byte_range` shows that the number is in its range. -/
noncomputable def forwardCell (c : Consts) (m p x r r2 : ℝ) : ℝ × ℤ :=
  let y := logPart m (x - c.shift) - c.coeff * x - c.offset
  let g := 1 - invPart m (x - c.shift)
  let q : ℝ × ℝ := if p ≠ 0 then (if r < p then (0, c.coeff) else (y * (1 / (1 - p)), g)) else (y, g)
  (q.1, ⌊q.2 * (255 / 1.005) + r2⌋)

/-- The gradient of one element, lines 251-258. -/
noncomputable def backwardCell (c : Consts) (p oi : ℝ) (g : ℤ) : ℝ :=
  oi * (((g : ℝ) * (1.005 / 255) - c.coeff) / (1 - p))

/-- `SwooshForward`, lines 297-306. -/
noncomputable def plainCell (c : Consts) (m x : ℝ) : ℝ := logPart m (x - c.shift) - c.coeff * x - c.offset

/-- `SwooshForwardAndDeriv`, lines 344-356. -/
noncomputable def derivCell (c : Consts) (m x : ℝ) : ℝ × ℝ :=
  (logPart m (x - c.shift) - c.coeff * x - c.offset, 0.92 - invPart m (x - c.shift))

end Verif.Swoosh
