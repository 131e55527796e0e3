import Verif.Util.Loop
import Mathlib.Algebra.Ring.Defs
import Mathlib.Algebra.Field.Defs

/-!
# Model of `mutual_information_recursion`

k2/python/csrc/torch/mutual_information_cpu.cu 49-123 (forward) and 126-253 (backward), one
element `b` of the batch.  The code works with logarithms in floating point; the model works
with the numbers themselves: `exp` of an entry is an element of a commutative semiring `W`
(a field for the backward pass), `LogAdd` is `+`, `+` of logs is `*`, log 0.0 is `1` and
`-infinity` is `0`.  Rounding and overflow are not modelled.
Tensors are functions of the indices; `p` starts with arbitrary contents `p0`.
-/

namespace Verif.Rnnt
open Verif.Loop

variable {W : Type}

section forward
variable [CommSemiring W]

/-- Lines 87-98: column `t_begin`. -/
def miFirstColumn (modified : Bool) (px : Nat → Nat → W) (sb tb se : Nat)
    (p : Nat → Nat → W) : Nat → Nat → W :=
  forUp (sb + 1) se (fun s p =>
    upd p s tb (if modified then 0 else p (s - 1) tb * px (s - 1) tb)) p

/-- Lines 99-101: row `s_begin`. -/
def miFirstRow (py : Nat → Nat → W) (sb tb te : Nat) (p : Nat → Nat → W) : Nat → Nat → W :=
  forUp (tb + 1) te (fun t p => upd p sb t (p sb (t - 1) * py sb (t - 1))) p

/-- Lines 104-114: the inner loop, with the register `p_s_t1`. `t + t_offset` is `t - 1` if
modified, else `t`. -/
def miRow (modified : Bool) (px py : Nat → Nat → W) (tb te s : Nat) (p : Nat → Nat → W) :
    Nat → Nat → W :=
  (forUp (tb + 1) te (fun t (st : (Nat → Nat → W) × W) =>
    let t' := if modified then t - 1 else t
    let v := st.1 (s - 1) t' * px (s - 1) t' + st.2 * py s (t - 1)
    (upd st.1 s t v, v)) (p, p s tb)).1

/-- Lines 82-115: the table after the forward pass. -/
def miForward (modified : Bool) (px py : Nat → Nat → W) (sb tb se te : Nat)
    (p0 : Nat → Nat → W) : Nat → Nat → W :=
  let p := upd p0 sb tb 1
  let p := miFirstColumn modified px sb tb se p
  let p := miFirstRow py sb tb te p
  forUp (sb + 1) se (fun s p => miRow modified px py tb te s p) p

end forward

section backward
variable [Field W] [DecidableEq W]

/-- The gradient tensors. -/
structure Grads (W : Type) where
  p : Nat → Nat → W
  px : Nat → Nat → W
  py : Nat → Nat → W

/-- Lines 186-218: one step of the inner backward loop.  `total - total != 0` holds for
`-infinity` (here: 0), and then `total` is replaced by log 1.  `term1_deriv` is finite in
the model.  Note the `=` for `p_grad[s-1][t+t_offset]` and the `+=` for `p_grad[s][t-1]`. -/
def miBackStep (modified : Bool) (px p : Nat → Nat → W) (s t : Nat) (g : Grads W) : Grads W :=
  let t' := if modified then t - 1 else t
  let term1 := p (s - 1) t' * px (s - 1) t'
  let total := if p s t = 0 then 1 else p s t
  let d1 := term1 / total
  let d2 := 1 - d1
  let g1 := d1 * g.p s t
  let g2 := d2 * g.p s t
  let gp := upd g.p (s - 1) t' g1
  { p := upd gp s (t - 1) (gp s (t - 1) + g2)
    px := upd g.px (s - 1) t' g1
    py := upd g.py s (t - 1) g2 }

/-- Lines 179-241: the gradient tensors after the backward pass, from zero. `p` is the table
of the forward pass, `g` is `ans_grad[b]`. -/
def miBackward (modified : Bool) (px p : Nat → Nat → W) (sb tb se te : Nat) (g : W) : Grads W :=
  let st : Grads W := { p := upd (fun _ _ => 0) se te g, px := fun _ _ => 0, py := fun _ _ => 0 }
  let st := forDown se sb (fun s st =>
    forDown te tb (fun t st => miBackStep modified px p s t st) st) st
  let st := forDown te tb (fun t st =>
    { st with
      p := upd st.p sb (t - 1) (st.p sb (t - 1) + st.p sb t)
      py := upd st.py sb (t - 1) (st.p sb t) }) st
  if modified then st
  else forDown se sb (fun s st =>
    { st with
      p := upd st.p (s - 1) tb (st.p (s - 1) tb + st.p s tb)
      px := upd st.px (s - 1) tb (st.p s tb) }) st

end backward

end Verif.Rnnt
