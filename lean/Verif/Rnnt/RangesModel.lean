/-!
# Model of `get_rnnt_prune_ranges`

k2/python/k2/rnnt_loss.py 46-61, 543-630, 636-778.

Tensors are lists.  The gradients enter the function only through
`s_begin = torch.argmax(final_grad, axis=1)` (line 742), whose result is an index into an
axis of length `S1 - s_range + 1`; the model takes that result as an arbitrary function
`am` of (sequence, frame) and the theorems quantify over all `am` with values in range, so
they hold for every gradient and every tie-breaking.
Boundary entries are natural numbers (`Nat`); only columns 2 and 3 are used by the code.
-/

namespace Verif.Rnnt

/-- `torch.cummin(x, dim=-1)`, values only. -/
def cumminFrom (m : Int) : List Int → List Int
  | [] => []
  | x :: xs => min x m :: cumminFrom (min x m) xs

def cummin : List Int → List Int
  | [] => []
  | x :: xs => x :: cumminFrom x xs

/-- `_monotonic_lower_bound`, rnnt_loss.py 543-577: flip, cummin, flip. -/
def monotonicLowerBound (x : List Int) : List Int := (cummin x.reverse).reverse

/-- `-(s_begin - (s_range - 1) * torch.arange(0, T))`, rnnt_loss.py 617-619, 625-627. -/
def magic (r : Int) (x : List Int) : List Int :=
  x.mapIdx fun i v => -(v - (r - 1) * (i : Int))

/-- `_adjust_pruning_lower_bound`, rnnt_loss.py 580-628, one row of the batch. -/
def adjustLowerBound (sBegin : List Int) (r : Int) : List Int :=
  magic r ((monotonicLowerBound (magic r (monotonicLowerBound sBegin))).map (max 0))

/-- Exceptions raised by the function. -/
inductive RangesErr
  /-- `_validate_st_lengths` (rnnt_loss.py 46-61) or one of the shape assertions. -/
  | lengths
  /-- Integer division by zero (`Ts` contains 0) or `max()` of an empty tensor. -/
  | arithmetic
  /-- The final assertion on `s_range`, rnnt_loss.py 714-723. -/
  | sRange
  deriving DecidableEq, Repr

/-- `Ss.sub(1).div(Ts, rounding_mode="trunc").add(2).max().item()`, rnnt_loss.py 694-698. -/
def sRangeMin (bd : List (Nat × Nat)) : Option Int :=
  if bd.any (fun b => b.2 = 0) then none
  else (bd.map fun b => ((b.1 : Int) - 1).tdiv b.2 + 2).max?

/-- `if s_range > S: s_range = S + 1`, rnnt_loss.py 706-711. -/
def capSRange (S : Nat) (r1 : Int) : Int := if r1 > S then (S : Int) + 1 else r1

/-- The assertions on `s_range`, rnnt_loss.py 714-723. -/
def sRangeOk (regular : Bool) (r : Int) : Bool := if regular then 2 ≤ r else 1 ≤ r

/-- Lines 691-704: in the regular case raise `s_range` to the minimum. -/
def raiseSRange (regular : Bool) (bd : List (Nat × Nat)) (sRange : Int) : Option Int :=
  if regular then (sRangeMin bd).map fun m => if sRange < m then m else sRange
  else some sRange

/-- Lines 689-723: the value of `s_range` after the adjustments, or an exception. -/
def finalSRange (regular : Bool) (S : Nat) (bd : List (Nat × Nat)) (sRange : Int) :
    Except RangesErr Int :=
  if regular = false ∧ bd.any (fun b => b.2 < b.1) then .error .lengths
  else
    match raiseSRange regular bd sRange with
    | none => .error .arithmetic
    | some r1 => if sRangeOk regular (capSRange S r1) then .ok (capSRange S r1) else .error .sRange

/-- Lines 757-766: `torch.where(mask, argmax, clamp(S_b - s_range + 1, min=0))` for one
sequence. -/
def initialSBegin (T : Nat) (r : Int) (Sb Tb : Nat) (am : Nat → Int) : List Int :=
  (List.range T).map fun (t : Nat) =>
    if (t : Int) < (Tb : Int) - 1 then am t else max ((Sb : Int) - r + 1) 0

/-- `get_rnnt_prune_ranges`, rnnt_loss.py 636-778.  `S`, `T` are the padded lengths, `bd` the
list of (S_b, T_b), `am b t` the arg-max. -/
def pruneRanges (regular : Bool) (S T : Nat) (bd : List (Nat × Nat)) (sRange : Int)
    (am : Nat → Nat → Int) : Except RangesErr (List (List (List Int))) :=
  match finalSRange regular S bd sRange with
  | .error e => .error e
  | .ok r =>
    .ok (bd.mapIdx fun b lens =>
      (adjustLowerBound (initialSBegin T r lens.1 lens.2 (am b)) (if regular then r else 2)).map
        fun s => (List.range r.toNat).map fun (k : Nat) => s + (k : Int))

end Verif.Rnnt
