import Verif.Rnnt.PrunedModel
import Mathlib.Analysis.SpecialFunctions.Log.Basic

/-!
# Model of `rnnt_loss_simple`, `rnnt_loss`, `rnnt_loss_pruned`, `rnnt_loss_smoothed`

k2/python/k2/rnnt_loss.py 25-338, 341-544, 1070-1117, 1262-1323, 1350-1468, 1471-1840, one element
of the batch, with the real logits.  Log-probabilities are computed with `Real.log` and
`Real.exp` as in the code and handed to the recursion of `MutualInfoModel` as probabilities.  A
loss is represented by `exp(-loss)`, the number in the last cell of the recursion.

* `tiny` is `torch.finfo(dtype).tiny`, a parameter.
* `boundary`, if given, is `(end_symbol, end_frame)`; begin_symbol and begin_frame are 0.
* A failed assertion, an index out of range and a loss that is not a number are `none`.
* The reductions `mean` and `sum` over the batch and the reduction to one device are left out.
-/

namespace Verif.Rnnt

noncomputable section

open Real

/-- Element `c` of a row. -/
def ent (r : List ℝ) (c : Nat) : ℝ := r.getD c 0

/-- Row `i` of a matrix. -/
def mrow (m : List (List ℝ)) (i : Nat) : List ℝ := m.getD i []

/-- `torch.max(x, dim=2)`, lines 172-173. -/
def rowMax (r : List ℝ) : ℝ := r.foldl max (r.headD 0)

/-- `(x - x_max).exp()`, lines 174-175, 1598-1599. -/
def expRow (r : List ℝ) : List ℝ := r.map fun x => exp (x - rowMax r)

/-- One element of `normalizers`, lines 176-184, 1600-1604, 1632: the logarithm of the inner
product of the two rows, plus `lm_max` and `am_max`. -/
def simpleNorm (tiny : ℝ) (l a : List ℝ) : ℝ :=
  log ((List.zipWith (· * ·) (expRow l) (expRow a)).sum + tiny) + rowMax l + rowMax a

/-- `px` and `py` of `get_rnnt_logprobs` at a pair of rows and a symbol, lines 187-217:
`am[c] + lm[c] - normalizer`. -/
def simpleLog (tiny : ℝ) (l a : List ℝ) (c : Nat) : ℝ := ent a c + ent l c - simpleNorm tiny l a

/-- `torch.logsumexp`. -/
def logsumexp (r : List ℝ) : ℝ := log ((r.map exp).sum)

/-- `logits[c] - logsumexp(logits)`, lines 416-440, 1262-1290, as a probability. -/
def softmaxAt (r : List ℝ) (c : Nat) : ℝ := exp (ent r c - logsumexp r)

/-- `torch.nn.functional.logsigmoid`. -/
def logsigmoid (x : ℝ) : ℝ := -log (1 + exp (-x))

/-- HAT, blank: `logsigmoid(logits[0])`, line 1085, as a probability. -/
def hatBlank (r : List ℝ) : ℝ := exp (logsigmoid (ent r 0))

/-- HAT, other symbols, lines 1089-1117: `logits[c] - logsumexp(logits[1:]) + nb_shift` with
`nb_shift = logp_b - logits[0]`. -/
def hatSymbol (r : List ℝ) (c : Nat) : ℝ :=
  exp (ent r c - logsumexp (r.drop 1) + (logsigmoid (ent r 0) - ent r 0))

/-- The assertions on the shapes and the index checks of gather, lines 159-169, 409-413. -/
def shapesOk (C : Nat) (lm am : List (List ℝ)) (symbols : List Nat) (term : Nat) : Prop :=
  lm.length = symbols.length + 1 ∧ (∀ r ∈ lm, r.length = C) ∧ (∀ r ∈ am, r.length = C) ∧
    (∀ c ∈ symbols, c < C) ∧ term < C

/-- `_validate_st_lengths` (46-62) and the assertions of `mutual_information_recursion`
(mutual_information.py 284-289). -/
def boundsOk (ty : RnntType) (S T Sb Tb : Nat) : Prop :=
  Sb ≤ S ∧ Tb ≤ T ∧ (ty = .regular ∨ Sb ≤ Tb)

/-- The delay penalty, lines 307-322 and the same text at 513-528, 1441-1456, 1798-1813:
`px += ((T - 1) / 2 - t) * delay_penalty`, with the end frame of the boundary for `T`. -/
def delayPx (delay : ℝ) (Tb : Nat) (px : Nat → Nat → ℝ) : Nat → Nat → ℝ :=
  if 0 < delay then fun s t => px s t * exp ((((Tb : ℝ) - 1) / 2 - (t : ℝ)) * delay) else px

/-- The last lines of all the losses: the penalty, then the recursion.  The table starts
uninitialised; C46 says that the values do not matter. -/
def lossOf (ty : RnntType) (Sb Tb : Nat) (delay : ℝ) (px py : Nat → Nat → ℝ) : ℝ :=
  miForward ty.isModified (delayPx delay Tb px) py 0 0 Sb Tb (fun _ _ => 0) Sb Tb

/-- `get_rnnt_logprobs`, lines 65-225: px is `-inf` on frame `T`. -/
def logprobsSimple (tiny : ℝ) (ty : RnntType) (symbols : List Nat) (term tEnd : Nat)
    (lm am : List (List ℝ)) : (Nat → Nat → ℝ) × (Nat → Nat → ℝ) :=
  let px := fun s t => if s < symbols.length ∧ t < am.length then
    exp (simpleLog tiny (mrow lm s) (mrow am t) (symbols.getD s 0)) else 0
  let py := fun s t => if s < lm.length ∧ t < am.length then
    exp (simpleLog tiny (mrow lm s) (mrow am t) term) else 0
  (finishPx ty tEnd px py, py)

open Classical in
/-- `rnnt_loss_simple`, lines 228-338. -/
def lossSimple (tiny : ℝ) (ty : RnntType) (C : Nat) (symbols : List Nat) (term : Nat)
    (boundary : Option (Nat × Nat)) (delay : ℝ) (lm am : List (List ℝ)) : Option ℝ :=
  let b := boundary.getD (symbols.length, am.length)
  if shapesOk C lm am symbols term ∧ boundsOk ty symbols.length am.length b.1 b.2 then
    let p := logprobsSimple tiny ty symbols term b.2 lm am
    some (lossOf ty b.1 b.2 delay p.1 p.2)
  else none

open Classical in
/-- `rnnt_loss`, lines 450-544; `logits[t][s]` is a row of `C` numbers. -/
def lossJoint (ty : RnntType) (C : Nat) (symbols : List Nat) (term : Nat)
    (boundary : Option (Nat × Nat)) (delay : ℝ) (logits : List (List (List ℝ))) : Option ℝ :=
  let b := boundary.getD (symbols.length, logits.length)
  if (∀ fr ∈ logits, fr.length = symbols.length + 1 ∧ ∀ r ∈ fr, r.length = C) ∧
      (∀ c ∈ symbols, c < C) ∧ term < C ∧
      boundsOk ty symbols.length logits.length b.1 b.2 then
    let p := logprobsJoint softmaxAt (fun r => softmaxAt r term) ty symbols b.2 logits
    some (lossOf ty b.1 b.2 delay p.1 p.2)
  else none

open Classical in
/-- `rnnt_loss_pruned`, lines 1350-1468, with and without `use_hat_loss`.  HAT asserts
`termination_symbol == 0` (line 1082), and `T >= S` for the padded lengths (1078-1080) where the
other one looks at the boundary (1261-1262). -/
def lossPruned (hat : Bool) (ty : RnntType) (C : Nat) (symbols : List Nat) (term : Nat)
    (ranges : List (List Int)) (boundary : Option (Nat × Nat)) (delay : ℝ)
    (logits : List (List (List ℝ))) : Option ℝ :=
  let b := boundary.getD (symbols.length, logits.length)
  if (∀ fr ∈ logits, ∀ r ∈ fr, r.length = C) ∧ (∀ c ∈ symbols, c < C) ∧ term < C ∧
      b.1 ≤ symbols.length ∧ b.2 ≤ logits.length ∧
      (if hat then term = 0 ∧ (ty = .regular ∨ symbols.length ≤ logits.length)
        else ty = .regular ∨ b.1 ≤ b.2) then
    ((if hat then logprobsPruned hatSymbol hatBlank ty symbols term b.2 logits ranges
      else logprobsPruned softmaxAt (fun r => softmaxAt r term) ty symbols term b.2 logits
        ranges)).map fun p => lossOf ty b.1 b.2 delay p.1 p.2
  else none

/-! ## The smoothed loss -/

/-- Floating-point numbers with infinities and NaN (the arithmetic of finite ones is exact). -/
inductive Ext
  | fin (x : ℝ)
  | negInf
  | posInf
  | nan

/-- Multiplication by a scale, IEEE 754. -/
def Ext.scale : Ext → ℝ → Ext
  | .fin x, k => .fin (x * k)
  | .negInf, k => if k = 0 then .nan else if 0 < k then .negInf else .posInf
  | .posInf, k => if k = 0 then .nan else if 0 < k then .posInf else .negInf
  | .nan, _ => .nan

/-- Addition, IEEE 754. -/
def Ext.add : Ext → Ext → Ext
  | .fin x, .fin y => .fin (x + y)
  | .fin _, e => e
  | e, .fin _ => e
  | .negInf, .negInf => .negInf
  | .posInf, .posInf => .posInf
  | _, _ => .nan

/-- `exp`, where the result is a finite number. -/
def Ext.prob : Ext → Option ℝ
  | .fin x => some (exp x)
  | .negInf => some 0
  | _ => none

/-- `lmonly_normalizers` before the logarithm, lines 1607-1609. -/
def lmSum (l : List ℝ) : ℝ := (expRow l).sum

/-- `unigram_lm` before the logarithm, lines 1610-1613: the mean of the LM distributions over all
rows of the batch, plus `tiny`. -/
def unigram (tiny : ℝ) (lms : List (List ℝ)) (c : Nat) : ℝ :=
  (lms.map fun l => exp (ent l c - rowMax l) / lmSum l).sum / (lms.length : ℝ) + tiny

/-- `px_lmonly`, `py_lmonly`, lines 1624-1626, 1669, 1679. -/
def lmOnlyLog (l : List ℝ) (c : Nat) : ℝ := ent l c - (log (lmSum l) + rowMax l)

/-- `amonly_normalizers`, lines 1614-1621. -/
def amOnlyNorm (u : Nat → ℝ) (a : List ℝ) : ℝ :=
  log (((List.range a.length).map fun c => exp (ent a c - rowMax a) * u c).sum) + rowMax a

/-- `px_amonly`, `py_amonly`, lines 1665-1668, 1677-1678. -/
def amOnlyLog (u : Nat → ℝ) (a : List ℝ) (c : Nat) : ℝ := ent a c + log (u c) - amOnlyNorm u a

/-- Lines 1681-1688: zero scales become `1e-20`. -/
def fixScale (x : ℝ) : ℝ := if x = 0 then 1 / 10 ^ 20 else x

/-- Lines 1690-1699, one element. -/
def interp (ls as : ℝ) (both lmOnly amOnly : Ext) : Ext :=
  ((both.scale (1 - ls - as)).add (lmOnly.scale (fixScale ls))).add (amOnly.scale (fixScale as))

/-- `px_interp` / `py_interp` at a pair of rows and a symbol. -/
def smoothedLog (tiny : ℝ) (u : Nat → ℝ) (ls as : ℝ) (l a : List ℝ) (c : Nat) : Ext :=
  interp ls as (.fin (simpleLog tiny l a c)) (.fin (lmOnlyLog l c)) (.fin (amOnlyLog u a c))

/-- `px_interp` on frame `T` of the regular type: `px_am` is `-inf` there (lines 1642-1653), and
the normalizers are subtracted on the other frames only. -/
def smoothedLast (ls as : ℝ) (l : List ℝ) (c : Nat) : Ext :=
  interp ls as .negInf (.fin (lmOnlyLog l c)) .negInf

/-- `get_rnnt_logprobs_smoothed`, lines 1471-1706.  `none`: px has a NaN or an infinity on frame
`T` and nothing overwrites it, which is so if there is no boundary (lines 38-39, 1701-1702).  With a
boundary frame `end_frame` is overwritten and later frames are not used. -/
def logprobsSmoothed (tiny : ℝ) (ty : RnntType) (symbols : List Nat) (term : Nat)
    (boundary : Option (Nat × Nat)) (ls as : ℝ) (lms lm am : List (List ℝ)) :
    Option ((Nat → Nat → ℝ) × (Nat → Nat → ℝ)) :=
  let u := unigram tiny lms
  let px := fun s t => if s < symbols.length ∧ t < am.length then
    ((smoothedLog tiny u ls as (mrow lm s) (mrow am t) (symbols.getD s 0)).prob).getD 0 else 0
  let py := fun s t => if s < lm.length ∧ t < am.length then
    ((smoothedLog tiny u ls as (mrow lm s) (mrow am t) term).prob).getD 0 else 0
  let out := (finishPx ty ((boundary.getD (0, am.length)).2) px py, py)
  match ty, boundary with
  | .regular, none =>
    ((List.range symbols.length).mapM fun s =>
      (smoothedLast ls as (mrow lm s) (symbols.getD s 0)).prob).map fun _ => out
  | _, _ => some out

open Classical in
/-- `rnnt_loss_smoothed`, lines 1709-1840.  `lms` are all rows of `lm` in the batch. -/
def lossSmoothed (tiny : ℝ) (ty : RnntType) (C : Nat) (symbols : List Nat) (term : Nat)
    (boundary : Option (Nat × Nat)) (delay ls as : ℝ) (lms lm am : List (List ℝ)) : Option ℝ :=
  let b := boundary.getD (symbols.length, am.length)
  if shapesOk C lm am symbols term ∧ boundsOk ty symbols.length am.length b.1 b.2 then
    (logprobsSmoothed tiny ty symbols term boundary ls as lms lm am).map fun p =>
      lossOf ty b.1 b.2 delay p.1 p.2
  else none

end

end Verif.Rnnt
