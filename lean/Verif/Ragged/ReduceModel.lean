import Verif.Ragged.Layer
import Mathlib.Analysis.SpecialFunctions.Log.Basic
import Mathlib.Order.WithBot

/-!
# Operations on the rows of the last axis of a ragged tensor

Model of `SegmentedReduce`, `AddPerSublist`, `NormalizePerSublist` (k2/csrc/ragged_ops_inl.h 46-163),
`ArgMaxPerSublist` (599-712), `SegmentedExclusiveSum` (715-780), of the reductions built on them
(k2/csrc/ragged_ops.h 69-189), of `LogAdd` (k2/csrc/utils.h 516-563) and of the gradients of
`SumFunction`, `LogSumExpFunction` and `NormalizeFunction` (k2/python/csrc/torch/v2/autograd).

A tensor is given by the row_splits and the row_ids of its last axis and by its values.  `none` stands
for a failed check or for a read outside an array.  Floating-point numbers are elements of an ordered
set, of a field, or of `ℝ` with `-inf`; there is no rounding.  The gradients of the outputs are read
with a stride, which PyTorch may set to zero (see the comment in sum.h 69-71).
-/

namespace Verif.Ragged
variable {α σ β K : Type}

/-! ## Reductions -/

/-- The inner loop of the CPU branch, ragged_ops_inl.h 69-72 and 651-657: `n` elements from position
`j` on, the last argument is the state (`val`, or `val` and `idx`). -/
def scanRow (step : Nat → α → σ → σ) (vals : List α) : Nat → Nat → σ → Option σ
  | _, 0, s => some s
  | j, n + 1, s => vals[j]?.bind (fun elem => scanRow step vals (j + 1) n (step j elem s))

/-- The outer loop of the CPU branch, ragged_ops_inl.h 65-74 and 645-659: `j` is carried over from row
to row, the list holds `row_splits[i + 1], ...`. -/
def rowsLoop (step : Nat → α → σ → σ) (init : σ) (vals : List α) : Nat → List Nat → Option (List σ)
  | _, [] => some []
  | j, rowEnd :: rest =>
    (scanRow step vals j (rowEnd - j) init).bind (fun s =>
      (rowsLoop step init vals (max j rowEnd) rest).map (fun out => s :: out))

/-- `SegmentedReduce` on the CPU, ragged_ops_inl.h 46-74. -/
def segmentedReduce (op : α → α → α) (init : α) (sp : List Nat) (vals : List α) : Option (List α) :=
  sp.head?.bind (fun j => rowsLoop (fun _ elem val => op elem val) init vals j sp.tail)

/-- What an evaluation of `op` on the elements of a list, in order, can return: `op` is applied to the
results of two parts of the list. -/
inductive Eval (op : α → α → α) : List α → α → Prop
  | leaf (x : α) : Eval op [x] x
  | node {l m : List α} {x y : α} : Eval op l x → Eval op m y → Eval op (l ++ m) (op x y)

/-- `cub::DeviceSegmentedReduce::Reduce` with `op` and an initial value, for one segment,
ragged_ops_inl.h 84-88.  The order in which the elements are combined is left open. -/
def GpuRow (op : α → α → α) (init : α) (row : List α) (v : α) : Prop :=
  ∃ l : List α, l.Perm (init :: row) ∧ Eval op l v

/-- `SegmentedReduce` on the GPU, ragged_ops_inl.h 75-90: `out` is a possible result. -/
def GpuReduce (op : α → α → α) (init : α) (sp : List Nat) (vals : List α) (out : List α) : Prop :=
  out.length + 1 = sp.length ∧ ∀ r lo hi : Nat, sp[r]? = some lo → sp[r + 1]? = some hi →
    ∃ v : α, out[r]? = some v ∧ GpuRow op init ((vals.drop lo).take (hi - lo)) v

/-- `MaxOp`, k2/csrc/utils.h 439-445. -/
def maxOp [LinearOrder K] (a b : K) : K := if b < a then a else b

/-- `MinOp`, k2/csrc/utils.h 447-453. -/
def minOp [LinearOrder K] (a b : K) : K := if b < a then b else a

/-- `LogAdd`, k2/csrc/utils.h 522-542 and 545-563.  `⊥` is `-inf`; `cut` is `K2_MIN_LOG_DIFF_FLOAT` or
`K2_MIN_LOG_DIFF_DOUBLE`, `⊥` for a version without that shortcut.  If one argument is `-inf` then
`diff` is `-inf`, if both are then it is NaN; both times the larger argument is returned. -/
noncomputable def logAdd (cut : WithBot ℝ) : WithBot ℝ → WithBot ℝ → WithBot ℝ
  | ⊥, y => y
  | x, ⊥ => x
  | (x : ℝ), (y : ℝ) =>
    let diff := if x < y then x - y else y - x
    let larger := if x < y then y else x
    if cut ≤ (diff : WithBot ℝ) then ((larger + Real.log (1 + Real.exp diff) : ℝ) : WithBot ℝ)
    else (larger : WithBot ℝ)

/-- `PairMaxOp`, ragged_ops_inl.h 598-607. -/
def pairMax [LinearOrder K] (a b : K × Int) : K × Int :=
  if b.1 < a.1 ∨ (a.1 = b.1 ∧ b.2 < a.2) then a else b

/-- One step of `ArgMaxPerSublist` on the CPU, ragged_ops_inl.h 652-656. -/
def argMaxStep [LinearOrder K] (j : Nat) (elem : K) (s : K × Int) : K × Int :=
  if s.1 ≤ elem then (elem, (j : Int)) else s

/-- `ArgMaxPerSublist` on the CPU, ragged_ops_inl.h 627-660. -/
def argMaxPerSublist [LinearOrder K] (init : K) (sp : List Nat) (vals : List K) : Option (List Int) :=
  (sp.head?.bind (fun j => rowsLoop argMaxStep (init, -1) vals j sp.tail)).map (List.map Prod.snd)

/-- `ArgMaxPerSublist` on the GPU, ragged_ops_inl.h 661-681: the pairs of `PairInputIterator` (547-575)
are the values with their positions, `PairOutputIterator` (577-596) keeps the second component. -/
def GpuArgMax [LinearOrder K] (init : K) (sp : List Nat) (vals : List K) (out : List Int) : Prop :=
  ∃ pairs : List (K × Int), GpuReduce pairMax (init, -1) sp
    (vals.zipIdx.map (fun x => (x.1, (x.2 : Int)))) pairs ∧ out = pairs.map Prod.snd

/-! ## Exclusive sums -/

/-- One row of `SegmentedExclusiveSum` on the CPU, ragged_ops_inl.h 763-775: the values written from
position `n` on, `k` of them. -/
def exclusiveRow [Add K] (vals : List K) : Nat → Nat → K → Option (List K)
  | _, 0, _ => some []
  | n, k + 1, sum => vals[n]?.bind (fun prev =>
      (exclusiveRow vals (n + 1) k (sum + prev)).map (fun out => sum :: out))

/-- `SegmentedExclusiveSum` on the CPU, ragged_ops_inl.h 757-776.  The rows follow each other in the
output. -/
def exclusiveSumRows [Add K] [Zero K] (sp : List Nat) (vals : List K) : Option (List K) :=
  ((List.range (sp.length - 1)).mapM (fun i =>
    sp[i]?.bind (fun rowBegin => sp[i + 1]?.bind (fun rowEnd =>
      exclusiveRow vals rowBegin (rowEnd - rowBegin) 0)))).map List.flatten

/-- `ExclusiveSum` of an array, k2/csrc/utils_inl.h 30-44. -/
def exclusiveSum [Add K] (sum : K) : List K → List K
  | [] => []
  | x :: l => sum :: exclusiveSum (sum + x) l

/-- `SegmentedExclusiveSum` on the GPU for integers, ragged_ops_inl.h 745-755. -/
def exclusiveSumInt [Add K] [Sub K] [Zero K] (sp ids : List Nat) (vals : List K) : Option (List K) :=
  (List.range vals.length).mapM (fun idx01 =>
    ids[idx01]?.bind (fun idx0 => sp[idx0]?.bind (fun idx0x =>
      (exclusiveSum 0 vals)[idx01]?.bind (fun a =>
        (exclusiveSum 0 vals)[idx0x]?.map (fun b => a - b)))))

/-- The flags of `SegmentedExclusiveSum` on the GPU for floating-point numbers, ragged_ops_inl.h
728-741; a flag that is not set stays uninitialized (`none`). -/
def headFlags (sp ids : List Nat) (dim : Nat) : Option (List Bool) :=
  (List.range dim).mapM (fun idx01 =>
    ids[idx01]?.bind (fun idx0 => sp[idx0]?.bind (fun idx0x => sp[idx0 + 1]?.bind (fun idx0xNext =>
      if idx0x < idx0xNext then some (if idx01 = idx0x then !(idx01 == 0) else false) else none))))

/-- `SegmentedExclusiveSum` with flags, k2/csrc/cudpp/cudpp.cu 262-273, by its documented effect (cudpp.h):
a flag starts the sum again. -/
def flaggedSum [Add K] [Zero K] (sum : K) : List (K × Bool) → List K
  | [] => []
  | (x, f) :: l => (if f then 0 else sum) :: flaggedSum ((if f then 0 else sum) + x) l

/-- `SegmentedExclusiveSum` on the GPU for floating-point numbers, ragged_ops_inl.h 722-743. -/
def exclusiveSumFloat [Add K] [Zero K] (sp ids : List Nat) (vals : List K) : Option (List K) :=
  (headFlags sp ids vals.length).map (fun flags => flaggedSum 0 (vals.zip flags))

/-! ## Adding to rows, normalizing -/

/-- `AddPerSublist`, ragged_ops_inl.h 93-116. -/
def addPerSublist [Add K] [Mul K] (sp ids : List Nat) (vals value : List K) (scale : K) : Option (List K) :=
  if value.length + 1 ≠ sp.length then none else
  (List.range vals.length).mapM (fun i =>
    vals[i]?.bind (fun x => ids[i]?.bind (fun row => value[row]?.map (fun v => x + v * scale))))

/-- `a - b` of floating-point numbers: `-inf - (-inf)` and `x - (-inf)` are not numbers. -/
noncomputable def subInf : WithBot ℝ → WithBot ℝ → Option (WithBot ℝ)
  | _, ⊥ => none
  | ⊥, (_ : ℝ) => some ⊥
  | (x : ℝ), (y : ℝ) => some ((x - y : ℝ) : WithBot ℝ)

/-- `NormalizePerSublist` with `use_log`, ragged_ops_inl.h 131-132 and 145-152; `sums` is the output of
`LogSumPerSublist`. -/
noncomputable def normalizeLogWith (ids : List Nat) (vals sums : List (WithBot ℝ)) : Option (List (WithBot ℝ)) :=
  (List.range vals.length).mapM (fun i =>
    vals[i]?.bind (fun x => ids[i]?.bind (fun row => sums[row]?.bind (fun normalizer => subInf x normalizer))))

/-- `NormalizePerSublist` with `use_log` on the CPU. -/
noncomputable def normalizeLog (cut : WithBot ℝ) (sp ids : List Nat) (vals : List (WithBot ℝ)) :
    Option (List (WithBot ℝ)) :=
  (segmentedReduce (logAdd cut) ⊥ sp vals).bind (normalizeLogWith ids vals)

/-- `NormalizePerSublist` without `use_log`, ragged_ops_inl.h 133-135 and 153-161; `eps` is
`std::numeric_limits<T>::epsilon()`.  A division by zero is `none`. -/
def normalizeSum [Field K] [DecidableEq K] (eps : K) (sp ids : List Nat) (vals : List K) : Option (List K) :=
  (segmentedReduce (· + ·) 0 sp vals).bind (fun sums =>
    (List.range vals.length).mapM (fun i =>
      vals[i]?.bind (fun x => ids[i]?.bind (fun row => sums[row]?.bind (fun v =>
        if v + eps = 0 then none else some (x / (v + eps)))))))

/-! ## Gradients -/

/-- Backward of `SumFunction`, k2/python/csrc/torch/v2/autograd/sum.h 62-95. -/
def sumGrad (stride : Nat) (ids : List Nat) (grad : List K) : Option (List K) :=
  (List.range ids.length).mapM (fun i => ids[i]?.bind (fun row => grad[row * stride]?))

/-- Backward of `LogSumExpFunction`, k2/python/csrc/torch/v2/autograd/logsumexp.h 68-120; finite values
only. -/
noncomputable def logSumGrad (stride : Nat) (ids : List Nat) (vals sums : List ℝ) (grad : List ℝ) :
    Option (List ℝ) :=
  (List.range vals.length).mapM (fun i => ids[i]?.bind (fun row =>
    grad[row * stride]?.bind (fun g => vals[i]?.bind (fun x => sums[row]?.map (fun s =>
      g * Real.exp (x - s))))))

/-- The sums of the gradients in the backward of `NormalizeFunction`,
k2/python/csrc/torch/v2/autograd/normalize.h 92-112. -/
def gradSums (stride : Nat) (sp : List Nat) (grad : List ℝ) (n : Nat) : Option (List ℝ) :=
  if stride ≠ 0 then
    ((List.range n).mapM (fun i => grad[i * stride]?)).bind (segmentedReduce (· + ·) 0 sp)
  else
    (List.range (sp.length - 1)).mapM (fun r => sp[r]?.bind (fun (b : Nat) => sp[r + 1]?.bind (fun (e : Nat) =>
      grad[0]?.map (fun g => ((e - b : Nat) : ℝ) * g))))

/-- Backward of `NormalizeFunction`, k2/python/csrc/torch/v2/autograd/normalize.h 68-131; `out` is the
saved output, finite values only. -/
noncomputable def normalizeGrad (stride : Nat) (sp ids : List Nat) (out grad : List ℝ) : Option (List ℝ) :=
  (gradSums stride sp grad ids.length).bind (fun sums =>
    (List.range ids.length).mapM (fun i => ids[i]?.bind (fun row => sums[row]?.bind (fun scale =>
      grad[i * stride]?.bind (fun g => out[i]?.map (fun o => g - Real.exp o * scale))))))

end Verif.Ragged
