import Verif.Rnnt.MutualInfoModel

/-!
# Model of `do_rnnt_pruning`, `get_rnnt_logprobs_pruned`, `get_hat_logprobs_pruned`,
# `get_rnnt_logprobs_joint`

k2/python/k2/rnnt_loss.py 25-43, 341-447, 913-990, 1070-1177, 1255-1348, one element of the
batch.  As in `MutualInfoModel`, numbers are probabilities: `-inf` is `0`, sums of logs are
products.  `V` is the type of one vector of logits (the last axis, of size C).  The code turns
such a vector into log-probabilities by a formula that depends on nothing else:
`fx v c` is the probability of the symbol `c` and `fy v` that of the terminating symbol.
(RNN-T: `logits[c] - logsumexp(logits)` and the same at `termination_symbol`, lines 1262,
1290, 1322-1323.  HAT: lines 1085-1120.)  The theorems hold for all `fx`, `fy`.
A failing `torch.gather` or a negative size in `torch.full` is `none`.
-/

namespace Verif.Rnnt

inductive RnntType | regular | modified | constrained
  deriving DecidableEq, Repr

/-- The recursion is the modified one iff px has as many frames as py
(mutual_information_cpu.cu: `modified = (px.size(2) == py.size(2))`). -/
def RnntType.isModified : RnntType → Bool
  | .regular => false
  | _ => true

variable {W V A L : Type}

/-- `_roll_by_shifts`, rnnt_loss.py 957-990, one row: `index = (arange(n) - shift) % n`, then
gather.  `%` of torch is non-negative for a positive modulus, like `Int.emod`. -/
def rollBy [Zero W] (src : List W) (shift : Int) : List W :=
  (List.range src.length).map fun (j : Nat) =>
    src.getD (((j : Int) - shift) % (src.length : Int)).toNat 0

/-- `torch.cat((row, torch.full(S + 1 - s_range, -inf)))`, lines 1293-1305, 1326-1338. -/
def padRow [Zero W] (S : Nat) (row : List W) : Option (List W) :=
  if row.length ≤ S + 1 then some (row ++ List.replicate (S + 1 - row.length) 0) else none

/-- `torch.gather` along an axis of a one-dimensional tensor. -/
def gather {α : Type} (src : List α) (index : List Int) : Option (List α) :=
  index.mapM fun i => if i < 0 then none else src[i.toNat]?

/-- `do_rnnt_pruning`, rnnt_loss.py 913-954: frame `t` gets `am[t]` repeated and `lm` gathered
at the range of `t`. -/
def doPruning (am : List A) (lm : List L) (ranges : List (List Int)) :
    Option (List (List (A × L))) :=
  if am.length = ranges.length then
    (am.zip ranges).mapM fun p => (gather lm p.2).map (·.map fun l => (p.1, l))
  else none

/-- One frame of px before the permutation, lines 1274-1308: gather symbols, take the
probability, pad, roll, drop the last column. `symT` is `symbols_with_terminal`. -/
def pxFrame [Zero W] (fx : V → Nat → W) (S : Nat) (symT : List Nat) (logits : List V)
    (rng : List Int) : Option (List W) :=
  match gather symT rng, rng with
  | some cs, start :: _ =>
    (padRow S (List.zipWith fx logits cs)).map fun row => (rollBy row start).take S
  | _, _ => none

/-- One frame of py before the permutation, lines 1322-1341. -/
def pyFrame [Zero W] (fy : V → W) (S : Nat) (logits : List V) (rng : List Int) :
    Option (List W) :=
  match rng with
  | start :: _ => (padRow S (logits.map fy)).map fun row => rollBy row start
  | [] => none

/-- A list of frames as a function of symbol and frame (`permute((0, 2, 1))`); outside of the
tensor the function is 0, which for frame `T` of px is line 1312-1320. -/
def table [Zero W] (frames : List (List W)) (s t : Nat) : W := (frames.getD t []).getD s 0

/-- Lines 1345-1348 with `fix_for_boundary` (25-43): regular sets px to `-inf` on frame
`t_end`; constrained adds the blank of the next context. -/
def finishPx [Zero W] [Mul W] (ty : RnntType) (tEnd : Nat) (px py : Nat → Nat → W) :
    Nat → Nat → W :=
  match ty with
  | .regular => fun s t => if t = tEnd then 0 else px s t
  | .modified => px
  | .constrained => fun s t => px s t * py (s + 1) t

/-- `get_rnnt_logprobs_pruned` / `get_hat_logprobs_pruned`: (px, py). -/
def logprobsPruned [Zero W] [Mul W] (fx : V → Nat → W) (fy : V → W) (ty : RnntType)
    (symbols : List Nat) (term : Nat) (tEnd : Nat) (logits : List (List V))
    (ranges : List (List Int)) : Option ((Nat → Nat → W) × (Nat → Nat → W)) :=
  if logits.map (·.length) = ranges.map (·.length) then
    match (logits.zip ranges).mapM
        (fun p => pxFrame fx symbols.length (symbols ++ [term]) p.1 p.2),
      (logits.zip ranges).mapM (fun p => pyFrame fy symbols.length p.1 p.2) with
    | some px, some py => some (finishPx ty tEnd (table px) (table py), table py)
    | _, _ => none
  else none

/-- `get_rnnt_logprobs_joint`, rnnt_loss.py 341-447: `logits[t][s]` for all positions. -/
def logprobsJoint [Zero W] [Mul W] (fx : V → Nat → W) (fy : V → W) (ty : RnntType)
    (symbols : List Nat) (tEnd : Nat) (logits : List (List V)) :
    (Nat → Nat → W) × (Nat → Nat → W) :=
  let px := table (logits.map fun fr => List.zipWith fx (fr.take symbols.length) symbols)
  let py := table (logits.map fun fr => fr.map fy)
  (finishPx ty tEnd px py, py)

end Verif.Rnnt
