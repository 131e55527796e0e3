import Verif.Fsa.Dense.Model
import Verif.Fsa.Scores.Model
import Verif.Ragged.ReduceLemmas

/-!
# `DenseFsaVec` and `ctc_loss` (k2/python/k2/dense_fsa_vec.py, k2/python/k2/ctc_loss.py)

`none` stands for a failed assertion or check, an access outside an array or a division by zero.  Scores are
real numbers or minus infinity; there is no rounding.
-/

namespace Verif.Fsa.Loss
open Verif.Ragged Verif.Util Verif.Fsa.Sco Verif.Fsa.Dn

/-! ## `DenseFsaVec` -/

/-- One row of `supervision_segments`: sequence, start frame, duration. -/
structure Seg where
  seq : Int
  start : Int
  dur : Int
  deriving DecidableEq

section
variable {S : Type} [Zero S] [Bot S]

/-- The assertions on a segment and `end_frame`, dense_fsa_vec.py 98-106: the sequence, the start and the
end. -/
def segRange (N T allow : Nat) (s : Seg) : Option (Nat × Nat × Nat) :=
  if 0 ≤ s.seq ∧ s.seq < N ∧ 0 ≤ s.start ∧ s.start < T ∧ 0 ≤ s.dur ∧ s.start + s.dur ≤ T + allow then
    some (s.seq.toNat, s.start.toNat, (min (s.start + s.dur) T).toNat)
  else none

/-- The loop over the segments, 96-115: `cur`, `indexes` and `last_frame_indexes`.  The extra row has the
placeholder index 0. -/
def segLoop (N T allow : Nat) : List Seg → Nat × List Nat × List Nat → Option (Nat × List Nat × List Nat)
  | [], st => some st
  | s :: ss, (cur, idx, last) => do
    let (q, b, e) ← segRange N T allow s
    segLoop N T allow ss (cur + (e - b) + 1, idx ++ (List.range' b (e - b)).map (· + q * T) ++ [0],
      last ++ [cur + (e - b)])

/-- Assigning the row `x` at each of the positions, 132-133. -/
def setRows {α : Type} (x : α) : List Nat → List α → Option (List α)
  | [], rows => some rows
  | i :: is, rows => if i < rows.length then setRows x is (rows.set i x) else none

/-- The constructor of `DenseFsaVec`, dense_fsa_vec.py 42-145, for `log_probs` of shape `(N, T, C)`: the
dense FSAs and the durations.  `torch.cat` fails on an empty list. -/
def denseFsaVec (T C : Nat) (lp : List (List (List S))) (segs : List Seg) (allow : Nat) :
    Option (Dense S × List Nat) := do
  let (_, idx, last) ← segLoop lp.length T allow segs (0, [], [])
  if idx = [] then none
  else do
    let rows ← idx.mapM (fun i => lp.flatten[i]?)
    let rows' ← setRows (0 :: List.replicate C ⊥) last (rows.map (fun row => ⊥ :: row))
    let splits := 0 :: last.map (· + 1)
    some (⟨splits, C + 1, C + 1, rows'.flatten⟩, List.zipWith (fun b a => b - a - 1) splits.tail splits)

end

/-! ## The lattice -/

/-- `frame_idx` in `_IntersectDenseFunction`, k2/python/k2/autograd.py 601-614. -/
def frameIdx {S : Type} (b : Dense S) (mb : List Nat) : Option (List Nat) := do
  let total ← b.splits.getLast?
  let ids ← rowSplitsToRowIds b.splits total
  mb.mapM (fun i => do
    let r ← ids[i / b.cols]?
    let s ← b.splits[r]?
    some (i / b.cols - s))

/-- The attributes of the decoding graph that the delay penalty looks at. -/
structure Attr where
  aux : Option (List Int)
  repeats : Option (List Bool)

/-- The mask, ctc_loss.py 119-137: which arcs of the lattice get no penalty.  The attributes of the lattice
are those of the graph at `arc_map_a` (autograd.py 580-590). -/
def maskOf {S : Type} (attr : Attr) (v : FsaVec S) (ma : List Nat) : Option (List Bool) :=
  match attr.repeats with
  | some rep => do
    let rs ← ma.mapM (fun i => rep[i]?)
    some (List.zipWith (fun a r => a.label == 0 || a.label == -1 || r) v.arcs rs)
  | none => do
    let aux ← attr.aux
    let xs ← ma.mapM (fun i => aux[i]?)
    some (xs.map (fun x => x == 0 || x == -1))

/-- The penalty of one arc of FSA `r`, 99-108 and 139: minus the penalty times the distance of the frame from
the middle of the sequence. -/
def penalty (lam : ℝ) (dur : List Nat) (r frame : Nat) (masked : Bool) : Option ℝ := do
  let d ← dur[r]?
  some (if masked then 0 else -lam * ((frame : ℝ) - ((d / 2 : Nat) : ℝ)))

/-- The scores after `lattice.scores += penalty`, 94-140. -/
noncomputable def penalize (lam : ℝ) (dur : List Nat) (attr : Attr) (b : Dense (WithBot ℝ))
    (res : FsaVec (WithBot ℝ) × List Nat × List Nat) : Option (FsaVec (WithBot ℝ)) :=
  if 0 < lam then do
    let frames ← frameIdx b res.2.2
    if dur.length ≠ res.1.sp1.length - 1 then none
    else do
      let mask ← maskOf attr res.1 res.2.1
      let arcs ← (List.range res.1.arcs.length).mapM (fun i => do
        let a ← res.1.arcs[i]?
        let g ← res.1.id2[i]?
        let r ← res.1.id1[g]?
        let f ← frames[i]?
        let m ← mask[i]?
        let p ← penalty lam dur r f m
        some { a with score := a.score + (p : WithBot ℝ) })
      some { res.1 with arcs := arcs }
  else some res.1

/-! ## The loss -/

/-- `-1 * tot_scores`, 142-146: the total score is the logarithm of `x`. -/
noncomputable def negLog (x : ℝ) : WithTop ℝ := if x = 0 then ⊤ else ((-Real.log x : ℝ) : WithTop ℝ)

/-- `get_tot_scores(log_semiring=True)` (k2/python/k2/fsa.py 560-640): the total scores, as probabilities. -/
noncomputable def totals (lp0 : Nat) (v : FsaVec (WithBot ℝ)) : Option (List ℝ) := by
  classical exact do
    let fwd ← forwardScores lp0 (fun (x : ℝ) w => x * expB w) (· + ·) 0 1 v
    totScores v 0 fwd

/-- `reduction`. -/
inductive Reduction
  | none
  | sum
  | mean

/-- Dividing by a length. -/
noncomputable def divBy (x : WithTop ℝ) (n : Nat) : Option (WithTop ℝ) :=
  if n = 0 then .none else some (x.map (· / n))

/-- The reductions, 148-156.  A scalar is a list with one element; the mean of no numbers is not a number. -/
noncomputable def reduce (red : Reduction) (lengths : Option (List Nat)) (l : List (WithTop ℝ)) :
    Option (List (WithTop ℝ)) :=
  match red with
  | .none => some l
  | .sum => some [l.sum]
  | .mean => do
    let ns ← lengths
    if ns.length ≠ l.length then Option.none
    else do
      let xs ← (l.zip ns).mapM (fun x => divBy x.1 x.2)
      let y ← divBy xs.sum xs.length
      some [y]

/-- How `intersect_dense` is run: the device and the internal parameters of C58. -/
structure Run where
  dev : Dev
  debug : Bool
  fuel : Nat
  maxSize : Nat
  dec : WithBot ℝ → Nat → Nat → WithBot ℝ
  maxStates : Nat
  maxArcs : Nat
  lp0 : Nat

/-- `k2.ctc_loss`, ctc_loss.py 66-156: `graphs` is the decoding graph, `attr` its attributes, `b` and `dur`
the dense FSAs with their durations and `beam` the output beam.  The map from graphs to sequences is the
identity (k2/python/csrc/torch/fsa_algo.cu 244). -/
noncomputable def ctcLoss (run : Run) (graphs : FsaVec (WithBot ℝ)) (attr : Attr) (b : Dense (WithBot ℝ))
    (dur : List Nat) (beam lam : ℝ) (red : Reduction) (lengths : Option (List Nat)) :
    Option (List (WithTop ℝ)) := do
  let res ← intersectDense run.dev run.debug run.fuel run.maxSize run.dec graphs b
    (List.range (graphs.sp1.length - 1)) ((-beam : ℝ) : WithBot ℝ) run.maxStates run.maxArcs
  let v ← penalize lam dur attr b res
  let tot ← totals run.lp0 v
  reduce red lengths (tot.map negLog)

end Verif.Fsa.Loss
