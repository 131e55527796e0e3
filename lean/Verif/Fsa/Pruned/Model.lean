import Verif.Fsa.Dense.Model
import Mathlib.Algebra.Field.Defs
import Mathlib.Algebra.Order.Monoid.WithTop

/-!
# `IntersectDensePruned` (k2/csrc/intersect_dense_pruned.cu)

Scores are elements of an ordered field `K` or minus infinity (`WithBot K`); rounding, NaN and plus
infinity are not modelled.  `none` stands for a failed check (also of the debug mode) or an access outside
an array.  The ragged tensors of a frame, [sequence][state] and [sequence][state][arc], are nested lists;
the arcs of a frame are numbered through where the code uses these numbers, and states and arcs of the
decoding graphs keep their numbers in the whole vector.  The forward pass and the pruning of the second
thread are run one after the other here; `Schedule` has the interleavings.  Online decoding is
in `Fsa/Online`.  Numbers of type `int32_t` do not overflow.
-/

namespace Verif.Fsa.Dp
open Verif.Ragged Verif.Util Verif.Fsa.Dn

/-- `StateInfo`, k2/csrc/intersect_dense_pruned.h 31-53. -/
structure St (S : Type) where
  st : Nat
  fwd : S
  bwd : S
  deriving DecidableEq

/-- `ArcInfo`, intersect_dense_pruned.h 55-76: `dst` is the union. -/
structure Ai (S : Type) where
  arc : Nat
  ll : S
  dst : Int
  fin : S
  deriving DecidableEq

/-- `FrameInfo`, intersect_dense_pruned.h 96-116. -/
structure Frame (S : Type) where
  states : List (List (St S))
  arcs : List (List (List (Ai S)))
  deriving DecidableEq

/-- The arguments that stay the same. -/
structure Args (K : Type) where
  v : FsaVec (WithBot K)
  b : Dense (WithBot K)
  searchBeam : K
  outputBeam : K
  minActive : Nat
  maxActive : Nat
  allowPartial : Bool

section
variable {K : Type} [Field K] [LinearOrder K]

local notation "S" => WithBot K

/-- `num_seqs`: the number of sequences of `b_fsas`. -/
def Args.seqs (p : Args K) : Nat := p.b.splits.length - 1

/-- `a_fsas.Dim0()`. -/
def Args.fsas (p : Args K) : Nat := p.v.sp1.length - 1

/-- `a_fsas_stride_`, lines 110-118. -/
def Args.stride (p : Args K) : Nat := if p.fsas = 1 then 0 else 1

/-- `state_map_fsa_stride_`, lines 110-118: `TotSize(1)` is the number of states. -/
def Args.keyStride (p : Args K) : Nat := if p.fsas = 1 then p.v.sp2.length - 1 else 0

/-- The checks of the constructor and of `Intersect`, lines 96-101, 117 and 162. -/
def Args.ok (p : Args K) : Prop :=
  0 < p.searchBeam ∧ 0 < p.outputBeam ∧ p.minActive < p.maxActive ∧
    (p.fsas = p.seqs ∨ p.fsas = 1) ∧ 1 ≤ p.seqs

instance (p : Args K) : Decidable p.ok := by unfold Args.ok; infer_instance

/-- The number of frames of a sequence, `final_t`. -/
def Args.frames (p : Args K) (i : Nat) : Option Nat := do
  let x ← p.b.splits[i]?
  let y ← p.b.splits[i + 1]?
  some (y - x)

/-- `InitialFrameInfo`, lines 434-471, with `GetStartStates` (k2/csrc/fsa_utils.cu 2045-2077): the start
state of each FSA that has a state. -/
def initialFrame (p : Args K) : Option (List (List (St S))) :=
  (List.range p.seqs).mapM (fun i => do
    let x ← p.v.sp1[i * p.stride]?
    let y ← p.v.sp1[i * p.stride + 1]?
    some (if x < y then [⟨x, 0, ⊥⟩] else []))

/-! ## Forward -/

/-- `set_has_non_inf_arc`, lines 840-857: an arc of an active state has label -1, on the last frame. -/
def hasFinalArc (p : Args K) (t i : Nat) (states : List (St S)) : Option Bool := do
  let n ← p.frames i
  let rows ← states.mapM (fun s => do
    let arcs ← rowElems p.v.sp2 s.st
    arcs.mapM (fun j => p.v.arcs[j]?))
  some (decide (t + 1 = n) && rows.flatten.any (fun a => a.label = -1))

/-- `ai_lambda`, lines 860-901, for arc `j` of state `s` of sequence `i`; `part` tells whether
the last frame makes all arcs final. -/
def arcInfo (p : Args K) (t i : Nat) (part : Bool) (s : St S) (j : Nat) : Option (Ai S) := do
  let a ← p.v.arcs[j]?
  let row ← p.b.splits[i]?
  let n ← p.frames i
  if 0 ≤ a.label + 1 ∧ a.label + 1 < p.b.cols then do
    let score ← p.b.mem[(row + t) * p.b.stride + (a.label + 1).toNat]?
    if t + 1 = n ∧ part then do
      let r ← p.v.id1[s.st]?
      let x ← p.v.sp1[r]?
      let y ← p.v.sp1[r + 1]?
      some ⟨j, 0 + a.score, (s.st : Int) + ((y : Int) - 1 - x) - a.src, s.fwd + (0 + a.score)⟩
    else some ⟨j, score + a.score, (s.st : Int) + a.dst - a.src, s.fwd + (score + a.score)⟩
  else none

/-- `GetArcs`, lines 779-903. -/
def getArcs (p : Args K) (t : Nat) (states : List (List (St S))) : Option (List (List (List (Ai S)))) :=
  states.zipIdx.mapM (fun q => do
    let fin ← if p.allowPartial then hasFinalArc p t q.2 q.1 else some true
    q.1.mapM (fun s => do
      let arcs ← rowElems p.v.sp2 s.st
      arcs.mapM (arcInfo p t q.2 (!fin) s)))

/-- The new dynamic beam of a sequence, `lambda_set_beam_and_cutoffs`, lines 726-764; `active` is the
number of its active states. -/
def nextBeam (p : Args K) (t n active : Nat) (beam : K) : K :=
  let minA : K := if n ≤ t + 5 then max (p.minActive : K) ((p.maxActive : K) / 2) else (p.minActive : K)
  let b1 :=
    if active ≤ p.maxActive then
      if minA ≤ (active : K) ∨ active = 0 then 4 / 5 * beam + 1 / 5 * p.searchBeam
      else (if beam < p.searchBeam then p.searchBeam else beam) * (5 / 4)
    else if t + 5 < n then (if p.searchBeam < beam then p.searchBeam else beam) * (4 / 5)
    else beam
  if t + 1 = n then 10000000000 else b1

/-- Subtract a number from a score. -/
def sub (x : S) (k : K) : S := x + ((-k : K) : S)

/-- `GetPruningCutoffs`, lines 694-768: the beam and the cutoff of each sequence. -/
def cutoffs (p : Args K) (t : Nat) (beams : List K) (arcs : List (List (List (Ai S)))) :
    Option (List (K × S)) :=
  arcs.zipIdx.mapM (fun q => do
    let n ← p.frames q.2
    let beam ← beams[q.2]?
    let beam' := nextBeam p t n q.1.length beam
    some (beam', sub ((q.1.flatten.map Ai.fin).foldl max ⊥) beam'))

/-- The arcs of the frame, numbered through, with their sequence. -/
def numbered (arcs : List (List (List (Ai S)))) : List (Nat × Ai S) :=
  (arcs.zipIdx.map (fun q => q.1.flatten.map (fun a => (q.2, a)))).flatten

/-- The key of the destination of an arc in the hash, lines 978-979. -/
def keyOf (p : Args K) (x : Nat × Ai S) : Int := x.2.dst + x.1 * p.keyStride

/-- `lambda_set_state_map`, lines 962-985, where `order` is the order in which the insertions take
effect (C61).  The result maps keys to the arcs that inserted them. -/
def insertAll (p : Args K) (cut : List (K × S)) (arcs : List (Nat × Ai S)) :
    List Nat → List (Int × Nat) → Option (List (Int × Nat))
  | [], m => some m
  | k :: order, m => do
    let x ← arcs[k]?
    let c ← cut[x.1]?
    if c.2 < x.2.fin ∧ m.lookup (keyOf p x) = none then
      insertAll p cut arcs order ((keyOf p x, k) :: m)
    else insertAll p cut arcs order m

/-- The flags of `renumber_states`: the arc inserted the key. -/
def keepFlags (p : Args K) (arcs : List (Nat × Ai S)) (m : List (Int × Nat)) : List Bool :=
  arcs.zipIdx.map (fun x => m.lookup (keyOf p x.1) == some x.2)

/-- `lambda_modify_state_map` and the lookup of `lambda_set_arcs_and_states`, lines 1040-1091: the
number of the destination among all states of the next frame. -/
def destOf (p : Args K) (m : List (Int × Nat)) (flags : List Bool) (x : Nat × Ai S) : Option Nat :=
  (m.lookup (keyOf p x)).bind (fun w => (old2new flags)[w]?)

/-- `lambda_set_arcs_and_states`, lines 1066-1109, for one arc of sequence `i`: the destination becomes
a number among the states of the sequence on the next frame, or -1. -/
def setDst (p : Args K) (m : List (Int × Nat)) (flags : List Bool) (splits : List Nat) (i : Nat)
    (a : Ai S) : Option (Ai S) :=
  match destOf p m flags (i, a) with
  | none => some { a with dst := -1 }
  | some g => (splits[i]?).bind (fun x => some { a with dst := (g : Int) - x })

/-- `PropagateForward`, lines 925-1134: the arcs of the frame, the beams, and the states of the next
frame.  `backward_loglike` of a new state is not initialised. -/
def propagateForward (p : Args K) (order : Nat → List Nat) (t : Nat) (states : List (List (St S)))
    (beams : List K) : Option (List (List (List (Ai S))) × List K × List (List (St S))) := do
  let arcs ← getArcs p t states
  let cut ← cutoffs p t beams arcs
  let all := numbered arcs
  let m ← insertAll p cut all (order all.length) []
  let flags := keepFlags p all m
  let n2o ← new2old flags
  let kept ← n2o.mapM (fun k => all[k]?)
  let splits ← rowIdsToRowSplits (kept.map Prod.fst) p.seqs
  let next := (List.range p.seqs).map (fun i =>
    (kept.zipIdx.filter (fun x => x.1.1 = i)).map (fun x =>
      (⟨x.1.2.dst.toNat, ((all.filter (fun y => destOf p m flags y = some x.2)).map
        (fun y => y.2.fin)).foldl max ⊥, ⊥⟩ : St S)))
  let arcs' ← arcs.zipIdx.mapM (fun q => q.1.mapM (fun row => row.mapM (setDst p m flags splits q.2)))
  some (arcs', cut.map Prod.fst, next)

/-- The forward pass of `Intersect`, lines 210-236, for the frames `t`, …, `t + k - 1`. -/
def forward (p : Args K) (order : Nat → Nat → List Nat) : Nat → Nat → List (List (St S)) → List K →
    Option (List (Frame S) × List (List (St S)))
  | _, 0, states, _ => some ([], states)
  | t, k + 1, states, beams => do
    let (arcs, beams', next) ← propagateForward p (order t) t states beams
    let (fs, last) ← forward p order (t + 1) k next beams'
    some (⟨states, arcs⟩ :: fs, last)

/-! ## Backward -/

/-- Minus a score that is not minus infinity. -/
def neg (x : S) : S := x.map (fun k => -k)

/-- `SetBackwardProbsFinal`, lines 1164-1202. -/
def setFinal (states : List (List (St S))) : List (List (St S)) :=
  states.map (fun l => l.map (fun s => { s with bwd := neg s.fwd }))

/-- `lambda_set_arc_backward_prob_and_keep`, lines 1275-1318, for an arc of state `s`: its backward score,
and whether it is kept.  `next` are the states of the sequence on the next frame.  The check
`backward <= -forward + 2` is written as `backward + forward <= 2`. -/
def arcBack (p : Args K) (next : List (St S)) (s : St S) (a : Ai S) : Option (S × Bool) :=
  if a.dst = -1 then some (⊥, false)
  else if a.dst < 0 then none
  else do
    let d ← next[a.dst.toNat]?
    let x := a.ll + d.bwd
    if x + s.fwd ≤ ((2 : K) : S) then
      if ((-p.outputBeam : K) : S) ≤ x + s.fwd then some (x, true) else some (⊥, false)
    else none

/-- `lambda_set_state_backward_prob`, lines 1331-1356, after the arcs of the state. -/
def stateBack (p : Args K) (next : List (St S)) (s : St S) (arcs : List (Ai S)) :
    Option (St S × Bool × List Bool) := do
  let l ← arcs.mapM (arcBack p next s)
  let r ← p.v.id1[s.st]?
  let y ← p.v.sp1[r + 1]?
  let x := if y ≤ s.st + 1 then neg s.fwd else (l.map Prod.fst).foldl max ⊥
  some ({ s with bwd := x }, decide (x ≠ ⊥), l.map Prod.snd)

/-- `PropagateBackward`, lines 1238-1357: for each state the new information, whether it is kept, and
which of its arcs are. -/
def propagateBackward (p : Args K) (cur : Frame S) (next : List (List (St S))) :
    Option (List (List (St S × Bool × List Bool))) :=
  (cur.states.zip cur.arcs).zipIdx.mapM (fun q => do
    let nx ← next[q.2]?
    (q.1.1.zip q.1.2).mapM (fun x => stateBack p nx x.1 x.2))

/-- The elements whose flag is set. -/
def keepBy {α : Type} (flags : List Bool) (l : List α) : List α :=
  ((l.zip flags).filter Prod.snd).map Prod.fst

/-- `lambda_set_arcs`, lines 1559-1611, for one arc: the new number of the destination state is the
number of states before it that are kept. -/
def renumberDst (flags : List Bool) (a : Ai S) : Ai S :=
  { a with dst := (((flags.take a.dst.toNat).filter id).length : Int) }

/-- `PruneTimeRange`, the kernels of lines 1491-1637, for one frame: the kept states with their kept
arcs, whose destinations are renumbered; `next` are the flags of the states of the next frame. -/
def rebuild (cur : Frame S) (marks : List (List (St S × Bool × List Bool))) (next : List (List Bool)) :
    Frame S :=
  ⟨marks.map (fun l => (l.filter (fun x => x.2.1)).map Prod.fst),
    ((cur.arcs.zip marks).zip next).map (fun q =>
      keepBy (q.1.2.map (fun x => x.2.1))
        ((q.1.1.zip q.1.2).map (fun x => (keepBy x.2.2.2 x.1).map (renumberDst q.2))))⟩

/-- All states of the frame are kept, lines 1452-1453. -/
def keepAll (marks : List (List (St S × Bool × List Bool))) : List (List (St S × Bool × List Bool)) :=
  marks.map (fun l => l.map (fun x => (x.1, true, x.2.2)))

/-- The loop of `PruneTimeRange` over the frames from the last to the first, lines 1429-1456.  The result
for the frames: the frames rebuilt, and for the first of them its states with the new backward scores and
their flags.  After the last frame comes `last`, whose states keep their numbers (lines 1587-1591). -/
def pruneLoop (p : Args K) (last : List (List (St S))) :
    List (Frame S) → Option (List (Frame S) × List (List (St S)) × List (List Bool))
  | [] => some ([], setFinal last, last.map (fun l => l.map (fun _ => true)))
  | f :: fs => do
    let (out, next, flags) ← pruneLoop p last fs
    let marks ← propagateBackward p f next
    some (rebuild f marks flags :: out, marks.map (fun l => l.map Prod.fst),
      marks.map (fun l => l.map (fun x => x.2.1)))

/-- `PruneTimeRange`, lines 1379-1639, for the frames `fs` and the states `last` of the frame after
them: the new frames and the new states of the frame after them. -/
def pruneFrames (p : Args K) (fs : List (Frame S)) (last : List (List (St S))) :
    Option (List (Frame S) × List (List (St S))) :=
  match fs with
  | [] => some ([], setFinal last)
  | f :: fs => do
    let (out, next, flags) ← pruneLoop p last fs
    let marks ← propagateBackward p f next
    some (rebuild f (keepAll marks) flags :: out, setFinal last)

/-- `PruneTimeRange(begin_t, end_t)`. -/
def pruneTimeRange (p : Args K) (lo hi : Nat) (frames : List (Frame S)) : Option (List (Frame S)) := do
  let f ← frames[hi]?
  let (out, last) ← pruneFrames p ((frames.take hi).drop lo) f.states
  some (frames.take lo ++ out ++ ({ f with states := last } :: frames.drop (hi + 1)))

/-- `prune_t_begin_end_`, lines 165-197, from the round in which `begin_t = 20 * k - 10`. -/
def pruneRanges (T k : Nat) : List (Nat × Nat) :=
  if T ≤ 20 * k + 20 then [(20 * k - 10, T)] else (20 * k - 10, 20 * k + 20) :: pruneRanges T (k + 1)
termination_by T - 20 * k

/-- `BackwardPass`, lines 399-420. -/
def backwardPass (p : Args K) : List (Nat × Nat) → List (Frame S) → Option (List (Frame S))
  | [], fs => some fs
  | r :: rs, fs => (pruneTimeRange p r.1 r.2 fs).bind (backwardPass p rs)

/-! ## Output -/

/-- `lambda_format_arc_data`, lines 586-654, for an arc of sequence `i` on frame `t`; `src` is the number
of its state, `off` the number of the first state of the next frame. -/
def formatArc (p : Args K) (t i n src off : Nat) (a : Ai S) : Option (Arc S × Int × Nat) := do
  let x ← p.v.arcs[a.arc]?
  let row ← p.b.splits[i]?
  let mb := (row + t) * p.b.cols + (x.label + 1).toNat
  if a.dst < 0 then none
  else if t + 1 = n ∧ x.label ≠ -1 then
    if p.allowPartial then some (⟨src, off + a.dst.toNat, -1, a.ll⟩, -1, mb) else none
  else some (⟨src, off + a.dst.toNat, x.label, a.ll⟩, a.arc, mb)

/-- The states of sequence `i` on the frames from `t` on, numbered from `off`, with their arcs. -/
def formatFrames (p : Args K) (i n : Nat) : Nat → Nat → List (List (List (Ai S))) →
    Option (List (List (Arc S × Int × Nat)))
  | _, _, [] => some []
  | t, off, rows :: more => do
    let here ← rows.zipIdx.mapM (fun q => q.1.mapM (formatArc p t i n (off + q.2) (off + rows.length)))
    let rest ← formatFrames p i n (t + 1) (off + rows.length) more
    some (here ++ rest)

/-- One sequence of `FormatOutput`, lines 473-658: `lambda_set_num_extra_states` and
`lambda_format_arc_data`.  `Stack` on axis 1 and `RemoveAxis` (C07, C08) put the frames of a sequence one
after the other. -/
def formatSeq (p : Args K) (frames : List (Frame S)) (i : Nat) :
    Option (List (List (Arc S × Int × Nat))) := do
  let n ← p.frames i
  let rows ← frames.mapM (fun f => f.arcs[i]?)
  let last ← rows[n]?
  if last.length ≤ 1 then do
    let x ← p.v.sp1[i * p.stride]?
    let y ← p.v.sp1[i * p.stride + 1]?
    let extra := if x < y then 1 - last.length else 0
    formatFrames p i n 0 0 (rows ++ [List.replicate extra []])
  else none

/-- `FormatOutput`: the FSAs, `arc_map_a` and `arc_map_b`. -/
def formatOutput (p : Args K) (frames : List (Frame S)) :
    Option (FsaVec S × List Int × List Nat) := do
  let out ← (List.range p.seqs).mapM (formatSeq p frames)
  some (flat (out.map (fun g => g.map (fun row => row.map Prod.fst))),
    out.flatten.flatten.map (fun x => x.2.1), out.flatten.flatten.map (fun x => x.2.2))

/-- `T_`: the largest number of frames. -/
def Args.maxFrames (p : Args K) : Nat :=
  (p.b.splits.zipWith (fun x y => y - x) p.b.splits.tail).foldl max 0

/-- `IntersectDensePruned`, lines 1708-1728, with `Intersect`, lines 148-240.  `order t n` is the order
in which the `n` arcs of frame `t` are inserted into the hash. -/
def intersectDensePruned (p : Args K) (order : Nat → Nat → List Nat) :
    Option (FsaVec S × List Int × List Nat) :=
  if p.ok ∧ 0 < p.maxFrames then do
    let s0 ← initialFrame p
    let (frames, _) ← forward p order 0 (p.maxFrames + 1) s0 (List.replicate p.seqs p.searchBeam)
    let frames ← backwardPass p (pruneRanges p.maxFrames 0) frames
    formatOutput p frames
  else none

end

end Verif.Fsa.Dp
