import Verif.Fsa.Pruned.Model

/-!
# `OnlineDenseIntersecter` (k2/csrc/intersect_dense_pruned.cu 257-396 and 1738-1854)

The conventions are those of the model of `IntersectDensePruned`.  A chunk is the `b` of the arguments: the
frames of each sequence and one more frame for the final arcs.  `Stack`, `Unstack` and `RemoveEmptyLists` (C08,
C10) are operations on nested lists here.  The log-likelihoods that a new state or arc does not initialise are
minus infinity and zero.
-/

namespace Verif.Fsa.Onl
open Verif.Ragged Verif.Util Verif.Fsa.Dn Verif.Fsa.Dp

section
variable {K : Type} [Field K] [LinearOrder K]

local notation "S" => WithBot K

/-- `DecodeStateInfo`, k2/csrc/intersect_dense_pruned.h 118-138: [frame][state], [frame][state][arc] and the
beam. -/
structure Info (K : Type) where
  states : List (List (St (WithBot K)))
  arcs : List (List (List (Ai (WithBot K))))
  beam : K
  deriving DecidableEq

/-- What `Decode` makes of a sequence without history, intersect_dense_pruned.cu 1782-1796. -/
def fresh (p : Args K) : Info K := ⟨[[⟨0, 0, ⊥⟩]], [[[⟨0, 0, 0, 0⟩]]], p.searchBeam⟩

/-- The new dynamic beam, `lambda_set_beam_and_cutoffs`, lines 726-764, for online decoding. -/
def nextBeam (p : Args K) (active : Nat) (beam : K) : K :=
  if active ≤ p.maxActive then
    if (p.minActive : K) ≤ (active : K) ∨ active = 0 then 4 / 5 * beam + 1 / 5 * p.searchBeam
    else (if beam < p.searchBeam then p.searchBeam else beam) * (5 / 4)
  else (if p.searchBeam < beam then p.searchBeam else beam) * (4 / 5)

/-- `GetPruningCutoffs`, lines 694-768, for online decoding. -/
def cutoffs (p : Args K) (beams : List K) (arcs : List (List (List (Ai S)))) : Option (List (K × S)) :=
  arcs.zipIdx.mapM (fun q => do
    let beam ← beams[q.2]?
    let beam' := nextBeam p q.1.length beam
    some (beam', sub ((q.1.flatten.map Ai.fin).foldl max ⊥) beam'))

/-- `PropagateForward`, lines 925-1134, for online decoding; it differs from `Dp.propagateForward` in the
cutoffs. -/
def propagateForward (p : Args K) (order : Nat → List Nat) (t : Nat) (states : List (List (St S)))
    (beams : List K) : Option (List (List (List (Ai S))) × List K × List (List (St S))) := do
  let arcs ← getArcs p t states
  let cut ← cutoffs p beams arcs
  let all := numbered arcs
  let m ← Dp.insertAll p cut all (order all.length) []
  let flags := keepFlags p all m
  let n2o ← new2old flags
  let kept ← n2o.mapM (fun k => all[k]?)
  let splits ← rowIdsToRowSplits (kept.map Prod.fst) p.seqs
  let next := (List.range p.seqs).map (fun i =>
    (kept.zipIdx.filter (fun x => x.1.1 = i)).map (fun x =>
      (⟨x.1.2.dst.toNat, ((all.filter (fun y => destOf p m flags y = some x.2)).map
        (fun y => y.2.fin)).foldl max ⊥, ⊥⟩ : St S)))
  let arcs' ← arcs.zipIdx.mapM (fun q => q.1.mapM (fun row => row.mapM (setDst p m flags splits q.2)))
  some (arcs', cut.map Prod.fst, next)

/-- The loop of `OnlineIntersect`, lines 284-293, for the frames `t`, …, `t + k - 1` of the chunk: the frames
with their arcs, the states after them, and the beams. -/
def forward (p : Args K) (order : Nat → Nat → List Nat) : Nat → Nat → List (List (St S)) → List K →
    Option (List (Frame S) × List (List (St S)) × List K)
  | _, 0, states, beams => some ([], states, beams)
  | t, k + 1, states, beams => do
    let (arcs, beams', next) ← propagateForward p (order t) t states beams
    let (fs, last, beams'') ← forward p order (t + 1) k next beams'
    some (⟨states, arcs⟩ :: fs, last, beams'')

/-- `chunk_size`, line 276. -/
def chunkSize (p : Args K) : Nat := p.maxFrames - 1

/-- `OnlineIntersect`, lines 257-315: the frames and the beams.  The arcs of the last frame are not set, unless
the chunk has no frame. -/
def onlineIntersect (p : Args K) (order : Nat → Nat → List Nat) (frames : List (Frame S)) (beams : List K) :
    Option (List (Frame S) × List K) :=
  if p.fsas = 1 ∧ 0 < p.maxFrames then do
    let back ← frames.getLast?
    if chunkSize p = 0 then some (frames, beams)
    else do
      let (fs, last, beams') ← forward p order 0 (chunkSize p) back.states beams
      let frames' ← pruneTimeRange p (frames.length - 1 - 2) (frames.length - 1 + chunkSize p)
        (frames.dropLast ++ fs ++ [⟨last, []⟩])
      some (frames', beams')
  else none

/-- `GetFinalFrame`, lines 336-396: the arcs of the last frame with a finite score enter the one final state.
The result is the last frame with these arcs and the arcs of the frame after it. -/
def finalFrame (p : Args K) (back : Frame S) : Option (Frame S × List (List (List (Ai S)))) := do
  let arcs ← getArcs p (chunkSize p) back.states
  let kept := arcs.map (fun q => q.map (fun row =>
    (row.filter (fun a => decide (a.ll ≠ ⊥))).map (fun a => { a with dst := 0 })))
  some (⟨back.states, kept⟩, kept.map (fun q => if q.flatten.length = 0 then [] else [[]]))

/-- One sequence of `FormatOutput`, lines 473-658, for online decoding; `hist` is `history_t`, line 299. -/
def formatSeq (p : Args K) (hist : Nat) (rows : List (List (List (List (Ai S))))) (i : Nat) :
    Option (List (List (Arc S × Int × Nat))) := do
  let n ← p.frames i
  let mine ← rows.mapM (fun f => f[i]?)
  let last ← mine[hist + n]?
  if last.length ≤ 1 then do
    let x ← p.v.sp1[i * p.stride]?
    let y ← p.v.sp1[i * p.stride + 1]?
    let extra := if x < y then 1 - last.length else 0
    formatFrames p i (hist + n) 0 0 (mine ++ [List.replicate extra []])
  else none

/-- `Unstack` on axis 1 with `pad_right = false`, of [sequence][frame][x]. -/
def unstackLeft {α : Type} (l : List (List (List α))) : List (List (List α)) :=
  let m := (l.map List.length).foldl max 0
  (List.range m).map (fun t => l.map (fun fs => if t + fs.length < m then [] else fs.getD (t + fs.length - m) []))

/-- The frames that `Decode` makes of the histories, lines 1802-1824. -/
def gatherFrames (infos : List (Info K)) : Option (List (Frame S)) :=
  let ss := unstackLeft (infos.map (fun d => d.states.filter (fun f => !f.isEmpty)))
  let as := unstackLeft (infos.map (fun d => d.arcs.filter (fun f => !f.isEmpty)))
  ss.zipIdx.mapM (fun x => do
    let a ← as[x.2]?
    some ⟨x.1, a⟩)

/-- The histories of the sequences, lines 1831-1852. -/
def scatterFrames (p : Args K) (frames : List (Frame S)) (beams : List K) : Option (List (Info K)) :=
  (List.range p.seqs).mapM (fun i => do
    let ss ← frames.mapM (fun f => f.states[i]?)
    let as ← frames.mapM (fun f => f.arcs[i]?)
    let b ← beams[i]?
    some ⟨ss, as, b⟩)

/-- `OnlineDenseIntersecter::Decode`, lines 1765-1854, for sequences with histories `infos` (a new one has the
history `fresh`): the FSAs, `arc_map_a` and the new histories. -/
def decode (p : Args K) (order : Nat → Nat → List Nat) (infos : List (Info K)) :
    Option (FsaVec S × List Int × List (Info K)) :=
  if p.ok ∧ infos.length = p.seqs then do
    let frames ← gatherFrames infos
    let (frames', beams) ← onlineIntersect p order frames (infos.map Info.beam)
    let back ← frames'.getLast?
    let (back', extra) ← finalFrame p back
    let rows := (frames'.dropLast ++ [back']).map Frame.arcs ++ [extra]
    let out ← (List.range p.seqs).mapM (formatSeq p (frames.length - 1) rows)
    let infos' ← scatterFrames p (frames'.dropLast ++ [back']) beams
    some (flat (out.map (fun g => g.map (fun row => row.map Prod.fst))), out.flatten.flatten.map (fun x => x.2.1),
      infos')
  else none

end

end Verif.Fsa.Onl
