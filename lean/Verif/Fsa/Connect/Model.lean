import Verif.Fsa.Vec.Model

/-!
# `Connect` (k2/csrc/connect.cu)

`none` stands for an access outside an array, a failed check, or two threads of one kernel that write
different values to the same place.  The two passes run in two threads of a pool; they write to
different arrays and only read `fsas_`, `dest_states_` and `incoming_arcs_`, so each is modelled by
itself.  The FSA indexes that `cur_states` carries along (its row_ids) are not read by the passes and
are left out.
-/

namespace Verif.Fsa
open Verif.Ragged
variable {W : Type}

/-- `accessible_data[idx01] = 1` for all current states, connect.cu 72 and 173. -/
def markAll (m : List Bool) (cur : List Nat) : List Bool := cur.foldl (fun m s => m.set s true) m

/-- The array `keep` of a `Renumbering` of `n` elements, initially zero, after a kernel has done the
given writes. -/
def applyWrites (n : Nat) (writes : List (Nat × Bool)) : Option (List Bool) :=
  (List.range n).mapM (fun g =>
    if (g, true) ∈ writes ∧ (g, false) ∈ writes then none else some (decide ((g, true) ∈ writes)))

/-- `lambda_set_state_renumbering` for one state, connect.cu 88-113. -/
def forwardWrites (sp2 dest : List Nat) (acc : List Bool) (s : Nat) : Option (List (Nat × Bool)) := do
  let is ← rowElems sp2 s
  let ws ← is.mapM (fun i => do
    let d ← dest[i]?
    let m ← acc[d]?
    some (if d = s ∨ m = true then [] else [(d, true)]))
  some ws.flatten

/-- `lambda_set_arc_renumbering` for one state, connect.cu 197-226. -/
def backwardWrites (v : FsaVec W) (inSplits inArcs : List Nat) (coacc : List Bool) (s : Nat) :
    Option (List (Nat × Bool)) := do
  let is ← rowElems inSplits s
  let r ← v.id1[s]?
  let off ← v.sp1[r]?
  let ws ← is.mapM (fun i => do
    let j ← inArcs[i]?
    let a ← v.arcs[j]?
    let m ← coacc[off + a.src]?
    some (if off + a.src = s ∨ m = true then [(off + a.src, false)] else [(off + a.src, true)]))
  some ws.flatten

/-- `GetNextBatch` and `GetNextBatchBackward`, connect.cu 53-149 and 158-263, which differ in the
writes only: the marks and the next states. -/
def nextBatch (writes : List Bool → Nat → Option (List (Nat × Bool))) (m : List Bool) (cur : List Nat) :
    Option (List Bool × List Nat) := do
  let ws ← cur.mapM (writes (markAll m cur))
  let keep ← applyWrites m.length ws.flatten
  let new ← new2old keep
  some (markAll m cur, new)

/-- The loops of `ForwardPassStatic` and `BackwardPassStatic`, connect.cu 331-352.  `fuel` bounds the
number of iterations; that it is never used up is proved. -/
def passLoop (writes : List Bool → Nat → Option (List (Nat × Bool))) :
    Nat → List Bool → List Nat → Option (List Bool)
  | 0, _, _ => none
  | fuel + 1, m, cur => do
    let r ← nextBatch writes m cur
    if r.2 = [] then some r.1 else passLoop writes fuel r.1 r.2

/-- `GetStartBatch`, connect.cu 265-294: the first state of every FSA that has states. -/
def startBatch (sp1 : List Nat) : Option (List Nat) := do
  let l ← (List.range (sp1.length - 1)).mapM (fun i => do
    let b ← sp1[i]?
    let e ← sp1[i + 1]?
    some (if b < e then [b] else []))
  some l.flatten

/-- `GetFinalBatch`, connect.cu 301-329: the last state of every FSA that has states. -/
def finalBatch (sp1 : List Nat) : Option (List Nat) := do
  let l ← (List.range (sp1.length - 1)).mapM (fun i => do
    let b ← sp1[i]?
    let e ← sp1[i + 1]?
    some (if b < e then [e - 1] else []))
  some l.flatten

/-- `ForwardPassStatic`: the array `accessible_`. -/
def forwardPass (v : FsaVec W) (dest : List Nat) : Option (List Bool) := do
  let start ← startBatch v.sp1
  passLoop (forwardWrites v.sp2 dest) (v.id1.length + 1) (List.replicate v.id1.length false) start

/-- `BackwardPassStatic`: the array `coaccessible_`. -/
def backwardPass (v : FsaVec W) (dest : List Nat) : Option (List Bool) := do
  let inc ← incomingArcs dest v.id1.length
  let fin ← finalBatch v.sp1
  passLoop (backwardWrites v inc.1 inc.2) (v.id1.length + 1) (List.replicate v.id1.length false) fin

/-- `lambda_set_arcs_renumbering`, connect.cu 398-413, where `keep` is
`accessible_data[..] && coaccessible_data[..]`. -/
def keepArcs (v : FsaVec W) (keep : List Bool) : Option (List Bool) :=
  (List.range v.arcs.length).mapM (fun i => do
    let a ← v.arcs[i]?
    let s ← v.id2[i]?
    let k1 ← keep[s]?
    let k2 ← keep[a.dst + (s - a.src)]?
    some (k1 && k2))

/-- `lambda_set_arcs`, connect.cu 439-471: the arc with its states renumbered. -/
def renumberArc (v : FsaVec W) (o2n newIds1 newSp1 : List Nat) (i : Nat) : Option (Arc W) := do
  let s ← v.id2[i]?
  let r ← v.id1[s]?
  let off ← v.sp1[r]?
  let a ← v.arcs[i]?
  let ns ← o2n[off + a.src]?
  let nsr ← newIds1[ns]?
  let nsoff ← newSp1[nsr]?
  let nd ← o2n[off + a.dst]?
  let ndr ← newIds1[nd]?
  let ndoff ← newSp1[ndr]?
  some ⟨ns - nsoff, nd - ndoff, a.label, a.score⟩

/-- The part of `Connector::Connect` after the passes, connect.cu 371-481: the FSAs restricted to the
states with `keep` and the arc map. -/
def restrictVec (v : FsaVec W) (keep : List Bool) : Option (FsaVec W × List Nat) := do
  let n2oStates ← new2old keep
  let newIds1 ← gather v.id1 n2oStates
  let newSp1 ← rowIdsToRowSplits newIds1 (v.sp1.length - 1)
  let keepA ← keepArcs v keep
  let n2oArcs ← new2old keepA
  let oldIds2 ← gather v.id2 n2oArcs
  let newIds2 ← gather (old2new keep) oldIds2
  let newSp2 ← rowIdsToRowSplits newIds2 n2oStates.length
  let arcs ← n2oArcs.mapM (renumberArc v (old2new keep) newIds1 newSp1)
  some (⟨newSp1, newIds1, newSp2, newIds2, arcs⟩, n2oArcs)

/-- `Connector::Connect`, connect.cu 359-481. -/
def connectVec (v : FsaVec W) : Option (FsaVec W × List Nat) := do
  let dest ← destStates v
  let acc ← forwardPass v dest
  let coacc ← backwardPass v dest
  restrictVec v (List.zipWith (· && ·) acc coacc)

end Verif.Fsa
