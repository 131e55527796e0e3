import Verif.Fsa.Vec.Model
import Verif.Fsa.Scores.Model
import Verif.Ragged.CatModel
import Verif.Ragged.ChunkModel
import Verif.Ragged.EditModel

/-!
# `IntersectDense` (k2/csrc/intersect_dense.cu)

Scores are elements of an ordered group `K` or minus infinity (`WithBot K`); rounding, NaN and plus
infinity are not modelled.  `none` stands for a failed check, an access outside an array, a division by
zero or a loop that does not end.  The unsigned 16 bit fields of `CompressedArc` and `FsaInfo` are kept:
`u16` is the conversion to `uint16_t`.  The kernels are functions of the thread index; every kernel that
writes to computed positions is a `scatter`.  Numbers of type `int32_t` do not overflow.
-/

namespace Verif.Fsa.Dn
open Verif.Ragged Verif.Util Verif.Fsa.Sco

/-- `DenseFsaVec`, k2/csrc/fsa.h 138-200: the row_splits of its shape, and the scores as the memory that
`scores.Data()` points to, with `scores.ElemStride0()` and `scores.Dim1()`. -/
structure Dense (S : Type) where
  splits : List Nat
  stride : Nat
  cols : Nat
  mem : List S

/-- Conversion to `uint16_t`. -/
def u16 (n : Int) : Nat := (n % 65536).toNat

/-- `CompressedArc`, intersect_dense.cu 939-957. -/
structure CArc (S : Type) where
  src : Nat
  dst : Nat
  lab1 : Nat
  fsa : Nat
  inc : Nat
  score : S

/-- `FsaInfo`, intersect_dense.cu 978-998. -/
structure FsaInfo where
  T : Nat
  n : Nat
  soff : Nat
  st : Nat
  arc : Nat

variable {K S : Type}

/-! ## Array operations -/

/-- `InvertPermutation`, k2/csrc/array_ops.cu 395-407. -/
def invertPermutation (l : List Nat) : Option (List Nat) := scatter l.length l.zipIdx

/-- `MonotonicDecreasingUpperBound` on the CPU, k2/csrc/array_ops_inl.h 770-789, for numbers that are not
negative. -/
def suffixMax : List Nat → List Nat
  | [] => []
  | x :: xs => max x ((suffixMax xs).headD 0) :: suffixMax xs

/-- The write of thread `i` in `InvertMonotonicDecreasing`, array_ops.cu 375-380. -/
def invertWrite (src : List Nat) (i : Nat) : Option (List (Nat × Nat)) := do
  let x ← src[i]?
  match src[i + 1]? with
  | none => if x = 0 then none else some [(x - 1, i + 1)]
  | some y => if y < x then some [(x - 1, i + 1)] else some []

/-- `InvertMonotonicDecreasing`, k2/csrc/array_ops.cu 359-393, without the debug checks. -/
def invertMonotonicDecreasing (src : List Nat) : Option (List Nat) :=
  match src with
  | [] => some []
  | n :: _ => do
    let ws ← (List.range src.length).mapM (invertWrite src)
    let a ← writeAll (List.replicate n 0) ws.flatten
    some (suffixMax a)

/-! ## Initialization -/

/-- One element of `InitCompressedArcs`, intersect_dense.cu 610-656. -/
def compressArc (v : FsaVec S) (inv : List Nat) (i : Nat) : Option (CArc S) := do
  let a ← v.arcs[i]?
  let g ← v.id2[i]?
  let r ← v.id1[g]?
  let s0 ← v.sp1[u16 r]?
  let s1 ← v.sp1[u16 r + 1]?
  let first ← v.sp2[s0]?
  let next ← v.sp2[s1]?
  let j ← inv[i]?
  some ⟨u16 a.src, u16 a.dst, u16 (a.label + 1), u16 r, 2 * first + (next - first) + (j - first), a.score⟩

/-- One element of `InitFsaInfo`, intersect_dense.cu 658-681. -/
def fsaInfo (v : FsaVec S) (b : Dense S) (map : List Nat) (i : Nat) : Option FsaInfo := do
  let j ← map[i]?
  let x ← b.splits[j]?
  let y ← b.splits[j + 1]?
  let s0 ← v.sp1[i]?
  let s1 ← v.sp1[i + 1]?
  let arc ← v.sp2[s0]?
  some ⟨u16 ((y : Int) - x), u16 ((s1 : Int) - s0), x * b.stride, s0, arc⟩

/-- One element of `num_copies_per_fsa`, intersect_dense.cu 693-704. -/
def numCopies (b : Dense S) (map : List Nat) (i : Nat) : Option Nat := do
  let j ← map[i]?
  let x ← b.splits[j]?
  let y ← b.splits[j + 1]?
  some (1 + y - x)

/-- `incoming_arcs_`: its shape and its values, intersect_dense.cu 139-142. -/
def incomingShape (v : FsaVec S) : Option (Shape × List Nat) := do
  let dest ← destStates v
  let (sp, order) ← incomingArcs dest (v.sp2.length - 1)
  let ids ← gather dest order
  some ([(v.sp1, v.id1), (sp, ids)], order)

/-- What the constructor sets up (124-201): the arcs, the FSAs, `T_`, for each step the number of FSAs
and the last row_splits and the number of elements of `arc_scores`. -/
structure DenseInit (S : Type) where
  carcs : List (CArc S)
  infos : List FsaInfo
  T : Nat
  steps : List (Nat × List Nat × Nat)

/-- `InitSteps`, for one step: 728-742. -/
def initStep (combined : Shape) (num : Nat) : Option (Nat × List Nat × Nat) :=
  if num = 0 then none else do
    let sh ← prefixShape combined num
    let l ← sh[1]?
    let tot ← totSize sh 2
    some (num, l.1, tot)

/-- The constructor, intersect_dense.cu 124-201, with `InitSteps` 687-743. -/
def denseInit (dev : Dev) (debug : Bool) (v : FsaVec S) (b : Dense S) (map : List Nat) :
    Option (DenseInit S) := do
  if v.sp1.length - 1 = map.length ∧ 0 < map.length then do
    let (ish, order) ← incomingShape v
    let inv ← invertPermutation order
    let carcs ← (List.range v.arcs.length).mapM (compressArc v inv)
    let (combined, _) ← catAxis dev debug [[(v.sp1, v.id1), (v.sp2, v.id2)], ish] 1
    let infos ← (List.range map.length).mapM (fsaInfo v b map)
    if ((b.splits.zipWith (fun x y => y - x) b.splits.tail).Pairwise (· ≥ ·)) then do
      let copies ← (List.range map.length).mapM (numCopies b map)
      let c0 ← copies[0]?
      let per ← invertMonotonicDecreasing copies
      if per.length = c0 then do
        let steps ← per.mapM (initStep combined)
        some ⟨carcs, infos, c0 - 1, steps⟩
      else none
    else none
  else none

/-! ## The forward and backward passes -/

variable [Add S] [Zero S] [Bot S] [Max S] [Min S]

/-- Thread `g` of `DoStep0`, intersect_dense.cu 756-773. -/
def step0Write (id1 : List Nat) (infos : List FsaInfo) (g : Nat) : Option (List (Nat × S)) := do
  let r ← id1[g]?
  let info ← infos[r]?
  let s := g - info.st
  some [(info.st + g + info.n, if s = 0 then 0 else ⊥), (info.st + g, if s + 1 = info.n then 0 else ⊥)]

/-- `DoStep0`; `tot` is the number of states. -/
def doStep0 (id1 : List Nat) (infos : List FsaInfo) (tot : Nat) : Option (List S) := do
  let ws ← (List.range tot).mapM (step0Write id1 infos)
  scatter (2 * tot) ws.flatten

/-- The scores of the network for an arc, in the forward and in the backward pass, 818-833. -/
def frameScores (b : Dense S) (info : FsaInfo) (t lab1 : Nat) : Option (S × S) :=
  if lab1 ≤ b.cols then
    if t ≤ info.T then do
      let x ← b.mem[info.soff + b.stride * (t - 1) + lab1]?
      let y ← b.mem[info.soff + b.stride * (info.T - t) + lab1]?
      some (x, y)
    else none
  else some (⊥, ⊥)

/-- Thread `i` of `DoStep`, intersect_dense.cu 797-844. -/
def stepWrite (b : Dense S) (carcs : List (CArc S)) (infos : List FsaInfo) (prev : List S) (t i : Nat) :
    Option (List (Nat × S)) := do
  let c ← carcs[i]?
  let info ← infos[c.fsa]?
  let fw ← prev[2 * info.st + info.n + c.src]?
  let bw ← prev[2 * info.st + c.dst]?
  let (x, y) ← frameScores b info t c.lab1
  some [(c.inc, fw + c.score + x), (i + info.arc, bw + c.score + y)]

/-- `MaxPerSublist`, k2/csrc/ragged_ops_inl.h 46-75. -/
def maxPerSublist (sp : List Nat) (vals : List S) : Option (List S) :=
  (List.range (sp.length - 1)).mapM (fun i => do
    let l ← rowElems sp i
    let xs ← l.mapM (fun j => vals[j]?)
    some (reduceRow max ⊥ xs))

/-- `DoStep`, intersect_dense.cu 778-847. -/
def doStep (v : FsaVec S) (b : Dense S) (d : DenseInit S) (t : Nat) (prev : List S) : Option (List S) := do
  let (num, sp, tot) ← d.steps[t]?
  let ws ← (List.range (tot / 2)).mapM (stepWrite b d.carcs d.infos prev t)
  let vals ← scatter tot ws.flatten
  let out ← maxPerSublist sp vals
  let ns ← v.sp1[num]?
  if out.length = 2 * ns then some out else none

/-- `Intersect`, 205-208: the state scores of the steps 0 to `t`. -/
def runSteps (step : Nat → List S → Option (List S)) (s0 : List S) : Nat → Option (List (List S))
  | 0 => some [s0]
  | t + 1 => do
    let l ← runSteps step s0 t
    let p ← l[t]?
    let x ← step (t + 1) p
    some (l ++ [x])

/-! ## The output -/

/-- Element of the state scores. -/
def scoreAt (sc : List (List S)) (t i : Nat) : Option S := sc[t]?.bind (fun l => l[i]?)

/-- `GetScoreCutoffs`, intersect_dense.cu 870-924; `neg` is minus the beam. -/
def scoreCutoff (sc : List (List S)) (neg : S) (info : FsaInfo) : Option S :=
  if info.n = 0 then some ⊥ else do
    let x ← scoreAt sc info.T (2 * info.st)
    let y ← scoreAt sc info.T (2 * info.st + 2 * info.n - 1)
    some (min x y + neg)

/-- The place of index `i` of the states at all times: FSA, time and state, 271-278 and 370-376.
Division by zero is undefined. -/
def unpack (id1 : List Nat) (infos : List FsaInfo) (T i : Nat) : Option (Nat × FsaInfo × Nat × Nat) := do
  let r ← id1[i / (T + 1)]?
  let info ← infos[r]?
  if info.n = 0 then none else
    let w := i - (T + 1) * info.st
    some (r, info, w / info.n, w % info.n)

/-- Thread `i` of `lambda_set_keep`, 264-299: is the state kept, and the number of its arcs if it is. -/
def keepState [LT S] [DecidableLT S] (v : FsaVec S) (infos : List FsaInfo) (T : Nat) (sc : List (List S))
    (cut : List S) (i : Nat) : Option (Bool × Nat) := do
  let (r, info, t, s) ← unpack v.id1 infos T i
  let c ← cut[r]?
  let x ← v.sp2[info.st + s]?
  let y ← v.sp2[info.st + s + 1]?
  if t ≤ info.T then do
    let fw ← scoreAt sc t (2 * info.st + s + info.n)
    let bw ← scoreAt sc (info.T - t) (2 * info.st + s)
    let k := decide (c < fw + bw)
    some (k, if k then y - x else 0)
  else some (false, 0)

/-- The loop of `FormatOutput` that decreases the beam until the limits are respected, 240-320.  `neg`
is minus the beam and `dec` stands for `DecreaseBeam`: from minus the beam, the limit and the number to
minus the new beam.  `fuel` bounds the number of rounds. -/
def beamLoop [LT S] [DecidableLT S] (v : FsaVec S) (infos : List FsaInfo) (T : Nat) (sc : List (List S))
    (dec : S → Nat → Nat → S) (maxStates maxArcs : Nat) : Nat → S → Option (List S × List Bool)
  | 0, _ => none
  | fuel + 1, neg => do
    let cut ← infos.mapM (scoreCutoff sc neg)
    let ks ← (List.range ((T + 1) * (v.sp2.length - 1))).mapM (keepState v infos T sc cut)
    let flags := ks.map Prod.fst
    let totStates := (flags.filter id).length
    if maxStates < totStates then
      beamLoop v infos T sc dec maxStates maxArcs fuel (dec neg maxStates totStates)
    else
      let totArcs := (ks.map Prod.snd).sum
      if maxArcs < totArcs then
        beamLoop v infos T sc dec maxStates maxArcs fuel (dec neg maxArcs totArcs)
      else some (cut, flags)

/-- Thread of `lambda_set_row_ids2`, 363-389, for the old state index `i`: `ans_row_ids2`,
`ans_state_idx01` and `ans_num_arcs`. -/
def ansState (v : FsaVec S) (infos : List FsaInfo) (T : Nat) (sp1 : List Nat) (i : Nat) :
    Option (Nat × Nat × Nat) := do
  let (r, info, t, s) ← unpack v.id1 infos T i
  let x0 ← sp1[r]?
  let x ← v.sp2[info.st + s]?
  let y ← v.sp2[info.st + s + 1]?
  some (x0 + t, info.st + s, if t = info.T then 0 else y - x)

/-- What the kernels on arcs of the output read. -/
structure AnsShape where
  sp1 : List Nat
  id1 : List Nat
  sp2 : List Nat
  id2 : List Nat
  state : List Nat
  sp3 : List Nat
  o2n : List Nat

/-- The values for an arc of the output that `lambda_set_keep` (407-473) and `lambda_set_arcs_and_maps`
(503-588) have in common. -/
structure AnsArc (S : Type) where
  r : Nat
  t : Nat
  info : FsaInfo
  arc : Nat
  c : CArc S
  sidx : Nat
  score : S
  dst : Nat
  dstNext : Nat
  fb : S

/-- Compute them, with the checks of the code: the source state of the arc, the number of the source
state and the bound on `t`. -/
def ansArc (v : FsaVec S) (b : Dense S) (carcs : List (CArc S)) (infos : List FsaInfo) (T : Nat)
    (sc : List (List S)) (A : AnsShape) (i st : Nat) : Option (AnsArc S) := do
  let x ← A.sp3[st]?
  let tt ← A.id2[st]?
  let r ← A.id1[tt]?
  let x0 ← A.sp1[r]?
  let g ← A.state[st]?
  let info ← infos[r]?
  let ab ← v.sp2[g]?
  let t := tt - x0
  let s := g - info.st
  let arc := ab + (i - x)
  let c ← carcs[arc]?
  let sidx := info.soff + b.stride * t + c.lab1
  let m ← b.mem[sidx]?
  let score := c.score + m
  let src ← A.o2n[info.st * (T + 1) + t * info.n + s]?
  if s = c.src ∧ src = st ∧ t < info.T then do
    let d0 ← A.o2n[info.st * (T + 1) + (t + 1) * info.n + c.dst]?
    let d1 ← A.o2n[info.st * (T + 1) + (t + 1) * info.n + c.dst + 1]?
    let fw ← scoreAt sc t (2 * info.st + info.n + s)
    let bw ← scoreAt sc (info.T - (t + 1)) (2 * info.st + c.dst)
    some ⟨r, t, info, arc, c, sidx, score, d0, d1, fw + score + bw⟩
  else none

/-- `lambda_set_keep` for arcs, 407-473.  The kernel reads the scores of the destination only when it is
kept; the reads are inside the arrays in any case. -/
def keepArc [LT S] [DecidableLT S] (v : FsaVec S) (b : Dense S) (carcs : List (CArc S))
    (infos : List FsaInfo) (T : Nat) (sc : List (List S)) (cut : List S) (A : AnsShape) (i st : Nat) :
    Option Bool := do
  let x ← ansArc v b carcs infos T sc A i st
  let c ← cut[x.r]?
  some (decide (x.dst < x.dstNext) && decide (c < x.fb))

/-- `lambda_set_arcs_and_maps`, 503-588. -/
def outArc (v : FsaVec S) (b : Dense S) (carcs : List (CArc S)) (infos : List FsaInfo) (T : Nat)
    (sc : List (List S)) (A : AnsShape) (i st : Nat) : Option (Arc S × Nat × Nat) := do
  let x ← ansArc v b carcs infos T sc A i st
  let x0 ← A.sp1[x.r]?
  let base ← A.sp2[x0]?
  if x.dst < x.dstNext then
    some (⟨st - base, x.dst - base, (x.c.lab1 : Int) - 1, x.score⟩, x.arc, x.sidx)
  else none

/-- `FormatOutput` after the states have been chosen, 322-603.  `maxSize` is the piece size of
`GetNew2OldAndRowIds`. -/
def formatOutput [LT S] [DecidableLT S] (maxSize : Nat) (v : FsaVec S) (b : Dense S) (d : DenseInit S)
    (sc : List (List S)) (cut : List S) (flags : List Bool) :
    Option (FsaVec S × List Nat × List Nat) := do
  let n2o ← new2old flags
  let sp1 := psum (d.infos.map (fun info => info.T + 1))
  let tot1 ← sp1[d.infos.length]?
  let id1 ← rowSplitsToRowIds sp1 tot1
  let sts ← n2o.mapM (ansState v d.infos d.T sp1)
  let id2 := sts.map Prod.fst
  let sp2 ← rowIdsToRowSplits id2 id1.length
  let sp3 := psum (sts.map (fun x => x.2.2))
  let tot3 := (sts.map (fun x => x.2.2)).sum
  let A : AnsShape := ⟨sp1, id1, sp2, id2, sts.map (fun x => x.2.1), sp3, old2new flags⟩
  let (arcs, ids3) ← newToOldRows maxSize sp3 tot3 (keepArc v b d.carcs d.infos d.T sc cut A)
  let outs ← (arcs.zip ids3).mapM (fun p => outArc v b d.carcs d.infos d.T sc A p.1 p.2)
  let sp3' ← rowIdsToRowSplits ids3 (sp3.length - 1)
  let sh ← removeAxis [(sp1, id1), (sp2, id2), (sp3', ids3)] 1
  match sh with
  | [(a1, i1), (a2, i2)] =>
    some (⟨a1, i1, a2, i2, outs.map Prod.fst⟩, outs.map (fun x => x.2.1), outs.map (fun x => x.2.2))
  | _ => none

/-- `IntersectDense`, 1045-1073: `map` is `a_to_b_map`, `neg` is minus the beam.  The result is the FsaVec,
`arc_map_a` and `arc_map_b`. -/
def intersectDense [LT S] [DecidableLT S] (dev : Dev) (debug : Bool) (fuel maxSize : Nat)
    (dec : S → Nat → Nat → S) (v : FsaVec S) (b : Dense S) (map : List Nat) (neg : S)
    (maxStates maxArcs : Nat) : Option (FsaVec S × List Nat × List Nat) :=
  if map.Pairwise (· ≤ ·) ∧ neg < 0 then do
    let d ← denseInit dev debug v b map
    let s0 ← doStep0 v.id1 d.infos (v.sp2.length - 1)
    let sc ← runSteps (doStep v b d) s0 d.T
    let (cut, flags) ← beamLoop v d.infos d.T sc dec maxStates maxArcs fuel neg
    formatOutput maxSize v b d sc cut flags
  else none

end Verif.Fsa.Dn
