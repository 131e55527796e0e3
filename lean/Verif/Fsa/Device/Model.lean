import Verif.Fsa.Vec.Model
import Verif.Fsa.Flags.Model
import Verif.Fsa.Dense.Model
import Verif.Ragged.IndexModel
import Verif.Ragged.CatModel

/-!
# `IntersectDevice` (k2/csrc/intersect.cu)

`none` stands for an access outside an array, a failed check (also of the debug mode) or a race.  The hash
from pairs of states to states is an association list: what `Hash` (k2/csrc/hash.h) guarantees for a kernel
of insertions is C61 and C62, that `Resize` keeps the pairs is C65.  The order in which the insertions of
iteration `t` take effect is an argument.  The limits on the sizes (`cutoff`, the bits of keys and values of
the hash, overflow of `int32_t`) are not modelled, and `b_to_a_map` has no negative elements.  Scores are
elements of a type with an addition.  Differences of state numbers are natural numbers: they are not negative
in valid FSAs.
-/

namespace Verif.Fsa.Idv
open Verif.Ragged Verif.Util Verif.Fsa.Dn

variable {W : Type}

/-- The members of `DeviceIntersector` that do not change, intersect.cu 1301-1318. -/
structure Args (W : Type) where
  a : FsaVec W
  b : FsaVec W
  /-- `b_to_a_map_` -/
  map : List Nat
  /-- `sorted_match_a_` -/
  sorted : Bool
  /-- The device is a GPU. -/
  gpu : Bool

/-- `b_fsas_.Dim0()`. -/
def Args.fsas (p : Args W) : Nat := p.b.sp1.length - 1

/-- `a_states_multiple_`, line 110. -/
def Args.mult (p : Args W) : Nat := (p.b.sp2.length - 1) ||| 1

/-- `ArcInfo` with the state that the arc leaves: its position in the block of the iteration, or in
`states_`. -/
structure Cand where
  si : Nat
  ia : Nat
  ib : Nat
  deriving DecidableEq

/-- `FirstIter`, lines 137-190: the pairs of start states and of final states, for the FSAs that are not
empty. -/
def firstIter (p : Args W) : Option (List (Nat × Nat) × List (Nat × Nat)) := do
  let flags ← (List.range p.fsas).mapM (fun i => do
    let b0 ← p.b.sp1[i]?
    let b1 ← p.b.sp1[i + 1]?
    let j ← p.map[i]?
    let a0 ← p.a.sp1[j]?
    let a1 ← p.a.sp1[j + 1]?
    some (decide (a0 < a1) && decide (b0 < b1)))
  let n2o ← new2old flags
  let states ← n2o.mapM (fun i => do
    let b0 ← p.b.sp1[i]?
    let j ← p.map[i]?
    let a0 ← p.a.sp1[j]?
    some (a0, b0))
  let finals ← n2o.mapM (fun i => do
    let b1 ← p.b.sp1[i + 1]?
    let j ← p.map[i]?
    let a1 ← p.a.sp1[j + 1]?
    some (a1 - 1, b1 - 1))
  some (states, finals)

/-! ## The pairs of arcs of an iteration -/

/-- The number of arcs that leave a state. -/
def outdeg (v : FsaVec W) (s : Nat) : Option Nat := do
  let x ← v.sp2[s]?
  let y ← v.sp2[s + 1]?
  some (y - x)

/-- All pairs of arcs that leave the pairs of states in `block`: `lambda_find_num_arcs`, lines 438-452,
and the first half of `lambda_set_keep_arc_newstate`, lines 555-572. -/
def crossPairs (p : Args W) (block : List (Nat × Nat)) : Option (List Cand) := do
  let nb ← block.mapM (fun s => outdeg p.b s.2)
  let na ← block.mapM (fun s => outdeg p.a s.1)
  let nab := (nb.zip na).map (fun x => x.1 * x.2)
  let tot ← (psum nab)[block.length]?
  let ids ← rowSplitsToRowIds (psum nab) tot
  (List.range tot).mapM (fun i => do
    let si ← ids[i]?
    let x ← (psum nab)[si]?
    let st ← block[si]?
    let n ← nb[si]?
    let a0 ← p.a.sp2[st.1]?
    let b0 ← p.b.sp2[st.2]?
    some ⟨si, a0 + (i - x) / n, b0 + (i - x) % n⟩)

/-- The binary search of lines 1032-1041 for the first arc whose label is not less than `label`, which has
`fuel` iterations at most. -/
def lowerLoop (arcs : List (Arc W)) (label : Int) : Nat → Nat → Nat → Option Nat
  | 0, b, e => if b < e then none else some b
  | fuel + 1, b, e =>
    if b < e then
      (arcs[(b + e) / 2]?).bind (fun x =>
        if u32 x.label < label then lowerLoop arcs label fuel ((b + e) / 2 + 1) e
        else lowerLoop arcs label fuel b ((b + e) / 2))
    else some b

/-- The linear search of lines 1057-1059 for the end of the range, in at most `n` arcs. -/
def rangeEnd (arcs : List (Arc W)) (label : Int) : Nat → Nat → Option Nat
  | 0, i => some i
  | n + 1, i => (arcs[i]?).bind (fun x => if u32 x.label = label then rangeEnd arcs label n (i + 1) else some i)

/-- `lambda_find_ranges_cpu`, lines 1021-1061: the first of the arcs `a0`, …, `a1 - 1` with the label, and
the number of them. -/
def rangeCpu (arcs : List (Arc W)) (label : Int) (a0 a1 : Nat) : Option (Nat × Nat) := do
  let b ← lowerLoop arcs label (a1 - a0) a0 a1
  if (b < a1 → ∃ x, arcs[b]? = some x ∧ label ≤ u32 x.label) ∧
      (a0 + 1 < b → ∃ x, arcs[b - 1]? = some x ∧ u32 x.label < label) then do
    let e ← rangeEnd arcs label (a1 - b) b
    some (b, e - b)
  else none

/-- `last_label`, lines 936-939. -/
def lastLabel (arcs : List (Arc W)) (a1 i : Nat) : Option Int :=
  if a1 ≤ i then some (2 ^ 64 - 1) else (arcs[i]?).map (fun x => u32 x.label)

/-- One iteration of the loop of lines 923-958 for a group of four threads: the thread whose interval has
the first label that is not less than `label` publishes where its interval begins. -/
def groupStep (arcs : List (Arc W)) (label : Int) (a1 per start : Nat) : Option Nat := do
  let last ← (List.range 4).mapM (fun t => lastLabel arcs a1 (start + t * per + per - 1))
  match (List.range 4).filter (fun t =>
      (t == 0 || decide (last.getD (t - 1) 0 < label)) && decide (label ≤ last.getD t 0)) with
  | [t] => some (start + t * per)
  | _ => none

/-- The loop of lines 923-958; `per_thread_range` is `4 ^ k` when `k + 1` iterations remain. -/
def groupSearch (arcs : List (Arc W)) (label : Int) (a1 : Nat) : Nat → Nat → Option Nat
  | 0, start => some start
  | k + 1, start => (groupStep arcs label a1 (4 ^ k) start).bind (groupSearch arcs label a1 k)

/-- `lambda_find_ranges`, lines 856-997: two groups of threads search for the label and for its successor.
The exchange between the groups with `shfl` is taken for granted. -/
def rangeGpu (arcs : List (Arc W)) (label : Int) (a0 a1 : Nat) : Option (Nat × Nat) := do
  let k := 1 + Nat.log2 ((a1 - a0) ||| 1) / 2
  if a0 + 4 ^ k ≤ a1 then none
  else do
    let lo ← groupSearch arcs label a1 k a0
    let hi ← groupSearch arcs (label + 1) a1 k a0
    some (lo, hi - lo)

/-- The arcs of `a` that match an arc of `b`. -/
def rangeOf (p : Args W) (label : Int) (a0 a1 : Nat) : Option (Nat × Nat) :=
  if p.gpu then rangeGpu p.a.arcs label a0 a1 else rangeCpu p.a.arcs label a0 a1

/-- The range of matching arcs for each arc of `b` that leaves a pair of states in `block`, lines 804-1062;
`splits` and `ids` are `num_arcs_b` and `b_arc_to_state`. -/
def ranges (p : Args W) (block : List (Nat × Nat)) (splits ids : List Nat) (n : Nat) :
    Option (List (Nat × Nat)) :=
  (List.range n).mapM (fun k => do
    let si ← ids[k]?
    let x ← splits[si]?
    let st ← block[si]?
    let b0 ← p.b.sp2[st.2]?
    let y ← p.b.arcs[b0 + (k - x)]?
    let a0 ← p.a.sp2[st.1]?
    let a1 ← p.a.sp2[st.1 + 1]?
    rangeOf p (u32 y.label) a0 a1)

/-- The pairs of arcs from the ranges `rs` of the arcs of `b`: lines 1063-1065 and the first half of
`lambda_set_arcs_and_new_state`, lines 1183-1201. -/
def expand (p : Args W) (block : List (Nat × Nat)) (splits ids : List Nat) (rs : List (Nat × Nat))
    (splits2 : List Nat) : Option (List Cand) := do
  let tot ← splits2[rs.length]?
  let ids2 ← rowSplitsToRowIds splits2 tot
  (List.range tot).mapM (fun i => do
    let k ← ids2[i]?
    let x2 ← splits2[k]?
    let si ← ids[k]?
    let x ← splits[si]?
    let st ← block[si]?
    let b0 ← p.b.sp2[st.2]?
    let r ← rs[k]?
    some ⟨si, r.1 + (i - x2), b0 + (k - x)⟩)

/-- The pairs of arcs with the same label, found by a search in the sorted arcs of `a`: lines 800-1065 and
1183-1201. -/
def sortedPairs (p : Args W) (block : List (Nat × Nat)) : Option (List Cand) := do
  let nb ← block.mapM (fun s => outdeg p.b s.2)
  let n ← (psum nb)[block.length]?
  let ids ← rowSplitsToRowIds (psum nb) n
  let rs ← ranges p block (psum nb) ids n
  expand p block (psum nb) ids rs (psum (rs.map Prod.snd))

def pairsOf (p : Args W) (block : List (Nat × Nat)) : Option (List Cand) :=
  if p.sorted then sortedPairs p block else crossPairs p block

/-! ## One iteration -/

/-- What a thread finds out about a pair of arcs. -/
structure Info where
  /-- `keep_arc` -/
  keep : Bool
  /-- The state that is entered gets a number from the hash. -/
  enters : Bool
  /-- `hash_key` -/
  key : Nat

/-- The second half of `lambda_set_keep_arc_newstate`, lines 574-592, and of
`lambda_set_arcs_and_new_state`, lines 1203-1218. -/
def infoOf (p : Args W) (block : List (Nat × Nat)) (c : Cand) : Option Info := do
  let st ← block[c.si]?
  let x ← p.a.arcs[c.ia]?
  let y ← p.b.arcs[c.ib]?
  if p.sorted = true ∧ x.label ≠ y.label then none
  else some ⟨decide (x.label = y.label), decide (x.label = y.label) && decide (x.label ≠ -1),
    x.dst * p.mult + (y.dst + st.2 - y.src)⟩

/-- The insertions of a kernel in the order in which they take effect: `hash` is the hash before the kernel,
the result tells which thread inserted a key. -/
def insertAll (infos : List Info) (hash : List (Nat × Nat)) :
    List Nat → List (Nat × Nat) → Option (List (Nat × Nat))
  | [], m => some m
  | k :: order, m => (infos[k]?).bind (fun x =>
    if x.enters = true ∧ hash.lookup x.key = none ∧ m.lookup x.key = none then
      insertAll infos hash order ((x.key, k) :: m)
    else insertAll infos hash order m)

/-- `new_dest_state`: the thread inserted the key. -/
def winners (infos : List Info) (m : List (Nat × Nat)) : List Bool :=
  infos.zipIdx.map (fun x => x.1.enters && m.lookup x.1.key == some x.2)

/-- `arcs_newstates_renumbering`, lines 549-551 and 598-611: the pairs of arcs that are kept and those that
lead to new states, from one renumbering.  With `sorted_match_a` all pairs are kept and there is a
renumbering of the new states only, lines 1143 and 1241. -/
def renumber (p : Args W) (infos : List Info) (news : List Bool) : Option (List Nat × List Nat) :=
  if p.sorted then (new2old news).map (fun l => (List.range infos.length, l))
  else do
    let keeps := infos.map Info.keep
    let n ← (old2new (keeps ++ news))[infos.length]?
    let l ← new2old (keeps ++ news)
    some (l.take n, (l.drop n).map (fun i => i - infos.length))

/-- The `StateInfo` of a new state: lines 640-667, and with `sorted_match_a` lines 1226-1229 and 1273-1278. -/
def newState (p : Args W) (block : List (Nat × Nat)) (c : Cand) (key : Nat) : Option (Nat × Nat) := do
  let st ← block[c.si]?
  let x ← p.a.arcs[c.ia]?
  let y ← p.b.arcs[c.ib]?
  if p.sorted then some (x.dst + (st.1 - x.src), key % p.mult)
  else do
    let d := y.dst + st.2 - y.src
    let i ← p.b.id1[d]?
    let j ← p.map[i]?
    let a0 ← p.a.sp1[j]?
    some (a0 + x.dst, d)

/-- `states_`, `arcs_` with `arcs_row_ids_`, `state_pair_to_state_` and
`iter_to_state_row_splits_cpu_`. -/
structure St where
  states : List (Nat × Nat)
  arcs : List Cand
  hash : List (Nat × Nat)
  iters : List Nat

/-- `ForwardOneIter`, lines 508-738, and `ForwardSortedAOneIter`, lines 1119-1281, with the parts of `Forward`
and `ForwardSortedA` that prepare them. -/
def oneIter (p : Args W) (order : Nat → List Nat) (s : St) (b e : Nat) : Option St := do
  let block := (s.states.take e).drop b
  let cands ← pairsOf p block
  let infos ← cands.mapM (infoOf p block)
  let m ← insertAll infos s.hash (order cands.length) []
  let ren ← renumber p infos (winners infos m)
  let keys ← ren.2.mapM (fun i => (infos[i]?).map Info.key)
  let news ← ren.2.mapM (fun i => (cands[i]?).bind (fun c => (infos[i]?).bind (fun x => newState p block c x.key)))
  let kept ← ren.1.mapM (fun i => cands[i]?)
  some ⟨s.states ++ news, s.arcs ++ kept.map (fun c => { c with si := c.si + b }),
    keys.zipIdx.map (fun x => (x.1, e + x.2)) ++ s.hash, s.iters ++ [e + news.length]⟩

/-- `Forward`, lines 407-489, and `ForwardSortedA`, lines 786-1091; `none` if the fuel does not suffice. -/
def forward (p : Args W) (order : Nat → Nat → List Nat) : Nat → Nat → St → Option St
  | 0, _, _ => none
  | fuel + 1, t, s => do
    let b ← s.iters[t]?
    let e ← s.iters[t + 1]?
    if e - b = 0 then some { s with iters := s.iters.dropLast }
    else (oneIter p (order t) s b e).bind (forward p order fuel (t + 1))

/-- `LastIter`, lines 196-207. -/
def lastIter (finals : List (Nat × Nat)) (s : St) : Option St :=
  if s.iters.getLast? = some s.states.length then
    some { s with states := s.states ++ finals, iters := s.iters ++ [s.states.length + finals.length] }
  else none

/-! ## Output -/

/-- `lambda_set_output_data`, lines 362-402, for the arc `i` of the output. -/
def outArc [Add W] (p : Args W) (s : St) (sp1 id1 id2 arcOrder inv : List Nat) (i : Nat) :
    Option (Arc W × Nat × Nat) := do
  let src ← id2[i]?
  let old ← arcOrder[i]?
  let c ← s.arcs[old]?
  let f ← id1[src]?
  let x ← p.a.arcs[c.ia]?
  let y ← p.b.arcs[c.ib]?
  let base ← sp1[f]?
  let dst ←
    (if x.label = -1 then (sp1[f + 1]?).map (fun n => n - 1)
     else (p.b.id2[c.ib]?).bind (fun bs =>
       (s.hash.lookup (x.dst * p.mult + (bs + y.dst - y.src))).bind (fun o => inv[o]?)) : Option Nat)
  if x.label = y.label then some (⟨src - base, dst - base, x.label, x.score + y.score⟩, c.ia, c.ib)
  else none

/-- `FormatOutputTpl`, lines 250-405: the states of all iterations are reordered so that those of one FSA
come together. -/
def format [Add W] (p : Args W) (s : St) : Option (FsaVec W × List Nat × List Nat) := do
  let iters := s.iters.length - 1
  let ids1 ← rowSplitsToRowIds s.iters s.states.length
  let ids2 ← (s.states.zip ids1).mapM (fun x => (p.b.id1[x.1.2]?).map (fun f => x.2 * p.fsas + f))
  let sp2 ← rowIdsToRowSplits ids2 (iters * p.fsas)
  let sp3 ← rowIdsToRowSplits (s.arcs.map Cand.si) s.states.length
  let (l2, stateOrder) ← indexAxis0 [sp2]
    ((List.range (iters * p.fsas)).map (fun i => ((i % iters * p.fsas + i / iters : Nat) : Int)))
  let (l3, arcOrder) ← indexAxis0 [sp3] (stateOrder.map (fun i : Nat => (i : Int)))
  let shape ← removeAxis (regularLayer p.fsas iters :: l2 ++ l3) 1
  let inv ← invertPermutation stateOrder
  match shape with
  | [(sp1, id1), (sp2', id2')] => do
    let out ← (List.range s.arcs.length).mapM (outArc p s sp1 id1 id2' arcOrder inv)
    if id2'.length = s.arcs.length then
      some (⟨sp1, id1, sp2', id2', out.map Prod.fst⟩, out.map (fun x => x.2.1), out.map (fun x => x.2.2))
    else none
  | _ => none

/-- A bound for the number of iterations: every one but the first and the last adds a key to the hash. -/
def Args.fuel (p : Args W) : Nat := (p.a.sp2.length - 1) * p.mult + 2

/-- `IntersectDevice`, lines 1354-1378.  The checks of the properties are up to the caller. -/
def intersectDevice [Add W] (p : Args W) (order : Nat → Nat → List Nat) :
    Option (FsaVec W × List Nat × List Nat) :=
  if p.map.length = p.fsas ∧ p.map.foldl max 0 < p.a.sp1.length - 1 then do
    let (s0, finals) ← firstIter p
    let s ← forward p order p.fuel 0 ⟨s0, [], [], [0, s0.length]⟩
    let s' ← lastIter finals s
    format p s'
  else none

end Verif.Fsa.Idv
