import Verif.Fsa.Core
import Mathlib.Algebra.Field.Defs
import Mathlib.Algebra.Order.Monoid.WithTop
import Mathlib.Data.List.Sort
import Mathlib.Data.List.SplitBy

/-!
# RNN-T decoding (k2/csrc/rnnt_decode.cu, rnnt_decode.h)

Scores are elements of an ordered field `K` or minus infinity (`WithBot K`); rounding, NaN and plus
infinity are not modelled.  `none` stands for a failed check, a division by zero or an access outside an
array.  The ragged tensors are nested lists; the arcs of a stream are numbered through after the first
pruning pass, as the code does over all streams: sorting, grouping and pruning are all done within a
stream, and the only number that is taken over all streams (`total_elements` of `PruneRagged`) is a
parameter here.  Sorting is stable (`std::stable_sort` on the CPU, a merge sort on the GPU).  Numbers of
type `int32_t` and `int64_t` do not overflow.  The contexts of the devices are not modelled.
-/

namespace Verif.Rnnt.Dec
open Verif.Fsa

/-- `RnntDecodingConfig`, k2/csrc/rnnt_decode.h 52-93. -/
structure Cfg (K : Type) where
  vocab : Nat
  hist : Nat
  beam : K
  maxStates : Int
  maxContexts : Int

/-- A decoding graph, [state][arc]. -/
abbrev Graph (S : Type) := List (List (Arc S))

/-- `ArcInfo`, rnnt_decode.h 95-113. -/
structure Ai (S : Type) where
  arc : Int
  score : S
  label : Int
  dst : Nat
  deriving DecidableEq

/-- An arc after the first pruning pass: the entries of `arcs`, `states` and `scores` for it
(rnnt_decode.cu 471-477). -/
structure Pend (S : Type) where
  arc : Int
  score : S
  label : Int
  dest : Nat
  fin : S
  deriving DecidableEq

/-- The active states and their scores, [context][state] (`states` and `scores`, which have the same
shape). -/
abbrev States (S : Type) := List (List (Nat × S))

/-- The arcs of a frame, [context][state][arc]. -/
abbrev Frame (S : Type) := List (List (List (Ai S)))

/-- `RnntDecodingStream`, rnnt_decode.h 115-139. -/
structure Stream (S : Type) where
  graph : Graph S
  states : States S
  frames : List (Frame S)
  deriving DecidableEq

/-- `RnntDecodingStreams`, rnnt_decode.h 141-402. -/
structure Streams (S : Type) where
  attached : Bool
  srcs : List (Stream S)
  states : List (States S)
  prev : List (List (Frame S))
  deriving DecidableEq

section
variable {K : Type} [Field K] [LinearOrder K]

local notation "S" => WithBot K

/-- Subtract a number from a score. -/
def sub (x : S) (k : K) : S := x + ((-k : K) : S)

/-- `MaxPerSublist` with minus infinity as default value. -/
def maxOf (l : List S) : S := l.foldr max ⊥

/-- `CreateStream`, rnnt_decode.cu 33-47. -/
def createStream (g : Graph S) : Stream S := ⟨g, [[(0, 0)]], []⟩

/-- `GetContexts`, lines 137-164, for the contexts of one stream.  A context without a state would read a
value of another context. -/
def contexts (cfg : Cfg K) (n : Nat) (states : States S) : Option (List (List Nat)) :=
  states.mapM (fun ctx =>
    match ctx with
    | [] => none
    | (v, _) :: _ =>
      if n = 0 ∨ cfg.vocab = 0 then none
      else some ((List.range cfg.hist).map (fun col =>
        (v / n) % cfg.vocab ^ (cfg.hist - col) / cfg.vocab ^ (cfg.hist - col - 1))))

/-- `logprobs_acc(idx01, label)` for the row of a context. -/
def look (row : List S) (label : Int) : Option S := if 0 ≤ label then row[label.toNat]? else none

/-- The log-prob for the first pruning pass, lines 325-326: "make final probability 1". -/
def passLp (row : List S) (a : Arc S) : Option S := if a.label = -1 then some 0 else look row a.label

/-- The first pruning pass for an arc of the graph, lines 302-340; `best` is the largest score of the
stream and `s` that of the state. -/
def keepArc (cfg : Cfg K) (row : List S) (best s : S) (a : Arc S) : Option Bool :=
  if a.label = 0 then some true
  else do
    let lp ← passLp row a
    some (decide (sub best cfg.beam ≤ s + a.score + lp))

/-- The context after an arc, lines 533-546. -/
def newCtx (cfg : Cfg K) (ctx : Nat) (a : Arc S) : Option Nat :=
  if a.label = 0 ∨ a.label = -1 then some ctx
  else if cfg.hist = 0 ∨ cfg.vocab = 0 ∨ a.label < 0 then none
  else some (ctx % cfg.vocab ^ (cfg.hist - 1) * cfg.vocab + a.label.toNat)

/-- The log-prob of an arc, lines 552-557: that of blank for a final arc. -/
def arcLp (row : List S) (a : Arc S) : Option S := if a.label = -1 then look row 0 else look row a.label

/-- `lambda_populate_arcs_states_scores` for arc `idx` of the graph, lines 525-566. -/
def pendArc (cfg : Cfg K) (n : Nat) (row : List S) (v : Nat) (s : S) (idx : Nat) (a : Arc S) :
    Option (Pend S) := do
  let ctx ← newCtx cfg (v / n) a
  let lp ← arcLp row a
  some ⟨idx, a.score + lp, a.label, ctx * n + a.dst, s + a.score + lp⟩

/-- `ExpandArcs`, `DoFisrtPassPruning` and `lambda_populate_arcs_states_scores` for one state, lines
225-245, 291-341, 487-566: the implicit self-loop and the arcs of the graph that are kept.  The final
state has no arc. -/
def expand (cfg : Cfg K) (g : Graph S) (row : List S) (best : S) (x : Nat × S) : Option (List (Pend S)) :=
  if g.length = 0 then none
  else if x.1 % g.length + 1 = g.length then some []
  else do
    let lp ← look row 0
    let arcs ← g[x.1 % g.length]?
    let kept ← arcs.zipIdx.mapM (fun a => do
      let keep ← keepArc cfg row best x.2 a.1
      if keep then do
        let p ← pendArc cfg g.length row x.1 x.2 ((g.take (x.1 % g.length)).flatten.length + a.2) a.1
        some [p]
      else some [])
    some (⟨-1, lp, 0, x.1, x.2 + lp⟩ :: kept.flatten)

/-- The arcs after the first pass, [context][state][arc], lines 428-567 for one stream; `rows` has a row of
log-probs for each context. -/
def pass1 (cfg : Cfg K) (g : Graph S) (rows : List (List S)) (states : States S) :
    Option (List (List (List (Pend S)))) :=
  if rows.length = states.length then
    let best := maxOf (states.flatten.map Prod.snd)
    (states.zip rows).mapM (fun c => c.1.mapM (expand cfg g c.2 best))
  else none

/-- The destination of arc `i`. -/
def destOf (items : List (Pend S)) (i : Nat) : Nat := (items[i]?.map Pend.dest).getD 0

/-- The score after arc `i`. -/
def finOf (items : List (Pend S)) (i : Nat) : S := (items[i]?.map Pend.fin).getD ⊥

/-- `SortSublists` and `GroupStatesByContexts`, lines 345-420 and 572-575: the numbers of the arcs, sorted
by destination, [context][state][arc].  There is a boundary where the next value or its context is
different. -/
def group (n : Nat) (items : List (Pend S)) : List (List (List Nat)) :=
  let sorted := (List.range items.length).insertionSort (fun i j => destOf items i ≤ destOf items j)
  (sorted.splitBy (fun i j => destOf items i / n == destOf items j / n)).map
    (fun ctx => ctx.splitBy (fun i j => destOf items i == destOf items j))

/-- `PruneRaggedAxis1` (k2/csrc/ragged_ops_inl.h 873-930) for one list of axis 0: `subs` are the maxima
of its sublists, and `total` is the number of sublists of all lists.  Entry `i` tells whether to keep
sublist `i`; the code writes it from its place in the sorted order. -/
def pruneKeep (total : Nat) (beam : K) (maxElems : Int) (subs : List S) : List Bool :=
  let best := maxOf subs
  if 0 < maxElems ∧ maxElems < total then
    let order := (List.range subs.length).insertionSort (fun i j => subs.getD j ⊥ ≤ subs.getD i ⊥)
    subs.zipIdx.map (fun x =>
      !(decide (maxElems ≤ (order.idxOf x.2 : Nat)) || decide (x.1 < sub best beam)))
  else subs.map (fun x => decide (sub best beam ≤ x))

/-- `SubsetRagged` on the axis of the elements: keep the elements with flag true. -/
def keepFlags {α : Type} (l : List α) (flags : List Bool) : List α :=
  ((l.zip flags).filter Prod.snd).map Prod.fst

/-- Cut a list into pieces with the lengths of the pieces of `shape`. -/
def reshape {α β : Type} : List (List α) → List β → List (List β)
  | [], _ => []
  | r :: shape, l => l.take r.length :: reshape shape (l.drop r.length)

/-- The maximum of the sublist of arcs of each state of a stream. -/
def stateMax (items : List (Pend S)) (groups : List (List (List Nat))) : List S :=
  groups.flatten.map (fun arcs => maxOf (arcs.map (finOf items)))

/-- The first half of `PruneTwice`, lines 176-193: prune the states of a stream; `total` is the number of
states of all streams. -/
def pruneStates (cfg : Cfg K) (total : Nat) (items : List (Pend S)) (groups : List (List (List Nat))) :
    List (List (List Nat)) :=
  let flags := reshape groups (pruneKeep total cfg.beam cfg.maxStates (stateMax items groups))
  List.zipWith keepFlags groups flags

/-- The second half of `PruneTwice`, lines 195-206: prune the contexts of a stream; `total` is the number
of contexts of all streams. -/
def pruneContexts (cfg : Cfg K) (total : Nat) (items : List (Pend S)) (groups : List (List (List Nat))) :
    List (List (List Nat)) :=
  keepFlags groups (pruneKeep total cfg.beam cfg.maxContexts
    (groups.map (fun ctx => maxOf (ctx.flatten.map (finOf items)))))

/-- The states for the next frame, lines 589-617: the value of the first arc and the largest score. -/
def nextStates (items : List (Pend S)) (groups : List (List (List Nat))) : Option (States S) :=
  groups.mapM (fun ctx => ctx.mapM (fun arcs =>
    match arcs with
    | [] => none
    | i :: _ => some (destOf items i, maxOf (arcs.map (finOf items)))))

/-- The arcs of the frame, lines 619-671: the arcs that are left, in the original order, with the number
of the state in the stream as destination.  The code writes the number of its state to each arc; here each
arc looks for the state it is in. -/
def frameArcs (nested : List (List (List (Pend S)))) (groups : List (List (List Nat))) : Frame S :=
  let states := groups.flatten
  let items := nested.flatten.flatten
  let out : List (List (Ai S)) := items.zipIdx.map (fun p =>
    match states.findIdx? (fun arcs => arcs.contains p.2) with
    | none => []
    | some k => [⟨p.1.arc, p.1.score, p.1.label, k⟩])
  reshape nested ((reshape nested.flatten out).map List.flatten)

/-- The constructor, rnnt_decode.cu 49-79. -/
def mkStreams (srcs : List (Stream S)) : Option (Streams S) :=
  if 1 ≤ srcs.length then some ⟨true, srcs, srcs.map Stream.states, []⟩ else none

/-- `GetContexts`, lines 120-165: for each stream the contexts. -/
def getContexts (cfg : Cfg K) (x : Streams S) : Option (List (List (List Nat))) :=
  (x.srcs.zip x.states).mapM (fun s => contexts cfg s.1.graph.length s.2)

/-- `Advance`, lines 432-672; `logprobs` has a row for each context of all streams. -/
def advance (cfg : Cfg K) (logprobs : List (List S)) (x : Streams S) : Option (Streams S) :=
  if x.attached ∧ logprobs.length = x.states.flatten.length ∧ (∀ r ∈ logprobs, r.length = cfg.vocab) then do
    let rows := reshape x.states logprobs
    let arcs ← ((x.srcs.zip x.states).zip rows).mapM (fun s => pass1 cfg s.1.1.graph s.2 s.1.2)
    let groups := (x.srcs.zip arcs).map (fun s => group s.1.graph.length s.2.flatten.flatten)
    let total := (groups.map (fun g => g.flatten.length)).sum
    let temp := (arcs.zip groups).map (fun s => pruneStates cfg total s.1.flatten.flatten s.2)
    let totalC := (temp.map List.length).sum
    let ans := (arcs.zip temp).map (fun s => pruneContexts cfg totalC s.1.flatten.flatten s.2)
    let states ← (arcs.zip ans).mapM (fun s => nextStates s.1.flatten.flatten s.2)
    some { x with states := states, prev := x.prev ++ [(arcs.zip ans).map (fun s => frameArcs s.1 s.2)] }
  else none

/-- `TerminateAndFlushToStreams`, lines 81-118. -/
def flush (x : Streams S) : Streams S :=
  if !x.attached || x.prev.isEmpty then x
  else
    { attached := false
      srcs := (x.srcs.zip x.states).zipIdx.map (fun s =>
        { s.1.1 with states := s.1.2, frames := s.1.1.frames ++ x.prev.filterMap (fun f => f[s.2]?) })
      states := x.states
      prev := [] }

/-! ## FormatOutput -/

/-- `GatherPrevFrames`, lines 674-715, for one stream: its first `m` frames, padded on the left to `T`. -/
def gather (T m : Nat) (s : Stream S) : Option (List (Frame S)) :=
  if m ≤ s.frames.length then some (List.replicate (T - m) [] ++ s.frames.take m) else none

/-- The arcs of the last frame that are kept, lines 742-792. -/
def finalArcs (part : Bool) (f : Frame S) : Frame S :=
  let hasFinal := f.flatten.flatten.any (fun a => a.label = -1)
  f.map (fun c => c.map (fun q => q.filter (fun a => decide (a.label = -1) || (part && !hasFinal))))

/-- `lambda_set_arcs`, lines 897-979, for an arc of state `src` of frame `t` of `T`; `next` is the number
of the first state of the next frame. -/
def outArc (g : Graph S) (T t src next : Nat) (ai : Ai S) : Option (Arc S × Int) :=
  if t + 1 = T then some (⟨src, next, -1, 0⟩, -1)
  else if ai.arc = -1 ∨ ai.label = -1 then some (⟨src, next + ai.dst, 0, ai.score⟩, ai.arc)
  else do
    let a ← if 0 ≤ ai.arc then g.flatten[ai.arc.toNat]? else none
    some (⟨src, next + ai.dst, a.label, ai.score⟩, ai.arc)

/-- `arc_map_b`, lines 964-979: `sizes` are the numbers of contexts, [t][stream]; `i` is the stream, `t`
its frame and `c` the context. -/
def tokenMap (vocab : Nat) (sizes : List (List Nat)) (i t c : Nat) (label : Int) : Option Int :=
  do
    let row ← sizes[t]?
    let _ ← row[i]?
    some (if label = -1 then -1 else (((sizes.take t).map List.sum).sum + (row.take i).sum + c : Nat) * (vocab : Int) + label)

/-- The arcs of the states of one frame, with the arc maps; `src` is the number of the first state, `next`
that of the first state of the next frame, `u` the number of the frame without the padding. -/
def outFrame (cfg : Cfg K) (sizes : Option (List (List Nat))) (g : Graph S) (i T t u src next : Nat) (f : Frame S) :
    Option (List (List (Arc S × Int × Int))) :=
  let states := f.zipIdx.flatMap (fun c => c.1.map (fun q => (c.2, q)))
  states.zipIdx.mapM (fun q => q.1.2.mapM (fun ai => do
    let o ← outArc g T t (src + q.2) next ai
    match sizes with
    | none => some (o.1, o.2, 0)
    | some sizes => do
      let b ← tokenMap cfg.vocab sizes i u q.1.1 o.1.label
      some (o.1, o.2, b)))

/-- All frames of a stream from frame `t` on; `src` is the number of the first state of frame `t`. -/
def outFrames (cfg : Cfg K) (sizes : Option (List (List Nat))) (g : Graph S) (i T pad : Nat) :
    Nat → Nat → List (Frame S) → Option (List (List (Arc S × Int × Int)))
  | _, _, [] => some [[]]
  | t, src, f :: fs => do
    let next := src + f.flatten.length
    let rows ← outFrame cfg sizes g i T t (t - pad) src next f
    let rest ← outFrames cfg sizes g i T pad (t + 1) next fs
    some (rows ++ rest)

/-- `FormatOutput`, lines 725-987: for each stream the arcs with the two arc maps, [state][arc].  `sizes`
are the numbers of contexts of `t2s2c_shape`. -/
def formatOutput (cfg : Cfg K) (numFrames : List Nat) (part : Bool) (sizes : Option (List (List Nat)))
    (x : Streams S) : Option (List (List (List (Arc S × Int × Int)))) :=
  let T := numFrames.foldr max 0
  if x.attached ∨ numFrames.length ≠ x.srcs.length ∨ T = 0 then none
  else (x.srcs.zip numFrames).zipIdx.mapM (fun s => do
    let fs ← gather T s.1.2 s.1.1
    outFrames cfg sizes s.1.1.graph s.2 T (T - s.1.2) 0 0
      (fs.take (T - 1) ++ (fs.drop (T - 1)).map (finalArcs part)))

end

end Verif.Rnnt.Dec
