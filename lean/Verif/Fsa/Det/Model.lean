import Mathlib.Order.Defs.LinearOrder
import Mathlib.Algebra.Group.Defs
import Mathlib.Data.List.Basic
import Mathlib.Data.List.Perm.Basic
import Mathlib.Data.List.Dedup
import Verif.Fsa.Core

/-!
# `Determinize` on one FSA

Modelled code: `k2/csrc/host/determinize_impl.h` (unpruned, `MaxTracebackState`),
`k2/csrc/host/determinize.cc` (`Determinizer::GetSizes`, `GetOutput`,
`GetMostRecentCommonAncestor`, `TraceBack`), `CreateFsa` of `k2/csrc/host/fsa_util.cc` 518-576, and
`Determinize` of `k2/csrc/fsa_algo.cu` 342-362.

* `none` stands for a failed `K2_CHECK`, a null pointer or an access outside an array, and, in the
  main loop, for running out of fuel: the loop of the code is not bounded.
* Traceback states are immutable trees.  In the code `Accept` changes a traceback state only while
  its `DetState` is being built, before anything points to it.
* Sets of traceback states are compared by address in the code.  Here they are compared as trees.
  The states that one reaches from the elements of one `DetState` by the same number of steps back
  are elements of one earlier `DetState`, which has one element per input state, so the two notions
  agree (`Layer.back_inj`).
* Iteration over an `unordered_map`, and the order in which a priority queue with equal priorities
  hands out its elements, is a parameter (`Orders`): any permutation.
* The labels are keys of an `unordered_map<uint32_t, ..>`; here the keys are the labels themselves,
  which is the same for 32-bit labels.
* Scores are elements of a linearly ordered group; the rounding from `double` to `float` is not
  modelled.
-/

namespace Verif.Fsa.Det

variable {W : Type}

/-- `MaxTracebackState`, determinize_impl.h 166-224: `start` is the state made by the constructor
of lines 187-191, `step prev state arc fwd` the one of lines 202-208. -/
inductive Node (W : Type) where
  | start : Node W
  | step (prev : Node W) (state arc : Nat) (fwd : W) : Node W
  deriving DecidableEq

/-- `state_id`. -/
def Node.state : Node W → Nat
  | .start => 0
  | .step _ s _ _ => s

/-- `forward_prob`. -/
def Node.fwd [Zero W] : Node W → W
  | .start => 0
  | .step _ _ _ w => w

/-- `prev_state` (null for the start). -/
def Node.prev? : Node W → Option (Node W)
  | .start => none
  | .step p _ _ _ => some p

/-- Number of steps back to the start. -/
def Node.depth : Node W → Nat
  | .start => 0
  | .step p _ _ _ => p.depth + 1

/-- What the iteration orders of the library containers may be. -/
structure Orders (W : Type) where
  /-- order of `elements` -/
  nodes : List (Node W) → List (Node W)
  nodes_perm : ∀ l, (nodes l).Perm l
  /-- order of `label_to_state` -/
  byLabel : List (Int × List (Node W)) → List (Int × List (Node W))
  byLabel_perm : ∀ l, (byLabel l).Perm l
  /-- which element of the queue comes first; all have the same priority -/
  queue : {X : Type} → List X → List X
  queue_perm : ∀ {X : Type} (l : List X), (queue l).Perm l

/-- The arcs leaving state `s` with their positions: the arcs from `indexes[s]` to
`indexes[s + 1]`, determinize_impl.h 625-632. -/
def leaving (f : Fsa W) (s : Nat) : List (Arc W × Nat) := f.arcs.zipIdx.filter (fun x => x.1.src == s)

variable [AddCommGroup W] [LinearOrder W]

/-- `MaxTracebackState::Accept`, determinize_impl.h 214-223. -/
def Node.accept (e src : Node W) (arc : Nat) (w : W) : Node W :=
  if e.fwd < src.fwd + w then .step src e.state arc (src.fwd + w) else e

/-- `DetState::AcceptIncomingArc`, determinize_impl.h 460-471: the map from states to traceback
states is the list of the latter. -/
def acceptArc (src : Node W) (x : Arc W × Nat) : List (Node W) → List (Node W)
  | [] => [.step src x.1.dst x.2 (src.fwd + x.1.score)]
  | e :: es =>
    if e.state = x.1.dst then e.accept src x.2 x.1.score :: es else e :: acceptArc src x es

/-- determinize_impl.h 631-640: find or create the entry of the label. -/
def insertLabel (src : Node W) (x : Arc W × Nat) :
    List (Int × List (Node W)) → List (Int × List (Node W))
  | [] => [(x.1.label, acceptArc src x [])]
  | e :: es =>
    if e.1 = x.1.label then (e.1, acceptArc src x e.2) :: es else e :: insertLabel src x es

/-- The two loops of `GetDetStatesSuccessor`, determinize_impl.h 623-642. -/
def labelToState (o : Orders W) (f : Fsa W) (els : List (Node W)) : List (Int × List (Node W)) :=
  (o.nodes els).foldl (fun m n => (leaving f n.state).foldl (fun m x => insertLabel n x m) m) []

/-- `GetDetStatesSuccessor` with the check of determinize_impl.h 643-646. -/
def successors (o : Orders W) (f : Fsa W) (els : List (Node W)) :
    Option (List (Int × List (Node W))) :=
  match labelToState o f els with
  | [] =>
    match o.nodes els with
    | [] => none
    | e :: _ => if e.state = f.final then some [] else none
  | x :: l => some (x :: l)

/-- `GetMostRecentCommonAncestor`, determinize.cc 133-147, with fuel. -/
def mrca : Nat → List (Node W) → Option (Node W × Nat)
  | 0, _ => none
  | _ + 1, [] => none
  | _ + 1, [b] => some (b, 0)
  | n + 1, b :: c :: l =>
    match (b :: c :: l).mapM Node.prev? with
    | none => none
    | some ps =>
      match mrca n ps.dedup with
      | none => none
      | some (r, k) => some (r, k + 1)

/-- `TraceBack`, determinize.cc 196-214: the arcs of the last steps, in order, and where they
start. -/
def traceBack : Nat → Node W → Option (List Nat × Node W)
  | 0, n => some ([], n)
  | _ + 1, .start => none
  | k + 1, .step p _ a _ =>
    match traceBack k p with
    | none => none
    | some (l, b) => some (l ++ [a], b)

/-- `SetNormalizer`, determinize_impl.h 817-836.  `none` is `kNoWeight`; otherwise the operation is
`std::max` or `LogAdd`. -/
def normalizer (o : Orders W) (op : Option (W → W → W)) (els : List (Node W)) : Option W :=
  match op with
  | none => some 0
  | some op =>
    match o.nodes els with
    | [] => none
    | e :: es => some (es.foldl (fun t n => op t n.fwd) e.fwd)

/-- A normalized `DetState` together with what `Normalize` gives to its caller. -/
structure Norm (W : Type) where
  seqLen : Nat
  norm : W
  /-- `removed_weight` -/
  weight : W
  /-- `deriv_info` -/
  deriv : List Nat

/-- `DetState::Normalize`, determinize_impl.h 787-814.  `cur_states` is a set; the elements are
different, so it is the list of the elements. -/
def normalize (o : Orders W) (op : Option (W → W → W)) (seqLen : Nat) (els : List (Node W)) :
    Option (Norm W) :=
  match mrca (((els.head?).map Node.depth).getD 0 + 1) els with
  | none => none
  | some (b, len) =>
    if len ≤ seqLen then
      match traceBack (seqLen - len) b with
      | none => none
      | some (d, c) =>
        match normalizer o op els with
        | none => none
        | some nm => some ⟨len, nm, b.fwd - c.fwd, d⟩
    else none

/-- The loop of `DetStateToCompact`, determinize_impl.h 911-916: the symbols read (last first) and
the base state. -/
def readBack (f : Fsa W) : Nat → Node W → Option (List Int × Nat)
  | 0, n => some ([], n.state)
  | _ + 1, .start => none
  | k + 1, .step p _ a _ =>
    match f.arcs[a]? with
    | none => none
    | some arc =>
      match readBack f k p with
      | none => none
      | some (l, b) => some (arc.label :: l, b)

/-- The arithmetic of `DetStateToCompact`, determinize_impl.h 904, 911-922, modulo `2^64`. -/
def compact (key : List Int × Nat) : BitVec 64 × BitVec 64 :=
  let len := BitVec.ofNat 64 key.1.length
  let r := key.1.foldl (fun (ab : BitVec 64 × BitVec 64) s =>
    (BitVec.ofInt 64 s + 102299 * ab.1, BitVec.ofInt 64 s + 102983 * ab.2)) (17489 * len, len)
  (BitVec.ofNat 64 key.2 + 14051 * r.1, r.2)

/-- `DetStateToCompact`, determinize_impl.h 899-923: the first element in the iteration order is
read. -/
def compactOf (o : Orders W) (f : Fsa W) (seqLen : Nat) (els : List (Node W)) :
    Option (BitVec 64 × BitVec 64) :=
  match o.nodes els with
  | [] => none
  | e :: _ => (readBack f seqLen e).map compact

/-- A normalized `DetState` in the queue. -/
structure DState (W : Type) where
  id : Nat
  seqLen : Nat
  norm : W
  els : List (Node W)

/-- The variables of `GetSizes`: `map_` (the state number is the position of the key), `queue`, and
`arcs_` with `arc_derivs_`. -/
structure St (W : Type) where
  map : List (BitVec 64 × BitVec 64)
  queue : List (DState W)
  arcs : List (Arc W × List Nat)

/-- `arc_weight`, determinize_impl.h 711-715. -/
def arcWeight (op : Option (W → W → W)) (d : DState W) (nz : Norm W) : W :=
  match op with
  | none => nz.weight
  | some _ => nz.norm - d.norm

/-- One iteration of the loop of `ProcessArcs`, determinize_impl.h 702-723, with
`GetOutputState`, lines 861-874. -/
def processLabel (o : Orders W) (op : Option (W → W → W)) (f : Fsa W) (d : DState W) (st : St W)
    (x : Int × List (Node W)) : Option (St W) :=
  match normalize o op (d.seqLen + 1) x.2 with
  | none => none
  | some nz =>
    match compactOf o f nz.seqLen x.2 with
    | none => none
    | some c =>
      let w := arcWeight op d nz
      if c ∈ st.map then
        some { st with arcs := st.arcs ++ [(⟨d.id, st.map.idxOf c, x.1, w⟩, nz.deriv)] }
      else
        some ⟨st.map ++ [c], st.queue ++ [⟨st.map.length, nz.seqLen, nz.norm, x.2⟩],
          st.arcs ++ [(⟨d.id, st.map.length, x.1, w⟩, nz.deriv)]⟩

/-- `ProcessArcs`, determinize_impl.h 690-725. -/
def processArcs (o : Orders W) (op : Option (W → W → W)) (f : Fsa W) (d : DState W) (st : St W) :
    Option (St W) :=
  match successors o f d.els with
  | none => none
  | some l => (o.byLabel l).foldlM (processLabel o op f d) st

/-- The loop of `GetSizes`, determinize.cc 51-57 (`max_step_` is not a limit: `fsa_algo.cu` 345
passes -1). -/
def mainLoop (o : Orders W) (op : Option (W → W → W)) (f : Fsa W) : Nat → St W → Option (St W)
  | 0, st => if st.queue.isEmpty then some st else none
  | n + 1, st =>
    match o.queue st.queue with
    | [] => some st
    | d :: q =>
      match processArcs o op f d { st with queue := q } with
      | none => none
      | some st' => mainLoop o op f n st'

/-- determinize.cc 37-50: the start state. -/
def startSt (o : Orders W) (f : Fsa W) : Option (St W) :=
  match compactOf o f 0 [(Node.start : Node W)] with
  | none => none
  | some c => some ⟨[c], [⟨0, 0, 0, [.start]⟩], []⟩

/-- `num_states_out`, determinize.cc 61-69, and `num_states` of `CreateFsa`, fsa_util.cc 535-542. -/
def numStatesOut (arcs : List (Arc W × List Nat)) : Nat :=
  arcs.foldl (fun n x => max n (max x.1.src x.1.dst + 1)) 0

/-- fsa_util.cc 528-534: all arcs with label -1 enter the same state. -/
def oldFinal : Option Nat → List (Arc W × List Nat) → Option (Option Nat)
  | r, [] => some r
  | r, x :: xs =>
    if x.1.label = -1 then
      match r with
      | none => oldFinal (some x.1.dst) xs
      | some s => if x.1.dst = s then oldFinal (some s) xs else none
    else oldFinal r xs

/-- `new_to_old`, fsa_util.cc 548-554. -/
def newToOld (n fin : Nat) : List Nat :=
  List.range fin ++ List.range' (fin + 1) (n - 1 - fin) ++ [fin]

/-- The loop of `CreateFsa`, fsa_util.cc 555-573, with the derivatives put in the order of the arc
map as `GetOutput`, determinize.cc 93-101, does. -/
def moveArcs (arcs : List (Arc W × List Nat)) (n2o : List Nat) : List (Arc W × List Nat) :=
  n2o.zipIdx.flatMap fun s =>
    (arcs.filter fun x => x.1.src == s.1).map fun x =>
      (⟨s.2, n2o.idxOf x.1.dst, x.1.label, x.1.score⟩, x.2)

/-- `CreateFsa`, fsa_util.cc 518-576, and `GetOutput`.  Without an arc of label -1,
`old_final_state` is -1 and line 546 reads outside the array. -/
def createFsa (arcs : List (Arc W × List Nat)) : Option (Fsa W × List (List Nat)) :=
  if arcs.isEmpty then some (⟨0, []⟩, [])
  else
    match oldFinal none arcs with
    | none => none
    | some none => none
    | some (some fin) =>
      if arcs.any (fun x => x.1.src == fin) then none
      else
        let out := moveArcs arcs (newToOld (numStatesOut arcs) fin)
        some (⟨numStatesOut arcs, out.map Prod.fst⟩, out.map Prod.snd)

/-- `Determinize` on one FSA, fsa_algo.cu 342-362: the FSA and the arc derivatives. -/
def determinize (o : Orders W) (op : Option (W → W → W)) (fuel : Nat) (f : Fsa W) :
    Option (Fsa W × List (List Nat)) :=
  if f.numStates = 0 then some (⟨0, []⟩, [])
  else
    match startSt o f with
    | none => none
    | some st =>
      match mainLoop o op f fuel st with
      | none => none
      | some st' => createFsa st'.arcs

end Verif.Fsa.Det
