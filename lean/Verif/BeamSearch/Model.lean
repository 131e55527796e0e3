import Mathlib.Data.List.Basic

/-!
# Model of `GreedySearch` and `ModifiedBeamSearch`

k2/torch/csrc/beam_search.cu, k2/torch/csrc/hypothesis.{h,cu}.

The networks are functions that act on each row of a batch by itself: `decode` is the decoder followed
by `decoder_proj` on one row of `context_size` tokens, `join` the joiner on one projected frame and one
decoder output.  In greedy search `join` returns logits, in beam search probabilities (after
`log_softmax`).  Scores are probabilities: adding log-probs is `*`, `LogAdd` is `+`; rounding is not
modelled.  An error of torch, a read out of bounds and undefined behaviour are `none`.
-/

namespace Verif.BeamSearch

/-- The model and its attributes (lines 120-136). -/
structure Net (F D P : Type) where
  decode : List Nat → D
  join : F → D → List P
  blank : Nat
  unk : Nat
  ctx : Nat

/-- `pack_padded_sequence` with `enforce_sorted = false` (lines 116-119): `sorted` is the order of the
utterances by decreasing length (ties in any order).  `batch_sizes[t]` is the number of utterances that
are longer than `t`. -/
def batchSize (lens : List Nat) (t : Nat) : Nat := lens.countP (t < ·)

/-- The frames of time `t` in `packed_seq.data()`. -/
def packedRow {F : Type} (enc : Nat → Nat → F) (lens sorted : List Nat) (t : Nat) : List F :=
  (sorted.take (batchSize lens t)).map fun k => enc k t

def numBatches (lens : List Nat) : Nat := lens.foldr max 0

/-- `packed_seq.data()`. -/
def packedData {F : Type} (enc : Nat → Nat → F) (lens sorted : List Nat) : List F :=
  (List.range (numBatches lens)).flatMap (packedRow enc lens sorted)

/-- `packed_seq.batch_sizes()`. -/
def batchSizes (lens : List Nat) : List Nat := (List.range (numBatches lens)).map (batchSize lens)

/-- Lines 58-60, 75-78: the last `context_size` tokens. -/
def context (c : Nat) (ys : List Nat) : Option (List Nat) :=
  if c ≤ ys.length then some (ys.drop (ys.length - c)) else none

variable {F D P : Type}

/-- Lines 184-187, 361-363. -/
def emit (net : Net F D P) (ys : List Nat) (tok : Nat) : List Nat :=
  if tok ≠ net.blank ∧ tok ≠ net.unk then ys ++ [tok] else ys

/-! ## `GreedySearch` -/

/-- The variables of the loop: the frames from `offset` on, `hyps`, `decoder_input.size(0)` and
`decoder_out`. -/
structure Greedy (F D : Type) where
  rest : List F
  hyps : List (List Nat)
  rows : Nat
  decOut : List D

/-- Lines 159-201: one iteration. -/
def Greedy.step (net : Net F D P) (argmax : List P → Nat) (st : Greedy F D) (cb : Nat) :
    Option (Greedy F D) :=
  let cur := st.rest.take cb
  let rest := st.rest.drop cb
  let decOut := if cb < st.decOut.length then st.decOut.take cb else st.decOut
  if cur.length ≠ cb ∨ decOut.length ≠ cb ∨ st.hyps.length < cb then none
  else
    let maxi := (List.zipWith net.join cur decOut).map argmax
    let hyps := List.zipWith (emit net) (st.hyps.take cb) maxi ++ st.hyps.drop cb
    if maxi.any fun t => t ≠ net.blank ∧ t ≠ net.unk then
      let rows := if cb < st.rows then cb else st.rows
      if hyps.length < rows then none
      else
        match (hyps.take rows).mapM (context net.ctx) with
        | none => none
        | some input => some ⟨rest, hyps, rows, input.map net.decode⟩
    else some ⟨rest, hyps, st.rows, decOut⟩

/-- Lines 106-214: `GreedySearch` for `n` utterances. -/
def greedySearch (net : Net F D P) (argmax : List P → Nat) (enc : Nat → Nat → F)
    (lens sorted : List Nat) : Option (List (List Nat)) :=
  let n := lens.length
  let blanks := List.replicate net.ctx net.blank
  let init : Greedy F D :=
    ⟨packedData enc lens sorted, List.replicate n blanks, n, List.replicate n (net.decode blanks)⟩
  match (batchSizes lens).foldlM (Greedy.step net argmax) init with
  | none => none
  | some st => (List.range n).mapM fun i => st.hyps[sorted.idxOf i]?.map (·.drop net.ctx)

/-! ## `ModifiedBeamSearch` -/

/-- hypothesis.h 31-52. -/
structure Hyp (P : Type) where
  ys : List Nat
  prob : P
deriving DecidableEq

/-- hypothesis.h 44: `Key`, for the decimal representation `dec`. -/
def key (dec : Nat → List Char) (ys : List Nat) : List Char :=
  List.intercalate ['-'] (ys.map dec)

/-- hypothesis.cu 26-34: `Add`.  The dictionary is the list of its entries in the order of insertion. -/
def addHyp [Add P] (dec : Nat → List Char) (h : Hyp P) : List (Hyp P) → List (Hyp P)
  | [] => [h]
  | x :: xs =>
    if key dec x.ys = key dec h.ys then ⟨x.ys, x.prob + h.prob⟩ :: xs else x :: addHyp dec h xs

/-- What the search does not determine: the order in which an `unordered_map` is traversed, what
`topk` returns (values and indexes; `none` is an error), and the order in which `GetMostProbable`
compares. -/
structure Env (P : Type) where
  dec : Nat → List Char
  iter : List (Hyp P) → List (Hyp P)
  topk : Nat → List P → Option (List (P × Nat))

/-- The variables of the loop. -/
structure Beam (F P : Type) where
  rest : List F
  cur : List (List (Hyp P))
  finalized : List (List (Hyp P))

/-- Lines 92-104: `GetHypsShape`, the row splits. -/
def rowSplits (sizes : List Nat) : List Nat :=
  sizes.foldl (fun acc s => acc ++ [acc.getLastD 0 + s]) [0]

/-- `RowIds(1)` of the shape. -/
def rowIds (sizes : List Nat) : List Nat :=
  (List.range sizes.length).flatMap fun i => List.replicate (sizes.getD i 0) i

/-- Lines 355-369: the new hypotheses of an utterance from the result of `topk`. -/
def extend [Add P] (net : Net F D P) (env : Env P) (V start : Nat) (prev : List (Hyp P))
    (top : List (P × Nat)) : Option (List (Hyp P)) :=
  top.foldlM (fun hyps e =>
    match prev[start + e.2 / V]? with
    | none => none
    | some h => some (addHyp env.dec ⟨emit net h.ys (e.2 % V), e.1⟩ hyps)) []

/-- Lines 338-371: utterance `k`. -/
def Beam.utt [Add P] (net : Net F D P) (env : Env P) (V m : Nat) (splits : List Nat)
    (prev : List (Hyp P)) (flat : List P) (k : Nat) : Option (List (Hyp P)) :=
  match splits[k]?, splits[k + 1]? with
  | some s, some e =>
    match env.topk m ((flat.take (e * V)).drop (s * V)) with
    | none => none
    | some top => extend net env V s prev top
  | _, _ => none

/-- Lines 262-372: one iteration. -/
def Beam.step [Add P] [Mul P] (net : Net F D P) (env : Env P) (V m : Nat) (st : Beam F P)
    (cb : Nat) : Option (Beam F P) :=
  let encOut := st.rest.take cb
  let rest := st.rest.drop cb
  let fin := if cb < st.cur.length then
    (st.cur.drop cb).reverse.foldl (fun f h => h :: f) st.finalized else st.finalized
  let cur := if cb < st.cur.length then st.cur.take cb else st.cur
  let sizes := cur.map List.length
  let splits := rowSplits sizes
  let prev := cur.flatMap env.iter
  match prev.mapM fun h => context net.ctx h.ys with
  | none => none
  | some input =>
    match (rowIds sizes).mapM fun i => encOut[i]? with
    | none => none
    | some sel =>
      let probs := List.zipWith net.join sel (input.map net.decode)
      if ∃ r ∈ probs, r.length ≠ V then none
      else
        let flat := (List.zipWith (fun r (h : Hyp P) => r.map fun x => x * h.prob) probs prev).flatten
        match (List.range cb).mapM (Beam.utt net env V m splits prev flat) with
        | none => none
        | some new => some ⟨rest, new, fin⟩

/-- hypothesis.cu 36-54: `std::max_element` with the score `norm prob length`. -/
def mostProbable {Q : Type} [LT Q] [DecidableLT Q] (norm : P → Nat → Q) : List (Hyp P) → Option (Hyp P)
  | [] => none
  | h :: hs => some (hs.foldl (fun b x => if norm b.prob b.ys.length < norm x.prob x.ys.length then x
      else b) h)

/-- Lines 216-389: `ModifiedBeamSearch`; `m` is `num_active_paths`, `V` the size of the vocabulary. -/
def beamSearch {Q : Type} [LT Q] [DecidableLT Q] [Add P] [Mul P] [One P] (net : Net F D P) (env : Env P)
    (norm : P → Nat → Q) (V m : Nat) (enc : Nat → Nat → F) (lens sorted : List Nat) :
    Option (List (List Nat)) :=
  let n := lens.length
  let blanks := List.replicate net.ctx net.blank
  let init : Beam F P := ⟨packedData enc lens sorted, List.replicate n [⟨blanks, 1⟩], []⟩
  match (batchSizes lens).foldlM (Beam.step net env V m) init with
  | none => none
  | some st =>
    let cur := st.cur ++ st.finalized
    (List.range n).mapM fun i =>
      match cur[sorted.idxOf i]? with
      | none => none
      | some hyps => (mostProbable norm (env.iter hyps)).map fun h => h.ys.drop net.ctx

end Verif.BeamSearch
