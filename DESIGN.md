# Formal model of k2 in Lean 4: design

Source: `/repo` (k2-fsa/k2, pinned commit, read as text; never built or run).
Properties: `properties.jsonl`. Claims and theorem names: `MANIFEST.json`.
Lean project: `lean/`, modules under `lean/Verif/`.

## Conventions

* Each component has a *model* file (definitions that mirror the code, each with a
  comment citing file and lines), helper-lemma files, and a *property* file
  (`...Props.lean`) that contains only specifications, property theorems and
  concrete witnesses for their hypotheses.
* C++ `int32_t` sizes and indexes are `Nat`/`Int`, unbounded, except in the hash
  model, where arithmetic is in `ZMod (2^k)` because the property is about wrap-around.
* `K2_CHECK`/`assert`/exceptions are values (`Option`/`Except`): a failing check gives
  `none`/`error`.
* Scores (`float`/`double`) are elements of an arbitrary algebraic structure: an
  additive commutative monoid for path scores, a linear ordered one for best paths, a
  commutative semiring for sums over paths. Rounding is not modelled.
* `K2_EVAL` kernels are modelled by a map over the index range: each lambda writes only
  its own output index (this is checked by reading for each function), so the order of
  execution does not matter. Where kernels do interact (top sort decrements, connect,
  the determinizer's hash maps, the thread pool), the order is a parameter of the model and
  the theorems quantify over it.
* A read or write out of bounds, a read of unwritten memory and a failed extraction from a
  stream are `none`, so a theorem that says a call returns `some` also says that they do
  not happen.
* An `Fsa` is a number of states and the list of arcs in storage order (grouped by source
  state). An `FsaVec` is a list of `Fsa`, unless the property is about the flattened
  layout.
* Accepting path: a list of arcs (or arc positions) that is connected, starts at state 0
  and ends in the last state. The *string* of a path is its labels without 0 (epsilon)
  and without -1 (final).

## Trusted base

* Lean 4.33.0 kernel; axioms at most `propext`, `Classical.choice`, `Quot.sound`
  (checked with `#print axioms`; none added; no `sorry`, `native_decide`, `bv_decide`).
* The reading of `/repo` that produced the model definitions. Nothing ties the model to
  the code mechanically.
* Not modelled: floating-point rounding, CUDA execution and memory, allocator, pybind
  glue, torch autograd engine, file I/O.
* C61-C66 assume sequentially consistent memory.  The order of threads is arbitrary.

## What is modelled, and how it is proved

One row per property. The directory is below `lean/Verif/`; the properties that only hold
in part have a negation with a witness and a `_partial` theorem in the same directory.

| Id | Directory | Model | Proof idea |
|----|-----------|-------|-----------|
| C01-C04 | `SymbolTable` | two association lists + next id; `add`, `merge`, `from_str`, `to_str` branch by branch | invariant by induction over the call list; round trip by induction over lines |
| C05-C10 | `Ragged` | `RaggedShape` = list of row_splits layers; `Index` (every axis), `RemoveAxis`, `Unsqueeze`, `Stack`/`Cat`/`Unstack` (every axis), `Merge`, `Transpose`, `Prefix`, `Arange`, `AddSuffix`, ... | refinement to nested lists; index arithmetic |
| C11, C12 | `Ragged` | hash recurrences in a commutative ring, any bracketing; `UniqueSequences` | monoid homomorphism; negation by an explicit collision |
| C13 | `Fsa/Tensor` | flat int32 layout of FSAs and FsaVecs, both directions | round trip |
| C14, C15 | `Fsa/Flags` | per-arc flag computation on neighbours in a flat FsaVec | equivalence with definitions by all pairs of arcs and by paths |
| C16, C17 | `Fsa/Connect` | the two breadth-first passes of `connect.cu`, renumbering, python guard | frontier invariants; path bijection |
| C18 | `Fsa/TopSort` | batches with the decrement kernel in any thread order, `RenumberFsaVec` | invariant of the batch loop; determinism |
| C19 | `Fsa/Sort` | stable sort by (unsigned label, destination) | permutation + sortedness |
| C20-C24 | `Fsa/Ctc`, `Fsa/Ops` | `LinearFsa`, `CtcTopo`, `CtcGraphs`, `TrivialGraph` | state meaning invariant; language equality |
| C25 | `Fsa/Lev` | `LevenshteinGraphs` | paths <-> alignments |
| C26-C32 | `Fsa/Ops` | `Union`, `Closure`, `fix_aux_labels`, `Reverse`, self-loops (adding them on vectors too), `ExpandArcs`, `Invert` | path decomposition |
| C33 | `Fsa/Replace` | `ReplaceFsa` on vectors of index FSAs | substitution as a relation on paths; block decomposition of a path |
| C34, C53 | `Fsa/Intersect` | host intersection, FSA-by-FSA wrappers, arc maps | product construction, worklist invariant |
| C35 | `Fsa/RmEps` | both removal algorithms (host: sorted acyclic; device: all others) | path decomposition; closure of epsilon paths |
| C36-C38 | `Fsa/Batches`, `Fsa/Scores` | state batches, forward/backward recursions over a commutative semiring, posteriors in a field | sum over paths by induction in topological order |
| C39 | `Fsa/Shortest` | `ShortestPath` with power doubling | best-path invariant; doubling lemma |
| C40, C41 | `Util/Stream`, `Fsa/Text` | `FsaToString`, reader of the k2 format over characters | invariant of the line loop; negation |
| C42 | `Fsa/Cache` | attributes, `_cache` and `_properties` of `Fsa` objects, with exceptions as partial updates and arcs as shared memory; the C++ functions are parameters | invariant over all histories; negation by witnesses |
| C43 | `Fsa/Attr` (`Props`) | `fsa_from_unary_function_tensor`, `fsa_from_unary_function_ragged`, `get_filler`, `__setattr__`, `index_select`; values by type with an abstract conversion of numbers | loops over dictionaries; relation between source value, arc map and new value; negation by two general theorems |
| C44, C45 | `Rnnt` | pruning bounds over `Int`, roll and pad | invariants of the two monotone passes |
| C46-C48 | `Rnnt` | mutual information recursion over a semiring / field; lattice | induction over (s,t) |
| C49-C51 | `Threads` | thread pool and semaphore transition systems, one step per critical section | inductive invariants over all schedules |
| C52, C54, C55 | `Fsa/Det` | determinizer (weight pushing, state map, unpacking), vector wrapper | invariant of the queue; termination measure; negations with witnesses |
| C56 | `Fsa/Attr/Binary` | `fsa_from_binary_function_tensor`, `hasattr` with class attributes as a parameter | as C43; negation: equal names raise |
| C57 | `Fsa/Attr/Batch` | `create_fsa_vec` after the construction of the arcs, with the evaluation order of the generator | as C43; negation: attributes missing in the last FSA are lost |
| C58 | `Fsa/Dense` | `IntersectDense` completely: constructor with compressed arcs (16-bit fields), steps as prefixes of the combined shape, forward and backward pass in one array, cutoffs, narrowing of the beam, output with both arc maps.  The memory of the scores with its stride is kept.  `DecreaseBeam` is a parameter, piece size and number of rounds are arguments | the specification (`Dense/Spec`) speaks of alignments only.  Each array is shown equal to a list over (FSA, frame, state) (`Grid`, `Format`, `Output`, `Result`), the scores to best scores of prefixes and suffixes (`Best`, `Steps`), and the resulting nested list to a lattice (`Lattice`) |
| C59 | `Fsa/Dense/Witness` | as C58 | witnesses computed from the model; `intersectDense_never_ends` by induction on the number of rounds |
| C60 | `Ragged/ChunkModel` | `GetNew2OldAndRowIds` with the division into pieces | pieces concatenated; both cases of the division |
| C61 | `Hash` | the accessors of `Hash` as threads over one array of 64-bit words; one access (read, write or compare-and-swap) per step, in any order; the C arithmetic in 64 and 32 bits | the specification (`Hash/Spec`) is an atomic map; forward simulation (`Linear`) with the invariant that all positions before a key on its way are in use (`Repr`).  `Probe`: the way of a key visits each position of its group once, and position and stored bits give the key |
| C62 | `Hash/Kernel`, `Hash/Witness` | as C61 | invariants of the executions of the specification |
| C63 | `Hash/Progress` | as C61 | the positions that a thread has tried are taken and different |
| C64 | `Hash/PhaseModel`, `Hash/Phase` | kernels of `Delete`, `CheckEmpty` | invariant: position of each thread on the way of its key; the exact number of steps |
| C65 | `Hash/PhaseModel`, `Hash/Phase` | the kernels of `CopyDataFromSimple` and of `CopyDataFrom` | as C61 and C62, for different keys |
| C66 | `Hash/Model64`, `Hash/Props64`, `Hash/Probe64`, `Hash/Phase64Props` | `Insert`, `Find` and `SetValue` of `Hash64`: two words for each bucket | invariant over all executions; a concrete execution |
| C67 | `Fsa/Grad/Model`, `LogProps`, `DerivProps` | `BackpropGetForwardScores`, `BackpropGetBackwardScores`, log semiring | the loops over batches compute a recursion on states; its solution in terms of path weights; derivative of the sum over paths (Mathlib `HasDerivAt`) |
| C68 | `Fsa/Grad/Model`, `ArcPostProps`, `DerivProps` | `BackpropGetArcPost` | bilinear identity for all inputs; chain rule with C67 |
| C69 | `Fsa/Grad/Model`, `DerivProps` | `GetTotScoresLogBackward` | as C67 |
| C70 | `Fsa/Grad/Model`, `Walk`, `TropProps`, `Witness` | the tropical branches of the same functions, `GetTotScoresTropicalBackward` | the recursion counts visits of walks along best arcs; the walks are best paths; a counterexample for unreached states |
| C71 | `Ragged/ReduceModel`, `ReduceLemmas`, `ReduceProps`, `ReduceWitness` | `SegmentedReduce` and the reductions built on it, `LogAdd`, `ArgMaxPerSublist`, `SegmentedExclusiveSum`, `AddPerSublist` | an inductive relation for the orders of evaluation of a GPU; induction over it |
| C72 | `Ragged/ReduceModel`, `NormalizeProps`, `ReduceWitness` | `NormalizePerSublist`, the backward functions of `SumFunction`, `LogSumExpFunction`, `NormalizeFunction` | sums of exponentials; derivatives in Mathlib's analysis |
| C73 | `Rnnt/LossModel`, `Likelihood`, `LossProps`, `LossWitness` | `rnnt_loss`, `rnnt_loss_pruned`, `get_rnnt_logprobs_joint`, HAT, delay penalty, reductions as single items | mass that reaches a position, summed over transcripts; induction on positions left |
| C74 | `Rnnt/LossModel`, `LossRelations`, `LossWitness` | `rnnt_loss_simple`, `get_rnnt_logprobs` (maxima, `tiny`), `rnnt_loss`, pruning with the full range | the normalizer of a sum is the product of exponentials; bounds per step of an alignment |
| C75 | `Rnnt/LossModel`, `LossRelations` | the delay penalty in all four losses | induction over alignments |
| C76 | `Rnnt/LossModel`, `LossSmoothed`, `LossWitness` | `get_rnnt_logprobs_smoothed`, `rnnt_loss_smoothed`; infinities and NaN of the last column | weighted geometric mean is at most the weighted mean; case analysis on the last column |
| C77 | `Fsa/Pruned/Model`, `Search`, `Number`, `Setup`, `Forward`, `Backward`, `Rounds`, `Layers`, `Output`, `Final`, `Paths`, `Spec`, `Main`, `Result`, `More`, `Props` | all of `intersect_dense_pruned.cu` but online decoding (C107): arcs and dynamic beams of a frame, hash, renumbering, rounds of backward pruning, output | the active states of a sequence are a function of the frames before (abstract search), the arrays hold them; pruning keeps the arcs whose best completion is in the beam, by induction over frames and rounds |
| C78 | `Fsa/Pruned/Model`, `Setup`, `More`, `Props` | the order of hash insertions is a parameter | the active states are the same up to order, and so are all later decisions |
| C79 | `Fsa/Pruned/Final`, `Result`, `Props`, `Witness` | `allow_partial` in `GetArcs` and `FormatOutput` | as C77; witnesses |
| C80 | `Fsa/Pruned/Rounds`, `More`, `Props`, `Witness` | the rounds of pruning | in one round, each state kept is on a path kept; witness with 21 frames |
| C81 | `Fsa/Pruned/Schedule`, `ThreadProps` | the loops of the two threads and their two semaphores | a step of the forward pass commutes with a round over earlier frames; invariant that relates semaphores and rounds; decreasing measure |
| C82 | `Nbest/SuffixModel`, `Radix`, `Order`, `Names`, `Suffix`, `SuffixMain`, `Texts`, `Props` | `RadixPass`, `CreateSuffixArray` with its recursion, arrays with bounds | counting sort is stable (invariant on the running positions); names of triples keep order; strong induction on the length: the order of the sample lifts to the text; merge of two sorted lists |
| C83 | `Nbest/LcpModel`, `Lcp` | `CreateLcpArray` | the prefix shared with the predecessor drops by at most one from a position to the next |
| C84 | `Nbest/IntervalModel`, `IvSpec`, `Interval`, `Tree`, `Tightest`, `Props` | `CreateLcpIntervalArray` with its stack and `FindTightestNonemptyIntervals` | invariant of the stack: open intervals are the suffix minima; every interval is popped once, with its parent |
| C85 | `Nbest/StatsModel`, `StatsSpec`, `Encode`, `Stats`, `Props` | `GetBestMatchingStats` for two and three axes, with the conversions to 16 or 32 bits | C82-C84 for the reversed text; sums over ranks are sums over positions |
| C86 | `Nbest/DocProps`, `Witness` | as C85 | terms of queries vanish if their scores are zero; witnesses by evaluation of the specification of C85 |
| C87 | `Rnnt/Decode/Model`, `Spec`, `Batch`, `Props` | `GetContexts`, with the numbers that encode contexts | invariant of decoding (`Good`): the states are the encodings of alignments within the limits; base `vocab_size` is injective |
| C88 | `Rnnt/Decode/Rows`, `Desc`, `Lattice`, `Paths`, `Props` | `TerminateAndFlushToStreams`, `GatherPrevFrames`, `FormatOutput` | a path of the lattice is a sequence of kept arcs, one per frame; both directions by induction on the number of frames |
| C89 | `Rnnt/Decode/Prune`, `Group`, `Expand`, `Step`, `Frame`, `Props` | `Advance`: `DoFisrtPassPruning`, `ExpandArcs`, `GroupStatesByContexts`, `PruneTwice`, with `PruneRagged` | each pass keeps the best entries: rank in a stable sort |
| C90 | `Rnnt/Decode/Batch`, `Props` | as C89, for all streams | the only number shared by the streams is the total of `PruneRagged`, which has no effect |
| C91 | `Rnnt/Decode/Witness` | as C87-C89 | evaluation on small graphs |
| C92 | `Rnnt/Joint*` | `joint_mutual_information_recursion` on top of the model of C46-C48 | inner products of occupation counts are expectations (exchange of sums), Gibbs |
| C93 | `Fsa/Compose` | `k2.compose` on top of the models of invert (C32), arc sort (C19) and intersect (C34), with the gathering of scores and labels in Python | the sort is a permutation of arcs, a path of the intersection gives a path of the composition arc by arc |
| C94 | `Fsa/Ctc/Batch*`, `Fsa/Ctc/LinearBatch` | `LinearFsas` and `CtcGraphs` on the flat arrays of a batch, kernel by kernel | the arrays are the layout of the graphs of C20-C23 |
| C95 | `Fsa/Loss/Model`, `Build`, `Props` | `DenseFsaVec.__init__`: the loop over the segments, `index_select`, the writes of minus infinity and of the last frames, row splits, durations | the loop gives the flat indexes of the concatenated segments, by induction; the writes are scatters |
| C96 | `Fsa/Loss/*` | `CtcLoss.forward`: `intersect_dense` (model of C58), frame indexes, penalties, mask, total scores (model of C36), reductions | the lattice is that of C58; its paths are the alignments, with distinct arcs; for graphs of C94 alignments are the frame sequences that collapse to the transcript |
| C97 | `Fsa/Random/*` | `GetArcCdf`, `RandomPaths` (both versions) and `random_paths`: posteriors (C38), cumulative sums, batches (C37), the walk on CPU and GPU, the shared buffer with its writes and reads | the paths from a state cut [0, 1) into intervals of length weight / total (induction over states); the walk follows the interval of its point (induction over the path); an interval of length q contains n q points up to less than one; slots of the buffer are disjoint |
| C98 | `Fsa/Prune/*` | `PruneOnArcPost`, `Index` on the last axis, `prune_on_arc_post` with the posteriors of C38 | the flags are attached to the arcs, row by row (induction over the nested lists); row ids and arcs of the result are those with flag true; paths of the result and paths along kept arcs correspond by the arc map; union bound over the removed arcs |
| C99 | `Fsa/Nbest/*`, `Ragged/IndexAxis*`, `Ragged/UniqueIndex` | `Nbest.__init__`, `Nbest.from_lattice`: scaled scores, `random_paths` (C97), word sequences from tensor or ragged aux labels, `remove_values_leq`/`_eq`, `UniqueSequences` (C12), `Index` on axis 1, `LinearFsas` (C94) | each step is rewritten to nested lists; the rows kept by `UniqueSequences` are one representative per hash value; a linear FSA has one accepting path |
| C100 | `Fsa/Mwer/*` | `_get_texts`, `MWERLoss.forward` with its reductions; `levenshtein_alignment` followed by `get_tot_scores` is a function of reference and hypothesis that C25 and C53 characterise (`IsWer`) | flat arrays to nested lists; `normalize_log` (C72) gives one factor per utterance; the factor times the sum is between 1 and the bound for LogAdd |
| C101 | `Ragged/PadModel`, `PadProps` | `PadRagged`, both modes, both sides, with its checks | entry by entry from `row_at` |
| C102 | `Fsa/Nbest/Top*` | `total_scores`, `index_fsa` with `aux_labels`, `top_k`, on top of the models of `GetForwardScores`, `SortSublists`, `PadRagged`, `Index` | the score of an FSA is the maximum over its paths (lemmas of C39); the order of a row is a permutation of its positions; `index_axis0` on FSAs whose arcs carry their words |
| C103 | `Fsa/DenseVec/*` | `ConvertDenseToFsaVec` as the writes of its threads | the offset of a state is the sum over earlier sequences; every write agrees with the flat form of the expected FSAs and every element is written |
| C104 | `Fsa/Device/*` | `IntersectDevice`: `FirstIter`, the forward passes with sorted and unsorted matching, `LastIter`, `FormatOutput` | invariant over the iterations (states are pairs reached so far, the hash names them, every match of a processed state is an arc), then the reordering of states by FSA |
| C105 | `Fsa/Device/BindModel`, `BindProps` | `_k2.intersect` choosing between `IntersectDevice` and `Intersect` | C34 and C104 give the same language; witness for the missing broadcast of `b` |
| C106 | `Fsa/Nbest/IsectModel`, `IsectProps` | `Nbest.intersect`: `arc_sort`, `add_epsilon_self_loops`, `intersect_device`, `shortest_path` (`remove_epsilon` on each FSA of the result) | C30, C104 and the shortest-path theorem combined; on lattices with levels the states of the intersection come out topologically sorted; witness that `shortest_path` aborts on others |
| C107 | `Fsa/Online/Model`, `Props`, `Witness` | `OnlineDenseIntersecter::Decode`: gathering of histories, `OnlineIntersect`, `GetFinalFrame`, `FormatOutput` for online decoding, new histories | simulation: every frame of a chunk takes the step that `IntersectDensePruned` takes; pruning and the final frame do not change states and forward scores of the last frame; induction on the chunks; witnesses for the two ways in which it fails |
| C108 | `Rnnt/Cuda/Model`, `Forward`, `Props` | `mutual_information_kernel`: blocks, context, wavefront in a block, launches; schedules of loads, stores and threads | invariants over inner iterations, events and launches (diagonals of blocks) |
| C109 | `Rnnt/Cuda/Model`, `Backward`, `Props` | `mutual_information_backward_kernel` and its launches | the values to be computed satisfy the recursion of the kernel; invariants as in C108 in reverse order |
| C110 | `Rnnt/Cuda/Barrier`, `Props` | one thread block as a transition system: initialisation, writes, reads and barriers of `boundary_buf` | invariant: a thread behind a barrier implies that all have reached it; witnesses for the backward kernel |
| C111 | `Pinned/Model`, `Lemmas`, `Sys`, `Props` | `PinnedAllocator` with blocks, pool, events; programs, streams and the progress of the GPU | invariant over reachable states: every pending copy has its stream in the block or an event behind it |
| C112 | `Pinned/Sys`, `Live`, `Props` | as C111, with the contents of memory and what the copies delivered | as C111; second invariant: free blocks without events are in the pool |
| C113 | `BeamSearch/Model`, `Pack`, `Props` | packed sequences, the loop over frames with cached decoder output | invariant over frames; utterances sorted by length, so the active ones are a prefix |
| C114 | `BeamSearch/Model`, `Batch`, `Mass`, `Props` | `ModifiedBeamSearch` with ragged batches, `Hypotheses`, keys | step over a batch is a step per utterance; induction over frames with sets of alignments per hypothesis |
| C115 | `Hash/Phase64Model`, `Hash/Phase64`, `Hash/Phase64Props` | the kernel of `Delete` of `Hash64`, `CheckEmpty` | invariant: position of each thread on the way of its key, and which of the two words are cleared; exact number of steps |
| C116 | `Hash/Phase64Model`, `Hash/Phase64`, `Hash/Phase64Props` | `Resize` and the kernel of `CopyDataFromSimple` of `Hash64` | invariant as for C66, for different keys; a key that is missing in the new table leaves room |
| C117 | `Tensor/Model`, `Tensor/Lemmas`, `Tensor/Props` | `Shape`, `Tensor` as views of a list of elements, `Index`, `Flip` | induction over the axes: range and order of the addresses |
| C118 | `Tensor/Model`, `Tensor/Copy`, `Tensor/Props` | `CopyTensorElements`, `ToContiguous`, `Cast`, `Clone`, `To` | the assignments go to different places, so that their order does not matter; ranks are injective |
| C119 | `Tensor/IndexModel`, `Tensor/IndexLemmas`, `Tensor/IndexProps`, `Tensor/GradProps` | `IndexSelect1D`, `IndexSelect2D`, `IndexRows`, `IndexAdd1D`, `IndexAdd2D`, `backward`, `compose_arc_maps` | induction over any order of the atomic additions; exchange of finite sums in a commutative ring |
| C120 | `Tensor/IndexModel`, `Tensor/IndexLemmas`, `Tensor/GradProps` | `SimpleRaggedIndexSelect1DImpl` with its races | the element holds what some thread wrote last; a thread that lost reports its sub-list |
| C121 | `Fsa/DenseGrad`, with `Fsa/Dense/Model`, `Fsa/Pruned/Model`, `Tensor/IndexModel` | `backward` of both functions, `frame_idx` | scores traced through the kernels of the output; `index_add` as the adjoint of selection |
| C122 | `Torch/WaveModel`, `Torch/WaveProps` | `Validate`, `SeekToDataChunk`, `ReadWaveImpl` | bytes as a list, numbers decoded from bytes; induction over the chunks; fuel for the loop |
| C123 | `Torch/EscapeModel`, `Torch/EscapeProps` | `MustBeQuoted`, `QuoteAndEscape`, `Escape` and the printed line | a model of how bash splits a line into words; induction over the characters |
| C124 | `Torch/OptionsModel`, `Torch/OptionsProps` | `Read`, `ReadConfigFile`, `SplitLongArg`, `NormalizeArgName`, `Trim`, `SetOption`, `ToBool` | values as a function from names; induction over arguments and lines; conversions of numbers are parameters |
| C125 | `Torch/IntegerModel`, `Torch/IntegerProps` | `ConvertStringToInteger` | both directions: the string is cut as strtoll cuts it; casts to 32 bits by modulus |
| C126 | `Swoosh/Model`, `Swoosh/Props` | `forward`, `backward`, `SwooshForward`, `SwooshForwardAndDeriv` | real numbers with an overflow bound; derivative by calculus, mean as an integral over the random number |
| C127 | `Torch/SymbolModel`, `Torch/SymbolProps` | the constructor and both `operator[]` | extraction from streams with the end of the file; induction over lines |

Simplifications that are not visible in the theorem statements:

* Hash maps are association lists, `equal_range` is a linear search; iteration orders of
  `unordered_map` are arbitrary permutations.
* The two passes of `Connect`, which run in two threads on disjoint arrays, are modelled
  one after the other.
* Determinizer: trees of predecessors are compared structurally; the state map is keyed by a
  hash given as a parameter, and the theorems assume that it has no collision on the states
  that occur (`determinize_collision` shows that this is needed).
* Epsilon removal: the beam is infinite, as set by the callers, so the comparison with it
  is left out; the device algorithm is modelled for one FSA, and composes arc maps at once.
* `mutual_information`, posteriors: `log_add` is addition in a semiring/field, `exp`/`log` are
  left out.
* The GPU segmented sort is not modelled (C19). C12 has a map in place of the GPU hash, which C61 treats. C11 treats the
  GPU scan: its operator is associative but not commutative (proved).
* Text: the printed form of a score and the conversion of a decimal are parameters; numbers
  are scanned exactly; LWG 415 behaviour of `std::ws` is a parameter.

## Disagreements between code and documentation

Each is proved as a theorem where a name is given; the others were found while reading and
lie outside the modelled part.

Symbol table
* A table read from text with a clashing `<eps>` is not a bijection (`fromStr_not_bijective`).
* `add` accepts a negative index, which `from_str` cannot read (`negative_id_not_readable`).
* `__eq__` raises `KeyError` instead of returning false (proved in `SymbolTable`).

Ragged arrays
* `UniqueSequences` merges different sequences on a hash collision (`unique_collision`, `hash_collision`).
* `normalize(use_log=False)` divides by the sum plus epsilon (`normalize_sum_not_one`), so a sublist whose sum
  is minus epsilon is divided by zero (`normalize_sum_divides_by_zero`).
* `normalize(use_log=True)` returns NaN for a sublist of minus infinities (`normalize_log_undefined`).
* `Unsqueeze` accepts an axis past the end; `Transpose` twice is not the identity for
  shapes with no rows; `Arange` on an empty range; `ChangeSublistSize` with a negative delta
  below a row length; `RenumberAxis0Simple` checks its precondition in debug mode only
  (all proved in `Ragged`).
* `Stack` and `Cat` on later axes compare the upper layers in debug builds only; a release build accepts
  sources that differ there (`cat_release_accepts`).
* `Unstack` on the last axis modifies the caller's shape (`unstack_last`, `unstack_last_changes_source`)
  and depends on `pad_right`, contrary to its comment (`unstack_last_pad_matters`).  After `Stack` on a
  later axis of arrays with no lists there, it returns no arrays (`unstack_stack_empty`).
* `SelectAxis0` leaves `row_splits` unwritten for an empty index row (`select_empty_row`); no caller
  passes one.
* The text of an empty shape with three or more axes is not read back (not modelled).
* `GetNew2OldAndRowIds` reads behind the end of the row_splits for some numbers of pieces
  (`newToOldRows_reads_behind_end`).
* Not modelled: `MonotonicDecreasingUpperBound` on the CPU starts from `numeric_limits::min()`, which is
  positive for floats.

Hash tables
* `Hash::Insert` compares the key before it looks whether the bucket is empty: keys whose stored bits are all ones
  cannot be inserted, and are reported as present, although the documentation allows them (`insert_all_ones`,
  `hash_insert_neg`).  With implicit bits these are several keys, not only the largest one, so that the care taken in
  `NumBitsNeededFor` does not suffice.
* `Hash64::Insert` may return all ones as the old value (`hash64_old_neg`).

FSAs
* The Valid bit does not check that nothing leaves the final state
  (`valid_with_arc_leaving_final`); intersection then loses paths (`intersect_leaving_final`).
* `FsaFromArray1` rejects valid FSAs without a final arc and without arcs (`fsa_no_final_arc`,
  `fsa_no_arcs`); FsaVec tensors are not checked completely (`fsaVec_meta_unchecked`, `fsaVec_arc_moves`,
  `fsaVec_fast_path_unsound`).
* Python `connect` returns its input unchanged when only the Maybe bits are set
  (`maybe_bits_not_connected`, `pyConnect_not_connected`).
* `TopSort` keeps unreachable states, against its comment (`topSort_keeps_unreachable`).
* `closure` is not the star for FSAs with arcs into the start state (`closure_not_star`); its
  `fix_aux_labels` uses `>` for `>=` (`closure_aux_misaligned`).
* `LinearFsas` accepts -1 as a symbol (`linearFsas_invalid`).
* `levenshtein_graph`'s default insertion/deletion score (proved in `Fsa/Lev`).
* `invert` twice is the identity only if the auxiliary labels are -1 exactly on final arcs.
* `Determinize` on an FsaVec indexes the caller's output pointer (`pyDeterminizeVec_undefined`,
  `determinizeVec_two_undefined`, `determinizeVec_unshifted`, `determinizeVec_wrong_fsa`).
* The determinizer's 128-bit hash may collide (`determinize_collision`).
* `RemoveEpsilonHost` gives not-a-number scores to arcs of unreachable states
  (`removeEpsilonHost_nan`). The device version turns an FSA with states but no arcs into
  one without states.
* `ReplaceFsa` takes an FSA without states for an epsilon arc (`replace_empty_source`), and gives an
  invalid FSA when the range contains -1 (`replace_final_label`); it reads past the end
  (`replace_reads_past_end`).
* In the tropical semiring a state that cannot be reached passes its gradient to the arcs before it, unlike in the log
  semiring (`unreached_state_has_gradient`).
* `shortest_path` may return an empty path when scores are minus infinity
  (`shortest_path_minus_inf`).
* Text: printed ragged labels are rejected by the reader (`ragged_text_rejected`); an FSA
  with states and no arcs becomes an FSA without states (`no_arcs_lost`); infinite scores
  are rejected (`inf_score_rejected`).
* `IntersectDense` compares `label_plus_one <= scores_num_cols`, so a label one too large is scored by the next
  frame or by memory behind the end (`label_one_too_large`, `label_read_behind_end`); `FormatOutput` checks no
  range (`label_far_too_large`); labels wrap at 65536 (`label_wraps`), and 65536 states give a division by zero.
  The loop that narrows the beam does not end for small limits (`intersectDense_never_ends`).
* Not modelled: OpenFst acceptor lines without a cost are rejected; the OpenFst reader makes no
  super-final state when no final state is given; `FixNumStates` sets `changed`
  unconditionally; `RenumberFsaVec` leaves `old2new` unwritten for duplicates.

Cached values of `Fsa` objects (`Fsa/Cache`)
* A refused assignment to the labels leaves the new labels and the old properties (`failed_labels_stale`).
* `entering_arcs` is cached without its precision (`entering_arcs_wrong_precision`); deleting it makes the
  query raise (`entering_arcs_deleted`).
* `detach` shares the arcs, so the other object's cache goes stale (`detach_stale`); a write into
  `fsa.scores` goes unnoticed (`scores_written_stale`).
* Scores of the wrong type are stored before they are refused, ragged ones are accepted
  (`failed_scores_stale`).
* Renaming to a prefix of `labels_version` deletes that attribute (`rename_breaks_properties`).
* Not modelled: `invert_` renames every attribute whose name starts with `aux_labels`, so
  `aux_labels2_sym` becomes `labels2_sym`.

Attributes of results (`Fsa/Attr`)
* `index_select` returns nothing for an empty source, so operations that add arcs to an FSA without arcs
  raise if it has a tensor attribute (`unary_no_arcs_raises`).
* The filler is ignored for attributes with two axes (`rows_ignore_filler`).
* Intersecting two FSAs with attributes of the same name that are not `float32` raises; the documentation
  says they are discarded (`binary_same_name_raises`).  The filler of the second FSA is not used for shared
  attributes (`binary_attributes`).
* `create_fsa_vec` looks only at the names of the last FSA (`vec_attribute_lost`, `vec_missing_raises`).
* 64-bit integers and attributes with two axes make `remove_epsilon` and `determinize` raise
  (`unary_ragged_returns_iff`).

RNN-T
* `get_rnnt_logprobs_smoothed` guards against -inf * 0 for `lm_only_scale` and `am_only_scale` but not for
  `1 - lm_only_scale - am_only_scale`: with the regular type, no boundary and scales that add up to one
  the loss is NaN (`smoothed_nan`, `smoothed_number`).  Scales of zero are replaced by 1e-20, so that the
  smoothed loss with zero scales is not exactly the simple one (`smoothed_zero_scales`).
* `rnnt_loss_simple` adds `tiny` to the normalizers, so that it is not exactly `rnnt_loss` of am + lm
  (`simple_near_joint`).  Transcripts that contain the termination symbol are accepted, but then the
  probabilities of transcripts add up to more than one (`blank_in_transcript`).
* `get_rnnt_prune_ranges` with S = 0 always raises; constrained RNN-T with `s_range` 1; the
  backward pass of mutual information for total minus infinity (all proved in `Rnnt`).
* The pruned lattice lacks the last blank arc of the last frame.

Pruned intersection (`Fsa/Pruned`)
* `allow_partial`: instead of the active states being made final, each of their arcs is turned into a final
  arc, with its graph score.  `arc_map_a` is -1, so the gradient of that score is lost; `arc_map_b` points to a
  frame score that is not part of the arc's score, so a gradient is added there (`partial_on`).  A state
  without arcs is not made final (`partial_none`).
* The result may be unconnected for more than 20 frames (`dead_end`).
* Batches without frames fail a check (`no_frames`).

N-best lists
* `get_best_matching_stats`: the totals for mean and variance run over all positions of the interval, not only keys (nbest.cu lines 492-501). A query with a score other than zero changes its own result (`bestMatching_counts_queries`).
* `counts_out` "should only be zero if counts was all zero" (nbest.h line 310): it is zero as soon as nothing matches (`bestMatching_count_zero`); mean and variance are then those of everything.
* `ngram_order` is `max_order` "if we matched all the way to the beginning of both sentences": only the query's sentence is looked at (`bestMatching_order_one_side`).
* `max_order` is converted to `int16_t` when the text is short: with 40000 the order of a match is -25536 (`bestMatching_order_negative`).

RNN-T decoding (`Rnnt/Decode`)
* "beam imposes a limit on the score of a state, relative to the best-scoring state on the same frame" (rnnt_decode.h lines 80-82): the first pass compares with the best state of the frame before, so a better symbol may be dropped while the worse blank is kept (`beam_is_not_on_the_same_frame`). The beam of the second pass, "not really necessary" (lines 326-328), is needed (`second_beam_is_needed`).
* The labels and log-probs of the last frame are lost: its arcs are replaced by final arcs with score 0 (`last_frame_lost`).
* `allow_partial`: each arc of the last frame becomes a final arc, so an alignment has several paths, and a state whose arcs were pruned is not final (`partial_states`).
* Final arcs are compared with the beam as if their log-prob were 0, but get that of blank (`final_arc_has_score_of_blank`).
* "there is no way we can have no states surviving": the final state has no arcs, and no blank (`no_state_survives`).
* Contexts without states are kept if all scores are minus infinity, and then looked up (`all_minus_infinity`).
* `TerminateAndFlushToStreams` returns early if there was no frame and leaves the streams attached, so that `FormatOutput` fails (`flush_without_frames`).
* Not modelled: `format_output` in python uses the filler of another attribute; labels not below `vocab_size` are read behind the end of the log-probs.

Composition
* `compose` documents that `a_fsa.aux_labels` may be ragged; line 466 raises `ValueError` for ragged aux labels.
* `inner_labels` may not be given if `b_fsa` has no aux labels: an assertion fails after the work is done
  (`inner_needs_aux`).  The documentation only requires aux labels of `a_fsa`.
* If an input has no arcs at all, an epsilon arc at the start of the other input makes `intersect` and `compose` raise an
  exception, because `index_select` returns an empty tensor for an empty source and the shapes then disagree
  (`no_arcs_raises`).

CTC loss
* `DenseFsaVec` documents `duration > 0`; the code accepts 0 and makes an FSA whose only frame is the last one (example
  in `Loss/Props`).
* `ctc_loss` with the reduction `mean` divides by the target lengths as they are; an empty transcript gives infinity or
  NaN, where `torch.nn.CTCLoss`, with which the result is said to agree, uses a length of at least 1 (`ctc_loss_mean`).

random_paths
* An FSA with one state accepts the empty path; `random_paths` stops at `K2_CHECK_GT(path_length, 0)` for it
  (`random_paths_one_state`).

Nbest.top_k
* The documentation says that an utterance with fewer than `k` paths gets its last path repeated.  The indexes are
  padded up to the largest number of paths, not up to `k`; if no utterance has `k` paths, the assertion in
  `Nbest.__init__` fails (`top_k_fails_below_k`).

ConvertDenseToFsaVec
* For a `DenseFsaVec` without sequences no thread runs and the only element of `row_splits2` is not written
  (`convert_dense_empty`).

intersect and intersect_device
* On the GPU `k2.intersect` of several FSAs with one FSA returns only the intersection with the first one, while
  the CPU version returns one FSA per FSA of `a` (`intersect_gpu_no_broadcast`).  If `a` has more FSAs than `b`
  and `b` has several, the CPU version refuses and the GPU version leaves out the last FSAs of `a`
  (`intersect_gpu_mismatch`).  The documentation only forbids different numbers when both are vectors.
* In the kernel for sorted matching only two of the eight threads of a group execute `g_double.shfl`
  (intersect.cu 971-974); what a shuffle gives when other threads of the group do not take part is not
  modelled.  The model computes both bounds of the search.

Nbest.intersect
* It passes the result of `intersect_device` to `shortest_path`, which needs topologically sorted FSAs.
  `intersect_device` numbers states in the order of a breadth-first search, so if a lattice state can be reached
  by paths of different lengths, arcs may go backward and `GetStateBatches` aborts (`nbest_intersect_aborts`).
  Lattices with one arc per frame are not affected (`nbest_intersect_partial`).

OnlineDenseIntersecter
* If all states of a stream die in a chunk, its frames are empty and `RemoveEmptyLists` removes them from the
  history, so the next chunk continues from the last frame that had states (`online_restarts`).
* All streams of a call take as many steps as the longest chunk has frames.  A stream with a shorter chunk reads
  the frame for the final arcs as an ordinary frame and loses its states (`online_shorter_chunk`).

Threads
* `WaitAllTasksFinished` uses `notify_one`: a second waiter may block for ever
  (`second_waiter_blocked`). `acquire` does not block on a negative count
  (`negative_count_does_not_block`).

GPU version of mutual information
* The backward kernel has no `__syncthreads()` before `boundary_buf` is written for the next item (the forward kernel
  has one, line 172).  After `continue` for an empty block a fast thread can overwrite boundaries that another has
  not read (`backward_continue_race`; needs more items than thread blocks), and thread 0 can overwrite the boundaries
  of the first item with `0, 0, S, T` if the threads of a warp do not run in lock step (`backward_init_race`).
* If the total is minus infinity, the GPU's gradients differ from the CPU's, and `ans_grad` is overwritten with another
  value (`gpu_backward_zero_total`).
* If `modified`, the backward kernel reads `px[b][s][T]`, which is behind the end of the row (line 517); the value is
  multiplied by zero.

### Pinned memory (C111, C112)

* `RecordEvent` (pinned_context.cu 175-190) looks up the pointer itself in `blocks_` and ignores pointers that are not the start of a block.  A copy from the middle of a block is not remembered, and the block can be handed out while that copy is pending (`interior_copy_unprotected`).  `CopyDataTo` copies from the start of a block it just allocated, so it is not affected.
* `Free` moves the streams out of the block before the events are created.  If creating the event of a later stream fails, the block is handed out when the earlier streams are done, while the copy on the later stream may be pending (`failed_event_unprotected`).  If the first event fails, the block never returns to the pool.
* `Free` returns early if `ProcessEvents` fails, and the block stays allocated for ever; `PinnedContext::Deallocate` ignores the error.
* `Malloc(0)` adds an entry for the null pointer that `Free` never removes; it is harmless.

### Modified beam search (C114)

* beam_search.h does not say that `num_active_paths` must not exceed the size of the vocabulary.  At the first frame there is one hypothesis, `topk` gets as many scores as there are tokens, and torch raises an error if fewer than `num_active_paths` (`beam_too_many`).
* The comment in line 325 gives the shape of `logits` as `(cur_batch_size, 1, 1, vocab_size)`; it is `(num_hyps, 1, 1, vocab_size)`.

### Tensors (C117, C118)

* `Clone` and `To` of a contiguous tensor copy the whole region but set the offset of the copy to zero.  A copy of row 1 of a matrix is row 0 (`tensor_clone_neg`).
* `Shape::SetStride` calls `ComputeIsContiguous` but drops the result, so `IsContiguous()` of a flipped tensor stays true (`tensor_flip_flag_neg`).  `Clone` of a flipped vector then has elements outside its memory, and `Cast` of it writes outside the new memory (`tensor_flip_copy_neg`).
* `Tensor::Index` checks only the upper limits of the axis and of the index (tensor.cu 174-175).

### Index operations of tensors (C119)

* `index_select` of a source without elements returns an empty tensor, although `ops.py` promises
  `index.numel()` elements; with an index of -1s these should be the default (`index_select_empty_neg`).  The same holds
  for `compose_arc_maps` if the first map is empty.

### Gradients of the intersection with dense FSAs (C121)

* With `allow_partial`, the score of an arc that is made final is the score of an arc of the graph, but
  `arc_map_a` is -1 for it and `arc_map_b` names a network score that is not used (intersect_dense_pruned.cu 586-654 and
  879-890).  `backward` therefore gives the arc of the graph no gradient, and gives one to a score on which the result does
  not depend (`intersect_dense_pruned_gradient_neg`).

### Wave files (C122)

* `SeekToDataChunk` (wave_reader.cu 58-66) skips `subchunk2_size` bytes.  The size is signed, and -8 goes back to the same
  chunk, so that the loop does not end (`wave_loop_neg`).
* Chunks with an odd number of bytes are followed by a byte of padding in RIFF files, which is not skipped
  (`wave_padding_neg`).
* `ReadWaveImpl` allocates `subchunk2_size / 2` samples and reads `subchunk2_size` bytes (102-105): one byte is written
  behind the memory if the number is odd (`wave_odd_neg`).
* `Validate` multiplies the sample rate with the number of bits before anything is known about either; the product can
  overflow (`wave_safe` bounds the cases).

### Printed command lines (C123)

* The comment above `MustBeQuoted` (parse_options.cu 333-340) says that printed lines can be pasted into the shell.
  `ok_chars` has `#`, `~`, `[` and `]`, so that an argument `#1` becomes a comment (`printed_comment_neg`), and `~` and `[a]`
  are expanded (`printed_special_neg`).
* A string with an apostrophe and an exclamation mark is put into double quotes, where an interactive bash replaces `!p` by
  a line of the history (`printed_special_neg`).

### Options (C124)

* The first pass of `Read` (parse_options.cu 435-453) goes over all arguments up to a lone `--`, the second one stops at the
  first positional argument (455-477).  A configuration file that is named behind a positional argument is therefore read,
  although the argument is also a positional one (`read_config_neg`), and `--help` there ends the program
  (`read_help_neg`).
* `--config` in a configuration file sets the variable, but the file is not read (`nested_config_neg`).

### Swoosh functions (C126)

* For an element that dropout sets to 0, the code stores `kCoeff`, which is commented as `swoosh'(x) = 0` (swoosh.cu
  202-212).  It is rounded to a byte as 20 or 21 steps of 1.005/255, and neither is 0.08: the gradient that is decoded is
  about -0.0012 or 0.0028, divided by the probability, times the gradient of the output, and never 0
  (`dropped_gradient_neg`).

### Symbol tables (C127)

* The constructor ends with `K2_CHECK(is.eof())` (symbol_table.cu 48), which is to find files that are not read to the end.
  An extraction that fails at the end of the file also sets `eof`: a last line without a number, or with a number that does
  not fit into 32 bits and no newline, is dropped without an error (`symbols_truncated_neg`).
