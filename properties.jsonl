{"id": "C01", "title": "SymbolTable.add keeps symbol<->id a bijection and never moves an id", "statement": "Starting from any well-formed SymbolTable and applying any sequence of add(symbol[, index]) calls (including calls that raise ValueError), the table stays a bijection between its symbols and ids, epsilon stays at id 0, every symbol present before keeps its id, a symbol that is added is found under the returned id, and add without an index never raises.", "quantifier": "all tables, all finite call histories, all symbols and indexes", "why_tests_cant": "Histories are unbounded and the interesting failures depend on the interplay of explicit and automatic ids.", "anchors": ["k2/python/k2/symbol_table.py:SymbolTable.add", "k2/python/k2/symbol_table.py:SymbolTable.__post_init__"]}
{"id": "C02", "title": "SymbolTable text round trip", "statement": "For every well-formed table whose symbols are non-empty strings without white space, from_str(to_str(t)) succeeds and returns a table equal to t.", "quantifier": "all symbol tables with printable symbols", "why_tests_cant": "The set of symbols and ids is unbounded; tests look at a handful of tables.", "anchors": ["k2/python/k2/symbol_table.py:SymbolTable.to_str", "k2/python/k2/symbol_table.py:SymbolTable.from_str"]}
{"id": "C03", "title": "SymbolTable.merge is the union and fails exactly on conflicts", "statement": "merge(a,b) succeeds exactly when the epsilon symbols agree and no id or symbol common to both is mapped differently; on success the result is well formed and its look-ups are the union of both look-ups, so merge is commutative, associative and idempotent as far as look-ups can tell.", "quantifier": "all pairs (triples) of well-formed tables", "why_tests_cant": "Needs all pairs of maps; conflicts may hide in any entry.", "anchors": ["k2/python/k2/symbol_table.py:SymbolTable.merge", "k2/python/k2/symbol_table.py:SymbolTable._check_compatible"]}
{"id": "C04", "title": "SymbolTable.from_str always yields a bijection", "statement": "Whenever from_str(s) returns, the table maps ids to symbols one to one. (The code violates this when the epsilon symbol is listed with a non-zero id and id 0 is absent.)", "quantifier": "all input strings", "why_tests_cant": "The violating input has to be thought of; it is a corner of an unbounded input space.", "anchors": ["k2/python/k2/symbol_table.py:SymbolTable.from_str", "k2/python/k2/symbol_table.py:SymbolTable.__post_init__"]}
{"id": "C05", "title": "row_splits and row_ids describe the same partition", "statement": "For every valid row_splits vector, converting to row_ids and back gives the same row_splits; for every non-decreasing row_ids vector with a row count, converting to row_splits and back gives the same row_ids; element i lies in row row_ids[i] exactly if row_splits[row] <= i < row_splits[row+1].", "quantifier": "all ragged layers, including empty rows anywhere and zero rows", "why_tests_cant": "Any number of rows with any pattern of empty rows.", "anchors": ["k2/csrc/utils.cu:RowSplitsToRowIds", "k2/csrc/utils.cu:RowIdsToRowSplits", "k2/csrc/ragged.cu:RaggedShape::RowIds"]}
{"id": "C06", "title": "Ragged Index along any axis", "statement": "index(ragged, 0, indexes) returns the list of the selected sub-lists in order (repeats allowed), with an empty sub-list for -1, at every depth, and the reported value indexes point at exactly the selected elements.  On a later axis, with indexes that name elements of the rows in the order of the rows, each row holds the elements selected from it, in order (repeats allowed), at every depth, and empty rows stay.", "quantifier": "all ragged shapes with any number of axes, all axes, all index vectors with entries in range (on axis 0 also -1)", "why_tests_cant": "Unbounded nesting, repeated and missing rows.", "anchors": ["k2/csrc/ragged_ops.cu:Index", "k2/csrc/ragged_ops.cu:IndexAxis0", "k2/csrc/ragged_ops.cu:GetOldAndNewOffsets"]}
{"id": "C07", "title": "RemoveAxis flattens exactly one level; Unsqueeze is undone by it", "statement": "remove_axis(axis) gives the shape of the nested list with that level flattened; unsqueeze at any axis followed by removing the new axis returns the original shape.", "quantifier": "all ragged shapes and all axes", "why_tests_cant": "Any depth and any axis.", "anchors": ["k2/csrc/ragged_ops.cu:RemoveAxis", "k2/csrc/ragged_ops.cu:Unsqueeze", "k2/csrc/ragged_ops.cu:ComposeRaggedShapes"]}
{"id": "C08", "title": "Stack / Unstack / Cat agree with list operations", "statement": "cat(axis 0) of ragged arrays is list concatenation, stack along axis 0 is the list of them, stack along axis 1 transposes, and unstack returns the arrays that were stacked.", "quantifier": "all finite collections of ragged arrays with equal number of axes", "why_tests_cant": "Any number of sources with any sizes, including empty ones.", "anchors": ["k2/csrc/ragged_ops.cu:Stack", "k2/csrc/ragged_ops.cu:Cat", "k2/csrc/ragged_ops.cu:Unstack"]}
{"id": "C09", "title": "Transpose of the two outer axes is an involution", "statement": "For every ragged shape whose first two axes are regular, transposing twice gives the original and element (i,j) moves to (j,i).", "quantifier": "all shapes with regular outer axes", "why_tests_cant": "Unbounded dimensions and unbounded inner raggedness.", "anchors": ["k2/csrc/ragged_ops.cu:Transpose", "k2/csrc/ragged_ops.cu:RegularRaggedShape"]}
{"id": "C10", "title": "Row-level edits: prefix, arange, suffix/prefix append, size change, empty-row removal", "statement": "Prefix(n) keeps the first n rows; Arange keeps rows [b,e); AddSuffix/AddPrefix append one element per row at the right place; ChangeSublistSize adds size_delta to each row size (never below zero); RemoveEmptyLists keeps exactly the non-empty rows in order.", "quantifier": "all ragged shapes and parameters in range", "why_tests_cant": "All sizes and positions.", "anchors": ["k2/csrc/ragged_ops.cu:Prefix", "k2/csrc/ragged_ops.cu:Arange", "k2/csrc/ragged_ops.cu:AddSuffixToRagged", "k2/csrc/ragged_ops.cu:AddPrefixToRagged", "k2/csrc/ragged_ops.cu:ChangeSublistSize", "k2/csrc/ragged_ops.cu:RemoveEmptyLists"]}
{"id": "C11", "title": "CPU and GPU sequence hashes agree", "statement": "The left-to-right hash computed on the CPU equals the parallel reduction used on the GPU for every way of bracketing the sequence, in wrap-around 32 and 64-bit arithmetic.", "quantifier": "all integer sequences, all reduction trees", "why_tests_cant": "Reduction order on the device is unspecified; sequences are unbounded.", "anchors": ["k2/csrc/ragged_ops.cu:ComputeHash", "k2/csrc/ragged_ops.cu:HashOutputIteratorDeref", "k2/csrc/ragged_ops.cu:HashCombineOp"]}
{"id": "C12", "title": "unique() keeps exactly one copy of each distinct sequence", "statement": "ragged.unique returns every distinct sub-list of each input list exactly once, and num_repeats counts the copies. (The code compares 64-bit hashes only, so the claim fails on a collision; it holds whenever the hash is injective on the sequences present.)", "quantifier": "all lists of integer sequences", "why_tests_cant": "Collisions are never hit by random tests but can be computed by hand.", "anchors": ["k2/csrc/ragged_ops.cu:UniqueSequences", "k2/csrc/ragged_ops.cu:ComputeHash"]}
{"id": "C13", "title": "FsaVec <-> tensor serialization round trip", "statement": "fsa_to_tensor / fsa_vec_to_tensor followed by the corresponding from_tensor returns an identical FSA (states, arcs and score bits), and a tensor that is accepted re-serializes to itself.", "quantifier": "all valid Fsa / FsaVec and all accepted tensors", "why_tests_cant": "Unbounded numbers of FSAs, states and arcs, including empty ones.", "anchors": ["k2/csrc/fsa.cu:FsaFromTensor", "k2/csrc/fsa.cu:FsaToTensor", "k2/csrc/fsa.cu:FsaVecFromTensor", "k2/csrc/fsa.cu:FsaVecToTensor", "k2/csrc/fsa.cu:FsaFromArray1"]}
{"id": "C14", "title": "Property flags mean what fsa.h says", "statement": "For every FSA each flag returned by properties (TopSorted, TopSortedAndAcyclic, ArcSorted, ArcSortedAndDeterministic, EpsilonFree, MaybeAccessible, MaybeCoaccessible, Nonempty, Valid) is set exactly when its defining condition over the arcs holds, although it is computed from neighbouring arcs only.", "quantifier": "all FSAs", "why_tests_cant": "The computation looks at adjacent arcs; the definition quantifies over all pairs.", "anchors": ["k2/csrc/fsa.cu:GetFsaVecBasicProperties", "k2/csrc/fsa.h:FsaBasicProperties"]}
{"id": "C15", "title": "kFsaPropertiesValid excludes arcs leaving the final state", "statement": "An FSA reported Valid has no arcs leaving its final state, as documented. (The code does not check this.)", "quantifier": "all FSAs", "why_tests_cant": "Requires noticing the missing case; all test FSAs have a clean final state.", "anchors": ["k2/csrc/fsa.cu:GetFsaVecBasicProperties", "k2/csrc/fsa.h"]}
{"id": "C16", "title": "Connect keeps the accepting paths and leaves only useful states", "statement": "The output of the connect algorithm has exactly the accepting paths of the input (through the arc map, which is strictly increasing), and every output state is reachable from the start and reaches the final state; if the input has no accepting path the output has no states.", "quantifier": "all FSAs, cyclic or not, any size", "why_tests_cant": "Reachability is a property of all paths.", "anchors": ["k2/csrc/connect.cu:Connecter", "k2/csrc/fsa_algo.cu:Connect"]}
{"id": "C17", "title": "k2.connect returns a connected FSA", "statement": "The python function connect always returns an FSA all of whose states are accessible and co-accessible. (Violated: it returns the input unchanged when the Maybe* flags are set, and those are only approximate.)", "quantifier": "all FSAs", "why_tests_cant": "Needs an unreachable cycle, never present in the tests.", "anchors": ["k2/python/k2/fsa_algo.py:connect", "k2/csrc/fsa.cu:GetFsaVecBasicProperties"]}
{"id": "C18", "title": "TopSort returns a topologically ordered isomorphic FSA and fails exactly on cycles", "statement": "On every FSA whose states are all accessible from state 0 the algorithm either reports failure, exactly when there is a cycle through more than one state (or through the final state), or returns a renumbering with state 0 first, the final state last, every non-self-loop arc going forward, and the arcs in bijection through the arc map.", "quantifier": "all connected FSAs", "why_tests_cant": "Graphs of every shape and size.", "anchors": ["k2/csrc/top_sort.cu:TopSorter", "k2/csrc/fsa_utils.cu:RenumberFsaVec"]}
{"id": "C19", "title": "ArcSort only permutes arcs within a state", "statement": "arc_sort leaves each state with the same multiset of arcs, ordered by label (as unsigned) then destination, the arc map is a permutation, and accepted strings and scores do not change.", "quantifier": "all FSAs", "why_tests_cant": "All arc lists.", "anchors": ["k2/csrc/fsa_algo.cu:ArcSort", "k2/csrc/fsa.h:Arc::operator<"]}
{"id": "C20", "title": "linear_fsa accepts exactly its symbol sequence", "statement": "linear_fsa(symbols) accepts the sequence symbols with score zero and nothing else, by exactly one path; the call fails exactly when -1 occurs in symbols.", "quantifier": "all symbol sequences", "why_tests_cant": "Unbounded length.", "anchors": ["k2/csrc/fsa_algo.cu:LinearFsa", "k2/csrc/fsa_algo.cu:LinearFsas"]}
{"id": "C21", "title": "ctc_topo realises the CTC collapsing relation", "statement": "A path of the standard ctc_topo(max_token) maps the frame sequence s to the token sequence t exactly if t is s with repeats merged and blanks dropped; each s with tokens in range has exactly one path.", "quantifier": "all max_token, all frame sequences", "why_tests_cant": "All token inventories and all frame sequences.", "anchors": ["k2/csrc/fsa_algo.cu:CtcTopo"]}
{"id": "C22", "title": "ctc_graph accepts exactly the frame sequences that collapse to the transcript", "statement": "For every transcript of non-zero tokens ctc_graph(transcript, modified=False) accepts s exactly if CTC-collapsing s gives the transcript, by a single path, and its aux labels spell the transcript.", "quantifier": "all transcripts, all frame sequences", "why_tests_cant": "Both are unbounded; repeated tokens are the delicate case.", "anchors": ["k2/csrc/fsa_algo.cu:CtcGraphs"]}
{"id": "C23", "title": "Modified CTC graphs and topology agree", "statement": "The modified ctc_graph and the modified ctc_topo accept the frame sequences that modified CTC defines (repeats need no blank between them).", "quantifier": "all transcripts, all frame sequences", "why_tests_cant": "As above.", "anchors": ["k2/csrc/fsa_algo.cu:CtcGraphs", "k2/csrc/fsa_algo.cu:CtcTopo"]}
{"id": "C24", "title": "trivial_graph accepts every token sequence once", "statement": "trivial_graph(max_token) accepts exactly the sequences over 1..max_token, each by one path with score zero.", "quantifier": "all max_token, all sequences", "why_tests_cant": "Unbounded.", "anchors": ["k2/csrc/fsa_algo.cu:TrivialGraph"]}
{"id": "C25", "title": "levenshtein_graph paths are alignments with their edit counts", "statement": "For every alignment of a hypothesis and a reference there is a path in the intersection of their levenshtein graphs that shows it, with score minus the number of edits after the offsets are subtracted, and every path shows such an alignment; the call fails exactly if 0 or -1 is a symbol.", "quantifier": "all reference and hypothesis sequences and all insertion/deletion scores", "why_tests_cant": "Exponentially many alignments.", "anchors": ["k2/csrc/fsa_algo.cu:LevenshteinGraphs", "k2/python/k2/fsa_algo.py:levenshtein_graph", "k2/python/k2/fsa_algo.py:levenshtein_alignment"]}
{"id": "C26", "title": "union accepts the union of the languages with scores", "statement": "union of non-empty FSAs accepts (s,w) exactly if one of the inputs does, and the number of paths is the sum.", "quantifier": "all lists of valid FSAs with arcs", "why_tests_cant": "Any number of inputs.", "anchors": ["k2/csrc/fsa_algo.cu:Union"]}
{"id": "C27", "title": "closure is the Kleene star", "statement": "closure(fsa) accepts exactly the finite concatenations of strings accepted by fsa (including the empty one) with the sum of the scores.", "quantifier": "all valid FSAs", "why_tests_cant": "Unbounded iteration.", "anchors": ["k2/csrc/fsa_algo.cu:Closure"]}
{"id": "C28", "title": "closure keeps aux_labels aligned with -1 on final arcs", "statement": "In the python closure the aux_labels of the result are -1 exactly on arcs entering the final state. (Violated by an off-by-one in fix_aux_labels.)", "quantifier": "all FSAs with tensor aux_labels", "why_tests_cant": "Boundary arc index that no test hits.", "anchors": ["k2/python/k2/fsa_algo.py:closure"]}
{"id": "C29", "title": "reverse accepts the reversed strings", "statement": "reverse(fsa) accepts s exactly if fsa accepts the reversal of s, with the same score, and paths are in bijection.", "quantifier": "all valid FSAs", "why_tests_cant": "All paths.", "anchors": ["k2/csrc/reverse.cu:Reverse"]}
{"id": "C30", "title": "Epsilon self-loops add nothing and can be removed", "statement": "add_epsilon_self_loops adds one loop per non-final state and does not change the accepted strings; remove_epsilon_self_loops after it returns the original FSA whenever the original has no epsilon self-loops, and the arc maps say so.", "quantifier": "all FSAs", "why_tests_cant": "All graphs.", "anchors": ["k2/csrc/fsa_algo.cu:AddEpsilonSelfLoops", "k2/csrc/fsa_algo.cu:RemoveEpsilonSelfLoops"]}
{"id": "C31", "title": "ExpandArcs spells the label sequences", "statement": "expand_arcs replaces every arc by a chain that carries its label once, its score once and its ragged attribute in order, so the accepted strings, scores and concatenated attributes are unchanged.", "quantifier": "all FSAs and ragged attributes", "why_tests_cant": "All lengths including empty.", "anchors": ["k2/csrc/fsa_algo.cu:ExpandArcs"]}
{"id": "C32", "title": "invert swaps input and output", "statement": "Inverting an FST exchanges label and aux-label strings path by path; inverting twice gives back the original label and aux-label strings.", "quantifier": "all FSTs with -1 on final arcs only", "why_tests_cant": "All paths and all aux label lengths.", "anchors": ["k2/csrc/fsa_algo.cu:Invert", "k2/python/k2/fsa.py:Fsa.invert_"]}
{"id": "C33", "title": "replace_fsa is substitution", "statement": "replace_fsa(src, index, begin) accepts exactly the strings obtained from paths of index by replacing each label begin+i (i < number of src FSAs) by a string accepted by src[i], scores added; each such choice of paths is exactly one path of the result, named by the two arc maps. (Source FSAs that are used have states; an FSA without states acts as an epsilon arc instead. The range does not contain -1.)", "quantifier": "all index FSAs and source FSAs", "why_tests_cant": "All paths and all source automata.", "anchors": ["k2/csrc/fsa_algo.cu:ReplaceFsa"]}
{"id": "C34", "title": "intersect computes the intersection", "statement": "The CPU intersection of two arc-sorted FSAs accepts (s, w) exactly if the inputs accept s with w1, w2 and w = w1 + w2, for both settings of treat_epsilons_specially (matching labels literally when it is false), and its arc maps point at the arcs used.", "quantifier": "all pairs of arc-sorted FSAs", "why_tests_cant": "Product automata of every size and shape.", "anchors": ["k2/csrc/host/intersect.cc:Intersection", "k2/csrc/fsa_algo.cu:Intersect"]}
{"id": "C35", "title": "remove_epsilon keeps strings and scores", "statement": "remove_epsilon returns an epsilon-free FSA that accepts the same strings, and in the max (tropical) sense with the same best score.", "quantifier": "all FSAs without epsilon cycles of positive score", "why_tests_cant": "Epsilon closures range over all paths.", "anchors": ["k2/csrc/rm_epsilon.cu:RemoveEpsilonDevice"]}
{"id": "C36", "title": "Forward scores are sums (maxima) over all paths", "statement": "get_forward_scores gives for every state of an acyclic top-sorted FSA the semiring sum over all paths from the start; backward scores likewise to the end; forward(final) = backward(start); forward+backward is constant on every cut.", "quantifier": "all acyclic FSAs and all weights, in any commutative semiring", "why_tests_cant": "Number of paths is exponential.", "anchors": ["k2/csrc/fsa_utils.cu:GetForwardScores", "k2/csrc/fsa_utils.cu:GetBackwardScores", "k2/csrc/fsa_utils.cu:GetTotScores"]}
{"id": "C37", "title": "State batches are a valid schedule", "statement": "The state batches partition the states and put every arc source in an earlier batch than its destination, so that batch-parallel processing gives the sequential result.", "quantifier": "all top-sorted acyclic FSAs", "why_tests_cant": "Any graph and any parallel order inside a batch.", "anchors": ["k2/csrc/fsa_utils.cu:GetStateBatches"]}
{"id": "C38", "title": "Arc posteriors are path occupancies", "statement": "The arc posterior of an arc equals the sum of the normalised weights of the accepting paths through it; over the arcs of any cut they add to one.", "quantifier": "all acyclic FSAs with non-zero total", "why_tests_cant": "All paths.", "anchors": ["k2/csrc/fsa_utils.cu:GetArcPost"]}
{"id": "C39", "title": "shortest_path returns a best path", "statement": "shortest_path returns an accepting path of maximal score when one exists and an empty path otherwise; its arc indexes form a connected path; the power-doubling trace-back equals the sequential one.", "quantifier": "all acyclic FSAs", "why_tests_cant": "Number of paths is exponential; doubling depth depends on size.", "anchors": ["k2/csrc/fsa_algo.cu:ShortestPath"]}
{"id": "C40", "title": "FsaVec text round trip (k2 acceptor format)", "statement": "from_str(to_str(fsa)) returns the same arcs for every FSA with at least one arc (labels and states as printed; scores up to the printed representation).", "quantifier": "all FSAs", "why_tests_cant": "Unbounded.", "anchors": ["k2/csrc/fsa_utils.cu:FsaToString", "k2/csrc/fsa_utils.cu:FsaFromString"]}
{"id": "C41", "title": "Ragged aux labels survive printing and re-reading", "statement": "An FSA with ragged aux labels printed by to_str can be read back by from_str in the same format. (Violated by the k2-format reader.)", "quantifier": "all FSAs with ragged labels", "why_tests_cant": "Formats were only tested with hand-written strings.", "anchors": ["k2/csrc/fsa_utils.cu:K2FsaFromStream", "k2/csrc/fsa_utils.cu:FsaToString"]}
{"id": "C42", "title": "Cached quantities are never stale", "statement": "After any sequence of attribute assignments, deletions and cached queries on an Fsa, every query returns what recomputing from the current arcs and scores would return.", "quantifier": "all histories of the modelled Fsa operations", "why_tests_cant": "Cache coherence is a property of all histories.", "anchors": ["k2/python/k2/fsa.py:Fsa._invalidate_cache_", "k2/python/k2/fsa.py:Fsa.__setattr__", "k2/python/k2/fsa.py:Fsa.get_forward_scores"]}
{"id": "C43", "title": "Attribute propagation through arc maps", "statement": "For every unary operation the attribute value of an output arc is the attribute of the input arc it came from, and the filler when there is none; tensor attributes keep length = number of arcs.", "quantifier": "all arc maps and attribute sets", "why_tests_cant": "All arc maps.", "anchors": ["k2/python/k2/utils.py:fsa_from_unary_function_tensor", "k2/python/k2/fsa.py:Fsa.get_filler"]}
{"id": "C44", "title": "Pruning ranges always leave a complete alignment", "statement": "For all gradients, lengths and s_range accepted by get_rnnt_prune_ranges, the ranges start at symbol 0, never move backwards, never skip a symbol, stay within the transcript, and contain a complete alignment from (0,0) to (S,T).", "quantifier": "all batches, lengths and arbitrary (even meaningless) gradient values", "why_tests_cant": "The arg-max can produce any integers; only all-quantified reasoning covers them.", "anchors": ["k2/python/k2/rnnt_loss.py:get_rnnt_prune_ranges", "k2/python/k2/rnnt_loss.py:_adjust_pruning_lower_bound", "k2/python/k2/rnnt_loss.py:_monotonic_lower_bound"]}
{"id": "C45", "title": "Pruned log-probs keep in-range entries and kill the rest", "statement": "px/py built by get_rnnt_logprobs_pruned are the joiner log-probs at positions inside the ranges and -inf outside, so the pruned score is the sum over exactly the alignments inside the ranges.", "quantifier": "all logits, symbols and ranges", "why_tests_cant": "Index arithmetic with modular roll for all shapes.", "anchors": ["k2/python/k2/rnnt_loss.py:get_rnnt_logprobs_pruned", "k2/python/k2/rnnt_loss.py:_roll_by_shifts"]}
{"id": "C46", "title": "mutual_information_recursion sums over all alignments", "statement": "The recursion returns the semiring sum over all monotonic alignments from (s_begin,t_begin) to (s_end,t_end), for the regular and modified recursion and for every boundary.", "quantifier": "all px, py, boundaries, sizes", "why_tests_cant": "Exponentially many alignments.", "anchors": ["k2/python/csrc/torch/mutual_information_cpu.cu:MutualInformationCpu"]}
{"id": "C47", "title": "mutual_information gradients are occupation probabilities", "statement": "px_grad and py_grad are the probabilities that an alignment uses the step; flow is conserved, so the gradient arriving at the beginning equals the gradient given at the end.", "quantifier": "all px, py, boundaries with finite total", "why_tests_cant": "All alignments.", "anchors": ["k2/python/csrc/torch/mutual_information_cpu.cu:MutualInformationBackwardCpu"]}
{"id": "C48", "title": "pruned_ranges_to_lattice represents the in-range alignments", "statement": "For all ranges satisfying the documented constraints the lattice is a valid acyclic FSA, all its destination states are in range, and every in-range alignment is a path.", "quantifier": "all ranges, frames, symbols", "why_tests_cant": "Index arithmetic for all shapes.", "anchors": ["k2/python/csrc/torch/pruned_ranges_to_lattice.cu:PrunedRangesToLattice"]}
{"id": "C49", "title": "ThreadPool runs every task exactly once and Wait waits for all of them", "statement": "In every interleaving each submitted task is run exactly once, and WaitAllTasksFinished returns only in a state where all tasks submitted before have finished.", "quantifier": "all numbers of workers, all task lists, all schedules", "why_tests_cant": "Schedules are unbounded.", "anchors": ["k2/csrc/thread_pool.cu:ThreadPool", "k2/csrc/thread_pool.h:ThreadPool::SubmitTask"]}
{"id": "C50", "title": "Concurrent waiters all wake up", "statement": "When all tasks have finished every thread blocked in WaitAllTasksFinished eventually returns. (Violated: notify_one wakes a single waiter.)", "quantifier": "all schedules with several waiters", "why_tests_cant": "Needs a particular interleaving of two waiters.", "anchors": ["k2/csrc/thread_pool.cu:ThreadPool::WaitAllTasksFinished", "k2/csrc/thread_pool.cu:ThreadPool::ProcessTasks"]}
{"id": "C51", "title": "counting_semaphore conserves permits", "statement": "In every interleaving acquisitions completed never exceed the initial count plus releases, the count never becomes negative, and no thread sleeps forever while permits are available.", "quantifier": "all threads, all schedules", "why_tests_cant": "Schedules are unbounded.", "anchors": ["k2/csrc/semaphore.h:counting_semaphore"]}
{"id": "C52", "title": "determinize arc derivatives on FsaVec", "statement": "The arc map of determinize on an FsaVec refers to the arcs of the right FSA for every position. (Violated: the code adds the offsets to the caller's array instead of the per-FSA arrays, indexing it past its end; through the python API the call is undefined for every FsaVec.)", "quantifier": "all FsaVecs", "why_tests_cant": "Tests use one FSA at a time.", "anchors": ["k2/csrc/fsa_algo.cu:Determinize"]}
{"id": "C53", "title": "levenshtein_alignment reports the edit distance", "statement": "As documented, the negated score of the best path returned by levenshtein_alignment is the Levenshtein distance of hypothesis and reference. (Violated with the default ins_del_score for long sequences, where the extra penalty of insertions and deletions adds up to more than one edit.)", "quantifier": "all reference and hypothesis sequences", "why_tests_cant": "The failing inputs have more than a thousand symbols.", "anchors": ["k2/python/k2/fsa_algo.py:levenshtein_alignment", "k2/python/k2/fsa_algo.py:levenshtein_graph"]}
{"id": "C54", "title": "Algorithms applied FSA by FSA give arc maps of the whole vector", "statement": "When a single-FSA algorithm is applied to an FsaVec through RecursionWrapper, the call succeeds if it succeeds on every FSA, and every entry of the arc map (or of the ragged arc derivatives) names, among all arcs of the input vector, the arc that the algorithm named inside its own FSA.", "quantifier": "all FsaVecs, all single-FSA algorithms with arc maps in range", "why_tests_cant": "Offsets matter only from the second FSA on, and for all sizes.", "anchors": ["k2/csrc/fsa_algo.cu:RecursionWrapper", "k2/csrc/fsa_algo.cu:ConnectHost", "k2/csrc/fsa_algo.cu:TopSortHost", "k2/csrc/fsa_algo.cu:RemoveEpsilonHost"]}
{"id": "C55", "title": "determinize returns an equivalent deterministic FSA", "statement": "For an FSA (epsilon treated as a normal symbol) the output of determinize has at most one arc per label leaving a state, accepts a string exactly when the input does, and its only path for that string scores the best score of the input for it, for every weight_pushing_type. The arc derivatives along an accepting path of the output are an accepting path of the input with the same labels and that best score, and without pushing the score of an output arc is the sum of the scores of the arcs it names. For acyclic connected input the algorithm terminates.", "quantifier": "all valid FSAs, all iteration orders of the hash maps, all scores", "why_tests_cant": "Tests compare random paths of random FSAs.", "anchors": ["k2/csrc/host/determinize_impl.h:DetState", "k2/csrc/host/determinize.cc:Determinizer", "k2/csrc/host/fsa_util.cc:CreateFsa", "k2/csrc/fsa_algo.cu:Determinize"]}
{"id": "C56", "title": "Attributes of the result of a binary operation", "statement": "In the result of a binary operation (intersect, compose) an attribute of one input alone has, at every arc, its value at the arc of that input, and the filler of that input where there is none; a float attribute of both inputs is the sum of the two values; the scores are the sums of the scores; other attributes come from the first input and, for new names, from the second; no attribute is invented.  Documented: attributes with the same name of another type are discarded.  (Violated: the call raises.)", "quantifier": "all attribute sets, all pairs of arc maps", "why_tests_cant": "All combinations of names, types, fillers and arc maps.", "anchors": ["k2/python/k2/utils.py:fsa_from_binary_function_tensor"]}
{"id": "C57", "title": "Attributes of an FsaVec created from FSAs", "statement": "create_fsa_vec concatenates every tensor attribute in the order of the FSAs and keeps the other attributes, whose values must agree; no attribute that an input has is lost. (Violated: the names of tensor attributes are taken from the last FSA only.)", "quantifier": "all lists of FSAs, all attribute sets", "why_tests_cant": "The order of evaluation of a generator decides which names are seen.", "anchors": ["k2/python/k2/utils.py:create_fsa_vec"]}
{"id": "C58", "title": "intersect_dense returns the pruned lattices", "statement": "For every batch of FSAs, every DenseFsaVec sorted by decreasing length and every increasing a_to_b_map: what intersect_dense returns is, for each FSA, a topologically sorted lattice whose accepting paths are alignments of the FSA with the frames, with the same labels and with the sum of arc scores and network scores; every alignment within the beam of the best is exactly one accepting path; every state and arc is on an alignment within the beam; the two arc maps name the arc of the FSA and the network score of the label in the frame; the limits on states and arcs are respected by narrowing the beam; and when everything fits, the call succeeds with the given beam.", "quantifier": "all batches, all scores including minus infinity, all beams, limits and piece sizes", "why_tests_cant": "Exactness of a lattice quantifies over all paths; forward and backward passes share two arrays, with the FSAs and frames interleaved.", "anchors": ["k2/csrc/intersect_dense.cu:MultiGraphDenseIntersect", "k2/csrc/intersect_dense.cu:IntersectDense", "k2/python/k2/fsa_algo.py:intersect_dense"]}
{"id": "C59", "title": "intersect_dense with labels or limits out of range", "statement": "An arc whose label has no column in the network output is treated as having the score minus infinity (as the comment in DoStep says), and the call returns for every positive limit. (Violated: the label equal to the number of columns reads the next frame; larger labels are kept next to a live arc, with the score of some other frame; labels wrap at 65536; and with max_states not larger than the number of frames the loop that narrows the beam does not end.)", "quantifier": "all labels, all limits", "why_tests_cant": "The behaviour appears only for inconsistent graphs and networks or for small limits.", "anchors": ["k2/csrc/intersect_dense.cu:DoStep", "k2/csrc/intersect_dense.cu:FormatOutput", "k2/csrc/intersect_dense.cu:DecreaseBeam"]}
{"id": "C60", "title": "Renumbering in pieces is renumbering", "statement": "GetNew2OldAndRowIds returns the kept elements in their order and the row of each of them, however the elements are divided into pieces, and is defined for all row_splits. (Violated: for some numbers of pieces the last piece starts behind the last row.)", "quantifier": "all row_splits, predicates and piece sizes", "why_tests_cant": "More than one piece needs a million elements with the default size.", "anchors": ["k2/csrc/algorithms.h:GetNew2OldAndRowIds"]}
{"id": "C61", "title": "Hash behaves as a map under concurrent use", "statement": "Whatever threads call Insert, Find and SetValue on a Hash in a kernel and in whatever order their reads, writes and compare-and-swaps interleave, their results are those of a map on which every call takes effect at one moment between its start and its end; every position of the table holds a pair of the map or nothing, and reading it gives back key and value, also when some bits of the key are not stored (PackedAccessor).", "quantifier": "all numbers of threads, all interleavings, all allowed numbers of buckets and bits", "why_tests_cant": "The number of interleavings is unbounded, and the tests run on a CPU one after the other.", "anchors": ["k2/csrc/hash.h:Hash", "k2/csrc/hash.h:PackedAccessor", "k2/csrc/hash.h:Accessor", "k2/csrc/hash.h:GenericAccessor"]}
{"id": "C62", "title": "A kernel of insertions has one winner for each new key", "statement": "After a kernel of Insert and Find: the old pairs are unchanged, every key that was inserted is there, for each new key exactly one thread was told true and its value is in the table, and all other threads were told false with that value and that location. Documented: this holds for all pairs but the one with all bits set. (Violated: keys whose stored bits are all ones cannot be inserted.)", "quantifier": "all kernels, all interleavings", "why_tests_cant": "Collisions and lost races are rare in tests.", "anchors": ["k2/csrc/hash.h:Insert", "k2/csrc/hash.h:Find", "k2/csrc/intersect.cu:DeviceIntersector"]}
{"id": "C63", "title": "Operations on Hash finish", "statement": "Insert and Find finish within two steps for each full bucket, whatever the other threads do, if one bucket of the group of the key is free; SetValue always finishes and its check never fails.", "quantifier": "all states, all interleavings", "why_tests_cant": "A loop that does not end shows up only in full or unlucky tables.", "anchors": ["k2/csrc/hash.h:Insert", "k2/csrc/hash.h:Find", "k2/csrc/hash.h:SetValue"]}
{"id": "C64", "title": "Deleting all keys leaves an empty Hash", "statement": "If each of a set of keys in the table is deleted by one thread, every Delete finishes and exactly the buckets of those keys become empty; if the keys are all keys, the check of the destructor passes.", "quantifier": "all states, all sets of keys, all interleavings", "why_tests_cant": "Emptied buckets lie on the way to other keys.", "anchors": ["k2/csrc/hash.h:Delete", "k2/csrc/hash.cu:CheckEmpty"]}
{"id": "C65", "title": "Resizing keeps the pairs of a Hash", "statement": "CopyDataFromSimple and CopyDataFrom, which Resize uses, copy a table to one of another size and other numbers of bits: no check fails and the new table maps the same keys to the same values.", "quantifier": "all states, all sizes, all numbers of bits in which the keys are allowed, all interleavings", "why_tests_cant": "The order in which the threads copy decides where keys go.", "anchors": ["k2/csrc/hash.h:CopyDataFromSimple", "k2/csrc/hash.h:CopyDataFrom", "k2/csrc/hash.cu:Resize"]}
{"id": "C66", "title": "Hash64 returns values that were inserted", "statement": "In a Hash64 no key is in two buckets, at most one Insert of a key returns true, and the values returned by Find and by an Insert that returns false were inserted for that key or set with SetValue at its location; when all operations have returned, every bucket is empty or has a key and such a value. (Violated: Insert may return all ones as the old value, before the value has been written.)", "quantifier": "all kernels, all interleavings", "why_tests_cant": "The window between writing the key and writing the value is a few instructions.", "anchors": ["k2/csrc/hash.h:Hash64"]}
{"id": "C67", "title": "Back-propagation through forward and backward scores is the derivative (log semiring)", "statement": "For acyclic FSAs, the gradient that get_forward_scores(log_semiring=True) passes to the arc scores is, for each arc, the sum over states of the incoming gradient times the share of the paths through the arc in the weight of all paths to the state, and it is the derivative of the incoming gradients times the forward scores with respect to the arc scores; states without a path pass on nothing. The same holds for get_backward_scores and paths to the final state.", "quantifier": "all FsaVecs that are topologically sorted, all scores, all incoming gradients, all directions", "why_tests_cant": "A numerical gradient check looks at one point and one direction with a tolerance.", "anchors": ["k2/csrc/fsa_utils.cu:BackpropGetForwardScores", "k2/csrc/fsa_utils.cu:BackpropGetBackwardScores", "k2/python/k2/autograd.py:_GetForwardScoresFunction", "k2/python/k2/autograd.py:_GetBackwardScoresFunction"]}
{"id": "C68", "title": "Back-propagation through arc posteriors is the derivative", "statement": "get_arc_post(log_semiring=True) passes to the forward and backward scores the transpose of the map from them to the posteriors, and together with the gradients of the forward and the backward scores and the direct term the arc scores get the derivative of the weighted sum of the log posteriors.", "quantifier": "all FsaVecs that are topologically sorted and connected, all scores and gradients", "why_tests_cant": "Errors in the terms for start and final states can cancel in small cases.", "anchors": ["k2/csrc/fsa_utils.cu:BackpropGetArcPost", "k2/csrc/fsa_utils.cu:GetArcPost", "k2/python/k2/autograd.py:_GetArcPostFunction"]}
{"id": "C69", "title": "Back-propagation through total scores is the derivative (log semiring)", "statement": "The gradient of get_tot_scores(log_semiring=True) for each arc is the gradient of its FSA times the posterior of the arc, and it is the derivative of the weighted sum of the total scores with respect to the arc scores.", "quantifier": "all FsaVecs that are topologically sorted, all scores and gradients", "why_tests_cant": "A numerical gradient check looks at one point and one direction with a tolerance.", "anchors": ["k2/python/csrc/torch/fsa.cu:GetTotScoresLogBackward", "k2/python/k2/autograd.py:_GetTotScoresFunction"]}
{"id": "C70", "title": "In the tropical semiring gradients follow one best path", "statement": "With log_semiring=False: for every state there is one best path from the start state to it such that the gradient of an arc is the sum of the incoming gradients of the states whose path has the arc; the same for backward scores and paths to the final state; the gradient of the total score of an FSA goes to the arcs of the path that shortest_path returns. States that have no path from the start state should pass on nothing. (Violated: the gradient of such a state goes to arcs before it.)", "quantifier": "all FsaVecs that are topologically sorted, all scores and gradients", "why_tests_cant": "With ties the choice must be the same in all passes, and numerical checks fail at ties.", "anchors": ["k2/csrc/fsa_utils.cu:BackpropGetForwardScores", "k2/csrc/fsa_utils.cu:BackpropGetBackwardScores", "k2/python/csrc/torch/fsa.cu:GetTotScoresTropicalBackward"]}
{"id": "C71", "title": "Reductions of sublists do not depend on the device or the order of evaluation", "statement": "SumPerSublist, MaxPerSublist, MinPerSublist, AndPerSublist and OrPerSublist return for each sublist the reduction of the initial value and its elements, whatever order a GPU combines them in; LogSumPerSublist does so up to a factor of one plus epsilon per element. argmax returns the position of the last maximum, and -1 exactly if all elements are below the initial value, on both devices. SegmentedExclusiveSum returns the sums of the elements before, in all three implementations; add adds the scaled value of its sublist to each element.", "quantifier": "all ragged tensors (also with empty sublists), all initial values, all orders of evaluation", "why_tests_cant": "A test sees one order of evaluation and few sizes; ties in argmax are rare.", "anchors": ["k2/csrc/ragged_ops_inl.h:SegmentedReduce", "k2/csrc/ragged_ops_inl.h:ArgMaxPerSublist", "k2/csrc/ragged_ops_inl.h:SegmentedExclusiveSum", "k2/csrc/ragged_ops_inl.h:AddPerSublist", "k2/csrc/utils.h:LogAdd"]}
{"id": "C72", "title": "Normalized sublists sum to one, and the gradients of sum, logsumexp and normalize are derivatives", "statement": "normalize(use_log=True) subtracts one number from each sublist with a finite element, after which the exponentials sum to one; normalize(use_log=False) divides each sublist by its sum, so that it sums to one. (Violated without logs: epsilon is added to the sum.) The backward functions of sum, logsumexp and normalize(use_log=True) return the derivatives of the weighted sum of the outputs, also if the gradient of the output is an expanded scalar (stride zero).", "quantifier": "all ragged tensors, all gradients of the output, all directions", "why_tests_cant": "Epsilon is below the tolerance of tests; expanded gradients appear only with certain losses.", "anchors": ["k2/csrc/ragged_ops_inl.h:NormalizePerSublist", "k2/python/csrc/torch/v2/autograd/sum.h", "k2/python/csrc/torch/v2/autograd/logsumexp.h", "k2/python/csrc/torch/v2/autograd/normalize.h"]}
{"id": "C73", "title": "RNN-T losses are negative logarithms of probabilities of transcripts", "statement": "For the types modified and constrained, exp(-rnnt_loss) summed over all transcripts of at most T symbols without the termination symbol is one (modified) or at most one (constrained); for the regular type, where transcripts may be of any length, and for rnnt_loss_pruned and HAT (use_hat_loss), the sum over any set of transcripts is at most one. Each loss is therefore not negative. Padding behind the end of a transcript or of the frames has no effect. (Transcripts that contain the termination symbol are excluded: with them the sum can exceed one.)", "quantifier": "all joiner networks, all logits, all numbers of frames, all finite sets of transcripts", "why_tests_cant": "The sum runs over infinitely many transcripts; a loss that is off by a factor per symbol still trains.", "anchors": ["k2/python/k2/rnnt_loss.py:rnnt_loss", "k2/python/k2/rnnt_loss.py:rnnt_loss_pruned", "k2/python/k2/rnnt_loss.py:get_rnnt_logprobs_joint", "k2/python/k2/rnnt_loss.py:get_hat_logprobs_joint"]}
{"id": "C74", "title": "The simple, the joint and the pruned RNN-T loss agree", "statement": "rnnt_loss_simple(lm, am) is rnnt_loss of the joiner am + lm; the small number that is added in the simple loss changes exp(-loss) by at most the factor (z/(z+tiny))^(S+T), where z is a lower bound of the normalizers. Adding a constant to a row of lm or am does not change rnnt_loss_simple without that number. With s_range = S + 1 rnnt_loss_pruned is rnnt_loss.", "quantifier": "all types, logits, symbols, boundaries and delay penalties", "why_tests_cant": "The two functions normalize in different ways; tests compare them with tolerances on few shapes.", "anchors": ["k2/python/k2/rnnt_loss.py:rnnt_loss_simple", "k2/python/k2/rnnt_loss.py:get_rnnt_logprobs", "k2/python/k2/rnnt_loss.py:rnnt_loss", "k2/python/k2/rnnt_loss.py:do_rnnt_pruning"]}
{"id": "C75", "title": "The delay penalty weighs alignments by the frames of their symbols", "statement": "With a delay penalty d the loss is the loss in which every alignment is multiplied by the exponential of d times the sum over its symbols of ((T-1)/2 - frame): alignments that emit a symbol one frame earlier are favoured by exactly exp(d).", "quantifier": "all alignments, all tables of probabilities, all types", "why_tests_cant": "A wrong centre or a missing frame changes all losses by a constant that tests on gradients do not see.", "anchors": ["k2/python/k2/rnnt_loss.py:rnnt_loss", "k2/python/k2/rnnt_loss.py:rnnt_loss_simple", "k2/python/k2/rnnt_loss.py:rnnt_loss_smoothed", "k2/python/k2/rnnt_loss.py:rnnt_loss_pruned"]}
{"id": "C76", "title": "The smoothed RNN-T loss is a number and not negative, and is the simple loss for zero scales", "statement": "For scales not below zero with a sum of at most one, rnnt_loss_smoothed returns a number that is not negative and does not change if a constant is added to a row of lm or am; with both scales zero it is rnnt_loss_simple. (Violated: with a sum of one, the regular type and no boundary the loss is NaN, because 0 times minus infinity is computed; zero scales are replaced by 1e-20.)", "quantifier": "all logits, symbols, boundaries, types and scales", "why_tests_cant": "Scales at the end of their range are not tested; the difference for zero scales is below tolerances.", "anchors": ["k2/python/k2/rnnt_loss.py:rnnt_loss_smoothed", "k2/python/k2/rnnt_loss.py:get_rnnt_logprobs_smoothed", "k2/python/k2/rnnt_loss.py:fix_for_boundary"]}
{"id": "C77", "title": "intersect_dense_pruned returns exactly alignments, and all those within the beams", "statement": "Every accepting path of the result for a sequence is an alignment of its decoding graph with its frames, with the same labels and with the sum of the scores of graph and frames; arc_map_a and arc_map_b point to the graph arc and to the frame score of each arc. An alignment that after each frame is less than the search beam worse than any other path, and whose total is at most the output beam worse than any other alignment, is exactly one path of the result. The search beam never shrinks below (4/5)^t times its value, and not at all if the graph has at most max_active states. The result is sorted topologically.", "quantifier": "all decoding graphs (one or one per sequence), all batches, all beams and limits on states", "why_tests_cant": "The beam depends on the history of active states of all frames; tests compare best paths on few random inputs.", "anchors": ["k2/csrc/intersect_dense_pruned.cu:IntersectDensePruned", "k2/csrc/intersect_dense_pruned.cu:PropagateForward", "k2/csrc/intersect_dense_pruned.cu:PruneTimeRange", "k2/csrc/intersect_dense_pruned.cu:FormatOutput", "k2/python/k2/autograd.py:intersect_dense_pruned"]}
{"id": "C78", "title": "The result of intersect_dense_pruned does not depend on the order of hash insertions", "statement": "Whatever order the GPU threads insert the arcs of a frame into the hash, the result has the same accepting paths with the same labels, scores and arc maps; only the numbers of states and arcs change.", "quantifier": "all decoding graphs and batches, all orders on all frames", "why_tests_cant": "A test sees one order, on the CPU always the same.", "anchors": ["k2/csrc/intersect_dense_pruned.cu:PropagateForward"]}
{"id": "C79", "title": "With allow_partial the states on the last frame are final if no final state is active", "statement": "A partial result is returned exactly when asked for and no active state has a final arc; then each active state of the last frame is final, so a sequence always has a result, and its paths are alignments without the last arc. (Violated: each outgoing arc of such a state is made a final arc that has its graph score but not its label, with arc_map_a -1 and arc_map_b pointing to a frame score that is not part of it; states without outgoing arcs are not made final.)", "quantifier": "all decoding graphs and batches", "why_tests_cant": "Tests check only that a result exists.", "anchors": ["k2/csrc/intersect_dense_pruned.cu:GetArcs", "k2/csrc/intersect_dense_pruned.cu:FormatOutput", "k2/python/k2/autograd.py:intersect_dense_pruned"]}
{"id": "C80", "title": "The result of intersect_dense_pruned is connected", "statement": "Each state of the result is on an accepting path, and each arc is on an accepting path that is at most the output beam worse than the best. (Violated for more than 20 frames: states that are reached after 10, 30, 50, ... arcs are never removed, even if nothing leaves them.)", "quantifier": "all decoding graphs and batches", "why_tests_cant": "Dead ends have no effect on total scores, which are what tests look at.", "anchors": ["k2/csrc/intersect_dense_pruned.cu:PruneTimeRange", "k2/csrc/intersect_dense_pruned.cu:Intersect"]}
{"id": "C81", "title": "The two threads of intersect_dense_pruned do not deadlock and always give the same result", "statement": "However the steps of the forward pass and the pruning thread are interleaved, no step fails, the threads never wait for each other for ever, every run ends, and the result is that of the threads run one after the other.", "quantifier": "all valid arguments, all interleavings of the two threads", "why_tests_cant": "A test sees few interleavings.", "anchors": ["k2/csrc/intersect_dense_pruned.cu:Intersect", "k2/csrc/intersect_dense_pruned.cu:BackwardPass", "k2/csrc/semaphore.h"]}
{"id": "C82", "title": "CreateSuffixArray sorts the suffixes of every text", "statement": "For every text of positive symbols followed by three zeros the result is the only permutation of the positions in which the suffixes are in lexicographic order, and no access is outside an array.", "quantifier": "all texts, including the empty one, all symbols up to max_symbol", "why_tests_cant": "The recursion on a third of the text has cases (length modulo 3, names unique or not) that random short texts seldom combine.", "anchors": ["k2/csrc/nbest.cu:CreateSuffixArray", "k2/csrc/nbest.cu:RadixPass"]}
{"id": "C83", "title": "CreateLcpArray gives the lengths of the common prefixes of neighbours", "statement": "lcp_array[0] is 0 and lcp_array[i] is the length of the longest common prefix of the suffixes suffix_array[i-1] and suffix_array[i], and no access is outside an array.", "quantifier": "all nonempty texts of positive symbols and their suffix array", "why_tests_cant": "The value is computed from that of the position before; a wrong decrement shows only in texts with long repetitions.", "anchors": ["k2/csrc/nbest.cu:CreateLcpArray"]}
{"id": "C84", "title": "CreateLcpIntervalArray returns the suffix tree, FindTightestNonemptyIntervals the least interval with a key", "statement": "The array contains each lcp-interval once, children before parents, the top last; parent is the next larger interval; the parent of a leaf is the least interval that contains it. An interval contains exactly the suffixes that share a prefix of its length. FindTightestNonemptyIntervals replaces the parent of a leaf by the least interval that contains the leaf and a position with a count.", "quantifier": "all texts of at least two positive symbols that end with a larger one (one symbol: the special case), all counts", "why_tests_cant": "Tests compare with stored results for few texts.", "anchors": ["k2/csrc/nbest.cu:CreateLcpIntervalArray", "k2/csrc/nbest.cu:FindTightestNonemptyIntervals", "k2/csrc/nbest.h:LcpInterval"]}
{"id": "C85", "title": "get_best_matching_stats finds the longest match of each query with a key", "statement": "For each query position, let l be the largest number of words (the word and those before it, across sentences, with an eos before the first) that it has in common with a key. The result is exactly: the totals over all positions that have l words in common; order max_order if l reaches the beginning of the query's sentence and min(l, max_order) otherwise; zero if l = 0. With three axes each collection is treated on its own. The internal conversion to 16 bits changes nothing but max_order.", "quantifier": "all token lists within [min_token, max_token], all scores and counts, both integer types", "why_tests_cant": "The answer is a maximum over all pairs of positions; tests compare a few sentences with stored results.", "anchors": ["k2/csrc/nbest.cu:GetBestMatchingStats", "k2/csrc/nbest.cu:GetBestMatchingStatsInternal", "k2/python/k2/utils.py:get_best_matching_stats"]}
{"id": "C86", "title": "get_best_matching_stats returns the documented statistics", "statement": "mean and var are the mean and centered variance of the scores of the best matching keys, counts_out is their number and is zero only if there are no keys; ngram_order is max_order only if both sentences were matched to their beginning. (Violated: scores of queries that match, including the query itself, are added to the totals; counts_out is zero when nothing matches; ngram_order is max_order when only the query's sentence was matched to its beginning; a max_order above 32767 gives negative orders.)", "quantifier": "all token lists within [min_token, max_token], all scores, counts of 0 and 1", "why_tests_cant": "Tests give queries the score zero.", "anchors": ["k2/csrc/nbest.h:GetBestMatchingStats", "k2/python/k2/utils.py:get_best_matching_stats"]}
{"id": "C87", "title": "RnntDecodingStreams.get_contexts returns the last symbols of the active hypotheses, each once", "statement": "After any sequence of frames, in any batches, the contexts returned for a stream are lists of decoder_history_len symbols, without duplicates; each is the last symbols (after zeros) of an alignment of the frames so far, the context of each alignment that stays within the limits is among them, and there are at most max_contexts (and never an access outside an array).", "quantifier": "all decoding graphs, networks, numbers of frames, batches and limits", "why_tests_cant": "Contexts are encoded as numbers in base vocab_size; tests look at shapes.", "anchors": ["k2/csrc/rnnt_decode.cu:RnntDecodingStreams::GetContexts", "k2/python/k2/rnnt_decode.py:RnntDecodingStreams.get_contexts"]}
{"id": "C88", "title": "The lattice of RNN-T decoding is exactly the set of alignments within the beam", "statement": "Each accepting path of the lattice returned by format_output is an alignment of the frames before the last with its symbols and the scores of graph and network, arc by arc, and the arc maps point to the arc of the graph and to the log-prob used; each alignment that stays within the limits on each frame is a path. All states are reached by paths, arcs lead from a frame to the next.", "quantifier": "all decoding graphs, networks, numbers of frames, batches and limits, with and without allow_partial", "why_tests_cant": "The number of alignments is exponential; tests compare a few total scores.", "anchors": ["k2/csrc/rnnt_decode.cu:RnntDecodingStreams::FormatOutput", "k2/csrc/rnnt_decode.cu:RnntDecodingStreams::GatherPrevFrames", "k2/python/k2/rnnt_decode.py:RnntDecodingStreams.format_output"]}
{"id": "C89", "title": "A frame of RNN-T decoding keeps the best states and drops others only because of the beam and the limits", "statement": "After advance the states of a stream are sorted, grouped by context, at most max_states states and max_contexts contexts remain, each within the beam of the best; the score of a state is the greatest of the scores of the candidates that reach it; the best candidate is kept; and a candidate that is missing was outside the beam or behind enough better states or contexts.", "quantifier": "all states that decoding can reach, all log-probs other than minus infinity for blank", "why_tests_cant": "Ties, limits of one or none and several streams with different numbers of states are seldom combined in tests.", "anchors": ["k2/csrc/rnnt_decode.cu:RnntDecodingStreams::Advance", "k2/csrc/rnnt_decode.cu:RnntDecodingStreams::PruneTwice", "k2/csrc/rnnt_decode.cu:RnntDecodingStreams::GroupStatesByContexts", "k2/csrc/ragged_ops.cu:PruneRagged"]}
{"id": "C90", "title": "The result of a stream does not depend on the other streams of its batch", "statement": "If a stream at any position of any batch is decoded for a frame, its contexts and its state afterwards are those that it would have in a batch of its own with its rows of the log-probs; streams may be moved between batches after each frame.", "quantifier": "all batches, all positions, all log-probs", "why_tests_cant": "Tests compare few batches; PruneRagged looks at the total number of elements of all streams.", "anchors": ["k2/csrc/rnnt_decode.cu:RnntDecodingStreams::Advance", "k2/csrc/rnnt_decode.cu:RnntDecodingStreams::TerminateAndFlushToStreams", "k2/csrc/rnnt_decode.cu:RnntDecodingStreams::RnntDecodingStreams"]}
{"id": "C91", "title": "RNN-T decoding does what its documentation says", "statement": "The beam limits the scores relative to the best state of the same frame; with allow_partial each state of the last frame becomes final once; every frame of a stream counts; some state always survives; the streams can be read after terminate_and_flush_to_streams. (Violated: the first pass compares with the best state of the frame before; one final arc per arc of the last frame, so one alignment gives several paths and pruned states give none; the labels and log-probs of the last frame are lost; decoding dies if only the final state survives; without a frame the streams stay attached and format_output fails; with log-probs of minus infinity contexts without states are kept and looked up.)", "quantifier": "all decoding graphs, networks, numbers of frames, batches and limits", "why_tests_cant": "Tests use a trivial graph, large limits and log-softmax of random numbers.", "anchors": ["k2/csrc/rnnt_decode.h:RnntDecodingConfig", "k2/csrc/rnnt_decode.h:RnntDecodingStreams", "k2/csrc/rnnt_decode.cu:RnntDecodingStreams::Advance", "k2/csrc/rnnt_decode.cu:RnntDecodingStreams::FormatOutput"]}
{"id": "C92", "title": "joint_mutual_information_recursion splits the total log-prob into expected scores", "statement": "The returned entries add up to the log of the sum over all alignments; entry n > 0 is the expectation, over the posteriors of the alignments, of the score that the n-th pair of tensors contributes; the first has the entropy of the posteriors added, which is never negative and zero exactly if one alignment has posterior 1. The gradient for an entry of the n-th pair is that of the n-th result times the posterior of the step, so the gradient is the exact one whenever all results have the same gradient.", "quantifier": "all numbers of tensor pairs, sizes, boundaries, scores that are minus infinity or not below the least float, regular and modified", "why_tests_cant": "Exponentially many alignments; tests check only that the entries add up to the result of mutual_information_recursion.", "anchors": ["k2/python/k2/mutual_information.py:joint_mutual_information_recursion", "k2/python/k2/mutual_information.py:_inner_product"]}
{"id": "C93", "title": "compose computes the composition of transducers", "statement": "The result of k2.compose maps x to z with score w exactly if a_fsa maps x to some y with score w1, b_fsa maps y to z with score w2 and w = w1 + w2; its paths are the pairs of matching paths, each arc has the label of the arc of a_fsa, the aux label of the arc of b_fsa (the matched label if b_fsa is an acceptor) and the sum of the scores, inner_labels are the matched labels, and the result is valid if the inputs are. It exists for all valid inputs with b_fsa arc sorted, output labels 0 or -1 on final arcs of a_fsa, and at least one arc in each input.", "quantifier": "all vectors of transducers, broadcast or not, with and without special treatment of epsilons", "why_tests_cant": "Cyclic transducers have infinitely many paths; tests compare a few strings on one or two graphs.", "anchors": ["k2/python/k2/fsa_algo.py:compose", "k2/python/k2/fsa.py:Fsa.invert_", "k2/python/k2/utils.py:fsa_from_binary_function_tensor", "k2/csrc/fsa_utils.cu:FixFinalLabels", "k2/csrc/fsa_algo.cu:Intersect"]}
{"id": "C94", "title": "ctc_graph and linear_fsa on a batch build the graph of each transcript", "statement": "For a ragged array of transcripts, ctc_graph(symbols) returns an FsaVec whose FSA number r is well formed and accepts, by exactly one path, exactly the frame sequences that collapse to transcript r, with the transcript as aux labels; it fails exactly if -1 is a symbol. With modified=True FSA r realises the modified CTC relation. linear_fsa(symbols) returns in position r an FSA that accepts exactly transcript r by one path. Row splits, row ids, arcs and aux labels of the whole batch are consistent.", "quantifier": "for all batches of transcripts, including empty batches and empty transcripts", "why_tests_cant": "The position of every state and arc in the flat arrays depends on the lengths of all earlier transcripts; tests try a few batches.", "anchors": ["k2/csrc/fsa_algo.cu: LinearFsas, CtcGraphs", "k2/python/k2/fsa_algo.py: ctc_graph, linear_fsa"]}
{"id": "C95", "title": "DenseFsaVec holds the frames of each supervision segment where intersection looks for them", "statement": "DenseFsaVec(log_probs, supervision_segments, allow_truncate) holds, for each segment in order, its frames, cut at the end of the sequence by at most allow_truncate frames, each with minus infinity for the label -1, followed by one frame on which only -1 is possible; the score of label l in frame t of segment r is class l in frame start + t of its sequence; the durations are the numbers of frames that are kept. It fails exactly if there is no segment or one has a wrong sequence, start or duration.", "quantifier": "for all log-probs, lists of segments that may overlap or repeat, and values of allow_truncate", "why_tests_cant": "Rows are moved by flat indexes that depend on all earlier segments; tests try a few segments.", "anchors": ["k2/python/k2/dense_fsa_vec.py: DenseFsaVec.__init__", "k2/python/k2/dense_fsa_vec.py: DenseFsaVec.duration"]}
{"id": "C96", "title": "ctc_loss is minus the log of the CTC probability of each transcript", "statement": "For graphs of ctc_graph and segments sorted by duration, ctc_loss returns for each transcript minus the log of a number that is at most the sum, over all frame sequences that collapse to the transcript, of their probabilities; it is that sum if the beam is wide, and infinite only if that sum is 0. For any graphs it is minus the log of the sum over a set of alignments that contains all in the beam, with the documented delay penalty on exactly the arcs that emit a token. It succeeds whenever the states and arcs fit into the limits. sum adds the losses; mean divides each by its length first.", "quantifier": "for all batches of transcripts, graphs, log-probs, beams, delay penalties and reductions", "why_tests_cant": "Exponentially many alignments; tests compare with torch on a few random inputs.", "anchors": ["k2/python/k2/ctc_loss.py: CtcLoss.forward", "k2/python/k2/ctc_loss.py: ctc_loss", "k2/csrc/intersect_dense.cu: IntersectDense"]}
{"id": "C97", "title": "random_paths takes every path as often as its weight demands", "statement": "k2.random_paths(fsas, use_double_scores, num_paths) returns num_paths paths for each FSA that has an accepting path of positive weight and none for the others.  Every returned path is an accepting path, given by its arcs.  A path whose share of the total weight is q is returned num_paths * q times, rounded up or down.  The CPU and a GPU return the same paths.", "quantifier": "for all vectors of top-sorted FSAs with other than one state, all scores and all numbers of paths", "why_tests_cant": "The samples come from cumulative sums of posteriors, intervals that shrink along the path and a buffer shared by all threads; tests look at the output for one or two graphs.", "anchors": ["k2/csrc/fsa_utils.cu: GetArcCdf, RandomPaths", "k2/python/k2/fsa_algo.py: random_paths"]}
{"id": "C98", "title": "prune_on_arc_post keeps exactly the paths along likely arcs", "statement": "k2.prune_on_arc_post(fsas, threshold_prob, use_double_scores) keeps all states and, in every FSA with accepting paths, exactly the arcs whose posterior is at least the threshold, in their order; the arc map gives their numbers in the input.  The accepting paths of the result are exactly the accepting paths of the input that use only such arcs, with the same weights.  The weight that is lost is at most the threshold times the number of removed arcs times the total weight.", "quantifier": "for all vectors of top-sorted FSAs, all scores and all thresholds between 0 and 1", "why_tests_cant": "The posterior of an arc depends on all paths; tests check the posteriors of the kept arcs of one random lattice.", "anchors": ["k2/csrc/fsa_utils.cu: PruneOnArcPost", "k2/csrc/ragged_ops.cu: Index", "k2/python/k2/fsa_algo.py: prune_on_arc_post"]}
{"id": "C99", "title": "Nbest.from_lattice keeps one sampled path for each word sequence", "statement": "k2.Nbest.from_lattice(lattice, num_paths, use_double_scores, nbest_scale) takes, for each FSA, num_paths paths in proportion to the exponentials of their scaled scores, and keeps exactly one path for each word sequence (the positive aux labels) among them, as far as the hash of the word sequences can tell them apart.  The shape of the answer gives the number of kept paths of each utterance; FSA number k is the linear FSA of the k-th kept path, with the labels and the unscaled scores of its arcs, and accepts by exactly one path; the aux labels are those of the arcs.  CPU and GPU agree.", "quantifier": "for all vectors of top-sorted FSAs with other than one state, all scores, aux labels that are tensors or ragged, numbers of paths and scales", "why_tests_cant": "Paths of different lengths, with several words or none on an arc, are regrouped four times through flat arrays; tests try one lattice.", "anchors": ["k2/python/k2/nbest.py: Nbest.from_lattice, Nbest.__init__", "k2/csrc/ragged_ops.cu: Index, UniqueSequences", "k2/csrc/ragged_ops.h: RemoveValuesLeq, RemoveValuesEq"]}
{"id": "C100", "title": "mwer_loss is the expected number of word errors of the sampled paths", "statement": "k2.mwer_loss samples paths of each utterance and keeps one for each word sequence (C99).  With reduction='none' the loss of a kept path is exp(score/temperature) divided by the sum of that over the kept paths of the utterance, times the edit distance between its words and the reference of its utterance, up to the relative error of LogAdd; the sum over an utterance is the expected number of errors; utterances without paths have no entries.  'sum' adds all, 'mean' divides by the number of kept paths.  It fails for references with 0 or -1.", "quantifier": "for all vectors of top-sorted FSAs with other than one state, real scores, aux labels that are tensors or ragged, references without 0 and -1, scales, temperatures other than 0; a reference and the words of a path have fewer than 1000 words together", "why_tests_cant": "The loss of a path depends on all other sampled paths, and the word sequences, references and scores are matched by flat indexes; tests compare two or three paths.", "anchors": ["k2/python/k2/mwer_loss.py: MWERLoss.forward, mwer_loss", "k2/python/k2/nbest.py: _get_texts, Nbest.build_levenshtein_graphs", "k2/python/k2/fsa_algo.py: levenshtein_alignment"]}
{"id": "C101", "title": "RaggedTensor.pad fills every row up to the longest", "statement": "RaggedTensor.pad returns a matrix with one row per list and as many columns as the longest list has entries.  In mode 'constant' a row is its list followed (with pad_left: preceded) by copies of the padding value.  In mode 'replicate' it is continued with its own last value (with pad_left: preceded by its own first value) and the padding value is used for empty lists only.  Other modes and tensors with more than two axes are rejected; the original lists can be cut out of the matrix again.", "quantifier": "for all ragged tensors with two axes, including no lists and empty lists, all padding values, both modes, both sides", "why_tests_cant": "Each entry is computed from row_splits by its own index arithmetic; boundary cases (empty first or last list, lists of full length) need all lists.", "anchors": ["k2/csrc/ragged_ops_inl.h: PadRagged", "k2/python/csrc/torch/v2/ragged_any.cu: RaggedAny::Pad"]}
{"id": "C102", "title": "Nbest.top_k returns the k best paths of every utterance", "statement": "Nbest.total_scores gives every FSA the score of its best path, minus infinity if it has none.  Nbest.top_k(k) returns for every utterance exactly k FSAs with their words, the best ones in descending order of total score; if an utterance has fewer than k paths, its last path is repeated.", "quantifier": "for all n-best lists: any number of utterances, any number of top-sorted FSAs per utterance, aux labels that are tensors or ragged, all k", "why_tests_cant": "The indexes come out of a sort of flat scores and are padded, cut, flattened and used on another tensor; an error in one of the steps moves paths between utterances only for certain sizes.", "anchors": ["k2/python/k2/nbest.py: Nbest.total_scores, Nbest.top_k", "k2/python/k2/ops.py: index_fsa", "k2/csrc/ragged_ops_inl.h: SortSublists, PadRagged", "k2/csrc/ragged_ops.cu: RegularRaggedShape"]}
{"id": "C103", "title": "ConvertDenseToFsaVec writes out the FSAs of a DenseFsaVec", "statement": "convert_dense_to_fsa_vec returns one FSA per sequence of score rows.  Its accepting paths take one arc per row: any symbol from 0 on, with the score in the column after it, for every row but the last, and the symbol -1 with the score in column 0 for the last row.  Every array element is written, and the row_splits and row_ids are those of the result.", "quantifier": "for all DenseFsaVecs with at least one sequence, at least one row per sequence, at least one symbol besides -1, any lengths", "why_tests_cant": "The threads compute where to write from sums over all earlier sequences; a wrong offset overwrites arcs of another sequence or leaves an element unwritten only for certain numbers of rows and symbols.", "anchors": ["k2/csrc/fsa_utils.cu: ConvertDenseToFsaVec", "k2/csrc/ragged_ops.cu: ChangeSublistSize"]}
{"id": "C104", "title": "IntersectDevice computes the intersection of FSA b_i with the FSA of a that b_to_a_map names", "statement": "intersect_device returns one FSA per FSA of b.  Every accepting path of it uses an accepting path of the FSA of a named by b_to_a_map and one of the FSA of b with the same labels, its score is the sum of their scores, and every two such paths are used by an accepting path.  The two arc maps name the arcs of the vectors a and b.  All states but the last one are reached from the first one, and the loop over iterations ends.  This holds in whatever order the threads insert states into the hash, on both devices and with both settings of sorted_match_a.", "quantifier": "for all vectors of valid FSAs (some may be empty), all b_to_a_map with indexes in range, all orders of the insertions; a arc-sorted if sorted_match_a", "why_tests_cant": "The numbers of the states depend on which thread wins; cycles, empty FSAs in the middle of a vector and arcs with equal labels combine in ways no finite test covers.", "anchors": ["k2/csrc/intersect.cu: IntersectDevice, DeviceIntersector", "k2/python/k2/fsa_algo.py: intersect_device"]}
{"id": "C105", "title": "intersect gives the same on the CPU and the GPU", "statement": "With treat_epsilons_specially=False, intersect returns as many FSAs on the GPU as on the CPU, and corresponding FSAs accept the same label sequences with the same scores.", "quantifier": "for all vectors of valid arc-sorted FSAs for which the CPU version is defined", "why_tests_cant": "Two different algorithms number states differently; whether the results are equivalent is not something a comparison of outputs can decide in general.", "anchors": ["k2/python/csrc/torch/fsa_algo.cu: PybindIntersect", "k2/csrc/fsa_algo.cu: Intersect", "k2/csrc/intersect.cu: IntersectDevice"]}
{"id": "C106", "title": "Nbest.intersect returns the best alignment of every path with the lattice of its utterance", "statement": "Nbest.intersect returns as many linear FSAs as there are paths.  If the lattice of the utterance accepts the labels of the path, not counting epsilons, then the FSA has exactly these labels after remove_epsilon, and its score is the score of the path plus the best score of an accepting path of the lattice with these labels; otherwise the FSA is empty.", "quantifier": "for all vectors of valid lattices and of valid epsilon-free FSAs, all assignments to utterances, all orders in which threads insert states", "why_tests_cant": "Which of the exponentially many alignments is best, and how the state numbers that come out of a race affect the next algorithm, cannot be covered by examples.", "anchors": ["k2/python/k2/nbest.py: Nbest.intersect", "k2/csrc/fsa_utils.cu: GetStateBatches, AddEpsilonSelfLoops", "k2/csrc/intersect.cu: IntersectDevice", "k2/csrc/fsa_algo.cu: ShortestPath"]}
{"id": "C107", "title": "Decoding a stream in chunks continues the search of intersect_dense_pruned", "statement": "After OnlineDenseIntersecter.decode has been called on consecutive chunks, the decode states hold the states that intersect_dense_pruned has active after as many frames, with the same forward scores, and the same beams; so the way in which the frames are cut into chunks does not change the search.", "quantifier": "for all decoding graphs, all scores, all beams and limits, all ways to cut the frames into chunks, any number of streams, all orders in which threads insert states", "why_tests_cant": "There are exponentially many ways to cut a stream, and the search carries its pruning state across calls.", "anchors": ["k2/csrc/intersect_dense_pruned.cu: OnlineDenseIntersecter::Decode, OnlineIntersect, GetFinalFrame, GetPruningCutoffs", "k2/python/k2/online_dense_intersecter.py: OnlineDenseIntersecter.decode"]}
{"id": "C108", "title": "The GPU computes the same mutual information as the CPU, in every schedule", "statement": "For every batch element, mutual_information_recursion on the GPU returns the sum over all alignments between (s_begin, t_begin) and (s_end, t_end) of the product of their px and py entries (in log space), and fills p inside the boundary rectangle with the corresponding sums; these are the values of the CPU version.  It does not write p outside of the rectangle.", "quantifier": "for all batch sizes, S, T and boundaries, all scores, regular and modified, all contents of the memory before, all interleavings of the thread blocks of a launch, and all orders of threads between barriers", "why_tests_cant": "The result of a wavefront over blocks depends on the order in which thread blocks and threads run, which a test does not control, and on how S and T relate to the block size.", "anchors": ["k2/python/csrc/torch/mutual_information_cuda.cu: mutual_information_kernel, MutualInformationCuda", "k2/python/csrc/torch/mutual_information_cpu.cu: MutualInformationCpu"]}
{"id": "C109", "title": "The GPU returns the same gradients as the CPU: occupation shares", "statement": "If the total of every batch element is not zero, the gradient that the GPU returns for px[b][s][t] is ans_grad[b] times the share in the total of the alignments that take a px step at (s, t), and likewise for py; this is the CPU's gradient, at every index of the tensors, zero on padding.  ans_grad is overwritten with itself.", "quantifier": "for all batch sizes, S, T and boundaries, all scores, regular and modified, all contents of the memory before, all interleavings of the thread blocks of a launch, and all orders of threads between barriers", "why_tests_cant": "Comparing with finite differences or with the CPU on examples neither covers all relations of sizes to the block size nor all schedules.", "anchors": ["k2/python/csrc/torch/mutual_information_cuda.cu: mutual_information_backward_kernel, MutualInformationBackwardCuda"]}
{"id": "C110", "title": "All threads of a thread block use the boundaries of the item they work on", "statement": "Every read of boundary_buf made by a thread for an item returns the row of `boundary` for the batch element of that item.", "quantifier": "for all numbers of threads and of items per thread block, whichever items are empty, and all orders of execution that respect __syncthreads()", "why_tests_cant": "A missing barrier shows only in rare schedules of the hardware.", "anchors": ["k2/python/csrc/torch/mutual_information_cuda.cu: mutual_information_kernel, mutual_information_backward_kernel (boundary_buf)"]}
{"id": "C111", "title": "Pinned memory is handed out only when nobody uses it", "statement": "For every program that copies from pointers which Allocate returned and frees only what it holds, as PytorchCpuContext::CopyDataTo does, memory returned by the pinned allocator overlaps neither with memory the program holds nor with the source of a copy that the GPU has not executed yet; no call aborts; and if a pooled block fits, a smallest such block is returned.  Creating and recording events must succeed; the code does not guarantee the property if it fails, nor for copies from the middle of a block.", "quantifier": "for all sequences of Allocate, Deallocate, writes, copies and kernels by any number of threads, all streams, all moments at which the GPU makes progress, all answers of cudaEventQuery including errors, all addresses returned by cudaMallocHost, and all orders of the set of streams", "why_tests_cant": "Reuse of memory under a pending copy depends on the timing of the GPU and shows up only as silently corrupted data.", "anchors": ["k2/csrc/pinned_context.cu: PinnedAllocator::Malloc, Free, RecordEvent, InsertEvents, ProcessEvents", "k2/csrc/pytorch_context.cu: PytorchCpuContext::CopyDataTo"]}
{"id": "C112", "title": "Copies through pinned memory deliver what was in the source when they were submitted, and freed memory is used again", "statement": "Every asynchronous copy that was executed delivered the bytes that the source contained when the copy was submitted, although the program may free the source right after the call.  If CUDA reports no errors and the streams are idle, Allocate uses a block that nobody holds and that is large enough instead of asking CUDA for new memory.", "quantifier": "for all programs as in C111, all interleavings of threads and GPU, all sizes", "why_tests_cant": "The loss needs a particular interleaving of host and device; leaks need long runs.", "anchors": ["k2/csrc/pinned_context.cu: PinnedAllocator", "k2/csrc/pytorch_context.cu: PytorchCpuContext::CopyDataTo"]}
{"id": "C113", "title": "Greedy search over a batch equals greedy search over each utterance", "statement": "GreedySearch returns for every utterance of a batch, in the original order, the tokens of the greedy search of that utterance alone: in each of its encoder_out_lens frames the best token given the last context_size tokens, without blank and unk.  Padding frames and other utterances have no influence, and no access is out of bounds.", "quantifier": "for all networks that act on rows independently, all batch sizes, lengths, orders of utterances of equal length, context sizes, blank and unk ids", "why_tests_cant": "The caching of decoder_out and the shrinking of the batch depend on when utterances end and on where tokens are emitted; tests cover a few combinations.", "anchors": ["k2/torch/csrc/beam_search.cu: GreedySearch, BuildDecoderInput"]}
{"id": "C114", "title": "Modified beam search merges paths without counting any twice, independently of the batch", "statement": "ModifiedBeamSearch returns for every utterance what it returns for that utterance alone, and fails exactly if it fails for one of them.  After each frame at most num_active_paths hypotheses with different tokens remain, from the best extensions of the previous ones; the score of a hypothesis is the total probability of a set of alignments of its tokens (one token per frame), hence at most the probability of its tokens.  The result has the largest length-normalised score.  The search succeeds if 1 <= num_active_paths <= vocabulary size, and is an error if num_active_paths is larger.", "quantifier": "for all networks that act on rows independently, all batch sizes, lengths, numbers of active paths, traversal orders of the hash map, and all choices of topk among equal scores", "why_tests_cant": "Merged paths, different numbers of hypotheses per utterance and utterances that end interact; the order of an unordered_map is not under the control of a test.", "anchors": ["k2/torch/csrc/beam_search.cu: ModifiedBeamSearch, GetHypsShape", "k2/torch/csrc/hypothesis.h: Hypotheses", "k2/torch/csrc/hypothesis.cu: Hypotheses::Add, Hypotheses::GetMostProbable"]}
{"id": "C115", "title": "Deleting all keys leaves an empty Hash64", "statement": "If each of a set of keys in a Hash64 is deleted by one thread, every Delete finishes, within two steps more than there are full buckets, and exactly the buckets of those keys become empty in both words; if the keys are all keys, the table is as new and CheckEmpty passes.", "quantifier": "all tables built by any execution, all sets of keys, all interleavings", "why_tests_cant": "Key and value are cleared in two steps, and emptied buckets lie on the way to keys that other threads are still looking for.", "anchors": ["k2/csrc/hash.h:Hash64::Delete", "k2/csrc/hash.h:Hash64::CheckEmpty"]}
{"id": "C116", "title": "Resizing keeps the pairs of a Hash64", "statement": "Resize of a Hash64 to a power of two of at least 128 buckets that is no less than the number of keys finishes, and the new table has the same keys with the same values, no key twice and no bucket that is half full.", "quantifier": "all tables built by any execution, all sizes, all interleavings of the copying threads", "why_tests_cant": "The order in which the threads copy decides where keys go; a full table is slow to fill.", "anchors": ["k2/csrc/hash.h:Hash64::Resize", "k2/csrc/hash.h:Hash64::CopyDataFromSimple"]}
{"id": "C117", "title": "Views of a tensor address their elements, and nothing outside the memory", "statement": "The constructor from a region accepts exactly the tensors whose elements are all in the region; a new tensor has exactly the memory that its elements need; Index(axis, i) is the part with index i on the axis, Flip reverses the axis, both stay inside the memory, and IsContiguous() is true exactly when the elements are in row-major order without gaps.", "quantifier": "all shapes with any number of axes and any strides (also negative or zero), all tensors with elements, all axes and indexes", "why_tests_cant": "Strides, offsets and numbers of axes combine without bound, and reading next to the memory of a tensor rarely has a visible effect.", "anchors": ["k2/csrc/tensor.cu:Shape::GetReachableElems", "k2/csrc/tensor.cu:Shape::ComputeIsContiguous", "k2/csrc/tensor.cu:Shape::SetStride", "k2/csrc/tensor.cu:Tensor::Tensor", "k2/csrc/tensor.cu:Tensor::Index", "k2/csrc/tensor_ops.cu:Flip"]}
{"id": "C118", "title": "Copies of a tensor have its elements", "statement": "ToContiguous, Clone, To (another context) and Cast of a tensor give a tensor with the same dimensions whose elements are those of the original, or their conversions.", "quantifier": "all tensors with elements and any number of axes, strides and offset, any contents of new memory, all orders in which elements are copied", "why_tests_cant": "The order of copying on a GPU varies, and the copy is wrong only for views that do not start at the beginning of their memory or that were flipped.", "anchors": ["k2/csrc/tensor_ops.cu:CopyTensorElements", "k2/csrc/tensor_ops.cu:ToContiguous", "k2/csrc/tensor_ops.cu:Cast", "k2/csrc/tensor.cu:Tensor::Clone", "k2/csrc/tensor.cu:Tensor::To"]}
{"id": "C119", "title": "index_select, index_add and compose_arc_maps select and add what the index says, and the gradient is right", "statement": "index_select(src, index, default) has index.numel() elements or rows, namely src[index[i]], or the default (zero for two axes) where index[i] is -1; index_add adds value[i] to dest[index[i]] for every i with index[i] other than -1, whatever the order of the additions; compose_arc_maps maps through both maps and keeps -1; the gradient that backward of index_select computes is the gradient of the sum of the selected elements times the gradients of the result.", "quantifier": "all tensors with one or two axes, any strides and offsets, all indexes in range or -1, repeated in any way, all orders of the atomic additions, all commutative rings of scores", "why_tests_cant": "The order of atomic additions varies from run to run, and strides, repeated indexes and sizes combine without bound.", "anchors": ["k2/python/csrc/torch/index_select.cu:IndexSelect1D", "k2/python/csrc/torch/index_select.cu:IndexSelect2D", "k2/csrc/tensor_ops.cu:IndexAdd1D", "k2/csrc/tensor_ops.cu:IndexAdd2D", "k2/csrc/array_ops_inl.h:IndexRows", "k2/python/k2/ops.py:_IndexSelectFunction", "k2/python/k2/ops.py:compose_arc_maps"]}
{"id": "C120", "title": "simple_ragged_index_select finds the value of each sub-list, or reports a sub-list with two", "statement": "simple_ragged_index_select(src, indexes) accepts the indexes exactly if every sub-list selects at most one value other than zero; element r of the result is then that value, or zero if there is none; otherwise the reported status names a sub-list that selects two; an index that is out of range is rejected.", "quantifier": "all vectors with any stride and offset, all ragged indexes, all executions: every order of the writes of the threads of both kernels, also of those to the same element", "why_tests_cant": "Threads race for the same elements, and which of them wins varies from run to run.", "anchors": ["k2/csrc/tensor_ops.cu:SimpleRaggedIndexSelect1DImpl", "k2/csrc/tensor_ops.cu:SimpleRaggedIndexSelect1D", "k2/python/csrc/torch/index_select.cu:SimpleRaggedIndexSelect1D"]}
{"id": "C121", "title": "The gradients of intersect_dense and intersect_dense_pruned are those of the scores of the result", "statement": "Every score of the result of intersect_dense and intersect_dense_pruned is the score of the arc that arc_map_a names plus the network score that arc_map_b names.  backward gives the gradient: when scores change and the arc maps stay, the changes of the scores of the result, weighted with the gradient of the result, add up to the changes of the scores of both arguments, weighted with the returned gradients.  frame_idx and seqframe_idx name the frame of an arc, in its sequence and in the batch.", "quantifier": "all FSAs, network scores and beams for which the intersection succeeds, all gradients, all orders of insertion into the hash and of the atomic additions", "why_tests_cant": "The gradient of an arc sums over any number of arcs of the result, and tests compare only a few numbers on a few lattices, without partial results.", "anchors": ["k2/python/k2/autograd.py:_IntersectDensePrunedFunction", "k2/python/k2/autograd.py:_IntersectDenseFunction", "k2/csrc/intersect_dense.cu:FormatOutput", "k2/csrc/intersect_dense_pruned.cu:FormatOutput"]}
{"id": "C122", "title": "Wave files are read as they were written, and other files are rejected", "statement": "read_wave returns the sample rate and every sample divided by 32768 of a RIFF file with one channel and 16 bit samples, whatever chunks come before the data and whatever comes after it.  For any bytes at all it either throws, or returns samples which are exactly the bytes that the file names as data; it always ends, and never writes outside its memory.", "quantifier": "all sequences of bytes; all sample rates, samples, numbers and sizes of other chunks", "why_tests_cant": "A test reads a few well formed files; the loop over chunks follows sizes that are taken from the file, and for a damaged or hostile file the sizes can be any 32 bit numbers.", "anchors": ["k2/torch/csrc/wave_reader.cu:WaveHeader::Validate", "k2/torch/csrc/wave_reader.cu:WaveHeader::SeekToDataChunk", "k2/torch/csrc/wave_reader.cu:ReadWaveImpl"]}
{"id": "C123", "title": "The printed command line can be pasted into the shell", "statement": "When a program prints its command line, bash splits what is printed into exactly the arguments that the program was given, whatever characters they contain.", "quantifier": "all numbers of arguments, all strings", "why_tests_cant": "A test escapes a handful of strings and looks at the result; whether bash reads it back depends on every combination of quotes, blanks and special characters in strings of any length, and on the arguments around it.", "anchors": ["k2/torch/csrc/parse_options.cu:MustBeQuoted", "k2/torch/csrc/parse_options.cu:QuoteAndEscape", "k2/torch/csrc/parse_options.cu:ParseOptions::Escape"]}
{"id": "C124", "title": "Options are the arguments before the first positional one, and the last setting counts", "statement": "ParseOptions::Read takes the arguments that begin with -- up to the first other argument or a lone -- as options, and all others as positional arguments, without the first lone --.  For every name the last setting on the command line counts, then the last one in the configuration files, then the value before; names are compared without case and with _ as -.  Arguments after the options have no influence on the values.", "quantifier": "all registered options, all command lines and configuration files", "why_tests_cant": "The order of settings, files and positional arguments can be combined in unboundedly many ways; tests use a few fixed command lines with well formed options.", "anchors": ["k2/torch/csrc/parse_options.cu:ParseOptions::Read", "k2/torch/csrc/parse_options.cu:ParseOptions::ReadConfigFile", "k2/torch/csrc/parse_options.cu:ParseOptions::SplitLongArg", "k2/torch/csrc/parse_options.cu:ParseOptions::SetOption"]}
{"id": "C125", "title": "Integer options accept exactly the integers that fit", "statement": "An integer option accepts a string exactly if it consists of white space, an optional sign, digits and white space, and the number fits into the type; the option then has this number as value.  All other strings end the program.", "quantifier": "all strings; signed and unsigned 32 bit options", "why_tests_cant": "There are infinitely many strings; overflow of 32 and 64 bits, signs for unsigned types and trailing characters have to be told apart in all of them.", "anchors": ["k2/torch/csrc/parse_options.cu:ConvertStringToInteger", "k2/torch/csrc/parse_options.cu:ParseOptions::ToInt", "k2/torch/csrc/parse_options.cu:ParseOptions::ToUint"]}
{"id": "C126", "title": "swoosh_l and swoosh_r return their formulas, and the coded gradient is the derivative on average", "statement": "swoosh_l and swoosh_r, and their forward variants, return log(1+exp(x-shift)) - 0.08x - offset for every x, also where exp overflows, divided by the probability of being kept or 0 with dropout; the derivative that is returned is that of the formula.  The byte in which the derivative is stored never overflows; the gradient that is decoded from it differs from the derivative by less than a step, its mean over the random numbers of the rounding is the derivative, and it is 0 where the output was set to 0.", "quantifier": "all inputs, output gradients, dropout probabilities below 1 and random numbers", "why_tests_cant": "The gradient is random; a test can compare samples with a tolerance, but not the mean over all random numbers, nor show that the byte overflows for no input.", "anchors": ["k2/python/csrc/torch/v2/autograd/swoosh.cu:SwooshFunction::forward", "k2/python/csrc/torch/v2/autograd/swoosh.cu:SwooshFunction::backward", "k2/python/csrc/torch/v2/autograd/swoosh.cu:SwooshForwardAndDeriv"]}
{"id": "C127", "title": "A symbol table maps symbols and numbers to each other as the file says", "statement": "A file with one symbol and one number in every line is read as it was written, with a leading U+2581 as a blank, if all symbols and all numbers differ.  For every file that is accepted, a symbol has a number exactly if the number has the symbol.  Every other file is an error.", "quantifier": "all files, of any number of lines and with any bytes", "why_tests_cant": "A test reads a few tables; what happens with damaged or cut off files, signs, ranges and joined tokens depends on how the stream fails at each position.", "anchors": ["k2/torch/csrc/symbol_table.cu:SymbolTable::SymbolTable", "k2/torch/csrc/symbol_table.cu:SymbolTable::operator[]"]}
