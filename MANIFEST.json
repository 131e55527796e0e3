{
 "claims": [
  {
   "property": "C01",
   "status": "proved",
   "theorems": [
    "Verif.SymbolTable.add_spec",
    "Verif.SymbolTable.add_auto_ok",
    "Verif.SymbolTable.add_wf",
    "Verif.SymbolTable.add_keeps",
    "Verif.SymbolTable.addAll_wf",
    "Verif.SymbolTable.add_then_lookup",
    "Verif.SymbolTable.construct_ok_iff",
    "Verif.SymbolTable.construct_wf",
    "Verif.SymbolTable.empty_wf"
   ],
   "note": "All add sequences, by induction."
  },
  {
   "property": "C02",
   "status": "proved",
   "theorems": [
    "Verif.SymbolTable.fromStr_toStr",
    "Verif.SymbolTable.pyEq_of_same",
    "Verif.SymbolTable.toStr_sorted",
    "Verif.SymbolTable.pyEq_true_iff",
    "Verif.SymbolTable.pyEq_keyError",
    "Verif.SymbolTable.negative_id_not_readable"
   ],
   "note": "Round trip for all well-formed tables with non-negative ids and printable symbols; add accepts negative ids, whose printed form cannot be read (witness)."
  },
  {
   "property": "C03",
   "status": "proved",
   "theorems": [
    "Verif.SymbolTable.merge_spec",
    "Verif.SymbolTable.merge_comm",
    "Verif.SymbolTable.merge_ok_comm",
    "Verif.SymbolTable.merge_self",
    "Verif.SymbolTable.merge_assoc",
    "Verif.SymbolTable.checkCompatible_iff"
   ],
   "note": ""
  },
  {
   "property": "C04",
   "status": "partial",
   "theorems": [
    "Verif.SymbolTable.fromStr_not_bijective",
    "Verif.SymbolTable.fromStr_wf_partial"
   ],
   "note": "The property is false; a witness is proved. Partial: holds whenever <eps> is not listed with a non-zero id or id 0 is listed."
  },
  {
   "property": "C05",
   "status": "proved",
   "theorems": [
    "Verif.Ragged.validRowSplits_iff",
    "Verif.Ragged.rowSplits_roundtrip",
    "Verif.Ragged.rowIds_roundtrip",
    "Verif.Ragged.rowIds_spec",
    "Verif.Ragged.rowIdsToRowSplits_decreasing",
    "Verif.Ragged.rowSplitsToRowIds_gpu",
    "Verif.Ragged.rowIdsToRowSplits_gpu"
   ],
   "note": "CPU loops and the GPU search formulas agree on valid input."
  },
  {
   "property": "C06",
   "status": "proved",
   "theorems": [
    "Verif.Ragged.index_axis0",
    "Verif.Ragged.index_axis0_elems",
    "Verif.Ragged.index_axis_last",
    "Verif.Ragged.index_axis_middle"
   ],
   "note": "Any number of axes; axis 0 with entries in [-1, dim0), and every later axis.  -1 on a later axis is not covered (the code reads row_ids there)."
  },
  {
   "property": "C07",
   "status": "proved",
   "theorems": [
    "Verif.Ragged.removeAxis_middle",
    "Verif.Ragged.removeAxis_zero",
    "Verif.Ragged.removeAxis_last",
    "Verif.Ragged.removeAxis_values",
    "Verif.Ragged.unsqueeze_zero",
    "Verif.Ragged.unsqueeze_pos",
    "Verif.Ragged.unsqueeze_removeAxis",
    "Verif.Ragged.unsqueeze_past_end"
   ],
   "note": "Any number of axes.  Nested lists are cut at the axis in question; Nest.join_cut says that every array has that form."
  },
  {
   "property": "C08",
   "status": "partial",
   "theorems": [
    "Verif.Ragged.stack_axis0",
    "Verif.Ragged.cat_axis0",
    "Verif.Ragged.stack_axis",
    "Verif.Ragged.cat_axis",
    "Verif.Ragged.stack_axis_returns_iff",
    "Verif.Ragged.cat_axis_returns_iff",
    "Verif.Ragged.cat_release_accepts",
    "Verif.Ragged.merge_spec",
    "Verif.Ragged.unstack_inner",
    "Verif.Ragged.unstack_last",
    "Verif.Ragged.unstack_last_two",
    "Verif.Ragged.unstack_zero",
    "Verif.Ragged.unstack_zero_two",
    "Verif.Ragged.unstack_stack_zero",
    "Verif.Ragged.stack_unstack_zero",
    "Verif.Ragged.unstack_stack_partial",
    "Verif.Ragged.unstack_stack_empty",
    "Verif.Ragged.unstack_last_pad_matters",
    "Verif.Ragged.unstack_last_changes_source"
   ],
   "note": "Every axis and any number of sources, on the CPU and on the GPU, including the merge maps; and Merge.  In release builds sources that differ above the axis are accepted silently (cat_release_accepts).  Unstack is proved on every axis, with its split maps; it undoes Stack on axis 0 always, and on a later axis when there is a list above that axis.  Without one it returns no array at all (unstack_stack_empty), so the statement is false there."
  },
  {
   "property": "C09",
   "status": "partial",
   "theorems": [
    "Verif.Ragged.transpose_spec",
    "Verif.Ragged.transpose_twice_partial",
    "Verif.Ragged.transpose_not_involution",
    "Verif.Ragged.swapAxes_get",
    "Verif.Ragged.swapAxes_twice"
   ],
   "note": "The involution fails for rows of length zero (witness); proved otherwise."
  },
  {
   "property": "C10",
   "status": "partial",
   "theorems": [
    "Verif.Ragged.prefix_spec",
    "Verif.Ragged.arange_spec",
    "Verif.Ragged.changeSublistSize_spec",
    "Verif.Ragged.changeSublistSizePinned_spec",
    "Verif.Ragged.addSuffix_spec",
    "Verif.Ragged.addPrefix_spec",
    "Verif.Ragged.new2old_spec",
    "Verif.Ragged.removeEmpty_axis0",
    "Verif.Ragged.removeEmpty_later",
    "Verif.Ragged.removeEmpty_values",
    "Verif.Ragged.removeSome_axis0",
    "Verif.Ragged.changeLayer_invalid",
    "Verif.Ragged.arange_empty_fails"
   ],
   "note": "All operations proved for parameters in range.  Two disagreements have witnesses: a negative size change larger than a row gives decreasing row_splits, and Arange on Ragged<T> fails for an empty range that lies past the number of values."
  },
  {
   "property": "C100",
   "status": "proved",
   "theorems": [
    "Verif.Fsa.mwer_loss_is_expected_edits",
    "Verif.Fsa.mwer_loss_paths",
    "Verif.Fsa.uttLoss_sum",
    "Verif.Fsa.share_sum",
    "Verif.Fsa.mwer_reductions",
    "Verif.Fsa.isWer_exists"
   ],
   "note": "Real scores, exact arithmetic apart from the cut-off in LogAdd, whose effect is bounded.  The distance of a reference and a hypothesis is the adjusted score of a best path of the alignment lattice (C25, C53); the limit of 1000 words comes from there.  Autograd is not modelled."
  },
  {
   "property": "C101",
   "status": "proved",
   "theorems": [
    "Verif.Ragged.pad_constant",
    "Verif.Ragged.pad_replicate",
    "Verif.Ragged.pad_rejects",
    "Verif.Ragged.pad_recover"
   ],
   "note": ""
  },
  {
   "property": "C102",
   "status": "partial",
   "theorems": [
    "Verif.Fsa.total_scores_best",
    "Verif.Fsa.Nb.indexFsa_eq",
    "Verif.Fsa.Nb.top_k_partial",
    "Verif.Fsa.Nb.top_k_fails_below_k"
   ],
   "note": "False as documented: if every utterance has fewer than k paths the padded matrix has fewer than k columns and the assertion in Nbest.__init__ fails (top_k_fails_below_k).  It also fails by its own assertion if some utterance has no path and another one has.  In all other cases the claim is proved; exactly when it returns is part of the theorem.  Scores are not rounded to float; k is not negative."
  },
  {
   "property": "C103",
   "status": "proved",
   "theorems": [
    "Verif.Fsa.Dv.convert_dense",
    "Verif.Fsa.Dv.dense_accepting",
    "Verif.Fsa.Dv.convert_dense_empty"
   ],
   "note": "A DenseFsaVec without sequences is outside the claim: row_splits2 is then never written (convert_dense_empty)."
  },
  {
   "property": "C104",
   "status": "proved",
   "theorems": [
    "Verif.Fsa.Idv.intersect_device_correct"
   ],
   "note": "The hash is a map (C61, C62, C65); limits of sizes and int32 overflow are not modelled."
  },
  {
   "property": "C105",
   "status": "partial",
   "theorems": [
    "Verif.Fsa.Idv.intersect_devices_partial",
    "Verif.Fsa.Idv.intersect_gpu",
    "Verif.Fsa.Idv.intersect_gpu_no_broadcast",
    "Verif.Fsa.Idv.intersect_gpu_mismatch"
   ],
   "note": "False if a has several FSAs and b one: the GPU returns only the intersection with the first FSA of a (intersect_gpu_no_broadcast)."
  },
  {
   "property": "C106",
   "status": "partial",
   "theorems": [
    "Verif.Fsa.Nbi.nbest_intersect_partial",
    "Verif.Fsa.Nbi.nbest_intersect_aborts"
   ],
   "note": "Proved for lattices in which every non-final arc goes from one level to the next, such as frame-synchronous lattices.  False for others: the result of intersect_device need not be topologically sorted and shortest_path then aborts (nbest_intersect_aborts).  remove_epsilon is applied to each returned FSA separately."
  },
  {
   "property": "C107",
   "status": "partial",
   "theorems": [
    "Verif.Fsa.Onl.online_states_partial",
    "Verif.Fsa.Onl.online_chunks_partial",
    "Verif.Fsa.Onl.run_frames",
    "Verif.Fsa.Onl.online_restarts",
    "Verif.Fsa.Onl.online_shorter_chunk"
   ],
   "note": "Proved for batches in which the chunks of a call have the same number of frames and no stream has lost all its states, and while the whole sequences have at least five more frames (intersect_dense_pruned widens the beam near the end, decode does not know the end).  False otherwise: a stream without states starts again (online_restarts), and a stream with a shorter chunk than another one loses its states (online_shorter_chunk).  Missing: which paths the returned lattices have."
  },
  {
   "property": "C108",
   "status": "proved",
   "theorems": [
    "Verif.Rnnt.Cuda.gpu_forward_total",
    "Verif.Rnnt.Cuda.seqSched_valid"
   ],
   "note": "Exact arithmetic; block size and number of threads are arbitrary within the limits stated in the code.  Items of a launch load and store atomically but in any interleaving; threads run in any order in each inner iteration.  boundary_buf is treated in C110."
  },
  {
   "property": "C109",
   "status": "proved",
   "theorems": [
    "Verif.Rnnt.Cuda.gpu_backward_occupation",
    "Verif.Rnnt.Cuda.gpu_backward_zero_total"
   ],
   "note": "Exact arithmetic; safe_exp and the replacement of minus infinity by -1e30 are modelled by cases.  If a total is zero, CPU and GPU differ (gpu_backward_zero_total).  boundary_buf is treated in C110."
  },
  {
   "property": "C11",
   "status": "proved",
   "theorems": [
    "Verif.Ragged.hash_gpu_eq_cpu",
    "Verif.Ragged.hash_gpu_eq_cpu_32_64",
    "Verif.Ragged.hash_reduction_independent",
    "Verif.Ragged.reduction_exists",
    "Verif.Ragged.hashCombine_assoc",
    "Verif.Ragged.hashCombine_not_comm"
   ],
   "note": "Arbitrary commutative ring, with 32 and 64-bit words as instances.  Every bracketing that keeps the order of the elements; the operator does not commute."
  },
  {
   "property": "C110",
   "status": "partial",
   "theorems": [
    "Verif.Rnnt.Cuda.forward_boundary",
    "Verif.Rnnt.Cuda.backward_boundary_partial",
    "Verif.Rnnt.Cuda.backward_init_race",
    "Verif.Rnnt.Cuda.backward_continue_race"
   ],
   "note": "Proved for the forward kernel.  False for the backward kernel, which lacks a barrier: two schedules with wrong reads are given; it holds if no item is empty and the initialisation is finished.  Sequentially consistent shared memory; the lock step of a warp is not assumed."
  },
  {
   "property": "C111",
   "status": "proved",
   "theorems": [
    "Verif.Pinned.malloc_exclusive",
    "Verif.Pinned.no_abort",
    "Verif.Pinned.malloc_best_fit",
    "Verif.Pinned.interior_copy_unprotected",
    "Verif.Pinned.failed_event_unprotected"
   ],
   "note": "Methods are atomic because each takes the mutex.  Streams are sequences of operations, an event is ready when the operations before it are done.  interior_copy_unprotected and failed_event_unprotected are the counterexamples outside of the hypotheses."
  },
  {
   "property": "C112",
   "status": "proved",
   "theorems": [
    "Verif.Pinned.copies_deliver",
    "Verif.Pinned.pending_intact",
    "Verif.Pinned.malloc_reuses"
   ],
   "note": "A program does not write into memory after it submitted a copy from it.  Reuse is proved for histories without CUDA errors: after an error in Free a block is lost."
  },
  {
   "property": "C113",
   "status": "proved",
   "theorems": [
    "Verif.BeamSearch.greedy_search_correct",
    "Verif.BeamSearch.greedy_tokens"
   ],
   "note": "Decoder and joiner are arbitrary functions of a row; argmax is any function of a row of logits.  pack_padded_sequence is modelled by its documented result."
  },
  {
   "property": "C114",
   "status": "proved",
   "theorems": [
    "Verif.BeamSearch.beam_search_batch",
    "Verif.BeamSearch.beam_hyps_sum",
    "Verif.BeamSearch.beam_hyps_le",
    "Verif.BeamSearch.beam_step_best",
    "Verif.BeamSearch.beam_result_max",
    "Verif.BeamSearch.beam_too_many",
    "Verif.BeamSearch.beam_succeeds"
   ],
   "note": "Exact arithmetic with probabilities.  The decimal representation of a token is assumed injective, not empty and without a dash (tokens are not negative); the traversal order of the map is a function of its history."
  },
  {
   "property": "C115",
   "status": "proved",
   "theorems": [
    "Verif.Hash.hash64_delete",
    "Verif.Hash.hash64_delete_all"
   ],
   "note": "Tables built by any execution of Insert, Find and SetValue that has finished."
  },
  {
   "property": "C116",
   "status": "proved",
   "theorems": [
    "Verif.Hash.hash64_resize"
   ],
   "note": "Includes tables that become exactly full."
  },
  {
   "property": "C117",
   "status": "partial",
   "theorems": [
    "Verif.Tensor.tensor_reach",
    "Verif.Tensor.tensor_region",
    "Verif.Tensor.tensor_new",
    "Verif.Tensor.tensor_index",
    "Verif.Tensor.tensor_flip",
    "Verif.Tensor.tensor_contiguous",
    "Verif.Tensor.tensor_row_major",
    "Verif.Tensor.tensor_flag_partial",
    "Verif.Tensor.tensor_flip_flag_neg"
   ],
   "note": "False as stated: SetStride does not store the new flag, so IsContiguous() stays true after Flip (tensor_flip_flag_neg).  Everything else is proved."
  },
  {
   "property": "C118",
   "status": "partial",
   "theorems": [
    "Verif.Tensor.tensor_to_contiguous",
    "Verif.Tensor.tensor_cast_strided",
    "Verif.Tensor.tensor_cast_partial",
    "Verif.Tensor.tensor_clone_partial",
    "Verif.Tensor.tensor_clone_neg",
    "Verif.Tensor.tensor_flip_copy_neg"
   ],
   "note": "False as stated: Clone and To ignore the offset of a contiguous view (tensor_clone_neg), and Clone and Cast of a flipped tensor leave its memory (tensor_flip_copy_neg).  Proved for ToContiguous, for Cast if the flag is right, and for Clone and To if the offset is zero or the tensor is not contiguous."
  },
  {
   "property": "C119",
   "status": "partial",
   "theorems": [
    "Verif.Tensor.index_select_partial",
    "Verif.Tensor.index_select_empty_neg",
    "Verif.Tensor.index_select2_partial",
    "Verif.Tensor.compose_arc_maps_partial",
    "Verif.Tensor.index_add",
    "Verif.Tensor.index_add2",
    "Verif.Tensor.index_select_gradient",
    "Verif.Tensor.index_select2_gradient"
   ],
   "note": "False as stated if src has no elements: the result is then empty, also if the index has elements, all of them -1 (index_select_empty_neg).  Proved for all other sources."
  },
  {
   "property": "C12",
   "status": "partial",
   "theorems": [
    "Verif.Ragged.uniqueSequences_eq",
    "Verif.Ragged.uniqueSequences_partial",
    "Verif.Ragged.uniqueSequences2_partial",
    "Verif.Ragged.indexes_spec",
    "Verif.Ragged.uniqRow_spec",
    "Verif.Ragged.uniqRow_inj",
    "Verif.Ragged.unique_collision",
    "Verif.Ragged.hash_collision"
   ],
   "note": "Proved when the hash is injective on the sequences of a list.  False on a collision (explicit witness)."
  },
  {
   "property": "C120",
   "status": "proved",
   "theorems": [
    "Verif.Tensor.simple_ragged_index_select",
    "Verif.Tensor.simple_ragged_selected"
   ],
   "note": "Writes of whole elements are atomic; the two kernels follow each other."
  },
  {
   "property": "C121",
   "status": "partial",
   "theorems": [
    "Verif.Fsa.Grad.dense_backward",
    "Verif.Fsa.Grad.intersect_dense_scores",
    "Verif.Fsa.Grad.intersect_dense_gradient",
    "Verif.Fsa.Grad.intersect_dense_pruned_scores_partial",
    "Verif.Fsa.Grad.intersect_dense_pruned_gradient_partial",
    "Verif.Fsa.Grad.intersect_dense_pruned_gradient_neg",
    "Verif.Fsa.Grad.frame_idx"
   ],
   "note": "False as stated with allow_partial: the gradient of an arc that was made final does not reach the arc of the graph that its score comes from (intersect_dense_pruned_gradient_neg).  Proved for intersect_dense for results with finite scores, and for intersect_dense_pruned without allow_partial and with contiguous scores."
  },
  {
   "property": "C122",
   "status": "partial",
   "theorems": [
    "Verif.Wave.wave_read_partial",
    "Verif.Wave.wave_sound",
    "Verif.Wave.wave_rate",
    "Verif.Wave.wave_stops",
    "Verif.Wave.wave_safe",
    "Verif.Wave.wave_loop_neg",
    "Verif.Wave.wave_odd_neg",
    "Verif.Wave.wave_padding_neg"
   ],
   "note": "False as stated: for a chunk of size -8 the loop does not end (wave_loop_neg), an odd number of data bytes is written behind the memory (wave_odd_neg), and after a chunk with an odd number of bytes and its padding the data is not found (wave_padding_neg).  Proved: files without padding are read back, everything that is returned is what the file contains, and the loop and the memory go wrong only for negative and odd sizes and large rates."
  },
  {
   "property": "C123",
   "status": "partial",
   "theorems": [
    "Verif.Escape.printed_words_partial",
    "Verif.Escape.printed_injective_partial",
    "Verif.Escape.printed_comment_neg",
    "Verif.Escape.printed_special_neg"
   ],
   "note": "False as stated: arguments that begin with # are comments for the shell (printed_comment_neg), and ~, [ ] and an exclamation mark in double quotes are expanded (printed_special_neg).  Proved for all other arguments."
  },
  {
   "property": "C124",
   "status": "partial",
   "theorems": [
    "Verif.Options.read_positional",
    "Verif.Options.read_values",
    "Verif.Options.command_line_wins",
    "Verif.Options.config_values",
    "Verif.Options.parse_name_value",
    "Verif.Options.read_ignores_rest_partial",
    "Verif.Options.read_total_partial",
    "Verif.Options.read_config_neg",
    "Verif.Options.read_help_neg",
    "Verif.Options.nested_config_neg"
   ],
   "note": "False as stated: the first pass does not end at the first positional argument, so that --config and --help are obeyed behind it (read_config_neg, read_help_neg); --config in a configuration file is accepted and ignored (nested_config_neg).  The rest is proved for all command lines; the last sentence for those without --config and --help."
  },
  {
   "property": "C125",
   "status": "proved",
   "theorems": [
    "Verif.Options.integer_iff"
   ],
   "note": "strtoll is modelled after the C standard for base 10 and the C locale."
  },
  {
   "property": "C126",
   "status": "partial",
   "theorems": [
    "Verif.Swoosh.swoosh_value",
    "Verif.Swoosh.dropout_value",
    "Verif.Swoosh.swoosh_hasDerivAt",
    "Verif.Swoosh.dropped_hasDerivAt",
    "Verif.Swoosh.deriv_value",
    "Verif.Swoosh.byte_range",
    "Verif.Swoosh.gradient_close",
    "Verif.Swoosh.gradient_mean",
    "Verif.Swoosh.dropped_gradient_neg"
   ],
   "note": "The last part is false: 0.08 is not a multiple of the step, so that the gradient of an element that was set to 0 is never 0 (dropped_gradient_neg), only its mean is.  The rest is proved in real numbers with overflow of exp; rounding is not modelled."
  },
  {
   "property": "C127",
   "status": "partial",
   "theorems": [
    "Verif.Symbols.symbols_read",
    "Verif.Symbols.symbols_bijective",
    "Verif.Symbols.unspace_inj",
    "Verif.Symbols.symbols_truncated_neg",
    "Verif.Symbols.symbols_joined_neg"
   ],
   "note": "The last sentence is false: a symbol at the end of the file without a number, or with one that is too large, is dropped without an error (symbols_truncated_neg), and lines may be joined (symbols_joined_neg).  The rest is proved."
  },
  {
   "property": "C13",
   "status": "partial",
   "theorems": [
    "Verif.Fsa.fsaVec_roundtrip",
    "Verif.Fsa.fsaVec_reserialize_partial",
    "Verif.Fsa.fromTensor_layout",
    "Verif.Fsa.fsaVec_meta_unchecked",
    "Verif.Fsa.fsaVec_arc_moves",
    "Verif.Fsa.fsaVec_fast_path_unsound",
    "Verif.Fsa.fsa_roundtrip_partial",
    "Verif.Fsa.fsa_accepted",
    "Verif.Fsa.fsa_no_final_arc",
    "Verif.Fsa.fsa_no_arcs"
   ],
   "note": "The round trip of an FsaVec is proved without restrictions.  A single FSA needs an arc into its final state (witnesses).  Not every accepted FsaVec tensor is written back unchanged: exactly those whose second integer is zero and whose arcs stay in their FSA (witnesses)."
  },
  {
   "property": "C14",
   "status": "proved",
   "theorems": [
    "Verif.Fsa.properties_spec",
    "Verif.Fsa.valid_iff",
    "Verif.Fsa.nonempty_iff",
    "Verif.Fsa.topSorted_iff",
    "Verif.Fsa.acyclic_iff",
    "Verif.Fsa.arcSorted_iff",
    "Verif.Fsa.deterministic_iff",
    "Verif.Fsa.epsilonFree_iff",
    "Verif.Fsa.accessible_iff",
    "Verif.Fsa.coaccessible_iff",
    "Verif.Fsa.totProperties_eq",
    "Verif.Fsa.acyclic_path",
    "Verif.Fsa.acyclic_no_cycle",
    "Verif.Fsa.topSorted_cycle",
    "Verif.Fsa.deterministic_path",
    "Verif.Fsa.accessible_sound",
    "Verif.Fsa.coaccessible_sound"
   ],
   "note": "Computed from the flat arrays of an FsaVec, for any number of FSAs."
  },
  {
   "property": "C15",
   "status": "partial",
   "theorems": [
    "Verif.Fsa.valid_documented_partial",
    "Verif.Fsa.valid_with_arc_leaving_final"
   ],
   "note": "The code does not check arcs leaving the final state (witness).  The rest of the documented conditions follows from the bit."
  },
  {
   "property": "C16",
   "status": "proved",
   "theorems": [
    "Verif.Fsa.connectVec_spec",
    "Verif.Fsa.connectOne_spec",
    "Verif.Fsa.Connected.accepting",
    "Verif.Fsa.Connected.accepting_back",
    "Verif.Fsa.restrict_connected"
   ],
   "note": "connect.cu on a flat FsaVec: both breadth-first passes (no conflicting writes, termination), the two renumberings and the arc map.  The two passes run in parallel threads on disjoint arrays and are modelled one after the other."
  },
  {
   "property": "C17",
   "status": "partial",
   "theorems": [
    "Verif.Fsa.pyConnect_partial",
    "Verif.Fsa.pyConnect_not_connected",
    "Verif.Fsa.maybe_bits_not_connected"
   ],
   "note": "False when the FSA is not topologically sorted and both Maybe bits are set (witness with an unreachable cycle).  Proved otherwise."
  },
  {
   "property": "C18",
   "status": "proved",
   "theorems": [
    "Verif.Fsa.topSortVec_succeeds",
    "Verif.Fsa.topSortVec_spec",
    "Verif.Fsa.topSortVec_deterministic",
    "Verif.Fsa.topSortOne_spec",
    "Verif.Fsa.TopSorted.paths",
    "Verif.Fsa.sortable_connected",
    "Verif.Fsa.topSort_keeps_unreachable"
   ],
   "note": "top_sort.cu on a flat FsaVec, for every order of the threads of the decrement kernel.  Fails exactly when an FSA is not sortable: fewer than two states, arcs into the start state or out of the final state other than self-loops, or a longer cycle."
  },
  {
   "property": "C19",
   "status": "proved",
   "theorems": [
    "Verif.Fsa.arcSort_spec",
    "Verif.Fsa.pyArcSort_spec",
    "Verif.Fsa.ArcSorted.paths",
    "Verif.Fsa.ArcSorted.accepts",
    "Verif.Fsa.ArcSorted.ends",
    "Verif.Fsa.sortSublists_eq"
   ],
   "note": "SortSublistsCpu with a stable sort; the GPU segmented sort is not modelled."
  },
  {
   "property": "C20",
   "status": "proved",
   "theorems": [
    "Verif.Fsa.linearFsa_isSome_iff",
    "Verif.Fsa.linearFsa_language",
    "Verif.Fsa.linearFsa_accepts",
    "Verif.Fsa.linearFsas_accepting",
    "Verif.Fsa.linearFsas_invalid"
   ],
   "note": "LinearFsas (batch) does not reject -1: witness linearFsas_invalid."
  },
  {
   "property": "C21",
   "status": "proved",
   "theorems": [
    "Verif.Fsa.ctcTopo_language",
    "Verif.Fsa.ctcTopo_valid",
    "Verif.Fsa.ctcCollapse_eq"
   ],
   "note": ""
  },
  {
   "property": "C22",
   "status": "proved",
   "theorems": [
    "Verif.Fsa.ctcGraph_language",
    "Verif.Fsa.ctcGraph_isSome_iff",
    "Verif.Fsa.ctcGraph_eq_topo",
    "Verif.Fsa.ctcGraph_valid"
   ],
   "note": "One transcript of the batch."
  },
  {
   "property": "C23",
   "status": "proved",
   "theorems": [
    "Verif.Fsa.ctcGraph_modified_language",
    "Verif.Fsa.ctcTopo_modified_language",
    "Verif.Fsa.ctcGraph_modified_eq_topo",
    "Verif.Fsa.ctcGraph_valid",
    "Verif.Fsa.ctcTopo_valid"
   ],
   "note": "Languages; path multiplicities are not counted."
  },
  {
   "property": "C24",
   "status": "proved",
   "theorems": [
    "Verif.Fsa.trivialGraph_language",
    "Verif.Fsa.trivialGraph_valid"
   ],
   "note": ""
  },
  {
   "property": "C25",
   "status": "proved",
   "theorems": [
    "Verif.Fsa.Lev.lattice_sound",
    "Verif.Fsa.Lev.lattice_complete",
    "Verif.Fsa.Lev.levenshteinGraph_defined"
   ],
   "note": "Rational scores.  The lattice is the set of pairs of accepting paths with equal labels; intersect_device itself is not modelled here."
  },
  {
   "property": "C26",
   "status": "proved",
   "theorems": [
    "Verif.Fsa.union_accepts",
    "Verif.Fsa.union_paths",
    "Verif.Fsa.union_paths_injective",
    "Verif.Fsa.union_arcMap",
    "Verif.Fsa.union_valid",
    "Verif.Fsa.union_undefined_on_empty_operand"
   ],
   "note": "Valid operands with at least one arc each; an operand without arcs makes the result undefined (witness)."
  },
  {
   "property": "C27",
   "status": "partial",
   "theorems": [
    "Verif.Fsa.closure_star_partial",
    "Verif.Fsa.closure_accepts",
    "Verif.Fsa.closure_paths",
    "Verif.Fsa.closure_star_subset",
    "Verif.Fsa.closure_valid",
    "Verif.Fsa.closure_not_star",
    "Verif.Fsa.closure_empty"
   ],
   "note": "Proved when no arc enters the start state. False otherwise: closure_not_star; closure_accepts says what is accepted for every valid input."
  },
  {
   "property": "C28",
   "status": "partial",
   "theorems": [
    "Verif.Fsa.closure_aux_partial",
    "Verif.Fsa.closure_aux_misaligned"
   ],
   "note": "Proved unless the first arc after those of the start state enters the final state; in that case the claim is false for every input (closure_aux_misaligned)."
  },
  {
   "property": "C29",
   "status": "proved",
   "theorems": [
    "Verif.Fsa.reverse_accepts",
    "Verif.Fsa.reverse_paths",
    "Verif.Fsa.reverse_arcMap",
    "Verif.Fsa.reverse_valid"
   ],
   "note": "Any valid FSA; one FSA of the vector."
  },
  {
   "property": "C30",
   "status": "proved",
   "theorems": [
    "Verif.Fsa.addLoops_accepts",
    "Verif.Fsa.addLoops_rows",
    "Verif.Fsa.addLoops_writes_once",
    "Verif.Fsa.removeLoops_addLoops",
    "Verif.Fsa.removeLoops_strings",
    "Verif.Fsa.Lpv.addLoopsVec_correct",
    "Verif.Fsa.Lpv.addLoopsVec_eq"
   ],
   "note": "AddEpsilonSelfLoops on vectors of FSAs too; RemoveEpsilonSelfLoops on a single FSA, with the index arithmetic of the kernels."
  },
  {
   "property": "C31",
   "status": "proved",
   "theorems": [
    "Verif.Fsa.expand_sound",
    "Verif.Fsa.expand_complete",
    "Verif.Fsa.expand_injective",
    "Verif.Fsa.expand_accepts",
    "Verif.Fsa.expand_valid"
   ],
   "note": "One FSA and one ragged attribute."
  },
  {
   "property": "C32",
   "status": "proved",
   "theorems": [
    "Verif.Fsa.invert_sound",
    "Verif.Fsa.invert_complete",
    "Verif.Fsa.invert_rel",
    "Verif.Fsa.invert_valid",
    "Verif.Fsa.invert_twice",
    "Verif.Fsa.invertTensor_defined",
    "Verif.Fsa.invertTensor_valid",
    "Verif.Fsa.invertTensor_paths",
    "Verif.Fsa.invertTensor_strings",
    "Verif.Fsa.invertTensor_twice"
   ],
   "note": "C++ Invert (ragged aux labels) and python invert_ (tensor aux labels).  Renaming of non-tensor attributes is not modelled."
  },
  {
   "property": "C33",
   "status": "proved",
   "theorems": [
    "Verif.Fsa.Repl.replaceFsa_correct",
    "Verif.Fsa.Repl.replaceOne_correct",
    "Verif.Fsa.Repl.replace_accepts",
    "Verif.Fsa.Repl.pyReplaceFsa_eq",
    "Verif.Fsa.Repl.replace_empty_source",
    "Verif.Fsa.Repl.replace_final_label",
    "Verif.Fsa.Repl.replace_reads_past_end"
   ],
   "note": "Vectors of index FSAs. The two negative witnesses show that an FSA without states acts as an epsilon arc although it accepts nothing, and that a range containing -1 gives an invalid result. replace_reads_past_end: line 2050 reads a value (which is not used) past the end of the arcs of src; the model leaves the read out."
  },
  {
   "property": "C34",
   "status": "proved",
   "theorems": [
    "Verif.Fsa.Isect.intersect_correct",
    "Verif.Fsa.Isect.intersection_accepts",
    "Verif.Fsa.Isect.intersection_accepts_literal",
    "Verif.Fsa.Isect.intersection_literal_pairs",
    "Verif.Fsa.Isect.intersect_sizes",
    "Verif.Fsa.Isect.intersect_leaving_final"
   ],
   "note": "CPU intersection (host/intersect.cc, host_shim.cu and fsa_algo.cu Intersect) of vectors of arc-sorted FSAs with nothing leaving the final states. Every path of the result is a pair of paths of the inputs named by the arc maps, with both settings of treat_epsilons_specially. Floats are an additive commutative monoid. intersect_leaving_final shows that the condition on final states is needed."
  },
  {
   "property": "C35",
   "status": "proved",
   "theorems": [
    "Verif.Fsa.Rmd.removeEpsilon_correct",
    "Verif.Fsa.Rmd.removeEpsilon_aborts",
    "Verif.Fsa.Rmd.removeEpsilon_best"
   ],
   "note": "Both algorithms behind remove_epsilon: the one for sorted acyclic FSAs on the CPU and the one for all other FSAs. For every valid FSA without an epsilon cycle of positive score the call terminates; the result is valid and epsilon-free, accepts the same strings with the same best scores, and the arc derivatives name the replaced paths. With such a cycle the call aborts. Scores are exact (no float rounding); one FSA at a time. Separately, removeEpsilonHost_nan shows that arcs leaving states that cannot be reached get a score that is not a number."
  },
  {
   "property": "C36",
   "status": "proved",
   "theorems": [
    "Verif.Fsa.forward_scores_are_path_sums",
    "Verif.Fsa.backward_scores_are_path_sums",
    "Verif.Fsa.tot_scores_are_path_sums",
    "Verif.Fsa.forward_backward_on_cuts",
    "Verif.Fsa.allPaths_exists"
   ],
   "note": "Any commutative semiring, FsaVecs of top-sorted FSAs; floats are not modelled."
  },
  {
   "property": "C37",
   "status": "proved",
   "theorems": [
    "Verif.Fsa.stateBatches_succeeds_iff",
    "Verif.Fsa.stateBatches_spec",
    "Verif.Fsa.stateBatchesT_spec",
    "Verif.Fsa.Bat.makeTransposable_spec"
   ],
   "note": "GetStateBatches succeeds exactly when all arcs go forward. The batches partition the states of each FSA in order, are not empty, send every arc to a later batch, and are as long as possible. The result does not depend on log_power, so CPU and GPU agree. The transposed form is the same table with empty batches as padding."
  },
  {
   "property": "C38",
   "status": "proved",
   "theorems": [
    "Verif.Fsa.arc_post_is_occupancy",
    "Verif.Fsa.arc_post_on_cuts"
   ],
   "note": "Any field; 0.5*(x+y) is an operation with mid x x = x, minus infinity is 0 and its inverse is 0."
  },
  {
   "property": "C39",
   "status": "proved",
   "theorems": [
    "Verif.Fsa.shortest_path_is_best",
    "Verif.Fsa.power_doubling_is_sequential",
    "Verif.Fsa.linear_fsa_accepts",
    "Verif.Fsa.shortest_path_minus_inf"
   ],
   "note": "Finite arc scores in any linearly ordered commutative additive monoid; FsaVecs of top-sorted FSAs; any log_power and number of threads.  With arcs of minus infinite score the result can be empty although an accepting path exists (witness)."
  },
  {
   "property": "C40",
   "status": "proved",
   "theorems": [
    "Verif.Fsa.Txt.text_round_trip",
    "Verif.Fsa.Txt.no_arcs_lost",
    "Verif.Fsa.Txt.inf_score_rejected"
   ],
   "note": "FSAs with at least one arc whose numbers fit into 32 bits, with up to ten arrays of auxiliary labels. How a score is printed and read is a parameter: the only assumption is that its text is a number. no_arcs_lost and inf_score_rejected show that both conditions are needed."
  },
  {
   "property": "C41",
   "status": "partial",
   "theorems": [
    "Verif.Fsa.Txt.ragged_text_rejected",
    "Verif.Fsa.Txt.ragged_text_round_trip_partial",
    "Verif.Fsa.Txt.ragged_handwritten"
   ],
   "note": "False: every FSA with a ragged label that is not empty is rejected by the k2-format reader, because of the space before the closing bracket.  What holds: all ragged labels empty."
  },
  {
   "property": "C42",
   "status": "partial",
   "theorems": [
    "Verif.Fsa.Cac.queries_fresh_partial",
    "Verif.Fsa.Cac.scores_assigned_partial",
    "Verif.Fsa.Cac.properties_fresh_partial",
    "Verif.Fsa.Cac.entering_arcs_fresh_partial",
    "Verif.Fsa.Cac.entering_arcs_some_precision",
    "Verif.Fsa.Cac.scores_read_partial",
    "Verif.Fsa.Cac.cache_read_partial",
    "Verif.Fsa.Cac.failed_labels_stale",
    "Verif.Fsa.Cac.entering_arcs_wrong_precision",
    "Verif.Fsa.Cac.entering_arcs_deleted",
    "Verif.Fsa.Cac.detach_stale",
    "Verif.Fsa.Cac.scores_written_stale",
    "Verif.Fsa.Cac.failed_scores_stale",
    "Verif.Fsa.Cac.rename_breaks_properties",
    "Verif.Fsa.Cac.version_assigned_stale"
   ],
   "note": "False as stated: eight witnesses.  What holds, for all histories of assignments, deletions, renames, inversions, writes into the labels, queries and clones over any number of objects, with calls that raise part-way: every query except entering arcs equals its recomputation; properties are right if no label assignment raised; entering arcs are right if one precision is used and they are not deleted.  Excluded: detach, writes into the tensor of scores, tampering with labels_version.  The C++ functions behind the queries are parameters."
  },
  {
   "property": "C43",
   "status": "partial",
   "theorems": [
    "Verif.Fsa.Att.unary_attributes_partial",
    "Verif.Fsa.Att.unary_returns",
    "Verif.Fsa.Att.unary_ragged_attributes",
    "Verif.Fsa.Att.unary_ragged_returns_iff",
    "Verif.Fsa.Att.unary_no_arcs_raises",
    "Verif.Fsa.Att.rows_ignore_filler",
    "Verif.Fsa.Att.reachable_ok"
   ],
   "note": "Proved for all attribute sets and arc maps, for arc maps with one source arc and with lists of source arcs, with conditions under which the functions return.  Missing, because false: a source without arcs and a result with arcs (raises), and the filler for attributes with two axes (zeros)."
  },
  {
   "property": "C44",
   "status": "proved",
   "theorems": [
    "Verif.Rnnt.pruneRanges_regular",
    "Verif.Rnnt.pruneRanges_modified",
    "Verif.Rnnt.pruneRanges_regular_ok",
    "Verif.Rnnt.pruneRanges_regular_no_symbols",
    "Verif.Rnnt.pruneRanges_constrained_one"
   ],
   "note": "Arbitrary arg-max values. Two disagreements have witnesses: S=0 always raises for the regular topology; constrained with s_range=1 leaves no alignment that emits a symbol."
  },
  {
   "property": "C45",
   "status": "proved",
   "theorems": [
    "Verif.Rnnt.logprobsPruned_entries",
    "Verif.Rnnt.pruned_score",
    "Verif.Rnnt.pruned_pipeline_finite",
    "Verif.Rnnt.rollBy_pad"
   ],
   "note": "Any joiner and any per-vector normalisation, so RNN-T and HAT."
  },
  {
   "property": "C46",
   "status": "proved",
   "theorems": [
    "Verif.Rnnt.miForward_total",
    "Verif.Rnnt.miForward_untouched"
   ],
   "note": "Any commutative semiring; regular and modified; any boundary."
  },
  {
   "property": "C47",
   "status": "proved",
   "theorems": [
    "Verif.Rnnt.miBackward_occupation",
    "Verif.Rnnt.miBackward_untouched",
    "Verif.Rnnt.miBackward_zero_total"
   ],
   "note": "Non-zero total over an ordered field. For a zero total the code still hands out gradient: witness miBackward_zero_total."
  },
  {
   "property": "C48",
   "status": "proved",
   "theorems": [
    "Verif.Rnnt.lattice_paths",
    "Verif.Rnnt.lattice_injective",
    "Verif.Rnnt.lattice_valid",
    "Verif.Rnnt.GoodRanges.lat"
   ],
   "note": "One sequence of the batch. The lattice has no arc for the blank on the last frame; the theorem states exactly which alignments are paths."
  },
  {
   "property": "C49",
   "status": "proved",
   "theorems": [
    "Verif.Threads.pool_runs_once_and_waits",
    "Verif.Threads.pool_runs_all",
    "Verif.Threads.pool_terminates",
    "Verif.Threads.pool_uses_idle_workers",
    "Verif.Threads.pool_destructor",
    "Verif.Threads.pool_events"
   ],
   "note": "Any number of workers and user threads, any interleaving of critical sections, spurious wake-ups included.  Tasks return and do not wait for the pool themselves."
  },
  {
   "property": "C50",
   "status": "partial",
   "theorems": [
    "Verif.Threads.second_waiter_blocked",
    "Verif.Threads.single_waiter_returns_partial"
   ],
   "note": "False for two waiters (witness).  Proved when at most one thread waits at a time."
  },
  {
   "property": "C51",
   "status": "proved",
   "theorems": [
    "Verif.Threads.sema_conserves_permits",
    "Verif.Threads.sema_no_lost_wakeup",
    "Verif.Threads.sema_terminates",
    "Verif.Threads.sema_counters",
    "Verif.Threads.negative_count_does_not_block"
   ],
   "note": "Initial count not negative; the witness shows that acquire does not block on a negative count."
  },
  {
   "property": "C52",
   "status": "partial",
   "theorems": [
    "Verif.Fsa.Det.pyDeterminizeVec_undefined",
    "Verif.Fsa.Det.determinizeVec_two_undefined",
    "Verif.Fsa.Det.determinizeVec_unshifted",
    "Verif.Fsa.Det.determinizeVec_wrong_fsa",
    "Verif.Fsa.Det.determinizeVec_fsas_partial",
    "Verif.Fsa.Det.determinizeVec_one_partial"
   ],
   "note": "False: through python the call is undefined for every FsaVec, and for two or more FSAs it is undefined for every caller with one output object.  What holds: the FSAs themselves when no derivatives are asked for, and one FSA with an initialised output."
  },
  {
   "property": "C53",
   "status": "partial",
   "theorems": [
    "Verif.Fsa.Lev.levenshtein_distance_partial",
    "Verif.Fsa.Lev.best_alignment",
    "Verif.Fsa.Lev.levenshtein_not_distance"
   ],
   "note": "Proved when the extra penalty times the total length is below one edit; false beyond that (witness with 1201 symbols and the default score)."
  },
  {
   "property": "C54",
   "status": "proved",
   "theorems": [
    "Verif.Fsa.Det.recursionWrapper_spec",
    "Verif.Fsa.Det.recursionWrapperMap_spec"
   ],
   "note": "Any single-FSA algorithm whose arc maps are in range."
  },
  {
   "property": "C55",
   "status": "partial",
   "theorems": [
    "Verif.Fsa.Det.determinize_correct_partial",
    "Verif.Fsa.Det.determinize_arc_scores_partial",
    "Verif.Fsa.Det.determinize_terminates_partial",
    "Verif.Fsa.Det.determinize_collision"
   ],
   "note": "Whenever the determinizer returns, the result is deterministic and equivalent with best scores, for any weight pushing operation that is commutative, associative and shift-compatible and for every iteration order of the hash maps; it terminates on acyclic inputs without dead ends. Partial because the hypothesis that the 128-bit codes of states do not collide is needed: determinize_collision gives an FSA with two eight-symbol words where a collision loses a string. Scores are exact (no float rounding)."
  },
  {
   "property": "C56",
   "status": "partial",
   "theorems": [
    "Verif.Fsa.Att.binary_attributes",
    "Verif.Fsa.Att.binary_same_name_raises"
   ],
   "note": "All clauses proved for calls that return; the documented discarding of attributes with equal names is false (proved: raises).  The filler of the first input is used for both sides."
  },
  {
   "property": "C57",
   "status": "partial",
   "theorems": [
    "Verif.Fsa.Att.vec_attributes_partial",
    "Verif.Fsa.Att.vec_attribute_lost",
    "Verif.Fsa.Att.vec_missing_raises"
   ],
   "note": "Attributes of the last FSA are concatenated and other attributes kept; attributes missing in the last FSA are lost and attributes missing in another FSA raise."
  },
  {
   "property": "C58",
   "status": "proved",
   "theorems": [
    "Verif.Fsa.Dn.intersectDense_sound",
    "Verif.Fsa.Dn.intersectDense_complete"
   ],
   "note": "All batches whose labels have a column and whose numbers fit into 16 bits (the witnesses of C59 show that these conditions are needed).  Scores are exact elements of an ordered group or minus infinity.  intersectDense_sound holds for every limit, beam and piece size, whenever the call returns; DecreaseBeam is a parameter.  intersectDense_complete: the arcs of all frames together fit into one piece of GetNew2OldAndRowIds."
  },
  {
   "property": "C59",
   "status": "partial",
   "theorems": [
    "Verif.Fsa.Dn.intersectDense_needs_labels",
    "Verif.Fsa.Dn.label_one_too_large",
    "Verif.Fsa.Dn.label_read_behind_end",
    "Verif.Fsa.Dn.label_far_too_large",
    "Verif.Fsa.Dn.label_wraps",
    "Verif.Fsa.Dn.intersectDense_never_ends"
   ],
   "note": "False as stated: witnesses, and a proof for all FSAs that no number of rounds narrows the beam enough when the limit on states is at most the number of frames.  What holds is C58."
  },
  {
   "property": "C60",
   "status": "partial",
   "theorems": [
    "Verif.Ragged.newToOldRows_eq",
    "Verif.Ragged.newToOldRows_one",
    "Verif.Ragged.chunkPlan_fits",
    "Verif.Ragged.newToOldRows_out_of_range",
    "Verif.Ragged.newToOldRows_reads_behind_end"
   ],
   "note": "Exact: the result is the renumbering when the last piece starts at a row, and a read behind the end otherwise.  It does when the rows are at least the square of the number of pieces."
  },
  {
   "property": "C61",
   "status": "proved",
   "theorems": [
    "Verif.Hash.hash_linearizable"
   ],
   "note": "PackedAccessor, and the other accessors as the case without implicit bits.  Sequentially consistent memory; each thread makes one access to the table at a time.  Keys whose stored bits are all ones are excluded (C62).  Locations passed to SetValue were returned for that key before."
  },
  {
   "property": "C62",
   "status": "partial",
   "theorems": [
    "Verif.Hash.hash_kernel",
    "Verif.Hash.insert_all_ones",
    "Verif.Hash.hash_insert_neg"
   ],
   "note": "hash_kernel is the claim for all keys whose stored bits are not all ones.  insert_all_ones: the other keys, which the documentation allows, are reported as present with a value that nobody inserted."
  },
  {
   "property": "C63",
   "status": "proved",
   "theorems": [
    "Verif.Hash.hash_finishes"
   ],
   "note": "The number of steps is bounded; that a thread gets to make its steps is up to the scheduler."
  },
  {
   "property": "C64",
   "status": "proved",
   "theorems": [
    "Verif.Hash.hash_delete",
    "Verif.Hash.hash_delete_all"
   ],
   "note": "Tables built by any execution of Insert, Find and SetValue."
  },
  {
   "property": "C65",
   "status": "proved",
   "theorems": [
    "Verif.Hash.hash_copy_simple",
    "Verif.Hash.hash_copy"
   ],
   "note": "Both copy kernels, on tables built by any execution; the choice between them in Resize and the allocation of the new table are not modelled.  Termination is part of hash_copy_simple; for hash_copy it is C63."
  },
  {
   "property": "C66",
   "status": "partial",
   "theorems": [
    "Verif.Hash.hash64_partial",
    "Verif.Hash.hash64_tries_all",
    "Verif.Hash.hash64_table",
    "Verif.Hash.hash64_old_neg"
   ],
   "note": "False as stated: hash64_old_neg.  Everything else is proved, with SetValue; Delete and Resize are C115 and C116."
  },
  {
   "property": "C67",
   "status": "proved",
   "theorems": [
    "Verif.Fsa.backprop_forward_is_occupancy",
    "Verif.Fsa.backprop_backward_is_occupancy",
    "Verif.Fsa.backprop_forward_is_gradient",
    "Verif.Fsa.backprop_backward_is_gradient"
   ],
   "note": "Scores are represented by their exponentials, the code works on logarithms; exact arithmetic.  The derivative is along every direction.  States without a path to them (or to the final state) are left out of the loss, as their score is minus infinity."
  },
  {
   "property": "C68",
   "status": "proved",
   "theorems": [
    "Verif.Fsa.backprop_arc_post_is_transpose",
    "Verif.Fsa.arc_post_gradient"
   ],
   "note": "Exact real arithmetic.  arc_post_gradient needs every state to be on a path from the start and on a path to the final state (otherwise the posterior is minus infinity)."
  },
  {
   "property": "C69",
   "status": "proved",
   "theorems": [
    "Verif.Fsa.tot_scores_gradient"
   ],
   "note": "Exact real arithmetic.  FSAs without an accepting path are left out of the loss, as their total score is minus infinity."
  },
  {
   "property": "C70",
   "status": "partial",
   "theorems": [
    "Verif.Fsa.backprop_forward_tropical",
    "Verif.Fsa.backprop_backward_tropical",
    "Verif.Fsa.tot_scores_tropical_gradient",
    "Verif.Fsa.unreached_state_has_gradient"
   ],
   "note": "All clauses but the last proved for finite arc scores in any ordered group.  The last clause is false: unreached_state_has_gradient."
  },
  {
   "property": "C71",
   "status": "proved",
   "theorems": [
    "Verif.Ragged.reduce_defined",
    "Verif.Ragged.sum_per_sublist",
    "Verif.Ragged.max_per_sublist",
    "Verif.Ragged.min_per_sublist",
    "Verif.Ragged.and_per_sublist",
    "Verif.Ragged.or_per_sublist",
    "Verif.Ragged.logsum_per_sublist",
    "Verif.Ragged.logsum_exact",
    "Verif.Ragged.argmax_cpu",
    "Verif.Ragged.argmax_gpu",
    "Verif.Ragged.argmax_same",
    "Verif.Ragged.exclusive_sum_cpu",
    "Verif.Ragged.exclusive_sum_int",
    "Verif.Ragged.exclusive_sum_float",
    "Verif.Ragged.add_per_sublist"
   ],
   "note": "The cub and cudpp functions are modelled by what they document (any order of evaluation; sums that restart at flags).  No rounding: the bound for logsumexp is about the shortcut in LogAdd."
  },
  {
   "property": "C72",
   "status": "partial",
   "theorems": [
    "Verif.Ragged.normalize_log",
    "Verif.Ragged.normalize_log_exact",
    "Verif.Ragged.normalize_log_undefined",
    "Verif.Ragged.normalize_sum_partial",
    "Verif.Ragged.normalize_sum_not_one",
    "Verif.Ragged.normalize_sum_divides_by_zero",
    "Verif.Ragged.sum_gradient",
    "Verif.Ragged.logsum_gradient",
    "Verif.Ragged.normalize_gradient"
   ],
   "note": "Exact real arithmetic; the gradients are for LogAdd without the shortcut.  False without use_log: normalize_sum_not_one for every sublist with a positive sum; normalize_sum_partial says what is computed."
  },
  {
   "property": "C73",
   "status": "proved",
   "theorems": [
    "Verif.Rnnt.joint_distribution",
    "Verif.Rnnt.joint_distribution_exact",
    "Verif.Rnnt.pruned_distribution",
    "Verif.Rnnt.simple_distribution"
   ],
   "note": "Exact real arithmetic.  joint_distribution_exact is the equality for the type modified, over the transcripts of at most T symbols; the others are bounds for every finite set of transcripts.  pruned_distribution covers RNN-T and HAT, with ranges of consecutive symbol positions."
  },
  {
   "property": "C74",
   "status": "proved",
   "theorems": [
    "Verif.Rnnt.simple_is_joint",
    "Verif.Rnnt.simple_near_joint",
    "Verif.Rnnt.simple_shift",
    "Verif.Rnnt.pruned_full"
   ],
   "note": "Exact real arithmetic.  The equality is for tiny = 0, simple_near_joint bounds the effect of tiny."
  },
  {
   "property": "C75",
   "status": "proved",
   "theorems": [
    "Verif.Rnnt.delay_penalty"
   ],
   "note": "Exact real arithmetic, delay penalties not below zero (the code ignores others)."
  },
  {
   "property": "C76",
   "status": "partial",
   "theorems": [
    "Verif.Rnnt.smoothed_le_one",
    "Verif.Rnnt.smoothed_shift",
    "Verif.Rnnt.smoothed_number",
    "Verif.Rnnt.smoothed_zero_scales",
    "Verif.Rnnt.smoothed_nan"
   ],
   "note": "False: smoothed_nan.  smoothed_number says exactly when the loss is a number; smoothed_le_one and smoothed_shift hold whenever it is.  smoothed_zero_scales relates zero scales to the scales 1e-20 that replace them."
  },
  {
   "property": "C77",
   "status": "proved",
   "theorems": [
    "Verif.Fsa.Dp.intersectDensePruned_decodes"
   ],
   "note": "Clauses decoded and decodedSmall of Result1.  Scores are exact elements of an ordered field or minus infinity; the hash is a map.  Online decoding is not modelled.  Completeness is per alignment: it is stated for alignments that are in the beam on each frame."
  },
  {
   "property": "C78",
   "status": "proved",
   "theorems": [
    "Verif.Fsa.Dp.intersectDensePruned_order"
   ],
   "note": "SamePaths in both directions (the two orders are arbitrary)."
  },
  {
   "property": "C79",
   "status": "partial",
   "theorems": [
    "Verif.Fsa.Dp.intersectDensePruned_decodes",
    "Verif.Fsa.Dp.partial_off",
    "Verif.Fsa.Dp.partial_on",
    "Verif.Fsa.Dp.partial_none"
   ],
   "note": "False as stated: partial_on (score of an arc that is not taken, arc maps that do not match the score) and partial_none (a state without arcs is not final).  What holds, in intersectDensePruned_decodes: asked, needed, lively, soundPart, completePart."
  },
  {
   "property": "C80",
   "status": "partial",
   "theorems": [
    "Verif.Fsa.Dp.intersectDensePruned_decodes",
    "Verif.Fsa.Dp.dead_end"
   ],
   "note": "False as stated: dead_end.  Proved: used (batches of at most 20 frames), reached and alive (all batches)."
  },
  {
   "property": "C81",
   "status": "proved",
   "theorems": [
    "Verif.Fsa.Dp.intersectDensePruned_threads"
   ],
   "note": "A step of the forward pass, a round of pruning and an operation on a semaphore are atomic.  The thread pool is treated in C49."
  },
  {
   "property": "C82",
   "status": "proved",
   "theorems": [
    "Verif.Nbest.createSuffixArray_correct"
   ],
   "note": "Numbers do not overflow; the documented larger symbol at the end is not needed."
  },
  {
   "property": "C83",
   "status": "proved",
   "theorems": [
    "Verif.Nbest.createLcpArray_correct"
   ],
   "note": "Numbers do not overflow."
  },
  {
   "property": "C84",
   "status": "proved",
   "theorems": [
    "Verif.Nbest.createLcpIntervals_correct",
    "Verif.Nbest.createLcpIntervals_one",
    "Verif.Nbest.findTightest_correct",
    "Verif.Nbest.suffixTree_correct"
   ],
   "note": "The larger symbol at the end is needed: createLcpIntervals_needs_terminator."
  },
  {
   "property": "C85",
   "status": "proved",
   "theorems": [
    "Verif.Nbest.bestMatching_correct",
    "Verif.Nbest.bestMatching3_correct"
   ],
   "note": "Exact arithmetic in a field; counts and their sums do not overflow.  The results of keys, which the documentation calls undefined, are not described, only that they exist."
  },
  {
   "property": "C86",
   "status": "partial",
   "theorems": [
    "Verif.Nbest.bestMatching_documented_partial",
    "Verif.Nbest.bestMatching_counts_queries",
    "Verif.Nbest.bestMatching_count_zero",
    "Verif.Nbest.bestMatching_order_one_side",
    "Verif.Nbest.bestMatching_order_negative"
   ],
   "note": "False as stated, four witnesses.  bestMatching_documented_partial: the documented values if the scores of queries are zero, with counts_out zero when nothing matches and the order from the side of the query, for max_order below 32768."
  },
  {
   "property": "C87",
   "status": "proved",
   "theorems": [
    "Verif.Rnnt.Dec.getContexts_correct",
    "Verif.Rnnt.Dec.getContexts_total"
   ],
   "note": "Numbers do not overflow; the log-prob of blank is not minus infinity."
  },
  {
   "property": "C88",
   "status": "proved",
   "theorems": [
    "Verif.Rnnt.Dec.formatOutput_correct",
    "Verif.Rnnt.Dec.formatOutput_total"
   ],
   "note": "Scores are exact elements of an ordered field or minus infinity; the log-prob of blank is not minus infinity.  The last frame is not part of the paths (C91).  Completeness is per alignment, for those that are in the beam on each frame.  The conversion of the paths to an FsaVec with final states is part of the model."
  },
  {
   "property": "C89",
   "status": "proved",
   "theorems": [
    "Verif.Rnnt.Dec.advance_frame",
    "Verif.Rnnt.Dec.advance_some"
   ],
   "note": "Candidates are those of the first pass, which compares with the best state of the frame before (C91)."
  },
  {
   "property": "C90",
   "status": "proved",
   "theorems": [
    "Verif.Rnnt.Dec.advance_alone",
    "Verif.Rnnt.Dec.advance_each"
   ],
   "note": "The decoding graph of a stream is its own; that all graphs of a batch are stacked into one FsaVec is a nested list here."
  },
  {
   "property": "C91",
   "status": "partial",
   "theorems": [
    "Verif.Rnnt.Dec.advance_frame",
    "Verif.Rnnt.Dec.formatOutput_correct",
    "Verif.Rnnt.Dec.Wit.beam_is_not_on_the_same_frame",
    "Verif.Rnnt.Dec.Wit.second_beam_is_needed",
    "Verif.Rnnt.Dec.Wit.partial_states",
    "Verif.Rnnt.Dec.Wit.last_frame_lost",
    "Verif.Rnnt.Dec.Wit.final_arc_has_score_of_blank",
    "Verif.Rnnt.Dec.Wit.all_minus_infinity",
    "Verif.Rnnt.Dec.Wit.no_state_survives",
    "Verif.Rnnt.Dec.Wit.flush_without_frames"
   ],
   "note": "False as stated, eight witnesses.  What holds instead is in advance_frame and formatOutput_correct (field sound: which alignments end in the final state)."
  },
  {
   "property": "C92",
   "status": "proved",
   "theorems": [
    "Verif.Rnnt.joint_correct",
    "Verif.Rnnt.joint_defined",
    "Verif.Rnnt.joint_offset",
    "Verif.Rnnt.joint_backward",
    "Verif.Rnnt.joint_gradient"
   ],
   "note": "Exact real arithmetic; entries are minus infinity or at least the least float.  That the offset is detached and how clamp passes gradients is written into jointBackX and jointBackY, not derived from autograd."
  },
  {
   "property": "C93",
   "status": "proved",
   "theorems": [
    "Verif.Fsa.Comp.compose_correct",
    "Verif.Fsa.Comp.composition_relates",
    "Verif.Fsa.Comp.composition_pairs",
    "Verif.Fsa.Comp.inner_needs_aux",
    "Verif.Fsa.Comp.no_arcs_raises"
   ],
   "note": "CPU only.  Aux labels are tensors; symbol tables and further attributes are those of C56.  Arithmetic is exact.  no_arcs_raises shows why the inputs need an arc."
  },
  {
   "property": "C94",
   "status": "proved",
   "theorems": [
    "Verif.Fsa.CtcB.ctc_graph_batch",
    "Verif.Fsa.CtcB.ctc_graph_batch_fails_iff",
    "Verif.Fsa.CtcB.ctc_graph_batch_modified",
    "Verif.Fsa.CtcB.linear_fsa_batch"
   ],
   "note": "Flat arrays of the whole batch."
  },
  {
   "property": "C95",
   "status": "proved",
   "theorems": [
    "Verif.Fsa.Loss.dense_fsa_vec_holds_segments",
    "Verif.Fsa.Loss.dense_fsa_vec_fails_iff",
    "Verif.Fsa.Loss.dense_fsa_vec_scores"
   ],
   "note": "A duration of 0 is accepted although the documentation demands a positive one."
  },
  {
   "property": "C96",
   "status": "proved",
   "theorems": [
    "Verif.Fsa.Loss.ctc_loss_sound",
    "Verif.Fsa.Loss.ctc_loss_complete",
    "Verif.Fsa.Loss.ctc_loss_of_transcripts",
    "Verif.Fsa.Loss.ctc_loss_sum",
    "Verif.Fsa.Loss.ctc_loss_mean"
   ],
   "note": "Exact real arithmetic, minus infinity included; CPU versions of the kernels.  The statement about transcripts is for the standard topology without delay penalty; the one about alignments covers the penalty.  A target length of 0 is excluded from ctc_loss_mean."
  },
  {
   "property": "C97",
   "status": "proved",
   "theorems": [
    "Verif.Fsa.random_paths_sample",
    "Verif.Fsa.random_paths_one_state"
   ],
   "note": "Exact arithmetic; scores are given by their exponentials.  FSAs with one state are excluded: random_paths_one_state shows that the code stops at a failed check for them."
  },
  {
   "property": "C98",
   "status": "proved",
   "theorems": [
    "Verif.Fsa.prune_on_arc_post_paths"
   ],
   "note": "Exact arithmetic; scores are given by their exponentials.  Nothing is said about the paths of an FSA without accepting paths of positive weight: its posteriors are NaN in the code."
  },
  {
   "property": "C99",
   "status": "proved",
   "theorems": [
    "Verif.Fsa.nbest_from_lattice",
    "Verif.Fsa.nbest_unique_sequences",
    "Verif.Fsa.lineFsa_path"
   ],
   "note": "nbest_from_lattice holds for every hash function: one path for each hash value.  nbest_unique_sequences gives one path for each word sequence if the hash does not collide on word sequences of the lattice.  Exact arithmetic; autograd is not modelled."
  }
 ]
}
