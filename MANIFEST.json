{
 "claims": [
  {
   "property": "C01",
   "status": "proved",
   "theorems": [
    "ABX.Task.C01_legal"
   ],
   "note": "every database, level order, group order; arbitrary by/on/across columns"
  },
  {
   "property": "C02",
   "status": "proved",
   "theorems": [
    "ABX.Task.C02_exactly_once",
    "ABX.Task.C02_levels"
   ],
   "note": "the list written for a level is a permutation of the duplicate-free list of legal triples; every level appears once"
  },
  {
   "property": "C03",
   "status": "proved",
   "theorems": [
    "ABX.Task.C03_level",
    "ABX.Task.C03_total",
    "ABX.Task.C03_block",
    "ABX.Task.C03_spec"
   ],
   "note": "per level, per block and in total, for every filter set and threshold None"
  },
  {
   "property": "C04",
   "status": "partial",
   "theorems": [
    "ABX.Task.C04_filters_partial",
    "ABX.Task.C04_levels",
    "ABX.Task.C04_violated"
   ],
   "note": "proved when labels stay positions (filters on bare columns, if any, keep the first items of every level); false in general: C04_violated"
  },
  {
   "property": "C05",
   "status": "proved",
   "theorems": [
    "ABX.Task.C05_partition"
   ],
   "note": "for every threshold and filter set, whenever generate returns"
  },
  {
   "property": "C06",
   "status": "partial",
   "theorems": [
    "ABX.Task.C06_items_partial",
    "ABX.Task.C06_violated"
   ],
   "note": "holds when the number of items of each level fits the type chosen from the number of triplets; false in general: C06_violated"
  },
  {
   "property": "C07",
   "status": "partial",
   "theorems": [
    "ABX.Task.C07_blocks_partial",
    "ABX.Task.C07_violated_threshold",
    "ABX.Task.C07_violated_type"
   ],
   "note": "holds without threshold when the type holds the boundaries, up to the trailing zeros; false in general: C07_violated_threshold, C07_violated_type"
  },
  {
   "property": "C08",
   "status": "partial",
   "theorems": [
    "ABX.Task.C08_threshold_partial",
    "ABX.Task.C08_violated"
   ],
   "note": "holds for blocks of at most 2^53 combinations whose indices fit the chosen type (e.g. up to 256 triplets); false in general: C08_violated"
  },
  {
   "property": "C09",
   "status": "proved",
   "theorems": [
    "ABX.Task.C09_sort",
    "ABX.Task.C09_level"
   ],
   "note": "permutation for every argsort; contiguity of the regressor groups for key products up to 2^53"
  },
  {
   "property": "C10",
   "status": "partial",
   "theorems": [
    "ABX.Task.C10_aligned_partial",
    "ABX.Task.C10_violated",
    "ABX.Task.C10_violated_threshold"
   ],
   "note": "holds without A regressors (default regressors included); false with them: C10_violated"
  },
  {
   "property": "C11",
   "status": "partial",
   "theorems": [
    "ABX.Task.C11_labels_partial",
    "ABX.Task.C11_violated",
    "ABX.Task.C11_violated_error"
   ],
   "note": "holds when labels are positions in the level (filters on bare columns, if any, keep its first items); false otherwise: C11_violated"
  },
  {
   "property": "C12",
   "status": "partial",
   "theorems": [
    "ABX.Pairs.C12_any_file_partial",
    "ABX.Pairs.C12_pairs_partial",
    "ABX.Pairs.C12_buffers_partial",
    "ABX.Pairs.C12_violated"
   ],
   "note": "Proved for files of any origin with in-range items and for every file written by generate, any sorting permutation and any buffer lengths, provided item numbers fit the storage type (C06), at most 3037000499 items per level and 2^52 triplets. Without the first condition the negation is proved (C12_violated)."
  },
  {
   "property": "C13",
   "status": "partial",
   "theorems": [
    "ABX.Pairs.C13_keys_partial",
    "ABX.Pairs.C13_violated"
   ],
   "note": "Proved up to 3037000499 items per level; beyond, the int64 square wraps and the negation is proved (C13_violated)."
  },
  {
   "property": "C14",
   "status": "partial",
   "theorems": [
    "ABX.Pairs.C14_attributes_partial"
   ],
   "note": "Proved under the same size conditions as C12."
  },
  {
   "property": "C15",
   "status": "partial",
   "theorems": [
    "ABX.Database.C15_lines_partial",
    "ABX.Database.C15_gap_violated",
    "ABX.Task.C15_features_partial",
    "ABX.Task.C15_violated",
    "ABX.Task.C15_violated_error"
   ],
   "note": "False in general: C15_violated (filters remove the level that would raise; records are shifted) and C15_gap_violated (for every item file with an incomplete line before a complete one, without filters, Task raises IndexError). Proved when the index labels are the positions: C15_features_partial, and from the lines of the item file C15_lines_partial."
  },
  {
   "property": "C16",
   "status": "partial",
   "theorems": [
    "ABX.Score.C16_scores_partial",
    "ABX.Score.C16_violated",
    "ABX.Score.C16_float"
   ],
   "note": "Proved for every file of generate and _generate_pairs and any distances, any buffer length, up to 94906265 items per level (and the conditions of C12); beyond, keys are compared in float64 and the negation is proved (C16_violated)."
  },
  {
   "property": "C17",
   "status": "proved",
   "theorems": [
    "ABX.Score.C17_swap",
    "ABX.Score.C17_range",
    "ABX.Score.C17_ties",
    "ABX.Score.C17_numbers"
   ],
   "note": "swap for arbitrary tables; range for every successful run on arbitrary files; ties and NaN over a model of float64."
  },
  {
   "property": "C18",
   "status": "partial",
   "theorems": [
    "ABX.EndToEnd.C18_scores_partial",
    "ABX.EndToEnd.C18_completes_partial"
   ],
   "note": "from triplets to scores for every returning execution of the distance jobs; excludes the cases where C12, C16 or C24 fail (wrapped item numbers, base of 94906266 or more, levels of more than 12500000 pairs for existence of a returning execution)"
  },
  {
   "property": "C19",
   "status": "partial",
   "theorems": [
    "ABX.Analyze.C19_keys_partial",
    "ABX.Analyze.C19_roundtrip_partial",
    "ABX.Analyze.C19_violated"
   ],
   "note": "Keys are exact and injective, and decoding inverts encoding, up to 2^53 combinations of values (C19_keys_partial, C19_roundtrip_partial). False beyond: C19_violated (54 binary regressors)."
  },
  {
   "property": "C20",
   "status": "partial",
   "theorems": [
    "ABX.Analyze.C20_rows_partial",
    "ABX.Analyze.C20_counts_partial",
    "ABX.Analyze.C20_file_partial",
    "ABX.Analyze.C20_task_partial",
    "ABX.Analyze.C20_violated_decode",
    "ABX.Analyze.C20_violated_wrap"
   ],
   "note": "For at most 2^53 combinations: one row per combination, in lexicographic order, with labels, counts and means (C20_rows_partial), counts add up (C20_counts_partial), for whole files (C20_file_partial) and for the files written by the task (C20_task_partial). False beyond: C20_violated_decode, C20_violated_wrap."
  },
  {
   "property": "C21",
   "status": "partial",
   "theorems": [
    "ABX.Analyze.C21_range",
    "ABX.Analyze.C21_order_partial"
   ],
   "note": "Scores are in [0, 1] and within rounding of the exact mean (C21_range); the file does not depend on the order of the triplets, for at most 2^53 combinations (C21_order_partial)."
  },
  {
   "property": "C22",
   "status": "proved",
   "theorems": [
    "ABX.Distances.C22_tiling",
    "ABX.Distances.C22_errors"
   ],
   "note": "For distinct levels with attributes, every n_cpu > 0; errors without levels or cpus."
  },
  {
   "property": "C23",
   "status": "proved",
   "theorems": [
    "ABX.Distances.C23_balance"
   ],
   "note": ""
  },
  {
   "property": "C24",
   "status": "partial",
   "theorems": [
    "ABX.Distances.C24_any_schedule",
    "ABX.Distances.C24_completes_partial",
    "ABX.Distances.C24_returns_partial",
    "ABX.Distances.C24_violated"
   ],
   "note": "Any two executions that return give the same, right file, whatever the numbers of cpus (full). Completion is proved for levels of at most 12500000 pairs; beyond, the block limit is a float and every job raises TypeError (C24_violated)."
  },
  {
   "property": "C25",
   "status": "partial",
   "theorems": [
    "ABX.Distances.C25_done_partial",
    "ABX.Distances.C25_never",
    "ABX.Distances.C25_violated",
    "ABX.Distances.C25_rerun"
   ],
   "note": "done implies all distances written, at any point of any execution; done is set on return with one cpu. False with several cpus: done is never set (C25_violated). A second run unmarks a complete file (C25_rerun)."
  },
  {
   "property": "C26",
   "status": "proved",
   "theorems": [
    "ABX.Distances.C26_crash"
   ],
   "note": "Executions with exceptions and killings anywhere, including partial writes of a block."
  },
  {
   "property": "C27",
   "status": "partial",
   "theorems": [
    "ABX.Distances.C27_exclusion",
    "ABX.Distances.C27_progress_partial",
    "ABX.Distances.C27_termination",
    "ABX.Distances.C27_violated"
   ],
   "note": "Mutual exclusion and termination in full. Progress holds as long as nothing fails between acquire and release; otherwise the lock stays held (no try/finally): C27_violated is a deadlock reached without any killing."
  },
  {
   "property": "C28",
   "status": "proved",
   "theorems": [
    "ABX.DTW.C28_optimal",
    "ABX.DTW.C28_sum",
    "ABX.DTW.C28_junk",
    "ABX.DTW.C28_float"
   ],
   "note": "For every monotone addition: exact numbers (C28_sum: the cost is the sum over the path) and float64 (C28_float)."
  },
  {
   "property": "C29",
   "status": "proved",
   "theorems": [
    "ABX.DTW.C29_normalized"
   ],
   "note": "The backtracking follows a warping path of the optimal cost."
  },
  {
   "property": "C30",
   "status": "partial",
   "theorems": [
    "ABX.DTW.C30_symmetric",
    "ABX.DTW.C30_normalized_partial",
    "ABX.DTW.C30_violated"
   ],
   "note": "Proved without normalization, for every addition. With normalization it is false (C30_violated, 3 and 4 frames: 1/4 and 1/5); proved in the absence of a tie between the left and the upper cell (C30_normalized_partial)."
  },
  {
   "property": "C31",
   "status": "partial",
   "theorems": [
    "ABX.DTW.C31_nonneg",
    "ABX.DTW.C31_zero",
    "ABX.DTW.C31_monotone",
    "ABX.DTW.C31_violated_normalized",
    "ABX.DTW.C31_empty",
    "ABX.DTW.C31_float"
   ],
   "note": "Proved: sign, zero diagonal, empty items, monotone without normalization. With normalization the distance is not monotone (C31_violated_normalized)."
  },
  {
   "property": "C32",
   "status": "proved",
   "theorems": [
    "ABX.NP2H5.C32_session_concat",
    "ABX.NP2H5.C32_writer_concat",
    "ABX.NP2H5.C32_zero_buffer_growing",
    "ABX.NP2H5.C32_zero_buffer_fixed_diverges",
    "ABX.NP2H5.C32_nbLines_zero"
   ],
   "note": "writer refinement: dataset = concatenation of the written rows, for every chunking and buffer length; zero-length buffers characterised"
  },
  {
   "property": "C33",
   "status": "proved",
   "theorems": [
    "ABX.NP2H5.C33_fixed_iff",
    "ABX.NP2H5.C33_session_iff",
    "ABX.NP2H5.C33_zero_rows_refused",
    "ABX.NP2H5.C33_existing_refused"
   ],
   "note": "A session of writes on any number of fixed-size datasets succeeds iff for each dataset the amount written is the amount declared (C33_session_iff); an existing dataset is refused."
  },
  {
   "property": "C34",
   "status": "partial",
   "theorems": [
    "ABX.NP2H5.C34_violated",
    "ABX.NP2H5.C34_violated_witness",
    "ABX.NP2H5.C34_partial"
   ],
   "note": "false of the code: C34_violated gives the failing sessions that leave a partial dataset; C34_partial is what holds"
  },
  {
   "property": "C35",
   "status": "proved",
   "theorems": [
    "ABX.H52NP.C35_reads",
    "ABX.H52NP.C35_read_length",
    "ABX.H52NP.C35_iterate",
    "ABX.H52NP.C35_zero_buffer",
    "ABX.H52NP.C35_no_refill_diverges"
   ],
   "note": "reader refinement for every refill policy that refills a consumed buffer"
  },
  {
   "property": "C36",
   "status": "proved",
   "theorems": [
    "ABX.ExtSort.C36_C37_sorted_permutation",
    "ABX.ExtSort.C36_sorted",
    "ABX.ExtSort.C36_refused",
    "ABX.ExtSort.C36_zero_buffer_diverges",
    "ABX.ExtSort.C36_buffer_rows"
   ],
   "note": "result is the sorted list of keys for every accepted buffer size, every argsort; refused/diverging sizes characterised exactly"
  },
  {
   "property": "C37",
   "status": "proved",
   "theorems": [
    "ABX.ExtSort.C36_C37_sorted_permutation",
    "ABX.ExtSort.C37_rows_attached"
   ],
   "note": "one permutation reorders the key and all the companions"
  },
  {
   "property": "C38",
   "status": "partial",
   "theorems": [
    "ABX.ExtSort.C38_sort_pairs_terminates_partial",
    "ABX.ExtSort.C38_violated_large",
    "ABX.ExtSort.C38_empty_diverges",
    "ABX.ExtSort.C38_zero_memory_diverges"
   ],
   "note": "true up to 10^10 rows (2^53 with the default memory); false beyond (C38_violated_large), on an empty table and with memory=0 (never terminates)"
  },
  {
   "property": "C39",
   "status": "proved",
   "theorems": [
    "ABX.Sampler.C39_knuth_sample",
    "ABX.Sampler.C39_every_sample",
    "ABX.Sampler.C39_too_many",
    "ABX.Sampler.C40_C39_dispatch"
   ],
   "note": "termination, exact size, order and range for every stream; every sample reachable; n>N characterised"
  },
  {
   "property": "C40",
   "status": "proved",
   "theorems": [
    "ABX.Sampler.C40_rejection_sample",
    "ABX.Sampler.C40_round",
    "ABX.Sampler.C40_completion_possible",
    "ABX.Sampler.C40_too_many_diverges",
    "ABX.Sampler.C40_rounds",
    "ABX.Sampler.C40_C39_dispatch"
   ],
   "note": "every returned sample is valid, no overshoot, completion possible iff n<=N, bound on rounds under fairness"
  },
  {
   "property": "C41",
   "status": "partial",
   "theorems": [
    "ABX.Sampler.C41_feasible_partial",
    "ABX.Sampler.C41_violated",
    "ABX.Sampler.C41_every_count"
   ],
   "note": "false for N=1,K=1,n=0 (C41_violated); feasible range proved otherwise; every feasible count is reachable when the acceptance test and the upper bound of line 166 are arbitrary (C41_every_count), with their values in exact numbers some are not (C101)"
  },
  {
   "property": "C42",
   "status": "partial",
   "theorems": [
    "ABX.Sampler.C42_incremental_partial",
    "ABX.Sampler.C42_relative",
    "ABX.Sampler.C42_violated_empty_chunk",
    "ABX.Sampler.C42_exhausted_raises",
    "ABX.Sampler.C42_default_step_zero"
   ],
   "note": "true for positive chunk sizes; false for an empty chunk when one item remains (C42_violated_empty_chunk)"
  },
  {
   "property": "C43",
   "status": "proved",
   "theorems": [
    "ABX.C43_cast_lossless",
    "ABX.C43_cast_lossy",
    "ABX.C43_holds",
    "ABX.C43_family",
    "ABX.C43_minimal",
    "ABX.C43_raises_iff"
   ],
   "note": "smallest holding type, lossless cast, raises iff no type fits"
  },
  {
   "property": "C44",
   "status": "proved",
   "theorems": [
    "ABX.Metrics.C44_cosine",
    "ABX.Metrics.C44_scaling",
    "ABX.Metrics.C44_zero",
    "ABX.Metrics.C44_normalize",
    "ABX.Metrics.C44_normalize_null"
   ],
   "note": "Exact real numbers; also the normalization of rows and its failure on rows of sum 0 (AssertionError)."
  },
  {
   "property": "C45",
   "status": "proved",
   "theorems": [
    "ABX.Metrics.C45_kl",
    "ABX.Metrics.C45_js",
    "ABX.Metrics.C45_js_null_entry",
    "ABX.Metrics.C45_hellinger"
   ],
   "note": "Exact real numbers. C45_js_null_entry: js_divergence is not a number when an entry is 0 (outside the hypothesis of the property)."
  },
  {
   "property": "C46",
   "status": "partial",
   "theorems": [
    "ABX.Metrics.C46_history_partial",
    "ABX.Metrics.C46_fresh",
    "ABX.Metrics.C46_violated_float"
   ],
   "note": "Proved in exact real numbers (C46_history_partial) and when the arrays are not normalized in place (C46_fresh). False in float64: normalizing twice changes the row (1,4,1) (C46_violated_float)."
  },
  {
   "property": "C47",
   "status": "proved",
   "theorems": [
    "ABX.UTW.C47_utw",
    "ABX.UTW.C47_weights",
    "ABX.UTW.C47_framewise",
    "ABX.UTW.C47_symmetric",
    "ABX.UTW.C47_float",
    "ABX.UTW.C47_tie_lost",
    "ABX.UTW.C47_empty"
   ],
   "note": "Exact arithmetic: the weighted sum of the specification. float64 (lengths below 2^49): no invalid index, weights of total 1, the weights of the specification except possibly on borders (C47_float); C47_tie_lost shows that a border can be missed. The sums of the distances of frames are exact."
  },
  {
   "property": "C48",
   "status": "partial",
   "theorems": [
    "ABX.Lookup.C48_fused_injective",
    "ABX.Lookup.C48_fused_violated",
    "ABX.Lookup.C48_lookup",
    "ABX.Lookup.C48_lookup_unique",
    "ABX.Lookup.C48_keys_injective",
    "ABX.Lookup.C48_create_fails",
    "ABX.Lookup.C48_fill_once"
   ],
   "note": "Tables: proved (C48_keys_injective, C48_lookup, C48_lookup_unique). Fused H5IO datasets: proved when there are at most 2^64 combinations (C48_fused_injective); false beyond, where the overflow test never fires (C48_fused_violated). C48_create_fails: no table can be created by this version, line 97 raises TypeError."
  },
  {
   "property": "C49",
   "status": "partial",
   "theorems": [
    "ABX.Lookup.C49_absent_partial",
    "ABX.Lookup.C49_not_in_index",
    "ABX.Lookup.C49_short",
    "ABX.Lookup.C49_no_rows",
    "ABX.Lookup.C49_not_packed",
    "ABX.Lookup.C49_refilled",
    "ABX.Lookup.C49_example",
    "ABX.Lookup.C49_violated"
   ],
   "note": "False: a query after the last stored row raises IndexError (C49_violated). C49_absent_partial gives the exception in every case; C49_not_in_index, C49_no_rows and C49_not_packed the other refusals."
  },
  {
   "property": "C50",
   "status": "proved",
   "theorems": [
    "ABX.SideOps.C50_decode",
    "ABX.SideOps.C50_injective",
    "ABX.SideOps.C50_absent"
   ],
   "note": "For every sort of the level set (any permutation); values are ints or strings."
  },
  {
   "property": "C51",
   "status": "partial",
   "theorems": [
    "ABX.SideOps.C51_one_stage",
    "ABX.SideOps.C51_accepted_iff",
    "ABX.SideOps.C51_available_partial",
    "ABX.SideOps.C51_values_partial",
    "ABX.SideOps.C51_violated_AB",
    "ABX.SideOps.C51_violated_generic_by",
    "ABX.SideOps.C51_AX_inverted"
   ],
   "note": "Exactly-one-stage and the acceptance conditions are proved; availability holds except for _AB on a column not determined by on/across/by and for generic filters that also read a by column (both accepted, then NameError: C51_violated_*). The _AX check is inverted."
  },
  {
   "property": "C52",
   "status": "proved",
   "theorems": [
    "ABX.SideOps.C52_conjunction",
    "ABX.SideOps.C52_order_independent"
   ],
   "note": "Pointwise scripts."
  },
  {
   "property": "C53",
   "status": "partial",
   "theorems": [
    "ABX.SideOps.C53_column_partial",
    "ABX.SideOps.C53_violated",
    "ABX.SideOps.C53_violated_block"
   ],
   "note": "The code violates it (C53_violated): the first element is kept once per true value. C53_column_partial gives the exact behaviour and when it is right."
  },
  {
   "property": "C54",
   "status": "partial",
   "theorems": [
    "ABX.Database.C54_accepts",
    "ABX.Database.C54_refused",
    "ABX.Database.C54_tables_partial",
    "ABX.Database.C54_aligned_partial",
    "ABX.Database.C54_violated"
   ],
   "note": "database.load is modelled from the split lines of the item file: acceptance and refusal are exact, and for accepted files with distinct column names the tables contain exactly the complete lines, in order, aligned with their file/onset/offset record. The full claim is false when a label column repeats the name of a location column (C54_violated). Missing: pandas parsing of the text itself."
  },
  {
   "property": "C55",
   "status": "partial",
   "theorems": [
    "ABX.Database.C55_violated",
    "ABX.Database.C55_flat_partial"
   ],
   "note": "The claim is false of the code: any auxiliary file makes load raise (C55_violated). C55_flat_partial covers the case without auxiliary files, where the hierarchy is flat and holds exactly the label columns."
  },
  {
   "property": "C56",
   "status": "proved",
   "theorems": [
    "ABX.Tree.C56_preOrder",
    "ABX.Tree.C56_postOrder",
    "ABX.Tree.C56_count",
    "ABX.Tree.C56_find",
    "ABX.Tree.C56_find_none",
    "ABX.Tree.C56_accepts",
    "ABX.Tree.C56_build",
    "ABX.Tree.C56_construct",
    "ABX.Tree.C56_determined"
   ],
   "note": "Traversals, count, findChild, addChildrenFromList and constructFromList for all trees and all nested lists. Parent links are not part of this model."
  },
  {
   "property": "C57",
   "status": "partial",
   "theorems": [
    "ABX.Convert.C57_batches",
    "ABX.Convert.C57_record",
    "ABX.Convert.C57_failed",
    "ABX.Convert.C57_nonpositive",
    "ABX.Convert.C57_splitext",
    "ABX.Convert.C57_names",
    "ABX.Convert.C57_documented_violated",
    "ABX.Convert.C57_path"
   ],
   "note": "For every list of readable files and every batch size >= 1 the batches are exact (C57_batches), with the state after an unreadable file (C57_failed), name collisions (C57_names) and batch sizes <= 0 (C57_nonpositive). The claim is false for files that follow the documentation of the module: 'times' is documented, 'time' is read, KeyError (C57_documented_violated)."
  },
  {
   "property": "C58",
   "status": "proved",
   "theorems": [
    "ABX.Distances.C58_frames",
    "ABX.Distances.C58_missing",
    "ABX.Distances.C58_files"
   ],
   "note": "Frames returned are those with times in the closed interval; an item missing from all files is a KeyError; several feature files are accepted exactly when no recording is in two of them (AssertionError otherwise), and then each recording has the features of its file."
  },
  {
   "property": "C59",
   "status": "partial",
   "theorems": [
    "ABX.Verify.C59_lines",
    "ABX.Verify.C59_accepts",
    "ABX.Verify.C59_sound_partial",
    "ABX.Verify.C59_iff_partial",
    "ABX.Verify.C59_violated"
   ],
   "note": "C59_accepts is the exact acceptance condition of the code. The claim is false (C59_violated: tab separated lines, empty lines, location columns before the labels are refused; a third '#' is accepted). C59_sound_partial: accepted files name only known files; C59_iff_partial: equivalence for blank separated lines and a label in the fourth column."
  },
  {
   "property": "C60",
   "status": "proved",
   "theorems": [
    "ABX.ReadCsv.C60_text",
    "ABX.Items.C60_factorial",
    "ABX.Items.C60_factorial_named",
    "ABX.Items.C60_task",
    "ABX.Items.C60_consistent"
   ],
   "note": "Every label combination on exactly repeats+1 lines (plain and named); the generated files allow the creation of a task for every choice of label columns and pass verify.check with the generated feature names."
  },
  {
   "property": "C61",
   "status": "proved",
   "theorems": [
    "ABX.Database.C61_file_columns",
    "ABX.Database.C61_file_created_iff",
    "ABX.Task.C61_created_iff",
    "ABX.Task.C61_errors"
   ],
   "note": "Exact conditions for the success of Task.__init__ up to the statistics (C61_created_iff), the possible errors (C61_errors), and the same for a task created from an item file (C61_file_created_iff, C61_file_columns)."
  },
  {
   "property": "C62",
   "status": "partial",
   "theorems": [
    "ABX.Items.C62_violated"
   ],
   "note": "Violated: line 115 compares the values of two list.sort() calls (None == None), so the comparison is True for every pair of files; negation proved."
  },
  {
   "property": "C63",
   "status": "partial",
   "theorems": [
    "ABX.Task.C63_single_partial",
    "ABX.Task.C63_none_partial",
    "ABX.Task.C63_several_partial",
    "ABX.Task.C63_reported",
    "ABX.Task.C63_violated_none",
    "ABX.Task.C63_violated_across",
    "ABX.Task.C63_violated_filter"
   ],
   "note": "Proved for one across column when filters on bare columns, if any, remove the last items of the levels (C63_single_partial) and, in terms of items A instead of labels, without across column (C63_none_partial); with any number of across columns C63_several_partial says what is counted (X differs from A in some of them); C63_reported says when a number is reported. False without across column (items A counted separately), with two across columns (combinations counted that no triplet has) and after a filter that removes items (labels used as positions): C63_violated_none, C63_violated_across, C63_violated_filter."
  },
  {
   "property": "C64",
   "status": "proved",
   "theorems": [
    "ABX.Sampler.C64_knuth_uniform",
    "ABX.Sampler.C64_knuth_ratio"
   ],
   "note": "Counting all streams of N numbers below 2^53. The comparison (N - t) * u < n - m is exact here; C90 is the same with the product rounded to float64."
  },
  {
   "property": "C65",
   "status": "proved",
   "theorems": [
    "ABX.Sampler.C65_rejection_uniform",
    "ABX.Sampler.C65_rejection_returns",
    "ABX.Sampler.C65_rejection_total"
   ],
   "note": "Counting all tables of draws with R rows: C65_rejection_uniform (bijection by renaming the indices), C65_rejection_total (the samples share all the tables that return), C65_rejection_returns (bound on the others)."
  },
  {
   "property": "C66",
   "status": "partial",
   "theorems": [
    "ABX.H5IO.C66_stored_partial",
    "ABX.H5IO.C66_decode",
    "ABX.H5IO.C66_shared_index",
    "ABX.H5IO.C66_two_groups",
    "ABX.H5IO.C66_empty_first",
    "ABX.H5IO.C66_list",
    "ABX.H5IO.C66_iterate_first",
    "ABX.H5IO.C66_iterate",
    "ABX.H5IO.C66_out_of_range",
    "ABX.H5IO.C66_columns",
    "ABX.H5IO.C66_raw"
   ],
   "note": "The round trip is proved for all declarations and calls that meet the conditions of Spec.Ready. It is false of the code otherwise: a dataset that is not fused and whose index has another name (for instance shared) can never be written (C66_shared_index), raw datasets of two groups collide at the root of the file (C66_two_groups), a first call without rows raises (C66_empty_first), positions out of range are stored modulo 256 (C66_out_of_range), columns that change between calls mix datasets (C66_columns), surplus elements of a list are lost (C66_list)."
  },
  {
   "property": "C67",
   "status": "partial",
   "theorems": [
    "ABX.H5IO.C67_accepts",
    "ABX.H5IO.C67_made",
    "ABX.H5IO.C67_existing_file",
    "ABX.H5IO.C67_flags_reset",
    "ABX.H5IO.C67_reopen",
    "ABX.H5IO.C67_no_append"
   ],
   "note": "Proved: exactly which declarations are accepted (C67_accepts) and what is made (C67_made). Violated: creation in an existing file is not refused (C67_existing_file), creation of an existing group raises but marks its table as empty (C67_flags_reset), a written table with fused datasets cannot be opened again (C67_reopen), and nothing can be added to a table that is opened again (C67_no_append)."
  },
  {
   "property": "C68",
   "status": "partial",
   "theorems": [
    "ABX.TreeHeap.C68_addChild",
    "ABX.TreeHeap.C68_remove",
    "ABX.TreeHeap.C68_remove_root",
    "ABX.TreeHeap.C68_add_remove",
    "ABX.TreeHeap.C68_clear",
    "ABX.TreeHeap.C68_replace",
    "ABX.TreeHeap.C68_replace_nil",
    "ABX.TreeHeap.C68_inject",
    "ABX.TreeHeap.C68_reparent",
    "ABX.TreeHeap.C68_reparent_root",
    "ABX.TreeHeap.C68_edits_partial",
    "ABX.TreeHeap.C68_list",
    "ABX.TreeHeap.C68_list_error"
   ],
   "note": "Proved: addChild keeps a forest exactly when the object has no parent and is not at or above its new parent; remove, clear, replace, inject, reparent and nested lists do what is documented under that condition, and so does any sequence. The code does not check the condition: an object with a parent ends up in two child lists (Ex.two_parents), a root below itself makes getDepth run forever (Ex.cycle), injecting a child makes it its own child (Ex.inject_child)."
  },
  {
   "property": "C69",
   "status": "proved",
   "theorems": [
    "ABX.TreeHeap.C69_ends",
    "ABX.TreeHeap.C69_path",
    "ABX.TreeHeap.C69_root",
    "ABX.TreeHeap.C69_depth",
    "ABX.TreeHeap.C69_isDescendantOf",
    "ABX.TreeHeap.C69_isDescendantOf_child",
    "ABX.TreeHeap.C69_isSiblingOf",
    "ABX.TreeHeap.C69_preOrder",
    "ABX.TreeHeap.C69_forwards",
    "ABX.TreeHeap.C69_backwards",
    "ABX.TreeHeap.C69_next_previous",
    "ABX.TreeHeap.C69_next_exists",
    "ABX.TreeHeap.C69_findParent",
    "ABX.TreeHeap.C69_findAttr",
    "ABX.TreeHeap.C69_treeProp",
    "ABX.TreeHeap.C69_treeProp_set",
    "ABX.TreeHeap.C69_attrsToRoot",
    "ABX.TreeHeap.C69_cycle"
   ],
   "note": "For every forest, with any bound on the number of steps that is large enough. isDescendantOf is what its documentation says, which is the opposite of its name (C69_isDescendantOf_child). On a cycle of parents the paths do not end (C69_cycle). Not covered: dump, which fails in python 3."
  },
  {
   "property": "C70",
   "status": "partial",
   "theorems": [
    "ABX.CommandLine.C70_task_frame",
    "ABX.CommandLine.C70_task_lost",
    "ABX.CommandLine.C70_task_written",
    "ABX.CommandLine.C70_task_default",
    "ABX.CommandLine.C70_task_not_safe",
    "ABX.CommandLine.C70_score",
    "ABX.CommandLine.C70_score_optional",
    "ABX.CommandLine.C70_score_lost",
    "ABX.CommandLine.C70_score_written",
    "ABX.CommandLine.C70_score_not_safe",
    "ABX.CommandLine.C70_analyze_missing",
    "ABX.CommandLine.C70_analyze_frame",
    "ABX.CommandLine.C70_analyze_written",
    "ABX.CommandLine.C70_analyze_not_safe",
    "ABX.CommandLine.C70_analyze_input_lost",
    "ABX.CommandLine.C70_distance_frame",
    "ABX.CommandLine.C70_distance_lost",
    "ABX.CommandLine.C70_distance_written",
    "ABX.CommandLine.C70_distance_not_safe"
   ],
   "note": "Only the output is changed, exactly characterised when there is an output at the end (C70_*_frame, C70_*_lost, C70_*_written). Not lost is false: all four programs remove the old output before the checks (C70_task_not_safe, C70_distance_not_safe, C70_score_not_safe, C70_analyze_not_safe); an output with the name of an input destroys the input. The optional argument of score.py is not optional (C70_score_optional). The computations are parameters; links between files and concurrent programs are not represented."
  },
  {
   "property": "C71",
   "status": "partial",
   "theorems": [
    "ABX.CommandLine.C71_pairs",
    "ABX.CommandLine.C71_mismatch",
    "ABX.CommandLine.C71_default",
    "ABX.CommandLine.C71_names",
    "ABX.CommandLine.C71_split",
    "ABX.CommandLine.C71_user",
    "ABX.CommandLine.C71_user_here",
    "ABX.CommandLine.C71_third",
    "ABX.CommandLine.C71_dot_path",
    "ABX.CommandLine.C71_edit",
    "ABX.CommandLine.C71_edit_symm"
   ],
   "note": "Proved for all functions, pairs and values of -n. False where a name has more than one dot or a dot in its path (C71_third, C71_dot_path), and for the edit distance of an empty item and another, which is infinite (C71_edit); -n with the edit distance, and no -n with the default, fail (C71_mismatch). The evaluation by the editdistance package is a parameter that is assumed to compute the Levenshtein distance."
  },
  {
   "property": "C72",
   "status": "proved",
   "theorems": [
    "ABX.Distance.C72_value",
    "ABX.Distance.C72_normalized",
    "ABX.Distance.C72_bounds",
    "ABX.Distance.C72_zero",
    "ABX.Distance.C72_same",
    "ABX.Distance.C72_empty",
    "ABX.Distance.C72_symmetric",
    "ABX.Distance.C72_scaling",
    "ABX.Distance.C72_kl",
    "ABX.Distance.C72_kl_symmetric"
   ],
   "note": "For exact real numbers. Symmetry is claimed without normalization only, because with it dynamic time warping is not symmetric (C30_violated). Rounding of the metric is not represented; distances of frames that are not numbers are not followed."
  },
  {
   "property": "C73",
   "status": "partial",
   "theorems": [
    "ABX.Script.C73_accepts",
    "ABX.Script.C73_rejects",
    "ABX.Script.C73_inputs",
    "ABX.Script.C73_depends",
    "ABX.Script.C73_value_partial",
    "ABX.Script.C73_hidden_expr",
    "ABX.Script.C73_hidden",
    "ABX.Script.C73_alone",
    "ABX.Script.C73_source",
    "ABX.Script.C73_pointwise",
    "ABX.Script.C73_not_value",
    "ABX.Script.C73_not_in_order",
    "ABX.Script.C73_not_minimal",
    "ABX.Script.C73_not_pointwise"
   ],
   "note": "Acceptance, inputs, dependence on the inputs only and independence of the other scripts are proved. The value is that of python if imports come first and nested scopes use none of the names of the script's surroundings (C73_value_partial); false otherwise: nested scopes do not see columns (C73_hidden, C73_not_value), imports are executed first (C73_not_in_order). Narrowing is proved for [body for x in column] (C73_pointwise) and false in general (C73_not_pointwise). An input need not matter (C73_not_minimal). Reading of python text, other statements and changes of values in place are not represented."
  },
  {
   "property": "C74",
   "status": "partial",
   "theorems": [
    "ABX.Names.C74_distinct_partial",
    "ABX.Names.C74_not_distinct",
    "ABX.Names.C74_place_partial",
    "ABX.Names.C74_separate_partial",
    "ABX.Names.C74_not_separate"
   ],
   "note": "Names of levels of several columns are injective for all values, those of one column for values of one kind (C74_distinct_partial); false for an integer and the string of its digits (C74_not_distinct). Places are separate without slashes (C74_place_partial, C74_separate_partial), false with them (C74_not_separate): HDF5 nests groups, and skips empty pieces and dots."
  },
  {
   "property": "C75",
   "status": "partial",
   "theorems": [
    "ABX.Names.C75_unique",
    "ABX.Names.C75_reads_partial",
    "ABX.Names.C75_width",
    "ABX.Names.C75_cells",
    "ABX.Names.C75_header_partial",
    "ABX.Names.C75_not_reads",
    "ABX.Names.C75_not_header"
   ],
   "note": "Reading is unique (C75_unique); the text reads back as the results for labels without tabs and ends of line (C75_reads_partial; levels of several columns need no condition), all lines have the same number of cells (C75_width), the cells determine the row (C75_cells); false with a tab (C75_not_reads). The header is found without slashes in levels (C75_header_partial), analyze fails with them (C75_not_header). The text of a float is a parameter."
  },
  {
   "property": "C76",
   "status": "partial",
   "theorems": [
    "ABX.Run.C76_bind",
    "ABX.Run.C76_never",
    "ABX.Run.C76_never_direct",
    "ABX.Run.C76_other_calls",
    "ABX.Run.C76_positional",
    "ABX.Run.C76_arg"
   ],
   "note": "False: the program raises an exception whatever its arguments (C76_never), and so does the function that it would call (C76_never_direct); the calls that do not fit are listed in C76_other_calls. What is proved in addition is that no file is changed."
  },
  {
   "property": "C77",
   "status": "partial",
   "theorems": [
    "ABX.Pipeline.C77_completes_partial",
    "ABX.Pipeline.C77_results_partial",
    "ABX.Pipeline.C77_deterministic_partial"
   ],
   "note": "The chain of all five stages, and that a run ends when the features and distances can be computed and no level has more than 12500000 pairs. Excluded, as in C10, C12, C16, C19, C20: filters without suffix that remove other items than the last ones of a level, some regressors of A, more than 2^53 combinations of regressors, more than 94906265 items in a level, and a threshold."
  },
  {
   "property": "C78",
   "status": "partial",
   "theorems": [
    "ABX.Task.C78_outcome_partial"
   ],
   "note": "All outcomes of the generation without threshold (with a threshold: C85). Missing: filters without suffix that remove other items than the last ones of a level, for which positions and labels are confused (C04, C11)."
  },
  {
   "property": "C79",
   "status": "partial",
   "theorems": [
    "ABX.Pipeline.C79_completes_partial",
    "ABX.Pipeline.C79_results_partial",
    "ABX.Pipeline.C79_rows_partial",
    "ABX.Pipeline.C79_unchanged_partial",
    "ABX.Pipeline.C79_violated"
   ],
   "note": "Proved for tasks with an across column. Without one it is false (C79_violated): the triplets are then sampled for each item A but the rows of the results are for all items of a label, so a row can have more than threshold triplets; how many is C94. Missing also: regressors of A, and the cases excluded in C08 and C77."
  },
  {
   "property": "C80",
   "status": "partial",
   "theorems": [
    "ABX.Task.C80_counts",
    "ABX.Task.C80_across_pairs",
    "ABX.Task.C80_on_pairs_some",
    "ABX.Task.C80_on_pairs_partial",
    "ABX.Task.C80_pairs",
    "ABX.Task.C80_exact",
    "ABX.Task.C80_approximate",
    "ABX.Task.C80_upper",
    "ABX.Task.C80_flag",
    "ABX.Task.C80_text",
    "ABX.Task.C80_violated"
   ],
   "note": "The numbers of items, labels, pairs (A, B) and triplets are proved for all tasks whose filters on bare columns, if any, remove the last items of the levels. The number of pairs (A, X) is proved with at most one across column; with several it is false (C80_violated): pairs that differ in some of the across columns only are counted (C80_on_pairs_some says what is counted). The text is proved for any number of across columns (C80_text); with several its nb_on_pairs and nb_levels count X that differ from A in some across column. What pprint writes is a parameter."
  },
  {
   "property": "C81",
   "status": "partial",
   "theorems": [
    "ABX.Task.C81_generate_partial",
    "ABX.Task.C81_print_partial",
    "ABX.Task.C81_runs",
    "ABX.Task.C81_raises",
    "ABX.Task.C81_violated_print",
    "ABX.Task.C81_violated_file"
   ],
   "note": "Proved for the triplets, the levels, their index and the regressors of the levels with triplets (C81_generate_partial) and for the lines about the levels (C81_print_partial, which also says exactly when KeyError is raised). False of the rest: a second generation leaves the deleted levels out of on_across_block_index and of the groups of regressors (C81_violated_file), and print_stats after generate_triplets raises KeyError when a level without triplets was deleted and nothing was printed before (C81_violated_print)."
  },
  {
   "property": "C82",
   "status": "partial",
   "theorems": [
    "ABX.Distance.C82_violated",
    "ABX.Distance.C82_empty_partial",
    "ABX.Distance.C82_blocks",
    "ABX.Distance.C82_default",
    "ABX.Distance.C82_kl",
    "ABX.Distance.C82_dtw"
   ],
   "note": "False of the examples: they call dtw without its argument normalized, so any two items with frames raise TypeError, with or without -n (C82_violated); C82_blocks says exactly which blocks of pairs they can measure, C82_empty_partial that they agree with the distances of distance.py there. The default distance measures all pairs with -n, and none without (C82_default)."
  },
  {
   "property": "C83",
   "status": "partial",
   "theorems": [
    "ABX.Pipeline.C83_results_partial",
    "ABX.Pipeline.C83_counts"
   ],
   "note": "C83_results_partial gives the rows, C83_counts the numbers of triplets; missing are the sizes excluded in C10, C16, C19 and C20 (more than 94906265 items in a level, 2^52 triplets, 2^53 combinations of labels, tables where a level has more than 128 items and more items than the task has triplets)."
  },
  {
   "property": "C84",
   "status": "partial",
   "theorems": [
    "ABX.Database.C84_lines_partial",
    "ABX.Database.C84_ends_partial"
   ],
   "note": "C84_lines_partial; the columns and the absence of gaps follow from the creation of the task. Missing: the sizes excluded in C83; C84_ends_partial shows that they hold and that the experiment can be run for files of at most 3535 lines with enough triplets (or at most 128 lines)."
  },
  {
   "property": "C85",
   "status": "partial",
   "theorems": [
    "ABX.Task.C85_outcome_partial",
    "ABX.Task.C85_file_partial",
    "ABX.Task.C85_violated"
   ],
   "note": "Proved for regressors that do not read A, or tasks with a filter that reads two of A, B and X. For a regressor of A alone without such a filter it is false (C85_violated): its column is not sampled, and as soon as a group exceeds the threshold the columns have different lengths and ValueError is raised. Missing: filters without suffix that remove other items than the last ones of a level."
  },
  {
   "property": "C86",
   "status": "partial",
   "theorems": [
    "ABX.Progress.C86_display",
    "ABX.Progress.C86_escape",
    "ABX.Progress.C86_generate",
    "ABX.Progress.C86_violated",
    "ABX.Progress.C86_construct",
    "ABX.Progress.C86_nb_levels"
   ],
   "note": "The display and the counts of a first generation are proved. False of a second generation of the same task object (C86_violated: the number of blocks is not changed when levels without triplets are deleted) and of terminals (C86_escape: the text written is not the control sequence that moves the cursor up). Missing: filters without suffix that remove other items than the last ones of a level."
  },
  {
   "property": "C87",
   "status": "partial",
   "theorems": [
    "ABX.Connector.C87_violated",
    "ABX.Connector.C87_error",
    "ABX.Connector.C87_error_py2",
    "ABX.Connector.C87_documented",
    "ABX.Connector.C87_connect"
   ],
   "note": "False: every visit raises an exception, also that of the documented calls (C87_violated, C87_documented), because generic_visit looks for a method above NodeVisitor, where there is none. C87_error says which exception; calls with keywords are refused as described. The only use of the class lacks an argument (C87_connect)."
  },
  {
   "property": "C88",
   "status": "partial",
   "theorems": [
    "ABX.Task.C88_created",
    "ABX.Task.C88_none",
    "ABX.Task.C88_labels",
    "ABX.Task.C88_triplets",
    "ABX.Task.C88_wrong_labels"
   ],
   "note": "proved as what the code does: exact condition for the creation of the task (C88_created, C88_none), exact labels of a block (C88_labels), triplets right if no filter reads the labels of the block (C88_triplets). The claim itself is false: C88_wrong_labels, C04_violated, C11_violated"
  },
  {
   "property": "C89",
   "status": "partial",
   "theorems": [
    "ABX.RegInfo.C89_file_partial",
    "ABX.RegInfo.C89_ascii",
    "ABX.RegInfo.C89_scripts",
    "ABX.RegInfo.C89_numbers"
   ],
   "note": "proved for regressors on columns (C89_file_partial, under the conditions of C10 on filters on bare columns and regressors of A); labels that are not ASCII always fail (C89_ascii); false for scripts when two levels have blocks (C89_scripts)"
  },
  {
   "property": "C90",
   "status": "partial",
   "theorems": [
    "ABX.Sampler.C90_decision",
    "ABX.Sampler.C90_simulates",
    "ABX.Sampler.C90_knuth",
    "ABX.Sampler.C90_uniform",
    "ABX.Sampler.C90_every_sample",
    "ABX.Sampler.C90_choice",
    "ABX.Sampler.C90_dispatch",
    "ABX.Sampler.C90_dispatch_sample",
    "ABX.Sampler.C90_incremental_partial"
   ],
   "note": "true as stated except that empty chunks of the incremental sampler are excluded, as in C42 (C42_violated_empty_chunk); products of numpy integers are assumed not to wrap around"
  },
  {
   "property": "C91",
   "status": "partial",
   "theorems": [
    "ABX.ResultFile.C91_results_partial",
    "ABX.ResultFile.C91_sample_partial",
    "ABX.ResultFile.C91_lines_partial"
   ],
   "note": "'by' labels have no slash and are of one kind (C74), names and labels are ASCII without tabs and ends of line (C75, C89), regressors are columns (C89), fewer than 2500 regressors, sizes as in C77; with a threshold as in C79"
  },
  {
   "property": "C92",
   "status": "partial",
   "theorems": [
    "ABX.Items.C92_complete_partial",
    "ABX.Items.C92_item",
    "ABX.Items.C92_frame",
    "ABX.Items.C92_distance",
    "ABX.Items.C92_run_partial",
    "ABX.ReadCsv.C92_text_partial"
   ],
   "note": "The chain of all stages for the generated files and features, with exact real distances: a run exists, and every run gives the whole table. Missing: more than 3535 lines, and more than 128 lines with fewer triplets in a group than lines; float64 arithmetic of the distances."
  },
  {
   "property": "C93",
   "status": "partial",
   "theorems": [
    "ABX.ResultFile.C93_lines_partial",
    "ABX.ResultFile.C93_ends_partial",
    "ABX.Items.C93_generated_partial"
   ],
   "note": "C93_lines_partial, C93_ends_partial and C93_generated_partial are for tasks with across columns (C94 is for those without) and blocks of at most 256 triplets (C08: the type of the keys of larger blocks can be too small); sizes as in C83; that samplings end is a hypothesis (C24)."
  },
  {
   "property": "C94",
   "status": "partial",
   "theorems": [
    "ABX.ResultFile.C94_sample_partial",
    "ABX.ResultFile.C94_lines_partial",
    "ABX.ResultFile.C94_ends_partial",
    "ABX.Items.C94_generated_partial"
   ],
   "note": "C94_sample_partial is for all tasks without across columns whose groups fit (C79); C94_lines_partial, C94_ends_partial and C94_generated_partial are for plain tasks with at most 256 triplets for each line A (C08: the type of the keys of larger blocks can be too small); sizes as in C83; that samplings end is a hypothesis (C24)."
  },
  {
   "property": "C95",
   "status": "partial",
   "theorems": [
    "ABX.ResultFile.C95_rows",
    "ABX.ResultFile.C95_all_partial",
    "ABX.ResultFile.C95_lines",
    "ABX.ResultFile.C95_ends",
    "ABX.Items.C95_violated"
   ],
   "note": "C95_rows, C95_lines and C95_ends hold for blocks of any size and say how many rows are left; C95_violated is the negation for generated files, with a run that exists; C95_all_partial is the claim for blocks that fit (see also C91, C93)."
  },
  {
   "property": "C96",
   "status": "partial",
   "theorems": [
    "ABX.Task.C96_sample",
    "ABX.Task.C96_never",
    "ABX.ResultFile.C96_lines",
    "ABX.Items.C96_generated"
   ],
   "note": "The claim is false: C96_sample (one sampling), C96_never (any task), C96_lines and C96_generated are its negation; the positive part is C85_file_partial and C79_completes_partial, where the samplings end."
  },
  {
   "property": "C97",
   "status": "partial",
   "theorems": [
    "ABX.ReadCsv.C97_every_text",
    "ABX.ReadCsv.C97_render",
    "ABX.ReadCsv.C97_values",
    "ABX.ReadCsv.C97_generated",
    "ABX.ReadCsv.C97_number",
    "ABX.ReadCsv.C97_words",
    "ABX.ReadCsv.C97_item_file",
    "ABX.ReadCsv.C97_plain_partial",
    "ABX.ReadCsv.C97_digits",
    "ABX.ReadCsv.C97_loaded",
    "ABX.ReadCsv.C97_violated_missing",
    "ABX.ReadCsv.C97_violated_numbers",
    "ABX.ReadCsv.C97_longer",
    "ABX.ReadCsv.C97_refused",
    "ABX.ReadCsv.C97_repeated",
    "ABX.ReadCsv.C97_booleans",
    "ABX.ReadCsv.C97_unreadable",
    "ABX.ReadCsv.C97_extension",
    "ABX.ReadCsv.C97_created_iff",
    "ABX.ReadCsv.C97_results_partial",
    "ABX.ReadCsv.C97_ends_partial"
   ],
   "note": "C97_words, C97_item_file, C97_digits, C97_loaded, C97_longer, C97_refused, C97_render, C97_values, C97_generated and C97_number hold of all texts as stated; C97_plain_partial is the claim for columns with a plain word; C97_violated_missing and C97_violated_numbers are its negation. pandas.read_csv is modelled from its documented behaviour (python engine), not from its source; the values of numbers that are not digits are a parameter. C97_every_text: the texts are all those whose white space is blanks, tabulations and ends of line. C97_created_iff, C97_results_partial and C97_ends_partial go from the words of the text to the creation of the task and to the results (label columns with only digits or only plain words). C97_repeated, C97_booleans, C97_unreadable: repeated names, columns of booleans, files that are absent or empty."
  },
  {
   "property": "C98",
   "status": "partial",
   "theorems": [
    "ABX.Database.C98_csv",
    "ABX.Database.C98_listed_partial",
    "ABX.Database.C98_partition",
    "ABX.Database.C98_violated_empty",
    "ABX.Database.C98_violated_reload"
   ],
   "note": "C98_csv (round trip) and C98_partition hold of all files; C98_listed_partial is for different names of columns (see C54_violated); C98_violated_empty and C98_violated_reload are the negation for lines without values and for loading the file again."
  },
  {
   "property": "C99",
   "status": "proved",
   "theorems": [
    "ABX.Argparse.C99_before",
    "ABX.Argparse.C99_dashes",
    "ABX.Argparse.C99_between",
    "ABX.Argparse.C99_late",
    "ABX.Argparse.C99_few",
    "ABX.Argparse.C99_swallowed",
    "ABX.Argparse.C99_swallowed_output",
    "ABX.Argparse.C99_unknown",
    "ABX.Argparse.C99_ambiguous",
    "ABX.Argparse.C99_task",
    "ABX.Argparse.C99_distance",
    "ABX.Argparse.C99_files",
    "ABX.Argparse.C99_run",
    "ABX.Argparse.C99_all_used",
    "ABX.Argparse.C99_nothing_else",
    "ABX.Argparse.C99_many",
    "ABX.Argparse.C99_many_dashes",
    "ABX.Argparse.C99_few_dashes"
   ],
   "note": "argparse as in python 3.11; the texts that int accepts are a parameter; clusters of flags of one letter (-vh) are in the model but not in the statement"
  },
  {
   "property": "C100",
   "status": "partial",
   "theorems": [
    "ABX.Database.C100_levels_partial",
    "ABX.Database.C100_order_partial",
    "ABX.ReadCsv.C100_texts_partial"
   ],
   "note": "C100_levels_partial, C100_order_partial: experiments without filters, regressors and thresholds, run to the end, with sizes for which the types of the pairs file hold (as in C83) and at least one complete line; for the order of the lines the features must not depend on the number of a line. C100_texts_partial: from the texts, under the conditions of C97_results_partial."
  },
  {
   "property": "C101",
   "status": "partial",
   "theorems": [
    "ABX.Sampler.C101_mode",
    "ABX.Sampler.C101_moments",
    "ABX.Sampler.C101_decision",
    "ABX.Sampler.C101_distribution_partial",
    "ABX.Sampler.C101_exact_partial",
    "ABX.Sampler.C101_truncated",
    "ABX.Sampler.C101_one",
    "ABX.Sampler.C101_violated"
   ],
   "note": "exact reals instead of float64; a draw of U = 0 has probability zero and is not followed; that the hat of the method covers the distribution is a hypothesis (Covered), proved of K = 1 (C101_one) and of the example only; false when the upper bound of line 166 is below the largest count: such counts are never returned (C101_violated: N=400, K=n=20), the others then have proportionally larger probabilities (C101_distribution_partial)"
  },
  {
   "property": "C102",
   "status": "partial",
   "theorems": [
    "ABX.Sampler.C102_uniform_partial",
    "ABX.Sampler.C102_exact_partial",
    "ABX.Sampler.C102_chance_partial",
    "ABX.Sampler.C102_one",
    "ABX.Sampler.C102_small",
    "ABX.Sampler.C102_violated"
   ],
   "note": "exact reals in the acceptance test of hypergeometric_sample and exact comparisons elsewhere; the loops are followed for R rounds, R large; factors near 1 because np.random.rand gives one of 2^53 numbers; needs that the hat of C101 covers the distribution and that the upper bound of line 166 is large enough (Good), proved of K = 1 (C102_one) and of N <= 5 (C102_small); false otherwise (C102_violated: N=400, K=20, sizes 20 and 380)"
  },
  {
   "property": "C103",
   "status": "partial",
   "theorems": [
    "ABX.Task.C103_uniform_partial",
    "ABX.Task.C103_exact_partial",
    "ABX.Task.C103_chance_partial",
    "ABX.Task.C103_violated"
   ],
   "note": "of blocks whose number of triplets is held by the type fitted to the number of combinations of regressors (all blocks of at most 255 triplets) and at most 2^53 combinations; rejection_sampling is followed for R rounds, R large; factors near 1 because np.random.rand gives one of 2^53 numbers; false of larger blocks (C103_violated: 257 triplets with a regressor and two with another one, the choices of the second group have the probability 0)"
  },
  {
   "property": "C104",
   "status": "partial",
   "theorems": [
    "ABX.Task.C104_unbiased_partial",
    "ABX.Task.C104_precision_partial",
    "ABX.Task.C104_inclusion_partial",
    "ABX.Task.C104_written_partial",
    "ABX.Task.C104_chance_partial",
    "ABX.Task.C104_violated"
   ],
   "note": "same conditions as C103: blocks whose number of triplets is held by the type fitted to the number of combinations of regressors (all blocks of at most 255 triplets), rejection_sampling followed for R rounds with R large (C104_written_partial bounds the probability that this is enough), factors near 1 because np.random.rand gives one of 2^53 numbers; exact arithmetic for the means; false of larger blocks (C104_violated: the triplets of a group are never kept)"
  },
  {
   "property": "C105",
   "status": "partial",
   "theorems": [
    "ABX.Database.C105_constant_partial",
    "ABX.Database.C105_reversed_partial",
    "ABX.Database.C105_chance_partial",
    "ABX.Database.C105_shuffled_partial",
    "ABX.Database.C105_dealt_partial"
   ],
   "note": "plain experiments (no filters, regressors, thresholds) run to the end with sizes as in C83 and at least one complete line, as in C100; the random distances have finitely many outcomes"
  },
  {
   "property": "C106",
   "status": "partial",
   "theorems": [
    "ABX.Pipeline.C106_unbiased_partial",
    "ABX.Pipeline.C106_chance_partial"
   ],
   "note": "tasks with an across column and without regressors of A, sizes as in C08 and C77, blocks whose number of triplets fits the type chosen for the index (larger blocks are sampled wrongly, C104_violated); FairDraw is proved for independent uniform 53-bit numbers and at most 255 triplets in a block (C106_chance_partial), for enough random numbers (the code draws without bound, the estimate is 0 if they are used up)"
  },
  {
   "property": "C107",
   "status": "partial",
   "theorems": [
    "ABX.Pipeline.C107_chance_partial",
    "ABX.Pipeline.C107_reversed_partial",
    "ABX.Pipeline.C107_shuffled_partial"
   ],
   "note": "tasks without regressors of A, sizes as in C08 and C77, regressors with at most 2^53 combinations, and with a threshold the blocks as in C79; the random numbers of the sampler are the same in all outcomes; runs that end"
  },
  {
   "property": "C108",
   "status": "partial",
   "theorems": [
    "ABX.Pipeline.C108_monotone",
    "ABX.Pipeline.C108_strict",
    "ABX.Pipeline.C108_not_strict",
    "ABX.Pipeline.C108_violated_large",
    "ABX.Pipeline.C108_says_partial",
    "ABX.Pipeline.C108_extremes_partial",
    "ABX.Pipeline.C108_better_partial",
    "ABX.Pipeline.C108_same_partial",
    "ABX.Pipeline.C108_increasing_partial"
   ],
   "note": "The statements on rounding (C108_monotone, C108_strict) are proved in full, and the bounds on sizes are needed (C108_not_strict, C108_violated_large). The statements on results are for tasks without regressors of A, sizes as in C08 and C77, regressors with at most 2^53 combinations, and with a threshold the blocks as in C79 and the same random numbers of the sampler in the runs compared."
  },
  {
   "property": "C109",
   "status": "partial",
   "theorems": [
    "ABX.Task.C109_violated",
    "ABX.Task.C109_names",
    "ABX.Pipeline.C109_file",
    "ABX.Pipeline.C109_scores_partial",
    "ABX.Pipeline.C109_results_partial",
    "ABX.Pipeline.C109_processes_partial"
   ],
   "note": "C109_file (buffers) and C109_names (at most one across column) are proved in full; C109_violated shows that with two across columns the same seed can keep other triplets in another process. The statements on scores and results are for sizes as in C12, C16 and C77, and the results for tasks without regressors of A and filters as in C77. Without threshold, C109_processes_partial shows that the results do not depend on the process: the same rows, with the labels of the columns of regressors in another order at most."
  },
  {
   "property": "C110",
   "status": "partial",
   "theorems": [
    "ABX.Task.C110_lines_partial",
    "ABX.Task.C110_threshold_partial",
    "ABX.Task.C110_filters_partial",
    "ABX.Task.C110_by_partial",
    "ABX.Task.C110_across_partial",
    "ABX.Task.C110_selection_partial"
   ],
   "note": "Exact for files written without threshold; with a threshold every row is one of these triplets, and none appears twice if the groups fit (C08). Missing: filters without suffix that do not keep the first items of the levels (false there, C04, C88), numbers of items that the type of triplets/data does not hold (false there, C06). For additional 'by' and 'across' columns the filters must mean the same in both tasks."
  },
  {
   "property": "C111",
   "status": "partial",
   "theorems": [
    "ABX.Pipeline.C111_scores_partial",
    "ABX.Pipeline.C111_selection_partial",
    "ABX.Pipeline.C111_same_partial",
    "ABX.Pipeline.C111_filters_partial",
    "ABX.Pipeline.C111_by_partial"
   ],
   "note": "C111_scores_partial holds for any threshold and any filters, C111_selection_partial for any two tasks; missing are the sizes excluded in C12 and C16 (numbers of items that the type of triplets/data does not hold, more than 94906265 items in a level, more than 2^52 triplets). C111_filters_partial and C111_by_partial are without threshold, as C110."
  },
  {
   "property": "C112",
   "status": "partial",
   "theorems": [
    "ABX.Pipeline.C112_sums_partial",
    "ABX.Pipeline.C112_scores_partial",
    "ABX.Pipeline.C112_regressors_partial"
   ],
   "note": "C112_sums_partial is for any threshold; missing are the cases excluded in C77 (some regressors of A, filters without suffix that remove other items than the last ones of a level, more than 2^53 combinations of regressors, sizes). C112_scores_partial and C112_regressors_partial are without threshold."
  },
  {
   "property": "C113",
   "status": "partial",
   "theorems": [
    "ABX.Pipeline.C113_rows_partial",
    "ABX.Pipeline.C113_separates_partial",
    "ABX.Pipeline.C113_blind_partial"
   ],
   "note": "Missing are the cases excluded in C77: some regressors of A, filters without suffix that remove other items than the last ones of a level, more than 2^53 combinations of regressors, sizes."
  },
  {
   "property": "C114",
   "status": "partial",
   "theorems": [
    "ABX.Pipeline.C114_rows_partial",
    "ABX.Pipeline.C114_threshold_partial",
    "ABX.Pipeline.C114_order_partial",
    "ABX.Pipeline.C114_columns_partial"
   ],
   "note": "Without threshold, and C114_threshold_partial with one. Missing are the cases excluded in C77 (some regressors of A, filters without suffix that remove other items than the last ones of a level, more than 2^53 combinations of regressors, sizes); C114_order_partial and C114_columns_partial are for regressors that are columns, as the default ones; the second has the columns of the results in any order (the order of several across columns depends on the process, C109)."
  },
  {
   "property": "C115",
   "status": "partial",
   "theorems": [
    "ABX.Pipeline.C115_columns_partial",
    "ABX.Pipeline.C115_levels_partial"
   ],
   "note": "Without threshold, for regressors that are columns, in any order (C115_columns_partial). Missing are the cases excluded in C77. Both runs are supposed to finish: an error in another level stops the whole run."
  },
  {
   "property": "C116",
   "status": "partial",
   "theorems": [
    "ABX.Pipeline.C116_columns_partial",
    "ABX.Pipeline.C116_rename_partial"
   ],
   "note": "Without threshold, for regressors that are columns, in any order (C116_columns_partial). Missing are the cases excluded in C77."
  },
  {
   "property": "C117",
   "status": "partial",
   "theorems": [
    "ABX.Pipeline.C117_fewer_columns_partial",
    "ABX.Pipeline.C117_labels_columns_partial",
    "ABX.Pipeline.C117_fewer_partial",
    "ABX.Pipeline.C117_labels_partial"
   ],
   "note": "Without threshold, for regressors that are columns, in any order (C117_fewer_columns_partial, C117_labels_columns_partial). Missing are the cases excluded in C77, among them filters without suffix that remove other items than the last ones of a level (C88)."
  },
  {
   "property": "C118",
   "status": "partial",
   "theorems": [
    "ABX.Pipeline.C118_split_partial"
   ],
   "note": "Without threshold, for regressors that are columns. Missing are the cases excluded in C114_order_partial."
  },
  {
   "property": "C119",
   "status": "partial",
   "theorems": [
    "ABX.Pipeline.C119_by_partial"
   ],
   "note": "Without threshold, for regressors that are columns. Missing are the cases excluded in C114_order_partial."
  },
  {
   "property": "C120",
   "status": "partial",
   "theorems": [
    "ABX.Pipeline.C120_better_partial",
    "ABX.Pipeline.C120_columns_partial"
   ],
   "note": "Without threshold, for regressors that are columns, in any order (C120_columns_partial). Missing are the cases excluded in C77."
  },
  {
   "property": "C121",
   "status": "partial",
   "theorems": [
    "ABX.Pipeline.C121_across_partial"
   ],
   "note": "Without threshold, for regressors that are columns. Missing are the cases excluded in C114_order_partial."
  },
  {
   "property": "C122",
   "status": "partial",
   "theorems": [
    "ABX.Pipeline.C122_reversed_partial"
   ],
   "note": "Without threshold, for regressors that are columns, in any order. Missing are the cases excluded in C77."
  }
 ]
}