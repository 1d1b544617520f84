{
 "C01": [
  "proved",
  "every database, level order, group order; arbitrary by/on/across columns"
 ],
 "C02": [
  "proved",
  "the list written for a level is a permutation of the duplicate-free list of legal triples; every level appears once"
 ],
 "C03": [
  "proved",
  "per level, per block and in total, for every filter set and threshold None"
 ],
 "C04": [
  "partial",
  "proved when labels stay positions (filters on bare columns, if any, keep the first items of every level); false in general: C04_violated"
 ],
 "C05": [
  "proved",
  "for every threshold and filter set, whenever generate returns"
 ],
 "C06": [
  "partial",
  "holds when the number of items of each level fits the type chosen from the number of triplets; false in general: C06_violated"
 ],
 "C07": [
  "partial",
  "holds without threshold when the type holds the boundaries, up to the trailing zeros; false in general: C07_violated_threshold, C07_violated_type"
 ],
 "C08": [
  "partial",
  "holds for blocks of at most 2^53 combinations whose indices fit the chosen type (e.g. up to 256 triplets); false in general: C08_violated"
 ],
 "C09": [
  "proved",
  "permutation for every argsort; contiguity of the regressor groups for key products up to 2^53"
 ],
 "C10": [
  "partial",
  "holds without A regressors (default regressors included); false with them: C10_violated"
 ],
 "C100": [
  "partial",
  "C100_levels_partial, C100_order_partial: experiments without filters, regressors and thresholds, run to the end, with sizes for which the types of the pairs file hold (as in C83) and at least one complete line; for the order of the lines the features must not depend on the number of a line. C100_texts_partial: from the texts, under the conditions of C97_results_partial."
 ],
 "C101": [
  "partial",
  "exact reals instead of float64; a draw of U = 0 has probability zero and is not followed; that the hat of the method covers the distribution is a hypothesis (Covered), proved of K = 1 (C101_one) and of the example only; false when the upper bound of line 166 is below the largest count: such counts are never returned (C101_violated: N=400, K=n=20), the others then have proportionally larger probabilities (C101_distribution_partial)"
 ],
 "C102": [
  "partial",
  "exact reals in the acceptance test of hypergeometric_sample and exact comparisons elsewhere; the loops are followed for R rounds, R large; factors near 1 because np.random.rand gives one of 2^53 numbers; needs that the hat of C101 covers the distribution and that the upper bound of line 166 is large enough (Good), proved of K = 1 (C102_one) and of N <= 5 (C102_small); false otherwise (C102_violated: N=400, K=20, sizes 20 and 380)"
 ],
 "C103": [
  "partial",
  "of blocks whose number of triplets is held by the type fitted to the number of combinations of regressors (all blocks of at most 255 triplets) and at most 2^53 combinations; rejection_sampling is followed for R rounds, R large; factors near 1 because np.random.rand gives one of 2^53 numbers; false of larger blocks (C103_violated: 257 triplets with a regressor and two with another one, the choices of the second group have the probability 0)"
 ],
 "C104": [
  "partial",
  "same conditions as C103: blocks whose number of triplets is held by the type fitted to the number of combinations of regressors (all blocks of at most 255 triplets), rejection_sampling followed for R rounds with R large (C104_written_partial bounds the probability that this is enough), factors near 1 because np.random.rand gives one of 2^53 numbers; exact arithmetic for the means; false of larger blocks (C104_violated: the triplets of a group are never kept)"
 ],
 "C105": [
  "partial",
  "plain experiments (no filters, regressors, thresholds) run to the end with sizes as in C83 and at least one complete line, as in C100; the random distances have finitely many outcomes"
 ],
 "C106": [
  "partial",
  "tasks with an across column and without regressors of A, sizes as in C08 and C77, blocks whose number of triplets fits the type chosen for the index (larger blocks are sampled wrongly, C104_violated); FairDraw is proved for independent uniform 53-bit numbers and at most 255 triplets in a block (C106_chance_partial), for enough random numbers (the code draws without bound, the estimate is 0 if they are used up)"
 ],
 "C107": [
  "partial",
  "tasks without regressors of A, sizes as in C08 and C77, regressors with at most 2^53 combinations, and with a threshold the blocks as in C79; the random numbers of the sampler are the same in all outcomes; runs that end"
 ],
 "C108": [
  "partial",
  "The statements on rounding (C108_monotone, C108_strict) are proved in full, and the bounds on sizes are needed (C108_not_strict, C108_violated_large). The statements on results are for tasks without regressors of A, sizes as in C08 and C77, regressors with at most 2^53 combinations, and with a threshold the blocks as in C79 and the same random numbers of the sampler in the runs compared."
 ],
 "C109": [
  "partial",
  "C109_file (buffers) and C109_names (at most one across column) are proved in full; C109_violated shows that with two across columns the same seed can keep other triplets in another process. The statements on scores and results are for sizes as in C12, C16 and C77, and the results for tasks without regressors of A and filters as in C77. Without threshold, C109_processes_partial shows that the results do not depend on the process: the same rows, with the labels of the columns of regressors in another order at most."
 ],
 "C11": [
  "partial",
  "holds when labels are positions in the level (filters on bare columns, if any, keep its first items); false otherwise: C11_violated"
 ],
 "C110": [
  "partial",
  "Exact for files written without threshold; with a threshold every row is one of these triplets, and none appears twice if the groups fit (C08). Missing: filters without suffix that do not keep the first items of the levels (false there, C04, C88), numbers of items that the type of triplets/data does not hold (false there, C06). For additional 'by' and 'across' columns the filters must mean the same in both tasks."
 ],
 "C111": [
  "partial",
  "C111_scores_partial holds for any threshold and any filters, C111_selection_partial for any two tasks; missing are the sizes excluded in C12 and C16 (numbers of items that the type of triplets/data does not hold, more than 94906265 items in a level, more than 2^52 triplets). C111_filters_partial and C111_by_partial are without threshold, as C110."
 ],
 "C112": [
  "partial",
  "C112_sums_partial is for any threshold; missing are the cases excluded in C77 (some regressors of A, filters without suffix that remove other items than the last ones of a level, more than 2^53 combinations of regressors, sizes). C112_scores_partial and C112_regressors_partial are without threshold."
 ],
 "C113": [
  "partial",
  "Missing are the cases excluded in C77: some regressors of A, filters without suffix that remove other items than the last ones of a level, more than 2^53 combinations of regressors, sizes."
 ],
 "C114": [
  "partial",
  "Without threshold, and C114_threshold_partial with one. Missing are the cases excluded in C77 (some regressors of A, filters without suffix that remove other items than the last ones of a level, more than 2^53 combinations of regressors, sizes); C114_order_partial and C114_columns_partial are for regressors that are columns, as the default ones; the second has the columns of the results in any order (the order of several across columns depends on the process, C109)."
 ],
 "C115": [
  "partial",
  "Without threshold, for regressors that are columns, in any order (C115_columns_partial). Missing are the cases excluded in C77. Both runs are supposed to finish: an error in another level stops the whole run."
 ],
 "C116": [
  "partial",
  "Without threshold, for regressors that are columns, in any order (C116_columns_partial). Missing are the cases excluded in C77."
 ],
 "C117": [
  "partial",
  "Without threshold, for regressors that are columns, in any order (C117_fewer_columns_partial, C117_labels_columns_partial). Missing are the cases excluded in C77, among them filters without suffix that remove other items than the last ones of a level (C88)."
 ],
 "C118": [
  "partial",
  "Without threshold, for regressors that are columns. Missing are the cases excluded in C114_order_partial."
 ],
 "C119": [
  "partial",
  "Without threshold, for regressors that are columns. Missing are the cases excluded in C114_order_partial."
 ],
 "C12": [
  "partial",
  "Proved for files of any origin with in-range items and for every file written by generate, any sorting permutation and any buffer lengths, provided item numbers fit the storage type (C06), at most 3037000499 items per level and 2^52 triplets. Without the first condition the negation is proved (C12_violated)."
 ],
 "C120": [
  "partial",
  "Without threshold, for regressors that are columns, in any order (C120_columns_partial). Missing are the cases excluded in C77."
 ],
 "C121": [
  "partial",
  "Without threshold, for regressors that are columns. Missing are the cases excluded in C114_order_partial."
 ],
 "C122": [
  "partial",
  "Without threshold, for regressors that are columns, in any order. Missing are the cases excluded in C77."
 ],
 "C13": [
  "partial",
  "Proved up to 3037000499 items per level; beyond, the int64 square wraps and the negation is proved (C13_violated)."
 ],
 "C14": [
  "partial",
  "Proved under the same size conditions as C12."
 ],
 "C15": [
  "partial",
  "False in general: C15_violated (filters remove the level that would raise; records are shifted) and C15_gap_violated (for every item file with an incomplete line before a complete one, without filters, Task raises IndexError). Proved when the index labels are the positions: C15_features_partial, and from the lines of the item file C15_lines_partial."
 ],
 "C16": [
  "partial",
  "Proved for every file of generate and _generate_pairs and any distances, any buffer length, up to 94906265 items per level (and the conditions of C12); beyond, keys are compared in float64 and the negation is proved (C16_violated)."
 ],
 "C17": [
  "proved",
  "swap for arbitrary tables; range for every successful run on arbitrary files; ties and NaN over a model of float64."
 ],
 "C18": [
  "partial",
  "from triplets to scores for every returning execution of the distance jobs; excludes the cases where C12, C16 or C24 fail (wrapped item numbers, base of 94906266 or more, levels of more than 12500000 pairs for existence of a returning execution)"
 ],
 "C19": [
  "partial",
  "Keys are exact and injective, and decoding inverts encoding, up to 2^53 combinations of values (C19_keys_partial, C19_roundtrip_partial). False beyond: C19_violated (54 binary regressors)."
 ],
 "C20": [
  "partial",
  "For at most 2^53 combinations: one row per combination, in lexicographic order, with labels, counts and means (C20_rows_partial), counts add up (C20_counts_partial), for whole files (C20_file_partial) and for the files written by the task (C20_task_partial). False beyond: C20_violated_decode, C20_violated_wrap."
 ],
 "C21": [
  "partial",
  "Scores are in [0, 1] and within rounding of the exact mean (C21_range); the file does not depend on the order of the triplets, for at most 2^53 combinations (C21_order_partial)."
 ],
 "C22": [
  "proved",
  "For distinct levels with attributes, every n_cpu > 0; errors without levels or cpus."
 ],
 "C23": [
  "proved",
  ""
 ],
 "C24": [
  "partial",
  "Any two executions that return give the same, right file, whatever the numbers of cpus (full). Completion is proved for levels of at most 12500000 pairs; beyond, the block limit is a float and every job raises TypeError (C24_violated)."
 ],
 "C25": [
  "partial",
  "done implies all distances written, at any point of any execution; done is set on return with one cpu. False with several cpus: done is never set (C25_violated). A second run unmarks a complete file (C25_rerun)."
 ],
 "C26": [
  "proved",
  "Executions with exceptions and killings anywhere, including partial writes of a block."
 ],
 "C27": [
  "partial",
  "Mutual exclusion and termination in full. Progress holds as long as nothing fails between acquire and release; otherwise the lock stays held (no try/finally): C27_violated is a deadlock reached without any killing."
 ],
 "C28": [
  "proved",
  "For every monotone addition: exact numbers (C28_sum: the cost is the sum over the path) and float64 (C28_float)."
 ],
 "C29": [
  "proved",
  "The backtracking follows a warping path of the optimal cost."
 ],
 "C30": [
  "partial",
  "Proved without normalization, for every addition. With normalization it is false (C30_violated, 3 and 4 frames: 1/4 and 1/5); proved in the absence of a tie between the left and the upper cell (C30_normalized_partial)."
 ],
 "C31": [
  "partial",
  "Proved: sign, zero diagonal, empty items, monotone without normalization. With normalization the distance is not monotone (C31_violated_normalized)."
 ],
 "C32": [
  "proved",
  "writer refinement: dataset = concatenation of the written rows, for every chunking and buffer length; zero-length buffers characterised"
 ],
 "C33": [
  "proved",
  "A session of writes on any number of fixed-size datasets succeeds iff for each dataset the amount written is the amount declared (C33_session_iff); an existing dataset is refused."
 ],
 "C34": [
  "partial",
  "false of the code: C34_violated gives the failing sessions that leave a partial dataset; C34_partial is what holds"
 ],
 "C35": [
  "proved",
  "reader refinement for every refill policy that refills a consumed buffer"
 ],
 "C36": [
  "proved",
  "result is the sorted list of keys for every accepted buffer size, every argsort; refused/diverging sizes characterised exactly"
 ],
 "C37": [
  "proved",
  "one permutation reorders the key and all the companions"
 ],
 "C38": [
  "partial",
  "true up to 10^10 rows (2^53 with the default memory); false beyond (C38_violated_large), on an empty table and with memory=0 (never terminates)"
 ],
 "C39": [
  "proved",
  "termination, exact size, order and range for every stream; every sample reachable; n>N characterised"
 ],
 "C40": [
  "proved",
  "every returned sample is valid, no overshoot, completion possible iff n<=N, bound on rounds under fairness"
 ],
 "C41": [
  "partial",
  "false for N=1,K=1,n=0 (C41_violated); feasible range proved otherwise; every feasible count is reachable when the acceptance test and the upper bound of line 166 are arbitrary (C41_every_count), with their values in exact numbers some are not (C101)"
 ],
 "C42": [
  "partial",
  "true for positive chunk sizes; false for an empty chunk when one item remains (C42_violated_empty_chunk)"
 ],
 "C43": [
  "proved",
  "smallest holding type, lossless cast, raises iff no type fits"
 ],
 "C44": [
  "proved",
  "Exact real numbers; also the normalization of rows and its failure on rows of sum 0 (AssertionError)."
 ],
 "C45": [
  "proved",
  "Exact real numbers. C45_js_null_entry: js_divergence is not a number when an entry is 0 (outside the hypothesis of the property)."
 ],
 "C46": [
  "partial",
  "Proved in exact real numbers (C46_history_partial) and when the arrays are not normalized in place (C46_fresh). False in float64: normalizing twice changes the row (1,4,1) (C46_violated_float)."
 ],
 "C47": [
  "proved",
  "Exact arithmetic: the weighted sum of the specification. float64 (lengths below 2^49): no invalid index, weights of total 1, the weights of the specification except possibly on borders (C47_float); C47_tie_lost shows that a border can be missed. The sums of the distances of frames are exact."
 ],
 "C48": [
  "partial",
  "Tables: proved (C48_keys_injective, C48_lookup, C48_lookup_unique). Fused H5IO datasets: proved when there are at most 2^64 combinations (C48_fused_injective); false beyond, where the overflow test never fires (C48_fused_violated). C48_create_fails: no table can be created by this version, line 97 raises TypeError."
 ],
 "C49": [
  "partial",
  "False: a query after the last stored row raises IndexError (C49_violated). C49_absent_partial gives the exception in every case; C49_not_in_index, C49_no_rows and C49_not_packed the other refusals."
 ],
 "C50": [
  "proved",
  "For every sort of the level set (any permutation); values are ints or strings."
 ],
 "C51": [
  "partial",
  "Exactly-one-stage and the acceptance conditions are proved; availability holds except for _AB on a column not determined by on/across/by and for generic filters that also read a by column (both accepted, then NameError: C51_violated_*). The _AX check is inverted."
 ],
 "C52": [
  "proved",
  "Pointwise scripts."
 ],
 "C53": [
  "partial",
  "The code violates it (C53_violated): the first element is kept once per true value. C53_column_partial gives the exact behaviour and when it is right."
 ],
 "C54": [
  "partial",
  "database.load is modelled from the split lines of the item file: acceptance and refusal are exact, and for accepted files with distinct column names the tables contain exactly the complete lines, in order, aligned with their file/onset/offset record. The full claim is false when a label column repeats the name of a location column (C54_violated). Missing: pandas parsing of the text itself."
 ],
 "C55": [
  "partial",
  "The claim is false of the code: any auxiliary file makes load raise (C55_violated). C55_flat_partial covers the case without auxiliary files, where the hierarchy is flat and holds exactly the label columns."
 ],
 "C56": [
  "proved",
  "Traversals, count, findChild, addChildrenFromList and constructFromList for all trees and all nested lists. Parent links are not part of this model."
 ],
 "C57": [
  "partial",
  "For every list of readable files and every batch size >= 1 the batches are exact (C57_batches), with the state after an unreadable file (C57_failed), name collisions (C57_names) and batch sizes <= 0 (C57_nonpositive). The claim is false for files that follow the documentation of the module: 'times' is documented, 'time' is read, KeyError (C57_documented_violated)."
 ],
 "C58": [
  "proved",
  "Frames returned are those with times in the closed interval; an item missing from all files is a KeyError; several feature files are accepted exactly when no recording is in two of them (AssertionError otherwise), and then each recording has the features of its file."
 ],
 "C59": [
  "partial",
  "C59_accepts is the exact acceptance condition of the code. The claim is false (C59_violated: tab separated lines, empty lines, location columns before the labels are refused; a third '#' is accepted). C59_sound_partial: accepted files name only known files; C59_iff_partial: equivalence for blank separated lines and a label in the fourth column."
 ],
 "C60": [
  "proved",
  "Every label combination on exactly repeats+1 lines (plain and named); the generated files allow the creation of a task for every choice of label columns and pass verify.check with the generated feature names."
 ],
 "C61": [
  "proved",
  "Exact conditions for the success of Task.__init__ up to the statistics (C61_created_iff), the possible errors (C61_errors), and the same for a task created from an item file (C61_file_created_iff, C61_file_columns)."
 ],
 "C62": [
  "partial",
  "Violated: line 115 compares the values of two list.sort() calls (None == None), so the comparison is True for every pair of files; negation proved."
 ],
 "C63": [
  "partial",
  "Proved for one across column when filters on bare columns, if any, remove the last items of the levels (C63_single_partial) and, in terms of items A instead of labels, without across column (C63_none_partial); with any number of across columns C63_several_partial says what is counted (X differs from A in some of them); C63_reported says when a number is reported. False without across column (items A counted separately), with two across columns (combinations counted that no triplet has) and after a filter that removes items (labels used as positions): C63_violated_none, C63_violated_across, C63_violated_filter."
 ],
 "C64": [
  "proved",
  "Counting all streams of N numbers below 2^53. The comparison (N - t) * u < n - m is exact here; C90 is the same with the product rounded to float64."
 ],
 "C65": [
  "proved",
  "Counting all tables of draws with R rows: C65_rejection_uniform (bijection by renaming the indices), C65_rejection_total (the samples share all the tables that return), C65_rejection_returns (bound on the others)."
 ],
 "C66": [
  "partial",
  "The round trip is proved for all declarations and calls that meet the conditions of Spec.Ready. It is false of the code otherwise: a dataset that is not fused and whose index has another name (for instance shared) can never be written (C66_shared_index), raw datasets of two groups collide at the root of the file (C66_two_groups), a first call without rows raises (C66_empty_first), positions out of range are stored modulo 256 (C66_out_of_range), columns that change between calls mix datasets (C66_columns), surplus elements of a list are lost (C66_list)."
 ],
 "C67": [
  "partial",
  "Proved: exactly which declarations are accepted (C67_accepts) and what is made (C67_made). Violated: creation in an existing file is not refused (C67_existing_file), creation of an existing group raises but marks its table as empty (C67_flags_reset), a written table with fused datasets cannot be opened again (C67_reopen), and nothing can be added to a table that is opened again (C67_no_append)."
 ],
 "C68": [
  "partial",
  "Proved: addChild keeps a forest exactly when the object has no parent and is not at or above its new parent; remove, clear, replace, inject, reparent and nested lists do what is documented under that condition, and so does any sequence. The code does not check the condition: an object with a parent ends up in two child lists (Ex.two_parents), a root below itself makes getDepth run forever (Ex.cycle), injecting a child makes it its own child (Ex.inject_child)."
 ],
 "C69": [
  "proved",
  "For every forest, with any bound on the number of steps that is large enough. isDescendantOf is what its documentation says, which is the opposite of its name (C69_isDescendantOf_child). On a cycle of parents the paths do not end (C69_cycle). Not covered: dump, which fails in python 3."
 ],
 "C70": [
  "partial",
  "Only the output is changed, exactly characterised when there is an output at the end (C70_*_frame, C70_*_lost, C70_*_written). Not lost is false: all four programs remove the old output before the checks (C70_task_not_safe, C70_distance_not_safe, C70_score_not_safe, C70_analyze_not_safe); an output with the name of an input destroys the input. The optional argument of score.py is not optional (C70_score_optional). The computations are parameters; links between files and concurrent programs are not represented."
 ],
 "C71": [
  "partial",
  "Proved for all functions, pairs and values of -n. False where a name has more than one dot or a dot in its path (C71_third, C71_dot_path), and for the edit distance of an empty item and another, which is infinite (C71_edit); -n with the edit distance, and no -n with the default, fail (C71_mismatch). The evaluation by the editdistance package is a parameter that is assumed to compute the Levenshtein distance."
 ],
 "C72": [
  "proved",
  "For exact real numbers. Symmetry is claimed without normalization only, because with it dynamic time warping is not symmetric (C30_violated). Rounding of the metric is not represented; distances of frames that are not numbers are not followed."
 ],
 "C73": [
  "partial",
  "Acceptance, inputs, dependence on the inputs only and independence of the other scripts are proved. The value is that of python if imports come first and nested scopes use none of the names of the script's surroundings (C73_value_partial); false otherwise: nested scopes do not see columns (C73_hidden, C73_not_value), imports are executed first (C73_not_in_order). Narrowing is proved for [body for x in column] (C73_pointwise) and false in general (C73_not_pointwise). An input need not matter (C73_not_minimal). Reading of python text, other statements and changes of values in place are not represented."
 ],
 "C74": [
  "partial",
  "Names of levels of several columns are injective for all values, those of one column for values of one kind (C74_distinct_partial); false for an integer and the string of its digits (C74_not_distinct). Places are separate without slashes (C74_place_partial, C74_separate_partial), false with them (C74_not_separate): HDF5 nests groups, and skips empty pieces and dots."
 ],
 "C75": [
  "partial",
  "Reading is unique (C75_unique); the text reads back as the results for labels without tabs and ends of line (C75_reads_partial; levels of several columns need no condition), all lines have the same number of cells (C75_width), the cells determine the row (C75_cells); false with a tab (C75_not_reads). The header is found without slashes in levels (C75_header_partial), analyze fails with them (C75_not_header). The text of a float is a parameter."
 ],
 "C76": [
  "partial",
  "False: the program raises an exception whatever its arguments (C76_never), and so does the function that it would call (C76_never_direct); the calls that do not fit are listed in C76_other_calls. What is proved in addition is that no file is changed."
 ],
 "C77": [
  "partial",
  "The chain of all five stages, and that a run ends when the features and distances can be computed and no level has more than 12500000 pairs. Excluded, as in C10, C12, C16, C19, C20: filters without suffix that remove other items than the last ones of a level, some regressors of A, more than 2^53 combinations of regressors, more than 94906265 items in a level, and a threshold."
 ],
 "C78": [
  "partial",
  "All outcomes of the generation without threshold (with a threshold: C85). Missing: filters without suffix that remove other items than the last ones of a level, for which positions and labels are confused (C04, C11)."
 ],
 "C79": [
  "partial",
  "Proved for tasks with an across column. Without one it is false (C79_violated): the triplets are then sampled for each item A but the rows of the results are for all items of a label, so a row can have more than threshold triplets; how many is C94. Missing also: regressors of A, and the cases excluded in C08 and C77."
 ],
 "C80": [
  "partial",
  "The numbers of items, labels, pairs (A, B) and triplets are proved for all tasks whose filters on bare columns, if any, remove the last items of the levels. The number of pairs (A, X) is proved with at most one across column; with several it is false (C80_violated): pairs that differ in some of the across columns only are counted (C80_on_pairs_some says what is counted). The text is proved for any number of across columns (C80_text); with several its nb_on_pairs and nb_levels count X that differ from A in some across column. What pprint writes is a parameter."
 ],
 "C81": [
  "partial",
  "Proved for the triplets, the levels, their index and the regressors of the levels with triplets (C81_generate_partial) and for the lines about the levels (C81_print_partial, which also says exactly when KeyError is raised). False of the rest: a second generation leaves the deleted levels out of on_across_block_index and of the groups of regressors (C81_violated_file), and print_stats after generate_triplets raises KeyError when a level without triplets was deleted and nothing was printed before (C81_violated_print)."
 ],
 "C82": [
  "partial",
  "False of the examples: they call dtw without its argument normalized, so any two items with frames raise TypeError, with or without -n (C82_violated); C82_blocks says exactly which blocks of pairs they can measure, C82_empty_partial that they agree with the distances of distance.py there. The default distance measures all pairs with -n, and none without (C82_default)."
 ],
 "C83": [
  "partial",
  "C83_results_partial gives the rows, C83_counts the numbers of triplets; missing are the sizes excluded in C10, C16, C19 and C20 (more than 94906265 items in a level, 2^52 triplets, 2^53 combinations of labels, tables where a level has more than 128 items and more items than the task has triplets)."
 ],
 "C84": [
  "partial",
  "C84_lines_partial; the columns and the absence of gaps follow from the creation of the task. Missing: the sizes excluded in C83; C84_ends_partial shows that they hold and that the experiment can be run for files of at most 3535 lines with enough triplets (or at most 128 lines)."
 ],
 "C85": [
  "partial",
  "Proved for regressors that do not read A, or tasks with a filter that reads two of A, B and X. For a regressor of A alone without such a filter it is false (C85_violated): its column is not sampled, and as soon as a group exceeds the threshold the columns have different lengths and ValueError is raised. Missing: filters without suffix that remove other items than the last ones of a level."
 ],
 "C86": [
  "partial",
  "The display and the counts of a first generation are proved. False of a second generation of the same task object (C86_violated: the number of blocks is not changed when levels without triplets are deleted) and of terminals (C86_escape: the text written is not the control sequence that moves the cursor up). Missing: filters without suffix that remove other items than the last ones of a level."
 ],
 "C87": [
  "partial",
  "False: every visit raises an exception, also that of the documented calls (C87_violated, C87_documented), because generic_visit looks for a method above NodeVisitor, where there is none. C87_error says which exception; calls with keywords are refused as described. The only use of the class lacks an argument (C87_connect)."
 ],
 "C88": [
  "partial",
  "proved as what the code does: exact condition for the creation of the task (C88_created, C88_none), exact labels of a block (C88_labels), triplets right if no filter reads the labels of the block (C88_triplets). The claim itself is false: C88_wrong_labels, C04_violated, C11_violated"
 ],
 "C89": [
  "partial",
  "proved for regressors on columns (C89_file_partial, under the conditions of C10 on filters on bare columns and regressors of A); labels that are not ASCII always fail (C89_ascii); false for scripts when two levels have blocks (C89_scripts)"
 ],
 "C90": [
  "partial",
  "true as stated except that empty chunks of the incremental sampler are excluded, as in C42 (C42_violated_empty_chunk); products of numpy integers are assumed not to wrap around"
 ],
 "C91": [
  "partial",
  "'by' labels have no slash and are of one kind (C74), names and labels are ASCII without tabs and ends of line (C75, C89), regressors are columns (C89), fewer than 2500 regressors, sizes as in C77; with a threshold as in C79"
 ],
 "C92": [
  "partial",
  "The chain of all stages for the generated files and features, with exact real distances: a run exists, and every run gives the whole table. Missing: more than 3535 lines, and more than 128 lines with fewer triplets in a group than lines; float64 arithmetic of the distances."
 ],
 "C93": [
  "partial",
  "C93_lines_partial, C93_ends_partial and C93_generated_partial are for tasks with across columns (C94 is for those without) and blocks of at most 256 triplets (C08: the type of the keys of larger blocks can be too small); sizes as in C83; that samplings end is a hypothesis (C24)."
 ],
 "C94": [
  "partial",
  "C94_sample_partial is for all tasks without across columns whose groups fit (C79); C94_lines_partial, C94_ends_partial and C94_generated_partial are for plain tasks with at most 256 triplets for each line A (C08: the type of the keys of larger blocks can be too small); sizes as in C83; that samplings end is a hypothesis (C24)."
 ],
 "C95": [
  "partial",
  "C95_rows, C95_lines and C95_ends hold for blocks of any size and say how many rows are left; C95_violated is the negation for generated files, with a run that exists; C95_all_partial is the claim for blocks that fit (see also C91, C93)."
 ],
 "C96": [
  "partial",
  "The claim is false: C96_sample (one sampling), C96_never (any task), C96_lines and C96_generated are its negation; the positive part is C85_file_partial and C79_completes_partial, where the samplings end."
 ],
 "C97": [
  "partial",
  "C97_words, C97_item_file, C97_digits, C97_loaded, C97_longer, C97_refused, C97_render, C97_values, C97_generated and C97_number hold of all texts as stated; C97_plain_partial is the claim for columns with a plain word; C97_violated_missing and C97_violated_numbers are its negation. pandas.read_csv is modelled from its documented behaviour (python engine), not from its source; the values of numbers that are not digits are a parameter. C97_every_text: the texts are all those whose white space is blanks, tabulations and ends of line. C97_created_iff, C97_results_partial and C97_ends_partial go from the words of the text to the creation of the task and to the results (label columns with only digits or only plain words). C97_repeated, C97_booleans, C97_unreadable: repeated names, columns of booleans, files that are absent or empty."
 ],
 "C98": [
  "partial",
  "C98_csv (round trip) and C98_partition hold of all files; C98_listed_partial is for different names of columns (see C54_violated); C98_violated_empty and C98_violated_reload are the negation for lines without values and for loading the file again."
 ],
 "C99": [
  "proved",
  "argparse as in python 3.11; the texts that int accepts are a parameter; clusters of flags of one letter (-vh) are in the model but not in the statement"
 ]
}