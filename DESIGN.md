# Formal model of ABXpy: design

Source under study: `/repo` (bootphon/ABXpy, python), read as text, never run.
Model and proofs: Lean 4.33.0 with Mathlib, under `lean/`.

## Layout

* `lean/Verif/Model/*.lean`: models of the code, function by function, each definition citing file and lines.
* `lean/Verif/Spec/*.lean`: small specifications that do not mention the models (some specifications are in a `Spec` namespace of a property or proof file).
* `lean/Verif/Proofs/*.lean`: helper lemmas.
* `lean/Verif/Properties/*.lean`: the property theorems (named after the ids of `properties.jsonl`), with concrete cases (`example`) that meet their hypotheses.
* `MANIFEST.json`: property -> theorems, status (written by `tools/manifest.py` from the theorem names and `tools/status.json`).
* `seeded/LOG.jsonl`: record of wrong programs tried against the theorems. `failed` are the lemmas and theorems whose proofs no longer check; where these are helper lemmas, the property theorems that use them (`not_rebuilt_because_a_lemma_failed`) were not rebuilt. That a proof breaks is not by itself a proof that the statement is false for the wrong program.

## Conventions

* Python exceptions are values (`Except Err α`), loops are structural or fuelled recursion; where fuel is used a theorem says how much is enough (or that no amount is).
* Integers are `Int`/`Nat` unless the property is about overflow; numpy integer types are `IntType` with an explicit wrapping `cast`.
* Unspecified library behaviour (pandas group order, python set order, argsort tie breaking, random streams, process scheduling, contents of uninitialised memory) is universally quantified.
* Floating point: exact rationals or reals, or `F64.rnd` (round to nearest even, 53 bits, no exponent range) where a property depends on rounding. NaN appears where a property is about it (score, metrics).
* When the code violates a property, the negation is proved on a concrete witness (`_violated`) and what does hold is proved as `_partial`.
* Versions: python 3 (`/` on integers gives a float), numpy before version 2 (value-based casting of scalars, `np.float` exists), h5py before version 3 (strings are read as `str`), pandas with `.ix`.

## Trusted base

* The Lean kernel, and the axioms `propext`, `Classical.choice`, `Quot.sound` at most. `#print axioms` lines at the end of the property files show them; `lean/Verif/Audit.lean` checks all property theorems at once and fails if one of them depends on anything else.
* No axioms of our own, no `sorry`, no `native_decide`, no `bv_decide`. Concrete witnesses are checked with `decide`/`decide +kernel`, that is by the kernel.
* The faithfulness of the models (next section), which rests on reading only.
* The assumed behaviour of numpy, pandas, h5py, h5features, multiprocessing: as stated in the comments of the models and below.

## What is modelled

| file of /repo | model | left out or simplified |
|---|---|---|
| `task.py` 187-347, 349-463, 465-567 (preparation, statistics, triplets) | `Model/Task.lean` | verbose messages; missing item file |
| `task.py` 569-844, 1111-1205 (regressors, threshold, writing of the task file) | `Model/TaskGen.lean` | names of the datasets of regressors (next row); regressors are indices |
| `sideop/regressor_manager.py` 96-127, `output_specs` of `dbfun_column.py` 24-29 and `dbfun_compute.py` 170-171, `task.py` 767-774, 834, 1125-1158 (names, indexes and columns of the regressors), `analyze.py` 76-77, 103-112, 157-162 (their reading) | `Model/RegInfo.lean` | lookup tables as regressors; scripts have one output with values in the naturals; the path of the group of a level is a parameter (`Model/Names.lean`) |
| `analyze.py` 61-121, 142-166 as they read the task file (names, indexes and values of the regressors of each level from the groups that `h5io` wrote) | `Model/ResultFile.lean` | the file is represented by the groups that have datasets, named by their HDF5 paths (C74); the group listed first is any of them; the index of a level is read before its rows are encoded, so that a missing index is found earlier; the text of a float64 is a parameter |
| `task.py` 848-986 (`_generate_pairs`) | `Model/Pairs.lean` | temporary file is a value; buffer lengths are parameters; groups named by the key, not by `str(by)` |
| `task.py` 350-463 with `approximate`, 1066-1109 (`compute_statistics`, `print_stats`) | `Model/Stats.lean` | text of `pprint`; statistics that are not summarized |
| `task.py` 791-792, 1061-1064 and what the methods change in a `Task` | `Model/TaskObject.lean` | the object after an exception; the pairs; `verbose` |
| `task.py` 997-1065 (`compute_nb_levels`) | `Model/NbLevels.lean` | display |
| `task.py` 1208-1251 (`sort_pairs`), `h5tools/h5_handler.py` | `Model/ExtSort.lean` | temporary files are lists |
| `task.py` 1339-1371, `score.py` 138-143, `analyze.py` 155-207, `distance.py` 135-146 (`main`: files) | `Model/CommandLine.lean` | temporary directories, messages; what is computed is a parameter |
| the definitions of the command lines: `task.py` 1254-1371, `distance.py` 96-146, `score.py` 123-138, `analyze.py` 169-185, `verify.py` 60-68, `misc/any2h5features.py` 85-91, `bin/ABXrun.py` 75-135 | `Model/Argparse.lean` | the part of the library argparse (python 3.11) that they use is modelled too, compared by hand-written random lines with the library of this machine; the texts that `int` accepts are a parameter; messages |
| `score.py` 51-120 | `Model/Score.lean` | default file names; `searchsorted` is the plain binary search |
| `analyze.py` 39-139 | `Model/Analyze.lean` (rows as records), `Model/Names.lean` (text of the file, names of levels) | text of floats |
| `bin/ABXrun.py` | `Model/Run.lean` | what the stages do (parameters); names of the default files |
| `distances/distances.py` | `Model/Distances.lean`, `Model/Workers.lean`, `Model/Features.lean` | `normalized` is part of the distance; decoding of bytes keys; a step of a process is atomic except a write, which may be cut anywhere; damage to the HDF5 structure; splitted features (never used) |
| `distances/metrics/dtw/dtw.pyx`, `distance.py` 13-47 | `Model/DTW.lean` | shape of the array returned by the metric; NaN costs |
| `distances/metrics/cosine.py`, `kullback_leibler.py` | `Model/Metrics.lean` | exact reals, everything that is not a finite real is one value; dtype assertions hold |
| `distances/metrics/utw.py` | `Model/UTW.lean` | sums are exact |
| `distance.py` 49-93 (`edit_distance`, `run`) | `Model/CommandLine.lean` | the package `editdistance` and the import of a user's module are parameters; several processes |
| `distance.py` 13-47 on features | `Model/Distance.lean` | exact real numbers; distances of frames that are not numbers are not followed |
| `distances/example_distances.py` | `Model/ExampleDistances.lean` | as `Model/Distance.lean` |
| `sideop/*.py`, `dbfun/dbfun.py`, `dbfun_column.py`, `dbfun_compute.py` | `Model/SideOps.lean` | python scripts are pointwise functions of their columns (see `Model/Script.lean`) |
| `dbfun/dbfun_compute.py` (scripts) | `Model/Script.lean` | reading of python text; statements other than imports, assignments and expressions; changes of values in place; auxiliary files (never reached in python 3) |
| `dbfun/dbfun_lookuptable.py` | `Model/Lookup.lean` | encoding of the outputs; the code path, which is never taken |
| `dbfun/lookuptable_connector.py` | `Model/Connector.lean` | what comes after a call of `generic_visit` (never reached); contexts of the nodes |
| `database/database.py` | `Model/Database.lean`, `Model/ReadCsv.lean` (`pandas.read_csv` with the separator `[ \t]+`), `Model/Removed.lean` (the csv file of dropped lines) | which texts are numbers other than integers, and their values (a parameter); text of values |
| `h5tools/np2h5.py` | `Model/NP2H5.lean` | columns and types of a dataset |
| `h5tools/h52np.py` | `Model/H52NP.lean` | the file is open |
| `h5tools/h5io.py` | `Model/Lookup.lean` (keys of fused datasets), `Model/H5IO.lean` (creation, opening, writing) | what a creation or a write that raises leaves in the file (except the flags of an existing group); nested groups; HDF5 itself; `sort`, `find`, `read` are empty in the code |
| `sampling/sampler.py` | `Model/Sampler.lean` (exact comparisons), `Model/SamplerFloat.lean` (comparisons and chunk sizes in float64; C90 relates the two), `Model/HyperReal.lean` (lines 151-184 of `hypergeometric_sample` in exact real numbers) | in `Model/Sampler.lean` the acceptance test of `hypergeometric_sample` is an arbitrary sequence of answers (any rounding of it is covered); `Model/HyperReal.lean` has no rounding; wrap-around of products of numpy integers |
| `misc/type_fitting.py` | `Model/TypeFit.lean` | |
| `misc/tinytree.py` | `Model/Tree.lean` (trees as values), `Model/TreeHeap.lean` (linked objects: editing, navigation, `treeProp`) | `dump`; what an operation that raises leaves half done |
| `misc/any2h5features.py` | `Model/Convert.lean` | `h5features.write` and the readers are parameters |
| `misc/items.py` | `Model/Items.lean`, `Model/FullRun.lean` (features) | the random numbers of the features are an argument; `h5cmp` (calls an external program) |
| `examples/complete_run.py` | `Model/FullRun.lean` (distance), `Properties/FullRun.lean` (the chain of stages) | creation and removal of files; exact real numbers for the distances |
| `misc/progress_display.py` | `Model/Progress.lean` (with the calls of `generate_triplets`), `Model/ProgressInit.lean` (what a verbose `Task(...)` and `compute_nb_levels` write) | flushing; what is written before an exception |
| `verify.py` | `Model/Verify.lean` | command line |

## Disagreements between the code and the properties

Each has a proved witness.

* C04, C11: after a filter on a bare column, labels of the item table are used as positions (task.py 357, 497), thus other filters and block labels look at wrong rows.
* C06: `triplets/data` has the type fitted to the number of triplets, not to the item numbers.
* C07: `on_across_block_index` counts triplets before the threshold, and has the type fitted to the number of blocks.
* C08: the sampled indices have the type fitted to the number of regressor combinations.
* C10: A regressors are not permuted with the triplets unless there is an ABX filter (task.py 1135-1137).
* C12, C13, C16: wrapped item numbers (C06), squares of bases beyond int64, comparison of keys in float64.
* C15: lines dropped by `database.load` shift the feature records (`iloc` with labels).
* C19, C20: keys beyond 2^53 combinations are decoded wrongly, from 2^64 on they collide.
* C24, C27: with levels of more than 12500000 pairs the block size is a float; slicing raises a TypeError inside the critical section and the lock is never released.
* C25: `done` is only set with one cpu.
* C30, C31: ties in the backtracking of the normalized DTW depend on the order of the arguments; the normalized distance is not monotone in the costs.
* C34: `del self.dataset` does not delete the dataset of a failed session.
* C38: sizes of the merge buffers are 0 for huge tables; `memory=0` never terminates.
* C41, C42: one remaining item, one remaining sample and an empty chunk.
* C46: normalization in place is not idempotent in float64.
* C48: `max_key` of fused datasets is computed modulo 2^64, the test `>= 2 ** 64` never holds.
* C49: a query after the last stored key raises IndexError instead of the intended error; `create` always raises TypeError (dbfun_lookuptable.py 97).
* C51: `_AB` filters on other columns and generic filters with a 'by' column are accepted and raise NameError later.
* C53: a column used as filter keeps the first item once per true value.
* C54, C55: a label column may have the name of a location column; any auxiliary file makes `load` raise.
* C57: the key `time` is read where the documentation says `times`.
* C59: tabs, empty lines, additional location columns are refused by `verify.check`; three sharps are accepted.
* C62: `csv_cmp` compares the results of `list.sort()`, which are None.
* C63: `compute_nb_levels` counts items A separately without across column, counts label combinations without triplets with several across columns, uses labels as positions.
* C66: a dataset that is not fused and does not have an index of its own name can be declared but never written (h5io.py 261); raw datasets go to the root of the file whatever the group (255); a first call without rows raises when there are raw datasets (352); with `indexed=True` positions are not checked and wrap; the numbers of columns are not checked against the first call when their sum is the same; `zip` drops surplus elements of a list (223).
* C67: the error for an existing file (59) is caught by the `except IOError` that follows (66); creating an existing group resets its flags before raising; 'key_weigths' (157) is not the name written (297), so a table with fused datasets cannot be opened again; a table that is opened again cannot be extended (200).
* C68: `addChild` (84-95), `replace` (136-148), `inject` (150-162) and `reparent` (164-173) do not check that the object has no parent and is not above its new place: the links of children and parents then disagree or go round, and `pathToRoot` does not end. C69: `isDescendantOf` (175-182) tells if the object is an *ancestor* of the argument, as its documentation says and its name denies; `dump` (408-420) calls `unicode`, which python 3 does not have.
* C70: the four programs remove an existing output before they check their arguments and inputs (task.py 1347, distance.py 137, score.py 140, analyze.py 202): `task --stats-only`, `distance` without `-d` and `-n`, and `score` with a missing input lose it, and an output with the name of an input removes the input. `score` without its third argument, announced as optional, calls `os.path.exists(None)` and fails. `analyze` exits with status 0 when an input is missing. C71: `-d` uses the first two pieces between dots (82-84), so `./m.f` and `a.b.c` are not what is meant; the edit distance of an empty and another item is infinite (68-70), not the length.
* C73: scripts are executed with two namespaces (dbfun_compute.py 177-195), so lambdas, generator expressions, functions and, before python 3.12, comprehensions do not see columns, imports and variables of the script; imports are executed first (180); any `with` at the top of a script raises AttributeError in python 3 (135), so auxiliary files cannot be used; a script that only has imports raises IndexError (66); a local variable with the name of a column makes this column an input (91); scripts that are not pointwise give results that depend on the filters before them (filter_manager.py 107-109).
* C74, C75: the name of a level is a path of HDF5 (task.py 772): labels with slashes make nested groups, `a/b` and `a//b` are one group, `.` is the group of all regressors; `analyze` then looks for the header in a group that is not that of a level (analyze.py 158). Cells are written without quoting.
* C79: without across column the dummy column of task.py 217-219 makes a block, hence a threshold, for each item A, while the rows of the results do not tell items apart: a row has up to threshold times the number of items triplets.
* C85: in `_compute_regressors` (task.py 1137-1141) the regressors of A are filtered, permuted and sampled (`ABX_filter_ind`, `thr_sort_permut`) only when there is a filter that reads two of A, B and X; a threshold samples the other columns but not these, so a task with a regressor of A alone and a threshold smaller than a group cannot be written: the columns given to `H5IO.write` differ in length and it raises `ValueError`.
* C86: `display` (progress_display.py 37) writes `ESC [ < n > A`, which is not the control sequence that moves the cursor up (`ESC [ n A`), and decides by the standard input (20) about the standard output. In a second generation of the same object the display of the blocks stops short of its total, since `n_blocks` (task.py 463) is not changed when levels are deleted (791-792).
* C87: `generic_visit` of `LookupTableConnector` (lookuptable_connector.py 122) calls `super(ast.NodeVisitor, self).generic_visit`, a method that `object` does not have: every visit raises. In python 3 calls also have no `kwargs` (29), and dbfun_compute.py 100-101 makes the object with an argument missing.
* C88: after a filter on a bare column (`generic_filter`, task.py 315) the items keep their numbers (the index of the frame is not reset), and `db.iloc[block[0]]` (415, 821) uses these numbers as positions. If an item before the first item of a block was removed, the block gets the labels of another item, or IndexError is raised when the task is created (`C88_created`, `C88_none`, `C88_labels`, `C88_wrong_labels`). The triplets remain right only as long as no filter reads the labels of the block (`C88_triplets`; `C04_violated` shows a filter that does).
* C89: a regressor that is a script has no name (`output_names` is always None, dbfun_compute.py 37) and no index, so that H5IO stores its column at the root of the file (h5io.py 164) and not in the group of the level: the second level with a block raises an error (`C89_scripts`). Such a task can only be generated if one level has blocks (`exScript_fails`), and then the analysis does not see the column. Labels that are not ASCII raise an error (`C89_ascii`). A column that is asked for although it is a default regressor is harmless: it appears once (`exDup_read`).
* C91 and C77: C77 speaks of one column for each regressor given, so that a regressor given twice is counted twice; in the task file it is stored once (C89), and the results have it once (C91, example `exDup_text`). The rows are otherwise the same.
* C95: a threshold loses rows of the results.  The positions `sampled_idx` (task.py 1181-1205) have the type fitted to the number of combinations of regressors, and `sampled_idx += i` wraps around: with at most 255 combinations only the first 256 triplets of a sorted block can be kept of groups larger than the threshold, and combinations of labels that come later have no row.  Three values in three columns, every line seven times, threshold 100: 27 rows instead of 108 (`C95_violated` and its example).
* C96: with a threshold above 256 (at most 255 combinations), a group of more than 100 triplets and threshold/n < 0.6 the loop of `rejection_sampling` (sampler.py 239-248) never ends, since it counts different values of a type that has 256 (`C96_sample`, `C96_never`).
* C97: labels that pandas reads as missing values (NA, nan, null, ...) drop their lines, and make the creation of tasks fail with IndexError when a complete line follows (`C97_violated_missing`); in columns of digits different words can become the same label (`C97_violated_numbers`); one word more in all lines shifts the columns without an error (`C97_longer`).
* C98: lines whose words all stand for missing values are dropped without being listed in the '-removed.item' file (`C98_violated_empty`); that file is a csv file, not an item file (`C98_violated_reload`).
* C99: without '--' the name of the output file after an option like `--across` is silently taken as one more column (`C99_swallowed_output`), and the optional output file after other options is refused (`C99_late`) although the database could be written there (`C99_between`).
* C101: `hypergeometric_sample` never returns the counts above `floor(average + 0.5 + 16 sqrt(variance + 0.5))` (line 166), also when they are possible (`C101_violated`: a chunk of 20 of 400 items, 20 of which are sampled; the count 20 is never returned); the probabilities of the other counts are larger by the same factor.
* C102: for the same reason the sampler does not draw every set of `K` of `N` items: when 20 of 400 items are sampled by calls of `sample(20)` and `sample(380)`, the first 20 items are never the sample (`C102_violated`).
* C103: in a block of 257 triplets with one combination of regressors and two triplets with another one, a threshold of 1 never keeps a triplet of the second group: the positions are added in the type uint8 fitted to the 2 combinations (task.py lines 601 and 1200), so the choices do not have the same probability (`C103_violated`; see C08).
* C104: in the same block each of the two triplets of the second group should be kept with the probability 1/2, it is 0 (`C104_violated`).
* C109: the option `--seed` (task.py 674-700) does not make runs reproducible when two columns or more are determined by 'across': the default regressors are taken from a python set of strings (side_operations_manager.py 53, regressor_manager.py 24-26), whose order changes with the hash seed of the process. The triplets of a block are sorted by these regressors, so the groups come in another order, get other random numbers, and with a threshold other triplets are kept (`C109_violated`). With at most one such column the order plays no part (`C109_names`).
* C80: with several across columns `nb_on_pairs` (task.py 433-435) counts pairs (A, X) that differ in some across columns only; they are in no triplet. `print_stats` writes the global statistics before `compute_nb_levels` (1084-1089) adds `nb_levels` to them: printing twice gives different texts.
* C81: `generate_triplets` deletes the levels without triplets from `by_dbs` but not from `by_stats` (791-792); `print_stats` called for the first time afterwards raises KeyError, since `compute_nb_levels` sums `nb_levels` over all `by_stats` (1063-1064). A second generation writes another `on_across_block_index` and fewer groups of regressors.
* C82: `dtw_cosine` and `dtw_kl_divergence` (example_distances.py 16, 30) call `dtw` without `normalized`, which has no default value (dtw.pyx 26): TypeError for any two items with frames.
* C76: `ABXrun.py` reads `args['configfile']` (148), which is stored as `config` (91); `Task` has no parameter `features` (61-62); `compute_distances` is called without `normalized` (67-68), `analyze` with exchanged arguments (72, see also the documentation of analyze.py 25); `--name` is stored as `name` and read as `filename` (129, 179).

## Properties

(written by `tools/design.py` from `properties.jsonl` and `MANIFEST.json`)

* **C01** Every generated triplet is a legal ABX triplet (proved). every database, level order, group order; arbitrary by/on/across columns Theorems: `C01_legal`.
* **C02** Every legal triplet is generated, exactly once (proved). the list written for a level is a permutation of the duplicate-free list of legal triples; every level appears once Theorems: `C02_exactly_once`, `C02_levels`.
* **C03** Task statistics count the triplets that will be written (proved). per level, per block and in total, for every filter set and threshold None Theorems: `C03_level`, `C03_total`, `C03_block`, `C03_spec`.
* **C04** Early filter application is equivalent to filtering triplets (partial). proved when labels stay positions (filters on bare columns, if any, keep the first items of every level); false in general: C04_violated Theorems: `C04_filters_partial`, `C04_levels`, `C04_violated`.
* **C05** by_index partitions the triplet table (proved). for every threshold and filter set, whenever generate returns Theorems: `C05_partition`.
* **C06** Item indices survive storage in triplets/data (partial). holds when the number of items of each level fits the type chosen from the number of triplets; false in general: C06_violated Theorems: `C06_items_partial`, `C06_violated`.
* **C07** on_across_block_index delimits the regressor groups written (partial). holds without threshold when the type holds the boundaries, up to the trailing zeros; false in general: C07_violated_threshold, C07_violated_type Theorems: `C07_blocks_partial`, `C07_violated_threshold`, `C07_violated_type`.
* **C08** threshold keeps min(count, threshold) distinct triplets of every regressor group (partial). holds for blocks of at most 2^53 combinations whose indices fit the chosen type (e.g. up to 256 triplets); false in general: C08_violated Theorems: `C08_threshold_partial`, `C08_violated`.
* **C09** No threshold means no triplet is lost, added or duplicated by regressor sorting (proved). permutation for every argsort; contiguity of the regressor groups for key products up to 2^53 Theorems: `C09_sort`, `C09_level`.
* **C10** Regressor rows stay aligned with triplet rows (partial). holds without A regressors (default regressors included); false with them: C10_violated Theorems: `C10_aligned_partial`, `C10_violated`, `C10_violated_threshold`.
* **C11** Block-level labels are those of the block (partial). holds when labels are positions in the level (filters on bare columns, if any, keep its first items); false otherwise: C11_violated Theorems: `C11_labels_partial`, `C11_violated`, `C11_violated_error`.
* **C12** unique_pairs holds exactly the AX and BX pairs of the triplets, sorted, without repetition (partial). Proved for files of any origin with in-range items and for every file written by generate, any sorting permutation and any buffer lengths, provided item numbers fit the storage type (C06), at most 3037000499 items per level and 2^52 triplets. Without the first condition the negation is proved (C12_violated). Theorems: `C12_any_file_partial`, `C12_pairs_partial`, `C12_buffers_partial`, `C12_violated`.
* **C13** Pair keys are decodable and never overflow (partial). Proved up to 3037000499 items per level; beyond, the int64 square wraps and the negation is proved (C13_violated). Theorems: `C13_keys_partial`, `C13_violated`.
* **C14** unique_pairs attributes delimit each by level (partial). Proved under the same size conditions as C12. Theorems: `C14_attributes_partial`.
* **C15** Items keep their file/onset/offset (partial). False in general: C15_violated (filters remove the level that would raise; records are shifted) and C15_gap_violated (for every item file with an incomplete line before a complete one, without filters, Task raises IndexError). Proved when the index labels are the positions: C15_features_partial, and from the lines of the item file C15_lines_partial. Theorems: `C15_lines_partial`, `C15_gap_violated`, `C15_features_partial`, `C15_violated`, `C15_violated_error`.
* **C16** score is the sign of the distance comparison, triplet by triplet (partial). Proved for every file of generate and _generate_pairs and any distances, any buffer length, up to 94906265 items per level (and the conditions of C12); beyond, keys are compared in float64 and the negation is proved (C16_violated). Theorems: `C16_scores_partial`, `C16_violated`, `C16_float`.
* **C17** Swapping A and B negates the score; scores are in {-1,0,1} (proved). swap for arbitrary tables; range for every successful run on arbitrary files; ties and NaN over a model of float64. Theorems: `C17_swap`, `C17_range`, `C17_ties`, `C17_numbers`.
* **C18** End-to-end: scores compare the true distances of the triplet's items (partial). from triplets to scores for every returning execution of the distance jobs; excludes the cases where C12, C16 or C24 fail (wrapped item numbers, base of 94906266 or more, levels of more than 12500000 pairs for existence of a returning execution) Theorems: `C18_scores_partial`, `C18_completes_partial`.
* **C19** Label combinations survive the key encoding used by analyze (partial). Keys are exact and injective, and decoding inverts encoding, up to 2^53 combinations of values (C19_keys_partial, C19_roundtrip_partial). False beyond: C19_violated (54 binary regressors). Theorems: `C19_keys_partial`, `C19_roundtrip_partial`, `C19_violated`.
* **C20** analyze writes one row per label combination with the right mean and count (partial). For at most 2^53 combinations: one row per combination, in lexicographic order, with labels, counts and means (C20_rows_partial), counts add up (C20_counts_partial), for whole files (C20_file_partial) and for the files written by the task (C20_task_partial). False beyond: C20_violated_decode, C20_violated_wrap. Theorems: `C20_rows_partial`, `C20_counts_partial`, `C20_file_partial`, `C20_task_partial`, `C20_violated_decode`, `C20_violated_wrap`.
* **C21** analyze scores lie in [0,1] and do not depend on triplet order (partial). Scores are in [0, 1] and within rounding of the exact mean (C21_range); the file does not depend on the order of the triplets, for at most 2^53 combinations (C21_order_partial). Theorems: `C21_range`, `C21_order_partial`.
* **C22** Distance jobs cover every pair exactly once (proved). For distinct levels with attributes, every n_cpu > 0; errors without levels or cpus. Theorems: `C22_tiling`, `C22_errors`.
* **C23** Load balancing bound (proved).  Theorems: `C23_balance`.
* **C24** The distance file does not depend on the schedule (partial). Any two executions that return give the same, right file, whatever the numbers of cpus (full). Completion is proved for levels of at most 12500000 pairs; beyond, the block limit is a float and every job raises TypeError (C24_violated). Theorems: `C24_any_schedule`, `C24_completes_partial`, `C24_returns_partial`, `C24_violated`.
* **C25** The 'done' attribute tells that all distances were computed (partial). done implies all distances written, at any point of any execution; done is set on return with one cpu. False with several cpus: done is never set (C25_violated). A second run unmarks a complete file (C25_rerun). Theorems: `C25_done_partial`, `C25_never`, `C25_violated`, `C25_rerun`.
* **C26** A crash never leaves a wrong distance, only missing (zero) ones (proved). Executions with exceptions and killings anywhere, including partial writes of a block. Theorems: `C26_crash`.
* **C27** Workers exclude each other and do not block forever (partial). Mutual exclusion and termination in full. Progress holds as long as nothing fails between acquire and release; otherwise the lock stays held (no try/finally): C27_violated is a deadlock reached without any killing. Theorems: `C27_exclusion`, `C27_progress_partial`, `C27_termination`, `C27_violated`.
* **C28** DTW is the optimal alignment cost (proved). For every monotone addition: exact numbers (C28_sum: the cost is the sum over the path) and float64 (C28_float). Theorems: `C28_optimal`, `C28_sum`, `C28_junk`, `C28_float`.
* **C29** Normalized DTW divides the optimal cost by the length of an optimal path (proved). The backtracking follows a warping path of the optimal cost. Theorems: `C29_normalized`.
* **C30** DTW is symmetric (partial). Proved without normalization, for every addition. With normalization it is false (C30_violated, 3 and 4 frames: 1/4 and 1/5); proved in the absence of a tie between the left and the upper cell (C30_normalized_partial). Theorems: `C30_symmetric`, `C30_normalized_partial`, `C30_violated`.
* **C31** DTW distance laws and empty representations (partial). Proved: sign, zero diagonal, empty items, monotone without normalization. With normalization the distance is not monotone (C31_violated_normalized). Theorems: `C31_nonneg`, `C31_zero`, `C31_monotone`, `C31_violated_normalized`, `C31_empty`, `C31_float`.
* **C32** Buffered writer: the dataset is the concatenation of what was written (proved). writer refinement: dataset = concatenation of the written rows, for every chunking and buffer length; zero-length buffers characterised Theorems: `C32_session_concat`, `C32_writer_concat`, `C32_zero_buffer_growing`, `C32_zero_buffer_fixed_diverges`, `C32_nbLines_zero`.
* **C33** Fixed-size writer accepts exactly the declared amount (proved). A session of writes on any number of fixed-size datasets succeeds iff for each dataset the amount written is the amount declared (C33_session_iff); an existing dataset is refused. Theorems: `C33_fixed_iff`, `C33_session_iff`, `C33_zero_rows_refused`, `C33_existing_refused`.
* **C34** A failed write session leaves no partial dataset (partial). false of the code: C34_violated gives the failing sessions that leave a partial dataset; C34_partial is what holds Theorems: `C34_violated`, `C34_violated_witness`, `C34_partial`.
* **C35** Buffered reader: reads concatenate to the dataset (proved). reader refinement for every refill policy that refills a consumed buffer Theorems: `C35_reads`, `C35_read_length`, `C35_iterate`, `C35_zero_buffer`, `C35_no_refill_diverges`.
* **C36** External sort yields the sorted permutation (proved). result is the sorted list of keys for every accepted buffer size, every argsort; refused/diverging sizes characterised exactly Theorems: `C36_C37_sorted_permutation`, `C36_sorted`, `C36_refused`, `C36_zero_buffer_diverges`, `C36_buffer_rows`.
* **C37** External sort keeps the rows of companion datasets attached to their keys (proved). one permutation reorders the key and all the companions Theorems: `C36_C37_sorted_permutation`, `C37_rows_attached`.
* **C38** sort_pairs always terminates successfully on a non-empty table (partial). true up to 10^10 rows (2^53 with the default memory); false beyond (C38_violated_large), on an empty table and with memory=0 (never terminates) Theorems: `C38_sort_pairs_terminates_partial`, `C38_violated_large`, `C38_empty_diverges`, `C38_zero_memory_diverges`.
* **C39** Knuth sampling returns n distinct sorted indices below N (proved). termination, exact size, order and range for every stream; every sample reachable; n>N characterised Theorems: `C39_knuth_sample`, `C39_every_sample`, `C39_too_many`, `C40_C39_dispatch`.
* **C40** Rejection sampling returns n distinct sorted indices below N (proved). every returned sample is valid, no overshoot, completion possible iff n<=N, bound on rounds under fairness Theorems: `C40_rejection_sample`, `C40_round`, `C40_completion_possible`, `C40_too_many_diverges`, `C40_rounds`, `C40_C39_dispatch`.
* **C41** hypergeometric_sample returns a feasible count (partial). false for N=1,K=1,n=0 (C41_violated); feasible range proved otherwise; every feasible count is reachable when the acceptance test and the upper bound of line 166 are arbitrary (C41_every_count), with their values in exact numbers some are not (C101) Theorems: `C41_feasible_partial`, `C41_violated`, `C41_every_count`.
* **C42** Incremental sampling draws exactly K of N, once each (partial). true for positive chunk sizes; false for an empty chunk when one item remains (C42_violated_empty_chunk) Theorems: `C42_incremental_partial`, `C42_relative`, `C42_violated_empty_chunk`, `C42_exhausted_raises`, `C42_default_step_zero`.
* **C43** fit_integer_type returns the smallest type that holds n (proved). smallest holding type, lossless cast, raises iff no type fits Theorems: `C43_cast_lossless`, `C43_cast_lossy`, `C43_holds`, `C43_family`, `C43_minimal`, `C43_raises_iff`.
* **C44** Cosine distance laws (proved). Exact real numbers; also the normalization of rows and its failure on rows of sum 0 (AssertionError). Theorems: `C44_cosine`, `C44_scaling`, `C44_zero`, `C44_normalize`, `C44_normalize_null`.
* **C45** KL / JS / Hellinger laws (proved). Exact real numbers. C45_js_null_entry: js_divergence is not a number when an entry is 0 (outside the hypothesis of the property). Theorems: `C45_kl`, `C45_js`, `C45_js_null_entry`, `C45_hellinger`.
* **C46** In-place normalisation does not make distances history-dependent (partial). Proved in exact real numbers (C46_history_partial) and when the arrays are not normalized in place (C46_fresh). False in float64: normalizing twice changes the row (1,4,1) (C46_violated_float). Theorems: `C46_history_partial`, `C46_fresh`, `C46_violated_float`.
* **C47** Uniform time warping weights every frame of the longer item once (proved). Exact arithmetic: the weighted sum of the specification. float64 (lengths below 2^49): no invalid index, weights of total 1, the weights of the specification except possibly on borders (C47_float); C47_tie_lost shows that a border can be missed. The sums of the distances of frames are exact. Theorems: `C47_utw`, `C47_weights`, `C47_framewise`, `C47_symmetric`, `C47_float`, `C47_tie_lost`, `C47_empty`.
* **C48** Lookup-table keys are injective and lookups return the stored row (partial). Tables: proved (C48_keys_injective, C48_lookup, C48_lookup_unique). Fused H5IO datasets: proved when there are at most 2^64 combinations (C48_fused_injective); false beyond, where the overflow test never fires (C48_fused_violated). C48_create_fails: no table can be created by this version, line 97 raises TypeError. Theorems: `C48_fused_injective`, `C48_fused_violated`, `C48_lookup`, `C48_lookup_unique`, `C48_keys_injective`, `C48_create_fails`, `C48_fill_once`.
* **C49** Querying a lookup table for an absent key reports missing data (partial). False: a query after the last stored row raises IndexError (C49_violated). C49_absent_partial gives the exception in every case; C49_not_in_index, C49_no_rows and C49_not_packed the other refusals. Theorems: `C49_absent_partial`, `C49_not_in_index`, `C49_short`, `C49_no_rows`, `C49_not_packed`, `C49_refilled`, `C49_example`, `C49_violated`.
* **C50** Indexed column regressors decode to the label (proved). For every sort of the level set (any permutation); values are ints or strings. Theorems: `C50_decode`, `C50_injective`, `C50_absent`.
* **C51** Side operations are classified at exactly one stage where their inputs are available (partial). Exactly-one-stage and the acceptance conditions are proved; availability holds except for _AB on a column not determined by on/across/by and for generic filters that also read a by column (both accepted, then NameError: C51_violated_*). The _AX check is inverted. Theorems: `C51_one_stage`, `C51_accepted_iff`, `C51_available_partial`, `C51_values_partial`, `C51_violated_AB`, `C51_violated_generic_by`, `C51_AX_inverted`.
* **C52** Lazy vectorial filtering equals conjunction (proved). Pointwise scripts. Theorems: `C52_conjunction`, `C52_order_independent`.
* **C53** A column name used as filter keeps the items whose column value is true (partial). The code violates it (C53_violated): the first element is kept once per true value. C53_column_partial gives the exact behaviour and when it is right. Theorems: `C53_column_partial`, `C53_violated`, `C53_violated_block`.
* **C54** Item file header is accepted iff well formed, and columns are split correctly (partial). database.load is modelled from the split lines of the item file: acceptance and refusal are exact, and for accepted files with distinct column names the tables contain exactly the complete lines, in order, aligned with their file/onset/offset record. The full claim is false when a label column repeats the name of a location column (C54_violated). Missing: pandas parsing of the text itself. Theorems: `C54_accepts`, `C54_refused`, `C54_tables_partial`, `C54_aligned_partial`, `C54_violated`.
* **C55** Auxiliary label files extend the database (partial). The claim is false of the code: any auxiliary file makes load raise (C55_violated). C55_flat_partial covers the case without auxiliary files, where the hierarchy is flat and holds exactly the label columns. Theorems: `C55_violated`, `C55_flat_partial`.
* **C56** Tree traversals visit every node once (proved). Traversals, count, findChild, addChildrenFromList and constructFromList for all trees and all nested lists. Parent links are not part of this model. Theorems: `C56_preOrder`, `C56_postOrder`, `C56_count`, `C56_find`, `C56_find_none`, `C56_accepts`, `C56_build`, `C56_construct`, `C56_determined`.
* **C57** Batch conversion writes every file once, in order (partial). For every list of readable files and every batch size >= 1 the batches are exact (C57_batches), with the state after an unreadable file (C57_failed), name collisions (C57_names) and batch sizes <= 0 (C57_nonpositive). The claim is false for files that follow the documentation of the module: 'times' is documented, 'time' is read, KeyError (C57_documented_violated). Theorems: `C57_batches`, `C57_record`, `C57_failed`, `C57_nonpositive`, `C57_splitext`, `C57_names`, `C57_documented_violated`, `C57_path`.
* **C58** Feature extraction selects exactly the frames of the item (proved). Frames returned are those with times in the closed interval; an item missing from all files is a KeyError; several feature files are accepted exactly when no recording is in two of them (AssertionError otherwise), and then each recording has the features of its file. Theorems: `C58_frames`, `C58_missing`, `C58_files`.
* **C59** verify.check accepts exactly the consistent item files (partial). C59_accepts is the exact acceptance condition of the code. The claim is false (C59_violated: tab separated lines, empty lines, location columns before the labels are refused; a third '#' is accepted). C59_sound_partial: accepted files name only known files; C59_iff_partial: equivalence for blank separated lines and a label in the fourth column. Theorems: `C59_lines`, `C59_accepts`, `C59_sound_partial`, `C59_iff_partial`, `C59_violated`.
* **C60** Synthetic item generator is a full factorial design (proved). Every label combination on exactly repeats+1 lines (plain and named); the generated files allow the creation of a task for every choice of label columns and pass verify.check with the generated feature names. Theorems: `C60_text`, `C60_factorial`, `C60_factorial_named`, `C60_task`, `C60_consistent`.
* **C61** A task is created exactly when its columns, side operations and levels allow it (proved). Exact conditions for the success of Task.__init__ up to the statistics (C61_created_iff), the possible errors (C61_errors), and the same for a task created from an item file (C61_file_created_iff, C61_file_columns). Theorems: `C61_file_columns`, `C61_file_created_iff`, `C61_created_iff`, `C61_errors`.
* **C62** csv_cmp tells whether two result files have the same lines (partial). Violated: line 115 compares the values of two list.sort() calls (None == None), so the comparison is True for every pair of files; negation proved. Theorems: `C62_violated`.
* **C63** The number of levels in the statistics is the number of label combinations (partial). Proved for one across column when filters on bare columns, if any, remove the last items of the levels (C63_single_partial) and, in terms of items A instead of labels, without across column (C63_none_partial); with any number of across columns C63_several_partial says what is counted (X differs from A in some of them); C63_reported says when a number is reported. False without across column (items A counted separately), with two across columns (combinations counted that no triplet has) and after a filter that removes items (labels used as positions): C63_violated_none, C63_violated_across, C63_violated_filter. Theorems: `C63_single_partial`, `C63_none_partial`, `C63_several_partial`, `C63_reported`, `C63_violated_none`, `C63_violated_across`, `C63_violated_filter`.
* **C64** Knuth_sampling is uniform (proved). Counting all streams of N numbers below 2^53. The comparison (N - t) * u < n - m is exact here; C90 is the same with the product rounded to float64. Theorems: `C64_knuth_uniform`, `C64_knuth_ratio`.
* **C65** rejection_sampling is uniform and returns with probability one (proved). Counting all tables of draws with R rows: C65_rejection_uniform (bijection by renaming the indices), C65_rejection_total (the samples share all the tables that return), C65_rejection_returns (bound on the others). Theorems: `C65_rejection_uniform`, `C65_rejection_returns`, `C65_rejection_total`.
* **C66** A table written with H5IO holds the rows that were given (partial). The round trip is proved for all declarations and calls that meet the conditions of Spec.Ready. It is false of the code otherwise: a dataset that is not fused and whose index has another name (for instance shared) can never be written (C66_shared_index), raw datasets of two groups collide at the root of the file (C66_two_groups), a first call without rows raises (C66_empty_first), positions out of range are stored modulo 256 (C66_out_of_range), columns that change between calls mix datasets (C66_columns), surplus elements of a list are lost (C66_list). Theorems: `C66_stored_partial`, `C66_decode`, `C66_shared_index`, `C66_two_groups`, `C66_empty_first`, `C66_list`, `C66_iterate_first`, `C66_iterate`, `C66_out_of_range`, `C66_columns`, `C66_raw`.
* **C67** What H5IO accepts when it creates a table, what it makes, and what it finds when it opens one (partial). Proved: exactly which declarations are accepted (C67_accepts) and what is made (C67_made). Violated: creation in an existing file is not refused (C67_existing_file), creation of an existing group raises but marks its table as empty (C67_flags_reset), a written table with fused datasets cannot be opened again (C67_reopen), and nothing can be added to a table that is opened again (C67_no_append). Theorems: `C67_accepts`, `C67_made`, `C67_existing_file`, `C67_flags_reset`, `C67_reopen`, `C67_no_append`.
* **C68** Editing a tree keeps the links of children and parents together (partial). Proved: addChild keeps a forest exactly when the object has no parent and is not at or above its new parent; remove, clear, replace, inject, reparent and nested lists do what is documented under that condition, and so does any sequence. The code does not check the condition: an object with a parent ends up in two child lists (Ex.two_parents), a root below itself makes getDepth run forever (Ex.cycle), injecting a child makes it its own child (Ex.inject_child). Theorems: `C68_addChild`, `C68_remove`, `C68_remove_root`, `C68_add_remove`, `C68_clear`, `C68_replace`, `C68_replace_nil`, `C68_inject`, `C68_reparent`, `C68_reparent_root`, `C68_edits_partial`, `C68_list`, `C68_list_error`.
* **C69** Navigation in a tree: paths, order, nearest values (proved). For every forest, with any bound on the number of steps that is large enough. isDescendantOf is what its documentation says, which is the opposite of its name (C69_isDescendantOf_child). On a cycle of parents the paths do not end (C69_cycle). Not covered: dump, which fails in python 3. Theorems: `C69_ends`, `C69_path`, `C69_root`, `C69_depth`, `C69_isDescendantOf`, `C69_isDescendantOf_child`, `C69_isSiblingOf`, `C69_preOrder`, `C69_forwards`, `C69_backwards`, `C69_next_previous`, `C69_next_exists`, `C69_findParent`, `C69_findAttr`, `C69_treeProp`, `C69_treeProp_set`, `C69_attrsToRoot`, `C69_cycle`.
* **C70** Command lines touch only their output, and do not lose it (partial). Only the output is changed, exactly characterised when there is an output at the end (C70_*_frame, C70_*_lost, C70_*_written). Not lost is false: all four programs remove the old output before the checks (C70_task_not_safe, C70_distance_not_safe, C70_score_not_safe, C70_analyze_not_safe); an output with the name of an input destroys the input. The optional argument of score.py is not optional (C70_score_optional). The computations are parameters; links between files and concurrent programs are not represented. Theorems: `C70_task_frame`, `C70_task_lost`, `C70_task_written`, `C70_task_default`, `C70_task_not_safe`, `C70_score`, `C70_score_optional`, `C70_score_lost`, `C70_score_written`, `C70_score_not_safe`, `C70_analyze_missing`, `C70_analyze_frame`, `C70_analyze_written`, `C70_analyze_not_safe`, `C70_analyze_input_lost`, `C70_distance_frame`, `C70_distance_lost`, `C70_distance_written`, `C70_distance_not_safe`.
* **C71** The distance that is computed is the one that was asked for (partial). Proved for all functions, pairs and values of -n. False where a name has more than one dot or a dot in its path (C71_third, C71_dot_path), and for the edit distance of an empty item and another, which is infinite (C71_edit); -n with the edit distance, and no -n with the default, fail (C71_mismatch). The evaluation by the editdistance package is a parameter that is assumed to compute the Levenshtein distance. Theorems: `C71_pairs`, `C71_mismatch`, `C71_default`, `C71_names`, `C71_split`, `C71_user`, `C71_user_here`, `C71_third`, `C71_dot_path`, `C71_edit`, `C71_edit_symm`.
* **C72** The default distance of two items is the least warped sum of angles (proved). For exact real numbers. Symmetry is claimed without normalization only, because with it dynamic time warping is not symmetric (C30_violated). Rounding of the metric is not represented; distances of frames that are not numbers are not followed. Theorems: `C72_value`, `C72_normalized`, `C72_bounds`, `C72_zero`, `C72_same`, `C72_empty`, `C72_symmetric`, `C72_scaling`, `C72_kl`, `C72_kl_symmetric`.
* **C73** A script of a filter or regressor computes what it says, from its columns only (partial). Acceptance, inputs, dependence on the inputs only and independence of the other scripts are proved. The value is that of python if imports come first and nested scopes use none of the names of the script's surroundings (C73_value_partial); false otherwise: nested scopes do not see columns (C73_hidden, C73_not_value), imports are executed first (C73_not_in_order). Narrowing is proved for [body for x in column] (C73_pointwise) and false in general (C73_not_pointwise). An input need not matter (C73_not_minimal). Reading of python text, other statements and changes of values in place are not represented. Theorems: `C73_accepts`, `C73_rejects`, `C73_inputs`, `C73_depends`, `C73_value_partial`, `C73_hidden_expr`, `C73_hidden`, `C73_alone`, `C73_source`, `C73_pointwise`, `C73_not_value`, `C73_not_in_order`, `C73_not_minimal`, `C73_not_pointwise`.
* **C74** Each by level has a name and a place of its own in the files (partial). Names of levels of several columns are injective for all values, those of one column for values of one kind (C74_distinct_partial); false for an integer and the string of its digits (C74_not_distinct). Places are separate without slashes (C74_place_partial, C74_separate_partial), false with them (C74_not_separate): HDF5 nests groups, and skips empty pieces and dots. Theorems: `C74_distinct_partial`, `C74_not_distinct`, `C74_place_partial`, `C74_separate_partial`, `C74_not_separate`.
* **C75** The results file of analyze can be read back (partial). Reading is unique (C75_unique); the text reads back as the results for labels without tabs and ends of line (C75_reads_partial; levels of several columns need no condition), all lines have the same number of cells (C75_width), the cells determine the row (C75_cells); false with a tab (C75_not_reads). The header is found without slashes in levels (C75_header_partial), analyze fails with them (C75_not_header). The text of a float is a parameter. Theorems: `C75_unique`, `C75_reads_partial`, `C75_width`, `C75_cells`, `C75_header_partial`, `C75_not_reads`, `C75_not_header`.
* **C76** ABXrun runs the complete pipeline (partial). False: the program raises an exception whatever its arguments (C76_never), and so does the function that it would call (C76_never_direct); the calls that do not fit are listed in C76_other_calls. What is proved in addition is that no file is changed. Theorems: `C76_bind`, `C76_never`, `C76_never_direct`, `C76_other_calls`, `C76_positional`, `C76_arg`.
* **C77** The results file gives the ABX scores of the task (partial). The chain of all five stages, and that a run ends when the features and distances can be computed and no level has more than 12500000 pairs. Excluded, as in C10, C12, C16, C19, C20: filters without suffix that remove other items than the last ones of a level, some regressors of A, more than 2^53 combinations of regressors, more than 94906265 items in a level, and a threshold. Theorems: `C77_completes_partial`, `C77_results_partial`, `C77_deterministic_partial`.
* **C78** When a task file is written (partial). All outcomes of the generation without threshold (with a threshold: C85). Missing: filters without suffix that remove other items than the last ones of a level, for which positions and labels are confused (C04, C11). Theorems: `C78_outcome_partial`.
* **C79** The results with a threshold have the same rows, with at most threshold triplets each (partial). Proved for tasks with an across column. Without one it is false (C79_violated): the triplets are then sampled for each item A but the rows of the results are for all items of a label, so a row can have more than threshold triplets; how many is C94. Missing also: regressors of A, and the cases excluded in C08 and C77. Theorems: `C79_completes_partial`, `C79_results_partial`, `C79_rows_partial`, `C79_unchanged_partial`, `C79_violated`.
* **C80** The statistics and the summary of a task hold the right numbers (partial). The numbers of items, labels, pairs (A, B) and triplets are proved for all tasks whose filters on bare columns, if any, remove the last items of the levels. The number of pairs (A, X) is proved with at most one across column; with several it is false (C80_violated): pairs that differ in some of the across columns only are counted (C80_on_pairs_some says what is counted). The text is proved for any number of across columns (C80_text); with several its nb_on_pairs and nb_levels count X that differ from A in some across column. What pprint writes is a parameter. Theorems: `C80_counts`, `C80_across_pairs`, `C80_on_pairs_some`, `C80_on_pairs_partial`, `C80_pairs`, `C80_exact`, `C80_approximate`, `C80_upper`, `C80_flag`, `C80_text`, `C80_violated`.
* **C81** What a method of a task does does not depend on the methods called before (partial). Proved for the triplets, the levels, their index and the regressors of the levels with triplets (C81_generate_partial) and for the lines about the levels (C81_print_partial, which also says exactly when KeyError is raised). False of the rest: a second generation leaves the deleted levels out of on_across_block_index and of the groups of regressors (C81_violated_file), and print_stats after generate_triplets raises KeyError when a level without triplets was deleted and nothing was printed before (C81_violated_print). Theorems: `C81_generate_partial`, `C81_print_partial`, `C81_runs`, `C81_raises`, `C81_violated_print`, `C81_violated_file`.
* **C82** Every distance that is offered gives a value for every pair of items (partial). False of the examples: they call dtw without its argument normalized, so any two items with frames raise TypeError, with or without -n (C82_violated); C82_blocks says exactly which blocks of pairs they can measure, C82_empty_partial that they agree with the distances of distance.py there. The default distance measures all pairs with -n, and none without (C82_default). Theorems: `C82_violated`, `C82_empty_partial`, `C82_blocks`, `C82_default`, `C82_kl`, `C82_dtw`.
* **C83** The results of a plain experiment are the mean ABX scores of the combinations of labels (partial). C83_results_partial gives the rows, C83_counts the numbers of triplets; missing are the sizes excluded in C10, C16, C19 and C20 (more than 94906265 items in a level, 2^52 triplets, 2^53 combinations of labels, tables where a level has more than 128 items and more items than the task has triplets). Theorems: `C83_results_partial`, `C83_counts`.
* **C84** The results of an experiment follow from the lines of its item file (partial). C84_lines_partial; the columns and the absence of gaps follow from the creation of the task. Missing: the sizes excluded in C83; C84_ends_partial shows that they hold and that the experiment can be run for files of at most 3535 lines with enough triplets (or at most 128 lines). Theorems: `C84_lines_partial`, `C84_ends_partial`.
* **C85** When a task file is written with a threshold (partial). Proved for regressors that do not read A, or tasks with a filter that reads two of A, B and X. For a regressor of A alone without such a filter it is false (C85_violated): its column is not sampled, and as soon as a group exceeds the threshold the columns have different lengths and ValueError is raised. Missing: filters without suffix that remove other items than the last ones of a level. Theorems: `C85_outcome_partial`, `C85_file_partial`, `C85_violated`.
* **C86** The progress display shows what is done (partial). The display and the counts of a first generation are proved. False of a second generation of the same task object (C86_violated: the number of blocks is not changed when levels without triplets are deleted) and of terminals (C86_escape: the text written is not the control sequence that moves the cursor up). Missing: filters without suffix that remove other items than the last ones of a level. Theorems: `C86_display`, `C86_escape`, `C86_generate`, `C86_violated`, `C86_construct`, `C86_nb_levels`.
* **C87** A script can call functions of auxiliary files (partial). False: every visit raises an exception, also that of the documented calls (C87_violated, C87_documented), because generic_visit looks for a method above NodeVisitor, where there is none. C87_error says which exception; calls with keywords are refused as described. The only use of the class lacks an argument (C87_connect). Theorems: `C87_violated`, `C87_error`, `C87_error_py2`, `C87_documented`, `C87_connect`.
* **C88** A filter on a bare column restricts the task to the items it keeps (partial). proved as what the code does: exact condition for the creation of the task (C88_created, C88_none), exact labels of a block (C88_labels), triplets right if no filter reads the labels of the block (C88_triplets). The claim itself is false: C88_wrong_labels, C04_violated, C11_violated Theorems: `C88_created`, `C88_none`, `C88_labels`, `C88_triplets`, `C88_wrong_labels`.
* **C89** The labels of the triplets that the analysis reads from the task file are those of their columns (partial). proved for regressors on columns (C89_file_partial, under the conditions of C10 on filters on bare columns and regressors of A); labels that are not ASCII always fail (C89_ascii); false for scripts when two levels have blocks (C89_scripts) Theorems: `C89_file_partial`, `C89_ascii`, `C89_scripts`, `C89_numbers`.
* **C90** The float64 comparisons of the sampler change at most one random number per decision (partial). true as stated except that empty chunks of the incremental sampler are excluded, as in C42 (C42_violated_empty_chunk); products of numpy integers are assumed not to wrap around Theorems: `C90_decision`, `C90_simulates`, `C90_knuth`, `C90_uniform`, `C90_every_sample`, `C90_choice`, `C90_dispatch`, `C90_dispatch_sample`, `C90_incremental_partial`.
* **C91** The text of the results, as it is made from the task file and the score file (partial). 'by' labels have no slash and are of one kind (C74), names and labels are ASCII without tabs and ends of line (C75, C89), regressors are columns (C89), fewer than 2500 regressors, sizes as in C77; with a threshold as in C79 Theorems: `C91_results_partial`, `C91_sample_partial`, `C91_lines_partial`.
* **C92** The complete run of the example program (partial). The chain of all stages for the generated files and features, with exact real distances: a run exists, and every run gives the whole table. Missing: more than 3535 lines, and more than 128 lines with fewer triplets in a group than lines; float64 arithmetic of the distances. Theorems: `C92_complete_partial`, `C92_item`, `C92_frame`, `C92_distance`, `C92_run_partial`, `C92_text_partial`.
* **C93** Results with a threshold, from the lines of the item file (partial). C93_lines_partial, C93_ends_partial and C93_generated_partial are for tasks with across columns (C94 is for those without) and blocks of at most 256 triplets (C08: the type of the keys of larger blocks can be too small); sizes as in C83; that samplings end is a hypothesis (C24). Theorems: `C93_lines_partial`, `C93_ends_partial`, `C93_generated_partial`.
* **C94** Results with a threshold and without across columns (partial). C94_sample_partial is for all tasks without across columns whose groups fit (C79); C94_lines_partial, C94_ends_partial and C94_generated_partial are for plain tasks with at most 256 triplets for each line A (C08: the type of the keys of larger blocks can be too small); sizes as in C83; that samplings end is a hypothesis (C24). Theorems: `C94_sample_partial`, `C94_lines_partial`, `C94_ends_partial`, `C94_generated_partial`.
* **C95** No combination of labels is lost by the threshold (partial). C95_rows, C95_lines and C95_ends hold for blocks of any size and say how many rows are left; C95_violated is the negation for generated files, with a run that exists; C95_all_partial is the claim for blocks that fit (see also C91, C93). Theorems: `C95_rows`, `C95_all_partial`, `C95_lines`, `C95_ends`, `C95_violated`.
* **C96** Task files with a threshold are written in the end (partial). The claim is false: C96_sample (one sampling), C96_never (any task), C96_lines and C96_generated are its negation; the positive part is C85_file_partial and C79_completes_partial, where the samplings end. Theorems: `C96_sample`, `C96_never`, `C96_lines`, `C96_generated`.
* **C97** The text of an item file gives the labels that are written in it (partial). C97_words, C97_item_file, C97_digits, C97_loaded, C97_longer, C97_refused, C97_render, C97_values, C97_generated and C97_number hold of all texts as stated; C97_plain_partial is the claim for columns with a plain word; C97_violated_missing and C97_violated_numbers are its negation. pandas.read_csv is modelled from its documented behaviour (python engine), not from its source; the values of numbers that are not digits are a parameter. C97_every_text: the texts are all those whose white space is blanks, tabulations and ends of line. C97_created_iff, C97_results_partial and C97_ends_partial go from the words of the text to the creation of the task and to the results (label columns with only digits or only plain words). C97_repeated, C97_booleans, C97_unreadable: repeated names, columns of booleans, files that are absent or empty. Theorems: `C97_every_text`, `C97_render`, `C97_values`, `C97_generated`, `C97_number`, `C97_words`, `C97_item_file`, `C97_plain_partial`, `C97_digits`, `C97_loaded`, `C97_violated_missing`, `C97_violated_numbers`, `C97_longer`, `C97_refused`, `C97_repeated`, `C97_booleans`, `C97_unreadable`, `C97_extension`, `C97_created_iff`, `C97_results_partial`, `C97_ends_partial`.
* **C98** The lines removed from an item file are listed (partial). C98_csv (round trip) and C98_partition hold of all files; C98_listed_partial is for different names of columns (see C54_violated); C98_violated_empty and C98_violated_reload are the negation for lines without values and for loading the file again. Theorems: `C98_csv`, `C98_listed_partial`, `C98_partition`, `C98_violated_empty`, `C98_violated_reload`.
* **C99** The words of a command line give the programs the arguments that are written (proved). argparse as in python 3.11; the texts that int accepts are a parameter; clusters of flags of one letter (-vh) are in the model but not in the statement Theorems: `C99_before`, `C99_dashes`, `C99_between`, `C99_late`, `C99_few`, `C99_swallowed`, `C99_swallowed_output`, `C99_unknown`, `C99_ambiguous`, `C99_task`, `C99_distance`, `C99_files`, `C99_run`, `C99_all_used`, `C99_nothing_else`, `C99_many`, `C99_many_dashes`, `C99_few_dashes`.
* **C100** The results depend only on the labels of the lines and on the comparisons of distances (partial). C100_levels_partial, C100_order_partial: experiments without filters, regressors and thresholds, run to the end, with sizes for which the types of the pairs file hold (as in C83) and at least one complete line; for the order of the lines the features must not depend on the number of a line. C100_texts_partial: from the texts, under the conditions of C97_results_partial. Theorems: `C100_levels_partial`, `C100_order_partial`, `C100_texts_partial`.
* **C101** hypergeometric_sample draws from the hypergeometric distribution (partial). exact reals instead of float64; a draw of U = 0 has probability zero and is not followed; that the hat of the method covers the distribution is a hypothesis (Covered), proved of K = 1 (C101_one) and of the example only; false when the upper bound of line 166 is below the largest count: such counts are never returned (C101_violated: N=400, K=n=20), the others then have proportionally larger probabilities (C101_distribution_partial) Theorems: `C101_mode`, `C101_moments`, `C101_decision`, `C101_distribution_partial`, `C101_exact_partial`, `C101_truncated`, `C101_one`, `C101_violated`.
* **C102** The incremental sampler draws every set of K of N items with the same probability (partial). exact reals in the acceptance test of hypergeometric_sample and exact comparisons elsewhere; the loops are followed for R rounds, R large; factors near 1 because np.random.rand gives one of 2^53 numbers; needs that the hat of C101 covers the distribution and that the upper bound of line 166 is large enough (Good), proved of K = 1 (C102_one) and of N <= 5 (C102_small); false otherwise (C102_violated: N=400, K=20, sizes 20 and 380) Theorems: `C102_uniform_partial`, `C102_exact_partial`, `C102_chance_partial`, `C102_one`, `C102_small`, `C102_violated`.
* **C103** A threshold keeps each choice of triplets of the groups of a block with the same probability (partial). of blocks whose number of triplets is held by the type fitted to the number of combinations of regressors (all blocks of at most 255 triplets) and at most 2^53 combinations; rejection_sampling is followed for R rounds, R large; factors near 1 because np.random.rand gives one of 2^53 numbers; false of larger blocks (C103_violated: 257 triplets with a regressor and two with another one, the choices of the second group have the probability 0) Theorems: `C103_uniform_partial`, `C103_exact_partial`, `C103_chance_partial`, `C103_violated`.
* **C104** The score of the triplets kept by a threshold is an unbiased and precise estimate (partial). same conditions as C103: blocks whose number of triplets is held by the type fitted to the number of combinations of regressors (all blocks of at most 255 triplets), rejection_sampling followed for R rounds with R large (C104_written_partial bounds the probability that this is enough), factors near 1 because np.random.rand gives one of 2^53 numbers; exact arithmetic for the means; false of larger blocks (C104_violated: the triplets of a group are never kept) Theorems: `C104_unbiased_partial`, `C104_precision_partial`, `C104_inclusion_partial`, `C104_written_partial`, `C104_chance_partial`, `C104_violated`.
* **C105** Distances without information score 1/2 (partial). plain experiments (no filters, regressors, thresholds) run to the end with sizes as in C83 and at least one complete line, as in C100; the random distances have finitely many outcomes Theorems: `C105_constant_partial`, `C105_reversed_partial`, `C105_chance_partial`, `C105_shuffled_partial`, `C105_dealt_partial`.
* **C106** Results with a threshold are unbiased and precise estimates of the results without (partial). tasks with an across column and without regressors of A, sizes as in C08 and C77, blocks whose number of triplets fits the type chosen for the index (larger blocks are sampled wrongly, C104_violated); FairDraw is proved for independent uniform 53-bit numbers and at most 255 triplets in a block (C106_chance_partial), for enough random numbers (the code draws without bound, the estimate is 0 if they are used up) Theorems: `C106_unbiased_partial`, `C106_chance_partial`.
* **C107** Distances without information score 1/2 in every task (partial). tasks without regressors of A, sizes as in C08 and C77, regressors with at most 2^53 combinations, and with a threshold the blocks as in C79; the random numbers of the sampler are the same in all outcomes; runs that end Theorems: `C107_chance_partial`, `C107_reversed_partial`, `C107_shuffled_partial`.
* **C108** What a score says of its triplets, exactly (partial). The statements on rounding (C108_monotone, C108_strict) are proved in full, and the bounds on sizes are needed (C108_not_strict, C108_violated_large). The statements on results are for tasks without regressors of A, sizes as in C08 and C77, regressors with at most 2^53 combinations, and with a threshold the blocks as in C79 and the same random numbers of the sampler in the runs compared. Theorems: `C108_monotone`, `C108_strict`, `C108_not_strict`, `C108_violated_large`, `C108_says_partial`, `C108_extremes_partial`, `C108_better_partial`, `C108_same_partial`, `C108_increasing_partial`.
* **C109** Runs that have the random numbers and the comparisons in common write the same files (partial). C109_file (buffers) and C109_names (at most one across column) are proved in full; C109_violated shows that with two across columns the same seed can keep other triplets in another process. The statements on scores and results are for sizes as in C12, C16 and C77, and the results for tasks without regressors of A and filters as in C77. Without threshold, C109_processes_partial shows that the results do not depend on the process: the same rows, with the labels of the columns of regressors in another order at most. Theorems: `C109_violated`, `C109_names`, `C109_file`, `C109_scores_partial`, `C109_results_partial`, `C109_processes_partial`.
* **C110** The triplets of a task file as lines of the item table, and relations between tasks (partial). Exact for files written without threshold; with a threshold every row is one of these triplets, and none appears twice if the groups fit (C08). Missing: filters without suffix that do not keep the first items of the levels (false there, C04, C88), numbers of items that the type of triplets/data does not hold (false there, C06). For additional 'by' and 'across' columns the filters must mean the same in both tasks. Theorems: `C110_lines_partial`, `C110_threshold_partial`, `C110_filters_partial`, `C110_by_partial`, `C110_across_partial`, `C110_selection_partial`.
* **C111** The score of a triplet depends only on its three lines (partial). C111_scores_partial holds for any threshold and any filters, C111_selection_partial for any two tasks; missing are the sizes excluded in C12 and C16 (numbers of items that the type of triplets/data does not hold, more than 94906265 items in a level, more than 2^52 triplets). C111_filters_partial and C111_by_partial are without threshold, as C110. Theorems: `C111_scores_partial`, `C111_selection_partial`, `C111_same_partial`, `C111_filters_partial`, `C111_by_partial`.
* **C112** The rows of the results, weighted by their numbers of triplets, give the mean score of all triplets (partial). C112_sums_partial is for any threshold; missing are the cases excluded in C77 (some regressors of A, filters without suffix that remove other items than the last ones of a level, more than 2^53 combinations of regressors, sizes). C112_scores_partial and C112_regressors_partial are without threshold. Theorems: `C112_sums_partial`, `C112_scores_partial`, `C112_regressors_partial`.
* **C113** Features that tell the 'on' labels apart score 1, features that tell only the 'across' and 'by' labels score 1/2 (partial). Missing are the cases excluded in C77: some regressors of A, filters without suffix that remove other items than the last ones of a level, more than 2^53 combinations of regressors, sizes. Theorems: `C113_rows_partial`, `C113_separates_partial`, `C113_blind_partial`.
* **C114** The rows of the results in terms of the lines of the item table; the order of the lines does not matter (partial). Without threshold, and C114_threshold_partial with one. Missing are the cases excluded in C77 (some regressors of A, filters without suffix that remove other items than the last ones of a level, more than 2^53 combinations of regressors, sizes); C114_order_partial and C114_columns_partial are for regressors that are columns, as the default ones; the second has the columns of the results in any order (the order of several across columns depends on the process, C109). Theorems: `C114_rows_partial`, `C114_threshold_partial`, `C114_order_partial`, `C114_columns_partial`.
* **C115** The rows of a level depend only on the lines of the level (partial). Without threshold, for regressors that are columns, in any order (C115_columns_partial). Missing are the cases excluded in C77. Both runs are supposed to finish: an error in another level stops the whole run. Theorems: `C115_columns_partial`, `C115_levels_partial`.
* **C116** The names of the labels and the scale of the distances do not matter in any task (partial). Without threshold, for regressors that are columns, in any order (C116_columns_partial). Missing are the cases excluded in C77. Theorems: `C116_columns_partial`, `C116_rename_partial`.
* **C117** What further filters do to the results (partial). Without threshold, for regressors that are columns, in any order (C117_fewer_columns_partial, C117_labels_columns_partial). Missing are the cases excluded in C77, among them filters without suffix that remove other items than the last ones of a level (C88). Theorems: `C117_fewer_columns_partial`, `C117_labels_columns_partial`, `C117_fewer_partial`, `C117_labels_partial`.
* **C118** Further regressors split the rows of the results (partial). Without threshold, for regressors that are columns. Missing are the cases excluded in C114_order_partial. Theorems: `C118_split_partial`.
* **C119** The columns of 'by' as filters and regressors (partial). Without threshold, for regressors that are columns. Missing are the cases excluded in C114_order_partial. Theorems: `C119_by_partial`.
* **C120** Better distances have better scores (partial). Without threshold, for regressors that are columns, in any order (C120_columns_partial). Missing are the cases excluded in C77. Theorems: `C120_better_partial`, `C120_columns_partial`.
* **C121** The columns of 'across' as filters and regressors (partial). Without threshold, for regressors that are columns. Missing are the cases excluded in C114_order_partial. Theorems: `C121_across_partial`.
* **C122** Similarities instead of distances (partial). Without threshold, for regressors that are columns, in any order. Missing are the cases excluded in C77. Theorems: `C122_reversed_partial`.
