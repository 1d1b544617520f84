{"id": "C01", "title": "Every generated triplet is a legal ABX triplet", "statement": "For a Task without filters, every triplet (A,B,X) that generate_triplets writes for a 'by' level satisfies: A, B, X are items of that level; A and X have equal 'on'; A and B have equal values in every 'across' column (if any across column is given) and different 'on'; X differs from A in every across column (or is a different item from A when no across is given).", "quantifier": "every item table, every choice of on/across/by columns, every iteration order of python sets and pandas groups", "why_tests_cant": "tests check two tiny factorial tables; the set differences used to build B and X must be right for every table, including repeated items and missing cells", "anchors": ["ABXpy/task.py:Task.on_across_triplets", "ABXpy/task.py:Task._init_prepare_database", "ABXpy/task.py:on_across_from_key"]}
{"id": "C02", "title": "Every legal triplet is generated, exactly once", "statement": "For a Task without filters and without threshold, each triple of items satisfying the ABX constraints of C01 occurs exactly once among the triplets written for its 'by' level.", "quantifier": "every item table, every on/across/by, every iteration order", "why_tests_cant": "completeness and multiplicity over all tables cannot be sampled; the mod/floor-divide factorial indexing must enumerate every (A,B,X) combination once for all sizes", "anchors": ["ABXpy/task.py:Task.on_across_triplets", "ABXpy/task.py:Task.generate_triplets"]}
{"id": "C03", "title": "Task statistics count the triplets that will be written", "statement": "stats['nb_triplets'] (and each by_stats[by]['nb_triplets'], block_sizes) equals the number of triplets generate_triplets writes when no threshold is given, with or without filters.", "quantifier": "every item table, every task, every filter set", "why_tests_cant": "the closed-form n_A*n_B*n_X is a different computation from the generator; agreement must hold for every table", "anchors": ["ABXpy/task.py:Task.compute_statistics", "ABXpy/task.py:Task.on_across_triplets"]}
{"id": "C04", "title": "Early filter application is equivalent to filtering triplets", "statement": "Applying the filters at the by / generic / on-across-by / A / B / X / ABX point chosen by the library yields exactly the unfiltered legal triplets on which every filter holds.", "quantifier": "every item table, every list of pointwise filters, every task", "why_tests_cant": "equivalence of the optimised staged evaluation with the definition must hold for all tables and all filters; sample filters only hit one stage each", "anchors": ["ABXpy/sideop/filter_manager.py:FilterManager", "ABXpy/sideop/side_operations_manager.py:SideOperationsManager", "ABXpy/task.py:Task.on_across_triplets"]}
{"id": "C05", "title": "by_index partitions the triplet table", "statement": "In the task file, triplets/by_index row i is the half-open interval of triplets/data holding exactly the triplets of bys[i]; the intervals are non-empty, consecutive, start at 0 and end at the number of triplets; by levels without triplets do not appear.", "quantifier": "every item table and task, including by levels with no triplet anywhere in the order", "why_tests_cant": "bookkeeping across an arbitrary number of (possibly empty) levels and an arbitrary buffering of the writes", "anchors": ["ABXpy/task.py:Task.generate_triplets", "ABXpy/task.py:Task._compute_triplets", "ABXpy/h5tools/np2h5.py:NP2H5buffer"]}
{"id": "C06", "title": "Item indices survive storage in triplets/data", "statement": "Reading triplets/data back gives the item indices that were generated (the integer type chosen for the dataset can hold every item index written).", "quantifier": "every item table, every task", "why_tests_cant": "depends on the relation between two independent counts (number of triplets, largest item index) that small tests never separate", "anchors": ["ABXpy/task.py:Task.generate_triplets", "ABXpy/misc/type_fitting.py:fit_integer_type"]}
{"id": "C07", "title": "on_across_block_index delimits the regressor groups written", "statement": "triplets/on_across_block_index records, for each on/across/by block written, the boundaries of the runs of triplets sharing the same regressors.", "quantifier": "every task, every threshold", "why_tests_cant": "needs all block sizes and thresholds; the file is not read back by any test", "anchors": ["ABXpy/task.py:Task.generate_triplets", "ABXpy/task.py:sort_and_threshold"]}
{"id": "C08", "title": "threshold keeps min(count, threshold) distinct triplets of every regressor group", "statement": "With generate_triplets(threshold=t), for each on/across/by block and each combination of B/X regressor values the number of triplets written is min(t, number available), they are pairwise distinct, and they are triplets of that very group.", "quantifier": "every block, every threshold t>0, every random stream", "why_tests_cant": "must hold for every random draw and every group size; the sampler dtype is derived from an unrelated quantity", "anchors": ["ABXpy/task.py:sort_and_threshold", "ABXpy/sampling/sampler.py:sample_without_replacement"]}
{"id": "C09", "title": "No threshold means no triplet is lost, added or duplicated by regressor sorting", "statement": "Sorting by regressors with threshold None (or 0) is a permutation of the block's triplets that makes triplets with equal regressors contiguous.", "quantifier": "every block, every regressor assignment, every sorting permutation returned by argsort", "why_tests_cant": "argsort tie-breaking is unspecified; must hold for all", "anchors": ["ABXpy/task.py:sort_and_threshold", "ABXpy/task.py:Task.on_across_triplets"]}
{"id": "C10", "title": "Regressor rows stay aligned with triplet rows", "statement": "Row i of the regressor datasets of a by level holds the regressor values of the i-th triplet written for that level, whatever filters, sorting and thresholding were applied.", "quantifier": "every task, regressor list, filter list, threshold", "why_tests_cant": "alignment through three successive permutations/selections must hold for all inputs; tests never read regressors back", "anchors": ["ABXpy/task.py:Task._compute_regressors", "ABXpy/task.py:Task.on_across_triplets"]}
{"id": "C11", "title": "Block-level labels are those of the block", "statement": "The on/across/by values used for block-level filters and for the on_1/across_1 regressors of a block are the values of the items of that block.", "quantifier": "every item table, every generic filter", "why_tests_cant": "depends on label-versus-position indexing of a filtered table; tests only use filters that keep a prefix of rows", "anchors": ["ABXpy/task.py:Task._compute_triplets", "ABXpy/task.py:Task.compute_statistics", "ABXpy/sideop/filter_manager.py:FilterManager.generic_filter"]}
{"id": "C12", "title": "unique_pairs holds exactly the AX and BX pairs of the triplets, sorted, without repetition", "statement": "For every by level the stored pair keys are strictly increasing and a key is stored iff it is the key of (A,X) or (B,X) for some triplet of the level, regardless of how the data is cut into buffers.", "quantifier": "every triplet table, every buffer size / chunking", "why_tests_cant": "duplicates straddling buffer boundaries appear only for particular data/buffer alignments", "anchors": ["ABXpy/task.py:Task._generate_pairs", "ABXpy/task.py:sort_pairs"]}
{"id": "C13", "title": "Pair keys are decodable and never overflow", "statement": "The key a + base*x computed in the chosen integer type is the mathematical value, distinct pairs get distinct keys, and mod/floor-division by base recovers (a,x).", "quantifier": "every base and every a,x < base", "why_tests_cant": "overflow behaviour at each type boundary for all bases", "anchors": ["ABXpy/task.py:Task._generate_pairs", "ABXpy/distances/distances.py:run_distance_job", "ABXpy/score.py:score"]}
{"id": "C14", "title": "unique_pairs attributes delimit each by level", "statement": "The attribute stored for a by level is (1+max item index, start, stop) such that rows start..stop of unique_pairs/data are exactly that level's unique pairs, and the intervals tile the dataset.", "quantifier": "every number of by levels, every per-level pair list", "why_tests_cant": "offset bookkeeping over arbitrarily many levels", "anchors": ["ABXpy/task.py:Task._generate_pairs"]}
{"id": "C15", "title": "Items keep their file/onset/offset", "statement": "The feature record stored for item i of a by level is the file/onset/offset of the row of the item file that carries the labels of item i, also when rows with missing values are dropped.", "quantifier": "every item file, every pattern of missing values", "why_tests_cant": "label/position confusion only shows when rows are dropped before the row of interest", "anchors": ["ABXpy/database/database.py:load", "ABXpy/task.py:Task._init_prepare_database"]}
{"id": "C16", "title": "score is the sign of the distance comparison, triplet by triplet", "statement": "score(task,distance) writes at row i: 1 if d(A,X)<d(B,X), -1 if d(A,X)>d(B,X), 0 otherwise, where A,B,X is the i-th triplet and d is the distance stored for that pair of that by level; every row is written exactly once.", "quantifier": "every task file with sorted unique pairs, every distance table, every read buffering", "why_tests_cant": "binary-search lookup in every sorted key table, for every buffer alignment", "anchors": ["ABXpy/score.py:score", "ABXpy/h5tools/h52np.py:H5dataset2NPbuffer"]}
{"id": "C17", "title": "Swapping A and B negates the score; scores are in {-1,0,1}", "statement": "For any distance table the score of (B,A,X) is minus the score of (A,B,X); values are -1,0,1; incomparable distances (NaN) and ties give 0.", "quantifier": "every triplet, every distance table including NaN", "why_tests_cant": "universally quantified algebraic law", "anchors": ["ABXpy/score.py:score"]}
{"id": "C18", "title": "End-to-end: scores compare the true distances of the triplet's items", "statement": "Running generate pairs -> compute distances -> score gives, for every triplet, the sign of dist(feat(B),feat(X)) - dist(feat(A),feat(X)) with the user's distance applied with X as second argument, for any number of cpus and any schedule.", "quantifier": "every triplet table, feature table, distance function, n_cpu, schedule of the jobs", "why_tests_cant": "composition of encodings, sorting, job splitting, concurrent writing and lookup", "anchors": ["ABXpy/task.py:Task._generate_pairs", "ABXpy/distances/distances.py:compute_distances", "ABXpy/score.py:score"]}
{"id": "C19", "title": "Label combinations survive the key encoding used by analyze", "statement": "Decoding (npdecode) the key computed from a row of regressor indices gives back the row; distinct rows get distinct keys; keys do not overflow the chosen type.", "quantifier": "every table of indices, every number of columns", "why_tests_cant": "mixed-radix round trip for all radices", "anchors": ["ABXpy/analyze.py:npdecode", "ABXpy/analyze.py:collapse"]}
{"id": "C20", "title": "analyze writes one row per label combination with the right mean and count", "statement": "For each by level the csv has exactly one row per distinct regressor combination; n is the number of triplets with that combination; score is (mean+1)/2 of their scores; the n's sum to the number of triplets of the level.", "quantifier": "every score table and regressor table", "why_tests_cant": "grouping correctness for every multiset of rows", "anchors": ["ABXpy/analyze.py:collapse", "ABXpy/analyze.py:unique"]}
{"id": "C21", "title": "analyze scores lie in [0,1] and do not depend on triplet order", "statement": "Every csv score is between 0 and 1, and permuting the triplets (with their scores and regressors) of a level leaves the csv rows unchanged.", "quantifier": "every score table, every permutation, every argsort tie-breaking", "why_tests_cant": "all permutations", "anchors": ["ABXpy/analyze.py:collapse", "ABXpy/analyze.py:unique"]}
{"id": "C22", "title": "Distance jobs cover every pair exactly once", "statement": "The blocks of all jobs returned by create_distance_jobs tile the pairs of every by level without gap or overlap; each block goes to exactly one job; there are n_cpu jobs.", "quantifier": "every list of by sizes, every n_cpu >= 1", "why_tests_cant": "splitting/rounding arithmetic for all sizes", "anchors": ["ABXpy/distances/distances.py:create_distance_jobs"]}
{"id": "C23", "title": "Load balancing bound", "statement": "No block is larger than ceil(total/n_cpu); the loads of any two cpus differ by at most one maximal block, so the busiest cpu has at most total/n_cpu plus one block.", "quantifier": "every list of by sizes, every n_cpu", "why_tests_cant": "greedy schedule bound over all inputs", "anchors": ["ABXpy/distances/distances.py:create_distance_jobs"]}
{"id": "C24", "title": "The distance file does not depend on the schedule", "statement": "For every interleaving of the per-block writes of the workers the final distances/data is the same: row k is distance(item mod base, item div base) of unique pair k.", "quantifier": "every set of jobs, every interleaving", "why_tests_cant": "exponentially many schedules", "anchors": ["ABXpy/distances/distances.py:run_distance_job", "ABXpy/distances/distances.py:compute_distances"]}
{"id": "C25", "title": "The 'done' attribute tells that all distances were computed", "statement": "When compute_distances returns normally the file attribute done is True, and whenever it is True every distance has been written.", "quantifier": "every n_cpu, every crash point", "why_tests_cant": "needs every crash point and both code paths", "anchors": ["ABXpy/distances/distances.py:compute_distances", "ABXpy/distances/distances.py:create_distance_jobs"]}
{"id": "C26", "title": "A crash never leaves a wrong distance, only missing (zero) ones", "statement": "After any prefix of any schedule every row of distances/data is either the correct distance or the initial 0, and rows of completed blocks are correct.", "quantifier": "every schedule and crash point", "why_tests_cant": "all crash points of all schedules", "anchors": ["ABXpy/distances/distances.py:run_distance_job"]}
{"id": "C27", "title": "Workers exclude each other and do not block forever", "statement": "At most one worker is inside a file-access section at any time, and as long as some worker has work left some step is possible, also after a worker raised an exception.", "quantifier": "every number of workers, every interleaving, every failure point", "why_tests_cant": "liveness over all failure points", "anchors": ["ABXpy/distances/distances.py:run_distance_job"]}
{"id": "C28", "title": "DTW is the optimal alignment cost", "statement": "_dtw(N,M,dist,normalized=False) is the minimum over all monotone warping paths from (0,0) to (N-1,M-1) of the sum of dist along the path, and the minimum is attained.", "quantifier": "every N,M>=1 and every cost matrix (exact arithmetic)", "why_tests_cant": "minimum over exponentially many paths", "anchors": ["ABXpy/distances/metrics/dtw/dtw.pyx:_dtw"]}
{"id": "C29", "title": "Normalized DTW divides the optimal cost by the length of an optimal path", "statement": "With normalized=True the result is the optimal cost divided by the number of cells of a monotone warping path that attains it; that number is between max(N,M) and N+M-1.", "quantifier": "every N,M>=1 and every cost matrix", "why_tests_cant": "the backtracking loop must follow an optimal path for every matrix", "anchors": ["ABXpy/distances/metrics/dtw/dtw.pyx:_dtw"]}
{"id": "C30", "title": "DTW is symmetric", "statement": "Exchanging the two representations (transposing the cost matrix) does not change the DTW distance (normalized or not).", "quantifier": "every cost matrix", "why_tests_cant": "ties in backtracking only occur for special matrices", "anchors": ["ABXpy/distances/metrics/dtw/dtw.pyx:_dtw"]}
{"id": "C31", "title": "DTW distance laws and empty representations", "statement": "DTW of non-negative costs is non-negative, is 0 when the diagonal costs are 0, is monotone in the costs; the default distance of two empty items is 0, of an empty and a non-empty item is infinite, and dtw itself rejects empty input.", "quantifier": "every cost matrix, every pair of representations", "why_tests_cant": "universally quantified laws", "anchors": ["ABXpy/distances/metrics/dtw/dtw.pyx:dtw", "ABXpy/distance.py:default_distance"]}
{"id": "C32", "title": "Buffered writer: the dataset is the concatenation of what was written", "statement": "For any sequence of write and flush calls on a NP2H5 dataset followed by closing, the rows written are, in order, the concatenation of the data, for every buffer length; a non-fixed dataset grows as needed.", "quantifier": "every sequence of writes (any sizes), every buffer length, initial size", "why_tests_cant": "all alignments of write sizes and buffer length", "anchors": ["ABXpy/h5tools/np2h5.py:NP2H5buffer.write", "ABXpy/h5tools/np2h5.py:NP2H5buffer.flush"]}
{"id": "C33", "title": "Fixed-size writer accepts exactly the declared amount", "statement": "Closing a fixed-size dataset succeeds iff exactly n_rows rows were written; writing less raises at exit, writing more raises.", "quantifier": "every write sequence, every n_rows and buffer length", "why_tests_cant": "all sizes", "anchors": ["ABXpy/h5tools/np2h5.py:NP2H5.__exit__", "ABXpy/h5tools/np2h5.py:NP2H5buffer.iscomplete"]}
{"id": "C34", "title": "A failed write session leaves no partial dataset", "statement": "If an exception escapes the 'with NP2H5' block the datasets created in it are removed from the file.", "quantifier": "every write history before the exception", "why_tests_cant": "every crash point", "anchors": ["ABXpy/h5tools/np2h5.py:NP2H5.__exit__", "ABXpy/h5tools/np2h5.py:NP2H5buffer.delete"]}
{"id": "C35", "title": "Buffered reader: reads concatenate to the dataset", "statement": "For any sequence of read(amount) calls on a H52NP dataset the results concatenate to a prefix of the dataset; a read returns min(amount, remaining) rows; iterating terminates and yields all rows once; the same for a sub-dataset given by indexes.", "quantifier": "every dataset, buffer length, refill policy threshold, sequence of reads", "why_tests_cant": "all alignments of reads, buffer and dataset length", "anchors": ["ABXpy/h5tools/h52np.py:H52NPbuffer.read", "ABXpy/h5tools/h52np.py:H52NPbuffer.refill_buffer", "ABXpy/h5tools/h52np.py:H5dataset2NPbuffer"]}
{"id": "C36", "title": "External sort yields the sorted permutation", "statement": "H5Handler.sort replaces the key dataset by the same multiset of keys in increasing order, for every buffer size for which it does not refuse to run.", "quantifier": "every dataset, every chunk size and buffer size, every argsort tie-breaking", "why_tests_cant": "correctness of the k-way buffered merge for all chunk/buffer alignments and duplicates", "anchors": ["ABXpy/h5tools/h5_handler.py:H5Handler.sort", "ABXpy/h5tools/h5_handler.py:H5Handler.extract_chunk"]}
{"id": "C37", "title": "External sort keeps the rows of companion datasets attached to their keys", "statement": "After H5Handler.sort the rows (key, companions) are a permutation of the original rows.", "quantifier": "every dataset tuple, every buffer size, every tie-breaking", "why_tests_cant": "ties and chunk boundaries", "anchors": ["ABXpy/h5tools/h5_handler.py:H5Handler.sort"]}
{"id": "C38", "title": "sort_pairs always terminates successfully on a non-empty table", "statement": "For every non-empty pair table the buffer sizes chosen by sort_pairs lead H5Handler.sort to terminate without tripping its assertions.", "quantifier": "every table size and item size", "why_tests_cant": "rounding at all sizes; degenerate buffer sizes loop forever", "anchors": ["ABXpy/task.py:sort_pairs", "ABXpy/h5tools/h5_handler.py:H5Handler.sort"]}
{"id": "C39", "title": "Knuth sampling returns n distinct sorted indices below N", "statement": "Knuth_sampling(n,N) with 0<=n<=N terminates for every random stream and returns exactly n strictly increasing indices in [0,N); every such list can be returned.", "quantifier": "every n<=N and every random stream", "why_tests_cant": "all random streams", "anchors": ["ABXpy/sampling/sampler.py:Knuth_sampling"]}
{"id": "C40", "title": "Rejection sampling returns n distinct sorted indices below N", "statement": "Whenever rejection_sampling(n,N) returns, the result is n strictly increasing indices in [0,N); it never overshoots; from every intermediate state completion remains possible iff n<=N.", "quantifier": "every n, N, every random stream", "why_tests_cant": "all random streams, unbounded loop", "anchors": ["ABXpy/sampling/sampler.py:rejection_sampling"]}
{"id": "C41", "title": "hypergeometric_sample returns a feasible count", "statement": "The returned k satisfies max(0,n-(N-K)) <= k <= min(n,K) for every accepted draw.", "quantifier": "every N,K<=N,n<=N and every random stream", "why_tests_cant": "symmetry reductions must be right in every regime", "anchors": ["ABXpy/sampling/sampler.py:hypergeometric_sample"]}
{"id": "C42", "title": "Incremental sampling draws exactly K of N, once each", "statement": "For any sequence of sample(n) calls that exhausts the population, the absolute indices returned are strictly increasing over the whole run, lie in the requested chunks, and are exactly K in number.", "quantifier": "every N,K<=N, every sequence of chunk sizes, every random stream", "why_tests_cant": "all call histories and random streams", "anchors": ["ABXpy/sampling/sampler.py:IncrementalSampler"]}
{"id": "C43", "title": "fit_integer_type returns the smallest type that holds n", "statement": "fit_integer_type(n) returns a type whose range contains all of 0..n, no smaller type of the family does, and it raises iff n does not fit 64 bits; storing a value in range is lossless.", "quantifier": "every integer n, both signednesses", "why_tests_cant": "boundaries at all powers of two", "anchors": ["ABXpy/misc/type_fitting.py:fit_integer_type"]}
{"id": "C44", "title": "Cosine distance laws", "statement": "cosine_distance entries are in [0,1], symmetric, invariant by positive scaling of frames, 0 between parallel frames and between two zero frames, 1 between a zero and a non-zero frame.", "quantifier": "every pair of real matrices", "why_tests_cant": "universally quantified over reals", "anchors": ["ABXpy/distances/metrics/cosine.py:cosine_distance"]}
{"id": "C45", "title": "KL / JS / Hellinger laws", "statement": "On rows with positive entries: kl_divergence(symmetrized) and js_divergence are non-negative, symmetric and 0 on equal rows; hellinger_distance is in [0,1], symmetric, 0 iff rows are proportional.", "quantifier": "every pair of positive real matrices", "why_tests_cant": "inequalities over reals", "anchors": ["ABXpy/distances/metrics/kullback_leibler.py"]}
{"id": "C46", "title": "In-place normalisation does not make distances history-dependent", "statement": "The metrics normalise their arguments in place; the distance of two items is the same whether or not they were used (and normalised) in earlier distance computations of the same job.", "quantifier": "every history of distance computations", "why_tests_cant": "all histories", "anchors": ["ABXpy/distances/metrics/kullback_leibler.py", "ABXpy/distances/distances.py:run_distance_job"]}
{"id": "C47", "title": "Uniform time warping weights every frame of the longer item once", "statement": "distance_coordinates(n1,n2) gives, for every frame of the longer item, a total weight 1, with valid frame indices; utw is symmetric and is the framewise sum when lengths are equal.", "quantifier": "every 1<=n1<=n2", "why_tests_cant": "index arithmetic for all lengths", "anchors": ["ABXpy/distances/metrics/utw.py:utw", "ABXpy/distances/metrics/utw.py:distance_coordinates"]}
{"id": "C48", "title": "Lookup-table keys are injective and lookups return the stored row", "statement": "For DBfun_LookupTable and fused H5IO datasets, distinct in-range input tuples have distinct keys; after pack, evaluating stored inputs returns the outputs stored for them, in query order.", "quantifier": "every list of level counts, every stored table, every query list", "why_tests_cant": "mixed radix and binary search for all tables", "anchors": ["ABXpy/dbfun/dbfun_lookuptable.py:DBfun_LookupTable.get_keys", "ABXpy/dbfun/dbfun_lookuptable.py:DBfun_LookupTable.evaluate", "ABXpy/h5tools/h5io.py:H5IO.__compute_keys__"]}
{"id": "C49", "title": "Querying a lookup table for an absent key reports missing data", "statement": "Evaluating inputs that are not in a packed table without code raises the 'Missing data' RuntimeError.", "quantifier": "every table, every absent query", "why_tests_cant": "keys beyond the last one are special", "anchors": ["ABXpy/dbfun/dbfun_lookuptable.py:DBfun_LookupTable.evaluate"]}
{"id": "C50", "title": "Indexed column regressors decode to the label", "statement": "For an indexed column regressor, index[evaluate(v)] = v for every value of the column and distinct values get distinct indices.", "quantifier": "every column", "why_tests_cant": "all value sets", "anchors": ["ABXpy/dbfun/dbfun_column.py:DBfun_Column"]}
{"id": "C51", "title": "Side operations are classified at exactly one stage where their inputs are available", "statement": "Every accepted filter/regressor is attributed to exactly one stage, and the variables made available at that stage are all the variables it reads.", "quantifier": "every set of extended column names used by a filter/regressor, every on/across/by", "why_tests_cant": "combinatorial in the sets of extensions and column roles", "anchors": ["ABXpy/sideop/side_operations_manager.py:SideOperationsManager.add"]}
{"id": "C52", "title": "Lazy vectorial filtering equals conjunction", "statement": "vectorial_filter keeps exactly the positions on which all filters hold, in order, although later filters only see the survivors.", "quantifier": "every list of pointwise filters, every context", "why_tests_cant": "all filter lists and vectors", "anchors": ["ABXpy/sideop/filter_manager.py:vectorial_filter", "ABXpy/sideop/filter_manager.py:singleton_filter"]}
{"id": "C53", "title": "A column name used as filter keeps the items whose column value is true", "statement": "A filter given as a (possibly extended) column name keeps exactly the elements for which the column value is truthy, like the equivalent script.", "quantifier": "every column, every table", "why_tests_cant": "shape of the evaluate result differs from scripts; never tested", "anchors": ["ABXpy/dbfun/dbfun_column.py:DBfun_Column.evaluate", "ABXpy/sideop/filter_manager.py:vectorial_filter"]}
{"id": "C54", "title": "Item file header is accepted iff well formed, and columns are split correctly", "statement": "database.load accepts a header iff it starts with '#file onset offset' and has exactly one more column prefixed by '#'; location columns are those before it, label columns those from it on, with the '#' removed.", "quantifier": "every header", "why_tests_cant": "all headers", "anchors": ["ABXpy/database/database.py:load"]}
{"id": "C55", "title": "Auxiliary label files extend the database", "statement": "If <base>.<column> exists, its columns are joined to the database on that column and recorded as children in the hierarchy.", "quantifier": "every set of auxiliary files", "why_tests_cant": "depends on file presence", "anchors": ["ABXpy/database/database.py:load_aux_dbs"]}
{"id": "C56", "title": "Tree traversals visit every node once", "statement": "preOrder and postOrder each yield every node of the tree once (a parent before, resp. after, its descendants); count is their number; findChild returns the first match in pre-order or None.", "quantifier": "every tree", "why_tests_cant": "all shapes and depths", "anchors": ["ABXpy/misc/tinytree.py:Tree"]}
{"id": "C57", "title": "Batch conversion writes every file once, in order", "statement": "any_to_h5features passes every file to h5features.write exactly once, in order, in batches of at most batch_size.", "quantifier": "every list of files, every batch_size>=1", "why_tests_cant": "boundaries at multiples of the batch size", "anchors": ["ABXpy/misc/any2h5features.py:any_to_h5features"]}
{"id": "C58", "title": "Feature extraction selects exactly the frames of the item", "statement": "get_features_from_raw returns for an item exactly the frames of its file whose time is within [onset, offset], in order.", "quantifier": "every time table, every onset/offset", "why_tests_cant": "boundary inclusion for all tables", "anchors": ["ABXpy/distances/distances.py:Features_Accessor.get_features_from_raw"]}
{"id": "C59", "title": "verify.check accepts exactly the consistent item files", "statement": "check succeeds iff the header is well formed and every item row names a file present in the feature file.", "quantifier": "every item file and feature file list", "why_tests_cant": "all line contents", "anchors": ["ABXpy/verify.py:check"]}
{"id": "C60", "title": "Synthetic item generator is a full factorial design", "statement": "generate_testitems(base,n,repeats) lists every combination of n labels in [0,base) exactly repeats+1 times.", "quantifier": "every base, n, repeats", "why_tests_cant": "digit arithmetic for all sizes", "anchors": ["ABXpy/misc/items.py:generate_testitems"]}
{"id": "C61", "title": "A task is created exactly when its columns, side operations and levels allow it", "statement": "Task(...) succeeds if and only if on/across/by are label columns with proper names, every filter and regressor is accepted, and every by level that passes the by filters keeps at least one item and has a feature record at the position of each of its items; otherwise it fails with AssertionError / ValueError / IndexError as appropriate. From an item file without filters: iff no line with missing labels precedes a complete one.", "quantifier": "all item files, all column choices, all filters and regressors, all iteration orders of sets and groups", "why_tests_cant": "Tests create a handful of tasks; the condition quantifies over every table, filter and level, and the failing cases (dropped lines, levels emptied by a filter) are exactly the ones not in the fixtures.", "anchors": ["ABXpy/task.py:187", "ABXpy/task.py:258", "ABXpy/task.py:285", "ABXpy/task.py:345", "ABXpy/database/database.py:19"]}
{"id": "C62", "title": "csv_cmp tells whether two result files have the same lines", "statement": "items.csv_cmp(f1, f2) is True exactly when the two files have the same lines up to the order of lines and columns.", "quantifier": "all pairs of readable CSV files", "why_tests_cant": "csv_cmp is itself used as the oracle of test_analyse.py; a test that passes says nothing unless the function can return False for some pair", "anchors": ["ABXpy/misc/items.py:102-115", "test/test_analyse.py:106"]}
{"id": "C63", "title": "The number of levels in the statistics is the number of label combinations", "statement": "compute_nb_levels (called by print_stats) reports, for each by level, the number of triplets when triplets with the same on and across labels of A, B and X are counted as one; it refuses (ValueError) when A, B, X or ABX filters are given.", "quantifier": "all item tables, all on/across/by choices, all filters, all iteration orders of sets and groups", "why_tests_cant": "No test calls print_stats; the counts are products over groups of sets of candidates and only an induction over all blocks relates them to the triplets that are actually generated.", "anchors": ["ABXpy/task.py:997-1065", "ABXpy/task.py:1075-1110"]}
{"id": "C64", "title": "Knuth_sampling is uniform", "statement": "Over independent draws of np.random.rand (multiples of 2^-53), Knuth_sampling(n, N) returns every set of n indices below N with probability 1/(N choose n), up to the factor that the finite precision allows: between (1 - N/2^53)^(N-n) and (1 + N/2^53)^n.", "quantifier": "all n, all N up to 2^53, all sets of n indices", "why_tests_cant": "test_sampler.py draws a few samples and looks at frequencies; a bias of the order of the statistical error, or one that only concerns rare sets, cannot be seen that way.", "anchors": ["ABXpy/sampling/sampler.py:221-234"]}
{"id": "C65", "title": "rejection_sampling is uniform and returns with probability one", "statement": "Over independent uniform draws of np.random.randint, rejection_sampling(n, N) returns every set of n indices below N with the same probability, whatever the number of rounds, and the probability that it has not returned after R rounds is at most 2^n (1 - 1/(2N))^R.", "quantifier": "all n <= N, all numbers of rounds, all pairs of sets of n indices", "why_tests_cant": "Uniformity is a statement about the set of all sequences of draws; a test sees one sequence at a time.", "anchors": ["ABXpy/sampling/sampler.py:239-248"]}
{"id": "C66", "title": "A table written with H5IO holds the rows that were given", "statement": "When a table is created with H5IO and rows are written in one or more calls inside a with statement (values of the indexed datasets, or their positions with indexed=True, and raw data), then at the end the file holds all rows in order: raw datasets under their name, indexed datasets as the columns of 'indexed_data' that 'indexed_cumudims' delimits, each number being the position of the value in the index; two keys of a fused dataset are equal exactly when all its members have equal values. Nothing else in the file changes.", "quantifier": "all declarations of datasets, indexes and fused datasets, all sequences of calls, all numbers of columns and all rows", "why_tests_cant": "test_h5io.py writes one table of five datasets twice and makes no assertion on what is in the file; the layout of columns, the type of the keys and the buffers depend on all declared sizes.", "anchors": ["ABXpy/h5tools/h5io.py:164-333", "ABXpy/h5tools/np2h5.py:62-200"]}
{"id": "C67", "title": "What H5IO accepts when it creates a table, what it makes, and what it finds when it opens one", "statement": "H5IO(filename, datasets, indexes, fused) creates an empty group with what is declared exactly when the declaration is consistent (each declared index is given and each given index is used, fused datasets are indexed) and the file does not exist yet, and otherwise raises and leaves the file unchanged; H5IO(filename) opens a table that was written before with everything that was declared.", "quantifier": "all declarations, all files", "why_tests_cant": "The decisions depend on set comparisons between three arguments and the state of a file; test_h5io.py only tries valid declarations on new files.", "anchors": ["ABXpy/h5tools/h5io.py:24-162"]}
{"id": "C68", "title": "Editing a tree keeps the links of children and parents together", "statement": "After any sequence of addChild, addChildrenFromList, remove, clear, replace, inject and reparent, an object is in the child list of its parent once and in no other, no object is above itself, and each operation changes only the links that its documentation names (a nested list makes the tree that it specifies).", "quantifier": "all forests of linked objects, all operations and sequences of operations, all nested lists", "why_tests_cant": "Whether the two directions of the links agree depends on the whole history of edits and on which objects are shared; test_tinytree style examples only edit small fresh trees.", "anchors": ["ABXpy/misc/tinytree.py:55-173"]}
{"id": "C69", "title": "Navigation in a tree: paths, order, nearest values", "statement": "In any forest pathToRoot, pathFromRoot, getRoot and getDepth follow the one path to the root; preOrder lists the objects below once each in tree order; findForwards, findBackwards, getNext, getPrevious and findParent find the first match in that order or on that path, getNext and getPrevious being inverse; findAttr and treeProp give the value of the nearest object that has one.", "quantifier": "all forests of linked objects of any size, all selectors and attributes", "why_tests_cant": "The order and the termination are statements about all shapes of trees; examples fix one shape.", "anchors": ["ABXpy/misc/tinytree.py:175-241", "ABXpy/misc/tinytree.py:253-406"]}
{"id": "C70", "title": "Command lines touch only their output, and do not lose it", "statement": "The programs of task.py, distance.py, score.py and analyze.py change no file but their output file; an output file that existed before is still there with its content, or was replaced by a new one by a run that ended normally; without a name for the output, no existing file is changed.", "quantifier": "all files and contents, all arguments, all behaviours of the computation (including exceptions at any place)", "why_tests_cant": "What is lost depends on which check fails after the old output was removed, for every combination of existing, missing and equal file names; tests run the programs on fresh names.", "anchors": ["ABXpy/task.py:702-717", "ABXpy/task.py:1339-1371", "ABXpy/distance.py:135-146", "ABXpy/score.py:64-82", "ABXpy/score.py:138-143", "ABXpy/analyze.py:155-166", "ABXpy/analyze.py:188-207"]}
{"id": "C71", "title": "The distance that is computed is the one that was asked for", "statement": "The name given with -d selects the distance function, also for a function of a user's module; each pair of a block is measured with that function and with the normalization given with -n (false for 0, else true), the same for all pairs; the edit distance is the Levenshtein distance, symmetric, and zero exactly for equal items.", "quantifier": "all names, all distance functions, all lists of pairs, all values of -n, all items", "why_tests_cant": "The argument is reassigned inside the loop and names are split by dots; a test uses one name and one value.", "anchors": ["ABXpy/distance.py:49-93", "ABXpy/distances/distances.py:230-257"]}
{"id": "C72", "title": "The default distance of two items is the least warped sum of angles", "statement": "For all items with real features the default distance is the least sum, over the warping paths, of the angles between aligned frames divided by pi (with normalization, the mean over a best path): between 0 and the larger number of frames (at most 1 with normalization), 0 exactly if the items can be aligned with proportional frames, thus 0 for an item and itself, symmetric without normalization, unchanged by positive factors on frames, infinite for exactly one empty item; the same zeros and symmetry hold for the Kullback-Leibler variant on frames that are not negative with positive sums.", "quantifier": "all items of any number of frames and dimension, all real features, all initial contents of the cost table", "why_tests_cant": "The claims are about all real features and all alignments; tests compare a few arrays with precomputed numbers.", "anchors": ["ABXpy/distance.py:13-47", "ABXpy/distances/metrics/dtw/dtw.pyx:26-74", "ABXpy/distances/metrics/cosine.py:12-35", "ABXpy/distances/metrics/kullback_leibler.py:21-54"]}
{"id": "C73", "title": "A script of a filter or regressor computes what it says, from its columns only", "statement": "A script is accepted exactly when it has no `with` and its last statement other than imports is an expression; its inputs are exactly the columns whose name is written in it; its value depends on these columns only and not on the other scripts evaluated in the same context; the value is the one python gives when the script is executed in order with the columns as variables; narrowing the context to the values kept by other filters narrows the results in the same way.", "quantifier": "all scripts (imports, assignments, expressions with nested scopes), all contexts, all sets of columns, all python values and operations", "why_tests_cant": "Scripts are written by users; the two namespaces of exec behave as one as long as no nested scope uses a column, so that simple scripts pass.", "anchors": ["ABXpy/dbfun/dbfun_compute.py:23-206", "ABXpy/sideop/side_operations_manager.py:429-432", "ABXpy/sideop/filter_manager.py:107-109"]}
{"id": "C74", "title": "Each by level has a name and a place of its own in the files", "statement": "Different levels of 'by' have different names (the text of the key), so that rows of the results and groups of the files belong to one level; the group of the regressors of a level is neither that of another level nor inside it.", "quantifier": "all keys: any number of columns, all integers, all strings including quotes, backslashes, commas and parentheses", "why_tests_cant": "The claim is injectivity of a text representation over all strings; tests use short alphanumeric labels.", "anchors": ["ABXpy/task.py:772", "ABXpy/task.py:795", "ABXpy/task.py:875", "ABXpy/analyze.py:74"]}
{"id": "C75", "title": "The results file of analyze can be read back", "statement": "The tab-separated text written by analyze reads back in one way: a header with the regressors, by, score and n, then one line per row of the results with as many cells as the header; the cells determine the labels, the level, the score and the number of triplets. The header is found whatever the levels are.", "quantifier": "all files, levels, labels, scores; all orders of listing of the groups", "why_tests_cant": "Fields are joined without quoting; a test compares one file with simple labels.", "anchors": ["ABXpy/analyze.py:109-116", "ABXpy/analyze.py:155-166"]}
{"id": "C76", "title": "ABXrun runs the complete pipeline", "statement": "With an item file, a feature file and a configuration that give a valid task, bin/ABXrun.py creates the task, the distances, the scores and the results.", "quantifier": "all arguments, files and configurations", "why_tests_cant": "The program is not covered by tests; the failure is on every path, which a proof over all inputs shows.", "anchors": ["bin/ABXrun.py:20-72", "bin/ABXrun.py:82-135", "bin/ABXrun.py:138-184"]}
{"id": "C77", "title": "The results file gives the ABX scores of the task", "statement": "From the table of items to the rows of the results: for every choice of sorts, random numbers, buffer sizes, number of cpus and order of the distance jobs, the rows written for a level of the by columns are one per combination of values of the regressors among the triplets that the task's definition gives for the level, with their number and the mean of their ABX scores, computed from the features and the distance. Two runs with other choices give the same rows.", "quantifier": "all tables of items, on/across/by columns, filters and regressors, features, distances, sorts, random numbers, buffers, numbers of cpus, orders of the jobs", "why_tests_cant": "The tests compare single runs on small tables with stored results; the property is over all tables and all schedules, through five files.", "anchors": ["ABXpy/task.py:465-846", "ABXpy/task.py:848-995", "ABXpy/distances/distances.py:33-330", "ABXpy/score.py:51-119", "ABXpy/analyze.py:61-167"]}
{"id": "C78", "title": "When a task file is written", "statement": "Generating the triplets of a task without threshold ends in exactly one of three ways, decided by the items, the filters and the regressors alone: no file when no level of the by columns has a triplet that passes the filters; a ValueError when there is a triplet and a regressor of the user reads two of A, B and X; otherwise a file. No other error can occur, whatever the order of the sorts and the lengths of the write buffers.", "quantifier": "all tables of items, on/across/by columns, suffixed filters and regressors, orders of sorts, lengths of buffers", "why_tests_cant": "The tests generate a few small tasks; that no table of items makes any of the many conversions, lookups and integer types fail is a statement about all of them.", "anchors": ["ABXpy/task.py:465-846", "ABXpy/sideop/regressor_manager.py", "ABXpy/sideop/side_operations_manager.py:160-330"]}
{"id": "C79", "title": "The results with a threshold have the same rows, with at most threshold triplets each", "statement": "Generating a task with a threshold and running the whole experiment gives, for every choice of sorts, random numbers, buffers, number of cpus and order of the distance jobs, rows for the same labels and by levels in the same order as without a threshold; the number of triplets of each row is the smaller of the threshold and the number without threshold; its score is the mean ABX score of that many distinct triplets of the task with these labels; and a threshold that no row exceeds changes nothing.", "quantifier": "all tables of items, tasks, regressors, features, distances, thresholds, random sources, execution orders", "why_tests_cant": "test_threshold_analyze checks one balanced table with one threshold below every count, one seed and one cpu; counts below the threshold, other orders and other samples are not tried.", "anchors": ["ABXpy/task.py:560-640", "ABXpy/task.py:1181-1210", "ABXpy/task.py:1332-1334", "ABXpy/analyze.py", "test/test_analyse.py:52-77"]}
{"id": "C80", "title": "The statistics and the summary of a task hold the right numbers", "statement": "For every task whose filters on bare columns (if any) keep the first items of every level, the statistics of each by level hold the number of its items that are kept, of its on, across and on-across labels, of its pairs (A, B) and (A, X), and of its triplets; with approximate=True the number of triplets is the number of legal triples whose A passes the filters it decides, never smaller than the exact one and equal to it unless the flag approximate_nb_triplets is set; and the summary written by print_stats holds exactly these numbers for each level in order, in lines that can be read back in only one way.", "quantifier": "all tables of items, tasks, filters, environments, by levels", "why_tests_cant": "The tests compare the statistics of one or two small tables with dictionaries written by hand, never with approximate=True together with filters, and never read the summary.", "anchors": ["ABXpy/task.py:350-463", "ABXpy/task.py:1066-1109"]}
{"id": "C81", "title": "What a method of a task does does not depend on the methods called before", "statement": "For every task, after any sequence of calls of print_stats and generate_triplets on the same Task object that raised no exception, generate_triplets raises, writes or leaves out the same file as on a new Task (same triplets, by levels, index of the by levels and regressors), and print_stats writes the same lines about the levels as on a new Task.", "quantifier": "all tables of items, tasks, filters, environments, sequences of calls with any thresholds, random sources and buffer lengths", "why_tests_cant": "The tests call each method once, on a new Task, in one order, on tables where every by level has triplets.", "anchors": ["ABXpy/task.py:673-806", "ABXpy/task.py:997-1109"]}
{"id": "C82", "title": "Every distance that is offered gives a value for every pair of items", "statement": "For every pair of items with real features and every value of -n, the default distance and the distances of example_distances.py (dtw_cosine, dtw_kl_divergence) give a value, and those of the examples give that of the distance of distance.py with the same frame metric.", "quantifier": "all items (any numbers of frames, any real features), all values of -n, all blocks of pairs", "why_tests_cant": "No test calls the functions of example_distances.py.", "anchors": ["ABXpy/distances/example_distances.py:7-35", "ABXpy/distances/metrics/dtw/dtw.pyx:26", "ABXpy/distances/distances.py:245-257"]}
{"id": "C83", "title": "The results of a plain experiment are the mean ABX scores of the combinations of labels", "statement": "In an experiment with an 'on' column, across and by columns, and neither filters nor regressors, the results have, for every level, exactly one row for each combination of labels (the on label of A and X, another on label for B, across labels for A and B, other across labels for X in every across column) for which the level has items; its cells are these labels, its number of triplets is the product of the numbers of items with the labels of A, of B and of X (N (N - 1) M without across column), and its score is the mean of the ABX scores of all these triplets up to 2^-52.", "quantifier": "all tables of items, features and distances; all sorts, buffers, numbers of cpus and interleavings of the distance jobs", "why_tests_cant": "The claim relates the rows to the items of arbitrary tables; the tests compare a few results on fixed tables with stored values.", "anchors": ["ABXpy/task.py:187-1040", "ABXpy/score.py:35-110", "ABXpy/analyze.py:42-155", "ABXpy/sideop/regressor_manager.py:21-32"]}
{"id": "C84", "title": "The results of an experiment follow from the lines of its item file", "statement": "For an item file, a task on its columns without filters and regressors, and features and a distance for the records of its lines: the rows of the results are, for each level, one row per combination of labels for which the level has complete lines, with these labels, the number of triplets of lines with these labels and the mean of their ABX scores up to 2^-52, where the score of three lines is computed from the file, onset and offset of these same lines. For small files the task is created and the experiment can be run to its end.", "quantifier": "all item files, columns, features and distances; all sorts, buffers, numbers of cpus and interleavings of the distance jobs", "why_tests_cant": "The chain goes through the database, the task file, the pairs, the distances and the scores, where items are renumbered several times; tests check stored results of two files.", "anchors": ["ABXpy/database/database.py:load", "ABXpy/task.py:Task.__init__", "ABXpy/task.py:Task.generate_triplets", "ABXpy/distances/distances.py:130-300", "ABXpy/score.py:35-110", "ABXpy/analyze.py:42-155"]}
{"id": "C85", "title": "When a task file is written with a threshold", "statement": "Generating the triplets of a task with a threshold ends, whatever the random numbers, as it does without threshold: no file when no level has a triplet that passes the filters; a ValueError when there is a triplet and a regressor of the user reads two of A, B and X; otherwise a file. The only other outcome is a sampling that does not end, which does not happen when the samplings end on all sizes of groups.", "quantifier": "all tables of items, on/across/by columns, suffixed filters and regressors, thresholds, random sources, orders of sorts, lengths of buffers", "why_tests_cant": "The tests use one threshold on tables whose regressors do not read A; that no table, threshold or random sequence makes the sampled columns disagree is a statement about all of them, and it is false for regressors of A.", "anchors": ["ABXpy/task.py:597-654", "ABXpy/task.py:1118-1141", "ABXpy/h5tools/h5io.py:305-320"]}
{"id": "C86", "title": "The progress display shows what is done", "statement": "Whatever the calls of a progress display, each display writes one line for each name, in the order in which the names were first added, with the message and total given last and the sum of the updates since then; only the update of a name that was not added raises (KeyError). During a verbose generation of triplets there is one display for each block, showing the number of blocks done and of triplets in them, and the last shows that all the blocks and all the triplets of the task are done. On a terminal the text replaces the previous one. While a verbose task is made it writes that the item file is checked and verified, then counts the levels of the table, the levels left by the filters and the blocks, each from 1 to their number; computing the numbers of levels of a new task counts its levels.", "quantifier": "all sequences of calls, tables of items, tasks with suffixed filters, orders of iteration", "why_tests_cant": "Nothing tests the display; that the counts always end at the totals depends on the statistics and the generation agreeing on every block of every task.", "anchors": ["ABXpy/misc/progress_display.py:8-48", "ABXpy/task.py:723-730", "ABXpy/task.py:808-844"]}
{"id": "C87", "title": "A script can call functions of auxiliary files", "statement": "In a script, a call alias(in_1, ..., in_k) of a function of an auxiliary file, or such a call followed by .out['name_1', ..., 'name_n'], is replaced by a variable and recorded, as the documentation of LookupTableConnector describes; a call with keyword arguments is refused with ValueError.", "quantifier": "all syntax trees, all lists of aliases, python 2 and python 3", "why_tests_cant": "No test uses auxiliary functions; that no syntax tree at all can be treated is a statement about all of them.", "anchors": ["ABXpy/dbfun/lookuptable_connector.py:20-128", "ABXpy/dbfun/dbfun_compute.py:99-110"]}
{"id": "C88", "title": "A filter on a bare column restricts the task to the items it keeps", "statement": "With a filter on a bare column (one that selects items) a task can be created, its blocks get the labels of their own items, and the triplets generated are those of the items that are kept. Of the code: in every level, the number that an item had before filtering is used as its position after filtering; the task can be created exactly when the number of the first item of every block is smaller than the number of items kept (otherwise IndexError), without across column exactly when the removed items are the last ones of their level; a block gets the labels of the item at that position, its own ones exactly when no item before its first one was removed; the triplets are those of the items kept as long as no other filter reads the labels of the block.", "quantifier": "all databases, on, across, by, filters and regressors; all iteration orders of the containers", "why_tests_cant": "The one test with such a filter (test_filter) removes the last items of its table, where all is well; whether labels or errors are wrong depends on the place of the removed items in each level.", "anchors": ["ABXpy/task.py:286-330", "ABXpy/task.py:405-425", "ABXpy/task.py:808-831", "ABXpy/sideop/filter_manager.py:55-56"]}
{"id": "C89", "title": "The labels of the triplets that the analysis reads from the task file are those of their columns", "statement": "The names of the regressors in the task file are the extended names of their columns, each once and the same in every level; for every row of the regressors of a level, the labels that the analysis finds with the indexes stored beside them are the values of these columns for the triplet of that row. Of the code: this holds of tasks whose regressors are columns with ASCII names and labels; other labels make the generation fail, and a regressor that is a script makes it fail as soon as two levels have blocks, because its column is stored at the root of the file.", "quantifier": "all databases, tasks, regressors on columns (also repeated ones), random sources, places of the levels in the file, and previous contents of the file", "why_tests_cant": "The tests read regressors of one small table by fixed names; that a name collects the same column in every level, whatever the order in which the manager keeps the regressors and whatever is repeated, is a statement about all tables and managers.", "anchors": ["ABXpy/sideop/regressor_manager.py:96-127", "ABXpy/dbfun/dbfun_column.py:24-29", "ABXpy/dbfun/dbfun_compute.py:170-171", "ABXpy/task.py:767-774", "ABXpy/task.py:1125-1158", "ABXpy/analyze.py:76-77", "ABXpy/analyze.py:103-112"]}
{"id": "C90", "title": "The float64 comparisons of the sampler change at most one random number per decision", "statement": "For populations up to 2^53, the comparison (N - t) * u < n - m of Knuth_sampling, made in float64, decides as exact arithmetic does for all but at most one of the 2^53 values of np.random.rand(); every run in float64 is a run of the exact algorithm on another stream, so Knuth_sampling returns n strictly increasing indices below N, every set of n indices has probability 1/(N choose n) up to a factor between (1 - N/2^53)^N and (1 + N/2^53)^N, the test n / float(N) < 0.6 chooses the same method (up to 2^50), and the incremental sampler with float64 chunk sizes draws exactly K of N items, once each.", "quantifier": "All n <= N <= 2^53 (2^50 for the choice of the method), all streams of random numbers, all sequences of positive chunk sizes.", "why_tests_cant": "The decisions differ for one random number out of 2^53 at each step; uniformity is a statement about all streams.", "anchors": ["ABXpy/sampling/sampler.py:80-98", "ABXpy/sampling/sampler.py:198-234"]}
{"id": "C91", "title": "The text of the results, as it is made from the task file and the score file", "statement": "For a task whose regressors are columns, the names, indexes and values of the regressors are written to the task file by h5io, each regressor once even if it is given twice. When an experiment has been run to its end, analyze, reading the names from whatever group is listed first, the indexes and values from the group of each level and the scores from the score file, writes a text that reads back as a table: a header with the names of the regressors, by, score and n, and for each level that has triplets one line for each combination of labels that a triplet of the level has, with the labels in the order of the header, the level, the mean of the scores of these triplets up to 2^-52 and their number. With a threshold the same holds of a sample that has, for each combination of labels, as many triplets as the threshold allows. For a plain task made from an item file this holds of the lines of the item file.", "quantifier": "all databases and item files, all columns, filters and regressors of the kinds stated, all levels, all sorts, random numbers, buffers, numbers of cpus and orders of the distance jobs, all features and distances, all groups that may be listed first", "why_tests_cant": "The text depends on the order of groups in the file, on the order in which regressors are taken, on duplicates among them and on the labels; a test shows one file.", "anchors": ["ABXpy/analyze.py:61-166", "ABXpy/task.py:765-800", "ABXpy/h5tools/h5io.py:60-150"]}
{"id": "C92", "title": "The complete run of the example program", "statement": "For the item files of generate_named_testitems(base, n, repeats) with base >= 2 labels in each of n >= 3 columns, and generated features, the program of examples/complete_run.py (task on c0 across c1 by c2, triplets, pairs, dtw of cosine distances, scores, analysis) runs to its end for every scheduling of the processes, number of cpus and buffer size, and every run gives the same kind of table: base levels, in each level one row for every pair of different c0 labels and every pair of different c1 labels, base*(base*(base-1))^2 rows in all (108 for the example), each with (base^(n-3)*(repeats+1))^3 triplets (216) and the mean of their scores. The features of an item are one frame, the first of its recording, so that the distance is the cosine distance of these frames.", "quantifier": "all base >= 2, n >= 3, repeats with at most 3535 lines (and at most 128 lines, or at least as many triplets in a group as lines), all features, all lawful choices of the environment (orders of sets and dictionaries, sorts, cpus, buffers, schedules)", "why_tests_cant": "The test of the example runs the program once with random features and compares nothing with the number and the contents of the rows; the statement is for all sizes and all executions.", "anchors": ["examples/complete_run.py:19-50", "ABXpy/misc/items.py:33-85", "test/test_score.py:20-45", "test/test_analyse.py:30-80"]}
{"id": "C93", "title": "Results with a threshold, from the lines of the item file", "statement": "For a task with across columns created from an item file, a threshold limits the number of triplets of each row of the results: the text of the results reads back as a table with, for each level that has triplets, one line for each combination of labels for which the level has complete lines; its number of triplets is the threshold, or the number of triplets of lines with these labels if that is smaller, and its score is up to 2^-52 the mean ABX score of a sample of that many different triplets of lines with these labels. In particular, for the generated files of test_threshold_analyze, all rows have min(threshold, (base^(n-3)*(repeats+1))^3) triplets.", "quantifier": "all item files, labels, thresholds >= 1, random numbers for which the samplings end, and choices of the environment, with at most 256 triplets for each combination of labels of A in a level; generated files for all base >= 2, n >= 3, repeats within these limits", "why_tests_cant": "test_threshold_analyze checks the last column of the results of one run of one generated file with threshold 2; the statement is for all files, thresholds, random numbers and schedules, and says also what the scores are the means of.", "anchors": ["ABXpy/task.py:577-625", "ABXpy/task.py:1181-1205", "ABXpy/sampling/sampler.py:198-260", "ABXpy/analyze.py:61-166", "test/test_analyse.py:52-77"]}
{"id": "C94", "title": "Results with a threshold and without across columns", "statement": "For a task without across columns created from an item file, the threshold limits the triplets of each item A and pair of labels, not the row of the results: the text of the results reads back as a table with, for each level that has triplets, one line for each pair of different labels for which the level has complete lines; with nA and nB lines with these labels its number of triplets is nA * min(threshold, nB * (nA - 1)), and its score is up to 2^-52 the mean ABX score of a sample of different triplets of lines that has, for each line A, min(threshold, nB * (nA - 1)) triplets. So every line A has the same weight in the score. For generated files with m = base^(n-2)*(repeats+1) lines for each label and level, all rows have m * min(threshold, m * (m - 1)) triplets.", "quantifier": "all item files, labels, thresholds >= 1, random numbers for which the samplings end, and choices of the environment, with at most 256 triplets for each line A; generated files for all base >= 2, n >= 3, repeats within these limits", "why_tests_cant": "test_threshold_analyze has an across column and one threshold; no test of the repository uses a threshold without across columns, where the number of triplets of a row is not the threshold.", "anchors": ["ABXpy/task.py:548-625", "ABXpy/task.py:1181-1205", "ABXpy/sampling/sampler.py:198-260", "ABXpy/analyze.py:61-166"]}
{"id": "C95", "title": "No combination of labels is lost by the threshold", "statement": "In an experiment with a threshold every combination of labels (of the regressors) for which a level has triplets should have a row in the results. This is true when the blocks (the triplets whose A has given 'on' and 'across' labels) have at most 256 triplets, but false in general: sort_and_threshold keeps the positions of the sorted triplets of a block in the smallest unsigned type that holds the number of combinations of regressors, so with at most 255 combinations the triplets of groups larger than the threshold come only from the first 256 positions. If every combination of labels of a block has at least g triplets, g > threshold, the block has at least one and at most 255/g + 1 rows. For generated files with base <= 15 values and K = base^(n-3)*(repeats+1), K^3 > threshold: every run has, in each level, between base^2 and base^2*(255/K^3 + 1) rows instead of (base*(base-1))^2.", "quantifier": "all item files, tasks with across columns, labels, thresholds >= 1, random numbers, features, distances and choices of the environment; generated files for all base in 2..15, n >= 3, repeats with at most 3535 lines", "why_tests_cant": "test_threshold_analyze has 8 triplets in each group and 32 in each block; the loss needs blocks of more than 256 triplets with at most 255 combinations of labels, and raises no error: the rows are just absent.", "anchors": ["ABXpy/task.py:1170-1205", "ABXpy/task.py:589-621", "ABXpy/analyze.py:61-166"]}
{"id": "C96", "title": "Task files with a threshold are written in the end", "statement": "generate_triplets with a threshold should end (with probability one over the random numbers). It is false: rejection_sampling casts the drawn numbers to the type of the positions, chosen from the number of combinations of regressors, before it counts how many different ones there are; when the threshold is larger than the number of values of this type (256 for at most 255 combinations), and a group has n > 100 triplets with threshold/n < 0.6, the loop never ends, whatever the random numbers. When the threshold is at most the number of values of the type, or the groups are sampled by knuth_sampling, samplings can end (C85, C24).", "quantifier": "all tasks without regressors that read two of A, B, X or A alone, all thresholds, groups, random numbers, sorts and buffer lengths; from the lines of item files; generated files with base in 2..15", "why_tests_cant": "A test that hangs shows nothing about all random numbers, and the repository's tests use thresholds of 2.", "anchors": ["ABXpy/sampling/sampler.py:198-248", "ABXpy/task.py:1181-1205"]}
{"id": "C97", "title": "The text of an item file gives the labels that are written in it", "statement": "database.load should give, for the text of an item file, one row per line with the labels as they are written, whatever the white space between them. For the words that pandas takes neither for numbers nor for booleans nor for missing values it is so, and generated files are read with the values that were written. It is false in general: a label such as NA, nan or null is a missing value, so its line is dropped, and if a complete line follows no task can be created (IndexError); the words 7 and 07 in a column of digits become the same label; if all lines have one word more than the header then the first words of the lines are left out and all columns shift, without an error; if a later line has more words the file is refused with ValueError.", "quantifier": "all texts: all white space, headers, lines and words; all conversions of numbers for which digits write integers and numbers begin with a digit, sign, point or are inf, infinity or nan; all environments; all generated files (base, n, repeats)", "why_tests_cant": "The item files of the tests have labels such as c0_v1 or integers without leading zeros, one blank between words and equal numbers of words; which words of all possible ones change their meaning cannot be enumerated.", "anchors": ["ABXpy/database/database.py:11-15", "ABXpy/database/database.py:19-72", "ABXpy/misc/items.py:11-61"]}
{"id": "C98", "title": "The lines removed from an item file are listed", "statement": "Every line of an accepted item file should be either loaded or listed in the file '<name>-removed.item'. For item files with different names of columns: the file is written exactly when some line has a value but misses a label; read as a csv file (with quotes) it has the names of the label columns and the numbers and labels of exactly these lines; a line with a value is loaded or listed, not both. False in two ways: a line in which all words stand for missing values is neither loaded nor listed; and the file, although named '.item', is not an item file: loading it raises AssertionError.", "quantifier": "all item files (any columns, lines, values), any text of values; csv round trip for all lists of lines of any texts, also with commas, quotes and ends of line", "why_tests_cant": "No test of the repository has an item file with a missing value; the quoting must be right for all texts.", "anchors": ["ABXpy/database/database.py:11-15", "ABXpy/database/database.py:59-68"]}
{"id": "C99", "title": "The words of a command line give the programs the arguments that are written", "statement": "For a program whose options have different names that begin with '-' and whose positional arguments that may be missing come last (this is proved of task.py, distance.py, score.py, analyze.py, verify.py, any2h5features.py and ABXrun.py): if each option is written with as many values as it takes, under one of its names or an unambiguous beginning of a long name, as 'name value ...', 'name=value' or a letter with the value attached, and the options that must be given are there, then the positional arguments before the options, and the options followed by '--' and the positional arguments (the two forms that the documentation of task.py calls equivalent), both store exactly the positional arguments in their order and for each option the values of the last time it is written; task.py then calls Task and generate_triplets with these values or the defaults, and distance.py calls run with them or ends with a message when neither a distance nor a normalization is written. Without '--' positional arguments after the options work only if one that must be given is still missing before the options and the last option does not take one or more values; otherwise an option with one or more values takes them as its own values (so that the database is missing and the call is refused, or the name of the output file silently becomes a further column), and in the other cases the call is refused. Too few positional arguments, an ambiguous beginning of a name, and any word before '--' that looks like an option and is none, are refused. In every line that is accepted, every word that does not begin with '-' and every word after '--' is stored as a value, and every stored value is a word of the line or the end of one.", "quantifier": "for all such programs, all lists of options and values in all these ways of writing, all positional arguments, and for the refusals of unknown and ambiguous words all lines", "why_tests_cant": "The number of orders, spellings and values of command lines is unbounded, and whether a word becomes a value of an option or a positional argument depends on all the words before it.", "anchors": ["ABXpy/task.py:1254-1371", "ABXpy/distance.py:96-146", "ABXpy/score.py:123-143", "ABXpy/analyze.py:169-207", "ABXpy/verify.py:60-68", "ABXpy/misc/any2h5features.py:85-91", "bin/ABXrun.py:75-135"]}
{"id": "C100", "title": "The results depend only on the labels of the lines and on the comparisons of distances", "statement": "Take two experiments without filters and regressors (columns on, across, by), each run from an item file to the collapsed results. If the lines of a level of the one correspond to those of a level of the other one to one, with the same labels in the columns on and across up to a renaming that keeps different labels different, and with the same results of the comparisons of the distances of A and B to X, then both levels have the same rows, with the labels renamed: the same numbers of triplets and exactly the same scores. So the order of the lines, the other lines, levels and columns, the scale of the distances, the number of cpus, the buffers, the sorts and the random choices do not change the results. For two item files with the same lines in any order, and a distance replaced by an increasing function of it, the whole tables of results are the same up to the order of the rows. The same holds of two item files as texts, with the same header and the same lines of words in any order, with any blanks and empty lines.", "quantifier": "for all item files, columns, features, distances, orders of lines, renamings of labels, runs (cpus, buffers, orders of sorts, random choices, interleavings of the jobs)", "why_tests_cant": "It compares two runs of any experiments on any files; a test has one file in one order with one distance.", "anchors": ["ABXpy/database/database.py:load", "ABXpy/task.py:Task.__init__", "ABXpy/task.py:Task.generate_triplets", "ABXpy/distances/distances.py:130-300", "ABXpy/score.py:35-110", "ABXpy/analyze.py:42-155"]}
{"id": "C101", "title": "hypergeometric_sample draws from the hypergeometric distribution", "statement": "With independent uniform random numbers, hypergeometric_sample(N, K, n) returns k with the probability C(K,k)C(N-K,n-k)/C(N,n) that k of the K sampled items are among the next n of N items. A proposed k is accepted exactly when U^2 is at most its probability relative to the most probable count, whatever the quick tests do, lines 153 and 155-156 compute the mean and the variance of the distribution and line 154 the most probable count.", "quantifier": "for all N, K<=N, n<=N, k and all random numbers", "why_tests_cant": "A distribution can only be compared to finitely many draws; wrong tails and wrong quick tests change probabilities that no test sees.", "anchors": ["ABXpy/sampling/sampler.py:136-192"]}
{"id": "C102", "title": "The incremental sampler draws every set of K of N items with the same probability", "statement": "With independent uniform random numbers, the items that the successive calls of IncrementalSampler.sample return, put together, are each set of K of the N items with the probability 1/C(N,K), whatever the sizes of the calls and the chunks that a call is cut into.", "quantifier": "for all N, K<=N, sequences of positive call sizes that go through the population, and sets of K items", "why_tests_cant": "A test sees finitely many draws; a bias between the C(N,K) sets (wrong remaining K, wrong chunk, wrong offset) can be small or concern rare sets, and cannot be told from chance.", "anchors": ["ABXpy/sampling/sampler.py:13-122", "ABXpy/sampling/sampler.py:136-248"]}
{"id": "C103", "title": "A threshold keeps each choice of triplets of the groups of a block with the same probability", "statement": "With independent uniform random numbers, sort_and_threshold keeps of a block (the triplets with given on, across and by labels) each choice of triplets, with min(threshold, n) of the n triplets of every group with equal regressors, with the same probability: one divided by the number of choices. In particular the groups are sampled independently of each other.", "quantifier": "for all blocks of distinct triplets, regressors, thresholds and choices", "why_tests_cant": "A test sees finitely many draws of a few blocks; a bias between triplets, or random numbers shared by groups, cannot be told from chance, and the wrapped positions only appear in blocks larger than the type fitted to the number of combinations.", "anchors": ["ABXpy/task.py:1181-1205", "ABXpy/task.py:589-624", "ABXpy/sampling/sampler.py:198-248"]}
{"id": "C104", "title": "The score of the triplets kept by a threshold is an unbiased and precise estimate", "statement": "With independent uniform random numbers, the expectation of the mean score of the triplets that a threshold T keeps of a group with equal regressors is the mean score of all triplets of the group; each triplet of a group of c is kept with the probability min(T,c)/c; and the two means differ by eps or more with a probability of at most 1/(4 T eps^2).", "quantifier": "for all blocks of distinct triplets, regressors, thresholds, groups, scores in [0,1] and eps > 0", "why_tests_cant": "The claim is about the distribution over all random draws; finitely many draws cannot show the absence of a bias, and the large blocks for which it fails are not in the tests.", "anchors": ["ABXpy/task.py:1181-1205", "ABXpy/task.py:589-624", "ABXpy/sampling/sampler.py:198-248"]}
{"id": "C105", "title": "Distances without information score 1/2", "statement": "If the distances are random and of any three different items X is nearer to A than to B with the same probability as nearer to B than to A, the expected score of every row of the results is 1/2, up to 2^-52: in particular when the features are shuffled between the items or the distances are dealt at random to the pairs. If no item is nearer to one than to another, every score is exactly 1/2. When the comparisons are reversed, each score s becomes 1 - s, up to 2^-51.", "quantifier": "for all item files, columns on, across and by, random distances (finitely many outcomes with any probabilities), and all choices of the runs", "why_tests_cant": "An expectation over all permutations of the features for all item files cannot be computed; a bias towards A or B in ties, an asymmetric comparison or triplets with X = A would show only in special groups.", "anchors": ["ABXpy/score.py:48-110", "ABXpy/analyze.py:61-166", "ABXpy/task.py:Task.generate_triplets", "ABXpy/distances/distances.py:150-280"]}
{"id": "C106", "title": "Results with a threshold are unbiased and precise estimates of the results without", "statement": "Let a row of the results without threshold have the score s. Over the random numbers with which the sampler of a run with --threshold K draws the triplets of its block, the expectation of the score of the row with the same labels is s, up to 2^-52 and the relative error of the sampler's roundings, and the score differs from s by more than e with a probability of at most 1 / (4 K e^2), whatever the number of cpus, the order of the jobs, the buffers, the sorts and the random numbers of the other blocks.", "quantifier": "for all item files and task arguments with an across column and no regressor of A, features and distances, thresholds, blocks of at most 255 triplets, and all runs", "why_tests_cant": "An expectation over the random numbers of the whole pipeline (task, pairs, distances, scores, analyze) for all inputs cannot be computed; a biased permutation, a row read from the wrong group or a group sampled with the size of another changes the mean only slightly.", "anchors": ["ABXpy/task.py:1140-1230", "ABXpy/sampling/sampler.py", "ABXpy/score.py:48-110", "ABXpy/analyze.py:61-166"]}
{"id": "C107", "title": "Distances without information score 1/2 in every task", "statement": "For a task with filters, regressors and a threshold: if the distances are random and of any three different items of a level X is nearer to A than to B with the same probability as nearer to B than to A (for instance when the features are shuffled between the items), then a row of the level is in the results of every outcome with the same number of triplets, and its expected score is 1/2, up to 2^-52. If the comparisons of one run are the reverse of those of another run of the same task, the scores of a row add up to 1, up to 2^-51.", "quantifier": "for all item tables, task arguments without regressors of A, thresholds and random numbers of the sampler, random distances (finitely many outcomes with any probabilities), and all other choices of the runs", "why_tests_cant": "An expectation over all permutations of the features for all tasks cannot be computed; a filter or sample that favours one side, or triplets in which an item occurs twice, would show only in special groups.", "anchors": ["ABXpy/task.py:Task.generate_triplets", "ABXpy/task.py:1140-1230", "ABXpy/score.py:48-110", "ABXpy/analyze.py:61-166"]}
{"id": "C108", "title": "What a score says of its triplets, exactly", "statement": "In spite of the rounding to float64, a score of the results is 1 exactly when X is nearer to A in all triplets of the row, 0 exactly when it is nearer to B in all, 1/2 exactly when as many triplets are right as wrong, and above 1/2 exactly when more are right than wrong. The rounding keeps the order of scores, and for rows whose numbers of triplets have a product below 2^50 it keeps the strict order. The results depend on the distances only through the comparisons: two runs with the same comparisons (for instance after an increasing function is applied to the distances) have the same rows to the last bit, whatever the other choices of the runs; and if the comparisons of one run are at least as right as those of another, none of its scores is lower.", "quantifier": "for all item tables, task arguments without regressors of A, thresholds and random numbers of the sampler, all distances, and all other choices of the runs", "why_tests_cant": "Equality of a rounded mean with 0, 1/2 or 1 for all numbers of triplets up to 2^52, and monotonicity in all comparisons of all tasks, cannot be sampled; a mean computed with other roundings fails for few numbers only.", "anchors": ["ABXpy/analyze.py:126-139", "ABXpy/analyze.py:61-166", "ABXpy/score.py:48-110", "ABXpy/task.py:Task.generate_triplets"]}
{"id": "C109", "title": "Runs that have the random numbers and the comparisons in common write the same files", "statement": "The file of triplets is a function of the task, the threshold, the random numbers and the sort of the triplets: the lengths of the buffers through which it is written play no part. Two complete runs of a task, with a threshold or without, with the same random numbers and the same comparisons of distances within the levels, write the same file of triplets, the same scores and the same results, whatever the buffers, the sorts of pairs, the numbers of cpus, the orders of the jobs and the features and distances are otherwise. The same seed is enough for the same random numbers to go to the same triplets when at most one column is determined by 'across'; with two it is not, since the default regressors come in the order of a python set of strings. Without a threshold the results do not depend on that order: every row of the results of one process is a row of those of the other, with the same number of triplets, the same score and the same label of every regressor.", "quantifier": "for all item tables, tasks, thresholds, random numbers, features, distances and choices of the runs (buffers, cpus, orders of jobs)", "why_tests_cant": "Tests run with one set of buffers, one number of cpus and in one process; a dependence on the order of a set of strings shows only between processes with different hash seeds, and only with a threshold and several across columns.", "anchors": ["ABXpy/task.py:674-700", "ABXpy/task.py:1168-1205", "ABXpy/sideop/regressor_manager.py:21-30", "ABXpy/sideop/side_operations_manager.py:53", "ABXpy/score.py:48-110", "ABXpy/analyze.py:61-139"]}
{"id": "C110", "title": "The triplets of a task file as lines of the item table, and relations between tasks", "statement": "Read as lines of the item table (the item numbers of each level translated to lines), a task file written without threshold has exactly the triplets of lines that agree on the 'by' columns, share 'on' between A and X and not B, share the 'across' columns between A and B and differ in them between A and X (or are different lines) and satisfy the filters, each once, and nothing else. It follows how tasks on the same table are related: more filters, more 'by' columns or more 'across' columns keep exactly the triplets that satisfy the additional conditions, and lines added, removed or put in another order change nothing in the triplets of the other lines but their numbers.", "quantifier": "for all item tables, columns, filters, orders of groups and sets, sorts and buffers, and all pairs of tasks so related", "why_tests_cant": "Relations between the outputs of all pairs of tasks on all tables; tests look at a few files with one level, where item numbers and lines are the same.", "anchors": ["ABXpy/task.py:229-246", "ABXpy/task.py:465-567", "ABXpy/task.py:740-844"]}
{"id": "C111", "title": "The score of a triplet depends only on its three lines", "statement": "In every complete run, with a threshold or without, every row of the task file has exactly one number in the file of scores, and it is 1, -1 or 0 as the record of line X of the item table is nearer to that of line A, to that of line B, or neither, where A, B and X are the lines of the table that the row names. Hence a triplet of lines has the same score in all tasks, levels and runs with the same features and distance in whose file it is, whatever the 'on', 'across' and 'by' columns, filters, regressors, thresholds and random numbers, and also when the lines of the table are selected or put in another order; and with additional filters or 'by' columns the scored triplets are those of the run without that satisfy the additional condition, with the same scores.", "quantifier": "for all item tables, tasks, thresholds, features, distances and choices of the runs, and all pairs of such runs", "why_tests_cant": "Relates the scores of all pairs of runs of different tasks; a mistake in the numbering of items in one level shows only when levels are compared, and tests compare single files with stored ones.", "anchors": ["ABXpy/task.py:848-1010", "ABXpy/score.py:51-119", "ABXpy/distances/distances.py:190-262"]}
{"id": "C112", "title": "The rows of the results, weighted by their numbers of triplets, give the mean score of all triplets", "statement": "For every run, with a threshold or without, the numbers of triplets of the rows of the results add up to the number of triplets of the task file, and the mean of the scores of the rows weighted by these numbers is the mean score of all triplets of the file, up to 2^-52; the same holds of the rows of each level and the triplets of that level. Two tasks that differ only in their regressors, run without threshold, score the same triplets of lines with the same scores; so the choice of regressors divides the triplets into other rows but does not change the total number of triplets, nor the weighted mean by more than 2^-51.", "quantifier": "for all item tables, tasks, regressors, thresholds, features, distances and choices of the runs", "why_tests_cant": "Relates all rows of a result file to all triplets, for all sizes and with an exact bound on rounding, and the outputs of all pairs of tasks with different regressors.", "anchors": ["ABXpy/analyze.py:61-139", "ABXpy/score.py:51-119", "ABXpy/task.py:569-700"]}
{"id": "C113", "title": "Features that tell the 'on' labels apart score 1, features that tell only the 'across' and 'by' labels score 1/2", "statement": "For every run, with a threshold or without, every row of the results is the rounded mean of the scores of at least one triplet of lines of the item table, each of them a triplet the task allows. So if every line is nearer to the lines with the same 'on' label than to the others, every score in the results is exactly 1; and if lines with the same 'across' and 'by' labels are at the same distance from every line, every score is exactly 1/2, whatever else the features tell about speakers, contexts and so on.", "quantifier": "for all item tables, tasks, regressors, thresholds, features, distances and choices of the runs", "why_tests_cant": "A claim about all rows of the results of all tasks, for all features with the stated property, with exact scores and no tolerance for rounding.", "anchors": ["ABXpy/task.py:569-700", "ABXpy/score.py:51-119", "ABXpy/analyze.py:61-139"]}
{"id": "C114", "title": "The rows of the results in terms of the lines of the item table; the order of the lines does not matter", "statement": "Without threshold, the results of a run of any task have exactly one row for each combination of labels of 'by' and values of the regressors that some triplet of lines of the item table has; the row gives the labels of the combination, the number of all triplets of lines with it, and the rounded mean of their scores, each triplet once, where the score of a triplet is the comparison of the distances between the records of its lines. Nothing else of the table, of the levels, blocks, pairs and buffers enters. With a threshold the combinations are the same, and each row is that of some of these triplets, each at most once: of all when there are at most threshold, else of threshold of them. So, without threshold, two runs on tables with the same lines and records in another order have the same rows, in some order, when the regressors are columns.", "quantifier": "for all item tables, tasks, filters, regressors, features, distances, orders of lines and choices of the runs", "why_tests_cant": "The description is exact for all tables and tasks, and the second part relates the runs on all pairs of reordered tables, where levels, item numbers, blocks, pairs and the codes of the labels are all different.", "anchors": ["ABXpy/task.py:187-246", "ABXpy/task.py:569-700", "ABXpy/dbfun/dbfun_column.py:13-37", "ABXpy/score.py:51-119", "ABXpy/analyze.py:61-139"]}
{"id": "C115", "title": "The rows of a level depend only on the lines of the level", "statement": "Without threshold, the rows of the results with given labels of 'by' depend only on the lines of the item table with these labels and on their records: if two tables have these lines in common, in any order and at any places, then the results of runs of the same task on them have the same rows with these labels, in some order, whatever the other lines and records are. Adding, changing or removing the lines of other speakers does not change the rows of a speaker.", "quantifier": "for all item tables, tasks, filters, features, distances, levels, lines of other levels and choices of the runs", "why_tests_cant": "It relates the runs on all pairs of tables that agree on one level; the other lines change the numbers of the items, the codes of the labels of the regressors, the blocks and the bins of the analysis.", "anchors": ["ABXpy/task.py:187-246", "ABXpy/task.py:569-700", "ABXpy/dbfun/dbfun_column.py:13-37", "ABXpy/score.py:51-119", "ABXpy/analyze.py:61-139"]}
{"id": "C116", "title": "The names of the labels and the scale of the distances do not matter in any task", "statement": "Without threshold, take two runs of a task, the second on the item table with other names for the labels of every column, different labels keeping different names, with filters that hold of the same triplets of lines, and with distances that are an increasing function of those of the first. Then the results of the second are those of the first with the new names, up to the order of the rows: the same numbers of triplets and exactly the same scores. So the sorted order of the labels, their codes and the hashing of labels do not enter the results. C100 says this of plain tasks; here there may be filters and regressors that are columns.", "quantifier": "for all item tables, tasks, filters, renamings, features, distances and choices of the runs", "why_tests_cant": "It relates the runs on all pairs of renamed tables; the new names change the order of the labels, the codes of the regressors and the order of the rows.", "anchors": ["ABXpy/task.py:187-246", "ABXpy/task.py:569-700", "ABXpy/dbfun/dbfun_column.py:13-37", "ABXpy/score.py:51-119", "ABXpy/analyze.py:61-139"]}
{"id": "C117", "title": "What further filters do to the results", "statement": "Without threshold, take two runs on the same item table with the same records, the second with further filters. Every row of the second has a row of the first with the same labels and at least as many triplets. If the further filters are a condition on the labels of the row of a triplet (of its columns and its level), the results of the second are the rows of the first whose labels meet the condition, with the same scores and numbers of triplets, up to their order: filtering before or after the computation is the same.", "quantifier": "for all item tables, tasks, filters, conditions on labels, features, distances and choices of the runs", "why_tests_cant": "It relates the runs of all pairs of tasks; a filter changes the levels, blocks, pairs, codes and buffers of the run.", "anchors": ["ABXpy/sideop/filter_manager.py:14-113", "ABXpy/task.py:187-246", "ABXpy/task.py:569-700", "ABXpy/score.py:51-119", "ABXpy/analyze.py:61-139"]}
{"id": "C118", "title": "Further regressors split the rows of the results", "statement": "Without threshold, take two runs on the same item table with the same records and filters, the second with further regressors that are columns. Every row of the second has its labels of the columns of the first in a row of the first. The number of triplets of a row of the first is the sum of those of the rows of the second with its labels, and with the total score of the triplets of each row, its score is the rounded mean of the sum of theirs: a finer analysis can be collapsed to the coarser one.", "quantifier": "for all item tables, tasks, filters, further regressors, features, distances and choices of the runs", "why_tests_cant": "It relates the results of all pairs of tasks with different regressors, whose task files, codes, sorts and groups differ.", "anchors": ["ABXpy/sideop/regressor_manager.py:21-32", "ABXpy/task.py:187-246", "ABXpy/task.py:569-700", "ABXpy/score.py:51-119", "ABXpy/analyze.py:61-139"]}
{"id": "C119", "title": "The columns of 'by' as filters and regressors", "statement": "Without threshold, take a run with 'by' columns, and a run on the same item table with the same records without 'by' columns, but with filters that A, B and X agree on these columns in addition and with regressors for their values in X. Then both have the same rows, with the same scores and numbers of triplets, up to the order, the labels of the level being among the labels of the regressors: the separate treatment of the levels, one after the other, is the same as one task that keeps the triplets within a level.", "quantifier": "for all item tables, tasks with 'by' columns, filters, regressors that are columns, features, distances and choices of the runs", "why_tests_cant": "It relates the runs of all pairs of such tasks; one has a data set, pairs and a sort for each level, the other only one for all.", "anchors": ["ABXpy/task.py:187-246", "ABXpy/task.py:569-700", "ABXpy/sideop/filter_manager.py:14-113", "ABXpy/score.py:51-119", "ABXpy/analyze.py:61-139"]}
{"id": "C120", "title": "Better distances have better scores", "statement": "Without threshold, take two runs of the same task on the same item table with other features or distances. If every triplet of lines scores in the second at least as much as in the first, then the rows of both have the same labels and numbers of triplets, and every score of the second is at least that of the first, in spite of the rounding.", "quantifier": "for all item tables, tasks, filters, features, distances and choices of the runs", "why_tests_cant": "It compares the runs of all pairs of distances, with any grouping and rounding of the means.", "anchors": ["ABXpy/score.py:51-119", "ABXpy/analyze.py:61-139", "ABXpy/analyze.py:126-139"]}
{"id": "C121", "title": "The columns of 'across' as filters and regressors", "statement": "Without threshold, take a run with 'across' columns, none of them an 'on' column, and a run on the same item table with the same records without 'across' columns, but with filters that B agrees with A and X differs from A on each of these columns in addition, and with regressors for their values in B and X. Then both have the same rows, with the same levels, scores and numbers of triplets, up to the order, the labels of the across columns being those of B and X: the pairing by 'across' values is the same as a filter on the triplets of a task without them.", "quantifier": "for all item tables, tasks with 'across' columns, filters, regressors that are columns, features, distances and choices of the runs", "why_tests_cant": "It relates the runs of all pairs of such tasks; one groups the items by the across columns to make the triplets, the other makes triplets of all items and filters them.", "anchors": ["ABXpy/task.py:187-246", "ABXpy/task.py:569-700", "ABXpy/sideop/filter_manager.py:14-113", "ABXpy/score.py:51-119", "ABXpy/analyze.py:61-139"]}
{"id": "C122", "title": "Similarities instead of distances", "statement": "Without threshold, take two runs of the same task on the same item table with other features or distances. If every triplet of lines scores in the second the opposite of its score in the first, as when all distances are subtracted from a constant, then the rows of both have the same labels and numbers of triplets, and the scores of corresponding rows add up to 1, with an error of at most 3 * 2^-53 from the rounding.", "quantifier": "for all item tables, tasks, filters, regressors that are columns, features, distances and choices of the runs", "why_tests_cant": "It compares the runs of all pairs of opposite distances, with any grouping and rounding of the means.", "anchors": ["ABXpy/score.py:51-119", "ABXpy/analyze.py:61-139", "ABXpy/analyze.py:126-139"]}
