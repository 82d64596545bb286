# Design

Subject: ojmakhura/hdbscan (C/C++), read as text from /repo at the pinned commit. Nothing in /repo was built, run or changed.
Prover: Lean 4.33.0 with single Mathlib modules. Everything is under `lean/Verif`.

## Layers

| layer | Lean modules in `Verif/Model` | code |
|---|---|---|
| outcomes | `Outcome` | results of a C call: ok, undefined behaviour, failed assertion, out of fuel |
| utilities, collections | `Utils`, `AList`, `SetT`, `Sort`, `HTable`, `Primes`, `LList`, `Histories` | modules/utils/src/utils.c, modules/collections/src |
| distances | `Distance`, `DistObj` (objects and their memory) | src/distance.c, src/distance.cpp |
| graph, spanning tree | `Graph`, `GraphObj` (objects and their memory), `Mst` | src/undirected_graph.c, src/undirected_graph.cpp, src/hdbscan.c 810-980 |
| hierarchy | `Cluster`, `Hierarchy` | src/cluster.c, src/hdbscan.c 79-100, 356-731 |
| threads | `Race`, `RaceRun` | interleavings of the loop src/hdbscan.c 669-679, alone and in whole runs |
| extraction | `Propagate`, `Again`, `Constraints`, `Outlier` | src/hdbscan.c 988-1195, src/cluster.c 149-199 and 220-228, src/outlier_score.c |
| post-processing | `ClusterMap`, `Stats`, `SkewKurt`, `SortClusters` | src/hdbscan.c 1205-1776, src/hdbscan.cpp 91-357 |
| whole calls | `Run`, `Api` | src/hdbscan.c 60-66, 109-133, 236-330 |
| whole calls on containers | `Concrete`, `ConcreteRun` | the lines of the rows hierarchy, extraction and whole calls once more, on array lists, sets, hash tables and pointers |
| compact hierarchy | `Compact` | hdbscan.c 236-268 with the stages called one by one and `compactHierarchy` chosen by the caller (hdbscan.h 335) |
| Python binding | `Python`, `PythonHeap` | modules/python/src/PyHdbscan.c 57-362: answers, reference counts, lifetime of shared memory |
| Java binding | `Java` | modules/java/src/Hdbscan.cpp and modules/java/src/bw/co/roguesystems/Hdbscan.java: programs with any number of objects |
| Keys of hash tables | `Keys` | `double_hash`, `float_hash`, `str_hash` (utils.c 344-380) and `strcmp` as used by hashtable.c: tables with floating point and string keys |
| printing | `Print`, `PrintCpp` | modules/utils/src/logger.c 49-121, src/hdbscan.c 1795-1980, src/distance.c 277-290, src/undirected_graph.c 266-326, src/cluster.c 131-133, src/hdbscan.cpp 191-230: the texts and the character arrays they are formatted in |
| file input | `Sample` | sample/tester.c 42-77 (`getDset`); `atof` is a parameter |
| index types | `IndexType` | CMakeLists.txt 36-37 and the index computations of src/distance.c for `unsigned short` and `unsigned long`; everything else is modelled for the default types |
| reports | `Report`, `FpStat` | the calls of sample/tester.c 138-175 and sample/tester.cpp 44-66 one after the other; `FpStat`: with distances of type double |
| C++ class | `Cpp` | src/hdbscan.cpp 45-89: programs with any number of objects and copies, their memory |
| memory of reports | `ReportHeap` | hdbscan.c 1205-1327, 1412-1540, 1628-1787: programs with any number of cluster maps, distance maps and lists of labels |
| layout | `Layout` | the structures of include/hdbscan as C and as C++ lay them out |
| doubles | `Binary64`, `Double`, `Fp` | IEEE 754 rounding and the arithmetic of src/distance.c 150-209, src/cluster.c 125, src/hdbscan.c 1180, 1412-1545 on doubles; `Fp` has infinities and NaN and all data types of distance.c 160-188 |
| CUDA | `Cuda` | modules/cuda/src/cuda_distance.cu 28-58 with `float` arithmetic and wrap-around |
| running out of memory | `Oom` | list.c 54-223, linkedlist.c 80-108, hashtable.c 116-147 and 337-435, src/hdbscan.c 109-330 and 810-980, src/undirected_graph.c 46-137, with an allocator that may refuse any request |
| running out of stack | `Stack` | the arrays of variable length of a run: src/distance.c 219-221, src/hdbscan.c 258-259, 368-369, 820 and 1000, src/undirected_graph.c 145-146, with limits for the calling thread and for the others |
| memory | `Heap` | allocation and release in src/hdbscan.c 109-330 and everything called from there; src/hdbscan.cpp 45-55 |

`Verif/Spec/*` holds the vocabulary of the theorem statements (what an ideal sequence, map, spanning tree, density component, ... is), written without
reference to how the model computes. `Verif/Props/*` holds the property theorems, each next to a concrete instance of its hypotheses.
`Verif/Lemmas/*` holds the proofs' helper lemmas and is not needed to read a statement.

## Trusted base

1. The Lean 4.33.0 kernel, and the Lean elaborator in so far as it shows the statement that the kernel checked.
2. The axioms listed below, all of them Lean's standard ones. No axiom is declared in this project; no `sorry`, `native_decide` or `bv_decide` is used.
3. The correspondence between `Verif/Model` and the C code. It is established by reading only. Each definition cites the lines it models and
   says in which respect it is simpler.
4. The statement that the specification modules say what properties.jsonl says in English.

Axioms per theorem of MANIFEST.json:

* no axioms: `C02_list_clear_violated`, `C15_remove_tail_then_add_violated`, `C95_destroy_null_violated`
* `propext`: `C02_clear_leaves_usable_violated`, `C07_remove_loses_other_key_violated`, `C08_remove_truncates_violated`, `C08_remove_overruns_violated`, `C09_use_after_clear_violated`, `C10_clear_destroys_keys_violated`, `C114_empty_violated`, `C116_cases`, `C15_remove_middle_violated`, `C16_nan_not_an_order`, `C19_core_distance_violated`, `C19_core_distance_too_large`, `C21_violated_nan`, `C37_violated`, `C39_large_ids`, `C42_violated`, `C44_empty_ub`, `C46_nan_diverges`, `C47_violated`, `C48_empty_aborts`, `C52_size_partial`, `C86_violated`, `C98_leak_violated`, `C98_constructor_violated`
* `propext`, `Quot.sound`: `C114_any`, `C114_blank_violated`, `C114_long_violated`, `C114_form_feed`, `C114_in_bounds`, `C114_missing`, `C117_short_violated`, `C117_long_violated`, `C12_find_prime_violated`, `C13_get_prime_partial`, `C13_get_prime_is_successor`, `C24_remove_outside`, `C25_nan_diverges`, `C34_concrete`, `C37_sequential_partial`, `C37_wrong_labels`, `C38_violated`, `C41_short_aborts`, `C49_zero`, `C53_detach_partial`, `C65_rebind_violated`, `C66_map_violated`, `C67_keeps_partial`, `C67_violated`, `C70_full`, `C81_reading`, `C81_construct_violated`, `C81_null_violated`, `C81_ragged_violated`, `C81_rerun_violated`, `C81_delete_violated`, `C81_long_rows`, `C82_cluster_map`, `C82_partition`, `C86_plain_partial`, `C86_library`, `C86_shifted`, `C86_outlier_scores_violated`, `C93_node_partial`, `C93_violated_node`, `C93_violated_entry`, `C98_cleaned_violated`, `C99_concrete`
* `propext`, `Classical.choice`, `Quot.sound`: all other theorems of MANIFEST.json (401)

## Conventions and simplifications

* Undefined behaviour, failed `assert` and running out of loop fuel are separate outcomes
  (`Outcome.ub`, `Outcome.abort`, `Outcome.diverge`), so "the call returns" is a statement, not an assumption. Loops whose end is not
  obvious take fuel and the theorems prove that it suffices; non-termination is proved as "out of fuel for every amount of fuel".
* Configuration: the default build, that is `label_t` = `index_t` = `unsigned int` (32 bit), `distance_t` = `double`, 64-bit `size_t`, `assert` active,
  OpenMP on.
* `distance_t` values that are only compared are elements of a linear order `W` (the non-NaN doubles; -0 does not occur because distances are square
  roots of sums of squares). Where NaN or infinities matter the model is written over a comparison class (`CCmp`) so that a type with NaN (`Fl`) can be
  plugged in; witnesses with NaN use it.
* Arithmetic on coordinates, stabilities, scores and statistics is a record of operations. Theorems that quantify over the record hold for IEEE
  arithmetic with rounding; theorems "in exact arithmetic" instantiate it with an ordered field. Rounding to IEEE doubles (nearest, ties to even, gradual underflow) is modelled
  in `Binary64`; `Double` are the finite doubles without a largest exponent (C40, C43, C61, C62), `Fp` are floats and doubles with overflow, infinities and NaN, without
  signed zeros (C71, C74, C89).
* `index_t`, `label_t`, `size_t` are `Nat`; 32-bit wrap-around is modelled where it can matter (packed matrix indices, sizes, detach counts, id comparison).
* Memory allocation never fails, except in `Oom` (C93). Arrays of variable length never overflow the stack, except in `Stack` (C96); the constant part of the frames is not counted.
* Parallel loops: every loop whose iterations touch different memory takes the order of its iterations as a parameter and theorems hold for all orders.
  The loop that has a data race (hdbscan.c 669-679) has its own interleaving model (`Race`, and `RaceRun` for whole runs, C63); in the other layers its iterations are executed one after the other.
* From the hierarchy layer upward, sets of points are sorted lists and hash tables are finite maps. The refinement of the real containers to these is C01-C06 for single
  operations; for whole runs and reruns C69 proves that the model on containers and pointers (`Concrete`, `ConcreteRun`) completes with the same results.
* `qsort` is any function with the contract of the C library.

## Which code is modelled

Modelled (file and function lines in /repo; numbers are first lines):

* modules/utils/src/utils.c: the integer comparison functions, `double_compare`, pointer comparison, `get_htype_size`, integer and string hashes, `highestPowerof2`.
* modules/collections/src/list.c: all functions except `array_list_print`; `array_list_sort` takes `qsort` as a parameter. The memory of a list is its slots; a slot holds one element.
* modules/collections/src/set.c: all functions except `set_print`.
* modules/collections/src/hashtable.c: init, insert, lookup, remove, clear, destroy, size, empty, entry destruction. Entries are a heap with `next`/`prev` pointers.
* modules/collections/src/linkedlist.c: all functions. Nodes are a heap; the block of the list itself, which `linkedlist_delete` frees last, is not on it.
* modules/collections/src/primes.c: all functions.
* src/distance.c: init (contents), get 114, compute 137, core distances 216, print 277.
* src/undirected_graph.c, src/undirected_graph.cpp (objects and their memory: `GraphObj`): init 46, destroy and clean 103-138, both sorts 140-244, remove_edge 253, print 266.
* src/cluster.c: init 54, detach 122, propagate 149, virtual child 202-219, compare 237. Constraint counts 220-228 (`Constraints`; nothing in the library calls them, a program can).
* src/outlier_score.c: compare 64.
* src/hdbscan.c: get_dataset_size 60, create_new_cluster 79, init 109, clean functions 140-228, do_run 236, rerun 277, run 304, compute_hierarchy 356,
  create_hierarchy_entry 726, construct_mst 810, propagate_tree 988, find_prominent 1077, outlier_scores 1155, create_cluster_map 1205, get_min_max 1249,
  skew_kurt_1 1340 and skew_kurt_2 1368 (with all interleavings of their threads: `SkewKurt`), the statistics 1412-1545, quicksort 1556-1616, sort_by_similarity 1628, sort_by_length 1717,
  the printing functions 1795-1980.
* modules/utils/src/logger.c: getDateString 49, logger_write 81, as compiled without DEBUG.
* src/hdbscan.cpp: constructors, copying, destructor, `run`, `reRun` and `clean` (memory), createClusterMap 91, getMinMaxDistances 103, calculateStats 157, printClusterMap 191, printClusterSizes 206, printDistanceMap 215, sortBySimilarity 239, sortByLength 287, quickSort 318.
* sample/tester.c 42-77: `getDset`.
* sample/tester.c 138-175, sample/tester.cpp 44-66: the sequence of calls that makes a report.
* modules/python/src/PyHdbscan.c: new, init, dealloc 76-142, get_labels 150, run 174, rerun 248, getClusterMap 275, getHierarchies 309, attribute table 354.
* Allocation and release (`Heap`): all init/destroy/delete functions reached from hdbscan_init, run, rerun, clean and destroy.
* include/hdbscan: the members of `hdbscan`, `distance`, `distance_values`, `clustering_stats`, `hierarchy_entry`, `outlier_score`, `undirected_graph`, `cluster`, `constraint` (x86-64 System V layout, Itanium C++ ABI).
* modules/cuda/src/cuda_distance.cu: all functions.
* modules/java: Hdbscan.cpp 45-98 and Hdbscan.java 32-124. The global `scan` has static storage, so its bytes are zero before its constructor runs. Left out: local references, the stack,
  threads of the JVM.

Not modelled:

* `print_distances` 738, `print_graph_components` 774, the print functions of the collections and of src/cluster.c; logging to a file (DEBUG), file input other than `getDset`, timing.
* src/constraint.c and `hdbscan_calculate_num_constraints_satisfied` 339: a stub without effect in this commit.
* `hdbscan_destroy_hierarchical_entry` outside the life of an object.
* modules/cuda except cuda_distance.cu, the sample of modules/java, examples, tests, build files. Of modules/python: the module initialisation and the reference counts of data sets and of integers in lists.

## Where the code disagrees with the intended properties

Each is proved as a theorem with `violated` (or a more specific word) in its name; the property then has a `_partial` theorem for the part that holds.

| property | disagreement | theorem |
|---|---|---|
| C02, C09 | `array_list_clear(list, 1)` shrinks the block but keeps `max_size`; the next insertions write outside the block. `hashtable_clear` does this to the key set. | `C02_list_clear_always_violated`, `C09_use_after_clear_violated`, `C09_every_use_after_clear_violated` |
| C07 | `hashtable_remove` does not restore the back pointer of the following entry; a later removal loses another key. Exact boundary: `C07_exact_partial` | `C07_remove_loses_other_key_violated`, `C07_lost_keys_violated` |
| C08 | `hashtable_remove` copies as many bytes as the key has | `C08_remove_truncates_violated`, `C08_remove_overruns_violated`, `C08_other_sizes_violated` |
| C10 | `hashtable_clear` with a key destructor destroys the smallest key of a bucket once for every key in it. Exact: `C10_keys_exact_partial` | `C10_clear_destroys_keys_violated` |
| C12, C13 | the prime search answers 0 for 71 primes and everything from 1214 on (exactly: `C12_wrong_exactly`); `get_prime` returns its argument plus one | `C12_find_prime_violated`, `C13_get_prime_is_successor` |
| C15 | removing a middle or the last element of a linked list loses the back pointer or the tail. Exact boundary: `C15_exact_partial` | `C15_remove_tail_then_add_violated`, `C15_remove_middle_violated`, `C15_wrong_calls_violated` |
| C16 | `double_compare` is no order with NaN | `C16_nan_not_an_order` |
| C17 | with more than 65536 points the size of the packed matrix wraps and writes leave the matrix | `C17_limit_violated`, `C17_beyond_violated` |
| C18 | integer data: the difference of two coordinates can overflow | `C18_int_overflow_violated` |
| C19 | the search for the place of a distance returns the lower bound of the interval when it meets an equal distance, so the array of nearest distances becomes unsorted and core distances with ties are wrong (too small or too large; with any number of points possibly the largest distance of all) | `C19_core_distance_violated`, `C19_core_distance_too_large`, `C19_farthest_violated` |
| C21 | distances of D_MAX, infinity or NaN: no spanning tree; self edges off: write outside an array | `C21_violated_dmax`, `C21_violated_nan`, `C21_no_self_edges_violated` |
| C24 | one call removes a repeated self edge twice | `C24_violated_double_self_edge` |
| C25, C46 | NaN: the hierarchy loop and the quicksort do not end | `C25_nan_diverges`, `C46_nan_diverges`, `C46_nans`, `C46_nan_first` |
| C37 | `newCluster` is shared between threads: offsets are lost, labels are wrong | `C37_violated`, `C37_wrong_labels` |
| C38 | an infinite stability is not equal to D_MAX and is not reported | `C38_violated`, `C38_never` (every run on finite doubles) |
| C39 | ids from 2^31 on are not ordered | `C39_large_ids` |
| C40 | a hierarchy that never splits: every outlier score is negative; rounding: the score of a far point is 1 | `C40_unsplit_negative`, `C40_rounding_violated` |
| C41 | ranges of one or two indices abort | `C41_short_aborts` |
| C42 | a first core distance of 0 stays the minimum; clusters without a non-zero distance report D_MIN, D_MAX | `C42_zero_first`, `C42_no_distance` |
| C44 | the variance is added to what the record held; an empty map divides by zero | `C44_second_call`, `C44_empty_ub` |
| C47, C48 | `hdbscan_sort_by_similarity` uses the i-th label of the table, not of the list; empty lists abort | `C47_violated`, `C48_empty_aborts` |
| C49 | rerun with minPoints 0 is undefined | `C49_zero` |
| C50 | destroying an object that was not run reads uninitialised pointers; a second run leaks; the C++ `clean()` frees the object | `C50_unused_object_violated`, `C50_second_run_leaks`, `C50_cpp_clean_violated` |
| C51 | fewer than 5 points abort, more than 65536 are undefined behaviour | `C51_violated`, `C51_large_violated` |
| C52 | rowwise not 1 with several columns reads outside the matrix | `C52_violated` |
| C53 | detaching too many points wraps around and reports success | `C53_violated` |
| C61 | with ties the order of the rows decides the result: the same eight points are all noise in one order and two clusters in another (consequence of C19); with rounding the terms of a stability are added in the order of the rows, which decides between one cluster and three | `C61_violated`, `C61_rounding_violated` |
| C62 | scores of a hierarchy that never splits depend on the unit of length (consequence of C40); with rounding final clusters depend on it too | `C62_unsplit_violated`, `C62_rounding_violated` |
| C63 | the points of any cluster can become noise, depending on the timing of threads (consequence of C37) | `C63_violated`, `C63_hasty` |
| C65 | all PyHdbscan objects share one struct: a second object changes the results of the first, deleting one destroys the data of all | `C65_violated`, `C65_last_object_wins`, `C65_rebind_violated`, `C65_delete_violated` |
| C66 | refused Python calls give up references (labels, cluster map) and a refused constructor cleans the shared struct | `C66_rerun_violated`, `C66_map_violated`, `C66_construct_violated` |
| C67 | arrays of getHierarchies look into memory that a rerun or a deletion releases | `C67_violated`, `C67_memory_violated` |
| C68 | the Python binding never releases the struct nor the tables of cluster maps; a second object loses the memory of the first | `C68_violated`, `C68_second_object_violated` |
| C75 | points with no distance below D_MAX to the part of the tree built so far are attached to row 0 with weight D_MAX; if row 0 is among them it is attached to itself and its group is never visited: groups farther apart than D_MAX are lost, depending on the order of the rows, and outlier scores become negative | `C75_violated` |
| C76 | numbers are formatted into character arrays of 20 to 1200 characters that do not hold 309 digits: a distance of 10^11 overflows the array of `distance_print`; a core distance of D_MAX, which every row with fewer than minPoints distances below D_MAX has, overflows that of `hdbscan_print_outlier_scores`, and so do the scores of a run whose hierarchy never splits if a point becomes noise at a level of 1 or more | `C76_distances_violated`, `C76_run_violated`, `C76_scores_run` and the last parts of the other C76 theorems |
| C78 | `hdbscan_print_hierarchies` with a file name appends to an uninitialised character array | `C78_file_violated` |
| C79 | the ratios of the statistics are 0/0 or infinite on groups of identical points, all confidences become NaN, and sorting by similarity (as the sample programs do) never ends | `C79_intra_violated`, `C79_core_violated`, `C79_violated` |
| C80 | all Java objects share one global struct: a run uses the minPoints of the object constructed last, a `reRun` the rows that any object ran last, and a `reRun` after the construction of another object follows a null pointer | `C80_violated`, `C80_other_data`, `C80_rerun_violated` |
| C81 | the Java binding checks nothing: `new Hdbscan(1)`, null, empty and ragged arrays, fewer than five rows and `reRun` before `run` end the process; `delete` instead of `delete[]` in every run | `C81_construct_violated`, `C81_null_violated`, `C81_ragged_violated`, `C81_small_violated`, `C81_rerun_violated`, `C81_delete_violated` |
| C83 | `double_hash` and `float_hash` convert the key to `size_t`: undefined for NaN, infinities, numbers up to -1 and from 2^64 on | `C83_violated` |
| C84 | string keys are hashed and compared by the bytes of their address, not by their text | `C84_same_text_violated`, `C84_other_text_violated` |
| C85 | a C++ object that is never run, a copy, `clean()`: unassigned pointers are read or blocks are released twice; a second run leaks | `C85_unused_violated`, `C85_copy_violated`, `C85_clean_violated`, `C85_second_run_leaks` |
| C86 | in C++ the headers declare virtual destructors, so C++ programs read the members of outlier scores, clusters and graphs eight bytes behind their place | `C86_outlier_scores_violated`, `C86_graph_violated`, `C86_cluster_violated`, `C86_last_member_violated`, `C86_violated` |
| C87 | with repeated distances a larger minPoints can join points (consequence of C19) | `C87_violated` |
| C89 | squares of differences below 2^-538 are 0: different points have distance 0; squares of differences above 2^512 are infinite; differences of `float` data above 2^128 are infinite | `C89_underflow_violated`, `C89_overflow_violated`, `C89_float_violated` |
| C90 | the CUDA kernel finds its rows with a single precision square root: from 4098 rows on a thread compares a row with itself; its cells are not where `distance_get` looks; squares outside the range of float | `C90_pairs_violated`, `C90_zero_violated`, `C90_layout_violated`, `C90_range_violated` |
| C91, C92 | wrong core distances with repeated distances (C19): a small error, or an additional row, separates points | `C91_violated`, `C92_violated` |
| C93 | memory running out: a failed `array_list_append` loses and leaks the elements; `array_list_insert_at`, new table entries, linked list data, distances, core distances, tree weights and adjacency lists are written to through NULL; failures of the cluster list and of the tables go unnoticed; after reported errors `hdbscan_destroy` reads an unassigned pointer or leaks | `C93_violated_lost`, `C93_violated_insert`, `C93_violated_node`, `C93_violated_entry`, `C93_violated_run`, `C93_violated_destroy`, `C93_violated_leak`, `C93_violated_unnoticed` |
| C95 | `distance_compute` on an object that holds a data set overwrites its pointers (leak; exactly then: `C95_leak_exact`); reading an empty object, destroying a copy of a C++ `Distance` and `distance_destroy(NULL)` are undefined; a column equal to the number of rows gives the distance of another pair | `C95_leak_violated`, `C95_early_violated`, `C95_copy_violated`, `C95_destroy_null_violated`, `C95_outside_violated` |
| C96 | `sortedDistance[numNeighbors+1]` is on the stack, twice on the calling thread: a minPoints above 2^19, which `hdbscan_init` accepts also for five points, overflows a stack of 8 MiB | `C96_stack_violated` |
| C97 | with several threads the race of C37 can leave a single label | `C97_single_violated` |
| C98 | `graph_init` on an object that holds a graph overwrites its pointers (leak of exactly the blocks of the old graph); the constructor of the C++ class passes null lists, which `graph_init` reads; cleaning a copy, or using a cleaned graph, is undefined | `C98_leak_violated`, `C98_constructor_violated`, `C98_copy_violated`, `C98_cleaned_violated` |
| C99 | constraint counts of 2^32 or more in total wrap around | `C99_wrap_violated` |
| C100 | every thread subtracts the correction of the kurtosis from the shared field (hdbscan_skew_kurt_2); products of 32-bit integers wrap around | `C100_threads_violated`, `C100_kurtosis_exact`, `C100_wrap_violated` |
| C31, C101 | the rounded stability of a cluster can be 0 | `C101_positive_violated` |
| C34, C102 | the selection made with rounded sums need not be the best one; it is nearly so | `C102_optimal_violated`, `C102_nearly_optimal` |
| C103 | with several threads a group of equal rows can be lost (race of C37) | `C103_violated`, `C103_threads` |
| C103, C105 | outside their quantifiers: if squares of differences underflow or overflow, groups of equal rows are not found; if distances overflow, points stay in cluster 1 after it has split, so that a dense group is noise and has negative outlier scores | `C103_conditions`, `C105_overflow_violated` |
| C106 | differences of `float` data are rounded to `float` before the conversion to `double`; the cluster tree differs from that of the same numbers as `double` | `C106_violated` |
| C107 | scores of a hierarchy that never splits depend on the unit of length although the data are only multiplied by 2 | `C107_unsplit_violated` |
| C109 | `linkedlist_lookup` with removal never frees the node; removing an element whose neighbour in front was removed leaks all elements in front of it | `C109_lookup_violated`, `C109_left`, `C109_cut_violated` |
| C110 | calling `hdbscan_propagate_tree` again adds to the total stabilities and selected clusters of the earlier call; labels change and depend on the schedule | `C110_violated` |
| C111 | the order of the columns changes the rounding of the distances, and ties decide about clusters; an infinite constant column makes all distances NaN | `C111_order_violated`, `C111_infinite_violated` |
| C112 | moving `double` data rounds them | `C112_violated` |
| C113 | the difference `-2 ^ 31` of two values of type `int` is computed, the mirrored difference overflows | `C113_violated` |
| C114 | blank lines count as rows; lines are read 2047 characters at a time, each part is a row and numbers are cut; the empty file divides by zero; the message for a file with a long name that cannot be opened overflows its buffer | `C114_blank_violated`, `C114_long_violated`, `C114_cut_violated`, `C114_empty_violated`, `C114_missing` |
| C116 | NaN is stored each time it is inserted and never found; enough of them hide all numbers of the set, which are then stored twice | `C116_nan_violated`, `C116_hidden_violated` |
| C117 | with `unsigned short` as index type the size of the matrix overflows from 46341 rows on; with `unsigned long` the limit is still 65536 rows, since the triangular number has 32 bits | `C117_short_violated`, `C117_long_violated` |
| C118 | a removal that loses keys (C07) leaks the entries of all newer keys of the bucket | `C118_lost_violated` |
| C121 | if the hierarchy never splits, a row that stays to level 0 has score 0 and rows farther out have negative scores | `C121_violated` |
| C124 | two well separated groups are all noise if repeated distances make core distances wrong (consequence of C19); with the data race of C37 a whole group is noise | `C124_ties_violated`, `C124_race_violated` |
| C125 | the same with scattered rows around the groups | `C125_ties_violated`, `C125_race_violated` |
| C126 | a row far from two groups with repeated distances gets a negative score (consequence of C19 and of the scores of a hierarchy that never splits) | `C126_violated` |
| C127 | with repeated distances two rows far away change the core distance of a row from 0 to 97 and make it noise (consequence of C19) | `C127_violated` |

Also read in the code, without a property of its own: `graph_select_pivot_index` never uses its median-of-three branch, and
`cluster_release_virtual_child` destroys the parent.

## How the properties are proved

* C01-C05: slots, size and capacity of the list; refinement to `List` by induction on histories.
* C06-C10: chained entries with pointers; representation invariant; refinement to a finite map.
* C11-C13: total models of the prime search; exact characterisation.
* C14-C15: nodes in a heap; refinement to `List`. For removals, the invariant says which back pointers are intact (Lemmas/Marks), and the account kept in Spec/Marks
  decides which histories go wrong; the same for the buckets of the hash table (C07, Lemmas/Buckets, Spec/Buckets).
* C16: order laws outright.
* C17-C20: packed index arithmetic with explicit wrap; insertion loop of the core distances.
* C21-C22: invariant of Prim's loop; bottleneck characterisation by induction on the attachment order.
* C23-C24: loop invariants on arrays; permutation; stack bound.
* C25-C31, C54: invariant of the level loop relating labels to the connected components of the remaining graph.
* C32-C36: invariant of the propagation loop; optimality by induction over the tree.
* C37: interleaving semantics of the offset loop.
* C38-C40, C56: order laws, sortedness, range; meaning of eps and epsmax through the hierarchy invariant.
* C41-C48, C57, C58: loop invariants over lists and maps.
* C49, C51, C52, C55: composition of the stages.
* C50: separation-logic triples for the memory effect of every function; the protocol of calls as an automaton.
* C59, C60: congruence of the whole run in the distances; equal rows are connected at every level.
* C61, C62: two runs side by side. The spanning trees may differ, but connectivity below each level agrees (`Corr.Twin`), so the hierarchy lines correspond (`Corr.twin_line`); this determines the renaming of clusters (`Corr.Ren`), which carries births, parents, deaths and stabilities over (`Corr.twin_stab`), and the selection of clusters is unique (`Corr.Iso.best_sub`).
* C62 (`C62_order`): the program is parametric in its distances. `Lemmas/Param.lean` and `Lemmas/ParamRun.lean` show, function by function, that two runs on related numbers, on which `<` and `=` agree, stay related (`fresh_rel`); the two data types and arithmetics may differ.
* C107: the same parametricity with stabilities that are related only as sums of few terms (`Lemmas/ParamSel.lean`, `Lemmas/ParamCount.lean`: a potential argument bounds the number of terms in any propagated sum), and the lemmas that rounding commutes with powers of two unless a result is subnormal (`fl_scale`), where sums are exact (`fl_scale_grid`).
* C108: parametricity again, between the model without NaN (`numEnv`) and the model with NaN (`fpEnv doubleOps`) on finite data (`Lemmas/NumFp.lean`): sums of squares are not negative, so that no operation meets inf - inf or the root of a negative number. `C108_models` states that both models have the same results, so that what C104, C105 and C107 say of the former holds of the latter.
* C109: a set of addresses with its cardinality, kept along every call; for histories that go wrong, a list with the same nodes and another size is cleared in step (`Lemmas/LListMem.lean`).
* C110: an invariant of the examination of clusters in any order and any number of times (`AInv`: what each cluster keeps of its subtree; `GInv`: the lists of selected clusters refine the first ones as long as sums never fall, `Lemmas/Again.lean`).
* C113: rounding to even commutes with the sign (`Mirror.roundEven_neg`), so differences change their sign only and squares do not change.
* C114: induction over the lines of the file, each read into one buffer (`Sample.chunks_line`), and over the fields of a line (`Sample.tokens_line`).
* C115: one more parametricity argument (`Lemmas/ReportScale.lean`): the report only compares distances with each other, with 0, D_MIN and D_MAX, and divides them; distances that are zero or lie strictly between D_MIN and D_MAX in both units pass all comparisons alike, and quotients are the same. The runs themselves are related by the lemmas of C107 and C108.
* C116: the searches are followed for an arbitrary comparison function (memory) and for one that answers -1 from the middle of the range on (NaN at the end); without NaN the comparison agrees with a total order, for which C05 holds.
* C117: the index computations with the conversions of each type (`Model/IndexType.lean`), compared with those for `unsigned int` (C17); labels by the bounds of C64.
* C118: the number of allocated entries is an invariant of all calls; in a faithful image of a map it leaves no room for entries outside the chains, and clearing gives back exactly the entries in chains. For arbitrary histories the table is compared with a map that loses keys (`Spec/LossyMap.lean`); the keys set and the size may then count more than the chains hold.
* C119: the second smallest of distances that include the row's own zero is the distance of the nearest other row, so that mutual reachability is the distance itself; the rest is C26 and C27.
* C120: labels have at least minPoints rows each and never occur alone (C97), so that two disjoint groups of minPoints rows would be needed; losses in the data race only remove labels (C63).
* C121: last lines and their labels are unique (C27), the lowest death level depends on the cluster only (C56), and `1 - a / e`, also when rounded twice, grows with `e`.
* C122: a cluster has another row that is reached in steps below its birth level (C97); the first step bounds the distance of the nearest row.
* C123: after the last line of a childless cluster its rows can only be noise, since any new label would be that of a child; so noise level, death level and lowest death level coincide (C30, C54, C56).
* C124: in the line of the largest weight up to δ the labels are the groups. Labels of a point follow the tree downwards, so the clusters of that line are a selection. Each point contributes more to its cluster of that line than to any other cluster, so that every other selection has a smaller sum of stabilities (C31), and the sum is maximal (C34).
* C125: the selection consists of the clusters of that line and the leaves without any of their rows. If a selection leaves out the cluster of a group, each of its at least m rows contributes less by a fixed amount, and each of the N scattered rows contributes at most 1/Δ.
* C126: a row of a group leaves the hierarchy at a level of at most δ, a scattered row at one of at least Δ. The last cluster of a scattered row has at least m rows, so one of a group; that row goes on into a cluster at or below it, where the lowest death is at most the level at which it leaves.
* C127: a core distance below Δ is decided by near rows only. A path of steps below Δ that starts at a near row stays among the near rows, so components below Δ are the same; the lines are these components (C26).
* C40, C49, C55, C61, C62, C71, C72, C87, C91, C92, C107, C108, C119, C127 with any interleaving of threads: the race changes offsets and labels only, so core distances and hierarchy are those of one thread (C63).
* C111, C112: the sum over the columns as a fold over a list of columns (`Lemmas/Columns.lean`); runs whose sums agree agree, outcome by outcome (`fresh_sums`).
* C63: a simulation. A state in which offsets were lost is the sequential state with these offsets set to 0 (`Race.forget`); every function of the construction commutes with `forget`, because none but the labelling stage reads an offset; there a lost cluster is looked up in line 1, where every label is 1. Conversely `Race.losing` gives an interleaving for every admissible loss.
* C27_levels: an edge of the sorted spanning tree connects two new components at its weight and conversely (`sorted_mst_meets`); a line exists for a weight iff an edge of this weight lies in a component of at least minPoints points.
* C64: every cluster that has no children holds minPoints points of its own, disjoint from those of all others (`Hier.leaf_top`), and a tree whose inner nodes have two children has fewer inner nodes than leaves (`Hier.cluster_count`).
* C65-C67: a state machine of the binding; the replies of a session are compared with what the C library computes (C55). C68: the triples of C50 and an invariant that accounts for every block that is no longer reachable.
* Compact hierarchy (C70): the two constructions run in lockstep; the clusters of the compact one are those of the full one with every offset replaced by `number`, the count of kept lines
  up to it. `number` is injective on offsets and `number (k + 1) = number k + 1` for offsets `k`, so grouping and labelling find the same lines.
* Arbitrary data (C63, C64, C69): no comparison is assumed to be an order when the sizes are bounded (`Hier.compute_count`): the number of clusters plus twice the number of affected vertices plus four times
  the number of edges left never grows. With the bounds the refinement of C69 and the simulation of C63, which are proved for any comparisons, apply to the runs that C71 describes.
* Containers (C69): `Refines R c p` says that whenever the abstract computation returns `x`, the one on containers returns some `y` with `R y x`. It is
  composed along the code, function by function. Labels below 2^31 (from C64) make the comparison of `unsigned int`s through `int_compare` lawful. The hash
  table of the selected offsets is visited in the order of its key set, which is another order of the steps of the labelling loop; the abstract run is
  taken with the schedule that has this order.
* Arbitrary data (C71-C75): NaN is put on top of the numbers, which is a linear order (`Cut.nanTop`). The code compares such values only with values that are at most D_MAX, where the IEEE comparisons agree with
  this order (`Cut.Cmp`), so a run with IEEE comparisons equals a run with the order (`Cut.full_eq`, stage by stage). For the order the invariants of C21-C36 are redone for graphs that need not be connected
  (`Mst.construct_any`, `Hier.any_rep`, `Run.full_any`).
* Printing (C76-C78): a `double` is a sign and a rational magnitude, or NaN, or infinite; `%.pf` gives its exact decimal expansion, correctly rounded, as in the GNU C library. The array a text is
  formatted in is a list of characters that may be indeterminate; writing outside it and reading indeterminate characters are undefined behaviour. A text fits iff its length is below that of the
  array, and the length is computed from the magnitude (`fmtF_plain`).
* Reports (C79): an invariant of the record of a group under all updates (`Report.Steps`) for arbitrary values; the ratios and confidences follow from laws of IEEE division and subtraction that are stated
  as hypotheses (`NumLaws`, `SpecialLaws`) and proved for an example arithmetic with infinities. Sorting numbers is the sort of C46; with two NaN among three or more values the loop of `partition` repeats forever: neither inner loop passes a NaN, so both stay between its two positions (`partLoop_stops`).
* C80-C82: a book of what every object was asked for is kept along a program; the invariant relates it to the fields of the objects and the global struct. Whether `delete` of an
  array releases it is a parameter (`Platform`). The Java table is an association list whose order has no meaning.
* Keys of hash tables (`Keys`): what hash and comparison see of a key is an *observation*, which may be undefined; a table of keys is the table of C06 with observations as keys. Floating point numbers are
  rationals, two infinities and NaN. The result of `strcmp` is only modelled up to its sign. A key of type `char *` is an address of 8 bytes, least significant byte first.
* C85: the triples of C50 for every object; the blocks of all objects of the program are accounted for together. C86: offsets as a fold over the members; the bytes of an array as concatenated elements.
* C87: order statistics are monotone in the index and reachability in the edge weights; the levels are those of C55.
* Doubles (C40, C43, C61, C62, C89): `fl` is the nearest double (`fl_nearest`), monotone and exact on doubles; the square root is computed on rationals and proved to be the rounded real root (`flSqrt_spec`).
* Rounded stabilities (C101, C102): `doubleArith` has no overflow; the bounds of C101 keep all stabilities and their partial sums below twice the sum of the reciprocal levels, so that none occurs
* Groups of equal rows (C103): `numOps`, `numArith` and `numEnv` are IEEE 754 double arithmetic with infinities on finite data; distances are numbers or infinite, `Fp.toNum` maps NaN to infinity but no NaN distance occurs for finite data. Stabilities keep NaN (`Dbl`); that none occurs outside the root is part of the proof.
* Stabilities of a run (C104): the same arithmetic; `Lives` names the points of a cluster and the levels at which they leave, `ideal` and `reciprocals` are sums of rationals without rounding. Distances may overflow: D_MAX then takes their place as a level, and every other level is a finite distance, 0 or between 2^-537 and 2^512 (`Lemmas/NumAny.lean`). Finite stabilities are those of `doubleArith` (no overflow can occur), so the error bound of C101 applies; the root's terms are NaN because its birth level is.
* Scores of a run (C105): `fpScore.ratio` would turn a NaN into 0 because scores are ordered by a linear order; the theorem states that the IEEE expression itself equals the reported number, so that no NaN is hidden.
* Data types (C106): the outcomes of two runs of the same model with different element types are compared; nothing but `diff` depends on the type.
  when the weights are at least 2^-900. The birth level NaN of the root is replaced by a stability 0 of the root, which no statement uses.
  The error of a sum of squares is followed column by column (`partialSum_spec`). With overflow (`Fp`), the sums are those of the doubles without overflow as long as coordinates are at most 2^480 (`fp_fold`); a value that is not
  finite makes the sum NaN or infinite (`lost_fold`). Runs on doubles are evaluated by the kernel.

## Seeded defects

`seeded/LOG.jsonl` lists the edits made to copies of the model, the claim each breaks and the theorems that no longer prove. An edit that repairs the code
makes the `_violated` theorems fail. Theorems that survived an edit which breaks their English claim were tightened; the log says which.
