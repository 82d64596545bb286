{
 "claims": [
  {
   "property": "C01",
   "status": "proved",
   "theorems": [
    "Verif.Props.C01_arraylist_is_sequence"
   ],
   "note": "Full statement, every legal history."
  },
  {
   "property": "C02",
   "status": "partial",
   "theorems": [
    "Verif.Props.C02_clear_without_resize_partial",
    "Verif.Props.C02_clear_leaves_usable_violated",
    "Verif.Props.C02_list_clear_violated",
    "Verif.Props.C02_list_clear_always_violated"
   ],
   "note": "The code violates the property (clear with resize shrinks the block but keeps max_size); negation proved in general, property proved for clear without resize."
  },
  {
   "property": "C03",
   "status": "proved",
   "theorems": [
    "Verif.Props.C03_unsorted_find_first"
   ],
   "note": "Full statement."
  },
  {
   "property": "C04",
   "status": "proved",
   "theorems": [
    "Verif.Props.C04_sorted_find_exact"
   ],
   "note": "Full statement."
  },
  {
   "property": "C05",
   "status": "proved",
   "theorems": [
    "Verif.Props.C05_set_is_ordered_set",
    "Verif.Props.C05_membership"
   ],
   "note": "Full statement, every history."
  },
  {
   "property": "C06",
   "status": "proved",
   "theorems": [
    "Verif.Props.C06_hashtable_is_map"
   ],
   "note": "Full statement, heap-level chains, every history of inserts and lookups."
  },
  {
   "property": "C07",
   "status": "partial",
   "theorems": [
    "Verif.Props.C07_safe_history_partial",
    "Verif.Props.C07_exact_partial",
    "Verif.Props.C07_every_history",
    "Verif.Props.C07_lost_keys_violated",
    "Verif.Props.C07_remove_exact_partial",
    "Verif.Props.C07_first_remove_exact_partial",
    "Verif.Props.C07_remove_loses_other_key_violated"
   ],
   "note": "Violated by the code (middle removal breaks the back pointer); negation proved; the exact boundary is proved: a history behaves like the map (also for every later lookup) if and only if it is safe, i.e. no key is removed whose link to the next newer key of its bucket was lost, unless it is the newest; every unsafe removal loses all newer keys of its bucket. Corollaries: at most two keys per bucket, and the first removal. C07_every_history: under every history whatever the table is free of undefined behaviour and answers exactly like a map that loses these keys."
  },
  {
   "property": "C08",
   "status": "partial",
   "theorems": [
    "Verif.Props.C08_remove_hands_back_partial",
    "Verif.Props.C08_remove_truncates_violated",
    "Verif.Props.C08_remove_overruns_violated",
    "Verif.Props.C08_other_sizes_violated"
   ],
   "note": "Violated for every pair of types of different sizes, after every history (proved in general, with the bytes that arrive); holds for equal sizes; after removals too, see C07_safe_history_partial."
  },
  {
   "property": "C09",
   "status": "partial",
   "theorems": [
    "Verif.Props.C09_size_and_keys_partial",
    "Verif.Props.C09_after_removals_partial",
    "Verif.Props.C09_use_after_clear_violated",
    "Verif.Props.C09_every_use_after_clear_violated"
   ],
   "note": "Holds for inserts, lookups and safe removals; after a clear, inserting any two different keys is undefined behaviour, whatever the history (proved in general)."
  },
  {
   "property": "C10",
   "status": "partial",
   "theorems": [
    "Verif.Props.C10_clear_destroys_values_once_partial",
    "Verif.Props.C10_after_removals_partial",
    "Verif.Props.C10_keys_exact_partial",
    "Verif.Props.C10_clear_destroys_keys_violated"
   ],
   "note": "Values exactly once: proved, also after safe removals. Keys: violated; proved exactly which keys are destroyed (the smallest of the bucket, once for each key in it), so all are destroyed exactly once if and only if no two keys share a bucket."
  },
  {
   "property": "C100",
   "status": "partial",
   "theorems": [
    "Verif.Props.C100_first",
    "Verif.Props.C100_second_partial",
    "Verif.Props.C100_kurtosis_exact",
    "Verif.Props.C100_kurtosis_exact_intra",
    "Verif.Props.C100_threads_violated",
    "Verif.Props.C100_wrap_violated"
   ],
   "note": "hdbscan_skew_kurt_1, the function in use: proved for every interleaving. hdbscan_skew_kurt_2, which nothing calls: skewness proved for 3 to 65537 values; the kurtosis is violated with two threads (the correction can be subtracted once per thread, exactly characterised) and from 1628 values on (32-bit overflow), proved for one thread and 4 to 1627 values."
  },
  {
   "property": "C101",
   "status": "proved",
   "theorems": [
    "Verif.Props.C101_accurate",
    "Verif.Props.C101_positive_violated"
   ],
   "note": "The exact stability is positive (also stated); the rounded one can be 0 (C101_positive_violated): the reciprocals of two neighbouring doubles can be the same double."
  },
  {
   "property": "C102",
   "status": "proved",
   "theorems": [
    "Verif.Props.C102_nearly_optimal",
    "Verif.Props.C102_exact",
    "Verif.Props.C102_optimal_violated"
   ],
   "note": "Exact optimality (C34) is lost with rounding (C102_optimal_violated); the loss is bounded."
  },
  {
   "property": "C103",
   "status": "partial",
   "theorems": [
    "Verif.Props.C103_groups_partial",
    "Verif.Props.C103_threads",
    "Verif.Props.C103_moderate",
    "Verif.Props.C103_violated",
    "Verif.Props.C103_lone",
    "Verif.Props.C103_conditions"
   ],
   "note": "Proved in full for one thread. The conditions on the distances hold for moderate data (C103_moderate) and are needed (C103_conditions): if squares underflow or overflow, no cluster may be found at all. With several threads the data race of C37 can lose a whole group (C103_violated); groups are never merged (C103_threads). A single group may be left as noise (C103_lone)."
  },
  {
   "property": "C104",
   "status": "proved",
   "theorems": [
    "Verif.Props.C104_stabilities",
    "Verif.Props.C104_cases"
   ],
   "note": "Proved for all finite double data with IEEE arithmetic including infinities and NaN, for all schedules and thread interleavings."
  },
  {
   "property": "C105",
   "status": "proved",
   "theorems": [
    "Verif.Props.C105_scores",
    "Verif.Props.C105_sized",
    "Verif.Props.C105_cases",
    "Verif.Props.C105_overflow_violated"
   ],
   "note": "Proved for finite double data without overflowing distances (C105_sized: values up to 2^400) with IEEE arithmetic, duplicates allowed, for all schedules and thread interleavings; hierarchies that never split give scores far below 0 (see C40). If distances overflow, scores can be negative and dense groups are not found (C105_overflow_violated)."
  },
  {
   "property": "C106",
   "status": "partial",
   "theorems": [
    "Verif.Props.C106_integers_partial",
    "Verif.Props.C106_float_partial",
    "Verif.Props.C106_violated"
   ],
   "note": "Violated for float: the difference is rounded to float before it is converted, so that ties appear and the cluster tree changes. Proved: equal outcomes (including undefined behaviour and divergence) for integers whose differences do not overflow, and for floats, NaN and infinities included, whose differences are floats."
  },
  {
   "property": "C107",
   "status": "partial",
   "theorems": [
    "Verif.Props.C107_scale_partial",
    "Verif.Props.C107_threads_partial",
    "Verif.Props.C107_unsplit_violated",
    "Verif.Props.C107_cases"
   ],
   "note": "Proved in full for hierarchies that split, duplicates and infinite stabilities included. Violated for the scores of hierarchies that never split (C107_unsplit_violated), which depend on the unit through DBL_MAX (C40). Factors that are no powers of two: C62_rounding_violated."
  },
  {
   "property": "C108",
   "status": "proved",
   "theorems": [
    "Verif.Props.C108_finite",
    "Verif.Props.C108_threads",
    "Verif.Props.C108_integer_threads",
    "Verif.Props.C108_always",
    "Verif.Props.C108_integers",
    "Verif.Props.C108_models",
    "Verif.Props.C108_cases",
    "Verif.Props.C108_infinite"
   ],
   "note": "Proved with IEEE arithmetic including overflow. C108_models: the model without NaN used by C104, C105 and C107 agrees with the model with NaN, so that these theorems hold for the latter as well. Infinite values do lead to NaN (C108_infinite)."
  },
  {
   "property": "C109",
   "status": "partial",
   "theorems": [
    "Verif.Props.C109_size",
    "Verif.Props.C109_left",
    "Verif.Props.C109_delete_partial",
    "Verif.Props.C109_lookup_violated",
    "Verif.Props.C109_cut_violated"
   ],
   "note": "Proved: the size is the number of nodes, for all histories without removal by lookup; linkedlist_delete frees everything after all histories in which no call goes wrong in the sense of C15. Violated: linkedlist_lookup with remove = 1 never frees the node (C109_left: exactly one node is left for each such call), and removing an element whose neighbour in front was removed leaks everything in front of it (C109_cut_violated)."
  },
  {
   "property": "C11",
   "status": "proved",
   "theorems": [
    "Verif.Props.C11_buckets_and_hashes"
   ],
   "note": "Every requested bucket count; integer and string hashes (floating point hashes: C83)."
  },
  {
   "property": "C110",
   "status": "partial",
   "theorems": [
    "Verif.Props.C110_calls_partial",
    "Verif.Props.C110_refines_partial",
    "Verif.Props.C110_double_partial",
    "Verif.Props.C110_violated"
   ],
   "note": "Violated: total stabilities and lists of selected clusters are added to those of the earlier calls, so that the labels can change and can even depend on the schedule (C110_violated). Proved: the later calls succeed, the tree, stabilities, lowest death levels and outlier scores stay, every label is that of a cluster the point was a member of, and no point of a cluster becomes noise. For doubles the later labels refine those of the run, noise stays noise, and they are unchanged if only clusters without sub-clusters were selected."
  },
  {
   "property": "C111",
   "status": "partial",
   "theorems": [
    "Verif.Props.C111_constant",
    "Verif.Props.C111_order_partial",
    "Verif.Props.C111_order_violated",
    "Verif.Props.C111_infinite_violated"
   ],
   "note": "Constant columns: proved for all data and all outcomes (errors included); an infinite constant column makes every distance NaN (C111_infinite_violated). Order of the columns: violated by rounding, even for int data without overflow: all noise with one order, three clusters with another (C111_order_violated). Proved for whole numbers whose squared distances are at most 2^53."
  },
  {
   "property": "C112",
   "status": "partial",
   "theorems": [
    "Verif.Props.C112_integers",
    "Verif.Props.C112_double_partial",
    "Verif.Props.C112_violated"
   ],
   "note": "Proved for integers, errors included, and for doubles whose sums with the number added are exact. Violated for doubles if the sums are rounded (C112_violated)."
  },
  {
   "property": "C113",
   "status": "partial",
   "theorems": [
    "Verif.Props.C113_floating",
    "Verif.Props.C113_integers_partial",
    "Verif.Props.C113_small",
    "Verif.Props.C113_violated"
   ],
   "note": "Proved for all double and float data and all outcomes, and for integers without a difference of -2^(bits-1), hence for all short and char data. Violated for int (and long): that difference is computed, its mirror image overflows (C113_violated)."
  },
  {
   "property": "C114",
   "status": "partial",
   "theorems": [
    "Verif.Props.C114_table_partial",
    "Verif.Props.C114_any",
    "Verif.Props.C114_blank_violated",
    "Verif.Props.C114_long_violated",
    "Verif.Props.C114_cut_violated",
    "Verif.Props.C114_empty_violated",
    "Verif.Props.C114_form_feed",
    "Verif.Props.C114_in_bounds",
    "Verif.Props.C114_missing"
   ],
   "note": "Proved for every table whose lines have at most 2046 characters and no blank line among them; C114_any says what is read from any lines of that length. Violated: blank lines count as rows and make the number of columns too small, a line of 2047 characters or more counts as two rows or more, with a number cut in two, the empty file divides by zero; a form feed as a field drops the rest of its line; a name of 2028 characters or more of a file that cannot be opened overflows the buffer of the message. C114_in_bounds: whatever the file contains, rows times columns is at most the number of values."
  },
  {
   "property": "C115",
   "status": "proved",
   "theorems": [
    "Verif.Props.C115_unit",
    "Verif.Props.C115_cases"
   ],
   "note": "For both sample programs (C and C++), and for all labels, so that the data race of C37 does not matter here. pow(x, 3) and pow(x, 4) are arbitrary functions. Excluded, and stated as hypotheses (Moderate): values above 2^400 in size and differences below 2^-500. C115_cases shows two reports that are completed."
  },
  {
   "property": "C116",
   "status": "partial",
   "theorems": [
    "Verif.Props.C116_safe",
    "Verif.Props.C116_numbers_partial",
    "Verif.Props.C116_nan_violated",
    "Verif.Props.C116_hidden_violated",
    "Verif.Props.C116_cases"
   ],
   "note": "Memory safety: proved for all histories. The set laws: proved for all histories without NaN. Violated for NaN after every history: each insertion stores another NaN, which is never found or removed (C116_nan_violated); and once NaN was inserted more often than there are elements, no number is found any more and every number is stored a second time (C116_hidden_violated)."
  },
  {
   "property": "C117",
   "status": "partial",
   "theorems": [
    "Verif.Props.C117_addresses_partial",
    "Verif.Props.C117_short_violated",
    "Verif.Props.C117_int_violated",
    "Verif.Props.C117_long_violated",
    "Verif.Props.C117_labels",
    "Verif.Props.C117_order_partial",
    "Verif.Props.C117_order_violated"
   ],
   "note": "Labels: proved to fit. Order: values from half of the range on count as smaller than all others (for unsigned short from 32768 on), since the comparison functions are those of the signed types; otherwise proved. Distance matrix: proved up to 46340 rows for unsigned short and up to 65536 rows for the others; violated by every larger number of rows: signed overflow for unsigned short, and a write behind the end of the matrix for unsigned int and for unsigned long, which does not raise the limit."
  },
  {
   "property": "C118",
   "status": "partial",
   "theorems": [
    "Verif.Props.C118_size",
    "Verif.Props.C118_destroy_partial",
    "Verif.Props.C118_lost_violated",
    "Verif.Props.C118_exact_partial",
    "Verif.Props.C118_every_history"
   ],
   "note": "The count of entries: proved for all histories. Destroying: proved for safe histories (C07), in which no key is removed whose link to the next newer key of its bucket was lost. Violated by every other removal: the entries of all newer keys of the bucket stay allocated for ever, exactly these. C118_every_history: after every history destroying is free of undefined behaviour and leaves as many entries as keys were lost. Key and value types have the same size in all theorems but the first (C08)."
  },
  {
   "property": "C119",
   "status": "proved",
   "theorems": [
    "Verif.Props.C119_single_linkage",
    "Verif.Props.C119_threads",
    "Verif.Props.C119_doubles"
   ],
   "note": "For distances that are not negative, which holds for every square root computed with doubles (C119_doubles). The data race of C37 does not touch the hierarchy (C63)."
  },
  {
   "property": "C12",
   "status": "partial",
   "theorems": [
    "Verif.Props.C12_find_prime_partial",
    "Verif.Props.C12_wrong_exactly",
    "Verif.Props.C12_find_prime_violated"
   ],
   "note": "Violated for 71 primes (about every third) and for 1214..1217: the answer is 0 exactly for these and for larger arguments (C12_wrong_exactly); all other answers are right; memory safety for all arguments."
  },
  {
   "property": "C120",
   "status": "proved",
   "theorems": [
    "Verif.Props.C120_few_rows",
    "Verif.Props.C120_any",
    "Verif.Props.C120_sharp"
   ],
   "note": "C120_few_rows for numbers, C120_any for data with NaN, infinities and distances not below D_MAX and for minPoints above the number of rows; both for all interleavings of threads. C120_sharp: six rows and minPoints 3 with two clusters."
  },
  {
   "property": "C121",
   "status": "partial",
   "theorems": [
    "Verif.Props.C121_farther_partial",
    "Verif.Props.C121_doubles_partial",
    "Verif.Props.C121_violated"
   ],
   "note": "Violated when the hierarchy never splits and the first row stays to level 0: its score is 0, those of the other rows are negative (C40). Proved in all other cases, with exact and rounded arithmetic and for all interleavings of threads."
  },
  {
   "property": "C122",
   "status": "proved",
   "theorems": [
    "Verif.Props.C122_nearest",
    "Verif.Props.C122_two"
   ],
   "note": "C122_nearest with the core distances that the run computed, for all interleavings of threads; C122_two with plain distances for minPoints 2 and distances that are not negative."
  },
  {
   "property": "C123",
   "status": "proved",
   "theorems": [
    "Verif.Props.C123_deep",
    "Verif.Props.C123_doubles"
   ],
   "note": "For exact arithmetic and for doubles with rounding (C123_doubles), for all interleavings of threads."
  },
  {
   "property": "C124",
   "status": "partial",
   "theorems": [
    "Verif.Props.C124_separated_partial",
    "Verif.Props.C124_real_partial",
    "Verif.Props.C124_threads",
    "Verif.Props.C124_race_violated",
    "Verif.Props.C124_ties_violated"
   ],
   "note": "Violated by ties, which make core distances wrong (C19): all rows of two well separated groups become noise; and by the data race of C37, which makes a whole group noise. Proved for data without such ties (any data if minPoints is 2 or the number of rows), or whenever the computed core distances are in the stated range. With any interleaving of threads a group has one label and different groups have different labels, unless they are 0."
  },
  {
   "property": "C125",
   "status": "partial",
   "theorems": [
    "Verif.Props.C125_scattered_partial",
    "Verif.Props.C125_real_partial",
    "Verif.Props.C125_threads",
    "Verif.Props.C125_none",
    "Verif.Props.C125_race_violated",
    "Verif.Props.C125_ties_violated"
   ],
   "note": "Violated by ties, which make core distances wrong (C19), and by the data race of C37, as C124. Proved for data without such ties (any data if minPoints is 2 or the number of rows), or whenever the computed core distances are in the stated ranges. Without scattered rows it is C124 (C125_none). With any interleaving of threads a group has one label and different groups have different labels, unless they are 0. The labels of scattered rows are not restricted: minPoints of them may form a cluster."
  },
  {
   "property": "C126",
   "status": "partial",
   "theorems": [
    "Verif.Props.C126_outlying_partial",
    "Verif.Props.C126_above_partial",
    "Verif.Props.C126_real_partial",
    "Verif.Props.C126_doubles_partial",
    "Verif.Props.C126_violated"
   ],
   "note": "Violated by ties, which make core distances wrong (C19): a hierarchy that never splits gives the scattered row a negative score. Proved for data without such ties (any data if minPoints is 2 or the number of rows), or whenever the computed core distances are in the stated ranges; for exact arithmetic, for doubles with rounding, and for every arithmetic in which the computed 1 - a/e falls with a and rises with e. The data race of C37 does not matter here."
  },
  {
   "property": "C127",
   "status": "partial",
   "theorems": [
    "Verif.Props.C127_far_rows_partial",
    "Verif.Props.C127_threads_partial",
    "Verif.Props.C127_violated"
   ],
   "note": "Violated with repeated distances because core distances are then wrong (C19), and depend on rows far away. Proved for data without such repetitions."
  },
  {
   "property": "C13",
   "status": "partial",
   "theorems": [
    "Verif.Props.C13_get_prime_partial",
    "Verif.Props.C13_get_prime_is_successor",
    "Verif.Props.C13_get_prime_violated"
   ],
   "note": "Violated: the function returns min+1."
  },
  {
   "property": "C14",
   "status": "proved",
   "theorems": [
    "Verif.Props.C14_linkedlist_sequence"
   ],
   "note": ""
  },
  {
   "property": "C15",
   "status": "partial",
   "theorems": [
    "Verif.Props.C15_good_history_partial",
    "Verif.Props.C15_exact_partial",
    "Verif.Props.C15_wrong_calls_violated",
    "Verif.Props.C15_remove_front_partial",
    "Verif.Props.C15_remove_tail_then_add_violated",
    "Verif.Props.C15_remove_middle_violated"
   ],
   "note": "Violated for removals of the last or of middle elements (witnesses proved); the exact boundary is proved: a history behaves like the ideal sequence (also for every later position) if and only if it is good, i.e. nothing asks for or adds behind a removed last element, and no element but the first is removed whose front neighbour was removed."
  },
  {
   "property": "C16",
   "status": "proved",
   "theorems": [
    "Verif.Props.C16_compare_total_order",
    "Verif.Props.C16_compare_direction",
    "Verif.Props.C16_double_compare",
    "Verif.Props.C16_cluster_compare",
    "Verif.Props.C16_nan_not_an_order"
   ],
   "note": "double_compare is an order on NaN-free values only."
  },
  {
   "property": "C17",
   "status": "proved",
   "theorems": [
    "Verif.Props.C17_packed_bijection",
    "Verif.Props.C17_limit_violated",
    "Verif.Props.C17_beyond_violated"
   ],
   "note": "Limit is 65536 points; for every larger number of points the write is out of bounds (proved)."
  },
  {
   "property": "C18",
   "status": "proved",
   "theorems": [
    "Verif.Props.C18_euclidean_distance",
    "Verif.Props.C18_any_arithmetic",
    "Verif.Props.C18_int_overflow_violated"
   ],
   "note": "Exact real arithmetic gives the Euclidean distance; for any arithmetic (rounding included) the value is that of the column loop. Overflowing int data is exhibited as undefined."
  },
  {
   "property": "C19",
   "status": "partial",
   "theorems": [
    "Verif.Props.C19_core_distance_partial",
    "Verif.Props.C19_core_distance_violated",
    "Verif.Props.C19_core_distance_too_large",
    "Verif.Props.C19_core_distance_defined",
    "Verif.Props.C19_bounds",
    "Verif.Props.C19_farthest_violated"
   ],
   "note": "Violated: with minPoints >= 3 the insertion puts a repeated distance in the wrong place, and the result can be too small or too large. With any number of points it can be the largest distance of all instead of the third smallest. For a point without duplicates it is always the distance from another point. Proved when minPoints is at most 2 or the number of rows, or when every repeated distance is smaller than the core distance or the smallest of all."
  },
  {
   "property": "C20",
   "status": "proved",
   "theorems": [
    "Verif.Props.C20_cores_history_independent"
   ],
   "note": ""
  },
  {
   "property": "C21",
   "status": "proved",
   "theorems": [
    "Verif.Props.C21_spanning_tree",
    "Verif.Props.C21_violated_dmax",
    "Verif.Props.C21_violated_nan",
    "Verif.Props.C21_no_self_edges_violated"
   ],
   "note": "Holds for finite mutual reachability distances; outside (D_MAX, NaN, self edges off) the failures are exhibited; with self edges off the construction is undefined for all data of 2 or more points."
  },
  {
   "property": "C22",
   "status": "proved",
   "theorems": [
    "Verif.Props.C22_minimum",
    "Verif.Props.C22_total_and_bottleneck"
   ],
   "note": ""
  },
  {
   "property": "C23",
   "status": "proved",
   "theorems": [
    "Verif.Props.C23_edge_sort",
    "Verif.Props.C23_edge_sort_any_weights",
    "Verif.Props.C23_edge_sort_recursive"
   ],
   "note": ""
  },
  {
   "property": "C24",
   "status": "partial",
   "theorems": [
    "Verif.Props.C24_graph_init",
    "Verif.Props.C24_remove_partial",
    "Verif.Props.C24_remove_exact",
    "Verif.Props.C24_remove_outside",
    "Verif.Props.C24_violated_double_self_edge"
   ],
   "note": "Holds except for repeated self edges, where one call removes two occurrences (witness proved). C24_remove_exact says what every history of removals leaves of every graph."
  },
  {
   "property": "C25",
   "status": "proved",
   "theorems": [
    "Verif.Props.C25_hierarchy_succeeds",
    "Verif.Props.C25_nan_diverges"
   ],
   "note": "Holds for weights in a linear order; with a NaN weight the loop does not end (proved)."
  },
  {
   "property": "C26",
   "status": "proved",
   "theorems": [
    "Verif.Props.C26_data",
    "Verif.Props.C26_density",
    "Verif.Props.C26_general"
   ],
   "note": "C26_data is the claim for data sets; the others are its forms for spanning tree inputs."
  },
  {
   "property": "C27",
   "status": "proved",
   "theorems": [
    "Verif.Props.C27_lines",
    "Verif.Props.C27_levels"
   ],
   "note": "C27_levels needs minPoints between 2 and the number of points."
  },
  {
   "property": "C28",
   "status": "proved",
   "theorems": [
    "Verif.Props.C28_tree"
   ],
   "note": ""
  },
  {
   "property": "C29",
   "status": "proved",
   "theorems": [
    "Verif.Props.C29_birth"
   ],
   "note": ""
  },
  {
   "property": "C30",
   "status": "proved",
   "theorems": [
    "Verif.Props.C30_sizes",
    "Verif.Props.C30_final",
    "Verif.Props.C30_events"
   ],
   "note": ""
  },
  {
   "property": "C31",
   "status": "proved",
   "theorems": [
    "Verif.Props.C31_stability",
    "Verif.Props.C31_concrete"
   ],
   "note": "Over exact arithmetic in an ordered field."
  },
  {
   "property": "C32",
   "status": "proved",
   "theorems": [
    "Verif.Props.C32_propagation"
   ],
   "note": ""
  },
  {
   "property": "C33",
   "status": "proved",
   "theorems": [
    "Verif.Props.C33_selection"
   ],
   "note": ""
  },
  {
   "property": "C34",
   "status": "proved",
   "theorems": [
    "Verif.Props.C34_optimal",
    "Verif.Props.C34_concrete"
   ],
   "note": "Exact arithmetic; C33_selection holds for arbitrary comparison results."
  },
  {
   "property": "C35",
   "status": "proved",
   "theorems": [
    "Verif.Props.C35_labels",
    "Verif.Props.C35_data",
    "Verif.Props.C35_threads"
   ],
   "note": "In the first two theorems the offsets are assigned one after the other (C37); C35_threads is for every interleaving of that loop."
  },
  {
   "property": "C36",
   "status": "proved",
   "theorems": [
    "Verif.Props.C36_no_split"
   ],
   "note": ""
  },
  {
   "property": "C37",
   "status": "partial",
   "theorems": [
    "Verif.Props.C37_sequential_partial",
    "Verif.Props.C37_every_interleaving",
    "Verif.Props.C37_lost_updates",
    "Verif.Props.C37_violated",
    "Verif.Props.C37_wrong_labels"
   ],
   "note": "Violated: newCluster is shared between threads, so offsets can be lost. Proved for iterations executed one after the other; every interleaving sets some offsets and changes nothing else."
  },
  {
   "property": "C38",
   "status": "partial",
   "theorems": [
    "Verif.Props.C38_report_partial",
    "Verif.Props.C38_not_reported",
    "Verif.Props.C38_never",
    "Verif.Props.C38_violated"
   ],
   "note": "Violated: the stability is compared with D_MAX, which +inf is not; no run on finite double data ever reports anything (C38_never). Proved what is reported."
  },
  {
   "property": "C39",
   "status": "proved",
   "theorems": [
    "Verif.Props.C39_compare",
    "Verif.Props.C39_sorted",
    "Verif.Props.C39_large_ids"
   ],
   "note": "qsort enters as a function meeting the C library contract. n < 2^31; beyond that the comparison is no order (C39_large_ids)."
  },
  {
   "property": "C40",
   "status": "partial",
   "theorems": [
    "Verif.Props.C40_range_partial",
    "Verif.Props.C40_run_partial",
    "Verif.Props.C40_unsplit_negative",
    "Verif.Props.C40_violated",
    "Verif.Props.C40_double_partial",
    "Verif.Props.C40_rounding_violated"
   ],
   "note": "Violated: a hierarchy that never splits gives every point a negative score; and with rounding to doubles a score can be 1 (a far point). Proved when it splits and core distances are positive: [0, 1) in exact arithmetic (C40_run_partial: whole runs from the data, with every interleaving of threads), [0, 1] for doubles."
  },
  {
   "property": "C41",
   "status": "partial",
   "theorems": [
    "Verif.Props.C41_map_partial",
    "Verif.Props.C41_short_aborts"
   ],
   "note": "Violated: every range of one or two indices aborts (proved). Exact for all other ranges."
  },
  {
   "property": "C42",
   "status": "partial",
   "theorems": [
    "Verif.Props.C42_min_max_partial",
    "Verif.Props.C42_zero_first",
    "Verif.Props.C42_no_distance",
    "Verif.Props.C42_violated"
   ],
   "note": "Violated: a first member with core distance 0 makes the minimum 0; clusters without non-zero distances get D_MIN and D_MAX. Proved in all other cases."
  },
  {
   "property": "C43",
   "status": "proved",
   "theorems": [
    "Verif.Props.C43_percentages",
    "Verif.Props.C43_exact",
    "Verif.Props.C43_formula",
    "Verif.Props.C43_double"
   ],
   "note": "For every arithmetic with monotone rounding; C43_exact is the instance over ordered fields, C43_double the one for IEEE doubles."
  },
  {
   "property": "C44",
   "status": "partial",
   "theorems": [
    "Verif.Props.C44_statistics_partial",
    "Verif.Props.C44_violated",
    "Verif.Props.C44_second_call",
    "Verif.Props.C44_empty_ub"
   ],
   "note": "Violated: the previous variance of the record enters the result. Count, mean and maximum are right for every previous content, the rest if it was zero."
  },
  {
   "property": "C45",
   "status": "proved",
   "theorems": [
    "Verif.Props.C45_score"
   ],
   "note": ""
  },
  {
   "property": "C46",
   "status": "proved",
   "theorems": [
    "Verif.Props.C46_quicksort",
    "Verif.Props.C46_nan_diverges",
    "Verif.Props.C46_nans",
    "Verif.Props.C46_nan_first"
   ],
   "note": "Terminates on NaN-free values. Does not terminate on three or more values with two or more NaN among them, or with a NaN in front (proved for all values); with one NaN elsewhere it depends on the order (examples)."
  },
  {
   "property": "C47",
   "status": "partial",
   "theorems": [
    "Verif.Props.C47_similarity_partial",
    "Verif.Props.C47_exact",
    "Verif.Props.C47_violated"
   ],
   "note": "Violated for lists other than the first labels of the table: the confidences of the wrong clusters are used. C47_exact says for every list what comes out."
  },
  {
   "property": "C48",
   "status": "proved",
   "theorems": [
    "Verif.Props.C48_length",
    "Verif.Props.C48_empty_aborts"
   ],
   "note": ""
  },
  {
   "property": "C49",
   "status": "partial",
   "theorems": [
    "Verif.Props.C49_rerun_partial",
    "Verif.Props.C49_threads_partial",
    "Verif.Props.C49_double_partial",
    "Verif.Props.C49_zero"
   ],
   "note": "Proved for 5 to 65536 rows of any values and every minPoints from 2 on, with any interleaving of threads in every call: a rerun gives what a fresh run gives if the loop with the data race of C37 is interleaved in the same way (C49_threads_partial). Missing: equality for different interleavings, which is false even for two fresh runs (C63_violated)."
  },
  {
   "property": "C50",
   "status": "proved",
   "theorems": [
    "Verif.Props.C50_protocol",
    "Verif.Props.C50_run_reruns_destroy",
    "Verif.Props.C50_only_protocol",
    "Verif.Props.C50_unused_object_violated",
    "Verif.Props.C50_second_run_leaks",
    "Verif.Props.C50_cpp_clean_violated"
   ],
   "note": "For every number of clusters, levels, hierarchy lines and points (at least 5; fewer abort, C51). Also proved: the protocol is exact, i.e. any other sequence of calls does not return or leaks; in particular destroying an object that was never run is undefined behaviour, a second run leaks, and the C++ member clean() leads to a use after free. The allocations of each function are modelled, not the data in the blocks; C10 covers that hashtable_clear reaches each entry once."
  },
  {
   "property": "C51",
   "status": "partial",
   "theorems": [
    "Verif.Props.C51_sizes_partial",
    "Verif.Props.C51_violated",
    "Verif.Props.C51_large_violated"
   ],
   "note": "Violated: every data set of fewer than 5 points aborts and every one of more than 65536 points is undefined behaviour (proved). Proved for 5 to 65536 points."
  },
  {
   "property": "C52",
   "status": "partial",
   "theorems": [
    "Verif.Props.C52_run_partial",
    "Verif.Props.C52_size_partial",
    "Verif.Props.C52_violated"
   ],
   "note": "Violated: with several columns and rowwise not 1 the run reads outside the distance matrix (proved for all such data sets)."
  },
  {
   "property": "C53",
   "status": "partial",
   "theorems": [
    "Verif.Props.C53_detach_partial",
    "Verif.Props.C53_violated"
   ],
   "note": "Violated: success is reported for every number of points and the count wraps around."
  },
  {
   "property": "C54",
   "status": "proved",
   "theorems": [
    "Verif.Props.C54_virtual_child"
   ],
   "note": ""
  },
  {
   "property": "C55",
   "status": "partial",
   "theorems": [
    "Verif.Props.C55_run_partial",
    "Verif.Props.C55_threads_partial"
   ],
   "note": "Proved in full if the iterations of the loop with the data race on newCluster (C37) are executed one after the other, all other parallel loops in any order. With any interleaving (C55_threads_partial) the same holds but for the labels: each selected cluster is either kept or lost, and then its members are noise. Missing: that none is lost, which is false (C37, C63). Up to 65536 points, the limit of the distance matrix (C17); any arithmetic, so distances are those of the code with its rounding."
  },
  {
   "property": "C56",
   "status": "proved",
   "theorems": [
    "Verif.Props.C56_glosh"
   ],
   "note": ""
  },
  {
   "property": "C57",
   "status": "proved",
   "theorems": [
    "Verif.Props.C57_cpp_similarity"
   ],
   "note": ""
  },
  {
   "property": "C58",
   "status": "proved",
   "theorems": [
    "Verif.Props.C58_cpp_map",
    "Verif.Props.C58_unique"
   ],
   "note": ""
  },
  {
   "property": "C59",
   "status": "proved",
   "theorems": [
    "Verif.Props.C59_duplicates",
    "Verif.Props.C59_threads"
   ],
   "note": "For 5 to 65536 points, 2 <= minPoints <= n, any arithmetic in which x - x squares to zero and (a-b)^2 = (b-a)^2. In the first theorem the iterations of the loop of C37 are executed one after the other, in the second one they are interleaved arbitrarily."
  },
  {
   "property": "C60",
   "status": "proved",
   "theorems": [
    "Verif.Props.C60_same_distances",
    "Verif.Props.C60_isometry",
    "Verif.Props.C60_threads"
   ],
   "note": "Equal distances are hypotheses on the computed distances in the first theorem; in exact real arithmetic equal Euclidean distances suffice. In these two the iterations of the loop of C37 are executed one after the other; C60_threads says that with interleaved iterations the same results are possible."
  },
  {
   "property": "C61",
   "status": "partial",
   "theorems": [
    "Verif.Props.C61_rearranged_partial",
    "Verif.Props.C61_labels_partial",
    "Verif.Props.C61_threads_partial",
    "Verif.Props.C61_violated",
    "Verif.Props.C61_rounding_violated"
   ],
   "note": "Proved when minPoints is 2 or the number of rows, or no distance from a point that is at least its core distance is repeated (unless it is the smallest of all): core distances, hierarchy, cluster count and scores with rounding, final labels with exact sums of stabilities. Violated with ties: the same eight points are all noise in one order and two clusters in another, because core distances with ties are wrong (C19). Violated with rounding: the terms of a stability are added in the order of the rows, and the last digit decides between one cluster and three (IEEE doubles, no ties)."
  },
  {
   "property": "C62",
   "status": "partial",
   "theorems": [
    "Verif.Props.C62_order",
    "Verif.Props.C62_monotone",
    "Verif.Props.C62_threads",
    "Verif.Props.C62_scaled_partial",
    "Verif.Props.C62_units_partial",
    "Verif.Props.C62_unsplit_violated",
    "Verif.Props.C62_rounding_violated"
   ],
   "note": "Hierarchy, core distances and cluster tree: proved to depend on nothing but the order of the distances, also across data types and arithmetics (C62_order). Labels and scores: exact arithmetic. Violated: scores of a hierarchy that never splits depend on the unit of length, since D_MAX takes the place of a distance (C40); and with rounding to doubles the final clusters of points depend on the unit."
  },
  {
   "property": "C63",
   "status": "partial",
   "theorems": [
    "Verif.Props.C63_threads_partial",
    "Verif.Props.C63_reruns_partial",
    "Verif.Props.C63_any_partial",
    "Verif.Props.C63_any_reruns_partial",
    "Verif.Props.C63_violated",
    "Verif.Props.C63_hasty"
   ],
   "note": "Violated: whatever cluster is reported, some interleaving of the offset loop (C37) turns all its points into noise (proved for all data sets). Proved: that is all that can happen - the set of possible results is described exactly - and losses leave no trace after a rerun; also for arbitrary data (NaN, infinities, minPoints above the number of rows). Accesses to the shared variable are atomic and interleaved; the C standard makes the race undefined behaviour altogether."
  },
  {
   "property": "C64",
   "status": "proved",
   "theorems": [
    "Verif.Props.C64_size",
    "Verif.Props.C64_threads",
    "Verif.Props.C64_any"
   ],
   "note": "5 to 65536 points, 2 <= minPoints <= number of points; C64_threads for every interleaving of the loop of C37; C64_any bounds the size for any distances (NaN included), any minPoints, with larger constants."
  },
  {
   "property": "C65",
   "status": "partial",
   "theorems": [
    "Verif.Props.C65_alone_partial",
    "Verif.Props.C65_last_object_wins",
    "Verif.Props.C65_violated",
    "Verif.Props.C65_rebind_violated",
    "Verif.Props.C65_delete_violated"
   ],
   "note": "All objects share one global struct. Violated (proved): another object changes labels; a run uses the minPoints of the object constructed last; deleting or rebinding an object destroys the data of the others. Proved: after any program, an object that is the only one in use until its deletion answers exactly what the C library computes."
  },
  {
   "property": "C66",
   "status": "partial",
   "theorems": [
    "Verif.Props.C66_refused_partial",
    "Verif.Props.C66_rerun_violated",
    "Verif.Props.C66_map_violated",
    "Verif.Props.C66_construct_violated"
   ],
   "note": "Violated: the reference on the old labels (cluster map) is given up before the arguments are checked, so after two refused reruns (one refused getClusterMap) reading the attribute is undefined; a refused constructor cleans the shared struct. Proved: a refused run changes nothing, one refused rerun leaves labels and reruns right."
  },
  {
   "property": "C67",
   "status": "partial",
   "theorems": [
    "Verif.Props.C67_keeps_partial",
    "Verif.Props.C67_violated",
    "Verif.Props.C67_memory_violated"
   ],
   "note": "Violated by every rerun, deletion or refused construction, also proved in the model of memory: the blocks are released. Proved: the arrays keep their contents under all other calls on all objects."
  },
  {
   "property": "C68",
   "status": "partial",
   "theorems": [
    "Verif.Props.C68_one_by_one_partial",
    "Verif.Props.C68_violated",
    "Verif.Props.C68_second_object_violated",
    "Verif.Props.C68_agree"
   ],
   "note": "Violated by every program: the struct of each object and all memory of each cluster map stay allocated; constructing a second object loses everything the first one holds. Proved: objects used one after the other meet no undefined behaviour and leave exactly these blocks. C68_agree: programs that return in the model of results are defined in the model of memory."
  },
  {
   "property": "C69",
   "status": "proved",
   "theorems": [
    "Verif.Props.C69_containers",
    "Verif.Props.C69_any"
   ],
   "note": "The whole pipeline is modelled a second time on array lists, sorted sets, hash tables with chained buckets and pointers; this refines the model the other theorems are about. 5 to 65536 points, 2 <= minPoints <= number of points; C69_any for arbitrary data and every minPoints >= 2. The offset loop of C37 is executed by one thread."
  },
  {
   "property": "C70",
   "status": "proved",
   "theorems": [
    "Verif.Props.C70_hierarchy",
    "Verif.Props.C70_compact",
    "Verif.Props.C70_full"
   ],
   "note": "C70_hierarchy: any graph, any comparison of weights (NaN included), given that the construction without the option completes. C70_compact: whole runs on data sets of at least 5 points, 2 <= minPoints <= number of points; the offset loop of C37 is executed by one thread."
  },
  {
   "property": "C71",
   "status": "proved",
   "theorems": [
    "Verif.Props.C71_any_data",
    "Verif.Props.C71_threads",
    "Verif.Props.C71_double"
   ],
   "note": "C71_double: double data with the rounding, infinities and NaN of IEEE 754. Values of distance_t are NaN or elements of a linear order, comparisons as in IEEE 754; outlier scores are taken from a linear order since none is NaN. The offset loop of C37 is executed by one thread (with several: C71_threads, where selected clusters may be lost). A data set can be read if it has no fewer cells than rows * cols and no signed difference overflows."
  },
  {
   "property": "C72",
   "status": "proved",
   "theorems": [
    "Verif.Props.C72_not_below",
    "Verif.Props.C72_threads"
   ],
   "note": "See C71."
  },
  {
   "property": "C73",
   "status": "proved",
   "theorems": [
    "Verif.Props.C73_noise",
    "Verif.Props.C73_threads"
   ],
   "note": "C73_threads: for every interleaving of the offset loop. See C71."
  },
  {
   "property": "C74",
   "status": "proved",
   "theorems": [
    "Verif.Props.C74_incomplete_rows",
    "Verif.Props.C74_double",
    "Verif.Props.C74_threads"
   ],
   "note": "C74_double: rows of double data that contain NaN or an infinity, in IEEE 754 arithmetic. C74_threads: for every interleaving of the offset loop. See C71. Lines of weight D_MAX are excluded: the first line contains all rows."
  },
  {
   "property": "C75",
   "status": "partial",
   "theorems": [
    "Verif.Props.C75_far_groups_partial",
    "Verif.Props.C75_threads_partial",
    "Verif.Props.C75_violated"
   ],
   "note": "Violated: two groups of three points farther apart than D_MAX are both lost in one order of the rows (all noise, outlier scores -999) and both found in another. Proved: the points of a cluster are exactly those of a component of at least minPoints points at a level below D_MAX, so no cluster reaches over such a gap; with several threads as well (C75_threads_partial)."
  },
  {
   "property": "C76",
   "status": "partial",
   "theorems": [
    "Verif.Props.C76_logger_partial",
    "Verif.Props.C76_integers_partial",
    "Verif.Props.C76_distances_partial",
    "Verif.Props.C76_distances_violated",
    "Verif.Props.C76_outlier_scores_partial",
    "Verif.Props.C76_run_violated",
    "Verif.Props.C76_scores_run",
    "Verif.Props.C76_scores_cases",
    "Verif.Props.C76_distance_map_partial",
    "Verif.Props.C76_stats_partial",
    "Verif.Props.C76_graph_partial"
   ],
   "note": "Violated: numbers of many digits overflow arrays of fixed length; a distance of 10^11 does in distance_print, and D_MAX, the core distance of every incomplete row, does in hdbscan_print_outlier_scores (proved for all such runs); so do the scores of every run whose hierarchy never splits and in which a point becomes noise at a level of 1 or more, while for hierarchies that split printing the scores is safe if the core distances are below 10^60 (C76_scores_run, all finite data without overflowing distances). Proved exactly for which numbers each function is safe. Library compiled without DEBUG."
  },
  {
   "property": "C77",
   "status": "proved",
   "theorems": [
    "Verif.Props.C77_map",
    "Verif.Props.C77_sizes",
    "Verif.Props.C77_readable",
    "Verif.Props.C77_labels",
    "Verif.Props.C77_large_label",
    "Verif.Props.C77_cpp_map",
    "Verif.Props.C77_cpp_sizes",
    "Verif.Props.C77_cpp_labels",
    "Verif.Props.C77_cpp_distances"
   ],
   "note": "Labels and indices below 2^31; larger ones are printed as negative numbers (C77_large_label). Library compiled without DEBUG."
  },
  {
   "property": "C78",
   "status": "partial",
   "theorems": [
    "Verif.Props.C78_hierarchy_partial",
    "Verif.Props.C78_readable_partial",
    "Verif.Props.C78_file_violated"
   ],
   "note": "Violated: every call with a file name appends to an uninitialised character array, undefined behaviour. Proved for the standard output. Labels below 2^31."
  },
  {
   "property": "C79",
   "status": "partial",
   "theorems": [
    "Verif.Props.C79_report_partial",
    "Verif.Props.C79_range_partial",
    "Verif.Props.C79_core_violated",
    "Verif.Props.C79_intra_violated",
    "Verif.Props.C79_violated"
   ],
   "note": "Violated: with three or more groups of identical points the report by distances never ends (0/0 in the confidences, and the quicksort does not end on NaN); nor does the report by core distances if a group begins with a point of core distance 0. C79_violated shows whole runs. Proved: everything but the last sort is always completed; the last sort is if no confidence is NaN, which holds for distances that are zero or lie in a range of positive numbers whose quotients do not overflow."
  },
  {
   "property": "C80",
   "status": "partial",
   "theorems": [
    "Verif.Props.C80_latest_partial",
    "Verif.Props.C80_last_object_wins",
    "Verif.Props.C80_other_data",
    "Verif.Props.C80_violated",
    "Verif.Props.C80_rerun_violated"
   ],
   "note": "Violated: all Java objects share one global struct. A run uses the minPoints of the object constructed last, a reRun the rows that were run last by any object, and a reRun after another object was constructed follows a null pointer. Proved for programs that run only the object constructed last, while all older objects keep reporting their own clusterings. Assumes that delete of an array releases it, as common allocators do (see C81)."
  },
  {
   "property": "C81",
   "status": "partial",
   "theorems": [
    "Verif.Props.C81_within_partial",
    "Verif.Props.C81_reading",
    "Verif.Props.C81_construct_violated",
    "Verif.Props.C81_null_violated",
    "Verif.Props.C81_ragged_violated",
    "Verif.Props.C81_rerun_violated",
    "Verif.Props.C81_small_violated",
    "Verif.Props.C81_delete_violated",
    "Verif.Props.C81_long_rows"
   ],
   "note": "Violated: minPoints 0 and 1 and data sets of fewer than five rows end the JVM by an assertion; null, an empty array, null rows, rows shorter than the first and reRun before run are undefined behaviour; the array is released with delete instead of delete[], undefined by the C++ standard in every run; longer rows are silently cut. Proved: programs within the limits complete, and reading is harmless in every state."
  },
  {
   "property": "C82",
   "status": "proved",
   "theorems": [
    "Verif.Props.C82_cluster_map",
    "Verif.Props.C82_partition"
   ],
   "note": ""
  },
  {
   "property": "C83",
   "status": "partial",
   "theorems": [
    "Verif.Props.C83_map_partial",
    "Verif.Props.C83_violated"
   ],
   "note": "Violated: the hash converts the key to size_t, which is undefined for NaN, infinities, numbers up to -1 and from 2^64 on; every call with such a key is undefined behaviour. Proved for all other numbers. Histories without removals (removals: C06)."
  },
  {
   "property": "C84",
   "status": "partial",
   "theorems": [
    "Verif.Props.C84_map_partial",
    "Verif.Props.C84_same_text_violated",
    "Verif.Props.C84_other_text_violated"
   ],
   "note": "Violated: hash and strcmp get the address of the pointer and read the bytes of the address as the text. Equal texts at different addresses are different keys, different texts at addresses that agree before their first zero byte are the same key. Proved for addresses where this makes no difference."
  },
  {
   "property": "C85",
   "status": "partial",
   "theorems": [
    "Verif.Props.C85_tidy_partial",
    "Verif.Props.C85_any_moment_partial",
    "Verif.Props.C85_unused_violated",
    "Verif.Props.C85_copy_violated",
    "Verif.Props.C85_clean_violated",
    "Verif.Props.C85_second_run_leaks"
   ],
   "note": "Violated: the destructor of an object that was never run reads unassigned pointers; the class has the default copy constructor, so that a copy and its original release the same blocks; clean() frees the object itself; a second run leaks. Proved for all programs that run every object once and do not call clean()."
  },
  {
   "property": "C86",
   "status": "partial",
   "theorems": [
    "Verif.Props.C86_plain_partial",
    "Verif.Props.C86_library",
    "Verif.Props.C86_shifted",
    "Verif.Props.C86_last_member_violated",
    "Verif.Props.C86_outlier_scores_violated",
    "Verif.Props.C86_violated",
    "Verif.Props.C86_graph_violated",
    "Verif.Props.C86_cluster_violated"
   ],
   "note": "Violated: for C++ the headers give OutlierScore, cluster, UndirectedGraph and constraint a virtual destructor, which moves all members by eight bytes, while the library is compiled as C. Proved for all structures without virtual functions."
  },
  {
   "property": "C87",
   "status": "partial",
   "theorems": [
    "Verif.Props.C87_never_joins_partial",
    "Verif.Props.C87_threads_partial",
    "Verif.Props.C87_premises",
    "Verif.Props.C87_violated"
   ],
   "note": "Violated with repeated distances because core distances are then wrong (C19). Proved for data without such repetitions, for runs and reruns."
  },
  {
   "property": "C88",
   "status": "proved",
   "theorems": [
    "Verif.Props.C88_released",
    "Verif.Props.C88_exact"
   ],
   "note": "For all programs, in both directions: a program returns exactly if it keeps to the rules of use, and leaves the heap as it was exactly if it also destroys everything it made. That hashtable_clear reaches every entry once is C10."
  },
  {
   "property": "C89",
   "status": "partial",
   "theorems": [
    "Verif.Props.C89_double_partial",
    "Verif.Props.C89_float_partial",
    "Verif.Props.C89_integer",
    "Verif.Props.C89_underflow_violated",
    "Verif.Props.C89_overflow_violated",
    "Verif.Props.C89_float_violated",
    "Verif.Props.fp_rounded",
    "Verif.Props.double_rounded"
   ],
   "note": "Violated: different points closer than about 2^-538 have distance 0 and points farther apart than 2^512 have an infinite distance, since the square is no double; differences of float data overflow. Proved for int, long, short and char data; for float data whose differences are at most 2^127; for double data up to 2^480 whose coordinates differ by at least 2^-500; all numbers of rows and columns, all schedules. fp_rounded, double_rounded: the operations of the model return numbers nearest to the exact results."
  },
  {
   "property": "C90",
   "status": "partial",
   "theorems": [
    "Verif.Props.C90_pairs_partial",
    "Verif.Props.C90_kernel_partial",
    "Verif.Props.C90_accuracy_partial",
    "Verif.Props.C90_pairs_violated",
    "Verif.Props.C90_zero_violated",
    "Verif.Props.C90_layout_violated",
    "Verif.Props.C90_range_violated"
   ],
   "note": "Violated: from 4098 rows on a thread compares a row with itself, since the square root is taken in single precision; the cells are in another order than the one distance_get uses; sums of squares outside the range of float give 0 or infinity. Proved for up to 4097 rows and the order of the kernel itself: the threads and the pairs correspond, no access leaves the arrays, the result is independent of the order, and for coordinates of moderate size the relative error is slightly above 2^-23."
  },
  {
   "property": "C91",
   "status": "partial",
   "theorems": [
    "Verif.Props.C91_stable_partial",
    "Verif.Props.C91_threads_partial",
    "Verif.Props.C91_moved_partial",
    "Verif.Props.C91_violated"
   ],
   "note": "Violated with repeated distances because core distances are then wrong (C19). Proved for data without such repetitions: for the computed distances with rounding, and in real arithmetic for rows that move by at most eps / 2."
  },
  {
   "property": "C92",
   "status": "partial",
   "theorems": [
    "Verif.Props.C92_more_rows_partial",
    "Verif.Props.C92_threads_partial",
    "Verif.Props.C92_violated"
   ],
   "note": "Violated with repeated distances because core distances are then wrong (C19). Proved for data without such repetitions."
  },
  {
   "property": "C93",
   "status": "partial",
   "theorems": [
    "Verif.Props.C93_list_partial",
    "Verif.Props.C93_node_partial",
    "Verif.Props.C93_run_partial",
    "Verif.Props.C93_granted",
    "Verif.Props.C93_violated_lost",
    "Verif.Props.C93_violated_insert",
    "Verif.Props.C93_violated_node",
    "Verif.Props.C93_violated_entry",
    "Verif.Props.C93_violated_run",
    "Verif.Props.C93_violated_destroy",
    "Verif.Props.C93_violated_leak",
    "Verif.Props.C93_violated_unnoticed"
   ],
   "note": "Violated: array_list_append that fails loses all elements and leaks their block, array_list_insert_at, new hash table entries, distances, core distances, tree weights and adjacency lists are written to through a null pointer; after some reported errors hdbscan_destroy is undefined or leaks. Proved for list histories without array_list_insert_at and for the requests the code looks at. The run is followed until the adjacency lists of the spanning tree exist."
  },
  {
   "property": "C94",
   "status": "proved",
   "theorems": [
    "Verif.Props.C94_sorted_history",
    "Verif.Props.C94_set_sort",
    "Verif.Props.C94_pointers"
   ],
   "note": ""
  },
  {
   "property": "C95",
   "status": "partial",
   "theorems": [
    "Verif.Props.C95_history_partial",
    "Verif.Props.C95_leak_exact",
    "Verif.Props.C95_leak_violated",
    "Verif.Props.C95_early_violated",
    "Verif.Props.C95_copy_violated",
    "Verif.Props.C95_destroy_null_violated",
    "Verif.Props.C95_outside_violated"
   ],
   "note": "Results: proved for all sequences of calls. Violated: computing a data set while the object holds another one loses two blocks, and nothing else does (exact); reading before computing or after cleaning, destroying a copy and distance_destroy(NULL) are undefined behaviour; the column after the last one silently gives the distance of another pair."
  },
  {
   "property": "C96",
   "status": "partial",
   "theorems": [
    "Verif.Props.C96_stack_partial",
    "Verif.Props.C96_any_partial",
    "Verif.Props.C96_stack_violated"
   ],
   "note": "Proved exactly for minPoints up to the number of points. Violated for larger ones, which hdbscan_init accepts: more than 2^19 overflows a stack of 8 MiB whatever the data, although the run completes with an unlimited stack. For arbitrary data (NaN, overflow): 44 bytes per point and 16 per neighbour are enough."
  },
  {
   "property": "C97",
   "status": "partial",
   "theorems": [
    "Verif.Props.C97_flat_partial",
    "Verif.Props.C97_any_partial",
    "Verif.Props.C97_threads",
    "Verif.Props.C97_single_violated"
   ],
   "note": "Proved in full for one thread. With several threads the data race of C37 can lose labels, so that a single one remains; every label that is left is still that of a density cluster (C97_threads). C97_any_partial: arbitrary data (NaN, infinities, distances not below D_MAX, any minPoints of at least 2), where a cluster is a component at a level below D_MAX."
  },
  {
   "property": "C98",
   "status": "partial",
   "theorems": [
    "Verif.Props.C98_history_partial",
    "Verif.Props.C98_memory_partial",
    "Verif.Props.C98_leak_violated",
    "Verif.Props.C98_constructor_violated",
    "Verif.Props.C98_cleaned_violated",
    "Verif.Props.C98_copy_violated"
   ],
   "note": "Answers: proved for all sequences of calls, with removals exactly as C24_remove_exact describes (a removal takes away two self edges of a vertex). Violated: building a graph in an object that holds another one loses its blocks, vertices + 4 of them, and nothing else does (exact); the C++ constructor reads through a null pointer, always; cleaning a copy frees twice; after cleaning every use but building is undefined."
  },
  {
   "property": "C99",
   "status": "partial",
   "theorems": [
    "Verif.Props.C99_constraints_partial",
    "Verif.Props.C99_concrete",
    "Verif.Props.C99_wrap_violated"
   ],
   "note": "Violated when the counts add up to 2^32 or more: they wrap around and a selection that satisfies fewer wins. Proved for all smaller totals."
  }
 ]
}