{"id": "C01", "title": "ArrayList behaves as a sequence", "statement": "After any history of array_list_append, array_list_insert_at (at a position not past the end), array_list_replace_at, array_list_remove_at, array_list_remove, array_list_pop, array_list_value_at and array_list_clear without resize on a list made by array_list_init with a positive capacity, every call returns the status and value that the same call on an ideal sequence would return, the reported size is the length of that sequence, no element is lost or reordered by growing, and no byte outside the list's allocation is read or written.", "quantifier": "every element type, every initial capacity > 0, every finite history of those operations with every argument value (insert positions up to the current size)", "why_tests_cant": "The histories are unbounded and the growth points depend on the capacity; a test fixes one capacity and one history.", "anchors": ["modules/collections/src/list.c: array_list_init, array_list_append, array_list_insert_at, array_list_replace_at, array_list_remove_at, array_list_remove, array_list_pop, array_list_value_at, array_list_grow, array_list_clear", "modules/utils/src/utils.c: highestPowerof2"]}
{"id": "C02", "title": "Clearing an ArrayList or set leaves it usable", "statement": "A list or set that was cleared with array_list_clear(list, 1) or set_clear can be filled again: later insertions stay inside the memory the list owns.", "quantifier": "every list content and capacity before the clear, every history of insertions after it", "why_tests_cant": "The failure is a heap overflow whose visibility depends on the allocator; tests that clear and insert a little usually pass.", "anchors": ["modules/collections/src/list.c: array_list_clear, array_list_append, array_list_insert_at", "modules/collections/src/set.c: set_clear, set_insert"]}
{"id": "C03", "title": "array_list_find on an unsorted list returns the first match", "statement": "array_list_find(list, x, 0) returns the smallest index whose element compares equal to x, and -1 exactly when no element does; array_list_remove removes exactly that first occurrence and keeps the order of all others.", "quantifier": "every list content, every searched value, every comparison function", "why_tests_cant": "Ranges over all lists and comparison functions.", "anchors": ["modules/collections/src/list.c: unordered_search, array_list_find, array_list_remove, array_list_remove_at"]}
{"id": "C04", "title": "array_list_find on a sorted list is exact", "statement": "On a list sorted by its comparison function, array_list_find(list, x, 1) terminates, reads only inside the list, and returns an index holding an element equal to x if there is one and -1 otherwise.", "quantifier": "every sorted list of every length, every searched value, every comparison function that is a total preorder", "why_tests_cant": "Binary search errors hide in particular lengths and positions; the claim is for all of them.", "anchors": ["modules/collections/src/list.c: binary_search, array_list_find"]}
{"id": "C05", "title": "set_t is a mathematical set kept in order", "statement": "Starting from set_init, after any history of set_insert, set_remove, set_remove_at, set_find and set_value_at, the elements are strictly increasing; set_insert returns 1 and adds the element exactly when it was absent and returns 0 and changes nothing when it was present; set_remove removes the element or reports -1 when absent; set_find is non-negative exactly for members.", "quantifier": "every history of operations and every element value, for every comparison function that is a total order", "why_tests_cant": "Unbounded histories; an ordering defect needs a specific sequence of insertions and removals to show.", "anchors": ["modules/collections/src/set.c: set_init, set_insert, set_remove, set_find, set_value_at, set_remove_at"]}
{"id": "C06", "title": "hashtable insert and lookup implement a finite map", "statement": "After any history of hashtable_insert and hashtable_lookup on a fresh table, hashtable_lookup(k) finds exactly the value most recently inserted for k, regardless of collisions; hashtable_insert returns 1 for a new key and -1 for an existing key, in which case the previous value is handed back to the caller.", "quantifier": "every history of inserts and lookups, every bucket count > 0, every hash function with values below the bucket count, every key order", "why_tests_cant": "Collisions depend on hash values and bucket counts; all combinations cannot be enumerated.", "anchors": ["modules/collections/src/hashtable.c: hashtable_init_size, hashtable_insert, hashtable_lookup_entry, hashtable_lookup, hashtable_set_entry"]}
{"id": "C07", "title": "hashtable_remove removes one key and nothing else", "statement": "hashtable_remove(k) makes k absent and leaves the value found for every other key unchanged, for any history of inserts and removes.", "quantifier": "every history of inserts, removes and lookups, every hash function", "why_tests_cant": "The defect needs three keys in one bucket and two removals in a particular order.", "anchors": ["modules/collections/src/hashtable.c: hashtable_remove, hashtable_lookup"]}
{"id": "C08", "title": "hashtable_remove hands back the removed value", "statement": "hashtable_remove copies exactly the stored value of the removed key into the caller's buffer: all bytes of the value and no byte beyond it.", "quantifier": "every combination of key type and value type, every stored value", "why_tests_cant": "The number of bytes copied is taken from the key type, so only tables whose key and value sizes differ show the defect.", "anchors": ["modules/collections/src/hashtable.c: hashtable_remove, hashtable_entry_destroy", "modules/utils/src/utils.c: get_htype_size"]}
{"id": "C09", "title": "hashtable size and key list agree with the contents", "statement": "After any history of inserts, lookups and clears, hashtable_size is the number of distinct keys present, the keys set lists exactly the keys that hashtable_lookup finds, in increasing order and without repetition, and hashtable_empty is true exactly when there is no key.", "quantifier": "every history of inserts, lookups and clears, every hash function and bucket count", "why_tests_cant": "A relation between three separately maintained counters over unbounded histories.", "anchors": ["modules/collections/src/hashtable.c: hashtable_insert, hashtable_clear, hashtable_size, hashtable_empty"]}
{"id": "C10", "title": "hashtable_clear destroys every value exactly once", "statement": "hashtable_clear calls the value destructor exactly once for every stored value, in spite of collisions, and leaves an empty table; with a key destructor, every stored key is destroyed exactly once.", "quantifier": "every table contents reachable by inserts, every hash function", "why_tests_cant": "A double or missing destruction depends on how keys collide.", "anchors": ["modules/collections/src/hashtable.c: hashtable_clear, hashtable_destroy, hashtable_entry_destroy"]}
{"id": "C11", "title": "A hash table always has at least one bucket and hashes land in it", "statement": "hashtable_init yields a table with at least one bucket for every requested bucket count, and every hash function returns an index below the bucket count, so no hash reads or writes outside the bucket array.", "quantifier": "every requested bucket count (64-bit), every integer or string key", "why_tests_cant": "The request is mapped through a prime table search that fails for many inputs; all 2^64 requests matter.", "anchors": ["modules/collections/src/hashtable.c: hashtable_init, hashtable_init_size", "modules/collections/src/primes.c: find_prime_less_than, binary_search_primes", "modules/utils/src/utils.c: int_hash, long_hash, short_hash, char_hash, str_hash"]}
{"id": "C12", "title": "find_prime_less_than returns the largest prime below its argument", "statement": "find_prime_less_than(num) returns the largest tabulated prime less than num for every num above the smallest prime and up to the largest tabulated prime, and never reads outside the prime table.", "quantifier": "every 32-bit argument", "why_tests_cant": "The binary search takes a wrong turn only for some primes; a handful of examples misses them.", "anchors": ["modules/collections/src/primes.c: binary_search_primes, find_prime_less_than", "modules/collections/include/collections/primes.h: primes"]}
{"id": "C13", "title": "get_prime returns a prime larger than its argument", "statement": "get_prime(min) returns a prime number larger than min.", "quantifier": "every 32-bit argument below INT_MAX", "why_tests_cant": "Universal claim over the argument.", "anchors": ["modules/collections/src/primes.c: get_prime"]}
{"id": "C14", "title": "linked list behaves as a sequence", "statement": "After any history of linkedlist_front_add, linkedlist_tail_add, linkedlist_value_at, linkedlist_lookup without removal and linkedlist_clear, the list holds the ideal sequence: value_at(i) returns the i-th element, lookup returns the first match, head and tail return the first and last element, the size is the length, and no null or freed node is dereferenced.", "quantifier": "every history of those operations and every element value and position", "why_tests_cant": "Unbounded histories over a doubly linked structure.", "anchors": ["modules/collections/src/linkedlist.c: linkedlist_front_add, linkedlist_tail_add, linkedlist_value_at, linkedlist_lookup, linkedlist_clear, linkedlist_head, linkedlist_tail, linkedlist_empty"]}
{"id": "C15", "title": "linkedlist_remove removes the first match and keeps the rest", "statement": "linkedlist_remove(x) removes the first element equal to x and leaves all others in order, for any history; the list stays usable afterwards.", "quantifier": "every history of adds and removes", "why_tests_cant": "The damage done by a removal only shows at a later operation on a neighbouring node.", "anchors": ["modules/collections/src/linkedlist.c: linkedlist_remove, linkedlist_node_unhook, linkedlist_tail_add"]}
{"id": "C16", "title": "The comparison functions are total orders", "statement": "Each integer comparison function returns a negative, zero or positive value such that the result is zero exactly for equal values, swapping arguments flips the sign, and the order is transitive; so sorting and searching with it is well defined.", "quantifier": "every pair and triple of values of the type", "why_tests_cant": "Quadratic and cubic in 2^32 values.", "anchors": ["modules/utils/src/utils.c: int_compare, short_compare, long_compare, char_compare, double_compare"]}
{"id": "C17", "title": "The packed distance matrix never mixes pairs or leaves its bounds", "statement": "For a data set of n points, distance_get addresses a cell inside the allocated packed matrix for every pair of distinct points, different unordered pairs get different cells, both orders of a pair get the same cell, every cell is used, and the cell read is the cell distance_compute wrote.", "quantifier": "every number of points n up to the supported limit and every pair of points; beyond the limit the failure is exhibited", "why_tests_cant": "Index arithmetic in 32-bit unsigned integers wraps at sizes tests do not reach; the bijection is a claim about all pairs.", "anchors": ["src/distance.c: distance_get, distance_compute", "modules/utils/include/hdbscan/utils.h: TRIANGULAR_H"]}
{"id": "C18", "title": "distance_get returns the Euclidean distance", "statement": "After distance_compute, distance_get(i, j) is the Euclidean distance between data rows i and j, is zero for i = j, and is symmetric, independently of the order in which the parallel loop visits rows.", "quantifier": "every data set of at most 65536 rows whose coordinate differences are representable in the data type (otherwise the failure is exhibited), every number of columns, every pair of rows, every schedule of the parallel loop", "why_tests_cant": "Quantifies over data sets and over thread schedules.", "anchors": ["src/distance.c: distance_compute, distance_get"]}
{"id": "C19", "title": "Core distance is the k-th smallest distance", "statement": "With minPoints = k, the core distance of a point is the k-th smallest distance from it to the points of the data set counting itself.", "quantifier": "every data set with at least k points, every k >= 1, every point", "why_tests_cant": "The insertion search misplaces elements only for particular patterns of equal distances in a particular order.", "anchors": ["src/distance.c: distance_get_core_distances"]}
{"id": "C20", "title": "Core distances do not depend on what was computed before", "statement": "The core distances computed by hdbscan_rerun(minPts) are those a fresh hdbscan_run with that minPts computes on the same data, for any earlier sequence of reruns.", "quantifier": "every data set, every sequence of minPts values", "why_tests_cant": "Histories of reruns are unbounded.", "anchors": ["src/hdbscan.c: hdbscan_rerun, hdbscan_run", "src/distance.c: distance_get_core_distances"]}
{"id": "C21", "title": "The spanning tree is a spanning tree", "statement": "For a data set of n >= 2 points whose mutual reachability distances are below the largest finite value, the constructed tree has n-1 edges that connect all points, each carrying the mutual reachability distance of its endpoints, plus one self edge per point carrying its core distance; no access is out of bounds.", "quantifier": "every data set (every distance matrix and core distance vector below D_MAX), every n >= 2", "why_tests_cant": "A structural claim about the output of a greedy loop on all inputs.", "anchors": ["src/hdbscan.c: hdbscan_construct_mst", "src/undirected_graph.c: graph_init"]}
{"id": "C22", "title": "The spanning tree is minimum", "statement": "For every threshold, two points are connected by tree edges of weight at most the threshold exactly when they are connected by pairs of points whose mutual reachability distance is at most the threshold; consequently no spanning tree of the mutual reachability graph has smaller total weight or smaller largest edge.", "quantifier": "every data set, every threshold, every competing spanning tree", "why_tests_cant": "Quantifies over all spanning trees of a complete graph.", "anchors": ["src/hdbscan.c: hdbscan_construct_mst"]}
{"id": "C23", "title": "Edge sorting sorts and keeps edges intact", "statement": "graph_quicksort_by_edge_weight terminates, leaves the edge weights in ascending order, and the list of (first vertex, second vertex, weight) triples is a permutation of the original one; its explicit stacks never overflow.", "quantifier": "every edge list of every length with comparable weights", "why_tests_cant": "The recursion stack has size edges/2; only a proof shows that no input exceeds it.", "anchors": ["src/undirected_graph.c: graph_quicksort_by_edge_weight, graph_partition, graph_select_pivot_index, graph_swap_edges, graph_quicksort"]}
{"id": "C24", "title": "Adjacency lists mirror the edge list", "statement": "After graph_init the number of times w occurs among the neighbours of v equals the number of edges joining v and w, and graph_remove_edge removes exactly one occurrence of an existing edge from both sides and nothing else.", "quantifier": "every graph, every edge, every history of removals of present edges", "why_tests_cant": "Ranges over all multigraphs.", "anchors": ["src/undirected_graph.c: graph_init, graph_remove_edge"]}
{"id": "C25", "title": "Building the hierarchy never goes wrong", "statement": "For any valid spanning tree input, building the hierarchy terminates, never reads uninitialised or out-of-bounds memory, never follows a null cluster, and every point ends as noise with a recorded noise level and a recorded last cluster that exists.", "quantifier": "every tree with self edges over every number of points, every assignment of weights (with any ties), every minPoints >= 1", "why_tests_cant": "The loop has many nested loops over sets; absence of bad accesses must hold on every tree.", "anchors": ["src/hdbscan.c: hdbscan_compute_hierarchy_and_cluster_tree, hdbscan_create_new_cluster"]}
{"id": "C26", "title": "Each hierarchy level is the density clustering at that level", "statement": "In the hierarchy line stored for edge weight w, two points that are not noise carry the same label exactly when they are connected by steps of mutual reachability distance at most w, and a point is noise exactly when fewer than minPoints points are connected to it in that way.", "quantifier": "every data set of at least minPoints points, every minPoints >= 2, every hierarchy line, every pair of points", "why_tests_cant": "A characterisation of every level of the hierarchy of every data set.", "anchors": ["src/hdbscan.c: hdbscan_compute_hierarchy_and_cluster_tree, hdbscan_construct_mst"]}
{"id": "C27", "title": "Hierarchy lines are complete and ordered", "statement": "The hierarchy holds lines 1..L with strictly decreasing weights and line 0 with weight 0 and all labels 0; the first line labels every point 1; a point that is noise in a line is noise in all later lines. The levels of lines 1..L are exactly the levels at which two points become connected that lie in a component of at least minPoints points.", "quantifier": "every data set and minPoints", "why_tests_cant": "Claim over all levels of all hierarchies.", "anchors": ["src/hdbscan.c: hdbscan_compute_hierarchy_and_cluster_tree"]}
{"id": "C28", "title": "The cluster tree is well formed", "statement": "The cluster stored at index l has label l; every cluster except the root has a parent with a smaller label that is marked as having children, a cluster marked as having children has at least two, and a cluster's birth level is the weight at which its parent dies.", "quantifier": "every data set, minPoints and cluster", "why_tests_cant": "Structural invariant over all executions of the hierarchy loop.", "anchors": ["src/hdbscan.c: hdbscan_compute_hierarchy_and_cluster_tree, hdbscan_create_new_cluster", "src/cluster.c: cluster_init, cluster_detach_points"]}
{"id": "C29", "title": "Clusters are born with at least minPoints members inside their parent", "statement": "Every cluster other than the root is born with at least minPoints points, all of which belonged to its parent, and siblings are disjoint.", "quantifier": "every data set, minPoints and cluster", "why_tests_cant": "Universal over executions.", "anchors": ["src/hdbscan.c: hdbscan_compute_hierarchy_and_cluster_tree, hdbscan_create_new_cluster"]}
{"id": "C30", "title": "Cluster sizes and death levels are accounted exactly", "statement": "Throughout the construction, the point count kept in a cluster equals the number of points currently carrying its label, it never underflows, ends at zero, and the death level is the weight at which the last point left.", "quantifier": "every data set, minPoints, cluster and moment of the construction", "why_tests_cant": "The count is decremented in unsigned arithmetic; a single double detach would wrap silently.", "anchors": ["src/cluster.c: cluster_detach_points", "src/hdbscan.c: hdbscan_create_new_cluster"]}
{"id": "C31", "title": "Stability is the relative excess of mass", "statement": "In exact arithmetic, the stability of a non-root cluster is the sum over its birth members of (1/level at which the member left - 1/birth level), and it is non-negative.", "quantifier": "every data set with positive edge weights, every minPoints and every non-root cluster", "why_tests_cant": "An equation between an incrementally updated number and a sum over all members.", "anchors": ["src/cluster.c: cluster_detach_points", "src/hdbscan.c: hdbscan_compute_hierarchy_and_cluster_tree"]}
{"id": "C32", "title": "Propagation visits every cluster once, children before parents", "statement": "hdbscan_propagate_tree terminates, processes every cluster exactly once and every child before its parent, whatever order the parallel loop discovers the leaves in.", "quantifier": "every cluster tree and every schedule of the leaf discovery loop", "why_tests_cant": "Quantifies over trees and schedules.", "anchors": ["src/hdbscan.c: hdbscan_propagate_tree", "src/cluster.c: cluster_propagate"]}
{"id": "C33", "title": "The selected clusters never overlap and cover every leaf", "statement": "No selected cluster is an ancestor of another one, and every leaf cluster below the root is a selected cluster or has exactly one selected proper ancestor.", "quantifier": "every cluster tree and every assignment of stabilities", "why_tests_cant": "Universal over trees.", "anchors": ["src/cluster.c: cluster_propagate", "src/hdbscan.c: hdbscan_propagate_tree"]}
{"id": "C34", "title": "The selected clusters have maximal total stability", "statement": "In exact arithmetic no other set of non-overlapping non-root clusters covering every leaf has a larger total stability, and ties favour the larger cluster.", "quantifier": "every cluster tree, every stability assignment, every competing selection", "why_tests_cant": "The number of competing selections is exponential.", "anchors": ["src/cluster.c: cluster_propagate", "src/hdbscan.c: hdbscan_propagate_tree"]}
{"id": "C35", "title": "Final labels are the selected clusters' birth members", "statement": "After a run, a point's label is l > 0 exactly when l is a selected cluster and the point was a member of l at its birth; otherwise it is 0. The result does not depend on the order in which the parallel loop visits hierarchy lines, the required hierarchy line always exists, and every non-zero label is carried by at least minPoints points.", "quantifier": "every data set, minPoints, point and schedule", "why_tests_cant": "Quantifies over data sets and schedules; the existence of the hierarchy line is a claim on all executions.", "anchors": ["src/hdbscan.c: hdbscan_find_prominent_clusters"]}
{"id": "C36", "title": "A data set that never splits is all noise", "statement": "If the cluster tree consists of the root only, every point gets label 0.", "quantifier": "every data set whose hierarchy never splits", "why_tests_cant": "Universal over data sets.", "anchors": ["src/hdbscan.c: hdbscan_find_prominent_clusters, hdbscan_propagate_tree", "src/cluster.c: cluster_propagate"]}
{"id": "C37", "title": "Cluster offsets do not depend on thread scheduling", "statement": "The offset recorded for every new cluster is the index of the hierarchy line being written, whatever the thread schedule of the loop that assigns offsets.", "quantifier": "every set of new clusters and every interleaving of the parallel loop", "why_tests_cant": "The loop shares one pointer variable between threads; the wrong outcome needs a particular interleaving.", "anchors": ["src/hdbscan.c: hdbscan_compute_hierarchy_and_cluster_tree (lines 669-679)"]}
{"id": "C38", "title": "Infinite stability is reported", "statement": "If duplicate points make some cluster's stability infinite, hdbscan_propagate_tree reports it.", "quantifier": "every cluster tree with an infinite stability", "why_tests_cant": "Depends on floating point special values.", "anchors": ["src/hdbscan.c: hdbscan_propagate_tree", "src/cluster.c: cluster_detach_points"]}
{"id": "C39", "title": "Outlier scores list every point once in order", "statement": "After a run the outlier score array contains every point id exactly once, sorted by score, then core distance, then id.", "quantifier": "every data set without NaN scores", "why_tests_cant": "The comparison function subtracts unsigned ids and casts to int; its being a total order is a claim on all triples.", "anchors": ["src/hdbscan.c: hdbscsan_calculate_outlier_scores", "src/outlier_score.c: outlier_score_compare"]}
{"id": "C40", "title": "Outlier scores lie in [0, 1)", "statement": "Every outlier score is at least 0 and less than 1.", "quantifier": "every data set with positive distances, every minPoints, every point", "why_tests_cant": "The violation needs a data set whose hierarchy never splits.", "anchors": ["src/hdbscan.c: hdbscsan_calculate_outlier_scores", "src/cluster.c: cluster_propagate"]}
{"id": "C41", "title": "The cluster map partitions the labelled points", "statement": "hdbscan_create_cluster_map(labels, begin, end) maps each label that occurs in the range to the ascending list of exactly those indices in the range that carry it.", "quantifier": "every label array, every range", "why_tests_cant": "Universal over label arrays and ranges; short ranges take an aborting path.", "anchors": ["src/hdbscan.c: hdbscan_create_cluster_map"]}
{"id": "C42", "title": "Minimum and maximum distances of a cluster are right", "statement": "hdbscan_get_min_max_distances records, for each cluster, the largest core distance, the smallest non-zero core distance, the largest pairwise distance and the smallest non-zero pairwise distance of its members.", "quantifier": "every cluster map, distance matrix and core distance vector", "why_tests_cant": "Universal over cluster maps; the deviation needs a zero core distance in first position.", "anchors": ["src/hdbscan.c: hdbscan_get_min_max_distances"]}
{"id": "C43", "title": "Confidences are percentages", "statement": "After hdbscan_calculate_stats every confidence lies between 0 and 100, the cluster with the largest ratio has confidence 0, and a smaller ratio never has a smaller confidence.", "quantifier": "every distance map with positive minimum values", "why_tests_cant": "Universal over distance maps.", "anchors": ["src/hdbscan.c: hdbscan_calculate_stats"]}
{"id": "C44", "title": "Statistics depend only on the distance map", "statement": "hdbscan_calculate_stats fills the statistics record with values determined by the distance map: the count, the mean, the maximum and the sample variance of the ratios, whatever the record contained before.", "quantifier": "every distance map and every previous content of the record", "why_tests_cant": "The dependence on previous content is invisible when the record happens to be zeroed.", "anchors": ["src/hdbscan.c: hdbscan_calculate_stats, hdbscan_calculate_stats_helper"]}
{"id": "C45", "title": "hdbscan_analyse_stats scores lie in [-2, 4] and follow the decision table", "statement": "hdbscan_analyse_stats returns the sum of two scores, one per distance kind: 2 for positive skewness and kurtosis, 1 for negative skewness and positive kurtosis, 0 for positive skewness and negative kurtosis, -1 otherwise (including NaN); so the result is between -2 and 4.", "quantifier": "every statistics record", "why_tests_cant": "Universal over records including NaN.", "anchors": ["src/hdbscan.c: hdbscan_analyse_stats"]}
{"id": "C46", "title": "hdbscan_quicksort sorts labels by value", "statement": "hdbscan_quicksort terminates, reads and writes only the given range, leaves the values ascending, and the pairing of labels with values is a permutation of the original pairing.", "quantifier": "every pair of equally long arrays with comparable values", "why_tests_cant": "Partition errors hide in particular arrangements of equal elements.", "anchors": ["src/hdbscan.c: partition, hdbscan_quicksort"]}
{"id": "C47", "title": "hdbscan_sort_by_similarity orders the given clusters by their own confidence", "statement": "Given a non-empty list of clusters, hdbscan_sort_by_similarity returns a permutation of it in ascending order of each cluster's own confidence; given no list it returns all clusters so ordered.", "quantifier": "every distance map and every list of its labels", "why_tests_cant": "The wrong pairing is invisible when the given list happens to be sorted by label.", "anchors": ["src/hdbscan.c: hdbscan_sort_by_similarity", "src/hdbscan.cpp: hdbscan::sortBySimilarity"]}
{"id": "C48", "title": "hdbscan_sort_by_length orders the given clusters by size", "statement": "Given a non-empty list of clusters, hdbscan_sort_by_length returns a permutation of it in ascending order of cluster size.", "quantifier": "every cluster map and every list of its labels", "why_tests_cant": "Universal over maps and lists.", "anchors": ["src/hdbscan.c: hdbscan_sort_by_length"]}
{"id": "C49", "title": "rerun equals a fresh run", "statement": "hdbscan_rerun(m) after any sequence of run and reruns yields the same labels, hierarchy, clusters and outlier scores as hdbscan_init(m) followed by hdbscan_run on the same data.", "quantifier": "every data set, every history of reruns, every m >= 2", "why_tests_cant": "History independence over unbounded histories.", "anchors": ["src/hdbscan.c: hdbscan_rerun, hdbscan_minimal_clean, hdbscan_do_run"]}
{"id": "C50", "title": "Memory is released exactly once over the life of an hdbscan object", "statement": "For every history init, run, rerun*, destroy no block is freed twice, no uninitialised pointer is read, and at the end nothing allocated by the library for the object is left.", "quantifier": "every history of API calls on one object", "why_tests_cant": "Histories are unbounded and the misuse (destroy right after init, run twice) is undefined behaviour or a leak, which tests cannot observe.", "anchors": ["src/hdbscan.c: hdbscan_init, hdbscan_run, hdbscan_rerun, hdbscan_clean, hdbscan_minimal_clean, hdbscan_destroy", "src/hdbscan.cpp: hdbscan::clean, hdbscan::~hdbscan"]}
{"id": "C51", "title": "hdbscan_run accepts every data set size", "statement": "hdbscan_run completes for every number of points n >= 2 and minPoints <= n.", "quantifier": "every n >= 2", "why_tests_cant": "A size-dependent assertion aborts for small n only.", "anchors": ["src/hdbscan.c: hdbscan_run, hdbscan_do_run", "modules/collections/src/list.c: array_list_init"]}
{"id": "C52", "title": "The point count agrees with the distance matrix", "statement": "The number of points hdbscan_run clusters equals the number of rows for which distances were computed, whatever the rowwise flag.", "quantifier": "every rows, cols and rowwise flag", "why_tests_cant": "Only the combination rowwise = false and cols > 1 misbehaves, by reading outside the distance matrix.", "anchors": ["src/hdbscan.c: hdbscan_get_dataset_size, hdbscan_run", "src/distance.c: distance_get"]}
{"id": "C53", "title": "Detaching points never wraps", "statement": "cluster_detach_points reports an error when asked to detach more points than the cluster has.", "quantifier": "every cluster and every number of points", "why_tests_cant": "The error branch is unreachable in unsigned arithmetic; only reasoning over all values shows it.", "anchors": ["src/cluster.c: cluster_detach_points"]}
{"id": "C54", "title": "The virtual child holds exactly the noise points", "statement": "After the hierarchy is built, a cluster's virtual child contains exactly the points that became noise directly from that cluster, and cluster_virtual_child_contains_point answers that question.", "quantifier": "every data set, minPoints, cluster and point", "why_tests_cant": "Universal over executions.", "anchors": ["src/cluster.c: cluster_add_points_to_virtual_child_cluster, cluster_virtual_child_contains_point", "src/hdbscan.c: hdbscan_create_new_cluster"]}
{"id": "C55", "title": "End-to-end run", "statement": "For every data set of n >= 5 points (n up to the supported limit), 2 <= minPoints <= n, and distances and core distances below D_MAX, hdbscan_run completes without undefined behaviour and its labels, hierarchy and outlier scores have the properties above.", "quantifier": "every such data set and minPoints", "why_tests_cant": "Composition of all stages on all inputs.", "anchors": ["src/hdbscan.c: hdbscan_run, hdbscan_do_run"]}
{"id": "C56", "title": "Outlier scores are GLOSH scores", "statement": "When the hierarchy splits, a point's score is 1 - epsmax/eps (0 if eps is 0), where eps is the level of the last hierarchy line in which the point carries a cluster label and epsmax is the smallest death level among the childless clusters at or below that cluster.", "quantifier": "every data set, minPoints and point", "why_tests_cant": "Relates propagation over the whole cluster tree to the noise levels of the hierarchy, on all inputs.", "anchors": ["src/hdbscan.c: hdbscsan_calculate_outlier_scores, hdbscan_compute_hierarchy_and_cluster_tree", "src/cluster.c: cluster_propagate"]}
{"id": "C57", "title": "The C++ sortBySimilarity orders the given clusters by their own confidence", "statement": "clustering::sortBySimilarity, given a non-empty list of labels of the distance map, returns a permutation of it in ascending order of each cluster's own confidence; given an empty list it returns all labels so ordered.", "quantifier": "every non-empty distance map and every list of its labels", "why_tests_cant": "Every map, list and tie pattern matters; a test fixes a handful.", "anchors": ["src/hdbscan.cpp:239-281"]}
{"id": "C58", "title": "The C++ createClusterMap is right for every range", "statement": "clustering::createClusterMap(labels, begin, end) maps each label that occurs in the range to the ascending list of exactly those indices in the range that carry it, and contains no other label.", "quantifier": "every label array and every range inside it", "why_tests_cant": "The ranges and label patterns are unbounded; short ranges, where the C function aborts, are included.", "anchors": ["src/hdbscan.cpp:91-101"]}
{"id": "C59", "title": "Duplicate points are treated alike", "statement": "Two rows with the same coordinates get the same core distance, the same label in every line of the hierarchy, the same final label and the same outlier score.", "quantifier": "every data set, every pair of equal rows, every minPoints and every schedule", "why_tests_cant": "Tests would have to cover every position of the duplicates among the other points and every tie this creates.", "anchors": ["src/hdbscan.c: hdbscan_run, hdbscan_do_run", "src/distance.c: distance_compute, distance_get_core_distances", "src/undirected_graph.c: graph construction"]}
{"id": "C60", "title": "Only the pairwise distances matter", "statement": "Two data sets with the same pairwise distances, for instance one and its translated, rotated or mirrored copy, get the same labels, hierarchy, core distances and outlier scores.", "quantifier": "every pair of data sets with equal pairwise distances, whatever their element types and numbers of columns", "why_tests_cant": "Relates two runs on different inputs, for all inputs.", "anchors": ["src/hdbscan.c: hdbscan_run, hdbscan_do_run", "src/distance.c: distance_compute"]}
{"id": "C61", "title": "The order of the rows does not matter", "statement": "If the rows of a data set are stored in another order, core distances, hierarchy, final clusters and outlier scores of the points are the same, up to the numbers given to the clusters.", "quantifier": "every data set and every permutation of its rows", "why_tests_cant": "There are n! orders; which of them breaks ties badly depends on the data.", "anchors": ["src/hdbscan.c: hdbscan_run, hdbscan_do_run", "src/distance.c: distance_get_core_distances"]}
{"id": "C62", "title": "The unit of length does not matter", "statement": "If all coordinates are multiplied by c > 0, core distances and hierarchy levels are multiplied by c and hierarchy, final clusters and outlier scores are otherwise the same. More generally the hierarchy depends only on the order of the distances.", "quantifier": "every data set and every c > 0", "why_tests_cant": "Relates two runs on different inputs, for all inputs and factors.", "anchors": ["src/hdbscan.c: hdbscan_run, hdbscan_do_run, hdbscsan_calculate_outlier_scores", "src/distance.c: distance_compute, distance_get_core_distances", "src/cluster.c: cluster_detach_points, cluster_propagate"]}
{"id": "C63", "title": "Results do not depend on the number and timing of threads", "statement": "However the threads of the parallel loops are scheduled and interleaved, a run completes and gives the labels, hierarchy, clusters, distances and outlier scores that a run with one thread gives. The same holds after any sequence of reruns.", "quantifier": "every data set, every interleaving of the threads, every sequence of reruns", "why_tests_cant": "Bad interleavings are rare in tests, and whether results depend on them is a statement about all interleavings.", "anchors": ["src/hdbscan.c: hdbscan_run, hdbscan_rerun, hdbscan_compute_hierarchy_and_cluster_tree (offset loop)", "src/hdbscan.c: hdbscan_find_prominent_clusters"]}
{"id": "C64", "title": "The results have bounded size", "statement": "A run on n points with minPoints m produces at most n hierarchy lines, fewer than 2n/m clusters and at most n/m different labels other than 0, and every label is the index of a cluster.", "quantifier": "every data set and minPoints", "why_tests_cant": "A bound over all inputs; memory use of every run depends on it.", "anchors": ["src/hdbscan.c: hdbscan_compute_hierarchy_and_cluster_tree, hdbscan_find_prominent_clusters"]}
{"id": "C65", "title": "PyHdbscan objects do not influence one another", "statement": "What a PyHdbscan object answers (labels, cluster map, hierarchy, return codes) depends only on the calls made on this object: constructing, running or deleting another object changes nothing.", "quantifier": "every Python program: any number of objects, any interleaving of constructor, run, rerun, getClusterMap, getHierarchies, attribute reads and deletions, any arrays", "why_tests_cant": "Programs of any length with any number of objects; a test fixes one interleaving, usually with one object.", "anchors": ["modules/python/src/PyHdbscan.c: scan (line 57), PyHdbscan_init, PyHdbscan_run, PyHdbscan_rerun, PyHdbscan_dealloc"]}
{"id": "C66", "title": "A refused Python call changes nothing", "statement": "A call that raises an exception because of its arguments (constructor or rerun with minPoints below 2 or of another type, run with an unsupported element type, getClusterMap with wrong arguments) leaves every object as it was: attributes stay readable and later calls give the same results.", "quantifier": "every state a program can reach, every refused argument", "why_tests_cant": "Quantifies over all states and over the number of refused calls; the defects appear at the second refused call or in other objects.", "anchors": ["modules/python/src/PyHdbscan.c: PyHdbscan_init, PyHdbscan_run, PyHdbscan_rerun, PyHdbscan_getClusterMap, PyHdbscan_dealloc"]}
{"id": "C67", "title": "Hierarchy arrays handed to Python stay valid", "statement": "The numpy arrays in the dictionary stored by getHierarchies keep the contents they had when it was called, as long as the program can reach them.", "quantifier": "every program, every later call", "why_tests_cant": "The arrays look into memory of the library; whether it is still allocated depends on all later calls, and reading released memory often goes unnoticed in a test.", "anchors": ["modules/python/src/PyHdbscan.c: PyHdbscan_getHierarchies, PyHdbscan_rerun, PyHdbscan_dealloc", "src/hdbscan.c: hdbscan_minimal_clean, hdbscan_clean"]}
{"id": "C68", "title": "Python objects release the memory of the library", "statement": "A program that deletes all its PyHdbscan objects has released everything the library allocated for them, exactly once, and never uses released memory.", "quantifier": "every sequence of constructions, runs, reruns, cluster maps and deletions; every number of clusters, levels and labels", "why_tests_cant": "Leaks and double frees over sequences of any length; tests do not observe the heap.", "anchors": ["modules/python/src/PyHdbscan.c: PyHdbscan_init, PyHdbscan_dealloc, PyHdbscan_getClusterMap", "src/hdbscan.c: hdbscan_init, hdbscan_clean"]}
{"id": "C69", "title": "The library's containers carry a run through without loss", "statement": "During a run and any sequence of reruns the library's own containers (growing arrays, sorted sets of vertices, hash tables of pointers, pointers between clusters) are never read outside their contents, no lookup that must succeed fails and no pointer dangles, and labels, hierarchy lines, clusters, parents, selected descendants and outlier scores are those that ideal sequences, sets and maps would give.", "quantifier": "every data set of 5 to 65536 points, every minPoints from 2 to the number of points, every history of reruns, every order of the parallel loops (the racing loop of C37 run by one thread)", "why_tests_cant": "Every container operation of every run is covered, for all sizes at which arrays grow and all hash collisions; a test meets a few of them.", "anchors": ["src/hdbscan.c: hdbscan_do_run, hdbscan_rerun, hdbscan_compute_hierarchy_and_cluster_tree, hdbscan_propagate_tree, hdbscan_find_prominent_clusters", "src/cluster.c: cluster_init, cluster_propagate", "modules/collections/src: list.c, set.c, hashtable.c"]}
{"id": "C70", "title": "The compact hierarchy loses nothing that the results depend on", "statement": "Running the stages with compactHierarchy set gives the same labels, outlier scores, noise levels and cluster tree as without it. The hierarchy consists of the last line and the lines right before and right after the birth of a cluster, numbered consecutively, at most two per cluster, and the offsets of the clusters refer to the new numbers.", "quantifier": "every data set of at least 5 points, every minPoints from 2 to the number of points, every order of the parallel loops; for the construction of the hierarchy every graph", "why_tests_cant": "The option interacts with the numbering of lines, with the offsets stored in clusters and with the lookup of line offset + 1 when labels are written; tests compare single data sets.", "anchors": ["src/hdbscan.c: hdbscan_compute_hierarchy_and_cluster_tree (compactHierarchy, nextLevelSignificant, lineCount), hdbscan_find_prominent_clusters", "include/hdbscan/hdbscan.h: hdbscan_compute_hierarchy_and_cluster_tree"]}
{"id": "C71", "title": "Any values can be clustered", "statement": "hdbscan_init and hdbscan_run complete for every data set that the library can read, also with NaN, infinite or huge coordinates and with minPoints above the number of rows: no undefined behaviour, failed assertion or endless loop, the same result for every schedule. The result is sound: distances are those between the rows, the hierarchy is nested, each line of a weight below D_MAX shows the components at that level, labels come from a selection of the cluster tree, every point has one outlier score, in ascending order. Reruns give the result of a fresh run.", "quantifier": "every data set of 5 to 65536 rows with any values, every minPoints from 2 on, every history of reruns, every order of the parallel loops (the racing loop of C37 run by one thread)", "why_tests_cant": "All comparisons with NaN are false, so each comparison in the code matters; special values can be combined in endless ways, and the distances need not form a connected graph.", "anchors": ["src/distance.c: distance_compute, distance_get_core_distances", "src/hdbscan.c: hdbscan_construct_mst, hdbscan_compute_hierarchy_and_cluster_tree, hdbscan_propagate_tree, hdbscan_find_prominent_clusters, hdbscan_calculate_outlier_scores"]}
{"id": "C72", "title": "Distances that are not below D_MAX count as D_MAX", "statement": "Two data sets whose distances agree wherever one of them is below D_MAX have the same core distances, hierarchy, clusters, labels and outlier scores: NaN, infinite and overflowed distances all act like D_MAX.", "quantifier": "every pair of data sets of 5 to 65536 rows, every minPoints from 2 on", "why_tests_cant": "Relates two runs on all inputs; NaN, infinity and overflow take different branches in the comparisons.", "anchors": ["src/distance.c: distance_get_core_distances", "src/hdbscan.c: hdbscan_construct_mst"]}
{"id": "C73", "title": "Isolated and incomplete rows are noise", "statement": "A row whose distances to all other rows are NaN, infinite or otherwise not below D_MAX gets label 0; and if minPoints exceeds the number of rows, all labels are 0 and there is no cluster but the root.", "quantifier": "every data set of 5 to 65536 rows, every minPoints from 2 on", "why_tests_cant": "The rows can be at any position and of any number, the other rows arbitrary; such a row has no edge below D_MAX in the spanning tree, a case the code does not handle explicitly.", "anchors": ["src/hdbscan.c: hdbscan_construct_mst, hdbscan_compute_hierarchy_and_cluster_tree, hdbscan_find_prominent_clusters"]}
{"id": "C74", "title": "Incomplete rows do not disturb the others", "statement": "If the distances between the complete rows are below D_MAX, those of the incomplete rows are not, and there are at least minPoints complete rows, then every hierarchy line of a weight below D_MAX shows exactly the components of at least minPoints points at that level; the incomplete rows are noise.", "quantifier": "every such data set of 5 to 65536 rows, any number of incomplete rows at any positions, every minPoints from 2 on", "why_tests_cant": "Any number of NaN rows anywhere in the data; the spanning tree contains artificial edges to row 0 for them.", "anchors": ["src/hdbscan.c: hdbscan_construct_mst, hdbscan_compute_hierarchy_and_cluster_tree"]}
{"id": "C75", "title": "Groups of points that are far apart are found", "statement": "Groups of at least minPoints points are reported as clusters also when they are D_MAX or more apart from each other, whatever the order of the rows, and no cluster contains points of two such groups.", "quantifier": "every data set of 5 to 65536 rows, every minPoints from 2 on", "why_tests_cant": "Unbounded values and all orders of the rows; the outcome depends on which row comes first.", "anchors": ["src/hdbscan.c: hdbscan_construct_mst (nearestMRDNeighbors initially 0), hdbscan_compute_hierarchy_and_cluster_tree"]}
{"id": "C76", "title": "Printing results never corrupts memory", "statement": "Every function that prints results (hdbscan_print_cluster_map, _cluster_sizes, _distance_map, _outlier_scores, _hierarchies, _stats, distance_print, graph_print) and the logger write only inside their own character arrays, for every result.", "quantifier": "every table, score list, statistics record, distance matrix and graph, every label, index and count, every double including NaN, infinities and D_MAX", "why_tests_cant": "The texts are formatted into arrays of fixed length; whether they fit depends on the magnitudes of all numbers, up to the 309 digits of the largest double.", "anchors": ["src/hdbscan.c: hdbscan_print_cluster_map 1795 to hdbscan_print_stats 1980", "src/distance.c: distance_print", "src/undirected_graph.c: graph_print", "modules/utils/src/logger.c: logger_write", "src/cluster.c: cluster_detach_points"]}
{"id": "C77", "title": "The printed cluster map is the cluster map", "statement": "hdbscan_print_cluster_map prints one line per label with the label and the indices of its points, hdbscan_print_cluster_sizes one line per label with the label and its number of points; the printed map determines the map, and for a map made from labels it determines which points of the range have which label. The same holds for the C++ functions printClusterMap and printClusterSizes; what printDistanceMap prints determines the distances of all clusters to six decimal places.", "quantifier": "every cluster map with labels and indices below 2^31, any number of labels and points, every state of the output before", "why_tests_cant": "Unbounded maps; readability is a statement about all pairs of maps: no two print the same text.", "anchors": ["src/hdbscan.c: hdbscan_print_cluster_map 1795, hdbscan_print_cluster_sizes", "src/hdbscan.cpp: printClusterMap 191, printClusterSizes 206, printDistanceMap 215", "modules/utils/src/logger.c: logger_write"]}
{"id": "C78", "title": "The printed hierarchy is the hierarchy", "statement": "hdbscan_print_hierarchies prints the levels of the hierarchy in order, each with its weight and the labels of all points, on the standard output or in the named file; what is printed determines the levels and all labels.", "quantifier": "every hierarchy table and number of points, every file name, whether or not the file can be created", "why_tests_cant": "Unbounded tables; readability is a statement about all pairs of hierarchies; the file system can fail.", "anchors": ["src/hdbscan.c: hdbscan_print_hierarchies"]}
{"id": "C79", "title": "The report on a clustering can be made for every clustering", "statement": "The steps the sample programs take after a run (cluster map, distances, statistics, clusters sorted by length and by similarity) end with a report for every clustering of three or more points.", "quantifier": "every labelling and distance matrix of three or more points, repeated points, NaN and infinite values included, both kinds of distances, C and C++", "why_tests_cant": "Quotients of distances are 0/0 or overflow on some data, and the sort does not end on NaN; which data do this is a statement about all clusterings.", "anchors": ["src/hdbscan.c: hdbscan_get_min_max_distances, hdbscan_calculate_stats, hdbscan_sort_by_similarity", "sample/tester.c 138-184", "sample/tester.cpp 44-72"]}
{"id": "C80", "title": "A Java object reports its own clustering", "statement": "getLabels and getClusterMap of a Java object return the clustering that the C library computes for the rows of the object's last run and the minPoints of its construction or last reRun, whatever other objects the program constructs, runs and reruns; before its first run they return null.", "quantifier": "every Java program with any number of objects and calls in any order, all data sets and minPoints within the limits of the library, every thread schedule", "why_tests_cant": "Programs are unbounded sequences of calls on any number of objects that share one global variable; tests use one object.", "anchors": ["modules/java/src/Hdbscan.cpp: scan (line 45), initHdbscan, runImpl, reRunImpl", "modules/java/src/bw/co/roguesystems/Hdbscan.java: run, reRun, getLabels"]}
{"id": "C81", "title": "No call of the Java binding ends the process", "statement": "Whatever the state and the arguments, a call from Java returns or throws an exception; data that cannot be clustered (null, no rows, rows of different length, fewer than five rows) and calls out of order are reported by exceptions.", "quantifier": "every sequence of calls, every double[][] value and every int", "why_tests_cant": "Arrays of every shape and every earlier history; reading behind the end of a row usually goes unnoticed.", "anchors": ["modules/java/src/Hdbscan.cpp: initHdbscan, runImpl, reRunImpl", "modules/java/src/bw/co/roguesystems/Hdbscan.java"]}
{"id": "C82", "title": "The Java cluster map partitions the points by label", "statement": "getClusterMap returns null before the first run; afterwards its keys are exactly the labels that occur, each mapped to the ascending list of all points with this label, so that every point is in exactly one list.", "quantifier": "every array of labels of any length", "why_tests_cant": "Arrays of unbounded length with any labels.", "anchors": ["modules/java/src/bw/co/roguesystems/Hdbscan.java: getClusterMap"]}
{"id": "C83", "title": "Floating point numbers can be keys of a hash table", "statement": "A hash table made with key type H_DOUBLE or H_FLOAT and the matching comparison is a map from numbers to values: insertions and lookups with any numbers as keys return what the ideal map returns.", "quantifier": "every history of insertions and lookups, every floating point key including negative numbers, infinities and NaN, any number of buckets", "why_tests_cant": "Histories are unbounded; the tests use no floating point keys, and a conversion that is undefined often gives a plausible bucket.", "anchors": ["modules/utils/src/utils.c: double_hash, float_hash 344-356", "modules/collections/src/hashtable.c: hashtable_init_size, hashtable_insert, hashtable_lookup"]}
{"id": "C84", "title": "String keys are told apart by their text", "statement": "In a hash table with key type H_STRING and strcmp, used as in the tests of the library (the address of a char pointer is passed as the key), two keys are the same if and only if their texts are the same.", "quantifier": "every history of insertions and lookups, all strings at all addresses, any number of buckets", "why_tests_cant": "Depends on the addresses at which strings lie, which a test does not choose; the library's test passes for the wrong reason.", "anchors": ["modules/utils/src/utils.c: str_hash 358-380", "modules/collections/src/hashtable.c: hashtable_insert, hashtable_lookup", "modules/collections/tests/hashtabletests.c 233-275"]}
{"id": "C85", "title": "C++ objects release their memory exactly once", "statement": "A C++ program may create hdbscan objects, copy them, run, rerun and clean() them and let their lives end in any order; no block is released twice or used after release, no unassigned pointer is read, and when all lives have ended all memory has been released.", "quantifier": "every program: any number of objects and copies, any sequence of calls mixed between them, any data sizes", "why_tests_cant": "Programs are unbounded sequences over any number of objects; double frees and leaks of rarely used orders do not show in tests.", "anchors": ["src/hdbscan.cpp 45-89", "include/hdbscan/hdbscan.h 128-247", "src/distance.cpp 45-59"]}
{"id": "C86", "title": "C++ programs read what the library stored", "statement": "A C++ program that includes the headers of the library and reads a member of a structure that the library has filled (outlier scores, clusters, the spanning tree, statistics, hierarchy entries) gets the value the library has stored.", "quantifier": "every structure declared in the headers, every array of elements and all contents", "why_tests_cant": "It is a statement about all contents and all elements of arrays of any length; a wrong offset often reads something plausible.", "anchors": ["include/hdbscan/outlier_score.h 53-80", "include/hdbscan/cluster.h 54-90", "include/hdbscan/undirected_graph.h 49-59", "include/hdbscan/constraint.h 70-84", "include/hdbscan/hdbscan.h 77-139", "include/hdbscan/distance.h 64-74"]}
{"id": "C87", "title": "A larger minPoints never joins points", "statement": "When minPoints is raised, by a new run or by a rerun, no core distance becomes smaller and the hierarchy becomes coarser: points that share a cluster at some weight with the larger minPoints share a cluster at that weight, and at all larger ones, with the smaller minPoints; what was noise stays noise.", "quantifier": "every data set within the limits of the library, all pairs of minPoints, all pairs of levels and points, every thread schedule", "why_tests_cant": "Relates two runs over all data sets, parameter pairs, levels and pairs of points.", "anchors": ["src/distance.c: distance_get_core_distances", "src/hdbscan.c: hdbscan_compute_hierarchy_and_cluster_tree, hdbscan_rerun 277"]}
{"id": "C88", "title": "Reporting on a clustering releases its memory", "statement": "A program that makes cluster maps, distance maps and lists of labels, uses them while they exist and destroys each of them once leaves exactly the memory it found and meets no double free and no use of released memory. A program that uses something after destroying it, or destroys it twice, is the only kind that goes wrong.", "quantifier": "every program: any number of maps, distance maps and lists, any labels, any order of calls", "why_tests_cant": "Programs are unbounded sequences over any number of objects; leaks and double frees of rarely used orders do not show in tests.", "anchors": ["src/hdbscan.c: hdbscan_create_cluster_map 1205, hdbscan_get_min_max_distances 1249, hdbscan_destroy_distance_map 1323, hdbscan_sort_by_similarity 1628, hdbscan_sort_by_length 1717, hdbscan_destroy_cluster_map 1782", "modules/collections/src/hashtable.c 337-402"]}
{"id": "C89", "title": "Distances are accurate to rounding", "statement": "distance_get returns the Euclidean distance with a relative error of at most (cols + 5) * 2^-53 (for float data: together with a relative error of 2^-24), and returns 0 only for rows that are equal.", "quantifier": "all data sets of double, float, int, long, short and char data, all numbers of rows and columns, every thread schedule", "why_tests_cant": "Bounds the error of a sum of any number of rounded terms for all values.", "anchors": ["src/distance.c: distance_compute 150-209"]}
{"id": "C90", "title": "The CUDA kernel computes the distance of every pair of rows", "statement": "distance_compute_kernel, run with one thread for each pair of rows, stays inside its arrays and leaves in the output the Euclidean distance of every pair, in the order in which distance_get looks for it and up to rounding; the order in which the threads run does not matter.", "quantifier": "every number of rows and columns, all data, every order of the threads", "why_tests_cant": "The row and column of a thread come from a single precision square root, right for small data sets; the number of threads and their orders are unbounded.", "anchors": ["modules/cuda/src/cuda_distance.cu 28-58", "src/distance.c: distance_get"]}
{"id": "C91", "title": "Small errors in the data move the hierarchy little", "statement": "If the distances of two data sets with the same number of rows differ by at most eps (for instance because every row was measured with an error of at most eps / 2), their core distances differ by at most eps, and points that share a cluster at weight w in one hierarchy share a cluster at every weight from w + eps on in the other.", "quantifier": "all pairs of data sets within the limits of the library, every minPoints, every eps, all pairs of levels and points, every thread schedule", "why_tests_cant": "Relates two runs over all data sets, error sizes, levels and pairs of points.", "anchors": ["src/distance.c: distance_get_core_distances", "src/hdbscan.c: hdbscan_construct_mst, hdbscan_compute_hierarchy_and_cluster_tree"]}
{"id": "C92", "title": "Further rows never separate points", "statement": "When rows are added to a data set, at any position, no core distance of the old rows becomes larger, and old points that share a cluster at some weight share a cluster at that weight, and at all larger ones, in the hierarchy of the larger data set.", "quantifier": "all pairs of a data set and a larger one within the limits of the library, every minPoints, all pairs of levels and points, every thread schedule", "why_tests_cant": "Relates two runs on data of different sizes over all data sets, levels and pairs of points.", "anchors": ["src/distance.c: distance_get_core_distances", "src/hdbscan.c: hdbscan_construct_mst, hdbscan_compute_hierarchy_and_cluster_tree"]}
{"id": "C93", "title": "Running out of memory is reported", "statement": "When a request for memory is refused, the call that made it reports this by its result: it has no undefined behaviour, loses no elements, leaks no memory, and what exists can still be used and released.", "quantifier": "every allocator (any set of refused requests), every history of list operations, every number of points", "why_tests_cant": "Tests run with enough memory; which of the many requests is refused, and in what state, can not be enumerated.", "anchors": ["modules/collections/src/list.c 54-223", "modules/collections/src/linkedlist.c 80-108", "modules/collections/src/hashtable.c 116-147, 411-435", "src/distance.c: distance_compute 143-144", "src/hdbscan.c: hdbscan_init, hdbscan_run, hdbscan_construct_mst, hdbscan_destroy", "src/undirected_graph.c: graph_init 46-87"]}
{"id": "C94", "title": "Sorting a list makes the search in sorted lists exact", "statement": "array_list_sort rearranges the elements of a list into ascending order without adding or losing any. From then on, until something is put into the list, array_list_find with sorted = 1 finds the position of an equal element whenever there is one; at any other time it never gives a position whose element is not equal and never touches memory outside the list. All other operations of the list behave as if sorting had only rearranged the elements. set_sort leaves a set as it is. Lists of pointers to int are sorted by what the pointers point to.", "quantifier": "every history of calls on a list with sorting and searches among them, every comparison function that is a preorder, every qsort that keeps to its contract", "why_tests_cant": "Tests sort a few samples with one qsort; that order survives every later mixture of removals, clears and searches, with any ties, is a statement about all histories.", "anchors": ["modules/collections/src/list.c: array_list_find 270-277, array_list_sort 348-351", "modules/collections/src/set.c: set_sort", "modules/utils/src/utils.c: int_ptr_compare"]}
{"id": "C95", "title": "A distance object can be used again and again", "statement": "On one distance object (C, or the C++ class Distance) a program can compute data sets, read distances and core distances, ask for core distances with other numbers of neighbours and clean the object, in any order. Every answer is the one a new object gives for the data set computed last; destroying the object, at any time, releases all memory it ever held, exactly once; reading before anything was computed, or outside the rows, is refused.", "quantifier": "every sequence of calls on an object, data sets of any sizes, every thread schedule", "why_tests_cant": "Sequences of calls are unbounded; stale results, leaks and double frees show only in particular orders.", "anchors": ["src/distance.c: distance_init 58, distance_destroy 81, distance_clean 91, distance_get 114, distance_compute 137, distance_get_core_distances 216", "src/distance.cpp 46-70", "include/hdbscan/distance.h 66-133"]}
{"id": "C96", "title": "A run fits on the stack", "statement": "The arrays that hdbscan_run and hdbscan_rerun put on the stack take at most 20 bytes per point on the calling thread and 8 bytes per neighbour (minPoints) on every other thread: with that much the results are those of an unlimited stack, with less the stack overflows. In particular every accepted data set and minPoints runs with the usual 8 MiB.", "quantifier": "every data set of 5 to 65536 points, every minPoints, every size of the stacks, all sequences of reruns, every thread schedule", "why_tests_cant": "The need is set by the largest of several nested arrays, one of them as large as the number of clusters found; tests run on a few sizes with one stack.", "anchors": ["src/distance.c: distance_get_core_distances 219-221", "src/hdbscan.c: hdbscan_do_run 258-259, hdbscan_compute_hierarchy_and_cluster_tree 368-369, hdbscan_construct_mst 820, hdbscan_propagate_tree 1000", "src/undirected_graph.c: graph_quicksort_by_edge_weight 145-146"]}
{"id": "C97", "title": "Every flat cluster is a density cluster, and there is never just one", "statement": "After a run, the points that carry a label other than 0 are at least minPoints points; they are exactly the points that can be reached from any one of them in steps of mutual reachability distance less than the birth level recorded for that label, and with steps of exactly that length further points can be reached. Every point outside is at a mutual reachability distance of at least the birth level. If there is a label other than 0, there are at least two.", "quantifier": "all data sets within the limits of the library, every minPoints, all labels and points, every thread schedule and interleaving", "why_tests_cant": "Ties together hierarchy, cluster tree, selection and labelling for all data sets; a test compares labels for a few samples.", "anchors": ["src/hdbscan.c: hdbscan_do_run, hdbscan_compute_hierarchy_and_cluster_tree, hdbscan_propagate_tree, hdbscan_find_prominent_clusters"]}
{"id": "C98", "title": "A graph object can be used again and again", "statement": "On one UndirectedGraph (C, or the C++ class) a program can build graphs, sort the edges by weight, remove edges, look at neighbours and edges and clean the object, in any order. Every answer is that of a multiset of weighted edges on the vertices: neighbours occur once for every edge that was built and not removed since, the edges are those built, in ascending order of weight after sorting. Destroying the object releases all memory it ever held, exactly once; a C++ object can be declared, copied and destroyed like any other.", "quantifier": "every sequence of calls on an object, graphs of any size with repeated edges and self edges", "why_tests_cant": "Sequences of calls are unbounded; stale neighbours, leaks and double frees show only in particular orders.", "anchors": ["src/undirected_graph.c: graph_init 46, graph_destroy 103, graph_clean 110, graph_quicksort_by_edge_weight 140, graph_remove_edge 253", "src/undirected_graph.cpp 42-48"]}
{"id": "C99", "title": "Constraints come before stability", "statement": "When a program records, before the propagation, how many constraints each cluster and the noise of each cluster satisfies, the selected clusters satisfy as many constraints as any selection can; among the selections that satisfy as many, none has a larger total stability, and ties go to the larger clusters. The count at the root is the number of constraints satisfied.", "quantifier": "every cluster tree, all stabilities in exact arithmetic, every sequence of recorded counts, every thread schedule", "why_tests_cant": "The number of selections grows exponentially with the tree, and the counts pass through every level of it.", "anchors": ["src/cluster.c: cluster_add_virtual_child_constraints_satisfied 220, cluster_add_constraints_satisfied 225, cluster_propagate 149", "src/hdbscan.c: hdbscan_propagate_tree"]}
{"id": "C100", "title": "Skewness and kurtosis do not depend on the threads", "statement": "hdbscan_skew_kurt_1 and hdbscan_skew_kurt_2, whose bodies every thread of a parallel region executes, leave the same values for every number of threads and every interleaving of their memory accesses: those of a single execution. For hdbscan_skew_kurt_2 these are the values of the spreadsheet functions SKEW and KURT that its comment names.", "quantifier": "every number of threads, every interleaving of their accesses, every number of values, all values", "why_tests_cant": "Interleavings can not be enumerated, and tests see only those that happen.", "anchors": ["src/hdbscan.c: hdbscan_skew_kurt_1 1340, hdbscan_skew_kurt_2 1368"]}
{"id": "C101", "title": "Stabilities are accurate to rounding", "statement": "For data of type double the stability recorded for a cluster differs from the exact value, the sum over its points of one over the level at which the point leaves minus one over the level of birth, by at most (2k + 6) 2^-53 times the sum of one over the levels at which its k points leave. It is never negative and not larger than twice that sum, so that it overflows only when that sum nearly does.", "quantifier": "every spanning tree graph with positive double weights up to 2^1000, every minPoints, every cluster but the root", "why_tests_cant": "The order and the number of the rounded additions depend on the data; the error bound must hold for all of them, and tests compare with one rounded reference.", "anchors": ["src/cluster.c: cluster_detach_points 111-129", "src/hdbscan.c: hdbscan_compute_hierarchy_and_cluster_tree"]}
{"id": "C102", "title": "Rounding costs hardly any stability", "statement": "With stabilities rounded to double no selection of clusters has a total stability that is larger than that of the selection made by more than the factor 1 / (1 - 2N 2^-53), N - 1 being the number of clusters. For a run on data of type double, judged by the exact stabilities of its hierarchy, no selection is better than the one made by more than (2n + 6 + 4N) 2^-53 times the sums of the reciprocal levels at which the points leave the clusters of the two selections.", "quantifier": "every cluster tree with stabilities that are not negative; every spanning tree graph with positive double weights up to 2^1000; every selection", "why_tests_cant": "The number of selections is exponential and rounding errors accumulate along the tree; no sample of inputs bounds them.", "anchors": ["src/cluster.c: cluster_propagate 149-199, cluster_detach_points 111-129", "src/hdbscan.c: hdbscan_propagate_tree"]}
{"id": "C103", "title": "Rows that are repeated often enough form their own clusters", "statement": "For data of type double, consider the rows whose values occur in at least minPoints rows. Equal rows get the same label. If any row at all gets a label other than 0, every such repeated row does. If there are two such repeated rows with different values, both get labels other than 0, and the labels are different: two groups of identical rows are always found and never merged, however the other rows lie, although their stabilities are infinite.", "quantifier": "every data set of finite doubles such that no distance overflows and different rows have a distance other than 0 (for example values up to 2^400 that differ by at least 2^-500 where they differ), of 5 to 65536 rows, every minPoints from 2 to the number of rows, every schedule of the parallel loops", "why_tests_cant": "Infinite stabilities arise from divisions by 0 and are compared, added and multiplied; whether a NaN spoils the selection depends on the whole cluster tree, and tests see a few trees.", "anchors": ["src/cluster.c: cluster_detach_points 111-129, cluster_propagate 149-199", "src/distance.c: distance_compute 150-197, distance_get_core_distances", "src/hdbscan.c: hdbscan_find_prominent_clusters"]}
{"id": "C104", "title": "Stabilities of a run on doubles are accurate, and infinite exactly for clusters that reach level 0", "statement": "After a run on data of type double every cluster except the first was born at a positive level and all its points leave it at lower levels. Its stability is +inf if one of its points leaves at level 0; otherwise it is a finite number that is not negative and differs from the sum of 1/leaving level - 1/birth level over its points by at most (2k + 6) 2^-53 times the sum of the 1/leaving level, k being the number of points. It is never NaN. The first cluster, whose birth level is NaN, has stability 0 or NaN.", "quantifier": "every data set of finite doubles, those whose distances overflow included, of 5 to 65536 rows, every minPoints from 2, every schedule and every interleaving of the threads", "why_tests_cant": "Overflow, division by 0, NaN from infinite differences and accumulated rounding errors depend on the whole hierarchy; tests evaluate a few hierarchies.", "anchors": ["src/cluster.c: cluster_detach_points 111-129, cluster_init 54-90", "src/distance.c: distance_compute 150-197", "src/hdbscan.c: hdbscan_compute_hierarchy_and_cluster_tree"]}
{"id": "C105", "title": "Outlier scores of a run on doubles are accurate", "statement": "After a run on data of type double there is one outlier score per row. If the hierarchy splits, every score is a number between 0 and 1: let eps be the level of the last line in which the row carries a cluster label, and epsmax the lowest level reached by the childless clusters at or below that cluster; the score is 0 if eps is 0 and otherwise differs from 1 - epsmax/eps by at most 2^-52. If the hierarchy never splits, the score is 0 if eps is 0 and otherwise below -2^500 or -inf. No score is NaN. The scores are the same for all schedules and thread interleavings.", "quantifier": "every data set of finite doubles none of whose distances overflows (for example values up to 2^400), of 5 to 65536 rows, every minPoints from 2 to the number of rows, every schedule and every interleaving of the threads", "why_tests_cant": "Division by 0, 0/0, overflow and cancellation in 1 - a/b depend on the levels of the whole hierarchy; tests evaluate a few hierarchies.", "anchors": ["src/hdbscan.c: hdbscsan_calculate_outlier_scores 1155-1197", "src/cluster.c: cluster_propagate 149-199"]}
{"id": "C106", "title": "The type of the data does not matter", "statement": "The same numbers give the same results whether they are passed to hdbscan_run as char, short, int, long, float or double: distances, hierarchy, labels and outlier scores are equal.", "quantifier": "every data set whose numbers are representable in both types (whole numbers up to 2^53, no difference overflowing), every minPoints, shape, schedule and interleaving of the threads", "why_tests_cant": "Each type has its own branch with its own subtraction; whether the conversions round differently depends on the values, and tests try a few values.", "anchors": ["src/distance.c: distance_compute 159-188", "src/hdbscan.c: hdbscan_run 304-330"]}
{"id": "C107", "title": "Multiplying the data by a power of two changes nothing but the unit", "statement": "If every value of a data set of type double is multiplied by the same power of two, exactly, the labels, the hierarchy file lines, the cluster tree and the numbers of the clusters stay the same. Core distances and the levels of the hierarchy, of births and of deaths are multiplied by that power and all stabilities are divided by it, without any rounding difference, infinite and NaN stabilities included. The outlier scores are the same bit by bit and in the same order.", "quantifier": "every data set of finite doubles, of 5 to 65536 rows, such that before and after the values are at most 2^400 and different values differ by at least 2^-500; every power of two, every minPoints from 2 to the number of rows, every schedule of the parallel loops", "why_tests_cant": "Each of the thousands of roundings between the data and the labels must commute with the scaling; tests show it for some data sets and factors, and for factors that are no powers of two it is false.", "anchors": ["src/distance.c: distance_compute 150-197", "src/cluster.c: cluster_detach_points 111-129, cluster_propagate 149-199", "src/hdbscan.c: hdbscan_do_run, hdbscsan_calculate_outlier_scores 1155-1197"]}
{"id": "C108", "title": "Finite data lead to no NaN", "statement": "If all values of a data set are finite, hdbscan_run succeeds and no distance, core distance, hierarchy level, birth level, death level or lowest child death level in the results is NaN or negative, not even if differences, squares or sums overflow to infinity; every value compares with every other.", "quantifier": "every data set of at least 5 and at most 65536 rows of finite doubles, or of whole numbers up to 2^53 in size of the integer types whose differences do not overflow; every minPoints from 2; every schedule and interleaving of threads", "why_tests_cant": "Overflow, infinity minus infinity and 0 times infinity depend on the magnitudes of all values together; tests use moderate values.", "anchors": ["src/distance.c: distance_compute 150-197, compute_core_distances", "src/hdbscan.c: hdbscan_construct_mst, hdbscan_compute_hierarchy_and_cluster_tree", "src/cluster.c: cluster_propagate 149-199"]}
{"id": "C109", "title": "A linked list gives all its memory back", "statement": "The number of nodes a linked list has allocated and not freed is always its size. linkedlist_delete frees every node that was ever allocated for the list exactly once, and no freed node is read or written, whatever additions, removals (linkedlist_remove, linkedlist_lookup with remove = 1) and clearings came before.", "quantifier": "every history of calls on a linked list, every comparison function, every element type", "why_tests_cant": "A leak is no failure of any call, and which histories leak depends on which removals met which elements before; tests free a few lists.", "anchors": ["modules/collections/src/linkedlist.c: linkedlist_lookup 288-299, linkedlist_remove 305-327, linkedlist_delete 335-342, linkedlist_clear 349-366, linkedlist_node_unhook 246-283, node_destroy 117-128"]}
{"id": "C110", "title": "Selecting the clusters again gives the same clusters", "statement": "After a run, calling hdbscan_propagate_tree and hdbscan_find_prominent_clusters again (C++: propagateTree and findProminentClusters), any number of times, leaves the flat clusters, the cluster tree and everything the outlier scores depend on as they were.", "quantifier": "every data set of at least 5 and at most 65536 rows whose distances are below DBL_MAX, every minPoints from 2 up to the number of rows, every number of later calls, every schedule of the parallel loops of each of them", "why_tests_cant": "Whether later calls change labels depends on how the stabilities in the whole tree compare with sums of them, on the number of calls, and on the order in which threads insert the leaves; tests call each function once.", "anchors": ["src/hdbscan.c: hdbscan_propagate_tree 988-1070, hdbscan_find_prominent_clusters 1078-1144", "src/cluster.c: cluster_propagate 149-199", "src/hdbscan.cpp: 75-81"]}
{"id": "C111", "title": "Constant columns and the order of the columns do not matter", "statement": "A column that has the same finite value in every row can be added to a data set or removed from it, and the columns can be put in another order, without any change in the results of hdbscan_run: labels, hierarchy, cluster tree, outlier scores.", "quantifier": "every data set, NaN and infinities in the other columns included, of double, float or an integer type; every place of the column; every permutation of the columns; every minPoints, schedule and interleaving of threads", "why_tests_cant": "Rounding of the sums depends on the values in all columns and their order; a tie between two of all the distances that is resolved by the last bit can change all labels. Tests compare few data sets.", "anchors": ["src/distance.c: distance_compute 137-200", "src/hdbscan.c: hdbscan_run 304-330"]}
{"id": "C112", "title": "The origin does not matter", "statement": "Adding a number to a column, the same for all rows, does not change the results of hdbscan_run.", "quantifier": "every data set of integers, or of doubles (NaN and infinities included) and all numbers to be added; every minPoints, schedule and interleaving of threads", "why_tests_cant": "Whether the sums are rounded depends on all values together; tests move few data sets by small numbers.", "anchors": ["src/distance.c: distance_compute 137-200", "src/hdbscan.c: hdbscan_run 304-330"]}
{"id": "C113", "title": "Mirror images do not matter", "statement": "Multiplying any of the columns of a data set by -1 does not change the results of hdbscan_run in any bit: labels, hierarchy, cluster tree, outlier scores; and a run that goes wrong goes wrong in the same way.", "quantifier": "every data set of double or float, NaN, infinities and overflow included, or of an integer type; every set of columns; every minPoints, schedule and interleaving of threads", "why_tests_cant": "That rounding is symmetric in every step, for all magnitudes, and that no integer overflows on one side only depends on all values; tests mirror few data sets.", "anchors": ["src/distance.c: distance_compute 137-200", "src/hdbscan.c: hdbscan_run 304-330"]}
{"id": "C114", "title": "The sample program reads a data file as the table it contains", "statement": "The reader of the sample program turns a text file, one line per row with fields separated by spaces, commas or tabs, into an array: the number of rows is the number of lines with numbers, the number of columns is the number of fields of a line, and the value in row i and column k is field k of line i. Blank lines do not count, and lines may have any length.", "quantifier": "every table of at least one row, every file that contains it, with or without a line feed at the end, all separators, every function that converts a field", "why_tests_cant": "Rows are assembled from buffers of fixed size and the number of columns is a quotient of two counts, so that errors depend on the lengths of lines and on blank lines anywhere in the file; tests read one file.", "anchors": ["sample/tester.c: getDset 42-77"]}
{"id": "C115", "title": "The report on a clustering does not depend on the unit of length", "statement": "If every value of a data set is multiplied by the same power of two, the report made after hdbscan_run (cluster map, distances and confidences of the clusters, statistics and hence the validity score, the clusters sorted by length and by similarity) is the same but for the unit: all confidences and statistics are the same in every bit, both orders are the same, and the smallest and largest distances of each cluster are multiplied by that power. One report can be made if and only if the other can.", "quantifier": "every data set of doubles without huge values and without values that are extremely close to each other, before and after; every power of two, every minPoints from 2 up to the number of rows, every schedule, all values of the statistics before the call, both kinds of similarity, the functions of C and of C++", "why_tests_cant": "D_MIN and D_MAX, which have no unit, take part in the comparisons that find the smallest and largest distances; whether they, or the rounding of a quotient, make a difference depends on the magnitudes of all distances. Tests use one unit.", "anchors": ["src/hdbscan.c: hdbscan_get_min_max_distances 1249-1317, hdbscan_calculate_stats 1340-1545", "sample/tester.c: 138-175", "sample/tester.cpp: 44-66"]}
{"id": "C116", "title": "A set of floating point numbers is a set", "statement": "A set made with set_init and double_compare or float_compare never goes wrong and is a mathematical set, whatever values are inserted: set_insert adds a value exactly when it is absent, set_find is non-negative exactly for members, set_remove removes a member and reports -1 otherwise, and the elements stay in ascending order.", "quantifier": "every history of set_insert, set_remove, set_remove_at, set_find, set_value_at and set_size, every value including infinities and NaN", "why_tests_cant": "The comparison functions answer -1 whenever NaN takes part, so that the order the binary search relies on can be lost at one call and show at a much later one; tests insert numbers only.", "anchors": ["modules/collections/src/set.c: 44-111", "modules/collections/src/list.c: 208-307", "modules/utils/src/utils.c: double_compare 90-105, float_compare 208-221"]}
{"id": "C117", "title": "Every type that the build offers for indices and labels works", "statement": "Whichever of unsigned short, unsigned int and unsigned long is chosen for INDEX_TYPE, the distance matrix works for all numbers of rows that the type can hold: one cell for each pair of rows, reading and writing agree on the cell, and no cell is outside the matrix. Whichever is chosen for LABEL_TYPE, it can hold all labels of a run. The comparison functions that are used with the type order its values as numbers.", "quantifier": "each of the three types, every number of rows up to the largest value of the type (below 2^32 for unsigned long), every pair of rows; for labels every data set of 5 to 65536 rows, every minPoints from 2 up to the number of rows and every interleaving of threads", "why_tests_cant": "The sizes and cells are computed with types of different widths, and products of promoted operands overflow at numbers of rows that need gigabytes; nobody tests builds with other types on such data.", "anchors": ["CMakeLists.txt: 22-37", "src/distance.c: distance_get 114-125, distance_compute 137-200", "modules/utils/include/hdbscan/utils.h: TRIANGULAR_H 165-167", "src/hdbscan.c: 389-405, 992-998", "modules/utils/src/utils.c: 51-65, 131-145, 171-184"]}
{"id": "C118", "title": "A hash table gives all its memory back", "statement": "At any time a hash table has as many entries allocated as it counts. After any insertions, lookups and removals, hashtable_destroy gives back every entry exactly once, with or without destructors, and uses none that was given back.", "quantifier": "every history of insertions, lookups and removals, every hash function and collision pattern, every key and value type, destructors or not", "why_tests_cant": "Entries are reached through the buckets of the keys in the keys set; whether all of them are depends on the order of removals within a bucket, and a leak is not visible in any result.", "anchors": ["modules/collections/src/hashtable.c: hashtable_insert 183-219, hashtable_remove 281-326, hashtable_clear 337-383, hashtable_destroy 390-403, hashtable_set_entry 411-435, hashtable_entry_destroy 445-455"]}
{"id": "C119", "title": "With minPoints 2 the hierarchy is that of single linkage", "statement": "A run with minPoints 2 gives single linkage clustering: the core distance of a row is the distance of its nearest other row; the levels of the hierarchy are exactly the distances at which two rows become connected by steps of that length; at each level two rows carry the same label other than 0 exactly when they are connected by steps of at most that length, and a row is noise exactly when all other rows are farther away.", "quantifier": "every data set of 5 to 65536 rows with distances below D_MAX, every level, every pair of rows, every schedule and interleaving of threads, rounding included", "why_tests_cant": "The claim compares the result with another algorithm at every level; tests can do so for some data sets, and ties, duplicates and rounding are where the two could part.", "anchors": ["src/hdbscan.c: hdbscan_construct_mst 810-980, hdbscan_compute_hierarchy_and_cluster_tree 356-719", "src/distance.c: distance_get_core_distances 216-270"]}
{"id": "C120", "title": "Fewer rows than twice minPoints are all noise", "statement": "If there are fewer than 2 * minPoints rows, a run labels every row 0. With 2 * minPoints rows there can be two clusters.", "quantifier": "every data set of 5 to 65536 rows (NaN, infinities and overflowing distances included), every minPoints above half the number of rows, every schedule and interleaving of threads", "why_tests_cant": "It holds for all data; a test sees single data sets. It relies on clusters being born in pairs of disjoint groups of minPoints rows and on labels only ever getting lost in the data race of C37.", "anchors": ["src/hdbscan.c: hdbscan_compute_hierarchy_and_cluster_tree 356-719, hdbscan_find_prominent_clusters 1077-1144"]}
{"id": "C121", "title": "Of two rows of a cluster the one farther out has the higher score", "statement": "If two rows are last seen (as other than noise) in the same cluster of the hierarchy, and the second leaves it at a level at least as high as that of the first, then the outlier score of the second is at least that of the first.", "quantifier": "every data set of 5 to 65536 rows with distances below D_MAX, every minPoints from 2 up to the number of rows, every pair of rows, every schedule and interleaving, exact or rounded arithmetic", "why_tests_cant": "The special case for level 0 and the value D_MAX that stands for no death level are only reached by hierarchies of certain shapes, and the claim is about all pairs of rows.", "anchors": ["src/hdbscan.c: hdbscsan_calculate_outlier_scores 1155-1196, hdbscan_propagate_tree 988-1069", "src/cluster.c: cluster_propagate 149-199"]}
{"id": "C122", "title": "A row in a cluster is in the cluster of its nearest row", "statement": "After a run, a row with a label other than 0 shares that label with every row that is nearest to it in mutual reachability distance; with minPoints 2, with every row that is nearest to it in distance.", "quantifier": "every data set of 5 to 65536 rows with distances below D_MAX, every minPoints from 2 up to the number of rows, every row and every one of its nearest rows, every schedule and interleaving of threads", "why_tests_cant": "It is a claim about all pairs of rows of all data sets. Ties decide which cut of the hierarchy a row falls under, and the data race of C37 may remove labels but must not remove them from some rows of a cluster only.", "anchors": ["src/hdbscan.c: hdbscan_compute_hierarchy_and_cluster_tree 356-719, hdbscan_find_prominent_clusters 1077-1144", "src/distance.c: distance_get_core_distances 216-270"]}
{"id": "C123", "title": "The innermost rows of a cluster have outlier score 0", "statement": "After a run, every cluster of the tree that has a parent and no children has at least minPoints rows that are last seen in it and have outlier score 0. If the hierarchy splits, there is such a cluster, so at least minPoints rows have score 0.", "quantifier": "every data set of 5 to 65536 rows with distances below D_MAX, every minPoints from 2 up to the number of rows, every childless cluster, every schedule and interleaving of threads, exact or rounded arithmetic", "why_tests_cant": "It connects three values that are recorded at different times (death levels, noise levels and the lowest death levels passed up the tree), for all shapes of the tree; rounding may not turn the quotient of equal numbers into anything but 1.", "anchors": ["src/hdbscan.c: hdbscan_compute_hierarchy_and_cluster_tree 356-719, hdbscsan_calculate_outlier_scores 1155-1196, hdbscan_propagate_tree 988-1069", "src/cluster.c: cluster_detach_points 122-140, cluster_propagate 149-199"]}
{"id": "C124", "title": "Well separated groups are found", "statement": "Suppose the rows form two or more groups: rows of one group are linked by steps of at most d, rows of different groups are more than 2d apart (at least D), every row has at least minPoints rows (itself included) within d and fewer than minPoints within less than e, and 1/e + 1/D < 2/d. Then a run gives every row a label other than 0, and two rows get the same label exactly when they are in the same group.", "quantifier": "every data set of 5 to 65536 rows with distances below D_MAX and such groups, every number, size and order of the groups, every minPoints from 2 up to the number of rows, exact arithmetic, every schedule of the parallel loops", "why_tests_cant": "It is the purpose of the library, and a claim about all data sets with groups. Inside a group and above the groups the hierarchy may contain any number of further clusters; that none of them, nor any combination of them, is preferred to the groups is a statement about all cluster trees that such data can produce.", "anchors": ["src/hdbscan.c: hdbscan_compute_hierarchy_and_cluster_tree 356-719, hdbscan_propagate_tree 988-1069, hdbscan_find_prominent_clusters 1077-1144", "src/cluster.c: cluster_detach_points 122-140, cluster_propagate 149-199", "src/distance.c: distance_get_core_distances 216-270"]}
{"id": "C125", "title": "Groups are found among scattered rows", "statement": "Suppose the rows form two or more groups as in C124 (linked by steps of at most d, at least D from each other, at least minPoints rows within d of each row and fewer than minPoints within less than e), and there are at most N further rows, each at least D from every other row, with N/D < minPoints (1/d - 2/D) and N/D < minPoints (2/d - 1/D - 1/e): the scattered rows are few or far. Then a run gives every row of a group a label other than 0, and two such rows get the same label exactly when they are in the same group.", "quantifier": "every data set of 5 to 65536 rows with distances below D_MAX and such groups and scattered rows, every number, size and order of them, every minPoints from 2 up to the number of rows, exact arithmetic, every schedule of the parallel loops", "why_tests_cant": "That noise does not spoil the groups is what a density based method is chosen for. Scattered rows may form clusters of their own, belong to clusters above the groups and delay their births; that no combination of clusters that uses them is preferred to the groups is a statement about all cluster trees of all such data.", "anchors": ["src/hdbscan.c: hdbscan_compute_hierarchy_and_cluster_tree 356-719, hdbscan_propagate_tree 988-1069, hdbscan_find_prominent_clusters 1077-1144", "src/cluster.c: cluster_detach_points 122-140, cluster_propagate 149-199", "src/distance.c: distance_get_core_distances 216-270"]}
{"id": "C126", "title": "Scattered rows have the highest outlier scores", "statement": "Suppose the rows form two or more groups (rows of a group linked by steps of at most d, groups at least D > d apart, at least minPoints rows within d of each of their rows and fewer than minPoints within less than e > 0), but for fewer than minPoints scattered rows, each at least D from every other row. Then the score of every row of a group is at most 1 - e/d, and that of every scattered row at least 1 - d/D (as computed from these numbers). So if d*d < e*D every scattered row has a higher score than every row of a group.", "quantifier": "every data set of 5 to 65536 rows with distances below D_MAX and such groups and scattered rows, every number, size and order of them, every minPoints from 2 up to the number of rows, exact arithmetic and doubles, every schedule and interleaving of the threads", "why_tests_cant": "That outliers get high scores is what the scores are for. The score of a row depends on the whole tree below its last cluster; the bounds are a statement about all trees that such data can produce, and one unlucky arrangement of groups of different density would refute them.", "anchors": ["src/hdbscan.c: hdbscsan_calculate_outlier_scores 1155-1195, hdbscan_compute_hierarchy_and_cluster_tree 356-719, hdbscan_propagate_tree 988-1069", "src/cluster.c: cluster_propagate 149-199", "src/distance.c: distance_get_core_distances 216-270"]}
{"id": "C127", "title": "Rows that are far away change nothing nearby", "statement": "When rows are added to a data set, at any position, and each of them is at least D from every old row, then every core distance of an old row that is less than D afterwards is the one it had before, and below D the hierarchy of the old rows does not change: old rows that share a cluster in a line of weight w < D of one of the two hierarchies share a cluster in every line of weight w or more of the other one.", "quantifier": "all pairs of a data set and a larger one within the limits of the library, every minPoints, every D, all pairs of levels and points, exact arithmetic or any rounding, every thread schedule", "why_tests_cant": "Users cluster parts of their data, or add data of other regions, and expect what they know to remain. It compares two runs whose spanning trees, edge orders, line numbers and labels differ; no finite set of pairs shows that no arrangement of far rows matters.", "anchors": ["src/distance.c: distance_compute 137-200, distance_get_core_distances 216-270", "src/hdbscan.c: hdbscan_construct_mst, hdbscan_compute_hierarchy_and_cluster_tree 356-719"]}
