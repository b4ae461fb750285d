{"id": "C01", "title": "hubness() returns true k-nearest-neighbour lists", "statement": "For a call hubness(D, k, metric) on an n x m matrix that does not raise, every row of the returned D_k holds min(k, m-1) distinct valid column indices, ordered nearest first, and no column outside the list is strictly nearer than one inside it. 'Nearer' is smaller for distances, larger for similarities; self entries, non-finite entries and (for non-square distance matrices) zero entries count as infinitely far. The serial call on a non-square similarity matrix is treated separately in C05.", "quantifier": "every n x m matrix of floats including nan and +-inf, every k, both metrics, every random shuffle, every admissible tie-breaking of the partial sort", "why_tests_cant": "np.argpartition leaves the order of ties and of the non-selected part unspecified and the shuffle is random; a test sees one selection on one matrix.", "anchors": ["hub_toolbox/hubness.py:hubness", "hub_toolbox/hubness.py:_hubness_nearest_neighbors", "hub_toolbox/hubness.py:_hubness_no_multiprocessing"]}
{"id": "C02", "title": "a point is not its own neighbour", "statement": "For square D, index i never occurs in row i of D_k whenever row i has at least min(k, m-1) finite off-diagonal entries, whatever value is stored on the diagonal.", "quantifier": "every square matrix, diagonal value, k, shuffle and tie-breaking", "why_tests_cant": "depends on how infinite ties are broken; the borderline case of exactly k finite entries is not sampled by tests", "anchors": ["hub_toolbox/hubness.py:hubness", "hub_toolbox/hubness.py:_hubness_no_multiprocessing"]}
{"id": "C03", "title": "k-occurrence is an exact reverse-neighbour count", "statement": "N_k has one entry per column, N_k[j] equals the number of rows whose neighbour list contains j, each N_k[j] is at most n, and the entries sum to n*min(k, m-1).", "quantifier": "every matrix, k, metric, shuffle", "why_tests_cant": "conservation law over all inputs", "anchors": ["hub_toolbox/hubness.py:hubness", "hub_toolbox/hubness.py:_hubness_no_multiprocessing"]}
{"id": "C04", "title": "parallel and serial hubness agree for every schedule", "statement": "For a distance matrix (square or not) and for square similarity matrices, hubness(n_jobs>1) returns exactly what hubness(n_jobs=1) returns given the same per-row shuffles, for every assignment and interleaving of the worker processes' individual writes to the shared result array.", "quantifier": "every interleaving of all cell writes, every matrix, k", "why_tests_cant": "a test run exercises one schedule chosen by the OS", "anchors": ["hub_toolbox/hubness.py:hubness", "hub_toolbox/hubness.py:_hubness_nearest_neighbors", "hub_toolbox/hubness.py:_hubness_no_multiprocessing"]}
{"id": "C05", "title": "serial hubness handles non-square similarity matrices", "statement": "hubness(S, metric='similarity', n_jobs=1) on an n x m similarity matrix returns the k most similar columns of each row, as n_jobs=2 does.", "quantifier": "every n x m similarity matrix", "why_tests_cant": "only square matrices are tested", "anchors": ["hub_toolbox/hubness.py:_hubness_no_multiprocessing"]}
{"id": "C06", "title": "hubness depends only on the order of the distances", "statement": "Applying one strictly increasing function to all finite entries leaves D_k, N_k and S_k unchanged when no row has ties among its off-diagonal entries (for non-square distance matrices the function must also preserve zero, which has a special meaning there).", "quantifier": "every strictly increasing map, every tie-free matrix, every shuffle and selection algorithm", "why_tests_cant": "universally quantified over functions", "anchors": ["hub_toolbox/hubness.py:hubness"]}
{"id": "C07", "title": "hubness is invariant under relabelling the points", "statement": "Permuting rows and columns of a square tie-free D by the same permutation relabels the neighbour lists, permutes N_k and leaves S_k unchanged.", "quantifier": "every permutation and every tie-free square matrix", "why_tests_cant": "n! permutations and all matrices", "anchors": ["hub_toolbox/hubness.py:hubness"]}
{"id": "C08", "title": "distance and similarity modes of hubness are dual", "statement": "hubness(D, metric='distance') and hubness(-D, metric='similarity') return the same D_k, N_k, S_k on square tie-free matrices.", "quantifier": "every square tie-free matrix, k, shuffles", "why_tests_cant": "universal over matrices", "anchors": ["hub_toolbox/hubness.py:hubness"]}
{"id": "C09", "title": "hubness statistics of the Hubness estimator lie in their documented ranges", "statement": "After Hubness.fit_transform: antihub_occurrence_ and hub_occurrence_ and groupie_ratio_ are proportions in [0,1], gini_index_ and hood_index_ lie in [0,1), antihubs_ are exactly the points that occur in no list, and groupie_ratio_ is at least k/n_train.", "quantifier": "every k-occurrence vector that can arise", "why_tests_cant": "range invariants over all histograms", "anchors": ["hub_toolbox/hubness.py:Hubness._gini_index", "hub_toolbox/hubness.py:Hubness._hood_index", "hub_toolbox/hubness.py:Hubness._antihub_occurrence", "hub_toolbox/hubness.py:Hubness._hub_occurrence", "hub_toolbox/hubness.py:Hubness.fit_transform"]}
{"id": "C10", "title": "the three Gini implementations agree", "statement": "The memory-limited, time-limited and naive Gini computations return the same value for every k-occurrence vector, so the size-dependent choice between them is unobservable; the value is 0 iff all points occur equally often.", "quantifier": "every vector of counts", "why_tests_cant": "the 10 000 point switch is never reached in tests", "anchors": ["hub_toolbox/hubness.py:Hubness._gini_index"]}
{"id": "C11", "title": "batching and worker count do not change Hubness neighbour lists", "statement": "Hubness.fit_transform on vectors computes the same neighbour lists for every batch_size >= 1, every n_jobs and every interleaving of the batch workers.", "quantifier": "every batch size, number of points, schedule", "why_tests_cant": "boundary cases of the last partial batch and every schedule", "anchors": ["hub_toolbox/hubness.py:Hubness._k_neighbors", "hub_toolbox/hubness.py:_k_neighbors_parallel"]}
{"id": "C12", "title": "has_self_distances removes exactly the self match", "statement": "Hubness(metric='precomputed').fit_transform(D, has_self_distances=True) returns for each row the k nearest other points, never the point itself.", "quantifier": "every square distance matrix with zero diagonal", "why_tests_cant": "duplicates (zero off-diagonal distances) are where it breaks; the tests have none", "anchors": ["hub_toolbox/hubness.py:Hubness.fit_transform", "hub_toolbox/hubness.py:Hubness._k_neighbors_precomputed"]}
{"id": "C13", "title": "Hubness constructor rejects invalid parameters and only those", "statement": "Hubness(...) raises ValueError iff k<1, hub_size<=0, the metric is not one of euclidean/cosine/precomputed, a flag is not a bool, n_jobs is 0 or < -1, or verbose<0.", "quantifier": "every parameter combination", "why_tests_cant": "parameter product space", "anchors": ["hub_toolbox/hubness.py:Hubness.__init__"]}
{"id": "C14", "title": "efficient Goodman-Kruskal equals the quadruple definition", "statement": "goodman_kruskal_index(D, classes, metric) equals the value obtained by counting all concordant and discordant quadruples one by one (_naive_goodman_kruskal) for every symmetric D without nan.", "quantifier": "every symmetric nan-free matrix (infinities allowed), every labelling, both metrics", "why_tests_cant": "tests compare the two on a handful of random matrices", "anchors": ["hub_toolbox/goodman_kruskal.py:goodman_kruskal_index", "hub_toolbox/goodman_kruskal.py:_naive_goodman_kruskal"]}
{"id": "C15", "title": "Goodman-Kruskal index is bounded and sign-correct", "statement": "The index is in [-1,1]; it is 1 when every within-class distance is below every between-class distance, -1 in the reverse case, and 0 when there are no comparable quadruples.", "quantifier": "every matrix and labelling", "why_tests_cant": "range invariant", "anchors": ["hub_toolbox/goodman_kruskal.py:goodman_kruskal_index"]}
{"id": "C16", "title": "Goodman-Kruskal: metric flip and order invariance", "statement": "Switching metric negates the index; applying a strictly increasing map to D leaves it unchanged; so the index of D as distance equals the index of -D as similarity.", "quantifier": "every strictly increasing map, every matrix and labelling", "why_tests_cant": "quantifies over functions", "anchors": ["hub_toolbox/goodman_kruskal.py:goodman_kruskal_index"]}
{"id": "C17", "title": "Goodman-Kruskal: label names and point order are irrelevant", "statement": "Renaming classes injectively, or permuting the points of a symmetric D together with the labels, leaves the index unchanged.", "quantifier": "every injective renaming, every permutation", "why_tests_cant": "quantifies over renamings and permutations", "anchors": ["hub_toolbox/goodman_kruskal.py:goodman_kruskal_index"]}
{"id": "C18", "title": "sparse Goodman-Kruskal equals dense", "statement": "For a symmetric similarity matrix with non-negative entries, sparse_goodman_kruskal_index(S) with zero_mv=False equals goodman_kruskal_index(S.toarray(), metric='similarity'), including the implicit zeros.", "quantifier": "every non-negative matrix and labelling", "why_tests_cant": "the implicit-zero bookkeeping depends on the counts of zeros in both groups", "anchors": ["hub_toolbox/goodman_kruskal.py:sparse_goodman_kruskal_index"]}
{"id": "C19", "title": "sparse Goodman-Kruskal with zeros as missing values", "statement": "With zero_mv=True only quadruples whose two similarities are both stored are counted.", "quantifier": "every matrix and labelling", "why_tests_cant": "no test enumerates all", "anchors": ["hub_toolbox/goodman_kruskal.py:sparse_goodman_kruskal_index"]}
{"id": "C20", "title": "empirical Mutual Proximity matrix is a valid secondary distance", "statement": "mutual_proximity_empiric(D) on a square D returns a symmetric matrix with values in [0,1] and self value 0 (distance) or 1 (similarity); off-diagonal distances are at least 2/n and off-diagonal similarities at most (n-2)/n (unless that similarity is +inf), so a point is strictly closest to itself. Calls on square dense arrays fail only for an invalid metric, a test mask selecting a point, or a test index array containing -1.", "quantifier": "every square matrix (nan and inf included), both metrics", "why_tests_cant": "tests check one random matrix", "anchors": ["hub_toolbox/global_scaling.py:mutual_proximity_empiric", "hub_toolbox/global_scaling.py:_mutual_proximity_empiric_full"]}
{"id": "C21", "title": "empirical Mutual Proximity computes the defining probability", "statement": "For i != j the result is 1 - |{x : d_ix > d_ij and d_jx > d_ji}|/n over the other points x, for every symmetric D.", "quantifier": "every symmetric matrix and pair", "why_tests_cant": "definition equality over all inputs", "anchors": ["hub_toolbox/global_scaling.py:_mutual_proximity_empiric_full"]}
{"id": "C22", "title": "empirical Mutual Proximity depends only on distance ranks and not on point order", "statement": "Strictly increasing transformations of D leave MP unchanged; permuting the points permutes the result.", "quantifier": "every strictly increasing map, every permutation", "why_tests_cant": "quantifies over functions", "anchors": ["hub_toolbox/global_scaling.py:_mutual_proximity_empiric_full"]}
{"id": "C23", "title": "empirical Mutual Proximity: distance/similarity duality", "statement": "mutual_proximity_empiric(D, 'distance') = 1 - mutual_proximity_empiric(-D, 'similarity') off the diagonal when no row has ties; with ties the left side is the larger one.", "quantifier": "every symmetric matrix of finite values; equality for tie-free ones", "why_tests_cant": "universal over matrices", "anchors": ["hub_toolbox/global_scaling.py:_mutual_proximity_empiric_full"]}
{"id": "C24", "title": "sampled Mutual Proximity with the full sample equals full Mutual Proximity", "statement": "mutual_proximity_empiric(D, sample_ind=arange(n)) equals mutual_proximity_empiric(D) for every symmetric D; for a true sample the self entries are exactly at the sampled positions and values are in [0,1].", "quantifier": "every symmetric matrix; every injective sample index", "why_tests_cant": "relates two implementations", "anchors": ["hub_toolbox/global_scaling.py:_mutual_proximity_empiric_sample"]}
{"id": "C25", "title": "sparse empirical Mutual Proximity equals dense on stored pairs", "statement": "For symmetric non-negative similarities whose diagonal strictly dominates, the sparse result equals the dense one on every stored pair, unstored pairs stay zero, independent of the scheduling of the worker processes.", "quantifier": "every such matrix, every schedule", "why_tests_cant": "schedules and sparsity patterns", "anchors": ["hub_toolbox/global_scaling.py:_mutual_proximity_empiric_sparse", "hub_toolbox/global_scaling.py:_mpes_sec_dist"]}
{"id": "C26", "title": "Mutual Proximity with independent Gaussians is a valid secondary distance", "statement": "mutual_proximity_gaussi(D) returns a symmetric matrix with entries in [0,1] and the right self value, for every cdf with values in [0,1]; distance and similarity results are each monotone in the primary value for fixed row statistics.", "quantifier": "every square matrix of finite values and test set that leave each object another training object, every cdf with range [0,1]", "why_tests_cant": "range/symmetry invariants", "anchors": ["hub_toolbox/global_scaling.py:mutual_proximity_gaussi"]}
{"id": "C27", "title": "Mutual Proximity with independent Gammas is a valid secondary distance", "statement": "mutual_proximity_gammai(D) returns a symmetric matrix with entries in [0,1] and the right self value.", "quantifier": "every square matrix", "why_tests_cant": "range/symmetry invariants", "anchors": ["hub_toolbox/global_scaling.py:mutual_proximity_gammai", "hub_toolbox/global_scaling.py:_local_gamcdf"]}
{"id": "C28", "title": "Local Scaling yields a valid secondary distance", "statement": "local_scaling(D, k) on a symmetric non-negative D returns a symmetric matrix with zero diagonal and values in [0,1) computed from the true k-th nearest neighbour distances of both points, excluding self distances.", "quantifier": "every symmetric non-negative matrix with positive radii, every k < n", "why_tests_cant": "universal", "anchors": ["hub_toolbox/local_scaling.py:local_scaling"]}
{"id": "C29", "title": "Local Scaling is scale invariant and monotone", "statement": "local_scaling(c*D) = local_scaling(D) for every c>0; for fixed neighbourhood radii a larger primary distance gives a larger secondary distance.", "quantifier": "every c>0, every matrix", "why_tests_cant": "continuous parameter", "anchors": ["hub_toolbox/local_scaling.py:local_scaling"]}
{"id": "C30", "title": "Local Scaling of similarities preserves similarity order", "statement": "With metric='similarity', for fixed neighbourhood radii a larger primary similarity gives a larger secondary similarity.", "quantifier": "every similarity matrix", "why_tests_cant": "order property over all inputs", "anchors": ["hub_toolbox/local_scaling.py:local_scaling"]}
{"id": "C31", "title": "parallel and serial Local Scaling and NICDM agree", "statement": "local_scaling and nicdm return the same matrix for n_jobs=1 and n_jobs>1 for every schedule.", "quantifier": "every schedule and matrix", "why_tests_cant": "schedules", "anchors": ["hub_toolbox/local_scaling.py:local_scaling", "hub_toolbox/local_scaling.py:nicdm", "hub_toolbox/local_scaling.py:_ls_load_shared_data"]}
{"id": "C32", "title": "NICDM yields a valid secondary distance and scales with its input", "statement": "nicdm(D,k) is symmetric, non-negative, zero on the diagonal, and nicdm(c*D) = c*nicdm(D) for c>0; if all points have the same mean neighbour distance nicdm returns D itself.", "quantifier": "every symmetric non-negative matrix, c>0", "why_tests_cant": "continuous parameter", "anchors": ["hub_toolbox/local_scaling.py:nicdm", "hub_toolbox/local_scaling.py:_local_geomean"]}
{"id": "C33", "title": "sample variants exclude the self distances of the training points", "statement": "local_scaling_sample / nicdm_sample / snn_sample with test_ind=None exclude, for each column j, the distance of point train_ind[j] to itself.", "quantifier": "every train_ind", "why_tests_cant": "tests only use contiguous prefixes", "anchors": ["hub_toolbox/local_scaling.py:local_scaling_sample", "hub_toolbox/local_scaling.py:nicdm_sample", "hub_toolbox/shared_neighbors.py:snn_sample"]}
{"id": "C34", "title": "shared nearest neighbours is a valid secondary distance", "statement": "shared_nearest_neighbors(D,k) is symmetric with entries in {0,1/k,...,1} and correct diagonal, and equals one minus the fraction of common true k-nearest neighbours; distance and similarity results of the same neighbourhoods sum to one; serial equals parallel for every schedule.", "quantifier": "every square matrix, k < n, every selection, every schedule", "why_tests_cant": "ties, schedules", "anchors": ["hub_toolbox/shared_neighbors.py:shared_nearest_neighbors"]}
{"id": "C35", "title": "simhub similarity is normalised", "statement": "simhubIN(D) without sampling returns symmetric values in [0,1] with correct diagonal; simhub(D) without labels equals it.", "quantifier": "every square matrix with finite values off the diagonal and 0 < s < n", "why_tests_cant": "information weights depend on all counts", "anchors": ["hub_toolbox/shared_neighbors.py:simhubIN", "hub_toolbox/shared_neighbors.py:simhub"]}
{"id": "C36", "title": "supervised simhub stays in [0,1]", "statement": "simhub(D, y) returns values in [0,1] for every labelling.", "quantifier": "every labelling", "why_tests_cant": "the additive smoothing breaks normalisation only for special label distributions", "anchors": ["hub_toolbox/shared_neighbors.py:simhub"]}
{"id": "C37", "title": "centering centres, is idempotent and translation invariant", "statement": "centering(X,'vector') has zero column means, is idempotent, unchanged by translating all vectors and preserves all pairwise differences; with a test mask the mean is taken over training vectors only.", "quantifier": "every matrix, every mask which leaves a training vector, every translation", "why_tests_cant": "continuous parameters", "anchors": ["hub_toolbox/centering.py:centering"]}
{"id": "C38", "title": "centering of a Gram matrix equals the Gram matrix of centred vectors", "statement": "centering(X X^T, 'inner') = (HX)(HX)^T, has zero row and column sums and is idempotent.", "quantifier": "every vector matrix", "why_tests_cant": "linear identity over all inputs", "anchors": ["hub_toolbox/centering.py:centering"]}
{"id": "C39", "title": "weighted centering: gamma=0 is plain centering, weights are a probability vector, and held-out points have no influence", "statement": "weighted_centering(X, gamma=0) = centering(X,'vector'); the subtracted vector is a convex combination of the data; with a test mask it does not depend on test vectors.", "quantifier": "every matrix, gamma, mask", "why_tests_cant": "universal", "anchors": ["hub_toolbox/centering.py:weighted_centering"]}
{"id": "C40", "title": "DisSim Global equals minus twice the centred inner product", "statement": "dis_sim_global(X) is symmetric, invariant under translation, and equals -2<x-c,y-c>.", "quantifier": "every vector matrix", "why_tests_cant": "algebraic identity", "anchors": ["hub_toolbox/centering.py:dis_sim_global"]}
{"id": "C41", "title": "DisSim Local is symmetric and consistent between one and two argument calls", "statement": "dis_sim_local(X) is symmetric; serial equals parallel; dis_sim_local(X, X) agrees with dis_sim_local(X) off the diagonal.", "quantifier": "every vector matrix, k", "why_tests_cant": "universal", "anchors": ["hub_toolbox/centering.py:dis_sim_local"]}
{"id": "C42", "title": "k-NN accuracy, correctness mask and confusion matrix are consistent", "statement": "score(...) returns acc[k] = mean of the correctness mask = trace(confusion)/n; every confusion matrix sums to n and row c sums to the number of points of class c.", "quantifier": "every matrix, labelling, list of k, random choices", "why_tests_cant": "consistency law", "anchors": ["hub_toolbox/knn_classification.py:score"]}
{"id": "C43", "title": "k-NN prediction is the majority class of the true k nearest finite neighbours", "statement": "In leave-one-out mode the prediction for a point is a class of maximal frequency among its k nearest finite neighbours unless there is a tie, in which case it is the class of the nearest one; unanimous neighbours force their class.", "quantifier": "every matrix, labelling, k >= 1, every point with a finite neighbour and no infinitely near one; sparse rows with a strictly largest self similarity", "why_tests_cant": "ties and nan/inf", "anchors": ["hub_toolbox/knn_classification.py:score", "hub_toolbox/knn_classification.py:predict"]}
{"id": "C44", "title": "leave-one-out: own label does not influence own prediction", "statement": "Changing the label of point i (keeping the label set) does not change the prediction for i when i has a finite neighbour.", "quantifier": "every dense matrix without infinitely near objects (distance -inf, similarity +inf), every labelling, k >= 1", "why_tests_cant": "non-interference over pairs of runs", "anchors": ["hub_toolbox/knn_classification.py:score"]}
{"id": "C45", "title": "held-out evaluation uses all and only the training points", "statement": "score(D, y, test_set_ind=T) classifies each test point using all points outside T and none in T.", "quantifier": "every test set", "why_tests_cant": "tests only check that it runs", "anchors": ["hub_toolbox/knn_classification.py:score"]}
{"id": "C46", "title": "predict with test_ind", "statement": "predict(D, y, test_ind=T) returns predictions for T.", "quantifier": "every call with test_ind", "why_tests_cant": "no test calls it", "anchors": ["hub_toolbox/knn_classification.py:predict"]}
{"id": "C47", "title": "F-measures are in range and consistent", "statement": "f1_score, f1_macro, f1_weighted, f1_micro return values in [0,1]; f1_score equals 2TP/(2TP+FP+FN); a perfect diagonal confusion gives 1; f1_micro is the f1 of the summed confusion.", "quantifier": "every confusion tensor of counts (f1_weighted needs a positive item, it raises ZeroDivisionError otherwise)", "why_tests_cant": "range invariants", "anchors": ["hub_toolbox/knn_classification.py:f1_score", "hub_toolbox/knn_classification.py:f1_macro", "hub_toolbox/knn_classification.py:f1_weighted", "hub_toolbox/knn_classification.py:f1_micro"]}
{"id": "C48", "title": "synchronised counter hands out distinct consecutive values", "statement": "Under every interleaving of n calls by any number of processes, increment_and_get_value returns each of 0..n-1 exactly once; without the lock two callers can get the same value.", "quantifier": "every interleaving", "why_tests_cant": "schedule quantifier", "anchors": ["hub_toolbox/utils.py:SynchronizedCounter"]}
{"id": "C49", "title": "enforce_finite_distances makes distances finite and non-negative", "statement": "The result has only finite, non-negative entries, keeps the order of the finite entries and puts formerly non-finite entries at the maximum.", "quantifier": "every matrix including all-nonfinite", "why_tests_cant": "special values", "anchors": ["hub_toolbox/approximate.py:enforce_finite_distances"]}
{"id": "C50", "title": "intrinsic dimension estimate is invariant under rescaling and reordering", "statement": "intrinsic_dimension(X) is unchanged when all vectors are multiplied by c>0 or the rows are permuted (no duplicate points), and rejects invalid k1,k2 with ValueError.", "quantifier": "every data set, c>0, permutation", "why_tests_cant": "continuous parameter and permutations", "anchors": ["hub_toolbox/intrinsic_dimension.py:intrinsic_dimension"]}
{"id": "C51", "title": "points in test_ind are held out or refused by empirical Mutual Proximity", "statement": "mutual_proximity_empiric documents that test_ind (an ndarray of indices) holds those points out as a test set. Either the call honours this or it raises NotImplementedError; it never silently returns the matrix rescaled with all points.", "quantifier": "every matrix, every non-empty index array or mask", "why_tests_cant": "the relevant inputs are a family of integer arrays; one passing mask test hides them", "anchors": ["hub_toolbox/global_scaling.py:mutual_proximity_empiric", "hub_toolbox/global_scaling.py:_mutual_proximity_empiric_full"]}
{"id": "C52", "title": "sparse Mutual Proximity rescales exactly the pairs whose rows have at least min_nnz values", "statement": "As documented, MP between i and j is calculated iff at least min_nnz values are present in both rows, otherwise the original similarity is returned.", "quantifier": "every symmetric sparse similarity matrix, every min_nnz", "why_tests_cant": "boundary value of a parameter combined with arbitrary sparsity patterns", "anchors": ["hub_toolbox/global_scaling.py:_mutual_proximity_empiric_sparse", "hub_toolbox/global_scaling.py:_mpes_sec_dist"]}
{"id": "C53", "title": "S_k is the skewness of the k-occurrence counts", "statement": "The first return value of hubness() is the population skewness E[(N_k-mu)^3]/sigma^3 of the reverse-neighbour counts, whose mean mu is always n*min(k,m-1)/m; it is 0 when all counts are equal.", "quantifier": "every matrix, k, metric, n_jobs", "why_tests_cant": "an identity over all inputs; a wrong moment agrees on symmetric samples", "anchors": ["hub_toolbox/hubness.py:hubness", "hub_toolbox/hubness.py:_hubness_no_multiprocessing"]}
{"id": "C54", "title": "the equal_sim heuristic of the sparse Goodman-Kruskal index only errs downwards", "statement": "sparse_goodman_kruskal_index(..., metric='similarity', heuristic='equal_sim') never returns a larger value than without the heuristic, and the same value if no within-class pair has the same nonzero similarity as a between-class pair.", "quantifier": "every non-negative matrix and labelling, both settings of zero_mv", "why_tests_cant": "The comparison is between two runs over all possible tie patterns.", "anchors": ["hub_toolbox/goodman_kruskal.py:139-368"]}
{"id": "C55", "title": "predict returns class labels", "statement": "Every value returned by predict(...) is one of the labels in target (documented: 'predicted class labels').", "quantifier": "every matrix, every integer labelling", "why_tests_cant": "Tests use labels 0..C-1, for which class numbers and labels coincide.", "anchors": ["hub_toolbox/knn_classification.py:predict"]}
{"id": "C56", "title": "sparse leave-one-out never uses the point's own label", "statement": "score(S, y, metric='similarity') on a sparse similarity matrix removes the self similarity, so that the label of a point does not take part in its own classification.", "quantifier": "every sparse matrix with the largest value of each row on the diagonal, random choices", "why_tests_cant": "The self similarity is only identified by being largest; with duplicates the outcome depends on random permutations.", "anchors": ["hub_toolbox/knn_classification.py:score"]}
{"id": "C57", "title": "metric='distance' is honoured for sparse matrices", "statement": "score(D, y, metric='distance') on a sparse matrix classifies by the neighbours with the smallest stored distances.", "quantifier": "every sparse distance matrix", "why_tests_cant": "Sparse matrices are tested with similarities only.", "anchors": ["hub_toolbox/knn_classification.py:score"]}
{"id": "C58", "title": "R-precision is a precision", "statement": "All values returned by r_precision (per item, macro, weighted) are in [0,1]; macro is the mean of the items and weighted their mean weighted by the number of relevant items, which is the number of other points with the same label; if all labels differ the call raises ZeroDivisionError.", "quantifier": "every sparse similarity matrix, labelling, random choices", "why_tests_cant": "Needs all matrices, including rows with fewer stored entries than relevant items.", "anchors": ["hub_toolbox/knn_classification.py:r_precision", "hub_toolbox/knn_classification.py:_r_prec_worker"]}
{"id": "C59", "title": "R-precision counts the R most similar other points", "statement": "If the self similarity is strictly the largest value of a row, the R-precision of that point is the fraction of points with its label among its R most similar other points, R being the number of other points with its label (zero if there is none).", "quantifier": "every sparse similarity matrix, labelling, random choices", "why_tests_cant": "Depends on partial sorting of random permutations; tests check few fixed matrices.", "anchors": ["hub_toolbox/knn_classification.py:_r_prec_worker"]}
{"id": "C60", "title": "R-precision returns labels of nearest neighbours", "statement": "r_precision(S, y, return_y_pred=w)['y_pred'] contains the labels of the most similar neighbours of each point.", "quantifier": "every sparse similarity matrix, labelling", "why_tests_cant": "The result is only wrong for points without relevant neighbours.", "anchors": ["hub_toolbox/knn_classification.py:_r_prec_worker"]}
{"id": "C61", "title": "Atkinson index of the Hubness estimator lies in [0,1) and vanishes only for equal occurrence", "statement": "After Hubness.fit_transform, atkinson_index_ is at least 0 and below 1, and it is 0 iff every training object occurs in equally many neighbour lists.", "quantifier": "every data set, k >= 1, metric and option combination for which fit_transform succeeds", "why_tests_cant": "A power-mean inequality over all k-occurrence vectors; sampled vectors cannot establish the bounds or the equality case.", "anchors": ["hub_toolbox/hubness.py:649-654", "hub_toolbox/hubness.py:722"]}
{"id": "C62", "title": "hubs_ are the objects occurring more than hub_size * k times", "statement": "The documentation of Hubness says: hubs are objects with k-occurrence > hub_size * k. hubs_ contains exactly these objects.", "quantifier": "every data set, k and hub_size", "why_tests_cant": "The boundary case (occurrence equal to hub_size*k) only shows on particular data and decides membership, hence hub_occurrence_.", "anchors": ["hub_toolbox/hubness.py:388-389", "hub_toolbox/hubness.py:665-669"]}
{"id": "C63", "title": "Hubness supports all three documented metrics", "statement": "A Hubness estimator constructed with metric='euclidean' or metric='cosine' can be fitted to vectors: fit_transform(X) succeeds iff there are more than k vectors.", "quantifier": "every non-empty matrix of vectors, every batch size, worker count", "why_tests_cant": "The accepted metrics are data-independent promises; tests exercise one metric.", "anchors": ["hub_toolbox/hubness.py:390-392", "hub_toolbox/hubness.py:484-532"]}
{"id": "C64", "title": "Hubness on vectors lists the nearest other vectors", "statement": "Hubness(metric='euclidean').fit_transform(X) lists for each vector its k nearest other vectors, never the vector itself; fit_transform(X, Y) lists the k nearest vectors of Y.", "quantifier": "every set of vectors, including duplicates", "why_tests_cant": "Duplicated vectors are the critical inputs and are absent from random test data.", "anchors": ["hub_toolbox/hubness.py:484-532", "hub_toolbox/hubness.py:671-702"]}
{"id": "C65", "title": "hubness_from_vectors agrees with the Hubness estimator", "statement": "For different vectors without tied distances, hubness_from_vectors(X, k) returns the neighbour lists, k-occurrences and skewness that Hubness(k).fit_transform(X) stores.", "quantifier": "every such data set, every k < n, all batch sizes and worker counts", "why_tests_cant": "One sorts Euclidean and the other squared distances with different partial-sort calls; equality for all inputs needs an order argument.", "anchors": ["hub_toolbox/hubness.py:304-379", "hub_toolbox/hubness.py:671-734"]}
{"id": "C66", "title": "Hubness(metric='precomputed') agrees with hubness()", "statement": "For a square distance matrix whose rows have no ties and whose smallest entry is on the diagonal, Hubness(k, metric='precomputed').fit_transform(D, has_self_distances=True) stores the neighbour lists, k-occurrences and skewness that hubness(D, k) returns, shuffled or not, serial or parallel.", "quantifier": "every such matrix and every k < n", "why_tests_cant": "The two implementations treat the diagonal in different ways (skip the first position; set to infinity).", "anchors": ["hub_toolbox/hubness.py:94-302", "hub_toolbox/hubness.py:530-551"]}
{"id": "C67", "title": "has_self_distances also applies to sparse precomputed matrices", "statement": "Hubness(metric='precomputed').fit_transform(S, has_self_distances=True) with a sparse matrix S removes the stored self distances: each list contains the k nearest other stored objects.", "quantifier": "every sparse square matrix", "why_tests_cant": "Needs the interplay of an option and a storage format that no test combines.", "anchors": ["hub_toolbox/hubness.py:553-609", "hub_toolbox/hubness.py:671-702"]}
{"id": "C68", "title": "Local Scaling of finite distances is finite", "statement": "local_scaling(D, k) of finite symmetric distances contains no nan.", "quantifier": "every finite symmetric non-negative matrix, 1<=k<n", "why_tests_cant": "only data with at least k duplicates of a point show it", "anchors": ["hub_toolbox/local_scaling.py:local_scaling"]}
{"id": "C69", "title": "Local Scaling rejects meaningless neighbourhood sizes", "statement": "local_scaling and nicdm raise an error for k<1 and for k exceeding the number of other training points.", "quantifier": "every matrix, every k outside the valid range", "why_tests_cant": "a silent all-zero result is only visible for boundary values of k", "anchors": ["hub_toolbox/local_scaling.py:local_scaling", "hub_toolbox/local_scaling.py:nicdm"]}
{"id": "C70", "title": "Local Scaling of similarities uses the k-th most similar training point", "statement": "With metric='similarity' the radius of a point is its k-th largest similarity to another training point, with and without held-out test points, for every k up to the number of other training points.", "quantifier": "every similarity matrix, test_ind and k", "why_tests_cant": "the position n-k is only wrong with held-out points", "anchors": ["hub_toolbox/local_scaling.py:local_scaling"]}
{"id": "C71", "title": "every n_jobs value is usable or rejected", "statement": "local_scaling and nicdm accept n_jobs=-1 and every positive value and reject other values by ValueError.", "quantifier": "every integer n_jobs", "why_tests_cant": "tests use 1 and -1 only", "anchors": ["hub_toolbox/local_scaling.py:local_scaling", "hub_toolbox/local_scaling.py:nicdm"]}
{"id": "C72", "title": "shared nearest neighbours depends on the order of distances only", "statement": "shared_nearest_neighbors(D,k) is unchanged when the entries of each row are transformed by a strictly increasing function of that row, provided no row has ties among other points.", "quantifier": "every tie-free square matrix and every per-row order-preserving transformation", "why_tests_cant": "invariance under all transformations cannot be sampled", "anchors": ["hub_toolbox/shared_neighbors.py:shared_nearest_neighbors"]}
{"id": "C73", "title": "shared nearest neighbours rejects neighbourhood sizes outside 1..n-1", "statement": "shared_nearest_neighbors raises ValueError for k<1 and k>=n, for both metrics.", "quantifier": "every square matrix, both metrics, every k outside the range", "why_tests_cant": "silent nan or constant results only at boundary values", "anchors": ["hub_toolbox/shared_neighbors.py:shared_nearest_neighbors"]}
{"id": "C74", "title": "vect_usage does not change simhub results", "statement": "simhub returns the same matrix for every value of vect_usage.", "quantifier": "every matrix, labels, train_ind, test_ind and s", "why_tests_cant": "the branches differ only for non-prefix train_ind", "anchors": ["hub_toolbox/shared_neighbors.py:simhub"]}
{"id": "C75", "title": "simhub of a test point does not depend on other test points", "statement": "With train_ind and test_ind, the values of simhub between a test point and the training points are determined by the rows of the training points and the row of that test point.", "quantifier": "every train_ind, test_ind and matrix", "why_tests_cant": "needs two runs that differ in a held-out row", "anchors": ["hub_toolbox/shared_neighbors.py:simhub", "hub_toolbox/shared_neighbors.py:simhubIN"]}
{"id": "C76", "title": "simhub and simhubIN reject neighbourhood sizes outside 1..n-1", "statement": "simhub and simhubIN raise ValueError for s<1 and s>=n.", "quantifier": "every square matrix and every s outside the range", "why_tests_cant": "silent nan or constant results only at boundary values", "anchors": ["hub_toolbox/shared_neighbors.py:simhub", "hub_toolbox/shared_neighbors.py:simhubIN"]}
{"id": "C77", "title": "supervised simhub contains no nan", "statement": "simhub(D, y) of finite distances contains no nan for every labelling.", "quantifier": "every finite square matrix, every labelling, 0<s<n", "why_tests_cant": "a labelling with a single class is a corner case", "anchors": ["hub_toolbox/shared_neighbors.py:simhub"]}
{"id": "C78", "title": "sampled simhub stays in [0,1]", "statement": "simhub and simhubIN with train_ind and test_ind return values in [0,1].", "quantifier": "every train_ind, test_ind, finite matrix and 0<s<m", "why_tests_cant": "needs train_ind that is not a prefix of the rows", "anchors": ["hub_toolbox/shared_neighbors.py:simhub", "hub_toolbox/shared_neighbors.py:simhubIN"]}
{"id": "C79", "title": "DisSim Global is minus twice the centred Gram matrix", "statement": "dis_sim_global(X) equals -2 * centering(X X^T, 'inner'); hence the dissimilarities of every point sum to zero and no point has positive dissimilarity to itself.", "quantifier": "every vector matrix", "why_tests_cant": "identity between two functions over all inputs", "anchors": ["hub_toolbox/centering.py:dis_sim_global", "hub_toolbox/centering.py:centering"]}
{"id": "C80", "title": "Weighted centering gives larger weights to objects more similar to the others", "statement": "With metric='cosine' and gamma>0, weighted_centering moves the origin closer to objects with larger similarity to the other objects: of two vectors the one with larger cosine similarity to the training centroid gets the larger weight.", "quantifier": "every vector matrix, gamma, mask", "why_tests_cant": "weights are internal and the order must hold for all inputs", "anchors": ["hub_toolbox/centering.py:weighted_centering"]}
{"id": "C81", "title": "Weighted centering with euclidean distances depends on the distances", "statement": "With metric='euclidean', weighted_centering weighs the vectors according to their euclidean distances and gamma.", "quantifier": "every vector matrix, gamma, mask", "why_tests_cant": "a degenerate computation yields plausible output on every sample", "anchors": ["hub_toolbox/centering.py:weighted_centering"]}
{"id": "C82", "title": "DisSim Local does not depend on the integer or float storage of the data", "statement": "dis_sim_local gives the same result for integer-valued data stored as integers and as floats, for any number of jobs.", "quantifier": "every integer matrix, k, n_jobs", "why_tests_cant": "depends on data types and parities of neighbourhood sums", "anchors": ["hub_toolbox/centering.py:dis_sim_local"]}
{"id": "C83", "title": "DisSim Local is translation invariant", "statement": "Adding the same vector to all objects (test and training) leaves dis_sim_local unchanged.", "quantifier": "every matrix, translation, k, n_jobs", "why_tests_cant": "continuous parameters", "anchors": ["hub_toolbox/centering.py:dis_sim_local"]}
{"id": "C84", "title": "Boolean test set masks hold back the marked rows", "statement": "centering with a boolean test_set_mask computes the mean over the rows not marked.", "quantifier": "every boolean mask", "why_tests_cant": "all masks", "anchors": ["hub_toolbox/centering.py:centering", "hub_toolbox/centering.py:weighted_centering"]}
{"id": "C85", "title": "Localized centering does not depend on the number of jobs", "statement": "localized_centering returns the same matrix (or error) for all values of n_jobs.", "quantifier": "every matrix, kappa, gamma, n_jobs, schedule", "why_tests_cant": "schedules", "anchors": ["hub_toolbox/centering.py:localized_centering"]}
{"id": "C86", "title": "Localized centering depends on directions only", "statement": "Multiplying vectors by positive factors leaves localized_centering unchanged.", "quantifier": "every matrix, positive factors", "why_tests_cant": "continuous parameters", "anchors": ["hub_toolbox/centering.py:localized_centering"]}
{"id": "C87", "title": "Localized centering subtracts the local affinity of the training vector", "statement": "localized_centering is the cosine similarity minus the mean cosine similarity of the training vector to its kappa most similar training vectors, raised to gamma unless some affinity is negative; one and two argument calls agree; kappa larger than the training set raises ValueError.", "quantifier": "every matrix, kappa, gamma >= 0", "why_tests_cant": "universal, ties in neighbourhoods", "anchors": ["hub_toolbox/centering.py:localized_centering"]}
{"id": "C88", "title": "Localized centering with kappa=n ranks like standard centering", "statement": "With kappa=n and gamma=1 each row of localized_centering orders the training vectors as the inner products of unit vectors centred at their mean: the two differ by a constant per row.", "quantifier": "every matrix", "why_tests_cant": "identity over all inputs", "anchors": ["hub_toolbox/centering.py:localized_centering"]}
{"id": "C89", "title": "Gaussian Mutual Proximity does not depend on the unit or origin of the distances", "statement": "mutual_proximity_gaussi(a*D + b) equals mutual_proximity_gaussi(D) for a > 0 (the diagonal is ignored).", "quantifier": "every matrix with no object equally far from all others, every a > 0 and b, both metrics, every test set", "why_tests_cant": "invariance over all matrices and all real a, b", "anchors": ["hub_toolbox/global_scaling.py:mutual_proximity_gaussi"]}
{"id": "C90", "title": "Gaussian Mutual Proximity treats similarities as negated distances", "statement": "mutual_proximity_gaussi(-D, 'similarity') is one minus mutual_proximity_gaussi(D, 'distance') off the diagonal, for a cdf symmetric around zero.", "quantifier": "every matrix, every cdf symmetric around zero", "why_tests_cant": "relates two code branches for all inputs", "anchors": ["hub_toolbox/global_scaling.py:mutual_proximity_gaussi"]}
{"id": "C91", "title": "Gamma Mutual Proximity does not depend on the unit of the distances", "statement": "mutual_proximity_gammai(c*D) equals mutual_proximity_gammai(D) for c > 0.", "quantifier": "every matrix with positive means and non-constant rows, every c > 0", "why_tests_cant": "invariance over all matrices and all c", "anchors": ["hub_toolbox/global_scaling.py:mutual_proximity_gammai"]}
{"id": "C92", "title": "Held-out objects do not influence other pairs in parametric Mutual Proximity", "statement": "The secondary value of a pair depends on nothing but its primary value and the primary values of both objects to training objects, in both variants.", "quantifier": "every two matrices and test set", "why_tests_cant": "non-interference, quantified over pairs of inputs", "anchors": ["hub_toolbox/global_scaling.py:mutual_proximity_gaussi", "hub_toolbox/global_scaling.py:mutual_proximity_gammai"]}
{"id": "C93", "title": "Parametric Mutual Proximity does not depend on the numbering of objects", "statement": "Permuting rows and columns of a symmetric matrix (and the test set) permutes the result of mutual_proximity_gaussi and mutual_proximity_gammai in the same way.", "quantifier": "every symmetric matrix, permutation and test set", "why_tests_cant": "quantifies over all permutations; the code fills only the upper triangle", "anchors": ["hub_toolbox/global_scaling.py:mutual_proximity_gaussi", "hub_toolbox/global_scaling.py:mutual_proximity_gammai"]}
{"id": "C94", "title": "Gaussian Mutual Proximity can be estimated from a sample of given size", "statement": "mutual_proximity_gaussi(D, sample_size=s) returns a matrix for every positive s.", "quantifier": "every dense matrix and s > 0", "why_tests_cant": "no test passes sample_size", "anchors": ["hub_toolbox/global_scaling.py:mutual_proximity_gaussi"]}
{"id": "C95", "title": "Sampling all objects is the full Gaussian Mutual Proximity", "statement": "mutual_proximity_gaussi(D, idx=arange(n)) equals mutual_proximity_gaussi(D).", "quantifier": "every symmetric matrix, both metrics, every test set", "why_tests_cant": "agreement of two code paths for all inputs", "anchors": ["hub_toolbox/global_scaling.py:mutual_proximity_gaussi", "hub_toolbox/global_scaling.py:mutual_proximity_gaussi_sample"]}
{"id": "C96", "title": "gaussi_sample agrees with gaussi on the sampled columns", "statement": "mutual_proximity_gaussi_sample(D, idx) and mutual_proximity_gaussi(D, idx=idx) return the same values for the same sample.", "quantifier": "every n x s matrix and sample", "why_tests_cant": "agreement of two implementations for all inputs", "anchors": ["hub_toolbox/global_scaling.py:mutual_proximity_gaussi_sample", "hub_toolbox/global_scaling.py:mutual_proximity_gaussi"]}
{"id": "C97", "title": "Sampled Gaussian Mutual Proximity is a valid Mutual Proximity", "statement": "The result has entries in [0,1], the right self value for sampled objects, and equals the Mutual Proximity of the normal distributions fitted to the values of each object to the sampled objects.", "quantifier": "every n x s matrix and sample without repetition", "why_tests_cant": "formula for all inputs, index arithmetic between full and sampled numbering", "anchors": ["hub_toolbox/global_scaling.py:mutual_proximity_gaussi_sample"]}
{"id": "C98", "title": "Parametric Mutual Proximity rejects invalid input", "statement": "A matrix that is not square raises TypeError and an unknown metric raises ValueError, in both variants and for dense and sparse input; for samples, any shape other than n x s raises an error as well.", "quantifier": "every non-square shape, every string", "why_tests_cant": "all shapes, all strings", "anchors": ["hub_toolbox/global_scaling.py:mutual_proximity_gaussi", "hub_toolbox/global_scaling.py:mutual_proximity_gammai"]}
{"id": "C99", "title": "Sparse Gaussian Mutual Proximity is a valid secondary similarity", "statement": "For a symmetric sparse similarity matrix with self similarities one, mutual_proximity_gaussi is finite, symmetric, has entries in [0,1], unit diagonal and is the Mutual Proximity of the normal distributions fitted to the values present.", "quantifier": "every symmetric sparse matrix with unit diagonal", "why_tests_cant": "formula over all sparsity patterns; moments are computed incrementally with the self value subtracted", "anchors": ["hub_toolbox/global_scaling.py:_mutual_proximity_gaussi_sparse"]}
{"id": "C100", "title": "Sparse and dense Gaussian Mutual Proximity agree without missing values", "statement": "For a similarity matrix without zeros the sparse and the dense call give the same result.", "quantifier": "every symmetric matrix without zeros and with unit diagonal", "why_tests_cant": "agreement of two implementations on all inputs", "anchors": ["hub_toolbox/global_scaling.py:mutual_proximity_gaussi", "hub_toolbox/global_scaling.py:_mutual_proximity_gaussi_sparse"]}
{"id": "C101", "title": "min_nnz is honoured by sparse Gaussian Mutual Proximity", "statement": "Objects with fewer than min_nnz values keep their original similarities.", "quantifier": "every sparse matrix and min_nnz", "why_tests_cant": "the parameter is documented, tests use none that matters", "anchors": ["hub_toolbox/global_scaling.py:_mutual_proximity_gaussi_sparse"]}
{"id": "C102", "title": "Held-out objects are compared with training objects in sparse Gaussian Mutual Proximity", "statement": "With a test set, the normal distribution of every object is the one fitted to its values present for training objects other than itself.", "quantifier": "every symmetric sparse matrix with unit diagonal and test set", "why_tests_cant": "statistics for all inputs", "anchors": ["hub_toolbox/global_scaling.py:_mutual_proximity_gaussi_sparse"]}
{"id": "C103", "title": "Sparse distance matrices are rejected by parametric Mutual Proximity", "statement": "A sparse matrix with metric='distance' raises an error, since only sparse similarity matrices are supported.", "quantifier": "every sparse matrix", "why_tests_cant": "negative behaviour for all inputs", "anchors": ["hub_toolbox/global_scaling.py:mutual_proximity_gaussi", "hub_toolbox/global_scaling.py:mutual_proximity_gammai"]}
{"id": "C104", "title": "Self similarities other than one are rejected for sparse input", "statement": "A sparse similarity matrix with any diagonal entry other than one raises ValueError in the Gaussian, Gamma and Gumbel variants.", "quantifier": "every sparse matrix", "why_tests_cant": "all matrices, all positions", "anchors": ["hub_toolbox/global_scaling.py:_mutual_proximity_gaussi_sparse", "hub_toolbox/global_scaling.py:_mutual_proximity_gammai_sparse", "hub_toolbox/global_scaling.py:_mutual_proximity_gumbel_sparse"]}
{"id": "C105", "title": "min_nnz is honoured by sparse Gamma and Gumbel Mutual Proximity", "statement": "Objects with at least min_nnz values are rescaled, and the similarities of any object with fewer values are kept.", "quantifier": "every sparse matrix with unit diagonal and min_nnz", "why_tests_cant": "boundary and pair behaviour over all patterns", "anchors": ["hub_toolbox/global_scaling.py:_mutual_proximity_gammai_sparse", "hub_toolbox/global_scaling.py:_mutual_proximity_gumbel_sparse"]}
{"id": "C106", "title": "Sparse parametric Mutual Proximity does not depend on the numbering of objects", "statement": "Permuting the objects of a sparse similarity matrix permutes the result in the same way, in all three variants.", "quantifier": "every sparse matrix with unit diagonal, permutation, test set and min_nnz", "why_tests_cant": "all permutations", "anchors": ["hub_toolbox/global_scaling.py:_mutual_proximity_gaussi_sparse", "hub_toolbox/global_scaling.py:_mutual_proximity_gammai_sparse", "hub_toolbox/global_scaling.py:_mutual_proximity_gumbel_sparse"]}
{"id": "C107", "title": "Missing similarities stay missing in sparse parametric Mutual Proximity", "statement": "If both similarities of a pair are missing (zero), the secondary similarity is zero.", "quantifier": "every sparse matrix with unit diagonal and pair", "why_tests_cant": "all sparsity patterns", "anchors": ["hub_toolbox/global_scaling.py:_mutual_proximity_gaussi_sparse", "hub_toolbox/global_scaling.py:_mutual_proximity_gammai_sparse", "hub_toolbox/global_scaling.py:_mutual_proximity_gumbel_sparse"]}
{"id": "C108", "title": "Sparse Gamma Mutual Proximity is a valid secondary similarity", "statement": "mutual_proximity_gammai of a symmetric sparse similarity matrix is finite, symmetric, has entries in [0,1], unit diagonal and is the Mutual Proximity of the Gamma distributions fitted to the values present.", "quantifier": "every symmetric sparse matrix with unit diagonal", "why_tests_cant": "formula over all sparsity patterns", "anchors": ["hub_toolbox/global_scaling.py:_mutual_proximity_gammai_sparse", "hub_toolbox/global_scaling.py:_local_gamcdf"]}
{"id": "C109", "title": "intrinsic_dimension is the maximum likelihood estimate of Levina and Bickel", "statement": "For different vectors without ties among the k1 nearest neighbours, the result is the average over points and k=k1..k2 of (k-2)/sum(log(T_k/T_j)) ('levina'), or its correction averaging inverses ('mackay').", "quantifier": "every data set without duplicates, every accepted 0 < k1 <= k2 < n", "why_tests_cant": "formula for all data; the code works with half logarithms of squared distances and cumulative sums", "anchors": ["hub_toolbox/intrinsic_dimension.py:intrinsic_dimension"]}
{"id": "C110", "title": "intrinsic_dimension depends only on the distances", "statement": "Data sets with the same distances between corresponding points have the same estimate, in particular translated and rotated data; translation does not matter for any trafo.", "quantifier": "every pair of isometric data sets, also with different numbers of features", "why_tests_cant": "quantifies over all isometries", "anchors": ["hub_toolbox/intrinsic_dimension.py:intrinsic_dimension"]}
{"id": "C111", "title": "mem_threshold does not change the intrinsic dimension", "statement": "The row-wise and the matrix computation give the same estimate.", "quantifier": "every data set, every two thresholds", "why_tests_cant": "agreement of two code paths for all inputs", "anchors": ["hub_toolbox/intrinsic_dimension.py:intrinsic_dimension"]}
{"id": "C112", "title": "Accepted neighbourhood ranges give a finite non-negative dimension", "statement": "For different vectors without ties, every accepted range 0 < k1 <= k2 < n yields a finite estimate >= 0.", "quantifier": "every data set without duplicates and ties, every accepted k1, k2", "why_tests_cant": "boundary k1=1 divides by zero for every data set", "anchors": ["hub_toolbox/intrinsic_dimension.py:intrinsic_dimension"]}
{"id": "C113", "title": "intrinsic_dimension returns an integer", "statement": "As documented, the estimate is rounded to an integer.", "quantifier": "every data set", "why_tests_cant": "documented return type", "anchors": ["hub_toolbox/intrinsic_dimension.py:intrinsic_dimension"]}
{"id": "C114", "title": "intrinsic_dimension accepts distance matrices", "statement": "As documented, metric='distance' estimates the dimension from a distance matrix.", "quantifier": "every distance matrix and valid parameters", "why_tests_cant": "documented parameter value", "anchors": ["hub_toolbox/intrinsic_dimension.py:intrinsic_dimension"]}
{"id": "C115", "title": "enforce_finite_distances leaves valid distances alone", "statement": "Finite non-negative distances are returned unchanged, applying the function twice is the same as once, and negative values are removed by adding a constant which makes the minimum zero.", "quantifier": "every matrix", "why_tests_cant": "negative and special values", "anchors": ["hub_toolbox/approximate.py:enforce_finite_distances"]}
{"id": "C116", "title": "kmeanspp returns the requested number of rows of the data", "statement": "For valid arguments kmeanspp never fails and returns n_clusters indices of rows, whatever the random numbers are.", "quantifier": "every data set, metric sqeuclidean or cosine, n_clusters >= 1, all random numbers in [0,1)", "why_tests_cant": "random draws at the ends of the range, duplicate points", "anchors": ["hub_toolbox/approximate.py:kmeanspp"]}
{"id": "C117", "title": "kmeanspp draws proportional to squared distance", "statement": "Every centre after the first is drawn by inversion from the distances to the nearest previous centre, and among the local trials one with the lowest potential is chosen.", "quantifier": "every data set and all random numbers", "why_tests_cant": "a statement about the sampling procedure for every random number", "anchors": ["hub_toolbox/approximate.py:kmeanspp"]}
{"id": "C118", "title": "kmeanspp never selects a point twice", "statement": "The selected centres are different points as long as there are enough different points.", "quantifier": "every data set and all random numbers", "why_tests_cant": "depends on exceptional random numbers and duplicate points", "anchors": ["hub_toolbox/approximate.py:kmeanspp"]}
{"id": "C119", "title": "kmeanspp works with the default random_state", "statement": "As documented, random_state may be omitted; metrics other than sqeuclidean and cosine are rejected with ValueError.", "quantifier": "every data set", "why_tests_cant": "default arguments for every data set", "anchors": ["hub_toolbox/approximate.py:kmeanspp"]}
{"id": "C120", "title": "SuQHR Mutual Proximity to fixed vantage points", "statement": "For sampling 'random', 'kmeans++' and None, transform returns for each test object and vantage point one minus the fraction of vantage points farther from both; values are in [1/s, 1]; the call succeeds for every reasonable choice of parameters; the result does not depend on n_jobs or the schedule of the worker processes.", "quantifier": "all training and test sets, sampling methods, n_jobs, schedules", "why_tests_cant": "all inputs and schedules", "anchors": ["hub_toolbox/approximate.py:SuQHR._fit_mp", "hub_toolbox/approximate.py:SuQHR._transform_mp", "hub_toolbox/approximate.py:_mp_full"]}
{"id": "C121", "title": "SuQHR agrees with mutual_proximity_empiric", "statement": "The secondary distances of SuQHR(hr_algorithm='MP') are those of mutual_proximity_empiric with sample_size/test_ind for the same vantage points and test objects.", "quantifier": "all training and test sets and vantage points", "why_tests_cant": "two independent implementations compared on all inputs", "anchors": ["hub_toolbox/approximate.py:SuQHR._transform_mp", "hub_toolbox/global_scaling.py:mutual_proximity_empiric_sample"]}
{"id": "C122", "title": "sec_dist_sparse_ contains the secondary distances", "statement": "The sparse matrix holds the secondary distance of each test object to each vantage point in the column of that object, and zeros elsewhere.", "quantifier": "all training and test sets, sampling methods and random numbers", "why_tests_cant": "duplicates among the selected points", "anchors": ["hub_toolbox/approximate.py:SuQHR._sparse_distance_matrix"]}
{"id": "C123", "title": "SuQHR with an exact neighbour index is exact", "statement": "If the index answers exactly and all objects are requested as neighbours, SuQHR(hr_algorithm='MP', sampling_algorithm='hnsw') computes Mutual Proximity with respect to all training objects.", "quantifier": "all training and test sets and exact answers", "why_tests_cant": "all inputs including ties", "anchors": ["hub_toolbox/approximate.py:_mp_hnsw", "hub_toolbox/approximate.py:SuQHR._hnsw_filtering", "hub_toolbox/approximate.py:SuQHR._hnsw_trafo"]}
{"id": "C124", "title": "SuQHR Mutual Proximity with an index is in [1/n, 1]", "statement": "Whatever the index answers, if transform returns then all secondary distances are between 1/n and 1.", "quantifier": "all answers of the index, including incomplete ones", "why_tests_cant": "all possible answers of an external library", "anchors": ["hub_toolbox/approximate.py:_mp_hnsw", "hub_toolbox/approximate.py:SuQHR._hnsw_filtering", "hub_toolbox/approximate.py:SuQHR._hnsw_trafo"]}
{"id": "C125", "title": "No training object is its own neighbour in SuQHR", "statement": "The neighbours of training objects found during fit do not include the object itself.", "quantifier": "all exact answers of the index", "why_tests_cant": "duplicates and ties", "anchors": ["hub_toolbox/approximate.py:SuQHR._hnsw_filtering"]}
{"id": "C126", "title": "SuQHR without hubness reduction returns the distances to the vantage points", "statement": "With hr_algorithm=None and metric 'sqeuclidean' or 'cosine', transform returns the distance of each test object to each vantage point.", "quantifier": "all training and test sets, sampling methods and random numbers", "why_tests_cant": "all inputs and random numbers", "anchors": ["hub_toolbox/approximate.py:SuQHR._fit_without_hr", "hub_toolbox/approximate.py:SuQHR._transform_without_hr"]}
{"id": "C127", "title": "SuQHR supports metric 'precomputed'", "statement": "The constructor accepts metric='precomputed'; fit and transform then use the given distances.", "quantifier": "all data and hubness reduction methods", "why_tests_cant": "every method on every input", "anchors": ["hub_toolbox/approximate.py:SuQHR"]}
{"id": "C128", "title": "SuQHR Gaussian Mutual Proximity formula", "statement": "Secondary distances are one minus the product of the survival functions of two normal distributions, fitted to the distances of the test object to the vantage points and of the vantage point to the other vantage points.", "quantifier": "all training and test sets, sampling methods and random numbers", "why_tests_cant": "all inputs", "anchors": ["hub_toolbox/approximate.py:SuQHR._fit_mpg", "hub_toolbox/approximate.py:SuQHR._transform_mpg"]}
{"id": "C129", "title": "SuQHR Gaussian Mutual Proximity is in the unit interval", "statement": "All secondary distances are numbers between 0 and 1, never nan.", "quantifier": "all training and test sets, sampling methods and random numbers", "why_tests_cant": "degenerate data", "anchors": ["hub_toolbox/approximate.py:SuQHR._transform_mpg"]}
{"id": "C130", "title": "SuQHR local scaling formula", "statement": "With fixed vantage points, secondary distances follow the local scaling formula with the distance of the test object to its k-th nearest vantage point and that of the vantage point to its k-th nearest other vantage point, whatever order the partial sort leaves; values are in [0,1] or nan for zero distances; too many neighbours are rejected with ValueError.", "quantifier": "all training and test sets, sampling methods, k, and every partial sort allowed by numpy", "why_tests_cant": "all inputs and all results of argpartition allowed by its documentation", "anchors": ["hub_toolbox/approximate.py:SuQHR._fit_ls", "hub_toolbox/approximate.py:SuQHR._transform_ls"]}
{"id": "C131", "title": "SuQHR NICDM formula", "statement": "With fixed vantage points, secondary distances are the distances divided by the geometric mean of the mean distance of the test object to its k nearest vantage points and of the vantage point to its k nearest other vantage points.", "quantifier": "all training and test sets, sampling methods, k, and every partial sort allowed by numpy", "why_tests_cant": "the order within a partition is unspecified by numpy", "anchors": ["hub_toolbox/approximate.py:SuQHR._fit_ls", "hub_toolbox/approximate.py:SuQHR._transform_ls"]}
{"id": "C132", "title": "SuQHR DisSim Local formula", "statement": "With fixed vantage points, the secondary distance is the squared euclidean distance minus the squared distances of test object and vantage point to the centroids of their k nearest (other) vantage points.", "quantifier": "all training and test sets, sampling methods, k, and every partial sort allowed by numpy", "why_tests_cant": "the order within a partition is unspecified by numpy", "anchors": ["hub_toolbox/approximate.py:SuQHR._fit_dsl", "hub_toolbox/approximate.py:SuQHR._transform_dsl"]}
{"id": "C133", "title": "SuQHR local scaling and NICDM with an exact index are exact", "statement": "If the neighbour index answers exactly and k <= n_samples, k < n, the radii used for local scaling and NICDM are the true ones of the test object among all training objects and of the training object among all others, even with duplicates, and the reported neighbours are those of the index.", "quantifier": "all training and test sets and exact answers", "why_tests_cant": "all inputs including ties and duplicates", "anchors": ["hub_toolbox/approximate.py:SuQHR._fit_ls", "hub_toolbox/approximate.py:SuQHR._transform_ls", "hub_toolbox/approximate.py:SuQHR._hnsw_filtering", "hub_toolbox/approximate.py:SuQHR._hnsw_trafo"]}
{"id": "C134", "title": "SuQHR local scaling agrees with local_scaling", "statement": "Without sampling, SuQHR(hr_algorithm='LS') returns the same values as local_scaling for the distance matrix of training and test objects with the test objects held out.", "quantifier": "all training and test sets in which every object has a positive k-th neighbour distance, k, n_jobs and schedules", "why_tests_cant": "two independent implementations compared on all inputs", "anchors": ["hub_toolbox/approximate.py:SuQHR._transform_ls", "hub_toolbox/local_scaling.py:local_scaling"]}
{"id": "C135", "title": "Local Scaling and NICDM reject what they cannot handle", "statement": "Matrices which are not square raise TypeError, unknown metrics ValueError, NICDM of similarities and Local Scaling of sparse distances NotImplementedError; the sample variants reject missing, too long or too short index arrays and similarities.", "quantifier": "all matrices and all other arguments", "why_tests_cant": "all combinations of arguments", "anchors": ["hub_toolbox/local_scaling.py:local_scaling", "hub_toolbox/local_scaling.py:nicdm", "hub_toolbox/local_scaling.py:local_scaling_sample", "hub_toolbox/local_scaling.py:nicdm_sample"]}
{"id": "C136", "title": "SuQHR with LSH does not depend on the number of processes or on memory contents", "statement": "With sampling_algorithm='lsh' the neighbours and distances computed by fit and transform are a function of the data and the answers of the index only: found neighbours come with their true distances, missing ones are filled with the last index and the largest distance found, whatever n_jobs is.", "quantifier": "all data sets, answers of the index, contents of uninitialised memory and values of n_jobs", "why_tests_cant": "the contents of uninitialised memory differ from run to run and are often zero in tests", "anchors": ["hub_toolbox/approximate.py:SuQHR._lsh_filtering", "hub_toolbox/approximate.py:SuQHR._lsh_trafo", "hub_toolbox/approximate.py:_lsh_filt", "hub_toolbox/approximate.py:_lsh_trafo"]}
{"id": "C137", "title": "SuQHR Mutual Proximity with LSH is exact for exact answers", "statement": "If the LSH index answers range queries exactly, the secondary distance of each found neighbour is empirical Mutual Proximity with respect to all training objects, also with ties.", "quantifier": "all data sets and neighbours, both metrics", "why_tests_cant": "all inputs including ties; the behaviour of the index is a premise", "anchors": ["hub_toolbox/approximate.py:_mp_lsh", "hub_toolbox/approximate.py:SuQHR._transform_mp", "hub_toolbox/approximate.py:SuQHR._fit_mp"]}
{"id": "C138", "title": "The SuQHR constructor accepts exactly the valid arguments, and fit handles all of them", "statement": "Construction succeeds if and only if all arguments are valid, does not depend on upper and lower case in names of algorithms, and resolves n_jobs to a positive number; every instance that could be constructed has a branch in fit for its algorithm, sampling and metric.", "quantifier": "all combinations of arguments", "why_tests_cant": "the arguments include arbitrary strings and integers", "anchors": ["hub_toolbox/approximate.py:SuQHR.__init__", "hub_toolbox/approximate.py:SuQHR.fit"]}
{"id": "C139", "title": "SuQHR.predict treats test objects independently of each other", "statement": "The label predicted for a test object depends on its own secondary distances only, not on which other objects are in the batch.", "quantifier": "all matrices of secondary distances, labels, weights and batches", "why_tests_cant": "all batches, including non-finite and negative secondary distances", "anchors": ["hub_toolbox/approximate.py:SuQHR.predict", "hub_toolbox/approximate.py:enforce_finite_distances", "hub_toolbox/approximate.py:SuQHR._predict_knn"]}
{"id": "C140", "title": "SuQHR.predict uses knn__n_neighbors neighbours", "statement": "The predicted label is the one with most votes among the knn__n_neighbors (default 5) training objects with smallest secondary distances, weighted as requested, the smallest label on ties.", "quantifier": "all matrices of non-negative secondary distances, labels and numbers of neighbours", "why_tests_cant": "all inputs including ties", "anchors": ["hub_toolbox/approximate.py:SuQHR._predict_knn"]}
{"id": "C141", "title": "SuQHR with HNSW computes distances which grow from nearest to farthest neighbour", "statement": "The distances taken from the HNSW index are those of the metric requested, in ascending order if the index reports its neighbours nearest first.", "quantifier": "all answers of the index, both metrics", "why_tests_cant": "all answers of a library which is not part of the code", "anchors": ["hub_toolbox/approximate.py:SuQHR._hnsw_filtering", "hub_toolbox/approximate.py:SuQHR._hnsw_trafo"]}
{"id": "C142", "title": "The sparse matrix of SuQHR contains the secondary distances", "statement": "sec_dist_sparse_[i, x] is the secondary distance between test object i and training object x if x is among its neighbours, and no entry is stored otherwise.", "quantifier": "all tables of neighbours and secondary distances", "why_tests_cant": "all tables, including those with repeated neighbours", "anchors": ["hub_toolbox/approximate.py:SuQHR._sparse_distance_matrix", "hub_toolbox/approximate.py:SuQHR._hnsw_trafo"]}
{"id": "C143", "title": "cosine_distance is one minus the cosine of the angle", "statement": "cosine_distance(X)[i, j] is one minus the cosine of the angle between vectors i and j, between 0 and 2, zero on the diagonal, symmetric, and independent of the lengths of the vectors.", "quantifier": "all data sets", "why_tests_cant": "all vectors of all dimensions, including zero vectors", "anchors": ["hub_toolbox/distances.py:cosine_distance"]}
{"id": "C144", "title": "lp_norm is the Minkowski metric", "statement": "For p >= 1 lp_norm(X, Y, p) is the Minkowski distance of order p whichever implementation is selected, it satisfies all axioms of a metric, agrees with euclidean_distance for p = 2, and other p are rejected.", "quantifier": "all data sets and all real p", "why_tests_cant": "triangle inequality for all triples and all real p", "anchors": ["hub_toolbox/distances.py:lp_norm", "hub_toolbox/distances.py:euclidean_distance"]}
{"id": "C145", "title": "sample_distance returns distances to a sample of the requested size", "statement": "An integer sample_size is a number of objects, a fraction is a part of the data set, and column j of the result is the distance to the object in position j of the returned index.", "quantifier": "all data sets, samples and sample sizes", "why_tests_cant": "all samples drawn and all number types", "anchors": ["hub_toolbox/distances.py:sample_distance"]}
{"id": "C146", "title": "mp_dissim is the power mean of the data mass between the objects", "statement": "With p = 0 meaning p = 2, mp_dissim(X, Y)[x, y] is the power mean over features of the fraction of objects of Y whose bins are between those of x and y, where 'range' divides the range of a feature in bins of the same length and values outside belong to the first or last bin.", "quantifier": "all data sets, exponents, numbers and kinds of bins", "why_tests_cant": "all data sets including ties, values on edges and values outside of the range", "anchors": ["hub_toolbox/distances.py:mp_dissim", "hub_toolbox/distances.py:_mp_create_r_bins", "hub_toolbox/distances.py:_mp_estimate_r", "hub_toolbox/distances.py:_mp_calc_mp_dissim"]}
{"id": "C147", "title": "mp_dissim is consistent with the order of values", "statement": "Dissimilarities in one data set are symmetric, positive and at most one half, no object is closer to an object than itself, and an object which is between two others in every feature is not farther from the first than the other one.", "quantifier": "all data sets, exponents, numbers and kinds of bins", "why_tests_cant": "comparison of all pairs and triples of all data sets", "anchors": ["hub_toolbox/distances.py:mp_dissim"]}
{"id": "C148", "title": "mp_dissim accepts every number of bins up to the number of objects", "statement": "Both kinds of bins can be used with every n_bins between 1 and the number of objects of Y; all other numbers and unknown kinds of bins are rejected.", "quantifier": "all data sets, numbers and kinds of bins", "why_tests_cant": "all combinations of numbers of objects and bins", "anchors": ["hub_toolbox/distances.py:mp_dissim", "hub_toolbox/distances.py:_mp_calc_histograms", "hub_toolbox/distances.py:_mp_create_r_bins"]}
{"id": "C149", "title": "mp_dissim with bin_size='mass' uses bins of the same mass", "statement": "If values of a feature are distinct, each bin contains n_y // n_bins objects, and the last bin also the remaining one.", "quantifier": "all data sets and numbers of bins accepted", "why_tests_cant": "all data sets with distinct values", "anchors": ["hub_toolbox/distances.py:_mp_find_bin_edges", "hub_toolbox/distances.py:_mp_calc_histograms", "hub_toolbox/distances.py:mp_dissim"]}
{"id": "C150", "title": "mp_dissim does not depend on units of features", "statement": "With 'range' the result does not change under x -> a x + c with a > 0 in each feature, with 'mass' under any strictly increasing transformation of each feature.", "quantifier": "all data sets, parameters and transformations", "why_tests_cant": "all transformations of all data sets; holds for exact arithmetic", "anchors": ["hub_toolbox/distances.py:mp_dissim", "hub_toolbox/distances.py:_mp_calc_histograms_n_bins", "hub_toolbox/distances.py:_mp_calc_histograms"]}
{"id": "C151", "title": "The hubness analysis keeps complete books", "statement": "A call of analyze_hubness that returns appends exactly one experiment per requested method, in the requested order, to the experiments of earlier calls. Each has a hubness, an anti-hub and a largest-hub figure for exactly the requested hubness_k values, and a k-NN accuracy for exactly the requested knn_k values plus a Goodman-Kruskal index if and only if class labels were given. If it raises, the experiments before the failing one are kept and nothing else is added; unknown method names never succeed.", "quantifier": "all data sets, method lists, neighbourhood sizes, tie orders, random numbers and schedules", "why_tests_cant": "Lists of methods and neighbourhood sizes are unbounded, including repeated ones; a test tries a few lists.", "anchors": ["hub_toolbox/hubness_analysis.py:HubnessAnalysis.analyze_hubness", "hub_toolbox/hubness_analysis.py:HubnessExperiment"]}
{"id": "C152", "title": "The reported hubness figures describe true nearest neighbour lists", "statement": "For every experiment and requested k there are true k-nearest neighbour lists of the secondary distances (n-1 neighbours if k is larger) such that the reported hubness is the skewness of the occurrence counts, the anti-hub figure is the percentage of points in no list and the largest-hub figure is the percentage of lists containing the most frequent point.", "quantifier": "all data, methods, k, tie orders, random numbers", "why_tests_cant": "The figures are aggregates; a test with a known answer exercises one data set, and one order of ties.", "anchors": ["hub_toolbox/hubness_analysis.py:HubnessExperiment._calc_hubness"]}
{"id": "C153", "title": "Bounds of anti-hub and largest-hub percentages", "statement": "Whatever the data, the anti-hub percentage is between 0 and 100(1-k/n) and the largest-hub percentage between 100k/n and 100 (k capped at n-1); with finite secondary distances the bounds improve to 100(1-(k+1)/n) and 100(1-1/n).", "quantifier": "all data, methods and k", "why_tests_cant": "Bounds over all data sets cannot be sampled.", "anchors": ["hub_toolbox/hubness_analysis.py:HubnessExperiment._calc_hubness"]}
{"id": "C154", "title": "Accuracies and Goodman-Kruskal index of an experiment are what they claim", "statement": "Every reported accuracy lies in [0,1] and every index in [-1,1]; for finite secondary distances the accuracy is the fraction of points whose label is predicted by the vote of their true k nearest neighbours, and for symmetric secondary distances the index is the Goodman-Kruskal index of the definition.", "quantifier": "all labelled data, methods and k", "why_tests_cant": "Quantifies over all data sets and neighbourhood sizes.", "anchors": ["hub_toolbox/hubness_analysis.py:HubnessExperiment._calc_knn_accuracy", "hub_toolbox/hubness_analysis.py:HubnessExperiment._calc_gk_index"]}
{"id": "C155", "title": "analyze_hubness with its default arguments completes for any distance matrix", "statement": "Calling analyze_hubness() on an analysis of a valid distance matrix runs all default experiments.", "quantifier": "all distance matrices, labels, vectors", "why_tests_cant": "The failure depends on which optional inputs are present and on the size of the data; the test suite runs single methods only.", "anchors": ["hub_toolbox/hubness_analysis.py:HubnessAnalysis.analyze_hubness", "hub_toolbox/hubness_analysis.py:HubnessExperiment._calc_secondary_distance"]}
{"id": "C156", "title": "Similarity data are analysed as similarities by every method", "statement": "With metric='similarity' every experiment evaluates the neighbours which its method considers most similar.", "quantifier": "all data sets", "why_tests_cant": "Whether a list holds the nearest or the farthest points is invisible in aggregate figures of a single test.", "anchors": ["hub_toolbox/hubness_analysis.py:HubnessExperiment._calc_secondary_distance", "hub_toolbox/hubness_analysis.py:HubnessExperiment._calc_hubness"]}
{"id": "C157", "title": "Renumbering the points does not change the analysis", "statement": "Permuting rows and columns of a tie-free matrix changes neither hubness, anti-hub nor largest-hub figures of the original distances, for any random numbers and parallel schedules; the Goodman-Kruskal index of symmetric distances is invariant if the labels are permuted too.", "quantifier": "all tie-free matrices, permutations, environments", "why_tests_cant": "n! permutations and arbitrary random numbers.", "anchors": ["hub_toolbox/hubness_analysis.py:HubnessExperiment._calc_hubness", "hub_toolbox/hubness_analysis.py:HubnessExperiment._calc_gk_index"]}
{"id": "C158", "title": "matrix_split finds a split which fits into memory", "statement": "For a matrix that does not fit into memory, matrix_split returns a number of batches and of rows per batch such that the batches cover all rows, none is empty, and one batch fits nr_matrices times into the free memory.", "quantifier": "all contents of /proc/meminfo, matrix shapes, element sizes", "why_tests_cant": "The result depends on the memory of the machine; a test sees one machine.", "anchors": ["hub_toolbox/io.py:matrix_split"]}
{"id": "C159", "title": "FreeMemLinux reports the memory its attributes name", "statement": "user_free is free plus buffers plus cached memory, never more than the total, shared is the shared memory, buffers, cached, swap and swap_free are the amounts of these names, all in the chosen unit, for the layouts of /proc/meminfo of all kernels.", "quantifier": "all contents of /proc/meminfo in the layouts before and since Linux 3.14", "why_tests_cant": "A test sees the kernel it runs on only.", "anchors": ["hub_toolbox/io.py:FreeMemLinux", "hub_toolbox/io.py:FreeMemLinux.user_free", "hub_toolbox/io.py:FreeMemLinux.shared"]}
{"id": "C160", "title": "random_sparse_matrix returns a similarity matrix", "statement": "The result is symmetric, all values lie in [0, 1], the diagonal is all ones, and off the diagonal exactly the drawn cells with positive values and their mirror images are non-zero, whatever is drawn, unless every drawn value is exactly zero (in which case the stored entries are nan); size 0 is rejected.", "quantifier": "all sizes and random draws", "why_tests_cant": "Random; a test sees finitely many draws.", "anchors": ["hub_toolbox/io.py:random_sparse_matrix"]}
{"id": "C161", "title": "random_sparse_matrix has about twice the requested density", "statement": "The density of the result is about 2 * density.", "quantifier": "all sizes, densities and draws", "why_tests_cant": "The number of coinciding mirror images is random, and the parameter ranges over an interval.", "anchors": ["hub_toolbox/io.py:random_sparse_matrix"]}
{"id": "C162", "title": "csr matrices survive saving and loading", "statement": "load_csr_matrix(save_csr_matrix(file, S)) returns a matrix with the shape and the entries of S, for every file name, and no other file is changed.", "quantifier": "all csr matrices (including duplicate and superfluous entries), file names, contents of the directory", "why_tests_cant": "Quantifies over file names and former files; the test uses a single name which ends with .npz.", "anchors": ["hub_toolbox/io.py:save_csr_matrix", "hub_toolbox/io.py:load_csr_matrix"]}
{"id": "C163", "title": "The example data reader puts every value where the file says", "statement": "Line i of the data becomes row i of the vectors; the entry of a column is the last value given for it, zero if there is none; invalid columns are rejected.", "quantifier": "all data files, sizes and dimensions", "why_tests_cant": "The only test loads one fixed file.", "anchors": ["hub_toolbox/io.py:load_dexter"]}
{"id": "C164", "title": "Shape checks accept exactly matching arguments", "statement": "The checks of matrix against vectors, matrix against labels and sample matrix against index array succeed exactly for arguments of matching shapes; all failures are TypeErrors, except the ValueError for more samples than points.", "quantifier": "all objects passed as arguments", "why_tests_cant": "Quantifies over all shapes and kinds of objects.", "anchors": ["hub_toolbox/io.py:check_distance_matrix_shape_fits_vectors", "hub_toolbox/io.py:check_distance_matrix_shape_fits_labels", "hub_toolbox/io.py:check_vector_matrix_shape_fits_labels", "hub_toolbox/io.py:check_sample_shape_fits"]}
{"id": "C165", "title": "Local Scaling and NICDM do not depend on the numbering of the objects", "statement": "If the objects of a symmetric distance matrix are renumbered (and the held-out objects along with them), the secondary distances are renumbered in the same way, whatever the number of processes and the parallel schedules, provided that less than k other training objects have distance zero.", "quantifier": "all sizes, matrices, k, test sets, permutations", "why_tests_cant": "All permutations of all matrices.", "anchors": ["hub_toolbox/local_scaling.py:local_scaling", "hub_toolbox/local_scaling.py:nicdm"]}
{"id": "C166", "title": "Shared nearest neighbours and simhub do not depend on the numbering of the objects", "statement": "If rows have no ties, renumbering the objects renumbers the secondary similarities of shared_nearest_neighbors and simhubIN in the same way, whatever the number of processes.", "quantifier": "all sizes, tie-free matrices, k, permutations", "why_tests_cant": "All permutations of all matrices.", "anchors": ["hub_toolbox/shared_neighbors.py:shared_nearest_neighbors", "hub_toolbox/shared_neighbors.py:simhubIN"]}
{"id": "C167", "title": "DisSim depends on the pairwise distances only", "statement": "Two data sets with the same pairwise euclidean distances (moved, rotated, mirrored, embedded into a space of other dimension) have the same global and local DisSim matrices, with and without separate training vectors; for local DisSim if no object has ties among its distances.", "quantifier": "all data sets, dimensions, k, process numbers", "why_tests_cant": "All isometries of all data sets.", "anchors": ["hub_toolbox/centering.py:dis_sim_global", "hub_toolbox/centering.py:dis_sim_local"]}
{"id": "C168", "title": "Secondary distances leave hubness alone when there is nothing to correct", "statement": "If all objects have the same k-th neighbour distance (local_scaling), the same mean neighbour distance (nicdm), or the same mean and standard deviation (mutual_proximity_gaussi), hubness() of the secondary distances equals hubness() of the primary ones: neighbour lists, occurrences and skewness.", "quantifier": "all tie-free data with equal neighbourhoods, all k", "why_tests_cant": "Relates two functions on a continuum of data sets.", "anchors": ["hub_toolbox/local_scaling.py:local_scaling", "hub_toolbox/local_scaling.py:nicdm", "hub_toolbox/global_scaling.py:mutual_proximity_gaussi", "hub_toolbox/hubness.py:hubness"]}
{"id": "C169", "title": "k-NN accuracy depends on data and classes, not on their representation", "statement": "For data without ties, leave-one-out score() classifies the same objects correctly and returns the same accuracy for renumbered objects, renamed classes and row-wise order-preserving changes of the distances, whatever random numbers are drawn.", "quantifier": "all sizes, data, labels, renumberings, renamings, transformations", "why_tests_cant": "All permutations, renamings and transformations of all data sets.", "anchors": ["hub_toolbox/knn_classification.py:score"]}
{"id": "C170", "title": "Printing the results does not change an analysis", "statement": "analyze_hubness with print_results=True stores the same experiments and raises the same exception (or none) as with print_results=False.", "quantifier": "all data, labels, vectors, lists of methods, neighbourhood sizes", "why_tests_cant": "Compares two runs on all inputs; fails on data whose intrinsic dimension estimate is not finite, which no test uses.", "anchors": ["hub_toolbox/hubness_analysis.py:HubnessAnalysis.analyze_hubness", "hub_toolbox/hubness_analysis.py:HubnessAnalysis.print_analysis_report"]}
{"id": "C171", "title": "The printed report states the stored results", "statement": "An analysis which runs to the end prints a headline, one report per requested method in order, and a closing line. Each report names the method and the parameters used, states hubness, anti-hubs and largest hub for exactly the requested neighbourhood sizes in increasing order, accuracies in percent and the Goodman-Kruskal index if there are labels, and the intrinsic dimension rounded to a nearest integer.", "quantifier": "all data, lists of methods, neighbourhood sizes", "why_tests_cant": "Printed output is not tested; quantifies over all inputs.", "anchors": ["hub_toolbox/hubness_analysis.py:HubnessAnalysis.print_analysis_report"]}
{"id": "C172", "title": "Missing results are named in the report", "statement": "The printed report says so if k-NN accuracies, Goodman-Kruskal index, embedding dimension or intrinsic dimension are missing, and only then.", "quantifier": "all data with and without labels and vectors", "why_tests_cant": "Quantifies over all analyses; output is not tested.", "anchors": ["hub_toolbox/hubness_analysis.py:HubnessAnalysis.print_analysis_report"]}
{"id": "C173", "title": "The report can be printed again", "statement": "After a printing analysis of a new object, print_analysis_report prints the same lines again (without the closing line). The report of an unused object is a headline, and an unused object cannot report on an experiment.", "quantifier": "all data, lists of methods, neighbourhood sizes", "why_tests_cant": "Relates two outputs for all inputs.", "anchors": ["hub_toolbox/hubness_analysis.py:HubnessAnalysis.print_analysis_report"]}
{"id": "C174", "title": "Fitting again forgets the past", "statement": "After a successful fit, transform and predict give what a new estimator with the same arguments, fitted to the same data, gives; earlier calls of fit, transform and predict (successful or not) and later queries do not matter.", "quantifier": "all sequences of method calls, data, labels, algorithms, samplings, with a fixed random state", "why_tests_cant": "Quantifies over all call sequences; attributes of other algorithms survive in the object.", "anchors": ["hub_toolbox/approximate.py:SuQHR.fit", "hub_toolbox/approximate.py:SuQHR.transform", "hub_toolbox/approximate.py:SuQHR.predict"]}
{"id": "C175", "title": "A failing fit leaves a fitted estimator usable", "statement": "If fit raises, transform still gives the results of the last successful fit.", "quantifier": "all data, labels, algorithms, samplings", "why_tests_cant": "Needs a failing call between two successful ones.", "anchors": ["hub_toolbox/approximate.py:SuQHR.fit", "hub_toolbox/approximate.py:SuQHR._sparse_distance_matrix"]}
{"id": "C176", "title": "Methods do not change constructor arguments", "statement": "fit, transform and predict leave the parameters of the estimator as they were given, so that it can be fitted again or with one parameter changed like a new one.", "quantifier": "all sequences of method calls, data, algorithms, samplings", "why_tests_cant": "A convention of scikit-learn about all call sequences.", "anchors": ["hub_toolbox/approximate.py:SuQHR._fit_mp", "hub_toolbox/approximate.py:SuQHR._fit_mpg"]}
{"id": "C177", "title": "predict leaves sec_dist_ as transform computed it", "statement": "After predict, sec_dist_ contains the secondary distances which transform returns for the same data, and sec_dist_sparse_ the same values.", "quantifier": "all fitted estimators and test data", "why_tests_cant": "Depends on aliasing of an array modified in place, visible only for negative or infinite secondary distances.", "anchors": ["hub_toolbox/approximate.py:SuQHR.predict", "hub_toolbox/approximate.py:enforce_finite_distances"]}
{"id": "C178", "title": "SuQHR with Mutual Proximity is a nearest neighbour classifier", "statement": "After fit with labels, predict returns for each test object the (weighted) majority label of the knn__n_neighbors vantage points which are nearest in Mutual Proximity distance with respect to the vantage points.", "quantifier": "all data, labels, test objects, fixed samplings, known metrics, numbers of neighbours not exceeding the vantage points", "why_tests_cant": "Composes sampling, label selection, transformation, repair of distances and voting for all inputs.", "anchors": ["hub_toolbox/approximate.py:SuQHR.fit", "hub_toolbox/approximate.py:SuQHR.predict", "hub_toolbox/approximate.py:SuQHR._predict_knn"]}
{"id": "C179", "title": "fit rejects labels which do not match the data", "statement": "fit raises if the number of labels differs from the number of objects.", "quantifier": "all data, label vectors, algorithms, samplings", "why_tests_cant": "Wrong input is accepted silently, so that nothing fails in a test of the happy path.", "anchors": ["hub_toolbox/approximate.py:SuQHR.fit", "hub_toolbox/approximate.py:SuQHR._kmeanspp_sampling"]}
{"id": "C180", "title": "Queries without fit or labels raise", "statement": "transform and predict of a new estimator raise ValueError and change nothing; predict after fit without labels never returns labels.", "quantifier": "all parameters, data and test data", "why_tests_cant": "Quantifies over all configurations.", "anchors": ["hub_toolbox/approximate.py:SuQHR.transform", "hub_toolbox/approximate.py:SuQHR.predict", "hub_toolbox/approximate.py:SuQHR._predict_knn"]}
{"id": "C181", "title": "transform treats test objects independently of each other", "statement": "If transform succeeds, transforming one of the test objects alone succeeds and gives its row of the result: the same neighbours and secondary distances.", "quantifier": "all fitted estimators and test data", "why_tests_cant": "Compares calls on all batches; fails only for uninitialised memory.", "anchors": ["hub_toolbox/approximate.py:SuQHR.transform", "hub_toolbox/approximate.py:SuQHR._lsh_trafo", "hub_toolbox/approximate.py:SuQHR._hnsw_trafo"]}
{"id": "C182", "title": "Empirical Mutual Proximity is reliable in floating point", "statement": "With rounded arithmetic, too, the matrix is exactly symmetric, free of nan, within [0, 1] with the right self values, and two pairs of objects compare exactly as their Mutual Proximities do: rounding neither creates ties nor exchanges pairs (fewer than 2^21 objects for float32 matrices, 2^50 for float64).", "quantifier": "all symmetric matrices, both metrics, all IEEE formats of computation and storage", "why_tests_cant": "Quantifies over all matrices and sizes; rounding errors show only for particular counts.", "anchors": ["hub_toolbox/global_scaling.py:_mutual_proximity_empiric_full", "hub_toolbox/global_scaling.py:mutual_proximity_empiric"]}
{"id": "C183", "title": "Shared nearest neighbours is reliable in floating point", "statement": "With rounded arithmetic, too, the matrix is exactly symmetric, within [0, 1] with the right self values, and two pairs of objects compare exactly as their numbers of common neighbours do.", "quantifier": "all matrices with finite values between different objects, both metrics, all neighbourhood sizes below 2^21, numbers of processes, IEEE formats", "why_tests_cant": "Quantifies over all matrices and sizes; rounding errors show only for particular counts.", "anchors": ["hub_toolbox/shared_neighbors.py:shared_nearest_neighbors"]}
{"id": "C184", "title": "Local Scaling yields numbers in floating point", "statement": "Local Scaling of finite positive distances returns a symmetric matrix with zero diagonal and numbers from zero to one.", "quantifier": "all matrices, neighbourhood sizes, held-out points, numbers of processes, IEEE formats, any exp with the range of exp", "why_tests_cant": "The arithmetic fails only for distances whose squares leave the range of floats.", "anchors": ["hub_toolbox/local_scaling.py:local_scaling"]}
{"id": "C185", "title": "NICDM yields numbers in floating point", "statement": "NICDM of finite positive distances returns a symmetric matrix with zero diagonal and non-negative finite numbers.", "quantifier": "all matrices, neighbourhood sizes, held-out points, numbers of processes, IEEE formats, any exp, log, sqrt with the right range, any order of summation", "why_tests_cant": "The arithmetic fails only for distances whose products leave the range of floats.", "anchors": ["hub_toolbox/local_scaling.py:nicdm"]}
{"id": "C186", "title": "The Goodman-Kruskal index in floating point stays in [-1, 1] and is the correctly rounded exact index", "statement": "Computed with float64 accumulators and int64 pair counts, goodman_kruskal_index returns a finite number in [-1, 1] for every matrix of up to 100000 objects, including matrices with nan or infinite entries. No pair count overflows. For up to 19000 objects and a symmetric matrix without nan the returned value is the float nearest to the exact index, so the order in which classes are visited has no influence.", "quantifier": "for every IEEE format with large enough exponent range, every n up to the stated bounds, every matrix, every labelling and both metrics", "why_tests_cant": "Overflow of the pair counts and rounding of the accumulators only show up at sizes of tens of thousands of objects, and correct rounding is a statement about all data sets.", "anchors": ["hub_toolbox/goodman_kruskal.py:70-137"]}
{"id": "C187", "title": "Parametric Mutual Proximity in floating point: symmetric, probabilities, no nan for moderate distances", "statement": "With every operation rounded, sums added in any order and library functions of any accuracy, mutual_proximity_gaussi and mutual_proximity_gammai return symmetric matrices with the self value on the diagonal, and every other entry is nan or a number in [0, 1], for any input matrix. If all distances are at most 2^484 in absolute value (float64) and every object has another training object, mutual_proximity_gaussi returns no nan at all.", "quantifier": "for every rounding, every order of summation, every matrix (including nan and infinities), both metrics and every test set; for the absence of nan every IEEE format with the stated bound", "why_tests_cant": "Tests compare a few well-behaved matrices up to a tolerance; rounding could push a probability above one or an overflow could produce nan only for special data.", "anchors": ["hub_toolbox/global_scaling.py:617-673", "hub_toolbox/global_scaling.py:818-849", "hub_toolbox/global_scaling.py:927-950"]}
{"id": "C188", "title": "Mutual Proximity (Gaussi) of equidistant data does not depend on the distance", "statement": "If all distances of a data set are equal, the secondary distances returned by mutual_proximity_gaussi do not depend on the unit of the distances: every object is at the mean of every other object. In float64 this is false: for four objects at mutual distance 0.5 all secondary distances are 0.75, at mutual distance 0.1 they are at most 0.5, since the rounding error of the mean exceeds the computed standard deviation and the guard against zero deviations has no effect.", "quantifier": "for every n, every common distance, every order of summation", "why_tests_cant": "Whether the mean of equal numbers is exact depends on the digits of the number and on n; a test with one convenient distance passes.", "anchors": ["hub_toolbox/global_scaling.py:625-636", "hub_toolbox/global_scaling.py:656-664"]}
{"id": "C189", "title": "DisSim Local in floating point: the matrix is symmetric", "statement": "dis_sim_local(X) returns a matrix M with M[i, j] == M[j, i] when all operations are rounded to floats. (The code violates this: the two centroid distances are subtracted in different order. What holds: the two entries differ by at most 192 * 2^-53 * m * c^2 in float64, m being the number of features and c the power of two bounding all coordinates, in whatever order the libraries add.)", "quantifier": "for every IEEE format, every data set of floats far enough from overflow, every neighbourhood size, every order of summation and every admissible argpartition", "why_tests_cant": "Whether two roundings agree depends on the last digits of particular data; a bound on the disagreement is a statement about all data sets.", "anchors": ["hub_toolbox/centering.py:345-449"]}
{"id": "C190", "title": "DisSim Local in floating point: translation of the data has no effect", "statement": "Adding the same vector to all data, exactly, does not change dis_sim_local(X). (The code violates this: squared distances are computed from inner products and cancel. What holds: for integer data with few enough digits and k a power of two the computed matrix is exactly the mathematical one, hence invariant.)", "quantifier": "for every IEEE format, every integer data set within the stated bound, every translation, every order of summation and every admissible argpartition; counterexample in float64 for every library", "why_tests_cant": "Tests use centred random data, where cancellation is invisible; exactness is claimed for all data sets in a range.", "anchors": ["hub_toolbox/centering.py:345-449"]}
{"id": "C191", "title": "Parallel results do not depend on how worker processes are started", "statement": "With n_jobs > 1, hubness, local_scaling, nicdm, shared_nearest_neighbors, dis_sim_local and sparse mutual_proximity_empiric return what a single process returns, whether multiprocessing forks its workers (Linux) or spawns them (Windows, macOS, forkserver).", "quantifier": "every matrix, schedule, number of workers and start method", "why_tests_cant": "tests run on one platform; the result arrays are handed to the workers as numpy arrays, which spawned processes receive as copies", "anchors": ["hub_toolbox/hubness.py:61-65", "hub_toolbox/hubness.py:205-217", "hub_toolbox/local_scaling.py:146-155", "hub_toolbox/local_scaling.py:263-303", "hub_toolbox/local_scaling.py:496-515", "hub_toolbox/shared_neighbors.py:176-181", "hub_toolbox/shared_neighbors.py:259-273", "hub_toolbox/centering.py:333-338", "hub_toolbox/centering.py:403-411", "hub_toolbox/global_scaling.py:306-310", "hub_toolbox/global_scaling.py:370-382"]}
{"id": "C192", "title": "Standardising features for intrinsic_dimension does what it says", "statement": "With trafo='std' ('var') the estimate is that of the data with every feature centred and divided by its standard deviation (variance) plus 1e-7, so features which are the same for all objects do not matter.", "quantifier": "all data sets, all parameters", "why_tests_cant": "equality for all data sets; tests only compare a few numbers", "anchors": ["hub_toolbox/intrinsic_dimension.py:92-102"]}
{"id": "C193", "title": "Duplicate vectors do not influence intrinsic_dimension", "statement": "Giving a vector twice does not change the estimate ('New array with unique rows'), and the estimate does not depend on the unit of the data.", "quantifier": "every data set with duplicates", "why_tests_cant": "needs all data sets; sample data of the tests have no duplicates", "anchors": ["hub_toolbox/intrinsic_dimension.py:88-90", "hub_toolbox/intrinsic_dimension.py:107-119"]}
{"id": "C194", "title": "k-nearest-neighbour accuracies in floating point", "statement": "In floating point, the accuracy returned by score is the fraction of objects which are classified correctly, up to rounding: it is never negative, never exceeds one, equals one exactly if all objects are classified correctly, and orders classifications by the number of correct objects.", "quantifier": "every matrix, labels, neighbourhood sizes, test set and random choice; every IEEE format; up to 2^p/16 objects", "why_tests_cant": "the error depends on the number of objects in an irregular way; tests use few of them and compare with tolerance", "anchors": ["hub_toolbox/knn_classification.py:140", "hub_toolbox/knn_classification.py:235-246"]}
{"id": "C195", "title": "Sparse Gumbel Mutual Proximity is a valid secondary similarity", "statement": "_mutual_proximity_gumbel_sparse of a symmetric sparse similarity matrix is finite, symmetric, has unit diagonal, entries in (0,1) for values present and zero for missing ones, and is the Mutual Proximity of the Gumbel distributions with mean and standard deviation of the values present.", "quantifier": "every symmetric sparse matrix with unit diagonal", "why_tests_cant": "formula over all sparsity patterns; the function has no test at all", "anchors": ["hub_toolbox/global_scaling.py:952-954", "hub_toolbox/global_scaling.py:956-1029"]}
{"id": "C196", "title": "Arguments stay unchanged", "statement": "After hubness, score, mutual_proximity_empiric, mutual_proximity_gaussi and mutual_proximity_gammai (dense), local_scaling, nicdm, shared_nearest_neighbors, simhub without labels, their sample variants, and dis_sim_local, every array that existed before the call holds the same numbers as before, including the arguments and arrays that share memory with them; also if the call raises, and if worker processes are used.", "quantifier": "every memory, every layout of the arguments (views, transposed, overlapping), every matrix, sparse or dense, every parameter and schedule", "why_tests_cant": "in-place operations on views of a copy look the same as in-place operations on the argument; a test would have to compare all memory for every branch", "anchors": ["hub_toolbox/hubness.py:67-92", "hub_toolbox/hubness.py:186-228", "hub_toolbox/hubness.py:254-302", "hub_toolbox/knn_classification.py:100-215", "hub_toolbox/global_scaling.py:158-192", "hub_toolbox/global_scaling.py:271-299", "hub_toolbox/global_scaling.py:479-522", "hub_toolbox/global_scaling.py:610-668", "hub_toolbox/global_scaling.py:805-865", "hub_toolbox/local_scaling.py:90-138", "hub_toolbox/local_scaling.py:246-311", "hub_toolbox/local_scaling.py:365-400", "hub_toolbox/local_scaling.py:485-528", "hub_toolbox/shared_neighbors.py:107-168", "hub_toolbox/shared_neighbors.py:242-295", "hub_toolbox/shared_neighbors.py:544-636", "hub_toolbox/centering.py:379-449"]}
{"id": "C197", "title": "In-place operations through views do no harm", "statement": "hubness, score, predict, mutual_proximity_empiric, mutual_proximity_gaussi and mutual_proximity_gammai (dense; the latter two for finite distances), local_scaling, nicdm, shared_nearest_neighbors, simhub without labels, their sample variants, and dis_sim_local (finite data), which overwrite rows, columns and shared arrays while they run, return or raise what the same code returns on immutable values: the numbers used are those of the arguments at the time of the call.", "quantifier": "every memory, layout of the arguments (predict: no two entries of the matrix in the same place), matrix, parameter (nicdm_sample: k at most the sample size; simhub: 0 < s < number of columns); for hubness also every history of tasks of the worker processes", "why_tests_cant": "an overwritten row that is read again later gives a wrong result only for particular data (negative distances, aliased arguments), and the same worker process handles several rows", "anchors": ["hub_toolbox/hubness.py:67-92", "hub_toolbox/hubness.py:186-228", "hub_toolbox/hubness.py:254-302", "hub_toolbox/knn_classification.py:100-215", "hub_toolbox/knn_classification.py:325-420", "hub_toolbox/global_scaling.py:158-192", "hub_toolbox/global_scaling.py:271-299", "hub_toolbox/global_scaling.py:479-522", "hub_toolbox/global_scaling.py:610-668", "hub_toolbox/local_scaling.py:90-138", "hub_toolbox/local_scaling.py:246-311", "hub_toolbox/local_scaling.py:365-400", "hub_toolbox/local_scaling.py:485-528", "hub_toolbox/shared_neighbors.py:107-168", "hub_toolbox/shared_neighbors.py:242-295", "hub_toolbox/shared_neighbors.py:544-636", "hub_toolbox/global_scaling.py:805-865", "hub_toolbox/global_scaling.py:927-945", "hub_toolbox/centering.py:379-449"]}
{"id": "C198", "title": "predict leaves its distance matrix unchanged", "statement": "After predict(D, ...), the matrix D of the caller holds the same numbers as before the call.", "quantifier": "every matrix, dense or sparse, with test set or sample indices", "why_tests_cant": "only dense matrices are copied; with a sparse matrix and sample_idx the self distances of the caller's matrix are overwritten, which later calls then use", "anchors": ["hub_toolbox/knn_classification.py:325-420"]}
{"id": "C199", "title": "A fitted SuQHR does not depend on later changes of the training array", "statement": "transform returns distances to the training vectors as they were when fit was called, whatever the caller does with the training array afterwards.", "quantifier": "every training and test data, every later change of the caller's arrays, every sampling, metric", "why_tests_cant": "check_array returns float32 arrays without a copy, and the estimator keeps a reference; tests do not modify their training data between fit and transform", "anchors": ["hub_toolbox/approximate.py:1393-1440", "hub_toolbox/approximate.py:792-859", "hub_toolbox/approximate.py:541-600"]}
{"id": "C200", "title": "Element type of the matrix does not change results", "statement": "mutual_proximity_empiric, local_scaling, shared_nearest_neighbors and hubness (single process) on a square matrix of integers or of truth values yield what they yield for the same numbers as floats, or raise; they never return values changed by a conversion.", "quantifier": "all square matrices with integer or boolean element type, both metrics, all k", "why_tests_cant": "Tests use float matrices. The element type is inherited by np.copy and np.zeros_like, so the stored self distance inf and the results are converted; that booleans convert silently for every matrix needs an argument about all inputs.", "anchors": ["hub_toolbox/global_scaling.py:271-299", "hub_toolbox/local_scaling.py:244-311", "hub_toolbox/shared_neighbors.py:242-295", "hub_toolbox/hubness.py:230-302"]}
{"id": "C201", "title": "Mutual Proximity leaves no hubs at a given radius", "statement": "In the matrix returned by mutual_proximity_empiric for a symmetric n x n distance matrix, the value of two different objects lies between (the larger of the two mutual neighbour ranks + 1)/n and (the sum of the ranks)/n. Therefore no object is within distance t/n of more than t-1 others, for every t. For similarities the same holds with 1 - t/n when the similarities of the object to the others differ.", "quantifier": "all symmetric distance matrices without nan, all objects, all t; similarity matrices with finite entries and distinct similarities of the object", "why_tests_cant": "The hub reduction is the purpose of the function, but tests only compare hubness numbers of one data set before and after. The bound on how many objects can be near to a given one is a statement about all data sets and all radii.", "anchors": ["hub_toolbox/global_scaling.py:271-299"]}
{"id": "C202", "title": "Mutual nearest neighbours stay nearest neighbours under Mutual Proximity", "statement": "If two objects are the only nearest neighbours of each other in a symmetric distance matrix, then mutual_proximity_empiric gives them the distance 2/n, which is smaller than their distance to any third object, and hubness() of the secondary distances lists each of them among the neighbours of the other, so neither is an anti-hub, for every k.", "quantifier": "all symmetric distance matrices, all pairs of mutual nearest neighbours, all k >= 1, any number of jobs, any tie breaking", "why_tests_cant": "Needs the counting argument for every matrix and the guarantee of the neighbour search for every tie breaking; a test sees single matrices.", "anchors": ["hub_toolbox/global_scaling.py:271-299", "hub_toolbox/hubness.py:94-302"]}
{"id": "C203", "title": "Range of the hubness value", "statement": "The hubness S_k returned by hubness() for a matrix with m >= 2 columns lies in [-(m-2)/sqrt(m-1), (m-2)/sqrt(m-1)], whatever k is, and for every m there are data which attain the upper bound.", "quantifier": "all matrices with at least two columns, all k, both metrics", "why_tests_cant": "An inequality between moments of the k-occurrence for all data sets; tests check single values. It tells users that values for data sets of different size are not on one scale.", "anchors": ["hub_toolbox/hubness.py:94-302"]}
{"id": "C204", "title": "Secondary distances satisfy the triangle inequality", "statement": "If the primary distances are a metric, so that going by way of a third object is never shorter, the secondary distances returned by shared_nearest_neighbors, simhub, mutual_proximity_empiric, local_scaling and nicdm satisfy the triangle inequality as well, so that they may be used by methods which rely on it (ball trees, pruning).", "quantifier": "all metrics on finitely many objects, all parameters", "why_tests_cant": "A universally quantified inequality over triples of objects and all data sets. Random data rarely violate it for the methods which fail, and no number of samples shows it for those where it holds.", "anchors": ["hub_toolbox/shared_neighbors.py:199-300", "hub_toolbox/shared_neighbors.py:337-645", "hub_toolbox/global_scaling.py:194-299", "hub_toolbox/local_scaling.py:174-311", "hub_toolbox/local_scaling.py:431-527"]}
{"id": "C205", "title": "The statistics of the Hubness class bound each other", "statement": "After fit_transform, antihub occurrence <= Robin Hood index <= Gini index <= 1 - k/(m * groupie ratio), where m is the number of training objects, and groupie ratio / k <= Robin Hood index + 1/m. Gini and Robin Hood index are zero exactly if all objects occur equally often.", "quantifier": "all data sets, all k, both metrics, all parameters, dense and sparse", "why_tests_cant": "The statistics are computed by separate functions; the relations between them hold for all k-occurrence vectors or not at all. Tests compare single values.", "anchors": ["hub_toolbox/hubness.py:612-743"]}
{"id": "C206", "title": "R-precision returns the given labels as y_true", "statement": "In the dictionary returned by r_precision, 'y_true' are the target labels (as the documentation says, and in the coding of 'y_pred', so that the two can be compared), and 'relevant_items' has one entry per class, the number of other objects of that class.", "quantifier": "every sparse similarity matrix and labelling by integers", "why_tests_cant": "The labels are encoded, used as indices, and only some results are decoded again. Tests check macro and weighted precision, which do not depend on the coding.", "anchors": ["hub_toolbox/knn_classification.py:528-644"]}
{"id": "C207", "title": "filter_self=False keeps the most similar object", "statement": "With filter_self=False, score on a sparse similarity matrix uses the most similar stored objects including the first one, as for a matrix without stored self similarities; with filter_self=True the highest similarity of each row is left out; dense matrices are always filtered.", "quantifier": "every sparse similarity matrix with finite values and a strictly largest value per row, every dense matrix, all sorting and random choices", "why_tests_cant": "The parameter changes the results only if the most and second most similar objects differ in class; the tests never set it.", "anchors": ["hub_toolbox/knn_classification.py:25-75", "hub_toolbox/knn_classification.py:187-202"]}
{"id": "C208", "title": "Cosine distances in floating point are symmetric, nonnegative, at most two, and zero for equal vectors", "statement": "cosine_distance computed in floating point returns a symmetric matrix with zero diagonal and no negative entries; equal vectors have distance zero and no distance exceeds two.", "quantifier": "every data matrix, every rounding that is monotone and keeps zero and one, every way of computing sums, roots and inner products", "why_tests_cant": "Rounding errors show only for some vectors; whether the clipping of negative values removes all traces of rounding cannot be seen from samples.", "anchors": ["hub_toolbox/distances.py:28-37"]}
{"id": "C209", "title": "Accuracy of cosine_distance in double precision", "statement": "In double precision, the entries of cosine_distance differ from one minus the cosine of the angle between the vectors by at most 4(d+2)2^-53, d the number of features; in particular vectors of the same direction are at most that far from each other, and no distance exceeds two by more than that.", "quantifier": "every number of objects, up to 2^46 features, coordinates which are zero or between 2^-200 and 2^200 in magnitude, no zero vector, sums in any order, inner products with or without fused operations", "why_tests_cant": "An error bound over all inputs and all orders of summation is not a statement about samples; BLAS chooses the order.", "anchors": ["hub_toolbox/distances.py:28-37"]}
{"id": "C210", "title": "Accuracy of Local Scaling in double precision", "statement": "In double precision, every value of local_scaling differs from the value of the formula 1-exp(-d^2/(r_i r_j)) by at most 2^-50; expressing the distances in another unit changes the values by at most 2^-49.", "quantifier": "every symmetric distance matrix with distances which are zero or between 2^-200 and 2^200 and positive radii, every n, k, test set and number of processes, every exponential function with absolute error of at most 2^-52", "why_tests_cant": "A uniform error bound over all matrices cannot be tested.", "anchors": ["hub_toolbox/local_scaling.py:174-311"]}
{"id": "C211", "title": "Local Scaling does not depend on powers of two in the unit", "statement": "Multiplying all values by a power of two changes nothing in the result of local_scaling, not even the last bit, and leaves errors as they are.", "quantifier": "every matrix of distances or similarities (finite values with squares in the normal range in both units, infinities, nan), single and double precision, every approximation of the exponential function, every k, test set and number of processes", "why_tests_cant": "Bitwise equality over all inputs; a different order of the operations would break it only for some of them.", "anchors": ["hub_toolbox/local_scaling.py:174-311"]}
{"id": "C212", "title": "SuQHR Gaussian Mutual Proximity with an index uses the moments of the neighbour lists", "statement": "If the index answers with as many neighbours as requested, nearest first, ind_test_ is its answer and the secondary distance of a neighbour is one minus the product of the survival functions of two normal distributions: one with mean and standard deviation of the k neighbour distances of the test object, one with those of the training object's own neighbour list without its first entry.", "quantifier": "all answers of the index with the requested length and all k", "why_tests_cant": "all data sets and indices", "anchors": ["hub_toolbox/approximate.py:603-677", "hub_toolbox/approximate.py:1014-1102"]}
{"id": "C213", "title": "Hubness is accurate in double precision", "statement": "For square matrices the hubness value computed in double precision equals the skewness of the k-occurrence up to a factor between 1-2^-50 and 1+2^-50, independently of the number of objects; zero and the sign are exact, and the order of the objects or of additions does not matter, not even for the last bit.", "quantifier": "all square matrices with n^3 (k+1) <= 2^52 (e.g. 50000 objects and k=10), all ties, random numbers, numbers of processes, every order of additions and every power function with an error of at most two units", "why_tests_cant": "rounding errors could accumulate with the number of objects for some inputs; all inputs and orders of summation", "anchors": ["hub_toolbox/hubness.py:222", "hub_toolbox/hubness.py:297", "hub_toolbox/hubness.py:94-302"]}
{"id": "C214", "title": "NICDM is accurate to n*2^-42 in double precision", "statement": "For up to 2^40 points with symmetric distances that are float64 numbers between 2^-200 and 2^200, nicdm returns for every pair of different points a float whose relative error with respect to g*d/sqrt(r_i*r_j) (computed in exact arithmetic with the mean distances r to any k nearest other training points and their geometric mean g) is at most n*2^-42, in whatever order sums are added and with any number of jobs. Hence pairs whose exact secondary distances differ by more than a factor 1+n*2^-40 are ranked correctly, and converting all distances to another unit converts the result up to a relative error of n*2^-40.", "quantifier": "all matrices of such distances, all k, all test sets, all orders of summation and schedules, all numpy functions with the stated accuracy", "why_tests_cant": "The sums of logarithms cancel, and the accumulated error depends on n, on the order of summation and on the unit of the distances; tests compare a few values with a tolerance which itself is a guess.", "anchors": ["hub_toolbox/local_scaling.py:431-531"]}
{"id": "C215", "title": "Increasing one distance does not decrease its secondary distance", "statement": "If two objects a, b move apart while all other distances stay the same (symmetric matrices), the secondary distance of a and b does not decrease: for mutual_proximity_empiric and mutual_proximity_gaussi (distances as well as similarities, with test sets), local_scaling and nicdm with nonnegative distances and positive radii, although counts, means, standard deviations, radii and the geometric mean change at the same time. The same is expected of mutual_proximity_gammai, shared_nearest_neighbors and simhub.", "quantifier": "all symmetric matrices, all pairs, all larger values, all k, all test sets, all numbers of jobs and schedules", "why_tests_cant": "Every statistic of the two objects contains the changed distance, so the effect is not a fixed formula of the distance; tests would have to search matrices, pairs and increments.", "anchors": ["hub_toolbox/global_scaling.py:28-300", "hub_toolbox/global_scaling.py:524-700", "hub_toolbox/local_scaling.py:174-311", "hub_toolbox/local_scaling.py:431-530", "hub_toolbox/shared_neighbors.py:199-301"]}
{"id": "C216", "title": "The secondary distance of two objects depends on their own distances only", "statement": "If two symmetric matrices agree on all distances of the objects a and b, then the secondary distance of a and b is the same for both: mutual_proximity_empiric, mutual_proximity_gaussi, mutual_proximity_gammai, local_scaling and shared_nearest_neighbors (without ties in the two rows). With nicdm all such pairs are scaled by one common positive factor, so that their order is the same. The same is expected of simhub.", "quantifier": "all pairs of symmetric matrices that agree on two rows, all k, all test sets, all numbers of jobs and schedules", "why_tests_cant": "A hidden dependence on other rows (shared buffers, global statistics) shows only for special changes of the other rows; there are infinitely many.", "anchors": ["hub_toolbox/global_scaling.py:28-300", "hub_toolbox/global_scaling.py:524-920", "hub_toolbox/local_scaling.py:174-311", "hub_toolbox/local_scaling.py:431-530", "hub_toolbox/shared_neighbors.py:199-301", "hub_toolbox/shared_neighbors.py:318-520"]}
{"id": "C217", "title": "Adding one object changes results for the others little", "statement": "If one object is added to n objects (or left out of n+1), then for the others the empirical Mutual Proximity changes by at most 1/(n+1), the shared nearest neighbour similarity (without ties) by at most 1/k, the k-occurrence (without ties, k < n) rises by at most one, and the Local Scaling distance does not decrease (positive radii).", "quantifier": "all symmetric matrices of n+1 objects (any matrices for hubness and shared neighbours), every left out object, all pairs of others, all k < n", "why_tests_cant": "Relates results for data sets of different size; leave-one-out experiments sample few data sets and few objects.", "anchors": ["hub_toolbox/global_scaling.py:28-300", "hub_toolbox/local_scaling.py:174-311", "hub_toolbox/shared_neighbors.py:199-301", "hub_toolbox/hubness.py:94-228"]}
{"id": "C218", "title": "Neighbour lists for k are initial segments of those for larger k", "statement": "Without ties the list of the k nearest neighbours returned by hubness for an object is an initial segment of the list for any larger k, whatever shuffling, schedule or number of jobs are used; hence every k-occurrence is non-decreasing in k, the number of shared neighbours (k times the similarity of shared_nearest_neighbors) is non-decreasing in k, and Local Scaling distances are non-increasing in k.", "quantifier": "all matrices without ties within a row, all k <= k', all metrics, schedules and orders chosen by the partial sort (Local Scaling: with ties as well)", "why_tests_cant": "Partial sorting is run anew with another pivot for each k, and its result beyond the guaranteed partition is unspecified; tests compare single pairs of k.", "anchors": ["hub_toolbox/hubness.py:94-300", "hub_toolbox/local_scaling.py:174-311", "hub_toolbox/shared_neighbors.py:199-301"]}
{"id": "C219", "title": "Copies of one object do not spoil the secondary distances of the others", "statement": "If some object has k or more copies (other training objects at distance zero), local_scaling and nicdm still give the correct finite secondary distance for every pair of objects which have fewer than k copies.", "quantifier": "all symmetric matrices of finite nonnegative distances, all k for which every object has k other training objects, all test_ind, n_jobs, schedules and partial sorts", "why_tests_cant": "the behaviour of the whole matrix depends on a zero in one row; tests use data without copies, and the zeros which NICDM returns are not flagged by any check", "anchors": ["hub_toolbox/local_scaling.py:194-299", "hub_toolbox/local_scaling.py:432-531"]}
{"id": "C220", "title": "Gaussian Mutual Proximity is the probability it is defined by", "statement": "mutual_proximity_gaussi with dense input returns, for any two different objects, one minus the probability that two independent normal variables, which have the mean and variance of the distances of either object to the other training objects, both exceed the distance of the two objects (for similarities: the probability that both are at most their similarity). All these values are strictly between zero and one.", "quantifier": "all symmetric matrices in which the values of each object to the other training objects are not all the same, all test_ind", "why_tests_cant": "a statement about measures on the plane; tests can only compare single values with single values", "anchors": ["hub_toolbox/global_scaling.py:524-673"]}
{"id": "C221", "title": "Gamma Mutual Proximity is the probability it is defined by", "statement": "mutual_proximity_gammai with dense input returns, for any two different objects, one minus the probability that two independent Gamma variables, which have the mean and unbiased variance of the distances of either object to the other training objects, both exceed the distance of the two objects (for similarities: the probability that both are at most their similarity). The values are below one, and zero exactly if the distance is not positive.", "quantifier": "all symmetric matrices in which the values of each object to at least two other training objects have positive mean and are not all the same, all test_ind", "why_tests_cant": "a statement about measures on the plane, which includes that shape and rate computed by the code give the Gamma distribution with the right mean and variance", "anchors": ["hub_toolbox/global_scaling.py:743-849"]}
{"id": "C222", "title": "Accuracy of Gaussian Mutual Proximity in double precision", "statement": "With dense float64 distances (or similarities) of n objects, every value returned by mutual_proximity_gaussi differs from the exact value by at most 2*d + 54*n*kappa*2^-53, where d bounds the absolute error of scipy's norm.cdf and norm.sf and kappa is the largest quotient of the largest absolute value in the matrix and the standard deviation of the values of one object to the other training objects. Pairs whose exact values differ by more than twice this bound are ranked correctly, and changing unit or zero of the distances changes the results by no more than the two bounds.", "quantifier": "all matrices of doubles up to 2^400 with at most 2^40 objects, whose standard deviations are at least 2^-400, all test_ind, both metrics, all orders of summation, all libraries with the stated accuracy", "why_tests_cant": "an error bound for all inputs; tests compare with a tolerance on a few matrices, and cannot tell how the error grows with n or with the spread of the data", "anchors": ["hub_toolbox/global_scaling.py:524-673"]}
{"id": "C223", "title": "An analysis evaluates the secondary distances its methods are named after", "statement": "In an analysis of distances, the matrix evaluated by each experiment is the one defined by the method: the distances themselves ('orig'), empirical Mutual Proximity ('mp'), Mutual Proximity with normal or Gamma distributions as a probability ('mp_gaussi', 'mp_gammai'), Local Scaling and NICDM with seven neighbours, shared neighbours among the ten nearest, one minus the cosine of the vectors seen from their centroid ('cent') or weighted centroid ('wcent'), one minus cosine plus the mean similarity to the 40 most similar vectors ('lcent'), DisSim Global, and DisSim Local with ten neighbours; all symmetric matrices have a zero diagonal where defined so.", "quantifier": "all symmetric distance matrices and vectors for which the formulas are defined (positive radii, spread, vectors away from the centroid), all environments, labels and neighbourhood sizes", "why_tests_cant": "the report only shows figures computed from the matrix; a wrong matrix (e.g. a triangle only, exchanged methods or other default parameters) gives plausible figures", "anchors": ["hub_toolbox/hubness_analysis.py:322-372", "hub_toolbox/hubness_analysis.py:45-63"]}
{"id": "C224", "title": "Corrected hubness measure k_skewness_truncnorm_", "statement": "After Hubness.fit_transform with counts that are not all equal, k_skewness_truncnorm_ is documented as the skewness of the truncated normal distribution fitted with the k-occurrence histogram. It is a measure of hubness with a fixed range (0 < value < 1.6), 0 if every object occurs equally often (more than zero times), and nan exactly for fewer than two objects or no occurrences at all.", "quantifier": "all successful fits, all metrics, sparse and dense input; n_test*k below 2^62", "why_tests_cant": "A test compares the attribute on one data set with a stored number; that number is a plausible skewness. Only an argument about the distribution itself shows that the third moment is taken about the wrong point, and that the value can never be negative.", "anchors": ["hub_toolbox/hubness.py:611-622", "hub_toolbox/hubness.py:709-710", "hub_toolbox/hubness.py:427-429"]}
{"id": "C225", "title": "Vectors matter only to the methods which need them", "statement": "In an analysis the experiments orig, mp, mp_gaussi, mp_gammai, ls, nicdm and snn give the same results (evaluated matrix, hubness, anti-hubs, largest hub, accuracy, Goodman-Kruskal index, exceptions) with any vectors and without vectors; the experiments cent, wcent, lcent, dsg and dsl without vectors stop the analysis with an exception (TypeError for lcent, AttributeError otherwise) and leave the object as it was.", "quantifier": "all distance or similarity matrices, labels, vectors, neighborhood sizes, random numbers", "why_tests_cant": "Quantifies over all pairs of runs with different vectors; tests run each method once with one data set.", "anchors": ["hub_toolbox/hubness_analysis.py:355-372", "hub_toolbox/hubness_analysis.py:218-230", "hub_toolbox/hubness_analysis.py:326-345"]}
{"id": "C226", "title": "With one neighbour Local Scaling and NICDM rank all pairs alike", "statement": "For symmetric distances, positive between different objects, local_scaling(D, k=1) and nicdm(D, k=1) return matrices with the same order of entries: LS[a,b] <= LS[c,d] exactly if NICDM[a,b] <= NICDM[c,d], for all four indices, so all rankings, neighbour lists and classifications made from them agree.", "quantifier": "All numbers of objects n >= 2, all symmetric positive distances, all n_jobs.", "why_tests_cant": "The claim relates two functions on all matrices; unit tests compare each with stored numbers on one matrix.", "anchors": ["hub_toolbox/local_scaling.py:174-310", "hub_toolbox/local_scaling.py:431-545"]}
{"id": "C227", "title": "Mutual nearest neighbours stay nearest neighbours under Local Scaling and NICDM", "statement": "If two objects are nearest neighbours of each other, they remain nearest neighbours of each other after local_scaling and after nicdm. True for k=1 (objects strictly farther stay strictly farther); false for k=2 already for four points on a line.", "quantifier": "k=1: all n, all symmetric distances positive between different objects. k=2: counterexample.", "why_tests_cant": "Whether a rescaling can break up the closest pairs depends on the radii of third objects; a test checks one data set and would not find the rare configuration.", "anchors": ["hub_toolbox/local_scaling.py:174-310", "hub_toolbox/local_scaling.py:431-545"]}
{"id": "C228", "title": "Objects which are far away do not matter to local methods", "statement": "If every object outside of a group is farther from each member of the group than at least k other members, then local_scaling, shared_nearest_neighbors (no ties) give the members the same secondary distances whether the outside objects are part of the data or not; nicdm up to one factor common to all pairs; hubness returns the same neighbour lists for the members (no ties), and the same k-occurrences if the outside objects have k nearer neighbours outside.", "quantifier": "All numbers of objects, all groups (embeddings of indices), all k smaller than the group, all distances satisfying the separation.", "why_tests_cant": "Relates the results for two inputs of different size under a geometric condition; tests use a single data set without separated groups.", "anchors": ["hub_toolbox/local_scaling.py:174-310", "hub_toolbox/local_scaling.py:431-545", "hub_toolbox/shared_neighbors.py:176-300", "hub_toolbox/hubness.py:61-302"]}
{"id": "C229", "title": "Local Scaling separates mutual neighbours from mutual strangers", "statement": "For a symmetric distance matrix with positive distances between different objects, two objects each of which is among the k nearest of the other have Local Scaling distance at most 1-1/e, and two objects none of which is among the k nearest of the other have a distance above 1-1/e.", "quantifier": "all n, all symmetric matrices, 1 <= k < n, every worker count, every pair", "why_tests_cant": "the threshold must separate the pairs of every data set at once", "anchors": ["hub_toolbox/local_scaling.py:174-310"]}
{"id": "C230", "title": "An object stored twice: its copies stay together", "statement": "If two objects are copies of each other (distance zero, equal distances to all others, all other distances positive), then under local_scaling and nicdm with k >= 2, empirical Mutual Proximity and shared_nearest_neighbors the two copies have distance zero and equal distances to every other object.", "quantifier": "all n, all symmetric matrices with one pair of copies, all k with 2 <= k < n", "why_tests_cant": "depends on how zero distances enter the neighbourhood statistics of every row", "anchors": ["hub_toolbox/local_scaling.py:174-310", "hub_toolbox/local_scaling.py:431-545", "hub_toolbox/global_scaling.py:194-303", "hub_toolbox/shared_neighbors.py:176-300"]}
{"id": "C231", "title": "simhubIN never reports more similarity than plain shared neighbours, by a fixed factor", "statement": "Without ties, the similarity 1-d of two different objects under simhubIN is at most log(n/3)/log(n) times the similarity under shared_nearest_neighbors with the same k.", "quantifier": "all n, all tie-free matrices, all k, all pairs", "why_tests_cant": "inequality between two functions over all inputs", "anchors": ["hub_toolbox/shared_neighbors.py:303-482", "hub_toolbox/shared_neighbors.py:176-300"]}
{"id": "C232", "title": "predict and score agree", "statement": "Started with the same state of the random number generator, predict and score on the same dense matrix make the same predictions for each label column: score's correctness mask, accuracy and confusion matrix are those of the classes returned by predict.", "quantifier": "all matrices (ties, infinities and nan included), all label columns, all lists of k >= 1, both metrics", "why_tests_cant": "relates two functions with different label numbering over all inputs and random states", "anchors": ["hub_toolbox/knn_classification.py:25-255", "hub_toolbox/knn_classification.py:257-449"]}
{"id": "C233", "title": "Several values of k at once give the results of separate experiments", "statement": "score and predict called with a list of k return for each k exactly what a call with this k alone returns, from the same state of the random number generator.", "quantifier": "all dense matrices, all lists of k >= 1, every position in the list", "why_tests_cant": "relates several runs; needs the loop over k to be free of side effects for all inputs", "anchors": ["hub_toolbox/knn_classification.py:211-228", "hub_toolbox/knn_classification.py:415-430"]}
{"id": "C234", "title": "A point's own label is not used even if it is classified randomly", "statement": "In a leave-one-out experiment the label of a point does not help to classify it, also if no other point is at finite distance.", "quantifier": "all dense matrices, labellings, random numbers", "why_tests_cant": "needs unlucky random numbers", "anchors": ["hub_toolbox/knn_classification.py:217-220"]}
{"id": "C235", "title": "predict and score agree on sparse similarities", "statement": "On a sparse matrix of similarities without ties, score classifies those points correctly for which predict returns the right class.", "quantifier": "all sparse matrices with dominating self similarity, all lists of k >= 1, all random states", "why_tests_cant": "the two functions treat missing entries differently, which shows only for rows with few entries", "anchors": ["hub_toolbox/knn_classification.py:187-202", "hub_toolbox/knn_classification.py:385-412"]}
{"id": "C236", "title": "Sampling functions and the class Hubness in parallel do not depend on how worker processes are started", "statement": "With n_jobs > 1, snn_sample, simhubIN, localized_centering and the estimator Hubness return what a single process returns, whether multiprocessing forks its workers (Linux) or spawns them (Windows, macOS, forkserver).", "quantifier": "every matrix, sample, schedule, number of workers and start method", "why_tests_cant": "tests run on one platform; the result arrays are handed to the workers as numpy arrays, which spawned processes receive as copies, and the results remain plausible numbers (distances 0 or 1, cosine similarities, object 0 as everybody's neighbour)", "anchors": ["hub_toolbox/shared_neighbors.py:26-49", "hub_toolbox/shared_neighbors.py:112-168", "hub_toolbox/shared_neighbors.py:303-335", "hub_toolbox/shared_neighbors.py:402-482", "hub_toolbox/centering.py:173-186", "hub_toolbox/centering.py:243-281", "hub_toolbox/hubness.py:32-58", "hub_toolbox/hubness.py:508-530"]}
{"id": "C237", "title": "The estimate of MacKay and Ghahramani never exceeds that of Levina and Bickel", "statement": "For the same vectors and range of neighbours, intrinsic_dimension with estimator='mackay' returns at most what it returns with estimator='levina', and the same number exactly if for every k >= 3 of the range all points have the same sum of logarithmic distance ratios.", "quantifier": "all data sets of different vectors in which no point has k1 equally near neighbours, all 2 <= k1 <= k2 < n", "why_tests_cant": "inequality between means of inverses and inverses of means over all data sets", "anchors": ["hub_toolbox/intrinsic_dimension.py:24-161"]}
{"id": "C238", "title": "Taking powers of all distances divides the intrinsic dimension", "statement": "If the distances of one data set are those of another one raised to a power a > 0, then intrinsic_dimension returns for it the estimate of the other one divided by a, for both estimators.", "quantifier": "all pairs of data sets of different vectors related in this way, in which no point has k1 equally near neighbours, all a > 0, all 2 <= k1 <= k2 < n", "why_tests_cant": "relates runs on data sets of different embedding dimension; floating-point tests can only compare approximately", "anchors": ["hub_toolbox/intrinsic_dimension.py:24-161"]}
{"id": "C239", "title": "Test objects may be given by negative indices", "statement": "Negative entries of test_set_ind or test_set_mask count from the end, as everywhere in numpy: the objects they name are held out by local_scaling, nicdm, mutual_proximity_gaussi, mutual_proximity_gammai, centering and weighted_centering.", "quantifier": "all numbers of objects, all lists of indices", "why_tests_cant": "no exception is raised; the result differs from the right one only in which objects were used to fit", "anchors": ["hub_toolbox/local_scaling.py:248-251", "hub_toolbox/local_scaling.py:490-493", "hub_toolbox/global_scaling.py:602-605", "hub_toolbox/global_scaling.py:804-807", "hub_toolbox/centering.py:84-92", "hub_toolbox/centering.py:140-147"]}
{"id": "C240", "title": "Accuracy of centering in double precision", "statement": "centering(X, 'vector') of float64 vectors returns the differences to the centroid of the n training objects up to (2n+4) * 2**-53 * B, where B bounds the absolute values of X, whatever the order in which numpy adds.", "quantifier": "all arrays with at most 2**40 rows, all 2**-400 <= B <= 2**400, all non-empty training sets, all orders of addition", "why_tests_cant": "error bounds hold for all inputs or not at all; tests compare with a tolerance on a few matrices", "anchors": ["hub_toolbox/centering.py:84-92"]}
{"id": "C241", "title": "Centering moves identical objects to the origin", "statement": "If all training objects have the same coordinates, centering(X, 'vector') returns exactly 0 for them in double precision.", "quantifier": "all arrays of floats, all training sets", "why_tests_cant": "depends on the rounding of one sum and one quotient; holds for most small integers but not for three times 0.1", "anchors": ["hub_toolbox/centering.py:84-92"]}
{"id": "C242", "title": "Random sparse matrices are similarity matrices in double precision", "statement": "random_sparse_matrix returns, in float64 arithmetic, an exactly symmetric matrix with all entries between 0 and 1 and exact ones on the diagonal, whose other non-zero entries are the drawn cells with positive values and their mirror images.", "quantifier": "all sizes n >= 1, all draws of numpy's generator (multiples of 2**-53 below 1) which are not all zero", "why_tests_cant": "the entries are multiplied by a rounded inverse, so that a value above 1 could appear for unlucky maxima only", "anchors": ["hub_toolbox/io.py:167-191"]}
{"id": "C243", "title": "SuQHR(hr_algorithm='MP') does not depend on how worker processes are started", "statement": "The secondary distances of SuQHR with hr_algorithm='MP' computed by worker processes are those computed by a single process, whether the processes are forked or spawned.", "quantifier": "all data, sampling algorithms, numbers of samples, numbers and orders of work of the processes, both start methods", "why_tests_cant": "the start method is that of the platform a test runs on; scheduling differs between runs", "anchors": ["hub_toolbox/approximate.py:77-93", "hub_toolbox/approximate.py:171-187", "hub_toolbox/approximate.py:206-218", "hub_toolbox/approximate.py:904-922", "hub_toolbox/approximate.py:991-1005"]}
{"id": "C244", "title": "Distances of euclidean_distance have a small relative error in double precision", "statement": "For float64 data with d features whose coordinates differ not at all or by 2^-199 to 2^199, each distance computed by euclidean_distance has a relative error of at most 2(d+2) * 2^-53, whatever the order of the additions; the matrix is exactly symmetric; two distances of which one is larger than the other by a factor of more than 1 + 8(d+2) * 2^-53 are computed in the right order.", "quantifier": "all such data with up to 2^46 features, all orders of additions", "why_tests_cant": "rounding errors depend on the data and on the order of additions, which depends on the build of the library", "anchors": ["hub_toolbox/distances.py:39-44"]}
{"id": "C245", "title": "euclidean_distance is zero for equal vectors only", "statement": "In double precision the distance of two vectors computed by euclidean_distance is zero exactly if the vectors are equal.", "quantifier": "all float64 data, all pairs of vectors", "why_tests_cant": "needs vectors closer to each other than test data are", "anchors": ["hub_toolbox/distances.py:39-44"]}
{"id": "C246", "title": "lp_norm with p=2 is zero for equal vectors only", "statement": "In double precision the distance of two vectors computed by lp_norm with p=2 is zero exactly if the vectors are equal.", "quantifier": "all float64 data, all pairs of vectors", "why_tests_cant": "needs vectors whose norms are large compared to their distance", "anchors": ["hub_toolbox/distances.py:81-83"]}
{"id": "C247", "title": "The unit of the distances does not change an analysis", "statement": "Multiplying all distances (or similarities) given to HubnessAnalysis by a positive constant leaves every result of the experiments mp, ls, cent, wcent, lcent, dsg and dsl as it is, also of mp_gaussi for symmetric matrices, of mp_gammai for distances which are positive on average and not all equal, and of snn for more than ten points without ties; an analysis of such experiments has the same results and ends with the same exception, if any. The secondary distances of orig and of nicdm are multiplied by the constant; their Goodman-Kruskal index is the same, and without ties also hubness, anti-hubs, largest hub and accuracies.", "quantifier": "all square matrices of finite numbers, all positive constants, all class labels, vectors, neighbourhood sizes, random numbers and parallel schedules", "why_tests_cant": "the set of factors and matrices is infinite, and the results go through random tie-breaking and parallel workers", "anchors": ["hub_toolbox/hubness_analysis.py:169-241", "hub_toolbox/hubness_analysis.py:355-399"]}
{"id": "C248", "title": "The numbering of the points does not change an analysis, whatever the secondary distances", "statement": "If the points given to HubnessAnalysis are renumbered (rows and columns of D, class labels, vectors), the secondary distances of an experiment are the renumbered secondary distances, and the experiment finishes if it did before: for orig, cent, wcent, dsg always, for mp, mp_gaussi, mp_gammai with symmetric distances, for ls and nicdm with symmetric non-negative distances and less than seven others at distance zero, for snn, lcent and dsl if the points have different distances (cosines) to the others. If the secondary distances have no ties, hubness, anti-hubs, largest hub and accuracies are the same; if they are symmetric, the Goodman-Kruskal index is the same.", "quantifier": "all matrices, labels, vectors, permutations, neighbourhood sizes, random numbers, parallel schedules and orders of ties", "why_tests_cant": "n! permutations of arbitrary data, arbitrary random numbers and schedules", "anchors": ["hub_toolbox/hubness_analysis.py:355-399"]}
{"id": "C249", "title": "The unit of the data does not change SuQHR", "statement": "If all distances get multiplied by a positive number (for vectors: all coordinates multiplied by one nonzero number), SuQHR selects the same vantage points, with kmeans++ as well as at random. Secondary distances of 'MP', 'MPG', 'LS' and 'NICDM' are the same. Those of hr_algorithm=None and 'DSL' get multiplied by the same number.", "quantifier": "all data, all positive factors, all sampling algorithms with fixed vantage points, all sample sizes, all numbers of neighbours, all processes", "why_tests_cant": "Tests try one data set with one factor; that cumulative sums, random thresholds and potentials of kmeans++ scale together is a statement about all of them.", "anchors": ["hub_toolbox/approximate.py:224-349", "hub_toolbox/approximate.py:838-860", "hub_toolbox/approximate.py:963-1007", "hub_toolbox/approximate.py:1056-1102", "hub_toolbox/approximate.py:1163-1216", "hub_toolbox/approximate.py:1308-1351"]}
{"id": "C250", "title": "SuQHR Mutual Proximity depends on the order of distances only", "statement": "With random vantage points, or all objects as vantage points, SuQHR(hr_algorithm='MP') returns the same vantage points and secondary distances if the distances get transformed by a strictly increasing function.", "quantifier": "all data, all strictly increasing transformations, all sample sizes, all numbers of processes", "why_tests_cant": "There are infinitely many increasing transformations.", "anchors": ["hub_toolbox/approximate.py:963-1007", "hub_toolbox/approximate.py:189-222"]}
{"id": "C251", "title": "The order in which vantage points are drawn does not matter to SuQHR", "statement": "The secondary distance of a test object to a vantage point depends on the set of vantage points, not on their order, the number of the other training objects or the numbering of the training objects ('MP', 'MPG', 'LS'). Without sampling, renumbering the training objects renumbers the columns of sec_dist_sparse_.", "quantifier": "all data, all renumberings, all sampling algorithms with fixed vantage points", "why_tests_cant": "The number of orders grows factorially, tests try one.", "anchors": ["hub_toolbox/approximate.py:866-898", "hub_toolbox/approximate.py:963-1007", "hub_toolbox/approximate.py:1056-1102", "hub_toolbox/approximate.py:1163-1216"]}
{"id": "C252", "title": "mp_dissim does not depend on the numbering of objects and features", "statement": "Renumbering the objects of X or Y renumbers rows or columns of the result of mp_dissim and changes nothing else; the order of features does not matter.", "quantifier": "all data, all renumberings of objects and features, all p, numbers and kinds of bins, numbers of processes", "why_tests_cant": "The number of renumberings grows factorially.", "anchors": ["hub_toolbox/distances.py:121-160", "hub_toolbox/distances.py:162-266"]}
{"id": "C253", "title": "Local Scaling of similarities in double precision", "statement": "In double precision, local_scaling of similarities returns a symmetric matrix of numbers from zero to one, with ones on the diagonal, and every value differs from exp(-s^2/(r_i r_j)) by at most 2^-50, where r_i is the k-th largest similarity to another object.", "quantifier": "every symmetric similarity matrix with similarities which are zero or of absolute value between 2^-200 and 2^200 and positive radii, every n and k, every number of processes, every exponential function with absolute error of at most 2^-52", "why_tests_cant": "A uniform error bound over all matrices cannot be tested.", "anchors": ["hub_toolbox/local_scaling.py:174-311"]}
{"id": "C254", "title": "R-precision depends on data and classes, not on their representation", "statement": "r_precision of sparse similarities only depends on the order of the stored similarities within each row and on which objects share a class: renumbering the objects, renaming the classes or transforming the similarities so that the order within rows is kept gives the same R-precision for corresponding objects, and the same averages.", "quantifier": "every pair of calls related in this way, every n, every stored pattern, every self-similarity above the others of the row, no ties among other stored similarities of a row, every sorting routine and order of ties", "why_tests_cant": "Requires comparing all possible encodings of the same data.", "anchors": ["hub_toolbox/knn_classification.py:468-645"]}
{"id": "C255", "title": "simhub and simhubIN of objects at infinite or undefined distance", "statement": "For distance matrices which contain infinite or undefined (nan) entries, as they occur for objects without a connection, simhub and simhubIN still return symmetric matrices of numbers between zero and one, with zero distance (similarity one) of each object to itself.", "quantifier": "every square matrix of floats including inf and nan, every n and every neighbourhood size from 1 to n-1, every sorting routine and order of ties, every number of processes", "why_tests_cant": "Unconnected objects make an object its own neighbour, and which one depends on the sorting routine; the number of patterns of unconnected objects is unbounded.", "anchors": ["hub_toolbox/shared_neighbors.py:337-482", "hub_toolbox/shared_neighbors.py:484-636"]}
{"id": "C256", "title": "An object stored twice: parametric Mutual Proximity", "statement": "If an object occurs twice in the data, mutual_proximity_gaussi and mutual_proximity_gammai give its two copies distance zero to each other and the same distances to all other objects.", "quantifier": "every symmetric matrix of non-negative distances with two copies of an object, every n of at least 3", "why_tests_cant": "Tests can only try single matrices; the claim is about the two fitted distributions for all of them.", "anchors": ["hub_toolbox/global_scaling.py:524-673", "hub_toolbox/global_scaling.py:743-849"]}
{"id": "C257", "title": "load_dexter reads every file of its format", "statement": "Every data file whose lines consist of column:value entries in decimal notation is read correctly by load_dexter, whatever blanks separate the entries and whether or not the last line is terminated: line i becomes row i, entries not given are zero, the last value given for a column counts. A word without exactly one colon raises ValueError.", "quantifier": "every text with at most as many lines as rows, every number of entries, all integers as values, all columns from 1 to the dimension, all separations by blanks", "why_tests_cant": "The number of texts is unbounded; the example data set is a single one.", "anchors": ["hub_toolbox/io.py:45-57"]}
{"id": "C258", "title": "FreeMemLinux reads the numbers of /proc/meminfo", "statement": "If every line of /proc/meminfo consists of a label, a decimal number and possibly further words, FreeMemLinux gets exactly the numbers of the lines it looks at (1 to 4, 15, 16 and 21), whatever the number of blanks and of digits; with less than 21 lines it raises IndexError.", "quantifier": "every text of this form, all labels, all numbers, all separations by blanks, all units", "why_tests_cant": "Tests see one machine with one state of memory.", "anchors": ["hub_toolbox/io.py:210-225"]}
{"id": "C259", "title": "Hubness of the same data in another representation", "statement": "Class Hubness reports the same about the same objects, whatever the representation of the data: if the objects are renumbered by sigma and, for each object, the order of the distances to the other objects is unchanged, then k_occurrence_[sigma(j)] of the new data equals k_occurrence_[j], sigma(j) is a hub (antihub) exactly when j was one, and k_skewness_, k_skewness_truncnorm_, gini_index_, hood_index_, atkinson_index_, antihub_occurrence_, hub_occurrence_ and groupie_ratio_ are equal. In particular for vectors and metric='euclidean': translations, rotations, reflections, a change of the unit, a renumbering of features, and additional features which are the same for all objects.", "quantifier": "for all numbers of objects and features, all vectors without duplicates (all precomputed distance matrices in which each object is nearest to itself, including inf and nan entries) without ties, all renumberings, k < n, hub sizes, block sizes and both values of shuffle_equal", "why_tests_cant": "quantifies over all data, all renumberings and all similarity transformations of the space of features, and over the two shuffles", "anchors": ["hub_toolbox/hubness.py:484-551", "hub_toolbox/hubness.py:612-669", "hub_toolbox/hubness.py:671-734"]}
{"id": "C260", "title": "Hubness of vectors in double precision: nobody is its own neighbour", "statement": "Hubness(metric='euclidean').fit_transform(X) in double precision lists, for each vector, other vectors only, if all vectors are different, and the listed ones are nearest up to rounding. (scikit-learn computes squared distances from norms and inner products: the code relies on each vector having the smallest distance to itself.)", "quantifier": "for all float64 data, numbers of objects and features, k < n, block sizes, numbers of processes and schedules, orders of additions in matrix products and norms, implementations of the partial sort", "why_tests_cant": "the failing inputs depend on the last bits of inner products computed by a BLAS whose order of additions is unspecified; the bound has to hold for all data and all orders", "anchors": ["hub_toolbox/hubness.py:44-58", "hub_toolbox/hubness.py:484-532", "hub_toolbox/hubness.py:671-734"]}
{"id": "C261", "title": "Sparse empirical Mutual Proximity does not depend on how the csr matrix is stored", "statement": "mutual_proximity_empiric(S, 'similarity') for a symmetric csr matrix S is a function of the matrix: neither the order in which the entries of a row are stored (csr matrices resulting from matrix products have unsorted indices) nor explicitly stored zeros change the result.", "quantifier": "every symmetric sparse matrix, all ways to store it, all min_nnz, all schedules of the workers", "why_tests_cant": "the position of a result in the shared array is found by binary search in the stored indices; tests use matrices made from dense arrays, which are stored in order and without zeros", "anchors": ["hub_toolbox/global_scaling.py:312-345", "hub_toolbox/global_scaling.py:347-412"]}
{"id": "C262", "title": "Zeros of a sparse similarity matrix are missing values, stored or not", "statement": "The documentation of mutual_proximity_gaussi and mutual_proximity_gammai says: 'In case of sparse D, zeros are interpreted as missing values and ignored during calculations.' Hence all three sparse parametric variants (normal, Gamma, Gumbel) give the same result whether a zero is stored explicitly in the csr matrix or not.", "quantifier": "every csr matrix with unit diagonal, all sets of explicitly stored zeros, all min_nnz and test sets", "why_tests_cant": "tests use matrices made from dense arrays, which have no explicit zeros; these result from assignments and from thresholding data in place", "anchors": ["hub_toolbox/global_scaling.py:675-741", "hub_toolbox/global_scaling.py:851-925", "hub_toolbox/global_scaling.py:956-1029", "hub_toolbox/global_scaling.py:535-541"]}
{"id": "C263", "title": "Results of the sparse Gamma and Gumbel variants in single precision", "statement": "mutual_proximity_gammai(S) and the Gumbel variant for sparse S store their results as float32. The returned matrix is the exact result with each entry rounded once: it stays symmetric, in [0,1], with self similarities one, zeros stay zero, and the order of similarities is never reversed. Objects with at most min_nnz values retain their original similarities.", "quantifier": "every sparse similarity matrix with unit diagonal, all min_nnz and test sets, all distribution functions", "why_tests_cant": "rounding depends on each value; tests compare with tolerances", "anchors": ["hub_toolbox/global_scaling.py:851-925", "hub_toolbox/global_scaling.py:956-1029"]}
{"id": "C264", "title": "Class Hubness on sparse distance matrices depends only on the stored distances", "statement": "For Hubness(k, metric='precomputed').fit_transform on a sparse distance matrix: the call succeeds exactly if the matrix has a row and every row stores at least k distances (otherwise IndexError for a matrix without rows, ValueError for a row with too few entries); the neighbour lists then contain the k nearest among exactly the objects whose distance is stored (including explicitly stored zeros), nearest first; the order in which the entries of a row are stored, shuffle_equal, the random state and numpy's partial sort do not change the result if no two stored distances of a row are equal; and a sparse matrix storing the distances to all other objects gives the same result as the dense matrix with has_self_distances=True.", "quantifier": "for all n, m, k >= 1, all patterns of stored entries, all orders of storage, all extended real distances (C264_dense: finite), all implementations of argpartition and all random states", "why_tests_cant": "csr matrices admit exponentially many storage orders of the same matrix, rows of equal and of different lengths take different branches of the code, and the order of argpartition and of the shuffle is not specified; tests see one of them", "anchors": ["hub_toolbox/hubness.py:553-609"]}
{"id": "C265", "title": "Explicitly stored zeros and storage order of csr matrices in score and r_precision", "statement": "For a csr similarity matrix, score and r_precision depend on the matrix only, not on the order in which the entries of a row are stored nor on whether some of the zeros are stored explicitly.", "quantifier": "for all n, all csr matrices without a column stored twice in a row, all labels, k, random numbers and implementations of argpartition", "why_tests_cant": "explicit zeros arise when users threshold S.data in place; tests use matrices built from dense arrays, which have none. The claim compares all storages of one matrix", "anchors": ["hub_toolbox/knn_classification.py:187-202", "hub_toolbox/knn_classification.py:477-509"]}
{"id": "C266", "title": "Sparse empirical Mutual Proximity depends on the order of similarities only", "statement": "mutual_proximity_empiric on a symmetric csr similarity matrix does not depend on the numbering of the objects (the result is renumbered in the same way), and a strictly increasing rescaling of the similarities which keeps zero changes nothing but the rows which are returned in their original scale because of min_nnz.", "quantifier": "for all n, all symmetric sparse similarity matrices, permutations, strictly increasing maps, min_nnz, and schedules of the worker processes", "why_tests_cant": "the worker counts non-zero entries of a sum of two rows, which for some sign patterns cancels; tests use fixed matrices of non-negative similarities", "anchors": ["hub_toolbox/global_scaling.py:312-412"]}
{"id": "C267", "title": "Accuracy of DisSim Global in double precision", "statement": "dis_sim_global(X, Y) and dis_sim_global(X) in float64 return minus twice the inner product of the vectors centred at the mean of Y (X), with an absolute error of at most (96 p + 20 m + 231) 2^-53 p A^2 for m data points with p features of absolute value up to A, whatever the order of additions in the mean and in the products.", "quantifier": "for all n, m <= 2^40, p <= 2^40, all float64 data with absolute values up to A between 2^-400 and 2^400, all orders of summation", "why_tests_cant": "the error depends on the magnitude of the data and the order of additions inside numpy and BLAS; tests compare a few random matrices with a tolerance", "anchors": ["hub_toolbox/centering.py:280-325"]}
{"id": "C268", "title": "DisSim Global of one data set is symmetric in double precision", "statement": "dis_sim_global(X) in float64 returns a symmetric matrix.", "quantifier": "for all float64 data sets X, all orders of summation", "why_tests_cant": "the two entries subtract the same two numbers in different order, so whether they agree depends on the rounding of particular values", "anchors": ["hub_toolbox/centering.py:316-325"]}
{"id": "C269", "title": "mp_dissim and its worker processes", "statement": "mp_dissim returns the same matrix (or raises the same exception) however many worker processes are used, in whatever order their tasks run, whatever earlier calls left behind, and however the processes are started (fork, spawn or forkserver).", "quantifier": "for all data sets with at least one feature, p, n_bins, bin_size, n_jobs, numbers of processes, orders of stores, and start methods", "why_tests_cant": "tests run one schedule on one operating system; worker processes on other systems do not inherit the globals the main process has set", "anchors": ["hub_toolbox/distances.py:97-160", "hub_toolbox/distances.py:220-266"]}
{"id": "C270", "title": "Separated classes are classified perfectly", "statement": "If every object is nearer to all objects of its own class than to any object of another class, leave-one-out k-NN classification with score classifies every object correctly, with accuracy 1 (up to the rounding of C194) and nothing off the diagonal of the confusion matrix, for every k smaller than the number of members of each class.", "quantifier": "for all n, labels, separated dense distance or similarity matrices (ties within classes allowed), lists of k, random numbers and implementations of argsort and argpartition", "why_tests_cant": "tests classify a few data sets; that no tie breaking and no padding of neighbour lists can let an object of another class in is a statement about all of them", "anchors": ["hub_toolbox/knn_classification.py:25-255"]}
{"id": "C271", "title": "Empirical Mutual Proximity keeps separated classes separated", "statement": "If in a symmetric distance or similarity matrix every object is nearer to all objects of its own class than to any other object, the same holds strictly after mutual_proximity_empiric; so k-NN classification with the rescaled matrix remains perfect.", "quantifier": "for all n, labels, symmetric matrices with separated classes, both metrics", "why_tests_cant": "a rescaling meant to reduce hubness must not mix classes which were apart; tests compare accuracies of one or two data sets", "anchors": ["hub_toolbox/global_scaling.py:245-299", "hub_toolbox/knn_classification.py:25-255"]}
{"id": "C272", "title": "Local Scaling and NICDM keep separated classes separated", "statement": "If every object is nearer to all objects of its own class than to any other object, and k is smaller than the number of members of each class, the same holds after local_scaling and after nicdm. False: k=1 and five points on a line. True for compact classes: distances within classes in [m, W], between classes at least B, W^3 < m B^2.", "quantifier": "for all n, labels, symmetric distances, k, n_jobs; counterexample with n=5, k=1", "why_tests_cant": "whether the scaling of third objects can bring another class nearer depends on all radii; tests use one data set", "anchors": ["hub_toolbox/local_scaling.py:174-310", "hub_toolbox/local_scaling.py:431-528"]}
{"id": "C273", "title": "Shared nearest neighbours of separated classes", "statement": "If every object is nearer to all objects of its own class than to any other object, and k is smaller than the number of members of each class, shared_nearest_neighbors returns distance exactly 1 (similarity 0) for objects of different classes, and classes with fewer than 2k members stay strictly separated.", "quantifier": "for all n, labels, separated distance or similarity matrices (not necessarily symmetric), k, n_jobs, implementations of argpartition", "why_tests_cant": "tie breaking at the border of the neighbourhoods is unspecified; tests fix one matrix and one implementation", "anchors": ["hub_toolbox/shared_neighbors.py:199-295"]}
{"id": "C274", "title": "Hubs of separated classes attract their own class only", "statement": "If every object is nearer to all objects of its own class than to any other object, and k is smaller than the number of members of each class, all neighbours listed by hubness belong to the own class, no object occurs in more lists than there are other members of its class, and the k-occurrences within each class sum to k times its size.", "quantifier": "for all n, labels, separated distance or similarity matrices, k, n_jobs, schedules, random numbers and implementations of argpartition", "why_tests_cant": "tests check k-occurrences of fixed matrices; the bound relates hubness and classes for all data sets", "anchors": ["hub_toolbox/hubness.py:94-280"]}
{"id": "C275", "title": "The analysis of separated classes reports perfect classification", "statement": "If every object is nearer to all objects of its own class than to any other object, the hubness analysis of a symmetric distance matrix with experiments orig and mp completes and reports a k-NN accuracy of 1 in both, for all k smaller than the number of members of each class.", "quantifier": "for all n >= 2, symmetric distances, labels with separated classes, hubness and classification values of k, any environment", "why_tests_cant": "the analysis composes secondary distances, classification and bookkeeping; tests run it on one example data set", "anchors": ["hub_toolbox/hubness_analysis.py:169-242", "hub_toolbox/hubness_analysis.py:322-400"]}
{"id": "C276", "title": "Held-out objects can be left out of the data", "statement": "local_scaling and nicdm estimate the neighbourhoods of all objects from the training objects, those not in test_ind. Hence removing held-out objects from a symmetric matrix of positive distances (renumbering test_ind accordingly) does not change the secondary distances of the remaining objects.", "quantifier": "for all n, symmetric positive distance matrices, test_ind, sub-collections of the objects containing all training objects, 1 <= k < number of training objects, n_jobs", "why_tests_cant": "tests hold out one fixed set of objects and never compare with the matrix without them", "anchors": ["hub_toolbox/local_scaling.py:174-310", "hub_toolbox/local_scaling.py:431-528"]}
{"id": "C277", "title": "A weighted R-precision of one means separated classes", "statement": "If everybody is more similar to all objects of the own class than to any other object, the weighted R-precision is one, as is the R-precision of every object which shares its class with another (zero for the others). If the weighted R-precision is one, nobody is more similar to an object of another class than to one of the own class.", "quantifier": "for all n, labels with a class of at least two members, nonnegative similarity matrices in which everybody is most similar to itself, random numbers and implementations of argpartition", "why_tests_cant": "tests evaluate r_precision for one data set; the equivalence is a statement about all of them", "anchors": ["hub_toolbox/knn_classification.py:468-643"]}
{"id": "C278", "title": "A Goodman-Kruskal index of one means separated classes", "statement": "goodman_kruskal_index of a symmetric matrix is one if and only if no two objects of different classes are nearer to each other than any two objects of the same class, and some are farther. If in addition no distance occurs both within a class and between classes, k-NN classification makes no mistakes for all k smaller than the number of members of each class.", "quantifier": "for all n, symmetric distance or similarity matrices, labels, k, implementations of argsort and argpartition", "why_tests_cant": "tests check the index of fixed matrices; this characterises all matrices with index one", "anchors": ["hub_toolbox/goodman_kruskal.py:19-136", "hub_toolbox/knn_classification.py:25-256"]}
{"id": "C279", "title": "Statistics of class Hubness in double precision", "statement": "Hubness.fit_transform computes the Gini index, the antihub occurrence and the groupie ratio in double precision with one rounding of the documented value, whichever of the two Gini formulas is used. The Robin Hood index lies between 0 and 1, differs from the documented value by at most (n + 5) * 2^-53 for n training objects, and is zero exactly if all objects occur equally often. Every hub is reported; an object reported as hub occurs at least (1 - 2^-53) * hub_size * k times; for an integer hub_size the reported hubs are exactly the hubs, and hub_occurrence_ is within 3 * 2^-53 of the documented value. The integer sums do not overflow.", "quantifier": "all data, all k, up to 2^25 training objects with 2 * n_train * n_test * k <= 2^53, any summation order of numpy", "why_tests_cant": "Accumulated rounding and integer overflow depend on sizes which no test data set reaches", "anchors": ["hub_toolbox/hubness.py:626-669", "hub_toolbox/hubness.py:713-733"]}
{"id": "C280", "title": "Rounding of Euclidean distances does not change experiments", "statement": "If the exact Euclidean distances of each vector to the others differ by at least a factor of 1 + 8 (d + 2) 2^-53 for d features, then hubness (neighbour lists, occurrences, skewness), k-nearest-neighbour classification (which objects are classified correctly, accuracies) and shared nearest neighbours of the matrix computed by euclidean_distance in double precision are those of the exact distances.", "quantifier": "all data sets of moderate floats without near-ties, all k, labels, numbers of processes, summation orders", "why_tests_cant": "The exact distances are irrational; tests compare floating point results with floating point results", "anchors": ["hub_toolbox/distances.py:39-44", "hub_toolbox/hubness.py:hubness", "hub_toolbox/knn_classification.py:score", "hub_toolbox/shared_neighbors.py:shared_nearest_neighbors"]}
{"id": "C281", "title": "Rounding of Local Scaling and NICDM does not change experiments", "statement": "If the exact secondary distances of each object to the others differ by more than 2^-49 (Local Scaling) or by a factor of 1 + n 2^-40 (NICDM, n objects), then hubness and k-nearest-neighbour classification of the matrices computed by local_scaling and nicdm in double precision are those of the exact secondary distances.", "quantifier": "all symmetric matrices of moderate distances, all k, test sets, numbers of processes", "why_tests_cant": "The exact secondary distances are irrational; tests compare floating point results with floating point results", "anchors": ["hub_toolbox/local_scaling.py:local_scaling", "hub_toolbox/local_scaling.py:431-531", "hub_toolbox/hubness.py:hubness", "hub_toolbox/knn_classification.py:score"]}
{"id": "C282", "title": "counting methods do not see rounding errors of distances", "statement": "If the Euclidean distances of each vector to the others differ by at least a factor of 1 + 8 (d + 2) 2^-53 (d features), then mutual_proximity_empiric of the distances which euclidean_distance computes in double precision equals, bit by bit, mutual_proximity_empiric of the exact distances, and orders pairs exactly as Mutual Proximity of the exact distances; shared_nearest_neighbors of the computed distances counts common neighbours with respect to the exact distances.", "quantifier": "all vectors of moderate size with such distances, all formats of the computation and of the matrix with enough digits for the number of objects, all k, all sort orders and schedules", "why_tests_cant": "pipeline of rounded computations compared with real numbers", "anchors": ["hub_toolbox/distances.py:euclidean_distance", "hub_toolbox/global_scaling.py:mutual_proximity_empiric", "hub_toolbox/shared_neighbors.py:shared_nearest_neighbors"]}
{"id": "C283", "title": "dis_sim_local with two arguments and LSH do not depend on the start method of processes", "statement": "dis_sim_local(X, Y, n_jobs>1) and the neighbours which SuQHR finds by locality-sensitive hashing with n_jobs>1 are those of a single process, whether worker processes are forked or spawned (Windows, macOS, Python 3.14).", "quantifier": "all data, all k, all numbers of processes and schedules", "why_tests_cant": "tests run on one platform", "anchors": ["hub_toolbox/centering.py:333-449", "hub_toolbox/approximate.py:94-168", "hub_toolbox/approximate.py:769-786"]}
{"id": "C284", "title": "intrinsic_dimension in double precision is the estimate of Levina and Bickel, whatever the offset of the data", "statement": "For different vectors of double precision numbers, the value of intrinsic_dimension(X, k1, k2, 'levina', 'vector', None) computed in double precision equals the estimate of Levina and Bickel from the Euclidean distances of the vectors up to a relative error of the order of the rounding errors; in particular the same offset added to all vectors, as far as no digits of X itself are lost, does not change it.", "quantifier": "All arrays of different vectors, k1, k2, all orders of summation in numpy and BLAS, all logarithms accurate to 2^-45.", "why_tests_cant": "Rounding errors depend on the data and on the order of summation chosen by numpy and BLAS; whether squared norms minus twice the inner product cancel is a matter of the magnitude of the data.", "anchors": ["hub_toolbox/intrinsic_dimension.py:24-154"]}
{"id": "C285", "title": "Atkinson index of class Hubness in double precision", "statement": "After `Hubness.fit_transform`, the attribute `atkinson_index_`, computed in double precision with the default epsilon, lies in the interval from 0 (included) to 1, is 0 exactly if all objects occur equally often as neighbors, and is within (10 n + 32) * 2^-53 of the exact Atkinson index of the reverse neighbor counts for n training objects.", "quantifier": "All training and test data, neighborhood sizes and metrics for which `fit_transform` succeeds with at most 2^25 training objects and 2 * n_train * n_test * k at most 2^53; every order of the floating point sums; powers within two units of rounding (correctly rounded in the counterexample).", "why_tests_cant": "Tests compare the index with a tolerance, or only its sign on data with hubs. Four objects and k equal to the number of two training objects make the index negative (-2^-52) although all occurrences are equal; the accuracy for all inputs needs an error analysis.", "anchors": ["hub_toolbox/hubness.py:649-654", "hub_toolbox/hubness.py:685-734"]}
{"id": "C286", "title": "R-precision in double precision", "statement": "The dictionary returned by `r_precision` for a csr similarity matrix contains, in double precision, for each object the exact R-precision rounded once; 'macro' and 'weighted' are in [0, 1] with relative errors of at most (2 n + 3) * 2^-53 and (2 n + 5) * 2^-53 for n objects. With up to 2^17 objects, each average is exactly 1 if and only if the exact average is 1; in particular a reported weighted R-precision of 1 is obtained exactly for data in which nobody prefers an object of another class.", "quantifier": "All n up to 2^25, all similarity matrices, all labels with at least one pair of equal labels (otherwise the call raises), all random orders, every order of the floating point sums.", "why_tests_cant": "Tests compare averages with a tolerance; quotients such as 1/49 times 49 are not one in floating point, so that products of precisions and weights are inexact, and it is not obvious that averages neither exceed one nor reach one for imperfect data.", "anchors": ["hub_toolbox/knn_classification.py:468-525", "hub_toolbox/knn_classification.py:592-644"]}
{"id": "C287", "title": "F-measures in double precision", "statement": "`f1_score` and `f1_micro`, computed in double precision, return a number in [0, 1] with a relative error of at most 8 * 2^-53; the score of a class is exactly 0 if and only if there are no true positives, and exactly 1 if and only if the classification is perfect (and there are true positives). `f1_macro` and `f1_weighted` return numbers in [0, 1] with relative errors of at most (2 L + 10) * 2^-53 and (2 L + 12) * 2^-53 for L classes; `f1_weighted` raises ZeroDivisionError exactly if there is no positive item.", "quantifier": "All confusion matrices with TP + FP + FN (summed over classes for the micro average) at most 2^40; for the macro and weighted averages all lists of up to 2^25 matrices with TP + FP + FN at most 2^24; every order of the floating point sums.", "why_tests_cant": "Tests use a few confusion matrices with tolerances. Precision, recall, products and the final division are each rounded; that a rounded F-measure never exceeds one, and never equals one for an imperfect classifier, needs an error analysis over all counts.", "anchors": ["hub_toolbox/knn_classification.py:646-724"]}
{"id": "C288", "title": "simhubIN and simhub without labels in double precision", "statement": "`simhubIN` of a square distance matrix, computed in double precision, is symmetric, has the exact self values (0 or 1), lies in [0, 1], and differs from the exact result by at most (2 n + 16) * 2^-53. Different objects never have distance zero (similarity one), and a similarity is zero exactly if the exact similarity is zero. `simhub(y=None)` returns exactly the same numbers.", "quantifier": "All n up to 2^25, all finite distances, all neighborhood sizes 1 <= s < n, every number of processes and schedule, every sort algorithm, both values of return_distances, every order of the floating point sums, all logarithms within two units of rounding.", "why_tests_cant": "Tests compare a few matrices with tolerances. Sums of rounded logarithms divided by a rounded product could exceed one, or lose a small weight; excluding this requires an error analysis for all inputs.", "anchors": ["hub_toolbox/shared_neighbors.py:303-334", "hub_toolbox/shared_neighbors.py:337-482", "hub_toolbox/shared_neighbors.py:484-636"]}
{"id": "C289", "title": "Rounding of Gaussian Mutual Proximity and DisSim Global does not change experiments", "statement": "If the exact secondary distances of each object to the others under mutual_proximity_gaussi differ by more than twice the rounding error bound 2 d + 54 n k 2^-53 (n objects, k the ratio of largest distance to smallest standard deviation, d the error of scipy's distribution functions), or those under dis_sim_global by more than twice (96 p + 20 n + 231) 2^-53 p A^2 (p features of magnitude at most A), then hubness and k-nearest-neighbour classification of the matrices computed in double precision are those of the exact secondary distances.", "quantifier": "all matrices of moderate distances with spread, all test sets; all moderate vectors, all orders of addition, all products within the usual error bound", "why_tests_cant": "Exact secondary distances involve the normal distribution function and exact means; tests compare floating point results with floating point results", "anchors": ["hub_toolbox/global_scaling.py:524-673", "hub_toolbox/centering.py:280-325", "hub_toolbox/hubness.py:hubness", "hub_toolbox/knn_classification.py:score"]}
{"id": "C290", "title": "load_dexter returns distances, labels and vectors that belong together", "statement": "For a file of n labels (comments and empty lines allowed) and a file of n vectors, load_dexter returns label i and vector i of line i of the files, and the cosine distances of these vectors; the three results pass the shape checks of the other functions, and rearranging the lines of both files rearranges the results alike. Files of another length are not rejected: a different number of labels makes the shape checks of the other functions fail with TypeError, missing vectors are zero vectors with distances nan.", "quantifier": "all files of the formats, all numbers n >= 2 of lines, all dimensions, all rearrangements of lines", "why_tests_cant": "The only test loads the one fixed pair of files and looks at their shapes.", "anchors": ["hub_toolbox/io.py:load_dexter", "hub_toolbox/io.py:22-62"]}
{"id": "C291", "title": "Accuracy of DisSim Local in double precision", "statement": "dis_sim_local(X, k=k) in float64 returns -inf on the diagonal and otherwise, with an absolute error of at most (52 p + 20 k + 100) 2^-53 p A^2, the DisSim formula |x-y|^2 - |x-c(x)|^2 - |y-c(y)|^2 for centroids of k other vectors each, none of which is further away than a vector left out by more than 16 (p + 2) 2^-53 p A^2 in squared distance. If the k nearest neighbours are nearer than the rest by more than this, the result is within that error of the exact result.", "quantifier": "for all n, 1 <= k < n, k <= 2^40, p <= 2^40 features, all float64 data with absolute values up to A between 2^-400 and 2^400, all orders of summation, all choices among ties", "why_tests_cant": "rounding may change the neighbours and with them the centroids; the error depends on the magnitude of the data and the order of additions inside numpy and BLAS", "anchors": ["hub_toolbox/centering.py:345-449"]}
{"id": "C292", "title": "Accuracy of localized centering in double precision", "statement": "localized_centering(X, Y, kappa, gamma=1) in float64 returns, with an absolute error of at most (8 d + 2 kappa + 21) 2^-53, the cosine similarity of test and training vector minus the mean cosine similarity of the training vector to kappa training vectors, where no vector left out is more similar than one of these by more than 8 (d + 2) 2^-53. If the kappa most similar training vectors are more similar than the rest by more than this, the result is within that error of the exact result. Zero vectors are allowed.", "quantifier": "for all n, l, 1 <= kappa <= l, kappa <= 2^40, 1 <= d <= 2^40 features, all float64 data with values zero or between 2^-200 and 2^200 in absolute value, all orders of summation, all choices among ties", "why_tests_cant": "rounding may change the neighbours and with them the local centroids; the error depends on the order of additions inside numpy and BLAS, tests compare a few random matrices with a tolerance", "anchors": ["hub_toolbox/centering.py:188-281"]}
{"id": "C293", "title": "Self distances do not matter to the evaluations", "statement": "Two square matrices that agree off the diagonal, whatever is stored on their diagonals, give the same result of hubness() (dense or sparse, serial or parallel), of k-NN classification with score() and predict() on dense matrices (leave-one-out or with held-out objects) and of goodman_kruskal_index(): the same values, or the same exception.", "quantifier": "every pair of square matrices of floats incl. nan and +-inf that agree off the diagonal, every k, metric, labels, random numbers, schedule and tie-breaking", "why_tests_cant": "The diagonals come from different secondary distance functions (0, 1, -inf, rounding residue); a test tries some diagonals on one matrix.", "anchors": ["hub_toolbox/hubness.py:67-92", "hub_toolbox/hubness.py:189-198", "hub_toolbox/hubness.py:258-281", "hub_toolbox/knn_classification.py:163-180", "hub_toolbox/knn_classification.py:383-396", "hub_toolbox/goodman_kruskal.py:70-92"]}
{"id": "C294", "title": "Experiments on DisSim Local in double precision", "statement": "If the k nearest neighbours of each vector are nearer than the others by more than the rounding error of squared distances, and the exact DisSim Local values of each vector differ by more than 2 (52 p + 20 k + 100) 2^-53 p A^2, then hubness and k-NN classification of dis_sim_local(X, k=k) in float64 are those of the exact secondary distances, although its diagonal is -inf.", "quantifier": "all n vectors of p features of absolute value at most A (2^-400 <= A <= 2^400, p, k <= 2^40), every order of additions, every k, labels, random numbers and tie-breaking", "why_tests_cant": "Tests compare the float64 result with another float64 result; none can tell that rounding changes no neighbour list.", "anchors": ["hub_toolbox/centering.py:345-449", "hub_toolbox/hubness.py:94-302", "hub_toolbox/knn_classification.py:25-255"]}
{"id": "C295", "title": "Experiments on localized centering in double precision", "statement": "If the kappa objects most similar to each object are more similar than the others by more than 8 (d + 2) 2^-53, and the exact values of each object after localized centering differ by more than 2 (8 d + 2 kappa + 21) 2^-53, then hubness and k-NN classification of the similarities localized_centering(X, kappa=kappa) in float64 are those of the exact ones.", "quantifier": "all n vectors of d <= 2^40 features of moderate magnitude, every order of additions, every k, labels, random numbers and tie-breaking", "why_tests_cant": "Tests compare the float64 result with another float64 result; none can tell that rounding changes no neighbour list.", "anchors": ["hub_toolbox/centering.py:188-281", "hub_toolbox/hubness.py:94-302", "hub_toolbox/knn_classification.py:25-255"]}
{"id": "C296", "title": "Rounding of cosine distances does not change experiments", "statement": "If the cosines of the angles of each vector with the others differ by more than 8 (d + 2) 2^-53, d the number of features, then hubness and k-NN classification of cosine_distance(X) in float64 are those of the exact cosine distances.", "quantifier": "all sets of non-zero vectors of at most 2^46 features of moderate magnitude, every order of additions, every k, labels, random numbers and tie-breaking", "why_tests_cant": "Tests compare the float64 result with another float64 result; none can tell that rounding changes no neighbour list.", "anchors": ["hub_toolbox/distances.py:28-37", "hub_toolbox/hubness.py:94-302", "hub_toolbox/knn_classification.py:25-255"]}
{"id": "C297", "title": "HubnessAnalysis() without a matrix is the analysis of the example data", "statement": "HubnessAnalysis() is HubnessAnalysis(D, y, X, 'distance') with the labels y and the vectors X in the files of the example data and the cosine distances D of these vectors, whatever other arguments are given; analyze_hubness() then runs to the end with its six default experiments for any data of more than twelve non-zero vectors; if the number of labels differs from the number of vectors it raises TypeError before any experiment is finished.", "quantifier": "all texts of the two files in their format, all numbers of vectors and features, all other arguments", "why_tests_cant": "A test runs the one data set which is shipped with the package.", "anchors": ["hub_toolbox/hubness_analysis.py:98-147", "hub_toolbox/hubness_analysis.py:169-241", "hub_toolbox/io.py:22-62"]}
{"id": "C298", "title": "Local Scaling and NICDM are robust against measurement errors", "statement": "If every distance is known up to a factor q >= 1, local_scaling of the measured distances differs from local_scaling of the true ones by at most q^4 - 1, and nicdm by a factor of at most q^3, although the nearest neighbours, the radii and their geometric mean may all change. Hubness and k-NN classification give the same results if the secondary distances of each object differ by more than 2 (q^4 - 1) (local_scaling) or by a factor of more than q^6 (nicdm).", "quantifier": "all pairs of symmetric positive distance matrices, every q, k, set of test objects and number of jobs", "why_tests_cant": "The measured distances are an uncountable family around the true ones, and errors of different pairs act together.", "anchors": ["hub_toolbox/local_scaling.py:157-311", "hub_toolbox/local_scaling.py:419-534"]}
{"id": "C299", "title": "From feature vectors to secondary distances in double precision", "statement": "euclidean_distance followed by local_scaling, both in float64, gives the Local Scaling of the exact Euclidean distances up to (d + 2) 2^-49, d the number of features; followed by nicdm, it gives NICDM up to a relative error of n 2^-42 + 10 (d + 2) 2^-53, n the number of objects. Experiments give the results of exact arithmetic if exact secondary distances of each object are farther apart than a small multiple of that.", "quantifier": "all data of at most 2^46 features and moderate magnitude, every order of additions, every k, set of test objects and number of jobs", "why_tests_cant": "Rounding errors of the distances may change the neighbours used for scaling; tests compare float64 with float64 on a few data sets.", "anchors": ["hub_toolbox/distances.py:39-44", "hub_toolbox/local_scaling.py:157-311", "hub_toolbox/local_scaling.py:419-534"]}
{"id": "C300", "title": "Local Scaling and NICDM of cosine distances in double precision", "statement": "If the cosine distances of different vectors are at least delta >= (d + 2) 2^-47, d the number of features, then cosine_distance followed by local_scaling, both in float64, gives the Local Scaling of the exact cosine distances up to (1 + 3 (d + 2) / delta) 2^-50; followed by nicdm, it gives NICDM up to a relative error of n 2^-42 + 20 (d + 2) / delta 2^-53, n the number of objects. Experiments give the results of exact arithmetic if exact secondary distances of each object are farther apart than a small multiple of that.", "quantifier": "all sets of non-zero vectors of at most 2^46 features of moderate magnitude, every order of additions, every k, set of test objects and number of jobs", "why_tests_cant": "Cosine distances have an absolute, not a relative accuracy, and their errors may change the neighbours used for scaling; tests compare float64 with float64 on a few data sets.", "anchors": ["hub_toolbox/distances.py:28-37", "hub_toolbox/local_scaling.py:157-311", "hub_toolbox/local_scaling.py:419-534"]}
{"id": "C301", "title": "Counting methods do not see rounding errors of cosine distances", "statement": "If the cosines of the angles of each vector with the others differ by more than (d + 2) 2^-50, d the number of features, then mutual_proximity_empiric of cosine_distance(X) in float64 (or stored in a narrower format) is exactly that of the exact cosine distances and orders pairs like Mutual Proximity of the exact distances; shared_nearest_neighbors orders pairs by the number of common neighbours in terms of the exact angles.", "quantifier": "all sets of non-zero vectors of at most 2^46 features of moderate magnitude, every order of additions, all formats, sets of test objects, k and numbers of jobs", "why_tests_cant": "Tests compare the float64 result with another float64 result; none can tell that rounding changes no count.", "anchors": ["hub_toolbox/distances.py:28-37", "hub_toolbox/global_scaling.py:mutual_proximity_empiric", "hub_toolbox/shared_neighbors.py:shared_nearest_neighbors"]}
{"id": "C302", "title": "Nothing logged is lost, doubled or reordered", "statement": "ConsoleLogging prints messages to standard output and warnings and errors to standard error, each stream holds the entries of its calls in the order of the calls whatever the buffers do, and after a call with flush=True (the default) everything logged to that stream so far has been written. Entries sorted as texts are sorted by time, and time and kind can be read off the first 21 characters. Logging() raises TypeError; FileLogging() prints a warning to standard error and then behaves like ConsoleLogging.", "quantifier": "all sequences of calls, arguments, times of years with four digits and behaviours of the buffers", "why_tests_cant": "There are unboundedly many sequences of calls and states of buffers; the existing tests look at one call each.", "anchors": ["hub_toolbox/htlogging.py:18-65"]}
{"id": "C303", "title": "Every line of a log is an entry of its own", "statement": "Every line printed by ConsoleLogging starts with a time and the kind of the entry, and there is one line per call.", "quantifier": "all sequences of calls and arguments", "why_tests_cant": "A test tries a few arguments; a line without time stamp comes from arguments that contain a newline, e.g. the text of an exception.", "anchors": ["hub_toolbox/htlogging.py:38-57", "hub_toolbox/htlogging.py:82-85"]}
{"id": "C304", "title": "Empirical Mutual Proximity is robust against measurement errors", "statement": "If symmetric positive distances x are known up to a factor q >= 1 only (y is within a factor q of x), mutual_proximity_empiric(y) and mutual_proximity_empiric(x) differ for objects i, j by at most 1/n times the number of other objects a whose distance to i or to j lies within a factor q^2 of the distance of i and j. Objects which are clearly nearer or clearly farther have no influence on the error; no gaps between distances are required.", "quantifier": "all n, all symmetric positive distance matrices x, all symmetric y within a factor q, all q >= 1", "why_tests_cant": "Rank based methods are discontinuous: an arbitrarily small error can change values. How far a value can move depends on all other distances; tests on sample data give no bound.", "anchors": ["hub_toolbox/global_scaling.py:mutual_proximity_empiric", "hub_toolbox/global_scaling.py:_mutual_proximity_empiric_full"]}
{"id": "C305", "title": "Shared nearest neighbours is robust against measurement errors", "statement": "If positive distances x are known up to a factor q >= 1 only, shared_nearest_neighbors(y, k) and shared_nearest_neighbors(x, k) differ for objects i, j by at most the number of surplus candidates of i plus that of j, divided by k. Candidates of i are the objects not farther than q^2 times the distance to its k-th neighbour; surplus are those in excess of k. Ties between distances and their resolution by partial sorting are included.", "quantifier": "all n, k < n, all positive distance matrices x, all y within a factor q, all q >= 1, all partial sorts, schedules and n_jobs", "why_tests_cant": "Neighbour sets jump under small errors; a test observes some jumps, not the largest possible one for any data.", "anchors": ["hub_toolbox/shared_neighbors.py:shared_nearest_neighbors", "hub_toolbox/shared_neighbors.py:_snn_my_hood", "hub_toolbox/shared_neighbors.py:_snn_our_hood"]}
{"id": "C306", "title": "k-occurrences are robust against measurement errors", "statement": "If positive distances x are known up to a factor q >= 1 only, the k-occurrence of an object j reported by hubness for y and for x differs by at most the number of objects i which have more than k candidates (objects within q^2 times the distance to the k-th neighbour) and whose distance to j lies within a factor q^2 of the distance to their k-th neighbour.", "quantifier": "all n, k < n, all positive distance matrices x, all y within a factor q, all q >= 1, all partial sorts, schedules, n_jobs and random numbers for shuffling", "why_tests_cant": "Hub objects are identified by their k-occurrence; whether an observed hub can be an artefact of measurement errors needs a bound for all errors of a given size.", "anchors": ["hub_toolbox/hubness.py:hubness", "hub_toolbox/hubness.py:_hubness_nearest_neighbors", "hub_toolbox/hubness.py:_hubness_no_multiprocessing"]}
{"id": "C307", "title": "k-NN classification is robust against measurement errors", "statement": "If positive distances x are known up to a factor q >= 1 only (y is within a factor q of x), score(y, target, k) classifies an object correctly if and only if score(x, target, k) does, provided that one class leads by more than s votes among the candidates of the object: the objects at most q^2 times as far as its k-th neighbour, s being the number of candidates in excess of k. The two accuracies differ by at most the share of the objects without such a lead.", "quantifier": "all n, all positive distance matrices x, all y within a factor q, all q >= 1, all labels, all lists of k between 1 and n - 1, all sorting algorithms and random numbers", "why_tests_cant": "A test perturbs some data in some way; a guarantee has to hold for all perturbations of a given size and all ways to break ties.", "anchors": ["hub_toolbox/knn_classification.py:score"]}
{"id": "C308", "title": "The Goodman-Kruskal index is robust against measurement errors", "statement": "If symmetric positive distances x are known up to a factor q >= 1 only (y is within a factor q of x), goodman_kruskal_index(y, classes) and goodman_kruskal_index(x, classes) differ by at most 2 d / t. Here d is the number of doubtful quadruples, i.e. of pairs of a same-class pair and a different-class pair whose two distances are within a factor q^2 of each other, and t > 0 is the number of quadruples whose two distances differ.", "quantifier": "all n, all labels, all symmetric positive distance matrices x, all symmetric y within a factor q, all q >= 1", "why_tests_cant": "The index compares all pairs of pairs; ties created or removed by errors change numerator and denominator. A test sees single perturbations only.", "anchors": ["hub_toolbox/goodman_kruskal.py:goodman_kruskal_index"]}
{"id": "C309", "title": "Evaluations of feature vectors in double precision without assumptions on gaps", "statement": "Let s be the exact Euclidean distances of different vectors X with d features and q = 1 / (1 - 2 (d + 2) 2^-53). hubness, score, goodman_kruskal_index and mutual_proximity_empiric of euclidean_distance(X) computed in float64 differ from those of s only as far as exact distances agree up to the factor q^2: the k-occurrence of an object by at most the number of objects with more than k candidates for which it is at the border of the neighbourhood; an object is classified alike if one class leads by more than the number of surplus candidates; the index by at most twice the share of quadruples with distances within q^2; Mutual Proximity by at most the share of objects at distances within q^2.", "quantifier": "all sets of different vectors of at most 2^46 features of moderate magnitude, every order of additions, all labels, k, partial sorts, schedules and random numbers; equal distances are allowed", "why_tests_cant": "Data with equal distances (grids, counts) are decided by rounding errors. Tests see one outcome; the theorem bounds all.", "anchors": ["hub_toolbox/distances.py:euclidean_distance", "hub_toolbox/hubness.py:hubness", "hub_toolbox/knn_classification.py:score", "hub_toolbox/goodman_kruskal.py:goodman_kruskal_index", "hub_toolbox/global_scaling.py:mutual_proximity_empiric"]}
{"id": "C310", "title": "Evaluations of cosine distances in double precision without assumptions on gaps", "statement": "Let the exact cosine distances s of different vectors with d features be at least delta >= 64 (d + 2) 2^-53 and q = 1 / (1 - 4 (d + 2) 2^-53 / delta). hubness, score, goodman_kruskal_index and mutual_proximity_empiric of cosine_distance(X) computed in float64 differ from those of the exact distances only as far as exact distances agree up to the factor q^2, within the same bounds as in C309.", "quantifier": "all sets of non-zero vectors of at most 2^46 features of moderate magnitude no two of which have nearly the same direction, every order of additions, all labels, k, partial sorts, schedules and random numbers; equal distances are allowed", "why_tests_cant": "Cosine distances of count vectors are often equal, so results depend on rounding errors. Tests see one outcome; the theorem bounds all.", "anchors": ["hub_toolbox/distances.py:cosine_distance", "hub_toolbox/hubness.py:hubness", "hub_toolbox/knn_classification.py:score", "hub_toolbox/goodman_kruskal.py:goodman_kruskal_index", "hub_toolbox/global_scaling.py:mutual_proximity_empiric"]}
{"id": "C311", "title": "Intrinsic dimension under measurement errors", "statement": "Let X and Y be two versions of the data whose distances between different objects agree up to a factor q >= 1 (they may have different numbers of features), let the vectors of X be different and let no point of X have k1 equally near nearest neighbours, k1 >= 2. If 2 (k - 1) log q is at most a fraction eps < 1 of the sum of log(T_k / T_j) of every point of X and every k between k1 and k2, then intrinsic_dimension returns finite numbers d for X and d2 for Y, for either estimator, with d / (1 + eps) <= d2 <= d / (1 - eps).", "quantifier": "all data sets X, Y, all q, eps, k1 <= k2, both estimators, all mem_threshold", "why_tests_cant": "A test perturbs one data set and compares two estimates; that no perturbation within the factor changes the estimate more than this is a statement about all data.", "anchors": ["hub_toolbox/intrinsic_dimension.py:intrinsic_dimension"]}
{"id": "C312", "title": "Errors of features and data stored in single precision", "statement": "Let X and Y be two versions of n feature vectors such that every vector of Y is within eta (Euclidean norm) of the one of X and different vectors of X have distances of at least delta > 2 eta. Then the entries of euclidean_distance(Y) differ from those of euclidean_distance(X) by at most 2 eta, and by a factor of at most q = delta / (delta - 2 eta). Therefore local_scaling changes by at most q^4 - 1, nicdm by a factor of at most q^3, mutual_proximity_empiric, shared_nearest_neighbors, hubness, score and goodman_kruskal_index change only as far as distances in X agree up to q^2 (bounds of C304 to C308), and intrinsic_dimension as stated in C311. If Y is X stored in single precision and the norms are at most r, then eta = 2^-24 r will do.", "quantifier": "all X, Y, eta, delta, k, labels, partial sorts, schedules, random numbers and numbers of jobs; equal distances are allowed", "why_tests_cant": "Tests compare one data set in float64 and float32 at best. The theorem covers every perturbation of every data set.", "anchors": ["hub_toolbox/distances.py:euclidean_distance", "hub_toolbox/local_scaling.py:local_scaling", "hub_toolbox/local_scaling.py:nicdm", "hub_toolbox/global_scaling.py:mutual_proximity_empiric", "hub_toolbox/shared_neighbors.py:shared_nearest_neighbors", "hub_toolbox/hubness.py:hubness", "hub_toolbox/knn_classification.py:score", "hub_toolbox/goodman_kruskal.py:goodman_kruskal_index", "hub_toolbox/intrinsic_dimension.py:intrinsic_dimension"]}
{"id": "C313", "title": "intrinsic_dimension with the estimator of MacKay and Ghahramani in double precision", "statement": "For different vectors of integers with m features of magnitude at most B, 4 m B^2 <= 2^53, 3 <= k1 <= k2 < n, k2 <= 2^20, n <= 2^25 and sums of log(T_k / T_j) of at least s for every point and every k between k1 and k2 (s not tiny: s >= 36000 k2^2 2^-53 and s >= k2 2^-25), intrinsic_dimension(X, k1, k2, estimator=\"mackay\") computed in float64 is finite and differs from the exact estimate by a relative error of at most (2850 k2^2 / s + 3 n + 2 (k2 + 1 - k1) + 14) 2^-53.", "quantifier": "all such integer data, all k1, k2, every order of additions in sums, means and products of matrices, logarithms with an error of at most 2^-45", "why_tests_cant": "Logarithms are subtracted after summing and reciprocals are taken twice, so errors might be amplified; tests compare with reference values on single data sets.", "anchors": ["hub_toolbox/intrinsic_dimension.py:intrinsic_dimension"]}
{"id": "C314", "title": "Data stored in single precision and evaluated in double precision", "statement": "Let X be feature vectors with up to 2^46 features, all zero or of absolute value at least 2^-126, with norms of at most r and distances of different vectors of at least delta > 2^-23 r, and Y the same vectors stored in single precision (none overflows). Then euclidean_distance(Y), computed in double precision, returns finite distances that agree with the exact Euclidean distances of X up to a factor of q = delta / (delta - 2^-23 r) / (1 - 2 (d + 2) 2^-53). Therefore hubness, score, goodman_kruskal_index and mutual_proximity_empiric of the computed matrix differ from those of the exact matrix of X only as far as exact distances agree up to q^2 (bounds of C304 and C306 to C308). Nothing is assumed of the stored numbers themselves: their differences neither overflow nor underflow.", "quantifier": "all n, d, X, k, labels, partial sorts, orders of summation, schedules, random numbers and numbers of jobs; equal distances are allowed", "why_tests_cant": "Both roundings act together, and tests compare one data set in float32 with float64 at best, never with exact distances.", "anchors": ["hub_toolbox/distances.py:euclidean_distance", "hub_toolbox/hubness.py:hubness", "hub_toolbox/knn_classification.py:score", "hub_toolbox/goodman_kruskal.py:goodman_kruskal_index", "hub_toolbox/global_scaling.py:mutual_proximity_empiric"]}
{"id": "C315", "title": "R-precision is robust against measurement errors", "statement": "Let S and T be two versions of a similarity matrix with positive similarities, stored in sparse form, which agree up to a factor of q outside the diagonal, each object being most similar to itself. Let object i have R_i relevant items (other objects of its class) and let r_i be the R_i-th largest similarity of i. Then r_precision returns the same relevant_items for both, the R-precision of i changes by at most c_i / R_i, where R_i + c_i objects have a similarity to i of at least r_i / q^2, the weighted average changes by at most (sum c_i) / (sum R_i) and the macro average by at most the mean of c_i / R_i. Objects without relevant items have R-precision zero in both. In particular nothing changes if no other similarity is within q^2 of r_i.", "quantifier": "all n, S, T, q >= 1, labels with at least one pair, return_y_pred, partial sorts and random numbers; equal similarities are allowed", "why_tests_cant": "Tests use one matrix. The theorem bounds the effect of every perturbation on every matrix, including ties at the last rank.", "anchors": ["hub_toolbox/knn_classification.py:r_precision"]}
{"id": "C316", "title": "Local Scaling of similarities is robust against measurement errors", "statement": "Let S and T be two symmetric similarity matrices of n > k objects, positive outside the diagonal, which agree there up to a factor of q. Then local_scaling(S, k, metric=\"similarity\") and local_scaling(T, k, metric=\"similarity\") both return finite values, the results differ by at most q^4 - 1 in every entry although neighbours and radii may change, and results that are farther apart than 2 (q^4 - 1) keep their order.", "quantifier": "all n, S, T, q >= 1, 1 <= k < n and numbers of jobs; no held-out objects; equal similarities are allowed", "why_tests_cant": "The k-th largest similarity may belong to another object after the perturbation. Tests use one matrix.", "anchors": ["hub_toolbox/local_scaling.py:local_scaling"]}
{"id": "C317", "title": "Mutual Proximity of similarities is robust against measurement errors", "statement": "Let S and T be two symmetric dense similarity matrices, positive outside the diagonal, which agree there up to a factor of q. Then mutual_proximity_empiric(S, metric=\"similarity\") and mutual_proximity_empiric(T, metric=\"similarity\") differ in entry (i, j) by at most m / n, where m is the number of other objects whose similarity to i or to j agrees with the similarity of i and j up to q^2. In particular entries without such objects do not change.", "quantifier": "all n, S, T and q >= 1; equal similarities are allowed", "why_tests_cant": "Tests use one matrix. Empirical Mutual Proximity counts comparisons, each of which may flip under errors.", "anchors": ["hub_toolbox/global_scaling.py:mutual_proximity_empiric"]}
