{
 "claims": [
  {
   "property": "C01",
   "status": "proved",
   "theorems": [
    "HubToolbox.Hubness.C01_hubness_succeeds_iff",
    "HubToolbox.Hubness.C01_hubness_knn",
    "HubToolbox.Hubness.C01_hubness_argument"
   ],
   "note": "Any argpartition satisfying numpy's contract, any shuffle, any schedule. The serial rectangular similarity case is C05."
  },
  {
   "property": "C02",
   "status": "proved",
   "theorems": [
    "HubToolbox.Hubness.C02_no_self_neighbour"
   ],
   "note": ""
  },
  {
   "property": "C03",
   "status": "proved",
   "theorems": [
    "HubToolbox.Hubness.C03_k_occurrence"
   ],
   "note": ""
  },
  {
   "property": "C04",
   "status": "proved",
   "theorems": [
    "HubToolbox.Hubness.C04_parallel_eq_serial"
   ],
   "note": "Schedules are arbitrary permutations of all individual cell writes."
  },
  {
   "property": "C05",
   "status": "partial",
   "theorems": [
    "HubToolbox.Hubness.C05_parallel_rectangular_similarity_partial",
    "HubToolbox.Hubness.C05_serial_raises_of_more_rows",
    "HubToolbox.Hubness.C05_serial_wrong_of_fewer_rows"
   ],
   "note": "The serial code violates the property (arange(n-k,n) instead of arange(m-k,m)); proved for the parallel branch, violation proved with witnesses."
  },
  {
   "property": "C06",
   "status": "proved",
   "theorems": [
    "HubToolbox.Hubness.C06_order_only"
   ],
   "note": "Zero-preservation needed only for rectangular distance matrices."
  },
  {
   "property": "C07",
   "status": "proved",
   "theorems": [
    "HubToolbox.Hubness.C07_relabelling"
   ],
   "note": ""
  },
  {
   "property": "C08",
   "status": "proved",
   "theorems": [
    "HubToolbox.Hubness.C08_duality"
   ],
   "note": ""
  },
  {
   "property": "C09",
   "status": "proved",
   "theorems": [
    "HubToolbox.HubClass.C09_statistics"
   ],
   "note": ""
  },
  {
   "property": "C10",
   "status": "proved",
   "theorems": [
    "HubToolbox.HubClass.C10_agree",
    "HubToolbox.HubClass.C10_zero_iff"
   ],
   "note": ""
  },
  {
   "property": "C11",
   "status": "proved",
   "theorems": [
    "HubToolbox.HubClass.C11_batches"
   ],
   "note": ""
  },
  {
   "property": "C12",
   "status": "partial",
   "theorems": [
    "HubToolbox.HubClass.C12_partial",
    "HubToolbox.HubClass.C12_violated",
    "HubToolbox.HubClass.C12_left_out"
   ],
   "note": "False for the code if another object has distance 0: one of the two is its own neighbour. Proved when the self distance is the only smallest entry of each row; in general one object of smallest distance is left out (C12_left_out)."
  },
  {
   "property": "C13",
   "status": "proved",
   "theorems": [
    "HubToolbox.HubClass.C13_init"
   ],
   "note": ""
  },
  {
   "property": "C14",
   "status": "proved",
   "theorems": [
    "HubToolbox.GK.C14_index_is_definition",
    "HubToolbox.GK.C14_naive_is_definition",
    "HubToolbox.GK.C14_accepts_iff",
    "HubToolbox.GK.C14_errors",
    "HubToolbox.GK.C14_nan_disagrees",
    "HubToolbox.GK.C14_sparse_argument"
   ],
   "note": "Needs a dense matrix free of nan; with nan the two functions differ (C14_nan_disagrees), a csr_matrix is refused with a ValueError (C14_sparse_argument)."
  },
  {
   "property": "C15",
   "status": "proved",
   "theorems": [
    "HubToolbox.GK.C15_bounded",
    "HubToolbox.GK.C15_extreme",
    "HubToolbox.GK.C15_no_comparable"
   ],
   "note": ""
  },
  {
   "property": "C16",
   "status": "proved",
   "theorems": [
    "HubToolbox.GK.C16_metric_flip",
    "HubToolbox.GK.C16_order_only",
    "HubToolbox.GK.C16_duality"
   ],
   "note": "Duality for symmetric nan-free matrices, the rest for every matrix."
  },
  {
   "property": "C17",
   "status": "proved",
   "theorems": [
    "HubToolbox.GK.C17_renaming",
    "HubToolbox.GK.C17_relabelling"
   ],
   "note": ""
  },
  {
   "property": "C18",
   "status": "proved",
   "theorems": [
    "HubToolbox.GK.C18_sparse_eq_dense"
   ],
   "note": "Matrix without explicitly stored zeros."
  },
  {
   "property": "C19",
   "status": "proved",
   "theorems": [
    "HubToolbox.GK.C19_zero_missing"
   ],
   "note": "Matrix without explicitly stored zeros."
  },
  {
   "property": "C20",
   "status": "proved",
   "theorems": [
    "HubToolbox.MPEmp.C20_full_succeeds_iff",
    "HubToolbox.MPEmp.C20_valid_secondary_distance",
    "HubToolbox.MPEmp.C20_off_diagonal_bound"
   ],
   "note": "Float arrays incl. nan and inf."
  },
  {
   "property": "C21",
   "status": "proved",
   "theorems": [
    "HubToolbox.MPEmp.C21_computes_definition"
   ],
   "note": "Both metrics; similarity mode needs D_ij other than +inf."
  },
  {
   "property": "C22",
   "status": "proved",
   "theorems": [
    "HubToolbox.MPEmp.C22_order_only",
    "HubToolbox.MPEmp.C22_relabelling"
   ],
   "note": "Relabelling for symmetric matrices."
  },
  {
   "property": "C23",
   "status": "proved",
   "theorems": [
    "HubToolbox.MPEmp.C23_duality"
   ],
   "note": "Symmetric finite matrices."
  },
  {
   "property": "C24",
   "status": "proved",
   "theorems": [
    "HubToolbox.MPEmp.C24_sample_values",
    "HubToolbox.MPEmp.C24_sample_range",
    "HubToolbox.MPEmp.C24_full_sample",
    "HubToolbox.MPEmp.C24_test_rows"
   ],
   "note": "Integer index arrays; holds for non-injective samples too."
  },
  {
   "property": "C25",
   "status": "proved",
   "theorems": [
    "HubToolbox.MPEmp.C25_sparse_values",
    "HubToolbox.MPEmp.C25_sparse_eq_dense",
    "HubToolbox.MPEmp.C25_schedule_independent"
   ],
   "note": "CSR matrix with sorted indices and without explicit zeros."
  },
  {
   "property": "C28",
   "status": "proved",
   "theorems": [
    "HubToolbox.LS.C28_formula",
    "HubToolbox.LS.C28_radii_exist",
    "HubToolbox.LS.C28_radii_exist_all",
    "HubToolbox.LS.C28_valid"
   ],
   "note": "real arithmetic; every schedule, partial sort and number of processes"
  },
  {
   "property": "C29",
   "status": "proved",
   "theorems": [
    "HubToolbox.LS.C29_scale_invariant",
    "HubToolbox.LS.C29_monotone"
   ],
   "note": "scale invariance for all float matrices including inf and nan"
  },
  {
   "property": "C30",
   "status": "partial",
   "theorems": [
    "HubToolbox.LS.C30_violated",
    "HubToolbox.LS.C30_reversed_partial"
   ],
   "note": "violated: the order of non-negative similarities is reversed; both facts proved"
  },
  {
   "property": "C31",
   "status": "proved",
   "theorems": [
    "HubToolbox.LS.C31_local_scaling",
    "HubToolbox.LS.C31_nicdm"
   ],
   "note": "n > 0; local_scaling for n_jobs = -1 or positive"
  },
  {
   "property": "C32",
   "status": "proved",
   "theorems": [
    "HubToolbox.LS.C32_formula",
    "HubToolbox.LS.C32_nearest_exist",
    "HubToolbox.LS.C32_valid",
    "HubToolbox.LS.C32_scale",
    "HubToolbox.LS.C32_uniform"
   ],
   "note": "positive mean radii for the formula; scaling for all matrices"
  },
  {
   "property": "C33",
   "status": "partial",
   "theorems": [
    "HubToolbox.LS.C33_local_scaling_violated",
    "HubToolbox.LS.C33_nicdm_violated",
    "HubToolbox.LS.C33_local_scaling_test_partial",
    "HubToolbox.LS.C33_local_scaling_prefix_partial",
    "HubToolbox.LS.C33_nicdm_test_partial",
    "HubToolbox.SNN.C33_snn_violated",
    "HubToolbox.SNN.C33_snn_test_partial",
    "HubToolbox.SNN.C33_snn_all_partial"
   ],
   "note": "violated without test_ind for training points not in prefix position; holds with test_ind or for a prefix"
  },
  {
   "property": "C42",
   "status": "proved",
   "theorems": [
    "HubToolbox.Knn.C42_loo",
    "HubToolbox.Knn.C42_test_set"
   ],
   "note": "Dense and sparse matrices with at least one point; test sets without repetition."
  },
  {
   "property": "C43",
   "status": "proved",
   "theorems": [
    "HubToolbox.Knn.C43_dense_loo",
    "HubToolbox.Knn.C43_predict",
    "HubToolbox.Knn.C43_samples",
    "HubToolbox.Knn.C43_sparse_loo"
   ],
   "note": "For k >= 1 and points with a finite neighbour and without infinitely near ones; sparse rows additionally need a strictly largest self similarity (see C56)."
  },
  {
   "property": "C44",
   "status": "proved",
   "theorems": [
    "HubToolbox.Knn.C44_predict",
    "HubToolbox.Knn.C44_score"
   ],
   "note": "Dense matrices; see C56 for sparse ones."
  },
  {
   "property": "C45",
   "status": "partial",
   "theorems": [
    "HubToolbox.Knn.C45_partial",
    "HubToolbox.Knn.C45_actual",
    "HubToolbox.Knn.C45_ignored",
    "HubToolbox.Knn.C45_violated",
    "HubToolbox.Knn.C45_sparse_violated"
   ],
   "note": "False for the code: the training set is computed from the size of the test set. Proved for test sets which are the last part of the data and at least as large as the rest."
  },
  {
   "property": "C46",
   "status": "partial",
   "theorems": [
    "HubToolbox.Knn.C46_violated"
   ],
   "note": "False for the code: every call with test_ind raises UnboundLocalError."
  },
  {
   "property": "C47",
   "status": "proved",
   "theorems": [
    "HubToolbox.Knn.C47_dice",
    "HubToolbox.Knn.C47_no_true_positive",
    "HubToolbox.Knn.C47_range",
    "HubToolbox.Knn.C47_perfect",
    "HubToolbox.Knn.C47_macro",
    "HubToolbox.Knn.C47_weighted",
    "HubToolbox.Knn.C47_micro"
   ],
   "note": ""
  },
  {
   "property": "C51",
   "status": "partial",
   "theorems": [
    "HubToolbox.MPEmp.C51_index_array_ignored",
    "HubToolbox.MPEmp.C51_mask_refused_partial"
   ],
   "note": "The code violates this: every integer index array without -1 is silently ignored (proved); only boolean masks are refused."
  },
  {
   "property": "C52",
   "status": "partial",
   "theorems": [
    "HubToolbox.MPEmp.C52_min_nnz_boundary",
    "HubToolbox.MPEmp.C52_min_nnz_witness",
    "HubToolbox.MPEmp.C25_sparse_values"
   ],
   "note": "The code violates this: rows with exactly min_nnz values are not rescaled and entries towards them become nan (proved). For rows with more than min_nnz values see C25_sparse_values."
  },
  {
   "property": "C53",
   "status": "proved",
   "theorems": [
    "HubToolbox.Hubness.C53_skewness"
   ],
   "note": "scipy before 1.9 convention for constant counts."
  },
  {
   "property": "C54",
   "status": "proved",
   "theorems": [
    "HubToolbox.GK.C54_heuristic"
   ],
   "note": ""
  },
  {
   "property": "C55",
   "status": "partial",
   "theorems": [
    "HubToolbox.Knn.C55_partial",
    "HubToolbox.Knn.C55_violated",
    "HubToolbox.Knn.C55_rank_partial"
   ],
   "note": "False for the code: class numbers are returned. Proved for label sets 0..C-1; for all label sets the prediction is the number of smaller labels (C55_rank_partial)."
  },
  {
   "property": "C56",
   "status": "partial",
   "theorems": [
    "HubToolbox.Knn.C56_partial",
    "HubToolbox.Knn.C56_violated"
   ],
   "note": "False for the code if another similarity equals the self similarity. Proved for strictly largest self similarities."
  },
  {
   "property": "C57",
   "status": "partial",
   "theorems": [
    "HubToolbox.Knn.C57_metric_ignored",
    "HubToolbox.Knn.C57_violated"
   ],
   "note": "False for the code: metric has no influence for sparse matrices."
  },
  {
   "property": "C58",
   "status": "proved",
   "theorems": [
    "HubToolbox.Knn.C58_range"
   ],
   "note": ""
  },
  {
   "property": "C59",
   "status": "proved",
   "theorems": [
    "HubToolbox.Knn.C59_exact"
   ],
   "note": ""
  },
  {
   "property": "C60",
   "status": "partial",
   "theorems": [
    "HubToolbox.Knn.C60_partial",
    "HubToolbox.Knn.C60_violated",
    "HubToolbox.Knn.C60_exact"
   ],
   "note": "False for the code: no labels for points without a relevant neighbour. C60_exact: exactly the other points get the labels of all their nearest neighbours, nearest first."
  },
  {
   "property": "C61",
   "status": "proved",
   "theorems": [
    "HubToolbox.HubClass.C61_atkinson"
   ],
   "note": ""
  },
  {
   "property": "C62",
   "status": "partial",
   "theorems": [
    "HubToolbox.HubClass.C62_partial",
    "HubToolbox.HubClass.C62_violated",
    "HubToolbox.HubClass.C62_iff"
   ],
   "note": "False for the code in the boundary case: it compares with >=. C62_iff: as documented exactly if no object occurs hub_size*k times."
  },
  {
   "property": "C63",
   "status": "partial",
   "theorems": [
    "HubToolbox.HubClass.C63_partial",
    "HubToolbox.HubClass.C63_violated"
   ],
   "note": "False for the code: metric='cosine' always raises TypeError on vectors (keyword arguments of the Euclidean distance). Proved for metric='euclidean'."
  },
  {
   "property": "C64",
   "status": "partial",
   "theorems": [
    "HubToolbox.HubClass.C64_partial",
    "HubToolbox.HubClass.C64_given_Y",
    "HubToolbox.HubClass.C64_violated",
    "HubToolbox.HubClass.C64_left_out"
   ],
   "note": "False for the code with duplicated vectors. Proved for different vectors, and with Y given; in general the vector or a copy of it is left out (C64_left_out)."
  },
  {
   "property": "C65",
   "status": "proved",
   "theorems": [
    "HubToolbox.HubClass.C65_same_as_estimator"
   ],
   "note": ""
  },
  {
   "property": "C66",
   "status": "proved",
   "theorems": [
    "HubToolbox.HubClass.C66_same_as_function"
   ],
   "note": ""
  },
  {
   "property": "C67",
   "status": "partial",
   "theorems": [
    "HubToolbox.HubClass.C67_partial",
    "HubToolbox.HubClass.C67_violated"
   ],
   "note": "False for the code: the option is ignored for sparse matrices. Proved: the lists are the nearest stored entries."
  },
  {
   "property": "C68",
   "status": "partial",
   "theorems": [
    "HubToolbox.LS.C68_violated",
    "HubToolbox.LS.C68_no_nan_partial",
    "HubToolbox.LS.C68_exact",
    "HubToolbox.LS.C68_nan_iff"
   ],
   "note": "Violated by copies (0/0). C68_exact gives every value for all nonnegative distances; C68_nan_iff: nan exactly for pairs of distance zero of which one object has k copies."
  },
  {
   "property": "C69",
   "status": "partial",
   "theorems": [
    "HubToolbox.LS.C69_violated",
    "HubToolbox.LS.C69_too_large_partial",
    "HubToolbox.LS.C69_sample_too_large_partial",
    "HubToolbox.LS.C69_exact",
    "HubToolbox.LS.C69_nicdm_exact"
   ],
   "note": "violated: k=0 and k=n return the zero matrix. C69_exact: with T training points exactly -T < k <= T is accepted for distances, n-T < k <= n+T for similarities, 0 <= k <= T by nicdm"
  },
  {
   "property": "C70",
   "status": "partial",
   "theorems": [
    "HubToolbox.LS.C70_violated",
    "HubToolbox.LS.C70_formula_partial"
   ],
   "note": "violated with held-out points; holds without"
  },
  {
   "property": "C71",
   "status": "partial",
   "theorems": [
    "HubToolbox.LS.C71_violated",
    "HubToolbox.LS.C71_valid_partial"
   ],
   "note": "violated: other values give UnboundLocalError in local_scaling"
  },
  {
   "property": "C34",
   "status": "proved",
   "theorems": [
    "HubToolbox.SNN.C34_formula",
    "HubToolbox.SNN.C34_determined",
    "HubToolbox.SNN.C34_valid",
    "HubToolbox.SNN.C34_sum_one",
    "HubToolbox.SNN.C34_parallel",
    "HubToolbox.SNN.C34_floats"
   ],
   "note": ""
  },
  {
   "property": "C35",
   "status": "proved",
   "theorems": [
    "HubToolbox.SNN.C35_formula",
    "HubToolbox.SNN.C35_valid",
    "HubToolbox.SNN.C35_same"
   ],
   "note": "finite off-diagonal distances, float64 matrices"
  },
  {
   "property": "C36",
   "status": "partial",
   "theorems": [
    "HubToolbox.SNN.C36_violated",
    "HubToolbox.SNN.C36_violated_classes",
    "HubToolbox.SNN.C36_formula",
    "HubToolbox.SNN.C36_upper_partial",
    "HubToolbox.SNN.C36_two_classes_partial"
   ],
   "note": "violated for every number of classes above two (four classes among six points; for each number a metric space is constructed); the upper bound holds always, and [0,1] for two classes, so two classes are exactly the case in which the property holds"
  },
  {
   "property": "C72",
   "status": "proved",
   "theorems": [
    "HubToolbox.SNN.C72_order_invariant"
   ],
   "note": ""
  },
  {
   "property": "C73",
   "status": "partial",
   "theorems": [
    "HubToolbox.SNN.C73_violated",
    "HubToolbox.SNN.C73_partial",
    "HubToolbox.SNN.C73_exact"
   ],
   "note": "violated: k=0 with distances gives nan, k=n with similarities gives ones. C73_exact: exactly -n <= k < n is accepted for distances, 1 <= k <= 2n for similarities"
  },
  {
   "property": "C74",
   "status": "partial",
   "theorems": [
    "HubToolbox.SNN.C74_violated",
    "HubToolbox.SNN.C74_square_partial"
   ],
   "note": "violated with train_ind: the loop branch compares with the first rows; holds without train_ind"
  },
  {
   "property": "C75",
   "status": "partial",
   "theorems": [
    "HubToolbox.SNN.C75_violated",
    "HubToolbox.SNN.C75_partial",
    "HubToolbox.SNN.C75_formula_partial"
   ],
   "note": "violated: occurrences are counted over the first m rows; holds if the training points are the first rows"
  },
  {
   "property": "C76",
   "status": "partial",
   "theorems": [
    "HubToolbox.SNN.C76_violated",
    "HubToolbox.SNN.C76_violated_large",
    "HubToolbox.SNN.C76_simhub_partial",
    "HubToolbox.SNN.C76_exact"
   ],
   "note": "violated by simhubIN (s=0: nan, s>=n: all ones); simhub rejects"
  },
  {
   "property": "C77",
   "status": "partial",
   "theorems": [
    "HubToolbox.SNN.C77_violated",
    "HubToolbox.SNN.C77_partial",
    "HubToolbox.SNN.C77_nan_iff"
   ],
   "note": "Violated by a single class (0/0); C77_nan_iff: nan exactly in this case."
  },
  {
   "property": "C78",
   "status": "partial",
   "theorems": [
    "HubToolbox.SNN.C78_violated",
    "HubToolbox.SNN.C78_partial"
   ],
   "note": "violated for non-prefix train_ind; holds for a prefix"
  },
  {
   "property": "C37",
   "status": "proved",
   "theorems": [
    "HubToolbox.Cent.C37_formula",
    "HubToolbox.Cent.C37_no_training",
    "HubToolbox.Cent.C37_zero_mean",
    "HubToolbox.Cent.C37_idempotent",
    "HubToolbox.Cent.C37_translation",
    "HubToolbox.Cent.C37_differences",
    "HubToolbox.Cent.C37_held_out"
   ],
   "note": "for a nonempty training set; without training rows the result is nan"
  },
  {
   "property": "C38",
   "status": "proved",
   "theorems": [
    "HubToolbox.Cent.C38_gram",
    "HubToolbox.Cent.C38_commutes",
    "HubToolbox.Cent.C38_column_sums",
    "HubToolbox.Cent.C38_row_sums",
    "HubToolbox.Cent.C38_idempotent",
    "HubToolbox.Cent.C38_finite",
    "HubToolbox.Cent.C38_errors"
   ],
   "note": "all four accepted metric names"
  },
  {
   "property": "C39",
   "status": "partial",
   "theorems": [
    "HubToolbox.Cent.C39_gamma_zero",
    "HubToolbox.Cent.C39_formula",
    "HubToolbox.Cent.C39_convex_partial",
    "HubToolbox.Cent.C39_zero_vector_violated",
    "HubToolbox.Cent.C39_parallel_violated",
    "HubToolbox.Cent.C39_mask_ignored",
    "HubToolbox.Cent.C39_held_out_violated",
    "HubToolbox.Cent.C39_metric"
   ],
   "note": "gamma=0 without mask holds; held-out vectors leak into the weighted mean; zero or parallel vectors give nan"
  },
  {
   "property": "C40",
   "status": "proved",
   "theorems": [
    "HubToolbox.Cent.C40_formula",
    "HubToolbox.Cent.C40_formula_test",
    "HubToolbox.Cent.C40_symmetric",
    "HubToolbox.Cent.C40_translation",
    "HubToolbox.Cent.C40_features"
   ],
   "note": ""
  },
  {
   "property": "C41",
   "status": "partial",
   "theorems": [
    "HubToolbox.Cent.C41_formula",
    "HubToolbox.Cent.C41_formula_test",
    "HubToolbox.Cent.C41_symmetric",
    "HubToolbox.Cent.C41_diagonal",
    "HubToolbox.Cent.C41_jobs",
    "HubToolbox.Cent.C41_too_large",
    "HubToolbox.Cent.C41_two_arguments_violated",
    "HubToolbox.Cent.C41_two_arguments_plain"
   ],
   "note": "symmetry and serial=parallel hold; dis_sim_local(X, X) differs from dis_sim_local(X) because points become their own neighbours"
  },
  {
   "property": "C79",
   "status": "proved",
   "theorems": [
    "HubToolbox.Cent.C79_global_is_centering",
    "HubToolbox.Cent.C79_zero_sum"
   ],
   "note": ""
  },
  {
   "property": "C80",
   "status": "partial",
   "theorems": [
    "HubToolbox.Cent.C80_reversed_violated",
    "HubToolbox.Cent.C80_negative_gamma_partial"
   ],
   "note": "violated: weights decrease with the similarity for gamma>0"
  },
  {
   "property": "C81",
   "status": "partial",
   "theorems": [
    "HubToolbox.Cent.C81_euclidean_violated"
   ],
   "note": "violated: the result is that of plain centering of all rows, whatever gamma and mask"
  },
  {
   "property": "C82",
   "status": "partial",
   "theorems": [
    "HubToolbox.Cent.C82_serial_violated",
    "HubToolbox.Cent.C82_translation_violated",
    "HubToolbox.Cent.C82_parallel_violated",
    "HubToolbox.Cent.C82_integer_partial"
   ],
   "note": "violated: centroids are truncated (one process) or TypeError (several); holds for k=1 in one process"
  },
  {
   "property": "C83",
   "status": "proved",
   "theorems": [
    "HubToolbox.Cent.C83_translation",
    "HubToolbox.Cent.C83_translation_test"
   ],
   "note": "floating point data"
  },
  {
   "property": "C84",
   "status": "partial",
   "theorems": [
    "HubToolbox.Cent.C84_boolean_mask_violated",
    "HubToolbox.Cent.C84_boolean_example",
    "HubToolbox.Cent.C84_index_mask_partial"
   ],
   "note": "violated: truth values are compared with row numbers; index arrays work"
  },
  {
   "property": "C85",
   "status": "proved",
   "theorems": [
    "HubToolbox.Cent.C85_jobs"
   ],
   "note": ""
  },
  {
   "property": "C86",
   "status": "proved",
   "theorems": [
    "HubToolbox.Cent.C86_scale",
    "HubToolbox.Cent.C86_scale_test"
   ],
   "note": ""
  },
  {
   "property": "C87",
   "status": "proved",
   "theorems": [
    "HubToolbox.Cent.C87_formula",
    "HubToolbox.Cent.C87_one_argument",
    "HubToolbox.Cent.C87_too_large"
   ],
   "note": ""
  },
  {
   "property": "C88",
   "status": "proved",
   "theorems": [
    "HubToolbox.Cent.C88_kappa_n"
   ],
   "note": ""
  },
  {
   "property": "C26",
   "status": "proved",
   "theorems": [
    "HubToolbox.MPPar.C26_valid",
    "HubToolbox.MPPar.C26_formula",
    "HubToolbox.MPPar.C26_monotone"
   ],
   "note": "finite matrices, real arithmetic, any monotone cdf with values in [0,1]"
  },
  {
   "property": "C27",
   "status": "partial",
   "theorems": [
    "HubToolbox.MPPar.C27_valid_partial",
    "HubToolbox.MPPar.C27_violated_two",
    "HubToolbox.MPPar.C27_violated_negative",
    "HubToolbox.MPPar.C27_exact",
    "HubToolbox.MPPar.C27_iff"
   ],
   "note": "C27_exact gives every value with the functions of scipy; C27_iff: holds exactly if every object has two values with positive mean (or there is one object at most), nan otherwise"
  },
  {
   "property": "C89",
   "status": "proved",
   "theorems": [
    "HubToolbox.MPPar.C89_affine"
   ],
   "note": ""
  },
  {
   "property": "C90",
   "status": "proved",
   "theorems": [
    "HubToolbox.MPPar.C90_duality"
   ],
   "note": ""
  },
  {
   "property": "C91",
   "status": "proved",
   "theorems": [
    "HubToolbox.MPPar.C91_scale"
   ],
   "note": ""
  },
  {
   "property": "C92",
   "status": "proved",
   "theorems": [
    "HubToolbox.MPPar.C92_held_out"
   ],
   "note": ""
  },
  {
   "property": "C93",
   "status": "proved",
   "theorems": [
    "HubToolbox.MPPar.C93_relabel"
   ],
   "note": ""
  },
  {
   "property": "C94",
   "status": "partial",
   "theorems": [
    "HubToolbox.MPPar.C94_violated"
   ],
   "note": "violated: every positive sample_size raises TypeError (random.sample of an ndarray)"
  },
  {
   "property": "C95",
   "status": "proved",
   "theorems": [
    "HubToolbox.MPPar.C95_all"
   ],
   "note": ""
  },
  {
   "property": "C96",
   "status": "proved",
   "theorems": [
    "HubToolbox.MPPar.C96_rows"
   ],
   "note": ""
  },
  {
   "property": "C97",
   "status": "proved",
   "theorems": [
    "HubToolbox.MPPar.C97_formula"
   ],
   "note": ""
  },
  {
   "property": "C98",
   "status": "proved",
   "theorems": [
    "HubToolbox.MPPar.C98_rejects",
    "HubToolbox.MPPar.C98_rejects_metric",
    "HubToolbox.MPPar.C98_rejects_sample"
   ],
   "note": ""
  },
  {
   "property": "C99",
   "status": "partial",
   "theorems": [
    "HubToolbox.MPPar.C99_valid_partial",
    "HubToolbox.MPPar.C99_violated",
    "HubToolbox.MPPar.C99_nan_iff"
   ],
   "note": "Holds if the values present for each object are not all the same; C99_nan_iff: nan exactly for present values of objects without spread."
  },
  {
   "property": "C100",
   "status": "partial",
   "theorems": [
    "HubToolbox.MPPar.C100_complete_partial",
    "HubToolbox.MPPar.C100_violated"
   ],
   "note": "holds if the values of each object are not all the same"
  },
  {
   "property": "C101",
   "status": "partial",
   "theorems": [
    "HubToolbox.MPPar.C101_violated"
   ],
   "note": "violated: min_nnz is never read"
  },
  {
   "property": "C102",
   "status": "partial",
   "theorems": [
    "HubToolbox.MPPar.C102_training_partial",
    "HubToolbox.MPPar.C102_violated"
   ],
   "note": "holds for pairs of training objects; the self value is subtracted for held-out objects as well, which do not have one"
  },
  {
   "property": "C103",
   "status": "partial",
   "theorems": [
    "HubToolbox.MPPar.C103_violated"
   ],
   "note": "violated: unlike the empirical variant there is no check, distances are treated as similarities"
  },
  {
   "property": "C104",
   "status": "proved",
   "theorems": [
    "HubToolbox.MPPar.C104_rejects"
   ],
   "note": ""
  },
  {
   "property": "C105",
   "status": "partial",
   "theorems": [
    "HubToolbox.MPPar.C105_kept_partial",
    "HubToolbox.MPPar.C105_violated_boundary",
    "HubToolbox.MPPar.C105_violated_pair"
   ],
   "note": "rows with at most min_nnz values are kept; a row with exactly min_nnz values is not rescaled; similarity to an object with a smaller number and few values becomes zero"
  },
  {
   "property": "C106",
   "status": "partial",
   "theorems": [
    "HubToolbox.MPPar.C106_relabel_partial",
    "HubToolbox.MPPar.C106_violated"
   ],
   "note": "Gaussian always; Gamma and Gumbel if all objects have more than min_nnz values"
  },
  {
   "property": "C107",
   "status": "partial",
   "theorems": [
    "HubToolbox.MPPar.C107_missing_partial",
    "HubToolbox.MPPar.C107_violated"
   ],
   "note": "Gaussian and Gumbel always; the Gamma variant gives nan for objects with a single value"
  },
  {
   "property": "C108",
   "status": "partial",
   "theorems": [
    "HubToolbox.MPPar.C108_valid_partial"
   ],
   "note": "holds if each object has more than min_nnz values, not all the same, with positive mean; otherwise see C105 and C107"
  },
  {
   "property": "C48",
   "status": "proved",
   "theorems": [
    "HubToolbox.Counter.C48_linearizable",
    "HubToolbox.Counter.C48_each_once",
    "HubToolbox.Counter.C48_default",
    "HubToolbox.Counter.C48_no_deadlock",
    "HubToolbox.Counter.C48_can_finish",
    "HubToolbox.Counter.C48_lock_needed"
   ],
   "note": "for up to 2^31 calls of a default counter; afterwards the C int wraps"
  },
  {
   "property": "C50",
   "status": "proved",
   "theorems": [
    "HubToolbox.IntDim.C50_scale",
    "HubToolbox.IntDim.C50_permute",
    "HubToolbox.IntDim.C50_rejects"
   ],
   "note": ""
  },
  {
   "property": "C109",
   "status": "partial",
   "theorems": [
    "HubToolbox.IntDim.C109_formula_partial"
   ],
   "note": "k1=1 is missing, for which the result is never finite (C112)"
  },
  {
   "property": "C110",
   "status": "proved",
   "theorems": [
    "HubToolbox.IntDim.C110_isometry",
    "HubToolbox.IntDim.C110_translation"
   ],
   "note": ""
  },
  {
   "property": "C111",
   "status": "proved",
   "theorems": [
    "HubToolbox.IntDim.C111_memory"
   ],
   "note": ""
  },
  {
   "property": "C112",
   "status": "partial",
   "theorems": [
    "HubToolbox.IntDim.C112_positive_partial",
    "HubToolbox.IntDim.C112_violated"
   ],
   "note": "holds for k1 >= 2; k1=1 is accepted but never gives a finite number"
  },
  {
   "property": "C113",
   "status": "partial",
   "theorems": [
    "HubToolbox.IntDim.C113_violated"
   ],
   "note": "violated: the estimate is not rounded"
  },
  {
   "property": "C114",
   "status": "partial",
   "theorems": [
    "HubToolbox.IntDim.C114_violated"
   ],
   "note": "violated: always NotImplementedError"
  },
  {
   "property": "C49",
   "status": "proved",
   "theorems": [
    "HubToolbox.Approx.C49_total",
    "HubToolbox.Approx.C49_finite_nonneg",
    "HubToolbox.Approx.C49_order",
    "HubToolbox.Approx.C49_maximum"
   ],
   "note": ""
  },
  {
   "property": "C115",
   "status": "proved",
   "theorems": [
    "HubToolbox.Approx.C115_noop",
    "HubToolbox.Approx.C115_idempotent",
    "HubToolbox.Approx.C115_shift"
   ],
   "note": ""
  },
  {
   "property": "C116",
   "status": "proved",
   "theorems": [
    "HubToolbox.Approx.C116_total"
   ],
   "note": ""
  },
  {
   "property": "C117",
   "status": "proved",
   "theorems": [
    "HubToolbox.Approx.C117_seeding"
   ],
   "note": ""
  },
  {
   "property": "C118",
   "status": "partial",
   "theorems": [
    "HubToolbox.Approx.C118_distinct_partial",
    "HubToolbox.Approx.C118_violated",
    "HubToolbox.Approx.C118_duplicates_violated"
   ],
   "note": "holds unless a random number is exactly zero; violated then, and with duplicates"
  },
  {
   "property": "C119",
   "status": "partial",
   "theorems": [
    "HubToolbox.Approx.C119_violated",
    "HubToolbox.Approx.C119_metric"
   ],
   "note": "violated: the default random_state=None raises AttributeError; other metrics are rejected"
  },
  {
   "property": "C120",
   "status": "proved",
   "theorems": [
    "HubToolbox.Approx.C120_formula",
    "HubToolbox.Approx.C120_total",
    "HubToolbox.Approx.C120_range",
    "HubToolbox.Approx.C120_precomputed"
   ],
   "note": ""
  },
  {
   "property": "C121",
   "status": "proved",
   "theorems": [
    "HubToolbox.Approx.C121_agrees"
   ],
   "note": ""
  },
  {
   "property": "C122",
   "status": "partial",
   "theorems": [
    "HubToolbox.Approx.C122_sparse_partial",
    "HubToolbox.Approx.C122_random_partial",
    "HubToolbox.Approx.C122_violated"
   ],
   "note": "holds if no vantage point is selected twice; violated otherwise (kmeans++)"
  },
  {
   "property": "C123",
   "status": "partial",
   "theorems": [
    "HubToolbox.Approx.C123_exact_partial",
    "HubToolbox.Approx.C123_violated"
   ],
   "note": "holds without ties; violated with ties"
  },
  {
   "property": "C124",
   "status": "proved",
   "theorems": [
    "HubToolbox.Approx.C124_range"
   ],
   "note": ""
  },
  {
   "property": "C125",
   "status": "partial",
   "theorems": [
    "HubToolbox.Approx.C125_self_partial",
    "HubToolbox.Approx.C125_violated"
   ],
   "note": "holds if the index returns the object itself first; violated for duplicates"
  },
  {
   "property": "C126",
   "status": "proved",
   "theorems": [
    "HubToolbox.Approx.C126_formula"
   ],
   "note": ""
  },
  {
   "property": "C127",
   "status": "partial",
   "theorems": [
    "HubToolbox.Approx.C127_plain_violated",
    "HubToolbox.Approx.C127_methods_violated"
   ],
   "note": "violated for every method: the given distances are taken as vectors or an exception is raised"
  },
  {
   "property": "C128",
   "status": "partial",
   "theorems": [
    "HubToolbox.Approx.C128_formula_partial",
    "HubToolbox.Approx.C128_violated",
    "HubToolbox.Approx.C128_sampled"
   ],
   "note": "holds without sampling; with sampling the moments of the vantage points include the zero distance to themselves"
  },
  {
   "property": "C129",
   "status": "partial",
   "theorems": [
    "HubToolbox.Approx.C129_range_partial",
    "HubToolbox.Approx.C129_violated",
    "HubToolbox.Approx.C129_nan_iff"
   ],
   "note": "values are nan or in the unit interval; nan exactly if all vantage points are at the same distance from the test object or all others at the same distance from the vantage point (with sampling: distance zero)"
  },
  {
   "property": "C130",
   "status": "proved",
   "theorems": [
    "HubToolbox.Approx.C130_formula",
    "HubToolbox.Approx.C130_range",
    "HubToolbox.Approx.C130_too_many"
   ],
   "note": ""
  },
  {
   "property": "C131",
   "status": "partial",
   "theorems": [
    "HubToolbox.Approx.C131_formula_partial",
    "HubToolbox.Approx.C131_violated"
   ],
   "note": "holds if the partial sort puts the smallest value in front; violated for other partial sorts allowed by numpy"
  },
  {
   "property": "C132",
   "status": "partial",
   "theorems": [
    "HubToolbox.Approx.C132_formula_partial",
    "HubToolbox.Approx.C132_violated",
    "HubToolbox.Approx.C132_too_many"
   ],
   "note": "holds if the partial sort is a complete sort and vantage points differ; violated for other partial sorts allowed by numpy"
  },
  {
   "property": "C133",
   "status": "proved",
   "theorems": [
    "HubToolbox.Approx.C133_ls",
    "HubToolbox.Approx.C133_nicdm"
   ],
   "note": ""
  },
  {
   "property": "C134",
   "status": "proved",
   "theorems": [
    "HubToolbox.Approx.C134_agrees"
   ],
   "note": ""
  },
  {
   "property": "C135",
   "status": "proved",
   "theorems": [
    "HubToolbox.LS.C135_square",
    "HubToolbox.LS.C135_metric",
    "HubToolbox.LS.C135_not_implemented",
    "HubToolbox.LS.C135_sample"
   ],
   "note": ""
  },
  {
   "property": "C136",
   "status": "partial",
   "theorems": [
    "HubToolbox.Approx.C136_fit_partial",
    "HubToolbox.Approx.C136_trafo_partial",
    "HubToolbox.Approx.C136_parallel",
    "HubToolbox.Approx.C136_parallel_fit",
    "HubToolbox.Approx.C136_violated"
   ],
   "note": "Holds if the index always finds enough neighbours, and with several processes. Violated with n_jobs=1: np.empty leaves memory contents which enter the maximum used to fill missing distances."
  },
  {
   "property": "C137",
   "status": "partial",
   "theorems": [
    "HubToolbox.Approx.C137_exact_partial",
    "HubToolbox.Approx.C137_cosine_violated"
   ],
   "note": "Holds if the index compares with the same distance as the code (squared Euclidean). Violated for cosine, where FALCONN compares negative inner products with the cosine distance used as threshold."
  },
  {
   "property": "C138",
   "status": "partial",
   "theorems": [
    "HubToolbox.Approx.C138_accepts",
    "HubToolbox.Approx.C138_case",
    "HubToolbox.Approx.C138_jobs",
    "HubToolbox.Approx.C138_fit_partial",
    "HubToolbox.Approx.C138_precomputed_violated"
   ],
   "note": "Validation is complete. Violated for metric 'precomputed', which is accepted but cannot be fitted for most algorithms (ValueError or UnboundLocalError)."
  },
  {
   "property": "C139",
   "status": "partial",
   "theorems": [
    "HubToolbox.Approx.C139_nonneg_partial",
    "HubToolbox.Approx.C139_uniform_partial",
    "HubToolbox.Approx.C139_violated"
   ],
   "note": "Holds for finite non-negative distances, and for uniform weights with different distances. Violated with weights='distance': enforce_finite_distances shifts the whole batch by its minimum."
  },
  {
   "property": "C140",
   "status": "partial",
   "theorems": [
    "HubToolbox.Approx.C140_fixed_partial",
    "HubToolbox.Approx.C140_violated"
   ],
   "note": "Holds with fixed vantage points. Violated with hnsw and lsh, where knn__n_neighbors is ignored and n_neighbors used."
  },
  {
   "property": "C141",
   "status": "partial",
   "theorems": [
    "HubToolbox.Approx.C141_sqeuclidean_partial",
    "HubToolbox.Approx.C141_cosine_violated"
   ],
   "note": "Holds for squared Euclidean distances. Violated for cosine: nmslib reports distances, which are converted as if they were similarities."
  },
  {
   "property": "C142",
   "status": "partial",
   "theorems": [
    "HubToolbox.Approx.C142_distinct_partial",
    "HubToolbox.Approx.C142_violated"
   ],
   "note": "Holds if the neighbours of an object are different. Violated if an index finds too few neighbours: the last one is repeated and scipy adds up the values."
  },
  {
   "property": "C143",
   "status": "partial",
   "theorems": [
    "HubToolbox.Dist.C143_value_partial",
    "HubToolbox.Dist.C143_symmetric",
    "HubToolbox.Dist.C143_scale",
    "HubToolbox.Dist.C143_violated",
    "HubToolbox.Dist.C143_nan_iff"
   ],
   "note": "Holds for vectors other than zero. Violated for zero vectors, whose distances to all others are nan."
  },
  {
   "property": "C144",
   "status": "proved",
   "theorems": [
    "HubToolbox.Dist.C144_value",
    "HubToolbox.Dist.C144_metric",
    "HubToolbox.Dist.C144_euclidean",
    "HubToolbox.Dist.C144_rejects"
   ],
   "note": ""
  },
  {
   "property": "C145",
   "status": "partial",
   "theorems": [
    "HubToolbox.Dist.C145_columns",
    "HubToolbox.Dist.C145_rejects",
    "HubToolbox.Dist.C145_size_partial",
    "HubToolbox.Dist.C145_numpy_violated"
   ],
   "note": "Holds for python numbers. Violated for numpy integers, which are treated as fractions."
  },
  {
   "property": "C146",
   "status": "partial",
   "theorems": [
    "HubToolbox.Dist.C146_regions_partial",
    "HubToolbox.Dist.C146_range_partial",
    "HubToolbox.Dist.C146_violated"
   ],
   "note": "Holds up to the factor n_y / (n_x + n_y), because the code divides by the number of objects in both sets although it counts those of Y only."
  },
  {
   "property": "C147",
   "status": "proved",
   "theorems": [
    "HubToolbox.Dist.C147_between",
    "HubToolbox.Dist.C147_self"
   ],
   "note": ""
  },
  {
   "property": "C148",
   "status": "partial",
   "theorems": [
    "HubToolbox.Dist.C148_range_ok",
    "HubToolbox.Dist.C148_mass_partial",
    "HubToolbox.Dist.C148_mass_violated",
    "HubToolbox.Dist.C148_rejects"
   ],
   "note": "Holds for 'range'. With 'mass' only those n_bins < n_y are accepted for which n_y mod n_bins is 0 or 1."
  },
  {
   "property": "C149",
   "status": "proved",
   "theorems": [
    "HubToolbox.Dist.C149_mass"
   ],
   "note": ""
  },
  {
   "property": "C150",
   "status": "proved",
   "theorems": [
    "HubToolbox.Dist.C150_range",
    "HubToolbox.Dist.C150_mass"
   ],
   "note": ""
  },
  {
   "property": "C151",
   "status": "proved",
   "theorems": [
    "HubToolbox.Analysis.C151_bookkeeping",
    "HubToolbox.Analysis.C151_exception",
    "HubToolbox.Analysis.C151_unknown"
   ],
   "note": "for every list of names without commas, every environment"
  },
  {
   "property": "C152",
   "status": "proved",
   "theorems": [
    "HubToolbox.Analysis.C152_numbers",
    "HubToolbox.Analysis.C152_analysis"
   ],
   "note": ""
  },
  {
   "property": "C153",
   "status": "proved",
   "theorems": [
    "HubToolbox.Analysis.C153_bounds",
    "HubToolbox.Analysis.C153_finite"
   ],
   "note": ""
  },
  {
   "property": "C154",
   "status": "proved",
   "theorems": [
    "HubToolbox.Analysis.C154_range",
    "HubToolbox.Analysis.C154_accuracy"
   ],
   "note": ""
  },
  {
   "property": "C155",
   "status": "partial",
   "theorems": [
    "HubToolbox.Analysis.C155_default_violated",
    "HubToolbox.Analysis.C155_succeeds_partial"
   ],
   "note": "violated: without vectors the default list always ends with an AttributeError after four experiments (centering needs vectors); the partial theorem gives sufficient conditions for every list of methods (with vectors and more than 12 points the default list completes)"
  },
  {
   "property": "C156",
   "status": "partial",
   "theorems": [
    "HubToolbox.Analysis.C156_default_violated",
    "HubToolbox.Analysis.C156_dsg_violated",
    "HubToolbox.Analysis.C156_cent_violated",
    "HubToolbox.Analysis.C156_dsg_partial",
    "HubToolbox.Analysis.C156_orig_partial"
   ],
   "note": "violated: the default list raises NotImplementedError for similarities (NICDM), and DisSim Global dissimilarities are evaluated as similarities, so that the listed neighbours are the least similar points; holds for distances and for the original similarities"
  },
  {
   "property": "C157",
   "status": "proved",
   "theorems": [
    "HubToolbox.Analysis.C157_relabelling",
    "HubToolbox.Analysis.C157_index"
   ],
   "note": ""
  },
  {
   "property": "C158",
   "status": "partial",
   "theorems": [
    "HubToolbox.InOut.C158_split",
    "HubToolbox.InOut.C158_succeeds_partial",
    "HubToolbox.InOut.C158_violated"
   ],
   "note": "every split found covers the matrix and fits into what the code takes for the free memory; violated: if a single row does not fit nr_matrices times, ZeroDivisionError"
  },
  {
   "property": "C159",
   "status": "partial",
   "theorems": [
    "HubToolbox.InOut.C159_ancient_partial",
    "HubToolbox.InOut.C159_modern_partial",
    "HubToolbox.InOut.C159_modern_violated",
    "HubToolbox.InOut.C159_ancient_swap_violated",
    "HubToolbox.InOut.C159_shared_violated"
   ],
   "note": "lines are read by position and the positions fit no kernel: before 3.14 memory, buffers and caches are right but swap is the free swap and swap_free the dirty pages; since 3.14 swap is right but MemAvailable is taken for buffers and buffers for caches; shared is the used memory"
  },
  {
   "property": "C160",
   "status": "proved",
   "theorems": [
    "HubToolbox.InOut.C160_similarity",
    "HubToolbox.InOut.C160_zero_draw",
    "HubToolbox.InOut.C160_empty"
   ],
   "note": ""
  },
  {
   "property": "C161",
   "status": "partial",
   "theorems": [
    "HubToolbox.InOut.C161_density_partial",
    "HubToolbox.InOut.C161_density_violated"
   ],
   "note": "between once and twice the number of drawn cells (plus the diagonal), twice if no mirror images coincide; violated for large densities"
  },
  {
   "property": "C162",
   "status": "partial",
   "theorems": [
    "HubToolbox.InOut.C162_round_trip_partial",
    "HubToolbox.InOut.C162_round_trip_violated"
   ],
   "note": "holds for names which end with .npz; violated otherwise: np.savez appends .npz, so loading fails or returns a former file"
  },
  {
   "property": "C163",
   "status": "partial",
   "theorems": [
    "HubToolbox.InOut.C163_vectors_partial",
    "HubToolbox.InOut.C163_zero_column_violated",
    "HubToolbox.InOut.C163_large_column"
   ],
   "note": "holds for valid columns; violated: column 0 wraps around to the last column"
  },
  {
   "property": "C164",
   "status": "proved",
   "theorems": [
    "HubToolbox.InOut.C164_vectors",
    "HubToolbox.InOut.C164_labels",
    "HubToolbox.InOut.C164_sample"
   ],
   "note": ""
  },
  {
   "property": "C165",
   "status": "proved",
   "theorems": [
    "HubToolbox.Relations.C165_local_scaling",
    "HubToolbox.Relations.C165_nicdm"
   ],
   "note": ""
  },
  {
   "property": "C166",
   "status": "proved",
   "theorems": [
    "HubToolbox.Relations.C166_snn",
    "HubToolbox.Relations.C166_simhubIN"
   ],
   "note": ""
  },
  {
   "property": "C167",
   "status": "proved",
   "theorems": [
    "HubToolbox.Relations.C167_global",
    "HubToolbox.Relations.C167_global_test",
    "HubToolbox.Relations.C167_local",
    "HubToolbox.Relations.C167_local_test"
   ],
   "note": ""
  },
  {
   "property": "C168",
   "status": "proved",
   "theorems": [
    "HubToolbox.Relations.C168_row_order",
    "HubToolbox.Relations.C168_local_scaling",
    "HubToolbox.Relations.C168_nicdm",
    "HubToolbox.Relations.C168_gaussi"
   ],
   "note": "for gaussi the normal distribution function is assumed strictly increasing, which holds over the reals"
  },
  {
   "property": "C169",
   "status": "proved",
   "theorems": [
    "HubToolbox.Relations.C169_score"
   ],
   "note": "dense distance and similarity matrices"
  },
  {
   "property": "C170",
   "status": "partial",
   "theorems": [
    "HubToolbox.Analysis.C170_printing_partial",
    "HubToolbox.Analysis.C170_printing_violated"
   ],
   "note": "Holds unless the intrinsic dimension estimate is infinite or not a number; then round() raises after the first report, e.g. for more than twelve equidistant vectors."
  },
  {
   "property": "C171",
   "status": "proved",
   "theorems": [
    "HubToolbox.Analysis.C171_report",
    "HubToolbox.Analysis.C171_parameters"
   ],
   "note": "Numbers are printed unrounded in the model."
  },
  {
   "property": "C172",
   "status": "partial",
   "theorems": [
    "HubToolbox.Analysis.C172_missing_partial",
    "HubToolbox.Analysis.C172_accuracy_violated"
   ],
   "note": "Holds for index and dimensions; missing accuracies are never mentioned, since the loop over an empty dictionary raises no KeyError."
  },
  {
   "property": "C173",
   "status": "proved",
   "theorems": [
    "HubToolbox.Analysis.C173_again",
    "HubToolbox.Analysis.C173_unused"
   ],
   "note": ""
  },
  {
   "property": "C174",
   "status": "proved",
   "theorems": [
    "HubToolbox.Approx.C174_refit"
   ],
   "note": "The libraries (random state, indices) answer the same question the same way in all calls. Changing parameters in between is the subject of C176."
  },
  {
   "property": "C175",
   "status": "partial",
   "theorems": [
    "HubToolbox.Approx.C175_partial",
    "HubToolbox.Approx.C175_violated"
   ],
   "note": "Holds if the rejected data have at least as many objects, or without sampling. Violated by random sampling: n_train_ is overwritten before fitting, so that the sparse matrix is too small."
  },
  {
   "property": "C176",
   "status": "partial",
   "theorems": [
    "HubToolbox.Approx.C176_partial",
    "HubToolbox.Approx.C176_violated"
   ],
   "note": "Violated exactly by MP and MPG without sampling, which overwrite n_samples; with sampling switched to random the estimator then cannot be fitted to the same data."
  },
  {
   "property": "C177",
   "status": "partial",
   "theorems": [
    "HubToolbox.Approx.C177_partial",
    "HubToolbox.Approx.C177_violated"
   ],
   "note": "Holds if all secondary distances are finite and not negative, violated in all other cases."
  },
  {
   "property": "C178",
   "status": "proved",
   "theorems": [
    "HubToolbox.Approx.C178_predict"
   ],
   "note": ""
  },
  {
   "property": "C179",
   "status": "partial",
   "theorems": [
    "HubToolbox.Approx.C179_partial",
    "HubToolbox.Approx.C179_violated",
    "HubToolbox.Approx.C179_late"
   ],
   "note": "Holds for random sampling only. All other samplings accept more labels than objects; without sampling predict raises later."
  },
  {
   "property": "C180",
   "status": "proved",
   "theorems": [
    "HubToolbox.Approx.C180_unfitted",
    "HubToolbox.Approx.C180_unlabelled"
   ],
   "note": "With an index the exception for missing labels is an AttributeError."
  },
  {
   "property": "C181",
   "status": "partial",
   "theorems": [
    "HubToolbox.Approx.C181_partial",
    "HubToolbox.Approx.C181_violated"
   ],
   "note": "Holds except for LSH in one process, where equal test objects can get different distances because np.empty cells are read."
  },
  {
   "property": "C182",
   "status": "proved",
   "theorems": [
    "HubToolbox.Rounding.C182_valid",
    "HubToolbox.Rounding.C182_order"
   ],
   "note": "For every monotone rounding (validity) and IEEE-754 (order)."
  },
  {
   "property": "C183",
   "status": "proved",
   "theorems": [
    "HubToolbox.Rounding.C183_valid",
    "HubToolbox.Rounding.C183_order"
   ],
   "note": "For every monotone rounding (validity) and IEEE-754 (order)."
  },
  {
   "property": "C184",
   "status": "partial",
   "theorems": [
    "HubToolbox.Rounding.C184_valid",
    "HubToolbox.Rounding.C184_regular_partial",
    "HubToolbox.Rounding.C184_violated"
   ],
   "note": "Entries are nan or numbers from zero to one; nan does not occur if squares of distances neither underflow nor overflow. Violated for points at distance 2^-600: both the squared distance and the product of the radii are rounded to zero, all entries become nan."
  },
  {
   "property": "C185",
   "status": "partial",
   "theorems": [
    "HubToolbox.Rounding.C185_valid",
    "HubToolbox.Rounding.C185_regular_partial",
    "HubToolbox.Rounding.C185_violated"
   ],
   "note": "Entries are nan, infinite or non-negative; positive numbers if all distances are between 2^-200 and 2^200 (float64). Violated for points at distance 2^-600, where the product of the radii is rounded to zero."
  },
  {
   "property": "C186",
   "status": "proved",
   "theorems": [
    "HubToolbox.Rounding.C186_range",
    "HubToolbox.Rounding.C186_nearest"
   ],
   "note": "Integer counts are int64 (wrap-around modelled), accumulators are floats of an arbitrary IEEE format; the bound 19000 is n^4 <= 16 * 2^53."
  },
  {
   "property": "C187",
   "status": "proved",
   "theorems": [
    "HubToolbox.Rounding.C187_valid",
    "HubToolbox.Rounding.C187_regular",
    "HubToolbox.Rounding.gaussiDense_exact",
    "HubToolbox.Rounding.gammaiDense_exact"
   ],
   "note": "Summation order is an arbitrary binary tree; cdf, sf, gammainc, sqrt are arbitrary functions with the range of the true ones; the *_exact theorems connect to the unrounded model."
  },
  {
   "property": "C188",
   "status": "partial",
   "theorems": [
    "HubToolbox.Rounding.C188_partial",
    "HubToolbox.Rounding.C188_violated"
   ],
   "note": "The code violates the claim in float64 (distance 0.1, four objects). Proved for distances with few digits."
  },
  {
   "property": "C189",
   "status": "partial",
   "theorems": [
    "HubToolbox.Rounding.C189_partial",
    "HubToolbox.Rounding.C189_violated",
    "HubToolbox.Rounding.disSimLocal_exact"
   ],
   "note": "The code violates the claim in float64 (four points in the plane). Proved: a bound on the asymmetry. disSimLocal_exact connects to the unrounded model."
  },
  {
   "property": "C190",
   "status": "partial",
   "theorems": [
    "HubToolbox.Rounding.C190_exact_partial",
    "HubToolbox.Rounding.C190_partial",
    "HubToolbox.Rounding.C190_violated"
   ],
   "note": "The code violates the claim in float64 (two points translated by 2^27). Proved for integer data with few digits, where the result is exact."
  },
  {
   "property": "C191",
   "status": "partial",
   "theorems": [
    "HubToolbox.Spawn.C191_hubness_blind",
    "HubToolbox.Spawn.C191_violated_hubness",
    "HubToolbox.Spawn.C191_localScaling_blind",
    "HubToolbox.Spawn.C191_violated_localScaling",
    "HubToolbox.Spawn.C191_nicdm_blind",
    "HubToolbox.Spawn.C191_violated_nicdm",
    "HubToolbox.Spawn.C191_snn_blind",
    "HubToolbox.Spawn.C191_violated_snn",
    "HubToolbox.Spawn.C191_violated_disSimLocal",
    "HubToolbox.Spawn.C191_sparse_partial"
   ],
   "note": "violated for spawned processes by all functions except sparse empirical Mutual Proximity: the main process never sees what the workers store, so results are constant (hubness, Local Scaling, NICDM, shared neighbours) or inner products (DisSim Local); for forked processes see C04, C31, C34, C41, with which the models agree (hubness_fork, ...)"
  },
  {
   "property": "C192",
   "status": "proved",
   "theorems": [
    "HubToolbox.IntDim.C192_std",
    "HubToolbox.IntDim.C192_var",
    "HubToolbox.IntDim.C192_constant"
   ],
   "note": ""
  },
  {
   "property": "C193",
   "status": "partial",
   "theorems": [
    "HubToolbox.IntDim.C193_violated",
    "HubToolbox.IntDim.C193_violated_scale"
   ],
   "note": "Refuted: rows are sorted but not made unique, and zero distances are replaced by 1e-7, which is not relative to the unit. For data without duplicates C50 and C109 hold."
  },
  {
   "property": "C194",
   "status": "partial",
   "theorems": [
    "HubToolbox.Rounding.C194_partial",
    "HubToolbox.Rounding.C194_order",
    "HubToolbox.Rounding.C194_power_of_two",
    "HubToolbox.Rounding.C194_violated_low",
    "HubToolbox.Rounding.C194_violated_high"
   ],
   "note": "Refuted as stated: acc += 1/n accumulates rounding errors, so that six of six correct objects have an accuracy below one, nine of nine an accuracy above one. Proved: error bound, non-negativity, strict order by the number of correct objects, exactness for powers of two."
  },
  {
   "property": "C195",
   "status": "partial",
   "theorems": [
    "HubToolbox.MPPar.C195_valid_partial"
   ],
   "note": "Needs more than min_nnz values per object, at least two of them of other objects, with positive spread; refuted without (C105, C107)."
  },
  {
   "property": "C196",
   "status": "proved",
   "theorems": [
    "HubToolbox.Heap.C196_hubness",
    "HubToolbox.Heap.C196_score",
    "HubToolbox.Heap.C196_score_sample",
    "HubToolbox.Heap.C196_gammai",
    "HubToolbox.Heap.C196_disSimLocal",
    "HubToolbox.Heap.C196_localScaling",
    "HubToolbox.Heap.C196_nicdm",
    "HubToolbox.Heap.C196_empiric",
    "HubToolbox.Heap.C196_gaussi",
    "HubToolbox.Heap.C196_empiric_sample",
    "HubToolbox.Heap.C196_gaussi_sample",
    "HubToolbox.Heap.C196_localScaling_sample",
    "HubToolbox.Heap.C196_nicdm_sample",
    "HubToolbox.Heap.C196_snn",
    "HubToolbox.Heap.C196_snn_sample",
    "HubToolbox.Heap.C196_simhub"
   ],
   "note": ""
  },
  {
   "property": "C197",
   "status": "proved",
   "theorems": [
    "HubToolbox.Heap.C197_hubness",
    "HubToolbox.Heap.C197_score",
    "HubToolbox.Heap.C197_score_sample",
    "HubToolbox.Heap.C197_predict",
    "HubToolbox.Heap.C197_gammai",
    "HubToolbox.Heap.C197_disSimLocal",
    "HubToolbox.Heap.C197_disSimLocal_two",
    "HubToolbox.Heap.C197_localScaling",
    "HubToolbox.Heap.C197_nicdm",
    "HubToolbox.Heap.C197_empiric",
    "HubToolbox.Heap.C197_gaussi",
    "HubToolbox.Heap.C197_empiric_sample",
    "HubToolbox.Heap.C197_gaussi_sample",
    "HubToolbox.Heap.C197_localScaling_sample",
    "HubToolbox.Heap.C197_nicdm_sample",
    "HubToolbox.Heap.C197_snn",
    "HubToolbox.Heap.C197_snn_sample",
    "HubToolbox.Heap.C197_simhub"
   ],
   "note": ""
  },
  {
   "property": "C198",
   "status": "partial",
   "theorems": [
    "HubToolbox.Heap.C198_partial",
    "HubToolbox.Heap.C198_sample_partial",
    "HubToolbox.Heap.C198_violated"
   ],
   "note": "Refuted for sparse matrices with sample_idx: every self distance of the caller's matrix is overwritten by infinity (C198_violated). Holds in all other cases."
  },
  {
   "property": "C199",
   "status": "partial",
   "theorems": [
    "HubToolbox.Heap.C199_partial",
    "HubToolbox.Heap.C199_violated",
    "HubToolbox.Heap.C199_violated_cosine"
   ],
   "note": "Refuted for float32 data without sampling: the estimator keeps a reference, and with squared Euclidean distances the norms of the old vectors (C199_violated). Proved with sampling, or for other types, hr_algorithm=None."
  },
  {
   "property": "C200",
   "status": "partial",
   "theorems": [
    "HubToolbox.Dtype.C200_integer_partial",
    "HubToolbox.Dtype.C200_violated",
    "HubToolbox.Dtype.C200_bool_values",
    "HubToolbox.Dtype.C200_bool_violated_general",
    "HubToolbox.Dtype.C200_bool_mp",
    "HubToolbox.Dtype.C200_bool_hubness",
    "HubToolbox.Dtype.mpEmpiric_float",
    "HubToolbox.Dtype.snn_float",
    "HubToolbox.Dtype.localScaling_float",
    "HubToolbox.Dtype.hubness_float"
   ],
   "note": "Integers always raise (inf cannot be stored). Boolean matrices violate the property: every secondary value is 0 or 1, Mutual Proximity maps any two different objects to True, and hubness can no longer exclude self distances. With float element type the model is the one used for the other properties (\u2026_float)."
  },
  {
   "property": "C201",
   "status": "proved",
   "theorems": [
    "HubToolbox.MPEmp.C201_rank",
    "HubToolbox.MPEmp.C201_no_hubs",
    "HubToolbox.MPEmp.C201_no_hubs_similarity"
   ],
   "note": ""
  },
  {
   "property": "C202",
   "status": "proved",
   "theorems": [
    "HubToolbox.MPEmp.C202_mutual_neighbours",
    "HubToolbox.MPEmp.C202_no_anti_hubs"
   ],
   "note": ""
  },
  {
   "property": "C203",
   "status": "proved",
   "theorems": [
    "HubToolbox.Hubness.C203_skewness_range",
    "HubToolbox.Hubness.C203_attained"
   ],
   "note": "Exact arithmetic, without rounding. Serial similarity matrices which are not square are covered by C05."
  },
  {
   "property": "C204",
   "status": "partial",
   "theorems": [
    "HubToolbox.SNN.C204_snn_partial",
    "HubToolbox.SNN.C204_simhub_partial",
    "HubToolbox.MPEmp.C204_mp_violated",
    "HubToolbox.LS.C204_local_scaling_violated",
    "HubToolbox.LS.C204_nicdm_violated"
   ],
   "note": "Proved for shared_nearest_neighbors and for simhub without labels (any primary distances). Refuted for the other three: Mutual Proximity may violate the inequality by any factor, Local Scaling on the points 0, 1, 2, 10 of a line, NICDM on 0, 1, 16, 31, 32."
  },
  {
   "property": "C205",
   "status": "proved",
   "theorems": [
    "HubToolbox.HubClass.C205_chain",
    "HubToolbox.HubClass.C205_equal"
   ],
   "note": ""
  },
  {
   "property": "C206",
   "status": "partial",
   "theorems": [
    "HubToolbox.Knn.C206_dict_partial",
    "HubToolbox.Knn.C206_violated"
   ],
   "note": "Refuted for every labelling whose smallest label is not 1: y_true contains codes starting at 1, y_pred labels, and relevant_items begins with -1 for an artificial class. Proved: the numbers and the predicted labels are those of the model without label encoder, relevant_items[y_true] are the numbers of relevant items, and the codes keep the order of the labels."
  },
  {
   "property": "C207",
   "status": "partial",
   "theorems": [
    "HubToolbox.Knn.C207_dense_partial",
    "HubToolbox.Knn.C207_sparse_partial",
    "HubToolbox.Knn.C207_violated"
   ],
   "note": "Holds for dense matrices and for filter_self=True. The parameter is never read, so that filter_self=False drops the most similar object as well."
  },
  {
   "property": "C208",
   "status": "partial",
   "theorems": [
    "HubToolbox.Rounding.C208_partial",
    "HubToolbox.Rounding.C208_duplicates_violated",
    "HubToolbox.Rounding.C208_range_violated"
   ],
   "note": "Symmetry, zero diagonal and nonnegativity hold for any rounding. Refuted: in float64 the vector (9, 40) and its copy have the distance 2^-53, and (25,5,6,2,5,21) and its negative 2+2^-51. C209 bounds both effects."
  },
  {
   "property": "C209",
   "status": "proved",
   "theorems": [
    "HubToolbox.Rounding.C209",
    "HubToolbox.Rounding.C209_bounds"
   ],
   "note": "Assumes sums added in some order, square roots with relative error 2^-53, and the usual error bound for inner products, which is proved for products rounded and added in any order."
  },
  {
   "property": "C210",
   "status": "proved",
   "theorems": [
    "HubToolbox.Rounding.C210",
    "HubToolbox.Rounding.C210_unit"
   ],
   "note": "The exponential function is assumed to have an absolute error of at most 2^-52 for nonpositive arguments; all other roundings are derived from IEEE-754."
  },
  {
   "property": "C211",
   "status": "proved",
   "theorems": [
    "HubToolbox.Rounding.C211"
   ],
   "note": "For both metrics and both precisions."
  },
  {
   "property": "C212",
   "status": "proved",
   "theorems": [
    "HubToolbox.Approx.C212"
   ],
   "note": "where the standard deviations are positive"
  },
  {
   "property": "C213",
   "status": "proved",
   "theorems": [
    "HubToolbox.Rounding.C213",
    "HubToolbox.Rounding.C213_order"
   ],
   "note": "the power function of numpy is assumed to have an error of at most two units of roundoff; scipy before 1.9 for constant counts"
  },
  {
   "property": "C214",
   "status": "proved",
   "theorems": [
    "HubToolbox.Rounding.C214",
    "HubToolbox.Rounding.C214_order",
    "HubToolbox.Rounding.C214_unit"
   ],
   "note": "float64; numpy assumed to add in some order, with logarithms right up to 2^-45 and exponentials and roots right up to two units of roundoff (`Lib.Accurate`; holds for correctly rounded functions)"
  },
  {
   "property": "C215",
   "status": "partial",
   "theorems": [
    "HubToolbox.MPEmp.C215_mp",
    "HubToolbox.MPPar.C215_gaussi",
    "HubToolbox.LS.C215_local_scaling",
    "HubToolbox.LS.C215_nicdm",
    "HubToolbox.SNN.C215_snn_violated",
    "HubToolbox.SNN.C215_simhub_violated",
    "HubToolbox.MPPar.C215_gammai_violated"
   ],
   "note": "holds for empirical and Gaussian Mutual Proximity, Local Scaling and NICDM; violated for Gamma Mutual Proximity (ten objects, with the Gamma distribution itself), shared nearest neighbours (the distance may drop from 1 to 0) and simhubIN"
  },
  {
   "property": "C216",
   "status": "partial",
   "theorems": [
    "HubToolbox.MPEmp.C216_mp",
    "HubToolbox.MPPar.C216_gaussi",
    "HubToolbox.MPPar.C216_gammai",
    "HubToolbox.LS.C216_local_scaling",
    "HubToolbox.LS.C216_nicdm",
    "HubToolbox.LS.C216_nicdm_violated",
    "HubToolbox.SNN.C216_snn",
    "HubToolbox.SNN.C216_simhub_violated"
   ],
   "note": "values of NICDM themselves do depend on other rows, by a common factor; violated for simhubIN"
  },
  {
   "property": "C217",
   "status": "proved",
   "theorems": [
    "HubToolbox.MPEmp.C217_mp",
    "HubToolbox.LS.C217_local_scaling",
    "HubToolbox.SNN.C217_snn",
    "HubToolbox.Hubness.C217_hubness"
   ],
   "note": ""
  },
  {
   "property": "C218",
   "status": "proved",
   "theorems": [
    "HubToolbox.Hubness.C218_hubness",
    "HubToolbox.LS.C218_local_scaling",
    "HubToolbox.SNN.C218_snn"
   ],
   "note": ""
  },
  {
   "property": "C219",
   "status": "partial",
   "theorems": [
    "HubToolbox.LS.C219_nicdm_violated",
    "HubToolbox.LS.C219_nicdm_partial",
    "HubToolbox.LS.C68_exact"
   ],
   "note": "Holds for Local Scaling (C68_exact). Violated by NICDM: one object with k copies makes the geometric mean zero and every value of the matrix zero or nan. Without such objects all values are finite, and positive for positive distances."
  },
  {
   "property": "C220",
   "status": "proved",
   "theorems": [
    "HubToolbox.MPPar.C220_gaussi",
    "HubToolbox.Spec.fittedNormal_moments"
   ],
   "note": "Normal distribution and product measure are those of Mathlib; the parameter Dists of the model is instantiated by them (MPPar.scipy)."
  },
  {
   "property": "C221",
   "status": "proved",
   "theorems": [
    "HubToolbox.MPPar.C221_gammai",
    "HubToolbox.Spec.fittedGamma_moments"
   ],
   "note": "Gamma distribution and product measure are those of Mathlib; mean and variance are proved to be those of the data."
  },
  {
   "property": "C222",
   "status": "proved",
   "theorems": [
    "HubToolbox.Rounding.C222",
    "HubToolbox.Rounding.C222_order",
    "HubToolbox.Rounding.C222_affine"
   ],
   "note": "Accuracy of numpy sqrt and scipy norm.cdf, norm.sf is a parameter (ProbLib.Near), met by correctly rounded functions."
  },
  {
   "property": "C223",
   "status": "proved",
   "theorems": [
    "HubToolbox.Analysis.C223_orig",
    "HubToolbox.Analysis.C223_mp",
    "HubToolbox.Analysis.C223_gaussi",
    "HubToolbox.Analysis.C223_gammai",
    "HubToolbox.Analysis.C223_ls",
    "HubToolbox.Analysis.C223_nicdm",
    "HubToolbox.Analysis.C223_snn",
    "HubToolbox.Analysis.C223_cent",
    "HubToolbox.Analysis.C223_wcent",
    "HubToolbox.Analysis.C223_lcent",
    "HubToolbox.Analysis.C223_dsg",
    "HubToolbox.Analysis.C223_dsl"
   ],
   "note": "Stated for experiments which complete; for which arguments they do is C155."
  },
  {
   "property": "C224",
   "status": "partial",
   "theorems": [
    "HubToolbox.HubClass.C224",
    "HubToolbox.HubClass.C224_equal",
    "HubToolbox.HubClass.C224_nan",
    "HubToolbox.HubClass.C224_violated",
    "HubToolbox.HubClass.C224_sign"
   ],
   "note": "The documentation is wrong: the code returns the third moment about the mean of the untruncated parent distribution (scipy's moment(3) of the standardised distribution), not the skewness (third standardised central moment of the truncated distribution); C224_violated is a data set of three points for which the attribute is larger than the skewness of the fitted distribution. Proved: what the attribute is, its range, its value for equal counts, and when it is nan (C224_nan); C224_sign: it can be positive where k_skewness_ is negative. Exact arithmetic; the truncated normal distribution is the mathematical one."
  },
  {
   "property": "C225",
   "status": "proved",
   "theorems": [
    "HubToolbox.Analysis.C225_matrix",
    "HubToolbox.Analysis.C225_vector"
   ],
   "note": "C225_matrix is about every experiment of an analysis; the intrinsic dimension, computed from the vectors before the first experiment, is not part of the claim."
  },
  {
   "property": "C226",
   "status": "proved",
   "theorems": [
    "HubToolbox.LS.C226"
   ],
   "note": "Real arithmetic, metric distance, all objects used for the radii (test_set_ind None)."
  },
  {
   "property": "C227",
   "status": "partial",
   "theorems": [
    "HubToolbox.LS.C227_partial",
    "HubToolbox.LS.C227_violated"
   ],
   "note": "The code (the method) violates it for k=2: C227_violated gives four points on a line whose closest pair is broken up by both methods. Proved: k=1."
  },
  {
   "property": "C228",
   "status": "proved",
   "theorems": [
    "HubToolbox.LS.C228_local_scaling",
    "HubToolbox.LS.C228_nicdm",
    "HubToolbox.SNN.C228_snn",
    "HubToolbox.Hubness.C228_hubness"
   ],
   "note": "Metric distance; exact arithmetic."
  },
  {
   "property": "C229",
   "status": "proved",
   "theorems": [
    "HubToolbox.LS.C229"
   ],
   "note": "Real arithmetic, metric distance, all objects used for the radii (test_set_ind None)."
  },
  {
   "property": "C230",
   "status": "partial",
   "theorems": [
    "HubToolbox.Relations.C230_local_scaling_partial",
    "HubToolbox.Relations.C230_nicdm_partial",
    "HubToolbox.Relations.C230_mp_violated",
    "HubToolbox.Relations.C230_snn_violated"
   ],
   "note": "Violated by empirical Mutual Proximity (distance 2/n instead of zero) and by shared nearest neighbours (1/k instead of zero, no ties). Proved in full for local_scaling and nicdm."
  },
  {
   "property": "C231",
   "status": "proved",
   "theorems": [
    "HubToolbox.SNN.C231"
   ],
   "note": "Real arithmetic; simhubIN without sample and without classes."
  },
  {
   "property": "C232",
   "status": "proved",
   "theorems": [
    "HubToolbox.Knn.C232"
   ],
   "note": "Dense matrices without sample_idx; for k >= 1."
  },
  {
   "property": "C233",
   "status": "partial",
   "theorems": [
    "HubToolbox.Knn.C233_partial",
    "HubToolbox.Knn.C233_predict_partial",
    "HubToolbox.Knn.C233_violated"
   ],
   "note": "False for the code with infinitely near points: neighbours shuffled for one k stay shuffled for the following ones. Proved if each point has a finite neighbour and none infinitely near."
  },
  {
   "property": "C234",
   "status": "partial",
   "theorems": [
    "HubToolbox.Knn.C234_violated",
    "HubToolbox.Knn.C44_score"
   ],
   "note": "False for the code: the point itself is among the candidates of the random choice. Proved for points with a finite neighbour and none infinitely near."
  },
  {
   "property": "C235",
   "status": "partial",
   "theorems": [
    "HubToolbox.Knn.C235_partial",
    "HubToolbox.Knn.C235_violated"
   ],
   "note": "False for the code for rows with fewer than k stored neighbours. Proved for rows with at least k."
  },
  {
   "property": "C236",
   "status": "partial",
   "theorems": [
    "HubToolbox.Spawn.C236_snnSample_fork_partial",
    "HubToolbox.Spawn.C236_simhubIN_fork_partial",
    "HubToolbox.Spawn.C236_localizedCentering_fork_partial",
    "HubToolbox.Spawn.C236_parallelNN_fork_partial",
    "HubToolbox.Spawn.C236_snnSample_blind",
    "HubToolbox.Spawn.C236_violated_snnSample",
    "HubToolbox.Spawn.C236_simhubIN_blind",
    "HubToolbox.Spawn.C236_violated_simhubIN",
    "HubToolbox.Spawn.C236_localizedCentering_blind",
    "HubToolbox.Spawn.C236_violated_localizedCentering",
    "HubToolbox.Spawn.C236_class_blind"
   ],
   "note": "False for the code with spawned processes: the main process never sees what the workers store. Shared neighbour distances are all 0, simhubIN distances all 1, localized centering is the plain cosine similarity, and object 0 is the only neighbour. Proved for forked processes."
  },
  {
   "property": "C237",
   "status": "proved",
   "theorems": [
    "HubToolbox.IntDim.C237_mackay_le_levina"
   ],
   "note": ""
  },
  {
   "property": "C238",
   "status": "proved",
   "theorems": [
    "HubToolbox.IntDim.C238_power"
   ],
   "note": ""
  },
  {
   "property": "C239",
   "status": "partial",
   "theorems": [
    "HubToolbox.Relations.C239_partial",
    "HubToolbox.Relations.C239_exact",
    "HubToolbox.Relations.C239_ignored",
    "HubToolbox.Relations.C239_none_held_out",
    "HubToolbox.Relations.C239_violated"
   ],
   "note": "False for the code: numpy.setdiff1d compares with 0..n-1, so negative entries are silently ignored. Proved for non-negative indices; the condition is also necessary (C239_exact)."
  },
  {
   "property": "C240",
   "status": "proved",
   "theorems": [
    "HubToolbox.Rounding.C240",
    "HubToolbox.Rounding.centering_exact"
   ],
   "note": ""
  },
  {
   "property": "C241",
   "status": "partial",
   "theorems": [
    "HubToolbox.Rounding.C241_partial",
    "HubToolbox.Rounding.C241_violated"
   ],
   "note": "False for the code: three objects with the value 0.1 are moved to -2**-56. Proved for integers c with n*|c| <= 2**53."
  },
  {
   "property": "C242",
   "status": "proved",
   "theorems": [
    "HubToolbox.Rounding.C242",
    "HubToolbox.Rounding.randomSparse_exact"
   ],
   "note": ""
  },
  {
   "property": "C243",
   "status": "partial",
   "theorems": [
    "HubToolbox.Spawn.C243_fixed_fork_partial",
    "HubToolbox.Spawn.C243_hnsw_fork_partial",
    "HubToolbox.Spawn.C243_fixed_violated",
    "HubToolbox.Spawn.C243_hnsw_violated"
   ],
   "note": "Holds for forked processes. Spawned processes receive a copy of the array for the results, so all secondary distances are zero; with HNSW even for n_jobs=1."
  },
  {
   "property": "C244",
   "status": "proved",
   "theorems": [
    "HubToolbox.Rounding.C244",
    "HubToolbox.Rounding.C244_symm",
    "HubToolbox.Rounding.C244_order"
   ],
   "note": ""
  },
  {
   "property": "C245",
   "status": "partial",
   "theorems": [
    "HubToolbox.Rounding.C245_partial",
    "HubToolbox.Rounding.C245_violated"
   ],
   "note": "Holds if coordinates differ not at all or by 2^-199 to 2^199. In general it does not: 0 and 2^-600 have distance zero, because the square of the difference underflows."
  },
  {
   "property": "C246",
   "status": "partial",
   "theorems": [
    "HubToolbox.Rounding.C246_partial",
    "HubToolbox.Rounding.C246_violated"
   ],
   "note": "Holds for integers of at most B with 4 m B^2 <= 2^53. In general it does not: 2^30 and 2^30 + 1 have distance zero, because scikit-learn computes squared distances from norms and inner products."
  },
  {
   "property": "C247",
   "status": "proved",
   "theorems": [
    "HubToolbox.Analysis.C247_same",
    "HubToolbox.Analysis.C247_analysis",
    "HubToolbox.Analysis.C247_scaled"
   ],
   "note": ""
  },
  {
   "property": "C248",
   "status": "proved",
   "theorems": [
    "HubToolbox.Analysis.C248_renumbering",
    "HubToolbox.Analysis.C248_finishes"
   ],
   "note": "The special functions (normal and Gamma distribution) are the same in both runs, everything else may differ."
  },
  {
   "property": "C249",
   "status": "proved",
   "theorems": [
    "HubToolbox.Approx.C249_vantage",
    "HubToolbox.Approx.C249_mp",
    "HubToolbox.Approx.C249_mpg",
    "HubToolbox.Approx.C249_plain",
    "HubToolbox.Approx.C249_ls",
    "HubToolbox.Approx.C249_dsl",
    "HubToolbox.Approx.C249_vectors"
   ],
   "note": "Exact arithmetic. For LS, NICDM and DSL np.partition is assumed to look at values by comparing them only."
  },
  {
   "property": "C250",
   "status": "proved",
   "theorems": [
    "HubToolbox.Approx.C250_order",
    "HubToolbox.Approx.C250_monotone"
   ],
   "note": "For random vantage points and without sampling; kmeans++ uses the values of the distances by definition."
  },
  {
   "property": "C251",
   "status": "proved",
   "theorems": [
    "HubToolbox.Approx.C251_mp",
    "HubToolbox.Approx.C251_mp_all",
    "HubToolbox.Approx.C251_mpg",
    "HubToolbox.Approx.C251_ls"
   ],
   "note": "NICDM and DSL are not included, as they take means over neighbours returned by a partial sort (see C131, C132)."
  },
  {
   "property": "C252",
   "status": "proved",
   "theorems": [
    "HubToolbox.Dist.C252",
    "HubToolbox.Dist.C252_self"
   ],
   "note": "Exact arithmetic."
  },
  {
   "property": "C253",
   "status": "proved",
   "theorems": [
    "HubToolbox.Rounding.C253"
   ],
   "note": "Without held-out objects (see C70 for these). The exponential function is assumed to have an absolute error of at most 2^-52 for nonpositive arguments. That these values decrease with the similarity is C30."
  },
  {
   "property": "C254",
   "status": "proved",
   "theorems": [
    "HubToolbox.Relations.C254"
   ],
   "note": "With ties, or self-similarities which are not the largest, see C59 and C56."
  },
  {
   "property": "C255",
   "status": "partial",
   "theorems": [
    "HubToolbox.SNN.C255_simhubIN_formula",
    "HubToolbox.SNN.C255_simhubIN_partial",
    "HubToolbox.SNN.C255_simhub_formula",
    "HubToolbox.SNN.C255_simhub_partial",
    "HubToolbox.SNN.C255_simhub_violated"
   ],
   "note": "simhubIN: holds for all floats; simhub: violated, distances above one if all objects are unreachable (an object counts itself as neighbour); the lower bound of similarities is log(n/(n+1))/log n"
  },
  {
   "property": "C256",
   "status": "partial",
   "theorems": [
    "HubToolbox.Relations.C256_gammai_partial",
    "HubToolbox.Relations.C256_gaussi_violated"
   ],
   "note": "gammai: holds; gaussi: copies have equal distances to all others, but never distance zero to each other"
  },
  {
   "property": "C257",
   "status": "proved",
   "theorems": [
    "HubToolbox.InOut.C257_round_trip",
    "HubToolbox.InOut.C257_malformed"
   ],
   "note": ""
  },
  {
   "property": "C258",
   "status": "proved",
   "theorems": [
    "HubToolbox.InOut.C258_read",
    "HubToolbox.InOut.C258_numbers",
    "HubToolbox.InOut.C258_short"
   ],
   "note": ""
  },
  {
   "property": "C259",
   "status": "proved",
   "theorems": [
    "HubToolbox.HubClass.C259_precomputed",
    "HubToolbox.HubClass.C259_vectors",
    "HubToolbox.HubClass.C259_similar"
   ],
   "note": "exact arithmetic; without ties and duplicates, where the lists of neighbours are determined (see C64 for the effect of duplicates and C12 for objects which are not nearest to themselves)"
  },
  {
   "property": "C260",
   "status": "partial",
   "theorems": [
    "HubToolbox.Rounding.C260_violated",
    "HubToolbox.Rounding.C260_partial",
    "HubToolbox.Rounding.C260_given_Y",
    "HubToolbox.Rounding.C260_exact",
    "HubToolbox.Rounding.Products.near_of_someOrder"
   ],
   "note": "violated: 2^30 and 2^30+1 have computed distance zero, one of them is listed as its own neighbour by every partial sort. Holds if squared distances exceed 2(p+2)2^-50 times the largest squared norm; then lists are nearest up to that tolerance, and without near ties all results are those of exact arithmetic"
  },
  {
   "property": "C261",
   "status": "partial",
   "theorems": [
    "HubToolbox.MPEmp.C261_violated",
    "HubToolbox.MPEmp.C261_zeros_violated",
    "HubToolbox.MPEmp.C261_partial",
    "HubToolbox.MPEmp.C261_storage_partial",
    "HubToolbox.MPEmp.searchsorted_eq",
    "HubToolbox.MPEmp.place_injective"
   ],
   "note": "violated: with unsorted indices binary search finds the places of other pairs (similarity one instead of zero in a matrix with two objects, for every schedule); explicit zeros count towards min_nnz. Holds for rows stored in the order of the columns if there are no explicit zeros or min_nnz is 0 (default)"
  },
  {
   "property": "C262",
   "status": "partial",
   "theorems": [
    "HubToolbox.MPPar.C262_violated",
    "HubToolbox.MPPar.C262_partial",
    "HubToolbox.MPPar.C262_mean"
   ],
   "note": "violated: getnnz counts stored zeros, so z explicit zeros multiply the estimated mean similarity of an object by c/(c+z) (C262_mean, for every matrix), which changes similarities to other objects. Holds if exactly the values other than zero are stored"
  },
  {
   "property": "C263",
   "status": "partial",
   "theorems": [
    "HubToolbox.MPPar.C263_rounded",
    "HubToolbox.MPPar.C263_preserved",
    "HubToolbox.MPPar.C263_kept_partial",
    "HubToolbox.MPPar.C263_error_partial",
    "HubToolbox.MPPar.C263_violated",
    "HubToolbox.MPPar.C263_ordinary_violated"
   ],
   "note": "rounding once and its consequences are proved for every rounding which keeps 1/2. Violated for the retained similarities: they are retained exactly if and only if they are single precision numbers; up to 2^-24 of their size in the normal range; similarities up to 2^-150 become missing. Moments and distribution functions in exact arithmetic"
  },
  {
   "property": "C264",
   "status": "proved",
   "theorems": [
    "HubToolbox.HubClass.C264_accepted",
    "HubToolbox.HubClass.C264_lists",
    "HubToolbox.HubClass.C264_storage",
    "HubToolbox.HubClass.C264_dense"
   ],
   "note": "on the model of class Hubness (C64-C67); no column stored twice in a row. The documentation says that only non-zero elements are considered; what counts is what is stored"
  },
  {
   "property": "C265",
   "status": "partial",
   "theorems": [
    "HubToolbox.Knn.C265_violated",
    "HubToolbox.Knn.C265_score_partial",
    "HubToolbox.Knn.C265_score_error",
    "HubToolbox.Knn.C265_rprec_partial",
    "HubToolbox.Knn.C265_rprec_error"
   ],
   "note": "violated: row.nnz and row.data include stored zeros, row.nonzero() does not, so positions do not correspond; a stored zero in an evaluated row without NaN always makes score and r_precision raise IndexError (proved for every such matrix). Without stored zeros the result is that of the stored matrix, whatever the order of storage"
  },
  {
   "property": "C266",
   "status": "partial",
   "theorems": [
    "HubToolbox.MPEmp.C266_violated",
    "HubToolbox.MPEmp.C266_renumber",
    "HubToolbox.MPEmp.C266_monotone_partial"
   ],
   "note": "violated for negative similarities: values of the two rows may cancel in S_i + S_j and are then not counted. Renumbering is proved without restriction, rescaling for non-negative similarities"
  },
  {
   "property": "C267",
   "status": "proved",
   "theorems": [
    "HubToolbox.Rounding.C267",
    "HubToolbox.Rounding.C267_self"
   ],
   "note": ""
  },
  {
   "property": "C268",
   "status": "partial",
   "theorems": [
    "HubToolbox.Rounding.C268_violated",
    "HubToolbox.Rounding.C268_partial"
   ],
   "note": "violated: x_c is subtracted before q_c, so the entries for 0.4 and 0.1 differ in the last place in whatever order sums are added. The difference is bounded for all data"
  },
  {
   "property": "C269",
   "status": "partial",
   "theorems": [
    "HubToolbox.Spawn.C269_violated",
    "HubToolbox.Spawn.C269_partial"
   ],
   "note": "violated: kth and histograms are globals of the main process and not handed to the initializers, so processes which are not forked raise NameError for all data (proved for every call which succeeds otherwise). For forked processes proved for all orders of stores"
  },
  {
   "property": "C270",
   "status": "proved",
   "theorems": [
    "HubToolbox.Knn.C270"
   ],
   "note": "Exact arithmetic (the accumulated 1/n of the code are the subject of C194). Dense matrices, leave-one-out (no sample_idx), finite values off the diagonal."
  },
  {
   "property": "C271",
   "status": "proved",
   "theorems": [
    "HubToolbox.MPEmp.C271",
    "HubToolbox.MPEmp.C271_score"
   ],
   "note": "Exact arithmetic; finite values off the diagonal."
  },
  {
   "property": "C272",
   "status": "partial",
   "theorems": [
    "HubToolbox.LS.C272_violated",
    "HubToolbox.LS.C272_partial"
   ],
   "note": "Violated by the methods as implemented (and as published): C272_violated. C272_partial: holds for compact classes. Exact real arithmetic, metric distance."
  },
  {
   "property": "C273",
   "status": "proved",
   "theorems": [
    "HubToolbox.SNN.C273"
   ],
   "note": "Exact arithmetic; dense matrices with finite values off the diagonal."
  },
  {
   "property": "C274",
   "status": "proved",
   "theorems": [
    "HubToolbox.Hubness.C274"
   ],
   "note": "Square matrices with finite values off the diagonal."
  },
  {
   "property": "C275",
   "status": "proved",
   "theorems": [
    "HubToolbox.Analysis.C275",
    "HubToolbox.Analysis.C275_analysis"
   ],
   "note": "Exact arithmetic."
  },
  {
   "property": "C276",
   "status": "partial",
   "theorems": [
    "HubToolbox.LS.C276_local_scaling",
    "HubToolbox.LS.C276_violated",
    "HubToolbox.LS.C276_partial"
   ],
   "note": "local_scaling: proved (C276_local_scaling). nicdm: violated, as the geometric mean runs over all objects including held-out ones (C276_violated); C276_partial: all secondary distances change by one common factor. Exact real arithmetic, metric distance."
  },
  {
   "property": "C277",
   "status": "proved",
   "theorems": [
    "HubToolbox.Knn.C277_perfect",
    "HubToolbox.Knn.C277_only_if"
   ],
   "note": "Exact arithmetic. Zeros are missing values; similarities within classes are positive in C277_perfect."
  },
  {
   "property": "C278",
   "status": "proved",
   "theorems": [
    "HubToolbox.GK.C278",
    "HubToolbox.Knn.C278_score"
   ],
   "note": "Exact arithmetic; dense matrices with finite values."
  },
  {
   "property": "C279",
   "status": "proved",
   "theorems": [
    "HubToolbox.HubClass.C279",
    "HubToolbox.HubClass.C279_hubs"
   ],
   "note": "Rounded arithmetic of the statistics, with the integer sums modulo 2^64; np.sum may add in any order. Bound 2 * n_train * n_test * k <= 2^53 (2^53 is where counts stop being floats)."
  },
  {
   "property": "C280",
   "status": "proved",
   "theorems": [
    "HubToolbox.Relations.C280",
    "HubToolbox.Relations.C280_snn"
   ],
   "note": "Composition of the error bound of C244 with the dependence of the experiments on the order of distances (C168, C169, C72)."
  },
  {
   "property": "C281",
   "status": "proved",
   "theorems": [
    "HubToolbox.Relations.C281_local_scaling",
    "HubToolbox.Relations.C281_nicdm"
   ],
   "note": "Composition of the error bounds of C210 and C214 with the dependence of the experiments on the order of distances."
  },
  {
   "property": "C282",
   "status": "proved",
   "theorems": [
    "HubToolbox.Relations.C282",
    "HubToolbox.Relations.C282_snn"
   ],
   "note": "Distances, Mutual Proximity and shared neighbours all in floating-point arithmetic. The square root is assumed to be accurate as in C244."
  },
  {
   "property": "C283",
   "status": "partial",
   "theorems": [
    "HubToolbox.Spawn.C283_disSimLocal_fork_partial",
    "HubToolbox.Spawn.C283_lsh_fork_partial",
    "HubToolbox.Spawn.C283_disSimLocal_violated",
    "HubToolbox.Spawn.C283_lsh_violated"
   ],
   "note": "Holds for forked processes. Violated for spawned processes: the arrays for the results are handed over as numpy arrays, of which spawned processes get copies; dis_sim_local returns minus twice the inner product, and LSH finds object 0 at distance 0 for each test object."
  },
  {
   "property": "C284",
   "status": "partial",
   "theorems": [
    "HubToolbox.Rounding.C284_partial",
    "HubToolbox.Rounding.C284_violated"
   ],
   "note": "Holds for different vectors of integers whose sums of squares stay below 2^51, with an explicit error bound. Violated far from the origin: for integers at 2^52 all computed distances are zero and the result is minus infinity, although the estimate is finite, positive and independent of the offset."
  },
  {
   "property": "C285",
   "status": "partial",
   "theorems": [
    "HubToolbox.HubClass.C285_partial",
    "HubToolbox.HubClass.C285_violated"
   ],
   "note": "Accuracy and the upper bound are proved; the index may be negative if all occurrences are equal (violated: four objects, two training objects, k = 2, correctly rounded powers)."
  },
  {
   "property": "C286",
   "status": "proved",
   "theorems": [
    "HubToolbox.Rounding.C286",
    "HubToolbox.Rounding.C286_error",
    "HubToolbox.Rounding.C286_separated",
    "HubToolbox.Rounding.C286_perfect"
   ],
   "note": "Similarities are real numbers or special values; np.average as documented (sum of products divided by the sum of the weights)."
  },
  {
   "property": "C287",
   "status": "proved",
   "theorems": [
    "HubToolbox.Rounding.C287_score",
    "HubToolbox.Rounding.C287_micro",
    "HubToolbox.Rounding.C287_macro",
    "HubToolbox.Rounding.C287_weighted"
   ],
   "note": "Counts are integers whose sums are exact; np.average as documented (sum of products divided by the sum of the weights)."
  },
  {
   "property": "C288",
   "status": "proved",
   "theorems": [
    "HubToolbox.Rounding.C288_simhubIN",
    "HubToolbox.Rounding.C288_simhub"
   ],
   "note": "Square float64 matrices, no train_ind or test_ind; logarithms of numbers in [1, 2^30] within two units of rounding (ShiLib.Near)."
  },
  {
   "property": "C289",
   "status": "proved",
   "theorems": [
    "HubToolbox.Relations.C289_gaussi",
    "HubToolbox.Relations.C289_dis_sim_global"
   ],
   "note": "Composition of the error bounds of C222 and C267 with the dependence of the experiments on the order of distances."
  },
  {
   "property": "C290",
   "status": "proved",
   "theorems": [
    "HubToolbox.InOut.C290_together",
    "HubToolbox.InOut.C290_order",
    "HubToolbox.InOut.C290_labels",
    "HubToolbox.InOut.C290_missing"
   ],
   "note": "The code has n = 300 and dim = 20000; the theorems are for all n and dim. The conversion of a word to a number by np.loadtxt is a parameter which reads decimal integers."
  },
  {
   "property": "C291",
   "status": "proved",
   "theorems": [
    "HubToolbox.Rounding.C291_any",
    "HubToolbox.Rounding.C291"
   ],
   "note": "Y=None and n_jobs=1 in float64; sums add in some order, inner products and squared norms have the usual error bound (VecLib.Near)."
  },
  {
   "property": "C292",
   "status": "proved",
   "theorems": [
    "HubToolbox.Rounding.C292_any",
    "HubToolbox.Rounding.C292"
   ],
   "note": "gamma=1 and n_jobs=1 in float64 (Y=None is Y=X); sums add in some order, square roots are right up to one unit of rounding, inner products have the usual error bound with underflow (CosLib.Centers)."
  },
  {
   "property": "C293",
   "status": "proved",
   "theorems": [
    "HubToolbox.Relations.C293_hubness",
    "HubToolbox.Relations.C293_score",
    "HubToolbox.Relations.C293_predict",
    "HubToolbox.Relations.C293_goodman_kruskal"
   ],
   "note": "score and predict on dense matrices; on sparse similarities score() finds the object itself by its value and does read the diagonal."
  },
  {
   "property": "C294",
   "status": "proved",
   "theorems": [
    "HubToolbox.Relations.C294"
   ],
   "note": "Composition of C291 and C293 with the dependence of the experiments on the order of distances."
  },
  {
   "property": "C295",
   "status": "proved",
   "theorems": [
    "HubToolbox.Relations.C295"
   ],
   "note": "Composition of C292 with the dependence of the experiments on the order of similarities; gamma=1, Y=X."
  },
  {
   "property": "C296",
   "status": "proved",
   "theorems": [
    "HubToolbox.Relations.C296"
   ],
   "note": "Composition of C209 with the dependence of the experiments on the order of distances."
  },
  {
   "property": "C297",
   "status": "proved",
   "theorems": [
    "HubToolbox.Analysis.C297_same",
    "HubToolbox.Analysis.C297_runs",
    "HubToolbox.Analysis.C297_labels"
   ],
   "note": "The code has 300 vectors of 20000 features; exact arithmetic; zero vectors (nan distances) are excluded."
  },
  {
   "property": "C298",
   "status": "proved",
   "theorems": [
    "HubToolbox.Relations.C298_local_scaling",
    "HubToolbox.Relations.C298_nicdm"
   ],
   "note": "Exact arithmetic; distances between different objects are positive, every object has k training neighbours."
  },
  {
   "property": "C299",
   "status": "proved",
   "theorems": [
    "HubToolbox.Relations.C299_local_scaling",
    "HubToolbox.Relations.C299_nicdm"
   ],
   "note": "Distances between 2^-199 and 2^199; square roots, exponentials and logarithms as assumed in C210, C214 and C244; for nicdm roots are floats."
  },
  {
   "property": "C300",
   "status": "proved",
   "theorems": [
    "HubToolbox.Relations.C300_local_scaling",
    "HubToolbox.Relations.C300_nicdm"
   ],
   "note": "Composition of C209 and C298 with C210 and C214; assumptions about the library functions as there."
  },
  {
   "property": "C301",
   "status": "proved",
   "theorems": [
    "HubToolbox.Relations.C301",
    "HubToolbox.Relations.C301_snn"
   ],
   "note": "Composition of C209 with C182 and C183; assumptions about the library functions as there."
  },
  {
   "property": "C302",
   "status": "proved",
   "theorems": [
    "HubToolbox.Log.C302",
    "HubToolbox.Log.C302_flush",
    "HubToolbox.Log.C302_sorted",
    "HubToolbox.Log.C302_classes"
   ],
   "note": "Text is a list of characters; arguments are given by their str(); local time (a change to winter time turns the clock back)."
  },
  {
   "property": "C303",
   "status": "partial",
   "theorems": [
    "HubToolbox.Log.C303_violated",
    "HubToolbox.Log.C303_partial"
   ],
   "note": "Arguments which contain a newline break the line: the rest has neither time nor kind. Holds if no argument contains a newline."
  },
  {
   "property": "C304",
   "status": "proved",
   "theorems": [
    "HubToolbox.Relations.C304"
   ],
   "note": "Dense distance matrices without test_ind; exact arithmetic."
  },
  {
   "property": "C305",
   "status": "proved",
   "theorems": [
    "HubToolbox.Relations.C305"
   ],
   "note": "Dense distance matrices; exact arithmetic; distances between different objects positive."
  },
  {
   "property": "C306",
   "status": "proved",
   "theorems": [
    "HubToolbox.Relations.C306"
   ],
   "note": "Distances; exact arithmetic; k smaller than the number of objects."
  },
  {
   "property": "C307",
   "status": "proved",
   "theorems": [
    "HubToolbox.Relations.C307"
   ],
   "note": "Dense distance matrices, leave-one-out; exact arithmetic."
  },
  {
   "property": "C308",
   "status": "proved",
   "theorems": [
    "HubToolbox.Relations.C308"
   ],
   "note": "Dense distance matrices; exact arithmetic."
  },
  {
   "property": "C309",
   "status": "proved",
   "theorems": [
    "HubToolbox.Relations.C309_hubness",
    "HubToolbox.Relations.C309_score",
    "HubToolbox.Relations.C309_index",
    "HubToolbox.Relations.C309_mutual_proximity"
   ],
   "note": "Distances in double precision, evaluations in exact arithmetic (see C182, C186, C194, C213 for their rounding). Distances between 2^-199 and 2^199."
  },
  {
   "property": "C310",
   "status": "proved",
   "theorems": [
    "HubToolbox.Relations.C310_hubness",
    "HubToolbox.Relations.C310_score",
    "HubToolbox.Relations.C310_index",
    "HubToolbox.Relations.C310_mutual_proximity"
   ],
   "note": "Distances in double precision, evaluations in exact arithmetic."
  },
  {
   "property": "C311",
   "status": "proved",
   "theorems": [
    "HubToolbox.IntDim.C311_robust"
   ],
   "note": "Exact arithmetic; k1 >= 2 and no point with k1 equally near nearest neighbours are hypotheses, as in C109."
  },
  {
   "property": "C312",
   "status": "proved",
   "theorems": [
    "HubToolbox.Relations.C312_distances",
    "HubToolbox.Relations.C312_factor",
    "HubToolbox.Relations.C312_local_scaling",
    "HubToolbox.Relations.C312_nicdm",
    "HubToolbox.Relations.C312_mutual_proximity",
    "HubToolbox.Relations.C312_snn",
    "HubToolbox.Relations.C312_hubness",
    "HubToolbox.Relations.C312_score",
    "HubToolbox.Relations.C312_index",
    "HubToolbox.Relations.C312_dimension",
    "HubToolbox.Relations.C312_single"
   ],
   "note": "Distances and secondary distances in exact arithmetic; the numbers stored in single precision are the given ones rounded once, in the normal range or zero."
  },
  {
   "property": "C313",
   "status": "proved",
   "theorems": [
    "HubToolbox.Rounding.C313"
   ],
   "note": "trafo=None, metric='vector'; reciprocals for powers with exponent -1; k1 = 2 (infinite reciprocals of zeros) is not covered."
  },
  {
   "property": "C314",
   "status": "proved",
   "theorems": [
    "HubToolbox.Relations.C314_distances",
    "HubToolbox.Relations.C314_hubness",
    "HubToolbox.Relations.C314_score",
    "HubToolbox.Relations.C314_index",
    "HubToolbox.Relations.C314_mutual_proximity"
   ],
   "note": "Library functions (sums, square roots) are assumed near the exact ones as in C244; the conversion of float32 to float64 inside pdist is exact and proved so (single_double)."
  },
  {
   "property": "C315",
   "status": "proved",
   "theorems": [
    "HubToolbox.Relations.C315"
   ],
   "note": "Positive similarities outside the diagonal; zeros are missing values to r_precision. Averages in exact arithmetic."
  },
  {
   "property": "C316",
   "status": "proved",
   "theorems": [
    "HubToolbox.Relations.C316"
   ],
   "note": "Dense matrices without held-out objects; values as the code computes them (C30: they decrease with the similarity). Exact arithmetic."
  },
  {
   "property": "C317",
   "status": "proved",
   "theorems": [
    "HubToolbox.Relations.C317"
   ],
   "note": "Dense matrices; similarities are finite."
  }
 ]
}