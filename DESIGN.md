# Formal model of the HUB-TOOLBOX (hub_toolbox) in Lean 4

Target: `/repo/hub_toolbox` (python). The code is read as text and never run. This file says what is
modelled, how each property of `properties.jsonl` is proved, where the code does not have the property, and what has to be trusted.

## 1. Modelling decisions

* **Shallow, executable, branch by branch.** Every modelled python function is a Lean function whose
  docstring cites file and lines. Exceptions are values: `Py α = Except PyErr α`.
* **Arrays** are functions on finite index types (`Fin n → Fin m → α`), so an out of range access
  cannot be expressed by accident; where python indexes with user supplied integers, the range check
  (`IndexError`, numpy's negative wrap-around) is part of the model.
  In-place assignment returns the updated array; loops are folds over `range`. That names and views which share memory do no harm is shown in
  `Verif/Heap/`: arrays as addresses in a memory, in-place operations as stores, forked workers with a copy of the memory (C196–C199). Trusted there: numpy
  evaluates the right-hand side of an in-place operation before it stores, slices with basic indices are views, indexing by arrays copies.
* **Arguments** which the code inspects (`ndim`, `issparse`, `None`) are inductive types (`PyMat`, `PyVec`, `Option`), so the order of the checks
  and the kind of the exception are part of the model.
* **Floats**: `XR K` = `nan | ninf | fin x | pinf` over an arbitrary linearly ordered field `K` (`ℚ` in examples,
  `ℝ` where `exp/log/sqrt` occur). IEEE comparison (`nan` compares false) and numpy's sort order
  (`nan` last) are separate definitions, arithmetic with `nan`, infinities and division by zero is modelled (`Verif/XRArith.lean`). Rounding
  is modelled in `Verif/Rounding/` only (`Rounding`: any monotone rounding; `Ieee`: IEEE-754 with ties to even, subnormal numbers and overflow); all other
  models compute without rounding. With `Rounding.exact` the rounding models equal the others (`…_exact`). For the order based functions (hubness, kNN, MP empiric, Goodman-Kruskal, SNN) only comparisons and integer counts occur
  before one final division, so the theorems are about exactly what the program compares.
* **numpy / scipy / sklearn calls** are parameters with a contract, over which every theorem quantifies:
  * `argpartition`: any permutation such that for each requested position `t`, everything before is `≤` and
    everything after is `≥` the element at `t` (numpy's documentation); nothing else is assumed. A concrete
    implementation satisfying the contract is constructed, so the contract is consistent.
  * `argsort`, `np.unique`, lexicographic sort: any permutation which sorts.
  * random permutations, samples and numbers: universally quantified.
  * `norm.cdf`, `norm.sf`, `gammainc`, means and standard deviations of `norm.fit`-like calls (`MPPar.Dists`): arbitrary functions with the stated
    range/monotonicity. `MPPar.scipy` is the instance given by the normal and Gamma distributions of Mathlib, which scipy approximates.
  * approximate neighbour indices (FALCONN, nmslib): arbitrary answers, restricted only where a theorem says so.
* **Multiprocessing**: workers write disjoint cells of a shared array; a schedule is any permutation of all the
  individual cell writes (a superset of the real interleavings). Pools are assumed to be forked (the initializers hand over shared arrays).
* A property which the code violates is kept at full strength in `properties.jsonl`; its negation is proved (with a concrete witness or for all
  inputs of a class) and the part which does hold is proved under the name `…_partial`.
* **Specifications** (`*/Spec.lean`, `namespace Spec`) do not mention the model. Beside the theorems there are `example`s with concrete
  data which satisfy the hypotheses; `*/Examples.lean` apply the remaining theorems to concrete arguments.

## 2. Proof ideas

| properties | modules | proof idea |
|---|---|---|
| C01–C08, C53 hubness | `Verif/Hubness/` | contract of argpartition ⇒ specification `IsKnn`; uniqueness of `IsKnn` without ties gives invariance under relabelling, monotone maps, sign change, schedules and random numbers |
| C09–C13, C61–C67 Hubness class | `Verif/HubClass/` | counting and inequalities over `Fin m → ℕ`; batch partition of `range n` |
| C14–C19, C54 Goodman-Kruskal | `Verif/GK/` | a scan over a stable sort counts inversions; quadruple counts as specification |
| C20–C25, C51, C52 MP empiric | `Verif/MPEmp/` | closed form of the loops; `Finset.card` specification |
| C26, C27, C89–C108, C195 MP Gauss/Gamma/Gumbel | `Verif/MPPar/` | abstract distribution functions |
| C28–C33, C68–C71, C135 local scaling, NICDM | `Verif/LS/` | k-th order statistic specification, schedules |
| C34–C36, C72–C78 SNN, simhub | `Verif/SNN/` | cardinalities of intersections, entropy bounds; `SimhubClasses`: for every number of classes from three on a tree metric (star with one hub) has a negative similarity |
| C37–C41, C79–C88 centering, DisSim | `Verif/Cent/` | finite sums over a field |
| C42–C47, C55–C60 kNN classification, R-precision | `Verif/Knn/` | folds over the confusion matrix, `IsKnn`, votes |
| C48 counter | `Verif/Counter/` | invariant over all interleavings of processes |
| C50, C109–C114, C192–C193 intrinsic dimension | `Verif/IntDim/` | closed form of the sums of logarithms |
| C49, C115–C134, C136–C142 approximate hubness reduction | `Verif/Approx/` | oracles for sampling and indices; invariants of the fit/transform pipeline |
| C143–C150 distances | `Verif/Dist/` | inner product geometry, histogram counts |
| C151–C157 hubness analysis | `Verif/Analysis/` | invariants of the loop over methods; composition of the theorems above |
| C158–C164 io | `Verif/InOut/` | integer arithmetic, list and finite set cardinalities |
| C182–C190, C194 rounding | `Verif/Rounding/` | monotone rounding keeps the unit interval; `c/n` and `c'/n` differ by more than the errors of two roundings; underflow of squares C186: the number of quadruples is at most n⁴/16 (pairs and their mirror images are disjoint), hence no int64 overflow; accumulators stay below i·2⁶³, a float; |fl(a−b)| ≤ fl(a+b) by monotonicity and symmetry of rounding. C187–C188: sums are arbitrary binary trees of rounded additions, bounded by (number of leaves)·2ᵉ since these bounds are floats. C189–C190: additions of floats have no underflow error; multiples of a power of two with few digits are closed under the operations. `NicdmRegular`: intervals [2⁻²⁰⁰, 2²⁰⁰] are carried through every operation by monotonicity of rounding, so nothing over- or underflows. |
| C191 start methods | `Verif/Spawn/` | memory of the main process and of each worker; with copies no store reaches the main process, with shared memory the stores are those of `Sched.exec` (bridge lemmas `…_fork`) |
| C196–C199 shared memory | `Verif/Heap/` | frame rule `Keeps` (code writes to new buffers only), evaluation of stores through injective views; invariant of the passes of `gammai`: what they overwrite is not read again, or overwritten idempotently |
| C200 element types | `Verif/Dtype/` | conversions of stored values as functions; with floats the functions are those of the other models; a logical or only yields 0 and 1; a row that contains the threshold itself never exceeds it everywhere |
| C201–C203 hub reduction | `Verif/Relations/MpHubs.lean`, `SkewBound.lean` | the objects which are not farther away from both are the union of two initial segments of neighbour lists; the farthest of the near objects has all of them in its segment; (z−M)(Mz+1)² ≤ 0 summed over normed values z ≤ M=√(m−1) |
| C204, C205 relations of results | `Verif/Relations/Triangle.lean`, `Verif/HubClass/Indices.lean` | weighted overlaps of three sets: w(A∩B)+w(B∩C) ≤ w(B)+w(A∩C); a family of metric spaces in which many points lie aside; deviations above and below the mean cancel; min(a,b) ≥ ab/max |
| C206 label encoder | `Verif/Knn/RDict.lean` | codes are ranks; the worker on codes commutes with decoding |
| C207 `filter_self` | `Verif/Knn/FilterSelf.lean` | the parameter does not occur in the body: dense rows always lose the diagonal, sparse rows always lose their largest value |
| C208, C209 cosine distance in floats | `Verif/Rounding/Cosine.lean`, `CosineError.lean` | symmetry comes from copying the upper triangle; explicit vectors for the violations; relative error of rounding without under- and overflow, propagated through norm, division and inner product; Cauchy–Schwarz |
| C210, C211 Local Scaling in floats | `Verif/Rounding/LocalError.lean` | relative errors of the quotient are damped by t·exp(−t) ≤ 1/2; rounding commutes with powers of two in the normal range |
| C212 Gaussian MP with an index | `Verif/Approx/GaussFormula.lean` | rows of full length are not padded; also the formula with sampled vantage points (C128) |
| C213 hubness in floats | `Verif/Rounding/Skew.lean` | the mean of the counts is the integer k, so all powers and sums are exact; five roundings remain |
| C214 NICDM in floats | `Verif/Rounding/NicdmError.lean` | errors of logarithms: products, quotients and roots add them; sums of positive numbers have small relative, sums of logarithms small absolute errors |
| C215–C218 changes of the data | `Verif/Relations/Monotone.lean`, `Locality.lean`, `Nested.lean` | the standardised distance is κ·t/√(V+c·t²) with t the deviation from the mean of the others, which is monotone; radii grow at most by the factor of the distance; neighbourhoods in a larger set contain no further old objects |
| C219, exact forms of C62, C68, C77, C99, C143 | `Verif/Relations/Exact.lean`, `ExactNan.lean` | a radius is zero exactly if k training objects have distance zero; then the sum of logarithms is −inf and the geometric mean 0 |
| C220–C221, C215 (gamma) | `Verif/MPPar/Distributions.lean`, `Real.lean` | distribution functions of `gaussianReal` and `gammaMeasure` under affine maps; moments by the Gamma integral; Erlang distribution by differentiation |
| C222 accuracy of Gaussian Mutual Proximity | `Verif/MPPar/Lipschitz.lean`, `Verif/Rounding/GaussError.lean` | error of two-pass mean and variance for any order of additions; the normal distribution function is Lipschitz in its argument and in the logarithm of the scale |
| C223 matrices of an analysis, C156 (centering) | `Verif/Analysis/Secondary.lean` | formulas of the methods composed with the dispatch and the default parameters |
| C224 truncated normal measure | `Verif/HubClass/TruncNorm.lean`, `TruncNormLemmas.lean` | closed forms by the fundamental theorem of calculus; affine images of truncated normal distributions; numeric bounds for the counterexample |
| C225 experiments and vectors | `Verif/Analysis/Missing.lean` | the fold over the neighborhood sizes commutes with setting the embedding dimension |
| C226, C227 order under Local Scaling and NICDM | `Verif/Relations/LocalOrder.lean` | with k=1 both are increasing functions of d²/(r r'); a closest pair has ratio 1, every other pair of its members at least 1; counterexample for k=2 |
| C228 far away objects | `Verif/Relations/Clusters.lean` | the k-th smallest distance, the nearest sets and the neighbour lists of a member are the same with and without the outside objects |
| C229, C231 bounds | `Verif/Relations/Bounds.lean` | comparison of d² with the product of the two radii; every common neighbour of two objects occurs at least three times (itself and two lists) |
| C230 copies | `Verif/Relations/Duplicates.lean` | exchanging the copies leaves the matrix unchanged (renumbering theorems); zero distance gives zero with positive radii |
| C232–C235 predict, score, several k | `Verif/Relations/PredictScore.lean` | both functions use the same neighbour lists; the winner of the vote is unique; with a finite nearest neighbour the list is never shuffled again; top-k of stored entries |
| C236 further parallel functions and the start method | `Verif/Spawn/Sample.lean` | worker pools of C191 for `snn_sample`, `simhubIN` (two pools), `localized_centering` and the class `Hubness`; equal to the one-start-method models when forked |
| C237–C238 intrinsic dimension: order of the estimators, powers of distances | `Verif/IntDim/Order.lean` | formula of C109; mean of inverses against inverse of the mean, with the equality case |
| C239 negative test indices | `Verif/Relations/NegativeTest.lean` | `trainInd` of the models against indices counted from the end |
| C240–C241 centering of vectors in double precision | `Verif/Rounding/Centering.lean` | IEEE rounding, sums in any order; without rounding equal to the model of `Verif/Cent/Model.lean` |
| C242 random sparse matrices in double precision | `Verif/Rounding/RandomSparse.lean` | IEEE rounding of the model of `Verif/InOut/Model.lean`; draws are multiples of 2⁻⁵³ |
| C243 approximate Mutual Proximity and the start method | `Verif/Spawn/Approx.lean` | `Spawn.Pool` as for C233–C236; schedule of the workers is any permutation |
| C244–C246 Euclidean distances in double precision | `Verif/Rounding/Euclid.lean` | `pdist`: differences rounded, squares rounded, added in any order, square root within 2^-53; scikit-learn's formula for `lp_norm(p=2)` as for C189 |
| C247 units of an analysis | `Verif/Analysis/Units.lean` | experiments are functions of the secondary distances, which either do not change or are multiplied by the constant |
| C248 renumbering for all methods | `Verif/Analysis/Renumber.lean` | as C157, C165, C166, with new lemmas for centering (also with nan), DisSim and localized centering |
| C249–C251 units, order and sampling of approximate reduction | `Verif/Approx/Units.lean`, `Verif/Approx/Order.lean` | as C120–C132; neighbours chosen by the order of distances (`Spec.ByOrder`) |
| C252 Mutual Proximity of vectors under renumbering | `Verif/Dist/MpPerm.lean` | exact arithmetic |
| C253 Local Scaling of similarities in double precision | `Verif/Rounding/LocalSim.lean` | as C188: operations rounded, exponential function within 2^-52 |
| C254 representation of data for R-precision | `Verif/Relations/RPrec.lean` | as C59 |
| C255 simhub of objects at infinite or undefined distance | `Verif/SNN/SimhubFloats.lean` | as C35, C36 |
| C256 an object stored twice, parametric Mutual Proximity | `Verif/Relations/DuplicatesPar.lean` | exact arithmetic, distribution functions as C89 |
| C257–C258 text files | `Verif/InOut/TextModel.lean`, `Text.lean` | text as list of characters; `split`, `strip`, `int`, `readlines` of python for ASCII; reduces to the models of C158, C159, C163 |
| C259 class `Hubness` under renumbering, similarity transformations and monotone maps of the distances | `Verif/HubClass/Invariance.lean` | on C64, C12; exact arithmetic, no ties |
| C260 class `Hubness` on vectors in double precision | `Verif/Rounding/HubVecModel.lean`, `HubVec.lean` | squared distances as computed by scikit-learn, any order of additions; statistics of the counts exact |
| C261 storage of csr matrices | `Verif/MPEmp/CsrModel.lean`, `Csr.lean` | rows as lists of stored entries, `indptr`, numpy binary search, shared array addressed by position; no column stored twice in a row. `tolil` of scipy also sorts the shared `S.indices` in place if they are unsorted; this concerns rows kept because of `min_nnz` and the argument of the caller, and is not modelled |
| C262 explicit zeros in parametric Mutual Proximity | `Verif/MPPar/StoredModel.lean`, `Stored.lean` | as C99-C106, with a set of stored places |
| C263 single precision results | `Verif/Rounding/SingleModel.lean`, `Single.lean` | values computed exactly, every store to the float32 matrix rounds |
| C264 storage of sparse distances in class `Hubness` | `Verif/HubClass/SparseStored.lean` | on the model of C64–C67; rows as lists of stored entries, no column twice |
| C265 storage of csr matrices in k-NN classification | `Verif/Knn/StoredModel.lean`, `Stored.lean` | as C42–C60 with rows as lists of stored entries, no column twice; `nonzero` drops stored zeros |
| C266 invariance of sparse empirical Mutual Proximity | `Verif/MPEmp/SparseInvariance.lean` | on the model of C25 |
| C267, C268 DisSim Global in float64 | `Verif/Rounding/DsgModel.lean`, `Dsg.lean` | squared distances as in scikit-learn (C260); products, squares and column sums in any order of additions |
| C269 worker processes of `mp_dissim` | `Verif/Spawn/MpModel.lean`, `MpProps.lean` | both pools, stores in any order, globals of the module as inherited or not; arguments are pickled faithfully |
| C270-C275, C277, C278 separated classes | `Verif/Relations/Separation.lean`, `SeparationHub.lean`, `SeparationRPrec.lean`, `SeparationGK.lean` | no new model; `Separated` and `classOf` are the specification |
| C276 leaving out held-out objects | `Verif/Relations/HeldOut.lean` | no new model |
| C279 statistics of class `Hubness` in float64 | `Verif/Rounding/HubStatsModel.lean`, `HubStats.lean`, `HubHood.lean`, `HubFloat.lean` | rounded arithmetic on the exact counts; integer sums modulo 2^64; `np.sum` in any order of additions |
| C280, C281 experiments in double precision | `Verif/Relations/Stable.lean` | no new model; `SameExperiments` is the specification |
| C282 counting methods in double precision | `Verif/Relations/StableMp.lean` | no new model |
| C283 remaining pools | `Verif/Spawn/Rest.lean` | `disSimLocal2` and `lshTrafo` with worker processes; the LSH index is assumed to be picklable |
| C284 intrinsic dimension in float64 | `Verif/Rounding/IntDimModel.lean`, `IntDimError.lean`, `IntDimRow.lean`, `IntDimProps.lean` | rounded arithmetic for 'levina', 'vector', no transformation; sums and inner products in any order, logarithms accurate to 2^-45 |
| C285 Atkinson index in float64 | `Verif/Rounding/AtkinsonModel.lean`, `Atkinson.lean`, `AtkinsonProps.lean` | rounded arithmetic, default epsilon; sums in any order, powers within two units of rounding (`AtkLib.Near`) or correctly rounded (`AtkLib.Correct`) |
| C286 R-precision in float64 | `Verif/Rounding/RPrecModel.lean`, `RPrec.lean`, `RPrecProps.lean` | rounded quotients and averages; neighbours as in `Verif/Knn/RPrecision.lean`; returned labels left out |
| C287 F-measures in float64 | `Verif/Rounding/F1Model.lean`, `F1Props.lean` | rounded precision, recall and averages; confusion matrices as in `Verif/Knn/FMeasure.lean` |
| C288 simhub in float64 | `Verif/Rounding/ShiModel.lean`, `Shi.lean`, `ShiProps.lean` | rounded weights, sums and normalisation; neighbours as in `Verif/SNN/Model.lean`; logarithms within two units of rounding (`ShiLib.Near`) |
| C289 experiments on Gaussian Mutual Proximity and DisSim Global in float64 | `Verif/Relations/StableGauss.lean` | no new model |
| C290 load_dexter | `Verif/InOut/DexterModel.lean`, `Dexter.lean` | text of both files, `np.loadtxt` (comments, empty lines, dropped dimensions; conversion of words as parameter) and cosine distances |
| C291 accuracy of DisSim Local in float64 | `Verif/Rounding/Dsl.lean` | model of `Verif/Rounding/DisSimModel.lean` |
| C292 accuracy of localized centering in float64 | `Verif/Rounding/LcentModel.lean`, `Lcent.lean` | `localized_centering` with rounding for `gamma=1`, `n_jobs=1` |
| C293 self distances do not matter, C294 experiments on DisSim Local in float64 | `Verif/Relations/Diagonal.lean`, `StableDsl.lean` | no new model; `hubness`, `score`, `predict`, `goodman_kruskal_index` |
| C295 experiments on localized centering in float64 | `Verif/Relations/StableSim.lean` | no new model |
| C296 experiments on cosine distances in float64 | `Verif/Relations/StableCos.lean` | no new model |
| C297 analysis of the example data | `Verif/Analysis/Start.lean` | `HubnessAnalysis.__init__` with `D=None` |
| C298 measurement errors | `Verif/Relations/Robust.lean` | no new model |
| C299 vectors to secondary distances in float64 | `Verif/Relations/Pipeline.lean` | no new model |
| C300, C301 secondary distances of cosine distances in float64 | `Verif/Relations/PipelineCos.lean` | no new model |
| C302, C303 logs | `Verif/Log/Props.lean` | `htlogging.py` (`Verif/Log/Model.lean`) |
| C304–C306 measurement errors and counting methods | `Verif/Relations/RobustCount.lean` | uses `MPEmp`, `SNN`, `Hubness` models |
| C307 measurement errors and classification | `Verif/Relations/RobustKnn.lean` | uses the `Knn` model |
| C308 measurement errors and the Goodman-Kruskal index | `Verif/Relations/RobustGk.lean` | uses the `GK` model |
| C309, C310 evaluations of vectors in double precision | `Verif/Relations/PipelineCount.lean`, `PipelineCosCount.lean` | uses `Rounding/Euclid.lean`, `Rounding/CosineError.lean` and C304–C308 |
| C311 intrinsic dimension under measurement errors | `Verif/IntDim/Robust.lean` | uses C109; the sorted distances of both data sets |
| C312 errors of the features, single precision | `Verif/Relations/FeatureErrors.lean` | uses `Dist/Model.lean`, C298, C304–C308, C311 |
| C313 estimator of MacKay and Ghahramani in double precision | `Verif/Rounding/IntDimMackay.lean` | `intrinsic_dimension.py` 24-154 with `estimator='mackay'`; uses `Rounding/IntDimProps.lean` |
| C314 data stored in single precision, evaluated in double precision | `Verif/Relations/StoredSingle.lean` | `distances.py` 39-44; uses C244, C304, C306 to C308, C312 |
| C315 R-precision under measurement errors | `Verif/Relations/RobustRPrec.lean` | `knn_classification.py` 468-644; uses C58, C59 |
| C316 Local Scaling of similarities under measurement errors | `Verif/Relations/RobustSim.lean` | `local_scaling.py` 146-310; uses C70, C298 |
| C317 Mutual Proximity of similarities under measurement errors | `Verif/Relations/RobustSim.lean` | `global_scaling.py` 245-299; uses C21, C304 |
| C174–C181 estimator state | `Verif/Approx/Class*.lean` | results depend on parameters, `n_train_` and fitted attributes only; queries keep these; each row of a result is computed from one test object |
| C170–C173 printed report | `Verif/Analysis/Report*.lean` | output as a list of lines; equidistant points have no finite intrinsic dimension |
| C165–C169 relations between functions and inputs | `Verif/Relations/` | renumbered neighbourhoods are neighbourhoods; uniqueness of neighbours without ties; distance to a centroid in terms of pairwise distances; row orders |

## 3. Which code is modelled where

Generated from the citations in the doc comments of the model definitions (lines of `/repo/hub_toolbox/<file>`).

**approximate.py**

* `Verif/Approx/Model.lean`: enforceFinite (54-71)
* `Verif/Spawn/Approx.lean`: suqhrHnsw (77-93, 171-187, 884-886, 904-922); mpMatrix (77-93, 206-218, 991-1005); suqhrMP (866-898, 963-1007)
* `Verif/Spawn/Rest.lean`: lshTrafo (104-115, 145-168, 769-786)
* `Verif/Approx/MPModel.lean`: mpHnsw (171-187); mpRow (213-218); toSparse (522-539); vantage (552-601); hnswFit (603-656); padRow (644-649); hnswTrafo (658-677); suqhrMP (866-898, 963-1007); suqhrHnsw (884-886, 904-922); mpMatrix (964-1006)
* `Verif/Approx/LshModel.lean`: mpLsh (190-205); lshFit (679-742); lshRow (715-725); lshVal (717-722, 128-139, 756-765, 153-164); lshTrafo (744-786); suqhrLshMP (887-889, 923-962)
* `Verif/Approx/KMeansModel.lean`: kmeanspp (224-349); nextCentre (299-344); candidate (302-304); trial (325-334)
* `Verif/Approx/ClassModel.lean`: Config (429-444); Hr (447-457); Smp (467-484); sparseOf (522-539); pickLabels (552-601); hnswPost (618-628, 650-655, 672-676); annTrafo (658-677, 744-786); fitFixed (792-805, 866-880, 1014-1041, 1110-1129, 1223-1250, 1271-1284); fitVaried (807-824, 882-897, 1043-1062, 1131-1147, 1252-1284); annFit (810-815, 884-889, 1045-1050, 1133-1137, 1254-1261); transformVaried (832-837, 904-962, 1069-1074, 1088-1102, 1155-1162, 1177-1215, 1292-1306, 1328-1350); transformFixed (838-859, 963-1007, 1075-1102, 1163-1215, 1307-1350); overwrites (878, 1026); rowMoments (1060-1062, 1097-1098); toCentre (1271-1279, 1331-1342); predictKnn (1354-1387); Est.fit (1393-1440); runFit (1417-1437); Est.transform (1442-1495); sec (1464-1489); Est.predict (1497-1526)
* `Verif/Approx/PredictModel.lean`: construct (429-493); checkSize (458-466); sparseEntry (522-539); isFixed (795, 807, 817-820); fitChecks (795-822, 870-894, 1018-1055, 1114-1143, 1226-1276); branch (1417-1432); predictFixed (1512-1526); predictVaried (1512-1526)
* `Verif/Approx/LocalModel.lean`: suqhrPlain (792-805, 838-860); suqhrMPG (1014-1042, 1056-1102); mpgMoments (1036-1039, 1060-1062); hnswMPG (1043-1047, 1056-1062, 1069-1071, 1087-1102); mpgRow (1096-1101); suqhrLS (1110-1129, 1145-1152, 1163-1216); trainPart (1127); hnswLS (1131-1140, 1150-1162, 1177-1216); testPart (1176); lsEntry (1184-1211); suqhrDSL (1223-1250, 1271-1272, 1279-1291, 1308-1334, 1343-1351); trainKnn (1244); testKnn (1325)
* `Verif/Heap/SuQHR.lean`: transformH (827-859, 1442-1495); fitH (1408-1437); checkArray (1410-1411)

**centering.py**

* `Verif/Analysis/Model.lean`: fromVectors (24-25, 96-97, 188-189, 284, 345-346)
* `Verif/Cent/Model.lean`: centering (24-94); centeringMatrix (81); weightedCentering (96-165); centralities (147-160); affinities (180-186, 259-276); lastOf (182, 273); localizedCentering (188-281); disSimGlobal (284-325); centroids (340-343, 403-417, 425-439); disSimLocal (345-449); toCentroid (418-420, 440-442)
* `Verif/Rounding/Centering.lean`: centering (84-92)
* `Verif/Analysis/Report.lean`: defaults (96, 188-189, 345)
* `Verif/Spawn/Sample.lean`: affinities (173-186, 259-269); localizedCentering (188-281)
* `Verif/Rounding/LcentModel.lean`: localizedCentering (188-281); unitRow (243-245, 252-254); rowDot (249, 256-257, 276); localMean (275)
* `Verif/Rounding/DsgModel.lean`: disSimGlobal (312-325); disSimGlobalSelf (312-325); columnMean (316)
* `Verif/Spawn/Model.lean`: centroids (333-343, 403-411); disSimLocal (345-449)
* `Verif/Heap/DisSim.lean`: centroidsH (340-343, 403-417, 425-439); disSimLocalH (379-449); toCentroidH (418-420, 440-442)
* `Verif/Rounding/DisSimModel.lean`: disSimLocal (345-449); centroid (417); toCentroid (418-420)
* `Verif/Spawn/Rest.lean`: disSimLocal2 (345-449)

**distances.py**

* `Verif/Cent/Model.lean`: cosPair (28-37)
* `Verif/Analysis/Model.lean`: cosineDistance (28-37)
* `Verif/Dist/Model.lean`: cosineDistance (28-37); norms (30); cosineRaw (31-35); euclideanDistance (39-44); lpNorm (46-91); sampleDistance (269-356); sampleSize (325-326)
* `Verif/Rounding/Cosine.lean`: cosineDistance (28-37); cosRow (30-31); cosRaw (33-35)
* `Verif/Rounding/Euclid.lean`: euclideanDistance (39-44); lpNorm2 (81-83)
* `Verif/Dist/MpModel.lean`: massEdges (121-122); rangeEdges (128-129); rBins (131-136); rUpper (133-134); binOf (141-146); mpEntry (151-160); mpDissim (162-266); kthList (235-237); isPrefix (243, 246)
* `Verif/Spawn/MpModel.lean`: calcHistograms (121-126); calcHistogramsNBins (128-129); createRBins (131-136); estimateR (138-149); calcMpDissim (151-160); mpDissim (162-266); Globals (234, 244, 247); mpSecondPool (251-266)

**global_scaling.py**

* `Verif/Analysis/Model.lean`: fromMatrix (25-27, 524-526, 743-744)
* `Verif/Rounding/CountModel.lean`: mpEmpiric (28-87, 245-299); ratio (180-183, 290-293); mpDense (271-299); mpEntry (286-293, 174-183)
* `Verif/MPEmp/Model.lean`: sample (89-192); sampleCore (158-192); full (245-299); fullChecks (251-266); selfValue (252-256); excludeValue (252-257); TestArg.notAllInverted (263); fullDense (271-299); entry (286-293); secDist (312-345); suppress (340-341); sparse (347-412); pairs (378)
* `Verif/Heap/Sample.lean`: empiricSampleH (158-192); gaussiSampleH (479-522)
* `Verif/Heap/MP.lean`: empiricH (271-299); gaussiH (610, 617-668)
* `Verif/Dtype/Model.lean`: mpEmpiric (271-299)
* `Verif/Spawn/Model.lean`: mpSparse (306-310, 347-412)
* `Verif/MPEmp/CsrModel.lean`: secDistCsr (312-345); dataIdx (326); sparseCsr (347-412); withData (387-388)
* `Verif/MPPar/Model.lean`: gaussiSample (415-522); selfValue (468-471, 598-601, 800-803); gaussiEntries (484-517, 620-672); gaussEntry (505-513, 656-664); gaussi (524-673); gaussiDense (617-668); fillUpper (644-668, 828-847); gaussiSparse (675-741); colNnz (702, 705, 881); colMoment (702-705, 877-882); gammai (743-849); gammaiDense (818-847); gamEntry (835-842); gammaiSparse (851-925); colVar1 (881-885, 980-984); sparseFill (894-925, 996-1029); gamCdf (927-950); gumbelCdf (952-954); gumbelSparse (956-1029)
* `Verif/Rounding/GaussModel.lean`: noZero (492, 636, 823); gaussEntry (505-513, 656-664); gaussi (524-673); selfValue (598-601, 800-803); colVals (617, 625-626, 818-821); gaussiDense (617-668); gaussParams (625-636); fillUpper (644-668, 828-847); gammai (743-849); gammaiDense (818-847); gamEntry (835-842); gamCdf (927-950)
* `Verif/MPPar/StoredModel.lean`: gaussiStored (675-741); colNnzStored (702, 705, 877, 881, 976, 980); colMomentStored (702-705, 877-882, 976-981); colVarStored (705-708); gammaiStored (851-925); colVar1Stored (881-885, 980-984); sparseFillStored (894-925, 996-1029); gumbelStored (956-1029)
* `Verif/Heap/Gammai.lean`: gammaiH (812-847); gammaiRow (831-842); after (833); gamcdfScalar (927-950); negNan (929-933); nonposNan (934-938); negZero (939)
* `Verif/Rounding/SingleModel.lean`: gammaiSingle (851-925); sparseFillSingle (894-925, 996-1029); gumbelSingle (956-1029)

**goodman_kruskal.py**

* `Verif/Rounding/GkModel.lean`: gkIndex (19-137); gkCounts (70-126); gkGamma (128-137)
* `Verif/GK/Model.lean`: index (19-137); dOther (76-78); denseCounts (80-126); hasPair (81-82); dSelf (81-86); concordant (95-96, 113-120, 283, 324-333); equidistant (98-111, 292-316); gamma (128-137, 354-365); sparseIndex (139-368); sparseCounts (216-345); otherPairs (227-234); selfPairs (244-264); naive (370-404); naiveCounts (381-398)

**htlogging.py**

* `Verif/Log/Model.lean`: new (18-36, 59-65); stamp (23-26); log (41-57); tag (43, 49, 55); text (43, 49, 55)

**hubness.py**

* `Verif/HubClass/Model.lean`: validMetrics (28); fromVectors (304-379); init (444-482); kNeighbors (484-532); nBatches (492); serialNN (493-510); batch (500-509); parallelNN (511-532, 44-58); precomputed (530-551); rowNN (540-549); precomputedSparse (553-609); sparseRow (590-606); giniMemory (627-631); giniTime (632-633); giniNaive (634-639); hood (643-647); atkinson (649-654); antihubs (656-663); hubs (665-669); fitTransform (671-734); fitLists (672-702); stats (699-734); gini (713-718); groupie (733)
* `Verif/Spawn/Sample.lean`: parallelNN (32-58, 511-532)
* `Verif/Rounding/HubVecModel.lean`: sqDistances (52-55); fitVectors (484-532)
* `Verif/Spawn/Model.lean`: Pool.run (61-65); hubnessParallel (61-92, 164-228); hubness (154-163)
* `Verif/Hubness/Model.lean`: rowValues (71-80, 272-281); selectRow (81-92, 282-292); Rnd (85, 286); hubness (94-228); hubnessMat (154-163); parallel (164-228); reduceK (168-172, 238-242); dSelf (173-180, 243-250); kthStart (180); prepare (189-198, 258-267); Schedule (205-217); finish (219-228, 294-302); skew (222, 297); serial (230-302)
* `Verif/Heap/Hubness.lean`: rowChange (75-80, 276-281); hubnessH (94-228); parallelH (164-228); prepareH (188-198, 258-267); serialH (230-302)
* `Verif/Rounding/Skew.lean`: skew (222, 297)
* `Verif/Dtype/Model.lean`: hubness (230-302)
* `Verif/HubClass/TruncNormModel.lean`: skewnessTruncnorm (611-622); clipRight (616); meanOf (617); std1 (618); truncnormMoment (621)
* `Verif/Rounding/HubStatsModel.lean`: gini (626-641, 713-718); giniSpace (628-631); giniTime (632-633); hood (643-647); antihubOccurrence (656-663); hubs (667); hubOccurrence (668); groupie (733)
* `Verif/Rounding/AtkinsonModel.lean`: atkinson (649-654)

**hubness_analysis.py**

* `Verif/Analysis/Model.lean`: fromMatrix (45-47); kinds (51-63); HubnessAnalysis (98-147); HubnessAnalysis.init (98-147); defaultExperiments (169); analyze (169-241); defaultHubK (170); defaultKnnK (170); loop (214-233); experiment (218-230); Experiment (322-353); checks (330-341); secondary (355-372); untype (361, 369-371); fromVectors (363-369); calcHubness (374-386); calcKnn (388-393)
* `Verif/Analysis/Start.lean`: HubnessAnalysis.new (98-147)
* `Verif/Analysis/Report.lean`: header (149-162); analyzePrint (169-241); loopPrint (214-240); report (243-319); block (267-318); defaults (271-278); hubnessLines (279-289); accuracyLines (290-296); indexLine (297-303); embeddingLine (304-310); dimensionLine (311-317)

**intrinsic_dimension.py**

* `Verif/IntDim/Model.lean`: intrinsicDimension (24-154); LexSort (90); transform (92-102); centre (95, 99); norm2 (105); knnMatrix (107-119); sqDist (108); fix (111, 118); logRow (112, 119); sqDist (116); dhat (143-145); levina (148); mackay (151-153)
* `Verif/Rounding/IntDimModel.lean`: intrinsicDimension (24-154); idNorm2 (105); idDist (108); idLog (109-112, 116-119); idFix (111, 118); idCumsum (143); idHat (144-145); idLevina (148)
* `Verif/Rounding/IntDimMackay.lean`: intrinsicDimensionMackay (24-154); idMackay (149-153)
* `Verif/Analysis/Model.lean`: analyze (24-26)

**io.py**

* `Verif/InOut/DexterModel.lean`: loadDexter (22-62); loadtxt (44)
* `Verif/InOut/TextModel.lean`: loadText (45-57); readTextLines (51-57); readTextLine (53-56); readWord (55-56); FreeMem.readText (210-225); textLine (215-221)
* `Verif/InOut/Model.lean`: readLines (45-57); readVectors (45-57); readLine (54-56); check1D (64-73); checkFitsVectors (82-89); checkFitsLabels (91-98); checkSampleFits (109-124); matrixSplit (133-165); randomSparse (167-191); save (193-196); load (198-201); FreeMem (210-225); FreeMem.read (210-225); FreeMem.swapUsed (222, 280-282); factor (227-240); FreeMem.total (242-244); FreeMem.used (246-248); FreeMem.usedReal (250-253); FreeMem.sharedMem (255-257); FreeMem.buffers (259-261); FreeMem.cachedMem (263-265); FreeMem.userFree (267-270); FreeMem.swap (272-274); FreeMem.swapFree (276-278)
* `Verif/Np.lean`: PyMat.check2D (64-73); PyMat.checkSquare (75-80)
* `Verif/Io.lean`: checkMatrixLabels (65-82, 93-102)
* `Verif/Analysis/Model.lean`: checks (75-107)
* `Verif/LS/Model.lean`: checkSample (109-124)
* `Verif/MPEmp/Model.lean`: sample (109-124)
* `Verif/Base.lean`: checkValidMetric (126-131)
* `Verif/Rounding/RandomSparse.lean`: randomSparse (167-191)

**knn_classification.py**

* `Verif/Knn/Model.lean`: score (25-255); dSelf (100-105, 325-330); scoreDense (114-255); trainSet (121-123); KArg.toList (128-138, 354-364); runDense (140-150, 163-255); labelsOf (143, 366); scoreSparse (144-147, 173-174, 187-202, 213-216, 232-233); encode (152-155, 370-373); scoreSample (156-162, 185-186, 203-208, 228); tally (167-171, 235-246); sparseOrder (187-202); sparseKth (192-198); order (204-208, 408-412); nnLists (211-228, 415-430); vote (229-246, 431-441); predict (257-449); f1Score (646-673); f1Macro (675-690); f1Weighted (692-707); f1Micro (709-724)
* `Verif/Rounding/KnnModel.lean`: score (25-255); accuracy (140, 235-246)
* `Verif/Knn/FilterSelf.lean`: scoreFilter (25-255)
* `Verif/Heap/Knn.lean`: scoreH (97-255); scoreSampleH (97-255); neighbours (203-228, 408-424); scoreRes (229-255); predictH (318-449); predictSampleH (318-449); copyDense (333-334); predictRes (425-449)
* `Verif/Knn/StoredModel.lean`: scoreStored (144-147, 170-174, 187-202, 211-246); storedOrder (187-202, 480-499); partOrder (191-200, 482-495); rWorkerStored (468-525); rStored (477-509); rPrecisionStored (594-644)
* `Verif/Rounding/RPrecModel.lean`: rItem (468-525); rPrecision (528-644)
* `Verif/Knn/RPrecision.lean`: rWorker (468-525); rNeighbours (477-509); rPrecision (528-644); relevant (594)
* `Verif/Knn/RDict.lean`: rWorkerEnc (468-525); rPrecisionDict (528-644); leClasses (588-591); relevantItems (595); RDict (638-643)
* `Verif/Rounding/F1Model.lean`: f1Score (646-673); f1Macro (675-690); f1Weighted (692-707); f1Micro (709-724)

**local_scaling.py**

* `Verif/LS/Model.lean`: localScalingSample (24-138); setSelf (98-99, 136-137, 379-380, 398-399); partAt (109, 159, 273); finish (128-138, 394-400); radiiParallel (157-160, 263-271); entry (166-169, 281-287); secWrites (170-171); localScaling (174-311); core (224-311); kthOf (228); exclude (229); selfTmp (230); selfValue (231); trainInd (248-251); radiiSerial (273); secSerial (275-291); secParallel (292-303); nicdmSample (313-400); meanRadius (383, 420-421, 517-518); meanRadiiParallel (419-422, 496-506); nicdmWrites (424-429); nicdmEntry (426, 525); nicdm (431-528); nicdmCore (485-528); nicdmParallel (507-515); meanRadiiSerial (517-518); nicdmSerial (521-526); geomean (530-531)
* `Verif/Heap/Sample.lean`: localScalingSampleH (90-138); finishH (128-138, 394-400); nicdmSampleH (365-400)
* `Verif/Spawn/Model.lean`: radii (146-160, 263-271); localScaling (146-172, 224-311); meanRadii (408-422, 496-506); nicdm (408-429, 485-515)
* `Verif/Rounding/LocalModel.lean`: lsEntry (166-169, 281-287); lsWrites (170-171); localScaling (174-311); lsCore (224-311); lsSerial (275-291); lsParallel (292-303); meanRadiiParallel (419-422, 496-506); meanRadius (420-421, 517-518); nicdmWrites (424-429); nicdmEntry (426, 525); nicdm (431-528); nicdmCore (485-528); nicdmParallel (507-515); meanRadiiSerial (517-518); nicdmSerial (521-526); geomean (530-531)
* `Verif/Analysis/Report.lean`: defaults (174, 431)
* `Verif/Analysis/Model.lean`: fromMatrix (174-175, 431-432)
* `Verif/Dtype/Model.lean`: localScaling (224-262, 272-291, 309-311)
* `Verif/Heap/Scaling.lean`: localScalingH (224-311); nicdmH (485-528)

**shared_neighbors.py**

* `Verif/Spawn/Sample.lean`: snnSample (26-168); rowsPool (41-49, 140-143, 323-335, 444-453); marksMain (303-314, 409-418); simhubIN (303-482)
* `Verif/SNN/Model.lean`: entry (46-49, 156-159, 193-196, 288-291); snnSample (52-168); selfValue (108, 112, 244, 249); exclude (110, 114, 246, 251); rowsOf (117-120, 395-398, 549-552); hood (184-186, 278-280); secParallel (189-197, 270-273); sharedNearestNeighbors (199-295); core (242-295); kthOf (247, 252); secSerial (281-291); partner (326, 333, 458, 463, 609, 614); shared (326-327, 333-334, 458-464, 609-615); simhubIN (337-482); shiExclude (400-404, 554-558); occIN (429-431); informativeness (432, 600); shiFinish (467-482, 617-636); simhub (484-636); occClass (578-580); broadcastLabels (580); plogp (584-591); infoGain (590-595)
* `Verif/Heap/SNN.lean`: snnSampleH (107-168); snnSamplePhases (125-159); snnH (242-295); snnPhases (256-291); excludeSelf (400-404, 554-558); shiFinishH (467-482, 617-636); simhubH (544-636)
* `Verif/Spawn/Model.lean`: marks (176-187, 259-269); snn (176-197, 242-295)
* `Verif/Rounding/CountModel.lean`: snnParallel (189-197, 260-273); snnEntry (193-196, 288-291); sharedNearestNeighbors (199-295); snnCore (242-295); snnSerial (281-291)
* `Verif/Analysis/Report.lean`: defaults (199)
* `Verif/Analysis/Model.lean`: fromMatrix (199-200)
* `Verif/Dtype/Model.lean`: snn (242-254, 274-295)
* `Verif/Rounding/ShiModel.lean`: shiShared (326-327, 333-334, 458-464, 609-615); simhubIN (337-482); shiWeight (432, 600); shiFinish (467-482, 617-636); simhub (484-636)

**utils.py**

* `Verif/Counter/Model.lean`: start (17-18); Op (20); code (22-24)

## 4. Properties

| id | property | status | theorems (in) |
|---|---|---|---|
| C01 | hubness() returns true k-nearest-neighbour lists | proved | `C01_hubness_succeeds_iff`, `C01_hubness_knn`, `C01_hubness_argument` (Verif/Hubness/Props.lean) |
| C02 | a point is not its own neighbour | proved | `C02_no_self_neighbour` (Verif/Hubness/Props.lean) |
| C03 | k-occurrence is an exact reverse-neighbour count | proved | `C03_k_occurrence` (Verif/Hubness/Props.lean) |
| C04 | parallel and serial hubness agree for every schedule | proved | `C04_parallel_eq_serial` (Verif/Hubness/Props.lean) |
| C05 | serial hubness handles non-square similarity matrices | partial | `C05_parallel_rectangular_similarity_partial`, `C05_serial_raises_of_more_rows`, `C05_serial_wrong_of_fewer_rows` (Verif/Hubness/Props.lean) |
| C06 | hubness depends only on the order of the distances | proved | `C06_order_only` (Verif/Hubness/Props.lean) |
| C07 | hubness is invariant under relabelling the points | proved | `C07_relabelling` (Verif/Hubness/Props.lean) |
| C08 | distance and similarity modes of hubness are dual | proved | `C08_duality` (Verif/Hubness/Props.lean) |
| C09 | hubness statistics of the Hubness estimator lie in their documented ranges | proved | `C09_statistics` (Verif/HubClass/Props.lean) |
| C10 | the three Gini implementations agree | proved | `C10_agree`, `C10_zero_iff` (Verif/HubClass/Props.lean) |
| C11 | batching and worker count do not change Hubness neighbour lists | proved | `C11_batches` (Verif/HubClass/Neighbours.lean) |
| C12 | has_self_distances removes exactly the self match | partial | `C12_partial`, `C12_violated` (Verif/HubClass/Neighbours.lean); `C12_left_out` (Verif/HubClass/LeftOut.lean) |
| C13 | Hubness constructor rejects invalid parameters and only those | proved | `C13_init` (Verif/HubClass/Props.lean) |
| C14 | efficient Goodman-Kruskal equals the quadruple definition | proved | `C14_index_is_definition`, `C14_naive_is_definition`, `C14_accepts_iff`, `C14_errors`, `C14_nan_disagrees`, `C14_sparse_argument` (Verif/GK/Props.lean) |
| C15 | Goodman-Kruskal index is bounded and sign-correct | proved | `C15_bounded`, `C15_extreme`, `C15_no_comparable` (Verif/GK/Props.lean) |
| C16 | Goodman-Kruskal: metric flip and order invariance | proved | `C16_metric_flip`, `C16_order_only`, `C16_duality` (Verif/GK/Props.lean) |
| C17 | Goodman-Kruskal: label names and point order are irrelevant | proved | `C17_renaming`, `C17_relabelling` (Verif/GK/Props.lean) |
| C18 | sparse Goodman-Kruskal equals dense | proved | `C18_sparse_eq_dense` (Verif/GK/Props.lean) |
| C19 | sparse Goodman-Kruskal with zeros as missing values | proved | `C19_zero_missing` (Verif/GK/Props.lean) |
| C20 | empirical Mutual Proximity matrix is a valid secondary distance | proved | `C20_full_succeeds_iff`, `C20_valid_secondary_distance`, `C20_off_diagonal_bound` (Verif/MPEmp/Props.lean) |
| C21 | empirical Mutual Proximity computes the defining probability | proved | `C21_computes_definition` (Verif/MPEmp/Props.lean) |
| C22 | empirical Mutual Proximity depends only on distance ranks and not on point order | proved | `C22_order_only`, `C22_relabelling` (Verif/MPEmp/Props.lean) |
| C23 | empirical Mutual Proximity: distance/similarity duality | proved | `C23_duality` (Verif/MPEmp/Props.lean) |
| C24 | sampled Mutual Proximity with the full sample equals full Mutual Proximity | proved | `C24_sample_values`, `C24_sample_range`, `C24_full_sample`, `C24_test_rows` (Verif/MPEmp/Props.lean) |
| C25 | sparse empirical Mutual Proximity equals dense on stored pairs | proved | `C25_sparse_values`, `C25_sparse_eq_dense`, `C25_schedule_independent` (Verif/MPEmp/Props.lean) |
| C26 | Mutual Proximity with independent Gaussians is a valid secondary distance | proved | `C26_valid`, `C26_formula`, `C26_monotone` (Verif/MPPar/Props.lean) |
| C27 | Mutual Proximity with independent Gammas is a valid secondary distance | partial | `C27_valid_partial`, `C27_violated_two`, `C27_violated_negative` (Verif/MPPar/Props.lean); `C27_exact`, `C27_iff` (Verif/MPPar/GammaExact.lean) |
| C28 | Local Scaling yields a valid secondary distance | proved | `C28_formula`, `C28_radii_exist`, `C28_radii_exist_all`, `C28_valid` (Verif/LS/Props.lean) |
| C29 | Local Scaling is scale invariant and monotone | proved | `C29_scale_invariant`, `C29_monotone` (Verif/LS/Props.lean) |
| C30 | Local Scaling of similarities preserves similarity order | partial | `C30_violated`, `C30_reversed_partial` (Verif/LS/Props.lean) |
| C31 | parallel and serial Local Scaling and NICDM agree | proved | `C31_local_scaling`, `C31_nicdm` (Verif/LS/Props.lean) |
| C32 | NICDM yields a valid secondary distance and scales with its input | proved | `C32_formula`, `C32_nearest_exist`, `C32_valid`, `C32_scale`, `C32_uniform` (Verif/LS/Props.lean) |
| C33 | sample variants exclude the self distances of the training points | partial | `C33_local_scaling_violated`, `C33_nicdm_violated`, `C33_local_scaling_test_partial`, `C33_local_scaling_prefix_partial`, `C33_nicdm_test_partial` (Verif/LS/Sample.lean); `C33_snn_violated`, `C33_snn_test_partial`, `C33_snn_all_partial` (Verif/SNN/Sample.lean) |
| C34 | shared nearest neighbours is a valid secondary distance | proved | `C34_formula`, `C34_determined`, `C34_valid`, `C34_sum_one`, `C34_parallel` (Verif/SNN/Props.lean); `C34_floats` (Verif/SNN/Floats.lean) |
| C35 | simhub similarity is normalised | proved | `C35_formula`, `C35_valid`, `C35_same` (Verif/SNN/SimhubProps.lean) |
| C36 | supervised simhub stays in [0,1] | partial | `C36_violated`, `C36_formula`, `C36_upper_partial`, `C36_two_classes_partial` (Verif/SNN/SimhubProps.lean); `C36_violated_classes` (Verif/SNN/SimhubClasses.lean) |
| C37 | centering centres, is idempotent and translation invariant | proved | `C37_formula`, `C37_no_training`, `C37_zero_mean`, `C37_idempotent`, `C37_translation`, `C37_differences`, `C37_held_out` (Verif/Cent/Props.lean) |
| C38 | centering of a Gram matrix equals the Gram matrix of centred vectors | proved | `C38_gram`, `C38_commutes`, `C38_column_sums`, `C38_row_sums`, `C38_idempotent`, `C38_finite`, `C38_errors` (Verif/Cent/Props.lean) |
| C39 | weighted centering: gamma=0 is plain centering, weights are a probability vector, and held-out points have no influence | partial | `C39_gamma_zero`, `C39_formula`, `C39_convex_partial`, `C39_zero_vector_violated`, `C39_parallel_violated`, `C39_mask_ignored`, `C39_held_out_violated`, `C39_metric` (Verif/Cent/Weighted.lean) |
| C40 | DisSim Global equals minus twice the centred inner product | proved | `C40_formula`, `C40_formula_test`, `C40_symmetric`, `C40_translation`, `C40_features` (Verif/Cent/Props.lean) |
| C41 | DisSim Local is symmetric and consistent between one and two argument calls | partial | `C41_formula`, `C41_formula_test`, `C41_symmetric`, `C41_diagonal`, `C41_jobs`, `C41_too_large`, `C41_two_arguments_violated`, `C41_two_arguments_plain` (Verif/Cent/Local.lean) |
| C42 | k-NN accuracy, correctness mask and confusion matrix are consistent | proved | `C42_loo`, `C42_test_set` (Verif/Knn/Props.lean) |
| C43 | k-NN prediction is the majority class of the true k nearest finite neighbours | proved | `C43_dense_loo`, `C43_predict`, `C43_samples`, `C43_sparse_loo` (Verif/Knn/Props.lean) |
| C44 | leave-one-out: own label does not influence own prediction | proved | `C44_predict`, `C44_score` (Verif/Knn/Props.lean) |
| C45 | held-out evaluation uses all and only the training points | partial | `C45_partial`, `C45_actual`, `C45_ignored`, `C45_violated`, `C45_sparse_violated` (Verif/Knn/TestSet.lean) |
| C46 | predict with test_ind | partial | `C46_violated` (Verif/Knn/TestSet.lean) |
| C47 | F-measures are in range and consistent | proved | `C47_dice`, `C47_no_true_positive`, `C47_range`, `C47_perfect`, `C47_macro`, `C47_weighted`, `C47_micro` (Verif/Knn/FMeasure.lean) |
| C48 | synchronised counter hands out distinct consecutive values | proved | `C48_linearizable`, `C48_each_once`, `C48_default`, `C48_no_deadlock`, `C48_can_finish`, `C48_lock_needed` (Verif/Counter/Props.lean) |
| C49 | enforce_finite_distances makes distances finite and non-negative | proved | `C49_total`, `C49_finite_nonneg`, `C49_order`, `C49_maximum` (Verif/Approx/Finite.lean) |
| C50 | intrinsic dimension estimate is invariant under rescaling and reordering | proved | `C50_scale`, `C50_permute`, `C50_rejects` (Verif/IntDim/Props.lean) |
| C51 | points in test_ind are held out or refused by empirical Mutual Proximity | partial | `C51_index_array_ignored`, `C51_mask_refused_partial` (Verif/MPEmp/Props.lean) |
| C52 | sparse Mutual Proximity rescales exactly the pairs whose rows have at least min_nnz values | partial | `C52_min_nnz_boundary`, `C52_min_nnz_witness`, `C25_sparse_values` (Verif/MPEmp/Props.lean) |
| C53 | S_k is the skewness of the k-occurrence counts | proved | `C53_skewness` (Verif/Hubness/Props.lean) |
| C54 | the equal_sim heuristic of the sparse Goodman-Kruskal index only errs downwards | proved | `C54_heuristic` (Verif/GK/Props.lean) |
| C55 | predict returns class labels | partial | `C55_partial`, `C55_violated` (Verif/Knn/TestSet.lean); `C55_rank_partial` (Verif/Knn/Ranks.lean) |
| C56 | sparse leave-one-out never uses the point's own label | partial | `C56_partial`, `C56_violated` (Verif/Knn/TestSet.lean) |
| C57 | metric='distance' is honoured for sparse matrices | partial | `C57_metric_ignored`, `C57_violated` (Verif/Knn/TestSet.lean) |
| C58 | R-precision is a precision | proved | `C58_range` (Verif/Knn/RPrecisionProps.lean) |
| C59 | R-precision counts the R most similar other points | proved | `C59_exact` (Verif/Knn/RPrecisionProps.lean) |
| C60 | R-precision returns labels of nearest neighbours | partial | `C60_partial`, `C60_violated` (Verif/Knn/RPrecisionProps.lean); `C60_exact` (Verif/Knn/Ranks.lean) |
| C61 | Atkinson index of the Hubness estimator lies in [0,1) and vanishes only for equal occurrence | proved | `C61_atkinson` (Verif/HubClass/Neighbours.lean) |
| C62 | hubs_ are the objects occurring more than hub_size * k times | partial | `C62_partial`, `C62_violated` (Verif/HubClass/Neighbours.lean); `C62_iff` (Verif/Relations/ExactNan.lean) |
| C63 | Hubness supports all three documented metrics | partial | `C63_partial`, `C63_violated` (Verif/HubClass/Neighbours.lean) |
| C64 | Hubness on vectors lists the nearest other vectors | partial | `C64_partial`, `C64_given_Y`, `C64_violated` (Verif/HubClass/Neighbours.lean); `C64_left_out` (Verif/HubClass/LeftOut.lean) |
| C65 | hubness_from_vectors agrees with the Hubness estimator | proved | `C65_same_as_estimator` (Verif/HubClass/Neighbours.lean) |
| C66 | Hubness(metric='precomputed') agrees with hubness() | proved | `C66_same_as_function` (Verif/HubClass/Neighbours.lean) |
| C67 | has_self_distances also applies to sparse precomputed matrices | partial | `C67_partial`, `C67_violated` (Verif/HubClass/Neighbours.lean) |
| C68 | Local Scaling of finite distances is finite | partial | `C68_violated`, `C68_no_nan_partial` (Verif/LS/Props.lean); `C68_exact`, `C68_nan_iff` (Verif/Relations/Exact.lean) |
| C69 | Local Scaling rejects meaningless neighbourhood sizes | partial | `C69_violated`, `C69_too_large_partial` (Verif/LS/Props.lean); `C69_sample_too_large_partial` (Verif/LS/Reject.lean); `C69_exact`, `C69_nicdm_exact` (Verif/LS/Range.lean) |
| C70 | Local Scaling of similarities uses the k-th most similar training point | partial | `C70_violated`, `C70_formula_partial` (Verif/LS/Props.lean) |
| C71 | every n_jobs value is usable or rejected | partial | `C71_violated`, `C71_valid_partial` (Verif/LS/Props.lean) |
| C72 | shared nearest neighbours depends on the order of distances only | proved | `C72_order_invariant` (Verif/SNN/Props.lean) |
| C73 | shared nearest neighbours rejects neighbourhood sizes outside 1..n-1 | partial | `C73_violated`, `C73_partial` (Verif/SNN/Props.lean); `C73_exact` (Verif/SNN/Range.lean) |
| C74 | vect_usage does not change simhub results | partial | `C74_violated`, `C74_square_partial` (Verif/SNN/SimhubSample.lean) |
| C75 | simhub of a test point does not depend on other test points | partial | `C75_violated`, `C75_partial`, `C75_formula_partial` (Verif/SNN/SimhubSample.lean) |
| C76 | simhub and simhubIN reject neighbourhood sizes outside 1..n-1 | partial | `C76_violated`, `C76_violated_large`, `C76_simhub_partial` (Verif/SNN/SimhubProps.lean); `C76_exact` (Verif/SNN/SimhubFloats.lean) |
| C77 | supervised simhub contains no nan | partial | `C77_violated`, `C77_partial` (Verif/SNN/SimhubProps.lean); `C77_nan_iff` (Verif/Relations/ExactNan.lean) |
| C78 | sampled simhub stays in [0,1] | partial | `C78_violated`, `C78_partial` (Verif/SNN/SimhubSample.lean) |
| C79 | DisSim Global is minus twice the centred Gram matrix | proved | `C79_global_is_centering`, `C79_zero_sum` (Verif/Cent/Props.lean) |
| C80 | Weighted centering gives larger weights to objects more similar to the others | partial | `C80_reversed_violated`, `C80_negative_gamma_partial` (Verif/Cent/Weighted.lean) |
| C81 | Weighted centering with euclidean distances depends on the distances | partial | `C81_euclidean_violated` (Verif/Cent/Weighted.lean) |
| C82 | DisSim Local does not depend on the integer or float storage of the data | partial | `C82_serial_violated`, `C82_translation_violated`, `C82_parallel_violated`, `C82_integer_partial` (Verif/Cent/Local.lean) |
| C83 | DisSim Local is translation invariant | proved | `C83_translation`, `C83_translation_test` (Verif/Cent/Local.lean) |
| C84 | Boolean test set masks hold back the marked rows | partial | `C84_boolean_mask_violated`, `C84_boolean_example`, `C84_index_mask_partial` (Verif/Cent/Localized.lean) |
| C85 | Localized centering does not depend on the number of jobs | proved | `C85_jobs` (Verif/Cent/Localized.lean) |
| C86 | Localized centering depends on directions only | proved | `C86_scale`, `C86_scale_test` (Verif/Cent/Localized.lean) |
| C87 | Localized centering subtracts the local affinity of the training vector | proved | `C87_formula`, `C87_one_argument`, `C87_too_large` (Verif/Cent/Localized.lean) |
| C88 | Localized centering with kappa=n ranks like standard centering | proved | `C88_kappa_n` (Verif/Cent/Localized.lean) |
| C89 | Gaussian Mutual Proximity does not depend on the unit or origin of the distances | proved | `C89_affine` (Verif/MPPar/Invariance.lean) |
| C90 | Gaussian Mutual Proximity treats similarities as negated distances | proved | `C90_duality` (Verif/MPPar/Invariance.lean) |
| C91 | Gamma Mutual Proximity does not depend on the unit of the distances | proved | `C91_scale` (Verif/MPPar/Invariance.lean) |
| C92 | Held-out objects do not influence other pairs in parametric Mutual Proximity | proved | `C92_held_out` (Verif/MPPar/Invariance.lean) |
| C93 | Parametric Mutual Proximity does not depend on the numbering of objects | proved | `C93_relabel` (Verif/MPPar/Invariance.lean) |
| C94 | Gaussian Mutual Proximity can be estimated from a sample of given size | partial | `C94_violated` (Verif/MPPar/Sample.lean) |
| C95 | Sampling all objects is the full Gaussian Mutual Proximity | proved | `C95_all` (Verif/MPPar/Sample.lean) |
| C96 | gaussi_sample agrees with gaussi on the sampled columns | proved | `C96_rows` (Verif/MPPar/Sample.lean) |
| C97 | Sampled Gaussian Mutual Proximity is a valid Mutual Proximity | proved | `C97_formula` (Verif/MPPar/Sample.lean) |
| C98 | Parametric Mutual Proximity rejects invalid input | proved | `C98_rejects`, `C98_rejects_metric` (Verif/MPPar/Sample.lean); `C98_rejects_sample` (Verif/MPPar/Gumbel.lean) |
| C99 | Sparse Gaussian Mutual Proximity is a valid secondary similarity | partial | `C99_valid_partial`, `C99_violated` (Verif/MPPar/Sparse.lean); `C99_nan_iff` (Verif/Relations/ExactNan.lean) |
| C100 | Sparse and dense Gaussian Mutual Proximity agree without missing values | partial | `C100_complete_partial`, `C100_violated` (Verif/MPPar/Sparse.lean) |
| C101 | min_nnz is honoured by sparse Gaussian Mutual Proximity | partial | `C101_violated` (Verif/MPPar/Sparse.lean) |
| C102 | Held-out objects are compared with training objects in sparse Gaussian Mutual Proximity | partial | `C102_training_partial`, `C102_violated` (Verif/MPPar/Sparse.lean) |
| C103 | Sparse distance matrices are rejected by parametric Mutual Proximity | partial | `C103_violated` (Verif/MPPar/Sparse.lean) |
| C104 | Self similarities other than one are rejected for sparse input | proved | `C104_rejects` (Verif/MPPar/Sparse.lean) |
| C105 | min_nnz is honoured by sparse Gamma and Gumbel Mutual Proximity | partial | `C105_kept_partial`, `C105_violated_boundary`, `C105_violated_pair` (Verif/MPPar/SparseMin.lean) |
| C106 | Sparse parametric Mutual Proximity does not depend on the numbering of objects | partial | `C106_relabel_partial`, `C106_violated` (Verif/MPPar/SparseMin.lean) |
| C107 | Missing similarities stay missing in sparse parametric Mutual Proximity | partial | `C107_missing_partial`, `C107_violated` (Verif/MPPar/SparseMin.lean) |
| C108 | Sparse Gamma Mutual Proximity is a valid secondary similarity | partial | `C108_valid_partial` (Verif/MPPar/SparseMin.lean) |
| C109 | intrinsic_dimension is the maximum likelihood estimate of Levina and Bickel | partial | `C109_formula_partial` (Verif/IntDim/Props.lean) |
| C110 | intrinsic_dimension depends only on the distances | proved | `C110_isometry`, `C110_translation` (Verif/IntDim/Props.lean) |
| C111 | mem_threshold does not change the intrinsic dimension | proved | `C111_memory` (Verif/IntDim/Props.lean) |
| C112 | Accepted neighbourhood ranges give a finite non-negative dimension | partial | `C112_positive_partial`, `C112_violated` (Verif/IntDim/Props.lean) |
| C113 | intrinsic_dimension returns an integer | partial | `C113_violated` (Verif/IntDim/Props.lean) |
| C114 | intrinsic_dimension accepts distance matrices | partial | `C114_violated` (Verif/IntDim/Props.lean) |
| C115 | enforce_finite_distances leaves valid distances alone | proved | `C115_noop`, `C115_idempotent`, `C115_shift` (Verif/Approx/Finite.lean) |
| C116 | kmeanspp returns the requested number of rows of the data | proved | `C116_total` (Verif/Approx/KMeans.lean) |
| C117 | kmeanspp draws proportional to squared distance | proved | `C117_seeding` (Verif/Approx/KMeans.lean) |
| C118 | kmeanspp never selects a point twice | partial | `C118_distinct_partial`, `C118_violated`, `C118_duplicates_violated` (Verif/Approx/KMeans.lean) |
| C119 | kmeanspp works with the default random_state | partial | `C119_violated`, `C119_metric` (Verif/Approx/KMeans.lean) |
| C120 | SuQHR Mutual Proximity to fixed vantage points | proved | `C120_formula`, `C120_total`, `C120_range`, `C120_precomputed` (Verif/Approx/MP.lean) |
| C121 | SuQHR agrees with mutual_proximity_empiric | proved | `C121_agrees` (Verif/Approx/MP.lean) |
| C122 | sec_dist_sparse_ contains the secondary distances | partial | `C122_sparse_partial`, `C122_random_partial`, `C122_violated` (Verif/Approx/MP.lean) |
| C123 | SuQHR with an exact neighbour index is exact | partial | `C123_exact_partial`, `C123_violated` (Verif/Approx/Hnsw.lean) |
| C124 | SuQHR Mutual Proximity with an index is in [1/n, 1] | proved | `C124_range` (Verif/Approx/Hnsw.lean) |
| C125 | No training object is its own neighbour in SuQHR | partial | `C125_self_partial`, `C125_violated` (Verif/Approx/Hnsw.lean) |
| C126 | SuQHR without hubness reduction returns the distances to the vantage points | proved | `C126_formula` (Verif/Approx/Local.lean) |
| C127 | SuQHR supports metric 'precomputed' | partial | `C127_plain_violated`, `C127_methods_violated` (Verif/Approx/Local.lean) |
| C128 | SuQHR Gaussian Mutual Proximity formula | partial | `C128_formula_partial`, `C128_violated` (Verif/Approx/Local.lean); `C128_sampled` (Verif/Approx/GaussFormula.lean) |
| C129 | SuQHR Gaussian Mutual Proximity is in the unit interval | partial | `C129_range_partial`, `C129_violated` (Verif/Approx/Local.lean); `C129_nan_iff` (Verif/Approx/GaussNan.lean) |
| C130 | SuQHR local scaling formula | proved | `C130_formula`, `C130_range`, `C130_too_many` (Verif/Approx/LocalRadii.lean) |
| C131 | SuQHR NICDM formula | partial | `C131_formula_partial`, `C131_violated` (Verif/Approx/LocalRadii.lean) |
| C132 | SuQHR DisSim Local formula | partial | `C132_formula_partial`, `C132_violated`, `C132_too_many` (Verif/Approx/LocalDsl.lean) |
| C133 | SuQHR local scaling and NICDM with an exact index are exact | proved | `C133_ls`, `C133_nicdm` (Verif/Approx/LocalHnsw.lean) |
| C134 | SuQHR local scaling agrees with local_scaling | proved | `C134_agrees` (Verif/Approx/LocalAgree.lean) |
| C135 | Local Scaling and NICDM reject what they cannot handle | proved | `C135_square`, `C135_metric`, `C135_not_implemented`, `C135_sample` (Verif/LS/Reject.lean) |
| C136 | SuQHR with LSH does not depend on the number of processes or on memory contents | partial | `C136_fit_partial`, `C136_trafo_partial`, `C136_parallel`, `C136_parallel_fit`, `C136_violated` (Verif/Approx/Lsh.lean) |
| C137 | SuQHR Mutual Proximity with LSH is exact for exact answers | partial | `C137_exact_partial`, `C137_cosine_violated` (Verif/Approx/Lsh.lean) |
| C138 | The SuQHR constructor accepts exactly the valid arguments, and fit handles all of them | partial | `C138_accepts`, `C138_case`, `C138_jobs`, `C138_fit_partial`, `C138_precomputed_violated` (Verif/Approx/Ctor.lean) |
| C139 | SuQHR.predict treats test objects independently of each other | partial | `C139_nonneg_partial`, `C139_uniform_partial`, `C139_violated` (Verif/Approx/Predict.lean) |
| C140 | SuQHR.predict uses knn__n_neighbors neighbours | partial | `C140_fixed_partial`, `C140_violated` (Verif/Approx/Predict.lean) |
| C141 | SuQHR with HNSW computes distances which grow from nearest to farthest neighbour | partial | `C141_sqeuclidean_partial`, `C141_cosine_violated` (Verif/Approx/Predict.lean) |
| C142 | The sparse matrix of SuQHR contains the secondary distances | partial | `C142_distinct_partial`, `C142_violated` (Verif/Approx/Predict.lean) |
| C143 | cosine_distance is one minus the cosine of the angle | partial | `C143_value_partial`, `C143_symmetric`, `C143_scale`, `C143_violated` (Verif/Dist/Cosine.lean); `C143_nan_iff` (Verif/Relations/ExactNan.lean) |
| C144 | lp_norm is the Minkowski metric | proved | `C144_value`, `C144_metric`, `C144_euclidean`, `C144_rejects` (Verif/Dist/Cosine.lean) |
| C145 | sample_distance returns distances to a sample of the requested size | partial | `C145_columns`, `C145_rejects`, `C145_size_partial`, `C145_numpy_violated` (Verif/Dist/Cosine.lean) |
| C146 | mp_dissim is the power mean of the data mass between the objects | partial | `C146_regions_partial`, `C146_range_partial`, `C146_violated` (Verif/Dist/MpDissim.lean) |
| C147 | mp_dissim is consistent with the order of values | proved | `C147_between`, `C147_self` (Verif/Dist/MpOrder.lean) |
| C148 | mp_dissim accepts every number of bins up to the number of objects | partial | `C148_range_ok`, `C148_mass_partial`, `C148_mass_violated`, `C148_rejects` (Verif/Dist/MpDissim.lean) |
| C149 | mp_dissim with bin_size='mass' uses bins of the same mass | proved | `C149_mass` (Verif/Dist/MpOrder.lean) |
| C150 | mp_dissim does not depend on units of features | proved | `C150_range`, `C150_mass` (Verif/Dist/MpOrder.lean) |
| C151 | The hubness analysis keeps complete books | proved | `C151_bookkeeping`, `C151_exception`, `C151_unknown` (Verif/Analysis/Numbers.lean) |
| C152 | The reported hubness figures describe true nearest neighbour lists | proved | `C152_numbers`, `C152_analysis` (Verif/Analysis/Numbers.lean) |
| C153 | Bounds of anti-hub and largest-hub percentages | proved | `C153_bounds`, `C153_finite` (Verif/Analysis/Numbers.lean) |
| C154 | Accuracies and Goodman-Kruskal index of an experiment are what they claim | proved | `C154_range`, `C154_accuracy` (Verif/Analysis/Numbers.lean) |
| C155 | analyze_hubness with its default arguments completes for any distance matrix | partial | `C155_default_violated`, `C155_succeeds_partial` (Verif/Analysis/Success.lean) |
| C156 | Similarity data are analysed as similarities by every method | partial | `C156_default_violated`, `C156_dsg_violated`, `C156_dsg_partial`, `C156_orig_partial` (Verif/Analysis/Success.lean); `C156_cent_violated` (Verif/Analysis/Secondary.lean) |
| C157 | Renumbering the points does not change the analysis | proved | `C157_relabelling`, `C157_index` (Verif/Analysis/Success.lean) |
| C158 | matrix_split finds a split which fits into memory | partial | `C158_split`, `C158_succeeds_partial`, `C158_violated` (Verif/InOut/Memory.lean) |
| C159 | FreeMemLinux reports the memory its attributes name | partial | `C159_ancient_partial`, `C159_modern_partial`, `C159_modern_violated`, `C159_ancient_swap_violated`, `C159_shared_violated` (Verif/InOut/Memory.lean) |
| C160 | random_sparse_matrix returns a similarity matrix | proved | `C160_similarity`, `C160_zero_draw`, `C160_empty` (Verif/InOut/Random.lean) |
| C161 | random_sparse_matrix has about twice the requested density | partial | `C161_density_partial`, `C161_density_violated` (Verif/InOut/Random.lean) |
| C162 | csr matrices survive saving and loading | partial | `C162_round_trip_partial`, `C162_round_trip_violated` (Verif/InOut/Files.lean) |
| C163 | The example data reader puts every value where the file says | partial | `C163_vectors_partial`, `C163_zero_column_violated`, `C163_large_column` (Verif/InOut/Files.lean) |
| C164 | Shape checks accept exactly matching arguments | proved | `C164_vectors`, `C164_labels`, `C164_sample` (Verif/InOut/Files.lean) |
| C165 | Local Scaling and NICDM do not depend on the numbering of the objects | proved | `C165_local_scaling`, `C165_nicdm` (Verif/Relations/Renumber.lean) |
| C166 | Shared nearest neighbours and simhub do not depend on the numbering of the objects | proved | `C166_snn`, `C166_simhubIN` (Verif/Relations/Renumber.lean) |
| C167 | DisSim depends on the pairwise distances only | proved | `C167_global`, `C167_global_test`, `C167_local`, `C167_local_test` (Verif/Relations/Isometry.lean) |
| C168 | Secondary distances leave hubness alone when there is nothing to correct | proved | `C168_row_order`, `C168_local_scaling`, `C168_nicdm`, `C168_gaussi` (Verif/Relations/Uniform.lean) |
| C169 | k-NN accuracy depends on data and classes, not on their representation | proved | `C169_score` (Verif/Relations/Classify.lean) |
| C170 | Printing the results does not change an analysis | partial | `C170_printing_partial`, `C170_printing_violated` (Verif/Analysis/ReportProps.lean) |
| C171 | The printed report states the stored results | proved | `C171_report`, `C171_parameters` (Verif/Analysis/ReportProps.lean) |
| C172 | Missing results are named in the report | partial | `C172_missing_partial`, `C172_accuracy_violated` (Verif/Analysis/ReportProps.lean) |
| C173 | The report can be printed again | proved | `C173_again`, `C173_unused` (Verif/Analysis/ReportProps.lean) |
| C174 | Fitting again forgets the past | proved | `C174_refit` (Verif/Approx/ClassState.lean) |
| C175 | A failing fit leaves a fitted estimator usable | partial | `C175_partial`, `C175_violated` (Verif/Approx/ClassState.lean) |
| C176 | Methods do not change constructor arguments | partial | `C176_partial`, `C176_violated` (Verif/Approx/ClassState.lean) |
| C177 | predict leaves sec_dist_ as transform computed it | partial | `C177_partial`, `C177_violated` (Verif/Approx/ClassPredict.lean) |
| C178 | SuQHR with Mutual Proximity is a nearest neighbour classifier | proved | `C178_predict` (Verif/Approx/ClassPredict.lean) |
| C179 | fit rejects labels which do not match the data | partial | `C179_partial`, `C179_violated`, `C179_late` (Verif/Approx/ClassPredict.lean) |
| C180 | Queries without fit or labels raise | proved | `C180_unfitted`, `C180_unlabelled` (Verif/Approx/ClassPredict.lean) |
| C181 | transform treats test objects independently of each other | partial | `C181_partial`, `C181_violated` (Verif/Approx/ClassPredict.lean) |
| C182 | Empirical Mutual Proximity is reliable in floating point | proved | `C182_valid`, `C182_order` (Verif/Rounding/CountProps.lean) |
| C183 | Shared nearest neighbours is reliable in floating point | proved | `C183_valid`, `C183_order` (Verif/Rounding/CountProps.lean) |
| C184 | Local Scaling yields numbers in floating point | partial | `C184_valid`, `C184_regular_partial`, `C184_violated` (Verif/Rounding/LocalProps.lean) |
| C185 | NICDM yields numbers in floating point | partial | `C185_valid`, `C185_violated` (Verif/Rounding/LocalProps.lean); `C185_regular_partial` (Verif/Rounding/NicdmRegular.lean) |
| C186 | The Goodman-Kruskal index in floating point stays in [-1, 1] and is the correctly rounded exact index | proved | `C186_range`, `C186_nearest` (Verif/Rounding/GkProps.lean) |
| C187 | Parametric Mutual Proximity in floating point: symmetric, probabilities, no nan for moderate distances | proved | `C187_valid`, `C187_regular`, `gaussiDense_exact`, `gammaiDense_exact` (Verif/Rounding/GaussProps.lean) |
| C188 | Mutual Proximity (Gaussi) of equidistant data does not depend on the distance | partial | `C188_partial`, `C188_violated` (Verif/Rounding/GaussProps.lean) |
| C189 | DisSim Local in floating point: the matrix is symmetric | partial | `C189_partial`, `C189_violated`, `disSimLocal_exact` (Verif/Rounding/DisSimProps.lean) |
| C190 | DisSim Local in floating point: translation of the data has no effect | partial | `C190_exact_partial`, `C190_partial`, `C190_violated` (Verif/Rounding/DisSimProps.lean) |
| C191 | Parallel results do not depend on how worker processes are started | partial | `C191_hubness_blind`, `C191_violated_hubness`, `C191_localScaling_blind`, `C191_violated_localScaling`, `C191_nicdm_blind`, `C191_violated_nicdm`, `C191_snn_blind`, `C191_violated_snn`, `C191_violated_disSimLocal`, `C191_sparse_partial` (Verif/Spawn/Props.lean) |
| C192 | Standardising features for intrinsic_dimension does what it says | proved | `C192_std`, `C192_var`, `C192_constant` (Verif/IntDim/Trafo.lean) |
| C193 | Duplicate vectors do not influence intrinsic_dimension | partial | `C193_violated`, `C193_violated_scale` (Verif/IntDim/Trafo.lean) |
| C194 | k-nearest-neighbour accuracies in floating point | partial | `C194_partial`, `C194_order`, `C194_power_of_two`, `C194_violated_low`, `C194_violated_high` (Verif/Rounding/KnnProps.lean) |
| C195 | Sparse Gumbel Mutual Proximity is a valid secondary similarity | partial | `C195_valid_partial` (Verif/MPPar/Gumbel.lean) |
| C196 | Arguments stay unchanged | proved | `C196_hubness` (Verif/Heap/HubnessProps.lean); `C196_score`, `C196_score_sample` (Verif/Heap/KnnProps.lean); `C196_gammai` (Verif/Heap/GammaiProps.lean); `C196_disSimLocal` (Verif/Heap/DisSimProps.lean); `C196_localScaling`, `C196_nicdm` (Verif/Heap/ScalingProps.lean); `C196_empiric`, `C196_gaussi` (Verif/Heap/MPProps.lean); `C196_empiric_sample`, `C196_gaussi_sample`, `C196_localScaling_sample`, `C196_nicdm_sample` (Verif/Heap/SampleProps.lean); `C196_snn`, `C196_snn_sample`, `C196_simhub` (Verif/Heap/SNNProps.lean) |
| C197 | In-place operations through views do no harm | proved | `C197_hubness` (Verif/Heap/HubnessProps.lean); `C197_score`, `C197_score_sample`, `C197_predict` (Verif/Heap/KnnProps.lean); `C197_gammai` (Verif/Heap/GammaiProps.lean); `C197_disSimLocal`, `C197_disSimLocal_two` (Verif/Heap/DisSimProps.lean); `C197_localScaling`, `C197_nicdm` (Verif/Heap/ScalingProps.lean); `C197_empiric`, `C197_gaussi` (Verif/Heap/MPProps.lean); `C197_empiric_sample`, `C197_gaussi_sample`, `C197_localScaling_sample`, `C197_nicdm_sample` (Verif/Heap/SampleProps.lean); `C197_snn`, `C197_snn_sample`, `C197_simhub` (Verif/Heap/SNNProps.lean) |
| C198 | predict leaves its distance matrix unchanged | partial | `C198_partial`, `C198_sample_partial`, `C198_violated` (Verif/Heap/KnnProps.lean) |
| C199 | A fitted SuQHR does not depend on later changes of the training array | partial | `C199_partial`, `C199_violated`, `C199_violated_cosine` (Verif/Heap/SuQHRProps.lean) |
| C200 | Element type of the matrix does not change results | partial | `C200_integer_partial`, `C200_violated`, `C200_bool_values`, `C200_bool_violated_general`, `C200_bool_mp`, `C200_bool_hubness`, `mpEmpiric_float`, `snn_float`, `localScaling_float`, `hubness_float` (Verif/Dtype/Props.lean) |
| C201 | Mutual Proximity leaves no hubs at a given radius | proved | `C201_rank`, `C201_no_hubs`, `C201_no_hubs_similarity` (Verif/Relations/MpHubs.lean) |
| C202 | Mutual nearest neighbours stay nearest neighbours under Mutual Proximity | proved | `C202_mutual_neighbours`, `C202_no_anti_hubs` (Verif/Relations/MpHubs.lean) |
| C203 | Range of the hubness value | proved | `C203_skewness_range`, `C203_attained` (Verif/Relations/SkewBound.lean) |
| C204 | Secondary distances satisfy the triangle inequality | partial | `C204_snn_partial`, `C204_simhub_partial`, `C204_mp_violated`, `C204_local_scaling_violated`, `C204_nicdm_violated` (Verif/Relations/Triangle.lean) |
| C205 | The statistics of the Hubness class bound each other | proved | `C205_chain`, `C205_equal` (Verif/HubClass/Indices.lean) |
| C206 | R-precision returns the given labels as y_true | partial | `C206_dict_partial`, `C206_violated` (Verif/Knn/RDict.lean) |
| C207 | filter_self=False keeps the most similar object | partial | `C207_dense_partial`, `C207_sparse_partial`, `C207_violated` (Verif/Knn/FilterSelf.lean) |
| C208 | Cosine distances in floating point are symmetric, nonnegative, at most two, and zero for equal vectors | partial | `C208_partial`, `C208_duplicates_violated`, `C208_range_violated` (Verif/Rounding/Cosine.lean) |
| C209 | Accuracy of cosine_distance in double precision | proved | `C209`, `C209_bounds` (Verif/Rounding/CosineError.lean) |
| C210 | Accuracy of Local Scaling in double precision | proved | `C210`, `C210_unit` (Verif/Rounding/LocalError.lean) |
| C211 | Local Scaling does not depend on powers of two in the unit | proved | `C211` (Verif/Rounding/LocalError.lean) |
| C212 | SuQHR Gaussian Mutual Proximity with an index uses the moments of the neighbour lists | proved | `C212` (Verif/Approx/GaussFormula.lean) |
| C213 | Hubness is accurate in double precision | proved | `C213`, `C213_order` (Verif/Rounding/Skew.lean) |
| C214 | NICDM is accurate to n*2^-42 in double precision | proved | `C214`, `C214_order`, `C214_unit` (Verif/Rounding/NicdmError.lean) |
| C215 | Increasing one distance does not decrease its secondary distance | partial | `C215_mp`, `C215_gaussi`, `C215_local_scaling`, `C215_nicdm`, `C215_snn_violated`, `C215_simhub_violated` (Verif/Relations/Monotone.lean); `C215_gammai_violated` (Verif/MPPar/Real.lean) |
| C216 | The secondary distance of two objects depends on their own distances only | partial | `C216_mp`, `C216_gaussi`, `C216_gammai`, `C216_local_scaling`, `C216_nicdm`, `C216_nicdm_violated`, `C216_snn`, `C216_simhub_violated` (Verif/Relations/Locality.lean) |
| C217 | Adding one object changes results for the others little | proved | `C217_mp`, `C217_local_scaling`, `C217_snn`, `C217_hubness` (Verif/Relations/Nested.lean) |
| C218 | Neighbour lists for k are initial segments of those for larger k | proved | `C218_hubness`, `C218_local_scaling`, `C218_snn` (Verif/Relations/Nested.lean) |
| C219 | Copies of one object do not spoil the secondary distances of the others | partial | `C219_nicdm_violated`, `C219_nicdm_partial`, `C68_exact` (Verif/Relations/Exact.lean) |
| C220 | Gaussian Mutual Proximity is the probability it is defined by | proved | `C220_gaussi`, `fittedNormal_moments` (Verif/MPPar/Real.lean) |
| C221 | Gamma Mutual Proximity is the probability it is defined by | proved | `C221_gammai`, `fittedGamma_moments` (Verif/MPPar/Real.lean) |
| C222 | Accuracy of Gaussian Mutual Proximity in double precision | proved | `C222`, `C222_order`, `C222_affine` (Verif/Rounding/GaussError.lean) |
| C223 | An analysis evaluates the secondary distances its methods are named after | proved | `C223_orig`, `C223_mp`, `C223_gaussi`, `C223_gammai`, `C223_ls`, `C223_nicdm`, `C223_snn`, `C223_cent`, `C223_wcent`, `C223_lcent`, `C223_dsg`, `C223_dsl` (Verif/Analysis/Secondary.lean) |
| C224 | Corrected hubness measure k_skewness_truncnorm_ | partial | `C224`, `C224_equal`, `C224_nan`, `C224_violated`, `C224_sign` (Verif/HubClass/TruncNorm.lean) |
| C225 | Vectors matter only to the methods which need them | proved | `C225_matrix`, `C225_vector` (Verif/Analysis/Missing.lean) |
| C226 | With one neighbour Local Scaling and NICDM rank all pairs alike | proved | `C226` (Verif/Relations/LocalOrder.lean) |
| C227 | Mutual nearest neighbours stay nearest neighbours under Local Scaling and NICDM | partial | `C227_partial`, `C227_violated` (Verif/Relations/LocalOrder.lean) |
| C228 | Objects which are far away do not matter to local methods | proved | `C228_local_scaling`, `C228_nicdm`, `C228_snn`, `C228_hubness` (Verif/Relations/Clusters.lean) |
| C229 | Local Scaling separates mutual neighbours from mutual strangers | proved | `C229` (Verif/Relations/Bounds.lean) |
| C230 | An object stored twice: its copies stay together | partial | `C230_local_scaling_partial`, `C230_nicdm_partial`, `C230_mp_violated`, `C230_snn_violated` (Verif/Relations/Duplicates.lean) |
| C231 | simhubIN never reports more similarity than plain shared neighbours, by a fixed factor | proved | `C231` (Verif/Relations/Bounds.lean) |
| C232 | predict and score agree | proved | `C232` (Verif/Relations/PredictScore.lean) |
| C233 | Several values of k at once give the results of separate experiments | partial | `C233_partial`, `C233_predict_partial`, `C233_violated` (Verif/Relations/PredictScore.lean) |
| C234 | A point's own label is not used even if it is classified randomly | partial | `C234_violated` (Verif/Relations/PredictScore.lean); `C44_score` (Verif/Knn/Props.lean) |
| C235 | predict and score agree on sparse similarities | partial | `C235_partial`, `C235_violated` (Verif/Relations/PredictScore.lean) |
| C236 | Sampling functions and the class Hubness in parallel do not depend on how worker processes are started | partial | `C236_snnSample_fork_partial`, `C236_simhubIN_fork_partial`, `C236_localizedCentering_fork_partial`, `C236_parallelNN_fork_partial`, `C236_snnSample_blind`, `C236_violated_snnSample`, `C236_simhubIN_blind`, `C236_violated_simhubIN`, `C236_localizedCentering_blind`, `C236_violated_localizedCentering`, `C236_class_blind` (Verif/Spawn/Sample.lean) |
| C237 | The estimate of MacKay and Ghahramani never exceeds that of Levina and Bickel | proved | `C237_mackay_le_levina` (Verif/IntDim/Order.lean) |
| C238 | Taking powers of all distances divides the intrinsic dimension | proved | `C238_power` (Verif/IntDim/Order.lean) |
| C239 | Test objects may be given by negative indices | partial | `C239_partial`, `C239_exact`, `C239_ignored`, `C239_none_held_out`, `C239_violated` (Verif/Relations/NegativeTest.lean) |
| C240 | Accuracy of centering in double precision | proved | `C240`, `centering_exact` (Verif/Rounding/Centering.lean) |
| C241 | Centering moves identical objects to the origin | partial | `C241_partial`, `C241_violated` (Verif/Rounding/Centering.lean) |
| C242 | Random sparse matrices are similarity matrices in double precision | proved | `C242`, `randomSparse_exact` (Verif/Rounding/RandomSparse.lean) |
| C243 | SuQHR(hr_algorithm='MP') does not depend on how worker processes are started | partial | `C243_fixed_fork_partial`, `C243_hnsw_fork_partial`, `C243_fixed_violated`, `C243_hnsw_violated` (Verif/Spawn/Approx.lean) |
| C244 | Distances of euclidean_distance have a small relative error in double precision | proved | `C244`, `C244_symm`, `C244_order` (Verif/Rounding/Euclid.lean) |
| C245 | euclidean_distance is zero for equal vectors only | partial | `C245_partial`, `C245_violated` (Verif/Rounding/Euclid.lean) |
| C246 | lp_norm with p=2 is zero for equal vectors only | partial | `C246_partial`, `C246_violated` (Verif/Rounding/Euclid.lean) |
| C247 | The unit of the distances does not change an analysis | proved | `C247_same`, `C247_analysis`, `C247_scaled` (Verif/Analysis/Units.lean) |
| C248 | The numbering of the points does not change an analysis, whatever the secondary distances | proved | `C248_renumbering`, `C248_finishes` (Verif/Analysis/Renumber.lean) |
| C249 | The unit of the data does not change SuQHR | proved | `C249_vantage`, `C249_mp`, `C249_mpg`, `C249_plain`, `C249_ls`, `C249_dsl`, `C249_vectors` (Verif/Approx/Units.lean) |
| C250 | SuQHR Mutual Proximity depends on the order of distances only | proved | `C250_order`, `C250_monotone` (Verif/Approx/Order.lean) |
| C251 | The order in which vantage points are drawn does not matter to SuQHR | proved | `C251_mp`, `C251_mp_all`, `C251_mpg`, `C251_ls` (Verif/Approx/Order.lean) |
| C252 | mp_dissim does not depend on the numbering of objects and features | proved | `C252`, `C252_self` (Verif/Dist/MpPerm.lean) |
| C253 | Local Scaling of similarities in double precision | proved | `C253` (Verif/Rounding/LocalSim.lean) |
| C254 | R-precision depends on data and classes, not on their representation | proved | `C254` (Verif/Relations/RPrec.lean) |
| C255 | simhub and simhubIN of objects at infinite or undefined distance | partial | `C255_simhubIN_formula`, `C255_simhubIN_partial`, `C255_simhub_formula`, `C255_simhub_partial`, `C255_simhub_violated` (Verif/SNN/SimhubFloats.lean) |
| C256 | An object stored twice: parametric Mutual Proximity | partial | `C256_gammai_partial`, `C256_gaussi_violated` (Verif/Relations/DuplicatesPar.lean) |
| C257 | load_dexter reads every file of its format | proved | `C257_round_trip`, `C257_malformed` (Verif/InOut/Text.lean) |
| C258 | FreeMemLinux reads the numbers of /proc/meminfo | proved | `C258_read`, `C258_numbers`, `C258_short` (Verif/InOut/Text.lean) |
| C259 | Hubness of the same data in another representation | proved | `C259_precomputed`, `C259_vectors`, `C259_similar` (Verif/HubClass/Invariance.lean) |
| C260 | Hubness of vectors in double precision: nobody is its own neighbour | partial | `C260_violated`, `C260_partial`, `C260_given_Y`, `C260_exact`, `near_of_someOrder` (Verif/Rounding/HubVec.lean) |
| C261 | Sparse empirical Mutual Proximity does not depend on how the csr matrix is stored | partial | `C261_violated`, `C261_zeros_violated`, `C261_partial`, `C261_storage_partial`, `searchsorted_eq`, `place_injective` (Verif/MPEmp/Csr.lean) |
| C262 | Zeros of a sparse similarity matrix are missing values, stored or not | partial | `C262_violated`, `C262_partial`, `C262_mean` (Verif/MPPar/Stored.lean) |
| C263 | Results of the sparse Gamma and Gumbel variants in single precision | partial | `C263_rounded`, `C263_preserved`, `C263_kept_partial`, `C263_error_partial`, `C263_violated`, `C263_ordinary_violated` (Verif/Rounding/Single.lean) |
| C264 | Class Hubness on sparse distance matrices depends only on the stored distances | proved | `C264_accepted`, `C264_lists`, `C264_storage`, `C264_dense` (Verif/HubClass/SparseStored.lean) |
| C265 | Explicitly stored zeros and storage order of csr matrices in score and r_precision | partial | `C265_violated`, `C265_score_partial`, `C265_score_error`, `C265_rprec_partial`, `C265_rprec_error` (Verif/Knn/Stored.lean) |
| C266 | Sparse empirical Mutual Proximity depends on the order of similarities only | partial | `C266_violated`, `C266_renumber`, `C266_monotone_partial` (Verif/MPEmp/SparseInvariance.lean) |
| C267 | Accuracy of DisSim Global in double precision | proved | `C267`, `C267_self` (Verif/Rounding/Dsg.lean) |
| C268 | DisSim Global of one data set is symmetric in double precision | partial | `C268_violated`, `C268_partial` (Verif/Rounding/Dsg.lean) |
| C269 | mp_dissim and its worker processes | partial | `C269_violated`, `C269_partial` (Verif/Spawn/MpProps.lean) |
| C270 | Separated classes are classified perfectly | proved | `C270` (Verif/Relations/Separation.lean) |
| C271 | Empirical Mutual Proximity keeps separated classes separated | proved | `C271`, `C271_score` (Verif/Relations/Separation.lean) |
| C272 | Local Scaling and NICDM keep separated classes separated | partial | `C272_violated`, `C272_partial` (Verif/Relations/Separation.lean) |
| C273 | Shared nearest neighbours of separated classes | proved | `C273` (Verif/Relations/Separation.lean) |
| C274 | Hubs of separated classes attract their own class only | proved | `C274` (Verif/Relations/SeparationHub.lean) |
| C275 | The analysis of separated classes reports perfect classification | proved | `C275`, `C275_analysis` (Verif/Relations/SeparationHub.lean) |
| C276 | Held-out objects can be left out of the data | partial | `C276_local_scaling`, `C276_violated`, `C276_partial` (Verif/Relations/HeldOut.lean) |
| C277 | A weighted R-precision of one means separated classes | proved | `C277_perfect`, `C277_only_if` (Verif/Relations/SeparationRPrec.lean) |
| C278 | A Goodman-Kruskal index of one means separated classes | proved | `C278`, `C278_score` (Verif/Relations/SeparationGK.lean) |
| C279 | Statistics of class Hubness in double precision | proved | `C279`, `C279_hubs` (Verif/Rounding/HubFloat.lean) |
| C280 | Rounding of Euclidean distances does not change experiments | proved | `C280`, `C280_snn` (Verif/Relations/Stable.lean) |
| C281 | Rounding of Local Scaling and NICDM does not change experiments | proved | `C281_local_scaling`, `C281_nicdm` (Verif/Relations/Stable.lean) |
| C282 | counting methods do not see rounding errors of distances | proved | `C282`, `C282_snn` (Verif/Relations/StableMp.lean) |
| C283 | dis_sim_local with two arguments and LSH do not depend on the start method of processes | partial | `C283_disSimLocal_fork_partial`, `C283_lsh_fork_partial`, `C283_disSimLocal_violated`, `C283_lsh_violated` (Verif/Spawn/Rest.lean) |
| C284 | intrinsic_dimension in double precision is the estimate of Levina and Bickel, whatever the offset of the data | partial | `C284_partial`, `C284_violated` (Verif/Rounding/IntDimProps.lean) |
| C285 | Atkinson index of class Hubness in double precision | partial | `C285_partial`, `C285_violated` (Verif/Rounding/AtkinsonProps.lean) |
| C286 | R-precision in double precision | proved | `C286`, `C286_error`, `C286_separated`, `C286_perfect` (Verif/Rounding/RPrecProps.lean) |
| C287 | F-measures in double precision | proved | `C287_score`, `C287_micro`, `C287_macro`, `C287_weighted` (Verif/Rounding/F1Props.lean) |
| C288 | simhubIN and simhub without labels in double precision | proved | `C288_simhubIN`, `C288_simhub` (Verif/Rounding/ShiProps.lean) |
| C289 | Rounding of Gaussian Mutual Proximity and DisSim Global does not change experiments | proved | `C289_gaussi`, `C289_dis_sim_global` (Verif/Relations/StableGauss.lean) |
| C290 | load_dexter returns distances, labels and vectors that belong together | proved | `C290_together`, `C290_order`, `C290_labels`, `C290_missing` (Verif/InOut/Dexter.lean) |
| C291 | Accuracy of DisSim Local in double precision | proved | `C291_any`, `C291` (Verif/Rounding/Dsl.lean) |
| C292 | Accuracy of localized centering in double precision | proved | `C292_any`, `C292` (Verif/Rounding/Lcent.lean) |
| C293 | Self distances do not matter to the evaluations | proved | `C293_hubness`, `C293_score`, `C293_predict`, `C293_goodman_kruskal` (Verif/Relations/Diagonal.lean) |
| C294 | Experiments on DisSim Local in double precision | proved | `C294` (Verif/Relations/StableDsl.lean) |
| C295 | Experiments on localized centering in double precision | proved | `C295` (Verif/Relations/StableSim.lean) |
| C296 | Rounding of cosine distances does not change experiments | proved | `C296` (Verif/Relations/StableCos.lean) |
| C297 | HubnessAnalysis() without a matrix is the analysis of the example data | proved | `C297_same`, `C297_runs`, `C297_labels` (Verif/Analysis/Start.lean) |
| C298 | Local Scaling and NICDM are robust against measurement errors | proved | `C298_local_scaling`, `C298_nicdm` (Verif/Relations/Robust.lean) |
| C299 | From feature vectors to secondary distances in double precision | proved | `C299_local_scaling`, `C299_nicdm` (Verif/Relations/Pipeline.lean) |
| C300 | Local Scaling and NICDM of cosine distances in double precision | proved | `C300_local_scaling`, `C300_nicdm` (Verif/Relations/PipelineCos.lean) |
| C301 | Counting methods do not see rounding errors of cosine distances | proved | `C301`, `C301_snn` (Verif/Relations/PipelineCos.lean) |
| C302 | Nothing logged is lost, doubled or reordered | proved | `C302`, `C302_flush`, `C302_sorted`, `C302_classes` (Verif/Log/Props.lean) |
| C303 | Every line of a log is an entry of its own | partial | `C303_violated`, `C303_partial` (Verif/Log/Props.lean) |
| C304 | Empirical Mutual Proximity is robust against measurement errors | proved | `C304` (Verif/Relations/RobustCount.lean) |
| C305 | Shared nearest neighbours is robust against measurement errors | proved | `C305` (Verif/Relations/RobustCount.lean) |
| C306 | k-occurrences are robust against measurement errors | proved | `C306` (Verif/Relations/RobustCount.lean) |
| C307 | k-NN classification is robust against measurement errors | proved | `C307` (Verif/Relations/RobustKnn.lean) |
| C308 | The Goodman-Kruskal index is robust against measurement errors | proved | `C308` (Verif/Relations/RobustGk.lean) |
| C309 | Evaluations of feature vectors in double precision without assumptions on gaps | proved | `C309_hubness`, `C309_score`, `C309_index`, `C309_mutual_proximity` (Verif/Relations/PipelineCount.lean) |
| C310 | Evaluations of cosine distances in double precision without assumptions on gaps | proved | `C310_hubness`, `C310_score`, `C310_index`, `C310_mutual_proximity` (Verif/Relations/PipelineCosCount.lean) |
| C311 | Intrinsic dimension under measurement errors | proved | `C311_robust` (Verif/IntDim/Robust.lean) |
| C312 | Errors of features and data stored in single precision | proved | `C312_distances`, `C312_factor`, `C312_local_scaling`, `C312_nicdm`, `C312_mutual_proximity`, `C312_snn`, `C312_hubness`, `C312_score`, `C312_index`, `C312_dimension`, `C312_single` (Verif/Relations/FeatureErrors.lean) |
| C313 | intrinsic_dimension with the estimator of MacKay and Ghahramani in double precision | proved | `C313` (Verif/Rounding/IntDimMackay.lean) |
| C314 | Data stored in single precision and evaluated in double precision | proved | `C314_distances`, `C314_hubness`, `C314_score`, `C314_index`, `C314_mutual_proximity` (Verif/Relations/StoredSingle.lean) |
| C315 | R-precision is robust against measurement errors | proved | `C315` (Verif/Relations/RobustRPrec.lean) |
| C316 | Local Scaling of similarities is robust against measurement errors | proved | `C316` (Verif/Relations/RobustSim.lean) |
| C317 | Mutual Proximity of similarities is robust against measurement errors | proved | `C317` (Verif/Relations/RobustSim.lean) |

## 5. Where the code does not have the property

For each of these the negation is proved for the model (`…_violated`, or the named theorem) beside what does hold (`…_partial`).

* **C05 serial hubness handles non-square similarity matrices.** The serial code violates the property (arange(n-k,n) instead of arange(m-k,m)); proved for the parallel branch, violation proved with witnesses.
* **C12 has_self_distances removes exactly the self match.** False for the code if another object has distance 0: one of the two is its own neighbour. Proved when the self distance is the only smallest entry of each row; in general one object of smallest distance is left out (C12_left_out).
* **C27 Mutual Proximity with independent Gammas is a valid secondary distance.** C27_exact gives every value with the functions of scipy; C27_iff: holds exactly if every object has two values with positive mean (or there is one object at most), nan otherwise
* **C30 Local Scaling of similarities preserves similarity order.** violated: the order of non-negative similarities is reversed; both facts proved
* **C33 sample variants exclude the self distances of the training points.** violated without test_ind for training points not in prefix position; holds with test_ind or for a prefix
* **C36 supervised simhub stays in [0,1].** violated for every number of classes above two (four classes among six points; for each number a metric space is constructed); the upper bound holds always, and [0,1] for two classes, so two classes are exactly the case in which the property holds
* **C39 weighted centering: gamma=0 is plain centering, weights are a probability vector, and held-out points have no influence.** gamma=0 without mask holds; held-out vectors leak into the weighted mean; zero or parallel vectors give nan
* **C41 DisSim Local is symmetric and consistent between one and two argument calls.** symmetry and serial=parallel hold; dis_sim_local(X, X) differs from dis_sim_local(X) because points become their own neighbours
* **C45 held-out evaluation uses all and only the training points.** False for the code: the training set is computed from the size of the test set. Proved for test sets which are the last part of the data and at least as large as the rest.
* **C46 predict with test_ind.** False for the code: every call with test_ind raises UnboundLocalError.
* **C51 points in test_ind are held out or refused by empirical Mutual Proximity.** The code violates this: every integer index array without -1 is silently ignored (proved); only boolean masks are refused.
* **C52 sparse Mutual Proximity rescales exactly the pairs whose rows have at least min_nnz values.** The code violates this: rows with exactly min_nnz values are not rescaled and entries towards them become nan (proved). For rows with more than min_nnz values see C25_sparse_values.
* **C55 predict returns class labels.** False for the code: class numbers are returned. Proved for label sets 0..C-1; for all label sets the prediction is the number of smaller labels (C55_rank_partial).
* **C56 sparse leave-one-out never uses the point's own label.** False for the code if another similarity equals the self similarity. Proved for strictly largest self similarities.
* **C57 metric='distance' is honoured for sparse matrices.** False for the code: metric has no influence for sparse matrices.
* **C60 R-precision returns labels of nearest neighbours.** False for the code: no labels for points without a relevant neighbour. C60_exact: exactly the other points get the labels of all their nearest neighbours, nearest first.
* **C62 hubs_ are the objects occurring more than hub_size * k times.** False for the code in the boundary case: it compares with >=. C62_iff: as documented exactly if no object occurs hub_size*k times.
* **C63 Hubness supports all three documented metrics.** False for the code: metric='cosine' always raises TypeError on vectors (keyword arguments of the Euclidean distance). Proved for metric='euclidean'.
* **C64 Hubness on vectors lists the nearest other vectors.** False for the code with duplicated vectors. Proved for different vectors, and with Y given; in general the vector or a copy of it is left out (C64_left_out).
* **C67 has_self_distances also applies to sparse precomputed matrices.** False for the code: the option is ignored for sparse matrices. Proved: the lists are the nearest stored entries.
* **C68 Local Scaling of finite distances is finite.** Violated by copies (0/0). C68_exact gives every value for all nonnegative distances; C68_nan_iff: nan exactly for pairs of distance zero of which one object has k copies.
* **C69 Local Scaling rejects meaningless neighbourhood sizes.** violated: k=0 and k=n return the zero matrix. C69_exact: with T training points exactly -T < k <= T is accepted for distances, n-T < k <= n+T for similarities, 0 <= k <= T by nicdm
* **C70 Local Scaling of similarities uses the k-th most similar training point.** violated with held-out points; holds without
* **C71 every n_jobs value is usable or rejected.** violated: other values give UnboundLocalError in local_scaling
* **C73 shared nearest neighbours rejects neighbourhood sizes outside 1..n-1.** violated: k=0 with distances gives nan, k=n with similarities gives ones. C73_exact: exactly -n <= k < n is accepted for distances, 1 <= k <= 2n for similarities
* **C74 vect_usage does not change simhub results.** violated with train_ind: the loop branch compares with the first rows; holds without train_ind
* **C75 simhub of a test point does not depend on other test points.** violated: occurrences are counted over the first m rows; holds if the training points are the first rows
* **C76 simhub and simhubIN reject neighbourhood sizes outside 1..n-1.** violated by simhubIN (s=0: nan, s>=n: all ones); simhub rejects
* **C77 supervised simhub contains no nan.** Violated by a single class (0/0); C77_nan_iff: nan exactly in this case.
* **C78 sampled simhub stays in [0,1].** violated for non-prefix train_ind; holds for a prefix
* **C80 Weighted centering gives larger weights to objects more similar to the others.** violated: weights decrease with the similarity for gamma>0
* **C81 Weighted centering with euclidean distances depends on the distances.** violated: the result is that of plain centering of all rows, whatever gamma and mask
* **C82 DisSim Local does not depend on the integer or float storage of the data.** violated: centroids are truncated (one process) or TypeError (several); holds for k=1 in one process
* **C84 Boolean test set masks hold back the marked rows.** violated: truth values are compared with row numbers; index arrays work
* **C94 Gaussian Mutual Proximity can be estimated from a sample of given size.** violated: every positive sample_size raises TypeError (random.sample of an ndarray)
* **C99 Sparse Gaussian Mutual Proximity is a valid secondary similarity.** Holds if the values present for each object are not all the same; C99_nan_iff: nan exactly for present values of objects without spread.
* **C100 Sparse and dense Gaussian Mutual Proximity agree without missing values.** holds if the values of each object are not all the same
* **C101 min_nnz is honoured by sparse Gaussian Mutual Proximity.** violated: min_nnz is never read
* **C102 Held-out objects are compared with training objects in sparse Gaussian Mutual Proximity.** holds for pairs of training objects; the self value is subtracted for held-out objects as well, which do not have one
* **C103 Sparse distance matrices are rejected by parametric Mutual Proximity.** violated: unlike the empirical variant there is no check, distances are treated as similarities
* **C105 min_nnz is honoured by sparse Gamma and Gumbel Mutual Proximity.** rows with at most min_nnz values are kept; a row with exactly min_nnz values is not rescaled; similarity to an object with a smaller number and few values becomes zero
* **C106 Sparse parametric Mutual Proximity does not depend on the numbering of objects.** Gaussian always; Gamma and Gumbel if all objects have more than min_nnz values
* **C107 Missing similarities stay missing in sparse parametric Mutual Proximity.** Gaussian and Gumbel always; the Gamma variant gives nan for objects with a single value
* **C108 Sparse Gamma Mutual Proximity is a valid secondary similarity.** holds if each object has more than min_nnz values, not all the same, with positive mean; otherwise see C105 and C107
* **C109 intrinsic_dimension is the maximum likelihood estimate of Levina and Bickel.** k1=1 is missing, for which the result is never finite (C112)
* **C112 Accepted neighbourhood ranges give a finite non-negative dimension.** holds for k1 >= 2; k1=1 is accepted but never gives a finite number
* **C113 intrinsic_dimension returns an integer.** violated: the estimate is not rounded
* **C114 intrinsic_dimension accepts distance matrices.** violated: always NotImplementedError
* **C118 kmeanspp never selects a point twice.** holds unless a random number is exactly zero; violated then, and with duplicates
* **C119 kmeanspp works with the default random_state.** violated: the default random_state=None raises AttributeError; other metrics are rejected
* **C122 sec_dist_sparse_ contains the secondary distances.** holds if no vantage point is selected twice; violated otherwise (kmeans++)
* **C123 SuQHR with an exact neighbour index is exact.** holds without ties; violated with ties
* **C125 No training object is its own neighbour in SuQHR.** holds if the index returns the object itself first; violated for duplicates
* **C127 SuQHR supports metric 'precomputed'.** violated for every method: the given distances are taken as vectors or an exception is raised
* **C128 SuQHR Gaussian Mutual Proximity formula.** holds without sampling; with sampling the moments of the vantage points include the zero distance to themselves
* **C129 SuQHR Gaussian Mutual Proximity is in the unit interval.** values are nan or in the unit interval; nan exactly if all vantage points are at the same distance from the test object or all others at the same distance from the vantage point (with sampling: distance zero)
* **C131 SuQHR NICDM formula.** holds if the partial sort puts the smallest value in front; violated for other partial sorts allowed by numpy
* **C132 SuQHR DisSim Local formula.** holds if the partial sort is a complete sort and vantage points differ; violated for other partial sorts allowed by numpy
* **C136 SuQHR with LSH does not depend on the number of processes or on memory contents.** Holds if the index always finds enough neighbours, and with several processes. Violated with n_jobs=1: np.empty leaves memory contents which enter the maximum used to fill missing distances.
* **C137 SuQHR Mutual Proximity with LSH is exact for exact answers.** Holds if the index compares with the same distance as the code (squared Euclidean). Violated for cosine, where FALCONN compares negative inner products with the cosine distance used as threshold.
* **C138 The SuQHR constructor accepts exactly the valid arguments, and fit handles all of them.** Validation is complete. Violated for metric 'precomputed', which is accepted but cannot be fitted for most algorithms (ValueError or UnboundLocalError).
* **C139 SuQHR.predict treats test objects independently of each other.** Holds for finite non-negative distances, and for uniform weights with different distances. Violated with weights='distance': enforce_finite_distances shifts the whole batch by its minimum.
* **C140 SuQHR.predict uses knn__n_neighbors neighbours.** Holds with fixed vantage points. Violated with hnsw and lsh, where knn__n_neighbors is ignored and n_neighbors used.
* **C141 SuQHR with HNSW computes distances which grow from nearest to farthest neighbour.** Holds for squared Euclidean distances. Violated for cosine: nmslib reports distances, which are converted as if they were similarities.
* **C142 The sparse matrix of SuQHR contains the secondary distances.** Holds if the neighbours of an object are different. Violated if an index finds too few neighbours: the last one is repeated and scipy adds up the values.
* **C143 cosine_distance is one minus the cosine of the angle.** Holds for vectors other than zero. Violated for zero vectors, whose distances to all others are nan.
* **C145 sample_distance returns distances to a sample of the requested size.** Holds for python numbers. Violated for numpy integers, which are treated as fractions.
* **C146 mp_dissim is the power mean of the data mass between the objects.** Holds up to the factor n_y / (n_x + n_y), because the code divides by the number of objects in both sets although it counts those of Y only.
* **C148 mp_dissim accepts every number of bins up to the number of objects.** Holds for 'range'. With 'mass' only those n_bins < n_y are accepted for which n_y mod n_bins is 0 or 1.
* **C155 analyze_hubness with its default arguments completes for any distance matrix.** violated: without vectors the default list always ends with an AttributeError after four experiments (centering needs vectors); the partial theorem gives sufficient conditions for every list of methods (with vectors and more than 12 points the default list completes)
* **C156 Similarity data are analysed as similarities by every method.** violated: the default list raises NotImplementedError for similarities (NICDM), and DisSim Global dissimilarities are evaluated as similarities, so that the listed neighbours are the least similar points; holds for distances and for the original similarities
* **C158 matrix_split finds a split which fits into memory.** every split found covers the matrix and fits into what the code takes for the free memory; violated: if a single row does not fit nr_matrices times, ZeroDivisionError
* **C159 FreeMemLinux reports the memory its attributes name.** lines are read by position and the positions fit no kernel: before 3.14 memory, buffers and caches are right but swap is the free swap and swap_free the dirty pages; since 3.14 swap is right but MemAvailable is taken for buffers and buffers for caches; shared is the used memory
* **C161 random_sparse_matrix has about twice the requested density.** between once and twice the number of drawn cells (plus the diagonal), twice if no mirror images coincide; violated for large densities
* **C162 csr matrices survive saving and loading.** holds for names which end with .npz; violated otherwise: np.savez appends .npz, so loading fails or returns a former file
* **C163 The example data reader puts every value where the file says.** holds for valid columns; violated: column 0 wraps around to the last column
* **C170 Printing the results does not change an analysis.** Holds unless the intrinsic dimension estimate is infinite or not a number; then round() raises after the first report, e.g. for more than twelve equidistant vectors.
* **C172 Missing results are named in the report.** Holds for index and dimensions; missing accuracies are never mentioned, since the loop over an empty dictionary raises no KeyError.
* **C175 A failing fit leaves a fitted estimator usable.** Holds if the rejected data have at least as many objects, or without sampling. Violated by random sampling: n_train_ is overwritten before fitting, so that the sparse matrix is too small.
* **C176 Methods do not change constructor arguments.** Violated exactly by MP and MPG without sampling, which overwrite n_samples; with sampling switched to random the estimator then cannot be fitted to the same data.
* **C177 predict leaves sec_dist_ as transform computed it.** Holds if all secondary distances are finite and not negative, violated in all other cases.
* **C179 fit rejects labels which do not match the data.** Holds for random sampling only. All other samplings accept more labels than objects; without sampling predict raises later.
* **C181 transform treats test objects independently of each other.** Holds except for LSH in one process, where equal test objects can get different distances because np.empty cells are read.
* **C184 Local Scaling yields numbers in floating point.** Entries are nan or numbers from zero to one; nan does not occur if squares of distances neither underflow nor overflow. Violated for points at distance 2^-600: both the squared distance and the product of the radii are rounded to zero, all entries become nan.
* **C185 NICDM yields numbers in floating point.** Entries are nan, infinite or non-negative; positive numbers if all distances are between 2^-200 and 2^200 (float64). Violated for points at distance 2^-600, where the product of the radii is rounded to zero.
* **C188 Mutual Proximity (Gaussi) of equidistant data does not depend on the distance.** The code violates the claim in float64 (distance 0.1, four objects). Proved for distances with few digits.
* **C189 DisSim Local in floating point: the matrix is symmetric.** The code violates the claim in float64 (four points in the plane). Proved: a bound on the asymmetry. disSimLocal_exact connects to the unrounded model.
* **C190 DisSim Local in floating point: translation of the data has no effect.** The code violates the claim in float64 (two points translated by 2^27). Proved for integer data with few digits, where the result is exact.
* **C191 Parallel results do not depend on how worker processes are started.** violated for spawned processes by all functions except sparse empirical Mutual Proximity: the main process never sees what the workers store, so results are constant (hubness, Local Scaling, NICDM, shared neighbours) or inner products (DisSim Local); for forked processes see C04, C31, C34, C41, with which the models agree (hubness_fork, ...)
* **C193 Duplicate vectors do not influence intrinsic_dimension.** Refuted: rows are sorted but not made unique, and zero distances are replaced by 1e-7, which is not relative to the unit. For data without duplicates C50 and C109 hold.
* **C194 k-nearest-neighbour accuracies in floating point.** Refuted as stated: acc += 1/n accumulates rounding errors, so that six of six correct objects have an accuracy below one, nine of nine an accuracy above one. Proved: error bound, non-negativity, strict order by the number of correct objects, exactness for powers of two.
* **C195 Sparse Gumbel Mutual Proximity is a valid secondary similarity.** Needs more than min_nnz values per object, at least two of them of other objects, with positive spread; refuted without (C105, C107).
* **C198 predict leaves its distance matrix unchanged.** Refuted for sparse matrices with sample_idx: every self distance of the caller's matrix is overwritten by infinity (C198_violated). Holds in all other cases.
* **C199 A fitted SuQHR does not depend on later changes of the training array.** Refuted for float32 data without sampling: the estimator keeps a reference, and with squared Euclidean distances the norms of the old vectors (C199_violated). Proved with sampling, or for other types, hr_algorithm=None.
* **C200 Element type of the matrix does not change results.** Integers always raise (inf cannot be stored). Boolean matrices violate the property: every secondary value is 0 or 1, Mutual Proximity maps any two different objects to True, and hubness can no longer exclude self distances. With float element type the model is the one used for the other properties (…_float).
* **C204 Secondary distances satisfy the triangle inequality.** Proved for shared_nearest_neighbors and for simhub without labels (any primary distances). Refuted for the other three: Mutual Proximity may violate the inequality by any factor, Local Scaling on the points 0, 1, 2, 10 of a line, NICDM on 0, 1, 16, 31, 32.
* **C206 R-precision returns the given labels as y_true.** Refuted for every labelling whose smallest label is not 1: y_true contains codes starting at 1, y_pred labels, and relevant_items begins with -1 for an artificial class. Proved: the numbers and the predicted labels are those of the model without label encoder, relevant_items[y_true] are the numbers of relevant items, and the codes keep the order of the labels.
* **C207 filter_self=False keeps the most similar object.** Holds for dense matrices and for filter_self=True. The parameter is never read, so that filter_self=False drops the most similar object as well.
* **C208 Cosine distances in floating point are symmetric, nonnegative, at most two, and zero for equal vectors.** Symmetry, zero diagonal and nonnegativity hold for any rounding. Refuted: in float64 the vector (9, 40) and its copy have the distance 2^-53, and (25,5,6,2,5,21) and its negative 2+2^-51. C209 bounds both effects.
* **C215 Increasing one distance does not decrease its secondary distance.** holds for empirical and Gaussian Mutual Proximity, Local Scaling and NICDM; violated for Gamma Mutual Proximity (ten objects, with the Gamma distribution itself), shared nearest neighbours (the distance may drop from 1 to 0) and simhubIN
* **C216 The secondary distance of two objects depends on their own distances only.** values of NICDM themselves do depend on other rows, by a common factor; violated for simhubIN
* **C219 Copies of one object do not spoil the secondary distances of the others.** Holds for Local Scaling (C68_exact). Violated by NICDM: one object with k copies makes the geometric mean zero and every value of the matrix zero or nan. Without such objects all values are finite, and positive for positive distances.
* **C224 Corrected hubness measure k_skewness_truncnorm_.** The documentation is wrong: the code returns the third moment about the mean of the untruncated parent distribution (scipy's moment(3) of the standardised distribution), not the skewness (third standardised central moment of the truncated distribution); C224_violated is a data set of three points for which the attribute is larger than the skewness of the fitted distribution. Proved: what the attribute is, its range, its value for equal counts, and when it is nan (C224_nan); C224_sign: it can be positive where k_skewness_ is negative. Exact arithmetic; the truncated normal distribution is the mathematical one.
* **C227 Mutual nearest neighbours stay nearest neighbours under Local Scaling and NICDM.** The code (the method) violates it for k=2: C227_violated gives four points on a line whose closest pair is broken up by both methods. Proved: k=1.
* **C230 An object stored twice: its copies stay together.** Violated by empirical Mutual Proximity (distance 2/n instead of zero) and by shared nearest neighbours (1/k instead of zero, no ties). Proved in full for local_scaling and nicdm.
* **C233 Several values of k at once give the results of separate experiments.** False for the code with infinitely near points: neighbours shuffled for one k stay shuffled for the following ones. Proved if each point has a finite neighbour and none infinitely near.
* **C234 A point's own label is not used even if it is classified randomly.** False for the code: the point itself is among the candidates of the random choice. Proved for points with a finite neighbour and none infinitely near.
* **C235 predict and score agree on sparse similarities.** False for the code for rows with fewer than k stored neighbours. Proved for rows with at least k.
* **C236 Sampling functions and the class Hubness in parallel do not depend on how worker processes are started.** False for the code with spawned processes: the main process never sees what the workers store. Shared neighbour distances are all 0, simhubIN distances all 1, localized centering is the plain cosine similarity, and object 0 is the only neighbour. Proved for forked processes.
* **C239 Test objects may be given by negative indices.** False for the code: numpy.setdiff1d compares with 0..n-1, so negative entries are silently ignored. Proved for non-negative indices; the condition is also necessary (C239_exact).
* **C241 Centering moves identical objects to the origin.** False for the code: three objects with the value 0.1 are moved to -2**-56. Proved for integers c with n*|c| <= 2**53.
* **C243 SuQHR(hr_algorithm='MP') does not depend on how worker processes are started.** Holds for forked processes. Spawned processes receive a copy of the array for the results, so all secondary distances are zero; with HNSW even for n_jobs=1.
* **C245 euclidean_distance is zero for equal vectors only.** Holds if coordinates differ not at all or by 2^-199 to 2^199. In general it does not: 0 and 2^-600 have distance zero, because the square of the difference underflows.
* **C246 lp_norm with p=2 is zero for equal vectors only.** Holds for integers of at most B with 4 m B^2 <= 2^53. In general it does not: 2^30 and 2^30 + 1 have distance zero, because scikit-learn computes squared distances from norms and inner products.
* **C255 simhub and simhubIN of objects at infinite or undefined distance.** simhubIN: holds for all floats; simhub: violated, distances above one if all objects are unreachable (an object counts itself as neighbour); the lower bound of similarities is log(n/(n+1))/log n
* **C256 An object stored twice: parametric Mutual Proximity.** gammai: holds; gaussi: copies have equal distances to all others, but never distance zero to each other
* **C260 Hubness of vectors in double precision: nobody is its own neighbour.** violated: 2^30 and 2^30+1 have computed distance zero, one of them is listed as its own neighbour by every partial sort. Holds if squared distances exceed 2(p+2)2^-50 times the largest squared norm; then lists are nearest up to that tolerance, and without near ties all results are those of exact arithmetic
* **C261 Sparse empirical Mutual Proximity does not depend on how the csr matrix is stored.** violated: with unsorted indices binary search finds the places of other pairs (similarity one instead of zero in a matrix with two objects, for every schedule); explicit zeros count towards min_nnz. Holds for rows stored in the order of the columns if there are no explicit zeros or min_nnz is 0 (default)
* **C262 Zeros of a sparse similarity matrix are missing values, stored or not.** violated: getnnz counts stored zeros, so z explicit zeros multiply the estimated mean similarity of an object by c/(c+z) (C262_mean, for every matrix), which changes similarities to other objects. Holds if exactly the values other than zero are stored
* **C263 Results of the sparse Gamma and Gumbel variants in single precision.** rounding once and its consequences are proved for every rounding which keeps 1/2. Violated for the retained similarities: they are retained exactly if and only if they are single precision numbers; up to 2^-24 of their size in the normal range; similarities up to 2^-150 become missing. Moments and distribution functions in exact arithmetic
* **C265 Explicitly stored zeros and storage order of csr matrices in score and r_precision.** violated: row.nnz and row.data include stored zeros, row.nonzero() does not, so positions do not correspond; a stored zero in an evaluated row without NaN always makes score and r_precision raise IndexError (proved for every such matrix). Without stored zeros the result is that of the stored matrix, whatever the order of storage
* **C266 Sparse empirical Mutual Proximity depends on the order of similarities only.** violated for negative similarities: values of the two rows may cancel in S_i + S_j and are then not counted. Renumbering is proved without restriction, rescaling for non-negative similarities
* **C268 DisSim Global of one data set is symmetric in double precision.** violated: x_c is subtracted before q_c, so the entries for 0.4 and 0.1 differ in the last place in whatever order sums are added. The difference is bounded for all data
* **C269 mp_dissim and its worker processes.** violated: kth and histograms are globals of the main process and not handed to the initializers, so processes which are not forked raise NameError for all data (proved for every call which succeeds otherwise). For forked processes proved for all orders of stores
* **C272 Local Scaling and NICDM keep separated classes separated.** Violated by the methods as implemented (and as published): C272_violated. C272_partial: holds for compact classes. Exact real arithmetic, metric distance.
* **C276 Held-out objects can be left out of the data.** local_scaling: proved (C276_local_scaling). nicdm: violated, as the geometric mean runs over all objects including held-out ones (C276_violated); C276_partial: all secondary distances change by one common factor. Exact real arithmetic, metric distance.
* **C283 dis_sim_local with two arguments and LSH do not depend on the start method of processes.** Holds for forked processes. Violated for spawned processes: the arrays for the results are handed over as numpy arrays, of which spawned processes get copies; dis_sim_local returns minus twice the inner product, and LSH finds object 0 at distance 0 for each test object.
* **C284 intrinsic_dimension in double precision is the estimate of Levina and Bickel, whatever the offset of the data.** Holds for different vectors of integers whose sums of squares stay below 2^51, with an explicit error bound. Violated far from the origin: for integers at 2^52 all computed distances are zero and the result is minus infinity, although the estimate is finite, positive and independent of the offset.
* **C285 Atkinson index of class Hubness in double precision.** Accuracy and the upper bound are proved; the index may be negative if all occurrences are equal (violated: four objects, two training objects, k = 2, correctly rounded powers).
* **C303 Every line of a log is an entry of its own.** Arguments which contain a newline break the line: the rest has neither time nor kind. Holds if no argument contains a newline.

## 6. Trusted base

* The Lean 4.33 kernel and the axioms below.
* Our reading of the source (the citations of section 3) and of the documentation of numpy, scipy, scikit-learn and the python standard library.
* The contracts of section 1.

### Not modelled, and simplifications

Everywhere: floating point rounding and overflow (except in `Verif/Rounding/`), memory exhaustion, timing, console output due to `verbose`, crashes of
processes, other dtypes than float64 for distances (except in `Verif/Dtype/`), behaviour of third party functions outside
their documentation, the signs of zeros. `np.alltrue`, `scipy.sparse.base` and scikit-learn arguments removed in newer releases are assumed to
exist.

* Worker processes: except in `Verif/Spawn/`, worker processes are forked, i.e. the arrays handed to them are shared. `Verif/Spawn/` models spawned processes for hubness (function and class), Local Scaling, NICDM, shared nearest neighbours (also of samples), simhubIN, localized centering, DisSim Local, LSH in SuQHR (transform), sparse empirical Mutual Proximity and Mutual Proximity of SuQHR and `mp_dissim`; the other parallel functions are not modelled for spawned processes.
* **hubness.py**: an empty shared array is treated like any other. `hubness_from_vectors` is modelled through the class; vectors enter via
  their distances.
* **global_scaling.py**: csr matrices are given by their content (sorted indices, no explicit zeros; see C261 and C262 for the others); finite entries in the parametric variants; conversion to float32 is modelled for C263 only;
  `S[train]` copies; `D_mp += D_mp.T` reads the old values (numpy guards against overlap).
* **local_scaling.py**, **shared_neighbors.py**, **centering.py**: process pools as schedules; `nan` stored to integer arrays is not modelled.
* **knn_classification.py**: labels are integers; the parameter `filter_self` of `score` is documented but unused.
* **intrinsic_dimension.py**: objects are rows, as in the code (the documentation speaks of columns). Rounding is modelled for 'levina' without transformation (C284).
* **approximate.py**: distances of scikit-learn, `ShuffleSplit` and the indices are oracles; FALCONN's threshold compares negative inner products,
  nmslib's `cosinesimil` reports distances; `KNeighborsClassifier` as documented; the formula of DisSim (C132) for squared Euclidean
  distances only; `enforce_finite_distances` as written. Estimators with state (C174–C181): results of libraries do not change between calls, a
  `NotFittedError` is a `ValueError`, `set_params` makes an estimator unfitted, `nan` found in uninitialised memory is not skipped by `nanmean`,
  timing, messages and index parameters are left out. The violation of C118 needs a random number which is exactly 0.
* **distances.py**: the scipy and scikit-learn formulas (scipy rejects `p < 1`), at least one feature, `mp_dissim` for `p ≥ 0`; rounding of
  histogram edges is not modelled. The default `n_bins=0` of `mp_dissim` always raises.
* **hubness_analysis.py**: the printed report is modelled as a list of lines with unrounded numbers; messages due to `verbose` are
  not modelled; the example data which is loaded for `D=None` in `Start.lean` only (without zero vectors). All called functions copy their matrix argument, so experiments do not influence each other.
* **utils.py**: processes killed while holding the lock are not modelled.
* **io.py**: files are modelled by their content (labelled numbers, lines of pairs, arrays); text (ASCII) is modelled for the example data and `/proc/meminfo` (C257, C258, C290); unknown units of
  `FreeMemLinux` (plain `Exception`) neither.
* **Rounding** (`Verif/Rounding/`): signs of zeros are not modelled; the library functions `exp`, `log`, `sqrt` are any functions with the range of the true ones,
  `np.sum` adds in any order (`SumTree`); `norm.cdf`, `norm.sf`, `gammainc` are any functions into the unit interval or `nan`. Local Scaling and NICDM: one format for the whole computation (worker processes share float64 arrays).
* **htlogging.py**: arguments are given by their `str()`; years have four digits; several processes writing to one console are not modelled.
* `__init__.py` and the example data sets are not modelled.

## 7. Tests of the theorems against wrong programs

`seeded/LOG.jsonl` has one line per deliberately wrong variant of a model definition: the edit, the claim it breaks, the theorems which failed
to prove in the variant, and the theorems which were tightened because they still proved. Variants which break no claim are marked `none`.

### Axioms

`#print axioms` for every theorem of `MANIFEST.json`. No theorem depends on an axiom outside `propext`, `Classical.choice`, `Quot.sound`; there is no `sorry`, no own axiom, no `native_decide`/`bv_decide` (hence no trust in the compiler).

* only propext, Quot.sound: `HubClass.C13_init`, `GK.C14_errors`, `MPEmp.C25_schedule_independent`, `Knn.C46_violated`, `Knn.C47_no_true_positive`, `MPEmp.C51_index_array_ignored`, `Cent.C38_errors`, `Approx.C136_trafo_partial`, `Approx.C142_violated`, `InOut.C163_zero_column_violated`, `InOut.C164_sample`, `Spawn.C191_sparse_partial`, `Rounding.C208_partial`, `Knn.C233_predict_partial`, `Spawn.C236_parallelNN_fork_partial`, `Spawn.C236_class_blind`, `Rounding.C244_symm`, `Spawn.C283_lsh_violated`, `Relations.C293_goodman_kruskal`
* only propext: `Counter.C48_lock_needed`, `InOut.C164_vectors`, `InOut.C164_labels`
* propext, Classical.choice, Quot.sound: all other theorems of the table in section 4 (850).
