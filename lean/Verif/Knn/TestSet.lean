import Verif.Knn.Props

/-!
# Properties of k-NN classification: test sets, labels, F-measures
-/

set_option autoImplicit false
set_option linter.unusedSectionVars false

namespace HubToolbox.Knn
open Spec

variable {K : Type} [Field K] [LinearOrder K] {n : ℕ}

/-! ## C45: held-out evaluation -/

/-- C45 for one data set: every test point is classified by the vote of its `k` nearest points outside the test set
(if there is one at finite distance, and none at the infinite distance "nearer than finite"). -/
def HeldOut (srt : ArgSort (XR K)) (o : ArgPart (XR K)) (rnd : Rnd) (D : Fin n → Fin n → XR K) (y : Fin n → ℤ)
    (ks : List ℤ) (metric : String) (T : List (Fin n)) (train : Finset (Fin n)) : Prop :=
  ∃ r, score srt o rnd (.mat false n n D) (.vec n y) (.list ks) metric (some (T.map Fin.val)) = .ok ⟨n, r⟩ ∧
    ∀ j (hj : j < ks.length), ∃ q, r.perK[j]? = some q ∧
      Explained y T q y
        (fun i => i ∈ T ∧ (∃ x ∈ train, (D i x).isFinite = true) ∧ ∀ x ∈ train, D i x ≠ tooNear metric)
        (fun i => IsKNN metric (D i) train (ks[j]).toNat)

/-- The training points used are those below the size of the test set which are not test points. -/
theorem C45_actual (srt : ArgSort (XR K)) (o : ArgPart (XR K)) (rnd : Rnd) (D : Fin n → Fin n → XR K)
    (y : Fin n → ℤ) (ks : List ℤ) (hk : ∀ k ∈ ks, 1 ≤ k) (metric : String)
    (hm : metric = "distance" ∨ metric = "similarity") (T : List (Fin n)) (hT : T.Nodup) :
    HeldOut srt o rnd D y ks metric T (Finset.univ.filter (fun x => x.val < T.length ∧ x ∉ T)) := by
  refine ⟨_, score_dense_test srt o rnd D y ks metric hm T _ (trainSet_ok T hT), ?_⟩
  intro j hj
  refine ⟨_, runDense_get srt rnd metric ks _ _ _ _ _ _ j hj, ?_⟩
  apply explained_of y T _root_.id
  rintro i ⟨hiT, ⟨x, hx, hxf⟩, htoo⟩
  have hcand : ∀ z, z ∈ (List.finRange n).filter (fun x => decide (x.val < T.length ∧ x ∉ T)) ↔
      z ∈ Finset.univ.filter (fun x : Fin n => x.val < T.length ∧ x ∉ T) := by
    intro z; simp
  have hni : ∀ z ∈ Finset.univ.filter (fun x : Fin n => x.val < T.length ∧ x ∉ T), z ≠ i := by
    rintro z hz rfl
    exact (Finset.mem_filter.1 hz).2.2 hiT
  have h := neighbours_spec srt rnd D ks hk metric _ ((List.nodup_finRange n).filter _) i
    ⟨x, (hcand x).2 hx, hni x hx, hxf⟩ (fun z hz _ => htoo z ((hcand z).1 hz)) j hj
  refine ⟨h.1, ?_⟩
  have h2 : (((List.finRange n).filter (fun x => decide (x.val < T.length ∧ x ∉ T))).toFinset.erase i)
      = Finset.univ.filter (fun x : Fin n => x.val < T.length ∧ x ∉ T) := by
    ext z
    rw [Finset.mem_erase, List.mem_toFinset, hcand z]
    exact ⟨fun h => h.2, fun h => ⟨hni z h, h⟩⟩
  have h3 := h.2
  rw [h2] at h3
  exact h3

/-- **C45, the part which holds.** If every point outside the test set has an index below the size of the test set
(a test set of at least half of the points, all at the end), test points are classified by all points outside the
test set. Missing: all other test sets, see `C45_violated` and `C45_ignored`. -/
theorem C45_partial (srt : ArgSort (XR K)) (o : ArgPart (XR K)) (rnd : Rnd) (D : Fin n → Fin n → XR K)
    (y : Fin n → ℤ) (ks : List ℤ) (hk : ∀ k ∈ ks, 1 ≤ k) (metric : String)
    (hm : metric = "distance" ∨ metric = "similarity") (T : List (Fin n)) (hT : T.Nodup)
    (hpre : ∀ x : Fin n, x ∉ T → x.val < T.length) :
    HeldOut srt o rnd D y ks metric T (Finset.univ.filter (fun x => x ∉ T)) := by
  have h := C45_actual srt o rnd D y ks hk metric hm T hT
  have h2 : Finset.univ.filter (fun x : Fin n => x.val < T.length ∧ x ∉ T) = Finset.univ.filter (fun x => x ∉ T) := by
    ext x
    simp only [Finset.mem_filter, Finset.mem_univ, true_and]
    exact ⟨fun h => h.2, fun h => ⟨hpre x h, h⟩⟩
  rwa [h2] at h

example : ∀ x : Fin 4, x ∉ [(2 : Fin 4), 3] → x.val < [(2 : Fin 4), 3].length := by decide

theorem nnLists_congr {m : ℕ} (row row' : Fin m → XR K) (again : ℕ → List (Fin m) → List (Fin m))
    (hp : ∀ j l, (again j l).Perm l) (ks : List ℤ) (j : ℕ) (idx : List (Fin m)) (h : ∀ x ∈ idx, row x = row' x) :
    nnLists row again ks j idx = nnLists row' again ks j idx := by
  induction ks generalizing j idx with
  | nil => rfl
  | cons k ks ih =>
    have h1 : (slice0 k idx).map (fun x => (row x).isFinite) = (slice0 k idx).map (fun x => (row' x).isFinite) := by
      apply List.map_congr_left
      intro x hx
      rw [h x]
      unfold slice0 at hx
      split at hx <;> exact List.mem_of_mem_take hx
    simp only [nnLists, h1]
    congr 1
    apply ih
    split
    · intro x hx; exact h x ((hp j idx).mem_iff.1 hx)
    · exact h

theorem order_congr (srt : ArgSort (XR K)) {m : ℕ} (metric : String) (row row' : Fin m → XR K) (rp : List (Fin m))
    (h : ∀ x ∈ rp, row x = row' x) : order srt metric row rp = order srt metric row' rp := by
  have : (fun p => row (rp.get p)) = fun p => row' (rp.get p) := by
    funext p; exact h _ (List.get_mem rp p)
  have h2 : ∀ p : Fin rp.length, row (rp.get p) = row' (rp.get p) := fun p => h _ (List.get_mem rp p)
  unfold order
  simp only [this]
  congr 1
  apply List.filter_congr
  intro p _
  exact decide_eq_decide.2 (by rw [h2 p])

/-- **C45 does not hold.** The points with an index which is not below the size of the test set are ignored: their
distances do not influence the result. -/
theorem C45_ignored (srt : ArgSort (XR K)) (o : ArgPart (XR K)) (rnd : Rnd) (D D' : Fin n → Fin n → XR K)
    (y : Fin n → ℤ) (ks : List ℤ) (metric : String)
    (hm : metric = "distance" ∨ metric = "similarity") (T : List (Fin n)) (hT : T.Nodup)
    (hD : ∀ i x : Fin n, x.val < T.length → D i x = D' i x) :
    score srt o rnd (.mat false n n D) (.vec n y) (.list ks) metric (some (T.map Fin.val))
      = score srt o rnd (.mat false n n D') (.vec n y) (.list ks) metric (some (T.map Fin.val)) := by
  rw [score_dense_test srt o rnd D y ks metric hm T _ (trainSet_ok T hT),
    score_dense_test srt o rnd D' y ks metric hm T _ (trainSet_ok T hT)]
  unfold runDense
  congr 4
  funext j
  congr 1
  funext i
  set cand := (List.finRange n).filter (fun x => decide (x.val < T.length ∧ x ∉ T)) with hcand
  have hrow : ∀ x ∈ rnd.first i.val cand, Function.update (D i) i (dSelf metric) x
      = Function.update (D' i) i (dSelf metric) x := by
    intro x hx
    have hx2 := (rnd.first_perm i.val cand).mem_iff.1 hx
    simp only [hcand, List.mem_filter, decide_eq_true_eq] at hx2
    rw [Function.update_apply, Function.update_apply, hD i x hx2.2.1]
  rw [order_congr srt metric _ _ _ hrow]
  rw [nnLists_congr _ (Function.update (D' i) i (dSelf metric)) _ (rnd.again_perm i.val)]
  intro x hx
  apply hrow
  rw [(order_perm srt metric _ _).mem_iff, List.mem_filter] at hx
  exact hx.1

/-- Four points, labels 0, 1, 0, 0, all distances 1. -/
def exHeldD : Fin 4 → Fin 4 → XR ℚ := fun _ _ => .fin 1

def exHeldY : Fin 4 → ℤ := ![0, 1, 0, 0]

theorem isVote_const {L : List ℤ} {a v : ℤ} (hL : L ≠ []) (h : ∀ x ∈ L, x = a) (hv : IsVote L v) : v = a := by
  apply hv.1 a
  intro c hc
  have h1 : L.count c = 0 := List.count_eq_zero.2 (fun hm => hc (h c hm))
  have h2 : 0 < L.count a := by
    rw [List.count_pos_iff]
    obtain ⟨x, hx⟩ := List.exists_mem_of_ne_nil L hL
    rwa [← h x hx]
  omega

/-- **C45 does not hold.** With test set `{0, 1}` of four points no training point is used; all points outside the
test set have label 0, but point 0 (label 0) is classified as 1. -/
theorem C45_violated :
    ¬ ∀ (n : ℕ) (D : Fin n → Fin n → XR ℚ) (y : Fin n → ℤ) (T : List (Fin n)), T.Nodup →
      HeldOut (ArgSort.ofSort _) (ArgPart.ofInsertion _) Rnd.id D y [1] "distance" T
        (Finset.univ.filter (fun x => x ∉ T)) := by
  intro h
  obtain ⟨r, hr, hq⟩ := h 4 exHeldD exHeldY [0, 1] (by decide)
  obtain ⟨q, hq1, pred, hcorr, -, hN⟩ := hq 0 (by decide)
  have hok : (0 : Fin 4) ∈ [(0 : Fin 4), 1] ∧
      (∃ x ∈ Finset.univ.filter (fun x : Fin 4 => x ∉ [(0 : Fin 4), 1]), (exHeldD 0 x).isFinite = true) ∧
      ∀ x ∈ Finset.univ.filter (fun x : Fin 4 => x ∉ [(0 : Fin 4), 1]), exHeldD 0 x ≠ tooNear "distance" :=
    ⟨by decide, ⟨2, by decide, rfl⟩, fun x _ => by simp [exHeldD, tooNear]⟩
  obtain ⟨N, hne, hNN, hv⟩ := hN 0 hok
  have hp : pred 0 = 0 := by
    apply isVote_const (by simpa using hne) _ hv
    intro c hc
    obtain ⟨x, hx, rfl⟩ := List.mem_map.1 hc
    have key : ∀ x : Fin 4, x ∈ Finset.univ.filter (fun x : Fin 4 => x ∉ [(0 : Fin 4), 1]) → exHeldY x = 0 := by decide
    exact key x (hNN.mem x hx).1
  have hc := hcorr 0 hok (by decide)
  rw [hp, if_pos (by decide)] at hc
  have h1 : (match score (ArgSort.ofSort (XR ℚ)) (ArgPart.ofInsertion _) Rnd.id (.mat false 4 4 exHeldD) (.vec 4 exHeldY)
      (.list [1]) "distance" (some [0, 1]) with
    | .ok ⟨_, r⟩ => r.perK.map (fun q => (List.ofFn q.corr))
    | .error _ => []) = [[0, 1, 0, 0]] := by decide +kernel
  have h2 : List.map Fin.val [(0 : Fin 4), 1] = [0, 1] := rfl
  rw [h2] at hr
  rw [hr] at h1
  simp only at h1
  have h3 : r.perK = [q] := by
    cases hp : r.perK with
    | nil => rw [hp] at h1; cases h1
    | cons a t =>
      rw [hp] at h1 hq1
      simp only [List.map_cons, List.cons.injEq, List.map_eq_nil_iff] at h1
      simp only [List.getElem?_cons_zero, Option.some.injEq] at hq1
      rw [h1.2, hq1]
  rw [h3] at h1
  simp [List.ofFn_succ, hc] at h1

/-- **C45 does not hold for sparse matrices.** The test points are classified as in leave-one-out mode, using the
other test points. -/
theorem C45_sparse_violated (hn : 0 < n) (srt : ArgSort (XR K)) (o : ArgPart (XR K)) (rnd : Rnd)
    (D : Fin n → Fin n → XR K) (y : Fin n → ℤ) (ks : List ℤ) (metric : String)
    (hm : metric = "distance" ∨ metric = "similarity") (T : List (Fin n)) :
    ∃ r r', score srt o rnd (.mat true n n D) (.vec n y) (.list ks) metric (some (T.map Fin.val)) = .ok ⟨n, r⟩ ∧
      score srt o rnd (.mat true n n D) (.vec n y) (.list ks) metric none = .ok ⟨n, r'⟩ ∧
      ∀ j, j < ks.length → ∃ q q', r.perK[j]? = some q ∧ r'.perK[j]? = some q' ∧ ∀ i ∈ T, q.corr i = q'.corr i := by
  refine ⟨_, _, score_sparse_ok hn srt o rnd D y ks metric hm (some T), score_sparse_ok hn srt o rnd D y ks metric hm none,
    ?_⟩
  intro j hj
  simp only [List.getElem?_map, List.getElem?_range hj, Option.map_some, Option.getD_some, Option.getD_none]
  refine ⟨_, _, rfl, rfl, ?_⟩
  intro i hi
  rw [tally_eq, tally_eq]
  simp [hi]

/-! ## C46: `predict` with a test set -/

/-- **C46 does not hold.** Every call with `test_ind` fails. -/
theorem C46_violated {c : ℕ} (srt : ArgSort (XR K)) (rnd : Rnd) (D : Fin n → Fin n → XR K) (y : Fin n → Fin c → ℤ)
    (k : KArg) (metric : String) (hm : metric = "distance" ∨ metric = "similarity") (T : List (Fin n)) :
    predict srt rnd D y k metric (some T) = .error .unboundLocalError := by
  have hcv : checkValidMetric metric = .ok () := by rcases hm with rfl | rfl <;> rfl
  unfold predict
  rw [dif_pos rfl, hcv]
  rfl

/-! ## C55: labels returned by `predict` -/

/-- **C55 does not hold.** Predictions are not elements of the label set. -/
theorem C55_violated :
    ¬ ∀ (n c : ℕ) (D : Fin n → Fin n → XR ℚ) (y : Fin n → Fin c → ℤ),
      ∃ r, predict (ArgSort.ofSort _) Rnd.id D y (.list [1]) "distance" none = .ok r ∧
        ∀ i l, ((r.yPred 0 i l : ℕ) : ℤ) ∈ Set.range (allLabels y) := by
  intro h
  obtain ⟨r, hr, hp⟩ := h 2 1 (fun _ _ => .fin 1) (fun _ _ => 5)
  obtain ⟨⟨_, _⟩, hx⟩ := hp 0 0
  have h1 : (match predict (ArgSort.ofSort (XR ℚ)) Rnd.id (n := 2) (m := 2) (c := 1) (fun _ _ => .fin 1) (fun _ _ => 5)
      (.list [1]) "distance" none with
    | .ok r => r.yPred 0 0 0
    | .error _ => 1) = 0 := by decide +kernel
  rw [hr] at h1
  simp only at h1
  rw [h1] at hx
  simp [allLabels] at hx

theorem encode_range {N : ℕ} (L : List ℤ) (hL : ∀ v, v ∈ L ↔ 0 ≤ v ∧ v < (N : ℤ)) (v : ℤ) (hv : v ∈ L) :
    (encode (labelsOf L) v : ℤ) = v := by
  rw [encode_eq_rank L v hv]
  have h1 : (L.toFinset.filter (· < v)) = (Finset.range v.toNat).map ⟨fun k : ℕ => (k : ℤ), Nat.cast_injective⟩ := by
    ext w
    have hv' := (hL v).1 hv
    simp only [Finset.mem_filter, List.mem_toFinset, hL, Finset.mem_map, Finset.mem_range, Function.Embedding.coeFn_mk]
    constructor
    · rintro ⟨⟨h0, _⟩, hwv⟩
      exact ⟨w.toNat, by omega, by omega⟩
    · rintro ⟨k, hk, rfl⟩
      omega
  rw [h1, Finset.card_map, Finset.card_range]
  have := ((hL v).1 hv).1
  omega

/-- **C55, the part which holds.** If the labels are 0, …, C-1, every prediction is the label of some point.
Missing: other label sets, see `C55_violated`. -/
theorem C55_partial {c C : ℕ} (srt : ArgSort (XR K)) (rnd : Rnd) (D : Fin n → Fin n → XR K) (y : Fin n → Fin c → ℤ)
    (ks : List ℤ) (hk : ∀ k ∈ ks, 1 ≤ k) (metric : String) (hm : metric = "distance" ∨ metric = "similarity")
    (hy : Set.range (allLabels y) = {v : ℤ | 0 ≤ v ∧ v < C}) :
    ∃ r, predict srt rnd D y (.list ks) metric none = .ok r ∧
      ∀ j, j < ks.length → ∀ i l, ∃ x, ((r.yPred j i l : ℕ) : ℤ) = y x l := by
  refine ⟨_, predict_ok srt rnd D y ks hk metric hm, ?_⟩
  intro j hj i l
  have hlen : (predNN srt rnd metric ks D i).length = ks.length := nnLists_length _ _ _ _ _
  have hN : (predNN srt rnd metric ks D i).getD j [] ≠ [] := by
    rw [List.getD_eq_getElem _ _ (by omega)]
    exact predNN_ne_nil srt rnd metric ks hk D i _ (List.getElem_mem _)
  have hne : ((predNN srt rnd metric ks D i).getD j []).map (fun x => encode (predLabels y) (y x l)) ≠ [] := by
    rw [ne_eq, List.map_eq_nil_iff]; exact hN
  obtain ⟨x, _, hx⟩ := List.mem_map.1 (vote_spec 0 _ hne).2
  refine ⟨x, ?_⟩
  simp only
  rw [← hx]
  apply encode_range (N := C) _ _ _ (mem_predLabels y x l)
  intro v
  have : v ∈ Set.range (allLabels y) ↔ 0 ≤ v ∧ v < (C : ℤ) := by rw [hy]; rfl
  rw [← this]
  simp [List.mem_flatMap, List.mem_ofFn, allLabels]

example : Set.range (allLabels (fun (i : Fin 3) (_ : Fin 1) => ((i.val : ℕ) : ℤ))) = {v : ℤ | 0 ≤ v ∧ v < (3 : ℕ)} := by
  ext v
  simp only [Set.mem_range, Set.mem_ofPred_eq, allLabels, Prod.exists]
  constructor
  · rintro ⟨i, _, rfl⟩; have := i.isLt; omega
  · rintro ⟨h0, h1⟩; exact ⟨⟨v.toNat, by omega⟩, 0, by simp; omega⟩

/-! ## C56, C57: sparse matrices -/

/-- The correctness masks, one list per `k`. -/
def corrs (x : Py (Σ n, Res K n)) : List (List ℕ) :=
  match x with
  | .ok ⟨_, r⟩ => r.perK.map (fun q => List.ofFn q.corr)
  | .error _ => []

/-- **C56 does not hold** if another point is as similar as the point itself. Points 0 and 1 are identical with labels
0 and 1. With `k = 1` point 0 may be left as its own neighbour, and be classified correctly. -/
theorem C56_violated :
    corrs (score (ArgSort.ofSort _) (ArgPart.ofInsertion _) Rnd.id (.mat true 2 2 (fun _ _ => (.fin 1 : XR ℚ)))
      (.vec 2 ![0, 1]) (.list [1]) "similarity" none) = [[1, 0]] := by decide +kernel

/-- **C56, the part which holds.** If the self similarity of point `i` is strictly the largest of its row, and all
values are finite: under two labellings which differ only in the label of point `i`, point `i` is not classified
correctly both times. Missing: rows with equal or larger similarities, see `C56_violated`. -/
theorem C56_partial (hn : 0 < n) (srt : ArgSort (XR K)) (o : ArgPart (XR K)) (rnd : Rnd) (D : Fin n → Fin n → XR K)
    (y y' : Fin n → ℤ) (ks : List ℤ) (hk : ∀ k ∈ ks, 1 ≤ k) (i : Fin n) (hy : ∀ x, x ≠ i → y' x = y x)
    (hne : y' i ≠ y i) (hf : ∀ x, (D i x).isFinite = true) (hii : D i i ≠ .fin 0)
    (hmax : ∀ x, x ≠ i → D i x ≠ .fin 0 → D i x < D i i) (hx : ∃ x, x ≠ i ∧ D i x ≠ .fin 0) :
    ∃ r r', score srt o rnd (.mat true n n D) (.vec n y) (.list ks) "similarity" none = .ok ⟨n, r⟩ ∧
      score srt o rnd (.mat true n n D) (.vec n y') (.list ks) "similarity" none = .ok ⟨n, r'⟩ ∧
      ∀ j, j < ks.length → ∃ q q', r.perK[j]? = some q ∧ r'.perK[j]? = some q' ∧ ¬ (q.corr i = 1 ∧ q'.corr i = 1) := by
  refine ⟨_, _, score_sparse_ok hn srt o rnd D y ks "similarity" (.inr rfl) none,
    score_sparse_ok hn srt o rnd D y' ks "similarity" (.inr rfl) none, ?_⟩
  intro j hj
  simp only [List.getElem?_map, List.getElem?_range hj, Option.map_some, Option.getD_none]
  refine ⟨_, _, rfl, rfl, ?_⟩
  obtain ⟨hN1, hN2⟩ := sparse_neighbours o rnd D ks hk i hf hii hmax hx j hj
  have hN : ∀ x ∈ (nnLists (D i) (rnd.again i.val) ks 0
      (sparseOrder o (D i) ks (rnd.first i.val (storedCols (D i))))).getD j [], x ≠ i :=
    fun x hx => ((Finset.mem_filter.1 (hN2.mem x hx).1).2).1
  exact not_both hN1 hN hy hne _ _ _ _

example : ∃ D : Fin 3 → Fin 3 → XR ℚ, (∀ x, (D 0 x).isFinite = true) ∧ D 0 0 ≠ .fin 0 ∧
    (∀ x, x ≠ 0 → D 0 x ≠ .fin 0 → D 0 x < D 0 0) ∧ ∃ x, x ≠ 0 ∧ D 0 x ≠ .fin 0 :=
  ⟨![![.fin 2, .fin 1, .fin 0], ![.fin 1, .fin 2, .fin 0], ![.fin 0, .fin 0, .fin 2]], by decide +kernel⟩

/-- **C57 does not hold.** For sparse matrices parameter `metric` has no influence. -/
theorem C57_metric_ignored (hn : 0 < n) (srt : ArgSort (XR K)) (o : ArgPart (XR K)) (rnd : Rnd)
    (D : Fin n → Fin n → XR K) (y : Fin n → ℤ) (ks : List ℤ) (test : Option (List (Fin n))) :
    score srt o rnd (.mat true n n D) (.vec n y) (.list ks) "distance" (test.map (fun T => T.map Fin.val))
      = score srt o rnd (.mat true n n D) (.vec n y) (.list ks) "similarity" (test.map (fun T => T.map Fin.val)) := by
  rw [score_sparse_ok hn srt o rnd D y ks _ (.inl rfl) test, score_sparse_ok hn srt o rnd D y ks _ (.inr rfl) test]

/-- Distances from point 0: 1, 2, 3. -/
def exSparseD : Fin 4 → Fin 4 → XR ℚ := fun i j => .fin (if i ≤ j then (j.val : ℚ) - i.val else (i.val : ℚ) - j.val)

/-- **C57 does not hold.** The nearest neighbour of point 0 is point 1, which has the same label, but with `k = 1`
point 0 is not classified correctly. -/
theorem C57_violated :
    (corrs (score (ArgSort.ofSort _) (ArgPart.ofInsertion _) Rnd.id (.mat true 4 4 exSparseD) (.vec 4 ![7, 7, 8, 8])
      (.list [1]) "distance" none)).map List.head? = [some 0] := by decide +kernel

/-! ## Non-vacuity of C42 to C44 -/

/-- Five points on a line at 0, 1, 2, 6, 7, and a pair at infinite distance. -/
def exLineD : Fin 5 → Fin 5 → XR ℚ :=
  ![![.fin 0, .fin 1, .fin 2, .fin 6, .pinf], ![.fin 1, .fin 0, .fin 1, .fin 5, .fin 6],
    ![.fin 2, .fin 1, .fin 0, .fin 4, .fin 5], ![.fin 6, .fin 5, .fin 4, .fin 0, .fin 1],
    ![.pinf, .fin 6, .fin 5, .fin 1, .fin 0]]

example : corrs (score (ArgSort.ofSort _) (ArgPart.ofInsertion _) Rnd.id (.mat false 5 5 exLineD) (.vec 5 ![3, 3, 9, 9, 9])
    (.list [1, 3]) "distance" none) = [[1, 1, 0, 1, 1], [0, 0, 0, 1, 1]] := by decide +kernel

example : ∀ i : Fin 5, (∃ x, x ≠ i ∧ (exLineD i x).isFinite = true) ∧
    ∀ x, x ≠ i → exLineD i x ≠ tooNear "distance" := by decide +kernel

example : corrs (score (ArgSort.ofSort _) (ArgPart.ofInsertion _) Rnd.id (.mat false 5 5 exLineD) (.vec 5 ![3, 3, 9, 9, 9])
    (.list [1]) "distance" (some [2, 3, 4])) = [[0, 0, 0, 0, 0]] := by decide +kernel

end HubToolbox.Knn
