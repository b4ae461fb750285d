import Verif.Approx.MPModel
import Verif.Approx.KMeans
import Verif.MPEmp.Props

/-!
# Approximate empirical Mutual Proximity with fixed vantage points
-/

set_option autoImplicit false

namespace HubToolbox.Approx

open HubToolbox

variable {K : Type} [Field K] [LinearOrder K] [IsStrictOrderedRing K]

/-- `metric` values for which distances can be computed. -/
def VMetric (metric : String) : Prop := metric = "sqeuclidean" ∨ metric = "cosine"

theorem VMetric.k {metric : String} (h : VMetric metric) : KMetric metric := by
  rcases h with h | h
  · exact Or.inl h
  · exact Or.inr (Or.inl h)

omit [IsStrictOrderedRing K] in
theorem centresFrom_length {n : ℕ} (d : Fin n → Fin n → K) (r : Rand K) (trials : ℕ) (k c : ℕ) (w : Fin n → K)
    (l : List (Fin n)) (h : centresFrom d r trials k c w = .ok l) : l.length = k := by
  induction k generalizing c w l with
  | zero => cases h; rfl
  | succ k ih =>
    unfold centresFrom at h
    simp only [bind, Except.bind] at h
    cases h1 : nextCentre d r trials c w with
    | error e => rw [h1] at h; cases h
    | ok p =>
      rw [h1] at h
      simp only at h
      cases h2 : centresFrom d r trials k (c + 1) p.2 with
      | error e => rw [h2] at h; cases h
      | ok l' =>
        rw [h2] at h
        cases h
        simp [ih _ _ _ h2]

omit [IsStrictOrderedRing K] in
theorem kmeanspp_length {n : ℕ} (d : Fin n → Fin n → K) (metric : String) (k : ℕ) (r : Option (Rand K)) (trials : ℕ)
    (l : List (Fin n)) (h : kmeanspp d metric k r trials = .ok l) : l.length = k := by
  unfold kmeanspp at h
  split at h
  · cases h
  · split at h
    · cases h
    · split at h
      · split at h
        · cases h
        · next r hn _ k =>
          simp only [bind, Except.bind] at h
          cases h2 : centresFrom d r trials k 1 (d (r.randint hn)) with
          | error e => rw [h2] at h; cases h
          | ok l' =>
            rw [h2] at h
            cases h
            simp [centresFrom_length _ _ _ _ _ _ _ h2]
      · cases h

omit [IsStrictOrderedRing K] in
theorem vantage_length (w : World K) {n : ℕ} (d : Fin n → Fin n → K) (metric : String) (smp : Sampling) (k : ℕ)
    (l : List (Fin n)) (h : vantage w d metric smp k = .ok l) : l.length = if smp = .all then n else k := by
  cases smp with
  | random =>
    simp only [vantage] at h
    split at h
    · cases h; simp
    · cases h
  | kmeanspp =>
    have h' : kmeanspp d metric k (some w.rand) (w.trials k) = .ok l := h
    simpa using kmeanspp_length _ _ _ _ _ _ h'
  | all => cases h; simp

omit [IsStrictOrderedRing K] in
/-- The workers produce the same matrix as the single process. -/
theorem mpMatrix_eq (w : World K) (nJobs : ℤ) (nPts : ℕ) {t s : ℕ} (dTrain : Fin s → Fin s → XR K)
    (dTest : Fin t → Fin s → XR K) :
    mpMatrix w nJobs nPts dTrain dTest =
      fun i j => .fin (mpRow nPts (Np.fillDiagonal dTrain .pinf) (dTest i) j) := by
  unfold mpMatrix
  simp only
  split
  · rfl
  · funext i j
    have hnd : (((List.finRange t).flatMap (fun (i : Fin t) => (List.finRange s).map (fun (j : Fin s) =>
        ((i, j), (XR.fin (mpRow nPts (Np.fillDiagonal dTrain .pinf) (dTest i) j) : XR K))))).map Prod.fst).Nodup := by
      rw [List.map_flatMap, List.nodup_flatMap]
      refine ⟨fun i _ => ?_, ?_⟩
      · rw [List.map_map]
        exact (List.nodup_finRange s).map (fun a b h => by simpa using h)
      · refine (List.nodup_finRange t).imp ?_
        intro a b hab x hx hx'
        simp only [List.map_map, List.mem_map, Function.comp_apply] at hx hx'
        obtain ⟨c, _, rfl⟩ := hx
        obtain ⟨c', _, h⟩ := hx'
        exact hab (congrArg Prod.fst h).symm
    refine Sched.exec_of_mem _ _ _ _ (((w.sched_perm _).map Prod.fst).nodup_iff.2 hnd) ?_
    rw [(w.sched_perm _).mem_iff, List.mem_flatMap]
    exact ⟨i, List.mem_finRange i, List.mem_map.2 ⟨j, List.mem_finRange j, rfl⟩⟩

omit [IsStrictOrderedRing K] in
theorem mpRow_eq {s : ℕ} (nPts : ℕ) (d : Fin s → Fin s → K) (dq : Fin s → K) (j : Fin s) :
    mpRow nPts (Np.fillDiagonal (fun a b => (XR.fin (d a b) : XR K)) .pinf) (fun b => .fin (dq b)) j =
      1 - ((Finset.univ.filter (fun x => dq j < dq x ∧ dq j < d j x)).card : K) / nPts := by
  unfold mpRow
  rw [Np.countTrue_eq_card]
  congr 4
  ext x
  rw [Finset.mem_filter, Finset.mem_filter, Bool.and_eq_true, decide_eq_true_eq, decide_eq_true_eq, Np.fillDiagonal]
  by_cases h : j.val = x.val
  · have : j = x := Fin.ext h
    subst this
    simp [XR.flt]
  · rw [if_neg h]; simp [XR.flt]

/-- What a successful call computed. -/
theorem suqhrMP_char {P : Type} (w : World K) (dist : String → P → P → K) (metric : String) (smp : Sampling)
    (nSamples : ℕ) (nJobs : ℤ) {n t : ℕ} (X : Fin n → P) (T : Fin t → P) (out : Out K t n)
    (h : suqhrMP w dist metric smp nSamples nJobs X T = .ok out) :
    vantage w (fun i j => dist metric (X i) (X j)) metric smp nSamples = .ok out.ind ∧ VMetric metric ∧
      (∀ i j, out.dist i j = .fin (Spec.empiricMP (fun b => dist metric (T i) (X (out.ind.get b)))
        (fun a b => dist metric (X (out.ind.get a)) (X (out.ind.get b))) j)) ∧
      out.sparse = toSparse out.dist (fun _ c => out.ind.get c) := by
  unfold suqhrMP at h
  simp only [bind, Except.bind] at h
  cases h1 : vantage w (fun i j => dist metric (X i) (X j)) metric smp nSamples with
  | error e => rw [h1] at h; cases h
  | ok ind =>
    rw [h1] at h
    have hlen := vantage_length _ _ _ _ _ _ h1
    by_cases hm : metric ≠ "sqeuclidean" ∧ metric ≠ "cosine"
    · simp only [if_pos hm] at h; cases h
    · simp only [if_neg hm, pure, Except.pure] at h
      cases h
      refine ⟨rfl, ?_, ?_, rfl⟩
      · by_contra hc; exact hm (by simpa [VMetric, not_or] using hc)
      · intro i j
        rw [mpMatrix_eq]
        simp only
        rw [mpRow_eq, Spec.empiricMP, ← hlen]

/-- C120: with fixed vantage points the secondary distance is Mutual Proximity with respect to the vantage points, for
every sampling method, number of processes and scheduling. -/
theorem C120_formula {P : Type} (w : World K) (dist : String → P → P → K) (metric : String) (smp : Sampling)
    (nSamples : ℕ) (nJobs : ℤ) {n t : ℕ} (X : Fin n → P) (T : Fin t → P) (out : Out K t n)
    (h : suqhrMP w dist metric smp nSamples nJobs X T = .ok out) (i : Fin t) (j : Fin out.ind.length) :
    out.dist i j = .fin (Spec.empiricMP (fun b => dist metric (T i) (X (out.ind.get b)))
        (fun a b => dist metric (X (out.ind.get a)) (X (out.ind.get b))) j) :=
  (suqhrMP_char w dist metric smp nSamples nJobs X T out h).2.2.1 i j

/-- C120: the call succeeds for reasonable parameters; the vantage points are all objects or as many as requested. -/
theorem C120_total {P : Type} (w : World K) (dist : String → P → P → K) (hd : ∀ m p q, 0 ≤ dist m p q)
    (metric : String) (hm : VMetric metric) (smp : Sampling) (nSamples : ℕ) (nJobs : ℤ) {n t : ℕ} (hn : 0 < n)
    (hr : smp = .random → nSamples < n) (hk : smp = .kmeanspp → 0 < nSamples) (X : Fin n → P) (T : Fin t → P) :
    ∃ out, suqhrMP w dist metric smp nSamples nJobs X T = .ok out ∧
      out.ind.length = (if smp = .all then n else nSamples) ∧ (smp = .all → out.ind = List.finRange n) := by
  have hv : ∃ ind, vantage w (fun i j => dist metric (X i) (X j)) metric smp nSamples = .ok ind ∧
      (smp = .all → ind = List.finRange n) := by
    cases smp with
    | random => exact ⟨_, dif_pos (hr rfl), by simp⟩
    | kmeanspp =>
      obtain ⟨ind, hi, _⟩ := C116_total hn (fun i j => dist metric (X i) (X j)) (fun i j => hd _ _ _) metric hm.k
        nSamples (hk rfl) w.rand (w.trials nSamples) (w.trials_pos _)
      exact ⟨ind, hi, by simp⟩
    | all => exact ⟨_, rfl, fun _ => rfl⟩
  obtain ⟨ind, hi, hall⟩ := hv
  have hm' : ¬ (metric ≠ "sqeuclidean" ∧ metric ≠ "cosine") := by
    rcases hm with h | h <;> simp [h]
  have hok : ∃ out : Out K t n, suqhrMP w dist metric smp nSamples nJobs X T = .ok out ∧ out.ind = ind := by
    unfold suqhrMP
    rw [hi]
    simp only [bind, Except.bind, if_neg hm']
    exact ⟨_, rfl, rfl⟩
  obtain ⟨out, ho, rfl⟩ := hok
  exact ⟨out, ho, vantage_length _ _ _ _ _ _ hi, hall⟩

/-- C120: all values are in the unit interval, and at least the reciprocal of the number of vantage points. -/
theorem C120_range {P : Type} (w : World K) (dist : String → P → P → K) (metric : String) (smp : Sampling)
    (nSamples : ℕ) (nJobs : ℤ) {n t : ℕ} (X : Fin n → P) (T : Fin t → P) (out : Out K t n)
    (h : suqhrMP w dist metric smp nSamples nJobs X T = .ok out) (i : Fin t) (j : Fin out.ind.length) :
    ∃ v, out.dist i j = .fin v ∧ 1 / (out.ind.length : K) ≤ v ∧ v ≤ 1 := by
  refine ⟨_, C120_formula w dist metric smp nSamples nJobs X T out h i j, ?_, ?_⟩
  · unfold Spec.empiricMP
    set S := Finset.univ.filter (fun x : Fin out.ind.length =>
        dist metric (T i) (X (out.ind.get j)) < dist metric (T i) (X (out.ind.get x)) ∧
        dist metric (T i) (X (out.ind.get j)) < dist metric (X (out.ind.get j)) (X (out.ind.get x))) with hS
    have hj : j ∉ S := by simp [hS]
    have hc : S.card + 1 ≤ out.ind.length := by
      have := Finset.card_lt_univ_of_notMem hj
      simpa using this
    have h0 : (0 : K) < out.ind.length := by
      have : 0 < out.ind.length := by omega
      exact_mod_cast this
    rw [div_le_iff₀ h0, sub_mul, one_mul, div_mul_cancel₀ _ h0.ne']
    have : (S.card : K) + 1 ≤ out.ind.length := by exact_mod_cast hc
    linarith
  · unfold Spec.empiricMP
    have : (0 : K) ≤ ((Finset.univ.filter (fun x : Fin out.ind.length =>
        dist metric (T i) (X (out.ind.get j)) < dist metric (T i) (X (out.ind.get x)) ∧
        dist metric (T i) (X (out.ind.get j)) < dist metric (X (out.ind.get j)) (X (out.ind.get x)))).card : K) /
          out.ind.length := by positivity
    linarith

/-- C120: metric `'precomputed'` is accepted by the constructor, but the transformation raises `ValueError`. -/
theorem C120_precomputed {P : Type} (w : World K) (dist : String → P → P → K) (smp : Sampling) (nSamples : ℕ)
    (nJobs : ℤ) {n t : ℕ} (X : Fin n → P) (T : Fin t → P) (out : Out K t n) :
    suqhrMP w dist "precomputed" smp nSamples nJobs X T ≠ .ok out := by
  intro h
  rcases (suqhrMP_char w dist _ smp nSamples nJobs X T out h).2.1 with h | h <;> simp at h

/-- C121: the estimator computes the same numbers as `mutual_proximity_empiric` of the toolbox, applied to the matrix
of distances of all objects to the vantage points, with the test objects as `test_ind`. -/
theorem C121_agrees {P : Type} (w : World K) (dist : String → P → P → K) (metric : String) (smp : Sampling)
    (nSamples : ℕ) (nJobs : ℤ) {N n t : ℕ} (Z : Fin N → P) (tr : Fin n → Fin N) (te : Fin t → Fin N)
    (hdis : ∀ a b, tr a ≠ te b) (out : Out K t n)
    (h : suqhrMP w dist metric smp nSamples nJobs (fun a => Z (tr a)) (fun b => Z (te b)) = .ok out)
    (hs : out.ind.length ≤ N) :
    MPEmp.sample (.mat false N out.ind.length
        (fun a j => (.fin (dist metric (Z a) (Z (tr (out.ind.get j)))) : XR K)))
        (fun j => ((tr (out.ind.get j)).val : ℤ)) "distance" (some ⟨t, fun r => ((te r).val : ℤ)⟩) =
      .ok (.sampled t out.ind.length out.dist) := by
  rw [MPEmp.sample_some _ (fun j => tr (out.ind.get j)) te "distance" (Or.inl rfl) hs]
  congr 2
  funext i j
  rw [C120_formula w dist metric smp nSamples nJobs _ _ out h i j, MPEmp.sampleCore_apply,
    if_neg (fun hc => hdis _ _ hc.symm), if_pos (List.mem_ofFn' .. |>.2 ⟨i, rfl⟩), MPEmp.entry_distance,
    Spec.empiricMP]
  congr 4
  refine congrArg Finset.card (Finset.filter_congr (fun x _ => ?_))
  simp only [MPEmp.excl, MPEmp.excludeValue]
  rw [if_neg (fun hc => hdis _ _ hc.symm)]
  by_cases h2 : tr (out.ind.get j) = tr (out.ind.get x)
  · rw [h2]; simp [XR.flt]
  · rw [if_neg h2]; simp [XR.flt]

/-! ### Sparse result -/

omit [IsStrictOrderedRing K] in
theorem add_zero_left' (a : XR K) : XR.add (.fin 0) a = a := by cases a <;> simp [XR.add]

omit [IsStrictOrderedRing K] in
theorem toSparse_of_inj {t s n : ℕ} (D : Fin t → Fin s → XR K) (ind : Fin t → Fin s → Fin n) (i : Fin t)
    (hinj : Function.Injective (ind i)) (c : Fin s) : toSparse D ind i (ind i c) = D i c := by
  have : (List.finRange s).filter (fun c' => decide (ind i c' = ind i c)) = [c] := by
    have h1 : (List.finRange s).filter (fun c' => decide (ind i c' = ind i c)) =
        (List.finRange s).filter (fun c' => c' == c) := by
      refine List.filter_congr (fun x _ => ?_)
      by_cases h : x = c <;> simp [hinj.eq_iff, h]
    rw [h1, List.filter_beq, List.count_eq_one_of_mem (List.nodup_finRange s) (List.mem_finRange c)]
    rfl
  unfold toSparse
  rw [this]
  exact add_zero_left' _

omit [IsStrictOrderedRing K] in
theorem toSparse_of_notMem {t s n : ℕ} (D : Fin t → Fin s → XR K) (ind : Fin t → Fin s → Fin n) (i : Fin t)
    (x : Fin n) (hx : ∀ c, ind i c ≠ x) : toSparse D ind i x = .fin 0 := by
  have : (List.finRange s).filter (fun c' => decide (ind i c' = x)) = [] := by
    rw [List.filter_eq_nil_iff]
    simp [hx]
  unfold toSparse
  rw [this]; rfl

/-- C122 holds if no vantage point was selected twice: `sec_dist_sparse_` contains the distances of `sec_dist_` at the
columns of the vantage points, and nothing else. -/
theorem C122_sparse_partial {P : Type} (w : World K) (dist : String → P → P → K) (metric : String) (smp : Sampling)
    (nSamples : ℕ) (nJobs : ℤ) {n t : ℕ} (X : Fin n → P) (T : Fin t → P) (out : Out K t n)
    (h : suqhrMP w dist metric smp nSamples nJobs X T = .ok out) (hnd : out.ind.Nodup) (i : Fin t) :
    (∀ c, out.sparse i (out.ind.get c) = out.dist i c) ∧ ∀ x, x ∉ out.ind → out.sparse i x = .fin 0 := by
  rw [(suqhrMP_char w dist metric smp nSamples nJobs X T out h).2.2.2]
  constructor
  · intro c
    exact toSparse_of_inj _ (fun _ c => out.ind.get c) i (List.nodup_iff_injective_get.1 hnd) c
  · intro x hx
    refine toSparse_of_notMem _ _ i x (fun c hc => hx ?_)
    rw [← hc]; exact List.get_mem _ _

/-- C122 for random sampling and without sampling: no further condition is necessary. -/
theorem C122_random_partial {P : Type} (w : World K) (dist : String → P → P → K) (metric : String) (smp : Sampling)
    (hs : smp ≠ .kmeanspp) (nSamples : ℕ) (nJobs : ℤ) {n t : ℕ} (X : Fin n → P) (T : Fin t → P) (out : Out K t n)
    (h : suqhrMP w dist metric smp nSamples nJobs X T = .ok out) (i : Fin t) :
    (∀ c, out.sparse i (out.ind.get c) = out.dist i c) ∧ ∀ x, x ∉ out.ind → out.sparse i x = .fin 0 := by
  refine C122_sparse_partial w dist metric smp nSamples nJobs X T out h ?_ i
  have hv := (suqhrMP_char w dist metric smp nSamples nJobs X T out h).1
  cases smp with
  | random =>
    simp only [vantage] at hv
    split at hv
    · rw [← Except.ok.inj hv]
      exact List.nodup_ofFn.2 (w.shuffle_inj _)
    · cases hv
  | kmeanspp => exact absurd rfl hs
  | all => rw [← Except.ok.inj hv]; exact List.nodup_finRange n

/-- Something to instantiate the theorems with: no shuffling, the same random number every time, workers in order. -/
def plainWorld (u : ℚ) (h0 : 0 ≤ u) (h1 : u < 1) : World ℚ where
  shuffle h := fun c => c.castLE h.le
  shuffle_inj h := fun a b hab => by simpa using hab
  rand := constRand u h0 h1
  trials _ := 2
  trials_pos _ := by decide
  sched l := l
  sched_perm _ := List.Perm.refl _

/-- Points on the line with squared differences as distance. -/
def sqd : String → ℚ → ℚ → ℚ := fun _ p q => (p - q) ^ 2

/-- Evaluate a call and check the result. -/
def okAnd {α : Type} (x : Py α) (p : α → Bool) : Bool :=
  match x with
  | .ok a => p a
  | .error _ => false

theorem of_okAnd {α : Type} {x : Py α} {p : α → Bool} (h : okAnd x p = true) : ∃ a, x = .ok a ∧ p a = true := by
  cases x with
  | ok a => exact ⟨a, rfl, h⟩
  | error e => cases h

/-- C122 is violated: if `kmeans++` selects a point twice, its distance is counted twice. -/
theorem C122_violated : ∃ (w : World ℚ) (out : Out ℚ 1 2),
    suqhrMP w sqd "sqeuclidean" .kmeanspp 2 1 (![0, 1] : Fin 2 → ℚ) (![5] : Fin 1 → ℚ) = .ok out ∧
      ∃ c, out.dist 0 c = .fin 1 ∧ out.sparse 0 (out.ind.get c) = .fin 2 := by
  obtain ⟨out, h, hp⟩ := of_okAnd (p := fun out : Out ℚ 1 2 => decide (∃ c, out.dist 0 c = .fin 1 ∧
    out.sparse 0 (out.ind.get c) = .fin 2)) (x := suqhrMP (plainWorld 0 le_rfl one_pos) sqd "sqeuclidean" .kmeanspp 2 1
      (![0, 1] : Fin 2 → ℚ) (![5] : Fin 1 → ℚ)) (by decide +kernel)
  exact ⟨_, out, h, of_decide_eq_true hp⟩

-- The hypotheses can be met: three of four points as vantage points, values strictly inside the unit interval.
example : ∃ out : Out ℚ 1 4, suqhrMP (plainWorld 0 le_rfl one_pos) sqd "sqeuclidean" .random 3 1
    (![0, 1, 4, 10] : Fin 4 → ℚ) (![2] : Fin 1 → ℚ) = .ok out ∧
      List.ofFn (out.dist 0) = [.fin 1, .fin (2/3), .fin 1] := by
  obtain ⟨out, h, hp⟩ := of_okAnd (p := fun out : Out ℚ 1 4 => decide (List.ofFn (out.dist 0) =
    [.fin 1, .fin (2/3), .fin 1])) (x := suqhrMP (plainWorld 0 le_rfl one_pos) sqd "sqeuclidean" .random 3 1
      (![0, 1, 4, 10] : Fin 4 → ℚ) (![2] : Fin 1 → ℚ)) (by decide +kernel)
  exact ⟨out, h, of_decide_eq_true hp⟩

example : ∀ a b, (![0, 1, 2, 3] : Fin 4 → Fin 5) a ≠ (![4] : Fin 1 → Fin 5) b := by decide

end HubToolbox.Approx
