import Verif.Approx.LocalModel
import Verif.Approx.LocalRadii
import Verif.LS.Scale
import Verif.Cent.Local

/-!
# The unit of the data does not change what `SuQHR` computes

If all distances get multiplied by a positive number, then the same vantage points are selected, the secondary distances
of Mutual Proximity (empirical and Gaussian), local scaling and NICDM stay the same, and those without hubness reduction
and of DisSim Local get multiplied by the same number.
-/

set_option autoImplicit false

namespace HubToolbox

namespace Spec

/-- A selection algorithm which looks at the values only by comparing them. -/
def ByOrder (o : ArgPart (XR ℝ)) : Prop :=
  ∀ {m r : ℕ} (v v' : Fin m → XR ℝ) (kth : Fin r → Fin m), (∀ a b, v a ≤ v b ↔ v' a ≤ v' b) → o.run v kth = o.run v' kth

end Spec

/-- Hypothesis check: a complete stable sort compares values only. -/
theorem byOrder_ofInsertion : Spec.ByOrder (ArgPart.ofInsertion (XR ℝ)) := by
  intro m r v v' kth h
  have hs : sortPerm v = sortPerm v' := by
    unfold sortPerm
    have : (fun a b => v a ≤ v b) = fun a b => v' a ≤ v' b := by
      funext a b
      exact propext (h a b)
    congr 1
  apply Equiv.ext
  intro p
  show (sortPerm v)[p.val]'_ = (sortPerm v')[p.val]'_
  congr 1

namespace Approx

section Vantage

variable {K : Type} [Field K] [LinearOrder K] [IsStrictOrderedRing K]

theorem cumsum_scale (c : K) {n : ℕ} (w : Fin n → K) (j : Fin n) :
    Np.cumsum (fun i => c * w i) j = c * Np.cumsum w j := by
  unfold Np.cumsum
  rw [Finset.mul_sum]

theorem candidate_scale {c : K} (hc : 0 < c) {n : ℕ} (w : Fin n → K) (u : K) :
    candidate (fun i => c * w i) u = candidate w u := by
  have : Np.searchLeft (Np.cumsum (fun i => c * w i)) (u * ∑ i, c * w i) = Np.searchLeft (Np.cumsum w) (u * ∑ i, w i) := by
    unfold Np.searchLeft
    congr 1
    funext i
    rw [cumsum_scale, ← Finset.mul_sum, mul_left_comm]
    exact decide_eq_decide.2 (mul_lt_mul_iff_right₀ hc)
  unfold candidate
  simp only [this]

/-- The state of the search in the new unit. -/
def scaleBest (c : K) {n : ℕ} (b : Best K n) : Best K n := b.map (fun p => (p.1, c * p.2.1, fun x => c * p.2.2 x))

theorem trial_scale {c : K} (hc : 0 < c) {n : ℕ} (d : Fin n → Fin n → K) (closest : Fin n → K) (b : Best K n)
    (cand : Fin n) : trial (fun i j => c * d i j) (fun x => c * closest x) (scaleBest c b) cand =
      scaleBest c (trial d closest b cand) := by
  have hmin : (fun x => min (c * closest x) (c * d cand x)) = fun x => c * min (closest x) (d cand x) := by
    funext x
    rw [mul_min_of_nonneg _ _ hc.le]
  unfold trial
  simp only [hmin, ← Finset.mul_sum]
  cases b with
  | none => rfl
  | some p =>
    obtain ⟨b, bp, bd⟩ := p
    simp only [scaleBest, Option.map_some]
    by_cases h : ∑ x, min (closest x) (d cand x) < bp
    · rw [if_pos h, if_pos ((mul_lt_mul_iff_right₀ hc).2 h)]
      rfl
    · rw [if_neg h, if_neg (fun h' => h ((mul_lt_mul_iff_right₀ hc).1 h'))]
      rfl

theorem foldl_trial_scale {c : K} (hc : 0 < c) {n : ℕ} (d : Fin n → Fin n → K) (closest : Fin n → K) (l : List (Fin n))
    (b : Best K n) : l.foldl (trial (fun i j => c * d i j) (fun x => c * closest x)) (scaleBest c b) =
      scaleBest c (l.foldl (trial d closest) b) := by
  induction l generalizing b with
  | nil => rfl
  | cons x l ih => rw [List.foldl_cons, List.foldl_cons, trial_scale hc, ih]

theorem nextCentre_scale {c : K} (hc : 0 < c) {n : ℕ} (d : Fin n → Fin n → K) (r : Rand K) (trials m : ℕ)
    (closest : Fin n → K) : nextCentre (fun i j => c * d i j) r trials m (fun x => c * closest x) =
      (nextCentre d r trials m closest).map (fun p => (p.1, fun x => c * p.2 x)) := by
  unfold nextCentre
  simp only [candidate_scale hc]
  cases Np.tabulateM (fun t : Fin trials => candidate closest (r.sample m t)) with
  | error e => rfl
  | ok cands =>
    have h := foldl_trial_scale hc d closest (List.ofFn cands) none
    have hn : scaleBest c (none : Best K n) = none := rfl
    rw [hn] at h
    simp only [bind, Except.bind]
    rw [h]
    cases (List.ofFn cands).foldl (trial d closest) none with
    | none => rfl
    | some p => rfl

theorem centresFrom_scale {c : K} (hc : 0 < c) {n : ℕ} (d : Fin n → Fin n → K) (r : Rand K) (trials : ℕ) (k m : ℕ)
    (closest : Fin n → K) : centresFrom (fun i j => c * d i j) r trials k m (fun x => c * closest x) =
      centresFrom d r trials k m closest := by
  induction k generalizing m closest with
  | zero => rfl
  | succ k ih =>
    unfold centresFrom
    rw [nextCentre_scale hc]
    cases nextCentre d r trials m closest with
    | error e => rfl
    | ok p =>
      obtain ⟨b, cl⟩ := p
      simp only [bind, Except.bind, Except.map]
      rw [ih]

/-- C249, selection of vantage points: it does not depend on the unit. -/
theorem C249_vantage {c : K} (hc : 0 < c) (w : World K) {n : ℕ} (d : Fin n → Fin n → K) (metric : String) (smp : Sampling)
    (nSamples : ℕ) : vantage w (fun i j => c * d i j) metric smp nSamples = vantage w d metric smp nSamples := by
  cases smp with
  | random => rfl
  | all => rfl
  | kmeanspp =>
    unfold vantage kmeanspp
    dsimp only
    split
    · rfl
    · by_cases hn : 0 < n
      · simp only [dif_pos hn]
        cases nSamples with
        | zero => rfl
        | succ k =>
          dsimp only
          rw [centresFrom_scale hc]
      · simp only [dif_neg hn]

theorem flt_scale {c : K} (hc : 0 < c) (a b : K) :
    (XR.flt (.fin (c * a)) (.fin (c * b)) : Prop) ↔ XR.flt (.fin a : XR K) (.fin b) := by
  show c * a < c * b ↔ a < b
  exact mul_lt_mul_iff_right₀ hc

theorem mpRow_scale {c : K} (hc : 0 < c) {s : ℕ} (nPts : ℕ) (D : Fin s → Fin s → K) (d : Fin s → K) (j : Fin s) :
    mpRow nPts (Np.fillDiagonal (fun a b => (.fin (c * D a b) : XR K)) .pinf) (fun b => .fin (c * d b)) j =
      mpRow nPts (Np.fillDiagonal (fun a b => (.fin (D a b) : XR K)) .pinf) (fun b => .fin (d b)) j := by
  unfold mpRow
  have : (fun x => decide (XR.flt (.fin (c * d j) : XR K) (.fin (c * d x))) && decide (XR.flt (.fin (c * d j))
      (Np.fillDiagonal (fun a b => (.fin (c * D a b) : XR K)) .pinf j x))) =
      fun x => decide (XR.flt (.fin (d j) : XR K) (.fin (d x))) && decide (XR.flt (.fin (d j))
      (Np.fillDiagonal (fun a b => (.fin (D a b) : XR K)) .pinf j x)) := by
    funext x
    congr 1
    · exact decide_eq_decide.2 (flt_scale hc _ _)
    · apply decide_eq_decide.2
      unfold Np.fillDiagonal
      split
      · exact Iff.rfl
      · exact flt_scale hc _ _
  rw [this]

theorem mpMatrix_scale {c : K} (hc : 0 < c) (w : World K) (nJobs : ℤ) (nPts : ℕ) {t s : ℕ} (D : Fin s → Fin s → K)
    (d : Fin t → Fin s → K) :
    mpMatrix w nJobs nPts (fun a b => .fin (c * D a b)) (fun i b => .fin (c * d i b)) =
      mpMatrix w nJobs nPts (fun a b => .fin (D a b)) (fun i b => .fin (d i b)) := by
  unfold mpMatrix
  simp only [mpRow_scale hc]

/-- C249, empirical Mutual Proximity: data in another unit give the same result. -/
theorem C249_mp {P : Type} {c : K} (hc : 0 < c) (w : World K) (dist : String → P → P → K) (metric : String) (smp : Sampling)
    (nSamples : ℕ) (nJobs : ℤ) {n t : ℕ} (X X' : Fin n → P) (T T' : Fin t → P)
    (hX : ∀ i j, dist metric (X' i) (X' j) = c * dist metric (X i) (X j))
    (hT : ∀ i j, dist metric (T' i) (X' j) = c * dist metric (T i) (X j)) :
    suqhrMP w dist metric smp nSamples nJobs X' T' = suqhrMP w dist metric smp nSamples nJobs X T := by
  unfold suqhrMP
  simp only [hX, hT, C249_vantage hc, mpMatrix_scale hc]

end Vantage

/-! ### The other hubness reduction methods -/

theorem nanmean_scale (c : ℝ) (l : List ℝ) : MPPar.nanmean (l.map (c * ·)) = XR.scale c (MPPar.nanmean l) := by
  unfold MPPar.nanmean
  by_cases h : l = []
  · subst h; rfl
  · rw [if_neg h, if_neg (by simpa using h), List.sum_map_mul_left, List.map_id', List.length_map]
    show XR.fin _ = XR.fin _
    rw [mul_div_assoc]

theorem nanvar_scale (c : ℝ) (l : List ℝ) : MPPar.nanvar 0 (l.map (c * ·)) = XR.scale (c * c) (MPPar.nanvar 0 l) := by
  unfold MPPar.nanvar
  rw [List.length_map]
  by_cases h : l.length ≤ 0
  · rw [if_pos h, if_pos h]; rfl
  · rw [if_neg h, if_neg h, List.sum_map_mul_left, List.map_id', List.map_map]
    have hs : (List.map ((fun x => (x - c * l.sum / ↑l.length) ^ 2) ∘ fun x => c * x) l).sum =
        c * c * (List.map (fun x => (x - l.sum / ↑l.length) ^ 2) l).sum := by
      rw [← List.sum_map_mul_left]
      congr 2
      funext x
      simp only [Function.comp]
      ring
    rw [hs, mul_div_assoc]
    rfl

theorem normSf_scale (F : MPPar.Dists) {c : ℝ} (hc : 0 < c) (x : ℝ) (m s : XR ℝ) :
    MPPar.normSf F (c * x) (XR.scale c m) (XR.scale c s) = MPPar.normSf F x m s := by
  unfold MPPar.normSf MPPar.normCdf
  cases m with
  | fin m =>
    cases s with
    | fin s =>
      show XR.sub _ (if 0 < c * s then _ else _) = XR.sub _ (if 0 < s then _ else _)
      by_cases h : 0 < s
      · rw [if_pos h, if_pos (mul_pos hc h), ← mul_sub, mul_div_mul_left _ _ hc.ne']
      · rw [if_neg h, if_neg (fun h' => h ((mul_pos_iff_of_pos_left hc).1 h'))]
    | _ => rfl
  | _ => rfl

theorem sd_scale {c : ℝ} (hc : 0 < c) (l : List ℝ) :
    XR.sqrt (MPPar.nanvar 0 (l.map (c * ·))) = XR.scale c (XR.sqrt (MPPar.nanvar 0 l)) := by
  rw [nanvar_scale, LS.sqrt_scale hc]

theorem colVals_scale (c : ℝ) {n : ℕ} (D : Fin n → Fin n → ℝ) (rows : List (Fin n)) (j : Fin n) :
    MPPar.colVals (fun a b => c * D a b) rows j = (MPPar.colVals D rows j).map (c * ·) := by
  unfold MPPar.colVals
  rw [List.map_map]
  rfl

theorem mpgMoments_scale {c : ℝ} (hc : 0 < c) (smp : Sampling) {s : ℕ} (D : Fin s → Fin s → ℝ) (j : Fin s) :
    mpgMoments smp (fun a b => c * D a b) j =
      (XR.scale c (mpgMoments smp D j).1, XR.scale c (mpgMoments smp D j).2) := by
  have hf : Np.fillDiagonal (fun a b => c * D a b) 0 j = fun b => c * Np.fillDiagonal D 0 j b := by
    funext b
    unfold Np.fillDiagonal
    split
    · rw [mul_zero]
    · rfl
  have hl : (List.finRange s).map (Np.fillDiagonal (fun a b => c * D a b) 0 j) =
      ((List.finRange s).map (Np.fillDiagonal D 0 j)).map (c * ·) := by
    rw [hf, List.map_map]
    rfl
  unfold mpgMoments
  by_cases h : smp = .all
  · simp only [if_pos h, colVals_scale, nanmean_scale, sd_scale hc]
  · simp only [if_neg h, hl, nanmean_scale, sd_scale hc]

theorem mpgRow_scale (F : MPPar.Dists) {c : ℝ} (hc : 0 < c) {s : ℕ} (d : Fin s → ℝ) (mom : Fin s → XR ℝ × XR ℝ)
    (j : Fin s) : mpgRow F (fun b => c * d b) (fun b => (XR.scale c (mom b).1, XR.scale c (mom b).2)) j =
      mpgRow F d mom j := by
  have hl : (List.finRange s).map (fun b => c * d b) = ((List.finRange s).map d).map (c * ·) := by
    rw [List.map_map]
    rfl
  unfold mpgRow
  simp only [hl, nanmean_scale, sd_scale hc, normSf_scale F hc]

/-- C249, Gaussian Mutual Proximity. -/
theorem C249_mpg {P : Type} (F : MPPar.Dists) {c : ℝ} (hc : 0 < c) (w : World ℝ) (dist : String → P → P → ℝ)
    (metric : String) (smp : Sampling) (nSamples : ℕ) {n t : ℕ} (X X' : Fin n → P) (T T' : Fin t → P)
    (hX : ∀ i j, dist metric (X' i) (X' j) = c * dist metric (X i) (X j))
    (hT : ∀ i j, dist metric (T' i) (X' j) = c * dist metric (T i) (X j)) :
    suqhrMPG F w dist metric smp nSamples X' T' = suqhrMPG F w dist metric smp nSamples X T := by
  unfold suqhrMPG
  simp only [hX, hT, C249_vantage hc]
  cases vantage w (fun i j => dist metric (X i) (X j)) metric smp nSamples with
  | error e => rfl
  | ok ind =>
    simp only [bind, Except.bind]
    have hm : mpgMoments smp (fun a b : Fin ind.length => c * dist metric (X (ind.get a)) (X (ind.get b))) =
        fun j => (XR.scale c (mpgMoments smp (fun a b : Fin ind.length => dist metric (X (ind.get a)) (X (ind.get b))) j).1,
          XR.scale c (mpgMoments smp (fun a b : Fin ind.length => dist metric (X (ind.get a)) (X (ind.get b))) j).2) :=
      funext (fun j => mpgMoments_scale hc smp _ j)
    have hr : (fun i : Fin t => mpgRow F (fun b : Fin ind.length => c * dist metric (T i) (X (ind.get b)))
        (mpgMoments smp (fun a b : Fin ind.length => c * dist metric (X (ind.get a)) (X (ind.get b))))) =
        fun i : Fin t => mpgRow F (fun b : Fin ind.length => dist metric (T i) (X (ind.get b)))
        (mpgMoments smp (fun a b : Fin ind.length => dist metric (X (ind.get a)) (X (ind.get b)))) := by
      rw [hm]
      funext i j
      exact mpgRow_scale F hc _ _ j
    rw [hr]

/-- All entries of a result in the new unit. -/
noncomputable def _root_.HubToolbox.Spec.inUnit (c : ℝ) {t n : ℕ} (o : Out ℝ t n) : Out ℝ t n :=
  ⟨o.ind, fun i b => XR.mul (.fin c) (o.dist i b), fun i x => XR.mul (.fin c) (o.sparse i x)⟩

theorem toSparse_scale {c : ℝ} (hc : 0 < c) {t s n : ℕ} (D : Fin t → Fin s → XR ℝ) (ind : Fin t → Fin s → Fin n) :
    toSparse (fun i b => XR.mul (.fin c) (D i b)) ind = fun i x => XR.mul (.fin c) (toSparse D ind i x) := by
  funext i x
  unfold toSparse
  have key : ∀ (l : List (Fin s)) (a : XR ℝ), l.foldl (fun (acc : XR ℝ) (b : Fin s) => XR.add acc (XR.mul (.fin c) (D i b)))
      (XR.scale c a) = XR.scale c (l.foldl (fun (acc : XR ℝ) (b : Fin s) => XR.add acc (D i b)) a) := by
    intro l
    induction l with
    | nil => intro a; rfl
    | cons b l ih =>
      intro a
      rw [List.foldl_cons, List.foldl_cons, LS.mul_eq_scale hc, LS.add_scale, ih]
  have h0 : (XR.fin 0 : XR ℝ) = XR.scale c (.fin 0) := by
    show XR.fin 0 = XR.fin (c * 0)
    rw [mul_zero]
  rw [LS.mul_eq_scale hc, ← key, ← h0]

/-- C249, without hubness reduction: the distances get multiplied. -/
theorem C249_plain {P : Type} {c : ℝ} (hc : 0 < c) (w : World ℝ) (dist : String → P → P → ℝ) (metric : String)
    (hm : VMetric metric) (smp : Sampling) (nSamples : ℕ) {n t : ℕ} (X X' : Fin n → P) (T T' : Fin t → P)
    (hX : ∀ i j, dist metric (X' i) (X' j) = c * dist metric (X i) (X j))
    (hT : ∀ i j, dist metric (T' i) (X' j) = c * dist metric (T i) (X j)) :
    suqhrPlain w dist metric smp nSamples X' T' = (suqhrPlain w dist metric smp nSamples X T).map (Spec.inUnit c) := by
  unfold suqhrPlain
  have hm' : metric = "sqeuclidean" ∨ metric = "cosine" := hm
  simp only [if_pos hm', hX, hT, C249_vantage hc]
  cases vantage w (fun i j => dist metric (X i) (X j)) metric smp nSamples with
  | error e => rfl
  | ok ind =>
    simp only [bind, Except.bind, pure, Except.pure, Except.map, Spec.inUnit]
    rw [← toSparse_scale hc]
    rfl

theorem fin_scale (c x : ℝ) : (XR.fin (c * x) : XR ℝ) = XR.scale c (.fin x) := rfl

theorem scale_le_iff {c : ℝ} (hc : 0 < c) (a b : XR ℝ) : XR.scale c a ≤ XR.scale c b ↔ a ≤ b :=
  (LS.scale_strictMono hc).le_iff_le

theorem trainPart_scale {o : ArgPart (XR ℝ)} (ho : Spec.ByOrder o) {c : ℝ} (hc : 0 < c) {s : ℕ} (d : Fin s → XR ℝ) (k : ℕ) :
    trainPart o (fun b => XR.scale c (d b)) k = (trainPart o d k).map (fun r x => XR.scale c (r x)) := by
  unfold trainPart
  by_cases h : k < s
  · rw [dif_pos h, dif_pos h, ho (fun b => XR.scale c (d b)) d _ (fun a b => scale_le_iff hc _ _)]
    rfl
  · rw [dif_neg h, dif_neg h]
    rfl

theorem testPart_scale {o : ArgPart (XR ℝ)} (ho : Spec.ByOrder o) {c : ℝ} (hc : 0 < c) {s : ℕ} (d : Fin s → XR ℝ) (k : ℕ) :
    testPart o (fun b => XR.scale c (d b)) k = (testPart o d k).map (fun r x => XR.scale c (r x)) := by
  unfold testPart
  by_cases h : k - 1 < s
  · rw [dif_pos h, dif_pos h, ho (fun b => XR.scale c (d b)) d _ (fun a b => scale_le_iff hc _ _)]
    rfl
  · rw [dif_neg h, dif_neg h]
    rfl

theorem lsEntry_scale {c : ℝ} (hc : 0 < c) (nic : Bool) {k : ℕ} (d : XR ℝ) (r r' : Fin k → XR ℝ) :
    lsEntry nic (XR.scale c d) (fun x => XR.scale c (r x)) (fun x => XR.scale c (r' x)) = lsEntry nic d r r' := by
  unfold lsEntry
  cases nic with
  | true =>
    rw [if_pos rfl, if_pos rfl, LS.mean_scale hc, LS.mean_scale hc, LS.mul_scale hc, LS.sqrt_scale hc, LS.div_scale hc]
  | false =>
    rw [if_neg (by decide), if_neg (by decide)]
    have hl : ∀ r : Fin k → XR ℝ, lastOf (fun x => XR.scale c (r x)) = XR.scale c (lastOf r) := by
      intro r
      unfold lastOf
      split
      · rfl
      · rfl
    rw [hl, hl, LS.entry_scale hc]

theorem tabulateM_map {A B : Type} {n : ℕ} (f : Fin n → Py A) (g : A → B) :
    Np.tabulateM (fun i => (f i).map g) = (Np.tabulateM f).map (fun r i => g (r i)) :=
  Cent.tabulateM_congr_map f (fun _ => g)

/-- C249, local scaling and NICDM. -/
theorem C249_ls {P : Type} {o : ArgPart (XR ℝ)} (ho : Spec.ByOrder o) {c : ℝ} (hc : 0 < c) (w : World ℝ)
    (dist : String → P → P → ℝ) (metric : String) (smp : Sampling) (nSamples : ℕ) (nicdm : Bool) (k : ℕ) {n t : ℕ}
    (X X' : Fin n → P) (T T' : Fin t → P)
    (hX : ∀ i j, dist metric (X' i) (X' j) = c * dist metric (X i) (X j))
    (hT : ∀ i j, dist metric (T' i) (X' j) = c * dist metric (T i) (X j)) :
    suqhrLS w o dist metric smp nSamples nicdm k X' T' = suqhrLS w o dist metric smp nSamples nicdm k X T := by
  unfold suqhrLS
  simp only [hX, hT, C249_vantage hc, fin_scale, trainPart_scale ho hc, testPart_scale ho hc, tabulateM_map]
  cases vantage w (fun i j => dist metric (X i) (X j)) metric smp nSamples with
  | error e => rfl
  | ok ind =>
    simp only [bind, Except.bind]
    split
    · rfl
    · simp only [pure, Except.pure]
      cases Np.tabulateM (fun a : Fin ind.length =>
          trainPart o (fun b : Fin ind.length => .fin (dist metric (X (ind.get a)) (X (ind.get b)))) k) with
      | error e => rfl
      | ok rTrain =>
        simp only [Except.map]
        cases Np.tabulateM (fun i : Fin t =>
            testPart o (fun b : Fin ind.length => .fin (dist metric (T i) (X (ind.get b)))) k) with
        | error e => rfl
        | ok rTest => simp only [lsEntry_scale hc]

/-! ### Vectors in another unit -/

theorem sqDist_scale (a : ℝ) {f : ℕ} (x y : Fin f → ℝ) : sqDist (fun c => a * x c) (fun c => a * y c) = a ^ 2 * sqDist x y := by
  unfold sqDist
  rw [Finset.mul_sum]
  exact Finset.sum_congr rfl (fun c _ => by ring)

theorem centroidOf_scale (a : ℝ) {n f k : ℕ} (X : Fin n → Fin f → ℝ) (knn : Fin k → Fin n) :
    centroidOf (fun i c => a * X i c) knn = fun c => a * centroidOf X knn c := by
  funext c
  unfold centroidOf
  rw [← Finset.mul_sum, mul_div_assoc]

theorem trainKnn_scale {o : ArgPart (XR ℝ)} (ho : Spec.ByOrder o) {c : ℝ} (hc : 0 < c) {s : ℕ} (d : Fin s → XR ℝ) (k : ℕ) :
    trainKnn o (fun b => XR.scale c (d b)) k = trainKnn o d k := by
  unfold trainKnn
  by_cases h : k + 1 < s
  · rw [dif_pos h, dif_pos h, ho (fun b => XR.scale c (d b)) d _ (fun a b => scale_le_iff hc _ _)]
  · rw [dif_neg h, dif_neg h]

theorem testKnn_scale {o : ArgPart (XR ℝ)} (ho : Spec.ByOrder o) {c : ℝ} (hc : 0 < c) {s : ℕ} (d : Fin s → XR ℝ) (k : ℕ) :
    testKnn o (fun b => XR.scale c (d b)) k = testKnn o d k := by
  unfold testKnn
  by_cases h : k < s
  · rw [dif_pos h, dif_pos h, ho (fun b => XR.scale c (d b)) d _ (fun a b => scale_le_iff hc _ _)]
  · rw [dif_neg h, dif_neg h]

/-- C249, DisSim Local: vectors multiplied by `a` give results multiplied by the square of `a`. -/
theorem C249_dsl {o : ArgPart (XR ℝ)} (ho : Spec.ByOrder o) {a : ℝ} (ha : a ≠ 0) (w : World ℝ) (smp : Sampling)
    (nSamples k : ℕ) {n t f : ℕ} (X : Fin n → Fin f → ℝ) (T : Fin t → Fin f → ℝ) :
    suqhrDSL w o smp nSamples k (fun i c => a * X i c) (fun i c => a * T i c) =
      (suqhrDSL w o smp nSamples k X T).map (Spec.inUnit (a ^ 2)) := by
  have hc : 0 < a ^ 2 := by positivity
  unfold suqhrDSL
  simp only [sqDist_scale, C249_vantage hc, fin_scale, trainKnn_scale ho hc, testKnn_scale ho hc]
  cases vantage w (fun i j => sqDist (X i) (X j)) "sqeuclidean" smp nSamples with
  | error e => rfl
  | ok ind =>
    simp only [bind, Except.bind]
    cases Np.tabulateM (fun a : Fin ind.length =>
        trainKnn o (fun b : Fin ind.length => .fin (sqDist (X (ind.get a)) (X (ind.get b)))) k) with
    | error e => rfl
    | ok knnTrain =>
      simp only []
      cases Np.tabulateM (fun i : Fin t =>
          testKnn o (fun b : Fin ind.length => .fin (sqDist (T i) (X (ind.get b)))) k) with
      | error e => rfl
      | ok knnTest =>
        simp only [pure, Except.pure, Except.map, Spec.inUnit]
        rw [← toSparse_scale hc]
        have hD : (fun (i : Fin t) (b : Fin ind.length) => (XR.fin (a ^ 2 * sqDist (T i) (X (ind.get b)) -
            sqDist (fun c => a * T i c) (centroidOf (fun x c => a * X (ind.get x) c) (knnTest i)) -
            sqDist (fun c => a * X (ind.get b) c) (centroidOf (fun x c => a * X (ind.get x) c) (knnTrain b))) : XR ℝ)) =
            fun i b => XR.mul (.fin (a ^ 2)) (.fin (sqDist (T i) (X (ind.get b)) -
            sqDist (T i) (centroidOf (fun x => X (ind.get x)) (knnTest i)) -
            sqDist (X (ind.get b)) (centroidOf (fun x => X (ind.get x)) (knnTrain b)))) := by
          funext i b
          rw [centroidOf_scale a (fun x => X (ind.get x)), centroidOf_scale a (fun x => X (ind.get x)), sqDist_scale,
            sqDist_scale]
          show XR.fin _ = XR.fin _
          congr 1
          ring
        rw [hD]

/-- C249 for vectors with squared euclidean distances: empirical and Gaussian Mutual Proximity, local scaling and NICDM of
vectors in another unit. -/
theorem C249_vectors (F : MPPar.Dists) {o : ArgPart (XR ℝ)} (ho : Spec.ByOrder o) {a : ℝ} (ha : a ≠ 0) (w : World ℝ)
    (smp : Sampling) (nSamples : ℕ) (nJobs : ℤ) (nicdm : Bool) (k : ℕ) {n t f : ℕ} (X : Fin n → Fin f → ℝ)
    (T : Fin t → Fin f → ℝ) :
    suqhrMP w (fun _ => sqDist) "sqeuclidean" smp nSamples nJobs (fun i c => a * X i c) (fun i c => a * T i c) =
        suqhrMP w (fun _ => sqDist) "sqeuclidean" smp nSamples nJobs X T ∧
      suqhrMPG F w (fun _ => sqDist) "sqeuclidean" smp nSamples (fun i c => a * X i c) (fun i c => a * T i c) =
        suqhrMPG F w (fun _ => sqDist) "sqeuclidean" smp nSamples X T ∧
      suqhrLS w o (fun _ => sqDist) "sqeuclidean" smp nSamples nicdm k (fun i c => a * X i c) (fun i c => a * T i c) =
        suqhrLS w o (fun _ => sqDist) "sqeuclidean" smp nSamples nicdm k X T := by
  have hc : 0 < a ^ 2 := by positivity
  exact ⟨C249_mp hc w _ _ smp nSamples nJobs X _ T _ (fun i j => sqDist_scale a _ _) (fun i j => sqDist_scale a _ _),
    C249_mpg F hc w _ _ smp nSamples X _ T _ (fun i j => sqDist_scale a _ _) (fun i j => sqDist_scale a _ _),
    C249_ls ho hc w _ _ smp nSamples nicdm k X _ T _ (fun i j => sqDist_scale a _ _) (fun i j => sqDist_scale a _ _)⟩

/-- Hypothesis check: two numbers on a line in kilometres and in metres. -/
example : (∀ i j : Fin 2, (fun _ : String => fun p q : ℝ => (p - q) ^ 2) "sqeuclidean" (![1000, 3000] i) (![1000, 3000] j) =
      1000000 * (fun _ : String => fun p q : ℝ => (p - q) ^ 2) "sqeuclidean" (![1, 3] i) (![1, 3] j)) ∧
    Spec.ByOrder (ArgPart.ofInsertion (XR ℝ)) := by
  refine ⟨fun i j => ?_, byOrder_ofInsertion⟩
  fin_cases i <;> fin_cases j <;> norm_num

/-- The distances are not all zero, so the unit does matter without hubness reduction. -/
example (w : World ℝ) : ∃ out : Out ℝ 1 2, suqhrPlain (P := ℝ) w (fun _ p q => (p - q) ^ 2) "sqeuclidean" .all 0 ![1, 3] ![0] =
    .ok out ∧ ∃ b, out.dist 0 b = .fin 9 := by
  refine ⟨_, rfl, ⟨1, by decide⟩, ?_⟩
  show XR.fin ((![(0 : ℝ)] 0 - ![(1 : ℝ), 3] ((List.finRange 2).get ⟨1, by decide⟩)) ^ 2) = XR.fin 9
  have : (List.finRange 2).get ⟨1, by decide⟩ = (1 : Fin 2) := by decide
  rw [this]
  norm_num

end Approx
end HubToolbox
