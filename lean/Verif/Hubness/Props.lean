import Verif.Hubness.Unique
import Mathlib.Data.Rat.Defs
import Mathlib.Algebra.Order.Ring.Rat
import Mathlib.Algebra.Order.Group.Defs

/-!
# Properties C01–C08 of `hubness()`
-/

set_option autoImplicit false

namespace HubToolbox.Hubness
open Spec

variable {K : Type} [LinearOrder K] [Zero K]

/-- All calls except the serial one on a rectangular similarity matrix, which is the subject of C05. -/
def Covered (nJobs : ℤ) (metric : String) (n m : ℕ) : Prop :=
  ¬ (nJobs = 1 ∧ metric = "similarity" ∧ n ≠ m)

theorem reduceK_nonneg_iff (k : ℤ) (m : ℕ) : 0 ≤ reduceK k m ↔ 0 ≤ k ∧ 0 < m := by
  unfold reduceK; split <;> omega

theorem reduceK_eq_min (k : ℤ) (m : ℕ) : reduceK k m = min k ((m : ℤ) - 1) := by
  unfold reduceK; split <;> omega

/-- A successful call returns lists built from k-nearest-neighbour rows. -/
theorem hubnessMat_inv (o : ArgPart (XR K)) (rnd : Rnd) (sched : Schedule) {n m : ℕ}
    {sparse : Bool} {D : Fin n → Fin m → XR K} {k : ℤ} {metric : String} {nJobs : ℤ}
    {seed shuffle : Bool} (hc : Covered nJobs metric n m) {r : Res n}
    (h : hubnessMat o rnd sched sparse D k metric nJobs seed shuffle = .ok r) :
    (metric = "distance" ∨ metric = "similarity") ∧ 0 ≤ reduceK k m ∧
    ∃ L : Fin n → Fin (reduceK k m).toNat → Fin m,
      r = finish m (fun i c => (L i c).val) ∧
      ∀ i, IsKnn (closer metric) (effective metric D i) (reduceK k m).toNat (List.ofFn (L i)) := by
  by_cases hm : metric = "distance" ∨ metric = "similarity"
  swap
  · exfalso
    unfold hubnessMat at h
    split at h
    · rw [serial_bad _ _ _ _ _ _ _ (Or.inl hm)] at h; cases h
    · split at h
      · cases h
      · rw [parallel_bad _ _ _ _ _ _ _ _ _ (Or.inl hm)] at h; cases h
  by_cases hk : reduceK k m < 0
  · exfalso
    unfold hubnessMat at h
    split at h
    · rw [serial_bad _ _ _ _ _ _ _ (Or.inr hk)] at h; cases h
    · split at h
      · cases h
      · rw [parallel_bad _ _ _ _ _ _ _ _ _ (Or.inr (Or.inl hk))] at h; cases h
  refine ⟨hm, by omega, ?_⟩
  obtain ⟨L, hL, hknn⟩ := rows_exist o rnd sparse D k metric shuffle (by omega) hm
  refine ⟨L, ?_, hknn⟩
  unfold hubnessMat at h
  split at h
  · next hj =>
    have hsq : metric = "distance" ∨ n = m := by
      unfold Covered at hc
      rcases hm with hm | hm
      · exact Or.inl hm
      · right; by_contra hne; exact hc ⟨hj, hm, hne⟩
    rw [serial_eq_finish o rnd sparse D k metric shuffle (by omega) hm hsq _ hL] at h
    exact (Except.ok.inj h).symm
  · split at h
    · cases h
    · by_cases hj : nJobs ≠ -1 ∧ nJobs < 1
      · rw [parallel_bad _ _ _ _ _ _ _ _ _ (Or.inr (Or.inr hj))] at h; cases h
      · rw [parallel_eq_finish o rnd sched sparse D k metric nJobs shuffle (by omega) hm hj _ hL] at h
        exact (Except.ok.inj h).symm

/-- **C01 (when calls succeed).** A call raises exactly for an unknown metric, a negative `k`, a matrix without
columns, a non-positive number of jobs other than -1, or a seed combined with several jobs. -/
theorem C01_hubness_succeeds_iff (o : ArgPart (XR K)) (rnd : Rnd) (sched : Schedule) {n m : ℕ}
    (sparse : Bool) (D : Fin n → Fin m → XR K) (k : ℤ) (metric : String) (nJobs : ℤ)
    (seed shuffle : Bool) (hc : Covered nJobs metric n m) :
    (∃ r, hubnessMat o rnd sched sparse D k metric nJobs seed shuffle = .ok r) ↔
      (metric = "distance" ∨ metric = "similarity") ∧ 0 ≤ k ∧ 0 < m ∧
      (nJobs = 1 ∨ (seed = false ∧ (nJobs = -1 ∨ 1 ≤ nJobs))) := by
  constructor
  · rintro ⟨r, h⟩
    obtain ⟨hm, hk, -⟩ := hubnessMat_inv o rnd sched hc h
    rw [reduceK_nonneg_iff] at hk
    refine ⟨hm, hk.1, hk.2, ?_⟩
    unfold hubnessMat at h
    by_cases h1 : nJobs = 1
    · exact Or.inl h1
    · right
      rw [if_neg h1] at h
      cases seed
      · refine ⟨rfl, ?_⟩
        by_contra hj
        simp only [Bool.false_eq_true, if_false] at h
        rw [parallel_bad _ _ _ _ _ _ _ _ _ (Or.inr (Or.inr (by omega)))] at h
        cases h
      · simp at h
  · rintro ⟨hm, hk, hm0, hj⟩
    have hk' := (reduceK_nonneg_iff k m).2 ⟨hk, hm0⟩
    obtain ⟨L, hL, -⟩ := rows_exist o rnd sparse D k metric shuffle hk' hm
    unfold hubnessMat
    by_cases h1 : nJobs = 1
    · rw [if_pos h1]
      have hsq : metric = "distance" ∨ n = m := by
        unfold Covered at hc
        rcases hm with hm | hm
        · exact Or.inl hm
        · right; by_contra hne; exact hc ⟨h1, hm, hne⟩
      exact ⟨_, serial_eq_finish o rnd sparse D k metric shuffle hk' hm hsq _ hL⟩
    · rw [if_neg h1]
      have hj' : seed = false ∧ (nJobs = -1 ∨ 1 ≤ nJobs) := by tauto
      simp only [hj'.1, Bool.false_eq_true, if_false]
      exact ⟨_, parallel_eq_finish o rnd sched sparse D k metric nJobs shuffle hk' hm
        (by omega) _ hL⟩

/-- **C01.** Every row of `D_k` is a k-nearest-neighbour list with `min(k, m-1)` entries. -/
theorem C01_hubness_knn (o : ArgPart (XR K)) (rnd : Rnd) (sched : Schedule) {n m : ℕ}
    (sparse : Bool) (D : Fin n → Fin m → XR K) (k : ℤ) (metric : String) (nJobs : ℤ)
    (seed shuffle : Bool) (hc : Covered nJobs metric n m) (r : Res n)
    (h : hubnessMat o rnd sched sparse D k metric nJobs seed shuffle = .ok r) (i : Fin n) :
    ∃ L : List (Fin m), r.Dk i = L.map Fin.val ∧
      IsKnn (closer metric) (effective metric D i) (min k ((m : ℤ) - 1)).toNat L := by
  obtain ⟨-, -, L, rfl, hL⟩ := hubnessMat_inv o rnd sched hc h
  refine ⟨List.ofFn (L i), ?_, by rw [← reduceK_eq_min]; exact hL i⟩
  simp [finish, List.map_ofFn, Function.comp_def]

/-- **C01 (argument types).** Anything that is not a 2-D array raises `TypeError` (unless the seed check fires
first), a 2-D array is passed on. -/
theorem C01_hubness_argument (o : ArgPart (XR K)) (rnd : Rnd) (sched : Schedule) (k : ℤ)
    (metric : String) (nJobs : ℤ) (seed shuffle : Bool) (hs : ¬ (nJobs ≠ 1 ∧ seed = true)) :
    hubness o rnd sched (.noArray : PyMat (XR K)) k metric nJobs seed shuffle = .error .typeError ∧
    (∀ d (hd : d ≠ 2), hubness o rnd sched (.otherDim d hd : PyMat (XR K)) k metric nJobs seed
      shuffle = .error .typeError) ∧
    ∀ sparse n m (D : Fin n → Fin m → XR K),
      hubness o rnd sched (.mat sparse n m D) k metric nJobs seed shuffle
        = (hubnessMat o rnd sched sparse D k metric nJobs seed shuffle).map (fun r => ⟨n, r⟩) := by
  refine ⟨?_, ?_, ?_⟩
  · unfold hubness; rw [if_neg hs]; rfl
  · intro d hd; unfold hubness; rw [if_neg hs]; rfl
  · intro sparse n m D; unfold hubness; rw [if_neg hs]
    change (do
      let r ← hubnessMat o rnd sched sparse D k metric nJobs seed shuffle
      pure (⟨n, r⟩ : Σ n, Res n)) = _
    cases hubnessMat o rnd sched sparse D k metric nJobs seed shuffle <;> rfl

/-- **C02.** A point is not listed among its own neighbours when its row has at least `min(k, m-1)` finite
off-diagonal entries. -/
theorem C02_no_self_neighbour (o : ArgPart (XR K)) (rnd : Rnd) (sched : Schedule) {n : ℕ}
    (sparse : Bool) (D : Fin n → Fin n → XR K) (k : ℤ) (metric : String) (nJobs : ℤ)
    (seed shuffle : Bool) (r : Res n)
    (h : hubnessMat o rnd sched sparse D k metric nJobs seed shuffle = .ok r) (i : Fin n)
    (hfin : min k ((n : ℤ) - 1) ≤
      ((Finset.univ.filter (fun j => j ≠ i ∧ (D i j).isFinite = true)).card : ℤ)) :
    i.val ∉ r.Dk i := by
  have hc : Covered nJobs metric n n := by simp [Covered]
  obtain ⟨L, hL, hknn⟩ := C01_hubness_knn o rnd sched sparse D k metric nJobs seed shuffle hc r h i
  rw [hL]
  intro hmem
  obtain ⟨x, hx, hxi⟩ := List.mem_map.1 hmem
  have hxi' : x = i := Fin.ext hxi
  subst hxi'
  have hsub : insert x (Finset.univ.filter (fun j => j ≠ x ∧ (D x j).isFinite = true))
      ⊆ L.toFinset := by
    intro j hj
    rw [Finset.mem_insert] at hj
    rw [List.mem_toFinset]
    rcases hj with rfl | hj
    · exact hx
    · simp only [Finset.mem_filter, Finset.mem_univ, true_and] at hj
      by_contra hjL
      have hb := hknn.best x hx j hjL
      have hself : effective metric D x x = far metric := by simp [effective]
      have hoth : effective metric D x j = D x j := by
        have : x.val ≠ j.val := fun hc => hj.1 (Fin.ext hc.symm)
        simp [effective, this, hj.2]
      rw [hself, hoth] at hb
      obtain ⟨v, hv⟩ := XR.isFinite_iff.1 hj.2
      rw [hv] at hb
      unfold closer far at hb
      split at hb <;> simp at hb
  have hcard := Finset.card_le_card hsub
  rw [Finset.card_insert_of_notMem (by simp), List.toFinset_card_of_nodup hknn.distinct,
    hknn.length] at hcard
  omega

/-- **C03.** `N_k` counts, for every column, the rows whose list contains it; the counts are at most `n` and add
up to `n * min(k, m-1)`. -/
theorem C03_k_occurrence (o : ArgPart (XR K)) (rnd : Rnd) (sched : Schedule) {n m : ℕ}
    (sparse : Bool) (D : Fin n → Fin m → XR K) (k : ℤ) (metric : String) (nJobs : ℤ)
    (seed shuffle : Bool) (hc : Covered nJobs metric n m) (r : Res n)
    (h : hubnessMat o rnd sched sparse D k metric nJobs seed shuffle = .ok r) :
    r.Nk.length = m ∧
    (∀ j (hj : j < r.Nk.length), r.Nk[j] = occurrences r.Dk j ∧ r.Nk[j] ≤ n) ∧
    r.Nk.sum = n * (min k ((m : ℤ) - 1)).toNat := by
  obtain ⟨-, hk, L, rfl, hL⟩ := hubnessMat_inv o rnd sched hc h
  have hlt : ∀ x ∈ (List.finRange n).flatMap (fun i => List.ofFn (fun c => (L i c).val)), x < m := by
    intro x hx
    simp only [List.mem_flatMap, List.mem_ofFn'] at hx
    obtain ⟨i, -, c, rfl⟩ := hx
    exact (L i c).isLt
  have hnd : ∀ i, (List.ofFn (fun c => (L i c).val)).Nodup := by
    intro i
    have := (hL i).distinct.map Fin.val_injective
    simpa [List.map_ofFn, Function.comp_def] using this
  refine ⟨Np.bincount_length _ _ hlt, ?_, ?_⟩
  · intro j hj
    rw [finish_Nk_count, count_flatMap_nodup _ hnd]
    refine ⟨rfl, ?_⟩
    unfold occurrences
    exact (Finset.card_le_univ _).trans (by simp)
  · rw [← reduceK_eq_min]
    change (Np.bincount _ m).sum = _
    rw [sum_bincount _ _ hlt, List.length_flatMap]
    simp

/-- **C53.** `S_k` is the skewness of the k-occurrence counts around their mean, and that mean is
`n * min(k, m-1) / m`. -/
theorem C53_skewness (o : ArgPart (XR K)) (rnd : Rnd) (sched : Schedule) {n m : ℕ}
    (sparse : Bool) (D : Fin n → Fin m → XR K) (k : ℤ) (metric : String) (nJobs : ℤ)
    (seed shuffle : Bool) (hc : Covered nJobs metric n m) (r : Res n)
    (h : hubnessMat o rnd sched sparse D k metric nJobs seed shuffle = .ok r) :
    r.Sk = skewness (fun j : Fin m => (occurrences r.Dk j.val : ℝ))
      ((n * (min k ((m : ℤ) - 1)).toNat : ℕ) / (m : ℝ)) := by
  have C3 := C03_k_occurrence o rnd sched sparse D k metric nJobs seed shuffle hc r h
  have hSk : r.Sk = skew r.Nk := by
    obtain ⟨-, -, L, rfl, -⟩ := hubnessMat_inv o rnd sched hc h
    rfl
  have hN : r.Nk = List.ofFn (fun j : Fin m => occurrences r.Dk j.val) := by
    apply List.ext_getElem
    · simp [C3.1]
    · intro j h1 h2
      rw [(C3.2.1 j h1).1]
      simp
  have hmean : ((r.Nk.map (fun v : ℕ => (v : ℝ))).sum) = ((n * (min k ((m : ℤ) - 1)).toNat : ℕ) : ℝ) := by
    rw [← C3.2.2]
    exact (Nat.cast_list_sum r.Nk).symm
  have hV : 0 ≤ (∑ j : Fin m, ((occurrences r.Dk j.val : ℝ) -
      ((n * (min k ((m : ℤ) - 1)).toNat : ℕ) / (m : ℝ))) ^ 2) / m :=
    div_nonneg (Finset.sum_nonneg (fun _ _ => sq_nonneg _)) (Nat.cast_nonneg _)
  rw [hSk]
  unfold skew skewness
  simp only [hmean, C3.1]
  simp only [hN, List.map_ofFn, List.sum_ofFn, Function.comp_def]
  have hpow : ∀ x : ℝ, 0 ≤ x → x ^ (1.5 : ℝ) = √x ^ 3 := by
    intro x hx
    rw [Real.sqrt_eq_rpow, ← Real.rpow_natCast, ← Real.rpow_mul hx]
    norm_num
  rw [hpow _ hV]
  simp only [Real.sqrt_eq_zero hV]

/-- **C04.** For every schedule of the worker processes the parallel branch returns what the serial function
returns on the same random shuffles. -/
theorem C04_parallel_eq_serial (o : ArgPart (XR K)) (rnd : Rnd) (sched : Schedule) {n m : ℕ}
    (sparse : Bool) (D : Fin n → Fin m → XR K) (k : ℤ) (metric : String) (nJobs : ℤ)
    (shuffle : Bool) (hj : nJobs = -1 ∨ 2 ≤ nJobs) (hsq : metric = "distance" ∨ n = m) :
    hubnessMat o rnd sched sparse D k metric nJobs false shuffle
      = hubnessMat o rnd sched sparse D k metric 1 false shuffle := by
  have h1 : nJobs ≠ 1 := by omega
  unfold hubnessMat
  rw [if_neg h1, if_pos rfl]
  simp only [Bool.false_eq_true, if_false]
  by_cases hm : metric = "distance" ∨ metric = "similarity"
  · by_cases hk : reduceK k m < 0
    · rw [serial_bad _ _ _ _ _ _ _ (Or.inr hk), parallel_bad _ _ _ _ _ _ _ _ _ (Or.inr (Or.inl hk))]
    · obtain ⟨L, hL, -⟩ := rows_exist o rnd sparse D k metric shuffle (by omega) hm
      rw [parallel_eq_finish o rnd sched sparse D k metric nJobs shuffle (by omega) hm (by omega) _ hL,
        serial_eq_finish o rnd sparse D k metric shuffle (by omega) hm hsq _ hL]
  · rw [serial_bad _ _ _ _ _ _ _ (Or.inl hm), parallel_bad _ _ _ _ _ _ _ _ _ (Or.inl hm)]

/-- No two columns are equally far from any row. -/
def TieFree {n m : ℕ} (metric : String) (D : Fin n → Fin m → XR K) : Prop :=
  ∀ i, Function.Injective (effective metric D i)

theorem rows_determined {n m k : ℕ} {L L' : Fin n → Fin k → Fin m}
    (h : ∀ i, List.ofFn (L i) = List.ofFn (L' i)) : L = L' := by
  funext i
  exact List.ofFn_injective (h i)

/-- **C06.** Without ties the result is determined by the order of the distances: strictly increasing
transformations of the finite entries change nothing, whatever shuffles, selection algorithm and number of jobs
are used. On rectangular distance matrices zero entries have a meaning, so there `f` has to preserve zero. -/
theorem C06_order_only (o o' : ArgPart (XR K)) (rnd rnd' : Rnd) (sched sched' : Schedule) {n m : ℕ}
    (sparse sparse' : Bool) (D : Fin n → Fin m → XR K) (k : ℤ) (metric : String) (nJobs nJobs' : ℤ)
    (seed seed' shuffle shuffle' : Bool) (hc : Covered nJobs metric n m)
    (hc' : Covered nJobs' metric n m) (htf : TieFree metric D)
    (f : K → K) (hf : StrictMono f)
    (hf0 : n = m ∨ metric = "similarity" ∨ ∀ x, f x = 0 ↔ x = 0) (r r' : Res n)
    (h : hubnessMat o rnd sched sparse D k metric nJobs seed shuffle = .ok r)
    (h' : hubnessMat o' rnd' sched' sparse' (fun i j => (D i j).map f) k metric nJobs' seed' shuffle'
      = .ok r') : r = r' := by
  obtain ⟨hm, -, L, rfl, hL⟩ := hubnessMat_inv o rnd sched hc h
  obtain ⟨-, -, L', rfl, hL'⟩ := hubnessMat_inv o' rnd' sched' hc' h'
  have heff : ∀ i j, effective metric (fun i j => (D i j).map f) i j
      = (effective metric D i j).map f := by
    intro i j
    have hfar : (far metric : XR K).map f = far metric := by unfold far; split <;> rfl
    have h1 : ((D i j).map f).isFinite = (D i j).isFinite := by cases D i j <;> rfl
    unfold effective
    rw [h1]
    by_cases hA : n = m
    · by_cases hB : i.val = j.val
      · simp [hA, hB, hfar]
      · by_cases hC : (D i j).isFinite = false
        · simp [hC, hfar]
        · simp [hA, hB, hC]
    · by_cases hC : (D i j).isFinite = false
      · simp [hC, hfar]
      · by_cases hS : metric = "similarity"
        · simp [hA, hC, hS]
        · have h0 := (hf0.resolve_left hA).resolve_left hS
          have : (D i j).map f = .fin 0 ↔ D i j = .fin 0 := by
            cases D i j <;> simp [XR.map, h0]
          simp only [this]
          split <;> simp [hfar]
  have hmono : ∀ a b : XR K, closer metric (a.map f) (b.map f) → closer metric a b := by
    intro a b
    unfold closer
    split <;> cases a <;> cases b <;> simp [XR.map, hf.le_iff_le]
  congr 1
  have : L = L' := by
    apply rows_determined
    intro i
    apply (hL i).unique ((hL' i).congr (cl' := closer metric) (d' := effective metric D i) ?_)
    · intro a b h1 h2
      exact htf i (closer_anti h1 h2)
    · intro a b
      rw [heff, heff]
      exact hmono _ _
  rw [this]

theorem skew_perm {l l' : List ℕ} (h : l.Perm l') : skew l = skew l' := by
  unfold skew
  simp only [h.length_eq, (h.map (fun v : ℕ => (v : ℝ))).sum_eq]
  set mean := (l'.map (fun v : ℕ => (v : ℝ))).sum / (l'.length : ℝ)
  rw [(h.map (fun v : ℕ => ((v : ℝ) - mean) ^ 2)).sum_eq,
    (h.map (fun v : ℕ => ((v : ℝ) - mean) ^ 3)).sum_eq]

/-- **C07.** Relabelling the points of a tie-free square matrix relabels the neighbour lists and the
k-occurrences, and leaves the hubness unchanged. -/
theorem C07_relabelling (o o' : ArgPart (XR K)) (rnd rnd' : Rnd) (sched sched' : Schedule) {n : ℕ}
    (sparse sparse' : Bool) (D : Fin n → Fin n → XR K) (k : ℤ) (metric : String) (nJobs nJobs' : ℤ)
    (seed seed' shuffle shuffle' : Bool) (htf : TieFree metric D) (π : Equiv.Perm (Fin n))
    (r r' : Res n)
    (h : hubnessMat o rnd sched sparse D k metric nJobs seed shuffle = .ok r)
    (h' : hubnessMat o' rnd' sched' sparse' (fun i j => D (π i) (π j)) k metric nJobs' seed' shuffle'
      = .ok r') :
    (∀ i j : Fin n, j.val ∈ r'.Dk i ↔ (π j).val ∈ r.Dk (π i)) ∧
    (∀ i : Fin n, ∃ L : List (Fin n), r'.Dk i = L.map Fin.val ∧
      r.Dk (π i) = (L.map π).map Fin.val) ∧
    (∀ j : Fin n, r'.Nk[j.val]? = r.Nk[(π j).val]?) ∧ r'.Sk = r.Sk := by
  have hc : Covered nJobs metric n n := by simp [Covered]
  have hc' : Covered nJobs' metric n n := by simp [Covered]
  have C3 := C03_k_occurrence o rnd sched sparse D k metric nJobs seed shuffle hc r h
  have C3' := C03_k_occurrence o' rnd' sched' sparse' _ k metric nJobs' seed' shuffle' hc' r' h'
  have hlists : ∀ i : Fin n, ∃ L : List (Fin n), r'.Dk i = L.map Fin.val ∧
      r.Dk (π i) = (L.map π).map Fin.val := by
    intro i
    obtain ⟨L, hL, hk⟩ := C01_hubness_knn o rnd sched sparse D k metric nJobs seed shuffle hc r h (π i)
    obtain ⟨L', hL', hk'⟩ :=
      C01_hubness_knn o' rnd' sched' sparse' _ k metric nJobs' seed' shuffle' hc' r' h' i
    refine ⟨L', hL', ?_⟩
    have heff : ∀ j, effective metric (fun i j => D (π i) (π j)) i j
        = effective metric D (π i) (π j) := by
      intro j
      unfold effective
      have : (i.val = j.val) ↔ ((π i).val = (π j).val) := by
        rw [← Fin.ext_iff, ← Fin.ext_iff, π.injective.eq_iff]
      simp [this]
    have := hk.map π
    have heq : L' = L.map π.symm := by
      refine hk'.unique (this.congr ?_) ?_
      · intro a b; rw [heff, heff]; exact id
      · intro a b h1 h2
        rw [heff, heff] at h1 h2
        exact π.injective (htf (π i) (closer_anti h1 h2))
    rw [hL, heq]
    simp
  have hmem : ∀ i j : Fin n, j.val ∈ r'.Dk i ↔ (π j).val ∈ r.Dk (π i) := by
    intro i j
    obtain ⟨L, h1, h2⟩ := hlists i
    rw [h1, h2]
    simp [Fin.val_inj]
  have hN : ∀ j : Fin n, r'.Nk[j.val]? = r.Nk[(π j).val]? := by
    intro j
    have hj : j.val < r'.Nk.length := by rw [C3'.1]; exact j.isLt
    have hj' : (π j).val < r.Nk.length := by rw [C3.1]; exact (π j).isLt
    rw [List.getElem?_eq_getElem hj, List.getElem?_eq_getElem hj', (C3'.2.1 _ hj).1, (C3.2.1 _ hj').1]
    congr 1
    unfold occurrences
    refine Finset.card_bij (fun i _ => π i) ?_ ?_ ?_
    · intro i hi; simp only [Finset.mem_filter, Finset.mem_univ, true_and] at hi ⊢
      exact (hmem i j).1 hi
    · intro a _ b _ hab; exact π.injective hab
    · intro b hb
      simp only [Finset.mem_filter, Finset.mem_univ, true_and] at hb
      refine ⟨π.symm b, ?_, by simp⟩
      simp only [Finset.mem_filter, Finset.mem_univ, true_and]
      rw [hmem]; simpa using hb
  refine ⟨hmem, hlists, hN, ?_⟩
  have hSk : r.Sk = skew r.Nk := by
    obtain ⟨-, -, L, rfl, -⟩ := hubnessMat_inv o rnd sched hc h; rfl
  have hSk' : r'.Sk = skew r'.Nk := by
    obtain ⟨-, -, L, rfl, -⟩ := hubnessMat_inv o' rnd' sched' hc' h'; rfl
  rw [hSk, hSk']
  apply skew_perm
  have e1 : r.Nk = List.ofFn (fun j : Fin n => r.Nk[j.val]'(by rw [C3.1]; exact j.isLt)) := by
    apply List.ext_getElem
    · simp [C3.1]
    · intro a _ _; simp
  have e2 : r'.Nk = List.ofFn (fun j : Fin n => r.Nk[(π j).val]'(by rw [C3.1]; exact (π j).isLt)) := by
    apply List.ext_getElem
    · simp [C3'.1]
    · intro a ha hb
      simp only [List.getElem_ofFn]
      have := hN ⟨a, by rw [← C3'.1]; exact ha⟩
      rw [List.getElem?_eq_getElem ha, List.getElem?_eq_getElem (by rw [C3.1]; exact (π _).isLt)] at this
      exact Option.some.inj this
  rw [e2]
  conv_rhs => rw [e1]
  exact Equiv.Perm.ofFn_comp_perm π (fun j : Fin n => r.Nk[j.val]'(by rw [C3.1]; exact j.isLt))

/-- **C08.** On tie-free square matrices distance mode on `D` and similarity mode on `-D` give the same
result. -/
theorem C08_duality {K : Type} [AddCommGroup K] [LinearOrder K] [IsOrderedAddMonoid K]
    (o o' : ArgPart (XR K)) (rnd rnd' : Rnd) (sched sched' : Schedule) {n : ℕ}
    (sparse sparse' : Bool) (D : Fin n → Fin n → XR K) (k : ℤ) (nJobs nJobs' : ℤ)
    (seed seed' shuffle shuffle' : Bool) (htf : TieFree "distance" D) (r r' : Res n)
    (h : hubnessMat o rnd sched sparse D k "distance" nJobs seed shuffle = .ok r)
    (h' : hubnessMat o' rnd' sched' sparse' (fun i j => (D i j).neg) k "similarity" nJobs' seed'
      shuffle' = .ok r') : r = r' := by
  have hc : Covered nJobs "distance" n n := by simp [Covered]
  have hc' : Covered nJobs' "similarity" n n := by simp [Covered]
  obtain ⟨-, -, L, rfl, hL⟩ := hubnessMat_inv o rnd sched hc h
  obtain ⟨-, -, L', rfl, hL'⟩ := hubnessMat_inv o' rnd' sched' hc' h'
  have heff : ∀ i j, effective "similarity" (fun i j => (D i j).neg) i j
      = (effective "distance" D i j).neg := by
    intro i j
    have h1 : ((D i j).neg).isFinite = (D i j).isFinite := by cases D i j <;> rfl
    unfold effective
    rw [h1]
    by_cases hB : i.val = j.val
    · simp [hB, far, XR.neg]
    · by_cases hC : (D i j).isFinite = false
      · simp [hC, far, XR.neg]
      · simp [hB, hC]
  have hnn : ∀ i j, effective "distance" D i j ≠ .nan := by
    intro i j
    unfold effective far
    split
    · simp
    · next hn => rw [not_or, not_or] at hn; intro hx; simp [hx] at hn
  have hmono : ∀ a b : XR K, a ≠ .nan → b ≠ .nan →
      closer "similarity" a.neg b.neg → closer "distance" a b := by
    intro a b
    simp only [closer, if_true, show ("similarity" = "distance") = False by decide, if_false]
    cases a <;> cases b <;> simp [XR.neg]
  congr 1
  have : L = L' := by
    apply rows_determined
    intro i
    refine (hL i).unique ((hL' i).congr (cl' := closer "distance")
      (d' := effective "distance" D i) ?_) ?_
    · intro a b
      rw [heff, heff]
      exact hmono _ _ (hnn _ _) (hnn _ _)
    · intro a b h1 h2
      exact htf i (closer_anti h1 h2)
  rw [this]

/-! ### C05: serial hubness on rectangular similarity matrices -/

/-- **C05, the code violates it (1).** With more rows than columns every serial similarity call with `k ≥ 1`
raises `ValueError`, although the parallel one succeeds (`C01_hubness_succeeds_iff`). -/
theorem C05_serial_raises_of_more_rows (o : ArgPart (XR K)) (rnd : Rnd) {n m : ℕ} (sparse : Bool)
    (D : Fin n → Fin m → XR K) (k : ℤ) (shuffle : Bool) (hnm : m < n) (hm : 2 ≤ m) (hk : 1 ≤ k) :
    serial o rnd sparse D k "similarity" shuffle = .error .valueError := by
  have hk0 : 1 ≤ reduceK k m := by unfold reduceK; split <;> omega
  have hk1 : reduceK k m < m := by unfold reduceK; split <;> omega
  have hk' : ¬ reduceK k m < 0 := by omega
  have hwn : Np.wrapAll m (Np.arange (kthStart "similarity" n (reduceK k m).toNat)
      (reduceK k m).toNat) = none := by
    unfold Np.wrapAll
    rw [dif_neg]
    intro hall
    have := hall ⟨(reduceK k m).toNat - 1, by omega⟩
    simp only [Np.arange, kthStart, show ("similarity" = "distance") = False by decide, if_false,
      Np.wrap] at this
    rw [dif_neg (by omega), dif_neg (by omega)] at this
    simp at this
  have hrow : ∀ i : Fin n, selectRow o shuffle (rnd i m)
      (Np.arange (kthStart "similarity" n (reduceK k m).toNat) (reduceK k m).toNat)
      ("similarity" = "similarity") (rowValues "similarity" (dSelf "similarity")
        (prepare sparse (dSelf "similarity") D) i) = .error .valueError := by
    intro i
    unfold selectRow Np.argpartition
    rw [hwn]
    cases shuffle <;> rfl
  exact serial_of_row_errors o rnd sparse D k _ shuffle (by omega) (Or.inr rfl) (by omega) _ hrow

/-- Two rows, three columns; column 2 is the most similar one for both rows. -/
def wideSim : Fin 2 → Fin 3 → XR ℚ := fun _ j => .fin j.val

/-- **C05, the code violates it (2).** With fewer rows than columns wrong neighbours are returned: here
every serial call returns something that is not a 1-nearest-neighbour list. -/
theorem C05_serial_wrong_of_fewer_rows (o : ArgPart (XR ℚ)) (rnd : Rnd) (shuffle : Bool) :
    ∃ r, serial o rnd false wideSim 1 "similarity" shuffle = .ok r ∧
      ¬ ∃ L : List (Fin 3), r.Dk 0 = L.map Fin.val ∧
        IsKnn (closer "similarity") (effective "similarity" wideSim 0) 1 L := by
  have hw : Np.wrapAll 3 (Np.arange (kthStart "similarity" 2 1) 1)
      = some (fun c : Fin 1 => ⟨1 + c.val, by omega⟩) := by
    have := Np.wrapAll_arange (m := 3) (k := 1) (lo := 1) (by omega)
    rw [← this]
    rfl
  -- the value picked in each row is the middle one
  have hsel : ∀ (rp : Equiv.Perm (Fin 3)) (d : Fin 3 → XR ℚ) (hd : Function.Injective d),
      ∃ x y : Fin 3, d x < d y ∧ selectRow o shuffle rp (Np.arange (kthStart "similarity" 2 1) 1)
        ("similarity" = "similarity") d = .ok (fun _ => x.val) := by
    intro rp d hd
    cases shuffle
    · refine ⟨o.run d (fun c : Fin 1 => ⟨1 + c.val, by omega⟩) 1,
        o.run d (fun c : Fin 1 => ⟨1 + c.val, by omega⟩) 2, ?_, ?_⟩
      · apply lt_of_le_of_ne
        · exact o.after d (fun c : Fin 1 => ⟨1 + c.val, by omega⟩) 0 2 (by decide)
        · intro he
          have := (o.run d (fun c : Fin 1 => ⟨1 + c.val, by omega⟩)).injective (hd he)
          simp at this
      · simp only [selectRow, Np.argpartition, hw]
        change Except.ok _ = Except.ok _
        congr 1
        funext c
        fin_cases c
        rfl
    · refine ⟨rp (o.run (fun p => d (rp p)) (fun c : Fin 1 => ⟨1 + c.val, by omega⟩) 1),
        rp (o.run (fun p => d (rp p)) (fun c : Fin 1 => ⟨1 + c.val, by omega⟩) 2), ?_, ?_⟩
      · apply lt_of_le_of_ne
        · exact o.after (fun p => d (rp p)) (fun c : Fin 1 => ⟨1 + c.val, by omega⟩) 0 2 (by decide)
        · intro he
          have := (o.run (fun p => d (rp p)) (fun c : Fin 1 => ⟨1 + c.val, by omega⟩)).injective
            (rp.injective (hd he))
          simp at this
      · simp only [selectRow, Np.argpartition, hw]
        change Except.ok _ = Except.ok _
        congr 1
        funext c
        fin_cases c
        rfl
  have heff : ∀ i j, effective "similarity" wideSim i j = .fin (j.val : ℚ) := by
    intro i j; simp [effective, wideSim]
  have hrv : ∀ i, rowValues "similarity" (dSelf "similarity")
      (prepare false (dSelf "similarity") wideSim) i = fun j => .fin (j.val : ℚ) := by
    intro i; funext j; rw [rowValues_prepare, heff]
  have hinj : Function.Injective (fun j : Fin 3 => (XR.fin (j.val : ℚ))) := by
    intro a b hab
    simpa [Fin.ext_iff] using hab
  have hrows := fun i : Fin 2 => hsel (rnd i 3) _ hinj
  choose x y hxy hx using hrows
  refine ⟨finish 3 (fun i (_ : Fin 1) => (x i).val), ?_, ?_⟩
  · refine serial_of_rows o rnd false wideSim 1 "similarity" shuffle (by decide) (Or.inr rfl)
      (fun i _ => (x i).val) ?_
    intro i
    rw [hrv]
    exact hx i
  · rintro ⟨L, hL, hknn⟩
    have hLx : L = [x 0] := by
      have : L.map Fin.val = [x 0].map Fin.val := by rw [← hL]; simp [finish]
      exact List.map_injective_iff.2 Fin.val_injective this
    subst hLx
    have hne : y 0 ∉ [x 0] := by
      intro hc
      have h1 := hxy 0
      rw [List.mem_singleton.1 hc] at h1
      exact lt_irrefl _ h1
    have := hknn.best (x 0) (by simp) (y 0) hne
    rw [heff, heff] at this
    simp only [closer, show ("similarity" = "distance") = False by decide, if_false] at this
    exact absurd this (not_le.2 (hxy 0))

/-- **C05 (the part that holds).** The parallel branch is correct on rectangular similarity matrices. Missing: the
serial branch, for which the claim is false by the two theorems above. -/
theorem C05_parallel_rectangular_similarity_partial (o : ArgPart (XR K)) (rnd : Rnd)
    (sched : Schedule) {n m : ℕ} (sparse : Bool) (D : Fin n → Fin m → XR K) (k : ℤ) (nJobs : ℤ)
    (shuffle : Bool) (hk : 0 ≤ k) (hm : 0 < m) (hj : nJobs = -1 ∨ 2 ≤ nJobs) :
    ∃ r, hubnessMat o rnd sched sparse D k "similarity" nJobs false shuffle = .ok r ∧
      ∀ i, ∃ L : List (Fin m), r.Dk i = L.map Fin.val ∧
        IsKnn (closer "similarity") (effective "similarity" D i) (min k ((m : ℤ) - 1)).toNat L := by
  have hc : Covered nJobs "similarity" n m := by
    unfold Covered
    rintro ⟨h1, -⟩
    omega
  obtain ⟨r, hr⟩ := (C01_hubness_succeeds_iff o rnd sched sparse D k "similarity" nJobs false shuffle
    hc).2 ⟨Or.inr rfl, hk, hm, Or.inr ⟨rfl, by omega⟩⟩
  exact ⟨r, hr, C01_hubness_knn o rnd sched sparse D k "similarity" nJobs false shuffle hc r hr⟩

/-! ### The hypotheses are satisfiable -/

/-- A tie-free 3-point distance matrix with a misleading diagonal and a missing value. -/
def exD : Fin 3 → Fin 3 → XR ℚ :=
  ![![.fin 7, .fin 1, .fin 2], ![.fin 1, .nan, .fin 3], ![.fin 2, .fin 3, .fin 0]]

theorem exD_tieFree : TieFree "distance" exD := by
  intro i a b h
  fin_cases i <;> fin_cases a <;> fin_cases b <;> simp_all [effective, exD, far]

/-- Any schedule type is inhabited: row-major order. -/
def rowMajor : Schedule where
  cells n k := List.finRange n ×ˢ List.finRange k
  perm _ _ := List.Perm.refl _

/-- Another schedule: all cells in reverse order. -/
def reverseOrder : Schedule where
  cells n k := (List.finRange n ×ˢ List.finRange k).reverse
  perm _ _ := List.reverse_perm _

-- C01, C02, C03, C06, C07: successful calls exist, serial and parallel, with a tie-free matrix.
example (o : ArgPart (XR ℚ)) (rnd : Rnd) :
    (∃ r, hubnessMat o rnd rowMajor false exD 2 "distance" 1 true true = .ok r) ∧
    (∃ r, hubnessMat o rnd reverseOrder false exD 5 "distance" 4 false true = .ok r) ∧
    TieFree "distance" exD :=
  ⟨(C01_hubness_succeeds_iff o rnd rowMajor false exD 2 "distance" 1 true true
      (by simp [Covered])).2 (by decide),
   (C01_hubness_succeeds_iff o rnd reverseOrder false exD 5 "distance" 4 false true
      (by simp [Covered])).2 (by decide), exD_tieFree⟩

-- C02: every row of `exD` has enough finite off-diagonal entries.
example (i : Fin 3) : min (2 : ℤ) ((3 : ℤ) - 1) ≤
    ((Finset.univ.filter (fun j => j ≠ i ∧ (exD i j).isFinite = true)).card : ℤ) := by
  fin_cases i <;> decide +kernel

-- C06: a strictly increasing map which is not the identity.
example : StrictMono (fun x : ℚ => x + x) := fun _ _ h => add_lt_add h h

-- C08: the call on the negated matrix succeeds too.
example (o : ArgPart (XR ℚ)) (rnd : Rnd) :
    ∃ r, hubnessMat o rnd rowMajor false (fun i j => (exD i j).neg) 2 "similarity" 1 true true
      = .ok r :=
  (C01_hubness_succeeds_iff o rnd rowMajor false _ 2 "similarity" 1 true true
      (by simp [Covered])).2 (by decide)

-- C05: a tall matrix to which `C05_serial_raises_of_more_rows` applies.
example (o : ArgPart (XR ℚ)) (rnd : Rnd) :
    serial o rnd false (fun (_ : Fin 3) (j : Fin 2) => XR.fin (j.val : ℚ)) 1 "similarity" true
      = .error .valueError :=
  C05_serial_raises_of_more_rows o rnd false _ 1 true (by decide) (by decide) (by decide)

end HubToolbox.Hubness
