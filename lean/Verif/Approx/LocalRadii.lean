import Verif.Approx.Local

/-!
# Local scaling, NICDM and DisSim Local with fixed vantage points
-/

set_option autoImplicit false

namespace HubToolbox.Approx

open HubToolbox

/-! ### Partial sorts -/

theorem rank_fin {s : ℕ} (f : Fin s → ℝ) (t : ℕ) (v : ℝ) (h : IsRank (fun b => (.fin (f b) : XR ℝ)) t (.fin v)) :
    Spec.IsKthSmallest Finset.univ f (t + 1) v := by
  obtain ⟨⟨c, hc⟩, h1, h2⟩ := h
  simp only [XR.fin_lt_fin, XR.fin_le_fin] at h1 h2
  exact ⟨⟨c, Finset.mem_univ _, XR.fin.inj hc⟩, by omega, by omega⟩

/-- The `(k+1)`-th smallest distance including the zero distance to the object itself is the `k`-th smallest distance to
the others. -/
theorem kth_without_self {s : ℕ} (f : Fin s → ℝ) (j : Fin s) (hj : f j = 0) (h0 : ∀ b, 0 ≤ f b) (k : ℕ) (hk : 0 < k)
    (v : ℝ) (h : Spec.IsKthSmallest Finset.univ f (k + 1) v) : Spec.IsKthSmallest (Finset.univ.erase j) f k v := by
  obtain ⟨⟨c, _, hc⟩, h1, h2⟩ := h
  have hv : 0 ≤ v := hc ▸ h0 c
  have hle : ((Finset.univ.erase j).filter (fun b => f b ≤ v)).card + 1 = (Finset.univ.filter (fun b => f b ≤ v)).card := by
    rw [Finset.filter_erase]
    exact Finset.card_erase_add_one (by simp [hj, hv])
  refine ⟨?_, ?_, by omega⟩
  · by_cases hcj : c = j
    · have hv0 : v = 0 := by rw [← hc, hcj, hj]
      have : 0 < ((Finset.univ.erase j).filter (fun b => f b ≤ v)).card := by omega
      obtain ⟨b, hb⟩ := Finset.card_pos.1 this
      rw [Finset.mem_filter] at hb
      exact ⟨b, hb.1, le_antisymm hb.2 (hv0 ▸ h0 b)⟩
    · exact ⟨c, by simp [hcj], hc⟩
  · rcases hv.lt_or_eq with hv' | hv'
    · have hlt : ((Finset.univ.erase j).filter (fun b => f b < v)).card + 1
          = (Finset.univ.filter (fun b => f b < v)).card := by
        rw [Finset.filter_erase]
        exact Finset.card_erase_add_one (by simp [hj, hv'])
      omega
    · have : (Finset.univ.erase j).filter (fun b => f b < v) = ∅ := by
        rw [← hv']
        exact Finset.filter_eq_empty_iff.2 (fun b _ => not_lt.2 (h0 b))
      rw [this, Finset.card_empty]
      exact hk

/-- The first elements of a partial sort are nearest. -/
theorem part_nearest (o : ArgPart (XR ℝ)) {s : ℕ} (f : Fin s → ℝ) (t m : ℕ) (ht : t < s) (hmt : m ≤ t + 1)
    (htm : t ≤ m) (hms : m ≤ s) :
    Spec.IsNearest Finset.univ f m ((Finset.univ : Finset (Fin m)).image
      (fun c => o.run (fun b => (.fin (f b) : XR ℝ)) (fun _ : Fin 1 => ⟨t, ht⟩) ⟨c.val, lt_of_lt_of_le c.isLt hms⟩)) := by
  refine ⟨Finset.subset_univ _, ?_, ?_⟩
  · rw [Finset.card_image_of_injective, Finset.card_univ, Fintype.card_fin]
    intro a b hab
    have := (o.run _ _).injective hab
    exact Fin.ext (Fin.mk.inj this)
  · intro a ha b _ hb
    obtain ⟨c, _, rfl⟩ := Finset.mem_image.1 ha
    set σ := o.run (fun b => (.fin (f b) : XR ℝ)) (fun _ : Fin 1 => ⟨t, ht⟩) with hσ
    have hcb : m ≤ (σ.symm b).val := by
      by_contra hc
      refine hb (Finset.mem_image.2 ⟨⟨(σ.symm b).val, not_le.1 hc⟩, Finset.mem_univ _, ?_⟩)
      simp
    have h1 := o.before (fun b => (.fin (f b) : XR ℝ)) (fun _ : Fin 1 => ⟨t, ht⟩) 0
      ⟨c.val, lt_of_lt_of_le c.isLt hms⟩ (by show c.val ≤ t; omega)
    have h2 := o.after (fun b => (.fin (f b) : XR ℝ)) (fun _ : Fin 1 => ⟨t, ht⟩) 0 (σ.symm b)
      (by show t ≤ (σ.symm b).val; omega)
    rw [← hσ] at h1 h2
    rw [Equiv.apply_symm_apply] at h2
    have := h1.trans h2
    rwa [XR.fin_le_fin] at this

theorem mean_fin {k : ℕ} (hk : 0 < k) (f : Fin k → ℝ) :
    XR.mean (fun c => (.fin (f c) : XR ℝ)) = .fin ((∑ c, f c) / k) := by
  unfold XR.mean
  rw [LS.sum_fin]
  have : (k : ℝ) ≠ 0 := by exact_mod_cast hk.ne'
  simp [XR.div, this]

theorem suqhrLS_char {P : Type} (w : World ℝ) (o : ArgPart (XR ℝ)) (dist : String → P → P → ℝ) (metric : String)
    (smp : Sampling) (nSamples : ℕ) (nic : Bool) (k : ℕ) (hk : 0 < k) {n t : ℕ} (X : Fin n → P) (T : Fin t → P)
    (ind : List (Fin n)) (hv : vantage w (fun i j => dist metric (X i) (X j)) metric smp nSamples = .ok ind)
    (hm : VMetric metric) (hks : k < ind.length) :
    ∃ out, suqhrLS w o dist metric smp nSamples nic k X T = .ok out ∧ ∃ he : out.ind = ind,
      ∀ i b, out.dist i b = lsEntry nic (.fin (dist metric (T i) (X (out.ind.get b))))
        (fun c : Fin k => .fin (dist metric (T i) (X (out.ind.get
          (o.run (fun b => .fin (dist metric (T i) (X (out.ind.get b)))) (fun _ : Fin 1 => ⟨k - 1, by rw [he]; omega⟩)
            ⟨c.val, by rw [he]; omega⟩)))))
        (fun c : Fin k => .fin (dist metric (X (out.ind.get b)) (X (out.ind.get
          (o.run (fun b' => .fin (dist metric (X (out.ind.get b)) (X (out.ind.get b'))))
            (fun _ : Fin 1 => ⟨k, by rw [he]; exact hks⟩) ⟨c.val + 1, by rw [he]; omega⟩))))) := by
  have h1 := tabulateM_ok (fun a : Fin ind.length =>
    trainPart o (fun b : Fin ind.length => .fin (dist metric (X (ind.get a)) (X (ind.get b)))) k)
    (fun a c => .fin (dist metric (X (ind.get a)) (X (ind.get
      (o.run (fun b => .fin (dist metric (X (ind.get a)) (X (ind.get b)))) (fun _ : Fin 1 => ⟨k, hks⟩)
        ⟨c.val + 1, by omega⟩))))) (by
      intro a
      unfold trainPart
      rw [dif_pos hks])
  have h2 := tabulateM_ok (fun i : Fin t =>
    testPart o (fun b : Fin ind.length => .fin (dist metric (T i) (X (ind.get b)))) k)
    (fun i c => .fin (dist metric (T i) (X (ind.get
      (o.run (fun b => .fin (dist metric (T i) (X (ind.get b)))) (fun _ : Fin 1 => ⟨k - 1, by omega⟩)
        ⟨c.val, by omega⟩))))) (by
      intro a
      unfold testPart
      rw [dif_pos (by omega)])
  have hm' : ¬ (metric ≠ "sqeuclidean" ∧ metric ≠ "cosine") := by
    rintro ⟨h, h'⟩
    rcases hm with hm | hm
    · exact h hm
    · exact h' hm
  unfold suqhrLS
  simp only [hv, bind, Except.bind, pure, Except.pure, if_neg hm']
  rw [h1, h2]
  exact ⟨_, rfl, rfl, fun i b => rfl⟩

/-- C130: local scaling with fixed vantage points: every secondary distance is given by the formula, with the `k`-th
smallest distance of the test object to the vantage points, and of the vantage point to the other vantage points. -/
theorem C130_formula {P : Type} (w : World ℝ) (o : ArgPart (XR ℝ)) (dist : String → P → P → ℝ) (metric : String)
    (h0 : ∀ p q, 0 ≤ dist metric p q) (hself : ∀ p, dist metric p p = 0)
    (smp : Sampling) (nSamples : ℕ) (k : ℕ) (hk : 0 < k) {n t : ℕ} (X : Fin n → P) (T : Fin t → P)
    (ind : List (Fin n)) (hv : vantage w (fun i j => dist metric (X i) (X j)) metric smp nSamples = .ok ind)
    (hm : VMetric metric) (hks : k < ind.length) :
    ∃ out, suqhrLS w o dist metric smp nSamples false k X T = .ok out ∧ out.ind = ind ∧
      ∀ i b (ρ ρ' : ℝ),
        Spec.IsKthSmallest Finset.univ (fun c => dist metric (T i) (X (out.ind.get c))) k ρ →
        Spec.IsKthSmallest (Finset.univ.erase b) (fun c => dist metric (X (out.ind.get b)) (X (out.ind.get c))) k ρ' →
        0 < ρ → 0 < ρ' →
        out.dist i b = .fin (Spec.localScaling (dist metric (T i) (X (out.ind.get b))) ρ ρ') := by
  obtain ⟨out, ho, he, hd⟩ := suqhrLS_char w o dist metric smp nSamples false k hk X T ind hv hm hks
  refine ⟨out, ho, he, fun i b ρ ρ' h1 h2 hp hp' => ?_⟩
  rw [hd]
  unfold lsEntry lastOf
  rw [if_neg (by decide), dif_pos hk, dif_pos hk]
  have hks' : k < out.ind.length := by rw [he]; exact hks
  have e1 : ρ = dist metric (T i) (X (out.ind.get
      (o.run (fun b => .fin (dist metric (T i) (X (out.ind.get b)))) (fun _ : Fin 1 => ⟨k - 1, by omega⟩)
        ⟨k - 1, by omega⟩))) := by
    have hr := ArgPart.isRank o (fun b => (.fin (dist metric (T i) (X (out.ind.get b))) : XR ℝ))
      (fun _ : Fin 1 => ⟨k - 1, by omega⟩) 0
    have hr' := rank_fin (fun b => dist metric (T i) (X (out.ind.get b))) _ _ hr
    have hk1 : k - 1 + 1 = k := by omega
    simp only [hk1] at hr'
    exact LS.kthSmallest_unique h1 hr'
  have e2 : ρ' = dist metric (X (out.ind.get b)) (X (out.ind.get
      (o.run (fun b' => .fin (dist metric (X (out.ind.get b)) (X (out.ind.get b')))) (fun _ : Fin 1 => ⟨k, hks'⟩)
        ⟨k - 1 + 1, by omega⟩))) := by
    have hr := ArgPart.isRank o (fun b' => (.fin (dist metric (X (out.ind.get b)) (X (out.ind.get b'))) : XR ℝ))
      (fun _ : Fin 1 => ⟨k, hks'⟩) 0
    have hr' := rank_fin (fun b' => dist metric (X (out.ind.get b)) (X (out.ind.get b'))) _ _ hr
    have hk1 : k - 1 + 1 = k := by omega
    simp only [hk1]
    exact LS.kthSmallest_unique h2 (kth_without_self _ b (hself _) (fun _ => h0 _ _) k hk _ hr')
  rw [← LS.entry_distance _ _ _ hp hp', e1, e2]

/-- C130: every value is either `nan` or in the unit interval, whatever the radii are. -/
theorem C130_range {P : Type} (w : World ℝ) (o : ArgPart (XR ℝ)) (dist : String → P → P → ℝ) (metric : String)
    (h0 : ∀ p q, 0 ≤ dist metric p q) (smp : Sampling) (nSamples : ℕ) (k : ℕ) (hk : 0 < k) {n t : ℕ} (X : Fin n → P)
    (T : Fin t → P) (ind : List (Fin n))
    (hv : vantage w (fun i j => dist metric (X i) (X j)) metric smp nSamples = .ok ind) (hm : VMetric metric)
    (hks : k < ind.length) (out : Out ℝ t n) (h : suqhrLS w o dist metric smp nSamples false k X T = .ok out)
    (i : Fin t) (b : Fin out.ind.length) :
    (out.dist i b = .nan ∧ dist metric (T i) (X (out.ind.get b)) = 0) ∨ ∃ v, out.dist i b = .fin v ∧ 0 ≤ v ∧ v ≤ 1 := by
  obtain ⟨out', ho, he, hd⟩ := suqhrLS_char w o dist metric smp nSamples false k hk X T ind hv hm hks
  rw [ho] at h
  have h' := Except.ok.inj h
  subst h'
  rw [hd]
  unfold lsEntry lastOf
  rw [if_neg (by decide), dif_pos hk, dif_pos hk]
  have key : ∀ d r r' : ℝ, 0 ≤ r → 0 ≤ r' → (LS.entry "distance" (.fin d) (.fin r) (.fin r') = .nan ∧ d = 0) ∨
      ∃ v, LS.entry "distance" (.fin d) (.fin r) (.fin r') = .fin v ∧ 0 ≤ v ∧ v ≤ 1 := by
    intro d r r' hr hr'
    by_cases hz : r * r' = 0
    · rw [LS.entry_distance_zero _ _ _ hz]
      by_cases hd : d = 0
      · left; simp [hd]
      · right; exact ⟨1, by simp [hd], zero_le_one, le_rfl⟩
    · have hp : 0 < r := lt_of_le_of_ne hr (fun h => hz (by rw [← h, zero_mul]))
      have hp' : 0 < r' := lt_of_le_of_ne hr' (fun h => hz (by rw [← h, mul_zero]))
      rw [LS.entry_distance _ _ _ hp hp']
      refine Or.inr ⟨_, rfl, ?_⟩
      unfold Spec.localScaling
      have h1 : 0 ≤ d ^ 2 / (r * r') := by positivity
      have h2 := Real.exp_pos (-(d ^ 2 / (r * r')))
      have h3 : Real.exp (-(d ^ 2 / (r * r'))) ≤ 1 := Real.exp_le_one_iff.2 (by linarith)
      constructor <;> linarith
  exact key _ _ _ (h0 _ _) (h0 _ _)

/-- C130: too many neighbours are rejected with `ValueError`. -/
theorem C130_too_many {P : Type} (w : World ℝ) (o : ArgPart (XR ℝ)) (dist : String → P → P → ℝ) (metric : String)
    (smp : Sampling) (nSamples : ℕ) (nic : Bool) (k : ℕ) {n t : ℕ} (X : Fin n → P) (T : Fin t → P)
    (ind : List (Fin n)) (hv : vantage w (fun i j => dist metric (X i) (X j)) metric smp nSamples = .ok ind)
    (hm : VMetric metric) (hind : ind ≠ []) (hks : ind.length ≤ k) :
    suqhrLS w o dist metric smp nSamples nic k X T = .error .valueError := by
  have hm' : ¬ (metric ≠ "sqeuclidean" ∧ metric ≠ "cosine") := by
    rintro ⟨h, h'⟩
    rcases hm with hm | hm
    · exact h hm
    · exact h' hm
  unfold suqhrLS
  simp only [hv, bind, Except.bind, pure, Except.pure, if_neg hm']
  have : (fun a : Fin ind.length => trainPart o
      (fun b : Fin ind.length => .fin (dist metric (X (ind.get a)) (X (ind.get b)))) k) =
      fun _ => .error .valueError := by
    funext a
    unfold trainPart
    rw [dif_neg (by omega)]
  rw [this, Np.tabulateM_error (List.length_pos_iff.2 hind)]

/-! ### NICDM -/

/-- A nearest set among all objects, from one among the others. -/
theorem nearest_insert_self {s : ℕ} (f : Fin s → ℝ) (j : Fin s) (hj : f j = 0) (h0 : ∀ b, 0 ≤ f b) (k : ℕ)
    (N : Finset (Fin s)) (h : Spec.IsNearest (Finset.univ.erase j) f k N) :
    Spec.IsNearest Finset.univ f (k + 1) (insert j N) := by
  have hjN : j ∉ N := fun hc => Finset.notMem_erase j _ (h.sub hc)
  refine ⟨Finset.subset_univ _, by rw [Finset.card_insert_of_notMem hjN, h.card], ?_⟩
  intro a ha b _ hb
  rw [Finset.mem_insert, not_or] at hb
  rcases Finset.mem_insert.1 ha with rfl | ha
  · rw [hj]; exact h0 b
  · exact h.best a ha b (by simp [hb.1]) hb.2

theorem sum_part {s : ℕ} (o : ArgPart (XR ℝ)) (f : Fin s → ℝ) (t m : ℕ) (ht : t < s) (hmt : m ≤ t + 1)
    (htm : t ≤ m) (hms : m ≤ s) (N : Finset (Fin s)) (h : Spec.IsNearest Finset.univ f m N) :
    ∑ c : Fin m, f (o.run (fun b => (.fin (f b) : XR ℝ)) (fun _ : Fin 1 => ⟨t, ht⟩) ⟨c.val, lt_of_lt_of_le c.isLt hms⟩)
      = ∑ b ∈ N, f b := by
  rw [LS.nearest_sum_unique h (part_nearest o f t m ht hmt htm hms), Finset.sum_image]
  intro a _ b _ hab
  have := (o.run _ _).injective hab
  exact Fin.ext (Fin.mk.inj this)

/-- The mean computed for a vantage point falls short of the true one by a share of the value in front. -/
theorem train_sum {s : ℕ} (o : ArgPart (XR ℝ)) (f : Fin s → ℝ) (j : Fin s) (hj : f j = 0) (h0 : ∀ b, 0 ≤ f b)
    (k : ℕ) (hks : k < s) (N : Finset (Fin s)) (h : Spec.IsNearest (Finset.univ.erase j) f k N) :
    ∑ c : Fin k, f (o.run (fun b => (.fin (f b) : XR ℝ)) (fun _ : Fin 1 => ⟨k, hks⟩) ⟨c.val + 1, by omega⟩)
      = ∑ b ∈ N, f b - f (o.run (fun b => (.fin (f b) : XR ℝ)) (fun _ : Fin 1 => ⟨k, hks⟩) ⟨0, by omega⟩) := by
  have h1 := sum_part o f k (k + 1) hks le_rfl (Nat.le_succ k) hks _ (nearest_insert_self f j hj h0 k N h)
  rw [Fin.sum_univ_succ, Finset.sum_insert (fun hc => Finset.notMem_erase j _ (h.sub hc)), hj, zero_add] at h1
  have h2 : ∑ c : Fin k, f (o.run (fun b => (.fin (f b) : XR ℝ)) (fun _ : Fin 1 => ⟨k, hks⟩) ⟨c.val + 1, by omega⟩) =
      ∑ c : Fin k, f (o.run (fun b => (.fin (f b) : XR ℝ)) (fun _ : Fin 1 => ⟨k, hks⟩)
        ⟨c.succ.val, lt_of_lt_of_le c.succ.isLt hks⟩) := rfl
  rw [h2, ← h1]
  simp

/-- What NICDM computes for every partial sort: the true mean distance of the vantage point is reduced by a share of the
distance which the partial sort puts in front. -/
theorem nicdm_char {P : Type} (w : World ℝ) (o : ArgPart (XR ℝ)) (dist : String → P → P → ℝ) (metric : String)
    (h0 : ∀ p q, 0 ≤ dist metric p q) (hself : ∀ p, dist metric p p = 0)
    (smp : Sampling) (nSamples : ℕ) (k : ℕ) (hk : 0 < k) {n t : ℕ} (X : Fin n → P) (T : Fin t → P)
    (ind : List (Fin n)) (hv : vantage w (fun i j => dist metric (X i) (X j)) metric smp nSamples = .ok ind)
    (hm : VMetric metric) (hks : k < ind.length) :
    ∃ out, suqhrLS w o dist metric smp nSamples true k X T = .ok out ∧ ∃ he : out.ind = ind,
      ∀ i b (N N' : Finset (Fin out.ind.length)),
        Spec.IsNearest Finset.univ (fun c => dist metric (T i) (X (out.ind.get c))) k N →
        Spec.IsNearest (Finset.univ.erase b) (fun c => dist metric (X (out.ind.get b)) (X (out.ind.get c))) k N' →
        out.dist i b = XR.div (.fin (dist metric (T i) (X (out.ind.get b))))
          (XR.sqrt (.fin (Spec.meanOver N (fun c => dist metric (T i) (X (out.ind.get c))) *
            (Spec.meanOver N' (fun c => dist metric (X (out.ind.get b)) (X (out.ind.get c))) -
              dist metric (X (out.ind.get b)) (X (out.ind.get
                (o.run (fun b' => .fin (dist metric (X (out.ind.get b)) (X (out.ind.get b'))))
                  (fun _ : Fin 1 => ⟨k, by rw [he]; exact hks⟩) ⟨0, by rw [he]; omega⟩))) / k)))) := by
  obtain ⟨out, ho, he, hd⟩ := suqhrLS_char w o dist metric smp nSamples true k hk X T ind hv hm hks
  refine ⟨out, ho, he, fun i b N N' h1 h2 => ?_⟩
  rw [hd]
  have hks' : k < out.ind.length := by rw [he]; exact hks
  unfold lsEntry
  rw [if_pos rfl, mean_fin hk, mean_fin hk]
  rw [sum_part o (fun c => dist metric (T i) (X (out.ind.get c))) (k - 1) k (by omega) (by omega) (by omega)
    hks'.le N h1]
  rw [train_sum o (fun c => dist metric (X (out.ind.get b)) (X (out.ind.get c))) b (hself _) (fun _ => h0 _ _) k
    hks' N' h2]
  unfold Spec.meanOver
  rw [h1.card, h2.card, sub_div]
  rfl

/-- C131 holds if the partial sort puts the smallest value in front: then the secondary distance is the distance divided
by the geometric mean of the mean distances to the `k` nearest vantage points. -/
theorem C131_formula_partial {P : Type} (w : World ℝ) (o : ArgPart (XR ℝ)) (dist : String → P → P → ℝ) (metric : String)
    (h0 : ∀ p q, 0 ≤ dist metric p q) (hself : ∀ p, dist metric p p = 0)
    (hfirst : ∀ {m : ℕ} (v : Fin m → XR ℝ) (kth : Fin 1 → Fin m) (hm : 0 < m) (b : Fin m), v (o.run v kth ⟨0, hm⟩) ≤ v b)
    (smp : Sampling) (nSamples : ℕ) (k : ℕ) (hk : 0 < k) {n t : ℕ} (X : Fin n → P) (T : Fin t → P)
    (ind : List (Fin n)) (hv : vantage w (fun i j => dist metric (X i) (X j)) metric smp nSamples = .ok ind)
    (hm : VMetric metric) (hks : k < ind.length) :
    ∃ out, suqhrLS w o dist metric smp nSamples true k X T = .ok out ∧ out.ind = ind ∧
      ∀ i b (N N' : Finset (Fin out.ind.length)),
        Spec.IsNearest Finset.univ (fun c => dist metric (T i) (X (out.ind.get c))) k N →
        Spec.IsNearest (Finset.univ.erase b) (fun c => dist metric (X (out.ind.get b)) (X (out.ind.get c))) k N' →
        0 < Spec.meanOver N (fun c => dist metric (T i) (X (out.ind.get c))) →
        0 < Spec.meanOver N' (fun c => dist metric (X (out.ind.get b)) (X (out.ind.get c))) →
        out.dist i b = .fin (dist metric (T i) (X (out.ind.get b)) /
          √(Spec.meanOver N (fun c => dist metric (T i) (X (out.ind.get c))) *
            Spec.meanOver N' (fun c => dist metric (X (out.ind.get b)) (X (out.ind.get c))))) := by
  obtain ⟨out, ho, he, hd⟩ := nicdm_char w o dist metric h0 hself smp nSamples k hk X T ind hv hm hks
  refine ⟨out, ho, he, fun i b N N' h1 h2 hp hp' => ?_⟩
  rw [hd i b N N' h1 h2]
  have hks' : k < out.ind.length := by rw [he]; exact hks
  have hz : dist metric (X (out.ind.get b)) (X (out.ind.get
      (o.run (fun b' => .fin (dist metric (X (out.ind.get b)) (X (out.ind.get b'))))
        (fun _ : Fin 1 => ⟨k, hks'⟩) ⟨0, by omega⟩))) = 0 := by
    have := hfirst (fun b' => .fin (dist metric (X (out.ind.get b)) (X (out.ind.get b'))))
        (fun _ : Fin 1 => ⟨k, hks'⟩) (by omega) b
    rw [XR.fin_le_fin, hself] at this
    exact le_antisymm this (h0 _ _)
  rw [hz, zero_div, sub_zero]
  have hpos := mul_pos hp hp'
  have hne : √(Spec.meanOver N (fun c => dist metric (T i) (X (out.ind.get c))) *
            Spec.meanOver N' (fun c => dist metric (X (out.ind.get b)) (X (out.ind.get c)))) ≠ 0 :=
    (Real.sqrt_pos.2 hpos).ne'
  rw [MPPar.sqrt_fin hpos.le]
  simp only [XR.div, hne, if_false]

/-- A partial sort with the first two values exchanged wherever this is allowed. -/
def swapped (α : Type) [LinearOrder α] : ArgPart α where
  run {m k} v kth :=
    if h : 2 < m ∧ ∀ c, 2 ≤ (kth c).val then
      (Equiv.swap (⟨0, by omega⟩ : Fin m) ⟨1, by omega⟩).trans ((ArgPart.ofInsertion α).run v kth)
    else (ArgPart.ofInsertion α).run v kth
  before {m k} v kth c p hp := by
    by_cases h : 2 < m ∧ ∀ c, 2 ≤ (kth c).val
    · have hc := h.2 c
      have h1 : Equiv.swap (⟨0, by omega⟩ : Fin m) ⟨1, by omega⟩ (kth c) = kth c := by
        apply Equiv.swap_apply_of_ne_of_ne
        · intro he; rw [he] at hc; change 2 ≤ 0 at hc; omega
        · intro he; rw [he] at hc; change 2 ≤ 1 at hc; omega
      rw [dif_pos h, Equiv.trans_apply, Equiv.trans_apply, h1]
      refine (ArgPart.ofInsertion α).before v kth c _ ?_
      have hm0 : 0 < m := by omega
      have hm1 : 1 < m := by omega
      have : p = ⟨0, hm0⟩ ∨ p = ⟨1, hm1⟩ ∨ (p ≠ ⟨0, hm0⟩ ∧ p ≠ ⟨1, hm1⟩) := by tauto
      rcases this with h2 | h2 | ⟨h2, h3⟩
      · rw [h2, Equiv.swap_apply_left]
        show 1 ≤ (kth c).val
        omega
      · rw [h2, Equiv.swap_apply_right]
        show 0 ≤ (kth c).val
        omega
      · rw [Equiv.swap_apply_of_ne_of_ne h2 h3]
        exact hp
    · rw [dif_neg h]
      exact (ArgPart.ofInsertion α).before v kth c p hp
  after {m k} v kth c p hp := by
    by_cases h : 2 < m ∧ ∀ c, 2 ≤ (kth c).val
    · have hc := h.2 c
      have h1 : ∀ q : Fin m, kth c ≤ q → Equiv.swap (⟨0, by omega⟩ : Fin m) ⟨1, by omega⟩ q = q := by
        intro q hq
        have hq' : (kth c).val ≤ q.val := hq
        apply Equiv.swap_apply_of_ne_of_ne
        · intro he; rw [he] at hq'; change _ ≤ 0 at hq'; omega
        · intro he; rw [he] at hq'; change _ ≤ 1 at hq'; omega
      rw [dif_pos h, Equiv.trans_apply, Equiv.trans_apply, h1 _ le_rfl, h1 _ hp]
      exact (ArgPart.ofInsertion α).after v kth c p hp
    · rw [dif_neg h]
      exact (ArgPart.ofInsertion α).after v kth c p hp

/-- The smallest value is in position one of `swapped`. -/
theorem swapped_one {s : ℕ} (v : Fin s → XR ℝ) (t : Fin s) (ht : 2 ≤ t.val) (b : Fin s) :
    v ((swapped (XR ℝ)).run v (fun _ : Fin 1 => t) ⟨1, by omega⟩) ≤ v b := by
  unfold swapped
  simp only
  rw [dif_pos ⟨by omega, fun _ => ht⟩, Equiv.trans_apply, Equiv.swap_apply_right]
  obtain ⟨p, rfl⟩ := ((ArgPart.ofInsertion (XR ℝ)).run v (fun _ : Fin 1 => t)).surjective b
  exact sortPerm_mono v ⟨0, by omega⟩ p (Nat.zero_le _)

/-- C131 is violated for two or more neighbours: there is a partial sort as numpy promises it, for which every secondary
distance to a vantage point different from the test object is wrong (too large), if the vantage points are different. -/
theorem C131_violated {P : Type} (w : World ℝ) (dist : String → P → P → ℝ) (metric : String)
    (h0 : ∀ p q, 0 ≤ dist metric p q) (hself : ∀ p, dist metric p p = 0)
    (smp : Sampling) (nSamples : ℕ) (k : ℕ) (hk : 2 ≤ k) {n t : ℕ} (X : Fin n → P) (T : Fin t → P)
    (ind : List (Fin n)) (hv : vantage w (fun i j => dist metric (X i) (X j)) metric smp nSamples = .ok ind)
    (hm : VMetric metric) (hks : k < ind.length)
    (hdiff : ∀ a b : Fin ind.length, a ≠ b → 0 < dist metric (X (ind.get a)) (X (ind.get b))) :
    ∃ (o : ArgPart (XR ℝ)) (out : Out ℝ t n), suqhrLS w o dist metric smp nSamples true k X T = .ok out ∧ out.ind = ind ∧
      ∀ i b (N N' : Finset (Fin out.ind.length)),
        Spec.IsNearest Finset.univ (fun c => dist metric (T i) (X (out.ind.get c))) k N →
        Spec.IsNearest (Finset.univ.erase b) (fun c => dist metric (X (out.ind.get b)) (X (out.ind.get c))) k N' →
        0 < Spec.meanOver N (fun c => dist metric (T i) (X (out.ind.get c))) →
        0 < dist metric (T i) (X (out.ind.get b)) →
        ∃ v, out.dist i b = .fin v ∧ dist metric (T i) (X (out.ind.get b)) /
          √(Spec.meanOver N (fun c => dist metric (T i) (X (out.ind.get c))) *
            Spec.meanOver N' (fun c => dist metric (X (out.ind.get b)) (X (out.ind.get c)))) < v := by
  obtain ⟨out, ho, he, hd⟩ := nicdm_char w (swapped (XR ℝ)) dist metric h0 hself smp nSamples k (by omega) X T ind hv hm hks
  refine ⟨_, out, ho, he, fun i b N N' h1 h2 hp hdp => ?_⟩
  rw [hd i b N N' h1 h2]
  have hks' : k < out.ind.length := by rw [he]; exact hks
  have hdiff' : ∀ a b : Fin out.ind.length, a ≠ b → 0 < dist metric (X (out.ind.get a)) (X (out.ind.get b)) := by
    intro a b hab
    have := hdiff (a.cast (by rw [he])) (b.cast (by rw [he])) (by
      intro hc
      exact hab (Fin.ext (Fin.mk.inj hc)))
    simpa [he] using this
  set f : Fin out.ind.length → ℝ := fun c => dist metric (X (out.ind.get b)) (X (out.ind.get c)) with hf
  set σ := (swapped (XR ℝ)).run (fun b' => .fin (f b')) (fun _ : Fin 1 => ⟨k, hks'⟩) with hσ
  set e := f (σ ⟨0, by omega⟩) with he'
  have hone : σ ⟨1, by omega⟩ = b := by
    have := swapped_one (fun b' => .fin (f b')) ⟨k, hks'⟩ hk b
    rw [← hσ, XR.fin_le_fin] at this
    have hfb : f b = 0 := hself _
    rw [hfb] at this
    by_contra hc
    exact absurd this (not_le.2 (hdiff' b _ (Ne.symm hc)))
  have hepos : 0 < e := by
    refine hdiff' b _ (fun hc => ?_)
    rw [← hone] at hc
    have := σ.injective hc
    exact absurd (Fin.mk.inj this) (by decide)
  have hkpos : (0 : ℝ) < k := by exact_mod_cast (by omega : 0 < k)
  -- the rest of the mean is positive
  have hrest : 0 < Spec.meanOver N' f - e / k := by
    have hsum := train_sum (swapped (XR ℝ)) f b (hself _) (fun _ => h0 _ _) k hks' N' h2
    have : Spec.meanOver N' f - e / k = (∑ c : Fin k, f (σ ⟨c.val + 1, by omega⟩)) / k := by
      unfold Spec.meanOver
      rw [h2.card, ← sub_div, hsum]
    rw [this]
    refine div_pos (Finset.sum_pos' (fun _ _ => h0 _ _) ⟨⟨1, by omega⟩, Finset.mem_univ _, ?_⟩) hkpos
    refine hdiff' b _ (fun hc => ?_)
    rw [← hone] at hc
    have := Fin.mk.inj (σ.injective hc)
    change 1 = 1 + 1 at this
    omega
  set M := Spec.meanOver N (fun c => dist metric (T i) (X (out.ind.get c))) with hM
  have hpos : 0 < M * (Spec.meanOver N' f - e / k) := mul_pos hp hrest
  have hne := (Real.sqrt_pos.2 hpos).ne'
  refine ⟨dist metric (T i) (X (out.ind.get b)) / √(M * (Spec.meanOver N' f - e / k)), ?_, ?_⟩
  · rw [MPPar.sqrt_fin hpos.le]
    simp only [XR.div, hne, if_false]
  · refine div_lt_div_of_pos_left hdp (Real.sqrt_pos.2 hpos) (Real.sqrt_lt_sqrt hpos.le ?_)
    have : 0 < e / k := div_pos hepos hkpos
    nlinarith

end HubToolbox.Approx
