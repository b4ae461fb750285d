import Verif.Approx.Units
import Verif.Approx.Local

/-!
# `SuQHR`: order of distances, order of vantage points

Empirical Mutual Proximity to fixed vantage points depends on the order of the distances only. For all hubness reduction
methods it matters which objects are vantage points, but not in which order they were drawn nor how the training objects
are numbered.
-/

set_option autoImplicit false

namespace HubToolbox.Approx

section

variable {K : Type} [Field K] [LinearOrder K] [IsStrictOrderedRing K]

/-- C250: without sampling or with random vantage points, empirical Mutual Proximity depends on nothing but the order of
the distances. -/
theorem C250_order {P P' : Type} (w : World K) (dist : String → P → P → K) (dist' : String → P' → P' → K) (metric : String)
    (smp : Sampling) (hs : smp ≠ .kmeanspp) (nSamples : ℕ) (nJobs : ℤ) {n t : ℕ} (X : Fin n → P) (X' : Fin n → P')
    (T : Fin t → P) (T' : Fin t → P')
    (hT : ∀ i j x, dist' metric (T' i) (X' j) < dist' metric (T' i) (X' x) ↔
      dist metric (T i) (X j) < dist metric (T i) (X x))
    (hX : ∀ i j x, dist' metric (T' i) (X' j) < dist' metric (X' j) (X' x) ↔
      dist metric (T i) (X j) < dist metric (X j) (X x)) :
    suqhrMP w dist' metric smp nSamples nJobs X' T' = suqhrMP w dist metric smp nSamples nJobs X T := by
  have hv : vantage w (fun i j => dist' metric (X' i) (X' j)) metric smp nSamples =
      vantage w (fun i j => dist metric (X i) (X j)) metric smp nSamples := by
    cases smp with
    | random => rfl
    | all => rfl
    | kmeanspp => exact absurd rfl hs
  unfold suqhrMP
  rw [hv]
  simp only [mpMatrix_eq, mpRow_eq, hT, hX]

/-- C250 for a monotone transformation of the distances, such as distances instead of squared distances. -/
theorem C250_monotone {P : Type} (w : World K) (dist : String → P → P → K) (φ : K → K) (hφ : StrictMonoOn φ (Set.Ici 0))
    (metric : String) (h0 : ∀ p q, 0 ≤ dist metric p q) (smp : Sampling) (hs : smp ≠ .kmeanspp) (nSamples : ℕ) (nJobs : ℤ)
    {n t : ℕ} (X : Fin n → P) (T : Fin t → P) :
    suqhrMP w (fun m p q => φ (dist m p q)) metric smp nSamples nJobs X T =
      suqhrMP w dist metric smp nSamples nJobs X T :=
  C250_order w dist _ metric smp hs nSamples nJobs X X T T
    (fun _ _ _ => hφ.lt_iff_lt (h0 _ _) (h0 _ _)) (fun _ _ _ => hφ.lt_iff_lt (h0 _ _) (h0 _ _))

theorem empiricMP_equiv {s s' : ℕ} (e : Fin s' ≃ Fin s) (dq : Fin s → K) (d : Fin s → Fin s → K) (j : Fin s') :
    Spec.empiricMP (fun b => dq (e b)) (fun a b => d (e a) (e b)) j = Spec.empiricMP dq d (e j) := by
  have hs : s' = s := by simpa using Fintype.card_congr e
  unfold Spec.empiricMP
  congr 2
  · congr 1
    refine Finset.card_bij (fun x _ => e x) ?_ (fun _ _ _ _ h => e.injective h) ?_
    · intro x hx
      simpa using hx
    · intro y hy
      exact ⟨e.symm y, by simpa using hy, by simp⟩
  · rw [hs]

/-- C251, empirical Mutual Proximity: if two data sets lead to the same vantage points in another order, each test object
has the same secondary distance to each of them. -/
theorem C251_mp {P : Type} (w w' : World K) (dist : String → P → P → K) (metric : String) (smp smp' : Sampling)
    (nSamples nSamples' : ℕ) (nJobs nJobs' : ℤ) {n n' t : ℕ} (X : Fin n → P) (X' : Fin n' → P) (T : Fin t → P)
    (out : Out K t n) (out' : Out K t n') (h : suqhrMP w dist metric smp nSamples nJobs X T = .ok out)
    (h' : suqhrMP w' dist metric smp' nSamples' nJobs' X' T = .ok out') (e : Fin out'.ind.length ≃ Fin out.ind.length)
    (he : ∀ c, X' (out'.ind.get c) = X (out.ind.get (e c))) (i : Fin t) (c : Fin out'.ind.length) :
    out'.dist i c = out.dist i (e c) := by
  rw [C120_formula _ _ _ _ _ _ _ _ _ h, C120_formula _ _ _ _ _ _ _ _ _ h']
  simp only [he]
  rw [empiricMP_equiv e (fun b => dist metric (T i) (X (out.ind.get b)))
    (fun a b => dist metric (X (out.ind.get a)) (X (out.ind.get b)))]

/-- C251, empirical Mutual Proximity without sampling: renumbering the training objects renumbers the columns. -/
theorem C251_mp_all {P : Type} (w : World K) (dist : String → P → P → K) (metric : String)
    (nSamples : ℕ) (nJobs : ℤ) {n t : ℕ} (σ : Equiv.Perm (Fin n)) (X : Fin n → P) (T : Fin t → P)
    (out out' : Out K t n) (h : suqhrMP w dist metric .all nSamples nJobs X T = .ok out)
    (h' : suqhrMP w dist metric .all nSamples nJobs (fun a => X (σ a)) T = .ok out') (i : Fin t) (x : Fin n) :
    out'.sparse i x = out.sparse i (σ x) := by
  obtain ⟨hv, -, -, -⟩ := suqhrMP_char _ _ _ _ _ _ _ _ _ h
  obtain ⟨hv', -, -, -⟩ := suqhrMP_char _ _ _ _ _ _ _ _ _ h'
  have hi : out.ind = List.finRange n := (Except.ok.inj hv).symm
  have hi' : out'.ind = List.finRange n := (Except.ok.inj hv').symm
  have hl : out.ind.length = n := by rw [hi, List.length_finRange]
  have hl' : out'.ind.length = n := by rw [hi', List.length_finRange]
  have hg : ∀ c : Fin out.ind.length, out.ind.get c = finCongr hl c := by
    intro c
    apply Fin.ext
    simp [hi]
  have hg' : ∀ c : Fin out'.ind.length, out'.ind.get c = finCongr hl' c := by
    intro c
    apply Fin.ext
    simp [hi']
  have hnd : out.ind.Nodup := by rw [hi]; exact List.nodup_finRange n
  have hnd' : out'.ind.Nodup := by rw [hi']; exact List.nodup_finRange n
  have h1 := (C122_sparse_partial _ _ _ _ _ _ _ _ _ h' hnd' i).1 ((finCongr hl').symm x)
  have h2 := (C122_sparse_partial _ _ _ _ _ _ _ _ _ h hnd i).1 ((finCongr hl).symm (σ x))
  rw [hg'] at h1
  rw [hg] at h2
  simp only [Equiv.apply_symm_apply] at h1 h2
  rw [h1, h2, C251_mp w w dist metric .all .all nSamples nSamples nJobs nJobs X _ T out out' h h'
    (((finCongr hl').trans σ).trans (finCongr hl).symm)]
  · simp only [Equiv.trans_apply, Equiv.apply_symm_apply]
  · intro c
    rw [hg', hg]
    simp only [Equiv.trans_apply, Equiv.apply_symm_apply]

end

theorem nanmean_perm {l l' : List ℝ} (h : l.Perm l') : MPPar.nanmean l = MPPar.nanmean l' := by
  unfold MPPar.nanmean
  rw [h.sum_eq, h.length_eq]
  by_cases hl : l' = []
  · rw [if_pos hl, if_pos]
    subst hl
    exact h.eq_nil
  · rw [if_neg hl, if_neg]
    intro h0
    subst h0
    exact hl h.symm.eq_nil

theorem nanvar_perm {l l' : List ℝ} (h : l.Perm l') : MPPar.nanvar 0 l = MPPar.nanvar 0 l' := by
  unfold MPPar.nanvar
  rw [h.sum_eq, h.length_eq, (h.map _).sum_eq]

theorem finRange_equiv {s s' : ℕ} (e : Fin s' ≃ Fin s) : ((List.finRange s').map e).Perm (List.finRange s) := by
  refine (List.perm_ext_iff_of_nodup ((List.nodup_finRange s').map e.injective) (List.nodup_finRange s)).2 (fun x => ?_)
  simp only [List.mem_map, List.mem_finRange, true_and, iff_true]
  exact ⟨e.symm x, by simp⟩

theorem map_equiv {s s' : ℕ} (e : Fin s' ≃ Fin s) (f : Fin s → ℝ) :
    ((List.finRange s').map (fun b => f (e b))).Perm ((List.finRange s).map f) := by
  have := (finRange_equiv e).map f
  rwa [List.map_map] at this

theorem mpgMoments_equiv (smp : Sampling) {s s' : ℕ} (e : Fin s' ≃ Fin s) (D : Fin s → Fin s → ℝ) (j : Fin s') :
    mpgMoments smp (fun a b => D (e a) (e b)) j = mpgMoments smp D (e j) := by
  have hc : (MPPar.colVals (fun a b => D (e a) (e b)) (List.finRange s') j).Perm
      (MPPar.colVals D (List.finRange s) (e j)) := by
    unfold MPPar.colVals
    have := ((finRange_equiv e).filter (fun i => decide (i ≠ e j))).map (fun i => D i (e j))
    rw [List.filter_map, List.map_map] at this
    have hf : ((fun i => decide (i ≠ e j)) ∘ e) = fun i => decide (i ≠ j) := by
      funext i
      simp
    rw [hf] at this
    exact this
  have hd : ((List.finRange s').map (Np.fillDiagonal (fun a b => D (e a) (e b)) 0 j)).Perm
      ((List.finRange s).map (Np.fillDiagonal D 0 (e j))) := by
    have : Np.fillDiagonal (fun a b => D (e a) (e b)) 0 j = fun b => Np.fillDiagonal D 0 (e j) (e b) := by
      funext b
      unfold Np.fillDiagonal
      have hh : (j.val = b.val) ↔ ((e j).val = (e b).val) := by
        rw [← Fin.ext_iff, ← Fin.ext_iff, e.injective.eq_iff]
      by_cases hb : j.val = b.val
      · rw [if_pos hb, if_pos (hh.1 hb)]
      · rw [if_neg hb, if_neg (fun h => hb (hh.2 h))]
    rw [this]
    exact map_equiv e _
  unfold mpgMoments
  by_cases h : smp = .all
  · simp only [if_pos h, nanmean_perm hc, nanvar_perm hc]
  · simp only [if_neg h, nanmean_perm hd, nanvar_perm hd]

/-- C251, Gaussian Mutual Proximity. -/
theorem C251_mpg {P : Type} (F : MPPar.Dists) (w w' : World ℝ) (dist : String → P → P → ℝ) (metric : String)
    (smp : Sampling) (nSamples nSamples' : ℕ) {n n' t : ℕ} (X : Fin n → P) (X' : Fin n' → P) (T : Fin t → P)
    (out : Out ℝ t n) (out' : Out ℝ t n') (h : suqhrMPG F w dist metric smp nSamples X T = .ok out)
    (h' : suqhrMPG F w' dist metric smp nSamples' X' T = .ok out') (e : Fin out'.ind.length ≃ Fin out.ind.length)
    (he : ∀ c, X' (out'.ind.get c) = X (out.ind.get (e c))) (i : Fin t) (c : Fin out'.ind.length) :
    out'.dist i c = out.dist i (e c) := by
  rw [(suqhrMPG_char F _ _ _ _ _ _ _ _ h).2.2, (suqhrMPG_char F _ _ _ _ _ _ _ _ h').2.2]
  simp only [he]
  have hp := map_equiv e (fun b => dist metric (T i) (X (out.ind.get b)))
  unfold mpgRow
  simp only [nanmean_perm hp, nanvar_perm hp,
    mpgMoments_equiv smp e (fun a b => dist metric (X (out.ind.get a)) (X (out.ind.get b)))]

theorem isRank_equiv {s s' : ℕ} (e : Fin s' ≃ Fin s) (d : Fin s → XR ℝ) (t : ℕ) (v : XR ℝ) (h : IsRank d t v) :
    IsRank (fun b => d (e b)) t v := by
  have hc : ∀ p : Fin s → Prop, ∀ [DecidablePred p], (Finset.univ.filter (fun b => p (e b))).card =
      (Finset.univ.filter p).card := by
    intro p _
    refine Finset.card_bij (fun x _ => e x) ?_ (fun _ _ _ _ h => e.injective h) ?_
    · intro x hx
      simpa using hx
    · intro y hy
      exact ⟨e.symm y, by simpa using hy, by simp⟩
  obtain ⟨c, hcv⟩ := h.attained
  refine ⟨⟨e.symm c, by simpa using hcv⟩, ?_, ?_⟩
  · rw [hc (fun x => d x < v)]
    exact h.below
  · rw [hc (fun x => d x ≤ v)]
    exact h.upto

theorem rank_equiv {s s' : ℕ} (o o' : ArgPart (XR ℝ)) (e : Fin s' ≃ Fin s) (d : Fin s → XR ℝ) (d' : Fin s' → XR ℝ)
    (hd : ∀ b, d' b = d (e b)) (a b : ℕ) (hab : b = a) (ha : a < s) (ha' : a < s') (hb : b < s) (hb' : b < s') :
    d' (o'.run d' (fun _ : Fin 1 => ⟨a, ha'⟩) ⟨b, hb'⟩) = d (o.run d (fun _ : Fin 1 => ⟨a, ha⟩) ⟨b, hb⟩) := by
  subst hab
  have h1 := ArgPart.isRank o' d' (fun _ : Fin 1 => ⟨b, ha'⟩) 0
  have h2 := isRank_equiv e _ _ _ (ArgPart.isRank o d (fun _ : Fin 1 => ⟨b, ha⟩) 0)
  have hd' : (fun b => d (e b)) = d' := funext (fun b => (hd b).symm)
  rw [hd'] at h2
  exact h1.unique h2

/-- C251, local scaling. -/
theorem C251_ls {P : Type} (w w' : World ℝ) (o o' : ArgPart (XR ℝ)) (dist : String → P → P → ℝ) (metric : String)
    (hm : VMetric metric) (smp smp' : Sampling) (nSamples nSamples' : ℕ) (k : ℕ) (hk : 0 < k) {n n' t : ℕ} (X : Fin n → P)
    (X' : Fin n' → P) (T : Fin t → P) (ind : List (Fin n)) (ind' : List (Fin n'))
    (hv : vantage w (fun i j => dist metric (X i) (X j)) metric smp nSamples = .ok ind)
    (hv' : vantage w' (fun i j => dist metric (X' i) (X' j)) metric smp' nSamples' = .ok ind') (hks : k < ind.length)
    (e : Fin ind'.length ≃ Fin ind.length) (he : ∀ c, X' (ind'.get c) = X (ind.get (e c))) :
    ∃ (out : Out ℝ t n) (out' : Out ℝ t n') (hi : out.ind = ind) (hi' : out'.ind = ind'),
      suqhrLS w o dist metric smp nSamples false k X T = .ok out ∧
      suqhrLS w' o' dist metric smp' nSamples' false k X' T = .ok out' ∧
      ∀ i c, out'.dist i (Fin.cast (by rw [hi']) c) = out.dist i (Fin.cast (by rw [hi]) (e c)) := by
  have hl : ind'.length = ind.length := by simpa using Fintype.card_congr e
  obtain ⟨out, ho, hi, hd⟩ := suqhrLS_char w o dist metric smp nSamples false k hk X T ind hv hm hks
  obtain ⟨out', ho', hi', hd'⟩ := suqhrLS_char w' o' dist metric smp' nSamples' false k hk X' T ind' hv' hm (hl ▸ hks)
  refine ⟨out, out', hi, hi', ho, ho', fun i c => ?_⟩
  rw [hd, hd']
  subst hi hi'
  simp only [Fin.cast_eq_self]
  unfold lsEntry lastOf
  rw [if_neg (by decide), if_neg (by decide), dif_pos hk, dif_pos hk, dif_pos hk, dif_pos hk]
  have hk1 : k - 1 + 1 = k := by omega
  have e1 := rank_equiv o o' e (fun b => (.fin (dist metric (T i) (X (out.ind.get b))) : XR ℝ))
    (fun b => .fin (dist metric (T i) (X' (out'.ind.get b)))) (fun b => by rw [he]) (k - 1) (k - 1) rfl (by omega) (by omega)
    (by omega) (by omega)
  have e2 := rank_equiv o o' e (fun b => (.fin (dist metric (X (out.ind.get (e c))) (X (out.ind.get b))) : XR ℝ))
    (fun b => .fin (dist metric (X' (out'.ind.get c)) (X' (out'.ind.get b)))) (fun b => by rw [he, he]) k (k - 1 + 1) hk1
    (by omega) (by omega) (by omega) (by omega)
  rw [he c] at e2 ⊢
  exact congrArg₂ (LS.entry "distance" _) e1 e2

/-- Hypothesis check: three numbers on a line, in two orders. -/
example : ∀ c : Fin 3, (![(4 : ℝ), 0, 1] : Fin 3 → ℝ) c = (![(0 : ℝ), 1, 4] : Fin 3 → ℝ) (finRotate 3 |>.symm c) := by
  intro c
  fin_cases c
  · have : (finRotate 3).symm (0 : Fin 3) = 2 := by decide
    simp [this]
  · have : (finRotate 3).symm (1 : Fin 3) = 0 := by decide
    simp [this]
  · have : (finRotate 3).symm (2 : Fin 3) = 1 := by decide
    simp [this]

/-- Squared distances have the order of the distances. -/
example : StrictMonoOn (fun x : ℚ => x ^ 2) (Set.Ici 0) := pow_left_strictMonoOn₀ (by norm_num)

end HubToolbox.Approx
