import Verif.Relations.Monotone

/-!
# Which primary distances a secondary distance depends on

C216: the secondary distance of two objects depends on the primary distances of these two objects only, for Mutual Proximity
(empirical, Gaussian, gamma), Local Scaling and shared nearest neighbours. So distances among other objects may be unknown,
and may change, without affecting it. For NICDM the distances among other objects enter as a common factor of all values. For
`simhub` they matter.
-/

set_option autoImplicit false

namespace HubToolbox.Spec

/-- `x` and `y` are symmetric and agree on the distances of the objects `a` and `b`. -/
structure SameRows {α : Type} {n : ℕ} (x y : Fin n → Fin n → α) (a b : Fin n) : Prop where
  symm : ∀ i j, x i j = x j i
  symm' : ∀ i j, y i j = y j i
  left : y a = x a
  right : y b = x b

end HubToolbox.Spec

namespace HubToolbox.MPEmp

open HubToolbox HubToolbox.Spec

variable {K : Type} [Field K] [LinearOrder K] [IsStrictOrderedRing K]

/-- **C216** (empirical Mutual Proximity). -/
theorem C216_mp (order order' : Order K) {n : ℕ} (D D' : Fin n → Fin n → XR K) (metric : String)
    (hm : metric = "distance" ∨ metric = "similarity") (test test' : Option TestArg) (minNnz minNnz' : ℤ)
    (M M' : Fin n → Fin n → K) (h : full order (.obj (.mat false n n D)) metric test minNnz = .ok (.dense n M))
    (h' : full order' (.obj (.mat false n n D')) metric test' minNnz' = .ok (.dense n M')) (a b : Fin n)
    (hr : SameRows D D' a b) (hp : metric = "similarity" → D a b ≠ .pinf) : M' a b = M a b := by
  have e : D' a b = D a b := by rw [hr.left]
  rcases hm with hm | hm
  · rw [(C21_computes_definition order D false metric test minNnz M h hr.symm a b).1 hm,
      (C21_computes_definition order' D' false metric test' minNnz' M' h' hr.symm' a b).1 hm, mpDistance, mpDistance,
      farther, farther, hr.left, hr.right]
  · rw [(C21_computes_definition order D false metric test minNnz M h hr.symm a b).2 hm (hp hm),
      (C21_computes_definition order' D' false metric test' minNnz' M' h' hr.symm' a b).2 hm (by rw [e]; exact hp hm),
      mpSimilarity, mpSimilarity, lessSimilar, lessSimilar, hr.left, hr.right]

end HubToolbox.MPEmp

namespace HubToolbox.MPPar

open HubToolbox

/-- **C216** (Gaussian Mutual Proximity). -/
theorem C216_gaussi (F : Dists) {n : ℕ} (D D' : Fin n → Fin n → ℝ) (metric : String) (hm : Spec.IsMetric metric) (mn mn' : ℤ)
    (test : Option (List ℤ)) (hne : ∀ j, ((Spec.training n test).erase j).Nonempty) (a b : Fin n)
    (hr : Spec.SameRows D D' a b) :
    ∃ M M' : Fin n → Fin n → ℝ, gaussi F (.mat false n n D) metric 0 mn test none = .ok ⟨n, n, fun i j => .fin (M i j)⟩ ∧
      gaussi F (.mat false n n D') metric 0 mn' test none = .ok ⟨n, n, fun i j => .fin (M' i j)⟩ ∧ M' a b = M a b := by
  obtain ⟨M, hM, -, -, hd⟩ := C26_valid F D metric hm mn test hne
  obtain ⟨M', hM', -, -, hd'⟩ := C26_valid F D' metric hm mn' test hne
  obtain ⟨P, hP, hf⟩ := C26_formula F D hr.symm metric hm mn test hne
  obtain ⟨P', hP', hf'⟩ := C26_formula F D' hr.symm' metric hm mn' test hne
  have eP : P = M := by
    have := hP.symm.trans hM
    injection this with this
    simp only [Sigma.mk.injEq, heq_eq_eq, true_and] at this
    funext i j
    exact XR.fin.inj (congrFun (congrFun this i) j)
  have eP' : P' = M' := by
    have := hP'.symm.trans hM'
    injection this with this
    simp only [Sigma.mk.injEq, heq_eq_eq, true_and] at this
    funext i j
    exact XR.fin.inj (congrFun (congrFun this i) j)
  subst eP eP'
  refine ⟨P, P', hP, hP', ?_⟩
  by_cases hab : a = b
  · subst hab; rw [hd, hd']
  · rw [hf a b hab, hf' a b hab, hr.left, hr.right]

/-- **C216** (Mutual Proximity with gamma distributions). -/
theorem C216_gammai (F : Dists) {n : ℕ} (D D' : Fin n → Fin n → ℝ) (metric : String) (hm : Spec.IsMetric metric) (mn mn' : ℤ)
    (test : Option (List ℤ)) (h2 : ∀ j, 2 ≤ ((Spec.training n test).erase j).card)
    (hmu : ∀ j, 0 < Spec.meanOver ((Spec.training n test).erase j) (D j))
    (hmu' : ∀ j, 0 < Spec.meanOver ((Spec.training n test).erase j) (D' j)) (a b : Fin n) (hr : Spec.SameRows D D' a b) :
    ∃ M M' : Fin n → Fin n → ℝ, gammai F (.mat false n n D) metric mn test = .ok ⟨n, fun i j => .fin (M i j)⟩ ∧
      gammai F (.mat false n n D') metric mn' test = .ok ⟨n, fun i j => .fin (M' i j)⟩ ∧ M' a b = M a b := by
  have hc : ∀ j, (fun c => D c j) = D j := fun j => funext fun c => hr.symm c j
  have hc' : ∀ j, (fun c => D' c j) = D' j := fun j => funext fun c => hr.symm' c j
  obtain ⟨M, hM, -, -, hd, hf⟩ := C27_valid_partial F D metric hm mn test h2 (fun j => by rw [hc]; exact hmu j)
  obtain ⟨M', hM', -, -, hd', hf'⟩ := C27_valid_partial F D' metric hm mn' test h2 (fun j => by rw [hc']; exact hmu' j)
  refine ⟨M, M', hM, hM', ?_⟩
  by_cases hab : a = b
  · subst hab; rw [hd, hd']
  · rw [hf a b hab, hf' a b hab, hc, hc, hc', hc', hr.left, hr.right]

end HubToolbox.MPPar

namespace HubToolbox.LS

open HubToolbox

/-- **C216** (Local Scaling). -/
theorem C216_local_scaling (w w' : World) {n : ℕ} (x y : Fin n → Fin n → ℝ) (k : ℕ) (hk : 1 ≤ k)
    (test : Option (List ℤ)) (nJobs nJobs' : ℤ) (hj : nJobs = -1 ∨ 1 ≤ nJobs) (hj' : nJobs' = -1 ∨ 1 ≤ nJobs')
    (r r' : Fin n → ℝ) (hr : ∀ i, Spec.IsKthSmallest ((Spec.training n test).erase i) (x i) k (r i)) (hpos : ∀ i, 0 < r i)
    (hr' : ∀ i, Spec.IsKthSmallest ((Spec.training n test).erase i) (y i) k (r' i)) (hpos' : ∀ i, 0 < r' i)
    (a b : Fin n) (hxy : Spec.SameRows x y a b) :
    ∃ M M' : Fin n → Fin n → ℝ,
      localScaling w (.mat false n n (toXR x)) k "distance" test nJobs = .ok ⟨n, toXR M⟩ ∧
      localScaling w' (.mat false n n (toXR y)) k "distance" test nJobs' = .ok ⟨n, toXR M'⟩ ∧ M' a b = M a b := by
  refine ⟨_, _, C28_formula w x hxy.symm k hk test nJobs hj r hr hpos a.pos,
    C28_formula w' y hxy.symm' k hk test nJobs' hj' r' hr' hpos' a.pos, ?_⟩
  have key : ∀ i, y i = x i → r' i = r i := by
    intro i e
    have h := hr' i
    rw [e] at h
    exact le_antisymm (kthSmallest_mono h (hr i) fun _ _ => le_rfl) (kthSmallest_mono (hr i) h fun _ _ => le_rfl)
  rw [key a hxy.left, key b hxy.right, hxy.left]

/-- **C216** (NICDM): distances among other objects enter as a common factor only, so the order of the values of such pairs
does not depend on them. -/
theorem C216_nicdm (w w' : World) {n : ℕ} (x y : Fin n → Fin n → ℝ) (hx : ∀ i j, x i j = x j i) (hy : ∀ i j, y i j = y j i)
    (k : ℕ) (hk : 1 ≤ k) (test : Option (List ℤ)) (nJobs nJobs' : ℤ) (N N' : Fin n → Finset (Fin n))
    (hN : ∀ i, Spec.IsNearest ((Spec.training n test).erase i) (x i) k (N i)) (hpos : ∀ i, 0 < Spec.meanOver (N i) (x i))
    (hN' : ∀ i, Spec.IsNearest ((Spec.training n test).erase i) (y i) k (N' i)) (hpos' : ∀ i, 0 < Spec.meanOver (N' i) (y i))
    (hn : 0 < n) :
    ∃ (M M' : Fin n → Fin n → ℝ) (c : ℝ), 0 < c ∧
      nicdm w (.mat false n n (toXR x)) k "distance" test nJobs = .ok ⟨n, toXR M⟩ ∧
      nicdm w' (.mat false n n (toXR y)) k "distance" test nJobs' = .ok ⟨n, toXR M'⟩ ∧
      ∀ a b, y a = x a → y b = x b → M' a b = c * M a b := by
  have hg := geometricMean_pos _ hpos
  have hg' := geometricMean_pos _ hpos'
  refine ⟨_, _, _, div_pos hg' hg, C32_formula w x hx k hk test nJobs N hN hpos hn,
    C32_formula w' y hy k hk test nJobs' N' hN' hpos' hn, ?_⟩
  intro a b ea eb
  have key : ∀ i, y i = x i → Spec.meanOver (N' i) (y i) = Spec.meanOver (N i) (x i) := by
    intro i e
    have h := hN' i
    rw [e] at h ⊢
    exact le_antisymm (meanOver_mono h (hN i) fun _ _ => le_rfl) (meanOver_mono (hN i) h fun _ _ => le_rfl)
  by_cases hab : a = b
  · rw [if_pos hab, if_pos hab, mul_zero]
  · rw [if_neg hab, if_neg hab, Spec.nicdm, Spec.nicdm, key a ea, key b eb, ea]
    field_simp

/-- Four objects; the last two may be as near as the first two, or not. -/
def pairs4 (t : ℝ) : Fin 4 → Fin 4 → ℝ := ![![0, 1, 2, 2], ![1, 0, 2, 2], ![2, 2, 0, t], ![2, 2, t, 0]]

theorem pairs4_symm (t : ℝ) (i j : Fin 4) : pairs4 t i j = pairs4 t j i := by fin_cases i <;> fin_cases j <;> rfl

theorem pairs4_zero (t : ℝ) : pairs4 t 0 = ![0, 1, 2, 2] := rfl

theorem pairs4_one (t : ℝ) : pairs4 t 1 = ![1, 0, 2, 2] := rfl

theorem pairs4_same (t t' : ℝ) : Spec.SameRows (pairs4 t) (pairs4 t') 0 1 :=
  ⟨pairs4_symm _, pairs4_symm _, by rw [pairs4_zero, pairs4_zero], by rw [pairs4_one, pairs4_one]⟩

theorem pairs4_nearest (t : ℝ) (ht : t ≤ 2) (i : Fin 4) :
    Spec.IsNearest ((Spec.training 4 none).erase i) (pairs4 t i) 1 (![{1}, {0}, {3}, {2}] i) := by
  have hT : Spec.training 4 none = Finset.univ := by simp [Spec.training]
  rw [hT]
  fin_cases i
  · refine nearest_one 1 (by decide) (fun l hl => ?_)
    fin_cases l <;> first | (exfalso; revert hl; decide) | norm_num [pairs4]
  · refine nearest_one 0 (by decide) (fun l hl => ?_)
    fin_cases l <;> first | (exfalso; revert hl; decide) | norm_num [pairs4]
  · refine nearest_one 3 (by decide) (fun l hl => ?_)
    fin_cases l
    · exact ht
    · exact ht
    · exact absurd hl (by decide)
    · exact le_rfl
  · refine nearest_one 2 (by decide) (fun l hl => ?_)
    fin_cases l
    · exact ht
    · exact ht
    · exact le_rfl
    · exact absurd hl (by decide)

theorem pairs4_mean (t : ℝ) (i : Fin 4) :
    Spec.meanOver ((![{1}, {0}, {3}, {2}] : Fin 4 → Finset (Fin 4)) i) (pairs4 t i) = (![1, 1, t, t] : Fin 4 → ℝ) i := by
  fin_cases i <;> simp [Spec.meanOver, pairs4]

theorem pairs4_pos (t : ℝ) (ht : 0 < t) (i : Fin 4) :
    0 < Spec.meanOver ((![{1}, {0}, {3}, {2}] : Fin 4 → Finset (Fin 4)) i) (pairs4 t i) := by
  rw [pairs4_mean]
  fin_cases i <;> simp [ht]

theorem pairs4_geomean (t : ℝ) : Spec.geometricMean (fun i => Spec.meanOver
    ((![{1}, {0}, {3}, {2}] : Fin 4 → Finset (Fin 4)) i) (pairs4 t i)) = (t * t) ^ ((1 : ℝ) / (4 : ℕ)) := by
  unfold Spec.geometricMean
  congr 1
  simp only [pairs4_mean]
  rw [Fin.prod_univ_four]
  change 1 * 1 * t * t = _
  ring

/-- **C216** (NICDM) is violated: if two objects move apart, the NICDM of two other objects changes. -/
theorem C216_nicdm_violated : ∃ (n : ℕ) (x y : Fin n → Fin n → ℝ) (a b : Fin n), Spec.SameRows x y a b ∧
    ∀ (w w' : World) (nJobs nJobs' : ℤ), ∃ M M' : Fin n → Fin n → ℝ,
      nicdm w (.mat false n n (toXR x)) 1 "distance" none nJobs = .ok ⟨n, toXR M⟩ ∧
      nicdm w' (.mat false n n (toXR y)) 1 "distance" none nJobs' = .ok ⟨n, toXR M'⟩ ∧ M a b < M' a b := by
  refine ⟨4, pairs4 1, pairs4 2, 0, 1, pairs4_same _ _, ?_⟩
  intro w w' nJobs nJobs'
  refine ⟨_, _, C32_formula w _ (pairs4_symm _) 1 le_rfl none nJobs _ (pairs4_nearest 1 (by norm_num)) (pairs4_pos 1 (by norm_num))
    (by norm_num),
    C32_formula w' _ (pairs4_symm _) 1 le_rfl none nJobs' _ (pairs4_nearest 2 le_rfl) (pairs4_pos 2 (by norm_num)) (by norm_num), ?_⟩
  rw [if_neg (by decide), if_neg (by decide), Spec.nicdm, Spec.nicdm, pairs4_geomean, pairs4_geomean, pairs4_mean, pairs4_mean,
    pairs4_mean, pairs4_mean]
  change ((1 : ℝ) * 1) ^ ((1 : ℝ) / (4 : ℕ)) * 1 / √(1 * 1) < ((2 : ℝ) * 2) ^ ((1 : ℝ) / (4 : ℕ)) * 1 / √(1 * 1)
  rw [one_mul, Real.sqrt_one, div_one, div_one, mul_one, mul_one, Real.one_rpow]
  exact Real.one_lt_rpow (by norm_num) (by norm_num)

end HubToolbox.LS

namespace HubToolbox.SNN

open HubToolbox

/-- **C216** (shared nearest neighbours). -/
theorem C216_snn {K : Type} [Field K] [LinearOrder K] [IsStrictOrderedRing K] (w w' : World K) {n : ℕ}
    (x y : Fin n → Fin n → K) (k : ℕ) (h1 : 1 ≤ k) (hk : k < n) (metric : String)
    (hm : metric = "distance" ∨ metric = "similarity") (nJobs nJobs' : ℤ) (a b : Fin n) (ha : y a = x a) (hb : y b = x b)
    (ta : ∀ c d, c ≠ a → d ≠ a → x a c = x a d → c = d) (tb : ∀ c d, c ≠ b → d ≠ b → x b c = x b d → c = d) :
    ∃ M M' : Fin n → Fin n → XR K,
      sharedNearestNeighbors w (.mat false n n fun i j => .fin (x i j)) k metric nJobs = .ok ⟨n, M⟩ ∧
      sharedNearestNeighbors w' (.mat false n n fun i j => .fin (y i j)) k metric nJobs' = .ok ⟨n, M'⟩ ∧ M' a b = M a b := by
  obtain ⟨N, hN, h⟩ := C34_formula w _ x (fun _ _ _ => rfl) k h1 hk metric hm nJobs
  obtain ⟨N', hN', h'⟩ := C34_formula w' _ y (fun _ _ _ => rfl) k h1 hk metric hm nJobs'
  refine ⟨_, _, h, h', ?_⟩
  have key : ∀ i, y i = x i → (∀ c d, c ≠ i → d ≠ i → x i c = x i d → c = d) → N' i = N i := by
    intro i e t
    have h := hN' i
    rw [e] at h
    refine IsHood.unique h (hN i) ?_
    intro c hc d hd hcd
    simp only [Finset.coe_erase, Finset.coe_univ, Set.mem_diff, Set.mem_univ, Set.mem_singleton_iff, true_and] at hc hd
    exact t c d hc hd hcd
  rw [key a ha ta, key b hb tb]

/-- Four objects before and after the last two moved together; both are metrics. -/
def wide4 : Fin 4 → Fin 4 → ℕ := ![![0, 16, 8, 12], ![16, 0, 11, 18], ![8, 11, 0, 14], ![12, 18, 14, 0]]

@[inherit_doc wide4]
def tight4 : Fin 4 → Fin 4 → ℕ := ![![0, 16, 8, 12], ![16, 0, 11, 18], ![8, 11, 0, 10], ![12, 18, 10, 0]]

theorem tight4_zero : (fun j => (tight4 0 j : ℝ)) = fun j => (wide4 0 j : ℝ) :=
  funext fun j => by rw [(by decide : ∀ j, tight4 0 j = wide4 0 j) j]

theorem tight4_one : (fun j => (tight4 1 j : ℝ)) = fun j => (wide4 1 j : ℝ) :=
  funext fun j => by rw [(by decide : ∀ j, tight4 1 j = wide4 1 j) j]

/-- **C216** (`simhubIN`) is violated: if two objects come closer, the `simhub` distance of another pair changes, since the
occurrence of a common neighbour does. -/
theorem C216_simhub_violated : ∃ (n : ℕ) (x y : Fin n → Fin n → ℝ) (a b : Fin n), a ≠ b ∧ Spec.SameRows x y a b ∧
    (∀ i j l, x i l ≤ x i j + x j l) ∧ (∀ i j l, y i l ≤ y i j + y j l) ∧
    ∀ (w w' : World ℝ) (nJobs nJobs' : ℤ), ∃ (M M' : Fin n → Fin n → XR ℝ) (p q : ℝ),
      simhubIN w (.mat false n n fun i j => .fin (x i j)) none none 1 true nJobs = .ok ⟨n, n, M⟩ ∧
      simhubIN w' (.mat false n n fun i j => .fin (y i j)) none none 1 true nJobs' = .ok ⟨n, n, M'⟩ ∧
      M a b = .fin p ∧ M' a b = .fin q ∧ p < q := by
  refine ⟨4, fun i j => wide4 i j, fun i j => tight4 i j, 0, 1, by decide, ⟨?_, ?_, tight4_zero, tight4_one⟩, ?_, ?_, ?_⟩
  · intro i j; exact_mod_cast (by decide : ∀ i j, wide4 i j = wide4 j i) i j
  · intro i j; exact_mod_cast (by decide : ∀ i j, tight4 i j = tight4 j i) i j
  · intro i j l; beta_reduce; exact_mod_cast (by decide : ∀ i j l, wide4 i l ≤ wide4 i j + wide4 j l) i j l
  · intro i j l; beta_reduce; exact_mod_cast (by decide : ∀ i j l, tight4 i l ≤ tight4 i j + tight4 j l) i j l
  · intro w w' nJobs nJobs'
    obtain ⟨N, hN, h⟩ := C35_formula w (fun i j => .fin (wide4 i j : ℝ)) (fun i j => (wide4 i j : ℝ)) (fun _ _ _ => rfl) 1 le_rfl
      (by norm_num) true nJobs
    obtain ⟨N', hN', h'⟩ := C35_formula w' (fun i j => .fin (tight4 i j : ℝ)) (fun i j => (tight4 i j : ℝ)) (fun _ _ _ => rfl) 1 le_rfl
      (by norm_num) true nJobs'
    have eN : N = ![{2}, {2}, {0}, {0}] := by
      funext i
      refine IsHood.unique (hN i) ?_ ?_
      · fin_cases i <;> exact isHood_cast _ _ _ _ (by decide) (by decide) (by decide)
      · intro a ha b hb hab
        simp only [Finset.coe_erase, Finset.coe_univ, Set.mem_diff, Set.mem_univ, Set.mem_singleton_iff, true_and] at ha hb
        exact (by decide : ∀ i a b, a ≠ i → b ≠ i → wide4 i a = wide4 i b → a = b) i a b ha hb
          (by beta_reduce at hab; exact_mod_cast hab)
    have eN' : N' = ![{2}, {2}, {0}, {2}] := by
      funext i
      refine IsHood.unique (hN' i) ?_ ?_
      · fin_cases i <;> exact isHood_cast _ _ _ _ (by decide) (by decide) (by decide)
      · intro a ha b hb hab
        simp only [Finset.coe_erase, Finset.coe_univ, Set.mem_diff, Set.mem_univ, Set.mem_singleton_iff, true_and] at ha hb
        exact (by decide : ∀ i a b, a ≠ i → b ≠ i → tight4 i a = tight4 i b → a = b) i a b ha hb
          (by beta_reduce at hab; exact_mod_cast hab)
    refine ⟨_, _, _, _, h, h', rfl, rfl, ?_⟩
    rw [if_neg (by decide), if_neg (by decide), eN, eN']
    unfold Spec.orDistance Spec.simhub
    rw [if_pos rfl, if_pos rfl, show ((![{2}, {2}, {0}, {0}] : Fin 4 → Finset (Fin 4)) 0 ∩
        (![{2}, {2}, {0}, {0}] : Fin 4 → Finset (Fin 4)) 1) = {2} by decide,
      show ((![{2}, {2}, {0}, {2}] : Fin 4 → Finset (Fin 4)) 0 ∩ (![{2}, {2}, {0}, {2}] : Fin 4 → Finset (Fin 4)) 1) = {2} by decide,
      Finset.sum_singleton, Finset.sum_singleton,
      show Spec.occurrence Finset.univ (![{2}, {2}, {0}, {0}] : Fin 4 → Finset (Fin 4)) 2 = 3 by decide,
      show Spec.occurrence Finset.univ (![{2}, {2}, {0}, {2}] : Fin 4 → Finset (Fin 4)) 2 = 4 by decide]
    have h1 : 0 < Real.log ((4 : ℕ) / (3 : ℕ) : ℝ) := Real.log_pos (by norm_num)
    have h2 : 0 < Real.log ((4 : ℕ) : ℝ) := Real.log_pos (by norm_num)
    have h3 : Real.log ((4 : ℕ) / (4 : ℕ) : ℝ) = 0 := by rw [div_self (by norm_num), Real.log_one]
    have : 0 < Real.log ((4 : ℕ) / (3 : ℕ) : ℝ) * 1 / ((1 : ℕ) * Real.log ((4 : ℕ) : ℝ) * 1) := by
      have : ((1 : ℕ) : ℝ) = 1 := Nat.cast_one
      rw [this]; positivity
    rw [h3, zero_mul, zero_div]
    linarith

end HubToolbox.SNN

/-! ### The hypotheses are satisfiable -/

namespace HubToolbox

theorem training4_card (j : Fin 4) : ((Spec.training 4 none).erase j).card = 3 := by
  have hT : Spec.training 4 none = Finset.univ := by simp [Spec.training]
  rw [hT]; fin_cases j <;> decide

theorem pairs4_radii (t : ℝ) (ht : t ≤ 2) (i : Fin 4) :
    Spec.IsKthSmallest ((Spec.training 4 none).erase i) (LS.pairs4 t i) 1 ((![1, 1, t, t] : Fin 4 → ℝ) i) := by
  have h := LS.pairs4_nearest t ht i
  rw [← LS.pairs4_mean t i]
  have key : ∀ j, Spec.IsNearest ((Spec.training 4 none).erase i) (LS.pairs4 t i) 1 {j} →
      Spec.IsKthSmallest ((Spec.training 4 none).erase i) (LS.pairs4 t i) 1 (Spec.meanOver {j} (LS.pairs4 t i)) := by
    intro j hj
    refine LS.kthSmallest_one j (hj.sub (Finset.mem_singleton_self j)) (by simp [Spec.meanOver]) (fun l hl => ?_)
    have e : Spec.meanOver {j} (LS.pairs4 t i) = LS.pairs4 t i j := by simp [Spec.meanOver]
    rw [e]
    by_cases hlj : l = j
    · rw [hlj]
    · exact hj.best j (Finset.mem_singleton_self j) l hl (fun h => hlj (Finset.mem_singleton.1 h))
  fin_cases i <;> exact key _ h

theorem pairs4_radii_pos (t : ℝ) (ht : 0 < t) (i : Fin 4) : 0 < (![1, 1, t, t] : Fin 4 → ℝ) i := by
  fin_cases i <;> simp [ht]

example (order order' : MPEmp.Order ℚ) := MPEmp.C216_mp order order' (fun i j : Fin 4 => .fin (i.val + j.val + 1 : ℚ))
  (fun i j => .fin (if i = 3 ∧ j = 2 ∨ i = 2 ∧ j = 3 then 9 else i.val + j.val + 1 : ℚ)) "distance" (.inl rfl) none none 0 0 _ _ rfl rfl
  0 1 ⟨by decide +kernel, by decide +kernel, by decide +kernel, by decide +kernel⟩ (by decide)

example (F : MPPar.Dists) := MPPar.C216_gaussi F _ _ "distance" (Or.inr rfl) 0 0 none
  (fun j => Finset.card_pos.1 (by rw [training4_card]; norm_num)) 0 1 (LS.pairs4_same 1 2)

example (F : MPPar.Dists) := MPPar.C216_gammai F _ _ "distance" (Or.inr rfl) 0 0 none
  (fun j => by rw [training4_card]; norm_num)
  (fun j => by
    have hT : Spec.training 4 none = Finset.univ := by simp [Spec.training]
    rw [hT]
    fin_cases j <;> simp [Spec.meanOver, LS.pairs4, show Finset.univ.erase (0 : Fin 4) = {1, 2, 3} by decide,
      show Finset.univ.erase (1 : Fin 4) = {0, 2, 3} by decide, show Finset.univ.erase (2 : Fin 4) = {0, 1, 3} by decide,
      show Finset.univ.erase (3 : Fin 4) = {0, 1, 2} by decide] <;> norm_num)
  (fun j => by
    have hT : Spec.training 4 none = Finset.univ := by simp [Spec.training]
    rw [hT]
    fin_cases j <;> simp [Spec.meanOver, LS.pairs4, show Finset.univ.erase (0 : Fin 4) = {1, 2, 3} by decide,
      show Finset.univ.erase (1 : Fin 4) = {0, 2, 3} by decide, show Finset.univ.erase (2 : Fin 4) = {0, 1, 3} by decide,
      show Finset.univ.erase (3 : Fin 4) = {0, 1, 2} by decide] <;> norm_num) 0 1 (LS.pairs4_same 1 2)

example (w w' : LS.World) := LS.C216_local_scaling w w' _ _ 1 le_rfl none 1 4 (by norm_num) (by norm_num) _ _
  (pairs4_radii 1 (by norm_num)) (pairs4_radii_pos 1 (by norm_num)) (pairs4_radii 2 le_rfl) (pairs4_radii_pos 2 (by norm_num)) 0 1
  (LS.pairs4_same 1 2)

example (w w' : LS.World) := LS.C216_nicdm w w' _ _ (LS.pairs4_symm _) (LS.pairs4_symm _) 1 le_rfl none 1 4 _ _
  (LS.pairs4_nearest 1 (by norm_num)) (LS.pairs4_pos 1 (by norm_num)) (LS.pairs4_nearest 2 le_rfl) (LS.pairs4_pos 2 (by norm_num))
  (by norm_num)

example (w w' : SNN.World ℝ) := SNN.C216_snn w w' (fun i j => (SNN.wide4 i j : ℝ)) (fun i j => (SNN.tight4 i j : ℝ)) 2 (by norm_num)
  (by norm_num) "distance" (.inl rfl) 1 4 0 1 SNN.tight4_zero SNN.tight4_one
  (fun c d hc hd h => (by decide : ∀ c d, c ≠ 0 → d ≠ 0 → SNN.wide4 0 c = SNN.wide4 0 d → c = d) c d hc hd (by exact_mod_cast h))
  (fun c d hc hd h => (by decide : ∀ c d, c ≠ 1 → d ≠ 1 → SNN.wide4 1 c = SNN.wide4 1 d → c = d) c d hc hd (by exact_mod_cast h))

end HubToolbox
