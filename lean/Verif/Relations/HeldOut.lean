import Verif.Relations.Clusters

/-!
# C276: held-out objects and the others

`e` lists some of the objects, among them all which are not held out.
-/

set_option autoImplicit false

namespace HubToolbox.LS

open HubToolbox.Spec

theorem kth_map {m n k : ℕ} {S : Finset (Fin m)} {e : Fin m ↪ Fin n} {f : Fin n → ℝ} {ρ : ℝ} (h : IsKthSmallest S (fun a => f (e a)) k ρ) :
    IsKthSmallest (S.map e) f k ρ := by
  have hc : ∀ (p : Fin n → Prop) [DecidablePred p], ((S.map e).filter p).card = (S.filter fun a => p (e a)).card := fun p _ => by
    rw [Finset.filter_map, Finset.card_map]
    rfl
  refine ⟨?_, ?_, ?_⟩
  · obtain ⟨a, ha, h1⟩ := h.attained
    exact ⟨e a, Finset.mem_map_of_mem e ha, h1⟩
  · rw [hc]
    exact h.below
  · rw [hc]
    exact h.upto

theorem nearest_map {m n k : ℕ} {S : Finset (Fin m)} {e : Fin m ↪ Fin n} {f : Fin n → ℝ} {N : Finset (Fin m)}
    (h : IsNearest S (fun a => f (e a)) k N) : IsNearest (S.map e) f k (N.map e) := by
  refine ⟨Finset.map_subset_map.2 h.sub, by rw [Finset.card_map, h.card], fun a ha b hb hbn => ?_⟩
  obtain ⟨a, ha', rfl⟩ := Finset.mem_map.1 ha
  obtain ⟨b, hb', rfl⟩ := Finset.mem_map.1 hb
  exact h.best a ha' b hb' fun h' => hbn (Finset.mem_map_of_mem e h')

/-- `e` lists all objects which are not held out, and `test'` are the numbers of the held-out objects in the list. -/
structure KeepsTraining {m n : ℕ} (e : Fin m ↪ Fin n) (test : List ℤ) (test' : Option (List ℤ)) : Prop where
  all : ∀ j ∈ training n (some test), ∃ a, e a = j
  same : ∀ a, a ∈ training m test' ↔ e a ∈ training n (some test)

theorem KeepsTraining.map {m n : ℕ} {e : Fin m ↪ Fin n} {test : List ℤ} {test' : Option (List ℤ)} (h : KeepsTraining e test test') (a : Fin m) :
    ((training m test').erase a).map e = (training n (some test)).erase (e a) := by
  ext z
  rw [Finset.mem_map, Finset.mem_erase]
  constructor
  · rintro ⟨b, hb, rfl⟩
    obtain ⟨h1, h2⟩ := Finset.mem_erase.1 hb
    exact ⟨fun h' => h1 (e.injective h'), (h.same b).1 h2⟩
  · rintro ⟨h1, h2⟩
    obtain ⟨b, rfl⟩ := h.all z h2
    exact ⟨b, Finset.mem_erase.2 ⟨fun h' => h1 (by rw [h']), (h.same b).2 h2⟩, rfl⟩

section
variable (w w' : World) {m n : ℕ} (x : Fin n → Fin n → ℝ) (hsym : ∀ i j, x i j = x j i) (hx : ∀ i j, i ≠ j → 0 < x i j)
  (test : List ℤ) (e : Fin m ↪ Fin n) (test' : Option (List ℤ)) (he : KeepsTraining e test test') (k : ℕ) (h1 : 1 ≤ k)
  (hk : k < (training m test').card) (nJobs nJobs' : ℤ)
include hsym hx he h1 hk

theorem heldOut_card : (∀ a : Fin m, k ≤ ((training m test').erase a).card) ∧ ∀ i : Fin n, k ≤ ((training n (some test)).erase i).card := by
  have h2 : ((training m test').map e).card ≤ (training n (some test)).card := Finset.card_le_card fun z hz => by
    obtain ⟨a, ha, rfl⟩ := Finset.mem_map.1 hz
    exact (he.same a).1 ha
  rw [Finset.card_map] at h2
  constructor
  · intro a
    have := Finset.pred_card_le_card_erase (s := training m test') (a := a)
    omega
  · intro i
    have := Finset.pred_card_le_card_erase (s := training n (some test)) (a := i)
    omega

/-- **C276** (Local Scaling): leaving out held-out objects changes nothing for the other objects, held out or not. -/
theorem C276_local_scaling (hj : nJobs = -1 ∨ 1 ≤ nJobs) (hj' : nJobs' = -1 ∨ 1 ≤ nJobs') :
    ∃ (L : Fin n → Fin n → ℝ) (L' : Fin m → Fin m → ℝ), localScaling w (.mat false n n (toXR x)) k "distance" (some test) nJobs = .ok ⟨n, toXR L⟩ ∧
      localScaling w' (.mat false m m (toXR (among x e))) k "distance" test' nJobs' = .ok ⟨m, toXR L'⟩ ∧ ∀ a b, L (e a) (e b) = L' a b := by
  obtain ⟨c1, c2⟩ := heldOut_card x hsym hx test e test' he k h1 hk
  have hm : 0 < m := by
    obtain ⟨a, -⟩ := Finset.card_pos.1 (lt_of_le_of_lt (Nat.zero_le _) hk)
    exact a.pos
  have hn : 0 < n := (e ⟨0, hm⟩).pos
  obtain ⟨r, hr⟩ := C28_radii_exist x k h1 (some test) c2
  obtain ⟨r', hr'⟩ := C28_radii_exist (among x e) k h1 test' c1
  have same : ∀ a, r (e a) = r' a := fun a => by
    have h2 := kth_map (f := x (e a)) (e := e) (hr' a)
    rw [he.map a] at h2
    exact kthSmallest_unique (hr (e a)) h2
  have pos : ∀ i, 0 < r i := fun i => by
    obtain ⟨j, hj, h2⟩ := (hr i).attained
    rw [← h2]
    exact hx _ _ (Finset.mem_erase.1 hj).1.symm
  refine ⟨_, _, C28_formula w x hsym k h1 (some test) nJobs hj r hr pos hn,
    C28_formula w' (among x e) (fun a b => hsym _ _) k h1 test' nJobs' hj' r' hr' (fun a => by rw [← same]; exact pos _) hm, fun a b => ?_⟩
  simp only [e.injective.eq_iff, same, among]

/-- **C276** (NICDM, partial): up to one factor common to all pairs; the factor depends on the objects which have been left out, see
`C276_violated`. -/
theorem C276_partial :
    ∃ (N : Fin n → Fin n → ℝ) (N' : Fin m → Fin m → ℝ) (c : ℝ), nicdm w (.mat false n n (toXR x)) k "distance" (some test) nJobs = .ok ⟨n, toXR N⟩ ∧
      nicdm w' (.mat false m m (toXR (among x e))) k "distance" test' nJobs' = .ok ⟨m, toXR N'⟩ ∧ 0 < c ∧ ∀ a b, N (e a) (e b) = c * N' a b := by
  obtain ⟨c1, c2⟩ := heldOut_card x hsym hx test e test' he k h1 hk
  have hm : 0 < m := by
    obtain ⟨a, -⟩ := Finset.card_pos.1 (lt_of_le_of_lt (Nat.zero_le _) hk)
    exact a.pos
  have hn : 0 < n := (e ⟨0, hm⟩).pos
  choose B' hB' using fun a => C32_nearest_exist (among x e a) _ k (c1 a)
  have hex : ∀ i, ∃ B, IsNearest ((training n (some test)).erase i) (x i) k B ∧ ∀ a, e a = i → B = (B' a).map e := fun i => by
    by_cases h : ∃ a, e a = i
    · obtain ⟨a, rfl⟩ := h
      refine ⟨(B' a).map e, ?_, fun b hb => by rw [e.injective hb]⟩
      rw [← he.map a]
      exact nearest_map (hB' a)
    · obtain ⟨B, hB⟩ := C32_nearest_exist (x i) _ k (c2 i)
      exact ⟨B, hB, fun a ha => absurd ⟨a, ha⟩ h⟩
  choose B hB hBe using hex
  have hmean : ∀ a, meanOver (B (e a)) (x (e a)) = meanOver (B' a) (among x e a) := fun a => by
    rw [hBe (e a) a rfl]
    unfold meanOver
    rw [Finset.card_map, Finset.sum_map]
    rfl
  have pos : ∀ i, 0 < meanOver (B i) (x i) := fun i => by
    have hc : (B i).card = k := (hB i).card
    refine div_pos (Finset.sum_pos (fun j hj => hx _ _ (Finset.mem_erase.1 ((hB i).sub hj)).1.symm) (Finset.card_pos.1 (by omega)))
      (by rw [hc]; exact_mod_cast h1)
  have pos' : ∀ a, 0 < meanOver (B' a) (among x e a) := fun a => by rw [← hmean]; exact pos _
  have g : 0 < geometricMean (fun i => meanOver (B i) (x i)) := Real.rpow_pos_of_pos (Finset.prod_pos fun i _ => pos i) _
  have g' : 0 < geometricMean (fun a => meanOver (B' a) (among x e a)) := Real.rpow_pos_of_pos (Finset.prod_pos fun i _ => pos' i) _
  refine ⟨_, _, _, C32_formula w x hsym k h1 (some test) nJobs B hB pos hn,
    C32_formula w' (among x e) (fun a b => hsym _ _) k h1 test' nJobs' B' hB' pos' hm, div_pos g g', fun a b => ?_⟩
  simp only [e.injective.eq_iff, hmean, among]
  by_cases hab : a = b
  · rw [if_pos hab, if_pos hab, mul_zero]
  · rw [if_neg hab, if_neg hab]
    unfold Spec.nicdm
    have hg := g'.ne'
    unfold among at hg
    field_simp

end

/-- Four points on a line, of which the last one is held out. -/
def line4' : Fin 4 → Fin 4 → ℤ := fun i j => |(![0, 1, 3, 7] : Fin 4 → ℤ) i - (![0, 1, 3, 7] : Fin 4 → ℤ) j|

theorem line4'_pos : ∀ i j, i ≠ j → (0 : ℝ) < (line4' i j : ℤ) := fun i j => by
  rw [Int.cast_pos]
  revert i j
  decide

theorem line4'_keeps : KeepsTraining (Fin.castSuccEmb : Fin 3 ↪ Fin 4) [3] none := by
  constructor
  · unfold training
    simp only [Finset.mem_filter, Finset.mem_univ, true_and, Option.some.injEq, forall_eq']
    decide
  · unfold training
    simp only [Finset.mem_filter, Finset.mem_univ, true_and, Option.some.injEq, forall_eq', reduceCtorEq, false_implies, implies_true, true_iff]
    decide

/-- C276 is violated by NICDM: the distance of the objects 0 and 1 is `8^(1/4)` with the held-out object at 7 and `2^(1/3)` without it. -/
theorem C276_violated (w w' : World) :
    ∃ (N : Fin 4 → Fin 4 → ℝ) (N' : Fin 3 → Fin 3 → ℝ),
      nicdm w (.mat false 4 4 (toXR fun i j => (line4' i j : ℝ))) (1 : ℕ) "distance" (some [3]) 1 = .ok ⟨4, toXR N⟩ ∧
      nicdm w' (.mat false 3 3 (toXR (among (fun i j => (line4' i j : ℝ)) Fin.castSuccEmb))) (1 : ℕ) "distance" none 1 = .ok ⟨3, toXR N'⟩ ∧
      N' 0 1 < N (Fin.castSuccEmb 0) (Fin.castSuccEmb 1) := by
  have hsym : ∀ i j, ((line4' i j : ℤ) : ℝ) = (line4' j i : ℤ) := fun i j => by
    rw [show line4' i j = line4' j i from abs_sub_comm _ _]
  have hT : training 4 (some [3]) = {0, 1, 2} := by
    unfold training
    simp only [Option.some.injEq, forall_eq']
    decide
  have hT' : training 3 none = Finset.univ := by simp [training]
  have hB : ∀ i, IsNearest ((training 4 (some [3])).erase i) (fun j => (line4' i j : ℝ)) 1 ((![{1}, {0}, {1}, {2}] : Fin 4 → Finset (Fin 4)) i) := fun i => by
    rw [hT]
    refine ⟨?_, ?_, fun a ha b hb hb' => ?_⟩
    · revert i; decide
    · revert i; decide
    · rw [Int.cast_le]
      revert i; revert a b
      decide
  have hB' : ∀ i, IsNearest ((training 3 none).erase i) (among (fun i j => (line4' i j : ℝ)) Fin.castSuccEmb i) 1
      ((![{1}, {0}, {1}] : Fin 3 → Finset (Fin 3)) i) := fun i => by
    rw [hT']
    refine ⟨?_, ?_, fun a ha b hb hb' => ?_⟩
    · revert i; decide
    · revert i; decide
    · unfold among
      rw [Int.cast_le]
      revert i; revert a b
      decide
  have m : ∀ i, meanOver ((![{1}, {0}, {1}, {2}] : Fin 4 → Finset (Fin 4)) i) (fun j => (line4' i j : ℝ)) = (![1, 1, 2, 4] : Fin 4 → ℝ) i := fun i => by
    fin_cases i <;> simp [meanOver, line4'] <;> norm_num
  have m' : ∀ i : Fin 3, (meanOver ((![{1}, {0}, {1}] : Fin 3 → Finset (Fin 3)) i)
      fun b => ((line4' (Fin.castSuccEmb i) (Fin.castSuccEmb b) : ℤ) : ℝ)) = (![1, 1, 2] : Fin 3 → ℝ) i := fun i => by
    fin_cases i <;> simp [meanOver, line4'] <;> norm_num
  refine ⟨_, _, C32_formula w _ hsym 1 le_rfl (some [3]) 1 _ hB (fun i => by rw [m]; fin_cases i <;> simp) (by norm_num),
    C32_formula w' _ (fun a b => hsym _ _) 1 le_rfl none 1 _ hB' (fun i => by rw [m']; fin_cases i <;> simp) (by norm_num), ?_⟩
  simp only [m, m']
  rw [if_neg (by decide), if_neg (by decide)]
  have e1 : geometricMean (![1, 1, 2, 4] : Fin 4 → ℝ) = (8 : ℝ) ^ (1 / 4 : ℝ) := by
    unfold geometricMean
    rw [Fin.prod_univ_four]
    change ((1 : ℝ) * 1 * 2 * 4) ^ _ = _
    norm_num
  have e2 : geometricMean (![1, 1, 2] : Fin 3 → ℝ) = (2 : ℝ) ^ (1 / 3 : ℝ) := by
    unfold geometricMean
    rw [Fin.prod_univ_three]
    change ((1 : ℝ) * 1 * 2) ^ _ = _
    norm_num
  rw [e1, e2]
  have e3 : ((line4' (Fin.castSuccEmb 0) (Fin.castSuccEmb 1) : ℤ) : ℝ) = 1 := by
    rw [show line4' (Fin.castSuccEmb 0) (Fin.castSuccEmb 1) = 1 by decide, Int.cast_one]
  have e5 : (![1, 1, 2, 4] : Fin 4 → ℝ) (Fin.castSuccEmb 0) * (![1, 1, 2, 4] : Fin 4 → ℝ) (Fin.castSuccEmb 1) = 1 := by
    change (1 : ℝ) * 1 = 1
    norm_num
  have e6 : (![1, 1, 2] : Fin 3 → ℝ) 0 * (![1, 1, 2] : Fin 3 → ℝ) 1 = 1 := by simp
  unfold Spec.nicdm
  rw [e3, e5, e6, Real.sqrt_one, mul_one, mul_one, div_one, div_one]
  have h8 : (8 : ℝ) ^ (1 / 4 : ℝ) = (2 : ℝ) ^ (3 / 4 : ℝ) := by
    rw [show (8 : ℝ) = (2 : ℝ) ^ (3 : ℝ) by norm_num, ← Real.rpow_mul (by norm_num)]
    norm_num
  rw [h8]
  exact Real.rpow_lt_rpow_of_exponent_lt (by norm_num) (by norm_num)

/-- The hypotheses of `C276_local_scaling` and `C276_partial` hold for these points. -/
example : (∀ i j, i ≠ j → (0 : ℝ) < (line4' i j : ℤ)) ∧ KeepsTraining (Fin.castSuccEmb : Fin 3 ↪ Fin 4) [3] none ∧ 2 < (training 3 none).card :=
  ⟨line4'_pos, line4'_keeps, by simp [training]⟩

end HubToolbox.LS
