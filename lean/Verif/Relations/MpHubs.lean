import Verif.MPEmp.Props
import Verif.Hubness.Props

/-!
# Empirical Mutual Proximity and hubs

C201: Mutual Proximity is the symmetrised neighbour rank; therefore no object can be close to many others.
C202: mutual nearest neighbours are the nearest neighbours of each other in the secondary distances, so neither of them
is an anti-hub.
-/

set_option autoImplicit false

namespace HubToolbox.Spec

variable {K : Type} [LinearOrder K] {n : ℕ}

/-- Position of `j` among the neighbours of `i`: the number of other objects which are not farther away than `j` (so the
nearest neighbour has rank 1). -/
def neighbourRank (D : Fin n → Fin n → XR K) (i j : Fin n) : ℕ :=
  (Finset.univ.filter (fun x => x ≠ i ∧ ¬ XR.flt (D i j) (D i x))).card

/-- `j` is the only nearest neighbour of `i`. -/
def NearestOf (D : Fin n → Fin n → XR K) (i j : Fin n) : Prop :=
  j ≠ i ∧ ∀ x, x ≠ i → x ≠ j → XR.flt (D i j) (D i x)

end HubToolbox.Spec

namespace HubToolbox.MPEmp

open HubToolbox Spec

variable {K : Type} [Field K] [LinearOrder K] [IsStrictOrderedRing K] {n : ℕ}

theorem not_flt_self (a : XR K) : ¬ XR.flt a a := by cases a <;> simp [XR.flt]

/-- The objects which are not farther away from both are the better neighbours of one of them. -/
theorem card_farther (D : Fin n → Fin n → XR K) (hsym : Symmetric D) (i j : Fin n) :
    (farther D i j).card +
      (Finset.univ.filter (fun x => x ≠ i ∧ ¬ XR.flt (D i j) (D i x)) ∪
        Finset.univ.filter (fun x => x ≠ j ∧ ¬ XR.flt (D j i) (D j x))).card = n ∨ i = j := by
  by_cases hij : i = j
  · exact Or.inr hij
  left
  have hdis : Disjoint (farther D i j) (Finset.univ.filter (fun x => x ≠ i ∧ ¬ XR.flt (D i j) (D i x)) ∪
        Finset.univ.filter (fun x => x ≠ j ∧ ¬ XR.flt (D j i) (D j x))) := by
    rw [Finset.disjoint_left]
    intro x hx hx'
    simp only [farther, Finset.mem_filter, Finset.mem_univ, true_and, Finset.mem_union] at hx hx'
    rcases hx' with h | h
    · exact h.2 hx.2.2.1
    · rw [hsym j i] at h
      exact h.2 hx.2.2.2
  rw [← Finset.card_union_of_disjoint hdis]
  have : farther D i j ∪ (Finset.univ.filter (fun x => x ≠ i ∧ ¬ XR.flt (D i j) (D i x)) ∪
        Finset.univ.filter (fun x => x ≠ j ∧ ¬ XR.flt (D j i) (D j x))) = Finset.univ := by
    ext x
    simp only [farther, Finset.mem_filter, Finset.mem_univ, true_and, Finset.mem_union, iff_true]
    rw [hsym j i]
    by_cases h1 : x = i
    · subst h1
      right; right
      exact ⟨hij, by rw [hsym j x]; exact not_flt_self _⟩
    · by_cases h2 : x = j
      · subst h2
        right; left
        exact ⟨h1, not_flt_self _⟩
      · by_cases h3 : XR.flt (D i j) (D i x)
        · by_cases h4 : XR.flt (D i j) (D j x)
          · left; exact ⟨h1, h2, h3, h4⟩
          · right; right; exact ⟨h2, h4⟩
        · right; left; exact ⟨h1, h3⟩
  rw [this, Finset.card_univ, Fintype.card_fin]

/-- `n` times the Mutual Proximity is a number of objects between the larger of the two ranks plus one and the sum of the
ranks. -/
theorem mpDistance_rank (D : Fin n → Fin n → XR K) (hsym : Symmetric D) (i j : Fin n) (hij : i ≠ j) :
    ∃ c : ℕ, mpDistance D i j = (c : K) / n ∧ c + (farther D i j).card = n ∧
      neighbourRank D i j + 1 ≤ c ∧ neighbourRank D j i + 1 ≤ c ∧ c ≤ neighbourRank D i j + neighbourRank D j i := by
  rcases card_farther D hsym i j with h | h
  swap
  · exact absurd h hij
  have hnK : (n : K) ≠ 0 := by exact_mod_cast (Nat.pos_iff_ne_zero.1 i.pos)
  set A := Finset.univ.filter (fun x => x ≠ i ∧ ¬ XR.flt (D i j) (D i x)) with hA
  set B := Finset.univ.filter (fun x => x ≠ j ∧ ¬ XR.flt (D j i) (D j x)) with hB
  have hiB : i ∈ B := by simp [hB, hij, not_flt_self]
  have hjA : j ∈ A := by simp [hA, hij.symm, not_flt_self]
  have hiA : i ∉ A := by simp [hA]
  have hjB : j ∉ B := by simp [hB]
  refine ⟨(A ∪ B).card, ?_, by omega, ?_, ?_, Finset.card_union_le A B⟩
  · unfold mpDistance
    rw [if_neg hij, eq_div_iff hnK, sub_mul, one_mul, div_mul_cancel₀ _ hnK, sub_eq_iff_eq_add]
    have := congrArg (Nat.cast (R := K)) h
    push_cast at this ⊢
    rw [← this]; ring
  · have : insert i A ⊆ A ∪ B := by
      intro x hx
      rcases Finset.mem_insert.1 hx with rfl | hx
      · exact Finset.mem_union_right _ hiB
      · exact Finset.mem_union_left _ hx
    have h2 := Finset.card_le_card this
    rw [Finset.card_insert_of_notMem hiA] at h2
    exact h2
  · have : insert j B ⊆ A ∪ B := by
      intro x hx
      rcases Finset.mem_insert.1 hx with rfl | hx
      · exact Finset.mem_union_left _ hjA
      · exact Finset.mem_union_right _ hx
    have h2 := Finset.card_le_card this
    rw [Finset.card_insert_of_notMem hjB] at h2
    exact h2

/-- C201: Mutual Proximity is the symmetrised neighbour rank, up to a factor of two: it is at least the larger of the two
ranks (plus one) and at most their sum, in units of `1/n`. -/
theorem C201_rank (order : Order K) (D : Fin n → Fin n → XR K) (sp : Bool) (test : Option TestArg) (minNnz : ℤ)
    (M : Fin n → Fin n → K) (h : full order (.obj (.mat sp n n D)) "distance" test minNnz = .ok (.dense n M))
    (hsym : Symmetric D) (i j : Fin n) (hij : i ≠ j) :
    ((neighbourRank D i j : K) + 1) / n ≤ M i j ∧ ((neighbourRank D j i : K) + 1) / n ≤ M i j ∧
      M i j ≤ ((neighbourRank D i j : K) + neighbourRank D j i) / n := by
  rw [(C21_computes_definition order D sp "distance" test minNnz M h hsym i j).1 rfl]
  obtain ⟨c, hc, -, h1, h2, h3⟩ := mpDistance_rank D hsym i j hij
  have hnK : (0 : K) ≤ n := Nat.cast_nonneg n
  rw [hc]
  refine ⟨div_le_div_of_nonneg_right ?_ hnK, div_le_div_of_nonneg_right ?_ hnK, div_le_div_of_nonneg_right ?_ hnK⟩
  · exact_mod_cast h1
  · exact_mod_cast h2
  · exact_mod_cast h3

/-- C201: no object is within the Mutual Proximity distance `t/n` of more than `t - 1` others. There are no hubs with
respect to neighbourhoods of a given radius. -/
theorem C201_no_hubs (order : Order K) (D : Fin n → Fin n → XR K) (sp : Bool) (test : Option TestArg) (minNnz : ℤ)
    (M : Fin n → Fin n → K) (h : full order (.obj (.mat sp n n D)) "distance" test minNnz = .ok (.dense n M))
    (hsym : Symmetric D) (hnan : ∀ i j, D i j ≠ .nan) (j : Fin n) (t : ℕ) :
    (Finset.univ.filter (fun i => i ≠ j ∧ M i j ≤ (t : K) / n)).card ≤ t - 1 := by
  set T := Finset.univ.filter (fun i => i ≠ j ∧ M i j ≤ (t : K) / n) with hT
  rcases T.eq_empty_or_nonempty with he | hne
  · rw [he]; simp
  obtain ⟨a, haT, hmax⟩ := T.exists_max_image (fun i => D j i) hne
  have ha : a ≠ j ∧ M a j ≤ (t : K) / n := by simpa [hT] using haT
  have hrank := (C201_rank order D sp test minNnz M h hsym a j ha.1).2.1
  have hnK : (0 : K) < n := by exact_mod_cast j.pos
  have hle : neighbourRank D j a + 1 ≤ t := by
    have := hrank.trans ha.2
    rw [div_le_div_iff_of_pos_right hnK] at this
    exact_mod_cast this
  have hsub : T ⊆ Finset.univ.filter (fun x => x ≠ j ∧ ¬ XR.flt (D j a) (D j x)) := by
    intro x hx
    have hx' : x ≠ j ∧ M x j ≤ (t : K) / n := by simpa [hT] using hx
    rw [Finset.mem_filter]
    refine ⟨Finset.mem_univ _, hx'.1, ?_⟩
    rw [XR.flt_iff_lt (hnan _ _) (hnan _ _)]
    exact not_lt.2 (hmax x hx)
  have := Finset.card_le_card hsub
  change T.card ≤ neighbourRank D j a at this
  omega

/-- C202: objects which are the nearest neighbours of each other are so in Mutual Proximity. -/
theorem C202_mutual_neighbours (order : Order K) (D : Fin n → Fin n → XR K) (sp : Bool) (test : Option TestArg)
    (minNnz : ℤ) (M : Fin n → Fin n → K)
    (h : full order (.obj (.mat sp n n D)) "distance" test minNnz = .ok (.dense n M)) (hsym : Symmetric D)
    (i j : Fin n) (h1 : NearestOf D i j) (h2 : NearestOf D j i) :
    M i j = 2 / n ∧ ∀ x, x ≠ i → x ≠ j → M i j < M i x ∧ M i j < M j x := by
  have hrank1 : neighbourRank D i j = 1 := by
    unfold neighbourRank
    rw [Finset.card_eq_one]
    refine ⟨j, ?_⟩
    ext x
    simp only [Finset.mem_filter, Finset.mem_univ, true_and, Finset.mem_singleton]
    constructor
    · rintro ⟨hx, hf⟩
      by_contra hxj
      exact hf (h1.2 x hx hxj)
    · rintro rfl
      exact ⟨h1.1, not_flt_self _⟩
  have hrank2 : neighbourRank D j i = 1 := by
    unfold neighbourRank
    rw [Finset.card_eq_one]
    refine ⟨i, ?_⟩
    ext x
    simp only [Finset.mem_filter, Finset.mem_univ, true_and, Finset.mem_singleton]
    constructor
    · rintro ⟨hx, hf⟩
      by_contra hxj
      exact hf (h2.2 x hx hxj)
    · rintro rfl
      exact ⟨h2.1, not_flt_self _⟩
  have hnK : (0 : K) < n := by exact_mod_cast i.pos
  obtain ⟨hl, -, hu⟩ := C201_rank order D sp test minNnz M h hsym i j h1.1.symm
  rw [hrank1, hrank2] at *
  have hMij : M i j = 2 / n := by
    refine le_antisymm (hu.trans_eq ?_) ((?_ : (2 : K) / n = _).trans_le hl) <;> norm_num
  have hlt : (2 : K) / n < (2 + 1) / n := div_lt_div_of_pos_right (by norm_num) hnK
  refine ⟨hMij, fun x hxi hxj => ?_⟩
  rw [hMij]
  constructor
  · refine lt_of_lt_of_le hlt (le_trans ?_ (C201_rank order D sp test minNnz M h hsym i x hxi.symm).1)
    refine div_le_div_of_nonneg_right ?_ hnK.le
    have : 2 ≤ neighbourRank D i x := by
      have hsub : ({j, x} : Finset (Fin n)) ⊆ Finset.univ.filter (fun y => y ≠ i ∧ ¬ XR.flt (D i x) (D i y)) := by
        intro y hy
        rcases Finset.mem_insert.1 hy with rfl | hy
        · rw [Finset.mem_filter]
          refine ⟨Finset.mem_univ _, h1.1, fun hf => ?_⟩
          have := h1.2 x hxi hxj
          cases ha : D i x <;> cases hb : D i y <;> rw [ha, hb] at hf this <;> simp [XR.flt] at hf this
          exact absurd (hf.trans this) (lt_irrefl _)
        · rw [Finset.mem_singleton] at hy
          subst hy
          simp [hxi, not_flt_self]
      have := Finset.card_le_card hsub
      rwa [Finset.card_pair hxj.symm] at this
    have h2K : (2 : K) ≤ neighbourRank D i x := by exact_mod_cast this
    linarith
  · refine lt_of_lt_of_le hlt (le_trans ?_ (C201_rank order D sp test minNnz M h hsym j x hxj.symm).1)
    refine div_le_div_of_nonneg_right ?_ hnK.le
    have : 2 ≤ neighbourRank D j x := by
      have hsub : ({i, x} : Finset (Fin n)) ⊆ Finset.univ.filter (fun y => y ≠ j ∧ ¬ XR.flt (D j x) (D j y)) := by
        intro y hy
        rcases Finset.mem_insert.1 hy with rfl | hy
        · rw [Finset.mem_filter]
          refine ⟨Finset.mem_univ _, h2.1, fun hf => ?_⟩
          have := h2.2 x hxj hxi
          cases ha : D j x <;> cases hb : D j y <;> rw [ha, hb] at hf this <;> simp [XR.flt] at hf this
          exact absurd (hf.trans this) (lt_irrefl _)
        · rw [Finset.mem_singleton] at hy
          subst hy
          simp [hxj, not_flt_self]
      have := Finset.card_le_card hsub
      rwa [Finset.card_pair hxi.symm] at this
    have h2K : (2 : K) ≤ neighbourRank D j x := by exact_mod_cast this
    linarith

/-- C202: in the neighbour lists which `hubness` finds in the secondary distances, mutual nearest neighbours contain each
other, and both occur at least once, for every neighbourhood size. -/
theorem C202_no_anti_hubs (order : Order K) (D : Fin n → Fin n → XR K) (sp : Bool) (test : Option TestArg)
    (minNnz : ℤ) (M : Fin n → Fin n → K)
    (h : full order (.obj (.mat sp n n D)) "distance" test minNnz = .ok (.dense n M)) (hsym : Symmetric D)
    (i j : Fin n) (h1 : NearestOf D i j) (h2 : NearestOf D j i)
    (o : ArgPart (XR K)) (rnd : Hubness.Rnd) (sched : Hubness.Schedule) (k nJobs : ℤ) (hk : 1 ≤ k)
    (seed shuffle : Bool) (r : Hubness.Res n)
    (hr : Hubness.hubnessMat o rnd sched false (fun a b => .fin (M a b)) k "distance" nJobs seed shuffle = .ok r) :
    j.val ∈ r.Dk i ∧ i.val ∈ r.Dk j ∧ ∀ (hj : j.val < r.Nk.length), 1 ≤ r.Nk[j.val] := by
  have hc : Hubness.Covered nJobs "distance" n n := by unfold Hubness.Covered; simp
  have hn : 2 ≤ n := by
    have := i.isLt; have := j.isLt
    have : i.val ≠ j.val := fun e => h1.1 (Fin.ext e).symm
    omega
  have key : ∀ a b : Fin n, b ≠ a → (∀ x, x ≠ a → x ≠ b → M a b < M a x) → b.val ∈ r.Dk a := by
    intro a b hab hlt
    obtain ⟨L, hL, hknn⟩ := Hubness.C01_hubness_knn o rnd sched false _ k "distance" nJobs seed shuffle hc r hr a
    rw [hL, List.mem_map]
    refine ⟨b, ?_, rfl⟩
    by_contra hb
    have hlen : 0 < L.length := by rw [hknn.length]; omega
    obtain ⟨c, hcL⟩ := List.exists_mem_of_length_pos hlen
    have hcb : c ≠ b := fun e => hb (e ▸ hcL)
    have hbest := hknn.best c hcL b hb
    have hba : ¬ a.val = b.val := fun e => hab (Fin.ext e).symm
    by_cases hca : c = a
    · subst hca
      simp [closer, effective, far, hba] at hbest
    · have hca' : ¬ a.val = c.val := fun e => hca (Fin.ext e).symm
      simp [closer, effective, hba, hca'] at hbest
      exact absurd (hlt c hca hcb) (not_lt.2 hbest)
  have hmut := C202_mutual_neighbours order D sp test minNnz M h hsym i j h1 h2
  have hMsym := (C20_valid_secondary_distance order D sp "distance" test minNnz M h).1
  have hji : j.val ∈ r.Dk i := key i j h1.1 (fun x hx hx' => (hmut.2 x hx hx').1)
  refine ⟨hji, key j i h2.1 (fun x hx hx' => ?_), fun hj => ?_⟩
  · rw [← hMsym i j]; exact (hmut.2 x hx' hx).2
  · rw [((Hubness.C03_k_occurrence o rnd sched false _ k "distance" nJobs seed shuffle hc r hr).2.1 j.val hj).1]
    unfold occurrences
    exact Finset.card_pos.2 ⟨i, by simp [hji]⟩

/-- C201, similarities: in a row without equal similarities, no object has Mutual Proximity at least `1 - t/n` to more than
`t - 1` others. -/
theorem C201_no_hubs_similarity (order : Order K) (D : Fin n → Fin n → XR K) (sp : Bool) (test : Option TestArg)
    (minNnz : ℤ) (M : Fin n → Fin n → K)
    (h : full order (.obj (.mat sp n n D)) "similarity" test minNnz = .ok (.dense n M)) (hsym : Symmetric D)
    (hfin : ∀ i j, (D i j).isFinite = true) (j : Fin n) (hinj : ∀ a b, a ≠ j → b ≠ j → D j a = D j b → a = b) (t : ℕ) :
    (Finset.univ.filter (fun i => i ≠ j ∧ 1 - (t : K) / n ≤ M i j)).card ≤ t - 1 := by
  have hnan : ∀ i j, D i j ≠ .nan := fun a b e => by have := hfin a b; rw [e] at this; simp at this
  have hinf : ∀ i j, D i j ≠ .pinf := fun a b e => by have := hfin a b; rw [e] at this; simp at this
  set T := Finset.univ.filter (fun i => i ≠ j ∧ 1 - (t : K) / n ≤ M i j) with hT
  rcases T.eq_empty_or_nonempty with he | hne
  · rw [he]; simp
  obtain ⟨a, haT, hmin⟩ := T.exists_min_image (fun i => D j i) hne
  have ha : a ≠ j ∧ 1 - (t : K) / n ≤ M a j := by simpa [hT] using haT
  have hnK : (0 : K) < n := by exact_mod_cast j.pos
  rw [(C21_computes_definition order D sp "similarity" test minNnz M h hsym a j).2 rfl (hinf _ _)] at ha
  have hdis : Disjoint (lessSimilar D a j) (insert j T) := by
    rw [Finset.disjoint_left]
    intro x hx hx'
    simp only [lessSimilar, Finset.mem_filter, Finset.mem_univ, true_and] at hx
    rcases Finset.mem_insert.1 hx' with e | e
    · exact hx.2.1 e
    · have hxj : x ≠ j := hx.2.1
      have h4 := hx.2.2.2
      rw [XR.fle_iff_le (hnan _ _) (hnan _ _), hsym a j] at h4
      have := le_antisymm h4 (hmin x e)
      exact hx.1 (hinj x a hxj ha.1 this)
  have hcard : (lessSimilar D a j).card + (T.card + 1) ≤ n := by
    have hj : j ∉ T := by simp [hT]
    rw [← Finset.card_insert_of_notMem hj, ← Finset.card_union_of_disjoint hdis]
    exact (Finset.card_le_univ _).trans_eq (Fintype.card_fin n)
  have h2 := ha.2
  unfold mpSimilarity at h2
  rw [if_neg ha.1, sub_le_iff_le_add, ← add_div, le_div_iff₀ hnK, one_mul] at h2
  have h3 : n ≤ (lessSimilar D a j).card + t := by exact_mod_cast h2
  omega

/-! ### A concrete case -/

/-- Four points on a line at 0, 1, 3, 7. -/
def line4 : Fin 4 → Fin 4 → XR ℚ := fun i j => .fin |(![0, 1, 3, 7] i : ℚ) - ![0, 1, 3, 7] j|

example : ∃ M, full (fun _ _ => []) (.obj (.mat false 4 4 line4)) "distance" none 0 = .ok (.dense 4 M) :=
  ⟨_, rfl⟩

example : Symmetric line4 ∧ (∀ i j, line4 i j ≠ .nan) ∧ NearestOf line4 0 1 ∧ NearestOf line4 1 0 := by
  refine ⟨?_, ?_, ?_, ?_⟩
  · unfold Spec.Symmetric; decide +kernel
  · decide +kernel
  · unfold NearestOf; decide +kernel
  · unfold NearestOf; decide +kernel

example : (∀ i j, (line4 i j).isFinite = true) ∧
    ∀ a b, a ≠ (3 : Fin 4) → b ≠ 3 → line4 3 a = line4 3 b → a = b := by decide +kernel

example : neighbourRank line4 1 2 = 2 ∧ neighbourRank line4 2 1 = 1 := by decide +kernel

end HubToolbox.MPEmp
