import Verif.Relations.Separation
import Verif.Knn.RPrecisionProps

/-!
# R-precision of separated classes (C277)
-/

set_option autoImplicit false

namespace HubToolbox.Knn

open HubToolbox.Spec

variable {K : Type} [Field K] [LinearOrder K] [IsStrictOrderedRing K] {n : ℕ}

/-- Similarities as expected by `r_precision`: everybody is most similar to itself, and zeros are missing values. -/
structure Similarities (s : Fin n → Fin n → K) : Prop where
  nonneg : ∀ i j, 0 ≤ s i j
  self : ∀ i j, j ≠ i → s i j < s i i

theorem Similarities.hyps {s : Fin n → Fin n → K} (hs : Similarities s) (hn : ∃ i j : Fin n, i ≠ j) (i : Fin n) :
    (∀ x, (XR.fin (s i x)).isFinite = true) ∧ XR.fin (s i i) ≠ .fin 0 ∧
      ∀ x, x ≠ i → XR.fin (s i x) ≠ .fin 0 → XR.fin (s i x) < XR.fin (s i i) := by
  refine ⟨fun _ => rfl, fun h => ?_, fun x hx _ => XR.fin_lt_fin.2 (hs.self i x hx)⟩
  obtain ⟨a, b, hab⟩ := hn
  have h0 : s i i = 0 := by simpa using h
  obtain ⟨j, hj⟩ : ∃ j, j ≠ i := by
    by_cases h : a = i
    · exact ⟨b, fun hb => hab (h.trans hb.symm)⟩
    · exact ⟨a, h⟩
  have := hs.self i j hj
  have := hs.nonneg i j
  linarith

/-- The objects with the label of `i`. -/
theorem rlist_class {s : Fin n → Fin n → K} {y : Fin n → ℤ} {i : Fin n} {N : List (Fin n)} {R : ℕ}
    (hR : R = (Finset.univ.filter (fun j => j ≠ i ∧ y j = y i)).card) (hc : N.countP (fun x => decide (y x = y i)) = R)
    (hN : IsKNNFirst "similarity" (fun x => XR.fin (s i x)) (Finset.univ.filter (fun x => x ≠ i ∧ XR.fin (s i x) ≠ XR.fin 0)) R N) :
    N.toFinset = Finset.univ.filter (fun j => j ≠ i ∧ y j = y i) := by
  have hl : N.length ≤ R := by rw [hN.length]; exact min_le_left _ _
  have hl' := List.countP_le_length (p := fun x => decide (y x = y i)) (l := N)
  have hall : ∀ x ∈ N, y x = y i := fun x hx => by
    have := List.countP_eq_length.1 (show N.countP (fun x => decide (y x = y i)) = N.length by omega) x hx
    simpa using this
  refine Finset.eq_of_subset_of_card_le (fun x hx => ?_) ?_
  · rw [List.mem_toFinset] at hx
    exact Finset.mem_filter.2 ⟨Finset.mem_univ x, (Finset.mem_filter.1 (hN.mem x hx).1).2.1, hall x hx⟩
  · rw [List.toFinset_card_of_nodup hN.nodup, ← hR]
    omega

/-- What `r_precision` computes, both C58 and C59. -/
theorem rPrec_both (o : ArgPart (XR K)) (rnd : Rnd) (s : Fin n → Fin n → K) (y : Fin n → ℤ) (w : ℕ) (hy : HasPair y) (hs : Similarities s) :
    ∃ r, rPrecision o rnd (.mat true n n (fun i j => .fin (s i j))) (.vec n y) "similarity" w = .ok ⟨n, r⟩ ∧
      (∀ i, 0 ≤ r.perItem i ∧ r.perItem i ≤ 1) ∧
      (∀ i, r.relevantItems i = (Finset.univ.filter (fun j => j ≠ i ∧ y j = y i)).card) ∧
      (∃ v, r.macroAvg = .fin v ∧ v * n = ∑ i, r.perItem i) ∧
      r.weighted * ∑ i, (r.relevantItems i : K) = ∑ i, r.perItem i * (r.relevantItems i : K) ∧
      ∀ i, (r.relevantItems i = 0 → r.perItem i = 0) ∧
        (1 ≤ r.relevantItems i → ∃ N, IsKNNFirst "similarity" (fun x => XR.fin (s i x))
            (Finset.univ.filter (fun x => x ≠ i ∧ XR.fin (s i x) ≠ XR.fin 0)) (r.relevantItems i) N ∧
          r.perItem i * (r.relevantItems i : K) = ((N.countP (fun x => decide (y x = y i)) : ℕ) : K)) := by
  obtain ⟨r, h1, h2, h3, ⟨v, h4, -, -, h5⟩, -, -, h6⟩ := (C58_range o rnd (fun i j => .fin (s i j)) y w).2 hy
  obtain ⟨r', h1', h7⟩ := C59_exact o rnd (fun i j => .fin (s i j)) y w hy
  have e : r' = r := by
    rw [h1] at h1'
    have := Except.ok.inj h1'
    simpa using this.symm
  subst e
  obtain ⟨a, b, hab, -⟩ := hy
  refine ⟨r', h1, h2, h3, ⟨v, h4, h5⟩, h6, fun i => ?_⟩
  obtain ⟨g1, g2, g3⟩ := hs.hyps ⟨b, a, hab⟩ i
  exact h7 i g1 g2 g3

theorem relevant_pos {y : Fin n → ℤ} {i : Fin n} {R : ℕ} (hR : R = (Finset.univ.filter (fun j => j ≠ i ∧ y j = y i)).card) :
    1 ≤ R ↔ ∃ j, j ≠ i ∧ y j = y i := by
  rw [hR, Nat.one_le_iff_ne_zero, ← Nat.pos_iff_ne_zero, Finset.card_pos]
  constructor
  · rintro ⟨j, hj⟩
    exact ⟨j, (Finset.mem_filter.1 hj).2⟩
  · rintro ⟨j, hj⟩
    exact ⟨j, Finset.mem_filter.2 ⟨Finset.mem_univ j, hj⟩⟩

/-- **C277**: if everybody is more similar to all objects of the own class than to any other object, the weighted R-precision is one, and so is
the R-precision of every object with a companion. -/
theorem C277_perfect (o : ArgPart (XR K)) (rnd : Rnd) (s : Fin n → Fin n → K) (y : Fin n → ℤ) (w : ℕ) (hy : HasPair y)
    (hs : Similarities s) (hpos : ∀ i j, y i = y j → 0 < s i j) (hsep : Separated (fun i j => -s i j) y) :
    ∃ r, rPrecision o rnd (.mat true n n (fun i j => .fin (s i j))) (.vec n y) "similarity" w = .ok ⟨n, r⟩ ∧ r.weighted = 1 ∧
      (∀ i, (∃ j, j ≠ i ∧ y j = y i) → r.perItem i = 1) ∧ (∀ i, (¬ ∃ j, j ≠ i ∧ y j = y i) → r.perItem i = 0) ∧
      ((∀ i, ∃ j, j ≠ i ∧ y j = y i) → r.macroAvg = .fin 1) := by
  obtain ⟨r, h1, h2, h3, ⟨v, h4, h5⟩, h6, h7⟩ := rPrec_both o rnd s y w hy hs
  have one : ∀ i, (∃ j, j ≠ i ∧ y j = y i) → r.perItem i = 1 := fun i hi => by
    have hR := (relevant_pos (h3 i)).2 hi
    obtain ⟨N, hN, hc⟩ := (h7 i).2 hR
    have hall : ∀ b ∈ N, y b = y i := fun b hb => by
      by_contra hne
      have hsub : (Finset.univ.filter (fun j => j ≠ i ∧ y j = y i)) ⊆ N.toFinset := fun j hj => by
        obtain ⟨-, hji, hyj⟩ := Finset.mem_filter.1 hj
        rw [List.mem_toFinset]
        by_contra hjN
        have h0 := hpos i j hyj.symm
        have h := hN.nearest b hb j (Finset.mem_filter.2 ⟨Finset.mem_univ j, hji, fun e => h0.ne' (by simpa using e)⟩) rfl hjN
        have hsp := hsep i j b hji hyj hne
        unfold Nearer at h
        simp only [show ("similarity" : String) ≠ "distance" by decide, if_false] at h
        have := XR.fin_le_fin.1 h
        linarith
      have hle : (insert b (Finset.univ.filter (fun j => j ≠ i ∧ y j = y i))).card ≤ N.toFinset.card :=
        Finset.card_le_card (Finset.insert_subset (List.mem_toFinset.2 hb) hsub)
      rw [Finset.card_insert_of_notMem (fun h => hne (Finset.mem_filter.1 h).2.2), List.toFinset_card_of_nodup hN.nodup, ← h3 i] at hle
      have := hN.length
      have := min_le_left (r.relevantItems i)
        ((Finset.univ.filter (fun x => x ≠ i ∧ XR.fin (s i x) ≠ XR.fin 0)).filter (fun x => (XR.fin (s i x)).isFinite)).card
      omega
    have hlen : N.length = r.relevantItems i := by
      rw [hN.length]
      refine min_eq_left ?_
      rw [h3 i]
      refine Finset.card_le_card fun j hj => ?_
      obtain ⟨-, hji, hyj⟩ := Finset.mem_filter.1 hj
      exact Finset.mem_filter.2 ⟨Finset.mem_filter.2 ⟨Finset.mem_univ j, hji, fun e => (hpos i j hyj.symm).ne' (by simpa using e)⟩, rfl⟩
    rw [List.countP_eq_length.2 (fun b hb => by simpa using hall b hb), hlen] at hc
    have hR' : (r.relevantItems i : K) ≠ 0 := by exact_mod_cast (show r.relevantItems i ≠ 0 by omega)
    exact mul_right_cancel₀ hR' (hc.trans (one_mul _).symm)
  have zero : ∀ i, (¬ ∃ j, j ≠ i ∧ y j = y i) → r.perItem i = 0 := fun i hi => (h7 i).1 (by
    have := mt (relevant_pos (h3 i)).1 hi
    omega)
  refine ⟨r, h1, ?_, one, zero, fun hall => ?_⟩
  · have hs1 : ∑ i, r.perItem i * (r.relevantItems i : K) = ∑ i, (r.relevantItems i : K) := Finset.sum_congr rfl fun i _ => by
      by_cases hi : ∃ j, j ≠ i ∧ y j = y i
      · rw [one i hi, one_mul]
      · have : r.relevantItems i = 0 := by
          have := mt (relevant_pos (h3 i)).1 hi
          omega
        rw [this, Nat.cast_zero, mul_zero]
    have hp : (0 : K) < ∑ i, (r.relevantItems i : K) := by
      obtain ⟨i, j, hj⟩ := hy
      refine Finset.sum_pos' (fun _ _ => Nat.cast_nonneg _) ⟨i, Finset.mem_univ i, ?_⟩
      exact_mod_cast (relevant_pos (h3 i)).2 ⟨j, hj⟩
    rw [hs1] at h6
    exact mul_right_cancel₀ hp.ne' (h6.trans (one_mul _).symm)
  · have hs1 : ∑ i, r.perItem i = (n : K) := by
      rw [Finset.sum_congr rfl fun i _ => one i (hall i)]
      simp
    obtain ⟨i, -, -⟩ := hy
    have hn : (n : K) ≠ 0 := by exact_mod_cast i.pos.ne'
    rw [h4, show v = 1 from mul_right_cancel₀ hn ((h5.trans hs1).trans (one_mul _).symm)]

/-- **C277** (converse): if the weighted R-precision is one, nobody is more similar to an object of another class than to one of the own class. -/
theorem C277_only_if (o : ArgPart (XR K)) (rnd : Rnd) (s : Fin n → Fin n → K) (y : Fin n → ℤ) (w : ℕ) (hs : Similarities s)
    (r : RRes K n w) (h : rPrecision o rnd (.mat true n n (fun i j => .fin (s i j))) (.vec n y) "similarity" w = .ok ⟨n, r⟩) (h1 : r.weighted = 1)
    (i j b : Fin n) (hj : j ≠ i) (hyj : y j = y i) (hb : y b ≠ y i) : s i b ≤ s i j := by
  obtain ⟨r', h1', h2, h3, -, h6, h7⟩ := rPrec_both o rnd s y w ⟨i, j, hj, hyj⟩ hs
  have e : r' = r := by
    rw [h] at h1'
    have := Except.ok.inj h1'
    simpa using this.symm
  subst e
  rw [h1, one_mul] at h6
  have hle : ∀ a ∈ (Finset.univ : Finset (Fin n)), r'.perItem a * (r'.relevantItems a : K) ≤ (r'.relevantItems a : K) := fun a _ =>
    mul_le_of_le_one_left (Nat.cast_nonneg _) (h2 a).2
  have heq := (Finset.sum_eq_sum_iff_of_le hle).1 h6.symm i (Finset.mem_univ i)
  obtain ⟨N, hN, hc⟩ := (h7 i).2 ((relevant_pos (h3 i)).2 ⟨j, hj, hyj⟩)
  rw [heq] at hc
  have hset := rlist_class (h3 i) (by exact_mod_cast hc.symm) hN
  have hjN : j ∈ N := by
    rw [← List.mem_toFinset, hset]
    exact Finset.mem_filter.2 ⟨Finset.mem_univ j, hj, hyj⟩
  have hbN : b ∉ N := fun hbN => by
    rw [← List.mem_toFinset, hset] at hbN
    exact hb (Finset.mem_filter.1 hbN).2.2
  by_cases hb0 : s i b = 0
  · rw [hb0]
    exact hs.nonneg i j
  · have h := hN.nearest j hjN b (Finset.mem_filter.2 ⟨Finset.mem_univ b, fun e => hb (by rw [e]), fun e => hb0 (by simpa using e)⟩) rfl hbN
    unfold Nearer at h
    simp only [show ("similarity" : String) ≠ "distance" by decide, if_false] at h
    exact XR.fin_le_fin.1 h

/-- Two classes of two objects, and pairs of different classes without stored similarity. -/
def exRPrecSim : Fin 4 → Fin 4 → ℚ := ![![4, 3, 0, 1], ![3, 4, 2, 0], ![0, 2, 4, 3], ![1, 0, 3, 4]]

/-- The hypotheses of `C277_perfect` hold for these similarities. -/
example : HasPair (![5, 5, 6, 6] : Fin 4 → ℤ) ∧ Similarities exRPrecSim ∧ (∀ i j : Fin 4, (![5, 5, 6, 6] : Fin 4 → ℤ) i = ![5, 5, 6, 6] j → 0 < exRPrecSim i j) ∧
    Separated (fun i j => -exRPrecSim i j) ![5, 5, 6, 6] := by
  refine ⟨⟨0, 1, by decide, rfl⟩, ⟨by decide +kernel, by decide +kernel⟩, by decide +kernel, ?_⟩
  unfold Separated
  decide +kernel

end HubToolbox.Knn
