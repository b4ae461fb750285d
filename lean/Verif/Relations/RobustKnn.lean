import Verif.Relations.RobustCount
import Verif.Knn.Props

/-!
# Measurement errors and nearest neighbour classification

C307: if every distance is known up to a factor `q`, the classification of an object is the same for the true and for the measured distances, provided that
one class has more votes among the candidates (objects at most `q²` times as far as the `k`-th neighbour) than every other, by more than the number of
candidates in excess of `k`. The accuracies differ by at most the share of the other objects.
-/

set_option autoImplicit false

namespace HubToolbox.Spec

/-- One class has the majority among the candidates of `i`, whichever of them are the neighbours. -/
def ClearVote (q : ℝ) {n : ℕ} (x : Fin n → Fin n → ℝ) (lab : Fin n → ℤ) (k : ℕ) (r : ℝ) (i : Fin n) : Prop :=
  ∃ c, ∀ c', c' ≠ c → ((candidates q x i r).filter fun a => lab a = c').card + ((candidates q x i r).card - k) <
    ((candidates q x i r).filter fun a => lab a = c).card

end HubToolbox.Spec

namespace HubToolbox.Relations

open HubToolbox

section
variable {n k : ℕ} {x y : Fin n → Fin n → ℝ} {q : ℝ} {i : Fin n} {N N' : Finset (Fin n)} {r : ℝ}

/-- Neighbours in terms of measured distances are candidates. -/
theorem hood_candidates (hq : 1 ≤ q) (h : Spec.UpTo q x y) (hx0 : ∀ i j, i ≠ j → 0 < x i j)
    (hN : Spec.IsHood (Spec.nearer "distance") (Finset.univ.erase i) (x i) k N)
    (hN' : Spec.IsHood (Spec.nearer "distance") (Finset.univ.erase i) (y i) k N') (hr : Spec.IsKthSmallest (Finset.univ.erase i) (x i) k r) :
    N ⊆ Spec.candidates q x i r ∧ N' ⊆ Spec.candidates q x i r := by
  have hq0 : 0 ≤ q := by linarith
  have hcard : (N \ N').card = (N' \ N).card := Finset.card_sdiff_comm (hN.card.trans hN'.card.symm)
  have hne : ∀ a ∈ N, a ≠ i := fun a ha => Finset.ne_of_mem_erase (hN.sub ha)
  have hNc : N ⊆ Spec.candidates q x i r := fun a ha => by
    refine Finset.mem_filter.2 ⟨hN.sub ha, (hood_le hN hr ha).trans (le_mul_of_one_le_left ?_ (one_le_pow₀ hq))⟩
    exact (hx0 i a (hne a ha).symm).le.trans (hood_le hN hr ha)
  refine ⟨hNc, fun b hb1 => ?_⟩
  by_cases hb2 : b ∈ N
  · exact hNc hb2
  have : 0 < (N \ N').card := hcard ▸ Finset.card_pos.2 ⟨b, Finset.mem_sdiff.2 ⟨hb1, hb2⟩⟩
  obtain ⟨a, ha⟩ := Finset.card_pos.1 this
  obtain ⟨ha1, ha2⟩ := Finset.mem_sdiff.1 ha
  have hle : y i b ≤ y i a := by
    have := hN'.best b hb1 a (hN.sub ha1) ha2
    unfold Spec.nearer at this
    rwa [if_neg (by decide)] at this
  refine Finset.mem_filter.2 ⟨hN'.sub hb1, ?_⟩
  calc x i b ≤ q * y i b := (h i b (Finset.ne_of_mem_erase (hN'.sub hb1)).symm).1
    _ ≤ q * y i a := mul_le_mul_of_nonneg_left hle hq0
    _ ≤ q * (q * x i a) := mul_le_mul_of_nonneg_left (h i a (hne a ha1).symm).2 hq0
    _ = q ^ 2 * x i a := by ring
    _ ≤ q ^ 2 * r := mul_le_mul_of_nonneg_left (hood_le hN hr ha1) (sq_nonneg q)

end

/-- Neighbour lists of the classifier are neighbourhoods. -/
theorem knn_hood {n : ℕ} {x : Fin n → Fin n → ℝ} {k : ℕ} (hk : k < n) {i : Fin n} {N : List (Fin n)}
    (h : Spec.IsKNN "distance" (LS.toXR x i) (Finset.univ.erase i) k N) :
    Spec.IsHood (Spec.nearer "distance") (Finset.univ.erase i) (x i) k N.toFinset := by
  refine ⟨fun a ha => (h.mem a (List.mem_toFinset.1 ha)).1, ?_, fun a ha b hb hbN => ?_⟩
  · rw [List.toFinset_card_of_nodup h.nodup, h.length, Finset.filter_true_of_mem (p := fun a => (LS.toXR x i a).isFinite = true) (fun _ _ => rfl), Finset.card_erase_of_mem (Finset.mem_univ i),
      Finset.card_univ, Fintype.card_fin]
    omega
  · rw [List.mem_toFinset] at ha hbN
    have := h.nearest a ha b hb rfl hbN
    unfold Spec.Nearer at this
    rw [if_pos rfl] at this
    unfold Spec.nearer
    rw [if_neg (by decide)]
    exact this

theorem count_map {n : ℕ} {N : List (Fin n)} (hN : N.Nodup) (lab : Fin n → ℤ) (c : ℤ) :
    (N.map lab).count c = (N.toFinset.filter fun a => lab a = c).card := by
  rw [List.count, List.countP_map, List.countP_eq_length_filter, ← List.toFinset_card_of_nodup (hN.filter _)]
  congr 1
  ext a
  simp

/-- The majority among the candidates is the majority among any neighbours. -/
theorem clear_strict {n k : ℕ} {q r : ℝ} {x : Fin n → Fin n → ℝ} {lab : Fin n → ℤ} {i : Fin n} {c : ℤ}
    (hc : ∀ c', c' ≠ c → ((Spec.candidates q x i r).filter fun a => lab a = c').card + ((Spec.candidates q x i r).card - k) <
      ((Spec.candidates q x i r).filter fun a => lab a = c).card)
    {N : List (Fin n)} (hN : N.Nodup) (hlen : N.toFinset.card = k) (hsub : N.toFinset ⊆ Spec.candidates q x i r) :
    Spec.StrictMode (N.map lab) c := by
  intro c' hne
  rw [count_map hN, count_map hN]
  set C := Spec.candidates q x i r
  have h1 : (N.toFinset.filter fun a => lab a = c').card ≤ (C.filter fun a => lab a = c').card := Finset.card_le_card (Finset.filter_subset_filter _ hsub)
  have h2 : (C.filter fun a => lab a = c).card ≤ (N.toFinset.filter fun a => lab a = c).card + (C \ N.toFinset).card := by
    refine (Finset.card_le_card fun a ha => ?_).trans (Finset.card_union_le _ _)
    obtain ⟨h1, h2⟩ := Finset.mem_filter.1 ha
    by_cases h3 : a ∈ N.toFinset
    · exact Finset.mem_union_left _ (Finset.mem_filter.2 ⟨h3, h2⟩)
    · exact Finset.mem_union_right _ (Finset.mem_sdiff.2 ⟨h1, h3⟩)
  rw [Finset.card_sdiff_of_subset hsub, hlen] at h2
  have := hc c' hne
  omega

open Classical in
/-- **C307.** -/
theorem C307 (srt srt' : Knn.ArgSort (XR ℝ)) (o o' : ArgPart (XR ℝ)) (rnd rnd' : Knn.Rnd) {n : ℕ} (x y : Fin n → Fin n → ℝ) (q : ℝ) (hq : 1 ≤ q)
    (hxy : Spec.UpTo q x y) (hx0 : ∀ i j, i ≠ j → 0 < x i j) (lab : Fin n → ℤ) (ks : List ℤ) (hks : ∀ k ∈ ks, 1 ≤ k ∧ k < n) (r : ℤ → Fin n → ℝ)
    (hr : ∀ k ∈ ks, ∀ i, Spec.IsKthSmallest (Finset.univ.erase i) (x i) k.toNat (r k i)) (hn : 0 < n) :
    ∃ res res' : Knn.Res ℝ n, Knn.score srt o rnd (.mat false n n (LS.toXR x)) (.vec n lab) (.list ks) "distance" none = .ok ⟨n, res⟩ ∧
      Knn.score srt' o' rnd' (.mat false n n (LS.toXR y)) (.vec n lab) (.list ks) "distance" none = .ok ⟨n, res'⟩ ∧
      ∀ j (hj : j < ks.length), ∃ s s', res.perK[j]? = some s ∧ res'.perK[j]? = some s' ∧
        (∀ i, Spec.ClearVote q x lab ks[j].toNat (r ks[j] i) i → s'.corr i = s.corr i) ∧
        |s'.acc - s.acc| ≤ ((Finset.univ.filter fun i => ¬ Spec.ClearVote q x lab ks[j].toNat (r ks[j] i) i).card : ℝ) / n := by
  have hk1 : ∀ k ∈ ks, 1 ≤ k := fun k hk => (hks k hk).1
  obtain ⟨res, h, he⟩ := Knn.C43_dense_loo srt o rnd (LS.toXR x) lab ks hk1 "distance" (Or.inl rfl)
  obtain ⟨res', h', he'⟩ := Knn.C43_dense_loo srt' o' rnd' (LS.toXR y) lab ks hk1 "distance" (Or.inl rfl)
  obtain ⟨c, hc, -, hcon⟩ := Knn.C42_loo hn srt o rnd false (LS.toXR x) lab ks "distance" (Or.inl rfl)
  obtain ⟨c', hc', -, hcon'⟩ := Knn.C42_loo hn srt' o' rnd' false (LS.toXR y) lab ks "distance" (Or.inl rfl)
  rw [h] at hc
  rw [h'] at hc'
  obtain rfl : res = c := by injection hc with hc; injection hc
  obtain rfl : res' = c' := by injection hc' with hc'; injection hc'
  refine ⟨res, res', h, h', fun j hj => ?_⟩
  obtain ⟨s, hs, pred, hp1, -, hp3⟩ := he j hj
  obtain ⟨s', hs', pred', hp1', -, hp3'⟩ := he' j hj
  obtain ⟨hk, hkn⟩ := hks _ (List.getElem_mem hj)
  have hkn' : ks[j].toNat < n := by omega
  have hok : ∀ (z : Fin n → Fin n → ℝ) (i : Fin n), (∃ a, a ≠ i ∧ (LS.toXR z i a).isFinite = true) ∧ ∀ a, a ≠ i → LS.toXR z i a ≠ Spec.tooNear "distance" := by
    intro z i
    have : 1 < Fintype.card (Fin n) := by rw [Fintype.card_fin]; omega
    obtain ⟨a, ha⟩ := Fintype.exists_ne_of_one_lt_card this i
    exact ⟨⟨a, ha, rfl⟩, fun a _ => by simp [LS.toXR, Spec.tooNear]⟩
  have hmain : ∀ i, Spec.ClearVote q x lab ks[j].toNat (r ks[j] i) i → s'.corr i = s.corr i := by
    rintro i ⟨c, hc⟩
    obtain ⟨N, -, hN, hv⟩ := hp3 i (hok x i)
    obtain ⟨N', -, hN', hv'⟩ := hp3' i (hok y i)
    have a1 := knn_hood hkn' hN
    have a2 := knn_hood hkn' hN'
    obtain ⟨b1, b2⟩ := hood_candidates hq hxy hx0 a1 a2 (hr _ (List.getElem_mem hj) i)
    rw [hp1 i (hok x i) (List.mem_finRange i), hp1' i (hok y i) (List.mem_finRange i),
      hv.1 c (clear_strict hc hN.nodup a1.card b1), hv'.1 c (clear_strict hc hN'.nodup a2.card b2)]
  refine ⟨s, s', hs, hs', hmain, ?_⟩
  obtain ⟨z, -, hacc, -⟩ := hcon s (List.mem_of_getElem? hs)
  obtain ⟨z', -, hacc', -⟩ := hcon' s' (List.mem_of_getElem? hs')
  have hn0 : (0 : ℝ) < n := by exact_mod_cast hn
  rw [hacc, hacc', List.length_finRange, ← sub_div, abs_div, abs_of_pos hn0]
  refine div_le_div_of_nonneg_right ?_ hn0.le
  rw [Nat.cast_sum, Nat.cast_sum, ← Finset.sum_sub_distrib, Finset.card_filter, Nat.cast_sum]
  refine (Finset.abs_sum_le_sum_abs _ _).trans (Finset.sum_le_sum fun i _ => ?_)
  by_cases hi : Spec.ClearVote q x lab ks[j].toNat (r ks[j] i) i
  · rw [hmain i hi, sub_self, abs_zero]; positivity
  · rw [if_pos hi]
    rcases z i with e | e <;> rcases z' i with e' | e' <;> rw [e, e'] <;> norm_num

/-! ### Instances -/

example (srt srt' : Knn.ArgSort (XR ℝ)) (o o' : ArgPart (XR ℝ)) (rnd rnd' : Knn.Rnd) := C307 srt srt' o o' rnd rnd' LS.line3 measured3 (101 / 100)
  (by norm_num) measured3_upTo line3_off_pos ![1, 1, 2] [1] (by intro k hk; rw [List.mem_singleton] at hk; omega) (fun _ => ![1, 1, 2])
  (by intro k hk i; rw [List.mem_singleton] at hk; subst hk; exact line3_radius i) (by norm_num)

/-- The votes for the objects of `line3` are clear. -/
example (i : Fin 3) : Spec.ClearVote (101 / 100) LS.line3 ![1, 1, 2] 1 ((![1, 1, 2] : Fin 3 → ℝ) i) i := by
  have hC : Spec.candidates (101 / 100) LS.line3 i ((![1, 1, 2] : Fin 3 → ℝ) i) = {(![1, 0, 1] : Fin 3 → Fin 3) i} := by
    ext a
    unfold Spec.candidates
    rw [Finset.mem_filter, Finset.mem_erase, Finset.mem_singleton]
    fin_cases i <;> fin_cases a <;> norm_num [LS.line3]
  refine ⟨1, fun c' hc' => ?_⟩
  rw [hC]
  have hl : (![1, 1, 2] : Fin 3 → ℤ) ((![1, 0, 1] : Fin 3 → Fin 3) i) = 1 := by fin_cases i <;> rfl
  rw [Finset.filter_singleton, Finset.filter_singleton, hl, if_neg (Ne.symm hc'), if_pos rfl]
  simp

end HubToolbox.Relations
