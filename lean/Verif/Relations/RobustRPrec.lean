import Verif.Relations.SeparationRPrec
import Verif.Relations.RobustKnn

/-!
# R-precision is robust against measurement errors (C315)

Two versions of the similarities agree up to a factor `q`. Only objects whose similarity agrees with that of the last relevant rank up to `q ^ 2` can
enter or leave the list of an object.
-/

set_option autoImplicit false

namespace HubToolbox.Spec

/-- Objects which may be among the most similar ones to `i` if the similarity of the last rank is `r`. -/
noncomputable def similarCandidates (q : ℝ) {n : ℕ} (s : Fin n → Fin n → ℝ) (i : Fin n) (r : ℝ) : Finset (Fin n) :=
  (Finset.univ.erase i).filter fun a => r ≤ q ^ 2 * s i a

end HubToolbox.Spec

namespace HubToolbox.Relations

open HubToolbox Knn

section
variable {n k : ℕ} {s t : Fin n → Fin n → ℝ} {q : ℝ} {i : Fin n} {N N' : Finset (Fin n)} {r : ℝ}

/-- Members of the list reach the similarity of the last rank. -/
theorem list_ge (hc : N.card = k) (hb : ∀ a ∈ N, ∀ b, b ≠ i → b ∉ N → s i b ≤ s i a)
    (hr : Spec.IsKthLargest (Finset.univ.erase i) (s i) k r) {a : Fin n} (ha : a ∈ N) : r ≤ s i a := by
  by_contra hlt
  rw [not_le] at hlt
  have hs : (Finset.univ.erase i).filter (fun j => -s i j ≤ -r) ⊆ N.erase a := fun b hb' => by
    obtain ⟨hb1, hb2⟩ := Finset.mem_filter.1 hb'
    refine Finset.mem_erase.2 ⟨fun e => ?_, ?_⟩
    · subst e
      linarith
    · by_contra hbN
      have := hb a ha b (Finset.ne_of_mem_erase hb1) hbN
      linarith
  have h1 := Finset.card_le_card hs
  rw [Finset.card_erase_of_mem ha, hc] at h1
  have h2 := hr.upto
  have h3 : 0 < k := hc ▸ Finset.card_pos.2 ⟨a, ha⟩
  omega

/-- What the two lists do not share. -/
theorem list_changes (hq : 1 ≤ q) (h : Spec.UpTo q s t) (hs0 : ∀ i j, i ≠ j → 0 < s i j) (hsub : N ⊆ Finset.univ.erase i) (hc : N.card = k)
    (hb : ∀ a ∈ N, ∀ b, b ≠ i → b ∉ N → s i b ≤ s i a) (hsub' : N' ⊆ Finset.univ.erase i) (hc' : N'.card = k)
    (hb' : ∀ a ∈ N', ∀ b, b ≠ i → b ∉ N' → t i b ≤ t i a) (hr : Spec.IsKthLargest (Finset.univ.erase i) (s i) k r) :
    (N' \ N).card ≤ (Spec.similarCandidates q s i r).card - k ∧ (N \ N').card = (N' \ N).card := by
  have hq0 : 0 ≤ q := by linarith
  have hcard : (N \ N').card = (N' \ N).card := Finset.card_sdiff_comm (hc.trans hc'.symm)
  have hne : ∀ a ∈ N, a ≠ i := fun a ha => Finset.ne_of_mem_erase (hsub ha)
  have hne' : ∀ a ∈ N', a ≠ i := fun a ha => Finset.ne_of_mem_erase (hsub' ha)
  have hNc : N ⊆ Spec.similarCandidates q s i r := fun a ha =>
    Finset.mem_filter.2 ⟨hsub ha, (list_ge hc hb hr ha).trans (le_mul_of_one_le_left (hs0 i a (hne a ha).symm).le (one_le_pow₀ hq))⟩
  have hd : N' \ N ⊆ Spec.similarCandidates q s i r \ N := by
    intro b hbm
    obtain ⟨hb1, hb2⟩ := Finset.mem_sdiff.1 hbm
    have : 0 < (N \ N').card := hcard ▸ Finset.card_pos.2 ⟨b, hbm⟩
    obtain ⟨a, ha⟩ := Finset.card_pos.1 this
    obtain ⟨ha1, ha2⟩ := Finset.mem_sdiff.1 ha
    refine Finset.mem_sdiff.2 ⟨Finset.mem_filter.2 ⟨hsub' hb1, ?_⟩, hb2⟩
    calc r ≤ s i a := list_ge hc hb hr ha1
      _ ≤ q * t i a := (h i a (hne a ha1).symm).1
      _ ≤ q * t i b := mul_le_mul_of_nonneg_left (hb' b hb1 a (hne a ha1) ha2) hq0
      _ ≤ q * (q * s i b) := mul_le_mul_of_nonneg_left (h i b (hne' b hb1).symm).2 hq0
      _ = q ^ 2 * s i b := by ring
  refine ⟨(Finset.card_le_card hd).trans_eq ?_, hcard⟩
  rw [Finset.card_sdiff_of_subset hNc, hc]

/-- The list `r_precision` uses for `i`, as a set. -/
theorem rlist_set (hs0 : ∀ j, i ≠ j → 0 < s i j) {L : List (Fin n)} (hk : k ≤ (Finset.univ.erase i).card)
    (hL : Spec.IsKNNFirst "similarity" (fun x => XR.fin (s i x)) (Finset.univ.filter (fun x => x ≠ i ∧ XR.fin (s i x) ≠ XR.fin 0)) k L) :
    L.toFinset ⊆ Finset.univ.erase i ∧ L.toFinset.card = k ∧ ∀ a ∈ L.toFinset, ∀ b, b ≠ i → b ∉ L.toFinset → s i b ≤ s i a := by
  have e : (Finset.univ.filter (fun x => x ≠ i ∧ XR.fin (s i x) ≠ XR.fin 0)) = Finset.univ.erase i := by
    ext x
    simp only [Finset.mem_filter, Finset.mem_univ, true_and, Finset.mem_erase, and_true, ne_eq, XR.fin.injEq]
    exact ⟨fun h => h.1, fun h => ⟨h, (hs0 x (Ne.symm h)).ne'⟩⟩
  rw [e] at hL
  refine ⟨fun x hx => (hL.mem x (List.mem_toFinset.1 hx)).1, ?_, fun a ha b hbi hb => ?_⟩
  · rw [List.toFinset_card_of_nodup hL.nodup, hL.length]
    have : ((Finset.univ.erase i).filter fun x => (XR.fin (s i x)).isFinite = true) = Finset.univ.erase i :=
      Finset.filter_true_of_mem fun _ _ => rfl
    rw [this]
    exact min_eq_left hk
  · have := hL.nearest a (List.mem_toFinset.1 ha) b (Finset.mem_erase.2 ⟨hbi, Finset.mem_univ b⟩) rfl (fun h => hb (List.mem_toFinset.2 h))
    unfold Spec.Nearer at this
    rw [if_neg (by decide)] at this
    exact XR.fin_le_fin.1 this

theorem countP_set {L : List (Fin n)} (hL : L.Nodup) (y : Fin n → ℤ) (v : ℤ) :
    L.countP (fun x => decide (y x = v)) = (L.toFinset.filter fun x => y x = v).card := by
  have h := List.toFinset_card_of_nodup (hL.filter fun x => decide (y x = v))
  rw [List.toFinset_filter] at h
  rw [List.countP_eq_length_filter, ← h]
  simp only [decide_eq_true_eq]

end

/-- **C315**: the R-precision of an object, times its number of relevant items, changes by at most the number of additional candidates; likewise the averages. -/
theorem C315 (o o' : ArgPart (XR ℝ)) (rnd rnd' : Knn.Rnd) {n : ℕ} (s t : Fin n → Fin n → ℝ) (q : ℝ) (hq : 1 ≤ q) (hst : Spec.UpTo q s t)
    (hs : Similarities s) (ht : Similarities t) (hs0 : ∀ i j, i ≠ j → 0 < s i j) (y : Fin n → ℤ) (w : ℕ) (hy : HasPair y)
    (R : Fin n → ℕ) (hR : ∀ i, R i = (Finset.univ.filter fun j => j ≠ i ∧ y j = y i).card) (r : Fin n → ℝ)
    (hr : ∀ i, 1 ≤ R i → Spec.IsKthLargest (Finset.univ.erase i) (s i) (R i) (r i)) :
    ∃ res res' : RRes ℝ n w, rPrecision o rnd (.mat true n n (LS.toXR s)) (.vec n y) "similarity" w = .ok ⟨n, res⟩ ∧
      rPrecision o' rnd' (.mat true n n (LS.toXR t)) (.vec n y) "similarity" w = .ok ⟨n, res'⟩ ∧
      (∀ i, res.relevantItems i = R i ∧ res'.relevantItems i = R i) ∧
      (∀ i, |res'.perItem i - res.perItem i| * R i ≤ if 1 ≤ R i then (((Spec.similarCandidates q s i (r i)).card - R i : ℕ) : ℝ) else 0) ∧
      (∀ i, R i = 0 → res.perItem i = 0 ∧ res'.perItem i = 0) ∧
      |res'.weighted - res.weighted| * ∑ i, (R i : ℝ) ≤
        ∑ i ∈ Finset.univ.filter (fun i => 1 ≤ R i), (((Spec.similarCandidates q s i (r i)).card - R i : ℕ) : ℝ) ∧
      ∃ v v', res.macroAvg = .fin v ∧ res'.macroAvg = .fin v' ∧
        |v' - v| * n ≤ ∑ i ∈ Finset.univ.filter (fun i => 1 ≤ R i), (((Spec.similarCandidates q s i (r i)).card - R i : ℕ) : ℝ) / R i := by
  have ht0 : ∀ i j, i ≠ j → 0 < t i j := fun i j hij => by
    have h1 := hs0 i j hij
    have h2 := (hst i j hij).1
    by_contra hc
    have := mul_nonpos_of_nonneg_of_nonpos (zero_le_one.trans hq) (not_lt.1 hc)
    linarith
  obtain ⟨res, a1, a2, a3, ⟨v, a4, a5⟩, a6, a7⟩ := rPrec_both o rnd s y w hy hs
  obtain ⟨res', b1, b2, b3, ⟨v', b4, b5⟩, b6, b7⟩ := rPrec_both o' rnd' t y w hy ht
  have ea : ∀ i, res.relevantItems i = R i := fun i => (a3 i).trans (hR i).symm
  have eb : ∀ i, res'.relevantItems i = R i := fun i => (b3 i).trans (hR i).symm
  simp only [ea] at a6 a7
  simp only [eb] at b6 b7
  have hz : ∀ i, R i = 0 → res.perItem i = 0 ∧ res'.perItem i = 0 := fun i h => ⟨(a7 i).1 h, (b7 i).1 h⟩
  have main : ∀ i, 1 ≤ R i → |res'.perItem i - res.perItem i| * R i ≤ (((Spec.similarCandidates q s i (r i)).card - R i : ℕ) : ℝ) := by
    intro i hi
    obtain ⟨L, hL, cL⟩ := (a7 i).2 hi
    obtain ⟨L', hL', cL'⟩ := (b7 i).2 hi
    have hk : R i ≤ (Finset.univ.erase i).card := by
      rw [hR i]
      refine Finset.card_le_card fun x hx => ?_
      exact Finset.mem_erase.2 ⟨(Finset.mem_filter.1 hx).2.1, Finset.mem_univ x⟩
    obtain ⟨u1, u2, u3⟩ := rlist_set (hs0 i) hk hL
    obtain ⟨w1, w2, w3⟩ := rlist_set (ht0 i) hk hL'
    obtain ⟨d1, d2⟩ := list_changes hq hst hs0 u1 u2 u3 w1 w2 w3 (hr i hi)
    have hab : |res'.perItem i - res.perItem i| * R i = |res'.perItem i * R i - res.perItem i * R i| := by
      rw [← sub_mul, abs_mul, Nat.abs_cast]
    rw [hab, cL, cL', countP_set hL.nodup, countP_set hL'.nodup]
    have f : ∀ A B : Finset (Fin n), (A.filter fun x => y x = y i).card ≤ (B.filter fun x => y x = y i).card + (A \ B).card := by
      intro A B
      rw [← Finset.card_union_add_card_inter]
      refine (Finset.card_le_card fun x hx => ?_).trans (Nat.le_add_right _ _)
      obtain ⟨h1, h2⟩ := Finset.mem_filter.1 hx
      by_cases hB : x ∈ B
      · exact Finset.mem_union_left _ (Finset.mem_filter.2 ⟨hB, h2⟩)
      · exact Finset.mem_union_right _ (Finset.mem_sdiff.2 ⟨h1, hB⟩)
    have g1 := f L'.toFinset L.toFinset
    have g2 := f L.toFinset L'.toFinset
    rw [d2] at g2
    have g1' := g1.trans (Nat.add_le_add_left d1 _)
    have g2' := g2.trans (Nat.add_le_add_left d1 _)
    have g1'' : ((L'.toFinset.filter fun x => y x = y i).card : ℝ) ≤ (L.toFinset.filter fun x => y x = y i).card +
        (((Spec.similarCandidates q s i (r i)).card - R i : ℕ) : ℝ) := by exact_mod_cast g1'
    have g2'' : ((L.toFinset.filter fun x => y x = y i).card : ℝ) ≤ (L'.toFinset.filter fun x => y x = y i).card +
        (((Spec.similarCandidates q s i (r i)).card - R i : ℕ) : ℝ) := by exact_mod_cast g2'
    rw [abs_le]
    constructor <;> linarith
  refine ⟨res, res', a1, b1, fun i => ⟨ea i, eb i⟩, fun i => ?_, hz, ?_, v, v', a4, b4, ?_⟩
  · split_ifs with hi
    · exact main i hi
    · rw [show R i = 0 by omega, Nat.cast_zero, mul_zero]
  · rw [show |res'.weighted - res.weighted| * ∑ i, (R i : ℝ) = |∑ i, (res'.perItem i - res.perItem i) * R i| by
      rw [← abs_of_nonneg (Finset.sum_nonneg fun i _ => Nat.cast_nonneg (R i) : (0 : ℝ) ≤ ∑ i, (R i : ℝ)), ← abs_mul, sub_mul,
        a6, b6, ← Finset.sum_sub_distrib]
      simp only [sub_mul]]
    refine (Finset.abs_sum_le_sum_abs _ _).trans ?_
    rw [Finset.sum_filter]
    refine Finset.sum_le_sum fun i _ => ?_
    rw [abs_mul, Nat.abs_cast]
    split_ifs with hi
    · exact main i hi
    · rw [show R i = 0 by omega, Nat.cast_zero, mul_zero]
  · rw [show |v' - v| * n = |∑ i, (res'.perItem i - res.perItem i)| by
      rw [← Nat.abs_cast n, ← abs_mul, sub_mul, a5, b5, ← Finset.sum_sub_distrib]]
    refine (Finset.abs_sum_le_sum_abs _ _).trans ?_
    rw [Finset.sum_filter]
    refine Finset.sum_le_sum fun i _ => ?_
    split_ifs with hi
    · rw [le_div_iff₀ (by exact_mod_cast hi)]
      exact main i hi
    · obtain ⟨h1, h2⟩ := hz i (by omega)
      rw [h1, h2, sub_self, abs_zero]

/-! ### Instance: two classes of two objects, similarities with errors of one percent -/

noncomputable def companions4 (i j : Fin 4) : ℝ := (![![8, 4, 2, 1], ![4, 8, 1, 1], ![2, 1, 8, 4], ![1, 1, 4, 8]] : Fin 4 → Fin 4 → ℝ) i j

noncomputable def measuredCompanions4 (i j : Fin 4) : ℝ := if i = 0 then companions4 i j * (101 / 100) else companions4 i j

theorem companions4_pos (i j : Fin 4) : 0 < companions4 i j := by
  fin_cases i <;> fin_cases j <;> norm_num [companions4]

theorem companions4_sim : Similarities companions4 where
  nonneg i j := (companions4_pos i j).le
  self i j h := by fin_cases i <;> fin_cases j <;> first | exact absurd rfl h | norm_num [companions4]

theorem measuredCompanions4_sim : Similarities measuredCompanions4 where
  nonneg i j := by
    have := companions4_pos i j
    unfold measuredCompanions4
    split_ifs <;> linarith
  self i j h := by
    have := companions4_sim.self i j h
    unfold measuredCompanions4
    split_ifs <;> linarith

theorem measuredCompanions4_upTo : Spec.UpTo (101 / 100) companions4 measuredCompanions4 := fun i j _ => by
  have := companions4_pos i j
  unfold measuredCompanions4
  split_ifs <;> constructor <;> linarith

theorem companions4_rank (i : Fin 4) : Spec.IsKthLargest (Finset.univ.erase i) (companions4 i) 1 4 := by
  refine LS.kthLargest_one (j := (![1, 0, 3, 2] : Fin 4 → Fin 4) i) ?_ ?_ fun l hl => ?_
  · fin_cases i <;> decide
  · fin_cases i <;> rfl
  · fin_cases i <;> fin_cases l <;> first | exact absurd rfl hl | norm_num [companions4]

example (o o' : ArgPart (XR ℝ)) (rnd rnd' : Knn.Rnd) := C315 o o' rnd rnd' companions4 measuredCompanions4 (101 / 100) (by norm_num) measuredCompanions4_upTo companions4_sim
  measuredCompanions4_sim (fun i j _ => companions4_pos i j) ![5, 5, 6, 6] 0 ⟨0, 1, by decide, rfl⟩ (fun _ => 1) (by decide) (fun _ => 4) fun i _ => companions4_rank i

/-- Nobody but the companion is a candidate, so that errors of one percent do not change the R-precision at all. -/
example (i : Fin 4) : (Spec.similarCandidates (101 / 100) companions4 i 4).card = 1 := by
  rw [Finset.card_eq_one]
  refine ⟨(![1, 0, 3, 2] : Fin 4 → Fin 4) i, ?_⟩
  unfold Spec.similarCandidates
  ext a
  simp only [Finset.mem_filter, Finset.mem_erase, Finset.mem_univ, and_true, Finset.mem_singleton]
  fin_cases i <;> fin_cases a <;> norm_num [companions4] <;> decide

end HubToolbox.Relations
