import Verif.Dist.MpDissim

/-!
# Properties of `mp_dissim` (C147, C149, C150)
-/

set_option autoImplicit false

namespace HubToolbox.Dist

open HubToolbox

/-! ## C147: comparison of dissimilarities -/

theorem regionCount_comm {n : ℕ} (bin : Fin n → ℕ) (a b : ℕ) : Spec.regionCount bin a b = Spec.regionCount bin b a := by
  unfold Spec.regionCount
  rw [min_comm, max_comm]

theorem regionCount_mono {n : ℕ} (bin : Fin n → ℕ) (a b c : ℕ) (h : (a ≤ b ∧ b ≤ c) ∨ (c ≤ b ∧ b ≤ a)) :
    Spec.regionCount bin a b ≤ Spec.regionCount bin a c := by
  unfold Spec.regionCount
  apply Finset.card_le_card
  intro j hj
  simp only [Finset.mem_filter, Finset.mem_univ, true_and] at hj ⊢
  omega

theorem regionCount_le {n : ℕ} (bin : Fin n → ℕ) (a b : ℕ) : Spec.regionCount bin a b ≤ n := by
  unfold Spec.regionCount
  refine (Finset.card_filter_le _ _).trans ?_
  simp

theorem regionCount_pos {n : ℕ} (bin : Fin n → ℕ) (a : ℕ) (j : Fin n) : 0 < Spec.regionCount bin a (bin j) := by
  unfold Spec.regionCount
  rw [Finset.card_pos]
  exact ⟨j, by simp⟩

theorem powerMean_mono {d : ℕ} {p : ℝ} (hp : 0 < p) (u w : Fin d → ℝ) (hu : ∀ i, 0 ≤ u i) (h : ∀ i, u i ≤ w i) :
    Spec.powerMean p u ≤ Spec.powerMean p w := by
  unfold Spec.powerMean
  refine Real.rpow_le_rpow (div_nonneg (Finset.sum_nonneg fun i _ => Real.rpow_nonneg (hu i) _) (Nat.cast_nonneg _)) ?_
    (by positivity)
  refine div_le_div_of_nonneg_right (Finset.sum_le_sum fun i _ => Real.rpow_le_rpow (hu i) (h i) hp.le) (Nat.cast_nonneg _)

theorem powerMean_const {d : ℕ} (hd : 0 < d) {p : ℝ} (hp : 0 < p) (c : ℝ) (hc : 0 ≤ c) :
    Spec.powerMean p (fun _ : Fin d => c) = c := by
  unfold Spec.powerMean
  have hdr : (d : ℝ) ≠ 0 := by exact_mod_cast hd.ne'
  rw [Finset.sum_const, Finset.card_univ, Fintype.card_fin, nsmul_eq_mul, mul_div_cancel_left₀ _ hdr,
    ← Real.rpow_mul hc, mul_one_div_cancel hp.ne', Real.rpow_one]

/-- **C147.** If in each feature object `y` is between `x` and `z`, the dissimilarity of `x` and `y` is at most that of `x`
and `z`. -/
theorem C147_between {nx ny d : ℕ} {cpu : ℤ} {X : Fin nx → Fin d → ℝ} {Y : Fin ny → Fin d → ℝ} {p : ℝ}
    (hp : 0 ≤ p) {nBins : ℤ} {binSize : String} {nJobs : ℤ} {D : Fin nx → Fin ny → ℝ}
    (h : mpDissim cpu X Y p nBins binSize nJobs = .ok D) (x : Fin nx) (y z : Fin ny)
    (hb : ∀ i, (X x i ≤ Y y i ∧ Y y i ≤ Y z i) ∨ (Y z i ≤ Y y i ∧ Y y i ≤ X x i)) : D x y ≤ D x z := by
  obtain ⟨bin, hm, hlt, hD⟩ := C146_regions_partial hp h
  rw [hD, hD]
  refine mul_le_mul_of_nonneg_left (powerMean_mono (exponent_pos hp) _ _ (fun i => by positivity) fun i => ?_)
    (by positivity)
  refine div_le_div_of_nonneg_right ?_ (Nat.cast_nonneg _)
  refine Nat.cast_le.2 (regionCount_mono _ _ _ _ ?_)
  rcases hb i with hh | hh
  · exact Or.inl ⟨hm i hh.1, hm i hh.2⟩
  · exact Or.inr ⟨hm i hh.1, hm i hh.2⟩

/-- **C147.** Dissimilarities in a single data set are symmetric, positive and at most one half, and no object is more similar
to an object than this object itself. -/
theorem C147_self {n d : ℕ} (hd : 0 < d) {cpu : ℤ} {X : Fin n → Fin d → ℝ} {p : ℝ}
    (hp : 0 ≤ p) {nBins : ℤ} {binSize : String} {nJobs : ℤ} {D : Fin n → Fin n → ℝ}
    (h : mpDissim cpu X X p nBins binSize nJobs = .ok D) (x y : Fin n) :
    D x y = D y x ∧ 0 < D x y ∧ D x y ≤ 1 / 2 ∧ D x x ≤ D x y := by
  have hn : (0 : ℝ) < n := by
    have : 0 < n := Nat.lt_of_le_of_lt (Nat.zero_le _) x.isLt
    exact_mod_cast this
  have hhalf : (n : ℝ) / (n + n) = 1 / 2 := by field_simp; norm_num
  have hb : D x x ≤ D x y := by
    obtain ⟨bin, hm, hlt, hD⟩ := C146_regions_partial hp h
    rw [hD, hD]
    refine mul_le_mul_of_nonneg_left (powerMean_mono (exponent_pos hp) _ _ (fun i => by positivity) fun i => ?_)
      (by positivity)
    refine div_le_div_of_nonneg_right ?_ (Nat.cast_nonneg _)
    refine Nat.cast_le.2 (regionCount_mono _ _ _ _ ?_)
    omega
  refine ⟨?_, ?_, ?_, hb⟩
  · obtain ⟨bin, hm, hlt, hD⟩ := C146_regions_partial hp h
    rw [hD, hD]
    simp only [regionCount_comm _ (bin _ (X x _))]
  · obtain ⟨bin, hm, hlt, hD⟩ := C146_regions_partial hp h
    rw [hD, hhalf]
    have : (1 : ℝ) / n ≤ Spec.powerMean (d := d) (if p = 0 then 2 else p) (fun i =>
        (Spec.regionCount (fun j => bin i (X j i)) (bin i (X x i)) (bin i (X y i)) : ℕ) / (n : ℝ)) := by
      rw [← powerMean_const hd (exponent_pos hp) (1 / (n : ℝ)) (by positivity)]
      refine powerMean_mono (exponent_pos hp) _ _ (fun i => by positivity) fun i => ?_
      refine div_le_div_of_nonneg_right ?_ hn.le
      exact_mod_cast regionCount_pos (fun j => bin i (X j i)) (bin i (X x i)) y
    have h0 : (0 : ℝ) < 1 / n := by positivity
    linarith
  · obtain ⟨bin, hm, hlt, hD⟩ := C146_regions_partial hp h
    rw [hD, hhalf]
    have : Spec.powerMean (d := d) (if p = 0 then 2 else p) (fun i =>
        (Spec.regionCount (fun j => bin i (X j i)) (bin i (X x i)) (bin i (X y i)) : ℕ) / (n : ℝ)) ≤ 1 := by
      rw [← powerMean_const hd (exponent_pos hp) 1 (by norm_num)]
      refine powerMean_mono (exponent_pos hp) _ _ (fun i => by positivity) fun i => ?_
      rw [div_le_one hn]
      exact_mod_cast regionCount_le _ _ _
    linarith

/-- Not vacuous: two objects with two features and two bins. -/
example : ∃ D, mpDissim 4 (fun x i => ((x : ℕ) + 2 * (i : ℕ) : ℝ) : Fin 2 → Fin 2 → ℝ)
    (fun x i => ((x : ℕ) + 2 * (i : ℕ) : ℝ) : Fin 2 → Fin 2 → ℝ) 2 2 "range" 1 = .ok D ∧ 0 < D 0 1 ∧ D 0 0 ≤ D 0 1 := by
  obtain ⟨D, h⟩ := C148_range_ok (cpu := 4) (by norm_num) (fun x i => ((x : ℕ) + 2 * (i : ℕ) : ℝ) : Fin 2 → Fin 2 → ℝ)
    (fun x i => ((x : ℕ) + 2 * (i : ℕ) : ℝ) : Fin 2 → Fin 2 → ℝ) 2 (nBins := 2) (by norm_num) (by norm_num) (Or.inl le_rfl)
  have := C147_self (by norm_num) (by norm_num) h 0 1
  exact ⟨D, h, this.2.1, this.2.2.2⟩

/-! ## C149: bins of about the same mass -/

theorem countP_lt_sorted (s : List ℝ) (hs : s.Pairwise (· < ·)) (t : ℕ) (ht : t < s.length) :
    s.countP (fun a => decide (a < s[t])) = t := by
  have h1 : (s.take t).countP (fun a => decide (a < s[t])) = t := by
    have : (s.take t).countP (fun a => decide (a < s[t])) = (s.take t).length := by
      rw [List.countP_eq_length]
      intro a ha
      obtain ⟨i, hi, rfl⟩ := List.mem_iff_getElem.1 ha
      rw [List.length_take] at hi
      rw [List.getElem_take]
      exact decide_eq_true (List.pairwise_iff_getElem.1 hs _ _ _ _ (by omega))
    rw [this, List.length_take]
    omega
  have h2 : (s.drop t).countP (fun a => decide (a < s[t])) = 0 := by
    rw [List.countP_eq_zero]
    intro a ha
    obtain ⟨i, hi, rfl⟩ := List.mem_iff_getElem.1 ha
    rw [List.length_drop] at hi
    rw [List.getElem_drop]
    simp only [decide_eq_true_eq, not_lt]
    rcases Nat.eq_zero_or_pos i with rfl | h
    · exact le_refl _
    · exact (List.pairwise_iff_getElem.1 hs _ _ _ _ (by omega)).le
  have h3 : ∀ q : ℝ → Bool, s.countP q = (s.take t).countP q + (s.drop t).countP q := fun q => by
    rw [← List.countP_append, List.take_append_drop]
  rw [h3, h1, h2, Nat.add_zero]

theorem card_filter_ofFn {n : ℕ} (v : Fin n → ℝ) (P : ℝ → Prop) [DecidablePred P] :
    (Finset.univ.filter (fun j => P (v j))).card = (List.ofFn v).countP (fun a => decide (P a)) := by
  rw [List.ofFn_eq_map, List.countP_map, List.countP_eq_length_filter, ← List.toFinset_card_of_nodup
    ((List.nodup_finRange n).filter _)]
  congr 1
  ext j
  simp

theorem card_lt_sorted {n : ℕ} (v : Fin n → ℝ) (hv : Function.Injective v) (t : ℕ) (ht : t < n) :
    (Finset.univ.filter (fun j => v j < (sorted v).getD t 0)).card = t := by
  classical
  have hl := sorted_length v
  have hperm : (sorted v).Perm (List.ofFn v) := List.perm_insertionSort (· ≤ ·) (List.ofFn v)
  have hnd : (sorted v).Nodup := hperm.nodup_iff.2 (List.nodup_ofFn.2 hv)
  have hp : (sorted v).Pairwise (· ≤ ·) := List.pairwise_insertionSort (· ≤ ·) (List.ofFn v)
  have hlt : (sorted v).Pairwise (· < ·) := (List.Pairwise.and hp hnd).imp fun h => lt_of_le_of_ne h.1 h.2
  rw [card_filter_ofFn v (fun a => a < (sorted v).getD t 0), ← hperm.countP_eq]
  rw [getD_elem _ _ (show t < (sorted v).length by omega)]
  exact countP_lt_sorted _ hlt t (by omega)

theorem kthList_get {n B : ℕ} (hB : 0 < B) (hs : n / B ≠ 0) (hk : (kthList n (n / B)).length - 1 = B) (b : ℕ) (hb : b < B) :
    (kthList n (n / B)).getD b 0 = b * (n / B) := by
  have hle : B ≤ n := by
    by_contra hc
    exact hs (Nat.div_eq_of_lt (by omega))
  have hs0 : 0 < n / B := Nat.pos_of_ne_zero hs
  have heq := kthList_eq n (n / B) hs0 (by omega)
  have hlen : b < (n - 1) / (n / B) + 1 := by
    rw [heq, List.length_append, List.length_map, List.length_range] at hk
    split_ifs at hk <;> simp at hk <;> omega
  rw [heq, List.getD_eq_getElem?_getD, List.getElem?_append_left (by simpa using hlen)]
  simp [hlen]

/-- **C149.** With `bin_size='mass'`, objects of `Y` with distinct values of a feature are distributed evenly: each bin contains
`n_y // n_bins` of them, and the last bin also contains the remaining one, if there is one. The result is computed with these
bins. -/
theorem C149_mass {nx ny d : ℕ} {cpu : ℤ} {X : Fin nx → Fin d → ℝ} {Y : Fin ny → Fin d → ℝ} {p : ℝ}
    (hp : 0 ≤ p) {B : ℕ} {nJobs : ℤ} {D : Fin nx → Fin ny → ℝ}
    (h : mpDissim cpu X Y p B "mass" nJobs = .ok D) :
    ∃ bin : Fin d → ℝ → ℕ, (∀ i, Monotone (bin i)) ∧
      (∀ i, Function.Injective (fun j => Y j i) → ∀ b < B,
        (Finset.univ.filter (fun j => bin i (Y j i) = b)).card = ny / B + if b + 1 = B then ny % B else 0) ∧
      ∀ x y, D x y = (ny : ℝ) / (nx + ny) * Spec.powerMean (if p = 0 then 2 else p) (fun i =>
        (Spec.regionCount (fun j => bin i (Y j i)) (bin i (X x i)) (bin i (Y y i)) : ℕ) / (ny : ℝ)) := by
  classical
  obtain ⟨B', hB, hBB, hny, hs, h | h⟩ := mpDissim_ok h
  · have hBB : B = B' := by exact_mod_cast hBB
    subst hBB
    obtain ⟨_, hk, rfl⟩ := h
    have hg : ∀ i, Good (massEdges (fun j => Y j i) (kthList ny (ny / B))) B (fun j => Y j i) :=
      fun i => massEdges_good _ hB hny hk
    refine ⟨fun i => binOf (massEdges (fun j => Y j i) (kthList ny (ny / B))) B, fun i => binOf_mono _ _, ?_, ?_⟩
    · intro i hv b hb
      have hpos : ∀ b < B, b * (ny / B) < ny := by
        intro b hb
        have h1 : b * (ny / B) < B * (ny / B) := Nat.mul_lt_mul_of_pos_right hb (Nat.pos_of_ne_zero hs)
        have h2 := Nat.mul_div_le ny B
        omega
      have hcard : ∀ b < B, (Finset.univ.filter (fun j => Y j i <
          (massEdges (fun j => Y j i) (kthList ny (ny / B))).e b)).card = b * (ny / B) := by
        intro b hb
        have := card_lt_sorted (fun j => Y j i) hv (b * (ny / B)) (hpos b hb)
        rw [← kthList_get hB hs hk b hb] at this
        rw [← kthList_get hB hs hk b hb]
        exact this
      have hmem := fun j => mem_bin (hg i) j b hb
      have hdm := Nat.div_add_mod ny B
      by_cases hlast : b + 1 = B
      · rw [if_pos hlast]
        have hsplit : (Finset.univ.filter (fun j => binOf (massEdges (fun j => Y j i) (kthList ny (ny / B))) B (Y j i) = b)) =
            Finset.univ \ (Finset.univ.filter (fun j => Y j i <
              (massEdges (fun j => Y j i) (kthList ny (ny / B))).e b)) := by
          ext j
          simp only [Finset.mem_filter, Finset.mem_univ, true_and, Finset.mem_sdiff, not_lt]
          rw [← hmem j]
          refine ⟨fun hh => hh.1, fun hh => ⟨hh, Or.inr ⟨?_, ?_⟩⟩⟩
          · rw [(hg i).bins]; exact hlast
          · rw [hlast]; exact (hg i).hi j
        rw [hsplit, Finset.card_sdiff_of_subset (Finset.filter_subset _ _), hcard b hb, Finset.card_univ, Fintype.card_fin]
        have : B * (ny / B) = b * (ny / B) + ny / B := by nth_rewrite 1 [← hlast]; exact Nat.succ_mul _ _
        generalize ny / B = q at *
        omega
      · rw [if_neg hlast, Nat.add_zero]
        have hsplit : (Finset.univ.filter (fun j => binOf (massEdges (fun j => Y j i) (kthList ny (ny / B))) B (Y j i) = b)) =
            (Finset.univ.filter (fun j => Y j i < (massEdges (fun j => Y j i) (kthList ny (ny / B))).e (b + 1))) \
            (Finset.univ.filter (fun j => Y j i < (massEdges (fun j => Y j i) (kthList ny (ny / B))).e b)) := by
          ext j
          simp only [Finset.mem_filter, Finset.mem_univ, true_and, Finset.mem_sdiff, not_lt]
          rw [← hmem j, (hg i).bins]
          tauto
        rw [hsplit, Finset.card_sdiff_of_subset, hcard b hb, hcard (b + 1) (by omega), Nat.succ_mul, Nat.add_sub_cancel_left]
        · intro j hj
          simp only [Finset.mem_filter, Finset.mem_univ, true_and] at hj ⊢
          exact lt_of_lt_of_le hj ((hg i).mono _ _ (by omega) (by omega))
    · intro x y
      exact mpEntry_scaled X Y _ (exponent_pos hp).ne' B hB hny _ hg x y
  · exact absurd h.1 (by decide)

/-- Not vacuous: five objects with distinct values in two bins. -/
example : ∃ D, mpDissim 4 (fun x _ => ((x : ℕ) : ℝ) : Fin 5 → Fin 1 → ℝ) (fun x _ => ((x : ℕ) : ℝ) : Fin 5 → Fin 1 → ℝ) 2
    (2 : ℕ) "mass" (-1) = .ok D :=
  (C148_mass_partial (by norm_num) _ _ 2 (2 : ℕ) (by simp) (Or.inr rfl)).2 (by norm_num)

/-! ## C150: transformations of features -/

theorem sorted_map {n : ℕ} (v : Fin n → ℝ) (f : ℝ → ℝ) (hf : StrictMono f) :
    sorted (fun j => f (v j)) = (sorted v).map f := by
  unfold sorted Np.sort
  rw [List.map_insertionSort (r := (· ≤ ·)) (s := (· ≤ ·)) _ _ (fun a _ b _ => hf.le_iff_le.symm), List.map_ofFn]
  rfl

theorem sorted_map_getD {n : ℕ} (v : Fin n → ℝ) (f : ℝ → ℝ) (hf : StrictMono f) (t : ℕ) (ht : t < n) :
    (sorted (fun j => f (v j))).getD t 0 = f ((sorted v).getD t 0) := by
  have hl := sorted_length v
  rw [sorted_map v f hf, getD_elem _ _ (by rw [List.length_map]; omega), getD_elem _ _ (by omega), List.getElem_map]

/-- Edges transformed with the data give the same bins. -/
theorem transform_bins {n : ℕ} (v : Fin n → ℝ) (f : ℝ → ℝ) (hf : StrictMono f) (E E' : Edges) (B : ℕ) (hB : E.bins = B)
    (hB' : E'.bins = B) (he : ∀ b ≤ B, E'.e b = f (E.e b)) :
    (∀ b < B, histogram (fun j => f (v j)) E' b = histogram v E b) ∧ ∀ x, binOf E' B (f x) = binOf E B x := by
  classical
  constructor
  · intro b hb
    unfold histogram
    rw [hB, hB', he b (by omega), he (b + 1) (by omega)]
    simp only [hf.le_iff_le, hf.lt_iff_lt]
  · intro x
    unfold binOf
    rw [hB, hB']
    congr 3
    apply Finset.filter_congr
    intro b hb
    rw [he b (by have := Finset.mem_range.1 hb; omega), hf.le_iff_le]

theorem rBins_congr (h h' : ℕ → ℕ) (B : ℕ) (hh : ∀ b < B, h' b = h b) (b c : ℕ) (hb : b < B) (hc : c < B) :
    rBins h' b c = rBins h b c := by
  have hu : ∀ b c, c < B → rUpper h' b c = rUpper h b c := by
    intro b c hc
    unfold rUpper
    split_ifs with hbc
    · congr 1
      apply List.map_congr_left
      intro t ht
      have := List.mem_range.1 ht
      exact hh _ (by omega)
    · rfl
  unfold rBins
  rw [hu b c hc, hu c b hb]

/-- **C150.** With `bin_size='mass'`, dissimilarities do not change if features are transformed by strictly increasing
functions. -/
theorem C150_mass {nx ny d : ℕ} (cpu : ℤ) (X : Fin nx → Fin d → ℝ) (Y : Fin ny → Fin d → ℝ) (p : ℝ) (nBins : ℤ)
    {binSize : String} (hb : binSize ∈ ["", "m", "ma", "mas", "mass"]) (nJobs : ℤ) (f : Fin d → ℝ → ℝ)
    (hf : ∀ i, StrictMono (f i)) :
    mpDissim cpu (fun x i => f i (X x i)) (fun y i => f i (Y y i)) p nBins binSize nJobs =
      mpDissim cpu X Y p nBins binSize nJobs := by
  have hpre : isPrefix binSize "mass" = true := by
    simp only [List.mem_cons, List.not_mem_nil, or_false] at hb
    rcases hb with rfl | rfl | rfl | rfl | rfl <;> decide
  unfold mpDissim
  simp only
  generalize (if p = 0 then (2 : ℝ) else p) = p'
  generalize (if nJobs = -1 then cpu else nJobs) = nj
  rw [if_pos hpre, if_pos hpre]
  split_ifs with h1 h2 h3 h4 h5
  · rfl
  · rfl
  · rfl
  · rfl
  · congr 1
    funext x y
    unfold mpEntry
    congr 2
    refine Finset.sum_congr rfl fun i _ => ?_
    congr 3
    have hB : 0 < nBins.toNat := by omega
    have hny : 0 < ny := by
      by_contra h0
      exact h3 (by rw [show ny = 0 by omega, Nat.zero_div])
    have hk : (kthList ny (ny / nBins.toNat)).length - 1 = nBins.toNat := by assumption
    have htr := transform_bins (fun j => Y j i) (f i) (hf i) (massEdges (fun j => Y j i) (kthList ny (ny / nBins.toNat)))
      (massEdges (fun j => f i (Y j i)) (kthList ny (ny / nBins.toNat))) nBins.toNat hk hk (by
        intro b hb
        refine sorted_map_getD (fun j => Y j i) (f i) (hf i) _ ?_
        rw [getD_elem _ _ (by omega)]
        exact kthList_lt hny _ (List.getElem_mem _))
    rw [htr.2, htr.2]
    exact rBins_congr _ _ nBins.toNat htr.1 _ _ (binOf_lt hB _) (binOf_lt hB _)
  · rfl

/-- With `bin_size='range'`, if a feature has the same value for all objects of `Y`, every region contains all of them. -/
theorem range_const {n B : ℕ} (v : Fin n → ℝ) (hB : 0 < B) (hn : 0 < n) (hc : ∀ j k, v j = v k) (x : ℝ) (j : Fin n) :
    rBins (histogram v (rangeEdges v B)) (binOf (rangeEdges v B) B x) (binOf (rangeEdges v B) B (v j)) = n := by
  rw [rBins_eq (rangeEdges_good v hB hn) _ _ (binOf_lt hB _) (binOf_lt hB _)]
  unfold Spec.regionCount
  rw [Finset.filter_true_of_mem, Finset.card_univ, Fintype.card_fin]
  intro k _
  simp only [hc k j]
  exact ⟨min_le_right _ _, le_max_right _ _⟩

/-- **C150.** With `bin_size='range'`, dissimilarities do not depend on units and origins of features. -/
theorem C150_range {nx ny d : ℕ} (cpu : ℤ) (X : Fin nx → Fin d → ℝ) (Y : Fin ny → Fin d → ℝ) (p : ℝ) (nBins : ℤ)
    {binSize : String} (hb : binSize ∈ ["r", "ra", "ran", "rang", "range"]) (nJobs : ℤ) (a c : Fin d → ℝ)
    (ha : ∀ i, 0 < a i) :
    mpDissim cpu (fun x i => a i * X x i + c i) (fun y i => a i * Y y i + c i) p nBins binSize nJobs =
      mpDissim cpu X Y p nBins binSize nJobs := by
  have hpre : ¬ isPrefix binSize "mass" = true := by
    simp only [List.mem_cons, List.not_mem_nil, or_false] at hb
    rcases hb with rfl | rfl | rfl | rfl | rfl <;> decide
  unfold mpDissim
  simp only
  generalize (if p = 0 then (2 : ℝ) else p) = p'
  generalize (if nJobs = -1 then cpu else nJobs) = nj
  rw [if_neg hpre, if_neg hpre]
  split_ifs with h1 h2 h3 h4
  · rfl
  · rfl
  · rfl
  · rfl
  · congr 1
    funext x y
    unfold mpEntry
    congr 2
    refine Finset.sum_congr rfl fun i _ => ?_
    congr 3
    have hB : 0 < nBins.toNat := by omega
    have hny : 0 < ny := by
      by_contra h0
      exact h3 (by rw [show ny = 0 by omega, Nat.zero_div])
    have hf : StrictMono (fun z => a i * z + c i) := fun z w hzw => by
      have := mul_lt_mul_of_pos_left hzw (ha i)
      change a i * z + c i < a i * w + c i
      linarith
    have hl := sorted_length (fun j => Y j i)
    have e1 := sorted_map_getD (fun j => Y j i) (fun z => a i * z + c i) hf 0 hny
    have e2 := sorted_map_getD (fun j => Y j i) (fun z => a i * z + c i) hf (ny - 1) (by omega)
    by_cases hc : (sorted (fun j => Y j i)).getD 0 0 = (sorted (fun j => Y j i)).getD (ny - 1) 0
    · have hcc : ∀ j k, Y j i = Y k i := by
        intro j k
        have b1 := sorted_bounds (fun j => Y j i) j
        have b2 := sorted_bounds (fun j => Y j i) k
        rw [hc] at b1 b2
        exact (le_antisymm b1.2 b1.1).trans (le_antisymm b2.1 b2.2)
      rw [range_const (fun j => Y j i) hB hny hcc]
      exact range_const (fun j => a i * Y j i + c i) hB hny (fun j k => by rw [hcc j k]) _ y
    · have hc' : ¬ (sorted (fun j => a i * Y j i + c i)).getD 0 0 = (sorted (fun j => a i * Y j i + c i)).getD (ny - 1) 0 := by
        rw [e1, e2]
        exact fun h => hc (hf.injective h)
      have htr := transform_bins (fun j => Y j i) (fun z => a i * z + c i) hf (rangeEdges (fun j => Y j i) nBins.toNat)
        (rangeEdges (fun j => a i * Y j i + c i) nBins.toNat) nBins.toNat rfl rfl (by
          intro b _
          unfold rangeEdges
          simp only [if_neg hc, if_neg hc']
          rw [e1, e2]
          ring)
      have t2 : ∀ z, binOf (rangeEdges (fun j => a i * Y j i + c i) nBins.toNat) nBins.toNat (a i * z + c i) =
          binOf (rangeEdges (fun j => Y j i) nBins.toNat) nBins.toNat z := htr.2
      rw [t2, t2]
      exact rBins_congr _ _ nBins.toNat htr.1 _ _ (binOf_lt hB _) (binOf_lt hB _)
  · rfl

/-- Not vacuous: temperatures of three objects in two units. -/
example : ∃ D, mpDissim 4 (fun x _ => 9 / 5 * ((x : ℕ) : ℝ) + 32 : Fin 3 → Fin 1 → ℝ)
      (fun x _ => 9 / 5 * ((x : ℕ) : ℝ) + 32 : Fin 3 → Fin 1 → ℝ) 2 2 "range" 1 = .ok D ∧
    mpDissim 4 (fun x _ => ((x : ℕ) : ℝ) : Fin 3 → Fin 1 → ℝ) (fun x _ => ((x : ℕ) : ℝ) : Fin 3 → Fin 1 → ℝ) 2 2 "range" 1 =
      .ok D := by
  obtain ⟨D, h⟩ := C148_range_ok (cpu := 4) (by norm_num) (fun x _ => ((x : ℕ) : ℝ) : Fin 3 → Fin 1 → ℝ)
    (fun x _ => ((x : ℕ) : ℝ) : Fin 3 → Fin 1 → ℝ) 2 (nBins := 2) (by norm_num) (by norm_num) (Or.inl le_rfl)
  refine ⟨D, ?_, h⟩
  have := C150_range 4 (fun x _ => ((x : ℕ) : ℝ) : Fin 3 → Fin 1 → ℝ) (fun x _ => ((x : ℕ) : ℝ) : Fin 3 → Fin 1 → ℝ) 2 2
    (binSize := "range") (by simp) 1 (fun _ => 9 / 5) (fun _ => 32) (fun _ => by norm_num)
  rw [this]
  exact h

end HubToolbox.Dist
