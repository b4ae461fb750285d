import Verif.Dist.MpLemmas

/-!
# Properties of `mp_dissim` (C146-C150)
-/

set_option autoImplicit false

namespace HubToolbox.Dist

open HubToolbox

/-- What a successful call has computed. -/
theorem mpDissim_ok {nx ny d : ℕ} {cpu : ℤ} {X : Fin nx → Fin d → ℝ} {Y : Fin ny → Fin d → ℝ} {p : ℝ} {nBins : ℤ}
    {binSize : String} {nJobs : ℤ} {D : Fin nx → Fin ny → ℝ} (h : mpDissim cpu X Y p nBins binSize nJobs = .ok D) :
    ∃ B : ℕ, 0 < B ∧ nBins = B ∧ 0 < ny ∧ ny / B ≠ 0 ∧
      ((isPrefix binSize "mass" = true ∧ (kthList ny (ny / B)).length - 1 = B ∧
          D = mpEntry X Y (if p = 0 then 2 else p) B (fun i => massEdges (fun j => Y j i) (kthList ny (ny / B)))) ∨
        (isPrefix binSize "mass" = false ∧ isPrefix binSize "range" = true ∧
          D = mpEntry X Y (if p = 0 then 2 else p) B (fun i => rangeEdges (fun j => Y j i) B))) := by
  unfold mpDissim at h
  simp only at h
  generalize (if p = 0 then (2 : ℝ) else p) = p' at h ⊢
  generalize (if nJobs = -1 then cpu else nJobs) = nj at h
  split_ifs at h with h1 h2 h3 h4 h5 h6 h7
  all_goals
    have hpos : 0 < nBins := by omega
    refine ⟨nBins.toNat, by omega, by omega, ?_, h3, ?_⟩
    · by_contra h0
      have h0 : ny = 0 := by omega
      apply h3
      rw [h0, Nat.zero_div]
  · exact Or.inl ⟨h5, h6, (Except.ok.inj h).symm⟩
  · exact Or.inr ⟨by simpa using h5, h7, (Except.ok.inj h).symm⟩

/-- Every successful call used edges which enclose the data. -/
theorem mpDissim_good {nx ny d : ℕ} {cpu : ℤ} {X : Fin nx → Fin d → ℝ} {Y : Fin ny → Fin d → ℝ} {p : ℝ} {nBins : ℤ}
    {binSize : String} {nJobs : ℤ} {D : Fin nx → Fin ny → ℝ} (h : mpDissim cpu X Y p nBins binSize nJobs = .ok D) :
    ∃ B : ℕ, 0 < B ∧ nBins = B ∧ 0 < ny ∧ ∃ E : Fin d → Edges, (∀ i, Good (E i) B (fun j => Y j i)) ∧
      D = mpEntry X Y (if p = 0 then 2 else p) B E := by
  obtain ⟨B, hB, hn, hny, hs, h | h⟩ := mpDissim_ok h
  · exact ⟨B, hB, hn, hny, _, fun i => massEdges_good _ hB hny h.2.1, h.2.2⟩
  · exact ⟨B, hB, hn, hny, _, fun i => rangeEdges_good _ hB hny, h.2.2⟩

theorem powerMean_smul {d : ℕ} (p c : ℝ) (hp : p ≠ 0) (hc : 0 ≤ c) (u : Fin d → ℝ) (hu : ∀ i, 0 ≤ u i) :
    Spec.powerMean p (fun i => c * u i) = c * Spec.powerMean p u := by
  unfold Spec.powerMean
  have h1 : ∑ i, (c * u i) ^ p = c ^ p * ∑ i, u i ^ p := by
    rw [Finset.mul_sum]
    exact Finset.sum_congr rfl fun i _ => Real.mul_rpow hc (hu i)
  rw [h1, mul_div_assoc, Real.mul_rpow (Real.rpow_nonneg hc _)
    (div_nonneg (Finset.sum_nonneg fun i _ => Real.rpow_nonneg (hu i) _) (Nat.cast_nonneg _)), ← Real.rpow_mul hc,
    mul_one_div_cancel hp, Real.rpow_one]

theorem mpEntry_eq {nx ny d : ℕ} (X : Fin nx → Fin d → ℝ) (Y : Fin ny → Fin d → ℝ) (p : ℝ) (B : ℕ) (hB : 0 < B)
    (E : Fin d → Edges) (hE : ∀ i, Good (E i) B (fun j => Y j i)) (x : Fin nx) (y : Fin ny) :
    mpEntry X Y p B E x y = Spec.powerMean p (fun i =>
      (Spec.regionCount (fun j => binOf (E i) B (Y j i)) (binOf (E i) B (X x i)) (binOf (E i) B (Y y i)) : ℕ) /
        ((nx : ℝ) + ny)) := by
  unfold mpEntry Spec.powerMean
  congr 2
  refine Finset.sum_congr rfl fun i _ => ?_
  rw [rBins_eq (hE i) _ _ (binOf_lt hB _) (binOf_lt hB _)]

theorem mpEntry_scaled {nx ny d : ℕ} (X : Fin nx → Fin d → ℝ) (Y : Fin ny → Fin d → ℝ) (p : ℝ) (hp : p ≠ 0) (B : ℕ)
    (hB : 0 < B) (hny : 0 < ny) (E : Fin d → Edges) (hE : ∀ i, Good (E i) B (fun j => Y j i)) (x : Fin nx) (y : Fin ny) :
    mpEntry X Y p B E x y = (ny : ℝ) / (nx + ny) * Spec.powerMean p (fun i =>
      (Spec.regionCount (fun j => binOf (E i) B (Y j i)) (binOf (E i) B (X x i)) (binOf (E i) B (Y y i)) : ℕ) /
        (ny : ℝ)) := by
  rw [mpEntry_eq X Y p B hB E hE, ← powerMean_smul p _ hp (by positivity) _ (fun i => by positivity)]
  congr 1
  funext i
  have : (0 : ℝ) < ny := by exact_mod_cast hny
  have h2 : (0 : ℝ) < nx + ny := by positivity
  field_simp

theorem exponent_pos {p : ℝ} (hp : 0 ≤ p) : 0 < (if p = 0 then 2 else p) := by
  split_ifs with h
  · norm_num
  · exact lt_of_le_of_ne hp (Ne.symm h)

/-! ## C146: the values -/

/-- **C146 (partial).** A successful call bins each feature with a monotone function into `n_bins` bins; each entry of the
result is the power mean over features of the fraction of objects of `Y` in the bins from one object to the other, times
`n_y / (n_x + n_y)`. `p = 0` means `p = 2`. Missing: the factor should not be there (`C146_violated`). -/
theorem C146_regions_partial {nx ny d : ℕ} {cpu : ℤ} {X : Fin nx → Fin d → ℝ} {Y : Fin ny → Fin d → ℝ} {p : ℝ}
    (hp : 0 ≤ p) {nBins : ℤ} {binSize : String} {nJobs : ℤ} {D : Fin nx → Fin ny → ℝ}
    (h : mpDissim cpu X Y p nBins binSize nJobs = .ok D) :
    ∃ bin : Fin d → ℝ → ℕ, (∀ i, Monotone (bin i)) ∧ (∀ i v, (bin i v : ℤ) < nBins) ∧
      ∀ x y, D x y = (ny : ℝ) / (nx + ny) * Spec.powerMean (if p = 0 then 2 else p) (fun i =>
        (Spec.regionCount (fun j => bin i (Y j i)) (bin i (X x i)) (bin i (Y y i)) : ℕ) / (ny : ℝ)) := by
  obtain ⟨B, hB, rfl, hny, E, hE, rfl⟩ := mpDissim_good h
  refine ⟨fun i => binOf (E i) B, fun i => binOf_mono _ _, fun i v => ?_, fun x y => ?_⟩
  · exact_mod_cast binOf_lt hB v
  · exact mpEntry_scaled X Y _ (exponent_pos hp).ne' B hB hny E hE x y

theorem rangeEdges_bin {n B : ℕ} (v : Fin n → ℝ) (hB : 0 < B) (lo hi : ℝ) (hlo : IsLeast (Set.range v) lo)
    (hhi : IsGreatest (Set.range v) hi) (hlt : lo < hi) (x : ℝ) :
    (binOf (rangeEdges v B) B x : ℤ) = Spec.rangeBin lo hi B x := by
  classical
  obtain ⟨j0, hj0⟩ := hlo.1
  have hn : 0 < n := Nat.lt_of_le_of_lt (Nat.zero_le _) j0.isLt
  have hl := sorted_length v
  have e1 : (sorted v).getD 0 0 = lo := by
    apply le_antisymm
    · rw [← hj0]; exact (sorted_bounds v j0).1
    · rw [getD_elem _ _ (by omega)]
      obtain ⟨j, hj⟩ := (sorted_mem v _).1 (List.getElem_mem (l := sorted v) (n := 0) (by omega))
      rw [← hj]
      exact hlo.2 ⟨j, rfl⟩
  obtain ⟨j1, hj1⟩ := hhi.1
  have e2 : (sorted v).getD (n - 1) 0 = hi := by
    apply le_antisymm
    · rw [getD_elem _ _ (by omega)]
      obtain ⟨j, hj⟩ := (sorted_mem v _).1 (List.getElem_mem (l := sorted v) (n := n - 1) (by omega))
      rw [← hj]
      exact hhi.2 ⟨j, rfl⟩
    · rw [← hj1]; exact (sorted_bounds v j1).2
  have hBr : (0 : ℝ) < B := by exact_mod_cast hB
  have hd : 0 < hi - lo := sub_pos.2 hlt
  have hedge : ∀ b, (rangeEdges v B).e b = lo + b * ((hi - lo) / B) := by
    intro b
    unfold rangeEdges
    simp only [e1, e2, if_neg hlt.ne]
  have hiff : ∀ b : ℕ, (rangeEdges v B).e b ≤ x ↔ (b : ℤ) ≤ ⌊(x - lo) * B / (hi - lo)⌋ := by
    intro b
    rw [hedge, Int.le_floor, le_div_iff₀ hd, Int.cast_natCast]
    constructor
    · intro h
      have : (b : ℝ) * ((hi - lo) / B) ≤ x - lo := by linarith
      have h2 := mul_le_mul_of_nonneg_right this hBr.le
      have h3 : (b : ℝ) * ((hi - lo) / B) * B = b * (hi - lo) := by field_simp
      rwa [h3] at h2
    · intro h
      have h3 : (b : ℝ) * ((hi - lo) / B) = b * (hi - lo) / B := by ring
      have : (b : ℝ) * (hi - lo) / B ≤ x - lo := by rw [div_le_iff₀ hBr]; exact h
      linarith
  have hc := fun b hb => count_edges (rangeEdges v B).e B (rangeEdges_good v hB hn).mono x b hb
  unfold binOf Spec.rangeBin
  have hbins : (rangeEdges v B).bins = B := rfl
  rw [hbins]
  set c := ((Finset.range (B + 1)).filter (fun b => (rangeEdges v B).e b ≤ x)).card with hcdef
  set F := ⌊(x - lo) * B / (hi - lo)⌋
  have hcB : c ≤ B + 1 := by
    have := Finset.card_filter_le (Finset.range (B + 1)) (fun b => (rangeEdges v B).e b ≤ x)
    rw [Finset.card_range] at this
    exact this
  -- for all b ≤ B: b ≤ F ↔ b < c
  have key : ∀ b : ℕ, b ≤ B → ((b : ℤ) ≤ F ↔ b < c) := fun b hb => (hiff b).symm.trans (hc b hb)
  rcases Nat.eq_zero_or_pos c with h0 | h0
  · have := (key 0 (by omega)).not.2 (by omega)
    omega
  · have k1 := (key (c - 1) (by omega)).2 (by omega)
    rcases Nat.lt_or_ge c (B + 1) with h1 | h1
    · have k2 := (key c (by omega)).not.2 (by omega)
      omega
    · omega

/-- **C146 (partial), 'range'.** With `bin_size='range'` the bins divide the range of each feature of `Y` in `n_bins` parts
of the same length, and values of `X` outside are counted in the first or last bin. -/
theorem C146_range_partial {nx ny d : ℕ} {cpu : ℤ} {X : Fin nx → Fin d → ℝ} {Y : Fin ny → Fin d → ℝ} {p : ℝ}
    (hp : 0 ≤ p) {B : ℕ} {nJobs : ℤ} {D : Fin nx → Fin ny → ℝ}
    (h : mpDissim cpu X Y p B "range" nJobs = .ok D) (lo hi : Fin d → ℝ)
    (hlo : ∀ i, IsLeast (Set.range fun j => Y j i) (lo i)) (hhi : ∀ i, IsGreatest (Set.range fun j => Y j i) (hi i))
    (hlt : ∀ i, lo i < hi i) :
    ∀ x y, D x y = (ny : ℝ) / (nx + ny) * Spec.powerMean (if p = 0 then 2 else p) (fun i =>
        (Spec.regionCount (fun j => (Spec.rangeBin (lo i) (hi i) B (Y j i)).toNat)
          (Spec.rangeBin (lo i) (hi i) B (X x i)).toNat (Spec.rangeBin (lo i) (hi i) B (Y y i)).toNat : ℕ) / (ny : ℝ)) := by
  obtain ⟨B', hB, hBB, hny, hs, h | h⟩ := mpDissim_ok h
  · exact absurd h.1 (by decide)
  have hBB : B = B' := by exact_mod_cast hBB
  subst hBB
  intro x y
  rw [h.2.2, mpEntry_scaled X Y _ (exponent_pos hp).ne' B hB hny _ (fun i => rangeEdges_good _ hB hny) x y]
  congr 2
  funext i
  have hbin : ∀ z, binOf (rangeEdges (fun j => Y j i) B) B z = (Spec.rangeBin (lo i) (hi i) B z).toNat := fun z => by
    have := rangeEdges_bin (fun j => Y j i) hB (lo i) (hi i) (hlo i) (hhi i) (hlt i) z
    omega
  simp only [hbin]

/-! ## C148: arguments -/

/-- **C148.** With `bin_size='range'`, every number of bins between one and the number of objects of `Y` is accepted. -/
theorem C148_range_ok {nx ny d : ℕ} {cpu : ℤ} (hcpu : 1 ≤ cpu) (X : Fin nx → Fin d → ℝ) (Y : Fin ny → Fin d → ℝ) (p : ℝ)
    {nBins : ℤ} (h1 : 1 ≤ nBins) (h2 : nBins ≤ ny) {nJobs : ℤ} (hj : 1 ≤ nJobs ∨ nJobs = -1) :
    ∃ D, mpDissim cpu X Y p nBins "range" nJobs = .ok D := by
  have hs : ny / nBins.toNat ≠ 0 := by
    have := (Nat.div_pos_iff (a := ny) (b := nBins.toNat)).2 ⟨by omega, by omega⟩
    omega
  have hj' : ¬ ((if nJobs = -1 then cpu else nJobs) < 1) := by split_ifs <;> omega
  unfold mpDissim
  simp only
  rw [if_neg (by omega), if_neg (by omega), if_neg hs, if_neg hj', if_neg (by decide), if_pos (by decide)]
  exact ⟨_, rfl⟩

theorem filter_multiples (n step : ℕ) (hs : 0 < step) (hn : 0 < n) :
    (List.range n).filter (fun t => decide (step ∣ t)) = (List.range ((n - 1) / step + 1)).map (· * step) := by
  have hs2 : ((List.range ((n - 1) / step + 1)).map (· * step)).Pairwise (· < ·) := by
    rw [List.pairwise_map]
    exact List.pairwise_lt_range.imp fun h => Nat.mul_lt_mul_of_pos_right h hs
  have hs1 := filter_sorted n step
  refine List.Perm.eq_of_pairwise (le := (· < ·)) (fun a b _ _ h1 h2 => absurd h1 (Nat.lt_asymm h2)) hs1 hs2 ?_
  rw [List.perm_ext_iff_of_nodup (hs1.imp fun h => Nat.ne_of_lt h) (hs2.imp fun h => Nat.ne_of_lt h)]
  intro a
  simp only [List.mem_filter, List.mem_range, decide_eq_true_eq, List.mem_map]
  constructor
  · rintro ⟨h1, c, rfl⟩
    refine ⟨c, ?_, Nat.mul_comm _ _⟩
    have : c ≤ (n - 1) / step := (Nat.le_div_iff_mul_le hs).2 (by rw [Nat.mul_comm]; omega)
    omega
  · rintro ⟨c, hc, rfl⟩
    have : c * step ≤ n - 1 := (Nat.le_div_iff_mul_le hs).1 (by omega)
    exact ⟨by omega, Dvd.intro_left c rfl⟩

/-- The positions of the edges are the multiples of the step, and the last position. -/
theorem kthList_eq (n step : ℕ) (hs : 0 < step) (hn : 0 < n) :
    kthList n step = (List.range ((n - 1) / step + 1)).map (· * step) ++ (if step ∣ n - 1 then [] else [n - 1]) := by
  unfold kthList
  simp only
  rw [filter_multiples n step hs hn, List.range_succ, List.map_append, List.map_singleton, List.getLast?_append]
  simp only [List.getLast?_singleton, Option.some_or, Option.some.injEq]
  by_cases hd : step ∣ n - 1
  · rw [if_pos (Nat.div_mul_cancel hd), if_pos hd, List.append_nil]
  · rw [if_neg (fun h => hd (Dvd.intro_left _ h)), if_neg hd]

theorem mass_count (n B : ℕ) (hB : 0 < B) (hle : B ≤ n) :
    (kthList n (n / B)).length - 1 = B ↔ n % B ≤ 1 ∧ B < n := by
  have hs : 0 < n / B := Nat.div_pos hle hB
  have hn : 0 < n := by omega
  rw [kthList_eq n (n / B) hs hn, List.length_append, List.length_map, List.length_range]
  have hdm := Nat.div_add_mod n B
  have hml := Nat.mod_lt n hB
  set s := n / B
  set r := n % B
  have hq := Nat.div_add_mod (n - 1) s
  have hql := Nat.mod_lt (n - 1) hs
  set q := (n - 1) / s
  set t := (n - 1) % s with ht
  by_cases hd : s ∣ n - 1
  · rw [if_pos hd]
    have ht0 : t = 0 := Nat.mod_eq_zero_of_dvd hd
    simp only [List.length_nil]
    constructor
    · intro h
      have hqB : q = B := by omega
      rw [hqB, Nat.mul_comm] at hq
      refine ⟨by omega, ?_⟩
      by_contra hc
      have : B = n := by omega
      have h1 : n * s + t = n - 1 := by rw [← this]; exact hq.trans (by rw [this])
      have : n * 1 ≤ n * s := Nat.mul_le_mul_left n hs
      omega
    · rintro ⟨h1, h2⟩
      have : B * s ≤ n := by omega
      -- s*q = n-1, B*s + r = n
      rcases Nat.eq_zero_or_pos r with h0 | h0
      · -- B*s = n, s ∣ n and s ∣ n - 1, so s = 1 and B = n
        exfalso
        have hsn : s ∣ n := by rw [← hdm, h0, Nat.add_zero]; exact Dvd.intro_left B rfl
        have h1 : s ∣ 1 := by
          have := Nat.dvd_sub hsn hd
          rwa [show n - (n - 1) = 1 by omega] at this
        have hs1 : s = 1 := Nat.dvd_one.1 h1
        rw [hs1] at hdm
        omega
      · have hr1 : r = 1 := by omega
        have hmul : s * q = s * B := by rw [Nat.mul_comm s B]; omega
        have := Nat.eq_of_mul_eq_mul_left hs hmul
        omega
  · rw [if_neg hd]
    have ht0 : t ≠ 0 := fun h => hd (Nat.dvd_of_mod_eq_zero h)
    simp only [List.length_singleton]
    constructor
    · intro h
      have hqB : q = B - 1 := by omega
      rw [hqB, Nat.mul_sub, Nat.mul_one, Nat.mul_comm s B] at hq
      have hsB : s ≤ B * s := Nat.le_mul_of_pos_left s hB
      refine ⟨by omega, ?_⟩
      by_contra hc
      have hBn : B = n := by omega
      have hs1 : s = 1 := by
        change n / B = 1
        rw [hBn]
        exact Nat.div_self hn
      exact hd (by rw [hs1]; exact one_dvd _)
    · rintro ⟨h1, h2⟩
      have hsB : s ≤ B * s := Nat.le_mul_of_pos_left s hB
      rcases Nat.eq_zero_or_pos r with h0 | h0
      · -- n = B s, n - 1 = s (B - 1) + (s - 1)
        have hqq : q = B - 1 := by
          have : q = (s * (B - 1) + (s - 1)) / s := by
            change (n - 1) / s = _
            congr 1
            rw [Nat.mul_sub, Nat.mul_one, Nat.mul_comm s B]
            omega
          rw [this, Nat.mul_add_div hs, Nat.div_eq_of_lt (by omega), Nat.add_zero]
        omega
      · exfalso
        apply hd
        have : n - 1 = B * s := by omega
        rw [this]
        exact Dvd.intro_left B rfl

/-- **C148 (partial).** With `bin_size='mass'` (or the beginning of this word, even the empty string), a number of bins is
accepted if and only if it is positive and smaller than the number of objects of `Y`, and division of the number of objects
by it has remainder 0 or 1. Missing: acceptance of all other numbers of bins. -/
theorem C148_mass_partial {nx ny d : ℕ} {cpu : ℤ} (hcpu : 1 ≤ cpu) (X : Fin nx → Fin d → ℝ) (Y : Fin ny → Fin d → ℝ) (p : ℝ)
    (nBins : ℤ) {binSize : String} (hb : binSize ∈ ["", "m", "ma", "mas", "mass"]) {nJobs : ℤ}
    (hj : 1 ≤ nJobs ∨ nJobs = -1) :
    (∃ D, mpDissim cpu X Y p nBins binSize nJobs = .ok D) ↔ 1 ≤ nBins ∧ nBins < ny ∧ (ny : ℤ) % nBins ≤ 1 := by
  have hpre : isPrefix binSize "mass" = true := by
    simp only [List.mem_cons, List.not_mem_nil, or_false] at hb
    rcases hb with rfl | rfl | rfl | rfl | rfl <;> decide
  have hj' : ¬ ((if nJobs = -1 then cpu else nJobs) < 1) := by split_ifs <;> omega
  constructor
  · rintro ⟨D, h⟩
    obtain ⟨B, hB, rfl, hny, hs, h | h⟩ := mpDissim_ok h
    · have hle : B ≤ ny := by
        by_contra hc
        exact hs (Nat.div_eq_of_lt (by omega))
      have := (mass_count ny B hB hle).1 h.2.1
      refine ⟨by omega, by omega, ?_⟩
      exact_mod_cast this.1
    · rw [hpre] at h
      exact absurd h.1 (by simp)
  · rintro ⟨h1, h2, h3⟩
    obtain ⟨B, rfl⟩ : ∃ B : ℕ, nBins = B := ⟨nBins.toNat, by omega⟩
    have h3' : ny % B ≤ 1 := by exact_mod_cast h3
    have hs : ny / B ≠ 0 := by
      have := (Nat.div_pos_iff (a := ny) (b := B)).2 ⟨by omega, by omega⟩
      omega
    unfold mpDissim
    simp only
    rw [if_neg (by omega), if_neg (by omega), Int.toNat_natCast, if_neg hs, if_neg hj', if_pos hpre,
      if_pos ((mass_count ny B (by omega) (by omega)).2 ⟨h3', by omega⟩)]
    exact ⟨_, rfl⟩

/-- **C148 (violated).** Eight objects cannot be put into three bins of about the same mass. -/
theorem C148_mass_violated {nx d : ℕ} (X : Fin nx → Fin d → ℝ) (Y : Fin 8 → Fin d → ℝ) (p : ℝ) :
    ¬ ∃ D, mpDissim 4 X Y p 3 "mass" 1 = .ok D := by
  rw [C148_mass_partial (by norm_num) X Y p 3 (by simp) (Or.inl le_rfl)]
  norm_num

/-- **C148.** Numbers of bins which are not positive (also the default value zero) or larger than the number of objects of
`Y`, and unknown kinds of bins are rejected. -/
theorem C148_rejects {nx ny d : ℕ} {cpu : ℤ} (X : Fin nx → Fin d → ℝ) (Y : Fin ny → Fin d → ℝ) (p : ℝ) (nBins : ℤ)
    (binSize : String) (nJobs : ℤ)
    (h : nBins ≤ 0 ∨ (ny : ℤ) < nBins ∨ (¬ binSize.toList <+: "mass".toList ∧ ¬ binSize.toList <+: "range".toList)) :
    ∃ e, mpDissim cpu X Y p nBins binSize nJobs = .error e := by
  cases hr : mpDissim cpu X Y p nBins binSize nJobs with
  | error e => exact ⟨e, rfl⟩
  | ok D =>
    exfalso
    obtain ⟨B, hB, rfl, hny, hs, hk⟩ := mpDissim_ok hr
    rcases h with h | h | h
    · omega
    · exact hs (Nat.div_eq_of_lt (by omega))
    · unfold isPrefix at hk
      rcases hk with hk | hk
      · exact h.1 (List.isPrefixOf_iff_prefix.1 hk.1)
      · exact h.2 (List.isPrefixOf_iff_prefix.1 hk.2.1)

/-- **C146 (violated).** If all values are in the same bin, all regions contain all objects of `Y` and the dissimilarity
should be 1; the function computes `n_y / (n_x + n_y)`, one half for a data set compared with itself. -/
theorem C146_violated {nx ny d : ℕ} (hd : 0 < d) {cpu : ℤ} {X : Fin nx → Fin d → ℝ} {Y : Fin ny → Fin d → ℝ} {p : ℝ}
    (hp : 0 ≤ p) {binSize : String} {nJobs : ℤ} {D : Fin nx → Fin ny → ℝ}
    (h : mpDissim cpu X Y p 1 binSize nJobs = .ok D) (x : Fin nx) (y : Fin ny) :
    D x y = (ny : ℝ) / (nx + ny) ∧ D x y ≠ 1 := by
  obtain ⟨bin, hm, hlt, hD⟩ := C146_regions_partial hp h
  have hny : (0 : ℝ) < ny := by
    have : 0 < ny := Nat.lt_of_le_of_lt (Nat.zero_le _) y.isLt
    exact_mod_cast this
  have hnx : (0 : ℝ) < nx := by
    have : 0 < nx := Nat.lt_of_le_of_lt (Nat.zero_le _) x.isLt
    exact_mod_cast this
  have hz : ∀ i v, bin i v = 0 := fun i v => by have := hlt i v; omega
  have hval : D x y = (ny : ℝ) / (nx + ny) := by
    rw [hD]
    have : Spec.powerMean (d := d) (if p = 0 then 2 else p) (fun i =>
        (Spec.regionCount (fun j => bin i (Y j i)) (bin i (X x i)) (bin i (Y y i)) : ℕ) / (ny : ℝ)) = 1 := by
      unfold Spec.powerMean Spec.regionCount
      have hdr : (d : ℝ) ≠ 0 := by exact_mod_cast hd.ne'
      simp [hz, div_self hny.ne', div_self hdr]
    rw [this, mul_one]
  refine ⟨hval, ?_⟩
  rw [hval]
  intro he
  rw [div_eq_one_iff_eq (by positivity)] at he
  linarith

/-- Not vacuous: two objects with two features, one bin. -/
example : ∃ D, mpDissim 4 (fun x i => ((x : ℕ) + 2 * (i : ℕ) : ℝ) : Fin 2 → Fin 2 → ℝ)
    (fun x i => ((x : ℕ) + 2 * (i : ℕ) : ℝ) : Fin 2 → Fin 2 → ℝ) 2 1 "range" 1 = .ok D ∧ D 0 1 = 1 / 2 := by
  obtain ⟨D, h⟩ := C148_range_ok (cpu := 4) (by norm_num) (fun x i => ((x : ℕ) + 2 * (i : ℕ) : ℝ) : Fin 2 → Fin 2 → ℝ)
    (fun x i => ((x : ℕ) + 2 * (i : ℕ) : ℝ) : Fin 2 → Fin 2 → ℝ) 2 (nBins := 1) (by norm_num) (by norm_num) (Or.inl le_rfl)
  refine ⟨D, h, ?_⟩
  rw [(C146_violated (by norm_num) (by norm_num) h 0 1).1]
  norm_num

end HubToolbox.Dist
