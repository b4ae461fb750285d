import Verif.Rounding.IntDimRow
import Verif.Rounding.Cosine

/-!
# C284: `intrinsic_dimension` in double precision
-/

set_option autoImplicit false

namespace HubToolbox.Rounding

open HubToolbox Ieee

/-- Neighbours do not depend on the order of the points. -/
theorem neighbours_perm {n m : ℕ} {X : Fin n → Fin m → ℝ} {T : Fin n → ℕ → ℝ} (hT : ∀ i, IntDim.Spec.Neighbours X i (T i)) (σ : Equiv.Perm (Fin n))
    (i : Fin n) : IntDim.Spec.Neighbours (fun i => X (σ i)) i (T (σ i)) := by
  refine ⟨(hT (σ i)).1, ?_⟩
  rw [(hT (σ i)).2]
  have e : Finset.univ.erase (σ i) = (Finset.univ.erase i).map σ.toEmbedding := by
    ext j
    simp only [Finset.mem_erase, Finset.mem_univ, and_true, Finset.mem_map, Equiv.coe_toEmbedding]
    constructor
    · intro h
      exact ⟨σ.symm j, fun hc => h (by rw [← hc, Equiv.apply_symm_apply]), by simp⟩
    · rintro ⟨a, ha, rfl⟩ hc
      exact ha (σ.injective hc)
  rw [e, Finset.map_val, Multiset.map_map]
  rfl

theorem sum_flatMap {n w : ℕ} (v : Fin n → ℕ → ℝ) :
    (((List.finRange n).flatMap fun i => (List.range w).map fun b => (i, b)).map fun p => v p.1 p.2).sum = ∑ i, ∑ b : Fin w, v i b := by
  rw [List.map_flatMap, List.flatMap, List.sum_flatten, List.map_map, Fin.sum_univ_def]
  congr 1
  apply List.map_congr_left
  intro i _
  simp only [Function.comp, List.map_map]
  rw [Fin.sum_univ_def, ← List.map_coe_finRange_eq_range, List.map_map]
  rfl

/-- Every local estimate is accurate. -/
theorem hats {L : IdLib} (hL : L.Near) {n m : ℕ} {X : Fin n → Fin m → ℤ} {B : ℤ} (h : SmallInts X B) (hX : Function.Injective X) (σ : Equiv.Perm (Fin n))
    {T : Fin n → ℕ → ℝ} (hT : ∀ i, IntDim.Spec.Neighbours (fun i f => ((X i f : ℤ) : ℝ)) i (T i)) {k1 k2 : ℕ} (h1 : 2 ≤ k1) (h2 : k2 < n)
    (hk : k2 ≤ 2 ^ 20) {s η : ℝ} (hs : ∀ i k, k1 ≤ k → k ≤ k2 → s ≤ IntDim.Spec.logRatios (T i) k) (hsp : 0 < s) (hη4 : η ≤ 1 / 4)
    (hη' : η * s = 1200 * (k2 : ℝ) ^ 2 * u) : ∀ i b, b < k2 + 1 - k1 → ∃ y, (double.rounding ℝ).idHat ((double.rounding ℝ).idLog L
        ((double.rounding ℝ).idDist L (fun i f => .fin ((X (σ i) f : ℤ) : ℝ)) i)) (k1 + b) = .fin y ∧ double.round y = .fin y ∧
      |y - (((k1 + b : ℕ) : ℝ) - 2) / IntDim.Spec.logRatios (T (σ i)) (k1 + b)|
        ≤ (4 / 3 * η + 2 * u) * ((((k1 + b : ℕ) : ℝ) - 2) / IntDim.Spec.logRatios (T (σ i)) (k1 + b)) ∧
      (((k1 + b : ℕ) : ℝ) - 2) / IntDim.Spec.logRatios (T (σ i)) (k1 + b) ≤ 2 ^ 55 ∧
      ((((k1 + b : ℕ) : ℝ) - 2) / IntDim.Spec.logRatios (T (σ i)) (k1 + b) = 0 ∨
        1 / 2 ^ 25 ≤ (((k1 + b : ℕ) : ℝ) - 2) / IntDim.Spec.logRatios (T (σ i)) (k1 + b)) := by
  have hu := u_pos
  have h' : SmallInts (fun i f => X (σ i) f) B := ⟨fun i f => h.bound _ _, h.fits⟩
  have hT' : ∀ i, IntDim.Spec.Neighbours (fun i f => ((X (σ i) f : ℤ) : ℝ)) i (T (σ i)) := fun i => neighbours_perm hT σ i
  have hX' : Function.Injective (fun i f => ((X (σ i) f : ℤ) : ℝ)) := by
    intro i j hij
    apply σ.injective
    apply hX
    funext f
    have := congrFun hij f
    simp only [Int.cast_inj] at this
    exact this
  intro i b hb
  have hpos : ∀ c, c + 1 < n → 0 < T (σ i) c := fun c hc => IntDim.neighbours_pos _ hX' i _ (hT' i) c hc
  have hint : ∀ c, c + 1 < n → 1 ≤ T (σ i) c ^ 2 ∧ T (σ i) c ^ 2 ≤ 2 ^ 53 := by
    intro c hc
    have : T (σ i) c ∈ (Multiset.range (n - 1)).map (T (σ i)) := Multiset.mem_map_of_mem _ (Multiset.mem_range.mpr (by omega))
    rw [(hT' i).2] at this
    obtain ⟨j, -, hj⟩ := Multiset.mem_map.mp this
    have e : T (σ i) c ^ 2 = ((∑ f, (X (σ i) f - X (σ j) f) ^ 2 : ℤ) : ℝ) := by
      have := IntDim.sqDist_dist (fun i f => ((X (σ i) f : ℤ) : ℝ)) i j
      rw [← hj, ← this, IntDim.sqDist_eq]
      push_cast
      rfl
    have hp : 0 < T (σ i) c ^ 2 := by have := hpos c hc; positivity
    rw [e] at hp ⊢
    constructor
    · have h3 : 0 < ∑ f, (X (σ i) f - X (σ j) f) ^ 2 := by exact_mod_cast hp
      have h4 : 1 ≤ ∑ f, (X (σ i) f - X (σ j) f) ^ 2 := h3
      exact_mod_cast h4
    · have h3 : ∑ f, (X (σ i) f - X (σ j) f) ^ 2 ≤ 2 ^ 53 := by
        refine (Finset.sum_le_card_nsmul _ _ (4 * B ^ 2) fun f _ => ?_).trans ?_
        · have a1 := abs_le.1 (h.bound (σ i) f)
          have a2 := abs_le.1 (h.bound (σ j) f)
          have : |X (σ i) f - X (σ j) f| ≤ 2 * B := by
            rw [abs_le]
            constructor <;> linarith
          calc (X (σ i) f - X (σ j) f) ^ 2 ≤ (2 * B) ^ 2 := sq_le_sq' (by linarith [abs_le.1 this]) (abs_le.1 this).2
            _ = 4 * B ^ 2 := by ring
        · have := h.fits
          simp only [Finset.card_univ, Fintype.card_fin, nsmul_eq_mul]
          linarith
      exact_mod_cast h3
  have hkr : ((k1 + b : ℕ) : ℝ) ≤ k2 := by exact_mod_cast (by omega : k1 + b ≤ k2)
  refine hat_error (by omega) (by omega) (fun c hc => hpos c (by omega)) (fun c hc => ?_)
    (hs (σ i) (k1 + b) (by omega) (by omega)) ?_ hη4 hsp
  · exact log_error hL (hT' i) (fun j => h'.dist_exact hL i j) (by omega) (hint c (by omega)).1 (hint c (by omega)).2 (hpos c (by omega))
  · rw [hη']
    have : ((k1 + b : ℕ) : ℝ) ^ 2 ≤ (k2 : ℝ) ^ 2 := pow_le_pow_left₀ (Nat.cast_nonneg _) hkr 2
    have := mul_le_mul_of_nonneg_right this hu.le
    linarith

/-- C284: for different vectors of integers which are not too large the estimate computed in double precision is accurate. -/
theorem C284_partial (L : IdLib) (hL : L.Near) (S : IntDim.LexSort) {n m : ℕ} (X : Fin n → Fin m → ℤ) (B : ℤ) (h : SmallInts X B)
    (hX : Function.Injective X) (T : Fin n → ℕ → ℝ) (hT : ∀ i, IntDim.Spec.Neighbours (fun i f => ((X i f : ℤ) : ℝ)) i (T i))
    (k1 k2 : ℕ) (h1 : 2 ≤ k1) (h12 : k1 ≤ k2) (h2 : k2 < n) (hk : k2 ≤ 2 ^ 20) (hw : n * (k2 + 1 - k1) ≤ 2 ^ 25)
    (s : ℝ) (hs : ∀ i k, k1 ≤ k → k ≤ k2 → s ≤ IntDim.Spec.logRatios (T i) k) (hs0 : 4800 * (k2 : ℝ) ^ 2 * 2 ^ (-53 : ℤ) ≤ s) :
    ∃ r, (double.rounding ℝ).intrinsicDimension L S (fun i f => ((X i f : ℤ) : ℝ)) k1 k2 = .ok (.fin r) ∧
      |r - IntDim.Spec.levina T k1 k2|
        ≤ (1600 * (k2 : ℝ) ^ 2 / s + 2 * (n * (k2 + 1 - k1)) + 4) * 2 ^ (-53 : ℤ) * IntDim.Spec.levina T k1 k2 := by
  have hu := u_pos
  rw [← u_eq] at hs0 ⊢
  have hm : m ≠ 0 := by
    rintro rfl
    have : (⟨0, by omega⟩ : Fin n) = ⟨1, by omega⟩ := hX (by funext f; exact f.elim0)
    simp at this
  unfold intrinsicDimension
  rw [if_neg (by omega), if_neg hm]
  set σ := S.run (fun i f => ((X i f : ℤ) : ℝ)) with hσ
  have e1 : ((k1 : ℤ)).toNat = k1 := by omega
  have e2 : ((k2 : ℤ) + 1 - (k1 : ℤ)).toNat = k2 + 1 - k1 := by omega
  rw [e1, e2]
  set w := k2 + 1 - k1 with hwdef
  have hwr : (w : ℝ) = (k2 : ℝ) + 1 - k1 := by
    rw [hwdef, Nat.cast_sub (by omega)]
    push_cast
    ring
  have hk2 : (2 : ℝ) ≤ k2 := by exact_mod_cast h1.trans h12
  have hsp : 0 < s := lt_of_lt_of_le (by positivity) hs0
  set η := 1200 * (k2 : ℝ) ^ 2 * u / s with hη
  have hη0 : 0 ≤ η := by positivity
  have hη4 : η ≤ 1 / 4 := by
    rw [hη, div_le_iff₀ hsp]
    linarith
  have hη' : η * s = 1200 * (k2 : ℝ) ^ 2 * u := by rw [hη]; field_simp
  have hhat := hats hL h hX σ hT h1 h2 hk hs hsp hη4 hη'
  choose! y y1 y2 y3 y4 y5 using hhat
  set v : Fin n → ℕ → ℝ := fun i b => (((k1 + b : ℕ) : ℝ) - 2) / IntDim.Spec.logRatios (T (σ i)) (k1 + b) with hv
  set l : List (Fin n × ℕ) := (List.finRange n).flatMap fun i => (List.range w).map fun b => (i, b) with hl
  have hmem : ∀ p ∈ l, p.2 < w := by
    intro p hp
    obtain ⟨i, -, hi⟩ := List.mem_flatMap.1 hp
    obtain ⟨b, hb, rfl⟩ := List.mem_map.1 hi
    exact List.mem_range.1 hb
  have hlen : l.length = n * w := by
    rw [hl, List.length_flatMap]
    simp
  have hlist : ((List.finRange n).flatMap fun i => (List.range w).map fun b => (double.rounding ℝ).idHat ((double.rounding ℝ).idLog L
        ((double.rounding ℝ).idDist L (fun i f => .fin ((X (σ i) f : ℤ) : ℝ)) i)) (k1 + b)) = l.map fun p => .fin (y p.1 p.2) := by
    rw [hl, List.map_flatMap]
    congr 1
    funext i
    rw [List.map_map]
    apply List.map_congr_left
    intro b hb
    exact y1 i b (List.mem_range.1 hb)
  have hu50 := u_le_50
  norm_num at hu50
  have hn0 : 0 < n * w := Nat.mul_pos (by omega) (by omega)
  obtain ⟨r, r1, r2⟩ := mean_error (l := l) (y := fun p => y p.1 p.2) (v := fun p => v p.1 p.2) (δ := 4 / 3 * η + 2 * u)
    (s := L.sum (l.map fun p => .fin (y p.1 p.2)))
    (fun p hp => y2 _ _ (hmem p hp))
    (fun p hp => ⟨div_nonneg (by
        have : (2 : ℝ) ≤ ((k1 + p.2 : ℕ) : ℝ) := by exact_mod_cast (by omega : 2 ≤ k1 + p.2)
        linarith) (hsp.le.trans (hs _ _ (by omega) (by have := hmem p hp; omega))), y4 _ _ (hmem p hp), y5 _ _ (hmem p hp)⟩)
    (fun p hp => y3 _ _ (hmem p hp)) (by positivity) (by linarith) (by rw [hlen]; exact hn0) (by rw [hlen]; exact hw)
    (hL.sum_some_order _ (by
      intro a ha
      obtain ⟨p, hp, rfl⟩ := List.mem_map.1 ha
      exact y2 _ _ (hmem p hp)))
  rw [hlen] at r1 r2
  refine ⟨r, ?_, ?_⟩
  · simp only [idLevina]
    rw [hlist, r1]
  · have hmean : (l.map fun p => v p.1 p.2).sum / ((n * w : ℕ) : ℝ) = IntDim.Spec.levina T k1 k2 := by
      unfold IntDim.Spec.levina
      rw [hl, sum_flatMap, Nat.cast_mul, hwr]
      congr 1
      rw [← Equiv.sum_comp σ (fun i => ∑ k ∈ Finset.Icc k1 k2, ((k : ℝ) - 2) / IntDim.Spec.logRatios (T i) k)]
      refine Finset.sum_congr rfl fun i _ => ?_
      rw [IntDim.sum_Icc (fun k => ((k : ℝ) - 2) / IntDim.Spec.logRatios (T (σ i)) k) k1 k2 w (by omega)]
    rw [hmean] at r2
    refine r2.trans (le_of_eq ?_)
    congr 1
    rw [Nat.cast_mul, hwr, hη]
    field_simp
    ring

/-! ### Data far from the origin -/

theorem log_104 {x : ℝ} (h0 : 2 ^ 104 ≤ x) (h1 : x < 2 ^ 105) : double.spacing x = 52 := by
  have hx : 0 < x := lt_of_lt_of_le (by norm_num) h0
  unfold Ieee.spacing
  have : Int.log 2 |x| = 104 := by
    rw [abs_of_pos hx]
    apply le_antisymm
    · have : Int.log 2 x < 105 := (Int.lt_zpow_iff_log_lt (by norm_num) hx).1 (by exact_mod_cast h1)
      omega
    · exact (Int.zpow_le_iff_le_log (by norm_num) hx).1 (by exact_mod_cast h0)
  rw [this]
  decide

/-- Products of numbers near `2 ^ 52` lose their last digits. -/
theorem round_far {a b : ℤ} (ha : 0 ≤ a) (ha' : a ≤ 2 ^ 20) (hb : 0 ≤ b) (hb' : b ≤ 2 ^ 20) :
    double.round (((2 ^ 52 + a : ℤ) : ℝ) * ((2 ^ 52 + b : ℤ) : ℝ)) = .fin (((2 ^ 52 + a + b : ℤ) : ℝ) * 2 ^ (52 : ℤ)) := by
  have hab : a * b ≤ 2 ^ 40 := (mul_le_mul ha' hb' hb (by norm_num)).trans (by norm_num)
  have hab0 : 0 ≤ a * b := mul_nonneg ha hb
  have habr : ((a * b : ℤ) : ℝ) ≤ 2 ^ 40 := by exact_mod_cast hab
  have habr0 : (0 : ℝ) ≤ ((a * b : ℤ) : ℝ) := by exact_mod_cast hab0
  have har : (0 : ℝ) ≤ a := by exact_mod_cast ha
  have har' : (a : ℝ) ≤ 2 ^ 20 := by exact_mod_cast ha'
  have hbr : (0 : ℝ) ≤ b := by exact_mod_cast hb
  have hbr' : (b : ℝ) ≤ 2 ^ 20 := by exact_mod_cast hb'
  have e : ((2 ^ 52 + a : ℤ) : ℝ) * ((2 ^ 52 + b : ℤ) : ℝ) = (2 ^ 52 + a + b) * 2 ^ 52 + ((a * b : ℤ) : ℝ) := by
    push_cast
    ring
  have hsp : double.spacing (((2 ^ 52 + a : ℤ) : ℝ) * ((2 ^ 52 + b : ℤ) : ℝ)) = 52 := by
    rw [e]
    apply log_104
    · norm_num at habr0 ⊢
      linarith
    · norm_num at habr har' hbr' ⊢
      linarith
  have hq : even (((2 ^ 52 + a : ℤ) : ℝ) * ((2 ^ 52 + b : ℤ) : ℝ) / 2 ^ (52 : ℤ)) = 2 ^ 52 + a + b := by
    have e2 : ((2 ^ 52 + a : ℤ) : ℝ) * ((2 ^ 52 + b : ℤ) : ℝ) / 2 ^ (52 : ℤ) = ((2 ^ 52 + a + b : ℤ) : ℝ) + ((a * b : ℤ) : ℝ) / 2 ^ (52 : ℤ) := by
      rw [e]
      push_cast
      norm_num
      ring
    have f0 : (0 : ℝ) ≤ ((a * b : ℤ) : ℝ) / 2 ^ (52 : ℤ) := by positivity
    have f1 : ((a * b : ℤ) : ℝ) / 2 ^ (52 : ℤ) < 1 / 2 := by
      rw [div_lt_iff₀ (by positivity)]
      refine habr.trans_lt ?_
      norm_num
    unfold even
    rw [e2, Int.fract_intCast_add, Int.floor_intCast_add, Int.fract_eq_self.2 ⟨f0, f1.trans (by norm_num)⟩, if_pos f1,
      Int.floor_eq_zero_iff.2 ⟨f0, f1.trans (by norm_num)⟩, add_zero]
  have hn : double.nearest (((2 ^ 52 + a : ℤ) : ℝ) * ((2 ^ 52 + b : ℤ) : ℝ)) = ((2 ^ 52 + a + b : ℤ) : ℝ) * 2 ^ (52 : ℤ) := by
    unfold Ieee.nearest
    rw [hsp, hq]
  have hz : |(2 ^ 52 + a + b : ℤ)| ≤ 2 ^ 53 := by
    rw [abs_le]
    constructor <;> omega
  have hr := Ieee.round_grid (K := ℝ) double (z := 2 ^ 52 + a + b) (t := 52) hz (by decide) (by decide)
  rw [← hn] at hr ⊢
  unfold Ieee.round at hr ⊢
  rw [hn] at hr ⊢
  have hid : double.nearest (((2 ^ 52 + a + b : ℤ) : ℝ) * 2 ^ (52 : ℤ)) = ((2 ^ 52 + a + b : ℤ) : ℝ) * 2 ^ (52 : ℤ) :=
    Ieee.nearest_rep (K := ℝ) double hz (by decide)
  rwa [hid] at hr

theorem tree_ninf (R : Rounding ℝ) : ∀ t : SumTree ℝ, (∀ a ∈ t.leaves, a = .ninf) → t.eval R = .ninf := by
  intro t
  induction t with
  | leaf a => intro h; exact h a (by simp [SumTree.leaves])
  | node l r hl hr =>
    intro h
    have h1 := hl fun a ha => h a (by simp [SumTree.leaves, ha])
    have h2 := hr fun a ha => h a (by simp [SumTree.leaves, ha])
    show R.add (l.eval R) (r.eval R) = _
    rw [h1, h2]
    rfl

/-- Points on a line far from the origin: all computed distances are zero. -/
theorem far_dist {L : IdLib} (hL : L.Near) {n : ℕ} {c : Fin n → ℤ} (hc : ∀ i, 0 ≤ c i ∧ c i ≤ 2 ^ 20) (i j : Fin n) :
    (double.rounding ℝ).idDist L (fun i (_ : Fin 1) => .fin ((2 ^ 52 + c i : ℤ) : ℝ)) i j = .fin 0 := by
  have hmul : ∀ i j, (double.rounding ℝ).mul (.fin ((2 ^ 52 + c i : ℤ) : ℝ)) (.fin ((2 ^ 52 + c j : ℤ) : ℝ))
      = .fin (((2 ^ 52 + c i + c j : ℤ) : ℝ) * 2 ^ (52 : ℤ)) := fun i j => round_far (hc i).1 (hc i).2 (hc j).1 (hc j).2
  have hz : ∀ i j, |(2 ^ 52 + c i + c j : ℤ)| ≤ 2 ^ 53 := by
    intro i j
    have := hc i
    have := hc j
    rw [abs_le]
    constructor <;> omega
  have hfl : ∀ i j, double.round (((2 ^ 52 + c i + c j : ℤ) : ℝ) * 2 ^ (52 : ℤ)) = .fin (((2 ^ 52 + c i + c j : ℤ) : ℝ) * 2 ^ (52 : ℤ)) := fun i j =>
    Ieee.round_grid (K := ℝ) double (z := 2 ^ 52 + c i + c j) (t := 52) (hz i j) (by decide) (by decide)
  have hn : ∀ i, (double.rounding ℝ).idNorm2 L (fun i (_ : Fin 1) => .fin ((2 ^ 52 + c i : ℤ) : ℝ)) i = .fin (((2 ^ 52 + c i + c i : ℤ) : ℝ) * 2 ^ (52 : ℤ)) := by
    intro i
    unfold idNorm2
    simp only [List.ofFn_succ, List.ofFn_zero, hmul]
    apply sums_one (double.rounding ℝ)
    apply hL.sum_some_order
    intro a ha
    rw [List.mem_singleton.1 ha]
    exact hfl i i
  have hd : L.dot (List.ofFn fun _ : Fin 1 => .fin ((2 ^ 52 + c i : ℤ) : ℝ)) (List.ofFn fun _ : Fin 1 => .fin ((2 ^ 52 + c j : ℤ) : ℝ))
      = .fin (((2 ^ 52 + c i + c j : ℤ) : ℝ) * 2 ^ (52 : ℤ)) := by
    apply sums_one (double.rounding ℝ)
    have := hL.dot_some_order (List.ofFn fun _ : Fin 1 => .fin ((2 ^ 52 + c i : ℤ) : ℝ)) (List.ofFn fun _ : Fin 1 => .fin ((2 ^ 52 + c j : ℤ) : ℝ)) (by simp)
    rw [zipWith_ofFn] at this
    simpa only [List.ofFn_succ, List.ofFn_zero, hmul] using this
  unfold idDist
  rw [hn, hn, hd]
  have g := Ieee.round_grid (K := ℝ) double (z := 2 ^ 52 + c i + c j) (t := 53) (hz i j) (by decide) (by decide)
  have g1 : (double.rounding ℝ).add (.fin (((2 ^ 52 + c i + c i : ℤ) : ℝ) * 2 ^ (52 : ℤ))) (.fin (((2 ^ 52 + c j + c j : ℤ) : ℝ) * 2 ^ (52 : ℤ)))
      = .fin (((2 ^ 52 + c i + c j : ℤ) : ℝ) * 2 ^ (53 : ℤ)) := by
    rw [← g]
    show double.round _ = _
    congr 1
    push_cast
    norm_num
    ring
  have g2 : (double.rounding ℝ).mul (.fin 2) (.fin (((2 ^ 52 + c i + c j : ℤ) : ℝ) * 2 ^ (52 : ℤ)))
      = .fin (((2 ^ 52 + c i + c j : ℤ) : ℝ) * 2 ^ (53 : ℤ)) := by
    rw [← g]
    show double.round _ = _
    congr 1
    norm_num
    ring
  rw [g1, g2, sub_fin, sub_self]
  exact (double.rounding ℝ).zero

/-- C284: for data far from the origin the result has nothing to do with the estimate: different integers at `2 ^ 52`, all of which are floats, have a finite positive
estimate, the same as without the offset, but the computed one is minus infinity. -/
theorem C284_violated (L : IdLib) (hL : L.Near) (S : IntDim.LexSort) {n : ℕ} (c : Fin n → ℤ) (hc : ∀ i, 0 ≤ c i ∧ c i ≤ 2 ^ 20) (hi : Function.Injective c)
    (h4 : 4 ≤ n) (hn : n ≤ 2 ^ 53) (T : Fin n → ℕ → ℝ) (hT : ∀ i, IntDim.Spec.Neighbours (fun i (_ : Fin 1) => ((c i : ℤ) : ℝ)) i (T i)) (hne : ∀ i, T i 0 < T i 2) (mem : ℤ) :
    (∀ i, double.round ((2 ^ 52 + c i : ℤ) : ℝ) = .fin ((2 ^ 52 + c i : ℤ) : ℝ)) ∧
    (∃ d, 0 < d ∧ IntDim.intrinsicDimension S (fun i (_ : Fin 1) => ((c i : ℤ) : ℝ)) 3 3 "levina" "vector" none mem = .ok (.fin d) ∧
      IntDim.intrinsicDimension S (fun i (_ : Fin 1) => ((2 ^ 52 + c i : ℤ) : ℝ)) 3 3 "levina" "vector" none mem = .ok (.fin d)) ∧
    (double.rounding ℝ).intrinsicDimension L S (fun i (_ : Fin 1) => ((2 ^ 52 + c i : ℤ) : ℝ)) 3 3 = .ok .ninf := by
  refine ⟨fun i => round_int ?_, ?_, ?_⟩
  · have := hc i
    rw [abs_le]
    constructor <;> omega
  · obtain ⟨d, d1, -, d3⟩ := IntDim.C112_positive_partial S (fun i (_ : Fin 1) => ((c i : ℤ) : ℝ)) one_ne_zero (by
        intro i j hij
        have := congrFun hij 0
        simp only [Int.cast_inj] at this
        exact hi this) T hT 3 3 (by norm_num) le_rfl (by omega) hne "levina" (Or.inl rfl) mem
    refine ⟨d, d3 le_rfl, d1, ?_⟩
    rw [← d1]
    have := IntDim.C110_translation S (fun i (_ : Fin 1) => ((c i : ℤ) : ℝ)) (fun _ => 2 ^ 52) 3 3 "levina" "vector" none mem
    refine Eq.trans ?_ this
    congr 1
    funext i f
    push_cast
    ring
  · unfold intrinsicDimension
    rw [if_neg (by omega), if_neg one_ne_zero]
    set σ := S.run (fun i (_ : Fin 1) => ((2 ^ 52 + c i : ℤ) : ℝ))
    have hdist : ∀ i j, (double.rounding ℝ).idDist L (fun i (_ : Fin 1) => .fin ((2 ^ 52 + c (σ i) : ℤ) : ℝ)) i j = .fin 0 := fun i j =>
      far_dist hL (c := fun i => c (σ i)) (fun i => hc (σ i)) i j
    -- the same logarithm for all neighbours
    have hu := u_pos
    obtain ⟨z, z1, z2, z3⟩ := rel_moderate (x := (1 : ℝ) / 10 ^ 7) (Or.inr (by rw [abs_of_pos (by positivity)]; norm_num)) (by
      rw [abs_of_pos (by positivity)]; norm_num)
    have hu1 : u ≤ 1 / 2 := u_le_50.trans (by norm_num)
    rw [abs_of_pos (a := (1 : ℝ) / 10 ^ 7) (by positivity)] at z3
    have z4 := abs_le.1 (z3.trans (mul_le_mul_of_nonneg_right hu1 (by positivity)))
    have zl : (2 : ℝ) ^ (-200 : ℤ) ≤ z := by
      have : (2 : ℝ) ^ (-200 : ℤ) ≤ 2 ^ (-30 : ℤ) := zpow_le_zpow_right₀ one_le_two (by norm_num)
      refine this.trans ?_
      norm_num at z4 ⊢
      linarith
    have zu : z ≤ (2 : ℝ) ^ (200 : ℤ) := by
      have : (2 : ℝ) ^ (0 : ℤ) ≤ 2 ^ (200 : ℤ) := zpow_le_zpow_right₀ one_le_two (by norm_num)
      refine le_trans ?_ this
      norm_num at z4 ⊢
      linarith
    obtain ⟨y, y1, y2, y3⟩ := hL.log_near z zl zu
    have hlog : |Real.log z| ≤ 200 := by
      have hz : 0 < z := (zpow_pos two_pos _).trans_le zl
      have l2 := Real.log_two_lt_d9
      have l2' := Real.log_two_gt_d9
      rw [abs_le]
      constructor
      · have := Real.log_le_log (zpow_pos two_pos _) zl
        rw [Real.log_zpow] at this
        push_cast at this
        linarith
      · have := Real.log_le_log hz zu
        rw [Real.log_zpow] at this
        push_cast at this
        linarith
    have hyb : |1 / 2 * y| ≤ 200 := by
      have : 256 * u ≤ 1 := by
        have := u_le_50
        norm_num at this
        linarith
      rw [abs_le] at hlog y3 ⊢
      constructor <;> linarith
    have h200 : double.round (200 : ℝ) = .fin 200 := by
      have := round_int (z := 200) (by norm_num)
      simpa using this
    obtain ⟨a, a1, a2⟩ := Ieee.round_abs_le (K := ℝ) double hyb h200
    have a3 : double.round a = .fin a := (double.rounding ℝ).idem _ _ a1
    have hrow : ∀ i q, q + 1 < n → (double.rounding ℝ).idLog L
        ((double.rounding ℝ).idDist L (fun i (_ : Fin 1) => .fin ((2 ^ 52 + c (σ i) : ℤ) : ℝ)) i) q = .fin a := by
      intro i q hq
      unfold idLog
      have e : List.ofFn ((double.rounding ℝ).idDist L (fun i (_ : Fin 1) => .fin ((2 ^ 52 + c (σ i) : ℤ) : ℝ)) i) = List.replicate n (.fin 0) := by
        rw [← List.ofFn_const]
        congr 1
        funext j
        exact hdist i j
      have es : Np.sort (List.replicate n (.fin 0 : XR ℝ)) = List.replicate n (.fin 0) := by
        have := Np.sort_perm (List.replicate n (.fin 0 : XR ℝ))
        exact List.perm_replicate.1 this
      rw [e, es, List.map_replicate, List.getD_eq_getElem _ _ (by simp; omega), List.getElem_replicate]
      have ef : (double.rounding ℝ).idFix (.fin 0) = .fin z := by
        unfold idFix
        rw [if_pos (by simp [XR.fle])]
        exact z1
      rw [ef, y1]
      exact a1
    have hhat : ∀ i, (double.rounding ℝ).idHat ((double.rounding ℝ).idLog L
        ((double.rounding ℝ).idDist L (fun i (_ : Fin 1) => .fin ((2 ^ 52 + c (σ i) : ℤ) : ℝ)) i)) 3 = .ninf := by
      intro i
      unfold idHat
      simp only [idCumsum, Nat.reduceSub, Nat.reduceAdd, hrow i 0 (by omega), hrow i 1 (by omega), hrow i 2 (by omega)]
      have e2 : (double.rounding ℝ).add (.fin a) (.fin a) = .fin (a + a) := by
        have := two_mul_float (K := ℝ) double (Ieee.neg_float (K := ℝ) double a3) (small_emax (by
          rw [abs_mul, abs_neg, abs_of_pos two_pos]
          norm_num
          linarith))
        show double.round (a + a) = _
        have e : -2 * -a = a + a := by ring
        rwa [e] at this
      have e3 : (double.rounding ℝ).mul (.fin a) ((double.rounding ℝ).ofNat 3) = double.round (a + a + a) := by
        rw [ofNat_exact (by norm_num)]
        show double.round _ = _
        congr 1
        push_cast
        ring
      obtain ⟨p, p1, -⟩ := abs_round (x := a + a + a) (by
        rw [abs_le] at a2 ⊢
        norm_num
        constructor <;> linarith)
      have e4 : (double.rounding ℝ).add (.fin (a + a)) (.fin a) = .fin p := p1
      rw [e2, e4, e3, p1, sub_fin, sub_self]
      have e5 : (double.rounding ℝ).rnd (0 : ℝ) = .fin 0 := (double.rounding ℝ).zero
      have e6 : (double.rounding ℝ).rnd (-(((3 : ℕ) : ℝ) - 2)) = .fin (-1) := by
        have := round_int (z := -1) (by norm_num)
        push_cast at this
        have e : -(((3 : ℕ) : ℝ) - 2) = -1 := by norm_num
        rw [e]
        exact this
      rw [e5, e6]
      unfold div
      have : XR.div (.fin (-1 : ℝ)) (.fin 0) = .ninf := by
        norm_num [XR.div, XR.infMul]
      rw [this]
      rfl
    have e1 : ((3 : ℤ)).toNat = 3 := rfl
    have e2 : ((3 : ℤ) + 1 - 3).toNat = 1 := rfl
    rw [e1, e2]
    congr 1
    unfold idLevina
    simp only [List.range_one, List.map_cons, List.map_nil, Nat.add_zero, hhat, mul_one]
    have hfl : (List.finRange n).flatMap (fun _ => [(.ninf : XR ℝ)]) = List.replicate n .ninf := by
      have : ∀ l : List (Fin n), l.flatMap (fun _ => [(.ninf : XR ℝ)]) = List.replicate l.length .ninf := by
        intro l
        induction l with
        | nil => rfl
        | cons a l ih => rw [List.flatMap_cons, ih]; rfl
      rw [this, List.length_finRange]
    rw [hfl]
    have hsum : L.sum (List.replicate n (.ninf : XR ℝ)) = .ninf := by
      rcases hL.sum_some_order (List.replicate n .ninf) (by
        intro b hb
        rw [List.eq_of_mem_replicate hb]
        rfl) with ⟨h, -⟩ | ⟨t, ht, hs⟩
      · have := congrArg List.length h
        simp at this
        omega
      · rw [hs]
        exact tree_ninf _ t fun b hb => List.eq_of_mem_replicate (ht.mem_iff.1 hb)
    rw [hsum]
    rw [ofNat_exact hn]
    unfold div
    simp only [XR.div, Nat.cast_nonneg, if_true]
    rfl

/-! ### The assumptions hold -/

/-- Correctly rounded logarithms, sums from left to right. -/
noncomputable def IdLib.rounded : IdLib where
  log := Lib.rounded.log
  sum l := l.foldl (double.rounding ℝ).add (.fin 0)
  dot x y := (List.zipWith (double.rounding ℝ).mul x y).foldl (double.rounding ℝ).add (.fin 0)

theorem IdLib.rounded_near : IdLib.rounded.Near where
  sum_some_order l hl := sums_foldl _ l hl
  dot_some_order x y _ := sums_foldl _ _ (float_products _ x y)
  log_near := Lib.rounded_accurate.log_near

/-- Four integers. -/
def points4 : Fin 4 → ℤ := ![0, 1, 10, 100]

theorem points4_line : (fun i (_ : Fin 1) => ((points4 i : ℤ) : ℝ)) = IntDim.line4 := by
  funext i f
  rw [Subsingleton.elim f 0]
  fin_cases i
  · exact (by norm_num : ((0 : ℤ) : ℝ) = 0)
  · exact (by norm_num : ((1 : ℤ) : ℝ) = 1)
  · exact (by norm_num : ((10 : ℤ) : ℝ) = 10)
  · exact (by norm_num : ((100 : ℤ) : ℝ) = 100)

/-- The hypotheses of `C284_violated` hold for correctly rounded functions and four points. -/
example := C284_violated IdLib.rounded IdLib.rounded_near IntDim.LexSort.stable points4 (by decide) (by decide) le_rfl (by norm_num) IntDim.line4T
  (fun i => by rw [points4_line]; exact IntDim.line4_neighbours i) IntDim.line4_different

/-- The hypotheses of `C284_partial` hold for correctly rounded functions and the same four points without offset. -/
example : ∃ s, ∃ r, (double.rounding ℝ).intrinsicDimension IdLib.rounded IntDim.LexSort.stable (fun i (_ : Fin 1) => ((points4 i : ℤ) : ℝ)) 3 3 = .ok (.fin r) ∧
    |r - IntDim.Spec.levina IntDim.line4T 3 3| ≤ (1600 * 3 ^ 2 / s + 12) * 2 ^ (-53 : ℤ) * IntDim.Spec.levina IntDim.line4T 3 3 := by
  refine ⟨1 / 100, ?_⟩
  obtain ⟨r, r1, r2⟩ := C284_partial IdLib.rounded IdLib.rounded_near IntDim.LexSort.stable (fun i (_ : Fin 1) => points4 i) 100
    ⟨fun i f => by revert i; decide, by norm_num⟩ (by
      intro i j hij
      exact (by decide : Function.Injective points4) (congrFun hij 0)) IntDim.line4T
    (fun i => by rw [points4_line]; exact IntDim.line4_neighbours i) 3 3 (by norm_num) le_rfl (by norm_num) (by norm_num) (by norm_num) (1 / 100) (by
      intro i k h1 h2
      have : k = 3 := by omega
      subst this
      have hm : ∀ x y : ℝ, 0 < y → y ≤ x → 0 ≤ Real.log (x / y) := fun x y hy hxy => Real.log_nonneg (by rw [le_div_iff₀ hy]; linarith)
      have hq : ∀ x y : ℝ, 0 < y → 11 / 10 * y ≤ x → 1 / 100 ≤ Real.log (x / y) := by
        intro x y hy hxy
        have hx : 0 < x := by linarith
        refine le_trans ?_ (Real.one_sub_inv_le_log_of_pos (div_pos hx hy))
        rw [inv_div]
        have : y / x ≤ 10 / 11 := by rw [div_le_iff₀ hx]; linarith
        linarith
      have hl : IntDim.Spec.logRatios (IntDim.line4T i) 3 = Real.log (IntDim.line4T i 2 / IntDim.line4T i 0) + Real.log (IntDim.line4T i 2 / IntDim.line4T i 1) := by
        unfold IntDim.Spec.logRatios
        rw [Finset.sum_range_succ, Finset.sum_range_one]
      rw [hl]
      fin_cases i
      · exact (hq 100 1 (by norm_num) (by norm_num)).trans (le_add_of_nonneg_right (hm 100 10 (by norm_num) (by norm_num)))
      · exact (hq 99 1 (by norm_num) (by norm_num)).trans (le_add_of_nonneg_right (hm 99 9 (by norm_num) (by norm_num)))
      · exact (hq 90 9 (by norm_num) (by norm_num)).trans (le_add_of_nonneg_right (hm 90 10 (by norm_num) (by norm_num)))
      · exact (hq 100 90 (by norm_num) (by norm_num)).trans (le_add_of_nonneg_right (hm 100 99 (by norm_num) (by norm_num)))) (by norm_num)
  refine ⟨r, r1, r2.trans (le_of_eq ?_)⟩
  norm_num

end HubToolbox.Rounding
