import Verif.Rounding.DisSimProps
import Verif.Rounding.Dsg
import Verif.Rounding.NicdmError

/-!
# Accuracy of DisSim Local in double precision (C291)
-/

set_option autoImplicit false

namespace HubToolbox.Rounding

open HubToolbox.Ieee (double)

/-- What is assumed of the library functions: sums add in some order, and inner products and squared norms of the vectors have the usual error bound. -/
structure VecLib.Near {n p : ℕ} (X : Fin n → Fin p → ℝ) (L : VecLib ℝ) : Prop where
  sum_some_order : ∀ l, (∀ a ∈ l, (double.rounding ℝ).Float a) → (double.rounding ℝ).Sums l (L.sum l)
  products : Products.Near X X ⟨fun i j => L.dot (row X i) (row X j), fun i => L.sq (row X i), fun i => L.sq (row X i)⟩

section
variable {n p k : ℕ} {A : ℝ} {X : Fin n → Fin p → ℝ} {L : VecLib ℝ}

theorem abs_rows_centroid {S : Finset (Fin n)} (hS : S.Nonempty) (hX : ∀ i f, |X i f| ≤ A) (f : Fin p) : |Spec.centroid S X f| ≤ A := by
  have hm : (0 : ℝ) < S.card := by exact_mod_cast Finset.card_pos.2 hS
  unfold Spec.centroid
  rw [abs_div, abs_of_pos hm, div_le_iff₀ hm]
  refine (Finset.abs_sum_le_sum_abs _ _).trans ((Finset.sum_le_sum fun a _ => hX a f).trans ?_)
  rw [Finset.sum_const, nsmul_eq_mul, mul_comm]

/-- The computed local centroid. -/
theorem centroid_near (hL : L.Near X) {rows : List (Fin n)} (hnd : rows.Nodup) (hlen : rows.length = k) (h1 : 1 ≤ k) (hk : k ≤ 2 ^ 40)
    (hA0 : 2 ^ (-400 : ℤ) ≤ A) (hA1 : A ≤ 2 ^ (400 : ℤ)) (hX : ∀ i f, |X i f| ≤ A) (hf : ∀ j f, double.round (X j f) = .fin (X j f)) (f : Fin p) :
    ∃ c, (double.rounding ℝ).centroid L X rows f = .fin c ∧ |c - Spec.centroid rows.toFinset X f| ≤ 2 * k * u * A := by
  obtain ⟨c, h1, h2⟩ := mean_any hL.sum_some_order (rows.map (fun a => X a f)) (by rw [List.length_map]; omega) (by rw [List.length_map]; omega) (B := A)
    (fun x hx => by obtain ⟨a, -, rfl⟩ := List.mem_map.1 hx; exact hX a f) hA0 hA1
    (fun x hx => by obtain ⟨a, -, rfl⟩ := List.mem_map.1 hx; exact hf a f)
  rw [List.map_map, List.length_map] at h1
  rw [List.length_map, hlen] at h2
  refine ⟨c, h1, ?_⟩
  unfold Spec.centroid
  rw [List.sum_toFinset _ hnd, List.toFinset_card_of_nodup hnd, hlen]
  exact h2

/-- One squared difference. -/
theorem square_near (hA0 : 2 ^ (-400 : ℤ) ≤ A) (hA1 : A ≤ 2 ^ (400 : ℤ)) (hk : k ≤ 2 ^ 40) {x c c' : ℝ} (hx : |x| ≤ A) (hc : |c| ≤ A)
    (hcc : |c' - c| ≤ 2 * k * u * A) :
    ∃ s, (double.rounding ℝ).mul ((double.rounding ℝ).sub (.fin x) (.fin c')) ((double.rounding ℝ).sub (.fin x) (.fin c')) = .fin s ∧
      double.round s = .fin s ∧ |s| ≤ 11 * A ^ 2 ∧ |s - (x - c) ^ 2| ≤ (10 * k + 29) * u * A ^ 2 := by
  have hu := u_pos
  have hA : 0 < A := (zpow_pos two_pos _).trans_le hA0
  have hku : (k : ℝ) * u ≤ 1 / 2 ^ 13 := mu_le hk
  have hu13 : u ≤ 1 / 2 ^ 13 := by
    have := mu_le (m := 1) (by norm_num)
    simpa using this
  have hkA : 2 * (k : ℝ) * u * A ≤ A := by nlinarith
  have hc' : |c'| ≤ 2 * A := by
    have := abs_add_le (c' - c) c
    rw [sub_add_cancel] at this
    linarith
  have hd : |x + -c'| ≤ 3 * A := by
    have := abs_add_le x (-c')
    rw [abs_neg] at this
    linarith
  obtain ⟨t, ht, -, hte⟩ := Ieee.round_bound double (x := x + -c') (b := 3 * A) hd
    (double_emin (a := -400) (by norm_num) (by linarith)) (double_emax (a := 400 + (2 : ℕ)) (by norm_num) (mul_two_zpow_le (by norm_num) hA.le hA1))
  have hte' : |t - (x + -c')| ≤ u * (3 * A) := hte
  have huA : u * (3 * A) ≤ A / 100 := by nlinarith
  have htA : |t| ≤ 3 * A + A / 100 := by
    have := abs_add_le (t - (x + -c')) (x + -c')
    rw [sub_add_cancel] at this
    linarith
  have hA2 : 0 < A ^ 2 := by positivity
  have ht2 : |t * t| ≤ 10 * A ^ 2 := by
    rw [abs_mul]
    have := mul_le_mul htA htA (abs_nonneg _) (by linarith)
    nlinarith
  have hmin : (2 : ℝ) ^ (-800 : ℤ) ≤ A ^ 2 := by
    rw [show (-800 : ℤ) = -400 + -400 by norm_num, zpow_add₀ two_ne_zero, pow_two]
    exact mul_le_mul hA0 hA0 (by positivity) hA.le
  have hmax : A ^ 2 ≤ 2 ^ (800 : ℤ) := by
    rw [pow_two, show (800 : ℤ) = 400 + 400 by norm_num, zpow_add₀ two_ne_zero]
    exact mul_le_mul hA1 hA1 hA.le (by positivity)
  obtain ⟨s, hs, hsf, hse⟩ := Ieee.round_bound double (x := t * t) (b := 10 * A ^ 2) ht2
    (double_emin (a := -800) (by norm_num) (by linarith)) (double_emax (a := 800 + (4 : ℕ)) (by norm_num) (mul_two_zpow_le (by norm_num) hA2.le hmax))
  have hse' : |s - t * t| ≤ u * (10 * A ^ 2) := hse
  have huA2 : u * (10 * A ^ 2) ≤ A ^ 2 := by nlinarith
  refine ⟨s, ?_, hsf, ?_, ?_⟩
  · have h1 : (double.rounding ℝ).sub (.fin x) (.fin c') = .fin t := ht
    rw [h1]
    exact hs
  · have := abs_add_le (s - t * t) (t * t)
    rw [sub_add_cancel] at this
    linarith
  · have e1 : |t * t - (x - c') ^ 2| ≤ 19 * u * A ^ 2 := by
      have e : t * t - (x - c') ^ 2 = (t - (x + -c')) * (t + (x + -c')) := by ring
      rw [e, abs_mul]
      have h2 := abs_add_le t (x + -c')
      have := mul_le_mul hte' (h2.trans (by linarith : _ ≤ 6 * A + A / 100)) (abs_nonneg _) (by positivity)
      refine this.trans ?_
      have : u * (3 * A) * (6 * A + A / 100) = (18 + 3 / 100) * (u * A ^ 2) := by ring
      rw [this]
      nlinarith [mul_pos hu hA2]
    have e2 : |(x - c') ^ 2 - (x - c) ^ 2| ≤ 10 * k * u * A ^ 2 := by
      have e : (x - c') ^ 2 - (x - c) ^ 2 = (c' - c) * (c + c' - 2 * x) := by ring
      rw [e, abs_mul]
      have h1 := abs_sub (c + c') (2 * x)
      have h2 := abs_add_le c c'
      rw [abs_mul, abs_two] at h1
      have := mul_le_mul hcc (show |c + c' - 2 * x| ≤ 5 * A by linarith) (abs_nonneg _) (by positivity)
      refine this.trans (le_of_eq ?_)
      ring
    have b1 := abs_le.1 e1
    have b2 := abs_le.1 e2
    have b3 := abs_le.1 hse'
    rw [abs_le]
    have hsplit : (10 * k + 29) * u * A ^ 2 = u * (10 * A ^ 2) + 19 * u * A ^ 2 + 10 * k * u * A ^ 2 := by ring
    rw [hsplit]
    constructor <;> linarith

/-- The computed squared distance to the local centroid. -/
theorem off_near (hL : L.Near X) {rows : List (Fin n)} (hnd : rows.Nodup) (hlen : rows.length = k) (h1 : 1 ≤ k) (hk : k ≤ 2 ^ 40)
    (hp0 : 0 < p) (hp : p ≤ 2 ^ 40) (hA0 : 2 ^ (-400 : ℤ) ≤ A) (hA1 : A ≤ 2 ^ (400 : ℤ)) (hX : ∀ i f, |X i f| ≤ A)
    (hf : ∀ j f, double.round (X j f) = .fin (X j f)) (i : Fin n) :
    ∃ v, (double.rounding ℝ).off L X rows i = .fin v ∧
      |v - Spec.sq (X i) (Spec.centroid rows.toFinset X)| ≤ (22 * p + 10 * k + 29) * u * (p * A ^ 2) := by
  have hu := u_pos
  have hA : 0 < A := (zpow_pos two_pos _).trans_le hA0
  have hne : rows.toFinset.Nonempty := by
    rw [List.toFinset_nonempty_iff]
    intro h
    rw [h] at hlen
    simp at hlen
    omega
  choose c hc1 hc2 using centroid_near hL hnd hlen h1 hk hA0 hA1 hX hf
  choose s hs hsf hsA hse using fun f => square_near hA0 hA1 hk (hX i f) (abs_rows_centroid hne hX f) (hc2 f)
  have hterms : List.ofFn (fun f => (double.rounding ℝ).mul ((double.rounding ℝ).sub (.fin (X i f)) ((double.rounding ℝ).centroid L X rows f))
      ((double.rounding ℝ).sub (.fin (X i f)) ((double.rounding ℝ).centroid L X rows f))) = (List.ofFn s).map .fin := by
    rw [List.map_ofFn]
    congr 1
    funext f
    rw [hc1, hs]
    rfl
  have hfl : ∀ x ∈ List.ofFn s, double.round x = .fin x := fun x hx => by
    obtain ⟨f, rfl⟩ := (List.mem_ofFn' _ _).1 hx
    exact hsf f
  have hS := hL.sum_some_order ((List.ofFn s).map .fin) (fun a ha => by
    obtain ⟨x, hx, rfl⟩ := List.mem_map.1 ha
    exact hfl x hx)
  have habs : ((List.ofFn s).map (|·|)).sum ≤ 11 * (p * A ^ 2) := by
    rw [List.map_ofFn, List.sum_ofFn]
    calc ∑ f, |s f| ≤ ∑ _f : Fin p, 11 * A ^ 2 := Finset.sum_le_sum fun f _ => hsA f
      _ = 11 * (p * A ^ 2) := by rw [Finset.sum_const, Finset.card_univ, Fintype.card_fin, nsmul_eq_mul]; ring
  have hpow := pow_sub_one_le hp0 hp
  have hpu : (p : ℝ) * u ≤ 1 / 2 ^ 13 := mu_le hp
  have hP0 : 0 ≤ (p : ℝ) * A ^ 2 := by positivity
  have habs0 : 0 ≤ ((List.ofFn s).map (|·|)).sum := List.sum_nonneg fun x hx => by
    obtain ⟨y, -, rfl⟩ := List.mem_map.1 hx
    exact abs_nonneg y
  have hmax := sqNorm_bound hp hA hA1
  obtain ⟨v, hv, -, hve⟩ := Ieee.sum_error double hS hfl (by
    rw [List.length_ofFn]
    change (1 + u) ^ (p - 1) * _ ≤ _
    have h2 : (1 + u) ^ (p - 1) ≤ 2 := by nlinarith
    have h3 := mul_le_mul h2 habs habs0 (by norm_num)
    refine h3.trans (double_emax (a := 900 + (3 : ℕ)) (by norm_num) ?_)
    have := mul_two_zpow_le (c := 8) (k := 3) (by norm_num) (by linarith) hmax
    linarith)
  have hve' : |v - (List.ofFn s).sum| ≤ 22 * p * u * (p * A ^ 2) := by
    rw [List.length_ofFn] at hve
    change _ ≤ ((1 + u) ^ (p - 1) - 1) * _ at hve
    have h2 : (1 + u) ^ (p - 1) - 1 ≤ 2 * p * u := by linarith
    refine hve.trans ((mul_le_mul h2 habs habs0 (by positivity)).trans (le_of_eq ?_))
    ring
  rw [List.sum_ofFn] at hve'
  refine ⟨v, ?_, ?_⟩
  · unfold off toCentroid
    rw [hterms, hv]
  · have hsum : |∑ f, s f - Spec.sq (X i) (Spec.centroid rows.toFinset X)| ≤ (10 * k + 29) * u * (p * A ^ 2) := by
      unfold Spec.sq
      rw [← Finset.sum_sub_distrib]
      refine (Finset.abs_sum_le_sum_abs _ _).trans ((Finset.sum_le_sum fun f _ => hse f).trans (le_of_eq ?_))
      rw [Finset.sum_const, Finset.card_univ, Fintype.card_fin, nsmul_eq_mul]
      ring
    have b1 := abs_le.1 hve'
    have b2 := abs_le.1 hsum
    have hsplit : (22 * p + 10 * k + 29) * u * (p * A ^ 2) = 22 * p * u * (p * A ^ 2) + (10 * k + 29) * u * (p * A ^ 2) := by ring
    rw [hsplit, abs_le]
    constructor <;> linarith

/-- The computed squared distance of two different vectors. -/
theorem hoods_near (hL : L.Near X) (hp : p ≤ 2 ^ 40) (hA0 : 2 ^ (-400 : ℤ) ≤ A) (hA1 : A ≤ 2 ^ (400 : ℤ)) (hX : ∀ i f, |X i f| ≤ A)
    (i j : Fin n) (hij : i ≠ j) :
    ∃ z, (double.rounding ℝ).hoods L X i j = .fin z ∧ |z - Spec.sq (X i) (X j)| ≤ 8 * (p + 2) * u * (p * A ^ 2) := by
  have hA : 0 < A := (zpow_pos two_pos _).trans_le hA0
  have hP : (0 : ℝ) ≤ p * A ^ 2 := by positivity
  have hn : ∀ i, ∑ f, X i f ^ 2 ≤ p * A ^ 2 := fun i => by
    calc ∑ f, X i f ^ 2 ≤ ∑ _f : Fin p, A ^ 2 := Finset.sum_le_sum fun f _ => by
            rw [← sq_abs]; exact pow_le_pow_left₀ (abs_nonneg _) (hX i f) 2
      _ = p * A ^ 2 := by rw [Finset.sum_const, Finset.card_univ, Fintype.card_fin, nsmul_eq_mul]
  have hB : p * A ^ 2 ≤ (2 : ℝ) ^ 900 := by
    have h4 := sqNorm_bound hp hA hA1
    rw [show (900 : ℤ) = (900 : ℕ) from rfl, zpow_natCast] at h4
    exact le_trans (by linarith) h4
  obtain ⟨z, hz, he⟩ := sqDistances_near (hp.trans (by norm_num)) hL.products (B := p * A ^ 2) hB hn hn i j
  refine ⟨z, ?_, he.trans (le_of_eq ?_)⟩
  · rw [← hz]
    unfold hoods sqEuclid Np.fillDiagonal
    rw [if_neg (Fin.val_ne_of_ne hij), if_neg (Fin.val_ne_of_ne hij)]
    rfl
  · unfold tol
    rw [u_eq, show (2 : ℝ) ^ (-50 : ℤ) = 8 * 2 ^ (-53 : ℤ) by norm_num]
    ring

/-- Rounded differences of the three distances. -/
theorem dsl_core (hp0 : 0 < p) (hp : p ≤ 2 ^ 40) (hk : k ≤ 2 ^ 40) (hA0 : 2 ^ (-400 : ℤ) ≤ A) (hA1 : A ≤ 2 ^ (400 : ℤ)) {x y c d : Fin p → ℝ}
    (hx : ∀ f, |x f| ≤ A) (hy : ∀ f, |y f| ≤ A) (hc : ∀ f, |c f| ≤ A) (hd : ∀ f, |d f| ≤ A) {z1 z2 z3 : ℝ}
    (h1 : |z1 - Spec.sq x y| ≤ 8 * (p + 2) * u * (p * A ^ 2)) (h2 : |z2 - Spec.sq x c| ≤ (22 * p + 10 * k + 29) * u * (p * A ^ 2))
    (h3 : |z3 - Spec.sq y d| ≤ (22 * p + 10 * k + 29) * u * (p * A ^ 2)) :
    ∃ z, (double.rounding ℝ).sub ((double.rounding ℝ).sub (.fin z1) (.fin z2)) (.fin z3) = .fin z ∧
      |z - Spec.disSim x y c d| ≤ (52 * p + 20 * k + 100) * 2 ^ (-53 : ℤ) * (p * A ^ 2) := by
  have hu := u_pos
  have hA : 0 < A := (zpow_pos two_pos _).trans_le hA0
  have hp1 : (1 : ℝ) ≤ p := by exact_mod_cast hp0
  have hpu : (p : ℝ) * u ≤ 1 / 2 ^ 13 := mu_le hp
  have hku : (k : ℝ) * u ≤ 1 / 2 ^ 13 := mu_le hk
  have hu13 : u ≤ 1 / 2 ^ 13 := by nlinarith
  have hmin : (2 : ℝ) ^ (-800 : ℤ) ≤ p * A ^ 2 := by
    rw [show (-800 : ℤ) = -400 + -400 by norm_num, zpow_add₀ two_ne_zero, pow_two]
    have : (2 : ℝ) ^ (-400 : ℤ) * 2 ^ (-400 : ℤ) ≤ A * A := mul_le_mul hA0 hA0 (by positivity) hA.le
    nlinarith [mul_pos hA hA]
  have hmax : 4 * (p * A ^ 2) ≤ (2 : ℝ) ^ (900 : ℤ) := sqNorm_bound hp hA hA1
  have hsq : ∀ a b : Fin p → ℝ, (∀ f, |a f| ≤ A) → (∀ f, |b f| ≤ A) → 0 ≤ Spec.sq a b ∧ Spec.sq a b ≤ 4 * (p * A ^ 2) := by
    intro a b ha hb
    refine ⟨Finset.sum_nonneg fun f _ => sq_nonneg _, ?_⟩
    refine sqNorm_le (v := fun f => a f - b f) fun f => (abs_sub _ _).trans (by linarith [ha f, hb f])
  obtain ⟨P, hP⟩ : ∃ P : ℝ, P = p * A ^ 2 := ⟨_, rfl⟩
  have s1 := hsq x y hx hy
  have s2 := hsq x c hx hc
  have s3 := hsq y d hy hd
  rw [← hP] at h1 h2 h3 hmin hmax s1 s2 s3 ⊢
  have hP0 : 0 < P := (zpow_pos two_pos _).trans_le hmin
  have t1 : 8 * (p + 2) * u * P ≤ P / 2 := by
    have : 8 * (p + 2) * u ≤ 1 / 2 := by linarith
    nlinarith
  have t2 : (22 * p + 10 * k + 29) * u * P ≤ P / 2 := by
    have : (22 * p + 10 * k + 29) * u ≤ 1 / 2 := by linarith
    nlinarith
  have b1 := abs_le.1 h1
  have b2 := abs_le.1 h2
  have b3 := abs_le.1 h3
  obtain ⟨s, hs, -, hse⟩ := Ieee.round_bound double (x := z1 + -z2) (b := 10 * P) (abs_le.2 ⟨by linarith, by linarith⟩)
    (double_emin (a := -800) (by norm_num) (by linarith)) (double_emax (a := 900 + (2 : ℕ)) (by norm_num) (by
      have := mul_two_zpow_le (c := 4) (k := 2) (by norm_num) (by linarith) hmax
      linarith))
  have hse' : |s - (z1 + -z2)| ≤ u * (10 * P) := hse
  have bs := abs_le.1 hse'
  have huP : u * (10 * P) ≤ P := by nlinarith
  obtain ⟨z, hz, -, hze⟩ := Ieee.round_bound double (x := s + -z3) (b := 16 * P) (abs_le.2 ⟨by linarith, by linarith⟩)
    (double_emin (a := -800) (by norm_num) (by linarith)) (double_emax (a := 900 + (2 : ℕ)) (by norm_num) (by
      have := mul_two_zpow_le (c := 4) (k := 2) (by norm_num) (by linarith) hmax
      linarith))
  have hze' : |z - (s + -z3)| ≤ u * (16 * P) := hze
  have bz := abs_le.1 hze'
  refine ⟨z, ?_, ?_⟩
  · have h1 : (double.rounding ℝ).sub (.fin z1) (.fin z2) = .fin s := hs
    rw [h1]
    exact hz
  · rw [← u_eq]
    unfold Spec.disSim
    have hsplit : (52 * p + 20 * k + 100) * u * P =
        8 * (p + 2) * u * P + 2 * ((22 * p + 10 * k + 29) * u * P) + u * (10 * P) + u * (16 * P) := by ring
    rw [hsplit, abs_le]
    constructor <;> linarith

/-- **C291**: whatever ties and rounding do to the search for neighbours, in double precision `dis_sim_local` is the formula of DisSim Local up to
`(52 p + 20 k + 100) · 2⁻⁵³ · p A²` for `k` neighbours of each vector, none of which is further away than any other vector by more than
`16 (p + 2) · 2⁻⁵³ · p A²` in terms of squared distances. -/
theorem C291_any (hL : L.Near X) (o : ArgPart (XR ℝ)) (h1 : 1 ≤ k) (hkn : k < n) (hk : k ≤ 2 ^ 40) (hp0 : 0 < p) (hp : p ≤ 2 ^ 40)
    (hA0 : 2 ^ (-400 : ℤ) ≤ A) (hA1 : A ≤ 2 ^ (400 : ℤ)) (hX : ∀ i f, |X i f| ≤ A) (hf : ∀ j f, double.round (X j f) = .fin (X j f)) :
    ∃ (N : Fin n → Finset (Fin n)) (M : Fin n → Fin n → XR ℝ), (double.rounding ℝ).disSimLocal o L X k = .ok M ∧
      (∀ i, i ∉ N i ∧ (N i).card = k) ∧
      (∀ i, ∀ a ∈ N i, ∀ b, b ≠ i → b ∉ N i → Spec.sq (X i) (X a) ≤ Spec.sq (X i) (X b) + 16 * (p + 2) * 2 ^ (-53 : ℤ) * (p * A ^ 2)) ∧
      (∀ i, M i i = .ninf) ∧ ∀ i j, i ≠ j → ∃ z, M i j = .fin z ∧
        |z - Spec.disSim (X i) (X j) (Spec.centroid (N i) X) (Spec.centroid (N j) X)| ≤ (52 * p + 20 * k + 100) * 2 ^ (-53 : ℤ) * (p * A ^ 2) := by
  obtain ⟨sel, hsel, h⟩ := local_ok (double.rounding ℝ) o L X k hkn hp0
  choose z hz hze using fun i j (hij : i ≠ j) => hoods_near hL hp hA0 hA1 hX i j hij
  have hN : ∀ i, Spec.IsHood (Spec.nearer "distance") (Finset.univ.erase i) (fun j => if hij : i = j then 0 else z i j hij) k (sel i).toFinset := by
    intro i
    refine SNN.Sel.isHood (Or.inl rfl) (hsel i) _ _ ?_ ?_ ?_
    · intro j hj
      have hij : i ≠ j := (Finset.ne_of_mem_erase hj).symm
      rw [hz i j hij, dif_neg hij]
    · intro j hj
      have : j = i := by simpa using hj
      subst this
      simp [hoods, Np.fillDiagonal, SNN.exclude]
    · rw [Finset.card_erase_of_mem (Finset.mem_univ i), Finset.card_univ, Fintype.card_fin]
      omega
  refine ⟨fun i => (sel i).toFinset, _, h, fun i => ⟨fun hi => ?_, (hN i).card⟩, fun i a ha b hb hbN => ?_, fun i => by simp [Np.fillDiagonal],
    fun i j hij => ?_⟩
  · exact Finset.ne_of_mem_erase ((hN i).sub hi) rfl
  · have hia : i ≠ a := (Finset.ne_of_mem_erase ((hN i).sub ha)).symm
    have hab := (hN i).best a ha b (Finset.mem_erase.2 ⟨hb, Finset.mem_univ b⟩) hbN
    unfold Spec.nearer at hab
    rw [if_neg (by decide)] at hab
    beta_reduce at hab
    rw [dif_neg hia, dif_neg hb.symm] at hab
    have e1 := abs_le.1 (hze i a hia)
    have e2 := abs_le.1 (hze i b hb.symm)
    rw [← u_eq]
    have : 16 * ((p : ℝ) + 2) * u * (p * A ^ 2) = 8 * (p + 2) * u * (p * A ^ 2) + 8 * (p + 2) * u * (p * A ^ 2) := by ring
    rw [this]
    linarith
  · have hne : ∀ i, (sel i).toFinset.Nonempty := fun i => Finset.card_pos.1 (by rw [(hN i).card]; omega)
    obtain ⟨v, hv, hve⟩ := off_near hL (hsel i).nodup (hsel i).length h1 hk hp0 hp hA0 hA1 hX hf i
    obtain ⟨w, hw, hwe⟩ := off_near hL (hsel j).nodup (hsel j).length h1 hk hp0 hp hA0 hA1 hX hf j
    obtain ⟨r, hr, hre⟩ := dsl_core hp0 hp hk hA0 hA1 (hX i) (hX j) (abs_rows_centroid (hne i) hX) (abs_rows_centroid (hne j) hX)
      (hze i j hij) hve hwe
    refine ⟨r, ?_, hre⟩
    unfold Np.fillDiagonal
    rw [if_neg (Fin.val_ne_of_ne hij)]
    beta_reduce
    rw [hz i j hij, hv, hw]
    exact hr

/-- **C291**: if the `k` nearest neighbours of each vector are nearer than the other vectors by more than the rounding error of squared distances, the result
in double precision differs from the exact result of `dis_sim_local` by at most `(52 p + 20 k + 100) · 2⁻⁵³ · p A²`. -/
theorem C291 (hL : L.Near X) (o : ArgPart (XR ℝ)) (w : SNN.World ℝ) (h1 : 1 ≤ k) (hkn : k < n) (hk : k ≤ 2 ^ 40) (hp0 : 0 < p) (hp : p ≤ 2 ^ 40)
    (hA0 : 2 ^ (-400 : ℤ) ≤ A) (hA1 : A ≤ 2 ^ (400 : ℤ)) (hX : ∀ i f, |X i f| ≤ A) (hf : ∀ j f, double.round (X j f) = .fin (X j f))
    (N : Fin n → Finset (Fin n)) (hN : ∀ i, i ∉ N i ∧ (N i).card = k)
    (hgap : ∀ i, ∀ a ∈ N i, ∀ b, b ≠ i → b ∉ N i → Spec.sq (X i) (X a) + 16 * (p + 2) * 2 ^ (-53 : ℤ) * (p * A ^ 2) < Spec.sq (X i) (X b)) (nJobs : ℤ) :
    ∃ M M' : Fin n → Fin n → XR ℝ, Cent.disSimLocal w X .float64 none k nJobs = .ok ⟨n, M⟩ ∧
      (double.rounding ℝ).disSimLocal o L X k = .ok M' ∧ (∀ i, M i i = .ninf ∧ M' i i = .ninf) ∧
      ∀ i j, i ≠ j → ∃ v z, M i j = .fin v ∧ M' i j = .fin z ∧ v = Spec.disSim (X i) (X j) (Spec.centroid (N i) X) (Spec.centroid (N j) X) ∧
        |z - v| ≤ (52 * p + 20 * k + 100) * 2 ^ (-53 : ℤ) * (p * A ^ 2) := by
  have hA : 0 < A := (zpow_pos two_pos _).trans_le hA0
  obtain ⟨N', M', h', hN', hb', hd', he'⟩ := C291_any hL o h1 hkn hk hp0 hp hA0 hA1 hX hf
  obtain ⟨N₀, hN₀, h⟩ := Cent.C41_formula w X k h1 hkn hp0
  have key : ∀ (i : Fin n) (S : Finset (Fin n)), i ∉ S → S.card = k →
      (∀ a ∈ S, ∀ b, b ≠ i → b ∉ S → Spec.sq (X i) (X a) ≤ Spec.sq (X i) (X b) + 16 * (p + 2) * 2 ^ (-53 : ℤ) * (p * A ^ 2)) → S = N i := by
    intro i S hiS hcard hS
    by_contra hne
    have hsub : ¬ S ⊆ N i := fun hs => hne (Finset.eq_of_subset_of_card_le hs (by rw [hcard, (hN i).2]))
    have hsub' : ¬ N i ⊆ S := fun hs => hne (Finset.eq_of_subset_of_card_le hs (by rw [hcard, (hN i).2])).symm
    obtain ⟨a, haS, haN⟩ := Finset.not_subset.1 hsub
    obtain ⟨b, hbN, hbS⟩ := Finset.not_subset.1 hsub'
    have hai : a ≠ i := fun e => hiS (e ▸ haS)
    have hbi : b ≠ i := fun e => (hN i).1 (e ▸ hbN)
    have g1 := hS a haS b hbi hbS
    have g2 := hgap i b hbN a hai haN
    linarith
  have e1 : N' = N := funext fun i => key i (N' i) (hN' i).1 (hN' i).2 (hb' i)
  have hpos : 0 ≤ 16 * ((p : ℝ) + 2) * 2 ^ (-53 : ℤ) * (p * A ^ 2) := by positivity
  have e2 : N₀ = N := funext fun i => key i (N₀ i) (fun hi => Finset.ne_of_mem_erase ((hN₀ i).sub hi) rfl) (hN₀ i).card fun a ha b hb hbS => by
    have := (hN₀ i).best a ha b (Finset.mem_erase.2 ⟨hb, Finset.mem_univ b⟩) hbS
    unfold Spec.nearer at this
    rw [if_neg (by decide)] at this
    linarith
  subst e1
  rw [e2] at h
  refine ⟨_, M', h nJobs, h', fun i => ⟨if_pos rfl, hd' i⟩, fun i j hij => ?_⟩
  obtain ⟨z, hz, hze⟩ := he' i j hij
  exact ⟨_, z, if_neg hij, hz, rfl, hze⟩

end

/-- Functions which are exact on rows of integers. -/
noncomputable def intVecLib : VecLib ℝ where
  sum l := l.foldl (double.rounding ℝ).add (.fin 0)
  dot x y := .fin ((List.zipWith (fun a b => match a, b with | .fin r, .fin s => r * s | _, _ => 0) x y).sum)
  sq x := .fin ((x.map (fun a => match a with | .fin r => r * r | _ => 0)).sum)

theorem intVecLib_near {n p : ℕ} (Z : Fin n → Fin p → ℤ) (h : ∀ i j, |∑ f, Z i f * Z j f| ≤ 2 ^ 53) : intVecLib.Near (fun i f => (Z i f : ℝ)) where
  sum_some_order l hl := sums_foldl (double.rounding ℝ) l hl
  products := by
    have e : (⟨fun i j => intVecLib.dot (row (fun i f => (Z i f : ℝ)) i) (row (fun i f => (Z i f : ℝ)) j), fun i => intVecLib.sq (row (fun i f => (Z i f : ℝ)) i),
        fun i => intVecLib.sq (row (fun i f => (Z i f : ℝ)) i)⟩ : Products ℝ n n) = intProducts2 Z Z := by
      have h1 : ∀ i j, intVecLib.dot (row (fun i f => (Z i f : ℝ)) i) (row (fun i f => (Z i f : ℝ)) j) = .fin ((∑ f, Z i f * Z j f : ℤ) : ℝ) := by
        intro i j
        simp only [intVecLib, row]
        rw [show List.zipWith _ (List.ofFn fun f => XR.fin (Z i f : ℝ)) (List.ofFn fun f => XR.fin (Z j f : ℝ)) =
          List.ofFn (fun f => (Z i f : ℝ) * (Z j f : ℝ)) from List.ext_getElem (by simp) (by simp), List.sum_ofFn]
        push_cast
        rfl
      have h2 : ∀ i, intVecLib.sq (row (fun i f => (Z i f : ℝ)) i) = .fin ((∑ f, Z i f * Z i f : ℤ) : ℝ) := by
        intro i
        simp only [intVecLib, row]
        rw [List.map_ofFn, List.sum_ofFn]
        push_cast
        rfl
      unfold intProducts2
      simp only [h1, h2]
    rw [e]
    exact intProducts2_near Z Z h (fun i => h i i) (fun i => h i i)

/-- Four vectors in the plane, in two pairs. -/
def twoPairsZ : Fin 4 → Fin 2 → ℤ := ![![0, 1], ![1, 1], ![7, -2], ![7, -4]]

/-- The hypotheses of C291 hold for two pairs of vectors and one neighbour. -/
example (o : ArgPart (XR ℝ)) (w : SNN.World ℝ) := C291 (intVecLib_near twoPairsZ (by decide)) o w (k := 1) (by norm_num) (by norm_num) (by norm_num) (by norm_num)
  (by norm_num) (A := 8) ((two_zpow_le (show (-400 : ℤ) ≤ 3 by norm_num)).trans_eq (by norm_num))
  (le_trans (by norm_num) (two_zpow_le (show (3 : ℤ) ≤ 400 by norm_num)))
  (fun i f => by have : |twoPairsZ i f| ≤ 8 := by revert i f; decide
                 exact_mod_cast this)
  (fun i f => Ieee.round_intCast double (show |twoPairsZ i f| ≤ 2 ^ 53 by revert i f; decide) (by decide))
  (![{1}, {0}, {3}, {2}]) (by decide) (by
    intro i a ha b hb hbN
    have key : ∀ i : Fin 4, ∀ a ∈ (![{1}, {0}, {3}, {2}] : Fin 4 → Finset (Fin 4)) i, ∀ b, b ≠ i → b ∉ (![{1}, {0}, {3}, {2}] : Fin 4 → Finset (Fin 4)) i →
        ∑ f, (twoPairsZ i f - twoPairsZ a f) ^ 2 + 1 ≤ ∑ f, (twoPairsZ i f - twoPairsZ b f) ^ 2 := by decide
    have h : ((∑ f, (twoPairsZ i f - twoPairsZ a f) ^ 2 + 1 : ℤ) : ℝ) ≤ ((∑ f, (twoPairsZ i f - twoPairsZ b f) ^ 2 : ℤ) : ℝ) := Int.cast_le.2 (key i a ha b hb hbN)
    push_cast at h
    unfold Spec.sq
    refine lt_of_lt_of_le ?_ h
    norm_num)

end HubToolbox.Rounding
