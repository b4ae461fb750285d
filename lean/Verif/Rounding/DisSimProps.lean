import Verif.Rounding.DisSimModel
import Verif.Rounding.GaussProps
import Verif.Rounding.GkProps
import Mathlib.Data.List.Permutation

/-!
# C189 and C190

DisSim Local computed in floating point.
-/

set_option autoImplicit false
set_option linter.unusedSectionVars false

namespace HubToolbox.Rounding

section
variable {K : Type} [Field K] [LinearOrder K]

/-- The matrix in which neighbours are searched. -/
def hoods (R : Rounding K) (L : VecLib K) {n m : ℕ} (X : Fin n → Fin m → K) : Fin n → Fin n → XR K :=
  Np.fillDiagonal (R.sqEuclid L X) .pinf

/-- The computed squared distance to the mean of the given rows. -/
def off (R : Rounding K) (L : VecLib K) {n m : ℕ} (X : Fin n → Fin m → K) (rows : List (Fin n)) (i : Fin n) : XR K :=
  R.toCentroid L X (R.centroid L X rows) i

theorem local_eq (R : Rounding K) (o : ArgPart (XR K)) (L : VecLib K) {n m : ℕ} (X : Fin n → Fin m → K) (k : ℤ)
    (hn : 0 < n) (hm : 0 < m) :
    R.disSimLocal o L X k = (Np.tabulateM (fun i => SNN.hood o "distance" k k (R.hoods L X i))).map (fun sel =>
      Np.fillDiagonal (fun i j => R.sub (R.sub (R.hoods L X i j) (R.off L X (sel i) i)) (R.off L X (sel j) j)) .ninf) := by
  unfold disSimLocal
  have := Cent.tabulateM_congr_map (fun i => SNN.hood o "distance" k k (R.hoods L X i)) (fun i l => R.off L X l i)
  unfold off hoods at this
  simp only [bind, pure, Except.pure] at this ⊢
  rw [if_neg (by omega), this]
  simp only [Except.bind]
  unfold hoods off
  cases Np.tabulateM (fun i => SNN.hood o "distance" k k (Np.fillDiagonal (R.sqEuclid L X) .pinf i)) with
  | error e => rfl
  | ok a => rfl

theorem local_ok (R : Rounding K) (o : ArgPart (XR K)) (L : VecLib K) {n m : ℕ} (X : Fin n → Fin m → K) (k : ℕ)
    (hk : k < n) (hm : 0 < m) :
    ∃ sel : Fin n → List (Fin n), (∀ i, SNN.Sel "distance" (R.hoods L X i) k (sel i)) ∧
      R.disSimLocal o L X k = .ok (Np.fillDiagonal (fun i j =>
        R.sub (R.sub (R.hoods L X i j) (R.off L X (sel i) i)) (R.off L X (sel j) j)) .ninf) := by
  choose sel hsel hS using fun i => SNN.hood_distance o k hk (R.hoods L X i)
  refine ⟨sel, hS, ?_⟩
  rw [local_eq R o L X k (by omega) hm]
  simp only [hsel]
  rw [Np.tabulateM_ok]
  rfl
end

section
variable {K : Type} [Field K] [LinearOrder K] [FloorRing K] [IsStrictOrderedRing K]

theorem eval_float (R : Rounding K) (t : SumTree K) (h : ∀ a ∈ t.leaves, R.Float a) : R.Float (t.eval R) := by
  induction t with
  | leaf a => exact h a (by simp [SumTree.leaves])
  | node l r _ _ => exact float_up _

theorem sums_float {R : Rounding K} {l : List (XR K)} {s : XR K} (h : R.Sums l s) (hl : ∀ a ∈ l, R.Float a) : R.Float s := by
  rcases h with ⟨-, rfl⟩ | ⟨t, ht, rfl⟩
  · exact R.zero
  · exact eval_float R t (fun a ha => hl a (ht.mem_iff.1 ha))

/-- Powers of two are floats. -/
theorem round_two_pow (F : Ieee) (e : ℕ) (he : (e : ℤ) ≤ F.emax) : F.round ((2 : K) ^ e) = .fin (2 ^ e) := by
  have h := Ieee.nearest_rep (K := K) F (m := 1) (t := e) (by
    have : (1 : ℤ) ≤ 2 ^ F.p := one_le_pow₀ (by norm_num)
    simpa using this) (by have := F.p_pos; have := F.emin_le; omega)
  simp only [Int.cast_one, one_mul, zpow_natCast] at h
  rw [Ieee.round_of_lt] <;> rw [h]
  rw [abs_of_pos (by positivity), ← zpow_natCast]
  exact zpow_lt_zpow_right₀ one_lt_two (by omega)

theorem off_le (F : Ieee) (L : VecLib K) (hL : L.Ok F) {n m : ℕ} (X : Fin n → Fin m → K) (e : ℕ)
    (hX : ∀ i f, |X i f| ≤ 2 ^ e) (hf : ∀ i f, F.round (X i f) = .fin (X i f)) (hm : m ≤ 2 ^ F.p)
    (he : (F.p : ℤ) + (2 * e + 2) ≤ F.emax) (rows : List (Fin n)) (h1 : 0 < rows.length) (h2 : rows.length ≤ 2 ^ F.p) (i : Fin n) :
    ∃ c, (F.rounding K).off L X rows i = .fin c ∧ F.round c = .fin c ∧ 0 ≤ c ∧ c ≤ m * (4 * (2 ^ e) ^ 2) := by
  have hcent : ∀ f, ∃ y, (F.rounding K).centroid L X rows f = .fin y ∧ |y| ≤ 2 ^ e := by
    intro f
    have hs := hL.sum_some_order (rows.map (fun a => .fin (X a f))) (by
      intro a ha
      obtain ⟨r, -, rfl⟩ := List.mem_map.1 ha
      exact hf r f)
    obtain ⟨s, hs, hsb⟩ := Ieee.sum_abs_le F (e := e) hs (by simpa using h2) (by omega) (by
      intro a ha
      obtain ⟨r, -, rfl⟩ := List.mem_map.1 ha
      exact ⟨_, rfl, hX r f⟩)
    rw [List.length_map] at hsb
    obtain ⟨y, hy, hyb, -⟩ := div_bound F h1 h2 (by omega) hsb (round_two_pow F e (by omega))
    refine ⟨y, ?_, hyb⟩
    unfold centroid
    rw [hs, hy]
  have hterm : ∀ f, ∃ q, (F.rounding K).mul ((F.rounding K).sub (.fin (X i f)) ((F.rounding K).centroid L X rows f))
      ((F.rounding K).sub (.fin (X i f)) ((F.rounding K).centroid L X rows f)) = .fin q ∧ 0 ≤ q ∧ q ≤ 2 ^ (2 * e + 2) := by
    intro f
    obtain ⟨y, hy, hyb⟩ := hcent f
    rw [hy]
    have hsub : |X i f + -y| ≤ 2 ^ (e + 1) := by
      refine (abs_add_le _ _).trans ?_
      rw [abs_neg, pow_succ]
      linarith [hX i f]
    obtain ⟨d, hd, hdb⟩ := Ieee.round_abs_le F hsub (round_two_pow F (e + 1) (by push_cast; omega))
    have hd' : (F.rounding K).sub (.fin (X i f)) (.fin y) = .fin d := hd
    rw [hd']
    have hsq : d * d ≤ 2 ^ (2 * e + 2) := by
      have h := mul_le_mul hdb hdb (abs_nonneg d) (by positivity)
      rw [abs_mul_abs_self, ← pow_add] at h
      convert h using 2
      ring
    obtain ⟨q, hq, q0, q1⟩ := Ieee.round_le F (mul_self_nonneg d) hsq (round_two_pow F (2 * e + 2) (by push_cast; omega))
    exact ⟨q, hq, q0, q1⟩
  have hfl : ∀ a ∈ List.ofFn (fun f => (F.rounding K).mul ((F.rounding K).sub (.fin (X i f)) ((F.rounding K).centroid L X rows f))
      ((F.rounding K).sub (.fin (X i f)) ((F.rounding K).centroid L X rows f))), (F.rounding K).Float a := by
    intro a ha
    obtain ⟨f, rfl⟩ := (List.mem_ofFn' _ _).1 ha
    exact float_up _
  have hs := hL.sum_some_order _ hfl
  obtain ⟨c, hc, c0, c1⟩ := Ieee.sum_nonneg_le F (e := 2 * e + 2) hs (by simpa using hm) (by push_cast; omega) (by
    intro a ha
    obtain ⟨f, rfl⟩ := (List.mem_ofFn' _ _).1 ha
    exact hterm f)
  refine ⟨c, hc, ?_, c0, ?_⟩
  · have := sums_float hs hfl
    rw [hc] at this
    exact this
  · rw [List.length_ofFn] at c1
    refine c1.trans (le_of_eq ?_)
    ring

/-- Two times a float is a float, unless it is too large. -/
theorem two_mul_float (F : Ieee) {g : K} (hg : F.round g = .fin g) (h : |2 * g| ≤ 2 ^ F.emax) :
    F.round (-2 * g) = .fin (-2 * g) := by
  have e := Ieee.nearest_of_float F hg
  have hn : F.nearest (-2 * g) = -2 * g := by
    have hs : (0 : K) < 2 ^ F.spacing g := Ieee.zpow_pos' _
    have hb := Ieee.abs_lt_spacing F g
    set z := Ieee.even (g / 2 ^ F.spacing g) with hz
    have eg : g = (z : K) * 2 ^ F.spacing g := e.symm
    have hzb : |z| ≤ 2 ^ F.p := by
      rw [zpow_add₀ two_ne_zero] at hb
      have eabs : |g| = 2 ^ F.spacing g * |(z : K)| := by
        conv_lhs => rw [eg, abs_mul, abs_of_pos hs, mul_comm]
      rw [eabs] at hb
      have hb := lt_of_mul_lt_mul_left hb hs.le
      rw [zpow_natCast] at hb
      exact_mod_cast hb.le
    have := Ieee.nearest_rep (K := K) F (m := -z) (t := F.spacing g + 1) (by rwa [abs_neg]) (by
      unfold Ieee.spacing
      have := le_max_right (Int.log 2 |g|) F.emin
      omega)
    have e2 : ((-z : ℤ) : K) * 2 ^ (F.spacing g + 1) = -2 * g := by
      rw [zpow_add_one₀ two_ne_zero]
      conv_rhs => rw [eg]
      push_cast
      ring
    rwa [e2] at this
  rw [Ieee.round_of_lt] <;> rw [hn]
  rw [neg_mul, abs_neg]
  exact h.trans_lt (zpow_lt_zpow_right₀ one_lt_two (by omega))

/-- Both orders of computing one entry. -/
theorem entry_bound (F : Ieee) {g a b c d S : K} (hg : F.round g = .fin g) (ha : F.round a = .fin a) (hb : F.round b = .fin b)
    (hc : F.round c = .fin c) (hd : F.round d = .fin d) (a0 : 0 ≤ a) (b0 : 0 ≤ b) (c0 : 0 ≤ c) (d0 : 0 ≤ d)
    (hS : 2 * |g| + a + b + c + d ≤ S) (hb2 : 4 * S ≤ 2 ^ F.emax) :
    ∃ y, (F.rounding K).sub ((F.rounding K).sub
        (let z := (F.rounding K).add ((F.rounding K).add ((F.rounding K).mul (.fin (-2)) (.fin g)) (.fin a)) (.fin b)
         if XR.flt z (.fin 0) then .fin 0 else z) (.fin c)) (.fin d) = .fin y ∧
      |y - (max (-2 * g + a + b) 0 - c - d)| ≤ 8 * F.ulp K * S := by
  have u0 := Ieee.ulp_pos (K := K) F
  have u1 := Ieee.ulp_le (K := K) F
  set u := F.ulp K with hu
  have g0 := abs_nonneg g
  have hp2 : F.round (-2 * g) = .fin (-2 * g) := two_mul_float F hg (by
    rw [abs_mul, abs_two]; linarith)
  have e1 : (F.rounding K).mul (.fin (-2)) (.fin g) = .fin (-2 * g) := hp2
  have b1 : |-2 * g + a| ≤ 2 * |g| + a := by
    refine (abs_add_le _ _).trans ?_
    rw [abs_mul, abs_neg, abs_two, abs_of_nonneg a0]
  have hT : 0 ≤ S := by linarith
  obtain ⟨z, hz, fz, ez⟩ := Ieee.add_float F hp2 ha (b1.trans (by linarith))
  set T := 2 * |g| + a + b with hTd
  have ez' : |z - (-2 * g + a)| ≤ u * T := ez.trans (mul_le_mul_of_nonneg_left (by linarith) u0.le)
  have T0 : 0 ≤ T := by linarith
  have t0 : 0 ≤ u * T := mul_nonneg u0.le T0
  have uT : u * T ≤ T / 4 := by
    have := mul_le_mul_of_nonneg_right u1 T0
    linarith
  have bz : |z + b| ≤ T + u * T := by
    have : z + b = (z - (-2 * g + a)) + ((-2 * g + a) + b) := by ring
    rw [this]
    refine (abs_add_le _ _).trans ?_
    have : |-2 * g + a + b| ≤ T := (abs_add_le _ _).trans (by rw [abs_of_nonneg b0]; linarith)
    linarith
  obtain ⟨w, hw, fw, ew⟩ := Ieee.add_float F fz hb (bz.trans (by linarith))
  have ew' : |w - (-2 * g + a + b)| ≤ 9 / 4 * (u * T) := by
    have : w - (-2 * g + a + b) = (w - (z + b)) + (z - (-2 * g + a)) := by ring
    rw [this]
    refine (abs_add_le _ _).trans ?_
    have h1 := mul_le_mul_of_nonneg_left bz u0.le
    have h2 := mul_le_mul_of_nonneg_left uT u0.le
    have h3 : u * (T + u * T) = u * T + u * (u * T) := by ring
    have h4 : u * (T / 4) = u * T / 4 := by ring
    linarith
  -- clipping
  obtain ⟨v, hv, fv, ev, v0⟩ : ∃ v, (if XR.flt (.fin w) (.fin 0) then (.fin 0 : XR K) else .fin w) = .fin v ∧
      F.round v = .fin v ∧ |v - max (-2 * g + a + b) 0| ≤ 9 / 4 * (u * T) ∧ 0 ≤ v := by
    by_cases h : w < 0
    · refine ⟨0, by rw [if_pos (show XR.flt (.fin w) (.fin 0) from h)], (F.rounding K).zero, ?_, le_rfl⟩
      rw [abs_le] at ew' ⊢
      have m1 := le_max_right (-2 * g + a + b) 0
      constructor
      · have : max (-2 * g + a + b) 0 ≤ 9 / 4 * (u * T) := max_le (by linarith) (by linarith)
        linarith
      · linarith
    · refine ⟨w, by rw [if_neg (show ¬ XR.flt (.fin w) (.fin 0) from h)], fw, ?_, not_lt.1 h⟩
      rw [abs_le] at ew' ⊢
      have m1 := le_max_left (-2 * g + a + b) 0
      constructor
      · have : max (-2 * g + a + b) 0 ≤ w + 9 / 4 * (u * T) := max_le (by linarith) (by linarith)
        linarith
      · linarith
  have hmax : max (-2 * g + a + b) 0 ≤ T := max_le (by
    have := neg_abs_le g
    linarith) (by linarith)
  have hmax0 := le_max_right (-2 * g + a + b) 0
  set r := max (-2 * g + a + b) 0 with hr
  have hvT : v ≤ 25 / 16 * T := by
    have := (abs_le.1 ev).2
    linarith
  have hcS : T + c + d ≤ S := by linarith
  have bs1 : |v + -c| ≤ 25 / 16 * T + c := by
    refine (abs_add_le _ _).trans ?_
    rw [abs_neg, abs_of_nonneg c0, abs_of_nonneg v0]
    linarith
  obtain ⟨s, hs, fs, es⟩ := Ieee.add_float F fv (Ieee.neg_float F hc) (bs1.trans (by linarith))
  have es' : |s - (v + -c)| ≤ u * (25 / 16 * T + c) := es.trans (mul_le_mul_of_nonneg_left bs1 u0.le)
  have hu4 : u * (25 / 16 * T + c) ≤ (25 / 16 * T + c) / 4 := by
    have := mul_le_mul_of_nonneg_right u1 (by linarith : 0 ≤ 25 / 16 * T + c)
    linarith
  have bs2 : |s + -d| ≤ 5 / 4 * (25 / 16 * T + c) + d := by
    have : s + -d = (s - (v + -c)) + (v + -c) + -d := by ring
    rw [this]
    refine (abs_add_le _ _).trans ?_
    rw [abs_neg, abs_of_nonneg d0]
    have := abs_add_le (s - (v + -c)) (v + -c)
    linarith
  obtain ⟨y, hy, fy, ey⟩ := Ieee.add_float F fs (Ieee.neg_float F hd) (bs2.trans (by linarith))
  have ey' : |y - (s + -d)| ≤ u * (5 / 4 * (25 / 16 * T + c) + d) := ey.trans (mul_le_mul_of_nonneg_left bs2 u0.le)
  refine ⟨y, ?_, ?_⟩
  · rw [e1, hz, hw]
    simp only
    rw [hv]
    have hs' : (F.rounding K).sub (.fin v) (.fin c) = .fin s := hs
    rw [hs']
    exact hy
  · have : y - (r - c - d) = (y - (s + -d)) + (s - (v + -c)) + (v - r) := by ring
    rw [this]
    refine (abs_add_le _ _).trans ?_
    have h1 := abs_add_le (y - (s + -d)) (s - (v + -c))
    have hTu : u * (T + c + d) ≤ u * S := mul_le_mul_of_nonneg_left hcS u0.le
    have x0 : u * (T + c + d) = u * T + u * c + u * d := by ring
    have x1 : u * (5 / 4 * (25 / 16 * T + c) + d) = 125 / 64 * (u * T) + 5 / 4 * (u * c) + u * d := by ring
    have x2 : u * (25 / 16 * T + c) = 25 / 16 * (u * T) + u * c := by ring
    have x3 : 8 * u * S = 8 * (u * S) := by ring
    have c0' : 0 ≤ u * c := mul_nonneg u0.le c0
    have d0' : 0 ≤ u * d := mul_nonneg u0.le d0
    rw [x3]
    rw [x1] at ey'
    rw [x2] at es'
    rw [x0] at hTu
    linarith

theorem row_eq {n m : ℕ} (X : Fin n → Fin m → K) (i : Fin n) : row X i = (List.ofFn (X i)).map .fin := by
  unfold row
  rw [List.map_ofFn]
  rfl

/-- **C189** (bound). If no coordinate exceeds `2^e` in absolute value (far enough from overflow) then DisSim Local matrices are
symmetric up to `192 * 2^-p` times dimension times `4^e`, whatever the order of the additions in the libraries used. Missing
from the full claim: equality of the two entries, which is false (`C189_violated`). -/
theorem C189_partial (F : Ieee) (L : VecLib K) (hL : L.Ok F) (o : ArgPart (XR K)) {n m : ℕ} (X : Fin n → Fin m → K) (k e : ℕ)
    (hf : ∀ i f, F.round (X i f) = .fin (X i f)) (hX : ∀ i f, |X i f| ≤ 2 ^ e) (h1 : 1 ≤ k) (hk : k < n)
    (hkp : k ≤ 2 ^ F.p) (h0 : 0 < m) (hm : m ≤ 2 ^ F.p) (he : (F.p : ℤ) + (2 * e + 6) ≤ F.emax) :
    ∃ M, (F.rounding K).disSimLocal o L X k = .ok M ∧ (∀ i, M i i = .ninf) ∧ ∀ i j, i ≠ j → ∃ x y, M i j = .fin x ∧
      M j i = .fin y ∧ |x - y| ≤ 192 * 2 ^ (-(F.p : ℤ)) * m * 4 ^ e := by
  obtain ⟨sel, hsel, h⟩ := local_ok (F.rounding K) o L X k hk h0
  refine ⟨_, h, fun i => by simp [Np.fillDiagonal], ?_⟩
  intro i j hij
  have hoff : ∀ i, ∃ c, (F.rounding K).off L X (sel i) i = .fin c ∧ F.round c = .fin c ∧ 0 ≤ c ∧ c ≤ m * (4 * (2 ^ e) ^ 2) :=
    fun i => off_le F L hL X e hX hf hm (by omega) (sel i) (by rw [(hsel i).length]; omega) (by rw [(hsel i).length]; exact hkp) i
  obtain ⟨c, ec, fc, c0, c1⟩ := hoff i
  obtain ⟨d, ed, fd, d0, d1⟩ := hoff j
  have hmem : ∀ i, ∀ a ∈ List.ofFn (X i), |a| ≤ 2 ^ e := by
    intro i a ha
    obtain ⟨f, rfl⟩ := (List.mem_ofFn' _ _).1 ha
    exact hX i f
  obtain ⟨g, eg, fg, g1⟩ := hL.dot_le (List.ofFn (X i)) (List.ofFn (X j)) e (by simp) (by simpa using hm) (by omega) (hmem i) (hmem j)
  obtain ⟨a, ea, fa, a0, a1⟩ := hL.sq_le (List.ofFn (X i)) e (by simpa using hm) (by omega) (hmem i)
  obtain ⟨b, eb, fb, b0, b1⟩ := hL.sq_le (List.ofFn (X j)) e (by simpa using hm) (by omega) (hmem j)
  rw [List.length_ofFn] at g1 a1 b1
  have h4 : (4 : K) ^ e = (2 ^ e) ^ 2 := by rw [← pow_mul, mul_comm, pow_mul]; norm_num
  set B : K := (m : K) * (2 ^ e) ^ 2 with hB
  have hB0 : 0 ≤ B := by positivity
  have c1' : c ≤ 4 * B := by rw [hB]; linarith
  have d1' : d ≤ 4 * B := by rw [hB]; linarith
  have htop : 4 * (12 * B) ≤ 2 ^ F.emax := by
    have h2 : (2 : K) ^ ((F.p : ℤ) + (2 * e + 6)) ≤ 2 ^ F.emax := zpow_le_zpow_right₀ one_le_two he
    refine le_trans ?_ h2
    have e2 : (2 : K) ^ ((F.p : ℤ) + (2 * e + 6)) = 2 ^ F.p * (2 ^ e) ^ 2 * 64 := by
      rw [zpow_add₀ two_ne_zero, zpow_add₀ two_ne_zero, zpow_natCast, zpow_mul, ← pow_mul]
      norm_num
      rw [mul_comm e 2, pow_mul]
      norm_num
      ring
    rw [e2]
    have : B ≤ 2 ^ F.p * (2 ^ e) ^ 2 := mul_le_mul_of_nonneg_right (by exact_mod_cast hm) (by positivity)
    linarith
  obtain ⟨x, hx, bx⟩ := entry_bound F (S := 12 * B) fg fa fb fc fd a0 b0 c0 d0 (by linarith) htop
  obtain ⟨y, hy, by'⟩ := entry_bound F (S := 12 * B) fg fb fa fd fc b0 a0 d0 c0 (by linarith) htop
  refine ⟨x, y, ?_, ?_, ?_⟩
  · rw [← hx]
    unfold hoods sqEuclid Np.fillDiagonal
    simp only [if_neg (Fin.val_ne_of_ne hij), row_eq, eg, ea, eb]
    rw [ec, ed]
  · rw [← hy]
    unfold hoods sqEuclid Np.fillDiagonal
    simp only [if_neg (Fin.val_ne_of_ne hij.symm), row_eq, hL.dot_comm ((List.ofFn (X j)).map .fin), eg, ea, eb]
    rw [ec, ed]
  · have e1 : (192 : K) * 2 ^ (-(F.p : ℤ)) * m * 4 ^ e = 8 * F.ulp K * (12 * B) + 8 * F.ulp K * (12 * B) := by
      rw [h4, hB]
      unfold Ieee.ulp
      ring
    rw [e1]
    have e2 : -2 * g + b + a = -2 * g + a + b := by ring
    rw [e2] at by'
    have : x - y = (x - (max (-2 * g + a + b) 0 - c - d)) - (y - (max (-2 * g + a + b) 0 - d - c)) := by ring
    rw [this]
    exact (abs_sub _ _).trans (by linarith)

theorem sums_one (R : Rounding K) (a s : XR K) (h : R.Sums [a] s) : s = a := by
  rcases h with ⟨h, -⟩ | ⟨t, ht, rfl⟩
  · cases h
  · cases t with
    | leaf b =>
      have : b = a := by simpa [SumTree.leaves] using ht
      rw [this]; rfl
    | node l r =>
      have := ht.length_eq
      have h1 := l.leaves_pos
      have h2 := r.leaves_pos
      simp only [SumTree.leaves, List.length_append, List.length_singleton] at this
      omega

theorem sums_two (R : Rounding K) (a b s : XR K) (h : R.Sums [a, b] s) : s = R.add a b := by
  rcases h with ⟨h, -⟩ | ⟨t, ht, rfl⟩
  · cases h
  · cases t with
    | leaf c =>
      have := ht.length_eq
      simp [SumTree.leaves] at this
    | node l r =>
      have hl := ht.length_eq
      have h1 := l.leaves_pos
      have h2 := r.leaves_pos
      simp only [SumTree.leaves, List.length_append, List.length_cons, List.length_nil] at hl
      obtain ⟨x, hx⟩ := List.length_eq_one_iff.1 (by omega : l.leaves.length = 1)
      obtain ⟨y, hy⟩ := List.length_eq_one_iff.1 (by omega : r.leaves.length = 1)
      have ex : l.eval R = x := by
        refine sums_one R x _ (Or.inr ⟨l, by rw [hx], rfl⟩)
      have ey : r.eval R = y := by
        refine sums_one R y _ (Or.inr ⟨r, by rw [hy], rfl⟩)
      rw [SumTree.eval, ex, ey]
      simp only [SumTree.leaves, hx, hy, List.singleton_append] at ht
      rcases List.perm_pair.1 ht with h | h
      · simp only [List.cons.injEq, and_true] at h
        rw [h.1, h.2]
      · simp only [List.cons.injEq, and_true] at h
        rw [h.1, h.2, add_comm']

end

/-! ### Counterexamples -/

/-- Two pairs of near points, far from each other. -/
def pairsZ : Fin 4 → List ℤ := ![[-2 ^ 26, 0], [-2 ^ 26 + 1, 0], [2 ^ 26, 0], [2 ^ 26 + 1, 1]]

/-- The same as array. -/
def pairs : Fin 4 → Fin 2 → ℚ := fun i f => (((pairsZ i)[f.val]?.getD 0 : ℤ) : ℚ)

theorem row_pairs (i : Fin 4) : row pairs i = (pairsZ i).map (fun z : ℤ => .fin (z : ℚ)) := by
  revert i; decide +kernel

/-- Their distances in float64. -/
def pairsD : Fin 4 → Fin 4 → XR ℚ := Np.fillDiagonal (fun i j =>
  let R := Ieee.double.rounding ℚ
  let z := R.add (R.add (R.mul (.fin (-2)) (.fin (inner (pairsZ i) (pairsZ j)))) (.fin (inner (pairsZ i) (pairsZ i))))
    (.fin (inner (pairsZ j) (pairsZ j)))
  if XR.flt z (.fin 0) then .fin 0 else z) .pinf

theorem hoods_pairs (L : VecLib ℚ) (hL : L.Ok Ieee.double) : (Ieee.double.rounding ℚ).hoods L pairs = pairsD := by
  have hd : ∀ i j, L.dot (row pairs i) (row pairs j) = .fin (inner (pairsZ i) (pairsZ j)) := by
    intro i j
    rw [row_pairs, row_pairs]
    exact hL.dot_int _ _ (by revert i j; decide +kernel) (by decide)
  have hs : ∀ i, L.sq (row pairs i) = .fin (inner (pairsZ i) (pairsZ i)) := by
    intro i
    rw [row_pairs]
    exact hL.sq_int _ (by revert i; decide +kernel) (by decide)
  unfold hoods sqEuclid pairsD
  funext i j
  unfold Np.fillDiagonal
  by_cases h : i.val = j.val
  · simp only [if_pos h]
  · simp only [if_neg h, hd, hs]

theorem sel_single {n : ℕ} {d : Fin n → XR ℚ} {l : List (Fin n)} (h : SNN.Sel "distance" d 1 l) (a : Fin n)
    (ha : ∀ b, b ≠ a → d a < d b) : l = [a] := by
  obtain ⟨b, rfl⟩ := List.length_eq_one_iff.1 h.length
  by_cases hb : b = a
  · rw [hb]
  · have := h.best b (by simp) a (by simpa using Ne.symm hb)
    unfold Spec.nearer at this
    rw [if_neg (by decide)] at this
    exact absurd (ha b hb) (not_lt.2 this)

/-- **C189** (violated). In float64, DisSim Local of the four points (-2^26, 0), (-2^26 + 1, 0), (2^26, 0), (2^26 + 1, 1) with `k=1`
is not symmetric. All distances are computed exactly; only the two final subtractions round, and their order differs. -/
theorem C189_violated (L : VecLib ℚ) (hL : L.Ok Ieee.double) (o : ArgPart (XR ℚ)) :
    (∀ i f, Ieee.double.round (pairs i f) = .fin (pairs i f)) ∧
    ∃ M, (Ieee.double.rounding ℚ).disSimLocal o L pairs 1 = .ok M ∧ M 0 2 = .fin (2 ^ 54 - 2) ∧ M 2 0 = .fin (2 ^ 54 - 4) := by
  refine ⟨by decide +kernel, ?_⟩
  obtain ⟨sel, hsel, h⟩ := local_ok (Ieee.double.rounding ℚ) o L pairs 1 (by decide) (by decide)
  refine ⟨_, h, ?_⟩
  rw [hoods_pairs L hL] at hsel ⊢
  have s0 : sel 0 = [1] := sel_single (hsel 0) 1 (by decide +kernel)
  have s2 : sel 2 = [3] := sel_single (hsel 2) 3 (by decide +kernel)
  have hone : ∀ x : XR ℚ, (Ieee.double.rounding ℚ).Float x → L.sum [x] = x := fun x hx =>
    sums_one _ _ _ (hL.sum_some_order [x] (by simpa using hx))
  have htwo : ∀ x y : XR ℚ, (Ieee.double.rounding ℚ).Float x → (Ieee.double.rounding ℚ).Float y →
      L.sum [x, y] = (Ieee.double.rounding ℚ).add x y := fun x y hx hy =>
    sums_two _ _ _ _ (hL.sum_some_order [x, y] (by simp [hx, hy]))
  have hoff : ∀ i j, (Ieee.double.rounding ℚ).off L pairs [j] i =
      (Ieee.double.rounding ℚ).add
        ((Ieee.double.rounding ℚ).mul ((Ieee.double.rounding ℚ).sub (.fin (pairs i 0))
          ((Ieee.double.rounding ℚ).div (.fin (pairs j 0)) ((Ieee.double.rounding ℚ).ofNat 1)))
          ((Ieee.double.rounding ℚ).sub (.fin (pairs i 0))
          ((Ieee.double.rounding ℚ).div (.fin (pairs j 0)) ((Ieee.double.rounding ℚ).ofNat 1))))
        ((Ieee.double.rounding ℚ).mul ((Ieee.double.rounding ℚ).sub (.fin (pairs i 1))
          ((Ieee.double.rounding ℚ).div (.fin (pairs j 1)) ((Ieee.double.rounding ℚ).ofNat 1)))
          ((Ieee.double.rounding ℚ).sub (.fin (pairs i 1))
          ((Ieee.double.rounding ℚ).div (.fin (pairs j 1)) ((Ieee.double.rounding ℚ).ofNat 1)))) := by
    intro i j
    have hc : ∀ f, (Ieee.double.rounding ℚ).centroid L pairs [j] f =
        (Ieee.double.rounding ℚ).div (.fin (pairs j f)) ((Ieee.double.rounding ℚ).ofNat 1) := by
      intro f
      unfold centroid
      simp only [List.map_cons, List.map_nil, List.length_singleton]
      rw [hone _ (by
        change Ieee.double.round (pairs j f) = .fin (pairs j f)
        revert j f; decide +kernel)]
    unfold off toCentroid
    simp only [hc, List.ofFn_succ, List.ofFn_zero]
    exact htwo _ _ (float_up _) (float_up _)
  unfold Np.fillDiagonal
  constructor
  · simp only [s0, s2, hoff]
    decide +kernel
  · simp only [s0, s2, hoff]
    decide +kernel

section
variable {K : Type} [Field K] [LinearOrder K] [FloorRing K] [IsStrictOrderedRing K]

/-! ### Exactness for integers -/

theorem inner_ofFn {m : ℕ} (x y : Fin m → ℤ) : inner (List.ofFn x) (List.ofFn y) = ∑ f, x f * y f := by
  induction m with
  | zero => simp [inner]
  | succ m ih => rw [List.ofFn_succ, List.ofFn_succ, inner, ih, Fin.sum_univ_succ]

theorem row_int {n m : ℕ} (X : Fin n → Fin m → ℤ) (i : Fin n) :
    row (fun i f => (X i f : K)) i = (List.ofFn (X i)).map (fun z : ℤ => .fin (z : K)) := by
  unfold row
  rw [List.map_ofFn]
  rfl

theorem sum_mul_le {m : ℕ} {B : ℤ} (x y : Fin m → ℤ) (hx : ∀ f, |x f| ≤ B) (hy : ∀ f, |y f| ≤ B) :
    ∑ f, |x f| * |y f| ≤ m * B ^ 2 := by
  calc ∑ f, |x f| * |y f| ≤ ∑ _f : Fin m, B ^ 2 := Finset.sum_le_sum (fun f _ => by
        have h0 := (abs_nonneg (x f)).trans (hx f)
        rw [pow_two]
        exact mul_le_mul (hx f) (hy f) (abs_nonneg _) h0)
    _ = m * B ^ 2 := by simp

/-- Squared distances of small integer vectors are exact. -/
theorem sqEuclid_int (F : Ieee) (L : VecLib K) (hL : L.Ok F) {n m : ℕ} (X : Fin n → Fin m → ℤ) (B : ℤ)
    (hX : ∀ i f, |X i f| ≤ B) (hp : (F.p : ℤ) ≤ F.emax) (hB : 4 * (m * B ^ 2) ≤ 2 ^ F.p) (i j : Fin n) (hij : i ≠ j) :
    (F.rounding K).sqEuclid L (fun i f => (X i f : K)) i j = .fin ((∑ f, (X i f - X j f) ^ 2 : ℤ) : K) := by
  have habs : ∀ i, (List.ofFn (X i)).map (|·|) = List.ofFn (fun f => |X i f|) := by
    intro i; rw [List.map_ofFn]; rfl
  have hB0 : (0 : ℤ) ≤ m * B ^ 2 := by positivity
  have hsqb : ∀ i, (∑ f, X i f * X i f) ≤ m * B ^ 2 := by
    intro i
    refine le_trans (le_of_eq ?_) (sum_mul_le (X i) (X i) (hX i) (hX i))
    exact Finset.sum_congr rfl (fun f _ => (abs_mul_abs_self _).symm)
  have hsq0 : ∀ i, 0 ≤ ∑ f, X i f * X i f := fun i => Finset.sum_nonneg (fun f _ => mul_self_nonneg _)
  have hdot : |∑ f, X i f * X j f| ≤ m * B ^ 2 := by
    refine (Finset.abs_sum_le_sum_abs _ _).trans ?_
    refine le_trans (le_of_eq ?_) (sum_mul_le (X i) (X j) (hX i) (hX j))
    exact Finset.sum_congr rfl (fun f _ => abs_mul _ _)
  have ed : L.dot (row (fun i f => (X i f : K)) i) (row (fun i f => (X i f : K)) j) = .fin ((∑ f, X i f * X j f : ℤ) : K) := by
    rw [row_int, row_int, hL.dot_int _ _ _ hp, inner_ofFn]
    rw [habs, habs, inner_ofFn]
    exact (sum_mul_le (X i) (X j) (hX i) (hX j)).trans (by linarith)
  have es : ∀ i, L.sq (row (fun i f => (X i f : K)) i) = .fin ((∑ f, X i f * X i f : ℤ) : K) := by
    intro i
    rw [row_int, hL.sq_int _ _ hp, inner_ofFn]
    rw [inner_ofFn]
    linarith [hsqb i]
  set g := ∑ f, X i f * X j f with hg
  set a := ∑ f, X i f * X i f with ha
  set b := ∑ f, X j f * X j f with hb
  have ha1 := hsqb i
  have hb1 := hsqb j
  have ha0 := hsq0 i
  have hb0 := hsq0 j
  rw [← ha] at ha1 ha0
  rw [← hb] at hb1 hb0
  have ea : L.sq (row (fun i f => (X i f : K)) i) = .fin (a : K) := es i
  have eb : L.sq (row (fun i f => (X i f : K)) j) = .fin (b : K) := es j
  rw [abs_le] at hdot
  have hid : -2 * g + a + b = ∑ f, (X i f - X j f) ^ 2 := by
    rw [hg, ha, hb, Finset.mul_sum, ← Finset.sum_add_distrib, ← Finset.sum_add_distrib]
    exact Finset.sum_congr rfl (fun f _ => by ring)
  have r1 : (F.rounding K).mul (.fin (-2)) (.fin (g : K)) = .fin ((-2 * g : ℤ) : K) := by
    have := Ieee.round_intCast (K := K) F (m := -2 * g) (abs_le.2 ⟨by linarith, by linarith⟩) hp
    rw [← this]
    change F.round _ = F.round _
    push_cast; rfl
  have r2 : (F.rounding K).add (.fin ((-2 * g : ℤ) : K)) (.fin (a : K)) = .fin ((-2 * g + a : ℤ) : K) := by
    have := Ieee.round_intCast (K := K) F (m := -2 * g + a) (abs_le.2 ⟨by linarith, by linarith⟩) hp
    rw [← this]
    change F.round _ = F.round _
    push_cast; rfl
  have r3 : (F.rounding K).add (.fin ((-2 * g + a : ℤ) : K)) (.fin (b : K)) = .fin ((-2 * g + a + b : ℤ) : K) := by
    have := Ieee.round_intCast (K := K) F (m := -2 * g + a + b) (abs_le.2 ⟨by linarith, by linarith⟩) hp
    rw [← this]
    change F.round _ = F.round _
    push_cast; rfl
  unfold sqEuclid Np.fillDiagonal
  simp only [if_neg (Fin.val_ne_of_ne hij), ed, ea, eb, r1, r2, r3, hid]
  rw [if_neg]
  change ¬ ((_ : K) < 0)
  rw [not_lt]
  exact_mod_cast Finset.sum_nonneg (fun f _ => sq_nonneg (X i f - X j f))

/-- Squared distances to means of `2 ^ a` small integer vectors are exact. -/
theorem off_int (F : Ieee) (L : VecLib K) (hL : L.Ok F) {n m : ℕ} (X : Fin n → Fin m → ℤ) (B : ℤ) (a : ℕ)
    (hX : ∀ i f, |X i f| ≤ B) (h0 : 0 < m) (hp : (F.p : ℤ) ≤ F.emax) (he : F.emin ≤ -(2 * a : ℕ) + (F.p - 1))
    (h2 : 2 ^ a ≤ 2 ^ F.p) (hB : 4 * (m * B ^ 2 * 4 ^ a) ≤ (2 : ℤ) ^ F.p) (rows : List (Fin n)) (hr : rows.length = 2 ^ a) (i : Fin n) :
    ∃ z : ℤ, 0 ≤ z ∧ z ≤ 4 * (m * B ^ 2 * 4 ^ a) ∧
      (z : K) * 2 ^ (-(2 * a : ℕ) : ℤ) = ∑ f, ((X i f : K) - (rows.map (fun r => (X r f : K))).sum / 2 ^ a) ^ 2 ∧
      (F.rounding K).off L (fun i f => (X i f : K)) rows i = .fin ((z : K) * 2 ^ (-(2 * a : ℕ) : ℤ)) := by
  have hB0 : 0 ≤ B := (abs_nonneg _).trans (hX i ⟨0, h0⟩)
  have h4 : (4 : ℤ) ^ a = 2 ^ a * 2 ^ a := by rw [← mul_pow]; norm_num
  have h2a : (1 : ℤ) ≤ 2 ^ a := one_le_pow₀ (by norm_num)
  have hm1 : (1 : ℤ) ≤ m := by exact_mod_cast h0
  -- sum of a column
  have hS : ∀ f, |(rows.map (fun r => X r f)).sum| ≤ 2 ^ a * B := by
    intro f
    have : ∀ l : List (Fin n), |(l.map (fun r => X r f)).sum| ≤ l.length * B := by
      intro l
      induction l with
      | nil => simp
      | cons c l ih =>
        simp only [List.map_cons, List.sum_cons, List.length_cons]
        refine (abs_add_le _ _).trans ?_
        push_cast
        linarith [hX c f]
    have := this rows
    rw [hr] at this
    exact_mod_cast this
  have hSa : ∀ f, (((rows.map (fun r => X r f))).map (|·|)).sum ≤ 2 ^ a * B := by
    intro f
    have : ∀ l : List (Fin n), ((l.map (fun r => X r f)).map (|·|)).sum ≤ l.length * B := by
      intro l
      induction l with
      | nil => simp
      | cons c l ih =>
        simp only [List.map_cons, List.sum_cons, List.length_cons]
        push_cast
        linarith [hX c f]
    have := this rows
    rw [hr] at this
    exact_mod_cast this
  have hBB : 2 ^ a * B ≤ m * B ^ 2 * 4 ^ a := by
    rcases eq_or_lt_of_le hB0 with h | h
    · rw [← h]; simp
    · have hB1 : 1 ≤ B := h
      have h5 : 1 ≤ 2 ^ a * B := one_le_mul_of_one_le_of_one_le h2a hB1
      have h6 : 1 ≤ m * (2 ^ a * B) := one_le_mul_of_one_le_of_one_le hm1 h5
      have : 1 * (2 ^ a * B) ≤ (m * (2 ^ a * B)) * (2 ^ a * B) :=
        mul_le_mul_of_nonneg_right h6 (by positivity)
      rw [h4]
      refine le_trans (by linarith) (this.trans (le_of_eq ?_))
      ring
  have hcol : ∀ f, L.sum (rows.map (fun r => .fin (X r f : K))) = .fin (((rows.map (fun r => X r f)).sum : ℤ) : K) := by
    intro f
    have hs := hL.sum_some_order (rows.map (fun r => .fin (X r f : K))) (by
      intro c hc
      obtain ⟨r, -, rfl⟩ := List.mem_map.1 hc
      refine Ieee.round_intCast (K := K) F ((hX r f).trans ?_) hp
      have : B ≤ 2 ^ a * B := le_mul_of_one_le_left hB0 h2a
      linarith)
    have e : rows.map (fun r => (.fin (X r f : K) : XR K)) =
        (rows.map (fun r => X r f)).map (fun z : ℤ => .fin ((z : K) * 2 ^ (0 : ℤ))) := by
      rw [List.map_map]
      apply List.map_congr_left
      intro r _
      simp
    rw [e] at hs ⊢
    have := Ieee.sum_grid F hs ((hSa f).trans (by linarith)) (by have := F.p_pos; have := F.emin_le; omega) (by omega)
    rw [this]
    simp
  have hofn : (F.rounding K).ofNat (2 ^ a) = .fin ((2 : K) ^ a) := by
    have := Ieee.round_natCast (K := K) F h2 hp
    push_cast at this
    exact_mod_cast this
  have hz : ∀ t : ℕ, (2 : K) ^ (-(t : ℤ)) = 1 / 2 ^ t := by intro t; rw [zpow_neg, zpow_natCast, one_div]
  have hcen : ∀ f, (F.rounding K).centroid L (fun i f => (X i f : K)) rows f =
      .fin (((rows.map (fun r => X r f)).sum : K) * 2 ^ (-(a : ℤ))) := by
    intro f
    unfold centroid
    rw [hcol, hr, hofn]
    have h2a' : (2 : K) ^ a ≠ 0 := by positivity
    have := Ieee.round_grid (K := K) F (z := (rows.map (fun r => X r f)).sum) (t := -(a : ℤ)) ((hS f).trans (by linarith))
      (by push_cast at he; omega) (by omega)
    simp only [div, XR.div, if_neg h2a', up]
    rw [← this]
    change F.round _ = F.round _
    rw [hz]
    push_cast
    congr 1
    ring
  set d : Fin m → ℤ := fun f => X i f * 2 ^ a - (rows.map (fun r => X r f)).sum with hd
  have hdb : ∀ f, |d f| ≤ 2 * (2 ^ a * B) := by
    intro f
    rw [hd]
    refine (abs_sub _ _).trans ?_
    rw [abs_mul, abs_of_pos (by positivity : (0 : ℤ) < 2 ^ a)]
    have := mul_le_mul_of_nonneg_right (hX i f) (by positivity : (0 : ℤ) ≤ 2 ^ a)
    linarith [hS f]
  have hsub : ∀ f, (F.rounding K).sub (.fin (X i f : K)) (.fin (((rows.map (fun r => X r f)).sum : K) * 2 ^ (-(a : ℤ)))) =
      .fin ((d f : K) * 2 ^ (-(a : ℤ))) := by
    intro f
    have := Ieee.round_grid (K := K) F (z := d f) (t := -(a : ℤ)) ((hdb f).trans (by linarith)) (by push_cast at he; omega) (by omega)
    rw [← this]
    change F.round _ = F.round _
    rw [hz, hd]
    push_cast
    congr 1
    have h2a' : (2 : K) ^ a ≠ 0 := by positivity
    field_simp
    ring
  have hsqb : ∀ f, d f * d f ≤ 4 * (B ^ 2 * 4 ^ a) := by
    intro f
    have := mul_le_mul (hdb f) (hdb f) (abs_nonneg _) (by positivity)
    rw [abs_mul_abs_self] at this
    rw [h4]
    linarith
  have hmul : ∀ f, (F.rounding K).mul (.fin ((d f : K) * 2 ^ (-(a : ℤ)))) (.fin ((d f : K) * 2 ^ (-(a : ℤ)))) =
      .fin (((d f * d f : ℤ) : K) * 2 ^ (-(2 * a : ℕ) : ℤ)) := by
    intro f
    have hb : |d f * d f| ≤ 2 ^ F.p := by
      rw [abs_of_nonneg (mul_self_nonneg _)]
      refine (hsqb f).trans (le_trans ?_ hB)
      nlinarith [show (0 : ℤ) ≤ B ^ 2 * 4 ^ a by positivity]
    have := Ieee.round_grid (K := K) F (z := d f * d f) (t := (-(2 * a : ℕ) : ℤ)) hb he (by push_cast; omega)
    rw [← this]
    change F.round _ = F.round _
    rw [hz, hz]
    push_cast
    congr 1
    rw [pow_mul' 2 2 a, pow_two]
    ring
  refine ⟨∑ f, d f * d f, Finset.sum_nonneg (fun f _ => mul_self_nonneg _), ?_, ?_, ?_⟩
  · calc ∑ f, d f * d f ≤ ∑ _f : Fin m, 4 * (B ^ 2 * 4 ^ a) := Finset.sum_le_sum (fun f _ => hsqb f)
      _ = 4 * (m * B ^ 2 * 4 ^ a) := by simp; ring
  · rw [hz]
    push_cast
    rw [Finset.sum_mul]
    refine Finset.sum_congr rfl (fun f _ => ?_)
    rw [hd]
    push_cast
    have e : (rows.map (fun r => (X r f : K))).sum = ((rows.map (fun r => X r f)).sum : ℤ) := by
      rw [Int.cast_list_sum, List.map_map]
      rfl
    rw [e]
    have h2a' : (2 : K) ^ a ≠ 0 := by positivity
    rw [pow_mul' 2 2 a]
    push_cast
    field_simp
  · unfold off toCentroid
    simp only [hcen, hsub, hmul]
    have e : List.ofFn (fun f => (.fin (((d f * d f : ℤ) : K) * 2 ^ (-(2 * a : ℕ) : ℤ)) : XR K)) =
        (List.ofFn (fun f => d f * d f)).map (fun z : ℤ => .fin ((z : K) * 2 ^ (-(2 * a : ℕ) : ℤ))) := by
      rw [List.map_ofFn]; rfl
    rw [e]
    have habs : ((List.ofFn (fun f => d f * d f)).map (|·|)).sum ≤ 2 ^ F.p := by
      rw [List.map_ofFn, List.sum_ofFn]
      have e3 : (∑ f, ((fun x : ℤ => |x|) ∘ fun f => d f * d f) f) = ∑ f, d f * d f :=
        Finset.sum_congr rfl (fun f _ => abs_of_nonneg (mul_self_nonneg _))
      rw [e3]
      refine le_trans ?_ hB
      calc ∑ f, d f * d f ≤ ∑ _f : Fin m, 4 * (B ^ 2 * 4 ^ a) := Finset.sum_le_sum (fun f _ => hsqb f)
          _ = 4 * (m * B ^ 2 * 4 ^ a) := by simp; ring
    have hs := hL.sum_some_order ((List.ofFn (fun f => d f * d f)).map (fun z : ℤ => .fin ((z : K) * 2 ^ (-(2 * a : ℕ) : ℤ)))) (by
      intro c hc
      rw [← e] at hc
      obtain ⟨f, rfl⟩ := (List.mem_ofFn' _ _).1 hc
      simp only [← hmul]
      exact float_up _)
    have := Ieee.sum_grid F hs habs he (by push_cast; omega)
    rw [this, List.sum_ofFn]

/-- The conditions on integer data: `k = 2^a` neighbours, coordinates at most `B` in absolute value, and few enough digits. -/
structure Small (F : Ieee) {n m : ℕ} (X : Fin n → Fin m → ℤ) (B : ℤ) (a : ℕ) : Prop where
  bound : ∀ i f, |X i f| ≤ B
  digits : 16 * (m * B ^ 2 * 4 ^ a) ≤ (2 : ℤ) ^ F.p
  neighbours : 2 ^ a < n
  features : 0 < m

/-- Without overflow or underflow for such data. -/
structure Wide (F : Ieee) (a : ℕ) : Prop where
  small : F.emin ≤ -(2 * a : ℕ) + (F.p - 1)
  large : (F.p : ℤ) ≤ F.emax
  neighbours : 2 ^ a ≤ 2 ^ F.p

/-- For small integer data the computed matrix is the one of exact arithmetic. -/
theorem local_int (F : Ieee) (L : VecLib K) (hL : L.Ok F) (w : SNN.World K) {n m : ℕ} (X : Fin n → Fin m → ℤ) (B : ℤ) (a : ℕ)
    (hF : Wide F a) (hX : Small F X B a) :
    ∃ M, (F.rounding K).disSimLocal w.part L (fun i f => (X i f : K)) (2 ^ a : ℕ) = .ok M ∧
      Cent.disSimLocal w (fun i f => (X i f : K)) .float64 none (2 ^ a : ℕ) 1 = .ok ⟨n, M⟩ := by
  have hn := hX.neighbours
  have hn0 : 0 < n := Nat.lt_of_le_of_lt (Nat.zero_le _) hn
  have hm := hX.features
  have hdig := hX.digits
  have hB0 : (0 : ℤ) ≤ m * B ^ 2 := by positivity
  have h4a : (1 : ℤ) ≤ 4 ^ a := one_le_pow₀ (by norm_num)
  have hmB : (m : ℤ) * B ^ 2 ≤ m * B ^ 2 * 4 ^ a := le_mul_of_one_le_right hB0 h4a
  set P : ℤ := m * B ^ 2 * 4 ^ a with hP
  have hP0 : 0 ≤ P := by positivity
  set XK : Fin n → Fin m → K := fun i f => (X i f : K) with hXK
  have hsq : ∀ i j, Cent.sqDist (XK i) (XK j) = ((∑ f, (X i f - X j f) ^ 2 : ℤ) : K) := by
    intro i j
    unfold Cent.sqDist
    rw [hXK]
    push_cast
    rfl
  have hh : (F.rounding K).hoods L XK = Cent.selfless XK := by
    funext i j
    unfold hoods Cent.selfless Np.fillDiagonal
    by_cases h : i.val = j.val
    · rw [if_pos h, if_pos h]
    · rw [if_neg h, if_neg h]
      simp only [hsq]
      exact sqEuclid_int F L hL X B hX.bound hF.large (by linarith) i j (fun e => h (by rw [e]))
  obtain ⟨sel, hs, hsel⟩ := Cent.sels_ok w (2 ^ a) hn (Cent.selfless XK)
  have h1 : (F.rounding K).disSimLocal w.part L XK (2 ^ a : ℕ) = .ok (Np.fillDiagonal (fun i j =>
      (F.rounding K).sub ((F.rounding K).sub (Cent.selfless XK i j) ((F.rounding K).off L XK (sel i) i))
        ((F.rounding K).off L XK (sel j) j)) .ninf) := by
    rw [local_eq _ _ _ _ _ hn0 hm, hh]
    unfold Cent.sels at hs
    rw [hs]
    rfl
  refine ⟨_, h1, ?_⟩
  rw [Cent.local_none _ _ _ _ _ hn0 hm, Cent.centroids_float, hs]
  simp only [Except.map]
  congr 2
  funext i j
  unfold Np.fillDiagonal
  by_cases h : i.val = j.val
  · rw [if_pos h, if_pos h]
  rw [if_neg h, if_neg h]
  have h2 : (2 : K) ^ a ≠ 0 := by positivity
  have hc : ∀ i, ∃ z : ℤ, 0 ≤ z ∧ z ≤ 4 * P ∧ (F.rounding K).off L XK (sel i) i = .fin ((z : K) * 2 ^ (-(2 * a : ℕ) : ℤ)) ∧
      Cent.toCentroid XK (fun i f => Cent.rowsMean XK (sel i) f) i = .fin ((z : K) * 2 ^ (-(2 * a : ℕ) : ℤ)) := by
    intro i
    obtain ⟨z, z0, z1, ez, eo⟩ := off_int F L hL X B a hX.bound hm hF.large hF.small hF.neighbours (by linarith) (sel i)
      (hsel i).length i
    refine ⟨z, z0, z1, eo, ?_⟩
    rw [Cent.toCentroid_fin XK _ (fun i => Spec.centroid (sel i).toFinset XK) (fun i f =>
      Cent.sel_mean (hsel i) (Nat.one_le_two_pow) XK f), ez]
    unfold Spec.sq Spec.centroid
    congr 1
    refine Finset.sum_congr rfl (fun f _ => ?_)
    rw [List.toFinset_card_of_nodup (hsel i).nodup, (hsel i).length, List.sum_toFinset _ (hsel i).nodup]
    push_cast
    rfl
  obtain ⟨y, y0, y1, ey, ey'⟩ := hc i
  obtain ⟨z, z0, z1, ez, ez'⟩ := hc j
  simp only [ey, ez, ey', ez']
  unfold Cent.selfless Np.fillDiagonal
  rw [if_neg h]
  simp only [hsq]
  set s : ℤ := ∑ f, (X i f - X j f) ^ 2 with hsd
  have s0 : 0 ≤ s := Finset.sum_nonneg (fun f _ => sq_nonneg _)
  have s1 : s * 4 ^ a ≤ 4 * P := by
    have : s ≤ 4 * (m * B ^ 2) := by
      calc s ≤ ∑ _f : Fin m, 4 * B ^ 2 := Finset.sum_le_sum (fun f _ => by
              have h1 := abs_le.1 (hX.bound i f)
              have h2 := abs_le.1 (hX.bound j f)
              nlinarith)
        _ = 4 * (m * B ^ 2) := by simp; ring
    calc s * 4 ^ a ≤ 4 * (m * B ^ 2) * 4 ^ a := mul_le_mul_of_nonneg_right this (by positivity)
      _ = 4 * P := by rw [hP]; ring
  have hz : (2 : K) ^ (-(2 * a : ℕ) : ℤ) * 4 ^ a = 1 := by
    rw [zpow_neg, zpow_natCast, pow_mul]
    norm_num
  have es : (s : K) = ((s * 4 ^ a : ℤ) : K) * 2 ^ (-(2 * a : ℕ) : ℤ) := by
    rw [Int.cast_mul, Int.cast_pow, Int.cast_ofNat, mul_assoc, mul_comm ((4 : K) ^ a), hz, mul_one]
  rw [es]
  have s0' : 0 ≤ s * 4 ^ a := by positivity
  generalize s * 4 ^ a = q at *
  have he := hF.small
  have hl := hF.large
  have g1 := Ieee.round_grid (K := K) F (z := q - y) (t := (-(2 * a : ℕ) : ℤ)) (abs_le.2 ⟨by linarith, by linarith⟩) he
    (by push_cast; omega)
  have g2 := Ieee.round_grid (K := K) F (z := q - y - z) (t := (-(2 * a : ℕ) : ℤ)) (abs_le.2 ⟨by linarith, by linarith⟩) he
    (by push_cast; omega)
  have r1 : (F.rounding K).sub (.fin ((q : K) * 2 ^ (-(2 * a : ℕ) : ℤ))) (.fin ((y : K) * 2 ^ (-(2 * a : ℕ) : ℤ))) =
      .fin (((q - y : ℤ) : K) * 2 ^ (-(2 * a : ℕ) : ℤ)) := by
    rw [← g1]
    change F.round _ = F.round _
    congr 1
    push_cast
    ring
  have r2 : (F.rounding K).sub (.fin (((q - y : ℤ) : K) * 2 ^ (-(2 * a : ℕ) : ℤ))) (.fin ((z : K) * 2 ^ (-(2 * a : ℕ) : ℤ))) =
      .fin (((q - y - z : ℤ) : K) * 2 ^ (-(2 * a : ℕ) : ℤ)) := by
    rw [← g2]
    change F.round _ = F.round _
    congr 1
    push_cast
    ring
  rw [r1, r2]
  simp only [XR.sub, XR.neg, XR.add]
  congr 1
  push_cast
  ring

/-- **C190** (integers). For integer data with `k` a power of two and few enough digits, the floating point result is the exact one:
squared distance minus squared distances to the means of `k` nearest other points. -/
theorem C190_exact_partial (F : Ieee) (L : VecLib K) (hL : L.Ok F) (o : ArgPart (XR K)) {n m : ℕ} (X : Fin n → Fin m → ℤ) (B : ℤ) (a : ℕ)
    (hF : Wide F a) (hX : Small F X B a) :
    ∃ N : Fin n → Finset (Fin n),
      (∀ i, Spec.IsHood (Spec.nearer "distance") (Finset.univ.erase i) (fun j => Spec.sq (fun f => (X i f : K)) (fun f => (X j f : K)))
        (2 ^ a) (N i)) ∧
      (F.rounding K).disSimLocal o L (fun i f => (X i f : K)) (2 ^ a : ℕ) = .ok (fun i j => if i = j then .ninf else
        .fin (Spec.disSim (fun f => (X i f : K)) (fun f => (X j f : K)) (Spec.centroid (N i) (fun i f => (X i f : K)))
          (Spec.centroid (N j) (fun i f => (X i f : K))))) := by
  let w : SNN.World K := { SNN.revWorld K with part := o }
  obtain ⟨M, h1, h2⟩ := local_int F L hL w X B a hF hX
  obtain ⟨N, hN, h3⟩ := Cent.C41_formula w (fun i f => (X i f : K)) (2 ^ a) Nat.one_le_two_pow hX.neighbours hX.features
  refine ⟨N, hN, ?_⟩
  rw [h3 1] at h2
  change (F.rounding K).disSimLocal w.part L _ _ = _
  rw [h1]
  have h2 := Except.ok.inj h2
  rw [Sigma.mk.injEq] at h2
  rw [eq_of_heq h2.2]

/-- **C190** (integers). For such data translation changes nothing, as long as the translated data meet the condition. Missing from
the full claim: other data, for which it is false (`C190_violated`). -/
theorem C190_partial (F : Ieee) (L : VecLib K) (hL : L.Ok F) (o : ArgPart (XR K)) {n m : ℕ} (X : Fin n → Fin m → ℤ) (t : Fin m → ℤ)
    (B : ℤ) (a : ℕ) (hF : Wide F a) (hX : Small F X B a) (hXt : Small F (fun i f => X i f + t f) B a) :
    (F.rounding K).disSimLocal o L (fun i f => ((X i f + t f : ℤ) : K)) (2 ^ a : ℕ) =
      (F.rounding K).disSimLocal o L (fun i f => (X i f : K)) (2 ^ a : ℕ) := by
  let w : SNN.World K := { SNN.revWorld K with part := o }
  obtain ⟨M, h1, h2⟩ := local_int F L hL w X B a hF hX
  obtain ⟨M', h1', h2'⟩ := local_int F L hL w (fun i f => X i f + t f) B a hF hXt
  have := Cent.C83_translation w (fun i f => (X i f : K)) (fun f => (t f : K)) (2 ^ a : ℕ) 1
  push_cast at h2' h2 this
  rw [h2, h2'] at this
  have h := Except.ok.inj this
  rw [Sigma.mk.injEq] at h
  change (F.rounding K).disSimLocal w.part L _ _ = (F.rounding K).disSimLocal w.part L _ _
  rw [h1, h1', eq_of_heq h.2]

end

/-- **C190** (violated). Two points on a line at distance one, with `k=1`: DisSim Local is -1. After translation by 2^27 it is -2
in float64, although the translated coordinates are exact: the squared distance comes out as zero. -/
theorem C190_violated (L : VecLib ℚ) (hL : L.Ok Ieee.double) (o : ArgPart (XR ℚ)) :
    (∃ M, (Ieee.double.rounding ℚ).disSimLocal o L (![![0], ![1]] : Fin 2 → Fin 1 → ℚ) 1 = .ok M ∧ M 0 1 = .fin (-1)) ∧
    (∃ M, (Ieee.double.rounding ℚ).disSimLocal o L (![![2 ^ 27], ![2 ^ 27 + 1]] : Fin 2 → Fin 1 → ℚ) 1 = .ok M ∧
      M 0 1 = .fin (-2)) := by
  have hone : ∀ x : XR ℚ, (Ieee.double.rounding ℚ).Float x → L.sum [x] = x := fun x hx =>
    sums_one _ _ _ (hL.sum_some_order [x] (by simpa using hx))
  have key : ∀ (X : Fin 2 → Fin 1 → ℚ), (∀ i, Ieee.double.round (X i 0) = .fin (X i 0)) →
      (∀ i j, (let R := Ieee.double.rounding ℚ
          let z := R.add (R.add (R.mul (.fin (-2)) (R.mul (.fin (X i 0)) (.fin (X j 0)))) (R.mul (.fin (X i 0)) (.fin (X i 0))))
            (R.mul (.fin (X j 0)) (.fin (X j 0)))
          if XR.flt z (.fin 0) then .fin 0 else z) < (.pinf : XR ℚ)) →
      ∃ M, (Ieee.double.rounding ℚ).disSimLocal o L X 1 = .ok M ∧
        M 0 1 = (let R := Ieee.double.rounding ℚ
          let z := R.add (R.add (R.mul (.fin (-2)) (R.mul (.fin (X 0 0)) (.fin (X 1 0)))) (R.mul (.fin (X 0 0)) (.fin (X 0 0))))
            (R.mul (.fin (X 1 0)) (.fin (X 1 0)))
          let c := fun i j => R.mul (R.sub (.fin (X i 0)) (R.div (.fin (X j 0)) (R.ofNat 1)))
            (R.sub (.fin (X i 0)) (R.div (.fin (X j 0)) (R.ofNat 1)))
          R.sub (R.sub (if XR.flt z (.fin 0) then .fin 0 else z) (c 0 1)) (c 1 0)) := by
    intro X hX hfin
    obtain ⟨sel, hsel, h⟩ := local_ok (Ieee.double.rounding ℚ) o L X 1 (by decide) (by decide)
    refine ⟨_, h, ?_⟩
    have hrow : ∀ i, row X i = [.fin (X i 0)] := by
      intro i
      unfold row
      simp
    have hother : ∀ i j : Fin 2, j ≠ i → sel i = [j] := by
      intro i j hij
      obtain ⟨b, hb⟩ := List.length_eq_one_iff.1 (hsel i).length
      rw [hb]
      by_cases hbj : b = j
      · rw [hbj]
      · exfalso
        have hbi : b = i := by omega
        have hbest := (hsel i).best b (by rw [hb]; simp) j (by rw [hb]; simpa using Ne.symm hbj)
        unfold Spec.nearer at hbest
        rw [if_neg (by decide), hbi] at hbest
        have e1 : (Ieee.double.rounding ℚ).hoods L X i i = .pinf := by simp [hoods, Np.fillDiagonal]
        rw [e1] at hbest
        refine absurd hbest (not_le.2 (lt_of_eq_of_lt ?_ (hfin i j)))
        unfold hoods sqEuclid Np.fillDiagonal
        simp only [hrow, hL.dot_single, hL.sq_single, if_neg (Fin.val_ne_of_ne hij.symm)]
    have hoff : ∀ i j, (Ieee.double.rounding ℚ).off L X [j] i = (let R := Ieee.double.rounding ℚ
        R.mul (R.sub (.fin (X i 0)) (R.div (.fin (X j 0)) (R.ofNat 1)))
            (R.sub (.fin (X i 0)) (R.div (.fin (X j 0)) (R.ofNat 1)))) := by
      intro i j
      unfold off toCentroid centroid
      simp only [List.map_cons, List.map_nil, List.length_singleton, List.ofFn_succ, List.ofFn_zero]
      rw [hone (.fin (X j 0)) (hX j)]
      exact hone _ (float_up _)
    unfold Np.fillDiagonal
    simp only [hother 0 1 (by decide), hother 1 0 (by decide), hoff]
    unfold hoods sqEuclid Np.fillDiagonal
    simp only [hrow, hL.dot_single, hL.sq_single]
    rfl
  constructor
  · obtain ⟨M, h1, h2⟩ := key ![![0], ![1]] (by decide +kernel) (by decide +kernel)
    refine ⟨M, h1, ?_⟩
    rw [h2]
    decide +kernel
  · obtain ⟨M, h1, h2⟩ := key ![![2 ^ 27], ![2 ^ 27 + 1]] (by decide +kernel) (by decide +kernel)
    refine ⟨M, h1, ?_⟩
    rw [h2]
    decide +kernel

/-! ### Without rounding -/

section
variable {K : Type} [Field K] [LinearOrder K] [FloorRing K] [IsStrictOrderedRing K]

theorem foldl_add_ofFn {m : ℕ} (x : Fin m → K) :
    (List.ofFn (fun f => (.fin (x f) : XR K))).foldl XR.add (.fin 0) = .fin (∑ f, x f) := by
  have key : ∀ (l : List K) (a : K), (l.map XR.fin).foldl XR.add (.fin a) = .fin (a + l.sum) := by
    intro l
    induction l with
    | nil => intro a; simp
    | cons b l ih => intro a; simp [XR.add, ih, add_assoc]
  have e : List.ofFn (fun f => (.fin (x f) : XR K)) = (List.ofFn x).map .fin := by rw [List.map_ofFn]; rfl
  rw [e, key, List.sum_ofFn, zero_add]

theorem foldl_finRange {n : ℕ} (l : List (Fin n)) (g : Fin n → XR K) :
    (l.map g).foldl XR.add (.fin 0) = XR.sum (fun c : Fin l.length => g (l.get c)) := by
  unfold XR.sum
  have : l.map g = (List.finRange l.length).map (fun c => g (l.get c)) := by
    apply List.ext_getElem
    · simp
    · intro c h1 h2
      simp
  rw [this, List.foldl_map]

/-- Without rounding this is the model of `Verif/Cent/Model.lean`. -/
theorem disSimLocal_exact (w : SNN.World K) {n m : ℕ} (X : Fin n → Fin m → K) (k : ℤ) :
    ((exact K).disSimLocal w.part (VecLib.real K) X k).map (fun M => (⟨n, M⟩ : Σ l : ℕ, Fin n → Fin l → XR K)) =
      Cent.disSimLocal w X .float64 none k 1 := by
  by_cases hnm : n = 0 ∨ m = 0
  · unfold disSimLocal Cent.disSimLocal
    simp only [if_pos hnm]
    rfl
  rw [local_eq _ _ _ _ _ (by omega) (by omega), Cent.local_none _ _ _ _ _ (by omega) (by omega), Cent.centroids_float]
  have hrow : ∀ i, row X i = List.ofFn (fun f => .fin (X i f)) := fun i => rfl
  have hdot : ∀ i j, (VecLib.real K).dot (row X i) (row X j) = .fin (∑ f, X i f * X j f) := by
    intro i j
    rw [← foldl_add_ofFn]
    unfold VecLib.real
    simp only
    congr 1
    rw [hrow, hrow]
    apply List.ext_getElem
    · simp
    · intro c h1 h2
      simp [XR.mul]
  have hsq : ∀ i, (VecLib.real K).sq (row X i) = .fin (∑ f, X i f * X i f) := by
    intro i
    rw [← foldl_add_ofFn]
    unfold VecLib.real
    simp only
    rw [hrow, List.map_ofFn]
    rfl
  have hh : (exact K).hoods (VecLib.real K) X = Cent.selfless X := by
    funext i j
    unfold hoods sqEuclid Cent.selfless Np.fillDiagonal
    by_cases h : i.val = j.val
    · rw [if_pos h, if_pos h]
    · simp only [if_neg h, hdot, hsq, exact_add, exact_mul, XR.add, XR.mul]
      have hid : -2 * (∑ f, X i f * X j f) + (∑ f, X i f * X i f) + (∑ f, X j f * X j f) = Cent.sqDist (X i) (X j) := by
        unfold Cent.sqDist
        rw [Finset.mul_sum, ← Finset.sum_add_distrib, ← Finset.sum_add_distrib]
        exact Finset.sum_congr rfl (fun f _ => by ring)
      rw [hid, if_neg]
      change ¬ (Cent.sqDist (X i) (X j) < 0)
      exact not_lt.2 (Finset.sum_nonneg (fun f _ => sq_nonneg _))
  rw [hh]
  unfold Cent.sels
  have hoff : ∀ (rows : List (Fin n)) (i : Fin n), (exact K).off (VecLib.real K) X rows i =
      XR.sum (fun f => XR.mul (XR.sub (.fin (X i f)) (Cent.rowsMean X rows f)) (XR.sub (.fin (X i f)) (Cent.rowsMean X rows f))) := by
    intro rows i
    have hc : ∀ f, (exact K).centroid (VecLib.real K) X rows f = Cent.rowsMean X rows f := by
      intro f
      unfold centroid Cent.rowsMean XR.mean
      rw [exact_div]
      exact congrArg₂ XR.div (foldl_finRange rows (fun a => .fin (X a f))) rfl
    unfold off toCentroid
    simp only [hc, exact_mul, exact_sub]
    unfold VecLib.real XR.sum
    simp only
    rw [List.ofFn_eq_map, List.foldl_map]
  cases Np.tabulateM (fun i => SNN.hood w.part "distance" k k (Cent.selfless X i)) with
  | error e => rfl
  | ok sel =>
    simp only [Except.map, hoff, exact_sub]
    rfl

/-! ### Example: additions in order of the columns -/

/-- Straightforward loops. -/
def VecLib.loop (R : Rounding K) : VecLib K where
  sum l := l.foldl R.add (.fin 0)
  dot x y := (List.zipWith R.mul x y).foldl R.add (.fin 0)
  sq x := (x.map (fun a => R.mul a a)).foldl R.add (.fin 0)

theorem mul_comm' (R : Rounding K) (a b : XR K) : R.mul a b = R.mul b a := by
  unfold mul
  congr 1
  cases a <;> cases b <;> simp [XR.mul, mul_comm]

theorem loop_ok (F : Ieee) : (VecLib.loop (F.rounding K)).Ok F := by
  have hfl : ∀ x y : List (XR K), ∀ a ∈ List.zipWith (F.rounding K).mul x y, (F.rounding K).Float a := by
    intro x y a ha
    obtain ⟨i, hi, rfl⟩ := List.getElem_of_mem ha
    rw [List.getElem_zipWith]
    exact float_up _
  have hsq : ∀ x : List (XR K), (VecLib.loop (F.rounding K)).sq x = (VecLib.loop (F.rounding K)).dot x x := by
    intro x
    unfold VecLib.loop
    simp only
    congr 1
    induction x with
    | nil => rfl
    | cons a x ih => rw [List.map_cons, List.zipWith_cons_cons, ih]
  have hsum : ∀ x y : List (XR K), (F.rounding K).Sums (List.zipWith (F.rounding K).mul x y) ((VecLib.loop (F.rounding K)).dot x y) :=
    fun x y => sums_foldl _ _ (hfl x y)
  have h1 : ∀ a b : XR K, (VecLib.loop (F.rounding K)).dot [a] [b] = (F.rounding K).mul a b := fun a b =>
    sums_one _ _ _ (hsum [a] [b])
  have hint : ∀ x y : List ℤ, inner (x.map (|·|)) (y.map (|·|)) ≤ 2 ^ F.p → (F.p : ℤ) ≤ F.emax →
      (VecLib.loop (F.rounding K)).dot (x.map (fun z : ℤ => .fin (z : K))) (y.map (fun z : ℤ => .fin (z : K))) =
        .fin ((inner x y : ℤ) : K) := by
    intro x y h hp
    have h0 : ∀ x y : List ℤ, 0 ≤ inner (x.map (|·|)) (y.map (|·|)) := by
      intro x
      induction x with
      | nil => intro y; simp [inner]
      | cons a x ih =>
        intro y
        cases y with
        | nil => simp [inner]
        | cons b y =>
          simp only [List.map_cons, inner]
          have := ih y
          have := mul_nonneg (abs_nonneg a) (abs_nonneg b)
          omega
    have key : ∀ x y : List ℤ, inner (x.map (|·|)) (y.map (|·|)) ≤ 2 ^ F.p →
        List.zipWith (F.rounding K).mul (x.map (fun z : ℤ => .fin (z : K))) (y.map (fun z : ℤ => .fin (z : K))) =
          (List.zipWith (· * ·) x y).map (fun z : ℤ => .fin ((z : K) * 2 ^ (0 : ℤ))) ∧
        ((List.zipWith (· * ·) x y).map (|·|)).sum = inner (x.map (|·|)) (y.map (|·|)) ∧
        (List.zipWith (· * ·) x y).sum = inner x y := by
      intro x
      induction x with
      | nil => intro y _; simp [inner]
      | cons a x ih =>
        intro y h
        cases y with
        | nil => simp [inner]
        | cons b y =>
          simp only [List.map_cons, inner] at h
          have hx := h0 x y
          have hab := mul_nonneg (abs_nonneg a) (abs_nonneg b)
          obtain ⟨e1, e2, e3⟩ := ih y (by linarith)
          simp only [List.map_cons, List.zipWith_cons_cons, inner, List.sum_cons, e1, e2, e3, abs_mul, and_true,
            List.cons.injEq]
          have := Ieee.round_intCast (K := K) F (m := a * b) (by rw [abs_mul]; linarith) hp
          rw [zpow_zero, mul_one, ← this]
          change F.round _ = F.round _
          push_cast
          rfl
    obtain ⟨e1, e2, e3⟩ := key x y h
    have hs := hsum (x.map (fun z : ℤ => .fin (z : K))) (y.map (fun z : ℤ => .fin (z : K)))
    rw [e1] at hs
    rw [Ieee.sum_grid F hs (by rw [e2]; exact h) (by have := F.p_pos; have := F.emin_le; omega) (by omega), e3]
    simp
  have hle : ∀ (x y : List K) (e : ℕ), x.length = y.length → x.length ≤ 2 ^ F.p → (F.p : ℤ) + 2 * e ≤ F.emax →
      (∀ a ∈ x, |a| ≤ 2 ^ e) → (∀ a ∈ y, |a| ≤ 2 ^ e) →
      ∃ g, (VecLib.loop (F.rounding K)).dot (x.map .fin) (y.map .fin) = .fin g ∧ F.round g = .fin g ∧
        |g| ≤ x.length * (2 ^ e) ^ 2 := by
    intro x y e hl hp he hx hy
    have hs := hsum (x.map .fin) (y.map .fin)
    have hlen : (List.zipWith (F.rounding K).mul (x.map .fin) (y.map .fin)).length = x.length := by simp [hl]
    obtain ⟨g, hg, g1⟩ := Ieee.sum_abs_le F (e := 2 * e) hs (by rw [hlen]; exact hp) (by push_cast; exact he) (by
      intro a ha
      obtain ⟨i, hi, rfl⟩ := List.getElem_of_mem ha
      simp only [List.length_zipWith, List.length_map] at hi
      simp only [List.getElem_zipWith, List.getElem_map]
      have h2 : |x[i] * y[i]| ≤ 2 ^ (2 * e) := by
        rw [abs_mul, two_mul, pow_add]
        exact mul_le_mul (hx _ (List.getElem_mem _)) (hy _ (List.getElem_mem _)) (abs_nonneg _) (by positivity)
      exact Ieee.round_abs_le F h2 (round_two_pow F (2 * e) (by push_cast; omega)))
    refine ⟨g, hg, ?_, ?_⟩
    · have := sums_float hs (hfl _ _)
      rw [hg] at this
      exact this
    · rw [hlen] at g1
      refine g1.trans (le_of_eq ?_)
      rw [mul_comm 2 e, pow_mul]
  refine ⟨fun l hl => sums_foldl _ l hl, ?_, h1, fun a => by rw [hsq, h1], hint, ?_, hle, ?_⟩
  · intro x y
    unfold VecLib.loop
    simp only
    congr 1
    rw [List.zipWith_comm]
    congr 1
    funext a b
    exact mul_comm' _ _ _
  · intro x h hp
    rw [hsq]
    refine hint x x ?_ hp
    refine le_trans (le_of_eq ?_) h
    clear h
    induction x with
    | nil => rfl
    | cons a x ih => simp only [List.map_cons, inner, ih, abs_mul_abs_self]
  · intro x e hp he hx
    obtain ⟨g, hg, fg, g1⟩ := hle x x e rfl hp he hx hx
    rw [hsq]
    refine ⟨g, hg, fg, ?_, (le_abs_self g).trans g1⟩
    have hs := hsum (x.map .fin) (x.map .fin)
    rw [hg] at hs
    have hlen : (List.zipWith (F.rounding K).mul (x.map .fin) (x.map .fin)).length = x.length := by simp
    obtain ⟨y, hy, y0, -⟩ := Ieee.sum_nonneg_le F (e := 2 * e) hs (by rw [hlen]; exact hp) (by push_cast; exact he) (by
      intro a ha
      obtain ⟨i, hi, rfl⟩ := List.getElem_of_mem ha
      simp only [List.length_zipWith, List.length_map] at hi
      simp only [List.getElem_zipWith, List.getElem_map]
      have h2 : x[i] * x[i] ≤ 2 ^ (2 * e) := by
        rw [← abs_mul_abs_self, two_mul, pow_add]
        exact mul_le_mul (hx _ (List.getElem_mem _)) (hx _ (List.getElem_mem _)) (abs_nonneg _) (by positivity)
      exact Ieee.round_le F (mul_self_nonneg _) h2 (round_two_pow F (2 * e) (by push_cast; omega)))
    rw [XR.fin.inj hy]
    exact y0
end

/-- The hypotheses of `C189_partial` hold for the points of `C189_violated`: asymmetry at most 12288, the entries being near `2^54`. -/
example : ∃ M, (Ieee.double.rounding ℚ).disSimLocal (SNN.revWorld ℚ).part (VecLib.loop (Ieee.double.rounding ℚ)) pairs 1 = .ok M ∧
    ∃ x y, M 0 2 = .fin x ∧ M 2 0 = .fin y ∧ x ≠ y ∧ |x - y| ≤ 192 * 2 ^ (-53 : ℤ) * 2 * 4 ^ 27 := by
  obtain ⟨M, h, -, hb⟩ := C189_partial Ieee.double (VecLib.loop (Ieee.double.rounding ℚ)) (loop_ok _) (SNN.revWorld ℚ).part pairs 1 27
    (by decide +kernel) (by decide +kernel) (by decide) (by decide) (by decide) (by decide) (by decide) (by decide)
  obtain ⟨-, M', h', h1, h2⟩ := C189_violated (VecLib.loop (Ieee.double.rounding ℚ)) (loop_ok _) (SNN.revWorld ℚ).part
  have e : M = M' := Except.ok.inj (h.symm.trans h')
  obtain ⟨x, y, hx, hy, hxy⟩ := hb 0 2 (by decide)
  refine ⟨M, h, x, y, hx, hy, ?_, hxy⟩
  rw [e, h1] at hx
  rw [e, h2] at hy
  rw [← XR.fin.inj hx, ← XR.fin.inj hy]
  norm_num

/-- The hypotheses of `C190_partial` hold for the points 0 and 1 on a line and their translation by `2 ^ 20`. -/
example : Wide Ieee.double 0 ∧ Small Ieee.double (![![0], ![1]] : Fin 2 → Fin 1 → ℤ) (2 ^ 24) 0 ∧
    Small Ieee.double (fun i f => (![![0], ![1]] : Fin 2 → Fin 1 → ℤ) i f + (fun _ => 2 ^ 20 : Fin 1 → ℤ) f) (2 ^ 24) 0 :=
  ⟨⟨by decide, by decide, by decide⟩, ⟨by decide, by decide, by decide, by decide⟩, ⟨by decide, by decide, by decide, by decide⟩⟩

end HubToolbox.Rounding
