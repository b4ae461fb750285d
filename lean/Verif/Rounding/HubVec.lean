import Verif.Rounding.HubVecModel
import Verif.Rounding.Euclid
import Verif.Rounding.GkProps
import Verif.HubClass.Neighbours

/-!
# C260: class `Hubness` on vectors in double precision

scikit-learn computes squared distances from norms and inner products. Differences of squared distances smaller than a multiple of the
squared norms are lost, and a vector need not be nearest to itself.
-/

set_option autoImplicit false

namespace HubToolbox.Spec

/-- Nearest neighbours up to a tolerance: `k` different candidates, no other candidate is nearer by more than `tol` than a listed one, and
the list is sorted up to `tol`. -/
structure IsKnnWithin {m : ℕ} (cand : Fin m → Prop) (d : Fin m → ℝ) (tol : ℝ) (k : ℕ) (L : List (Fin m)) : Prop where
  length : L.length = k
  distinct : L.Nodup
  cands : ∀ a ∈ L, cand a
  sorted : L.Pairwise (fun a b => d a ≤ d b + tol)
  best : ∀ a ∈ L, ∀ b, cand b → b ∉ L → d a ≤ d b + tol

end HubToolbox.Spec

namespace HubToolbox.Rounding

open HubToolbox.Ieee (double)
open HubClass Spec Hubness

/-- What is assumed of the products: floats with the usual error bound of inner products, whatever the order of additions. -/
structure Products.Near {n m p : ℕ} (X : Fin n → Fin p → ℝ) (Y : Fin m → Fin p → ℝ) (L : Products ℝ n m) : Prop where
  dot : ∀ i j, ∃ v, L.dot i j = .fin v ∧ double.round v = .fin v ∧
    |v - ∑ f, X i f * Y j f| ≤ ((1 + u) ^ p - 1) * ∑ f, |X i f * Y j f|
  sqX : ∀ i, ∃ v, L.sqX i = .fin v ∧ double.round v = .fin v ∧
    |v - ∑ f, X i f * X i f| ≤ ((1 + u) ^ p - 1) * ∑ f, |X i f * X i f|
  sqY : ∀ j, ∃ v, L.sqY j = .fin v ∧ double.round v = .fin v ∧
    |v - ∑ f, Y j f * Y j f| ≤ ((1 + u) ^ p - 1) * ∑ f, |Y j f * Y j f|

/-- Rounded products added in any order meet the assumption. -/
theorem Products.near_of_someOrder {n m p : ℕ} (hp : p ≤ 2 ^ 46) (X : Fin n → Fin p → ℝ) (Y : Fin m → Fin p → ℝ) (L : Products ℝ n m)
    (hX : ∀ i f, Within (-400) 400 (X i f)) (hY : ∀ j f, Within (-400) 400 (Y j f))
    (hdot : ∀ i j, (double.rounding ℝ).Sums (List.ofFn fun f => (double.rounding ℝ).mul (.fin (X i f)) (.fin (Y j f))) (L.dot i j))
    (hsqX : ∀ i, (double.rounding ℝ).Sums (List.ofFn fun f => (double.rounding ℝ).mul (.fin (X i f)) (.fin (X i f))) (L.sqX i))
    (hsqY : ∀ j, (double.rounding ℝ).Sums (List.ofFn fun f => (double.rounding ℝ).mul (.fin (Y j f)) (.fin (Y j f))) (L.sqY j)) :
    L.Near X Y := by
  have key : ∀ x y : ℝ, Within (-400) 400 x → Within (-400) 400 y → Within (-900) 900 (x * y) := fun x y hx hy =>
    within_mono (within_mul hx hy) (by norm_num) (by norm_num)
  exact ⟨fun i j => products_error hp (X i) (Y j) (fun f => key _ _ (hX i f) (hY j f)) (hdot i j),
    fun i => products_error hp (X i) (X i) (fun f => key _ _ (hX i f) (hX i f)) (hsqX i),
    fun j => products_error hp (Y j) (Y j) (fun f => key _ _ (hY j f) (hY j f)) (hsqY j)⟩

/-- The error of squared distances for vectors whose squared norm is at most `B`, each feature adding a rounding error. -/
noncomputable def tol (p : ℕ) (B : ℝ) : ℝ := (p + 2) * 2 ^ (-50 : ℤ) * B

theorem sqDistances_near {n m p : ℕ} (hp : p ≤ 2 ^ 45) {X : Fin n → Fin p → ℝ} {Y : Fin m → Fin p → ℝ} {L : Products ℝ n m} (hL : L.Near X Y)
    {B : ℝ} (hB : B ≤ 2 ^ (900 : ℤ)) (hX : ∀ i, ∑ f, X i f ^ 2 ≤ B) (hY : ∀ j, ∑ f, Y j f ^ 2 ≤ B) (i : Fin n) (j : Fin m) :
    ∃ z, (double.rounding ℝ).sqDistances L i j = .fin z ∧ |z - ∑ f, (X i f - Y j f) ^ 2| ≤ tol p B := by
  obtain ⟨g, eg, fg, hg⟩ := hL.dot i j
  obtain ⟨a', ea, fa, ha⟩ := hL.sqX i
  obtain ⟨b', eb, fb, hb⟩ := hL.sqY j
  have hu := u_pos
  have hp' : p ≤ 2 ^ 46 := hp.trans (by norm_num)
  have hw := du_le (d := p + 1) ((Nat.add_le_add_right hp 1).trans (by norm_num))
  push_cast at hw
  set a := ∑ f, X i f ^ 2 with hadef
  set b := ∑ f, Y j f ^ 2 with hbdef
  set A := ∑ f, |X i f * Y j f| with hA
  set s := ∑ f, X i f * Y j f with hs
  have ea1 : ∑ f, X i f * X i f = a := Finset.sum_congr rfl fun f _ => (pow_two _).symm
  have eb1 : ∑ f, Y j f * Y j f = b := Finset.sum_congr rfl fun f _ => (pow_two _).symm
  have ea2 : ∑ f, |X i f * X i f| = a := Finset.sum_congr rfl fun f _ => by rw [abs_mul_self, pow_two]
  have eb2 : ∑ f, |Y j f * Y j f| = b := Finset.sum_congr rfl fun f _ => by rw [abs_mul_self, pow_two]
  rw [ea1, ea2] at ha
  rw [eb1, eb2] at hb
  have ha0 : 0 ≤ a := Finset.sum_nonneg fun f _ => sq_nonneg _
  have hb0 : 0 ≤ b := Finset.sum_nonneg fun f _ => sq_nonneg _
  have hA0 : 0 ≤ A := Finset.sum_nonneg fun f _ => abs_nonneg _
  have hsA : |s| ≤ A := Finset.abs_sum_le_sum_abs _ _
  have hAab : 2 * A ≤ a + b := by
    rw [hA, hadef, hbdef, Finset.mul_sum, ← Finset.sum_add_distrib]
    refine Finset.sum_le_sum fun f _ => ?_
    rw [abs_mul, ← sq_abs (X i f), ← sq_abs (Y j f)]
    nlinarith [sq_nonneg (|X i f| - |Y j f|)]
  have haB := hX i
  have hbB := hY j
  have hB0 : 0 ≤ B := ha0.trans haB
  have hd : ∑ f, (X i f - Y j f) ^ 2 = -2 * s + a + b := by
    rw [hs, hadef, hbdef, Finset.mul_sum, ← Finset.sum_add_distrib, ← Finset.sum_add_distrib]
    exact Finset.sum_congr rfl fun f _ => by ring
  have hd0 : 0 ≤ ∑ f, (X i f - Y j f) ^ 2 := Finset.sum_nonneg fun f _ => sq_nonneg _
  rw [hd] at hd0 ⊢
  -- powers
  set q := (1 + u) ^ p with hq
  have hq1 : 1 ≤ q := one_le_pow₀ (by linarith)
  have hQ : q * (1 + u) ^ 2 ≤ 1 / (1 - (p + 2) * u) := by
    rw [hq, ← pow_add]
    have := pow_le (m := p + 2) (by push_cast; linarith)
    push_cast at this
    exact this
  have hm0 : 0 < (p : ℝ) + 2 := by positivity
  have hmu : ((p : ℝ) + 2) * u ≤ 1 / 64 := by linarith
  have hQ2 : q * (1 + u) ^ 2 - 1 ≤ 2 * ((p + 2) * u) := by
    have : 1 / (1 - (p + 2) * u) ≤ 1 + 2 * ((p + 2) * u) := by
      rw [div_le_iff₀ (by linarith)]
      nlinarith [mul_nonneg hm0.le hu.le]
    linarith
  have hqQ : q ≤ q * (1 + u) ^ 2 := le_mul_of_one_le_right (by linarith) (one_le_pow₀ (by linarith))
  have hq2 : q * (1 + u) ^ 2 ≤ 2 := by linarith
  -- sizes
  have hgA : |g| ≤ q * A := by
    have := abs_add_le (g - s) s
    rw [sub_add_cancel] at this
    linarith
  have haq : |a'| ≤ q * a := by
    have := abs_add_le (a' - a) a
    rw [sub_add_cancel, abs_of_nonneg ha0] at this
    linarith
  have hbq : |b'| ≤ q * b := by
    have := abs_add_le (b' - b) b
    rw [sub_add_cancel, abs_of_nonneg hb0] at this
    linarith
  have hbig : 16 * B ≤ 2 ^ double.emax := by
    have : (16 : ℝ) * 2 ^ (900 : ℤ) ≤ 2 ^ double.emax := by
      rw [show (16 : ℝ) = 2 ^ (4 : ℤ) by norm_num, ← zpow_add₀ two_ne_zero]
      exact zpow_le_zpow_right₀ one_le_two (by decide)
    linarith
  have hS : 2 * |g| + |a'| + |b'| ≤ q * (2 * A + a + b) := by linarith
  have hS4 : 2 * A + a + b ≤ 4 * B := by linarith
  have hS0 : 0 ≤ 2 * A + a + b := by linarith
  have h2g : |2 * g| ≤ 2 ^ double.emax := by
    rw [abs_mul, abs_two]
    have : q * (2 * A + a + b) ≤ 2 * (4 * B) := mul_le_mul (hqQ.trans hq2) hS4 hS0 (by norm_num)
    linarith [abs_nonneg a', abs_nonneg b', abs_nonneg g]
  have f2g := two_mul_float double fg h2g
  have hsums : (double.rounding ℝ).Sums ([-2 * g, a', b'].map .fin)
      ((double.rounding ℝ).add ((double.rounding ℝ).add (.fin (-2 * g)) (.fin a')) (.fin b')) :=
    Or.inr ⟨.node (.node (.leaf (.fin (-2 * g))) (.leaf (.fin a'))) (.leaf (.fin b')), List.Perm.refl _, rfl⟩
  have hsum : ([-2 * g, a', b'].map (|·|)).sum = 2 * |g| + |a'| + |b'| := by
    simp only [List.map_cons, List.map_nil, List.sum_cons, List.sum_nil, abs_mul, abs_neg, abs_two]
    ring
  obtain ⟨v, ev, -, hv⟩ := Ieee.sum_error double hsums (by
    intro x hx
    simp only [List.mem_cons, List.not_mem_nil, or_false] at hx
    rcases hx with rfl | rfl | rfl
    · exact f2g
    · exact fa
    · exact fb) (by
    rw [hsum, show [-2 * g, a', b'].length - 1 = 2 from rfl]
    have h1 : (1 + u) ^ 2 * (2 * |g| + |a'| + |b'|) ≤ (1 + u) ^ 2 * (q * (2 * A + a + b)) := mul_le_mul_of_nonneg_left hS (by positivity)
    have h2 : (q * (1 + u) ^ 2) * (2 * A + a + b) ≤ 2 * (4 * B) := mul_le_mul hq2 hS4 hS0 (by norm_num)
    linarith)
  rw [hsum, show [-2 * g, a', b'].length - 1 = 2 from rfl] at hv
  have hlist : [-2 * g, a', b'].sum = -2 * g + a' + b' := by
    simp only [List.sum_cons, List.sum_nil]
    ring
  rw [hlist] at hv
  have h1 : ((1 + u) ^ 2 - 1) * (2 * |g| + |a'| + |b'|) ≤ ((1 + u) ^ 2 - 1) * (q * (2 * A + a + b)) :=
    mul_le_mul_of_nonneg_left hS (by linarith [one_le_pow₀ (show 1 ≤ 1 + u by linarith) (n := 2)])
  have h2 : |(-2 * g + a' + b') - (-2 * s + a + b)| ≤ (q - 1) * (2 * A + a + b) := by
    have e : (-2 * g + a' + b') - (-2 * s + a + b) = -2 * (g - s) + (a' - a) + (b' - b) := by ring
    rw [e]
    refine (abs_add_three _ _ _).trans ?_
    rw [abs_mul, abs_neg, abs_two]
    linarith
  have h3 : |v - (-2 * s + a + b)| ≤ tol p B := by
    have h4 := abs_sub_le v (-2 * g + a' + b') (-2 * s + a + b)
    have h5 : (q * (1 + u) ^ 2 - 1) * (2 * A + a + b) ≤ 2 * ((p + 2) * u) * (4 * B) :=
      mul_le_mul hQ2 hS4 hS0 (by positivity)
    have h6 : tol p B = 2 * ((p + 2) * u) * (4 * B) := by
      unfold tol
      rw [u_eq, show (2 : ℝ) ^ (-50 : ℤ) = 8 * 2 ^ (-53 : ℤ) by norm_num]
      ring
    rw [h6]
    linarith
  have hz : (double.rounding ℝ).add ((double.rounding ℝ).add ((double.rounding ℝ).mul (.fin (-2)) (L.dot i j)) (L.sqX i)) (L.sqY j) = .fin v := by
    rw [eg, ea, eb, ← ev]
    congr 2
  unfold sqDistances
  rw [hz]
  by_cases hneg : XR.flt (.fin v) (.fin (0 : ℝ))
  · refine ⟨0, if_pos hneg, ?_⟩
    have hv0 : v < 0 := hneg
    rw [abs_of_nonpos (by linarith)]
    have := (abs_le.1 h3).1
    linarith
  · exact ⟨v, if_neg hneg, h3⟩

/-- The result of `fit_transform` in terms of the rows of the computed matrix. -/
theorem fitVectors_ok {K F : Type} [Field K] [LinearOrder K] [Field F] [LinearOrder F] (R : Rounding K) (w : World K) (P : Params F) (k : ℕ)
    (hP : P.k = some (k : ℤ)) (bs : ℕ) (hbs : 1 ≤ bs) (self : Bool) {n m : ℕ} (L : Products K n m) (rows : Fin n → Fin k → Fin m)
    (h : ∀ i, rowNN w.argpart false 1 (if self then 1 else 0) k (R.sqDistances L i) = .ok (rows i)) :
    R.fitVectors w P bs self L = .ok (stats P.hubSize k n m ((List.finRange n).flatMap (asLists rows))) := by
  unfold fitVectors
  rw [hP]
  simp only [Int.toNat_natCast]
  rw [if_neg (by omega), serialNN_ok w.argpart _ k bs (R.sqDistances L) rows h (by omega),
    parallelNN_ok w.argpart _ k bs (R.sqDistances L) rows h (by omega) _ (w.sched_perm n k), ← ravel_eq]
  split <;> rfl

/-- Nearest neighbours for computed distances are nearest neighbours up to twice the error. -/
theorem within_of_computed {m k : ℕ} {cand : Fin m → Prop} {d : Fin m → ℝ} {e : ℝ} {c : Fin m → XR ℝ}
    (hc : ∀ j, ∃ z, c j = .fin z ∧ |z - d j| ≤ e) {L : List (Fin m)} (h : IsKnnAmong cand c k L) : IsKnnWithin cand d (2 * e) k L := by
  have key : ∀ a b, c a ≤ c b → d a ≤ d b + 2 * e := by
    intro a b hab
    obtain ⟨y, hy, hye⟩ := hc a
    obtain ⟨z, hz, hze⟩ := hc b
    rw [hy, hz, XR.fin_le_fin] at hab
    have := (abs_le.1 hye).1
    have := (abs_le.1 hze).2
    linarith
  exact ⟨h.length, h.distinct, h.cands, h.sorted.imp fun hab => key _ _ hab, fun a ha b hb hbL => key _ _ (h.best a ha b hb hbL)⟩

/-- **C260**, what holds: if squared distances of different vectors exceed twice the error, no vector is its own neighbour, and the listed
vectors are nearest up to twice the error. -/
theorem C260_partial {F : Type} [Field F] [LinearOrder F] (w : World ℝ) (P : Params F) (k : ℕ) (hP : P.k = some (k : ℤ)) (bs : ℕ)
    (hbs : 1 ≤ bs) {n p : ℕ} (hk : k + 1 ≤ n) (hp : p ≤ 2 ^ 45) (X : Fin n → Fin p → ℝ) (L : Products ℝ n n) (hL : L.Near X X)
    (B : ℝ) (hB : B ≤ 2 ^ (900 : ℤ)) (hX : ∀ i, ∑ f, X i f ^ 2 ≤ B)
    (hsep : ∀ i j, i ≠ j → 2 * tol p B < ∑ f, (X i f - X j f) ^ 2) :
    ∃ (fit : Fit F) (rows : Fin n → Fin k → Fin n), (double.rounding ℝ).fitVectors w P bs true L = .ok fit ∧
      fit = stats P.hubSize k n n ((List.finRange n).flatMap (asLists rows)) ∧
      ∀ i, IsKnnWithin (fun j => j ≠ i) (fun j => ∑ f, (X i f - X j f) ^ 2) (2 * tol p B) k (List.ofFn (rows i)) := by
  have hc := fun i j => sqDistances_near hp hL hB hX hX i j
  obtain ⟨σ, h1, h2⟩ := rows_of_positions (n := n) (start := 1) (k := k) w.argpart false (fun _ => 1)
      ((double.rounding ℝ).sqDistances L) (by omega)
  refine ⟨_, fun i c => σ i ⟨1 + c.val, by omega⟩, fitVectors_ok _ w P k hP bs hbs true L _ h1, rfl, fun i => ?_⟩
  refine within_of_computed (hc i) (knn_of_positions_one _ (σ i) (by omega) (h2 i) i fun j hj => ?_)
  obtain ⟨y, hy, hye⟩ := hc i i
  obtain ⟨z, hz, hze⟩ := hc i j
  rw [hy, hz, XR.fin_lt_fin]
  have h3 := hsep i j (Ne.symm hj)
  have h4 := (abs_le.1 hye).2
  have h5 := (abs_le.1 hze).1
  have h6 : ∑ f, (X i f - X i f) ^ 2 = 0 := by simp
  linarith

/-- **C260**, neighbours of test objects among training objects: nearest up to twice the error. -/
theorem C260_given_Y {F : Type} [Field F] [LinearOrder F] (w : World ℝ) (P : Params F) (k : ℕ) (hP : P.k = some (k : ℤ)) (bs : ℕ)
    (hbs : 1 ≤ bs) {n m p : ℕ} (hk : k ≤ m) (hp : p ≤ 2 ^ 45) (X : Fin n → Fin p → ℝ) (Y : Fin m → Fin p → ℝ) (L : Products ℝ n m)
    (hL : L.Near X Y) (B : ℝ) (hB : B ≤ 2 ^ (900 : ℤ)) (hX : ∀ i, ∑ f, X i f ^ 2 ≤ B) (hY : ∀ j, ∑ f, Y j f ^ 2 ≤ B) :
    ∃ (fit : Fit F) (rows : Fin n → Fin k → Fin m), (double.rounding ℝ).fitVectors w P bs false L = .ok fit ∧
      fit = stats P.hubSize k n m ((List.finRange n).flatMap (asLists rows)) ∧
      ∀ i, IsKnnWithin (fun _ => True) (fun j => ∑ f, (X i f - Y j f) ^ 2) (2 * tol p B) k (List.ofFn (rows i)) := by
  have hc := fun i j => sqDistances_near hp hL hB hX hY i j
  obtain ⟨σ, h1, h2⟩ := rows_of_positions (n := n) (start := 0) (k := k) w.argpart false (fun _ => 1)
      ((double.rounding ℝ).sqDistances L) (by omega)
  exact ⟨_, fun i c => σ i ⟨0 + c.val, by omega⟩, fitVectors_ok _ w P k hP bs hbs false L _ h1, rfl, fun i =>
    within_of_computed (hc i) (knn_of_positions _ (σ i) (by omega) (h2 i))⟩

/-- Without near ties only the true list is nearest up to the tolerance. -/
theorem knn_of_within {m k : ℕ} {cand : Fin m → Prop} {d : Fin m → ℝ} {t : ℝ} {L : List (Fin m)} (h : IsKnnWithin cand d t k L)
    (hgap : ∀ a b, cand a → cand b → d a < d b → d a + t < d b) : IsKnnAmong cand d k L := by
  have key : ∀ a b, cand a → cand b → d a ≤ d b + t → d a ≤ d b := fun a b ha hb hab =>
    not_lt.1 fun hlt => absurd (hgap b a hb ha hlt) (not_lt.2 hab)
  exact ⟨h.length, h.distinct, h.cands, h.sorted.imp_of_mem fun ha hb hab => key _ _ (h.cands _ ha) (h.cands _ hb) hab,
    fun a ha b hb hbL => key _ _ (h.cands a ha) hb (h.best a ha b hb hbL)⟩

/-- **C260**, without near ties and near duplicates: all results are those of exact arithmetic, whatever the number of processes, the block
sizes, and the implementation of the partial sort and of the matrix product. -/
theorem C260_exact {F : Type} [Field F] [LinearOrder F] (w w' : World ℝ) (P : Params F) (k : ℕ) (hP : P.k = some (k : ℤ))
    (hmet : P.metric = "euclidean") (bs bs' : ℕ) (hbs : 1 ≤ bs) (hbs' : 1 ≤ bs') (shuffle hasSelf : Bool) {n p : ℕ} (hk : k + 1 ≤ n)
    (hp : p ≤ 2 ^ 45) (X : Fin n → Fin p → ℝ) (L : Products ℝ n n) (hL : L.Near X X) (B : ℝ) (hB : B ≤ 2 ^ (900 : ℤ))
    (hX : ∀ i, ∑ f, X i f ^ 2 ≤ B) (hsep : ∀ i j, i ≠ j → 2 * tol p B < ∑ f, (X i f - X j f) ^ 2)
    (hgap : ∀ i a b, a ≠ i → b ≠ i → a ≠ b → 2 * tol p B < |∑ f, (X i f - X a f) ^ 2 - ∑ f, (X i f - X b f) ^ 2|) :
    ∃ fit : Fit F, (double.rounding ℝ).fitVectors w P bs true L = .ok fit ∧
      fitTransform w' P bs' shuffle hasSelf (.vectors n p X none) = .ok fit := by
  obtain ⟨_, rows, h1, rfl, h2⟩ := C260_partial w P k hP bs hbs hk hp X L hL B hB hX hsep
  have ht : 0 ≤ tol p B := by
    have : 0 ≤ B := (Finset.sum_nonneg fun f _ => sq_nonneg _).trans (hX ⟨0, by omega⟩)
    unfold tol
    positivity
  have hne : ∀ i j, i ≠ j → X i ≠ X j := by
    intro i j hij e
    have := hsep i j hij
    rw [e] at this
    simp only [sub_self, ne_eq, OfNat.ofNat_ne_zero, not_false_eq_true, zero_pow, Finset.sum_const_zero] at this
    linarith
  obtain ⟨_, rows', h1', rfl, h2'⟩ := C64_partial w' P k hP hmet bs' hbs' shuffle hasSelf n p X hk hne
  have e : rows = rows' := by
    funext i
    refine List.ofFn_injective ((knn_of_within (h2 i) fun a b ha hb hlt => ?_).unique (h2' i) fun a b ha hb hab => ?_)
    · have := hgap i a b ha hb (fun e => by rw [e] at hlt; exact lt_irrefl _ hlt)
      rw [abs_of_neg (sub_neg.2 hlt)] at this
      linarith
    · by_contra hne
      have := hgap i a b ha hb hne
      rw [hab, sub_self, abs_zero] at this
      linarith
  rw [e] at h1
  exact ⟨_, h1, h1'⟩

/-- **C260** does not hold in general: `2 ^ 30` and `2 ^ 30 + 1` have distance zero as computed, hence one of them is its own neighbour, however
the two products and squares are added up, partial sorts done and processes scheduled. -/
theorem C260_violated {F : Type} [Field F] [LinearOrder F] (w : World ℚ) (P : Params F) (hP : P.k = some 1) (bs : ℕ) (hbs : 1 ≤ bs)
    (L : Products ℚ 2 2)
    (hdot : ∀ i j, (double.rounding ℚ).Sums (List.ofFn fun f => (double.rounding ℚ).mul (.fin (far2 i f)) (.fin (far2 j f))) (L.dot i j))
    (hsqX : ∀ i, (double.rounding ℚ).Sums (List.ofFn fun f => (double.rounding ℚ).mul (.fin (far2 i f)) (.fin (far2 i f))) (L.sqX i))
    (hsqY : ∀ j, (double.rounding ℚ).Sums (List.ofFn fun f => (double.rounding ℚ).mul (.fin (far2 j f)) (.fin (far2 j f))) (L.sqY j)) :
    (∀ i f, double.round (far2 i f) = .fin (far2 i f)) ∧ far2 1 0 - far2 0 0 = 1 ∧
    ∃ fit : Fit F, (double.rounding ℚ).fitVectors w P bs true L = .ok fit ∧ ∃ i : Fin 2, fit.lists[i.val]? = some i.val := by
  refine ⟨by decide +kernel, by decide +kernel, ?_⟩
  have hd : ∀ i, (double.rounding ℚ).sqDistances L i = fun _ => .fin 0 := by
    intro i
    funext j
    have e1 := hdot i j
    have e2 := hsqX i
    have e3 := hsqY j
    rw [List.ofFn_succ, List.ofFn_zero] at e1 e2 e3
    unfold sqDistances
    rw [sums_one _ _ _ e1, sums_one _ _ _ e2, sums_one _ _ _ e3]
    fin_cases i <;> fin_cases j <;> decide +kernel
  obtain ⟨σ, h1, -⟩ := rows_of_positions (n := 2) (start := 1) (k := 1) w.argpart false (fun _ => 1)
      ((double.rounding ℚ).sqDistances L) (by omega)
  have e : σ 0 ⟨1, by omega⟩ = σ 1 ⟨1, by omega⟩ := by
    have h0 := h1 0
    have h1 := h1 1
    rw [hd] at h0 h1
    exact congrFun (Except.ok.inj (h0.symm.trans h1)) 0
  refine ⟨_, fitVectors_ok _ w P 1 hP bs hbs true L _ h1, σ 0 ⟨1, by omega⟩, ?_⟩
  show ((List.finRange 2).flatMap (asLists fun (i : Fin 2) (c : Fin 1) => σ i ⟨1 + c.val, by omega⟩))[(σ 0 ⟨1, by omega⟩).val]? = _
  have hl : (List.finRange 2).flatMap (asLists fun (i : Fin 2) (c : Fin 1) => σ i ⟨1 + c.val, by omega⟩) =
      [(σ 0 ⟨1, by omega⟩).val, (σ 1 ⟨1, by omega⟩).val] := rfl
  rw [hl, ← e]
  generalize σ 0 ⟨1, by omega⟩ = r
  fin_cases r <;> rfl

/-! ### Non-vacuity -/

/-- Products of integers, without any rounding. -/
def intProducts {n p : ℕ} (Z : Fin n → Fin p → ℤ) : Products ℝ n n where
  dot i j := .fin ((∑ f, Z i f * Z j f : ℤ) : ℝ)
  sqX i := .fin ((∑ f, Z i f * Z i f : ℤ) : ℝ)
  sqY j := .fin ((∑ f, Z j f * Z j f : ℤ) : ℝ)

theorem intProducts_near {n p : ℕ} (Z : Fin n → Fin p → ℤ) (hZ : ∀ i j, |∑ f, Z i f * Z j f| ≤ 2 ^ 53) :
    (intProducts Z).Near (fun i f => (Z i f : ℝ)) (fun i f => (Z i f : ℝ)) := by
  have key : ∀ i j, ∃ v, (XR.fin ((∑ f, Z i f * Z j f : ℤ) : ℝ)) = .fin v ∧ double.round v = .fin v ∧
      |v - ∑ f, (Z i f : ℝ) * (Z j f : ℝ)| ≤ ((1 + u) ^ p - 1) * ∑ f, |(Z i f : ℝ) * (Z j f : ℝ)| := by
    intro i j
    refine ⟨_, rfl, Ieee.round_intCast double (hZ i j) (by decide), ?_⟩
    push_cast
    rw [sub_self, abs_zero]
    exact mul_nonneg (sub_nonneg.2 (one_le_pow₀ (by linarith [u_pos]))) (Finset.sum_nonneg fun f _ => abs_nonneg _)
  exact ⟨key, fun i => key i i, fun j => key j j⟩

/-- Three vectors in the plane. -/
def planeZ : Fin 3 → Fin 2 → ℤ := ![![3, 4], ![1, 0], ![-2, 1]]

theorem planeZ_dist (i j : Fin 3) : ∑ f, ((planeZ i f : ℝ) - (planeZ j f : ℝ)) ^ 2 = ((∑ f, (planeZ i f - planeZ j f) ^ 2 : ℤ) : ℝ) := by
  push_cast
  rfl

theorem tol_plane : 2 * tol 2 25 < 1 := by
  unfold tol
  norm_num

theorem plane_le : (25 : ℝ) ≤ 2 ^ (900 : ℤ) :=
  le_trans (by norm_num : (25 : ℝ) ≤ 2 ^ (5 : ℤ)) (zpow_le_zpow_right₀ one_le_two (by norm_num))

theorem planeZ_norm (i : Fin 3) : ∑ f, (planeZ i f : ℝ) ^ 2 ≤ 25 := by
  have h : ∀ i : Fin 3, ∑ f, planeZ i f ^ 2 ≤ 25 := by decide
  exact_mod_cast h i

theorem planeZ_sep (i j : Fin 3) (hij : i ≠ j) : 2 * tol 2 25 < ∑ f, ((planeZ i f : ℝ) - (planeZ j f : ℝ)) ^ 2 := by
  have h : ∀ i j : Fin 3, i ≠ j → 1 ≤ ∑ f, (planeZ i f - planeZ j f) ^ 2 := by decide
  rw [planeZ_dist]
  refine tol_plane.trans_le ?_
  exact_mod_cast h i j hij

theorem planeZ_gap (i a b : Fin 3) (ha : a ≠ i) (hb : b ≠ i) (hab : a ≠ b) : 2 * tol 2 25 <
    |∑ f, ((planeZ i f : ℝ) - (planeZ a f : ℝ)) ^ 2 - ∑ f, ((planeZ i f : ℝ) - (planeZ b f : ℝ)) ^ 2| := by
  have h : ∀ i a b : Fin 3, a ≠ i → b ≠ i → a ≠ b → 1 ≤ |∑ f, (planeZ i f - planeZ a f) ^ 2 - ∑ f, (planeZ i f - planeZ b f) ^ 2| := by
    decide
  rw [planeZ_dist, planeZ_dist]
  refine tol_plane.trans_le ?_
  exact_mod_cast h i a b ha hb hab

example (w w' : World ℝ) := C260_exact w w' (exP 1 2 "euclidean") 1 rfl rfl 64 2 (by norm_num) (by norm_num) true false (by norm_num)
  (by norm_num) (fun i f => (planeZ i f : ℝ)) (intProducts planeZ) (intProducts_near planeZ (by decide)) 25 plane_le planeZ_norm
  planeZ_sep planeZ_gap

example (w : World ℝ) := C260_given_Y w (exP 1 2 "euclidean") 1 rfl 64 (by norm_num) (by norm_num) (by norm_num) (fun i f => (planeZ i f : ℝ))
  (fun i f => (planeZ i f : ℝ)) (intProducts planeZ) (intProducts_near planeZ (by decide)) 25 plane_le planeZ_norm planeZ_norm

/-- Products which are rounded meet the hypotheses of `C260_violated`. -/
example (w : World ℚ) := C260_violated w (exP 1 2 "euclidean") rfl 64 (by norm_num)
  ⟨fun i j => (double.rounding ℚ).mul (.fin (far2 i 0)) (.fin (far2 j 0)), fun i => (double.rounding ℚ).mul (.fin (far2 i 0)) (.fin (far2 i 0)),
    fun i => (double.rounding ℚ).mul (.fin (far2 i 0)) (.fin (far2 i 0))⟩
  (fun _ _ => Or.inr ⟨.leaf _, List.Perm.refl _, rfl⟩) (fun _ => Or.inr ⟨.leaf _, List.Perm.refl _, rfl⟩)
  (fun _ => Or.inr ⟨.leaf _, List.Perm.refl _, rfl⟩)

end HubToolbox.Rounding
