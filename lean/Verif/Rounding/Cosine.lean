import Verif.Rounding.Sum

/-!
# C208: cosine distance in floating point

`cosine_distance` as in `Verif/Dist/Model.lean`, with all results of arithmetic operations rounded.
-/

set_option autoImplicit false

namespace HubToolbox

namespace Rounding

/-- Functions of numpy as computed: square root, sums along rows and inner products (BLAS). -/
structure CosLib (K : Type) where
  sqrt : XR K → XR K
  sum : List (XR K) → XR K
  dot : List (XR K) → List (XR K) → XR K

section
variable {K : Type} [Field K] [LinearOrder K]

/-- A row of `Y = X / np.sqrt(np.sum(X**2, 1))[:, np.newaxis]` (`/repo/hub_toolbox/distances.py` lines 30-31). -/
def cosRow (R : Rounding K) (L : CosLib K) {n d : ℕ} (X : Fin n → Fin d → XR K) (i : Fin n) : List (XR K) :=
  let xn := L.sqrt (L.sum (List.ofFn (fun f => R.mul (X i f) (X i f))))
  List.ofFn (fun f => R.div (X i f) xn)

/-- `1. - Y.dot(Y.T)` with negative values set to zero (`/repo/hub_toolbox/distances.py` lines 33-35). -/
def cosRaw (R : Rounding K) (L : CosLib K) {n d : ℕ} (X : Fin n → Fin d → XR K) (i j : Fin n) : XR K :=
  let v := R.sub (.fin 1) (L.dot (R.cosRow L X i) (R.cosRow L X j))
  if XR.flt v (.fin 0) then .fin 0 else v

/-- `cosine_distance` (`/repo/hub_toolbox/distances.py` lines 28-37): `np.triu(D, 1) + np.triu(D, 1).T`. -/
def cosineDistance (R : Rounding K) (L : CosLib K) {n d : ℕ} (X : Fin n → Fin d → XR K) (i j : Fin n) : XR K :=
  let up : Fin n → Fin n → XR K := fun i j => if i < j then R.cosRaw L X i j else .fin 0
  R.add (up i j) (up j i)

/-- What is assumed of inner products where it matters: products are rounded and added in some order. -/
def CosLib.SomeOrder (R : Rounding K) (L : CosLib K) : Prop :=
  ∀ x y, x.length = y.length → R.Sums (List.zipWith R.mul x y) (L.dot x y)

theorem cosRaw_float (R : Rounding K) (L : CosLib K) {n d : ℕ} (X : Fin n → Fin d → XR K) (i j : Fin n) :
    R.up (R.cosRaw L X i j) = R.cosRaw L X i j := by
  unfold cosRaw
  simp only
  split_ifs
  · exact R.zero
  · exact float_up _

theorem cosineDistance_off (R : Rounding K) (L : CosLib K) {n d : ℕ} (X : Fin n → Fin d → XR K) {i j : Fin n} (h : i < j) :
    R.cosineDistance L X i j = R.cosRaw L X i j := by
  have e : ∀ a : XR K, XR.add a (.fin 0) = a := by intro a; cases a <;> simp [XR.add]
  unfold cosineDistance
  simp only [if_pos h, if_neg (not_lt.2 h.le)]
  unfold add
  rw [e, cosRaw_float]

theorem cosineDistance_symm (R : Rounding K) (L : CosLib K) {n d : ℕ} (X : Fin n → Fin d → XR K) (i j : Fin n) :
    R.cosineDistance L X i j = R.cosineDistance L X j i := add_comm' R _ _

/-- **C208, the part which holds.** Whatever the rounding, the accuracy of square roots and the way inner products are
computed: the matrix is symmetric, its diagonal is zero, and no distance is negative. Missing from the full claim:
`C208_duplicates_violated`, `C208_range_violated` (by how much is bounded in C209). -/
theorem C208_partial (R : Rounding K) (L : CosLib K) {n d : ℕ} (X : Fin n → Fin d → XR K) (i j : Fin n) :
    R.cosineDistance L X i j = R.cosineDistance L X j i ∧
    R.cosineDistance L X i i = .fin 0 ∧
    (R.cosineDistance L X i j = .nan ∨ .fin 0 ≤ R.cosineDistance L X i j) := by
  have hdiag : ∀ i, R.cosineDistance L X i i = .fin 0 := by
    intro i
    unfold cosineDistance
    simp only [lt_irrefl, if_false]
    change R.up (XR.add (.fin 0) (.fin 0)) = _
    simp only [XR.add, add_zero]
    exact R.zero
  have h : ∀ i j : Fin n, R.cosRaw L X i j = .nan ∨ .fin 0 ≤ R.cosRaw L X i j := by
    intro i j
    unfold cosRaw
    simp only
    split_ifs with h
    · exact Or.inr le_rfl
    · by_cases hn : R.sub (.fin 1) (L.dot (R.cosRow L X i) (R.cosRow L X j)) = .nan
      · exact Or.inl hn
      · right
        revert h hn
        generalize R.sub (.fin 1) (L.dot (R.cosRow L X i) (R.cosRow L X j)) = v
        intro h hn
        by_contra hlt
        apply h
        cases v <;> simp_all [XR.flt]
  refine ⟨cosineDistance_symm R L X i j, hdiag i, ?_⟩
  rcases lt_trichotomy i j with hij | rfl | hij
  · rw [cosineDistance_off R L X hij]; exact h i j
  · exact Or.inr (hdiag i ▸ le_rfl)
  · rw [cosineDistance_symm, cosineDistance_off R L X hij]; exact h j i
end

/-! ### Violations in float64 -/

/-- Two data sets: a vector twice, and a vector and its negative. -/
def twice : Fin 2 → Fin 2 → XR ℚ := fun _ => ![.fin 9, .fin 40]
def opposite : Fin 2 → Fin 6 → XR ℚ :=
  ![![.fin 25, .fin 5, .fin 6, .fin 2, .fin 5, .fin 21], ![.fin (-25), .fin (-5), .fin (-6), .fin (-2), .fin (-5), .fin (-21)]]

/-- Two summands can be added in one way only. -/
theorem sums_pair {K : Type} [Field K] [LinearOrder K] {R : Rounding K} {a b s : XR K} (h : R.Sums [a, b] s) : s = R.add a b := by
  rcases h with ⟨h, _⟩ | ⟨t, ht, rfl⟩
  · cases h
  · have hl := ht.length_eq
    cases t with
    | leaf x => simp [SumTree.leaves] at hl
    | node l r =>
      have h1 := l.leaves_pos
      have h2 := r.leaves_pos
      simp only [SumTree.leaves, List.length_append, List.length_cons, List.length_nil] at hl
      cases l with
      | node p q =>
        have := p.leaves_pos
        have := q.leaves_pos
        simp only [SumTree.leaves, List.length_append] at hl
        omega
      | leaf x =>
        cases r with
        | node p q =>
          have := p.leaves_pos
          have := q.leaves_pos
          simp only [SumTree.leaves, List.length_append, List.length_singleton] at hl
          omega
        | leaf y =>
          simp only [SumTree.leaves, List.cons_append, List.nil_append] at ht
          simp only [SumTree.eval]
          have hx : x = a ∨ x = b := by
            have := ht.mem_iff.1 (List.mem_cons_self (a := x))
            simpa using this
          rcases hx with rfl | rfl
          · have := (List.perm_cons x).1 ht
            rw [List.perm_singleton.1 this] at *
            simp_all
          · have := (List.perm_cons x).1 (ht.trans (List.Perm.swap x a []))
            have e := List.perm_singleton.1 this
            simp only [List.cons.injEq, and_true] at e
            rw [e, add_comm']

/-- **C208 (violated).** In float64 two equal vectors (9, 40) have the cosine distance `2 ^ -53`, not zero, in whatever order sums
are computed. -/
theorem C208_duplicates_violated (L : CosLib ℚ) (hsum : ∀ l, (∀ a ∈ l, (Ieee.double.rounding ℚ).Float a) → (Ieee.double.rounding ℚ).Sums l (L.sum l))
    (hdot : L.SomeOrder (Ieee.double.rounding ℚ)) (hsqrt : L.sqrt (.fin 1681) = .fin 41) :
    twice 0 = twice 1 ∧ (Ieee.double.rounding ℚ).cosineDistance L twice 0 1 = .fin (2 ^ (-53 : ℤ)) := by
  refine ⟨rfl, ?_⟩
  set R := Ieee.double.rounding ℚ
  rw [cosineDistance_off R L twice (by decide)]
  have hrow : ∀ i, R.cosRow L twice i = [R.div (.fin 9) (.fin 41), R.div (.fin 40) (.fin 41)] := by
    intro i
    unfold cosRow
    have h : L.sum (List.ofFn (fun f => R.mul (twice i f) (twice i f))) = .fin 1681 := by
      have e : List.ofFn (fun f => R.mul (twice i f) (twice i f)) = [.fin 81, .fin 1600] := by
        revert i; decide +kernel
      rw [e, sums_pair (hsum [.fin 81, .fin 1600] (by unfold Float; decide +kernel))]
      decide +kernel
    simp only [h, hsqrt]
    rfl
  unfold cosRaw
  rw [hrow, hrow, sums_pair (hdot [R.div (.fin 9) (.fin 41), R.div (.fin 40) (.fin 41)]
    [R.div (.fin 9) (.fin 41), R.div (.fin 40) (.fin 41)] rfl)]
  decide +kernel

/-- **C208 (violated).** In float64 the distance of a vector to its negative may be larger than two. -/
theorem C208_range_violated (L : CosLib ℚ) (hsum : ∀ l, L.sum l = l.foldl (Ieee.double.rounding ℚ).add (.fin 0))
    (hdot : ∀ x y, L.dot x y = (List.zipWith (Ieee.double.rounding ℚ).mul x y).foldl (Ieee.double.rounding ℚ).add (.fin 0))
    (hsqrt : L.sqrt (.fin 1156) = .fin 34) :
    (Ieee.double.rounding ℚ).cosineDistance L opposite 0 1 = .fin (2 + 2 ^ (-51 : ℤ)) := by
  set R := Ieee.double.rounding ℚ
  rw [cosineDistance_off R L opposite (by decide)]
  have hrow : ∀ i, R.cosRow L opposite i = List.ofFn (fun f => R.div (opposite i f) (.fin 34)) := by
    intro i
    unfold cosRow
    have h : L.sum (List.ofFn (fun f => R.mul (opposite i f) (opposite i f))) = .fin 1156 := by
      rw [hsum]
      revert i; decide +kernel
    simp only [h, hsqrt]
  unfold cosRaw
  rw [hrow, hrow, hdot]
  decide +kernel

theorem float_products {K : Type} [Field K] [LinearOrder K] (R : Rounding K) (x y : List (XR K)) :
    ∀ a ∈ List.zipWith R.mul x y, R.Float a := by
  induction x generalizing y with
  | nil => simp
  | cons p x ih =>
    cases y with
    | nil => simp
    | cons q y =>
      intro a ha
      rw [List.zipWith_cons_cons, List.mem_cons] at ha
      rcases ha with rfl | ha
      · exact float_up _
      · exact ih y a ha

/-- The hypotheses of the violations can be met: summation from left to right. -/
example : ∃ L : CosLib ℚ, (∀ l, L.sum l = l.foldl (Ieee.double.rounding ℚ).add (.fin 0)) ∧
    (∀ l, (∀ a ∈ l, (Ieee.double.rounding ℚ).Float a) → (Ieee.double.rounding ℚ).Sums l (L.sum l)) ∧
    (∀ x y, L.dot x y = (List.zipWith (Ieee.double.rounding ℚ).mul x y).foldl (Ieee.double.rounding ℚ).add (.fin 0)) ∧
    L.SomeOrder (Ieee.double.rounding ℚ) ∧ L.sqrt (.fin 1681) = .fin 41 ∧ L.sqrt (.fin 1156) = .fin 34 := by
  refine ⟨⟨fun a => if a = .fin 1681 then .fin 41 else .fin 34, fun l => l.foldl (Ieee.double.rounding ℚ).add (.fin 0),
    fun x y => (List.zipWith (Ieee.double.rounding ℚ).mul x y).foldl (Ieee.double.rounding ℚ).add (.fin 0)⟩,
    fun _ => rfl, fun l h => sums_foldl _ l h, fun _ _ => rfl, fun x y _ => sums_foldl _ _ ?_, by simp, by simp⟩
  exact float_products _ x y

end Rounding
end HubToolbox
