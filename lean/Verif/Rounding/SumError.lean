import Verif.Rounding.Sum

/-!
# Error of floating point sums

Additions of floats have no underflow error. A sum of `m` floats, in any order, has at most the error
`((1 + u) ^ (m - 1) - 1) * (sum of the absolute values)` with `u = 2 ^ -p`, unless an intermediate result overflows.
-/

set_option autoImplicit false
set_option linter.unusedSectionVars false

namespace HubToolbox.Ieee
variable {K : Type} [Field K] [LinearOrder K] [FloorRing K] [IsStrictOrderedRing K] (F : Ieee)

/-- Unit roundoff. -/
def ulp (K : Type) [Field K] (F : Ieee) : K := 2 ^ (-(F.p : ℤ))

theorem ulp_pos : 0 < F.ulp K := zpow_pos two_pos _

theorem ulp_le : F.ulp K ≤ 1 / 4 := by
  have : (2 : K) ^ (-(F.p : ℤ)) ≤ 2 ^ (-2 : ℤ) := zpow_le_zpow_right₀ one_le_two (by have := F.p_pos; omega)
  refine this.trans ?_
  norm_num

/-- Floats are the numbers equal to their rounded value. -/
theorem nearest_of_float {x : K} (h : F.round x = .fin x) : F.nearest x = x := by
  unfold round at h
  split_ifs at h
  exact XR.fin.inj h

/-- Floats are multiples of the smallest positive float. -/
theorem float_multiple {x : K} (h : F.round x = .fin x) : ∃ k : ℤ, x = k * 2 ^ (F.emin - (F.p - 1)) := by
  have hs : F.emin - (F.p - 1) ≤ F.spacing x := by
    unfold spacing
    have := le_max_right (Int.log 2 |x|) F.emin
    omega
  obtain ⟨d, hd⟩ := Int.le.dest hs
  refine ⟨even (x / 2 ^ F.spacing x) * 2 ^ d, ?_⟩
  conv_lhs => rw [← nearest_of_float F h]
  unfold nearest
  rw [← hd, zpow_add₀ two_ne_zero, zpow_natCast]
  push_cast
  ring

/-- The relative error of an addition of floats is at most the unit roundoff, even in the subnormal range. -/
theorem abs_add_error {x y : K} (hx : F.round x = .fin x) (hy : F.round y = .fin y) :
    |F.nearest (x + y) - (x + y)| ≤ F.ulp K * |x + y| := by
  rcases eq_or_ne (x + y) 0 with h0 | h0
  · rw [h0, nearest_zero]; simp
  by_cases hl : F.emin ≤ Int.log 2 |x + y|
  · have h1 := abs_nearest_sub F (x + y)
    refine h1.trans ?_
    have hs : F.spacing (x + y) = Int.log 2 |x + y| - (F.p - 1) := by
      unfold spacing; rw [max_eq_left hl]
    have h2 := Int.zpow_log_le_self (b := 2) (r := |x + y|) (by norm_num) (abs_pos.2 h0)
    have e : (2 : K) ^ F.spacing (x + y) / 2 = F.ulp K * 2 ^ Int.log 2 |x + y| := by
      rw [hs]
      unfold ulp
      rw [← zpow_add₀ two_ne_zero, div_eq_iff two_ne_zero, ← zpow_add_one₀ two_ne_zero]
      congr 1
      ring
    rw [e]
    exact mul_le_mul_of_nonneg_left (by simpa using h2) (ulp_pos F).le
  · obtain ⟨a, ha⟩ := float_multiple F hx
    obtain ⟨b, hb⟩ := float_multiple F hy
    have hm : x + y = ((a + b : ℤ) : K) * 2 ^ (F.emin - (F.p - 1)) := by
      push_cast
      rw [add_mul, ← ha, ← hb]
    have hlt : |x + y| < 2 ^ F.emin := by
      have := (Int.lt_zpow_iff_log_lt (b := 2) (r := |x + y|) (x := F.emin) (by norm_num) (abs_pos.2 h0)).2 (by omega)
      simpa using this
    have hb' : |a + b| ≤ 2 ^ F.p := by
      have hpos : (0 : K) < 2 ^ (F.emin - ((F.p : ℤ) - 1)) := zpow_pos two_pos _
      rw [hm, abs_mul, abs_of_pos hpos] at hlt
      have e : (2 : K) ^ F.emin = 2 ^ ((F.p : ℤ) - 1) * 2 ^ (F.emin - ((F.p : ℤ) - 1)) := by
        rw [← zpow_add₀ two_ne_zero]; congr 1; ring
      rw [e] at hlt
      have h3 : |((a + b : ℤ) : K)| < 2 ^ ((F.p : ℤ) - 1) := lt_of_mul_lt_mul_right hlt hpos.le
      have h4 : (2 : K) ^ ((F.p : ℤ) - 1) ≤ 2 ^ (F.p : ℤ) := zpow_le_zpow_right₀ one_le_two (by omega)
      have h5 := (h3.trans_le h4).le
      rw [zpow_natCast] at h5
      exact_mod_cast h5
    have := nearest_rep (K := K) F (m := a + b) (t := F.emin - (F.p - 1)) hb' (by omega)
    rw [hm, this, sub_self, abs_zero]
    exact mul_nonneg (ulp_pos F).le (abs_nonneg _)

/-- Addition of floats whose sum is not too large. -/
theorem add_float {x y : K} (hx : F.round x = .fin x) (hy : F.round y = .fin y) (h : |x + y| ≤ 2 ^ F.emax) :
    ∃ z, (F.rounding K).add (.fin x) (.fin y) = .fin z ∧ F.round z = .fin z ∧ |z - (x + y)| ≤ F.ulp K * |x + y| := by
  have hb : F.round ((2 : K) ^ F.emax) = .fin (2 ^ F.emax) := by
    have h := nearest_rep (K := K) F (m := 1) (t := F.emax) (by simpa using one_le_pow₀ (by norm_num : (1 : ℤ) ≤ 2)) (by
      have := F.p_pos; have := F.emin_le; have := F.le_emax; omega)
    simp only [Int.cast_one, one_mul] at h
    rw [round_of_lt] <;> rw [h]
    rw [abs_of_pos (zpow_pos two_pos _)]
    exact zpow_lt_zpow_right₀ one_lt_two (by omega)
  obtain ⟨z, hz, -⟩ := round_abs_le F h hb
  have hn : z = F.nearest (x + y) := by
    unfold round at hz
    split_ifs at hz
    exact (XR.fin.inj hz).symm
  refine ⟨z, hz, (F.rounding K).idem _ _ hz, ?_⟩
  rw [hn]
  exact abs_add_error F hx hy

theorem neg_float {x : K} (hx : F.round x = .fin x) : F.round (-x) = .fin (-x) := by
  have := (F.rounding K).neg x
  change F.round (-x) = XR.neg (F.round x) at this
  rw [this, hx]; rfl

/-- Error of a sum in any order. -/
theorem sum_error {l : List K} {s : XR K} (h : (F.rounding K).Sums (l.map .fin) s) (hl : ∀ x ∈ l, F.round x = .fin x)
    (hb : (1 + F.ulp K) ^ (l.length - 1) * (l.map (|·|)).sum ≤ 2 ^ F.emax) :
    ∃ v, s = .fin v ∧ F.round v = .fin v ∧ |v - l.sum| ≤ ((1 + F.ulp K) ^ (l.length - 1) - 1) * (l.map (|·|)).sum := by
  rcases h with ⟨h, rfl⟩ | ⟨t, ht, rfl⟩
  · rw [List.map_eq_nil_iff] at h
    subst h
    exact ⟨0, rfl, (F.rounding K).zero, by simp⟩
  -- the leaves as numbers
  obtain ⟨l', hperm, hlv⟩ : ∃ l' : List K, l'.Perm l ∧ t.leaves = l'.map .fin := by
    have hf : ∀ a ∈ t.leaves, ∃ x : K, a = .fin x := by
      intro a ha
      obtain ⟨x, _, rfl⟩ := List.mem_map.1 (ht.mem_iff.1 ha)
      exact ⟨x, rfl⟩
    have : ∃ l' : List K, t.leaves = l'.map .fin := by
      generalize t.leaves = m at hf
      clear ht
      induction m with
      | nil => exact ⟨[], rfl⟩
      | cons a m ih =>
        obtain ⟨x, rfl⟩ := hf a (by simp)
        obtain ⟨l', rfl⟩ := ih (fun a ha => hf a (by simp [ha]))
        exact ⟨x :: l', rfl⟩
    obtain ⟨l', e⟩ := this
    refine ⟨l', ?_, e⟩
    rw [e] at ht
    have hinj : Function.Injective (XR.fin : K → XR K) := fun _ _ h => XR.fin.inj h
    exact (List.map_perm_map_iff hinj).1 ht
  rw [← hperm.length_eq, ← (hperm.map _).sum_eq] at hb
  rw [← hperm.length_eq, ← hperm.sum_eq, ← (hperm.map _).sum_eq]
  replace hl : ∀ x ∈ l', F.round x = .fin x := fun x hx => hl x (hperm.mem_iff.1 hx)
  clear ht hperm
  have hu := ulp_pos (K := K) F
  have h1u : (1 : K) ≤ 1 + F.ulp K := by linarith
  have habs : ∀ l : List K, |l.sum| ≤ (l.map (|·|)).sum := by
    intro l
    induction l with
    | nil => simp
    | cons a l ih =>
      simp only [List.sum_cons, List.map_cons]
      exact (abs_add_le _ _).trans (by linarith)
  have habs0 : ∀ l : List K, 0 ≤ (l.map (|·|)).sum := fun l => (abs_nonneg _).trans (habs l)
  induction t generalizing l' with
  | leaf a =>
    obtain ⟨x, rfl⟩ : ∃ x, l' = [x] := by
      have := congrArg List.length hlv
      simp only [SumTree.leaves, List.length_singleton, List.length_map] at this
      exact List.length_eq_one_iff.1 this.symm
    simp only [SumTree.leaves, List.map_cons, List.map_nil, List.cons.injEq, and_true] at hlv
    subst hlv
    exact ⟨x, rfl, hl x (by simp), by simp⟩
  | node t₁ t₂ h1 h2 =>
    simp only [SumTree.leaves] at hlv
    obtain ⟨l₁, l₂, rfl, e1, e2⟩ := List.map_eq_append_iff.1 hlv.symm
    have p1 : 0 < l₁.length := by have := t₁.leaves_pos; rw [← e1, List.length_map] at this; exact this
    have p2 : 0 < l₂.length := by have := t₂.leaves_pos; rw [← e2, List.length_map] at this; exact this
    simp only [List.map_append, List.sum_append, List.length_append] at hb ⊢
    set A₁ := (l₁.map (|·|)).sum with hA1
    set A₂ := (l₂.map (|·|)).sum with hA2
    have a1 : 0 ≤ A₁ := habs0 l₁
    have a2 : 0 ≤ A₂ := habs0 l₂
    obtain ⟨m, hm⟩ : ∃ m, l₁.length + l₂.length - 1 = m + 1 := ⟨l₁.length + l₂.length - 2, by omega⟩
    rw [hm] at hb ⊢
    have pw : ∀ {i : ℕ}, i ≤ m → (1 + F.ulp K) ^ i ≤ (1 + F.ulp K) ^ m := fun h => pow_le_pow_right₀ h1u h
    have hpm : (1 + F.ulp K) ^ (m + 1) = (1 + F.ulp K) ^ m * (1 + F.ulp K) := pow_succ _ _
    have pm1 : 1 ≤ (1 + F.ulp K) ^ m := one_le_pow₀ h1u
    set P := (1 + F.ulp K) ^ m with hP
    have hPA : P * (A₁ + A₂) ≤ 2 ^ F.emax := by
      refine le_trans ?_ hb
      rw [hpm]
      apply mul_le_mul_of_nonneg_right _ (by linarith)
      nlinarith
    have b1 : (1 + F.ulp K) ^ (l₁.length - 1) * A₁ ≤ 2 ^ F.emax := by
      refine le_trans ?_ hPA
      have := mul_le_mul_of_nonneg_right (pw (i := l₁.length - 1) (by omega)) a1
      nlinarith
    have b2 : (1 + F.ulp K) ^ (l₂.length - 1) * A₂ ≤ 2 ^ F.emax := by
      refine le_trans ?_ hPA
      have := mul_le_mul_of_nonneg_right (pw (i := l₂.length - 1) (by omega)) a2
      nlinarith
    obtain ⟨v, hv, fv, ev⟩ := h1 l₁ b1 e1.symm (fun x hx => hl x (by simp [hx]))
    obtain ⟨w, hw, fw, ew⟩ := h2 l₂ b2 e2.symm (fun x hx => hl x (by simp [hx]))
    rw [← hA1] at ev
    rw [← hA2] at ew
    have ev' : |v - l₁.sum| ≤ (P - 1) * A₁ := by
      refine ev.trans (mul_le_mul_of_nonneg_right ?_ a1)
      have := pw (i := l₁.length - 1) (by omega)
      linarith
    have ew' : |w - l₂.sum| ≤ (P - 1) * A₂ := by
      refine ew.trans (mul_le_mul_of_nonneg_right ?_ a2)
      have := pw (i := l₂.length - 1) (by omega)
      linarith
    have hvw : |v + w - (l₁.sum + l₂.sum)| ≤ (P - 1) * (A₁ + A₂) := by
      have : v + w - (l₁.sum + l₂.sum) = (v - l₁.sum) + (w - l₂.sum) := by ring
      rw [this]
      refine (abs_add_le _ _).trans ?_
      linarith
    have hvw' : |v + w| ≤ P * (A₁ + A₂) := by
      have h3 : |l₁.sum + l₂.sum| ≤ A₁ + A₂ := (abs_add_le _ _).trans (by linarith [habs l₁, habs l₂])
      have : v + w = (v + w - (l₁.sum + l₂.sum)) + (l₁.sum + l₂.sum) := by ring
      rw [this]
      refine (abs_add_le _ _).trans ?_
      linarith
    obtain ⟨z, hz, fz, ez⟩ := add_float F fv fw (hvw'.trans hPA)
    refine ⟨z, by rw [SumTree.eval, hv, hw, hz], fz, ?_⟩
    have : z - (l₁.sum + l₂.sum) = (z - (v + w)) + (v + w - (l₁.sum + l₂.sum)) := by ring
    rw [this]
    refine (abs_add_le _ _).trans ?_
    have h6 := mul_le_mul_of_nonneg_left hvw' hu.le
    rw [hpm]
    nlinarith

/-- Multiples of a power of two with few digits are floats. -/
theorem round_grid {z t : ℤ} (hz : |z| ≤ 2 ^ F.p) (ht : F.emin ≤ t + (F.p - 1)) (he : (F.p : ℤ) + t ≤ F.emax) :
    F.round ((z : K) * 2 ^ t) = .fin (z * 2 ^ t) := by
  have h := nearest_rep (K := K) F hz ht
  rw [round_of_lt] <;> rw [h]
  rw [abs_mul, abs_of_pos (zpow_pos' (K := K) t)]
  have h1 : |(z : K)| * 2 ^ t ≤ 2 ^ ((F.p : ℤ) + t) := by
    rw [zpow_add₀ two_ne_zero, zpow_natCast]
    exact mul_le_mul_of_nonneg_right (by exact_mod_cast hz) (by positivity)
  exact h1.trans_lt (zpow_lt_zpow_right₀ one_lt_two (by omega))

/-- Sums of such numbers are exact in any order. -/
theorem sum_grid {l : List ℤ} {t : ℤ} {s : XR K} (h : (F.rounding K).Sums (l.map (fun z : ℤ => .fin ((z : K) * 2 ^ t))) s)
    (hl : (l.map (|·|)).sum ≤ 2 ^ F.p) (ht : F.emin ≤ t + (F.p - 1)) (he : (F.p : ℤ) + t ≤ F.emax) :
    s = .fin ((l.sum : ℤ) * 2 ^ t) := by
  rcases h with ⟨h, rfl⟩ | ⟨T, hT, rfl⟩
  · rw [List.map_eq_nil_iff] at h
    simp [h]
  have hinj : Function.Injective (fun z : ℤ => (.fin ((z : K) * 2 ^ t) : XR K)) := by
    intro a b h
    have h := mul_right_cancel₀ (zpow_pos' (K := K) t).ne' (XR.fin.inj h)
    exact_mod_cast h
  obtain ⟨l', hperm, hlv⟩ : ∃ l' : List ℤ, l'.Perm l ∧ T.leaves = l'.map (fun z : ℤ => .fin ((z : K) * 2 ^ t)) := by
    have hf : ∀ a ∈ T.leaves, ∃ z : ℤ, a = .fin ((z : K) * 2 ^ t) := by
      intro a ha
      obtain ⟨x, _, rfl⟩ := List.mem_map.1 (hT.mem_iff.1 ha)
      exact ⟨x, rfl⟩
    have : ∃ l' : List ℤ, T.leaves = l'.map (fun z : ℤ => .fin ((z : K) * 2 ^ t)) := by
      generalize T.leaves = m at hf
      clear hT
      induction m with
      | nil => exact ⟨[], rfl⟩
      | cons a m ih =>
        obtain ⟨x, rfl⟩ := hf a (by simp)
        obtain ⟨l', rfl⟩ := ih (fun a ha => hf a (by simp [ha]))
        exact ⟨x :: l', rfl⟩
    obtain ⟨l', e⟩ := this
    refine ⟨l', ?_, e⟩
    rw [e] at hT
    exact (List.map_perm_map_iff hinj).1 hT
  rw [← (hperm.map _).sum_eq] at hl
  rw [← hperm.sum_eq]
  clear hT hperm
  have habs : ∀ l : List ℤ, |l.sum| ≤ (l.map (|·|)).sum := by
    intro l
    induction l with
    | nil => simp
    | cons a l ih =>
      simp only [List.sum_cons, List.map_cons]
      exact (abs_add_le _ _).trans (by linarith)
  have habs0 : ∀ l : List ℤ, 0 ≤ (l.map (|·|)).sum := fun l => (abs_nonneg _).trans (habs l)
  induction T generalizing l' with
  | leaf a =>
    obtain ⟨x, rfl⟩ : ∃ x, l' = [x] := by
      have := congrArg List.length hlv
      simp only [SumTree.leaves, List.length_singleton, List.length_map] at this
      exact List.length_eq_one_iff.1 this.symm
    simp only [SumTree.leaves, List.map_cons, List.map_nil, List.cons.injEq, and_true] at hlv
    simp [SumTree.eval, hlv]
  | node t₁ t₂ h1 h2 =>
    simp only [SumTree.leaves] at hlv
    obtain ⟨l₁, l₂, rfl, e1, e2⟩ := List.map_eq_append_iff.1 hlv.symm
    simp only [List.map_append, List.sum_append] at hl ⊢
    have a1 := habs0 l₁
    have a2 := habs0 l₂
    rw [SumTree.eval, h1 l₁ (by linarith) e1.symm, h2 l₂ (by linarith) e2.symm]
    have hb : |l₁.sum + l₂.sum| ≤ 2 ^ F.p := (abs_add_le _ _).trans (by linarith [habs l₁, habs l₂])
    have := round_grid (K := K) F hb ht he
    change F.round ((l₁.sum : K) * 2 ^ t + (l₂.sum : K) * 2 ^ t) = _
    rw [← add_mul]
    push_cast at this ⊢
    exact this

end HubToolbox.Ieee
