import Verif.Approx.Model
import Verif.Tac

/-!
# `enforce_finite_distances`
-/

set_option autoImplicit false

namespace HubToolbox.Approx

open HubToolbox

variable {K : Type} [Field K] [LinearOrder K] [IsStrictOrderedRing K]

theorem mem_ravel {α : Type} {n m : ℕ} {a : Fin n → Fin m → α} {x : α} :
    x ∈ Np.ravel a ↔ ∃ i j, a i j = x := by
  simp [Np.ravel]

theorem foldl_fmin_fin (l : List (XR K)) (hl : ∀ x ∈ l, x.isFinite = true) (a : K) :
    ∃ c, l.foldl XR.fmin (.fin a) = .fin c ∧ c ≤ a ∧ (∀ y, XR.fin y ∈ l → c ≤ y) ∧
      (c = a ∨ XR.fin c ∈ l) := by
  induction l generalizing a with
  | nil => exact ⟨a, rfl, le_rfl, by simp, Or.inl rfl⟩
  | cons x l ih =>
    obtain ⟨y, rfl⟩ := XR.isFinite_iff.1 (hl x (by simp))
    have hm : XR.fmin (.fin a) (.fin y) = XR.fin (min a y) := by
      rcases le_total a y with h | h
      · simp [XR.fmin, min_def, h]
      · rcases eq_or_lt_of_le h with rfl | h'
        · simp [XR.fmin]
        · simp [XR.fmin, min_def, h'.not_ge]
    obtain ⟨c, hc, hca, hcl, hcm⟩ := ih (fun z hz => hl z (by simp [hz])) (min a y)
    refine ⟨c, ?_, hca.trans (min_le_left _ _), ?_, ?_⟩
    · rw [List.foldl_cons, hm, hc]
    · intro z hz
      rcases List.mem_cons.1 hz with h | h
      · cases h; exact hca.trans (min_le_right _ _)
      · exact hcl z h
    · rcases hcm with h | h
      · rcases min_choice a y with h' | h'
        · exact Or.inl (h.trans h')
        · exact Or.inr (by rw [h, h']; simp)
      · exact Or.inr (by simp [h])

theorem foldl_fmax_fin (l : List (XR K)) (hl : ∀ x ∈ l, x.isFinite = true) (a : K) :
    ∃ c, l.foldl XR.fmax (.fin a) = .fin c ∧ a ≤ c ∧ (∀ y, XR.fin y ∈ l → y ≤ c) ∧
      (c = a ∨ XR.fin c ∈ l) := by
  induction l generalizing a with
  | nil => exact ⟨a, rfl, le_rfl, by simp, Or.inl rfl⟩
  | cons x l ih =>
    obtain ⟨y, rfl⟩ := XR.isFinite_iff.1 (hl x (by simp))
    have hm : XR.fmax (.fin a) (.fin y) = XR.fin (max a y) := by
      rcases le_total a y with h | h
      · simp [XR.fmax, max_def, h]
      · rcases eq_or_lt_of_le h with rfl | h'
        · simp [XR.fmax]
        · simp [XR.fmax, max_def, h'.not_ge]
    obtain ⟨c, hc, hca, hcl, hcm⟩ := ih (fun z hz => hl z (by simp [hz])) (max a y)
    refine ⟨c, ?_, (le_max_left _ _).trans hca, ?_, ?_⟩
    · rw [List.foldl_cons, hm, hc]
    · intro z hz
      rcases List.mem_cons.1 hz with h | h
      · cases h; exact (le_max_right _ _).trans hca
      · exact hcl z h
    · rcases hcm with h | h
      · rcases max_choice a y with h' | h'
        · exact Or.inl (h.trans h')
        · exact Or.inr (by rw [h, h']; simp)
      · exact Or.inr (by simp [h])

theorem amin_fin (l : List (XR K)) (hl : ∀ x ∈ l, x.isFinite = true) (hne : l ≠ []) :
    ∃ c, Np.amin l = some (.fin c) ∧ XR.fin c ∈ l ∧ ∀ y, XR.fin y ∈ l → c ≤ y := by
  cases l with
  | nil => exact absurd rfl hne
  | cons x l =>
    obtain ⟨a, rfl⟩ := XR.isFinite_iff.1 (hl x (by simp))
    obtain ⟨c, hc, hca, hcl, hcm⟩ := foldl_fmin_fin l (fun z hz => hl z (by simp [hz])) a
    refine ⟨c, by simp [Np.amin, hc], ?_, ?_⟩
    · rcases hcm with rfl | h
      · simp
      · simp [h]
    · intro y hy
      rcases List.mem_cons.1 hy with h | h
      · cases h; exact hca
      · exact hcl y h

theorem amax_fin (l : List (XR K)) (hl : ∀ x ∈ l, x.isFinite = true) (hne : l ≠ []) :
    ∃ c, Np.amax l = some (.fin c) ∧ XR.fin c ∈ l ∧ ∀ y, XR.fin y ∈ l → y ≤ c := by
  cases l with
  | nil => exact absurd rfl hne
  | cons x l =>
    obtain ⟨a, rfl⟩ := XR.isFinite_iff.1 (hl x (by simp))
    obtain ⟨c, hc, hca, hcl, hcm⟩ := foldl_fmax_fin l (fun z hz => hl z (by simp [hz])) a
    refine ⟨c, by simp [Np.amax, hc], ?_, ?_⟩
    · rcases hcm with rfl | h
      · simp
      · simp [h]
    · intro y hy
      rcases List.mem_cons.1 hy with h | h
      · cases h; exact hca
      · exact hcl y h

/-- Everything about the result: a constant shift of the matrix with a substitute for the non-finite entries. -/
theorem enforce_char {n m : ℕ} (arr : Fin n → Fin m → XR K) (hn : 0 < n) (hm : 0 < m) :
    ∃ (dMax shift : K) (v : Fin n → Fin m → K),
      enforceFinite arr = .ok (fun i j => .fin (v i j + shift)) ∧
      (∀ i j x, arr i j = .fin x → v i j = x) ∧
      (∀ i j, (arr i j).isFinite = false → v i j = dMax) ∧
      (∀ i j, v i j ≤ dMax ∨ ∀ i j, (arr i j).isFinite = true) ∧
      (∀ i j, 0 ≤ v i j + shift) ∧ 0 ≤ shift ∧
      (shift = 0 ∨ ∃ i j, arr i j = .fin (-shift)) ∧
      ((∀ i j, (arr i j).isFinite = false) → dMax = 1) := by
  classical
  let finite := (Np.ravel arr).filter (fun x => x.isFinite)
  have hfin : ∀ x ∈ finite, x.isFinite = true := fun x hx => (List.mem_filter.1 hx).2
  have hfm : ∀ i j x, arr i j = .fin x → XR.fin x ∈ finite := fun i j x h =>
    List.mem_filter.2 ⟨mem_ravel.2 ⟨i, j, h⟩, rfl⟩
  -- the maximum
  obtain ⟨dMax, hd, hdmax, hdall, hdmem⟩ : ∃ d : K, (Np.amax finite).getD (.fin 1) = .fin d ∧
      (∀ i j x, arr i j = .fin x → x ≤ d) ∧ ((∀ i j, (arr i j).isFinite = false) → d = 1) ∧
      ((∃ i j, arr i j = .fin d) ∨ d = 1) := by
    by_cases hne : finite = []
    · refine ⟨1, by simp [hne, Np.amax], ?_, fun _ => rfl, Or.inr rfl⟩
      intro i j x h
      have := hfm i j x h
      rw [hne] at this; simp at this
    · obtain ⟨c, hc, hcm, hcl⟩ := amax_fin finite hfin hne
      have hcm' := mem_ravel.1 (List.mem_filter.1 hcm).1
      refine ⟨c, by simp [hc], fun i j x h => hcl x (hfm i j x h), ?_, Or.inl hcm'⟩
      intro h
      obtain ⟨i, j, hij⟩ := hcm'
      have := h i j
      rw [hij] at this; simp at this
  let v : Fin n → Fin m → K := fun i j => match arr i j with
    | .fin x => x
    | _ => dMax
  have hv1 : ∀ i j x, arr i j = .fin x → v i j = x := by
    intro i j x h; simp only [v, h]
  have hv2 : ∀ i j, (arr i j).isFinite = false → v i j = dMax := by
    intro i j h
    revert h
    simp only [v]
    cases arr i j <;> simp
  -- the replaced matrix
  have hrep : (if (Np.ravel arr).filter (fun x => !x.isFinite) = [] then arr else
      fun i => Np.replaceNonFinite (arr i) ((Np.amax finite).getD (.fin 1))) = fun i j => XR.fin (v i j) := by
    split
    · next h =>
      funext i j
      have : (arr i j).isFinite = true := by
        by_contra hc
        have hmem : arr i j ∈ (Np.ravel arr).filter (fun x => !x.isFinite) :=
          List.mem_filter.2 ⟨mem_ravel.2 ⟨i, j, rfl⟩, by simp [hc]⟩
        rw [h] at hmem; simp at hmem
      obtain ⟨x, hx⟩ := XR.isFinite_iff.1 this
      rw [hv1 i j x hx, hx]
    · funext i j
      rw [hd]
      unfold Np.replaceNonFinite
      split
      · next h =>
        obtain ⟨x, hx⟩ := XR.isFinite_iff.1 h
        rw [hv1 i j x hx, hx]
      · next h => rw [hv2 i j (by simpa using h)]
  have hne : Np.ravel (fun i j => XR.fin (v i j)) ≠ [] := by
    intro h
    have : XR.fin (v ⟨0, hn⟩ ⟨0, hm⟩) ∈ Np.ravel (fun i j => XR.fin (v i j)) := mem_ravel.2 ⟨_, _, rfl⟩
    rw [h] at this; simp at this
  obtain ⟨c, hc, hcm, hcl⟩ := amin_fin (Np.ravel (fun i j => XR.fin (v i j)))
    (by intro x hx; obtain ⟨i, j, rfl⟩ := mem_ravel.1 hx; rfl) hne
  obtain ⟨ci, cj, hcij⟩ := mem_ravel.1 hcm
  have hcl' : ∀ i j, c ≤ v i j := fun i j => hcl _ (mem_ravel.2 ⟨i, j, rfl⟩)
  have hvd : ∀ i j, v i j ≤ dMax ∨ ∀ i j, (arr i j).isFinite = true := by
    intro i j
    left
    cases h : (arr i j).isFinite with
    | true =>
      obtain ⟨x, hx⟩ := XR.isFinite_iff.1 h
      rw [hv1 i j x hx]; exact hdmax i j x hx
    | false => exact (hv2 i j h).le
  have hE : enforceFinite arr = (if XR.flt (.fin c : XR K) (.fin 0)
      then .ok (fun i j => XR.add (XR.fin (v i j)) (XR.neg (.fin c)))
      else .ok (fun i j => XR.fin (v i j))) := by
    unfold enforceFinite
    simp only
    rw [hrep, hc]
  by_cases hneg : c < 0
  · refine ⟨dMax, -c, v, ?_, hv1, hv2, hvd, ?_, by linarith, ?_, hdall⟩
    · rw [hE, if_pos (by simpa [XR.flt] using hneg)]
      rfl
    · intro i j; have := hcl' i j; linarith
    · right
      cases h : (arr ci cj).isFinite with
      | true =>
        obtain ⟨x, hx⟩ := XR.isFinite_iff.1 h
        refine ⟨ci, cj, ?_⟩
        rw [hx, neg_neg, ← XR.fin.inj hcij, hv1 ci cj x hx]
      | false =>
        have hcd : dMax = c := by rw [← XR.fin.inj hcij, hv2 ci cj h]
        rcases hdmem with ⟨i, j, hij⟩ | h1
        · exact ⟨i, j, by rw [hij, hcd, neg_neg]⟩
        · rw [h1] at hcd; linarith
  · refine ⟨dMax, 0, v, ?_, hv1, hv2, hvd, ?_, le_rfl, Or.inl rfl, hdall⟩
    · rw [hE, if_neg (by simpa [XR.flt] using hneg)]
      simp
    · intro i j; have := hcl' i j; linarith [not_lt.1 hneg]

/-- C49: `enforce_finite_distances` succeeds for every non-empty matrix, whatever special values it contains. -/
theorem C49_total {n m : ℕ} (arr : Fin n → Fin m → XR K) (hn : 0 < n) (hm : 0 < m) :
    ∃ out, enforceFinite arr = .ok out := by
  obtain ⟨_, _, v, h, _⟩ := enforce_char arr hn hm
  exact ⟨_, h⟩

/-- C49: every entry of the result is finite and not negative. -/
theorem C49_finite_nonneg {n m : ℕ} (arr out : Fin n → Fin m → XR K) (h : enforceFinite arr = .ok out)
    (i : Fin n) (j : Fin m) : ∃ x : K, out i j = .fin x ∧ 0 ≤ x := by
  obtain ⟨_, s, v, h', _, _, _, h0, _⟩ := enforce_char arr i.pos j.pos
  rw [h'] at h; cases h
  exact ⟨_, rfl, h0 i j⟩

/-- C49: distances which were finite keep their order, even their differences. -/
theorem C49_order {n m : ℕ} (arr out : Fin n → Fin m → XR K) (h : enforceFinite arr = .ok out)
    {i k : Fin n} {j l : Fin m} {x y : K} (hx : arr i j = .fin x) (hy : arr k l = .fin y) :
    ∃ x' y' : K, out i j = .fin x' ∧ out k l = .fin y' ∧ x' - y' = x - y ∧ (x' ≤ y' ↔ x ≤ y) := by
  obtain ⟨_, s, v, h', h1, _⟩ := enforce_char arr i.pos j.pos
  rw [h'] at h; cases h
  refine ⟨_, _, rfl, rfl, ?_, ?_⟩
  · rw [h1 i j x hx, h1 k l y hy]; ring
  · rw [h1 i j x hx, h1 k l y hy]; constructor <;> intro hh <;> linarith

/-- C49: what was not finite is now at the maximum of the whole result; if nothing was finite, everything is one. -/
theorem C49_maximum {n m : ℕ} (arr out : Fin n → Fin m → XR K) (h : enforceFinite arr = .ok out)
    {i : Fin n} {j : Fin m} (hx : (arr i j).isFinite = false) :
    (∀ k l, out k l ≤ out i j) ∧ ((∀ k l, (arr k l).isFinite = false) → out i j = .fin 1) := by
  obtain ⟨d, s, v, h', h1, h2, h3, h0, hs, hs', hd⟩ := enforce_char arr i.pos j.pos
  rw [h'] at h; cases h
  constructor
  · intro k l
    simp only [XR.fin_le_fin]
    rcases h3 k l with h | h
    · rw [h2 i j hx]; linarith
    · rw [h i j] at hx; simp at hx
  · intro hall
    have h0 : s = 0 := by
      rcases hs' with h | ⟨a, b, hab⟩
      · exact h
      · have := hall a b; rw [hab] at this; simp at this
    change XR.fin (v i j + s) = _
    rw [h2 i j hx, hd hall, h0, add_zero]

/-- C115: a matrix which is already finite and not negative is returned unchanged. -/
theorem C115_noop {n m : ℕ} (x : Fin n → Fin m → K) (hn : 0 < n) (hm : 0 < m) (h0 : ∀ i j, 0 ≤ x i j) :
    enforceFinite (fun i j => .fin (x i j)) = .ok (fun i j => .fin (x i j)) := by
  obtain ⟨_, s, v, h', h1, _, _, _, hs, hs', _⟩ := enforce_char (fun i j => XR.fin (x i j)) hn hm
  rw [h']
  have : s = 0 := by
    rcases hs' with h | ⟨a, b, hab⟩
    · exact h
    · have := XR.fin.inj hab
      have := h0 a b
      linarith
  refine congrArg Except.ok (funext fun i => funext fun j => ?_)
  rw [h1 i j _ rfl, this, add_zero]

/-- C115: a second application changes nothing. -/
theorem C115_idempotent {n m : ℕ} (arr out : Fin n → Fin m → XR K) (h : enforceFinite arr = .ok out) :
    enforceFinite out = .ok out := by
  rcases Nat.eq_zero_or_pos n with rfl | hn
  · have : enforceFinite arr = .error .valueError := by simp [enforceFinite, Np.ravel, Np.amin]
    rw [this] at h; cases h
  rcases Nat.eq_zero_or_pos m with rfl | hm
  · have : enforceFinite arr = .error .valueError := by simp [enforceFinite, Np.ravel, Np.amin]
    rw [this] at h; cases h
  obtain ⟨_, s, v, h', _, _, _, h0, _⟩ := enforce_char arr hn hm
  rw [h'] at h; cases h
  exact C115_noop _ hn hm h0

/-- C115: the smallest possible shift is applied: none without negative distances, otherwise the smallest distance
becomes zero. -/
theorem C115_shift {n m : ℕ} (arr out : Fin n → Fin m → XR K) (h : enforceFinite arr = .ok out) :
    ((∀ i j x, arr i j = .fin x → 0 ≤ x) → ∀ i j x, arr i j = .fin x → out i j = .fin x) ∧
      ((∃ i j x, arr i j = .fin x ∧ x < 0) → ∃ k l, out k l = .fin 0) := by
  constructor
  · intro hpos i j x hx
    obtain ⟨_, s, v, h', h1, _, _, _, hs, hs', _⟩ := enforce_char arr i.pos j.pos
    rw [h'] at h; cases h
    change XR.fin (v i j + s) = _
    rcases hs' with h | ⟨a, b, hab⟩
    · rw [h1 i j x hx, h, add_zero]
    · have := hpos a b _ hab
      rw [h1 i j x hx, show s = 0 by linarith, add_zero]
  · rintro ⟨i, j, x, hx, hneg⟩
    obtain ⟨_, s, v, h', h1, _, _, h0, hs, hs', _⟩ := enforce_char arr i.pos j.pos
    rw [h'] at h; cases h
    rcases hs' with h | ⟨a, b, hab⟩
    · have := h0 i j
      rw [h1 i j x hx, h] at this; linarith
    · refine ⟨a, b, ?_⟩
      change XR.fin (v a b + s) = _
      rw [h1 a b _ hab, neg_add_cancel]

/-- A matrix with all kinds of special values and a negative distance. -/
def mixed : Fin 2 → Fin 3 → XR ℚ := ![![.fin 2, .nan, .fin (-1)], ![.pinf, .ninf, .fin 5]]

example : enforceFinite mixed = .ok ![![.fin 3, .fin 6, .fin 0], ![.fin 6, .fin 6, .fin 6]] := by
  have : (enforceFinite mixed).toOption.map (fun (a : Fin 2 → Fin 3 → XR ℚ) => (List.ofFn fun i => List.ofFn (a i))) =
      some [[.fin 3, .fin 6, .fin 0], [.fin 6, .fin 6, .fin 6]] := by decide +kernel
  obtain ⟨out, h⟩ := C49_total mixed (by decide) (by decide)
  rw [h] at this ⊢
  simp only [Except.toOption, Option.map_some, Option.some.injEq] at this
  refine congrArg Except.ok ?_
  have e : ∀ i, List.ofFn (out i) = List.ofFn
      ((![![.fin 3, .fin 6, .fin 0], ![.fin 6, .fin 6, .fin 6]] : Fin 2 → Fin 3 → XR ℚ) i) := by
    have h2 : List.ofFn (fun i => List.ofFn (out i)) = List.ofFn (fun i => List.ofFn
        ((![![.fin 3, .fin 6, .fin 0], ![.fin 6, .fin 6, .fin 6]] : Fin 2 → Fin 3 → XR ℚ) i)) := this
    exact fun i => congrFun (List.ofFn_injective h2) i
  exact funext fun i => List.ofFn_injective (e i)

example : enforceFinite (fun _ _ => .nan : Fin 2 → Fin 2 → XR ℚ) = .ok (fun _ _ => .fin 1) := by
  obtain ⟨out, h⟩ := C49_total (fun _ _ => .nan : Fin 2 → Fin 2 → XR ℚ) (by decide) (by decide)
  rw [h]
  exact congrArg Except.ok (funext fun i => funext fun j =>
    (C49_maximum _ out h (i := i) (j := j) rfl).2 (fun _ _ => rfl))

end HubToolbox.Approx
