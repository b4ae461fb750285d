import Verif.Dist.Cosine
import Verif.MPPar.Sparse
import Verif.SNN.SimhubProps
import Verif.HubClass.Neighbours

/-!
# Exactly when a result is `nan`, or not as documented

Conditions which are necessary and sufficient: for `nan` in cosine distances (C143), in supervised `simhub` (C77) and in
sparse Gaussian Mutual Proximity (C99), and for hubs which are not as documented (C62).
-/

set_option autoImplicit false

namespace HubToolbox.Dist

open HubToolbox

/-- **C143** (exact): the cosine distance of two vectors is `nan` exactly if they are different rows and one of them is
zero. -/
theorem C143_nan_iff {n d : ℕ} (hd : 0 < d) (X : Fin n → Fin d → ℝ) (i j : Fin n) :
    cosineDistance X i j = .nan ↔ i ≠ j ∧ (X i = 0 ∨ X j = 0) := by
  constructor
  · intro h
    have hij : i ≠ j := by
      rintro rfl
      unfold cosineDistance triu1 at h
      rw [if_neg (lt_irrefl _)] at h
      cases h
    refine ⟨hij, ?_⟩
    by_contra hcon
    rw [not_or] at hcon
    obtain ⟨v, hv, _⟩ := C143_value_partial X i j hcon.1 hcon.2
    rw [hv] at h
    cases h
  · rintro ⟨hij, h | h⟩
    · exact C143_violated hd X i j hij h
    · have := C143_violated hd X j i hij.symm h
      unfold cosineDistance at this ⊢
      revert this
      generalize triu1 (cosineRaw X) i j = a
      generalize triu1 (cosineRaw X) j i = b
      cases a <;> cases b <;> simp [XR.add]

-- Both cases occur.
example : cosineDistance (![![0, 0], ![1, 0]] : Fin 2 → Fin 2 → ℝ) 0 1 = .nan ∧
    cosineDistance (![![0, 1], ![1, 0]] : Fin 2 → Fin 2 → ℝ) 0 1 ≠ .nan := by
  constructor
  · rw [C143_nan_iff (by norm_num)]
    refine ⟨by decide, Or.inl ?_⟩
    funext f
    fin_cases f <;> rfl
  · rw [Ne, C143_nan_iff (by norm_num)]
    rintro ⟨_, h | h⟩
    · exact one_ne_zero (α := ℝ) (congrFun h 1)
    · exact one_ne_zero (α := ℝ) (congrFun h 0)

end HubToolbox.Dist

namespace HubToolbox.SNN

open HubToolbox

/-- **C77** (exact): for at least two objects and finite distances, supervised `simhub` contains `nan` exactly if all objects
carry the same label. -/
theorem C77_nan_iff (w : World ℝ) {n : ℕ} (hn : 2 ≤ n) (x : Fin n → Fin n → ℝ) (y : Fin n → ℤ) (s : ℕ) (h1 : 1 ≤ s) (hs : s < n)
    (vu : ℤ) :
    ∃ M : Fin n → Fin n → XR ℝ,
      simhub w (.mat false n n fun i j => .fin (x i j)) (some ⟨n, y⟩) none none s false vu = .ok ⟨n, n, M⟩ ∧
      ((∃ i j, M i j = .nan) ↔ ∀ i j, y i = y j) := by
  by_cases hy : ∀ i j, y i = y j
  · have e : y = fun _ => y ⟨0, by omega⟩ := funext fun i => hy _ _
    have h := C77_violated w (fun i j => .fin (x i j)) (y ⟨0, by omega⟩) s h1 hs vu
    rw [← e] at h
    refine ⟨_, h, ⟨fun _ => hy, fun _ => ⟨⟨0, by omega⟩, ⟨1, by omega⟩, ?_⟩⟩⟩
    rw [if_neg (by simp)]
  · push Not at hy
    obtain ⟨a, b, hab⟩ := hy
    have h2 : 2 ≤ (Finset.univ.image y).card :=
      Finset.one_lt_card.2 ⟨y a, Finset.mem_image_of_mem _ (Finset.mem_univ _), y b, Finset.mem_image_of_mem _ (Finset.mem_univ _), hab⟩
    obtain ⟨v, h⟩ := C77_partial w (fun i j => .fin (x i j)) x (fun _ _ _ => rfl) y h2 s h1 hs false vu
    refine ⟨_, h, ⟨?_, fun hc => absurd (hc a b) hab⟩⟩
    rintro ⟨i, j, h⟩
    cases h

-- Both cases occur, with 3 objects.
example : (∀ i j : Fin 3, (fun _ => 7 : Fin 3 → ℤ) i = (fun _ => 7) j) ∧ ¬ ∀ i j : Fin 3, (![1, 1, 2] : Fin 3 → ℤ) i = ![1, 1, 2] j := by
  decide

end HubToolbox.SNN

namespace HubToolbox.MPPar

open HubToolbox

/-- **C99** (exact): for a symmetric sparse similarity matrix with self similarities one, the sparse normal variant has `nan`
at `i, j` exactly if this is a value present off the diagonal and all values present for `i`, or all values present for `j`,
are the same. -/
theorem C99_nan_iff (F : Dists) {n : ℕ} (hn : 0 < n) (S : Fin n → Fin n → ℝ) (hS : ∀ i, S i i = 1)
    (hsym : ∀ i j, S i j = S j i) (ss mn : ℤ) :
    ∃ M : Fin n → Fin n → XR ℝ, gaussi F (.mat true n n S) "similarity" ss mn none none = .ok ⟨n, n, M⟩ ∧
      ∀ i j, M i j = .nan ↔ i ≠ j ∧ S i j ≠ 0 ∧
        (Spec.stdDev (Spec.present Finset.univ S i) (S i) = 0 ∨ Spec.stdDev (Spec.present Finset.univ S j) (S j) = 0) := by
  have hcol : ∀ i, (fun c => S c i) = S i := fun i => funext fun c => hsym c i
  refine ⟨_, gaussi_sparse_ok F hn S hS "similarity" (Or.inl rfl) ss mn none, fun i j => ?_⟩
  by_cases hij : i = j
  · simp [hij]
  beta_reduce
  rw [if_neg hij]
  change gaussCell F S (List.finRange n) i j = .nan ↔ _
  by_cases h0 : S i j = 0
  · have h0' : S j i = 0 := by rw [hsym]; exact h0
    simp [gaussCell, zeroMissing, h0, h0', XR.mul]
  have h0' : S j i ≠ 0 := by rw [hsym]; exact h0
  have viol : ∀ a b, a ≠ b → S a b ≠ 0 → Spec.stdDev (Spec.present Finset.univ S b) (S b) = 0 →
      gaussCell F S (List.finRange n) a b = .nan := by
    intro a b hab h0 h
    obtain ⟨M, hM, hn'⟩ := C99_violated F S hS hsym ss mn a b hab h0 (by rw [hcol]; exact h)
    rw [gaussi_sparse_ok F hn S hS "similarity" (Or.inl rfl) ss mn none] at hM
    have hM := Except.ok.inj hM
    simp only [Sigma.mk.injEq, heq_eq_eq, true_and] at hM
    rw [← hM] at hn'
    beta_reduce at hn'
    rw [if_neg hab] at hn'
    exact hn'
  constructor
  · intro h
    refine ⟨hij, h0, ?_⟩
    by_contra hcon
    rw [not_or] at hcon
    rw [gaussCell_fin F S (List.finRange n) (List.nodup_finRange n) hS i j (fun k _ => List.mem_finRange k)
        (fun k hk => by
          rw [finRange_toFinset, hcol]
          rcases hk with rfl | rfl
          · exact hcon.1
          · exact hcon.2) h0 h0'] at h
    cases h
  · rintro ⟨_, _, h | h⟩
    · rw [gaussCell_comm]
      exact viol j i (Ne.symm hij) h0' h
    · exact viol i j hij h0 h

/-- Objects 0, 1 and 2; the value of 1 and 2 is missing, so object 0 has two values and the others have one. -/
noncomputable def star3 : Fin 3 → Fin 3 → ℝ := ![![1, 1 / 2, 1 / 4], ![1 / 2, 1, 0], ![1 / 4, 0, 1]]

-- The condition is met by objects 0 and 1 of a chain of three objects, not by the pair without value.
example (F : Dists) : ∃ M : Fin 3 → Fin 3 → XR ℝ, gaussi F (.mat true 3 3 star3) "similarity" 0 0 none none = .ok ⟨3, 3, M⟩ ∧
    M 0 1 = .nan ∧ M 1 2 ≠ .nan := by
  obtain ⟨M, h, hM⟩ := C99_nan_iff F (n := 3) (by norm_num) star3 (fun i => by fin_cases i <;> rfl)
    (fun i j => by fin_cases i <;> fin_cases j <;> rfl) 0 0
  refine ⟨M, h, (hM 0 1).2 ⟨by decide, by norm_num [star3], Or.inr ?_⟩, fun e => ((hM 1 2).1 e).2.1 rfl⟩
  have hp : Spec.present Finset.univ star3 1 = {0} := by
    ext c
    fin_cases c <;> simp [Spec.present, star3]
  rw [hp]
  simp [Spec.stdDev, Spec.variance, Spec.meanOver]

end HubToolbox.MPPar

namespace HubToolbox.HubClass

open HubToolbox

/-- **C62** (exact): `hubs_` are as documented, the objects which occur more than `hub_size * k` times, exactly if no object
occurs `hub_size * k` times. -/
theorem C62_iff {K F : Type} [Field K] [LinearOrder K] [Field F] [LinearOrder F]
    [IsStrictOrderedRing F] (w : World K) (P : Params F) (k : ℕ) (hP : P.k = some (k : ℤ)) (hk : 1 ≤ k)
    (bs : ℕ) (shuffle hasSelf : Bool) (X : Data K) (hX : X.Canonical) (hn : 0 < X.nTest) (fit : Fit F)
    (h : fitTransform w P bs shuffle hasSelf X = .ok fit) :
    (∀ j, j ∈ fit.hubs ↔ ∃ hj : j < fit.kOcc.length, P.hubSize * k < (fit.kOcc[j] : F)) ↔
      ∀ x ∈ fit.kOcc, P.hubSize * k ≠ (x : F) := by
  obtain ⟨h1, h2⟩ := C62_partial w P k hP hk bs shuffle hasSelf X hX hn fit h
  refine ⟨?_, h2⟩
  intro hdoc x hx e
  obtain ⟨j, hj, rfl⟩ := List.getElem_of_mem hx
  obtain ⟨_, hlt⟩ := (hdoc j).1 ((h1 j).2 ⟨hj, e.le⟩)
  exact hlt.ne e

-- Applied to the three objects of `C62_violated`, where the condition fails.
example (w : World ℚ) := C62_iff w (exP 1 2 "precomputed") 1 rfl le_rfl 64 true true (.dense 3 3 exD false)

end HubToolbox.HubClass
