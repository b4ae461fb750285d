import Verif.SNN.Sample
import Mathlib.Analysis.SpecialFunctions.Log.Basic

/-!
# Closed forms for `simhubIN` and `simhub`
-/

set_option autoImplicit false

namespace HubToolbox.SNN

open HubToolbox LS

theorem informativeness_fin {m N : ℕ} (hm : 0 < m) (hN : 0 < N) :
    informativeness m N = .fin (Real.log ((m : ℝ) / N)) := by
  have h1 : (0 : ℝ) < m := Nat.cast_pos.2 hm
  have h2 : (0 : ℝ) < N := Nat.cast_pos.2 hN
  have h3 := div_pos h1 h2
  unfold informativeness
  simp only [XR.div, if_neg h2.ne', XR.log, if_neg h3.ne', if_neg h3.not_gt]

theorem shared_mark {n m : ℕ} (sel : Fin n → List (Fin m)) (i i' : Fin n) (W : Fin m → XR ℝ) (g : Fin m → ℝ)
    (hW : ∀ c, W c = .fin (g c)) :
    shared (markSerial sel i) (markSerial sel i') W =
      .fin (∑ c ∈ (sel i).toFinset ∩ (sel i').toFinset, g c) := by
  unfold shared
  have : (fun c => XR.mul (ofBool (markSerial sel i c && markSerial sel i' c)) (W c)) =
      fun c => (.fin (if c ∈ (sel i).toFinset ∩ (sel i').toFinset then g c else 0) : XR ℝ) := by
    funext c
    rw [hW, markSerial_apply, markSerial_apply]
    by_cases h1 : c ∈ sel i <;> by_cases h2 : c ∈ sel i' <;> simp [ofBool, XR.mul, h1, h2]
  rw [this, sum_fin]
  congr 1
  rw [Finset.sum_ite_mem, Finset.univ_inter]

theorem occ_mark {n m : ℕ} (sel : Fin n → List (Fin m)) (j : Fin m) :
    occ (markSerial sel) j = (Finset.univ.filter (fun i : Fin n => i.val < m ∧ j ∈ (sel i).toFinset)).card := by
  unfold occ
  rw [countTrue_card]
  congr 1
  ext i
  simp [markSerial_apply]

theorem occIN_mark {n m : ℕ} (sel : Fin n → List (Fin m)) (j : Fin m) :
    occIN (markSerial sel) j =
      (Finset.univ.filter (fun i : Fin n => i.val < m ∧ (i.val = j.val ∨ j ∈ (sel i).toFinset))).card := by
  unfold occIN occ
  rw [countTrue_card]
  congr 1
  ext i
  simp only [Np.fillDiagonal, Finset.mem_filter, Finset.mem_univ, true_and, Bool.and_eq_true, decide_eq_true_eq,
    List.mem_toFinset]
  by_cases h : i.val = j.val
  · simp [h]
  · simp [h, markSerial_apply]

/-- Columns selected by `simhub` in a square matrix. -/
def squareSel (w : World ℝ) {n : ℕ} (D : Fin n → Fin n → XR ℝ) (s : ℤ) (i : Fin n) : List (Fin n) :=
  top "distance" (w.srt.run (Np.fillDiagonal D .pinf i)) s

theorem squareSel_isHood (w : World ℝ) {n : ℕ} (D : Fin n → Fin n → XR ℝ) (x : Fin n → Fin n → ℝ)
    (hD : ∀ i j, i ≠ j → D i j = .fin (x i j)) (s : ℕ) (hs : s < n) (i : Fin n) :
    Spec.IsHood (Spec.nearer "distance") (Finset.univ.erase i) (x i) s (squareSel w D s i).toFinset := by
  refine (sort_sel w.srt "distance" (.inl rfl) s hs.le _).isHood (.inl rfl) _ _ ?_ ?_ ?_
  · intro j hj
    have hij : j ≠ i := (Finset.mem_erase.1 hj).1
    unfold Np.fillDiagonal
    rw [if_neg (fun h : i.val = j.val => hij (Fin.ext h).symm), hD i j hij.symm]
  · intro j hj
    have hij : j = i := by by_contra h; exact hj (Finset.mem_erase.2 ⟨h, Finset.mem_univ _⟩)
    unfold Np.fillDiagonal
    rw [if_pos (by rw [hij])]
    rfl
  · rw [Finset.card_erase_of_mem (Finset.mem_univ i), Finset.card_univ, Fintype.card_fin]; omega

/-- The sums before normalisation are written to all rows. -/
theorem shiFinish_none {n m : ℕ} (f : Fin n → Fin m → XR ℝ) (norm : XR ℝ) (rd : Bool) :
    shiFinish (fillRows (rowsOf none) f) norm rd none = shiFinish f norm rd none := by
  have : fillRows (rowsOf none) f = f := by
    funext i j
    rw [fillRows_apply, if_pos (show i ∈ rowsOf (n := n) none from List.mem_finRange i)]
  rw [this]

theorem shiFinish_some {n m t : ℕ} (f : Fin n → Fin m → XR ℝ) (norm : XR ℝ) (rd : Bool) (v : Fin t → Fin n) :
    shiFinish (fillRows (rowsOf (some ⟨t, v⟩)) f) norm rd (some ⟨t, v⟩) = shiFinish f norm rd (some ⟨t, v⟩) := by
  unfold shiFinish
  simp only
  congr 2
  funext a j
  rw [fillRows_apply, if_pos (show v a ∈ rowsOf (some ⟨t, v⟩) from List.mem_ofFn.2 ⟨a, rfl⟩)]

theorem wrapTest_ints {n t : ℕ} (test : Fin t → Fin n) : wrapTest n (some (ints test)) = .ok (some ⟨t, test⟩) := by
  unfold wrapTest
  change (match Np.wrapAll n (fun j => ((test j).val : ℤ)) with | none => _ | some idx => _) = _
  rw [wrapAll_val]

/-- Rescaling, conversion and self value for finite sums. -/
theorem finish_fin (v norm : ℝ) (hn : norm ≠ 0) (rd : Bool) :
    (if rd then XR.add (XR.mul (XR.div (.fin v) (.fin norm)) (.fin (-1))) (.fin 1) else XR.div (.fin v) (.fin norm)) =
      (.fin (Spec.orDistance rd (v / norm)) : XR ℝ) := by
  cases rd
  · simp [XR.div, hn, Spec.orDistance]
  · simp only [XR.div, if_neg hn, XR.mul, XR.add, Spec.orDistance, if_true]
    congr 1; ring

theorem shiFinish_none_fin {n : ℕ} (v : Fin n → Fin n → ℝ) (f : Fin n → Fin n → XR ℝ) (hf : ∀ i j, f i j = .fin (v i j))
    (norm : ℝ) (hn : norm ≠ 0) (rd : Bool) :
    shiFinish f (.fin norm) rd none =
      ⟨n, n, fun i j => .fin (Spec.orDistance rd (if i = j then 1 else v i j / norm))⟩ := by
  unfold shiFinish
  simp only
  congr 2
  funext i j
  unfold Np.fillDiagonal
  by_cases h : i = j
  · simp only [h, if_true]
    cases rd <;> simp [Spec.orDistance]
  · rw [if_neg (fun h' : i.val = j.val => h (Fin.ext h')), if_neg h]
    simp only [hf]
    exact finish_fin (v i j) norm hn rd

theorem simhubIN_square (w : World ℝ) {n : ℕ} (D : Fin n → Fin n → XR ℝ) (s : ℤ) (rd : Bool) (nJobs : ℤ) :
    simhubIN w (.mat false n n D) none none s rd nJobs =
      .ok (shiFinish (fun i j => shared (markSerial (squareSel w D s) i) (markSerial (squareSel w D s) j)
        (fun c => informativeness n (occIN (markSerial (squareSel w D s)) c)))
        (XR.mul (.fin (s : ℝ)) (XR.log (.fin (n : ℝ)))) rd none) := by
  have hc : shiCheck (.mat false n n D) none = .ok (false, ⟨n, n, D, none⟩) := by
    unfold shiCheck PyMat.checkSquare
    simp only [dif_pos rfl]
    rfl
  unfold simhubIN
  rw [hc]
  refine Eq.trans (b := if h : n ≤ n then _ else _) rfl ?_
  rw [dif_pos le_rfl]
  simp only [markParallel_eq, rowsParallel_eq, ite_self]
  refine Eq.trans (b := Except.ok _) rfl ?_
  rw [shiFinish_none]
  congr 3
  funext i j
  unfold partner
  cases decide (n < 2000) <;> rfl

theorem simhub_square (w : World ℝ) {n : ℕ} (D : Fin n → Fin n → XR ℝ) (s : ℤ) (hs : 0 < s ∧ s < n) (rd : Bool) (vu : ℤ) :
    simhub w (.mat false n n D) none none none s rd vu =
      .ok (shiFinish (fun i j => shared (markSerial (squareSel w D s) i) (markSerial (squareSel w D s) j)
        (fun c => XR.mul (informativeness n (occ (markSerial (squareSel w D s)) c + 1)) (.fin 1)))
        (XR.mul (.fin (s : ℝ)) (XR.log (.fin (n : ℝ)))) rd none) := by
  have hc : shiCheck (.mat false n n D) none = .ok (false, ⟨n, n, D, none⟩) := by
    unfold shiCheck PyMat.checkSquare
    simp only [dif_pos rfl]
    rfl
  unfold simhub
  rw [hc]
  refine Eq.trans (b := if ¬ (0 < s ∧ s < n) then _ else _) rfl ?_
  rw [if_neg (not_not.2 hs)]
  refine Eq.trans (b := if h : n ≤ n then _ else _) rfl ?_
  rw [dif_pos le_rfl]
  refine Eq.trans (b := Except.ok _) rfl ?_
  rw [shiFinish_none]
  congr 3
  funext i j
  unfold partner
  cases decide (vu > 0 ∨ vu = 0 ∧ n < 2000) <;> rfl

theorem simhub_square_labels (w : World ℝ) {n : ℕ} (D : Fin n → Fin n → XR ℝ) (y : Fin n → ℤ) (s : ℤ)
    (hs : 0 < s ∧ s < n) (rd : Bool) (vu : ℤ) (C : List ℤ) (hC : C = Np.unique (List.ofFn y))
    (hsum : ∀ j, (C.map (fun c => occClass (markSerial (squareSel w D s)) y c j)).sum =
      occ (markSerial (squareSel w D s)) j) :
    simhub w (.mat false n n D) (some ⟨n, y⟩) none none s rd vu =
      .ok (shiFinish (fun i j => shared (markSerial (squareSel w D s) i) (markSerial (squareSel w D s) j)
        (fun c => XR.mul (informativeness n (occ (markSerial (squareSel w D s)) c + 1))
          (infoGain (markSerial (squareSel w D s)) y C c)))
        (XR.mul (XR.mul (.fin (s : ℝ)) (XR.log (.fin (n : ℝ)))) (XR.log (.fin (C.length : ℝ)))) rd none) := by
  have hc : shiCheck (.mat false n n D) none = .ok (false, ⟨n, n, D, none⟩) := by
    unfold shiCheck PyMat.checkSquare
    simp only [dif_pos rfl]
    rfl
  have hb : broadcastLabels n ⟨n, y⟩ = .ok y := by
    unfold broadcastLabels
    simp
  subst hC
  unfold simhub
  rw [hc]
  refine Eq.trans (b := if ¬ (0 < s ∧ s < n) then _ else _) rfl ?_
  rw [if_neg (not_not.2 hs)]
  refine Eq.trans (b := if h : n ≤ n then _ else _) rfl ?_
  rw [dif_pos le_rfl]
  simp only [hb]
  refine Eq.trans (b := if ¬ ∀ j : Fin n, ((Np.unique (List.ofFn y)).map (fun c =>
    occClass (markSerial (squareSel w D s)) y c j)).sum = occ (markSerial (squareSel w D s)) j then _ else _) rfl ?_
  rw [if_neg (not_not.2 hsum)]
  refine Eq.trans (b := Except.ok _) rfl ?_
  rw [shiFinish_none]
  congr 3
  funext i j
  unfold partner
  cases decide (vu > 0 ∨ vu = 0 ∧ n < 2000) <;> rfl

end HubToolbox.SNN
