import Verif.Relations.LocalOrder
import Verif.Relations.Locality
import Verif.SNN.SimhubProps

/-!
# C229: Local Scaling and neighbourhoods; C231: simhub and shared nearest neighbours
-/

set_option autoImplicit false

namespace HubToolbox.LS

theorem ls_le_iff {d a b : ℝ} (ha : 0 < a) (hb : 0 < b) : Spec.localScaling d a b ≤ 1 - Real.exp (-1) ↔ d ^ 2 ≤ a * b := by
  unfold Spec.localScaling
  rw [sub_le_sub_iff_left, Real.exp_le_exp, neg_le_neg_iff, div_le_one (mul_pos ha hb)]

/-- C229: objects which are `k`-neighbours of each other have Local Scaling distance at most `1 - 1/e`, objects none of which is a
`k`-neighbour of the other a larger one. -/
theorem C229 (w : World) {n : ℕ} (x : Fin n → Fin n → ℝ) (hsym : ∀ i j, x i j = x j i) (hx : ∀ i j, i ≠ j → 0 < x i j) (k : ℕ)
    (h1 : 1 ≤ k) (hk : k < n) (nJobs : ℤ) (hj : nJobs = -1 ∨ 1 ≤ nJobs) :
    ∃ M : Fin n → Fin n → ℝ, localScaling w (.mat false n n (toXR x)) k "distance" none nJobs = .ok ⟨n, toXR M⟩ ∧
      ∀ i j, i ≠ j →
        (((Finset.univ.erase i).filter fun c => x i c < x i j).card < k → ((Finset.univ.erase j).filter fun c => x j c < x j i).card < k →
          M i j ≤ 1 - Real.exp (-1)) ∧
        (k ≤ ((Finset.univ.erase i).filter fun c => x i c < x i j).card → k ≤ ((Finset.univ.erase j).filter fun c => x j c < x j i).card →
          1 - Real.exp (-1) < M i j) := by
  have hT : Spec.training n none = Finset.univ := by simp [Spec.training]
  obtain ⟨r, hr⟩ := C28_radii_exist x k h1 none (fun i => by
    rw [hT, Finset.card_erase_of_mem (Finset.mem_univ i), Finset.card_univ, Fintype.card_fin]; omega)
  have hpos := radii_pos hx hr
  refine ⟨_, C28_formula w x hsym k h1 none nJobs hj r hr hpos (by omega), fun i j hij => ?_⟩
  have near : ∀ a b : Fin n, ((Finset.univ.erase a).filter fun c => x a c < x a b).card < k → x a b ≤ r a := by
    intro a b h
    by_contra hlt
    rw [not_le] at hlt
    have hu := (hr a).upto
    rw [hT] at hu
    have := Finset.card_le_card (Finset.monotone_filter_right (Finset.univ.erase a)
      (fun c _ (hc : x a c ≤ r a) => hc.trans_lt hlt : ∀ c ∈ Finset.univ.erase a, x a c ≤ r a → x a c < x a b))
    omega
  have apart : ∀ a b : Fin n, k ≤ ((Finset.univ.erase a).filter fun c => x a c < x a b).card → r a < x a b := by
    intro a b h
    by_contra hle
    rw [not_lt] at hle
    have hb := (hr a).below
    rw [hT] at hb
    have := Finset.card_le_card (Finset.monotone_filter_right (Finset.univ.erase a)
      (fun c _ (hc : x a c < x a b) => hc.trans_le hle : ∀ c ∈ Finset.univ.erase a, x a c < x a b → x a c < r a))
    omega
  rw [if_neg hij]
  refine ⟨fun h2 h3 => ?_, fun h2 h3 => ?_⟩
  · rw [ls_le_iff (hpos i) (hpos j), sq]
    have e2 := near j i h3
    rw [hsym j i] at e2
    exact mul_le_mul (near i j h2) e2 (hx i j hij).le (hpos i).le
  · rw [← not_le, ls_le_iff (hpos i) (hpos j), not_le, sq]
    have e2 := apart j i h3
    rw [hsym j i] at e2
    exact mul_lt_mul'' (apart i j h2) e2 (hpos i).le (hpos j).le

/-- For the points of `line4` and `k = 1`: objects 1 and 2 are neighbours of each other, 0 and 3 are not. -/
example (w : World) : ∃ M : Fin 4 → Fin 4 → ℝ,
    localScaling w (.mat false 4 4 (toXR fun i j => (line4 i j : ℝ))) (1 : ℕ) "distance" none 1 = .ok ⟨4, toXR M⟩ ∧
      M 1 2 ≤ 1 - Real.exp (-1) ∧ 1 - Real.exp (-1) < M 0 3 := by
  obtain ⟨M, h, hM⟩ := C229 w (fun i j => (line4 i j : ℝ))
    (fun i j => by rw [show line4 i j = line4 j i from abs_sub_comm _ _])
    (fun i j h => by rw [Int.cast_pos]; revert i j; decide) 1 le_rfl (by norm_num) 1 (by norm_num)
  simp only [Int.cast_lt] at hM
  exact ⟨M, h, (hM 1 2 (by decide)).1 (by decide) (by decide), (hM 0 3 (by decide)).2 (by decide) (by decide)⟩

end HubToolbox.LS

namespace HubToolbox.SNN

open HubToolbox

/-- C231: the similarity computed by `simhubIN` (and by `simhub` without classes, which is the same, see `C35_same`) is at most the
shared nearest neighbour similarity times `log (n / 3) / log n`. -/
theorem C231 (w w' : World ℝ) {n : ℕ} (x : Fin n → Fin n → ℝ) (hties : ∀ i a b, a ≠ i → b ≠ i → x i a = x i b → a = b)
    (s : ℕ) (h1 : 1 ≤ s) (hs : s < n) (nJobs nJobs' : ℤ) :
    ∃ u v : Fin n → Fin n → ℝ,
      simhubIN w (.mat false n n fun i j => .fin (x i j)) none none s true nJobs = .ok ⟨n, n, fun i j => .fin (u i j)⟩ ∧
      sharedNearestNeighbors w' (.mat false n n fun i j => .fin (x i j)) s "distance" nJobs' = .ok ⟨n, fun i j => .fin (v i j)⟩ ∧
      ∀ i j, i ≠ j → 1 - u i j ≤ (1 - v i j) * (Real.log (n / 3) / Real.log n) := by
  obtain ⟨N, hN, h⟩ := C35_formula w (fun i j => .fin (x i j)) x (fun _ _ _ => rfl) s h1 hs true nJobs
  refine ⟨_, _, h, C34_determined w' _ x (fun _ _ _ => rfl) hties s h1 hs "distance" (Or.inl rfl) nJobs' N hN, fun i j hij => ?_⟩
  have hself : ∀ j, j ∉ N j := fun j hj => by have := (hN j).sub hj; simp at this
  have hn : 1 < n := by omega
  have hlog := log_pos_of hn
  have hs0 : (0 : ℝ) < s := by exact_mod_cast h1
  simp only [if_neg hij, Spec.orDistance, if_true, Spec.snn, String.reduceEq, if_false, sub_sub_cancel, Spec.commonFraction, Spec.simhub,
    mul_one]
  rw [div_mul_div_comm]
  refine div_le_div_of_nonneg_right ?_ (mul_pos hs0 hlog).le
  rw [← nsmul_eq_mul, ← Finset.sum_const]
  refine Finset.sum_le_sum fun c hc => ?_
  rw [Finset.mem_inter] at hc
  have ho : 3 ≤ Spec.occurrence Finset.univ N c := by
    unfold Spec.occurrence
    have : ({i, j} : Finset (Fin n)) ⊆ Finset.univ.filter (fun a => c ∈ N a) := by
      intro a ha
      rcases Finset.mem_insert.1 ha with rfl | ha
      · exact Finset.mem_filter.2 ⟨Finset.mem_univ _, hc.1⟩
      · rw [Finset.mem_singleton.1 ha]
        exact Finset.mem_filter.2 ⟨Finset.mem_univ _, hc.2⟩
    have h2 := Finset.card_le_card this
    rw [Finset.card_pair hij] at h2
    omega
  have ho' : (3 : ℝ) ≤ Spec.occurrence Finset.univ N c := by exact_mod_cast ho
  have hn0 : (0 : ℝ) < n := by exact_mod_cast (by omega : 0 < n)
  exact Real.log_le_log (div_pos hn0 (by linarith)) (div_le_div_of_nonneg_left hn0.le (by norm_num) ho')

example (w w' : World ℝ) := C231 w w' (fun i j => (wide4 i j : ℝ))
  (fun i a b ha hb h => (by decide : ∀ i a b, a ≠ i → b ≠ i → wide4 i a = wide4 i b → a = b) i a b ha hb (by exact_mod_cast h))
  2 (by norm_num) (by norm_num) 1 4

end HubToolbox.SNN
