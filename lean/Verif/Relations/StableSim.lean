import Verif.Relations.Stable
import Verif.Rounding.Lcent

/-!
# Experiments on similarities in double precision (C295)
-/

set_option autoImplicit false

namespace HubToolbox.Spec

open HubToolbox

/-- Hubness and k-NN classification of two similarity matrices do not differ. -/
structure SameSimilarityExperiments {n : ℕ} (x y : Fin n → Fin n → XR ℝ) : Prop where
  /-- `hubness` returns the same neighbour lists, occurrences and skewness -/
  hubness : ∀ (o o' : ArgPart (XR ℝ)) (rnd rnd' : Hubness.Rnd) (sched sched' : Hubness.Schedule) (sparse sparse' : Bool) (k nJobs nJobs' : ℤ)
    (seed seed' shuffle shuffle' : Bool) (r r' : Hubness.Res n),
    Hubness.hubnessMat o rnd sched sparse x k "similarity" nJobs seed shuffle = .ok r →
    Hubness.hubnessMat o' rnd' sched' sparse' y k "similarity" nJobs' seed' shuffle' = .ok r' → r = r'
  /-- `score` classifies the same objects correctly -/
  score : 2 ≤ n → ∀ (srt srt' : Knn.ArgSort (XR ℝ)) (o o' : ArgPart (XR ℝ)) (rnd rnd' : Knn.Rnd) (labels : Fin n → ℤ) (ks : List ℤ),
    (∀ k ∈ ks, 1 ≤ k) →
    ∃ r r', Knn.score srt o rnd (.mat false n n x) (.vec n labels) (.list ks) "similarity" none = .ok ⟨n, r⟩ ∧
      Knn.score srt' o' rnd' (.mat false n n y) (.vec n labels) (.list ks) "similarity" none = .ok ⟨n, r'⟩ ∧
      ∀ j, j < ks.length → ∃ q q', r.perK[j]? = some q ∧ r'.perK[j]? = some q' ∧ q'.corr = q.corr ∧ q'.acc = q.acc

end HubToolbox.Spec

namespace HubToolbox.Relations

open HubToolbox Ieee Rounding

theorem gap_same_similarity {n : ℕ} {x y : Fin n → Fin n → ℝ}
    (h : ∀ i a b, a ≠ i → b ≠ i → a ≠ b → (x i a < x i b ∧ y i a < y i b) ∨ (x i b < x i a ∧ y i b < y i a)) :
    Spec.SameSimilarityExperiments (LS.toXR x) (LS.toXR y) where
  hubness o o' rnd rnd' sched sched' sparse sparse' k nJobs nJobs' seed seed' shuffle shuffle' r r' h1 h2 :=
    C168_row_order o o' rnd rnd' sched sched' sparse sparse' x y k "similarity" nJobs nJobs' seed seed' shuffle shuffle' (gap_ties h) (gap_order h) r r'
      h1 h2
  score hn srt srt' o o' rnd rnd' labels ks hk := by
    obtain ⟨r, r', h1, h2, h3⟩ := C169_score srt srt' o o' rnd rnd' hn x y labels labels ks hk "similarity" (Or.inr rfl) (gap_ties h) 1
      (fun i a b ha hb => (gap_order h i a b ha hb).symm) id Function.injective_id (fun _ => rfl)
    refine ⟨r, r', h1, h2, fun j hj => ?_⟩
    obtain ⟨q, q', e1, e2, e3, e4⟩ := h3 j hj
    exact ⟨q, q', e1, e2, funext e3, e4⟩

/-- **C295**: let the `kappa` objects most similar to each object be more similar than the others by more than the rounding error of similarities, and let
the exact values of each object after localized centering differ by more than twice the rounding error of `localized_centering`. Then hubness and k-NN
classification of the similarities computed by `localized_centering(X)` in double precision are those of the exact ones. -/
theorem C295 (L : CosLib ℝ) (hL : L.Centers) (o : ArgPart (XR ℝ)) (w : SNN.World ℝ) {n d k : ℕ} (h0 : 0 < d) (hd : d ≤ 2 ^ 40) (X : Fin n → Fin d → ℝ)
    (hX : LcentModerate X) (h1 : 1 ≤ k) (hkl : k ≤ n) (hk : k ≤ 2 ^ 40)
    (N : Fin n → Finset (Fin n)) (hN : ∀ j, (N j).card = k)
    (hgap : ∀ j, ∀ a ∈ N j, ∀ b ∉ N j, Spec.cosine (X j) (X b) + 8 * (d + 2) * 2 ^ (-53 : ℤ) < Spec.cosine (X j) (X a))
    (hval : ∀ i a b, a ≠ i → b ≠ i → a ≠ b → 2 * ((8 * d + 2 * k + 21) * 2 ^ (-53 : ℤ)) <
      |(Spec.cosine (X i) (X a) - (∑ c ∈ N a, Spec.cosine (X a) (X c)) / k) - (Spec.cosine (X i) (X b) - (∑ c ∈ N b, Spec.cosine (X b) (X c)) / k)|)
    (nJobs : ℤ) :
    ∃ M M' : Fin n → Fin n → XR ℝ, Cent.localizedCentering w X (some ⟨n, d, X⟩) k 1 nJobs = .ok ⟨n, M⟩ ∧
      (double.rounding ℝ).localizedCentering o L X X k = .ok M' ∧ Spec.SameSimilarityExperiments M M' := by
  obtain ⟨M, M', e, e', hM⟩ := C292 L hL o w h0 hd X hX X hX h1 hkl hk N hN hgap nJobs
  choose v z hv hz hve hze using hM
  have ev : M = LS.toXR v := by funext i j; exact hv i j
  have ez : M' = LS.toXR z := by funext i j; exact hz i j
  refine ⟨M, M', e, e', ?_⟩
  rw [ev, ez]
  refine gap_same_similarity fun i a b ha hb hab => ?_
  have g := hval i a b ha hb hab
  rw [← hve i a, ← hve i b] at g
  have ea := abs_le.1 (hze i a)
  have eb := abs_le.1 (hze i b)
  have hp : 0 ≤ (8 * (d : ℝ) + 2 * k + 21) * 2 ^ (-53 : ℤ) := by positivity
  rcases lt_abs.1 g with g | g
  · exact Or.inr ⟨by linarith, by linarith [ea.1, eb.2]⟩
  · exact Or.inl ⟨by linarith, by linarith [ea.2, eb.1]⟩

/-- The hypotheses of C295 hold for three vectors and one neighbour (which is the vector itself, as in the code). -/
example (o : ArgPart (XR ℝ)) (w : SNN.World ℝ) := by
  have hn : ∀ i, Spec.norm (fun f => (lcentZ i f : ℝ)) = ![5, 5, 1] i := by
    intro i
    have h25 : √(25 : ℝ) = 5 := by rw [show (25 : ℝ) = 5 ^ 2 by norm_num, Real.sqrt_sq (by norm_num)]
    fin_cases i <;> simp [Spec.norm, Spec.inner, lcentZ, Fin.sum_univ_two] <;> norm_num [h25]
  exact C295 CosLib.rounded CosLib.rounded_centers o w (d := 2) (k := 1) (by norm_num) (by norm_num)
    (fun i f => (lcentZ i f : ℝ)) (intModerate _ (by decide)) (by norm_num) (by norm_num) (by norm_num) (fun j => {j}) (fun j => rfl) (by
      intro j a ha b hb
      rw [Finset.mem_singleton] at ha hb
      subst ha
      unfold Spec.cosine
      rw [hn, hn]
      fin_cases a <;> fin_cases b <;> first | exact absurd rfl hb | (simp [Spec.inner, lcentZ, Fin.sum_univ_two]; norm_num)) (by
      intro i a b ha hb hab
      simp only [Finset.sum_singleton]
      unfold Spec.cosine
      rw [hn, hn, hn]
      fin_cases i <;> fin_cases a <;> fin_cases b <;> first
        | exact absurd rfl ha | exact absurd rfl hb | exact absurd rfl hab
        | (simp [Spec.inner, lcentZ, Fin.sum_univ_two]; norm_num [abs_lt, lt_abs]))

end HubToolbox.Relations
