import Verif.Relations.Locality
import Verif.Hubness.Examples

/-!
# More neighbours, and more objects

C217: what happens to existing objects if one object is added (or, read backwards, left out): their empirical Mutual Proximity
changes by at most `1 / (n + 1)`, the number of their shared neighbours by at most one, their k-occurrence rises by at most
one, and their Local Scaling distance does not decrease.

C218: neighbour lists for `k` are initial segments of those for larger `k`, so that k-occurrences and numbers of shared
neighbours do not decrease with `k`, and Local Scaling distances do not increase.
-/

set_option autoImplicit false

namespace HubToolbox.Spec

theorem card_le_erase {ι : Type} [DecidableEq ι] (s : Finset ι) (a : ι) : s.card ≤ (s.erase a).card + 1 := by
  have := Finset.pred_card_le_card_erase (s := s) (a := a)
  omega

/-- Neighbour lists without ties are initial segments of longer ones. -/
theorem IsKnn.prefix {α : Type*} {m : ℕ} {cl : α → α → Prop} {d : Fin m → α} {k k' : ℕ} {L L' : List (Fin m)}
    (h : IsKnn cl d k L) (h' : IsKnn cl d k' L') (hk : k ≤ k') (anti : ∀ a b, cl (d a) (d b) → cl (d b) (d a) → a = b) :
    L <+: L' := by
  have ht : IsKnn cl d k (L'.take k) := by
    have hsplit : L'.take k ++ L'.drop k = L' := List.take_append_drop k L'
    have hp : (L'.take k ++ L'.drop k).Pairwise (fun a b => cl (d a) (d b)) := by rw [hsplit]; exact h'.sorted
    rw [List.pairwise_append] at hp
    refine ⟨by rw [List.length_take, h'.length]; omega, h'.distinct.sublist (List.take_sublist k L'), hp.1, ?_⟩
    intro a ha b hb
    by_cases hb' : b ∈ L'
    · rw [← hsplit, List.mem_append] at hb'
      exact hp.2.2 a ha b (hb'.resolve_left hb)
    · exact h'.best a (List.mem_of_mem_take ha) b hb'
  rw [h.unique ht anti]
  exact List.take_prefix k L'

theorem IsKnn.isHood {α : Type} {m : ℕ} {cl : α → α → Prop} {d : Fin m → α} {k : ℕ} {L : List (Fin m)}
    (h : IsKnn cl d k L) : IsHood cl Finset.univ d k L.toFinset :=
  ⟨Finset.subset_univ _, by rw [List.toFinset_card_of_nodup h.distinct, h.length], fun a ha b _ hb =>
    h.best a (List.mem_toFinset.1 ha) b (fun hb' => hb (List.mem_toFinset.2 hb'))⟩

/-- A larger neighbourhood contains a smaller one, also if it is taken from a subset of the objects. -/
theorem IsHood.sub_of {ι κ α : Type} [DecidableEq ι] [DecidableEq κ] {cl : α → α → Prop} {S : Finset κ} {S' : Finset ι}
    {d : ι → α} (σ : κ ↪ ι) (hS : ∀ c ∈ S, σ c ∈ S') {k k' : ℕ} {N : Finset κ} {N' : Finset ι}
    (h : IsHood cl S (fun c => d (σ c)) k N) (h' : IsHood cl S' d k' N') (hk : k' ≤ k)
    (anti : ∀ a ∈ S, ∀ b ∈ S, cl (d (σ a)) (d (σ b)) → cl (d (σ b)) (d (σ a)) → a = b) (c : κ) (hc : c ∈ S) (hcN : σ c ∈ N') :
    c ∈ N := by
  by_contra hn
  have hsub : insert (σ c) (N.map σ) ⊆ N' := by
    intro y hy
    rcases Finset.mem_insert.1 hy with rfl | hy
    · exact hcN
    · obtain ⟨m, hm, rfl⟩ := Finset.mem_map.1 hy
      by_contra hmN
      have h1 := h.best m hm c hc hn
      have h2 := h'.best (σ c) hcN (σ m) (hS m (h.sub hm)) hmN
      exact hn (anti m (h.sub hm) c hc h1 h2 ▸ hm)
  have hcard := Finset.card_le_card hsub
  rw [Finset.card_insert_of_notMem, Finset.card_map, h.card, h'.card] at hcard
  · omega
  · intro hm
    obtain ⟨m, hm, e⟩ := Finset.mem_map.1 hm
    exact hn (σ.injective e ▸ hm)

theorem nearer_anti {K : Type} [LinearOrder K] (metric : String) {a b : K} (h : nearer metric a b) (h' : nearer metric b a) :
    a = b := by
  unfold nearer at h h'
  split at h
  · rw [if_pos ‹_›] at h'; exact le_antisymm h' h
  · rw [if_neg ‹_›] at h'; exact le_antisymm h h'

end HubToolbox.Spec

/-! ## Larger neighbourhoods -/

namespace HubToolbox.Hubness

open HubToolbox HubToolbox.Spec

variable {K : Type} [Field K] [LinearOrder K] [IsStrictOrderedRing K]

/-- **C218** (`hubness`): without ties the `k` neighbours are the first of `k'` neighbours, for every object, and the
k-occurrences do not decrease with `k`. -/
theorem C218_hubness (o o' : ArgPart (XR K)) (rnd rnd' : Rnd) (sched sched' : Schedule) {n m : ℕ}
    (sparse sparse' : Bool) (D : Fin n → Fin m → XR K) (k k' : ℤ) (hk : k ≤ k') (metric : String) (nJobs nJobs' : ℤ)
    (seed seed' shuffle shuffle' : Bool) (hc : Covered nJobs metric n m) (hc' : Covered nJobs' metric n m)
    (htf : TieFree metric D) (r r' : Res n)
    (h : hubnessMat o rnd sched sparse D k metric nJobs seed shuffle = .ok r)
    (h' : hubnessMat o' rnd' sched' sparse' D k' metric nJobs' seed' shuffle' = .ok r') :
    (∀ i, r.Dk i <+: r'.Dk i) ∧ r.Nk.length = r'.Nk.length ∧
      ∀ j (hj : j < r.Nk.length) (hj' : j < r'.Nk.length), r.Nk[j] ≤ r'.Nk[j] := by
  have hpre : ∀ i, r.Dk i <+: r'.Dk i := by
    intro i
    obtain ⟨L, e, hL⟩ := C01_hubness_knn o rnd sched sparse D k metric nJobs seed shuffle hc r h i
    obtain ⟨L', e', hL'⟩ := C01_hubness_knn o' rnd' sched' sparse' D k' metric nJobs' seed' shuffle' hc' r' h' i
    rw [e, e']
    refine List.IsPrefix.map _ (hL.prefix hL' ?_ ?_)
    · exact Int.toNat_le_toNat (min_le_min_right _ hk)
    · intro a b h1 h2
      exact htf i (closer_anti h1 h2)
  obtain ⟨hl, ho, -⟩ := C03_k_occurrence o rnd sched sparse D k metric nJobs seed shuffle hc r h
  obtain ⟨hl', ho', -⟩ := C03_k_occurrence o' rnd' sched' sparse' D k' metric nJobs' seed' shuffle' hc' r' h'
  refine ⟨hpre, by rw [hl, hl'], ?_⟩
  intro j hj hj'
  rw [(ho j hj).1, (ho' j hj').1]
  refine Finset.card_le_card ?_
  intro i hi
  rw [Finset.mem_filter] at hi ⊢
  exact ⟨hi.1, (hpre i).subset hi.2⟩

end HubToolbox.Hubness

namespace HubToolbox.LS

open HubToolbox

theorem kthSmallest_le {ι : Type} {S : Finset ι} {f : ι → ℝ} {k k' : ℕ} {ρ ρ' : ℝ} (hk : k ≤ k')
    (h : Spec.IsKthSmallest S f k ρ) (h' : Spec.IsKthSmallest S f k' ρ') : ρ ≤ ρ' := by
  by_contra hlt
  rw [not_le] at hlt
  have hs : S.filter (fun j => f j ≤ ρ') ⊆ S.filter (fun j => f j < ρ) := by
    intro j hj
    rw [Finset.mem_filter] at hj ⊢
    exact ⟨hj.1, hj.2.trans_lt hlt⟩
  have := Finset.card_le_card hs
  have := h.below
  have := h'.upto
  omega

/-- Local Scaling distances grow if radii shrink. -/
theorem localScaling_anti {d a a' b b' : ℝ} (ha : 0 < a) (hb : 0 < b) (ha' : a ≤ a') (hb' : b ≤ b') :
    Spec.localScaling d a' b' ≤ Spec.localScaling d a b := by
  unfold Spec.localScaling
  have h1 : d ^ 2 / (a' * b') ≤ d ^ 2 / (a * b) :=
    div_le_div_of_nonneg_left (sq_nonneg d) (mul_pos ha hb) (mul_le_mul ha' hb' hb.le (ha.le.trans ha'))
  have := Real.exp_le_exp.2 (neg_le_neg h1)
  linarith

/-- **C218** (Local Scaling): distances do not increase with `k`. -/
theorem C218_local_scaling (w w' : World) {n : ℕ} (x : Fin n → Fin n → ℝ) (hsym : ∀ i j, x i j = x j i) (k k' : ℕ)
    (h1 : 1 ≤ k) (hk : k ≤ k') (test : Option (List ℤ)) (nJobs nJobs' : ℤ) (hj : nJobs = -1 ∨ 1 ≤ nJobs)
    (hj' : nJobs' = -1 ∨ 1 ≤ nJobs') (r : Fin n → ℝ)
    (hr : ∀ i, Spec.IsKthSmallest ((Spec.training n test).erase i) (x i) k (r i)) (hpos : ∀ i, 0 < r i)
    (hk' : ∀ i, k' ≤ ((Spec.training n test).erase i).card) (hn : 0 < n) :
    ∃ M M' : Fin n → Fin n → ℝ,
      localScaling w (.mat false n n (toXR x)) k "distance" test nJobs = .ok ⟨n, toXR M⟩ ∧
      localScaling w' (.mat false n n (toXR x)) k' "distance" test nJobs' = .ok ⟨n, toXR M'⟩ ∧ ∀ i j, M' i j ≤ M i j := by
  obtain ⟨r', hr'⟩ := C28_radii_exist x k' (h1.trans hk) test hk'
  have hle : ∀ i, r i ≤ r' i := fun i => kthSmallest_le hk (hr i) (hr' i)
  refine ⟨_, _, C28_formula w x hsym k h1 test nJobs hj r hr hpos hn,
    C28_formula w' x hsym k' (h1.trans hk) test nJobs' hj' r' hr' (fun i => (hpos i).trans_le (hle i)) hn, ?_⟩
  intro i j
  split
  · exact le_rfl
  · exact localScaling_anti (hpos i) (hpos j) (hle i) (hle j)

end HubToolbox.LS

namespace HubToolbox.SNN

open HubToolbox

variable {K : Type} [Field K] [LinearOrder K] [IsStrictOrderedRing K]

/-- **C218** (shared nearest neighbours): the number of shared neighbours, `k` times the similarity, does not decrease with
`k`. -/
theorem C218_snn (w w' : World K) {n : ℕ} (x : Fin n → Fin n → K)
    (hties : ∀ i a b, a ≠ i → b ≠ i → x i a = x i b → a = b) (k k' : ℕ) (h1 : 1 ≤ k) (hk : k ≤ k') (hk' : k' < n)
    (nJobs nJobs' : ℤ) :
    ∃ M M' : Fin n → Fin n → K,
      sharedNearestNeighbors w (.mat false n n fun i j => .fin (x i j)) k "similarity" nJobs = .ok ⟨n, fun i j => .fin (M i j)⟩ ∧
      sharedNearestNeighbors w' (.mat false n n fun i j => .fin (x i j)) k' "similarity" nJobs' =
        .ok ⟨n, fun i j => .fin (M' i j)⟩ ∧ ∀ i j, k * M i j ≤ k' * M' i j := by
  obtain ⟨N, hN, h⟩ := C34_formula w _ x (fun _ _ _ => rfl) k h1 (by omega) "similarity" (.inr rfl) nJobs
  obtain ⟨N', hN', h'⟩ := C34_formula w' _ x (fun _ _ _ => rfl) k' (by omega) hk' "similarity" (.inr rfl) nJobs'
  refine ⟨_, _, h, h', ?_⟩
  have hsub : ∀ i, N i ⊆ N' i := by
    intro i c hc
    refine Spec.IsHood.sub_of (Function.Embedding.refl (Fin n)) (fun c hc => hc) (hN' i) (hN i) hk ?_ c ((hN i).sub hc) hc
    intro a ha b hb e1 e2
    exact hties i a b (Finset.mem_erase.1 ha).1 (Finset.mem_erase.1 hb).1 (Spec.nearer_anti _ e1 e2)
  have h0 : (k : K) ≠ 0 := by exact_mod_cast (by omega : k ≠ 0)
  have h0' : (k' : K) ≠ 0 := by exact_mod_cast (by omega : k' ≠ 0)
  have hkk : (k : K) ≤ k' := by exact_mod_cast hk
  intro i j
  split
  · simpa [Spec.snnSelf] using hkk
  · unfold Spec.snn Spec.commonFraction
    rw [if_pos rfl, if_pos rfl, mul_div_cancel₀ _ h0, mul_div_cancel₀ _ h0']
    exact_mod_cast Finset.card_le_card (Finset.inter_subset_inter (hsub i) (hsub j))

end HubToolbox.SNN

/-! ## One more object -/

namespace HubToolbox.Spec

/-- The matrix without object `p`. -/
def without {α : Type} {n : ℕ} (D : Fin (n + 1) → Fin (n + 1) → α) (p : Fin (n + 1)) (i j : Fin n) : α :=
  D (p.succAbove i) (p.succAbove j)

end HubToolbox.Spec

namespace HubToolbox.MPEmp

open HubToolbox HubToolbox.Spec

variable {K : Type} [Field K] [LinearOrder K] [IsStrictOrderedRing K]

theorem frac_change (n c c' : ℕ) (hn : 0 < n) (hc : c ≤ n) (h1 : c ≤ c') (h2 : c' ≤ c + 1) :
    |(c' : K) / (n + 1) - (c : K) / n| ≤ 1 / (n + 1) := by
  have hn0 : (0 : K) < n := by exact_mod_cast hn
  have hn1 : (0 : K) < n + 1 := by linarith
  have hc0 : (0 : K) ≤ c := Nat.cast_nonneg c
  have hcn : (c : K) ≤ n := by exact_mod_cast hc
  have e1 : (c : K) ≤ c' := by exact_mod_cast h1
  have e2 : (c' : K) ≤ c + 1 := by exact_mod_cast h2
  rw [div_sub_div _ _ hn1.ne' hn0.ne', abs_le, ← neg_div, div_le_div_iff₀ hn1 (mul_pos hn1 hn0),
    div_le_div_iff₀ (mul_pos hn1 hn0) hn1]
  constructor
  · have : (0 : K) ≤ (n + 1) * ((c' - c) * n + (n - c)) := by
      refine mul_nonneg hn1.le (add_nonneg (mul_nonneg (by linarith) hn0.le) (by linarith))
    nlinarith
  · have : (0 : K) ≤ (n + 1) * ((c + 1 - c') * n + c) := by
      refine mul_nonneg hn1.le (add_nonneg (mul_nonneg (by linarith) hn0.le) hc0)
    nlinarith

/-- A set of objects without `p`. -/
theorem card_without {n : ℕ} (p : Fin (n + 1)) (A : Finset (Fin (n + 1))) (B : Finset (Fin n))
    (h : ∀ c, p.succAbove c ∈ A ↔ c ∈ B) : B.card ≤ A.card ∧ A.card ≤ B.card + 1 := by
  have e : A.erase p = B.map p.succAboveEmb := by
    ext y
    rw [Finset.mem_erase, Finset.mem_map]
    constructor
    · rintro ⟨hy, hA⟩
      obtain ⟨z, rfl⟩ := Fin.exists_succAbove_eq hy
      exact ⟨z, (h z).1 hA, rfl⟩
    · rintro ⟨z, hz, rfl⟩
      exact ⟨Fin.succAbove_ne p z, (h z).2 hz⟩
  have hc : (A.erase p).card = B.card := by rw [e, Finset.card_map]
  constructor
  · rw [← hc]; exact Finset.card_le_card (Finset.erase_subset _ _)
  · rw [← hc]; exact card_le_erase _ _

/-- **C217** (empirical Mutual Proximity). -/
theorem C217_mp (order order' : Order K) {n : ℕ} (D : Fin (n + 1) → Fin (n + 1) → XR K) (p : Fin (n + 1))
    (hsym : Symmetric D) (metric : String) (test test' : Option TestArg) (minNnz minNnz' : ℤ)
    (M : Fin (n + 1) → Fin (n + 1) → K) (M' : Fin n → Fin n → K)
    (h : full order (.obj (.mat false (n + 1) (n + 1) D)) metric test minNnz = .ok (.dense (n + 1) M))
    (h' : full order' (.obj (.mat false n n (without D p))) metric test' minNnz' = .ok (.dense n M')) (a b : Fin n) :
    (metric = "distance" → |M (p.succAbove a) (p.succAbove b) - M' a b| ≤ 1 / (n + 1)) ∧
      (metric = "similarity" → without D p a b ≠ .pinf → |M (p.succAbove a) (p.succAbove b) - M' a b| ≤ 1 / (n + 1)) := by
  have hn : 0 < n := a.pos
  have h0 : (0 : K) ≤ 1 / (n + 1) := by positivity
  have hsym' : Symmetric (without D p) := fun i j => hsym _ _
  have hinj : ∀ c d, p.succAbove c = p.succAbove d ↔ c = d := fun c d => Fin.succAbove_right_inj
  constructor
  · intro hm
    rw [(C21_computes_definition order D false metric test minNnz M h hsym _ _).1 hm,
      (C21_computes_definition order' _ false metric test' minNnz' M' h' hsym' a b).1 hm, mpDistance, mpDistance]
    by_cases hab : a = b
    · rw [if_pos hab, if_pos (by rw [hab]), sub_zero, abs_zero]; exact h0
    · rw [if_neg hab, if_neg (fun e => hab ((hinj _ _).1 e))]
      obtain ⟨c1, c2⟩ := card_without p (farther D (p.succAbove a) (p.succAbove b)) (farther (without D p) a b) (by
        intro c
        simp only [farther, Finset.mem_filter, Finset.mem_univ, true_and, ne_eq, hinj]
        rfl)
      have := frac_change (K := K) n _ _ hn ((Finset.card_le_univ _).trans (by rw [Fintype.card_fin])) c1 c2
      rw [Nat.cast_succ, sub_sub_sub_cancel_left, abs_sub_comm]
      exact this
  · intro hm hp
    rw [(C21_computes_definition order D false metric test minNnz M h hsym _ _).2 hm hp,
      (C21_computes_definition order' _ false metric test' minNnz' M' h' hsym' a b).2 hm hp, mpSimilarity, mpSimilarity]
    by_cases hab : a = b
    · rw [if_pos hab, if_pos (by rw [hab]), sub_self, abs_zero]; exact h0
    · rw [if_neg hab, if_neg (fun e => hab ((hinj _ _).1 e))]
      obtain ⟨c1, c2⟩ := card_without p (lessSimilar D (p.succAbove a) (p.succAbove b)) (lessSimilar (without D p) a b) (by
        intro c
        simp only [lessSimilar, Finset.mem_filter, Finset.mem_univ, true_and, ne_eq, hinj]
        rfl)
      have := frac_change (K := K) n _ _ hn ((Finset.card_le_univ _).trans (by rw [Fintype.card_fin])) c1 c2
      rw [Nat.cast_succ]
      exact this

end HubToolbox.MPEmp

namespace HubToolbox.LS

open HubToolbox

theorem training_none (n : ℕ) : Spec.training n none = Finset.univ := by simp [Spec.training]

/-- **C217** (Local Scaling): distances of existing objects do not decrease. -/
theorem C217_local_scaling (w w' : World) {n : ℕ} (x : Fin (n + 1) → Fin (n + 1) → ℝ) (p : Fin (n + 1))
    (hsym : ∀ i j, x i j = x j i) (k : ℕ) (h1 : 1 ≤ k) (hk : k < n) (nJobs nJobs' : ℤ) (hj : nJobs = -1 ∨ 1 ≤ nJobs)
    (hj' : nJobs' = -1 ∨ 1 ≤ nJobs') (r : Fin (n + 1) → ℝ)
    (hr : ∀ i, Spec.IsKthSmallest (Finset.univ.erase i) (x i) k (r i)) (hpos : ∀ i, 0 < r i) :
    ∃ (M : Fin (n + 1) → Fin (n + 1) → ℝ) (M' : Fin n → Fin n → ℝ),
      localScaling w (.mat false (n + 1) (n + 1) (toXR x)) k "distance" none nJobs = .ok ⟨n + 1, toXR M⟩ ∧
      localScaling w' (.mat false n n (toXR (Spec.without x p))) k "distance" none nJobs' = .ok ⟨n, toXR M'⟩ ∧
      ∀ i j, M' i j ≤ M (p.succAbove i) (p.succAbove j) := by
  obtain ⟨r', hr'⟩ := C28_radii_exist (Spec.without x p) k h1 none (fun i => by
    rw [training_none, Finset.card_erase_of_mem (Finset.mem_univ i), Finset.card_univ, Fintype.card_fin]; omega)
  have hinj : ∀ c d, p.succAbove c = p.succAbove d ↔ c = d := fun c d => Fin.succAbove_right_inj
  have hle : ∀ i, r (p.succAbove i) ≤ r' i := by
    intro i
    by_contra hlt
    rw [not_le] at hlt
    have hu := (hr' i).upto
    rw [training_none] at hu
    have hb := (hr (p.succAbove i)).below
    have hs : ((Finset.univ.erase i).filter (fun j => Spec.without x p i j ≤ r' i)).map p.succAboveEmb ⊆
        (Finset.univ.erase (p.succAbove i)).filter (fun j => x (p.succAbove i) j < r (p.succAbove i)) := by
      intro y hy
      obtain ⟨c, hc, rfl⟩ := Finset.mem_map.1 hy
      rw [Finset.mem_filter, Finset.mem_erase] at hc ⊢
      exact ⟨⟨fun e => hc.1.1 ((hinj _ _).1 e), Finset.mem_univ _⟩, hc.2.trans_lt hlt⟩
    have := Finset.card_le_card hs
    rw [Finset.card_map] at this
    omega
  refine ⟨_, _, C28_formula w x hsym k h1 none nJobs hj r (by rw [training_none]; exact hr) hpos (Nat.succ_pos n),
    C28_formula w' _ (fun i j => hsym _ _) k h1 none nJobs' hj' r' hr' (fun i => (hpos _).trans_le (hle i)) (by omega), ?_⟩
  intro i j
  by_cases hij : i = j
  · rw [if_pos hij, if_pos (by rw [hij])]
  · rw [if_neg hij, if_neg (fun e => hij ((hinj _ _).1 e))]
    exact localScaling_anti (hpos _) (hpos _) (hle i) (hle j)

end HubToolbox.LS

namespace HubToolbox.SNN

open HubToolbox

/-- Two sets of equal size lose at most one member each and may gain `p`. -/
theorem overlap_change {ι : Type} [DecidableEq ι] (A B A' B' : Finset ι) (p : ι) (hA : A'.card = A.card) (hB : B'.card = B.card)
    (hpA : p ∉ A) (hpB : p ∉ B) (sA : A'.erase p ⊆ A) (sB : B'.erase p ⊆ B) :
    (A' ∩ B').card ≤ (A ∩ B).card + 1 ∧ (A ∩ B).card ≤ (A' ∩ B').card + 1 := by
  have eq : ∀ {X X' : Finset ι}, X'.card = X.card → X'.erase p ⊆ X → p ∉ X' → X' = X := by
    intro X X' hc hs hp
    rw [Finset.erase_eq_of_notMem hp] at hs
    exact Finset.eq_of_subset_of_card_le hs hc.ge
  have lost : ∀ {X X' : Finset ι}, X'.card = X.card → X'.erase p ⊆ X → p ∉ X → (X \ X').card ≤ 1 := by
    intro X X' hc hs hp
    have h1 : X \ X' = X \ X'.erase p := by
      ext y
      simp only [Finset.mem_sdiff, Finset.mem_erase, not_and]
      exact ⟨fun h => ⟨h.1, fun _ => h.2⟩, fun h => ⟨h.1, h.2 (fun e => hp (e ▸ h.1))⟩⟩
    rw [h1, Finset.card_sdiff_of_subset hs]
    have := Spec.card_le_erase X' p
    omega
  constructor
  · have hs : A' ∩ B' ⊆ insert p (A ∩ B) := by
      intro y hy
      rw [Finset.mem_inter] at hy
      rw [Finset.mem_insert, Finset.mem_inter]
      by_cases e : y = p
      · exact .inl e
      · exact .inr ⟨sA (Finset.mem_erase.2 ⟨e, hy.1⟩), sB (Finset.mem_erase.2 ⟨e, hy.2⟩)⟩
    exact (Finset.card_le_card hs).trans (Finset.card_insert_le _ _)
  · have hs : A ∩ B ⊆ (A' ∩ B').erase p ∪ (A \ A' ∪ B \ B') := by
      intro y hy
      rw [Finset.mem_inter] at hy
      simp only [Finset.mem_union, Finset.mem_erase, Finset.mem_inter, Finset.mem_sdiff]
      by_cases h1 : y ∈ A'
      · by_cases h2 : y ∈ B'
        · exact .inl ⟨fun e => hpA (e ▸ hy.1), h1, h2⟩
        · exact .inr (.inr ⟨hy.2, h2⟩)
      · exact .inr (.inl ⟨hy.1, h1⟩)
    have hc := (Finset.card_le_card hs).trans ((Finset.card_union_le _ _).trans
      (Nat.add_le_add_left (Finset.card_union_le _ _) _))
    have lA := lost hA sA hpA
    have lB := lost hB sB hpB
    by_cases pA : p ∈ A'
    · by_cases pB : p ∈ B'
      · have := Finset.card_erase_add_one (Finset.mem_inter.2 ⟨pA, pB⟩)
        omega
      · rw [eq hB sB pB, Finset.sdiff_self, Finset.card_empty] at hc
        have := Finset.card_le_card (Finset.erase_subset p (A' ∩ B))
        rw [eq hB sB pB]
        omega
    · rw [eq hA sA pA, Finset.sdiff_self, Finset.card_empty] at hc
      have := Finset.card_le_card (Finset.erase_subset p (A ∩ B'))
      rw [eq hA sA pA]
      omega

variable {K : Type} [Field K] [LinearOrder K] [IsStrictOrderedRing K]

/-- **C217** (shared nearest neighbours): similarity and distance change by at most `1 / k`. -/
theorem C217_snn (w w' : World K) {n : ℕ} (x : Fin (n + 1) → Fin (n + 1) → K) (p : Fin (n + 1))
    (hties : ∀ i a b, a ≠ i → b ≠ i → x i a = x i b → a = b) (k : ℕ) (h1 : 1 ≤ k) (hk : k < n) (metric : String)
    (hm : metric = "distance" ∨ metric = "similarity") (nJobs nJobs' : ℤ) :
    ∃ (M : Fin (n + 1) → Fin (n + 1) → K) (M' : Fin n → Fin n → K),
      sharedNearestNeighbors w (.mat false (n + 1) (n + 1) fun i j => .fin (x i j)) k metric nJobs =
        .ok ⟨n + 1, fun i j => .fin (M i j)⟩ ∧
      sharedNearestNeighbors w' (.mat false n n fun i j => .fin (Spec.without x p i j)) k metric nJobs' =
        .ok ⟨n, fun i j => .fin (M' i j)⟩ ∧
      ∀ i j, |M (p.succAbove i) (p.succAbove j) - M' i j| ≤ 1 / k := by
  obtain ⟨N, hN, h⟩ := C34_formula w _ x (fun _ _ _ => rfl) k h1 (by omega) metric hm nJobs
  obtain ⟨N', hN', h'⟩ := C34_formula w' _ (Spec.without x p) (fun _ _ _ => rfl) k h1 hk metric hm nJobs'
  refine ⟨_, _, h, h', ?_⟩
  have hinj : ∀ c d, p.succAbove c = p.succAbove d ↔ c = d := fun c d => Fin.succAbove_right_inj
  have hsub : ∀ i, (N (p.succAbove i)).erase p ⊆ (N' i).map p.succAboveEmb := by
    intro i y hy
    obtain ⟨hyp, hyN⟩ := Finset.mem_erase.1 hy
    obtain ⟨c, rfl⟩ := Fin.exists_succAbove_eq hyp
    refine Finset.mem_map.2 ⟨c, ?_, rfl⟩
    have hci : c ≠ i := fun e => (Finset.mem_erase.1 ((hN _).sub hyN)).1 (by rw [e])
    refine Spec.IsHood.sub_of p.succAboveEmb ?_ (hN' i) (hN (p.succAbove i)) le_rfl ?_ c (Finset.mem_erase.2 ⟨hci, Finset.mem_univ _⟩) hyN
    · intro c hc
      exact Finset.mem_erase.2 ⟨fun e => (Finset.mem_erase.1 hc).1 ((hinj _ _).1 e), Finset.mem_univ _⟩
    · intro a ha b hb e1 e2
      have := hties (p.succAbove i) (p.succAbove a) (p.succAbove b) (fun e => (Finset.mem_erase.1 ha).1 ((hinj _ _).1 e))
        (fun e => (Finset.mem_erase.1 hb).1 ((hinj _ _).1 e)) (Spec.nearer_anti _ e1 e2)
      exact (hinj _ _).1 this
  have hk0 : (0 : K) < k := by exact_mod_cast (by omega : 0 < k)
  have key : ∀ i j, |(Spec.commonFraction (N (p.succAbove i)) (N (p.succAbove j)) k : K) - Spec.commonFraction (N' i) (N' j) k| ≤
      1 / k := by
    intro i j
    have hp : ∀ c, p ∉ (N' c).map p.succAboveEmb := by
      intro c hc
      obtain ⟨d, -, e⟩ := Finset.mem_map.1 hc
      exact Fin.succAbove_ne p d e
    obtain ⟨c1, c2⟩ := overlap_change ((N' i).map p.succAboveEmb) ((N' j).map p.succAboveEmb) (N (p.succAbove i)) (N (p.succAbove j)) p
      (by rw [Finset.card_map, (hN _).card, (hN' _).card]) (by rw [Finset.card_map, (hN _).card, (hN' _).card])
      (hp i) (hp j) (hsub i) (hsub j)
    rw [← Finset.map_inter, Finset.card_map] at c1 c2
    have e1 : ((N (p.succAbove i) ∩ N (p.succAbove j)).card : K) ≤ (N' i ∩ N' j).card + 1 := by exact_mod_cast c1
    have e2 : ((N' i ∩ N' j).card : K) ≤ (N (p.succAbove i) ∩ N (p.succAbove j)).card + 1 := by exact_mod_cast c2
    unfold Spec.commonFraction
    rw [← sub_div, abs_div, abs_of_pos hk0]
    exact div_le_div_of_nonneg_right (abs_le.2 ⟨by linarith, by linarith⟩) hk0.le
  intro i j
  by_cases hij : i = j
  · rw [if_pos hij, if_pos (by rw [hij]), sub_self, abs_zero]
    positivity
  · rw [if_neg hij, if_neg (fun e => hij ((hinj _ _).1 e))]
    unfold Spec.snn
    split
    · exact key i j
    · rw [sub_sub_sub_cancel_left, abs_sub_comm]
      exact key i j

end HubToolbox.SNN

namespace HubToolbox.Hubness

open HubToolbox HubToolbox.Spec

variable {K : Type} [Field K] [LinearOrder K] [IsStrictOrderedRing K]

/-- **C217** (`hubness`): the k-occurrence of existing objects rises by at most one. -/
theorem C217_hubness (o o' : ArgPart (XR K)) (rnd rnd' : Rnd) (sched sched' : Schedule) {n : ℕ}
    (sparse sparse' : Bool) (D : Fin (n + 1) → Fin (n + 1) → XR K) (p : Fin (n + 1)) (k : ℤ) (hk : k < n) (metric : String)
    (nJobs nJobs' : ℤ) (seed seed' shuffle shuffle' : Bool) (htf : TieFree metric D) (r : Res (n + 1)) (r' : Res n)
    (h : hubnessMat o rnd sched sparse D k metric nJobs seed shuffle = .ok r)
    (h' : hubnessMat o' rnd' sched' sparse' (without D p) k metric nJobs' seed' shuffle' = .ok r') (c : Fin n)
    (hc : (p.succAbove c).val < r.Nk.length) (hc' : c.val < r'.Nk.length) :
    r.Nk[(p.succAbove c).val] ≤ r'.Nk[c.val] + 1 := by
  have cov : Covered nJobs metric (n + 1) (n + 1) := fun h => h.2.2 rfl
  have cov' : Covered nJobs' metric n n := fun h => h.2.2 rfl
  have hinj : ∀ c d, p.succAbove c = p.succAbove d ↔ c = d := fun c d => Fin.succAbove_right_inj
  have heff : ∀ i j, effective metric (without D p) i j = effective metric D (p.succAbove i) (p.succAbove j) := by
    intro i j
    unfold effective without
    simp only [true_and, ne_eq, not_true_eq_false, false_and, or_false, ← Fin.ext_iff, hinj]
  have hmem : ∀ i, (p.succAbove c).val ∈ r.Dk (p.succAbove i) → c.val ∈ r'.Dk i := by
    intro i hi
    obtain ⟨L, e, hL⟩ := C01_hubness_knn o rnd sched sparse D k metric nJobs seed shuffle cov r h (p.succAbove i)
    obtain ⟨L', e', hL'⟩ := C01_hubness_knn o' rnd' sched' sparse' _ k metric nJobs' seed' shuffle' cov' r' h' i
    rw [e, List.mem_map] at hi
    obtain ⟨y, hy, ey⟩ := hi
    rw [Fin.ext ey] at hy
    rw [e']
    refine List.mem_map.2 ⟨c, ?_, rfl⟩
    have hh := hL'.isHood
    rw [show effective metric (without D p) i = fun j => effective metric D (p.succAbove i) (p.succAboveEmb j) from
      funext (heff i)] at hh
    refine List.mem_toFinset.1 (IsHood.sub_of p.succAboveEmb (fun _ _ => Finset.mem_univ _) hh hL.isHood ?_ ?_ c (Finset.mem_univ _)
      (List.mem_toFinset.2 hy))
    · rw [min_eq_left (by push_cast; omega), min_eq_left (by omega)]
    · intro a _ b _ h1 h2
      exact (hinj _ _).1 (htf _ (closer_anti h1 h2))
  obtain ⟨-, ho, -⟩ := C03_k_occurrence o rnd sched sparse D k metric nJobs seed shuffle cov r h
  obtain ⟨-, ho', -⟩ := C03_k_occurrence o' rnd' sched' sparse' _ k metric nJobs' seed' shuffle' cov' r' h'
  rw [(ho _ hc).1, (ho' _ hc').1]
  unfold occurrences
  have hs : (Finset.univ.filter (fun i => (p.succAbove c).val ∈ r.Dk i)).erase p ⊆
      (Finset.univ.filter (fun i => c.val ∈ r'.Dk i)).map p.succAboveEmb := by
    intro y hy
    obtain ⟨hyp, hy⟩ := Finset.mem_erase.1 hy
    obtain ⟨i, rfl⟩ := Fin.exists_succAbove_eq hyp
    rw [Finset.mem_filter] at hy
    exact Finset.mem_map.2 ⟨i, Finset.mem_filter.2 ⟨Finset.mem_univ _, hmem i hy.2⟩, rfl⟩
  have h1 := Finset.card_le_card hs
  rw [Finset.card_map] at h1
  exact (card_le_erase _ p).trans (Nat.add_le_add_right h1 1)

end HubToolbox.Hubness

/-! ### The hypotheses are satisfiable -/

namespace HubToolbox

open HubToolbox.Hubness in
example (o o' : ArgPart (XR ℚ)) (rnd rnd' : Rnd) := C218_hubness o o' rnd rnd' rowMajor reverseOrder false false exD 1 2 (by norm_num)
  "distance" 1 4 true false true true (by simp [Covered]) (by simp [Covered]) exD_tieFree _ _
  ((C01_hubness_succeeds_iff o rnd rowMajor false exD 1 "distance" 1 true true (by simp [Covered])).2 (by decide)).choose_spec
  (exD_parallel o' rnd' exD "distance" (Or.inl rfl)).choose_spec

example (w w' : LS.World) := LS.C218_local_scaling w w' LS.line3 LS.line3_symm 1 2 le_rfl (by norm_num) none 1 4 (by norm_num)
  (by norm_num) _ LS.line3_radii LS.line3_pos (by decide) (by norm_num)

example (w w' : SNN.World ℝ) := SNN.C218_snn w w' (fun i j => (SNN.wide4 i j : ℝ))
  (fun i a b ha hb h => (by decide : ∀ i a b, a ≠ i → b ≠ i → SNN.wide4 i a = SNN.wide4 i b → a = b) i a b ha hb (by exact_mod_cast h))
  1 3 le_rfl (by norm_num) (by norm_num) 1 4

example (order order' : MPEmp.Order ℚ) := MPEmp.C217_mp order order' (n := 2) MPEmp.exD 1 MPEmp.exD_symm "distance" none none 0 0 _ _
  rfl rfl 0 1

example (w w' : LS.World) := LS.C217_local_scaling w w' (n := 2) LS.line3 1 LS.line3_symm 1 le_rfl (by norm_num) 1 4 (by norm_num)
  (by norm_num) _ (by have := LS.line3_radii; rwa [LS.training_none] at this) LS.line3_pos

example (w w' : SNN.World ℝ) := SNN.C217_snn w w' (n := 3) (fun i j => (SNN.wide4 i j : ℝ)) 2
  (fun i a b ha hb h => (by decide : ∀ i a b, a ≠ i → b ≠ i → SNN.wide4 i a = SNN.wide4 i b → a = b) i a b ha hb (by exact_mod_cast h))
  2 (by norm_num) (by norm_num) "distance" (.inl rfl) 1 4

open HubToolbox.Hubness in
example (o o' : ArgPart (XR ℚ)) (rnd rnd' : Rnd) := C217_hubness o o' rnd rnd' rowMajor reverseOrder (n := 2) false false exD 1 1
  (by norm_num) "distance" 1 4 true false true true exD_tieFree _ _
  ((C01_hubness_succeeds_iff o rnd rowMajor false exD 1 "distance" 1 true true (by simp [Covered])).2 (by decide)).choose_spec
  ((C01_hubness_succeeds_iff o' rnd' reverseOrder false (Spec.without (n := 2) exD 1) 1 "distance" 4 false true
    (by simp [Covered])).2 (by decide)).choose_spec 0

end HubToolbox
