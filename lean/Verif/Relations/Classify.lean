import Verif.Knn.Props

/-!
# k-NN classification of data without ties (C169)
-/

set_option autoImplicit false

namespace HubToolbox.Relations

open HubToolbox

/-! ### Nearest neighbours and votes are unique -/

section
variable {K : Type} [LinearOrder K] {α β : Type} [DecidableEq α] [DecidableEq β]

theorem Nearer.anti {metric : String} {x y : XR K} (h : Spec.Nearer metric x y) (h' : Spec.Nearer metric y x) : x = y := by
  unfold Spec.Nearer at h h'
  split at h
  · rw [if_pos ‹_›] at h'; exact le_antisymm h h'
  · rw [if_neg ‹_›] at h'; exact le_antisymm h' h

theorem isKNN_unique {metric : String} {row : α → XR K} {cand : Finset α} {k : ℕ} {N N' : List α}
    (h : Spec.IsKNN metric row cand k N) (h' : Spec.IsKNN metric row cand k N')
    (hinj : ∀ a ∈ cand, ∀ b ∈ cand, row a = row b → a = b) : N = N' := by
  have hlen : N.length = N'.length := by rw [h.length, h'.length]
  have hsub : N ⊆ N' := by
    intro a ha
    by_contra hna
    have : ∃ b ∈ N', b ∉ N := by
      by_contra hno
      push Not at hno
      have hss : N'.toFinset ⊂ N.toFinset := by
        rw [Finset.ssubset_iff_of_subset (fun b hb => List.mem_toFinset.2 (hno b (List.mem_toFinset.1 hb)))]
        exact ⟨a, List.mem_toFinset.2 ha, fun hb => hna (List.mem_toFinset.1 hb)⟩
      have := Finset.card_lt_card hss
      rw [List.toFinset_card_of_nodup h.nodup, List.toFinset_card_of_nodup h'.nodup] at this
      omega
    obtain ⟨b, hb, hbN⟩ := this
    have e := Nearer.anti (h.nearest a ha b (h'.mem b hb).1 (h'.mem b hb).2 hbN)
      (h'.nearest b hb a (h.mem a ha).1 (h.mem a ha).2 hna)
    exact hbN (hinj a (h.mem a ha).1 b (h'.mem b hb).1 e ▸ ha)
  have hperm : N.Perm N' := (h.nodup.subperm hsub).perm_of_length_le hlen.ge
  refine hperm.eq_of_pairwise ?_ h.sorted h'.sorted
  intro a b ha hb h1 h2
  exact hinj a (h.mem a ha).1 b (h'.mem b hb).1 (Nearer.anti h1 h2)

omit [DecidableEq α] [DecidableEq β] in
/-- Neighbours under another numbering, for equally ordered distances. -/
theorem isKNN_map (σ : α ≃ β) {metric : String} {row : β → XR K} {row' : α → XR K} {cand : Finset β} {cand' : Finset α}
    {k : ℕ} {N : List α} (hc : ∀ a, a ∈ cand' ↔ σ a ∈ cand)
    (hfin : ∀ a ∈ cand', ((row' a).isFinite = (row (σ a)).isFinite))
    (hord : ∀ a ∈ cand', ∀ b ∈ cand', Spec.Nearer metric (row' a) (row' b) → Spec.Nearer metric (row (σ a)) (row (σ b)))
    (h : Spec.IsKNN metric row' cand' k N) : Spec.IsKNN metric row cand k (N.map σ) := by
  refine ⟨h.nodup.map σ.injective, ?_, ?_, ?_, ?_⟩
  · intro x hx
    obtain ⟨a, ha, rfl⟩ := List.mem_map.1 hx
    have := h.mem a ha
    exact ⟨(hc a).1 this.1, (hfin a this.1) ▸ this.2⟩
  · rw [List.pairwise_map]
    refine List.Pairwise.imp_of_mem ?_ h.sorted
    intro a b ha hb hab
    exact hord a (h.mem a ha).1 b (h.mem b hb).1 hab
  · intro x hx y hy hyf hyN
    obtain ⟨a, ha, rfl⟩ := List.mem_map.1 hx
    obtain ⟨b, rfl⟩ := σ.surjective y
    have hb := (hc b).2 hy
    exact hord a (h.mem a ha).1 b hb (h.nearest a ha b hb ((hfin b hb).symm ▸ hyf)
      (fun hbN => hyN (List.mem_map_of_mem hbN)))
  · rw [List.length_map, h.length]
    congr 1
    rw [← Finset.card_map σ.toEmbedding]
    congr 1
    ext y
    obtain ⟨b, rfl⟩ := σ.surjective y
    simp only [Finset.mem_map_equiv, Finset.mem_filter, Equiv.symm_apply_apply, hc]
    refine and_congr_right fun hb => ?_
    rw [hfin b ((hc b).2 hb)]
end

section
variable {L : Type} [DecidableEq L]

theorem isVote_unique {labels : List L} {p q : L} (h : Spec.IsVote labels p) (h' : Spec.IsVote labels q) : p = q := by
  by_cases hs : ∃ c, Spec.StrictMode labels c
  · obtain ⟨c, hc⟩ := hs
    rw [h.1 c hc, h'.1 c hc]
  · push Not at hs
    exact Option.some.inj ((h.2 hs).symm.trans (h'.2 hs))

theorem strictMode_map [Nontrivial L] {labels : List L} {g : L → L} (hg : Function.Injective g) (c : L) :
    Spec.StrictMode (labels.map g) (g c) ↔ Spec.StrictMode labels c := by
  constructor
  · intro h c' hc'
    have := h (g c') (hg.ne hc')
    rwa [List.count_map_of_injective _ _ hg, List.count_map_of_injective _ _ hg] at this
  · intro h d hd
    rw [List.count_map_of_injective _ _ hg]
    by_cases hdm : d ∈ labels.map g
    · obtain ⟨c', -, rfl⟩ := List.mem_map.1 hdm
      rw [List.count_map_of_injective _ _ hg]
      exact h c' (fun e => hd (e ▸ rfl))
    · rw [List.count_eq_zero_of_not_mem hdm]
      obtain ⟨c', hc'⟩ := exists_ne c
      exact lt_of_le_of_lt (Nat.zero_le _) (h c' hc')

theorem isVote_map [Nontrivial L] {labels : List L} {g : L → L} (hg : Function.Injective g) {p : L} (h : Spec.IsVote labels p) :
    Spec.IsVote (labels.map g) (g p) := by
  constructor
  · intro d hd
    have hdm : d ∈ labels.map g := by
      by_contra hno
      obtain ⟨c', hc'⟩ := exists_ne d
      have := hd c' hc'
      rw [List.count_eq_zero_of_not_mem hno] at this
      omega
    obtain ⟨c, -, rfl⟩ := List.mem_map.1 hdm
    rw [h.1 c ((strictMode_map hg c).1 hd)]
  · intro hno
    rw [List.head?_map, h.2 (fun c hc => hno (g c) ((strictMode_map hg c).2 hc))]
    rfl
end

/-! ### C169 -/

variable {K : Type} [Field K] [LinearOrder K]

/-- **C169**: leave-one-out classification of data without ties does not depend on the random choices, on the numbering of the
points, on the names of the classes, or on anything but the order of each row: the same points are classified correctly and
the accuracy is the same. -/
theorem C169_score (srt srt' : Knn.ArgSort (XR K)) (o o' : ArgPart (XR K)) (rnd rnd' : Knn.Rnd) {n : ℕ} (hn : 2 ≤ n)
    (x x' : Fin n → Fin n → K) (y y' : Fin n → ℤ) (ks : List ℤ) (hk : ∀ k ∈ ks, 1 ≤ k) (metric : String)
    (hm : metric = "distance" ∨ metric = "similarity") (hties : ∀ i a b, a ≠ i → b ≠ i → x i a = x i b → a = b)
    (σ : Equiv.Perm (Fin n)) (hord : ∀ i a b, a ≠ i → b ≠ i → (x' i a < x' i b ↔ x (σ i) (σ a) < x (σ i) (σ b)))
    (g : ℤ → ℤ) (hg : Function.Injective g) (hy : ∀ i, y' i = g (y (σ i))) :
    ∃ r r', Knn.score srt o rnd (.mat false n n (fun i j => .fin (x i j))) (.vec n y) (.list ks) metric none = .ok ⟨n, r⟩ ∧
      Knn.score srt' o' rnd' (.mat false n n (fun i j => .fin (x' i j))) (.vec n y') (.list ks) metric none = .ok ⟨n, r'⟩ ∧
      ∀ j, j < ks.length → ∃ q q', r.perK[j]? = some q ∧ r'.perK[j]? = some q' ∧ (∀ i, q'.corr i = q.corr (σ i)) ∧
        q'.acc = q.acc := by
  have hn0 : 0 < n := by omega
  obtain ⟨r, hr, hE⟩ := Knn.C43_dense_loo srt o rnd (fun i j => .fin (x i j)) y ks hk metric hm
  obtain ⟨r', hr', hE'⟩ := Knn.C43_dense_loo srt' o' rnd' (fun i j => .fin (x' i j)) y' ks hk metric hm
  obtain ⟨s, hs, -, hC⟩ := Knn.C42_loo hn0 srt o rnd false (fun i j => .fin (x i j)) y ks metric hm
  obtain ⟨s', hs', -, hC'⟩ := Knn.C42_loo hn0 srt' o' rnd' false (fun i j => .fin (x' i j)) y' ks metric hm
  obtain rfl : s = r := by rw [hr] at hs; injection hs with hs; injection hs with _ hs; exact hs.symm
  obtain rfl : s' = r' := by rw [hr'] at hs'; injection hs' with hs'; injection hs' with _ hs'; exact hs'.symm
  refine ⟨s, s', hr, hr', fun j hj => ?_⟩
  obtain ⟨q, hq, pred, h1, -, h3⟩ := hE j hj
  obtain ⟨q', hq', pred', h1', -, h3'⟩ := hE' j hj
  have hok : ∀ (z : Fin n → Fin n → K) (i : Fin n), (∃ a, a ≠ i ∧ (XR.fin (z i a)).isFinite = true) ∧
      ∀ a, a ≠ i → XR.fin (z i a) ≠ Spec.tooNear metric := by
    intro z i
    refine ⟨?_, fun a _ => by unfold Spec.tooNear; split <;> exact fun h => by cases h⟩
    have : Nontrivial (Fin n) := Fin.nontrivial_iff_two_le.2 hn
    obtain ⟨a, ha⟩ := exists_ne i
    exact ⟨a, ha, rfl⟩
  have hpred : ∀ i, pred' i = g (pred (σ i)) := by
    intro i
    obtain ⟨N, -, hN, hV⟩ := h3 (σ i) (hok x (σ i))
    obtain ⟨N', -, hN', hV'⟩ := h3' i (hok x' i)
    have hmap := isKNN_map σ (row := fun b => XR.fin (x (σ i) b)) (cand := Finset.univ.erase (σ i))
      (cand' := Finset.univ.erase i) (row' := fun b => XR.fin (x' i b)) (by intro a; simp)
      (fun a _ => rfl) (by
        intro a ha b hb
        have ha := (Finset.mem_erase.1 ha).1
        have hb := (Finset.mem_erase.1 hb).1
        unfold Spec.Nearer
        split
        · simp only [XR.fin_le_fin]
          rw [← not_lt, ← not_lt]
          exact mt (hord i b a hb ha).2
        · simp only [XR.fin_le_fin]
          rw [← not_lt, ← not_lt]
          exact mt (hord i a b ha hb).2) hN'
    have hNN := isKNN_unique hN hmap (by
      intro a ha b hb hab
      exact hties (σ i) a b (Finset.mem_erase.1 ha).1 (Finset.mem_erase.1 hb).1 (XR.fin.inj hab))
    refine isVote_unique hV' ?_
    have hlab : N'.map y' = (N.map y).map g := by
      rw [hNN, List.map_map, List.map_map]
      exact List.map_congr_left fun a _ => hy a
    rw [hlab]
    exact isVote_map hg hV
  have hcorr : ∀ i, q'.corr i = q.corr (σ i) := by
    intro i
    rw [h1' i (hok x' i) (List.mem_finRange _), h1 (σ i) (hok x (σ i)) (List.mem_finRange _), hpred, hy]
    simp only [hg.eq_iff]
  refine ⟨q, q', hq, hq', hcorr, ?_⟩
  rw [(hC q (List.mem_of_getElem? hq)).2.2.1, (hC' q' (List.mem_of_getElem? hq')).2.2.1]
  simp only [hcorr]
  rw [Equiv.sum_comp σ q.corr]

/-! ### The hypotheses can be met -/

/-- Four points on a line at `0, 1, 3, 7`. -/
def onLine : Fin 4 → Fin 4 → ℚ := ![![0, 1, 3, 7], ![1, 0, 2, 6], ![3, 2, 0, 4], ![7, 6, 4, 0]]

-- the first and last point exchanged, squared distances, class names 1 and 2 replaced by 10 and 20
example : (∀ i a b, a ≠ i → b ≠ i → onLine i a = onLine i b → a = b) ∧
    (∀ i a b, a ≠ i → b ≠ i →
      (onLine (Equiv.swap 0 3 i) (Equiv.swap 0 3 a) ^ 2 < onLine (Equiv.swap 0 3 i) (Equiv.swap 0 3 b) ^ 2 ↔
        onLine (Equiv.swap 0 3 i) (Equiv.swap 0 3 a) < onLine (Equiv.swap 0 3 i) (Equiv.swap 0 3 b))) ∧
    Function.Injective (fun c : ℤ => 10 * c) ∧
    ∀ i, (![20, 10, 20, 10] : Fin 4 → ℤ) i = 10 * (![1, 1, 2, 2] : Fin 4 → ℤ) (Equiv.swap 0 3 i) := by
  refine ⟨by decide +kernel, by decide +kernel, fun a b h => by simpa using h, by decide +kernel⟩

end HubToolbox.Relations
