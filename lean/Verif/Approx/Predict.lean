import Verif.Approx.PredictModel
import Verif.Approx.Finite
import Verif.Approx.Hnsw

/-!
# Properties of prediction and of the sparse result
-/

set_option autoImplicit false

namespace HubToolbox

namespace Spec

/-- Label `c` wins the vote of the objects in `N` with weights `w`: it is one of their labels, no other one has more weight,
and it is the smallest with that weight. -/
structure IsWeightedVote {K : Type} [Field K] [LinearOrder K] {m : ℕ} (N : Finset (Fin m)) (w : Fin m → K) (label : Fin m → ℤ)
    (c : ℤ) : Prop where
  present : ∃ j ∈ N, label j = c
  best : ∀ j ∈ N, (N.filter (fun l => label l = label j)).sum w ≤ (N.filter (fun l => label l = c)).sum w
  smallest : ∀ j ∈ N, (N.filter (fun l => label l = label j)).sum w = (N.filter (fun l => label l = c)).sum w → c ≤ label j

end Spec

namespace Approx

variable {K : Type} [Field K] [LinearOrder K] [IsStrictOrderedRing K]

/-! ### The vote -/

theorem foldl_best (g : ℤ → K) (cs : List ℤ) (c : ℤ) (hc : ∀ x ∈ cs, c < x) (hs : cs.Pairwise (· < ·)) :
    let b := cs.foldl (fun best c => if g best < g c then c else best) c
    (b = c ∨ b ∈ cs) ∧ (g c ≤ g b ∧ (g c = g b → b ≤ c)) ∧ ∀ x ∈ cs, g x ≤ g b ∧ (g x = g b → b ≤ x) := by
  induction cs generalizing c with
  | nil => simp
  | cons a cs ih =>
    have hs' := List.pairwise_cons.1 hs
    simp only [List.foldl_cons]
    split_ifs with h
    · obtain ⟨h1, h2, h3⟩ := ih a (fun x hx => hs'.1 x hx) hs'.2
      refine ⟨?_, ⟨(h.trans_le h2.1).le, fun he => absurd (h.trans_le h2.1) (by rw [he]; exact lt_irrefl _)⟩, ?_⟩
      · rcases h1 with h1 | h1
        · right; rw [h1]; simp
        · right; simp [h1]
      · intro x hx
        rcases List.mem_cons.1 hx with rfl | hx
        · exact h2
        · exact h3 x hx
    · have hle := not_lt.1 h
      obtain ⟨h1, h2, h3⟩ := ih c (fun x hx => hc x (by simp [hx])) hs'.2
      refine ⟨?_, h2, ?_⟩
      · rcases h1 with h1 | h1
        · exact Or.inl h1
        · right; simp [h1]
      · intro x hx
        rcases List.mem_cons.1 hx with rfl | hx
        · refine ⟨hle.trans h2.1, fun he => ?_⟩
          have : g c = _ := le_antisymm h2.1 (he ▸ hle)
          exact (h2.2 this).trans (hc x (by simp)).le
        · exact h3 x hx

theorem unique_mem {l : List ℤ} {x : ℤ} : x ∈ Np.unique l ↔ x ∈ l := by
  simp [Np.unique, Np.sort, List.mem_insertionSort]

theorem unique_sorted (l : List ℤ) : (Np.unique l).Pairwise (· < ·) := by
  have h1 : (Np.unique l).Pairwise (· ≤ ·) := List.pairwise_insertionSort (· ≤ ·) l.dedup
  have h2 : (Np.unique l).Nodup := (List.perm_insertionSort (· ≤ ·) l.dedup).nodup_iff.2 l.nodup_dedup
  have := List.Pairwise.and h1 h2
  exact this.imp (fun h => lt_of_le_of_ne h.1 h.2)

theorem winner_spec (votes : List (ℤ × K)) (hne : votes ≠ []) : ∃ c, winner votes = some c ∧ (∃ v ∈ votes, v.1 = c) ∧
    ∀ v ∈ votes, support votes v.1 ≤ support votes c ∧ (support votes v.1 = support votes c → c ≤ v.1) := by
  unfold winner
  have hs := unique_sorted (votes.map Prod.fst)
  have hm : ∀ x, x ∈ Np.unique (votes.map Prod.fst) ↔ ∃ v ∈ votes, v.1 = x := by
    intro x; rw [unique_mem]; simp
  cases hu : Np.unique (votes.map Prod.fst) with
  | nil =>
    exfalso
    obtain ⟨v, hv⟩ := List.exists_mem_of_ne_nil _ hne
    have := (hm v.1).2 ⟨v, hv, rfl⟩
    rw [hu] at this; simp at this
  | cons a l =>
    rw [hu] at hs hm
    have hs' := List.pairwise_cons.1 hs
    obtain ⟨h1, h2, h3⟩ := foldl_best (support votes) l a hs'.1 hs'.2
    refine ⟨_, rfl, (hm _).1 ?_, fun v hv => ?_⟩
    · rcases h1 with h1 | h1
      · rw [h1]; simp
      · simp [h1]
    · rcases List.mem_cons.1 ((hm v.1).2 ⟨v, hv, rfl⟩) with h | h
      · rw [h]; exact h2
      · exact h3 _ h

/-- Weights of the classifier as function of the object. -/
def weightOf {m : ℕ} (w : Weights) (N : List (Fin m)) (x : Fin m → K) (j : Fin m) : K :=
  match w with
  | .uniform => 1
  | .distance => if ∃ l ∈ N, x l = 0 then (if x j = 0 then 1 else 0) else 1 / x j

theorem voteWeights_eq {m : ℕ} (w : Weights) (N : List (Fin m)) (x : Fin m → K) :
    voteWeights w (N.map x) = N.map (weightOf w N x) := by
  cases w with
  | uniform => simp [voteWeights, weightOf]
  | distance =>
    have : (0 : K) ∈ N.map x ↔ ∃ l ∈ N, x l = 0 := by simp
    by_cases h : ∃ l ∈ N, x l = 0
    · simp only [voteWeights, if_pos (this.2 h), List.map_map]
      refine List.map_congr_left (fun j _ => ?_)
      simp only [Function.comp, weightOf, if_pos h]
    · simp only [voteWeights, if_neg (fun h' => h (this.1 h')), List.map_map]
      refine List.map_congr_left (fun j _ => ?_)
      simp only [Function.comp, weightOf, if_neg h]

theorem support_eq {m : ℕ} (N : List (Fin m)) (hN : N.Nodup) (label : Fin m → ℤ) (w : Fin m → K) (c : ℤ) :
    support ((N.map label).zip (N.map w)) c = ((N.toFinset).filter (fun l => label l = c)).sum w := by
  have hz : (N.map label).zip (N.map w) = N.map (fun j => (label j, w j)) := by
    rw [List.zip_map', ]
  have hf : (N.toFinset).filter (fun l => label l = c) = (N.filter (fun l => decide (label l = c))).toFinset := by
    ext l; simp
  rw [support, hz, List.filter_map, List.map_map, hf, List.sum_toFinset _ (hN.filter _)]
  rfl

/-- What one row of the classifier returns. -/
theorem knnPredict_char {m : ℕ} (o : ArgPart (XR K)) (w : Weights) (k : ℕ) (hk : 0 < k) (hkm : k ≤ m) (label : Fin m → ℤ)
    (x : Fin m → K) : ∃ (N : List (Fin m)) (c : ℤ), knnPredict o w k label (fun j => .fin (x j)) = .ok c ∧ N.Nodup ∧
      N.toFinset.card = k ∧ (∀ a ∈ N, ∀ b, b ∉ N → x a ≤ x b) ∧ Spec.IsWeightedVote N.toFinset (weightOf w N x) label c := by
  let perm := o.run (fun j => (.fin (x j) : XR K)) (fun _ : Fin 1 => (⟨k - 1, by omega⟩ : Fin m))
  let N : List (Fin m) := (List.finRange k).map (fun c => perm ⟨c.val, by omega⟩)
  have hnd : N.Nodup := by
    refine (List.nodup_map_iff ?_).2 (List.nodup_finRange k)
    intro a b h
    have h' : (⟨a.val, by omega⟩ : Fin m) = ⟨b.val, by omega⟩ := perm.injective h
    exact Fin.ext (Fin.mk.inj h')
  have hlen : N.length = k := by simp [N]
  have hcard : N.toFinset.card = k := by rw [List.toFinset_card_of_nodup hnd, hlen]
  have hbest : ∀ a ∈ N, ∀ b, b ∉ N → x a ≤ x b := by
    intro a ha b hb
    obtain ⟨c, _, rfl⟩ := List.mem_map.1 ha
    have hb' : k - 1 ≤ (perm.symm b).val := by
      by_contra hlt
      apply hb
      refine List.mem_map.2 ⟨⟨(perm.symm b).val, by omega⟩, List.mem_finRange _, ?_⟩
      exact perm.apply_symm_apply b
    have h1 := o.before (fun j => (.fin (x j) : XR K)) (fun _ : Fin 1 => (⟨k - 1, by omega⟩ : Fin m)) 0
      ⟨c.val, by omega⟩ (by change c.val ≤ k - 1; omega)
    have h2 := o.after (fun j => (.fin (x j) : XR K)) (fun _ : Fin 1 => (⟨k - 1, by omega⟩ : Fin m)) 0
      (perm.symm b) hb'
    have h3 := h1.trans h2
    simp only [XR.fin_le_fin] at h3
    have h4 : (o.run (fun j => (.fin (x j) : XR K)) (fun _ : Fin 1 => (⟨k - 1, by omega⟩ : Fin m))) (perm.symm b) = b :=
      perm.apply_symm_apply b
    rw [h4] at h3
    exact h3
  have hvne : (N.map label).zip (N.map (weightOf w N x)) ≠ [] := by
    intro h
    have := congrArg List.length h
    simp [hlen] at this
    omega
  obtain ⟨c, hc, hmem, hmax⟩ := winner_spec _ hvne
  have hzip : (N.map label).zip (N.map (weightOf w N x)) = N.map (fun j => (label j, weightOf w N x j)) := by
    rw [List.zip_map']
  refine ⟨N, c, ?_, hnd, hcard, hbest, ?_, ?_, ?_⟩
  · unfold knnPredict
    rw [dif_pos ⟨hk, hkm⟩, if_pos (show ∀ j : Fin m, (XR.fin (x j)).isFinite = true from fun j => rfl)]
    change (match winner ((N.map label).zip (voteWeights w (N.map x))) with
      | some c => _
      | none => _) = _
    rw [voteWeights_eq, hc]
  · obtain ⟨v, hv, rfl⟩ := hmem
    rw [hzip] at hv
    obtain ⟨j, hj, rfl⟩ := List.mem_map.1 hv
    exact ⟨j, List.mem_toFinset.2 hj, rfl⟩
  · intro j hj
    have := (hmax (label j, weightOf w N x j) (by rw [hzip]; exact List.mem_map.2 ⟨j, List.mem_toFinset.1 hj, rfl⟩)).1
    rwa [support_eq N hnd, support_eq N hnd] at this
  · intro j hj he
    refine (hmax (label j, weightOf w N x j) (by rw [hzip]; exact List.mem_map.2 ⟨j, List.mem_toFinset.1 hj, rfl⟩)).2 ?_
    rw [support_eq N hnd, support_eq N hnd]
    exact he

theorem vote_unique {m : ℕ} {N : Finset (Fin m)} {w : Fin m → K} {label : Fin m → ℤ} {c c' : ℤ}
    (h : Spec.IsWeightedVote N w label c) (h' : Spec.IsWeightedVote N w label c') : c = c' := by
  obtain ⟨j, hj, rfl⟩ := h.present
  obtain ⟨j', hj', rfl⟩ := h'.present
  have e := le_antisymm (h.best j' hj') (h'.best j hj)
  exact le_antisymm (h.smallest j' hj' e) (h'.smallest j hj e.symm)

theorem nearest_unique {m : ℕ} {x : Fin m → K} (hx : Function.Injective x) {N M : Finset (Fin m)} (hc : N.card = M.card)
    (hN : ∀ a ∈ N, ∀ b, b ∉ N → x a ≤ x b) (hM : ∀ a ∈ M, ∀ b, b ∉ M → x a ≤ x b) : N = M := by
  by_contra hne
  have h1 : ∃ a ∈ N, a ∉ M := by
    by_contra h
    push Not at h
    exact hne (Finset.eq_of_subset_of_card_le h hc.ge)
  have h2 : ∃ b ∈ M, b ∉ N := by
    by_contra h
    push Not at h
    exact hne (Finset.eq_of_subset_of_card_le h hc.le).symm
  obtain ⟨a, ha, ha'⟩ := h1
  obtain ⟨b, hb, hb'⟩ := h2
  have := hx (le_antisymm (hN a ha b hb') (hM b hb a ha'))
  rw [this] at ha
  exact hb' ha

theorem tabulateM_get {α : Type} {n : ℕ} {f : Fin n → Py α} {g : Fin n → α} (h : Np.tabulateM f = .ok g) (i : Fin n) :
    f i = .ok (g i) := by
  induction n with
  | zero => exact i.elim0
  | succ n ih =>
    unfold Np.tabulateM at h
    cases h0 : f 0 with
    | error e => rw [h0] at h; cases h
    | ok a =>
      rw [h0] at h
      cases h1 : Np.tabulateM (fun i => f i.succ) with
      | error e => rw [h1] at h; cases h
      | ok r =>
        rw [h1] at h
        have hg := (Except.ok.inj h).symm
        subst hg
        refine Fin.cases ?_ (fun j => ?_) i
        · exact h0
        · exact ih h1 j

/-- The result of `predict` for row `i`. -/
theorem predictFixed_row {t m : ℕ} (o : ArgPart (XR K)) (w : Weights) (kw : Option ℕ) (label : Fin m → ℤ)
    (D : Fin t → Fin m → XR K) (out : Fin t → ℤ) (h : predictFixed o w kw label D = .ok out) :
    ∃ E, enforceFinite D = .ok E ∧ ∀ i, knnPredict o w (kw.getD 5) label (E i) = .ok (out i) := by
  unfold predictFixed at h
  cases hE : enforceFinite D with
  | error e => rw [hE] at h; cases h
  | ok E =>
    rw [hE] at h
    exact ⟨E, rfl, fun i => tabulateM_get (f := fun i => knnPredict o w (kw.getD 5) label (E i)) h i⟩

theorem predictVaried_row {t m n : ℕ} (o : ArgPart (XR K)) (w : Weights) (kw : Option ℕ) (k : ℕ) (label : Fin n → ℤ)
    (ind : Fin t → Fin m → Fin n) (D : Fin t → Fin m → XR K) (out : Fin t → ℤ)
    (h : predictVaried o w kw k label ind D = .ok out) :
    ∃ E, enforceFinite D = .ok E ∧ ∀ i, knnPredict o w k (fun j => label (ind i j)) (E i) = .ok (out i) := by
  unfold predictVaried at h
  cases hE : enforceFinite D with
  | error e => rw [hE] at h; cases h
  | ok E =>
    rw [hE] at h
    exact ⟨E, rfl, fun i => tabulateM_get (f := fun i => knnPredict o w k (fun j => label (ind i j)) (E i)) h i⟩

/-- C139 holds for finite distances which are not negative: the label predicted for one test object does not depend on the
other test objects. -/
theorem C139_nonneg_partial {t m : ℕ} (o : ArgPart (XR K)) (w : Weights) (kw : Option ℕ) (label : Fin m → ℤ)
    (x : Fin t → Fin m → K) (h0 : ∀ i j, 0 ≤ x i j) (hm : 0 < m) (out : Fin t → ℤ)
    (h : predictFixed o w kw label (fun i j => .fin (x i j)) = .ok out) (i : Fin t) :
    predictFixed o w kw label (fun (_ : Fin 1) j => .fin (x i j)) = .ok (fun _ => out i) := by
  obtain ⟨E, hE, hr⟩ := predictFixed_row o w kw label _ out h
  rw [C115_noop x i.pos hm h0] at hE
  cases hE
  unfold predictFixed
  rw [C115_noop (fun _ : Fin 1 => x i) Nat.one_pos hm (fun _ j => h0 i j)]
  exact tabulateM_ok _ _ (fun _ => hr i)

/-- C139 holds for uniform weights and different finite distances, negative or not: the label is that of the majority among
the `k` nearest training objects, whatever the other rows of the matrix contain. -/
theorem C139_uniform_partial {t m : ℕ} (o : ArgPart (XR K)) (kw : Option ℕ) (label : Fin m → ℤ)
    (D : Fin t → Fin m → XR K) (out : Fin t → ℤ) (h : predictFixed o .uniform kw label D = .ok out) (i : Fin t)
    (x : Fin m → K) (hx : ∀ j, D i j = .fin (x j)) (hinj : Function.Injective x) (N : Finset (Fin m))
    (hN : N.card = kw.getD 5) (hnear : ∀ a ∈ N, ∀ b, b ∉ N → x a ≤ x b) :
    Spec.IsWeightedVote N (fun _ => (1 : K)) label (out i) := by
  obtain ⟨E, hE, hr⟩ := predictFixed_row o _ kw label _ out h
  have hk : 0 < kw.getD 5 ∧ kw.getD 5 ≤ m := by
    by_contra hk
    have := hr i
    unfold knnPredict at this
    rw [dif_neg hk] at this
    cases this
  have hm : 0 < m := by omega
  obtain ⟨dMax, s, v, h1, h2, _⟩ := enforce_char D i.pos hm
  rw [h1] at hE
  cases hE
  have hi := hr i
  have hv : ∀ j, v i j = x j := fun j => h2 i j _ (hx j)
  simp only [hv] at hi
  obtain ⟨L, c, hc, hnd, hcard, hbest, hvote⟩ := knnPredict_char o .uniform (kw.getD 5) hk.1 hk.2 label (fun j => x j + s)
  rw [hc] at hi
  have hci := Except.ok.inj hi
  subst hci
  have : L.toFinset = N := by
    refine nearest_unique hinj (by rw [hcard, hN]) ?_ hnear
    intro a ha b hb
    have := hbest a (List.mem_toFinset.1 ha) b (fun hb' => hb (List.mem_toFinset.2 hb'))
    linarith
  rw [this] at hvote
  exact hvote

/-- A test object nearest to an object of class 0, and two objects of class 1 which are farther away. -/
def three : Fin 3 → ℚ := ![1, 3, 3]

def threeLabel : Fin 3 → ℤ := ![0, 1, 1]

/-- The same object together with another one which has a negative secondary distance. -/
def threeBatch : Fin 2 → Fin 3 → XR ℚ := ![fun j => .fin (three j), fun _ => .fin (-10)]

/-- C139 is violated: with weights `'distance'` the label predicted for an object changes if another test object, with
negative secondary distances, is in the same batch. -/
theorem C139_violated : ∃ (alone : Fin 1 → ℤ) (batch : Fin 2 → ℤ),
    predictFixed (ArgPart.ofInsertion (XR ℚ)) .distance (some 3) threeLabel (fun (_ : Fin 1) j => .fin (three j)) = .ok alone ∧
    predictFixed (ArgPart.ofInsertion (XR ℚ)) .distance (some 3) threeLabel threeBatch = .ok batch ∧
    alone 0 = 0 ∧ batch 0 = 1 := by
  obtain ⟨a, ha, ha'⟩ := of_okAnd (p := fun a : Fin 1 → ℤ => decide (a 0 = 0))
    (x := predictFixed (ArgPart.ofInsertion (XR ℚ)) .distance (some 3) threeLabel (fun (_ : Fin 1) j => .fin (three j)))
    (by decide +kernel)
  obtain ⟨b, hb, hb'⟩ := of_okAnd (p := fun a : Fin 2 → ℤ => decide (a 0 = 1))
    (x := predictFixed (ArgPart.ofInsertion (XR ℚ)) .distance (some 3) threeLabel threeBatch)
    (by decide +kernel)
  exact ⟨a, b, ha, hb, of_decide_eq_true ha', of_decide_eq_true hb'⟩

-- The hypotheses of `C139_uniform_partial` can be met, with a negative distance elsewhere.
example : ∃ out, predictFixed (ArgPart.ofInsertion (XR ℚ)) .uniform (some 1) threeLabel
    ![![.fin 1, .fin 3, .fin 4], ![.fin (-2), .nan, .pinf]] = .ok out ∧ out 0 = 0 := by
  obtain ⟨a, ha, ha'⟩ := of_okAnd (p := fun a : Fin 2 → ℤ => decide (a 0 = 0))
    (x := predictFixed (ArgPart.ofInsertion (XR ℚ)) .uniform (some 1) threeLabel
      ![![.fin 1, .fin 3, .fin 4], ![.fin (-2), .nan, .pinf]]) (by decide +kernel)
  exact ⟨a, ha, of_decide_eq_true ha'⟩

example : Function.Injective (![1, 3, 4] : Fin 3 → ℚ) := by decide +kernel

/-! ### Number of neighbours -/

/-- C140 holds with fixed vantage points: `knn__n_neighbors` (5 by default) neighbours vote, with the requested weights. -/
theorem C140_fixed_partial {t m : ℕ} (o : ArgPart (XR K)) (w : Weights) (kw : Option ℕ) (label : Fin m → ℤ)
    (x : Fin t → Fin m → K) (h0 : ∀ i j, 0 ≤ x i j) (hk : 0 < kw.getD 5) (hkm : kw.getD 5 ≤ m) (ht : 0 < t) :
    ∃ out : Fin t → ℤ, predictFixed o w kw label (fun i j => .fin (x i j)) = .ok out ∧
      ∀ i, ∃ N : Finset (Fin m), N.card = kw.getD 5 ∧ (∀ a ∈ N, ∀ b, b ∉ N → x i a ≤ x i b) ∧
        Spec.IsWeightedVote N (fun j => match w with
          | .uniform => 1
          | .distance => if ∃ l ∈ N, x i l = 0 then (if x i j = 0 then 1 else 0) else 1 / x i j) label (out i) := by
  have h := fun i => knnPredict_char o w (kw.getD 5) hk hkm label (x i)
  choose L c hc hnd hcard hbest hvote using h
  refine ⟨c, ?_, fun i => ⟨(L i).toFinset, hcard i, ?_, ?_⟩⟩
  · unfold predictFixed
    rw [C115_noop x ht (by omega) h0]
    exact tabulateM_ok _ _ hc
  · intro a ha b hb
    exact hbest i a (List.mem_toFinset.1 ha) b (fun hb' => hb (List.mem_toFinset.2 hb'))
  · have := hvote i
    unfold weightOf at this
    simpa only [List.mem_toFinset] using this

/-- C140 is violated with `'hnsw'` and `'lsh'`: `knn__n_neighbors` has no effect whatsoever; it is `n_neighbors`, the parameter
of local scaling, which determines how many neighbours vote. -/
theorem C140_violated {t m n : ℕ} (o : ArgPart (XR K)) (w : Weights) (k : ℕ) (label : Fin n → ℤ)
    (ind : Fin t → Fin m → Fin n) (x : Fin t → Fin m → K) (h0 : ∀ i j, 0 ≤ x i j) (hk : 0 < k) (hkm : k ≤ m) (ht : 0 < t) :
    ∃ out : Fin t → ℤ, (∀ kw, predictVaried o w kw k label ind (fun i j => .fin (x i j)) = .ok out) ∧
      ∀ i, ∃ N : Finset (Fin m), N.card = k ∧ (∀ a ∈ N, ∀ b, b ∉ N → x i a ≤ x i b) ∧
        Spec.IsWeightedVote N (fun j => match w with
          | .uniform => 1
          | .distance => if ∃ l ∈ N, x i l = 0 then (if x i j = 0 then 1 else 0) else 1 / x i j)
          (fun j => label (ind i j)) (out i) := by
  have h := fun i => knnPredict_char o w k hk hkm (fun j => label (ind i j)) (x i)
  choose L c hc hnd hcard hbest hvote using h
  refine ⟨c, fun kw => ?_, fun i => ⟨(L i).toFinset, hcard i, ?_, ?_⟩⟩
  · unfold predictVaried
    rw [C115_noop x ht (by omega) h0]
    exact tabulateM_ok _ _ hc
  · intro a ha b hb
    exact hbest i a (List.mem_toFinset.1 ha) b (fun hb' => hb (List.mem_toFinset.2 hb'))
  · have := hvote i
    unfold weightOf at this
    simpa only [List.mem_toFinset] using this

-- The number of neighbours matters: among one the vote is for class 0, among three for class 1.
example : (predictFixed (ArgPart.ofInsertion (XR ℚ)) .uniform (some 1) threeLabel
      (fun (_ : Fin 1) j => .fin (three j))).toOption.map (fun f => f 0) = some 0 ∧
    (predictFixed (ArgPart.ofInsertion (XR ℚ)) .uniform (some 3) threeLabel
      (fun (_ : Fin 1) j => .fin (three j))).toOption.map (fun f => f 0) = some 1 := by decide +kernel

/-! ### Distances of HNSW -/

/-- C141 holds for squared Euclidean distances: the distances in the table are the squares of those reported by the index,
nearest first. -/
theorem C141_sqeuclidean_partial {n t : ℕ} (query : Fin t → ℕ → Answer K n) (k : ℕ) (hk : 0 < k)
    (hlen : ∀ i, (query i k).length = k) (hpos : ∀ i, ∀ p ∈ query i k, 0 ≤ p.2)
    (hasc : ∀ i, (query i k).Pairwise (fun p q => p.2 ≤ q.2)) :
    ∃ out : Fin t → Fin k → Fin n × K, hnswTrafo query (fun d => d ^ 2) k = .ok out ∧
      (∀ i (c : Fin k), out i c = (((query i k)[c.val]'(by rw [hlen]; omega)).1,
        ((query i k)[c.val]'(by rw [hlen]; omega)).2 ^ 2)) ∧
      ∀ i (c c' : Fin k), c ≤ c' → (out i c).2 ≤ (out i c').2 := by
  have hrow : ∀ i, ∃ row : Fin k → Fin n × K, padRow k (query i k) (query i k) = .ok row ∧
      ∀ c : Fin k, row c = (query i k)[c.val]'(by rw [hlen]; omega) := by
    intro i
    refine ⟨_, padRow_all k (query i k) (by intro h; have := hlen i; rw [h] at this; simp at this; omega) (hasc i),
      fun c => ?_⟩
    have : min c.val ((query i k).length - 1) = c.val := by rw [hlen]; omega
    simp only [this]
  choose row hr hr' using hrow
  refine ⟨fun i c => ((row i c).1, (row i c).2 ^ 2), ?_, ?_, ?_⟩
  · refine tabulateM_ok _ _ (fun i => ?_)
    simp only [hr i]
    rfl
  · intro i c
    simp only [hr' i c]
  · intro i c c' hcc
    simp only [hr' i]
    have h1 : ((query i k)[c.val]'(by rw [hlen]; omega)).2 ≤ ((query i k)[c'.val]'(by rw [hlen]; omega)).2 := by
      rcases lt_or_eq_of_le (Fin.le_def.1 hcc) with h | h
      · exact List.pairwise_iff_getElem.1 (hasc i) _ _ _ _ h
      · simp only [h, le_refl]
    have h0 := hpos i _ (List.getElem_mem (l := query i k) (n := c.val) (by rw [hlen]; omega))
    exact pow_le_pow_left₀ h0 h1 2

/-- C141 is violated for cosine distances: the index reports cosine distances, nearest first, and the table contains one minus
that, i.e. cosine similarities: the nearest neighbour gets the largest 'distance'. -/
theorem C141_cosine_violated {n t : ℕ} (query : Fin t → ℕ → Answer K n) (k : ℕ) (hk : 0 < k)
    (hlen : ∀ i, (query i k).length = k) (hasc : ∀ i, (query i k).Pairwise (fun p q => p.2 ≤ q.2)) :
    ∃ out : Fin t → Fin k → Fin n × K, hnswTrafo query (fun d => 1 - d) k = .ok out ∧
      (∀ i (c : Fin k), out i c = (((query i k)[c.val]'(by rw [hlen]; omega)).1,
        1 - ((query i k)[c.val]'(by rw [hlen]; omega)).2)) ∧
      ∀ i (c c' : Fin k), c ≤ c' → (out i c').2 ≤ (out i c).2 := by
  have hrow : ∀ i, ∃ row : Fin k → Fin n × K, padRow k (query i k) (query i k) = .ok row ∧
      ∀ c : Fin k, row c = (query i k)[c.val]'(by rw [hlen]; omega) := by
    intro i
    refine ⟨_, padRow_all k (query i k) (by intro h; have := hlen i; rw [h] at this; simp at this; omega) (hasc i),
      fun c => ?_⟩
    have : min c.val ((query i k).length - 1) = c.val := by rw [hlen]; omega
    simp only [this]
  choose row hr hr' using hrow
  refine ⟨fun i c => ((row i c).1, 1 - (row i c).2), ?_, ?_, ?_⟩
  · refine tabulateM_ok _ _ (fun i => ?_)
    simp only [hr i]
    rfl
  · intro i c
    simp only [hr' i c]
  · intro i c c' hcc
    simp only [hr' i]
    have h1 : ((query i k)[c.val]'(by rw [hlen]; omega)).2 ≤ ((query i k)[c'.val]'(by rw [hlen]; omega)).2 := by
      rcases lt_or_eq_of_le (Fin.le_def.1 hcc) with h | h
      · exact List.pairwise_iff_getElem.1 (hasc i) _ _ _ _ h
      · simp only [h, le_refl]
    linarith

-- An answer as assumed: three neighbours in ascending order.
example : ([(2, 0), (0, 1/5), (1, 1/2)] : Answer ℚ 4).Pairwise (fun p q => p.2 ≤ q.2) := by decide +kernel

/-! ### The sparse matrix -/

/-- C142 holds if the neighbours of an object are different: the sparse matrix has the secondary distance of each neighbour
in its column, and nothing elsewhere. -/
theorem C142_distinct_partial {n t k : ℕ} (ind : Fin t → Fin k → Fin n) (d : Fin t → Fin k → K) (i : Fin t)
    (hinj : Function.Injective (ind i)) :
    (∀ c, sparseEntry ind d i (ind i c) = some (d i c)) ∧ ∀ x, (∀ c, ind i c ≠ x) → sparseEntry ind d i x = none := by
  constructor
  · intro c
    have : (List.finRange k).filter (fun c' => decide (ind i c' = ind i c)) = [c] := by
      have h1 : ∀ c', decide (ind i c' = ind i c) = (c' == c) := by
        intro c'
        by_cases h : c' = c
        · simp [h]
        · have h2 : ind i c' ≠ ind i c := fun h' => h (hinj h')
          simp [h, h2]
      rw [show (fun c' => decide (ind i c' = ind i c)) = (fun c' => c' == c) from funext h1]
      rw [List.filter_beq, List.count_eq_one_of_mem (List.nodup_finRange k) (List.mem_finRange c)]
      rfl
    unfold sparseEntry
    rw [this]
    simp
  · intro x hx
    have : (List.finRange k).filter (fun c' => decide (ind i c' = x)) = [] := by
      rw [List.filter_eq_nil_iff]
      intro c _
      simp [hx c]
    unfold sparseEntry
    rw [this]

/-- C142 is violated if an index finds too few neighbours: the last one is repeated, and the values for the same cell are added
up. If only one of `k` neighbours is found, its entry is `k` times the distance. -/
theorem C142_violated {n t : ℕ} (query : Fin t → ℕ → Answer K n) (post : K → K) (k : ℕ) (hk : 0 < k)
    (out : Fin t → Fin k → Fin n × K) (h : hnswTrafo query post k = .ok out) (i : Fin t) (x : Fin n) (v : K)
    (hq : query i k = [(x, v)]) :
    sparseEntry (fun i c => (out i c).1) (fun i c => (out i c).2) i x = some (k * post v) := by
  have hi := tabulateM_get h i
  simp only [hq] at hi
  have hp : padRow k [(x, v)] [(x, v)] = .ok (fun _ : Fin k => (x, v)) := by
    change Except.ok _ = _
    refine congrArg Except.ok (funext fun c => ?_)
    cases hc : c.val with
    | zero => rfl
    | succ c => rfl
  rw [hp] at hi
  have hi' := (Except.ok.inj hi).symm
  unfold sparseEntry
  simp only [hi']
  have hf : (List.finRange k).filter (fun _ => decide True) = List.finRange k := by simp
  rw [hf]
  cases hl : List.finRange k with
  | nil => have := congrArg List.length hl; simp at this; omega
  | cons a l =>
    have hlen := congrArg List.length hl
    simp only [List.length_finRange] at hlen
    simp only [List.map_const', List.sum_replicate, nsmul_eq_mul, ← hlen]

-- One of three neighbours is found, at distance 2; the sparse matrix says 12 instead of 4.
example : ∃ out, hnswTrafo (fun (_ : Fin 1) _ => ([(1, 2)] : Answer ℚ 3)) (fun d => d ^ 2) 3 = .ok out ∧
    sparseEntry (fun i c => (out i c).1) (fun i c => (out i c).2) 0 1 = some 12 := by
  obtain ⟨out, h, h'⟩ := of_okAnd (p := fun out : Fin 1 → Fin 3 → Fin 3 × ℚ =>
      decide (sparseEntry (fun i c => (out i c).1) (fun i c => (out i c).2) 0 1 = some 12))
    (x := hnswTrafo (fun (_ : Fin 1) _ => ([(1, 2)] : Answer ℚ 3)) (fun d => d ^ 2) 3) (by decide +kernel)
  exact ⟨out, h, of_decide_eq_true h'⟩

end Approx

end HubToolbox
