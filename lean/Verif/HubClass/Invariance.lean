import Verif.HubClass.Neighbours
import Mathlib.Data.List.FinRange

/-!
# C259: the statistics of class `Hubness` do not depend on the representation of the data
-/

set_option autoImplicit false

namespace HubToolbox.Spec

/-- Two results of `Hubness.fit_transform` say the same about corresponding objects: object `j` of the first is object `σ j` of the second. -/
structure SameHubness {F : Type} {n : ℕ} (σ : Equiv.Perm (Fin n)) (a b : HubClass.Fit F) : Prop where
  kOcc : ∀ j : Fin n, b.kOcc[(σ j).val]? = a.kOcc[j.val]?
  length : a.kOcc.length = n ∧ b.kOcc.length = n
  hubs : ∀ j : Fin n, (σ j).val ∈ b.hubs ↔ j.val ∈ a.hubs
  antihubs : ∀ j : Fin n, (σ j).val ∈ b.antihubs ↔ j.val ∈ a.antihubs
  skewness : b.skewness = a.skewness
  truncnorm : b.truncnorm = a.truncnorm
  gini : b.gini = a.gini
  hood : b.hood = a.hood
  atkinson : b.atkinson = a.atkinson
  antihubOccurrence : b.antihubOccurrence = a.antihubOccurrence
  hubOccurrence : b.hubOccurrence = a.hubOccurrence
  groupie : b.groupie = a.groupie

end HubToolbox.Spec

namespace HubToolbox.HubClass

open Spec Hubness

/-! ### Statistics of permuted counts -/

section
variable {l l' : List ℕ}

theorem sum_map_perm {A : Type} [AddCommMonoid A] (h : l.Perm l') (f : ℕ → A) : (l.map f).sum = (l'.map f).sum := (h.map f).sum_eq

theorem skew_perm (h : l.Perm l') : skew l = skew l' := by
  unfold skew
  simp only [h.length_eq, sum_map_perm h]

theorem truncnorm_perm (h : l.Perm l') : skewnessTruncnorm l = skewnessTruncnorm l' := by
  have hm : meanOf l = meanOf l' := by
    unfold meanOf
    rw [h.length_eq, sum_map_perm h]
  have hs : std1 l = std1 l' := by
    unfold std1
    rw [h.length_eq, hm, sum_map_perm h]
  unfold skewnessTruncnorm
  rw [h.length_eq, hm, hs]

theorem gini_perm {F : Type} [Field F] [LinearOrder F] [IsStrictOrderedRing F] (h : l.Perm l') : (gini l : F) = gini l' := by
  have key : ∀ l : List ℕ, (gini l : F) = giniTime l := fun l => (C10_agree l).2.2.1.trans (C10_agree l).2.1.symm
  rw [key, key]
  unfold giniTime
  simp only [List.flatMap_def, List.sum_flatten, List.map_map, Function.comp_def]
  rw [h.length_eq, h.sum_eq, sum_map_perm h]
  simp only [sum_map_perm h]

theorem hood_perm {F : Type} [Field F] [LinearOrder F] (h : l.Perm l') : (hood l : F) = hood l' := by
  unfold hood
  simp only [h.length_eq, h.sum_eq, sum_map_perm h]

theorem atkinson_perm (h : l.Perm l') : atkinson l = atkinson l' := by
  unfold atkinson
  simp only [h.length_eq, h.sum_eq, sum_map_perm h]

theorem argwhere_map (l : List ℕ) (p : ℕ → Bool) : (argwhere l p).map (fun j => l.getD j 0) = l.filter p := by
  unfold argwhere
  have h := range_map_getD l id
  simp only [List.map_id, id] at h
  conv_rhs => rw [← h]
  rw [List.filter_map]
  rfl

theorem argwhere_length (l : List ℕ) (p : ℕ → Bool) : (argwhere l p).length = (l.filter p).length := by
  rw [← argwhere_map, List.length_map]

theorem groupie_perm {F : Type} [Field F] [LinearOrder F] (h : l.Perm l') (n : ℕ) : (groupie l n : F) = groupie l' n := by
  unfold groupie
  rw [h.foldr_eq' (fun x _ y _ z => by rw [← max_assoc, max_comm y x, max_assoc])]

end

/-- Corresponding neighbour lists give corresponding results. -/
theorem stats_renumbered {F : Type} [Field F] [LinearOrder F] [IsStrictOrderedRing F] {n k : ℕ} (hn : 0 < n) (hk : 0 < k)
    (rows rows' : Fin n → Fin k → Fin n) (hinj : ∀ i, Function.Injective (rows i)) (σ : Equiv.Perm (Fin n))
    (h : ∀ i c, rows' (σ i) c = σ (rows i c)) (hubSize : F) :
    SameHubness σ (stats hubSize k n n ((List.finRange n).flatMap (asLists rows)))
      (stats hubSize k n n ((List.finRange n).flatMap (asLists rows'))) := by
  have hinj' : ∀ i, Function.Injective (rows' i) := by
    intro i c c' e
    obtain ⟨a, rfl⟩ := σ.surjective i
    rw [h, h] at e
    exact hinj a (σ.injective e)
  have d := (stats_documented hn hk rows hinj hubSize).kOcc
  have d' := (stats_documented hn hk rows' hinj' hubSize).kOcc
  have hocc : ∀ j : Fin n, occurrences (asLists rows') (σ j).val = occurrences (asLists rows) j.val := by
    intro j
    unfold occurrences
    symm
    refine Finset.card_bij (fun i _ => σ i) ?_ (fun _ _ _ _ e => σ.injective e) ?_
    · intro i hi
      simp only [Finset.mem_filter, Finset.mem_univ, true_and, asLists, List.mem_map, List.mem_ofFn] at hi ⊢
      obtain ⟨_, ⟨c, rfl⟩, hc⟩ := hi
      exact ⟨_, ⟨c, rfl⟩, by rw [h, Fin.ext hc]⟩
    · intro i hi
      simp only [Finset.mem_filter, Finset.mem_univ, true_and, asLists, List.mem_map, List.mem_ofFn] at hi ⊢
      obtain ⟨a, rfl⟩ := σ.surjective i
      obtain ⟨_, ⟨c, rfl⟩, hc⟩ := hi
      refine ⟨a, ⟨_, ⟨c, rfl⟩, ?_⟩, rfl⟩
      rw [h] at hc
      rw [σ.injective (Fin.ext hc)]
  have hL : Np.bincount ((List.finRange n).flatMap (asLists rows)) n = List.ofFn (fun j : Fin n => occurrences (asLists rows) j) := d
  have hL' : Np.bincount ((List.finRange n).flatMap (asLists rows')) n = List.ofFn (fun j : Fin n => occurrences (asLists rows') j) := d'
  set N := List.ofFn (fun j : Fin n => occurrences (asLists rows) j) with hN
  set N' := List.ofFn (fun j : Fin n => occurrences (asLists rows') j) with hN'
  have hperm : N.Perm N' := by
    rw [hN, hN']
    refine List.Perm.trans ?_ (Equiv.Perm.ofFn_comp_perm σ (fun j : Fin n => occurrences (asLists rows') j))
    refine List.Perm.of_eq (congrArg List.ofFn ?_)
    funext j
    exact (hocc j).symm
  have hlen : N.length = n := by rw [hN, List.length_ofFn]
  have hlen' : N'.length = n := by rw [hN', List.length_ofFn]
  have hget : ∀ j : Fin n, N'[(σ j).val]? = N[j.val]? := by
    intro j
    rw [hN, hN', List.getElem?_ofFn, List.getElem?_ofFn, dif_pos (σ j).isLt, dif_pos j.isLt]
    exact congrArg some (hocc j)
  have harg : ∀ (p : ℕ → Bool) (j : Fin n), (σ j).val ∈ argwhere N' p ↔ j.val ∈ argwhere N p := by
    intro p j
    have := hget j
    rw [List.getElem?_eq_getElem (by rw [hlen']; exact (σ j).isLt), List.getElem?_eq_getElem (by rw [hlen]; exact j.isLt)] at this
    rw [mem_argwhere, mem_argwhere]
    constructor
    · rintro ⟨_, hp⟩
      exact ⟨by rw [hlen]; exact j.isLt, by rw [← Option.some.inj this]; exact hp⟩
    · rintro ⟨_, hp⟩
      exact ⟨by rw [hlen']; exact (σ j).isLt, by rw [Option.some.inj this]; exact hp⟩
  have hfil : ∀ p : ℕ → Bool, (N.filter p).Perm (N'.filter p) := fun p => hperm.filter p
  unfold stats
  simp only [hL, hL']
  refine ⟨hget, ⟨hlen, hlen'⟩, fun j => ?_, fun j => ?_, (skew_perm hperm).symm, (truncnorm_perm hperm).symm, (gini_perm hperm).symm,
    (hood_perm hperm).symm, (atkinson_perm hperm).symm, ?_, ?_, (groupie_perm hperm n).symm⟩
  · exact harg (fun x => hubSize * k ≤ (x : F)) j
  · exact harg (fun x => x = 0) j
  · unfold antihubs
    simp only [argwhere_length, hlen, hlen', (hfil _).length_eq]
  · unfold hubs
    simp only [argwhere_map, (hfil _).sum_eq]

/-- The list of nearest neighbours of corresponding objects. -/
theorem knn_corresponds {α β : Type} [LinearOrder α] [LinearOrder β] {n k : ℕ} (σ : Equiv.Perm (Fin n)) (i : Fin n)
    {d : Fin n → α} {d' : Fin n → β} (hord : ∀ a b, a ≠ i → b ≠ i → (d' (σ a) < d' (σ b) ↔ d a < d b))
    (hties : ∀ a b, a ≠ i → b ≠ i → d a = d b → a = b) {L L' : List (Fin n)} (h : IsKnnAmong (fun j => j ≠ i) d k L)
    (h' : IsKnnAmong (fun j => j ≠ σ i) d' k L') : L' = L.map σ := by
  have hle : ∀ a b, a ≠ i → b ≠ i → d a ≤ d b → d' (σ a) ≤ d' (σ b) := fun a b ha hb hab =>
    not_lt.1 (fun hlt => absurd ((hord b a hb ha).1 hlt) (not_lt.2 hab))
  refine h'.unique ⟨by rw [List.length_map, h.length], h.distinct.map σ.injective, ?_, ?_, ?_⟩ ?_
  · intro a ha
    obtain ⟨b, hb, rfl⟩ := List.mem_map.1 ha
    exact fun e => h.cands b hb (σ.injective e)
  · rw [List.pairwise_map]
    exact h.sorted.imp_of_mem (fun ha hb hab => hle _ _ (h.cands _ ha) (h.cands _ hb) hab)
  · intro a ha b hb hbL
    obtain ⟨a, ha', rfl⟩ := List.mem_map.1 ha
    obtain ⟨b, rfl⟩ := σ.surjective b
    have hb' : b ≠ i := fun e => hb (by rw [e])
    exact hle a b (h.cands a ha') hb' (h.best a ha' b hb' (fun hm => hbL (List.mem_map_of_mem hm)))
  · intro a b ha hb hab
    obtain ⟨a, rfl⟩ := σ.surjective a
    obtain ⟨b, rfl⟩ := σ.surjective b
    have ha' : a ≠ i := fun e => ha (by rw [e])
    have hb' : b ≠ i := fun e => hb (by rw [e])
    refine congrArg σ (hties a b ha' hb' (le_antisymm (not_lt.1 fun hl => ?_) (not_lt.1 fun hl => ?_)))
    · exact absurd ((hord b a hb' ha').2 hl) (by rw [hab]; exact lt_irrefl _)
    · exact absurd ((hord a b ha' hb').2 hl) (by rw [hab]; exact lt_irrefl _)

theorem rows_correspond {n k : ℕ} {σ : Equiv.Perm (Fin n)} {rows rows' : Fin n → Fin k → Fin n}
    (h : ∀ i, List.ofFn (rows' (σ i)) = (List.ofFn (rows i)).map σ) (i : Fin n) (c : Fin k) : rows' (σ i) c = σ (rows i c) := by
  have := h i
  rw [List.map_ofFn] at this
  exact congrFun (List.ofFn_injective this) c

/-- **C259**, precomputed distances: only the order of the distances from each object matters, and the numbering of the objects does not. `σ`
maps objects of the first matrix to those of the second. -/
theorem C259_precomputed {K K' F : Type} [Field K] [LinearOrder K] [Field K'] [LinearOrder K'] [Field F] [LinearOrder F]
    [IsStrictOrderedRing F] (w : World K) (w' : World K') (P P' : Params F) (k : ℕ) (hk1 : 1 ≤ k) (hP : P.k = some (k : ℤ))
    (hP' : P'.k = some (k : ℤ)) (hsize : P'.hubSize = P.hubSize) (bs bs' : ℕ) (shuffle shuffle' : Bool) {n : ℕ} (hk : k + 1 ≤ n)
    (D : Fin n → Fin n → XR K) (D' : Fin n → Fin n → XR K') (hD : ∀ i j, j ≠ i → farness (D i i) < farness (D i j))
    (hD' : ∀ i j, j ≠ i → farness (D' i i) < farness (D' i j)) (σ : Equiv.Perm (Fin n))
    (hord : ∀ i a b, a ≠ i → b ≠ i → (farness (D' (σ i) (σ a)) < farness (D' (σ i) (σ b)) ↔ farness (D i a) < farness (D i b)))
    (hties : ∀ i a b, a ≠ i → b ≠ i → farness (D i a) = farness (D i b) → a = b) :
    ∃ fit fit' : Fit F, fitTransform w P bs shuffle true (.dense n n D false) = .ok fit ∧
      fitTransform w' P' bs' shuffle' true (.dense n n D' false) = .ok fit' ∧ SameHubness σ fit fit' := by
  obtain ⟨rows, h1, h2⟩ := dense_self w P k hP bs shuffle n D hk hD
  obtain ⟨rows', h1', h2'⟩ := dense_self w' P' k hP' bs' shuffle' n D' hk hD'
  refine ⟨_, _, h1, h1', ?_⟩
  rw [hsize]
  refine stats_renumbered (by omega) hk1 rows rows' (fun i => List.nodup_ofFn.1 (h2 i).distinct) σ (rows_correspond fun i => ?_) _
  exact knn_corresponds σ i (hord i) (hties i) (h2 i) (h2' (σ i))

/-- **C259**, vectors: the same for Euclidean distances of vectors, possibly with different numbers of features. -/
theorem C259_vectors {K K' F : Type} [Field K] [LinearOrder K] [IsStrictOrderedRing K] [Field K'] [LinearOrder K'] [IsStrictOrderedRing K']
    [Field F] [LinearOrder F] [IsStrictOrderedRing F] (w : World K) (w' : World K') (P P' : Params F) (k : ℕ) (hk1 : 1 ≤ k)
    (hP : P.k = some (k : ℤ)) (hP' : P'.k = some (k : ℤ)) (hmet : P.metric = "euclidean") (hmet' : P'.metric = "euclidean")
    (hsize : P'.hubSize = P.hubSize) (bs bs' : ℕ) (hbs : 1 ≤ bs) (hbs' : 1 ≤ bs') (shuffle shuffle' hasSelf hasSelf' : Bool)
    {n p p' : ℕ} (hk : k + 1 ≤ n) (X : Fin n → Fin p → K) (X' : Fin n → Fin p' → K') (hX : ∀ i j, i ≠ j → X i ≠ X j)
    (hX' : ∀ i j, i ≠ j → X' i ≠ X' j) (σ : Equiv.Perm (Fin n))
    (hord : ∀ i a b, a ≠ i → b ≠ i → (∑ f, (X' (σ i) f - X' (σ a) f) ^ 2 < ∑ f, (X' (σ i) f - X' (σ b) f) ^ 2 ↔
      ∑ f, (X i f - X a f) ^ 2 < ∑ f, (X i f - X b f) ^ 2))
    (hties : ∀ i a b, a ≠ i → b ≠ i → ∑ f, (X i f - X a f) ^ 2 = ∑ f, (X i f - X b f) ^ 2 → a = b) :
    ∃ fit fit' : Fit F, fitTransform w P bs shuffle hasSelf (.vectors n p X none) = .ok fit ∧
      fitTransform w' P' bs' shuffle' hasSelf' (.vectors n p' X' none) = .ok fit' ∧ SameHubness σ fit fit' := by
  obtain ⟨_, rows, h1, rfl, h2⟩ := C64_partial w P k hP hmet bs hbs shuffle hasSelf n p X hk hX
  obtain ⟨_, rows', h1', rfl, h2'⟩ := C64_partial w' P' k hP' hmet' bs' hbs' shuffle' hasSelf' n p' X' hk hX'
  refine ⟨_, _, h1, h1', ?_⟩
  rw [hsize]
  refine stats_renumbered (by omega) hk1 rows rows' (fun i => List.nodup_ofFn.1 (h2 i).distinct) σ (rows_correspond fun i => ?_) _
  exact knn_corresponds σ i (hord i) (hties i) (h2 i) (h2' (σ i))

/-- **C259**: translations, rotations, reflections and changes of the unit, also combined with a renumbering of objects and of features, or with
features which are the same for all objects. -/
theorem C259_similar {K F : Type} [Field K] [LinearOrder K] [IsStrictOrderedRing K] [Field F] [LinearOrder F] [IsStrictOrderedRing F]
    (w w' : World K) (P P' : Params F) (k : ℕ) (hk1 : 1 ≤ k) (hP : P.k = some (k : ℤ)) (hP' : P'.k = some (k : ℤ))
    (hmet : P.metric = "euclidean") (hmet' : P'.metric = "euclidean") (hsize : P'.hubSize = P.hubSize) (bs bs' : ℕ) (hbs : 1 ≤ bs)
    (hbs' : 1 ≤ bs') (shuffle shuffle' hasSelf hasSelf' : Bool) {n p p' : ℕ} (hk : k + 1 ≤ n) (X : Fin n → Fin p → K)
    (X' : Fin n → Fin p' → K) (hX : ∀ i j, i ≠ j → X i ≠ X j) (σ : Equiv.Perm (Fin n)) (c : K) (hc : 0 < c)
    (hsim : ∀ i j, ∑ f, (X' (σ i) f - X' (σ j) f) ^ 2 = c * ∑ f, (X i f - X j f) ^ 2)
    (hties : ∀ i a b, a ≠ i → b ≠ i → ∑ f, (X i f - X a f) ^ 2 = ∑ f, (X i f - X b f) ^ 2 → a = b) :
    ∃ fit fit' : Fit F, fitTransform w P bs shuffle hasSelf (.vectors n p X none) = .ok fit ∧
      fitTransform w' P' bs' shuffle' hasSelf' (.vectors n p' X' none) = .ok fit' ∧ SameHubness σ fit fit' := by
  refine C259_vectors w w' P P' k hk1 hP hP' hmet hmet' hsize bs bs' hbs hbs' shuffle shuffle' hasSelf hasSelf' hk X X' hX ?_ σ
    (fun i a b _ _ => ?_) hties
  · intro a b hab e
    obtain ⟨i, rfl⟩ := σ.surjective a
    obtain ⟨j, rfl⟩ := σ.surjective b
    have h0 := hsim i j
    rw [e] at h0
    simp only [sub_self, ne_eq, OfNat.ofNat_ne_zero, not_false_eq_true, zero_pow, Finset.sum_const_zero] at h0
    have hz := (mul_eq_zero.1 h0.symm).resolve_left hc.ne'
    rw [Finset.sum_eq_zero_iff_of_nonneg (fun f _ => sq_nonneg _)] at hz
    refine hX i j (fun e => hab (by rw [e])) (funext fun f => ?_)
    exact sub_eq_zero.1 (pow_eq_zero_iff two_ne_zero |>.1 (hz f (Finset.mem_univ f)))
  · rw [hsim, hsim, mul_lt_mul_iff_right₀ hc]

/-! ### Non-vacuity -/

/-- Three objects on a line, reflected, moved, measured in another unit and in the opposite order, in a plane. -/
example (w w' : World ℚ) : ∃ fit fit' : Fit ℚ,
    fitTransform w (exP 1 2 "euclidean") 1 false false (.vectors 3 1 lineX none) = .ok fit ∧
    fitTransform w' (exP 1 2 "euclidean") 2 true false (.vectors 3 2 (![![1, 7], ![5, 7], ![7, 7]] : Fin 3 → Fin 2 → ℚ) none) = .ok fit' ∧
    SameHubness (Fin.revPerm : Equiv.Perm (Fin 3)) fit fit' :=
  C259_similar w w' (exP 1 2 "euclidean") (exP 1 2 "euclidean") 1 le_rfl rfl rfl rfl rfl rfl 1 2 (by norm_num) (by norm_num) _ _ _ _
    (by norm_num) lineX _ (by decide +kernel) Fin.revPerm 4 (by norm_num) (by decide +kernel) (by decide +kernel)

example : (∀ i j : Fin 3, j ≠ i → farness (exD i i) < farness (exD i j)) ∧
    (∀ i a b : Fin 3, a ≠ i → b ≠ i → farness (exD i a) = farness (exD i b) → a = b) := by decide +kernel

end HubToolbox.HubClass
