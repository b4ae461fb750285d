import Verif.HubClass.Fit
import Verif.NpSort

/-!
# Properties of class `Hubness` (C09-C13)
-/

set_option autoImplicit false

namespace HubToolbox.HubClass

open Spec Hubness

/-! ## C13: constructor validation -/

/-- The parameter combinations the documentation excludes. -/
def Invalid {F : Type} [LinearOrder F] [Zero F] (a : Args F) : Prop :=
  (∃ k, a.k = some k ∧ k < 1) ∨ a.hubSize ≤ 0 ∨
  ¬ (a.metric = "euclidean" ∨ a.metric = "cosine" ∨ a.metric = "precomputed") ∨
  a.returnKNeighbors.1 = false ∨ a.returnKOccurrence.1 = false ∨
  a.nJobs = 0 ∨ a.nJobs < -1 ∨ a.verbose < 0

set_option linter.unusedSimpArgs false in
/-- C13: the constructor raises `ValueError` for invalid parameters; otherwise it keeps the parameters, with
`n_jobs=-1` replaced by the number of CPUs. -/
theorem C13_init {F : Type} [LinearOrder F] [Zero F] (cpu : ℕ) (a : Args F) :
    (Invalid a → init cpu a = .error .valueError) ∧
    (¬ Invalid a → init cpu a = .ok ⟨a.k, a.hubSize, a.metric, if a.nJobs = -1 then cpu else a.nJobs⟩) := by
  obtain ⟨k, hs, metric, ⟨r1, r1'⟩, ⟨r2, r2'⟩, verbose, nJobs⟩ := a
  have hv : metric ∈ validMetrics ↔ metric = "euclidean" ∨ metric = "cosine" ∨ metric = "precomputed" := by
    simp [validMetrics]
  have hbad : ∀ (P : Prop), init cpu ⟨k, hs, metric, (r1, r1'), (r2, r2'), verbose, nJobs⟩
        = .error .valueError → Invalid ⟨k, hs, metric, (r1, r1'), (r2, r2'), verbose, nJobs⟩ →
      (Invalid ⟨k, hs, metric, (r1, r1'), (r2, r2'), verbose, nJobs⟩ →
        init cpu ⟨k, hs, metric, (r1, r1'), (r2, r2'), verbose, nJobs⟩ = .error .valueError) ∧
      (¬ Invalid ⟨k, hs, metric, (r1, r1'), (r2, r2'), verbose, nJobs⟩ → P) :=
    fun P h1 h2 => ⟨fun _ => h1, fun h => absurd h2 h⟩
  by_cases h1 : ∃ k', k = some k' ∧ k' < 1
  · refine hbad _ ?_ (Or.inl h1)
    obtain ⟨k', rfl, h1⟩ := h1
    simp only [init, h1, if_true]; rfl
  by_cases h2 : hs ≤ 0
  · refine hbad _ ?_ (Or.inr (Or.inl h2))
    rcases k with _ | k
    · simp only [init, h2, if_true, if_false, not_false_eq_true, not_true_eq_false, Bool.not_true, Bool.not_false, Bool.false_eq_true]; rfl
    · have h1' : ¬ k < 1 := fun h => h1 ⟨k, rfl, h⟩
      simp only [init, h1', h2, if_true, if_false, not_false_eq_true, not_true_eq_false, Bool.not_true, Bool.not_false, Bool.false_eq_true]; rfl
  by_cases h3 : metric ∈ validMetrics
  swap
  · refine hbad _ ?_ (Or.inr (Or.inr (Or.inl (fun h => h3 (hv.2 h)))))
    rcases k with _ | k
    · simp only [init, h2, h3, if_true, if_false, not_false_eq_true, not_true_eq_false, Bool.not_true, Bool.not_false, Bool.false_eq_true]; rfl
    · have h1' : ¬ k < 1 := fun h => h1 ⟨k, rfl, h⟩
      simp only [init, h1', h2, h3, if_true, if_false, not_false_eq_true, not_true_eq_false, Bool.not_true, Bool.not_false, Bool.false_eq_true]; rfl
  rcases r1 with _ | _
  · refine hbad _ ?_ (Or.inr (Or.inr (Or.inr (Or.inl rfl))))
    rcases k with _ | k
    · simp only [init, h2, h3, if_true, if_false, not_false_eq_true, not_true_eq_false, Bool.not_true, Bool.not_false, Bool.false_eq_true]; rfl
    · have h1' : ¬ k < 1 := fun h => h1 ⟨k, rfl, h⟩
      simp only [init, h1', h2, h3, if_true, if_false, not_false_eq_true, not_true_eq_false, Bool.not_true, Bool.not_false, Bool.false_eq_true]; rfl
  rcases r2 with _ | _
  · refine hbad _ ?_ (Or.inr (Or.inr (Or.inr (Or.inr (Or.inl rfl)))))
    rcases k with _ | k
    · simp only [init, h2, h3, if_true, if_false, not_false_eq_true, not_true_eq_false, Bool.not_true, Bool.not_false, Bool.false_eq_true]; rfl
    · have h1' : ¬ k < 1 := fun h => h1 ⟨k, rfl, h⟩
      simp only [init, h1', h2, h3, if_true, if_false, not_false_eq_true, not_true_eq_false, Bool.not_true, Bool.not_false, Bool.false_eq_true]; rfl
  by_cases h4 : nJobs < -1 ∨ nJobs = 0
  · refine hbad _ ?_ (Or.inr (Or.inr (Or.inr (Or.inr (Or.inr (h4.elim (fun h => Or.inr (Or.inl h)) Or.inl))))))
    have h5 : ¬ nJobs = -1 := by omega
    rcases k with _ | k
    · simp only [init, h2, h3, h4, h5, if_true, if_false, not_false_eq_true, not_true_eq_false, Bool.not_true, Bool.not_false, Bool.false_eq_true]; rfl
    · have h1' : ¬ k < 1 := fun h => h1 ⟨k, rfl, h⟩
      simp only [init, h1', h2, h3, h4, h5, if_true, if_false, not_false_eq_true, not_true_eq_false, Bool.not_true, Bool.not_false, Bool.false_eq_true]; rfl
  by_cases h5 : verbose < 0
  · refine hbad _ ?_ (Or.inr (Or.inr (Or.inr (Or.inr (Or.inr (Or.inr (Or.inr h5)))))))
    by_cases h6 : nJobs = -1
    · rcases k with _ | k
      · simp only [init, h2, h3, h5, h6, if_true, if_false, not_false_eq_true, not_true_eq_false, Bool.not_true, Bool.not_false, Bool.false_eq_true]; rfl
      · have h1' : ¬ k < 1 := fun h => h1 ⟨k, rfl, h⟩
        simp only [init, h1', h2, h3, h5, h6, if_true, if_false, not_false_eq_true, not_true_eq_false, Bool.not_true, Bool.not_false, Bool.false_eq_true]; rfl
    · rcases k with _ | k
      · simp only [init, h2, h3, h4, h5, h6, if_true, if_false, not_false_eq_true, not_true_eq_false, Bool.not_true, Bool.not_false, Bool.false_eq_true]; rfl
      · have h1' : ¬ k < 1 := fun h => h1 ⟨k, rfl, h⟩
        simp only [init, h1', h2, h3, h4, h5, h6, if_true, if_false, not_false_eq_true, not_true_eq_false, Bool.not_true, Bool.not_false, Bool.false_eq_true]; rfl
  refine ⟨fun h => ?_, fun _ => ?_⟩
  · exfalso
    rcases h with h | h | h | h | h | h | h | h
    · exact h1 h
    · exact h2 h
    · exact h (hv.1 h3)
    · cases h
    · cases h
    · exact h4 (Or.inr h)
    · exact h4 (Or.inl h)
    · exact h5 h
  · by_cases h6 : nJobs = -1
    · rcases k with _ | k
      · simp only [init, h2, h3, h5, h6, if_true, if_false, not_false_eq_true, not_true_eq_false, Bool.not_true, Bool.not_false, Bool.false_eq_true]; rfl
      · have h1' : ¬ k < 1 := fun h => h1 ⟨k, rfl, h⟩
        simp only [init, h1', h2, h3, h5, h6, if_true, if_false, not_false_eq_true, not_true_eq_false, Bool.not_true, Bool.not_false, Bool.false_eq_true]; rfl
    · rcases k with _ | k
      · simp only [init, h2, h3, h4, h5, h6, if_true, if_false, not_false_eq_true, not_true_eq_false, Bool.not_true, Bool.not_false, Bool.false_eq_true]; rfl
      · have h1' : ¬ k < 1 := fun h => h1 ⟨k, rfl, h⟩
        simp only [init, h1', h2, h3, h4, h5, h6, if_true, if_false, not_false_eq_true, not_true_eq_false, Bool.not_true, Bool.not_false, Bool.false_eq_true]; rfl

example : ¬ Invalid (F := ℚ) ⟨some 5, 2, "euclidean", (true, false), (true, true), 0, -1⟩ := by
  simp [Invalid]

example : init (F := ℚ) 4 ⟨some 5, 2, "euclidean", (true, false), (true, true), 0, -1⟩
    = .ok ⟨some 5, 2, "euclidean", 4⟩ := rfl

/-! ## C10: Gini index -/

/-- C10: the three implementations agree, and equal the Gini coefficient. -/
theorem C10_agree {F : Type} [Field F] [LinearOrder F] [IsStrictOrderedRing F] (Nk : List ℕ) :
    (giniMemory Nk : F) = giniNaive Nk ∧ (giniTime Nk : F) = giniNaive Nk ∧
    (gini Nk : F) = giniNaive Nk ∧
    (giniNaive Nk : F) = giniCoefficient (fun i : Fin Nk.length => (Nk.get i : F)) := by
  refine ⟨by rw [giniMemory_eq, giniNaive_eq], by rw [giniTime_eq, giniNaive_eq], ?_,
    by rw [giniNaive_eq, gini_spec]⟩
  unfold gini
  split
  · rw [giniMemory_eq, giniNaive_eq]
  · rw [giniTime_eq, giniNaive_eq]

/-- C10: the index is 0 iff all points occur equally often. -/
theorem C10_zero_iff {F : Type} [Field F] [LinearOrder F] [IsStrictOrderedRing F] (Nk : List ℕ)
    (h : 0 < Nk.sum) : (gini Nk : F) = 0 ↔ ∀ x ∈ Nk, ∀ y ∈ Nk, x = y := by
  rw [(C10_agree Nk).2.2.1, giniNaive_eq, div_eq_zero_iff, pairSum_eq_zero_iff]
  have hs : (0 : F) < ((Nk.sum : ℕ) : F) := by exact_mod_cast h
  have hn : (0 : F) < (Nk.length : F) := by exact_mod_cast length_pos_of_sum h
  have hd : ¬ 2 * (Nk.length : F) * ((Nk.sum : ℕ) : F) = 0 := by positivity
  simp only [hd, or_false]
  constructor
  · intro hall x hx y hy
    obtain ⟨i, rfl⟩ := List.get_of_mem hx
    obtain ⟨j, rfl⟩ := List.get_of_mem hy
    exact hall i j
  · intro hall i j
    exact hall _ (List.get_mem _ _) _ (List.get_mem _ _)

example : (gini [2, 0, 1] : ℚ) = 4 / 9 := by
  rw [(C10_agree _).2.2.1]
  norm_num [giniNaive, List.range_succ, abs]

/-! ## C09: statistics -/

section Count

theorem occ_getElem {n m k : ℕ} (rows : Fin n → Fin k → Fin m) (hinj : ∀ i, Function.Injective (rows i))
    (j : ℕ) (hj : j < (Np.bincount ((List.finRange n).flatMap (asLists rows)) m).length) :
    (Np.bincount ((List.finRange n).flatMap (asLists rows)) m)[j] = occurrences (asLists rows) j := by
  rw [Np.bincount_getElem, count_flatMap_nodup]
  intro i
  exact (List.nodup_ofFn.2 (hinj i)).map Fin.val_injective

theorem lists_lt {n m k : ℕ} (rows : Fin n → Fin k → Fin m) :
    ∀ x ∈ (List.finRange n).flatMap (asLists rows), x < m := by
  intro x hx
  obtain ⟨i, _, hx⟩ := List.mem_flatMap.1 hx
  obtain ⟨y, _, rfl⟩ := List.mem_map.1 hx
  exact y.isLt

theorem lists_length {n m k : ℕ} (rows : Fin n → Fin k → Fin m) :
    ((List.finRange n).flatMap (asLists rows)).length = n * k := by
  simp [List.length_flatMap, asLists]

theorem occurrences_le {n : ℕ} (lists : Fin n → List ℕ) (j : ℕ) : occurrences lists j ≤ n := by
  unfold occurrences
  exact (Finset.card_le_univ _).trans (by simp)

theorem foldr_max_mem (l : List ℕ) (h : l ≠ []) : l.foldr max 0 ∈ l := by
  induction l with
  | nil => simp at h
  | cons a l ih =>
    rw [List.foldr_cons]
    cases l with
    | nil => simp
    | cons b l =>
      have := ih (by simp)
      rcases le_total a ((b :: l).foldr max 0) with hc | hc
      · rw [max_eq_right hc]; exact List.mem_cons_of_mem _ this
      · rw [max_eq_left hc]; simp

theorem le_foldr_max (l : List ℕ) (x : ℕ) (h : x ∈ l) : x ≤ l.foldr max 0 := by
  induction l with
  | nil => simp at h
  | cons a l ih =>
    rw [List.foldr_cons]
    rcases List.mem_cons.1 h with rfl | h
    · exact le_max_left _ _
    · exact (ih h).trans (le_max_right _ _)

theorem countP_eq_sum {α : Type} (l : List α) (p : α → Bool) :
    l.countP p = (l.map (fun a => if p a then 1 else 0)).sum := by
  induction l with
  | nil => rfl
  | cons a l ih => rw [List.countP_cons, ih, List.map_cons, List.sum_cons, add_comm]

theorem sum_count_eq (L H : List ℕ) (hH : H.Nodup) :
    (H.map (fun j => L.count j)).sum = L.countP (· ∈ H) := by
  induction L with
  | nil => simp
  | cons a L ih =>
    rw [List.countP_cons, ← ih]
    simp only [List.count_cons]
    rw [List.sum_map_add]
    congr 1
    by_cases ha : a ∈ H
    · simp only [ha, decide_true, if_true]
      have : (H.map (fun j => if (a == j) = true then 1 else 0)).sum = H.count a := by
        clear ih hH ha
        induction H with
        | nil => rfl
        | cons b H ihr =>
          rw [List.map_cons, List.sum_cons, ihr, List.count_cons]
          by_cases hab : a = b
          · simp [hab]; omega
          · simp [hab, Ne.symm hab]
      rw [this]
      exact List.count_eq_one_of_mem hH ha
    · simp only [ha, decide_false]
      rw [List.sum_eq_zero]
      · simp
      · intro x hx
        obtain ⟨y, hy, rfl⟩ := List.mem_map.1 hx
        have : a ≠ y := fun h => ha (h ▸ hy)
        simp [this]

end Count

theorem mem_argwhere (Nk : List ℕ) (p : ℕ → Bool) (j : ℕ) :
    j ∈ argwhere Nk p ↔ ∃ h : j < Nk.length, p Nk[j] = true := by
  unfold argwhere
  rw [List.mem_filter, List.mem_range]
  constructor
  · rintro ⟨h1, h2⟩
    exact ⟨h1, by simpa [h1] using h2⟩
  · rintro ⟨h1, h2⟩
    exact ⟨h1, by simpa [h1] using h2⟩

/-- What the documentation says about the attributes, for the neighbour lists `rows` (`rows i` lists the
neighbours of test object `i` among `m` training objects). -/
structure Documented {F : Type} [Field F] [LinearOrder F] {n m k : ℕ} (rows : Fin n → Fin k → Fin m)
    (fit : Fit F) : Prop where
  /-- the lists, one after the other -/
  lists : fit.lists = (List.finRange n).flatMap (asLists rows)
  /-- the reverse neighbour counts -/
  kOcc : fit.kOcc = List.ofFn (fun j : Fin m => occurrences (asLists rows) j)
  /-- antihubs are the objects in no list -/
  antihubs : ∀ j, j ∈ fit.antihubs ↔ j < m ∧ ∀ i, j ∉ asLists rows i
  /-- their proportion in the data set -/
  antihubOccurrence : fit.antihubOccurrence
    = ((Finset.univ.filter (fun j : Fin m => ∀ i, j.val ∉ asLists rows i)).card : F) / m
  antihub_range : 0 ≤ fit.antihubOccurrence ∧ fit.antihubOccurrence ≤ 1
  /-- proportion of neighbour slots occupied by hubs -/
  hubOccurrence : fit.hubOccurrence
    = ((Finset.univ.filter (fun s : Fin n × Fin k => (rows s.1 s.2).val ∈ fit.hubs)).card : F) / (n * k)
  hub_range : 0 ≤ fit.hubOccurrence ∧ fit.hubOccurrence ≤ 1
  gini : fit.gini = giniCoefficient (fun j : Fin m => (occurrences (asLists rows) j : F))
  gini_range : 0 ≤ fit.gini ∧ fit.gini < 1
  hood : fit.hood = hooverIndex (fun j : Fin m => (occurrences (asLists rows) j : F))
  hood_range : 0 ≤ fit.hood ∧ fit.hood < 1
  /-- proportion of test objects with the largest hub in their list -/
  groupie : (∃ j : Fin m, fit.groupie = (occurrences (asLists rows) j : F) / n) ∧
    ∀ j : Fin m, (occurrences (asLists rows) j : F) / n ≤ fit.groupie
  groupie_range : (k : F) / m ≤ fit.groupie ∧ fit.groupie ≤ 1

theorem giniCoefficient_congr {F : Type} [Field F] [LinearOrder F] {m m' : ℕ} (h : m = m')
    (x : Fin m → F) (y : Fin m' → F) (hxy : ∀ i, x i = y (i.cast h)) :
    giniCoefficient x = giniCoefficient y := by
  subst h
  congr 1
  funext i
  exact hxy i

theorem hooverIndex_congr {F : Type} [Field F] [LinearOrder F] {m m' : ℕ} (h : m = m')
    (x : Fin m → F) (y : Fin m' → F) (hxy : ∀ i, x i = y (i.cast h)) :
    hooverIndex x = hooverIndex y := by
  subst h
  congr 1
  funext i
  exact hxy i

theorem stats_documented {F : Type} [Field F] [LinearOrder F] [IsStrictOrderedRing F] {n m k : ℕ}
    (hn : 0 < n) (hk : 0 < k)
    (rows : Fin n → Fin k → Fin m) (hinj : ∀ i, Function.Injective (rows i)) (hubSize : F) :
    Documented rows (stats hubSize k n m ((List.finRange n).flatMap (asLists rows))) := by
  obtain ⟨L, hL⟩ : ∃ L, L = (List.finRange n).flatMap (asLists rows) := ⟨_, rfl⟩
  obtain ⟨Nk, hNk⟩ : ∃ Nk, Nk = Np.bincount L m := ⟨_, rfl⟩
  have hlen : Nk.length = m := by
    rw [hNk, hL]; exact Np.bincount_length _ _ (lists_lt rows)
  have hget : ∀ (j : ℕ) (hj : j < Nk.length), Nk[j] = occurrences (asLists rows) j := by
    intro j hj
    subst hNk; subst hL
    exact occ_getElem rows hinj j hj
  have hLlen : L.length = n * k := by rw [hL]; exact lists_length rows
  have hsum : Nk.sum = n * k := by
    rw [hNk, sum_bincount _ _ (by rw [hL]; exact lists_lt rows), hLlen]
  have hsum0 : 0 < Nk.sum := by rw [hsum]; positivity
  have hm : 0 < m := by rw [← hlen]; exact length_pos_of_sum hsum0
  have hnF : (0 : F) < n := by exact_mod_cast hn
  have hkF : (0 : F) < k := by exact_mod_cast hk
  have hmF : (0 : F) < m := by exact_mod_cast hm
  have hocc : ∀ j : ℕ, occurrences (asLists rows) j = 0 ↔ ∀ i, j ∉ asLists rows i := by
    intro j
    unfold occurrences
    rw [Finset.card_eq_zero, Finset.filter_eq_empty_iff]
    simp
  have hanti : ∀ j, j ∈ (antihubs (F := F) Nk).1 ↔ j < m ∧ ∀ i, j ∉ asLists rows i := by
    intro j
    simp only [HubClass.antihubs, mem_argwhere, decide_eq_true_eq]
    constructor
    · rintro ⟨h1, h2⟩
      exact ⟨by omega, (hocc j).1 (by rw [← hget j h1]; exact h2)⟩
    · rintro ⟨h1, h2⟩
      exact ⟨by omega, by rw [hget j (by omega)]; exact (hocc j).2 h2⟩
  have hantiocc : (antihubs Nk).2
      = ((Finset.univ.filter (fun j : Fin m => ∀ i, j.val ∉ asLists rows i)).card : F) / m := by
    have hnd : (antihubs (F := F) Nk).1.Nodup := List.nodup_range.filter _
    have hc : (antihubs (F := F) Nk).1.length
        = (Finset.univ.filter (fun j : Fin m => ∀ i, j.val ∉ asLists rows i)).card := by
      rw [← List.toFinset_card_of_nodup hnd, ← Finset.card_map Fin.valEmbedding]
      congr 1
      ext j
      rw [List.mem_toFinset, hanti, Finset.mem_map]
      constructor
      · rintro ⟨h1, h2⟩
        exact ⟨⟨j, h1⟩, by simpa using h2, rfl⟩
      · rintro ⟨a, ha, rfl⟩
        exact ⟨a.isLt, by simpa using ha⟩
    rw [← hc, ← hlen]
    rfl
  have hhub : (hubs hubSize k Nk n).2 = ((Finset.univ.filter (fun s : Fin n × Fin k =>
      (rows s.1 s.2).val ∈ (hubs hubSize k Nk n).1)).card : F) / (n * k) := by
    have hnd : (hubs hubSize k Nk n).1.Nodup := List.nodup_range.filter _
    have hsumh : (((hubs hubSize k Nk n).1.map (fun (j : ℕ) => Nk.getD j 0)).sum : ℕ)
        = (Finset.univ.filter (fun s : Fin n × Fin k =>
          (rows s.1 s.2).val ∈ (hubs hubSize k Nk n).1)).card := by
      have h1 : (hubs hubSize k Nk n).1.map (fun (j : ℕ) => Nk.getD j 0)
          = (hubs hubSize k Nk n).1.map (fun j => L.count j) := by
        refine List.map_congr_left (fun j hj => ?_)
        have hj' : j < Nk.length := by
          exact ((mem_argwhere Nk (fun x => decide (hubSize * k ≤ (x : F))) j).1 hj).1
        rw [List.getD_eq_getElem _ _ hj']
        subst hNk
        exact Np.bincount_getElem _ _ _ _
      rw [h1, sum_count_eq _ _ hnd, hL]
      generalize (hubs hubSize k Nk n).1 = H
      rw [List.countP_flatMap, Finset.card_filter, ← Finset.univ_product_univ, Finset.sum_product,
        ← List.sum_ofFn, List.ofFn_eq_map]
      congr 1
      refine List.map_congr_left (fun i _ => ?_)
      simp only [Function.comp, asLists]
      rw [countP_eq_sum, ← List.sum_ofFn, List.map_map, List.map_ofFn]
      simp [Function.comp_def]
    rw [← hsumh]
    change _ / _ / _ = _
    rw [div_div, mul_comm (k : F)]
    rfl
  have hmax : ∃ j : Fin m, Nk.foldr max 0 = occurrences (asLists rows) j := by
    have h1 := foldr_max_mem Nk (List.ne_nil_of_length_pos (by omega))
    obtain ⟨j, hj, hj2⟩ := List.getElem_of_mem h1
    exact ⟨⟨j, by omega⟩, by rw [← hj2, hget]⟩
  have hmaxle : ∀ j : Fin m, occurrences (asLists rows) j ≤ Nk.foldr max 0 := by
    intro j
    rw [← hget j (by omega)]
    exact le_foldr_max _ _ (List.getElem_mem _)
  have hsumF : ∑ j : Fin m, occurrences (asLists rows) j = n * k := by
    rw [← hsum, ← List.sum_ofFn]
    congr 1
    apply List.ext_getElem
    · simp [hlen]
    · intro j h1 h2
      simp [hget j h2]
  rw [← hL]
  refine ⟨hL, ?_, by rw [hNk] at hanti; exact hanti, by rw [hNk] at hantiocc; exact hantiocc, ?_,
    by rw [hNk] at hhub; exact hhub, ?_, ?_, ?_, ?_, ?_, ?_, ?_⟩
  · change Np.bincount L m = _
    rw [← hNk]
    apply List.ext_getElem
    · simp [hlen]
    · intro j h1 h2
      simp [hget j h1]
  · change 0 ≤ (antihubs (F := F) (Np.bincount L m)).2 ∧ (antihubs (F := F) (Np.bincount L m)).2 ≤ 1
    rw [← hNk, hantiocc]
    refine ⟨by positivity, (div_le_one hmF).2 ?_⟩
    exact_mod_cast (Finset.card_le_univ _).trans (by simp)
  · change 0 ≤ (hubs hubSize k (Np.bincount L m) n).2 ∧ (hubs hubSize k (Np.bincount L m) n).2 ≤ 1
    rw [← hNk, hhub]
    refine ⟨by positivity, (div_le_one (by positivity)).2 ?_⟩
    exact_mod_cast (Finset.card_le_univ _).trans (by simp)
  · change gini (Np.bincount L m) = _
    rw [← hNk, (C10_agree Nk).2.2.1, (C10_agree Nk).2.2.2]
    exact giniCoefficient_congr hlen _ _ (fun i => by simp [hget])
  · change 0 ≤ (gini (Np.bincount L m) : F) ∧ (gini (Np.bincount L m) : F) < 1
    rw [← hNk, (C10_agree Nk).2.2.1, giniNaive_eq]
    exact HubClass.gini_range Nk hsum0
  · change hood (Np.bincount L m) = _
    rw [← hNk, hood_eq]
    exact hooverIndex_congr hlen _ _ (fun i => by simp [hget])
  · change 0 ≤ (hood (Np.bincount L m) : F) ∧ (hood (Np.bincount L m) : F) < 1
    rw [← hNk, hood_eq]
    exact hooverIndex_range Nk hsum0
  · change (∃ j : Fin m, groupie (Np.bincount L m) n = _) ∧
      ∀ j : Fin m, _ ≤ groupie (Np.bincount L m) n
    rw [← hNk]
    obtain ⟨j, hj⟩ := hmax
    refine ⟨⟨j, by rw [groupie, hj]⟩, fun a => ?_⟩
    unfold HubClass.groupie
    gcongr
    exact hmaxle a
  · change _ ≤ groupie (Np.bincount L m) n ∧ groupie (Np.bincount L m) n ≤ (1 : F)
    rw [← hNk]
    unfold HubClass.groupie
    constructor
    · rw [div_le_div_iff₀ hmF hnF]
      have h1 : ∑ j : Fin m, occurrences (asLists rows) j ≤ ∑ _j : Fin m, Nk.foldr max 0 :=
        Finset.sum_le_sum (fun j _ => hmaxle j)
      rw [hsumF, Finset.sum_const, Finset.card_univ, Fintype.card_fin, smul_eq_mul] at h1
      have h2 : k * n ≤ Nk.foldr max 0 * m := by linarith
      exact_mod_cast h2
    · rw [div_le_one hnF]
      obtain ⟨j, hj⟩ := hmax
      rw [hj]
      exact_mod_cast occurrences_le _ _

/-- C09: all attributes set by `fit_transform` are what the documentation says, and proportions and indices
lie in their ranges. -/
theorem C09_statistics {K F : Type} [Field K] [LinearOrder K] [Field F] [LinearOrder F]
    [IsStrictOrderedRing F] (w : World K) (P : Params F) (k : ℕ) (hP : P.k = some (k : ℤ)) (hk : 1 ≤ k)
    (bs : ℕ) (shuffle hasSelf : Bool) (X : Data K) (hX : X.Canonical) (hn : 0 < X.nTest) (fit : Fit F)
    (h : fitTransform w P bs shuffle hasSelf X = .ok fit) :
    ∃ rows : Fin X.nTest → Fin k → Fin X.nTrain, (∀ i, Function.Injective (rows i)) ∧
      Documented rows fit := by
  unfold fitTransform at h
  rw [hP] at h
  simp only [Int.toNat_natCast] at h
  cases hl : fitLists w P.metric P.nJobs k bs shuffle hasSelf X with
  | error e => rw [hl] at h; cases h
  | ok r =>
    rw [hl] at h
    obtain ⟨rows, hinj, rfl⟩ := fitLists_inv w P.metric P.nJobs k bs shuffle hasSelf X hX hl
    cases h
    exact ⟨rows, hinj, stats_documented hn hk rows hinj P.hubSize⟩

end HubToolbox.HubClass
