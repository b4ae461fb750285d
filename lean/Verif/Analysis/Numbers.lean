import Verif.Analysis.Lemmas
import Verif.Analysis.Spec

/-!
# The numbers of a hubness experiment (C151-C154)
-/

set_option autoImplicit false

namespace HubToolbox.Analysis

/-! ### The list of experiments (C151) -/

/-- A comma separated list of names without commas is taken apart correctly. -/
theorem split_join (names : List String) (hne : names ≠ []) (hc : ∀ s ∈ names, ',' ∉ s.toList) :
    split (",".intercalate names) = names := by
  unfold split
  rw [String.toList_intercalate]
  have : (",".toList) = [','] := rfl
  rw [this, List.splitOn_intercalate ',' (by
    intro l hl
    obtain ⟨s, hs, rfl⟩ := List.mem_map.1 hl
    exact hc s hs) (by simpa using hne), List.map_map]
  have : (String.ofList ∘ String.toList) = id := by
    funext s
    simp
  rw [this, List.map_id]

theorem stored_isSome {env : Env} {a : HubnessAnalysis} {hubK knnK : List ℤ} {kind : String} {e : Experiment}
    (h : Finished env a hubK knnK kind e) (k : ℤ) :
    ((e.hubness k).isSome ↔ k ∈ hubK) ∧ ((e.antiHubs k).isSome ↔ k ∈ hubK) ∧ ((e.maxHub k).isSome ↔ k ∈ hubK) := by
  by_cases hk : k ∈ hubK
  · obtain ⟨_, _, r, _, h1, h2, h3⟩ := h.hub k hk
    simp [h1, h2, h3, hk]
  · obtain ⟨h1, h2, h3⟩ := h.noHub k hk
    simp [h1, h2, h3, hk]

theorem knn_isSome {env : Env} {a : HubnessAnalysis} {hubK knnK : List ℤ} {kind : String} {e : Experiment}
    (h : Finished env a hubK knnK kind e) :
    (∀ k, (e.knnAccuracy k).isSome ↔ a.classes.isSome ∧ k ∈ knnK) ∧ (e.gk.isSome ↔ a.classes.isSome) := by
  rcases hc : a.classes with _ | ⟨l, y⟩
  · obtain ⟨h1, h2⟩ := h.unlabelled hc
    simp [h1, h2]
  · obtain ⟨h1, h2, g, _, h3⟩ := h.knn l y hc
    refine ⟨fun k => ?_, by simp [h3]⟩
    by_cases hk : k ∈ knnK
    · obtain ⟨_, _, r, _, h4⟩ := h1 k hk
      simp [h4, hk]
    · simp [h2 k hk, hk]

/-- **C151**: a call of `analyze_hubness` without exception appends exactly one experiment per name, in the given order, to those of
former calls; every experiment has hubness, anti-hub and largest-hub numbers exactly for the requested `hubness_k`, and accuracies (exactly
for the requested `knn_k`) and a Goodman-Kruskal index exactly if there are class labels. -/
theorem C151_bookkeeping (env : Env) (a a' : HubnessAnalysis) (names : List String) (hne : names ≠ [])
    (hc : ∀ s ∈ names, ',' ∉ s.toList) (hubK knnK : List ℤ)
    (h : analyze env a (",".intercalate names) hubK knnK = (a', none)) :
    ∃ new : List Experiment, a'.experiments = a.experiments ++ new ∧ new.map Experiment.kind = names ∧
      ∀ e ∈ new,
        (∀ k, ((e.hubness k).isSome ↔ k ∈ hubK) ∧ ((e.antiHubs k).isSome ↔ k ∈ hubK) ∧ ((e.maxHub k).isSome ↔ k ∈ hubK)) ∧
        (∀ k, (e.knnAccuracy k).isSome ↔ a.classes.isSome ∧ k ∈ knnK) ∧ (e.gk.isSome ↔ a.classes.isSome) := by
  rcases analyze_spec env a a' _ hubK knnK _ h with ⟨_, _, _, _, _, h, _⟩ | ⟨done, rest, new, h1, h2, _, h3, h4, h5⟩
  · cases h
  · have hr : rest = [] := by
      rcases h5 with ⟨h, _⟩ | ⟨_, _, _, _, h, _⟩
      · exact h
      · cases h
    rw [split_join names hne hc, hr, List.append_nil] at h1
    subst h1
    refine ⟨new, h2, ?_, ?_⟩
    · apply List.ext_getElem (by simp [h3])
      intro i hi hi'
      rw [List.getElem_map]
      exact (experiment_inv (h4 i hi' (by simpa using hi))).name
    · intro e he
      obtain ⟨i, hi, rfl⟩ := List.getElem_of_mem he
      have hf := experiment_inv (h4 i (by omega) hi)
      exact ⟨stored_isSome hf, knn_isSome hf⟩

/-- **C151**: if a call raises an exception, the experiments finished before it are kept: they belong to the first names. -/
theorem C151_exception (env : Env) (a a' : HubnessAnalysis) (names : List String) (hne : names ≠ [])
    (hc : ∀ s ∈ names, ',' ∉ s.toList) (hubK knnK : List ℤ) (err : PyErr)
    (h : analyze env a (",".intercalate names) hubK knnK = (a', some err)) :
    ∃ new : List Experiment, a'.experiments = a.experiments ++ new ∧ new.map Experiment.kind <+: names ∧
      new.length < names.length := by
  rcases analyze_spec env a a' _ hubK knnK _ h with ⟨rfl, _⟩ | ⟨done, rest, new, h1, h2, _, h3, h4, h5⟩
  · exact ⟨[], by simp, List.nil_prefix, by simpa using List.length_pos_of_ne_nil hne⟩
  · rw [split_join names hne hc] at h1
    subst h1
    refine ⟨new, h2, ⟨rest, ?_⟩, ?_⟩
    · congr 1
      apply List.ext_getElem (by simp [h3])
      intro i hi hi'
      rw [List.getElem_map]
      exact (experiment_inv (h4 i hi' (by simpa using hi))).name
    · rcases h5 with ⟨_, h⟩ | ⟨_, _, _, rfl, _⟩
      · cases h
      · simp [h3]

/-- **C151**: an unknown name anywhere in the list (also a known one with a blank) makes the call raise. -/
theorem C151_unknown (env : Env) (a : HubnessAnalysis) (names : List String) (hne : names ≠ [])
    (hc : ∀ s ∈ names, ',' ∉ s.toList) (hubK knnK : List ℤ) (s : String) (hs : s ∈ names)
    (hu : s ∉ ["orig", "mp", "mp_gaussi", "mp_gammai", "ls", "nicdm", "snn", "cent", "wcent", "lcent", "dsg", "dsl"]) :
    (analyze env a (",".intercalate names) hubK knnK).2 ≠ none := by
  intro h0
  obtain ⟨a', h⟩ : ∃ a', analyze env a (",".intercalate names) hubK knnK = (a', none) := ⟨_, Prod.ext rfl h0⟩
  rcases analyze_spec env a a' _ hubK knnK _ h with ⟨_, _, _, _, _, h, _⟩ | ⟨done, rest, new, h1, h2, _, h3, h4, h5⟩
  · cases h
  · have hr : rest = [] := by
      rcases h5 with ⟨h, _⟩ | ⟨_, _, _, _, h, _⟩
      · exact h
      · cases h
    rw [split_join names hne hc, hr, List.append_nil] at h1
    subst h1
    obtain ⟨i, hi, rfl⟩ := List.getElem_of_mem hs
    have := (experiment_inv (h4 i hi (by omega))).valid.kind
    unfold kinds at this
    apply hu
    simp only [List.mem_cons, List.not_mem_nil, or_false] at this ⊢
    tauto

/-- Such names: with a blank, in upper case, empty. -/
example : (" mp" ∉ kinds) ∧ ("MP" ∉ kinds) ∧ ("" ∉ kinds) := by decide

/-! ### Hubness, anti-hubs and the largest hub (C152) -/

theorem foldr_max_ofFn {n : ℕ} (f : Fin n → ℕ) : (List.ofFn f).foldr max 0 = Finset.univ.sup f := by
  apply le_antisymm
  · have : ∀ l : List ℕ, (∀ x ∈ l, x ≤ Finset.univ.sup f) → l.foldr max 0 ≤ Finset.univ.sup f := by
      intro l
      induction l with
      | nil => simp
      | cons x l ih =>
        intro h
        rw [List.foldr_cons]
        exact max_le (h x (by simp)) (ih fun y hy => h y (by simp [hy]))
    apply this
    intro x hx
    obtain ⟨j, rfl⟩ := (List.mem_ofFn' f x).1 hx
    exact Finset.le_sup (f := f) (Finset.mem_univ j)
  · apply Finset.sup_le
    intro j _
    have : ∀ l : List ℕ, ∀ x ∈ l, x ≤ l.foldr max 0 := by
      intro l
      induction l with
      | nil => simp
      | cons y l ih =>
        intro x hx
        rw [List.foldr_cons]
        rcases List.mem_cons.1 hx with rfl | h
        · exact le_max_left _ _
        · exact (ih x h).trans (le_max_right _ _)
    exact this _ _ ((List.mem_ofFn' f _).2 ⟨j, rfl⟩)

theorem filter_zero_ofFn {n : ℕ} (f : Fin n → ℕ) :
    ((List.ofFn f).filter (fun c => decide (c = 0))).length = (Finset.univ.filter (fun j => f j = 0)).card := by
  rw [List.ofFn_eq_map, List.filter_map, List.length_map, ← List.toFinset_card_of_nodup ((List.nodup_finRange n).filter _)]
  congr 1
  ext j
  simp

theorem sum_hits {n k : ℕ} (L : Fin n → List (Fin n)) (hn : ∀ i, (L i).Nodup) (hk : ∀ i, (L i).length = k) :
    ∑ j, Spec.hits L j = n * k := by
  unfold Spec.hits
  simp only [Finset.card_filter]
  rw [Finset.sum_comm]
  have : ∀ i : Fin n, (∑ j : Fin n, if j ∈ L i then 1 else 0) = k := by
    intro i
    rw [← Finset.card_filter, ← hk i, ← List.toFinset_card_of_nodup (hn i)]
    congr 1
    ext j
    simp
  rw [Finset.sum_congr rfl fun i _ => this i, Finset.sum_const, Finset.card_univ, Fintype.card_fin, smul_eq_mul]

theorem stored_numbers {env : Env} {a : HubnessAnalysis} (hm : a.metric = "distance" ∨ a.metric = "similarity")
    (M : Fin a.n → Fin a.n → XR ℝ) {e : Experiment} {k : ℤ}
    (h : Stored env a (.mat false a.n a.n M) e k) :
    ∃ L : Fin a.n → List (Fin a.n), Spec.AreLists a.metric M k L ∧ 0 ≤ k ∧ 0 < a.n ∧
      e.hubness k = some (Spec.hubness L) ∧ e.antiHubs k = some (Spec.antiHubs L) ∧ e.maxHub k = some (Spec.maxHub L) := by
  obtain ⟨rnd, n', r, h0, h1, h2, h3⟩ := h
  rw [(Hubness.C01_hubness_argument env.part rnd env.sched k a.metric 1 false true (by simp)).2.2] at h0
  obtain ⟨r', hr, h0⟩ := map_ok h0
  obtain rfl : n' = a.n := by injection h0
  obtain rfl : r = r' := by injection h0
  have hc : Hubness.Covered 1 a.metric a.n a.n := by simp [Hubness.Covered]
  obtain ⟨-, hk, hn, -⟩ := (Hubness.C01_hubness_succeeds_iff env.part rnd env.sched false M k a.metric 1 false true hc).1 ⟨r, hr⟩
  choose L hL hknn using Hubness.C01_hubness_knn env.part rnd env.sched false M k a.metric 1 false true hc r hr
  have C3 := Hubness.C03_k_occurrence env.part rnd env.sched false M k a.metric 1 false true hc r hr
  have C53 := Hubness.C53_skewness env.part rnd env.sched false M k a.metric 1 false true hc r hr
  have hocc : ∀ j : Fin a.n, Spec.occurrences r.Dk j.val = Spec.hits L j := by
    intro j
    unfold Spec.occurrences Spec.hits
    congr 1
    ext i
    simp only [Finset.mem_filter, Finset.mem_univ, true_and, hL i, List.mem_map]
    constructor
    · rintro ⟨x, hx, hj⟩; rwa [← Fin.ext hj]
    · intro hj; exact ⟨j, hj, rfl⟩
  have hN : r.Nk = List.ofFn (Spec.hits L) := by
    apply List.ext_getElem
    · simp [C3.1]
    · intro j hj hj'
      rw [(C3.2.1 j hj).1, List.getElem_ofFn]
      exact hocc ⟨j, by simpa using hj'⟩
  refine ⟨L, hknn, hk, hn, ?_, ?_, ?_⟩
  · rw [h1, C53]
    unfold Spec.hubness
    congr 2
    · funext j; rw [hocc]
    · congr 1
      have := sum_hits L (fun i => (hknn i).distinct) (fun i => (hknn i).length)
      rw [← this]
      push_cast
      rfl
  · rw [h2, hN, filter_zero_ofFn]
    unfold Spec.antiHubs
    congr 5
    ext j
    simp [Spec.hits, Finset.filter_eq_empty_iff]
  · rw [h3, hN, foldr_max_ofFn]
    rfl

/-- **C152**: for every experiment of an analysis and every requested `k`, there are true `k`-nearest neighbour lists of the secondary
distances (with `n - 1` instead of larger `k`) such that the reported hubness is the skewness of the numbers of occurrences, the reported
percentage of anti-hubs counts the points in no list, and the reported percentage of the largest hub counts the lists which contain the most
frequent point. -/
theorem C152_numbers (env : Env) (a : HubnessAnalysis) (hubK knnK : List ℤ) (t : ℕ) (kind : String) (e : Experiment)
    (h : experiment env a hubK knnK t kind = .ok e) :
    ∃ M : Fin a.n → Fin a.n → XR ℝ, e.secondary = .mat false a.n a.n M ∧
      ∀ k ∈ hubK, ∃ L : Fin a.n → List (Fin a.n), Spec.AreLists a.metric M k L ∧
        e.hubness k = some (Spec.hubness L) ∧ e.antiHubs k = some (Spec.antiHubs L) ∧ e.maxHub k = some (Spec.maxHub L) := by
  have hf := experiment_inv h
  obtain ⟨M, hM⟩ := hf.shape
  refine ⟨M, hM, fun k hk => ?_⟩
  have := hf.hub k hk
  rw [hM] at this
  obtain ⟨L, h1, _, _, h2⟩ := stored_numbers hf.valid.metric M this
  exact ⟨L, h1, h2⟩

/-- **C152**: in terms of the whole analysis. -/
theorem C152_analysis (env : Env) (a a' : HubnessAnalysis) (s : String) (hubK knnK : List ℤ) (err : Option PyErr)
    (h : analyze env a s hubK knnK = (a', err)) :
    ∃ new : List Experiment, a'.experiments = a.experiments ++ new ∧ ∀ e ∈ new,
      ∃ M : Fin a.n → Fin a.n → XR ℝ, e.secondary = .mat false a.n a.n M ∧
        ∀ k ∈ hubK, ∃ L : Fin a.n → List (Fin a.n), Spec.AreLists a.metric M k L ∧
          e.hubness k = some (Spec.hubness L) ∧ e.antiHubs k = some (Spec.antiHubs L) ∧
          e.maxHub k = some (Spec.maxHub L) := by
  rcases analyze_spec env a a' s hubK knnK err h with ⟨rfl, _⟩ | ⟨done, rest, new, h1, h2, _, h3, h4, h5⟩
  · exact ⟨[], by simp, by simp⟩
  · refine ⟨new, h2, fun e he => ?_⟩
    obtain ⟨i, hi, rfl⟩ := List.getElem_of_mem he
    exact C152_numbers env a hubK knnK i _ _ (h4 i (by omega) hi)

/-! ### Bounds (C153) -/

theorem maxHub_ge {n k : ℕ} (hn : 0 < n) (L : Fin n → List (Fin n)) (h1 : ∀ i, (L i).Nodup) (h2 : ∀ i, (L i).length = k) :
    100 * (k : ℝ) / n ≤ Spec.maxHub L := by
  unfold Spec.maxHub
  have hn' : (0 : ℝ) < n := by exact_mod_cast hn
  have hs := sum_hits L h1 h2
  have : n * k ≤ n * Finset.univ.sup (Spec.hits L) := by
    rw [← hs]
    calc ∑ j, Spec.hits L j ≤ ∑ _j : Fin n, Finset.univ.sup (Spec.hits L) :=
          Finset.sum_le_sum fun j _ => Finset.le_sup (f := Spec.hits L) (Finset.mem_univ j)
      _ = n * Finset.univ.sup (Spec.hits L) := by simp
  have hk : k ≤ Finset.univ.sup (Spec.hits L) := Nat.le_of_mul_le_mul_left this hn
  have hk' : (k : ℝ) ≤ (Finset.univ.sup (Spec.hits L) : ℕ) := by exact_mod_cast hk
  gcongr

theorem hits_le {n : ℕ} (L : Fin n → List (Fin n)) (j : Fin n) : Spec.hits L j ≤ n := by
  unfold Spec.hits
  exact (Finset.card_le_univ _).trans (by simp)

theorem hits_lt {n : ℕ} (L : Fin n → List (Fin n)) (hself : ∀ i, i ∉ L i) (j : Fin n) : Spec.hits L j ≤ n - 1 := by
  unfold Spec.hits
  calc (Finset.univ.filter (fun i => j ∈ L i)).card ≤ (Finset.univ.erase j).card := by
        apply Finset.card_le_card
        intro i hi
        refine Finset.mem_erase.2 ⟨?_, Finset.mem_univ _⟩
        rintro rfl
        exact hself i (Finset.mem_filter.1 hi).2
    _ = n - 1 := by simp

theorem anti_le {n k : ℕ} (hn : 0 < n) (L : Fin n → List (Fin n)) (h1 : ∀ i, (L i).Nodup) (h2 : ∀ i, (L i).length = k) :
    (Finset.univ.filter (fun j => ∀ i, j ∉ L i)).card + k ≤ n := by
  have i0 : Fin n := ⟨0, hn⟩
  have hd : Disjoint (Finset.univ.filter (fun j => ∀ i, j ∉ L i)) (L i0).toFinset := by
    rw [Finset.disjoint_left]
    intro j hj hj'
    exact (Finset.mem_filter.1 hj).2 i0 (List.mem_toFinset.1 hj')
  rw [← h2 i0, ← List.toFinset_card_of_nodup (h1 i0), ← Finset.card_union_of_disjoint hd]
  exact (Finset.card_le_univ _).trans (by simp)

/-- With `k ≥ 1` and no point in its own list, a listed point `p` and the members of the list of `p` are no anti-hubs. -/
theorem anti_lt {n k : ℕ} (hn : 0 < n) (hk : 1 ≤ k) (L : Fin n → List (Fin n)) (h1 : ∀ i, (L i).Nodup)
    (h2 : ∀ i, (L i).length = k) (hself : ∀ i, i ∉ L i) :
    (Finset.univ.filter (fun j => ∀ i, j ∉ L i)).card + (k + 1) ≤ n := by
  have i0 : Fin n := ⟨0, hn⟩
  obtain ⟨p, hp⟩ : ∃ p, p ∈ L i0 := List.exists_mem_of_length_pos (by rw [h2]; omega)
  have hsub : (L i0).toFinset ⊆ Finset.univ.filter (fun j => ¬ ∀ i, j ∉ L i) := by
    intro j hj
    refine Finset.mem_filter.2 ⟨Finset.mem_univ _, fun h => h i0 (List.mem_toFinset.1 hj)⟩
  have hsubp : (L p).toFinset ⊆ Finset.univ.filter (fun j => ¬ ∀ i, j ∉ L i) := by
    intro j hj
    refine Finset.mem_filter.2 ⟨Finset.mem_univ _, fun h => h p (List.mem_toFinset.1 hj)⟩
  have hpmem : p ∈ Finset.univ.filter (fun j => ¬ ∀ i, j ∉ L i) := hsub (List.mem_toFinset.2 hp)
  have hins : insert p (L p).toFinset ⊆ Finset.univ.filter (fun j => ¬ ∀ i, j ∉ L i) :=
    Finset.insert_subset hpmem hsubp
  have hcard : k + 1 ≤ (Finset.univ.filter (fun j => ¬ ∀ i, j ∉ L i)).card := by
    calc k + 1 = (insert p (L p).toFinset).card := by
          rw [Finset.card_insert_of_notMem (by simpa using hself p), List.toFinset_card_of_nodup (h1 p), h2]
      _ ≤ _ := Finset.card_le_card hins
  have htot := Finset.card_filter_add_card_filter_not (s := (Finset.univ : Finset (Fin n))) (fun j => ∀ i, j ∉ L i)
  rw [Finset.card_univ, Fintype.card_fin] at htot
  omega

/-- With finite values the own point is never listed. -/
theorem not_self {n : ℕ} (metric : String) (hm : metric = "distance" ∨ metric = "similarity")
    (M : Fin n → Fin n → XR ℝ) (hfin : ∀ i j, i ≠ j → (M i j).isFinite = true) (k : ℤ)
    (L : Fin n → List (Fin n)) (hL : Spec.AreLists metric M k L) (i : Fin n) : i ∉ L i := by
  intro hi
  have hlen : (L i).length ≤ n - 1 := by rw [(hL i).length]; omega
  have hn : 0 < n := i.pos
  have : ∃ b, b ∉ L i := by
    by_contra hall
    push_neg at hall
    have hu : (L i).toFinset = Finset.univ := by ext j; simp [hall]
    have := List.toFinset_card_of_nodup (hL i).distinct
    rw [hu, Finset.card_univ, Fintype.card_fin] at this
    omega
  obtain ⟨b, hb⟩ := this
  have hbi : i ≠ b := by rintro rfl; exact hb hi
  have hbest := (hL i).best i hi b hb
  have e1 : Spec.effective metric M i i = Spec.far metric := by
    unfold Spec.effective
    rw [if_pos (Or.inl ⟨rfl, rfl⟩)]
  have e2 : Spec.effective metric M i b = M i b := by
    unfold Spec.effective
    rw [if_neg]
    rintro (⟨-, h⟩ | h | ⟨h, -⟩)
    · exact hbi (Fin.ext h)
    · rw [hfin i b hbi] at h; cases h
    · exact h rfl
  rw [e1, e2] at hbest
  have hf := hfin i b hbi
  rcases hm with rfl | rfl
  · have hbest : (XR.pinf : XR ℝ) ≤ M i b := by simpa [Spec.closer, Spec.far] using hbest
    cases hM : M i b with
    | fin x => rw [hM] at hbest; exact absurd hbest (by simp)
    | _ => rw [hM] at hf; cases hf
  · have hbest : M i b ≤ (XR.ninf : XR ℝ) := by simpa [Spec.closer, Spec.far] using hbest
    cases hM : M i b with
    | fin x => rw [hM] at hbest; exact absurd hbest (by simp)
    | _ => rw [hM] at hf; cases hf

/-- **C153**: bounds which hold whatever the data: percentages lie between 0 and 100, the largest hub occurs in at least the average number
of lists, and the `k` members of a list are no anti-hubs. -/
theorem C153_bounds (env : Env) (a : HubnessAnalysis) (hubK knnK : List ℤ) (t : ℕ) (kind : String) (e : Experiment)
    (h : experiment env a hubK knnK t kind = .ok e) (k : ℤ) (hk : k ∈ hubK) (anti mx : ℝ)
    (ha : e.antiHubs k = some anti) (hx : e.maxHub k = some mx) :
    0 ≤ k ∧ 0 ≤ anti ∧ anti ≤ 100 * (1 - (min k ((a.n : ℤ) - 1) : ℤ) / (a.n : ℝ)) ∧
      100 * ((min k ((a.n : ℤ) - 1) : ℤ) : ℝ) / (a.n : ℝ) ≤ mx ∧ mx ≤ 100 := by
  have hf := experiment_inv h
  obtain ⟨M, hM⟩ := hf.shape
  have := hf.hub k hk
  rw [hM] at this
  obtain ⟨L, h1, h2, hn, -, h3, h4⟩ := stored_numbers hf.valid.metric M this
  rw [h3] at ha
  rw [h4] at hx
  cases ha
  cases hx
  have hn' : (0 : ℝ) < a.n := by exact_mod_cast hn
  set k' := (min k ((a.n : ℤ) - 1)).toNat with hk'
  have hkz : ((min k ((a.n : ℤ) - 1) : ℤ) : ℝ) = (k' : ℝ) := by
    have : ((k' : ℕ) : ℤ) = min k ((a.n : ℤ) - 1) := Int.toNat_of_nonneg (by omega)
    rw [← this]
    push_cast
    rfl
  rw [hkz]
  have hlen : ∀ i, (L i).length = k' := fun i => (h1 i).length
  refine ⟨h2, ?_, ?_, ?_, ?_⟩
  · unfold Spec.antiHubs; positivity
  · have := anti_le hn L (fun i => (h1 i).distinct) hlen
    have hr : ((Finset.univ.filter (fun j => ∀ i, j ∉ L i)).card : ℝ) + (k' : ℝ) ≤ a.n := by exact_mod_cast this
    unfold Spec.antiHubs
    rw [div_le_iff₀ hn']
    field_simp
    linarith
  · exact maxHub_ge hn L (fun i => (h1 i).distinct) hlen
  · unfold Spec.maxHub
    rw [div_le_iff₀ hn']
    have : Finset.univ.sup (Spec.hits L) ≤ a.n := Finset.sup_le fun j _ => hits_le L j
    have : ((Finset.univ.sup (Spec.hits L) : ℕ) : ℝ) ≤ a.n := by exact_mod_cast this
    linarith

/-- **C153**: with finite secondary distances no point counts for its own list, which improves two of the bounds. -/
theorem C153_finite (env : Env) (a : HubnessAnalysis) (hubK knnK : List ℤ) (t : ℕ) (kind : String) (e : Experiment)
    (h : experiment env a hubK knnK t kind = .ok e) (M : Fin a.n → Fin a.n → XR ℝ) (hM : e.secondary = .mat false a.n a.n M)
    (hfin : ∀ i j, i ≠ j → (M i j).isFinite = true) (k : ℤ) (hk : k ∈ hubK) (anti mx : ℝ)
    (ha : e.antiHubs k = some anti) (hx : e.maxHub k = some mx) :
    mx ≤ 100 * (1 - 1 / (a.n : ℝ)) ∧
      (1 ≤ k → 2 ≤ a.n → anti ≤ 100 * (1 - ((min k ((a.n : ℤ) - 1) + 1 : ℤ) : ℝ) / (a.n : ℝ))) := by
  have hf := experiment_inv h
  have := hf.hub k hk
  rw [hM] at this
  obtain ⟨L, h1, h2, hn, -, h3, h4⟩ := stored_numbers hf.valid.metric M this
  rw [h3] at ha
  rw [h4] at hx
  cases ha
  cases hx
  have hn' : (0 : ℝ) < a.n := by exact_mod_cast hn
  have hself : ∀ i, i ∉ L i := not_self a.metric hf.valid.metric M hfin k L h1
  constructor
  · unfold Spec.maxHub
    rw [div_le_iff₀ hn']
    have : Finset.univ.sup (Spec.hits L) + 1 ≤ a.n := by
      have : Finset.univ.sup (Spec.hits L) ≤ a.n - 1 := Finset.sup_le fun j _ => hits_lt L hself j
      omega
    have : ((Finset.univ.sup (Spec.hits L) : ℕ) : ℝ) + 1 ≤ a.n := by exact_mod_cast this
    field_simp
    linarith
  · intro hk1 hn2
    set k' := (min k ((a.n : ℤ) - 1)).toNat with hk'
    have hkz : (((min k ((a.n : ℤ) - 1) + 1 : ℤ)) : ℝ) = (k' : ℝ) + 1 := by
      have : ((k' : ℕ) : ℤ) = min k ((a.n : ℤ) - 1) := Int.toNat_of_nonneg (by omega)
      rw [← this]
      push_cast
      rfl
    rw [hkz]
    have hlen : ∀ i, (L i).length = k' := fun i => (h1 i).length
    have := anti_lt hn (by omega) L (fun i => (h1 i).distinct) hlen hself
    have hr : ((Finset.univ.filter (fun j => ∀ i, j ∉ L i)).card : ℝ) + ((k' : ℝ) + 1) ≤ a.n := by exact_mod_cast this
    unfold Spec.antiHubs
    rw [div_le_iff₀ hn']
    field_simp
    linarith

/-! ### Accuracies and the Goodman-Kruskal index (C154) -/

theorem score_int (env : Env) (rnd : Knn.Rnd) (S : PyMat (XR ℝ)) (y : PyVec ℤ) (k : ℤ) (metric : String) :
    Knn.score env.srt env.part rnd S y (.int k) metric none = Knn.score env.srt env.part rnd S y (.list [k]) metric none := rfl

theorem head_acc {n : ℕ} {l : List (Knn.KRes ℝ n)} {q : Knn.KRes ℝ n} (h : l[0]? = some q) :
    (l.map (fun s => s.acc)).headD 0 = q.acc := by
  cases l with
  | nil => cases h
  | cons x l => cases h; rfl

theorem acc_mem {n : ℕ} {l : List (Knn.KRes ℝ n)} (h : l.length = 1) : ∃ q ∈ l, (l.map (fun s => s.acc)).headD 0 = q.acc := by
  match l, h with
  | [q], _ => exact ⟨q, by simp, rfl⟩

/-- **C154**: accuracies lie between 0 and 1, Goodman-Kruskal indices between -1 and 1; for symmetric secondary distances without `nan` the
latter is the index as defined. -/
theorem C154_range (env : Env) (a : HubnessAnalysis) (hubK knnK : List ℤ) (t : ℕ) (kind : String) (e : Experiment)
    (h : experiment env a hubK knnK t kind = .ok e) (y : Fin a.n → ℤ) (hy : a.classes = some ⟨a.n, y⟩) (hn : 0 < a.n) :
    (∀ k acc, e.knnAccuracy k = some acc → 0 ≤ acc ∧ acc ≤ 1) ∧ (∀ g, e.gk = some g → -1 ≤ g ∧ g ≤ 1) ∧
    (∀ M : Fin a.n → Fin a.n → XR ℝ, e.secondary = .mat false a.n a.n M → (∀ i j, M i j = M j i) → (∀ i j, M i j ≠ .nan) →
      e.gk = some (Spec.gkIndex a.metric M y)) := by
  have hf := experiment_inv h
  obtain ⟨M, hM⟩ := hf.shape
  obtain ⟨h1, h2, g, hg, h3⟩ := hf.knn _ _ hy
  rw [hM] at hg
  refine ⟨?_, ?_, ?_⟩
  · intro k acc hacc
    by_cases hk : k ∈ knnK
    · obtain ⟨rnd, n', r, h4, h5⟩ := h1 k hk
      obtain ⟨r', h6, h7, h8⟩ := Knn.C42_loo hn env.srt env.part rnd false M y [k] a.metric hf.valid.metric
      rw [hM, score_int, h6] at h4
      obtain rfl : a.n = n' := by injection h4 with h4; injection h4
      obtain rfl : r' = r := by injection h4 with h4; injection h4
      obtain ⟨q, hq, hqa⟩ := acc_mem h7
      rw [h5, hqa] at hacc
      cases hacc
      obtain ⟨c1, -, c2, -⟩ := h8 q hq
      rw [c2]
      have hn' : (0 : ℝ) < a.n := by exact_mod_cast hn
      have hs : ∑ i, q.corr i ≤ a.n := by
        calc ∑ i, q.corr i ≤ ∑ _i : Fin a.n, 1 := Finset.sum_le_sum fun i _ => by rcases c1 i with h | h <;> omega
          _ = a.n := by simp
      rw [List.length_finRange]
      refine ⟨by positivity, ?_⟩
      rw [div_le_one hn']
      exact_mod_cast hs
    · rw [h2 k hk] at hacc; cases hacc
  · intro g' hg'
    rw [h3] at hg'
    cases hg'
    exact GK.C15_bounded M y a.metric g hg
  · intro M' hM' hsym hnan
    have hg' := (GK.C14_index_is_definition M' y a.metric hf.valid.metric hsym hnan).1
    rw [hM] at hM'
    have : M = M' := by injection hM'
    rw [this, hg'] at hg
    rw [h3, ← Except.ok.inj hg]

/-- **C154**: for finite secondary distances the accuracy is the fraction of points whose label is predicted by the vote of their true
`k` nearest neighbours. -/
theorem C154_accuracy (env : Env) (a : HubnessAnalysis) (hubK knnK : List ℤ) (t : ℕ) (kind : String) (e : Experiment)
    (h : experiment env a hubK knnK t kind = .ok e) (y : Fin a.n → ℤ) (hy : a.classes = some ⟨a.n, y⟩) (hn : 2 ≤ a.n)
    (M : Fin a.n → Fin a.n → XR ℝ) (hM : e.secondary = .mat false a.n a.n M)
    (hfin : ∀ i j, i ≠ j → (M i j).isFinite = true) (k : ℤ) (hk : k ∈ knnK) (hk1 : 1 ≤ k) :
    ∃ pred : Fin a.n → ℤ,
      (∀ i, ∃ N : List (Fin a.n), N ≠ [] ∧ Spec.IsKNN a.metric (M i) (Finset.univ.erase i) k.toNat N ∧
        Spec.IsVote (N.map y) (pred i)) ∧
      e.knnAccuracy k = some (((Finset.univ.filter (fun i => pred i = y i)).card : ℝ) / a.n) := by
  have hf := experiment_inv h
  obtain ⟨h1, -, -⟩ := hf.knn _ _ hy
  obtain ⟨rnd, n', r, h4, h5⟩ := h1 k hk
  obtain ⟨r', h6, h7, h8⟩ := Knn.C42_loo (by omega) env.srt env.part rnd false M y [k] a.metric hf.valid.metric
  obtain ⟨r'', h9, h10⟩ := Knn.C43_dense_loo env.srt env.part rnd M y [k] (by simpa using hk1) a.metric hf.valid.metric
  rw [h6] at h9
  obtain rfl : r' = r'' := by injection h9 with h9; injection h9
  rw [hM, score_int, h6] at h4
  obtain rfl : a.n = n' := by injection h4 with h4; injection h4
  obtain rfl : r' = r := by injection h4 with h4; injection h4
  obtain ⟨q, hq, pred, hp1, -, hp3⟩ := h10 0 (by simp)
  have hok : ∀ i : Fin a.n, (∃ x, x ≠ i ∧ (M i x).isFinite = true) ∧ ∀ x, x ≠ i → M i x ≠ Spec.tooNear a.metric := by
    intro i
    constructor
    · have : ∃ x : Fin a.n, x ≠ i := by
        by_cases hi : i.val = 0
        · exact ⟨⟨1, by omega⟩, fun h => by rw [← h] at hi; simp at hi⟩
        · exact ⟨⟨0, by omega⟩, fun h => by rw [← h] at hi; simp at hi⟩
      obtain ⟨x, hx⟩ := this
      exact ⟨x, hx, hfin i x hx.symm⟩
    · intro x hx heq
      have := hfin i x hx.symm
      rw [heq] at this
      unfold Spec.tooNear at this
      split at this <;> cases this
  refine ⟨pred, fun i => ?_, ?_⟩
  · exact hp3 i (hok i)
  · rw [h5, head_acc hq]
    obtain ⟨-, -, c2, -⟩ := h8 q (List.mem_of_getElem? hq)
    rw [c2, List.length_finRange, Finset.card_filter]
    congr 3
    exact_mod_cast Finset.sum_congr rfl fun i _ => hp1 i (hok i) (List.mem_finRange i)

end HubToolbox.Analysis
