import Verif.Relations.Separation
import Verif.Analysis.Secondary
import Verif.Analysis.Success

/-!
# Separated classes: hubness and analysis (C274, C275)
-/

set_option autoImplicit false

namespace HubToolbox.Hubness

open Spec

variable {K : Type} [Field K] [LinearOrder K] [IsStrictOrderedRing K] {n : ℕ}

theorem list_own_class {metric : String} (hm : metric = "distance" ∨ metric = "similarity") {D : Fin n → Fin n → XR K} {x : Fin n → Fin n → K}
    (hD : ∀ i j, i ≠ j → D i j = .fin (x i j)) {y : Fin n → ℤ} (hsep : Separated (asDistance metric x) y) {i : Fin n} {k : ℕ}
    (hk : k < (classOf y i).card) {L : List (Fin n)} (hL : IsKnn (closer metric) (effective metric D i) k L) : ∀ b ∈ L, y b = y i ∧ b ≠ i := by
  have eff : ∀ j, j ≠ i → effective metric D i j = .fin (x i j) := fun j hj => by
    unfold effective
    rw [hD i j hj.symm, if_neg]
    rintro (⟨-, h⟩ | h | ⟨h, -⟩)
    · exact hj (Fin.ext h.symm)
    · simp [XR.isFinite] at h
    · exact h rfl
  have effi : effective metric D i i = far metric := by
    unfold effective
    rw [if_pos (Or.inl ⟨rfl, rfl⟩)]
  have out : ∀ b ∈ L, b ∉ (classOf y i).erase i → False := fun b hb hbn => by
    have hsub : ∀ j ∈ (classOf y i).erase i, j ∈ L := fun j hj => by
      obtain ⟨hji, hj⟩ := Finset.mem_erase.1 hj
      by_contra hjL
      have h := hL.best b hb j hjL
      rw [eff j hji] at h
      unfold closer at h
      by_cases hbi : b = i
      · rw [hbi, effi] at h
        unfold far at h
        rcases hm with rfl | rfl
        · simp only [if_true] at h
          exact absurd h (by simp)
        · simp only [show ("similarity" : String) ≠ "distance" by decide, if_false] at h
          exact absurd h (by simp)
      · have hne : y b ≠ y i := fun e => hbn (Finset.mem_erase.2 ⟨hbi, Finset.mem_filter.2 ⟨Finset.mem_univ b, e⟩⟩)
        have hs := hsep i j b hji (Finset.mem_filter.1 hj).2 hne
        rw [eff b hbi] at h
        unfold asDistance at hs
        rcases hm with rfl | rfl
        · simp only [if_true] at h hs
          exact absurd hs (not_lt.2 (XR.fin_le_fin.1 h))
        · simp only [show ("similarity" : String) ≠ "distance" by decide, if_false] at h hs
          exact absurd (neg_lt_neg_iff.1 hs) (not_lt.2 (XR.fin_le_fin.1 h))
    have hle : (insert b ((classOf y i).erase i)).card ≤ L.toFinset.card := Finset.card_le_card fun j hj => by
      rw [List.mem_toFinset]
      rcases Finset.mem_insert.1 hj with rfl | hj
      · exact hb
      · exact hsub j hj
    rw [Finset.card_insert_of_notMem hbn, Knn.classOf_erase, List.toFinset_card_of_nodup hL.distinct, hL.length] at hle
    omega
  intro b hb
  have h : b ∈ (classOf y i).erase i := by
    by_contra h
    exact out b hb h
  obtain ⟨h1, h2⟩ := Finset.mem_erase.1 h
  exact ⟨(Finset.mem_filter.1 h2).2, h1⟩

/-- **C274**: hubs attract objects of their own class only. -/
theorem C274 (o : ArgPart (XR K)) (rnd : Rnd) (sched : Schedule) (sparse : Bool) (D : Fin n → Fin n → XR K) (x : Fin n → Fin n → K)
    (hD : ∀ i j, i ≠ j → D i j = .fin (x i j)) (y : Fin n → ℤ) (metric : String) (hsep : Separated (asDistance metric x) y) (k : ℕ)
    (hk : ∀ i, k < (classOf y i).card) (nJobs : ℤ) (seed shuffle : Bool) (r : Res n)
    (h : hubnessMat o rnd sched sparse D k metric nJobs seed shuffle = .ok r) :
    (∀ i, ∃ L : List (Fin n), r.Dk i = L.map Fin.val ∧ L.length = k ∧ ∀ b ∈ L, y b = y i) ∧
    (∀ b : Fin n, r.Nk.getD b 0 < (classOf y b).card) ∧
    ∀ a : Fin n, ∑ b ∈ classOf y a, r.Nk.getD b 0 = k * (classOf y a).card := by
  have hc : Covered nJobs metric n n := fun h => h.2.2 rfl
  obtain ⟨hm, -⟩ := hubnessMat_inv o rnd sched hc h
  choose L hL1 hL2 using fun i => C01_hubness_knn o rnd sched sparse D k metric nJobs seed shuffle hc r h i
  obtain ⟨h1, h2, -⟩ := C03_k_occurrence o rnd sched sparse D k metric nJobs seed shuffle hc r h
  have hmin : ∀ i : Fin n, (min (k : ℤ) ((n : ℤ) - 1)).toNat = k := fun i => by
    have h3 := hk i
    have h4 := Finset.card_le_univ (classOf y i)
    rw [Fintype.card_fin] at h4
    omega
  have own : ∀ i, ∀ b ∈ L i, y b = y i ∧ b ≠ i := fun i => list_own_class hm hD hsep (hk i) (by have := hL2 i; rwa [hmin i] at this)
  have hlen : ∀ i, (L i).length = k := fun i => (hL2 i).length.trans (hmin i)
  have hocc : ∀ b : Fin n, r.Nk.getD b 0 = (Finset.univ.filter fun i => b ∈ L i).card := fun b => by
    have hb : b.val < r.Nk.length := by rw [h1]; exact b.isLt
    rw [List.getD_eq_getElem _ _ hb, (h2 b hb).1]
    unfold occurrences
    congr 1
    ext i
    simp only [Finset.mem_filter, Finset.mem_univ, true_and, hL1 i]
    exact List.mem_map_of_injective Fin.val_injective
  refine ⟨fun i => ⟨L i, hL1 i, hlen i, fun b hb => (own i b hb).1⟩, fun b => ?_, fun a => ?_⟩
  · rw [hocc b, ← Knn.classOf_erase y b, Nat.lt_succ_iff]
    refine Finset.card_le_card fun i hi => ?_
    have := own i b (Finset.mem_filter.1 hi).2
    exact Finset.mem_erase.2 ⟨this.2.symm, Finset.mem_filter.2 ⟨Finset.mem_univ i, this.1.symm⟩⟩
  · have e1 : ∀ b ∈ classOf y a, r.Nk.getD b 0 = ((classOf y a).filter fun i => b ∈ L i).card := fun b hb => by
      rw [hocc b]
      congr 1
      ext i
      simp only [Finset.mem_filter, Finset.mem_univ, true_and, classOf]
      refine ⟨fun hi => ⟨?_, hi⟩, fun hi => hi.2⟩
      rw [← (own i b hi).1]
      exact (Finset.mem_filter.1 hb).2
    rw [Finset.sum_congr rfl e1]
    simp only [Finset.card_filter]
    rw [Finset.sum_comm]
    have e2 : ∀ i ∈ classOf y a, (∑ b ∈ classOf y a, if b ∈ L i then 1 else 0) = k := fun i hi => by
      rw [← Finset.card_filter, ← hlen i, ← List.toFinset_card_of_nodup (hL2 i).distinct]
      congr 1
      ext b
      simp only [Finset.mem_filter, List.mem_toFinset, classOf, Finset.mem_univ, true_and]
      refine ⟨fun h => h.2, fun h => ⟨?_, h⟩⟩
      rw [(own i b h).1]
      exact (Finset.mem_filter.1 hi).2
    rw [Finset.sum_congr rfl e2, Finset.sum_const, smul_eq_mul, mul_comm]

end HubToolbox.Hubness

namespace HubToolbox.Analysis

open Spec

/-- **C275**: the analysis of separated classes reports perfect classification before and after Mutual Proximity. -/
theorem C275 {n : ℕ} (hn : 2 ≤ n) (env : Env) (D : Fin n → Fin n → ℝ) (hD : ∀ i j, D i j = D j i) (y : Fin n → ℤ)
    (vectors : Option (Σ n d : ℕ, Fin n → Fin d → ℝ)) (hsep : Separated D y) (hubK knnK : List ℤ) (t : ℕ) (kind : String)
    (hkind : kind = "orig" ∨ kind = "mp") (e : Experiment)
    (h : experiment env (.init D (some ⟨n, y⟩) vectors "distance") hubK knnK t kind = .ok e)
    (k : ℤ) (hk : k ∈ knnK) (h1 : 1 ≤ k) (hk' : ∀ i, k < (classOf y i).card) : e.knnAccuracy k = some 1 := by
  have key : ∀ M : Fin n → Fin n → ℝ, e.secondary = .mat false n n (fun i j => .fin (M i j)) → Separated M y → e.knnAccuracy k = some 1 := by
    intro M hM hs
    obtain ⟨pred, h2, h3⟩ : ∃ pred : Fin n → ℤ,
        (∀ i, ∃ N : List (Fin n), N ≠ [] ∧ IsKNN "distance" (fun j => XR.fin (M i j)) (Finset.univ.erase i) k.toNat N ∧ IsVote (N.map y) (pred i)) ∧
        e.knnAccuracy k = some (((Finset.univ.filter (fun i => pred i = y i)).card : ℝ) / n) := C154_accuracy env (.init D (some ⟨n, y⟩) vectors "distance") hubK knnK t kind e h y rfl hn _ hM
      (fun i j _ => rfl) k hk h1
    rw [h3]
    have hp : ∀ i, pred i = y i := fun i => by
      obtain ⟨N, hne, hN, hv⟩ := h2 i
      refine Knn.vote_const (fun h0 => hne (List.map_eq_nil_iff.1 h0)) (fun l hl => ?_) hv
      obtain ⟨b, hb, rfl⟩ := List.mem_map.1 hl
      exact Knn.knn_own_class (Or.inl rfl) (fun i j _ => rfl) (x := M) (by unfold asDistance; simpa using hs)
        (by have := hk' i; omega) hN b hb
    have hf : (Finset.univ.filter fun i => pred i = y i) = Finset.univ := Finset.filter_true_of_mem fun i _ => hp i
    rw [hf, Finset.card_univ, Fintype.card_fin]
    congr 1
    exact div_self (by have : n ≠ 0 := by omega
                       exact_mod_cast this)
  rcases hkind with rfl | rfl
  · exact key D (C223_orig (h := h)) hsep
  · refine key _ (C223_mp (hD := hD) (h := h)) ?_
    obtain ⟨R, hR⟩ := (MPEmp.C20_full_succeeds_iff env.order (fun i j => .fin (D i j)) false "distance" none 0).2 ⟨Or.inl rfl, by simp, by simp⟩
    obtain ⟨M, rfl⟩ : ∃ M, R = .dense n M := by
      have := hR
      unfold MPEmp.full at this
      simp only [dite_true] at this
      obtain ⟨_, -, this⟩ := bind_ok this
      exact ⟨_, (Except.ok.inj this).symm⟩
    have hs := MPEmp.C271 env.order (fun i j => .fin (D i j)) D (fun _ _ _ => rfl) (by intro i j; simp only [hD i j]) false "distance" (Or.inl rfl)
      none 0 M hR y (by unfold asDistance; simpa using hsep)
    have hM := fun i j => (MPEmp.C21_computes_definition env.order (fun i j => .fin (D i j)) false "distance" none 0 M hR
      (by intro i j; simp only [hD i j]) i j).1 rfl
    intro i j b h2 h3 h4
    have := hs i j b h2 h3 h4
    unfold asDistance at this
    simp only [if_true, hM] at this
    exact this

/-- **C275**: the whole analysis completes. -/
theorem C275_analysis {n : ℕ} (hn : 2 ≤ n) (env : Env) (D : Fin n → Fin n → ℝ) (hD : ∀ i j, D i j = D j i) (y : Fin n → ℤ)
    (hsep : Separated D y) (hubK knnK : List ℤ) (hh : ∀ k ∈ hubK, 0 ≤ k) (hk : ∀ k ∈ knnK, 1 ≤ k ∧ ∀ i, k < (classOf y i).card) :
    ∃ a', analyze env (.init D (some ⟨n, y⟩) none "distance") (",".intercalate ["orig", "mp"]) hubK knnK = (a', none) ∧
      a'.experiments.map Experiment.kind = ["orig", "mp"] ∧ ∀ e ∈ a'.experiments, ∀ k ∈ knnK, e.knnAccuracy k = some 1 := by
  obtain ⟨a', h⟩ : ∃ a', analyze env (.init D (some ⟨n, y⟩) none "distance") (",".intercalate ["orig", "mp"]) hubK knnK = (a', none) :=
    C155_succeeds_partial env (by omega) D (some y) none (by simp) "distance" (Or.inl rfl) ["orig", "mp"] (by simp)
      (fun kind hk => by simp only [List.mem_cons, List.not_mem_nil, or_false] at hk; rcases hk with rfl | rfl <;> simp [Needs]) hubK knnK hh
  refine ⟨a', h, ?_⟩
  rcases analyze_spec env _ a' _ hubK knnK _ h with ⟨_, _, _, _, _, h, _⟩ | ⟨done, rest, new, h1, h2, _, h3, h4, h5⟩
  · cases h
  have hr : rest = [] := by
    rcases h5 with ⟨h, _⟩ | ⟨_, _, _, _, h, _⟩
    · exact h
    · cases h
  rw [split_join _ (by simp) (by decide), hr, List.append_nil] at h1
  subst h1
  rw [show (HubnessAnalysis.init D (some ⟨n, y⟩) none "distance").experiments = [] from rfl, List.nil_append] at h2
  rw [h2]
  refine ⟨?_, fun e he k hkk => ?_⟩
  · apply List.ext_getElem (by simp [h3])
    intro i hi hi'
    rw [List.getElem_map]
    exact (experiment_inv (h4 i hi' (by simpa using hi))).name
  · obtain ⟨i, hi, rfl⟩ := List.getElem_of_mem he
    refine C275 hn env D hD y none hsep hubK knnK i _ ?_ _ (h4 i (by omega) hi) k hkk (hk k hkk).1 (hk k hkk).2
    have : (["orig", "mp"] : List String)[i]'(by omega) ∈ (["orig", "mp"] : List String) := List.getElem_mem _
    rwa [List.mem_cons, List.mem_singleton] at this

/-- Two pairs on a line are separated. -/
example : let D : Fin 4 → Fin 4 → ℝ := fun i j => ((|(![0, 1, 5, 7] : Fin 4 → ℤ) i - (![0, 1, 5, 7] : Fin 4 → ℤ) j| : ℤ) : ℝ)
    (∀ i j, D i j = D j i) ∧ Separated D ![0, 0, 1, 1] ∧ ∀ i, (1 : ℤ) < (classOf ![0, 0, 1, 1] i).card := by
  refine ⟨fun i j => ?_, fun i j b => ?_, by decide⟩
  · beta_reduce
    rw [abs_sub_comm]
  · beta_reduce
    rw [Int.cast_lt]
    revert i j b
    decide

end HubToolbox.Analysis
