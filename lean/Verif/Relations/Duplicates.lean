import Verif.Relations.Renumber
import Verif.Relations.Locality

/-!
# C230: secondary distances of an object stored twice
-/

set_option autoImplicit false

namespace HubToolbox.Spec

/-- `p` and `q` are the same object: no distance between them and the same distances to all others. Different objects have a positive
distance otherwise. -/
structure Twins {α : Type} [LT α] [Zero α] {n : ℕ} (x : Fin n → Fin n → α) (p q : Fin n) : Prop where
  ne : p ≠ q
  symm : ∀ i j, x i j = x j i
  self : ∀ i, x i i = 0
  zero : x p q = 0
  same : ∀ c, c ≠ p → c ≠ q → x p c = x q c
  pos : ∀ i j, i ≠ j → ¬ (i = p ∧ j = q) → ¬ (i = q ∧ j = p) → 0 < x i j

end HubToolbox.Spec

namespace HubToolbox.Relations

open Spec

/-- Exchanging the twins does not change the distances. -/
theorem _root_.HubToolbox.Spec.Twins.swap {α : Type} [LT α] [Zero α] {n : ℕ} {x : Fin n → Fin n → α} {p q : Fin n} (h : Twins x p q) :
    (fun i j => x (Equiv.swap p q i) (Equiv.swap p q j)) = x := by
  have key : ∀ i j, i ≠ p → i ≠ q → x (Equiv.swap p q i) (Equiv.swap p q j) = x i j := by
    intro i j h1 h2
    rw [Equiv.swap_apply_of_ne_of_ne h1 h2]
    by_cases h3 : j = p
    · rw [h3, Equiv.swap_apply_left, h.symm i q, h.symm i p, h.same i h1 h2]
    · by_cases h4 : j = q
      · rw [h4, Equiv.swap_apply_right, h.symm i q, h.symm i p, h.same i h1 h2]
      · rw [Equiv.swap_apply_of_ne_of_ne h3 h4]
  funext i j
  by_cases h1 : i ≠ p ∧ i ≠ q
  · exact key i j h1.1 h1.2
  by_cases h2 : j ≠ p ∧ j ≠ q
  · rw [h.symm, key j i h2.1 h2.2, h.symm]
  have hi : i = p ∨ i = q := by by_contra hc; push Not at hc; exact h1 hc
  have hj : j = p ∨ j = q := by by_contra hc; push Not at hc; exact h2 hc
  have hz : x q p = 0 := by rw [h.symm]; exact h.zero
  rcases hi with rfl | rfl <;> rcases hj with rfl | rfl <;>
    simp [Equiv.swap_apply_left, Equiv.swap_apply_right, h.self, h.zero, hz]

/-- At most one other object is at distance zero. -/
theorem _root_.HubToolbox.Spec.Twins.zeros {n : ℕ} {x : Fin n → Fin n → ℝ} {p q : Fin n} (h : Twins x p q) (i : Fin n) :
    (((training n none).erase i).filter (fun j => x i j ≤ 0)).card ≤ 1 := by
  rw [Finset.card_le_one]
  have key : ∀ a, a ∈ ((training n none).erase i).filter (fun j => x i j ≤ 0) → (i = p ∧ a = q) ∨ (i = q ∧ a = p) := by
    intro a ha
    rw [Finset.mem_filter, Finset.mem_erase] at ha
    by_contra hc
    push Not at hc
    have := h.pos i a (Ne.symm ha.1.1) (fun e => hc.1 e.1 e.2) (fun e => hc.2 e.1 e.2)
    linarith [ha.2]
  intro a ha b hb
  rcases key a ha with e | e <;> rcases key b hb with e' | e'
  · rw [e.2, e'.2]
  · exact absurd (e.1.symm.trans e'.1) h.ne
  · exact absurd (e'.1.symm.trans e.1) h.ne
  · rw [e.2, e'.2]

theorem training_erase_card {n k : ℕ} (hk : k < n) (i : Fin n) : k ≤ ((training n none).erase i).card := by
  have hT : training n none = Finset.univ := by simp [training]
  rw [hT, Finset.card_erase_of_mem (Finset.mem_univ i), Finset.card_univ, Fintype.card_fin]; omega

/-- **C230** (Local Scaling, `k ≥ 2`): the two copies have distance zero, and the same distance to every other object. -/
theorem C230_local_scaling_partial (w : LS.World) {n : ℕ} (x : Fin n → Fin n → ℝ) (p q : Fin n) (h : Twins x p q) (k : ℕ) (h2 : 2 ≤ k) (hk : k < n)
    (nJobs : ℤ) (hj : nJobs = -1 ∨ 1 ≤ nJobs) :
    ∃ M : Fin n → Fin n → ℝ, LS.localScaling w (.mat false n n (LS.toXR x)) k "distance" none nJobs = .ok ⟨n, LS.toXR M⟩ ∧
      M p q = 0 ∧ ∀ c, c ≠ p → c ≠ q → M p c = M q c := by
  obtain ⟨r, hr⟩ := LS.C28_radii_exist x k (by omega) none (training_erase_card hk)
  have hz := fun i => (h.zeros i).trans_lt (by omega : 1 < k)
  have hpos : ∀ i, 0 < r i := fun i => Relations.radius_pos (hr i) (hz i)
  have hf := LS.C28_formula w x h.symm k (by omega) none nJobs hj r hr hpos (by omega)
  obtain ⟨M, hM, hM'⟩ := Relations.C165_local_scaling w w (by omega) x h.symm k (by omega) none none (Equiv.swap p q) (fun i => by simp [training])
    (training_erase_card hk) hz nJobs nJobs hj hj
  rw [h.swap, hM] at hM'
  have e1 := Except.ok.inj (hM.symm.trans hf)
  have e2 := Except.ok.inj hM'
  simp only [Sigma.mk.injEq, heq_eq_eq, true_and] at e1 e2
  refine ⟨_, hf, ?_, fun c hp hq => ?_⟩
  · rw [if_neg h.ne, h.zero]
    simp [Spec.localScaling]
  · have := congrFun (congrFun e2 p) c
    rw [Equiv.swap_apply_left, Equiv.swap_apply_of_ne_of_ne hp hq, e1] at this
    exact XR.fin.inj this

/-- **C230** (NICDM, `k ≥ 2`): the two copies have distance zero, and the same distance to every other object. -/
theorem C230_nicdm_partial (w : LS.World) {n : ℕ} (x : Fin n → Fin n → ℝ) (p q : Fin n) (h : Twins x p q) (k : ℕ) (h2 : 2 ≤ k) (hk : k < n)
    (nJobs : ℤ) :
    ∃ M : Fin n → Fin n → ℝ, LS.nicdm w (.mat false n n (LS.toXR x)) k "distance" none nJobs = .ok ⟨n, LS.toXR M⟩ ∧
      M p q = 0 ∧ ∀ c, c ≠ p → c ≠ q → M p c = M q c := by
  have hnn : ∀ i j, 0 ≤ x i j := by
    intro i j
    by_cases hij : i = j
    · rw [hij, h.self]
    · by_cases h1 : i = p ∧ j = q
      · rw [h1.1, h1.2, h.zero]
      · by_cases h3 : i = q ∧ j = p
        · rw [h3.1, h3.2, h.symm, h.zero]
        · exact (h.pos i j hij h1 h3).le
  have hz := fun i => (h.zeros i).trans_lt (by omega : 1 < k)
  choose N hN using fun i => LS.C32_nearest_exist (x i) ((training n none).erase i) k (training_erase_card hk i)
  have hpos : ∀ i, 0 < meanOver (N i) (x i) := by
    intro i
    have hcard : 0 < ((N i).card : ℝ) := by rw [(hN i).card]; exact_mod_cast (by omega : 0 < k)
    refine div_pos ?_ hcard
    refine Finset.sum_pos' (fun j _ => hnn i j) ?_
    by_contra hc
    push Not at hc
    have hs : N i ⊆ ((training n none).erase i).filter (fun j => x i j ≤ 0) := fun j hj => Finset.mem_filter.2 ⟨(hN i).sub hj, hc j hj⟩
    have := Finset.card_le_card hs
    rw [(hN i).card] at this
    exact absurd this (not_le.2 (hz i))
  have hf := LS.C32_formula w x h.symm k (by omega) none nJobs N hN hpos (by omega)
  obtain ⟨M, hM, hM'⟩ := Relations.C165_nicdm w w (by omega) x h.symm hnn k (by omega) none none (Equiv.swap p q) (fun i => by simp [training])
    (training_erase_card hk) hz nJobs nJobs
  rw [h.swap, hM] at hM'
  have e1 := Except.ok.inj (hM.symm.trans hf)
  have e2 := Except.ok.inj hM'
  simp only [Sigma.mk.injEq, heq_eq_eq, true_and] at e1 e2
  refine ⟨_, hf, ?_, fun c hp hq => ?_⟩
  · rw [if_neg h.ne, h.zero]
    simp [Spec.nicdm]
  · have := congrFun (congrFun e2 p) c
    rw [Equiv.swap_apply_left, Equiv.swap_apply_of_ne_of_ne hp hq, e1] at this
    exact XR.fin.inj this

variable {K : Type} [Field K] [LinearOrder K] [IsStrictOrderedRing K]

/-- **C230** (empirical Mutual Proximity, violated): the two copies have distance `2 / n`, not zero. This is the smallest distance of
different objects. Both copies have the same distance to every other object. -/
theorem C230_mp_violated (order : MPEmp.Order K) {n : ℕ} (x : Fin n → Fin n → K) (p q : Fin n) (h : Twins x p q) (sp : Bool)
    (test : Option MPEmp.TestArg) (minNnz : ℤ) (M : Fin n → Fin n → K)
    (hM : MPEmp.full order (.obj (.mat sp n n fun i j => .fin (x i j))) "distance" test minNnz = .ok (.dense n M)) :
    M p q = 2 / n ∧ (∀ i j, i ≠ j → M p q ≤ M i j) ∧ ∀ c, c ≠ p → c ≠ q → M p c = M q c := by
  have hsym : Symmetric (fun i j => (.fin (x i j) : XR K)) := fun i j => congrArg XR.fin (h.symm i j)
  have hval : M p q = 2 / n := by
    rw [(MPEmp.C21_computes_definition order _ sp "distance" test minNnz M hM hsym p q).1 rfl, mpDistance, if_neg h.ne]
    have hf : farther (fun i j => (.fin (x i j) : XR K)) p q = (Finset.univ.erase p).erase q := by
      ext c
      simp only [farther, Finset.mem_filter, Finset.mem_univ, true_and, Finset.mem_erase, and_true, h.zero, XR.flt]
      constructor
      · exact fun hc => ⟨hc.2.1, hc.1⟩
      · exact fun hc => ⟨hc.2, hc.1, h.pos p c (Ne.symm hc.2) (fun e => hc.1 e.2) (fun e => h.ne e.1),
          h.pos q c (Ne.symm hc.1) (fun e => h.ne e.1.symm) (fun e => hc.2 e.2)⟩
    have hn : 2 ≤ n := by
      have := p.isLt; have := q.isLt
      have : p.val ≠ q.val := fun e => h.ne (Fin.ext e)
      omega
    have hnK : (n : K) ≠ 0 := by exact_mod_cast (by omega : n ≠ 0)
    rw [hf, Finset.card_erase_of_mem (Finset.mem_erase.2 ⟨h.ne.symm, Finset.mem_univ _⟩), Finset.card_erase_of_mem (Finset.mem_univ _),
      Finset.card_univ, Fintype.card_fin, eq_div_iff hnK, sub_mul, div_mul_cancel₀ _ hnK, Nat.sub_sub, Nat.cast_sub hn]
    push_cast
    ring
  refine ⟨hval, fun i j hij => ?_, fun c hp hq => ?_⟩
  · rw [hval]
    exact (MPEmp.C20_off_diagonal_bound order _ sp "distance" test minNnz M hM i j hij).1 rfl
  · have := MPEmp.C22_relabelling order order (fun i j => (.fin (x i j) : XR K)) sp sp "distance" test test minNnz minNnz M M (Equiv.swap p q)
      hsym hM (by
        have e := h.swap
        have : (fun i j => (XR.fin (x (Equiv.swap p q i) (Equiv.swap p q j)) : XR K)) = fun i j => .fin (x i j) := by
          funext i j
          rw [congrFun (congrFun e i) j]
        rw [this]
        exact hM) p c
    rwa [Equiv.swap_apply_left, Equiv.swap_apply_of_ne_of_ne hp hq] at this

/-- **C230** (shared nearest neighbours, violated): the two copies have distance `1 / k`, not zero, because neither is its own neighbour.
With `k = 1` this is the largest distance possible. -/
theorem C230_snn_violated (w : SNN.World K) {n : ℕ} (x : Fin n → Fin n → K) (p q : Fin n) (h : Twins x p q)
    (hties : ∀ a b, a ≠ p → b ≠ p → x p a = x p b → a = b) (k : ℕ) (h1 : 1 ≤ k) (hk : k < n) (nJobs : ℤ) :
    ∃ M : Fin n → Fin n → K,
      SNN.sharedNearestNeighbors w (.mat false n n fun i j => .fin (x i j)) k "distance" nJobs = .ok ⟨n, fun i j => .fin (M i j)⟩ ∧
      M p q = 1 / k := by
  obtain ⟨N, hN, hf⟩ := SNN.C34_formula w (fun i j => .fin (x i j)) x (fun _ _ _ => rfl) k h1 hk "distance" (Or.inl rfl) nJobs
  refine ⟨_, hf, ?_⟩
  have hzq : x q p = 0 := by rw [h.symm]; exact h.zero
  have hppos : ∀ c, c ≠ p → c ≠ q → 0 < x p c := fun c hp hq => h.pos p c hp.symm (fun e => hq e.2) (fun e => h.ne e.1)
  -- the other copy is among the neighbours
  have nearest : ∀ a b : Fin n, a ≠ b → x a b = 0 → (∀ c, c ≠ a → c ≠ b → 0 < x a c) → b ∈ N a := by
    intro a b hab h0 hpos
    by_contra hb
    have hne : (N a).Nonempty := Finset.card_pos.1 (by rw [(hN a).card]; omega)
    obtain ⟨c, hc⟩ := hne
    have hca := (Finset.mem_erase.1 ((hN a).sub hc)).1
    have := (hN a).best c hc b (Finset.mem_erase.2 ⟨hab.symm, Finset.mem_univ _⟩) hb
    simp only [nearer, String.reduceEq, if_false, h0] at this
    exact absurd (hpos c hca (fun e => hb (e ▸ hc))) (not_lt.2 this)
  have hqN := nearest p q h.ne h.zero hppos
  have hpN := nearest q p h.ne.symm hzq fun c hq hp => by rw [← h.same c hp hq]; exact hppos c hp hq
  -- the remaining neighbours are the same
  have sub : ∀ c, c ≠ p → c ≠ q → c ∈ N p → c ∈ N q := by
    intro c hp hq hc
    by_contra hn
    have hs : insert p (insert c ((N q).erase p)) ⊆ insert p ((N p).erase q) := by
      intro a ha
      rcases Finset.mem_insert.1 ha with rfl | ha
      · exact Finset.mem_insert_self _ _
      refine Finset.mem_insert_of_mem ?_
      rcases Finset.mem_insert.1 ha with rfl | ha
      · exact Finset.mem_erase.2 ⟨hq, hc⟩
      · obtain ⟨hap, haN⟩ := Finset.mem_erase.1 ha
        have haq := (Finset.mem_erase.1 ((hN q).sub haN)).1
        refine Finset.mem_erase.2 ⟨haq, ?_⟩
        by_contra haP
        have e1 := (hN q).best a haN c (Finset.mem_erase.2 ⟨hq, Finset.mem_univ _⟩) hn
        have e2 := (hN p).best c hc a (Finset.mem_erase.2 ⟨hap, Finset.mem_univ _⟩) haP
        simp only [nearer, String.reduceEq, if_false] at e1 e2
        rw [← h.same a hap haq, ← h.same c hp hq] at e1
        exact haP (hties a c hap hp (le_antisymm e1 e2) ▸ hc)
    have hcard := Finset.card_le_card hs
    have hpp : p ∉ (N p).erase q := fun hh => (Finset.mem_erase.1 ((hN p).sub (Finset.mem_erase.1 hh).2)).1 rfl
    have hcq : c ∉ (N q).erase p := fun hh => hn (Finset.mem_erase.1 hh).2
    have hpc : p ∉ insert c ((N q).erase p) := by
      intro hh
      rcases Finset.mem_insert.1 hh with e | e
      · exact hp e.symm
      · exact (Finset.mem_erase.1 e).1 rfl
    rw [Finset.card_insert_of_notMem hpc, Finset.card_insert_of_notMem hcq, Finset.card_insert_of_notMem hpp,
      Finset.card_erase_of_mem hpN, Finset.card_erase_of_mem hqN, (hN p).card, (hN q).card] at hcard
    omega
  have hI : N p ∩ N q = (N p).erase q := by
    ext c
    rw [Finset.mem_inter, Finset.mem_erase]
    constructor
    · exact fun hc => ⟨(Finset.mem_erase.1 ((hN q).sub hc.2)).1, hc.1⟩
    · exact fun hc => ⟨hc.2, sub c (Finset.mem_erase.1 ((hN p).sub hc.2)).1 hc.1 hc.2⟩
  have hk0 : (k : K) ≠ 0 := by exact_mod_cast (by omega : k ≠ 0)
  simp only [if_neg h.ne, snn, String.reduceEq, if_false, commonFraction, hI, Finset.card_erase_of_mem hqN, (hN p).card]
  rw [Nat.cast_sub h1]
  field_simp
  push_cast
  ring

/-! ### The hypotheses are satisfiable -/

/-- Four points on a line, the first two in the same place. -/
def twins4 : Fin 4 → Fin 4 → ℤ := fun i j => |(![0, 0, 3, 7] : Fin 4 → ℤ) i - (![0, 0, 3, 7] : Fin 4 → ℤ) j|

theorem twins4_twins : Twins (fun i j => (twins4 i j : K)) 0 1 := by
  refine ⟨by decide, fun i j => ?_, fun i => ?_, ?_, fun c h1 h2 => ?_, fun i j h1 h2 h3 => ?_⟩
  · rw [show twins4 i j = twins4 j i from abs_sub_comm _ _]
  · rw [show twins4 i i = 0 by simp [twins4], Int.cast_zero]
  · rw [show twins4 0 1 = 0 by decide, Int.cast_zero]
  · rw [Int.cast_inj]; revert c; decide
  · rw [Int.cast_pos]; revert i j; decide

example (w : LS.World) := C230_local_scaling_partial w _ 0 1 (twins4_twins (K := ℝ)) 2 le_rfl (by norm_num) 1 (by norm_num)

example (w : LS.World) := C230_nicdm_partial w _ 0 1 (twins4_twins (K := ℝ)) 2 le_rfl (by norm_num) 1

example (w : SNN.World K) := C230_snn_violated w _ 0 1 (twins4_twins (K := K))
  (fun a b ha hb hab => by rw [Int.cast_inj] at hab; revert a b; decide) 2 (by norm_num) (by norm_num) 1

example (order : MPEmp.Order ℚ) : ∃ M, MPEmp.full order (.obj (.mat false 4 4 fun i j => .fin (twins4 i j : ℚ))) "distance" none 30
    = .ok (.dense 4 M) ∧ M 0 1 = 1 / 2 := by
  refine ⟨_, rfl, ?_⟩
  rw [(C230_mp_violated order _ 0 1 (twins4_twins (K := ℚ)) false none 30 _ rfl).1]
  norm_num

end HubToolbox.Relations
