import Verif.GK.SparseLemmas

/-!
# Properties C14–C19, C54 of the Goodman-Kruskal index
-/

set_option autoImplicit false
set_option linter.unusedSectionVars false

namespace HubToolbox.GK
open Spec

variable {K : Type} [Field K] [LinearOrder K] [IsStrictOrderedRing K] {L : Type} [LinearOrder L] {n : ℕ}

/-- Same relation on all pairs, same quadruples. -/
theorem quads_congr (cls : Fin n → L) (R R' : Fin n × Fin n → Fin n × Fin n → Prop)
    [∀ p q, Decidable (R p q)] [∀ p q, Decidable (R' p q)]
    (h : ∀ p q, p.1 < p.2 → cls p.1 = cls p.2 → q.1 < q.2 → cls q.1 ≠ cls q.2 → (R p q ↔ R' p q)) :
    quads cls R = quads cls R' := by
  unfold quads
  apply Finset.filter_congr
  rintro ⟨p, q⟩ _
  constructor
  · rintro ⟨a, b, c, d, e⟩; exact ⟨a, b, c, d, (h p q a b c d).1 e⟩
  · rintro ⟨a, b, c, d, e⟩; exact ⟨a, b, c, d, (h p q a b c d).2 e⟩

/-- Splitting into three exclusive cases. -/
theorem quads_split (cls : Fin n → L) (T A B C : Fin n × Fin n → Fin n × Fin n → Prop)
    [∀ p q, Decidable (T p q)] [∀ p q, Decidable (A p q)] [∀ p q, Decidable (B p q)] [∀ p q, Decidable (C p q)]
    (h : ∀ p q, p.1 < p.2 → q.1 < q.2 → (T p q ↔ (A p q ∨ B p q ∨ C p q)))
    (hab : ∀ p q, A p q → ¬ B p q) (hac : ∀ p q, A p q → ¬ C p q) (hbc : ∀ p q, B p q → ¬ C p q) :
    (quads cls T).card = (quads cls A).card + (quads cls B).card + (quads cls C).card := by
  rw [← Finset.card_union_of_disjoint, ← Finset.card_union_of_disjoint]
  · congr 1
    ext ⟨p, q⟩
    simp only [quads, Finset.mem_union, Finset.mem_filter, Finset.mem_univ, true_and]
    constructor
    · rintro ⟨a, b, c, d, e⟩
      rcases (h p q a c).1 e with e | e | e <;> tauto
    · rintro ((⟨a, b, c, d, e⟩ | ⟨a, b, c, d, e⟩) | ⟨a, b, c, d, e⟩) <;>
        exact ⟨a, b, c, d, (h p q a c).2 (by tauto)⟩
  · rw [Finset.disjoint_left]
    rintro ⟨p, q⟩ h1 h2
    simp only [quads, Finset.mem_union, Finset.mem_filter, Finset.mem_univ, true_and] at h1 h2
    rcases h1 with ⟨_, _, _, _, h1⟩ | ⟨_, _, _, _, h1⟩
    · exact hac p q h1 h2.2.2.2.2
    · exact hbc p q h1 h2.2.2.2.2
  · rw [Finset.disjoint_left]
    rintro ⟨p, q⟩ h1 h2
    simp only [quads, Finset.mem_filter, Finset.mem_univ, true_and] at h1 h2
    exact hab p q h1.2.2.2.2 h2.2.2.2.2

/-- The dense function on a dense square matrix with fitting labels and a valid metric. -/
theorem index_ok (D : Fin n → Fin n → XR K) (cls : Fin n → L) (metric : String)
    (hm : metric = "distance" ∨ metric = "similarity") :
    index (.mat false n n D) (.vec n cls) metric
      = .ok (gamma metric (denseCounts D cls).1 (denseCounts D cls).2) := by
  rcases hm with rfl | rfl <;> simp [index, checkMatrixLabels, checkValidMetric] <;> rfl

theorem hasPair_iff (cls : Fin n → L) : hasPair cls = true ↔ ∃ i j, i ≠ j ∧ cls i = cls j := by
  unfold hasPair
  rw [List.any_eq_true]
  constructor
  · rintro ⟨c, _, hc⟩
    have hc : 1 < (List.finRange n).countP (fun i => decide (cls i = c)) := by simpa using hc
    rw [List.countP_eq_length_filter] at hc
    have hnd : ((List.finRange n).filter (fun i => decide (cls i = c))).Nodup := (List.nodup_finRange n).filter _
    refine ⟨((List.finRange n).filter (fun i => decide (cls i = c)))[0],
      ((List.finRange n).filter (fun i => decide (cls i = c)))[1], ?_, ?_⟩
    · intro h
      have := (hnd.getElem_inj_iff).1 h
      omega
    · have h0 := List.getElem_mem (show 0 < ((List.finRange n).filter (fun i => decide (cls i = c))).length by omega)
      have h1 := List.getElem_mem hc
      rw [List.mem_filter] at h0 h1
      exact (of_decide_eq_true h0.2).trans (of_decide_eq_true h1.2).symm
  · rintro ⟨i, j, hij, h⟩
    refine ⟨cls j, ?_, ?_⟩
    · rw [Np.mem_unique]; exact List.mem_ofFn.2 ⟨j, rfl⟩
    · rw [decide_eq_true_iff, List.countP_eq_length_filter, gt_iff_lt]
      have hsub : [i, j] ⊆ (List.finRange n).filter (fun k => decide (cls k = cls j)) := by
        intro x hx
        rw [List.mem_filter]
        rcases List.mem_pair.1 hx with rfl | rfl
        · exact ⟨List.mem_finRange _, decide_eq_true h⟩
        · exact ⟨List.mem_finRange _, decide_eq_true rfl⟩
      have hnd : [i, j].Nodup := by simp [hij]
      exact (hnd.subperm hsub).length_le

/-- **C14 (sparse argument).** On a sparse matrix the dense function raises `ValueError` as soon as two points share a
class; otherwise it returns 0, which is the index as defined. -/
theorem C14_sparse_argument (D : Fin n → Fin n → XR K) (cls : Fin n → L) (metric : String)
    (hm : metric = "distance" ∨ metric = "similarity") :
    ((∃ i j, i ≠ j ∧ cls i = cls j) → index (.mat true n n D) (.vec n cls) metric = .error .valueError) ∧
    (Function.Injective cls → index (.mat true n n D) (.vec n cls) metric = .ok 0) := by
  have key : index (.mat true n n D) (.vec n cls) metric =
      if hasPair cls then .error .valueError else .ok 0 := by
    rcases hm with rfl | rfl <;> simp [index, checkMatrixLabels, checkValidMetric] <;> rfl
  constructor
  · intro h
    rw [key, if_pos ((hasPair_iff cls).2 h)]
  · intro h
    rw [key, if_neg]
    intro hp
    obtain ⟨i, j, hij, e⟩ := (hasPair_iff cls).1 hp
    exact hij (h e)

theorem gamma_eq (metric : String) (hm : metric = "distance" ∨ metric = "similarity") (c d : ℕ) :
    (gamma metric (c : ℤ) (d : ℤ) : K) = if metric = "distance" then gkGamma d c else gkGamma c d := by
  unfold gamma gkGamma
  have h0 : ((c : ℤ) + d = 0) ↔ c + d = 0 := by omega
  have h0' : (d + c = 0) ↔ c + d = 0 := by omega
  rcases hm with rfl | rfl
  · simp only [h0, h0', if_true, String.reduceEq, if_false]
    push_cast
    rw [add_comm (d : K)]
  · simp only [h0, if_true, String.reduceEq, if_false]
    push_cast
    rfl

/-- Counts of the dense variant for symmetric matrices without nan. -/
theorem denseCounts_symm (D : Fin n → Fin n → XR K) (cls : Fin n → L) (hsym : ∀ i j, D i j = D j i)
    (hnan : ∀ i j, D i j ≠ .nan) :
    denseCounts D cls
      = (((quads cls (fun p q => XR.flt (D q.1 q.2) (D p.1 p.2))).card : ℤ),
        ((quads cls (fun p q => XR.flt (D p.1 p.2) (D q.1 q.2))).card : ℤ)) := by
  rw [denseCounts_eq]
  have e1 : quads cls (fun p q => D q.1 q.2 < D p.2 p.1)
      = quads cls (fun p q => XR.flt (D q.1 q.2) (D p.1 p.2)) := by
    apply quads_congr
    intro p q _ _ _ _
    rw [hsym p.2 p.1, XR.flt_iff_lt (hnan _ _) (hnan _ _)]
  have e2 := quads_split cls (fun _ _ => True) (fun p q => D q.1 q.2 < D p.2 p.1)
    (fun p q => XR.feq (D q.1 q.2) (D p.2 p.1)) (fun p q => XR.flt (D p.1 p.2) (D q.1 q.2)) (by
      intro p q _ _
      rw [hsym p.2 p.1, XR.flt_iff_lt (hnan _ _) (hnan _ _)]
      simp only [true_iff, XR.feq]
      rcases lt_trichotomy (D q.1 q.2) (D p.1 p.2) with h | h | h
      · exact Or.inl h
      · exact Or.inr (Or.inl ⟨hnan _ _, h⟩)
      · exact Or.inr (Or.inr h))
    (by intro p q h h'; exact absurd h'.2 h.ne)
    (by intro p q h; rw [hsym p.2 p.1] at h; rw [XR.flt_iff_lt (hnan _ _) (hnan _ _)]; exact h.not_gt)
    (by intro p q h; rw [hsym p.2 p.1] at h; rw [XR.flt_iff_lt (hnan _ _) (hnan _ _), h.2]; exact lt_irrefl _)
  rw [e1] at e2 ⊢
  congr 1
  rw [e2]
  push_cast
  ring

/-- **C14 (naive).** The naive loops compute the index as defined, for every square matrix. -/
theorem C14_naive_is_definition (sp : Bool) (D : Fin n → Fin n → XR K) (cls : Fin n → L) (metric : String)
    (hm : metric = "distance" ∨ metric = "similarity") :
    naive (.mat sp n n D) (.vec n cls) metric = .ok (gkIndex metric D cls) := by
  have h : naive (.mat sp n n D) (.vec n cls) metric
      = .ok (gamma metric (naiveCounts D cls).2 (naiveCounts D cls).1) := by
    rcases hm with rfl | rfl <;> simp [naive, checkMatrixLabels, checkValidMetric, gamma] <;>
      refine Eq.trans (b := Except.ok _) rfl ?_ <;> simp only [add_comm]
  rw [h, naiveCounts_eq, gamma_eq metric hm]
  rfl

/-- **C14.** For every symmetric matrix without nan (infinite entries allowed), every labelling and both metrics, the
efficient function computes the index as defined, i.e. what the naive function computes. -/
theorem C14_index_is_definition (D : Fin n → Fin n → XR K) (cls : Fin n → L) (metric : String)
    (hm : metric = "distance" ∨ metric = "similarity") (hsym : ∀ i j, D i j = D j i)
    (hnan : ∀ i j, D i j ≠ .nan) :
    index (.mat false n n D) (.vec n cls) metric = .ok (gkIndex metric D cls) ∧
    ∀ sp, naive (.mat sp n n D) (.vec n cls) metric = index (.mat false n n D) (.vec n cls) metric := by
  have h : index (.mat false n n D) (.vec n cls) metric = .ok (gkIndex metric D cls) := by
    rw [index_ok D cls metric hm, denseCounts_symm D cls hsym hnan, gamma_eq metric hm]
    rfl
  exact ⟨h, fun sp => (C14_naive_is_definition sp D cls metric hm).trans h.symm⟩

/-- **C14 (arguments).** Everything else is refused: `TypeError` for objects which are not a square matrix with one
label per row, then `ValueError` for an unknown metric. -/
theorem C14_errors (D : PyMat (XR K)) (classes : PyVec L) (metric : String) :
    (∀ e, checkMatrixLabels D classes = .error e → e = .typeError ∧
      index D classes metric = .error .typeError ∧ naive D classes metric = .error .typeError) ∧
    (∀ r, checkMatrixLabels D classes = .ok r → metric ≠ "distance" → metric ≠ "similarity" →
      index D classes metric = .error .valueError ∧ naive D classes metric = .error .valueError) := by
  constructor
  · intro e he
    have hty : e = .typeError := by
      unfold checkMatrixLabels at he
      split at he
      · split at he
        · split at he
          · cases he
          · cases he; rfl
        · cases he; rfl
      · cases he; rfl
    subst hty
    refine ⟨rfl, ?_, ?_⟩
    · unfold index; rw [he]; rfl
    · unfold naive; rw [he]; rfl
  · intro r hr h1 h2
    have hv : checkValidMetric metric = .error .valueError := by
      unfold checkValidMetric; rw [if_pos ⟨h1, h2⟩]
    constructor
    · unfold index; rw [hr, hv]; rfl
    · unfold naive; rw [hr, hv]; rfl

/-- **C14 (accepted arguments).** The naive function returns a value exactly for a square matrix with one label per
row and a known metric; the efficient function needs the matrix to be dense, unless no two points share a class. -/
theorem C14_accepts_iff (D : PyMat (XR K)) (classes : PyVec L) (metric : String) :
    ((∃ g, index D classes metric = .ok g) ↔
      ∃ (sp : Bool) (n : ℕ) (a : Fin n → Fin n → XR K) (cls : Fin n → L),
        D = .mat sp n n a ∧ classes = .vec n cls ∧ (metric = "distance" ∨ metric = "similarity") ∧
        (sp = false ∨ Function.Injective cls)) ∧
    ((∃ g, naive D classes metric = .ok g) ↔
      ∃ (sp : Bool) (n : ℕ) (a : Fin n → Fin n → XR K) (cls : Fin n → L),
        D = .mat sp n n a ∧ classes = .vec n cls ∧ (metric = "distance" ∨ metric = "similarity")) := by
  have key : (∃ (sp : Bool) (n : ℕ) (a : Fin n → Fin n → XR K) (cls : Fin n → L),
        D = .mat sp n n a ∧ classes = .vec n cls ∧ (metric = "distance" ∨ metric = "similarity")) ∨
      (∃ e, index D classes metric = .error e) ∧ (∃ e, naive D classes metric = .error e) := by
    cases hc : checkMatrixLabels D classes with
    | error e =>
      obtain ⟨_, h1, h2⟩ := (C14_errors D classes metric).1 e hc
      exact Or.inr ⟨⟨_, h1⟩, ⟨_, h2⟩⟩
    | ok r =>
      by_cases hm : metric = "distance" ∨ metric = "similarity"
      · left
        unfold checkMatrixLabels at hc
        split at hc
        · rename_i sp n m a l v
          split at hc
          · rename_i h
            split at hc
            · rename_i h'
              subst h h'
              exact ⟨sp, _, a, v, rfl, rfl, hm⟩
            · cases hc
          · cases hc
        · cases hc
      · obtain ⟨h1, h2⟩ := (C14_errors D classes metric).2 r hc (by tauto) (by tauto)
        exact Or.inr ⟨⟨_, h1⟩, ⟨_, h2⟩⟩
  have back : ∀ (sp : Bool) (n : ℕ) (a : Fin n → Fin n → XR K) (cls : Fin n → L),
      (metric = "distance" ∨ metric = "similarity") → (sp = false ∨ Function.Injective cls) →
      ∃ g, index (.mat sp n n a) (.vec n cls) metric = .ok g := by
    intro sp n a cls hm h
    cases sp with
    | false => exact ⟨_, index_ok a cls metric hm⟩
    | true =>
      rcases h with h | h
      · cases h
      · exact ⟨_, (C14_sparse_argument a cls metric hm).2 h⟩
  rcases key with key | ⟨⟨e, h1⟩, ⟨e', h2⟩⟩
  · have hk := key
    obtain ⟨sp, n, a, cls, rfl, rfl, hm⟩ := hk
    refine ⟨⟨?_, ?_⟩, ⟨fun _ => key, fun _ => ⟨_, C14_naive_is_definition sp a cls metric hm⟩⟩⟩
    · rintro ⟨g, hg⟩
      refine ⟨sp, n, a, cls, rfl, rfl, hm, ?_⟩
      cases sp with
      | false => exact Or.inl rfl
      | true =>
        right
        intro i j hij
        by_contra hne
        rw [(C14_sparse_argument a cls metric hm).1 ⟨i, j, hne, hij⟩] at hg
        cases hg
    · rintro ⟨sp', n', a', cls', hD, hc, _, h⟩
      injection hD with hsp hn _ ha
      subst hn hsp
      cases hc
      exact back _ _ _ _ hm h
  · rw [h1, h2]
    refine ⟨⟨fun h => (by obtain ⟨_, h⟩ := h; cases h), ?_⟩, ⟨fun h => (by obtain ⟨_, h⟩ := h; cases h), ?_⟩⟩
    · rintro ⟨sp, n, a, cls, rfl, rfl, hm, h⟩
      obtain ⟨g, hg⟩ := back sp n a cls hm h
      rw [hg] at h1
      cases h1
    · rintro ⟨sp, n, a, cls, rfl, rfl, hm⟩
      rw [C14_naive_is_definition sp a cls metric hm] at h2
      cases h2

theorem counts_nonneg (D : Fin n → Fin n → XR K) (cls : Fin n → L) :
    0 ≤ (denseCounts D cls).1 ∧ 0 ≤ (denseCounts D cls).2 := by
  rw [denseCounts_eq]
  refine ⟨Int.natCast_nonneg _, ?_⟩
  have e2 := quads_split cls (fun _ _ => True) (fun p q => D q.1 q.2 < D p.2 p.1)
    (fun p q => XR.feq (D q.1 q.2) (D p.2 p.1))
    (fun p q => ¬ (D q.1 q.2 < D p.2 p.1) ∧ ¬ XR.feq (D q.1 q.2) (D p.2 p.1)) (by
      intro p q _ _; tauto)
    (by intro p q h h'; exact absurd h'.2 h.ne)
    (by intro p q h; tauto)
    (by intro p q h; tauto)
  simp only
  rw [e2]
  push_cast
  linarith [Int.natCast_nonneg (quads cls (fun p q => ¬ (D q.1 q.2 < D p.2 p.1) ∧
    ¬ XR.feq (D q.1 q.2) (D p.2 p.1))).card]

theorem gamma_bounds (metric : String) (c d : ℤ) (hc : 0 ≤ c) (hd : 0 ≤ d) :
    -1 ≤ (gamma metric c d : K) ∧ (gamma metric c d : K) ≤ 1 := by
  unfold gamma
  by_cases h0 : c + d = 0
  · rw [if_pos h0]; constructor <;> linarith [zero_le_one (α := K)]
  · rw [if_neg h0]
    have hpos : (0 : K) < ((c + d : ℤ) : K) := by
      have : 0 < c + d := by omega
      exact_mod_cast this
    split
    · rw [le_div_iff₀ hpos, div_le_one hpos]
      constructor
      · have : (-1 : ℤ) * (c + d) ≤ c - d := by linarith
        exact_mod_cast this
      · have : c - d ≤ c + d := by linarith
        exact_mod_cast this
    · rw [le_div_iff₀ hpos, div_le_one hpos]
      constructor
      · have : (-1 : ℤ) * (c + d) ≤ d - c := by linarith
        exact_mod_cast this
      · have : d - c ≤ c + d := by linarith
        exact_mod_cast this

/-- **C15 (range).** Every returned value is in `[-1, 1]`, for every matrix (symmetric or not, nan included). -/
theorem C15_bounded (D : Fin n → Fin n → XR K) (cls : Fin n → L) (metric : String) (g : K)
    (h : index (.mat false n n D) (.vec n cls) metric = .ok g) : -1 ≤ g ∧ g ≤ 1 := by
  by_cases hm : metric = "distance" ∨ metric = "similarity"
  · rw [index_ok D cls metric hm] at h
    have := Except.ok.inj h
    rw [← this]
    exact gamma_bounds metric _ _ (counts_nonneg D cls).1 (counts_nonneg D cls).2
  · have := (C14_errors (.mat false n n D) (.vec n cls) metric).2 _ (by simp [checkMatrixLabels]; rfl)
      (by tauto) (by tauto)
    rw [this.1] at h
    cases h

/-- **C15 (sign).** If all same-class pairs are nearer than all different-class pairs (and both kinds exist), the
index is `1` as distance and `-1` as similarity; in the reverse case it is `-1` and `1`. -/
theorem C15_extreme (D : Fin n → Fin n → XR K) (cls : Fin n → L)
    (hex : ∃ i j k l : Fin n, i ≠ j ∧ cls i = cls j ∧ cls k ≠ cls l) :
    ((∀ i j k l, i ≠ j → cls i = cls j → cls k ≠ cls l → XR.flt (D i j) (D k l)) →
      index (.mat false n n D) (.vec n cls) "distance" = .ok 1 ∧
      index (.mat false n n D) (.vec n cls) "similarity" = .ok (-1)) ∧
    ((∀ i j k l, i ≠ j → cls i = cls j → cls k ≠ cls l → XR.flt (D k l) (D i j)) →
      index (.mat false n n D) (.vec n cls) "distance" = .ok (-1) ∧
      index (.mat false n n D) (.vec n cls) "similarity" = .ok 1) := by
  have hflt : ∀ a b : XR K, XR.flt a b → a < b := by
    intro a b; rw [← not_le]; cases a <;> cases b <;> simp [XR.flt]
  have hT : 0 < ((quads cls (fun _ _ => True)).card : ℤ) := by
    obtain ⟨i, j, k, l, hij, hc, hkl⟩ := hex
    have hkl' : k ≠ l := by rintro rfl; exact hkl rfl
    rw [Int.natCast_pos, Finset.card_pos]
    have hp : ∃ p : Fin n × Fin n, p.1 < p.2 ∧ cls p.1 = cls p.2 := by
      rcases lt_or_gt_of_ne hij with h | h
      · exact ⟨(i, j), h, hc⟩
      · exact ⟨(j, i), h, hc.symm⟩
    have hq : ∃ p : Fin n × Fin n, p.1 < p.2 ∧ cls p.1 ≠ cls p.2 := by
      rcases lt_or_gt_of_ne hkl' with h | h
      · exact ⟨(k, l), h, hkl⟩
      · exact ⟨(l, k), h, hkl.symm⟩
    obtain ⟨p, hp1, hp2⟩ := hp
    obtain ⟨q, hq1, hq2⟩ := hq
    exact ⟨(p, q), by simp [quads, hp1, hp2, hq1, hq2]⟩
  have hempty : ∀ R : Fin n × Fin n → Fin n × Fin n → Prop, ∀ [∀ p q, Decidable (R p q)],
      (∀ p q : Fin n × Fin n, p.1 < p.2 → cls p.1 = cls p.2 → q.1 < q.2 → cls q.1 ≠ cls q.2 → ¬ R p q) →
      (quads cls R).card = 0 := by
    intro R _ h
    rw [Finset.card_eq_zero]
    unfold quads
    rw [Finset.filter_eq_empty_iff]
    rintro ⟨p, q⟩ _ ⟨a, b, c, d, e⟩
    exact h p q a b c d e
  constructor
  · intro h
    have hC := hempty (fun p q => D q.1 q.2 < D p.2 p.1) (by
      intro p q a b _ d
      exact (hflt _ _ (h p.2 p.1 q.1 q.2 a.ne' b.symm d)).not_gt)
    have hE := hempty (fun p q => XR.feq (D q.1 q.2) (D p.2 p.1)) (by
      intro p q a b _ d e
      exact (hflt _ _ (h p.2 p.1 q.1 q.2 a.ne' b.symm d)).ne' e.2)
    have hTK : (((quads cls (fun _ _ => True)).card : ℤ) : K) ≠ 0 := by exact_mod_cast hT.ne'
    rw [index_ok D cls _ (Or.inl rfl), index_ok D cls _ (Or.inr rfl), denseCounts_eq, hC, hE]
    simp only [gamma, Nat.cast_zero, sub_zero, zero_add, hT.ne', if_false, String.reduceEq, if_true]
    constructor
    · rw [div_self hTK]
    · rw [zero_sub, Int.cast_neg, neg_div, div_self hTK]
  · intro h
    have hC : quads cls (fun p q => D q.1 q.2 < D p.2 p.1) = quads cls (fun _ _ => True) := by
      apply quads_congr
      intro p q a b _ d
      simp only [iff_true]
      exact hflt _ _ (h p.2 p.1 q.1 q.2 a.ne' b.symm d)
    have hE := hempty (fun p q => XR.feq (D q.1 q.2) (D p.2 p.1)) (by
      intro p q a b _ d e
      exact (hflt _ _ (h p.2 p.1 q.1 q.2 a.ne' b.symm d)).ne e.2)
    have hTK : (((quads cls (fun _ _ => True)).card : ℤ) : K) ≠ 0 := by exact_mod_cast hT.ne'
    rw [index_ok D cls _ (Or.inl rfl), index_ok D cls _ (Or.inr rfl), denseCounts_eq, hC, hE]
    simp only [gamma, Nat.cast_zero, sub_zero, sub_self, add_zero, hT.ne', if_false, String.reduceEq, if_true]
    constructor
    · rw [zero_sub, Int.cast_neg, neg_div, div_self hTK]
    · rw [div_self hTK]

/-- **C15 (nothing to compare).** If every same-class distance equals every different-class distance, in particular
if there is no same-class pair or no different-class pair, the index is 0. -/
theorem C15_no_comparable (D : Fin n → Fin n → XR K) (cls : Fin n → L) (metric : String)
    (hm : metric = "distance" ∨ metric = "similarity")
    (h : ∀ i j k l, i ≠ j → cls i = cls j → cls k ≠ cls l → XR.feq (D k l) (D i j)) :
    index (.mat false n n D) (.vec n cls) metric = .ok 0 := by
  have e1 : quads cls (fun p q => D q.1 q.2 < D p.2 p.1) = quads cls (fun _ _ => False) := by
    apply quads_congr
    intro p q a b _ d
    have := (h p.2 p.1 q.1 q.2 a.ne' b.symm d).2
    simp [this]
  have e2 : quads cls (fun p q => XR.feq (D q.1 q.2) (D p.2 p.1)) = quads cls (fun _ _ => True) := by
    apply quads_congr
    intro p q a b _ d
    simp [h p.2 p.1 q.1 q.2 a.ne' b.symm d]
  have e3 : (quads cls (fun _ _ => False)).card = 0 := by simp [quads]
  rw [index_ok D cls metric hm, denseCounts_eq, e1, e2, e3]
  simp [gamma]

/-- **C16 (flip).** Switching the metric negates the index, for every matrix. -/
theorem C16_metric_flip (D : Fin n → Fin n → XR K) (cls : Fin n → L) (g : K)
    (h : index (.mat false n n D) (.vec n cls) "distance" = .ok g) :
    index (.mat false n n D) (.vec n cls) "similarity" = .ok (-g) := by
  rw [index_ok D cls _ (Or.inl rfl)] at h
  rw [index_ok D cls _ (Or.inr rfl), ← Except.ok.inj h]
  unfold gamma
  simp only [String.reduceEq, if_true, if_false]
  split
  · simp
  · rw [← neg_div, ← Int.cast_neg, neg_sub]

/-- **C16 (order only).** A strictly increasing map of the finite entries leaves the index unchanged, for every
matrix. -/
theorem C16_order_only (D : Fin n → Fin n → XR K) (cls : Fin n → L) (metric : String)
    (f : K → K) (hf : StrictMono f) :
    index (.mat false n n (fun i j => (D i j).map f)) (.vec n cls) metric
      = index (.mat false n n D) (.vec n cls) metric := by
  by_cases hm : metric = "distance" ∨ metric = "similarity"
  · rw [index_ok _ cls _ hm, index_ok _ cls _ hm, denseCounts_eq, denseCounts_eq]
    have hlt : ∀ a b : XR K, a.map f < b.map f ↔ a < b := by
      intro a b
      rw [← not_le, ← not_le]
      cases a <;> cases b <;> simp [XR.map, hf.le_iff_le]
    have heq : ∀ a b : XR K, XR.feq (a.map f) (b.map f) ↔ XR.feq a b := by
      intro a b
      cases a <;> cases b <;> simp [XR.map, XR.feq, hf.injective.eq_iff]
    simp only [hlt, heq]
  · have h1 := (C14_errors (.mat false n n D) (.vec n cls) metric).2 _ (by simp [checkMatrixLabels]; rfl)
      (by tauto) (by tauto)
    have h2 := (C14_errors (.mat false n n (fun i j => (D i j).map f)) (.vec n cls) metric).2 _
      (by simp [checkMatrixLabels]; rfl) (by tauto) (by tauto)
    rw [h1.1, h2.1]

/-- **C16 (duality).** The index of `D` as distances is the index of `-D` as similarities (symmetric, no nan). -/
theorem C16_duality (D : Fin n → Fin n → XR K) (cls : Fin n → L) (hsym : ∀ i j, D i j = D j i)
    (hnan : ∀ i j, D i j ≠ .nan) :
    index (.mat false n n (fun i j => (D i j).neg)) (.vec n cls) "similarity"
      = index (.mat false n n D) (.vec n cls) "distance" := by
  have hn : ∀ i j, (D i j).neg ≠ .nan := by
    intro i j hc
    have := hnan i j
    cases h : D i j <;> simp_all [XR.neg]
  rw [(C14_index_is_definition D cls _ (Or.inl rfl) hsym hnan).1,
    (C14_index_is_definition (fun i j => (D i j).neg) cls _ (Or.inr rfl)
      (fun i j => by simp only [hsym i j]) hn).1]
  have hflt : ∀ a b : XR K, XR.flt a.neg b.neg ↔ XR.flt b a := by
    intro a b; cases a <;> cases b <;> simp [XR.flt, XR.neg]
  unfold gkIndex
  simp only [hflt, String.reduceEq, if_true, if_false]

/-- **C17 (names).** Renaming the classes does not matter. -/
theorem C17_renaming {L' : Type} [LinearOrder L'] (D : Fin n → Fin n → XR K) (cls : Fin n → L)
    (ρ : L → L') (hρ : Function.Injective ρ) (metric : String) :
    index (.mat false n n D) (.vec n (fun i => ρ (cls i))) metric = index (.mat false n n D) (.vec n cls) metric := by
  by_cases hm : metric = "distance" ∨ metric = "similarity"
  · have hq : ∀ R : Fin n × Fin n → Fin n × Fin n → Prop, ∀ [∀ p q, Decidable (R p q)],
        quads (fun i => ρ (cls i)) R = quads cls R := by
      intro R _
      unfold quads
      apply Finset.filter_congr
      intro x _
      simp only [hρ.eq_iff, ne_eq]
    rw [index_ok _ _ _ hm, index_ok _ cls _ hm, denseCounts_eq, denseCounts_eq, hq, hq, hq]
  · have h1 := (C14_errors (.mat false n n D) (.vec n cls) metric).2 _ (by simp [checkMatrixLabels]; rfl)
      (by tauto) (by tauto)
    have h2 := (C14_errors (.mat false n n D) (.vec n (fun i => ρ (cls i))) metric).2 _
      (by simp [checkMatrixLabels]; rfl) (by tauto) (by tauto)
    rw [h1.1, h2.1]

/-- The image of an index pair, in ascending order. -/
def norm (π : Equiv.Perm (Fin n)) (p : Fin n × Fin n) : Fin n × Fin n :=
  if π p.1 < π p.2 then (π p.1, π p.2) else (π p.2, π p.1)

theorem norm_lt (π : Equiv.Perm (Fin n)) (p : Fin n × Fin n) (h : p.1 < p.2) : (norm π p).1 < (norm π p).2 := by
  unfold norm
  split
  · assumption
  · rename_i h'
    exact lt_of_le_of_ne (not_lt.1 h') (fun hc => h.ne' (π.injective hc))

theorem norm_norm (π : Equiv.Perm (Fin n)) (p : Fin n × Fin n) (h : p.1 < p.2) : norm π.symm (norm π p) = p := by
  by_cases h' : π p.1 < π p.2
  · simp [norm, h', h]
  · simp [norm, h', h.not_gt]

theorem card_quads_perm (cls : Fin n → L) (π : Equiv.Perm (Fin n))
    (R R' : Fin n × Fin n → Fin n × Fin n → Prop) [∀ p q, Decidable (R p q)] [∀ p q, Decidable (R' p q)]
    (h : ∀ p q, R' p q ↔ R (norm π p) (norm π q)) :
    (quads (fun i => cls (π i)) R').card = (quads cls R).card := by
  have hcls : ∀ p : Fin n × Fin n, (cls (norm π p).1 = cls (norm π p).2) ↔ (cls (π p.1) = cls (π p.2)) := by
    intro p
    unfold norm
    split
    · rfl
    · exact eq_comm
  have hcls' : ∀ p : Fin n × Fin n, (cls (π (norm π.symm p).1) = cls (π (norm π.symm p).2)) ↔ (cls p.1 = cls p.2) := by
    intro p
    unfold norm
    split
    · simp
    · simp [eq_comm]
  refine Finset.card_bij' (fun x _ => (norm π x.1, norm π x.2)) (fun x _ => (norm π.symm x.1, norm π.symm x.2))
    ?_ ?_ ?_ ?_
  · rintro ⟨p, q⟩ hx
    simp only [quads, Finset.mem_filter, Finset.mem_univ, true_and] at hx ⊢
    refine ⟨norm_lt π p hx.1, (hcls p).2 hx.2.1, norm_lt π q hx.2.2.1, ?_, (h p q).1 hx.2.2.2.2⟩
    rw [ne_eq, hcls]; exact hx.2.2.2.1
  · rintro ⟨p, q⟩ hx
    simp only [quads, Finset.mem_filter, Finset.mem_univ, true_and] at hx ⊢
    refine ⟨norm_lt _ p hx.1, (hcls' p).2 hx.2.1, norm_lt _ q hx.2.2.1, ?_, (h _ _).2 ?_⟩
    · rw [ne_eq, hcls']; exact hx.2.2.2.1
    · have h1 := norm_norm π.symm p hx.1
      have h2 := norm_norm π.symm q hx.2.2.1
      rw [Equiv.symm_symm] at h1 h2
      rw [h1, h2]
      exact hx.2.2.2.2
  · rintro ⟨p, q⟩ hx
    simp only [quads, Finset.mem_filter, Finset.mem_univ, true_and] at hx
    rw [norm_norm π p hx.1, norm_norm π q hx.2.2.1]
  · rintro ⟨p, q⟩ hx
    simp only [quads, Finset.mem_filter, Finset.mem_univ, true_and] at hx
    have h1 := norm_norm π.symm p hx.1
    have h2 := norm_norm π.symm q hx.2.2.1
    rw [Equiv.symm_symm] at h1 h2
    rw [h1, h2]

/-- **C17 (point order).** Permuting the points of a symmetric matrix together with the labels does not matter. -/
theorem C17_relabelling (D : Fin n → Fin n → XR K) (cls : Fin n → L) (metric : String)
    (π : Equiv.Perm (Fin n)) (hsym : ∀ i j, D i j = D j i) :
    index (.mat false n n (fun i j => D (π i) (π j))) (.vec n (fun i => cls (π i))) metric
      = index (.mat false n n D) (.vec n cls) metric := by
  by_cases hm : metric = "distance" ∨ metric = "similarity"
  · have hD : ∀ p : Fin n × Fin n, D (norm π p).1 (norm π p).2 = D (π p.1) (π p.2) ∧
        D (norm π p).2 (norm π p).1 = D (π p.1) (π p.2) := by
      intro p
      unfold norm
      split
      · exact ⟨rfl, hsym _ _⟩
      · exact ⟨hsym _ _, rfl⟩
    rw [index_ok _ _ _ hm, index_ok _ cls _ hm, denseCounts_eq, denseCounts_eq,
      card_quads_perm cls π (fun p q => D q.1 q.2 < D p.2 p.1) _ (by
        intro p q; rw [(hD p).2, (hD q).1, hsym (π p.1)]),
      card_quads_perm cls π (fun _ _ => True) _ (by intro p q; rfl),
      card_quads_perm cls π (fun p q => XR.feq (D q.1 q.2) (D p.2 p.1)) _ (by
        intro p q; rw [(hD p).2, (hD q).1, hsym (π p.1)])]
  · have h1 := (C14_errors (.mat false n n D) (.vec n cls) metric).2 _ (by simp [checkMatrixLabels]; rfl)
      (by tauto) (by tauto)
    have h2 := (C14_errors (.mat false n n (fun i j => D (π i) (π j))) (.vec n (fun i => cls (π i))) metric).2 _
      (by simp [checkMatrixLabels]; rfl) (by tauto) (by tauto)
    rw [h1.1, h2.1]

/-! ## Sparse variant -/

theorem sparseIndex_ok (hn : 0 < n) (S : Fin n → Fin n → K) (cls : Fin n → L) (metric : String) (zeroMv heuristic : Bool)
    (hm : metric = "distance" ∨ metric = "similarity") :
    sparseIndex S (.vec n cls) metric zeroMv heuristic
      = .ok (gamma metric (sparseCounts S cls zeroMv heuristic).1 (sparseCounts S cls zeroMv heuristic).2) := by
  rcases hm with rfl | rfl <;> simp [sparseIndex, checkMatrixLabels, checkValidMetric, hn.ne'] <;> rfl

/-- Counts with zeros as values. -/
theorem sparseCounts_dense (S : Fin n → Fin n → K) (cls : Fin n → L) (hnn : ∀ i j, 0 ≤ S i j) :
    sparseCounts S cls false false
      = (((quads cls (fun p q => S q.1 q.2 < S p.1 p.2)).card : ℤ),
        ((quads cls (fun p q => S p.1 p.2 < S q.1 q.2)).card : ℤ)) := by
  rw [sparseCounts_zeros S hnn]
  have e1 := quads_split cls (fun _ _ => True) (fun p q => S q.1 q.2 < S p.1 p.2)
    (fun p q => S q.1 q.2 = S p.1 p.2) (fun p q => S p.1 p.2 < S q.1 q.2) (by
      intro p q _ _
      simp only [true_iff]
      exact lt_trichotomy _ _)
    (by intro p q h h'; exact absurd h' h.ne) (by intro p q h; exact h.not_gt)
    (by intro p q h h'; exact h'.ne' h)
  have e2 := quads_split cls (fun p q => S q.1 q.2 = S p.1 p.2)
    (fun p q => S p.1 p.2 ≠ 0 ∧ S q.1 q.2 ≠ 0 ∧ S q.1 q.2 = S p.1 p.2)
    (fun p q => S p.1 p.2 = 0 ∧ S q.1 q.2 = 0) (fun _ _ => False) (by
      intro p q _ _
      by_cases h : S p.1 p.2 = 0
      · simp [h]
      · by_cases h' : S q.1 q.2 = S p.1 p.2
        · simp [h, h']
        · simp [h, h'])
    (by intro p q h h'; exact h.1 h'.1) (by intro p q _; exact id) (by intro p q _; exact id)
  have e3 : (quads cls (fun _ _ => False)).card = 0 := by simp [quads]
  congr 1
  rw [e1, e2, e3]
  simp only [Bool.false_eq_true, if_false]
  push_cast
  ring

/-- **C18.** Sparse and dense functions agree on nonempty symmetric non-negative matrices. -/
theorem C18_sparse_eq_dense (hn : 0 < n) (S : Fin n → Fin n → K) (cls : Fin n → L) (metric : String)
    (hsym : ∀ i j, S i j = S j i) (hnn : ∀ i j, 0 ≤ S i j) :
    sparseIndex S (.vec n cls) metric false false
      = index (.mat false n n (fun i j => .fin (S i j))) (.vec n cls) metric := by
  by_cases hm : metric = "distance" ∨ metric = "similarity"
  · rw [sparseIndex_ok hn _ _ _ _ _ hm, sparseCounts_dense S cls hnn, index_ok _ _ _ hm,
      denseCounts_symm _ _ (fun i j => by simp only [hsym i j]) (by simp)]
    simp only [XR.flt]
  · have h1 := (C14_errors (.mat false n n (fun i j => (.fin (S i j) : XR K))) (.vec n cls) metric).2 _
      (by simp [checkMatrixLabels]; rfl) (by tauto) (by tauto)
    rw [h1.1]
    have hv : checkValidMetric metric = .error .valueError := by
      unfold checkValidMetric; rw [if_pos (by tauto)]
    unfold sparseIndex
    simp [checkMatrixLabels, hv]
    rfl

/-- **C19.** With `zero_mv=True` the index is the one of the quadruples whose two entries are nonzero. -/
theorem C19_zero_missing (hn : 0 < n) (S : Fin n → Fin n → K) (cls : Fin n → L) (metric : String)
    (hm : metric = "distance" ∨ metric = "similarity") :
    sparseIndex S (.vec n cls) metric true false = .ok (gkIndexNonzero metric S cls) := by
  rw [sparseIndex_ok hn _ _ _ _ _ hm, sparseCounts_mv]
  have e1 := quads_split cls (fun p q => S p.1 p.2 ≠ 0 ∧ S q.1 q.2 ≠ 0)
    (fun p q => S p.1 p.2 ≠ 0 ∧ S q.1 q.2 ≠ 0 ∧ S q.1 q.2 < S p.1 p.2)
    (fun p q => S p.1 p.2 ≠ 0 ∧ S q.1 q.2 ≠ 0 ∧ S q.1 q.2 = S p.1 p.2)
    (fun p q => S p.1 p.2 ≠ 0 ∧ S q.1 q.2 ≠ 0 ∧ S p.1 p.2 < S q.1 q.2) (by
      intro p q _ _
      have := lt_trichotomy (S q.1 q.2) (S p.1 p.2)
      tauto)
    (by intro p q h h'; exact absurd h'.2.2 h.2.2.ne)
    (by intro p q h h'; exact absurd h'.2.2 h.2.2.not_gt)
    (by intro p q h h'; exact absurd h.2.2 h'.2.2.ne')
  have e2 : ((quads cls (fun p q => S p.1 p.2 ≠ 0 ∧ S q.1 q.2 ≠ 0)).card : ℤ)
        - ((quads cls (fun p q => S p.1 p.2 ≠ 0 ∧ S q.1 q.2 ≠ 0 ∧ S q.1 q.2 < S p.1 p.2)).card : ℤ)
        - (if false = true then 0 else
          ((quads cls (fun p q => S p.1 p.2 ≠ 0 ∧ S q.1 q.2 ≠ 0 ∧ S q.1 q.2 = S p.1 p.2)).card : ℤ))
      = ((quads cls (fun p q => S p.1 p.2 ≠ 0 ∧ S q.1 q.2 ≠ 0 ∧ S p.1 p.2 < S q.1 q.2)).card : ℤ) := by
    rw [e1]
    simp only [Bool.false_eq_true, if_false]
    push_cast
    ring
  rw [e2, gamma_eq metric hm]
  rfl

/-- **C54.** `heuristic='equal_sim'` never returns a larger index for similarities, and the exact index if no
same-class pair and different-class pair have the same nonzero similarity. -/
theorem C54_heuristic (hn : 0 < n) (S : Fin n → Fin n → K) (cls : Fin n → L) (zeroMv : Bool)
    (hnn : ∀ i j, 0 ≤ S i j) (g h : K)
    (hg : sparseIndex S (.vec n cls) "similarity" zeroMv false = .ok g)
    (hh : sparseIndex S (.vec n cls) "similarity" zeroMv true = .ok h) :
    h ≤ g ∧
    ((∀ i j k l, i < j → cls i = cls j → k < l → cls k ≠ cls l → S i j ≠ 0 → S i j ≠ S k l) → h = g) := by
  rw [sparseIndex_ok hn _ _ _ _ _ (Or.inr rfl)] at hg hh
  have hg := Except.ok.inj hg
  have hh := Except.ok.inj hh
  -- both runs have the same concordant count; the heuristic one counts ties as discordant
  obtain ⟨c, d, t, hc, hd, ht, h1, h2, ht0⟩ : ∃ c d t : ℤ, 0 ≤ c ∧ 0 ≤ d ∧ 0 ≤ t ∧
      sparseCounts S cls zeroMv false = (c, d) ∧ sparseCounts S cls zeroMv true = (c, d + t) ∧
      ((∀ i j k l, i < j → cls i = cls j → k < l → cls k ≠ cls l → S i j ≠ 0 → S i j ≠ S k l) → t = 0) := by
    have ht0 : (∀ i j k l, i < j → cls i = cls j → k < l → cls k ≠ cls l → S i j ≠ 0 → S i j ≠ S k l) →
        ((quads cls (fun p q => S p.1 p.2 ≠ 0 ∧ S q.1 q.2 ≠ 0 ∧ S q.1 q.2 = S p.1 p.2)).card : ℤ) = 0 := by
      intro hno
      rw [Nat.cast_eq_zero, Finset.card_eq_zero]
      unfold quads
      rw [Finset.filter_eq_empty_iff]
      rintro ⟨p, q⟩ _ ⟨a, b, c, d, e⟩
      exact hno p.1 p.2 q.1 q.2 a b c d e.1 e.2.2.symm
    cases zeroMv
    · have hd := sparseCounts_dense S cls hnn
      refine ⟨_, _, _, Int.natCast_nonneg _, Int.natCast_nonneg _, Int.natCast_nonneg _, hd, ?_, ht0⟩
      rw [sparseCounts_zeros S hnn] at hd ⊢
      have := (Prod.mk.inj hd).2
      rw [← this]
      simp only [if_true, Bool.false_eq_true, if_false]
      congr 1
      ring
    · have e1 := quads_split cls (fun p q => S p.1 p.2 ≠ 0 ∧ S q.1 q.2 ≠ 0)
        (fun p q => S p.1 p.2 ≠ 0 ∧ S q.1 q.2 ≠ 0 ∧ S q.1 q.2 < S p.1 p.2)
        (fun p q => S p.1 p.2 ≠ 0 ∧ S q.1 q.2 ≠ 0 ∧ S q.1 q.2 = S p.1 p.2)
        (fun p q => S p.1 p.2 ≠ 0 ∧ S q.1 q.2 ≠ 0 ∧ S p.1 p.2 < S q.1 q.2) (by
          intro p q _ _
          have := lt_trichotomy (S q.1 q.2) (S p.1 p.2)
          tauto)
        (by intro p q h h'; exact absurd h'.2.2 h.2.2.ne)
        (by intro p q h h'; exact absurd h'.2.2 h.2.2.not_gt)
        (by intro p q h h'; exact absurd h.2.2 h'.2.2.ne')
      refine ⟨_, _, _,
        Int.natCast_nonneg (quads cls (fun p q => S p.1 p.2 ≠ 0 ∧ S q.1 q.2 ≠ 0 ∧ S q.1 q.2 < S p.1 p.2)).card,
        Int.natCast_nonneg (quads cls (fun p q => S p.1 p.2 ≠ 0 ∧ S q.1 q.2 ≠ 0 ∧ S p.1 p.2 < S q.1 q.2)).card,
        Int.natCast_nonneg _, ?_, ?_, ht0⟩
      · rw [sparseCounts_mv]
        congr 1
        rw [e1]
        simp only [Bool.false_eq_true, if_false]
        push_cast
        ring
      · rw [sparseCounts_mv]
        congr 1
        rw [e1]
        simp only [if_true]
        push_cast
        ring
  rw [h1] at hg
  rw [h2] at hh
  constructor
  · rw [← hg, ← hh]
    unfold gamma
    simp only [if_true]
    by_cases h0 : c + d = 0
    · have hc0 : c = 0 := by omega
      have hd0 : d = 0 := by omega
      subst hc0 hd0
      simp only [zero_add, zero_sub, if_true]
      split
      · exact le_rfl
      · rename_i ht'
        have htp : (0 : K) < (t : K) := by
          have : 0 < t := by omega
          exact_mod_cast this
        rw [Int.cast_neg, neg_div, div_self htp.ne']
        linarith [zero_lt_one (α := K)]
    · rw [if_neg h0, if_neg (by omega)]
      have hp1 : (0 : K) < ((c + d : ℤ) : K) := by
        have : 0 < c + d := by omega
        exact_mod_cast this
      have hp2 : (0 : K) < ((c + (d + t) : ℤ) : K) := by
        have : 0 < c + (d + t) := by omega
        exact_mod_cast this
      rw [div_le_div_iff₀ hp2 hp1]
      have : (c - (d + t)) * (c + d) ≤ (c - d) * (c + (d + t)) := by nlinarith
      exact_mod_cast this
  · intro hno
    rw [← hg, ← hh, ht0 hno, add_zero]

/-! ## Concrete cases -/

/-- Four points on a line (0, 1, 5, 6), two classes. -/
def exD : Fin 4 → Fin 4 → XR ℚ := fun i j =>
  .fin (![![0, 1, 5, 6], ![1, 0, 4, 5], ![5, 4, 0, 1], ![6, 5, 1, 0]] i j)

/-- As `exD` but with ties, an infinite entry and mixed order. -/
def exT : Fin 4 → Fin 4 → XR ℚ := fun i j =>
  ![![.fin 0, .fin 3, .fin 5, .pinf], ![.fin 3, .fin 0, .fin 2, .fin 5], ![.fin 5, .fin 2, .fin 0, .fin 5],
    ![.pinf, .fin 5, .fin 5, .fin 0]] i j

/-- Similarities with zeros and a tie between a same-class and a different-class pair. -/
def exS : Fin 4 → Fin 4 → ℚ := fun i j =>
  ![![1, 3, 0, 2], ![3, 1, 3, 0], ![0, 3, 1, 2], ![2, 0, 2, 1]] i j

def exC : Fin 4 → ℕ := ![7, 7, 2, 2]

example : (∀ i j, exT i j = exT j i) ∧ (∀ i j, exT i j ≠ .nan) := by decide +kernel
example : index (.mat false 4 4 exT) (.vec 4 exC) "distance" = .ok (2 / 6 : ℚ) := by decide +kernel
example : gkIndex "distance" exT exC = (2 / 6 : ℚ) := by decide +kernel
example : index (.mat false 4 4 exD) (.vec 4 exC) "distance" = .ok (1 : ℚ) := by decide +kernel
example : (∃ i j k l : Fin 4, i ≠ j ∧ exC i = exC j ∧ exC k ≠ exC l) ∧
    (∀ i j k l, i ≠ j → exC i = exC j → exC k ≠ exC l → XR.flt (exD i j) (exD k l)) := by decide +kernel
example : index (.mat false 4 4 (fun _ _ => .fin (3 : ℚ))) (.vec 4 exC) "distance" = .ok 0 :=
  C15_no_comparable _ exC _ (Or.inl rfl) (by decide +kernel)
example : ∃ e, checkMatrixLabels (.mat false 4 4 exD) (.vec 3 (fun _ => 0)) = .error e := ⟨.typeError, rfl⟩
example : (∀ i j, exS i j = exS j i) ∧ (∀ i j, 0 ≤ exS i j) := by decide +kernel
example : sparseIndex exS (.vec 4 exC) "similarity" false false = .ok (2 / 3 : ℚ) := by decide +kernel
example : sparseIndex exS (.vec 4 exC) "similarity" true false = .ok (0 : ℚ) := by decide +kernel
example : sparseIndex exS (.vec 4 exC) "similarity" false true = .ok (1 / 4 : ℚ) := by decide +kernel
example : ∀ i j k l, i < j → exC i = exC j → k < l → exC k ≠ exC l →
    (fun i j => if exC i = exC j then exS i j else 1) i j ≠ 0 →
    (fun i j => if exC i = exC j then exS i j else 1) i j ≠
    (fun i j => if exC i = exC j then exS i j else 1) k l := by decide +kernel

/-- A matrix with one missing (nan) distance between two points of the same class. -/
def exNan : Fin 4 → Fin 4 → XR ℚ := fun i j =>
  if (i = 0 ∧ j = 1) ∨ (i = 1 ∧ j = 0) then .nan else exD i j

/-- **C14 (nan).** With nan in the matrix the efficient function disagrees with the naive one: it ranks nan above
every number. Hence the hypothesis of `C14_index_is_definition`. -/
theorem C14_nan_disagrees :
    ∃ (D : Fin 4 → Fin 4 → XR ℚ) (cls : Fin 4 → ℕ), (∀ i j, D i j = D j i) ∧
      index (.mat false 4 4 D) (.vec 4 cls) "distance" ≠ naive (.mat false 4 4 D) (.vec 4 cls) "distance" :=
  ⟨exNan, exC, by decide +kernel, by decide +kernel⟩

end HubToolbox.GK
