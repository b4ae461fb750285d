import Verif.Rounding.GkModel
import Verif.Rounding.Count
import Verif.Rounding.Sum
import Verif.GK.Props

/-!
# C186: the Goodman-Kruskal index in floating point
-/

set_option autoImplicit false

namespace HubToolbox

namespace Ieee
variable {K : Type} [Field K] [LinearOrder K] [FloorRing K] [IsStrictOrderedRing K] (F : Ieee)

/-- Integers of at most `p` digits are floats. -/
theorem round_intCast {m : ℤ} (hm : |m| ≤ 2 ^ F.p) (hp : F.p ≤ F.emax) : F.round (m : K) = .fin m := by
  have h := nearest_rep (K := K) F (m := m) (t := 0) hm (by have := F.emin_le; have := F.p_pos; omega)
  simp only [zpow_zero, mul_one] at h
  rw [round_of_lt] <;> rw [h]
  have h1 : |(m : K)| ≤ 2 ^ (F.p : ℤ) := by rw [zpow_natCast]; exact_mod_cast hm
  exact h1.trans_lt (zpow_lt_zpow_right₀ one_lt_two (by omega))

end Ieee

namespace Rounding

set_option linter.unusedSectionVars false

open HubToolbox GK

section
variable {K : Type} [Field K] [LinearOrder K] [IsStrictOrderedRing K] {L : Type} [LinearOrder L] {n : ℕ}

/-! ### Counts of one class -/

/-- Concordant quadruples of a class. -/
def ccOf (D : Fin n → Fin n → XR K) (cls : Fin n → L) (c : L) : ℤ :=
  concordant (dSelf D cls c) (dOther D cls) (dOther D cls).length

/-- Discordant quadruples of a class. -/
def dcOf (D : Fin n → Fin n → XR K) (cls : Fin n → L) (c : L) : ℤ :=
  ((dSelf D cls c).length : ℤ) * (dOther D cls).length - ccOf D cls c - equidistant (dSelf D cls c) (dOther D cls)

omit [IsStrictOrderedRing K] in
theorem ccOf_nonneg (D : Fin n → Fin n → XR K) (cls : Fin n → L) (c : L) : 0 ≤ ccOf D cls c := by
  have := concordant_eq (dSelf D cls c) (dOther D cls) 0
  simp only [add_zero] at this
  unfold ccOf
  rw [this]
  apply List.sum_nonneg
  intro x hx
  obtain ⟨s, _, rfl⟩ := List.mem_map.1 hx
  exact Int.natCast_nonneg _

omit [IsStrictOrderedRing K] in
theorem dcOf_nonneg (D : Fin n → Fin n → XR K) (cls : Fin n → L) (c : L) : 0 ≤ dcOf D cls c := by
  have h1 := concordant_eq (dSelf D cls c) (dOther D cls) 0
  simp only [add_zero] at h1
  have h2 := equidistant_eq (dSelf D cls c) (dOther D cls)
  unfold dcOf ccOf
  rw [h1, h2]
  generalize dOther D cls = o
  generalize dSelf D cls c = s
  induction s with
  | nil => simp
  | cons a t ih =>
    simp only [List.map_cons, List.sum_cons, List.length_cons]
    have hle : o.countP (fun x => decide (x < a)) + o.countP (fun x => decide (XR.feq x a)) ≤ o.length := by
      clear ih
      induction o with
      | nil => simp
      | cons b u ih =>
        simp only [List.countP_cons, List.length_cons]
        by_cases h : b < a
        · have : ¬ XR.feq b a := fun e => h.ne e.2
          simp only [h, this]
          simp only [decide_true, decide_false, if_true]
          simp only [Bool.false_eq_true, if_false]
          omega
        · simp only [h, decide_false]
          simp only [Bool.false_eq_true, if_false]
          split <;> omega
    push_cast
    have : ((o.countP (fun x => decide (x < a)) : ℕ) : ℤ) + (o.countP (fun x => decide (XR.feq x a)) : ℕ) ≤ o.length := by
      exact_mod_cast hle
    nlinarith

omit [IsStrictOrderedRing K] in
theorem dSelf_nil (D : Fin n → Fin n → XR K) (cls : Fin n → L) (c : L)
    (h : ¬ (List.finRange n).countP (fun i => decide (cls i = c)) > 1) : dSelf D cls c = [] := by
  have := dSelf_perm D cls c
  rw [selfPairs_nil cls c h] at this
  simpa using this

omit [IsStrictOrderedRing K] in
theorem counts_sum (D : Fin n → Fin n → XR K) (cls : Fin n → L) :
    denseCounts D cls = (((Np.unique (List.ofFn cls)).map (ccOf D cls)).sum, ((Np.unique (List.ofFn cls)).map (dcOf D cls)).sum) := by
  have := foldl_classes (fun c => (List.finRange n).countP (fun i => decide (cls i = c))) (ccOf D cls) (dcOf D cls)
    (Np.unique (List.ofFn cls)) (by
      intro c _ hc
      have e := dSelf_nil D cls c hc
      have h1 := concordant_eq (dSelf D cls c) (dOther D cls) 0
      have h2 := equidistant_eq (dSelf D cls c) (dOther D cls)
      simp only [add_zero] at h1
      unfold dcOf ccOf
      rw [h1, h2, e]
      simp) (0, 0)
  simp only [zero_add] at this
  rw [← this]
  rfl

/-! ### The number of quadruples -/

omit [IsStrictOrderedRing K] in
theorem total_le (D : Fin n → Fin n → XR K) (cls : Fin n → L) :
    16 * ((denseCounts D cls).1 + (denseCounts D cls).2) ≤ (n : ℤ) ^ 4 := by
  set A := Finset.univ.filter (fun p : Fin n × Fin n => p.1 < p.2 ∧ cls p.1 = cls p.2) with hA
  set B := Finset.univ.filter (fun p : Fin n × Fin n => p.1 < p.2 ∧ cls p.1 ≠ cls p.2) with hB
  have hT : (Spec.quads cls (fun _ _ => True)).card = A.card * B.card := by
    rw [← Finset.card_product]
    congr 1
    ext ⟨p, q⟩
    simp only [Spec.quads, hA, hB, Finset.mem_filter, Finset.mem_univ, true_and, Finset.mem_product]
    tauto
  have hAB : 2 * (A.card + B.card) ≤ n ^ 2 := by
    have hd : Disjoint A B := by
      rw [Finset.disjoint_left]
      intro p h1 h2
      rw [hA, Finset.mem_filter] at h1
      rw [hB, Finset.mem_filter] at h2
      exact h2.2.2 h1.2.2
    rw [← Finset.card_union_of_disjoint hd]
    set U := A ∪ B with hU
    have hlt : ∀ p ∈ U, p.1 < p.2 := by
      intro p hp
      rw [hU, Finset.mem_union, hA, hB, Finset.mem_filter, Finset.mem_filter] at hp
      rcases hp with hp | hp <;> exact hp.2.1
    have hsw : (U.map (Equiv.prodComm _ _).toEmbedding).card = U.card := Finset.card_map _
    have hdis : Disjoint U (U.map (Equiv.prodComm (Fin n) (Fin n)).toEmbedding) := by
      rw [Finset.disjoint_left]
      intro p h1 h2
      obtain ⟨q, hq, rfl⟩ := Finset.mem_map.1 h2
      exact absurd (hlt q hq) (hlt _ h1).not_gt
    have := Finset.card_le_univ (U ∪ U.map (Equiv.prodComm (Fin n) (Fin n)).toEmbedding)
    rw [Finset.card_union_of_disjoint hdis, hsw, Fintype.card_prod, Fintype.card_fin] at this
    nlinarith
  have hle : (denseCounts D cls).1 + (denseCounts D cls).2 ≤ (A.card : ℤ) * B.card := by
    rw [denseCounts_eq, ← Nat.cast_mul, ← hT]
    simp only
    have := Int.natCast_nonneg (Spec.quads cls (fun p q => XR.feq (D q.1 q.2) (D p.2 p.1))).card
    linarith
  have hAB' : 2 * ((A.card : ℤ) + B.card) ≤ (n : ℤ) ^ 2 := by exact_mod_cast hAB
  have h0 : 0 ≤ (A.card : ℤ) := Int.natCast_nonneg _
  have h0' : 0 ≤ (B.card : ℤ) := Int.natCast_nonneg _
  have hsq : (2 * ((A.card : ℤ) + B.card)) ^ 2 ≤ ((n : ℤ) ^ 2) ^ 2 := pow_le_pow_left₀ (by linarith) hAB' 2
  nlinarith [sq_nonneg ((A.card : ℤ) - B.card)]

theorem int64_of_lt {x : ℤ} (h0 : 0 ≤ x) (h : x < 2 ^ 63) : int64 x = x := by
  unfold int64
  exact Int.bmod_eq_of_le (by omega) (by omega)

omit [IsStrictOrderedRing K] in
/-- No integer overflow for a hundred thousand objects. -/
theorem counts_lt (D : Fin n → Fin n → XR K) (cls : Fin n → L) (hn : n ≤ 100000) (c : L) (hc : c ∈ Np.unique (List.ofFn cls)) :
    ccOf D cls c < 2 ^ 63 ∧ dcOf D cls c < 2 ^ 63 := by
  have ht := total_le D cls
  rw [counts_sum] at ht
  simp only at ht
  have hle : ∀ f : L → ℤ, (∀ c, 0 ≤ f c) → f c ≤ ((Np.unique (List.ofFn cls)).map f).sum := by
    intro f hf
    apply List.single_le_sum
    · intro x hx
      obtain ⟨a, _, rfl⟩ := List.mem_map.1 hx
      exact hf a
    · exact List.mem_map.2 ⟨c, hc, rfl⟩
  have h1 := hle _ (ccOf_nonneg D cls)
  have h2 := hle _ (dcOf_nonneg D cls)
  have h3 := ccOf_nonneg D cls c
  have h4 := dcOf_nonneg D cls c
  have hn4 : (n : ℤ) ^ 4 ≤ 100000 ^ 4 := pow_le_pow_left₀ (by positivity) (by exact_mod_cast hn) 4
  constructor <;> omega

/-- The loop adds the counts of the classes. -/
theorem gkCounts_eq (R : Rounding K) (D : Fin n → Fin n → XR K) (cls : Fin n → L) (hn : n ≤ 100000) :
    R.gkCounts D cls = (Np.unique (List.ofFn cls)).foldl (fun (Q : XR K × XR K) (c : L) =>
      if (List.finRange n).countP (fun i => decide (cls i = c)) > 1 then
        (R.add Q.1 (R.rnd (ccOf D cls c : K)), R.add Q.2 (R.rnd (dcOf D cls c : K))) else Q) (.fin 0, .fin 0) := by
  unfold gkCounts
  simp only
  apply List.foldl_ext
  intro Q c hc
  obtain ⟨h1, h2⟩ := counts_lt D cls hn c hc
  split
  · have e1 := int64_of_lt (ccOf_nonneg D cls c) h1
    have e2 := int64_of_lt (dcOf_nonneg D cls c) h2
    unfold dcOf ccOf at e2
    unfold ccOf at e1
    unfold dcOf ccOf
    rw [e1, e2]
  · rfl

theorem gkIndex_ok (R : Rounding K) (D : Fin n → Fin n → XR K) (cls : Fin n → L) (metric : String)
    (hm : metric = "distance" ∨ metric = "similarity") :
    R.gkIndex (.mat false n n D) (.vec n cls) metric = .ok (R.gkGamma metric (R.gkCounts D cls).1 (R.gkCounts D cls).2) := by
  rcases hm with rfl | rfl <;> simp [gkIndex, checkMatrixLabels, checkValidMetric] <;> rfl
end

section
variable {K : Type} [Field K] [LinearOrder K] [IsStrictOrderedRing K] [FloorRing K] {L : Type} [LinearOrder L] {n : ℕ}

theorem unique_length_le (cls : Fin n → L) : (Np.unique (List.ofFn cls)).length ≤ n := by
  have h : (Np.unique (List.ofFn cls)).Nodup := Np.nodup_unique _
  rw [← List.toFinset_card_of_nodup h]
  have : (Np.unique (List.ofFn cls)).toFinset ⊆ Finset.univ.image cls := by
    intro c hc
    rw [List.mem_toFinset, Np.mem_unique] at hc
    obtain ⟨i, rfl⟩ := List.mem_ofFn.1 hc
    exact Finset.mem_image_of_mem _ (Finset.mem_univ _)
  exact (Finset.card_le_card this).trans (Finset.card_image_le.trans (by simp))

theorem add_bounded (F : Ieee) {m : ℕ} (hm : m + 1 ≤ 2 ^ F.p) (he : (F.p : ℤ) + 64 ≤ F.emax) {q : K} (h0 : 0 ≤ q)
    (h1 : q ≤ m * 2 ^ 63) {c : ℤ} (c0 : 0 ≤ c) (c1 : c < 2 ^ 63) :
    ∃ y, (F.rounding K).add (.fin q) ((F.rounding K).rnd (c : K)) = .fin y ∧ 0 ≤ y ∧ y ≤ ((m + 1 : ℕ) : K) * 2 ^ 63 := by
  have hb : F.round ((1 : ℕ) * 2 ^ 63 : K) = .fin ((1 : ℕ) * 2 ^ 63) :=
    Ieee.round_mul_two_pow F (by omega) (by omega)
  have hc : (c : K) ≤ ((1 : ℕ) : K) * 2 ^ 63 := by
    rw [Nat.cast_one, one_mul]
    exact_mod_cast c1.le
  obtain ⟨z, hz, z0, z1⟩ := Ieee.round_le F (by exact_mod_cast c0) hc hb
  change ∃ y, (F.rounding K).add (.fin q) (F.round (c : K)) = .fin y ∧ _
  rw [hz]
  rw [Nat.cast_one, one_mul] at z1
  have hb' : F.round (((m + 1 : ℕ) : K) * 2 ^ 63) = .fin (((m + 1 : ℕ) : K) * 2 ^ 63) :=
    Ieee.round_mul_two_pow F hm (by omega)
  refine Ieee.round_le F (x := q + z) (by linarith) ?_ hb'
  push_cast
  linarith

/-- **C186** (range). In IEEE arithmetic the returned index is a number between -1 and 1, for every matrix of up to
a hundred thousand objects (also with `nan` or infinite entries) and any labels. -/
theorem C186_range (F : Ieee) (hp : n ≤ 2 ^ F.p) (he : (F.p : ℤ) + 64 ≤ F.emax) (hn : n ≤ 100000)
    (D : Fin n → Fin n → XR K) (cls : Fin n → L) (metric : String) (g : XR K)
    (h : (F.rounding K).gkIndex (.mat false n n D) (.vec n cls) metric = .ok g) : ∃ y, g = .fin y ∧ -1 ≤ y ∧ y ≤ 1 := by
  by_cases hm : metric = "distance" ∨ metric = "similarity"
  swap
  · exfalso
    have hv : checkValidMetric metric = .error .valueError := by
      unfold checkValidMetric; rw [if_pos (by tauto)]
    simp only [gkIndex, checkMatrixLabels, hv] at h
    cases h
  rw [gkIndex_ok _ D cls metric hm] at h
  have h := Except.ok.inj h
  subst h
  have hinv : ∀ (l : List L) (m : ℕ) (Q : XR K × XR K), m + l.length ≤ n →
      (∀ c ∈ l, c ∈ Np.unique (List.ofFn cls)) →
      (∃ q, Q.1 = .fin q ∧ 0 ≤ q ∧ q ≤ (m : K) * 2 ^ 63) → (∃ q, Q.2 = .fin q ∧ 0 ≤ q ∧ q ≤ (m : K) * 2 ^ 63) →
      (∃ q, (l.foldl (fun (Q : XR K × XR K) (c : L) =>
        if (List.finRange n).countP (fun i => decide (cls i = c)) > 1 then
          ((F.rounding K).add Q.1 ((F.rounding K).rnd (ccOf D cls c : K)),
            (F.rounding K).add Q.2 ((F.rounding K).rnd (dcOf D cls c : K))) else Q) Q).1 = .fin q ∧ 0 ≤ q ∧ q ≤ (n : K) * 2 ^ 63) ∧
      (∃ q, (l.foldl (fun (Q : XR K × XR K) (c : L) =>
        if (List.finRange n).countP (fun i => decide (cls i = c)) > 1 then
          ((F.rounding K).add Q.1 ((F.rounding K).rnd (ccOf D cls c : K)),
            (F.rounding K).add Q.2 ((F.rounding K).rnd (dcOf D cls c : K))) else Q) Q).2 = .fin q ∧ 0 ≤ q ∧ q ≤ (n : K) * 2 ^ 63) := by
    intro l
    induction l with
    | nil =>
      rintro m Q hlen - ⟨q, hq, q0, q1⟩ ⟨r, hr, r0, r1⟩
      simp only [List.length_nil, add_zero] at hlen
      have hmn : (m : K) * 2 ^ 63 ≤ (n : K) * 2 ^ 63 :=
        mul_le_mul_of_nonneg_right (by exact_mod_cast hlen) (by positivity)
      exact ⟨⟨q, hq, q0, q1.trans hmn⟩, ⟨r, hr, r0, r1.trans hmn⟩⟩
    | cons c t ih =>
      rintro m Q hlen hmem ⟨q, hq, q0, q1⟩ ⟨r, hr, r0, r1⟩
      simp only [List.length_cons] at hlen
      rw [List.foldl_cons]
      have hmono : (m : K) * 2 ^ 63 ≤ ((m + 1 : ℕ) : K) * 2 ^ 63 :=
        mul_le_mul_of_nonneg_right (by push_cast; linarith) (by positivity)
      obtain ⟨l1, l2⟩ := counts_lt D cls hn c (hmem c (by simp))
      refine ih (m + 1) _ (by omega) (fun x hx => hmem x (List.mem_cons_of_mem _ hx)) ?_ ?_
      · split
        · simp only
          rw [hq]
          exact add_bounded F (by omega) he q0 q1 (ccOf_nonneg D cls c) l1
        · exact ⟨q, hq, q0, q1.trans hmono⟩
      · split
        · simp only
          rw [hr]
          exact add_bounded F (by omega) he r0 r1 (dcOf_nonneg D cls c) l2
        · exact ⟨r, hr, r0, r1.trans hmono⟩
  have := hinv (Np.unique (List.ofFn cls)) 0 (.fin 0, .fin 0) (by simpa using unique_length_le cls) (fun _ h => h)
    ⟨0, rfl, le_rfl, by simp⟩ ⟨0, rfl, le_rfl, by simp⟩
  rw [← gkCounts_eq _ D cls hn] at this
  obtain ⟨⟨a, ha, a0, a1⟩, ⟨b, hb, b0, b1⟩⟩ := this
  rw [ha, hb]
  have hf : F.round ((n : K) * 2 ^ 64) = .fin ((n : K) * 2 ^ 64) := Ieee.round_mul_two_pow F hp (by omega)
  obtain ⟨s, hs, s0, -⟩ := Ieee.round_le F (x := a + b) (by linarith) (by
    have : (n : K) * 2 ^ 64 = n * 2 ^ 63 + n * 2 ^ 63 := by ring
    linarith) hf
  have hadd : (F.rounding K).add (.fin a) (.fin b) = .fin s := hs
  have hsub : ∀ x y : K, (x = a ∧ y = b) ∨ (x = b ∧ y = a) →
      ∃ d, (F.rounding K).sub (.fin x) (.fin y) = .fin d ∧ -s ≤ d ∧ d ≤ s := by
    intro x y hxy
    have e : (F.rounding K).sub (.fin x) (.fin y) = (F.rounding K).rnd (x - y) := by
      simp [sub, XR.sub, XR.neg, XR.add, up, sub_eq_add_neg]
    rw [e]
    have u := (F.rounding K).mono (x - y) (a + b) (by rcases hxy with ⟨rfl, rfl⟩ | ⟨rfl, rfl⟩ <;> linarith)
    have l := (F.rounding K).mono (-(a + b)) (x - y) (by rcases hxy with ⟨rfl, rfl⟩ | ⟨rfl, rfl⟩ <;> linarith)
    rw [(F.rounding K).neg] at l
    rw [show (F.rounding K).rnd (a + b) = .fin s from hs] at u l
    cases hd : (F.rounding K).rnd (x - y) with
    | fin d => rw [hd] at u l; exact ⟨d, rfl, by simpa [XR.neg] using l, u⟩
    | ninf => rw [hd] at l; simp [XR.neg] at l
    | pinf => rw [hd] at u; simp at u
    | nan => exact absurd hd ((F.rounding K).ne_nan _)
  have hdiv : ∀ d : K, -s ≤ d → d ≤ s → s ≠ 0 →
      ∃ y, (F.rounding K).div (.fin d) (.fin s) = .fin y ∧ -1 ≤ y ∧ y ≤ 1 := by
    intro d h1 h2 hne
    have spos : 0 < s := lt_of_le_of_ne s0 (Ne.symm hne)
    have e : (F.rounding K).div (.fin d) (.fin s) = (F.rounding K).rnd (d / s) := by
      simp [div, XR.div, up, hne]
    rw [e]
    have u := (F.rounding K).mono (d / s) 1 ((div_le_one spos).2 h2)
    have l := (F.rounding K).mono (-1) (d / s) (by rw [le_div_iff₀ spos]; linarith)
    rw [(F.rounding K).neg, (F.rounding K).one] at l
    rw [(F.rounding K).one] at u
    cases hd : (F.rounding K).rnd (d / s) with
    | fin y => rw [hd] at u l; exact ⟨y, rfl, by simpa [XR.neg] using l, u⟩
    | ninf => rw [hd] at l; simp [XR.neg] at l
    | pinf => rw [hd] at u; simp at u
    | nan => exact absurd hd ((F.rounding K).ne_nan _)
  unfold gkGamma
  rw [hadd]
  split
  · exact ⟨0, rfl, by norm_num, zero_le_one⟩
  · next hne =>
    have hne : s ≠ 0 := fun e => hne (by rw [e])
    split
    · obtain ⟨d, hd, d0, d1⟩ := hsub a b (Or.inl ⟨rfl, rfl⟩)
      rw [hd]
      exact hdiv d d0 d1 hne
    · obtain ⟨d, hd, d0, d1⟩ := hsub b a (Or.inr ⟨rfl, rfl⟩)
      rw [hd]
      exact hdiv d d0 d1 hne

/-- **C186** (exact). As long as the number of quadruples has at most `p` digits (nineteen thousand objects in
float64) all counts are exact: the returned value is the float nearest to the Goodman-Kruskal index. -/
theorem C186_nearest (F : Ieee) (he : (F.p : ℤ) ≤ F.emax) (hn : n ≤ 100000) (hq : n ^ 4 ≤ 16 * 2 ^ F.p)
    (D : Fin n → Fin n → XR K) (cls : Fin n → L) (metric : String) (hm : metric = "distance" ∨ metric = "similarity")
    (hsym : ∀ i j, D i j = D j i) (hnan : ∀ i j, D i j ≠ .nan) :
    (F.rounding K).gkIndex (.mat false n n D) (.vec n cls) metric = .ok (F.round (Spec.gkIndex metric D cls)) := by
  have hdef := (C14_index_is_definition D cls metric hm hsym hnan).1
  rw [index_ok D cls metric hm] at hdef
  rw [← Except.ok.inj hdef, gkIndex_ok _ D cls metric hm]
  have htot := total_le D cls
  have hq' : (n : ℤ) ^ 4 ≤ 16 * 2 ^ F.p := by exact_mod_cast hq
  have hT : (denseCounts D cls).1 + (denseCounts D cls).2 ≤ 2 ^ F.p := by omega
  obtain ⟨hc0, hd0⟩ := counts_nonneg D cls
  have hint : ∀ m : ℤ, |m| ≤ 2 ^ F.p → (F.rounding K).rnd (m : K) = .fin (m : K) := fun m hm =>
    Ieee.round_intCast F hm he
  have hfold : ∀ (l : List L) (a b : ℤ), 0 ≤ a → 0 ≤ b →
      a + (l.map (ccOf D cls)).sum ≤ 2 ^ F.p → b + (l.map (dcOf D cls)).sum ≤ 2 ^ F.p →
      l.foldl (fun (Q : XR K × XR K) (c : L) =>
        if (List.finRange n).countP (fun i => decide (cls i = c)) > 1 then
          ((F.rounding K).add Q.1 ((F.rounding K).rnd (ccOf D cls c : K)),
            (F.rounding K).add Q.2 ((F.rounding K).rnd (dcOf D cls c : K))) else Q) (.fin (a : K), .fin (b : K)) =
      (.fin ((a + (l.map (ccOf D cls)).sum : ℤ) : K), .fin ((b + (l.map (dcOf D cls)).sum : ℤ) : K)) := by
    intro l
    induction l with
    | nil => intro a b _ _ _ _; simp
    | cons c t ih =>
      intro a b a0 b0 ha hb
      have nn : ∀ f : L → ℤ, (∀ c, 0 ≤ f c) → 0 ≤ (t.map f).sum := fun f hf => List.sum_nonneg (by
        intro x hx
        obtain ⟨y, _, rfl⟩ := List.mem_map.1 hx
        exact hf y)
      have n1 := nn _ (ccOf_nonneg D cls)
      have n2 := nn _ (dcOf_nonneg D cls)
      have c1 := ccOf_nonneg D cls c
      have c2 := dcOf_nonneg D cls c
      simp only [List.map_cons, List.sum_cons] at ha hb ⊢
      rw [List.foldl_cons]
      have hstep : (if (List.finRange n).countP (fun i => decide (cls i = c)) > 1 then
          ((F.rounding K).add (.fin (a : K)) ((F.rounding K).rnd (ccOf D cls c : K)),
            (F.rounding K).add (.fin (b : K)) ((F.rounding K).rnd (dcOf D cls c : K))) else (.fin (a : K), .fin (b : K))) =
          (.fin ((a + ccOf D cls c : ℤ) : K), .fin ((b + dcOf D cls c : ℤ) : K)) := by
        split
        · rw [hint _ (by rw [abs_of_nonneg c1]; omega), hint _ (by rw [abs_of_nonneg c2]; omega)]
          have e1 := hint (a + ccOf D cls c) (by rw [abs_of_nonneg (by omega)]; omega)
          have e2 := hint (b + dcOf D cls c) (by rw [abs_of_nonneg (by omega)]; omega)
          push_cast at e1 e2 ⊢
          exact Prod.ext e1 e2
        · next h =>
          have e := dSelf_nil D cls c h
          have h1 := concordant_eq (dSelf D cls c) (dOther D cls) 0
          have h2 := equidistant_eq (dSelf D cls c) (dOther D cls)
          simp only [add_zero] at h1
          have z1 : ccOf D cls c = 0 := by unfold ccOf; rw [h1, e]; simp
          have z2 : dcOf D cls c = 0 := by unfold dcOf; rw [z1, h2, e]; simp
          rw [z1, z2, add_zero, add_zero]
      simp only at hstep ⊢
      rw [hstep, ih (a + ccOf D cls c) (b + dcOf D cls c) (by omega) (by omega) (by omega) (by omega)]
      rw [add_assoc, add_assoc]
  have hs := counts_sum D cls
  have hcnt : (F.rounding K).gkCounts D cls = (.fin ((denseCounts D cls).1 : K), .fin ((denseCounts D cls).2 : K)) := by
    rw [gkCounts_eq _ D cls hn]
    have := hfold (Np.unique (List.ofFn cls)) 0 0 le_rfl le_rfl (by
      rw [hs] at hT hd0
      simp only at hT hd0
      omega) (by
      rw [hs] at hT hc0
      simp only at hT hc0
      omega)
    simp only [Int.cast_zero, zero_add] at this
    rw [this, hs]
  rw [hcnt]
  simp only
  generalize (denseCounts D cls).1 = c at hT hc0
  generalize (denseCounts D cls).2 = d at hT hd0
  have hadd : (F.rounding K).add (.fin (c : K)) (.fin (d : K)) = .fin ((c + d : ℤ) : K) := by
    have := hint (c + d) (by rw [abs_of_nonneg (by omega)]; omega)
    push_cast at this ⊢
    exact this
  have hsub : ∀ x y : ℤ, 0 ≤ x → 0 ≤ y → x + y ≤ 2 ^ F.p →
      (F.rounding K).sub (.fin (x : K)) (.fin (y : K)) = .fin ((x - y : ℤ) : K) := by
    intro x y x0 y0 hxy
    have := hint (x - y) (by rw [abs_le]; constructor <;> omega)
    rw [← this]
    simp [sub, XR.sub, XR.neg, XR.add, up, sub_eq_add_neg]
  unfold gkGamma gamma
  rw [hadd, hsub c d hc0 hd0 hT, hsub d c hd0 hc0 (by omega)]
  by_cases hz : c + d = 0
  · rw [if_pos (by rw [hz, Int.cast_zero]), if_pos hz]
    exact congrArg _ (F.rounding K).zero.symm
  · have hz' : ((c + d : ℤ) : K) ≠ 0 := by exact_mod_cast hz
    rw [if_neg (fun e => hz' (XR.fin.inj e)), if_neg hz]
    have hdiv : ∀ x : K, (F.rounding K).div (.fin x) (.fin ((c + d : ℤ) : K)) = F.round (x / ((c + d : ℤ) : K)) := by
      intro x
      simp only [div, XR.div, if_neg hz']
      rfl
    rw [hdiv, hdiv]
    split <;> rfl

/-- Float64 and the largest size covered by `C186_nearest`; the example of `Verif/GK/Props.lean` rounded to float64. -/
example : (19000 : ℕ) ^ 4 ≤ 16 * 2 ^ Ieee.double.p ∧ (Ieee.double.p : ℤ) + 64 ≤ Ieee.double.emax := by decide

example : (Ieee.double.rounding ℚ).gkIndex (.mat false 4 4 exT) (.vec 4 exC) "distance" =
    .ok (.fin (6004799503160661 / 18014398509481984)) := by decide +kernel

end

end Rounding

end HubToolbox
