import Verif.GK.Lemmas

/-!
# Closed form of the counts of the sparse Goodman-Kruskal index
-/

set_option autoImplicit false

namespace HubToolbox.GK

variable {K : Type} [LinearOrder K] [Zero K] {L : Type} [LinearOrder L] {n : ℕ}

/-- Pairs of a same-class pair of class `c` and a different-class pair related by `R`. -/
def sumPairs (cls : Fin n → L) (c : L) (R : Fin n × Fin n → Fin n × Fin n → Prop) [∀ p q, Decidable (R p q)] : ℤ :=
  ((selfPairs cls c).map (fun p => (((otherPairs cls).countP (fun q => decide (R p q)) : ℕ) : ℤ))).sum

theorem countP_stored (S : Fin n → Fin n → K) (ps : List (Fin n × Fin n)) (r : XR K → Prop) [DecidablePred r] :
    (stored S ps).countP (fun o => decide (r o))
      = ps.countP (fun q => decide (S q.1 q.2 ≠ 0 ∧ r (.fin (S q.1 q.2)))) := by
  unfold stored
  rw [List.countP_map, List.countP_filter]
  apply List.countP_congr
  intro q _
  simp [and_comm]

theorem sum_stored (S : Fin n → Fin n → K) (ps : List (Fin n × Fin n)) (g : XR K → ℤ) :
    ((stored S ps).map g).sum = (ps.map (fun p => if S p.1 p.2 ≠ 0 then g (.fin (S p.1 p.2)) else 0)).sum := by
  unfold stored
  induction ps with
  | nil => rfl
  | cons a t ih =>
    rw [List.map_cons, List.sum_cons, ← ih]
    by_cases h : S a.1 a.2 = 0
    · simp [h]
    · rw [List.filter_cons_of_pos (by simpa using h)]
      simp [h]

theorem length_stored (S : Fin n → Fin n → K) (ps : List (Fin n × Fin n)) :
    ((stored S ps).length : ℤ) = ((ps.countP (fun q => decide (S q.1 q.2 ≠ 0)) : ℕ) : ℤ) := by
  simp [stored, List.countP_eq_length_filter]

theorem zeros_stored (S : Fin n → Fin n → K) (ps : List (Fin n × Fin n)) :
    (ps.length : ℤ) - (stored S ps).length = ((ps.countP (fun q => decide (S q.1 q.2 = 0)) : ℕ) : ℤ) := by
  rw [length_stored, List.length_eq_countP_add_countP (p := fun q => decide (S q.1 q.2 = 0))]
  have : ps.countP (fun a => !decide (S a.1 a.2 = 0)) = ps.countP (fun q => decide (S q.1 q.2 ≠ 0)) := by
    apply List.countP_congr; intro q _; simp
  push_cast
  simp only [decide_not]
  simp

/-- Stored pairs, smaller other value. -/
theorem concordant_stored (S : Fin n → Fin n → K) (cls : Fin n → L) (c : L) :
    concordant (stored S (selfPairs cls c)) (stored S (otherPairs cls)) (stored S (otherPairs cls)).length
      = sumPairs cls c (fun p q => S p.1 p.2 ≠ 0 ∧ S q.1 q.2 ≠ 0 ∧ S q.1 q.2 < S p.1 p.2) := by
  have := concordant_eq (stored S (selfPairs cls c)) (stored S (otherPairs cls)) 0
  rw [add_zero] at this
  rw [this, sum_stored]
  unfold sumPairs
  congr 1
  apply List.map_congr_left
  intro p _
  by_cases h : S p.1 p.2 = 0
  · simp [h]
  · rw [if_pos h, countP_stored]
    simp [h]

theorem equidistant_stored (S : Fin n → Fin n → K) (cls : Fin n → L) (c : L) :
    equidistant (stored S (selfPairs cls c)) (stored S (otherPairs cls))
      = sumPairs cls c (fun p q => S p.1 p.2 ≠ 0 ∧ S q.1 q.2 ≠ 0 ∧ S q.1 q.2 = S p.1 p.2) := by
  rw [equidistant_eq, sum_stored]
  unfold sumPairs
  congr 1
  apply List.map_congr_left
  intro p _
  by_cases h : S p.1 p.2 = 0
  · simp [h]
  · rw [if_pos h, countP_stored]
    simp [h, XR.feq]

theorem length_mul (S : Fin n → Fin n → K) (cls : Fin n → L) (c : L) :
    ((stored S (selfPairs cls c)).length : ℤ) * (stored S (otherPairs cls)).length
      = sumPairs cls c (fun p q => S p.1 p.2 ≠ 0 ∧ S q.1 q.2 ≠ 0) := by
  unfold sumPairs
  have h1 : ((stored S (selfPairs cls c)).length : ℤ) * (stored S (otherPairs cls)).length
      = ((stored S (selfPairs cls c)).map (fun _ => ((stored S (otherPairs cls)).length : ℤ))).sum := by
    simp
  rw [h1, sum_stored, length_stored]
  congr 1
  apply List.map_congr_left
  intro p _
  by_cases h : S p.1 p.2 = 0
  · simp [h]
  · simp [h]

theorem sum_ite_const (ps : List (Fin n × Fin n)) (P : Fin n × Fin n → Prop) [DecidablePred P] (m : ℤ) :
    (ps.map (fun p => if P p then m else 0)).sum = ((ps.countP (fun p => decide (P p)) : ℕ) : ℤ) * m := by
  induction ps with
  | nil => simp
  | cons a t ih =>
    rw [List.map_cons, List.sum_cons, ih]
    by_cases h : P a <;> simp [h]; ring

theorem zeros_mul (S : Fin n → Fin n → K) (cls : Fin n → L) (c : L) :
    (((selfPairs cls c).length : ℤ) - (stored S (selfPairs cls c)).length)
      * (((otherPairs cls).length : ℤ) - (stored S (otherPairs cls)).length)
      = sumPairs cls c (fun p q => S p.1 p.2 = 0 ∧ S q.1 q.2 = 0) := by
  rw [zeros_stored, zeros_stored, ← sum_ite_const (selfPairs cls c) (fun p => S p.1 p.2 = 0)]
  unfold sumPairs
  congr 1
  apply List.map_congr_left
  intro p _
  by_cases h : S p.1 p.2 = 0 <;> simp [h]

/-- With implicit zeros and non-negative similarities. -/
theorem concordant_zeros (S : Fin n → Fin n → K) (hnn : ∀ i j, 0 ≤ S i j) (cls : Fin n → L) (c : L) :
    concordant (stored S (selfPairs cls c)) (stored S (otherPairs cls))
      ((stored S (otherPairs cls)).length + ((otherPairs cls).length - (stored S (otherPairs cls)).length))
      = sumPairs cls c (fun p q => S q.1 q.2 < S p.1 p.2) := by
  rw [concordant_eq, zeros_stored, sum_stored]
  unfold sumPairs
  congr 1
  apply List.map_congr_left
  intro p _
  by_cases h : S p.1 p.2 = 0
  · rw [if_neg (by simpa using h), eq_comm, Nat.cast_eq_zero, List.countP_eq_zero]
    intro q _
    simp [h, hnn]
  · rw [if_pos h, countP_stored, ← Nat.cast_add]
    congr 1
    have hpos : 0 < S p.1 p.2 := lt_of_le_of_ne (hnn _ _) (Ne.symm h)
    rw [List.countP_eq_length_filter, List.countP_eq_length_filter, ← List.length_append,
      List.countP_eq_length_filter]
    apply List.Perm.length_eq
    rw [List.perm_ext_iff_of_nodup]
    · intro q
      simp only [List.mem_append, List.mem_filter, decide_eq_true_eq, XR.fin_lt_fin]
      constructor
      · rintro (⟨a, b⟩ | ⟨a, b⟩)
        · exact ⟨a, b.2⟩
        · exact ⟨a, by rw [b]; exact hpos⟩
      · rintro ⟨a, b⟩
        by_cases h0 : S q.1 q.2 = 0
        · exact Or.inr ⟨a, h0⟩
        · exact Or.inl ⟨a, h0, b⟩
    · rw [List.nodup_append]
      refine ⟨(nodup_otherPairs cls).filter _, (nodup_otherPairs cls).filter _, ?_⟩
      intro a ha b hb hab
      subst hab
      simp only [List.mem_filter, decide_eq_true_eq] at ha hb
      exact ha.2.1 hb.2
    · exact (nodup_otherPairs cls).filter _

theorem sum_sumPairs (cls : Fin n → L) (R : Fin n × Fin n → Fin n × Fin n → Prop) [∀ p q, Decidable (R p q)] :
    ((Np.unique (List.ofFn cls)).map (fun c => sumPairs cls c R)).sum = ((Spec.quads cls R).card : ℤ) :=
  sum_classes cls R

theorem sumPairs_zero (cls : Fin n → L) (c : L) (R : Fin n × Fin n → Fin n × Fin n → Prop)
    [∀ p q, Decidable (R p q)]
    (h : ¬ (List.finRange n).countP (fun i => decide (cls i = c)) > 1) : sumPairs cls c R = 0 := by
  unfold sumPairs; rw [selfPairs_nil cls c h]; rfl

/-- Closed form, zeros as missing values. -/
theorem sparseCounts_mv (S : Fin n → Fin n → K) (cls : Fin n → L) (heuristic : Bool) :
    sparseCounts S cls true heuristic =
      (((Spec.quads cls (fun p q => S p.1 p.2 ≠ 0 ∧ S q.1 q.2 ≠ 0 ∧ S q.1 q.2 < S p.1 p.2)).card : ℤ),
        ((Spec.quads cls (fun p q => S p.1 p.2 ≠ 0 ∧ S q.1 q.2 ≠ 0)).card : ℤ)
        - ((Spec.quads cls (fun p q => S p.1 p.2 ≠ 0 ∧ S q.1 q.2 ≠ 0 ∧ S q.1 q.2 < S p.1 p.2)).card : ℤ)
        - (if heuristic then 0 else
          ((Spec.quads cls (fun p q => S p.1 p.2 ≠ 0 ∧ S q.1 q.2 ≠ 0 ∧ S q.1 q.2 = S p.1 p.2)).card : ℤ))) := by
  unfold sparseCounts
  simp only [if_true, length_mul, concordant_stored, equidistant_stored]
  rw [foldl_classes]
  · simp only [zero_add, sum_map_sub, sum_sumPairs]
    cases heuristic
    · simp [sum_sumPairs]
    · simp
  · intro c _ hc
    simp [sumPairs_zero cls c _ hc]

/-- Closed form, zeros as values. -/
theorem sparseCounts_zeros (S : Fin n → Fin n → K) (hnn : ∀ i j, 0 ≤ S i j) (cls : Fin n → L) (heuristic : Bool) :
    sparseCounts S cls false heuristic =
      (((Spec.quads cls (fun p q => S q.1 q.2 < S p.1 p.2)).card : ℤ),
        ((Spec.quads cls (fun _ _ => True)).card : ℤ)
        - ((Spec.quads cls (fun p q => S q.1 q.2 < S p.1 p.2)).card : ℤ)
        - (if heuristic then 0 else
          ((Spec.quads cls (fun p q => S p.1 p.2 ≠ 0 ∧ S q.1 q.2 ≠ 0 ∧ S q.1 q.2 = S p.1 p.2)).card : ℤ))
        - ((Spec.quads cls (fun p q => S p.1 p.2 = 0 ∧ S q.1 q.2 = 0)).card : ℤ)) := by
  have htot : ∀ c, ((stored S (selfPairs cls c)).length + ((selfPairs cls c).length - (stored S (selfPairs cls c)).length) : ℤ)
      * ((stored S (otherPairs cls)).length + ((otherPairs cls).length - (stored S (otherPairs cls)).length) : ℤ)
      = sumPairs cls c (fun _ _ => True) := by
    intro c
    unfold sumPairs
    simp
  unfold sparseCounts
  simp only [Bool.false_eq_true, if_false, htot, zeros_mul, concordant_zeros S hnn, equidistant_stored]
  rw [foldl_classes]
  · simp only [zero_add, sum_map_sub, sum_sumPairs]
    cases heuristic
    · simp [sum_sumPairs]
    · simp
  · intro c _ hc
    simp [sumPairs_zero cls c _ hc]

end HubToolbox.GK
