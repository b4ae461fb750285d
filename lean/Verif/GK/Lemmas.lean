import Verif.GK.Model
import Verif.GK.Spec
import Verif.Tac
import Mathlib.Algebra.BigOperators.Group.List.Basic
import Mathlib.Algebra.Order.BigOperators.Group.List

/-!
# Counting lemmas for the Goodman-Kruskal index
-/

set_option autoImplicit false
set_option linter.unusedSectionVars false

namespace HubToolbox

namespace GK

section scan
variable {ι : Type} {α : Type} [LinearOrder α]

/-- Invariant of the scan. -/
theorem scan_eq (isSelf : ι → Bool) (v : ι → α) (l : List ι) (c e : ℤ)
    (h1 : l.Pairwise (fun a b => (isSelf a = true → isSelf b = false → v b < v a) ∧
      (isSelf a = false → isSelf b = true → ¬ v a < v b))) :
    (l.foldl (fun (st : ℤ × ℤ) i => if isSelf i then (st.1 + st.2, st.2) else (st.1, st.2 - 1))
      (c, l.countP (fun i => !isSelf i) + e)).1
      = c + ((l.filter isSelf).map (fun s => ((l.countP (fun o => !isSelf o && decide (v o < v s)) : ℕ) : ℤ) + e)).sum := by
  induction l generalizing c with
  | nil => simp
  | cons x t ih =>
    rw [List.pairwise_cons] at h1
    rw [List.foldl_cons]
    cases hx : isSelf x
    · -- an "other" value
      have hrest : (t.filter isSelf).map (fun s => ((((x :: t).countP
          (fun o => !isSelf o && decide (v o < v s)) : ℕ) : ℤ) + e))
          = (t.filter isSelf).map (fun s => ((t.countP (fun o => !isSelf o && decide (v o < v s)) : ℕ) : ℤ) + e) := by
        apply List.map_congr_left
        intro s hs
        have hs' := List.mem_filter.1 hs
        have := (h1.1 s hs'.1).2 hx hs'.2
        rw [List.countP_cons_of_neg (by simp [this])]
      rw [List.filter_cons_of_neg (by simp [hx]), hrest, ← ih c h1.2, if_neg (by simp [hx]),
        List.countP_cons_of_pos (by simp [hx])]
      congr 3
      push_cast
      ring
    · -- a "self" value
      have hrest : (t.filter isSelf).map (fun s => ((((x :: t).countP
          (fun o => !isSelf o && decide (v o < v s)) : ℕ) : ℤ) + e))
          = (t.filter isSelf).map (fun s => ((t.countP (fun o => !isSelf o && decide (v o < v s)) : ℕ) : ℤ) + e) := by
        apply List.map_congr_left
        intro s hs
        rw [List.countP_cons_of_neg (by simp [hx])]
      have hall : t.countP (fun o => !isSelf o && decide (v o < v x)) = t.countP (fun o => !isSelf o) := by
        apply List.countP_congr
        intro o ho
        have := (h1.1 o ho).1 hx
        cases hs : isSelf o <;> simp_all
      rw [List.filter_cons_of_pos hx, List.map_cons, List.sum_cons, hrest, if_pos rfl,
        List.countP_cons_of_neg (by simp [hx]), List.countP_cons_of_neg (by simp [hx]), hall]
      have := ih (c + (t.countP (fun i => !isSelf i) + e)) h1.2
      simp only at this ⊢
      rw [this]
      ring

end scan

variable {K : Type} [LinearOrder K]

/-- The positions of a concatenation, tagged with the part they belong to. -/
theorem tagged {β : Type} (a b : List β) :
    (List.finRange (a ++ b).length).map (fun i => (decide (i.val < a.length), (a ++ b).get i))
      = a.map (fun x => (true, x)) ++ b.map (fun x => (false, x)) := by
  apply List.ext_getElem
  · simp
  · intro i h1 h2
    simp only [List.length_map, List.length_finRange, List.length_append] at h1
    by_cases h : i < a.length
    · rw [List.getElem_append_left (by simpa using h)]
      simp [h]
    · rw [List.getElem_append_right (by simpa using h)]
      simp [h, List.getElem_append_right (not_lt.1 h)]

theorem countP_tagged {β : Type} (a b : List β) (q : Bool → β → Bool) :
    (List.finRange (a ++ b).length).countP (fun i => q (decide (i.val < a.length)) ((a ++ b).get i))
      = a.countP (q true) + b.countP (q false) := by
  have := congrArg (List.countP (fun p : Bool × β => q p.1 p.2)) (tagged a b)
  simpa [List.countP_map, List.countP_append, Function.comp_def] using this

/-- Scan over the sorted values: every self value counts the smaller other values, plus the surplus `e`. -/
theorem concordant_eq (self other : List (XR K)) (e : ℤ) :
    concordant self other (other.length + e)
      = (self.map (fun s => ((other.countP (fun o => decide (o < s)) : ℕ) : ℤ) + e)).sum := by
  unfold concordant
  set L := (Np.argsortStable (self ++ other)).reverse with hL
  have hperm : L.Perm (List.finRange (self ++ other).length) :=
    (List.reverse_perm _).trans (Np.argsortStable_perm _)
  have hcount : ∀ q : Bool → XR K → Bool,
      L.countP (fun i => q (decide (i.val < self.length)) ((self ++ other).get i))
        = self.countP (q true) + other.countP (q false) := by
    intro q; rw [hperm.countP_eq]; exact countP_tagged self other q
  have key := scan_eq (fun i : Fin (self ++ other).length => decide (i.val < self.length))
    (self ++ other).get L 0 e (by
    rw [hL, List.pairwise_reverse]
    refine (Np.argsortStable_pairwise _).imp ?_
    intro a b hab
    constructor
    · intro hb ha
      simp only [decide_eq_true_eq, decide_eq_false_iff_not, not_lt] at hb ha
      rcases hab with h | ⟨-, h⟩
      · exact h
      · exact absurd (Fin.le_def.1 h) (by omega)
    · intro hb ha hc
      rcases hab with h | ⟨h, -⟩
      · exact absurd (h.trans hc) (lt_irrefl _)
      · exact absurd hc (by rw [h]; exact lt_irrefl _))
  have h1 := hcount (fun t _ => !t)
  simp only [Bool.not_true, Bool.not_false, List.countP_false, List.countP_true, Function.const, zero_add] at h1
  rw [h1] at key
  simp only [decide_eq_true_eq] at key
  rw [key, zero_add]
  have h2 : ∀ s, L.countP (fun o => !decide (o.val < self.length) &&
      decide ((self ++ other).get o < s)) = other.countP (fun o => decide (o < s)) := by
    intro s
    have := hcount (fun t o => !t && decide (o < s))
    simpa using this
  simp only [h2]
  have h3 := ((hperm.filter (fun i => decide (i.val < self.length))).map (fun s =>
    ((other.countP (fun o => decide (o < (self ++ other).get s)) : ℕ) : ℤ) + e)).sum_eq
  rw [h3]
  have h4 := congrArg (fun l => ((l.filter (fun p : Bool × XR K => p.1)).map (fun p =>
    ((other.countP (fun o => decide (o < p.2)) : ℕ) : ℤ) + e)).sum) (tagged self other)
  simpa [List.filter_map, List.filter_append, Function.comp_def] using h4

/-! ### Equal values -/

theorem mem_equi_of_count {α : Type} [LinearOrder α] (ok : α → Prop) [DecidablePred ok] (l : List α)
    (hs : l.Pairwise (· ≤ ·)) (d : α) (hd : ok d) (hc : 2 ≤ l.count d) :
    d ∈ ((l.tail.zip l).filter (fun p => decide (ok p.1 ∧ p.1 = p.2))).map Prod.fst := by
  induction l with
  | nil => simp at hc
  | cons a t ih =>
    cases t with
    | nil =>
      have : List.count d [a] ≤ 1 := by simpa using List.count_le_length (a := d) (l := [a])
      omega
    | cons b t =>
      rw [List.pairwise_cons] at hs
      by_cases hab : a = d ∧ b = d
      · obtain ⟨rfl, rfl⟩ := hab
        simp [hd]
      · have hc' : 2 ≤ (b :: t).count d := by
          by_cases ha : a = d
          · subst ha
            rw [List.count_cons_self] at hc
            have hmem : a ∈ b :: t := List.count_pos_iff.1 (by omega)
            have hba : b ≤ a := by
              rcases List.mem_cons.1 hmem with h | h
              · exact h ▸ le_rfl
              · exact (List.pairwise_cons.1 hs.2).1 a h
            exact absurd ⟨rfl, le_antisymm hba (hs.1 b (by simp))⟩ hab
          · rwa [List.count_cons_of_ne ha] at hc
        have := ih hs.2 hc'
        simp only [List.tail_cons, List.zip_cons_cons, List.mem_map, List.mem_filter] at this ⊢
        obtain ⟨p, ⟨hp1, hp2⟩, hp3⟩ := this
        exact ⟨p, ⟨List.mem_cons_of_mem _ hp1, hp2⟩, hp3⟩

theorem foldl_add {β : Type} (f : β → ℤ) (l : List β) (c : ℤ) :
    l.foldl (fun acc d => acc + f d) c = c + (l.map f).sum := by
  induction l generalizing c with
  | nil => simp
  | cons a t ih => rw [List.foldl_cons, ih]; simp [add_assoc]

theorem equidistant_eq (self other : List (XR K)) :
    equidistant self other
      = (self.map (fun s => ((other.countP (fun o => decide (XR.feq o s)) : ℕ) : ℤ))).sum := by
  set U := Np.unique ((((Np.sort (self ++ other)).tail.zip (Np.sort (self ++ other))).filter
    (fun p => decide (XR.feq p.1 p.2))).map Prod.fst) with hU
  have hstep : ∀ d : XR K,
      (((List.finRange (self ++ other).length).filter
          (fun i => decide (XR.feq ((self ++ other).get i) d))).countP
            (fun i => decide (i.val < self.length)) = self.countP (fun s => decide (XR.feq s d))) ∧
      (((List.finRange (self ++ other).length).filter
          (fun i => decide (XR.feq ((self ++ other).get i) d))).length
        = self.countP (fun s => decide (XR.feq s d)) + other.countP (fun s => decide (XR.feq s d))) := by
    intro d
    constructor
    · rw [List.countP_filter]
      have := countP_tagged self other (fun t v => t && decide (XR.feq v d))
      simpa using this
    · rw [← List.countP_eq_length_filter]
      exact countP_tagged self other (fun _ v => decide (XR.feq v d))
  have h1 : equidistant self other = (U.map (fun d => ((self.countP (fun s => decide (XR.feq s d)) : ℕ) : ℤ)
      * ((other.countP (fun s => decide (XR.feq s d)) : ℕ) : ℤ))).sum := by
    unfold equidistant
    rw [foldl_add, zero_add]
    congr 1
    apply List.map_congr_left
    intro d _
    rw [(hstep d).1, (hstep d).2]
    push_cast
    ring
  have hUnd : U.Nodup := Np.nodup_unique _
  have hUnan : ∀ d ∈ U, d ≠ .nan := by
    intro d hd
    rw [hU, Np.mem_unique] at hd
    simp only [List.mem_map, List.mem_filter, decide_eq_true_eq] at hd
    obtain ⟨p, ⟨-, hp⟩, rfl⟩ := hd
    exact hp.1
  have hcs : ∀ (l : List (XR K)) (d : XR K), d ≠ .nan →
      l.countP (fun s => decide (XR.feq s d)) = l.count d := by
    intro l d hd
    rw [List.count]
    apply List.countP_congr
    intro x _
    simp only [decide_eq_true_eq, beq_iff_eq]
    constructor
    · exact fun h => h.2
    · rintro rfl; exact ⟨hd, rfl⟩
  rw [h1, Finset.sum_list_map_count self]
  rw [← List.sum_toFinset _ hUnd]
  have hl : ∑ d ∈ U.toFinset, ((self.countP (fun s => decide (XR.feq s d)) : ℕ) : ℤ)
      * ((other.countP (fun s => decide (XR.feq s d)) : ℕ) : ℤ)
      = ∑ d ∈ U.toFinset ∪ self.toFinset, ((self.count d : ℕ) : ℤ)
        * ((other.countP (fun s => decide (XR.feq s d)) : ℕ) : ℤ) := by
    rw [← Finset.sum_subset (Finset.subset_union_left (s₂ := self.toFinset))]
    · apply Finset.sum_congr rfl
      intro d hd
      rw [hcs self d (hUnan d (List.mem_toFinset.1 hd))]
    · intro d hd hnd
      rw [mul_eq_zero]
      right
      rw [Nat.cast_eq_zero, List.countP_eq_zero]
      intro o ho hc
      simp only [decide_eq_true_eq] at hc
      obtain ⟨hne, rfl⟩ := hc
      apply hnd
      rw [List.mem_toFinset, hU, Np.mem_unique]
      refine mem_equi_of_count (fun x : XR K => x ≠ .nan) _ (Np.sort_pairwise _) o hne ?_
      rw [(Np.sort_perm _).count_eq, List.count_append]
      have h1 : 0 < other.count o := List.count_pos_iff.2 ho
      have h2 : 0 < self.count o := by
        rcases Finset.mem_union.1 hd with h | h
        · exact absurd h hnd
        · exact List.count_pos_iff.2 (List.mem_toFinset.1 h)
      omega
  rw [hl, ← Finset.sum_subset (Finset.subset_union_right (s₁ := U.toFinset))]
  · simp
  · intro d _ hnd
    rw [List.mem_toFinset, ← List.count_eq_zero] at hnd
    simp [hnd]

/-! ### Sums over classes and pairs -/

variable {L : Type} [LinearOrder L] {n : ℕ}

theorem mem_cells (p : Fin n × Fin n) : p ∈ cells n := by
  exact List.mem_product.2 ⟨List.mem_finRange _, List.mem_finRange _⟩

theorem nodup_cells : (cells n).Nodup := (List.nodup_finRange n).product (List.nodup_finRange n)

theorem nodup_selfPairs (cls : Fin n → L) (c : L) : (selfPairs cls c).Nodup := nodup_cells.filter _

theorem nodup_otherPairs (cls : Fin n → L) : (otherPairs cls).Nodup := nodup_cells.filter _

theorem mem_selfPairs (cls : Fin n → L) (c : L) (p : Fin n × Fin n) :
    p ∈ selfPairs cls c ↔ p.1 < p.2 ∧ cls p.1 = c ∧ cls p.2 = c := by
  simp [selfPairs, List.mem_filter, mem_cells]

theorem mem_otherPairs (cls : Fin n → L) (p : Fin n × Fin n) :
    p ∈ otherPairs cls ↔ p.1 < p.2 ∧ cls p.1 ≠ cls p.2 := by
  simp [otherPairs, List.mem_filter, mem_cells]

theorem dSelf_perm (D : Fin n → Fin n → XR K) (cls : Fin n → L) (c : L) :
    (dSelf D cls c).Perm ((selfPairs cls c).map (fun p => D p.2 p.1)) := by
  have h : ((cells n).filter (fun p => decide (p.2 < p.1) && (decide (cls p.2 = c) && decide (cls p.1 = c)))).Perm
      ((selfPairs cls c).map Prod.swap) := by
    rw [List.perm_ext_iff_of_nodup (nodup_cells.filter _)
      ((nodup_selfPairs cls c).map Prod.swap_injective)]
    intro p
    simp only [List.mem_filter, mem_cells, true_and, List.mem_map, mem_selfPairs, Bool.and_eq_true,
      decide_eq_true_eq]
    constructor
    · intro hp; exact ⟨p.swap, hp, by simp⟩
    · rintro ⟨q, hq, rfl⟩; exact hq
  have := h.map (fun p => D p.1 p.2)
  rw [List.map_map] at this
  exact this

/-- The number of same-class pairs and different-class pairs related by `R`, class by class. -/
theorem sum_classes (cls : Fin n → L) (R : Fin n × Fin n → Fin n × Fin n → Prop) [∀ p q, Decidable (R p q)] :
    ((Np.unique (List.ofFn cls)).map (fun c => ((selfPairs cls c).map
      (fun p => (((otherPairs cls).countP (fun q => decide (R p q)) : ℕ) : ℤ))).sum)).sum
      = ((Spec.quads cls R).card : ℤ) := by
  have hB : ∀ p, (otherPairs cls).countP (fun q => decide (R p q))
      = (Finset.univ.filter (fun q : Fin n × Fin n => q.1 < q.2 ∧ cls q.1 ≠ cls q.2 ∧ R p q)).card := by
    intro p
    rw [List.countP_eq_length_filter, ← List.toFinset_card_of_nodup ((nodup_otherPairs cls).filter _)]
    congr 1
    ext q
    simp [mem_otherPairs, and_assoc]
  have hA : ∀ c, ((selfPairs cls c).map
      (fun p => (((otherPairs cls).countP (fun q => decide (R p q)) : ℕ) : ℤ))).sum
      = ∑ p ∈ (Finset.univ.filter (fun p : Fin n × Fin n => p.1 < p.2 ∧ cls p.1 = cls p.2)) with cls p.1 = c,
        (((Finset.univ.filter (fun q : Fin n × Fin n => q.1 < q.2 ∧ cls q.1 ≠ cls q.2 ∧ R p q)).card : ℕ) : ℤ) := by
    intro c
    rw [← List.sum_toFinset _ (nodup_selfPairs cls c)]
    apply Finset.sum_congr
    · ext p
      simp only [List.mem_toFinset, mem_selfPairs, Finset.mem_filter, Finset.mem_univ, true_and]
      constructor
      · rintro ⟨a, b, d⟩; exact ⟨⟨a, b.trans d.symm⟩, b⟩
      · rintro ⟨⟨a, b⟩, d⟩; exact ⟨a, d, b ▸ d⟩
    · intro p _; rw [hB]
  simp only [hA]
  rw [← List.sum_toFinset _ (Np.nodup_unique _)]
  rw [Finset.sum_fiberwise_of_maps_to]
  · rw [Spec.quads, ← Nat.cast_sum]
    congr 1
    rw [← Finset.card_sigma]
    refine Finset.card_bij (fun x _ => (x.1, x.2)) ?_ ?_ ?_
    · intro x hx
      simp only [Finset.mem_sigma, Finset.mem_filter, Finset.mem_univ, true_and] at hx ⊢
      tauto
    · rintro ⟨a, b⟩ _ ⟨c, d⟩ _ h
      simp only [Prod.mk.injEq] at h
      obtain ⟨rfl, rfl⟩ := h
      rfl
    · intro x hx
      simp only [Finset.mem_filter, Finset.mem_univ, true_and] at hx
      refine ⟨⟨x.1, x.2⟩, ?_, rfl⟩
      simp only [Finset.mem_sigma, Finset.mem_filter, Finset.mem_univ, true_and]
      tauto
  · intro p _
    rw [List.mem_toFinset, Np.mem_unique]
    exact List.mem_ofFn.2 ⟨p.1, rfl⟩

/-- Accumulation over the classes; classes with one member contribute nothing. -/
theorem foldl_classes (cnt : L → ℕ) (A B : L → ℤ) (l : List L)
    (h0 : ∀ c ∈ l, ¬ cnt c > 1 → A c = 0 ∧ B c = 0) (Q : ℤ × ℤ) :
    l.foldl (fun (Q : ℤ × ℤ) (c : L) => if cnt c > 1 then (Q.1 + A c, Q.2 + B c) else Q) Q
      = (Q.1 + (l.map A).sum, Q.2 + (l.map B).sum) := by
  induction l generalizing Q with
  | nil => simp
  | cons a t ih =>
    rw [List.foldl_cons, ih (fun c hc => h0 c (List.mem_cons_of_mem _ hc))]
    by_cases h : cnt a > 1
    · simp [h, add_assoc]
    · have := h0 a (by simp) h
      simp [h, this.1, this.2]

theorem selfPairs_nil (cls : Fin n → L) (c : L)
    (h : ¬ (List.finRange n).countP (fun i => decide (cls i = c)) > 1) : selfPairs cls c = [] := by
  rw [List.eq_nil_iff_forall_not_mem]
  intro p hp
  rw [mem_selfPairs] at hp
  apply h
  rw [List.countP_eq_length_filter]
  have hnd := (List.nodup_finRange n).filter (fun i => decide (cls i = c))
  rw [← List.toFinset_card_of_nodup hnd]
  rw [gt_iff_lt, Finset.one_lt_card]
  exact ⟨p.1, by simp [hp.2.1], p.2, by simp [hp.2.2], hp.1.ne⟩

theorem sum_map_sub (l : List L) (f g : L → ℤ) :
    (l.map (fun c => f c - g c)).sum = (l.map f).sum - (l.map g).sum := by
  induction l with
  | nil => simp
  | cons a t ih => simp only [List.map_cons, List.sum_cons, ih]; ring

/-- Closed form of the counts of the dense variant. -/
theorem denseCounts_eq (D : Fin n → Fin n → XR K) (cls : Fin n → L) :
    denseCounts D cls
      = (((Spec.quads cls (fun p q => D q.1 q.2 < D p.2 p.1)).card : ℤ),
        ((Spec.quads cls (fun _ _ => True)).card : ℤ)
          - ((Spec.quads cls (fun p q => D q.1 q.2 < D p.2 p.1)).card : ℤ)
          - ((Spec.quads cls (fun p q => XR.feq (D q.1 q.2) (D p.2 p.1))).card : ℤ)) := by
  have hother : dOther D cls = (otherPairs cls).map (fun p => D p.1 p.2) := rfl
  have hsum : ∀ (c : L) (R : XR K → XR K → Prop) [∀ a b, Decidable (R a b)],
      ((dSelf D cls c).map (fun s => (((dOther D cls).countP (fun o => decide (R o s)) : ℕ) : ℤ))).sum
      = ((selfPairs cls c).map (fun p => (((otherPairs cls).countP
          (fun q => decide (R (D q.1 q.2) (D p.2 p.1))) : ℕ) : ℤ))).sum := by
    intro c R _
    rw [((dSelf_perm D cls c).map _).sum_eq, List.map_map, hother]
    congr 1
    apply List.map_congr_left
    intro p _
    simp [List.countP_map, Function.comp_def]
  have hcc : ∀ c, concordant (dSelf D cls c) (dOther D cls) (dOther D cls).length
      = ((selfPairs cls c).map (fun p => (((otherPairs cls).countP
          (fun q => decide (D q.1 q.2 < D p.2 p.1)) : ℕ) : ℤ))).sum := by
    intro c
    have := concordant_eq (dSelf D cls c) (dOther D cls) 0
    simp only [add_zero] at this
    rw [this]
    exact hsum c (fun a b => a < b)
  have hne : ∀ c, equidistant (dSelf D cls c) (dOther D cls)
      = ((selfPairs cls c).map (fun p => (((otherPairs cls).countP
          (fun q => decide (XR.feq (D q.1 q.2) (D p.2 p.1))) : ℕ) : ℤ))).sum := by
    intro c
    rw [equidistant_eq]
    exact hsum c (fun a b => XR.feq a b)
  have htot : ∀ c, ((dSelf D cls c).length : ℤ) * (dOther D cls).length
      = ((selfPairs cls c).map (fun p => (((otherPairs cls).countP
          (fun q => decide True) : ℕ) : ℤ))).sum := by
    intro c
    rw [← hsum c (fun _ _ => True)]
    simp
  unfold denseCounts
  simp only [hcc, hne, htot]
  rw [foldl_classes]
  · simp only [zero_add]
    rw [sum_classes cls (fun p q => D q.1 q.2 < D p.2 p.1)]
    congr 1
    rw [← sum_classes cls (fun p q => D q.1 q.2 < D p.2 p.1), ← sum_classes cls (fun _ _ => True),
      ← sum_classes cls (fun p q => XR.feq (D q.1 q.2) (D p.2 p.1))]
    rw [sum_map_sub, sum_map_sub]
  · intro c _ hc
    rw [selfPairs_nil cls c hc]
    simp

/-! ### Naive counts -/

theorem foldl_add2 {β : Type} (f g : β → ℤ) (l : List β) (Q : ℤ × ℤ) :
    l.foldl (fun (Q : ℤ × ℤ) x => (Q.1 + f x, Q.2 + g x)) Q = (Q.1 + (l.map f).sum, Q.2 + (l.map g).sum) := by
  induction l generalizing Q with
  | nil => simp
  | cons a t ih => rw [List.foldl_cons, ih]; simp [add_assoc]

theorem sum_drop_finRange (f : Fin n → ℤ) (i : Fin n) :
    (((List.finRange n).drop (i.val + 1)).map f).sum = ∑ j ∈ Finset.univ.filter (fun j => i < j), f j := by
  have hnd : ((List.finRange n).drop (i.val + 1)).Nodup := (List.nodup_finRange n).sublist (List.drop_sublist _ _)
  rw [← List.sum_toFinset _ hnd]
  apply Finset.sum_congr _ (fun _ _ => rfl)
  ext j
  simp only [List.mem_toFinset, Finset.mem_filter, Finset.mem_univ, true_and]
  rw [List.mem_iff_getElem]
  constructor
  · rintro ⟨k, hk, rfl⟩
    simp [Fin.lt_def]; omega
  · intro h
    refine ⟨j.val - (i.val + 1), ?_, ?_⟩
    · simp; omega
    · simp only [List.getElem_drop, List.getElem_finRange, Fin.cast_mk, Fin.ext_iff]
      have := Fin.lt_def.1 h; omega

theorem card_quads_sum (cls : Fin n → L) (R : Fin n × Fin n → Fin n × Fin n → Prop) [∀ p q, Decidable (R p q)] :
    ((Spec.quads cls R).card : ℤ) = ∑ i : Fin n, ∑ j ∈ Finset.univ.filter (fun j => i < j),
      if cls i = cls j then ∑ k : Fin n, ∑ l ∈ Finset.univ.filter (fun l => k < l),
        if cls l ≠ cls k ∧ R (i, j) (k, l) then 1 else 0 else 0 := by
  unfold Spec.quads
  rw [Finset.card_filter, Nat.cast_sum, Fintype.sum_prod_type, Fintype.sum_prod_type]
  refine Finset.sum_congr rfl (fun i _ => ?_)
  rw [Finset.sum_filter]
  refine Finset.sum_congr rfl (fun j _ => ?_)
  by_cases h1 : i < j <;> by_cases h2 : cls i = cls j <;> simp [h1, h2]
  rw [Finset.card_filter, Nat.cast_sum, Fintype.sum_prod_type]
  refine Finset.sum_congr rfl (fun k _ => ?_)
  rw [Finset.card_filter, Finset.sum_filter, Nat.cast_sum]
  refine Finset.sum_congr rfl (fun l _ => ?_)
  by_cases h3 : k < l <;> simp [h3, eq_comm (a := cls k)]

theorem naiveCounts_eq (D : Fin n → Fin n → XR K) (cls : Fin n → L) :
    naiveCounts D cls
      = (((Spec.quads cls (fun p q => XR.flt (D p.1 p.2) (D q.1 q.2))).card : ℤ),
        ((Spec.quads cls (fun p q => XR.flt (D q.1 q.2) (D p.1 p.2))).card : ℤ)) := by
  have hasym : ∀ a b : XR K, XR.flt a b → ¬ XR.flt b a := by
    intro a b; cases a <;> cases b <;> simp [XR.flt]; exact le_of_lt
  have h4 : ∀ i j k, (fun (Q : ℤ × ℤ) (l : Fin n) =>
      if cls l ≠ cls k then
        if XR.flt (D i j) (D k l) then (Q.1 + 1, Q.2)
        else if XR.flt (D k l) (D i j) then (Q.1, Q.2 + 1)
        else Q
      else Q) = (fun (Q : ℤ × ℤ) (l : Fin n) =>
        (Q.1 + (if cls l ≠ cls k ∧ XR.flt (D i j) (D k l) then 1 else 0),
         Q.2 + (if cls l ≠ cls k ∧ XR.flt (D k l) (D i j) then 1 else 0))) := by
    intro i j k
    funext Q l
    by_cases h1 : cls l = cls k
    · simp [h1]
    · by_cases h2 : XR.flt (D i j) (D k l)
      · simp [h1, h2, hasym _ _ h2]
      · by_cases h3 : XR.flt (D k l) (D i j) <;> simp [h1, h2, h3]
  have h2 : ∀ (A B : Fin n → Fin n → ℤ) (i : Fin n), (fun (Q : ℤ × ℤ) (j : Fin n) =>
      if cls i = cls j then (Q.1 + A i j, Q.2 + B i j) else Q)
      = (fun (Q : ℤ × ℤ) (j : Fin n) => (Q.1 + (if cls i = cls j then A i j else 0),
          Q.2 + (if cls i = cls j then B i j else 0))) := by
    intro A B i
    funext Q j
    by_cases h : cls i = cls j <;> simp [h]
  have hs : ∀ f : Fin n → ℤ, ((List.finRange n).map f).sum = ∑ i, f i := by
    intro f; rw [Fin.sum_univ_def]
  unfold naiveCounts
  simp only [h4, foldl_add2, sum_drop_finRange, hs]
  rw [card_quads_sum, card_quads_sum]
  have h2' := h2 (fun i j => ∑ k : Fin n, ∑ l ∈ Finset.univ.filter (fun l => k < l),
      if cls l ≠ cls k ∧ XR.flt (D i j) (D k l) then (1 : ℤ) else 0)
    (fun i j => ∑ k : Fin n, ∑ l ∈ Finset.univ.filter (fun l => k < l),
      if cls l ≠ cls k ∧ XR.flt (D k l) (D i j) then (1 : ℤ) else 0)
  simp only [h2', foldl_add2, sum_drop_finRange, hs, zero_add]

end GK
end HubToolbox
