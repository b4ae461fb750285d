import Verif.Relations.Separation
import Verif.GK.Props

/-!
# What a Goodman-Kruskal index of one means (C278)
-/

set_option autoImplicit false

namespace HubToolbox.GK

open HubToolbox.Spec

variable {K : Type} [Field K] [LinearOrder K] [IsStrictOrderedRing K] {n : ℕ} {L : Type} [LinearOrder L]

theorem gkGamma_one (c d : ℕ) : (gkGamma c d : K) = 1 ↔ d = 0 ∧ c ≠ 0 := by
  unfold gkGamma
  by_cases h : c + d = 0
  · rw [if_pos h]
    constructor
    · intro h1
      exact absurd h1 zero_ne_one
    · rintro ⟨-, h1⟩
      omega
  · rw [if_neg h]
    have hp : (0 : K) < c + d := by exact_mod_cast Nat.pos_of_ne_zero h
    rw [div_eq_one_iff_eq hp.ne']
    constructor
    · intro h1
      have h2 : (d : K) = 0 := by linarith
      have h3 : d = 0 := by exact_mod_cast h2
      exact ⟨h3, by omega⟩
    · rintro ⟨rfl, -⟩
      simp

theorem quads_empty (cls : Fin n → L) (r : K → K → Prop) [∀ a b, Decidable (r a b)] (x : Fin n → Fin n → K) (hsym : ∀ i j, x i j = x j i) :
    (quads cls (fun p q => r (x p.1 p.2) (x q.1 q.2))).card = 0 ↔ ∀ i j k l, i ≠ j → cls i = cls j → cls k ≠ cls l → ¬ r (x i j) (x k l) := by
  rw [Finset.card_eq_zero]
  unfold quads
  rw [Finset.filter_eq_empty_iff]
  constructor
  · intro h
    have step : ∀ i j k l, i < j → k < l → cls i = cls j → cls k ≠ cls l → ¬ r (x i j) (x k l) := fun i j k l h1 h2 h3 h4 h5 =>
      h (x := ((i, j), (k, l))) (Finset.mem_univ _) ⟨h1, h3, h2, h4, h5⟩
    intro i j k l hij hc hkl
    have hkl' : k ≠ l := fun e => hkl (by rw [e])
    rcases lt_or_gt_of_ne hij with h1 | h1 <;> rcases lt_or_gt_of_ne hkl' with h2 | h2
    · exact step i j k l h1 h2 hc hkl
    · rw [hsym k l]
      exact step i j l k h1 h2 hc hkl.symm
    · rw [hsym i j]
      exact step j i k l h1 h2 hc.symm hkl
    · rw [hsym i j, hsym k l]
      exact step j i l k h1 h2 hc.symm hkl.symm
  · rintro h ⟨p, q⟩ - ⟨h1, h2, h3, h4, h5⟩
    exact h p.1 p.2 q.1 q.2 h1.ne h2 h4 h5

/-- **C278**: the index is one if and only if no two objects of different classes are nearer to each other than any two objects of the same class,
and some are farther. -/
theorem C278 (x : Fin n → Fin n → K) (hsym : ∀ i j, x i j = x j i) (cls : Fin n → L) (metric : String) (hm : metric = "distance" ∨ metric = "similarity") :
    index (.mat false n n (fun i j => .fin (x i j))) (.vec n cls) metric = .ok (1 : K) ↔
      (∀ i j k l, i ≠ j → cls i = cls j → cls k ≠ cls l → asDistance metric x i j ≤ asDistance metric x k l) ∧
      ∃ i j k l, i ≠ j ∧ cls i = cls j ∧ cls k ≠ cls l ∧ asDistance metric x i j < asDistance metric x k l := by
  rw [(C14_index_is_definition (fun i j => .fin (x i j)) cls metric hm (fun i j => by rw [hsym]) (fun i j => by simp)).1, Except.ok.injEq]
  have e1 : quads cls (fun p q => XR.flt (XR.fin (x p.1 p.2)) (XR.fin (x q.1 q.2))) = quads cls (fun p q => x p.1 p.2 < x q.1 q.2) :=
    quads_congr cls _ _ fun p q _ _ _ _ => Iff.rfl
  have e2 : quads cls (fun p q => XR.flt (XR.fin (x q.1 q.2)) (XR.fin (x p.1 p.2))) = quads cls (fun p q => x q.1 q.2 < x p.1 p.2) :=
    quads_congr cls _ _ fun p q _ _ _ _ => Iff.rfl
  have q1 := quads_empty cls (fun a b => a < b) x hsym
  have q2 := quads_empty cls (fun a b => b < a) x hsym
  unfold gkIndex
  simp only [e1, e2]
  unfold asDistance
  rcases hm with rfl | rfl
  · simp only [if_true]
    rw [gkGamma_one, q2, Ne, q1]
    simp only [not_lt, not_forall, not_le, exists_prop]
  · simp only [show ("similarity" : String) ≠ "distance" by decide, if_false]
    rw [gkGamma_one, q1, Ne, q2]
    simp only [not_lt, not_forall, not_le, exists_prop, neg_le_neg_iff, neg_lt_neg_iff]

end HubToolbox.GK

namespace HubToolbox.Knn

open HubToolbox.Spec

variable {K : Type} [Field K] [LinearOrder K] [IsStrictOrderedRing K] {n : ℕ}

/-- **C278** (classification): if the index is one and no distance occurs both within a class and between classes, all objects of classes with more
than `k` members are classified correctly with `k` neighbours. -/
theorem C278_score (hn : 0 < n) (srt : ArgSort (XR K)) (o : ArgPart (XR K)) (rnd : Rnd) (x : Fin n → Fin n → K) (hsym : ∀ i j, x i j = x j i)
    (y : Fin n → ℤ) (metric : String) (hm : metric = "distance" ∨ metric = "similarity")
    (h : GK.index (.mat false n n (fun i j => .fin (x i j))) (.vec n y) metric = .ok (1 : K))
    (hne : ∀ i j k l, i ≠ j → y i = y j → y k ≠ y l → x i j ≠ x k l) (ks : List ℤ) (hk : ∀ k ∈ ks, 1 ≤ k ∧ ∀ i, k < (classOf y i).card) :
    ∃ r, score srt o rnd (.mat false n n (fun i j => .fin (x i j))) (.vec n y) (.list ks) metric none = .ok ⟨n, r⟩ ∧ r.perK.length = ks.length ∧
      ∀ q ∈ r.perK, q.acc = 1 ∧ ∀ i, q.corr i = 1 := by
  have hsep : Separated (asDistance metric x) y := fun i j b hj hyj hyb => by
    refine lt_of_le_of_ne (((GK.C278 x hsym y metric hm).1 h).1 i j i b hj.symm hyj.symm fun e => hyb e.symm) fun e => ?_
    refine hne i j i b hj.symm hyj.symm (fun e => hyb e.symm) ?_
    unfold asDistance at e
    split at e
    · exact e
    · exact neg_inj.1 e
  obtain ⟨r, h1, h2, h3⟩ := C270 hn srt o rnd (fun i j => .fin (x i j)) x (fun _ _ _ => rfl) y metric hm hsep ks hk
  exact ⟨r, h1, h2, fun q hq => ⟨(h3 q hq).1, (h3 q hq).2.1⟩⟩

/-- Two classes of two points on a line. -/
def exGK : Fin 4 → Fin 4 → ℚ := fun i j => |(![0, 1, 5, 7] : Fin 4 → ℚ) i - (![0, 1, 5, 7] : Fin 4 → ℚ) j|

/-- The hypotheses of `C278_score` hold for these distances. -/
example : (∀ i j, exGK i j = exGK j i) ∧ GK.index (.mat false 4 4 (fun i j => .fin (exGK i j))) (.vec 4 (![0, 0, 1, 1] : Fin 4 → ℤ)) "distance" = .ok (1 : ℚ) ∧
    (∀ i j k l : Fin 4, i ≠ j → (![0, 0, 1, 1] : Fin 4 → ℤ) i = ![0, 0, 1, 1] j → (![0, 0, 1, 1] : Fin 4 → ℤ) k ≠ ![0, 0, 1, 1] l → exGK i j ≠ exGK k l) ∧
    ∀ i, 1 < (classOf (![0, 0, 1, 1] : Fin 4 → ℤ) i).card := by
  have hs : ∀ i j, exGK i j = exGK j i := fun i j => abs_sub_comm _ _
  refine ⟨hs, (GK.C278 exGK hs _ "distance" (Or.inl rfl)).2 ?_, by decide +kernel, by decide⟩
  unfold asDistance
  simp only [if_true]
  exact ⟨by decide +kernel, 0, 1, 0, 2, by decide +kernel⟩

end HubToolbox.Knn
