import Verif.Cent.Model
import Verif.Cent.Spec
import Verif.SNN.Lemmas
import Mathlib.Tactic.Ring
import Mathlib.Tactic.FieldSimp
import Mathlib.Tactic.Linarith

/-!
# Lemmas about the model of `centering.py`
-/

set_option autoImplicit false

namespace HubToolbox.Cent

open HubToolbox

section
variable {K : Type} [Field K] [LinearOrder K]

theorem sum_fin {k : ℕ} (f : Fin k → K) : XR.sum (fun c => (.fin (f c) : XR K)) = .fin (∑ c, f c) := by
  unfold XR.sum
  have key : ∀ (l : List (Fin k)) (a : K),
      l.foldl (fun (acc : XR K) (c : Fin k) => XR.add acc (.fin (f c))) (.fin a) = .fin (a + (l.map f).sum) := by
    intro l
    induction l with
    | nil => intro a; simp
    | cons x l ih =>
      intro a
      rw [List.foldl_cons]
      refine Eq.trans (ih (a + f x)) ?_
      simp [add_assoc]
  rw [key, zero_add, ← List.ofFn_eq_map, List.sum_ofFn]

theorem sum_nan {k : ℕ} (f : Fin k → XR K) (c : Fin k) (h : f c = .nan) : XR.sum f = .nan := by
  unfold XR.sum
  have hnan : ∀ l : List (Fin k),
      l.foldl (fun (acc : XR K) (c : Fin k) => XR.add acc (f c)) .nan = .nan := by
    intro l
    induction l with
    | nil => rfl
    | cons x l ih =>
      rw [List.foldl_cons]
      have : XR.add (.nan : XR K) (f x) = .nan := by cases f x <;> rfl
      rw [this, ih]
  have key : ∀ (l : List (Fin k)) (a : XR K), c ∈ l →
      l.foldl (fun (acc : XR K) (c : Fin k) => XR.add acc (f c)) a = .nan := by
    intro l
    induction l with
    | nil => intro a hc; simp at hc
    | cons x l ih =>
      intro a hc
      rw [List.foldl_cons]
      rcases List.mem_cons.1 hc with rfl | hc
      · have : XR.add a (f c) = .nan := by rw [h]; cases a <;> rfl
        rw [this, hnan]
      · exact ih _ hc
  exact key _ _ (List.mem_finRange c)

theorem sub_fin (x y : K) : XR.sub (.fin x) (.fin y) = .fin (x - y) := by
  simp [XR.sub, XR.neg, XR.add, sub_eq_add_neg]

theorem sub_nan (a : XR K) : XR.sub a .nan = .nan := by cases a <;> rfl
theorem nan_sub (a : XR K) : XR.sub .nan a = .nan := by cases a <;> rfl

theorem mul_fin (x y : K) : XR.mul (.fin x) (.fin y) = .fin (x * y) := rfl

theorem div_fin (x y : K) (h : y ≠ 0) : XR.div (.fin x) (.fin y) = .fin (x / y) := by simp [XR.div, h]

theorem sum_get {n : ℕ} (l : List (Fin n)) (hl : l.Nodup) (g : Fin n → K) :
    ∑ c : Fin l.length, g (l.get c) = ∑ i ∈ l.toFinset, g i := by
  rw [List.sum_toFinset g hl, ← List.sum_ofFn]
  congr 1
  conv_rhs => rw [← List.ofFn_get (l := l), List.map_ofFn]
  rfl

variable [IsStrictOrderedRing K]

theorem rowsMean_eq {n m : ℕ} (X : Fin n → Fin m → K) (l : List (Fin n)) (hl : l.Nodup) (hne : l ≠ []) (f : Fin m) :
    rowsMean X l f = .fin (Spec.centroid l.toFinset X f) := by
  have hlen : ((l.length : ℕ) : K) ≠ 0 := by
    rw [Nat.cast_ne_zero]
    exact fun h => hne (List.length_eq_zero_iff.1 h)
  unfold rowsMean XR.mean
  rw [sum_fin, div_fin _ _ hlen, sum_get l hl (fun i => X i f)]
  unfold Spec.centroid
  rw [List.toFinset_card_of_nodup hl]

omit [IsStrictOrderedRing K] in
theorem rowsMean_nil {n m : ℕ} (X : Fin n → Fin m → K) (f : Fin m) : rowsMean X [] f = .nan := by
  unfold rowsMean XR.mean
  rw [sum_fin]
  simp [XR.div, XR.infMul]

omit [IsStrictOrderedRing K] in
theorem dot_fin {n m l : ℕ} (A : Fin n → Fin m → K) (B : Fin m → Fin l → K) :
    dot (fun i j => (.fin (A i j) : XR K)) (fun i j => .fin (B i j)) = fun i j => .fin (∑ f, A i f * B f j) := by
  funext i j
  unfold dot
  simp only [mul_fin]
  exact sum_fin _

/-- The entries of `H`. -/
theorem centeringMatrix_eq (n : ℕ) : centeringMatrix (K := K) n =
    fun i j => .fin ((if i = j then 1 else 0) - 1 / (n : K)) := by
  funext i j
  have hn : (n : K) ≠ 0 := by
    rw [Nat.cast_ne_zero]
    have := i.isLt
    omega
  unfold centeringMatrix
  rw [div_fin _ _ hn, sub_fin]

omit [LinearOrder K] [IsStrictOrderedRing K] in
theorem sum_H_left {n : ℕ} (i : Fin n) (g : Fin n → K) :
    ∑ f, ((if i = f then 1 else 0) - 1 / (n : K)) * g f = g i - (∑ f, g f) / n := by
  simp only [sub_mul, Finset.sum_sub_distrib, ite_mul, one_mul, zero_mul, Finset.sum_ite_eq, Finset.mem_univ, if_true]
  rw [← Finset.mul_sum, one_div, inv_mul_eq_div]

omit [LinearOrder K] [IsStrictOrderedRing K] in
theorem sum_H_right {n : ℕ} (j : Fin n) (g : Fin n → K) :
    ∑ f, g f * ((if f = j then 1 else 0) - 1 / (n : K)) = g j - (∑ f, g f) / n := by
  simp only [mul_sub, Finset.sum_sub_distrib, mul_ite, mul_one, mul_zero, Finset.sum_ite_eq', Finset.mem_univ, if_true]
  rw [← Finset.sum_mul, one_div, div_eq_mul_inv]

/-- Metrics accepted for Gram matrices. -/
abbrev IsInner (metric : String) : Prop := metric ∈ ["similarity", "distance", "inner", "inner_product"]

theorem centering_inner {n : ℕ} (A : Fin n → Fin n → K) (metric : String) (hm : IsInner metric) :
    centering A metric none = .ok (fun i j => .fin (A i j - (∑ a, A a j) / n
      - (∑ b, (A i b - (∑ a, A a b) / n)) / n)) := by
  unfold centering
  rw [if_pos hm]
  simp only [Option.isSome_none, Bool.false_eq_true, if_false, dif_pos, Fin.cast_eq_self]
  rw [centeringMatrix_eq, dot_fin, dot_fin]
  congr 1
  funext i j
  simp only [sum_H_left]
  rw [sum_H_right]

theorem centering_vector {n m : ℕ} (X : Fin n → Fin m → K) (mask : Option (List ℤ))
    (ht : (Spec.training n mask).Nonempty) :
    centering X "vector" mask = .ok (fun i f => .fin (X i f - Spec.centroid (Spec.training n mask) X f)) := by
  unfold centering
  rw [if_neg (by decide), if_pos rfl]
  congr 1
  funext i f
  have hne : LS.trainInd n mask ≠ [] := by
    intro h
    rw [← LS.trainInd_toFinset, h] at ht
    simp at ht
  rw [rowsMean_eq X _ (LS.trainInd_nodup n mask) hne, sub_fin, LS.trainInd_toFinset]

theorem centering_vector_nan {n m : ℕ} (X : Fin n → Fin m → K) (mask : Option (List ℤ))
    (ht : ¬ (Spec.training n mask).Nonempty) :
    centering X "vector" mask = .ok (fun _ _ => .nan) := by
  unfold centering
  rw [if_neg (by decide), if_pos rfl]
  congr 1
  funext i f
  have hne : LS.trainInd n mask = [] := by
    rw [← List.toFinset_eq_empty_iff, LS.trainInd_toFinset]
    exact Finset.not_nonempty_iff_eq_empty.1 ht
  rw [hne, rowsMean_nil, sub_nan]

end

end HubToolbox.Cent
