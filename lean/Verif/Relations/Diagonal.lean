import Verif.Hubness.Model
import Verif.Knn.Model
import Verif.GK.Model

/-!
# The diagonal of a distance matrix (C293)

The distance of an object to itself is not used by any evaluation. DisSim Local puts `-inf` there, other methods zeros.
-/

set_option autoImplicit false

namespace HubToolbox.Spec

/-- Two square matrices with the same entries, except for their diagonals. -/
def SameOffDiagonal {α : Type} {n : ℕ} (D D' : Fin n → Fin n → α) : Prop := ∀ i j, i ≠ j → D i j = D' i j

end HubToolbox.Spec

namespace HubToolbox.Relations

open HubToolbox

section
variable {K : Type} {n : ℕ} {D D' : Fin n → Fin n → XR K} (h : Spec.SameOffDiagonal D D')
include h

theorem rowValues_offdiag [DecidableEq K] [Zero K] (metric : String) (v : XR K) (i : Fin n) :
    Hubness.rowValues metric v D i = Hubness.rowValues metric v D' i := by
  unfold Hubness.rowValues
  simp only [if_true]
  congr 1
  funext j
  split_ifs with e
  · rfl
  · exact h i j (fun e' => e (e' ▸ rfl))

theorem fillDiagonal_offdiag (v : XR K) : Np.fillDiagonal D v = Np.fillDiagonal D' v := by
  funext i j
  unfold Np.fillDiagonal
  split_ifs with e
  · rfl
  · exact h i j (fun e' => e (e' ▸ rfl))

theorem prepared_offdiag [DecidableEq K] [Zero K] (sparse : Bool) (metric : String) (v : XR K) (i : Fin n) :
    Hubness.rowValues metric v (Hubness.prepare sparse v D) i = Hubness.rowValues metric v (Hubness.prepare sparse v D') i := by
  unfold Hubness.prepare
  cases sparse with
  | true => exact rowValues_offdiag h metric v i
  | false => simp only [Bool.false_eq_true, if_false, if_true, fillDiagonal_offdiag h]

theorem hubnessMat_offdiag [LinearOrder K] [Zero K] (o : ArgPart (XR K)) (rnd : Hubness.Rnd) (sched : Hubness.Schedule) (sparse : Bool) (k : ℤ)
    (metric : String) (nJobs : ℤ) (seed shuffle : Bool) :
    Hubness.hubnessMat o rnd sched sparse D k metric nJobs seed shuffle = Hubness.hubnessMat o rnd sched sparse D' k metric nJobs seed shuffle := by
  unfold Hubness.hubnessMat Hubness.serial Hubness.parallel
  simp only [prepared_offdiag h]

/-- **C293**, `hubness`: neighbour lists, occurrences and skewness do not depend on the diagonal, which may hold any float. -/
theorem C293_hubness [LinearOrder K] [Zero K] (o : ArgPart (XR K)) (rnd : Hubness.Rnd) (sched : Hubness.Schedule) (sparse : Bool) (k : ℤ)
    (metric : String) (nJobs : ℤ) (seed shuffle : Bool) :
    Hubness.hubness o rnd sched (.mat sparse n n D) k metric nJobs seed shuffle =
      Hubness.hubness o rnd sched (.mat sparse n n D') k metric nJobs seed shuffle := by
  unfold Hubness.hubness
  simp only [PyMat.check2D, Except.bind, bind, hubnessMat_offdiag h]

theorem update_offdiag (v : XR K) (i : Fin n) : Function.update (D i) i v = Function.update (D' i) i v := by
  funext j
  rcases eq_or_ne j i with rfl | e
  · simp
  · rw [Function.update_of_ne e, Function.update_of_ne e, h i j e.symm]

theorem scoreDense_offdiag [Field K] [LinearOrder K] (srt : Knn.ArgSort (XR K)) (rnd : Knn.Rnd) (metric : String) (ks : List ℤ) (target : Fin n → ℤ)
    (test : Option (List (Fin n))) : Knn.scoreDense srt rnd metric ks D target test = Knn.scoreDense srt rnd metric ks D' target test := by
  unfold Knn.scoreDense
  simp only [update_offdiag h]

/-- **C293**, `score`: predictions, correctly classified objects, confusion matrices and accuracies of k-NN classification of a dense matrix do not depend on
the diagonal, with and without held-out objects. -/
theorem C293_score [Field K] [LinearOrder K] (srt : Knn.ArgSort (XR K)) (o : ArgPart (XR K)) (rnd : Knn.Rnd) (target : PyVec ℤ) (k : Knn.KArg)
    (metric : String) (test : Option (List ℕ)) :
    Knn.score srt o rnd (.mat false n n D) target k metric test = Knn.score srt o rnd (.mat false n n D') target k metric test := by
  cases target with
  | vec l v =>
    unfold Knn.score checkMatrixLabels
    by_cases hl : l = n
    · subst hl
      have h' : Spec.SameOffDiagonal (fun i j => D i (Fin.cast rfl j)) (fun i j => D' i (Fin.cast rfl j)) := h
      simp only [dif_pos, Except.bind, bind, Bool.false_eq_true, if_false, scoreDense_offdiag h']
    · simp only [dif_pos, dif_neg hl, Except.bind, bind]
  | _ => rfl

/-- **C293**, `predict`. -/
theorem C293_predict [LinearOrder K] (srt : Knn.ArgSort (XR K)) (rnd : Knn.Rnd) {c : ℕ} (target : Fin n → Fin c → ℤ) (k : Knn.KArg) (metric : String)
    (test : Option (List (Fin n))) : Knn.predict srt rnd D target k metric test = Knn.predict srt rnd D' target k metric test := by
  unfold Knn.predict
  have h' : ∀ (v : XR K) i, Function.update (fun j => D i (Fin.cast rfl j)) i v = Function.update (fun j => D' i (Fin.cast rfl j)) i v :=
    fun v i => update_offdiag h v i
  simp only [dif_pos, h']

/-- **C293**, `goodman_kruskal_index`. -/
theorem C293_goodman_kruskal [Field K] [LinearOrder K] {L : Type} [LinearOrder L] (sparse : Bool) (classes : PyVec L) (metric : String) :
    GK.index (.mat sparse n n D) classes metric = GK.index (.mat sparse n n D') classes metric := by
  have ho : ∀ cls : Fin n → L, GK.dOther D cls = GK.dOther D' cls := by
    intro cls
    unfold GK.dOther
    refine List.map_congr_left fun p hp => ?_
    obtain ⟨-, hp⟩ := List.mem_filter.1 hp
    simp only [Bool.and_eq_true, decide_eq_true_eq] at hp
    exact h _ _ hp.1.ne
  have hs : ∀ (cls : Fin n → L) c, GK.dSelf D cls c = GK.dSelf D' cls c := by
    intro cls c
    unfold GK.dSelf
    refine List.map_congr_left fun p hp => ?_
    obtain ⟨-, hp⟩ := List.mem_filter.1 hp
    simp only [Bool.and_eq_true, decide_eq_true_eq] at hp
    exact h _ _ hp.1.ne'
  have hd : ∀ cls : Fin n → L, GK.denseCounts D cls = GK.denseCounts D' cls := by
    intro cls
    unfold GK.denseCounts
    simp only [ho, hs]
  cases classes with
  | vec l v =>
    unfold GK.index checkMatrixLabels
    by_cases hl : l = n
    · subst hl
      have hd' : ∀ cls : Fin l → L, GK.denseCounts (fun i j => D i (Fin.cast rfl j)) cls = GK.denseCounts (fun i j => D' i (Fin.cast rfl j)) cls := hd
      simp only [dif_pos, Except.bind, bind, hd']
    · simp only [dif_pos, dif_neg hl, Except.bind, bind]
  | _ => rfl

end

/-- Non-vacuity: different values, also `nan`, on the diagonal. -/
example : Spec.SameOffDiagonal (fun i j => if i = j then XR.nan else XR.fin (i + j : ℚ) : Fin 3 → Fin 3 → XR ℚ)
    (fun i j => if i = j then XR.fin 0 else XR.fin (i + j : ℚ)) := by
  intro i j hij
  simp [hij]

end HubToolbox.Relations
