import Verif.Hubness.Model
import Verif.Hubness.Spec

set_option autoImplicit false

namespace HubToolbox

/-- A loop filling row after row succeeds with all rows when each row computation succeeds. -/
theorem foldlM_update_ok {n : ℕ} {β : Type} (f : Fin n → Py β) (g : Fin n → β)
    (hf : ∀ i, f i = .ok (g i)) (init : Fin n → β) (l : List (Fin n)) :
    l.foldlM (fun (R : Fin n → β) (i : Fin n) => do
      let row ← f i
      pure (Function.update R i row)) init
      = (.ok (fun i => if i ∈ l then g i else init i) : Py (Fin n → β)) := by
  induction l generalizing init with
  | nil => simp; rfl
  | cons a l ih =>
    rw [List.foldlM_cons, hf a]
    change List.foldlM _ (Function.update init a (g a)) l = _
    rw [ih]
    congr 1
    funext i
    by_cases h : i ∈ l
    · simp [h]
    · by_cases h2 : i = a
      · subst h2; simp [h]
      · simp [h, h2]

theorem foldlM_update_finRange {n : ℕ} {β : Type} (f : Fin n → Py β) (g : Fin n → β)
    (hf : ∀ i, f i = .ok (g i)) (init : Fin n → β) :
    (List.finRange n).foldlM (fun (R : Fin n → β) (i : Fin n) => do
      let row ← f i
      pure (Function.update R i row)) init = (.ok g : Py (Fin n → β)) := by
  rw [foldlM_update_ok f g hf]
  simp

/-- The first failing row aborts the loop. -/
theorem foldlM_update_error {n : ℕ} {β : Type} (f : Fin n → Py β) (e : PyErr)
    (hf : ∀ i, f i = .error e) (init : Fin n → β) (l : List (Fin n)) (hl : l ≠ []) :
    l.foldlM (fun (R : Fin n → β) (i : Fin n) => do
      let row ← f i
      pure (Function.update R i row)) init = (.error e : Py (Fin n → β)) := by
  cases l with
  | nil => simp at hl
  | cons a l => rw [List.foldlM_cons, hf a]; rfl

namespace Hubness
open Spec

variable {K : Type}

theorem rowValues_prepare [LinearOrder K] [Zero K] {n m : ℕ} (sparse : Bool) (metric : String)
    (D : Fin n → Fin m → XR K) (i : Fin n) (j : Fin m) :
    rowValues metric (dSelf metric) (prepare sparse (dSelf metric) D) i j
      = effective metric D i j := by
  have hfar : (far metric : XR K) = dSelf metric := rfl
  have hns : (dSelf metric : XR K).isFinite = false := by
    unfold dSelf; split <;> rfl
  have hne : (dSelf metric : XR K) ≠ .fin 0 := by
    unfold dSelf; split <;> simp
  unfold rowValues prepare effective Np.replaceNonFinite Np.fillDiagonal
  rw [hfar]
  by_cases hnm : n = m
  · cases sparse <;> by_cases hij : i.val = j.val
    all_goals cases hD : (D i j).isFinite
    all_goals have hij' := hij
    all_goals rw [eq_comm] at hij'
    all_goals simp_all
  · cases sparse <;> by_cases hmet : metric = "distance" <;> by_cases h0 : D i j = .fin 0
    all_goals cases hD : (D i j).isFinite
    all_goals simp_all

/-- What a successful selection returns, as valid column indices. -/
theorem selectRow_isKnn [LinearOrder K] (o : ArgPart (XR K)) {m k : ℕ} (shuffle : Bool)
    (rp : Equiv.Perm (Fin m)) (metric : String) (hk : k ≤ m)
    (hmet : metric = "distance" ∨ metric = "similarity") (d : Fin m → XR K) :
    ∃ L : Fin k → Fin m, selectRow o shuffle rp (Np.arange (kthStart metric m k) k)
        (metric = "similarity") d = .ok (fun c => (L c).val) ∧
      IsKnn (closer metric) d k (List.ofFn L) := by
  -- reduce both branches to one permutation `σ` of the columns
  have key : ∃ σ : Equiv.Perm (Fin m), ∃ lo : ℕ, ∃ hlo : lo + k ≤ m,
      (lo = if metric = "distance" then 0 else m - k) ∧
      (∀ (c : Fin k) (p : Fin m), p.val ≤ lo + c → d (σ p) ≤ d (σ ⟨lo + c, by omega⟩)) ∧
      (∀ (c : Fin k) (p : Fin m), lo + c ≤ p.val → d (σ ⟨lo + c, by omega⟩) ≤ d (σ p)) ∧
      selectRow o shuffle rp (Np.arange (kthStart metric m k) k) (metric = "similarity") d
        = .ok (Np.stepSlice (metric = "similarity")
            (fun c => (σ ⟨lo + c.val, by omega⟩ : Fin m).val)) := by
    set lo : ℕ := if metric = "distance" then 0 else m - k with hlo
    have hlo' : lo + k ≤ m := by rw [hlo]; split <;> omega
    have hks : kthStart metric m k = (lo : ℤ) := by
      unfold kthStart; rw [hlo]; split <;> omega
    have hw := Np.wrapAll_arange (m := m) (k := k) (lo := lo) hlo'
    cases shuffle
    · refine ⟨o.run d (fun c : Fin k => ⟨lo + c, by omega⟩), lo, hlo', rfl, ?_, ?_, ?_⟩
      · intro c p hp; exact o.before d (fun c : Fin k => ⟨lo + c, by omega⟩) c p hp
      · intro c p hp; exact o.after d (fun c : Fin k => ⟨lo + c, by omega⟩) c p hp
      · simp only [selectRow, Np.argpartition, hks, hw]; rfl
    · refine ⟨(o.run (fun p => d (rp p)) (fun c : Fin k => ⟨lo + c, by omega⟩)).trans rp,
        lo, hlo', rfl, ?_, ?_, ?_⟩
      · intro c p hp
        exact o.before (fun p => d (rp p)) (fun c : Fin k => ⟨lo + c, by omega⟩) c p hp
      · intro c p hp
        exact o.after (fun p => d (rp p)) (fun c : Fin k => ⟨lo + c, by omega⟩) c p hp
      · simp only [selectRow, Np.argpartition, hks, hw]; rfl
  obtain ⟨σ, lo, hlo', hlo, hbef, haft, hsel⟩ := key
  rcases hmet with hmet | hmet
  · -- distance: positions 0 … k-1 in order
    subst hmet
    simp only [if_true] at hlo
    subst hlo
    refine ⟨fun c => σ ⟨c.val, by omega⟩, ?_, ?_, ?_, ?_, ?_⟩
    · rw [hsel]; congr 1; funext c; simp [Np.stepSlice]
    · simp
    · rw [List.nodup_ofFn]
      intro a b h
      have := σ.injective h
      simpa [Fin.ext_iff] using this
    · rw [List.pairwise_ofFn]
      intro a b hab
      simp only [closer, if_true]
      have := haft a ⟨b.val, by omega⟩ (by simp; omega)
      simpa using this
    · intro a ha b hb
      obtain ⟨c, rfl⟩ := (List.mem_ofFn' _ _).1 ha
      simp only [closer, if_true]
      have hp : 0 + c.val ≤ (σ.symm b).val := by
        by_contra hlt
        apply hb
        refine (List.mem_ofFn' _ _).2 ⟨⟨(σ.symm b).val, by omega⟩, ?_⟩
        simp
      have := haft c (σ.symm b) hp
      simpa using this
  · -- similarity: positions m-1, m-2, …, m-k
    subst hmet
    simp only [show ("similarity" = "distance") = False by decide, if_false] at hlo
    refine ⟨fun c => σ ⟨lo + c.rev.val, by omega⟩, ?_, ?_, ?_, ?_, ?_⟩
    · rw [hsel]; congr 1
    · simp
    · rw [List.nodup_ofFn]
      intro a b h
      have := σ.injective h
      simp only [Fin.mk.injEq, Fin.val_rev] at this
      ext; omega
    · rw [List.pairwise_ofFn]
      intro a b hab
      simp only [closer, show ("similarity" = "distance") = False by decide, if_false]
      exact hbef a.rev ⟨lo + b.rev.val, by omega⟩ (by simp only [Fin.val_rev]; omega)
    · intro a ha b hb
      obtain ⟨c, rfl⟩ := (List.mem_ofFn' _ _).1 ha
      simp only [closer, show ("similarity" = "distance") = False by decide, if_false]
      have hp : (σ.symm b).val ≤ lo + c.rev.val := by
        by_contra hlt
        apply hb
        have hb2 := (σ.symm b).isLt
        refine (List.mem_ofFn' _ _).2 ⟨⟨k - 1 - ((σ.symm b).val - lo), by omega⟩, ?_⟩
        rw [← σ.eq_symm_apply]
        ext
        simp only [Fin.val_rev]
        simp only [Fin.val_rev] at hlt
        omega
      have := hbef c.rev (σ.symm b) hp
      simpa using this

theorem exec_schedule (sched : Schedule) {n k : ℕ} (rows : Fin n → Fin k → ℕ) (i : Fin n)
    (c : Fin k) :
    Sched.exec (fun _ : Fin n × Fin k => 0)
      ((sched.cells n k).map (fun a => (a, rows a.1 a.2))) (i, c) = rows i c := by
  have hnd : (sched.cells n k).Nodup :=
    (sched.perm n k).nodup_iff.2 ((List.nodup_finRange n).product (List.nodup_finRange k))
  apply Sched.exec_of_mem
  · simpa [List.map_map, Function.comp_def] using hnd
  · refine List.mem_map.2 ⟨(i, c), ?_, rfl⟩
    rw [(sched.perm n k).mem_iff]
    simp

/-- The condition under which the serial function asks for the same partition positions as the parallel
one. -/
theorem kthStart_eq {metric : String} {n m k : ℕ} (h : metric = "distance" ∨ n = m) :
    kthStart metric n k = kthStart metric m k := by
  unfold kthStart
  rcases h with h | h <;> simp [h]

theorem checkValidMetric_ok {metric : String} (h : metric = "distance" ∨ metric = "similarity") :
    checkValidMetric metric = .ok () := by
  rcases h with rfl | rfl <;> rfl

theorem checkValidMetric_error {metric : String}
    (h : ¬ (metric = "distance" ∨ metric = "similarity")) :
    checkValidMetric metric = .error .valueError := by
  unfold checkValidMetric
  rw [not_or] at h
  simp [h]

section
variable [LinearOrder K] [Zero K] (o : ArgPart (XR K)) (rnd : Rnd) (sched : Schedule) {n m : ℕ}
  (sparse : Bool) (D : Fin n → Fin m → XR K) (k : ℤ) (metric : String) (nJobs : ℤ) (seed : Bool)
  (shuffle : Bool)

/-- Row computations succeed and give k-nearest-neighbour lists. -/
theorem rows_exist (hk : 0 ≤ reduceK k m) (hmet : metric = "distance" ∨ metric = "similarity") :
    ∃ L : Fin n → Fin (reduceK k m).toNat → Fin m,
      (∀ i : Fin n, selectRow o shuffle (rnd i m)
        (Np.arange (kthStart metric m (reduceK k m).toNat) (reduceK k m).toNat)
        (metric = "similarity")
        (rowValues metric (dSelf metric) (prepare sparse (dSelf metric) D) i)
          = .ok (fun c => (L i c).val)) ∧
      ∀ i, IsKnn (closer metric) (effective metric D i) (reduceK k m).toNat (List.ofFn (L i)) := by
  have hk' : (reduceK k m).toNat ≤ m := by unfold reduceK at *; split at * <;> omega
  have h := fun i : Fin n => selectRow_isKnn o shuffle (rnd i m) metric hk' hmet
    (rowValues metric (dSelf metric) (prepare sparse (dSelf metric) D) i)
  choose L hL using h
  refine ⟨L, fun i => (hL i).1, fun i => ?_⟩
  have := (hL i).2
  have he : rowValues metric (dSelf metric) (prepare sparse (dSelf metric) D) i
      = effective metric D i := funext (rowValues_prepare sparse metric D i)
  rwa [he] at this

theorem parallel_eq_finish (hk : 0 ≤ reduceK k m)
    (hmet : metric = "distance" ∨ metric = "similarity") (hj : ¬ (nJobs ≠ -1 ∧ nJobs < 1))
    (rows : Fin n → Fin (reduceK k m).toNat → ℕ)
    (hrows : ∀ i : Fin n, selectRow o shuffle (rnd i m)
        (Np.arange (kthStart metric m (reduceK k m).toNat) (reduceK k m).toNat)
        (metric = "similarity")
        (rowValues metric (dSelf metric) (prepare sparse (dSelf metric) D) i) = .ok (rows i)) :
    parallel o rnd sched sparse D k metric nJobs shuffle = .ok (finish m rows) := by
  have hk' : ¬ reduceK k m < 0 := by omega
  unfold parallel
  simp only [checkValidMetric_ok hmet, hk', hj, if_false]
  rw [foldlM_update_finRange _ rows hrows]
  change Except.ok (finish m _) = _
  simp only [exec_schedule]

theorem serial_of_rows (hk : 0 ≤ reduceK k m)
    (hmet : metric = "distance" ∨ metric = "similarity")
    (rows : Fin n → Fin (reduceK k m).toNat → ℕ)
    (hrows : ∀ i : Fin n, selectRow o shuffle (rnd i m)
        (Np.arange (kthStart metric n (reduceK k m).toNat) (reduceK k m).toNat)
        (metric = "similarity")
        (rowValues metric (dSelf metric) (prepare sparse (dSelf metric) D) i) = .ok (rows i)) :
    serial o rnd sparse D k metric shuffle = .ok (finish m rows) := by
  have hk' : ¬ reduceK k m < 0 := by omega
  unfold serial
  simp only [checkValidMetric_ok hmet, hk', if_false]
  rw [foldlM_update_finRange _ rows hrows]
  rfl

theorem serial_of_row_errors (hk : 0 ≤ reduceK k m)
    (hmet : metric = "distance" ∨ metric = "similarity") (hn : 0 < n) (e : PyErr)
    (hrows : ∀ i : Fin n, selectRow o shuffle (rnd i m)
        (Np.arange (kthStart metric n (reduceK k m).toNat) (reduceK k m).toNat)
        (metric = "similarity")
        (rowValues metric (dSelf metric) (prepare sparse (dSelf metric) D) i) = .error e) :
    serial o rnd sparse D k metric shuffle = .error e := by
  have hk' : ¬ reduceK k m < 0 := by omega
  unfold serial
  simp only [checkValidMetric_ok hmet, hk', if_false]
  rw [foldlM_update_error _ e hrows]
  · rfl
  · intro hnil
    have := congrArg List.length hnil
    simp at this
    omega

theorem serial_eq_finish (hk : 0 ≤ reduceK k m)
    (hmet : metric = "distance" ∨ metric = "similarity")
    (hsq : metric = "distance" ∨ n = m)
    (rows : Fin n → Fin (reduceK k m).toNat → ℕ)
    (hrows : ∀ i : Fin n, selectRow o shuffle (rnd i m)
        (Np.arange (kthStart metric m (reduceK k m).toNat) (reduceK k m).toNat)
        (metric = "similarity")
        (rowValues metric (dSelf metric) (prepare sparse (dSelf metric) D) i) = .ok (rows i)) :
    serial o rnd sparse D k metric shuffle = .ok (finish m rows) := by
  have hk' : ¬ reduceK k m < 0 := by omega
  unfold serial
  simp only [checkValidMetric_ok hmet, hk', if_false, kthStart_eq hsq]
  rw [foldlM_update_finRange _ rows hrows]
  rfl

theorem serial_bad (h : ¬ (metric = "distance" ∨ metric = "similarity") ∨ reduceK k m < 0) :
    serial o rnd sparse D k metric shuffle = .error .valueError := by
  unfold serial
  by_cases hm : metric = "distance" ∨ metric = "similarity"
  · have hk : reduceK k m < 0 := by tauto
    simp only [checkValidMetric_ok hm, hk, if_true]; rfl
  · simp only [checkValidMetric_error hm]; rfl

theorem parallel_bad (h : ¬ (metric = "distance" ∨ metric = "similarity") ∨ reduceK k m < 0 ∨
      (nJobs ≠ -1 ∧ nJobs < 1)) :
    parallel o rnd sched sparse D k metric nJobs shuffle = .error .valueError := by
  unfold parallel
  by_cases hm : metric = "distance" ∨ metric = "similarity"
  · by_cases hk : reduceK k m < 0
    · simp only [checkValidMetric_ok hm, hk, if_true]; rfl
    · have hj : nJobs ≠ -1 ∧ nJobs < 1 := by tauto
      simp only [checkValidMetric_ok hm, hk, if_false]
      rw [if_pos hj]; rfl
  · simp only [checkValidMetric_error hm]; rfl

end

theorem finish_Nk_count {n k : ℕ} (m : ℕ) (rows : Fin n → Fin k → ℕ) (j : ℕ)
    (hj : j < (finish m rows).Nk.length) :
    (finish m rows).Nk[j] = ((List.finRange n).flatMap (fun i => List.ofFn (rows i))).count j := by
  simp only [finish]
  rw [Np.bincount_getElem]

theorem count_flatMap_nodup {n : ℕ} (lists : Fin n → List ℕ) (hnd : ∀ i, (lists i).Nodup) (j : ℕ) :
    ((List.finRange n).flatMap lists).count j = occurrences lists j := by
  rw [List.count_flatMap]
  have h : ∀ i, (List.count j ∘ lists) i = if j ∈ lists i then 1 else 0 := by
    intro i
    simp only [Function.comp]
    split
    · next h => exact List.count_eq_one_of_mem (hnd i) h
    · next h => exact List.count_eq_zero.2 h
  rw [List.map_congr_left (fun i _ => h i)]
  rw [occurrences, Finset.card_filter, ← List.sum_ofFn, List.ofFn_eq_map]

theorem sum_bincount (l : List ℕ) (m : ℕ) (h : ∀ x ∈ l, x < m) :
    (Np.bincount l m).sum = l.length := by
  have hlen := Np.bincount_length l m h
  have : Np.bincount l m = (List.range m).map (fun v => l.count v) := by
    unfold Np.bincount at hlen ⊢
    rw [List.length_map, List.length_range] at hlen
    rw [hlen]
  rw [this]
  clear this hlen
  induction l with
  | nil => simp
  | cons a l ih =>
    have := ih (fun x hx => h x (by simp [hx]))
    have ha : a < m := h a (by simp)
    simp only [List.count_cons, List.length_cons]
    rw [List.sum_map_add, this]
    congr 1
    have hcount : ((List.range m).map (fun v => if (a == v) = true then 1 else 0)).sum
        = (List.range m).count a := by
      generalize List.range m = r
      induction r with
      | nil => rfl
      | cons b r ihr =>
        rw [List.map_cons, List.sum_cons, ihr, List.count_cons]
        by_cases hab : a = b
        · simp [hab]; omega
        · simp [hab, Ne.symm hab]
    rw [hcount, List.count_eq_one_of_mem List.nodup_range (by simpa using ha)]

end Hubness
end HubToolbox
