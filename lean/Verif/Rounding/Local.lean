import Verif.Rounding.LocalModel
import Verif.LS.Nicdm

/-!
# Closed forms and ranges for Local Scaling and NICDM with rounding
-/

set_option autoImplicit false

namespace HubToolbox.Rounding

open HubToolbox

theorem Lib.real_ok : Lib.real.Ok where
  exp_nan := rfl
  exp_nonpos a h := by
    cases a with
    | ninf => exact ⟨0, rfl, le_rfl, zero_le_one⟩
    | fin x => exact ⟨Real.exp x, rfl, (Real.exp_pos x).le, Real.exp_le_one_iff.2 (by simpa using h)⟩
    | pinf => simp at h
    | nan => simp at h
  exp_nonneg a := by
    cases a with
    | fin x => simpa [Lib.real, XR.exp] using (Real.exp_pos x).le
    | _ => simp [Lib.real, XR.exp]
  sqrt_nonneg a := by
    cases a with
    | fin x =>
      simp only [Lib.real, XR.sqrt]
      split
      · simp
      · simpa using Real.sqrt_nonneg x
    | _ => simp [Lib.real, XR.sqrt]
  sqrt_zero := by simp [Lib.real, XR.sqrt]
  sum_one a := by simp [Lib.real]

section
variable {R : Rounding ℝ}

/-! ### Signs -/

theorem up_nonneg {a : XR ℝ} (h : .fin 0 ≤ a) : .fin 0 ≤ R.up a := by
  cases a with
  | fin x => exact nonneg (by simpa using h)
  | _ => exact h

theorem up_nonpos {a : XR ℝ} (h : a ≤ .fin 0) : R.up a ≤ .fin 0 := by
  cases a with
  | fin x =>
    have := R.mono x 0 (by simpa using h)
    rwa [R.zero] at this
  | _ => exact h

theorem mul_nonneg' {a b : XR ℝ} (ha : .fin 0 ≤ a) (hb : .fin 0 ≤ b) : .fin 0 ≤ R.mul a b := by
  apply up_nonneg
  cases a <;> cases b <;> simp_all [XR.mul, XR.infMul]
  · exact mul_nonneg ha hb
  · split_ifs with h1 h2
    · simp
    · simp
    · exact absurd (lt_of_le_of_ne ha (Ne.symm h1)) h2
  · split_ifs with h1 h2
    · simp
    · simp
    · exact absurd (lt_of_le_of_ne hb (Ne.symm h1)) h2

theorem div_nonneg' {a b : XR ℝ} (ha : .fin 0 ≤ a) (hb : .fin 0 ≤ b) : .fin 0 ≤ R.div a b := by
  apply up_nonneg
  cases a <;> cases b <;> simp_all [XR.div, XR.infMul]
  split_ifs with h1 h2 h3
  · simp
  · simp
  · exact absurd (lt_of_le_of_ne ha (Ne.symm h2)) h3
  · simpa using div_nonneg ha hb

theorem mul_neg_one {a : XR ℝ} (ha : .fin 0 ≤ a) : R.mul (.fin (-1)) a = .nan ∨ R.mul (.fin (-1)) a ≤ .fin 0 := by
  cases a with
  | fin x =>
    right
    apply up_nonpos
    have : 0 ≤ x := by simpa using ha
    simpa [XR.mul] using this
  | pinf =>
    right
    apply up_nonpos
    simp only [XR.mul, XR.infMul]
    norm_num
  | ninf => simp at ha
  | nan => left; rfl

theorem div_nonpos' {a b : XR ℝ} (ha : a ≤ .fin 0) (hb : .fin 0 ≤ b) : R.div a b = .nan ∨ R.div a b ≤ .fin 0 := by
  have : XR.div a b = .nan ∨ XR.div a b ≤ .fin 0 := by
    cases a <;> cases b <;> simp_all [XR.div, XR.infMul]
    split_ifs with h1 h2 h3
    · simp
    · exact absurd h3 (not_lt.2 ha)
    · simp
    · right; simpa using div_nonpos_of_nonpos_of_nonneg ha hb
  rcases this with h | h
  · left; unfold div; rw [h]; rfl
  · right; exact up_nonpos h

theorem one_sub_unit {y : ℝ} (h0 : 0 ≤ y) (h1 : y ≤ 1) : ∃ z, R.sub (.fin 1) (.fin y) = .fin z ∧ 0 ≤ z ∧ z ≤ 1 := by
  have : R.sub (.fin 1) (.fin y) = R.rnd (1 - y) := by
    simp [sub, XR.sub, XR.neg, XR.add, up, sub_eq_add_neg]
  rw [this]
  exact unit (by linarith) (by linarith)

/-- Secondary distances are nan or numbers from zero to one. -/
theorem lsEntry_range {L : Lib} (hL : L.Ok) {d ri rj : XR ℝ} (hd : .fin 0 ≤ d) (hi : .fin 0 ≤ ri) (hj : .fin 0 ≤ rj) :
    R.lsEntry L "distance" d ri rj = .nan ∨ ∃ y, R.lsEntry L "distance" d ri rj = .fin y ∧ 0 ≤ y ∧ y ≤ 1 := by
  unfold lsEntry
  simp only [show ("distance" : String) ≠ "similarity" by decide, if_false]
  have hq : R.div (R.mul (.fin (-1)) (R.mul d d)) (R.mul ri rj) = .nan ∨
      R.div (R.mul (.fin (-1)) (R.mul d d)) (R.mul ri rj) ≤ .fin 0 := by
    rcases mul_neg_one (R := R) (mul_nonneg' (R := R) hd hd) with h | h
    · left; rw [h]; rfl
    · exact div_nonpos' h (mul_nonneg' hi hj)
  rcases hq with h | h
  · left; rw [h, hL.exp_nan]; rfl
  · obtain ⟨y, hy, h0, h1⟩ := hL.exp_nonpos _ h
    rw [hy]
    right
    exact one_sub_unit h0 h1

theorem nicdmEntry_nonneg {L : Lib} (hL : L.Ok) {g d ri rj : XR ℝ} (hg : .fin 0 ≤ g) (hd : .fin 0 ≤ d) :
    .fin 0 ≤ R.nicdmEntry L g d ri rj :=
  div_nonneg' (mul_nonneg' hg hd) (hL.sqrt_nonneg _)

/-! ### Closed forms -/

theorem add_zero_float {a : XR ℝ} (h : R.Float a) : R.add a (.fin 0) = a := by
  unfold add
  rw [LS.add_zero_right]
  exact h

theorem zero_add_float {a : XR ℝ} (h : R.Float a) : R.add (.fin 0) a = a := by
  unfold add
  rw [LS.add_zero_left]
  exact h

theorem lsSerial_fill (L : Lib) (metric : String) {n : ℕ} (D : Fin n → Fin n → XR ℝ) (r : Fin n → XR ℝ) (v : XR ℝ) :
    Np.fillDiagonal (R.lsSerial L metric D r) v =
      LS.mirror v (fun i j => R.up (R.lsEntry L metric (D i j) (r i) (r j))) := by
  funext i j
  unfold Np.fillDiagonal lsSerial LS.mirror
  simp only
  rw [MPEmp.foldl_setRowFrom _ (fun i => i.val), MPEmp.foldl_setRowFrom _ (fun i => i.val)]
  rcases lt_trichotomy i j with h | h | h
  · have h' : i.val < j.val := h
    rw [if_neg (by omega), if_neg h.ne, if_pos h, if_pos ⟨List.mem_finRange _, by omega⟩, if_neg (by omega)]
    rw [add_zero_float (float_up _)]
    simp [lsRow, h.ne']
  · simp [h]
  · have h' : j.val < i.val := h
    rw [if_neg (by omega), if_neg h.ne', if_neg h.not_gt, if_neg (by omega),
      if_pos ⟨List.mem_finRange _, by omega⟩]
    rw [zero_add_float (float_up _)]
    simp [lsRow, h.ne']

theorem mem_lsWrites (L : Lib) (metric : String) {n : ℕ} (D : Fin n → Fin n → XR ℝ) (r : Fin n → XR ℝ)
    (x : (Fin n × Fin n) × XR ℝ) :
    x ∈ (List.finRange n).flatMap (fun (i : Fin n) => R.lsWrites L metric D r i) ↔
      ∃ i j : Fin n, i ≤ j ∧ (x = ((i, j), R.up (R.lsRow L metric D r i j)) ∨
        x = ((j, i), R.up (R.lsRow L metric D r i j))) := by
  rw [List.mem_flatMap]
  constructor
  · rintro ⟨i, _, h⟩
    rcases List.mem_append.1 h with h | h
    · obtain ⟨j, hj, rfl⟩ := List.mem_map.1 h
      exact ⟨i, j, by simpa using hj, Or.inl rfl⟩
    · obtain ⟨j, hj, rfl⟩ := List.mem_map.1 h
      exact ⟨i, j, by simpa using hj, Or.inr rfl⟩
  · rintro ⟨i, j, hij, h | h⟩
    · exact ⟨i, List.mem_finRange _, List.mem_append_left _ (List.mem_map.2 ⟨j, by simpa using hij, h.symm⟩)⟩
    · exact ⟨i, List.mem_finRange _, List.mem_append_right _ (List.mem_map.2 ⟨j, by simpa using hij, h.symm⟩)⟩

theorem lsParallel_fill (L : Lib) (w : LS.World) (metric : String) {n : ℕ} (D : Fin n → Fin n → XR ℝ) (r : Fin n → XR ℝ)
    (v : XR ℝ) :
    Np.fillDiagonal (R.lsParallel L w metric D r) v =
      LS.mirror v (fun i j => R.up (R.lsEntry L metric (D i j) (r i) (r j))) := by
  funext i j
  unfold Np.fillDiagonal LS.mirror
  by_cases hij : i = j
  · simp [hij]
  rw [if_neg (fun h => hij (Fin.ext h)), if_neg hij]
  unfold lsParallel
  apply Sched.exec_of_consistent
  · rw [(w.sched_perm _).mem_iff, mem_lsWrites]
    by_cases h : i < j
    · exact ⟨i, j, h.le, Or.inl (by simp [lsRow, h, h.ne'])⟩
    · have h' : j < i := lt_of_le_of_ne (not_lt.1 h) (Ne.symm hij)
      exact ⟨j, i, h'.le, Or.inr (by simp [lsRow, h, h'.ne'])⟩
  · intro x hx hxi
    rw [(w.sched_perm _).mem_iff, mem_lsWrites] at hx
    obtain ⟨a, b, hab, rfl | rfl⟩ := hx
    · obtain ⟨rfl, rfl⟩ := Prod.mk.inj hxi
      have h := lt_of_le_of_ne hab hij
      simp [lsRow, h, h.ne']
    · obtain ⟨rfl, rfl⟩ := Prod.mk.inj hxi
      have h := lt_of_le_of_ne hab (Ne.symm hij)
      simp [lsRow, h.not_gt, h.ne']

/-- Result of `lsCore` in closed form. -/
noncomputable def lsResult (R : Rounding ℝ) (L : Lib) {n : ℕ} (D : Fin n → Fin n → XR ℝ) (metric : String)
    (train : List (Fin n)) (t : Fin train.length) : Fin n → Fin n → XR ℝ :=
  LS.mirror (LS.selfValue metric) (fun i j => R.up (R.lsEntry L metric (D i j)
    (LS.rankVal (LS.cols (Np.fillDiagonal D (LS.exclude metric)) train i) t)
    (LS.rankVal (LS.cols (Np.fillDiagonal D (LS.exclude metric)) train j) t)))

theorem lsCore_ok (L : Lib) (w : LS.World) {n : ℕ} (D : Fin n → Fin n → XR ℝ) (k : ℤ) (metric : String)
    (test : Option (List ℤ)) (nJobs : ℤ) (hj : 1 ≤ LS.jobs w nJobs) (t : Fin (LS.trainInd n test).length)
    (h : Np.wrap (LS.trainInd n test).length (LS.kthOf metric n k) = some t) :
    R.lsCore L w D k metric test nJobs = .ok (R.lsResult L D metric (LS.trainInd n test) t) := by
  have hcl : ∀ r : Fin n → XR ℝ, LS.mirror (LS.selfValue metric) (fun i j =>
        R.up (R.lsEntry L metric (Np.fillDiagonal D (LS.exclude metric) i j) (r i) (r j))) =
      LS.mirror (LS.selfValue metric) (fun i j => R.up (R.lsEntry L metric (D i j) (r i) (r j))) := by
    intro r
    apply LS.mirror_congr
    intro i j hij
    have : i.val ≠ j.val := by have : i.val < j.val := hij; omega
    simp [Np.fillDiagonal, this]
  unfold lsCore
  by_cases h1 : LS.jobs w nJobs = 1
  · simp only [h1, gt_iff_lt, lt_irrefl, if_false, if_true,
      LS.radiiSerial_some w.part _ _ _ t h]
    refine Eq.trans (b := Except.ok _) rfl ?_
    rw [lsSerial_fill, hcl]
    rfl
  · have h2 : LS.jobs w nJobs > 1 := by omega
    simp only [h1, h2, if_false, if_true, LS.radiiParallel_some w _ _ _ t h]
    refine Eq.trans (b := Except.ok _) rfl ?_
    rw [lsParallel_fill, hcl]
    rfl

theorem lsCore_inv {L : Lib} {w : LS.World} {n : ℕ} (hn : 0 < n) {D : Fin n → Fin n → XR ℝ} {k : ℤ} {metric : String}
    {test : Option (List ℤ)} {nJobs : ℤ} {M : Fin n → Fin n → XR ℝ}
    (h : R.lsCore L w D k metric test nJobs = .ok M) :
    ∃ t, M = R.lsResult L D metric (LS.trainInd n test) t := by
  cases hw : Np.wrap (LS.trainInd n test).length (LS.kthOf metric n k) with
  | none =>
    exfalso
    unfold lsCore at h
    by_cases h2 : LS.jobs w nJobs > 1
    · simp only [h2, if_true, LS.radiiParallel_none w hn _ _ _ hw] at h
      cases h
    · simp only [h2, if_false, LS.radiiSerial_none w.part _ _ _ hw] at h
      cases h
  | some t =>
    by_cases hj : 1 ≤ LS.jobs w nJobs
    · rw [lsCore_ok L w D k metric test nJobs hj t hw] at h
      exact ⟨t, (Except.ok.inj h).symm⟩
    · exfalso
      unfold lsCore at h
      have h2 : ¬ LS.jobs w nJobs > 1 := by omega
      have h1 : ¬ LS.jobs w nJobs = 1 := by omega
      simp only [h1, h2, if_false, LS.radiiSerial_some w.part _ _ _ t hw] at h
      cases h

theorem localScaling_dense (L : Lib) (w : LS.World) {n : ℕ} (D : Fin n → Fin n → XR ℝ) (k : ℤ) (metric : String)
    (hm : metric = "distance" ∨ metric = "similarity") (test : Option (List ℤ)) (nJobs : ℤ) :
    R.localScaling L w (.mat false n n D) k metric test nJobs =
      (R.lsCore L w D k metric test nJobs).map (fun M => (⟨n, M⟩ : Σ n : ℕ, Fin n → Fin n → XR ℝ)) := by
  have hv : checkValidMetric metric = .ok () := by
    rcases hm with rfl | rfl <;> rfl
  unfold localScaling
  simp only [PyMat.checkSquare, dif_pos rfl]
  change ((checkValidMetric metric).bind fun _ => _) = _
  rw [hv]
  change ((R.lsCore L w D k metric test nJobs).bind fun M => _) = _
  cases R.lsCore L w D k metric test nJobs <;> rfl

/-! ### NICDM -/

/-- Mean of the first `k` order statistics. -/
noncomputable def meanRank (R : Rounding ℝ) (L : Lib) {m : ℕ} (d : Fin m → XR ℝ) (k : ℕ) (h : k ≤ m) : XR ℝ :=
  R.div (L.sum (List.ofFn (fun c : Fin k => LS.rankVal d ⟨c.val, lt_of_lt_of_le c.isLt h⟩))) (R.ofNat k)

theorem meanRadius_ok (L : Lib) (o : ArgPart (XR ℝ)) {m : ℕ} (d : Fin m → XR ℝ) (k : ℕ) (h : k ≤ m) :
    R.meanRadius L o d k = .ok (R.meanRank L d k h) := by
  have hw := Np.wrapAll_arange (m := m) (k := k) (lo := 0) (by omega)
  unfold meanRadius Np.argpartition
  rw [show ((0 : ℕ) : ℤ) = 0 by rfl] at hw
  rw [hw]
  refine Eq.trans (b := Except.ok _) rfl ?_
  congr 1
  unfold meanRank
  congr 3
  funext c
  have hr := ArgPart.isRank o d (fun c : Fin k => (⟨0 + c.val, by omega⟩ : Fin m)) c
  have h2 := LS.rankVal_spec d ⟨c.val, lt_of_lt_of_le c.isLt h⟩
  simp only [Nat.zero_add] at hr
  simp only [Nat.zero_add]
  exact hr.unique h2

theorem mem_nicdmWrites (L : Lib) {n : ℕ} (g : XR ℝ) (D : Fin n → Fin n → XR ℝ) (r : Fin n → XR ℝ)
    (x : (Fin n × Fin n) × XR ℝ) :
    x ∈ (List.finRange n).flatMap (fun (i : Fin n) => R.nicdmWrites L g D r i) ↔
      ∃ i j : Fin n, i < j ∧ (x = ((i, j), R.nicdmEntry L g (D i j) (r i) (r j)) ∨
        x = ((j, i), R.nicdmEntry L g (D i j) (r i) (r j))) := by
  rw [List.mem_flatMap]
  constructor
  · rintro ⟨i, _, h⟩
    rcases List.mem_append.1 h with h | h
    · obtain ⟨j, hj, rfl⟩ := List.mem_map.1 h
      exact ⟨i, j, by simpa using hj, Or.inl rfl⟩
    · obtain ⟨j, hj, rfl⟩ := List.mem_map.1 h
      exact ⟨i, j, by simpa using hj, Or.inr rfl⟩
  · rintro ⟨i, j, hij, h | h⟩
    · exact ⟨i, List.mem_finRange _, List.mem_append_left _ (List.mem_map.2 ⟨j, by simpa using hij, h.symm⟩)⟩
    · exact ⟨i, List.mem_finRange _, List.mem_append_right _ (List.mem_map.2 ⟨j, by simpa using hij, h.symm⟩)⟩

theorem nicdmSerial_eq (L : Lib) {n : ℕ} (g : XR ℝ) (D : Fin n → Fin n → XR ℝ) (r : Fin n → XR ℝ) :
    R.nicdmSerial L g D r = LS.mirror (.fin 0) (fun i j => R.nicdmEntry L g (D i j) (r i) (r j)) := by
  funext i j
  unfold nicdmSerial LS.mirror
  simp only
  rw [MPEmp.foldl_setRowFrom _ (fun i => i.val + 1), MPEmp.foldl_setRowFrom _ (fun i => i.val + 1)]
  rcases lt_trichotomy i j with h | h | h
  · have h' : i.val < j.val := h
    rw [if_neg h.ne, if_pos h, if_pos ⟨List.mem_finRange _, by omega⟩, if_neg (by omega)]
    exact add_zero_float (float_up _)
  · subst h
    rw [if_neg (by omega), if_pos rfl]
    exact add_zero_float R.zero
  · have h' : j.val < i.val := h
    rw [if_neg h.ne', if_neg h.not_gt, if_neg (by omega), if_pos ⟨List.mem_finRange _, by omega⟩]
    exact zero_add_float (float_up _)

theorem nicdmParallel_eq (L : Lib) (w : LS.World) {n : ℕ} (g : XR ℝ) (D : Fin n → Fin n → XR ℝ) (r : Fin n → XR ℝ) :
    R.nicdmParallel L w g D r = LS.mirror (.fin 0) (fun i j => R.nicdmEntry L g (D i j) (r i) (r j)) := by
  funext i j
  unfold nicdmParallel LS.mirror
  by_cases hij : i = j
  · subst hij
    rw [if_pos rfl]
    apply Sched.exec_of_notMem
    intro h
    obtain ⟨x, hx, hxi⟩ := List.mem_map.1 h
    rw [(w.sched_perm _).mem_iff, mem_nicdmWrites] at hx
    obtain ⟨a, b, hab, rfl | rfl⟩ := hx
    · obtain ⟨rfl, rfl⟩ := Prod.mk.inj hxi
      exact lt_irrefl _ hab
    · obtain ⟨rfl, rfl⟩ := Prod.mk.inj hxi
      exact lt_irrefl _ hab
  rw [if_neg hij]
  apply Sched.exec_of_consistent
  · rw [(w.sched_perm _).mem_iff, mem_nicdmWrites]
    by_cases h : i < j
    · exact ⟨i, j, h, Or.inl (by simp [h])⟩
    · have h' : j < i := lt_of_le_of_ne (not_lt.1 h) (Ne.symm hij)
      exact ⟨j, i, h', Or.inr (by simp [h])⟩
  · intro x hx hxi
    rw [(w.sched_perm _).mem_iff, mem_nicdmWrites] at hx
    obtain ⟨a, b, hab, rfl | rfl⟩ := hx
    · obtain ⟨rfl, rfl⟩ := Prod.mk.inj hxi
      simp [hab]
    · obtain ⟨rfl, rfl⟩ := Prod.mk.inj hxi
      simp [hab.not_gt]

/-- Mean neighbour distance of every row. -/
noncomputable def radii (R : Rounding ℝ) (L : Lib) {n : ℕ} (D : Fin n → Fin n → XR ℝ) (train : List (Fin n)) (k : ℕ)
    (h : k ≤ train.length) : Fin n → XR ℝ :=
  fun i => R.meanRank L (LS.cols (Np.fillDiagonal D .pinf) train i) k h

/-- Result of `nicdmCore` in closed form. -/
noncomputable def nicdmResult (R : Rounding ℝ) (L : Lib) {n : ℕ} (D : Fin n → Fin n → XR ℝ) (train : List (Fin n)) (k : ℕ)
    (h : k ≤ train.length) : Fin n → Fin n → XR ℝ :=
  LS.mirror (.fin 0) (fun i j =>
    R.nicdmEntry L (R.geomean L (R.radii L D train k h)) (D i j) (R.radii L D train k h i) (R.radii L D train k h j))

theorem nicdmCore_ok (L : Lib) (w : LS.World) {n : ℕ} (D : Fin n → Fin n → XR ℝ) (k : ℕ) (test : Option (List ℤ))
    (nJobs : ℤ) (h : k ≤ (LS.trainInd n test).length) :
    R.nicdmCore L w D k test nJobs = .ok (R.nicdmResult L D (LS.trainInd n test) k h) := by
  have hcl : ∀ (g : XR ℝ) (r : Fin n → XR ℝ), LS.mirror (.fin 0) (fun i j =>
        R.nicdmEntry L g (Np.fillDiagonal D .pinf i j) (r i) (r j)) =
      LS.mirror (.fin 0) (fun i j => R.nicdmEntry L g (D i j) (r i) (r j)) := by
    intro g r
    apply LS.mirror_congr
    intro i j hij
    have : i.val ≠ j.val := by have : i.val < j.val := hij; omega
    simp [Np.fillDiagonal, this]
  unfold nicdmCore
  by_cases h2 : LS.jobs w nJobs > 1
  · simp only [h2, if_true, meanRadiiParallel, meanRadius_ok L w.part _ k h, Np.tabulateM_ok]
    refine Eq.trans (b := Except.ok _) rfl ?_
    rw [LS.exec_rows, nicdmParallel_eq, hcl]
    rfl
  · have hw := Np.wrapAll_arange (m := (LS.trainInd n test).length) (k := k) (lo := 0) (by omega)
    rw [show ((0 : ℕ) : ℤ) = 0 by rfl] at hw
    simp only [h2, if_false, meanRadiiSerial, hw, meanRadius_ok L w.part _ k h, Np.tabulateM_ok]
    refine Eq.trans (b := Except.ok _) rfl ?_
    rw [nicdmSerial_eq, hcl]
    rfl

theorem nicdmCore_inv {L : Lib} {w : LS.World} {n : ℕ} (hn : 0 < n) {D : Fin n → Fin n → XR ℝ} {k : ℕ}
    {test : Option (List ℤ)} {nJobs : ℤ} {M : Fin n → Fin n → XR ℝ}
    (h : R.nicdmCore L w D k test nJobs = .ok M) :
    ∃ hk, M = R.nicdmResult L D (LS.trainInd n test) k hk := by
  by_cases hk : k ≤ (LS.trainInd n test).length
  · rw [nicdmCore_ok L w D k test nJobs hk] at h
    exact ⟨hk, (Except.ok.inj h).symm⟩
  · exfalso
    have hk' : (LS.trainInd n test).length < k := by omega
    have he : ∀ i, R.meanRadius L w.part (LS.cols (Np.fillDiagonal D .pinf) (LS.trainInd n test) i) k =
        .error .valueError := by
      intro i
      unfold meanRadius Np.argpartition
      rw [LS.wrapAll_arange_none hk']
      rfl
    unfold nicdmCore at h
    by_cases h2 : LS.jobs w nJobs > 1
    · simp only [h2, if_true, meanRadiiParallel, he, Np.tabulateM_error hn] at h
      cases h
    · simp only [h2, if_false, meanRadiiSerial, LS.wrapAll_arange_none hk'] at h
      cases h

theorem nicdm_dense (L : Lib) (w : LS.World) {n : ℕ} (D : Fin n → Fin n → XR ℝ) (k : ℕ) (test : Option (List ℤ))
    (nJobs : ℤ) :
    R.nicdm L w (.mat false n n D) k "distance" test nJobs =
      (R.nicdmCore L w D k test nJobs).map (fun M => (⟨n, M⟩ : Σ n : ℕ, Fin n → Fin n → XR ℝ)) := by
  unfold nicdm
  simp only [PyMat.checkSquare, dif_pos rfl]
  change ((R.nicdmCore L w D k test nJobs).bind fun M => _) = _
  cases R.nicdmCore L w D k test nJobs <;> rfl

end

end HubToolbox.Rounding
