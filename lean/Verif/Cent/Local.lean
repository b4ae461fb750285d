import Verif.Cent.Props

/-!
# Properties of `dis_sim_local`
-/

set_option autoImplicit false

namespace HubToolbox.Cent

open HubToolbox

variable {K : Type} [Field K] [LinearOrder K]

theorem tabulateM_congr_map {α β : Type} {n : ℕ} (f : Fin n → Py α) (g : Fin n → α → β) :
    Np.tabulateM (fun i => (f i).bind (fun a => Except.ok (g i a))) =
      (Np.tabulateM f).map (fun a => fun i => g i (a i)) := by
  induction n with
  | zero => simp only [Np.tabulateM, Except.map]; congr 1; funext i; exact i.elim0
  | succ n ih =>
    unfold Np.tabulateM
    cases h0 : f 0 with
    | error e => simp only [h0]; rfl
    | ok a =>
      simp only [bind, Except.bind, h0]
      have := ih (fun i => f i.succ) (fun i => g i.succ)
      simp only [Except.bind] at this
      rw [this]
      cases Np.tabulateM (fun i => f i.succ) with
      | error e => rfl
      | ok b =>
        simp only [Except.map, pure, Except.pure]
        congr 1
        funext i
        refine Fin.cases ?_ (fun i => ?_) i <;> simp

/-- The neighbours of all rows. -/
def sels (w : SNN.World K) (k : ℤ) {n l : ℕ} (D : Fin n → Fin l → XR K) : Py (Fin n → List (Fin l)) :=
  Np.tabulateM (fun i => SNN.hood w.part "distance" k k (D i))

theorem exec_cells (w : SNN.World K) {n m : ℕ} (C : Fin n → Fin m → XR K) (i : Fin n) (f : Fin m) :
    Sched.exec (fun _ : Fin n × Fin m => (.fin 0 : XR K)) (w.sched ((List.finRange n).flatMap (fun (i : Fin n) =>
      (List.finRange m).map (fun f => ((i, f), C i f))))) (i, f) = C i f := by
  have hmem : ∀ x : (Fin n × Fin m) × XR K,
      x ∈ w.sched ((List.finRange n).flatMap (fun (i : Fin n) => (List.finRange m).map (fun f => ((i, f), C i f)))) ↔
        ∃ i f, x = ((i, f), C i f) := by
    intro x
    rw [(w.sched_perm _).mem_iff, List.mem_flatMap]
    constructor
    · rintro ⟨i, _, h⟩
      obtain ⟨f, _, rfl⟩ := List.mem_map.1 h
      exact ⟨i, f, rfl⟩
    · rintro ⟨i, f, rfl⟩
      exact ⟨i, List.mem_finRange i, List.mem_map.2 ⟨f, List.mem_finRange f, rfl⟩⟩
  refine Sched.exec_of_consistent _ _ _ _ ((hmem _).2 ⟨i, f, rfl⟩) ?_
  intro x hx he
  obtain ⟨a, b, rfl⟩ := (hmem x).1 hx
  obtain ⟨rfl, rfl⟩ := Prod.mk.inj he
  rfl

variable [FloorRing K]

theorem store_float (a : XR K) : Dtype.float64.store a = a := by cases a <;> rfl

theorem centroids_serial (w : SNN.World K) (nJobs : ℤ) (hj : ¬ nJobs > 1) (t : Dtype) (k : ℤ) {n l m : ℕ}
    (D : Fin n → Fin l → XR K) (Y : Fin l → Fin m → K) :
    centroids w nJobs t k D Y =
      (sels w k D).map (fun sel => fun i f => t.store (rowsMean Y (sel i) f)) := by
  unfold centroids sels
  have := tabulateM_congr_map (fun i => SNN.hood w.part "distance" k k (D i)) (fun _ l => rowsMean Y l)
  simp only [bind, pure, Except.pure] at this ⊢
  rw [this]
  cases Np.tabulateM (fun i => SNN.hood w.part "distance" k k (D i)) with
  | error e => rfl
  | ok a => simp only [Except.map, Except.bind, if_neg hj]

theorem centroids_parallel (w : SNN.World K) (nJobs : ℤ) (hj : nJobs > 1) (t : Dtype) (k : ℤ) {n l m : ℕ}
    (D : Fin n → Fin l → XR K) (Y : Fin l → Fin m → K) :
    centroids w nJobs t k D Y = (sels w k D).bind (fun sel => if t = .int64 then .error .typeError else
      .ok (fun i f => rowsMean Y (sel i) f)) := by
  unfold centroids sels
  have := tabulateM_congr_map (fun i => SNN.hood w.part "distance" k k (D i)) (fun _ l => rowsMean Y l)
  simp only [bind, pure, Except.pure] at this ⊢
  rw [this]
  cases Np.tabulateM (fun i => SNN.hood w.part "distance" k k (D i)) with
  | error e => rfl
  | ok a =>
    simp only [Except.map, Except.bind, if_pos hj]
    cases t with
    | int64 => rfl
    | float64 =>
      simp only [reduceCtorEq, if_false]
      congr 1
      funext i f
      exact exec_cells w (fun i f => rowsMean Y (a i) f) i f

/-- Floating point data: the number of jobs does not matter. -/
theorem centroids_float (w : SNN.World K) (nJobs : ℤ) (k : ℤ) {n l m : ℕ}
    (D : Fin n → Fin l → XR K) (Y : Fin l → Fin m → K) :
    centroids w nJobs .float64 k D Y = (sels w k D).map (fun sel => fun i f => rowsMean Y (sel i) f) := by
  by_cases hj : nJobs > 1
  · rw [centroids_parallel w nJobs hj]
    cases sels w k D <;> rfl
  · rw [centroids_serial w nJobs hj]
    simp only [store_float]

/-- Distances without those of a point to itself. -/
def selfless {n m : ℕ} (X : Fin n → Fin m → K) : Fin n → Fin n → XR K :=
  Np.fillDiagonal (fun i j => .fin (sqDist (X i) (X j))) .pinf

/-- One argument calls. -/
theorem local_none (w : SNN.World K) {n m : ℕ} (X : Fin n → Fin m → K) (t : Dtype) (k nJobs : ℤ) (hn : 0 < n)
    (hm : 0 < m) : disSimLocal w X t none k nJobs = (centroids w nJobs t k (selfless X) X).map
      (fun C => ⟨n, Np.fillDiagonal (fun i j => XR.sub (XR.sub (selfless X i j) (toCentroid X C i))
        (toCentroid X C j)) .ninf⟩) := by
  unfold disSimLocal selfless
  simp only [bind, pure, Except.pure]
  rw [if_neg (by omega)]
  simp only [Except.bind]
  cases centroids w nJobs t k (Np.fillDiagonal (fun i j => .fin (sqDist (X i) (X j))) .pinf) X <;> rfl

/-- Two argument calls. -/
theorem local_some (w : SNN.World K) {n m l : ℕ} (X : Fin n → Fin m → K) (t t' : Dtype) (Y : Fin l → Fin m → K)
    (k nJobs : ℤ) (hn : 0 < n) (hl : 0 < l) (hm : 0 < m) :
    disSimLocal w X t (some (t', ⟨l, m, Y⟩)) k nJobs =
      (centroids w nJobs t k (fun i j => .fin (sqDist (X i) (Y j))) Y).bind (fun C =>
      (centroids w nJobs t' k (fun i j => .fin (sqDist (Y i) (Y j))) Y).map (fun C' =>
      ⟨l, fun i j => XR.sub (XR.sub (.fin (sqDist (X i) (Y j))) (toCentroid X C i)) (toCentroid Y C' j)⟩)) := by
  unfold disSimLocal
  simp only [bind, pure, Except.pure, dif_pos, Fin.cast_eq_self]
  rw [if_neg (by omega)]
  simp only [Except.bind]
  cases centroids w nJobs t k (fun i j => .fin (sqDist (X i) (Y j))) Y with
  | error e => rfl
  | ok C =>
    simp only []
    cases centroids w nJobs t' k (fun i j => .fin (sqDist (Y i) (Y j))) Y <;> rfl

/-! ### C41 -/

/-- C41: parallel execution gives the same result. -/
theorem C41_jobs (w : SNN.World K) {n m : ℕ} (X : Fin n → Fin m → K)
    (Y : Option (Σ l m' : ℕ, Fin l → Fin m' → K)) (k nJobs nJobs' : ℤ) :
    disSimLocal w X .float64 (Y.map (fun Y => (.float64, Y))) k nJobs =
      disSimLocal w X .float64 (Y.map (fun Y => (.float64, Y))) k nJobs' := by
  cases Y with
  | none =>
    unfold disSimLocal
    simp only [Option.map_none, centroids_float]
  | some Y =>
    obtain ⟨l, m', Y⟩ := Y
    unfold disSimLocal
    simp only [Option.map_some, centroids_float]

omit [LinearOrder K] [FloorRing K] in
theorem sqDist_comm {m : ℕ} (x y : Fin m → K) : sqDist x y = sqDist y x := by
  unfold sqDist
  exact Finset.sum_congr rfl fun f _ => by ring

omit [FloorRing K] in
theorem sub_right_comm (a : K) (b c : XR K) :
    XR.sub (XR.sub (.fin a) b) c = XR.sub (XR.sub (.fin a) c) b := by
  cases b <;> cases c <;> simp [XR.sub, XR.neg, XR.add]
  ring

/-- C41: the matrix is symmetric. -/
theorem C41_symmetric (w : SNN.World K) {n m : ℕ} (X : Fin n → Fin m → K) (t : Dtype) (k nJobs : ℤ)
    (S : Fin n → Fin n → XR K) (h : disSimLocal w X t none k nJobs = .ok ⟨n, S⟩) (i j : Fin n) : S i j = S j i := by
  have hi := i.isLt
  by_cases hm : 0 < m
  · rw [local_none w X t k nJobs (by omega) hm] at h
    cases hC : centroids w nJobs t k (selfless X) X with
    | error e => rw [hC] at h; cases h
    | ok C =>
      rw [hC] at h
      have hS := eq_of_heq (Sigma.mk.inj (Except.ok.inj h)).2
      rw [← hS]
      unfold Np.fillDiagonal
      by_cases hij : i = j
      · subst hij; rfl
      · have h1 : ¬ i.val = j.val := fun h => hij (Fin.ext h)
        have h2 : ¬ j.val = i.val := fun h => h1 h.symm
        rw [if_neg h1, if_neg h2]
        unfold selfless Np.fillDiagonal
        simp only [if_neg h1, if_neg h2]
        rw [sqDist_comm, sub_right_comm]
  · exfalso
    unfold disSimLocal at h
    simp only [bind] at h
    rw [if_pos (by omega)] at h
    cases h

/-- C41: the diagonal is always smallest. -/
theorem C41_diagonal (w : SNN.World K) {n m : ℕ} (X : Fin n → Fin m → K) (t : Dtype) (k nJobs : ℤ)
    (S : Fin n → Fin n → XR K) (h : disSimLocal w X t none k nJobs = .ok ⟨n, S⟩) (i : Fin n) : S i i = .ninf := by
  have hi := i.isLt
  by_cases hm : 0 < m
  · rw [local_none w X t k nJobs (by omega) hm] at h
    cases hC : centroids w nJobs t k (selfless X) X with
    | error e => rw [hC] at h; cases h
    | ok C =>
      rw [hC] at h
      have hS := eq_of_heq (Sigma.mk.inj (Except.ok.inj h)).2
      rw [← hS]
      simp [Np.fillDiagonal]
  · exfalso
    unfold disSimLocal at h
    simp only [bind] at h
    rw [if_pos (by omega)] at h
    cases h

variable [IsStrictOrderedRing K]

omit [FloorRing K] in
theorem sels_ok (w : SNN.World K) (k : ℕ) {n l : ℕ} (hk : k < l) (D : Fin n → Fin l → XR K) :
    ∃ sel : Fin n → List (Fin l), sels w k D = .ok sel ∧ ∀ i, SNN.Sel "distance" (D i) k (sel i) := by
  have h : ∀ i, ∃ L, SNN.hood w.part "distance" (k : ℤ) k (D i) = .ok L ∧ SNN.Sel "distance" (D i) k L :=
    fun i => SNN.hood_distance w.part k hk (D i)
  choose sel hs hsel using h
  refine ⟨sel, ?_, hsel⟩
  unfold sels
  rw [funext hs, Np.tabulateM_ok]

omit [FloorRing K] in
theorem toCentroid_fin {n m : ℕ} (X : Fin n → Fin m → K) (C : Fin n → Fin m → XR K) (c : Fin n → Fin m → K)
    (h : ∀ i f, C i f = .fin (c i f)) (i : Fin n) : toCentroid X C i = .fin (Spec.sq (X i) (c i)) := by
  unfold toCentroid Spec.sq
  simp only [h, sub_fin, mul_fin, sum_fin, pow_two]

omit [FloorRing K] in
theorem sel_mean {l m k : ℕ} {d : Fin l → XR K} {L : List (Fin l)} (h : SNN.Sel "distance" d k L) (h1 : 1 ≤ k)
    (Y : Fin l → Fin m → K) (f : Fin m) : rowsMean Y L f = .fin (Spec.centroid L.toFinset Y f) := by
  refine rowsMean_eq Y L h.nodup ?_ f
  intro h0
  have := h.length
  rw [h0] at this
  simp at this
  omega

/-- C41: DisSim Local is the squared distance minus the squared distances to the local centroids, which are taken
over `k` nearest other points. -/
theorem C41_formula (w : SNN.World K) {n m : ℕ} (X : Fin n → Fin m → K) (k : ℕ) (h1 : 1 ≤ k) (hk : k < n)
    (hm : 0 < m) :
    ∃ N : Fin n → Finset (Fin n),
      (∀ i, Spec.IsHood (Spec.nearer "distance") (Finset.univ.erase i) (fun j => Spec.sq (X i) (X j)) k (N i)) ∧
      ∀ nJobs : ℤ, disSimLocal w X .float64 none k nJobs = .ok ⟨n, fun i j => if i = j then .ninf else
        .fin (Spec.disSim (X i) (X j) (Spec.centroid (N i) X) (Spec.centroid (N j) X))⟩ := by
  obtain ⟨sel, hs, hsel⟩ := sels_ok w k hk (selfless X)
  refine ⟨fun i => (sel i).toFinset, ?_, ?_⟩
  · intro i
    refine SNN.Sel.isHood (Or.inl rfl) (hsel i) _ _ ?_ ?_ ?_
    · intro j hj
      unfold selfless Np.fillDiagonal
      rw [if_neg (fun h : i.val = j.val => (Finset.mem_erase.1 hj).1 (Fin.ext h.symm))]
      rfl
    · intro j hj
      have : j = i := by simpa using hj
      subst this
      simp [selfless, Np.fillDiagonal, SNN.exclude]
    · rw [Finset.card_erase_of_mem (Finset.mem_univ i), Finset.card_univ, Fintype.card_fin]
      omega
  · intro nJobs
    rw [local_none w X _ _ nJobs (by omega) hm, centroids_float, hs]
    simp only [Except.map, Except.bind]
    congr 2
    funext i j
    have hc := toCentroid_fin X (fun i f => rowsMean X (sel i) f) (fun i => Spec.centroid (sel i).toFinset X)
      (fun i f => sel_mean (hsel i) h1 X f)
    unfold Np.fillDiagonal
    by_cases hij : i = j
    · rw [if_pos (congrArg Fin.val hij), if_pos hij]
    · have h1 : ¬ i.val = j.val := fun h => hij (Fin.ext h)
      rw [if_neg h1, if_neg hij]
      simp only [hc]
      unfold selfless Np.fillDiagonal
      rw [if_neg h1, sub_fin, sub_fin]
      rfl

/-- C41: with training points `Y`, the centroids of all points are taken over nearest points of `Y`; a point of `Y` is
among its own nearest points. -/
theorem C41_formula_test (w : SNN.World K) {n m l : ℕ} (X : Fin n → Fin m → K) (Y : Fin l → Fin m → K) (k : ℕ)
    (h1 : 1 ≤ k) (hk : k < l) (hn : 0 < n) (hm : 0 < m) :
    ∃ (N : Fin n → Finset (Fin l)) (N' : Fin l → Finset (Fin l)),
      (∀ i, Spec.IsHood (Spec.nearer "distance") Finset.univ (fun j => Spec.sq (X i) (Y j)) k (N i)) ∧
      (∀ i, Spec.IsHood (Spec.nearer "distance") Finset.univ (fun j => Spec.sq (Y i) (Y j)) k (N' i)) ∧
      ∀ nJobs : ℤ, disSimLocal w X .float64 (some (.float64, ⟨l, m, Y⟩)) k nJobs = .ok ⟨l, fun i j =>
        .fin (Spec.disSim (X i) (Y j) (Spec.centroid (N i) Y) (Spec.centroid (N' j) Y))⟩ := by
  obtain ⟨sel, hs, hsel⟩ := sels_ok w k hk (fun (i : Fin n) (j : Fin l) => (.fin (sqDist (X i) (Y j)) : XR K))
  obtain ⟨sel', hs', hsel'⟩ := sels_ok w k hk (fun (i : Fin l) (j : Fin l) => (.fin (sqDist (Y i) (Y j)) : XR K))
  refine ⟨fun i => (sel i).toFinset, fun i => (sel' i).toFinset, ?_, ?_, ?_⟩
  · intro i
    exact SNN.Sel.isHood (Or.inl rfl) (hsel i) _ _ (fun j _ => rfl) (fun j hj => absurd (Finset.mem_univ j) hj)
      (by rw [Finset.card_univ, Fintype.card_fin]; omega)
  · intro i
    exact SNN.Sel.isHood (Or.inl rfl) (hsel' i) _ _ (fun j _ => rfl) (fun j hj => absurd (Finset.mem_univ j) hj)
      (by rw [Finset.card_univ, Fintype.card_fin]; omega)
  · intro nJobs
    rw [local_some w X _ _ Y _ nJobs hn (by omega) hm, centroids_float, centroids_float, hs, hs']
    simp only [Except.map, Except.bind]
    congr 2
    funext i j
    rw [toCentroid_fin X (fun i f => rowsMean Y (sel i) f) (fun i => Spec.centroid (sel i).toFinset Y)
      (fun i f => sel_mean (hsel i) h1 Y f), toCentroid_fin Y (fun i f => rowsMean Y (sel' i) f)
      (fun i => Spec.centroid (sel' i).toFinset Y) (fun i f => sel_mean (hsel' i) h1 Y f), sub_fin, sub_fin]
    rfl

omit [IsStrictOrderedRing K] in
/-- C41: a neighbourhood as large as the data is refused. -/
theorem C41_too_large (w : SNN.World K) {n m : ℕ} (X : Fin n → Fin m → K) (t : Dtype) (k nJobs : ℤ)
    (hk : (n : ℤ) ≤ k) : disSimLocal w X t none k nJobs = .error .valueError := by
  by_cases h0 : n = 0 ∨ m = 0
  · unfold disSimLocal
    simp only [bind]
    rw [if_pos h0]
    rfl
  · rw [local_none w X t k nJobs (by omega) (by omega)]
    have hs : sels w k (selfless X) = .error .valueError := by
      unfold sels
      have : ∀ d : Fin n → XR K, SNN.hood w.part "distance" k k d = .error .valueError := by
        intro d
        unfold SNN.hood Np.argpartition
        rw [Np.wrapAll_const]
        have : Np.wrap n k = none := by
          unfold Np.wrap
          rw [dif_neg (by omega), dif_neg (by omega)]
        rw [this]
        rfl
      simp only [this]
      exact Np.tabulateM_error (by omega) _
    by_cases hj : nJobs > 1
    · rw [centroids_parallel w nJobs hj, hs]; rfl
    · rw [centroids_serial w nJobs hj, hs]; rfl

/-! ### C83: translation -/

omit [FloorRing K] in
theorem rowsMean_translate {n m : ℕ} (X : Fin n → Fin m → K) (t : Fin m → K) (l : List (Fin n)) (f : Fin m) :
    rowsMean (fun i f => X i f + t f) l f = XR.add (rowsMean X l f) (.fin (t f)) := by
  by_cases h : l = []
  · subst h
    rw [rowsMean_nil, rowsMean_nil]
    rfl
  · have hlen : ((l.length : ℕ) : K) ≠ 0 := by
      rw [Nat.cast_ne_zero]
      exact fun h' => h (List.length_eq_zero_iff.1 h')
    unfold rowsMean XR.mean
    rw [sum_fin, sum_fin, div_fin _ _ hlen, div_fin _ _ hlen, Finset.sum_add_distrib, Finset.sum_const,
      Finset.card_univ, Fintype.card_fin, nsmul_eq_mul, add_div, mul_div_cancel_left₀ _ hlen]
    rfl

omit [FloorRing K] [IsStrictOrderedRing K] in
theorem sqDist_translate {m : ℕ} (x y t : Fin m → K) :
    sqDist (fun f => x f + t f) (fun f => y f + t f) = sqDist x y := by
  unfold sqDist
  exact Finset.sum_congr rfl fun f _ => by ring

omit [FloorRing K] [IsStrictOrderedRing K] in
theorem sub_add_translate (x t : K) (a : XR K) : XR.sub (.fin (x + t)) (XR.add a (.fin t)) = XR.sub (.fin x) a := by
  cases a <;> simp [XR.sub, XR.neg, XR.add]

/-- C83: translating all vectors changes nothing. -/
theorem C83_translation (w : SNN.World K) {n m : ℕ} (X : Fin n → Fin m → K) (t : Fin m → K) (k nJobs : ℤ) :
    disSimLocal w (fun i f => X i f + t f) .float64 none k nJobs = disSimLocal w X .float64 none k nJobs := by
  unfold disSimLocal
  simp only [centroids_float, sqDist_translate]
  cases sels w k (Np.fillDiagonal (fun i j => (.fin (sqDist (X i) (X j)) : XR K)) .pinf) with
  | error e => rfl
  | ok sel =>
    simp only [Except.map, bind, Except.bind]
    unfold toCentroid
    simp only [rowsMean_translate, sub_add_translate]

/-- C83: translating test and training vectors alike changes nothing. -/
theorem C83_translation_test (w : SNN.World K) {n m l : ℕ} (X : Fin n → Fin m → K) (Y : Fin l → Fin m → K)
    (t : Fin m → K) (k nJobs : ℤ) :
    disSimLocal w (fun i f => X i f + t f) .float64 (some (.float64, ⟨l, m, fun i f => Y i f + t f⟩)) k nJobs =
      disSimLocal w X .float64 (some (.float64, ⟨l, m, Y⟩)) k nJobs := by
  unfold disSimLocal
  simp only [centroids_float, sqDist_translate, dif_pos, Fin.cast_eq_self]
  cases sels w k (fun i j => (.fin (sqDist (X i) (Y j)) : XR K)) with
  | error e => rfl
  | ok sel =>
    cases sels w k (fun i j => (.fin (sqDist (Y i) (Y j)) : XR K)) with
    | error e => rfl
    | ok sel' =>
      simp only [Except.map, bind, Except.bind]
      unfold toCentroid
      simp only [rowsMean_translate, sub_add_translate]

/-! ### C82: integer data -/

omit [FloorRing K] in
theorem rowsMean_single {n m : ℕ} (X : Fin n → Fin m → K) (l : List (Fin n)) (h : l.length = 1) (f : Fin m) :
    ∃ a, rowsMean X l f = .fin (X a f) := by
  obtain ⟨a, rfl⟩ := List.length_eq_one_iff.1 h
  refine ⟨a, ?_⟩
  rw [rowsMean_eq X [a] (List.nodup_singleton a) (List.cons_ne_nil _ _)]
  simp [Spec.centroid]

theorem store_int (t : Dtype) (z : ℤ) : t.store (.fin (z : K)) = .fin (z : K) := by
  cases t with
  | float64 => rfl
  | int64 => simp [Dtype.store]

/-- C82 (partial): with `k = 1` and one process, integers stored as such give the result of the same numbers stored as
floats. Missing: larger `k` and several processes, see `C82_serial_violated`, `C82_parallel_violated`. -/
theorem C82_integer_partial (w : SNN.World K) {n m : ℕ} (X : Fin n → Fin m → ℤ) (nJobs : ℤ) (hj : nJobs ≤ 1)
    (hn : 1 < n) (hm : 0 < m) :
    disSimLocal w (fun i f => (X i f : K)) .int64 none 1 nJobs =
      disSimLocal w (fun i f => (X i f : K)) .float64 none 1 nJobs := by
  rw [local_none w _ _ _ nJobs (by omega) hm, local_none w _ _ _ nJobs (by omega) hm,
    centroids_serial w nJobs (by omega), centroids_serial w nJobs (by omega)]
  obtain ⟨sel, hs, hsel⟩ := sels_ok w 1 hn (selfless (fun i f => (X i f : K)))
  rw [Nat.cast_one] at hs
  rw [hs]
  simp only [Except.map]
  congr 2
  have : ∀ i f, Dtype.int64.store (rowsMean (fun i f => (X i f : K)) (sel i) f) =
      Dtype.float64.store (rowsMean (fun i f => (X i f : K)) (sel i) f) := by
    intro i f
    obtain ⟨a, ha⟩ := rowsMean_single (fun i f => (X i f : K)) (sel i) (hsel i).length f
    rw [ha, store_int, store_int]
  simp only [this]

/-- C82: with more than one process integer data raise `TypeError`. -/
theorem C82_parallel_violated (w : SNN.World K) {n m : ℕ} (X : Fin n → Fin m → K) (k : ℕ) (nJobs : ℤ)
    (hj : 1 < nJobs) (hk : k < n) (hm : 0 < m) :
    disSimLocal w X .int64 none k nJobs = .error .typeError := by
  rw [local_none w X _ _ nJobs (by omega) hm, centroids_parallel w nJobs hj]
  obtain ⟨sel, hs, _⟩ := sels_ok w k hk (selfless X)
  rw [hs]
  rfl

/-! ### Examples -/

/-- One entry of a result. -/
def entryOf {n : ℕ} (r : Py (Σ l : ℕ, Fin n → Fin l → XR K)) (i j : ℕ) : Option (XR K) :=
  match r with
  | .error _ => none
  | .ok ⟨l, S⟩ => if h : i < n ∧ j < l then some (S ⟨i, h.1⟩ ⟨j, h.2⟩) else none

/-- A machine with four CPUs. -/
def world4 : SNN.World ℚ where
  cpu := 4
  cpu_pos := by decide
  part := ArgPart.ofInsertion _
  srt := Knn.ArgSort.ofSort _
  sched := fun l => l.reverse
  sched_perm := fun l => List.reverse_perm l

/-- Points on a line. -/
def line : Fin 4 → Fin 1 → ℚ := ![![0], ![1], ![3], ![4]]

/-- C41: calling `dis_sim_local(X, X)` instead of `dis_sim_local(X)` yields other values: the points become their own
nearest neighbours. -/
theorem C41_two_arguments_violated :
    entryOf (disSimLocal world4 line .float64 none 1 1) 0 1 = some (.fin (-1)) ∧
    entryOf (disSimLocal world4 line .float64 (some (.float64, ⟨4, 1, line⟩)) 1 1) 0 1 = some (.fin 1) := by
  decide +kernel

omit [LinearOrder K] [FloorRing K] [IsStrictOrderedRing K] in
theorem sq_self {m : ℕ} (x : Fin m → K) : Spec.sq x x = 0 := by simp [Spec.sq]

omit [FloorRing K] in
theorem sq_pos {m : ℕ} (x y : Fin m → K) (h : x ≠ y) : 0 < Spec.sq x y := by
  have hex : ∃ f, x f ≠ y f := by
    by_contra hno
    push Not at hno
    exact h (funext hno)
  obtain ⟨f, hf⟩ := hex
  unfold Spec.sq
  refine Finset.sum_pos' (fun f _ => sq_nonneg _) ⟨f, Finset.mem_univ f, ?_⟩
  exact pow_pos_of_ne (sub_ne_zero.2 hf)
where
  pow_pos_of_ne {x : K} (h : x ≠ 0) : 0 < x ^ 2 := by positivity

/-- C41: in general `dis_sim_local(X, X, k=1)` does not change the squared distances of different points at all. -/
theorem C41_two_arguments_plain (w : SNN.World K) {n m : ℕ} (X : Fin n → Fin m → K) (hX : Function.Injective X)
    (hn : 1 < n) (hm : 0 < m) (nJobs : ℤ) :
    disSimLocal w X .float64 (some (.float64, ⟨n, m, X⟩)) 1 nJobs =
      .ok ⟨n, fun i j => .fin (Spec.sq (X i) (X j))⟩ := by
  obtain ⟨N, N', hN, hN', h⟩ := C41_formula_test w X X 1 le_rfl hn (by omega) hm
  have key : ∀ (i : Fin n) (M : Finset (Fin n)),
      Spec.IsHood (Spec.nearer "distance") Finset.univ (fun j => Spec.sq (X i) (X j)) 1 M → M = {i} := by
    intro i M hM
    obtain ⟨a, rfl⟩ := Finset.card_eq_one.1 hM.card
    by_cases hai : i = a
    · rw [hai]
    · exfalso
      have := hM.best a (Finset.mem_singleton_self a) i (Finset.mem_univ i) (by simpa using hai)
      unfold Spec.nearer at this
      rw [if_neg (by decide), sq_self] at this
      exact absurd this (not_le.2 (sq_pos _ _ (fun h => hai (hX h))))
  have h := h nJobs
  rw [Nat.cast_one] at h
  rw [h]
  congr 2
  funext i j
  rw [key i _ (hN i), key j _ (hN' j)]
  have hc : ∀ i, Spec.centroid {i} X = X i := by
    intro i
    funext f
    simp [Spec.centroid]
  rw [hc, hc]
  unfold Spec.disSim
  rw [sq_self, sq_self, sub_zero, sub_zero]

/-- C82: the centroids of integer data get truncated. -/
theorem C82_serial_violated :
    entryOf (disSimLocal world4 line .float64 none 2 1) 0 1 = some (.fin (1 - 2 ^ 2 - (1/2) ^ 2)) ∧
    entryOf (disSimLocal world4 line .int64 none 2 1) 0 1 = some (.fin (1 - 2 ^ 2 - 0 ^ 2)) := by
  decide +kernel

/-- C82: truncation is towards zero, so that for integer data not even translation by integers is without effect: of the same four
points, translated by -3, the centroid of the second is rounded up instead of down. -/
theorem C82_translation_violated :
    entryOf (disSimLocal world4 (fun i f => line i f - 3) .float64 none 2 1) 0 1 =
      entryOf (disSimLocal world4 line .float64 none 2 1) 0 1 ∧
    entryOf (disSimLocal world4 (fun i f => line i f - 3) .int64 none 2 1) 0 1 = some (.fin (1 - 2 ^ 2 - 1 ^ 2)) ∧
    entryOf (disSimLocal world4 line .int64 none 2 1) 0 1 = some (.fin (1 - 2 ^ 2 - 0 ^ 2)) := by
  decide +kernel

example : Function.Injective line := by decide +kernel
example : entryOf (disSimLocal world4 line .float64 none 2 3) 1 3 = entryOf (disSimLocal world4 line .float64 none 2 1) 1 3 ∧
    entryOf (disSimLocal world4 line .float64 none 2 3) 1 3 ≠ none := by decide +kernel

end HubToolbox.Cent
