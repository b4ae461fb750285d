import Verif.HubClass.Props
import Verif.Hubness.Props

/-!
# Properties of class `Hubness` and `hubness_from_vectors` (C11, C12, C61-C67)
-/

set_option autoImplicit false

namespace HubToolbox.HubClass

open Spec Hubness

/-! ## C61: Atkinson index -/

/-- C61: `atkinson_index_` lies in `[0, 1)` and is 0 iff all points occur equally often. -/
theorem C61_atkinson {K F : Type} [Field K] [LinearOrder K] [Field F] [LinearOrder F]
    [IsStrictOrderedRing F] (w : World K) (P : Params F) (k : ℕ) (hP : P.k = some (k : ℤ)) (hk : 1 ≤ k)
    (bs : ℕ) (shuffle hasSelf : Bool) (X : Data K) (hX : X.Canonical) (hn : 0 < X.nTest) (fit : Fit F)
    (h : fitTransform w P bs shuffle hasSelf X = .ok fit) :
    0 ≤ fit.atkinson ∧ fit.atkinson < 1 ∧
    (fit.atkinson = 0 ↔ ∀ x ∈ fit.kOcc, ∀ y ∈ fit.kOcc, x = y) := by
  unfold fitTransform at h
  rw [hP] at h
  simp only [Int.toNat_natCast] at h
  cases hl : fitLists w P.metric P.nJobs k bs shuffle hasSelf X with
  | error e => rw [hl] at h; cases h
  | ok r =>
    rw [hl] at h
    obtain ⟨rows, hinj, rfl⟩ := fitLists_inv w P.metric P.nJobs k bs shuffle hasSelf X hX hl
    cases h
    have hsum : 0 < (Np.bincount ((List.finRange X.nTest).flatMap (asLists rows)) X.nTrain).sum := by
      rw [sum_bincount _ _ (lists_lt rows), lists_length]
      positivity
    refine ⟨(atkinson_range _ hsum).1, (atkinson_range _ hsum).2, (atkinson_eq_zero_iff _ hsum).trans ?_⟩
    constructor
    · intro hall x hx y hy
      obtain ⟨i, rfl⟩ := List.get_of_mem hx
      obtain ⟨j, rfl⟩ := List.get_of_mem hy
      exact hall i j
    · intro hall i j
      exact hall _ (List.get_mem _ _) _ (List.get_mem _ _)

/-! ## A concrete world -/

/-- Sorting instead of partial sorting, no shuffling, workers one after the other. -/
def stdWorld (K : Type) [LinearOrder K] : World K where
  argpart := ArgPart.ofInsertion _
  rnd := fun _ _ => 1
  sched := fun _ _ l => l
  sched_perm := fun _ _ l => List.Perm.refl l

/-- A small data set: three points, each with one nearest other point. -/
def exD : Fin 3 → Fin 3 → XR ℚ :=
  ![![.fin 0, .fin 1, .fin 3], ![.fin 1, .fin 0, .fin 2], ![.fin 3, .fin 2, .fin 0]]

/-- Parameters of the examples. -/
def exP (k : ℤ) (hubSize : ℚ) (metric : String) : Params ℚ := ⟨some k, hubSize, metric, 1⟩

set_option maxRecDepth 4000 in
example : (fitTransform (stdWorld ℚ) (exP 1 2 "precomputed") 64 true true (.dense 3 3 exD false)).toOption.map
    (fun f => (f.lists, f.kOcc, f.antihubs, f.hubs, f.groupie)) = some ([1, 0, 1], [1, 2, 0], [2], [1], 2 / 3) := by
  decide +kernel

/-! ## C62: hubs -/

/-- C62 as documented (`k-occurrence > hub_size * k`) is violated: an object with exactly
`hub_size * k` occurrences is reported as a hub. -/
theorem C62_violated : ∃ (D : Fin 3 → Fin 3 → XR ℚ) (fit : Fit ℚ),
    fitTransform (stdWorld ℚ) (exP 1 2 "precomputed") 64 true true (.dense 3 3 D false) = .ok fit ∧
    1 ∈ fit.hubs ∧ ¬ (2 * 1 : ℚ) < (fit.kOcc.getD 1 0 : ℚ) := by
  refine ⟨exD, _, rfl, ?_, ?_⟩
  · decide +kernel
  · decide +kernel

/-- C62 (what holds): hubs are the objects with at least `hub_size * k` occurrences; so the documented reading is
right whenever no object occurs exactly `hub_size * k` times. -/
theorem C62_partial {K F : Type} [Field K] [LinearOrder K] [Field F] [LinearOrder F]
    [IsStrictOrderedRing F] (w : World K) (P : Params F) (k : ℕ) (hP : P.k = some (k : ℤ)) (hk : 1 ≤ k)
    (bs : ℕ) (shuffle hasSelf : Bool) (X : Data K) (hX : X.Canonical) (hn : 0 < X.nTest) (fit : Fit F)
    (h : fitTransform w P bs shuffle hasSelf X = .ok fit) :
    (∀ j, j ∈ fit.hubs ↔ ∃ hj : j < fit.kOcc.length, P.hubSize * k ≤ (fit.kOcc[j] : F)) ∧
    ((∀ x ∈ fit.kOcc, P.hubSize * k ≠ (x : F)) →
      ∀ j, j ∈ fit.hubs ↔ ∃ hj : j < fit.kOcc.length, P.hubSize * k < (fit.kOcc[j] : F)) := by
  unfold fitTransform at h
  rw [hP] at h
  simp only [Int.toNat_natCast] at h
  cases hl : fitLists w P.metric P.nJobs k bs shuffle hasSelf X with
  | error e => rw [hl] at h; cases h
  | ok r =>
    rw [hl] at h
    obtain ⟨rows, hinj, rfl⟩ := fitLists_inv w P.metric P.nJobs k bs shuffle hasSelf X hX hl
    cases h
    have h1 : ∀ (Nk : List ℕ) (j : ℕ), j ∈ (hubs P.hubSize k Nk X.nTest).1 ↔
        ∃ hj : j < Nk.length, P.hubSize * k ≤ (Nk[j] : F) := by
      intro Nk j
      refine (mem_argwhere Nk (fun x => decide (P.hubSize * k ≤ (x : F))) j).trans ?_
      simp only [decide_eq_true_eq]
    refine ⟨h1 _, fun hne j => (h1 _ j).trans ?_⟩
    constructor
    · rintro ⟨hj, hle⟩
      exact ⟨hj, lt_of_le_of_ne hle (hne _ (List.getElem_mem _))⟩
    · rintro ⟨hj, hlt⟩
      exact ⟨hj, hlt.le⟩

/-! ## C63: cosine -/

/-- C63 is violated: with `metric='cosine'` fitting vectors always raises `TypeError`. -/
theorem C63_violated {K F : Type} [Field K] [LinearOrder K] [Field F] [LinearOrder F]
    (w : World K) (P : Params F) (k : ℕ) (hP : P.k = some (k : ℤ)) (hmet : P.metric = "cosine")
    (bs : ℕ) (hbs : 0 < bs) (shuffle hasSelf : Bool) (n p : ℕ) (hn : 0 < n) (X : Fin n → Fin p → K) :
    fitTransform w P bs shuffle hasSelf (.vectors n p X none) = .error .typeError := by
  have hb := (nBatches_pos (n := n) hbs).2 hn
  unfold fitTransform
  rw [hP]
  simp only [fitLists, kNeighbors]
  rw [if_neg (by omega), if_pos ⟨hmet, hb⟩]
  rfl

/-- C63 (what holds): with the Euclidean metric fitting vectors succeeds whenever there are at least `k`
candidates. -/
theorem C63_partial {K F : Type} [Field K] [LinearOrder K] [Field F] [LinearOrder F]
    (w : World K) (P : Params F) (k : ℕ) (hP : P.k = some (k : ℤ)) (hmet : P.metric = "euclidean")
    (bs : ℕ) (hbs : 0 < bs) (shuffle hasSelf : Bool) (n p : ℕ) (hn : 0 < n) (X : Fin n → Fin p → K) :
    (∃ fit, fitTransform w P bs shuffle hasSelf (.vectors n p X none) = .ok fit) ↔ k + 1 ≤ n := by
  have hmc : P.metric ≠ "cosine" := by rw [hmet]; decide
  unfold fitTransform
  rw [hP]
  simp only [fitLists, Int.toNat_natCast]
  rw [kNeighbors_eq _ _ hmc _ _ _ _ hbs _ (w.sched_perm n k)]
  by_cases h : k + 1 ≤ n
  · obtain ⟨σ, h1, _⟩ := rows_of_positions (n := n) (start := 1) (k := k) w.argpart false (fun _ => 1)
      (sqDist X X) (by omega)
    rw [loop_ok _ (fun (row : Fin k → Fin n) c => (row c).val) _ h1]
    exact ⟨fun _ => h, fun _ => ⟨_, rfl⟩⟩
  · rw [loop_error _ (fun (row : Fin k → Fin n) c => (row c).val) .valueError
      (fun i => rowNN_error _ _ _ _ _ _ (by omega)) _ hn]
    constructor
    · rintro ⟨fit, hf⟩; cases hf
    · intro hc; exact absurd hc h

/-! ## C11: batches and workers -/

/-- C11: on vectors, batch size, number of workers and schedule do not matter. -/
theorem C11_batches {K F : Type} [Field K] [LinearOrder K] [Field F] [LinearOrder F]
    (w w' : World K) (hw : w.argpart = w'.argpart) (P P' : Params F) (hk : P.k = P'.k)
    (hs : P.hubSize = P'.hubSize) (hm : P.metric = P'.metric) (bs bs' : ℕ) (hbs : 1 ≤ bs) (hbs' : 1 ≤ bs')
    (shuffle shuffle' hasSelf hasSelf' : Bool) (n p : ℕ) (X : Fin n → Fin p → K)
    (Y : Option (Σ m q : ℕ, Fin m → Fin q → K)) :
    fitTransform w P bs shuffle hasSelf (.vectors n p X Y)
      = fitTransform w' P' bs' shuffle' hasSelf' (.vectors n p X Y) := by
  have key : ∀ (k m start : ℕ) (Z : Fin m → Fin p → K),
      kNeighbors w.argpart P.metric P.nJobs start k bs (w.sched n k) X Z
        = kNeighbors w'.argpart P'.metric P'.nJobs start k bs' (w'.sched n k) X Z := by
    intro k m start Z
    by_cases hmc : P.metric = "cosine"
    · have hmc' : P'.metric = "cosine" := by rw [← hm]; exact hmc
      unfold kNeighbors
      rw [if_neg (show ¬ bs = 0 by omega), if_neg (show ¬ bs' = 0 by omega)]
      by_cases hn : 0 < n
      · rw [if_pos (show P.metric = "cosine" ∧ 0 < nBatches n bs from ⟨hmc, (nBatches_pos hbs).2 hn⟩),
          if_pos (show P'.metric = "cosine" ∧ 0 < nBatches n bs' from ⟨hmc', (nBatches_pos hbs').2 hn⟩)]
      · have hn0 : n = 0 := by omega
        subst hn0
        rw [if_neg (show ¬ (P.metric = "cosine" ∧ 0 < nBatches 0 bs) from
            fun hc => hn ((nBatches_pos hbs).1 hc.2)),
          if_neg (show ¬ (P'.metric = "cosine" ∧ 0 < nBatches 0 bs') from
            fun hc => hn ((nBatches_pos hbs').1 hc.2))]
        have h1 : ∀ i : Fin 0, rowNN w.argpart false 1 start k (sqDist X Z i) = .ok (fun _ => i.elim0) :=
          fun i => i.elim0
        have h1' : ∀ i : Fin 0, rowNN w'.argpart false 1 start k (sqDist X Z i) = .ok (fun _ => i.elim0) :=
          fun i => i.elim0
        rw [serialNN_ok _ start k bs _ _ h1 hbs, serialNN_ok _ start k bs' _ _ h1' hbs',
          parallelNN_ok _ start k bs _ _ h1 hbs _ (w.sched_perm 0 k),
          parallelNN_ok _ start k bs' _ _ h1' hbs' _ (w'.sched_perm 0 k)]
        split <;> split <;> rfl
    · rw [kNeighbors_eq _ _ hmc _ _ _ _ hbs _ (w.sched_perm n k),
        kNeighbors_eq _ _ (by rw [← hm]; exact hmc) _ _ _ _ hbs' _ (w'.sched_perm n k), hw]
  unfold fitTransform
  rw [hk, hs]
  cases P'.k with
  | none => rfl
  | some k =>
    rcases Y with _ | ⟨m, q, Y⟩
    · simp only [fitLists, key]
    · by_cases hq : q = p
      · subst hq
        simp only [fitLists, dif_pos, key]
      · simp only [fitLists, dif_neg hq]

/-! ## C12: self distances in a precomputed matrix -/

/-- Positions `0 … k-1` of a partially sorted row are the nearest of all. -/
theorem knn_of_positions {K : Type} [LinearOrder K] {m k : ℕ} (d : Fin m → XR K) (σ : Equiv.Perm (Fin m))
    (h : 0 + k ≤ m) (hs : ∀ p q : Fin m, p.val < 0 + k → p ≤ q → d (σ p) ≤ d (σ q)) :
    IsKnnAmong (fun _ => True) d k (List.ofFn (fun c : Fin k => σ ⟨0 + c.val, by omega⟩)) where
  length := by simp
  distinct := List.nodup_ofFn.2 (positions_injective σ h)
  cands := fun _ _ => trivial
  sorted := by
    rw [List.pairwise_ofFn]
    intro a b hab
    exact hs _ _ (by simp) (by rw [Fin.le_def]; simp; omega)
  best := by
    intro a ha b _ hb
    obtain ⟨c, rfl⟩ := (List.mem_ofFn' _ _).1 ha
    have := hs ⟨0 + c.val, by omega⟩ (σ.symm b) (by simp) (by
      by_contra hlt
      apply hb
      rw [Fin.le_def] at hlt
      simp only [zero_add, not_le] at hlt
      refine (List.mem_ofFn' _ _).2 ⟨⟨(σ.symm b).val, by omega⟩, ?_⟩
      simp)
    simpa using this

/-- Positions `1 … k` of a partially sorted row are the nearest of all but the first. -/
theorem knn_of_positions_one {K : Type} [LinearOrder K] {m k : ℕ} (d : Fin m → XR K)
    (σ : Equiv.Perm (Fin m)) (h : 1 + k ≤ m)
    (hs : ∀ p q : Fin m, p.val < 1 + k → p ≤ q → d (σ p) ≤ d (σ q)) (i : Fin m)
    (hi : ∀ j, j ≠ i → d i < d j) :
    IsKnnAmong (fun j => j ≠ i) d k (List.ofFn (fun c : Fin k => σ ⟨1 + c.val, by omega⟩)) := by
  have h0 : σ ⟨0, by omega⟩ = i := by
    by_contra hne
    have h1 := hi _ hne
    have h2 := hs ⟨0, by omega⟩ (σ.symm i) (by simp) (by rw [Fin.le_def]; simp)
    rw [Equiv.apply_symm_apply] at h2
    exact absurd h2 (not_le.2 h1)
  refine ⟨by simp, List.nodup_ofFn.2 (positions_injective σ h), ?_, ?_, ?_⟩
  · intro a ha
    obtain ⟨c, rfl⟩ := (List.mem_ofFn' _ _).1 ha
    rw [← h0]
    intro hc
    have := σ.injective hc
    simp at this
  · rw [List.pairwise_ofFn]
    intro a b hab
    exact hs _ _ (by simp) (by rw [Fin.le_def]; simp; omega)
  · intro a ha b hb hb'
    obtain ⟨c, rfl⟩ := (List.mem_ofFn' _ _).1 ha
    have := hs ⟨1 + c.val, by omega⟩ (σ.symm b) (by simp) (by
      by_contra hlt
      rw [Fin.le_def] at hlt
      simp only [not_le] at hlt
      rcases Nat.eq_zero_or_pos (σ.symm b).val with hz | hz
      · apply hb
        rw [← h0, ← σ.symm_apply_eq]
        exact Fin.ext hz
      · apply hb'
        refine (List.mem_ofFn' _ _).2 ⟨⟨(σ.symm b).val - 1, by omega⟩, ?_⟩
        rw [← σ.eq_symm_apply]
        ext
        simp only
        omega)
    simpa using this

/-- How far an entry counts: non-finite entries are infinitely far. -/
def farness {K : Type} (x : XR K) : XR K := if x.isFinite then x else .pinf

theorem dense_self {K F : Type} [Field K] [LinearOrder K] [Field F] [LinearOrder F]
    (w : World K) (P : Params F) (k : ℕ) (hP : P.k = some (k : ℤ)) (bs : ℕ) (shuffle : Bool)
    (n : ℕ) (D : Fin n → Fin n → XR K) (hk : k + 1 ≤ n)
    (hD : ∀ i j, j ≠ i → farness (D i i) < farness (D i j)) :
    ∃ rows : Fin n → Fin k → Fin n,
      fitTransform w P bs shuffle true (.dense n n D false)
        = .ok (stats P.hubSize k n n ((List.finRange n).flatMap (asLists rows))) ∧
      ∀ i, IsKnnAmong (fun j => j ≠ i) (fun j => farness (D i j)) k (List.ofFn (rows i)) := by
  obtain ⟨σ, h1, h2⟩ := rows_of_positions (n := n) (start := 1) (k := k) w.argpart shuffle
    (fun i => w.rnd i n) (fun i => Np.replaceNonFinite (D i) .pinf) (by omega)
  refine ⟨fun i c => σ i ⟨1 + c.val, by omega⟩, ?_, ?_⟩
  · unfold fitTransform
    rw [hP]
    simp only [fitLists, Int.toNat_natCast, precomputed, Bool.false_eq_true, if_false, true_and, and_self,
      if_true]
    rw [loop_ok _ (fun (row : Fin k → Fin n) c => (row c).val) _ h1, ← ravel_eq]
    rfl
  · intro i
    exact knn_of_positions_one (fun j => farness (D i j)) (σ i) (by omega) (h2 i) i (hD i)

/-- C12 (what holds): if in each row the entry of the object itself is the only smallest one, the lists are the `k`
nearest *other* objects. -/
theorem C12_partial {K F : Type} [Field K] [LinearOrder K] [Field F] [LinearOrder F]
    (w : World K) (P : Params F) (k : ℕ) (hP : P.k = some (k : ℤ)) (bs : ℕ) (shuffle : Bool)
    (n : ℕ) (D : Fin n → Fin n → XR K) (hk : k + 1 ≤ n)
    (hD : ∀ i j, j ≠ i → farness (D i i) < farness (D i j)) :
    ∃ (fit : Fit F) (rows : Fin n → Fin k → Fin n),
      fitTransform w P bs shuffle true (.dense n n D false) = .ok fit ∧
      fit.lists = (List.finRange n).flatMap (asLists rows) ∧
      ∀ i, IsKnnAmong (fun j => j ≠ i) (fun j => farness (D i j)) k (List.ofFn (rows i)) := by
  obtain ⟨rows, h1, h2⟩ := dense_self w P k hP bs shuffle n D hk hD
  exact ⟨_, rows, h1, rfl, h2⟩

/-- Non-vacuity of `C12_partial`. -/
example : ∀ i j : Fin 3, j ≠ i → farness (exD i i) < farness (exD i j) := by decide +kernel

/-- The same result when the row computations of two rows are on the same data. -/
theorem twin_rows {K : Type} [LinearOrder K] (o : ArgPart (XR K)) (d : Fin 3 → XR K)
    (h01 : d 0 = d 1) (h02 : d 0 < d 2) :
    ∃ r : Fin 1 → Fin 3, rowNN o false 1 1 1 d = .ok r ∧ (r 0 = 0 ∨ r 0 = 1) := by
  obtain ⟨σ, h1, h2⟩ := rowNN_ok o false 1 1 1 d (by omega)
  refine ⟨_, h1, ?_⟩
  have h3 := h2 1 2 (by decide) (by decide)
  change σ 1 = 0 ∨ σ 1 = 1
  by_contra hc
  push Not at hc
  have h4 : σ 1 = 2 := by
    have := hc.1; have := hc.2
    generalize σ 1 = x at *
    fin_cases x <;> simp_all
  have h5 : σ 2 ≠ 2 := fun h => by
    have := σ.injective (h4.trans h.symm)
    exact absurd this (by decide)
  rw [h4] at h3
  have h6 : d (σ 2) = d 0 := by
    generalize σ 2 = x at *
    fin_cases x <;> simp_all
  rw [h6] at h3
  exact absurd h3 (not_le.2 h02)

/-- Two objects at distance 0 from each other. -/
def dupD : Fin 3 → Fin 3 → XR ℚ :=
  ![![.fin 0, .fin 0, .fin 9], ![.fin 0, .fin 0, .fin 9], ![.fin 9, .fin 9, .fin 0]]

/-- A list entry `i` at place `i`: with `k = 1`, object `i` is its own neighbour. -/
theorem own_neighbour (rows : Fin 3 → Fin 1 → Fin 3) (r : Fin 3) (hr : r = 0 ∨ r = 1)
    (h0 : rows 0 0 = r) (h1 : rows 1 0 = r) :
    ∃ i : Fin 3, ((List.finRange 3).flatMap (asLists rows))[i.val]? = some i.val := by
  have hl : (List.finRange 3).flatMap (asLists rows)
      = [(rows 0 0).val, (rows 1 0).val, (rows 2 0).val] := rfl
  rw [hl, h0, h1]
  rcases hr with rfl | rfl
  · exact ⟨0, rfl⟩
  · exact ⟨1, rfl⟩

/-- C12 is violated: for a symmetric distance matrix with zero diagonal in which two objects have distance 0,
`has_self_distances=True` leaves one of the two as its own neighbour, whatever partial sort is used
(without shuffling). -/
theorem C12_violated (w : World ℚ) (bs : ℕ) :
    (∀ i j, dupD i j = dupD j i) ∧ (∀ i, dupD i i = .fin 0) ∧
    ∃ fit : Fit ℚ, fitTransform w (exP 1 2 "precomputed") bs false true (.dense 3 3 dupD false) = .ok fit ∧
      ∃ i : Fin 3, fit.lists[i.val]? = some i.val := by
  refine ⟨by decide +kernel, by decide +kernel, ?_⟩
  obtain ⟨σ, h1, _⟩ := rows_of_positions (n := 3) (start := 1) (k := 1) w.argpart false
    (fun i => w.rnd i 3) (fun i => Np.replaceNonFinite (dupD i) .pinf) (by omega)
  obtain ⟨r, hr, hr'⟩ := twin_rows w.argpart (Np.replaceNonFinite (dupD 0) .pinf)
    (by decide +kernel) (by decide +kernel)
  have e0 : (fun c : Fin 1 => σ 0 ⟨1 + c.val, by omega⟩) = r := by
    have := (h1 0).symm.trans hr
    exact Except.ok.inj this
  have e1 : (fun c : Fin 1 => σ 1 ⟨1 + c.val, by omega⟩) = r := by
    have h : Np.replaceNonFinite (dupD 1) .pinf = Np.replaceNonFinite (dupD 0) .pinf := by
      funext j; fin_cases j <;> decide +kernel
    have h1' := h1 1
    simp only [h] at h1'
    exact Except.ok.inj (h1'.symm.trans hr)
  refine ⟨stats 2 1 3 3 ((List.finRange 3).flatMap
    (asLists (fun (i : Fin 3) (c : Fin 1) => σ i ⟨1 + c.val, by omega⟩))), ?_, ?_⟩
  · unfold fitTransform
    simp only [exP, fitLists, precomputed, Bool.false_eq_true, if_false, true_and, and_self, if_true]
    have hk : Int.toNat 1 = 1 := rfl
    rw [hk, loop_ok _ (fun (row : Fin 1 → Fin 3) c => (row c).val) _ h1, ← ravel_eq]
    rfl
  · exact own_neighbour (fun (i : Fin 3) (c : Fin 1) => σ i ⟨1 + c.val, by omega⟩) (r 0) hr'
      (congrFun e0 0) (congrFun e1 0)

/-! ## C64: vectors -/

/-- The squared distance to another vector is positive. -/
theorem sqDist_pos {K : Type} [Field K] [LinearOrder K] [IsStrictOrderedRing K] {n p : ℕ}
    (X : Fin n → Fin p → K) (i j : Fin n) (h : X i ≠ X j) : sqDist X X i i < sqDist X X i j := by
  unfold sqDist
  rw [XR.fin_lt_fin]
  simp only [sub_self, ne_eq, OfNat.ofNat_ne_zero, not_false_eq_true, zero_pow, Finset.sum_const_zero]
  obtain ⟨f, hf⟩ := Function.ne_iff.1 h
  refine Finset.sum_pos' (fun g _ => sq_nonneg _) ⟨f, Finset.mem_univ _, ?_⟩
  have : X i f - X j f ≠ 0 := sub_ne_zero.2 hf
  positivity

/-- C64 (what holds without `Y`): for pairwise different vectors the lists are the `k` nearest other vectors. -/
theorem C64_partial {K F : Type} [Field K] [LinearOrder K] [IsStrictOrderedRing K] [Field F] [LinearOrder F]
    (w : World K) (P : Params F) (k : ℕ) (hP : P.k = some (k : ℤ)) (hmet : P.metric = "euclidean")
    (bs : ℕ) (hbs : 1 ≤ bs) (shuffle hasSelf : Bool) (n p : ℕ) (X : Fin n → Fin p → K) (hk : k + 1 ≤ n)
    (hX : ∀ i j, i ≠ j → X i ≠ X j) :
    ∃ (fit : Fit F) (rows : Fin n → Fin k → Fin n),
      fitTransform w P bs shuffle hasSelf (.vectors n p X none) = .ok fit ∧
      fit = stats P.hubSize k n n ((List.finRange n).flatMap (asLists rows)) ∧
      ∀ i, IsKnnAmong (fun j => j ≠ i) (fun j => ∑ f, (X i f - X j f) ^ 2) k (List.ofFn (rows i)) := by
  have hmc : P.metric ≠ "cosine" := by rw [hmet]; decide
  obtain ⟨σ, h1, h2⟩ := rows_of_positions (n := n) (start := 1) (k := k) w.argpart false (fun _ => 1)
      (sqDist X X) (by omega)
  refine ⟨stats P.hubSize k n n ((List.finRange n).flatMap
    (asLists (fun (i : Fin n) (c : Fin k) => σ i ⟨1 + c.val, by omega⟩))),
    fun i c => σ i ⟨1 + c.val, by omega⟩, ?_, rfl, ?_⟩
  · unfold fitTransform
    rw [hP]
    simp only [fitLists, Int.toNat_natCast]
    rw [kNeighbors_eq _ _ hmc _ _ _ _ hbs _ (w.sched_perm n k),
      loop_ok _ (fun (row : Fin k → Fin n) c => (row c).val) _ h1, ← ravel_eq]
    rfl
  · intro i
    have := knn_of_positions_one (sqDist X X i) (σ i) (by omega) (h2 i) i
      (fun j hj => sqDist_pos X i j (hX i j (Ne.symm hj)))
    exact ⟨this.length, this.distinct, this.cands, this.sorted.imp (fun h => by simpa [sqDist] using h),
      fun a ha b hb hb' => by simpa [sqDist] using this.best a ha b hb hb'⟩

/-- C64 (with `Y`): the lists are the `k` nearest vectors of `Y`. -/
theorem C64_given_Y {K F : Type} [Field K] [LinearOrder K] [IsStrictOrderedRing K] [Field F] [LinearOrder F]
    (w : World K) (P : Params F) (k : ℕ) (hP : P.k = some (k : ℤ)) (hmet : P.metric = "euclidean")
    (bs : ℕ) (hbs : 1 ≤ bs) (shuffle hasSelf : Bool) (n m p : ℕ) (X : Fin n → Fin p → K)
    (Y : Fin m → Fin p → K) (hk : k ≤ m) :
    ∃ (fit : Fit F) (rows : Fin n → Fin k → Fin m),
      fitTransform w P bs shuffle hasSelf (.vectors n p X (some ⟨m, p, Y⟩)) = .ok fit ∧
      fit = stats P.hubSize k n m ((List.finRange n).flatMap (asLists rows)) ∧
      ∀ i, IsKnnAmong (fun _ => True) (fun j => ∑ f, (X i f - Y j f) ^ 2) k (List.ofFn (rows i)) := by
  have hmc : P.metric ≠ "cosine" := by rw [hmet]; decide
  obtain ⟨σ, h1, h2⟩ := rows_of_positions (n := n) (start := 0) (k := k) w.argpart false (fun _ => 1)
      (sqDist X Y) (by omega)
  refine ⟨stats P.hubSize k n m ((List.finRange n).flatMap
    (asLists (fun (i : Fin n) (c : Fin k) => σ i ⟨0 + c.val, by omega⟩))),
    fun i c => σ i ⟨0 + c.val, by omega⟩, ?_, rfl, ?_⟩
  · unfold fitTransform
    rw [hP]
    simp only [fitLists, Int.toNat_natCast, dif_pos, Fin.cast_eq_self]
    rw [kNeighbors_eq _ _ hmc _ _ _ _ hbs _ (w.sched_perm n k),
      loop_ok _ (fun (row : Fin k → Fin m) c => (row c).val) _ h1, ← ravel_eq]
    rfl
  · intro i
    have := knn_of_positions (sqDist X Y i) (σ i) (by omega) (h2 i)
    exact ⟨this.length, this.distinct, this.cands, this.sorted.imp (fun h => by simpa [sqDist] using h),
      fun a ha b hb hb' => by simpa [sqDist] using this.best a ha b hb hb'⟩

/-- Two equal vectors and a third one. -/
def dupX : Fin 3 → Fin 1 → ℚ := ![![0], ![0], ![3]]

/-- C64 is violated without `Y` if two vectors are equal: one of them is its own neighbour, whatever partial sort
is used. -/
theorem C64_violated (w : World ℚ) (bs : ℕ) (hbs : 1 ≤ bs) (shuffle hasSelf : Bool) :
    ∃ fit : Fit ℚ, fitTransform w (exP 1 2 "euclidean") bs shuffle hasSelf (.vectors 3 1 dupX none)
        = .ok fit ∧ ∃ i : Fin 3, fit.lists[i.val]? = some i.val := by
  obtain ⟨σ, h1, _⟩ := rows_of_positions (n := 3) (start := 1) (k := 1) w.argpart false
    (fun _ => 1) (sqDist dupX dupX) (by omega)
  obtain ⟨r, hr, hr'⟩ := twin_rows w.argpart (sqDist dupX dupX 0) (by decide +kernel) (by decide +kernel)
  have e0 : (fun c : Fin 1 => σ 0 ⟨1 + c.val, by omega⟩) = r := Except.ok.inj ((h1 0).symm.trans hr)
  have e1 : (fun c : Fin 1 => σ 1 ⟨1 + c.val, by omega⟩) = r := by
    have h : sqDist dupX dupX 1 = sqDist dupX dupX 0 := by
      funext j; fin_cases j <;> decide +kernel
    have h1' := h1 1
    rw [h] at h1'
    exact Except.ok.inj (h1'.symm.trans hr)
  refine ⟨stats 2 1 3 3 ((List.finRange 3).flatMap
    (asLists (fun (i : Fin 3) (c : Fin 1) => σ i ⟨1 + c.val, by omega⟩))), ?_, ?_⟩
  · unfold fitTransform
    simp only [exP, fitLists]
    have hk : Int.toNat 1 = 1 := rfl
    rw [hk, kNeighbors_eq _ _ (by decide) _ _ _ _ hbs _ (w.sched_perm 3 1),
      loop_ok _ (fun (row : Fin 1 → Fin 3) c => (row c).val) _ h1, ← ravel_eq]
    rfl
  · exact own_neighbour (fun (i : Fin 3) (c : Fin 1) => σ i ⟨1 + c.val, by omega⟩) (r 0) hr'
      (congrFun e0 0) (congrFun e1 0)

/-! ## C65: `hubness_from_vectors` -/

theorem fromVectors_loop {K : Type} [LinearOrder K] (o : ArgPart (XR K)) {n m k start : ℕ}
    (d : Fin n → Fin m → XR K) (h : start + k ≤ m) :
    ∃ σ : Fin n → Equiv.Perm (Fin m), fromVectors.loop o k m d start
        = .ok (fun i c => (σ i ⟨start + c.val, by omega⟩).val) ∧
      ∀ i (p q : Fin m), p.val < start + k → p ≤ q → d i (σ i p) ≤ d i (σ i q) := by
  obtain ⟨σ, h1, h2⟩ := rows_of_positions (n := n) (start := start) (k := k) o false (fun _ => 1) d h
  refine ⟨σ, ?_, h2⟩
  unfold fromVectors.loop
  rw [loop_ok _ (fun (row : Fin k → Fin m) c => (row c).val) _ h1]

/-- C65: for pairwise different vectors without tied distances, `hubness_from_vectors` (metric
`euclidean`) and the estimator give the same lists, counts and skewness. -/
theorem C65_same_as_estimator {K F : Type} [Field K] [LinearOrder K] [IsStrictOrderedRing K] [Field F]
    [LinearOrder F] (w : World K) (o : ArgPart (XR K)) (P : Params F) (k : ℕ) (hP : P.k = some (k : ℤ))
    (hmet : P.metric = "euclidean") (bs : ℕ) (hbs : 1 ≤ bs) (shuffle hasSelf : Bool) (n p : ℕ)
    (X : Fin n → Fin p → K) (hk : k + 1 ≤ n) (hX : ∀ i j, i ≠ j → X i ≠ X j)
    (dist : (Fin p → K) → (Fin p → K) → K)
    (hdist : ∀ x y, 0 ≤ dist x y ∧ dist x y ^ 2 = ∑ f, (x f - y f) ^ 2)
    (htie : ∀ i a b, a ≠ i → b ≠ i → dist (X i) (X a) = dist (X i) (X b) → a = b) :
    ∃ (fit : Fit F) (Dk : Fin n → Fin k → ℕ),
      fitTransform w P bs shuffle hasSelf (.vectors n p X none) = .ok fit ∧
      fromVectors o k (fun x y => .fin (dist x y)) X none = .ok (fit.skewness, Dk, fit.kOcc) ∧
      fit.lists = (List.finRange n).flatMap (fun i => List.ofFn (Dk i)) := by
  obtain ⟨fit, rows, hfit, hstats, hknn⟩ := C64_partial w P k hP hmet bs hbs shuffle hasSelf n p X hk hX
  obtain ⟨σ, hl, hs⟩ := fromVectors_loop o (start := 1) (k := k) (fun i j => XR.fin (dist (X i) (X j)))
    (by omega : 1 + k ≤ n)
  have hmono : ∀ x y x' y', dist x y ≤ dist x' y' ↔
      ∑ f, (x f - y f) ^ 2 ≤ ∑ f, (x' f - y' f) ^ 2 := by
    intro x y x' y'
    rw [← (hdist x y).2, ← (hdist x' y').2]
    exact (pow_le_pow_iff_left₀ (hdist x y).1 (hdist x' y').1 (by norm_num)).symm
  have hself : ∀ i j, j ≠ i → (XR.fin (dist (X i) (X i)) : XR K) < .fin (dist (X i) (X j)) := by
    intro i j hj
    have := sqDist_pos X i j (hX i j (Ne.symm hj))
    rw [XR.fin_lt_fin]
    unfold sqDist at this
    rw [XR.fin_lt_fin] at this
    rw [← not_le, hmono, not_le]
    exact this
  have hrows : ∀ i, rows i = fun c => σ i ⟨1 + c.val, by omega⟩ := by
    intro i
    have h1 := knn_of_positions_one (fun j => XR.fin (dist (X i) (X j))) (σ i) (by omega) (hs i) i (hself i)
    have h2 : IsKnnAmong (fun j => j ≠ i) (fun j => ∑ f, (X i f - X j f) ^ 2) k
        (List.ofFn (fun c : Fin k => σ i ⟨1 + c.val, by omega⟩)) :=
      ⟨h1.length, h1.distinct, h1.cands,
        h1.sorted.imp (fun {a b} h => (hmono (X i) (X a) (X i) (X b)).1 (by simpa using h)),
        fun a ha b hb hb' => (hmono (X i) (X a) (X i) (X b)).1 (by simpa using h1.best a ha b hb hb')⟩
    have := (hknn i).unique h2 (fun a b ha hb hab => htie i a b ha hb (le_antisymm
      ((hmono _ _ _ _).2 hab.le) ((hmono _ _ _ _).2 hab.ge)))
    exact List.ofFn_injective this
  refine ⟨fit, fun i c => (σ i ⟨1 + c.val, by omega⟩).val, hfit, ?_, ?_⟩
  · have hL : ravel (fun i (c : Fin k) => (σ i ⟨1 + c.val, by omega⟩).val)
        = (List.finRange n).flatMap (asLists rows) := by
      rw [ravel_eq, (funext hrows : rows = _)]
    have hk' : fit.kOcc = Np.bincount (ravel (fun i (c : Fin k) => (σ i ⟨1 + c.val, by omega⟩).val)) n := by
      rw [hL, hstats]; rfl
    have hs' : fit.skewness
        = skew (Np.bincount (ravel (fun i (c : Fin k) => (σ i ⟨1 + c.val, by omega⟩).val)) n) := by
      rw [hL, hstats]; rfl
    rw [hk', hs']
    unfold fromVectors
    simp only
    rw [hl]
    rfl
  · rw [hstats]
    change (List.finRange n).flatMap (asLists rows) = _
    rw [(funext hrows : rows = _), ← ravel_eq]
    rfl

/-- Three points on a line. -/
def lineX : Fin 3 → Fin 1 → ℚ := ![![0], ![1], ![3]]

/-- Non-vacuity of `C64_partial` and `C65_same_as_estimator`. -/
example : (∀ i j, i ≠ j → lineX i ≠ lineX j) ∧
    (∀ x y : Fin 1 → ℚ, 0 ≤ |x 0 - y 0| ∧ |x 0 - y 0| ^ 2 = ∑ f, (x f - y f) ^ 2) ∧
    (∀ i a b, a ≠ i → b ≠ i → |lineX i 0 - lineX a 0| = |lineX i 0 - lineX b 0| → a = b) := by
  refine ⟨?_, ?_, ?_⟩
  · intro i j hij h
    have := congrFun h 0
    revert this hij
    fin_cases i <;> fin_cases j <;> simp [lineX]
  · intro x y
    simp [sq_abs]
  · intro i a b ha hb
    fin_cases i <;> fin_cases a <;> fin_cases b <;> simp_all [lineX] <;> norm_num [abs]

/-! ## C66: estimator and function -/

/-- C66: on a distance matrix without tied distances the estimator (`metric='precomputed'`,
`has_self_distances=True`) and the function `hubness` give the same lists, counts and skewness. -/
theorem C66_same_as_function {K F : Type} [Field K] [LinearOrder K] [Field F]
    [LinearOrder F] (w : World K) (o : ArgPart (XR K)) (rnd : Rnd) (sched : Schedule) (P : Params F) (k : ℕ)
    (hP : P.k = some (k : ℤ)) (bs : ℕ) (shuffle shuffle' : Bool) (nJobs : ℤ)
    (hj : nJobs = -1 ∨ 1 ≤ nJobs) (n : ℕ) (d : Fin n → Fin n → K) (hk : k + 1 ≤ n)
    (hself : ∀ i j, j ≠ i → d i i < d i j) (htie : ∀ i a b, a ≠ i → b ≠ i → d i a = d i b → a = b) :
    ∃ (fit : Fit F) (r : Res n),
      fitTransform w P bs shuffle true (.dense n n (fun i j => .fin (d i j)) false) = .ok fit ∧
      hubnessMat o rnd sched false (fun i j => XR.fin (d i j)) k "distance" nJobs false shuffle' = .ok r ∧
      fit.lists = (List.finRange n).flatMap r.Dk ∧ fit.kOcc = r.Nk ∧ fit.skewness = r.Sk := by
  obtain ⟨rows, h1, h2⟩ := dense_self w P k hP bs shuffle n (fun i j => XR.fin (d i j)) hk
    (fun i j hj => by simpa [farness] using hself i j hj)
  have hc : Covered nJobs "distance" n n := by simp [Covered]
  obtain ⟨r, hr⟩ := (C01_hubness_succeeds_iff o rnd sched false (fun i j => XR.fin (d i j)) k "distance"
    nJobs false shuffle' hc).2 ⟨Or.inl rfl, by omega, by omega, Or.inr ⟨rfl, hj⟩⟩
  have hD : r.Dk = asLists rows := by
    funext i
    obtain ⟨L, hL, hknn⟩ := C01_hubness_knn o rnd sched false _ k "distance" nJobs false shuffle' hc r hr i
    have hmin : (min (k : ℤ) ((n : ℤ) - 1)).toNat = k := by omega
    rw [hmin] at hknn
    have heff : ∀ j, effective "distance" (fun i j => XR.fin (d i j)) i j
        = if j = i then .pinf else .fin (d i j) := by
      intro j
      by_cases hji : j = i
      · subst hji; simp [effective, far]
      · have : ¬ i.val = j.val := fun h => hji (Fin.ext h.symm)
        simp [effective, hji, this]
    have hcl : ∀ a b : XR K, closer "distance" a b ↔ a ≤ b := by
      intro a b; simp [closer]
    have hni : i ∉ L := by
      intro hi
      obtain ⟨b, hb⟩ : ∃ b, b ∉ L := by
        by_contra hcon
        push Not at hcon
        have h3 : (Finset.univ : Finset (Fin n)).card ≤ L.toFinset.card :=
          Finset.card_le_card (fun x _ => List.mem_toFinset.2 (hcon x))
        rw [List.toFinset_card_of_nodup hknn.distinct, hknn.length, Finset.card_univ,
          Fintype.card_fin] at h3
        omega
      have hbi : b ≠ i := fun h => hb (h ▸ hi)
      have := (hcl _ _).1 (hknn.best i hi b hb)
      rw [heff, heff, if_pos rfl, if_neg hbi] at this
      exact XR.not_pinf_le_fin this
    have hne : ∀ a ∈ L, a ≠ i := fun a ha h => hni (h ▸ ha)
    have hamong : IsKnnAmong (fun j => j ≠ i) (fun j => farness (XR.fin (d i j))) k L := by
      refine ⟨hknn.length, hknn.distinct, hne, ?_, ?_⟩
      · refine hknn.sorted.imp_of_mem (fun {a b} ha hb h => ?_)
        have := (hcl _ _).1 h
        rw [heff, heff, if_neg (hne a ha), if_neg (hne b hb)] at this
        simpa [farness] using this
      · intro a ha b hb hb'
        have := (hcl _ _).1 (hknn.best a ha b hb')
        rw [heff, heff, if_neg (hne a ha), if_neg hb] at this
        simpa [farness] using this
    rw [hL, hamong.unique (h2 i) (fun a b ha hb hab => htie i a b ha hb (by simpa [farness] using hab))]
    rfl
  have hN : r.Nk = Np.bincount ((List.finRange n).flatMap r.Dk) n ∧ r.Sk = skew r.Nk := by
    obtain ⟨-, -, L, rfl, -⟩ := hubnessMat_inv o rnd sched hc hr
    exact ⟨rfl, rfl⟩
  refine ⟨_, r, h1, hr, ?_, ?_, ?_⟩
  · rw [hD]; rfl
  · rw [hN.1, hD]; rfl
  · rw [hN.2, hN.1, hD]; rfl

/-- Non-vacuity of `C66_same_as_function`. -/
example : ∃ d : Fin 3 → Fin 3 → ℚ, (∀ i j, j ≠ i → d i i < d i j) ∧
    ∀ i a b, a ≠ i → b ≠ i → d i a = d i b → a = b :=
  ⟨![![0, 1, 3], ![1, 0, 2], ![3, 2, 0]], by decide +kernel, by decide +kernel⟩

/-! ## C67: sparse matrices -/

/-- C67 is violated: `has_self_distances=True` is ignored for sparse matrices, stored self distances make each
object its own nearest neighbour. -/
theorem C67_violated : ∃ (D : Fin 2 → List (Fin 2 × XR ℚ)) (fit : Fit ℚ),
    (∀ i j : Fin 2, (j, (.fin (if i = j then 0 else 1) : XR ℚ)) ∈ D i) ∧
    fitTransform (stdWorld ℚ) (exP 1 2 "precomputed") 64 false true (.sparse 2 2 D false) = .ok fit ∧
    fit.lists = [0, 1] := by
  refine ⟨![[(0, .fin 0), (1, .fin 1)], [(0, .fin 1), (1, .fin 0)]], _, ?_, rfl, ?_⟩
  · decide +kernel
  · decide +kernel

/-- C67 (what holds): the lists are the `k` nearest of the stored entries of each row, so a row without a stored
self distance does not contain its own object. -/
theorem C67_partial {K F : Type} [Field K] [LinearOrder K] [Field F] [LinearOrder F]
    (w : World K) (P : Params F) (k : ℕ) (hP : P.k = some (k : ℤ)) (bs : ℕ) (shuffle hasSelf : Bool)
    (n m : ℕ) (D : Fin n → List (Fin m × XR K)) (fit : Fit F)
    (h : fitTransform w P bs shuffle hasSelf (.sparse n m D false) = .ok fit) :
    ∃ pos : ∀ i, Fin k → Fin (D i).length,
      fit.lists = (List.finRange n).flatMap
        (asLists (fun i c => ((D i).get (pos i c)).1)) ∧
      (∀ i, IsKnnAmong (fun _ => True) (fun p => ((D i).get p).2) k (List.ofFn (pos i))) ∧
      ∀ (i : Fin n) (a : Fin m), (∀ e ∈ D i, e.1 ≠ a) → ∀ c, ((D i).get (pos i c)).1 ≠ a := by
  unfold fitTransform at h
  rw [hP] at h
  simp only [Int.toNat_natCast, fitLists, Bool.false_eq_true, if_false] at h
  cases hp : precomputedSparse w.argpart w.rnd shuffle k D with
  | error e => rw [hp] at h; cases h
  | ok L =>
    rw [hp] at h
    obtain ⟨pos, hpos, rfl⟩ := sparse_inv _ _ _ _ _ hp
    cases h
    refine ⟨pos, ravel_eq (fun i c => ((D i).get (pos i c)).1), ?_, ?_⟩
    · intro i
      have hlen := rowNN_cases _ _ _ _ _ _ (hpos i)
      obtain ⟨σ, h1, h2⟩ := rowNN_ok w.argpart shuffle (w.rnd i (D i).length) 0 k
        (fun p => ((D i).get p).2) hlen
      rw [Except.ok.inj ((hpos i).symm.trans h1)]
      exact knn_of_positions _ σ hlen h2
    · intro i a ha c
      exact ha _ (List.get_mem _ _)

end HubToolbox.HubClass
