import Verif.Spawn.Model
import Verif.Hubness.Props
import Verif.LS.Props
import Verif.SNN.Props
import Verif.Cent.Local
import Verif.MPEmp.Props

/-!
# C191: results of parallel computations and the start method of worker processes
-/

set_option autoImplicit false

namespace HubToolbox.Spawn

open HubToolbox

section
variable {A V : Type} [DecidableEq A]

theorem foldl_shared (p : Pool) (h : Handed) (hc : p.copies h = false) (ws : List (A × (Fin p.size → V))) (t : ℕ)
    (s : Mem p.size A V) :
    ((ws.zipIdx t).foldl (fun s x => p.store h s (p.who x.2) x.1) s).main =
      Sched.exec s.main ((ws.zipIdx t).map (fun x => (x.1.1, x.1.2 (p.who x.2)))) := by
  induction ws generalizing t s with
  | nil => rfl
  | cons x ws ih =>
    rw [List.zipIdx_cons, List.foldl_cons, ih]
    simp [Pool.store, hc, Sched.exec]

theorem foldl_copies (p : Pool) (h : Handed) (hc : p.copies h = true) (ws : List (A × (Fin p.size → V))) (t : ℕ)
    (s : Mem p.size A V) :
    ((ws.zipIdx t).foldl (fun s x => p.store h s (p.who x.2) x.1) s).main = s.main := by
  induction ws generalizing t s with
  | nil => rfl
  | cons x ws ih =>
    rw [List.zipIdx_cons, List.foldl_cons, ih]
    simp [Pool.store, hc]

/-- With copies nothing arrives in the main process. -/
theorem result_copies (p : Pool) (h : Handed) (hc : p.copies h = true) (mem : A → V) (ws : List (A × (Fin p.size → V))) :
    p.result h mem ws = mem := foldl_copies p h hc ws 0 _

theorem result_shared (p : Pool) (h : Handed) (hc : p.copies h = false) (mem : A → V) (ws : List (A × (Fin p.size → V))) :
    p.result h mem ws = Sched.exec mem (ws.zipIdx.map (fun x => (x.1.1, x.1.2 (p.who x.2)))) := foldl_shared p h hc ws 0 _

/-- Values which do not depend on the worker. -/
theorem result_const (p : Pool) (h : Handed) (hc : p.copies h = false) (mem : A → V) (ws : List (A × (Fin p.size → V)))
    (f : A × (Fin p.size → V) → V) (hf : ∀ x ∈ ws, ∀ u, x.2 u = f x) :
    p.result h mem ws = Sched.exec mem (ws.map (fun x => (x.1, f x))) := by
  rw [result_shared p h hc]
  congr 1
  apply List.ext_getElem
  · simp
  · intro i h1 h2
    simp only [List.getElem_map, List.getElem_zipIdx]
    rw [hf _ (List.getElem_mem _)]

theorem exec_shared (p : Pool) (h : Handed) (hc : p.copies h = false) (mem : A → V) (ws : List (A × V)) :
    p.exec h mem ws = Sched.exec mem ws := by
  unfold Pool.exec
  rw [result_const p h hc mem _ (fun x => x.2 (p.who 0))]
  · rw [List.map_map]
    congr 1
    conv_rhs => rw [← List.map_id ws]
    exact List.map_congr_left fun x _ => rfl
  · intro x hx u
    obtain ⟨y, _, rfl⟩ := List.mem_map.1 hx
    rfl

theorem exec_copies (p : Pool) (h : Handed) (hc : p.copies h = true) (mem : A → V) (ws : List (A × V)) :
    p.exec h mem ws = mem := result_copies p h hc mem _

theorem view_shared (p : Pool) (h : Handed) (hc : p.copies h = false) (mem : A → V) (ws : List (A × (Fin p.size → V)))
    (u : Fin p.size) : p.view h mem ws u = p.result h mem ws := by simp [Pool.view, Pool.result, hc]
end

theorem fork_shared (p : Pool) (hp : p.start = .fork) (h : Handed) : p.copies h = false := by simp [Pool.copies, hp]
theorem ctypes_shared (p : Pool) : p.copies .ctypes = false := by simp [Pool.copies]
theorem spawn_copies (p : Pool) (hp : p.start = .spawn) : p.copies .ndarray = true := by simp [Pool.copies, hp]

/-! ### Forked processes -/

theorem hubness_fork {K : Type} [LinearOrder K] [Zero K] (p : Pool) (hp : p.start = .fork) (o : ArgPart (XR K))
    (rnd : Hubness.Rnd) (sched : Hubness.Schedule) {n m : ℕ} (sparse : Bool) (D : Fin n → Fin m → XR K) (k : ℤ)
    (metric : String) (nJobs : ℤ) (seed shuffle : Bool) :
    hubness p o rnd sched sparse D k metric nJobs seed shuffle =
      Hubness.hubnessMat o rnd sched sparse D k metric nJobs seed shuffle := by
  unfold hubness Hubness.hubnessMat hubnessParallel Hubness.parallel
  simp only [exec_shared p _ (fork_shared p hp _)]

theorem localScaling_fork (p : Pool) (hp : p.start = .fork) (w : LS.World) {n : ℕ} (D : Fin n → Fin n → XR ℝ) (k : ℤ)
    (metric : String) (test : Option (List ℤ)) (nJobs : ℤ) (hj : 1 < LS.jobs w nJobs) :
    localScaling p w D k metric test = LS.core w D k metric test nJobs := by
  unfold localScaling LS.core radii LS.radiiParallel LS.secParallel
  simp only [exec_shared p _ (fork_shared p hp _), gt_iff_lt, hj, if_true, (ne_of_gt hj), if_false]

theorem nicdm_fork (p : Pool) (hp : p.start = .fork) (w : LS.World) {n : ℕ} (D : Fin n → Fin n → XR ℝ) (k : ℕ)
    (test : Option (List ℤ)) (nJobs : ℤ) (hj : 1 < LS.jobs w nJobs) :
    nicdm p w D k test = LS.nicdmCore w D k test nJobs := by
  unfold nicdm LS.nicdmCore meanRadii LS.meanRadiiParallel LS.nicdmParallel
  simp only [exec_shared p _ (fork_shared p hp _), gt_iff_lt, hj, if_true]

section
variable {K : Type} [Field K] [LinearOrder K]

theorem marks_fork (p : Pool) (hp : p.start = .fork) (w : SNN.World K) {n m : ℕ} (sel : Fin n → List (Fin m))
    (u : Fin p.size) : marks p w sel u = SNN.markParallel w sel := by
  unfold marks SNN.markParallel
  simp only [view_shared p _ (fork_shared p hp _)]
  have := exec_shared p .ndarray (fork_shared p hp _) (fun _ : Fin n × Fin m => false)
    (w.sched ((List.finRange n).flatMap (fun (i : Fin n) => (sel i).map (fun c => ((i, c), true)))))
  unfold Pool.exec at this
  rw [this]

theorem snn_fork (p : Pool) (hp : p.start = .fork) (w : SNN.World K) {n : ℕ} (D : Fin n → Fin n → XR K) (k : ℤ)
    (metric : String) (nJobs : ℤ) (hj : 1 < SNN.jobs w nJobs) : snn p w D k metric = SNN.core w D k metric nJobs := by
  unfold snn SNN.core
  simp only [gt_iff_lt, hj, if_true]
  congr 1
  funext sel
  have hmem : ∀ i j, p.result .ndarray (fun _ : Fin n × Fin n => (.fin 0 : XR K))
      (w.sched ((List.finRange n).flatMap (fun (i : Fin n) =>
        ((List.finRange n).filter (fun (j : Fin n) => decide (i < j))).map
          (fun j => ((i, j), fun u => SNN.entry metric k (SNN.overlap (marks p w sel u i) (marks p w sel u j)))))))
        (i, j) = SNN.secParallel w metric k (SNN.markParallel w sel) i j := by
    intro i j
    simp only [marks_fork p hp w sel]
    rw [result_const p _ (fork_shared p hp _) _ _ (fun x => x.2 (p.who 0)), SNN.secParallel_eq, SNN.secSerial_apply]
    · have hm : ∀ x : (Fin n × Fin n) × XR K, x ∈ (w.sched ((List.finRange n).flatMap (fun (i : Fin n) =>
          ((List.finRange n).filter (fun (j : Fin n) => decide (i < j))).map (fun j => ((i, j), fun _ : Fin p.size =>
            (SNN.entry metric k (SNN.overlap (SNN.markParallel w sel i) (SNN.markParallel w sel j)) : XR K)))))).map
              (fun x => (x.1, x.2 (p.who 0))) ↔
          ∃ i j, i < j ∧ x = ((i, j),
            SNN.entry metric k (SNN.overlap (SNN.markParallel w sel i) (SNN.markParallel w sel j))) := by
        intro x
        rw [List.mem_map]
        constructor
        · rintro ⟨y, hy, rfl⟩
          rw [(w.sched_perm _).mem_iff, List.mem_flatMap] at hy
          obtain ⟨i, _, hy⟩ := hy
          obtain ⟨j, hj, rfl⟩ := List.mem_map.1 hy
          exact ⟨i, j, by simpa using hj, rfl⟩
        · rintro ⟨i, j, hij, rfl⟩
          refine ⟨((i, j), fun _ => SNN.entry metric k
            (SNN.overlap (SNN.markParallel w sel i) (SNN.markParallel w sel j))), ?_, rfl⟩
          rw [(w.sched_perm _).mem_iff, List.mem_flatMap]
          exact ⟨i, List.mem_finRange i, List.mem_map.2 ⟨j, by simpa using hij, rfl⟩⟩
      by_cases h : i < j
      · rw [if_pos h]
        refine Sched.exec_of_consistent _ _ _ _ ((hm _).2 ⟨i, j, h, rfl⟩) ?_
        intro x hx hxa
        obtain ⟨i', j', _, rfl⟩ := (hm x).1 hx
        obtain ⟨rfl, rfl⟩ := Prod.mk.inj hxa
        rfl
      · rw [if_neg h, Sched.exec_of_notMem]
        intro hx
        obtain ⟨x, hx, hxe⟩ := List.mem_map.1 hx
        obtain ⟨i', j', hij, rfl⟩ := (hm x).1 hx
        obtain ⟨rfl, rfl⟩ := Prod.mk.inj hxe
        exact h hij
    · intro x hx u
      rw [(w.sched_perm _).mem_iff, List.mem_flatMap] at hx
      obtain ⟨i, _, hx⟩ := hx
      obtain ⟨j, _, rfl⟩ := List.mem_map.1 hx
      rfl
  simp only [hmem]
end

section
variable {K : Type} [Field K] [LinearOrder K] [FloorRing K]

theorem centroids_fork (p : Pool) (hp : p.start = .fork) (w : SNN.World K) (k nJobs : ℤ) (hj : 1 < nJobs) {n l m : ℕ}
    (D : Fin n → Fin l → XR K) (Y : Fin l → Fin m → K) :
    centroids p w k D Y = Cent.centroids w nJobs .float64 k D Y := by
  unfold centroids Cent.centroids
  simp only [exec_shared p _ (fork_shared p hp _), gt_iff_lt, hj, if_true]
  rfl

theorem disSimLocal_fork (p : Pool) (hp : p.start = .fork) (w : SNN.World K) {n m : ℕ} (X : Fin n → Fin m → K)
    (k nJobs : ℤ) (hj : 1 < nJobs) :
    (disSimLocal p w X k).map (fun M => (⟨n, M⟩ : Σ l : ℕ, Fin n → Fin l → XR K)) =
      Cent.disSimLocal w X .float64 none k nJobs := by
  unfold disSimLocal Cent.disSimLocal
  simp only [centroids_fork p hp w k nJobs hj]
  by_cases h : n = 0 ∨ m = 0
  · simp only [h, if_true]; rfl
  · simp only [h, if_false]
    cases Cent.centroids w nJobs .float64 k
      (Np.fillDiagonal (fun i j => .fin (Cent.sqDist (X i) (X j))) .pinf : Fin n → Fin n → XR K) X <;> rfl
end

/-! ### Spawned processes -/

/-- **C191** (hubness) is violated: with `n_jobs > 1` and spawned processes, `hubness` claims for every matrix that the first
object is the nearest neighbour of all, `k` times over. -/
theorem C191_hubness_blind {K : Type} [LinearOrder K] [Zero K] (p : Pool) (hp : p.start = .spawn) (o : ArgPart (XR K))
    (rnd : Hubness.Rnd) (sched : Hubness.Schedule) {n m : ℕ} (sparse : Bool) (D : Fin n → Fin m → XR K) (k : ℕ)
    (hm : 0 < m) (metric : String) (hmet : metric = "distance" ∨ metric = "similarity") (nJobs : ℤ)
    (hj : nJobs = -1 ∨ 1 < nJobs) (shuffle : Bool) :
    ∃ r, hubness p o rnd sched sparse D k metric nJobs false shuffle = .ok r ∧
      ∀ i, r.Dk i = List.replicate (min k (m - 1)) 0 := by
  have hk : 0 ≤ Hubness.reduceK k m := by unfold Hubness.reduceK; split <;> omega
  have hk' : ¬ Hubness.reduceK k m < 0 := by omega
  have hj1 : nJobs ≠ 1 := by omega
  have hj' : ¬ (nJobs ≠ -1 ∧ nJobs < 1) := by omega
  obtain ⟨L, hL, -⟩ := Hubness.rows_exist o rnd sparse D k metric shuffle hk hmet
  have hlen : (Hubness.reduceK k m).toNat = min k (m - 1) := by unfold Hubness.reduceK; split <;> omega
  unfold hubness hubnessParallel
  simp only [hj1, if_false, Bool.false_eq_true, Hubness.checkValidMetric_ok hmet, hk', hj']
  rw [foldlM_update_finRange _ _ hL]
  refine ⟨_, rfl, ?_⟩
  intro i
  simp only [exec_copies p _ (spawn_copies p hp), Hubness.finish]
  rw [← hlen]
  exact List.ofFn_const _ _

/-- **C191** (hubness) is violated for *every* matrix of finite distances between at least two objects: the result of
spawned worker processes is never that of a single process. -/
theorem C191_violated_hubness {K : Type} [LinearOrder K] [Zero K] (p : Pool) (hp : p.start = .spawn) (o : ArgPart (XR K))
    (rnd : Hubness.Rnd) (sched : Hubness.Schedule) {n : ℕ} (hn : 2 ≤ n) (D : Fin n → Fin n → XR K)
    (hD : ∀ i j, (D i j).isFinite = true) (k : ℕ) (hk : 1 ≤ k) (metric : String)
    (hmet : metric = "distance" ∨ metric = "similarity") (nJobs : ℤ) (hj : nJobs = -1 ∨ 1 < nJobs) (shuffle : Bool) :
    ∃ r r', hubness p o rnd sched false D k metric nJobs false shuffle = .ok r ∧
      hubness p o rnd sched false D k metric 1 false shuffle = .ok r' ∧ r.Dk ≠ r'.Dk := by
  obtain ⟨r, hr, hr0⟩ := C191_hubness_blind p hp o rnd sched false D k (by omega) metric hmet nJobs hj shuffle
  obtain ⟨r', hr'⟩ := (Hubness.C01_hubness_succeeds_iff o rnd sched false D (k : ℤ) metric 1 false shuffle
    (by simp [Hubness.Covered])).2 ⟨hmet, by omega, by omega, Or.inl rfl⟩
  refine ⟨r, r', hr, ?_, ?_⟩
  · rw [← hr']
    unfold hubness Hubness.hubnessMat
    simp only [if_true]
  · intro he
    have hself := Hubness.C02_no_self_neighbour o rnd sched false D (k : ℤ) metric 1 false shuffle r' hr' ⟨0, by omega⟩ (by
      have : (Finset.univ.filter (fun j : Fin n => j ≠ ⟨0, by omega⟩ ∧ (D ⟨0, by omega⟩ j).isFinite = true)) =
          Finset.univ.erase ⟨0, by omega⟩ := by
        ext j; simp [hD]
      rw [this, Finset.card_erase_of_mem (Finset.mem_univ _), Finset.card_univ, Fintype.card_fin]
      omega)
    rw [← he, hr0] at hself
    apply hself
    rw [List.mem_replicate]
    exact ⟨by omega, rfl⟩

/-- **C191** (Local Scaling) is violated: with spawned processes all secondary values between different objects are zero,
whatever the primary distances. -/
theorem C191_localScaling_blind (p : Pool) (hp : p.start = .spawn) (w : LS.World) {n : ℕ} (D : Fin n → Fin n → XR ℝ) (k : ℤ)
    (metric : String) (test : Option (List ℤ)) (t : Fin (LS.trainInd n test).length)
    (ht : Np.wrap (LS.trainInd n test).length (LS.kthOf metric n k) = some t) :
    ∃ M, localScaling p w D k metric test = .ok M ∧ ∀ i j, i ≠ j → M i j = .fin 0 := by
  unfold localScaling radii
  simp only [LS.partAt_eq w.part _ _ t ht, Np.tabulateM_ok]
  refine ⟨_, rfl, ?_⟩
  intro i j hij
  simp only [exec_copies p _ (spawn_copies p hp), Np.fillDiagonal]
  rw [if_neg (fun h => hij (Fin.ext h))]

/-- **C191** (Local Scaling) is violated for all finite symmetric distances with positive radii: two objects with a distance
have none with spawned processes, but have one with forked ones. -/
theorem C191_violated_localScaling (p q : Pool) (hp : p.start = .spawn) (hq : q.start = .fork) (w : LS.World)
    {n : ℕ} (x : Fin n → Fin n → ℝ) (hsym : ∀ i j, x i j = x j i) (k : ℕ) (hk : 1 ≤ k) (r : Fin n → ℝ)
    (hr : ∀ i, Spec.IsKthSmallest ((Spec.training n none).erase i) (x i) k (r i)) (hpos : ∀ i, 0 < r i)
    (i j : Fin n) (hij : i ≠ j) (hx : x i j ≠ 0) :
    ∃ M M', localScaling p w (LS.toXR x) k "distance" none = .ok M ∧
      localScaling q w (LS.toXR x) k "distance" none = .ok M' ∧ M i j = .fin 0 ∧ M' i j ≠ .fin 0 := by
  have hn : 0 < n := lt_of_le_of_lt (Nat.zero_le _) i.isLt
  have hlen : k ≤ (LS.trainInd n none).length :=
    ((hr i).upto.trans (Finset.card_le_card (Finset.filter_subset _ _))).trans (LS.training_card_le n none _)
  have ht : Np.wrap (LS.trainInd n none).length (LS.kthOf "distance" n k) = some ⟨k - 1, by omega⟩ := by
    unfold LS.kthOf
    rw [if_neg (by decide)]
    exact LS.wrap_pred hk hlen
  obtain ⟨M, hM, h0⟩ := C191_localScaling_blind p hp w (LS.toXR x) k "distance" none _ ht
  obtain ⟨M', hM', -, -, -, hz⟩ := LS.C28_valid w x hsym k hk none 2 (Or.inr (by norm_num)) r hr hpos hn
  rw [LS.localScaling_dense w _ _ _ (Or.inl rfl), ← localScaling_fork q hq w _ _ _ _ 2 (by simp [LS.jobs])] at hM'
  cases hc : localScaling q w (LS.toXR x) k "distance" none with
  | error e => rw [hc] at hM'; cases hM'
  | ok N =>
    rw [hc] at hM'
    have hN : N = LS.toXR M' := by
      injection hM' with h
      exact eq_of_heq (Sigma.mk.inj h).2
    refine ⟨M, N, hM, rfl, h0 i j hij, ?_⟩
    rw [hN]
    intro h
    exact hx ((hz i j hij).1 (by simpa [LS.toXR] using h))

/-- **C191** (NICDM) is violated: with spawned processes all secondary distances are zero. -/
theorem C191_nicdm_blind (p : Pool) (hp : p.start = .spawn) (w : LS.World) {n : ℕ} (D : Fin n → Fin n → XR ℝ) (k : ℕ)
    (test : Option (List ℤ)) (h : k ≤ (LS.trainInd n test).length) :
    nicdm p w D k test = .ok fun _ _ => .fin 0 := by
  unfold nicdm meanRadii
  simp only [exec_copies p _ (spawn_copies p hp), LS.meanRadius_ok w.part _ k h, Np.tabulateM_ok]
  rfl

/-- **C191** (NICDM) is violated for all finite symmetric distances with positive mean radii. -/
theorem C191_violated_nicdm (p q : Pool) (hp : p.start = .spawn) (hq : q.start = .fork) (w : LS.World)
    {n : ℕ} (x : Fin n → Fin n → ℝ) (hsym : ∀ i j, x i j = x j i) (hnn : ∀ i j, 0 ≤ x i j) (k : ℕ) (hk : 1 ≤ k)
    (N : Fin n → Finset (Fin n)) (hN : ∀ i, Spec.IsNearest ((Spec.training n none).erase i) (x i) k (N i))
    (hpos : ∀ i, 0 < Spec.meanOver (N i) (x i)) (i j : Fin n) (hij : i ≠ j) (hx : x i j ≠ 0) :
    ∃ M M', nicdm p w (LS.toXR x) k none = .ok M ∧ nicdm q w (LS.toXR x) k none = .ok M' ∧
      M i j = .fin 0 ∧ M' i j ≠ .fin 0 := by
  have hn : 0 < n := lt_of_le_of_lt (Nat.zero_le _) i.isLt
  have hlen : k ≤ (LS.trainInd n none).length := by
    rw [← (hN i).card]
    exact (Finset.card_le_card (hN i).sub).trans (LS.training_card_le n none i)
  obtain ⟨M', hM', -, -, -, hz⟩ := LS.C32_valid w x hsym hnn k hk none 2 N hN hpos hn
  rw [LS.nicdm_dense w, ← nicdm_fork q hq w _ _ _ 2 (by simp [LS.jobs])] at hM'
  refine ⟨_, LS.toXR M', C191_nicdm_blind p hp w _ k none hlen, ?_, rfl, ?_⟩
  · cases hc : nicdm q w (LS.toXR x) k none with
    | error e => rw [hc] at hM'; cases hM'
    | ok L =>
      rw [hc] at hM'
      injection hM' with h
      rw [eq_of_heq (Sigma.mk.inj h).2]
  · intro h
    exact hx ((hz i j hij).1 (by simpa [LS.toXR] using h))

section
variable {K : Type} [Field K] [LinearOrder K]

/-- **C191** (shared nearest neighbours) is violated: with spawned processes all secondary values between different objects
are zero. -/
theorem C191_snn_blind (p : Pool) (hp : p.start = .spawn) (w : SNN.World K) {n : ℕ}
    (D : Fin n → Fin n → XR K) (k : ℤ) (metric : String) (nJobs : ℤ) (M' : Fin n → Fin n → XR K)
    (h : SNN.core w D k metric nJobs = .ok M') :
    snn p w D k metric = .ok fun i j => if i = j then SNN.selfValue metric else .fin 0 := by
  rw [SNN.core_eq] at h
  cases hs : Np.tabulateM (fun i => SNN.hood w.part metric (SNN.kthOf metric n k) k
      (Np.fillDiagonal D (SNN.exclude metric) i)) with
  | error e => rw [hs] at h; cases h
  | ok sel =>
    unfold snn
    simp only [hs, result_copies p _ (spawn_copies p hp)]
    refine Eq.trans (b := Except.ok _) rfl ?_
    congr 1
    funext i j
    simp only [Np.fillDiagonal, Fin.val_inj]
    by_cases hij : i = j
    · simp [hij]
    · simp [hij, XR.add]

/-- **C191** (shared nearest neighbours) is violated for all finite distances: every object has a secondary distance to one
of its neighbours, but none with spawned processes. -/
theorem C191_violated_snn [IsStrictOrderedRing K] (p q : Pool) (hp : p.start = .spawn) (hq : q.start = .fork)
    (w : SNN.World K) {n : ℕ} (x : Fin n → Fin n → K) (k : ℕ) (h1 : 1 ≤ k) (hk : k < n) (i : Fin n) :
    ∃ M M', snn p w (fun i j => .fin (x i j)) k "distance" = .ok M ∧ snn q w (fun i j => .fin (x i j)) k "distance" = .ok M' ∧
      ∃ j ≠ i, M i j = .fin 0 ∧ M' i j ≠ .fin 0 := by
  obtain ⟨N, hN, hM⟩ := SNN.C34_formula w (fun i j => .fin (x i j)) x (fun _ _ _ => rfl) k h1 hk "distance" (Or.inl rfl) 2
  rw [SNN.call_eq w _ _ _ (Or.inl rfl)] at hM
  cases hs : Np.tabulateM (fun i => SNN.hood w.part "distance" (SNN.kthOf "distance" n k) k
      (Np.fillDiagonal (fun i j => .fin (x i j)) (SNN.exclude "distance") i)) with
  | error e => rw [hs] at hM; cases hM
  | ok sel =>
    rw [hs] at hM
    have hres : SNN.result "distance" (k : ℤ) sel = fun i j =>
        (.fin (if i = j then Spec.snnSelf "distance" else Spec.snn "distance" (N i) (N j) k) : XR K) := by
      injection hM with h
      exact eq_of_heq (Sigma.mk.inj h).2
    have hc : SNN.core w (fun i j => .fin (x i j)) k "distance" 2 = .ok (SNN.result "distance" (k : ℤ) sel) := by
      rw [SNN.core_eq, hs]; rfl
    refine ⟨_, _, C191_snn_blind p hp w _ k "distance" 2 _ hc,
      (snn_fork q hq w _ k "distance" 2 (by simp [SNN.jobs])).trans hc, ?_⟩
    obtain ⟨j, hj⟩ : (N i).Nonempty := by rw [← Finset.card_pos, (hN i).card]; omega
    have hji : j ≠ i := (Finset.mem_erase.1 ((hN i).sub hj)).1
    refine ⟨j, hji, by rw [if_neg hji.symm], ?_⟩
    rw [hres]
    simp only [hji.symm, if_false]
    intro h
    have h0 : Spec.snn "distance" (N i) (N j) k = (0 : K) := by injection h
    have hk0 : (k : K) ≠ 0 := by exact_mod_cast (by omega : k ≠ 0)
    unfold Spec.snn Spec.commonFraction at h0
    rw [if_neg (by decide), sub_eq_zero, eq_comm, div_eq_one_iff_eq hk0] at h0
    have hcard : (N i ∩ N j).card = (N i).card := by rw [(hN i).card]; exact_mod_cast h0
    have heq : N i ∩ N j = N i := Finset.eq_of_subset_of_card_le Finset.inter_subset_left hcard.ge
    rw [← heq] at hj
    exact (Finset.mem_erase.1 ((hN j).sub (Finset.mem_inter.1 hj).2)).1 rfl

variable [FloorRing K]

theorem centroids_spawn (p : Pool) (hp : p.start = .spawn) (w : SNN.World K) (k : ℤ) {n l m : ℕ}
    (D : Fin n → Fin l → XR K) (Y : Fin l → Fin m → K) :
    centroids p w k D Y = (Cent.sels w k D).map (fun _ => fun _ _ => .fin 0) := by
  unfold centroids Cent.sels
  have := Cent.tabulateM_congr_map (fun i => SNN.hood w.part "distance" k k (D i)) (fun _ l => Cent.rowsMean Y l)
  simp only [bind, pure, Except.pure] at this ⊢
  rw [this]
  simp only [exec_copies p _ (spawn_copies p hp)]
  cases Np.tabulateM (fun i => SNN.hood w.part "distance" k k (D i)) <;> rfl

/-- **C191** (DisSim Local) is violated: with spawned processes the local centroids are all at the origin, so the results are
inner products, which do not have to do with neighbourhoods. -/
theorem C191_violated_disSimLocal [IsStrictOrderedRing K] (p : Pool) (hp : p.start = .spawn)
    (w : SNN.World K) {n m : ℕ} (X : Fin n → Fin m → K) (k : ℕ) (hk : k < n) (hm : 0 < m) :
    disSimLocal p w X k = .ok fun i j => if i = j then .ninf else .fin (-2 * ∑ f, X i f * X j f) := by
  obtain ⟨sel, hs, -⟩ := Cent.sels_ok w k hk (Cent.selfless X)
  have hC : centroids p w k (Np.fillDiagonal (fun i j => .fin (Cent.sqDist (X i) (X j))) .pinf) X = .ok fun _ _ => .fin 0 := by
    rw [centroids_spawn p hp]
    change (Cent.sels w k (Cent.selfless X)).map _ = _
    rw [hs]; rfl
  unfold disSimLocal
  simp only [hC]
  rw [if_neg (by omega)]
  refine Eq.trans (b := Except.ok _) rfl ?_
  congr 1
  funext i j
  simp only [Np.fillDiagonal, Fin.val_inj]
  by_cases hij : i = j
  · simp [hij]
  · have ht : ∀ i, Cent.toCentroid X (fun _ _ => (.fin 0 : XR K)) i = .fin (∑ f, X i f * X i f) := by
      intro i
      unfold Cent.toCentroid
      simp only [XR.sub, XR.add, XR.neg, XR.mul, neg_zero, add_zero]
      exact Cent.sum_fin _
    simp only [hij, if_false, ht, XR.sub, XR.neg, XR.add, Cent.sqDist]
    congr 1
    rw [Finset.mul_sum, ← sub_eq_add_neg, ← sub_eq_add_neg, ← Finset.sum_sub_distrib, ← Finset.sum_sub_distrib]
    exact Finset.sum_congr rfl fun f _ => by ring
end

/-- **C191** (empirical Mutual Proximity of sparse matrices): the worker processes get the shared array itself, and the result
is the same however they are started. -/
theorem C191_sparse_partial {K : Type} [Field K] [LinearOrder K] (p : Pool) {n : ℕ} (order : List (Fin n × Fin n))
    (minNnz : ℤ) (S : Fin n → Fin n → K) : mpSparse p order minNnz S = MPEmp.sparse order minNnz S := by
  unfold mpSparse MPEmp.sparse
  simp only [exec_shared p _ (ctypes_shared p)]

/-! ### Examples -/

/-- Three processes taking turns. -/
def turns (s : Start) : Pool where
  start := s
  size := 3
  who t := ⟨t % 3, Nat.mod_lt _ (by norm_num)⟩

/-- Forked processes fill the array, spawned ones leave it as it is; the array itself is always shared. -/
example : (turns .fork).exec .ndarray (fun _ : Fin 4 => 0) [(0, 5), (1, 6), (3, 7)] = ![5, 6, 0, 7] ∧
    (turns .spawn).exec .ndarray (fun _ : Fin 4 => 0) [(0, 5), (1, 6), (3, 7)] = ![0, 0, 0, 0] ∧
    (turns .spawn).exec .ctypes (fun _ : Fin 4 => 0) [(0, 5), (1, 6), (3, 7)] = ![5, 6, 0, 7] := by decide

/-- The hypotheses of `C191_violated_localScaling` hold for three points on a line. -/
example : ∃ M M', localScaling (turns .spawn) LS.stdWorld (LS.toXR LS.line3) 1 "distance" none = .ok M ∧
    localScaling (turns .fork) LS.stdWorld (LS.toXR LS.line3) 1 "distance" none = .ok M' ∧
    M 0 1 = .fin 0 ∧ M' 0 1 ≠ .fin 0 :=
  C191_violated_localScaling _ _ rfl rfl _ LS.line3 LS.line3_symm 1 le_rfl _ LS.line3_radii
    (by intro i; fin_cases i <;> simp) 0 1 (by decide) (by simp [LS.line3])

/-- Two numbers: DisSim Local is `-1`, with spawned processes `-4`. -/
example : disSimLocal (turns .spawn) (SNN.revWorld ℚ) ![![1], ![2]] 1 =
      .ok (fun i j => if i = j then .ninf else .fin (-2 * ∑ f : Fin 1, (![![1], ![2]] : Fin 2 → Fin 1 → ℚ) i f * ![![1], ![2]] j f)) ∧
    (∃ M, Cent.disSimLocal (SNN.revWorld ℚ) (![![1], ![2]] : Fin 2 → Fin 1 → ℚ) .float64 none 1 2 = .ok ⟨2, M⟩ ∧
      M 0 1 = .fin (-1)) :=
  ⟨C191_violated_disSimLocal _ rfl _ _ 1 (by norm_num) (by norm_num), _, rfl, by decide +kernel⟩

end HubToolbox.Spawn
