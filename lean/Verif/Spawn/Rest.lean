import Verif.Spawn.Props
import Verif.Approx.Lsh

/-!
# C283: the remaining pools and the start method of worker processes

DisSim Local with test and training data, and the neighbours found by locality-sensitive hashing in `SuQHR`.
-/

set_option autoImplicit false

namespace HubToolbox.Spawn

open HubToolbox

/-! ### DisSim Local with test and training data -/

section
variable {K : Type} [Field K] [LinearOrder K] [FloorRing K]

/-- `dis_sim_local(X, Y)` for arrays of doubles with `n_jobs > 1` (`/repo/hub_toolbox/centering.py` lines 345-449): two pools one after the other. -/
def disSimLocal2 (p p' : Pool) (w : SNN.World K) {n l m : ℕ} (X : Fin n → Fin m → K) (Y : Fin l → Fin m → K) (k : ℤ) : Py (Fin n → Fin l → XR K) := do
  if n = 0 ∨ l = 0 ∨ m = 0 then throw .valueError
  let C ← centroids p w k (fun i j => .fin (Cent.sqDist (X i) (Y j))) Y
  let C' ← centroids p' w k (fun i j => .fin (Cent.sqDist (Y i) (Y j))) Y
  pure (fun i j => XR.sub (XR.sub (.fin (Cent.sqDist (X i) (Y j))) (Cent.toCentroid X C i)) (Cent.toCentroid Y C' j))

/-- **C283** (DisSim Local) for forked processes: the model which knows about forked processes only. -/
theorem C283_disSimLocal_fork_partial (p p' : Pool) (hp : p.start = .fork) (hp' : p'.start = .fork) (w : SNN.World K) {n l m : ℕ}
    (X : Fin n → Fin m → K) (Y : Fin l → Fin m → K) (k nJobs : ℤ) (hj : 1 < nJobs) :
    (disSimLocal2 p p' w X Y k).map (fun M => (⟨l, M⟩ : Σ l : ℕ, Fin n → Fin l → XR K)) =
      Cent.disSimLocal w X .float64 (some (.float64, ⟨l, m, Y⟩)) k nJobs := by
  unfold disSimLocal2 Cent.disSimLocal
  simp only [centroids_fork p hp w k nJobs hj, centroids_fork p' hp' w k nJobs hj, dif_pos, Fin.cast_refl, id]
  by_cases h : n = 0 ∨ l = 0 ∨ m = 0
  · simp only [h, if_true]; rfl
  · simp only [h, if_false]
    cases h1 : Cent.centroids w nJobs .float64 k (fun i j => .fin (Cent.sqDist (X i) (Y j))) Y with
    | error e => rfl
    | ok C =>
      cases h2 : Cent.centroids w nJobs .float64 k (fun i j => .fin (Cent.sqDist (Y i) (Y j))) Y with
      | error e => rfl
      | ok C' => rfl

/-- **C283** (DisSim Local) is violated: with spawned processes all local centroids are at the origin and the result is minus twice the inner product. -/
theorem C283_disSimLocal_violated [IsStrictOrderedRing K] (p p' : Pool) (hp : p.start = .spawn) (hp' : p'.start = .spawn)
    (w : SNN.World K) {n l m : ℕ} (X : Fin n → Fin m → K) (Y : Fin l → Fin m → K) (k : ℕ) (hn : 0 < n) (hk : k < l) (hm : 0 < m) :
    disSimLocal2 p p' w X Y k = .ok fun i j => .fin (-2 * ∑ f, X i f * Y j f) := by
  have hC : ∀ {a : ℕ} (q : Pool) (_ : q.start = .spawn) (A : Fin a → Fin m → K),
      centroids q w k (fun i j => .fin (Cent.sqDist (A i) (Y j))) Y = .ok fun _ _ => .fin 0 := by
    intro a q hq A
    rw [centroids_spawn q hq]
    obtain ⟨sel, hs, -⟩ := Cent.sels_ok w k hk (fun i j => (.fin (Cent.sqDist (A i) (Y j)) : XR K))
    rw [hs]; rfl
  unfold disSimLocal2
  simp only [hC p hp, hC p' hp']
  rw [if_neg (by omega)]
  refine Eq.trans (b := Except.ok _) rfl ?_
  congr 1
  funext i j
  have ht : ∀ {a : ℕ} (A : Fin a → Fin m → K) i, Cent.toCentroid A (fun _ _ => (.fin 0 : XR K)) i = .fin (∑ f, A i f * A i f) := by
    intro a A i
    unfold Cent.toCentroid
    simp only [XR.sub, XR.add, XR.neg, XR.mul, neg_zero, add_zero]
    exact Cent.sum_fin _
  simp only [ht, XR.sub, XR.neg, XR.add, Cent.sqDist]
  congr 1
  rw [Finset.mul_sum, ← sub_eq_add_neg, ← sub_eq_add_neg, ← Finset.sum_sub_distrib, ← Finset.sum_sub_distrib]
  exact Finset.sum_congr rfl fun f _ => by ring

end

/-! ### Locality-sensitive hashing -/

section
variable {K : Type} [Field K] [LinearOrder K]

/-- `_lsh_trafo` with `n_jobs > 1` (`/repo/hub_toolbox/approximate.py` lines 104-115, 145-168, 769-786). Worker processes compute complete rows; an index
which cannot be pickled would raise an exception with spawned processes. -/
def lshTrafo {P : Type} (p : Pool) (sched : List ((ℕ × ℕ) × (ℕ × XR K)) → List ((ℕ × ℕ) × (ℕ × XR K))) {n t : ℕ} (dist : String → P → P → K)
    (metric : String) (k : ℕ) (query : Fin t → ℕ → List (Fin n)) (X : Fin n → P) (T : Fin t → P) : Py (Fin t → Fin k → ℕ × XR K) := do
  let rows ← Approx.lshTrafo dist metric 2 k (fun _ _ => .fin 0) query X T
  let mem := p.exec .ndarray (fun _ : ℕ × ℕ => ((0, .fin 0) : ℕ × XR K))
    (sched ((List.finRange t).flatMap (fun (i : Fin t) => (List.finRange k).map (fun (c : Fin k) =>
      ((i.val, c.val), ((rows i c).1.val, (rows i c).2))))))
  pure (fun i c => mem (i.val, c.val))

/-- **C283** (LSH) for forked processes: neighbours and distances of `Approx.lshTrafo`. -/
theorem C283_lsh_fork_partial {P : Type} (p : Pool) (hp : p.start = .fork)
    (sched : List ((ℕ × ℕ) × (ℕ × XR K)) → List ((ℕ × ℕ) × (ℕ × XR K))) (hs : ∀ l, (sched l).Perm l) {n t : ℕ} (dist : String → P → P → K)
    (metric : String) (k : ℕ) (query : Fin t → ℕ → List (Fin n)) (X : Fin n → P) (T : Fin t → P) (nJobs : ℤ) (hj : nJobs ≠ 1)
    (memory : Fin t → Fin k → XR K) :
    lshTrafo p sched dist metric k query X T =
      (Approx.lshTrafo dist metric nJobs k memory query X T).map (fun M i c => ((M i c).1.val, (M i c).2)) := by
  have e : Approx.lshTrafo dist metric nJobs k memory query X T = Approx.lshTrafo dist metric 2 k (fun _ _ => .fin 0) query X T := by
    unfold Approx.lshTrafo
    simp only [hj, if_false, show (2 : ℤ) ≠ 1 by norm_num]
  rw [e]
  unfold lshTrafo
  cases h : Approx.lshTrafo dist metric 2 k (fun _ _ => .fin 0) query X T with
  | error e => rfl
  | ok rows =>
    simp only [exec_shared p _ (fork_shared p hp _), bind, Except.bind, pure, Except.pure, Except.map]
    congr 1
    funext i c
    refine Sched.exec_of_consistent _ _ _ _ ?_ ?_
    · rw [(hs _).mem_iff, List.mem_flatMap]
      exact ⟨i, List.mem_finRange i, List.mem_map.2 ⟨c, List.mem_finRange c, rfl⟩⟩
    · intro x hx hxa
      rw [(hs _).mem_iff, List.mem_flatMap] at hx
      obtain ⟨i', _, hx⟩ := hx
      obtain ⟨c', _, rfl⟩ := List.mem_map.1 hx
      obtain ⟨h1, h2⟩ := Prod.mk.inj hxa
      obtain rfl := Fin.ext h1
      obtain rfl := Fin.ext h2
      rfl

/-- **C283** (LSH) is violated: with spawned processes each test object has object 0 at distance zero as only neighbour, whatever the index finds; a single
process returns the first object found. -/
theorem C283_lsh_violated [IsStrictOrderedRing K] {P : Type} (p : Pool) (hp : p.start = .spawn)
    (sched : List ((ℕ × ℕ) × (ℕ × XR K)) → List ((ℕ × ℕ) × (ℕ × XR K))) {n t k : ℕ} (hk : 0 < k) (dist : String → P → P → K)
    (metric : String) (hm : metric = "sqeuclidean" ∨ metric = "cosine") (query : Fin t → ℕ → List (Fin n)) (X : Fin n → P) (T : Fin t → P)
    (hq : ∀ i, (query i k).length = k) (memory : Fin t → Fin k → XR K) :
    lshTrafo p sched dist metric k query X T = .ok (fun _ _ => (0, .fin 0)) ∧
    ∃ M, Approx.lshTrafo dist metric 1 k memory query X T = .ok M ∧
      ∀ i (h : 0 < (query i k).length), M i ⟨0, hk⟩ = ((query i k)[0], .fin (dist metric (T i) (X (query i k)[0]))) := by
  refine ⟨?_, _, Approx.C136_trafo_partial hk dist metric hm query X T hq 1 memory, fun i h => rfl⟩
  unfold lshTrafo
  rw [Approx.C136_trafo_partial hk dist metric hm query X T hq 2 (fun _ _ => .fin 0)]
  simp only [exec_copies p _ (spawn_copies p hp)]
  rfl

end

/-! ### Instances -/

/-- Test object 3, training objects 1 and 2: the nearest centroids give `1 - 1 - 0 = 0`, spawned processes `-12`. -/
example : disSimLocal2 (turns .spawn) (turns .spawn) (SNN.revWorld ℚ) (![![3]] : Fin 1 → Fin 1 → ℚ) (![![1], ![2]] : Fin 2 → Fin 1 → ℚ) (1 : ℕ) =
      .ok (fun i j => .fin (-2 * ∑ f : Fin 1, (![![3]] : Fin 1 → Fin 1 → ℚ) i f * (![![1], ![2]] : Fin 2 → Fin 1 → ℚ) j f)) ∧
    (∃ M, Cent.disSimLocal (SNN.revWorld ℚ) (![![3]] : Fin 1 → Fin 1 → ℚ) .float64
      (some (.float64, ⟨2, 1, (![![1], ![2]] : Fin 2 → Fin 1 → ℚ)⟩)) 1 2 = .ok ⟨2, M⟩ ∧ M 0 1 = .fin 0) :=
  ⟨C283_disSimLocal_violated _ _ rfl rfl _ _ _ 1 (by norm_num) (by norm_num) (by norm_num), _, rfl, by decide +kernel⟩

example : lshTrafo (turns .spawn) id (fun _ (p q : ℚ) => |p - q|) "cosine" 1 (fun (_ : Fin 1) _ => [(1 : Fin 2)]) ![0, 5] ![4] =
    .ok (fun _ _ => (0, .fin 0)) :=
  (C283_lsh_violated (turns .spawn) rfl id one_pos _ "cosine" (Or.inr rfl) (fun (_ : Fin 1) _ => [(1 : Fin 2)]) ![0, 5] ![4] (fun _ => rfl)
    (fun _ _ => .nan)).1

end HubToolbox.Spawn
