import Verif.Heap.SuQHR
import Mathlib.Algebra.Order.Ring.Rat
import Mathlib.Data.Rat.Floor

/-!
# Is a fitted `SuQHR` independent of what the caller does with the training array afterwards?
-/

set_option autoImplicit false

namespace HubToolbox.Heap

variable {K : Type} [Field K] [LinearOrder K]

/-- The distance which the estimator should return. -/
def trueDist (cosine : {f : ℕ} → (Fin f → K) → (Fin f → K) → K) (metric : String) {f : ℕ} (x y : Fin f → K) : K :=
  if metric = "cosine" then cosine x y else ∑ c, (x c - y c) ^ 2

/-- What the caller does between two calls: anything, except for changing arrays which were allocated between `h` and `h'`. -/
def LeavesAlone (h h' h'' : Mem K) : Prop := ∀ c : Addr, h.next ≤ c.1 → c.1 < h'.next → h''.cell c = h'.cell c

theorem euclidWithNorm_eq [IsStrictOrderedRing K] {f : ℕ} (x y : Fin f → K) : euclidWithNorm x y (sqNorm y) = ∑ c, (x c - y c) ^ 2 := by
  have e : sqNorm x - 2 * ∑ c, x c * y c + sqNorm y = ∑ c, (x c - y c) ^ 2 := by
    unfold sqNorm
    rw [Finset.mul_sum, ← Finset.sum_sub_distrib, ← Finset.sum_add_distrib]
    exact Finset.sum_congr rfl fun c _ => by ring
  unfold euclidWithNorm
  rw [e]
  exact max_eq_left (Finset.sum_nonneg fun c _ => sq_nonneg _)

/-- The rows which the estimator keeps. -/
def keptRows {n f : ℕ} (sampled : Option (Σ s : ℕ, Fin s → Fin n)) (x : Fin n → Fin f → K) : Σ s : ℕ, Fin s → Fin f → K :=
  match sampled with
  | none => ⟨n, x⟩
  | some ⟨s, ind⟩ => ⟨s, fun i => x (ind i)⟩

theorem transformH_run [IsStrictOrderedRing K] (cosine : {f : ℕ} → (Fin f → K) → (Fin f → K) → K) (metric : String) {s t f : ℕ}
    (Y : Arr s f) (T : Arr t f) (h : Mem K) (y : Fin s → Fin f → K) (hy : ∀ j c, h.cell (Y j c) = y j c) :
    (transformH cosine metric ⟨s, Y, if metric = "sqeuclidean" then some (fun i => sqNorm (y i)) else none⟩ T h).1
      = .ok fun i j => trueDist cosine metric (fun c => h.cell (T i c)) (y j) := by
  unfold transformH
  rw [bind_ok _ _ h h (fun i f => h.cell (T i f)) (by rfl), bind_ok _ _ h h (fun i f => h.cell (Y i f)) (by rfl)]
  show Except.ok _ = Except.ok _
  congr 1
  funext i j
  simp only [hy, trueDist]
  by_cases hm : metric = "cosine"
  · rw [if_pos hm, if_pos hm]
  · rw [if_neg hm, if_neg hm, ← euclidWithNorm_eq]
    by_cases hs : metric = "sqeuclidean"
    · simp only [if_pos hs]
    · simp only [if_neg hs]

/-- Partial: with sampling, or if the training array is not of type `float32`, `transform` returns the distances to the training vectors as
they were when `fit` was called, whatever the caller does with the arrays in between. Missing: `float32` data without sampling, see
`C199_violated`. -/
theorem C199_partial [IsStrictOrderedRing K] (cosine : {f : ℕ} → (Fin f → K) → (Fin f → K) → K) (metric : String) (float32 : Bool) {n t f : ℕ}
    (sampled : Option (Σ s : ℕ, Fin s → Fin n)) (hc : float32 = false ∨ sampled.isSome) (X : Arr n f) (T : Arr t f) (h : Mem K) :
    ∃ (e : Kept f K) (h' : Mem K), fitH metric float32 sampled X h = (.ok e, h') ∧
      ∀ h'' : Mem K, LeavesAlone h h' h'' →
        (transformH cosine metric e T h'').1.map (fun D => (⟨e.s, D⟩ : Σ s : ℕ, Fin t → Fin s → K))
          = .ok ⟨(keptRows sampled fun i c => h.cell (X i c)).1, fun i j =>
            trueDist cosine metric (fun c => h''.cell (T i c)) ((keptRows sampled fun i c => h.cell (X i c)).2 j)⟩ := by
  rcases sampled with _ | ⟨s, ind⟩
  · have hf : float32 = false := by simpa using hc
    subst hf
    obtain ⟨X', h1, e1, s1, f1, n1, l1, c1, _⟩ := copy_run X h
    refine ⟨⟨n, X', if metric = "sqeuclidean" then some (fun i => sqNorm (fun c => h.cell (X i c))) else none⟩, h1, ?_, fun h'' hl => ?_⟩
    · unfold fitH
      rw [bind_ok (checkArray false X) _ h h1 X' e1]
      simp only []
      rw [bind_ok _ _ h1 h1 (fun i f => h1.cell (X' i f)) (by rfl)]
      simp only [c1]
      rfl
    · rw [transformH_run cosine metric X' T h'' (fun i c => h.cell (X i c)) fun j c =>
        (hl _ (f1 j c) (l1 j c)).trans (c1 j c)]
      rfl
  · obtain ⟨X', h1, e1, n1, c1⟩ : ∃ (X' : Arr n f) (h1 : Mem K), checkArray float32 X h = (.ok X', h1) ∧ h.next ≤ h1.next ∧
        ∀ i c, h1.cell (X' i c) = h.cell (X i c) := by
      cases float32
      · obtain ⟨X', h1, e1, s1, f1, n1, l1, c1, _⟩ := copy_run X h
        exact ⟨X', h1, e1, by omega, c1⟩
      · exact ⟨X, h, rfl, le_rfl, fun _ _ => rfl⟩
    obtain ⟨V, h2, e2, s2, f2, n2, l2, c2, _⟩ := new_run (fun i c => h.cell (X (ind i) c)) h1
    refine ⟨⟨s, V, if metric = "sqeuclidean" then some (fun i => sqNorm (fun c => h.cell (X (ind i) c))) else none⟩, h2, ?_, fun h'' hl => ?_⟩
    · unfold fitH
      rw [bind_ok _ _ h h1 X' e1]
      simp only []
      rw [bind_ok _ _ h1 h1 (fun i f => h1.cell (X' i f)) (by rfl)]
      simp only [c1]
      rw [bind_ok _ _ h1 h2 V e2]
      rfl
    · rw [transformH_run cosine metric V T h'' (fun i c => h.cell (X (ind i) c)) fun j c =>
        (hl _ (n1.trans (f2 j c)) (l2 j c)).trans (c2 j c)]
      rfl

/-- The array of two training vectors in one dimension. -/
def trainArr : Arr 2 1 := fun i j => (0, i.val, j.val)

/-- The array of a test vector. -/
def testArr : Arr 1 1 := fun i j => (1, i.val, j.val)

/-- The memory with the training vectors `0` and `y`, and the test vector `2`. -/
def trainTest (y : ℚ) : Mem ℚ := ⟨fun c => if c = (0, 1, 0) then y else if c.1 = 1 then 2 else 0, 2⟩

/-- Violated: without sampling, `SuQHR` keeps a reference to `float32` training data. If the caller overwrites the second training vector `1`
by `4` after `fit`, `transform` returns zero for the vector `2`: neither the distance to the old vector, `1`, nor that to the new
vector, `4`, as the norms are those of the old ones. -/
theorem C199_violated (cosine : {f : ℕ} → (Fin f → ℚ) → (Fin f → ℚ) → ℚ) : ∃ (e : Kept 1 ℚ) (h' : Mem ℚ) (he : e.s = 2),
    fitH "sqeuclidean" true none trainArr (trainTest 1) = (.ok e, h') ∧ LeavesAlone (trainTest 1) h' (trainTest 4) ∧
      (∃ D, (transformH cosine "sqeuclidean" e testArr h').1 = .ok D ∧ D 0 (Fin.cast he.symm 1) = 1) ∧
      ∃ D, (transformH cosine "sqeuclidean" e testArr (trainTest 4)).1 = .ok D ∧ D 0 (Fin.cast he.symm 1) = 0 := by
  refine ⟨_, _, rfl, rfl, fun c h1 h2 => absurd h1 (not_le.2 h2), ⟨_, rfl, ?_⟩, ⟨_, rfl, ?_⟩⟩ <;>
    (simp only [reduceCtorEq, String.reduceEq, if_false, if_true]; decide +kernel)

/-- ... and with the cosine distance, `transform` returns distances to the new vectors: for any data in memory. -/
theorem C199_violated_cosine (cosine : {f : ℕ} → (Fin f → K) → (Fin f → K) → K) {n t f : ℕ} (X : Arr n f) (T : Arr t f) (h : Mem K) :
    ∃ (e : Kept f K) (h' : Mem K) (he : e.s = n), fitH "cosine" true none X h = (.ok e, h') ∧
      ∀ h'' : Mem K, LeavesAlone h h' h'' ∧ ∃ D, (transformH cosine "cosine" e T h'').1 = .ok D ∧
        ∀ i j, D i (Fin.cast he.symm j) = cosine (fun c => h''.cell (T i c)) (fun c => h''.cell (X j c)) :=
  ⟨_, _, rfl, rfl, fun h'' => ⟨fun c h1 h2 => absurd h1 (not_le.2 h2), _, rfl, fun i j => rfl⟩⟩

end HubToolbox.Heap
