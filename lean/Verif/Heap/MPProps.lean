import Verif.Heap.MP
import Verif.Heap.ScalingProps
import Verif.Heap.GammaiProps

/-!
# Empirical and Gaussian Mutual Proximity: the argument stays unchanged, and views do no harm
-/

set_option autoImplicit false

namespace HubToolbox.Heap

open HubToolbox

/-- The upper triangle, mirrored, with a given diagonal: what the last statements of these functions compute. -/
theorem mirror_run {K : Type} [Add K] {n : ℕ} (rows : List (Fin n)) (D L : Arr n n) (hL : Simple L) (hDL : ∀ i j i' j', D i j ≠ L i' j')
    (f : (Fin n → Fin n → XR K) → Fin n → Fin n → XR K) (v : XR K) (h : Mem (XR K)) :
    ∃ h' : Mem (XR K), (fillUpper rows D L 1 f >>= fun _ => addTransposed L >>= fun _ => modify L (fun V => Np.fillDiagonal V v) >>= fun _ =>
      (pure L : M (XR K) (Arr n n))) h = (.ok L, h') ∧
      (fun i j => h'.cell (L i j)) = Np.fillDiagonal (sumT (rows.foldl (fun (M : Fin n → Fin n → XR K) (i : Fin n) =>
        Np.setRowFrom M i (i.val + 1) (f (fun i j => h.cell (D i j)) i)) (fun i j => h.cell (L i j)))) v := by
  obtain ⟨h4, e4, n4, c4, o4⟩ := fillUpper_run rows D L hL hDL 1 f h
  obtain ⟨h5, e5, n5, c5, o5⟩ := addTransposed_run L hL h4
  obtain ⟨h6, e6, n6, c6, o6⟩ := modify_run L hL (fun V => Np.fillDiagonal V v) h5
  refine ⟨h6, ?_, ?_⟩
  · rw [bind_ok _ _ h h4 () e4, bind_ok _ _ h4 h5 () e5, bind_ok _ _ h5 h6 () e6]
    rfl
  · funext i j
    rw [c6, c5, c4]

theorem mirror_keeps {K : Type} [Add K] {s n : ℕ} (rows : List (Fin n)) (D L : Arr n n) (hL : Fresh s L)
    (f : (Fin n → Fin n → XR K) → Fin n → Fin n → XR K) (v : XR K) :
    Keeps s (fun _ => True) (fillUpper rows D L 1 f >>= fun _ => addTransposed L >>= fun _ => modify L (fun V => Np.fillDiagonal V v) >>= fun _ =>
      (pure L : M (XR K) (Arr n n))) := by
  unfold addTransposed
  exact Keeps.bind (Keeps.fillUpper rows D L hL _ _) fun _ _ => Keeps.bind (Keeps.bind (Keeps.read _) fun _ _ => Keeps.modify L hL _) fun _ _ =>
    Keeps.bind (Keeps.modify L hL _) fun _ _ => Keeps.pure _ trivial

section
variable {K : Type} [Field K] [LinearOrder K]

theorem sumT_fin {n : ℕ} (rows : List (Fin n)) (f : Fin n → Fin n → K) (M0 : Fin n → Fin n → K) (v : K) :
    Np.fillDiagonal (sumT (rows.foldl (fun (M : Fin n → Fin n → XR K) (i : Fin n) =>
      Np.setRowFrom M i (i.val + 1) (fun j => .fin (f i j))) (fun i j => .fin (M0 i j)))) (.fin v)
      = fun i j => .fin (Np.fillDiagonal (Np.addT (rows.foldl (fun (M : Fin n → Fin n → K) (i : Fin n) =>
        Np.setRowFrom M i (i.val + 1) (f i)) M0)) v i j) := by
  have : ∀ (rows : List (Fin n)) (M0 : Fin n → Fin n → K), rows.foldl (fun (M : Fin n → Fin n → XR K) (i : Fin n) =>
      Np.setRowFrom M i (i.val + 1) (fun j => .fin (f i j))) (fun i j => .fin (M0 i j))
      = fun i j => .fin (rows.foldl (fun (M : Fin n → Fin n → K) (i : Fin n) => Np.setRowFrom M i (i.val + 1) (f i)) M0 i j) := by
    intro rows
    induction rows with
    | nil => exact fun M0 => rfl
    | cons t rows ih =>
      intro M0
      rw [List.foldl_cons, List.foldl_cons, ← ih]
      congr 1
      funext i j
      unfold Np.setRowFrom
      split <;> rfl
  rw [this]
  funext i j
  unfold Np.fillDiagonal
  split <;> rfl

/-- `mutual_proximity_empiric` (dense) with its in-place operations returns what it would if all values were immutable. -/
theorem C197_empiric (metric : String) {n : ℕ} (D : Arr n n) (h : Mem (XR K)) :
    contents (empiricH metric D >>= fun L => pure ⟨n, L⟩) h
      = .ok ⟨n, fun i j => .fin (MPEmp.fullDense metric (fun i j => h.cell (D i j)) i j)⟩ := by
  obtain ⟨D', h1, e1, s1, f1, n1, l1, c1, _⟩ := copy_run D h
  obtain ⟨h2, e2, n2, c2, o2⟩ := modify_run D' s1 (fun V => Np.fillDiagonal V (MPEmp.excludeValue metric : XR K)) h1
  have d2 : (fun i j => h2.cell (D' i j)) = Np.fillDiagonal (fun i j => h.cell (D i j)) (MPEmp.excludeValue metric) := by
    funext i j
    rw [c2]
    simp only [c1]
  obtain ⟨L, h3, e3, s3, f3, n3, l3, c3, o3⟩ := new_run (fun (_ _ : Fin n) => (.fin 0 : XR K)) h2
  have d3 : (fun i j => h3.cell (D' i j)) = Np.fillDiagonal (fun i j => h.cell (D i j)) (MPEmp.excludeValue metric) := by
    rw [← d2]
    funext i j
    exact o3 _ (by have := l1 i j; omega)
  have hDL : ∀ i j i' j', D' i j ≠ L i' j' := by
    intro i j i' j' e
    have := f3 i' j'
    have := l1 i j
    rw [e] at this
    omega
  obtain ⟨h4, e4, c4⟩ := mirror_run ((List.finRange n).take (n - 1)) D' L s3 hDL
    (fun V i j => .fin (MPEmp.entry metric (V i) (V j) (V j i))) (.fin (MPEmp.selfValue metric : K)) h3
  rw [d3] at c4
  simp only [c3] at c4
  rw [sumT_fin] at c4
  unfold contents empiricH
  rw [bind_bind, bind_bind, bind_ok _ _ h h1 D' e1, bind_bind, bind_ok _ _ h1 h2 () e2, bind_bind, bind_ok _ _ h2 h3 L e3,
    bind_ok _ _ h3 h4 L e4]
  show (Except.ok (⟨n, fun i j => h4.cell (L i j)⟩ : Σ l : ℕ, Fin n → Fin l → XR K)) = Except.ok _
  rw [c4]
  rfl

/-- `mutual_proximity_empiric` (dense) changes nothing that was in memory before the call. -/
theorem C196_empiric (metric : String) {n : ℕ} (D : Arr n n) (h : Mem (XR K)) (c : Addr) (hc : c.1 < h.next) :
    (empiricH metric D h).2.cell c = h.cell c := by
  refine ((?_ : Keeps h.next (fun _ => True) (empiricH metric D : M (XR K) _)) h le_rfl).2.1 c hc
  unfold empiricH
  exact Keeps.bind (Keeps.copy D) fun D' hD => Keeps.bind (Keeps.modify D' hD.2 _) fun _ _ => Keeps.bind (Keeps.new _) fun L hL =>
    mirror_keeps _ _ L hL.2 _ _

end

/-- `mutual_proximity_gaussi` (dense) of finite distances computes what it would if all values were immutable, though the diagonal of its
matrix is overwritten twice. -/
theorem C197_gaussi (F : MPPar.Dists) (metric : String) {n : ℕ} (D : Arr n n) (train : List (Fin n)) (h : Mem (XR ℝ))
    (d : Fin n → Fin n → ℝ) (hd : ∀ i j, h.cell (D i j) = .fin (d i j)) :
    contents (gaussiH F metric D train >>= fun L => pure ⟨n, L⟩) h = .ok ⟨n, MPPar.gaussiDense F metric d train⟩ := by
  obtain ⟨D', h1, e1, s1, f1, n1, l1, c1, _⟩ := copy_run D h
  obtain ⟨h2, e2, n2, c2, o2⟩ := modify_run D' s1 (fun V => Np.fillDiagonal V (.nan : XR ℝ)) h1
  have hV : ∀ i j, h2.cell (D' i j) = if i = j then .nan else .fin (d i j) := by
    intro i j
    rw [c2]
    unfold Np.fillDiagonal
    by_cases hij : i = j
    · rw [if_pos hij, if_pos (congrArg _ hij)]
    · rw [if_neg hij, if_neg fun e => hij (Fin.ext e)]
      exact (c1 i j).trans (hd i j)
  have hcol : ∀ j, finVals (fun i j => h2.cell (D' i j)) train j = MPPar.colVals d train j :=
    fun j => finVals_eq _ d train j fun i => hV i j
  obtain ⟨h3, e3, n3, c3, o3⟩ := modify_run D' s1 (fun V => Np.fillDiagonal V (MPPar.selfValue metric)) h2
  obtain ⟨L, h4, e4, s4, f4, n4, l4, c4, o4⟩ := new_run (fun (_ _ : Fin n) => (.fin 0 : XR ℝ)) h3
  have d4 : ∀ i j, i ≠ j → h4.cell (D' i j) = .fin (d i j) := by
    intro i j hij
    rw [o4 _ (by have := l1 i j; omega), c3]
    unfold Np.fillDiagonal
    rw [if_neg fun e => hij (Fin.ext e)]
    exact (hV i j).trans (if_neg hij)
  have hDL : ∀ i j i' j', D' i j ≠ L i' j' := by
    intro i j i' j' e
    have := f4 i' j'
    have := l1 i j
    rw [e] at this
    omega
  have hrow : ∀ (mu sd : Fin n → XR ℝ) (M : Fin n → Fin n → XR ℝ) (i : Fin n),
      Np.setRowFrom M i (i.val + 1) (fun j => MPPar.gaussEntry F metric (val (h4.cell (D' i j))) (mu i) (sd i) (mu j) (sd j))
        = Np.setRowFrom M i (i.val + 1) (fun j => MPPar.gaussEntry F metric (d i j) (mu i) (sd i) (mu j) (sd j)) := by
    intro mu sd M i
    funext a b
    unfold Np.setRowFrom
    by_cases hab : a = i ∧ i.val + 1 ≤ b.val
    · have hb := d4 i b (fun e => by have := hab.2; rw [e] at this; omega)
      rw [if_pos hab, if_pos hab]
      show MPPar.gaussEntry F metric (val (h4.cell (D' i b))) _ _ _ _ = _
      rw [hb]
      rfl
    · rw [if_neg hab, if_neg hab]
  unfold contents gaussiH
  rw [bind_bind, bind_bind, bind_ok _ _ h h1 D' e1, bind_bind, bind_ok _ _ h1 h2 () e2, bind_bind,
    bind_ok _ _ h2 h2 (fun i j => h2.cell (D' i j)) (by rfl)]
  simp only [hcol]
  rw [bind_bind, bind_ok _ _ h2 h3 () e3, bind_bind, bind_ok _ _ h3 h4 L e4]
  obtain ⟨h5, e5, c5⟩ := mirror_run (List.finRange n) D' L s4 hDL
    (fun V i j => MPPar.gaussEntry F metric (val (V i j)) (MPPar.nanmean (MPPar.colVals d train i))
      (MPPar.noZero (XR.sqrt (MPPar.nanvar 0 (MPPar.colVals d train i)))) (MPPar.nanmean (MPPar.colVals d train j))
      (MPPar.noZero (XR.sqrt (MPPar.nanvar 0 (MPPar.colVals d train j))))) (MPPar.selfValue metric) h4
  rw [bind_ok _ _ h4 h5 L e5]
  show (Except.ok (⟨n, fun i j => h5.cell (L i j)⟩ : Σ l : ℕ, Fin n → Fin l → XR ℝ)) = Except.ok _
  rw [c5]
  simp only [c4, hrow (fun j => MPPar.nanmean (MPPar.colVals d train j)) (fun j => MPPar.noZero (XR.sqrt (MPPar.nanvar 0 (MPPar.colVals d train j))))]
  rfl

/-- `mutual_proximity_gaussi` (dense) changes nothing that was in memory before the call. -/
theorem C196_gaussi (F : MPPar.Dists) (metric : String) {n : ℕ} (D : Arr n n) (train : List (Fin n)) (h : Mem (XR ℝ)) (c : Addr)
    (hc : c.1 < h.next) : (gaussiH F metric D train h).2.cell c = h.cell c := by
  refine ((?_ : Keeps h.next (fun _ => True) (gaussiH F metric D train)) h le_rfl).2.1 c hc
  unfold gaussiH
  exact Keeps.bind (Keeps.copy D) fun D' hD => Keeps.bind (Keeps.modify D' hD.2 _) fun _ _ => Keeps.bind (Keeps.read _) fun _ _ =>
    Keeps.bind (Keeps.modify D' hD.2 _) fun _ _ => Keeps.bind (Keeps.new _) fun L hL => mirror_keeps _ _ L hL.2 _ _

end HubToolbox.Heap
