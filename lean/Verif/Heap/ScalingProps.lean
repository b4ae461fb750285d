import Verif.Heap.Scaling

/-!
# Local scaling and NICDM: the argument stays unchanged, and views do no harm
-/

set_option autoImplicit false

namespace HubToolbox.Heap

open HubToolbox HubToolbox.LS

section
variable {α : Type}

theorem Keeps.assignFrom {s n m : ℕ} (L : Arr n m) (hL : Fresh s L) (i : Fin n) (t : ℕ) (v : Fin m → α) :
    Keeps s (fun _ => True) (assignFrom L i t v) := by
  intro h hs
  refine ⟨hs, fun b hb => stores_of_not_mem _ _ _ _ b fun j _ e => ?_, fun _ _ => trivial⟩
  have := hL i j
  rw [e] at this
  omega

theorem Keeps.fillUpper {s n : ℕ} (rows : List (Fin n)) (D L : Arr n n) (hL : Fresh s L) (off : ℕ)
    (f : (Fin n → Fin n → α) → Fin n → Fin n → α) : Keeps s (fun _ => True) (fillUpper rows D L off f) :=
  Keeps.foldlM _ _ _ fun _ i => Keeps.bind (Keeps.read _) fun _ _ => Keeps.assignFrom L hL _ _ _

theorem Keeps.weaken {β : Type} {s : ℕ} {Q : β → Prop} {f : M α β} (hf : Keeps s Q f) : Keeps s (fun _ => True) f :=
  fun h hs => ⟨(hf h hs).1, (hf h hs).2.1, fun _ _ => trivial⟩

theorem fillUpper_run {n : ℕ} (rows : List (Fin n)) (D L : Arr n n) (hL : Simple L) (hDL : ∀ i j i' j', D i j ≠ L i' j') (off : ℕ)
    (f : (Fin n → Fin n → α) → Fin n → Fin n → α) (h : Mem α) :
    ∃ h' : Mem α, fillUpper rows D L off f h = (.ok (), h') ∧ h'.next = h.next ∧
      (fun i j => h'.cell (L i j)) = rows.foldl (fun (M : Fin n → Fin n → α) (i : Fin n) =>
        Np.setRowFrom M i (i.val + off) (f (fun i j => h.cell (D i j)) i)) (fun i j => h.cell (L i j)) ∧
      ∀ b : Addr, (∀ i j, L i j ≠ b) → h'.cell b = h.cell b := by
  suffices hs : ∀ (l : List (Fin n)) (h1 : Mem α), (∀ i j, h1.cell (D i j) = h.cell (D i j)) → ∃ h' : Mem α,
      (l.foldlM (fun _ i => do
        let V ← read D
        assignFrom L i (i.val + off) (f V i)) () : M α Unit) h1 = (.ok (), h') ∧ h'.next = h1.next ∧
      (fun i j => h'.cell (L i j)) = l.foldl (fun (M : Fin n → Fin n → α) (i : Fin n) =>
        Np.setRowFrom M i (i.val + off) (f (fun i j => h.cell (D i j)) i)) (fun i j => h1.cell (L i j)) ∧
      ∀ b : Addr, (∀ i j, L i j ≠ b) → h'.cell b = h1.cell b from hs _ h fun _ _ => rfl
  intro l
  induction l with
  | nil => exact fun h1 _ => ⟨h1, rfl, rfl, rfl, fun _ _ => rfl⟩
  | cons t l ih =>
    intro h1 hD
    set h2 : Mem α := Mem.mk (stores ((List.finRange n).filter (fun (j : Fin n) => decide (t.val + off ≤ j.val))) (L t)
      (f (fun i j => h.cell (D i j)) t) h1.cell) h1.next with hh2
    have e2 : (read D >>= fun V => assignFrom L t (t.val + off) (f V t) : M α Unit) h1 = (.ok (), h2) := by
      rw [bind_ok _ _ h1 h1 (fun i j => h1.cell (D i j)) (by rfl)]
      simp only [hD]
      rfl
    have o2 : ∀ b : Addr, (∀ i j, L i j ≠ b) → h2.cell b = h1.cell b := fun b hb => stores_of_not_mem _ _ _ _ _ fun j _ => hb t j
    obtain ⟨h', e, n', c', o'⟩ := ih h2 fun i j => (o2 _ fun i' j' e => hDL i j i' j' e.symm).trans (hD i j)
    refine ⟨h', ?_, n', ?_, fun b hb => (o' b hb).trans (o2 b hb)⟩
    · rw [List.foldlM_cons, bind_ok _ _ h1 h2 () e2, e]
    · rw [c', List.foldl_cons]
      congr 1
      funext i j
      unfold Np.setRowFrom
      by_cases hi : i = t ∧ t.val + off ≤ j.val
      · rw [if_pos hi]
        obtain ⟨rfl, hj⟩ := hi
        exact stores_of_mem _ _ _ _ (hL.row i) j (by simpa using hj)
      · rw [if_neg hi]
        refine stores_of_not_mem _ _ _ _ _ fun j' hj' e => hi ?_
        obtain ⟨rfl, rfl⟩ := hL _ _ _ _ e
        exact ⟨rfl, by simpa using hj'⟩

end

/-- The sum of a matrix and its transposed. -/
def sumT {K : Type} [Add K] {n : ℕ} (V : Fin n → Fin n → XR K) : Fin n → Fin n → XR K := fun i j => XR.add (V i j) (V j i)

theorem addTransposed_run {K : Type} [Add K] {n : ℕ} (L : Arr n n) (hL : Simple L) (h : Mem (XR K)) :
    ∃ h' : Mem (XR K), addTransposed L h = (.ok (), h') ∧ h'.next = h.next ∧
      (fun i j => h'.cell (L i j)) = sumT (fun i j => h.cell (L i j)) ∧ ∀ b : Addr, (∀ i j, L i j ≠ b) → h'.cell b = h.cell b := by
  obtain ⟨h', e, n', c', o'⟩ := modify_run L hL (fun V i j => XR.add (V i j) (h.cell (L j i))) h
  refine ⟨h', ?_, n', funext fun i => funext fun j => c' i j, o'⟩
  unfold addTransposed
  rw [bind_ok _ _ h h (fun i j => h.cell (L j i)) (by rfl), e]

theorem core_eq (w : World) {n : ℕ} (D : Fin n → Fin n → XR ℝ) (k : ℤ) (metric : String) (test : Option (List ℤ)) (nJobs : ℤ) :
    core w D k metric test nJobs =
      (if jobs w nJobs > 1 then radiiParallel w (Np.fillDiagonal D (exclude metric)) (trainInd n test) (kthOf metric n k)
        else radiiSerial w.part (Np.fillDiagonal D (exclude metric)) (trainInd n test) (kthOf metric n k)) >>= fun r =>
      if jobs w nJobs = 1 then
        .ok (Np.fillDiagonal (secSerial metric (Np.fillDiagonal D (exclude metric)) r) (selfValue metric))
      else if jobs w nJobs > 1 then
        .ok (Np.fillDiagonal (secParallel w metric (Np.fillDiagonal D (exclude metric)) r) (selfValue metric))
      else .error .unboundLocalError := by
  unfold core
  by_cases hj : jobs w nJobs > 1
  · rw [if_pos hj, if_pos hj]
    rfl
  · rw [if_neg hj, if_neg hj]
    rfl

/-- `local_scaling` with its in-place operations returns (or raises) what it would if all values were immutable. -/
theorem C197_localScaling (w : World) {n : ℕ} (D : Arr n n) (k : ℤ) (metric : String) (test : Option (List ℤ)) (nJobs : ℤ) (h : Mem (XR ℝ)) :
    contents (localScalingH w D k metric test nJobs >>= fun L => pure ⟨n, L⟩) h
      = (core w (fun i j => h.cell (D i j)) k metric test nJobs).map (Sigma.mk n) := by
  obtain ⟨D', h1, e1, s1, f1, n1, l1, c1, _⟩ := copy_run D h
  obtain ⟨h2, e2, n2, c2, o2⟩ := modify_run D' s1 (fun V => Np.fillDiagonal V (exclude metric)) h1
  have d2 : (fun i j => h2.cell (D' i j)) = Np.fillDiagonal (fun i j => h.cell (D i j)) (exclude metric) := by
    funext i j
    rw [c2]
    simp only [c1]
  rw [core_eq]
  unfold contents localScalingH
  rw [bind_bind, bind_bind, bind_ok _ _ h h1 D' e1, bind_bind, bind_ok _ _ h1 h2 () e2, bind_bind,
    bind_ok _ _ h2 h2 (fun i j => h2.cell (D' i j)) (by rfl), bind_bind, lift_bind, d2]
  set V := Np.fillDiagonal (fun i j => h.cell (D i j)) (exclude metric) with hV
  rcases hr : (if jobs w nJobs > 1 then radiiParallel w V (trainInd n test) (kthOf metric n k)
    else radiiSerial w.part V (trainInd n test) (kthOf metric n k)) with err | r
  · rfl
  show ((_ : M (XR ℝ) _) h2).1 = Except.map _ (if _ then _ else _)
  by_cases hj : jobs w nJobs = 1
  · rw [if_pos hj, if_pos hj]
    obtain ⟨L, h3, e3, s3, f3, n3, l3, c3, o3⟩ := new_run (fun (_ _ : Fin n) => (.fin 0 : XR ℝ)) h2
    have hDL : ∀ i j i' j', D' i j ≠ L i' j' := by
      intro i j i' j' e
      have := f3 i' j'
      have := l1 i j
      rw [e] at this
      omega
    obtain ⟨h4, e4, n4, c4, o4⟩ := fillUpper_run (List.finRange n) D' L s3 hDL 0
      (fun V i j => if j = i then selfTmp metric else entry metric (V i j) (r i) (r j)) h3
    obtain ⟨h5, e5, n5, c5, o5⟩ := addTransposed_run L s3 h4
    obtain ⟨h6, e6, n6, c6, o6⟩ := modify_run L s3 (fun V => Np.fillDiagonal V (selfValue metric)) h5
    rw [bind_bind, bind_ok _ _ h2 h3 L e3, bind_bind, bind_ok _ _ h3 h4 () e4, bind_bind, bind_ok _ _ h4 h5 () e5, bind_bind,
      bind_ok _ _ h5 h6 () e6]
    show (Except.ok (⟨n, fun i j => h6.cell (L i j)⟩ : Σ l : ℕ, Fin n → Fin l → XR ℝ)) = Except.ok _
    congr 2
    funext i j
    rw [c6, c5, c4]
    simp only [c3]
    have : ∀ i j, h3.cell (D' i j) = V i j := fun i j => by
      rw [← d2]
      exact o3 _ (by have := l1 i j; omega)
    simp only [this]
    rfl
  · rw [if_neg hj, if_neg hj]
    by_cases hp : jobs w nJobs > 1
    · rw [if_pos hp, if_pos hp]
      obtain ⟨L, h3, e3, s3, f3, n3, l3, c3, o3⟩ := new_run (secParallel w metric V r) h2
      obtain ⟨h6, e6, n6, c6, o6⟩ := modify_run L s3 (fun V => Np.fillDiagonal V (selfValue metric)) h3
      rw [bind_bind, bind_ok _ _ h2 h2 (fun i j => h2.cell (D' i j)) (by rfl), d2, bind_bind, bind_ok _ _ h2 h3 L e3, bind_bind,
        bind_ok _ _ h3 h6 () e6]
      show (Except.ok (⟨n, fun i j => h6.cell (L i j)⟩ : Σ l : ℕ, Fin n → Fin l → XR ℝ)) = Except.ok _
      congr 2
      funext i j
      rw [c6]
      simp only [c3]
    · rw [if_neg hp, if_neg hp]
      rfl

/-- `local_scaling` changes nothing that was in memory before the call. -/
theorem C196_localScaling (w : World) {n : ℕ} (D : Arr n n) (k : ℤ) (metric : String) (test : Option (List ℤ)) (nJobs : ℤ) (h : Mem (XR ℝ))
    (c : Addr) (hc : c.1 < h.next) : (localScalingH w D k metric test nJobs h).2.cell c = h.cell c := by
  refine ((?_ : Keeps h.next (fun _ => True) (localScalingH w D k metric test nJobs)) h le_rfl).2.1 c hc
  unfold localScalingH addTransposed
  exact Keeps.bind (Keeps.copy D) fun D' hD => Keeps.bind (Keeps.modify D' hD.2 _) fun _ _ => Keeps.bind (Keeps.read D') fun _ _ =>
    Keeps.bind (Keeps.lift _) fun r _ => Keeps.ite
      (Keeps.bind (Keeps.new _) fun L hL => Keeps.bind (Keeps.fillUpper _ D' L hL.2 _ _) fun _ _ =>
        Keeps.bind (Keeps.bind (Keeps.read _) fun _ _ => Keeps.modify L hL.2 _) fun _ _ =>
        Keeps.bind (Keeps.modify L hL.2 _) fun _ _ => Keeps.pure _ trivial)
      (Keeps.ite (Keeps.bind (Keeps.read _) fun _ _ => Keeps.bind (Keeps.new _) fun L hL =>
        Keeps.bind (Keeps.modify L hL.2 _) fun _ _ => Keeps.pure _ trivial) (Keeps.lift _))

/-- `nicdm` with its in-place operations returns (or raises) what it would if all values were immutable. -/
theorem C197_nicdm (w : World) {n : ℕ} (D : Arr n n) (k : ℕ) (test : Option (List ℤ)) (nJobs : ℤ) (h : Mem (XR ℝ)) :
    contents (nicdmH w D k test nJobs >>= fun L => pure ⟨n, L⟩) h
      = (nicdmCore w (fun i j => h.cell (D i j)) k test nJobs).map (Sigma.mk n) := by
  obtain ⟨D', h1, e1, s1, f1, n1, l1, c1, _⟩ := copy_run D h
  obtain ⟨h2, e2, n2, c2, o2⟩ := modify_run D' s1 (fun V => Np.fillDiagonal V (.pinf : XR ℝ)) h1
  have d2 : (fun i j => h2.cell (D' i j)) = Np.fillDiagonal (fun i j => h.cell (D i j)) .pinf := by
    funext i j
    rw [c2]
    simp only [c1]
  unfold contents nicdmH nicdmCore
  rw [bind_bind, bind_bind, bind_ok _ _ h h1 D' e1, bind_bind, bind_ok _ _ h1 h2 () e2, bind_bind,
    bind_ok _ _ h2 h2 (fun i j => h2.cell (D' i j)) (by rfl), d2]
  simp only []
  set V := Np.fillDiagonal (fun i j => h.cell (D i j)) (.pinf : XR ℝ) with hV
  by_cases hj : jobs w nJobs > 1
  · rw [if_pos hj, if_pos hj, bind_bind, lift_bind]
    rcases hr : meanRadiiParallel w V (trainInd n test) k with err | r
    · rfl
    obtain ⟨L, h3, e3, s3, f3, n3, l3, c3, o3⟩ := new_run (nicdmParallel w (geomean r) V r) h2
    show ((_ : M (XR ℝ) _) h2).1 = Except.map _ (Except.ok _)
    rw [bind_bind, bind_ok _ _ h2 h2 (fun i j => h2.cell (D' i j)) (by rfl), d2, bind_ok _ _ h2 h3 L e3]
    show (Except.ok (⟨n, fun i j => h3.cell (L i j)⟩ : Σ l : ℕ, Fin n → Fin l → XR ℝ)) = Except.ok _
    congr 2
    funext i j
    rw [c3]
  · rw [if_neg hj, if_neg hj, bind_bind, lift_bind]
    rcases hr : meanRadiiSerial w.part V (trainInd n test) k with err | r
    · rfl
    obtain ⟨L, h3, e3, s3, f3, n3, l3, c3, o3⟩ := new_run (fun (_ _ : Fin n) => (.fin 0 : XR ℝ)) h2
    have hDL : ∀ i j i' j', D' i j ≠ L i' j' := by
      intro i j i' j' e
      have := f3 i' j'
      have := l1 i j
      rw [e] at this
      omega
    obtain ⟨h4, e4, n4, c4, o4⟩ := fillUpper_run (List.finRange n) D' L s3 hDL 1 (fun V i j => nicdmEntry (geomean r) (V i j) (r i) (r j)) h3
    obtain ⟨h5, e5, n5, c5, o5⟩ := addTransposed_run L s3 h4
    show ((_ : M (XR ℝ) _) h2).1 = Except.map _ (Except.ok _)
    rw [bind_bind, bind_ok _ _ h2 h3 L e3, bind_bind, bind_ok _ _ h3 h4 () e4, bind_bind, bind_ok _ _ h4 h5 () e5]
    show (Except.ok (⟨n, fun i j => h5.cell (L i j)⟩ : Σ l : ℕ, Fin n → Fin l → XR ℝ)) = Except.ok _
    congr 2
    rw [c5, c4]
    simp only [c3]
    have : ∀ i j, h3.cell (D' i j) = V i j := fun i j => by
      rw [← d2]
      exact o3 _ (by have := l1 i j; omega)
    simp only [this]
    rfl

/-- `nicdm` changes nothing that was in memory before the call. -/
theorem C196_nicdm (w : World) {n : ℕ} (D : Arr n n) (k : ℕ) (test : Option (List ℤ)) (nJobs : ℤ) (h : Mem (XR ℝ))
    (c : Addr) (hc : c.1 < h.next) : (nicdmH w D k test nJobs h).2.cell c = h.cell c := by
  refine ((?_ : Keeps h.next (fun _ => True) (nicdmH w D k test nJobs)) h le_rfl).2.1 c hc
  unfold nicdmH addTransposed
  exact Keeps.bind (Keeps.copy D) fun D' hD => Keeps.bind (Keeps.modify D' hD.2 _) fun _ _ => Keeps.bind (Keeps.read D') fun _ _ =>
    Keeps.ite (Keeps.bind (Keeps.lift _) fun r _ => Keeps.bind (Keeps.read _) fun _ _ => Keeps.weaken (Keeps.new _))
      (Keeps.bind (Keeps.lift _) fun r _ => Keeps.bind (Keeps.new _) fun L hL => Keeps.bind (Keeps.fillUpper _ D' L hL.2 _ _) fun _ _ =>
        Keeps.bind (Keeps.bind (Keeps.read _) fun _ _ => Keeps.modify L hL.2 _) fun _ _ => Keeps.pure _ trivial)

end HubToolbox.Heap
