import Verif.Heap.DisSim

/-!
# `dis_sim_local`: arguments stay unchanged, and shared names do no harm
-/

set_option autoImplicit false

namespace HubToolbox.Heap

open HubToolbox HubToolbox.Cent

variable {K : Type} [Field K] [LinearOrder K] [FloorRing K]

/-- The contents of the array which a function returns. -/
def contents {α : Type} {n : ℕ} (f : M α (Σ l : ℕ, Arr n l)) (h : Mem α) : Py (Σ l : ℕ, Fin n → Fin l → α) :=
  ((do let r ← f; let V ← read r.2; pure ⟨r.1, V⟩ : M α (Σ l : ℕ, Fin n → Fin l → α)) h).1

theorem sqDistances_run {n l m : ℕ} (X : Arr n m) (Y : Arr l m) (h : Mem (XR K)) (x : Fin n → Fin m → K) (y : Fin l → Fin m → K)
    (hx : ∀ i f, h.cell (X i f) = .fin (x i f)) (hy : ∀ i f, h.cell (Y i f) = .fin (y i f)) :
    ∃ (a : Arr n l) (h' : Mem (XR K)), sqDistances X Y h = (.ok a, h') ∧ Simple a ∧ Fresh h.next a ∧ h'.next = h.next + 1 ∧
      (∀ i j, (a i j).1 < h'.next) ∧ (∀ i j, h'.cell (a i j) = .fin (sqDist (x i) (y j))) ∧
      ∀ b : Addr, b.1 ≠ h.next → h'.cell b = h.cell b := by
  obtain ⟨a, h', e, r⟩ := new_run (fun i j => (.fin (sqDist (x i) (y j)) : XR K)) h
  refine ⟨a, h', ?_, r⟩
  unfold sqDistances
  rw [bind_ok _ _ h h (fun i f => h.cell (X i f)) (by rfl), bind_ok _ _ h h (fun i f => h.cell (Y i f)) (by rfl)]
  simp only [hx, hy]
  exact e

theorem centroidsH_run (w : SNN.World K) (nJobs : ℤ) (dtype : Dtype) (k : ℤ) {n l m : ℕ} (D : Arr n l) (Y : Arr l m)
    (h : Mem (XR K)) (d : Fin n → Fin l → XR K) (y : Fin l → Fin m → K)
    (hd : ∀ i j, h.cell (D i j) = d i j) (hy : ∀ i f, h.cell (Y i f) = .fin (y i f)) :
    centroidsH w nJobs dtype k D Y h = (centroids w nJobs dtype k d y, h) := by
  unfold centroidsH
  rw [bind_ok _ _ h h (fun i f => h.cell (D i f)) (by rfl), bind_ok _ _ h h (fun i f => h.cell (Y i f)) (by rfl)]
  simp only [hd, hy]
  rfl

theorem toCentroidH_run {n m : ℕ} (X : Arr n m) (hs : Simple X) (C : Fin n → Fin m → XR K) (h : Mem (XR K))
    (x : Fin n → Fin m → K) (hx : ∀ i f, h.cell (X i f) = .fin (x i f)) :
    ∃ h' : Mem (XR K), toCentroidH X C h = (.ok (toCentroid x C), h') ∧ h'.next = h.next ∧
      ∀ b : Addr, (∀ i j, X i j ≠ b) → h'.cell b = h.cell b := by
  obtain ⟨h1, e1, n1, c1, o1⟩ := modify_run X hs (fun V i f => XR.sub (V i f) (C i f)) h
  obtain ⟨h2, e2, n2, c2, o2⟩ := modify_run X hs (fun V i f => XR.mul (V i f) (V i f)) h1
  simp only at c1 c2
  refine ⟨h2, ?_, n2.trans n1, fun b hb => (o2 b hb).trans (o1 b hb)⟩
  unfold toCentroidH
  rw [bind_ok _ _ h h1 () e1, bind_ok _ _ h1 h2 () e2, bind_ok _ _ h2 h2 (fun i f => h2.cell (X i f)) (by rfl)]
  simp only [c2, c1, hx]
  rfl

/-- `dis_sim_local` of finite data computes what it would if all values were immutable: the names which share an array, the array
overwritten by its squared distances to the centroids, do not matter. -/
theorem C197_disSimLocal (w : SNN.World K) {n m : ℕ} (X : Arr n m) (dtype : Dtype) (k nJobs : ℤ) (h : Mem (XR K))
    (x : Fin n → Fin m → K) (hx : ∀ i f, h.cell (X i f) = .fin (x i f)) :
    contents (disSimLocalH w X dtype none k nJobs) h = disSimLocal w x dtype none k nJobs := by
  obtain ⟨X', h1, e1, s1, f1, n1, l1, c1, _⟩ := copy_run X h
  have x1 : ∀ i f, h1.cell (X' i f) = .fin (x i f) := fun i f => (c1 i f).trans (hx i f)
  unfold contents disSimLocalH disSimLocal
  rw [bind_bind, bind_ok _ _ h h1 X' e1]
  simp only []
  rw [bind_bind, lift_bind]
  by_cases h0 : n = 0 ∨ m = 0
  · rw [if_pos h0, if_pos h0]
    rfl
  rw [if_neg h0, if_neg h0]
  obtain ⟨D, h2, e2, s2, f2, n2, l2, c2, o2⟩ := sqDistances_run X' X' h1 x x x1 x1
  obtain ⟨h3, e3, n3, c3, o3⟩ := modify_run D s2 (fun V => Np.fillDiagonal V (.pinf : XR K)) h2
  have hDX : ∀ i j i' f, D i j ≠ X' i' f := by
    intro i j i' f e
    have := f2 i j
    have := l1 i' f
    rw [← e] at this
    omega
  have x3 : ∀ i f, h3.cell (X' i f) = .fin (x i f) := by
    intro i f
    rw [o3 _ fun p q => hDX p q i f, o2 _ (by have := l1 i f; omega), x1]
  have d3 : ∀ i j, h3.cell (D i j) = Np.fillDiagonal (fun i j => .fin (sqDist (x i) (x j))) (.pinf : XR K) i j := by
    intro i j
    rw [c3]
    simp only [c2]
  show ((_ : M (XR K) _) h1).1 = Except.bind _ _
  rw [bind_bind, bind_ok _ _ h1 h2 D e2, bind_bind, bind_ok _ _ h2 h3 () e3, bind_bind]
  have e4 := centroidsH_run w nJobs dtype k D X' h3 _ x d3 x3
  rcases hC : centroids w nJobs dtype k (Np.fillDiagonal (fun i j => .fin (sqDist (x i) (x j))) (.pinf : XR K)) x with err | C
  · rw [hC] at e4
    rw [bind_error _ _ h3 h3 err e4]
    rfl
  · rw [hC] at e4
    rw [bind_ok _ _ h3 h3 C e4, bind_bind]
    obtain ⟨h5, e5, n5, o5⟩ := toCentroidH_run X' s1 C h3 x x3
    obtain ⟨h6, e6, n6, c6, o6⟩ := modify_run D s2 (fun V i j => XR.sub (V i j) (toCentroid x C i)) h5
    obtain ⟨h7, e7, n7, c7, o7⟩ := modify_run D s2 (fun V i j => XR.sub (V i j) (toCentroid x C j)) h6
    obtain ⟨h8, e8, n8, c8, o8⟩ := modify_run D s2 (fun V => Np.fillDiagonal V (.ninf : XR K)) h7
    rw [bind_ok _ _ h3 h5 _ e5, bind_bind, bind_ok _ _ h5 h6 () e6, bind_bind, bind_ok _ _ h6 h7 () e7, bind_bind,
      bind_ok _ _ h7 h8 () e8]
    have d5 : ∀ i j, h5.cell (D i j) = h3.cell (D i j) := fun i j => o5 _ fun p q e => hDX i j p q e.symm
    show (Except.ok (⟨n, fun i j => h8.cell (D i j)⟩ : Σ l : ℕ, Fin n → Fin l → XR K)) = Except.ok _
    congr 2
    funext i j
    rw [c8]
    simp only [c7, c6, d5, d3]

theorem disSimLocal_two (w : SNN.World K) {n l m : ℕ} (x : Fin n → Fin m → K) (y : Fin l → Fin m → K) (dtype dtypeY : Dtype) (k nJobs : ℤ)
    (h0 : ¬ (n = 0 ∨ l = 0 ∨ m = 0)) : disSimLocal w x dtype (some (dtypeY, ⟨l, m, y⟩)) k nJobs
      = (centroids w nJobs dtype k (fun i j => .fin (sqDist (x i) (y j))) y).bind fun C =>
        (centroids w nJobs dtypeY k (fun i j => .fin (sqDist (y i) (y j))) y).bind fun C' =>
        .ok ⟨l, fun i j => XR.sub (XR.sub (.fin (sqDist (x i) (y j))) (toCentroid x C i)) (toCentroid y C' j)⟩ := by
  unfold disSimLocal
  simp only [h0]
  rfl

/-- `dis_sim_local` of two arrays of finite data computes what it would if all values were immutable, even if both arguments are the same
array or overlap. -/
theorem C197_disSimLocal_two (w : SNN.World K) {n l m : ℕ} (X : Arr n m) (Y : Arr l m) (dtype dtypeY : Dtype) (k nJobs : ℤ)
    (h : Mem (XR K)) (x : Fin n → Fin m → K) (y : Fin l → Fin m → K) (hx : ∀ i f, h.cell (X i f) = .fin (x i f))
    (hy : ∀ i f, h.cell (Y i f) = .fin (y i f)) (hold : ∀ i f, (Y i f).1 < h.next) :
    contents (disSimLocalH w X dtype (some (dtypeY, ⟨l, Y⟩)) k nJobs) h
      = disSimLocal w x dtype (some (dtypeY, ⟨l, m, y⟩)) k nJobs := by
  obtain ⟨X', h1, e1, s1, f1, n1, l1, c1, o1⟩ := copy_run X h
  obtain ⟨Y', h2, e2, s2, f2, n2, l2, c2, o2⟩ := copy_run Y h1
  have y2 : ∀ i f, h2.cell (Y' i f) = .fin (y i f) := by
    intro i f
    rw [c2, o1 _ (by have := hold i f; omega), hy]
  have x2 : ∀ i f, h2.cell (X' i f) = .fin (x i f) := by
    intro i f
    rw [o2 _ (by have := l1 i f; omega), c1, hx]
  unfold contents disSimLocalH
  rw [bind_bind, bind_ok _ _ h h1 X' e1]
  simp only []
  rw [bind_bind, bind_ok _ _ h1 h2 Y' e2, bind_bind, lift_bind]
  by_cases h0 : n = 0 ∨ l = 0 ∨ m = 0
  · rw [if_pos h0]
    unfold disSimLocal
    simp only [h0]
    rfl
  rw [if_neg h0, disSimLocal_two w x y dtype dtypeY k nJobs h0]
  obtain ⟨D, h3, e3, s3, f3, n3, l3, c3, o3⟩ := sqDistances_run Y' Y' h2 y y y2 y2
  have x3 : ∀ i f, h3.cell (X' i f) = .fin (x i f) := by
    intro i f
    rw [o3 _ (by have := l1 i f; omega), x2]
  have y3 : ∀ i f, h3.cell (Y' i f) = .fin (y i f) := by
    intro i f
    rw [o3 _ (by have := l2 i f; omega), y2]
  obtain ⟨T, h4, e4, s4, f4, n4, l4, c4, o4⟩ := sqDistances_run X' Y' h3 x y x3 y3
  have x4 : ∀ i f, h4.cell (X' i f) = .fin (x i f) := by
    intro i f
    rw [o4 _ (by have := l1 i f; omega), x3]
  have y4 : ∀ i f, h4.cell (Y' i f) = .fin (y i f) := by
    intro i f
    rw [o4 _ (by have := l2 i f; omega), y3]
  have d4 : ∀ i j, h4.cell (D i j) = .fin (sqDist (y i) (y j)) := by
    intro i j
    rw [o4 _ (by have := l3 i j; omega), c3]
  have hXY : ∀ i f j g, X' i f ≠ Y' j g := by
    intro i f j g e
    have := f2 j g
    have := l1 i f
    rw [e] at this
    omega
  have hXD : ∀ i f j g, X' i f ≠ D j g := by
    intro i f j g e
    have := f3 j g
    have := l1 i f
    rw [e] at this
    omega
  have hXT : ∀ i f j g, X' i f ≠ T j g := by
    intro i f j g e
    have := f4 j g
    have := l1 i f
    rw [e] at this
    omega
  have hYT : ∀ i f j g, Y' i f ≠ T j g := by
    intro i f j g e
    have := f4 j g
    have := l2 i f
    rw [e] at this
    omega
  show ((_ : M (XR K) _) h2).1 = _
  rw [bind_bind, bind_ok _ _ h2 h3 D e3, bind_bind, bind_ok _ _ h3 h4 T e4, bind_bind]
  have e5 := centroidsH_run w nJobs dtype k T Y' h4 _ y c4 y4
  rcases hC : centroids w nJobs dtype k (fun i j => (.fin (sqDist (x i) (y j)) : XR K)) y with err | C
  · rw [hC] at e5
    rw [bind_error _ _ h4 h4 err e5]
    rfl
  rw [hC] at e5
  rw [bind_ok _ _ h4 h4 C e5, bind_bind]
  obtain ⟨h5, e6, n5, o5⟩ := toCentroidH_run X' s1 C h4 x x4
  have y5 : ∀ i f, h5.cell (Y' i f) = .fin (y i f) := fun i f => (o5 _ fun p q => hXY p q i f).trans (y4 i f)
  have d5 : ∀ i j, h5.cell (D i j) = .fin (sqDist (y i) (y j)) := fun i j => (o5 _ fun p q => hXD p q i j).trans (d4 i j)
  have t5 : ∀ i j, h5.cell (T i j) = .fin (sqDist (x i) (y j)) := fun i j => (o5 _ fun p q => hXT p q i j).trans (c4 i j)
  rw [bind_ok _ _ h4 h5 _ e6, bind_bind]
  have e7 := centroidsH_run w nJobs dtypeY k D Y' h5 _ y d5 y5
  rcases hC' : centroids w nJobs dtypeY k (fun i j => (.fin (sqDist (y i) (y j)) : XR K)) y with err | C'
  · rw [hC'] at e7
    rw [bind_error _ _ h5 h5 err e7]
    rfl
  rw [hC'] at e7
  rw [bind_ok _ _ h5 h5 C' e7, bind_bind]
  obtain ⟨h6, e8, n6, o6⟩ := toCentroidH_run Y' s2 C' h5 y y5
  obtain ⟨h7, e9, n7, c7, o7⟩ := modify_run T s4 (fun V i j => XR.sub (V i j) (toCentroid x C i)) h6
  obtain ⟨h8, e10, n8, c8, o8⟩ := modify_run T s4 (fun V i j => XR.sub (V i j) (toCentroid y C' j)) h7
  rw [bind_ok _ _ h5 h6 _ e8, bind_bind, bind_ok _ _ h6 h7 () e9, bind_bind, bind_ok _ _ h7 h8 () e10]
  have t6 : ∀ i j, h6.cell (T i j) = .fin (sqDist (x i) (y j)) := fun i j => (o6 _ fun p q => hYT p q i j).trans (t5 i j)
  show (Except.ok (⟨l, fun i j => h8.cell (T i j)⟩ : Σ l : ℕ, Fin n → Fin l → XR K)) = Except.ok _
  congr 2
  funext i j
  rw [c8]
  simp only [c7, t6]

/-- `dis_sim_local` changes nothing that was in memory before the call. -/
theorem C196_disSimLocal (w : SNN.World K) {n m : ℕ} (X : Arr n m) (dtype : Dtype) (Y : Option (Dtype × Σ l : ℕ, Arr l m)) (k nJobs : ℤ)
    (h : Mem (XR K)) (c : Addr) (hc : c.1 < h.next) : (disSimLocalH w X dtype Y k nJobs h).2.cell c = h.cell c := by
  refine ((?_ : Keeps h.next (fun _ => True) (disSimLocalH w X dtype Y k nJobs)) h le_rfl).2.1 c hc
  have hsq : ∀ {p q : ℕ} (A : Arr p m) (B : Arr q m), Keeps h.next (fun a => Simple a ∧ Fresh h.next a) (sqDistances A B : M (XR K) _) :=
    fun A B => Keeps.bind (Keeps.read A) fun _ _ => Keeps.bind (Keeps.read B) fun _ _ => Keeps.new _
  have hce : ∀ {p q : ℕ} (t : Dtype) (A : Arr p q) (B : Arr q m), Keeps h.next (fun _ => True) (centroidsH w nJobs t k A B) :=
    fun t A B => Keeps.bind (Keeps.read A) fun _ _ => Keeps.bind (Keeps.read B) fun _ _ => Keeps.lift _
  have hto : ∀ {p : ℕ} (A : Arr p m) (_ : Fresh h.next A) (C : Fin p → Fin m → XR K), Keeps h.next (fun _ => True) (toCentroidH A C) :=
    fun A hA C => Keeps.bind (Keeps.modify A hA _) fun _ _ => Keeps.bind (Keeps.modify A hA _) fun _ _ =>
      Keeps.bind (Keeps.read A) fun _ _ => Keeps.pure _ trivial
  unfold disSimLocalH
  refine Keeps.bind (Keeps.copy X) fun X' hX => ?_
  rcases Y with _ | ⟨dY, l, Y⟩
  · exact Keeps.bind (Keeps.lift _) fun _ _ => Keeps.bind (hsq _ _) fun D hD => Keeps.bind (Keeps.modify D hD.2 _) fun _ _ =>
      Keeps.bind (hce _ _ _) fun C _ => Keeps.bind (hto _ hX.2 _) fun _ _ => Keeps.bind (Keeps.modify D hD.2 _) fun _ _ =>
      Keeps.bind (Keeps.modify D hD.2 _) fun _ _ => Keeps.bind (Keeps.modify D hD.2 _) fun _ _ => Keeps.pure _ trivial
  · exact Keeps.bind (Keeps.copy Y) fun Y' hY => Keeps.bind (Keeps.lift _) fun _ _ => Keeps.bind (hsq _ _) fun D hD =>
      Keeps.bind (hsq _ _) fun T hT => Keeps.bind (hce _ _ _) fun C _ => Keeps.bind (hto _ hX.2 _) fun _ _ =>
      Keeps.bind (hce _ _ _) fun C _ => Keeps.bind (hto _ hY.2 _) fun _ _ => Keeps.bind (Keeps.modify T hT.2 _) fun _ _ =>
      Keeps.bind (Keeps.modify T hT.2 _) fun _ _ => Keeps.pure _ trivial

end HubToolbox.Heap
