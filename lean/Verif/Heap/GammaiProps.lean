import Verif.Heap.Gammai

/-!
# `mutual_proximity_gammai`: overwriting views does no harm
-/

set_option autoImplicit false

namespace HubToolbox.Heap

open HubToolbox HubToolbox.MPPar

theorem after_injective {n : ℕ} (i : Fin n) : Function.Injective (after i) := by
  intro t t' e
  have := congrArg Fin.val e
  simp only [after] at this
  exact Fin.ext (by omega)

theorem lt_after {n : ℕ} (i : Fin n) (t : Fin (n - (i.val + 1))) : i < after i t := by
  show i.val < i.val + 1 + t.val
  omega

theorem negNan_idem (a : XR ℝ) : negNan (negNan a) = negNan a := by
  unfold negNan
  by_cases h : XR.flt a (.fin 0)
  · rw [if_pos h]
    exact if_neg (by simp [XR.flt])
  · rw [if_neg h, if_neg h]

theorem nonposNan_idem (a : XR ℝ) : nonposNan (nonposNan a) = nonposNan a := by
  unfold nonposNan
  by_cases h : XR.fle a (.fin 0)
  · rw [if_pos h]
    exact if_neg (by simp [XR.fle])
  · rw [if_neg h, if_neg h]

theorem negZero_fin (x : ℝ) : negZero (.fin x) = .fin (if x < 0 then 0 else x) := by
  unfold negZero
  by_cases h : x < 0
  · rw [if_pos h, if_pos (by simpa [XR.flt] using h)]
  · rw [if_neg h, if_neg (by simpa [XR.flt] using h)]

/-- The arrays are three different ones. -/
structure Separate {n : ℕ} (D : Arr n n) (A B : Fin n → Addr) : Prop where
  D_simple : Simple D
  A_inj : Function.Injective A
  B_inj : Function.Injective B
  DA : ∀ i j k, D i j ≠ A k
  DB : ∀ i j k, D i j ≠ B k
  AB : ∀ i j, A i ≠ B j

/-- What holds before the passes for the objects in `l`. -/
structure Inv {n : ℕ} (D : Arr n n) (A B : Fin n → Addr) (d : Fin n → Fin n → ℝ) (a b : Fin n → XR ℝ) (l : List (Fin n))
    (h : Mem (XR ℝ)) : Prop where
  up : ∀ i ∈ l, ∀ t, h.cell (D i (after i t)) = .fin (d i (after i t))
  lo : ∀ i ∈ l, ∀ t, h.cell (D (after i t) i) = .fin (d (after i t) i)
  A_ok : ∀ j, negNan (h.cell (A j)) = negNan (a j)
  B_ok : ∀ j, nonposNan (h.cell (B j)) = nonposNan (b j)

theorem gammaiRow_run (F : Dists) (metric : String) {n : ℕ} (D : Arr n n) (A B : Fin n → Addr) (hs : Separate D A B)
    (d : Fin n → Fin n → ℝ) (a b : Fin n → XR ℝ) (i : Fin n) (l : List (Fin n)) (hl : i ∉ l) (h : Mem (XR ℝ))
    (hI : Inv D A B d a b (i :: l) h) :
    ∃ h', gammaiRow F metric D A B i h = (.ok fun t => gamEntry F metric (d i (after i t)) (d (after i t) i) (a i) (b i)
      (a (after i t)) (b (after i t)), h') ∧ Inv D A B d a b l h' := by
  have j1 : Function.Injective (fun t => D i (after i t)) := fun t t' e => after_injective i (hs.D_simple _ _ _ _ e).2
  have j2 : Function.Injective (fun t => D (after i t) i) := fun t t' e => after_injective i (hs.D_simple _ _ _ _ e).1
  have jA : Function.Injective (fun t => A (after i t)) := hs.A_inj.comp (after_injective i)
  have jB : Function.Injective (fun t => B (after i t)) := hs.B_inj.comp (after_injective i)
  obtain ⟨h1, e1, _, c1, o1⟩ := modifyV_run _ j1 (fun v t => negZero (v t)) h
  obtain ⟨h2, e2, _, c2, o2⟩ := modifyV_run _ jA (fun v t => negNan (v t)) h1
  obtain ⟨h3, e3, _, c3, o3⟩ := modifyV_run _ jB (fun v t => nonposNan (v t)) h2
  obtain ⟨h4, e4, _, c4, o4⟩ := modifyV_run _ j2 (fun v t => negZero (v t)) h3
  simp only at c1 c2 c3 c4
  -- what the passes leave alone
  have oA1 : ∀ k, h1.cell (A k) = h.cell (A k) := fun k => o1 _ fun t => hs.DA _ _ _
  have oB1 : ∀ k, h1.cell (B k) = h.cell (B k) := fun k => o1 _ fun t => hs.DB _ _ _
  have oB2 : ∀ k, h2.cell (B k) = h1.cell (B k) := fun k => o2 _ fun t => hs.AB _ _
  have oA3 : ∀ k, h3.cell (A k) = h2.cell (A k) := fun k => o3 _ fun t e => hs.AB _ _ e.symm
  have oA4 : ∀ k, h4.cell (A k) = h3.cell (A k) := fun k => o4 _ fun t => hs.DA _ _ _
  have oB4 : ∀ k, h4.cell (B k) = h3.cell (B k) := fun k => o4 _ fun t => hs.DB _ _ _
  have oD2 : ∀ p q, h2.cell (D p q) = h1.cell (D p q) := fun p q => o2 _ fun t e => hs.DA _ _ _ e.symm
  have oD3 : ∀ p q, h3.cell (D p q) = h2.cell (D p q) := fun p q => o3 _ fun t e => hs.DB _ _ _ e.symm
  have v1 : ∀ t, h1.cell (D i (after i t)) = .fin (if d i (after i t) < 0 then 0 else d i (after i t)) := by
    intro t
    rw [c1, hI.up i List.mem_cons_self t, negZero_fin]
  have x2 : ∀ t, h3.cell (D (after i t) i) = .fin (d (after i t) i) := by
    intro t
    rw [oD3, oD2, o1 _ fun t' e => ?_, hI.lo i List.mem_cons_self t]
    have := (hs.D_simple _ _ _ _ e).1
    exact (lt_after i t).ne this
  have v2 : ∀ t, h4.cell (D (after i t) i) = .fin (if d (after i t) i < 0 then 0 else d (after i t) i) := by
    intro t
    rw [c4, x2, negZero_fin]
  have u2 : ∀ t, h4.cell (A (after i t)) = negNan (a (after i t)) := by
    intro t
    rw [oA4, oA3, c2, oA1, hI.A_ok]
  have w2 : ∀ t, h4.cell (B (after i t)) = nonposNan (b (after i t)) := by
    intro t
    rw [oB4, c3, oB2, oB1, hI.B_ok]
  have hp1 : gamcdfScalar F (fun t => D i (after i t)) (h.cell (A i)) (h.cell (B i)) h
      = (.ok fun t => gamCdf F (d i (after i t)) (a i) (b i), h1) := by
    unfold gamcdfScalar
    rw [bind_ok _ _ h h1 () e1]
    show (Except.ok _, h1) = _
    congr 2
    funext t
    show F.gammainc (negNan (h.cell (A i))) (XR.div (h1.cell (D i (after i t))) (nonposNan (h.cell (B i)))) = _
    rw [v1, hI.A_ok, hI.B_ok]
    rfl
  have hp2 : gamcdfArray F (fun t => D (after i t) i) (fun t => A (after i t)) (fun t => B (after i t)) h1
      = (.ok fun t => gamCdf F (d (after i t) i) (a (after i t)) (b (after i t)), h4) := by
    unfold gamcdfArray
    rw [bind_ok _ _ h1 h2 () e2, bind_ok _ _ h2 h3 () e3, bind_ok _ _ h3 h4 () e4]
    show (Except.ok _, h4) = _
    congr 2
    funext t
    show F.gammainc (h4.cell (A (after i t))) (XR.div (h4.cell (D (after i t) i)) (h4.cell (B (after i t)))) = _
    rw [u2, v2, w2]
    rfl
  refine ⟨h4, ?_, ?_⟩
  · unfold gammaiRow
    rw [bind_ok _ _ h h (fun j => h.cell (A j)) (by rfl), bind_ok _ _ h h (fun j => h.cell (B j)) (by rfl), bind_ok _ _ h h1 _ hp1, bind_ok _ _ h1 h4 _ hp2]
    rfl
  · have oD : ∀ p q : Fin n, (∀ t, ¬ (p = i ∧ q = after i t)) → (∀ t, ¬ (p = after i t ∧ q = i)) →
        h4.cell (D p q) = h.cell (D p q) := by
      intro p q hu hd
      rw [o4 _ fun t e => hd t ⟨(hs.D_simple _ _ _ _ e).1.symm, (hs.D_simple _ _ _ _ e).2.symm⟩, oD3, oD2,
        o1 _ fun t e => hu t ⟨(hs.D_simple _ _ _ _ e).1.symm, (hs.D_simple _ _ _ _ e).2.symm⟩]
    refine ⟨fun k hk t => ?_, fun k hk t => ?_, fun j => ?_, fun j => ?_⟩
    · have hki : k ≠ i := fun e => hl (e ▸ hk)
      rw [oD _ _ (fun t' e => hki e.1) fun t' e => ?_, hI.up k (List.mem_cons_of_mem _ hk) t]
      have h1 := lt_after k t
      have h2 := lt_after i t'
      exact absurd (h2.trans_eq e.1.symm) (h1.trans_eq e.2).asymm
    · have hki : k ≠ i := fun e => hl (e ▸ hk)
      rw [oD _ _ (fun t' e => ?_) fun t' e => hki e.2, hI.lo k (List.mem_cons_of_mem _ hk) t]
      have h1 := lt_after k t
      have h2 := lt_after i t'
      exact absurd (h2.trans_eq e.2.symm) (h1.trans_eq e.1).asymm
    · rw [oA4, oA3]
      by_cases hj : ∃ t, after i t = j
      · obtain ⟨t, rfl⟩ := hj
        rw [c2, negNan_idem, oA1, hI.A_ok]
      · rw [o2 _ fun t e => hj ⟨t, hs.A_inj e⟩, oA1, hI.A_ok]
    · rw [oB4]
      by_cases hj : ∃ t, after i t = j
      · obtain ⟨t, rfl⟩ := hj
        rw [c3, nonposNan_idem, oB2, oB1, hI.B_ok]
      · rw [o3 _ fun t e => hj ⟨t, hs.B_inj e⟩, oB2, oB1, hI.B_ok]

theorem gammaiLoop_run (F : Dists) (metric : String) {n : ℕ} (D : Arr n n) (A B : Fin n → Addr) (hs : Separate D A B)
    (d : Fin n → Fin n → ℝ) (a b : Fin n → XR ℝ) (l : List (Fin n)) (hl : l.Nodup) (M0 : Fin n → Fin n → XR ℝ) (h : Mem (XR ℝ))
    (hI : Inv D A B d a b l h) :
    ((l.foldlM (fun (M : Fin n → Fin n → XR ℝ) i => (do
      let v ← gammaiRow F metric D A B i
      pure (setAfter M i v) : Heap.M (XR ℝ) _)) M0) h).1
      = .ok (l.foldl (fun M i => Np.setRowFrom M i (i.val + 1)
        (fun j => gamEntry F metric (d i j) (d j i) (a i) (b i) (a j) (b j))) M0) := by
  induction l generalizing M0 h with
  | nil => rfl
  | cons i l ih =>
    obtain ⟨h', e, hI'⟩ := gammaiRow_run F metric D A B hs d a b i l (List.nodup_cons.1 hl).1 h hI
    rw [List.foldlM_cons, bind_bind, bind_ok _ _ h h' _ e]
    show ((l.foldlM _ _ : Heap.M (XR ℝ) _) h').1 = _
    rw [ih (List.nodup_cons.1 hl).2 _ h' hI', List.foldl_cons]
    congr 2
    funext p q
    unfold setAfter Np.setRowFrom
    by_cases hp : p = i ∧ i.val < q.val
    · rw [dif_pos hp, if_pos ⟨hp.1, hp.2⟩]
      have : after i ⟨q.val - (i.val + 1), by omega⟩ = q := Fin.ext (by simp only [after]; omega)
      simp only [this]
    · rw [dif_neg hp, if_neg fun e => hp ⟨e.1, e.2⟩]

theorem finVals_eq {n : ℕ} (V : Fin n → Fin n → XR ℝ) (d : Fin n → Fin n → ℝ) (rows : List (Fin n)) (j : Fin n)
    (hV : ∀ i, V i j = if i = j then .nan else .fin (d i j)) : finVals V rows j = colVals d rows j := by
  unfold finVals colVals
  induction rows with
  | nil => rfl
  | cons t rows ih =>
    by_cases ht : t = j
    · subst ht
      simpa [hV] using ih
    · simpa [hV, ht] using ih

/-- `mutual_proximity_gammai` of finite distances computes what it would if all values were immutable, though it overwrites
negative distances and parameters while it runs. -/
theorem C197_gammai (F : Dists) (metric : String) {n : ℕ} (D : Arr n n) (train : List (Fin n)) (h : Mem (XR ℝ))
    (d : Fin n → Fin n → ℝ) (hd : ∀ i j, h.cell (D i j) = .fin (d i j)) :
    (gammaiH F metric D train h).1 = .ok (gammaiDense F metric d train) := by
  obtain ⟨D', h1, e1, hs, f1, n1, l1, c1, _⟩ := copy_run D h
  obtain ⟨h2, e2, n2, c2, _⟩ := modify_run D' hs (fun V => Np.fillDiagonal V (.nan : XR ℝ)) h1
  have hV : ∀ i j, h2.cell (D' i j) = if i = j then .nan else .fin (d i j) := by
    intro i j
    rw [c2]
    unfold Np.fillDiagonal
    by_cases hij : i = j
    · rw [if_pos hij, if_pos (congrArg _ hij)]
    · rw [if_neg hij, if_neg fun e => hij (Fin.ext e)]
      exact (c1 i j).trans (hd i j)
  have hcol : ∀ j, finVals (fun i j => h2.cell (D' i j)) train j = colVals d train j :=
    fun j => finVals_eq _ d train j fun i => hV i j
  unfold gammaiH
  rw [bind_ok _ _ h h1 D' e1, bind_ok _ _ h1 h2 () e2,
    bind_ok _ _ h2 h2 (fun i j => h2.cell (D' i j)) (by rfl)]
  simp only [hcol]
  obtain ⟨A, h3, e3, sA, fA, n3, lA, cA, oA⟩ := new_run (fun (_ : Fin 1) j =>
    XR.div (XR.mul (nanmean (colVals d train j)) (nanmean (colVals d train j))) (noZero (nanvar 1 (colVals d train j)))) h2
  rw [bind_ok _ _ h2 h3 A e3]
  obtain ⟨B, h4, e4, sB, fB, n4, lB, cB, oB⟩ := new_run (fun (_ : Fin 1) j =>
    XR.div (noZero (nanvar 1 (colVals d train j))) (nanmean (colVals d train j))) h3
  rw [bind_ok _ _ h3 h4 B e4, bind_pure_fst]
  have hD1 : ∀ i j, (D' i j).1 < h2.next := fun i j => by rw [n2]; exact l1 i j
  have hsep : Separate D' (A 0) (B 0) := by
    refine ⟨hs, sA.row 0, sB.row 0, fun i j k e => ?_, fun i j k e => ?_, fun i j e => ?_⟩
    · have := hD1 i j
      have := fA 0 k
      rw [← e] at this
      omega
    · have := hD1 i j
      have := fB 0 k
      rw [← e] at this
      omega
    · have := lA 0 i
      have := fB 0 j
      rw [← e] at this
      omega
  have hcell : ∀ i j, h4.cell (D' i j) = h2.cell (D' i j) := by
    intro i j
    have := hD1 i j
    rw [oB _ (by omega), oA _ (by omega)]
  rw [gammaiLoop_run F metric D' (A 0) (B 0) hsep d
    (fun j => XR.div (XR.mul (nanmean (colVals d train j)) (nanmean (colVals d train j))) (noZero (nanvar 1 (colVals d train j))))
    (fun j => XR.div (noZero (nanvar 1 (colVals d train j))) (nanmean (colVals d train j)))
    (List.finRange n) (List.nodup_finRange n) _ h4 ⟨fun i _ t => ?_, fun i _ t => ?_, fun j => ?_, fun j => ?_⟩]
  · rfl
  · rw [hcell, hV, if_neg (lt_after i t).ne]
  · rw [hcell, hV, if_neg (lt_after i t).ne']
  · rw [oB _ (by have := lA 0 j; omega), cA]
  · rw [cB]

/-- `mutual_proximity_gammai` changes nothing that was in memory before the call. -/
theorem C196_gammai (F : Dists) (metric : String) {n : ℕ} (D : Arr n n) (train : List (Fin n)) (h : Mem (XR ℝ)) (c : Addr)
    (hc : c.1 < h.next) : (gammaiH F metric D train h).2.cell c = h.cell c := by
  refine ((?_ : Keeps h.next (fun _ => True) (gammaiH F metric D train)) h le_rfl).2.1 c hc
  unfold gammaiH
  refine Keeps.bind (Keeps.copy D) fun D' hD => Keeps.bind (Keeps.modify D' hD.2 _) fun _ _ => Keeps.bind (Keeps.read D') fun _ _ =>
    Keeps.bind (Keeps.new _) fun A hA => Keeps.bind (Keeps.new _) fun B hB => Keeps.bind (Keeps.foldlM _ _ _ fun M i => ?_)
      fun _ _ => Keeps.pure _ trivial
  refine Keeps.bind (Q := fun _ => True) ?_ fun _ _ => Keeps.pure _ trivial
  unfold gammaiRow gamcdfScalar gamcdfArray
  refine Keeps.bind (Keeps.readV _) fun _ _ => Keeps.bind (Keeps.readV _) fun _ _ => Keeps.bind (Q := fun _ => True) ?_ fun _ _ =>
    Keeps.bind (Q := fun _ => True) ?_ fun _ _ => Keeps.pure _ trivial
  · exact Keeps.bind (Keeps.modifyV _ (fun t => hD.2 _ _) _) fun _ _ => Keeps.bind (Keeps.readV _) fun _ _ => Keeps.pure _ trivial
  · exact Keeps.bind (Keeps.modifyV _ (fun t => hA.2 _ _) _) fun _ _ => Keeps.bind (Keeps.modifyV _ (fun t => hB.2 _ _) _) fun _ _ =>
      Keeps.bind (Keeps.modifyV _ (fun t => hD.2 _ _) _) fun _ _ => Keeps.bind (Keeps.readV _) fun _ _ =>
      Keeps.bind (Keeps.readV _) fun _ _ => Keeps.bind (Keeps.readV _) fun _ _ => Keeps.pure _ trivial

end HubToolbox.Heap
