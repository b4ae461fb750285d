import Verif.Knn.Lemmas

/-!
# Neighbours chosen from a sparse row
-/

set_option autoImplicit false
set_option linter.unusedSectionVars false

namespace HubToolbox.Knn
open Spec

variable {K : Type} [LinearOrder K]

/-- If all candidates are finite, the neighbours are prefixes of the candidate list. -/
theorem nnLists_all_finite {m : ℕ} (row : Fin m → XR K) (again : ℕ → List (Fin m) → List (Fin m))
    (hp : ∀ j l, (again j l).Perm l) (ks : List ℤ)
    (j : ℕ) (idx : List (Fin m)) (hf : ∀ x ∈ idx, (row x).isFinite = true) (hk : ∀ k ∈ ks, 1 ≤ k) :
    nnLists row again ks j idx = ks.map (fun k => idx.take k.toNat) := by
  cases idx with
  | cons x t =>
    rw [nnLists_of_head row again ks j x t (hf x (by simp)) hk]
    apply List.map_congr_left
    intro k _
    rw [List.filter_eq_self]
    intro y hy
    exact hf y (List.mem_of_mem_take hy)
  | nil =>
    induction ks generalizing j with
    | nil => rfl
    | cons k ks ih =>
      have h0 : again j [] = [] := List.Perm.eq_nil (hp j [])
      have hs : slice0 k ([] : List (Fin m)) = [] := by unfold slice0; split <;> simp
      simp only [nnLists, h0, ite_self, hs]
      simp [ih (j + 1) (fun k hk' => hk k (by simp [hk']))]

/-- The candidate list of a sparse row as positions of the partition. -/
theorem sparseOrder_spec (o : ArgPart (XR K)) {m : ℕ} (row : Fin m → XR K) (ks : List ℤ) (rp : List (Fin m))
    (hnd : rp.Nodup) (hf : ∀ x ∈ rp, (row x).isFinite = true) (i : Fin m) (hi : i ∈ rp)
    (hmax : ∀ x ∈ rp, x ≠ i → row x < row i) (k : ℤ) (hk : k ∈ ks) (hk1 : 1 ≤ k) :
    IsKNNFirst "similarity" row (Finset.univ.filter (fun x => x ∈ rp ∧ x ≠ i)) k.toNat
      ((sparseOrder o row ks rp).take k.toNat) := by
  cases rp with
  | nil => simp at hi
  | cons x0 t =>
    set L := t.length with hL
    set rp := x0 :: t with hrp
    set d2 : Fin (t.length + 1) → XR K := fun p => row (rp.get p) with hd2
    set kth := sparseKth t.length ks with hkth
    set P := o.run d2 (fun c : Fin kth.length => kth.get c) with hP
    set v : Fin (t.length + 1) → XR K := fun p => d2 (P p) with hv
    have hbefore : ∀ q ∈ kth, ∀ p, p ≤ q → v p ≤ v q := by
      intro q hq p hpq
      obtain ⟨c, rfl⟩ := List.mem_iff_get.1 hq
      exact o.before d2 (fun c : Fin kth.length => kth.get c) c p hpq
    have hafter : ∀ q ∈ kth, ∀ p, q ≤ p → v q ≤ v p := by
      intro q hq p hpq
      obtain ⟨c, rfl⟩ := List.mem_iff_get.1 hq
      exact o.after d2 (fun c : Fin kth.length => kth.get c) c p hpq
    have hget_inj : Function.Injective rp.get := List.nodup_iff_injective_get.1 hnd
    -- the list
    have hl : sparseOrder o row ks rp = (((List.finRange (t.length + 1)).map P).reverse.map rp.get).tail := by
      have hnn : ((List.finRange (t.length + 1)).map P).filter (fun p => decide (d2 p ≠ .nan))
          = (List.finRange (t.length + 1)).map P := by
        rw [List.filter_eq_self]
        intro p _
        have := hf (rp.get p) (List.get_mem _ _)
        rw [decide_eq_true_eq]
        intro hc
        rw [hd2] at hc
        simp only at hc
        rw [hc] at this
        simp at this
      rw [← hnn]
      rfl
    set g : Fin (t.length + 1) → Fin m := fun p => rp.get (P p) with hg
    have hginj : Function.Injective g := hget_inj.comp P.injective
    have hgsurj : ∀ x ∈ rp, ∃ p, g p = x := by
      intro x hx
      obtain ⟨q, hq⟩ := List.mem_iff_get.1 hx
      exact ⟨P.symm q, by simp only [hg, Equiv.apply_symm_apply]; exact hq⟩
    have hgmem : ∀ p, g p ∈ rp := fun p => List.get_mem _ _
    have hlast : Fin.last t.length ∈ kth := by
      rw [hkth, sparseKth, List.mem_map]
      refine ⟨((t.length + 1 : ℕ) : ℤ) - 1, by simp, ?_⟩
      ext
      simp
    have hgi : g (Fin.last t.length) = i := by
      obtain ⟨p, hpi⟩ := hgsurj i hi
      by_contra hne
      have h1 : row (g (Fin.last t.length)) < row i := hmax _ (hgmem _) hne
      have h2 : v p ≤ v (Fin.last t.length) := hbefore _ hlast p (Fin.le_last p)
      have h3 : v p = row i := by simp only [hv, hd2]; rw [← hpi]
      rw [h3] at h2
      exact absurd h1 (not_lt.2 h2)
    -- elements of the list
    have hlen : (sparseOrder o row ks rp).length = t.length := by rw [hl]; simp
    have hel : ∀ r (hr : r < (sparseOrder o row ks rp).length),
        (sparseOrder o row ks rp)[r] = g ⟨t.length - 1 - r, by omega⟩ := by
      intro r hr
      have hr' : r < t.length := by rw [hlen] at hr; exact hr
      simp only [hl, List.getElem_tail, List.getElem_map, List.getElem_reverse, List.length_map,
        List.length_finRange, List.getElem_finRange, hg]
      congr 2
      ext
      simp
      omega
    have hmemk : ∀ x, x ∈ (sparseOrder o row ks rp).take k.toNat ↔
        ∃ p : Fin (t.length + 1), g p = x ∧ p.val < t.length ∧ t.length ≤ p.val + k.toNat := by
      intro x
      rw [List.mem_iff_getElem]
      constructor
      · rintro ⟨r, hr, rfl⟩
        have hr2 : r < k.toNat ∧ r < t.length := by
          rw [List.length_take, hlen] at hr; omega
        refine ⟨⟨t.length - 1 - r, by omega⟩, ?_, by simp; omega, by simp; omega⟩
        rw [List.getElem_take, hel]
      · rintro ⟨p, rfl, h1, h2⟩
        refine ⟨t.length - 1 - p.val, by rw [List.length_take, hlen]; omega, ?_⟩
        rw [List.getElem_take, hel _ (by rw [hlen]; omega)]
        congr 1
        ext
        simp
        omega
    have hvg : ∀ p, v p = row (g p) := fun p => rfl
    refine ⟨?_, ?_, ?_, ?_, ?_⟩
    · refine List.Nodup.sublist (List.take_sublist _ _) ?_
      rw [hl]
      refine List.Nodup.sublist (List.tail_sublist _) ?_
      refine List.Nodup.map hget_inj (List.nodup_reverse.2 (List.Nodup.map P.injective (List.nodup_finRange _)))
    · intro x hx
      obtain ⟨p, rfl, h1, h2⟩ := (hmemk x).1 hx
      refine ⟨?_, hf _ (hgmem p)⟩
      simp only [Finset.mem_filter, Finset.mem_univ, true_and]
      refine ⟨hgmem p, ?_⟩
      rw [← hgi]
      intro hc
      have := hginj hc
      rw [this] at h1
      simp at h1
    · intro x hx y hy
      obtain ⟨p, rfl, h1, h2⟩ := (hmemk y).1 hy
      have hne : 0 < t.length := by omega
      have hx' : x = g ⟨t.length - 1, by omega⟩ := by
        rw [List.head?_eq_getElem?, List.getElem?_take, if_pos (by omega), List.getElem?_eq_getElem (by rw [hlen]; omega),
          Option.some.injEq, hel] at hx
        rw [← hx]
        congr 1
      have hq : (⟨t.length - 1, by omega⟩ : Fin (t.length + 1)) ∈ kth := by
        rw [hkth, sparseKth, List.mem_map]
        refine ⟨((t.length + 1 : ℕ) : ℤ) - 2, by simp, ?_⟩
        ext
        simp
        omega
      have := hbefore _ hq p (by rw [Fin.le_def]; simp; omega)
      rw [hvg, hvg, ← hx'] at this
      simpa [Nearer] using this
    · intro x hx y hy hyf hyN
      obtain ⟨p, rfl, h1, h2⟩ := (hmemk x).1 hx
      simp only [Finset.mem_filter, Finset.mem_univ, true_and] at hy
      obtain ⟨q, rfl⟩ := hgsurj y hy.1
      have hq1 : q.val < t.length := by
        rcases Nat.lt_or_ge q.val t.length with h | h
        · exact h
        · exfalso
          apply hy.2
          have : q = Fin.last t.length := by ext; simp; omega
          rw [this, hgi]
      have hq2 : q.val + k.toNat < t.length := by
        by_contra hc
        exact hyN ((hmemk _).2 ⟨q, rfl, hq1, by omega⟩)
      have hkm : (⟨t.length - k.toNat, by omega⟩ : Fin (t.length + 1)) ∈ kth := by
        rw [hkth, sparseKth, List.mem_map]
        refine ⟨((t.length + 1 : ℕ) : ℤ) - k - 1, by
          rw [List.mem_append]; left; exact List.mem_map.2 ⟨k, hk, rfl⟩, ?_⟩
        ext
        simp
        omega
      have a1 := hbefore _ hkm q (by rw [Fin.le_def]; simp; omega)
      have a2 := hafter _ hkm p (by rw [Fin.le_def]; simp; omega)
      have a3 := a1.trans a2
      rw [hvg, hvg] at a3
      simpa [Nearer] using a3
    · rw [List.length_take, hlen]
      congr 1
      have hfil : (Finset.univ.filter (fun x => x ∈ rp ∧ x ≠ i)).filter (fun x => (row x).isFinite = true)
          = (rp.toFinset).erase i := by
        ext x
        simp only [Finset.mem_filter, Finset.mem_univ, true_and, Finset.mem_erase, List.mem_toFinset]
        constructor
        · rintro ⟨⟨a, b⟩, c⟩; exact ⟨b, a⟩
        · rintro ⟨b, a⟩; exact ⟨⟨a, b⟩, hf x a⟩
      rw [hfil, Finset.card_erase_of_mem (List.mem_toFinset.2 hi), List.toFinset_card_of_nodup hnd, hrp]
      simp

end HubToolbox.Knn
