import Verif.Tac
import Verif.Knn.Model
import Verif.Knn.Spec
import Mathlib.Data.List.GetD

/-!
# Lemmas on the k-NN model
-/

set_option autoImplicit false
set_option linter.unusedSectionVars false

namespace HubToolbox.Knn
open Spec

variable {K : Type}

/-! ## Neighbour lists -/

theorem slice0_nonneg {α : Type} {k : ℤ} (h : 0 ≤ k) (l : List α) : slice0 k l = l.take k.toNat := by
  simp [slice0, h]

theorem zip_map_filter {α : Type} (f : α → Bool) (l : List α) :
    ((l.zip (l.map f)).filter (fun p => p.2)).map Prod.fst = l.filter f := by
  induction l with
  | nil => rfl
  | cons a l ih =>
    simp only [List.map_cons, List.zip_cons_cons, List.filter_cons]
    cases h : f a <;> simp [ih]

theorem nnLists_length {m : ℕ} (row : Fin m → XR K) (again : ℕ → List (Fin m) → List (Fin m)) (ks : List ℤ)
    (j : ℕ) (idx : List (Fin m)) : (nnLists row again ks j idx).length = ks.length := by
  induction ks generalizing j idx with
  | nil => rfl
  | cons k ks ih => simp [nnLists, ih]

/-- If the first candidate is finite, no reshuffling takes place. -/
theorem nnLists_of_head {m : ℕ} (row : Fin m → XR K) (again : ℕ → List (Fin m) → List (Fin m)) (ks : List ℤ)
    (j : ℕ) (x : Fin m) (t : List (Fin m)) (hx : (row x).isFinite = true) (hk : ∀ k ∈ ks, 1 ≤ k) :
    nnLists row again ks j (x :: t)
      = ks.map (fun k => ((x :: t).take k.toNat).filter (fun y => (row y).isFinite)) := by
  induction ks generalizing j with
  | nil => rfl
  | cons k ks ih =>
    have h1 : 1 ≤ k := hk k (by simp)
    obtain ⟨k', hk'⟩ : ∃ k', k.toNat = k' + 1 := ⟨k.toNat - 1, by omega⟩
    have hne : ¬ ((slice0 k (x :: t)).map (fun x => (row x).isFinite)).count true = 0 := by
      rw [slice0_nonneg (by omega), hk']
      simp [hx]
    simp only [nnLists, hne, if_false, List.map_cons]
    rw [zip_map_filter, slice0_nonneg (by omega), ih (j + 1) (fun k hk'' => hk k (by simp [hk'']))]

/-- Every neighbour list consists of candidates. -/
theorem nnLists_mem {m : ℕ} (row : Fin m → XR K) (again : ℕ → List (Fin m) → List (Fin m))
    (hp : ∀ j l, (again j l).Perm l) (ks : List ℤ) (j : ℕ) (idx : List (Fin m)) :
    ∀ N ∈ nnLists row again ks j idx, ∀ x ∈ N, x ∈ idx := by
  induction ks generalizing j idx with
  | nil => simp [nnLists]
  | cons k ks ih =>
    have hsl : ∀ (l : List (Fin m)) (fv : List Bool), ∀ x ∈ (((slice0 k l).zip fv).filter (fun p => p.2)).map Prod.fst,
        x ∈ l := by
      intro l fv x hx
      obtain ⟨p, hp, rfl⟩ := List.mem_map.1 hx
      have h1 := List.of_mem_zip (List.mem_of_mem_filter hp)
      have h2 := h1.1
      unfold slice0 at h2
      split at h2 <;> exact List.mem_of_mem_take h2
    intro N hN x hx
    simp only [nnLists, List.mem_cons] at hN
    rcases hN with rfl | hN
    · have := hsl _ _ x hx
      split at this
      · exact (hp j idx).mem_iff.1 this
      · exact this
    · have := ih (j + 1) _ N hN x hx
      split at this
      · exact (hp j idx).mem_iff.1 this
      · exact this

/-- For `k ≥ 1` and at least one candidate, the neighbour list is not empty. -/
theorem nnLists_ne_nil {m : ℕ} (row : Fin m → XR K) (again : ℕ → List (Fin m) → List (Fin m))
    (hp : ∀ j l, (again j l).Perm l) (ks : List ℤ) (hk : ∀ k ∈ ks, 1 ≤ k) (j : ℕ) (idx : List (Fin m))
    (hidx : idx ≠ []) : ∀ N ∈ nnLists row again ks j idx, N ≠ [] := by
  induction ks generalizing j idx with
  | nil => simp [nnLists]
  | cons k ks ih =>
    have h1 : 1 ≤ k := hk k (by simp)
    intro N hN
    simp only [nnLists, List.mem_cons] at hN
    rcases hN with rfl | hN
    · by_cases hnone : ((slice0 k idx).map (fun x => (row x).isFinite)).count true = 0
      · simp only [hnone, if_true]
        have hne : again j idx ≠ [] := by
          intro hc
          have := (hp j idx).length_eq
          rw [hc] at this
          exact hidx (List.length_eq_zero_iff.1 this.symm)
        obtain ⟨y, t, hyt⟩ := List.exists_cons_of_ne_nil hne
        obtain ⟨z, u, hzu⟩ := List.exists_cons_of_ne_nil hidx
        obtain ⟨k', hk'⟩ : ∃ k', k.toNat = k' + 1 := ⟨k.toNat - 1, by omega⟩
        rw [hyt, hzu, slice0_nonneg (by omega), slice0_nonneg (by omega), hk']
        simp
      · simp only [hnone, if_false]
        rw [zip_map_filter]
        intro hc
        apply hnone
        rw [List.count_eq_zero]
        intro hmem
        obtain ⟨y, hy, hy'⟩ := List.mem_map.1 hmem
        have : y ∈ (slice0 k idx).filter (fun x => (row x).isFinite) := List.mem_filter.2 ⟨hy, hy'⟩
        rw [hc] at this
        simp at this
    · refine ih (fun k hk' => hk k (by simp [hk'])) (j + 1) _ ?_ N hN
      split
      · intro hc
        have := (hp j idx).length_eq
        rw [hc] at this
        exact hidx (List.length_eq_zero_iff.1 this.symm)
      · exact hidx

/-! ## Candidate order -/

section order
variable [LinearOrder K]

theorem order_perm (srt : ArgSort (XR K)) {m : ℕ} (metric : String) (row : Fin m → XR K) (rp : List (Fin m)) :
    (order srt metric row rp).Perm (rp.filter (fun x => decide (row x ≠ .nan))) := by
  have h1 : (if metric = "distance" then srt.run (fun p => row (rp.get p))
      else (srt.run (fun p => row (rp.get p))).reverse).Perm (List.finRange rp.length) := by
    split
    · exact srt.perm _
    · exact (List.reverse_perm _).trans (srt.perm _)
  have h2 := (h1.filter (fun p => decide (row (rp.get p) ≠ .nan))).map rp.get
  refine h2.trans ?_
  have h3 : (List.finRange rp.length).map rp.get = rp := by simp
  conv_rhs => rw [← h3]
  rw [List.filter_map]
  exact List.Perm.refl _

theorem order_pairwise (srt : ArgSort (XR K)) {m : ℕ} (metric : String) (row : Fin m → XR K) (rp : List (Fin m)) :
    (order srt metric row rp).Pairwise (fun x y => Nearer metric (row x) (row y)) := by
  unfold order
  simp only
  rw [List.pairwise_map]
  apply List.Pairwise.filter
  unfold Nearer
  split
  · exact srt.sorted _
  · rw [List.pairwise_reverse]
    exact srt.sorted _

end order

/-- Filtering a prefix is the prefix of the filtered list if `p` holds on an initial part. -/
theorem take_filter_comm {α : Type} (p : α → Bool) (l : List α) (h : l.Pairwise (fun x y => p y → p x)) (k : ℕ) :
    (l.take k).filter p = (l.filter p).take k := by
  induction l generalizing k with
  | nil => simp
  | cons a l ih =>
    cases k with
    | zero => simp
    | succ k =>
      rw [List.pairwise_cons] at h
      cases hp : p a
      · have hall : ∀ y ∈ l, p y = false := by
          intro y hy
          cases hpy : p y
          · rfl
          · exact absurd (h.1 y hy hpy) (by simp [hp])
        rw [List.take_succ_cons, List.filter_cons, List.filter_cons, hp]
        have h1 : l.filter p = [] := by
          rw [List.filter_eq_nil_iff]; intro y hy; simp [hall y hy]
        have h2 : (l.take k).filter p = [] := by
          rw [List.filter_eq_nil_iff]; intro y hy; simp [hall y (List.mem_of_mem_take hy)]
        simp [h1, h2]
      · rw [List.take_succ_cons, List.filter_cons, List.filter_cons, hp]
        simp [ih h.2 k]

/-- First elements of a sorted list of finite candidates are nearest neighbours. -/
theorem isKNN_take [LinearOrder K] {m : ℕ} (metric : String) (row : Fin m → XR K) (l : List (Fin m)) (k : ℕ)
    (hnd : l.Nodup) (hs : l.Pairwise (fun x y => Nearer metric (row x) (row y)))
    (cand : Finset (Fin m)) (hl : ∀ x, x ∈ l ↔ x ∈ cand ∧ (row x).isFinite = true) :
    IsKNN metric row cand k (l.take k) where
  nodup := hnd.sublist (List.take_sublist k l)
  mem x hx := (hl x).1 (List.mem_of_mem_take hx)
  sorted := hs.sublist (List.take_sublist k l)
  nearest x hx y hy hyf hyN := by
    have hyl : y ∈ l := (hl y).2 ⟨hy, hyf⟩
    rw [← List.take_append_drop k l] at hyl hs
    rw [List.mem_append] at hyl
    have hyd : y ∈ l.drop k := hyl.resolve_left hyN
    exact (List.pairwise_append.1 hs).2.2 x hx y hyd
  length := by
    have : l.length = (cand.filter (fun x => (row x).isFinite)).card := by
      rw [← List.toFinset_card_of_nodup hnd]
      congr 1
      ext x
      simp [hl x]
    rw [List.length_take, this]

/-- Neighbours of the candidates in `rp` (dense case). -/
theorem nnLists_isKNN [LinearOrder K] (srt : ArgSort (XR K)) {m : ℕ} (metric : String)
    (row : Fin m → XR K) (again : ℕ → List (Fin m) → List (Fin m)) (ks : List ℤ)
    (rp : List (Fin m)) (hnd : rp.Nodup) (hk : ∀ k ∈ ks, 1 ≤ k)
    (hfin : ∃ x ∈ rp, (row x).isFinite = true) (htoo : ∀ x ∈ rp, row x ≠ tooNear metric)
    (j : ℕ) (hj : j < ks.length) :
    let N := (nnLists row again ks 0 (order srt metric row rp)).getD j []
    N ≠ [] ∧ IsKNN metric row (Finset.univ.filter (· ∈ rp)) (ks[j]).toNat N := by
  have hperm := order_perm srt metric row rp
  have hsort := order_pairwise srt metric row rp
  have hmem : ∀ x, x ∈ order srt metric row rp ↔ x ∈ rp ∧ row x ≠ .nan := by
    intro x; rw [hperm.mem_iff, List.mem_filter]; simp
  have hnd' : (order srt metric row rp).Nodup := hperm.nodup_iff.2 (hnd.filter _)
  have hpre : (order srt metric row rp).Pairwise (fun x y => (row y).isFinite = true → (row x).isFinite = true) := by
    refine hsort.imp_of_mem ?_
    intro x y hx hy hxy hyf
    have hx' := (hmem x).1 hx
    have ht := htoo x hx'.1
    unfold Nearer at hxy
    unfold tooNear at ht
    obtain ⟨vy, hvy⟩ := XR.isFinite_iff.1 hyf
    rw [hvy] at hxy
    split at hxy
    · rename_i hm
      rw [if_pos hm] at ht
      cases hrx : row x <;> simp_all
    · rename_i hm
      rw [if_neg hm] at ht
      cases hrx : row x <;> simp_all
  have hhead : ∃ x t, order srt metric row rp = x :: t ∧ (row x).isFinite = true := by
    obtain ⟨x, hx, hxf⟩ := hfin
    have hxo : x ∈ order srt metric row rp := (hmem x).2 ⟨hx, by rintro h; rw [h] at hxf; simp at hxf⟩
    cases ho : order srt metric row rp with
    | nil => rw [ho] at hxo; simp at hxo
    | cons y t =>
      refine ⟨y, t, rfl, ?_⟩
      rw [ho] at hxo hpre
      rcases List.mem_cons.1 hxo with rfl | hxt
      · exact hxf
      · exact (List.pairwise_cons.1 hpre).1 x hxt hxf
  obtain ⟨x, t, hxt, hxf⟩ := hhead
  have hN : (nnLists row again ks 0 (order srt metric row rp)).getD j []
      = ((order srt metric row rp).filter (fun y => (row y).isFinite)).take (ks[j]).toNat := by
    rw [← take_filter_comm _ _ hpre, hxt, nnLists_of_head row again ks 0 x t hxf hk]
    simp [hj]
  simp only [hN]
  constructor
  · rw [hxt, List.filter_cons, if_pos (by simpa using hxf)]
    have : 1 ≤ ks[j] := hk _ (List.getElem_mem hj)
    obtain ⟨k', hk'⟩ : ∃ k', (ks[j]).toNat = k' + 1 := ⟨(ks[j]).toNat - 1, by omega⟩
    rw [hk']
    simp
  · apply isKNN_take
    · exact hnd'.filter _
    · exact hsort.filter _
    · intro y
      rw [List.mem_filter, hmem]
      simp only [Finset.mem_filter, Finset.mem_univ, true_and]
      constructor
      · rintro ⟨⟨h1, _⟩, h2⟩; exact ⟨h1, h2⟩
      · rintro ⟨h1, h2⟩
        refine ⟨⟨h1, ?_⟩, h2⟩
        rintro h
        rw [h] at h2
        simp at h2

/-! ## Vote -/

theorem bincount_getD (l : List ℕ) (c : ℕ) : (Np.bincount l 0).getD c 0 = l.count c := by
  by_cases h : c < (Np.bincount l 0).length
  · rw [List.getD_eq_getElem _ _ h, Np.bincount_getElem]
  · rw [List.getD_eq_default _ _ (by omega)]
    symm
    rw [List.count_eq_zero]
    intro hc
    apply h
    simp only [Np.bincount, List.length_map, List.length_range, Nat.max_zero]
    have : ∀ l : List ℕ, c ∈ l → c < (l.map (· + 1)).foldr max 0 := by
      intro l
      induction l with
      | nil => simp
      | cons a l ih =>
        intro h
        simp only [List.map_cons, List.foldr_cons]
        rcases List.mem_cons.1 h with rfl | h
        · omega
        · have := ih h; omega
    exact this l hc

theorem foldr_max_le (l : List ℕ) (M : ℕ) : l.foldr max 0 ≤ M ↔ ∀ x ∈ l, x ≤ M := by
  induction l with
  | nil => simp
  | cons a l ih => simp [ih]

theorem foldr_max_mem (l : List ℕ) (h : l ≠ []) : l.foldr max 0 ∈ l := by
  induction l with
  | nil => exact absurd rfl h
  | cons a l ih =>
    by_cases hl : l = []
    · subst hl; simp
    · simp only [List.foldr_cons, List.mem_cons]
      rcases le_total a (l.foldr max 0) with h' | h'
      · right; rw [max_eq_right h']; exact ih hl
      · left; exact max_eq_left h'

/-- The vote of a nonempty neighbour list. -/
theorem vote_spec (u : ℕ) (nn : List ℕ) (h : nn ≠ []) : IsVote nn (vote u nn) ∧ vote u nn ∈ nn := by
  obtain ⟨a, t, rfl⟩ := List.exists_cons_of_ne_nil h
  set nn := a :: t with hnn
  set cs := Np.bincount nn 0 with hcs
  have hlen : ∀ c ∈ nn, c < cs.length := by
    intro c hc
    by_contra hcl
    have h1 := bincount_getD nn c
    rw [List.getD_eq_default _ _ (by rw [← hcs]; omega)] at h1
    exact (List.count_pos_iff.2 hc).ne h1
  have hpos : cs.length > 0 := lt_of_le_of_lt (Nat.zero_le _) (hlen a (by simp [hnn]))
  set M := cs.foldr max 0 with hM
  have hle : ∀ c, nn.count c ≤ M := by
    intro c
    by_cases hc : c ∈ nn
    · have : cs.getD c 0 ∈ cs := by
        rw [List.getD_eq_getElem _ _ (hlen c hc)]; exact List.getElem_mem _
      rw [← bincount_getD]
      exact (foldr_max_le cs M).1 le_rfl _ this
    · rw [List.count_eq_zero.2 hc]; exact Nat.zero_le _
  have hMpos : 0 < M := lt_of_lt_of_le (List.count_pos_iff.2 (by simp [hnn] : a ∈ nn)) (hle a)
  have hatt : ∃ c, c < cs.length ∧ nn.count c = M := by
    have := foldr_max_mem cs (by intro hc; rw [hc] at hpos; simp at hpos)
    obtain ⟨c, hc, hcv⟩ := List.mem_iff_getElem.1 this
    refine ⟨c, hc, ?_⟩
    rw [← bincount_getD, List.getD_eq_getElem _ _ hc]
    exact hcv
  set maxCs := (List.range cs.length).filter (fun c => decide (cs.getD c 0 = cs.foldr max 0)) with hmx
  have hmem : ∀ c, c ∈ maxCs ↔ nn.count c = M := by
    intro c
    rw [hmx, List.mem_filter, List.mem_range, decide_eq_true_eq, hcs, bincount_getD, ← hcs, ← hM]
    constructor
    · exact fun h => h.2
    · intro hc
      exact ⟨hlen c (List.count_pos_iff.1 (by omega)), hc⟩
  have hnd : maxCs.Nodup := List.nodup_range.filter _
  have hv : vote u nn = if maxCs.length > 1 then nn.headD 0 else maxCs.headD 0 := by
    unfold vote
    simp only [← hcs, hpos, if_true, ← hmx]
  rw [hv]
  obtain ⟨c0, _, hc0⟩ := hatt
  have hc0m := (hmem c0).2 hc0
  by_cases hl : maxCs.length > 1
  · rw [if_pos hl]
    obtain ⟨x, y, r, hxy⟩ : ∃ x y r, maxCs = x :: y :: r := by
      match hmc : maxCs, hl with
      | x :: y :: r, _ => exact ⟨x, y, r, rfl⟩
    have hxyne : x ≠ y := by
      rw [hxy] at hnd
      have := (List.nodup_cons.1 hnd).1
      intro hc; apply this; simp [hc]
    have hx := (hmem x).1 (by rw [hxy]; simp)
    have hy := (hmem y).1 (by rw [hxy]; simp)
    refine ⟨⟨?_, ?_⟩, by simp [hnn]⟩
    · intro c hc
      exfalso
      by_cases hcx : x = c
      · have := hc y (by rw [← hcx]; exact hxyne.symm)
        rw [← hcx, hx, hy] at this
        omega
      · have := hc x hcx
        rw [hx] at this
        have := hle c
        omega
    · intro _
      simp [hnn]
  · rw [if_neg hl]
    obtain ⟨x, hx1⟩ : ∃ x, maxCs = [x] := by
      match hmc : maxCs, hl, hc0m with
      | [x], _, _ => exact ⟨x, rfl⟩
      | x :: y :: r, hl, _ => exact absurd (by simp) hl
    rw [hx1]
    have hx := (hmem x).1 (by rw [hx1]; simp)
    have hstrict : StrictMode nn x := by
      intro c hc
      rw [hx]
      rcases lt_or_eq_of_le (hle c) with h | h
      · exact h
      · have := (hmem c).2 h
        rw [hx1] at this
        exact absurd (List.mem_singleton.1 this) hc
    refine ⟨⟨?_, ?_⟩, ?_⟩
    · intro c hc
      by_contra hne
      have h1 := hc x hne
      have h2 := hstrict c (Ne.symm hne)
      omega
    · intro hno; exact absurd hstrict (hno x)
    · exact List.count_pos_iff.1 (by simp only [List.headD_cons]; omega)

theorem vote_nil (u : ℕ) : vote u [] = u := by simp [vote, Np.bincount]

/-- The outcome of a vote does not depend on the names of the labels. -/
theorem isVote_map {L L' : Type} [DecidableEq L] [DecidableEq L'] (f : L → L') (l : List L) (a : L) (ha : a ∈ l)
    (hf : ∀ x ∈ l, ∀ y ∈ l, f x = f y → x = y) (h : IsVote (l.map f) (f a)) : IsVote l a := by
  have hcount : ∀ x ∈ l, (l.map f).count (f x) = l.count x := by
    intro x hx
    rw [List.count, List.countP_map, List.count]
    apply List.countP_congr
    intro y hy
    simp only [Function.comp, beq_iff_eq]
    exact ⟨fun h => hf y hy x hx h, fun h => by rw [h]⟩
  have hstrict : ∀ x, StrictMode l x → StrictMode (l.map f) (f x) := by
    intro x hx
    have hpos : 0 < l.count x := by
      by_contra h0
      by_cases hax : a = x
      · subst hax
        exact h0 (List.count_pos_iff.2 ha)
      · have h1 := hx a hax
        omega
    have hxl := List.count_pos_iff.1 hpos
    intro c hc
    rw [hcount x hxl]
    by_cases hcm : c ∈ l.map f
    · obtain ⟨y, hy, rfl⟩ := List.mem_map.1 hcm
      rw [hcount y hy]
      exact hx y (fun hxy => hc (by rw [hxy]))
    · rw [List.count_eq_zero.2 hcm]; exact hpos
  have hstrict' : ∀ x ∈ l, StrictMode (l.map f) (f x) → StrictMode l x := by
    intro x hx hs c hc
    by_cases hcm : c ∈ l
    · have := hs (f c) (fun hfc => hc (hf c hcm x hx hfc))
      rwa [hcount c hcm, hcount x hx] at this
    · rw [List.count_eq_zero.2 hcm]; exact List.count_pos_iff.2 hx
  constructor
  · intro c hc
    have hcl : c ∈ l := by
      by_contra hcl
      by_cases hac : a = c
      · exact hcl (hac ▸ ha)
      · have h1 := hc a hac
        rw [List.count_eq_zero.2 hcl] at h1
        omega
    exact hf a ha c hcl (h.1 (f c) (hstrict c hc))
  · intro hno
    have := h.2 (by
      intro c hc
      have hcm : c ∈ l.map f := by
        by_contra hcm
        have hfa : f a ∈ l.map f := List.mem_map_of_mem ha
        have := hc (f a) (fun h' => hcm (h' ▸ hfa))
        rw [List.count_eq_zero.2 hcm] at this
        omega
      obtain ⟨x, hx, rfl⟩ := List.mem_map.1 hcm
      exact hno x (hstrict' x hx hc))
    cases l with
    | nil => simp at ha
    | cons b t =>
      simp only [List.map_cons, List.head?_cons, Option.some.injEq] at this ⊢
      exact hf b (by simp) a ha this

/-! ## Labels -/

theorem encode_lt {l : List ℤ} {t : ℤ} (h : t ∈ l) : encode (labelsOf l) t < (labelsOf l).length :=
  List.idxOf_lt_length_iff.2 (Np.mem_unique.2 h)

theorem encode_inj {l : List ℤ} {s t : ℤ} (hs : s ∈ l) (_ht : t ∈ l)
    (h : encode (labelsOf l) s = encode (labelsOf l) t) : s = t :=
  (List.idxOf_inj (Np.mem_unique.2 hs)).1 h

theorem labels_getD {l : List ℤ} {t : ℤ} (h : t ∈ l) : (labelsOf l).getD (encode (labelsOf l) t) 0 = t := by
  rw [List.getD_eq_getElem _ _ (encode_lt h)]
  exact List.getElem_idxOf _

theorem encode_getD {l : List ℤ} {c : ℕ} (h : c < (labelsOf l).length) :
    encode (labelsOf l) ((labelsOf l).getD c 0) = c := by
  rw [List.getD_eq_getElem _ _ h]
  exact List.Nodup.idxOf_getElem (Np.nodup_unique l) c h

/-- In a strictly ascending list the position is the number of smaller elements. -/
theorem idxOf_eq_countP (l : List ℤ) (h : l.Pairwise (· < ·)) (v : ℤ) (hv : v ∈ l) :
    l.idxOf v = l.countP (fun x => decide (x < v)) := by
  induction l with
  | nil => simp at hv
  | cons a l ih =>
    rw [List.pairwise_cons] at h
    by_cases hav : a = v
    · subst hav
      rw [List.idxOf_cons_self]
      symm
      rw [List.countP_eq_zero]
      intro x hx
      rcases List.mem_cons.1 hx with rfl | hx
      · simp
      · simpa using (h.1 x hx).le
    · have hvl : v ∈ l := (List.mem_cons.1 hv).resolve_left (Ne.symm hav)
      rw [List.idxOf_cons_ne _ hav, List.countP_cons, ih h.2 hvl]
      simp [h.1 v hvl]

theorem labelsOf_pairwise (l : List ℤ) : (labelsOf l).Pairwise (· < ·) := by
  have h1 : (labelsOf l).Pairwise (· ≤ ·) := Np.sort_pairwise _
  have h2 : (labelsOf l).Pairwise (· ≠ ·) := Np.nodup_unique l
  exact (h1.and h2).imp (fun h => lt_of_le_of_ne h.1 h.2)

/-- The rank of a label: the number of different smaller labels. -/
theorem encode_eq_rank (l : List ℤ) (v : ℤ) (hv : v ∈ l) :
    encode (labelsOf l) v = (l.toFinset.filter (· < v)).card := by
  unfold encode
  rw [idxOf_eq_countP _ (labelsOf_pairwise l) v (Np.mem_unique.2 hv), List.countP_eq_length_filter,
    ← List.toFinset_card_of_nodup (List.Nodup.filter _ (show (labelsOf l).Nodup from Np.nodup_unique l))]
  congr 1
  ext x
  simp [labelsOf, Np.mem_unique]

/-! ## Accumulation -/

theorem tally_eq [Field K] {n : ℕ} (cnt : ℕ) (queries : List (Fin n)) (seed pred : Fin n → ℕ) :
    tally (K := K) cnt queries seed pred =
      { acc := ((queries.countP (fun i => decide (pred i = seed i)) : ℕ) : K) / cnt
        corr := fun i => if i ∈ queries ∧ pred i = seed i then 1 else 0
        cmat := fun a b => queries.countP (fun i => decide (a = seed i) && decide (b = pred i)) } := by
  have key : ∀ (st : KRes K n) (qs : List (Fin n)), qs.foldl (fun (st : KRes K n) (i : Fin n) =>
      ({ acc := if pred i = seed i then st.acc + 1 / (cnt : K) else st.acc
         corr := if pred i = seed i then Function.update st.corr i 1 else st.corr
         cmat := fun a b => if a = seed i ∧ b = pred i then st.cmat a b + 1 else st.cmat a b } : KRes K n)) st
      = { acc := st.acc + ((qs.countP (fun i => decide (pred i = seed i)) : ℕ) : K) / cnt
          corr := fun i => if i ∈ qs ∧ pred i = seed i then 1 else st.corr i
          cmat := fun a b => st.cmat a b + qs.countP (fun i => decide (a = seed i) && decide (b = pred i)) } := by
    intro st qs
    induction qs generalizing st with
    | nil => simp
    | cons q qs ih =>
      rw [List.foldl_cons, ih]
      congr 1
      · rw [List.countP_cons]
        by_cases h : pred q = seed q
        · simp only [h, if_true, decide_true]
          push_cast
          ring
        · simp [h]
      · funext i
        by_cases h : pred q = seed q
        · by_cases hi : i = q
          · subst hi; simp [h]
          · simp [h, hi, Function.update_of_ne]
        · by_cases hi : i = q
          · subst hi; simp [h]
          · simp [h, hi]
      · funext a b
        rw [List.countP_cons]
        by_cases h : a = seed q ∧ b = pred q
        · simp [h]; omega
        · simp only [if_neg h]
          have : (decide (a = seed q) && decide (b = pred q)) = false := by
            simpa using h
          simp [this]
  rw [tally, key]
  simp

end HubToolbox.Knn
