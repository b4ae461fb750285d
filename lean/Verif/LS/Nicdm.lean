import Verif.LS.Scale

/-!
# Lemmas about NICDM
-/

set_option autoImplicit false

namespace HubToolbox.LS
open HubToolbox

/-- Mean of the first `k` order statistics. -/
noncomputable def meanRank {m : ℕ} (d : Fin m → XR ℝ) (k : ℕ) (h : k ≤ m) : XR ℝ :=
  XR.mean (fun c : Fin k => rankVal d ⟨c.val, lt_of_lt_of_le c.isLt h⟩)

theorem meanRadius_ok (o : ArgPart (XR ℝ)) {m : ℕ} (d : Fin m → XR ℝ) (k : ℕ) (h : k ≤ m) :
    meanRadius o d k = .ok (meanRank d k h) := by
  have hw := Np.wrapAll_arange (m := m) (k := k) (lo := 0) (by omega)
  unfold meanRadius Np.argpartition
  rw [show ((0 : ℕ) : ℤ) = 0 by rfl] at hw
  rw [hw]
  refine Eq.trans (b := Except.ok _) rfl ?_
  congr 1
  unfold meanRank
  congr 1
  funext c
  have hr := ArgPart.isRank o d (fun c : Fin k => (⟨0 + c.val, by omega⟩ : Fin m)) c
  have h2 := rankVal_spec d ⟨c.val, lt_of_lt_of_le c.isLt h⟩
  simp only [Nat.zero_add] at hr
  simp only [Nat.zero_add]
  exact hr.unique h2

theorem wrapAll_arange_none {m k : ℕ} (h : m < k) : Np.wrapAll m (Np.arange 0 k) = none := by
  unfold Np.wrapAll
  rw [dif_neg]
  push Not
  refine ⟨⟨m, h⟩, ?_⟩
  unfold Np.wrap Np.arange
  rw [dif_neg (by simp), dif_neg (by simp)]
  simp

theorem meanRadius_error (o : ArgPart (XR ℝ)) {m : ℕ} (d : Fin m → XR ℝ) (k : ℕ) (h : m < k) :
    meanRadius o d k = .error .valueError := by
  unfold meanRadius Np.argpartition
  rw [wrapAll_arange_none h]
  rfl

theorem mem_nicdmWrites {n : ℕ} (g : XR ℝ) (D : Fin n → Fin n → XR ℝ) (r : Fin n → XR ℝ)
    (x : (Fin n × Fin n) × XR ℝ) :
    x ∈ (List.finRange n).flatMap (fun (i : Fin n) => nicdmWrites g D r i) ↔
      ∃ i j : Fin n, i < j ∧ (x = ((i, j), nicdmEntry g (D i j) (r i) (r j)) ∨
        x = ((j, i), nicdmEntry g (D i j) (r i) (r j))) := by
  rw [List.mem_flatMap]
  constructor
  · rintro ⟨i, _, h⟩
    rcases List.mem_append.1 h with h | h
    · obtain ⟨j, hj, rfl⟩ := List.mem_map.1 h
      exact ⟨i, j, by simpa using hj, Or.inl rfl⟩
    · obtain ⟨j, hj, rfl⟩ := List.mem_map.1 h
      exact ⟨i, j, by simpa using hj, Or.inr rfl⟩
  · rintro ⟨i, j, hij, h | h⟩
    · exact ⟨i, List.mem_finRange _, List.mem_append_left _ (List.mem_map.2 ⟨j, by simpa using hij, h.symm⟩)⟩
    · exact ⟨i, List.mem_finRange _, List.mem_append_right _ (List.mem_map.2 ⟨j, by simpa using hij, h.symm⟩)⟩

theorem nicdmSerial_eq {n : ℕ} (g : XR ℝ) (D : Fin n → Fin n → XR ℝ) (r : Fin n → XR ℝ) :
    nicdmSerial g D r = mirror (.fin 0) (fun i j => nicdmEntry g (D i j) (r i) (r j)) := by
  funext i j
  unfold nicdmSerial addT mirror
  rw [MPEmp.foldl_setRowFrom _ (fun i => i.val + 1), MPEmp.foldl_setRowFrom _ (fun i => i.val + 1)]
  rcases lt_trichotomy i j with h | h | h
  · have h' : i.val < j.val := h
    rw [if_neg h.ne, if_pos h, if_pos ⟨List.mem_finRange _, by omega⟩, if_neg (by omega)]
    simp
  · subst h
    simp
  · have h' : j.val < i.val := h
    rw [if_neg h.ne', if_neg h.not_gt, if_neg (by omega), if_pos ⟨List.mem_finRange _, by omega⟩]
    simp

theorem nicdmParallel_eq (w : World) {n : ℕ} (g : XR ℝ) (D : Fin n → Fin n → XR ℝ) (r : Fin n → XR ℝ) :
    nicdmParallel w g D r = mirror (.fin 0) (fun i j => nicdmEntry g (D i j) (r i) (r j)) := by
  funext i j
  unfold nicdmParallel mirror
  by_cases hij : i = j
  · subst hij
    rw [if_pos rfl]
    apply Sched.exec_of_notMem
    intro h
    obtain ⟨x, hx, hxi⟩ := List.mem_map.1 h
    rw [(w.sched_perm _).mem_iff, mem_nicdmWrites] at hx
    obtain ⟨a, b, hab, rfl | rfl⟩ := hx
    · obtain ⟨rfl, rfl⟩ := Prod.mk.inj hxi
      exact lt_irrefl _ hab
    · obtain ⟨rfl, rfl⟩ := Prod.mk.inj hxi
      exact lt_irrefl _ hab
  rw [if_neg hij]
  apply Sched.exec_of_consistent
  · rw [(w.sched_perm _).mem_iff, mem_nicdmWrites]
    by_cases h : i < j
    · exact ⟨i, j, h, Or.inl (by simp [h])⟩
    · have h' : j < i := lt_of_le_of_ne (not_lt.1 h) (Ne.symm hij)
      exact ⟨j, i, h', Or.inr (by simp [h])⟩
  · intro x hx hxi
    rw [(w.sched_perm _).mem_iff, mem_nicdmWrites] at hx
    obtain ⟨a, b, hab, rfl | rfl⟩ := hx
    · obtain ⟨rfl, rfl⟩ := Prod.mk.inj hxi
      simp [hab]
    · obtain ⟨rfl, rfl⟩ := Prod.mk.inj hxi
      simp [hab.not_gt]

/-- Mean neighbour distance of every row. -/
noncomputable def radii {n : ℕ} (D : Fin n → Fin n → XR ℝ) (train : List (Fin n)) (k : ℕ)
    (h : k ≤ train.length) : Fin n → XR ℝ :=
  fun i => meanRank (cols (Np.fillDiagonal D .pinf) train i) k h

/-- Result of `nicdmCore` in closed form. -/
noncomputable def nicdmResult {n : ℕ} (D : Fin n → Fin n → XR ℝ) (train : List (Fin n)) (k : ℕ)
    (h : k ≤ train.length) : Fin n → Fin n → XR ℝ :=
  mirror (.fin 0) (fun i j =>
    nicdmEntry (geomean (radii D train k h)) (D i j) (radii D train k h i) (radii D train k h j))

theorem nicdmCore_ok (w : World) {n : ℕ} (D : Fin n → Fin n → XR ℝ) (k : ℕ) (test : Option (List ℤ)) (nJobs : ℤ)
    (h : k ≤ (trainInd n test).length) :
    nicdmCore w D k test nJobs = .ok (nicdmResult D (trainInd n test) k h) := by
  have hcl : ∀ (g : XR ℝ) (r : Fin n → XR ℝ), mirror (.fin 0) (fun i j =>
        nicdmEntry g (Np.fillDiagonal D .pinf i j) (r i) (r j)) =
      mirror (.fin 0) (fun i j => nicdmEntry g (D i j) (r i) (r j)) := by
    intro g r
    apply mirror_congr
    intro i j hij
    have : i.val ≠ j.val := by have : i.val < j.val := hij; omega
    simp [Np.fillDiagonal, this]
  unfold nicdmCore
  by_cases h2 : jobs w nJobs > 1
  · simp only [h2, if_true, meanRadiiParallel, meanRadius_ok w.part _ k h, Np.tabulateM_ok]
    refine Eq.trans (b := Except.ok _) rfl ?_
    rw [exec_rows, nicdmParallel_eq, hcl]
    rfl
  · have hw := Np.wrapAll_arange (m := (trainInd n test).length) (k := k) (lo := 0) (by omega)
    rw [show ((0 : ℕ) : ℤ) = 0 by rfl] at hw
    simp only [h2, if_false, meanRadiiSerial, hw, meanRadius_ok w.part _ k h, Np.tabulateM_ok]
    refine Eq.trans (b := Except.ok _) rfl ?_
    rw [nicdmSerial_eq, hcl]
    rfl

theorem nicdmCore_error (w : World) {n : ℕ} (hn : 0 < n) (D : Fin n → Fin n → XR ℝ) (k : ℕ)
    (test : Option (List ℤ)) (nJobs : ℤ) (h : (trainInd n test).length < k) :
    nicdmCore w D k test nJobs = .error .valueError := by
  unfold nicdmCore
  by_cases h2 : jobs w nJobs > 1
  · simp only [h2, if_true, meanRadiiParallel, meanRadius_error w.part _ k h, Np.tabulateM_error hn]
    rfl
  · simp only [h2, if_false, meanRadiiSerial, wrapAll_arange_none h]
    rfl

/-! ### Sums of finite values -/

theorem sum_fin {k : ℕ} (f : Fin k → ℝ) : XR.sum (fun c => (.fin (f c) : XR ℝ)) = .fin (∑ c, f c) := by
  unfold XR.sum
  have key : ∀ (l : List (Fin k)) (a : ℝ),
      l.foldl (fun (acc : XR ℝ) (c : Fin k) => XR.add acc (.fin (f c))) (.fin a) = .fin (a + (l.map f).sum) := by
    intro l
    induction l with
    | nil => intro a; simp
    | cons x l ih =>
      intro a
      rw [List.foldl_cons]
      change l.foldl (fun (acc : XR ℝ) (c : Fin k) => XR.add acc (.fin (f c))) (.fin (a + f x)) = _
      rw [ih, List.map_cons, List.sum_cons, add_assoc]
  rw [key, zero_add]
  congr 1

theorem nearest_sum_unique {ι : Type} [DecidableEq ι] {S : Finset ι} {f : ι → ℝ} {k : ℕ} {N N' : Finset ι}
    (h : Spec.IsNearest S f k N) (h' : Spec.IsNearest S f k N') : ∑ j ∈ N, f j = ∑ j ∈ N', f j := by
  have hcard : (N \ N').card = (N' \ N).card := by
    have h1 := Finset.card_sdiff_add_card_inter N N'
    have h2 := Finset.card_sdiff_add_card_inter N' N
    rw [Finset.inter_comm] at h2
    have := h.card
    have := h'.card
    omega
  have hs1 := Finset.sum_inter_add_sum_sdiff N N' f
  have hs2 := Finset.sum_inter_add_sum_sdiff N' N f
  rw [Finset.inter_comm] at hs2
  have hd : ∑ j ∈ N \ N', f j = ∑ j ∈ N' \ N, f j := by
    rcases (N \ N').eq_empty_or_nonempty with he | ⟨a, ha⟩
    · rw [he] at hcard
      have he' : N' \ N = ∅ := Finset.card_eq_zero.1 (by rw [← hcard]; rfl)
      rw [he, he']
    · have hne : (N' \ N).Nonempty := by
        rw [← Finset.card_pos, ← hcard, Finset.card_pos]; exact ⟨a, ha⟩
      obtain ⟨b, hb⟩ := hne
      rw [Finset.mem_sdiff] at ha hb
      have heq : ∀ a ∈ N \ N', ∀ b ∈ N' \ N, f a = f b := by
        intro a ha b hb
        rw [Finset.mem_sdiff] at ha hb
        exact le_antisymm (h.best a ha.1 b (h'.sub hb.1) hb.2) (h'.best b hb.1 a (h.sub ha.1) ha.2)
      rw [Finset.sum_congr rfl (fun x hx => heq x hx b (Finset.mem_sdiff.2 hb)),
        Finset.sum_congr rfl (fun x hx => (heq a (Finset.mem_sdiff.2 ha) x hx).symm),
        Finset.sum_const, Finset.sum_const, hcard, heq a (Finset.mem_sdiff.2 ha) b (Finset.mem_sdiff.2 hb)]
  linarith

/-- The first `k` order statistics are the distances to `k` nearest other training points. -/
theorem meanRank_nearest {n : ℕ} (x : Fin n → Fin n → ℝ) (test : Option (List ℤ)) (i : Fin n) (k : ℕ)
    (hk : 1 ≤ k) (hc : k ≤ ((Spec.training n test).erase i).card) (h : k ≤ (trainInd n test).length)
    (N : Finset (Fin n)) (hN : Spec.IsNearest ((Spec.training n test).erase i) (x i) k N) :
    meanRank (cols (Np.fillDiagonal (toXR x) .pinf) (trainInd n test) i) k h = .fin (Spec.meanOver N (x i)) := by
  obtain ⟨d, hd⟩ : ∃ d, d = cols (Np.fillDiagonal (toXR x) .pinf) (trainInd n test) i := ⟨_, rfl⟩
  have hfin : ∀ c : Fin k, ∃ ρ, rankVal d ⟨c.val, lt_of_lt_of_le c.isLt h⟩ = .fin ρ := by
    intro c
    obtain ⟨ρ, h1, _⟩ := rankVal_kthSmallest x test i (c.val + 1) (by omega) (by omega)
      ⟨c.val, lt_of_lt_of_le c.isLt h⟩ (by simp)
    exact ⟨ρ, by rw [hd]; exact h1⟩
  have hval : ∀ c : Fin (trainInd n test).length, ∀ ρ, d c = .fin ρ →
      (trainInd n test).get c ≠ i ∧ x i ((trainInd n test).get c) = ρ := by
    intro c ρ hcρ
    rw [hd] at hcρ
    unfold cols Np.fillDiagonal at hcρ
    split at hcρ
    · exact absurd hcρ (by simp)
    · rename_i hne
      refine ⟨fun he => hne (by rw [he]), by simpa [toXR] using hcρ⟩
  let p : Fin k → Fin (trainInd n test).length := fun c =>
    Tuple.sort d ⟨c.val, lt_of_lt_of_le c.isLt h⟩
  have hp : ∀ c, d (p c) = rankVal d ⟨c.val, lt_of_lt_of_le c.isLt h⟩ := fun c => rfl
  have hpinj : Function.Injective p := by
    intro a b hab
    have := (Tuple.sort d).injective hab
    apply Fin.ext
    simpa using congrArg Fin.val this
  have hginj : Function.Injective (fun c => (trainInd n test).get (p c)) :=
    (List.nodup_iff_injective_get.1 (trainInd_nodup n test)).comp hpinj
  have hnear : Spec.IsNearest ((Spec.training n test).erase i) (x i) k
      (Finset.univ.image (fun c => (trainInd n test).get (p c))) := by
    refine ⟨?_, ?_, ?_⟩
    · intro j hj
      obtain ⟨c, _, rfl⟩ := Finset.mem_image.1 hj
      obtain ⟨ρ, hρ⟩ := hfin c
      rw [Finset.mem_erase, ← trainInd_toFinset, List.mem_toFinset]
      exact ⟨(hval _ ρ (by rw [hp, hρ])).1, List.get_mem _ _⟩
    · rw [Finset.card_image_of_injective _ hginj]
      simp
    · intro a ha b hb hnb
      obtain ⟨c, _, rfl⟩ := Finset.mem_image.1 ha
      rw [Finset.mem_erase, ← trainInd_toFinset, List.mem_toFinset] at hb
      obtain ⟨q, hq⟩ := List.get_of_mem hb.2
      have hdb : d q = .fin (x i b) := by
        have hne : i.val ≠ b.val := fun h' => hb.1 (Fin.ext h').symm
        rw [hd]
        change Np.fillDiagonal (toXR x) .pinf i ((trainInd n test).get q) = _
        rw [hq]
        simp [Np.fillDiagonal, hne, toXR]
      obtain ⟨ρ, hρ⟩ := hfin c
      rw [(hval _ ρ (by rw [hp, hρ])).2]
      have hle : d (p c) ≤ d q := by
        obtain ⟨s, hs⟩ := (Tuple.sort d).surjective q
        have hks : ¬ s.val < k := by
          intro hs'
          apply hnb
          rw [Finset.mem_image]
          refine ⟨⟨s.val, hs'⟩, Finset.mem_univ _, ?_⟩
          rw [← hq, ← hs]
        rw [← hs]
        apply Tuple.monotone_sort d
        change c.val ≤ s.val
        omega
      rw [hp, hρ, hdb] at hle
      simpa using hle
  have hk0 : (k : ℝ) ≠ 0 := by positivity
  unfold meanRank
  rw [← hd]
  have : (fun c : Fin k => rankVal d ⟨c.val, lt_of_lt_of_le c.isLt h⟩) =
      fun c => .fin (x i ((trainInd n test).get (p c))) := by
    funext c
    obtain ⟨ρ, hρ⟩ := hfin c
    rw [hρ, (hval _ ρ (by rw [hp, hρ])).2]
  rw [this]
  unfold XR.mean Spec.meanOver
  rw [sum_fin, hN.card, nearest_sum_unique hN hnear, Finset.sum_image (fun a _ b _ hab => hginj hab)]
  simp [XR.div, hk0]

theorem geomean_fin {n : ℕ} (hn : 0 < n) (r : Fin n → ℝ) (hr : ∀ i, 0 < r i) :
    geomean (fun i => (.fin (r i) : XR ℝ)) = .fin (Spec.geometricMean r) := by
  unfold geomean Spec.geometricMean
  have : (fun i => XR.log (.fin (r i))) = fun i => (.fin (Real.log (r i)) : XR ℝ) := by
    funext i
    simp [XR.log, (hr i).ne', (hr i).not_gt]
  have hn' : (n : ℝ) ≠ 0 := by positivity
  have hprod : 0 < ∏ i, r i := Finset.prod_pos (fun i _ => hr i)
  rw [this, sum_fin]
  simp only [XR.div, hn', if_false, XR.exp]
  congr 1
  rw [Real.rpow_def_of_pos hprod, Real.log_prod (fun i _ => (hr i).ne')]
  congr 1
  ring

theorem geometricMean_pos {n : ℕ} (r : Fin n → ℝ) (hr : ∀ i, 0 < r i) : 0 < Spec.geometricMean r :=
  Real.rpow_pos_of_pos (Finset.prod_pos (fun i _ => hr i)) _

theorem nicdmEntry_fin (g d ri rj : ℝ) (hi : 0 < ri) (hj : 0 < rj) :
    nicdmEntry (.fin g) (.fin d) (.fin ri) (.fin rj) = .fin (Spec.nicdm g d ri rj) := by
  have h := mul_pos hi hj
  have h2 : √(ri * rj) ≠ 0 := (Real.sqrt_pos.2 h).ne'
  unfold nicdmEntry Spec.nicdm
  simp [XR.mul, XR.sqrt, h.not_gt, XR.div, h2]

end HubToolbox.LS
