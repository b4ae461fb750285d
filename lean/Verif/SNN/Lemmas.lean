import Verif.SNN.Model
import Verif.SNN.Spec
import Verif.LS.Lemmas

/-!
# Lemmas about the model of `shared_neighbors.py`
-/

set_option autoImplicit false

namespace HubToolbox.SNN

open HubToolbox

variable {K : Type}

theorem markSerial_apply {n m : ℕ} (sel : Fin n → List (Fin m)) (i : Fin n) (c : Fin m) :
    markSerial sel i c = decide (c ∈ sel i) := by
  unfold markSerial
  have key : ∀ (l : List (Fin n)) (M : Fin n → Fin m → Bool),
      l.foldl (fun (M : Fin n → Fin m → Bool) (i : Fin n) =>
        Function.update M i (fun c => M i c || (sel i).contains c)) M i c
        = (M i c || (decide (i ∈ l) && decide (c ∈ sel i))) := by
    intro l
    induction l with
    | nil => intro M; simp
    | cons j l ih =>
      intro M
      rw [List.foldl_cons, ih]
      by_cases hij : i = j
      · subst hij
        simp only [Function.update_self, List.mem_cons, true_or, decide_true, Bool.true_and, List.contains_eq_mem]
        by_cases hc : c ∈ sel i <;> simp [hc]
      · simp [hij]
  rw [key]
  simp

theorem markParallel_apply [LinearOrder K] (w : World K) {n m : ℕ} (sel : Fin n → List (Fin m)) (i : Fin n)
    (c : Fin m) : markParallel w sel i c = decide (c ∈ sel i) := by
  unfold markParallel
  have hmem : ∀ x : (Fin n × Fin m) × Bool,
      x ∈ w.sched ((List.finRange n).flatMap (fun (i : Fin n) => (sel i).map (fun c => ((i, c), true)))) ↔
        ∃ i c, c ∈ sel i ∧ x = ((i, c), true) := by
    intro x
    rw [(w.sched_perm _).mem_iff, List.mem_flatMap]
    constructor
    · rintro ⟨i, _, h⟩
      obtain ⟨c, hc, rfl⟩ := List.mem_map.1 h
      exact ⟨i, c, hc, rfl⟩
    · rintro ⟨i, c, hc, rfl⟩
      exact ⟨i, List.mem_finRange i, List.mem_map.2 ⟨c, hc, rfl⟩⟩
  by_cases hc : c ∈ sel i
  · rw [decide_eq_true hc]
    refine Sched.exec_of_consistent _ _ _ _ ((hmem _).2 ⟨i, c, hc, rfl⟩) ?_
    intro x hx _
    obtain ⟨_, _, _, rfl⟩ := (hmem x).1 hx
    rfl
  · rw [decide_eq_false hc, Sched.exec_of_notMem]
    intro hx
    obtain ⟨x, hx, hxe⟩ := List.mem_map.1 hx
    obtain ⟨i', c', hc', rfl⟩ := (hmem x).1 hx
    obtain ⟨rfl, rfl⟩ := Prod.mk.inj hxe
    exact hc hc'

theorem markParallel_eq [LinearOrder K] (w : World K) {n m : ℕ} (sel : Fin n → List (Fin m)) :
    markParallel w sel = markSerial sel := by
  funext i c
  rw [markParallel_apply, markSerial_apply]

theorem countTrue_card {m : ℕ} (p : Fin m → Bool) :
    Np.countTrue p = (Finset.univ.filter (fun c => p c = true)).card := by
  unfold Np.countTrue
  rw [List.countP_eq_length_filter, ← List.toFinset_card_of_nodup ((List.nodup_finRange m).filter _)]
  congr 1
  ext c
  simp

theorem overlap_mark {n m : ℕ} (sel : Fin n → List (Fin m)) (i i' : Fin n) :
    overlap (markSerial sel i) (markSerial sel i') = ((sel i).toFinset ∩ (sel i').toFinset).card := by
  unfold overlap
  rw [countTrue_card]
  congr 1
  ext c
  simp [markSerial_apply]

section
variable [Field K] [LinearOrder K]

theorem add_zero_right (a : XR K) : XR.add a (.fin 0) = a := by cases a <;> simp [XR.add]
theorem add_zero_left (a : XR K) : XR.add (.fin 0) a = a := by cases a <;> simp [XR.add]

theorem secSerial_apply (metric : String) (k : ℤ) {n : ℕ} (knn : Fin n → Fin n → Bool) (i j : Fin n) :
    (secSerial metric k knn i j : XR K) =
      if i < j then entry metric k (overlap (knn i) (knn j)) else .fin 0 := by
  unfold secSerial
  rw [MPEmp.foldl_setRowFrom _ (fun i => i.val + 1)]
  by_cases h : i < j
  · simp [h, Nat.succ_le_iff.2 (Fin.lt_def.1 h)]
  · have : ¬ (i.val + 1 ≤ j.val) := fun h' => h (Fin.lt_def.2 h')
    simp [h, this]

theorem secParallel_eq (w : World K) (metric : String) (k : ℤ) {n : ℕ} (knn : Fin n → Fin n → Bool) :
    (secParallel w metric k knn : Fin n → Fin n → XR K) = secSerial metric k knn := by
  funext i j
  rw [secSerial_apply]
  unfold secParallel
  have hmem : ∀ x : (Fin n × Fin n) × XR K,
      x ∈ w.sched ((List.finRange n).flatMap (fun (i : Fin n) =>
        ((List.finRange n).filter (fun (j : Fin n) => decide (i < j))).map
          (fun j => ((i, j), (entry metric k (overlap (knn i) (knn j)) : XR K))))) ↔
        ∃ i j, i < j ∧ x = ((i, j), entry metric k (overlap (knn i) (knn j))) := by
    intro x
    rw [(w.sched_perm _).mem_iff, List.mem_flatMap]
    constructor
    · rintro ⟨i, _, h⟩
      obtain ⟨j, hj, rfl⟩ := List.mem_map.1 h
      exact ⟨i, j, by simpa using hj, rfl⟩
    · rintro ⟨i, j, hij, rfl⟩
      exact ⟨i, List.mem_finRange i, List.mem_map.2 ⟨j, by simpa using hij, rfl⟩⟩
  by_cases h : i < j
  · rw [if_pos h]
    refine Sched.exec_of_consistent _ _ _ _ ((hmem _).2 ⟨i, j, h, rfl⟩) ?_
    intro x hx hxa
    obtain ⟨i', j', _, rfl⟩ := (hmem x).1 hx
    obtain ⟨rfl, rfl⟩ := Prod.mk.inj hxa
    rfl
  · rw [if_neg h, Sched.exec_of_notMem]
    intro hx
    obtain ⟨x, hx, hxe⟩ := List.mem_map.1 hx
    obtain ⟨i', j', hij, rfl⟩ := (hmem x).1 hx
    obtain ⟨rfl, rfl⟩ := Prod.mk.inj hxe
    exact h hij

theorem overlap_comm {m : ℕ} (a b : Fin m → Bool) : overlap a b = overlap b a := by
  unfold overlap; congr 1; funext c; exact Bool.and_comm _ _

/-- Value of the whole matrix in terms of the selected columns. -/
def result (metric : String) (k : ℤ) {n : ℕ} (sel : Fin n → List (Fin n)) : Fin n → Fin n → XR K :=
  fun i j => if i = j then selfValue metric else entry metric k ((sel i).toFinset ∩ (sel j).toFinset).card

theorem core_eq (w : World K) {n : ℕ} (D : Fin n → Fin n → XR K) (k : ℤ) (metric : String) (nJobs : ℤ) :
    core w D k metric nJobs =
      (Np.tabulateM (fun i => hood w.part metric (kthOf metric n k) k (Np.fillDiagonal D (exclude metric) i))).map
        (result metric k) := by
  unfold core
  simp only [markParallel_eq, secParallel_eq, ite_self]
  cases Np.tabulateM (fun i => hood w.part metric (kthOf metric n k) k (Np.fillDiagonal D (exclude metric) i)) with
  | error e => rfl
  | ok sel =>
    refine Eq.trans (b := Except.ok _) rfl ?_
    refine Eq.trans ?_ (b := Except.ok _) rfl
    congr 1
    funext i j
    unfold Np.fillDiagonal result
    simp only
    rw [secSerial_apply, secSerial_apply, overlap_mark, overlap_mark]
    rcases lt_trichotomy i j with h | h | h
    · rw [if_pos h, if_neg h.not_gt, if_neg h.ne, if_neg (fun h' : i.val = j.val => h.ne (Fin.ext h')),
        add_zero_right]
    · simp [h]
    · rw [if_pos h, if_neg h.not_gt, if_neg h.ne', if_neg (fun h' : i.val = j.val => h.ne' (Fin.ext h')),
        add_zero_left, Finset.inter_comm]
end

/-! ### Selection -/

theorem slice0_nat {α : Type} (k : ℕ) (l : List α) : Knn.slice0 (k : ℤ) l = l.take k := by
  simp [Knn.slice0]

section
variable [LinearOrder K]

/-- The contract of a selected list: `k` different columns, none of the others nearer. -/
structure Sel {m : ℕ} (metric : String) (d : Fin m → XR K) (k : ℕ) (L : List (Fin m)) : Prop where
  nodup : L.Nodup
  length : L.length = k
  best : ∀ a ∈ L, ∀ b, b ∉ L → Spec.nearer metric (d a) (d b)

theorem mem_take_ofFn {m : ℕ} (p : Equiv.Perm (Fin m)) (k : ℕ) (a : Fin m) :
    a ∈ (List.ofFn p).take k ↔ (p.symm a).val < k := by
  rw [List.mem_take_iff_getElem]
  constructor
  · rintro ⟨i, hi, h⟩
    have hi' : i < m := by simpa using (lt_min_iff.1 hi).2
    rw [List.getElem_ofFn] at h
    rw [← h]
    simpa using (lt_min_iff.1 hi).1
  · intro h
    refine ⟨(p.symm a).val, by simp [h], ?_⟩
    rw [List.getElem_ofFn]
    simp

theorem mem_take_reverse {m : ℕ} (p : Equiv.Perm (Fin m)) (k : ℕ) (a : Fin m) :
    a ∈ (List.ofFn p).reverse.take k ↔ m - k ≤ (p.symm a).val := by
  rw [List.mem_take_iff_getElem]
  constructor
  · rintro ⟨i, hi, h⟩
    have hi' : i < m := by simpa using (lt_min_iff.1 hi).2
    have hik : i < k := (lt_min_iff.1 hi).1
    rw [List.getElem_reverse, List.getElem_ofFn] at h
    rw [← h]
    simp
    omega
  · intro h
    have hlt := (p.symm a).isLt
    refine ⟨m - 1 - (p.symm a).val, by simp; omega, ?_⟩
    rw [List.getElem_reverse, List.getElem_ofFn]
    refine Eq.trans (congrArg p ?_) (p.apply_symm_apply a)
    ext
    simp
    omega

theorem hood_distance (o : ArgPart (XR K)) {m : ℕ} (k : ℕ) (hk : k < m) (d : Fin m → XR K) :
    ∃ L, hood o "distance" (k : ℤ) k d = .ok L ∧ Sel "distance" d k L := by
  have hw : Np.wrap m (k : ℤ) = some ⟨k, hk⟩ := by
    rw [Np.wrap_of_nonneg (by omega) (by omega)]; simp
  obtain ⟨p, hp⟩ : ∃ p, p = o.run d (fun _ : Fin 1 => (⟨k, hk⟩ : Fin m)) := ⟨_, rfl⟩
  refine ⟨(List.ofFn p).take k, ?_, ?_, ?_, ?_⟩
  · unfold hood Np.argpartition
    rw [Np.wrapAll_const, hw, hp]
    refine Eq.trans (b := Except.ok _) rfl ?_
    unfold top
    rw [slice0_nat]
    rfl
  · exact (List.nodup_ofFn.2 p.injective).sublist (List.take_sublist _ _)
  · simp; omega
  · intro a ha b hb
    rw [mem_take_ofFn] at ha hb
    unfold Spec.nearer
    rw [if_neg (by decide)]
    have h1 := o.before d (fun _ : Fin 1 => (⟨k, hk⟩ : Fin m)) 0 (p.symm a) (by
      rw [Fin.le_def]; exact ha.le)
    have h2 := o.after d (fun _ : Fin 1 => (⟨k, hk⟩ : Fin m)) 0 (p.symm b) (by
      rw [Fin.le_def]; exact not_lt.1 hb)
    rw [← hp, Equiv.apply_symm_apply] at h1 h2
    exact le_trans h1 h2

theorem hood_similarity (o : ArgPart (XR K)) {m : ℕ} (k : ℕ) (h1 : 1 ≤ k) (hk : k ≤ m) (d : Fin m → XR K) :
    ∃ L, hood o "similarity" ((m : ℤ) - k) k d = .ok L ∧ Sel "similarity" d k L := by
  have hw : Np.wrap m ((m : ℤ) - k) = some ⟨m - k, by omega⟩ := by
    rw [Np.wrap_of_nonneg (by omega) (by omega)]; congr 2; omega
  obtain ⟨p, hp⟩ : ∃ p, p = o.run d (fun _ : Fin 1 => (⟨m - k, by omega⟩ : Fin m)) := ⟨_, rfl⟩
  refine ⟨(List.ofFn p).reverse.take k, ?_, ?_, ?_, ?_⟩
  · unfold hood Np.argpartition
    rw [Np.wrapAll_const, hw, hp]
    refine Eq.trans (b := Except.ok _) rfl ?_
    unfold top
    rw [slice0_nat]
    rfl
  · exact (List.nodup_reverse.2 (List.nodup_ofFn.2 p.injective)).sublist (List.take_sublist _ _)
  · simp; omega
  · intro a ha b hb
    rw [mem_take_reverse] at ha hb
    unfold Spec.nearer
    rw [if_pos rfl]
    have h1 := o.after d (fun _ : Fin 1 => (⟨m - k, by omega⟩ : Fin m)) 0 (p.symm a) (by
      rw [Fin.le_def]; exact ha)
    have h2 := o.before d (fun _ : Fin 1 => (⟨m - k, by omega⟩ : Fin m)) 0 (p.symm b) (by
      rw [Fin.le_def]; exact (not_le.1 hb).le)
    rw [← hp, Equiv.apply_symm_apply] at h1 h2
    exact le_trans h2 h1

theorem hood_sel (o : ArgPart (XR K)) {m : ℕ} (metric : String) (hm : metric = "distance" ∨ metric = "similarity")
    (k : ℕ) (h1 : 1 ≤ k) (hk : k < m) (d : Fin m → XR K) :
    ∃ L, hood o metric (kthOf metric m k) k d = .ok L ∧ Sel metric d k L := by
  rcases hm with rfl | rfl
  · exact hood_distance o k hk d
  · exact hood_similarity o k h1 hk.le d

/-- The first `k` of a sorted row. -/
theorem sort_sel (srt : Knn.ArgSort (XR K)) {m : ℕ} (metric : String)
    (hm : metric = "distance" ∨ metric = "similarity") (k : ℕ) (hk : k ≤ m) (d : Fin m → XR K) :
    Sel metric d k (top metric (srt.run d) k) := by
  have hperm := srt.perm d
  have hnd : (srt.run d).Nodup := hperm.nodup_iff.2 (List.nodup_finRange m)
  have hlen : (srt.run d).length = m := by rw [hperm.length_eq, List.length_finRange]
  have hall : ∀ b, b ∈ srt.run d := fun b => hperm.mem_iff.2 (List.mem_finRange b)
  have key : ∀ (l : List (Fin m)) (r : Fin m → Fin m → Prop), l.Pairwise r → (∀ b, b ∈ l) →
      ∀ a ∈ l.take k, ∀ b, b ∉ l.take k → r a b := by
    intro l r hp hall a ha b hb
    have hb' : b ∈ l.drop k := by
      have := hall b
      rw [← List.take_append_drop k l, List.mem_append] at this
      exact this.resolve_left hb
    rw [← List.take_append_drop k l, List.pairwise_append] at hp
    exact hp.2.2 a ha b hb'
  unfold top
  rw [slice0_nat]
  rcases hm with rfl | rfl
  · rw [if_neg (by decide)]
    refine ⟨hnd.sublist (List.take_sublist _ _), by simp [hlen, hk], ?_⟩
    intro a ha b hb
    unfold Spec.nearer
    rw [if_neg (by decide)]
    exact key _ _ (srt.sorted d) hall a ha b hb
  · rw [if_pos rfl]
    refine ⟨(List.nodup_reverse.2 hnd).sublist (List.take_sublist _ _), by simp [hlen, hk], ?_⟩
    intro a ha b hb
    unfold Spec.nearer
    rw [if_pos rfl]
    exact key _ (fun a b => d b ≤ d a) (List.pairwise_reverse.2 (srt.sorted d)) (fun b => List.mem_reverse.2 (hall b))
      a ha b hb

/-- Excluded columns do not get selected while there are enough others. -/
theorem Sel.isHood {m : ℕ} {metric : String} (hm : metric = "distance" ∨ metric = "similarity") {d : Fin m → XR K}
    {k : ℕ} {L : List (Fin m)} (h : Sel metric d k L) (S : Finset (Fin m)) (x : Fin m → K)
    (hS : ∀ j ∈ S, d j = .fin (x j)) (hx : ∀ j, j ∉ S → d j = exclude metric) (hk : k ≤ S.card) :
    Spec.IsHood (Spec.nearer metric) S x k L.toFinset := by
  have hcard : L.toFinset.card = k := by rw [List.toFinset_card_of_nodup h.nodup, h.length]
  have hsub : L.toFinset ⊆ S := by
    intro a ha
    by_contra hna
    have : ∃ b ∈ S, b ∉ L.toFinset := by
      by_contra hno
      push Not at hno
      have hlt : S.card < L.toFinset.card :=
        Finset.card_lt_card ⟨fun b hb => hno b hb, fun hsub => hna (hsub ha)⟩
      omega
    obtain ⟨b, hb, hbL⟩ := this
    have hn := h.best a (List.mem_toFinset.1 ha) b (fun h' => hbL (List.mem_toFinset.2 h'))
    rw [hS b hb, hx a hna] at hn
    rcases hm with rfl | rfl <;> simp [Spec.nearer, exclude] at hn
  refine ⟨hsub, hcard, ?_⟩
  intro a ha b hb hbn
  have hn := h.best a (List.mem_toFinset.1 ha) b (fun h' => hbn (List.mem_toFinset.2 h'))
  rw [hS a (hsub ha), hS b hb] at hn
  rcases hm with rfl | rfl <;> simpa [Spec.nearer] using hn

theorem IsHood.unique {ι : Type} [DecidableEq ι] {metric : String} {S : Finset ι} {d : ι → K} {k : ℕ}
    {N N' : Finset ι} (h : Spec.IsHood (Spec.nearer metric) S d k N)
    (h' : Spec.IsHood (Spec.nearer metric) S d k N') (hd : Set.InjOn d S) : N = N' := by
  refine Finset.eq_of_subset_of_card_le ?_ (by rw [h.card, h'.card])
  intro a ha
  by_contra hna
  have : ∃ b ∈ N', b ∉ N := by
    by_contra hno
    push Not at hno
    have hlt : N'.card < N.card := Finset.card_lt_card ⟨fun b hb => hno b hb, fun hsub => hna (hsub ha)⟩
    rw [h.card, h'.card] at hlt
    omega
  obtain ⟨b, hb, hbN⟩ := this
  have h1 := h.best a ha b (h'.sub hb) hbN
  have h2 := h'.best b hb a (h.sub ha) hna
  have : d a = d b := by
    unfold Spec.nearer at h1 h2
    split at h1
    · rw [if_pos ‹_›] at h2; exact le_antisymm h2 h1
    · rw [if_neg ‹_›] at h2; exact le_antisymm h1 h2
  have := hd (h.sub ha) (h'.sub hb) this
  exact hbN (this ▸ ha)
end

end HubToolbox.SNN
