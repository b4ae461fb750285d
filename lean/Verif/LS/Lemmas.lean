import Verif.LS.Model
import Verif.LS.Spec
import Verif.MPEmp.Lemmas
import Verif.Tac
import Mathlib.Order.Interval.Finset.Fin

/-!
# Lemmas about the model of local scaling
-/

set_option autoImplicit false

namespace HubToolbox

theorem Np.tabulateM_ok {α : Type} {n : ℕ} (g : Fin n → α) :
    Np.tabulateM (fun i => (.ok (g i) : Py α)) = .ok g := by
  induction n with
  | zero => simp only [Np.tabulateM]; congr 1; funext i; exact i.elim0
  | succ n ih =>
    unfold Np.tabulateM
    rw [ih (fun i => g i.succ)]
    refine Eq.trans (b := Except.ok _) rfl ?_
    congr 1
    funext i
    refine Fin.cases ?_ (fun i => ?_) i <;> simp

theorem Np.tabulateM_error {α : Type} {n : ℕ} (hn : 0 < n) (e : PyErr) :
    Np.tabulateM (fun _ : Fin n => (.error e : Py α)) = .error e := by
  cases n with
  | zero => omega
  | succ n => unfold Np.tabulateM; rfl

theorem Np.wrapAll_const (m : ℕ) (t : ℤ) :
    Np.wrapAll m (fun _ : Fin 1 => t) = (Np.wrap m t).map (fun x => fun _ => x) := by
  unfold Np.wrapAll
  cases h : Np.wrap m t with
  | none => simp [h]
  | some x => simp [h]

/-- All writes to a cell carry the same value: the order does not matter. -/
theorem Sched.exec_of_consistent {A V : Type*} [DecidableEq A] (ws : List (A × V)) (mem : A → V) (a : A) (v : V)
    (h : (a, v) ∈ ws) (hc : ∀ w ∈ ws, w.1 = a → w.2 = v) : Sched.exec mem ws a = v := by
  induction ws generalizing mem with
  | nil => simp at h
  | cons w ws ih =>
    change Sched.exec (Function.update mem w.1 w.2) ws a = _
    by_cases hm : (a, v) ∈ ws
    · exact ih _ hm (fun w hw => hc w (List.mem_cons_of_mem _ hw))
    · have hw : w = (a, v) := by
        rcases List.mem_cons.1 h with h | h
        · exact h.symm
        · exact absurd h hm
      subst hw
      rw [Sched.exec_of_notMem]
      · simp
      · intro hx
        obtain ⟨w, hw, hwa⟩ := List.mem_map.1 hx
        have := hc w (List.mem_cons_of_mem _ hw) hwa
        exact hm (by rw [← hwa, ← this]; exact hw)

/-! ### Order statistics -/

/-- `v` is the value at position `t` of the sorted vector `d`. -/
structure IsRank {α : Type} [LinearOrder α] {m : ℕ} (d : Fin m → α) (t : ℕ) (v : α) : Prop where
  attained : ∃ c, d c = v
  below : (Finset.univ.filter (fun c => d c < v)).card ≤ t
  upto : t < (Finset.univ.filter (fun c => d c ≤ v)).card

theorem IsRank.unique {α : Type} [LinearOrder α] {m : ℕ} {d : Fin m → α} {t : ℕ} {v v' : α}
    (h : IsRank d t v) (h' : IsRank d t v') : v = v' := by
  have key : ∀ {v v' : α}, IsRank d t v → IsRank d t v' → ¬ v < v' := by
    intro v v' h h' hlt
    have : (Finset.univ.filter (fun c => d c ≤ v)).card ≤ (Finset.univ.filter (fun c => d c < v')).card := by
      apply Finset.card_le_card
      intro c
      simp only [Finset.mem_filter, Finset.mem_univ, true_and]
      exact fun hc => hc.trans_lt hlt
    have h1 := h.upto
    have h2 := h'.below
    omega
  exact le_antisymm (not_lt.1 (key h' h)) (not_lt.1 (key h h'))

/-- The partial sort puts the order statistic at the requested position. -/
theorem ArgPart.isRank {α : Type} [LinearOrder α] (o : ArgPart α) {m k : ℕ} (d : Fin m → α)
    (kth : Fin k → Fin m) (c : Fin k) : IsRank d (kth c).val (d (o.run d kth (kth c))) := by
  refine ⟨⟨_, rfl⟩, ?_, ?_⟩
  · have hsub : (Finset.univ.filter (fun x => d x < d (o.run d kth (kth c)))) ⊆
        (Finset.univ.filter (fun p : Fin m => p < kth c)).image (o.run d kth) := by
      intro x hx
      simp only [Finset.mem_filter, Finset.mem_univ, true_and] at hx
      refine Finset.mem_image.2 ⟨(o.run d kth).symm x, ?_, by simp⟩
      simp only [Finset.mem_filter, Finset.mem_univ, true_and]
      by_contra hc
      have := o.after d kth c ((o.run d kth).symm x) (not_lt.1 hc)
      simp at this
      exact absurd hx (not_lt.2 this)
    have := (Finset.card_le_card hsub).trans Finset.card_image_le
    have h2 : (Finset.univ.filter (fun p : Fin m => p < kth c)).card = (kth c).val := by
      rw [← Fin.card_Iio (kth c)]; congr 1; ext p; simp
    omega
  · have hsub : (Finset.univ.filter (fun p : Fin m => p ≤ kth c)).image (o.run d kth) ⊆
        (Finset.univ.filter (fun x => d x ≤ d (o.run d kth (kth c)))) := by
      intro x hx
      obtain ⟨p, hp, rfl⟩ := Finset.mem_image.1 hx
      simp only [Finset.mem_filter, Finset.mem_univ, true_and] at hp ⊢
      exact o.before d kth c p hp
    have := Finset.card_le_card hsub
    rw [Finset.card_image_of_injective _ (o.run d kth).injective] at this
    have h2 : (Finset.univ.filter (fun p : Fin m => p ≤ kth c)).card = (kth c).val + 1 := by
      rw [← Fin.card_Iic (kth c)]; congr 1; ext p; simp
    omega

/-- Counting positions of a list without repetitions. -/
theorem card_filter_get {ι : Type} [DecidableEq ι] (l : List ι) (hl : l.Nodup) (p : ι → Prop) [DecidablePred p] :
    (Finset.univ.filter (fun c : Fin l.length => p (l.get c))).card = (l.toFinset.filter p).card := by
  apply Finset.card_bij (fun c _ => l.get c)
  · intro c hc
    simp only [Finset.mem_filter, Finset.mem_univ, true_and] at hc
    simp only [Finset.mem_filter, List.mem_toFinset]
    exact ⟨List.get_mem _ _, hc⟩
  · intro a _ b _ h
    exact List.nodup_iff_injective_get.1 hl h
  · intro x hx
    simp only [Finset.mem_filter, List.mem_toFinset] at hx
    obtain ⟨c, rfl⟩ := List.get_of_mem hx.1
    exact ⟨c, by simpa using hx.2, rfl⟩

namespace LS

theorem trainInd_nodup (n : ℕ) (test : Option (List ℤ)) : (trainInd n test).Nodup := by
  cases test with
  | none => exact List.nodup_finRange n
  | some t => exact (List.nodup_finRange n).filter _

theorem trainInd_toFinset (n : ℕ) (test : Option (List ℤ)) :
    (trainInd n test).toFinset = Spec.training n test := by
  ext j
  cases test <;> simp [trainInd, Spec.training]

theorem trainInd_length (n : ℕ) (test : Option (List ℤ)) :
    (trainInd n test).length = (Spec.training n test).card := by
  rw [← trainInd_toFinset, List.toFinset_card_of_nodup (trainInd_nodup n test)]

/-- Value of `partAt`: an error or the order statistic. -/
theorem partAt_none (o : ArgPart (XR ℝ)) {m : ℕ} (d : Fin m → XR ℝ) (kth : ℤ) (h : Np.wrap m kth = none) :
    partAt o d kth = .error .valueError := by
  unfold partAt Np.argpartition
  rw [Np.wrapAll_const, h]
  rfl

theorem partAt_some (o : ArgPart (XR ℝ)) {m : ℕ} (d : Fin m → XR ℝ) (kth : ℤ) (t : Fin m)
    (h : Np.wrap m kth = some t) : ∃ v, partAt o d kth = .ok v ∧ IsRank d t.val v := by
  refine ⟨_, ?_, ArgPart.isRank o d (fun _ : Fin 1 => t) 0⟩
  unfold partAt Np.argpartition
  rw [Np.wrapAll_const, h]
  rfl

/-- The order statistic, chosen by the specification. -/
noncomputable def rankVal {m : ℕ} (d : Fin m → XR ℝ) (t : Fin m) : XR ℝ :=
  d ((ArgPart.ofSort (XR ℝ)).run d (fun _ : Fin 1 => t) t)

theorem rankVal_spec {m : ℕ} (d : Fin m → XR ℝ) (t : Fin m) : IsRank d t.val (rankVal d t) :=
  ArgPart.isRank (ArgPart.ofSort (XR ℝ)) d (fun _ : Fin 1 => t) 0

theorem partAt_eq (o : ArgPart (XR ℝ)) {m : ℕ} (d : Fin m → XR ℝ) (kth : ℤ) (t : Fin m)
    (h : Np.wrap m kth = some t) : partAt o d kth = .ok (rankVal d t) := by
  obtain ⟨v, hv, hr⟩ := partAt_some o d kth t h
  rw [hv, hr.unique (rankVal_spec d t)]

theorem radiiSerial_none (o : ArgPart (XR ℝ)) {n : ℕ} (D : Fin n → Fin n → XR ℝ) (train : List (Fin n)) (kth : ℤ)
    (h : Np.wrap train.length kth = none) : radiiSerial o D train kth = .error .valueError := by
  unfold radiiSerial; rw [h]

theorem radiiSerial_some (o : ArgPart (XR ℝ)) {n : ℕ} (D : Fin n → Fin n → XR ℝ) (train : List (Fin n)) (kth : ℤ)
    (t : Fin train.length) (h : Np.wrap train.length kth = some t) :
    radiiSerial o D train kth = .ok (fun i => rankVal (cols D train i) t) := by
  unfold radiiSerial; rw [h]
  simp only [partAt_eq o _ kth t h]
  exact Np.tabulateM_ok _

theorem exec_rows (w : World) {n : ℕ} (rows : Fin n → XR ℝ) :
    Sched.exec (fun _ : Fin n => (.fin 0 : XR ℝ))
      (w.sched ((List.finRange n).map (fun (i : Fin n) => (i, rows i)))) = rows := by
  funext i
  apply Sched.exec_of_consistent
  · rw [(w.sched_perm _).mem_iff, List.mem_map]
    exact ⟨i, List.mem_finRange i, rfl⟩
  · intro x hx hxi
    rw [(w.sched_perm _).mem_iff, List.mem_map] at hx
    obtain ⟨j, _, rfl⟩ := hx
    simp only at hxi
    rw [← hxi]

theorem radiiParallel_none (w : World) {n : ℕ} (hn : 0 < n) (D : Fin n → Fin n → XR ℝ) (train : List (Fin n))
    (kth : ℤ) (h : Np.wrap train.length kth = none) : radiiParallel w D train kth = .error .valueError := by
  unfold radiiParallel
  simp only [partAt_none w.part _ kth h, Np.tabulateM_error hn]
  rfl

theorem radiiParallel_some (w : World) {n : ℕ} (D : Fin n → Fin n → XR ℝ) (train : List (Fin n)) (kth : ℤ)
    (t : Fin train.length) (h : Np.wrap train.length kth = some t) :
    radiiParallel w D train kth = .ok (fun i => rankVal (cols D train i) t) := by
  unfold radiiParallel
  simp only [partAt_eq w.part _ kth t h, Np.tabulateM_ok]
  refine Eq.trans (b := Except.ok _) rfl ?_
  congr 1
  exact exec_rows w _

/-! ### The secondary matrix -/

@[simp] theorem add_zero_right (a : XR ℝ) : XR.add a (.fin 0) = a := by cases a <;> simp [XR.add]
@[simp] theorem add_zero_left (a : XR ℝ) : XR.add (.fin 0) a = a := by cases a <;> simp [XR.add]

/-- Closed form: the upper triangle is mirrored. -/
def mirror {n : ℕ} (v : XR ℝ) (f : Fin n → Fin n → XR ℝ) : Fin n → Fin n → XR ℝ :=
  fun i j => if i = j then v else if i < j then f i j else f j i

theorem mirror_symm {n : ℕ} (v : XR ℝ) (f : Fin n → Fin n → XR ℝ) (i j : Fin n) :
    mirror v f i j = mirror v f j i := by
  unfold mirror
  rcases lt_trichotomy i j with h | h | h
  · simp [h, h.ne, h.ne', h.not_gt]
  · simp [h]
  · simp [h, h.ne, h.ne', h.not_gt]

theorem secSerial_fill (metric : String) {n : ℕ} (D : Fin n → Fin n → XR ℝ) (r : Fin n → XR ℝ) (v : XR ℝ) :
    Np.fillDiagonal (secSerial metric D r) v =
      mirror v (fun i j => entry metric (D i j) (r i) (r j)) := by
  funext i j
  unfold Np.fillDiagonal secSerial addT mirror
  rw [MPEmp.foldl_setRowFrom _ (fun i => i.val), MPEmp.foldl_setRowFrom _ (fun i => i.val)]
  rcases lt_trichotomy i j with h | h | h
  · have h' : i.val < j.val := h
    rw [if_neg (by omega), if_neg h.ne, if_pos h, if_pos ⟨List.mem_finRange _, by omega⟩, if_neg (by omega)]
    simp [tmpRow, h.ne']
  · simp [h]
  · have h' : j.val < i.val := h
    rw [if_neg (by omega), if_neg h.ne', if_neg h.not_gt, if_neg (by omega),
      if_pos ⟨List.mem_finRange _, by omega⟩]
    simp [tmpRow, h.ne']

theorem mem_secWrites (metric : String) {n : ℕ} (D : Fin n → Fin n → XR ℝ) (r : Fin n → XR ℝ)
    (x : (Fin n × Fin n) × XR ℝ) :
    x ∈ (List.finRange n).flatMap (fun (i : Fin n) => secWrites metric D r i) ↔
      ∃ i j : Fin n, i ≤ j ∧ (x = ((i, j), tmpRow metric D r i j) ∨ x = ((j, i), tmpRow metric D r i j)) := by
  rw [List.mem_flatMap]
  constructor
  · rintro ⟨i, _, h⟩
    rcases List.mem_append.1 h with h | h
    · obtain ⟨j, hj, rfl⟩ := List.mem_map.1 h
      exact ⟨i, j, by simpa using hj, Or.inl rfl⟩
    · obtain ⟨j, hj, rfl⟩ := List.mem_map.1 h
      exact ⟨i, j, by simpa using hj, Or.inr rfl⟩
  · rintro ⟨i, j, hij, h | h⟩
    · exact ⟨i, List.mem_finRange _, List.mem_append_left _ (List.mem_map.2 ⟨j, by simpa using hij, h.symm⟩)⟩
    · exact ⟨i, List.mem_finRange _, List.mem_append_right _ (List.mem_map.2 ⟨j, by simpa using hij, h.symm⟩)⟩

theorem secParallel_fill (w : World) (metric : String) {n : ℕ} (D : Fin n → Fin n → XR ℝ) (r : Fin n → XR ℝ)
    (v : XR ℝ) :
    Np.fillDiagonal (secParallel w metric D r) v =
      mirror v (fun i j => entry metric (D i j) (r i) (r j)) := by
  funext i j
  unfold Np.fillDiagonal mirror
  by_cases hij : i = j
  · simp [hij]
  rw [if_neg (fun h => hij (Fin.ext h)), if_neg hij]
  unfold secParallel
  apply Sched.exec_of_consistent
  · rw [(w.sched_perm _).mem_iff, mem_secWrites]
    by_cases h : i < j
    · exact ⟨i, j, h.le, Or.inl (by simp [tmpRow, h, h.ne'])⟩
    · have h' : j < i := lt_of_le_of_ne (not_lt.1 h) (Ne.symm hij)
      exact ⟨j, i, h'.le, Or.inr (by simp [tmpRow, h, h'.ne'])⟩
  · intro x hx hxi
    rw [(w.sched_perm _).mem_iff, mem_secWrites] at hx
    obtain ⟨a, b, hab, rfl | rfl⟩ := hx
    · obtain ⟨rfl, rfl⟩ := Prod.mk.inj hxi
      have h := lt_of_le_of_ne hab hij
      simp [tmpRow, h, h.ne']
    · obtain ⟨rfl, rfl⟩ := Prod.mk.inj hxi
      have h := lt_of_le_of_ne hab (Ne.symm hij)
      simp [tmpRow, h.not_gt, h.ne']

/-- Result of `core` in closed form. -/
noncomputable def result {n : ℕ} (D : Fin n → Fin n → XR ℝ) (metric : String) (train : List (Fin n))
    (t : Fin train.length) : Fin n → Fin n → XR ℝ :=
  mirror (selfValue metric) (fun i j => entry metric (D i j)
    (rankVal (cols (Np.fillDiagonal D (exclude metric)) train i) t)
    (rankVal (cols (Np.fillDiagonal D (exclude metric)) train j) t))

theorem mirror_congr {n : ℕ} (v : XR ℝ) (f g : Fin n → Fin n → XR ℝ) (h : ∀ i j, i < j → f i j = g i j) :
    mirror v f = mirror v g := by
  funext i j
  unfold mirror
  by_cases hij : i = j
  · simp [hij]
  rw [if_neg hij, if_neg hij]
  by_cases hlt : i < j
  · rw [if_pos hlt, if_pos hlt, h i j hlt]
  · rw [if_neg hlt, if_neg hlt, h j i (lt_of_le_of_ne (not_lt.1 hlt) (Ne.symm hij))]

theorem core_ok (w : World) {n : ℕ} (D : Fin n → Fin n → XR ℝ) (k : ℤ) (metric : String)
    (test : Option (List ℤ)) (nJobs : ℤ) (hj : 1 ≤ jobs w nJobs) (t : Fin (trainInd n test).length)
    (h : Np.wrap (trainInd n test).length (kthOf metric n k) = some t) :
    core w D k metric test nJobs = .ok (result D metric (trainInd n test) t) := by
  have hcl : ∀ r : Fin n → XR ℝ, mirror (selfValue metric) (fun i j =>
        entry metric (Np.fillDiagonal D (exclude metric) i j) (r i) (r j)) =
      mirror (selfValue metric) (fun i j => entry metric (D i j) (r i) (r j)) := by
    intro r
    apply mirror_congr
    intro i j hij
    have : i.val ≠ j.val := by have : i.val < j.val := hij; omega
    simp [Np.fillDiagonal, this]
  unfold core
  by_cases h1 : jobs w nJobs = 1
  · simp only [h1, gt_iff_lt, lt_irrefl, if_false, if_true,
      radiiSerial_some w.part _ _ _ t h]
    refine Eq.trans (b := Except.ok _) rfl ?_
    rw [secSerial_fill, hcl]
    rfl
  · have h2 : jobs w nJobs > 1 := by omega
    simp only [h1, h2, if_false, if_true, radiiParallel_some w _ _ _ t h]
    refine Eq.trans (b := Except.ok _) rfl ?_
    rw [secParallel_fill, hcl]
    rfl

theorem core_error (w : World) {n : ℕ} (hn : 0 < n) (D : Fin n → Fin n → XR ℝ) (k : ℤ) (metric : String)
    (test : Option (List ℤ)) (nJobs : ℤ)
    (h : Np.wrap (trainInd n test).length (kthOf metric n k) = none) :
    core w D k metric test nJobs = .error .valueError := by
  unfold core
  by_cases h2 : jobs w nJobs > 1
  · simp only [h2, if_true, radiiParallel_none w hn _ _ _ h]
    rfl
  · simp only [h2, if_false, radiiSerial_none w.part _ _ _ h]
    rfl

theorem core_unbound (w : World) {n : ℕ} (D : Fin n → Fin n → XR ℝ) (k : ℤ) (metric : String)
    (test : Option (List ℤ)) (nJobs : ℤ) (hj : jobs w nJobs < 1) (t : Fin (trainInd n test).length)
    (h : Np.wrap (trainInd n test).length (kthOf metric n k) = some t) :
    core w D k metric test nJobs = .error .unboundLocalError := by
  unfold core
  have h2 : ¬ jobs w nJobs > 1 := by omega
  have h1 : ¬ jobs w nJobs = 1 := by omega
  simp only [h1, h2, if_false, radiiSerial_some w.part _ _ _ t h]
  rfl

theorem setSelf_apply {α : Type} {n s : ℕ} (idx : Fin s → Fin n) (v : α) (M : Fin n → Fin s → α) (a : Fin n) (b : Fin s) :
    setSelf idx v M a b = if a = idx b then v else M a b := by
  unfold setSelf
  have key : ∀ (l : List (Fin s)) (M : Fin n → Fin s → α),
      l.foldl (fun (M : Fin n → Fin s → α) (j : Fin s) =>
        fun a b => if a = idx j ∧ b = j then v else M a b) M a b
        = if b ∈ l ∧ a = idx b then v else M a b := by
    intro l
    induction l with
    | nil => intro M; simp
    | cons j l ih =>
      intro M
      rw [List.foldl_cons, ih]
      by_cases hb : b ∈ l
      · by_cases ha : a = idx b
        · simp [hb, ha]
        · have : ¬ (a = idx j ∧ b = j) := by rintro ⟨h1, rfl⟩; exact ha h1
          simp only [hb, ha, and_false, if_false, this]
      · by_cases hbj : b = j
        · subst hbj; simp [hb]
        · simp [hb, hbj]
  rw [key]
  simp

theorem fillRows_apply {K : Type} [Zero K] {n s : ℕ} (rows : List (Fin n)) (f : Fin n → Fin s → XR K) (a : Fin n) :
    fillRows rows f a = if a ∈ rows then f a else fun _ => .fin 0 := by
  unfold fillRows
  have key : ∀ (l : List (Fin n)) (M : Fin n → Fin s → XR K),
      l.foldl (fun (M : Fin n → Fin s → XR K) (i : Fin n) => Function.update M i (f i)) M a
        = if a ∈ l then f a else M a := by
    intro l
    induction l with
    | nil => intro M; simp
    | cons j l ih =>
      intro M
      rw [List.foldl_cons, ih]
      by_cases ha : a ∈ l
      · simp [ha]
      · by_cases haj : a = j
        · subst haj; simp [ha]
        · simp [ha, haj]
  rw [key]

end LS
end HubToolbox
