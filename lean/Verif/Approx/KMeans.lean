import Verif.Approx.KMeansModel
import Verif.Approx.Spec
import Verif.Tac

/-!
# `kmeanspp`
-/

set_option autoImplicit false

namespace HubToolbox.Approx

open HubToolbox

variable {K : Type} [Field K] [LinearOrder K] [IsStrictOrderedRing K]

/-- The elements of an ascending array below a bound are its first ones. -/
theorem search_iff {n : ℕ} (p : Fin n → Bool) (hp : ∀ i j : Fin n, i ≤ j → p j = true → p i = true) (i : Fin n) :
    p i = true ↔ i.val < (List.finRange n).countP p := by
  have hc : (List.finRange n).countP p = (Finset.univ.filter (fun i => p i = true)).card := by
    rw [List.countP_eq_length_filter, ← List.toFinset_card_of_nodup ((List.nodup_finRange n).filter _)]
    congr 1
    ext x
    simp
  rw [hc]
  constructor
  · intro h
    have hsub : Finset.Iic i ⊆ Finset.univ.filter (fun i => p i = true) := by
      intro x hx
      simp only [Finset.mem_filter, Finset.mem_univ, true_and]
      exact hp x i (Finset.mem_Iic.1 hx) h
    have := Finset.card_le_card hsub
    rw [Fin.card_Iic] at this
    omega
  · intro h
    by_contra hn
    have hsub : Finset.univ.filter (fun i => p i = true) ⊆ Finset.Iio i := by
      intro x hx
      simp only [Finset.mem_filter, Finset.mem_univ, true_and] at hx
      rw [Finset.mem_Iio]
      by_contra hlt
      exact hn (hp i x (not_lt.1 hlt) hx)
    have := Finset.card_le_card hsub
    rw [Fin.card_Iio] at this
    omega

theorem cumsum_mono {n : ℕ} (w : Fin n → K) (hw : ∀ i, 0 ≤ w i) {i j : Fin n} (h : i ≤ j) :
    Np.cumsum w i ≤ Np.cumsum w j := by
  refine Finset.sum_le_sum_of_subset_of_nonneg ?_ (fun x _ _ => hw x)
  intro x hx
  simp only [Finset.mem_filter, Finset.mem_univ, true_and] at hx ⊢
  exact hx.trans h

theorem search_cumsum {n : ℕ} (w : Fin n → K) (hw : ∀ i, 0 ≤ w i) (v : K) (i : Fin n) :
    Np.cumsum w i < v ↔ i.val < Np.searchLeft (Np.cumsum w) v := by
  have := search_iff (fun i => decide (Np.cumsum w i < v))
    (fun i j hij hj => by
      simp only [decide_eq_true_eq] at hj ⊢
      exact (cumsum_mono w hw hij).trans_lt hj) i
  simpa [Np.searchLeft] using this

/-- The candidate is the value drawn by inversion. -/
theorem candidate_drawn {n : ℕ} (hn : 0 < n) (w : Fin n → K) (hw : ∀ i, 0 ≤ w i) (u : K) (hu : u < 1) :
    ∃ j, candidate w u = .ok j ∧ Spec.DrawnBy w u j := by
  have hpot : 0 ≤ ∑ i, w i := Finset.sum_nonneg (fun i _ => hw i)
  have hlast : Np.cumsum w ⟨n - 1, by omega⟩ = ∑ i, w i := by
    unfold Np.cumsum
    congr 1
    ext x
    simp only [Finset.mem_filter, Finset.mem_univ, true_and, iff_true]
    rw [Fin.le_def]
    have := x.isLt
    show x.val ≤ n - 1
    omega
  have hlt : Np.searchLeft (Np.cumsum w) (u * ∑ i, w i) < n := by
    by_contra hc
    have h1 := (search_cumsum w hw (u * ∑ i, w i) ⟨n - 1, by omega⟩).2 (by show n - 1 < _; omega)
    rw [hlast] at h1
    have : u * ∑ i, w i ≤ 1 * ∑ i, w i := mul_le_mul_of_nonneg_right hu.le hpot
    linarith
  refine ⟨⟨_, hlt⟩, by unfold candidate; exact dif_pos hlt, ?_, ?_⟩
  · intro i hi
    exact (search_cumsum w hw _ i).2 hi
  · have h1 := (search_cumsum w hw (u * ∑ i, w i) ⟨_, hlt⟩).not.2 (lt_irrefl _)
    exact not_lt.1 h1

theorem drawn_unique {n : ℕ} {w : Fin n → K} {u : K} {j j' : Fin n} (h : Spec.DrawnBy w u j)
    (h' : Spec.DrawnBy w u j') : j = j' := by
  rcases lt_trichotomy j j' with hlt | rfl | hlt
  · exact absurd (h'.1 j hlt) (not_lt.2 h.2)
  · rfl
  · exact absurd (h.1 j' hlt) (not_lt.2 h'.2)

/-- With a positive random number only points of positive weight are drawn. -/
theorem drawn_pos {n : ℕ} {w : Fin n → K} (hw : ∀ i, 0 ≤ w i) {u : K} (hu : 0 < u) {j : Fin n}
    (h : Spec.DrawnBy w u j) (hp : ∃ x, 0 < w x) : 0 < w j := by
  have hpot : 0 < ∑ i, w i := by
    obtain ⟨x, hx⟩ := hp
    exact Finset.sum_pos' (fun i _ => hw i) ⟨x, Finset.mem_univ x, hx⟩
  have hv : 0 < u * ∑ i, w i := mul_pos hu hpot
  by_contra hc
  have hz : w j = 0 := le_antisymm (not_lt.1 hc) (hw j)
  rcases Nat.eq_zero_or_pos j.val with h0 | h0
  · have : ∑ x ∈ Finset.univ.filter (fun x => x ≤ j), w x = 0 := by
      refine Finset.sum_eq_zero (fun x hx => ?_)
      simp only [Finset.mem_filter, Finset.mem_univ, true_and, Fin.le_def] at hx
      have : x = j := Fin.ext (by omega)
      rw [this, hz]
    have := h.2
    linarith
  · have h1 := h.1 ⟨j.val - 1, by omega⟩ (by rw [Fin.lt_def]; show j.val - 1 < j.val; omega)
    have h2 : ∑ x ∈ Finset.univ.filter (fun x => x ≤ j), w x =
        ∑ x ∈ Finset.univ.filter (fun x => x ≤ (⟨j.val - 1, by omega⟩ : Fin n)), w x := by
      symm
      refine Finset.sum_subset ?_ ?_
      · intro x hx
        simp only [Finset.mem_filter, Finset.mem_univ, true_and, Fin.le_def] at hx ⊢
        omega
      · intro x hx hx'
        simp only [Finset.mem_filter, Finset.mem_univ, true_and, Fin.le_def] at hx hx'
        have : x = j := Fin.ext (by omega)
        rw [this, hz]
    have h3 := h.2
    rw [h2] at h3
    linarith

/-- Potential after adding a candidate. -/
def potWith {n : ℕ} (d : Fin n → Fin n → K) (closest : Fin n → K) (c : Fin n) : K :=
  ∑ x, min (closest x) (d c x)

theorem foldl_trial {n : ℕ} (d : Fin n → Fin n → K) (closest : Fin n → K) (l : List (Fin n)) (b : Fin n) :
    ∃ b', (b' = b ∨ b' ∈ l) ∧
      l.foldl (trial d closest) (some (b, potWith d closest b, fun x => min (closest x) (d b x))) =
        some (b', potWith d closest b', fun x => min (closest x) (d b' x)) ∧
      potWith d closest b' ≤ potWith d closest b ∧ ∀ c ∈ l, potWith d closest b' ≤ potWith d closest c := by
  induction l generalizing b with
  | nil => exact ⟨b, Or.inl rfl, rfl, le_rfl, by simp⟩
  | cons c l ih =>
    by_cases h : potWith d closest c < potWith d closest b
    · obtain ⟨b', hm, hf, hb, hl⟩ := ih c
      refine ⟨b', ?_, ?_, hb.trans h.le, ?_⟩
      · rcases hm with rfl | hm
        · right; simp
        · right; simp [hm]
      · rw [List.foldl_cons, ← hf]
        congr 1
        show (if potWith d closest c < potWith d closest b then _ else _) = _
        rw [if_pos h]; rfl
      · intro x hx
        rcases List.mem_cons.1 hx with rfl | hx
        · exact hb
        · exact hl x hx
    · obtain ⟨b', hm, hf, hb, hl⟩ := ih b
      refine ⟨b', ?_, ?_, hb, ?_⟩
      · rcases hm with rfl | hm
        · exact Or.inl rfl
        · right; simp [hm]
      · rw [List.foldl_cons, ← hf]
        congr 1
        show (if potWith d closest c < potWith d closest b then _ else _) = _
        rw [if_neg h]
      · intro x hx
        rcases List.mem_cons.1 hx with rfl | hx
        · exact hb.trans (not_lt.1 h)
        · exact hl x hx

theorem foldl_trial_none {n : ℕ} (d : Fin n → Fin n → K) (closest : Fin n → K) (l : List (Fin n)) (hl : l ≠ []) :
    ∃ b' ∈ l, l.foldl (trial d closest) none =
        some (b', potWith d closest b', fun x => min (closest x) (d b' x)) ∧
      ∀ c ∈ l, potWith d closest b' ≤ potWith d closest c := by
  cases l with
  | nil => exact absurd rfl hl
  | cons b l =>
    obtain ⟨b', hm, hf, hb, hl⟩ := foldl_trial d closest l b
    refine ⟨b', ?_, ?_, ?_⟩
    · rcases hm with rfl | hm <;> simp_all
    · rw [List.foldl_cons]; exact hf
    · intro c hc
      rcases List.mem_cons.1 hc with rfl | hc
      · exact hb
      · exact hl c hc

theorem tabulateM_ok {α : Type} {n : ℕ} (f : Fin n → Py α) (g : Fin n → α) (h : ∀ i, f i = .ok (g i)) :
    Np.tabulateM f = .ok g := by
  induction n with
  | zero =>
    unfold Np.tabulateM
    exact congrArg Except.ok (funext fun i => i.elim0)
  | succ n ih =>
    unfold Np.tabulateM
    rw [h 0, ih (fun i => f i.succ) (fun i => g i.succ) (fun i => h i.succ)]
    simp only [bind, Except.bind, pure, Except.pure]
    refine congrArg Except.ok (funext fun i => ?_)
    refine Fin.cases ?_ (fun i => ?_) i <;> simp

/-- `b` is chosen correctly as centre number `c`, given the previous centres `S`. -/
def StepOK {n : ℕ} (d : Fin n → Fin n → K) (r : Rand K) (trials c : ℕ) (S : Finset (Fin n)) (hS : S.Nonempty)
    (b : Fin n) : Prop :=
  ∃ t < trials, Spec.DrawnBy (Spec.toNearest d S hS) (r.sample c t) b ∧
    ∀ t' < trials, ∀ j, Spec.DrawnBy (Spec.toNearest d S hS) (r.sample c t') j →
      Spec.potential d (insert b S) (Finset.insert_nonempty b S) ≤
        Spec.potential d (insert j S) (Finset.insert_nonempty j S)

theorem toNearest_insert {n : ℕ} (d : Fin n → Fin n → K) (S : Finset (Fin n)) (hS : S.Nonempty) (b x : Fin n) :
    Spec.toNearest d (insert b S) (Finset.insert_nonempty b S) x = min (Spec.toNearest d S hS x) (d b x) := by
  unfold Spec.toNearest
  rw [Finset.inf'_insert hS, inf_comm]

theorem toNearest_nonneg {n : ℕ} (d : Fin n → Fin n → K) (hd : ∀ i j, 0 ≤ d i j) (S : Finset (Fin n))
    (hS : S.Nonempty) (x : Fin n) : 0 ≤ Spec.toNearest d S hS x :=
  Finset.le_inf' hS _ (fun c _ => hd c x)

theorem nextCentre_ok {n : ℕ} (hn : 0 < n) (d : Fin n → Fin n → K) (hd : ∀ i j, 0 ≤ d i j) (r : Rand K)
    (trials c : ℕ) (ht : 0 < trials) (S : Finset (Fin n)) (hS : S.Nonempty) :
    ∃ b, nextCentre d r trials c (Spec.toNearest d S hS) =
        .ok (b, Spec.toNearest d (insert b S) (Finset.insert_nonempty b S)) ∧ StepOK d r trials c S hS b := by
  have hw := toNearest_nonneg d hd S hS
  choose g hg hdr using fun t : Fin trials => candidate_drawn hn (Spec.toNearest d S hS) hw (r.sample c t) (r.lt_one c t)
  have hne : List.ofFn g ≠ [] := by
    intro h
    have := congrArg List.length h
    simp at this; omega
  obtain ⟨b, hb, hf, hmin⟩ := foldl_trial_none d (Spec.toNearest d S hS) (List.ofFn g) hne
  refine ⟨b, ?_, ?_⟩
  · unfold nextCentre
    rw [tabulateM_ok _ g hg]
    simp only [bind, Except.bind]
    rw [hf]
    refine congrArg Except.ok (Prod.ext rfl (funext fun x => ?_))
    exact (toNearest_insert d S hS b x).symm
  · obtain ⟨t, rfl⟩ := (List.mem_ofFn' ..).1 hb
    refine ⟨t.val, t.isLt, hdr t, ?_⟩
    intro t' ht' j hj
    have : j = g ⟨t', ht'⟩ := drawn_unique hj (hdr ⟨t', ht'⟩)
    rw [this]
    have h1 := hmin (g ⟨t', ht'⟩) ((List.mem_ofFn' ..).2 ⟨_, rfl⟩)
    have e : ∀ b, Spec.potential d (insert b S) (Finset.insert_nonempty b S) =
        potWith d (Spec.toNearest d S hS) b := fun b => Finset.sum_congr rfl (fun x _ => toNearest_insert d S hS b x)
    rw [e, e]
    exact h1

theorem centresFrom_ok {n : ℕ} (hn : 0 < n) (d : Fin n → Fin n → K) (hd : ∀ i j, 0 ≤ d i j) (r : Rand K)
    (trials : ℕ) (ht : 0 < trials) (k c : ℕ) (S : Finset (Fin n)) (hS : S.Nonempty) :
    ∃ l, centresFrom d r trials k c (Spec.toNearest d S hS) = .ok l ∧ l.length = k ∧
      ∀ p (hp : p < l.length), StepOK d r trials (c + p) (S ∪ (l.take p).toFinset)
        (hS.mono Finset.subset_union_left) l[p] := by
  induction k generalizing c S with
  | zero => exact ⟨[], rfl, rfl, fun p hp => absurd hp (Nat.not_lt_zero p)⟩
  | succ k ih =>
    obtain ⟨b, hb, hok⟩ := nextCentre_ok hn d hd r trials c ht S hS
    obtain ⟨l, hl, hlen, hall⟩ := ih (c + 1) (insert b S) (Finset.insert_nonempty b S)
    refine ⟨b :: l, ?_, by simp [hlen], ?_⟩
    · unfold centresFrom
      rw [hb]
      simp only [bind, Except.bind]
      rw [hl]
      rfl
    · intro p hp
      cases p with
      | zero => simpa using hok
      | succ p =>
        have hp' : p < l.length := by simpa using hp
        have h1 := hall p hp'
        have e : insert b S ∪ (l.take p).toFinset = S ∪ ((b :: l).take (p + 1)).toFinset := by
          ext x; simp only [List.take_succ_cons, List.toFinset_cons, Finset.mem_union, Finset.mem_insert,
            List.mem_toFinset]; tauto
        have e2 : c + 1 + p = c + (p + 1) := by omega
        simp only [List.getElem_cons_succ]
        rw [e2] at h1
        simp only [e] at h1
        exact h1

/-- The metric is one of those `kmeanspp` accepts. -/
def KMetric (metric : String) : Prop := metric = "sqeuclidean" ∨ metric = "cosine" ∨ metric = "precomputed"

theorem kmeanspp_ok {n : ℕ} (hn : 0 < n) (d : Fin n → Fin n → K) (hd : ∀ i j, 0 ≤ d i j) (metric : String)
    (hmet : KMetric metric) (k : ℕ) (r : Rand K) (trials : ℕ) (ht : 0 < trials) :
    ∃ l, kmeanspp d metric (k + 1) (some r) trials = .ok (r.randint hn :: l) ∧ l.length = k ∧
      ∀ p (hp : p < l.length), StepOK d r trials (1 + p) (insert (r.randint hn) (l.take p).toFinset)
        (Finset.insert_nonempty _ _) l[p] := by
  obtain ⟨l, hl, hlen, hall⟩ := centresFrom_ok hn d hd r trials ht k 1 {r.randint hn} (Finset.singleton_nonempty _)
  have e : Spec.toNearest d {r.randint hn} (Finset.singleton_nonempty _) = d (r.randint hn) := by
    funext x; simp [Spec.toNearest]
  rw [e] at hl
  refine ⟨l, ?_, hlen, ?_⟩
  · unfold kmeanspp
    rw [if_neg (by rcases hmet with h | h | h <;> simp [h])]
    simp only [hn, ↓reduceDIte]
    rw [hl]
    rfl
  · intro p hp
    have h1 := hall p hp
    have e : ({r.randint hn} : Finset (Fin n)) ∪ (l.take p).toFinset = insert (r.randint hn) (l.take p).toFinset :=
      (Finset.insert_eq _ _).symm
    simp only [e] at h1
    exact h1

/-- C116: for valid arguments `kmeanspp` always returns the requested number of vantage points, which are rows of the
data (no index is out of range), whatever the random numbers are. -/
theorem C116_total {n : ℕ} (hn : 0 < n) (d : Fin n → Fin n → K) (hd : ∀ i j, 0 ≤ d i j) (metric : String)
    (hmet : KMetric metric) (nClusters : ℕ) (hk : 0 < nClusters) (r : Rand K) (trials : ℕ) (ht : 0 < trials) :
    ∃ ind, kmeanspp d metric nClusters (some r) trials = .ok ind ∧ ind.length = nClusters := by
  obtain ⟨k, rfl⟩ : ∃ k, nClusters = k + 1 := ⟨nClusters - 1, by omega⟩
  obtain ⟨l, hl, hlen, _⟩ := kmeanspp_ok hn d hd metric hmet k r trials ht
  exact ⟨_, hl, by simp [hlen]⟩

/-- C117: each vantage point after the first is drawn with probability proportional to the (squared) distance to the
nearest previous one, and among the local trials one with the lowest potential is taken. -/
theorem C117_seeding {n : ℕ} (hn : 0 < n) (d : Fin n → Fin n → K) (hd : ∀ i j, 0 ≤ d i j) (metric : String)
    (hmet : KMetric metric) (nClusters : ℕ) (r : Rand K) (trials : ℕ) (ht : 0 < trials)
    (ind : List (Fin n)) (h : kmeanspp d metric nClusters (some r) trials = .ok ind)
    (c : ℕ) (hc : 0 < c) (hcl : c < ind.length) :
    ∃ hS : (ind.take c).toFinset.Nonempty, ∃ t < trials,
      Spec.DrawnBy (Spec.toNearest d (ind.take c).toFinset hS) (r.sample c t) ind[c] ∧
      ∀ t' < trials, ∀ j, Spec.DrawnBy (Spec.toNearest d (ind.take c).toFinset hS) (r.sample c t') j →
        Spec.potential d (insert ind[c] (ind.take c).toFinset) (Finset.insert_nonempty _ _) ≤
          Spec.potential d (insert j (ind.take c).toFinset) (Finset.insert_nonempty _ _) := by
  obtain ⟨k, rfl⟩ : ∃ k, nClusters = k + 1 := by
    cases nClusters with
    | zero =>
      unfold kmeanspp at h
      rw [if_neg (by rcases hmet with h | h | h <;> simp [h])] at h
      simp only [hn, ↓reduceDIte] at h
      cases h
    | succ k => exact ⟨k, rfl⟩
  obtain ⟨l, hl, hlen, hall⟩ := kmeanspp_ok hn d hd metric hmet k r trials ht
  rw [hl] at h; cases h
  obtain ⟨p, rfl⟩ : ∃ p, c = p + 1 := ⟨c - 1, by omega⟩
  have hpl : p < l.length := by simpa using hcl
  have h1 := hall p hpl
  have e : ((r.randint hn :: l).take (p + 1)).toFinset = insert (r.randint hn) (l.take p).toFinset := by
    simp
  have e2 : 1 + p = p + 1 := by omega
  rw [e2] at h1
  have key : ∀ S : Finset (Fin n), S = insert (r.randint hn) (l.take p).toFinset →
      ∃ hS : S.Nonempty, StepOK d r trials (p + 1) S hS l[p] := by
    rintro _ rfl; exact ⟨_, h1⟩
  exact key _ e

/-- C118 holds if the random numbers are not zero and there are enough different points: then all vantage points are
different, even at positive distance from each other. -/
theorem C118_distinct_partial {n : ℕ} (hn : 0 < n) (d : Fin n → Fin n → K) (hd : ∀ i j, 0 ≤ d i j)
    (metric : String) (hmet : KMetric metric) (nClusters : ℕ) (r : Rand K)
    (hr : ∀ c t, 0 < r.sample c t) (trials : ℕ) (ht : 0 < trials)
    (hmany : ∀ S : Finset (Fin n), S.card < nClusters → ∃ x, ∀ c ∈ S, 0 < d c x)
    (ind : List (Fin n)) (h : kmeanspp d metric nClusters (some r) trials = .ok ind) :
    ind.Pairwise (fun a b => 0 < d a b) := by
  rw [List.pairwise_iff_getElem]
  intro a b ha hb hab
  obtain ⟨hS, t, ht', hdr, _⟩ := C117_seeding hn d hd metric hmet nClusters r trials ht ind h b (by omega) hb
  have hlen : ind.length = nClusters := by
    obtain ⟨l, hl, hlen⟩ := C116_total hn d hd metric hmet nClusters (by
      rcases Nat.eq_zero_or_pos nClusters with rfl | h0
      · unfold kmeanspp at h
        rw [if_neg (by rcases hmet with h | h | h <;> simp [h])] at h
        simp only [hn, ↓reduceDIte] at h
        cases h
      · exact h0) r trials ht
    rw [h] at hl; cases hl; exact hlen
  obtain ⟨x, hx⟩ := hmany (ind.take b).toFinset (by
    refine (List.toFinset_card_le _).trans_lt ?_
    rw [List.length_take]; omega)
  have hpos := drawn_pos (toNearest_nonneg d hd _ hS) (hr b t) hdr
    ⟨x, by unfold Spec.toNearest; rw [Finset.lt_inf'_iff]; exact hx⟩
  have hle : Spec.toNearest d (ind.take b).toFinset hS ind[b] ≤ d ind[a] ind[b] := by
    refine Finset.inf'_le _ ?_
    rw [List.mem_toFinset, List.mem_take_iff_getElem]
    exact ⟨a, by omega, rfl⟩
  exact hpos.trans_le hle

/-- Two points at distance one. -/
def twoPts : Fin 2 → Fin 2 → ℚ := fun i j => if i = j then 0 else 1

/-- A generator which returns the first index and the same value every time. -/
def constRand (u : ℚ) (h0 : 0 ≤ u) (h1 : u < 1) : Rand ℚ where
  randint h := ⟨0, h⟩
  sample _ _ := u
  nonneg _ _ := h0
  lt_one _ _ := h1

/-- C118 is violated: a random value of zero selects the first point again, although it is a vantage point already and
there is another one. -/
theorem C118_violated : ∃ (r : Rand ℚ) (ind : List (Fin 2)),
    kmeanspp twoPts "sqeuclidean" 2 (some r) 2 = .ok ind ∧ ¬ ind.Nodup :=
  ⟨constRand 0 le_rfl one_pos, [0, 0], by decide +kernel, by decide⟩

/-- C118 is violated: with fewer different points than vantage points some are returned twice. -/
theorem C118_duplicates_violated : ∃ (r : Rand ℚ) (ind : List (Fin 3)), (∀ c t, 0 < r.sample c t) ∧
    kmeanspp (fun i j : Fin 3 => if (i = 2 ↔ j = 2) then (0 : ℚ) else 1) "sqeuclidean" 3 (some r) 2 = .ok ind ∧
      ¬ ind.Nodup :=
  ⟨constRand (1/2) (by norm_num) (by norm_num), [0, 2, 0], fun _ _ => by norm_num [constRand],
    by decide +kernel, by decide⟩

/-- C119 is violated: the default `random_state=None` makes every call fail. -/
theorem C119_violated {n : ℕ} (d : Fin n → Fin n → K) (metric : String) (hmet : KMetric metric)
    (nClusters trials : ℕ) : kmeanspp d metric nClusters none trials = .error .attributeError := by
  unfold kmeanspp
  rw [if_neg (by rcases hmet with h | h | h <;> simp [h])]

/-- C119: other metrics raise `ValueError`. -/
theorem C119_metric {n : ℕ} (d : Fin n → Fin n → K) (metric : String) (hmet : ¬ KMetric metric)
    (nClusters trials : ℕ) (random : Option (Rand K)) :
    kmeanspp d metric nClusters random trials = .error .valueError := by
  unfold kmeanspp
  rw [if_pos (by simpa [KMetric, not_or] using hmet)]

/-- Four points on a line with their squared distances. -/
def line4 : Fin 4 → Fin 4 → ℚ := fun i j =>
  ((![0, 1, 4, 10] : Fin 4 → ℚ) i - (![0, 1, 4, 10] : Fin 4 → ℚ) j) ^ 2

-- The hypotheses of C116 - C118 can be met, with two local trials.
example : kmeanspp line4 "sqeuclidean" 3 (some (constRand (1/8) (by norm_num) (by norm_num))) 2 = .ok [0, 2, 3] := by
  decide +kernel

example : ∀ S : Finset (Fin 4), S.card < 3 → ∃ x, ∀ c ∈ S, 0 < line4 c x := by
  decide +kernel

end HubToolbox.Approx
