import Verif.Approx.MP
import Verif.Approx.Finite
import Mathlib.Data.List.GetD

/-!
# Approximate empirical Mutual Proximity with an index of nearest neighbours
-/

set_option autoImplicit false

namespace HubToolbox.Approx

open HubToolbox

variable {K : Type} [Field K] [LinearOrder K] [IsStrictOrderedRing K]

theorem mem_take_finRange {α : Type} {k : ℕ} (m : ℕ) (f : Fin k → α) (y : α) :
    y ∈ ((List.finRange k).take m).map f ↔ ∃ c : Fin k, c.val < m ∧ f c = y := by
  simp only [List.mem_map, List.mem_take_iff_getElem, List.getElem_finRange]
  constructor
  · rintro ⟨c, ⟨i, hi, rfl⟩, rfl⟩
    simp only [List.length_finRange, lt_min_iff] at hi
    exact ⟨⟨i, hi.2⟩, hi.1, rfl⟩
  · rintro ⟨c, hc, rfl⟩
    exact ⟨c, ⟨c.val, by simp [hc], by simp⟩, rfl⟩

/-- The largest distance of an ascending answer is the last one. -/
theorem amax_sorted {n : ℕ} (a : Answer K n) (ha : a ≠ []) (hs : a.Pairwise (fun p q => p.2 ≤ q.2)) :
    Np.amax (a.map (fun p => (.fin p.2 : XR K))) = some (.fin (a.getLast ha).2) := by
  obtain ⟨c, hc, hm, hl⟩ := amax_fin (a.map (fun p => (.fin p.2 : XR K)))
    (by intro x hx; obtain ⟨p, _, rfl⟩ := List.mem_map.1 hx; rfl) (by simpa using ha)
  rw [hc]
  congr 2
  obtain ⟨p, hp, hpc⟩ := List.mem_map.1 hm
  have hpc' : p.2 = c := XR.fin.inj hpc
  refine le_antisymm ?_ (hl _ (List.mem_map.2 ⟨a.getLast ha, List.getLast_mem ha, rfl⟩))
  rw [← hpc']
  obtain ⟨i, hi, rfl⟩ := List.mem_iff_getElem.1 hp
  rw [List.getLast_eq_getElem]
  rcases Nat.lt_or_ge i (a.length - 1) with h | h
  · exact List.pairwise_iff_getElem.1 hs _ _ _ _ h
  · have : i = a.length - 1 := by omega
    subst this; exact le_rfl

theorem min_lt_length {α : Type} {a : List α} (ha : a ≠ []) (c : ℕ) : min c (a.length - 1) < a.length := by
  have := List.length_pos_iff.2 ha
  omega

/-- A padded row repeats the last neighbour. -/
theorem padRow_all {n : ℕ} (k : ℕ) (a : Answer K n) (ha : a ≠ []) (hs : a.Pairwise (fun p q => p.2 ≤ q.2)) :
    padRow k a a = .ok (fun c => a[min c.val (a.length - 1)]'(min_lt_length ha _)) := by
  unfold padRow
  rw [List.getLast?_eq_some_getLast ha, amax_sorted a ha hs]
  refine congrArg Except.ok (funext fun c => ?_)
  by_cases h : c.val < a.length
  · rw [List.getD_eq_getElem _ _ h]
    congr 1
    omega
  · rw [List.getD_eq_default _ _ (by omega)]
    show a.getLast ha = _
    rw [List.getLast_eq_getElem]
    congr 1
    omega

theorem padRow_tail {n : ℕ} (k : ℕ) (a : Answer K n) (ha : a ≠ []) (hs : a.Pairwise (fun p q => p.2 ≤ q.2)) :
    padRow k a.tail a = .ok (fun c => a[min (c.val + 1) (a.length - 1)]'(min_lt_length ha _)) := by
  unfold padRow
  rw [List.getLast?_eq_some_getLast ha, amax_sorted a ha hs]
  refine congrArg Except.ok (funext fun c => ?_)
  by_cases h : c.val < a.tail.length
  · rw [List.getD_eq_getElem _ _ h, List.getElem_tail]
    congr 1
    rw [List.length_tail] at h
    omega
  · rw [List.getD_eq_default _ _ (by omega)]
    show a.getLast ha = _
    rw [List.getLast_eq_getElem]
    congr 1
    rw [List.length_tail] at h
    omega

/-- An exact answer with room for everything lists every point. -/
theorem ExactAnswer.all {n k : ℕ} {dq : Fin n → K} {a : Answer K n} (h : Spec.ExactAnswer dq k a) (hk : n ≤ k)
    (x : Fin n) : ∃ (m : ℕ) (hm : m < a.length), (a[m]).1 = x := by
  have hlen : (a.map Prod.fst).length = n := by rw [List.length_map, h.length]; omega
  have hmem : x ∈ a.map Prod.fst := by
    have hcard : (a.map Prod.fst).toFinset.card = n := by
      rw [List.toFinset_card_of_nodup h.nodup, hlen]
    have : (a.map Prod.fst).toFinset = Finset.univ :=
      Finset.eq_univ_of_card _ (by rw [hcard, Fintype.card_fin])
    have hx := Finset.mem_univ x
    rw [← this] at hx
    simpa using hx
  obtain ⟨p, hp, rfl⟩ := List.mem_map.1 hmem
  obtain ⟨m, hm, rfl⟩ := List.mem_iff_getElem.1 hp
  exact ⟨m, hm, rfl⟩

theorem sorted_le {n : ℕ} {a : Answer K n} (hs : a.Pairwise (fun p q => p.2 ≤ q.2)) {i j : ℕ} (hij : i ≤ j)
    (hj : j < a.length) : (a[i]'(by omega)).2 ≤ (a[j]).2 := by
  rcases Nat.lt_or_ge i j with h | h
  · exact List.pairwise_iff_getElem.1 hs _ _ _ _ h
  · have : i = j := by omega
    subst this; exact le_rfl

/-- C123 holds without ties: if the index answers exactly, as many neighbours as there are objects are requested, no two
training objects coincide and the distances of each test object are all different, then the secondary distances are
Mutual Proximity with respect to all training objects. `post` is a transformation of distances which is increasing, such
as squaring. -/
theorem C123_exact_partial {n t k : ℕ} (hn : 0 < n) (hk : n ≤ k) (dTrain : Fin n → Fin n → K)
    (dTest : Fin t → Fin n → K) (trainQuery : Fin n → ℕ → Answer K n) (testQuery : Fin t → ℕ → Answer K n)
    (post : K → K) (hpost : ∀ a b, 0 ≤ a → 0 ≤ b → (post a ≤ post b ↔ a ≤ b))
    (hd0 : ∀ i, dTrain i i = 0) (hdpos : ∀ i j, i ≠ j → 0 < dTrain i j) (hte : ∀ i j, 0 ≤ dTest i j)
    (hinj : ∀ i, Function.Injective (dTest i))
    (htrain : ∀ i, Spec.ExactAnswer (dTrain i) (k + 1) (trainQuery i (k + 1)))
    (htest : ∀ i, Spec.ExactAnswer (dTest i) k (testQuery i k)) :
    ∃ out, suqhrHnsw trainQuery testQuery post k = .ok out ∧
      (∀ i x, ∃ j, (out i j).1 = x) ∧
      ∀ i j, (out i j).2 = Spec.empiricMP (dTest i) dTrain (out i j).1 := by
  have hne1 : ∀ i, trainQuery i (k + 1) ≠ [] := fun i h => by
    have := (htrain i).length; rw [h] at this; simp at this; omega
  have hne2 : ∀ i, testQuery i k ≠ [] := fun i h => by
    have := (htest i).length; rw [h] at this; simp at this; omega
  have hl1 : ∀ i, (trainQuery i (k + 1)).length = n := fun i => by rw [(htrain i).length]; omega
  have hl2 : ∀ i, (testQuery i k).length = n := fun i => by rw [(htest i).length]; omega
  -- the two neighbour tables
  have hfit : hnswFit trainQuery post k = .ok (fun i c =>
      (((trainQuery i (k + 1))[min (c.val + 1) ((trainQuery i (k + 1)).length - 1)]'(min_lt_length (hne1 i) _)).1,
        post ((trainQuery i (k + 1))[min (c.val + 1) ((trainQuery i (k + 1)).length - 1)]'(min_lt_length (hne1 i) _)).2)) := by
    refine tabulateM_ok _ _ (fun i => ?_)
    simp only
    rw [padRow_tail k _ (hne1 i) (htrain i).sorted]
    rfl
  have htr : hnswTrafo testQuery post k = .ok (fun i c =>
      (((testQuery i k)[min c.val ((testQuery i k).length - 1)]'(min_lt_length (hne2 i) _)).1,
        post ((testQuery i k)[min c.val ((testQuery i k).length - 1)]'(min_lt_length (hne2 i) _)).2)) := by
    refine tabulateM_ok _ _ (fun i => ?_)
    simp only
    rw [padRow_all k _ (hne2 i) (htest i).sorted]
    rfl
  refine ⟨_, by unfold suqhrHnsw; rw [hfit, htr]; rfl, ?_, ?_⟩
  · intro i x
    obtain ⟨m, hm, hx⟩ := ExactAnswer.all (htest i) hk x
    have hmn : m < n := by rw [← hl2 i]; exact hm
    refine ⟨⟨m, by omega⟩, ?_⟩
    have hmin : min m ((testQuery i k).length - 1) = m := by
      have := hl2 i
      omega
    simp only [hmin]
    exact hx
  · intro i j
    simp only
    set a := testQuery i k with ha
    set p := a[min j.val (a.length - 1)]'(min_lt_length (hne2 i) _) with hp
    have hpv : p.2 = dTest i p.1 := (htest i).value p (List.getElem_mem _)
    set b := trainQuery p.1 (k + 1) with hb
    have hb0 : ∀ (h0 : 0 < b.length), (b[0]).1 = p.1 := by
      intro h0
      obtain ⟨m, hm, hx⟩ := ExactAnswer.all (htrain p.1) (by omega) p.1
      have hle := sorted_le (htrain p.1).sorted (Nat.zero_le m) hm
      rw [(htrain p.1).value _ (List.getElem_mem _), (htrain p.1).value _ (List.getElem_mem _), hx, hd0] at hle
      by_contra hc
      exact absurd hle (not_le.2 (hdpos _ _ (Ne.symm hc)))
    unfold mpHnsw Spec.empiricMP
    change 1 - (((List.finRange n).filter (fun x => decide (x ∉
        ((List.finRange k).take (j.val + 1)).map
          (fun c => (a[min c.val (a.length - 1)]'(min_lt_length (hne2 i) _)).1) ++
        ((List.finRange k).take (Np.searchRight (fun c : Fin k =>
          post (b[min (c.val + 1) (b.length - 1)]'(min_lt_length (hne1 _) _)).2) (post p.2))).map
          (fun c => (b[min (c.val + 1) (b.length - 1)]'(min_lt_length (hne1 _) _)).1)))).length : K) / n = _
    congr 3
    rw [← List.toFinset_card_of_nodup ((List.nodup_finRange n).filter _)]
    refine congrArg Finset.card ?_
    ext y
    simp only [List.mem_toFinset, List.mem_filter, List.mem_finRange, true_and, decide_eq_true_eq, List.mem_append,
      Finset.mem_filter, Finset.mem_univ]
    rw [mem_take_finRange, mem_take_finRange]
    have hthr : ∀ c : Fin k, c.val < Np.searchRight (fun c : Fin k =>
        post (b[min (c.val + 1) (b.length - 1)]'(min_lt_length (hne1 _) _)).2) (post p.2) ↔
        (b[min (c.val + 1) (b.length - 1)]'(min_lt_length (hne1 _) _)).2 ≤ p.2 := by
      intro c
      have hbn : ∀ q ∈ b, 0 ≤ q.2 := by
        intro q hq
        rw [(htrain p.1).value q hq]
        by_cases h : p.1 = q.1
        · rw [← h, hd0]
        · exact (hdpos _ _ h).le
      have hpn : 0 ≤ p.2 := by rw [hpv]; exact hte _ _
      have h1 := search_iff (fun c : Fin k => decide
        (post (b[min (c.val + 1) (b.length - 1)]'(min_lt_length (hne1 _) _)).2 ≤ post p.2)) (by
          intro c c' hcc h
          simp only [decide_eq_true_eq] at h ⊢
          rw [hpost _ _ (hbn _ (List.getElem_mem _)) hpn] at h ⊢
          exact (sorted_le (htrain p.1).sorted (by have : c.val ≤ c'.val := hcc; omega) _).trans h) c
      unfold Np.searchRight
      rw [← h1, decide_eq_true_eq, hpost _ _ (hbn _ (List.getElem_mem _)) hpn]
    constructor
    · intro hy
      have hy1 : ¬ ∃ c : Fin k, c.val < j.val + 1 ∧ (a[min c.val (a.length - 1)]'(min_lt_length (hne2 i) _)).1 = y :=
        fun h => hy (Or.inl h)
      have hy2 := fun h => hy (Or.inr h)
      have h1 : dTest i p.1 < dTest i y := by
        obtain ⟨m, hm, hx⟩ := ExactAnswer.all (htest i) hk y
        have hmn : m < n := by rw [← hl2 i]; exact hm
        have hjm : j.val < m := by
          by_contra hc
          exact hy1 ⟨⟨m, by omega⟩, by show m < j.val + 1; omega, by
            have hla : a.length = n := hl2 i
            have hmin : min m (a.length - 1) = m := by omega
            simp only [hmin]
            exact hx⟩
        have hle : p.2 ≤ (a[m]).2 := sorted_le (htest i).sorted (by omega) hm
        rw [hpv, (htest i).value _ (List.getElem_mem _), hx] at hle
        refine lt_of_le_of_ne hle (fun he => ?_)
        have he' := hinj i he
        refine hy1 ⟨j, by omega, ?_⟩
        rw [← he']
      refine ⟨h1, ?_⟩
      by_contra hc
      have hne : p.1 ≠ y := fun he => by rw [he] at h1; exact lt_irrefl _ h1
      obtain ⟨m, hm, hx⟩ := ExactAnswer.all (htrain p.1) (by omega) y
      have hmn : m < n := by rw [← hl1 p.1]; exact hm
      have hm0 : m ≠ 0 := by
        rintro rfl
        exact hne ((hb0 hm).symm.trans hx)
      have hmin : min (m - 1 + 1) (b.length - 1) = m := by
        have hlb : b.length = n := hl1 p.1
        omega
      refine hy2 ⟨⟨m - 1, by omega⟩, ?_, ?_⟩
      · rw [hthr]
        simp only [hmin]
        rw [(htrain p.1).value _ (List.getElem_mem _), hx, hpv]
        exact not_lt.1 hc
      · simp only [hmin]
        exact hx
    · rintro ⟨h1, h2⟩ (⟨c, hc, hcy⟩ | ⟨c, hc, hcy⟩)
      · have hle : (a[min c.val (a.length - 1)]'(min_lt_length (hne2 i) _)).2 ≤ p.2 :=
          sorted_le (htest i).sorted (by change min c.val (a.length - 1) ≤ min j.val (a.length - 1); omega)
            (min_lt_length (hne2 i) _)
        rw [hpv, (htest i).value _ (List.getElem_mem _)] at hle
        have hcy' : (a[min c.val (a.length - 1)]'(min_lt_length (hne2 i) _)).1 = y := hcy
        rw [hcy'] at hle
        exact absurd hle (not_le.2 h1)
      · have hle := (hthr c).1 hc
        rw [hpv, (htrain p.1).value _ (List.getElem_mem _)] at hle
        have hcy' : (b[min (c.val + 1) (b.length - 1)]'(min_lt_length (hne1 _) _)).1 = y := hcy
        rw [hcy'] at hle
        exact absurd hle (not_le.2 h2)

/-- C124: whatever the index answers, the secondary distances are at most one and at least the reciprocal of the number
of training objects. -/
theorem C124_range {n t k : ℕ} (trainQuery : Fin n → ℕ → Answer K n) (testQuery : Fin t → ℕ → Answer K n)
    (post : K → K) (out : Fin t → Fin k → Fin n × K) (h : suqhrHnsw trainQuery testQuery post k = .ok out)
    (i : Fin t) (j : Fin k) : 1 / (n : K) ≤ (out i j).2 ∧ (out i j).2 ≤ 1 := by
  unfold suqhrHnsw at h
  simp only [bind, Except.bind, pure, Except.pure] at h
  cases h1 : hnswFit trainQuery post k with
  | error e => rw [h1] at h; cases h
  | ok train =>
    rw [h1] at h
    cases h2 : hnswTrafo testQuery post k with
    | error e => rw [h2] at h; cases h
    | ok test =>
      rw [h2] at h
      cases h
      unfold mpHnsw
      simp only
      have hx : ∀ l : List (Fin n), (test i j).1 ∈ l → 
          1 / (n : K) ≤ 1 - (((List.finRange n).filter (fun x => decide (x ∉ l))).length : K) / n ∧
          1 - (((List.finRange n).filter (fun x => decide (x ∉ l))).length : K) / n ≤ 1 := by
        intro l hl
        have hn : 0 < n := (test i j).1.pos
        have hn' : (0 : K) < n := by exact_mod_cast hn
        have hlt : ((List.finRange n).filter (fun x => decide (x ∉ l))).length < n := by
          have hle := List.length_filter_lt_length_iff_exists (l := List.finRange n)
            (p := fun x => decide (x ∉ l))
          rw [List.length_finRange] at hle
          exact hle.2 ⟨(test i j).1, List.mem_finRange _, by simp [hl]⟩
        constructor
        · rw [div_le_iff₀ hn', sub_mul, one_mul, div_mul_cancel₀ _ hn'.ne']
          have : (((List.finRange n).filter (fun x => decide (x ∉ l))).length : K) + 1 ≤ n := by exact_mod_cast hlt
          linarith
        · have : (0 : K) ≤ (((List.finRange n).filter (fun x => decide (x ∉ l))).length : K) / n := by positivity
          linarith
      refine hx _ (List.mem_append_left _ ?_)
      rw [mem_take_finRange]
      exact ⟨j, by omega, rfl⟩

/-- Two training points at distance five, and a test point at distance one from both. -/
def tiesTrain : Fin 2 → ℕ → Answer ℚ 2 := fun i _ => if i = 0 then [(0, 0), (1, 5)] else [(1, 0), (0, 5)]

/-- The answers for the test point. -/
def tiesTest : Fin 1 → ℕ → Answer ℚ 2 := fun _ _ => [(0, 1), (1, 1)]

/-- Distances of the training points. -/
def tiesDist : Fin 2 → Fin 2 → ℚ := fun i j => if i = j then 0 else 5

/-- C123 is violated by ties: with an exact index and all neighbours requested, two training objects at the same distance
from the test object get different secondary distances, one of which is wrong. -/
theorem C123_violated :
    (∀ i, Spec.ExactAnswer (tiesDist i) 3 (tiesTrain i 3)) ∧
    (∀ i, Spec.ExactAnswer (fun _ => (1 : ℚ)) 2 (tiesTest i 2)) ∧
    ∃ out : Fin 1 → Fin 2 → Fin 2 × ℚ, suqhrHnsw tiesTrain tiesTest (fun d => d ^ 2) 2 = .ok out ∧
      out 0 0 = (0, 1/2) ∧ out 0 1 = (1, 1) ∧
      Spec.empiricMP (fun _ => (1 : ℚ)) tiesDist 0 = 1 ∧ Spec.empiricMP (fun _ => (1 : ℚ)) tiesDist 1 = 1 := by
  refine ⟨?_, ?_, ?_⟩
  · intro i
    fin_cases i <;>
    exact ⟨by decide, by decide, by decide +kernel, by decide +kernel, by decide +kernel⟩
  · intro i
    fin_cases i
    exact ⟨by decide, by decide, by decide +kernel, by decide +kernel, by decide +kernel⟩
  · obtain ⟨out, h, hp⟩ := of_okAnd (x := suqhrHnsw tiesTrain tiesTest (fun d => d ^ 2) 2)
      (p := fun out => decide (out 0 0 = (0, 1/2) ∧ out 0 1 = (1, 1))) (by decide +kernel)
    have hp' := of_decide_eq_true hp
    exact ⟨out, h, hp'.1, hp'.2, by decide +kernel, by decide +kernel⟩

/-- C125 holds if the index returns each training object as its own nearest neighbour and something else besides: then
no object is among its own neighbours. -/
theorem C125_self_partial {n k : ℕ} (query : Fin n → ℕ → Answer K n) (post : K → K)
    (out : Fin n → Fin k → Fin n × K) (h : hnswFit query post k = .ok out) (i : Fin n)
    (hfirst : ∃ x l, query i (k + 1) = (i, x) :: l ∧ l ≠ [] ∧ ∀ p ∈ l, p.1 ≠ i) (c : Fin k) : (out i c).1 ≠ i := by
  obtain ⟨x, l, hq, hl, hne⟩ := hfirst
  have hrow : ∀ {m : ℕ} (f : Fin m → Py (Fin k → Fin n × K)) (g : Fin m → Fin k → Fin n × K),
      Np.tabulateM f = .ok g → ∀ i, f i = .ok (g i) := by
    intro m
    induction m with
    | zero => intro f g _ i; exact i.elim0
    | succ m ih =>
      intro f g hg i
      unfold Np.tabulateM at hg
      simp only [bind, Except.bind] at hg
      cases h0 : f 0 with
      | error e => rw [h0] at hg; cases hg
      | ok a =>
        rw [h0] at hg
        simp only at hg
        cases h1 : Np.tabulateM (fun i => f i.succ) with
        | error e => rw [h1] at hg; cases hg
        | ok b =>
          rw [h1] at hg
          cases hg
          refine Fin.cases h0 (fun i => ?_) i
          exact ih _ _ h1 i
  have h1 := hrow _ _ h i
  simp only [hq, List.tail_cons, bind, Except.bind] at h1
  cases h2 : padRow k l ((i, x) :: l) with
  | error e => rw [h2] at h1; cases h1
  | ok row =>
    rw [h2] at h1
    have h3 : (fun c => ((row c).1, post (row c).2)) = out i := Except.ok.inj h1
    rw [← h3]
    show (row c).1 ≠ i
    unfold padRow at h2
    split at h2
    · next last z m hlast _ =>
      rw [← Except.ok.inj h2]
      change (l.getD c.val (last, m)).1 ≠ i
      have hmem : ∀ d ∈ l, d.1 ≠ i := hne
      by_cases hc : c.val < l.length
      · rw [List.getD_eq_getElem _ _ hc]
        exact hmem _ (List.getElem_mem _)
      · rw [List.getD_eq_default _ _ (by omega)]
        have : (last, z) ∈ l := by
          rw [List.getLast?_cons] at hlast
          obtain ⟨w, hw⟩ := List.getLast?_isSome.2 hl |> Option.isSome_iff_exists.1
          rw [hw] at hlast
          have hwl : w = (last, z) := Option.some.inj hlast
          rw [← hwl]
          exact List.mem_of_getLast? hw
        exact hmem (last, z) this
    · cases h2

/-- C125 is violated: two coinciding training objects may be returned in either order, and then an object is its own
neighbour; the answers are exact. -/
theorem C125_violated : ∃ query : Fin 2 → ℕ → Answer ℚ 2,
    (∀ i, Spec.ExactAnswer (fun _ => (0 : ℚ)) 2 (query i 2)) ∧
    ∃ out : Fin 2 → Fin 1 → Fin 2 × ℚ, hnswFit query (fun d => d ^ 2) 1 = .ok out ∧ (out 1 0).1 = 1 := by
  refine ⟨fun _ _ => [(0, 0), (1, 0)], ?_, ?_⟩
  · intro i
    fin_cases i <;>
    exact ⟨by decide, by decide, by decide +kernel, by decide +kernel, by decide +kernel⟩
  · obtain ⟨out, h, hp⟩ := of_okAnd (x := hnswFit (fun _ _ => [(0, 0), (1, 0)] : Fin 2 → ℕ → Answer ℚ 2)
      (fun d => d ^ 2) 1) (p := fun out => decide ((out 1 0).1 = 1)) (by decide +kernel)
    exact ⟨out, h, of_decide_eq_true hp⟩

/-- Three training points `0, 1, 5` and the test point `2` on a line. -/
def lineTrain : Fin 3 → ℕ → Answer ℚ 3 := fun i _ =>
  ![[(0, 0), (1, 1), (2, 5)], [(1, 0), (0, 1), (2, 4)], [(2, 0), (1, 4), (0, 5)]] i

-- The hypotheses of C123 can be met.
example : (∀ i, Spec.ExactAnswer (![![0, 1, 5], ![1, 0, 4], ![5, 4, 0]] i : Fin 3 → ℚ) 4 (lineTrain i 4)) ∧
    Spec.ExactAnswer (![2, 1, 3] : Fin 3 → ℚ) 3 [(1, 1), (0, 2), (2, 3)] ∧
    Function.Injective (![2, 1, 3] : Fin 3 → ℚ) := by
  refine ⟨?_, ?_, ?_⟩
  · intro i
    fin_cases i <;>
    exact ⟨by decide, by decide, by decide +kernel, by decide +kernel, by decide +kernel⟩
  · exact ⟨by decide, by decide, by decide +kernel, by decide +kernel, by decide +kernel⟩
  · decide +kernel

example : ∀ a b : ℚ, 0 ≤ a → 0 ≤ b → (a ^ 2 ≤ b ^ 2 ↔ a ≤ b) := fun _ _ ha hb => pow_le_pow_iff_left₀ ha hb (by decide)

end HubToolbox.Approx
