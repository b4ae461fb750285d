import Verif.Approx.LshModel
import Verif.Approx.MP
import Verif.Approx.Finite

/-!
# Properties of locality-sensitive hashing
-/

set_option autoImplicit false

namespace HubToolbox.Approx

open HubToolbox

variable {K : Type} [Field K] [LinearOrder K] [IsStrictOrderedRing K]

theorem fmax_eq_max (a b : XR K) : XR.fmax a b = max a b := by
  unfold XR.fmax
  split_ifs with h
  · rcases h with rfl | rfl
    · exact (max_eq_left (XR.le_nan b)).symm
    · exact (max_eq_right (XR.le_nan a)).symm
  · rfl

theorem amax_spec (l : List (XR K)) (hl : l ≠ []) : ∃ m, Np.amax l = some m ∧ m ∈ l ∧ ∀ x ∈ l, x ≤ m := by
  cases l with
  | nil => exact absurd rfl hl
  | cons a l =>
    refine ⟨l.foldl XR.fmax a, rfl, ?_⟩
    clear hl
    induction l generalizing a with
    | nil => simp
    | cons b l ih =>
      rw [List.foldl_cons, fmax_eq_max]
      obtain ⟨h1, h2⟩ := ih (max a b)
      constructor
      · rcases List.mem_cons.1 h1 with h | h
        · rcases max_choice a b with hm | hm
          · rw [h, hm]; simp
          · rw [h, hm]; simp
        · simp [h]
      · intro x hx
        have h3 := h2 (max a b) (by simp)
        rcases List.mem_cons.1 hx with rfl | hx
        · exact (le_max_left _ _).trans h3
        · rcases List.mem_cons.1 hx with rfl | hx
          · exact (le_max_right _ _).trans h3
          · exact h2 x (by simp [hx])

theorem amax_unique (l : List (XR K)) (m : XR K) (hm : m ∈ l) (hb : ∀ x ∈ l, x ≤ m) : Np.amax l = some m := by
  obtain ⟨m', h, h1, h2⟩ := amax_spec l (List.ne_nil_of_mem hm)
  rw [h, le_antisymm (hb m' h1) (h2 m hm)]

/-- What a row contains: neighbours and distances, then the last neighbour and the largest value. -/
theorem lshRow_char {n k : ℕ} (memory : Fin k → XR K) (d : Fin n → K) (knn : List (Fin n)) (hne : knn ≠ [])
    (hk : knn.length ≤ k) :
    ∃ row m, lshRow k memory (some d) knn = .ok row ∧
      (∀ (c : Fin k) (h : c.val < knn.length), row c = (knn[c.val], .fin (d knn[c.val]))) ∧
      (∀ c : Fin k, knn.length ≤ c.val → row c = (knn.getLast hne, m)) ∧
      (∀ x ∈ knn, .fin (d x) ≤ m) ∧ (∀ c : Fin k, knn.length ≤ c.val → memory c ≤ m) ∧
      ((∃ x ∈ knn, m = .fin (d x)) ∨ ∃ c : Fin k, knn.length ≤ c.val ∧ m = memory c) := by
  have hpos := List.length_pos_iff.2 hne
  have hk0 : 0 < k := by omega
  let f : Fin k → XR K := lshVal memory (some d) knn
  have hf1 : ∀ (c : Fin k) (h : c.val < knn.length), f c = .fin (d knn[c.val]) := by
    intro c h
    simp only [f, lshVal, List.getElem?_eq_getElem h]
  have hf2 : ∀ c : Fin k, knn.length ≤ c.val → f c = memory c := by
    intro c h
    simp only [f, lshVal, List.getElem?_eq_none h]
  obtain ⟨m, hm, hm1, hm2⟩ := amax_spec ((List.finRange k).map f) (by
    intro h
    have := congrArg List.length h
    simp at this
    omega)
  have hrow : lshRow k memory (some d) knn = .ok (fun c => match knn[c.val]? with
        | some x => (x, f c)
        | none => (knn.getLast hne, m)) := by
    unfold lshRow
    rw [if_neg (by omega), List.getLast?_eq_some_getLast hne]
    change (match Np.amax ((List.finRange k).map f) with
      | none => _
      | some m => _) = _
    rw [hm]
    rfl
  refine ⟨_, m, hrow, ?_, ?_, ?_, ?_, ?_⟩
  · intro c h
    simp only [List.getElem?_eq_getElem h, hf1 c h]
  · intro c h
    simp only [List.getElem?_eq_none h]
  · intro x hx
    obtain ⟨i, hi, rfl⟩ := List.mem_iff_getElem.1 hx
    rw [← hf1 ⟨i, by omega⟩ hi]
    exact hm2 _ (List.mem_map.2 ⟨_, List.mem_finRange _, rfl⟩)
  · intro c h
    rw [← hf2 c h]
    exact hm2 _ (List.mem_map.2 ⟨_, List.mem_finRange _, rfl⟩)
  · obtain ⟨c, _, hc⟩ := List.mem_map.1 hm1
    rcases Nat.lt_or_ge c.val knn.length with h | h
    · exact Or.inl ⟨_, List.getElem_mem h, by rw [← hc, hf1 c h]⟩
    · exact Or.inr ⟨c, h, by rw [← hc, hf2 c h]⟩

theorem lshRow_full {n k : ℕ} (hk0 : 0 < k) (memory : Fin k → XR K) (d : Fin n → K) (knn : List (Fin n))
    (hk : knn.length = k) :
    lshRow k memory (some d) knn = .ok (fun c => (knn[c.val]'(by omega), .fin (d (knn[c.val]'(by omega))))) := by
  obtain ⟨row, m, h, h1, _⟩ := lshRow_char memory d knn (by intro h; rw [h] at hk; simp at hk; omega) hk.le
  rw [h]
  exact congrArg Except.ok (funext fun c => h1 c (by omega))

/-- C136 holds if the index always finds enough neighbours: then the result of fitting depends neither on the number of
processes nor on the contents of uninitialised memory, and consists of the neighbours after the first and their distances. -/
theorem C136_fit_partial {P : Type} {n k : ℕ} (hk : 0 < k) (dist : String → P → P → K) (metric : String)
    (hm : VMetric metric) (query : Fin n → ℕ → List (Fin n)) (X : Fin n → P)
    (hq : ∀ i, (query i (k + 1)).length = k + 1) (nJobs : ℤ) (memory : Fin n → Fin k → XR K) :
    lshFit dist metric nJobs k memory query X = .ok (fun i c => ((query i (k + 1))[c.val + 1]'(by rw [hq]; omega),
      .fin (dist metric (X i) (X ((query i (k + 1))[c.val + 1]'(by rw [hq]; omega)))))) := by
  refine tabulateM_ok _ _ (fun i => ?_)
  have hne : query i (k + 1) ≠ [] := by intro h; have := hq i; rw [h] at this; simp at this
  have hl : (query i (k + 1)).tail.length = k := by rw [List.length_tail, hq]; rfl
  have hm' : metric = "sqeuclidean" ∨ metric = "cosine" := hm
  simp only [hne, if_false, hm', if_true, lshRow_full hk _ _ _ hl, ite_self, List.getElem_tail]

/-- C136 holds if the index always finds enough neighbours, for test objects. -/
theorem C136_trafo_partial {P : Type} {n t k : ℕ} (hk : 0 < k) (dist : String → P → P → K) (metric : String)
    (hm : VMetric metric) (query : Fin t → ℕ → List (Fin n)) (X : Fin n → P) (T : Fin t → P)
    (hq : ∀ i, (query i k).length = k) (nJobs : ℤ) (memory : Fin t → Fin k → XR K) :
    lshTrafo dist metric nJobs k memory query X T = .ok (fun i c => ((query i k)[c.val]'(by rw [hq]; omega),
      .fin (dist metric (T i) (X ((query i k)[c.val]'(by rw [hq]; omega)))))) := by
  refine tabulateM_ok _ _ (fun i => ?_)
  have hne : query i k ≠ [] := by intro h; have := hq i; rw [h] at this; simp at this; omega
  have hm' : metric = "sqeuclidean" ∨ metric = "cosine" := hm
  simp only [hne, if_false, hm', if_true, lshRow_full hk _ _ _ (hq i), ite_self]

theorem lshTrafo_ok {P : Type} {n t k : ℕ} (dist : String → P → P → K) (metric : String)
    (hm : VMetric metric) (query : Fin t → ℕ → List (Fin n)) (X : Fin n → P) (T : Fin t → P)
    (hq : ∀ i, query i k ≠ []) (hq' : ∀ i, (query i k).length ≤ k) (nJobs : ℤ) (memory : Fin t → Fin k → XR K) :
    ∃ out : Fin t → Fin k → Fin n × XR K, lshTrafo dist metric nJobs k memory query X T = .ok out ∧
      ∀ i, lshRow k (if nJobs = 1 then memory i else fun _ => .fin 0) (some (fun x => dist metric (T i) (X x)))
        (query i k) = .ok (out i) := by
  have h := fun i => lshRow_char (if nJobs = 1 then memory i else fun _ => .fin 0) (fun x => dist metric (T i) (X x))
    (query i k) (hq i) (hq' i)
  choose out _ ho _ using h
  refine ⟨out, tabulateM_ok _ _ (fun i => ?_), ho⟩
  have hm' : metric = "sqeuclidean" ∨ metric = "cosine" := hm
  simp only [hq i, if_false, hm', if_true]
  rw [← ho i]
  split_ifs <;> rfl

/-- C136: with several processes, missing neighbours are replaced by the last one found, at the largest distance found. -/
theorem C136_parallel {P : Type} {n t k : ℕ} (dist : String → P → P → K) (metric : String)
    (h0 : ∀ p q, 0 ≤ dist metric p q)
    (hm : VMetric metric) (query : Fin t → ℕ → List (Fin n)) (X : Fin n → P) (T : Fin t → P)
    (hq : ∀ i, query i k ≠ []) (hq' : ∀ i, (query i k).length ≤ k) (nJobs : ℤ) (hj : nJobs ≠ 1)
    (memory : Fin t → Fin k → XR K) :
    ∃ out : Fin t → Fin k → Fin n × XR K, lshTrafo dist metric nJobs k memory query X T = .ok out ∧
      ∀ i (c : Fin k), (∀ h : c.val < (query i k).length,
          out i c = ((query i k)[c.val], .fin (dist metric (T i) (X (query i k)[c.val])))) ∧
        ((query i k).length ≤ c.val → (out i c).1 = (query i k).getLast (hq i) ∧
          ∃ x ∈ query i k, (out i c).2 = .fin (dist metric (T i) (X x)) ∧
            ∀ y ∈ query i k, dist metric (T i) (X y) ≤ dist metric (T i) (X x)) := by
  obtain ⟨out, ho, hr⟩ := lshTrafo_ok dist metric hm query X T hq hq' nJobs memory
  refine ⟨out, ho, fun i c => ?_⟩
  have hi := hr i
  rw [if_neg hj] at hi
  obtain ⟨row, m, h, h1, h2, h3, h4, h5⟩ := lshRow_char (fun _ : Fin k => (.fin 0 : XR K))
    (fun x => dist metric (T i) (X x)) (query i k) (hq i) (hq' i)
  rw [h] at hi
  rw [← Except.ok.inj hi]
  refine ⟨fun hc => h1 c hc, fun hc => ?_⟩
  rw [h2 c hc]
  refine ⟨rfl, ?_⟩
  have key : ∃ x ∈ query i k, m = .fin (dist metric (T i) (X x)) := by
    rcases h5 with h5 | ⟨c', hc', h5⟩
    · exact h5
    · obtain ⟨x, hx⟩ := List.exists_mem_of_ne_nil _ (hq i)
      have hx' := h3 x hx
      rw [h5, XR.fin_le_fin] at hx'
      exact ⟨x, hx, by rw [h5]; congr 1; exact le_antisymm (h0 _ _) hx'⟩
  obtain ⟨x, hx, rfl⟩ := key
  refine ⟨x, hx, rfl, fun y hy => ?_⟩
  have := h3 y hy
  rwa [XR.fin_le_fin] at this

/-- C136: the same for training objects, the first neighbour being dropped. -/
theorem C136_parallel_fit {P : Type} {n k : ℕ} (dist : String → P → P → K) (metric : String)
    (h0 : ∀ p q, 0 ≤ dist metric p q)
    (hm : VMetric metric) (query : Fin n → ℕ → List (Fin n)) (X : Fin n → P)
    (hq : ∀ i, (query i (k + 1)).tail ≠ []) (hq' : ∀ i, (query i (k + 1)).length ≤ k + 1) (nJobs : ℤ) (hj : nJobs ≠ 1)
    (memory : Fin n → Fin k → XR K) :
    ∃ out : Fin n → Fin k → Fin n × XR K, lshFit dist metric nJobs k memory query X = .ok out ∧
      ∀ i (c : Fin k), (∀ h : c.val + 1 < (query i (k + 1)).length,
          out i c = ((query i (k + 1))[c.val + 1], .fin (dist metric (X i) (X (query i (k + 1))[c.val + 1])))) ∧
        ((query i (k + 1)).length ≤ c.val + 1 → (out i c).1 = (query i (k + 1)).tail.getLast (hq i) ∧
          ∃ x ∈ (query i (k + 1)).tail, (out i c).2 = .fin (dist metric (X i) (X x)) ∧
            ∀ y ∈ (query i (k + 1)).tail, dist metric (X i) (X y) ≤ dist metric (X i) (X x)) := by
  have hl : ∀ i, (query i (k + 1)).tail.length ≤ k := fun i => by rw [List.length_tail]; have := hq' i; omega
  obtain ⟨out, ho, hr⟩ := lshTrafo_ok dist metric hm (fun i _ => (query i (k + 1)).tail) X X hq hl nJobs memory
  obtain ⟨out', ho', hp⟩ := C136_parallel dist metric h0 hm (fun i _ => (query i (k + 1)).tail) X X hq hl nJobs hj memory
  rw [ho] at ho'
  obtain rfl := Except.ok.inj ho'
  refine ⟨out, tabulateM_ok _ _ (fun i => ?_), fun i c => ⟨fun h => ?_, fun h => ?_⟩⟩
  · have hm' : metric = "sqeuclidean" ∨ metric = "cosine" := hm
    have hne : query i (k + 1) ≠ [] := fun e => hq i (by rw [e]; rfl)
    have := hr i
    rw [if_neg hj] at this
    simp only [hne, if_false, if_neg hj, hm', if_true]
    exact this
  · have := (hp i c).1 (by rw [List.length_tail]; omega)
    simpa only [List.getElem_tail] using this
  · exact (hp i c).2 (by rw [List.length_tail]; omega)

-- Two of three requested neighbours besides the object itself.
example : ([1, 0, 2] : List (Fin 4)).tail ≠ [] ∧ ([1, 0, 2] : List (Fin 4)).length ≤ 3 + 1 := ⟨by decide, by decide⟩

/-- C136 is violated with one process: as soon as the index finds too few neighbours of some test object, the result depends
on what happened to be in uninitialised memory. Missing distances can be anything from the largest distance found to `nan`. -/
theorem C136_violated {P : Type} {n t k : ℕ} (dist : String → P → P → K) (metric : String)
    (hm : VMetric metric) (query : Fin t → ℕ → List (Fin n)) (X : Fin n → P) (T : Fin t → P)
    (hq : ∀ i, query i k ≠ []) (hq' : ∀ i, (query i k).length ≤ k) (i : Fin t) (hshort : (query i k).length < k)
    (u : XR K) (hu : ∀ x ∈ query i k, .fin (dist metric (T i) (X x)) ≤ u) :
    ∃ (memory : Fin t → Fin k → XR K) (out : Fin t → Fin k → Fin n × XR K),
      lshTrafo dist metric 1 k memory query X T = .ok out ∧ ∀ c : Fin k, (query i k).length ≤ c.val → (out i c).2 = u := by
  obtain ⟨out, ho, hr⟩ := lshTrafo_ok dist metric hm query X T hq hq' 1 (fun _ _ => u)
  refine ⟨_, out, ho, fun c hc => ?_⟩
  have hi := hr i
  rw [if_pos rfl] at hi
  obtain ⟨row, m, h, h1, h2, h3, h4, h5⟩ := lshRow_char (fun _ : Fin k => u)
    (fun x => dist metric (T i) (X x)) (query i k) (hq i) (hq' i)
  rw [h] at hi
  rw [← Except.ok.inj hi, h2 c hc]
  refine le_antisymm ?_ (h4 c hc)
  rcases h5 with ⟨x, hx, rfl⟩ | ⟨c', _, rfl⟩
  · exact hu x hx
  · exact le_rfl

-- The hypotheses can be met: two of three requested neighbours are found; `nan` is never smaller.
example : ([0, 2] : List (Fin 4)) ≠ [] ∧ ([0, 2] : List (Fin 4)).length < 3 ∧ ((.fin 7 : XR ℚ) ≤ .nan) :=
  ⟨by decide, by decide, XR.le_nan _⟩

/-! ### Mutual Proximity -/

/-- C137 holds if the index compares with the same distance: every secondary distance to a neighbour found is exactly Mutual
Proximity with respect to all training objects, also with ties. -/
theorem C137_exact_partial {P : Type} {n t k : ℕ} (dist : String → P → P → K) (metric : String) (hm : VMetric metric)
    (nJobs : ℤ) (memTrain : Fin n → Fin k → XR K) (memTest : Fin t → Fin k → XR K)
    (trainQuery : Fin n → ℕ → List (Fin n)) (testQuery : Fin t → ℕ → List (Fin n)) (near : P → XR K → List (Fin n))
    (X : Fin n → P) (T : Fin t → P)
    (hnear : ∀ q v x, x ∈ near q (.fin v) ↔ dist metric q (X x) ≤ v)
    (hq : ∀ i, testQuery i k ≠ []) (hq' : ∀ i, (testQuery i k).length ≤ k) (out : Fin t → Fin k → Fin n × K)
    (h : suqhrLshMP dist metric nJobs k memTrain memTest trainQuery testQuery near X T = .ok out)
    (i : Fin t) (j : Fin k) (hj : j.val < (testQuery i k).length) :
    (out i j).1 = (testQuery i k)[j.val] ∧
      (out i j).2 = Spec.empiricMP (fun x => dist metric (T i) (X x)) (fun a x => dist metric (X a) (X x)) (out i j).1 := by
  obtain ⟨test, ht, hr⟩ := lshTrafo_ok dist metric hm testQuery X T hq hq' nJobs memTest
  unfold suqhrLshMP at h
  cases hf : lshFit dist metric nJobs k memTrain trainQuery X with
  | error e => rw [hf] at h; cases h
  | ok tr =>
    rw [hf] at h
    simp only [bind, Except.bind, pure, Except.pure, ht] at h
    have h' := Except.ok.inj h
    subst h'
    obtain ⟨row, m, h, h1, _⟩ := lshRow_char (if nJobs = 1 then memTest i else fun _ => .fin 0)
      (fun x => dist metric (T i) (X x)) (testQuery i k) (hq i) (hq' i)
    have hrow := hr i
    rw [h] at hrow
    have hcell : test i j = ((testQuery i k)[j.val], .fin (dist metric (T i) (X (testQuery i k)[j.val]))) := by
      rw [← Except.ok.inj hrow]; exact h1 j hj
    simp only [hcell]
    refine ⟨trivial, ?_⟩
    unfold mpLsh Spec.empiricMP
    simp only [List.mem_append, hnear, not_or, not_le]
    congr 3

/-- C137 is violated for metric `'cosine'`: the index is asked for points within the cosine distance, but compares with the
negative inner product. If no inner product is negative, every secondary distance is one. -/
theorem C137_cosine_violated {P : Type} {n t k : ℕ} (ip : P → P → K) (hip : ∀ p q, 0 ≤ ip p q ∧ ip p q ≤ 1)
    (dist : String → P → P → K) (hd : ∀ p q, dist "cosine" p q = 1 - ip p q) (nJobs : ℤ)
    (memTrain : Fin n → Fin k → XR K) (memTest : Fin t → Fin k → XR K)
    (trainQuery : Fin n → ℕ → List (Fin n)) (testQuery : Fin t → ℕ → List (Fin n)) (near : P → XR K → List (Fin n))
    (X : Fin n → P) (T : Fin t → P)
    (hnear : ∀ q v x, x ∈ near q (.fin v) ↔ - ip q (X x) ≤ v)
    (hq : ∀ i, testQuery i k ≠ []) (hq' : ∀ i, (testQuery i k).length ≤ k) (out : Fin t → Fin k → Fin n × K)
    (h : suqhrLshMP dist "cosine" nJobs k memTrain memTest trainQuery testQuery near X T = .ok out)
    (i : Fin t) (j : Fin k) (hj : j.val < (testQuery i k).length) : (out i j).2 = 1 := by
  obtain ⟨test, ht, hr⟩ := lshTrafo_ok dist "cosine" (Or.inr rfl) testQuery X T hq hq' nJobs memTest
  unfold suqhrLshMP at h
  cases hf : lshFit dist "cosine" nJobs k memTrain trainQuery X with
  | error e => rw [hf] at h; cases h
  | ok tr =>
    rw [hf] at h
    simp only [bind, Except.bind, pure, Except.pure, ht] at h
    have h' := Except.ok.inj h
    subst h'
    obtain ⟨row, m, h, h1, _⟩ := lshRow_char (if nJobs = 1 then memTest i else fun _ => .fin 0)
      (fun x => dist "cosine" (T i) (X x)) (testQuery i k) (hq i) (hq' i)
    have hrow := hr i
    rw [h] at hrow
    have hcell : test i j = ((testQuery i k)[j.val], .fin (dist "cosine" (T i) (X (testQuery i k)[j.val]))) := by
      rw [← Except.ok.inj hrow]; exact h1 j hj
    simp only [hcell]
    have hall : ∀ y, y ∈ near (T i) (.fin (dist "cosine" (T i) (X (testQuery i k)[j.val]))) := by
      intro y
      rw [hnear, hd]
      have h2 := (hip (T i) (X y)).1
      have h3 := (hip (T i) (X (testQuery i k)[j.val])).2
      linarith
    have : (List.finRange n).filter (fun y => decide (y ∉
        near (T i) (.fin (dist "cosine" (T i) (X (testQuery i k)[j.val]))) ++
        near (X (testQuery i k)[j.val]) (.fin (dist "cosine" (T i) (X (testQuery i k)[j.val]))))) = [] := by
      rw [List.filter_eq_nil_iff]
      intro y _
      simp [hall y]
    change 1 - (((List.finRange n).filter (fun y => decide (y ∉
        near (T i) (.fin (dist "cosine" (T i) (X (testQuery i k)[j.val]))) ++
        near (X (testQuery i k)[j.val]) (.fin (dist "cosine" (T i) (X (testQuery i k)[j.val])))))).length : K) / n = 1
    rw [this]
    simp

/-- Three unit vectors in the plane, of which the first is also the test object. -/
def unit3 : Fin 3 → ℚ × ℚ := ![(1, 0), (3/5, 4/5), (0, 1)]

def ip2 (p q : ℚ × ℚ) : ℚ := p.1 * q.1 + p.2 * q.2

-- Mutual Proximity of the test object to the first vector is 1/3, not 1.
example : Spec.empiricMP (fun x => 1 - ip2 (1, 0) (unit3 x)) (fun a x => 1 - ip2 (unit3 a) (unit3 x)) 0 = 1 / 3 := by
  decide +kernel

-- A call to which both theorems apply.
example : ∃ out, suqhrLshMP (fun _ p q => 1 - ip2 p q) "cosine" 2 1 (fun _ _ => .nan) (fun _ _ => .nan)
    (fun i _ => [i, i + 1]) (fun (_ : Fin 1) _ => [0])
    (fun q v => (List.finRange 3).filter (fun x => decide (.fin (- ip2 q (unit3 x)) ≤ v))) unit3 (fun _ => (1, 0)) = .ok out ∧
    (out 0 0).2 = 1 := by
  obtain ⟨out, h, hp⟩ := of_okAnd (p := fun out : Fin 1 → Fin 1 → Fin 3 × ℚ => decide ((out 0 0).2 = 1))
    (x := suqhrLshMP (fun _ p q => 1 - ip2 p q) "cosine" 2 1 (fun _ _ => .nan) (fun _ _ => .nan)
    (fun i _ => [i, i + 1]) (fun (_ : Fin 1) _ => [0])
    (fun q v => (List.finRange 3).filter (fun x => decide (.fin (- ip2 q (unit3 x)) ≤ v))) unit3 (fun _ => (1, 0)))
    (by decide +kernel)
  exact ⟨out, h, of_decide_eq_true hp⟩

end HubToolbox.Approx
