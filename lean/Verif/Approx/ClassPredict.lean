import Verif.Approx.ClassState
import Verif.Approx.Finite
import Verif.Approx.Predict

/-!
# `SuQHR`: transformation and prediction of a fitted estimator
-/

set_option autoImplicit false

namespace HubToolbox.Approx

/-! ### `predict` and `sec_dist_` -/

theorem predict_of_ok {L : Lib} {e : Est} {m : Fitted} {T : Data} {r : Result} (hm : e.fitted = some m)
    (h : (e.transform L T).2 = .ok r) {E : Fin r.t → Fin r.s → XR ℝ} (hE : enforceFinite r.dist = .ok E) :
    e.predict L T = ({ (e.transform L T).1 with result := some { r with dist := E } },
      (predictKnn L (e.transform L T).1.config m.y { r with dist := E }).map (fun out i => if h : i.val < r.t then out ⟨i.val, h⟩ else 0)) := by
  unfold Est.predict
  rw [hm]
  rcases he : e.transform L T with ⟨a, b⟩
  rw [he] at h
  simp only at h
  subst h
  simp only [hE]

theorem transform_result {L : Lib} {e : Est} {T : Data} {r : Result} (h : (e.transform L T).2 = .ok r) :
    (e.transform L T).1.result = some r := by
  unfold Est.transform at h ⊢
  split at h
  · cases h
  · rename_i hrej
    rw [if_neg hrej]
    split at h
    · rename_i m N hm hN
      simp only at h ⊢
      rcases hs : sec L e.config m T with err | q
      · rw [hs] at h; cases h
      rw [hs] at h
      simp only at h
      rcases hp : sparseOf e.config N q with err | sp
      · rw [hp] at h; cases h
      rw [hp] at h
      cases h
      simp only [hp]
    · cases h

theorem transform_fitted {L : Lib} {e : Est} {T : Data} {r : Result} (h : (e.transform L T).2 = .ok r) : ∃ m, e.fitted = some m := by
  unfold Est.transform at h
  split at h
  · cases h
  · split at h
    · rename_i m N hm hN; exact ⟨m, hm⟩
    · cases h

/-- C177 holds if all secondary distances are numbers which are not negative: after `predict`, `sec_dist_` is what `transform` returns. -/
theorem C177_partial (L : Lib) (e : Est) (T : Data) (r : Result) (h : (e.transform L T).2 = .ok r)
    (h0 : ∀ i j, ∃ x, 0 ≤ x ∧ r.dist i j = .fin x) : (e.predict L T).1.result = some r := by
  obtain ⟨m, hm⟩ := transform_fitted h
  choose x hx hd using h0
  have hdist : r.dist = fun i j => .fin (x i j) := funext fun i => funext fun j => hd i j
  by_cases hts : 0 < r.t ∧ 0 < r.s
  · have hE : enforceFinite r.dist = .ok r.dist := by
      rw [hdist]
      exact C115_noop x hts.1 hts.2 hx
    rw [predict_of_ok hm h hE]
  · have hE : enforceFinite r.dist = .error .valueError := by
      have : Np.ravel r.dist = [] := by
        rw [List.eq_nil_iff_forall_not_mem]
        intro v hv
        obtain ⟨i, j, -⟩ := mem_ravel.1 hv
        exact hts ⟨i.pos, j.pos⟩
      simp [enforceFinite, this, Np.amin]
    have hres := transform_result h
    unfold Est.predict
    rw [hm]
    rcases he : e.transform L T with ⟨a, b⟩
    rw [he] at h hres
    simp only at h
    subst h
    simp only [hE]
    exact hres

/-- C177 is violated otherwise: `predict` overwrites `sec_dist_` with other values, while the sparse matrix keeps the old ones. -/
theorem C177_violated (L : Lib) (e : Est) (T : Data) (r : Result) (h : (e.transform L T).2 = .ok r) (i : Fin r.t) (j : Fin r.s)
    (hneg : ¬ ∃ x, 0 ≤ x ∧ r.dist i j = .fin x) :
    ∃ E : Fin r.t → Fin r.s → XR ℝ, (e.predict L T).1.result = some { r with dist := E } ∧ E i j ≠ r.dist i j ∧
      (e.predict L T).1.sparse = (e.transform L T).1.sparse := by
  obtain ⟨m, hm⟩ := transform_fitted h
  obtain ⟨_, s, v, hE, -, -, -, hnn, -, -, -⟩ := enforce_char r.dist i.pos j.pos
  refine ⟨_, congrArg (fun p : Est × _ => p.1.result) (predict_of_ok hm h hE), ?_, congrArg (fun p : Est × _ => p.1.sparse)
    (predict_of_ok hm h hE)⟩
  intro heq
  exact hneg ⟨_, hnn i j, heq.symm⟩

/-! ### Missing labels, missing fit -/

/-- C180: before `fit` all queries raise `ValueError` and change nothing. -/
theorem C180_unfitted (L : Lib) (c : Config) (T : Data) :
    (Est.new c).transform L T = (Est.new c, .error .valueError) ∧ (Est.new c).predict L T = (Est.new c, .error .valueError) := by
  constructor
  · unfold Est.transform
    split <;> rfl
  · rfl

theorem fit_labels_none {L : Lib} {c : Config} {A : Data} {r : Option Labels × Model A.f} (h : runFit L c A none = .ok r) : r.1 = none := by
  unfold runFit at h
  split at h
  · obtain ⟨ind, -, hp, -⟩ := fitFixed_char h
    exact (Except.ok.inj hp).symm
  · rcases hv : fitVaried L c A.X with err | m
    · rw [hv] at h; cases h
    · rw [hv] at h
      cases h; rfl

theorem fitConfig_smp (c : Config) (n : ℕ) : (fitConfig c n).smp = c.smp := by unfold fitConfig; split <;> rfl

/-- C180: without labels, `predict` never returns. If the secondary distances can be calculated (and there are some), it raises
`ValueError` for fixed vantage points, and `AttributeError` with an index. -/
theorem C180_unlabelled (L : Lib) (e : Est) (A T : Data) (h : (e.fit L A none).2 = none) :
    (∀ out, ((e.fit L A none).1.predict L T).2 ≠ .ok out) ∧
    (∀ r, ((e.fit L A none).1.transform L T).2 = .ok r → 0 < r.t → 0 < r.s → ((e.fit L A none).1.predict L T).2 =
      .error (if e.config.smp = .hnsw ∨ e.config.smp = .lsh then .attributeError else .valueError)) := by
  obtain ⟨-, q, hq, he⟩ := fit_ok h
  have hy := fit_labels_none hq
  have hm : (e.fit L A none).1.fitted = some ⟨A.f, none, q.2⟩ := by rw [he, hy]
  have hsmp : ((e.fit L A none).1.transform L T).1.config.smp = e.config.smp := by
    rw [(transform_core L _ T).1, he]
    exact fitConfig_smp _ _
  have hk : ∀ (c : Config) (r : Result), predictKnn L c none r =
      .error (if c.smp = .hnsw ∨ c.smp = .lsh then .attributeError else .valueError) := by
    intro c r
    unfold predictKnn
    rcases hc : c.smp with s | _ | _ <;> simp
  constructor
  · intro out hout
    unfold Est.predict at hout
    rw [hm] at hout
    simp only at hout
    split at hout
    · cases hout
    · split at hout
      · cases hout
      · rw [hk] at hout
        cases hout
  · intro r hr ht hs
    obtain ⟨_, s, v, hE, -⟩ := enforce_char r.dist ht hs
    rw [predict_of_ok hm hr hE, hk, hsmp]
    rfl

/-! ### Labels of another length -/

/-- C179 holds with random sampling: `fit` rejects another number of labels than objects. -/
theorem C179_partial (L : Lib) (e : Est) (hc : e.config.smp = .fixed .random) (A : Data) (l : ℕ) (y : Fin l → ℤ) (hl : l ≠ A.n) :
    (e.fit L A (some ⟨l, y⟩)).2 = some .valueError := by
  by_cases hr : Rejected A (some ⟨l, y⟩)
  · unfold Est.fit
    rw [if_pos hr]
  · have hcfg : fitConfig e.config A.n = e.config := if_neg (by simp [overwrites, hc])
    rw [fit_of_error hr (err := .valueError)]
    rw [hcfg]
    simp only [runFit, hc, fitFixed, bind, Except.bind]
    have hv : ∀ r, vantage L.w (fun i j => L.dist e.config.metric (A.X i) (A.X j)) e.config.metric .random e.config.nSamples = r →
        r = .error .valueError ∨ ∃ ind, r = .ok ind := by
      rintro r rfl
      simp only [vantage]
      split
      · exact .inr ⟨_, rfl⟩
      · exact .inl rfl
    rcases hv _ rfl with h | ⟨ind, h⟩
    · rw [h]
    · rw [h]
      simp only [pickLabels, dif_neg hl]

/-- C179 is violated by all other samplings: more labels than objects are accepted whenever the objects are. -/
theorem C179_violated (L : Lib) (e : Est) (hc : e.config.smp ≠ .fixed .random) (A : Data) (l : ℕ) (y : Fin l → ℤ) (hl : A.n < l)
    (h : (e.fit L A none).2 = none) : (e.fit L A (some ⟨l, y⟩)).2 = none := by
  obtain ⟨hr, q, hq, -⟩ := fit_ok h
  have hr' : ¬ Rejected A (some ⟨l, y⟩) := by
    rintro (h | h | ⟨y', h, h'⟩)
    · exact hr (.inl h)
    · exact hr (.inr (.inl h))
    · cases h
      simp only at h'
      omega
  have key : ∃ q', runFit L (fitConfig e.config A.n) A (some ⟨l, y⟩) = .ok q' := by
    set c := fitConfig e.config A.n with hcdef
    have hsmp : c.smp = e.config.smp := fitConfig_smp _ _
    unfold runFit at hq ⊢
    rcases hs : c.smp with s | _ | _
    · rw [hs] at hq
      simp only at hq ⊢
      have hsr : s ≠ .random := by rintro rfl; exact hc (hsmp.symm.trans hs)
      unfold fitFixed at hq ⊢
      simp only [bind, Except.bind] at hq ⊢
      rcases hv : vantage L.w (fun i j => L.dist c.metric (A.X i) (A.X j)) c.metric s c.nSamples with err | ind
      · rw [hv] at hq; cases hq
      rw [hv] at hq
      simp only [pickLabels] at hq ⊢
      obtain ⟨y', hy'⟩ : ∃ y', pickLabels s ind (some ⟨l, y⟩) = .ok y' := by
        cases s with
        | random => exact (hsr rfl).elim
        | kmeanspp => exact ⟨_, dif_pos (fun a => (ind.get a).isLt.trans hl)⟩
        | all => exact ⟨_, rfl⟩
      simp only [pickLabels] at hy'
      rw [hy']
      simp only
      rcases hh : c.hr with _ | _ | _ | _ | _ | _ <;> rw [hh] at hq <;> simp only at hq ⊢
      · exact ⟨_, rfl⟩
      · exact ⟨_, rfl⟩
      · split at hq
        · cases hq
        · rename_i hk; rw [if_neg hk]; exact ⟨_, rfl⟩
      all_goals
        split at hq
        · cases hq
        · rename_i hk
          rw [if_neg hk]
          split at hq
          · cases hq
          · exact ⟨_, rfl⟩
    · rw [hs] at hq
      simp only at hq ⊢
      rcases hv : fitVaried L c A.X with err | m
      · rw [hv] at hq; cases hq
      · exact ⟨_, rfl⟩
    · rw [hs] at hq
      simp only at hq ⊢
      rcases hv : fitVaried L c A.X with err | m
      · rw [hv] at hq; cases hq
      · exact ⟨_, rfl⟩
  obtain ⟨q', hq'⟩ := key
  rw [fit_of_ok hr' hq']

/-- C179: without sampling, a wrong number of labels makes all predictions raise, but `fit` accepts it. -/
theorem C179_late (L : Lib) (e : Est) (hc : e.config.smp = .fixed .all) (A T : Data) (l : ℕ) (y : Fin l → ℤ) (hl : l ≠ A.n)
    (h : (e.fit L A (some ⟨l, y⟩)).2 = none) (out : Fin T.n → ℤ) : ((e.fit L A (some ⟨l, y⟩)).1.predict L T).2 ≠ .ok out := by
  obtain ⟨-, q, hq, he⟩ := fit_ok h
  have hsmp : (fitConfig e.config A.n).smp = .fixed .all := (fitConfig_smp _ _).trans hc
  have hfix : fitFixed L (fitConfig e.config A.n) .all A.X (some ⟨l, y⟩) = .ok q := by simpa only [runFit, hsmp] using hq
  obtain ⟨ind, hv, hp, extra, hq2⟩ := fitFixed_char hfix
  obtain rfl : List.finRange A.n = ind := Except.ok.inj hv
  have hy : q.1 = some ⟨l, y⟩ := (Except.ok.inj hp).symm
  intro hout
  have hm : (e.fit L A (some ⟨l, y⟩)).1.fitted = some ⟨A.f, q.1, q.2⟩ := by rw [he]
  rcases htr : ((e.fit L A (some ⟨l, y⟩)).1.transform L T).2 with err | r
  · unfold Est.predict at hout
    rw [hm] at hout
    simp only at hout
    rcases hx : (e.fit L A (some ⟨l, y⟩)).1.transform L T with ⟨a, b⟩
    rw [hx] at hout htr
    simp only at htr
    subst htr
    cases hout
  · have hs : r.s = A.n := by
      rw [he, transform_eq (m := ⟨A.f, q.1, q.2⟩) (N := A.n) rfl rfl (.inr (runFit_size hq).le)] at htr
      split at htr
      · cases htr
      · unfold sec at htr
        split at htr
        · simp only [hq2] at htr
          rcases ht : transformFixed L (fitConfig e.config A.n) (fun a => A.X ((List.finRange A.n).get a)) extra _ with err | D
          · rw [ht] at htr; cases htr
          · rw [ht] at htr
            cases htr
            simp
        · cases htr
    have hcfg : ((e.fit L A (some ⟨l, y⟩)).1.transform L T).1.config.smp = .fixed .all := by
      rw [(transform_core L _ T).1, he]; exact hsmp
    rcases hE : enforceFinite r.dist with err | E
    · unfold Est.predict at hout
      rw [hm] at hout
      simp only at hout
      rcases hx : (e.fit L A (some ⟨l, y⟩)).1.transform L T with ⟨a, b⟩
      rw [hx] at hout htr
      simp only at htr
      subst htr
      simp only [hE] at hout
      cases hout
    · rw [predict_of_ok hm htr hE] at hout
      unfold predictKnn at hout
      simp only [hcfg, hy] at hout
      rw [dif_neg (by rw [hs]; exact hl)] at hout
      cases hout

/-! ### Test objects one by one -/

/-- One of the test objects. -/
def Data.row (T : Data) (i : Fin T.n) : Data := ⟨1, T.f, fun _ => T.X i⟩

/-- Number and secondary distance of the `j`-th neighbour of test object `i`. -/
def Result.at (r : Result) (i j : ℕ) : Option (ℕ × XR ℝ) :=
  if h : i < r.t ∧ j < r.s then some (r.ind ⟨i, h.1⟩ ⟨j, h.2⟩, r.dist ⟨i, h.1⟩ ⟨j, h.2⟩) else none

theorem tabulateM_row {α : Type} {n : ℕ} {f : Fin n → Py α} {g : Fin n → α} (h : Np.tabulateM f = .ok g) (i : Fin n) :
    Np.tabulateM (fun _ : Fin 1 => f i) = .ok (fun _ => g i) :=
  tabulateM_ok _ _ (fun _ => tabulateM_get h i)

theorem transformFixed_row {L : Lib} {c : Config} {s t f : ℕ} {V : Fin s → Fin f → ℝ} {extra : Extra s} {T : Fin t → Fin f → ℝ}
    {D : Fin t → Fin s → XR ℝ} (h : transformFixed L c V extra T = .ok D) (i : Fin t) :
    transformFixed L c V extra (fun _ : Fin 1 => T i) = .ok (fun _ => D i) := by
  unfold transformFixed at h ⊢
  simp only [bind, Except.bind, pure, Except.pure] at h ⊢
  rcases hh : c.hr with _ | _ | _ | _ | _ | _ <;> rw [hh] at h <;> simp only at h ⊢
  · cases h; rfl
  · split at h
    · cases h
    · rename_i hk
      rw [if_neg hk]
      rw [mpMatrix_eq] at h ⊢
      cases h; rfl
  · split at h
    · cases h
    · rename_i hk
      rw [if_neg hk]
      cases extra <;> simp only at h ⊢ <;> cases h
      rfl
  all_goals
    split at h
    · cases h
    · rename_i hk
      rw [if_neg hk]
      cases extra <;> simp only at h ⊢ <;> try cases h
      split at h
      · cases h
      · rename_i heq
        cases h
        rw [tabulateM_row heq i]

theorem annTrafo_row {L : Lib} {c : Config} (hc : c.smp = .lsh → c.nJobs ≠ 1) {n t f k : ℕ} {X : Fin n → Fin f → ℝ} {T : Fin t → Fin f → ℝ}
    {D : Fin t → Fin k → Fin n × XR ℝ} (h : annTrafo L c k X T = .ok D) (i : Fin t) :
    annTrafo L c k X (fun _ : Fin 1 => T i) = .ok (fun _ => D i) := by
  unfold annTrafo at h ⊢
  split at h
  · rename_i hl
    rw [if_pos hl]
    unfold lshTrafo at h ⊢
    simp only [if_neg (hc hl)] at h ⊢
    exact tabulateM_row h i
  · rename_i hl
    rw [if_neg hl]
    unfold hnswTrafo at h ⊢
    rcases ht : Np.tabulateM (fun i : Fin t => (do
      let a := L.hnsw c.metric X (T i) k
      let row ← padRow k a a
      pure (fun c' => ((row c').1, hnswPost c.metric (row c').2)) : Py (Fin k → Fin n × ℝ))) with err | g
    · rw [ht] at h; cases h
    · rw [ht] at h
      rw [tabulateM_row ht i]
      cases h
      rfl

theorem transformVaried_row {L : Lib} {c : Config} (hc : c.smp = .lsh → c.nJobs ≠ 1) {n t f k : ℕ} {X : Fin n → Fin f → ℝ}
    {train : Fin n → Fin k → Fin n × XR ℝ} {extra : Extra n} {T : Fin t → Fin f → ℝ} {D : Fin t → Fin k → Fin n × XR ℝ}
    (h : transformVaried L c X train extra T = .ok D) (i : Fin t) :
    transformVaried L c X train extra (fun _ : Fin 1 => T i) = .ok (fun _ => D i) := by
  unfold transformVaried at h ⊢
  simp only [bind, Except.bind, pure, Except.pure, throw, throwThe, MonadExceptOf.throw] at h ⊢
  rcases ha : annTrafo L c k X T with err | test
  · rw [ha] at h; cases h
  rw [ha] at h
  rw [annTrafo_row hc ha i]
  simp only at h ⊢
  repeat' split at h
  all_goals first
    | (cases h; done)
    | (cases h; simp_all)

theorem sec_row {L : Lib} {c : Config} (hc : c.smp = .lsh → c.nJobs ≠ 1) {m : Fitted} {T : Data} {r : Result} (h : sec L c m T = .ok r)
    (i : Fin T.n) : ∃ r', sec L c m (T.row i) = .ok r' ∧ (∀ j, r'.at 0 j = r.at i.val j) ∧
      ∀ N, (∀ i j, r.ind i j < N) → ∀ i j, r'.ind i j < N := by
  unfold sec at h ⊢
  split at h
  · rename_i hf
    rw [dif_pos (show (T.row i).f = m.f from hf)]
    obtain ⟨f, y, model⟩ := m
    cases model with
    | fixed n ind V extra =>
      simp only at h ⊢
      rcases ht : transformFixed L c V extra (fun i j => T.X i (Fin.cast hf.symm j)) with err | D
      · rw [ht] at h; cases h
      · rw [ht] at h
        have := transformFixed_row ht i
        cases h
        refine ⟨_, congrArg _ this, ?_, ?_⟩
        · intro j
          simp [Result.at, Data.row, i.isLt]
        · intro N hN _ j
          exact hN i j
    | varied n k X train extra =>
      simp only at h ⊢
      rcases ht : transformVaried L c X train extra (fun i j => T.X i (Fin.cast hf.symm j)) with err | D
      · rw [ht] at h; cases h
      · rw [ht] at h
        have := transformVaried_row hc ht i
        cases h
        refine ⟨_, congrArg _ this, ?_, ?_⟩
        · intro j
          simp [Result.at, Data.row, i.isLt]
        · intro N hN _ j
          exact hN i j
  · cases h

/-- C181: each test object is transformed as if it were the only one, except with LSH in one process. -/
theorem C181_partial (L : Lib) (e : Est) (hc : e.config.smp = .lsh → e.config.nJobs ≠ 1) (T : Data) (r : Result)
    (h : (e.transform L T).2 = .ok r) (i : Fin T.n) :
    ∃ r', (e.transform L (T.row i)).2 = .ok r' ∧ ∀ j, r'.at 0 j = r.at i.val j := by
  unfold Est.transform at h ⊢
  split at h
  · cases h
  · rename_i hrej
    rw [if_neg (show ¬ ((T.row i).n = 0 ∨ (T.row i).f = 0) from fun h => hrej (.inr (h.resolve_left one_ne_zero)))]
    split at h
    · rename_i m N hm hN
      simp only at h ⊢
      rcases hs : sec L e.config m T with err | q
      · rw [hs] at h; cases h
      rw [hs] at h
      simp only at h
      rcases hp : sparseOf e.config N q with err | sp
      · rw [hp] at h; cases h
      rw [hp] at h
      cases h
      obtain ⟨r', hr', hat, hlt⟩ := sec_row hc hs i
      have hall : e.config.smp = .fixed .all ∨ ∀ i j, r.ind i j < N := by
        unfold sparseOf at hp
        split at hp
        · rename_i ha; exact .inl ha
        · split at hp
          · rename_i ha; exact .inr ha
          · cases hp
      obtain ⟨sp', hsp'⟩ := sparseOf_ok (c := e.config) (N := N) (r := r') (hall.imp id (hlt N))
      refine ⟨r', ?_, hat⟩
      rw [hr']
      simp only [hsp']
    · cases h

theorem fmax_fin (a b : ℝ) : XR.fmax (.fin a) (.fin b) = .fin (max a b) := by
  rcases le_total a b with h | h
  · have h' : (XR.fin a : XR ℝ) ≤ .fin b := XR.fin_le_fin.2 h
    simp [XR.fmax, max_eq_right h, max_eq_right h']
  · have h' : (XR.fin b : XR ℝ) ≤ .fin a := XR.fin_le_fin.2 h
    simp [XR.fmax, max_eq_left h, max_eq_left h']

/-- An index with less answers than requested, and memory which happens to contain the number of the row. -/
noncomputable def shortLib : Lib := { exLib with memory := fun i _ => .fin (5 * i.val) }

/-- Two equal test objects. -/
noncomputable def twins : Data := ⟨2, 1, fun _ _ => 0⟩

theorem shortLib_fit : ∃ m, fitVaried shortLib (exConfig .none .lsh 3) (line 2).X = .ok m ∧
    ∃ train, m = .varied 2 3 (line 2).X train .nothing := by
  refine ⟨_, rfl, _, rfl⟩

/-- C181 is violated by LSH in one process: of two equal test objects one can get other secondary distances, because cells of `np.empty`
are read. -/
theorem C181_violated : ∃ (L : Lib) (c : Config) (A T : Data) (r : Result), c.smp = .lsh ∧ c.nJobs = 1 ∧ (∀ i j, T.X i = T.X j) ∧
    (((Est.new c).fit L A none).1.transform L T).2 = .ok r ∧ r.t = 2 ∧ r.at 0 2 ≠ r.at 1 2 := by
  obtain ⟨m, hm, train, hm'⟩ := shortLib_fit
  subst hm'
  have hfit := fit_of_ok (L := shortLib) (e := Est.new (exConfig .none .lsh 3)) (A := line 2) (y := none)
    (line_ok 2 (by decide) _ (by simp)) (r := (none, .varied 2 3 (line 2).X train .nothing)) (by
      show runFit shortLib (exConfig .none .lsh 3) (line 2) none = _
      simp only [runFit, exConfig]
      have : fitVaried shortLib (exConfig .none .lsh 3) (line 2).X = _ := hm
      rw [exConfig] at this
      rw [this]
      rfl)
  obtain ⟨D, hD, h0, h1⟩ : ∃ D : Fin 2 → Fin 3 → Fin 2 × XR ℝ,
      annTrafo shortLib (exConfig .none .lsh 3) 3 (line 2).X twins.X = .ok D ∧ (D 0 2).2 = .fin 1 ∧ (D 1 2).2 = .fin 5 := by
    refine ⟨_, rfl, ?_, ?_⟩
    · change XR.fmax (XR.fmax (.fin (sqDist (fun _ : Fin 1 => (0 : ℝ)) (fun _ => ((0 : ℕ) : ℝ))))
        (.fin (sqDist (fun _ : Fin 1 => (0 : ℝ)) (fun _ => ((1 : ℕ) : ℝ))))) (.fin (5 * ((0 : ℕ) : ℝ))) = .fin 1
      simp [sqDist, fmax_fin]
    · change XR.fmax (XR.fmax (.fin (sqDist (fun _ : Fin 1 => (0 : ℝ)) (fun _ => ((0 : ℕ) : ℝ))))
        (.fin (sqDist (fun _ : Fin 1 => (0 : ℝ)) (fun _ => ((1 : ℕ) : ℝ))))) (.fin (5 * ((1 : ℕ) : ℝ))) = .fin 5
      simp [sqDist, fmax_fin]
  refine ⟨shortLib, exConfig .none .lsh 3, line 2, twins, ⟨2, 3, fun i j => (D i j).1.val, fun i j => (D i j).2⟩, rfl, rfl,
    fun _ _ => rfl, ?_, rfl, ?_⟩
  · rw [hfit, transform_eq rfl rfl (.inr le_rfl), if_neg (by rintro (h | h); exacts [two_ne_zero h, one_ne_zero h])]
    have ht : transformVaried shortLib (exConfig .none .lsh 3) (line 2).X train .nothing twins.X = .ok D := by
      unfold transformVaried
      rw [hD]
      rfl
    show sec shortLib (exConfig .none .lsh 3) ⟨1, none, .varied 2 3 (line 2).X train .nothing⟩ twins = _
    unfold sec
    rw [dif_pos (show twins.f = 1 from rfl)]
    exact congrArg (Except.map _) ht
  · intro h
    have := congrArg (fun o : Option (ℕ × XR ℝ) => o.map Prod.snd) h
    simp only [Result.at] at this
    rw [dif_pos (by decide), dif_pos (by decide)] at this
    have h' : (D 0 2).2 = (D 1 2).2 := by simpa using this
    rw [h0, h1] at h'
    have := XR.fin.inj h'
    norm_num at this

/-! ### Prediction with Mutual Proximity -/

/-- C178: with empiric Mutual Proximity and fixed vantage points, `fit` and `predict` together are a nearest neighbour classifier: each
test object gets the label with most votes among the `knn__n_neighbors` vantage points with the smallest Mutual Proximity distances. -/
theorem C178_predict (L : Lib) (c : Config) (s : Sampling) (hh : c.hr = .mp) (hs : c.smp = .fixed s) (hm : Known c.metric)
    {n f t : ℕ} (X : Fin n → Fin f → ℝ) (y : Fin n → ℤ) (T : Fin t → Fin f → ℝ) (ht : 0 < t)
    (hfit : ((Est.new c).fit L ⟨n, f, X⟩ (some ⟨n, y⟩)).2 = none)
    (hk : 0 < c.knnNeighbors.getD 5) (hkn : c.knnNeighbors.getD 5 ≤ if s = .all then n else c.nSamples) :
    ∃ (ind : List (Fin n)) (out : Fin t → ℤ),
      ind.length = (if s = .all then n else c.nSamples) ∧ (s = .all → ind = List.finRange n) ∧ (s = .random → ind.Nodup) ∧
      (((Est.new c).fit L ⟨n, f, X⟩ (some ⟨n, y⟩)).1.predict L ⟨t, f, T⟩).2 = .ok out ∧
      ∀ i, ∃ N : Finset (Fin ind.length), N.card = c.knnNeighbors.getD 5 ∧
        let mp := Spec.empiricMP (fun b => L.dist c.metric (T i) (X (ind.get b)))
          (fun a b => L.dist c.metric (X (ind.get a)) (X (ind.get b)))
        (∀ a ∈ N, ∀ b, b ∉ N → mp a ≤ mp b) ∧
        Spec.IsWeightedVote N (fun j => match c.weights with
          | .uniform => 1
          | .distance => if ∃ l ∈ N, mp l = 0 then (if mp j = 0 then 1 else 0) else 1 / mp j) (fun j => y (ind.get j)) (out i) := by
  obtain ⟨hrej, q, hq, he⟩ := fit_ok hfit
  have hf : f ≠ 0 := fun h => hrej (.inr (.inl h))
  set c' := fitConfig c n with hc'
  have hns : c'.nSamples = if s = .all then n else c.nSamples := by
    rw [hc']
    unfold fitConfig
    by_cases ha : s = .all
    · rw [if_pos (by simp [overwrites, hs, hh, ha]), if_pos ha]
    · rw [if_neg (by simp [overwrites, hs, ha]), if_neg ha]
  have hhr : c'.hr = .mp := by rw [hc']; unfold fitConfig; split <;> exact hh
  have hmet : c'.metric = c.metric := by rw [hc']; unfold fitConfig; split <;> rfl
  have hkn' : c'.knnNeighbors = c.knnNeighbors := by rw [hc']; unfold fitConfig; split <;> rfl
  have hwe : c'.weights = c.weights := by rw [hc']; unfold fitConfig; split <;> rfl
  have hsmp : c'.smp = .fixed s := (fitConfig_smp c n).trans hs
  have hfix : fitFixed L c' s X (some ⟨n, y⟩) = .ok q := by
    have : runFit L c' ⟨n, f, X⟩ (some ⟨n, y⟩) = .ok q := hq
    simpa only [runFit, hsmp] using this
  obtain ⟨ind, hv, hp, extra, hq2⟩ := fitFixed_char hfix
  have hlen : ind.length = if s = .all then n else c.nSamples := by
    have := vantage_length L.w _ _ _ _ _ hv
    rw [this, hns]
    split <;> rfl
  have hall : s = .all → ind = List.finRange n := by
    rintro rfl
    exact (Except.ok.inj hv).symm
  have hnd : s = .random → ind.Nodup := by
    rintro rfl
    simp only [vantage] at hv
    split at hv
    · rename_i hlt
      cases hv
      exact List.nodup_ofFn.2 (L.w.shuffle_inj hlt)
    · cases hv
  -- the labels
  have hlab : ∃ y' : Fin ind.length → ℤ, q.1 = some ⟨ind.length, y'⟩ ∧ ∀ a, y' a = y (ind.get a) := by
    cases s with
    | random =>
      simp only [pickLabels, dif_pos] at hp
      exact ⟨_, (Except.ok.inj hp).symm, fun _ => rfl⟩
    | kmeanspp =>
      simp only [pickLabels] at hp
      rw [dif_pos (fun a => (ind.get a).isLt)] at hp
      exact ⟨_, (Except.ok.inj hp).symm, fun _ => rfl⟩
    | all =>
      have hi := hall rfl
      subst hi
      refine ⟨fun a => y (Fin.cast (by simp) a), ?_, fun a => by simp⟩
      rw [← Except.ok.inj hp]
      have : ∀ (m : ℕ) (h : m = n), (some (⟨n, y⟩ : Labels)) = some ⟨m, fun a => y (Fin.cast h a)⟩ := by
        rintro m rfl; rfl
      exact this _ (by simp)
  obtain ⟨y', hy1, hy'⟩ := hlab
  -- the distances
  let mp : Fin t → Fin ind.length → ℝ := fun i => Spec.empiricMP (fun b => L.dist c.metric (T i) (X (ind.get b)))
    (fun a b => L.dist c.metric (X (ind.get a)) (X (ind.get b)))
  have hnn : ∀ i j, 0 ≤ mp i j := by
    intro i j
    show 0 ≤ 1 - _
    rw [sub_nonneg]
    apply div_le_one_of_le₀ _ (Nat.cast_nonneg _)
    exact_mod_cast (Finset.card_le_univ _).trans (by simp)
  have hsec : sec L c' ⟨f, q.1, q.2⟩ ⟨t, f, T⟩ = .ok ⟨t, ind.length, fun _ b => (ind.get b).val, fun i j => .fin (mp i j)⟩ := by
    have htf : transformFixed L c' (fun a => X (ind.get a)) extra T = .ok (fun i j => .fin (mp i j)) := by
      unfold transformFixed
      simp only [hhr, hmet, hm, not_true, if_false]
      rw [mpMatrix_eq]
      refine congrArg Except.ok (funext fun i => funext fun j => ?_)
      rw [mpRow_eq]
      simp only [mp, Spec.empiricMP, hns, hlen]
    unfold sec
    rw [dif_pos rfl]
    simp only [hq2, Fin.cast_eq_self]
    rw [htf]
    rfl
  have htr : (((Est.new c).fit L ⟨n, f, X⟩ (some ⟨n, y⟩)).1.transform L ⟨t, f, T⟩).2 =
      .ok ⟨t, ind.length, fun _ b => (ind.get b).val, fun i j => .fin (mp i j)⟩ := by
    rw [he, transform_eq (m := ⟨f, q.1, q.2⟩) (N := n) rfl rfl (.inr (by rw [hq2]; rfl)), if_neg (by simp only; omega)]
    exact hsec
  have hlpos : 0 < ind.length := by rw [hlen]; omega
  have hE := C115_noop mp ht hlpos hnn
  have hcfg : (((Est.new c).fit L ⟨n, f, X⟩ (some ⟨n, y⟩)).1.transform L ⟨t, f, T⟩).1.config = c' := by
    rw [(transform_core L _ _).1, he]; rfl
  obtain ⟨out, hout, hvote⟩ := C140_fixed_partial L.o c.weights c.knnNeighbors y' mp hnn hk (by rw [hlen]; exact hkn) ht
  refine ⟨ind, out, hlen, hall, hnd, ?_, ?_⟩
  · rw [predict_of_ok (m := ⟨f, q.1, q.2⟩) (by rw [he]) htr hE, hcfg]
    unfold predictFixed at hout
    rw [hE] at hout
    have hpk : predictKnn L c' q.1 ⟨t, ind.length, fun _ b => (ind.get b).val, fun i j => .fin (mp i j)⟩ = .ok out := by
      unfold predictKnn
      simp only [hsmp, hy1, hwe, hkn']
      rw [dif_pos trivial]
      simpa only [Fin.cast_eq_self, bind, Except.bind] using hout
    show Except.map _ (predictKnn L c' q.1 _) = _
    rw [hpk]
    refine congrArg Except.ok (funext fun i => ?_)
    exact dif_pos i.isLt
  · intro i
    obtain ⟨N, h1, h2, h3⟩ := hvote i
    refine ⟨N, h1, h2, ?_⟩
    have : (fun j => y (ind.get j)) = y' := funext fun a => (hy' a).symm
    rw [this]
    exact h3

/-! ### Examples -/

-- C177: DisSim Local with HNSW; the test object at 0 gets a negative distance.
theorem pad_two {n : ℕ} (a b : Fin n × ℝ) : padRow 1 [b] [a, b] = .ok (fun _ => b) := by
  unfold padRow
  simp only [List.getLast?_cons_cons, List.getLast?_singleton, List.map_cons, List.map_nil, Np.amax, List.foldl_cons, List.foldl_nil, fmax_fin]
  refine congrArg Except.ok (funext fun c => ?_)
  have : c = 0 := Subsingleton.elim _ _
  subst this
  rfl

theorem hnsw_train (hr : Hr) : annFit exLib (exConfig hr .hnsw 1) (lineX 2) =
    .ok (fun i _ => ((1 : Fin 2), .fin (√(sqDist (lineX 2 i) (lineX 2 1)) ^ 2))) := by
  unfold annFit
  rw [if_neg (by simp [exConfig])]
  have h : hnswFit (fun i => exLib.hnsw (exConfig hr .hnsw 1).metric (lineX 2) (lineX 2 i)) (hnswPost (exConfig hr .hnsw 1).metric) 1 =
      .ok (fun i _ => ((1 : Fin 2), √(sqDist (lineX 2 i) (lineX 2 1)) ^ 2)) := by
    refine tabulateM_ok _ _ (fun i => ?_)
    have hp := pad_two ((0 : Fin 2), √(sqDist (lineX 2 i) (lineX 2 0))) ((1 : Fin 2), √(sqDist (lineX 2 i) (lineX 2 1)))
    simp only [bind, Except.bind, pure, Except.pure]
    have ha : exLib.hnsw (exConfig hr .hnsw 1).metric (lineX 2) (lineX 2 i) (1 + 1) =
        [((0 : Fin 2), √(sqDist (lineX 2 i) (lineX 2 0))), ((1 : Fin 2), √(sqDist (lineX 2 i) (lineX 2 1)))] := rfl
    rw [ha]
    rw [List.tail_cons, hp]
    simp [hnswPost, exConfig]
  have h' := congrArg (Except.map (fun (r : Fin 2 → Fin 1 → Fin 2 × ℝ) i j => ((r i j).1, (XR.fin (r i j).2 : XR ℝ)))) h
  exact h'

example : ∃ (A T : Data) (r : Result) (i : Fin r.t) (j : Fin r.s),
    (((Est.new (exConfig .dsl .hnsw 1)).fit exLib A none).1.transform exLib T).2 = .ok r ∧ ¬ ∃ x, 0 ≤ x ∧ r.dist i j = .fin x := by
  obtain ⟨m, hm, d, hd, rfl⟩ : ∃ m, fitVaried exLib (exConfig .dsl .hnsw 1) (lineX 2) = .ok m ∧ ∃ d : Fin 2 → XR ℝ, d 0 = .fin 1 ∧
      m = .varied 2 1 (lineX 2) (fun i _ => ((1 : Fin 2), .fin (√(sqDist (lineX 2 i) (lineX 2 1)) ^ 2))) (.toCentroid d) := by
    unfold fitVaried
    rw [hnsw_train]
    refine ⟨_, rfl, _, ?_, rfl⟩
    norm_num [toCentre, exConfig, sqDist, centroidOf, lineX]
  have hfit := fit_of_ok (L := exLib) (e := Est.new (exConfig .dsl .hnsw 1)) (A := line 2) (y := none)
    (line_ok 2 (by decide) _ (by simp)) (r := (none, _)) (congrArg (Except.map (fun m => ((none : Option Labels), m))) hm)
  refine ⟨line 2, line 1, ?_⟩
  rw [hfit, transform_eq rfl rfl (.inr le_rfl), if_neg (by rintro (h | h) <;> exact one_ne_zero h)]
  refine ⟨_, ⟨0, ?_⟩, ⟨0, ?_⟩, rfl, ?_⟩
  · exact Nat.one_pos
  · exact Nat.one_pos
  · rintro ⟨x, hx, h⟩
    have h' : XR.sub (XR.sub (.fin (√(sqDist (lineX 1 0) (lineX 2 0)) ^ 2)) (toCentre "sqeuclidean" (lineX 1 0)
        (centroidOf (lineX 2) (fun _ : Fin (min 1 1) => (0 : Fin 2))))) (d 0) = .fin x := h
    rw [hd] at h'
    norm_num [toCentre, sqDist, centroidOf, lineX, XR.sub, XR.add, XR.neg] at h'
    linarith

-- C178: five objects, all of them or three of them are vantage points.
example : ((Est.new (exConfig .mp (.fixed .all) 3)).fit exLib (line 5) (some ⟨5, ![0, 0, 1, 1, 1]⟩)).2 = none ∧
    ((Est.new (exConfig .mp (.fixed .random) 3)).fit exLib (line 5) (some ⟨5, ![0, 0, 1, 1, 1]⟩)).2 = none ∧
    (exConfig .mp (.fixed .all) 3).knnNeighbors.getD 5 = 1 ∧ Known (exConfig .mp (.fixed .all) 3).metric := by
  refine ⟨?_, ?_, rfl, .inl rfl⟩
  · rw [fit_of_ok (line_ok 5 (by decide) _ (by rintro y' ⟨⟩; exact Nat.succ_ne_zero _)) (r := _) rfl]
  · rw [fit_of_ok (line_ok 5 (by decide) _ (by rintro y' ⟨⟩; exact Nat.succ_ne_zero _)) (r := _) rfl]

-- C179, C180: no labels, with an index; six labels for five objects.
example : ((Est.new (exConfig .ls .hnsw 1)).fit exLib (line 2) none).2 = none := by
  obtain ⟨m, h⟩ : ∃ m, fitVaried exLib (exConfig .ls .hnsw 1) (lineX 2) = .ok m := by
    unfold fitVaried
    rw [hnsw_train]
    exact ⟨_, rfl⟩
  rw [fit_of_ok (L := exLib) (e := Est.new (exConfig .ls .hnsw 1)) (A := line 2) (y := none)
    (line_ok 2 (by decide) _ (by simp)) (r := (none, m)) (congrArg (Except.map (fun m => ((none : Option Labels), m))) h)]

example : ((Est.new (exConfig .mp (.fixed .all) 3)).fit exLib (line 5) (some ⟨6, ![0, 0, 1, 1, 1, 0]⟩)).2 = none := by
  rw [fit_of_ok (line_ok 5 (by decide) _ (by rintro y' ⟨⟩; exact Nat.succ_ne_zero _)) (r := _) rfl]

-- C180, C181: two test objects.
example : ∃ r, (((Est.new (exConfig .mpg (.fixed .random) 3)).fit exLib (line 5) none).1.transform exLib (line 2)).2 = .ok r ∧
    0 < r.t ∧ 0 < r.s := by
  rw [fit_of_ok (line_ok 5 (by decide) _ (by simp)) (r := _) rfl]
  rw [transform_eq rfl rfl (.inr le_rfl), if_neg (by rintro (h | h); exacts [two_ne_zero h, one_ne_zero h])]
  exact ⟨_, rfl, Nat.zero_lt_two, Nat.zero_lt_succ _⟩

end HubToolbox.Approx
