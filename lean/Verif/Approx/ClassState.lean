import Verif.Approx.ClassModel
import Verif.Approx.MP
import Verif.Approx.LocalSample
import Verif.MPPar.Props
import Verif.NpSort

/-!
# `SuQHR`: what fitting leaves behind

Statements about sequences of method calls.
-/

set_option autoImplicit false

namespace HubToolbox.Approx

/-- A method call. -/
inductive Op where
  | fit (A : Data) (y : Option Labels)
  | transform (T : Data)
  | predict (T : Data)

/-- The estimator after a method call, whether it raised or not. -/
noncomputable def Op.run (L : Lib) (e : Est) : Op → Est
  | .fit A y => (e.fit L A y).1
  | .transform T => (e.transform L T).1
  | .predict T => (e.predict L T).1

/-- The estimator after some method calls. -/
noncomputable def runOps (L : Lib) (e : Est) (ops : List Op) : Est := ops.foldl (Op.run L) e

/-- A call which is not `fit`. -/
def Op.isQuery : Op → Prop
  | .fit _ _ => False
  | _ => True

/-- The parts of an estimator on which results depend. -/
def SameCore (e e' : Est) : Prop := e.config = e'.config ∧ e.nTrain = e'.nTrain ∧ e.fitted = e'.fitted

theorem SameCore.refl (e : Est) : SameCore e e := ⟨rfl, rfl, rfl⟩

theorem SameCore.trans {e e' e'' : Est} (h : SameCore e e') (h' : SameCore e' e'') : SameCore e e'' :=
  ⟨h.1.trans h'.1, h.2.1.trans h'.2.1, h.2.2.trans h'.2.2⟩

theorem SameCore.symm {e e' : Est} (h : SameCore e e') : SameCore e' e := ⟨h.1.symm, h.2.1.symm, h.2.2.symm⟩

theorem transform_core (L : Lib) (e : Est) (T : Data) : SameCore (e.transform L T).1 e := by
  unfold Est.transform
  split
  · exact .refl e
  · split
    · split
      · exact .refl e
      · simp only
        split <;> exact ⟨rfl, rfl, rfl⟩
    · exact .refl e

theorem transform_congr (L : Lib) {e e' : Est} (h : SameCore e e') (T : Data) :
    (e.transform L T).2 = (e'.transform L T).2 := by
  obtain ⟨c, n, m, r, s⟩ := e
  obtain ⟨c', n', m', r', s'⟩ := e'
  obtain ⟨rfl, rfl, rfl⟩ : c = c' ∧ n = n' ∧ m = m' := h
  unfold Est.transform
  split
  · rfl
  · cases m <;> cases n <;> simp only
    split
    · rfl
    · split <;> rfl

theorem predict_core (L : Lib) (e : Est) (T : Data) : SameCore (e.predict L T).1 e := by
  have h := transform_core L e T
  unfold Est.predict
  split
  · exact .refl e
  · split
    · rename_i heq; rw [heq] at h; exact h
    · rename_i heq
      rw [heq] at h
      split
      · exact h
      · exact ⟨h.1, h.2.1, h.2.2⟩

theorem predict_congr (L : Lib) {e e' : Est} (h : SameCore e e') (T : Data) :
    (e.predict L T).2 = (e'.predict L T).2 := by
  have ht := transform_congr L h T
  have h1 := (transform_core L e T).1
  have h2 := (transform_core L e' T).1
  unfold Est.predict
  rw [← h.2.2]
  cases e.fitted with
  | none => rfl
  | some m =>
    simp only
    rcases he : e.transform L T with ⟨a, r⟩
    rcases he' : e'.transform L T with ⟨a', r'⟩
    rw [he] at ht h1
    rw [he'] at ht h2
    obtain rfl : r = r' := ht
    cases r with
    | error err => rfl
    | ok r =>
      simp only
      cases enforceFinite r.dist with
      | error err => rfl
      | ok E => simp only; rw [h1, h2, h.1]

theorem query_core (L : Lib) (e : Est) (op : Op) (h : op.isQuery) : SameCore (op.run L e) e := by
  cases op with
  | fit A y => exact h.elim
  | transform T => exact transform_core L e T
  | predict T => exact predict_core L e T

theorem queries_core (L : Lib) (ops : List Op) (e : Est) (h : ∀ op ∈ ops, op.isQuery) : SameCore (runOps L e ops) e := by
  induction ops generalizing e with
  | nil => exact .refl e
  | cons op ops ih =>
    exact (ih (op.run L e) (fun o ho => h o (List.mem_cons_of_mem _ ho))).trans (query_core L e op (h op List.mem_cons_self))

theorem overwrites_fitConfig (c : Config) (n : ℕ) : overwrites (fitConfig c n) = overwrites c := by
  unfold fitConfig
  split <;> rfl

theorem fitConfig_fitConfig (c : Config) (n m : ℕ) : fitConfig (fitConfig c m) n = fitConfig c n := by
  unfold fitConfig
  by_cases h : overwrites c = true
  · have h' : overwrites { c with nSamples := m } = true := h
    simp [h, h']
  · simp [h]

/-- The parameters after any calls: those of the constructor, possibly with another `n_samples`. -/
theorem config_run (L : Lib) (c : Config) (op : Op) (e : Est) (h : ∀ n, fitConfig e.config n = fitConfig c n) (n : ℕ) :
    fitConfig (op.run L e).config n = fitConfig c n := by
  cases op with
  | transform T => rw [show (Op.run L e (.transform T)).config = e.config from (transform_core L e T).1, h]
  | predict T => rw [show (Op.run L e (.predict T)).config = e.config from (predict_core L e T).1, h]
  | fit A y =>
    show fitConfig (e.fit L A y).1.config n = _
    unfold Est.fit
    split
    · exact h n
    · split <;> exact (fitConfig_fitConfig _ _ _).trans (h n)

theorem config_ops (L : Lib) (c : Config) (ops : List Op) (e : Est) (h : ∀ n, fitConfig e.config n = fitConfig c n) (n : ℕ) :
    fitConfig (runOps L e ops).config n = fitConfig c n := by
  induction ops generalizing e with
  | nil => exact h n
  | cons op ops ih => exact ih (op.run L e) (config_run L c op e h)

theorem fit_congr (L : Lib) {e e' : Est} (h : ∀ n, fitConfig e.config n = fitConfig e'.config n) (A : Data) (y : Option Labels) :
    (e.fit L A y).2 = (e'.fit L A y).2 ∧ ((e.fit L A y).2 = none → SameCore (e.fit L A y).1 (e'.fit L A y).1) := by
  unfold Est.fit
  rw [h A.n]
  split
  · exact ⟨rfl, fun h => by cases h⟩
  · split
    · exact ⟨rfl, fun h => by cases h⟩
    · exact ⟨rfl, fun _ => ⟨rfl, rfl, rfl⟩⟩

/-- C174: after a successful `fit` all results are those of a new estimator fitted to the same data. What was fitted, transformed or
predicted before, and whether it raised, does not matter, nor do queries after fitting. -/
theorem C174_refit (L : Lib) (c : Config) (before after : List Op) (hq : ∀ op ∈ after, op.isQuery) (A : Data) (y : Option Labels) (T : Data) :
    ((runOps L (Est.new c) before).fit L A y).2 = ((Est.new c).fit L A y).2 ∧
    (((Est.new c).fit L A y).2 = none →
      ((runOps L ((runOps L (Est.new c) before).fit L A y).1 after).transform L T).2 = (((Est.new c).fit L A y).1.transform L T).2 ∧
      ((runOps L ((runOps L (Est.new c) before).fit L A y).1 after).predict L T).2 = (((Est.new c).fit L A y).1.predict L T).2) := by
  have h := fit_congr L (e := runOps L (Est.new c) before) (e' := Est.new c) (config_ops L c before (Est.new c) (fun _ => rfl)) A y
  refine ⟨h.1, fun hn => ?_⟩
  have hs := (queries_core L after _ hq).trans (h.2 (h.1.trans hn))
  exact ⟨transform_congr L hs T, predict_congr L hs T⟩

/-! ### Failing calls of `fit` -/

theorem fit_ok {L : Lib} {e : Est} {A : Data} {y : Option Labels} (h : (e.fit L A y).2 = none) :
    ¬ Rejected A y ∧ ∃ r, runFit L (fitConfig e.config A.n) A y = .ok r ∧
      (e.fit L A y).1 = { e with nTrain := some A.n, config := fitConfig e.config A.n, fitted := some ⟨A.f, r.1, r.2⟩ } := by
  unfold Est.fit at h ⊢
  split at h
  · cases h
  · rename_i hr
    refine ⟨hr, ?_⟩
    rw [if_neg hr]
    split at h
    · cases h
    · rename_i r heq
      exact ⟨r, heq, rfl⟩

theorem fit_of_ok {L : Lib} {e : Est} {A : Data} {y : Option Labels} (hr : ¬ Rejected A y) {r : Option Labels × Model A.f}
    (h : runFit L (fitConfig e.config A.n) A y = .ok r) :
    e.fit L A y = ({ e with nTrain := some A.n, config := fitConfig e.config A.n, fitted := some ⟨A.f, r.1, r.2⟩ }, none) := by
  unfold Est.fit
  rw [if_neg hr, h]

theorem fit_of_error {L : Lib} {e : Est} {A : Data} {y : Option Labels} (hr : ¬ Rejected A y) {err : PyErr}
    (h : runFit L (fitConfig e.config A.n) A y = .error err) :
    e.fit L A y = ({ e with nTrain := some A.n, config := fitConfig e.config A.n }, some err) := by
  unfold Est.fit
  rw [if_neg hr, h]

/-- The number of objects a model was fitted to. -/
def Model.size {f : ℕ} : Model f → ℕ
  | .fixed n _ _ _ => n
  | .varied n _ _ _ _ => n

theorem fitFixed_char {L : Lib} {c : Config} {s : Sampling} {n f : ℕ} {X : Fin n → Fin f → ℝ} {y : Option Labels}
    {r : Option Labels × Model f} (h : fitFixed L c s X y = .ok r) :
    ∃ ind, vantage L.w (fun i j => L.dist c.metric (X i) (X j)) c.metric s c.nSamples = .ok ind ∧
      pickLabels s ind y = .ok r.1 ∧ ∃ extra, r.2 = .fixed n ind (fun a => X (ind.get a)) extra := by
  unfold fitFixed at h
  simp only [bind, Except.bind, pure, Except.pure, throw, throwThe, MonadExceptOf.throw] at h
  rcases hv : vantage L.w (fun i j => L.dist c.metric (X i) (X j)) c.metric s c.nSamples with err | ind
  · rw [hv] at h; cases h
  rw [hv] at h
  simp only at h
  rcases hp : pickLabels s ind y with err | y'
  · rw [hp] at h; cases h
  rw [hp] at h
  simp only at h
  refine ⟨ind, rfl, ?_⟩
  rw [hp]
  repeat' split at h
  all_goals first
    | (cases h; done)
    | (cases h; exact ⟨rfl, _, rfl⟩)

theorem fitVaried_char {L : Lib} {c : Config} {n f : ℕ} {X : Fin n → Fin f → ℝ} {m : Model f} (h : fitVaried L c X = .ok m) :
    ∃ train extra, annFit L c X = .ok train ∧ m = .varied n c.nSamples X train extra := by
  unfold fitVaried at h
  simp only [bind, Except.bind, pure, Except.pure, throw, throwThe, MonadExceptOf.throw] at h
  rcases ha : annFit L c X with err | train
  · rw [ha] at h; cases h
  rw [ha] at h
  simp only at h
  repeat' split at h
  all_goals first
    | (cases h; done)
    | (cases h; exact ⟨train, _, rfl, rfl⟩)

theorem runFit_size {L : Lib} {c : Config} {A : Data} {y : Option Labels} {r : Option Labels × Model A.f}
    (h : runFit L c A y = .ok r) : r.2.size = A.n := by
  unfold runFit at h
  split at h
  · obtain ⟨ind, -, -, extra, hr⟩ := fitFixed_char h
    rw [hr]; rfl
  · rcases hv : fitVaried L c A.X with err | m
    · rw [hv] at h; cases h
    · rw [hv] at h
      obtain ⟨train, extra, -, hm⟩ := fitVaried_char hv
      cases h
      simp only [hm]; rfl

theorem sec_lt {L : Lib} {c : Config} {m : Fitted} {T : Data} {r : Result} (h : sec L c m T = .ok r) :
    ∀ i j, r.ind i j < m.model.size := by
  unfold sec at h
  split at h
  · obtain ⟨f, y, model⟩ := m
    cases model with
    | fixed n ind V extra =>
      simp only at h
      rcases ht : transformFixed L c V extra _ with err | D
      · rw [ht] at h; cases h
      · rw [ht] at h
        cases h
        intro i j
        exact (ind.get j).isLt
    | varied n k X train extra =>
      simp only at h
      rcases ht : transformVaried L c X train extra _ with err | D
      · rw [ht] at h; cases h
      · rw [ht] at h
        cases h
        intro i j
        exact (D i j).1.isLt
  · cases h

theorem sparseOf_ok {c : Config} {N : ℕ} {r : Result} (h : c.smp = .fixed .all ∨ ∀ i j, r.ind i j < N) :
    ∃ s, sparseOf c N r = .ok s := by
  unfold sparseOf
  rcases h with h | h
  · exact ⟨_, if_pos h⟩
  · by_cases ha : c.smp = .fixed .all
    · exact ⟨_, if_pos ha⟩
    · rw [if_neg ha]
      exact ⟨_, dif_pos h⟩

/-- Transformation with a sufficient `n_train_`. -/
theorem transform_eq {L : Lib} {e : Est} {m : Fitted} {N : ℕ} {T : Data} (hm : e.fitted = some m) (hN : e.nTrain = some N)
    (h : e.config.smp = .fixed .all ∨ m.model.size ≤ N) :
    (e.transform L T).2 = if T.n = 0 ∨ T.f = 0 then .error .valueError else sec L e.config m T := by
  unfold Est.transform
  split
  · rfl
  · simp only [hm, hN]
    rcases hs : sec L e.config m T with err | r
    · rfl
    · obtain ⟨s, hs'⟩ := sparseOf_ok (c := e.config) (N := N) (r := r) (h.imp id (fun h i j => (sec_lt hs i j).trans_le h))
      simp only [hs']

/-- Where `n_samples` is overwritten, data of which some could be fitted cannot fail later. -/
theorem runFit_overwrites {L : Lib} {c : Config} (hc : overwrites c = true) {A : Data} {y : Option Labels} {r : Option Labels × Model A.f}
    (h : runFit L c A y = .ok r) (B : Data) (z : Option Labels) (n : ℕ) : ∃ r', runFit L { c with nSamples := n } B z = .ok r' := by
  obtain ⟨hr, smp, metric, nn, ns, nj, kn, we⟩ := c
  simp only [overwrites, decide_eq_true_eq] at hc
  obtain ⟨rfl, hc⟩ := hc
  have hp : ∀ ind : List (Fin B.n), pickLabels .all ind z = .ok z := by
    intro ind
    cases z <;> rfl
  rcases hc with rfl | rfl
  · exact ⟨(z, .fixed B.n (List.finRange B.n) (fun a => B.X ((List.finRange B.n).get a)) .nothing), by
      simp only [runFit, fitFixed, vantage, bind, Except.bind, pure, Except.pure, hp]⟩
  · by_cases hk : Known metric
    · exact ⟨(z, .fixed B.n (List.finRange B.n) (fun a => B.X ((List.finRange B.n).get a)) (.moments (mpgMoments .all
        (fun a b => L.dist metric (B.X ((List.finRange B.n).get a)) (B.X ((List.finRange B.n).get b)))))), by
        simp only [runFit, fitFixed, vantage, bind, Except.bind, pure, Except.pure, hp, hk, not_true, if_false]⟩
    · simp only [runFit, fitFixed, vantage, bind, Except.bind, pure, Except.pure, hk, not_false_eq_true, if_true, throw, throwThe,
        MonadExceptOf.throw] at h
      split at h <;> cases h

/-- C175 holds if the data of the failing call have at least as many objects, or without sampling: transformations are those of the last
successful `fit`. -/
theorem C175_partial (L : Lib) (e : Est) (A B T : Data) (y z : Option Labels) (hA : (e.fit L A y).2 = none) (err : PyErr)
    (hB : ((e.fit L A y).1.fit L B z).2 = some err) (h : A.n ≤ B.n ∨ e.config.smp = .fixed .all) :
    (((e.fit L A y).1.fit L B z).1.transform L T).2 = ((e.fit L A y).1.transform L T).2 := by
  obtain ⟨-, r, hr, he⟩ := fit_ok hA
  have hsmp : (fitConfig e.config A.n).smp = e.config.smp := by unfold fitConfig; split <;> rfl
  by_cases hrej : Rejected B z
  · congr 2
    unfold Est.fit
    rw [if_pos hrej]
  · rw [he] at hB ⊢
    set e' : Est := { e with nTrain := some A.n, config := fitConfig e.config A.n, fitted := some ⟨A.f, r.1, r.2⟩ } with he'
    rcases hrun : runFit L (fitConfig e'.config B.n) B z with er | r'
    · rw [fit_of_error hrej hrun]
      have hov : overwrites (fitConfig e.config A.n) = false := by
        rw [Bool.eq_false_iff]
        intro hov
        obtain ⟨r', hr'⟩ := runFit_overwrites hov hr B z B.n
        have : fitConfig e'.config B.n = { fitConfig e.config A.n with nSamples := B.n } := if_pos hov
        rw [this, hr'] at hrun
        cases hrun
      have hcfg : fitConfig e'.config B.n = e'.config := if_neg (by simp [he', hov])
      have hsize := runFit_size hr
      rw [transform_eq (m := ⟨A.f, r.1, r.2⟩) (N := B.n) rfl rfl, transform_eq (m := ⟨A.f, r.1, r.2⟩) (N := A.n) rfl rfl]
      · simp only [hcfg]
      · right; exact hsize.le
      · rcases h with h | h
        · right; exact hsize.le.trans h
        · left; exact (congrArg Config.smp hcfg).trans (hsmp.trans h)
    · rw [fit_of_ok hrej hrun] at hB
      cases hB

/-- C175 is violated by random sampling: if fitting fails because there are less objects than samples, an estimator which transformed `T`
before cannot transform anything any more. -/
theorem C175_violated (L : Lib) (c : Config) (hc : c.smp = .fixed .random) (A B T : Data) (y z : Option Labels)
    (hA : ((Est.new c).fit L A y).2 = none) (hB : ¬ Rejected B z) (hBn : B.n < c.nSamples) (r : Result)
    (hT : (((Est.new c).fit L A y).1.transform L T).2 = .ok r) :
    (((Est.new c).fit L A y).1.fit L B z).2 = some .valueError ∧
    ((((Est.new c).fit L A y).1.fit L B z).1.transform L T).2 = .error .valueError := by
  obtain ⟨-, q, hq, he⟩ := fit_ok hA
  have hov : overwrites c = false := by simp [overwrites, hc]
  have hcfg : ∀ n, fitConfig c n = c := fun n => if_neg (by simp [hov])
  rw [he] at hT ⊢
  simp only [Est.new, hcfg] at hq hT ⊢
  have hrun : runFit L c B z = .error .valueError := by
    simp only [runFit, hc, fitFixed, vantage, dif_neg (not_lt.2 hBn.le), bind, Except.bind]
  rw [fit_of_error (err := .valueError) hB (by simp only [hcfg]; exact hrun)]
  refine ⟨rfl, ?_⟩
  rw [transform_eq (m := ⟨A.f, q.1, q.2⟩) (N := A.n) rfl rfl (.inr (runFit_size hq).le)] at hT
  unfold Est.transform
  split at hT
  · cases hT
  · rename_i hrej
    simp only [if_neg hrej, hcfg]
    simp only at hT
    rw [hT]
    simp only
    have hfix : fitFixed L c .random A.X y = .ok q := by simpa only [runFit, hc] using hq
    obtain ⟨ind, hv, -, extra, hm⟩ := fitFixed_char hfix
    have hlen : ind.length = c.nSamples := by simpa using vantage_length L.w _ _ _ _ _ hv
    have hnd : ind.Nodup := by
      simp only [vantage] at hv
      split at hv
      · rename_i hlt
        cases hv
        exact List.nodup_ofFn.2 (L.w.shuffle_inj hlt)
      · cases hv
    have hbad : ¬ ∀ i j, r.ind i j < B.n := by
      intro hall
      unfold sec at hT
      split at hT
      · rename_i hf
        simp only [hm] at hT
        rcases ht : transformFixed L c (fun a => A.X (ind.get a)) extra (fun i j => T.X i (Fin.cast hf.symm j)) with err | D
        · rw [ht] at hT; cases hT
        · rw [ht] at hT
          cases hT
          have hT0 : 0 < T.n := by omega
          have hall' : ∀ b : Fin ind.length, (ind.get b).val < B.n := fun b => hall ⟨0, hT0⟩ b
          have hcard := Fintype.card_le_of_injective (fun b : Fin ind.length => (⟨(ind.get b).val, hall' b⟩ : Fin B.n)) (by
            intro a b hab
            have := congrArg Fin.val hab
            exact List.nodup_iff_injective_get.1 hnd (Fin.ext this))
          simp at hcard
          omega
      · cases hT
    have hsp : sparseOf c B.n r = .error .valueError := by
      unfold sparseOf
      rw [if_neg (by simp [hc]), dif_neg hbad]
    simp only [hsp]

/-! ### Parameters -/

/-- C176 holds except for Mutual Proximity without sampling: no method changes the parameters of an estimator. -/
theorem C176_partial (L : Lib) (c : Config) (h : c.smp ≠ .fixed .all ∨ (c.hr ≠ .mp ∧ c.hr ≠ .mpg)) (ops : List Op) :
    (runOps L (Est.new c) ops).config = c := by
  have hov : overwrites c = false := by
    simp only [overwrites, decide_eq_false_iff_not]
    tauto
  have hcfg : ∀ n, fitConfig c n = c := fun n => if_neg (by simp [hov])
  have key : ∀ (ops : List Op) (e : Est), e.config = c → (runOps L e ops).config = c := by
    intro ops
    induction ops with
    | nil => exact fun e h => h
    | cons op ops ih =>
      intro e he
      refine ih _ ?_
      cases op with
      | transform T => exact (transform_core L e T).1.trans he
      | predict T => exact (predict_core L e T).1.trans he
      | fit A y =>
        show (e.fit L A y).1.config = c
        unfold Est.fit
        rw [he]
        split
        · exact he
        · split <;> exact hcfg _
  exact key ops _ rfl

/-- C176 is violated by Mutual Proximity without sampling: `fit` replaces `n_samples` by the number of objects. Changing only the sampling
to `'random'` afterwards makes `fit` raise for the same data, where a new estimator with these parameters fits. -/
theorem C176_violated (L : Lib) (c : Config) (hs : c.smp = .fixed .all) (hh : c.hr = .mp ∨ c.hr = .mpg) (A : Data) (y : Option Labels)
    (hA : ((Est.new c).fit L A y).2 = none) (hn : c.nSamples < A.n) :
    ((Est.new c).fit L A y).1.config.nSamples = A.n ∧ ((Est.new c).fit L A y).1.config ≠ c ∧
    (((((Est.new c).fit L A y).1.setParams { ((Est.new c).fit L A y).1.config with smp := .fixed .random }).fit L A none).2 =
      some .valueError) ∧
    ((Est.new { c with smp := .fixed .random }).fit L A none).2 = none := by
  obtain ⟨hrej, q, hq, he⟩ := fit_ok hA
  have hov : overwrites c = true := by simp [overwrites, hs, hh]
  have hcfg : fitConfig c A.n = { c with nSamples := A.n } := if_pos hov
  have hrej' : ¬ Rejected A none := by
    intro h
    apply hrej
    rcases h with h | h | ⟨y', h, -⟩
    · exact .inl h
    · exact .inr (.inl h)
    · cases h
  simp only [Est.new, hcfg] at hq he ⊢
  rw [he]
  refine ⟨rfl, ?_, ?_, ?_⟩
  · intro h
    have := congrArg Config.nSamples h
    simp only at this
    omega
  · have hcr : ∀ c' : Config, c'.smp = .fixed .random → fitConfig c' A.n = c' := fun c' h => if_neg (by simp [overwrites, h])
    rw [fit_of_error (err := .valueError) hrej']
    rw [hcr _ rfl]
    have hv : vantage L.w (fun i j => L.dist c.metric (A.X i) (A.X j)) c.metric .random A.n = .error .valueError := dif_neg (lt_irrefl _)
    simp only [runFit, Est.setParams, fitFixed, bind, Except.bind, hv]
  · have hcr : ∀ c' : Config, c'.smp = .fixed .random → fitConfig c' A.n = c' := fun c' h => if_neg (by simp [overwrites, h])
    obtain ⟨r', hr'⟩ : ∃ r', runFit L { c with smp := .fixed .random } A none = .ok r' := by
      obtain ⟨hr, smp, metric, nn, ns, nj, kn, we⟩ := c
      simp only at hs hh hn
      subst hs
      rcases hh with rfl | rfl
      · exact ⟨(none, .fixed A.n (List.ofFn (L.w.shuffle hn)) (fun a => A.X ((List.ofFn (L.w.shuffle hn)).get a)) .nothing), by
          simp only [runFit, fitFixed, vantage, dif_pos hn, bind, Except.bind, pure, Except.pure, pickLabels]⟩
      · by_cases hk : Known metric
        · exact ⟨(none, .fixed A.n (List.ofFn (L.w.shuffle hn)) (fun a => A.X ((List.ofFn (L.w.shuffle hn)).get a))
            (.moments (mpgMoments .random (fun a b => L.dist metric (A.X ((List.ofFn (L.w.shuffle hn)).get a))
              (A.X ((List.ofFn (L.w.shuffle hn)).get b)))))), by
            simp only [runFit, fitFixed, vantage, dif_pos hn, bind, Except.bind, pure, Except.pure, pickLabels, hk, not_true, if_false]⟩
        · simp only [runFit, fitFixed, vantage, bind, Except.bind, pure, Except.pure, hk, not_false_eq_true, if_true, throw, throwThe,
            MonadExceptOf.throw] at hq
          split at hq <;> cases hq
    rw [fit_of_ok hrej' (r := r') (by rw [hcr _ rfl]; exact hr')]

/-! ### Examples -/

/-- Something to instantiate the theorems with: exact answers of the indices are not needed here. -/
noncomputable def exLib : Lib where
  w := realWorld
  o := ArgPart.ofInsertion (XR ℝ)
  F := MPPar.simple
  dist := fun _ _ x y => sqDist x y
  dist_sq := fun _ _ => rfl
  hnsw := fun _ _ _ X x k => ((List.finRange _).map (fun i => (i, √(sqDist x (X i))))).take k
  lsh := fun _ _ _ _ _ k => (List.finRange _).take k
  near := fun _ _ _ _ _ _ => []
  memory := fun _ _ => .nan

/-- The numbers 0, ..., n - 1 as objects with one feature. -/
noncomputable def lineX (n : ℕ) : Fin n → Fin 1 → ℝ := fun i _ => i.val

/-- The same as array. -/
noncomputable def line (n : ℕ) : Data := ⟨n, 1, lineX n⟩

/-- Parameters. -/
def exConfig (hr : Hr) (smp : Smp) (nSamples : ℕ) : Config := ⟨hr, smp, "sqeuclidean", 1, nSamples, 1, some 1, .uniform⟩

theorem line_ok (n : ℕ) (hn : n ≠ 0) (y : Option Labels) (hy : ∀ y', y = some y' → y'.1 ≠ 0) : ¬ Rejected (line n) y := by
  rintro (h | h | ⟨y', h, h'⟩)
  · exact hn h
  · exact one_ne_zero h
  · exact hy y' h h'

-- C174: three fits and queries, the second fit fails.
example : ((Est.new (exConfig .none (.fixed .random) 3)).fit exLib (line 5) none).2 = none ∧
    ((Est.new (exConfig .none (.fixed .random) 3)).fit exLib (line 2) none).2 = some .valueError := by
  constructor
  · rw [fit_of_ok (line_ok 5 (by decide) _ (by simp)) (r := _) rfl]
  · rw [fit_of_error (line_ok 2 (by decide) _ (by simp)) (err := .valueError) rfl]

-- C175: an estimator with three vantage points of five transforms; fitting two objects fails, and six objects with labels for two.
example : ∃ r, (((Est.new (exConfig .none (.fixed .random) 3)).fit exLib (line 5) none).1.transform exLib (line 1)).2 = .ok r ∧
    ¬ Rejected (line 2) none ∧ (line 2).n < 3 ∧ (exConfig .none (.fixed .random) 3).nSamples = 3 := by
  rw [fit_of_ok (line_ok 5 (by decide) _ (by simp)) (r := _) rfl]
  rw [transform_eq rfl rfl (.inr le_rfl), if_neg (by rintro (h | h) <;> exact one_ne_zero h)]
  exact ⟨_, rfl, line_ok 2 (by decide) _ (by simp), by decide, rfl⟩

example : ((((Est.new (exConfig .none (.fixed .random) 3)).fit exLib (line 5) none).1.fit exLib (line 6) (some ⟨2, ![0, 1]⟩)).2 =
    some .valueError) ∧ (line 5).n ≤ (line 6).n := by
  refine ⟨?_, by decide⟩
  rw [fit_of_ok (line_ok 5 (by decide) _ (by simp)) (r := _) rfl]
  rw [fit_of_error (line_ok 6 (by decide) _ (by rintro y' ⟨⟩; exact two_ne_zero)) (err := .valueError) rfl]

-- C176: Mutual Proximity without sampling.
example : ((Est.new (exConfig .mp (.fixed .all) 3)).fit exLib (line 5) none).2 = none ∧
    (exConfig .mp (.fixed .all) 3).nSamples < (line 5).n := by
  refine ⟨?_, by decide⟩
  rw [fit_of_ok (line_ok 5 (by decide) _ (by simp)) (r := _) rfl]

end HubToolbox.Approx
