import Verif.HubClass.Stats

/-! What the neighbour lists of `fit_transform` look like. -/

set_option autoImplicit false

namespace HubToolbox.HubClass

open Spec Hubness

/-- A loop filling row after row: it succeeds iff all rows do. -/
theorem loop_ok {n : ℕ} {α β : Type} (f : Fin n → Py α) (h : α → β) (g : Fin n → α)
    (hf : ∀ i, f i = .ok (g i)) (init : Fin n → β) :
    (List.finRange n).foldlM (fun (R : Fin n → β) (i : Fin n) => do
      let row ← f i
      pure (Function.update R i (h row))) init = (.ok (fun i => h (g i)) : Py (Fin n → β)) := by
  have hb : ∀ (R : Fin n → β) (i : Fin n), (do
      let row ← f i
      pure (Function.update R i (h row)) : Py (Fin n → β)) = (do
      let row ← (do let row ← f i; pure (h row) : Py β)
      pure (Function.update R i row)) := by
    intro R i; rw [hf i]; rfl
  simp only [hb]
  exact foldlM_update_finRange _ (fun i => h (g i)) (fun i => by rw [hf i]; rfl) init

theorem loop_error {n : ℕ} {α β : Type} (f : Fin n → Py α) (h : α → β) (e : PyErr)
    (hf : ∀ i, f i = .error e) (init : Fin n → β) (hn : 0 < n) :
    (List.finRange n).foldlM (fun (R : Fin n → β) (i : Fin n) => do
      let row ← f i
      pure (Function.update R i (h row))) init = (.error e : Py (Fin n → β)) := by
  cases n with
  | zero => omega
  | succ n => rw [List.finRange_succ, List.foldlM_cons, hf 0]; rfl

theorem append_inv {α : Type} (f : α → Py (List ℕ)) (l : List α) (init out : List ℕ)
    (h : l.foldlM (fun (acc : List ℕ) (i : α) => do
      let row ← f i
      pure (acc ++ row)) init = .ok out) :
    ∃ g : α → List ℕ, (∀ i ∈ l, f i = .ok (g i)) ∧ out = init ++ l.flatMap g := by
  classical
  induction l generalizing init with
  | nil => exact ⟨fun _ => [], by simp, by cases h; simp⟩
  | cons a l ih =>
    rw [List.foldlM_cons] at h
    cases ha : f a with
    | error e => rw [ha] at h; cases h
    | ok r =>
      rw [ha] at h
      obtain ⟨g, hg, ho⟩ := ih (init ++ r) h
      refine ⟨fun i => if i = a then r else g i, ?_, ?_⟩
      · intro i hi
        by_cases hia : i = a
        · subst hia; simp [ha]
        · rcases List.mem_cons.1 hi with rfl | hi
          · exact absurd rfl hia
          · simp only [hia, if_false]; exact hg i hi
      · rw [ho, List.flatMap_cons, if_pos rfl, List.append_assoc]
        congr 2
        rw [List.flatMap_def, List.flatMap_def]
        congr 1
        refine List.map_congr_left (fun i hi => ?_)
        by_cases hia : i = a
        · subst hia
          have h1 := hg i hi
          rw [ha] at h1
          cases h1
          simp
        · simp [hia]

variable {K : Type}

/-! ## Data descriptions used by the theorems -/

/-- Number of test objects. -/
def Data.nTest : Data K → ℕ
  | .vectors n _ _ _ => n
  | .dense n _ _ _ => n
  | .sparse n _ _ _ => n

/-- Number of training objects. -/
def Data.nTrain : Data K → ℕ
  | .vectors n _ _ none => n
  | .vectors _ _ _ (some ⟨m, _, _⟩) => m
  | .dense _ m _ _ => m
  | .sparse _ m _ _ => m

/-- A sparse matrix stores each entry at most once. -/
def Data.Canonical : Data K → Prop
  | .sparse _ _ D _ => ∀ i, ((D i).map Prod.fst).Nodup
  | _ => True

/-- Lists of column numbers. -/
def asLists {n m k : ℕ} (rows : Fin n → Fin k → Fin m) : Fin n → List ℕ :=
  fun i => (List.ofFn (rows i)).map Fin.val

theorem ravel_eq {n m k : ℕ} (rows : Fin n → Fin k → Fin m) :
    ravel (fun i c => (rows i c).val) = (List.finRange n).flatMap (asLists rows) := by
  unfold ravel asLists
  congr 1
  funext i
  rw [List.map_ofFn]; rfl

section
variable [LinearOrder K]

/-- Rows of a successful call for a full distance matrix. -/
theorem rows_of_positions {n m k start : ℕ} (o : ArgPart (XR K)) (shuffle : Bool) (rp : Fin n → Equiv.Perm (Fin m))
    (d : Fin n → Fin m → XR K) (h : start + k ≤ m) :
    ∃ σ : Fin n → Equiv.Perm (Fin m),
      (∀ i, rowNN o shuffle (rp i) start k (d i) = .ok (fun c => σ i ⟨start + c.val, by omega⟩)) ∧
      ∀ i (p q : Fin m), p.val < start + k → p ≤ q → d i (σ i p) ≤ d i (σ i q) := by
  choose σ h1 h2 using fun i => rowNN_ok o shuffle (rp i) start k (d i) h
  exact ⟨σ, h1, h2⟩

theorem positions_injective {m k start : ℕ} (σ : Equiv.Perm (Fin m)) (h : start + k ≤ m) :
    Function.Injective (fun c : Fin k => σ ⟨start + c.val, by omega⟩) := by
  intro a b hab
  have := σ.injective hab
  simp only [Fin.mk.injEq, Nat.add_left_cancel_iff] at this
  exact Fin.ext this

theorem precomputed_inv (o : ArgPart (XR K)) (rnd : Rnd) (shuffle : Bool) {n m : ℕ} (start k : ℕ)
    (D : Fin n → Fin m → XR K) {R : Fin n → Fin k → ℕ}
    (hR : precomputed o rnd shuffle start k D = .ok R) :
    ∃ rows : Fin n → Fin k → Fin m, (∀ i, Function.Injective (rows i)) ∧ R = fun i c => (rows i c).val := by
  by_cases h : start + k ≤ m
  · obtain ⟨σ, h1, _⟩ := rows_of_positions (k := k) o shuffle (fun i => rnd i m)
      (fun i => Np.replaceNonFinite (D i) .pinf) h
    unfold precomputed at hR
    rw [loop_ok _ (fun (row : Fin k → Fin m) c => (row c).val) _ h1] at hR
    cases hR
    exact ⟨_, fun i => positions_injective (σ i) h, rfl⟩
  · rcases Nat.eq_zero_or_pos n with hn | hn
    · subst hn
      exact ⟨fun i => i.elim0, fun i => i.elim0, funext (fun i => i.elim0)⟩
    · unfold precomputed at hR
      rw [loop_error _ (fun (row : Fin k → Fin m) c => (row c).val) .valueError
        (fun i => rowNN_error _ _ _ _ _ _ (by omega)) _ hn] at hR
      cases hR

theorem sparse_inv (o : ArgPart (XR K)) (rnd : Rnd) (shuffle : Bool) {n m : ℕ} (k : ℕ)
    (X : Fin n → List (Fin m × XR K)) {L : List ℕ} (hL : precomputedSparse o rnd shuffle k X = .ok L) :
    ∃ pos : ∀ i : Fin n, Fin k → Fin (X i).length,
      (∀ i : Fin n, rowNN o shuffle (rnd i (X i).length) 0 k (fun p => ((X i).get p).2) = .ok (pos i)) ∧
      L = ravel (fun i c => (((X i).get (pos i c)).1).val) := by
  unfold precomputedSparse at hL
  split at hL
  · cases hL
  · obtain ⟨g, hg, ho⟩ := append_inv _ _ _ _ hL
    have : ∀ i : Fin n, ∃ pos : Fin k → Fin (X i).length,
        rowNN o shuffle (rnd i (X i).length) 0 k (fun p => ((X i).get p).2) = .ok pos ∧
        g i = List.ofFn (fun c => (((X i).get (pos c)).1).val) := by
      intro i
      have h1 := hg i (List.mem_finRange i)
      unfold sparseRow at h1
      cases hr : rowNN o shuffle (rnd i (X i).length) 0 k (fun p => ((X i).get p).2) with
      | error e => rw [hr] at h1; cases h1
      | ok pos =>
        rw [hr] at h1
        exact ⟨pos, rfl, (Except.ok.inj h1).symm⟩
    choose pos h1 h2 using this
    refine ⟨pos, h1, ?_⟩
    rw [ho, List.nil_append]
    unfold ravel
    congr 1
    funext i
    exact h2 i

end

section
variable [Field K] [LinearOrder K]

/-- The neighbour lists of vectors, for every batch size, number of workers and schedule. -/
theorem kNeighbors_eq (o : ArgPart (XR K)) {n m p : ℕ} (metric : String) (hmet : metric ≠ "cosine")
    (nJobs : ℤ) (start k bs : ℕ) (hbs : 0 < bs)
    (sched : List ((Fin n × Fin k) × ℕ) → List ((Fin n × Fin k) × ℕ)) (hs : ∀ l, (sched l).Perm l)
    (X : Fin n → Fin p → K) (Y : Fin m → Fin p → K) :
    kNeighbors o metric nJobs start k bs sched X Y
      = (List.finRange n).foldlM (fun (Dk : Fin n → Fin k → ℕ) (i : Fin n) => do
          let row ← rowNN o false 1 start k (sqDist X Y i)
          pure (Function.update Dk i (fun c => (row c).val))) (fun _ _ => 0) := by
  unfold kNeighbors
  rw [if_neg (by omega), if_neg (by tauto)]
  by_cases h : start + k ≤ m
  · obtain ⟨σ, h1, _⟩ := rows_of_positions (n := n) (k := k) o false (fun _ => 1) (sqDist X Y) h
    rw [loop_ok _ (fun (row : Fin k → Fin m) c => (row c).val) _ h1,
      serialNN_ok o start k bs _ _ h1 hbs, parallelNN_ok o start k bs _ _ h1 hbs sched hs]
    split <;> rfl
  · rcases Nat.eq_zero_or_pos n with hn | hn
    · subst hn
      have h1 : ∀ i : Fin 0, rowNN o false 1 start k (sqDist X Y i) = .ok (fun _ => i.elim0) :=
        fun i => i.elim0
      rw [loop_ok _ (fun (row : Fin k → Fin m) c => (row c).val) _ h1,
        serialNN_ok o start k bs _ _ h1 hbs, parallelNN_ok o start k bs _ _ h1 hbs sched hs]
      split <;> rfl
    · rw [loop_error _ (fun (row : Fin k → Fin m) c => (row c).val) .valueError
        (fun i => rowNN_error _ _ _ _ _ _ (by omega)) _ hn,
        serialNN_error o start k bs _ (by omega) hbs hn,
        parallelNN_error o start k bs _ (by omega) hbs hn sched]
      split <;> rfl

theorem kNeighbors_bs (o : ArgPart (XR K)) {n m p : ℕ} (metric : String)
    (nJobs : ℤ) (start k bs : ℕ)
    (sched : List ((Fin n × Fin k) × ℕ) → List ((Fin n × Fin k) × ℕ))
    (X : Fin n → Fin p → K) (Y : Fin m → Fin p → K) {R : Fin n → Fin k → ℕ}
    (hR : kNeighbors o metric nJobs start k bs sched X Y = .ok R) :
    0 < bs ∧ (metric ≠ "cosine" ∨ n = 0) := by
  have hbs : 0 < bs := by
    by_contra hc
    unfold kNeighbors at hR
    rw [if_pos (by omega)] at hR
    cases hR
  refine ⟨hbs, ?_⟩
  by_contra hc
  push Not at hc
  unfold kNeighbors at hR
  rw [if_neg (by omega), if_pos ⟨hc.1, (nBatches_pos hbs).2 (by omega)⟩] at hR
  cases hR

theorem kNeighbors_inv (o : ArgPart (XR K)) {n m p : ℕ} (metric : String)
    (nJobs : ℤ) (start k bs : ℕ)
    (sched : List ((Fin n × Fin k) × ℕ) → List ((Fin n × Fin k) × ℕ)) (hs : ∀ l, (sched l).Perm l)
    (X : Fin n → Fin p → K) (Y : Fin m → Fin p → K) {R : Fin n → Fin k → ℕ}
    (hR : kNeighbors o metric nJobs start k bs sched X Y = .ok R) :
    ∃ rows : Fin n → Fin k → Fin m, (∀ i, Function.Injective (rows i)) ∧ R = fun i c => (rows i c).val := by
  obtain ⟨hbs, hmet⟩ := kNeighbors_bs o metric nJobs start k bs sched X Y hR
  rcases Nat.eq_zero_or_pos n with hn | hn
  · subst hn
    exact ⟨fun i => i.elim0, fun i => i.elim0, funext (fun i => i.elim0)⟩
  have hmet : metric ≠ "cosine" := by
    rcases hmet with h | h
    · exact h
    · omega
  rw [kNeighbors_eq o metric hmet nJobs start k bs hbs sched hs] at hR
  by_cases h : start + k ≤ m
  · obtain ⟨σ, h1, _⟩ := rows_of_positions (n := n) (k := k) o false (fun _ => 1) (sqDist X Y) h
    rw [loop_ok _ (fun (row : Fin k → Fin m) c => (row c).val) _ h1] at hR
    cases hR
    exact ⟨_, fun i => positions_injective (σ i) h, rfl⟩
  · rw [loop_error _ (fun (row : Fin k → Fin m) c => (row c).val) .valueError
        (fun i => rowNN_error _ _ _ _ _ _ (by omega)) _ hn] at hR
    cases hR

/-- Lists of different training objects, for every kind of data. -/
theorem fitLists_inv (w : World K) (metric : String) (nJobs : ℤ) (k bs : ℕ) (shuffle hasSelf : Bool)
    (X : Data K) (hX : X.Canonical) {r : ℕ × ℕ × List ℕ}
    (hr : fitLists w metric nJobs k bs shuffle hasSelf X = .ok r) :
    ∃ rows : Fin X.nTest → Fin k → Fin X.nTrain, (∀ i, Function.Injective (rows i)) ∧
      r = (X.nTest, X.nTrain, (List.finRange X.nTest).flatMap (asLists rows)) := by
  cases X with
  | dense n m D Y =>
    cases Y with
    | true => cases hr
    | false =>
      simp only [fitLists] at hr
      cases hp : precomputed w.argpart w.rnd shuffle (if n = m ∧ hasSelf = true then 1 else 0) k D with
      | error e => rw [hp] at hr; cases hr
      | ok R =>
        rw [hp] at hr
        obtain ⟨rows, hinj, rfl⟩ := precomputed_inv _ _ _ _ _ _ hp
        cases hr
        exact ⟨rows, hinj, by rw [ravel_eq]; rfl⟩
  | sparse n m D Y =>
    cases Y with
    | true => cases hr
    | false =>
      simp only [fitLists] at hr
      cases hp : precomputedSparse w.argpart w.rnd shuffle k D with
      | error e => rw [hp] at hr; cases hr
      | ok R =>
        rw [hp] at hr
        obtain ⟨pos, hpos, rfl⟩ := sparse_inv _ _ _ _ _ hp
        cases hr
        refine ⟨(fun i c => ((D i).get (pos i c)).1 : Fin n → Fin k → Fin m), ?_, by
          rw [ravel_eq (fun i c => ((D i).get (pos i c)).1)]; rfl⟩
        intro i a b hab
        have hlen := rowNN_cases _ _ _ _ _ _ (hpos i)
        obtain ⟨σ, h1, _⟩ := rowNN_ok w.argpart shuffle (w.rnd i (D i).length) 0 k
          (fun p => ((D i).get p).2) hlen
        have hnd := hX i
        have h2 := (hpos i).symm.trans h1
        simp only [Except.ok.injEq] at h2
        have h3 : pos i a = pos i b := by
          have hab' : ((D i).get (pos i a)).1 = ((D i).get (pos i b)).1 := hab
          have hinj := List.nodup_iff_injective_get.1 hnd
          have := @hinj ⟨(pos i a).val, by simp⟩ ⟨(pos i b).val, by simp⟩ (by simpa using hab')
          simpa [Fin.ext_iff] using this
        have h4 := positions_injective (k := k) σ hlen
        rw [h2] at h3
        exact h4 h3
  | vectors n p X Y =>
    cases Y with
    | none =>
      simp only [fitLists] at hr
      cases hp : kNeighbors w.argpart metric nJobs 1 k bs (w.sched n k) X X with
      | error e => rw [hp] at hr; cases hr
      | ok R =>
        rw [hp] at hr
        obtain ⟨rows, hinj, rfl⟩ := kNeighbors_inv _ _ _ _ _ _ _ (w.sched_perm n k) _ _ hp
        cases hr
        exact ⟨rows, hinj, by rw [ravel_eq]; rfl⟩
    | some Y =>
      obtain ⟨m, q, Y⟩ := Y
      simp only [fitLists] at hr
      by_cases hq : q = p
      · subst hq
        rw [dif_pos rfl] at hr
        cases hp : kNeighbors w.argpart metric nJobs 0 k bs (w.sched n k) X
            (fun i f => Y i (f.cast rfl)) with
        | error e => rw [hp] at hr; cases hr
        | ok R =>
          rw [hp] at hr
          obtain ⟨rows, hinj, rfl⟩ := kNeighbors_inv _ _ _ _ _ _ _ (w.sched_perm n k) _ _ hp
          cases hr
          exact ⟨rows, hinj, by rw [ravel_eq]; rfl⟩
      · rw [dif_neg hq] at hr; cases hr

end

end HubToolbox.HubClass
