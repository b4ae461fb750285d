import Verif.Spawn.MpModel
import Verif.Spawn.Props
import Verif.Dist.MpDissim

/-!
# `mp_dissim` and the start method of worker processes
-/

set_option autoImplicit false

namespace HubToolbox.Spawn

open HubToolbox Dist

/-- Stores to the same cell which agree on the value. -/
theorem exec_agree {A V : Type} [DecidableEq A] (ws : List (A × V)) (mem : A → V) (a : A) (v : V) (h : (a, v) ∈ ws)
    (hv : ∀ v', (a, v') ∈ ws → v' = v) : Sched.exec mem ws a = v := by
  have key : ∀ (ws : List (A × V)) (mem : A → V), (∀ v', (a, v') ∈ ws → v' = v) → (mem a = v ∨ ∃ v', (a, v') ∈ ws) →
      Sched.exec mem ws a = v := by
    intro ws
    induction ws with
    | nil => intro mem _ h; simpa [Sched.exec] using h
    | cons w ws ih =>
      intro mem hv h
      change Sched.exec (Function.update mem w.1 w.2) ws a = v
      refine ih _ (fun v' h' => hv v' (List.mem_cons_of_mem _ h')) ?_
      by_cases e : a = w.1
      · left
        rw [e, Function.update_self]
        exact hv w.2 (by rw [e]; exact List.mem_cons_self)
      · rcases h with h | ⟨v', h⟩
        · left; rw [Function.update_of_ne e]; exact h
        · rcases List.mem_cons.1 h with h | h
          · exact absurd (congrArg Prod.fst h) e
          · exact Or.inr ⟨v', h⟩
  exact key ws mem hv (Or.inr ⟨v, h⟩)

theorem mapM_ok {A B : Type} (l : List A) (f : A → Except WorkerErr B) (g : A → B) (h : ∀ a ∈ l, f a = .ok (g a)) :
    l.mapM f = .ok (l.map g) := by
  induction l with
  | nil => rfl
  | cons a l ih =>
    rw [List.mapM_cons, h a List.mem_cons_self, ih fun b hb => h b (List.mem_cons_of_mem _ hb)]
    rfl

theorem mapM_error {A B : Type} (a : A) (l : List A) (f : A → Except WorkerErr B) (e : WorkerErr) (h : f a = .error e) :
    (a :: l).mapM f = .error e := by
  rw [List.mapM_cons, h]
  rfl

theorem finRange_cons {d : ℕ} (hd : 0 < d) : ∃ l, List.finRange d = ⟨0, hd⟩ :: l := by
  cases d with
  | zero => omega
  | succ d => exact ⟨_, List.finRange_succ⟩

variable {nx ny d : ℕ}

/-- The stores of task `i` in the first phase. -/
def rStores (B : ℕ) (hist : Fin d → ℕ → ℕ) (i : Fin d) : List ((Fin d × ℕ × ℕ) × ℕ) :=
  ((List.range B).flatMap fun b => ((List.range B).filter fun c => decide (b ≤ c)).map fun c => ((i, b, c), rUpper (hist i) b c)) ++
    (List.range B).flatMap fun b => (List.range B).map fun c => ((i, b, c), rUpper (hist i) b c + (if c < b then rUpper (hist i) c b else 0))

/-- The stores of task `i` in the second phase. -/
noncomputable def binStores (B : ℕ) (E : Fin d → Edges) (X : Fin nx → Fin d → ℝ) (Y : Fin ny → Fin d → ℝ) (i : Fin d) :
    List ((Fin d × (Fin nx ⊕ Fin ny)) × ℕ) :=
  ((List.finRange nx).map fun x => ((i, .inl x), binOf (E i) B (X x i))) ++ (List.finRange ny).map fun y => ((i, .inr y), binOf (E i) B (Y y i))

theorem exec_rStores (o : Order) (B : ℕ) (hist : Fin d → ℕ → ℕ) (i : Fin d) {b c : ℕ} (hb : b < B) (hc : c < B) :
    Sched.exec (fun _ => 0) (o.perm ((List.finRange d).map (rStores B hist)).flatten) (i, b, c) = rBins (hist i) b c := by
  refine exec_agree _ _ _ _ ((o.is_perm _).mem_iff.2 ?_) fun v' h' => ?_
  · rw [List.mem_flatten]
    refine ⟨rStores B hist i, List.mem_map.2 ⟨i, List.mem_finRange i, rfl⟩, List.mem_append_right _ ?_⟩
    simp only [List.mem_flatMap, List.mem_map, List.mem_range]
    exact ⟨b, hb, c, hc, rfl⟩
  · have h' := (o.is_perm _).mem_iff.1 h'
    rw [List.mem_flatten] at h'
    obtain ⟨l, hl, h'⟩ := h'
    obtain ⟨i', -, rfl⟩ := List.mem_map.1 hl
    unfold rStores at h'
    simp only [List.mem_append, List.mem_flatMap, List.mem_map, List.mem_range, List.mem_filter, Prod.mk.injEq, decide_eq_true_eq] at h'
    obtain ⟨b', -, c', ⟨-, hle⟩, ⟨rfl, rfl, rfl⟩, rfl⟩ | ⟨b', -, c', -, ⟨rfl, rfl, rfl⟩, rfl⟩ := h'
    · unfold rBins
      rw [if_neg (by omega), add_zero]
    · rfl

theorem exec_binStores (o : Order) (B : ℕ) (E : Fin d → Edges) (X : Fin nx → Fin d → ℝ) (Y : Fin ny → Fin d → ℝ) (i : Fin d) (s : Fin nx ⊕ Fin ny) :
    Sched.exec (fun _ => 0) (o.perm ((List.finRange d).map (binStores B E X Y)).flatten) (i, s) =
      binOf (E i) B (Sum.elim (fun x => X x i) (fun y => Y y i) s) := by
  refine exec_agree _ _ _ _ ((o.is_perm _).mem_iff.2 ?_) fun v' h' => ?_
  · rw [List.mem_flatten]
    refine ⟨binStores B E X Y i, List.mem_map.2 ⟨i, List.mem_finRange i, rfl⟩, ?_⟩
    unfold binStores
    rw [List.mem_append]
    rcases s with x | y
    · exact Or.inl (List.mem_map.2 ⟨x, List.mem_finRange x, rfl⟩)
    · exact Or.inr (List.mem_map.2 ⟨y, List.mem_finRange y, rfl⟩)
  · have h' := (o.is_perm _).mem_iff.1 h'
    rw [List.mem_flatten] at h'
    obtain ⟨l, hl, h'⟩ := h'
    obtain ⟨i', -, rfl⟩ := List.mem_map.1 hl
    unfold binStores at h'
    rw [List.mem_append] at h'
    rcases h' with h' | h'
    · obtain ⟨x, -, e⟩ := List.mem_map.1 h'
      simp only [Prod.mk.injEq] at e
      obtain ⟨⟨rfl, rfl⟩, rfl⟩ := e
      rfl
    · obtain ⟨x, -, e⟩ := List.mem_map.1 h'
      simp only [Prod.mk.injEq] at e
      obtain ⟨⟨rfl, rfl⟩, rfl⟩ := e
      rfl

/-- The second pool in forked processes. -/
theorem mpSecondPool_fork (q : Pool) (hq : q.start = .fork) (o : Order) (kth : Option (List ℕ)) (X : Fin nx → Fin d → ℝ) (Y : Fin ny → Fin d → ℝ)
    (p : ℝ) {B : ℕ} (hB : 0 < B) (E : Fin d → Edges) (hE : ∀ i, (E i).bins = B) :
    mpSecondPool q o ⟨kth, some ((List.finRange d).map fun i => (histogram (fun j => Y j i) (E i), E i))⟩ X Y p B = .ok (mpEntry X Y p B E) := by
  set g : Globals := ⟨kth, some ((List.finRange d).map fun i => (histogram (fun j => Y j i) (E i), E i))⟩ with hg
  have hget : ∀ i : Fin d, g.histogram i = .ok (histogram (fun j => Y j i) (E i), E i) := by
    intro i
    have : ((List.finRange d).map fun i => (histogram (fun j => Y j i) (E i), E i))[i.val]? = some (histogram (fun j => Y j i) (E i), E i) := by
      rw [List.getElem?_map, List.getElem?_eq_getElem (by simp)]
      simp
    simp only [Globals.histogram, hg, this]
  have h1 : ∀ i ∈ List.finRange d, createRBins g B i = .ok (rStores B (fun i => histogram (fun j => Y j i) (E i)) i) := by
    intro i _
    unfold createRBins
    rw [hget i]
    show (if (E i).bins = B then _ else _) = _
    rw [if_pos (hE i)]
    rfl
  have h2 : ∀ i ∈ List.finRange d, estimateR g X Y B i = .ok (binStores B E X Y i) := by
    intro i _
    unfold estimateR
    rw [hget i]
    rfl
  have hbin : ∀ (i : Fin d) (x : ℝ), binOf (E i) B x < B := fun i x => by
    unfold binOf
    omega
  unfold mpSecondPool
  rw [mapM_ok _ _ _ h1, mapM_ok _ _ _ h2]
  show Except.ok _ = _
  congr 1
  simp only [exec_shared _ _ (fork_shared q hq .ndarray)]
  set R := Sched.exec (fun _ : Fin d × ℕ × ℕ => 0) (o.perm ((List.finRange d).map (rStores B (fun i => histogram (fun j => Y j i) (E i)))).flatten) with hR
  set bins := Sched.exec (fun _ : Fin d × (Fin nx ⊕ Fin ny) => 0) (o.perm ((List.finRange d).map (binStores B E X Y)).flatten) with hbins
  have hval : ∀ (x : Fin nx) (y : Fin ny), ((∑ i, ((R (i, bins (i, .inl x), bins (i, .inr y)) : ℕ) / ((nx : ℝ) + ny)) ^ p) / d) ^ (1 / p) =
      mpEntry X Y p B E x y := by
    intro x y
    unfold mpEntry
    congr 2
    refine Finset.sum_congr rfl fun i _ => ?_
    rw [hbins, exec_binStores, exec_binStores, hR, exec_rStores o B _ i (hbin _ _) (hbin _ _)]
    rfl
  funext x y
  refine exec_agree _ _ _ _ ((o.is_perm _).mem_iff.2 ?_) fun v' h' => ?_
  · rw [List.mem_flatMap]
    exact ⟨x, List.mem_finRange x, List.mem_map.2 ⟨y, List.mem_finRange y, by rw [hval x y]⟩⟩
  · have h' := (o.is_perm _).mem_iff.1 h'
    rw [List.mem_flatMap] at h'
    obtain ⟨x', -, h'⟩ := h'
    obtain ⟨y', -, h'⟩ := List.mem_map.1 h'
    simp only [Prod.mk.injEq] at h'
    obtain ⟨⟨rfl, rfl⟩, rfl⟩ := h'
    exact hval x' y'

/-- Forked processes and histograms of another number of bins. -/
theorem mpSecondPool_misfit (q : Pool) (o : Order) (kth : Option (List ℕ)) (X : Fin nx → Fin d → ℝ) (Y : Fin ny → Fin d → ℝ) (hd : 0 < d)
    (p : ℝ) {B : ℕ} (E : Fin d → Edges) (hE : ∀ i, (E i).bins ≠ B) :
    mpSecondPool q o ⟨kth, some ((List.finRange d).map fun i => (histogram (fun j => Y j i) (E i), E i))⟩ X Y p B = .error (.py .valueError) := by
  obtain ⟨l, hl⟩ := finRange_cons hd
  have : createRBins (d := d) ⟨kth, some ((List.finRange d).map fun i => (histogram (fun j => Y j i) (E i), E i))⟩ B ⟨0, hd⟩ = .error (.py .valueError) := by
    unfold createRBins
    have hget : ((List.finRange d).map fun i => (histogram (fun j => Y j i) (E i), E i))[0]? =
        some (histogram (fun j => Y j ⟨0, hd⟩) (E ⟨0, hd⟩), E ⟨0, hd⟩) := by
      rw [hl]; rfl
    simp only [Globals.histogram, hget]
    show (if (E ⟨0, hd⟩).bins = B then _ else _) = _
    rw [if_neg (hE _)]
  unfold mpSecondPool
  rw [show (List.finRange d).mapM (createRBins ⟨kth, some ((List.finRange d).map fun i => (histogram (fun j => Y j i) (E i), E i))⟩ B) =
    .error (.py .valueError) by conv_lhs => arg 2; rw [hl]
                                exact mapM_error _ _ _ _ this]
  rfl

/-- **C269**, what holds: with forked worker processes `mp_dissim` returns (or raises) what the sequential model of C146–C150 does, in whatever order the
tasks of the pools store their results, however many processes there are, and whatever earlier calls left in the globals of the module. Missing from the
full claim: other start methods, for which it is false (`C269_violated`). -/
theorem C269_partial (q : Pool) (hq : q.start = .fork) (o : Order) (stale : Globals) (hd : 0 < d) (cpu : ℤ) (X : Fin nx → Fin d → ℝ)
    (Y : Fin ny → Fin d → ℝ) (p : ℝ) (nBins : ℤ) (binSize : String) (nJobs : ℤ) :
    mpDissim q o stale cpu X Y p nBins binSize nJobs = (Dist.mpDissim cpu X Y p nBins binSize nJobs).mapError .py := by
  unfold mpDissim Dist.mpDissim
  simp only
  generalize (if p = 0 then (2 : ℝ) else p) = p'
  generalize (if nJobs = -1 then cpu else nJobs) = nj
  by_cases h1 : nBins < 0
  · simp only [h1, if_true]; rfl
  by_cases h2 : nBins = 0
  · simp only [h2, if_true, lt_irrefl, if_false]; rfl
  have hB : 0 < nBins.toNat := by omega
  simp only [h1, h2, if_false]
  by_cases h3 : ny / nBins.toNat = 0
  · simp only [h3, if_true]; rfl
  simp only [h3, if_false]
  by_cases h4 : nj < 1
  · simp only [h4, if_true]; rfl
  simp only [h4, if_false, hq, Start.inherit]
  by_cases h5 : isPrefix binSize "mass" = true
  · simp only [h5, if_true]
    rw [mapM_ok _ (calcHistograms _ Y) (fun i => (histogram (fun j => Y j i) (massEdges (fun j => Y j i) (kthList ny (ny / nBins.toNat))),
      massEdges (fun j => Y j i) (kthList ny (ny / nBins.toNat)))) (fun i _ => rfl)]
    by_cases h6 : (kthList ny (ny / nBins.toNat)).length - 1 = nBins.toNat
    · rw [if_pos h6]
      exact mpSecondPool_fork q hq o _ X Y p' hB _ fun i => h6
    · rw [if_neg h6]
      exact mpSecondPool_misfit q o _ X Y hd p' _ fun i => h6
  · simp only [h5, Bool.false_eq_true, if_false]
    by_cases h7 : isPrefix binSize "range" = true
    · simp only [h7, if_true]
      rw [mapM_ok _ (calcHistogramsNBins Y nBins.toNat) (fun i => (histogram (fun j => Y j i) (rangeEdges (fun j => Y j i) nBins.toNat),
        rangeEdges (fun j => Y j i) nBins.toNat)) (fun i _ => rfl)]
      exact mpSecondPool_fork q hq o _ X Y p' hB _ fun i => rfl
    · simp only [h7, Bool.false_eq_true, if_false]
      rfl

/-- **C269** does not hold: wherever forked processes compute a result, other start methods raise `NameError`, for all data and parameters, because the
worker processes do not know `kth` and `histograms`. -/
theorem C269_violated (q : Pool) (hq : q.start = .spawn) (o : Order) (stale : Globals) (hd : 0 < d) (cpu : ℤ) (X : Fin nx → Fin d → ℝ)
    (Y : Fin ny → Fin d → ℝ) (p : ℝ) (nBins : ℤ) (binSize : String) (nJobs : ℤ) (D : Fin nx → Fin ny → ℝ)
    (h : Dist.mpDissim cpu X Y p nBins binSize nJobs = .ok D) :
    mpDissim q o stale cpu X Y p nBins binSize nJobs = .error .nameError := by
  unfold Dist.mpDissim at h
  unfold mpDissim
  simp only at h ⊢
  generalize (if p = 0 then (2 : ℝ) else p) = p' at h ⊢
  generalize (if nJobs = -1 then cpu else nJobs) = nj at h ⊢
  obtain ⟨l, hl⟩ := finRange_cons hd
  split_ifs at h with h1 h2 h3 h4 h5 h6 h7
  · simp only [h1, h2, h3, h4, h5, if_true, if_false, hq, Start.inherit]
    rw [show (List.finRange d).mapM (calcHistograms ⟨none, none⟩ Y) = .error .nameError by
      rw [hl]; exact mapM_error _ _ _ _ rfl]
    rfl
  · simp only [h1, h2, h3, h4, h5, h7, if_true, Bool.false_eq_true, if_false, hq, Start.inherit]
    rw [mapM_ok _ (calcHistogramsNBins Y nBins.toNat) (fun i => (histogram (fun j => Y j i) (rangeEdges (fun j => Y j i) nBins.toNat),
        rangeEdges (fun j => Y j i) nBins.toNat)) (fun i _ => rfl)]
    show mpSecondPool q o ⟨none, none⟩ X Y p' nBins.toNat = _
    unfold mpSecondPool
    rw [show (List.finRange d).mapM (createRBins ⟨none, none⟩ nBins.toNat) = .error .nameError by
      rw [hl]; exact mapM_error _ _ _ _ rfl]
    rfl

/-! ### Non-vacuity -/

/-- Orders exist: the order of the tasks, and the reverse. -/
def Order.rev : Order := ⟨List.reverse, List.reverse_perm⟩

/-- Two processes which take turns. -/
def twoProcesses (s : Start) : Pool := ⟨s, 2, fun t => ⟨t % 2, Nat.mod_lt _ (by norm_num)⟩⟩

/-- Three points on a line, two bins: the same data works with forked processes and raises otherwise. -/
example : (∃ D, mpDissim (twoProcesses .fork) .rev ⟨some [7], none⟩ 4 (fun i _ => (i.val : ℝ) : Fin 3 → Fin 1 → ℝ) (fun i _ => (i.val : ℝ) : Fin 3 → Fin 1 → ℝ) 2 2
      "range" 2 = .ok D) ∧
    mpDissim (twoProcesses .spawn) .rev ⟨some [7], none⟩ 4 (fun i _ => (i.val : ℝ) : Fin 3 → Fin 1 → ℝ) (fun i _ => (i.val : ℝ) : Fin 3 → Fin 1 → ℝ) 2 2 "range" 2 =
      .error .nameError := by
  have h : ∃ D, Dist.mpDissim 4 (fun i _ => (i.val : ℝ) : Fin 3 → Fin 1 → ℝ) (fun i _ => (i.val : ℝ) : Fin 3 → Fin 1 → ℝ) 2 2 "range" 2 = .ok D :=
    ⟨_, by unfold Dist.mpDissim; simp [show isPrefix "range" "mass" = false by decide, show isPrefix "range" "range" = true by decide]; rfl⟩
  obtain ⟨D, h⟩ := h
  refine ⟨⟨D, ?_⟩, C269_violated _ rfl _ _ (by norm_num) _ _ _ _ _ _ _ D h⟩
  rw [C269_partial _ rfl _ _ (by norm_num), h]
  rfl

end HubToolbox.Spawn
