import Verif.HubClass.Model
import Verif.HubClass.Spec
import Verif.Hubness.Unique

set_option autoImplicit false

namespace HubToolbox.HubClass

open Spec Hubness

variable {K : Type}

/-- What a successful partial sort of one row returns. -/
theorem rowNN_ok [LinearOrder K] (o : ArgPart (XR K)) {m : ℕ} (shuffle : Bool)
    (rp : Equiv.Perm (Fin m)) (start k : ℕ) (d : Fin m → XR K) (h : start + k ≤ m) :
    ∃ σ : Equiv.Perm (Fin m),
      rowNN o shuffle rp start k d = .ok (fun c => σ ⟨start + c.val, by omega⟩) ∧
      ∀ p q : Fin m, p.val < start + k → p ≤ q → d (σ p) ≤ d (σ q) := by
  have hw := Np.wrapAll_arange (m := m) (k := start + k) (lo := 0) (by omega)
  rw [Nat.cast_zero] at hw
  cases shuffle
  · refine ⟨o.run d (fun c : Fin (start + k) => ⟨0 + c, by omega⟩), ?_, ?_⟩
    · simp only [rowNN, Np.argpartition, hw]
      simp
    · intro p q hp hpq
      have := o.after d (fun c : Fin (start + k) => ⟨0 + c, by omega⟩) ⟨p.val, hp⟩ q (by
        rw [Fin.le_def]; simpa using hpq)
      simpa using this
  · refine ⟨(o.run (fun c => d (rp c)) (fun c : Fin (start + k) => ⟨0 + c, by omega⟩)).trans rp, ?_, ?_⟩
    · simp only [rowNN, Np.argpartition, hw]
      simp
    · intro p q hp hpq
      have := o.after (fun c => d (rp c)) (fun c : Fin (start + k) => ⟨0 + c, by omega⟩) ⟨p.val, hp⟩ q (by
        rw [Fin.le_def]; simpa using hpq)
      simpa using this

/-- A row with too few entries raises `ValueError`. -/
theorem rowNN_error [LinearOrder K] (o : ArgPart (XR K)) {m : ℕ} (shuffle : Bool)
    (rp : Equiv.Perm (Fin m)) (start k : ℕ) (d : Fin m → XR K) (h : m < start + k) :
    rowNN o shuffle rp start k d = .error .valueError := by
  have hw : Np.wrapAll m (Np.arange 0 (start + k)) = none := by
    rw [Np.wrapAll, dif_neg]
    intro hc
    have := hc ⟨m, h⟩
    simp [Np.wrap, Np.arange] at this
    omega
  cases shuffle <;> simp [rowNN, Np.argpartition, hw]

/-- Which result a row gives, if any. -/
theorem rowNN_cases [LinearOrder K] (o : ArgPart (XR K)) {m : ℕ} (shuffle : Bool)
    (rp : Equiv.Perm (Fin m)) (start k : ℕ) (d : Fin m → XR K) {r : Fin k → Fin m}
    (hr : rowNN o shuffle rp start k d = .ok r) : start + k ≤ m := by
  by_contra hc
  rw [rowNN_error o shuffle rp start k d (by omega)] at hr
  cases hr

/-! ## Batches -/

theorem mem_batchRows {n bs i : ℕ} (hbs : 0 < bs) {r : Fin n} :
    r ∈ batchRows n bs i ↔ r.val / bs = i := by
  simp only [batchRows, List.mem_filter, List.mem_finRange, true_and, decide_eq_true_eq]
  rw [Nat.div_eq_iff hbs]
  constructor
  · rintro ⟨h1, h2⟩
    constructor
    · nlinarith
    · have : (i + 1) * bs = bs * i + bs := by ring
      have : i * bs = bs * i := by ring
      omega
  · rintro ⟨h1, h2⟩
    have : (i + 1) * bs = i * bs + bs := by ring
    constructor
    · nlinarith
    · have : i * bs = bs * i := by ring
      omega

theorem div_lt_nBatches {n bs : ℕ} (hbs : 0 < bs) (r : Fin n) : r.val / bs < nBatches n bs := by
  unfold nBatches
  rw [Nat.div_lt_iff_lt_mul hbs]
  have h1 := Nat.lt_div_mul_add hbs (a := n + bs - 1)
  have := r.isLt
  omega

theorem nBatches_pos {n bs : ℕ} (hbs : 0 < bs) : 0 < nBatches n bs ↔ 0 < n := by
  unfold nBatches
  rw [Nat.div_pos_iff]
  omega

/-- The rows of all batches: each row once. -/
theorem batches_nodup {n bs : ℕ} (hbs : 0 < bs) :
    ((List.range (nBatches n bs)).flatMap (batchRows n bs)).Nodup := by
  rw [List.nodup_flatMap]
  refine ⟨fun i _ => (List.nodup_finRange n).filter _, ?_⟩
  refine List.Pairwise.imp ?_ List.nodup_range
  intro a b hab
  simp only [Function.onFun, List.disjoint_left]
  intro r h1 h2
  rw [mem_batchRows hbs] at h1 h2
  exact hab (h1.symm.trans h2)

theorem mem_batches {n bs : ℕ} (hbs : 0 < bs) (r : Fin n) :
    r ∈ (List.range (nBatches n bs)).flatMap (batchRows n bs) := by
  rw [List.mem_flatMap]
  exact ⟨r.val / bs, List.mem_range.2 (div_lt_nBatches hbs r), (mem_batchRows hbs).2 rfl⟩

theorem mapM_ok {α β : Type} (f : α → Py β) (g : α → β) (l : List α) (h : ∀ a ∈ l, f a = .ok (g a)) :
    l.mapM f = .ok (l.map g) := by
  induction l with
  | nil => rfl
  | cons a l ih =>
    rw [List.mapM_cons, h a (by simp), ih (fun b hb => h b (by simp [hb]))]
    rfl

section
variable [LinearOrder K] (o : ArgPart (XR K)) {n m : ℕ} (start k bs : ℕ) (d : Fin n → Fin m → XR K)
  (rows : Fin n → Fin k → Fin m) (hrows : ∀ i, rowNN o false 1 start k (d i) = .ok (rows i))
include hrows

theorem batch_ok (i : ℕ) : batch o start k bs i d
    = .ok ((batchRows n bs i).map (fun r => (r, fun c => (rows r c).val))) := by
  unfold batch
  apply mapM_ok
  intro r _
  rw [hrows]; rfl

omit hrows in
theorem foldl_update (l : List (Fin n)) (g : Fin n → Fin k → ℕ) (init : Fin n → Fin k → ℕ) :
    (l.map (fun r => (r, g r))).foldl (fun (Dk : Fin n → Fin k → ℕ) (w : Fin n × (Fin k → ℕ)) =>
      Function.update Dk w.1 w.2) init = fun i => if i ∈ l then g i else init i := by
  induction l generalizing init with
  | nil => simp
  | cons a l ih =>
    rw [List.map_cons, List.foldl_cons, ih]
    funext i
    by_cases h : i ∈ l
    · simp [h]
    · by_cases h2 : i = a
      · subst h2; simp [h]
      · simp [h, h2]

theorem serialNN_ok (hbs : 0 < bs) :
    serialNN o start k bs d = .ok (fun i c => (rows i c).val) := by
  unfold serialNN
  have key : ∀ (l : List ℕ) (init : Fin n → Fin k → ℕ),
      l.foldlM (fun (Dk : Fin n → Fin k → ℕ) (i : ℕ) => (do
        let rows ← batch o start k bs i d
        pure (rows.foldl (fun (Dk : Fin n → Fin k → ℕ) (w : Fin n × (Fin k → ℕ)) =>
          Function.update Dk w.1 w.2) Dk) : Py (Fin n → Fin k → ℕ))) init
      = .ok (fun i => if i.val / bs ∈ l then (fun c => (rows i c).val) else init i) := by
    intro l
    induction l with
    | nil => intro init; simp; rfl
    | cons a l ih =>
      intro init
      rw [List.foldlM_cons, batch_ok o start k bs d rows hrows]
      change List.foldlM _ _ l = _
      rw [foldl_update, ih]
      congr 1
      funext i
      by_cases h : i.val / bs ∈ l
      · simp [h]
      · simp only [h, if_false, List.mem_cons, or_false]
        by_cases h2 : i.val / bs = a
        · rw [if_pos ((mem_batchRows hbs).2 h2), if_pos h2]
        · rw [if_neg (fun hc => h2 ((mem_batchRows hbs).1 hc)), if_neg h2]
  rw [key]
  congr 1
  funext i
  rw [if_pos (List.mem_range.2 (div_lt_nBatches hbs i))]

theorem parallelNN_ok (hbs : 0 < bs)
    (sched : List ((Fin n × Fin k) × ℕ) → List ((Fin n × Fin k) × ℕ)) (hs : ∀ l, (sched l).Perm l) :
    parallelNN o start k bs sched d = .ok (fun i c => (rows i c).val) := by
  unfold parallelNN
  rw [mapM_ok _ _ _ (fun i _ => batch_ok o start k bs d rows hrows i)]
  refine Eq.trans (b := Except.ok _) rfl ?_
  congr 1
  funext i c
  have hw : (List.map (fun i => List.map (fun r => (r, fun c => (rows r c).val)) (batchRows n bs i))
        (List.range (nBatches n bs))).flatten.flatMap
        (fun w : Fin n × (Fin k → ℕ) => (List.finRange k).map (fun c => ((w.1, c), w.2 c)))
      = (((List.range (nBatches n bs)).flatMap (batchRows n bs)).product (List.finRange k)).map
        (fun a => (a, (rows a.1 a.2).val)) := by
    rw [← List.flatMap_def, List.product, List.map_flatMap, ← List.map_flatMap, List.flatMap_map]
    simp [List.map_map, Function.comp_def]
  rw [hw]
  apply Sched.exec_of_mem
  · rw [((hs _).map Prod.fst).nodup_iff, List.map_map]
    simp only [Function.comp_def, List.map_id']
    exact (batches_nodup hbs).product (List.nodup_finRange k)
  · rw [(hs _).mem_iff]
    refine List.mem_map.2 ⟨(i, c), ?_, rfl⟩
    exact List.mem_product.2 ⟨mem_batches hbs i, List.mem_finRange c⟩

end

section
variable [LinearOrder K] (o : ArgPart (XR K)) {n m : ℕ} (start k bs : ℕ) (d : Fin n → Fin m → XR K)
  (h : m < start + k) (hbs : 0 < bs) (hn : 0 < n)
include h hbs hn

theorem batch_error_zero : batch o start k bs 0 d = .error .valueError := by
  unfold batch
  have hmem : (⟨0, hn⟩ : Fin n) ∈ batchRows n bs 0 := (mem_batchRows hbs).2 (by simp)
  cases hl : batchRows n bs 0 with
  | nil => rw [hl] at hmem; simp at hmem
  | cons a l =>
    rw [List.mapM_cons, rowNN_error o false 1 start k (d a) h]
    rfl

theorem serialNN_error : serialNN o start k bs d = .error .valueError := by
  unfold serialNN
  obtain ⟨t, ht⟩ : ∃ t, nBatches n bs = t + 1 := ⟨nBatches n bs - 1, by
    have := (nBatches_pos (n := n) hbs).2 hn; omega⟩
  rw [ht, List.range_succ_eq_map, List.foldlM_cons, batch_error_zero o start k bs d h hbs hn]
  rfl

theorem parallelNN_error
    (sched : List ((Fin n × Fin k) × ℕ) → List ((Fin n × Fin k) × ℕ)) :
    parallelNN o start k bs sched d = .error .valueError := by
  unfold parallelNN
  obtain ⟨t, ht⟩ : ∃ t, nBatches n bs = t + 1 := ⟨nBatches n bs - 1, by
    have := (nBatches_pos (n := n) hbs).2 hn; omega⟩
  rw [ht, List.range_succ_eq_map, List.mapM_cons, batch_error_zero o start k bs d h hbs hn]
  rfl

end

end HubToolbox.HubClass
