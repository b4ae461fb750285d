import Verif.InOut.Model
import Mathlib.Data.List.GetD
import Mathlib.Tactic.Linarith

/-!
# Saving and loading csr matrices (C162), the example data reader (C163), argument checks (C164)
-/

set_option autoImplicit false

namespace HubToolbox.InOut

/-! ### C162 -/

theorem getLastD_eq {l : List ℕ} {n : ℕ} (h : l.length = n + 1) : l.getLastD 0 = l[n] := by
  rw [List.getLastD_eq_getLast?, List.getLast?_eq_getElem?]
  simp [h]

theorem ofArrays_valid {K : Type} [Zero K] [Add K] (M : Csr K) (hM : M.Valid) :
    ∃ M', Csr.ofArrays M = .ok M' ∧ M'.n = M.n ∧ M'.m = M.m ∧ ∀ i j, M'.entry i j = M.entry i j := by
  have hlast : M.indptr.getLastD 0 ≤ M.indices.length := by
    rw [getLastD_eq hM.indptr_length, hM.indices_length]
    exact hM.last_le _ (List.getElem_mem _)
  refine ⟨{ M with data := M.data.take (M.indptr.getLastD 0), indices := M.indices.take (M.indptr.getLastD 0) }, ?_, rfl, rfl, ?_⟩
  · unfold Csr.ofArrays
    rw [if_neg (by simp [hM.indptr_length]), if_neg (by simp [hM.indptr_zero]), if_neg (by simp [hM.indices_length]),
      if_neg (by omega)]
  · intro i j
    have hle : M.indptr.getD (i + 1) 0 ≤ M.indptr.getLastD 0 := by
      rw [getLastD_eq hM.indptr_length]
      by_cases hi : i + 1 < M.indptr.length
      · rw [List.getD_eq_getElem _ _ hi]
        exact hM.mono _ _ (by rw [hM.indptr_length] at hi; omega) (by rw [hM.indptr_length]; omega)
      · rw [List.getD_eq_default _ _ (by omega)]
        omega
    unfold Csr.entry
    have h1 : ∀ p ∈ List.range (M.indptr.getD (i + 1) 0), (M.indices.take (M.indptr.getLastD 0)).getD p 0 = M.indices.getD p 0 := by
      intro p hp
      have := List.mem_range.1 hp
      simp only [List.getD_eq_getElem?_getD]
      rw [List.getElem?_take_of_lt (by omega)]
    have h2 : ∀ p ∈ List.range (M.indptr.getD (i + 1) 0), (M.data.take (M.indptr.getLastD 0)).getD p 0 = M.data.getD p 0 := by
      intro p hp
      have := List.mem_range.1 hp
      simp only [List.getD_eq_getElem?_getD]
      rw [List.getElem?_take_of_lt (by omega)]
    have h3 : (List.range (M.indptr.getD (i + 1) 0)).filter (fun p => decide (M.indptr.getD i 0 ≤ p) &&
        decide ((M.indices.take (M.indptr.getLastD 0)).getD p 0 = j)) =
        (List.range (M.indptr.getD (i + 1) 0)).filter (fun p => decide (M.indptr.getD i 0 ≤ p) && decide (M.indices.getD p 0 = j)) :=
      List.filter_congr fun p hp => by rw [h1 p hp]
    change (List.map _ (List.filter _ _)).sum = _
    rw [h3]
    congr 1
    exact List.map_congr_left fun p hp => h2 p (List.mem_of_mem_filter hp)

/-- **C162**, the part which holds: a matrix saved under a name which ends with `.npz` is read back with the same shape and entries under the
returned name, whatever that file contained before, and no other file changes. -/
theorem C162_round_trip_partial {K : Type} [Zero K] [Add K] (fs : Files K) (file : String) (hf : ".npz".toList <:+ file.toList)
    (M : Csr K) (hM : M.Valid) :
    ∃ M', load (save fs file M).1 (save fs file M).2 = .ok M' ∧ M'.n = M.n ∧ M'.m = M.m ∧ (∀ i j, M'.entry i j = M.entry i j) ∧
      ∀ other, other ≠ file → (save fs file M).1 other = fs other := by
  obtain ⟨M', h1, h2⟩ := ofArrays_valid M hM
  refine ⟨M', ?_, h2.1, h2.2.1, h2.2.2, ?_⟩
  · simp only [save, load, npzName, if_pos hf, Function.update_self, h1]
  · intro other ho
    simp only [save, npzName, if_pos hf, Function.update_of_ne ho]

/-- **C162 is violated**: under any other name the matrix ends up in another file than the returned one; loading raises `FileNotFoundError`,
or returns what the file of that name contained before. -/
theorem C162_round_trip_violated {K : Type} (fs : Files K) (file : String) (hf : ¬ ".npz".toList <:+ file.toList) (M : Csr K) :
    (fs file = none → load (save fs file M).1 (save fs file M).2 = .error .fileNotFound) ∧
      load (save fs file M).1 (save fs file M).2 = load fs file := by
  have hne : file ≠ file ++ ".npz" := by
    intro h
    have := congrArg (fun s => s.toList.length) h
    simp [String.toList_append] at this
  have key : (save fs file M).1 (save fs file M).2 = fs file := by
    simp only [save, npzName, if_neg hf, Function.update_of_ne hne]
  constructor
  · intro h
    unfold load
    rw [key, h]
  · unfold load
    rw [key]

/-- The identity matrix with a duplicate and superfluous entries. -/
def exampleCsr : Csr ℤ := ⟨2, 2, [1, 3, -2, 7], [0, 1, 1, 0], [0, 1, 3]⟩

example : exampleCsr.Valid ∧ ".npz".toList <:+ "S.npz".toList ∧ ¬ ".npz".toList <:+ "S".toList ∧
    (List.range 2).map (fun i => (List.range 2).map (exampleCsr.entry i)) = [[1, 0], [0, 1]] := by
  refine ⟨⟨rfl, rfl, ?_, by decide, rfl, by decide⟩, by decide, by decide, by decide⟩
  intro i j hi hj
  have hj' : j < 3 := hj
  have : ∀ j < 3, ∀ i ≤ j, exampleCsr.indptr.getD i 0 ≤ exampleCsr.indptr.getD j 0 := by decide
  have := this j hj' i hi
  rwa [List.getD_eq_getElem _ _ hj, List.getD_eq_getElem _ _ (by omega)] at this

/-! ### C163 -/

end HubToolbox.InOut

namespace HubToolbox.Spec

/-- The value which the words of a line give for a (one-based) column: the last one, zero if there is none. -/
def lastValue (words : List (ℤ × ℤ)) (col : ℤ) : ℤ := ((words.reverse.find? (fun w => w.1 == col)).map Prod.snd).getD 0

end HubToolbox.Spec

namespace HubToolbox.InOut

theorem wrap_valid {dim : ℕ} {col : ℤ} (h1 : 1 ≤ col) (h2 : col ≤ dim) :
    Np.wrap dim (col - 1) = some ⟨(col - 1).toNat, by omega⟩ := by
  unfold Np.wrap
  rw [dif_pos ⟨by omega, by omega⟩]

theorem readLine_valid {n dim : ℕ} {row : ℕ} (hr : row < n) : ∀ (words : List (ℤ × ℤ)) (V : Fin n → Fin dim → ℤ),
    (∀ w ∈ words, 1 ≤ w.1 ∧ w.1 ≤ dim) →
    ∃ V', readLine row V words = .ok V' ∧ ∀ i j, V' i j = if i = ⟨row, hr⟩ then
      ((words.reverse.find? (fun w => w.1 == (j.val : ℤ) + 1)).map Prod.snd).getD (V i j) else V i j := by
  intro words
  induction words with
  | nil =>
    intro V _
    exact ⟨V, rfl, by simp⟩
  | cons w words ih =>
    intro V hw
    obtain ⟨hw1, hw2⟩ := hw w (by simp)
    obtain ⟨V', h1, h2⟩ := ih (fun i j => if i = ⟨row, hr⟩ ∧ j = ⟨(w.1 - 1).toNat, by omega⟩ then w.2 else V i j)
      (fun w' hw' => hw w' (by simp [hw']))
    refine ⟨V', ?_, ?_⟩
    · unfold readLine
      rw [List.foldlM_cons, dif_pos hr, wrap_valid hw1 hw2]
      exact h1
    · intro i j
      rw [h2 i j]
      by_cases hi : i = ⟨row, hr⟩
      · rw [if_pos hi, if_pos hi, List.reverse_cons, List.find?_append]
        cases hf : words.reverse.find? (fun w => w.1 == (j.val : ℤ) + 1) with
        | some x => simp
        | none =>
          have : (j = ⟨(w.1 - 1).toNat, by omega⟩) ↔ w.1 = (j.val : ℤ) + 1 := by
            rw [Fin.ext_iff]
            simp only
            omega
          by_cases hj : w.1 = (j.val : ℤ) + 1
          · rw [if_pos ⟨hi, this.2 hj⟩, List.find?_singleton, if_pos (by simpa using hj)]
            rfl
          · rw [if_neg (fun h => hj (this.1 h.2)), List.find?_singleton, if_neg (by simpa using hj)]
            rfl
      · simp [hi]

theorem readLines_valid {n dim : ℕ} : ∀ (data : List (List (ℤ × ℤ))) (row : ℕ) (V : Fin n → Fin dim → ℤ), row + data.length ≤ n →
    (∀ words ∈ data, ∀ w ∈ words, 1 ≤ w.1 ∧ w.1 ≤ dim) →
    ∃ V', readLines row data V = .ok V' ∧ ∀ i j, V' i j =
      if row ≤ i.val then (((data.getD (i.val - row) []).reverse.find? (fun w => w.1 == (j.val : ℤ) + 1)).map Prod.snd).getD (V i j)
      else V i j := by
  intro data
  induction data with
  | nil =>
    intro row V _ _
    exact ⟨V, rfl, by simp⟩
  | cons words data ih =>
    intro row V hn hw
    simp only [List.length_cons] at hn
    obtain ⟨V1, h1, h2⟩ := readLine_valid (by omega : row < n) words V (hw words (by simp))
    obtain ⟨V2, h3, h4⟩ := ih (row + 1) V1 (by omega) (fun ws h => hw ws (by simp [h]))
    refine ⟨V2, ?_, ?_⟩
    · change (readLine row V words >>= _) = _
      rw [h1]
      exact h3
    · intro i j
      rw [h4 i j, h2 i j]
      rcases lt_trichotomy i.val row with h | h | h
      · rw [if_neg (by omega), if_neg (by rw [Fin.ext_iff]; simp only; omega), if_neg (by omega)]
      · rw [if_neg (by omega), if_pos (by rw [Fin.ext_iff]; exact h), if_pos (by omega)]
        have : i.val - row = 0 := by omega
        rw [this]
        rfl
      · rw [if_pos (by omega), if_neg (by rw [Fin.ext_iff]; simp only; omega), if_pos (by omega)]
        have : i.val - row = (i.val - (row + 1)) + 1 := by omega
        rw [this]
        rfl

/-- **C163**: as long as there are no more lines than rows and all columns are between 1 and `dim`, line `i` becomes row `i`: each entry is the
last value the line gives for the column, zero if there is none. -/
theorem C163_vectors_partial (n dim : ℕ) (data : List (List (ℤ × ℤ))) (hn : data.length ≤ n)
    (hw : ∀ words ∈ data, ∀ w ∈ words, 1 ≤ w.1 ∧ w.1 ≤ dim) :
    ∃ V : Fin n → Fin dim → ℤ, readVectors n dim data = .ok V ∧
      ∀ i j, V i j = Spec.lastValue (data.getD i.val []) ((j.val : ℤ) + 1) := by
  obtain ⟨V, h1, h2⟩ := readLines_valid (n := n) (dim := dim) data 0 (fun _ _ => 0) (by omega) hw
  refine ⟨V, h1, fun i j => ?_⟩
  rw [h2 i j, if_pos (Nat.zero_le _), Nat.sub_zero]
  rfl

/-- **C163 is violated**: a line with the invalid column 0 (or a negative one) is not rejected but written to the end of the row. -/
theorem C163_zero_column_violated (n dim : ℕ) (hn : 0 < n) (col v : ℤ) (h1 : col ≤ 0) (h2 : 1 - (dim : ℤ) ≤ col) :
    ∃ V : Fin n → Fin dim → ℤ, readVectors n dim [[(col, v)]] = .ok V ∧
      V ⟨0, hn⟩ ⟨((dim : ℤ) - 1 + col).toNat, by omega⟩ = v := by
  have hwrap : Np.wrap dim (col - 1) = some ⟨((dim : ℤ) - 1 + col).toNat, by omega⟩ := by
    unfold Np.wrap
    rw [dif_neg (by omega), dif_pos ⟨by omega, by omega⟩]
    congr 1
    rw [Fin.ext_iff]
    simp only
    congr 1
    omega
  refine ⟨fun i j => if i = ⟨0, hn⟩ ∧ j = ⟨((dim : ℤ) - 1 + col).toNat, by omega⟩ then v else 0, ?_, by simp⟩
  change (readLine 0 (fun _ _ => (0 : ℤ)) [(col, v)] >>= _) = _
  have : readLine (n := n) (dim := dim) 0 (fun _ _ => (0 : ℤ)) [(col, v)] =
      .ok (fun i j => if i = ⟨0, hn⟩ ∧ j = ⟨((dim : ℤ) - 1 + col).toNat, by omega⟩ then v else 0) := by
    unfold readLine
    rw [List.foldlM_cons, dif_pos hn]
    simp only [hwrap]
    rfl
  rw [this]
  rfl

/-- **C163**: columns beyond `dim` are rejected, wherever they occur in the first line. -/
theorem C163_large_column (n dim : ℕ) (before after : List (ℤ × ℤ)) (rest : List (List (ℤ × ℤ)))
    (hb : ∀ w ∈ before, 1 ≤ w.1 ∧ w.1 ≤ dim) (col v : ℤ) (hc : (dim : ℤ) < col) (hn : 0 < n) :
    readVectors n dim ((before ++ (col, v) :: after) :: rest) = .error .indexError := by
  have hline : ∀ V : Fin n → Fin dim → ℤ, readLine 0 V (before ++ (col, v) :: after) = .error .indexError := by
    intro V
    obtain ⟨V1, h1, -⟩ := readLine_valid (dim := dim) hn before V hb
    unfold readLine at h1 ⊢
    rw [List.foldlM_append, h1]
    have : Np.wrap dim (col - 1) = none := by
      unfold Np.wrap
      rw [dif_neg (by omega), dif_neg (by omega)]
    simp only [bind, Except.bind, List.foldlM_cons, dif_pos hn, this]
  change (readLine 0 _ _ >>= _) = _
  rw [hline]
  rfl

-- C163: two lines, one with a repeated column
example : ∃ V : Fin 3 → Fin 4 → ℤ, readVectors 3 4 [[(1, 5), (3, 7), (1, 6)], [(4, 2)]] = .ok V ∧
    (List.finRange 3).map (fun i => (List.finRange 4).map (V i)) = [[6, 0, 7, 0], [0, 0, 0, 2], [0, 0, 0, 0]] := by
  obtain ⟨V, h1, h2⟩ := C163_vectors_partial 3 4 [[(1, 5), (3, 7), (1, 6)], [(4, 2)]] (by decide) (by decide)
  refine ⟨V, h1, ?_⟩
  have : V = fun i j => Spec.lastValue ([[(1, 5), (3, 7), (1, 6)], [(4, 2)]].getD i.val []) ((j.val : ℤ) + 1) := by
    funext i j; exact h2 i j
  rw [this]
  decide

/-! ### C164 -/

/-- **C164**: the check for vectors succeeds exactly for two matrices with equally many rows, and raises `TypeError` otherwise. -/
theorem C164_vectors {α β : Type} (D : PyMat α) (X : PyMat β) :
    (checkFitsVectors D X = .ok () ↔ ∃ sp n m a sp' m' b, D = .mat sp n m a ∧ X = .mat sp' n m' b) ∧
    (checkFitsVectors D X ≠ .ok () → checkFitsVectors D X = .error .typeError) := by
  cases D with
  | noArray => exact ⟨⟨(fun h => by cases h), by rintro ⟨_, _, _, _, _, _, _, h, _⟩; cases h⟩, fun _ => rfl⟩
  | otherDim d h => exact ⟨⟨(fun h => by cases h), by rintro ⟨_, _, _, _, _, _, _, h, _⟩; cases h⟩, fun _ => rfl⟩
  | mat sp n m a =>
    cases X with
    | noArray => exact ⟨⟨(fun h => by cases h), by rintro ⟨_, _, _, _, _, _, _, _, h⟩; cases h⟩, fun _ => rfl⟩
    | otherDim d h => exact ⟨⟨(fun h => by cases h), by rintro ⟨_, _, _, _, _, _, _, _, h⟩; cases h⟩, fun _ => rfl⟩
    | mat sp' n' m' b =>
      have : checkFitsVectors (.mat sp n m a) (.mat sp' n' m' b) = if n ≠ n' then .error .typeError else .ok () := rfl
      rw [this]
      by_cases h : n = n'
      · subst h
        exact ⟨⟨fun _ => ⟨sp, n, m, a, sp', m', b, rfl, rfl⟩, fun _ => by simp⟩, fun h => by simp at h⟩
      · rw [if_pos h]
        refine ⟨⟨(fun h => by cases h), ?_⟩, fun _ => rfl⟩
        rintro ⟨_, _, _, _, _, _, _, h1, h2⟩
        injection h1 with _ h1
        injection h2 with _ h2
        exact absurd (h1.trans h2.symm) h

/-- **C164**: the checks for labels succeed exactly for a matrix and a vector of as many labels as there are rows. -/
theorem C164_labels {α β : Type} (D : PyMat α) (y : PyVec β) :
    (checkFitsLabels D y = .ok () ↔ ∃ sp n m a v, D = .mat sp n m a ∧ y = .vec n v) ∧
    (checkFitsLabels D y ≠ .ok () → checkFitsLabels D y = .error .typeError) := by
  cases D with
  | noArray => exact ⟨⟨(fun h => by cases h), by rintro ⟨_, _, _, _, _, h, _⟩; cases h⟩, fun _ => rfl⟩
  | otherDim d h => exact ⟨⟨(fun h => by cases h), by rintro ⟨_, _, _, _, _, h, _⟩; cases h⟩, fun _ => rfl⟩
  | mat sp n m a =>
    cases y with
    | noArray => exact ⟨⟨(fun h => by cases h), by rintro ⟨_, _, _, _, _, _, h⟩; cases h⟩, fun _ => rfl⟩
    | otherDim => exact ⟨⟨(fun h => by cases h), by rintro ⟨_, _, _, _, _, _, h⟩; cases h⟩, fun _ => rfl⟩
    | vec l v =>
      have : checkFitsLabels (.mat sp n m a) (.vec l v) = if l ≠ n then .error .typeError else .ok () := rfl
      rw [this]
      by_cases h : l = n
      · subst h
        exact ⟨⟨fun _ => ⟨sp, l, m, a, v, rfl, rfl⟩, fun _ => by simp⟩, fun h => by simp at h⟩
      · rw [if_pos h]
        refine ⟨⟨(fun h => by cases h), ?_⟩, fun _ => rfl⟩
        rintro ⟨_, _, _, _, _, h1, h2⟩
        injection h1 with _ h1
        injection h2 with h2
        exact absurd (h2.trans h1.symm) h

/-- **C164**: the check for samples succeeds exactly for a dense matrix which has at most as many columns as rows and one index per column;
it raises `ValueError` exactly for a dense matrix with more columns than rows and an index vector, and `TypeError` otherwise. -/
theorem C164_sample {α β : Type} (D : PyMat α) (idx : PyVec β) :
    (checkSampleFits D idx = .ok () ↔ ∃ n m a v, D = .mat false n m a ∧ idx = .vec m v ∧ m ≤ n) ∧
    (checkSampleFits D idx = .error .valueError ↔ ∃ n m a l v, D = .mat false n m a ∧ idx = .vec l v ∧ n < m) ∧
    (checkSampleFits D idx = .ok () ∨ checkSampleFits D idx = .error .valueError ∨ checkSampleFits D idx = .error .typeError) := by
  cases D with
  | noArray =>
    refine ⟨⟨(fun h => by cases h), ?_⟩, ⟨(fun h => by cases h), ?_⟩, Or.inr (Or.inr rfl)⟩
    · rintro ⟨_, _, _, _, h, _⟩; cases h
    · rintro ⟨_, _, _, _, _, h, _⟩; cases h
  | otherDim d h =>
    refine ⟨⟨(fun h => by cases h), ?_⟩, ⟨(fun h => by cases h), ?_⟩, Or.inr (Or.inr rfl)⟩
    · rintro ⟨_, _, _, _, h, _⟩; cases h
    · rintro ⟨_, _, _, _, _, h, _⟩; cases h
  | mat sp n m a =>
    cases sp with
    | true =>
      refine ⟨⟨(fun h => by cases h), ?_⟩, ⟨(fun h => by cases h), ?_⟩, Or.inr (Or.inr rfl)⟩
      · rintro ⟨_, _, _, _, h, _⟩; cases h
      · rintro ⟨_, _, _, _, _, h, _⟩; cases h
    | false =>
      cases idx with
      | noArray =>
        refine ⟨⟨(fun h => by cases h), ?_⟩, ⟨(fun h => by cases h), ?_⟩, Or.inr (Or.inr rfl)⟩
        · rintro ⟨_, _, _, _, _, h, _⟩; cases h
        · rintro ⟨_, _, _, _, _, _, h, _⟩; cases h
      | otherDim =>
        refine ⟨⟨(fun h => by cases h), ?_⟩, ⟨(fun h => by cases h), ?_⟩, Or.inr (Or.inr rfl)⟩
        · rintro ⟨_, _, _, _, _, h, _⟩; cases h
        · rintro ⟨_, _, _, _, _, _, h, _⟩; cases h
      | vec l v =>
        have : checkSampleFits (.mat false n m a) (.vec l v) =
            if m > n then .error .valueError else if m ≠ l then .error .typeError else .ok () := by
          by_cases h : m > n
          · rw [if_pos h]
            simp only [checkSampleFits, PyMat.check2D, check1D, bind, Except.bind, pure, Except.pure, if_pos h]
            rfl
          · rw [if_neg h]
            simp only [checkSampleFits, PyMat.check2D, check1D, bind, Except.bind, pure, Except.pure, if_neg h]
            rfl
        rw [this]
        by_cases h : m > n
        · rw [if_pos h]
          refine ⟨⟨(fun h => by cases h), ?_⟩, ⟨fun _ => ⟨n, m, a, l, v, rfl, rfl, h⟩, fun _ => rfl⟩, Or.inr (Or.inl rfl)⟩
          rintro ⟨_, _, _, _, h1, _, h2⟩
          injection h1 with _ h1 h3
          omega
        · rw [if_neg h]
          by_cases hl : m = l
          · subst hl
            rw [if_neg (by simp)]
            refine ⟨⟨fun _ => ⟨n, m, a, v, rfl, rfl, by omega⟩, fun _ => rfl⟩, ⟨(fun h => by cases h), ?_⟩, Or.inl rfl⟩
            rintro ⟨_, _, _, _, _, h1, _, h2⟩
            injection h1 with _ h1 h3
            omega
          · rw [if_pos hl]
            refine ⟨⟨(fun h => by cases h), ?_⟩, ⟨(fun h => by cases h), ?_⟩, Or.inr (Or.inr rfl)⟩
            · rintro ⟨_, _, _, _, h1, h2, _⟩
              injection h1 with _ h1 h3
              injection h2 with h2
              omega
            · rintro ⟨_, _, _, _, _, h1, _, h2⟩
              injection h1 with _ h1 h3
              omega

-- C164: all three outcomes occur
example : checkSampleFits (.mat false 3 2 (fun _ _ => (0 : ℚ))) (.vec 2 (fun _ => (0 : ℤ))) = .ok () ∧
    checkSampleFits (.mat false 1 2 (fun _ _ => (0 : ℚ))) (.vec 2 (fun _ => (0 : ℤ))) = .error .valueError ∧
    checkSampleFits (.mat false 3 2 (fun _ _ => (0 : ℚ))) (.vec 1 (fun _ => (0 : ℤ))) = .error .typeError := ⟨rfl, rfl, rfl⟩

end HubToolbox.InOut
