import Verif.InOut.DexterModel
import Verif.InOut.Text
import Verif.Relations.ExactNan
import Mathlib.Data.List.ReduceOption

/-!
# C290: the results of `load_dexter`
-/

set_option autoImplicit false

namespace HubToolbox.Spec

/-- The part of a line before a comment, if any. -/
def BeforeComment (l b : List Char) : Prop := '#' ∉ b ∧ (l = b ∨ ∃ c, l = b ++ '#' :: c)

/-- A line of a file of labels: at most one number, possibly surrounded by blanks and followed by a comment. -/
def LabelLine (l : List Char) (o : Option ℤ) : Prop := ∃ b, BeforeComment l b ∧ LineOf b (o.toList.map decimal)

/-- A file of labels: its text, and the numbers in it. -/
def LabelFile (text : List Char) (labels : List ℤ) : Prop :=
  ∃ (ls : List (List Char)) (os : List (Option ℤ)), TextOf text ls ∧ List.Forall₂ LabelLine ls os ∧ os.reduceOption = labels

/-- A file of vectors: its text, and the columns and values in its lines. -/
def DataFile (dim : ℕ) (text : List Char) (data : List (List (ℤ × ℤ))) : Prop :=
  (∃ ls : List (List Char), TextOf text ls ∧ List.Forall₂ (fun l ws => LineOf l (ws.map entryText)) ls data) ∧
    ∀ words ∈ data, ∀ w ∈ words, 1 ≤ w.1 ∧ w.1 ≤ dim

end HubToolbox.Spec

namespace HubToolbox.InOut

open HubToolbox Spec

theorem takeWhile_all {b : List Char} (h : '#' ∉ b) : b.takeWhile (· != '#') = b :=
  by
    have := List.takeWhile_append_of_pos (p := (· != '#')) (l₁ := b) (l₂ := []) fun c hc => by
      have : c ≠ '#' := fun e => h (e ▸ hc)
      simpa using this
    simpa using this

theorem takeWhile_comment {b : List Char} (h : '#' ∉ b) (c : List Char) : (b ++ '#' :: c).takeWhile (· != '#') = b := by
  rw [List.takeWhile_append_of_pos, List.takeWhile_cons_of_neg (by decide), List.append_nil]
  intro a ha
  have : a ≠ '#' := fun e => h (e ▸ ha)
  simpa using this

theorem label_words {a l : List Char} {o : Option ℤ} (h : LabelLine l o) (ha : a = l ∨ a = l ++ ['\n']) :
    split (a.takeWhile (· != '#')) = o.toList.map decimal := by
  obtain ⟨b, ⟨hb, hl⟩, hw⟩ := h
  have hs : split b = o.toList.map decimal := split_line hw fun w hw => by
    obtain ⟨z, -, rfl⟩ := List.mem_map.1 hw
    exact ⟨decimal_ne_nil z, fun c hc => (decimal_space hc).1⟩
  rcases hl with rfl | ⟨c, rfl⟩
  · rcases ha with rfl | rfl
    · rw [takeWhile_all hb, hs]
    · have : '#' ∉ l ++ ['\n'] := by
        rw [List.mem_append, not_or]
        exact ⟨hb, by decide⟩
      rw [takeWhile_all this, split_eol (l := l) (Or.inr rfl), hs]
  · rcases ha with rfl | rfl
    · rw [takeWhile_comment hb, hs]
    · rw [List.append_assoc, List.cons_append, takeWhile_comment hb, hs]

theorem loadtxtWords_labels {text : List Char} {labels : List ℤ} (h : LabelFile text labels) :
    loadtxtWords text = labels.map (fun z => [decimal z]) := by
  obtain ⟨ls, os, ht, hl, rfl⟩ := h
  have h1 := readlines_text ht
  unfold loadtxtWords
  generalize readlines text = as at h1 ⊢
  clear ht
  induction hl generalizing as with
  | nil => cases h1; rfl
  | @cons l o ls os hw _ ih =>
    cases h1 with
    | cons ha h1 =>
      rw [List.map_cons, label_words hw ha]
      cases o with
      | none =>
        rw [List.reduceOption_cons_of_none, ← ih _ h1]
        rfl
      | some z =>
        rw [List.reduceOption_cons_of_some, List.map_cons, ← ih _ h1]
        rfl

theorem mapM_ok {α β : Type} (f : α → Py β) (g : α → β) (l : List α) (h : ∀ a ∈ l, f a = .ok (g a)) : l.mapM f = .ok (l.map g) := by
  induction l with
  | nil => rfl
  | cons a l ih =>
    rw [List.mapM_cons, h a (by simp), ih fun b hb => h b (by simp [hb])]
    rfl

theorem loadtxt_rows {float : List Char → Py ℝ} (hf : ∀ z : ℤ, float (decimal z) = .ok (z : ℝ)) {text : List Char} {labels : List ℤ}
    (h : LabelFile text labels) : loadtxt float text = squeeze (labels.map (fun z : ℤ => [(z : ℝ)])) := by
  have hm : ∀ labels : List ℤ, (labels.map (fun z => [decimal z])).mapM (fun ws => ws.mapM float) = .ok (labels.map (fun z : ℤ => [(z : ℝ)])) := by
    intro labels
    induction labels with
    | nil => rfl
    | cons z l ih =>
      rw [List.map_cons, List.mapM_cons, ih, mapM_ok float (fun _ => (z : ℝ)) [decimal z] (fun a ha => by rw [List.mem_singleton.1 ha, hf])]
      rfl
  unfold loadtxt
  rw [loadtxtWords_labels h, hm]
  rfl

theorem flatten_single {α β : Type} (f : α → β) (l : List α) : (l.map (fun z => [f z])).flatten = l.map f := by
  induction l with
  | nil => rfl
  | cons a l ih => rw [List.map_cons, List.flatten_cons, ih]; rfl

theorem loadtxt_vec {float : List Char → Py ℝ} (hf : ∀ z : ℤ, float (decimal z) = .ok (z : ℝ)) {text : List Char} {labels : List ℤ}
    (h : LabelFile text labels) {m : ℕ} (hm : labels.length = m) (h1 : m ≠ 1) :
    loadtxt float text = .ok (.vec m fun i => ((labels.getD i 0 : ℤ) : ℝ)) := by
  subst hm
  rw [loadtxt_rows hf h]
  have key : ∀ (L : List ℝ) (_ : L = labels.map (fun z : ℤ => (z : ℝ))), PyVec.vec L.length L.get = .vec labels.length fun i => ((labels.getD i 0 : ℤ) : ℝ) := by
    rintro L rfl
    have hlen : (labels.map (fun z : ℤ => (z : ℝ))).length = labels.length := List.length_map _
    have : ∀ (m : ℕ) (e : m = labels.length) (v : Fin m → ℝ), (∀ i : Fin m, v i = ((labels.getD i 0 : ℤ) : ℝ)) →
        PyVec.vec m v = .vec labels.length fun i => ((labels.getD i 0 : ℤ) : ℝ) := by
      rintro m rfl v hv
      rw [funext hv]
    refine this _ hlen _ fun i => ?_
    have hi : i.val < labels.length := hlen ▸ i.isLt
    rw [List.getD_eq_getElem _ _ hi]
    simp
  match labels, h1, key with
  | [], _, _ => exact congrArg Except.ok (by
      congr 1
      funext i
      exact i.elim0)
  | [_], h1, _ => exact absurd rfl h1
  | a :: b :: l, _, key =>
    have hall : (((b :: l).map (fun z : ℤ => [(z : ℝ)])).all (fun s => s.length = ([(a : ℝ)] : List ℝ).length)) = true := by
      rw [List.all_eq_true]
      intro s hs
      obtain ⟨z, -, rfl⟩ := List.mem_map.1 hs
      rfl
    have hsq : squeeze (((a :: b :: l).map (fun z : ℤ => [(z : ℝ)]))) =
        .ok (.vec ((a :: b :: l).map (fun z : ℤ => [(z : ℝ)])).flatten.length ((a :: b :: l).map (fun z : ℤ => [(z : ℝ)])).flatten.get) := by
      rw [List.map_cons]
      rw [List.map_cons] at hall ⊢
      rw [squeeze, if_pos hall, if_pos (show ([(a : ℝ)] : List ℝ).length = 1 from rfl)]
      simp
    rw [hsq, key _ (flatten_single _ _)]

theorem fitsLabels {α β : Type} {s : Bool} {n m l : ℕ} (D : Fin n → Fin m → α) (c : Fin l → β) :
    checkFitsLabels (.mat s n m D) (.vec l c) = if l ≠ n then .error .typeError else .ok () := rfl

theorem fitsVectors {α β : Type} {s s' : Bool} {n m l k : ℕ} (D : Fin n → Fin m → α) (V : Fin l → Fin k → β) :
    checkFitsVectors (.mat s n m D) (.mat s' l k V) = if n ≠ l then .error .typeError else .ok () := rfl

section
variable {float : List Char → Py ℝ} (hf : ∀ z : ℤ, float (decimal z) = .ok (z : ℝ))
include hf

/-- What `load_dexter` returns for files of their format. -/
theorem loadDexter_eq {n dim : ℕ} {ltext dtext : List Char} {labels : List ℤ} {data : List (List (ℤ × ℤ))} (hl : LabelFile ltext labels)
    (hd : DataFile dim dtext data) {m : ℕ} (hm : labels.length = m) (h1 : m ≠ 1) (hn : data.length ≤ n) :
    loadDexter float n dim ltext dtext =
      .ok (.mat false n n (Dist.cosineDistance fun (i : Fin n) (j : Fin dim) => ((lastValue (data.getD i.val []) ((j.val : ℤ) + 1) : ℤ) : ℝ)),
        .vec m (fun i => ((labels.getD i 0 : ℤ) : ℝ)), .mat false n dim fun i j => ((lastValue (data.getD i.val []) ((j.val : ℤ) + 1) : ℤ) : ℝ)) := by
  obtain ⟨⟨ls, ht, hls⟩, hw⟩ := hd
  obtain ⟨V, h, hV⟩ := C257_round_trip n dim ht hls hn hw
  have hV' : V = fun i j => lastValue (data.getD i.val []) ((j.val : ℤ) + 1) := funext fun i => funext fun j => hV i j
  unfold loadDexter
  rw [loadtxt_vec hf hl hm h1, h, hV']
  rfl

/-- **C290**: for a file of `n ≥ 2` labels and a file of `n` vectors, label `i` and vector `i` are those of line `i`, the distances are the cosine distances
of the vectors, and the checks of the other functions accept the three results. -/
theorem C290_together {n dim : ℕ} {ltext dtext : List Char} {labels : List ℤ} {data : List (List (ℤ × ℤ))} (hl : LabelFile ltext labels)
    (hd : DataFile dim dtext data) (hn : labels.length = n) (hn' : data.length = n) (h2 : 2 ≤ n) :
    ∃ (D : Fin n → Fin n → XR ℝ) (c : Fin n → ℝ) (V : Fin n → Fin dim → ℝ),
      loadDexter float n dim ltext dtext = .ok (.mat false n n D, .vec n c, .mat false n dim V) ∧
      (∀ i, c i = labels.getD i 0) ∧ (∀ i j, V i j = lastValue (data.getD i.val []) ((j.val : ℤ) + 1)) ∧
      (∀ i j, D i j = D j i) ∧ (∀ i, D i i = .fin 0) ∧ (∀ i j, V i ≠ 0 → V j ≠ 0 → D i j = .fin (1 - Spec.cosAngle (V i) (V j))) ∧
      checkFitsLabels (.mat false n n D) (.vec n c) = .ok () ∧ checkFitsVectors (.mat false n n D) (.mat false n dim V) = .ok () := by
  refine ⟨_, _, _, loadDexter_eq hf hl hd hn (by omega) hn'.le, fun i => rfl, fun i j => rfl, fun i j => (Dist.C143_symmetric _ i j).1,
    fun i => (Dist.C143_symmetric _ i i).2, fun i j hi hj => ?_, ?_, ?_⟩
  · obtain ⟨v, hv, rfl, -⟩ := Dist.C143_value_partial (fun (i : Fin n) (j : Fin dim) => ((lastValue (data.getD i.val []) ((j.val : ℤ) + 1) : ℤ) : ℝ)) i j hi hj
    exact hv
  · rw [fitsLabels, if_neg (by simp)]
  · rw [fitsVectors, if_neg (by simp)]

/-- **C290**: the order of the lines does not matter: if the lines of both files are rearranged, so are the results. -/
theorem C290_order {n dim : ℕ} (hdim : 0 < dim) {ltext ltext' dtext dtext' : List Char} {labels labels' : List ℤ} {data data' : List (List (ℤ × ℤ))}
    (hl : LabelFile ltext labels) (hl' : LabelFile ltext' labels') (hd : DataFile dim dtext data) (hd' : DataFile dim dtext' data')
    (hn : labels.length = n) (hn' : labels'.length = n) (hm : data.length = n) (hm' : data'.length = n) (h2 : 2 ≤ n) (σ : Equiv.Perm (Fin n))
    (hσ : ∀ i : Fin n, labels'.getD i 0 = labels.getD (σ i) 0 ∧ data'.getD i [] = data.getD (σ i) []) :
    ∃ (D : Fin n → Fin n → XR ℝ) (c : Fin n → ℝ) (V : Fin n → Fin dim → ℝ),
      loadDexter float n dim ltext dtext = .ok (.mat false n n D, .vec n c, .mat false n dim V) ∧
      loadDexter float n dim ltext' dtext' =
        .ok (.mat false n n (fun i j => D (σ i) (σ j)), .vec n (fun i => c (σ i)), .mat false n dim fun i => V (σ i)) := by
  refine ⟨_, _, _, loadDexter_eq hf hl hd hn (by omega) hm.le, ?_⟩
  rw [loadDexter_eq hf hl' hd' hn' (by omega) hm'.le]
  have hV : (fun (i : Fin n) (j : Fin dim) => ((lastValue (data'.getD i.val []) ((j.val : ℤ) + 1) : ℤ) : ℝ)) =
      fun i j => ((lastValue (data.getD (σ i).val []) ((j.val : ℤ) + 1) : ℤ) : ℝ) := by
    funext i j
    rw [(hσ i).2]
  have hc : (fun i : Fin n => ((labels'.getD i 0 : ℤ) : ℝ)) = fun i => ((labels.getD (σ i) 0 : ℤ) : ℝ) := by
    funext i
    rw [(hσ i).1]
  rw [hV, hc]
  have hD : ∀ X : Fin n → Fin dim → ℝ, Dist.cosineDistance (fun i => X (σ i)) = fun i j => Dist.cosineDistance X (σ i) (σ j) := by
    intro X
    funext i j
    rcases eq_or_ne i j with rfl | hij
    · rw [(Dist.C143_symmetric _ i i).2, (Dist.C143_symmetric _ (σ i) (σ i)).2]
    · by_cases h : X (σ i) ≠ 0 ∧ X (σ j) ≠ 0
      · obtain ⟨v, hv, rfl, -⟩ := Dist.C143_value_partial (fun i => X (σ i)) i j h.1 h.2
        obtain ⟨w, hw, rfl, -⟩ := Dist.C143_value_partial X (σ i) (σ j) h.1 h.2
        rw [hv, hw]
      · have h' : X (σ i) = 0 ∨ X (σ j) = 0 := by
          rw [not_and_or, not_not, not_not] at h
          exact h
        rw [(Dist.C143_nan_iff hdim (fun i => X (σ i)) i j).2 ⟨hij, h'⟩,
          (Dist.C143_nan_iff hdim X (σ i) (σ j)).2 ⟨fun e => hij (σ.injective e), h'⟩]
  rw [hD fun i j => ((lastValue (data.getD i.val []) ((j.val : ℤ) + 1) : ℤ) : ℝ)]

/-- **C290**: a file with another number of labels than `n` is not rejected by `load_dexter`; the checks of the other functions reject the result. -/
theorem C290_labels {n dim : ℕ} {ltext dtext : List Char} {labels : List ℤ} {data : List (List (ℤ × ℤ))} (hl : LabelFile ltext labels)
    (hd : DataFile dim dtext data) (hn : labels.length ≠ n) (h1 : labels.length ≠ 1) (hn' : data.length ≤ n) :
    ∃ D c V, loadDexter float n dim ltext dtext = .ok (D, c, V) ∧ checkFitsLabels D c = .error .typeError ∧
      checkFitsLabels V c = .error .typeError := by
  refine ⟨_, _, _, loadDexter_eq hf hl hd rfl h1 hn', ?_, ?_⟩
  · rw [fitsLabels, if_pos hn]
  · rw [fitsLabels, if_pos hn]

/-- **C290**: a data file with fewer than `n` lines is not rejected by `load_dexter` either; the missing vectors are zero, and their distances to the other
vectors are `nan`. -/
theorem C290_missing {n dim : ℕ} (hdim : 0 < dim) {ltext dtext : List Char} {labels : List ℤ} {data : List (List (ℤ × ℤ))} (hl : LabelFile ltext labels)
    (hd : DataFile dim dtext data) (hn : labels.length = n) (h1 : n ≠ 1) (i : Fin n) (hi : data.length ≤ i.val) :
    ∃ (D : Fin n → Fin n → XR ℝ) (c : Fin n → ℝ) (V : Fin n → Fin dim → ℝ),
      loadDexter float n dim ltext dtext = .ok (.mat false n n D, .vec n c, .mat false n dim V) ∧ V i = 0 ∧ ∀ j, j ≠ i → D i j = .nan := by
  have hz : (fun j : Fin dim => ((lastValue (data.getD i.val []) ((j.val : ℤ) + 1) : ℤ) : ℝ)) = 0 := by
    funext j
    rw [List.getD_eq_default _ _ hi]
    norm_num [lastValue]
  exact ⟨_, _, _, loadDexter_eq hf hl hd hn h1 (hi.trans i.isLt.le), hz, fun j hj =>
    (Dist.C143_nan_iff hdim _ i j).2 ⟨hj.symm, Or.inl hz⟩⟩

end

/-! ### Non-vacuity -/

/-- A conversion of words to numbers. -/
def floatOfInt (w : List Char) : Py ℝ := (pyInt w).map (fun z => (z : ℝ))

theorem floatOfInt_decimal (z : ℤ) : floatOfInt (decimal z) = .ok (z : ℝ) := by
  unfold floatOfInt
  rw [pyInt_decimal]
  rfl

/-- `1`, a line with a comment only, and ` -1 # x` without end of line. -/
theorem labels_file : LabelFile (['1'] ++ '\n' :: (['#', 'a'] ++ '\n' :: [' ', '-', '1', ' ', '#', 'x'])) [1, -1] := by
  refine ⟨_, [some 1, none, some (-1)], .cons _ _ _ (by decide) (.cons _ _ _ (by decide) (.last _ (by decide) (by decide))),
    .cons ⟨['1'], ⟨by decide, Or.inl rfl⟩, ?_⟩ (.cons ⟨[], ⟨by decide, Or.inr ⟨['a'], rfl⟩⟩, .nil [] noBlank⟩
      (.cons ⟨[' ', '-', '1', ' '], ⟨by decide, Or.inr ⟨['x'], rfl⟩⟩, ?_⟩ .nil)), by decide⟩
  · have e : ['1'] = [] ++ decimal 1 := by decide
    rw [e]
    exact .last _ _ noBlank
  · have e : [' ', '-', '1', ' '] = [' '] ++ decimal (-1) ++ ' ' :: [] := by decide
    rw [e]
    exact .cons _ _ _ _ _ oneBlank oneBlank (.nil [] noBlank)

theorem data_file : DataFile 3 (['3', ':', '4', ' ', '1', ':', '3'] ++ '\n' :: ['3', ':', '2']) [[(3, 4), (1, 3)], [(3, 2)]] := by
  refine ⟨⟨_, .cons _ _ _ (by decide) (.last _ (by decide) (by decide)), .cons ?_ (.cons ?_ .nil)⟩, by decide⟩
  · have e : ['3', ':', '4', ' ', '1', ':', '3'] = [] ++ entryText (3, 4) ++ ' ' :: ([] ++ entryText (1, 3)) := by decide
    rw [e]
    exact .cons _ _ _ _ _ noBlank oneBlank (.last _ _ noBlank)
  · have e : ['3', ':', '2'] = [] ++ entryText (3, 2) := by decide
    rw [e]
    exact .last _ _ noBlank

theorem data_file_swapped : DataFile 3 (['3', ':', '2'] ++ '\n' :: ['3', ':', '4', ' ', '1', ':', '3']) [[(3, 2)], [(3, 4), (1, 3)]] := by
  refine ⟨⟨_, .cons _ _ _ (by decide) (.last _ (by decide) (by decide)), .cons ?_ (.cons ?_ .nil)⟩, by decide⟩
  · have e : ['3', ':', '2'] = [] ++ entryText (3, 2) := by decide
    rw [e]
    exact .last _ _ noBlank
  · have e : ['3', ':', '4', ' ', '1', ':', '3'] = [] ++ entryText (3, 4) ++ ' ' :: ([] ++ entryText (1, 3)) := by decide
    rw [e]
    exact .cons _ _ _ _ _ noBlank oneBlank (.last _ _ noBlank)

theorem labels_file_swapped : LabelFile (['-', '1'] ++ '\n' :: ['1']) [-1, 1] := by
  refine ⟨_, [some (-1), some 1], .cons _ _ _ (by decide) (.last _ (by decide) (by decide)),
    .cons ⟨['-', '1'], ⟨by decide, Or.inl rfl⟩, ?_⟩ (.cons ⟨['1'], ⟨by decide, Or.inl rfl⟩, ?_⟩ .nil), by decide⟩
  · have e : ['-', '1'] = [] ++ decimal (-1) := by decide
    rw [e]
    exact .last _ _ noBlank
  · have e : ['1'] = [] ++ decimal 1 := by decide
    rw [e]
    exact .last _ _ noBlank

example := C290_together floatOfInt_decimal labels_file data_file rfl rfl le_rfl

example := C290_order floatOfInt_decimal (by norm_num) labels_file labels_file_swapped data_file data_file_swapped rfl rfl rfl rfl le_rfl
  (Equiv.swap (0 : Fin 2) 1) (by decide)

example := C290_labels floatOfInt_decimal (n := 5) labels_file data_file (by decide) (by decide) (by decide)

-- two labels, but one vector only
example := C290_missing floatOfInt_decimal (n := 2) (dim := 3) (by norm_num) (dtext := ['3', ':', '2']) (data := [[(3, 2)]]) labels_file
  ⟨⟨_, .last _ (by decide) (by decide), .cons (by
    have e : ['3', ':', '2'] = [] ++ entryText (3, 2) := by decide
    rw [e]
    exact .last _ _ noBlank) .nil⟩, by decide⟩ rfl (by decide) 1 (by decide)

end HubToolbox.InOut
