import Verif.InOut.TextModel
import Verif.InOut.Files
import Verif.InOut.Memory

/-!
# C257, C258: reading the text of data files and of `/proc/meminfo`
-/

set_option autoImplicit false

namespace HubToolbox.Spec

/-- Decimal notation of an integer. -/
def decimal (z : ℤ) : List Char := if z < 0 then '-' :: Nat.toDigits 10 z.natAbs else Nat.toDigits 10 z.natAbs

/-- An entry of a data file: column and value. -/
def entryText (w : ℤ × ℤ) : List Char := decimal w.1 ++ ':' :: decimal w.2

/-- The characters which separate words. -/
def Blank (s : List Char) : Prop := ∀ c ∈ s, c = ' ' ∨ c = '\t' ∨ c = '\r'

/-- Words separated by blanks, possibly with blanks before and after them. -/
inductive LineOf : List Char → List (List Char) → Prop
  | nil (s : List Char) : Blank s → LineOf s []
  | cons (s w : List Char) (c : Char) (rest : List Char) (ws : List (List Char)) :
      Blank s → Blank [c] → LineOf rest ws → LineOf (s ++ w ++ c :: rest) (w :: ws)
  | last (s w : List Char) : Blank s → LineOf (s ++ w) [w]

/-- Lines of a text, the last of which may lack the end of line. -/
inductive TextOf : List Char → List (List Char) → Prop
  | nil : TextOf [] []
  | last (l : List Char) : l ≠ [] → '\n' ∉ l → TextOf l [l]
  | cons (l rest : List Char) (ls : List (List Char)) : '\n' ∉ l → TextOf rest ls → TextOf (l ++ '\n' :: rest) (l :: ls)

end HubToolbox.Spec

namespace HubToolbox.InOut

open HubToolbox Spec

/-! ### Words -/

theorem split_append_cons (a b : List Char) {c : Char} (hc : isSpace c = true) : split (a ++ c :: b) = split a ++ split b := by
  unfold split
  rw [List.splitOnP_append_cons a b hc, List.filter_append]

theorem split_space {s : List Char} (hs : ∀ c ∈ s, isSpace c = true) (b : List Char) : split (s ++ b) = split b := by
  induction s with
  | nil => rfl
  | cons c s ih =>
    have := split_append_cons [] (s ++ b) (hs c (by simp))
    rw [List.nil_append] at this
    rw [List.cons_append, this, ih (fun c' h => hs c' (by simp [h]))]
    rfl

theorem split_spaces {s : List Char} (hs : ∀ c ∈ s, isSpace c = true) : split s = [] := by
  have := split_space hs []
  rwa [List.append_nil] at this

theorem split_append_space (a : List Char) {s : List Char} (hs : ∀ c ∈ s, isSpace c = true) : split (a ++ s) = split a := by
  cases s with
  | nil => rw [List.append_nil]
  | cons c s =>
    have h := split_spaces (s := s) (fun c' h => hs c' (List.mem_cons_of_mem _ h))
    rw [split_append_cons a s (hs c (by simp)), h, List.append_nil]

theorem split_word {w : List Char} (hw : ∀ c ∈ w, isSpace c = false) (hne : w ≠ []) : split w = [w] := by
  unfold split
  rw [List.splitOnP_eq_singleton hw]
  cases w with
  | nil => exact absurd rfl hne
  | cons c w => rfl

theorem mem_takeWhile {p : Char → Bool} {s : List Char} {c : Char} (h : c ∈ s.takeWhile p) : p c = true := by
  induction s with
  | nil => simp at h
  | cons d s ih =>
    rw [List.takeWhile_cons] at h
    split at h
    · rcases List.mem_cons.1 h with rfl | h
      · assumption
      · exact ih h
    · simp at h

theorem split_strip (s : List Char) : split (strip s) = split s := by
  have h1 : s = s.takeWhile isSpace ++ s.dropWhile isSpace := List.takeWhile_append_dropWhile.symm
  set t := s.dropWhile isSpace with ht
  have h2 : t = strip s ++ (t.reverse.takeWhile isSpace).reverse := by
    unfold strip
    rw [← ht, ← List.reverse_append, List.takeWhile_append_dropWhile, List.reverse_reverse]
  have e1 : split s = split t := by
    conv_lhs => rw [h1]
    exact split_space (fun c hc => mem_takeWhile hc) t
  rw [e1]
  conv_rhs => rw [h2]
  rw [split_append_space]
  intro c hc
  exact mem_takeWhile (List.mem_reverse.1 hc)

/-! ### Numbers -/

theorem digit_char {c : Char} (h : c.isDigit = true) : isSpace c = false ∧ c ≠ ':' ∧ c ≠ '_' ∧ c ≠ '-' ∧ c ≠ '+' ∧ c ≠ '\n' := by
  have hr : 48 ≤ c.toNat ∧ c.toNat ≤ 57 := by
    simp only [Char.isDigit, ge_iff_le, Bool.and_eq_true, decide_eq_true_eq] at h
    exact ⟨by have := UInt32.le_iff_toNat_le.1 h.1; simpa using this, by have := UInt32.le_iff_toNat_le.1 h.2; simpa using this⟩
  have hne : ∀ d : Char, (d.toNat < 48 ∨ 57 < d.toNat) → c ≠ d := by
    rintro d hd rfl
    omega
  refine ⟨?_, hne _ (by decide), hne _ (by decide), hne _ (by decide), hne _ (by decide), hne _ (by decide)⟩
  unfold isSpace
  simp only [Bool.or_eq_false_iff, beq_eq_false_iff_ne, Bool.and_eq_false_iff, decide_eq_false_iff_not]
  exact ⟨⟨⟨⟨⟨⟨hne _ (by decide), hne _ (by decide)⟩, hne _ (by decide)⟩, hne _ (by decide)⟩, hne _ (by decide)⟩,
    hne _ (by decide)⟩, Or.inr (by omega)⟩

theorem toDigits_digit {n : ℕ} {c : Char} (h : c ∈ Nat.toDigits 10 n) : c.isDigit = true :=
  Nat.isDigit_of_mem_toDigits (by norm_num) (by norm_num) h

theorem pyNat_toDigits (n : ℕ) : pyNat (Nat.toDigits 10 n) = .ok n := by
  have hu : ∀ c ∈ Nat.toDigits 10 n, (c == '_') = false := fun c hc => by
    simpa using (digit_char (toDigits_digit hc)).2.2.1
  unfold pyNat
  rw [List.splitOnP_eq_singleton hu, if_pos, List.filter_eq_self.2 (fun c hc => by simpa using hu c hc)]
  · exact congrArg Except.ok (Nat.ofDigitChars_ten_toDigits (n := n))
  · simp only [List.all_cons, List.all_nil, Bool.and_true, Bool.and_eq_true, List.all_eq_true]
    refine ⟨?_, fun c hc => toDigits_digit hc⟩
    simp

theorem strip_word {w : List Char} (hw : ∀ c ∈ w, isSpace c = false) : strip w = w := by
  have h : ∀ v : List Char, (∀ c ∈ v, isSpace c = false) → v.dropWhile isSpace = v := by
    intro v hv
    cases v with
    | nil => rfl
    | cons c v => rw [List.dropWhile_cons, if_neg (by rw [hv c (by simp)]; decide)]
  unfold strip
  rw [h w hw, h _ (fun c hc => hw c (List.mem_reverse.1 hc)), List.reverse_reverse]

theorem decimal_char {z : ℤ} {c : Char} (h : c ∈ decimal z) : c = '-' ∨ c.isDigit = true := by
  unfold decimal at h
  split at h
  · rcases List.mem_cons.1 h with h | h
    · exact Or.inl h
    · exact Or.inr (toDigits_digit h)
  · exact Or.inr (toDigits_digit h)

theorem decimal_space {z : ℤ} {c : Char} (h : c ∈ decimal z) : isSpace c = false ∧ c ≠ ':' ∧ c ≠ '\n' := by
  rcases decimal_char h with rfl | h
  · decide
  · exact ⟨(digit_char h).1, (digit_char h).2.1, (digit_char h).2.2.2.2.2⟩

theorem decimal_ne_nil (z : ℤ) : decimal z ≠ [] := by
  unfold decimal
  split
  · simp
  · exact Nat.toDigits_ne_nil

/-- Reading the decimal notation gives the number. -/
theorem pyInt_decimal (z : ℤ) : pyInt (decimal z) = .ok z := by
  unfold pyInt
  rw [strip_word (fun c hc => (decimal_space hc).1)]
  unfold decimal
  by_cases hz : z < 0
  · rw [if_pos hz]
    simp only [pyNat_toDigits]
    refine congrArg Except.ok ?_
    beta_reduce
    omega
  · rw [if_neg hz]
    have hh : ∀ c, c ∈ Nat.toDigits 10 z.natAbs → c ≠ '-' ∧ c ≠ '+' := fun c hc =>
      ⟨(digit_char (toDigits_digit hc)).2.2.2.1, (digit_char (toDigits_digit hc)).2.2.2.2.1⟩
    have hv := pyNat_toDigits z.natAbs
    cases hd : Nat.toDigits 10 z.natAbs with
    | nil => exact absurd hd Nat.toDigits_ne_nil
    | cons c r =>
      rw [hd] at hv hh
      obtain ⟨h1, h2⟩ := hh c (by simp)
      split
      · rename_i heq; exact absurd (List.cons.inj heq).1 h1
      · rename_i heq; exact absurd (List.cons.inj heq).1 h2
      · rw [hv]
        refine congrArg Except.ok ?_
        beta_reduce
        omega

/-! ### Lines -/

theorem blank_space {s : List Char} (h : Blank s) : ∀ c ∈ s, isSpace c = true := by
  intro c hc
  rcases h c hc with rfl | rfl | rfl <;> decide

theorem split_line {l : List Char} {ws : List (List Char)} (h : LineOf l ws) (hw : ∀ w ∈ ws, w ≠ [] ∧ ∀ c ∈ w, isSpace c = false) :
    split l = ws := by
  induction h with
  | nil s hs => exact split_spaces (blank_space hs)
  | cons s w c rest ws hs hc _ ih =>
    rw [split_append_cons _ _ (blank_space hc c (by simp)), split_space (blank_space hs),
      split_word (hw w (by simp)).2 (hw w (by simp)).1, ih (fun w' h => hw w' (by simp [h]))]
    rfl
  | last s w hs => rw [split_space (blank_space hs), split_word (hw w (by simp)).2 (hw w (by simp)).1]

theorem readlines_line {l : List Char} (hl : '\n' ∉ l) (rest : List Char) :
    readlines (l ++ '\n' :: rest) = (l ++ ['\n']) :: readlines rest := by
  induction l with
  | nil => rfl
  | cons c l ih =>
    have hc : c ≠ '\n' := fun e => hl (by simp [e])
    rw [List.cons_append, readlines, if_neg hc, ih (fun h => hl (by simp [h]))]
    rfl

theorem readlines_last {l : List Char} (hne : l ≠ []) (hl : '\n' ∉ l) : readlines l = [l] := by
  induction l with
  | nil => exact absurd rfl hne
  | cons c l ih =>
    have hc : c ≠ '\n' := fun e => hl (by simp [e])
    rw [readlines, if_neg hc]
    cases l with
    | nil => rfl
    | cons d l => rw [ih (by simp) (fun h => hl (by simp [h]))]

/-- The lines of a text, apart from the ends of lines. -/
theorem readlines_text {text : List Char} {ls : List (List Char)} (h : TextOf text ls) :
    List.Forall₂ (fun a l => a = l ∨ a = l ++ ['\n']) (readlines text) ls := by
  induction h with
  | nil => exact .nil
  | last l hne hl => rw [readlines_last hne hl]; exact .cons (Or.inl rfl) .nil
  | cons l rest ls hl _ ih => rw [readlines_line hl]; exact .cons (Or.inr rfl) ih

theorem split_eol {a l : List Char} (h : a = l ∨ a = l ++ ['\n']) : split a = split l := by
  rcases h with rfl | rfl
  · rfl
  · exact split_append_space l (by simp only [List.mem_singleton, forall_eq]; decide)

/-! ### C257 -/

theorem entryText_word (w : ℤ × ℤ) : entryText w ≠ [] ∧ ∀ c ∈ entryText w, isSpace c = false := by
  refine ⟨by simp [entryText], fun c hc => ?_⟩
  unfold entryText at hc
  rcases List.mem_append.1 hc with h | h
  · exact (decimal_space h).1
  · rcases List.mem_cons.1 h with rfl | h
    · decide
    · exact (decimal_space h).1

theorem readWord_entry {n dim : ℕ} (row : ℕ) (V : Fin n → Fin dim → ℤ) (w : ℤ × ℤ) : readWord row V (entryText w) = readLine row V [w] := by
  have hs : (entryText w).splitOnP (· == ':') = [decimal w.1, decimal w.2] := by
    unfold entryText
    rw [List.splitOnP_append_cons _ _ (by decide), List.splitOnP_eq_singleton (fun c hc => by simpa using (decimal_space hc).2.1),
      List.splitOnP_eq_singleton (fun c hc => by simpa using (decimal_space hc).2.1)]
    rfl
  unfold readWord
  rw [hs]
  simp only [pyInt_decimal]
  by_cases hr : row < n
  · simp only [hr, not_true_eq_false, if_false]
    rfl
  · simp only [hr, not_false_eq_true, if_true]
    unfold readLine
    rw [List.foldlM_cons, dif_neg hr]
    rfl

theorem fold_entries {n dim : ℕ} (row : ℕ) (ws : List (ℤ × ℤ)) (V : Fin n → Fin dim → ℤ) :
    (ws.map entryText).foldlM (readWord row) V = readLine row V ws := by
  induction ws generalizing V with
  | nil => rfl
  | cons w ws ih =>
    rw [List.map_cons, List.foldlM_cons, readWord_entry]
    have : readLine row V (w :: ws) = readLine row V [w] >>= fun V => readLine row V ws := by
      unfold readLine
      rw [List.foldlM_cons, List.foldlM_cons]
      simp only [List.foldlM_nil, bind_pure]
    rw [this]
    congr 1
    funext V
    exact ih V

theorem readTextLine_entries {n dim : ℕ} (row : ℕ) {a : List Char} {ws : List (ℤ × ℤ)} (h : split a = ws.map entryText)
    (V : Fin n → Fin dim → ℤ) : readTextLine row V a = readLine row V ws := by
  unfold readTextLine
  rw [split_strip, h, fold_entries]

theorem readTextLines_entries {n dim : ℕ} {as : List (List Char)} {data : List (List (ℤ × ℤ))}
    (h : List.Forall₂ (fun a ws => split a = ws.map entryText) as data) (row : ℕ) (V : Fin n → Fin dim → ℤ) :
    readTextLines row as V = readLines row data V := by
  induction h generalizing row V with
  | nil => rfl
  | cons h _ ih =>
    rw [readTextLines, readLines, readTextLine_entries row h V]
    congr 1
    funext V
    exact ih (row + 1) V

theorem loadText_eq (n dim : ℕ) {text : List Char} {ls : List (List Char)} (ht : TextOf text ls) {data : List (List (ℤ × ℤ))}
    (hl : List.Forall₂ (fun l ws => LineOf l (ws.map entryText)) ls data) : loadText n dim text = readVectors n dim data := by
  refine readTextLines_entries ?_ 0 _
  have h1 := readlines_text ht
  generalize readlines text = as at h1 ⊢
  clear ht
  induction hl generalizing as with
  | nil => cases h1; exact .nil
  | cons hw _ ih =>
    cases h1 with
    | cons ha h1 =>
      refine .cons ?_ (ih _ h1)
      rw [split_eol ha]
      refine split_line hw fun w hw => ?_
      obtain ⟨e, -, rfl⟩ := List.mem_map.1 hw
      exact entryText_word e

/-- **C257**: whatever blanks separate the words, whether or not the last line is terminated, and whatever the numbers are: line `i` of
the file becomes row `i`, each entry is the last value given for the column, and all others are zero. -/
theorem C257_round_trip (n dim : ℕ) {text : List Char} {ls : List (List Char)} (ht : TextOf text ls) {data : List (List (ℤ × ℤ))}
    (hl : List.Forall₂ (fun l ws => LineOf l (ws.map entryText)) ls data) (hn : data.length ≤ n)
    (hw : ∀ words ∈ data, ∀ w ∈ words, 1 ≤ w.1 ∧ w.1 ≤ dim) :
    ∃ V : Fin n → Fin dim → ℤ, loadText n dim text = .ok V ∧ ∀ i j, V i j = lastValue (data.getD i.val []) ((j.val : ℤ) + 1) := by
  rw [loadText_eq n dim ht hl]
  exact C163_vectors_partial n dim data hn hw

theorem length_splitOnP (p : Char → Bool) (s : List Char) : (s.splitOnP p).length = s.countP p + 1 := by
  induction s with
  | nil => rfl
  | cons c s ih =>
    rw [List.splitOnP_cons_eq_if_modifyHead, List.countP_cons]
    split
    · rw [List.length_cons, ih]
    · rw [List.length_modifyHead, ih]

/-- **C257**: a word which does not contain exactly one colon is an error, if the words before it are all right. -/
theorem C257_malformed (n dim : ℕ) {l : List Char} (hnl : '\n' ∉ l) (rest : List Char)
    (before : List (ℤ × ℤ)) (bad : List Char) (after : List (List Char)) (hl : LineOf l (before.map entryText ++ bad :: after))
    (hb : ∀ w ∈ before, 1 ≤ w.1 ∧ w.1 ≤ dim) (hn : 0 < n) (hbad : bad.count ':' ≠ 1) (hbne : bad ≠ [])
    (hbs : ∀ c ∈ bad, isSpace c = false) (ha : ∀ w ∈ after, w ≠ [] ∧ ∀ c ∈ w, isSpace c = false) :
    loadText n dim (l ++ '\n' :: rest) = .error .valueError := by
  have hsplit : split (l ++ ['\n']) = before.map entryText ++ bad :: after := by
    rw [split_eol (l := l) (Or.inr rfl)]
    refine split_line hl fun w hw => ?_
    rcases List.mem_append.1 hw with h | h
    · obtain ⟨e, -, rfl⟩ := List.mem_map.1 h
      exact entryText_word e
    · rcases List.mem_cons.1 h with rfl | h
      · exact ⟨hbne, hbs⟩
      · exact ha w h
  unfold loadText
  rw [readlines_line hnl, readTextLines]
  have hline : readTextLine (n := n) (dim := dim) 0 (fun _ _ => 0) (l ++ ['\n']) = .error .valueError := by
    unfold readTextLine
    rw [split_strip, hsplit, List.foldlM_append]
    obtain ⟨V1, h1, -⟩ := readLine_valid (dim := dim) hn before (fun _ _ => 0) hb
    rw [fold_entries, h1]
    change List.foldlM (readWord 0) V1 (bad :: after) = _
    rw [List.foldlM_cons]
    have hlen := length_splitOnP (· == ':') bad
    have : readWord (n := n) 0 V1 bad = .error .valueError := by
      unfold readWord
      split
      · rename_i heq
        rw [heq] at hlen
        exact absurd (by simpa [List.count] using hlen.symm) hbad
      · rfl
    rw [this]
    rfl
  rw [hline]
  rfl

/-! ### C258 -/

theorem textLine_eq {as : List (List Char)} {info : MemInfo}
    (h : List.Forall₂ (fun a (e : String × ℕ) => ∃ label rest, split a = label :: decimal e.2 :: rest) as info) (i : ℕ) :
    textLine as i = (line info i).map (fun v => (v : ℤ)) := by
  induction h generalizing i with
  | nil => rfl
  | cons h _ ih =>
    cases i with
    | zero =>
      obtain ⟨label, rest, h⟩ := h
      unfold textLine line
      simp only [List.getElem?_cons_zero, h, List.getElem?_cons_succ, pyInt_decimal]
      rfl
    | succ i =>
      have := ih i
      unfold textLine line at this ⊢
      simpa only [List.getElem?_cons_succ] using this

/-- **C258**: if each line consists of a label, a number and possibly further words, separated by blanks, `FreeMemLinux` gets the number of each
line it looks at: its attributes are those of the labelled numbers (which C158 and C159 are about). -/
theorem C258_read {text : List Char} {ls : List (List Char)} (ht : TextOf text ls) {info : MemInfo}
    (hl : List.Forall₂ (fun l (e : String × ℕ) => ∃ rest, LineOf l (e.1.toList :: decimal e.2 :: rest) ∧
      ∀ w ∈ e.1.toList :: rest, w ≠ [] ∧ ∀ c ∈ w, isSpace c = false) ls info) (u : MemUnit) :
    FreeMem.readText text u = FreeMem.read info u := by
  have h2 : List.Forall₂ (fun a (e : String × ℕ) => ∃ label rest, split a = label :: decimal e.2 :: rest) (readlines text) info := by
    have h1 := readlines_text ht
    generalize readlines text = as at h1 ⊢
    clear ht
    induction hl generalizing as with
    | nil => cases h1; exact .nil
    | cons hw _ ih =>
      cases h1 with
      | cons ha h1 =>
        refine .cons ?_ (ih _ h1)
        obtain ⟨rest, hline, hws⟩ := hw
        refine ⟨_, rest, (split_eol ha).trans (split_line hline fun w hw => ?_)⟩
        rcases List.mem_cons.1 hw with rfl | hw
        · exact hws _ (by simp)
        · rcases List.mem_cons.1 hw with rfl | hw
          · exact ⟨decimal_ne_nil _, fun c hc => (decimal_space hc).1⟩
          · exact hws _ (by simp [hw])
  have key := textLine_eq h2
  unfold FreeMem.readText FreeMem.read
  simp only [key]
  cases line info 0 with | error e => rfl | ok a0 =>
  cases line info 1 with | error e => rfl | ok a1 =>
  cases line info 2 with | error e => rfl | ok a2 =>
  cases line info 3 with | error e => rfl | ok a3 =>
  cases line info 20 with | error e => rfl | ok a4 =>
  cases line info 14 with | error e => rfl | ok a5 =>
  cases line info 15 with | error e => rfl | ok a6 => rfl

/-- **C258**: the attributes are the numbers of the lines 1 to 4, 21, 15 and 16. -/
theorem C258_numbers {text : List Char} {ls : List (List Char)} (ht : TextOf text ls) {info : MemInfo}
    (hl : List.Forall₂ (fun l (e : String × ℕ) => ∃ rest, LineOf l (e.1.toList :: decimal e.2 :: rest) ∧
      ∀ w ∈ e.1.toList :: rest, w ≠ [] ∧ ∀ c ∈ w, isSpace c = false) ls info) (h21 : 21 ≤ info.length) :
    ∃ m, FreeMem.readText text .kB = .ok m ∧ m.total = (info[0]).2 ∧ m.used = (info[0]).2 - (info[1]).2 ∧
      m.buffers = (info[2]).2 ∧ m.cachedMem = (info[3]).2 ∧ m.userFree = (info[1]).2 + (info[2]).2 + (info[3]).2 ∧
      m.swap = (info[14]).2 ∧ m.swapFree = (info[15]).2 := by
  rw [C258_read ht hl]
  refine ⟨_, read_ok h21 (u := .kB) (q := 1) rfl, ?_⟩
  simp [FreeMem.total, FreeMem.used, FreeMem.buffers, FreeMem.cachedMem, FreeMem.userFree, FreeMem.swap, FreeMem.swapFree]

/-- **C258**: a text with less than 21 lines is an error. -/
theorem C258_short {text : List Char} {ls : List (List Char)} (ht : TextOf text ls) {info : MemInfo}
    (hl : List.Forall₂ (fun l (e : String × ℕ) => ∃ rest, LineOf l (e.1.toList :: decimal e.2 :: rest) ∧
      ∀ w ∈ e.1.toList :: rest, w ≠ [] ∧ ∀ c ∈ w, isSpace c = false) ls info) (h21 : info.length < 21) (u : MemUnit) :
    FreeMem.readText text u = .error .indexError := by
  rw [C258_read ht hl, read_short h21]

/-! ### Non-vacuity -/

theorem noBlank : Blank [] := fun _ h => absurd h (by simp)

theorem oneBlank : Blank [' '] := fun c h => Or.inl (List.mem_singleton.1 h)

-- C257: two lines, the first with additional blanks, the second without end of line
example : ∃ V : Fin 2 → Fin 30 → ℤ, loadText 2 30 (['1', '2', ':', '-', '5', ' ', ' ', '3', ':', '4', '0', ' '] ++ '\n' :: ['7', ':', '1']) =
    .ok V ∧ V 0 11 = -5 ∧ V 0 2 = 40 ∧ V 1 6 = 1 := by
  have e1 : ['1', '2', ':', '-', '5', ' ', ' ', '3', ':', '4', '0', ' '] =
      [] ++ entryText (12, -5) ++ ' ' :: ([' '] ++ entryText (3, 40) ++ ' ' :: []) := by decide
  have e2 : ['7', ':', '1'] = [] ++ entryText (7, 1) := by decide
  have ht : TextOf (['1', '2', ':', '-', '5', ' ', ' ', '3', ':', '4', '0', ' '] ++ '\n' :: ['7', ':', '1']) _ :=
    .cons _ _ _ (by decide) (.last _ (by decide) (by decide))
  obtain ⟨V, h, hV⟩ := C257_round_trip 2 30 ht (data := [[(12, -5), (3, 40)], [(7, 1)]])
    (.cons (by rw [e1]; exact .cons _ _ _ _ _ noBlank oneBlank (.cons _ _ _ _ _ oneBlank oneBlank (.nil [] noBlank)))
      (.cons (by rw [e2]; exact .last _ _ noBlank) .nil)) (by decide) (by decide)
  exact ⟨V, h, by rw [hV]; decide, by rw [hV]; decide, by rw [hV]; decide⟩

-- C257: a word without colon
example : loadText 2 30 (['1', '2', ':', '-', '5', ' ', '3', ' ', '4', ':', '1'] ++ '\n' :: ['7', ':', '1']) = .error .valueError :=
  C257_malformed 2 30 (by decide) _ [(12, -5)] ['3'] [['4', ':', '1']]
    (by
      have e : ['1', '2', ':', '-', '5', ' ', '3', ' ', '4', ':', '1'] =
        [] ++ entryText (12, -5) ++ ' ' :: ([] ++ ['3'] ++ ' ' :: ([] ++ ['4', ':', '1'])) := by decide
      rw [e]
      exact .cons _ _ _ _ _ noBlank oneBlank (.cons _ _ _ _ _ noBlank oneBlank (.last _ _ noBlank)))
    (by decide) (by decide) (by decide) (by decide) (by decide) (by decide)

-- C258: a line of `/proc/meminfo`
example : LineOf ['A', ':', ' ', ' ', '1', '6', '3', '8', '4', ' ', 'k', 'B'] (['A', ':'] :: decimal (16384 : ℕ) :: [['k', 'B']]) ∧
    ∀ w ∈ ['A', ':'] :: [['k', 'B']], w ≠ [] ∧ ∀ c ∈ w, isSpace c = false := by
  have e : ['A', ':', ' ', ' ', '1', '6', '3', '8', '4', ' ', 'k', 'B'] =
    [] ++ ['A', ':'] ++ ' ' :: ([' '] ++ decimal (16384 : ℕ) ++ ' ' :: ([] ++ ['k', 'B'])) := by decide
  rw [e]
  exact ⟨.cons _ _ _ _ _ noBlank oneBlank (.cons _ _ _ _ _ oneBlank oneBlank (.last _ _ noBlank)), by decide⟩

end HubToolbox.InOut
