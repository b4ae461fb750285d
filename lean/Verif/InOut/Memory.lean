import Verif.InOut.Model
import Mathlib.Algebra.Order.Floor.Semifield
import Mathlib.Tactic.FieldSimp
import Mathlib.Tactic.Linarith
import Mathlib.Tactic.Ring
import Mathlib.Tactic.NormNum

/-!
# Free memory and matrix splits (C158, C159)
-/

set_option autoImplicit false

namespace HubToolbox.Spec

/-- The value with a label, in kB. -/
def memory (lines : List (String × ℕ)) (label : String) : Option ℕ := (lines.find? (fun l => l.1 == label)).map Prod.snd

/-- How many kB one unit is. The unit called `k` is the byte. -/
def unitSize (tot : ℕ) : InOut.MemUnit → ℚ
  | .kB => 1
  | .k => 1 / 1024
  | .MB => 1024
  | .GB => 1024 * 1024
  | .percent => tot / 100

end HubToolbox.Spec

namespace HubToolbox.InOut

theorem line_ok {lines : MemInfo} {i : ℕ} (h : i < lines.length) : line lines i = .ok (lines[i]).2 := by
  unfold line
  rw [List.getElem?_eq_getElem h]

theorem read_ok {lines : MemInfo} (h : 21 ≤ lines.length) {u : MemUnit} {q : ℚ} (hq : factor (lines[0]).2 u = .ok q) :
    FreeMem.read lines u = .ok ⟨(lines[0]).2, (lines[1]).2, (lines[2]).2, (lines[3]).2, (lines[20]).2, (lines[14]).2, (lines[15]).2,
      q⟩ := by
  unfold FreeMem.read
  rw [line_ok (i := 0) (by omega), line_ok (i := 1) (by omega), line_ok (i := 2) (by omega), line_ok (i := 3) (by omega),
    line_ok (i := 20) (by omega), line_ok (i := 14) (by omega), line_ok (i := 15) (by omega)]
  change (factor (lines[0]).2 u >>= _) = _
  rw [hq]
  rfl

theorem read_short {lines : MemInfo} (h : lines.length < 21) (u : MemUnit) : FreeMem.read lines u = .error .indexError := by
  have hbad : ∀ i, lines.length ≤ i → line lines i = .error .indexError := by
    intro i hi
    unfold line
    rw [List.getElem?_eq_none hi]
  have hcase : ∀ i, line lines i = .error .indexError ∨ ∃ x, line lines i = .ok x := by
    intro i
    by_cases hi : i < lines.length
    · exact Or.inr ⟨_, line_ok hi⟩
    · exact Or.inl (hbad i (by omega))
  unfold FreeMem.read
  rcases hcase 0 with h0 | ⟨x0, h0⟩ <;> rw [h0]
  · rfl
  change (line lines 1 >>= _) = _
  rcases hcase 1 with h1 | ⟨x1, h1⟩ <;> rw [h1]
  · rfl
  change (line lines 2 >>= _) = _
  rcases hcase 2 with h2 | ⟨x2, h2⟩ <;> rw [h2]
  · rfl
  change (line lines 3 >>= _) = _
  rcases hcase 3 with h3 | ⟨x3, h3⟩ <;> rw [h3]
  · rfl
  change (line lines 20 >>= _) = _
  rw [hbad 20 (by omega)]
  rfl

/-- What the code takes for the number of free bytes. -/
def freeBytes (lines : MemInfo) (h : 21 ≤ lines.length) : ℕ := 1024 * ((lines[1]).2 + (lines[2]).2 + (lines[3]).2)

theorem split_eq {lines : MemInfo} (h : 21 ≤ lines.length) {rows cols elemSize nr : ℕ} (hc : 0 < cols) (he : 0 < elemSize)
    (hn : 0 < nr) : matrixSplit lines rows cols elemSize nr =
      if freeBytes lines h / (cols * elemSize) / nr = 0 then .error .zeroDivisionError
      else .ok (⌈(rows : ℚ) / (freeBytes lines h / (cols * elemSize) / nr : ℕ)⌉₊, freeBytes lines h / (cols * elemSize) / nr) := by
  unfold matrixSplit
  rw [read_ok h (u := .k) rfl]
  have h1 : ⌊(FreeMem.userFree ⟨(lines[0]).2, (lines[1]).2, (lines[2]).2, (lines[3]).2, (lines[20]).2, (lines[14]).2, (lines[15]).2,
      1024⟩) / cols / elemSize⌋₊ = freeBytes lines h / (cols * elemSize) := by
    rw [div_div]
    have : FreeMem.userFree ⟨(lines[0]).2, (lines[1]).2, (lines[2]).2, (lines[3]).2, (lines[20]).2, (lines[14]).2, (lines[15]).2,
      1024⟩ = ((freeBytes lines h : ℕ) : ℚ) := by
      unfold FreeMem.userFree freeBytes
      push_cast
      ring
    rw [this]
    have : ((freeBytes lines h : ℕ) : ℚ) / ((cols : ℚ) * elemSize) = ((freeBytes lines h : ℕ) : ℚ) / ((cols * elemSize : ℕ) : ℚ) := by
      push_cast; ring
    rw [this, Nat.floor_div_eq_div]
  simp only [bind, Except.bind, if_neg hc.ne', if_neg he.ne', if_neg hn.ne', h1, pure, Except.pure]
  rw [Nat.floor_div_eq_div]
  split_ifs <;> rfl

/-- **C158**: the batches found by `matrix_split` cover the matrix, none of them is empty, and one batch of rows fits `nr_matrices` times
into what the code takes for the free memory, while one more row would not. -/
theorem C158_split (lines : MemInfo) (rows cols elemSize nr batches nrRows : ℕ)
    (h : matrixSplit lines rows cols elemSize nr = .ok (batches, nrRows)) :
    0 < nrRows ∧ rows ≤ batches * nrRows ∧ (0 < batches → (batches - 1) * nrRows < rows) ∧
      ∃ m, FreeMem.read lines .k = .ok m ∧ (nr * (nrRows * cols * elemSize) : ℕ) ≤ m.userFree ∧
        m.userFree < (nr * ((nrRows + 1) * cols * elemSize) : ℕ) := by
  have hl : 21 ≤ lines.length := by
    by_contra hl
    unfold matrixSplit at h
    rw [read_short (by omega)] at h
    cases h
  have hc : 0 < cols := by
    by_contra hc
    unfold matrixSplit at h
    rw [read_ok hl (u := .k) rfl] at h
    simp only [bind, Except.bind] at h
    rw [if_pos (by omega)] at h
    cases h
  have he : 0 < elemSize := by
    by_contra he
    unfold matrixSplit at h
    rw [read_ok hl (u := .k) rfl] at h
    simp only [bind, Except.bind, if_neg hc.ne', pure, Except.pure] at h
    rw [if_pos (by omega)] at h
    cases h
  have hn : 0 < nr := by
    by_contra hn
    unfold matrixSplit at h
    rw [read_ok hl (u := .k) rfl] at h
    simp only [bind, Except.bind, if_neg hc.ne', if_neg he.ne', pure, Except.pure] at h
    rw [if_pos (by omega)] at h
    cases h
  rw [split_eq hl hc he hn] at h
  split_ifs at h with h0
  set q := freeBytes lines hl / (cols * elemSize) / nr with hq
  have h := Except.ok.inj h
  simp only [Prod.mk.injEq] at h
  obtain ⟨rfl, rfl⟩ := h
  have hq0 : (0 : ℚ) < q := by exact_mod_cast Nat.pos_of_ne_zero h0
  refine ⟨Nat.pos_of_ne_zero h0, ?_, ?_, _, read_ok hl (u := .k) rfl, ?_, ?_⟩
  · have := Nat.le_ceil ((rows : ℚ) / q)
    rw [div_le_iff₀ hq0] at this
    exact_mod_cast this
  · intro hb
    have : ((⌈(rows : ℚ) / q⌉₊ - 1 : ℕ) : ℚ) < (rows : ℚ) / q := by
      rw [← Nat.lt_ceil]
      omega
    rw [lt_div_iff₀ hq0] at this
    exact_mod_cast this
  · have hu : FreeMem.userFree ⟨(lines[0]).2, (lines[1]).2, (lines[2]).2, (lines[3]).2, (lines[20]).2, (lines[14]).2, (lines[15]).2,
        1024⟩ = ((freeBytes lines hl : ℕ) : ℚ) := by
      unfold FreeMem.userFree freeBytes
      push_cast
      ring
    rw [hu]
    have h1 : q * nr ≤ freeBytes lines hl / (cols * elemSize) := Nat.div_mul_le_self _ _
    have h2 : freeBytes lines hl / (cols * elemSize) * (cols * elemSize) ≤ freeBytes lines hl := Nat.div_mul_le_self _ _
    have h3 : nr * (q * cols * elemSize) ≤ freeBytes lines hl := by
      calc nr * (q * cols * elemSize) = q * nr * (cols * elemSize) := by ring
        _ ≤ _ := (Nat.mul_le_mul_right _ h1).trans h2
    exact_mod_cast h3
  · have hu : FreeMem.userFree ⟨(lines[0]).2, (lines[1]).2, (lines[2]).2, (lines[3]).2, (lines[20]).2, (lines[14]).2, (lines[15]).2,
        1024⟩ = ((freeBytes lines hl : ℕ) : ℚ) := by
      unfold FreeMem.userFree freeBytes
      push_cast
      ring
    rw [hu]
    have h1 : freeBytes lines hl < (q + 1) * (nr * (cols * elemSize)) := by
      rw [hq, Nat.div_div_eq_div_mul, mul_comm nr]
      have := Nat.lt_div_mul_add (a := freeBytes lines hl) (b := cols * elemSize * nr) (by positivity)
      rw [add_mul, one_mul]
      exact this
    have h3 : freeBytes lines hl < nr * ((q + 1) * cols * elemSize) := by
      calc freeBytes lines hl < (q + 1) * (nr * (cols * elemSize)) := h1
        _ = _ := by ring
    exact_mod_cast h3

/-- **C158**: a split is found exactly if at least one row fits `nr_matrices` times. -/
theorem C158_succeeds_partial (lines : MemInfo) (hl : 21 ≤ lines.length) (rows cols elemSize nr : ℕ) (hc : 0 < cols) (he : 0 < elemSize)
    (hn : 0 < nr) : (∃ r, matrixSplit lines rows cols elemSize nr = .ok r) ↔
      nr * (cols * elemSize) ≤ 1024 * ((lines[1]).2 + (lines[2]).2 + (lines[3]).2) := by
  rw [split_eq hl hc he hn]
  have key : freeBytes lines hl / (cols * elemSize) / nr = 0 ↔ freeBytes lines hl < cols * elemSize * nr := by
    rw [Nat.div_div_eq_div_mul, Nat.div_eq_zero_iff]
    have : cols * elemSize * nr ≠ 0 := by positivity
    tauto
  constructor
  · rintro ⟨r, h⟩
    split_ifs at h with h0
    rw [key] at h0
    unfold freeBytes at h0
    calc nr * (cols * elemSize) = cols * elemSize * nr := by ring
      _ ≤ _ := by omega
  · intro h
    rw [if_neg]
    · exact ⟨_, rfl⟩
    · rw [key]
      unfold freeBytes
      have : nr * (cols * elemSize) = cols * elemSize * nr := by ring
      omega

/-- **C158 is violated**: whatever the free memory, a matrix with long enough rows is not split but ends in a `ZeroDivisionError`, even if it
is a single row which would fit once. -/
theorem C158_violated (lines : MemInfo) (hl : 21 ≤ lines.length) (hpos : 0 < (lines[1]).2) (rows : ℕ) :
    ∃ cols, 0 < cols ∧ cols * 8 ≤ 1024 * ((lines[1]).2 + (lines[2]).2 + (lines[3]).2) ∧
      matrixSplit lines rows cols 8 4 = .error .zeroDivisionError := by
  refine ⟨128 * ((lines[1]).2 + (lines[2]).2 + (lines[3]).2), by omega, by omega, ?_⟩
  rw [split_eq hl (by omega) (by norm_num) (by norm_num), if_pos]
  rw [Nat.div_div_eq_div_mul, Nat.div_eq_zero_iff]
  right
  unfold freeBytes
  omega

/-- A layout: the labels of the first lines. -/
def Layout (labels : List String) (lines : MemInfo) : Prop := (lines.take labels.length).map Prod.fst = labels

/-- First lines since Linux 3.14 (64 bit). -/
def modern : List String := ["MemTotal:", "MemFree:", "MemAvailable:", "Buffers:", "Cached:", "SwapCached:", "Active:", "Inactive:",
  "Active(anon):", "Inactive(anon):", "Active(file):", "Inactive(file):", "Unevictable:", "Mlocked:", "SwapTotal:", "SwapFree:"]

/-- First lines before Linux 3.14 (64 bit). -/
def ancient : List String := ["MemTotal:", "MemFree:", "Buffers:", "Cached:", "SwapCached:", "Active:", "Inactive:",
  "Active(anon):", "Inactive(anon):", "Active(file):", "Inactive(file):", "Unevictable:", "Mlocked:", "SwapTotal:", "SwapFree:", "Dirty:"]

/-- With distinct labels the value of a label is the one at its position. -/
theorem memory_layout {labels : List String} (hnd : labels.Nodup) {lines : MemInfo} (hlay : Layout labels lines) {i : ℕ}
    (hi : i < labels.length) (hl : i < lines.length) : Spec.memory lines labels[i] = some (lines[i]).2 := by
  induction labels generalizing lines i with
  | nil => cases hi
  | cons l labels ih =>
    match lines, hl with
    | (l', v) :: lines, hl =>
      simp only [Layout, List.length_cons, List.take_succ_cons, List.map_cons, List.cons.injEq] at hlay
      obtain ⟨rfl, hlay⟩ := hlay
      match i, hi, hl with
      | 0, _, _ => simp [Spec.memory]
      | i + 1, hi, hl =>
        have hi' : i < labels.length := by simpa using hi
        have h := ih (List.nodup_cons.1 hnd).2 hlay hi' (by simpa using hl)
        have hne : (l' == labels[i]) = false := by
          rw [beq_eq_false_iff_ne]
          rintro rfl
          exact (List.nodup_cons.1 hnd).1 (List.getElem_mem hi')
        simpa [Spec.memory, List.find?_cons, hne] using h

/-- The conversion factor is that of the unit. -/
theorem factor_unit {tot : ℕ} (ht : 0 < tot) (u : MemUnit) : ∃ q, factor tot u = .ok q ∧ q * Spec.unitSize tot u = 1 := by
  have : (tot : ℚ) ≠ 0 := by positivity
  cases u
  · exact ⟨_, rfl, by norm_num [Spec.unitSize]⟩
  · exact ⟨_, rfl, by norm_num [Spec.unitSize]⟩
  · exact ⟨_, rfl, by norm_num [Spec.unitSize]⟩
  · exact ⟨_, rfl, by norm_num [Spec.unitSize]⟩
  · refine ⟨_, if_neg ht.ne', ?_⟩
    simp only [Spec.unitSize]
    field_simp

/-- **C159**, the part which holds: with the lines of old kernels the amounts of memory (not of swap space) are what the labels say, in the
chosen unit. -/
theorem C159_ancient_partial (lines : MemInfo) (hl : 21 ≤ lines.length) (hlay : Layout ancient lines) (u : MemUnit)
    (tot free buff cached : ℕ) (h0 : Spec.memory lines "MemTotal:" = some tot) (h1 : Spec.memory lines "MemFree:" = some free)
    (h2 : Spec.memory lines "Buffers:" = some buff) (h3 : Spec.memory lines "Cached:" = some cached) (ht : 0 < tot) :
    ∃ m, FreeMem.read lines u = .ok m ∧ m.userFree * Spec.unitSize tot u = free + buff + cached ∧ m.total * Spec.unitSize tot u = tot ∧
      m.usedReal + m.userFree = m.total ∧ m.used * Spec.unitSize tot u = (tot : ℚ) - free ∧ m.buffers * Spec.unitSize tot u = buff ∧
      m.cachedMem * Spec.unitSize tot u = cached := by
  have hnd : ancient.Nodup := by decide +kernel
  have e0 := memory_layout hnd hlay (i := 0) (by decide) (lt_of_lt_of_le (by decide) hl)
  have e1 := memory_layout hnd hlay (i := 1) (by decide) (lt_of_lt_of_le (by decide) hl)
  have e2 := memory_layout hnd hlay (i := 2) (by decide) (lt_of_lt_of_le (by decide) hl)
  have e3 := memory_layout hnd hlay (i := 3) (by decide) (lt_of_lt_of_le (by decide) hl)
  obtain rfl : tot = _ := Option.some.inj (h0.symm.trans e0)
  obtain rfl : free = _ := Option.some.inj (h1.symm.trans e1)
  obtain rfl : buff = _ := Option.some.inj (h2.symm.trans e2)
  obtain rfl : cached = _ := Option.some.inj (h3.symm.trans e3)
  obtain ⟨q, hq, hu⟩ := factor_unit ht u
  have hm : ∀ x : ℚ, q * x * Spec.unitSize (lines[0]).2 u = x := fun x => by rw [mul_right_comm, hu, one_mul]
  refine ⟨_, read_ok hl hq, hm _, hm _, ?_, hm _, hm _, hm _⟩
  simp only [FreeMem.usedReal, FreeMem.userFree, FreeMem.total]
  ring

/-- **C159 is violated**: with the lines of old kernels, `swap` is the free swap space and `swap_free` the amount of dirty pages. -/
theorem C159_ancient_swap_violated (lines : MemInfo) (hl : 21 ≤ lines.length) (hlay : Layout ancient lines) (u : MemUnit)
    (tot swapf dirty : ℕ) (h0 : Spec.memory lines "MemTotal:" = some tot) (h1 : Spec.memory lines "SwapFree:" = some swapf)
    (h2 : Spec.memory lines "Dirty:" = some dirty) (ht : 0 < tot) :
    ∃ m, FreeMem.read lines u = .ok m ∧ m.swap * Spec.unitSize tot u = swapf ∧ m.swapFree * Spec.unitSize tot u = dirty ∧
      m.swapUsed * Spec.unitSize tot u = (swapf : ℚ) - dirty := by
  have hnd : ancient.Nodup := by decide +kernel
  have e0 := memory_layout hnd hlay (i := 0) (by decide) (lt_of_lt_of_le (by decide) hl)
  have e1 := memory_layout hnd hlay (i := 14) (by decide) (lt_of_lt_of_le (by decide) hl)
  have e2 := memory_layout hnd hlay (i := 15) (by decide) (lt_of_lt_of_le (by decide) hl)
  obtain rfl : tot = _ := Option.some.inj (h0.symm.trans e0)
  obtain rfl : swapf = _ := Option.some.inj (h1.symm.trans e1)
  obtain rfl : dirty = _ := Option.some.inj (h2.symm.trans e2)
  obtain ⟨q, hq, hu⟩ := factor_unit ht u
  have hm : ∀ x : ℚ, q * x * Spec.unitSize (lines[0]).2 u = x := fun x => by rw [mul_right_comm, hu, one_mul]
  exact ⟨_, read_ok hl hq, hm _, hm _, hm _⟩

/-- **C159**, the other part which holds: with the lines of kernels since 3.14 the total memory and the amounts of swap space are what the
labels say. -/
theorem C159_modern_partial (lines : MemInfo) (hl : 21 ≤ lines.length) (hlay : Layout modern lines) (u : MemUnit)
    (tot free swapt swapf : ℕ) (h0 : Spec.memory lines "MemTotal:" = some tot) (h1 : Spec.memory lines "MemFree:" = some free)
    (h2 : Spec.memory lines "SwapTotal:" = some swapt) (h3 : Spec.memory lines "SwapFree:" = some swapf) (ht : 0 < tot) :
    ∃ m, FreeMem.read lines u = .ok m ∧ m.total * Spec.unitSize tot u = tot ∧ m.used * Spec.unitSize tot u = (tot : ℚ) - free ∧
      m.swap * Spec.unitSize tot u = swapt ∧ m.swapFree * Spec.unitSize tot u = swapf ∧
      m.swapUsed * Spec.unitSize tot u = (swapt : ℚ) - swapf := by
  have hnd : modern.Nodup := by decide +kernel
  have e0 := memory_layout hnd hlay (i := 0) (by decide) (lt_of_lt_of_le (by decide) hl)
  have e1 := memory_layout hnd hlay (i := 1) (by decide) (lt_of_lt_of_le (by decide) hl)
  have e2 := memory_layout hnd hlay (i := 14) (by decide) (lt_of_lt_of_le (by decide) hl)
  have e3 := memory_layout hnd hlay (i := 15) (by decide) (lt_of_lt_of_le (by decide) hl)
  obtain rfl : tot = _ := Option.some.inj (h0.symm.trans e0)
  obtain rfl : free = _ := Option.some.inj (h1.symm.trans e1)
  obtain rfl : swapt = _ := Option.some.inj (h2.symm.trans e2)
  obtain rfl : swapf = _ := Option.some.inj (h3.symm.trans e3)
  obtain ⟨q, hq, hu⟩ := factor_unit ht u
  have hm : ∀ x : ℚ, q * x * Spec.unitSize (lines[0]).2 u = x := fun x => by rw [mul_right_comm, hu, one_mul]
  exact ⟨_, read_ok hl hq, hm _, hm _, hm _, hm _, hm _⟩

/-- **C159 is violated**: with the lines of kernels since 3.14, `buffers` is the available memory and `cached` the buffers, and the sum
contains the available memory (which includes free memory and most caches) besides the free memory. -/
theorem C159_modern_violated (lines : MemInfo) (hl : 21 ≤ lines.length) (hlay : Layout modern lines) (u : MemUnit)
    (tot free avail buff cached : ℕ) (h0 : Spec.memory lines "MemTotal:" = some tot) (h1 : Spec.memory lines "MemFree:" = some free)
    (h2 : Spec.memory lines "MemAvailable:" = some avail) (h3 : Spec.memory lines "Buffers:" = some buff)
    (h4 : Spec.memory lines "Cached:" = some cached) (ht : 0 < tot) :
    ∃ m, FreeMem.read lines u = .ok m ∧ m.userFree * Spec.unitSize tot u = free + avail + buff ∧
      m.buffers * Spec.unitSize tot u = avail ∧ m.cachedMem * Spec.unitSize tot u = buff ∧
      (m.userFree * Spec.unitSize tot u = free + buff + cached ↔ avail = cached) ∧
      (m.userFree ≤ m.total ↔ free + avail + buff ≤ tot) := by
  have hnd : modern.Nodup := by decide +kernel
  have e0 := memory_layout hnd hlay (i := 0) (by decide) (lt_of_lt_of_le (by decide) hl)
  have e1 := memory_layout hnd hlay (i := 1) (by decide) (lt_of_lt_of_le (by decide) hl)
  have e2 := memory_layout hnd hlay (i := 2) (by decide) (lt_of_lt_of_le (by decide) hl)
  have e3 := memory_layout hnd hlay (i := 3) (by decide) (lt_of_lt_of_le (by decide) hl)
  have e4 := memory_layout hnd hlay (i := 4) (by decide) (lt_of_lt_of_le (by decide) hl)
  obtain rfl : tot = _ := Option.some.inj (h0.symm.trans e0)
  obtain rfl : free = _ := Option.some.inj (h1.symm.trans e1)
  obtain rfl : avail = _ := Option.some.inj (h2.symm.trans e2)
  obtain rfl : buff = _ := Option.some.inj (h3.symm.trans e3)
  obtain rfl : cached = _ := Option.some.inj (h4.symm.trans e4)
  obtain ⟨q, hq, hu⟩ := factor_unit ht u
  have hm : ∀ x : ℚ, q * x * Spec.unitSize (lines[0]).2 u = x := fun x => by rw [mul_right_comm, hu, one_mul]
  have hq0 : 0 < q := by
    have hs : 0 ≤ Spec.unitSize (lines[0]).2 u := by cases u <;> simp only [Spec.unitSize] <;> positivity
    by_contra hneg
    have := mul_nonpos_of_nonpos_of_nonneg (not_lt.1 hneg) hs
    rw [hu] at this
    norm_num at this
  refine ⟨_, read_ok hl hq, hm _, hm _, hm _, ?_, ?_⟩
  · change q * (((lines[1]).2 : ℚ) + (lines[2]).2 + (lines[3]).2) * Spec.unitSize (lines[0]).2 u = _ ↔ _
    rw [hm]
    constructor
    · intro h
      have : ((lines[2]).2 : ℚ) = (lines[4]).2 := by linarith
      exact_mod_cast this
    · intro h
      rw [← h]
      ring
  · change q * (((lines[1]).2 : ℚ) + (lines[2]).2 + (lines[3]).2) ≤ q * (lines[0]).2 ↔ _
    rw [mul_le_mul_iff_right₀ hq0]
    exact_mod_cast Iff.rfl

/-- **C159 is violated**: `shared` is not the shared memory but the used memory. -/
theorem C159_shared_violated (m : FreeMem) : m.sharedMem = m.used := rfl

/-- A machine with 16 GB, of which the code believes 30 GB to be free. -/
def exampleLines : MemInfo :=
  modern.zip [16000000, 15000000, 15400000, 100000, 400000, 0, 1, 2, 3, 4, 5, 6, 7, 8, 2000000, 1900000]
    ++ (List.range 16).map (fun i => (toString i, i))

example : Layout modern exampleLines ∧ 21 ≤ exampleLines.length ∧ ∃ m, FreeMem.read exampleLines .kB = .ok m ∧
    m.userFree = 30500000 ∧ m.total = 16000000 := by
  refine ⟨by unfold Layout; decide +kernel, by decide, _, read_ok (by decide) (u := .kB) rfl, ?_, ?_⟩
  · norm_num [FreeMem.userFree, exampleLines, modern]
  · norm_num [FreeMem.total, exampleLines, modern]

example : Spec.memory exampleLines "MemTotal:" = some 16000000 ∧ Spec.memory exampleLines "MemFree:" = some 15000000 ∧
    Spec.memory exampleLines "MemAvailable:" = some 15400000 ∧ Spec.memory exampleLines "Buffers:" = some 100000 ∧
    Spec.memory exampleLines "Cached:" = some 400000 ∧ Spec.memory exampleLines "SwapTotal:" = some 2000000 ∧
    Spec.memory exampleLines "SwapFree:" = some 1900000 := by decide +kernel

-- C158: a million rows of a thousand numbers on that machine
example : ∃ r, matrixSplit exampleLines 1000000 1000 8 4 = .ok r :=
  (C158_succeeds_partial exampleLines (by decide) _ _ _ _ (by norm_num) (by norm_num) (by norm_num)).2 (by decide)

/-- Lines of an old kernel. -/
def ancientLines : MemInfo :=
  ancient.zip [160, 40, 10, 30, 0, 1, 2, 3, 4, 5, 6, 7, 8, 200, 190, 3] ++ (List.range 17).map (fun i => (toString i, i))

-- C159: lines of an old kernel
example : Layout ancient ancientLines ∧ 21 ≤ ancientLines.length ∧ Spec.memory ancientLines "MemTotal:" = some 160 ∧
    Spec.memory ancientLines "MemFree:" = some 40 ∧ Spec.memory ancientLines "Buffers:" = some 10 ∧
    Spec.memory ancientLines "Cached:" = some 30 ∧ Spec.memory ancientLines "SwapTotal:" = some 200 ∧
    Spec.memory ancientLines "SwapFree:" = some 190 ∧ Spec.memory ancientLines "Dirty:" = some 3 := by
  unfold Layout; decide +kernel

end HubToolbox.InOut
