import Verif.Log.Model
import Mathlib.Data.List.Lex
import Mathlib.Tactic.IntervalCases

/-!
# Properties of the logs (C302, C303)
-/

set_option autoImplicit false

namespace HubToolbox.Spec

open HubToolbox

/-- A time as printed by `strftime`: years of four digits, two digits for everything else (leap seconds are possible). -/
structure IsTime (t : Log.Time) : Prop where
  year : t.year < 10000
  month : t.month < 100
  day : t.day < 100
  hour : t.hour < 100
  minute : t.minute < 100
  second : t.second < 100

/-- A time is earlier than another one: years are compared first, seconds last. -/
def Earlier (a b : Log.Time) : Prop :=
  [a.year, a.month, a.day, a.hour, a.minute, a.second] < [b.year, b.month, b.day, b.hour, b.minute, b.second]

/-- All texts one after the other. -/
def together (calls : List Log.Call) : List Char := (calls.map Log.text).flatten

/-- The calls which write to standard output. -/
def toOut (calls : List Log.Call) : List Log.Call := calls.filter (fun c => c.level = .message)

/-- The calls which write to standard error. -/
def toErr (calls : List Log.Call) : List Log.Call := calls.filter (fun c => c.level ≠ .message)

/-- The lines of a text which ends with a newline. -/
def lines (l : List Char) : List (List Char) := (l.splitOn '\n').dropLast

/-- A line is that of an entry: a time, a space, and the kind of the entry. -/
def IsEntry (l : List Char) : Prop := ∃ t v, IsTime t ∧ Log.stamp t ++ ' ' :: Log.tag v <+: l

end HubToolbox.Spec

namespace HubToolbox.Log

/-! ### Streams -/

/-- Everything which was printed to a stream. -/
def Stream.all (s : Stream) : List Char := s.written ++ s.pending

theorem log_all (s : Stream) (c : Call) (k : ℕ) : (s.log c k).all = s.all ++ text c := by
  unfold Stream.log Stream.all Stream.write Stream.drain Stream.flush
  have h := List.take_append_drop k (s.pending ++ text c)
  cases c.flush
  · show s.written ++ List.take k _ ++ List.drop k _ = _
    rw [List.append_assoc, h, List.append_assoc]
  · show s.written ++ List.take k _ ++ List.drop k _ ++ [] = _
    rw [List.append_nil, List.append_assoc, h, List.append_assoc]

theorem log_flush (s : Stream) (c : Call) (k : ℕ) (h : c.flush = true) : (s.log c k).pending = [] := by
  unfold Stream.log
  simp [h, Stream.flush]

theorem run_all (calls : List Call) (auto : ℕ → ℕ) (i : ℕ) (s : Console) :
    ((calls.zipIdx i).foldl (fun s ci => log s ci.1 (auto ci.2)) s).out.all = s.out.all ++ Spec.together (Spec.toOut calls) ∧
    ((calls.zipIdx i).foldl (fun s ci => log s ci.1 (auto ci.2)) s).err.all = s.err.all ++ Spec.together (Spec.toErr calls) := by
  induction calls generalizing s i with
  | nil => simp [Spec.together, Spec.toOut, Spec.toErr]
  | cons c calls ih =>
    rw [List.zipIdx_cons, List.foldl_cons]
    obtain ⟨h1, h2⟩ := ih (i + 1) (log s c (auto i))
    rw [h1, h2]
    cases hl : c.level <;> simp [log, hl, log_all, Spec.together, Spec.toOut, Spec.toErr]

/-- **C302**: messages go to standard output, warnings and errors to standard error; nothing is lost, doubled or reordered, whatever the library writes on
its own, and what has been written is a prefix of what was logged. -/
theorem C302 (calls : List Call) (auto : ℕ → ℕ) :
    let s := run ⟨⟨[], []⟩, ⟨[], []⟩⟩ calls auto
    s.out.written ++ s.out.pending = Spec.together (Spec.toOut calls) ∧ s.err.written ++ s.err.pending = Spec.together (Spec.toErr calls) := by
  have := run_all calls auto 0 ⟨⟨[], []⟩, ⟨[], []⟩⟩
  exact ⟨this.1, this.2⟩

/-- **C302**, flushing: after a call with `flush=True` (the default) everything logged to that stream up to and including this call has been written. -/
theorem C302_flush (calls : List Call) (c : Call) (auto : ℕ → ℕ) (h : c.flush = true) :
    let s := run ⟨⟨[], []⟩, ⟨[], []⟩⟩ (calls ++ [c]) auto
    (c.level = .message → s.out.written = Spec.together (Spec.toOut (calls ++ [c]))) ∧
    (c.level ≠ .message → s.err.written = Spec.together (Spec.toErr (calls ++ [c]))) := by
  intro s
  obtain ⟨h1, h2⟩ := C302 (calls ++ [c]) auto
  have hs : s = log (run ⟨⟨[], []⟩, ⟨[], []⟩⟩ calls auto) c (auto calls.length) := by
    show run _ _ _ = _
    unfold run
    rw [List.zipIdx_append, List.foldl_append]
    simp
  constructor
  · intro hl
    have hp : s.out.pending = [] := by rw [hs]; simp [log, hl, log_flush _ _ _ h]
    rw [← h1]
    show s.out.written = s.out.written ++ s.out.pending
    rw [hp, List.append_nil]
  · intro hl
    have hp : s.err.pending = [] := by
      rw [hs]
      cases hl' : c.level with
      | message => exact absurd hl' hl
      | warning => simp [log, hl', log_flush _ _ _ h]
      | error => simp [log, hl', log_flush _ _ _ h]
    rw [← h2]
    show s.err.written = s.err.written ++ s.err.pending
    rw [hp, List.append_nil]

/-- **C302**, classes: the base class cannot be instantiated, `ConsoleLogging` prints nothing when created, `FileLogging` prints one warning (at once) to
standard error, and nothing to standard output. -/
theorem C302_classes (s : Console) (now : Time) (k : ℕ) :
    new .logging s now k = .error .typeError ∧ new .console s now k = .ok s ∧
    ∃ s' c, new .file s now k = .ok s' ∧ s'.out = s.out ∧ c.level = .warning ∧ c.now = now ∧ s'.err.written = s.err.written ++ s.err.pending ++ text c ∧
      s'.err.pending = [] := by
  refine ⟨rfl, rfl, _, ⟨.warning, now, ["FileLogging not yet implemented, will print to console anyway.".toList], true⟩, rfl, rfl, rfl, rfl, ?_, rfl⟩
  show s.err.written ++ List.take k (s.err.pending ++ _) ++ List.drop k (s.err.pending ++ _) = _
  rw [List.append_assoc, List.take_append_drop, ← List.append_assoc]

/-! ### Time stamps -/

theorem append_lt {x x' y y' : List Char} (h : x.length = x'.length) : x ++ y < x' ++ y' ↔ x < x' ∨ (x = x' ∧ y < y') := by
  induction x generalizing x' with
  | nil =>
    cases x' with
    | nil => simp
    | cons a l => simp at h
  | cons a l ih =>
    cases x' with
    | nil => simp at h
    | cons b l' =>
      rw [List.cons_append, List.cons_append, List.cons_lt_cons_iff, List.cons_lt_cons_iff, ih (by simpa using h)]
      constructor
      · rintro (g | ⟨rfl, g | ⟨rfl, g⟩⟩)
        · exact Or.inl (Or.inl g)
        · exact Or.inl (Or.inr ⟨rfl, g⟩)
        · exact Or.inr ⟨rfl, g⟩
      · rintro ((g | ⟨rfl, g⟩) | ⟨g, g'⟩)
        · exact Or.inl g
        · exact Or.inr ⟨rfl, Or.inl g⟩
        · injection g with h1 h2
          exact Or.inr ⟨h1, Or.inr ⟨h2, g'⟩⟩

theorem digits_length (w n : ℕ) : (digits w n).length = w := by
  induction w generalizing n with
  | zero => rfl
  | succ w ih => simp [digits, ih]

theorem digit_lt {a b : ℕ} (ha : a < 10) (hb : b < 10) : Char.ofNat (48 + a) < Char.ofNat (48 + b) ↔ a < b := by
  interval_cases a <;> interval_cases b <;> decide

theorem digit_inj {a b : ℕ} (ha : a < 10) (hb : b < 10) (h : Char.ofNat (48 + a) = Char.ofNat (48 + b)) : a = b := by
  rcases lt_trichotomy a b with l | l | l
  · have := (digit_lt ha hb).2 l
    rw [h] at this
    exact absurd this (Char.lt_irrefl _)
  · exact l
  · have := (digit_lt hb ha).2 l
    rw [h] at this
    exact absurd this (Char.lt_irrefl _)

theorem digits_inj {w a b : ℕ} (ha : a < 10 ^ w) (hb : b < 10 ^ w) (h : digits w a = digits w b) : a = b := by
  induction w generalizing a b with
  | zero => omega
  | succ w ih =>
    obtain ⟨h1, h2⟩ := List.append_inj h (by rw [digits_length, digits_length])
    rw [pow_succ] at ha hb
    have e1 := ih (by omega) (by omega) h1
    have e2 := digit_inj (Nat.mod_lt a (by norm_num)) (Nat.mod_lt b (by norm_num)) (List.singleton_inj.1 h2)
    omega

theorem digits_lt {w a b : ℕ} (ha : a < 10 ^ w) (hb : b < 10 ^ w) : digits w a < digits w b ↔ a < b := by
  induction w generalizing a b with
  | zero =>
    have : a = b := by omega
    simp [digits, this]
  | succ w ih =>
    rw [pow_succ] at ha hb
    show digits w (a / 10) ++ _ < digits w (b / 10) ++ _ ↔ _
    rw [append_lt (by rw [digits_length, digits_length]), ih (by omega) (by omega), List.cons_lt_cons_iff,
      digit_lt (Nat.mod_lt a (by norm_num)) (Nat.mod_lt b (by norm_num))]
    constructor
    · rintro (h | ⟨h, h' | ⟨-, h'⟩⟩)
      · omega
      · have := digits_inj (by omega) (by omega) h
        omega
      · exact absurd h' (List.lt_irrefl _)
    · intro h
      rcases (by omega : a / 10 < b / 10 ∨ a / 10 = b / 10) with h' | h'
      · exact Or.inl h'
      · exact Or.inr ⟨by rw [h'], Or.inl (by omega)⟩

/-- A field of the time stamp, followed by the rest. -/
theorem field_lt {w a b : ℕ} {y y' : List Char} {l l' : List ℕ} (c : Char) (ha : a < 10 ^ w) (hb : b < 10 ^ w) (h : y < y' ↔ l < l') :
    digits w a ++ c :: y < digits w b ++ c :: y' ↔ a :: l < b :: l' := by
  rw [append_lt (by rw [digits_length, digits_length]), digits_lt ha hb, List.cons_lt_cons_iff, List.cons_lt_cons_iff, h]
  constructor
  · rintro (h | ⟨h, h' | ⟨-, h'⟩⟩)
    · exact Or.inl h
    · exact absurd h' (Char.lt_irrefl _)
    · exact Or.inr ⟨digits_inj ha hb h, h'⟩
  · rintro (h | ⟨rfl, h⟩)
    · exact Or.inl h
    · exact Or.inr ⟨rfl, Or.inr ⟨rfl, h⟩⟩

theorem stamp_lt {a b : Time} (ha : Spec.IsTime a) (hb : Spec.IsTime b) : stamp a < stamp b ↔ Spec.Earlier a b := by
  have hl : digits 2 a.second < digits 2 b.second ↔ [a.second] < [b.second] := by
    rw [digits_lt ha.second hb.second, List.cons_lt_cons_iff]
    simp
  have := field_lt (w := 4) '-' ha.year hb.year (field_lt (w := 2) '-' ha.month hb.month (field_lt (w := 2) ' ' ha.day hb.day
    (field_lt (w := 2) ':' ha.hour hb.hour (field_lt (w := 2) ':' ha.minute hb.minute hl))))
  simpa [stamp, Spec.Earlier, List.append_assoc] using this

theorem stamp_length (t : Time) : (stamp t).length = 19 := by
  simp [stamp, digits_length]

theorem text_stamp (c : Call) : ∃ rest, text c = stamp c.now ++ ' ' :: (tag c.level ++ rest) := by
  cases h : c.objs with
  | nil => exact ⟨['\n'], by simp [text, h, List.intercalate]⟩
  | cons a l => exact ⟨' ' :: (List.intercalate [' '] (a :: l) ++ ['\n']), by simp [text, h, List.intercalate]⟩

theorem stamp_inj {a b : Time} (ha : Spec.IsTime a) (hb : Spec.IsTime b) (h : stamp a = stamp b) : a = b := by
  simp only [stamp, List.append_assoc, List.cons_append] at h
  obtain ⟨h1, h⟩ := List.append_inj h (by rw [digits_length, digits_length])
  obtain ⟨h2, h⟩ := List.append_inj (List.cons.inj h).2 (by rw [digits_length, digits_length])
  obtain ⟨h3, h⟩ := List.append_inj (List.cons.inj h).2 (by rw [digits_length, digits_length])
  obtain ⟨h4, h⟩ := List.append_inj (List.cons.inj h).2 (by rw [digits_length, digits_length])
  obtain ⟨h5, h⟩ := List.append_inj (List.cons.inj h).2 (by rw [digits_length, digits_length])
  have h6 := (List.cons.inj h).2
  have e1 := digits_inj (w := 4) ha.year hb.year h1
  have e2 := digits_inj (w := 2) ha.month hb.month h2
  have e3 := digits_inj (w := 2) ha.day hb.day h3
  have e4 := digits_inj (w := 2) ha.hour hb.hour h4
  have e5 := digits_inj (w := 2) ha.minute hb.minute h5
  have e6 := digits_inj (w := 2) ha.second hb.second h6
  cases a
  cases b
  simp_all

/-- **C302**, order: log entries sorted as texts are sorted by time, and the time and the kind of an entry can be read off its first 21 characters. -/
theorem C302_sorted (c c' : Call) (h : Spec.IsTime c.now) (h' : Spec.IsTime c'.now) :
    (Spec.Earlier c.now c'.now → text c < text c') ∧ (text c < text c' → ¬ Spec.Earlier c'.now c.now) ∧
    ((text c).take 21 = (text c').take 21 → c.now = c'.now ∧ c.level = c'.level) := by
  obtain ⟨r, hr⟩ := text_stamp c
  obtain ⟨r', hr'⟩ := text_stamp c'
  have hlen : (stamp c.now).length = (stamp c'.now).length := by rw [stamp_length, stamp_length]
  have first : ∀ (c : Call) (r : List Char), text c = stamp c.now ++ ' ' :: (tag c.level ++ r) →
      ∃ a l, tag c.level = a :: l ∧ (text c).take 21 = stamp c.now ++ [' ', a] := by
    intro c r hr
    rw [hr, List.take_append, stamp_length, List.take_of_length_le (by rw [stamp_length]; norm_num)]
    cases c.level <;> exact ⟨_, _, rfl, rfl⟩
  refine ⟨fun he => ?_, fun ht he => ?_, fun ht => ?_⟩
  · rw [hr, hr', append_lt hlen]
    exact Or.inl ((stamp_lt h h').2 he)
  · have := (stamp_lt h' h).2 he
    have h2 : text c' < text c := by
      rw [hr, hr', append_lt hlen.symm]
      exact Or.inl this
    exact absurd (List.lt_trans ht h2) (List.lt_irrefl _)
  · obtain ⟨a, l, ha, e⟩ := first c r hr
    obtain ⟨a', l', ha', e'⟩ := first c' r' hr'
    rw [e, e'] at ht
    obtain ⟨t1, t2⟩ := List.append_inj ht hlen
    have t3 : a = a' := by simpa using t2
    refine ⟨stamp_inj h h' t1, ?_⟩
    revert ha ha'
    cases c.level <;> cases c'.level <;> intro ha ha' <;> first
      | rfl
      | (rw [t3] at ha
         have := (List.cons.inj ha).1.trans (List.cons.inj ha').1.symm
         exact absurd this (by decide))

/-! ### Lines -/

theorem lines_cons (a l : List Char) (h : '\n' ∉ a) : Spec.lines (a ++ '\n' :: l) = a :: Spec.lines l := by
  unfold Spec.lines List.splitOn
  rw [List.splitOnP_append_cons a l (by simp), List.splitOnP_eq_singleton (fun x hx => by
    simp only [beq_eq_false_iff_ne, ne_eq]
    rintro rfl
    exact h hx), List.singleton_append, List.dropLast_cons_of_ne_nil (List.splitOnP_ne_nil _ _)]

theorem digits_newline (w n : ℕ) : '\n' ∉ digits w n := by
  induction w generalizing n with
  | zero => simp [digits]
  | succ w ih =>
    simp only [digits, List.mem_append, List.mem_singleton, not_or]
    refine ⟨ih _, ?_⟩
    have := Nat.mod_lt n (show 10 > 0 by norm_num)
    generalize n % 10 = m at this
    interval_cases m <;> decide

theorem stamp_newline (t : Time) : '\n' ∉ stamp t := by
  simp [stamp, digits_newline]

theorem intercalate_newline (ls : List (List Char)) (h : ∀ l ∈ ls, '\n' ∉ l) : '\n' ∉ List.intercalate [' '] ls := by
  intro hc
  simp only [List.intercalate, List.mem_flatten] at hc
  obtain ⟨l, hl, hn⟩ := hc
  have : ∀ (ls : List (List Char)), l ∈ List.intersperse [' '] ls → l ∈ ls ∨ l = [' '] := by
    intro ls
    induction ls with
    | nil => intro h; exact Or.inl h
    | cons a ls ih =>
      cases ls with
      | nil => intro h; exact Or.inl h
      | cons b ls =>
        intro h
        rw [List.intersperse_cons₂, List.mem_cons, List.mem_cons] at h
        rcases h with h | h | h
        · exact Or.inl (by rw [h]; exact List.mem_cons_self)
        · exact Or.inr h
        · exact (ih h).imp (List.mem_cons_of_mem _) id
  rcases this ls hl with h' | h'
  · exact h l h' hn
  · rw [h'] at hn
    exact absurd hn (by decide)

/-- **C303, the part which holds.** If no argument contains a newline, a stream has one line per call, in the order of the calls: the time, the kind, and
the arguments separated by spaces. -/
theorem C303_partial (calls : List Call) (h : ∀ c ∈ calls, ∀ o ∈ c.objs, '\n' ∉ o) :
    Spec.lines (Spec.together calls) = calls.map (fun c => List.intercalate [' '] (stamp c.now :: tag c.level :: c.objs)) ∧
    ((∀ c ∈ calls, Spec.IsTime c.now) → ∀ l ∈ Spec.lines (Spec.together calls), Spec.IsEntry l) := by
  have h1 : Spec.lines (Spec.together calls) = calls.map (fun c => List.intercalate [' '] (stamp c.now :: tag c.level :: c.objs)) := by
    induction calls with
    | nil => rfl
    | cons c calls ih =>
      have hc : '\n' ∉ List.intercalate [' '] (stamp c.now :: tag c.level :: c.objs) := by
        refine intercalate_newline _ fun l hl => ?_
        rcases List.mem_cons.1 hl with rfl | hl
        · exact stamp_newline _
        · rcases List.mem_cons.1 hl with rfl | hl
          · cases c.level <;> decide
          · exact h c List.mem_cons_self l hl
      have e : Spec.together (c :: calls) = List.intercalate [' '] (stamp c.now :: tag c.level :: c.objs) ++ '\n' :: Spec.together calls := by
        simp [Spec.together, text]
      rw [e, lines_cons _ _ hc, ih fun c' hc' => h c' (List.mem_cons_of_mem _ hc'), List.map_cons]
  refine ⟨h1, fun ht l hl => ?_⟩
  rw [h1, List.mem_map] at hl
  obtain ⟨c, hc, rfl⟩ := hl
  refine ⟨c.now, c.level, ht c hc, ?_⟩
  cases c.objs with
  | nil => exact ⟨[], by simp [List.intercalate]⟩
  | cons a l => exact ⟨' ' :: List.intercalate [' '] (a :: l), by simp [List.intercalate]⟩

theorem digit_ne {w n : ℕ} {a : Char} {l r : List Char} (h : digits (w + 1) n ++ r = a :: l) : a ∈ "0123456789".toList := by
  have hm : a ∈ digits (w + 1) n := by
    have := congrArg List.head? h
    cases hd : digits (w + 1) n with
    | nil => have := digits_length (w + 1) n; rw [hd] at this; simp at this
    | cons b m =>
      rw [hd] at h
      rw [List.cons_append] at h
      rw [← (List.cons.inj h).1]
      exact List.mem_cons_self
  have : ∀ w n, ∀ a ∈ digits w n, a ∈ "0123456789".toList := by
    intro w
    induction w with
    | zero => intro n a h; simp [digits] at h
    | succ w ih =>
      intro n a h
      simp only [digits, List.mem_append, List.mem_singleton] at h
      rcases h with h | h
      · exact ih _ _ h
      · rw [h]
        have := Nat.mod_lt n (show 10 > 0 by norm_num)
        generalize n % 10 = m at this
        interval_cases m <;> decide
  exact this _ _ _ hm

/-- **C303 is violated**: an argument with a newline gives a line that does not start with a time, for example a line which looks like an error of its own;
the module itself logs such arguments. -/
theorem C303_violated : ∃ c : Call, Spec.IsTime c.now ∧ c.level = .message ∧ ∃ l ∈ Spec.lines (text c), ¬ Spec.IsEntry l := by
  refine ⟨⟨.message, ⟨2018, 1, 2, 3, 4, 5⟩, [['a', '\n', 'b']], true⟩, ⟨by decide, by decide, by decide, by decide, by decide, by decide⟩, rfl, ['b'], ?_, ?_⟩
  · have e : text ⟨.message, ⟨2018, 1, 2, 3, 4, 5⟩, [['a', '\n', 'b']], true⟩ = "2018-01-02 03:04:05 INFO: a".toList ++ '\n' :: (['b'] ++ '\n' :: []) := by
      decide
    rw [e, lines_cons _ _ (by decide), lines_cons _ _ (by decide)]
    simp
  · rintro ⟨t, v, -, ⟨r, hr⟩⟩
    have h := hr
    simp only [stamp, List.append_assoc] at h
    exact absurd (digit_ne h) (by decide)

/-! ### Instances -/

/-- Three calls; the second does not flush. -/
def calls3 : List Call :=
  [⟨.message, ⟨2018, 1, 2, 3, 4, 5⟩, ["start".toList], true⟩, ⟨.warning, ⟨2018, 1, 2, 3, 4, 5⟩, ["k =".toList, "5".toList], false⟩,
    ⟨.message, ⟨2018, 1, 2, 3, 4, 6⟩, [], true⟩]

example := C302 calls3 (fun i => i)

example : Spec.together (Spec.toOut calls3) = "2018-01-02 03:04:05 INFO: start\n2018-01-02 03:04:06 INFO:\n".toList := by decide

example := C302_flush (calls3.take 2) ⟨.message, ⟨2018, 1, 2, 3, 4, 6⟩, [], true⟩ (fun _ => 0) rfl

example := C302_classes ⟨⟨[], ['a']⟩, ⟨[], ['b']⟩⟩ ⟨2018, 1, 2, 3, 4, 5⟩ 3

theorem calls3_time : ∀ c ∈ calls3, Spec.IsTime c.now := by
  intro c hc
  simp only [calls3, List.mem_cons, List.not_mem_nil, or_false] at hc
  rcases hc with rfl | rfl | rfl <;> exact ⟨by decide, by decide, by decide, by decide, by decide, by decide⟩

example : Spec.Earlier ⟨2018, 1, 2, 3, 59, 59⟩ ⟨2018, 1, 2, 4, 0, 0⟩ := by unfold Spec.Earlier; decide

example := C302_sorted (calls3[0]) (calls3[2]) (calls3_time _ (by simp [calls3])) (calls3_time _ (by simp [calls3]))

example := (C303_partial calls3 (by decide)).2 calls3_time

end HubToolbox.Log
