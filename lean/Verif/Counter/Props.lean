import Verif.Counter.Model
import Mathlib.Algebra.BigOperators.Group.Finset.Basic
import Mathlib.Algebra.BigOperators.Fin
import Mathlib.Algebra.Order.BigOperators.Group.List
import Mathlib.Algebra.Order.BigOperators.Group.Finset
import Mathlib.Algebra.Order.Group.Int
import Mathlib.Data.Fintype.BigOperators
import Mathlib.Tactic.Ring
import Mathlib.Tactic.Linarith

/-!
# Properties of the synchronised counter
-/

set_option autoImplicit false

namespace HubToolbox.Counter

namespace Spec

/-- A finished call: process, call, result. -/
abbrev Call (P : ℕ) : Type := Fin P × Op × ℤ

/-- Sum of the numbers added by calls. -/
def total {P : ℕ} (log : List (Call P)) : ℤ := (log.map fun e => e.2.1.amount).sum

/-- Made one after the other in this order, the calls return what they did: start value plus everything added so far. -/
def Sequential {P : ℕ} (init : ℤ) (log : List (Call P)) : Prop :=
  ∀ pre e, pre ++ [e] <+: log → e.2.2 = wrap (init + total (pre ++ [e]))

/-- The calls of one process. -/
def ofProc {P : ℕ} (log : List (Call P)) (i : Fin P) : List (Call P) := log.filter fun e => e.1 = i

end Spec

/-- State inside a call: position, depth of the lock, shared and local value; `base` is the value at the begin. -/
def Inside (op : Op) (pc d : ℕ) (val reg base : ℤ) : Prop :=
  match op with
  | .inc n =>
      (pc = 1 ∧ d = 0 ∧ val = base) ∨ (pc = 2 ∧ d = 1 ∧ val = base) ∨ (pc = 3 ∧ d = 1 ∧ val = base ∧ reg = base)
      ∨ (pc = 4 ∧ d = 0 ∧ val = base ∧ reg = base) ∨ (pc = 5 ∧ d = 1 ∧ val = base ∧ reg = base)
      ∨ (pc = 6 ∧ d = 1 ∧ val = wrap (base + n)) ∨ (pc = 7 ∧ d = 0 ∧ val = wrap (base + n))
      ∨ (pc = 8 ∧ d = 1 ∧ val = wrap (base + n)) ∨ (pc = 9 ∧ d = 1 ∧ val = wrap (base + n) ∧ reg = wrap (base + n))
      ∨ (pc = 10 ∧ d = 0 ∧ val = wrap (base + n) ∧ reg = wrap (base + n))
  | .get => (pc = 1 ∧ d = 0 ∧ val = base) ∨ (pc = 2 ∧ d = 0 ∧ val = base ∧ reg = base)

/-- Who is where. -/
def Ctl {P : ℕ} (s : State P) (base : ℤ) : Prop :=
  (s.lock = none ∧ s.val = base ∧ ∀ i, (s.procs i).pc = 0) ∨
  (∃ i d op rest, s.lock = some (i, d) ∧ (∀ j, j ≠ i → (s.procs j).pc = 0) ∧ (s.procs i).todo = op :: rest ∧
    Inside op (s.procs i).pc d s.val (s.procs i).reg base)

/-- The invariant of all interleavings. -/
structure Inv {P : ℕ} (init : ℤ) (calls : Fin P → List Op) (s : State P) (log : List (Spec.Call P)) : Prop where
  outs : ∀ i, (Spec.ofProc log i).map (·.2.2) = (s.procs i).out
  todos : ∀ i, (Spec.ofProc log i).map (·.2.1) ++ (s.procs i).todo = calls i
  seq : Spec.Sequential init log
  ctl : Ctl s (wrap (init + Spec.total log))

theorem wrap_wrap_add (x y : ℤ) : wrap (wrap x + y) = wrap (x + y) := Int.bmod_add_bmod

theorem wrap_wrap (x : ℤ) : wrap (wrap x) = wrap x := Int.bmod_bmod

theorem inv_start {P : ℕ} (init : ℤ) (calls : Fin P → List Op) : Inv init calls (start init calls) [] where
  outs i := rfl
  todos i := rfl
  seq pre e h := by simp at h
  ctl := Or.inl ⟨rfl, by simp [start, Spec.total], fun _ => rfl⟩

theorem inv_inside {P : ℕ} {init : ℤ} {calls : Fin P → List Op} {s : State P} {log : List (Spec.Call P)}
    (h : Inv init calls s log) (i : Fin P) (hj : ∀ j, j ≠ i → (s.procs j).pc = 0) (op : Op) (rest : List Op)
    (ht : (s.procs i).todo = op :: rest) (val : ℤ) (d pc : ℕ) (reg : ℤ)
    (hin : Inside op pc d val reg (wrap (init + Spec.total log))) :
    Inv init calls ⟨val, some (i, d), Function.update s.procs i ⟨op :: rest, pc, reg, (s.procs i).out⟩⟩ log where
  outs k := by
    rw [h.outs]
    by_cases hk : k = i
    · subst hk; simp
    · simp [hk]
  todos k := by
    rw [← h.todos k]
    by_cases hk : k = i
    · subst hk; simp [ht]
    · simp [hk]
  seq := h.seq
  ctl := by
    refine Or.inr ⟨i, d, op, rest, rfl, ?_, by simp, by simpa using hin⟩
    intro j hji
    simpa [hji] using hj j hji

theorem total_snoc {P : ℕ} (log : List (Spec.Call P)) (e : Spec.Call P) :
    Spec.total (log ++ [e]) = Spec.total log + e.2.1.amount := by simp [Spec.total]

theorem inv_done {P : ℕ} {init : ℤ} {calls : Fin P → List Op} {s : State P} {log : List (Spec.Call P)}
    (h : Inv init calls s log) (i : Fin P) (hj : ∀ j, j ≠ i → (s.procs j).pc = 0) (op : Op) (rest : List Op)
    (ht : (s.procs i).todo = op :: rest) (reg : ℤ) (hr : reg = wrap (wrap (init + Spec.total log) + op.amount)) :
    Inv init calls ⟨reg, none, Function.update s.procs i ⟨rest, 0, reg, (s.procs i).out ++ [reg]⟩⟩ (log ++ [(i, op, reg)]) where
  outs k := by
    by_cases hk : k = i
    · subst hk
      have := h.outs k
      simp [Spec.ofProc] at this ⊢
      exact this
    · have := h.outs k
      simpa [Spec.ofProc, hk, Ne.symm hk] using this
  todos k := by
    rw [← h.todos k]
    by_cases hk : k = i
    · subst hk; simp [Spec.ofProc, ht]
    · simp [Spec.ofProc, hk, Ne.symm hk]
  seq pre e hpre := by
    rw [List.prefix_concat_iff] at hpre
    rcases hpre with hpre | hpre
    · have := List.append_inj' hpre rfl
      have he : e = (i, op, reg) := by simpa using this.2
      rw [this.1, he, total_snoc, hr, wrap_wrap_add, add_assoc]
    · exact h.seq pre e hpre
  ctl := by
    refine Or.inl ⟨rfl, ?_, ?_⟩
    · rw [total_snoc, hr, wrap_wrap_add, add_assoc]
    · intro j
      by_cases hji : j = i
      · subst hji; simp
      · simpa [hji] using hj j hji

/-- Every step keeps the invariant. -/
theorem inv_step {P : ℕ} {init : ℤ} {calls : Fin P → List Op} {s s' : State P} {log : List (Spec.Call P)}
    (h : Inv init calls s log) (i : Fin P) (hs : step true s i = some s') : ∃ log', Inv init calls s' log' := by
  rcases h.ctl with ⟨hl, hv, hp⟩ | ⟨k, d, op, rest, hl, hj, ht, hin⟩
  · cases ht : (s.procs i).todo with
    | nil => simp [step, ht] at hs
    | cons op rest =>
      refine ⟨log, ?_⟩
      have hin : Inside op 1 0 s.val (s.procs i).reg (wrap (init + Spec.total log)) := by
        cases op with
        | inc n => exact Or.inl ⟨rfl, rfl, hv⟩
        | get => exact Or.inl ⟨rfl, rfl, hv⟩
      have := inv_inside h i (fun j _ => hp j) op rest ht s.val 0 1 (s.procs i).reg hin
      cases op <;>
      · simp [step, ht, hp i, hl, code, readCode, writeCode, exec] at hs
        rw [← hs]
        exact this
  · by_cases hik : i = k
    · subst hik
      cases op with
      | inc n =>
        rcases hin with ⟨a, b, c⟩ | ⟨a, b, c⟩ | ⟨a, b, c, e⟩ | ⟨a, b, c, e⟩ | ⟨a, b, c, e⟩ | ⟨a, b, c⟩ | ⟨a, b, c⟩ | ⟨a, b, c⟩
          | ⟨a, b, c, e⟩ | ⟨a, b, c, e⟩ <;>
        simp [step, ht, a, b, hl, code, readCode, writeCode, exec] at hs <;> rw [← hs]
        · exact ⟨log, inv_inside h i hj _ rest ht _ _ _ _ (by simp [Inside, c])⟩
        · exact ⟨log, inv_inside h i hj _ rest ht _ _ _ _ (by simp [Inside, c])⟩
        · exact ⟨log, inv_inside h i hj _ rest ht _ _ _ _ (by simp [Inside, c, e])⟩
        · exact ⟨log, inv_inside h i hj _ rest ht _ _ _ _ (by simp [Inside, c, e])⟩
        · exact ⟨log, inv_inside h i hj _ rest ht _ _ _ _ (by simp [Inside, e, Op.amount])⟩
        · exact ⟨log, inv_inside h i hj _ rest ht _ _ _ _ (by simp [Inside, c])⟩
        · exact ⟨log, inv_inside h i hj _ rest ht _ _ _ _ (by simp [Inside, c])⟩
        · exact ⟨log, inv_inside h i hj _ rest ht _ _ _ _ (by simp [Inside, c])⟩
        · exact ⟨log, inv_inside h i hj _ rest ht _ _ _ _ (by simp [Inside, c, e])⟩
        · have := inv_done h i hj _ rest ht (s.procs i).reg e
          rw [c, ← e]
          exact ⟨_, this⟩
      | get =>
        rcases hin with ⟨a, b, c⟩ | ⟨a, b, c, e⟩ <;>
        simp [step, ht, a, b, hl, code, readCode, exec] at hs <;> rw [← hs]
        · exact ⟨log, inv_inside h i hj _ rest ht _ _ _ _ (by simp [Inside, c])⟩
        · have := inv_done h i hj _ rest ht (s.procs i).reg (by rw [e, Op.amount, add_zero, wrap_wrap])
          rw [c, ← e]
          exact ⟨_, this⟩
    · have hp := hj i hik
      cases ht' : (s.procs i).todo with
      | nil => simp [step, ht'] at hs
      | cons op' rest' =>
        cases op' <;> simp [step, ht', hp, hl, code, readCode, exec, Ne.symm hik] at hs

theorem inv_run {P : ℕ} {init : ℤ} {calls : Fin P → List Op} (sched : List (Fin P)) :
    ∀ {s : State P} {log}, Inv init calls s log → ∃ log', Inv init calls (run true s sched) log' := by
  induction sched with
  | nil => intro s log h; exact ⟨log, h⟩
  | cons i sched ih =>
    intro s log h
    cases hs : step true s i with
    | none =>
      have : run true s (i :: sched) = run true s sched := by simp [run, hs]
      rw [this]
      exact ih h
    | some s' =>
      obtain ⟨log', h'⟩ := inv_step h i hs
      have : run true s (i :: sched) = run true s' sched := by simp [run, hs]
      rw [this]
      exact ih h'

/-- Calls of a process which have returned, in any state. -/
theorem inv_reached {P : ℕ} (init : ℤ) (calls : Fin P → List Op) (sched : List (Fin P)) :
    ∃ log, Inv init calls (run true (start init calls) sched) log := inv_run sched (inv_start init calls)

/-- C48: in every interleaving of any number of processes the finished calls can be put in one order, in which the calls of
every process keep their order, such that every call returned the start value plus everything added by itself and the calls
before it (in the range of a C `int`). -/
theorem C48_linearizable {P : ℕ} (init : ℤ) (calls : Fin P → List Op) (sched : List (Fin P)) :
    ∃ log : List (Spec.Call P), Spec.Sequential init log ∧
      (∀ i, (Spec.ofProc log i).map (·.2.2) = ((run true (start init calls) sched).procs i).out) ∧
      (∀ i, (Spec.ofProc log i).map (·.2.1) ++ ((run true (start init calls) sched).procs i).todo = calls i) := by
  obtain ⟨log, h⟩ := inv_reached init calls sched
  exact ⟨log, h.seq, h.outs, h.todos⟩

theorem sum_ofProc {P : ℕ} {α : Type} (log : List (Spec.Call P)) (f : Spec.Call P → α) :
    ∑ i, (((Spec.ofProc log i).map f : List α) : Multiset α) = ((log.map f : List α) : Multiset α) := by
  induction log with
  | nil => simp [Spec.ofProc]
  | cons e log ih =>
    have : ∀ i, (((Spec.ofProc (e :: log) i).map f : List α) : Multiset α)
        = (if e.1 = i then {f e} else 0) + (((Spec.ofProc log i).map f : List α) : Multiset α) := by
      intro i
      unfold Spec.ofProc
      by_cases h : e.1 = i
      · simp [h]
      · simp [h]
    rw [Finset.sum_congr rfl (fun i _ => this i), Finset.sum_add_distrib, ih, Finset.sum_ite_eq]
    simp

theorem sequential_ones {P : ℕ} (init : ℤ) (log : List (Spec.Call P)) (h : Spec.Sequential init log)
    (h1 : ∀ e ∈ log, e.2.1 = .inc 1) : log.map (·.2.2) = (List.range log.length).map fun k => wrap (init + 1 + (k : ℕ)) := by
  induction log using List.reverseRecOn with
  | nil => rfl
  | append_singleton log e ih =>
    have htot : ∀ l : List (Spec.Call P), (∀ e ∈ l, e.2.1 = .inc 1) → Spec.total l = l.length := by
      intro l hl
      induction l with
      | nil => rfl
      | cons a l ih =>
        have := ih fun e he => hl e (List.mem_cons_of_mem _ he)
        unfold Spec.total at this ⊢
        rw [List.map_cons, List.sum_cons, this, hl a List.mem_cons_self]
        simp only [Op.amount, List.length_cons]
        push_cast
        ring
    have hl := ih (fun pre e' hpre => h pre e' (hpre.trans (List.prefix_append _ _)))
      (fun e' he' => h1 e' (List.mem_append_left _ he'))
    rw [List.map_append, hl, List.length_append, List.length_singleton, List.range_succ, List.map_append]
    have := h log e List.prefix_rfl
    rw [htot _ h1] at this
    simp only [List.map_cons, List.map_nil, this, List.length_append, List.length_singleton]
    push_cast
    rw [add_right_comm, add_assoc]

/-- C48: in every interleaving in which all processes finish their calls of `increment_and_get_value()`, the results are the
consecutive values after the start value, each exactly once (in the range of a C `int`). -/
theorem C48_each_once {P : ℕ} (init : ℤ) (calls : Fin P → List Op) (h1 : ∀ i, ∀ op ∈ calls i, op = .inc 1)
    (sched : List (Fin P)) (hfin : ∀ i, ((run true (start init calls) sched).procs i).todo = []) :
    ∑ i, (((run true (start init calls) sched).procs i).out : Multiset ℤ)
      = (Multiset.range (∑ i, (calls i).length)).map fun k => wrap (init + 1 + (k : ℕ)) := by
  obtain ⟨log, hseq, hout, htodo⟩ := C48_linearizable init calls sched
  simp only [hfin, List.append_nil] at htodo
  have hlen : ∑ i, (calls i).length = log.length := by
    have := congrArg Multiset.card (sum_ofProc log fun e => e.2.1)
    rw [Multiset.card_sum] at this
    simp only [htodo, Multiset.coe_card, List.length_map] at this
    exact this
  have hall : ∀ e ∈ log, e.2.1 = .inc 1 := by
    intro e he
    refine h1 e.1 _ ?_
    rw [← htodo e.1]
    exact List.mem_map_of_mem (by simp [Spec.ofProc, he])
  rw [Finset.sum_congr rfl (fun i _ => congrArg (fun l : List ℤ => (l : Multiset ℤ)) (hout i).symm), sum_ofProc,
    sequential_ones init log hseq hall, hlen]
  rfl

/-- C48: a default counter hands out `0, …, N - 1` to up to `2^31` calls. -/
theorem C48_default {P : ℕ} (calls : Fin P → List Op) (h1 : ∀ i, ∀ op ∈ calls i, op = .inc 1)
    (hN : ∑ i, (calls i).length ≤ 2 ^ 31) (sched : List (Fin P))
    (hfin : ∀ i, ((run true (start (-1) calls) sched).procs i).todo = []) :
    ∑ i, (((run true (start (-1) calls) sched).procs i).out : Multiset ℤ)
      = (Multiset.range (∑ i, (calls i).length)).map fun k => ((k : ℕ) : ℤ) := by
  rw [C48_each_once (-1) calls h1 sched hfin]
  refine Multiset.map_congr rfl fun k hk => ?_
  have : (k : ℤ) < 2 ^ 31 := by
    have := (Multiset.mem_range.mp hk).trans_le hN
    exact_mod_cast this
  unfold wrap
  rw [Int.bmod_eq_of_le_mul_two] <;> push_cast <;> omega

/-- Number of steps left. -/
def left {P : ℕ} (s : State P) : ℤ :=
  ∑ i, ((((s.procs i).todo.map fun op => ((code true op).length : ℤ)).sum) - ((s.procs i).pc : ℤ))

theorem left_step {P : ℕ} {s s' : State P} {i : Fin P} (hs : step true s i = some s') : left s' = left s - 1 := by
  unfold step at hs
  split at hs
  · cases hs
  · next op rest ht =>
    split at hs
    · cases hs
    · split at hs
      · cases hs
      · cases hs
        unfold left
        rw [← Finset.add_sum_erase _ _ (Finset.mem_univ i), ← Finset.add_sum_erase (a := i) _ _ (Finset.mem_univ i)]
        have hrest : ∀ (p : Proc), ∑ k ∈ Finset.univ.erase i, ((((Function.update s.procs i p k).todo.map
            fun op => ((code true op).length : ℤ)).sum) - ((Function.update s.procs i p k).pc : ℤ))
            = ∑ k ∈ Finset.univ.erase i, ((((s.procs k).todo.map fun op => ((code true op).length : ℤ)).sum)
              - ((s.procs k).pc : ℤ)) := by
          intro p
          refine Finset.sum_congr rfl fun k hk => ?_
          rw [Function.update_of_ne (Finset.ne_of_mem_erase hk)]
        simp only [hrest, Function.update_self, ht]
        split_ifs with hlen
        · simp only [List.map_cons, List.sum_cons]
          rw [← hlen]
          push_cast
          ring
        · simp only [List.map_cons, List.sum_cons]
          push_cast
          ring

/-- C48: no deadlock: as long as some process has calls to make, some process can go on. -/
theorem C48_no_deadlock {P : ℕ} (init : ℤ) (calls : Fin P → List Op) (sched : List (Fin P))
    (h : ∃ i, ((run true (start init calls) sched).procs i).todo ≠ []) :
    ∃ i s', step true (run true (start init calls) sched) i = some s' := by
  obtain ⟨log, hI⟩ := inv_reached init calls sched
  generalize run true (start init calls) sched = s at h hI ⊢
  rcases hI.ctl with ⟨hl, hv, hp⟩ | ⟨k, d, op, rest, hl, hj, ht, hin⟩
  · obtain ⟨i, hi⟩ := h
    obtain ⟨op, rest, ht⟩ := List.exists_cons_of_ne_nil hi
    refine ⟨i, ?_⟩
    cases op <;> simp [step, ht, hp i, hl, code, readCode, exec]
  · refine ⟨k, ?_⟩
    cases op with
    | inc n =>
      rcases hin with ⟨a, b, c⟩ | ⟨a, b, c⟩ | ⟨a, b, c, e⟩ | ⟨a, b, c, e⟩ | ⟨a, b, c, e⟩ | ⟨a, b, c⟩ | ⟨a, b, c⟩ | ⟨a, b, c⟩
        | ⟨a, b, c, e⟩ | ⟨a, b, c, e⟩ <;> simp [step, ht, a, b, hl, code, readCode, writeCode, exec]
    | get => rcases hin with ⟨a, b, c⟩ | ⟨a, b, c, e⟩ <;> simp [step, ht, a, b, hl, code, readCode, exec]

/-- C48: however the processes were interleaved so far, they can be run such that all calls return. -/
theorem C48_can_finish {P : ℕ} (init : ℤ) (calls : Fin P → List Op) (sched : List (Fin P)) :
    ∃ more, ∀ i, ((run true (start init calls) (sched ++ more)).procs i).todo = [] := by
  obtain ⟨m, hm⟩ : ∃ m : ℕ, left (run true (start init calls) sched) < m := ⟨(left (run true (start init calls) sched)).toNat + 1,
    by omega⟩
  induction m generalizing sched with
  | zero =>
    exfalso
    obtain ⟨log, hI⟩ := inv_reached init calls sched
    generalize run true (start init calls) sched = s at hI hm
    refine absurd hm (not_lt.mpr (Finset.sum_nonneg fun i _ => ?_))
    have hnn : ∀ l : List Op, 0 ≤ (l.map fun op => ((code true op).length : ℤ)).sum := fun l =>
      List.sum_nonneg (by simp)
    rcases hI.ctl with ⟨hl, hv, hp⟩ | ⟨k, d, op, rest, hl, hj, ht, hin⟩
    · simpa [hp i] using hnn _
    · by_cases hik : i = k
      · subst hik
        have hle : (s.procs i).pc ≤ (code true op).length := by
          cases op with
          | inc n =>
            have : (code true (.inc n)).length = 11 := rfl
            rcases hin with ⟨a, _⟩ | ⟨a, _⟩ | ⟨a, _⟩ | ⟨a, _⟩ | ⟨a, _⟩ | ⟨a, _⟩ | ⟨a, _⟩ | ⟨a, _⟩ | ⟨a, _⟩ | ⟨a, _⟩ <;>
              omega
          | get =>
            have : (code true .get).length = 3 := rfl
            rcases hin with ⟨a, _⟩ | ⟨a, _⟩ <;> omega
        rw [ht, List.map_cons, List.sum_cons]
        have := hnn rest
        omega
      · simpa [hj i hik] using hnn _
  | succ m ih =>
    by_cases h : ∃ i, ((run true (start init calls) sched).procs i).todo ≠ []
    · obtain ⟨i, s', hs⟩ := C48_no_deadlock init calls sched h
      have hr : run true (start init calls) (sched ++ [i]) = s' := by
        have hr' : ∀ a : State P, run true a (sched ++ [i]) = (step true (run true a sched) i).getD (run true a sched) := by
          intro a
          simp [run]
        rw [hr', hs]
        rfl
      obtain ⟨more, hmore⟩ := ih (sched ++ [i]) (by
        rw [hr, left_step hs]
        push_cast at hm
        linarith)
      refine ⟨i :: more, ?_⟩
      simpa using hmore
    · push Not at h
      exact ⟨[], by simpa using h⟩

/-- C48: without the lock two processes can get the same value. -/
theorem C48_lock_needed : ∃ sched : List (Fin 2),
    ∀ i, ((run false (start (-1) fun _ => [.inc 1]) sched).procs i).out = [0] ∧
      ((run false (start (-1) fun _ : Fin 2 => [.inc 1]) sched).procs i).todo = [] :=
  ⟨[0, 0, 0, 1, 1, 1, 0, 0, 0, 1, 1, 1, 0, 0, 0, 1, 1, 1], by decide⟩

/-- With the lock the same interleaving (continued until all calls return) yields different values. -/
example : ((run true (start (-1) fun _ : Fin 2 => [.inc 1])
    ([0, 0, 0, 1, 1, 1, 0, 0, 0, 1, 1, 1, 0, 0, 0, 1, 1, 1] ++ List.replicate 11 0 ++ List.replicate 11 1)).procs 0).out = [0] ∧
    ((run true (start (-1) fun _ : Fin 2 => [.inc 1])
    ([0, 0, 0, 1, 1, 1, 0, 0, 0, 1, 1, 1, 0, 0, 0, 1, 1, 1] ++ List.replicate 11 0 ++ List.replicate 11 1)).procs 1).out
      = [1] := by decide

end HubToolbox.Counter
