import Mathlib.Data.Int.Notation
import Mathlib.Data.List.Basic
import Mathlib.Logic.Function.Basic

/-!
# Model of `hub_toolbox/utils.py`

`SynchronizedCounter` used by a fixed number of processes. An execution is any interleaving of the atomic steps of the
processes. Steps are those of `multiprocessing`: reading and writing `Value.value` takes the lock of the value (which may be
taken again by its owner), accesses the C `int`, and releases the lock.
Not modelled: processes being killed while they hold the lock.
-/

set_option autoImplicit false

namespace HubToolbox.Counter

/-- Atomic steps: take the lock, release it, copy the shared value to a local variable, store local variable plus increment. -/
inductive Instr
  | acq | rel | load | store
deriving DecidableEq

/-- Calls: `increment_and_get_value(n)` and the property `value` (`/repo/hub_toolbox/utils.py` lines 20 and 27). -/
inductive Op
  | inc (n : ℤ) | get
deriving DecidableEq

/-- Reading `Value.value` (`multiprocessing.sharedctypes`). -/
def readCode : List Instr := [.acq, .load, .rel]

/-- Assigning to `Value.value`. -/
def writeCode : List Instr := [.acq, .store, .rel]

/-- `/repo/hub_toolbox/utils.py` lines 22-24 (`with self.val.get_lock(): self.val.value += n; return self.val.value`) and
28. With `locked = false` the `with` statement is left out. -/
def code (locked : Bool) : Op → List Instr
  | .inc _ => (if locked then [.acq] else []) ++ readCode ++ writeCode ++ readCode ++ (if locked then [.rel] else [])
  | .get => readCode

/-- Value of a C `int` assigned a Python integer by `ctypes`. -/
def wrap (x : ℤ) : ℤ := Int.bmod x (2 ^ 32)

/-- A process: the calls still to be made, position in the current call, local variable, and results so far. -/
structure Proc where
  todo : List Op
  pc : ℕ
  reg : ℤ
  out : List ℤ

/-- All processes; the lock has an owner and the number of further times the owner has taken it. -/
structure State (P : ℕ) where
  val : ℤ
  lock : Option (Fin P × ℕ)
  procs : Fin P → Proc

/-- The added number. -/
def Op.amount : Op → ℤ
  | .inc n => n
  | .get => 0

/-- One atomic step of process `i`; `none`, if it has to wait. -/
def exec {P : ℕ} (i : Fin P) (op : Op) (ins : Instr) (val : ℤ) (lock : Option (Fin P × ℕ)) (reg : ℤ) :
    Option (ℤ × Option (Fin P × ℕ) × ℤ) :=
  match ins with
  | .acq => match lock with
    | none => some (val, some (i, 0), reg)
    | some (j, d) => if j = i then some (val, some (i, d + 1), reg) else none
  | .rel => match lock with
    | none => none
    | some (j, d) => if j = i then some (val, if d = 0 then none else some (i, d - 1), reg) else none
  | .load => some (val, lock, val)
  | .store => some (wrap (reg + op.amount), lock, reg)

/-- One step of process `i`; the last step of a call returns the local variable. -/
def step (locked : Bool) {P : ℕ} (s : State P) (i : Fin P) : Option (State P) :=
  match (s.procs i).todo with
  | [] => none
  | op :: rest =>
    match (code locked op)[(s.procs i).pc]? with
    | none => none
    | some ins =>
      match exec i op ins s.val s.lock (s.procs i).reg with
      | none => none
      | some (val, lock, reg) =>
        some ⟨val, lock, Function.update s.procs i
          (if (s.procs i).pc + 1 = (code locked op).length then ⟨rest, 0, reg, (s.procs i).out ++ [reg]⟩
            else ⟨op :: rest, (s.procs i).pc + 1, reg, (s.procs i).out⟩)⟩

/-- A new counter (`/repo/hub_toolbox/utils.py` lines 17-18) and the calls each process is going to make. -/
def start {P : ℕ} (init : ℤ) (calls : Fin P → List Op) : State P :=
  ⟨wrap init, none, fun i => ⟨calls i, 0, 0, []⟩⟩

/-- An interleaving: the process to run at each point in time; nothing happens if it has to wait or is done. -/
def run (locked : Bool) {P : ℕ} (s : State P) (sched : List (Fin P)) : State P :=
  sched.foldl (fun s i => (step locked s i).getD s) s

end HubToolbox.Counter
