import Verif.Base
import Mathlib.Data.List.Basic

/-!
# Model of `hub_toolbox/htlogging.py`

Text is a list of characters. A stream of the console consists of what has reached the terminal (or file) and what is still buffered by the process; how
much of the buffer the library writes on its own is arbitrary.
-/

set_option autoImplicit false

namespace HubToolbox.Log

/-- Local time as in `time.localtime()`. -/
structure Time where
  year : ℕ
  month : ℕ
  day : ℕ
  hour : ℕ
  minute : ℕ
  second : ℕ
  deriving DecidableEq

/-- The last `w` decimal digits of a number. -/
def digits : ℕ → ℕ → List Char
  | 0, _ => []
  | w + 1, n => digits w (n / 10) ++ [Char.ofNat (48 + n % 10)]

/-- `_current_time`: `time.strftime('%Y-%m-%d %H:%M:%S')` (`/repo/hub_toolbox/htlogging.py` lines 23-26) for years of four digits. -/
def stamp (t : Time) : List Char :=
  digits 4 t.year ++ '-' :: digits 2 t.month ++ '-' :: digits 2 t.day ++ ' ' :: digits 2 t.hour ++ ':' :: digits 2 t.minute ++ ':' :: digits 2 t.second

/-- The three methods of `ConsoleLogging`. -/
inductive Level
  | message | warning | error
  deriving DecidableEq

/-- `'INFO:'`, `'WARNING:'`, `'ERROR:'` (`/repo/hub_toolbox/htlogging.py` lines 43, 49, 55). -/
def tag : Level → List Char
  | .message => "INFO:".toList
  | .warning => "WARNING:".toList
  | .error => "ERROR:".toList

/-- A call of a method: the time, the arguments converted by `str` and `flush`. -/
structure Call where
  level : Level
  now : Time
  objs : List (List Char)
  flush : Bool

/-- What `print(self._current_time, tag, *objs)` writes (`/repo/hub_toolbox/htlogging.py` lines 43, 49, 55): arguments separated by spaces, then a
newline. -/
def text (c : Call) : List Char := List.intercalate [' '] (stamp c.now :: tag c.level :: c.objs) ++ ['\n']

/-- A stream: what has been written, what is buffered. -/
structure Stream where
  written : List Char
  pending : List Char

/-- `file.write`. -/
def Stream.write (s : Stream) (t : List Char) : Stream := { s with pending := s.pending ++ t }

/-- Some characters leave the buffer. -/
def Stream.drain (s : Stream) (k : ℕ) : Stream := ⟨s.written ++ s.pending.take k, s.pending.drop k⟩

/-- `file.flush()`. -/
def Stream.flush (s : Stream) : Stream := ⟨s.written ++ s.pending, []⟩

/-- `sys.stdout` and `sys.stderr`. -/
structure Console where
  out : Stream
  err : Stream

/-- Printing to a stream, of which the library writes `k` characters on its own, and flushing it if asked for. -/
def Stream.log (s : Stream) (c : Call) (k : ℕ) : Stream :=
  let s := (s.write (text c)).drain k
  if c.flush then s.flush else s

/-- `message`, `warning`, `error` of `ConsoleLogging` (`/repo/hub_toolbox/htlogging.py` lines 41-57). -/
def log (s : Console) (c : Call) (k : ℕ) : Console :=
  match c.level with
  | .message => { s with out := s.out.log c k }
  | .warning => { s with err := s.err.log c k }
  | .error => { s with err := s.err.log c k }

/-- A number of calls, `auto` says what the library writes on its own. -/
def run (s : Console) (calls : List Call) (auto : ℕ → ℕ) : Console :=
  (calls.zipIdx).foldl (fun s ci => log s ci.1 (auto ci.2)) s

/-- The classes of the module. -/
inductive Class
  | logging | console | file
  deriving DecidableEq

/-- Instantiation (`/repo/hub_toolbox/htlogging.py` lines 18-36, 59-65): the base class is abstract, `FileLogging` warns. -/
def new (cls : Class) (s : Console) (now : Time) (k : ℕ) : Py Console :=
  match cls with
  | .logging => throw .typeError
  | .console => pure s
  | .file => pure (log s ⟨.warning, now, ["FileLogging not yet implemented, will print to console anyway.".toList], true⟩ k)

end HubToolbox.Log
