import Verif.InOut.Model

/-!
# Model of the text files read by `hub_toolbox/io.py`

Text is a list of characters. Simplifications: files contain ASCII characters only and lines end with `'\n'`; python's limit of 4300
digits for integers is not modelled.
-/

set_option autoImplicit false

namespace HubToolbox.InOut

/-- White space of `str.split` and `str.strip`. -/
def isSpace (c : Char) : Bool :=
  c == ' ' || c == '\t' || c == '\n' || c == '\r' || c == '\x0b' || c == '\x0c' || (28 ≤ c.toNat && c.toNat ≤ 31)

/-- `str.split()`: the words between white space. -/
def split (s : List Char) : List (List Char) := (s.splitOnP isSpace).filter (fun w => !w.isEmpty)

/-- `str.strip()`. -/
def strip (s : List Char) : List Char := ((s.dropWhile isSpace).reverse.dropWhile isSpace).reverse

/-- The digits of `int(str)`: single underscores are allowed between digits. -/
def pyNat (s : List Char) : Py ℕ :=
  if (s.splitOnP (· == '_')).all (fun g => !g.isEmpty && g.all Char.isDigit) then
    .ok ((s.filter (· != '_')).foldl (fun a c => 10 * a + (c.toNat - '0'.toNat)) 0)
  else .error .valueError

/-- `int(str)`. -/
def pyInt (s : List Char) : Py ℤ :=
  match strip s with
  | '-' :: r => (pyNat r).map (fun n => -(n : ℤ))
  | '+' :: r => (pyNat r).map (fun n => (n : ℤ))
  | r => (pyNat r).map (fun n => (n : ℤ))

/-- `readlines()` of a text file. -/
def readlines : List Char → List (List Char)
  | [] => []
  | c :: cs =>
    if c = '\n' then ['\n'] :: readlines cs
    else match readlines cs with
      | [] => [[c]]
      | l :: ls => (c :: l) :: ls

/-- `col, val = word.split(':')` and `vectors[row][int(col)-1] = int(val)` (`/repo/hub_toolbox/io.py` lines 55-56). The value is converted
first, then the row is selected, then the column is converted. -/
def readWord {n dim : ℕ} (row : ℕ) (V : Fin n → Fin dim → ℤ) (word : List Char) : Py (Fin n → Fin dim → ℤ) :=
  match word.splitOnP (· == ':') with
  | [col, val] => do
    let v ← pyInt val
    if ¬ row < n then throw .indexError
    let c ← pyInt col
    readLine row V [(c, v)]
  | _ => .error .valueError

/-- The words of one line (`/repo/hub_toolbox/io.py` lines 53-56). -/
def readTextLine {n dim : ℕ} (row : ℕ) (V : Fin n → Fin dim → ℤ) (line : List Char) : Py (Fin n → Fin dim → ℤ) :=
  (split (strip line)).foldlM (readWord row) V

/-- The loop over lines (`/repo/hub_toolbox/io.py` lines 51-57). -/
def readTextLines {n dim : ℕ} : ℕ → List (List Char) → (Fin n → Fin dim → ℤ) → Py (Fin n → Fin dim → ℤ)
  | _, [], V => .ok V
  | row, line :: rest, V => readTextLine row V line >>= readTextLines (row + 1) rest

/-- `vectors` of `load_dexter` from the text of the data file (`/repo/hub_toolbox/io.py` lines 45-57). -/
def loadText (n dim : ℕ) (text : List Char) : Py (Fin n → Fin dim → ℤ) := readTextLines 0 (readlines text) (fun _ _ => 0)

/-- `int(lines[i].split()[1])` (`/repo/hub_toolbox/io.py` lines 215-221). -/
def textLine (lines : List (List Char)) (i : ℕ) : Py ℤ :=
  match lines[i]? with
  | none => .error .indexError
  | some l => match (split l)[1]? with
    | none => .error .indexError
    | some w => pyInt w

/-- `FreeMemLinux.__init__` from the text of `/proc/meminfo` (`/repo/hub_toolbox/io.py` lines 210-225). Simplification: the numbers are not
negative; a negative one is taken as zero here. -/
def FreeMem.readText (text : List Char) (unit : MemUnit) : Py FreeMem := do
  let lines := readlines text
  let tot ← textLine lines 0
  let free ← textLine lines 1
  let buff ← textLine lines 2
  let cached ← textLine lines 3
  let shared ← textLine lines 20
  let swapt ← textLine lines 14
  let swapf ← textLine lines 15
  let convert ← factor tot.toNat unit
  pure ⟨tot.toNat, free.toNat, buff.toNat, cached.toNat, shared.toNat, swapt.toNat, swapf.toNat, convert⟩

end HubToolbox.InOut
