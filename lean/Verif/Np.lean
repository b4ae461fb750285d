import Verif.Base
import Mathlib.Data.Fin.Tuple.Sort
import Mathlib.Data.List.FinRange
import Mathlib.Data.Fintype.Perm
import Mathlib.Algebra.BigOperators.Fin

/-!
# numpy primitives

Arrays are functions on `Fin`. The partial sort `np.argpartition` is an oracle `ArgPart`
about which only numpy's documented guarantee is assumed.
-/

set_option autoImplicit false

namespace HubToolbox

/-- A python argument which is expected to be a 2-D array. `sparse` records `issparse`. -/
inductive PyMat (α : Type*)
  /-- an object without `.ndim` -/
  | noArray
  /-- an array whose number of dimensions is not two -/
  | otherDim (ndim : ℕ) (h : ndim ≠ 2)
  /-- an `n × m` array (or scipy sparse matrix, seen through its dense content) -/
  | mat (sparse : Bool) (n m : ℕ) (a : Fin n → Fin m → α)

/-- `io.check_is_nD_array(arr, n=2)` (`/repo/hub_toolbox/io.py` lines 64-73) followed by unpacking
`arr.shape`. -/
def PyMat.check2D {α : Type*} : PyMat α → Py (Bool × (Σ n m : ℕ, Fin n → Fin m → α))
  | .noArray => .error .typeError
  | .otherDim _ _ => .error .typeError
  | .mat s n m a => .ok (s, ⟨n, m, a⟩)

/-- `io.check_distance_matrix_shape` (`/repo/hub_toolbox/io.py` lines 75-80). The result is the square
array. -/
def PyMat.checkSquare {α : Type*} : PyMat α → Py (Bool × (Σ n : ℕ, Fin n → Fin n → α))
  | .noArray => .error .typeError
  | .otherDim _ _ => .error .typeError
  | .mat s n m a =>
    if h : n = m then .ok (s, ⟨n, fun i j => a i (j.cast h)⟩) else .error .typeError

namespace Np

/-- `np.arange(lo, lo + k)`. -/
def arange (lo : ℤ) (k : ℕ) : Fin k → ℤ := fun c => lo + c

/-- One integer index into an axis of length `m`: in range, or negative and wrapped around. -/
def wrap (m : ℕ) (t : ℤ) : Option (Fin m) :=
  if h : 0 ≤ t ∧ t < m then some ⟨t.toNat, by omega⟩
  else if h : -(m : ℤ) ≤ t ∧ t < 0 then some ⟨(t + m).toNat, by omega⟩
  else none

/-- A whole index array: `none` if some index is out of bounds. -/
def wrapAll {k : ℕ} (m : ℕ) (t : Fin k → ℤ) : Option (Fin k → Fin m) :=
  if h : ∀ c, (wrap m (t c)).isSome then some (fun c => (wrap m (t c)).get (h c)) else none

/-- `a[::-1]` for `rev = true`, `a[::1]` otherwise. -/
def stepSlice {α : Type*} {k : ℕ} (rev : Bool) (a : Fin k → α) : Fin k → α :=
  fun c => if rev then a c.rev else a c

/-- `np.fill_diagonal(D, v)`, also for rectangular arrays. -/
def fillDiagonal {α : Type*} {n m : ℕ} (D : Fin n → Fin m → α) (v : α) : Fin n → Fin m → α :=
  fun i j => if i.val = j.val then v else D i j

/-- `D[~np.isfinite(D)] = v`. -/
def replaceNonFinite {K : Type*} {m : ℕ} (d : Fin m → XR K) (v : XR K) : Fin m → XR K :=
  fun j => if (d j).isFinite then d j else v

/-- `np.bincount(l, minlength=m)`: one counter per value `0 … max(max l, m-1)`. -/
def bincount (l : List ℕ) (minlength : ℕ) : List ℕ :=
  (List.range (max ((l.map (· + 1)).foldr max 0) minlength)).map (fun v => l.count v)

end Np

/-- `np.argpartition(v, kth)`: the documented contract, nothing else.
For each requested position `kth c`, everything before it is `≤` and everything after it is `≥`. -/
structure ArgPart (α : Type*) [LinearOrder α] where
  run : ∀ {m k : ℕ}, (Fin m → α) → (Fin k → Fin m) → Equiv.Perm (Fin m)
  before : ∀ {m k : ℕ} (v : Fin m → α) (kth : Fin k → Fin m) (c : Fin k) (p : Fin m),
    p ≤ kth c → v (run v kth p) ≤ v (run v kth (kth c))
  after : ∀ {m k : ℕ} (v : Fin m → α) (kth : Fin k → Fin m) (c : Fin k) (p : Fin m),
    kth c ≤ p → v (run v kth (kth c)) ≤ v (run v kth p)

/-- The contract is satisfiable: a complete stable sort fulfils it. -/
def ArgPart.ofSort (α : Type*) [LinearOrder α] : ArgPart α where
  run v _ := Tuple.sort v
  before v _ _ _ h := Tuple.monotone_sort v h
  after v _ _ _ h := Tuple.monotone_sort v h

namespace Np

/-- `np.argpartition(v, kth=kth)` including the `ValueError: kth(=…) out of bounds`.
Returns also the normalised positions, which the callers use to index the result. -/
def argpartition {α : Type*} [LinearOrder α] (o : ArgPart α) {m k : ℕ} (v : Fin m → α)
    (kth : Fin k → ℤ) : Py (Equiv.Perm (Fin m) × (Fin k → Fin m)) :=
  match wrapAll m kth with
  | none => .error .valueError
  | some pos => .ok (o.run v pos, pos)

theorem wrap_of_nonneg {m : ℕ} {t : ℤ} (h0 : 0 ≤ t) (h1 : t < m) :
    wrap m t = some ⟨t.toNat, by omega⟩ := by
  simp [wrap, h0, h1]

theorem wrapAll_arange {m k lo : ℕ} (h : lo + k ≤ m) :
    wrapAll m (arange lo k) = some (fun c : Fin k => ⟨lo + c, by omega⟩) := by
  have hw : ∀ c : Fin k, wrap m (arange lo k c) = some ⟨lo + c, by omega⟩ := by
    intro c
    rw [wrap_of_nonneg (by simp [arange]; omega) (by simp [arange]; omega)]
    simp [arange]
    omega
  simp [wrapAll, hw]

theorem bincount_length (l : List ℕ) (m : ℕ) (h : ∀ x ∈ l, x < m) :
    (bincount l m).length = m := by
  have : (l.map (· + 1)).foldr max 0 ≤ m := by
    induction l with
    | nil => simp
    | cons a l ih =>
      simp only [List.map_cons, List.foldr_cons]
      have := h a (by simp)
      have := ih (fun x hx => h x (by simp [hx]))
      omega
  simp [bincount, this]

theorem bincount_getElem (l : List ℕ) (m : ℕ) (j : ℕ) (hj : j < (bincount l m).length) :
    (bincount l m)[j] = l.count j := by
  simp [bincount]

end Np
end HubToolbox
