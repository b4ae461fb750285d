import Verif.Base
import Mathlib.Data.Prod.Basic
import Mathlib.Data.List.FinRange
import Mathlib.Data.List.ProdSigma
import Mathlib.Data.List.Induction
import Mathlib.Logic.Function.Basic

/-!
# Memory of a python process

numpy arrays are references: several names and views can share the same numbers, and in-place operations change them for all.
An array is modelled by the addresses of its elements, so that a view (`D[i, :]`, `D.T`, a slice) is an array of addresses, too.
-/

set_option autoImplicit false

namespace HubToolbox.Heap

/-- The address of a number: buffer, row, column. -/
abbrev Addr := ℕ × ℕ × ℕ

/-- The memory: the numbers, and the number of buffers allocated so far. -/
structure Mem (α : Type) where
  cell : Addr → α
  next : ℕ

/-- Python code which reads and writes memory, and returns or raises. Writes before an exception persist. -/
def M (α β : Type) := Mem α → Py β × Mem α

variable {α β γ : Type}

instance : Monad (M α) where
  pure x := fun h => (.ok x, h)
  bind f g := fun h =>
    match f h with
    | (.ok x, h') => g x h'
    | (.error e, h') => (.error e, h')

/-- Code which does not access memory. -/
def lift (x : Py β) : M α β := fun h => (x, h)

/-- A two-dimensional array or view. -/
abbrev Arr (n m : ℕ) := Fin n → Fin m → Addr

/-- The numbers in a row (or any other one-dimensional view). -/
def readV {m : ℕ} (a : Fin m → Addr) : M α (Fin m → α) := fun h => (.ok fun j => h.cell (a j), h)

/-- The numbers in an array. -/
def read {n m : ℕ} (a : Arr n m) : M α (Fin n → Fin m → α) := fun h => (.ok fun i j => h.cell (a i j), h)

/-- The memory after storing numbers one after the other. -/
def stores {ι : Type} (l : List ι) (a : ι → Addr) (V : ι → α) (c : Addr → α) : Addr → α :=
  l.foldl (fun c i => Function.update c (a i) (V i)) c

/-- `a[:] = V` for a one-dimensional view. -/
def assignV {m : ℕ} (a : Fin m → Addr) (V : Fin m → α) : M α Unit :=
  fun h => (.ok (), { h with cell := stores (List.finRange m) a V h.cell })

/-- `a[:, :] = V`. -/
def assign {n m : ℕ} (a : Arr n m) (V : Fin n → Fin m → α) : M α Unit :=
  fun h => (.ok (), { h with
    cell := stores (List.finRange n ×ˢ List.finRange m) (fun p => a p.1 p.2) (fun p => V p.1 p.2) h.cell })

/-- A new buffer which contains `V`: the result of any numpy function which does not return a view. -/
def new {n m : ℕ} (V : Fin n → Fin m → α) : M α (Arr n m) := fun h =>
  let a : Arr n m := fun i j => (h.next, i.val, j.val)
  (.ok a, { cell := stores (List.finRange n ×ˢ List.finRange m) (fun p => a p.1 p.2) (fun p => V p.1 p.2) h.cell,
            next := h.next + 1 })

/-- `a.copy()`. -/
def copy {n m : ℕ} (a : Arr n m) : M α (Arr n m) := do
  let V ← read a
  new V

/-- An in-place operation on an array: `a += …`, `np.fill_diagonal(a, …)`, `a[mask] = …`. numpy computes the new numbers
before it stores them. -/
def modify {n m : ℕ} (a : Arr n m) (F : (Fin n → Fin m → α) → Fin n → Fin m → α) : M α Unit := do
  let V ← read a
  assign a (F V)

/-- An in-place operation on a one-dimensional view. -/
def modifyV {m : ℕ} (a : Fin m → Addr) (F : (Fin m → α) → Fin m → α) : M α Unit := do
  let V ← readV a
  assignV a (F V)

/-! ### Evaluation -/

theorem bind_ok (f : M α β) (g : β → M α γ) (h h' : Mem α) (x : β) (e : f h = (.ok x, h')) : (f >>= g) h = g x h' := by
  show (match f h with | (.ok x, h') => g x h' | (.error e, h') => (.error e, h')) = _
  rw [e]

theorem bind_error (f : M α β) (g : β → M α γ) (h h' : Mem α) (x : PyErr) (e : f h = (.error x, h')) :
    (f >>= g) h = (.error x, h') := by
  show (match f h with | (.ok x, h') => g x h' | (.error e, h') => (.error e, h')) = _
  rw [e]

theorem bind_bind {δ : Type} (f : M α β) (g : β → M α γ) (k : γ → M α δ) : (f >>= g) >>= k = f >>= fun x => g x >>= k := by
  funext h
  rcases e : f h with ⟨x | x, h'⟩
  · rw [bind_error _ _ h h' x (bind_error f g h h' x e), bind_error _ _ h h' x e]
  · rw [bind_ok f _ h h' x e]
    show (match (f >>= g) h with | (.ok x, h') => k x h' | (.error e, h') => (.error e, h')) = _
    rw [bind_ok f g h h' x e]
    rfl

theorem pure_run (x : β) (h : Mem α) : (pure x : M α β) h = (.ok x, h) := rfl

theorem lift_run (x : Py β) (h : Mem α) : (lift x : M α β) h = (x, h) := rfl

/-- The result of code which starts with something that does not access memory. -/
theorem lift_bind (x : Py β) (g : β → M α γ) (h : Mem α) :
    ((lift x >>= g) h).1 = (x >>= fun y => (g y h).1) := by
  cases x <;> rfl

/-- The result of code which ends with something that does not access memory. -/
theorem bind_pure_fst (f : M α β) (g : β → γ) (h : Mem α) :
    ((f >>= fun x => pure (g x)) h).1 = ((f h).1 >>= fun x => pure (g x)) := by
  rcases e : f h with ⟨x | x, h'⟩
  · rw [bind_error _ _ h h' x e]
    rfl
  · rw [bind_ok _ _ h h' x e]
    rfl

/-- A loop which does not change memory. -/
theorem foldlM_const {ι : Type} (l : List ι) (f : β → ι → M α β) (g : β → ι → Py β) (b : β) (h : Mem α)
    (hf : ∀ b i, f b i h = (g b i, h)) : l.foldlM f b h = (l.foldlM g b, h) := by
  induction l generalizing b with
  | nil => rfl
  | cons i l ih =>
    rw [List.foldlM_cons, List.foldlM_cons]
    cases e : g b i with
    | error x => rw [bind_error _ _ h h x (by rw [hf, e])]; rfl
    | ok x => rw [bind_ok _ _ h h x (by rw [hf, e]), ih]; rfl

theorem stores_of_mem {ι : Type} (l : List ι) (a : ι → Addr) (V : ι → α) (c : Addr → α)
    (ha : Function.Injective a) (i : ι) (hi : i ∈ l) : stores l a V c (a i) = V i := by
  unfold stores
  induction l using List.reverseRecOn with
  | nil => simp at hi
  | append_singleton l x ih =>
    rw [List.foldl_append]
    simp only [List.foldl_cons, List.foldl_nil]
    by_cases hx : i = x
    · subst hx; simp
    · rw [Function.update_of_ne (fun e => hx (ha e))]
      exact ih (by simpa [hx] using hi)

theorem stores_of_not_mem {ι : Type} (l : List ι) (a : ι → Addr) (V : ι → α) (c : Addr → α) (b : Addr)
    (hb : ∀ i ∈ l, a i ≠ b) : stores l a V c b = c b := by
  unfold stores
  induction l generalizing c with
  | nil => rfl
  | cons x l ih =>
    rw [List.foldl_cons, ih _ fun i hi => hb i (List.mem_cons_of_mem _ hi)]
    exact Function.update_of_ne (hb x List.mem_cons_self).symm _ _

/-- The elements of an array are different numbers in memory. -/
def Simple {n m : ℕ} (a : Arr n m) : Prop := ∀ i i' j j', a i j = a i' j' → i = i' ∧ j = j'

/-- All elements of an array are in buffers allocated after the first `s` ones. -/
def Fresh {n m : ℕ} (s : ℕ) (a : Arr n m) : Prop := ∀ i j, s ≤ (a i j).1

theorem Simple.injective {n m : ℕ} {a : Arr n m} (h : Simple a) :
    Function.Injective (fun p : Fin n × Fin m => a p.1 p.2) := fun p q e => Prod.ext (h _ _ _ _ e).1 (h _ _ _ _ e).2

theorem Simple.row {n m : ℕ} {a : Arr n m} (h : Simple a) (i : Fin n) : Function.Injective (a i) := fun _ _ e => (h _ _ _ _ e).2

theorem assign_read {n m : ℕ} (a : Arr n m) (ha : Simple a) (V : Fin n → Fin m → α) (c : Addr → α) (i : Fin n) (j : Fin m) :
    stores (List.finRange n ×ˢ List.finRange m) (fun p => a p.1 p.2) (fun p => V p.1 p.2) c (a i j) = V i j :=
  stores_of_mem _ (fun p : Fin n × Fin m => a p.1 p.2) _ c ha.injective (i, j) (by simp)

theorem assign_other {n m : ℕ} (a : Arr n m) (V : Fin n → Fin m → α) (c : Addr → α) (b : Addr)
    (hb : ∀ i j, a i j ≠ b) :
    stores (List.finRange n ×ˢ List.finRange m) (fun p => a p.1 p.2) (fun p => V p.1 p.2) c b = c b :=
  stores_of_not_mem _ _ _ _ _ fun p _ => hb p.1 p.2

/-- A new buffer: its address, what it contains, and that the rest of the memory is as before. -/
theorem new_run {n m : ℕ} (V : Fin n → Fin m → α) (h : Mem α) :
    ∃ (a : Arr n m) (h' : Mem α), new V h = (.ok a, h') ∧ Simple a ∧ Fresh h.next a ∧ h'.next = h.next + 1 ∧
      (∀ i j, (a i j).1 < h'.next) ∧ (∀ i j, h'.cell (a i j) = V i j) ∧ ∀ b : Addr, b.1 ≠ h.next → h'.cell b = h.cell b := by
  have hs : Simple (fun (i : Fin n) (j : Fin m) => (h.next, i.val, j.val)) := by
    intro i i' j j' e
    simp only [Prod.mk.injEq, true_and] at e
    exact ⟨Fin.ext e.1, Fin.ext e.2⟩
  refine ⟨fun i j => (h.next, i.val, j.val), _, rfl, hs, fun _ _ => le_rfl, rfl, fun _ _ => Nat.lt_succ_self _, ?_, ?_⟩
  · exact assign_read _ hs V h.cell
  · intro b hb
    exact assign_other (fun (i : Fin n) (j : Fin m) => (h.next, i.val, j.val)) V h.cell b fun i j e => hb (by rw [← e])

theorem copy_run {n m : ℕ} (a : Arr n m) (h : Mem α) :
    ∃ (b : Arr n m) (h' : Mem α), copy a h = (.ok b, h') ∧ Simple b ∧ Fresh h.next b ∧ h'.next = h.next + 1 ∧
      (∀ i j, (b i j).1 < h'.next) ∧ (∀ i j, h'.cell (b i j) = h.cell (a i j)) ∧
      ∀ c : Addr, c.1 ≠ h.next → h'.cell c = h.cell c :=
  new_run (fun i j => h.cell (a i j)) h

theorem modify_run {n m : ℕ} (a : Arr n m) (ha : Simple a) (F : (Fin n → Fin m → α) → Fin n → Fin m → α) (h : Mem α) :
    ∃ h' : Mem α, modify a F h = (.ok (), h') ∧ h'.next = h.next ∧
      (∀ i j, h'.cell (a i j) = F (fun i j => h.cell (a i j)) i j) ∧
      ∀ b : Addr, (∀ i j, a i j ≠ b) → h'.cell b = h.cell b :=
  ⟨_, rfl, rfl, assign_read a ha _ _, fun b hb => assign_other a _ _ b hb⟩

theorem modifyV_run {m : ℕ} (a : Fin m → Addr) (ha : Function.Injective a) (F : (Fin m → α) → Fin m → α) (h : Mem α) :
    ∃ h' : Mem α, modifyV a F h = (.ok (), h') ∧ h'.next = h.next ∧
      (∀ j, h'.cell (a j) = F (fun j => h.cell (a j)) j) ∧
      ∀ b : Addr, (∀ j, a j ≠ b) → h'.cell b = h.cell b :=
  ⟨_, rfl, rfl, fun j => stores_of_mem _ a _ _ ha j (List.mem_finRange j),
    fun b hb => stores_of_not_mem _ _ _ _ b fun j _ => hb j⟩

/-! ### What is left alone -/

/-- Code which, started with at least `s` buffers, leaves the numbers in the first `s` buffers as they are, and whose results
satisfy `Q`. -/
def Keeps (s : ℕ) (Q : β → Prop) (f : M α β) : Prop := ∀ h : Mem α, s ≤ h.next →
  s ≤ (f h).2.next ∧ (∀ a : Addr, a.1 < s → (f h).2.cell a = h.cell a) ∧ ∀ x, (f h).1 = .ok x → Q x

theorem Keeps.bind {s : ℕ} {Q : β → Prop} {R : γ → Prop} {f : M α β} {g : β → M α γ} (hf : Keeps s Q f)
    (hg : ∀ x, Q x → Keeps s R (g x)) : Keeps s R (f >>= g) := by
  intro h hs
  obtain ⟨h1, h2, h3⟩ := hf h hs
  rcases e : f h with ⟨r, h'⟩
  rw [e] at h1 h2 h3
  cases r with
  | error x =>
    rw [bind_error f g h h' x e]
    exact ⟨h1, h2, fun _ hx => by cases hx⟩
  | ok x =>
    rw [bind_ok f g h h' x e]
    obtain ⟨k1, k2, k3⟩ := hg x (h3 x rfl) h' h1
    exact ⟨k1, fun a ha => (k2 a ha).trans (h2 a ha), k3⟩

theorem Keeps.pure {s : ℕ} {Q : β → Prop} (x : β) (hx : Q x) : Keeps s Q (pure x : M α β) :=
  fun h hs => ⟨hs, fun _ _ => rfl, fun y hy => by cases hy; exact hx⟩

theorem Keeps.lift {s : ℕ} (x : Py β) : Keeps s (fun _ => True) (lift x : M α β) :=
  fun h hs => ⟨hs, fun _ _ => rfl, fun _ _ => trivial⟩

theorem Keeps.read {s n m : ℕ} (a : Arr n m) : Keeps s (fun _ => True) (read a : M α _) :=
  fun h hs => ⟨hs, fun _ _ => rfl, fun _ _ => trivial⟩

theorem Keeps.readV {s m : ℕ} (a : Fin m → Addr) : Keeps s (fun _ => True) (readV a : M α _) :=
  fun h hs => ⟨hs, fun _ _ => rfl, fun _ _ => trivial⟩

theorem Keeps.new {s n m : ℕ} (V : Fin n → Fin m → α) : Keeps s (fun a => Simple a ∧ Fresh s a) (new V) := by
  intro h hs
  obtain ⟨a, h', e, h1, h2, h3, _, _, h4⟩ := new_run V h
  rw [e]
  refine ⟨by simp only [h3]; omega, fun b hb => h4 b (by omega), fun x hx => ?_⟩
  cases hx
  exact ⟨h1, fun i j => hs.trans (h2 i j)⟩

theorem Keeps.copy {s n m : ℕ} (a : Arr n m) : Keeps s (fun b => Simple b ∧ Fresh s b) (copy a : M α _) :=
  Keeps.bind (Keeps.read a) fun V _ => Keeps.new V

theorem Keeps.assign {s n m : ℕ} (a : Arr n m) (ha : Fresh s a) (V : Fin n → Fin m → α) :
    Keeps s (fun _ => True) (assign a V) := by
  intro h hs
  refine ⟨hs, fun b hb => assign_other a V _ b fun i j e => ?_, fun _ _ => trivial⟩
  have := ha i j
  rw [e] at this
  omega

theorem Keeps.assignV {s m : ℕ} (a : Fin m → Addr) (ha : ∀ j, s ≤ (a j).1) (V : Fin m → α) :
    Keeps s (fun _ => True) (assignV a V) := by
  intro h hs
  refine ⟨hs, fun b hb => stores_of_not_mem _ _ _ _ b fun j _ e => ?_, fun _ _ => trivial⟩
  have := ha j
  rw [e] at this
  omega

theorem Keeps.modify {s n m : ℕ} (a : Arr n m) (ha : Fresh s a) (F : (Fin n → Fin m → α) → Fin n → Fin m → α) :
    Keeps s (fun _ => True) (modify a F) :=
  Keeps.bind (Keeps.read a) fun V _ => Keeps.assign a ha _

theorem Keeps.modifyV {s m : ℕ} (a : Fin m → Addr) (ha : ∀ j, s ≤ (a j).1) (F : (Fin m → α) → Fin m → α) :
    Keeps s (fun _ => True) (modifyV a F) :=
  Keeps.bind (Keeps.readV a) fun V _ => Keeps.assignV a ha _

theorem Keeps.foldlM {ι : Type} {s : ℕ} (l : List ι) (f : β → ι → M α β) (b : β)
    (hf : ∀ b i, Keeps s (fun _ => True) (f b i)) : Keeps s (fun _ => True) (l.foldlM f b) := by
  induction l generalizing b with
  | nil => exact Keeps.pure b trivial
  | cons i l ih =>
    rw [List.foldlM_cons]
    exact Keeps.bind (hf b i) fun b' _ => ih b'

theorem Keeps.ite {s : ℕ} {Q : β → Prop} {p : Prop} [Decidable p] {f g : M α β} (hf : Keeps s Q f) (hg : Keeps s Q g) :
    Keeps s Q (if p then f else g) := by
  split <;> assumption

/-! ### Operations on one row -/

/-- `d[j] = v` for a one-dimensional view. -/
def storeAt {m : ℕ} (d : Fin m → Addr) (j : Fin m) (v : α) : M α Unit :=
  fun h => (.ok (), { h with cell := Function.update h.cell (d j) v })

theorem Keeps.storeAt {s m : ℕ} (d : Fin m → Addr) (hd : ∀ j, s ≤ (d j).1) (j : Fin m) (v : α) :
    Keeps s (fun _ => True) (storeAt d j v) := by
  intro h hs
  refine ⟨hs, fun b hb => Function.update_of_ne (fun e => ?_) _ _, fun _ _ => trivial⟩
  have := hd j
  rw [← e] at this
  omega

/-- Code which turns the numbers `v` of a one-dimensional view into `F v`, and does nothing else. -/
def RowOp {m : ℕ} (d : Fin m → Addr) (F : (Fin m → α) → Fin m → α) (f : M α Unit) : Prop := ∀ h : Mem α,
  ∃ h' : Mem α, f h = (.ok (), h') ∧ h'.next = h.next ∧ (∀ j, h'.cell (d j) = F (fun j => h.cell (d j)) j) ∧
    ∀ b : Addr, (∀ j, d j ≠ b) → h'.cell b = h.cell b

theorem RowOp.modifyV {m : ℕ} (d : Fin m → Addr) (hd : Function.Injective d) (F : (Fin m → α) → Fin m → α) :
    RowOp d F (modifyV d F) := modifyV_run d hd F

theorem RowOp.storeAt {m : ℕ} (d : Fin m → Addr) (hd : Function.Injective d) (j : Fin m) (v : α) :
    RowOp d (fun w => Function.update w j v) (storeAt d j v) := by
  intro h
  refine ⟨_, rfl, rfl, fun j' => ?_, fun b hb => Function.update_of_ne (hb j).symm _ _⟩
  by_cases e : j' = j
  · subst e; simp
  · show Function.update h.cell (d j) v (d j') = Function.update (fun j => h.cell (d j)) j v j'
    rw [Function.update_of_ne e]
    exact Function.update_of_ne (fun e' => e (hd e')) _ _

theorem RowOp.pure {m : ℕ} (d : Fin m → Addr) : RowOp d (fun v : Fin m → α => v) (pure ()) :=
  fun h => ⟨h, rfl, rfl, fun _ => rfl, fun _ _ => rfl⟩

theorem RowOp.seq {m : ℕ} {d : Fin m → Addr} {F G : (Fin m → α) → Fin m → α} {f g : M α Unit}
    (hf : RowOp d F f) (hg : RowOp d G g) : RowOp d (fun v => G (F v)) (f >>= fun _ => g) := by
  intro h
  obtain ⟨h1, e1, n1, c1, o1⟩ := hf h
  obtain ⟨h2, e2, n2, c2, o2⟩ := hg h1
  refine ⟨h2, by rw [bind_ok _ _ h h1 () e1, e2], n2.trans n1, fun j => ?_, fun b hb => (o2 b hb).trans (o1 b hb)⟩
  rw [c2]
  congr 1
  funext j
  exact c1 j

theorem RowOp.keeps {m s : ℕ} {d : Fin m → Addr} {F : (Fin m → α) → Fin m → α} {f : M α Unit} (hf : RowOp d F f)
    (hd : ∀ j, s ≤ (d j).1) : Keeps s (fun _ => True) f := by
  intro h hs
  obtain ⟨h', e, h1, _, h2⟩ := hf h
  rw [e]
  refine ⟨h1 ▸ hs, fun b hb => h2 b fun j e => ?_, fun _ _ => trivial⟩
  have := hd j
  rw [e] at this
  omega

/-! ### Loops over rows -/

/-- `D[i, :].toarray().ravel()`: a dense copy of a row. -/
def copyRow {m : ℕ} (d : Fin m → Addr) : M α (Fin m → Addr) := do
  let V ← readV d
  let a ← new (fun _ : Fin 1 => V)
  pure (a 0)

theorem copyRow_run {m : ℕ} (d : Fin m → Addr) (h : Mem α) :
    ∃ (b : Fin m → Addr) (h' : Mem α), copyRow d h = (.ok b, h') ∧ Function.Injective b ∧ (∀ j, (b j).1 = h.next) ∧
      h'.next = h.next + 1 ∧ (∀ j, h'.cell (b j) = h.cell (d j)) ∧ ∀ c : Addr, c.1 ≠ h.next → h'.cell c = h.cell c := by
  obtain ⟨a, h', e, h1, h2, h3, h4, h5, h6⟩ := new_run (fun (_ : Fin 1) j => h.cell (d j)) h
  refine ⟨a 0, h', ?_, h1.row 0, fun j => ?_, h3, fun j => h5 0 j, h6⟩
  · show (new (fun (_ : Fin 1) j => h.cell (d j)) >>= fun a => (Pure.pure (a 0) : M α (Fin m → Addr))) h = _
    rw [bind_ok _ _ h h' a e]
    rfl
  · have := h2 0 j
    have := h4 0 j
    omega

theorem Keeps.copyRow {m s : ℕ} (d : Fin m → Addr) : Keeps s (fun b => ∀ j, s ≤ (b j).1) (copyRow d : M α _) :=
  Keeps.bind (Keeps.readV d) fun _ _ => Keeps.bind (Keeps.new _) fun a ha => Keeps.pure _ fun j => ha.2 0 j

/-- The row which the loop works on: a view, or a dense copy if the matrix is sparse. -/
def rowOf {n m : ℕ} (sparse : Bool) (D : Arr n m) (i : Fin n) : M α (Fin m → Addr) :=
  if sparse then copyRow (D i) else pure (D i)

theorem Keeps.rowOf {n m s : ℕ} (sparse : Bool) (D : Arr n m) (hD : Fresh s D) (i : Fin n) :
    Keeps s (fun b => ∀ j, s ≤ (b j).1) (rowOf sparse D i : M α _) := by
  unfold Heap.rowOf
  split
  · exact Keeps.copyRow _
  · exact Keeps.pure _ (hD i)

/-- One pass of a loop over rows: change the row (or its copy) in place, then compute something from it. -/
def rowStep {n m : ℕ} (sparse : Bool) (D : Arr n m) (f : Fin n → (Fin m → Addr) → M α Unit)
    (G : Fin n → (Fin m → α) → Py β) (i : Fin n) : M α β := do
  let d ← rowOf sparse D i
  f i d
  let v ← readV d
  lift (G i v)

theorem Keeps.rowStep {n m s : ℕ} (sparse : Bool) (D : Arr n m) (hD : Fresh s D) (f : Fin n → (Fin m → Addr) → M α Unit)
    (hf : ∀ i d, (∀ j, s ≤ (d j).1) → Keeps s (fun _ => True) (f i d)) (G : Fin n → (Fin m → α) → Py β) (i : Fin n) :
    Keeps s (fun _ => True) (rowStep sparse D f G i) :=
  Keeps.bind (Keeps.rowOf sparse D hD i) fun d hd => Keeps.bind (hf i d hd) fun _ _ =>
    Keeps.bind (Keeps.readV d) fun _ _ => Keeps.lift _

/-- The result of one pass, and that it leaves the other rows (and everything else that was there) alone. -/
theorem rowStep_run {n m : ℕ} (sparse : Bool) (D : Arr n m) (hD : Simple D) (f : Fin n → (Fin m → Addr) → M α Unit)
    (F : Fin n → (Fin m → α) → Fin m → α) (hf : ∀ i d, Function.Injective d → RowOp d (F i) (f i d))
    (G : Fin n → (Fin m → α) → Py β) (i : Fin n) (h : Mem α) :
    ∃ h' : Mem α, rowStep sparse D f G i h = (G i (F i (fun j => h.cell (D i j))), h') ∧ h.next ≤ h'.next ∧
      ∀ c : Addr, c.1 < h.next → (∀ j, D i j ≠ c) → h'.cell c = h.cell c := by
  unfold rowStep
  cases sparse with
  | false =>
    obtain ⟨h', e, h1, h2, h3⟩ := hf i (D i) (hD.row i) h
    refine ⟨h', ?_, h1.ge, fun c _ hc => h3 c hc⟩
    have e0 : (rowOf false D i : M α _) h = (.ok (D i), h) := rfl
    rw [bind_ok _ _ h h (D i) e0, bind_ok _ _ h h' () e]
    show (G i (fun j => h'.cell (D i j)), h') = _
    congr 2
    funext j
    exact h2 j
  | true =>
    obtain ⟨d, h1, e1, k1, k2, k3, k4, k5⟩ := copyRow_run (D i) h
    obtain ⟨h', e, l1, l2, l3⟩ := hf i d k1 h1
    refine ⟨h', ?_, by omega, fun c hc hi => ?_⟩
    · rw [bind_ok _ _ h h1 d (by exact e1), bind_ok _ _ h1 h' () e]
      show (G i (fun j => h'.cell (d j)), h') = _
      congr 2
      funext j
      rw [l2]
      congr 1
      funext j
      exact k4 j
    · rw [l3 c fun j ej => ?_, k5 c (by omega)]
      have := k2 j
      rw [ej] at this
      omega

/-- A loop over rows: as the rows are disjoint, each row is as it was before the loop when its turn comes. -/
theorem rows_run {n m : ℕ} (sparse : Bool) (D : Arr n m) (hD : Simple D) (f : Fin n → (Fin m → Addr) → M α Unit)
    (F : Fin n → (Fin m → α) → Fin m → α) (hf : ∀ i d, Function.Injective d → RowOp d (F i) (f i d))
    (G : β → Fin n → (Fin m → α) → Py β) (l : List (Fin n)) (hl : l.Nodup) (P : Fin n → Fin m → α) (b : β) (h : Mem α)
    (hlt : ∀ i j, (D i j).1 < h.next) (hP : ∀ i ∈ l, ∀ j, h.cell (D i j) = P i j) :
    (l.foldlM (fun b i => rowStep sparse D f (G b) i) b h).1 = l.foldlM (fun b i => G b i (F i (P i))) b := by
  induction l generalizing b h with
  | nil => rfl
  | cons i l ih =>
    rw [List.foldlM_cons, List.foldlM_cons]
    obtain ⟨h', e, h1, h2⟩ := rowStep_run sparse D hD f F hf (G b) i h
    have hrow : (fun j => h.cell (D i j)) = P i := funext fun j => hP i List.mem_cons_self j
    rw [hrow] at e
    have hnext : ∀ i' ∈ l, ∀ j, h'.cell (D i' j) = P i' j := by
      intro i' hi' j
      rw [h2 _ (hlt i' j) fun j' e => ?_]
      · exact hP i' (List.mem_cons_of_mem _ hi') j
      · have := (hD _ _ _ _ e).1
        subst this
        exact (List.nodup_cons.1 hl).1 hi'
    cases hG : G b i (F i (P i)) with
    | error x =>
      rw [hG] at e
      rw [bind_error _ _ h h' x e]
      rfl
    | ok b' =>
      rw [hG] at e
      rw [bind_ok _ _ h h' b' e]
      exact ih (List.nodup_cons.1 hl).2 b' h' (fun i j => (hlt i j).trans_le h1) hnext

/-- A loop which may work on the same row several times, if changing a row twice is the same as changing it once. -/
theorem rows_run_again {n m : ℕ} (sparse : Bool) (D : Arr n m) (hD : Simple D) (f : Fin n → (Fin m → Addr) → M α Unit)
    (F : Fin n → (Fin m → α) → Fin m → α) (hf : ∀ i d, Function.Injective d → RowOp d (F i) (f i d))
    (hF : ∀ i v, F i (F i v) = F i v) (G : β → Fin n → (Fin m → α) → Py β) (l : List (Fin n)) (P : Fin n → Fin m → α)
    (b : β) (h : Mem α) (hlt : ∀ i j, (D i j).1 < h.next)
    (hP : ∀ i, (fun j => h.cell (D i j)) = P i ∨ (fun j => h.cell (D i j)) = F i (P i)) :
    (l.foldlM (fun b i => rowStep sparse D f (G b) i) b h).1 = l.foldlM (fun b i => G b i (F i (P i))) b := by
  induction l generalizing b h with
  | nil => rfl
  | cons i l ih =>
    rw [List.foldlM_cons, List.foldlM_cons]
    have hrow : F i (fun j => h.cell (D i j)) = F i (P i) := by
      rcases hP i with e | e
      · rw [e]
      · rw [e, hF]
    obtain ⟨h', e, h1, h2, h4⟩ : ∃ h' : Mem α, rowStep sparse D f (G b) i h
        = (G b i (F i (fun j => h.cell (D i j))), h') ∧ h.next ≤ h'.next ∧
        (∀ c : Addr, c.1 < h.next → (∀ j, D i j ≠ c) → h'.cell c = h.cell c) ∧
        ((fun j => h'.cell (D i j)) = (fun j => h.cell (D i j)) ∨
          (fun j => h'.cell (D i j)) = F i (fun j => h.cell (D i j))) := by
      cases sparse with
      | true =>
        unfold rowStep
        obtain ⟨d, h1, e1, k1, k2, k3, k4, k5⟩ := copyRow_run (D i) h
        obtain ⟨h', e, l1, l2, l3⟩ := hf i d k1 h1
        have hold : ∀ c : Addr, c.1 < h.next → h'.cell c = h.cell c := by
          intro c hc
          rw [l3 c fun j ej => ?_, k5 c (by omega)]
          have := k2 j
          rw [ej] at this
          omega
        refine ⟨h', ?_, by omega, fun c hc _ => hold c hc, Or.inl (funext fun j => hold _ (hlt i j))⟩
        rw [bind_ok _ _ h h1 d (by exact e1), bind_ok _ _ h1 h' () e]
        show (G b i (fun j => h'.cell (d j)), h') = _
        congr 2
        funext j
        rw [l2]
        congr 1
        funext j
        exact k4 j
      | false =>
        unfold rowStep
        obtain ⟨h', e, h1, h2, h3⟩ := hf i (D i) (hD.row i) h
        have e0 : (rowOf false D i : M α _) h = (.ok (D i), h) := rfl
        refine ⟨h', ?_, h1.ge, fun c _ hc => h3 c hc, Or.inr (funext h2)⟩
        rw [bind_ok _ _ h h (D i) e0, bind_ok _ _ h h' () e]
        show (G b i (fun j => h'.cell (D i j)), h') = _
        congr 2
        funext j
        exact h2 j
    rw [hrow] at e
    have hnext : ∀ i', (fun j => h'.cell (D i' j)) = P i' ∨ (fun j => h'.cell (D i' j)) = F i' (P i') := by
      intro i'
      by_cases hi : i' = i
      · subst hi
        rcases h4 with e4 | e4
        · rw [e4]; exact hP i'
        · rw [e4]; exact Or.inr hrow
      · have : (fun j => h'.cell (D i' j)) = fun j => h.cell (D i' j) :=
          funext fun j => h2 _ (hlt i' j) fun j' e => hi (hD _ _ _ _ e).1.symm
        rw [this]
        exact hP i'
    cases hG : G b i (F i (P i)) with
    | error x =>
      rw [hG] at e
      rw [bind_error _ _ h h' x e]
      rfl
    | ok b' =>
      rw [hG] at e
      rw [bind_ok _ _ h h' b' e]
      exact ih b' h' (fun i j => (hlt i j).trans_le h1) hnext

/-- `for j, sample in enumerate(idx): D[sample, j] = v`. -/
def storeSamples {n s : ℕ} (D : Arr n s) (idx : Fin s → Fin n) (v : α) : M α Unit :=
  (List.finRange s).foldlM (fun _ j => storeAt (D (idx j)) j v) ()

theorem Keeps.storeSamples {n m s : ℕ} (D : Arr n m) (hD : Fresh s D) (idx : Fin m → Fin n) (v : α) :
    Keeps s (fun _ => True) (storeSamples D idx v) :=
  Keeps.foldlM _ _ _ fun _ j => Keeps.storeAt _ (hD (idx j)) j v

theorem storeSamples_run {n s : ℕ} (D : Arr n s) (hD : Simple D) (idx : Fin s → Fin n) (v : α) (h : Mem α) :
    ∃ h' : Mem α, storeSamples D idx v h = (.ok (), h') ∧ h'.next = h.next ∧
      (∀ i j, h'.cell (D i j) = if i = idx j then v else h.cell (D i j)) ∧
      ∀ c : Addr, (∀ i j, D i j ≠ c) → h'.cell c = h.cell c := by
  suffices hs : ∀ (l : List (Fin s)) (h : Mem α), ∃ h' : Mem α,
      (l.foldlM (fun _ j => storeAt (D (idx j)) j v) () : M α Unit) h = (.ok (), h') ∧ h'.next = h.next ∧
      (∀ i j, h'.cell (D i j) = if i = idx j ∧ j ∈ l then v else h.cell (D i j)) ∧
      ∀ c : Addr, (∀ i j, D i j ≠ c) → h'.cell c = h.cell c by
    obtain ⟨h', e, h1, h2, h3⟩ := hs (List.finRange s) h
    refine ⟨h', e, h1, fun i j => ?_, h3⟩
    rw [h2]
    simp
  intro l
  induction l with
  | nil => exact fun h => ⟨h, rfl, rfl, by simp, fun _ _ => rfl⟩
  | cons t l ih =>
    intro h
    set h1 : Mem α := { h with cell := Function.update h.cell (D (idx t) t) v } with hh1
    obtain ⟨h', e, k1, k2, k3⟩ := ih h1
    refine ⟨h', ?_, k1, fun i j => ?_, fun c hc => ?_⟩
    · rw [List.foldlM_cons, bind_ok _ _ h h1 () rfl, e]
    · rw [k2]
      by_cases ht : j = t
      · subst ht
        by_cases hi : i = idx j
        · subst hi
          simp [hh1]
        · rw [if_neg (fun e => hi e.1), if_neg (fun e => hi e.1), hh1]
          exact Function.update_of_ne (fun e => hi (hD _ _ _ _ e).1) _ _
      · have : h1.cell (D i j) = h.cell (D i j) := Function.update_of_ne (fun e => ht (hD _ _ _ _ e).2) _ _
        rw [this]
        simp [ht]
    · rw [k3 c hc]
      exact Function.update_of_ne (hc _ _).symm _ _

/-! ### Worker processes -/

/-- Code run in a forked worker process, which has its own memory: the parent does not see what it writes. -/
def forked (f : M α β) : M α β := fun h => ((f h).1, h)

/-- The effect of code on memory, whether it raises or not: `multiprocessing` catches the exceptions of a task, and the worker
process goes on with its next task. -/
def attempt (f : M α β) : M α Unit := fun h => (.ok (), (f h).2)

/-- The tasks which a worker process has run before row `i`: any other ones, in any order. -/
structure Workers (n : ℕ) where
  before : Fin n → List (Fin n)
  other : ∀ i, i ∉ before i

/-- Task `i` in a worker process with its own copy of the memory, in which it has run other tasks before. -/
def inWorker {n : ℕ} (w : Workers n) (task : Fin n → M α β) (i : Fin n) : M α β :=
  forked ((w.before i).foldlM (fun _ t => attempt (task t)) () >>= fun _ => task i)

/-- Tasks which work on rows in place: the result does not depend on which tasks the worker has run before. -/
theorem inWorker_rowStep {n m : ℕ} (w : Workers n) (sparse : Bool) (D : Arr n m) (hD : Simple D)
    (f : Fin n → (Fin m → Addr) → M α Unit) (F : Fin n → (Fin m → α) → Fin m → α)
    (hf : ∀ i d, Function.Injective d → RowOp d (F i) (f i d)) (G : Fin n → (Fin m → α) → Py β) (i : Fin n) (h : Mem α)
    (hlt : ∀ i j, (D i j).1 < h.next) :
    inWorker w (rowStep sparse D f G) i h = (G i (F i (fun j => h.cell (D i j))), h) := by
  suffices hs : ∀ (l : List (Fin n)) (h1 : Mem α), i ∉ l → (∀ i j, (D i j).1 < h1.next) →
      ((l.foldlM (fun _ t => attempt (rowStep sparse D f G t)) () >>= fun _ => rowStep sparse D f G i) h1).1
        = G i (F i (fun j => h1.cell (D i j))) by
    show (_, h) = _
    rw [hs (w.before i) h (w.other i) hlt]
  intro l
  induction l with
  | nil =>
    intro h1 _ _
    obtain ⟨h', e, _⟩ := rowStep_run sparse D hD f F hf G i h1
    show (rowStep sparse D f G i h1).1 = _
    rw [e]
  | cons t l ih =>
    intro h1 hi hlt1
    obtain ⟨h', e, k1, k2⟩ := rowStep_run sparse D hD f F hf G t h1
    have e1 : attempt (rowStep sparse D f G t) h1 = (.ok (), h') := by
      unfold attempt
      rw [e]
    have hb : (List.foldlM (fun _ t => attempt (rowStep sparse D f G t)) () (t :: l)
        >>= fun _ => rowStep sparse D f G i) h1
        = (List.foldlM (fun _ t => attempt (rowStep sparse D f G t)) () l >>= fun _ => rowStep sparse D f G i) h' := by
      rw [List.foldlM_cons]
      rw [bind_bind, bind_ok _ _ h1 h' () e1]
    rw [hb, ih h' (fun hm => hi (List.mem_cons_of_mem _ hm)) fun i j => (hlt1 i j).trans_le k1]
    congr 2
    funext j
    exact k2 _ (hlt1 i j) fun j' ej => hi (by rw [← (hD _ _ _ _ ej).1]; exact List.mem_cons_self)

theorem Keeps.forked {s : ℕ} (f : M α β) : Keeps s (fun _ => True) (forked f) :=
  fun _ hs => ⟨hs, fun _ _ => rfl, fun _ _ => trivial⟩

theorem Keeps.inWorker {n s : ℕ} (w : Workers n) (task : Fin n → M α β) (i : Fin n) :
    Keeps s (fun _ => True) (inWorker w task i) := Keeps.forked _

end HubToolbox.Heap
