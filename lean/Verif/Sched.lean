import Verif.Base
import Mathlib.Data.List.Perm.Basic
import Mathlib.Data.List.Nodup

/-!
# Worker processes writing to a shared array

A worker pool is modelled by the list of all individual cell writes the tasks perform; a schedule is any
permutation of that list (this includes every real interleaving of the workers).
-/

set_option autoImplicit false

namespace HubToolbox.Sched

variable {A V : Type*} [DecidableEq A]

/-- Perform cell writes one after the other on a shared memory. -/
def exec (mem : A → V) (ws : List (A × V)) : A → V :=
  ws.foldl (fun mem w => Function.update mem w.1 w.2) mem

theorem exec_of_notMem (ws : List (A × V)) (mem : A → V) (a : A) (h : a ∉ ws.map Prod.fst) :
    exec mem ws a = mem a := by
  induction ws generalizing mem with
  | nil => rfl
  | cons w ws ih =>
    simp only [List.map_cons, List.mem_cons, not_or] at h
    change exec (Function.update mem w.1 w.2) ws a = _
    rw [ih _ h.2, Function.update_of_ne h.1]

theorem exec_of_mem (ws : List (A × V)) (mem : A → V) (a : A) (v : V)
    (hnd : (ws.map Prod.fst).Nodup) (h : (a, v) ∈ ws) : exec mem ws a = v := by
  induction ws generalizing mem with
  | nil => simp at h
  | cons w ws ih =>
    simp only [List.map_cons, List.nodup_cons] at hnd
    change exec (Function.update mem w.1 w.2) ws a = _
    rcases List.mem_cons.1 h with rfl | h
    · rw [exec_of_notMem _ _ _ hnd.1, Function.update_self]
    · exact ih _ hnd.2 h

/-- The final memory does not depend on the schedule when all writes go to different cells. -/
theorem exec_perm {ws ws' : List (A × V)} (mem : A → V) (hnd : (ws.map Prod.fst).Nodup)
    (h : ws.Perm ws') : exec mem ws = exec mem ws' := by
  have hnd' : (ws'.map Prod.fst).Nodup := (h.map Prod.fst).nodup_iff.1 hnd
  funext a
  by_cases ha : a ∈ ws.map Prod.fst
  · obtain ⟨⟨b, v⟩, hw, rfl⟩ := List.mem_map.1 ha
    rw [exec_of_mem ws mem b v hnd hw, exec_of_mem ws' mem b v hnd' (h.mem_iff.1 hw)]
  · rw [exec_of_notMem _ _ _ ha, exec_of_notMem _ _ _ (fun hc => ha ((h.map Prod.fst).mem_iff.2 hc))]

end HubToolbox.Sched
