import Verif.Approx.LocalDsl
import Verif.Approx.LocalHnsw
import Verif.LS.Props

/-!
# Agreement of the scalable and the ordinary local scaling
-/

set_option autoImplicit false

namespace HubToolbox.Approx

open HubToolbox

theorem kth_map {ι κ : Type} (e : ι ↪ κ) (S : Finset ι) (f : κ → ℝ) (k : ℕ) (ρ : ℝ)
    (h : Spec.IsKthSmallest (S.map e) f k ρ) : Spec.IsKthSmallest S (fun i => f (e i)) k ρ := by
  obtain ⟨⟨j, hj, hv⟩, h1, h2⟩ := h
  obtain ⟨i, hi, rfl⟩ := Finset.mem_map.1 hj
  rw [Finset.filter_map, Finset.card_map] at h1 h2
  exact ⟨⟨i, hi, hv⟩, h1, h2⟩

/-- The positions of the test objects when they are appended to `n` training objects. -/
def testPositions (n t : ℕ) : List ℤ := (List.range t).map (fun m => ((n + m : ℕ) : ℤ))

theorem training_append (n t : ℕ) (j : Fin (n + t)) :
    j ∈ Spec.training (n + t) (some (testPositions n t)) ↔ j.val < n := by
  unfold Spec.training testPositions
  simp only [Finset.mem_filter, Finset.mem_univ, true_and, Option.some.injEq, forall_eq', List.mem_map, List.mem_range]
  constructor
  · intro h
    by_contra hc
    exact h ⟨j.val - n, by omega, by rw [show n + (j.val - n) = j.val by omega]⟩
  · rintro h ⟨m, _, hm⟩
    have : n + m = j.val := by exact_mod_cast hm
    omega

/-- C134: without sampling, local scaling in `SuQHR` gives the same values as `local_scaling` for the distances between all
objects, with the test objects held out. -/
theorem C134_agrees {P : Type} (w : World ℝ) (wL : LS.World) (o : ArgPart (XR ℝ)) (dist : String → P → P → ℝ)
    (metric : String) (hm : VMetric metric) (h0 : ∀ p q, 0 ≤ dist metric p q) (hself : ∀ p, dist metric p p = 0)
    (hsym : ∀ p q, dist metric p q = dist metric q p) (nSamples k : ℕ) (hk : 0 < k) {n t : ℕ} (hn : k < n)
    (X : Fin n → P) (T : Fin t → P) (nJobs : ℤ) (hj : nJobs = -1 ∨ 1 ≤ nJobs)
    (hpos : ∀ a ρ, Spec.IsKthSmallest ((Spec.training (n + t) (some (testPositions n t))).erase a)
      (fun b => dist metric (Fin.append X T a) (Fin.append X T b)) k ρ → 0 < ρ) :
    ∃ out M, suqhrLS w o dist metric .all nSamples false k X T = .ok out ∧
      LS.localScaling wL (.mat false (n + t) (n + t)
        (LS.toXR fun a b => dist metric (Fin.append X T a) (Fin.append X T b))) k "distance"
        (some (testPositions n t)) nJobs = .ok ⟨n + t, M⟩ ∧
      ∀ i b, out.dist i b = M (Fin.natAdd n i) (Fin.castAdd t (out.ind.get b)) := by
  set x : Fin (n + t) → Fin (n + t) → ℝ := fun a b => dist metric (Fin.append X T a) (Fin.append X T b) with hx
  have hcard : ∀ a, k ≤ ((Spec.training (n + t) (some (testPositions n t))).erase a).card := by
    intro a
    have hmap : (Finset.univ : Finset (Fin n)).map (Fin.castAddEmb t) ⊆
        Spec.training (n + t) (some (testPositions n t)) := by
      intro b hb
      obtain ⟨c, _, rfl⟩ := Finset.mem_map.1 hb
      rw [training_append]
      exact c.isLt
    have h1 := Finset.card_le_card hmap
    rw [Finset.card_map, Finset.card_univ, Fintype.card_fin] at h1
    have := Finset.pred_card_le_card_erase (s := Spec.training (n + t) (some (testPositions n t))) (a := a)
    omega
  obtain ⟨r, hr⟩ := LS.C28_radii_exist x k hk (some (testPositions n t)) hcard
  obtain ⟨out, ho, he, hd⟩ := C130_formula w o dist metric h0 hself .all nSamples k hk X T (List.finRange n) rfl hm
    (by rw [List.length_finRange]; exact hn)
  refine ⟨out, _, ho, LS.C28_formula wL x (fun _ _ => hsym _ _) k hk _ nJobs hj r hr (fun a => hpos a _ (hr a))
    (by omega), fun i b => ?_⟩
  have hne : Fin.natAdd n i ≠ Fin.castAdd t (out.ind.get b) := by
    intro hc
    have := congrArg Fin.val hc
    have hb := (out.ind.get b).isLt
    simp only [Fin.val_natAdd, Fin.val_castAdd] at this
    omega
  simp only [hne, if_false]
  let e : Fin out.ind.length ↪ Fin (n + t) := ⟨fun c => Fin.castAdd t (out.ind.get c), by
    intro a c hac
    have h1 : out.ind.get a = out.ind.get c := Fin.castAdd_injective n t hac
    have hnd : out.ind.Nodup := by rw [he]; exact List.nodup_finRange n
    exact List.nodup_iff_injective_get.1 hnd h1⟩
  have hmem : ∀ a : Fin (n + t), a.val < n → ∃ c, e c = a := by
    intro a ha
    have : (⟨a.val, ha⟩ : Fin n) ∈ out.ind := by rw [he]; exact List.mem_finRange _
    obtain ⟨c, hc⟩ := List.get_of_mem this
    exact ⟨c, Fin.ext (by show (out.ind.get c).val = a.val; rw [hc])⟩
  have hel : ∀ c, (e c).val < n := fun c => (out.ind.get c).isLt
  have s1 : (Spec.training (n + t) (some (testPositions n t))).erase (Fin.natAdd n i) = Finset.univ.map e := by
    ext a
    rw [Finset.mem_erase, training_append, Finset.mem_map]
    constructor
    · rintro ⟨_, h⟩
      obtain ⟨c, hc⟩ := hmem a h
      exact ⟨c, Finset.mem_univ _, hc⟩
    · rintro ⟨c, _, rfl⟩
      refine ⟨fun hc => ?_, hel c⟩
      have h1 := hel c
      rw [hc, Fin.val_natAdd] at h1
      omega
  have s2 : (Spec.training (n + t) (some (testPositions n t))).erase (e b) = (Finset.univ.erase b).map e := by
    ext a
    rw [Finset.mem_erase, training_append, Finset.mem_map]
    constructor
    · rintro ⟨hne, h⟩
      obtain ⟨c, rfl⟩ := hmem a h
      exact ⟨c, Finset.mem_erase.2 ⟨fun hc => hne (by rw [hc]), Finset.mem_univ _⟩, rfl⟩
    · rintro ⟨c, hc, rfl⟩
      exact ⟨fun h => (Finset.mem_erase.1 hc).1 (e.injective h), hel c⟩
  have r1 := hr (Fin.natAdd n i)
  have r2 := hr (e b)
  have p1 := hpos _ _ r1
  have p2 := hpos _ _ r2
  rw [s1] at r1
  rw [s2] at r2
  have q1 := kth_map e _ _ _ _ r1
  have q2 := kth_map e _ _ _ _ r2
  have a1 : ∀ c, Fin.append X T (e c) = X (out.ind.get c) := fun c => Fin.append_left X T _
  have a2 : Fin.append X T (Fin.natAdd n i) = T i := Fin.append_right X T i
  simp only [hx, a1, a2] at q1 q2
  rw [hd i b _ _ q1 q2 p1 p2]
  congr 2
  · show _ = dist metric (Fin.append X T (Fin.natAdd n i)) (Fin.append X T (e b))
    rw [a1, a2]

end HubToolbox.Approx
