import Verif.Relations.Robust
import Verif.MPEmp.Props
import Verif.SNN.Props
import Verif.Hubness.Props

/-!
# Measurement errors and counting methods

C304-C306: if every distance is known up to a factor `q`, empirical Mutual Proximity, shared nearest neighbours and k-occurrences of the measured
distances differ from those of the true distances by at most the share of the objects whose position is doubtful, i.e. whose distance is within a factor
`q²` of the distance it is compared with. No gaps between the distances are needed.
-/

set_option autoImplicit false

namespace HubToolbox.Spec

/-- Objects whose distance to `i` cannot be told from the distance of `i` and `j`. -/
def doubtful (q : ℝ) {n : ℕ} (x : Fin n → Fin n → ℝ) (i j a : Fin n) : Prop := x i j ≤ q ^ 2 * x i a ∧ x i a ≤ q ^ 2 * x i j

/-- Objects which may be among the neighbours of `i` within a radius `r`. -/
noncomputable def candidates (q : ℝ) {n : ℕ} (x : Fin n → Fin n → ℝ) (i : Fin n) (r : ℝ) : Finset (Fin n) :=
  (Finset.univ.erase i).filter fun a => x i a ≤ q ^ 2 * r

end HubToolbox.Spec

namespace HubToolbox.Relations

open HubToolbox

section
variable {n : ℕ} {x y : Fin n → Fin n → ℝ} {q : ℝ}

/-- Comparisons which differ concern doubtful objects. -/
theorem doubtful_of_lt (hq : 1 ≤ q) (h : Spec.UpTo q x y) (hx0 : ∀ i j, i ≠ j → 0 < x i j) {i j a : Fin n} (hj : j ≠ i) (ha : a ≠ i)
    (hd : ¬ (x i j < x i a ↔ y i j < y i a)) : Spec.doubtful q x i j a := by
  have hq0 : 0 ≤ q := by linarith
  have hone : ∀ s : ℝ, 0 < s → s ≤ q ^ 2 * s := fun s hs => le_mul_of_one_le_left hs.le (one_le_pow₀ hq)
  have far : ∀ a b, a ≠ i → b ≠ i → y i a ≤ y i b → x i a ≤ q ^ 2 * x i b := fun a b ha hb hle =>
    calc x i a ≤ q * y i a := (h i a ha.symm).1
      _ ≤ q * y i b := mul_le_mul_of_nonneg_left hle hq0
      _ ≤ q * (q * x i b) := mul_le_mul_of_nonneg_left (h i b hb.symm).2 hq0
      _ = q ^ 2 * x i b := by ring
  by_cases h1 : x i j < x i a
  · have h2 : y i a ≤ y i j := not_lt.1 fun h2 => hd (iff_of_true h1 h2)
    exact ⟨h1.le.trans (hone _ (hx0 i a ha.symm)), far a j ha hj h2⟩
  · have h2 : y i j < y i a := by
      by_contra h2
      exact hd (iff_of_false h1 h2)
    exact ⟨far j a hj ha h2.le, (not_lt.1 h1).trans (hone _ (hx0 i j hj.symm))⟩

end

/-- Sets which differ on `B` only. -/
theorem card_diff {ι : Type} [DecidableEq ι] {A A' B : Finset ι} (h1 : A \ A' ⊆ B) (h2 : A' \ A ⊆ B) : |(A'.card : ℝ) - A.card| ≤ B.card := by
  have e1 := Finset.card_le_card_sdiff_add_card (s := A) (t := A')
  have e2 := Finset.card_le_card_sdiff_add_card (s := A') (t := A)
  have f1 := Finset.card_le_card h1
  have f2 := Finset.card_le_card h2
  rw [abs_le]
  have g1 : (A.card : ℝ) ≤ B.card + A'.card := by exact_mod_cast (by omega : A.card ≤ B.card + A'.card)
  have g2 : (A'.card : ℝ) ≤ B.card + A.card := by exact_mod_cast (by omega : A'.card ≤ B.card + A.card)
  constructor <;> linarith

open Classical in
/-- **C304.** -/
theorem C304 (order order' : MPEmp.Order ℝ) {n : ℕ} (x y : Fin n → Fin n → ℝ) (q : ℝ) (hq : 1 ≤ q) (hxy : Spec.UpTo q x y)
    (hx : ∀ i j, x i j = x j i) (hy : ∀ i j, y i j = y j i) (hx0 : ∀ i j, i ≠ j → 0 < x i j) (sp sp' : Bool) (minNnz minNnz' : ℤ) :
    ∃ M M' : Fin n → Fin n → ℝ, MPEmp.full order (.obj (.mat sp n n (LS.toXR x))) "distance" none minNnz = .ok (.dense n M) ∧
      MPEmp.full order' (.obj (.mat sp' n n (LS.toXR y))) "distance" none minNnz' = .ok (.dense n M') ∧
      ∀ i j, |M' i j - M i j| ≤
        ((Finset.univ.filter fun a => a ≠ i ∧ a ≠ j ∧ (Spec.doubtful q x i j a ∨ Spec.doubtful q x j i a)).card : ℝ) / n := by
  have hfull : ∀ (order : MPEmp.Order ℝ) (sp : Bool) (z : Fin n → Fin n → ℝ) (c : ℤ),
      MPEmp.full order (.obj (.mat sp n n (LS.toXR z))) "distance" none c = .ok (.dense n (MPEmp.fullDense "distance" (LS.toXR z))) := by
    intro order sp z c
    unfold MPEmp.full
    simp only [dif_pos]
    rfl
  refine ⟨_, _, hfull order sp x minNnz, hfull order' sp' y minNnz', fun i j => ?_⟩
  have hn : (0 : ℝ) < n := by exact_mod_cast i.pos
  rw [(MPEmp.C21_computes_definition order _ sp "distance" none minNnz _ (hfull order sp x minNnz) (fun i j => congrArg XR.fin (hx i j)) i j).1 rfl,
    (MPEmp.C21_computes_definition order' _ sp' "distance" none minNnz' _ (hfull order' sp' y minNnz') (fun i j => congrArg XR.fin (hy i j)) i j).1 rfl]
  unfold Spec.mpDistance
  by_cases hij : i = j
  · rw [if_pos hij, if_pos hij, sub_self, abs_zero]; positivity
  rw [if_neg hij, if_neg hij]
  have key : ∀ a, a ≠ i → a ≠ j → ¬ ((x i j < x i a ∧ x i j < x j a) ↔ (y i j < y i a ∧ y i j < y j a)) →
      Spec.doubtful q x i j a ∨ Spec.doubtful q x j i a := by
    intro a ha hb hne
    by_contra hc
    rw [not_or] at hc
    refine hne (and_congr ?_ ?_)
    · exact not_not.1 fun hd => hc.1 (doubtful_of_lt hq hxy hx0 (Ne.symm hij) ha hd)
    · rw [hx i j, hy i j]
      exact not_not.1 fun hd => hc.2 (doubtful_of_lt hq hxy hx0 hij hb hd)
  have hm : ∀ (z : Fin n → Fin n → ℝ) a, a ∈ Spec.farther (LS.toXR z) i j ↔ a ≠ i ∧ a ≠ j ∧ z i j < z i a ∧ z i j < z j a := by
    intro z a
    unfold Spec.farther
    rw [Finset.mem_filter]
    exact ⟨fun h => h.2, fun h => ⟨Finset.mem_univ a, h⟩⟩
  have hb := card_diff (A := Spec.farther (LS.toXR x) i j) (A' := Spec.farther (LS.toXR y) i j)
    (B := Finset.univ.filter fun a => a ≠ i ∧ a ≠ j ∧ (Spec.doubtful q x i j a ∨ Spec.doubtful q x j i a))
    (fun a ha => by
      rw [Finset.mem_sdiff, hm, hm] at ha
      obtain ⟨⟨h1, h2, h3⟩, h4⟩ := ha
      exact Finset.mem_filter.2 ⟨Finset.mem_univ a, h1, h2, key a h1 h2 fun e => h4 ⟨h1, h2, e.1 h3⟩⟩)
    (fun a ha => by
      rw [Finset.mem_sdiff, hm, hm] at ha
      obtain ⟨⟨h1, h2, h3⟩, h4⟩ := ha
      exact Finset.mem_filter.2 ⟨Finset.mem_univ a, h1, h2, key a h1 h2 fun e => h4 ⟨h1, h2, e.2 h3⟩⟩)
  rw [show (1 - ((Spec.farther (LS.toXR y) i j).card : ℝ) / n) - (1 - ((Spec.farther (LS.toXR x) i j).card : ℝ) / n) =
    -((((Spec.farther (LS.toXR y) i j).card : ℝ) - (Spec.farther (LS.toXR x) i j).card) / n) by ring, abs_neg, abs_div, abs_of_pos hn]
  exact div_le_div_of_nonneg_right hb hn.le

section
variable {n k : ℕ} {x y : Fin n → Fin n → ℝ} {q : ℝ} {i : Fin n} {N N' : Finset (Fin n)} {r : ℝ}

/-- Members of a neighbourhood are within the radius. -/
theorem hood_le (hN : Spec.IsHood (Spec.nearer "distance") (Finset.univ.erase i) (x i) k N) (hr : Spec.IsKthSmallest (Finset.univ.erase i) (x i) k r)
    {a : Fin n} (ha : a ∈ N) : x i a ≤ r := by
  by_contra hlt
  rw [not_le] at hlt
  have hsub : (Finset.univ.erase i).filter (fun j => x i j ≤ r) ⊆ N.erase a := fun b hb => by
    obtain ⟨hb1, hb2⟩ := Finset.mem_filter.1 hb
    refine Finset.mem_erase.2 ⟨fun e => absurd (e ▸ hb2) hlt.not_ge, ?_⟩
    by_contra hbN
    have := hN.best a ha b hb1 hbN
    unfold Spec.nearer at this
    rw [if_neg (by decide)] at this
    linarith
  have h1 := Finset.card_le_card hsub
  rw [Finset.card_erase_of_mem ha, hN.card] at h1
  have h2 := hr.upto
  have h3 : 0 < k := hN.card ▸ Finset.card_pos.2 ⟨a, ha⟩
  omega

/-- What the two neighbourhoods do not share is doubtful. -/
theorem hood_changes (hq : 1 ≤ q) (h : Spec.UpTo q x y) (hx0 : ∀ i j, i ≠ j → 0 < x i j)
    (hN : Spec.IsHood (Spec.nearer "distance") (Finset.univ.erase i) (x i) k N)
    (hN' : Spec.IsHood (Spec.nearer "distance") (Finset.univ.erase i) (y i) k N') (hr : Spec.IsKthSmallest (Finset.univ.erase i) (x i) k r) :
    (N' \ N).card ≤ (Spec.candidates q x i r).card - k ∧ (N \ N').card = (N' \ N).card := by
  have hq0 : 0 ≤ q := by linarith
  have hcard : (N \ N').card = (N' \ N).card := Finset.card_sdiff_comm (hN.card.trans hN'.card.symm)
  have hne : ∀ a ∈ N, a ≠ i := fun a ha => Finset.ne_of_mem_erase (hN.sub ha)
  have hne' : ∀ a ∈ N', a ≠ i := fun a ha => Finset.ne_of_mem_erase (hN'.sub ha)
  have hNc : N ⊆ Spec.candidates q x i r := fun a ha => by
    refine Finset.mem_filter.2 ⟨hN.sub ha, (hood_le hN hr ha).trans (le_mul_of_one_le_left ?_ (one_le_pow₀ hq))⟩
    exact (hx0 i a (hne a ha).symm).le.trans (hood_le hN hr ha)
  have hsub : N' \ N ⊆ Spec.candidates q x i r \ N := by
    intro b hb
    obtain ⟨hb1, hb2⟩ := Finset.mem_sdiff.1 hb
    have : 0 < (N \ N').card := hcard ▸ Finset.card_pos.2 ⟨b, hb⟩
    obtain ⟨a, ha⟩ := Finset.card_pos.1 this
    obtain ⟨ha1, ha2⟩ := Finset.mem_sdiff.1 ha
    have hle : y i b ≤ y i a := by
      have := hN'.best b hb1 a (hN.sub ha1) ha2
      unfold Spec.nearer at this
      rwa [if_neg (by decide)] at this
    refine Finset.mem_sdiff.2 ⟨Finset.mem_filter.2 ⟨hN'.sub hb1, ?_⟩, hb2⟩
    calc x i b ≤ q * y i b := (h i b (hne' b hb1).symm).1
      _ ≤ q * y i a := mul_le_mul_of_nonneg_left hle hq0
      _ ≤ q * (q * x i a) := mul_le_mul_of_nonneg_left (h i a (hne a ha1).symm).2 hq0
      _ = q ^ 2 * x i a := by ring
      _ ≤ q ^ 2 * r := mul_le_mul_of_nonneg_left (hood_le hN hr ha1) (sq_nonneg q)
  refine ⟨(Finset.card_le_card hsub).trans_eq ?_, hcard⟩
  rw [Finset.card_sdiff_of_subset hNc, hN.card]

end

/-- The common part of two sets changes at most as much as the sets. -/
theorem inter_changes {ι : Type} [DecidableEq ι] (A B A' B' : Finset ι) : (A ∩ B).card ≤ (A' ∩ B').card + (A \ A').card + (B \ B').card := by
  have hsub : A ∩ B ⊆ (A' ∩ B') ∪ (A \ A') ∪ (B \ B') := fun c hc => by
    simp only [Finset.mem_union, Finset.mem_inter, Finset.mem_sdiff] at *
    tauto
  refine (Finset.card_le_card hsub).trans ((Finset.card_union_le _ _).trans ?_)
  have := Finset.card_union_le (A' ∩ B') (A \ A')
  omega

/-- **C305.** -/
theorem C305 (w w' : SNN.World ℝ) {n : ℕ} (x y : Fin n → Fin n → ℝ) (q : ℝ) (hq : 1 ≤ q) (hxy : Spec.UpTo q x y)
    (hx0 : ∀ i j, i ≠ j → 0 < x i j) (k : ℕ) (h1 : 1 ≤ k) (hk : k < n) (nJobs nJobs' : ℤ) (r : Fin n → ℝ)
    (hr : ∀ i, Spec.IsKthSmallest (Finset.univ.erase i) (x i) k (r i)) :
    ∃ M M' : Fin n → Fin n → ℝ, SNN.sharedNearestNeighbors w (.mat false n n (LS.toXR x)) k "distance" nJobs = .ok ⟨n, LS.toXR M⟩ ∧
      SNN.sharedNearestNeighbors w' (.mat false n n (LS.toXR y)) k "distance" nJobs' = .ok ⟨n, LS.toXR M'⟩ ∧
      ∀ i j, |M' i j - M i j| ≤
        ((((Spec.candidates q x i (r i)).card - k) + ((Spec.candidates q x j (r j)).card - k) : ℕ) : ℝ) / k := by
  obtain ⟨N, hN, h⟩ := SNN.C34_formula w (LS.toXR x) x (fun _ _ _ => rfl) k h1 hk "distance" (Or.inl rfl) nJobs
  obtain ⟨N', hN', h'⟩ := SNN.C34_formula w' (LS.toXR y) y (fun _ _ _ => rfl) k h1 hk "distance" (Or.inl rfl) nJobs'
  have hk0 : (0 : ℝ) < k := by exact_mod_cast h1
  refine ⟨_, _, h, h', fun i j => ?_⟩
  by_cases hij : i = j
  · simp only [if_pos hij, sub_self, abs_zero]; positivity
  simp only [if_neg hij]
  unfold Spec.snn Spec.commonFraction
  rw [if_neg (by decide), if_neg (by decide)]
  obtain ⟨c1, c2⟩ := hood_changes hq hxy hx0 (hN i) (hN' i) (hr i)
  obtain ⟨d1, d2⟩ := hood_changes hq hxy hx0 (hN j) (hN' j) (hr j)
  have e1 := inter_changes (N i) (N j) (N' i) (N' j)
  have e2 := inter_changes (N' i) (N' j) (N i) (N j)
  set B := ((Spec.candidates q x i (r i)).card - k) + ((Spec.candidates q x j (r j)).card - k)
  have g1 : (((N i) ∩ (N j)).card : ℝ) ≤ ((N' i) ∩ (N' j)).card + B := by exact_mod_cast (by omega : ((N i) ∩ (N j)).card ≤ ((N' i) ∩ (N' j)).card + B)
  have g2 : (((N' i) ∩ (N' j)).card : ℝ) ≤ ((N i) ∩ (N j)).card + B := by exact_mod_cast (by omega : ((N' i) ∩ (N' j)).card ≤ ((N i) ∩ (N j)).card + B)
  rw [show (1 - (((N' i) ∩ (N' j)).card : ℝ) / k) - (1 - (((N i) ∩ (N j)).card : ℝ) / k) =
    ((((N i) ∩ (N j)).card : ℝ) - ((N' i) ∩ (N' j)).card) / k by ring, abs_div, abs_of_pos hk0]
  refine div_le_div_of_nonneg_right ?_ hk0.le
  rw [abs_le]
  constructor <;> linarith

/-- Objects outside a neighbourhood are not nearer than the radius. -/
theorem le_of_not_hood {n k : ℕ} {x : Fin n → Fin n → ℝ} {i : Fin n} {N : Finset (Fin n)} {r : ℝ}
    (hN : Spec.IsHood (Spec.nearer "distance") (Finset.univ.erase i) (x i) k N) (hr : Spec.IsKthSmallest (Finset.univ.erase i) (x i) k r)
    {b : Fin n} (hb : b ≠ i) (hbN : b ∉ N) : r ≤ x i b := by
  by_contra hlt
  rw [not_le] at hlt
  have hsub : N ⊆ (Finset.univ.erase i).filter (fun j => x i j < r) := fun a ha => by
    have := hN.best a ha b (Finset.mem_erase.2 ⟨hb, Finset.mem_univ b⟩) hbN
    unfold Spec.nearer at this
    rw [if_neg (by decide)] at this
    exact Finset.mem_filter.2 ⟨hN.sub ha, this.trans_lt hlt⟩
  have h1 := Finset.card_le_card hsub
  have h2 := hr.below
  rw [hN.card] at h1
  omega

/-- The lists of `hubness` are neighbourhoods. -/
theorem hubness_hood (o : ArgPart (XR ℝ)) (rnd : Hubness.Rnd) (sched : Hubness.Schedule) {n : ℕ} (sparse : Bool) (x : Fin n → Fin n → ℝ) (k : ℕ) (hk : k < n)
    (nJobs : ℤ) (seed shuffle : Bool) (res : Hubness.Res n)
    (h : Hubness.hubnessMat o rnd sched sparse (LS.toXR x) k "distance" nJobs seed shuffle = .ok res) (i : Fin n) :
    ∃ N : Finset (Fin n), (∀ j : Fin n, j.val ∈ res.Dk i ↔ j ∈ N) ∧ Spec.IsHood (Spec.nearer "distance") (Finset.univ.erase i) (x i) k N := by
  have hc : Hubness.Covered nJobs "distance" n n := by simp [Hubness.Covered]
  obtain ⟨L, hL, hknn⟩ := Hubness.C01_hubness_knn o rnd sched sparse (LS.toXR x) k "distance" nJobs seed shuffle hc res h i
  have hmin : (min (k : ℤ) ((n : ℤ) - 1)).toNat = k := by omega
  rw [hmin] at hknn
  have hself := Hubness.C02_no_self_neighbour o rnd sched sparse (LS.toXR x) k "distance" nJobs seed shuffle res h i (by
    have e : Finset.univ.filter (fun j => j ≠ i ∧ (LS.toXR x i j).isFinite = true) = Finset.univ.erase i := by
      ext j; simp [LS.toXR, XR.isFinite]
    rw [e, Finset.card_erase_of_mem (Finset.mem_univ i), Finset.card_univ, Fintype.card_fin]
    omega)
  have hmem : ∀ j : Fin n, j.val ∈ res.Dk i ↔ j ∈ L.toFinset := fun j => by
    rw [hL, List.mem_toFinset, List.mem_map]
    exact ⟨fun ⟨a, ha, e⟩ => Fin.ext e ▸ ha, fun hj => ⟨j, hj, rfl⟩⟩
  have hi : i ∉ L := fun hc => hself ((hmem i).2 (List.mem_toFinset.2 hc))
  refine ⟨L.toFinset, hmem, ?_, ?_, ?_⟩
  · exact fun a ha => Finset.mem_erase.2 ⟨fun e => hi (e ▸ List.mem_toFinset.1 ha), Finset.mem_univ a⟩
  · rw [List.toFinset_card_of_nodup hknn.distinct, hknn.length]
  · intro a ha b hb hbL
    rw [List.mem_toFinset] at ha hbL
    have hai : i.val ≠ a.val := fun e => hi (Fin.ext e ▸ ha)
    have hbi : i.val ≠ b.val := fun e => Finset.ne_of_mem_erase hb (Fin.ext e).symm
    have := hknn.best a ha b hbL
    unfold Spec.closer Spec.effective at this
    simp only [LS.toXR, XR.isFinite, hai, hbi, ne_eq, not_true_eq_false, false_and, and_false, or_self, Bool.true_eq_false, if_true, if_false] at this
    unfold Spec.nearer
    rw [if_neg (by decide)]
    exact this

open Classical in
/-- **C306.** -/
theorem C306 (o o' : ArgPart (XR ℝ)) (rnd rnd' : Hubness.Rnd) (sched sched' : Hubness.Schedule) {n : ℕ} (sparse sparse' : Bool) (x y : Fin n → Fin n → ℝ)
    (q : ℝ) (hq : 1 ≤ q) (hxy : Spec.UpTo q x y) (hx0 : ∀ i j, i ≠ j → 0 < x i j) (k : ℕ) (h1 : 1 ≤ k) (hk : k < n) (nJobs nJobs' : ℤ)
    (hj : nJobs = -1 ∨ 1 ≤ nJobs) (hj' : nJobs' = -1 ∨ 1 ≤ nJobs') (shuffle shuffle' : Bool) (r : Fin n → ℝ)
    (hr : ∀ i, Spec.IsKthSmallest (Finset.univ.erase i) (x i) k (r i)) :
    ∃ res res' : Hubness.Res n, Hubness.hubnessMat o rnd sched sparse (LS.toXR x) k "distance" nJobs false shuffle = .ok res ∧
      Hubness.hubnessMat o' rnd' sched' sparse' (LS.toXR y) k "distance" nJobs' false shuffle' = .ok res' ∧
      res.Nk.length = n ∧ res'.Nk.length = n ∧
      ∀ (j : Fin n) (a b : ℕ), res.Nk[j.val]? = some a → res'.Nk[j.val]? = some b → |(b : ℝ) - a| ≤
        ((Finset.univ.filter fun i => i ≠ j ∧ k < (Spec.candidates q x i (r i)).card ∧ r i ≤ q ^ 2 * x i j ∧ x i j ≤ q ^ 2 * r i).card : ℝ) := by
  have hq0 : 0 ≤ q := by linarith
  have hc : ∀ j, Hubness.Covered j "distance" n n := fun j => by simp [Hubness.Covered]
  obtain ⟨res, h⟩ := (Hubness.C01_hubness_succeeds_iff o rnd sched sparse (LS.toXR x) k "distance" nJobs false shuffle (hc _)).2
    ⟨Or.inl rfl, by omega, by omega, Or.inr ⟨rfl, hj⟩⟩
  obtain ⟨res', h'⟩ := (Hubness.C01_hubness_succeeds_iff o' rnd' sched' sparse' (LS.toXR y) k "distance" nJobs' false shuffle' (hc _)).2
    ⟨Or.inl rfl, by omega, by omega, Or.inr ⟨rfl, hj'⟩⟩
  obtain ⟨l, hN, -⟩ := Hubness.C03_k_occurrence o rnd sched sparse (LS.toXR x) k "distance" nJobs false shuffle (hc _) res h
  obtain ⟨l', hN', -⟩ := Hubness.C03_k_occurrence o' rnd' sched' sparse' (LS.toXR y) k "distance" nJobs' false shuffle' (hc _) res' h'
  refine ⟨res, res', h, h', l, l', fun j a b ha hb => ?_⟩
  obtain ⟨hja, rfl⟩ := List.getElem?_eq_some_iff.1 ha
  obtain ⟨hjb, rfl⟩ := List.getElem?_eq_some_iff.1 hb
  rw [(hN j hja).1, (hN' j hjb).1]
  unfold Spec.occurrences
  choose N hm hood using hubness_hood o rnd sched sparse x k hk nJobs false shuffle res h
  choose N' hm' hood' using hubness_hood o' rnd' sched' sparse' y k hk nJobs' false shuffle' res' h'
  simp only [hm, hm']
  have hcand : ∀ i, (N' i \ N i).Nonempty → k < (Spec.candidates q x i (r i)).card := fun i hne => by
    have := (hood_changes hq hxy hx0 (hood i) (hood' i) (hr i)).1
    have := Finset.card_pos.2 hne
    omega
  have hcomm : ∀ i, (N i \ N' i).card = (N' i \ N i).card := fun i => (hood_changes hq hxy hx0 (hood i) (hood' i) (hr i)).2
  have hbest : ∀ i, ∀ b ∈ N' i \ N i, ∀ a ∈ N i \ N' i, x i b ≤ q ^ 2 * x i a := fun i b hb a ha => by
    obtain ⟨hb1, hb2⟩ := Finset.mem_sdiff.1 hb
    obtain ⟨ha1, ha2⟩ := Finset.mem_sdiff.1 ha
    have hle : y i b ≤ y i a := by
      have := (hood' i).best b hb1 a ((hood i).sub ha1) ha2
      unfold Spec.nearer at this
      rwa [if_neg (by decide)] at this
    calc x i b ≤ q * y i b := (hxy i b (Finset.ne_of_mem_erase ((hood' i).sub hb1)).symm).1
      _ ≤ q * y i a := mul_le_mul_of_nonneg_left hle hq0
      _ ≤ q * (q * x i a) := mul_le_mul_of_nonneg_left (hxy i a (Finset.ne_of_mem_erase ((hood i).sub ha1)).symm).2 hq0
      _ = q ^ 2 * x i a := by ring
  have hone : ∀ s : ℝ, 0 < s → s ≤ q ^ 2 * s := fun s hs => le_mul_of_one_le_left hs.le (one_le_pow₀ hq)
  refine card_diff (fun i hi => ?_) (fun i hi => ?_)
  · obtain ⟨h2, h3⟩ := Finset.mem_sdiff.1 hi
    have h2 := (Finset.mem_filter.1 h2).2
    have h3 : j ∉ N' i := fun hc => h3 (Finset.mem_filter.2 ⟨Finset.mem_univ i, hc⟩)
    have hji : j ≠ i := Finset.ne_of_mem_erase ((hood i).sub h2)
    have hmem : j ∈ N i \ N' i := Finset.mem_sdiff.2 ⟨h2, h3⟩
    have hne : (N' i \ N i).Nonempty := Finset.card_pos.1 (hcomm i ▸ Finset.card_pos.2 ⟨j, hmem⟩)
    obtain ⟨b, hb⟩ := hne
    obtain ⟨hb1, hb2⟩ := Finset.mem_sdiff.1 hb
    have hle := hood_le (hood i) (hr i) h2
    have hpos := hx0 i j hji.symm
    exact Finset.mem_filter.2 ⟨Finset.mem_univ i, hji.symm, hcand i ⟨b, hb⟩,
      (le_of_not_hood (hood i) (hr i) (Finset.ne_of_mem_erase ((hood' i).sub hb1)) hb2).trans (hbest i b hb j hmem), hle.trans (hone _ (hpos.trans_le hle))⟩
  · obtain ⟨h2, h3⟩ := Finset.mem_sdiff.1 hi
    have h2 := (Finset.mem_filter.1 h2).2
    have h3 : j ∉ N i := fun hc => h3 (Finset.mem_filter.2 ⟨Finset.mem_univ i, hc⟩)
    have hji : j ≠ i := Finset.ne_of_mem_erase ((hood' i).sub h2)
    have hmem : j ∈ N' i \ N i := Finset.mem_sdiff.2 ⟨h2, h3⟩
    have hne : (N i \ N' i).Nonempty := Finset.card_pos.1 ((hcomm i).symm ▸ Finset.card_pos.2 ⟨j, hmem⟩)
    obtain ⟨a, ha⟩ := hne
    have hpos := hx0 i j hji.symm
    exact Finset.mem_filter.2 ⟨Finset.mem_univ i, hji.symm, hcand i ⟨j, hmem⟩, (le_of_not_hood (hood i) (hr i) hji h3).trans (hone _ hpos),
      (hbest i j hmem a ha).trans (mul_le_mul_of_nonneg_left (hood_le (hood i) (hr i) (Finset.mem_sdiff.1 ha).1) (sq_nonneg q))⟩

/-! ### Instances -/

open Classical in
/-- Errors of one percent leave no doubt about `line3`: Mutual Proximity does not change at all. -/
example (order order' : MPEmp.Order ℝ) : ∃ M : Fin 3 → Fin 3 → ℝ,
    MPEmp.full order (.obj (.mat false 3 3 (LS.toXR LS.line3))) "distance" none 0 = .ok (.dense 3 M) ∧
    MPEmp.full order' (.obj (.mat false 3 3 (LS.toXR measured3))) "distance" none 0 = .ok (.dense 3 M) := by
  obtain ⟨M, M', h1, h2, h3⟩ := C304 order order' LS.line3 measured3 (101 / 100) (by norm_num) measured3_upTo LS.line3_symm measured3_symm line3_off_pos
    false false 0 0
  have e : M' = M := by
    funext i j
    have h := h3 i j
    rw [Finset.filter_eq_empty_iff.2 (fun a _ ⟨ha, hb, hd⟩ => by
      unfold Spec.doubtful at hd
      fin_cases i <;> fin_cases j <;> fin_cases a <;> first | exact absurd rfl ha | exact absurd rfl hb | (norm_num [LS.line3] at hd)),
      Finset.card_empty, Nat.cast_zero, zero_div] at h
    exact sub_eq_zero.1 (abs_nonpos_iff.1 h)
  exact ⟨M, h1, e ▸ h2⟩

theorem line3_radius (i : Fin 3) : Spec.IsKthSmallest (Finset.univ.erase i) (LS.line3 i) 1 ((![1, 1, 2] : Fin 3 → ℝ) i) := by
  refine LS.kthSmallest_one ((![1, 0, 1] : Fin 3 → Fin 3) i) (by fin_cases i <;> decide) (by fin_cases i <;> norm_num [LS.line3]) fun l hl => ?_
  have := Finset.ne_of_mem_erase hl
  fin_cases i <;> fin_cases l <;> first | exact absurd rfl this | norm_num [LS.line3]

example (w w' : SNN.World ℝ) (nJobs : ℤ) := C305 w w' LS.line3 measured3 (101 / 100) (by norm_num) measured3_upTo line3_off_pos 1 le_rfl (by norm_num) nJobs
  nJobs _ line3_radius

example (o o' : ArgPart (XR ℝ)) (rnd rnd' : Hubness.Rnd) (sched sched' : Hubness.Schedule) := C306 o o' rnd rnd' sched sched' false false LS.line3 measured3
  (101 / 100) (by norm_num) measured3_upTo line3_off_pos 1 le_rfl (by norm_num) 1 4 (Or.inr le_rfl) (Or.inr (by norm_num)) true true _ line3_radius

/-- No object but the nearest neighbour is a candidate. -/
example (i : Fin 3) : (Spec.candidates (101 / 100) LS.line3 i ((![1, 1, 2] : Fin 3 → ℝ) i)).card = 1 := by
  rw [Finset.card_eq_one]
  refine ⟨(![1, 0, 1] : Fin 3 → Fin 3) i, ?_⟩
  ext a
  unfold Spec.candidates
  rw [Finset.mem_filter, Finset.mem_erase, Finset.mem_singleton]
  fin_cases i <;> fin_cases a <;> norm_num [LS.line3]

end HubToolbox.Relations
