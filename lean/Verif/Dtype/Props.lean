import Verif.Dtype.Model
import Verif.MPEmp.Lemmas
import Verif.SNN.Lemmas
import Verif.LS.Lemmas
import Verif.Hubness.Lemmas
import Mathlib.Data.Rat.Floor

/-!
# The element type of the matrix

C200: a matrix of integers or of truth values gives the results of the same numbers as floats, or an exception.
Integers: always an exception. Truth values: silently other results.
-/

set_option autoImplicit false

namespace HubToolbox.Dtype

open HubToolbox

section
variable {K : Type} [Field K] [LinearOrder K] [FloorRing K]

/-! ### Floats: this is the model used elsewhere -/

theorem mpEmpiric_float {n : ℕ} (metric : String) (D : Fin n → Fin n → XR K) :
    mpEmpiric .float metric D = .ok (fun i j => .fin (MPEmp.fullDense metric D i j)) := by
  have key : (fun i j => (.fin (MPEmp.fullDense metric D i j) : XR K)) =
      Np.fillDiagonal (fun i j => XR.add
        (((List.finRange n).take (n - 1)).foldl (fun (M : Fin n → Fin n → XR K) (i : Fin n) =>
          Np.setRowFrom M i (i.val + 1) (fun j => .fin (MPEmp.entry metric
            (Np.fillDiagonal D (MPEmp.excludeValue metric) i) (Np.fillDiagonal D (MPEmp.excludeValue metric) j)
            (Np.fillDiagonal D (MPEmp.excludeValue metric) j i)))) (fun _ _ => .fin 0) i j)
        (((List.finRange n).take (n - 1)).foldl (fun (M : Fin n → Fin n → XR K) (i : Fin n) =>
          Np.setRowFrom M i (i.val + 1) (fun j => .fin (MPEmp.entry metric
            (Np.fillDiagonal D (MPEmp.excludeValue metric) i) (Np.fillDiagonal D (MPEmp.excludeValue metric) j)
            (Np.fillDiagonal D (MPEmp.excludeValue metric) j i)))) (fun _ _ => .fin 0) j i))
        (.fin (MPEmp.selfValue metric)) := by
    funext i j
    unfold MPEmp.fullDense
    simp only [Np.fillDiagonal, Np.addT]
    rw [MPEmp.foldl_setRowFrom _ (fun i => i.val + 1), MPEmp.foldl_setRowFrom _ (fun i => i.val + 1),
      MPEmp.foldl_setRowFrom _ (fun i => i.val + 1), MPEmp.foldl_setRowFrom _ (fun i => i.val + 1)]
    split_ifs <;> simp [XR.add]
  rw [key]
  rfl

theorem snn_float (w : SNN.World K) {n : ℕ} (D : Fin n → Fin n → XR K) (k : ℤ) (metric : String) :
    snn .float w.part D k metric = SNN.core w D k metric 1 := by
  unfold snn SNN.core
  have hj : ¬ SNN.jobs w 1 > 1 := by unfold SNN.jobs; norm_num
  simp only [hj, if_false]
  rfl

theorem hubness_float (o : ArgPart (XR K)) (rnd : Hubness.Rnd) {n : ℕ} (D : Fin n → Fin n → XR K) (k : ℤ)
    (metric : String) (shuffle : Bool) :
    hubness .float o rnd D k metric shuffle = Hubness.serial o rnd false D k metric shuffle := rfl

theorem localScaling_float (w : LS.World) {n : ℕ} (D : Fin n → Fin n → XR ℝ) (k : ℤ) (metric : String)
    (test : Option (List ℤ)) :
    localScaling .float w.part D k metric test = LS.core w D k metric test 1 := by
  unfold localScaling LS.core
  have hj : LS.jobs w 1 = 1 := by unfold LS.jobs; norm_num
  simp only [hj, if_true, lt_irrefl, gt_iff_lt, if_false]
  rfl

/-! ### Integers -/

/-- C200, integers: every one of the functions raises. (The stored self distance `inf` is no integer.) -/
theorem C200_integer_partial {n : ℕ} (metric : String) (hm : metric = "distance" ∨ metric = "similarity")
    (D : Fin n → Fin n → XR K) (Dr : Fin n → Fin n → XR ℝ) (o : ArgPart (XR K)) (or : ArgPart (XR ℝ))
    (rnd : Hubness.Rnd) (k : ℤ) (shuffle : Bool) (test : Option (List ℤ)) :
    mpEmpiric .int metric D = .error .overflowError ∧
      snn .int o D k metric = .error .overflowError ∧
      localScaling .int or Dr k metric test = .error .overflowError ∧
      (0 < n → 0 ≤ k → hubness .int o rnd D k metric shuffle = .error .overflowError) := by
  refine ⟨?_, ?_, ?_, fun hn hk => ?_⟩
  · rcases hm with rfl | rfl <;> rfl
  · rcases hm with rfl | rfl <;> rfl
  · rcases hm with rfl | rfl <;> rfl
  · have hk' : ¬ Hubness.reduceK k n < 0 := by unfold Hubness.reduceK; split_ifs <;> omega
    unfold hubness
    rw [Hubness.checkValidMetric_ok hm]
    simp only [hk', if_false]
    rcases hm with rfl | rfl <;> rfl

/-! ### Truth values -/

theorem truth_range (v : XR K) : truth v = .fin 0 ∨ truth v = .fin 1 := by
  unfold truth; split_ifs <;> simp

theorem fill_bool {n : ℕ} (M : Fin n → Fin n → XR K) (v : XR K) (R : Fin n → Fin n → XR K)
    (h : fillDiagonal .bool (fun i j => Dt.add .bool (M i j) (M j i)) v = .ok R) (i j : Fin n) :
    R i j = .fin 0 ∨ R i j = .fin 1 := by
  have hR : R = Np.fillDiagonal (fun i j => Dt.add .bool (M i j) (M j i)) (truth v) := (Except.ok.inj h).symm
  rw [hR]
  unfold Np.fillDiagonal Dt.add
  by_cases h1 : i.val = j.val
  · simpa [h1] using truth_range v
  · by_cases h2 : M i j = .fin 0 ∧ M j i = .fin 0 <;> simp [h1, h2]

theorem bind_eq_ok {α β : Type} {a : Py α} {f : α → Py β} {b : β} (h : (a >>= f) = .ok b) :
    ∃ x, a = .ok x ∧ f x = .ok b := by
  cases a with
  | error e => exact absurd h (by intro h; cases h)
  | ok x => exact ⟨x, rfl, h⟩

/-- C200, truth values: all secondary distances are 0 or 1 … -/
theorem C200_bool_values {n : ℕ} (metric : String) (D : Fin n → Fin n → XR K) (Dr : Fin n → Fin n → XR ℝ)
    (o : ArgPart (XR K)) (or : ArgPart (XR ℝ)) (k : ℤ) (test : Option (List ℤ)) :
    (∀ R, mpEmpiric .bool metric D = .ok R → ∀ i j, R i j = .fin 0 ∨ R i j = .fin 1) ∧
      (∀ R, snn .bool o D k metric = .ok R → ∀ i j, R i j = .fin 0 ∨ R i j = .fin 1) ∧
      (∀ R, localScaling .bool or Dr k metric test = .ok R → ∀ i j, R i j = .fin 0 ∨ R i j = .fin 1) := by
  refine ⟨fun R h => ?_, fun R h => ?_, fun R h => ?_⟩
  · exact fill_bool _ _ R h
  · unfold snn at h
    obtain ⟨D', _, h⟩ := bind_eq_ok h
    obtain ⟨sel, _, h⟩ := bind_eq_ok h
    exact fill_bool _ _ R h
  · unfold localScaling at h
    obtain ⟨D', _, h⟩ := bind_eq_ok h
    obtain ⟨sel, _, h⟩ := bind_eq_ok h
    exact fill_bool _ _ R h

/-- … so wherever the matrix of the same numbers as floats yields anything else, the answer is wrong and there is no
exception. -/
theorem C200_bool_violated_general {n : ℕ} (metric : String) (D : Fin n → Fin n → XR K) (i j : Fin n)
    (h0 : MPEmp.fullDense metric D i j ≠ 0) (h1 : MPEmp.fullDense metric D i j ≠ 1) :
    ∃ F R, mpEmpiric .float metric D = .ok F ∧ mpEmpiric .bool metric D = .ok R ∧ R i j ≠ F i j := by
  have hR : ∃ R, mpEmpiric .bool metric D = .ok R := ⟨_, rfl⟩
  obtain ⟨R, hR⟩ := hR
  refine ⟨_, R, mpEmpiric_float metric D, hR, ?_⟩
  rcases (C200_bool_values metric D (fun _ _ => .nan) (ArgPart.ofSort _) (ArgPart.ofSort _) 0 none).1 R hR i j
    with h | h
  · rw [h]; intro e; exact h0 (XR.fin.inj e).symm
  · rw [h]; intro e; exact h1 (XR.fin.inj e).symm

/-- Mutual Proximity of a boolean distance matrix carries no information: any two different objects have distance
`True`. -/
theorem C200_bool_mp [IsStrictOrderedRing K] {n : ℕ} (D : Fin n → Fin n → XR K) :
    ∃ R, mpEmpiric .bool "distance" D = .ok R ∧ ∀ i j, R i j = if i = j then .fin 0 else .fin 1 := by
  refine ⟨_, rfl, fun i j => ?_⟩
  have hent : ∀ a b : Fin n, a ≠ b → truth (.fin (MPEmp.entry "distance"
      (Np.fillDiagonal D (truth (.ninf : XR K)) a) (Np.fillDiagonal D (truth (.ninf : XR K)) b)
      (Np.fillDiagonal D (truth (.ninf : XR K)) b a)) : XR K) = .fin 1 := by
    intro a b hab
    unfold truth
    rw [if_neg]
    intro h
    have h := XR.fin.inj h
    rw [MPEmp.entry_distance] at h
    have hn : (0 : K) < n := by exact_mod_cast a.pos
    have hlt : (Finset.univ.filter (fun x : Fin n =>
        XR.flt (Np.fillDiagonal D (truth (.ninf : XR K)) b a) (Np.fillDiagonal D (truth (.ninf : XR K)) a x) ∧
        XR.flt (Np.fillDiagonal D (truth (.ninf : XR K)) b a) (Np.fillDiagonal D (truth (.ninf : XR K)) b x))).card
        < n := by
      have : (Finset.univ.filter (fun x : Fin n =>
        XR.flt (Np.fillDiagonal D (truth (.ninf : XR K)) b a) (Np.fillDiagonal D (truth (.ninf : XR K)) a x) ∧
        XR.flt (Np.fillDiagonal D (truth (.ninf : XR K)) b a) (Np.fillDiagonal D (truth (.ninf : XR K)) b x))).card
          < (Finset.univ : Finset (Fin n)).card := by
        apply Finset.card_lt_card
        rw [Finset.filter_ssubset]
        refine ⟨a, Finset.mem_univ _, fun hh => ?_⟩
        have h2 := hh.2
        cases hd : Np.fillDiagonal D (truth (.ninf : XR K)) b a <;> rw [hd] at h2 <;> simp [XR.flt] at h2
      simpa using this
    have hlt' := (Nat.cast_lt (α := K)).2 hlt
    rw [sub_eq_zero, eq_comm, div_eq_one_iff_eq hn.ne'] at h
    exact absurd h hlt'.ne
  show Np.fillDiagonal _ (truth (.fin (MPEmp.selfValue "distance") : XR K)) i j = _
  have hself : truth (.fin (MPEmp.selfValue "distance") : XR K) = .fin 0 := by
    simp [truth, MPEmp.selfValue]
  unfold Np.fillDiagonal
  by_cases hij : i = j
  · simp [hij, hself]
  · have hv : i.val ≠ j.val := fun h => hij (Fin.ext h)
    rw [if_neg hv, if_neg hij]
    unfold Dt.add
    dsimp only
    rw [MPEmp.foldl_setRowFrom _ (fun i => i.val + 1), MPEmp.foldl_setRowFrom _ (fun i => i.val + 1)]
    rcases lt_or_gt_of_ne hv with h | h
    · apply if_neg
      rintro ⟨hh, -⟩
      rw [if_pos ⟨(MPEmp.mem_take_finRange _).2 (by omega), by omega⟩] at hh
      have := hent i j hij
      exact absurd ((this.symm.trans hh)) (by simp)
    · apply if_neg
      rintro ⟨-, hh⟩
      rw [if_pos ⟨(MPEmp.mem_take_finRange _).2 (by omega), by omega⟩] at hh
      have := hent j i (Ne.symm hij)
      exact absurd ((this.symm.trans hh)) (by simp)

/-- Hubness of a boolean distance matrix in which all objects are different: the self distance cannot be excluded, all
rows look the same and some object is its own neighbour, whatever the partial sort does with ties. -/
theorem C200_bool_hubness (o : ArgPart (XR K)) (rnd : Hubness.Rnd) {n : ℕ} (k : ℕ) (hk : 0 < k) (hkn : k < n)
    (D : Fin n → Fin n → XR K) (hD : ∀ i j, i ≠ j → D i j = .fin 1) :
    ∃ r, hubness .bool o rnd D k "distance" false = .ok r ∧ ∃ c : Fin n, c.val ∈ r.Dk c := by
  have hred : Hubness.reduceK (k : ℤ) n = k := by unfold Hubness.reduceK; rw [if_neg (by omega)]
  have hrow : ∀ i : Fin n, Hubness.rowValues "distance" (truth (.pinf : XR K))
      (Hubness.prepare false (truth (.pinf : XR K)) D) i = fun _ => .fin 1 := by
    intro i
    have ht : truth (.pinf : XR K) = .fin 1 := by simp [truth]
    funext j
    rw [ht]
    unfold Hubness.rowValues Hubness.prepare Np.replaceNonFinite Np.fillDiagonal
    by_cases h : i = j
    · subst h; simp
    · have hv : ¬ j.val = i.val := fun e => h (Fin.ext e).symm
      have hv' : ¬ i.val = j.val := fun e => h (Fin.ext e)
      simp [hv, hv', hD i j h]
  obtain ⟨q, hqdef⟩ : ∃ q, q = (Hubness.reduceK (k : ℤ) n).toNat := ⟨_, rfl⟩
  have hq : q = k := by rw [hqdef, hred]; simp
  have hwrap : Np.wrapAll n (Np.arange 0 q) = some (fun c : Fin q => ⟨0 + c, by omega⟩) := by
    have := Np.wrapAll_arange (m := n) (k := q) (lo := 0) (by omega)
    simpa using this
  let L : Fin q → Fin n := fun c => o.run (fun _ : Fin n => (.fin 1 : XR K))
    (fun c : Fin q => (⟨0 + c, by omega⟩ : Fin n)) ⟨0 + c, by omega⟩
  have hsel : ∀ i : Fin n, Hubness.selectRow o false (rnd i n) (Np.arange (Hubness.kthStart "distance" n q) q)
      (decide ("distance" = "similarity")) (Hubness.rowValues "distance" (truth (.pinf : XR K))
      (Hubness.prepare false (truth (.pinf : XR K)) D) i) = .ok (fun c => (L c).val) := by
    intro i
    rw [hrow]
    unfold Hubness.selectRow Np.argpartition
    have : Hubness.kthStart "distance" n q = 0 := by simp [Hubness.kthStart]
    rw [this, hwrap]
    rfl
  have hok : hubness .bool o rnd D k "distance" false =
      .ok (Hubness.finish n (fun (_ : Fin n) (c : Fin q) => (L c).val)) := by
    have hk' : ¬ Hubness.reduceK (k : ℤ) n < 0 := by omega
    clear_value L
    subst hqdef
    unfold hubness
    simp only [Hubness.checkValidMetric_ok (Or.inl rfl : "distance" = "distance" ∨ "distance" = "similarity"), hk',
      if_false]
    change ((List.finRange n).foldlM (fun (Dk : Fin n → Fin (Hubness.reduceK (k : ℤ) n).toNat → ℕ) (i : Fin n) => do
      let row ← Hubness.selectRow o false (rnd i n) (Np.arange (Hubness.kthStart "distance" n
        (Hubness.reduceK (k : ℤ) n).toNat) (Hubness.reduceK (k : ℤ) n).toNat)
        (decide ("distance" = "similarity")) (Hubness.rowValues "distance" (truth (.pinf : XR K))
        (Hubness.prepare false (truth (.pinf : XR K)) D) i)
      pure (Function.update Dk i row)) (fun _ _ => 0) >>= fun Dk => pure (Hubness.finish n Dk)) = _
    rw [foldlM_update_finRange _ _ hsel]
    rfl
  refine ⟨_, hok, L ⟨0, by omega⟩, ?_⟩
  show (L ⟨0, by omega⟩).val ∈ List.ofFn (fun c => (L c).val)
  rw [List.mem_ofFn]
  exact ⟨⟨0, by omega⟩, rfl⟩

end

/-! ### Concrete cases -/

/-- Three objects, the first two of the same category; the entries tell whether the categories differ. -/
def categories : Fin 3 → Fin 3 → XR ℚ :=
  fun i j => if (i = 2) = (j = 2) then .fin 0 else .fin 1

example : ∀ i j, Holds .bool (categories i j) := by
  intro i j; unfold categories Holds; dsimp only; split <;> simp

/-- C200 fails: as floats the first two objects get the distance 2/3, as truth values the distance 1. -/
theorem C200_violated :
    ∃ F R, mpEmpiric .float "distance" categories = .ok F ∧ mpEmpiric .bool "distance" categories = .ok R ∧
      F 0 1 = .fin (2 / 3) ∧ R 0 1 = .fin 1 := by
  have h : MPEmp.fullDense "distance" categories 0 1 = 2 / 3 := by decide +kernel
  obtain ⟨R, hR, hv⟩ := C200_bool_mp categories
  exact ⟨_, R, mpEmpiric_float _ _, hR, congrArg XR.fin h, by rw [hv]; rfl⟩

example : MPEmp.fullDense "distance" categories 0 1 ≠ 0 ∧ MPEmp.fullDense "distance" categories 0 1 ≠ 1 := by
  decide +kernel

example : mpEmpiric .int "distance" categories = .error .overflowError :=
  (C200_integer_partial "distance" (Or.inl rfl) categories (fun _ _ => .fin 1) (ArgPart.ofSort _) (ArgPart.ofSort _)
    (fun _ _ => 1) 1 false none).1

example : ∃ r, hubness .bool (ArgPart.ofSort (XR ℚ)) (fun _ _ => 1) (n := 5) (fun _ _ => .fin 1) (2 : ℕ) "distance" false
    = .ok r ∧ ∃ c : Fin 5, c.val ∈ r.Dk c :=
  C200_bool_hubness _ _ 2 (by norm_num) (by norm_num) _ (fun _ _ _ => rfl)

end HubToolbox.Dtype
