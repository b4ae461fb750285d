import Verif.LS.Bridge

/-!
# Multiplying all distances by a positive constant
-/

set_option autoImplicit false

namespace HubToolbox

/-- Multiply a float by a finite number, leaving the special values unchanged (correct for positive factors). -/
def XR.scale (c : ℝ) : XR ℝ → XR ℝ := XR.map (fun x => c * x)

namespace LS
open XR

variable {c : ℝ}

theorem scale_strictMono (hc : 0 < c) : StrictMono (XR.scale c) := by
  intro a b h
  rw [← not_le] at h ⊢
  cases a <;> cases b <;> simp_all [XR.scale, XR.map]

theorem isRank_scale (hc : 0 < c) {m : ℕ} {d : Fin m → XR ℝ} {t : ℕ} {v : XR ℝ} (h : IsRank d t v) :
    IsRank (fun x => XR.scale c (d x)) t (XR.scale c v) := by
  refine ⟨?_, ?_, ?_⟩
  · obtain ⟨x, hx⟩ := h.attained
    exact ⟨x, by rw [hx]⟩
  · simpa only [(scale_strictMono hc).lt_iff_lt] using h.below
  · simpa only [(scale_strictMono hc).le_iff_le] using h.upto

theorem rankVal_scale (hc : 0 < c) {m : ℕ} (d : Fin m → XR ℝ) (t : Fin m) :
    rankVal (fun x => XR.scale c (d x)) t = XR.scale c (rankVal d t) :=
  (rankVal_spec _ t).unique (isRank_scale hc (rankVal_spec d t))

theorem infMul_scale (hc : 0 < c) (y : ℝ) : XR.infMul (c * y) = XR.infMul y := by
  unfold XR.infMul
  have h1 : c * y = 0 ↔ y = 0 := by constructor <;> intro h <;> simp_all [hc.ne']
  have h2 : 0 < c * y ↔ 0 < y := mul_pos_iff_of_pos_left hc
  simp only [h1, h2]

theorem infMul_special (y : ℝ) (d : ℝ) (_ : 0 < d) : XR.scale d (XR.infMul y) = XR.infMul y := by
  unfold XR.infMul
  split_ifs <;> rfl

theorem mul_scale (hc : 0 < c) (a b : XR ℝ) :
    XR.mul (XR.scale c a) (XR.scale c b) = XR.scale (c * c) (XR.mul a b) := by
  have hcc := mul_pos hc hc
  cases a <;> cases b <;>
    simp only [XR.scale, XR.map, XR.mul] <;>
    first
    | rfl
    | (rw [infMul_scale hc]; exact (infMul_special _ _ hcc).symm)
    | (rw [← mul_neg, infMul_scale hc]; exact (infMul_special _ _ hcc).symm)
    | (congr 1; ring)

theorem neg_one_mul_scale (hc : 0 < c) (a : XR ℝ) :
    XR.mul (.fin (-1)) (XR.scale c a) = XR.scale c (XR.mul (.fin (-1)) a) := by
  cases a <;> simp only [XR.scale, XR.map, XR.mul] <;>
    first
    | rfl
    | exact (infMul_special _ _ hc).symm
    | (congr 1; ring)

theorem div_scale (hc : 0 < c) (a b : XR ℝ) : XR.div (XR.scale c a) (XR.scale c b) = XR.div a b := by
  have h1 : ∀ y, c * y = 0 ↔ y = 0 := by intro y; constructor <;> intro h <;> simp_all [hc.ne']
  have h2 : ∀ y, 0 ≤ c * y ↔ 0 ≤ y := fun y => mul_nonneg_iff_of_pos_left hc
  cases a <;> cases b <;> simp only [XR.scale, XR.map, XR.div, h1, h2]
  split
  · exact infMul_scale hc _
  · congr 1
    rw [mul_div_mul_left _ _ hc.ne']

theorem entry_scale (hc : 0 < c) (metric : String) (d ri rj : XR ℝ) :
    entry metric (XR.scale c d) (XR.scale c ri) (XR.scale c rj) = entry metric d ri rj := by
  unfold entry
  rw [mul_scale hc, mul_scale hc, neg_one_mul_scale (mul_pos hc hc), div_scale (mul_pos hc hc)]

theorem fillDiagonal_scale (c : ℝ) {n : ℕ} (D : Fin n → Fin n → XR ℝ) (v : XR ℝ) (hv : XR.scale c v = v) :
    Np.fillDiagonal (fun i j => XR.scale c (D i j)) v = fun i j => XR.scale c (Np.fillDiagonal D v i j) := by
  funext i j
  unfold Np.fillDiagonal
  split
  · exact hv.symm
  · rfl

theorem exclude_scale (c : ℝ) (metric : String) : XR.scale c (exclude metric) = exclude metric := by
  unfold exclude; split <;> rfl

theorem result_scale (hc : 0 < c) {n : ℕ} (D : Fin n → Fin n → XR ℝ) (metric : String) (train : List (Fin n))
    (t : Fin train.length) :
    result (fun i j => XR.scale c (D i j)) metric train t = result D metric train t := by
  unfold result
  rw [fillDiagonal_scale c D _ (exclude_scale c metric)]
  have : ∀ i, cols (fun i j => XR.scale c (Np.fillDiagonal D (exclude metric) i j)) train i
      = fun x => XR.scale c (cols (Np.fillDiagonal D (exclude metric)) train i x) := fun i => rfl
  simp only [this, rankVal_scale hc, entry_scale hc]

/-! ### NICDM -/

theorem add_scale (a b : XR ℝ) : XR.add (XR.scale c a) (XR.scale c b) = XR.scale c (XR.add a b) := by
  cases a <;> cases b <;> simp only [XR.scale, XR.map, XR.add]
  congr 1; ring

theorem sum_scale {k : ℕ} (f : Fin k → XR ℝ) : XR.sum (fun x => XR.scale c (f x)) = XR.scale c (XR.sum f) := by
  unfold XR.sum
  have key : ∀ (l : List (Fin k)) (acc : XR ℝ),
      l.foldl (fun (acc : XR ℝ) (x : Fin k) => XR.add acc (XR.scale c (f x))) (XR.scale c acc) =
        XR.scale c (l.foldl (fun (acc : XR ℝ) (x : Fin k) => XR.add acc (f x)) acc) := by
    intro l
    induction l with
    | nil => intro acc; rfl
    | cons x l ih => intro acc; rw [List.foldl_cons, List.foldl_cons, add_scale, ih]
  rw [← key]
  congr 1
  simp [XR.scale, XR.map]

theorem div_scale_left (hc : 0 < c) (a b : XR ℝ) : XR.div (XR.scale c a) b = XR.scale c (XR.div a b) := by
  cases a <;> cases b <;> simp only [XR.scale, XR.map, XR.div] <;> try (split_ifs <;> rfl)
  case fin.fin =>
    split_ifs
    · rw [infMul_scale hc]; exact (infMul_special _ _ hc).symm
    · change XR.fin _ = XR.fin _
      congr 1; ring
  all_goals simp

theorem mean_scale (hc : 0 < c) {k : ℕ} (f : Fin k → XR ℝ) :
    XR.mean (fun x => XR.scale c (f x)) = XR.scale c (XR.mean f) := by
  unfold XR.mean
  rw [sum_scale, div_scale_left hc]

theorem log_scale (hc : 0 < c) (a : XR ℝ) :
    XR.log (XR.scale c a) = XR.add (.fin (Real.log c)) (XR.log a) := by
  cases a with
  | fin x =>
    simp only [XR.scale, XR.map, XR.log]
    rcases lt_trichotomy x 0 with h | h | h
    · have : c * x < 0 := mul_neg_of_pos_of_neg hc h
      simp [this, this.ne, h, h.ne, XR.add]
    · simp [h, XR.add]
    · have : 0 < c * x := mul_pos hc h
      simp only [this.ne', h.ne', this.not_gt, h.not_gt, if_false, XR.add]
      rw [Real.log_mul hc.ne' h.ne']
  | _ => rfl

theorem sum_add_const {n : ℕ} (L : ℝ) (f : Fin n → XR ℝ) :
    XR.sum (fun x => XR.add (.fin L) (f x)) = XR.add (.fin (n * L)) (XR.sum f) := by
  unfold XR.sum
  have key : ∀ (l : List (Fin n)) (acc : XR ℝ) (b : ℝ),
      l.foldl (fun (acc : XR ℝ) (x : Fin n) => XR.add acc (XR.add (.fin L) (f x))) (XR.add (.fin b) acc) =
        XR.add (.fin (b + l.length * L)) (l.foldl (fun (acc : XR ℝ) (x : Fin n) => XR.add acc (f x)) acc) := by
    intro l
    induction l with
    | nil => intro acc b; simp
    | cons x l ih =>
      intro acc b
      rw [List.foldl_cons, List.foldl_cons]
      have : XR.add (XR.add (.fin b) acc) (XR.add (.fin L) (f x)) = XR.add (.fin (b + L)) (XR.add acc (f x)) := by
        cases acc <;> cases f x <;> simp only [XR.add]
        congr 1; ring
      rw [this, ih]
      congr 2
      push_cast [List.length_cons]
      ring
  have := key (List.finRange n) (.fin 0) 0
  simpa [XR.add] using this

theorem geomean_scale (hc : 0 < c) {n : ℕ} (hn : 0 < n) (r : Fin n → XR ℝ) :
    geomean (fun i => XR.scale c (r i)) = XR.scale c (geomean r) := by
  unfold geomean
  simp only [log_scale hc, sum_add_const]
  have hn' : (n : ℝ) ≠ 0 := by positivity
  have hn0 : (0 : ℝ) ≤ n := by positivity
  cases XR.sum (fun i => XR.log (r i)) with
  | fin s =>
    simp only [XR.add, XR.div, hn', if_false, XR.exp, XR.scale, XR.map]
    congr 1
    rw [show ((n : ℝ) * Real.log c + s) / n = Real.log c + s / n by field_simp, Real.exp_add,
      Real.exp_log hc]
  | ninf => simp [XR.add, XR.div, XR.exp, XR.scale, XR.map, hn0]
  | pinf => simp [XR.add, XR.div, XR.exp, XR.scale, XR.map, hn0]
  | nan => simp [XR.add, XR.div, XR.exp, XR.scale, XR.map]

theorem sqrt_scale (hc : 0 < c) (a : XR ℝ) : XR.sqrt (XR.scale (c * c) a) = XR.scale c (XR.sqrt a) := by
  cases a with
  | fin x =>
    simp only [XR.scale, XR.map, XR.sqrt]
    have : c * c * x < 0 ↔ x < 0 := by
      constructor
      · intro h; by_contra hx; exact absurd h (not_lt.2 (mul_nonneg (mul_pos hc hc).le (not_lt.1 hx)))
      · intro h; exact mul_neg_of_pos_of_neg (mul_pos hc hc) h
    simp only [this]
    split_ifs
    · rfl
    · simp only [XR.map]
      congr 1
      rw [Real.sqrt_mul (mul_pos hc hc).le, Real.sqrt_mul_self hc.le]
  | _ => rfl

theorem scale_scale (a : XR ℝ) : XR.scale (c * c) a = XR.scale c (XR.scale c a) := by
  cases a <;> simp [XR.scale, XR.map, mul_assoc]

theorem nicdmEntry_scale (hc : 0 < c) (g d ri rj : XR ℝ) :
    nicdmEntry (XR.scale c g) (XR.scale c d) (XR.scale c ri) (XR.scale c rj) =
      XR.scale c (nicdmEntry g d ri rj) := by
  unfold nicdmEntry
  rw [mul_scale hc, mul_scale hc, sqrt_scale hc, scale_scale, div_scale hc, div_scale_left hc]

end LS
end HubToolbox
