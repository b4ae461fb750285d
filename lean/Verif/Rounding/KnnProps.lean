import Verif.Rounding.KnnModel
import Verif.Rounding.Count

/-!
# C194: accuracies in floating point
-/

set_option autoImplicit false

namespace HubToolbox.Rounding

open HubToolbox

section
variable {K : Type} [Field K] [LinearOrder K]

/-- `c` times adding `1/n`. -/
def steps (R : Rounding K) (n c : ℕ) : XR K := (List.replicate c (R.rnd (1 / (n : K)))).foldl R.add (.fin 0)

theorem steps_succ (R : Rounding K) (n c : ℕ) : R.steps n (c + 1) = R.add (R.steps n c) (R.rnd (1 / (n : K))) := by
  unfold steps
  rw [List.replicate_succ', List.foldl_append]
  rfl

theorem accuracy_steps (R : Rounding K) {n : ℕ} (queries : List (Fin n)) (corr : Fin n → ℕ) :
    R.accuracy queries corr = R.steps queries.length (queries.countP fun i => decide (corr i = 1)) := by
  unfold accuracy
  generalize queries.length = N
  induction queries using List.reverseRecOn with
  | nil => rfl
  | append_singleton l a ih =>
    rw [List.foldl_append, ih, List.countP_append]
    by_cases h : corr a = 1
    · simp [h, steps_succ]
    · simp [h]

/-- Without rounding the accuracies are those of the exact model. -/
theorem accuracy_exact {n : ℕ} (queries : List (Fin n)) (seed pred : Fin n → ℕ) :
    (exact K).accuracy queries (Knn.tally (K := K) queries.length queries seed pred).corr
      = .fin (Knn.tally (K := K) queries.length queries seed pred).acc := by
  rw [accuracy_steps, Knn.tally_eq]
  have hc : (queries.countP fun i => decide ((if i ∈ queries ∧ pred i = seed i then 1 else 0) = 1))
      = queries.countP fun i => decide (pred i = seed i) := by
    refine List.countP_congr fun i hi => ?_
    by_cases h : pred i = seed i <;> simp [h, hi]
  simp only [hc]
  generalize (queries.countP fun i => decide (pred i = seed i)) = c
  induction c with
  | zero => simp [steps]
  | succ c ih =>
    rw [steps_succ, ih, exact_add, exact_rnd]
    simp only [XR.add]
    congr 1
    push_cast
    ring

/-- All calls of `score` for which the exact model is successful are successful here, with the same predictions. -/
theorem score_of_ok (R : Rounding K) (srt : Knn.ArgSort (XR K)) (o : ArgPart (XR K)) (rnd : Knn.Rnd) (D : PyMat (XR K))
    (target : PyVec ℤ) (k : Knn.KArg) (metric : String) {n : ℕ} (T : Option (List (Fin n))) {r : Knn.Res K n}
    (h : Knn.score srt o rnd D target k metric (T.map (fun T => T.map Fin.val)) = .ok ⟨n, r⟩) :
    R.score srt o rnd D target k metric (T.map (fun T => T.map Fin.val)) = .ok ⟨n, ⟨r.nClasses, r.perK.map (fun q =>
      ⟨R.accuracy (T.getD (List.finRange n)) q.corr, q.corr, q.cmat⟩)⟩⟩ := by
  unfold score
  rw [h]
  cases T with
  | none => rfl
  | some T =>
    simp only [Option.map_some, bind, Except.bind, Knn.toFins_map]
    rfl

variable [FloorRing K] [IsStrictOrderedRing K]

theorem pow_one_add_le {u : K} (hu : 0 ≤ u) : ∀ m : ℕ, (m : K) * u ≤ 1 / 2 → (1 + u) ^ m ≤ 1 + 2 * m * u
  | 0, _ => by simp
  | m + 1, h => by
    push_cast at h
    have hm := pow_one_add_le hu m (by nlinarith)
    have hp : (1 + u) ^ (m + 1) ≤ (1 + 2 * m * u) * (1 + u) := by
      rw [pow_succ]
      exact mul_le_mul_of_nonneg_right hm (by linarith)
    refine hp.trans ?_
    have : 2 * (m * u) * u ≤ 1 * u := mul_le_mul_of_nonneg_right (by nlinarith) hu
    push_cast
    nlinarith

/-- Numbers of queries covered: less than a sixteenth of the numbers which are counted exactly. -/
structure Moderate (F : Ieee) (n : ℕ) : Prop where
  pos : 0 < n
  few : 16 * n ≤ 2 ^ F.p
  range : (F.p : ℤ) ≤ F.emax

theorem moderate_ulp {F : Ieee} {n : ℕ} (h : Moderate F n) : 16 * (n : K) * F.ulp K ≤ 1 := by
  have h1 : (16 * n : K) ≤ 2 ^ F.p := by exact_mod_cast h.few
  unfold Ieee.ulp
  rw [zpow_neg, zpow_natCast]
  rw [← div_eq_mul_inv, div_le_one (by positivity)]
  exact h1

theorem steps_error {F : Ieee} {n : ℕ} (h : Moderate F n) {c : ℕ} (hc : c ≤ n) :
    ∃ a : K, (F.rounding K).steps n c = .fin a ∧ F.round a = .fin a ∧ 0 ≤ a ∧ |a - c / n| ≤ 5 * c * F.ulp K := by
  have hn : (0 : K) < n := by exact_mod_cast h.pos
  have hn1 : (1 : K) ≤ n := by exact_mod_cast h.pos
  have hu := moderate_ulp (K := K) h
  have hu0 : 0 < F.ulp K := F.ulp_pos
  have hcn : (c : K) ≤ n := by exact_mod_cast hc
  have hc0 : (0 : K) ≤ c := by positivity
  obtain ⟨x, hx, x0, x1, xe⟩ := F.round_unit (x := 1 / (n : K)) (by positivity) (by rw [div_le_one hn]; exact hn1)
  have hx' : (F.rounding K).rnd (1 / (n : K)) = .fin x := hx
  have hxf : F.round x = .fin x := by
    have := float_up (R := F.rounding K) (.fin (1 / (n : K)))
    rw [up_fin, hx'] at this
    exact this
  change |x - 1 / n| ≤ F.ulp K at xe
  have hcu : (c : K) * F.ulp K ≤ 1 / 16 := by
    have := mul_le_mul_of_nonneg_right hcn hu0.le
    nlinarith
  have hcx : |c * x - c / n| ≤ c * F.ulp K := by
    have : (c : K) * x - c / n = c * (x - 1 / n) := by ring
    rw [this, abs_mul, abs_of_nonneg hc0]
    exact mul_le_mul_of_nonneg_left xe hc0
  have hcd : (c : K) / n ≤ 1 := (div_le_one hn).2 hcn
  have hcx2 : (c : K) * x ≤ 2 := by
    have := (abs_le.1 hcx).2
    linarith
  have hcx0 : 0 ≤ (c : K) * x := mul_nonneg hc0 x0
  have hpow : (1 + F.ulp K) ^ (c - 1) ≤ 1 + 2 * c * F.ulp K := by
    refine (pow_le_pow_right₀ (by linarith) (Nat.sub_le c 1)).trans (pow_one_add_le hu0.le c (by linarith))
  have hsum : (List.replicate c x).sum = c * x := by rw [List.sum_replicate, nsmul_eq_mul]
  have habs : ((List.replicate c x).map (|·|)).sum = c * x := by
    rw [List.map_replicate, List.sum_replicate, abs_of_nonneg x0, nsmul_eq_mul]
  have hmap : (List.replicate c x).map (.fin : K → XR K) = List.replicate c (.fin x) := List.map_replicate
  have hmax : (4 : K) ≤ 2 ^ F.emax := by
    have h2 : (2 : K) ^ (2 : ℤ) ≤ 2 ^ F.emax := zpow_le_zpow_right₀ one_le_two (by have := h.range; have := F.p_pos; omega)
    refine le_trans ?_ h2
    norm_num
  have hs := sums_foldl (F.rounding K) ((List.replicate c x).map .fin) (by
    intro a ha
    obtain ⟨z, hz, rfl⟩ := List.mem_map.1 ha
    rw [List.eq_of_mem_replicate hz]
    exact hxf)
  obtain ⟨v, hv, hvf, hve⟩ := F.sum_error hs (fun z hz => by rw [List.eq_of_mem_replicate hz]; exact hxf) (by
    rw [habs, List.length_replicate]
    refine le_trans ?_ hmax
    calc _ ≤ (1 + 2 * c * F.ulp K) * (c * x) := mul_le_mul_of_nonneg_right hpow hcx0
      _ ≤ 2 * 2 := mul_le_mul (by linarith) hcx2 hcx0 (by norm_num)
      _ = 4 := by norm_num)
  rw [hmap] at hv
  have hst : (F.rounding K).steps n c = .fin v := by
    unfold steps
    rw [hx', hv]
  rw [hsum, habs, List.length_replicate] at hve
  have he1 : ((1 + F.ulp K) ^ (c - 1) - 1) * (c * x) ≤ 4 * c * F.ulp K := by
    calc _ ≤ (2 * c * F.ulp K) * (c * x) := mul_le_mul_of_nonneg_right (by linarith) hcx0
      _ ≤ (2 * c * F.ulp K) * 2 := mul_le_mul_of_nonneg_left hcx2 (by positivity)
      _ = _ := by ring
  refine ⟨v, hst, hvf, ?_, ?_⟩
  · -- the error of the sum is relative
    have h1 : (1 + F.ulp K) ^ (c - 1) - 1 ≤ 1 := by linarith
    have h2 : ((1 + F.ulp K) ^ (c - 1) - 1) * (c * x) ≤ c * x := by
      have := mul_le_mul_of_nonneg_right h1 hcx0
      linarith
    have := (abs_le.1 hve).1
    linarith
  · have e : v - c / n = (v - c * x) + (c * x - c / n) := by ring
    rw [e]
    refine (abs_add_le _ _).trans ?_
    linarith

theorem steps_lt_succ {F : Ieee} {n : ℕ} (h : Moderate F n) {c : ℕ} (hc : c < n) {a b : K}
    (ha : (F.rounding K).steps n c = .fin a) (hb : (F.rounding K).steps n (c + 1) = .fin b) : a < b := by
  have hn : (0 : K) < n := by exact_mod_cast h.pos
  have hn1 : (1 : K) ≤ n := by exact_mod_cast h.pos
  have hu := moderate_ulp (K := K) h
  have hu0 : 0 < F.ulp K := F.ulp_pos
  obtain ⟨a', ha', haf, a0, ae⟩ := steps_error (K := K) h hc.le
  obtain rfl : a = a' := XR.fin.inj (ha.symm.trans ha')
  obtain ⟨x, hx, x0, x1, xe⟩ := F.round_unit (x := 1 / (n : K)) (by positivity) (by rw [div_le_one hn]; exact hn1)
  have hx' : (F.rounding K).rnd (1 / (n : K)) = .fin x := hx
  have hxf : F.round x = .fin x := by
    have := float_up (R := F.rounding K) (.fin (1 / (n : K)))
    rw [up_fin, hx'] at this
    exact this
  change |x - 1 / n| ≤ F.ulp K at xe
  have hcn : (c : K) ≤ n := by exact_mod_cast hc.le
  have hcu : (c : K) * F.ulp K ≤ 1 / 16 := by
    have := mul_le_mul_of_nonneg_right hcn hu0.le
    nlinarith
  have hcd : (c : K) / n ≤ 1 := (div_le_one hn).2 hcn
  have h16 : 16 * F.ulp K ≤ 1 / n := by
    rw [le_div_iff₀ hn]
    linarith
  have ha2 : a ≤ 2 := by
    have := (abs_le.1 ae).2
    linarith
  have hmax : (4 : K) ≤ 2 ^ F.emax := by
    have h2 : (2 : K) ^ (2 : ℤ) ≤ 2 ^ F.emax := zpow_le_zpow_right₀ one_le_two (by have := h.range; have := F.p_pos; omega)
    refine le_trans ?_ h2
    norm_num
  have hax : |a + x| ≤ 3 := by
    rw [abs_of_nonneg (by linarith)]
    linarith
  obtain ⟨z, hz, _, ze⟩ := F.add_float haf hxf (by linarith)
  rw [steps_succ, ha, hx', hz] at hb
  obtain rfl := XR.fin.inj hb
  have h3 : F.ulp K * |a + x| ≤ F.ulp K * 3 := mul_le_mul_of_nonneg_left hax hu0.le
  have := (abs_le.1 (ze.trans h3)).1
  have := (abs_le.1 xe).1
  linarith

theorem steps_lt_iff {F : Ieee} {n : ℕ} (h : Moderate F n) {c c' : ℕ} (hc : c ≤ n) (hc' : c' ≤ n) :
    (F.rounding K).steps n c < (F.rounding K).steps n c' ↔ c < c' := by
  have key : ∀ d e : ℕ, d < e → e ≤ n → (F.rounding K).steps n d < (F.rounding K).steps n e := by
    intro d e hde
    induction e with
    | zero => omega
    | succ e ih =>
      intro he
      obtain ⟨a, ha, _⟩ := steps_error (K := K) h (show d ≤ n by omega)
      obtain ⟨b, hb, _⟩ := steps_error (K := K) h (show e ≤ n by omega)
      obtain ⟨b', hb', _⟩ := steps_error (K := K) h he
      have h1 : b < b' := steps_lt_succ h (by omega) hb hb'
      have h2 : a ≤ b := by
        rcases (Nat.lt_succ_iff.1 hde).eq_or_lt with rfl | hlt
        · rw [ha] at hb
          exact (XR.fin.inj hb).le
        · have := ih hlt (by omega)
          rw [ha, hb] at this
          exact (XR.fin_lt_fin.1 this).le
      rw [ha, hb']
      exact XR.fin_lt_fin.2 (lt_of_le_of_lt h2 h1)
  constructor
  · intro hlt
    by_contra hge
    rcases (not_lt.1 hge).eq_or_lt with rfl | hgt
    · exact lt_irrefl _ hlt
    · exact lt_asymm hlt (key _ _ hgt hc)
  · exact fun hlt => key _ _ hlt hc'

theorem steps_pow {F : Ieee} {e c : ℕ} (hc : c ≤ 2 ^ e) (he : e ≤ F.p) (hmin : F.emin ≤ -(e : ℤ) + (F.p - 1))
    (hmax : (F.p : ℤ) ≤ F.emax) : (F.rounding K).steps (2 ^ e) c = .fin ((c : K) / (2 ^ e : ℕ)) := by
  have hx : F.round (1 / ((2 ^ e : ℕ) : K)) = .fin (1 / ((2 ^ e : ℕ) : K)) := by
    have := F.round_mul_zpow (K := K) (m := 1) (t := -(e : ℤ)) Nat.one_le_two_pow hmin (by omega)
    simpa using this
  have hx' : (F.rounding K).rnd (1 / ((2 ^ e : ℕ) : K)) = .fin (((1 : ℕ) : K) * 2 ^ (-(e : ℤ))) := by
    refine hx.trans ?_
    simp
  have hs := sums_foldl (F.rounding K) (List.replicate c (.fin (((1 : ℕ) : K) * 2 ^ (-(e : ℤ))))) (by
    intro a ha
    rw [List.eq_of_mem_replicate ha, ← hx']
    exact float_up (R := F.rounding K) (.fin (1 / ((2 ^ e : ℕ) : K))))
  have := F.sum_replicate' hs (by rw [mul_one]; exact hc.trans (Nat.pow_le_pow_right (by norm_num) he)) hmin (by omega)
  unfold steps
  rw [hx', this]
  congr 1
  simp [div_eq_mul_inv]

/-- Objects classified in a call of `score`: all of them without a test set. -/
abbrev classified {n : ℕ} (T : Option (List (Fin n))) : List (Fin n) := T.getD (List.finRange n)

theorem count_corr {n : ℕ} {Q : List (Fin n)} (hQ : Q.Nodup) {corr : Fin n → ℕ} (h01 : ∀ i, corr i = 0 ∨ corr i = 1)
    (hout : ∀ i, i ∉ Q → corr i = 0) : (Q.countP fun i => decide (corr i = 1)) = ∑ i, corr i := by
  rw [Knn.countP_eq_card hQ (fun i => corr i = 1), Finset.card_filter]
  refine Finset.sum_congr rfl fun i _ => ?_
  by_cases hi : i ∈ Q
  · rcases h01 i with h | h <;> simp [h, hi]
  · simp [hi, hout i hi]

/-- Calls of `score` succeed, and accuracies are those of `steps`. -/
theorem score_steps (R : Rounding K) {n : ℕ} (hn : 0 < n) (srt : Knn.ArgSort (XR K)) (o : ArgPart (XR K)) (rnd : Knn.Rnd)
    (sp : Bool) (D : Fin n → Fin n → XR K) (y : Fin n → ℤ) (ks : List ℤ) (metric : String)
    (hm : metric = "distance" ∨ metric = "similarity") (T : Option (List (Fin n))) (hT : (classified T).Nodup) :
    ∃ r, R.score srt o rnd (.mat sp n n D) (.vec n y) (.list ks) metric (T.map (fun T => T.map Fin.val)) = .ok ⟨n, r⟩ ∧
      r.perK.length = ks.length ∧ ∀ q ∈ r.perK, q.acc = R.steps (classified T).length (∑ i, q.corr i) ∧
        ∑ i, q.corr i ≤ (classified T).length := by
  have hex : ∃ r, Knn.score srt o rnd (.mat sp n n D) (.vec n y) (.list ks) metric (T.map (fun T => T.map Fin.val)) = .ok ⟨n, r⟩ ∧
      r.perK.length = ks.length ∧ ∀ q ∈ r.perK, Knn.Consistent y (classified T) r.nClasses q := by
    cases T with
    | none => exact Knn.C42_loo hn srt o rnd sp D y ks metric hm
    | some T => exact Knn.C42_test_set hn srt o rnd sp D y ks metric hm T hT
  obtain ⟨r, hr, hl, hc⟩ := hex
  refine ⟨_, score_of_ok R srt o rnd _ _ _ metric T hr, by simpa using hl, ?_⟩
  intro q hq
  obtain ⟨q', hq', rfl⟩ := List.mem_map.1 hq
  obtain ⟨h01, hout, -⟩ := hc q' hq'
  have := count_corr hT h01 hout
  simp only [accuracy_steps]
  rw [this]
  exact ⟨rfl, this ▸ List.countP_le_length⟩

/-- **C194** (partial): in floating point accuracies are non-negative, close to the fraction of objects which are classified
correctly. Missing: they are not at most one, see `C194_violated_high`. -/
theorem C194_partial {F : Ieee} {n : ℕ} (hn : 0 < n) (srt : Knn.ArgSort (XR K)) (o : ArgPart (XR K)) (rnd : Knn.Rnd)
    (sp : Bool) (D : Fin n → Fin n → XR K) (y : Fin n → ℤ) (ks : List ℤ) (metric : String)
    (hm : metric = "distance" ∨ metric = "similarity") (T : Option (List (Fin n))) (hT : (classified T).Nodup)
    (hF : Moderate F (classified T).length) :
    ∃ r, (F.rounding K).score srt o rnd (.mat sp n n D) (.vec n y) (.list ks) metric (T.map (fun T => T.map Fin.val))
        = .ok ⟨n, r⟩ ∧ r.perK.length = ks.length ∧ ∀ q ∈ r.perK, ∃ a : K, q.acc = .fin a ∧ 0 ≤ a ∧
      |a - ((∑ i, q.corr i : ℕ) : K) / ((classified T).length : K)| ≤ 5 * ((∑ i, q.corr i : ℕ) : K) * 2 ^ (-(F.p : ℤ)) := by
  obtain ⟨r, hr, hl, hc⟩ := score_steps (F.rounding K) hn srt o rnd sp D y ks metric hm T hT
  refine ⟨r, hr, hl, fun q hq => ?_⟩
  obtain ⟨ha, hle⟩ := hc q hq
  obtain ⟨a, hs, -, h0, he⟩ := steps_error (K := K) hF hle
  exact ⟨a, ha.trans hs, h0, he⟩

/-- **C194**: accuracies order classifications (of any data, with any neighbourhoods) of equally many objects by the number of
objects classified correctly. -/
theorem C194_order {F : Ieee} {n n' : ℕ} (hn : 0 < n) (hn' : 0 < n') (srt srt' : Knn.ArgSort (XR K))
    (o o' : ArgPart (XR K)) (rnd rnd' : Knn.Rnd) (sp sp' : Bool) (D : Fin n → Fin n → XR K) (D' : Fin n' → Fin n' → XR K)
    (y : Fin n → ℤ) (y' : Fin n' → ℤ) (ks ks' : List ℤ) (metric metric' : String)
    (hm : metric = "distance" ∨ metric = "similarity") (hm' : metric' = "distance" ∨ metric' = "similarity")
    (T : Option (List (Fin n))) (T' : Option (List (Fin n'))) (hT : (classified T).Nodup) (hT' : (classified T').Nodup)
    (hsame : (classified T').length = (classified T).length) (hF : Moderate F (classified T).length) :
    ∃ r r', (F.rounding K).score srt o rnd (.mat sp n n D) (.vec n y) (.list ks) metric (T.map (fun T => T.map Fin.val))
        = .ok ⟨n, r⟩ ∧
      (F.rounding K).score srt' o' rnd' (.mat sp' n' n' D') (.vec n' y') (.list ks') metric' (T'.map (fun T => T.map Fin.val))
        = .ok ⟨n', r'⟩ ∧
      ∀ q ∈ r.perK, ∀ q' ∈ r'.perK, (q.acc < q'.acc ↔ ∑ i, q.corr i < ∑ i, q'.corr i) ∧
        (q.acc = q'.acc ↔ ∑ i, q.corr i = ∑ i, q'.corr i) := by
  obtain ⟨r, hr, -, hc⟩ := score_steps (F.rounding K) hn srt o rnd sp D y ks metric hm T hT
  obtain ⟨r', hr', -, hc'⟩ := score_steps (F.rounding K) hn' srt' o' rnd' sp' D' y' ks' metric' hm' T' hT'
  refine ⟨r, r', hr, hr', fun q hq q' hq' => ?_⟩
  obtain ⟨ha, hle⟩ := hc q hq
  obtain ⟨ha', hle'⟩ := hc' q' hq'
  rw [hsame] at ha' hle'
  rw [ha, ha']
  refine ⟨steps_lt_iff hF hle hle', fun h => ?_, fun h => by rw [h]⟩
  refine le_antisymm (not_lt.1 fun hlt => ?_) (not_lt.1 fun hlt => ?_)
  · exact absurd ((steps_lt_iff (K := K) hF hle' hle).2 hlt) (by rw [h]; exact lt_irrefl _)
  · exact absurd ((steps_lt_iff (K := K) hF hle hle').2 hlt) (by rw [h]; exact lt_irrefl _)

/-- **C194**: accuracies are exactly the fraction of objects classified correctly if the number of objects is a power of two. -/
theorem C194_power_of_two {F : Ieee} {n e : ℕ} (hn : 0 < n) (srt : Knn.ArgSort (XR K)) (o : ArgPart (XR K)) (rnd : Knn.Rnd)
    (sp : Bool) (D : Fin n → Fin n → XR K) (y : Fin n → ℤ) (ks : List ℤ) (metric : String)
    (hm : metric = "distance" ∨ metric = "similarity") (T : Option (List (Fin n))) (hT : (classified T).Nodup)
    (he : (classified T).length = 2 ^ e) (hp : e ≤ F.p) (hmin : F.emin ≤ -(e : ℤ) + (F.p - 1)) (hmax : (F.p : ℤ) ≤ F.emax) :
    ∃ r, (F.rounding K).score srt o rnd (.mat sp n n D) (.vec n y) (.list ks) metric (T.map (fun T => T.map Fin.val))
        = .ok ⟨n, r⟩ ∧ r.perK.length = ks.length ∧ ∀ q ∈ r.perK,
      q.acc = .fin (((∑ i, q.corr i : ℕ) : K) / ((classified T).length : K)) := by
  obtain ⟨r, hr, hl, hc⟩ := score_steps (F.rounding K) hn srt o rnd sp D y ks metric hm T hT
  refine ⟨r, hr, hl, fun q hq => ?_⟩
  obtain ⟨ha, hle⟩ := hc q hq
  rw [ha, he]
  exact steps_pow (he ▸ hle) hp hmin hmax

end

theorem six_of_six : (Ieee.double.rounding ℚ).steps 6 6 = .fin (1 - 1 / 2 ^ 53) := by decide +kernel

theorem nine_of_nine : (Ieee.double.rounding ℚ).steps 9 9 = .fin (1 + 1 / 2 ^ 52) := by decide +kernel

/-- **C194** is violated: whenever six objects are classified, all of them correctly, their accuracy is less than one. -/
theorem C194_violated_low {n : ℕ} (hn : 0 < n) (srt : Knn.ArgSort (XR ℚ)) (o : ArgPart (XR ℚ)) (rnd : Knn.Rnd)
    (sp : Bool) (D : Fin n → Fin n → XR ℚ) (y : Fin n → ℤ) (ks : List ℤ) (metric : String)
    (hm : metric = "distance" ∨ metric = "similarity") (T : Option (List (Fin n))) (hT : (classified T).Nodup)
    (h6 : (classified T).length = 6) :
    ∃ r, (Ieee.double.rounding ℚ).score srt o rnd (.mat sp n n D) (.vec n y) (.list ks) metric
        (T.map (fun T => T.map Fin.val)) = .ok ⟨n, r⟩ ∧ r.perK.length = ks.length ∧
      ∀ q ∈ r.perK, ∑ i, q.corr i = 6 → q.acc < .fin 1 := by
  obtain ⟨r, hr, hl, hc⟩ := score_steps (Ieee.double.rounding ℚ) hn srt o rnd sp D y ks metric hm T hT
  refine ⟨r, hr, hl, fun q hq h => ?_⟩
  rw [(hc q hq).1, h6, h, six_of_six]
  exact XR.fin_lt_fin.2 (by norm_num)

/-- **C194** is violated: whenever nine objects are classified, all of them correctly, their accuracy is greater than one. -/
theorem C194_violated_high {n : ℕ} (hn : 0 < n) (srt : Knn.ArgSort (XR ℚ)) (o : ArgPart (XR ℚ)) (rnd : Knn.Rnd)
    (sp : Bool) (D : Fin n → Fin n → XR ℚ) (y : Fin n → ℤ) (ks : List ℤ) (metric : String)
    (hm : metric = "distance" ∨ metric = "similarity") (T : Option (List (Fin n))) (hT : (classified T).Nodup)
    (h9 : (classified T).length = 9) :
    ∃ r, (Ieee.double.rounding ℚ).score srt o rnd (.mat sp n n D) (.vec n y) (.list ks) metric
        (T.map (fun T => T.map Fin.val)) = .ok ⟨n, r⟩ ∧ r.perK.length = ks.length ∧
      ∀ q ∈ r.perK, ∑ i, q.corr i = 9 → .fin 1 < q.acc := by
  obtain ⟨r, hr, hl, hc⟩ := score_steps (Ieee.double.rounding ℚ) hn srt o rnd sp D y ks metric hm T hT
  refine ⟨r, hr, hl, fun q hq h => ?_⟩
  rw [(hc q hq).1, h9, h, nine_of_nine]
  exact XR.fin_lt_fin.2 (by norm_num)

/-- Everything is classified correctly e.g. if there is one class only. -/
theorem all_correct {n : ℕ} (hn : 0 < n) (srt : Knn.ArgSort (XR ℚ)) (o : ArgPart (XR ℚ)) (rnd : Knn.Rnd)
    (D : Fin n → Fin n → XR ℚ) (c : ℤ) (ks : List ℤ) :
    ∃ r, (Ieee.double.rounding ℚ).score srt o rnd (.mat false n n D) (.vec n (fun _ => c)) (.list ks) "distance" none
        = .ok ⟨n, r⟩ ∧ ∀ q ∈ r.perK, ∑ i, q.corr i = n := by
  have h := Knn.score_dense_loo srt o rnd D (fun _ => c) ks "distance" (.inl rfl)
  refine ⟨_, score_of_ok (Ieee.double.rounding ℚ) srt o rnd _ _ _ "distance" none h, fun q hq => ?_⟩
  obtain ⟨q', hq', rfl⟩ := List.mem_map.1 hq
  obtain ⟨j, _, rfl⟩ := List.mem_map.1 hq'
  have hlen : (Knn.labelsOf (List.ofFn fun _ : Fin n => c)).length ≤ 1 := by
    have hnd : (Knn.labelsOf (List.ofFn fun _ : Fin n => c)).Nodup := Np.nodup_unique _
    have hsub : Knn.labelsOf (List.ofFn fun _ : Fin n => c) ⊆ [c] := fun a ha => by
      obtain ⟨_, rfl⟩ := List.mem_ofFn.1 (Np.mem_unique.1 ha)
      simp
    exact (hnd.subperm hsub).length_le
  have hpos := Knn.labels_length_pos (fun _ : Fin n => c) ⟨0, hn⟩
  rw [Knn.tally_eq]
  have h1 : ∀ i : Fin n, Knn.encode (Knn.labelsOf (List.ofFn fun _ : Fin n => c)) c = 0 := fun i => by
    have := Knn.encode_lt (l := List.ofFn fun _ : Fin n => c) (t := c) (List.mem_ofFn.2 ⟨i, rfl⟩)
    omega
  have h2 : ∀ (u : ℕ) (N : List (Fin n)), u = 0 →
      Knn.vote u (N.map fun _ => Knn.encode (Knn.labelsOf (List.ofFn fun _ : Fin n => c)) c) = 0 := fun u N hu => by
    have := Knn.vote_lt (fun _ : Fin n => c) u 1 hlen (by omega) N _root_.id
    omega
  simp only [List.mem_finRange, true_and]
  rw [Finset.sum_congr rfl (g := fun _ => 1) fun i _ => by rw [h2 _ _ (by omega), h1 i, if_pos rfl]]
  simp

/-- One million of objects is few in double precision, ten thousand in single precision. -/
example : Moderate Ieee.double 1000000 ∧ Moderate Ieee.single 10000 :=
  ⟨⟨by norm_num, by decide, by decide⟩, ⟨by norm_num, by decide, by decide⟩⟩

example : (classified (n := 12) (some [3, 5])).Nodup ∧ (classified (n := 12) none).Nodup :=
  ⟨by decide, List.nodup_finRange 12⟩

/-- Leave-one-out classification of 1024 objects. -/
example : (10 ≤ Ieee.double.p ∧ Ieee.double.emin ≤ -((10 : ℕ) : ℤ) + (Ieee.double.p - 1)) ∧
    (Ieee.double.p : ℤ) ≤ Ieee.double.emax ∧ ∀ n : ℕ, n = 2 ^ 10 → (classified (n := n) none).length = 2 ^ 10 :=
  ⟨by decide, by decide, fun n hn => (List.length_finRange (n := n)).trans hn⟩

/-- Numbers of correct classifications as in `C194_violated_low`, `C194_violated_high` are possible. -/
example (srt : Knn.ArgSort (XR ℚ)) (o : ArgPart (XR ℚ)) (rnd : Knn.Rnd) (D : Fin 6 → Fin 6 → XR ℚ) :
    ∃ r q, (Ieee.double.rounding ℚ).score srt o rnd (.mat false 6 6 D) (.vec 6 (fun _ => 0)) (.list [5]) "distance" none
        = .ok ⟨6, r⟩ ∧ q ∈ r.perK ∧ ∑ i, q.corr i = 6 ∧ q.acc < .fin 1 := by
  obtain ⟨r, hr, hq⟩ := all_correct (by norm_num) srt o rnd D 0 [5]
  obtain ⟨r', hr', hl, hlt⟩ := C194_violated_low (by norm_num) srt o rnd false D (fun _ => 0) [5] "distance" (.inl rfl) none
    (List.nodup_finRange 6) rfl
  have e := hr.symm.trans hr'
  injection e with e
  obtain rfl := eq_of_heq (Sigma.mk.inj e).2
  obtain ⟨q, hm⟩ := List.exists_mem_of_length_pos (l := r.perK) (by rw [hl]; norm_num)
  exact ⟨r, q, hr, hm, hq q hm, hlt q hm (hq q hm)⟩

example (srt : Knn.ArgSort (XR ℚ)) (o : ArgPart (XR ℚ)) (rnd : Knn.Rnd) (D : Fin 9 → Fin 9 → XR ℚ) :
    ∃ r q, (Ieee.double.rounding ℚ).score srt o rnd (.mat false 9 9 D) (.vec 9 (fun _ => 0)) (.list [5]) "distance" none
        = .ok ⟨9, r⟩ ∧ q ∈ r.perK ∧ ∑ i, q.corr i = 9 ∧ .fin 1 < q.acc := by
  obtain ⟨r, hr, hq⟩ := all_correct (by norm_num) srt o rnd D 0 [5]
  obtain ⟨r', hr', hl, hlt⟩ := C194_violated_high (by norm_num) srt o rnd false D (fun _ => 0) [5] "distance" (.inl rfl) none
    (List.nodup_finRange 9) rfl
  have e := hr.symm.trans hr'
  injection e with e
  obtain rfl := eq_of_heq (Sigma.mk.inj e).2
  obtain ⟨q, hm⟩ := List.exists_mem_of_length_pos (l := r.perK) (by rw [hl]; norm_num)
  exact ⟨r, q, hr, hm, hq q hm, hlt q hm (hq q hm)⟩

end HubToolbox.Rounding
