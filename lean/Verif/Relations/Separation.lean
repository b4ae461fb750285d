import Verif.Relations.Classify
import Verif.Relations.LocalOrder
import Verif.MPEmp.Props
import Verif.SNN.Props

/-!
# Separated classes (C270-C273)

Classes are separated if everybody is nearer to all objects of the own class than to any other object.
-/

set_option autoImplicit false

namespace HubToolbox.Spec

/-- Everybody is nearer to each object of the own class than to any object of another class. -/
def Separated {α : Type} [LT α] {n : ℕ} (x : Fin n → Fin n → α) (y : Fin n → ℤ) : Prop :=
  ∀ i j b, j ≠ i → y j = y i → y b ≠ y i → x i j < x i b

/-- The objects of the class of `i`. -/
def classOf {n : ℕ} (y : Fin n → ℤ) (i : Fin n) : Finset (Fin n) := Finset.univ.filter (fun j => y j = y i)

/-- Similarities as distances. -/
def asDistance {K : Type} [Neg K] {n : ℕ} (metric : String) (x : Fin n → Fin n → K) : Fin n → Fin n → K :=
  fun i j => if metric = "distance" then x i j else -x i j

end HubToolbox.Spec

namespace HubToolbox.Knn

open Spec

variable {K : Type} [Field K] [LinearOrder K] [IsStrictOrderedRing K] {n : ℕ}

theorem classOf_erase (y : Fin n → ℤ) (i : Fin n) : ((classOf y i).erase i).card + 1 = (classOf y i).card :=
  Finset.card_erase_add_one (Finset.mem_filter.2 ⟨Finset.mem_univ i, rfl⟩)

/-- The nearest neighbours are of the own class. -/
theorem knn_own_class {metric : String} (hm : metric = "distance" ∨ metric = "similarity") {D : Fin n → Fin n → XR K} {x : Fin n → Fin n → K}
    (hD : ∀ i j, i ≠ j → D i j = .fin (x i j)) {y : Fin n → ℤ} (hsep : Separated (asDistance metric x) y) {i : Fin n} {k : ℕ}
    (hk : k < (classOf y i).card) {N : List (Fin n)} (hN : IsKNN metric (D i) (Finset.univ.erase i) k N) : ∀ b ∈ N, y b = y i := by
  intro b hb
  by_contra hne
  have hsub : ∀ j ∈ (classOf y i).erase i, j ∈ N := by
    intro j hj
    obtain ⟨hji, hj⟩ := Finset.mem_erase.1 hj
    have hyj := (Finset.mem_filter.1 hj).2
    by_contra hjN
    have hbi : b ≠ i := fun e => hne (by rw [e])
    have h := hN.nearest b hb j (Finset.mem_erase.2 ⟨hji, Finset.mem_univ j⟩) (by rw [hD i j hji.symm]; rfl) hjN
    have hs := hsep i j b hji hyj hne
    unfold asDistance at hs
    unfold Nearer at h
    rw [hD i j hji.symm, hD i b hbi.symm] at h
    rcases hm with rfl | rfl
    · simp only [if_true] at h hs
      exact absurd hs (not_lt.2 (XR.fin_le_fin.1 h))
    · simp only [show ("similarity" : String) ≠ "distance" by decide, if_false] at h hs
      exact absurd (neg_lt_neg_iff.1 hs) (not_lt.2 (XR.fin_le_fin.1 h))
  have hbn : b ∉ (classOf y i).erase i := fun h => hne (Finset.mem_filter.1 (Finset.mem_of_mem_erase h)).2
  have hle : (insert b ((classOf y i).erase i)).card ≤ N.toFinset.card := Finset.card_le_card fun j hj => by
    rw [List.mem_toFinset]
    rcases Finset.mem_insert.1 hj with rfl | hj
    · exact hb
    · exact hsub j hj
  rw [Finset.card_insert_of_notMem hbn, classOf_erase, List.toFinset_card_of_nodup hN.nodup, hN.length] at hle
  omega

theorem vote_const {labels : List ℤ} (hne : labels ≠ []) {c p : ℤ} (h : ∀ l ∈ labels, l = c) (hv : IsVote labels p) : p = c := by
  refine hv.1 c fun c' hc' => ?_
  have h0 : labels.count c' = 0 := List.count_eq_zero.2 fun hmem => hc' (h c' hmem)
  rw [h0, List.count_pos_iff]
  obtain ⟨l, hl⟩ := List.exists_mem_of_ne_nil labels hne
  rw [← h l hl]
  exact hl

/-- **C270**: if classes are separated and have more than `k` members, every object is classified correctly by `score`, and the accuracy is one,
whatever the ties and their resolution. -/
theorem C270 (hn : 0 < n) (srt : ArgSort (XR K)) (o : ArgPart (XR K)) (rnd : Rnd) (D : Fin n → Fin n → XR K) (x : Fin n → Fin n → K)
    (hD : ∀ i j, i ≠ j → D i j = .fin (x i j)) (y : Fin n → ℤ) (metric : String) (hm : metric = "distance" ∨ metric = "similarity")
    (hsep : Separated (asDistance metric x) y) (ks : List ℤ) (hk : ∀ k ∈ ks, 1 ≤ k ∧ ∀ i, k < (classOf y i).card) :
    ∃ r, score srt o rnd (.mat false n n D) (.vec n y) (.list ks) metric none = .ok ⟨n, r⟩ ∧ r.perK.length = ks.length ∧
      ∀ q ∈ r.perK, q.acc = 1 ∧ (∀ i, q.corr i = 1) ∧ ∀ a b, y a ≠ y b → q.cmat (labelRank y (y a)) (labelRank y (y b)) = 0 := by
  obtain ⟨r, h1, h2⟩ := C43_dense_loo srt o rnd D y ks (fun k h => (hk k h).1) metric hm
  obtain ⟨r', h1', h3, h4⟩ := C42_loo hn srt o rnd false D y ks metric hm
  have e : r' = r := by
    rw [h1] at h1'
    have := Except.ok.inj h1'
    simpa using this.symm
  subst e
  refine ⟨r', h1, h3, fun q hq => ?_⟩
  obtain ⟨j, hj, hjq⟩ := List.mem_iff_getElem.1 hq
  have hj' : j < ks.length := by rw [← h3]; exact hj
  obtain ⟨q', hq', pred, p1, p2, p3⟩ := h2 j hj'
  rw [List.getElem?_eq_getElem hj, hjq] at hq'
  obtain rfl := Option.some.inj hq'
  have hkj := hk ks[j] (List.getElem_mem hj')
  have hok : ∀ i : Fin n, (∃ x, x ≠ i ∧ (D i x).isFinite = true) ∧ ∀ x, x ≠ i → D i x ≠ tooNear metric := by
    intro i
    have hc := hkj.2 i
    have hpos : 0 < ((classOf y i).erase i).card := by
      have := classOf_erase y i
      omega
    obtain ⟨a, ha⟩ := Finset.card_pos.1 hpos
    have hai := (Finset.mem_erase.1 ha).1
    refine ⟨⟨a, hai, by rw [hD i a hai.symm]; rfl⟩, fun b hb => ?_⟩
    rw [hD i b hb.symm]
    unfold tooNear
    split <;> simp
  have hpred : ∀ i, pred i = y i := by
    intro i
    obtain ⟨N, hne, hN, hv⟩ := p3 i (hok i)
    refine vote_const (by simpa using hne) (fun l hl => ?_) hv
    obtain ⟨b, hb, rfl⟩ := List.mem_map.1 hl
    exact knn_own_class hm hD hsep (by have := hkj.2 i; have := hkj.1; omega) hN b hb
  have hcorr : ∀ i, q.corr i = 1 := fun i => by rw [p1 i (hok i) (List.mem_finRange i), if_pos (hpred i)]
  refine ⟨?_, hcorr, fun a b hab => ?_⟩
  · rw [(h4 q hq).2.2.1]
    simp only [hcorr, Finset.sum_const, Finset.card_univ, Fintype.card_fin, smul_eq_mul, mul_one, List.length_finRange]
    exact div_self (by exact_mod_cast hn.ne')
  · rw [p2 (fun i _ => hok i) a b, List.countP_eq_zero]
    intro i _
    rw [hpred i, Bool.and_eq_true, decide_eq_true_eq, decide_eq_true_eq]
    exact fun h => hab (h.1.symm.trans h.2)

/-- Separated classes of two and three objects on a line, the first with a small distance to the second; similarities are negative distances. -/
example : Separated (asDistance "distance" fun i j : Fin 5 => |(![0, 2, 5, 6, 7] : Fin 5 → ℚ) i - (![0, 2, 5, 6, 7] : Fin 5 → ℚ) j|) ![0, 0, 1, 1, 1] ∧
    Separated (asDistance "similarity" fun i j : Fin 5 => -|(![0, 2, 5, 6, 7] : Fin 5 → ℚ) i - (![0, 2, 5, 6, 7] : Fin 5 → ℚ) j|) ![0, 0, 1, 1, 1] ∧
    ∀ i, ((1 : ℤ) < (classOf ![0, 0, 1, 1, 1] i).card) := by
  refine ⟨?_, ?_, by decide⟩ <;> unfold Separated asDistance <;> decide +kernel

end HubToolbox.Knn

namespace HubToolbox.MPEmp

open Spec

variable {K : Type} [Field K] [LinearOrder K] [IsStrictOrderedRing K] {n : ℕ}

/-- **C271**: empirical Mutual Proximity keeps separated classes separated. -/
theorem C271 (order : Order K) (D : Fin n → Fin n → XR K) (x : Fin n → Fin n → K) (hD : ∀ i j, i ≠ j → D i j = .fin (x i j))
    (hsym : Spec.Symmetric D) (sp : Bool) (metric : String) (hm : metric = "distance" ∨ metric = "similarity") (test : Option TestArg) (minNnz : ℤ)
    (M : Fin n → Fin n → K) (h : full order (.obj (.mat sp n n D)) metric test minNnz = .ok (.dense n M)) (y : Fin n → ℤ)
    (hsep : Separated (asDistance metric x) y) : Separated (asDistance metric M) y := by
  intro i j b hji hj hb
  have hbi : b ≠ i := fun e => hb (by rw [e])
  have hbj : b ≠ j := fun e => hb (by rw [e, hj])
  have hn : (0 : K) < n := by exact_mod_cast i.pos
  have hxs : ∀ a c, a ≠ c → x a c = x c a := fun a c hac => by
    have := hsym a c
    rw [hD a c hac, hD c a hac.symm] at this
    exact XR.fin.inj this
  set O : Finset (Fin n) := Finset.univ.filter fun z => y z ≠ y i with hO
  have hlt : (O.erase b).card < O.card := Finset.card_erase_lt_of_mem (Finset.mem_filter.2 ⟨Finset.mem_univ b, hb⟩)
  have key : ∀ (F : Fin n → Finset (Fin n)), O ⊆ F j → F b ⊆ O.erase b → (F b).card < (F j).card := fun F h1 h2 =>
    (Finset.card_le_card h2).trans_lt (hlt.trans_le (Finset.card_le_card h1))
  have hz : ∀ z, y z ≠ y i → z ≠ i ∧ z ≠ j := fun z hz => ⟨fun e => hz (by rw [e]), fun e => hz (by rw [e, hj])⟩
  unfold asDistance at hsep ⊢
  rcases hm with rfl | rfl
  · simp only [if_true] at hsep ⊢
    rw [(C21_computes_definition order D sp "distance" test minNnz M h hsym i j).1 rfl,
      (C21_computes_definition order D sp "distance" test minNnz M h hsym i b).1 rfl]
    unfold mpDistance
    rw [if_neg hji.symm, if_neg hbi.symm]
    have : ((farther D i b).card : K) / n < ((farther D i j).card : K) / n := by
      refine div_lt_div_of_pos_right ?_ hn
      refine Nat.cast_lt.2 (key (fun c => farther D i c) (fun z hzO => ?_) (fun z hzF => ?_))
      · have hy := (Finset.mem_filter.1 hzO).2
        obtain ⟨h1, h2⟩ := hz z hy
        refine Finset.mem_filter.2 ⟨Finset.mem_univ z, h1, h2, ?_, ?_⟩
        · rw [hD i j hji.symm, hD i z h1.symm]
          exact hsep i j z hji hj hy
        · rw [hD i j hji.symm, hD j z h2.symm, hxs i j hji.symm]
          exact hsep j i z hji.symm hj.symm (by rw [hj]; exact hy)
      · obtain ⟨-, h1, h2, h3, -⟩ := Finset.mem_filter.1 hzF
        refine Finset.mem_erase.2 ⟨h2, Finset.mem_filter.2 ⟨Finset.mem_univ z, fun hy => ?_⟩⟩
        rw [hD i b hbi.symm, hD i z h1.symm] at h3
        exact absurd (hsep i z b h1 hy hb) (not_lt.2 (le_of_lt h3))
    linarith
  · simp only [show ("similarity" : String) ≠ "distance" by decide, if_false] at hsep ⊢
    have hinf : ∀ a c, a ≠ c → D a c ≠ .pinf := fun a c hac => by rw [hD a c hac]; simp
    rw [(C21_computes_definition order D sp "similarity" test minNnz M h hsym i j).2 rfl (hinf i j hji.symm),
      (C21_computes_definition order D sp "similarity" test minNnz M h hsym i b).2 rfl (hinf i b hbi.symm)]
    unfold mpSimilarity
    rw [if_neg hji.symm, if_neg hbi.symm, neg_lt_neg_iff]
    refine div_lt_div_of_pos_right ?_ hn
    refine Nat.cast_lt.2 (key (fun c => lessSimilar D i c) (fun z hzO => ?_) (fun z hzF => ?_))
    · have hy := (Finset.mem_filter.1 hzO).2
      obtain ⟨h1, h2⟩ := hz z hy
      refine Finset.mem_filter.2 ⟨Finset.mem_univ z, h1, h2, ?_, ?_⟩
      · rw [hD i j hji.symm, hD i z h1.symm]
        exact (neg_lt_neg_iff.1 (hsep i j z hji hj hy)).le
      · rw [hD i j hji.symm, hD j z h2.symm, hxs i j hji.symm]
        exact (neg_lt_neg_iff.1 (hsep j i z hji.symm hj.symm (by rw [hj]; exact hy))).le
    · obtain ⟨-, h1, h2, h3, -⟩ := Finset.mem_filter.1 hzF
      refine Finset.mem_erase.2 ⟨h2, Finset.mem_filter.2 ⟨Finset.mem_univ z, fun hy => ?_⟩⟩
      rw [hD i b hbi.symm, hD i z h1.symm] at h3
      exact absurd (neg_lt_neg_iff.1 (hsep i z b h1 hy hb)) (not_lt.2 h3)

/-- **C271**, consequence: the k-nearest-neighbour accuracy of the Mutual Proximity matrix is one. -/
theorem C271_score (hn : 0 < n) (order : Order K) (D : Fin n → Fin n → XR K) (x : Fin n → Fin n → K) (hD : ∀ i j, i ≠ j → D i j = .fin (x i j))
    (hsym : Spec.Symmetric D) (sp : Bool) (metric : String) (hm : metric = "distance" ∨ metric = "similarity") (minNnz : ℤ)
    (y : Fin n → ℤ) (hsep : Separated (asDistance metric x) y) (srt : Knn.ArgSort (XR K)) (o : ArgPart (XR K)) (rnd : Knn.Rnd) (ks : List ℤ)
    (hk : ∀ k ∈ ks, 1 ≤ k ∧ ∀ i, k < (classOf y i).card) :
    ∃ M r, full order (.obj (.mat sp n n D)) metric none minNnz = .ok (.dense n M) ∧
      Knn.score srt o rnd (.mat false n n fun i j => .fin (M i j)) (.vec n y) (.list ks) metric none = .ok ⟨n, r⟩ ∧ r.perK.length = ks.length ∧
      ∀ q ∈ r.perK, q.acc = 1 := by
  have hf : full order (.obj (.mat sp n n D)) metric none minNnz = .ok (.dense n (fullDense metric D)) := by
    simp only [full, fullChecks]
    rcases hm with rfl | rfl <;> rfl
  obtain ⟨r, h1, h2, h3⟩ := Knn.C270 hn srt o rnd (fun i j => .fin (fullDense metric D i j)) (fullDense metric D) (fun _ _ _ => rfl) y metric hm
    (C271 order D x hD hsym sp metric hm none minNnz _ hf y hsep) ks hk
  exact ⟨_, r, hf, h1, h2, fun q hq => (h3 q hq).1⟩

end HubToolbox.MPEmp

namespace HubToolbox.LS

open Spec

/-- Local Scaling keeps the order of two distances. -/
theorem ls_lt {d e ri rj rb : ℝ} (hi : 0 < ri) (hj : 0 < rj) (hb : 0 < rb) (h : d ^ 2 * rb < e ^ 2 * rj) :
    Spec.localScaling d ri rj < Spec.localScaling e ri rb := by
  unfold Spec.localScaling
  rw [sub_lt_sub_iff_left, Real.exp_lt_exp, neg_lt_neg_iff, div_lt_div_iff₀ (mul_pos hi hj) (mul_pos hi hb)]
  nlinarith

theorem nicdm_lt {g d e ri rj rb : ℝ} (hg : 0 < g) (he : 0 ≤ e) (hi : 0 < ri) (hj : 0 < rj) (hb : 0 < rb)
    (h : d ^ 2 * rb < e ^ 2 * rj) : Spec.nicdm g d ri rj < Spec.nicdm g e ri rb := by
  unfold Spec.nicdm
  rw [mul_div_assoc, mul_div_assoc]
  refine mul_lt_mul_of_pos_left ?_ hg
  rw [div_lt_div_iff₀ (Real.sqrt_pos.2 (mul_pos hi hj)) (Real.sqrt_pos.2 (mul_pos hi hb))]
  refine lt_of_pow_lt_pow_left₀ 2 (by positivity) ?_
  rw [mul_pow, mul_pow, Real.sq_sqrt (mul_pos hi hb).le, Real.sq_sqrt (mul_pos hi hj).le]
  nlinarith

/-- **C272** (partial): Local Scaling and NICDM keep classes separated which are compact enough: distances within classes are between `m` and `W`,
those between classes are at least `B`, and `W³ < m B²`. In general they do not, see `C272_violated`. -/
theorem C272_partial (w w' : World) {n : ℕ} (hn : 0 < n) (x : Fin n → Fin n → ℝ) (hsym : ∀ i j, x i j = x j i) (y : Fin n → ℤ) (m W B : ℝ)
    (hm : 0 < m) (hin : ∀ i j, i ≠ j → y i = y j → m ≤ x i j ∧ x i j ≤ W) (hout : ∀ i j, y i ≠ y j → B ≤ x i j) (hB : 0 < B)
    (hgap : W ^ 3 < m * B ^ 2) (k : ℕ) (h1 : 1 ≤ k) (hk : ∀ i, k < (classOf y i).card) (nJobs nJobs' : ℤ) (hj : nJobs = -1 ∨ 1 ≤ nJobs) :
    ∃ L N : Fin n → Fin n → ℝ, localScaling w (.mat false n n (toXR x)) k "distance" none nJobs = .ok ⟨n, toXR L⟩ ∧
      nicdm w' (.mat false n n (toXR x)) k "distance" none nJobs' = .ok ⟨n, toXR N⟩ ∧ Separated L y ∧ Separated N y := by
  have hT : Spec.training n none = Finset.univ := by simp [Spec.training]
  have own : ∀ i, k ≤ ((classOf y i).erase i).card := fun i => by
    have := Knn.classOf_erase y i
    have := hk i
    omega
  have hsub : ∀ i, (classOf y i).erase i ⊆ Finset.univ.erase i := fun i => Finset.erase_subset_erase _ (Finset.subset_univ _)
  have hmW : m ≤ W := by
    obtain ⟨a, ha⟩ := Finset.card_pos.1 (lt_of_lt_of_le h1 (own ⟨0, hn⟩))
    obtain ⟨h2, h3⟩ := Finset.mem_erase.1 ha
    have := hin _ _ h2 (Finset.mem_filter.1 h3).2
    exact this.1.trans this.2
  have hW : 0 < W := hm.trans_le hmW
  have hWB : W < B := by
    by_contra h
    rw [not_lt] at h
    have h2 : B ^ 2 ≤ W ^ 2 := pow_le_pow_left₀ hB.le h 2
    have h3 : m * B ^ 2 ≤ W * W ^ 2 := mul_le_mul hmW h2 (by positivity) hW.le
    have h4 : W ^ 3 = W * W ^ 2 := by ring
    linarith
  have hlow : ∀ i j, j ≠ i → m ≤ x i j := fun i j hji => by
    by_cases e : y i = y j
    · exact (hin i j hji.symm e).1
    · exact (hmW.trans hWB.le).trans (hout i j e)
  have hc : ∀ i, k ≤ ((Spec.training n none).erase i).card := fun i => by
    rw [hT]
    exact (own i).trans (Finset.card_le_card (hsub i))
  obtain ⟨r, hr⟩ := C28_radii_exist x k h1 none hc
  choose N hN using fun i => C32_nearest_exist (x i) _ k (hc i)
  have hr' : ∀ i, m ≤ r i ∧ r i ≤ W := fun i => by
    have h2 := hr i
    rw [hT] at h2
    obtain ⟨c, hc, e⟩ := h2.attained
    refine ⟨by rw [← e]; exact hlow i c (Finset.mem_erase.1 hc).1, ?_⟩
    by_contra h
    rw [not_le] at h
    have h3 : (classOf y i).erase i ⊆ (Finset.univ.erase i).filter fun j => x i j < r i := fun c hc => by
      obtain ⟨h4, h5⟩ := Finset.mem_erase.1 hc
      exact Finset.mem_filter.2 ⟨hsub i hc, (hin i c h4.symm (Finset.mem_filter.1 h5).2.symm).2.trans_lt h⟩
    have h6 := Finset.card_le_card h3
    have := own i
    have := h2.below
    omega
  have hNin : ∀ i, ∀ c ∈ N i, m ≤ x i c ∧ x i c ≤ W := fun i c hc => by
    have h2 := hN i
    rw [hT] at h2
    have hci := (Finset.mem_erase.1 (h2.sub hc)).1
    refine ⟨hlow i c hci, ?_⟩
    by_contra h
    rw [not_le] at h
    have h3 : insert c ((classOf y i).erase i) ⊆ N i := fun j hj => by
      rcases Finset.mem_insert.1 hj with rfl | hj
      · exact hc
      · by_contra hjN
        obtain ⟨h4, h5⟩ := Finset.mem_erase.1 hj
        have h6 := h2.best c hc j (hsub i hj) hjN
        have h7 := (hin i j h4.symm (Finset.mem_filter.1 h5).2.symm).2
        linarith
    have h8 : c ∉ (classOf y i).erase i := fun h4 => by
      obtain ⟨h4, h5⟩ := Finset.mem_erase.1 h4
      have := (hin i c h4.symm (Finset.mem_filter.1 h5).2.symm).2
      linarith
    have h9 := Finset.card_le_card h3
    rw [Finset.card_insert_of_notMem h8, h2.card] at h9
    have := own i
    omega
  have hmean : ∀ i, m ≤ Spec.meanOver (N i) (x i) ∧ Spec.meanOver (N i) (x i) ≤ W := fun i => by
    have hcard : (N i).card = k := (hN i).card
    have hk0 : (0 : ℝ) < (N i).card := by rw [hcard]; exact_mod_cast h1
    unfold Spec.meanOver
    constructor
    · rw [le_div_iff₀ hk0]
      have := Finset.card_nsmul_le_sum (N i) (x i) m fun c hc => (hNin i c hc).1
      rw [nsmul_eq_mul] at this
      linarith
    · rw [div_le_iff₀ hk0]
      have := Finset.sum_le_card_nsmul (N i) (x i) W fun c hc => (hNin i c hc).2
      rw [nsmul_eq_mul] at this
      linarith
  have key : ∀ (ρ : Fin n → ℝ), (∀ i, m ≤ ρ i ∧ ρ i ≤ W) → ∀ i j b, j ≠ i → y j = y i → y b ≠ y i → x i j ^ 2 * ρ b < x i b ^ 2 * ρ j := by
    intro ρ hρ i j b hji hj hb
    have h2 := hin i j hji.symm hj.symm
    have h3 := hout i b (fun e => hb e.symm)
    have h4 : x i j ^ 2 * ρ b ≤ W ^ 2 * W :=
      mul_le_mul (pow_le_pow_left₀ (hm.le.trans h2.1) h2.2 2) (hρ b).2 (hm.le.trans (hρ b).1) (by positivity)
    have h5 : B ^ 2 * m ≤ x i b ^ 2 * ρ j := mul_le_mul (pow_le_pow_left₀ hB.le h3 2) (hρ j).1 hm.le (by positivity)
    have h6 : W ^ 3 = W ^ 2 * W := by ring
    linarith
  have pos : ∀ (ρ : Fin n → ℝ), (∀ i, m ≤ ρ i ∧ ρ i ≤ W) → ∀ i, 0 < ρ i := fun ρ hρ i => hm.trans_le (hρ i).1
  refine ⟨_, _, C28_formula w x hsym k h1 none nJobs hj r hr (pos r hr') hn,
    C32_formula w' x hsym k h1 none nJobs' N hN (pos _ hmean) hn, fun i j b hji hj hb => ?_, fun i j b hji hj hb => ?_⟩
  · have hbi : b ≠ i := fun e => hb (by rw [e])
    beta_reduce
    rw [if_neg hji.symm, if_neg hbi.symm]
    exact ls_lt (pos r hr' i) (pos r hr' j) (pos r hr' b) (key r hr' i j b hji hj hb)
  · have hbi : b ≠ i := fun e => hb (by rw [e])
    beta_reduce
    rw [if_neg hji.symm, if_neg hbi.symm]
    exact nicdm_lt (Real.rpow_pos_of_pos (Finset.prod_pos fun i _ => pos _ hmean i) _) (hm.le.trans (hlow i b hbi)) (pos _ hmean i) (pos _ hmean j)
      (pos _ hmean b) (key _ hmean i j b hji hj hb)

/-- Five points on a line. -/
def line5 : Fin 5 → Fin 5 → ℤ := fun i j => |(![0, 16, 17, -20, -36] : Fin 5 → ℤ) i - (![0, 16, 17, -20, -36] : Fin 5 → ℤ) j|

/-- C272 is violated: the classes `{0, 16, 17}` and `{-20, -36}` on a line are separated, but with `k = 1` Local Scaling and NICDM make `-20` the nearest
object of `0`, nearer than both objects of its own class. -/
theorem C272_violated (w w' : World) :
    Separated (fun i j => (line5 i j : ℝ)) ![0, 0, 0, 1, 1] ∧ (∀ i, 1 < (classOf ![0, 0, 0, 1, 1] i).card) ∧
    ∃ L N : Fin 5 → Fin 5 → ℝ, localScaling w (.mat false 5 5 (toXR fun i j => (line5 i j : ℝ))) (1 : ℕ) "distance" none 1 = .ok ⟨5, toXR L⟩ ∧
      nicdm w' (.mat false 5 5 (toXR fun i j => (line5 i j : ℝ))) (1 : ℕ) "distance" none 1 = .ok ⟨5, toXR N⟩ ∧
      (∀ j, j ≠ 0 → j ≠ 3 → L 0 3 < L 0 j) ∧ (∀ j, j ≠ 0 → j ≠ 3 → N 0 3 < N 0 j) := by
  refine ⟨fun i j b => ?_, by decide, ?_⟩
  · rw [Int.cast_lt]
    revert i j b
    decide
  have hsym : ∀ i j, ((line5 i j : ℤ) : ℝ) = (line5 j i : ℤ) := fun i j => by
    rw [show line5 i j = line5 j i from abs_sub_comm _ _]
  have hpos : ∀ i j : Fin 5, i ≠ j → (0 : ℝ) < (line5 i j : ℤ) := fun i j => by
    rw [Int.cast_pos]
    revert i j
    decide
  obtain ⟨r, g, hr, hrp, hg, e1, e2⟩ := one_neighbour w w' (by norm_num) (fun i j => (line5 i j : ℝ)) hsym hpos 1 1 (Or.inr le_rfl)
  have hr' : ∀ i, r i = ((![16, 1, 1, 16, 16] : Fin 5 → ℤ) i : ℝ) := fun i =>
    kthSmallest_unique (hr i) (kth_int line5 ![16, 1, 1, 16, 16] (by decide) i)
  have hlt : ∀ j : Fin 5, j ≠ 0 → j ≠ 3 → ratio (fun i j => (line5 i j : ℝ)) r 0 3 < ratio (fun i j => (line5 i j : ℝ)) r 0 j := by
    intro j h1 h2
    unfold ratio
    rw [if_neg (by decide), if_neg h1.symm, div_lt_div_iff₀ (mul_pos (hrp _) (hrp _)) (mul_pos (hrp _) (hrp _))]
    simp only [hr']
    norm_cast
    revert j
    decide
  refine ⟨_, _, e1, e2, fun j h1 h2 => ?_, fun j h1 h2 => ?_⟩
  · beta_reduce
    rw [sub_lt_sub_iff_left, Real.exp_lt_exp, neg_lt_neg_iff]
    exact hlt j h1 h2
  · exact mul_lt_mul_of_pos_left (Real.sqrt_lt_sqrt (ratio_nonneg hrp _ _) (hlt j h1 h2)) hg

/-- The hypotheses of `C272_partial` hold for two pairs far from each other. -/
example : let x : Fin 4 → Fin 4 → ℝ := fun i j => |(![0, 1, 10, 12] : Fin 4 → ℝ) i - (![0, 1, 10, 12] : Fin 4 → ℝ) j|
    let y : Fin 4 → ℤ := ![0, 0, 1, 1]
    (∀ i j, i ≠ j → y i = y j → 1 ≤ x i j ∧ x i j ≤ 2) ∧ (∀ i j, y i ≠ y j → 9 ≤ x i j) ∧ (2 : ℝ) ^ 3 < 1 * 9 ^ 2 ∧ ∀ i, 1 < (classOf y i).card := by
  refine ⟨fun i j => ?_, fun i j => ?_, by norm_num, by decide⟩ <;> fin_cases i <;> fin_cases j <;> simp <;> norm_num

end HubToolbox.LS

namespace HubToolbox.SNN

open Spec

variable {K : Type} [Field K] [LinearOrder K] [IsStrictOrderedRing K] {n : ℕ}

theorem hood_own_class {metric : String} (hm : metric = "distance" ∨ metric = "similarity") {x : Fin n → Fin n → K} {y : Fin n → ℤ}
    (hsep : Separated (asDistance metric x) y) {i : Fin n} {k : ℕ} (hk : k < (classOf y i).card) {N : Finset (Fin n)}
    (hN : IsHood (nearer metric) (Finset.univ.erase i) (x i) k N) : N ⊆ (classOf y i).erase i := by
  intro b hb
  refine Finset.mem_erase.2 ⟨(Finset.mem_erase.1 (hN.sub hb)).1, Finset.mem_filter.2 ⟨Finset.mem_univ b, ?_⟩⟩
  by_contra hne
  have hsub : insert b ((classOf y i).erase i) ⊆ N := fun j hj => by
    rcases Finset.mem_insert.1 hj with rfl | hj
    · exact hb
    · obtain ⟨hji, hj⟩ := Finset.mem_erase.1 hj
      by_contra hjN
      have h := hN.best b hb j (Finset.mem_erase.2 ⟨hji, Finset.mem_univ j⟩) hjN
      have hs := hsep i j b hji (Finset.mem_filter.1 hj).2 hne
      unfold asDistance at hs
      unfold nearer at h
      rcases hm with rfl | rfl
      · simp only [show ("distance" : String) ≠ "similarity" by decide, if_false, if_true] at h hs
        exact absurd hs (not_lt.2 h)
      · simp only [show ("similarity" : String) ≠ "distance" by decide, if_false, if_true] at h hs
        exact absurd (neg_lt_neg_iff.1 hs) (not_lt.2 h)
  have hbn : b ∉ (classOf y i).erase i := fun h => hne (Finset.mem_filter.1 (Finset.mem_of_mem_erase h)).2
  have hle := Finset.card_le_card hsub
  rw [Finset.card_insert_of_notMem hbn, Knn.classOf_erase, hN.card] at hle
  omega

/-- **C273**: if classes are separated and have more than `k` members, objects of different classes share no neighbours: their distance is one, the
largest possible, and their similarity zero. Classes with less than `2k` members stay separated. -/
theorem C273 (w : World K) (D : Fin n → Fin n → XR K) (x : Fin n → Fin n → K)
    (hD : ∀ i j, i ≠ j → D i j = .fin (x i j)) (k : ℕ) (h1 : 1 ≤ k) (hn : 0 < n) (metric : String)
    (hm : metric = "distance" ∨ metric = "similarity") (nJobs : ℤ) (y : Fin n → ℤ) (hsep : Separated (asDistance metric x) y)
    (hk : ∀ i, k < (classOf y i).card) :
    ∃ M : Fin n → Fin n → K, sharedNearestNeighbors w (.mat false n n D) k metric nJobs = .ok ⟨n, fun i j => .fin (M i j)⟩ ∧
      (∀ i b, y i ≠ y b → M i b = if metric = "similarity" then 0 else 1) ∧
      ∀ i, (classOf y i).card < 2 * k → ∀ j b, j ≠ i → y j = y i → y b ≠ y i → asDistance metric M i j < asDistance metric M i b := by
  have hkn : k < n := (hk ⟨0, hn⟩).trans_le (by
    have := Finset.card_le_univ (classOf y ⟨0, hn⟩)
    rwa [Fintype.card_fin] at this)
  obtain ⟨N, hN, e⟩ := C34_formula w D x hD k h1 hkn metric hm nJobs
  have hk0 : (0 : K) < k := by exact_mod_cast h1
  have own : ∀ i, N i ⊆ (classOf y i).erase i := fun i => hood_own_class hm hsep (hk i) (hN i)
  have hcls : ∀ i, ∀ c ∈ N i, y c = y i := fun i c hc => (Finset.mem_filter.1 (Finset.mem_of_mem_erase (own i hc))).2
  have hdis : ∀ i b, y i ≠ y b → N i ∩ N b = ∅ := fun i b hib => by
    rw [← Finset.disjoint_iff_inter_eq_empty, Finset.disjoint_left]
    exact fun c hc hc' => hib ((hcls i c hc).symm.trans (hcls b c hc'))
  have hz : ∀ i b, y i ≠ y b → (commonFraction (N i) (N b) k : K) = 0 := fun i b hib => by
    unfold commonFraction
    rw [hdis i b hib, Finset.card_empty, Nat.cast_zero, zero_div]
  refine ⟨_, e, fun i b hib => ?_, fun i hc j b hji hj hb => ?_⟩
  · rw [if_neg (fun h => hib (by rw [h]))]
    unfold snn
    rw [hz i b hib, sub_zero]
  · have hbi : b ≠ i := fun e => hb (by rw [e])
    have hpos : (0 : K) < commonFraction (N i) (N j) k := by
      refine div_pos (Nat.cast_pos.2 ?_) hk0
      have hu : N i ∪ N j ⊆ classOf y i := fun c hc => Finset.mem_filter.2 ⟨Finset.mem_univ c, by
        rcases Finset.mem_union.1 hc with h | h
        · exact hcls i c h
        · rw [hcls j c h, hj]⟩
      have h2 := Finset.card_union_add_card_inter (N i) (N j)
      have h3 := Finset.card_le_card hu
      rw [(hN i).card, (hN j).card] at h2
      omega
    have h0 := hz i b (fun e => hb e.symm)
    unfold asDistance
    beta_reduce
    rw [if_neg hji.symm, if_neg hbi.symm]
    unfold snn
    rw [h0]
    rcases hm with rfl | rfl
    · simp only [show ("distance" : String) ≠ "similarity" by decide, if_false, if_true]
      linarith
    · simp only [show ("similarity" : String) ≠ "distance" by decide, if_false, if_true]
      linarith

/-- Two separated classes on a line, of three objects each. -/
example : Separated (asDistance "distance" fun i j : Fin 6 => |(![0, 1, 3, 10, 11, 13] : Fin 6 → ℚ) i - (![0, 1, 3, 10, 11, 13] : Fin 6 → ℚ) j|)
    ![0, 0, 0, 1, 1, 1] ∧ ∀ i, 2 < (classOf ![0, 0, 0, 1, 1, 1] i).card ∧ (classOf ![0, 0, 0, 1, 1, 1] i).card < 2 * 2 := by
  refine ⟨?_, by decide⟩
  unfold Separated asDistance
  decide +kernel

end HubToolbox.SNN
