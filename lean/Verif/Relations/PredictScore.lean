import Verif.Relations.Classify
import Verif.Knn.TestSet

/-!
# C232: `predict` and `score`; C233: several values of `k` at once; C234: points without a finite neighbour
-/

set_option autoImplicit false

namespace HubToolbox.Knn

open HubToolbox.Spec

variable {K : Type} [Field K] [LinearOrder K] {n : ℕ}

/-! ### C232 -/

/-- **C232**: started with the same state of the random number generator, `predict` and `score` make the same predictions, for each
column of the target: the points classified correctly, the accuracy and the confusion matrix of `score` are those of the predictions
of `predict`. Classes are numbered within all columns by `predict`, and within one column by `score`. Any matrix, ties or not, finite
or not. -/
theorem C232 {c : ℕ} (srt : ArgSort (XR K)) (o : ArgPart (XR K)) (rnd : Rnd) (D : Fin n → Fin n → XR K) (y : Fin n → Fin c → ℤ)
    (ks : List ℤ) (hk : ∀ k ∈ ks, 1 ≤ k) (metric : String) (hm : metric = "distance" ∨ metric = "similarity") (l : Fin c) :
    ∃ P r, predict srt rnd D y (.list ks) metric none = .ok P ∧
      score srt o rnd (.mat false n n D) (.vec n fun i => y i l) (.list ks) metric none = .ok ⟨n, r⟩ ∧
      ∀ j, j < ks.length → ∃ q, r.perK[j]? = some q ∧
        (∀ i, q.corr i = if P.yPred j i l = labelRank (allLabels y) (y i l) then 1 else 0) ∧
        q.acc = ((Finset.univ.filter fun i => P.yPred j i l = labelRank (allLabels y) (y i l)).card : K) / n ∧
        ∀ a b, q.cmat (labelRank (fun i => y i l) (y a l)) (labelRank (fun i => y i l) (y b l))
          = P.cmat j l (labelRank (allLabels y) (y a l)) (labelRank (allLabels y) (y b l)) := by
  refine ⟨_, _, predict_ok srt rnd D y ks hk metric hm, score_dense_loo srt o rnd D (fun i => y i l) ks metric hm, fun j hj => ?_⟩
  refine ⟨_, runDense_get srt rnd metric ks _ _ _ _ _ _ j hj, ?_⟩
  rw [tally_eq]
  set N : Fin n → List (Fin n) := fun i => (predNN srt rnd metric ks D i).getD j [] with hNdef
  set cl := labelsOf (List.ofFn fun i => y i l) with hcl
  -- the label voted for
  have key : ∀ i, ∃ v, (∃ a, v = y a l) ∧ vote (cl.length - 1) ((N i).map fun x => encode cl (y x l)) = encode cl v ∧
      vote 0 ((N i).map fun x => encode (predLabels y) (y x l)) = encode (predLabels y) v := by
    intro i
    have hne : N i ≠ [] := by
      refine predNN_ne_nil srt rnd metric ks hk D i _ ?_
      have : j < (predNN srt rnd metric ks D i).length := by unfold predNN; rwa [nnLists_length]
      simp only [hNdef, List.getD_eq_getElem _ _ this]
      exact List.getElem_mem _
    obtain ⟨v, hv1, hv2, hv3⟩ := vote_label (cl.length - 1) (List.ofFn fun i => y i l) (N i) (fun x => y x l)
      (fun x => by simp [List.mem_ofFn]) hne
    obtain ⟨v', hv1', hv2', hv3'⟩ := vote_label 0 _ (N i) (fun x => y x l) (fun x => mem_predLabels y x l) hne
    obtain rfl := Relations.isVote_unique hv3 hv3'
    obtain ⟨a, ha⟩ := List.mem_ofFn.1 hv1
    exact ⟨v, ⟨a, ha.symm⟩, hv2.symm, hv2'.symm⟩
  have hcol : ∀ a, encode cl (y a l) = labelRank (fun i => y i l) (y a l) := fun a => rank_eq (fun i => y i l) a
  have hall : ∀ a, encode (predLabels y) (y a l) = labelRank (allLabels y) (y a l) := fun a => pred_rank_eq y _ (mem_predLabels y a l)
  have inj1 : ∀ a b, encode cl (y a l) = encode cl (y b l) ↔ y a l = y b l :=
    fun a b => ⟨encode_inj_ofFn (fun i => y i l) a b, fun e => by rw [e]⟩
  have inj2 : ∀ a b, encode (predLabels y) (y a l) = encode (predLabels y) (y b l) ↔ y a l = y b l :=
    fun a b => ⟨fun e => encode_inj (mem_predLabels y a l) (mem_predLabels y b l) e, fun e => by rw [e]⟩
  have hiff : ∀ i b, (vote (cl.length - 1) ((N i).map fun x => encode cl (y x l)) = encode cl (y b l) ↔
      vote 0 ((N i).map fun x => encode (predLabels y) (y x l)) = encode (predLabels y) (y b l)) := by
    intro i b
    obtain ⟨v, ⟨a, rfl⟩, h1, h2⟩ := key i
    rw [h1, h2, inj1, inj2]
  refine ⟨fun i => ?_, ?_, fun a b => ?_⟩
  · simp only [← hall]
    exact if_congr ((and_iff_right (List.mem_finRange i)).trans (hiff i i)) rfl rfl
  · simp only [← hall, List.length_finRange]
    congr 2
    rw [countP_eq_card (List.nodup_finRange n)]
    congr 1
    ext i
    simp only [Finset.mem_filter, List.mem_finRange, Finset.mem_univ, true_and]
    exact hiff i i
  · simp only [← hcol, ← hall]
    refine List.countP_congr fun i _ => ?_
    simp only [Bool.and_eq_true, decide_eq_true_eq]
    exact and_congr ((eq_comm.trans (inj1 i a)).trans (inj2 i a).symm) (eq_comm.trans (hiff i b))

/-! ### C233 -/

/-- The nearest candidate is at finite distance. -/
theorem order_head (srt : ArgSort (XR K)) {m : ℕ} (metric : String) (row : Fin m → XR K) (rp : List (Fin m))
    (hfin : ∃ x ∈ rp, (row x).isFinite = true) (htoo : ∀ x ∈ rp, row x ≠ tooNear metric) :
    ∃ x t, order srt metric row rp = x :: t ∧ (row x).isFinite = true := by
  have hmem : ∀ x, x ∈ order srt metric row rp ↔ x ∈ rp ∧ row x ≠ .nan := by
    intro x; rw [(order_perm srt metric row rp).mem_iff, List.mem_filter]; simp
  have hsort := order_pairwise srt metric row rp
  obtain ⟨x, hx, hxf⟩ := hfin
  have hxo : x ∈ order srt metric row rp := (hmem x).2 ⟨hx, by rintro h; rw [h] at hxf; simp at hxf⟩
  cases ho : order srt metric row rp with
  | nil => rw [ho] at hxo; simp at hxo
  | cons y t =>
    refine ⟨y, t, rfl, ?_⟩
    have hy := (hmem y).1 (by rw [ho]; exact List.mem_cons_self)
    rw [ho] at hxo hsort
    rcases List.mem_cons.1 hxo with rfl | hxt
    · exact hxf
    · have hn := (List.pairwise_cons.1 hsort).1 x hxt
      have ht := htoo y hy.1
      obtain ⟨vx, hvx⟩ := XR.isFinite_iff.1 hxf
      unfold Nearer at hn
      unfold tooNear at ht
      rw [hvx] at hn
      split at hn
      · rename_i hm
        rw [if_pos hm] at ht
        cases hry : row y <;> simp_all
      · rename_i hm
        rw [if_neg hm] at ht
        cases hry : row y <;> simp_all

/-- One value of `k` at a time. -/
theorem nnLists_single {m : ℕ} (row : Fin m → XR K) (again : ℕ → List (Fin m) → List (Fin m)) (ks : List ℤ) (hk : ∀ k ∈ ks, 1 ≤ k)
    (x : Fin m) (t : List (Fin m)) (hx : (row x).isFinite = true) (j : ℕ) (hj : j < ks.length) :
    (nnLists row again ks 0 (x :: t)).getD j [] = (nnLists row again [ks[j]] 0 (x :: t)).getD 0 [] := by
  rw [nnLists_of_head row again ks 0 x t hx hk, nnLists_of_head row again [ks[j]] 0 x t hx
    (fun k hk' => by rw [List.mem_singleton.1 hk']; exact hk _ (List.getElem_mem hj))]
  simp [hj]

theorem masked_head (srt : ArgSort (XR K)) (rnd : Rnd) (metric : String) (d : Fin n → XR K) (i : Fin n)
    (hfin : ∃ x, x ≠ i ∧ (d x).isFinite = true) (htoo : ∀ x, x ≠ i → d x ≠ tooNear metric) :
    ∃ x t, order srt metric (Function.update d i (dSelf metric)) (rnd.first i.val (List.finRange n)) = x :: t ∧
      (Function.update d i (dSelf metric) x).isFinite = true := by
  have hperm := rnd.first_perm i.val (List.finRange n)
  obtain ⟨x, hxi, hxf⟩ := hfin
  refine order_head srt metric _ _ ⟨x, hperm.mem_iff.2 (List.mem_finRange x), by rw [Function.update_of_ne hxi]; exact hxf⟩ fun z _ => ?_
  by_cases hz : z = i
  · rw [hz, Function.update_self]
    unfold dSelf tooNear
    split <;> simp
  · rw [Function.update_of_ne hz]; exact htoo z hz

theorem score_int (srt : ArgSort (XR K)) (o : ArgPart (XR K)) (rnd : Rnd) (D : PyMat (XR K)) (y : PyVec ℤ) (k : ℤ) (metric : String)
    (test : Option (List ℕ)) : score srt o rnd D y (.int k) metric test = score srt o rnd D y (.list [k]) metric test := by
  unfold score
  rfl

theorem predict_int {c : ℕ} (srt : ArgSort (XR K)) (rnd : Rnd) (D : Fin n → Fin n → XR K) (y : Fin n → Fin c → ℤ) (k : ℤ)
    (metric : String) : predict srt rnd D y (.int k) metric none = predict srt rnd D y (.list [k]) metric none := by
  unfold predict
  rfl

/-- **C233**, the part which holds: if every point has a neighbour at finite distance and none infinitely near, an experiment with
several values of `k` gives for each of them exactly the result of an experiment with this value alone, started with the same state of
the random number generator. Missing: infinitely near points, see `C233_violated`. -/
theorem C233_partial (srt : ArgSort (XR K)) (o : ArgPart (XR K)) (rnd : Rnd) (D : Fin n → Fin n → XR K) (y : Fin n → ℤ)
    (ks : List ℤ) (hk : ∀ k ∈ ks, 1 ≤ k) (metric : String) (hm : metric = "distance" ∨ metric = "similarity")
    (hfin : ∀ i, ∃ x, x ≠ i ∧ (D i x).isFinite = true) (htoo : ∀ i x, x ≠ i → D i x ≠ tooNear metric)
    (j : ℕ) (hj : j < ks.length) :
    ∃ r r' q, score srt o rnd (.mat false n n D) (.vec n y) (.list ks) metric none = .ok ⟨n, r⟩ ∧
      score srt o rnd (.mat false n n D) (.vec n y) (.int ks[j]) metric none = .ok ⟨n, r'⟩ ∧
      r.nClasses = r'.nClasses ∧ r.perK[j]? = some q ∧ r'.perK = [q] := by
  rw [score_int]
  refine ⟨_, _, _, score_dense_loo srt o rnd D y ks metric hm, score_dense_loo srt o rnd D y [ks[j]] metric hm, ?_,
    runDense_get srt rnd metric ks _ _ _ _ _ _ j hj, ?_⟩
  · simp only [runDense]
  unfold runDense
  simp only [List.length_singleton, List.range_one, List.map_singleton, List.cons.injEq, and_true]
  congr 1
  funext i
  obtain ⟨x, t, hxt, hxf⟩ := masked_head srt rnd metric (D i) i (hfin i) (htoo i)
  rw [hxt, nnLists_single _ _ ks hk x t hxf j hj]

/-- **C233** (`predict`), the part which holds. Missing: as for `score`. -/
theorem C233_predict_partial {c : ℕ} (srt : ArgSort (XR K)) (rnd : Rnd) (D : Fin n → Fin n → XR K) (y : Fin n → Fin c → ℤ)
    (ks : List ℤ) (hk : ∀ k ∈ ks, 1 ≤ k) (metric : String) (hm : metric = "distance" ∨ metric = "similarity")
    (hfin : ∀ i, ∃ x, x ≠ i ∧ (D i x).isFinite = true) (htoo : ∀ i x, x ≠ i → D i x ≠ tooNear metric)
    (j : ℕ) (hj : j < ks.length) :
    ∃ P P', predict srt rnd D y (.list ks) metric none = .ok P ∧ predict srt rnd D y (.int ks[j]) metric none = .ok P' ∧
      P.yPred j = P'.yPred 0 ∧ P.cmat j = P'.cmat 0 := by
  have hN : ∀ i, (predNN srt rnd metric ks D i).getD j [] = (predNN srt rnd metric [ks[j]] D i).getD 0 [] := by
    intro i
    unfold predNN
    obtain ⟨x, t, hxt, hxf⟩ := masked_head srt rnd metric (D i) i (hfin i) (htoo i)
    rw [hxt, nnLists_single _ _ ks hk x t hxf j hj]
  rw [predict_int]
  refine ⟨_, _, predict_ok srt rnd D y ks hk metric hm, predict_ok srt rnd D y [ks[j]]
    (fun k hk' => by rw [List.mem_singleton.1 hk']; exact hk _ (List.getElem_mem hj)) metric hm, ?_, ?_⟩
  · funext i l; simp only [hN]
  · funext l a b; simp only [hN]

/-- Random numbers which reverse the list when it is shuffled again. -/
def Rnd.reverse : Rnd := ⟨fun _ l => l, fun _ _ l => l.reverse, fun _ l => .refl l, fun _ _ l => l.reverse_perm⟩

/-- Similarities of four points; points 0 and 1 are infinitely similar. -/
def exInfSim : Fin 4 → Fin 4 → XR ℚ :=
  ![![.pinf, .pinf, .fin 2, .fin 1], ![.pinf, .pinf, .fin 3, .fin 1], ![.fin 2, .fin 3, .pinf, .fin 5], ![.fin 1, .fin 1, .fin 5, .pinf]]

/-- **C233 does not hold** with infinite similarities. For `k = 1` the only neighbour of point 0 is not finite, and the neighbours are
shuffled; the shuffled list is used for `k = 2`, too. With `k = 2` alone the finite one of the two nearest neighbours, point 2, decides.
-/
theorem C233_violated :
    corrs (score (ArgSort.ofSort _) (ArgPart.ofInsertion _) Rnd.reverse (.mat false 4 4 exInfSim) (.vec 4 ![0, 1, 0, 1]) (.list [1, 2])
      "similarity" none) ≠
    corrs (score (ArgSort.ofSort _) (ArgPart.ofInsertion _) Rnd.reverse (.mat false 4 4 exInfSim) (.vec 4 ![0, 1, 0, 1]) (.int 1)
      "similarity" none) ++
    corrs (score (ArgSort.ofSort _) (ArgPart.ofInsertion _) Rnd.reverse (.mat false 4 4 exInfSim) (.vec 4 ![0, 1, 0, 1]) (.int 2)
      "similarity" none) := by decide +kernel

example (srt : ArgSort (XR ℚ)) (o : ArgPart (XR ℚ)) (rnd : Rnd) := C233_partial srt o rnd exLineD ![3, 3, 9, 9, 9] [1, 3] (by decide)
  "distance" (.inl rfl) (by decide +kernel) (by decide +kernel) 1 (by decide)

example (srt : ArgSort (XR ℚ)) (o : ArgPart (XR ℚ)) (rnd : Rnd) := C232 srt o rnd exLineD (fun i => ![![3, 3, 9, 9, 9] i, i.val % 2])
  [1, 3] (by decide) "distance" (.inl rfl) 1

/-! ### C234 -/

/-- **C234 does not hold.** If no other point is at finite distance the point itself is a candidate for the random choice. Three points
at infinite distance of each other with different labels; with some random numbers point 0 is classified correctly, by its own label.
-/
theorem C234_violated :
    corrs (score (ArgSort.ofSort _) (ArgPart.ofInsertion _) Rnd.id (.mat false 3 3 fun _ _ => (.pinf : XR ℚ)) (.vec 3 ![0, 1, 2])
      (.list [1]) "distance" none) = [[1, 0, 0]] := by decide +kernel

/-! ### C235 -/

theorem isVote_mem {L : Type} [DecidableEq L] [Nontrivial L] {labels : List L} {v : L} (h : IsVote labels v) : v ∈ labels := by
  by_cases hs : ∃ c, StrictMode labels c
  · obtain ⟨c, hc⟩ := hs
    rw [h.1 c hc]
    obtain ⟨d, hd⟩ := exists_ne c
    exact List.count_pos_iff.1 (lt_of_le_of_lt (Nat.zero_le _) (hc d hd))
  · push Not at hs
    exact List.mem_of_mem_head? (h.2 hs)

/-- The vote depends on the neighbours only through their number per label and the nearest one. -/
theorem isVote_of_perm {L : Type} [DecidableEq L] {l l' : List L} {v : L} (hp : l.Perm l') (hh : l.head? = l'.head?) (h : IsVote l v) :
    IsVote l' v := by
  have hm : ∀ c, StrictMode l c ↔ StrictMode l' c := fun c => by
    unfold StrictMode
    simp only [hp.count_eq]
  exact ⟨fun c hc => h.1 c ((hm c).2 hc), fun hn => hh ▸ h.2 fun c hc => hn c ((hm c).1 hc)⟩

theorem labelRank_inj {ι : Type} [Fintype ι] (y : ι → ℤ) {v w : ℤ} (hv : ∃ i, y i = v) (hw : ∃ i, y i = w)
    (h : labelRank y v = labelRank y w) : v = w := by
  have key : ∀ a b : ℤ, (∃ i, y i = a) → a < b → labelRank y a < labelRank y b := by
    rintro a b ⟨i, rfl⟩ hab
    refine Finset.card_lt_card ((Finset.ssubset_iff_of_subset fun c hc => ?_).2 ⟨y i, ?_, ?_⟩)
    · rw [Finset.mem_filter] at hc ⊢
      exact ⟨hc.1, hc.2.trans hab⟩
    · simp [hab]
    · simp
  rcases lt_trichotomy v w with hl | hl | hl
  · exact absurd h (key v w hv hl).ne
  · exact hl
  · exact absurd h (key w v hw hl).ne'

/-- With enough positive similarities, the nearest stored points are the nearest points. -/
theorem stored_nearest [IsStrictOrderedRing K] {x : Fin n → K} {i : Fin n} {k : ℕ} {N N' : List (Fin n)}
    (hnn : ∀ a, 0 ≤ x a) (hties : ∀ a b, a ≠ i → b ≠ i → x a ≠ 0 → x a = x b → a = b)
    (hcard : k ≤ (Finset.univ.filter fun a => a ≠ i ∧ x a ≠ 0).card)
    (hN : IsKNN "similarity" (fun a => .fin (x a)) (Finset.univ.erase i) k N)
    (hN' : IsKNNFirst "similarity" (fun a => (.fin (x a) : XR K)) (Finset.univ.filter fun a => a ≠ i ∧ (.fin (x a) : XR K) ≠ .fin 0) k N') :
    N.Perm N' ∧ N.head? = N'.head? := by
  have hstore : ∀ a, (.fin (x a) : XR K) ≠ .fin 0 ↔ x a ≠ 0 := fun a => by simp
  have hsub : (Finset.univ.filter fun a => a ≠ i ∧ x a ≠ 0) ⊆ Finset.univ.erase i := fun a ha =>
    Finset.mem_erase.2 ⟨(Finset.mem_filter.1 ha).2.1, Finset.mem_univ _⟩
  have hlen : N.length = k := by
    rw [hN.length, min_eq_left]
    refine hcard.trans (Finset.card_le_card fun a ha => Finset.mem_filter.2 ⟨hsub ha, rfl⟩)
  have hlen' : N'.length = k := by
    rw [hN'.length, min_eq_left]
    refine hcard.trans (Finset.card_le_card fun a ha => Finset.mem_filter.2 ⟨?_, rfl⟩)
    simpa [hstore] using ha
  have nearer : ∀ a b, Nearer "similarity" (.fin (x a) : XR K) (.fin (x b)) ↔ x b ≤ x a := fun a b => by simp [Nearer]
  have ne_of : ∀ a ∈ N, a ≠ i := fun a ha => (Finset.mem_erase.1 (hN.mem a ha).1).1
  have of' : ∀ a ∈ N', a ≠ i ∧ x a ≠ 0 := fun a ha => by
    have := (Finset.mem_filter.1 (hN'.mem a ha).1).2
    rwa [hstore] at this
  -- all neighbours are stored
  have hpos : ∀ a ∈ N, x a ≠ 0 := by
    intro a ha h0
    have : ∃ b ∈ (Finset.univ.filter fun a => a ≠ i ∧ x a ≠ 0), b ∉ N := by
      by_contra hno
      push Not at hno
      have hss : (Finset.univ.filter fun a => a ≠ i ∧ x a ≠ 0) ⊂ N.toFinset := by
        rw [Finset.ssubset_iff_of_subset (fun b hb => List.mem_toFinset.2 (hno b hb))]
        exact ⟨a, List.mem_toFinset.2 ha, fun hb => (Finset.mem_filter.1 hb).2.2 h0⟩
      have := Finset.card_lt_card hss
      rw [List.toFinset_card_of_nodup hN.nodup, hlen] at this
      omega
    obtain ⟨b, hb, hbN⟩ := this
    have h1 := (nearer a b).1 (hN.nearest a ha b (hsub hb) rfl hbN)
    rw [h0] at h1
    exact (Finset.mem_filter.1 hb).2.2 (le_antisymm h1 (hnn b))
  have hss : N ⊆ N' := by
    intro a ha
    by_contra hna
    have : ∃ b ∈ N', b ∉ N := by
      by_contra hno
      push Not at hno
      have hss : N'.toFinset ⊂ N.toFinset := by
        rw [Finset.ssubset_iff_of_subset (fun b hb => List.mem_toFinset.2 (hno b (List.mem_toFinset.1 hb)))]
        exact ⟨a, List.mem_toFinset.2 ha, fun hb => hna (List.mem_toFinset.1 hb)⟩
      have := Finset.card_lt_card hss
      rw [List.toFinset_card_of_nodup hN.nodup, List.toFinset_card_of_nodup hN'.nodup] at this
      omega
    obtain ⟨b, hb, hbN⟩ := this
    have h1 := (nearer a b).1 (hN.nearest a ha b (Finset.mem_erase.2 ⟨(of' b hb).1, Finset.mem_univ _⟩) rfl hbN)
    have h2 := (nearer b a).1 (hN'.nearest b hb a (Finset.mem_filter.2 ⟨Finset.mem_univ _, ne_of a ha, (hstore a).2 (hpos a ha)⟩) rfl hna)
    exact hbN (hties a b (ne_of a ha) (of' b hb).1 (hpos a ha) (le_antisymm h2 h1) ▸ ha)
  have hperm : N.Perm N' := (hN.nodup.subperm hss).perm_of_length_le (by rw [hlen, hlen'])
  refine ⟨hperm, ?_⟩
  cases hNc : N with
  | nil => rw [hNc] at hperm; rw [hperm.symm.eq_nil]
  | cons a t =>
    cases hNc' : N' with
    | nil => rw [hNc'] at hperm; rw [hNc] at hperm; cases hperm.eq_nil
    | cons b t' =>
      have haN : a ∈ N := by rw [hNc]; exact List.mem_cons_self
      have hbN' : b ∈ N' := by rw [hNc']; exact List.mem_cons_self
      have hbN : b ∈ N := hperm.mem_iff.2 hbN'
      have h2 := (nearer b a).1 (hN'.first b (by rw [hNc']; rfl) a (hss haN))
      have h1 : x b ≤ x a := by
        have hb := hbN
        rw [hNc] at hb
        rcases List.mem_cons.1 hb with rfl | hbt
        · exact le_rfl
        · have hs := hN.sorted
          rw [hNc] at hs
          exact (nearer a b).1 ((List.pairwise_cons.1 hs).1 b hbt)
      rw [List.head?_cons, List.head?_cons, hties a b (ne_of a haN) (ne_of b hbN) (hpos a haN) (le_antisymm h2 h1)]

/-- **C235**, the part which holds: for a sparse matrix of non-negative similarities, `score` classifies those points correctly for
which `predict` predicts the right class, if the self similarity is the largest one in each row, there are at least `k` other stored
similarities in each row, and there are no ties. Any random numbers. Missing: rows with fewer entries, see `C235_violated`. -/
theorem C235_partial [IsStrictOrderedRing K] {c : ℕ} (hn : 0 < n) (srt srt' : ArgSort (XR K)) (o : ArgPart (XR K)) (rnd rnd' : Rnd)
    (x : Fin n → Fin n → K) (y : Fin n → Fin c → ℤ) (ks : List ℤ) (hk : ∀ k ∈ ks, 1 ≤ k) (hnn : ∀ i a, 0 ≤ x i a)
    (hself : ∀ i a, a ≠ i → x i a < x i i) (hself0 : ∀ i, x i i ≠ 0)
    (hties : ∀ i a b, a ≠ i → b ≠ i → x i a ≠ 0 → x i a = x i b → a = b)
    (hcard : ∀ k ∈ ks, ∀ i, k.toNat ≤ (Finset.univ.filter fun a => a ≠ i ∧ x i a ≠ 0).card) (l : Fin c) :
    ∃ P r, predict srt rnd (fun i j => .fin (x i j)) y (.list ks) "similarity" none = .ok P ∧
      score srt' o rnd' (.mat true n n fun i j => .fin (x i j)) (.vec n fun i => y i l) (.list ks) "similarity" none = .ok ⟨n, r⟩ ∧
      ∀ j, j < ks.length → ∃ q, r.perK[j]? = some q ∧
        ∀ i, q.corr i = if P.yPred j i l = labelRank (allLabels y) (y i l) then 1 else 0 := by
  obtain ⟨P, hP, hE⟩ := C43_predict srt rnd (fun i j => .fin (x i j)) y ks hk "similarity" (.inr rfl)
  obtain ⟨r, hr, hE'⟩ := C43_sparse_loo hn srt' o rnd' (fun i j => .fin (x i j)) (fun i => y i l) ks hk
  refine ⟨P, r, hP, hr, fun j hj => ?_⟩
  obtain ⟨q, hq, pred, h1, -, h3⟩ := hE' j hj
  refine ⟨q, hq, fun i => ?_⟩
  have hkj := hcard _ (List.getElem_mem hj) i
  have h1k := hk _ (List.getElem_mem hj)
  obtain ⟨a, ha⟩ : (Finset.univ.filter fun a => a ≠ i ∧ x i a ≠ 0).Nonempty := Finset.card_pos.1 (by omega)
  rw [Finset.mem_filter] at ha
  have hok : (∀ z, (XR.fin (x i z)).isFinite = true) ∧ XR.fin (x i i) ≠ .fin 0 ∧
      (∀ z, z ≠ i → XR.fin (x i z) ≠ .fin 0 → XR.fin (x i z) < XR.fin (x i i)) ∧ ∃ z, z ≠ i ∧ XR.fin (x i z) ≠ .fin 0 :=
    ⟨fun _ => rfl, by simpa using hself0 i, fun z hz _ => by simpa using hself i z hz, a, ha.2.1, by simpa using ha.2.2⟩
  obtain ⟨N', -, hN', hV'⟩ := h3 i hok
  obtain ⟨N, v, -, hN, hV, hyp⟩ := (hE j hj).1 i ⟨a, ha.2.1, rfl⟩ (fun z _ => by unfold tooNear; split <;> exact fun h => by cases h) l
  obtain ⟨hp, hh⟩ := stored_nearest (hnn i) (hties i) hkj hN hN'
  have hV2 : IsVote (N'.map fun z => y z l) v := isVote_of_perm (hp.map _) (by rw [List.head?_map, List.head?_map, hh]) hV
  obtain rfl := Relations.isVote_unique hV' hV2
  rw [h1 i hok (List.mem_finRange i), hyp]
  refine if_congr ⟨fun e => by rw [e], fun e => labelRank_inj (allLabels y) ?_ ⟨(i, l), rfl⟩ e⟩ rfl rfl
  obtain ⟨z, -, hz⟩ := List.mem_map.1 (isVote_mem hV)
  exact ⟨(z, l), hz⟩

/-- Similarities of four points, point 0 is similar to point 1 only. -/
def exSparseS : Fin 4 → Fin 4 → ℚ := ![![9, 1, 0, 0], ![1, 9, 2, 3], ![0, 2, 9, 4], ![0, 3, 4, 9]]

/-- The predictions for column 0, one list per `k`. -/
def preds {n c : ℕ} (nk : ℕ) (l : Fin c) (x : Py (PredRes n c)) : List (List ℕ) :=
  match x with
  | .ok P => (List.range nk).map fun j => List.ofFn fun i => P.yPred j i l
  | .error _ => []

/-- **C235 does not hold** for rows with fewer than `k` stored similarities. `score` only counts the stored neighbour of point 0, which
has the same label; `predict` counts points 2 and 3, too. -/
theorem C235_violated :
    (corrs (score (ArgSort.ofSort _) (ArgPart.ofInsertion _) Rnd.id (.mat true 4 4 fun i j => .fin (exSparseS i j)) (.vec 4 ![0, 0, 1, 1])
      (.list [3]) "similarity" none)).map List.head? = [some 1] ∧
    (preds 1 (0 : Fin 1) (predict (ArgSort.ofSort _) Rnd.id (fun i j => .fin (exSparseS i j)) (fun i _ => ![0, 0, 1, 1] i) (.list [3])
      "similarity" none)).map List.head? = [some 1] := by decide +kernel

example (srt : ArgSort (XR ℚ)) (o : ArgPart (XR ℚ)) (rnd : Rnd) := C235_partial (c := 1) (by norm_num) srt srt o rnd rnd exSparseS
  (fun i _ => ![0, 0, 1, 1] i) [1] (by decide) (by decide +kernel) (by decide +kernel) (by decide +kernel) (by decide +kernel)
  (by decide +kernel) 0

end HubToolbox.Knn
