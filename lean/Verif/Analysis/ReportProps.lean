import Verif.Analysis.Report
import Verif.Analysis.Success

/-!
# Properties of the printed report (C170–C173)
-/

set_option autoImplicit false

namespace HubToolbox.Spec

/-- The `k` of a hubness line. -/
def hubKey : Analysis.Line → Option ℤ
  | .hubness k _ => some k
  | _ => none

/-- The `k` of an accuracy line. -/
def accKey : Analysis.Line → Option ℤ
  | .accuracy k _ => some k
  | _ => none

/-- What the report `b` of one experiment `e` has to say. `dim` is the intrinsic dimension estimate. -/
structure Reports (labels vectors : Bool) (hubK knnK : List ℤ) (dim : Option ℝ) (e : Analysis.Experiment) (b : List Analysis.Line) :
    Prop where
  title : ∃ t, b.head? = some (.title t) ∧ (e.kind, t) ∈ Analysis.header
  parameter : ∀ p v, .parameter p v ∈ b ↔ (p, v) ∈ Analysis.defaults e.kind
  hubness : ∀ k v, .hubness k v ∈ b ↔ k ∈ hubK ∧ e.hubness k = some v
  antiHubs : ∀ k v, .antiHubs k v ∈ b ↔ k ∈ hubK ∧ e.antiHubs k = some v
  maxHub : ∀ k v, .maxHub k v ∈ b ↔ k ∈ hubK ∧ e.maxHub k = some v
  accuracy : ∀ k v, .accuracy k v ∈ b ↔ labels ∧ k ∈ knnK ∧ ∃ acc, e.knnAccuracy k = some acc ∧ v = 100 * acc
  increasing : (b.filterMap hubKey).Pairwise (· < ·)
  increasing' : (b.filterMap accKey).Pairwise (· < ·)
  index : ∀ v, .index v ∈ b ↔ e.gk = some v
  noIndex : .noIndex ∈ b ↔ labels = false
  embedding : ∀ d, .embedding d ∈ b ↔ vectors ∧ e.embeddingDim = d
  noEmbedding : .noEmbedding ∈ b ↔ vectors = false
  dimension : ∀ z : ℤ, .dimension z ∈ b → ∃ x : ℝ, dim = some x ∧ |x - z| ≤ 1 / 2
  hasDimension : (∃ z, .dimension z ∈ b) ↔ vectors
  noDimension : .noDimension ∈ b ↔ vectors = false
  noK : .noK ∉ b

end HubToolbox.Spec

namespace HubToolbox.Analysis

/-! ### Rounding -/

theorem abs_sub_pyRound (x : ℝ) : |x - pyRound x| ≤ 1 / 2 := by
  unfold pyRound
  have h := Int.floor_add_fract x
  split_ifs with h1 h2
  · rw [abs_le]; constructor <;> linarith
  · rw [abs_le]; push_cast; constructor <;> linarith
  · exact abs_sub_round x

/-! ### Lines -/

theorem finite_keys {d : ℤ → Option ℝ} {ks : List ℤ} (h : ∀ k ∉ ks, d k = none) : {k | (d k).isSome}.Finite := by
  refine (ks.toFinset.finite_toSet).subset fun k hk => ?_
  by_contra hno
  have := h k (fun hk' => hno (by simpa using hk'))
  simp [this] at hk

theorem mem_sortedKeys {d : ℤ → Option ℝ} {ks : List ℤ} (h : ∀ k ∉ ks, d k = none) (k : ℤ) : k ∈ sortedKeys d ↔ (d k).isSome := by
  unfold sortedKeys
  rw [dif_pos (finite_keys h), Finset.mem_sort]
  simp

theorem sortedKeys_lt (d : ℤ → Option ℝ) : (sortedKeys d).Pairwise (· < ·) := by
  unfold sortedKeys
  split
  · exact (Finset.sortedLT_sort _).pairwise
  · exact List.Pairwise.nil

theorem hubnessLines_eq (e : Experiment) (ks : List ℤ)
    (h : ∀ k ∈ ks, (e.hubness k).isSome ∧ (e.antiHubs k).isSome ∧ (e.maxHub k).isSome) :
    hubnessLines e ks = ks.flatMap (fun k => [.hubness k ((e.hubness k).getD 0), .antiHubs k ((e.antiHubs k).getD 0),
      .maxHub k ((e.maxHub k).getD 0)]) := by
  induction ks with
  | nil => rfl
  | cons k ks ih =>
    obtain ⟨h1, h2, h3⟩ := h k (by simp)
    obtain ⟨s, h1⟩ := Option.isSome_iff_exists.1 h1
    obtain ⟨u, h2⟩ := Option.isSome_iff_exists.1 h2
    obtain ⟨v, h3⟩ := Option.isSome_iff_exists.1 h3
    rw [List.flatMap_cons, ← ih (fun k hk => h k (by simp [hk]))]
    simp only [hubnessLines, h1, h2, h3, Option.getD_some, List.cons_append, List.nil_append]

theorem accuracyLines_eq (e : Experiment) (ks : List ℤ) (h : ∀ k ∈ ks, (e.knnAccuracy k).isSome) :
    accuracyLines e ks = ks.map (fun k => .accuracy k (100 * (e.knnAccuracy k).getD 0)) := by
  induction ks with
  | nil => rfl
  | cons k ks ih =>
    obtain ⟨s, h1⟩ := Option.isSome_iff_exists.1 (h k (by simp))
    rw [List.map_cons, ← ih (fun k hk => h k (by simp [hk]))]
    simp only [accuracyLines, h1, Option.getD_some]

/-! ### Blocks -/

/-- The intrinsic dimension can be printed. -/
def Printable (a : HubnessAnalysis) : Prop := ∀ v, a.intrinsicDim = some v → v.isFinite = true

/-- The line for the intrinsic dimension. -/
noncomputable def dimLine (a : HubnessAnalysis) : Line :=
  match a.intrinsicDim with
  | some (.fin x) => .dimension (pyRound x)
  | _ => .noDimension

theorem dimensionLine_ok {a : HubnessAnalysis} (h : Printable a) : dimensionLine true a = ([dimLine a], none) := by
  unfold dimensionLine dimLine
  rcases hd : a.intrinsicDim with _ | v
  · rfl
  · have := h v hd
    cases v <;> first | rfl | cases this

theorem dimensionLine_bad {a : HubnessAnalysis} (h : ¬ Printable a) : (dimensionLine true a).2 ≠ none := by
  unfold Printable at h
  push Not at h
  obtain ⟨v, hv, hf⟩ := h
  unfold dimensionLine
  rw [hv]
  cases v <;> simp_all [XR.isFinite]

/-- The lines of a report. -/
noncomputable def body (a : HubnessAnalysis) (e : Experiment) : List Line :=
  [.title ((header.lookup e.kind).getD "")] ++ (defaults e.kind).map (fun p => .parameter p.1 p.2)
    ++ hubnessLines e (sortedKeys e.hubness) ++ accuracyLines e (sortedKeys e.knnAccuracy) ++ [indexLine e, embeddingLine a e]
    ++ [dimLine a, .blank]

theorem header_some {kind : String} (h : kind ∈ kinds) : ∃ t, header.lookup kind = some t ∧ (kind, t) ∈ header := by
  unfold kinds at h
  simp only [List.mem_cons, List.not_mem_nil, or_false] at h
  rcases h with rfl | rfl | rfl | rfl | rfl | rfl | rfl | rfl | rfl | rfl | rfl | rfl <;>
    exact ⟨_, rfl, by decide⟩

theorem block_ok {a : HubnessAnalysis} (h : Printable a) {e : Experiment} (hk : e.kind ∈ kinds) :
    block true a e = (body a e, none) := by
  obtain ⟨t, ht, -⟩ := header_some hk
  unfold block body
  rw [ht, dimensionLine_ok h]
  simp [Out.andThen]

theorem block_bad {a : HubnessAnalysis} (h : ¬ Printable a) (e : Experiment) : (block true a e).2 ≠ none := by
  unfold block
  split
  · simp
  · have := dimensionLine_bad h
    rcases hd : dimensionLine true a with ⟨l, _ | er⟩
    · rw [hd] at this; exact absurd rfl this
    · simp [Out.andThen]

theorem report_some (a : HubnessAnalysis) (e : Experiment) (t : ℕ) (l : List Line) (er : Option PyErr) (h : block true a e = (l, er)) :
    report true a (some e) t = ((if t = 0 then [.headline] else []) ++ l, er) := by
  unfold report
  simp only [List.foldr_cons, List.foldr_nil, h]
  cases er <;> simp [Out.andThen]

/-! ### The loop -/

theorem loopPrint_spec (env : Env) (hubK knnK : List ℤ) (names : List String) : ∀ (t : ℕ) (a : HubnessAnalysis), Printable a →
    ∃ new : List Experiment, (loopPrint env hubK knnK t names a).1 = (loop env hubK knnK t names a).1 ∧
      (loopPrint env hubK knnK t names a).2.2 = (loop env hubK knnK t names a).2 ∧
      (loop env hubK knnK t names a).1 = { a with experiments := a.experiments ++ new } ∧
      ((loop env hubK knnK t names a).2 = none → new.map Experiment.kind = names) ∧
      (loopPrint env hubK knnK t names a).2.1 = (if t = 0 ∧ new ≠ [] then [.headline] else []) ++ new.flatMap (body a)
        ++ (if (loop env hubK knnK t names a).2 = none then [.thanks] else []) ∧
      ∀ e ∈ new, ∃ t, experiment env a hubK knnK t e.kind = .ok e := by
  induction names with
  | nil => intro t a _; exact ⟨[], rfl, rfl, by simp [loop], by simp, by simp [loopPrint, loop], by simp⟩
  | cons kind names ih =>
    intro t a hp
    cases he : experiment env a hubK knnK t kind with
    | error er =>
      refine ⟨[], ?_, ?_, ?_, ?_, ?_, by simp⟩ <;> simp [loopPrint, loop, he]
    | ok e =>
      have hf := experiment_inv he
      have hname := hf.name
      set a1 : HubnessAnalysis := { a with experiments := a.experiments ++ [e] } with ha1
      have hp1 : Printable a1 := hp
      have hkind : e.kind ∈ kinds := by rw [hname]; exact hf.valid.kind
      have hb : block true a1 e = (body a e, none) := block_ok hp1 hkind
      obtain ⟨new, h1, h2, h3, h4, h5, h6⟩ := ih (t + 1) a1 hp1
      have hl : loop env hubK knnK t (kind :: names) a = loop env hubK knnK (t + 1) names a1 := by simp [loop, he, ha1]
      have hlp : loopPrint env hubK knnK t (kind :: names) a = ((loopPrint env hubK knnK (t + 1) names a1).1,
          ((if t = 0 then [.headline] else []) ++ body a e) ++ (loopPrint env hubK knnK (t + 1) names a1).2.1,
          (loopPrint env hubK knnK (t + 1) names a1).2.2) := by
        simp only [loopPrint, he, ← ha1, report_some a1 e t _ _ hb]
      refine ⟨e :: new, ?_, ?_, ?_, ?_, ?_, ?_⟩
      · rw [hlp, hl, h1]
      · rw [hlp, hl, h2]
      · rw [hl, h3]; simp only [ha1, List.append_assoc, List.singleton_append]; rfl
      · intro h0
        rw [hl] at h0
        rw [List.map_cons, h4 h0, hname]
      · rw [hlp, hl, h5]
        have : body a1 = body a := by
          funext e; rfl
        simp [this]
      · intro e' he'
        rcases List.mem_cons.1 he' with rfl | he'
        · exact ⟨t, by rw [hname]; exact he⟩
        · obtain ⟨t', h7⟩ := h6 e' he'
          rw [ha1, experiment_with env a hubK knnK _ _ _ a.intrinsicDim] at h7
          exact ⟨t', h7⟩

theorem loopPrint_bad (env : Env) (hubK knnK : List ℤ) (kind : String) (names : List String) (t : ℕ) (a : HubnessAnalysis)
    (h : ¬ Printable a) : (loopPrint env hubK knnK t (kind :: names) a).2.2 ≠ none := by
  cases he : experiment env a hubK knnK t kind with
  | error er => simp [loopPrint, he]
  | ok e =>
    set a1 : HubnessAnalysis := { a with experiments := a.experiments ++ [e] } with ha1
    have hp1 : ¬ Printable a1 := h
    have hb := block_bad hp1 e
    rcases hbl : block true a1 e with ⟨l, _ | er⟩
    · rw [hbl] at hb; exact absurd rfl hb
    · simp only [loopPrint, he, ← ha1, report_some a1 e t _ _ hbl]
      simp

/-! ### Contents of a block -/

/-- The intrinsic dimension as a number. -/
def dimValue (a : HubnessAnalysis) : Option ℝ :=
  match a.intrinsicDim with
  | some (.fin x) => some x
  | _ => none

theorem body_reports {env : Env} {a : HubnessAnalysis} (hd : a.intrinsicDim.isSome = a.vectors.isSome) (hp : Printable a)
    {hubK knnK : List ℤ} {e : Experiment} (hf : Finished env a hubK knnK e.kind e) :
    Spec.Reports a.classes.isSome a.vectors.isSome hubK knnK (dimValue a) e (body a e) := by
  obtain ⟨t, ht, ht'⟩ := header_some hf.valid.kind
  have hks : ∀ k ∉ hubK, e.hubness k = none := fun k hk => (hf.noHub k hk).1
  have hsome : ∀ k ∈ hubK, (e.hubness k).isSome ∧ (e.antiHubs k).isSome ∧ (e.maxHub k).isSome := by
    intro k hk
    obtain ⟨_, _, _, _, h1, h2, h3⟩ := hf.hub k hk
    simp [h1, h2, h3]
  have hkeys : ∀ k, k ∈ sortedKeys e.hubness ↔ k ∈ hubK := by
    intro k
    rw [mem_sortedKeys hks]
    constructor
    · intro h; by_contra hk; rw [hks k hk] at h; cases h
    · intro h; exact (hsome k h).1
  have hacc : ∀ k ∉ knnK, e.knnAccuracy k = none := by
    intro k hk
    rcases hcl : a.classes with _ | ⟨l, y⟩
    · exact (hf.unlabelled hcl).1 k
    · exact (hf.knn l y hcl).2.1 k hk
  have hkeys' : ∀ k, k ∈ sortedKeys e.knnAccuracy ↔ a.classes.isSome ∧ k ∈ knnK := by
    intro k
    rw [mem_sortedKeys hacc]
    constructor
    · intro h
      refine ⟨?_, ?_⟩
      · rcases hcl : a.classes with _ | ⟨l, y⟩
        · rw [(hf.unlabelled hcl).1 k] at h; cases h
        · rfl
      · by_contra hk; rw [hacc k hk] at h; cases h
    · rintro ⟨h1, h2⟩
      obtain ⟨⟨l, y⟩, hcl⟩ := Option.isSome_iff_exists.1 h1
      obtain ⟨_, _, _, _, h3⟩ := (hf.knn l y hcl).1 k h2
      rw [h3]; rfl
  have e1 : hubnessLines e (sortedKeys e.hubness) = _ := hubnessLines_eq e _ (fun k hk => hsome k ((hkeys k).1 hk))
  have e2 : accuracyLines e (sortedKeys e.knnAccuracy) = _ :=
    accuracyLines_eq e _ (fun k hk => (mem_sortedKeys hacc k).1 hk)
  have hgk : e.gk.isSome = a.classes.isSome := by
    rcases hcl : a.classes with _ | ⟨l, y⟩
    · rw [(hf.unlabelled hcl).2]; rfl
    · obtain ⟨_, _, g, _, h⟩ := hf.knn l y hcl
      rw [h]; rfl
  have hidx : indexLine e = match e.gk with | none => .noIndex | some g => .index g := rfl
  have hemb : embeddingLine a e = if a.vectors.isSome then .embedding e.embeddingDim else .noEmbedding := by
    unfold embeddingLine; cases a.vectors <;> rfl
  have hdim : dimLine a = match dimValue a with | some x => .dimension (pyRound x) | none => .noDimension := by
    unfold dimLine dimValue
    rcases a.intrinsicDim with _ | v
    · rfl
    · cases v <;> rfl
  have hdv : (dimValue a).isSome = a.vectors.isSome := by
    rw [← hd]
    unfold dimValue
    rcases hi : a.intrinsicDim with _ | v
    · rfl
    · have := hp v hi
      cases v <;> first | rfl | cases this
  have hmem : ∀ l, l ∈ body a e ↔ l = .title t ∨ (∃ p ∈ defaults e.kind, .parameter p.1 p.2 = l) ∨
      (∃ k ∈ hubK, l = .hubness k ((e.hubness k).getD 0) ∨ l = .antiHubs k ((e.antiHubs k).getD 0) ∨
        l = .maxHub k ((e.maxHub k).getD 0)) ∨
      (∃ k, (a.classes.isSome ∧ k ∈ knnK) ∧ .accuracy k (100 * (e.knnAccuracy k).getD 0) = l) ∨ l = indexLine e ∨
      l = embeddingLine a e ∨ l = dimLine a ∨ l = .blank := by
    intro l
    unfold body
    rw [e1, e2, ht]
    simp only [List.mem_append, List.mem_flatMap, List.mem_map, hkeys, hkeys', List.mem_cons, List.not_mem_nil, or_false,
      Option.getD_some, or_assoc]
  have hgetD : ∀ (d : ℤ → Option ℝ), (∀ k ∈ hubK, (d k).isSome) → ∀ k v, (k ∈ hubK ∧ v = (d k).getD 0) ↔ k ∈ hubK ∧ d k = some v := by
    intro d h k v
    refine and_congr_right fun hk => ?_
    obtain ⟨w, hw⟩ := Option.isSome_iff_exists.1 (h k hk)
    rw [hw]
    simp [eq_comm]
  rw [hidx, hemb, hdim] at hmem
  refine ⟨⟨t, ?_, ht'⟩, ?_, ?_, ?_, ?_, ?_, ?_, ?_, ?_, ?_, ?_, ?_, ?_, ?_, ?_, ?_⟩
  · unfold body; rw [ht]; rfl
  · intro p v
    rw [hmem]
    cases hg : e.gk <;> cases hv : a.vectors.isSome <;> cases hx : dimValue a <;> simp
  · intro k v
    rw [hmem, ← hgetD e.hubness (fun k hk => (hsome k hk).1)]
    cases hg : e.gk <;> cases hv : a.vectors.isSome <;> cases hx : dimValue a <;> simp
  · intro k v
    rw [hmem, ← hgetD e.antiHubs (fun k hk => (hsome k hk).2.1)]
    cases hg : e.gk <;> cases hv : a.vectors.isSome <;> cases hx : dimValue a <;> simp
  · intro k v
    rw [hmem, ← hgetD e.maxHub (fun k hk => (hsome k hk).2.2)]
    cases hg : e.gk <;> cases hv : a.vectors.isSome <;> cases hx : dimValue a <;> simp
  · intro k v
    rw [hmem]
    have hk2 : ∀ k, (a.classes.isSome ∧ k ∈ knnK) → ∃ acc, e.knnAccuracy k = some acc := fun k hk =>
      Option.isSome_iff_exists.1 ((mem_sortedKeys hacc k).1 ((hkeys' k).2 hk))
    have : (∃ k', (a.classes.isSome ∧ k' ∈ knnK) ∧ Line.accuracy k' (100 * (e.knnAccuracy k').getD 0) = .accuracy k v) ↔
        a.classes.isSome ∧ k ∈ knnK ∧ ∃ acc, e.knnAccuracy k = some acc ∧ v = 100 * acc := by
      constructor
      · rintro ⟨k', hk', h⟩
        injection h with h1 h2
        subst h1
        obtain ⟨acc, hacc'⟩ := hk2 _ hk'
        exact ⟨hk'.1, hk'.2, acc, hacc', by rw [← h2, hacc']; rfl⟩
      · rintro ⟨h1, h2, acc, h3, h4⟩
        exact ⟨k, ⟨h1, h2⟩, by rw [h3, h4]; rfl⟩
    rw [this]
    cases hg : e.gk <;> cases hv : a.vectors.isSome <;> cases hx : dimValue a <;> simp
  · have h1 : ∀ ks : List ℤ, (ks.flatMap (fun k => [Line.hubness k ((e.hubness k).getD 0), .antiHubs k ((e.antiHubs k).getD 0),
      .maxHub k ((e.maxHub k).getD 0)])).filterMap Spec.hubKey = ks := by
      intro ks
      induction ks with
      | nil => rfl
      | cons k ks ih => rw [List.flatMap_cons, List.filterMap_append, ih]; rfl
    have h2 : ∀ ks : List ℤ, (ks.map (fun k => Line.accuracy k (100 * (e.knnAccuracy k).getD 0))).filterMap Spec.hubKey = [] := by
      intro ks
      exact List.filterMap_eq_nil_iff.2 (by rintro _ h; obtain ⟨_, _, rfl⟩ := List.mem_map.1 h; rfl)
    have h3 : ((defaults e.kind).map (fun p => Line.parameter p.1 p.2)).filterMap Spec.hubKey = [] :=
      List.filterMap_eq_nil_iff.2 (by rintro _ h; obtain ⟨_, _, rfl⟩ := List.mem_map.1 h; rfl)
    have h4 : ([.title ((header.lookup e.kind).getD "")] : List Line).filterMap Spec.hubKey = [] := rfl
    have h5 : [indexLine e, embeddingLine a e].filterMap Spec.hubKey = [] := by
      rw [hidx, hemb]
      cases hg : e.gk <;> cases hv : a.vectors.isSome <;> rfl
    have h6 : [dimLine a, .blank].filterMap Spec.hubKey = [] := by
      rw [hdim]
      cases hx : dimValue a <;> rfl
    unfold body
    rw [e1, e2]
    simp only [List.filterMap_append, h1, h2, h3, h4, h5, h6, List.nil_append, List.append_nil]
    exact sortedKeys_lt e.hubness
  · have h1 : ∀ ks : List ℤ, (ks.flatMap (fun k => [Line.hubness k ((e.hubness k).getD 0), .antiHubs k ((e.antiHubs k).getD 0),
      .maxHub k ((e.maxHub k).getD 0)])).filterMap Spec.accKey = [] := by
      intro ks
      induction ks with
      | nil => rfl
      | cons k ks ih => rw [List.flatMap_cons, List.filterMap_append, ih]; rfl
    have h2 : ∀ ks : List ℤ, (ks.map (fun k => Line.accuracy k (100 * (e.knnAccuracy k).getD 0))).filterMap Spec.accKey = ks := by
      intro ks
      induction ks with
      | nil => rfl
      | cons k ks ih => exact congrArg (k :: ·) ih
    have h3 : ((defaults e.kind).map (fun p => Line.parameter p.1 p.2)).filterMap Spec.accKey = [] :=
      List.filterMap_eq_nil_iff.2 (by rintro _ h; obtain ⟨_, _, rfl⟩ := List.mem_map.1 h; rfl)
    have h4 : ([.title ((header.lookup e.kind).getD "")] : List Line).filterMap Spec.accKey = [] := rfl
    have h5 : [indexLine e, embeddingLine a e].filterMap Spec.accKey = [] := by
      rw [hidx, hemb]
      cases hg : e.gk <;> cases hv : a.vectors.isSome <;> rfl
    have h6 : [dimLine a, .blank].filterMap Spec.accKey = [] := by
      rw [hdim]
      cases hx : dimValue a <;> rfl
    unfold body
    rw [e1, e2]
    simp only [List.filterMap_append, h1, h2, h3, h4, h5, h6, List.nil_append, List.append_nil]
    exact sortedKeys_lt e.knnAccuracy
  · intro v
    rw [hmem]
    cases hg : e.gk <;> cases hv : a.vectors.isSome <;> cases hx : dimValue a <;> first | (simp; done) | (simp; exact eq_comm)
  · rw [hmem, ← hgk]
    cases hg : e.gk <;> cases hv : a.vectors.isSome <;> cases hx : dimValue a <;> simp
  · intro d
    rw [hmem]
    cases hg : e.gk <;> cases hv : a.vectors.isSome <;> cases hx : dimValue a <;> first | (simp; done) | (simp; exact eq_comm)
  · rw [hmem]
    cases hg : e.gk <;> cases hv : a.vectors.isSome <;> cases hx : dimValue a <;> simp
  · intro z
    rw [hmem]
    cases hg : e.gk <;> cases hv : a.vectors.isSome <;> cases hx : dimValue a <;> simp
    all_goals
      intro hz
      rw [hz]
      simpa using abs_sub_pyRound _
  · rw [← hdv]
    simp only [hmem]
    cases hg : e.gk <;> cases hv : a.vectors.isSome <;> cases hx : dimValue a <;> simp
  · rw [hmem, ← hdv]
    cases hg : e.gk <;> cases hv : a.vectors.isSome <;> cases hx : dimValue a <;> simp
  · rw [hmem]
    cases hg : e.gk <;> cases hv : a.vectors.isSome <;> cases hx : dimValue a <;> simp

/-! ### C170: printing and the analysis -/

/-- The analysis with and without printing, for a known intrinsic dimension. -/
theorem analyzePrint_cases (env : Env) (a : HubnessAnalysis) (experiments : String) (hubK knnK : List ℤ) :
    (∃ err, analyze env a experiments hubK knnK = (a, some err) ∧ analyzePrint env a experiments hubK knnK = (a, [], some err)) ∨
    ∃ dim : Option (XR ℝ), dim.isSome = a.vectors.isSome ∧
      (∀ n d X, a.vectors = some ⟨n, d, X⟩ →
        ∃ v, dim = some v ∧ IntDim.intrinsicDimension env.lex X 6 12 "mackay" "vector" none 5000 = .ok v) ∧
      analyze env a experiments hubK knnK = loop env hubK knnK 0 (split experiments) { a with intrinsicDim := dim } ∧
      analyzePrint env a experiments hubK knnK = loopPrint env hubK knnK 0 (split experiments) { a with intrinsicDim := dim } := by
  unfold analyze analyzePrint
  rcases hv : a.vectors with _ | ⟨n, d, X⟩
  · exact Or.inr ⟨none, rfl, by simp, rfl, rfl⟩
  · simp only
    cases hd : IntDim.intrinsicDimension env.lex X 6 12 "mackay" "vector" none 5000 with
    | error err => exact Or.inl ⟨err, rfl, rfl⟩
    | ok v =>
      refine Or.inr ⟨some v, rfl, ?_, rfl, rfl⟩
      rintro n' d' X' h
      cases h
      exact ⟨v, rfl, hd⟩

/-- **C170**, the part which holds: unless the estimate of the intrinsic dimension is infinite or not a number, an analysis which prints its
results ends with the same object and the same exception (or none) as an analysis which does not. -/
theorem C170_printing_partial (env : Env) (a : HubnessAnalysis) (experiments : String) (hubK knnK : List ℤ)
    (h : ∀ n d X, a.vectors = some ⟨n, d, X⟩ → ∀ v,
      IntDim.intrinsicDimension env.lex X 6 12 "mackay" "vector" none 5000 = .ok v → v.isFinite = true) :
    (analyzePrint env a experiments hubK knnK).1 = (analyze env a experiments hubK knnK).1 ∧
      (analyzePrint env a experiments hubK knnK).2.2 = (analyze env a experiments hubK knnK).2 := by
  rcases analyzePrint_cases env a experiments hubK knnK with ⟨err, h1, h2⟩ | ⟨dim, h1, h2, h3, h4⟩
  · rw [h1, h2]; exact ⟨rfl, rfl⟩
  · have hp : Printable { a with intrinsicDim := dim } := by
      intro v hv
      change dim = some v at hv
      have : a.vectors.isSome := by rw [← h1, hv]; rfl
      obtain ⟨⟨n, d, X⟩, hX⟩ := Option.isSome_iff_exists.1 this
      obtain ⟨w, hw, hw'⟩ := h2 n d X hX
      rw [hw] at hv
      cases hv
      exact h n d X hX _ hw'
    obtain ⟨_, h5, h6, -⟩ := loopPrint_spec env hubK knnK (split experiments) 0 _ hp
    rw [h3, h4]
    exact ⟨h5, h6⟩

/-- Points which all have the same distance from each other have no finite intrinsic dimension. -/
theorem equidistant_notFinite (L : IntDim.LexSort) {n d : ℕ} (X : Fin n → Fin d → ℝ) (hn : 12 < n) (hd : 0 < d) (r : ℝ) (hr : 0 < r)
    (hX : ∀ i j, i ≠ j → IntDim.Spec.dist (X i) (X j) = r) :
    ∃ v, IntDim.intrinsicDimension L X 6 12 "mackay" "vector" none 5000 = .ok v ∧ v.isFinite = false := by
  refine ⟨_, (IntDim.eval X (Or.inr rfl) (by norm_num) (by norm_num) (by omega) (by omega) none 5000).trans rfl, ?_⟩
  have hT : ∀ i, IntDim.Spec.Neighbours X i (fun _ => r) := by
    intro i
    refine ⟨fun _ _ _ _ => le_rfl, ?_⟩
    rw [Multiset.map_const', Multiset.card_range]
    rw [Multiset.map_congr rfl (g := fun _ => r) (fun j hj => hX i j (fun h => by subst h; rw [Finset.mem_val] at hj; exact Finset.notMem_erase i _ hj)), Multiset.map_const']
    congr 1
    change _ = (Finset.univ.erase i).card
    rw [Finset.card_erase_of_mem (Finset.mem_univ i), Finset.card_univ, Fintype.card_fin]
  have hlog : ∀ i c, c + 1 < n → IntDim.logRow (IntDim.sqDist X i) c = Real.log r := fun i c hc =>
    IntDim.logRow_eq X i _ (hT i) c hc hr
  have hdh : ∀ i, IntDim.dhat (fun i => IntDim.logRow (IntDim.sqDist X i)) 6 i 0 = .ninf := by
    intro i
    unfold IntDim.dhat
    simp only [Nat.add_zero]
    rw [Finset.sum_congr rfl (fun c hc => hlog i c (by have := Finset.mem_range.1 hc; omega)), hlog i _ (by omega)]
    simp only [Finset.sum_const, Finset.card_range, nsmul_eq_mul]
    rw [show ((6 : ℕ) : ℝ) * Real.log r - Real.log r * ((6 : ℕ) : ℝ) = 0 by ring]
    simp [XR.div, XR.infMul]
    norm_num
  have hcore : ∀ k : Fin n → ℕ → ℝ, IntDim.core "mackay" k 6 12 = IntDim.mackay 7 (IntDim.dhat k 6) := fun k => by
    unfold IntDim.core
    rw [if_neg (by decide)]
    rfl
  simp only [hcore]
  unfold IntDim.mackay XR.mean
  refine IntDim.div_notFinite (IntDim.sum_notFinite _ ⟨0, by decide⟩ ?_)
  show (XR.div (.fin 1) (XR.div (XR.sum fun i => XR.div (.fin 1) (IntDim.dhat (fun i => IntDim.logRow (IntDim.sqDist X i)) 6 i 0)) _)).isFinite
    = false
  have e : ∀ i, XR.div (.fin 1) (IntDim.dhat (fun i => IntDim.logRow (IntDim.sqDist X i)) 6 i 0) = .fin 0 := fun i => by rw [hdh]; rfl
  simp only [e]
  rw [Cent.sum_fin, Finset.sum_const_zero]
  have hn' : (n : ℝ) ≠ 0 := by positivity
  simp [XR.div, hn', XR.infMul, XR.isFinite]

/-- **C170 is violated**: for more than twelve vectors which all have the same distance from each other, an analysis of the original
distances succeeds, but the same analysis with printing raises an exception, whatever the distances, labels and neighbourhood sizes. -/
theorem C170_printing_violated (env : Env) {n d : ℕ} (hn : 12 < n) (hd : 0 < d) (X : Fin n → Fin d → ℝ) (r : ℝ) (hr : 0 < r)
    (hX : ∀ i j, i ≠ j → IntDim.Spec.dist (X i) (X j) = r) (D : Fin n → Fin n → ℝ) (y : Option (Fin n → ℤ)) (metric : String)
    (hm : metric = "distance" ∨ metric = "similarity") (hubK knnK : List ℤ) (hk : ∀ k ∈ hubK, 0 ≤ k) :
    (∃ a', analyze env (.init D (y.map (fun y => ⟨n, y⟩)) (some ⟨n, d, X⟩) metric) "orig" hubK knnK = (a', none)) ∧
    (analyzePrint env (.init D (y.map (fun y => ⟨n, y⟩)) (some ⟨n, d, X⟩) metric) "orig" hubK knnK).2.2 ≠ none := by
  have hj : ",".intercalate ["orig"] = "orig" := by decide +kernel
  have hs : split "orig" = ["orig"] := by
    have := split_join ["orig"] (by simp) (by decide +kernel)
    rwa [hj] at this
  constructor
  · have := C155_succeeds_partial env (by omega) D y (some ⟨d, X⟩) (by intro v hv; cases hv; exact ⟨hn, hd⟩) metric hm ["orig"]
      (by simp) (by intro kind hkind; left; simp_all) hubK knnK hk
    rw [hj] at this
    exact this
  · rcases analyzePrint_cases env (.init D (y.map (fun y => ⟨n, y⟩)) (some ⟨n, d, X⟩) metric) "orig" hubK knnK with
      ⟨err, -, h2⟩ | ⟨dim, -, h2, -, h4⟩
    · rw [h2]; simp
    · rw [h4, hs]
      apply loopPrint_bad
      intro hp
      obtain ⟨v, hv, hv'⟩ := h2 n d X rfl
      obtain ⟨w, hw, hw'⟩ := equidistant_notFinite env.lex X hn hd r hr hX
      rw [hw] at hv'
      obtain rfl : w = v := by injection hv'
      have := hp w hv
      rw [hw'] at this
      cases this

/-! ### C171: contents of the printed report -/

theorem analyzePrint_ok {env : Env} {a a' : HubnessAnalysis} {names : List String} (hne : names ≠ [])
    (hc : ∀ s ∈ names, ',' ∉ s.toList) {hubK knnK : List ℤ} {out : List Line}
    (h : analyzePrint env a (",".intercalate names) hubK knnK = (a', out, none)) :
    ∃ new : List Experiment, a' = { a with experiments := a.experiments ++ new, intrinsicDim := a'.intrinsicDim } ∧
      a'.intrinsicDim.isSome = a.vectors.isSome ∧ Printable a' ∧
      new.map Experiment.kind = names ∧ out = .headline :: new.flatMap (body a') ++ [.thanks] ∧
      ∀ e ∈ new, Finished env a' hubK knnK e.kind e := by
  rcases analyzePrint_cases env a (",".intercalate names) hubK knnK with ⟨err, -, h2⟩ | ⟨dim, h1, -, h3, h4⟩
  · rw [h2] at h; cases h
  · rw [h4, split_join names hne hc] at h
    have hp : Printable { a with intrinsicDim := dim } := by
      by_contra hp
      obtain ⟨s, rest, rfl⟩ := List.exists_cons_of_ne_nil hne
      exact loopPrint_bad env hubK knnK s rest 0 _ hp (by rw [h])
    obtain ⟨new, h5, h6, h7, h8, h9, h10⟩ := loopPrint_spec env hubK knnK names 0 _ hp
    rw [h] at h5 h6 h9
    have hno := h6.symm
    simp only at hno
    have hnew := h8 hno
    have hne' : new ≠ [] := by rintro rfl; exact hne hnew.symm
    rw [h7] at h5
    simp only at h5
    subst h5
    refine ⟨new, rfl, h1, hp, hnew, ?_, ?_⟩
    · simp only at h9
      rw [h9, hno]
      simp [hne']
      rfl
    · intro e he
      obtain ⟨t, ht⟩ := h10 e he
      have ht' : experiment env { a with experiments := a.experiments ++ new, intrinsicDim := dim } hubK knnK t e.kind = .ok e := by
        rw [experiment_with env a hubK knnK t e.kind _ dim]
        exact ht
      exact experiment_inv ht'

/-- **C171**: what an analysis prints which runs to the end: a headline, one report per requested method, in the requested order, and a closing
line. Each report names the method and its parameters, states hubness, anti-hubs and largest hub for exactly the requested neighbourhood
sizes, in increasing order, with the stored values, and with labels the accuracies in percent and the Goodman-Kruskal index, and the
intrinsic dimension rounded to a nearest integer. -/
theorem C171_report (env : Env) (a a' : HubnessAnalysis) (names : List String) (hne : names ≠ [])
    (hc : ∀ s ∈ names, ',' ∉ s.toList) (hubK knnK : List ℤ) (out : List Line)
    (h : analyzePrint env a (",".intercalate names) hubK knnK = (a', out, none)) :
    ∃ (new : List Experiment) (blocks : List (List Line)), a'.experiments = a.experiments ++ new ∧ new.map Experiment.kind = names ∧
      out = .headline :: blocks.flatten ++ [.thanks] ∧
      List.Forall₂ (Spec.Reports a.classes.isSome a.vectors.isSome hubK knnK (dimValue a')) new blocks := by
  obtain ⟨new, h1, h2, hp, h3, h4, h5⟩ := analyzePrint_ok hne hc h
  have hcl : a'.classes = a.classes := by rw [h1]
  have hve : a'.vectors = a.vectors := by rw [h1]
  refine ⟨new, new.map (body a'), by rw [h1], h3, by rw [h4, List.flatMap_def], ?_⟩
  rw [List.forall₂_map_right_iff, List.forall₂_same]
  intro e he
  rw [← hcl, ← hve]
  exact body_reports (by rw [h2, hve]) hp (h5 e he)

/-- **C171**: the parameters named in a report are those the method is called with. -/
theorem C171_parameters (env : Env) (metric : String) {n : ℕ} (D : Fin n → Fin n → ℝ) {d : ℕ} (X : Fin n → Fin d → ℝ) :
    (∃ k, defaults "ls" = [("k", k)] ∧ fromMatrix env "ls" metric D
      = (LS.localScaling env.ls (.mat false n n (LS.toXR D)) k metric none 1).map square) ∧
    (∃ k : ℕ, defaults "nicdm" = [("k", (k : ℤ))] ∧ fromMatrix env "nicdm" metric D
      = (LS.nicdm env.ls (.mat false n n (LS.toXR D)) k metric none 1).map square) ∧
    (∃ k, defaults "snn" = [("k", k)] ∧ fromMatrix env "snn" metric D
      = (SNN.sharedNearestNeighbors env.snn (.mat false n n (LS.toXR D)) k metric 1).map square) ∧
    (∃ k, defaults "dsl" = [("k", k)] ∧ fromVectors env "dsl" (some ⟨n, d, X⟩)
      = (Cent.disSimLocal env.snn X .float64 none k 1).map (fun r => .mat false n r.1 r.2)) ∧
    (∃ g : ℤ, defaults "wcent" = [("gamma", g)] ∧ fromVectors env "wcent" (some ⟨n, d, X⟩)
      = (Cent.weightedCentering X "cosine" g none).map (fun C => .mat false n n (cosineDistance C))) ∧
    (∃ k g : ℤ, defaults "lcent" = [("kappa", k), ("gamma", g)] ∧ fromVectors env "lcent" (some ⟨n, d, X⟩)
      = (Cent.localizedCentering env.snn X none k g 1).map (fun r => .mat false n r.1 (fun i j => XR.sub (.fin 1) (r.2 i j)))) ∧
    ∀ kind ∈ ["orig", "mp", "mp_gaussi", "mp_gammai", "cent", "dsg"], defaults kind = [] := by
  refine ⟨⟨7, rfl, rfl⟩, ⟨7, rfl, rfl⟩, ⟨10, rfl, rfl⟩, ⟨10, rfl, rfl⟩, ⟨1, rfl, ?_⟩, ⟨40, 1, rfl, ?_⟩, by decide⟩
  · rw [Int.cast_one]; rfl
  · rw [Int.cast_one]; rfl

/-! ### C172: missing results -/

theorem noAccuracy_not (a : HubnessAnalysis) (e : Experiment) (ks : List ℤ) (h : ∀ k ∉ ks, e.knnAccuracy k = none) :
    .noAccuracy ∉ body a e := by
  have h1 : accuracyLines e (sortedKeys e.knnAccuracy) = _ := accuracyLines_eq e _ (fun k hk => (mem_sortedKeys h k).1 hk)
  have h2 : ∀ ks, .noAccuracy ∉ hubnessLines e ks := by
    intro ks
    induction ks with
    | nil => simp [hubnessLines]
    | cons k ks ih =>
      unfold hubnessLines
      split
      · simp
      · split
        · simp
        · split
          · simp
          · simpa using ih
  unfold body
  rw [h1]
  unfold indexLine embeddingLine dimLine
  simp only [List.mem_append, List.mem_cons, List.mem_map, List.not_mem_nil, or_false, h2]
  rcases e.gk with _ | g <;> rcases a.vectors with _ | v <;> rcases a.intrinsicDim with _ | (_ | _ | _ | _) <;> simp

/-- **C172**, the part which holds: the printed results of an analysis which runs to the end say that the Goodman-Kruskal index is missing if and
only if there are no labels, and that embedding and intrinsic dimension are missing if and only if there are no vectors. No line says
that hubness is missing. For the accuracies see `C172_accuracy_violated`. -/
theorem C172_missing_partial (env : Env) (a a' : HubnessAnalysis) (names : List String) (hne : names ≠ [])
    (hc : ∀ s ∈ names, ',' ∉ s.toList) (hubK knnK : List ℤ) (out : List Line)
    (h : analyzePrint env a (",".intercalate names) hubK knnK = (a', out, none)) :
    (.noIndex ∈ out ↔ a.classes = none) ∧ (.noEmbedding ∈ out ↔ a.vectors = none) ∧ (.noDimension ∈ out ↔ a.vectors = none) ∧
      .noK ∉ out := by
  obtain ⟨new, blocks, -, h2, rfl, h4⟩ := C171_report env a a' names hne hc hubK knnK out h
  have hlen : blocks ≠ [] := by
    rintro rfl
    cases h4
    exact hne h2.symm
  have hall : ∀ b ∈ blocks, ∃ e, Spec.Reports a.classes.isSome a.vectors.isSome hubK knnK (dimValue a') e b := by
    intro b hb
    obtain ⟨i, hi, rfl⟩ := List.getElem_of_mem hb
    have hl := h4.length_eq
    exact ⟨new[i], h4.get (by omega) hi⟩
  have key : ∀ (l : Line) (p : Prop), l ≠ .headline → l ≠ .thanks → (∀ b ∈ blocks, l ∈ b ↔ p) →
      (l ∈ (.headline :: blocks.flatten ++ [.thanks] : List Line) ↔ p) := by
    intro l p h1 h2 h3
    simp only [List.cons_append, List.mem_cons, List.mem_append, List.mem_flatten, List.not_mem_nil, or_false, h1, h2, false_or]
    constructor
    · rintro ⟨b, hb, hl⟩; exact (h3 b hb).1 hl
    · intro hp
      obtain ⟨b, _, rfl⟩ := List.exists_cons_of_ne_nil hlen
      exact ⟨b, by simp, (h3 b (by simp)).2 hp⟩
  have hn : ∀ {α : Type} (o : Option α), o.isSome = false ↔ o = none := fun o => by cases o <;> simp
  refine ⟨key _ _ (by simp) (by simp) ?_, key _ _ (by simp) (by simp) ?_, key _ _ (by simp) (by simp) ?_,
    (key _ False (by simp) (by simp) ?_).1⟩
  all_goals
    intro b hb
    obtain ⟨e, he⟩ := hall b hb
  · rw [he.noIndex, hn]
  · rw [he.noEmbedding, hn]
  · rw [he.noDimension, hn]
  · exact iff_of_false he.noK id

/-- **C172 is violated**: without labels there are no accuracies, but no line of the results says so. -/
theorem C172_accuracy_violated (env : Env) (a a' : HubnessAnalysis) (names : List String) (hne : names ≠ [])
    (hc : ∀ s ∈ names, ',' ∉ s.toList) (hubK knnK : List ℤ) (out : List Line) (hcl : a.classes = none)
    (h : analyzePrint env a (",".intercalate names) hubK knnK = (a', out, none)) :
    .noAccuracy ∉ out ∧ ∀ k v, .accuracy k v ∉ out := by
  obtain ⟨new, h1, -, -, -, rfl, h5⟩ := analyzePrint_ok hne hc h
  have hcl' : a'.classes = none := by rw [h1]; exact hcl
  refine ⟨?_, ?_⟩
  · simp only [List.cons_append, List.mem_cons, List.mem_append, List.mem_flatMap, List.not_mem_nil, or_false, reduceCtorEq, false_or]
    rintro ⟨e, he, hb⟩
    exact noAccuracy_not a' e [] (fun k _ => ((h5 e he).unlabelled hcl').1 k) hb
  · intro k v hm
    obtain ⟨new, blocks, -, -, h3, h4⟩ := C171_report env a a' names hne hc hubK knnK _ h
    rw [h3] at hm
    simp only [List.cons_append, List.mem_cons, List.mem_append, List.mem_flatten, List.not_mem_nil, or_false, reduceCtorEq,
      false_or] at hm
    obtain ⟨b, hb, hm⟩ := hm
    obtain ⟨i, hi, rfl⟩ := List.getElem_of_mem hb
    have hr := h4.get (by have := h4.length_eq; omega) hi
    have := ((hr.accuracy k v).1 hm).1
    rw [hcl] at this
    cases this

/-! ### C173: printing the report again -/

theorem foldr_blocks {a : HubnessAnalysis} (hp : Printable a) (es : List Experiment) (h : ∀ e ∈ es, e.kind ∈ kinds) :
    es.foldr (fun e r => Out.andThen (block true a e) r) ([], none) = (es.flatMap (body a), none) := by
  induction es with
  | nil => rfl
  | cons e es ih =>
    rw [List.foldr_cons, ih (fun e he => h e (by simp [he])), block_ok hp (h e (by simp))]
    rfl

/-- **C173**: after an analysis of a new object which printed its results, the report of the object has the same lines, without the closing
line. -/
theorem C173_again (env : Env) {n m : ℕ} (D : Fin n → Fin m → ℝ) (classes : Option (Σ l : ℕ, Fin l → ℤ))
    (vectors : Option (Σ l d : ℕ, Fin l → Fin d → ℝ)) (metric : String) (a' : HubnessAnalysis) (names : List String) (hne : names ≠ [])
    (hc : ∀ s ∈ names, ',' ∉ s.toList) (hubK knnK : List ℤ) (out : List Line)
    (h : analyzePrint env (.init D classes vectors metric) (",".intercalate names) hubK knnK = (a', out, none)) :
    ∃ lines, report true a' none 0 = (lines, none) ∧ out = lines ++ [.thanks] := by
  obtain ⟨new, h1, -, hp, -, rfl, h5⟩ := analyzePrint_ok hne hc h
  have he : a'.experiments = new := by rw [h1]; rfl
  refine ⟨.headline :: new.flatMap (body a'), ?_, rfl⟩
  unfold report
  simp only [he]
  rw [foldr_blocks hp new (fun e h => (h5 e h).valid.kind)]
  rfl

/-- **C173**: the report of an object which has not been used is a headline; the report of a finished experiment by an object which has not
been used raises `AttributeError`, after all other lines of the experiment were printed. -/
theorem C173_unused (env : Env) {n m : ℕ} (D : Fin n → Fin m → ℝ) (classes : Option (Σ l : ℕ, Fin l → ℤ))
    (vectors : Option (Σ l d : ℕ, Fin l → Fin d → ℝ)) (metric : String) :
    report false (.init D classes vectors metric) none 0 = ([.headline], none) ∧
    ∀ a hubK knnK t kind e, experiment env a hubK knnK t kind = .ok e → ∀ nr,
      (report false (.init D classes vectors metric) (some e) nr).2 = some .attributeError := by
  refine ⟨rfl, ?_⟩
  intro a hubK knnK t kind e he nr
  have hf := experiment_inv he
  obtain ⟨tt, ht, -⟩ := header_some hf.valid.kind
  unfold report
  simp only [List.foldr_cons, List.foldr_nil]
  unfold block
  rw [hf.name, ht]
  rfl

/-! ### The statements are not vacuous -/

/-- Thirteen points of the same distance 1 from each other, with coordinates 0 and 1/2. -/
noncomputable def simplex13 : Fin 13 → Fin 26 → ℝ := fun i f => if f.val % 13 = i.val then 1 / 2 else 0

theorem simplex13_dist (i j : Fin 13) (h : i ≠ j) : IntDim.Spec.dist (simplex13 i) (simplex13 j) = 1 := by
  have e : ∀ i f, simplex13 i f = ((if f.val % 13 = i.val then 1 / 2 else 0 : ℚ) : ℝ) := by
    intro i f
    unfold simplex13
    split_ifs <;> norm_num
  have key : ∀ i j : Fin 13, i ≠ j → (∑ f : Fin 26, ((if f.val % 13 = i.val then 1 / 2 else 0 : ℚ)
      - (if f.val % 13 = j.val then 1 / 2 else 0 : ℚ)) ^ 2) = 1 := by decide +kernel
  unfold IntDim.Spec.dist
  rw [← Real.sqrt_one]
  congr 1
  simp only [e]
  exact_mod_cast key i j h

-- C170: a concrete analysis which fails only because of printing
example (D : Fin 13 → Fin 13 → ℝ) :
    (∃ a', analyze exampleEnv (.init D none (some ⟨13, 26, simplex13⟩) "distance") "orig" [5] [1] = (a', none)) ∧
    (analyzePrint exampleEnv (.init D none (some ⟨13, 26, simplex13⟩) "distance") "orig" [5] [1]).2.2 ≠ none :=
  C170_printing_violated exampleEnv (by norm_num) (by norm_num) simplex13 1 one_pos simplex13_dist D none "distance" (Or.inl rfl) [5] [1]
    (by decide)

-- C170 to C173: an analysis of two methods, with labels and without vectors, which prints
example {n : ℕ} (hn : 0 < n) (D : Fin n → Fin n → ℝ) (y : Fin n → ℤ) :
    ∃ a' out, analyzePrint exampleEnv (.init D (some ⟨n, y⟩) none "distance") (",".intercalate ["mp", "orig"]) [10, 5] [1]
      = (a', out, none) := by
  obtain ⟨a', h⟩ := C155_succeeds_partial exampleEnv hn D (some y) none (by simp) "distance" (Or.inl rfl) ["mp", "orig"] (by simp)
    (by intro kind hk; left; simp_all; tauto) [10, 5] [1] (by decide)
  have h' := C170_printing_partial exampleEnv (.init D (some ⟨n, y⟩) none "distance") (",".intercalate ["mp", "orig"]) [10, 5] [1]
    (by intro n d X hX; cases hX)
  have h'' : analyze exampleEnv (.init D (some ⟨n, y⟩) none "distance") (",".intercalate ["mp", "orig"]) [10, 5] [1] = (a', none) := h
  rw [h''] at h'
  exact ⟨_, _, Prod.ext rfl (Prod.ext rfl h'.2)⟩

-- C172: the same without labels
example {n : ℕ} (hn : 0 < n) (D : Fin n → Fin n → ℝ) :
    ∃ a' out, analyzePrint exampleEnv (.init D none none "distance") (",".intercalate ["mp", "orig"]) [10, 5] [1]
      = (a', out, none) ∧ .noAccuracy ∉ out := by
  obtain ⟨a', h⟩ := C155_succeeds_partial exampleEnv hn D none none (by simp) "distance" (Or.inl rfl) ["mp", "orig"] (by simp)
    (by intro kind hk; left; simp_all; tauto) [10, 5] [1] (by decide)
  have h' := C170_printing_partial exampleEnv (.init D none none "distance") (",".intercalate ["mp", "orig"]) [10, 5] [1]
    (by intro n d X hX; cases hX)
  have h'' : analyze exampleEnv (.init D none none "distance") (",".intercalate ["mp", "orig"]) [10, 5] [1] = (a', none) := h
  rw [h''] at h'
  have h3 := Prod.ext (x := analyzePrint exampleEnv (.init D none none "distance") (",".intercalate ["mp", "orig"]) [10, 5] [1])
    (y := (_, _, none)) rfl (Prod.ext rfl h'.2)
  exact ⟨_, _, h3, (C172_accuracy_violated exampleEnv _ _ _ (by simp) (by decide +kernel) _ _ _ rfl h3).1⟩

end HubToolbox.Analysis
