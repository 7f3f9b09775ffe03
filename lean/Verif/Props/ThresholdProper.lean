import Verif.Props.EnergyProper
import Verif.Props.Proper
import Verif.Spec.TwProper

/-!
# Property C109: the threshold-weighted scores are proper, and strictly so on what the chaining function keeps
-/

noncomputable section

open scoped Classical
open MeasureTheory

namespace Verif

open XF Py Api Spec Mv

variable {D : ℕ}

/-! ### Laws transported by the chaining function -/

theorem hasMean_of_map {E F : Type} [MeasurableSpace E] [MeasurableSpace F] {P : Measure E} {v : E → F}
    (hv : Measurable v) {S : F → XF} {e : ℝ} (h : HasMean (P.map v) S e) : HasMean P (fun y => S (v y)) e := by
  obtain ⟨s, h1, h2, h3⟩ := h
  refine ⟨fun y => s (v y), ae_of_ae_map hv.aemeasurable h1, ?_, ?_⟩
  · exact (integrable_map_measure h2.aestronglyMeasurable hv.aemeasurable).1 h2
  · rw [← h3, MeasureTheory.integral_map hv.aemeasurable h2.aestronglyMeasurable]

theorem ensLaw_map {E : Type} [MeasurableSpace E] {v : E → E} (hv : Measurable v) (l : List (E × ℝ)) :
    (ensLaw l).map v = ensLaw (l.map fun p => (v p.1, p.2)) := by
  induction l with
  | nil => simp [ensLaw_nil]
  | cons p l ih =>
    rw [List.map_cons, ensLaw_cons, ensLaw_cons, Measure.map_add _ _ hv, Measure.map_smul, Measure.map_dirac' hv, ih]

theorem eqW_map {E : Type} (v : E → E) (xs : List E) : eqW (xs.map v) = (eqW xs).map fun p => (v p.1, p.2) := by
  unfold eqW
  simp [List.map_map, Function.comp_def]

theorem nrmW_chain {E : Type} (v : E → E) (l : List (E × ℝ)) :
    nrmW (l.map fun p => (v p.1, p.2)) = (nrmW l).map fun p => (v p.1, p.2) := by
  unfold nrmW
  simp [List.map_map, Function.comp_def]

theorem kernelProper_chain {E : Type} [MeasurableSpace E] {A : Set (Measure E)} {K : E → E → ℝ} {v : E → E}
    (hv : Measurable v) (hK : StronglyMeasurable fun y => K y y) {S : E → XF} {Q : Measure E}
    (h : KernelProper A K S (Q.map v)) : TwKernelProper A K v (fun y => S (v y)) Q := by
  intro P hP hA
  have : IsProbabilityMeasure (P.map v) := Measure.isProbabilityMeasure_map hv.aemeasurable
  obtain ⟨h1, h2⟩ := h _ hA this
  rw [MeasureTheory.integral_map hv.aemeasurable hK.aestronglyMeasurable] at h1
  exact ⟨hasMean_of_map hv h1, h2⟩

/-! ### Interval thresholds -/

section Clamp

variable {a b : XF} {c : ℝ → ℝ}

theorem clamp_integrable (hab : a ≤ b) (ha : a ≠ pinf) (hb : b ≠ ninf) (h1 : ∀ x z, fin z < a → z < c x)
    (h2 : ∀ x z, b ≤ fin z → c x ≤ z) (h3 : ∀ x z, a ≤ fin z → fin z < b → (c x ≤ z ↔ x ≤ z)) (hc : Measurable c)
    {P : Measure ℝ} [IsProbabilityMeasure P]
    (hP : Integrable (fun y => y) P ∨ ∃ s t : ℝ, a = fin s ∧ b = fin t) : Integrable c P := by
  have hlow : ∀ s : ℝ, a = fin s → ∀ x, s ≤ c x := fun s hs x => by
    apply le_of_forall_lt
    intro z hz
    exact h1 x z (by rw [hs]; simpa using hz)
  have hup : ∀ t : ℝ, b = fin t → ∀ x, c x ≤ t := fun t ht x => h2 x t (by rw [ht]; simp)
  rcases hP with hi | ⟨s, t, hs, ht⟩
  · have key : ∃ C, ∀ x, |c x| ≤ |x| + C := by
      cases a with
      | nan => exact absurd hab (by simp)
      | pinf => exact absurd rfl ha
      | ninf =>
        cases b with
        | nan => exact absurd hab (by simp)
        | ninf => exact absurd rfl hb
        | pinf =>
          refine ⟨0, fun x => ?_⟩
          have e : c x = x := le_antisymm ((h3 x x (by simp) (by simp)).2 le_rfl)
            ((h3 x (c x) (by simp) (by simp)).1 le_rfl)
          rw [e]; simp
        | fin t =>
          refine ⟨|t|, fun x => ?_⟩
          have u := hup t rfl x
          have l : min x t ≤ c x := by
            by_contra hh
            rw [not_le, lt_min_iff] at hh
            exact absurd ((h3 x (c x) (by simp) (by simpa using hh.2)).1 le_rfl) (not_le.2 hh.1)
          rw [abs_le]
          have := le_abs_self t
          have := neg_abs_le t
          have := neg_abs_le x
          have := abs_nonneg x
          have := abs_nonneg t
          rcases min_choice x t with h | h <;> rw [h] at l <;> constructor <;> linarith
      | fin s =>
        cases b with
        | nan => exact absurd hab (by simp)
        | ninf => exact absurd rfl hb
        | pinf =>
          refine ⟨|s|, fun x => ?_⟩
          have l := hlow s rfl x
          have u : c x ≤ max x s := (h3 x (max x s) (by simp) (by simp)).2 (le_max_left _ _)
          rw [abs_le]
          have := le_abs_self s
          have := neg_abs_le s
          have := le_abs_self x
          have := abs_nonneg x
          have := abs_nonneg s
          rcases max_choice x s with h | h <;> rw [h] at u <;> constructor <;> linarith
        | fin t =>
          refine ⟨|s| + |t|, fun x => ?_⟩
          have l := hlow s rfl x
          have u := hup t rfl x
          rw [abs_le]
          have := neg_abs_le s
          have := le_abs_self t
          have := abs_nonneg x
          have := abs_nonneg s
          have := abs_nonneg t
          constructor <;> linarith
    obtain ⟨C, hC⟩ := key
    refine (hi.norm.add (integrable_const C)).mono' hc.aestronglyMeasurable (ae_of_all _ fun x => ?_)
    simpa [Real.norm_eq_abs] using hC x
  · refine (integrable_const (|s| + |t|)).mono' hc.aestronglyMeasurable (ae_of_all _ fun x => ?_)
    have l := hlow s hs x
    have u := hup t ht x
    rw [Real.norm_eq_abs, abs_le]
    have := neg_abs_le s
    have := le_abs_self t
    have := abs_nonneg s
    have := abs_nonneg t
    constructor <;> linarith

/-- a function that vanishes off the region from `a` to `b` -/
theorem integral_region (ha : ¬ a.isnan) (hb : ¬ b.isnan) {f g : ℝ → ℝ} (h1 : ∀ z, fin z < a → f z = 0)
    (h2 : ∀ z, b ≤ fin z → f z = 0) (h3 : ∀ z, a ≤ fin z → fin z < b → f z = g z) :
    ∫ z, f z = ∫ z in between a b, g z := by
  rw [← integral_indicator (measurable_between a b)]
  apply integral_congr_ae
  have hnull : volume {z : ℝ | b = fin z} = 0 := by
    apply Set.Subsingleton.measure_zero
    intro z hz z' hz'
    have : fin z = fin z' := by rw [← hz, ← hz']
    simpa using this
  have hae : ∀ᵐ z : ℝ, ¬ b = fin z := by
    rw [ae_iff]; simpa using hnull
  filter_upwards [hae] with z hz
  by_cases hza : a ≤ fin z
  · by_cases hzb : fin z < b
    · have hm : z ∈ between a b := by
        refine ⟨hza, ?_⟩
        cases b with
        | nan => simp at hb
        | ninf => simp at hzb
        | pinf => simp
        | fin b => simp at hzb ⊢; exact hzb.le
      rw [Set.indicator_of_mem hm, h3 z hza hzb]
    · have hzb' := (not_lt_fin hb z).1 hzb
      have hm : z ∉ between a b := by
        rintro ⟨-, h⟩
        apply hz
        cases b with
        | nan => simp at hb
        | ninf => simp at h
        | pinf => simp at hzb'
        | fin b => simp at h hzb' ⊢; linarith
      rw [Set.indicator_of_notMem hm, h2 z hzb']
  · have hm : z ∉ between a b := fun h => hza h.1
    rw [Set.indicator_of_notMem hm, h1 z ((not_le_fin ha z).1 hza)]

theorem twProper_of (hab : a ≤ b) (ha : a ≠ pinf) (hb : b ≠ ninf) {l : List (ℝ × ℝ)} (ht : wtot l ≠ 0) :
    TwProper a b (fun y => fin (twCrps (between a b) (wcdf l) y)) (wcdf l) := by
  intro P hP hi
  obtain ⟨c, -, h1, h2, h3, hmono⟩ := defaultV_fin ha hb hab
  have hc : Measurable c := hmono.measurable
  have na : ¬ a.isnan := by rintro h; rw [isnan_iff.1 h] at hab; exact absurd hab (by simp)
  have nb : ¬ b.isnan := by rintro h; rw [isnan_iff.1 h] at hab; exact absurd hab (by simp)
  have hPc : IsProbabilityMeasure (P.map c) := Measure.isProbabilityMeasure_map hc.aemeasurable
  have hic : Integrable (fun y => y) (P.map c) := by
    rw [integrable_map_measure (by fun_prop) hc.aemeasurable]
    exact clamp_integrable hab ha hb h1 h2 h3 hc hi
  set l' := l.map fun p => (c p.1, p.2) with hl'
  have hsnd : l'.map Prod.snd = l.map Prod.snd := by rw [hl', List.map_map]; rfl
  have ht' : (l'.map Prod.snd).sum ≠ 0 := by rw [hsnd]; exact ht
  -- the two distribution functions after clamping
  have hP1 : ∀ z, fin z < a → distr (P.map c) z = 0 := fun z hz => by
    unfold distr
    rw [map_measureReal_apply hc measurableSet_Iic]
    have : c ⁻¹' Set.Iic z = ∅ := by
      ext x; simpa using h1 x z hz
    simp [this]
  have hP2 : ∀ z, b ≤ fin z → distr (P.map c) z = 1 := fun z hz => by
    unfold distr
    rw [map_measureReal_apply hc measurableSet_Iic]
    have : c ⁻¹' Set.Iic z = Set.univ := by
      ext x; simpa using h2 x z hz
    simp [this]
  have hP3 : ∀ z, a ≤ fin z → fin z < b → distr (P.map c) z = distr P z := fun z hz hz' => by
    unfold distr
    rw [map_measureReal_apply hc measurableSet_Iic]
    congr 1
    ext x; simpa using h3 x z hz hz'
  have hl1 : ∀ z, fin z < a → wcdf l' z = 0 := fun z hz => by
    unfold wcdf
    rw [List.filter_eq_nil_iff.2]
    · simp
    · intro p hp
      obtain ⟨q, -, rfl⟩ := List.mem_map.1 hp
      simpa using h1 q.1 z hz
  have hl2 : ∀ z, b ≤ fin z → wcdf l' z = 1 := fun z hz => by
    unfold wcdf
    rw [List.filter_eq_self.2]
    · exact div_self ht'
    · intro p hp
      obtain ⟨q, -, rfl⟩ := List.mem_map.1 hp
      simpa using h2 q.1 z hz
  have hl3 : ∀ z, a ≤ fin z → fin z < b → wcdf l' z = wcdf l z := fun z hz hz' => by
    unfold wcdf
    rw [hsnd, hl', List.filter_map, List.map_map]
    congr 3
    apply List.filter_congr
    intro p _
    simp [h3 p.1 z hz hz']
  have hpr : CrpsProper Set.univ (fun y => fin (crps (wcdf l') y)) (wcdf l') :=
    crpsProper_of (wcdf_rightCont _) (hasCrps_wcdf' ht') fun _ _ => rfl
  obtain ⟨m1, m2⟩ := hpr (P.map c) hPc hic (by simp)
  have e1 : crpsEntropy (distr (P.map c)) = ∫ z in between a b, distr P z * (1 - distr P z) :=
    integral_region na nb (fun z hz => by rw [hP1 z hz]; ring) (fun z hz => by rw [hP2 z hz]; ring)
      fun z hz hz' => by rw [hP3 z hz hz']
  have e2 : cramer (wcdf l') (distr (P.map c)) = ∫ z in between a b, (wcdf l z - distr P z) ^ 2 :=
    integral_region na nb (fun z hz => by rw [hP1 z hz, hl1 z hz]; ring)
      (fun z hz => by rw [hP2 z hz, hl2 z hz]; ring) fun z hz hz' => by rw [hP3 z hz hz', hl3 z hz hz']
  rw [e1, e2] at m1
  rw [e2] at m2
  refine ⟨?_, m2.trans ⟨fun h z hz hz' => ?_, fun h => ?_⟩⟩
  · have := hasMean_of_map hc m1
    simp only [hl', twCrps_clamp hab h1 h2 h3 ht] at this
    exact this
  · rw [← hP3 z hz hz', ← hl3 z hz hz', h]
  · funext z
    by_cases hza : a ≤ fin z
    · by_cases hzb : fin z < b
      · rw [hP3 z hza hzb, hl3 z hza hzb, h z hza hzb]
      · have := (not_lt_fin nb z).1 hzb
        rw [hP2 z this, hl2 z this]
    · have := (not_le_fin na z).1 hza
      rw [hP1 z this, hl1 z this]

end Clamp

/-- C109: every entry of `twcrps_ensemble` with thresholds `a ≤ b`, as a function of its observation.  The score
compares the law of the observation with the forecast on the region between the thresholds and ignores the rest. -/
theorem C109_twcrps (path : Path) {fct : Arr ℝ} {m : ℤ} {k : ℕ} (h : Spec.AxisIs m fct.ndim k)
    (hk : fct.shape.getD k 0 ≠ 0) (hne : ∃ i, Arr.Valid (fct.shape.eraseIdx k) i) {a b : XF} (ha : a ≠ pinf)
    (hb : b ≠ ninf) (hab : a ≤ b) {est : String} (he : est = "nrg" ∨ est = "qd" ∨ est = "int") (sorted : Bool)
    (hsort : sorted = true → ∀ i, (fct.sliceAt k i).Pairwise (· ≤ ·)) :
    ∃ S : List ℕ → ℝ → XF,
      (∀ obs : Arr ℝ, obs.shape = fct.shape.eraseIdx k →
        ∃ out, twcrpsEnsemble path (obs.map fin) (fct.map fin) (defaultV a b) m none est sorted "propagate"
            = .ok out ∧
          ∀ i, Arr.Valid obs.shape i → out.get i = S i (obs.get i)) ∧
      ∀ i, Arr.Valid (fct.shape.eraseIdx k) i → TwProper a b (S i) (ecdf (fct.sliceAt k i)) := by
  refine ⟨fun i y => fin (twCrps (between a b) (ecdf (fct.sliceAt k i)) y), fun obs ho => ?_, fun i hi => ?_⟩
  · obtain ⟨out, h1, -, h3⟩ := C21_twcrps_is_restricted_integral h ho hk (by rw [ho]; exact hne) ha hb hab path he
      sorted hsort
    exact ⟨out, h1, h3⟩
  · have hx : fct.sliceAt k i ≠ [] := by
      intro hh
      have := congrArg List.length hh
      simp [Arr.sliceAt] at this
      exact hk (by simpa using this)
    have ht : wtot (uw (fct.sliceAt k i)) ≠ 0 := by rw [wtot_uw hx]; exact one_ne_zero
    have := twProper_of hab ha hb ht
    rw [wcdf_uw hx] at this
    exact this

/-- two observations with three members each, thresholds -1 and infinity -/
example : let fct : Arr ℝ := ⟨[2, 3], fun i => i.sum⟩
    Spec.AxisIs (-1) fct.ndim 1 ∧ fct.shape.getD 1 0 ≠ 0 ∧ Arr.Valid (fct.shape.eraseIdx 1) [1] ∧
      fin (-1) ≠ pinf ∧ (pinf : XF) ≠ ninf ∧ fin (-1) ≤ pinf := by
  refine ⟨⟨by simp [Arr.ndim], Or.inr (by simp [Arr.ndim])⟩, by simp, by simp [Arr.Valid], by simp, by simp, by simp⟩

/-- C109: the same with ensemble weights. -/
theorem C109_twcrps_weighted (path : Path) {fct W : Arr ℝ} {m : ℤ} {k : ℕ} (h : Spec.AxisIs m fct.ndim k)
    (hW : W.shape = fct.shape) (hne : ∃ i, Arr.Valid (fct.shape.eraseIdx k) i) (hw : ∀ i, 0 ≤ W.get i)
    (ht : ∀ i, Arr.Valid (fct.shape.eraseIdx k) i → 0 < (W.sliceAt k i).sum) {a b : XF} (ha : a ≠ pinf)
    (hb : b ≠ ninf) (hab : a ≤ b) {est : String} (he : est = "nrg" ∨ est = "qd" ∨ est = "int") (sorted : Bool)
    (hsort : sorted = true → ∀ i, (fct.sliceAt k i).Pairwise (· ≤ ·)) :
    ∃ S : List ℕ → ℝ → XF,
      (∀ obs : Arr ℝ, obs.shape = fct.shape.eraseIdx k →
        ∃ out, twcrpsEnsemble path (obs.map fin) (fct.map fin) (defaultV a b) m (some (W.map fin)) est sorted
            "propagate" = .ok out ∧
          ∀ i, Arr.Valid obs.shape i → out.get i = S i (obs.get i)) ∧
      ∀ i, Arr.Valid (fct.shape.eraseIdx k) i →
        TwProper a b (S i) (wcdf ((fct.sliceAt k i).zip (W.sliceAt k i))) := by
  refine ⟨fun i y => fin (twCrps (between a b) (wcdf ((fct.sliceAt k i).zip (W.sliceAt k i))) y), fun obs ho => ?_,
    fun i hi => ?_⟩
  · obtain ⟨out, h1, -, h3⟩ := C21_twcrps_weighted h ho hW (by rw [ho]; exact hne) hw (by rw [ho]; exact ht)
      ha hb hab path he sorted hsort
    exact ⟨out, h1, h3⟩
  · refine twProper_of hab ha hb ?_
    unfold wtot
    rw [List.map_snd_zip]
    · exact (ht i hi).ne'
    · simp [Arr.sliceAt, hW]

/-- two observations with three members each, the weights 1, 2 and 3, thresholds -1 and 1 -/
example : let fct : Arr ℝ := ⟨[2, 3], fun i => i.sum⟩
    let W : Arr ℝ := ⟨[2, 3], fun i => 1 + i.getD 1 0⟩
    Spec.AxisIs (-1) fct.ndim 1 ∧ W.shape = fct.shape ∧ Arr.Valid (fct.shape.eraseIdx 1) [1] ∧
      (∀ i, 0 ≤ W.get i) ∧ (∀ i, 0 < (W.sliceAt 1 i).sum) ∧ fin (-1) ≤ fin 1 := by
  refine ⟨⟨by simp [Arr.ndim], Or.inr (by simp [Arr.ndim])⟩, rfl, by simp [Arr.Valid], fun i => by positivity,
    fun i => ?_, by simp⟩
  simp only [Arr.sliceAt, List.range_succ, List.getD_cons_succ, List.getD_cons_zero]
  simp
  positivity

/-! ### Arbitrary chaining functions -/

/-- The chaining function `vF` of the code is `v` on the real numbers and keeps missing values. -/
structure ChainFn (vF : XF → XF) (v : ℝ → ℝ) : Prop where
  eq : ∀ x, vF (fin x) = fin (v x)
  nan : vF nan = nan

theorem ChainFn.ofList {vF : XF → XF} {v : ℝ → ℝ} (h : ChainFn vF v) (xs : List ℝ) :
    (Arr.ofList (xs.map fin)).map vF = Arr.ofList ((xs.map v).map fin) := by
  unfold Arr.ofList Arr.map
  congr 1
  · simp
  · funext i
    simp only [List.getD_eq_getElem?_getD, List.getElem?_map]
    cases xs[i.headD 0]? with
    | none => simp [h.nan]
    | some x => simp [h.eq]

theorem ChainFn.scalar {vF : XF → XF} {v : ℝ → ℝ} (h : ChainFn vF v) (y : ℝ) :
    (Arr.scalar (fin y)).map vF = Arr.scalar (fin (v y)) := by
  unfold Arr.scalar Arr.map
  simp [h.eq]

theorem negDist_diag {E : Type} [NormedAddCommGroup E] [MeasurableSpace E] :
    StronglyMeasurable fun y : E => negDist y y := by
  simp only [negDist, dist_self, neg_zero]
  exact stronglyMeasurable_const

/-- C109: `twcrps_ensemble` with any measurable chaining function: the score compares the images of the laws. -/
theorem C109_twcrps_chain (path : Path) (sorted : Bool) {vF : XF → XF} {v : ℝ → ℝ} (hv : ChainFn vF v)
    (hm : Measurable v) {xs : List ℝ} (h : xs ≠ []) :
    ∃ S : ℝ → XF, (∀ y, item (twcrpsEnsemble path (Arr.scalar (fin y)) (Arr.ofList (xs.map fin)) vF (-1) none "nrg"
        sorted "propagate") = .ok (S y)) ∧
      TwKernelProper (FinMean ℝ) negDist v S (ensLaw (eqW xs)) := by
  have hx : xs.map v ≠ [] := by simpa using h
  refine ⟨fun y => fin (ks negDist (v y) (eqW (xs.map v))), fun y => ?_, ?_⟩
  · unfold twcrpsEnsemble
    rw [hv.scalar, hv.ofList]
    show crps1 path "nrg" sorted "propagate" (fin (v y)) ((xs.map v).map fin) none = _
    rw [C01_nrg_is_integral path sorted _ _ hx, crps_ecdf_eq_energy _ hx, energy_ks]
    rfl
  · refine kernelProper_chain (S := fun y => fin (ks negDist y (eqW (xs.map v)))) hm negDist_diag ?_
    rw [ensLaw_map hm, ← eqW_map]
    exact kernelProper_negDist (eqW_nonneg _) (eqW_sum hx)

theorem chainFn_max (t : ℝ) : ChainFn (fun x => XF.max x (fin t)) (fun x => max x t) :=
  ⟨fun x => fin_max x t, by simp [XF.max]⟩

/-- the chaining function of an upper tail: the larger of the value and 2 -/
example : ChainFn (fun x => XF.max x (fin 2)) (fun x => max x 2) ∧ Measurable (fun x : ℝ => max x 2) ∧
    ([1, 4, 3] : List ℝ) ≠ [] := ⟨chainFn_max 2, by fun_prop, by simp⟩

/-- C109: `twgksuv_ensemble` with any measurable chaining function, for every law of the observation. -/
theorem C109_twgksuv (path : Path) {vF : XF → XF} {v : ℝ → ℝ} (hv : ChainFn vF v) (hm : Measurable v)
    {xs : List ℝ} (h : xs ≠ []) :
    ∃ S : ℝ → XF, (∀ y, item (twgksuvEnsemble path (Arr.scalar (fin y)) (Arr.ofList (xs.map fin)) vF (-1) none "nrg")
        = .ok (S y)) ∧
      TwKernelProper Set.univ gauss1 v S (ensLaw (eqW xs)) := by
  have hx : xs.map v ≠ [] := by simpa using h
  obtain ⟨S, h1, h2⟩ := C103_gksuv path hx
  refine ⟨fun y => S (v y), fun y => ?_, ?_⟩
  · unfold twgksuvEnsemble
    rw [hv.scalar, hv.ofList]
    exact h1 (v y)
  · refine kernelProper_chain hm ?_ ?_
    · simp only [gauss1, sub_self]
      exact stronglyMeasurable_const
    · rw [ensLaw_map hm, ← eqW_map]
      exact h2

example : ChainFn (fun x => XF.max x (fin 2)) (fun x => max x 2) ∧ Measurable (fun x : ℝ => max x 2) ∧
    ([1, 4, 3] : List ℝ) ≠ [] := ⟨chainFn_max 2, by fun_prop, by simp⟩

/-- The chaining function `vF` of the code, which gets whole arrays, is `v` on vectors of real numbers, for an
array with one vector and for an array with one vector per row. -/
structure MvChain (D : ℕ) (vF : Arr XF → Arr XF) (v : Eu D → Eu D) : Prop where
  obs : ∀ y, vF (Arr.ofList (vec y)) = Arr.ofList (vec (v y))
  fct : ∀ xs : List (Eu D), vF (Arr.ofRows D (xs.map vec)) = Arr.ofRows D ((xs.map v).map vec)

/-- C109: `twes_ensemble` with any measurable chaining function. -/
theorem C109_twes (path : Path) {vF : Arr XF → Arr XF} {v : Eu D → Eu D} (hv : MvChain D vF v) (hm : Measurable v)
    {xs : List (Eu D)} (h : xs ≠ []) :
    ∃ S : Eu D → XF, (∀ y, item (twesEnsemble path (Arr.ofList (vec y)) (Arr.ofRows D (xs.map vec)) vF (-2) (-1)
        none "nrg") = .ok (S y)) ∧
      TwKernelProper (FinMean (Eu D)) negDist v S (ensLaw (eqW xs)) := by
  have hx : xs.map v ≠ [] := by simpa using h
  obtain ⟨S, h1, h2⟩ := C104_es path hx
  refine ⟨fun y => S (v y), fun y => ?_, ?_⟩
  · unfold twesEnsemble
    rw [hv.obs, hv.fct]
    exact h1 (v y)
  · refine kernelProper_chain hm negDist_diag ?_
    rw [ensLaw_map hm, ← eqW_map]
    exact h2

/-- elementwise chaining functions -/
theorem ChainFn.mv {vF : XF → XF} {v : ℝ → ℝ} (h : ChainFn vF v) :
    MvChain D (fun a => a.map vF) fun y => WithLp.toLp 2 fun i => v (y i) where
  obs := fun y => by
    unfold Arr.ofList Arr.map
    congr 1
    · simp
    · funext i
      simp only [vec, List.getD_eq_getElem?_getD, List.getElem?_ofFn]
      split <;> simp [h.nan, h.eq]
  fct := fun xs => by
    unfold Arr.ofRows Arr.map
    congr 1
    · simp
    · funext i
      simp only [List.getD_eq_getElem?_getD, List.getElem?_map]
      cases xs[i.headD 0]? with
      | none => simp [h.nan]
      | some x =>
        simp only [vec, Option.map_some, Option.getD_some, List.getElem?_ofFn]
        split <;> simp [h.nan, h.eq]

theorem measurable_coord {v : ℝ → ℝ} (h : Measurable v) :
    Measurable fun y : Eu D => (WithLp.toLp 2 fun i => v (y i) : Eu D) := by
  refine (PiLp.continuous_toLp 2 fun _ : Fin D => ℝ).measurable.comp (measurable_pi_lambda _ fun i => ?_)
  exact h.comp (Continuous.measurable (by fun_prop))

/-- the larger of each component and 2 -/
example : MvChain 3 (fun a => a.map fun x => XF.max x (fin 2)) (fun y => WithLp.toLp 2 fun i => max (y i) 2) ∧
    Measurable (fun y : Eu 3 => (WithLp.toLp 2 fun i => max (y i) 2 : Eu 3)) :=
  ⟨(chainFn_max 2).mv, measurable_coord (v := fun x => max x 2) (by fun_prop)⟩

/-- C109: `twes_ensemble` with ensemble weights. -/
theorem C109_twes_weighted (path : Path) {vF : Arr XF → Arr XF} {v : Eu D → Eu D} (hv : MvChain D vF v)
    (hm : Measurable v) {l : List (Eu D × ℝ)} (hw : ∀ p ∈ l, 0 ≤ p.2) (h : (l.map Prod.snd).sum ≠ 0) :
    ∃ S : Eu D → XF, (∀ y, item (twesEnsemble path (Arr.ofList (vec y)) (Arr.ofRows D ((l.map Prod.fst).map vec)) vF
        (-2) (-1) (some (Arr.ofList (l.map fun p => fin p.2))) "nrg") = .ok (S y)) ∧
      TwKernelProper (FinMean (Eu D)) negDist v S (ensLaw (nrmW l)) := by
  obtain ⟨S, h1, h2⟩ := C104_es_weighted path (l := l.map fun p => (v p.1, p.2))
    (by intro p hp; obtain ⟨q, hq, rfl⟩ := List.mem_map.1 hp; exact hw q hq) (by rw [List.map_map]; exact h)
  refine ⟨fun y => S (v y), fun y => ?_, ?_⟩
  · unfold twesEnsemble
    rw [hv.obs, hv.fct]
    have := h1 (v y)
    simp only [List.map_map, Function.comp_def] at this ⊢
    exact this
  · refine kernelProper_chain hm negDist_diag ?_
    rw [ensLaw_map hm, ← nrmW_chain]
    exact h2

/-- two members in the plane, one without weight -/
example : MvChain 2 (fun a => a.map fun x => XF.max x (fin 2)) (fun y => WithLp.toLp 2 fun i => max (y i) 2) ∧
    Measurable (fun y : Eu 2 => (WithLp.toLp 2 fun i => max (y i) 2 : Eu 2)) ∧
    (∀ p ∈ ([(!₂[1, 2], 2), (0, 0)] : List (Eu 2 × ℝ)), 0 ≤ p.2) ∧
    (([(!₂[1, 2], 2), (0, 0)] : List (Eu 2 × ℝ)).map Prod.snd).sum ≠ 0 :=
  ⟨(chainFn_max 2).mv, measurable_coord (v := fun x => max x 2) (by fun_prop), by simp, by simp⟩

/-- C109: `twgksmv_ensemble` with any measurable chaining function, for every law of the observation. -/
theorem C109_twgksmv (path : Path) {vF : Arr XF → Arr XF} {v : Eu D → Eu D} (hv : MvChain D vF v)
    (hm : Measurable v) {xs : List (Eu D)} (h : xs ≠ []) :
    ∃ S : Eu D → XF, (∀ y, item (twgksmvEnsemble path (Arr.ofList (vec y)) (Arr.ofRows D (xs.map vec)) vF (-2) (-1)
        none "nrg") = .ok (S y)) ∧
      TwKernelProper Set.univ gaussD v S (ensLaw (eqW xs)) := by
  have hx : xs.map v ≠ [] := by simpa using h
  obtain ⟨S, h1, h2⟩ := C103_gksmv path hx
  refine ⟨fun y => S (v y), fun y => ?_, ?_⟩
  · unfold twgksmvEnsemble
    rw [hv.obs, hv.fct]
    exact h1 (v y)
  · refine kernelProper_chain hm ?_ ?_
    · simp only [gaussD, dist_self]
      exact stronglyMeasurable_const
    · rw [ensLaw_map hm, ← eqW_map]
      exact h2

example : MvChain 3 (fun a => a.map fun x => XF.max x (fin 2)) (fun y => WithLp.toLp 2 fun i => max (y i) 2) ∧
    Measurable (fun y : Eu 3 => (WithLp.toLp 2 fun i => max (y i) 2 : Eu 3)) :=
  ⟨(chainFn_max 2).mv, measurable_coord (v := fun x => max x 2) (by fun_prop)⟩

/-- C109: `twgksuv_ensemble` with ensemble weights. -/
theorem C109_twgksuv_weighted (path : Path) {vF : XF → XF} {v : ℝ → ℝ} (hv : ChainFn vF v) (hm : Measurable v)
    {l : List (ℝ × ℝ)} (hw : ∀ p ∈ l, 0 ≤ p.2) (h : (l.map Prod.snd).sum ≠ 0) :
    ∃ S : ℝ → XF, (∀ y, item (twgksuvEnsemble path (Arr.scalar (fin y)) (Arr.ofList ((l.map Prod.fst).map fin)) vF (-1)
        (some (Arr.ofList (l.map fun p => fin p.2))) "nrg") = .ok (S y)) ∧
      TwKernelProper Set.univ gauss1 v S (ensLaw (nrmW l)) := by
  obtain ⟨S, h1, h2⟩ := C103_gksuv_weighted path (l := l.map fun p => (v p.1, p.2))
    (by intro p hp; obtain ⟨q, hq, rfl⟩ := List.mem_map.1 hp; exact hw q hq) (by rw [List.map_map]; exact h)
  refine ⟨fun y => S (v y), fun y => ?_, ?_⟩
  · unfold twgksuvEnsemble
    rw [hv.scalar, hv.ofList]
    have := h1 (v y)
    simp only [List.map_map, Function.comp_def] at this ⊢
    exact this
  · refine kernelProper_chain hm ?_ ?_
    · simp only [gauss1, sub_self]
      exact stronglyMeasurable_const
    · rw [ensLaw_map hm, ← nrmW_chain]
      exact h2

/-- two members, one without weight -/
example : ChainFn (fun x => XF.max x (fin 2)) (fun x => max x 2) ∧ Measurable (fun x : ℝ => max x 2) ∧
    (∀ p ∈ ([(1, 2), (4, 0)] : List (ℝ × ℝ)), 0 ≤ p.2) ∧
    (([(1, 2), (4, 0)] : List (ℝ × ℝ)).map Prod.snd).sum ≠ 0 :=
  ⟨chainFn_max 2, by fun_prop, by simp, by simp⟩

/-- C109: `twgksmv_ensemble` with ensemble weights. -/
theorem C109_twgksmv_weighted (path : Path) {vF : Arr XF → Arr XF} {v : Eu D → Eu D} (hv : MvChain D vF v)
    (hm : Measurable v) {l : List (Eu D × ℝ)} (hw : ∀ p ∈ l, 0 ≤ p.2) (h : (l.map Prod.snd).sum ≠ 0) :
    ∃ S : Eu D → XF, (∀ y, item (twgksmvEnsemble path (Arr.ofList (vec y)) (Arr.ofRows D ((l.map Prod.fst).map vec)) vF
        (-2) (-1) (some (Arr.ofList (l.map fun p => fin p.2))) "nrg") = .ok (S y)) ∧
      TwKernelProper Set.univ gaussD v S (ensLaw (nrmW l)) := by
  obtain ⟨S, h1, h2⟩ := C103_gksmv_weighted path (l := l.map fun p => (v p.1, p.2))
    (by intro p hp; obtain ⟨q, hq, rfl⟩ := List.mem_map.1 hp; exact hw q hq) (by rw [List.map_map]; exact h)
  refine ⟨fun y => S (v y), fun y => ?_, ?_⟩
  · unfold twgksmvEnsemble
    rw [hv.obs, hv.fct]
    have := h1 (v y)
    simp only [List.map_map, Function.comp_def] at this ⊢
    exact this
  · refine kernelProper_chain hm ?_ ?_
    · simp only [gaussD, dist_self]
      exact stronglyMeasurable_const
    · rw [ensLaw_map hm, ← nrmW_chain]
      exact h2

/-- two members in the plane, one without weight -/
example : MvChain 2 (fun a => a.map fun x => XF.max x (fin 2)) (fun y => WithLp.toLp 2 fun i => max (y i) 2) ∧
    Measurable (fun y : Eu 2 => (WithLp.toLp 2 fun i => max (y i) 2 : Eu 2)) ∧
    (∀ p ∈ ([(!₂[1, 2], 2), (0, 0)] : List (Eu 2 × ℝ)), 0 ≤ p.2) ∧
    (([(!₂[1, 2], 2), (0, 0)] : List (Eu 2 × ℝ)).map Prod.snd).sum ≠ 0 :=
  ⟨(chainFn_max 2).mv, measurable_coord (v := fun x => max x 2) (by fun_prop), by simp, by simp⟩

end Verif
