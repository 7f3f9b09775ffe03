import Verif.Props.Identities
import Verif.Props.QuantileLaw
import Verif.Lemmas.Proper

/-!
# Property C146: quantile scores at many levels approach the CRPS of the law

The forecaster reports quantiles of a law on a bounded interval.  `crps_quantile` and `weighted_interval_score` then
differ from the CRPS of the law by at most a constant divided by the number of levels.
-/

noncomputable section

open scoped Classical
open MeasureTheory Filter Topology

namespace Verif

open XF Py Api Spec

/-! ### Quantiles and distribution functions -/

variable {P : Measure ℝ} [IsProbabilityMeasure P]

theorem lawQuantile_mono {α β p q : ℝ} (h : α < β) (hp : LawQuantile P α p) (hq : LawQuantile P β q) : p ≤ q := by
  by_contra hc
  have h1 : P.real (Set.Iic q) ≤ P.real (Set.Iio p) := measureReal_mono (Set.Iic_subset_Iio.2 (not_le.1 hc))
  linarith [hp.1, hq.2]

theorem distr_below {a b : ℝ} (hP : P (Set.Icc a b) = 1) {z : ℝ} (h : z < a) : distr P z = 0 := by
  have h0 : P (Set.Icc a b)ᶜ = 0 := (prob_compl_eq_zero_iff measurableSet_Icc).2 hP
  unfold distr Measure.real
  rw [measure_mono_null (fun x hx => ?_) h0]; rfl
  intro hc
  exact absurd (hc.1.trans hx) (not_le.2 h)

theorem distr_above {a b : ℝ} (hP : P (Set.Icc a b) = 1) {z : ℝ} (h : b ≤ z) : distr P z = 1 := by
  refine le_antisymm (distr_le_one P z) ?_
  have h1 : P.real (Set.Icc a b) = 1 := by unfold Measure.real; rw [hP]; rfl
  rw [← h1]
  exact measureReal_mono fun x hx => hx.2.trans h

theorem lawQuantile_mem {a b : ℝ} (hP : P (Set.Icc a b) = 1) {α q : ℝ} (h0 : 0 < α) (h1 : α < 1)
    (hq : LawQuantile P α q) : a ≤ q ∧ q ≤ b := by
  constructor
  · by_contra hc
    have := distr_below hP (not_le.1 hc)
    unfold distr at this
    linarith [hq.2]
  · by_contra hc
    have := distr_above hP (le_refl b)
    unfold distr at this
    have h2 : P.real (Set.Iic b) ≤ P.real (Set.Iio q) := measureReal_mono (Set.Iic_subset_Iio.2 (not_le.1 hc))
    linarith [hq.1]

theorem countP_le_iff {l : List ℝ} (hs : l.Pairwise (· ≤ ·)) {i : ℕ} (hi : i < l.length) (z : ℝ) :
    i < l.countP (fun x => decide (x ≤ z)) ↔ l[i] ≤ z := by
  constructor
  · intro h
    by_contra hc
    have h1 := countP_lt_getElem hs hi
    have h2 : l.countP (fun x => decide (x ≤ z)) ≤ l.countP (fun x => decide (x < l[i])) :=
      List.countP_mono_left fun x _ hx => by
        simp only [decide_eq_true_eq] at hx ⊢
        linarith
    omega
  · intro h
    refine (lt_countP_le_getElem hs hi).trans_le (List.countP_mono_left fun x _ hx => ?_)
    simp only [decide_eq_true_eq] at hx ⊢
    linarith

/-- the distribution function of the reported quantiles is close to that of the law -/
theorem ecdf_near {M : ℕ} (hM : 0 < M) {α q : Fin M → ℝ} (ha : StrictMono α)
    (hq : ∀ k, LawQuantile P (α k) (q k)) {δ : ℝ} (hδ : 0 ≤ δ)
    (hd : ∀ k, |α k - ((k : ℕ) + 1 / 2) / M| ≤ δ) (z : ℝ) :
    |ecdf (List.ofFn q) z - distr P z| ≤ 1 / (2 * M) + δ := by
  have hM' : (0:ℝ) < M := by exact_mod_cast hM
  have hs : (List.ofFn q).Pairwise (· ≤ ·) := by
    rw [List.pairwise_ofFn]
    exact fun i j h => lawQuantile_mono (ha h) (hq i) (hq j)
  obtain ⟨N, hN⟩ : ∃ N, N = (List.ofFn q).countP (fun x => decide (x ≤ z)) := ⟨_, rfl⟩
  have hNM : N ≤ M := by rw [hN]; exact List.countP_le_length.trans (by simp)
  have e : ecdf (List.ofFn q) z = N / M := by unfold ecdf; rw [← hN]; simp
  have hp : (0:ℝ) < 1 / (2 * M) := by positivity
  have key : ∀ k : Fin M, (k : ℕ) < N ↔ q k ≤ z := fun k => by
    have := countP_le_iff hs (i := k) (by simp) z
    rw [← hN] at this
    simpa using this
  rw [e, abs_le]
  constructor
  · rcases Nat.lt_or_ge N M with h | h
    · have h1 : ¬ q ⟨N, h⟩ ≤ z := fun hc => absurd ((key ⟨N, h⟩).2 hc) (by simp)
      have h2 : distr P z ≤ P.real (Set.Iio (q ⟨N, h⟩)) :=
        measureReal_mono (Set.Iic_subset_Iio.2 (not_le.1 h1))
      have h3 := (hq ⟨N, h⟩).1
      have h4 := (abs_le.1 (hd ⟨N, h⟩)).2
      have e2 : ((N : ℝ) + 1 / 2) / M = N / M + 1 / (2 * M) := by field_simp
      simp only at h4
      rw [e2] at h4
      linarith
    · have : N = M := le_antisymm hNM h
      rw [this, div_self hM'.ne']
      linarith [distr_le_one P z]
  · rcases Nat.eq_zero_or_pos N with h | h
    · rw [h]
      simp only [Nat.cast_zero, zero_div]
      linarith [distr_nonneg P z]
    · have hk : N - 1 < M := by omega
      have h1 : q ⟨N - 1, hk⟩ ≤ z := (key ⟨N - 1, hk⟩).1 (by simp only; omega)
      have h2 : P.real (Set.Iic (q ⟨N - 1, hk⟩)) ≤ distr P z := measureReal_mono (Set.Iic_subset_Iic.2 h1)
      have h3 := (hq ⟨N - 1, hk⟩).2
      have h4 := (abs_le.1 (hd ⟨N - 1, hk⟩)).1
      have e2 : (((N - 1 : ℕ) : ℝ) + 1 / 2) / M = N / M - 1 / (2 * M) := by
        rw [Nat.cast_sub h]; push_cast; field_simp; ring
      simp only at h4
      rw [e2] at h4
      linarith

/-- distribution functions that differ by at most `ε` on `[a, b]` and agree elsewhere have close scores -/
theorem crps_near {F G : ℝ → ℝ} {a b ε y : ℝ} (hab : a ≤ b) (hF : ∀ z, 0 ≤ F z ∧ F z ≤ 1) (hG : ∀ z, 0 ≤ G z ∧ G z ≤ 1)
    (mF : Monotone F) (mG : Monotone G) (hlF : ∀ z, z < a → F z = 0) (hlG : ∀ z, z < a → G z = 0)
    (huF : ∀ z, b ≤ z → F z = 1) (huG : ∀ z, b ≤ z → G z = 1) (h : ∀ z, |F z - G z| ≤ ε) :
    |crps F y - crps G y| ≤ 2 * ε * (b - a) := by
  have int : ∀ {H : ℝ → ℝ}, (∀ z, 0 ≤ H z ∧ H z ≤ 1) → Monotone H → (∀ z, z < a → H z = 0) →
      (∀ z, b ≤ z → H z = 1) → Integrable fun z => (H z - if y ≤ z then (1:ℝ) else 0) ^ 2 := by
    intro H h01 mH hl hu
    have hm : Measurable fun z => (H z - if y ≤ z then (1:ℝ) else 0) ^ 2 :=
      (mH.measurable.sub (Measurable.ite measurableSet_Ici measurable_const measurable_const)).pow_const 2
    have hb : Integrable ((Set.Icc (min a y) (max b y)).indicator fun _ : ℝ => (1:ℝ)) :=
      (integrable_indicator_iff measurableSet_Icc).2 (by simp)
    refine hb.mono' hm.aestronglyMeasurable (Filter.Eventually.of_forall fun z => ?_)
    rw [Real.norm_eq_abs, abs_of_nonneg (sq_nonneg _)]
    by_cases hz : z ∈ Set.Icc (min a y) (max b y)
    · rw [Set.indicator_of_mem hz]
      have := h01 z
      split_ifs <;> nlinarith
    · rw [Set.indicator_of_notMem hz]
      rw [Set.mem_Icc, not_and_or, not_le, not_le] at hz
      rcases hz with hz | hz
      · rw [hl z (hz.trans_le (min_le_left _ _)), if_neg (not_le.2 (hz.trans_le (min_le_right _ _)))]; simp
      · rw [hu z ((le_max_left _ _).trans hz.le), if_pos ((le_max_right _ _).trans hz.le)]; simp
  unfold crps
  rw [← integral_sub (int hF mF hlF huF) (int hG mG hlG huG)]
  have e : ∀ z, (F z - if y ≤ z then (1:ℝ) else 0) ^ 2 - (G z - if y ≤ z then (1:ℝ) else 0) ^ 2
      = (Set.Icc a b).indicator (fun z => (F z - if y ≤ z then (1:ℝ) else 0) ^ 2
        - (G z - if y ≤ z then (1:ℝ) else 0) ^ 2) z := by
    intro z
    by_cases hz : z ∈ Set.Icc a b
    · rw [Set.indicator_of_mem hz]
    · rw [Set.indicator_of_notMem hz]
      rw [Set.mem_Icc, not_and_or, not_le, not_le] at hz
      rcases hz with hz | hz
      · rw [hlF z hz, hlG z hz]; ring
      · rw [huF z hz.le, huG z hz.le]; ring
  rw [integral_congr_ae (Filter.Eventually.of_forall e), integral_indicator measurableSet_Icc]
  have := norm_setIntegral_le_of_norm_le_const (μ := volume) (s := Set.Icc a b) (C := 2 * ε)
    (f := fun z => (F z - if y ≤ z then (1:ℝ) else 0) ^ 2 - (G z - if y ≤ z then (1:ℝ) else 0) ^ 2)
    (by simp) (fun z _ => by
      rw [Real.norm_eq_abs]
      have e2 : (F z - if y ≤ z then (1:ℝ) else 0) ^ 2 - (G z - if y ≤ z then (1:ℝ) else 0) ^ 2
          = (F z - G z) * (F z + G z - 2 * if y ≤ z then (1:ℝ) else 0) := by ring
      rw [e2, abs_mul]
      have h1 : |F z + G z - 2 * if y ≤ z then (1:ℝ) else 0| ≤ 2 := by
        have := hF z; have := hG z
        rw [abs_le]
        split_ifs <;> constructor <;> linarith
      have := mul_le_mul (h z) h1 (abs_nonneg _) ((abs_nonneg _).trans (h z))
      linarith)
  rwa [Real.norm_eq_abs, Real.volume_real_Icc_of_le hab] at this

theorem ecdf_mono (xs : List ℝ) : Monotone (ecdf xs) := fun u v h => by
  unfold ecdf
  gcongr
  exact List.countP_mono_left fun x _ hx => by
    simp only [decide_eq_true_eq] at hx ⊢
    linarith

theorem pinball_level (α β q y : ℝ) : |pinball α q y - pinball β q y| = |α - β| * |y - q| := by
  rw [pinball_eq_le, pinball_eq_le, ← abs_mul]
  congr 1
  ring

/-- the mean quantile score of the quantiles of the law, and its CRPS -/
theorem pinball_near {M : ℕ} (hM : 0 < M) {α q : Fin M → ℝ} (ha : StrictMono α) (h01 : ∀ k, 0 < α k ∧ α k < 1)
    {a b : ℝ} (hP : P (Set.Icc a b) = 1) (hq : ∀ k, LawQuantile P (α k) (q k)) {δ : ℝ} (hδ : 0 ≤ δ)
    (hd : ∀ k, |α k - ((k : ℕ) + 1 / 2) / M| ≤ δ) (y : ℝ) :
    |2 * ((∑ k, pinball (α k) (q k) y) / M) - crps (distr P) y|
      ≤ (b - a) * (1 / M + 2 * δ) + 2 * δ * max |y - a| |y - b| := by
  have hM' : (0:ℝ) < M := by exact_mod_cast hM
  have hs : (List.ofFn q).Pairwise (· ≤ ·) := by
    rw [List.pairwise_ofFn]
    exact fun i j h => lawQuantile_mono (ha h) (hq i) (hq j)
  have hne : List.ofFn q ≠ [] := by simpa using hM.ne'
  have hm : ∀ k, a ≤ q k ∧ q k ≤ b := fun k => lawQuantile_mem hP (h01 k).1 (h01 k).2 (hq k)
  have hab : a ≤ b := (hm ⟨0, hM⟩).1.trans (hm ⟨0, hM⟩).2
  have e1 : 2 * ((∑ k : Fin M, pinball (((k : ℕ) + 1 / 2) / M) (q k) y) / M) = crps (ecdf (List.ofFn q)) y := by
    rw [← midLevels_pinball y _ hne hs, List.length_ofFn]
    congr 2
    rw [← List.sum_ofFn]
    congr 1
    apply List.ext_getElem
    · simp [midLevels]
    · intro i h1 h2
      simp [midLevels]
  have e2 : |crps (ecdf (List.ofFn q)) y - crps (distr P) y| ≤ 2 * (1 / (2 * M) + δ) * (b - a) := by
    refine crps_near hab (fun z => ⟨ecdf_nonneg _ z, ecdf_le_one _ z⟩) (fun z => ⟨distr_nonneg P z, distr_le_one P z⟩)
      (ecdf_mono _) (distr_mono P) (fun z hz => ?_) (fun z hz => distr_below hP hz) (fun z hz => ?_)
      (fun z hz => distr_above hP hz) (fun z => ecdf_near hM ha hq hδ hd z)
    · unfold ecdf
      rw [List.countP_eq_zero.2]
      · simp
      · intro x hx
        obtain ⟨k, rfl⟩ := List.mem_ofFn.1 hx
        simp only [decide_eq_true_eq, not_le]
        exact hz.trans_le (hm k).1
    · unfold ecdf
      rw [List.countP_eq_length.2]
      · simp [hM.ne']
      · intro x hx
        obtain ⟨k, rfl⟩ := List.mem_ofFn.1 hx
        simpa using (hm k).2.trans hz
  have e3 : |2 * ((∑ k, pinball (α k) (q k) y) / M)
      - 2 * ((∑ k : Fin M, pinball (((k : ℕ) + 1 / 2) / M) (q k) y) / M)| ≤ 2 * δ * max |y - a| |y - b| := by
    have hb : ∀ k, |pinball (α k) (q k) y - pinball (((k : ℕ) + 1 / 2) / M) (q k) y| ≤ δ * max |y - a| |y - b| := by
      intro k
      rw [pinball_level]
      refine mul_le_mul (hd k) ?_ (abs_nonneg _) hδ
      rw [abs_le]
      have h1 := le_abs_self (y - a)
      have h2 := neg_abs_le (y - b)
      have h3 := le_max_left |y - a| |y - b|
      have h4 := le_max_right |y - a| |y - b|
      have := hm k
      constructor <;> linarith
    have e : 2 * ((∑ k, pinball (α k) (q k) y) / M)
        - 2 * ((∑ k : Fin M, pinball (((k : ℕ) + 1 / 2) / M) (q k) y) / M)
        = 2 / M * ∑ k, (pinball (α k) (q k) y - pinball (((k : ℕ) + 1 / 2) / M) (q k) y) := by
      rw [Finset.sum_sub_distrib]; ring
    rw [e, abs_mul, abs_of_pos (by positivity)]
    have h1 : |∑ k, (pinball (α k) (q k) y - pinball (((k : ℕ) + 1 / 2) / M) (q k) y)|
        ≤ M * (δ * max |y - a| |y - b|) := by
      refine (Finset.abs_sum_le_sum_abs _ _).trans ?_
      refine (Finset.sum_le_sum fun k _ => hb k).trans ?_
      simp
    calc 2 / (M:ℝ) * _ ≤ 2 / M * (M * (δ * max |y - a| |y - b|)) := by gcongr
      _ = _ := by field_simp
  rw [e1] at e3
  have := abs_sub_le (2 * ((∑ k, pinball (α k) (q k) y) / M)) (crps (ecdf (List.ofFn q)) y) (crps (distr P) y)
  have e4 : 2 * (1 / (2 * (M:ℝ)) + δ) * (b - a) = (b - a) * (1 / M + 2 * δ) := by field_simp
  linarith

/-! ### C146 -/

/-- C146: a forecaster reports the quantiles of a law on `[a, b]` at `M` ascending levels that lie within `δ` of
`(k + 1/2) / M`; `crps_quantile` is then within `(b - a) (1 / M + 2 δ) + 2 δ max(|y - a|, |y - b|)` of the CRPS of the
law, for every observation `y`, on both paths. -/
theorem C146_crps_quantile (path : Path) {M : ℕ} (hM : 0 < M) {α q : Fin M → ℝ} (ha : StrictMono α)
    (h01 : ∀ k, 0 < α k ∧ α k < 1) {a b : ℝ} (hP : P (Set.Icc a b) = 1) (hq : ∀ k, LawQuantile P (α k) (q k)) {δ : ℝ}
    (hδ : 0 ≤ δ) (hd : ∀ k, |α k - ((k : ℕ) + 1 / 2) / M| ≤ δ) (y : ℝ) :
    ∃ s : ℝ, item (crpsQuantile path (Arr.scalar (fin y)) (Arr.ofList (List.ofFn fun k => fin (q k)))
        (List.ofFn fun k => fin (α k)) (-1)) = .ok (fin s) ∧
      |s - crps (distr P) y| ≤ (b - a) * (1 / M + 2 * δ) + 2 * δ * max |y - a| |y - b| := by
  refine ⟨2 * ((∑ k, pinball (α k) (q k) y) / M), ?_, pinball_near hM ha h01 hP hq hδ hd y⟩
  have := crpsQuantile_item path y (l := List.ofFn fun k => (q k, α k))
    (by intro h; have := congrArg List.length h; simp at this; omega)
    (by intro a h; obtain ⟨k, rfl⟩ := List.mem_ofFn.1 h; exact h01 k)
  simpa only [List.map_ofFn, Function.comp_def, List.sum_ofFn, List.length_ofFn] using this

/-- the uniform law on `[0, 1]` -/
def unif01 : Measure ℝ := volume.restrict (Set.Icc 0 1)

instance unif01_prob : IsProbabilityMeasure unif01 := ⟨by simp [unif01]⟩

theorem unif01_Icc : unif01 (Set.Icc 0 1) = 1 := by simp [unif01]

theorem unif01_quantile {α : ℝ} (h0 : 0 < α) (h1 : α < 1) : LawQuantile unif01 α α := by
  have e1 : Set.Iio α ∩ Set.Icc 0 1 = Set.Ico 0 α := by
    ext x; simp only [Set.mem_inter_iff, Set.mem_Iio, Set.mem_Icc, Set.mem_Ico]
    constructor
    · rintro ⟨h, h', _⟩; exact ⟨h', h⟩
    · rintro ⟨h, h'⟩; exact ⟨h', h, by linarith⟩
  have e2 : Set.Iic α ∩ Set.Icc 0 1 = Set.Icc 0 α := by
    ext x; simp only [Set.mem_inter_iff, Set.mem_Iic, Set.mem_Icc]
    constructor
    · rintro ⟨h, h', _⟩; exact ⟨h', h⟩
    · rintro ⟨h, h'⟩; exact ⟨h', h, by linarith⟩
  unfold LawQuantile unif01 Measure.real
  rw [Measure.restrict_apply measurableSet_Iio, Measure.restrict_apply measurableSet_Iic, e1, e2, Real.volume_Ico,
    Real.volume_Icc, sub_zero, ENNReal.toReal_ofReal h0.le]
  exact ⟨le_rfl, le_rfl⟩

/-- the uniform law on `[0, 1]` and the levels 1/3 and 2/3 -/
example : unif01 (Set.Icc 0 1) = 1 ∧ StrictMono (![1 / 3, 2 / 3] : Fin 2 → ℝ) ∧
    (∀ k, (0:ℝ) < (![1 / 3, 2 / 3] : Fin 2 → ℝ) k ∧ (![1 / 3, 2 / 3] : Fin 2 → ℝ) k < 1) ∧
    (∀ k, LawQuantile unif01 ((![1 / 3, 2 / 3] : Fin 2 → ℝ) k) ((![1 / 3, 2 / 3] : Fin 2 → ℝ) k)) ∧
    ∀ k : Fin 2, |(![1 / 3, 2 / 3] : Fin 2 → ℝ) k - ((k : ℕ) + 1 / 2) / (2 : ℕ)| ≤ 1 / 12 := by
  have h01 : ∀ k, (0:ℝ) < (![1 / 3, 2 / 3] : Fin 2 → ℝ) k ∧ (![1 / 3, 2 / 3] : Fin 2 → ℝ) k < 1 := by
    intro k; fin_cases k <;> norm_num
  refine ⟨unif01_Icc, ?_, h01, fun k => unif01_quantile (h01 k).1 (h01 k).2, fun k => ?_⟩
  · intro i j h
    fin_cases i <;> fin_cases j <;> simp at h ⊢
    norm_num
  · fin_cases k <;> simp <;> norm_num [abs_le]

theorem equalLevels_near {M : ℕ} (k : Fin M) :
    |(((k : ℕ) : ℝ) + 1) / (M + 1) - ((k : ℕ) + 1 / 2) / M| ≤ 1 / (2 * M) := by
  have hk : ((k : ℕ) : ℝ) + 1 ≤ M := by exact_mod_cast k.2
  have h0 : (0:ℝ) ≤ (k : ℕ) := Nat.cast_nonneg _
  have hM : (0:ℝ) < M := by linarith
  have e : (((k : ℕ) : ℝ) + 1) / (M + 1) - ((k : ℕ) + 1 / 2) / M = ((M - 1 - 2 * (k : ℕ)) / (M + 1)) * (1 / (2 * M)) := by
    field_simp; ring
  rw [e, abs_mul, abs_of_pos (by positivity : (0:ℝ) < 1 / (2 * M)), abs_div, abs_of_pos (by positivity : (0:ℝ) < M + 1)]
  refine mul_le_of_le_one_left (by positivity) ?_
  rw [div_le_one (by positivity), abs_le]
  constructor <;> linarith

theorem equalLevels_pinball {Q : ℝ → ℝ} {a b : ℝ} (hP : P (Set.Icc a b) = 1)
    (hQ : ∀ α, 0 < α → α < 1 → LawQuantile P α (Q α)) {M : ℕ} (hM : 0 < M) (y : ℝ) :
    |2 * ((∑ k : Fin M, pinball (((k : ℕ) + 1) / (M + 1)) (Q (((k : ℕ) + 1) / (M + 1))) y) / M) - crps (distr P) y|
      ≤ (2 * (b - a) + max |y - a| |y - b|) / M := by
  have hM' : (0:ℝ) < M := by exact_mod_cast hM
  have h01 : ∀ k : Fin M, (0:ℝ) < ((k : ℕ) + 1) / (M + 1) ∧ (((k : ℕ) : ℝ) + 1) / (M + 1) < 1 := fun k => by
    have hk : ((k : ℕ) : ℝ) + 1 ≤ M := by exact_mod_cast k.2
    exact ⟨by positivity, by rw [div_lt_one (by positivity)]; linarith⟩
  have := pinball_near hM (α := fun k : Fin M => (((k : ℕ) : ℝ) + 1) / (M + 1))
    (q := fun k => Q ((((k : ℕ) : ℝ) + 1) / (M + 1)))
    (fun i j h => by
      have : ((i : ℕ) : ℝ) < (j : ℕ) := by exact_mod_cast h
      show (((i : ℕ) : ℝ) + 1) / (M + 1) < (((j : ℕ) : ℝ) + 1) / (M + 1)
      gcongr)
    h01 hP (fun k => hQ _ (h01 k).1 (h01 k).2) (δ := 1 / (2 * M)) (by positivity) equalLevels_near y
  refine this.trans (le_of_eq ?_)
  field_simp
  ring

/-- C146: with the `M` levels `k / (M + 1)` the distance from the CRPS of the law is at most
`(2 (b - a) + max(|y - a|, |y - b|)) / M`. -/
theorem C146_equal_levels (path : Path) {Q : ℝ → ℝ} {a b : ℝ} (hP : P (Set.Icc a b) = 1)
    (hQ : ∀ α, 0 < α → α < 1 → LawQuantile P α (Q α)) {M : ℕ} (hM : 0 < M) (y : ℝ) :
    ∃ s : ℝ, item (crpsQuantile path (Arr.scalar (fin y))
        (Arr.ofList (List.ofFn fun k : Fin M => fin (Q (((k : ℕ) + 1) / (M + 1)))))
        (List.ofFn fun k : Fin M => fin (((k : ℕ) + 1) / (M + 1))) (-1)) = .ok (fin s) ∧
      |s - crps (distr P) y| ≤ (2 * (b - a) + max |y - a| |y - b|) / M := by
  refine ⟨_, ?_, equalLevels_pinball hP hQ hM y⟩
  have := crpsQuantile_item path y
    (l := List.ofFn fun k : Fin M => (Q ((((k : ℕ) : ℝ) + 1) / (M + 1)), (((k : ℕ) : ℝ) + 1) / (M + 1)))
    (by intro h; have := congrArg List.length h; simp at this; omega)
    (by
      intro a h
      obtain ⟨k, rfl⟩ := List.mem_ofFn.1 h
      have hk : ((k : ℕ) : ℝ) + 1 ≤ M := by exact_mod_cast k.2
      exact ⟨by positivity, by show _ / _ < _; rw [div_lt_one (by positivity)]; linarith⟩)
  simpa only [List.map_ofFn, Function.comp_def, List.sum_ofFn, List.length_ofFn] using this

/-- the uniform law on `[0, 1]`, 99 levels -/
example : unif01 (Set.Icc 0 1) = 1 ∧ (∀ α : ℝ, 0 < α → α < 1 → LawQuantile unif01 α α) ∧ 0 < 99 :=
  ⟨unif01_Icc, fun _ h0 h1 => unif01_quantile h0 h1, by norm_num⟩

/-- the sum over `2 K + 1` equal levels, paired from the outside -/
theorem sum_paired (K : ℕ) (f : ℝ → ℝ) :
    ∑ j : Fin (2 * K + 1), f (((j : ℕ) + 1) / ((2 * K + 1 : ℕ) + 1))
      = f (1 / 2) + ∑ k : Fin K, (f (((k : ℕ) + 1) / (K + 1) / 2) + f (1 - ((k : ℕ) + 1) / (K + 1) / 2)) := by
  rw [Fin.sum_univ_eq_sum_range (fun j => f (((j : ℕ) + 1) / ((2 * K + 1 : ℕ) + 1))),
    Fin.sum_univ_eq_sum_range (fun k => f (((k : ℕ) + 1) / (K + 1) / 2) + f (1 - ((k : ℕ) + 1) / (K + 1) / 2)),
    show 2 * K + 1 = K + 1 + K by ring, Finset.sum_range_add, Finset.sum_range_succ, Finset.sum_add_distrib,
    ← Finset.sum_range_reflect (fun x => f ((((K + 1 + x : ℕ) : ℝ) + 1) / ((K + 1 + K : ℕ) + 1)))]
  have h0 : (K : ℝ) + 1 ≠ 0 := by positivity
  have h2 : (K : ℝ) + 1 + K + 1 = 2 * (K + 1) := by ring
  have e1 : f (((K : ℕ) + 1) / ((K + 1 + K : ℕ) + 1)) = f (1 / 2) := by
    congr 1; push_cast; rw [h2]; field_simp
  have e2 : ∀ k ∈ Finset.range K, f (((k : ℕ) + 1) / ((K + 1 + K : ℕ) + 1)) = f (((k : ℕ) + 1) / (K + 1) / 2) := by
    intro k _; congr 1; push_cast; rw [h2]; field_simp
  have e3 : ∀ k ∈ Finset.range K, f ((((K + 1 + (K - 1 - k) : ℕ) : ℝ) + 1) / ((K + 1 + K : ℕ) + 1))
      = f (1 - ((k : ℕ) + 1) / (K + 1) / 2) := by
    intro k hk
    have hk' := Finset.mem_range.1 hk
    congr 1
    have : ((K + 1 + (K - 1 - k) : ℕ) : ℝ) = 2 * K - k := by
      have : K + 1 + (K - 1 - k) + k = 2 * K := by omega
      have := congrArg (Nat.cast (R := ℝ)) this
      push_cast at this ⊢
      linarith
    rw [this]
    push_cast
    rw [h2]
    field_simp
    ring
  rw [Finset.sum_congr rfl e2, Finset.sum_congr rfl e3, e1]
  ring

theorem wis_near {Q : ℝ → ℝ} {a b : ℝ} (hP : P (Set.Icc a b) = 1)
    (hQ : ∀ α, 0 < α → α < 1 → LawQuantile P α (Q α)) (K : ℕ) (y : ℝ) :
    |(2 * pinball (1 / 2) (Q (1 / 2)) y + ∑ k : Fin K, (2 * pinball (((k : ℕ) + 1) / (K + 1) / 2)
        (Q (((k : ℕ) + 1) / (K + 1) / 2)) y + 2 * pinball (1 - ((k : ℕ) + 1) / (K + 1) / 2)
        (Q (1 - ((k : ℕ) + 1) / (K + 1) / 2)) y)) / (2 * K + 1) - crps (distr P) y|
      ≤ (2 * (b - a) + max |y - a| |y - b|) / (2 * K + 1) := by
  have := equalLevels_pinball hP hQ (M := 2 * K + 1) (by omega) y
  rw [sum_paired K fun x => pinball x (Q x) y] at this
  have e : ((2 * K + 1 : ℕ) : ℝ) = 2 * K + 1 := by push_cast; ring
  rw [e] at this
  have e2 : ∀ A : ℝ, ∀ B : Fin K → ℝ, ∀ C : Fin K → ℝ,
      (2 * A + ∑ k, (2 * B k + 2 * C k)) = 2 * (A + ∑ k, (B k + C k)) := by
    intro A B C
    rw [mul_add, Finset.mul_sum]
    congr 1
    exact Finset.sum_congr rfl fun k _ => by ring
  rw [e2, mul_div_assoc]
  exact this

/-- C146: the weighted interval score (numba path, default weights) of the median and the `K` central intervals with
the levels `k / (K + 1)` is within `(2 (b - a) + max(|y - a|, |y - b|)) / (2 K + 1)` of the CRPS of the law. -/
theorem C146_wis_numba {Q : ℝ → ℝ} {a b : ℝ} (hP : P (Set.Icc a b) = 1)
    (hQ : ∀ α, 0 < α → α < 1 → LawQuantile P α (Q α)) (K : ℕ) (y : ℝ) :
    ∃ s : ℝ, (Interval.wis true (Arr.scalar (fin y)) (Arr.scalar (fin (Q (1 / 2))))
        (Arr.ofList (List.ofFn fun k : Fin K => fin (Q (((k : ℕ) + 1) / (K + 1) / 2))))
        (Arr.ofList (List.ofFn fun k : Fin K => fin (Q (1 - ((k : ℕ) + 1) / (K + 1) / 2))))
        (List.ofFn fun k : Fin K => fin (((k : ℕ) + 1) / (K + 1))) none none).get [] = fin s ∧
      |s - crps (distr P) y| ≤ (2 * (b - a) + max |y - a| |y - b|) / (2 * K + 1) := by
  refine ⟨_, ?_, wis_near hP hQ K y⟩
  have := (C28_default_weights y (Q (1 / 2)) (List.ofFn fun k : Fin K => (Q (((k : ℕ) + 1) / (K + 1) / 2),
    Q (1 - ((k : ℕ) + 1) / (K + 1) / 2), (((k : ℕ) : ℝ) + 1) / (K + 1))) (by
      intro p hp
      obtain ⟨k, rfl⟩ := List.mem_ofFn.1 hp
      have hk : ((k : ℕ) : ℝ) + 1 ≤ K := by exact_mod_cast k.2
      exact ⟨by positivity, by show _ / _ ≤ (2:ℝ); rw [div_le_iff₀ (by positivity)]; linarith⟩)).1
  simp only [List.map_ofFn, Function.comp_def, List.length_ofFn, List.sum_ofFn] at this
  rw [← this]
  show Interval.wisGufunc _ _ (Arr.row _ []) (Arr.row _ []) _ _ _ = _
  rw [row_ofList, row_ofList]
  simp only [Option.getD_none, List.map_ofFn, Function.comp_def]
  rfl

/-- the uniform law on `[0, 1]` -/
example : unif01 (Set.Icc 0 1) = 1 ∧ ∀ α : ℝ, 0 < α → α < 1 → LawQuantile unif01 α α :=
  ⟨unif01_Icc, fun _ h0 h1 => unif01_quantile h0 h1⟩

/-- C146 on the array path: the wrong term of the median (`C28_wis_array_partial`) has the weight `1 / (2 K + 1)` and
disappears as the number of intervals grows. -/
theorem C146_wis_array {Q : ℝ → ℝ} {a b : ℝ} (hP : P (Set.Icc a b) = 1)
    (hQ : ∀ α, 0 < α → α < 1 → LawQuantile P α (Q α)) (K : ℕ) (y : ℝ) :
    ∃ s : ℝ, (Interval.wis false (Arr.scalar (fin y)) (Arr.scalar (fin (Q (1 / 2))))
        (Arr.ofList (List.ofFn fun k : Fin K => fin (Q (((k : ℕ) + 1) / (K + 1) / 2))))
        (Arr.ofList (List.ofFn fun k : Fin K => fin (Q (1 - ((k : ℕ) + 1) / (K + 1) / 2))))
        (List.ofFn fun k : Fin K => fin (((k : ℕ) + 1) / (K + 1))) none none).get [] = fin s ∧
      |s - crps (distr P) y|
        ≤ (2 * (b - a) + max |y - a| |y - b| + abs (Q (1 / 2) - |y - Q (1 / 2)|)) / (2 * K + 1) := by
  obtain ⟨s, hs, hb⟩ := C146_wis_numba hP hQ K y
  obtain ⟨l, hl⟩ : ∃ l : List (ℝ × ℝ × ℝ × ℝ), l = List.ofFn fun k : Fin K => (Q (((k : ℕ) + 1) / (K + 1) / 2),
    Q (1 - ((k : ℕ) + 1) / (K + 1) / 2), (((k : ℕ) : ℝ) + 1) / (K + 1), (((k : ℕ) : ℝ) + 1) / (K + 1) / 2) := ⟨_, rfl⟩
  have hne : ∀ p ∈ l, p.2.2.1 ≠ 0 := by
    intro p hp
    rw [hl] at hp
    obtain ⟨k, rfl⟩ := List.mem_ofFn.1 hp
    show (((k : ℕ) : ℝ) + 1) / (K + 1) ≠ 0
    positivity
  have h1 := C28_wis_numba y (Q (1 / 2)) (1 / 2) l hne
  have h2 := C28_wis_array_partial y (Q (1 / 2)) (1 / 2) l hne
  have eL : ivL l = List.ofFn fun k : Fin K => fin (Q (((k : ℕ) + 1) / (K + 1) / 2)) := by
    rw [hl]; simp only [ivL, List.map_ofFn, Function.comp_def]
  have eU : ivU l = List.ofFn fun k : Fin K => fin (Q (1 - ((k : ℕ) + 1) / (K + 1) / 2)) := by
    rw [hl]; simp only [ivU, List.map_ofFn, Function.comp_def]
  have eA : ivA l = List.ofFn fun k : Fin K => fin (((k : ℕ) + 1) / (K + 1)) := by
    rw [hl]; simp only [ivA, List.map_ofFn, Function.comp_def]
  have eW : ivW l = (ivA l).map fun x => x / 2 := by
    rw [hl]
    simp only [ivA, ivW, List.map_ofFn, Function.comp_def, ofNat_def, fin_div (two_ne_zero (α := ℝ))]
  have eK : l.length = K := by rw [hl]; simp
  rw [eW] at h1 h2
  rw [eL, eU, eA] at h1 h2
  have g1 : fin s = fin (Spec.wis (1 / 2) (Q (1 / 2)) y l) := by
    rw [← hs, ← h1]
    show Interval.wisGufunc _ _ (Arr.row _ []) (Arr.row _ []) _ _ _ = _
    rw [row_ofList, row_ofList]
    rfl
  refine ⟨s + 1 / 2 * (Q (1 / 2) - |y - Q (1 / 2)|) / (K + 1 / 2), ?_, ?_⟩
  · rw [fin_inj] at g1
    rw [eK] at h2
    rw [g1, ← h2]
    show Interval.wisArray _ _ (Arr.row _ []) (Arr.row _ []) _ _ _ = _
    rw [row_ofList, row_ofList]
    rfl
  · have e : 1 / 2 * (Q (1 / 2) - |y - Q (1 / 2)|) / ((K:ℝ) + 1 / 2) = (Q (1 / 2) - |y - Q (1 / 2)|) / (2 * K + 1) := by
      field_simp
    have hK : (0:ℝ) < 2 * K + 1 := by positivity
    rw [e, add_div, ← abs_of_pos hK, ← abs_div, abs_of_pos hK, add_sub_right_comm]
    exact (abs_add_le _ _).trans (by gcongr)

/-- the uniform law on `[0, 1]` -/
example : unif01 (Set.Icc 0 1) = 1 ∧ ∀ α : ℝ, 0 < α → α < 1 → LawQuantile unif01 α α :=
  ⟨unif01_Icc, fun _ h0 h1 => unif01_quantile h0 h1⟩

end Verif
