import Verif.Lemmas.Bcast
import Verif.Lemmas.ArrSlices
import Verif.Spec.LogsEns
import Verif.Spec.Slices
import Verif.Props.Logs
import Verif.Props.Dss

/-!
# C63: logarithmic scores of ensembles by kernel density estimation
-/

noncomputable section

open scoped Classical

namespace Verif

open XF Py Api Spec

/-! ### Silverman's rule -/

theorem std_false_fin {xs : List ℝ} (h2 : 2 ≤ xs.length) :
    Dss.std false (xs.map fin) = fin (Real.sqrt (svar false xs)) := by
  have hx : xs ≠ [] := by rintro rfl; simp at h2
  have hf : (xs.length : ℝ) - 1 ≠ 0 := by
    have : (2 : ℝ) ≤ xs.length := by exact_mod_cast h2
    linarith
  have hp : 0 ≤ svar false xs := by
    have : (2 : ℝ) ≤ xs.length := by exact_mod_cast h2
    refine div_nonneg (List.sum_nonneg ?_) (by simp; linarith)
    intro a ha
    obtain ⟨b, -, rfl⟩ := List.mem_map.1 ha
    positivity
  simp only [Dss.std]
  rw [dss_mean xs hx]
  simp only [← pow_two]
  rw [csum_fin]
  simp only [Bool.false_eq_true, if_false, List.length_map, natCast_fin,
    Nat.cast_sub (by omega : 1 ≤ xs.length), Nat.cast_one, fin_div hf]
  rw [← fin_sqrt hp]
  simp [svar]

theorem idx_map_fin_lt {l : List ℝ} {j : ℕ} (h : j < l.length) : idx (l.map fin) j = fin (l.getD j 0) := by
  simp [idx, h]

theorem quantile_fin {p : ℝ} (h0 : 0 ≤ p) (h1 : p < 1) {xs : List ℝ} (h2 : 2 ≤ xs.length) :
    LogsEns.quantile p (xs.map fin) = fin (quantile7 p xs) := by
  have hc : (((xs.length - 1 : ℕ) : ℝ)) = (xs.length : ℝ) - 1 := by
    rw [Nat.cast_sub (by omega)]; simp
  have hpos : (0 : ℝ) < (xs.length : ℝ) - 1 := by
    have : (2 : ℝ) ≤ xs.length := by exact_mod_cast h2
    linarith
  have hj : ⌊((xs.length : ℝ) - 1) * p⌋₊ < xs.length - 1 := by
    rw [Nat.floor_lt (by positivity), hc]
    nlinarith
  have hl : (rsort xs).length = xs.length := (rsort_perm xs).length_eq
  unfold LogsEns.quantile
  rw [if_neg (by simp [XF.isnan])]
  simp only [List.length_map, hc, sort_map_fin]
  rw [Nat.min_eq_left (by omega), idx_map_fin_lt (by omega), idx_map_fin_lt (by omega)]
  have e : (1 : XF) = fin 1 := rfl
  simp only [e, fin_sub, fin_mul, fin_add]
  have key : quantile7 p xs = (rsort xs).getD ⌊((xs.length : ℝ) - 1) * p⌋₊ 0
      + (((xs.length : ℝ) - 1) * p - ⌊((xs.length : ℝ) - 1) * p⌋₊)
        * ((rsort xs).getD (⌊((xs.length : ℝ) - 1) * p⌋₊ + 1) 0
          - (rsort xs).getD ⌊((xs.length : ℝ) - 1) * p⌋₊ 0) := rfl
  rw [key]
  split_ifs <;> congr 1 <;> ring

/-- C63: the default bandwidth is Silverman's rule of thumb `1.06 min(s, IQR/1.34) M^(-1/5)`, with the
sample standard deviation and the linear-interpolation quartiles, for every ensemble of two or more
members. -/
theorem C63_silverman {xs : List ℝ} (h2 : 2 ≤ xs.length) :
    LogsEns.silverman (xs.map fin) = fin (silverman xs) := by
  unfold LogsEns.silverman
  simp only
  rw [std_false_fin h2, quantile_fin (by norm_num) (by norm_num) h2,
    quantile_fin (by norm_num) (by norm_num) h2]
  rw [fin_sub, fin_div (by norm_num), fin_min, fin_mul, fin_mul, List.length_map, silverman]
  norm_num

example : 0 < Spec.silverman [0, 1] := by
  have h1 : Spec.quantile7 0.75 [0, 1] = 0.75 := by
    have : ⌊(3 / 4 : ℝ)⌋₊ = 0 := by rw [Nat.floor_eq_zero]; norm_num
    norm_num [Spec.quantile7, List.mergeSort, this]
  have h2 : Spec.quantile7 0.25 [0, 1] = 0.25 := by
    have : ⌊(1 / 4 : ℝ)⌋₊ = 0 := by rw [Nat.floor_eq_zero]; norm_num
    norm_num [Spec.quantile7, List.mergeSort, this]
  have h3 : 0 < Spec.svar false [0, 1] := by norm_num [Spec.svar, Spec.csum, Spec.avg]
  unfold Spec.silverman
  rw [h1, h2]
  have := Real.sqrt_pos.2 h3
  have : 0 < min (Real.sqrt (Spec.svar false [0, 1])) ((0.75 - 0.25) / 1.34) :=
    lt_min this (by norm_num)
  have h4 : (0 : ℝ) < (([0, 1] : List ℝ).length : ℝ) := by norm_num
  exact mul_pos (mul_pos (by norm_num) this) (Real.rpow_pos_of_pos h4 _)

/-! ### one case -/

theorem mean_map_fin {α : Type} (l : List α) (hl : l ≠ []) (f : α → ℝ) :
    mean (l.map fun a => fin (f a)) = fin (avg (l.map f)) := by
  have h := dss_mean (l.map f) (by simpa using hl)
  rw [List.map_map] at h
  exact h

theorem sub_fin_div_pinf {x h : ℝ} (hh : 0 < h) : (pinf - fin x) / fin h = pinf := by
  have : pinf - fin x = pinf := rfl
  rw [this]
  show (if 0 ≤ h then pinf else ninf) = pinf
  rw [if_pos hh.le]

theorem sub_fin_div_ninf {x h : ℝ} (hh : 0 < h) : (ninf - fin x) / fin h = ninf := by
  have : ninf - fin x = ninf := rfl
  rw [this]
  show (if 0 ≤ h then ninf else pinf) = ninf
  rw [if_pos hh.le]

theorem mean_cdf {xs : List ℝ} (hx : xs ≠ []) {h : ℝ} (hh : 0 < h) {a : XF} (ha : a ≠ nan) :
    mean ((xs.map fun x => (fin x, fin h)).map fun p => Stats.normCdf ((a - p.1) / p.2))
      = fin (cdfAt (kdeCdf xs h) a) := by
  rw [List.map_map]
  simp only [Function.comp_def]
  have hl : (xs.length : ℝ) ≠ 0 := by simpa using hx
  cases a with
  | nan => exact absurd rfl ha
  | fin a =>
    simp only [fin_sub, fin_div hh.ne', normCdf_fin]
    exact mean_map_fin xs hx _
  | pinf =>
    simp only [sub_fin_div_pinf hh, normCdf_pinf]
    rw [mean_map_fin xs hx fun _ => 1]
    simp [cdfAt, avg, hl]
  | ninf =>
    simp only [sub_fin_div_ninf hh, normCdf_ninf]
    rw [mean_map_fin xs hx fun _ => 0]
    simp [cdfAt, avg]

theorem mean_dens {xs : List ℝ} (hx : xs ≠ []) {h : ℝ} (hh : 0 < h) (y : ℝ) :
    mean ((xs.map fun x => (fin x, fin h)).map fun p => Stats.normPdf ((fin y - p.1) / p.2) / p.2)
      = fin (kdeDens xs h y) := by
  rw [List.map_map]
  simp only [Function.comp_def, fin_sub, fin_div hh.ne', normPdf_fin]
  exact mean_map_fin xs hx _

theorem avg_pos {l : List ℝ} (hl : l ≠ []) (h : ∀ x ∈ l, 0 < x) : 0 < avg l := by
  have : (0 : ℝ) < l.length := by exact_mod_cast List.length_pos_iff.2 hl
  exact div_pos (List.sum_pos l h hl) this

theorem kdeDens_pos {xs : List ℝ} (hx : xs ≠ []) {h : ℝ} (hh : 0 < h) (y : ℝ) : 0 < kdeDens xs h y := by
  apply avg_pos (by simpa using hx)
  intro a ha
  obtain ⟨x, -, rfl⟩ := List.mem_map.1 ha
  exact div_pos (φ_pos _) hh

theorem avg_lt_avg {α : Type} {l : List α} (hl : l ≠ []) {f g : α → ℝ} (h : ∀ x ∈ l, f x < g x) :
    avg (l.map f) < avg (l.map g) := by
  have : (0 : ℝ) < l.length := by exact_mod_cast List.length_pos_iff.2 hl
  unfold avg
  rw [List.length_map, List.length_map]
  exact (div_lt_div_iff_of_pos_right this).2 (List.sum_lt_sum_of_ne_nil hl _ _ h)

theorem kdeCdf_strictMono {xs : List ℝ} (hx : xs ≠ []) {h : ℝ} (hh : 0 < h) :
    StrictMono (kdeCdf xs h) := fun a b hab => avg_lt_avg hx fun x _ =>
  Φ_strictMono ((div_lt_div_iff_of_pos_right hh).2 (by linarith))

theorem kdeCdf_pos {xs : List ℝ} (hx : xs ≠ []) (h y : ℝ) : 0 < kdeCdf xs h y := by
  apply avg_pos (by simpa using hx)
  intro a ha
  obtain ⟨x, -, rfl⟩ := List.mem_map.1 ha
  exact Φ_pos _

theorem kdeCdf_lt_one {xs : List ℝ} (hx : xs ≠ []) (h y : ℝ) : kdeCdf xs h y < 1 := by
  have hl : (xs.length : ℝ) ≠ 0 := by simpa using hx
  have : (1 : ℝ) = avg (xs.map fun _ => (1 : ℝ)) := by simp [avg, hl]
  rw [this]
  exact avg_lt_avg hx fun x _ => Φ_lt_one _

theorem cons_pos {xs : List ℝ} (hx : xs ≠ []) {h : ℝ} (hh : 0 < h) {a b : XF} {y : ℝ}
    (h1 : a < fin y) (h2 : fin y < b) :
    0 < cdfAt (kdeCdf xs h) b - cdfAt (kdeCdf xs h) a := by
  have p := kdeCdf_pos hx h
  have q := kdeCdf_lt_one hx h
  rw [sub_pos]
  cases a with
  | nan => exact absurd h1 (by simp)
  | pinf => exact absurd h1 (by simp)
  | ninf => cases b with
    | nan => exact absurd h2 (by simp)
    | ninf => exact absurd h2 (by simp)
    | pinf => simp [cdfAt]
    | fin b => exact p b
  | fin a => cases b with
    | nan => exact absurd h2 (by simp)
    | ninf => exact absurd h2 (by simp)
    | pinf => exact q a
    | fin b => exact kdeCdf_strictMono hx hh (((fin_lt _ _).1 h1).trans ((fin_lt _ _).1 h2))

theorem cons_lt_one {xs : List ℝ} (hx : xs ≠ []) {h : ℝ} {a b : XF} {y : ℝ}
    (ha : a ≠ nan) (hb : b ≠ nan) (hn : ¬ (a < fin y ∧ fin y < b)) :
    cdfAt (kdeCdf xs h) b - cdfAt (kdeCdf xs h) a < 1 := by
  have p := kdeCdf_pos hx h
  have q := kdeCdf_lt_one hx h
  cases a with
  | nan => exact absurd rfl ha
  | pinf => cases b with
    | nan => exact absurd rfl hb
    | ninf => simp [cdfAt]
    | pinf => simp [cdfAt]
    | fin b => have := q b; simp only [cdfAt]; linarith
  | ninf => cases b with
    | nan => exact absurd rfl hb
    | ninf => simp [cdfAt]
    | pinf => exact absurd ⟨by simp, by simp⟩ hn
    | fin b => have := q b; simp only [cdfAt]; linarith
  | fin a => cases b with
    | nan => exact absurd rfl hb
    | ninf => have := p a; simp only [cdfAt]; linarith
    | pinf => have := p a; simp only [cdfAt]; linarith
    | fin b => have := p a; have := q b; simp only [cdfAt]; linarith

theorem clogs1_fin {xs : List ℝ} (hx : xs ≠ []) {h : ℝ} (hh : 0 < h) (y : ℝ) {a b : XF}
    (ha : a ≠ nan) (hb : b ≠ nan) (cens : Bool) :
    LogsEns.clogs1 (fin y) a b (xs.map fun x => (fin x, fin h)) cens
      = if cens then censLik (kdeDens xs h) (kdeCdf xs h) a b y
        else condLik (kdeDens xs h) (kdeCdf xs h) a b y := by
  unfold LogsEns.clogs1
  simp only
  rw [mean_dens hx hh, mean_cdf hx hh ha, mean_cdf hx hh hb]
  have hd := kdeDens_pos hx hh y
  have e : (1 : XF) = fin 1 := rfl
  by_cases hw : a < fin y ∧ fin y < b
  · have hc := cons_pos hx hh hw.1 hw.2
    rw [if_pos hw, censLik, condLik, if_pos hw, if_pos hw, log_fin_nonneg hd.le, fin_sub, fin_log hc,
      negLog, negLog, if_neg hd.ne', if_neg (div_pos hd hc).ne', fin_add,
      Real.log_div hd.ne' hc.ne']
    cases cens <;> simp
    ring
  · have hc := cons_lt_one hx (h := h) ha hb hw
    rw [if_neg hw, censLik, condLik, if_neg hw, if_neg hw, fin_sub, e, fin_sub,
      log_fin_nonneg (by linarith)]
    rfl

/-! ### the public functions -/

/-- The bandwidth of a case: the entry of the given array, or Silverman's rule. -/
def BwAt (bw : Option (Arr XF)) (xs : List ℝ) (i : List ℕ) (h : ℝ) : Prop :=
  match bw with
  | some w => w.get i = fin h
  | none => h = silverman xs

theorem silverman_pos {xs : List ℝ} (h : 0 < silverman xs) : 2 ≤ xs.length := by
  by_contra hc
  have : xs.length = 0 ∨ xs.length = 1 := by omega
  have hs : svar false xs = 0 := by
    rcases this with h0 | h0 <;> simp [svar, h0]
    rw [List.length_eq_zero_iff] at h0
    subst h0
    simp [csum]
  have hm : min (Real.sqrt (svar false xs)) ((quantile7 0.75 xs - quantile7 0.25 xs) / 1.34) ≤ 0 := by
    rw [hs, Real.sqrt_zero]; exact min_le_left _ _
  have hr : (0 : ℝ) ≤ (xs.length : ℝ) ^ (-(1 / 5) : ℝ) := Real.rpow_nonneg (by positivity) _
  have : silverman xs ≤ 0 := mul_nonpos_of_nonpos_of_nonneg (by linarith) hr
  linarith

theorem bw_model {bw : Option (Arr XF)} {xs : List ℝ} {i : List ℕ} {h : ℝ} (hb : BwAt bw xs i h)
    (hh : 0 < h) :
    LogsEns.bwOf bw (xs.map fin) i = fin h := by
  cases bw with
  | some w => exact hb
  | none =>
    have hb : h = silverman xs := hb
    rw [LogsEns.bwOf, hb, C63_silverman (silverman_pos (by rwa [hb] at hh))]

theorem sliceAt_map {α β : Type} (f : α → β) (a : Arr α) (k : ℕ) (i : List ℕ) :
    (a.map f).sliceAt k i = (a.sliceAt k i).map f := by
  simp [Arr.sliceAt, Arr.map]

/-- C63: `logs_ensemble` returns, for every case, minus the logarithm of the Gaussian kernel density
estimate of that case's ensemble at the observation, whatever the array shapes, the ensemble axis and
the way the bandwidth is given. -/
theorem C63_logs (obs fct : Arr ℝ) {m : ℤ} {k : ℕ} (hm : AxisIs m fct.ndim k)
    (hs : obs.shape = fct.shape.eraseIdx k) (hM : fct.shape.getD k 0 ≠ 0) (bw : Option (Arr XF))
    (hw : WShape bw obs.shape) (h : List ℕ → ℝ)
    (hb : ∀ i, Arr.Valid obs.shape i → BwAt bw (fct.sliceAt k i) i (h i) ∧ 0 < h i) :
    ∃ out, logsEnsemble (obs.map fin) (fct.map fin) m bw = .ok out ∧ out.shape = obs.shape ∧
      ∀ i, Arr.Valid obs.shape i →
        out.get i = fin (-Real.log (kdeDens (fct.sliceAt k i) (h i) (obs.get i))) := by
  have hch : univariateArrayCheck (obs.map fin) (fct.map fin) m = .ok ((fct.map fin).moveLast k) :=
    arrayCheck_axis (fct := fct.map fin) hm hs
  unfold logsEnsemble
  rw [hch]
  simp only [bind, Except.bind]
  have hsh : ((fct.map fin).moveLast k).shape = obs.shape ++ [fct.shape.getD k 0] := by
    rw [Arr.moveLast_shape, hs]; rfl
  rw [LogsEns.bandwidth_ok hsh hM bw hw]
  simp only
  obtain ⟨out, ho, hos, hov⟩ := LogsEns.mixnormArr_ok (obs := obs.map fin)
    (m := (fct.map fin).moveLast k)
    (s := ⟨obs.shape ++ [fct.shape.getD k 0], fun i =>
      LogsEns.bwOf bw (((fct.map fin).moveLast k).row i.dropLast) i.dropLast⟩)
    (w := ⟨((fct.map fin).moveLast k).shape,
      fun _ => 1 / ((((fct.map fin).moveLast k).shape.getLastD 0 : ℕ) : XF)⟩) hsh rfl hsh
  refine ⟨out, ho, hos, fun i hi => ?_⟩
  rw [hov i hi]
  obtain ⟨hbi, hhi⟩ := hb i hi
  have hlen : (fct.sliceAt k i).length = fct.shape.getD k 0 := by simp [Arr.sliceAt]
  have hne : fct.sliceAt k i ≠ [] := by
    rw [← List.length_pos_iff, hlen]; omega
  have hM' : (fct.shape.getD k 0 : ℝ) ≠ 0 := by exact_mod_cast hM
  have e1 : ((fct.map fin).moveLast k).row i
      = ((fct.sliceAt k i).map fun x => (x, h i, 1 / (fct.shape.getD k 0 : ℝ))).map fun p => fin p.1 := by
    rw [Arr.row_moveLast, sliceAt_map, List.map_map]; rfl
  have e2 : Arr.row (⟨obs.shape ++ [fct.shape.getD k 0], fun i =>
      LogsEns.bwOf bw (((fct.map fin).moveLast k).row i.dropLast) i.dropLast⟩ : Arr XF) i
      = ((fct.sliceAt k i).map fun x => (x, h i, 1 / (fct.shape.getD k 0 : ℝ))).map
        fun p => fin p.2.1 := by
    have hbm := bw_model hbi hhi
    rw [← sliceAt_map, ← Arr.row_moveLast] at hbm
    simp only [Arr.row, List.getLastD_concat, List.dropLast_concat, List.map_map, Function.comp_def,
      List.map_const', hlen, List.length_range]
    unfold Arr.row at hbm
    rw [hbm]
  have e3 : Arr.row (⟨((fct.map fin).moveLast k).shape,
      fun _ => 1 / ((((fct.map fin).moveLast k).shape.getLastD 0 : ℕ) : XF)⟩ : Arr XF) i
      = ((fct.sliceAt k i).map fun x => (x, h i, 1 / (fct.shape.getD k 0 : ℝ))).map
        fun p => fin p.2.2 := by
    simp only [Arr.row, hsh, List.getLastD_concat, List.map_map, Function.comp_def,
      List.map_const', hlen, List.length_range]
    congr 1
    rw [natCast_fin, one_fin, fin_div hM']
  rw [e1, e2, e3]
  show Logs.mixnorm (fin (obs.get i)) _ _ _ = _
  rw [mixnorm_prob _ _ (by simpa using fun x _ => hhi)]
  have e4 : densMix ((fct.sliceAt k i).map fun x => (x, h i, 1 / (fct.shape.getD k 0 : ℝ))) (obs.get i)
      = kdeDens (fct.sliceAt k i) (h i) (obs.get i) := by
    simp only [densMix, kdeDens, avg, List.map_map, Function.comp_def, List.length_map, hlen]
    rw [sum_map_mul_left']; ring
  have hd := kdeDens_pos hne hhi (obs.get i)
  rw [e4, log_fin_nonneg hd.le, negLog, if_neg hd.ne']

/-- C63: `clogs_ensemble` with scalar thresholds (possibly infinite) returns, for every case, the
censored likelihood score (`cens=True`) or the conditional likelihood score (`cens=False`) of the
Gaussian kernel density estimate of that case's ensemble. -/
theorem C63_clogs (obs fct : Arr ℝ) {m : ℤ} {k : ℕ} (hm : AxisIs m fct.ndim k)
    (hs : obs.shape = fct.shape.eraseIdx k) (hM : fct.shape.getD k 0 ≠ 0) (bw : Option (Arr XF))
    (hw : WShape bw obs.shape) (h : List ℕ → ℝ)
    (hb : ∀ i, Arr.Valid obs.shape i → BwAt bw (fct.sliceAt k i) i (h i) ∧ 0 < h i)
    {a b : XF} (ha : a ≠ nan) (hb' : b ≠ nan) (cens : Bool) :
    ∃ out, clogsEnsemble (obs.map fin) (fct.map fin) (Arr.scalar a) (Arr.scalar b) m bw cens = .ok out ∧
      out.shape = obs.shape ∧
      ∀ i, Arr.Valid obs.shape i →
        out.get i = (if cens then censLik else condLik) (kdeDens (fct.sliceAt k i) (h i))
          (kdeCdf (fct.sliceAt k i) (h i)) a b (obs.get i) := by
  have hch : univariateArrayCheck (obs.map fin) (fct.map fin) m = .ok ((fct.map fin).moveLast k) :=
    arrayCheck_axis (fct := fct.map fin) hm hs
  unfold clogsEnsemble
  rw [hch]
  simp only [bind, Except.bind]
  have hsh : ((fct.map fin).moveLast k).shape = obs.shape ++ [fct.shape.getD k 0] := by
    rw [Arr.moveLast_shape, hs]; rfl
  rw [LogsEns.bandwidth_ok hsh hM bw hw]
  simp only
  obtain ⟨out, ho, hos, hov⟩ := LogsEns.clogs_ok (obs := obs.map fin)
    (fct := (fct.map fin).moveLast k)
    (bw := ⟨obs.shape ++ [fct.shape.getD k 0], fun i =>
      LogsEns.bwOf bw (((fct.map fin).moveLast k).row i.dropLast) i.dropLast⟩) a b cens hsh rfl
  refine ⟨out, ho, hos, fun i hi => ?_⟩
  rw [hov i hi]
  obtain ⟨hbi, hhi⟩ := hb i hi
  have hlen : (fct.sliceAt k i).length = fct.shape.getD k 0 := by simp [Arr.sliceAt]
  have hne : fct.sliceAt k i ≠ [] := by
    rw [← List.length_pos_iff, hlen]; omega
  have hbm := bw_model hbi hhi
  rw [← sliceAt_map, ← Arr.row_moveLast] at hbm
  simp only [List.dropLast_concat]
  rw [hbm]
  have e1 : ((List.range (fct.shape.getD k 0)).map fun j =>
      (((fct.map fin).moveLast k).get (i ++ [j]), fin (h i)))
      = (fct.sliceAt k i).map fun x => (fin x, fin (h i)) := by
    simp [Arr.sliceAt, Arr.moveLast, Arr.map]
  rw [e1]
  show LogsEns.clogs1 (fin (obs.get i)) _ _ _ _ = _
  rw [clogs1_fin hne hhi _ ha hb']
  cases cens <;> rfl


/-- C63: with the default thresholds, `clogs_ensemble` returns the same array as `logs_ensemble`, both
as conditional (`cens=False`) and as censored likelihood score. -/
theorem C63_default (obs fct : Arr ℝ) {m : ℤ} {k : ℕ} (hm : AxisIs m fct.ndim k)
    (hs : obs.shape = fct.shape.eraseIdx k) (hM : fct.shape.getD k 0 ≠ 0) (bw : Option (Arr XF))
    (hw : WShape bw obs.shape) (h : List ℕ → ℝ)
    (hb : ∀ i, Arr.Valid obs.shape i → BwAt bw (fct.sliceAt k i) i (h i) ∧ 0 < h i) (cens : Bool) :
    ∃ out out', clogsEnsemble (obs.map fin) (fct.map fin) (Arr.scalar ninf) (Arr.scalar pinf) m bw cens
        = .ok out ∧ logsEnsemble (obs.map fin) (fct.map fin) m bw = .ok out' ∧ Arr.Same out out' := by
  obtain ⟨out, h1, h2, h3⟩ := C63_clogs obs fct hm hs hM bw hw h hb (a := ninf) (b := pinf)
    (by simp) (by simp) cens
  obtain ⟨out', h1', h2', h3'⟩ := C63_logs obs fct hm hs hM bw hw h hb
  refine ⟨out, out', h1, h1', h2.trans h2'.symm, fun i hi => ?_⟩
  rw [h2] at hi
  rw [h3 i hi, h3' i hi]
  have hlen : (fct.sliceAt k i).length = fct.shape.getD k 0 := by simp [Arr.sliceAt]
  have hne : fct.sliceAt k i ≠ [] := by
    rw [← List.length_pos_iff, hlen]; omega
  have hd := kdeDens_pos hne (hb i hi).2 (obs.get i)
  cases cens <;> simp [condLik, censLik, cdfAt, negLog, hd.ne']

/-- C63: with `cens=False`, an observation at or outside the thresholds scores zero; no assumption on
the numbers (missing and infinite values and degenerate bandwidths included). -/
theorem C63_outside (obs fct : Arr XF) {m : ℤ} {k : ℕ} (hm : AxisIs m fct.ndim k)
    (hs : obs.shape = fct.shape.eraseIdx k) (hM : fct.shape.getD k 0 ≠ 0) (bw : Option (Arr XF))
    (hw : WShape bw obs.shape) (a b : XF) :
    ∃ out, clogsEnsemble obs fct (Arr.scalar a) (Arr.scalar b) m bw false = .ok out ∧
      out.shape = obs.shape ∧
      ∀ i, Arr.Valid obs.shape i → (obs.get i ≤ a ∨ b ≤ obs.get i) → out.get i = 0 := by
  unfold clogsEnsemble
  rw [arrayCheck_axis hm hs]
  simp only [bind, Except.bind]
  have hsh : (fct.moveLast k).shape = obs.shape ++ [fct.shape.getD k 0] := by
    rw [Arr.moveLast_shape, hs]
  rw [LogsEns.bandwidth_ok hsh hM bw hw]
  simp only
  obtain ⟨out, ho, hos, hov⟩ := LogsEns.clogs_ok (obs := obs)
    (fct := fct.moveLast k)
    (bw := ⟨obs.shape ++ [fct.shape.getD k 0], fun i =>
      LogsEns.bwOf bw ((fct.moveLast k).row i.dropLast) i.dropLast⟩) a b false hsh rfl
  refine ⟨out, ho, hos, fun i hi hab => ?_⟩
  rw [hov i hi]
  unfold LogsEns.clogs1
  simp only
  have : ¬ (a < obs.get i ∧ obs.get i < b) := by
    rintro ⟨h1, h2⟩
    rcases hab with h | h
    · generalize obs.get i = y at *
      cases y <;> cases a <;> simp_all
      exact absurd h (not_le.2 h1)
    · generalize obs.get i = y at *
      cases y <;> cases b <;> simp_all
      exact absurd h (not_le.2 h2)
  rw [if_neg this]
  rfl

/-- The hypotheses of `C63_logs`, `C63_clogs`, `C63_default` are met: two cases of three members along the first axis, with
bandwidths 1 and 2. -/
example : ∃ (obs fct : Arr ℝ) (bw : Arr XF) (h : List ℕ → ℝ),
    AxisIs 0 fct.ndim 0 ∧ obs.shape = fct.shape.eraseIdx 0 ∧ fct.shape.getD 0 0 ≠ 0 ∧
    WShape (some bw) obs.shape ∧
    ∀ i, Arr.Valid obs.shape i → BwAt (some bw) (fct.sliceAt 0 i) i (h i) ∧ 0 < h i :=
  ⟨⟨[2], fun _ => 1⟩, ⟨[3, 2], fun i => i.headD 0⟩, ⟨[2], fun i => fin (1 + i.headD 0)⟩,
    fun i => 1 + i.headD 0, by simp [AxisIs, Arr.ndim], rfl, by simp, by simp [WShape],
    fun i _ => ⟨by simp [BwAt], by positivity⟩⟩

/-! ### C67: per-observation thresholds -/

/-- C67 is false: a threshold per observation (`a` of the shape `(n,)` of the observations, `fct` of
shape `(n, M)`) raises `ValueError` whenever `n ≠ M` and neither is one. -/
theorem C67_false_error (obs fct a : Arr XF) {n M : ℕ} (ho : obs.shape = [n]) (hf : fct.shape = [n, M])
    (ha : a.shape = [n]) (hn : n ≠ 1) (hM : M ≠ 1) (hM0 : M ≠ 0) (hnM : n ≠ M) (bw : Option (Arr XF))
    (hw : WShape bw [n]) (b : XF) (cens : Bool) :
    clogsEnsemble obs fct a (Arr.scalar b) (-1) bw cens = .error .valueError := by
  have hax : AxisIs (-1) fct.ndim 1 := by simp [AxisIs, Arr.ndim, hf]
  have hs : obs.shape = fct.shape.eraseIdx 1 := by rw [ho, hf]; rfl
  unfold clogsEnsemble
  rw [arrayCheck_axis hax hs]
  simp only [bind, Except.bind]
  have hsh : (fct.moveLast 1).shape = [n] ++ [M] := by
    rw [Arr.moveLast_shape, hf]; rfl
  rw [LogsEns.bandwidth_ok hsh hM0 bw hw]
  simp only
  obtain ⟨d, hd, -, -⟩ := LogsEns.meanLast3_ok
    (f := fun y x h => Stats.normPdf ((y - x) / h) / h) (a := obs.expandLast) (b := fct.moveLast 1)
    (c := ⟨[n] ++ [M], fun i => LogsEns.bwOf bw ((fct.moveLast 1).row i.dropLast) i.dropLast⟩)
    (s := [n]) (M := M) (fun i => obs.get i) hsh rfl
    (by rw [show obs.expandLast.shape = [n] ++ [1] by simp [Arr.expandLast, ho]]
        exact Arr.bshape_expand _ _)
    (fun i j hi _ => Arr.bget_expandLast (by rw [ho]; exact hi) j)
  unfold LogsEns.clogs
  rw [hd]
  simp only [bind, Except.bind]
  have : LogsEns.meanLast3 (fun a x h => Stats.normCdf ((a - x) / h)) a (fct.moveLast 1)
      ⟨[n] ++ [M], fun i => LogsEns.bwOf bw ((fct.moveLast 1).row i.dropLast) i.dropLast⟩
      = .error .valueError := by
    unfold LogsEns.meanLast3
    rw [hsh, ha]
    have hb : Arr.bcast [[n], [n] ++ [M], [n] ++ [M]] = none := by
      simp [Arr.bcast, Arr.bshape, Arr.bshapeR, hnM, hn, hM]
    rw [hb]
  rw [this]

example : (⟨[2], fun _ => 1⟩ : Arr XF).shape = [2] ∧ (⟨[2, 5], fun _ => 0⟩ : Arr XF).shape = [2, 5] ∧
    2 ≠ 1 ∧ 5 ≠ 1 ∧ 5 ≠ 0 ∧ 2 ≠ 5 ∧ WShape none [2] := by
  simp [WShape]

/-- C67 is false: when the number of observations equals the number of members, the threshold of
observation `j` is silently paired with member `j`.  Two observations 0, two ensembles of two members 0,
lower thresholds `-1` and `-inf`, bandwidth one: the first score is not the conditional likelihood score
for its threshold `-1`. -/
theorem C67_false : ∃ out one, clogsEnsemble ⟨[2], fun _ => fin 0⟩ ⟨[2, 2], fun _ => fin 0⟩
      ⟨[2], fun i => if i = [0] then fin (-1) else ninf⟩ (Arr.scalar pinf) (-1)
      (some ⟨[2], fun _ => fin 1⟩) false = .ok out ∧
    clogsEnsemble (Arr.scalar (fin 0)) (Arr.ofList [fin 0, fin 0]) (Arr.scalar (fin (-1)))
      (Arr.scalar pinf) (-1) (some (Arr.scalar (fin 1))) false = .ok one ∧
    out.shape = [2] ∧ one.shape = [] ∧ out.get [0] ≠ one.get [] := by
  refine ⟨_, _, rfl, rfl, rfl, rfl, ?_⟩
  change ite _ _ _ ≠ ite _ _ _
  have h0 : fin (-1) < fin 0 ∧ fin 0 < pinf := by simp
  refine fun hh => absurd ((@if_pos _ _ h0 _ _ _).symm.trans (hh.trans (@if_pos _ _ h0 _ _ _))) ?_
  have hd : Stats.normPdf ((fin 0 - fin 0) / fin 1) / fin 1 = fin (φ 0) := by
    rw [fin_sub, fin_div one_ne_zero, normPdf_fin, fin_div one_ne_zero]; norm_num
  have hb : Stats.normCdf ((pinf - fin 0) / fin 1) = fin 1 := by
    rw [sub_fin_div_pinf one_pos, normCdf_pinf]
  have ha : Stats.normCdf ((fin (-1) - fin 0) / fin 1) = fin (Φ (-1)) := by
    rw [fin_sub, fin_div one_ne_zero, normCdf_fin]; norm_num
  have hn : Stats.normCdf ((ninf - fin 0) / fin 1) = fin 0 := by
    rw [sub_fin_div_ninf one_pos, normCdf_ninf]
  change ¬ (-XF.log (mean [Stats.normPdf ((fin 0 - fin 0) / fin 1) / fin 1,
      Stats.normPdf ((fin 0 - fin 0) / fin 1) / fin 1])
    + XF.log (mean [Stats.normCdf ((pinf - fin 0) / fin 1), Stats.normCdf ((pinf - fin 0) / fin 1)]
      - mean [Stats.normCdf ((fin (-1) - fin 0) / fin 1), Stats.normCdf ((ninf - fin 0) / fin 1)])
    = -XF.log (mean [Stats.normPdf ((fin 0 - fin 0) / fin 1) / fin 1,
      Stats.normPdf ((fin 0 - fin 0) / fin 1) / fin 1])
    + XF.log (mean [Stats.normCdf ((pinf - fin 0) / fin 1), Stats.normCdf ((pinf - fin 0) / fin 1)]
      - mean [Stats.normCdf ((fin (-1) - fin 0) / fin 1), Stats.normCdf ((fin (-1) - fin 0) / fin 1)]))
  rw [hd, hb, ha, hn]
  have p1 := Φ_pos (-1)
  have p2 := Φ_lt_one (-1)
  have m2 : ∀ u v : ℝ, mean [fin u, fin v] = fin ((u + v) / 2) := by
    intro u v
    have := dss_mean [u, v] (by simp)
    simpa [avg] using this
  simp only [m2, fin_sub]
  rw [fin_log (by have := φ_pos 0; linarith), fin_log (by linarith), fin_log (by linarith)]
  simp only [fin_neg, fin_add, fin_inj, add_right_inj]
  intro hh
  have := Real.log_injOn_pos (Set.mem_Ioi.2 (by linarith)) (Set.mem_Ioi.2 (by linarith)) hh
  linarith

/-- C67, what holds: a scalar threshold applies to every observation. -/
theorem C67_partial (obs fct : Arr ℝ) {m : ℤ} {k : ℕ} (hm : AxisIs m fct.ndim k)
    (hs : obs.shape = fct.shape.eraseIdx k) (hM : fct.shape.getD k 0 ≠ 0) (bw : Option (Arr XF))
    (hw : WShape bw obs.shape) (h : List ℕ → ℝ)
    (hb : ∀ i, Arr.Valid obs.shape i → BwAt bw (fct.sliceAt k i) i (h i) ∧ 0 < h i)
    {a b : XF} (ha : a ≠ nan) (hb' : b ≠ nan) :
    ∃ out, clogsEnsemble (obs.map fin) (fct.map fin) (Arr.scalar a) (Arr.scalar b) m bw false = .ok out ∧
      out.shape = obs.shape ∧
      ∀ i, Arr.Valid obs.shape i → out.get i = condLik (kdeDens (fct.sliceAt k i) (h i))
          (kdeCdf (fct.sliceAt k i) (h i)) a b (obs.get i) :=
  C63_clogs obs fct hm hs hM bw hw h hb ha hb' false

/-- thresholds for `C67_partial` and `C63_clogs`; the other hypotheses are those of `C63_logs` and
`C63_default` above -/
example : (fin 0 : XF) ≠ nan ∧ (pinf : XF) ≠ nan ∧ (ninf : XF) ≠ nan := by simp

end Verif
