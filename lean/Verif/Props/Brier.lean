import Verif.Model.Brier
import Verif.Spec.Brier
import Verif.Spec.Slices
import Verif.Lemmas.WeightedUv

/-!
# Brier score, logarithmic score, RPS, RLS (C30 to C32)
-/

noncomputable section

open scoped Classical

namespace Verif

open XF Py Api Brier

/-- outcome as a number -/
def outc (o : Bool) : ℝ := if o then 1 else 0

theorem brier1_fin (o : Bool) (p : ℝ) :
    brier1 (fin (outc o)) (fin p) = fin (Spec.brier p o) := by
  unfold brier1 Spec.brier outc
  cases o <;> simp
  ring

theorem log1_fin (o : Bool) {p : ℝ} (h0 : 0 ≤ p) (h1 : p ≤ 1) :
    log1 (fin (outc o)) (fin p)
      = if Spec.probOf p o = 0 then pinf else fin (- Real.log (Spec.probOf p o)) := by
  unfold log1 Spec.probOf outc
  cases o
  · simp only [Bool.false_eq_true, if_false, one_def, fin_add, fin_sub, fin_abs]
    rw [show |p + 0 - 1| = 1 - p by rw [abs_of_nonpos (by linarith)]; ring]
    by_cases h : 1 - p = 0
    · rw [if_pos h, h]; simp [XF.log, neg_def, XF.neg]
    · have : 0 < 1 - p := lt_of_le_of_ne (by linarith) (Ne.symm h)
      rw [if_neg h, fin_log this, fin_neg]
  · simp only [if_true, one_def, fin_add, fin_sub, fin_abs]
    rw [show |p + 1 - 1| = p by rw [abs_of_nonneg (by linarith)]; ring]
    by_cases h : p = 0
    · rw [if_pos h, h]; simp [XF.log, neg_def, XF.neg]
    · have : 0 < p := lt_of_le_of_ne h0 (Ne.symm h)
      rw [if_neg h, fin_log this, fin_neg]

theorem binaryCheck_ok {obs : Arr Bool} {fct : Arr ℝ}
    (hf : ∀ i, Arr.Valid fct.shape i → 0 ≤ fct.get i ∧ fct.get i ≤ 1) :
    binaryCheck (obs.map fun o => fin (outc o)) (fct.map fin) = .ok () := by
  unfold binaryCheck
  rw [if_neg, if_neg]
  · rintro ⟨i, hi, h⟩
    have h' : fin (outc (obs.get i)) ≠ fin 0 ∧ fin (outc (obs.get i)) ≠ fin 1 := h
    cases ho : obs.get i <;> simp [ho, outc] at h'
  · rintro (⟨i, hi, h⟩ | ⟨i, hi, h⟩)
    · have h' : fin (fct.get i) < fin 0 := h
      rw [fin_lt] at h'; linarith [(hf i hi).1]
    · have h' : fin (1 + 1 / 100000) < fin (fct.get i) := h
      rw [fin_lt] at h'; linarith [(hf i hi).2]

/-- C30: for outcomes in {0, 1} and probabilities in [0, 1] of compatible shapes, `brier_score` is
the squared error, in [0, 1]. -/
theorem C30_brier_value {obs : Arr Bool} {fct : Arr ℝ} {s : List ℕ}
    (hs : Arr.bshape fct.shape obs.shape = some s)
    (hf : ∀ i, Arr.Valid fct.shape i → 0 ≤ fct.get i ∧ fct.get i ≤ 1) :
    ∃ out, brierScore (obs.map fun o => fin (outc o)) (fct.map fin) = .ok out ∧ out.shape = s ∧
      ∀ i, out.get i = fin (Spec.brier (fct.bget i) (obs.bget i)) := by
  unfold brierScore
  rw [binaryCheck_ok hf]
  simp only [bind, Except.bind, Arr.map2]
  rw [show Arr.bshape (fct.map fin).shape (obs.map fun o => fin (outc o)).shape = some s from hs]
  exact ⟨_, rfl, rfl, fun i => brier1_fin _ _⟩

example : Arr.bshape (⟨[2], fun i => if i = [0] then 1 / 4 else 1⟩ : Arr ℝ).shape
      (⟨[3, 1], fun i => i = [1, 0]⟩ : Arr Bool).shape = some [3, 2] ∧
    ∀ i, Arr.Valid [2] i → 0 ≤ (⟨[2], fun i => if i = [0] then 1 / 4 else 1⟩ : Arr ℝ).get i ∧
      (⟨[2], fun i => if i = [0] then 1 / 4 else 1⟩ : Arr ℝ).get i ≤ 1 := by
  refine ⟨by simp [Arr.bshape, Arr.bshapeR], fun i _ => ?_⟩
  dsimp only
  split <;> norm_num

theorem C30_brier_range {p : ℝ} (h0 : 0 ≤ p) (h1 : p ≤ 1) (o : Bool) :
    ∃ r, brier1 (fin (outc o)) (fin p) = fin r ∧ 0 ≤ r ∧ r ≤ 1 := by
  refine ⟨_, brier1_fin o p, ?_, ?_⟩ <;> unfold Spec.brier <;> split_ifs <;> nlinarith

/-- a vector of outcomes against one probability meets the hypotheses of `C30_brier_value` -/
example : Arr.bshape [] [3] = some [3] := by simp [Arr.bshape, Arr.bshapeR]

/-- C30: the Brier score is strictly proper: with event probability `q`, reporting `p ≠ q` has a
larger expected score. -/
theorem C30_brier_strictly_proper {p q : ℝ} (h : p ≠ q) :
    fin q * brier1 (fin (outc true)) (fin q) + fin (1 - q) * brier1 (fin (outc false)) (fin q)
      < fin q * brier1 (fin (outc true)) (fin p) + fin (1 - q) * brier1 (fin (outc false)) (fin p) := by
  simp only [brier1_fin, fin_mul, fin_add, fin_lt, Spec.brier, if_true, Bool.false_eq_true, if_false]
  have := sq_pos_of_ne_zero (sub_ne_zero.2 h)
  nlinarith

example : (1 / 4 : ℝ) ≠ 1 / 2 := by norm_num

/-- C30: for outcomes in {0, 1} and probabilities in [0, 1], `log_score` is minus the logarithm of the
probability of the realised outcome, infinite when that probability is zero, never negative. -/
theorem C30_log_value {obs : Arr Bool} {fct : Arr ℝ} {s : List ℕ}
    (hs : Arr.bshape fct.shape obs.shape = some s)
    (hf : ∀ i, 0 ≤ fct.get i ∧ fct.get i ≤ 1) :
    ∃ out, logScore (obs.map fun o => fin (outc o)) (fct.map fin) = .ok out ∧ out.shape = s ∧
      (∀ i, out.get i = if Spec.probOf (fct.bget i) (obs.bget i) = 0 then pinf
        else fin (- Real.log (Spec.probOf (fct.bget i) (obs.bget i)))) ∧
      ∀ i, fin 0 ≤ out.get i := by
  have e : ∀ i, log1 ((obs.map fun o => fin (outc o)).bget i) ((fct.map fin).bget i)
      = if Spec.probOf (fct.bget i) (obs.bget i) = 0 then pinf
        else fin (- Real.log (Spec.probOf (fct.bget i) (obs.bget i))) :=
    fun i => log1_fin _ (hf _).1 (hf _).2
  unfold logScore
  rw [binaryCheck_ok fun i _ => hf i]
  simp only [bind, Except.bind, Arr.map2]
  rw [show Arr.bshape (fct.map fin).shape (obs.map fun o => fin (outc o)).shape = some s from hs]
  refine ⟨_, rfl, rfl, e, fun i => ?_⟩
  dsimp only
  rw [e i]
  split_ifs with h
  · exact fin_le_pinf 0
  · rw [fin_le, neg_nonneg]
    have h1 : 0 ≤ fct.bget i ∧ fct.bget i ≤ 1 := hf _
    apply Real.log_nonpos <;> unfold Spec.probOf <;> split_ifs <;> linarith [h1.1, h1.2]

example : Arr.bshape (⟨[2], fun i => if i = [0] then 1 / 4 else 1⟩ : Arr ℝ).shape
      (⟨[3, 1], fun i => i = [1, 0]⟩ : Arr Bool).shape = some [3, 2] ∧
    ∀ i, 0 ≤ (⟨[2], fun i => if i = [0] then 1 / 4 else 1⟩ : Arr ℝ).get i ∧
      (⟨[2], fun i => if i = [0] then 1 / 4 else 1⟩ : Arr ℝ).get i ≤ 1 := by
  refine ⟨by simp [Arr.bshape, Arr.bshapeR], fun i => ?_⟩
  dsimp only
  split <;> norm_num

theorem log_le_sub_one' {x : ℝ} (hx : 0 < x) : Real.log x ≤ x - 1 := Real.log_le_sub_one_of_pos hx

/-- Gibbs' inequality for two outcomes -/
theorem gibbs2 {p q : ℝ} (hq0 : 0 ≤ q) (hq1 : q ≤ 1) (hp0 : 0 < p) (hp1 : p < 1) :
    q * -Real.log q + (1 - q) * -Real.log (1 - q) ≤ q * -Real.log p + (1 - q) * -Real.log (1 - p) ∧
      (p ≠ q → q * -Real.log q + (1 - q) * -Real.log (1 - q)
        < q * -Real.log p + (1 - q) * -Real.log (1 - p)) := by
  have key : ∀ a b : ℝ, 0 ≤ a → 0 < b → a * Real.log b - a * Real.log a ≤ b - a ∧
      (a ≠ b → a * Real.log b - a * Real.log a < b - a) := by
    intro a b ha hb
    rcases ha.eq_or_lt with rfl | ha
    · simp only [zero_mul, sub_zero]; exact ⟨hb.le, fun _ => hb⟩
    · have e : a * Real.log b - a * Real.log a = a * Real.log (b / a) := by
        rw [Real.log_div hb.ne' ha.ne']; ring
      have e' : b - a = a * (b / a - 1) := by field_simp
      rw [e, e']
      refine ⟨mul_le_mul_of_nonneg_left (Real.log_le_sub_one_of_pos (by positivity)) ha.le,
        fun hne => ?_⟩
      apply mul_lt_mul_of_pos_left _ ha
      apply Real.log_lt_sub_one_of_pos (by positivity)
      intro h
      rw [div_eq_one_iff_eq ha.ne'] at h
      exact hne h.symm
  have k1 := key q p hq0 hp0
  have k2 := key (1 - q) (1 - p) (by linarith) (by linarith)
  constructor
  · linarith [k1.1, k2.1]
  · intro h
    linarith [k1.2 (Ne.symm h), k2.1]

/-- C30: the log score is strictly proper (reports inside (0, 1); a report of 0 or 1 has an infinite
score on an outcome it excludes, see `C30_log_value`). -/
theorem C30_log_strictly_proper {p q : ℝ} (hq0 : 0 < q) (hq1 : q < 1) (hp0 : 0 < p) (hp1 : p < 1)
    (h : p ≠ q) :
    fin q * log1 (fin (outc true)) (fin q) + fin (1 - q) * log1 (fin (outc false)) (fin q)
      < fin q * log1 (fin (outc true)) (fin p) + fin (1 - q) * log1 (fin (outc false)) (fin p) := by
  rw [log1_fin _ hq0.le hq1.le, log1_fin _ hq0.le hq1.le, log1_fin _ hp0.le hp1.le,
    log1_fin _ hp0.le hp1.le]
  simp only [Spec.probOf, if_true, Bool.false_eq_true, if_false]
  rw [if_neg hq0.ne', if_neg (by linarith), if_neg hp0.ne', if_neg (by linarith)]
  simp only [fin_mul, fin_add, fin_lt]
  exact (gibbs2 hq0.le hq1.le hp0 hp1).2 h

example : (0 : ℝ) < 1 / 4 ∧ (1 / 4 : ℝ) < 1 ∧ (0 : ℝ) < 1 / 2 ∧ (1 / 2 : ℝ) < 1 ∧ (1 / 2 : ℝ) ≠ 1 / 4 := by
  norm_num

/-- C30: a report of 0 or 1 that excludes a possible outcome has infinite expected log score. -/
theorem C30_log_excluding_report {q : ℝ} (hq0 : 0 < q) (hq1 : q < 1) :
    fin q * log1 (fin (outc true)) (fin 0) + fin (1 - q) * log1 (fin (outc false)) (fin 0) = pinf ∧
      fin q * log1 (fin (outc true)) (fin 1) + fin (1 - q) * log1 (fin (outc false)) (fin 1)
        = pinf := by
  have h1 : fin q * pinf = pinf := by rw [fin_mul_pinf, infMul_eq]; simp [hq0.ne', hq0]
  have h2 : fin (1 - q) * pinf = pinf := by
    rw [fin_mul_pinf, infMul_eq, if_neg (by linarith), if_pos (by linarith)]; rfl
  constructor
  · rw [log1_fin _ le_rfl zero_le_one, log1_fin _ le_rfl zero_le_one]
    simp [Spec.probOf, h1]
    rfl
  · rw [log1_fin _ zero_le_one le_rfl, log1_fin _ zero_le_one le_rfl]
    simp [Spec.probOf, h2]
    rfl

example : (0 : ℝ) < 1 / 4 ∧ (1 / 4 : ℝ) < 1 := by norm_num

/-- C30: a probability below 0 or above `1 + 1e-5`, or an observation other than 0 and 1 (NaN
included), raises `ValueError` in both scores. -/
theorem C30_invalid_inputs {obs fct : Arr XF}
    (h : (∃ i, Arr.Valid fct.shape i ∧ (fct.get i < 0 ∨ fin (1 + 1 / 100000) < fct.get i)) ∨
      ∃ i, Arr.Valid obs.shape i ∧ obs.get i ≠ fin 0 ∧ obs.get i ≠ fin 1) :
    brierScore obs fct = .error .valueError ∧ logScore obs fct = .error .valueError := by
  have hc : binaryCheck obs fct = .error .valueError := by
    unfold binaryCheck
    split_ifs with h1 h2
    · rfl
    · rfl
    · exfalso
      rcases h with ⟨i, hi, h | h⟩ | ⟨i, hi, h⟩
      · exact h1 (Or.inl ⟨i, hi, h⟩)
      · exact h1 (Or.inr ⟨i, hi, h⟩)
      · exact h2 ⟨i, hi, h⟩
  unfold brierScore logScore
  rw [hc]
  exact ⟨rfl, rfl⟩

/-- a NaN observation is such an invalid input (although the message of the exception lists NaN as
allowed) -/
example : brierScore (Arr.scalar nan) (Arr.scalar (fin (1 / 2))) = .error .valueError :=
  (C30_invalid_inputs (Or.inr ⟨[], by simp [Arr.Valid, Arr.scalar], by simp [Arr.scalar],
    by simp [Arr.scalar]⟩)).1

/-! ### categorical forecasts -/

theorem cumsum_fin (f : List ℝ) :
    cumsum (f.map fin) = (List.range f.length).map fun j => fin (Spec.cum f j) := by
  unfold cumsum Spec.cum
  rw [List.length_map]
  refine List.map_congr_left fun j _ => ?_
  rw [← List.map_take, sum_map_fin']
  simp

/-- the one-hot vector of category `c` among `K` -/
def hot (K c : ℕ) : List ℝ := (List.range K).map fun j => if c = j + 1 then 1 else 0

theorem cum_hot {K c j : ℕ} (hc : 1 ≤ c) (hj : j < K) :
    Spec.cum (hot K c) j = if c ≤ j + 1 then 1 else 0 := by
  unfold Spec.cum hot
  rw [← List.map_take, List.take_range, min_eq_left (by omega)]
  clear hj
  induction j with
  | zero =>
    have : c = 0 + 1 ↔ c ≤ 0 + 1 := by omega
    simp only [List.range_succ, List.range_zero, List.nil_append, List.map_cons, List.map_nil,
      List.sum_singleton, this]
  | succ j ih =>
    rw [List.range_succ, List.map_append, List.sum_append, ih]
    simp only [List.map_cons, List.map_nil, List.sum_singleton]
    by_cases h1 : c ≤ j + 1
    · rw [if_pos h1, if_neg (by omega), if_pos (by omega), add_zero]
    · by_cases h2 : c = j + 1 + 1
      · rw [if_neg h1, if_pos h2, if_pos (by omega), zero_add]
      · rw [if_neg h1, if_neg h2, if_neg (by omega), add_zero]

theorem rps1_fin {f o : List ℝ} (h : o.length = f.length) :
    rps1 (o.map fin) (f.map fin)
      = fin ((List.range f.length).map fun j => (Spec.cum f j - Spec.cum o j) ^ 2).sum := by
  unfold rps1
  rw [cumsum_fin, cumsum_fin, h, zip2_map]
  simp only [fin_sub, fin_pow, sum_map_fin']

theorem rps1_hot (f : List ℝ) {c : ℕ} (hc : 1 ≤ c) :
    rps1 ((hot f.length c).map fin) (f.map fin) = fin (Spec.rps f c) := by
  rw [rps1_fin (by simp [hot]), fin_inj, Spec.rps]
  congr 1
  refine List.map_congr_left fun j hj => ?_
  rw [cum_hot hc (List.mem_range.1 hj)]
  unfold Spec.brier
  by_cases h : c ≤ j + 1 <;> simp [h]
  ring

/-- a forecast array after `categorical_array_check` moved its category axis -/
theorem movedK {a : Arr XF} {m : ℤ} {k : ℕ} (h : Spec.AxisIs m a.ndim k) :
    ∃ F, moveK a m = .ok F ∧
      F.shape = a.shape.eraseIdx k ++ [a.shape.getD k 0] ∧
      ∀ i, Arr.Valid (a.shape.eraseIdx k) i → F.row i = a.sliceAt k i := by
  unfold moveK
  by_cases hm : m = -1
  · rw [if_neg (not_not.2 hm)]
    have hk : k = a.ndim - 1 := by
      have := h.1
      rcases h.2 with h2 | h2 <;> omega
    have hs : a.shape = a.shape.eraseIdx k ++ [a.shape.getD k 0] := by
      have hne : a.shape ≠ [] := by
        intro h0
        have := h.1
        simp [Arr.ndim, h0] at this
      have hl : a.shape.length - 1 < a.shape.length := by
        have := List.length_pos_iff.2 hne; omega
      rw [hk]
      unfold Arr.ndim
      rw [List.eraseIdx_length_sub_one, List.getD_eq_getElem?_getD, List.getElem?_eq_getElem hl,
        Option.getD_some, ← List.getLast_eq_getElem hne, List.dropLast_append_getLast hne]
    refine ⟨a, rfl, hs, fun i hi => ?_⟩
    have hl : (a.shape.eraseIdx k).length = k := by
      rw [List.length_eraseIdx_of_lt h.1]; unfold Arr.ndim at hk; omega
    have := Arr.sliceAt_last hs hi.length
    rw [hl] at this
    exact this.symm
  · rw [if_pos hm]
    exact ⟨_, moveaxisLast_axis h, rfl, fun i _ => Arr.row_moveLast _ _ _⟩

theorem rangeCheck_ok {fct : Arr ℝ}
    (hf : ∀ i, Arr.Valid fct.shape i → 0 ≤ fct.get i ∧ fct.get i ≤ 1) :
    ¬ ((fct.map fin).Any (fun v => v < 0) ∨ (fct.map fin).Any (fun v => 1 + eps < v)) := by
  rintro (⟨i, hi, h⟩ | ⟨i, hi, h⟩)
  · have h' : fin (fct.get i) < fin 0 := h
    rw [fin_lt] at h'; linarith [(hf i hi).1]
  · have h' : fin (1 + 1 / 100000) < fin (fct.get i) := h
    rw [fin_lt] at h'; linarith [(hf i hi).2]

/-- category numbers: the arrays reaching the score functions -/
theorem categorical_numbers {obs : Arr ℕ} {fct : Arr ℝ} {m : ℤ} {k : ℕ}
    (h : Spec.AxisIs m fct.ndim k) (hs : obs.shape = fct.shape.eraseIdx k)
    (hf : ∀ i, Arr.Valid fct.shape i → 0 ≤ fct.get i ∧ fct.get i ≤ 1) :
    ∃ O F, categoricalCheck (obs.map fun c : ℕ => (c : XF)) (fct.map fin) m false = .ok (O, F) ∧
      F.shape = fct.shape.eraseIdx k ++ [fct.shape.getD k 0] ∧
      ∀ i, Arr.Valid obs.shape i → F.row i = (fct.sliceAt k i).map fin ∧
        O.row i = (hot (fct.shape.getD k 0) (obs.get i)).map fin := by
  obtain ⟨F, h1, h2, h3⟩ := movedK (a := fct.map fin) h
  refine ⟨onehotOf (obs.map fun c : ℕ => (c : XF)) (fct.shape.getD k 0), F, ?_, h2, fun i hi => ⟨?_, ?_⟩⟩
  · unfold categoricalCheck
    rw [if_neg (rangeCheck_ok hf)]
    simp only [h1, bind, Except.bind, Bool.false_eq_true, if_false]
    have e : F.shape.getLastD 0 = fct.shape.getD k 0 := by rw [h2]; simp [Arr.map]
    rw [if_neg (by rw [h2]; simpa [Arr.map] using hs), if_neg (by rw [h2]; simp), e]
  · rw [h3 i (by rw [hs] at hi; exact hi), sliceAt_map]
  · have e : (onehotOf (obs.map fun c : ℕ => (c : XF)) (fct.shape.getD k 0)).shape.getLastD 0
        = fct.shape.getD k 0 := by simp [onehotOf]
    rw [Arr.row, e, hot, List.map_map]
    refine List.map_congr_left fun j _ => ?_
    simp only [onehotOf, List.dropLast_concat, List.getLastD_concat, Function.comp_apply, Arr.map,
      natCast_def, XF.feq, fin_inj, Nat.cast_inj]
    split_ifs <;> rfl

/-- one-hot observations: the arrays reaching the score functions -/
theorem categorical_onehot {obs fct : Arr ℝ} {m : ℤ} {k : ℕ}
    (h : Spec.AxisIs m fct.ndim k) (hs : obs.shape = fct.shape)
    (hf : ∀ i, Arr.Valid fct.shape i → 0 ≤ fct.get i ∧ fct.get i ≤ 1) :
    ∃ O F, categoricalCheck (obs.map fin) (fct.map fin) m true = .ok (O, F) ∧
      F.shape = fct.shape.eraseIdx k ++ [fct.shape.getD k 0] ∧
      ∀ i, Arr.Valid (fct.shape.eraseIdx k) i → F.row i = (fct.sliceAt k i).map fin ∧
        O.row i = (obs.sliceAt k i).map fin := by
  obtain ⟨F, h1, h2, h3⟩ := movedK (a := fct.map fin) h
  obtain ⟨O, h1', h2', h3'⟩ := movedK (a := obs.map fin) (m := m) (k := k)
    (by show Spec.AxisIs m obs.shape.length k; rw [hs]; exact h)
  refine ⟨O, F, ?_, h2, fun i hi => ⟨?_, ?_⟩⟩
  · unfold categoricalCheck
    rw [if_neg (rangeCheck_ok hf)]
    simp only [h1, bind, Except.bind, if_true, h1']
    rw [if_neg]
    rw [h2, h2', not_not]
    simp [Arr.map, hs]
  · rw [h3 i hi, sliceAt_map]
  · rw [h3' i (by show Arr.Valid (obs.shape.eraseIdx k) i; rw [hs]; exact hi), sliceAt_map]

/-- C31: `rps_score` with category numbers is the sum over thresholds of the Brier scores of the
cumulative probabilities, for every rank and category axis. -/
theorem C31_rps_value {obs : Arr ℕ} {fct : Arr ℝ} {m : ℤ} {k : ℕ}
    (h : Spec.AxisIs m fct.ndim k) (hs : obs.shape = fct.shape.eraseIdx k)
    (hf : ∀ i, Arr.Valid fct.shape i → 0 ≤ fct.get i ∧ fct.get i ≤ 1)
    (hc : ∀ i, Arr.Valid obs.shape i → 1 ≤ obs.get i) :
    ∃ out, rpsScore (obs.map fun c : ℕ => (c : XF)) (fct.map fin) m false = .ok out ∧
      out.shape = obs.shape ∧
      ∀ i, Arr.Valid obs.shape i → out.get i = fin (Spec.rps (fct.sliceAt k i) (obs.get i)) := by
  obtain ⟨O, F, h1, h2, h3⟩ := categorical_numbers h hs hf
  unfold rpsScore
  simp only [h1, bind, Except.bind]
  refine ⟨_, rfl, ?_, fun i hi => ?_⟩
  · show F.shape.dropLast = _
    rw [h2, List.dropLast_concat, hs]
  · have hl : (fct.sliceAt k i).length = fct.shape.getD k 0 := by simp [Arr.sliceAt]
    dsimp only
    rw [(h3 i hi).1, (h3 i hi).2, ← hl, rps1_hot _ (hc i hi)]

/-- a (2, 3) forecast with uniform probabilities and categories 1 and 3 meets the hypotheses -/
example : Spec.AxisIs (-1) (⟨[2, 3], fun _ => 1 / 3⟩ : Arr ℝ).ndim 1 ∧
    ∀ i, 1 ≤ (⟨[2], fun i => 1 + 2 * i.headD 0⟩ : Arr ℕ).get i :=
  ⟨⟨by simp [Arr.ndim], by simp [Arr.ndim]⟩, fun i => by simp⟩

/-- C31: category numbers and their one-hot vectors give the same score. -/
theorem C31_onehot_same {obs : Arr ℕ} {hotArr fct : Arr ℝ} {m : ℤ} {k : ℕ}
    (h : Spec.AxisIs m fct.ndim k) (hs : obs.shape = fct.shape.eraseIdx k)
    (hs' : hotArr.shape = fct.shape)
    (hf : ∀ i, Arr.Valid fct.shape i → 0 ≤ fct.get i ∧ fct.get i ≤ 1)
    (hh : ∀ i j, Arr.Valid obs.shape i → j < fct.shape.getD k 0 →
      hotArr.get (i.insertIdx k j) = if obs.get i = j + 1 then 1 else 0) :
    ∃ out out', rpsScore (obs.map fun c : ℕ => (c : XF)) (fct.map fin) m false = .ok out ∧
      rpsScore (hotArr.map fin) (fct.map fin) m true = .ok out' ∧ out.Same out' := by
  obtain ⟨O, F, h1, h2, h3⟩ := categorical_numbers h hs hf
  obtain ⟨O', F', h1', h2', h3'⟩ := categorical_onehot h hs' hf
  unfold rpsScore
  simp only [h1, h1', bind, Except.bind]
  refine ⟨_, _, rfl, rfl, ?_, fun i hi => ?_⟩
  · show F.shape.dropLast = F'.shape.dropLast
    rw [h2, h2']
  · have hi' : Arr.Valid (fct.shape.eraseIdx k) i := by
      have : Arr.Valid F.shape.dropLast i := hi
      rwa [h2, List.dropLast_concat] at this
    have hio : Arr.Valid obs.shape i := by rw [hs]; exact hi'
    dsimp only
    rw [(h3 i hio).1, (h3 i hio).2, (h3' i hi').1, (h3' i hi').2]
    have e : obs.sliceAt k i = obs.sliceAt k i := rfl
    have : hotArr.sliceAt k i = hot (fct.shape.getD k 0) (obs.get i) := by
      unfold Arr.sliceAt hot
      rw [hs']
      exact List.map_congr_left fun j hj => hh i j hio (List.mem_range.1 hj)
    rw [this]

example : ∃ out out', rpsScore ((⟨[2], fun i => i.headD 0 + 1⟩ : Arr ℕ).map fun c : ℕ => (c : XF))
      ((⟨[2, 3], fun _ => 1 / 3⟩ : Arr ℝ).map fin) (-1) false = .ok out ∧
    rpsScore ((⟨[2, 3], fun i => if i.headD 0 = i.getD 1 0 then 1 else 0⟩ : Arr ℝ).map fin)
      ((⟨[2, 3], fun _ => 1 / 3⟩ : Arr ℝ).map fin) (-1) true = .ok out' ∧ out.Same out' := by
  refine C31_onehot_same (k := 1) ⟨by simp [Arr.ndim], by simp [Arr.ndim]⟩ rfl rfl
    (fun i _ => by norm_num) ?_
  intro i j hi _
  obtain ⟨a, rfl⟩ : ∃ a, i = [a] := by
    have := hi.length_eq
    match i, this with
    | [a], _ => exact ⟨a, rfl⟩
  simp

/-- C31: with two categories the RPS is the Brier score of the second one. -/
theorem C31_two_categories (p : ℝ) (o : Bool) :
    Spec.rps [1 - p, p] (if o then 2 else 1) = Spec.brier p o := by
  cases o <;> simp [Spec.rps, Spec.brier, Spec.cum, List.range_succ] <;> ring

/-! ### expectations over categories -/

theorem cum_eq_sum (f : List ℝ) (j : ℕ) :
    Spec.cum f j = ∑ i ∈ Finset.range (j + 1), f.getD i 0 := by
  unfold Spec.cum
  generalize j + 1 = n
  induction n generalizing f with
  | zero => simp
  | succ n ih =>
    cases f with
    | nil => simp
    | cons a f =>
      rw [List.take_succ_cons, List.sum_cons, ih, Finset.sum_range_succ']
      simp [add_comm]

theorem sum_eq_sum (f : List ℝ) : f.sum = ∑ i ∈ Finset.range f.length, f.getD i 0 := by
  cases f with
  | nil => simp
  | cons a f =>
    have := cum_eq_sum (a :: f) f.length
    unfold Spec.cum at this
    rw [List.length_cons, ← this, List.take_of_length_le (by simp)]

theorem list_sum_range (K : ℕ) (g : ℕ → ℝ) :
    ((List.range K).map g).sum = ∑ j ∈ Finset.range K, g j := by
  induction K with
  | zero => simp
  | succ K ih => rw [List.range_succ, List.map_append, List.sum_append, ih, Finset.sum_range_succ]; simp

/-- expectation of a threshold-wise score over the categories drawn from `q` -/
theorem expect_threshold (q : List ℝ) (hq : q.sum = 1) (K : ℕ) (hK : K = q.length)
    (φ : ℕ → Bool → ℝ) :
    ∑ c ∈ Finset.range K, q.getD c 0 * ((List.range K).map fun j => φ j (decide (c + 1 ≤ j + 1))).sum
      = ∑ j ∈ Finset.range K, (Spec.cum q j * φ j true + (1 - Spec.cum q j) * φ j false) := by
  simp only [list_sum_range, Nat.add_le_add_iff_right, Finset.mul_sum]
  rw [Finset.sum_comm]
  refine Finset.sum_congr rfl fun j hj => ?_
  have hj' : j < K := Finset.mem_range.1 hj
  have e : ∀ c, q.getD c 0 * φ j (decide (c ≤ j))
      = q.getD c 0 * φ j false + (if c ≤ j then q.getD c 0 else 0) * (φ j true - φ j false) := by
    intro c
    by_cases h : c ≤ j
    · simp only [h, decide_true, if_true]; ring
    · simp only [h, decide_false, if_false]; ring
  rw [Finset.sum_congr rfl fun c _ => e c, Finset.sum_add_distrib, ← Finset.sum_mul, ← Finset.sum_mul,
    ← Finset.sum_filter]
  have e2 : (Finset.range K).filter (fun c => c ≤ j) = Finset.range (j + 1) := by
    ext c; simp only [Finset.mem_filter, Finset.mem_range]; omega
  rw [e2, ← cum_eq_sum, hK, ← sum_eq_sum, hq]
  ring

theorem row_ofList (l : List XF) : (Arr.ofList l).row [] = l := by
  unfold Arr.row Arr.ofList
  simp only [List.getLastD_cons, List.nil_append, List.headD_cons]
  apply List.ext_getElem
  · simp
  · intro n h1 h2
    simp [h2]

/-- one forecast vector, one category number -/
theorem cat_vector {f : List ℝ} (hf : ∀ p ∈ f, 0 ≤ p ∧ p ≤ 1) (c : ℕ) :
    ∃ O F : Arr XF, categoricalCheck (Arr.scalar (c : XF)) (Arr.ofList (f.map fin)) (-1) false
      = .ok (O, F) ∧ F.shape = [f.length] ∧ F.row [] = f.map fin ∧
      O.row [] = (hot f.length c).map fin := by
  refine ⟨onehotOf (Arr.scalar (c : XF)) f.length, Arr.ofList (f.map fin), ?_, by simp [Arr.ofList],
    row_ofList _, ?_⟩
  · unfold categoricalCheck
    rw [if_neg]
    · simp [moveK, bind, Except.bind, Arr.scalar, Arr.ofList]
    · have hg : ∀ i, Arr.Valid (Arr.ofList (f.map fin)).shape i →
          ∃ p ∈ f, (Arr.ofList (f.map fin)).get i = fin p := by
        intro i hi
        have hl : i.headD 0 < f.length := by
          unfold Arr.Valid at hi
          cases hi with
          | cons h _ => simpa [Arr.ofList] using h
        refine ⟨f[i.headD 0], List.getElem_mem _, ?_⟩
        have hl' : i.head?.getD 0 < f.length := by simpa using hl
        simp [Arr.ofList, List.getD, hl']
      rintro (⟨i, hi, h⟩ | ⟨i, hi, h⟩)
      · obtain ⟨p, hp, e⟩ := hg i hi
        rw [e, zero_def, fin_lt] at h
        linarith [(hf p hp).1]
      · obtain ⟨p, hp, e⟩ := hg i hi
        rw [e, one_def, eps, fin_add, fin_lt] at h
        linarith [(hf p hp).2]
  · have e : (onehotOf (Arr.scalar (c : XF)) f.length).shape.getLastD 0 = f.length := by
      simp [onehotOf]
    rw [Arr.row, e, hot, List.map_map]
    refine List.map_congr_left fun j _ => ?_
    simp only [onehotOf, List.nil_append, Function.comp_apply, Arr.scalar, List.getLastD_cons,
      List.getLastD_nil, natCast_def, XF.feq, fin_inj, Nat.cast_inj]
    split_ifs <;> rfl

theorem rps_vector {f : List ℝ} (hf : ∀ p ∈ f, 0 ≤ p ∧ p ≤ 1) {c : ℕ} (hc : 1 ≤ c) :
    ∃ out, rpsScore (Arr.scalar (c : XF)) (Arr.ofList (f.map fin)) (-1) false = .ok out ∧
      out.shape = [] ∧ out.get [] = fin (Spec.rps f c) := by
  obtain ⟨O, F, h1, h2, h3, h4⟩ := cat_vector hf c
  unfold rpsScore
  simp only [h1, bind, Except.bind]
  refine ⟨_, rfl, by rw [h2]; rfl, ?_⟩
  dsimp only
  rw [h3, h4, rps1_hot _ hc]

theorem cum_inj {f q : List ℝ} (hlen : f.length = q.length)
    (h : ∀ j < q.length, Spec.cum f j = Spec.cum q j) : f = q := by
  apply List.ext_getElem hlen
  intro n h1 h2
  have e : ∀ g : List ℝ, ∀ hn : n < g.length, g[n] = Spec.cum g n - if n = 0 then 0 else Spec.cum g (n - 1) := by
    intro g hn
    have : g[n] = g.getD n 0 := by simp [List.getD, hn]
    rw [this]
    cases n with
    | zero => rw [cum_eq_sum]; simp
    | succ n =>
      rw [if_neg (Nat.succ_ne_zero _), cum_eq_sum, cum_eq_sum, Nat.add_sub_cancel,
        Finset.sum_range_succ _ (n + 1)]
      ring
  rw [e f h1, e q h2, h n h2]
  by_cases h0 : n = 0
  · simp [h0]
  · rw [if_neg h0, if_neg h0, h (n - 1) (by omega)]

/-- C31: the RPS is strictly proper.  `f` is any vector of probabilities, `q` the true distribution of
the category (`K` categories); `s c`, `t c` are the scores of `f`, `q` when category `c` occurs. -/
theorem C31_rps_proper {f q : List ℝ} (hlen : f.length = q.length)
    (hf : ∀ p ∈ f, 0 ≤ p ∧ p ≤ 1) (hq : Spec.IsProb q) :
    ∃ s t : ℕ → ℝ,
      (∀ c : ℕ, 1 ≤ c → ∃ out, rpsScore (Arr.scalar (c : XF)) (Arr.ofList (f.map fin)) (-1) false = .ok out ∧
        out.shape = [] ∧ out.get [] = fin (s c)) ∧
      (∀ c : ℕ, 1 ≤ c → ∃ out, rpsScore (Arr.scalar (c : XF)) (Arr.ofList (q.map fin)) (-1) false = .ok out ∧
        out.shape = [] ∧ out.get [] = fin (t c)) ∧
      ∑ c ∈ Finset.range q.length, q.getD c 0 * t (c + 1)
        ≤ ∑ c ∈ Finset.range q.length, q.getD c 0 * s (c + 1) ∧
      (f ≠ q → ∑ c ∈ Finset.range q.length, q.getD c 0 * t (c + 1)
        < ∑ c ∈ Finset.range q.length, q.getD c 0 * s (c + 1)) := by
  have hq1 : ∀ p ∈ q, 0 ≤ p ∧ p ≤ 1 := fun p hp =>
    ⟨hq.1 p hp, hq.2 ▸ List.single_le_sum hq.1 p hp⟩
  refine ⟨Spec.rps f, Spec.rps q, fun c hc => rps_vector hf hc, fun c hc => rps_vector hq1 hc, ?_⟩
  have key : ∀ g : List ℝ, g.length = q.length →
      ∑ c ∈ Finset.range q.length, q.getD c 0 * Spec.rps g (c + 1) = ∑ j ∈ Finset.range q.length,
        (Spec.cum q j * (1 - Spec.cum q j) + (Spec.cum g j - Spec.cum q j) ^ 2) := by
    intro g hg
    have := expect_threshold q hq.2 q.length rfl (fun j o => Spec.brier (Spec.cum g j) o)
    unfold Spec.rps
    rw [hg, this]
    refine Finset.sum_congr rfl fun j _ => ?_
    simp only [Spec.brier, if_true, Bool.false_eq_true, if_false]
    ring
  rw [key f hlen, key q rfl]
  constructor
  · exact Finset.sum_le_sum fun j _ => by nlinarith [sq_nonneg (Spec.cum f j - Spec.cum q j)]
  · intro hne
    have : ∃ j, j < q.length ∧ Spec.cum f j ≠ Spec.cum q j := by
      by_contra hc
      push Not at hc
      exact hne (cum_inj hlen hc)
    obtain ⟨j, hj, hjne⟩ := this
    refine Finset.sum_lt_sum (fun j _ => by nlinarith [sq_nonneg (Spec.cum f j - Spec.cum q j)])
      ⟨j, Finset.mem_range.2 hj, ?_⟩
    have := sq_pos_of_ne_zero (sub_ne_zero.2 hjne)
    nlinarith

/-- a true distribution on three categories -/
example : Spec.IsProb [1 / 2, 1 / 3, 1 / 6] := by
  constructor
  · intro p hp; simp at hp; rcases hp with rfl | rfl | rfl <;> norm_num
  · norm_num

/-! ### C32 -/

theorem rls_term {F : ℝ} (h0 : 0 ≤ F) (h1 : F ≤ 1) (o : Bool) :
    - XF.log (XF.abs (fin F + fin (outc o) - 1))
      = if Spec.probOf F o = 0 then pinf else fin (- Real.log (Spec.probOf F o)) :=
  log1_fin o h0 h1

theorem sum_fin_or_pinf {ι : Type} (l : List ι) (v : ι → ℝ) (b : ι → Prop) :
    (l.map fun j => if b j then pinf else fin (v j)).sum
      = if ∃ j ∈ l, b j then pinf else fin (l.map v).sum := by
  induction l with
  | nil => simp [zero_def]
  | cons a l ih =>
    rw [List.map_cons, List.sum_cons, ih, List.map_cons, List.sum_cons]
    by_cases h1 : b a <;> by_cases h2 : ∃ j ∈ l, b j
    · rw [if_pos h1, if_pos h2, if_pos ⟨a, by simp, h1⟩]; rfl
    · rw [if_pos h1, if_neg h2, if_pos ⟨a, by simp, h1⟩]; rfl
    · rw [if_neg h1, if_pos h2, if_pos (by obtain ⟨j, hj, h⟩ := h2; exact ⟨j, by simp [hj], h⟩)]; rfl
    · rw [if_neg h1, if_neg h2, if_neg, fin_add]
      rintro ⟨j, hj, h⟩
      rcases List.mem_cons.1 hj with rfl | hj
      · exact h1 h
      · exact h2 ⟨j, hj, h⟩

theorem rls1_hot {f : List ℝ} (hf : ∀ j, 0 ≤ Spec.cum f j ∧ Spec.cum f j ≤ 1) {c : ℕ} (hc : 1 ≤ c) :
    rls1 ((hot f.length c).map fin) (f.map fin)
      = if ∃ j < f.length, Spec.probOf (Spec.cum f j) (decide (c ≤ j + 1)) = 0 then pinf
        else fin (Spec.rls f c) := by
  unfold rls1
  rw [cumsum_fin, cumsum_fin, show (hot f.length c).length = f.length by simp [hot], zip2_map]
  have e : (List.range f.length).map (fun j => - XF.log (XF.abs (fin (Spec.cum f j)
        + fin (Spec.cum (hot f.length c) j) - 1)))
      = (List.range f.length).map fun j =>
        if Spec.probOf (Spec.cum f j) (decide (c ≤ j + 1)) = 0 then pinf
        else fin (- Real.log (Spec.probOf (Spec.cum f j) (decide (c ≤ j + 1)))) := by
    refine List.map_congr_left fun j hj => ?_
    rw [cum_hot hc (List.mem_range.1 hj), ← rls_term (hf j).1 (hf j).2]
    unfold outc
    by_cases h : c ≤ j + 1 <;> simp [h]
  rw [e, sum_fin_or_pinf]
  simp only [List.mem_range]
  rfl

theorem cum_mem {f : List ℝ} (hf : Spec.IsProb f) (j : ℕ) : 0 ≤ Spec.cum f j ∧ Spec.cum f j ≤ 1 := by
  unfold Spec.cum
  constructor
  · exact List.sum_nonneg fun p hp => hf.1 p (List.mem_of_mem_take hp)
  · rw [← hf.2]
    conv_rhs => rw [← List.take_append_drop (j + 1) f, List.sum_append]
    have : 0 ≤ (f.drop (j + 1)).sum := List.sum_nonneg fun p hp => hf.1 p (List.mem_of_mem_drop hp)
    linarith

/-- C32: `rls_score` with category numbers is the sum over thresholds of the log scores of the
cumulative probabilities; it is infinite when an excluded threshold event occurs. -/
theorem C32_rls_value {obs : Arr ℕ} {fct : Arr ℝ} {m : ℤ} {k : ℕ}
    (h : Spec.AxisIs m fct.ndim k) (hs : obs.shape = fct.shape.eraseIdx k)
    (hf : ∀ i, Arr.Valid fct.shape i → 0 ≤ fct.get i ∧ fct.get i ≤ 1)
    (hp : ∀ i, Arr.Valid obs.shape i → Spec.IsProb (fct.sliceAt k i))
    (hc : ∀ i, Arr.Valid obs.shape i → 1 ≤ obs.get i) :
    ∃ out, rlsScore (obs.map fun c : ℕ => (c : XF)) (fct.map fin) m false = .ok out ∧
      out.shape = obs.shape ∧
      ∀ i, Arr.Valid obs.shape i → out.get i =
        if ∃ j < fct.shape.getD k 0,
            Spec.probOf (Spec.cum (fct.sliceAt k i) j) (decide (obs.get i ≤ j + 1)) = 0 then pinf
        else fin (Spec.rls (fct.sliceAt k i) (obs.get i)) := by
  obtain ⟨O, F, h1, h2, h3⟩ := categorical_numbers h hs hf
  unfold rlsScore
  simp only [h1, bind, Except.bind]
  refine ⟨_, rfl, ?_, fun i hi => ?_⟩
  · show F.shape.dropLast = _
    rw [h2, List.dropLast_concat, hs]
  · have hl : (fct.sliceAt k i).length = fct.shape.getD k 0 := by simp [Arr.sliceAt]
    dsimp only
    rw [(h3 i hi).1, (h3 i hi).2, ← hl, rls1_hot (cum_mem (hp i hi)) (hc i hi)]

/-- uniform probabilities on two categories for three cases meet the hypotheses -/
example : Spec.AxisIs 1 (⟨[3, 2], fun _ => 1 / 2⟩ : Arr ℝ).ndim 1 ∧
    ∀ i, Spec.IsProb ((⟨[3, 2], fun _ => 1 / 2⟩ : Arr ℝ).sliceAt 1 i) := by
  refine ⟨⟨by simp [Arr.ndim], Or.inl rfl⟩, fun i => ?_⟩
  have : (⟨[3, 2], fun _ => 1 / 2⟩ : Arr ℝ).sliceAt 1 i = [1 / 2, 1 / 2] := by
    simp [Arr.sliceAt, List.range_succ]
  rw [this]
  constructor
  · intro p hp; simp at hp; rw [hp]; norm_num
  · norm_num

theorem cum_strict {f : List ℝ} (hf : Spec.IsProb f) (hpos : ∀ p ∈ f, 0 < p) {j : ℕ}
    (hj : j < f.length) : 0 < Spec.cum f j ∧ (j + 1 < f.length → Spec.cum f j < 1) ∧
      (j + 1 = f.length → Spec.cum f j = 1) := by
  unfold Spec.cum
  refine ⟨?_, fun h => ?_, fun h => ?_⟩
  · apply List.sum_pos _ (fun p hp => hpos p (List.mem_of_mem_take hp))
    intro h
    have := congrArg List.length h
    simp at this
    rcases this with h | h <;> simp_all
  · rw [← hf.2]
    conv_rhs => rw [← List.take_append_drop (j + 1) f, List.sum_append]
    have : 0 < (f.drop (j + 1)).sum := by
      apply List.sum_pos _ (fun p hp => hpos p (List.mem_of_mem_drop hp))
      simp only [ne_eq, List.drop_eq_nil_iff, not_le]
      exact h
    linarith
  · rw [List.take_of_length_le (by omega), hf.2]

theorem rls_vector {f : List ℝ} (hf : Spec.IsProb f) (hpos : ∀ p ∈ f, 0 < p) {c : ℕ} (hc : 1 ≤ c)
    (hcK : c ≤ f.length) :
    ∃ out, rlsScore (Arr.scalar (c : XF)) (Arr.ofList (f.map fin)) (-1) false = .ok out ∧
      out.shape = [] ∧ out.get [] = fin (Spec.rls f c) := by
  obtain ⟨O, F, h1, h2, h3, h4⟩ := cat_vector (fun p hp =>
    ⟨hf.1 p hp, hf.2 ▸ List.single_le_sum hf.1 p hp⟩ : ∀ p ∈ f, 0 ≤ p ∧ p ≤ 1) c
  unfold rlsScore
  simp only [h1, bind, Except.bind]
  refine ⟨_, rfl, by rw [h2]; rfl, ?_⟩
  dsimp only
  rw [h3, h4, rls1_hot (cum_mem hf) hc, if_neg]
  rintro ⟨j, hj, h⟩
  have := cum_strict hf hpos hj
  unfold Spec.probOf at h
  split_ifs at h with hd
  · exact this.1.ne' h
  · have hlt : j + 1 < f.length := by
      simp only [decide_eq_true_eq, not_le] at hd; omega
    linarith [this.2.1 hlt]

/-- C32: the ranked logarithmic score is strictly proper (forecasts giving every category positive
probability; `s c`, `t c` are the scores of `f`, `q` when category `c` occurs). -/
theorem C32_rls_proper {f q : List ℝ} (hlen : f.length = q.length)
    (hf : Spec.IsProb f) (hfp : ∀ p ∈ f, 0 < p) (hq : Spec.IsProb q) (hqp : ∀ p ∈ q, 0 < p) :
    ∃ s t : ℕ → ℝ,
      (∀ c : ℕ, 1 ≤ c → c ≤ q.length →
        ∃ out, rlsScore (Arr.scalar (c : XF)) (Arr.ofList (f.map fin)) (-1) false = .ok out ∧
        out.shape = [] ∧ out.get [] = fin (s c)) ∧
      (∀ c : ℕ, 1 ≤ c → c ≤ q.length →
        ∃ out, rlsScore (Arr.scalar (c : XF)) (Arr.ofList (q.map fin)) (-1) false = .ok out ∧
        out.shape = [] ∧ out.get [] = fin (t c)) ∧
      ∑ c ∈ Finset.range q.length, q.getD c 0 * t (c + 1)
        ≤ ∑ c ∈ Finset.range q.length, q.getD c 0 * s (c + 1) ∧
      (f ≠ q → ∑ c ∈ Finset.range q.length, q.getD c 0 * t (c + 1)
        < ∑ c ∈ Finset.range q.length, q.getD c 0 * s (c + 1)) := by
  refine ⟨Spec.rls f, Spec.rls q, fun c hc hK => rls_vector hf hfp hc (hlen ▸ hK),
    fun c hc hK => rls_vector hq hqp hc hK, ?_⟩
  have key : ∀ g : List ℝ, g.length = q.length →
      ∑ c ∈ Finset.range q.length, q.getD c 0 * Spec.rls g (c + 1) = ∑ j ∈ Finset.range q.length,
        (Spec.cum q j * -Real.log (Spec.cum g j)
          + (1 - Spec.cum q j) * -Real.log (1 - Spec.cum g j)) := by
    intro g hg
    have := expect_threshold q hq.2 q.length rfl
      (fun j o => -Real.log (Spec.probOf (Spec.cum g j) o))
    unfold Spec.rls
    rw [hg, this]
    refine Finset.sum_congr rfl fun j _ => ?_
    simp only [Spec.probOf, if_true, Bool.false_eq_true, if_false]
  have cmp : ∀ j ∈ Finset.range q.length,
      Spec.cum q j * -Real.log (Spec.cum q j) + (1 - Spec.cum q j) * -Real.log (1 - Spec.cum q j)
      ≤ Spec.cum q j * -Real.log (Spec.cum f j) + (1 - Spec.cum q j) * -Real.log (1 - Spec.cum f j) ∧
      (Spec.cum f j ≠ Spec.cum q j →
      Spec.cum q j * -Real.log (Spec.cum q j) + (1 - Spec.cum q j) * -Real.log (1 - Spec.cum q j)
      < Spec.cum q j * -Real.log (Spec.cum f j)
        + (1 - Spec.cum q j) * -Real.log (1 - Spec.cum f j)) := by
    intro j hj
    have hj' := Finset.mem_range.1 hj
    have a := cum_strict hf hfp (hlen ▸ hj')
    have b := cum_strict hq hqp hj'
    by_cases hl : j + 1 = q.length
    · rw [a.2.2 (by rw [hlen]; exact hl), b.2.2 hl]
      exact ⟨le_rfl, fun h => absurd rfl h⟩
    · exact gibbs2 b.1.le (cum_mem hq j).2 a.1 (a.2.1 (by rw [hlen]; omega))
  rw [key f hlen, key q rfl]
  constructor
  · exact Finset.sum_le_sum fun j hj => (cmp j hj).1
  · intro hne
    have : ∃ j, j < q.length ∧ Spec.cum f j ≠ Spec.cum q j := by
      by_contra hc
      push Not at hc
      exact hne (cum_inj hlen hc)
    obtain ⟨j, hj, hjne⟩ := this
    exact Finset.sum_lt_sum (fun j hj => (cmp j hj).1)
      ⟨j, Finset.mem_range.2 hj, (cmp j (Finset.mem_range.2 hj)).2 hjne⟩

/-- two different positive distributions on three categories -/
example : Spec.IsProb [1 / 2, 1 / 4, 1 / 4] ∧ (∀ p ∈ [(1 : ℝ) / 2, 1 / 4, 1 / 4], 0 < p) ∧
    [(1 : ℝ) / 2, 1 / 4, 1 / 4] ≠ [1 / 3, 1 / 3, 1 / 3] := by
  refine ⟨⟨?_, by norm_num⟩, ?_, by norm_num⟩
  all_goals intro p hp; simp at hp; rcases hp with rfl | rfl <;> norm_num

/-- C31, C32: forecasts outside [0, 1] (beyond the tolerance) are rejected. -/
theorem C31_invalid_probability {obs fct : Arr XF}
    (h : ∃ i, Arr.Valid fct.shape i ∧ (fct.get i < 0 ∨ fin (1 + 1 / 100000) < fct.get i))
    (m : ℤ) (onehot : Bool) :
    rpsScore obs fct m onehot = .error .valueError ∧
      rlsScore obs fct m onehot = .error .valueError := by
  have hc : categoricalCheck obs fct m onehot = .error .valueError := by
    unfold categoricalCheck
    rw [if_pos]
    obtain ⟨i, hi, h | h⟩ := h
    · exact Or.inl ⟨i, hi, h⟩
    · exact Or.inr ⟨i, hi, h⟩
  unfold rpsScore rlsScore
  rw [hc]
  exact ⟨rfl, rfl⟩

example : ∃ i, Arr.Valid (⟨[2], fun i => if i = [0] then fin (-1) else fin 2⟩ : Arr XF).shape i ∧
    ((⟨[2], fun i => if i = [0] then fin (-1) else fin 2⟩ : Arr XF).get i < 0 ∨
      fin (1 + 1 / 100000) < (⟨[2], fun i => if i = [0] then fin (-1) else fin 2⟩ : Arr XF).get i) := by
  refine ⟨[0], by simp [Arr.Valid], Or.inl ?_⟩
  simp [zero_fin]

end Verif
