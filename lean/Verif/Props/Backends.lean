import Verif.Model.Backends
import Verif.Lemmas.Pmf
import Verif.Lemmas.CrpsNan
import Verif.Props.LogsDiscrete
import Verif.Lemmas.MvArr

/-!
# C86, C87: the backends agree
-/

noncomputable section

open scoped Classical

namespace Verif

open XF Py Spec

/-! ### C86: gamma functions and binomial coefficients -/

theorem lgamma_pos {x : ℝ} (hx : 0 < x) : XF.lgamma (fin x) = fin (Real.log (Real.Gamma x)) := by
  unfold XF.lgamma
  dsimp only
  rw [if_neg (by rintro ⟨n, rfl⟩; have : (0:ℝ) ≤ n := n.cast_nonneg; linarith),
    abs_of_pos (Real.Gamma_pos_of_pos hx)]

theorem exp_lgamma {x : ℝ} (hx : 0 < x) : XF.exp (XF.lgamma (fin x)) = fin (Real.Gamma x) := by
  rw [lgamma_pos hx, fin_exp, Real.exp_log (Real.Gamma_pos_of_pos hx)]

theorem gamma_pos_eq {x : ℝ} (hx : 0 < x) : XF.gamma (fin x) = fin (Real.Gamma x) := by
  unfold XF.gamma
  dsimp only
  rw [if_neg hx.ne', if_neg (by rintro ⟨n, rfl⟩; have : (0:ℝ) ≤ n := n.cast_nonneg; linarith)]

/-- C86: the torch gamma function, beta function and incomplete gamma functions have the values of the
numpy backend for positive arguments. -/
theorem C86_gamma {x y : ℝ} (hx : 0 < x) (hy : 0 < y) :
    Torch.gamma (fin x) = fin (Real.Gamma x) ∧ XF.gamma (fin x) = fin (Real.Gamma x) ∧
    Torch.beta (fin x) (fin y) = fin (Real.Gamma x * Real.Gamma y / Real.Gamma (x + y)) ∧
    XF.beta (fin x) (fin y) = fin (Real.Gamma x * Real.Gamma y / Real.Gamma (x + y)) ∧
    Torch.gammauinc (fin x) (fin y) = XF.gammauinc (fin x) (fin y) ∧
    Torch.gammalinc (fin x) (fin y) = XF.gammainc (fin x) (fin y) * XF.gamma (fin x) := by
  have gx := Real.Gamma_pos_of_pos hx
  have gy := Real.Gamma_pos_of_pos hy
  have gxy := Real.Gamma_pos_of_pos (add_pos hx hy)
  refine ⟨exp_lgamma hx, gamma_pos_eq hx, ?_, ?_, ?_, ?_⟩
  · unfold Torch.beta
    rw [fin_add, lgamma_pos hx, lgamma_pos hy, lgamma_pos (add_pos hx hy), fin_add, fin_sub, fin_exp,
      Real.exp_sub, Real.exp_add, Real.exp_log gx, Real.exp_log gy, Real.exp_log gxy]
  · unfold XF.beta; dsimp only; rw [if_pos ⟨hx, hy⟩]
  · unfold Torch.gammauinc XF.gammauinc; rw [exp_lgamma hx, gamma_pos_eq hx]
  · unfold Torch.gammalinc; rw [exp_lgamma hx, gamma_pos_eq hx]

example : (0:ℝ) < 1 / 2 ∧ (0:ℝ) < 3 := by norm_num

/-- C86 fails below zero: `exp(lgamma(x))` is the absolute value of the gamma function. -/
theorem C86_gamma_negative :
    XF.gamma (fin (-1 / 2)) = fin (-2 * Real.sqrt Real.pi) ∧ Torch.gamma (fin (-1 / 2)) = fin (2 * Real.sqrt Real.pi) := by
  have hn : ¬ ∃ n : ℕ, (-1 / 2 : ℝ) = -(n : ℝ) := by
    rintro ⟨n, h⟩
    have h2 : (2 * n : ℝ) = 1 := by linarith
    have h3 : 2 * n = 1 := by exact_mod_cast h2
    omega
  have hg : Real.Gamma (-1 / 2) = -2 * Real.sqrt Real.pi := by
    have h := Real.Gamma_add_one (show (-1/2 : ℝ) ≠ 0 by norm_num)
    rw [show (-1/2 : ℝ) + 1 = 1 / 2 by norm_num, Real.Gamma_one_half_eq] at h
    linarith
  have hp : 0 < Real.sqrt Real.pi := Real.sqrt_pos.2 Real.pi_pos
  constructor
  · unfold XF.gamma; dsimp only; rw [if_neg (by norm_num), if_neg hn, hg]
  · unfold Torch.gamma XF.lgamma; dsimp only
    rw [if_neg hn, hg, fin_exp, show -2 * Real.sqrt Real.pi = -(2 * Real.sqrt Real.pi) by ring, abs_neg,
      abs_of_pos (by positivity), Real.exp_log (by positivity)]

theorem lgamma_nat (n : ℕ) : XF.exp (XF.lgamma (fin (n : ℝ) + 1)) = fin (n.factorial : ℝ) := by
  rw [one_def, fin_add, exp_lgamma (by positivity), Real.Gamma_nat_eq_factorial]

/-- C86: factorials of natural numbers, all backends. -/
theorem C86_factorial (b : Bk) (n : ℕ) : b.factorial (fin (n : ℝ)) = fin (n.factorial : ℝ) := by
  cases b
  · show XF.factorial (fin (n : ℝ)) = _
    unfold XF.factorial; dsimp only
    rw [if_neg (not_lt.2 n.cast_nonneg), Real.Gamma_nat_eq_factorial]
  · show Jax.factorial (fin (n : ℝ)) = _
    unfold Jax.factorial
    rw [if_neg (by rw [zero_def, fin_lt]; exact not_lt.2 n.cast_nonneg), lgamma_nat]
  · exact lgamma_nat n

theorem floorDiv_choose {n k : ℕ} (h : k ≤ n) :
    XF.floorDiv (fin (n.factorial : ℝ)) (fin (k.factorial : ℝ) * fin ((n - k).factorial : ℝ))
      = fin (n.choose k : ℝ) := by
  have h0 : (k.factorial : ℝ) * ((n - k).factorial : ℝ) ≠ 0 := by
    exact_mod_cast mul_ne_zero k.factorial_ne_zero (n - k).factorial_ne_zero
  rw [fin_mul]
  unfold XF.floorDiv
  dsimp only
  rw [if_neg h0, ← Nat.cast_choose ℝ h, Int.floor_natCast, Int.cast_natCast]

/-- C86: binomial coefficients of natural numbers `k ≤ n`, all backends. -/
theorem C86_comb (b : Bk) {n k : ℕ} (h : k ≤ n) : b.comb (fin (n : ℝ)) (fin (k : ℝ)) = fin (n.choose k : ℝ) := by
  cases b
  · exact comb_nat n k
  · have e := C86_factorial .jax
    show XF.floorDiv (Bk.jax.factorial _) (Bk.jax.factorial _ * Bk.jax.factorial _) = _
    rw [fin_sub, ← Nat.cast_sub h, e, e, e, floorDiv_choose h]
  · have e := C86_factorial .torch
    show XF.floorDiv (Bk.torch.factorial _) (Bk.torch.factorial _ * Bk.torch.factorial _) = _
    rw [fin_sub, ← Nat.cast_sub h, e, e, e, floorDiv_choose h]

example : 3 ≤ 7 := by norm_num

/-- C86: for `k > n` numpy and torch give zero. -/
theorem C86_comb_above {b : Bk} (hb : b ≠ .jax) {n k : ℕ} (h : n < k) :
    b.comb (fin (n : ℝ)) (fin (k : ℝ)) = fin 0 := by
  cases b
  · show XF.comb (fin (n : ℝ)) (fin (k : ℝ)) = _
    rw [comb_nat, Nat.choose_eq_zero_of_lt h, Nat.cast_zero]
  · exact absurd rfl hb
  · have e := C86_factorial .torch
    have e2 : Torch.factorial (fin ((n:ℝ) - k)) = pinf := by
      unfold Torch.factorial XF.lgamma
      rw [one_def, fin_add]
      dsimp only
      rw [if_pos ⟨k - n - 1, by rw [Nat.cast_sub (by omega), Nat.cast_sub h.le]; push_cast; ring⟩]
      rfl
    show XF.floorDiv (Bk.torch.factorial _) (Bk.torch.factorial _ * Torch.factorial _) = _
    rw [fin_sub, e2, e, e]
    have hk : (0:ℝ) < k.factorial := by exact_mod_cast k.factorial_pos
    have : fin (k.factorial : ℝ) * pinf = pinf := by rw [fin_mul_pinf]; simp [infMul, hk.ne', hk]
    rw [this]
    unfold XF.floorDiv
    dsimp only
    rw [if_pos (Nat.cast_nonneg _)]

example : Bk.torch ≠ .jax ∧ 3 < 4 := by simp

/-- C86 fails on jax for `k > n`: the coefficient is NaN instead of zero. -/
theorem C86_comb_jax {n k : ℕ} (h : n < k) : Bk.jax.comb (fin (n : ℝ)) (fin (k : ℝ)) = nan := by
  have e := C86_factorial .jax
  have e2 : Jax.factorial (fin ((n:ℝ) - k)) = fin 0 := by
    unfold Jax.factorial
    rw [if_pos (by rw [zero_def, fin_lt]; have : (n:ℝ) < k := by exact_mod_cast h
                   linarith), zero_def]
  show XF.floorDiv (Bk.jax.factorial _) (Bk.jax.factorial _ * Jax.factorial _) = _
  rw [fin_sub, e2, e, e, fin_mul, mul_zero]
  unfold XF.floorDiv
  dsimp only
  rw [if_pos rfl]

/-- C86 fails on jax and torch for a first argument that is not an integer: the coefficient is rounded
down. -/
theorem C86_comb_real : XF.comb (fin (5 / 2)) (fin 1) = fin (5 / 2) ∧ Bk.jax.comb (fin (5 / 2)) (fin 1) = fin 2 ∧
    Bk.torch.comb (fin (5 / 2)) (fin 1) = fin 2 := by
  have g : Real.Gamma (5 / 2 + 1) = 5 / 2 * Real.Gamma (5 / 2) := Real.Gamma_add_one (by norm_num)
  have g0 : 0 < Real.Gamma (5 / 2) := Real.Gamma_pos_of_pos (by norm_num)
  have t : ∀ x : ℝ, 0 ≤ x → XF.exp (XF.lgamma (fin x + 1)) = fin (Real.Gamma (x + 1)) := fun x hx => by
    rw [one_def, fin_add, exp_lgamma (by positivity)]
  have j : ∀ x : ℝ, 0 ≤ x → Jax.factorial (fin x) = fin (Real.Gamma (x + 1)) := fun x hx => by
    unfold Jax.factorial
    rw [if_neg (by rw [zero_def, fin_lt]; exact not_lt.2 hx), t x hx]
  have g1 : Real.Gamma (1 + 1) = 1 := by
    have := Real.Gamma_nat_eq_factorial 1
    simpa using this
  have q : ∀ f : XF → XF, (∀ x : ℝ, 0 ≤ x → f (fin x) = fin (Real.Gamma (x + 1))) →
      XF.floorDiv (f (fin (5 / 2))) (f (fin 1) * f (fin (5 / 2) - fin 1)) = fin 2 := by
    intro f hf
    rw [fin_sub, hf _ (by norm_num), hf _ (by norm_num), hf _ (by norm_num), g1, g,
      show (5 / 2 - 1 + 1 : ℝ) = 5 / 2 by norm_num, fin_mul, one_mul]
    unfold XF.floorDiv
    dsimp only
    rw [if_neg g0.ne', mul_div_assoc, div_self g0.ne', mul_one]
    have : ⌊(5 / 2 : ℝ)⌋ = 2 := by rw [Int.floor_eq_iff]; norm_num
    rw [this]; norm_num
  refine ⟨?_, q _ j, q _ t⟩
  unfold XF.comb
  dsimp only
  rw [if_pos (by norm_num), g1, g, show (5 / 2 - 1 + 1 : ℝ) = 5 / 2 by norm_num, one_mul, mul_div_assoc,
    div_self g0.ne', mul_one]

/-! ### consequences for the scores -/

/-- What is proved of C86 for the scores: with integer size the log score of the negative binomial
distribution agrees on all backends.  Missing: sizes that are not integers (`C86_negbinom_false`). -/
theorem C86_negbinom_partial (b : Bk) {r : ℕ} (hr : 1 ≤ r) (k : ℕ) (p : XF) :
    b.logsNegbinom (fin (k : ℝ)) (fin (r : ℝ)) p = Logs.negbinom (fin (k : ℝ)) (fin (r : ℝ)) p := by
  have hk : ¬ (fin (k : ℝ) < (0 : XF)) := by rw [zero_def, fin_lt]; exact not_lt.2 k.cast_nonneg
  have hf : XF.feq (XF.floor (fin (k : ℝ))) (fin (k : ℝ)) := by
    simp [XF.floor]
  have hc : b.comb (fin (r : ℝ) + fin (k : ℝ) - 1) (fin (k : ℝ)) = XF.comb (fin (r : ℝ) + fin (k : ℝ) - 1) (fin (k : ℝ)) := by
    have : fin (r : ℝ) + fin (k : ℝ) - 1 = fin ((r + k - 1 : ℕ) : ℝ) := by
      rw [one_def, fin_add, fin_sub, Nat.cast_sub (by omega)]; push_cast; rfl
    rw [this, C86_comb b (by omega), comb_nat]
  unfold Bk.logsNegbinom Logs.negbinom Bk.negbinomPdf Stats.negbinomPdf
  simp only [hk, hf, not_true_eq_false, or_self, if_false, hc]

example : 1 ≤ 7 := by norm_num

/-- C86 fails for the negative binomial log score with size 5/2: numpy gives the logarithm of
`5/2 p^(5/2) (1-p)`, jax and torch that of `2 p^(5/2) (1-p)`. -/
theorem C86_negbinom_false {b : Bk} (hb : b ≠ .numpy) :
    b.logsNegbinom (fin 1) (fin (5 / 2)) (fin (1 / 2)) = fin (-Real.log (2 * (1 / 2) ^ (5 / 2 : ℝ) * (1 / 2))) ∧
    Logs.negbinom (fin 1) (fin (5 / 2)) (fin (1 / 2)) = fin (-Real.log (5 / 2 * (1 / 2) ^ (5 / 2 : ℝ) * (1 / 2))) ∧
    -Real.log (5 / 2 * (1 / 2) ^ (5 / 2 : ℝ) * (1 / 2)) < -Real.log (2 * (1 / 2) ^ (5 / 2 : ℝ) * (1 / 2)) := by
  have hk : ¬ (fin (1 : ℝ) < (0 : XF)) := by rw [zero_def, fin_lt]; norm_num
  have hf : XF.feq (XF.floor (fin (1 : ℝ))) (fin (1 : ℝ)) := by
    simp [XF.floor]
  have hl : ¬ (XF.floor (XF.abs (fin 1)) < XF.abs (fin (1:ℝ))) := by
    simp [XF.floor]
  have ha : fin (5 / 2) + fin 1 - 1 = fin (5 / 2) := by rw [one_def, fin_add, fin_sub]; norm_num
  have hc : b.comb (fin (5 / 2)) (fin 1) = fin 2 := by
    obtain ⟨-, h1, h2⟩ := C86_comb_real
    cases b
    · exact absurd rfl hb
    · exact h1
    · exact h2
  have hq : (1 : XF) - fin (1 / 2) = fin (1 / 2) := by rw [one_def, fin_sub]; norm_num
  have hpos : (0:ℝ) < (1 / 2) ^ (5 / 2 : ℝ) := by positivity
  refine ⟨?_, ?_, ?_⟩
  · unfold Bk.logsNegbinom Bk.negbinomPdf
    simp only [hk, hf, not_true_eq_false, or_self, if_false, hl, ha, hc, hq]
    rw [pow_fin_pos (by norm_num), pow_fin_pos (by norm_num), fin_mul, fin_mul, Real.rpow_one,
      fin_log (by positivity), fin_neg]
  · unfold Logs.negbinom Stats.negbinomPdf
    simp only [hk, hf, not_true_eq_false, or_self, if_false, hl, ha, C86_comb_real.1, hq]
    rw [pow_fin_pos (by norm_num), pow_fin_pos (by norm_num), fin_mul, fin_mul, Real.rpow_one,
      fin_log (by positivity), fin_neg]
  · apply neg_lt_neg
    apply Real.log_lt_log (by positivity)
    nlinarith

example : Bk.torch ≠ .numpy ∧ Bk.jax ≠ .numpy := by simp

/-- C86: the binomial mass function agrees on all backends for `k ≤ n`. -/
theorem C86_binomial (b : Bk) {n k : ℕ} (h : k ≤ n) (p : XF) :
    b.logsBinomial (fin (k : ℝ)) (fin (n : ℝ)) p = Logs.binomial (fin (k : ℝ)) (fin (n : ℝ)) p := by
  have hk : ¬ (fin (k : ℝ) < (0 : XF)) := by rw [zero_def, fin_lt]; exact not_lt.2 k.cast_nonneg
  unfold Bk.logsBinomial Logs.binomial Bk.binomPdf Stats.binomPdf
  simp only [hk, if_false]
  rw [C86_comb b h, comb_nat]

example : 3 ≤ 7 := by norm_num

/-- C86 fails on jax: an observation above `n` has log score NaN. -/
theorem C86_binomial_jax {n k : ℕ} (h : n < k) (p : XF) :
    Bk.jax.logsBinomial (fin (k : ℝ)) (fin (n : ℝ)) p = nan := by
  have hk : ¬ (fin (k : ℝ) < (0 : XF)) := by rw [zero_def, fin_lt]; exact not_lt.2 k.cast_nonneg
  unfold Bk.logsBinomial Bk.binomPdf
  simp only [hk, if_false]
  rw [C86_comb_jax h, nan_mul, nan_mul]
  rfl

example : 3 < 7 := by norm_num

/-- C86 fails on jax: whenever there are fewer success than failure states the hypergeometric CRPS is NaN,
for every observation and number of draws. -/
theorem C86_hypergeometric_jax (y : XF) {m n : ℕ} (h : m < n) (K : ℕ) :
    Bk.jax.hypergeometric y m n K = nan := by
  unfold Bk.hypergeometric
  dsimp only
  rw [sum_range_nan (i := m + 1) (by omega)]
  · exact mul_nan _
  · have : Bk.jax.hypergeoPdf (fin ((m + 1 : ℕ) : ℝ)) (fin (m : ℝ) + fin (n : ℝ)) (fin (m : ℝ)) (fin (K : ℝ)) = nan := by
      unfold Bk.hypergeoPdf
      dsimp only
      rw [C86_comb_jax (Nat.lt_succ_self m), mul_nan, nan_mul, nan_div]
    rw [this, nan_mul, nan_mul]

example : 3 < 7 := by norm_num

/-- The numpy models used elsewhere are the numpy case. -/
theorem C86_numpy (k n p M N : XF) (y : XF) (a c d : ℕ) :
    Bk.numpy.binomPdf k n p = Stats.binomPdf k n p ∧ Bk.numpy.hypergeoPdf k M n N = Stats.hypergeoPdf k M n N ∧
      Bk.numpy.negbinomPdf k n p = Stats.negbinomPdf k n p ∧ Bk.numpy.poisPdf k n = Stats.poisPdf k n ∧
      Bk.numpy.hypergeometric y a c d = Closed.hypergeometric y a c d :=
  ⟨rfl, rfl, rfl, rfl, rfl⟩

/-- C86: the Poisson mass function agrees on all backends at the natural numbers. -/
theorem C86_poisson (b : Bk) (k : ℕ) (mean : XF) : b.poisPdf (fin (k : ℝ)) mean = Stats.poisPdf (fin (k : ℝ)) mean := by
  have e : XF.abs (fin (k : ℝ)) = fin (k : ℝ) := by rw [fin_abs, abs_of_nonneg k.cast_nonneg]
  have e1 := C86_factorial b k
  have e2 : XF.factorial (fin (k : ℝ)) = fin (k.factorial : ℝ) := C86_factorial .numpy k
  unfold Bk.poisPdf Stats.poisPdf
  simp only [e, e1, e2]

/-! ### C87: functions of one vector along the last axis -/

/-- What is proved of C87: if `torch.vmap` accepts the function, torch applies it to every slice along the
last axis, as numpy does.  Missing: functions that `vmap` refuses (`C87_false`). -/
theorem C87_partial (f : List XF → XF) (x : Arr XF) {s : List ℕ} {n : ℕ} (hs : x.shape = s ++ [n]) :
    (Bk.applyLastTorch true f x).shape = s ∧ (∀ i, (Bk.applyLastTorch true f x).get i = f (x.row i)) ∧
    (Bk.applyLastNumpy f x).shape = s ∧ ∀ i, (Bk.applyLastNumpy f x).get i = f (x.row i) := by
  unfold Bk.applyLastTorch Bk.applyLastNumpy
  rw [if_pos rfl]
  simp [hs]

/-- C87 fails: for the sum of a two by two array the fallback sums the columns, not the rows. -/
theorem C87_false : let x : Arr XF := Arr.ofRows 2 [[fin 1, fin 2], [fin 3, fin 4]]
    (Bk.applyLastTorch false List.sum x).get [0] = fin 4 ∧ (Bk.applyLastNumpy List.sum x).get [0] = fin 3 := by
  constructor
  · simp [Bk.applyLastTorch, Arr.ofRows, List.range_succ]
    norm_num
  · simp [Bk.applyLastNumpy, Arr.ofRows, Arr.row, List.range_succ]
    norm_num

/-- C87: with one row per case and `D` variables the fallback returns `D` values, so that even the shape is
wrong unless `N = D`. -/
theorem C87_fallback_shape (f : List XF → XF) (x : Arr XF) {N D : ℕ} (hs : x.shape = [N, D]) :
    (Bk.applyLastTorch false f x).shape = [D] ∧ (Bk.applyLastNumpy f x).shape = [N] := by
  simp [Bk.applyLastTorch, Bk.applyLastNumpy, hs]

/-- The hypotheses of the theorems above hold for, e.g., `x = 1/2`, `y = 3`, `5` choose `2` (and `2` choose `5` for
the coefficients above the diagonal), and an array of shape `(2, 3)`. -/
example : Torch.gamma (fin (1 / 2)) = fin (Real.Gamma (1 / 2)) ∧ Bk.torch.comb (fin ((5 : ℕ) : ℝ)) (fin ((2 : ℕ) : ℝ)) = fin ((10 : ℕ) : ℝ) ∧
    Bk.torch.comb (fin ((2 : ℕ) : ℝ)) (fin ((5 : ℕ) : ℝ)) = fin 0 ∧ Bk.jax.comb (fin ((2 : ℕ) : ℝ)) (fin ((5 : ℕ) : ℝ)) = nan ∧
    (∀ p, Bk.jax.logsNegbinom (fin ((2 : ℕ) : ℝ)) (fin ((3 : ℕ) : ℝ)) p = Logs.negbinom (fin ((2 : ℕ) : ℝ)) (fin ((3 : ℕ) : ℝ)) p) ∧
    (Bk.applyLastTorch true List.sum (Arr.ofRows 3 [[fin 1, fin 2, fin 3], [fin 4, fin 5, fin 6]])).shape = [2] :=
  ⟨(C86_gamma (y := 3) (by norm_num) (by norm_num)).1, C86_comb .torch (by norm_num : 2 ≤ 5),
    C86_comb_above (by simp) (by norm_num), C86_comb_jax (by norm_num),
    fun p => C86_negbinom_partial .jax (by norm_num) 2 p,
    (C87_partial (s := [2]) (n := 3) List.sum _ rfl).1⟩

end Verif
