import Verif.Model.TorchConst
import Verif.Props.Comb32
import Verif.Props.Logs
import Verif.Props.Closed
import Verif.Lemmas.Sorting
import Mathlib.Analysis.Real.Pi.Irrational
import Mathlib.Analysis.Real.Pi.Bounds

/-!
# C139: double precision data on torch

Constants and default weights are single precision tensors, whatever the precision of the data.
-/

noncomputable section

open scoped Classical

namespace Verif

open XF Stats Spec Py

variable {r : ℝ → XF}

/-! ### the constants -/

theorem sqrt_between {x a b : ℝ} (ha : 0 ≤ a) (hb : 0 < b) (h1 : a ^ 2 < x) (h2 : x < b ^ 2) :
    a < Real.sqrt x ∧ Real.sqrt x < b :=
  ⟨(Real.lt_sqrt ha).2 h1, (Real.sqrt_lt' hb).2 h2⟩

/-- `torch.pi` in single precision -/
theorem Tc.pi_eq (hr : Nearest32 r) : Tc.pi r = fin (13176795 / 2 ^ 22) := by
  have p1 := Real.pi_gt_d6
  have p2 := Real.pi_lt_d6
  have q1 := Real.pi_gt_d20
  have q2 := Real.pi_lt_d20
  have := hr.eq (a := Real.pi) 1 13176795 (by norm_num) (by norm_num) (by norm_num; linarith) (by norm_num; linarith)
    (by rw [abs_lt]; norm_num; constructor <;> linarith)
  unfold Tc.pi
  show r Real.pi = _
  rw [this]; norm_num

theorem Tc.normConst_eq (hr : Nearest32 r) : Tc.normConst r = fin (13386282 / 2 ^ 25) := by
  unfold Tc.normConst
  rw [Tc.pi_eq hr]
  have h1 : Rnd.rd r (2 * fin (13176795 / 2 ^ 22)) = fin (13176795 / 2 ^ 21) := by
    rw [XF.ofNat_def, fin_mul]
    have := hr.eq (a := 2 * (13176795 / 2 ^ 22)) 2 13176795 (by norm_num) (by norm_num) (by norm_num) (by norm_num)
      (by rw [abs_lt]; norm_num)
    show r _ = _
    rw [this]; norm_num
  rw [h1, fin_sqrt (by norm_num)]
  obtain ⟨s1, s2⟩ := sqrt_between (x := 13176795 / 2 ^ 21) (a := 2.50662830) (b := 2.50662832) (by norm_num)
    (by norm_num) (by norm_num) (by norm_num)
  have h2 : Rnd.rd r (fin (Real.sqrt (13176795 / 2 ^ 21))) = fin (10513561 / 2 ^ 22) := by
    have := hr.eq (a := Real.sqrt (13176795 / 2 ^ 21)) 1 10513561 (by norm_num) (by norm_num)
      (by norm_num at s1 ⊢; linarith) (by norm_num at s2 ⊢; linarith)
      (by rw [abs_lt]; norm_num at s1 s2 ⊢; constructor <;> linarith)
    show r _ = _
    rw [this]; norm_num
  rw [h2, XF.one_def, fin_div (by norm_num)]
  have := hr.eq (a := 1 / (10513561 / 2 ^ 22)) (-2) 13386282 (by norm_num) (by norm_num) (by norm_num) (by norm_num)
    (by rw [abs_lt]; norm_num)
  show r _ = _
  rw [this]; norm_num

theorem Tc.sqrtPi_eq (hr : Nearest32 r) :
    Rnd.rd r (1 / Rnd.rd r (XF.sqrt (Tc.pi r))) = fin (9465530 / 2 ^ 24) := by
  rw [Tc.pi_eq hr, fin_sqrt (by norm_num)]
  obtain ⟨s1, s2⟩ := sqrt_between (x := 13176795 / 2 ^ 22) (a := 1.77245387) (b := 1.77245388) (by norm_num)
    (by norm_num) (by norm_num) (by norm_num)
  have h2 : Rnd.rd r (fin (Real.sqrt (13176795 / 2 ^ 22))) = fin (14868421 / 2 ^ 23) := by
    have := hr.eq (a := Real.sqrt (13176795 / 2 ^ 22)) 0 14868421 (by norm_num) (by norm_num)
      (by norm_num at s1 ⊢; linarith) (by norm_num at s2 ⊢; linarith)
      (by rw [abs_lt]; norm_num at s1 s2 ⊢; constructor <;> linarith)
    show r _ = _
    rw [this]; norm_num
  rw [h2, XF.one_def, fin_div (by norm_num)]
  have := hr.eq (a := 1 / (14868421 / 2 ^ 23)) (-1) 9465530 (by norm_num) (by norm_num) (by norm_num) (by norm_num)
    (by rw [abs_lt]; norm_num)
  show r _ = _
  rw [this]; norm_num

theorem Tc.sqrtTwo_eq (hr : Nearest32 r) : Rnd.rd r (XF.sqrt 2) = fin (11863283 / 2 ^ 23) := by
  rw [sqrt2_fin]
  obtain ⟨s1, s2⟩ := sqrt_between (x := 2) (a := 1.41421356) (b := 1.41421357) (by norm_num)
    (by norm_num) (by norm_num) (by norm_num)
  have := hr.eq (a := Real.sqrt 2) 0 11863283 (by norm_num) (by norm_num)
    (by norm_num) (by norm_num)
    (by rw [abs_lt]; norm_num at s1 s2 ⊢; constructor <;> linarith)
  show r _ = _
  rw [this]; norm_num

/-- the constant of the density is larger than `1 / sqrt(2 pi)` by the factor `1 + 2.8e-8` -/
theorem normConst_ratio : 1 + 2 / 10 ^ 8 ≤ 13386282 / 2 ^ 25 * Real.sqrt (2 * Real.pi) ∧
    13386282 / 2 ^ 25 * Real.sqrt (2 * Real.pi) ≤ 1 + 4 / 10 ^ 8 := by
  have q1 := Real.pi_gt_d20
  have q2 := Real.pi_lt_d20
  obtain ⟨s1, s2⟩ := sqrt_between (x := 2 * Real.pi) (a := 2.506628274) (b := 2.506628275) (by norm_num)
    (by norm_num) (by norm_num; linarith) (by norm_num; linarith)
  norm_num at s1 s2 ⊢
  constructor <;> linarith

theorem Tc.normPdf_fin (hr : Nearest32 r) (x : ℝ) :
    Tc.normPdf r (fin x) = fin (13386282 / 2 ^ 25 * Real.sqrt (2 * Real.pi) * φ x) := by
  unfold Tc.normPdf φ
  rw [Tc.normConst_eq hr]
  simp only [XF.ofNat_def, fin_pow, fin_neg]
  rw [fin_div (by norm_num), fin_exp, fin_mul]
  have : Real.sqrt (2 * Real.pi) ≠ 0 := (Real.sqrt_pos.2 (by positivity)).ne'
  congr 1
  field_simp

/-- C139 is false of `logs_normal` on torch: the score of double precision data is smaller than the negative logarithm of
the density by a constant between 1e-8 and 1e-7, whatever the observation and the parameters. -/
theorem C139_logs_normal_false (hr : Nearest32 r) :
    ∃ d : ℝ, 1 / 10 ^ 8 ≤ d ∧ d ≤ 1 / 10 ^ 7 ∧ ∀ y μ σ : ℝ, 0 < σ →
      Tc.logsNormal r (fin y) (fin μ) (fin σ) = fin (-Real.log (densNormal μ σ y) - d) := by
  obtain ⟨c1, c2⟩ := normConst_ratio
  refine ⟨Real.log (13386282 / 2 ^ 25 * Real.sqrt (2 * Real.pi)), ?_, ?_, ?_⟩
  · have := Real.one_sub_inv_le_log_of_pos (x := 13386282 / 2 ^ 25 * Real.sqrt (2 * Real.pi)) (by positivity)
    refine le_trans ?_ this
    have h := inv_anti₀ (by norm_num) c1
    norm_num at h ⊢
    linarith
  · have := Real.log_le_sub_one_of_pos (x := 13386282 / 2 ^ 25 * Real.sqrt (2 * Real.pi)) (by positivity)
    norm_num at this c2 ⊢
    linarith
  · intro y μ σ hσ
    have hd : 0 < φ ((y - μ) / σ) / σ := div_pos (φ_pos _) hσ
    have hc : 0 < 13386282 / 2 ^ 25 * Real.sqrt (2 * Real.pi) := by positivity
    unfold Tc.logsNormal densNormal
    simp only [fin_sub, fin_div hσ.ne', Tc.normPdf_fin hr, XF.one_def, fin_neg]
    rw [mul_div_assoc, fin_log (mul_pos hc hd), fin_mul, Real.log_mul hc.ne' hd.ne']
    congr 1; ring

example : ∃ d : ℝ, 1 / 10 ^ 8 ≤ d ∧ Tc.logsNormal rn32 (fin 3) (fin 2) (fin 1) = fin (-Real.log (densNormal 2 1 3) - d) := by
  obtain ⟨d, h1, _, h2⟩ := C139_logs_normal_false rn32_nearest
  exact ⟨d, h1, h2 3 2 1 one_pos⟩

/-! ### default weights -/

/-- the default weight of `M` components is a binary fraction near `1 / M` -/
theorem Nearest32.weight (hr : Nearest32 r) {M : ℕ} (h1 : 1 ≤ M) (h2 : M ≤ 2 ^ 24) :
    ∃ (w : ℝ) (n k : ℕ), Tc.weight r M = fin w ∧ w = n / 2 ^ k ∧ 0 < w ∧ |M * w - 1| ≤ 1 / 2 ^ 23 := by
  have M1 : (1:ℝ) ≤ M := by exact_mod_cast h1
  have M2 : (M:ℝ) ≤ 2 ^ 24 := by exact_mod_cast h2
  have Mp : (0:ℝ) < M := by linarith
  have hlow : (2:ℝ) ^ (-126 : ℤ) ≤ 1 / M := by
    rw [le_div_iff₀ Mp]
    have : (2:ℝ) ^ (-126 : ℤ) * M ≤ (2:ℝ) ^ (-126 : ℤ) * 2 ^ 24 := mul_le_mul_of_nonneg_left M2 (by positivity)
    refine this.trans (by norm_num)
  obtain ⟨b1, b2, b3⟩ := binade hlow
  have hle : Int.log 2 (1 / (M:ℝ)) ≤ 0 := by
    by_contra hc
    push Not at hc
    have : (2:ℝ) ^ (1:ℤ) ≤ (2:ℝ) ^ Int.log 2 (1 / (M:ℝ)) := zpow_le_zpow_right₀ (by norm_num) hc
    have h3 : 1 / (M:ℝ) ≤ 1 := by rw [div_le_one Mp]; exact M1
    norm_num at this
    norm_num at b2 h3
    linarith
  obtain ⟨n, hn, herr⟩ := hr.grid b1 (by omega) b2 b3
  generalize Int.log 2 (1 / (M:ℝ)) = e at *
  have e24 : (2:ℝ) ^ (e - 24) = (2:ℝ) ^ e / 2 ^ 24 := by
    rw [zpow_sub₀ two_ne_zero]; norm_cast
  have hab := abs_le.1 herr
  have hupos := two_zpow_pos (e - 23)
  have hepos := two_zpow_pos e
  rw [e24] at hab
  have hw0 : 0 < n * (2:ℝ) ^ (e - 23) := by
    have : (2:ℝ) ^ e / 2 ^ 24 < (2:ℝ) ^ e := by rw [div_lt_iff₀ (by norm_num)]; norm_num; linarith
    linarith [hab.2]
  have hn0 : 0 < n := by
    have := (mul_pos_iff_of_pos_right hupos).1 hw0
    exact_mod_cast this
  obtain ⟨k, hk⟩ := Int.eq_ofNat_of_zero_le (show 0 ≤ 23 - e by omega)
  obtain ⟨n', rfl⟩ := Int.eq_ofNat_of_zero_le hn0.le
  refine ⟨_, n', k, ?_, ?_, hw0, ?_⟩
  · unfold Tc.weight
    rw [XF.one_def, show ((M : ℕ) : XF) = fin (M : ℝ) from rfl, fin_div Mp.ne']
    exact hn
  · rw [show e - 23 = -(k:ℤ) by omega, zpow_neg, zpow_natCast]
    push_cast
    ring
  · have hm : (M:ℝ) * (2:ℝ) ^ e ≤ 1 := by rw [le_div_iff₀ Mp] at b2; linarith
    have h3 : |(M:ℝ) * (↑(n':ℤ) * (2:ℝ) ^ (e - 23)) - 1| = M * |1 / (M:ℝ) - ↑(n':ℤ) * (2:ℝ) ^ (e - 23)| := by
      rw [← abs_of_pos Mp, ← abs_mul, abs_of_pos Mp, abs_sub_comm]
      congr 1
      field_simp
    rw [h3]
    refine (mul_le_mul_of_nonneg_left herr Mp.le).trans ?_
    rw [e24]
    have : (M:ℝ) * ((2:ℝ) ^ e / 2 ^ 24) = (M * (2:ℝ) ^ e) / 2 ^ 24 := by ring
    rw [this]
    norm_num
    linarith

/-- The default weights of `M` components add up to one only if `M` is a power of two. -/
theorem C139_weights_false (hr : Nearest32 r) {M : ℕ} (h1 : 1 ≤ M) (h2 : M ≤ 2 ^ 24) :
    ∃ w : ℝ, Tc.weight r M = fin w ∧ (M * w = 1 ↔ ∃ j, M = 2 ^ j) := by
  obtain ⟨w, n, k, hw, he, h0, -⟩ := hr.weight h1 h2
  refine ⟨w, hw, fun h => ?_, ?_⟩
  · rw [he, mul_div_assoc', div_eq_one_iff_eq (by positivity)] at h
    have h' : M * n = 2 ^ k := by exact_mod_cast h
    obtain ⟨j, -, hj⟩ := (Nat.dvd_prime_pow Nat.prime_two).1 ⟨n, h'.symm⟩
    exact ⟨j, hj⟩
  · rintro ⟨j, rfl⟩
    have hj : j ≤ 24 := (Nat.pow_le_pow_iff_right (by norm_num)).1 h2
    have := hr.half_pow (c := 1) (k := j) (by norm_num) (by omega)
    unfold Tc.weight at hw
    rw [XF.one_def, show (((2 ^ j : ℕ) : ℕ) : XF) = fin ((2 ^ j : ℕ) : ℝ) from rfl, fin_div (by positivity)] at hw
    have hw' : r (((1:ℕ):ℝ) / 2 ^ j) = fin w := by
      rw [← hw]; push_cast; rfl
    rw [this, fin_inj] at hw'
    rw [← hw']
    push_cast
    field_simp

example : ∃ w : ℝ, Tc.weight rn32 3 = fin w ∧ (3:ℕ) * w ≠ 1 := by
  obtain ⟨w, h1, h2⟩ := C139_weights_false rn32_nearest (M := 3) (by norm_num) (by norm_num)
  refine ⟨w, h1, fun h => ?_⟩
  obtain ⟨j, hj⟩ := h2.1 h
  rcases j with _ | _ | j
  · norm_num at hj
  · norm_num at hj
  · rw [pow_succ, pow_succ] at hj; omega

/-- the density of the mixture with the constants of torch -/
theorem Tc.mixnorm_prob (hr : Nearest32 r) {w : ℝ} (l : List (ℝ × ℝ)) (y : ℝ) (hs : ∀ p ∈ l, 0 < p.2) :
    (zip2 (· * ·) ((l.map fun p => fin p.1).map fun _ => fin w)
      (zip2 (fun zi si => Tc.normPdf r zi / si)
        (zip2 (fun mi si => (fin y - mi) / si) (l.map fun p => fin p.1) (l.map fun p => fin p.2))
        (l.map fun p => fin p.2))).sum
      = fin (w * (13386282 / 2 ^ 25 * Real.sqrt (2 * Real.pi)) * (l.map fun p => densNormal p.1 p.2 y).sum) := by
  induction l with
  | nil => simp [Py.zip2, XF.zero_def]
  | cons p t ih =>
    have hp := hs p List.mem_cons_self
    have ih := ih fun q hq => hs q (List.mem_cons_of_mem _ hq)
    simp only [Py.zip2, List.map_cons, List.zipWith_cons_cons, List.sum_cons] at ih ⊢
    rw [ih]
    simp only [fin_sub, fin_div hp.ne', Tc.normPdf_fin hr, fin_mul, fin_add, densNormal]
    congr 1; ring

/-- C139 is false of `logs_mixnorm` with default weights on torch (and of `logs_ensemble`, which calls the same function
with the same weights): for every number of components the score of double precision data differs from the negative
logarithm of the density by a constant that is not zero, whatever the observation and the components. -/
theorem C139_logs_mixnorm_false (hr : Nearest32 r) {M : ℕ} (h1 : 1 ≤ M) (h2 : M ≤ 2 ^ 24) :
    ∃ d : ℝ, d ≠ 0 ∧ |d| ≤ 1 / 10 ^ 6 ∧ ∀ (l : List (ℝ × ℝ)) (y : ℝ), l.length = M → (∀ p ∈ l, 0 < p.2) →
      Tc.logsMixnorm r (fin y) (l.map fun p => fin p.1) (l.map fun p => fin p.2)
        = fin (-Real.log ((l.map fun p => densNormal p.1 p.2 y).sum / M) - d) := by
  obtain ⟨w, n, k, hw, he, h0, herr⟩ := hr.weight h1 h2
  obtain ⟨c1, c2⟩ := normConst_ratio
  have Mp : (0:ℝ) < M := by exact_mod_cast h1
  have hC : 0 < 13386282 / 2 ^ 25 * Real.sqrt (2 * Real.pi) := by positivity
  have hX : 0 < M * w * (13386282 / 2 ^ 25 * Real.sqrt (2 * Real.pi)) := by positivity
  have hirr : M * w * (13386282 / 2 ^ 25 * Real.sqrt (2 * Real.pi)) ≠ 1 := by
    intro h
    have h3 : (M * w * (13386282 / 2 ^ 25)) ^ 2 * (2 * Real.pi) = 1 := by
      have : (M * w * (13386282 / 2 ^ 25)) ^ 2 * (2 * Real.pi)
          = (M * w * (13386282 / 2 ^ 25 * Real.sqrt (2 * Real.pi))) ^ 2 := by
        rw [← mul_assoc (M * w), mul_pow _ (Real.sqrt _), Real.sq_sqrt (by positivity)]
      rw [this, h, one_pow]
    apply irrational_pi
    refine ⟨1 / (2 * ((M:ℚ) * (n / 2 ^ k) * (13386282 / 2 ^ 25)) ^ 2), ?_⟩
    push_cast
    rw [← he]
    have hx : (M * w * (13386282 / 2 ^ 25)) ^ 2 ≠ 0 := by positivity
    rw [div_eq_iff (by positivity)]
    linarith
  have e1 := abs_le.1 herr
  have b1 : 1 - 5 / 10 ^ 7 ≤ M * w * (13386282 / 2 ^ 25 * Real.sqrt (2 * Real.pi)) := by
    have : (1 - 1 / 2 ^ 23) * 1 ≤ M * w * (13386282 / 2 ^ 25 * Real.sqrt (2 * Real.pi)) :=
      mul_le_mul (by linarith [e1.1]) (le_trans (by norm_num) c1) (by norm_num) (by positivity)
    refine le_trans (by norm_num) this
  have b2 : M * w * (13386282 / 2 ^ 25 * Real.sqrt (2 * Real.pi)) ≤ 1 + 5 / 10 ^ 7 := by
    have : M * w * (13386282 / 2 ^ 25 * Real.sqrt (2 * Real.pi)) ≤ (1 + 1 / 2 ^ 23) * (1 + 4 / 10 ^ 8) :=
      mul_le_mul (by linarith [e1.2]) c2 hC.le (by norm_num)
    refine le_trans this (by norm_num)
  refine ⟨Real.log (M * w * (13386282 / 2 ^ 25 * Real.sqrt (2 * Real.pi))), ?_, ?_, ?_⟩
  · intro h
    rcases Real.log_eq_zero.1 h with h | h | h
    · exact hX.ne' h
    · exact hirr h
    · linarith
  · rw [abs_le]
    constructor
    · refine le_trans ?_ (Real.one_sub_inv_le_log_of_pos hX)
      have h := inv_anti₀ (by norm_num) b1
      refine le_trans ?_ (sub_le_sub_left h 1)
      norm_num
    · refine (Real.log_le_sub_one_of_pos hX).trans ?_
      refine (sub_le_sub_right b2 1).trans (by norm_num)
  · intro l y hl hs
    have hS : 0 < (l.map fun p => densNormal p.1 p.2 y).sum := by
      apply List.sum_pos
      · intro x hx
        obtain ⟨p, hp, rfl⟩ := List.mem_map.1 hx
        exact div_pos (φ_pos _) (hs p hp)
      · intro h
        have := congrArg List.length h
        simp at this
        subst this
        simp at hl
        omega
    have hT : 0 < (l.map fun p => densNormal p.1 p.2 y).sum / M := div_pos hS Mp
    unfold Tc.logsMixnorm
    simp only [List.length_map, hl, hw]
    rw [Tc.mixnorm_prob hr l y hs]
    have e : w * (13386282 / 2 ^ 25 * Real.sqrt (2 * Real.pi)) * (l.map fun p => densNormal p.1 p.2 y).sum
        = ((l.map fun p => densNormal p.1 p.2 y).sum / M) * (M * w * (13386282 / 2 ^ 25 * Real.sqrt (2 * Real.pi))) := by
      field_simp
    rw [e, fin_log (mul_pos hT hX), Real.log_mul hT.ne' hX.ne', fin_neg]
    congr 1; ring

/-- an even mixture of two normal laws -/
example : ∃ d : ℝ, d ≠ 0 ∧ Tc.logsMixnorm rn32 (fin 1) [fin 0, fin 3] [fin 1, fin 2]
    = fin (-Real.log ((densNormal 0 1 1 + (densNormal 3 2 1 + 0)) / (2:ℕ)) - d) := by
  obtain ⟨d, h1, _, h2⟩ := C139_logs_mixnorm_false rn32_nearest (M := 2) (by norm_num) (by norm_num)
  exact ⟨d, h1, h2 [(0, 1), (3, 2)] 1 rfl (by simp)⟩

/-! ### CRPS of the normal distribution -/

theorem φ_le_half (x : ℝ) : φ x ≤ 1 / 2 := by
  unfold φ
  have q1 := Real.pi_gt_three
  have h : 2 ≤ Real.sqrt (2 * Real.pi) := by
    rw [Real.le_sqrt' (by norm_num)]; linarith
  have h1 : Real.exp (-x ^ 2 / 2) ≤ 1 := Real.exp_le_one_iff.2 (by have := sq_nonneg x; linarith)
  rw [div_le_iff₀ (by linarith)]
  linarith

theorem Φ_lip (a b : ℝ) : |Φ a - Φ b| ≤ 1 / 2 * |a - b| := by
  have := Convex.norm_image_sub_le_of_norm_hasDerivWithin_le (f := Φ) (f' := φ) (C := 1 / 2) (s := Set.univ)
    (x := b) (y := a) (fun x _ => (Φ_deriv x).hasDerivWithinAt)
    (fun x _ => by rw [Real.norm_of_nonneg (φ_pos x).le]; exact φ_le_half x) convex_univ trivial trivial
  simpa using this

theorem Tc.normCdf_fin (hr : Nearest32 r) (x : ℝ) :
    Tc.normCdf r (fin x) = fin (Φ (x * (Real.sqrt 2 / (11863283 / 2 ^ 23)))) := by
  unfold Tc.normCdf
  rw [Tc.sqrtTwo_eq hr, fin_div (by norm_num)]
  simp only [XF.erf]
  rw [← erf_Φ]
  simp only [XF.one_def, XF.ofNat_def, fin_add]
  rw [fin_div (by norm_num)]
  have : x * (Real.sqrt 2 / (11863283 / 2 ^ 23)) / Real.sqrt 2 = x / (11863283 / 2 ^ 23) := by
    have : Real.sqrt 2 ≠ 0 := (Real.sqrt_pos.2 two_pos).ne'
    field_simp
  rw [this]

theorem Tc.crpsNormal_fin (hr : Nearest32 r) (y μ : ℝ) {σ : ℝ} (hσ : 0 < σ) :
    Tc.crpsNormal r (fin y) (fin μ) (fin σ) = fin (σ * ((y - μ) / σ *
      (2 * Φ ((y - μ) / σ * (Real.sqrt 2 / (11863283 / 2 ^ 23))) - 1)
      + 2 * (13386282 / 2 ^ 25 * Real.sqrt (2 * Real.pi) * φ ((y - μ) / σ)) - 9465530 / 2 ^ 24)) := by
  unfold Tc.crpsNormal
  rw [Tc.sqrtPi_eq hr]
  simp only [fin_sub, fin_div hσ.ne', Tc.normCdf_fin hr, Tc.normPdf_fin hr, XF.one_def, XF.ofNat_def,
    fin_mul, fin_add]

theorem crps_normal_value (y μ : ℝ) {σ : ℝ} (hσ : 0 < σ) :
    Spec.crps (cdfNormal μ σ) y = σ * ((y - μ) / σ * (2 * Φ ((y - μ) / σ) - 1) + 2 * φ ((y - μ) / σ)
      - 1 / Real.sqrt Real.pi) := by
  have e : Spec.cdfNormal μ σ = fun z => Spec.Φ ((z - μ) / σ) := rfl
  rw [e, Spec.crps_scale _ _ hσ, (crps_Φ _).2]

/-- C139 is false of `crps_normal` on torch: at the centre of the forecast the score of double precision data is too large
by more than 4e-8 standard deviations. -/
theorem C139_crps_normal_false (hr : Nearest32 r) (μ : ℝ) {σ : ℝ} (hσ : 0 < σ) :
    ∃ v : ℝ, Tc.crpsNormal r (fin μ) (fin μ) (fin σ) = fin v ∧
      Spec.crps (cdfNormal μ σ) μ + 4 / 10 ^ 8 * σ ≤ v := by
  refine ⟨_, Tc.crpsNormal_fin hr μ μ hσ, ?_⟩
  rw [crps_normal_value μ μ hσ, sub_self, zero_div]
  have q1 := Real.pi_gt_d20
  have q2 := Real.pi_lt_d20
  have hφ : φ 0 = 1 / Real.sqrt (2 * Real.pi) := by unfold φ; norm_num
  obtain ⟨s1, s2⟩ := sqrt_between (x := 2 * Real.pi) (a := 2.506628274) (b := 2.506628275) (by norm_num)
    (by norm_num) (by norm_num; linarith) (by norm_num; linarith)
  obtain ⟨t1, t2⟩ := sqrt_between (x := Real.pi) (a := 1.772453850) (b := 1.772453851) (by norm_num)
    (by norm_num) (by norm_num; linarith) (by norm_num; linarith)
  have s0 : 0 < Real.sqrt (2 * Real.pi) := by positivity
  have e1 : 13386282 / 2 ^ 25 * Real.sqrt (2 * Real.pi) * φ 0 = 13386282 / 2 ^ 25 := by
    rw [hφ]; field_simp
  rw [e1, hφ]
  have a1 : 1 / Real.sqrt (2 * Real.pi) ≤ 1 / 2.506628274 := one_div_le_one_div_of_le (by norm_num) s1.le
  have a2 : 1 / 1.772453851 ≤ 1 / Real.sqrt Real.pi := one_div_le_one_div_of_le (by linarith) t2.le
  generalize 1 / Real.sqrt (2 * Real.pi) = A at *
  generalize 1 / Real.sqrt Real.pi = B at *
  norm_num at a1 a2 ⊢
  nlinarith

example : ∃ v : ℝ, Tc.crpsNormal rn32 (fin 0) (fin 0) (fin 1) = fin v ∧
    Spec.crps (cdfNormal 0 1) 0 + 4 / 10 ^ 8 * 1 ≤ v := C139_crps_normal_false rn32_nearest 0 one_pos

/-- What holds of `crps_normal` on torch: the score differs from the CRPS by at most 2e-7 standard deviations at the
centre of the forecast, and by at most 2e-7 times the squared standardised distance away from it. -/
theorem C139_crps_normal_partial (hr : Nearest32 r) (y μ : ℝ) {σ : ℝ} (hσ : 0 < σ) :
    ∃ v : ℝ, Tc.crpsNormal r (fin y) (fin μ) (fin σ) = fin v ∧
      |v - Spec.crps (cdfNormal μ σ) y| ≤ 2 / 10 ^ 7 * σ * (1 + ((y - μ) / σ) ^ 2) := by
  refine ⟨_, Tc.crpsNormal_fin hr y μ hσ, ?_⟩
  rw [crps_normal_value y μ hσ]
  obtain ⟨c1, c2⟩ := normConst_ratio
  have q1 := Real.pi_gt_d20
  have q2 := Real.pi_lt_d20
  obtain ⟨t1, t2⟩ := sqrt_between (x := Real.pi) (a := 1.772453850) (b := 1.772453851) (by norm_num)
    (by norm_num) (by norm_num; linarith) (by norm_num; linarith)
  obtain ⟨u1, u2⟩ := sqrt_between (x := 2) (a := 1.41421356) (b := 1.41421357) (by norm_num)
    (by norm_num) (by norm_num) (by norm_num)
  have a1 : 1 / Real.sqrt Real.pi ≤ 1 / 1.772453850 := one_div_le_one_div_of_le (by norm_num) t1.le
  have a2 : 1 / 1.772453851 ≤ 1 / Real.sqrt Real.pi := one_div_le_one_div_of_le (by linarith) t2.le
  generalize (y - μ) / σ = ω at *
  have hρ : |ω * (Real.sqrt 2 / (11863283 / 2 ^ 23)) - ω| ≤ 1 / 10 ^ 7 * |ω| := by
    have : ω * (Real.sqrt 2 / (11863283 / 2 ^ 23)) - ω = (Real.sqrt 2 / (11863283 / 2 ^ 23) - 1) * ω := by ring
    rw [this, abs_mul]
    refine mul_le_mul_of_nonneg_right ?_ (abs_nonneg _)
    rw [abs_le]
    constructor <;> norm_num at u1 u2 ⊢ <;> linarith
  have hΦ := (Φ_lip (ω * (Real.sqrt 2 / (11863283 / 2 ^ 23))) ω).trans
    (mul_le_mul_of_nonneg_left hρ (by norm_num))
  have hφ0 := φ_pos ω
  have hφ1 := φ_le_half ω
  generalize Φ (ω * (Real.sqrt 2 / (11863283 / 2 ^ 23))) = P at *
  generalize Φ ω = Q at *
  generalize φ ω = f at *
  generalize 13386282 / 2 ^ 25 * Real.sqrt (2 * Real.pi) = C at *
  generalize 1 / Real.sqrt Real.pi = B at *
  have e : σ * (ω * (2 * P - 1) + 2 * (C * f) - 9465530 / 2 ^ 24) - σ * (ω * (2 * Q - 1) + 2 * f - B)
      = σ * (2 * (ω * (P - Q)) + 2 * (C - 1) * f + (B - 9465530 / 2 ^ 24)) := by ring
  rw [e, abs_mul, abs_of_pos hσ]
  have h1 : |ω * (P - Q)| ≤ 5 / 10 ^ 8 * ω ^ 2 := by
    rw [abs_mul]
    calc |ω| * |P - Q| ≤ |ω| * (1 / 2 * (1 / 10 ^ 7 * |ω|)) := mul_le_mul_of_nonneg_left hΦ (abs_nonneg _)
      _ = 5 / 10 ^ 8 * |ω| ^ 2 := by ring
      _ = 5 / 10 ^ 8 * ω ^ 2 := by rw [sq_abs]
  have h2 : |2 * (C - 1) * f| ≤ 4 / 10 ^ 8 := by
    rw [abs_mul, abs_of_pos hφ0, abs_of_nonneg (by norm_num at c1 ⊢; linarith)]
    have : 2 * (C - 1) * f ≤ 2 * (4 / 10 ^ 8) * (1 / 2) :=
      mul_le_mul (by linarith) hφ1 hφ0.le (by norm_num)
    refine this.trans (by norm_num)
  have h3 : |B - 9465530 / 2 ^ 24| ≤ 4 / 10 ^ 8 := by
    rw [abs_le]; norm_num at a1 a2 ⊢; constructor <;> linarith
  have h4 : |2 * (ω * (P - Q)) + 2 * (C - 1) * f + (B - 9465530 / 2 ^ 24)| ≤ 2 / 10 ^ 7 * (1 + ω ^ 2) := by
    have hs := sq_nonneg ω
    rw [abs_le] at h1 h2 h3 ⊢
    norm_num at h1 h2 h3 ⊢
    constructor <;> linarith
  calc σ * |2 * (ω * (P - Q)) + 2 * (C - 1) * f + (B - 9465530 / 2 ^ 24)|
      ≤ σ * (2 / 10 ^ 7 * (1 + ω ^ 2)) := mul_le_mul_of_nonneg_left h4 hσ.le
    _ = 2 / 10 ^ 7 * σ * (1 + ω ^ 2) := by ring

example : ∃ v : ℝ, Tc.crpsNormal rn32 (fin 3) (fin 1) (fin 2) = fin v ∧
    |v - Spec.crps (cdfNormal 1 2) 3| ≤ 2 / 10 ^ 7 * 2 * (1 + ((3 - 1) / 2) ^ 2) :=
  C139_crps_normal_partial rn32_nearest 3 1 two_pos

/-! ### the `int` estimator -/

/-- the `int` estimator of one member 0 and `n` members 1 at the observation 1, with rounded levels `w 1, w 2, …` -/
theorem Tc.crpsInt_step {n : ℕ} {w : ℕ → ℝ} (h1 : r 1 = fin 1)
    (hw : ∀ i, i ≤ n → r (((i + 1 : ℕ) : ℝ) / ((n + 1 : ℕ) : ℝ)) = fin (w i))
    (hm : ∀ i j, i ≤ j → j ≤ n → w i ≤ w j) (hn : w n ≤ 1) :
    Tc.crpsInt r (fin 1) (fin 0 :: List.replicate n (fin 1)) = fin (w 0 ^ 2) := by
  have hM : (0:ℝ) < ((n + 1 : ℕ) : ℝ) := by positivity
  have hy : Rnd.rd r (mean ((fin 0 :: List.replicate n (fin 1)).map fun x => ind (x ≤ fin 1) * 1)) = fin 1 := by
    have e : ((fin 0 :: List.replicate n (fin 1)).map fun x => ind (x ≤ fin 1) * 1)
        = (List.replicate (n + 1) (1:ℝ)).map fin := by
      rw [List.replicate_succ, List.map_cons, List.map_cons, List.map_replicate, List.map_replicate,
        ind_true (by simp), ind_true (by simp), XF.one_def, fin_mul, mul_one]
    rw [e]
    unfold mean
    rw [sum_map_fin, List.length_map, List.length_replicate, List.sum_replicate]
    show Rnd.rd r (fin _ / fin ((n + 1 : ℕ) : ℝ)) = _
    rw [fin_div hM.ne', nsmul_eq_mul, mul_one, div_self hM.ne']
    exact h1
  have hc : ((List.range (n + 1)).map fun i => (0:XF) + Rnd.rd r (((i + 1 : ℕ) : XF) / ((n + 1 : ℕ) : XF)))
      = (List.range (n + 1)).map fun i => fin (w i) := by
    apply List.map_congr_left
    intro i hi
    have hi' : i ≤ n := by have := List.mem_range.1 hi; omega
    show (0:XF) + Rnd.rd r (fin ((i + 1 : ℕ) : ℝ) / fin ((n + 1 : ℕ) : ℝ)) = _
    rw [fin_div hM.ne']
    show (0:XF) + r _ = _
    rw [hw i hi', XF.zero_def, fin_add, zero_add]
  have hs1 : sort (((List.range (n + 1)).map fun i => fin (w i)) ++ [fin 1])
      = ((List.range (n + 1)).map fun i => fin (w i)) ++ [fin 1] := by
    refine sort_eq_of (List.Perm.refl _) ?_
    unfold SortedX
    rw [List.pairwise_append]
    refine ⟨?_, List.pairwise_singleton _ _, ?_⟩
    · rw [List.pairwise_map]
      have := List.pairwise_lt_range (n := n + 1)
      refine List.Pairwise.imp_of_mem ?_ this
      intro a b _ hb hab
      have hb' : b ≤ n := by have := List.mem_range.1 hb; omega
      exact (sortLe_fin _ _).2 (hm a b hab.le hb')
    · intro a ha b hb
      obtain ⟨i, hi, rfl⟩ := List.mem_map.1 ha
      rw [List.mem_singleton] at hb
      subst hb
      have hi' : i ≤ n := by have := List.mem_range.1 hi; omega
      exact (sortLe_fin _ _).2 ((hm i n hi' le_rfl).trans hn)
  have hs2 : sort ((fin 0 :: List.replicate n (fin 1)) ++ [fin 1]) = fin 0 :: List.replicate (n + 1) (fin 1) := by
    have e : (fin 0 :: List.replicate n (fin 1)) ++ [fin 1] = fin 0 :: List.replicate (n + 1) (fin 1) := by
      rw [List.cons_append, List.replicate_succ']
    rw [e]
    refine sort_eq_of (List.Perm.refl _) ?_
    unfold SortedX
    rw [List.pairwise_cons]
    constructor
    · intro a ha
      rw [List.eq_of_mem_replicate ha]
      exact (sortLe_fin _ _).2 zero_le_one
    · exact List.pairwise_replicate.2 (Or.inr ((sortLe_fin _ _).2 le_rfl))
  have hl : (fin 0 :: List.replicate n (fin 1)).length = n + 1 := by simp
  have ht : (((List.range (n + 1)).map fun i => fin (w i)) ++ [fin 1]).take (n + 1)
      = (List.range (n + 1)).map fun i => fin (w i) := by
    rw [List.take_append_of_le_length (by simp)]
    exact List.take_of_length_le (by simp)
  have hz : ∀ (k : ℕ) (l : List XF), (∀ x ∈ l, ∃ v : ℝ, x = fin v) →
      (List.zipWith (· * ·) (List.replicate k (fin 0)) l).sum = fin 0 := by
    intro k
    induction k with
    | zero => intro l _; simp [XF.zero_def]
    | succ k ih =>
      intro l hl
      cases l with
      | nil => simp [XF.zero_def]
      | cons x t =>
        obtain ⟨v, rfl⟩ := hl x List.mem_cons_self
        rw [List.replicate_succ, List.zipWith_cons_cons, List.sum_cons,
          ih t (fun y hy => hl y (List.mem_cons_of_mem _ hy)), fin_mul, fin_add, zero_mul, add_zero]
  unfold Tc.crpsInt
  simp only [hl, hy, hc, hs1, hs2, ht]
  rw [List.range_succ_eq_map]
  simp only [Py.zip2, List.drop_succ_cons, List.drop_zero, List.take_succ_cons, List.map_cons, List.map_replicate,
    List.replicate_succ (n := n), List.zipWith_cons_cons, List.map_map, List.sum_cons]
  have e1 : List.zipWith (fun a b : XF => a - b) (List.replicate n (fin 1)) (List.take n (fin 1 :: List.replicate n (fin 1)))
      = List.replicate n (fin 0) := by
    rw [← List.replicate_succ, List.take_replicate, List.zipWith_replicate]
    simp
  have e2 : ind (fin 1 ≤ fin 1) * (1:XF) = fin 1 := by rw [ind_true (by simp), XF.one_def, fin_mul, mul_one]
  rw [e1, e2, hz]
  · rw [ind_false (by simp), XF.one_def, fin_sub, fin_mul, fin_sub, fin_pow, fin_mul, fin_add]
    congr 1; ring
  · intro x hx
    obtain ⟨i, hi, rfl⟩ := List.mem_iff_getElem.1 hx
    rw [List.getElem_zipWith]
    simp only [List.getElem_map, Function.comp, List.getElem_take, List.getElem_cons, List.getElem_replicate]
    split_ifs
    all_goals exact ⟨_, by rw [fin_sub, fin_pow]⟩

/-- C139 is false of the `int` estimator of `crps_ensemble` on torch: for every ensemble size that is not a power of two
there are double precision data whose score is not the estimate the formula gives, which is `1 / M ^ 2`. -/
theorem C139_int_false (hr : Nearest32 r) {M : ℕ} (h1 : 2 ≤ M) (h2 : M ≤ 2 ^ 24) (hp : ¬ ∃ j, M = 2 ^ j) :
    Approx.int (fin 1) (fin 0 :: List.replicate (M - 1) (fin 1)) = fin (1 / M ^ 2) ∧
    ∃ v : ℝ, Tc.crpsInt r (fin 1) (fin 0 :: List.replicate (M - 1) (fin 1)) = fin v ∧ v ≠ 1 / M ^ 2 := by
  obtain ⟨n, rfl⟩ : ∃ n, M = n + 1 := ⟨M - 1, by omega⟩
  have hM : (0:ℝ) < ((n + 1 : ℕ) : ℝ) := by positivity
  rw [Nat.add_sub_cancel]
  constructor
  · have e : Approx.int (fin 1) (fin 0 :: List.replicate n (fin 1))
        = Tc.crpsInt fin (fin 1) (fin 0 :: List.replicate n (fin 1)) := by
      have hrd : ∀ x, Rnd.rd fin x = x := by intro x; cases x <;> rfl
      unfold Approx.int Tc.crpsInt
      simp only [hrd]
    rw [e, Tc.crpsInt_step (w := fun i => ((i + 1 : ℕ) : ℝ) / ((n + 1 : ℕ) : ℝ)) rfl (fun _ _ => rfl)]
    · congr 1
      simp
    · intro i j hij _
      have : ((i + 1 : ℕ) : ℝ) ≤ ((j + 1 : ℕ) : ℝ) := by exact_mod_cast Nat.succ_le_succ hij
      exact div_le_div_of_nonneg_right this hM.le
    · exact (div_self hM.ne').le
  · obtain ⟨w, hw, hiff⟩ := C139_weights_false hr (M := n + 1) (by omega) h2
    have hone : r 1 = fin 1 := by simpa using hr.nat 1 (by norm_num)
    have hzero : r 0 = fin 0 := hr.zero
    have hfin : ∀ i, i ≤ n → ∃ v : ℝ, r (((i + 1 : ℕ) : ℝ) / ((n + 1 : ℕ) : ℝ)) = fin v ∧ v ≤ 1 := by
      intro i hi
      have a0 : (0:ℝ) ≤ ((i + 1 : ℕ) : ℝ) / ((n + 1 : ℕ) : ℝ) := by positivity
      have a1 : ((i + 1 : ℕ) : ℝ) / ((n + 1 : ℕ) : ℝ) ≤ 1 := by
        rw [div_le_one hM]; exact_mod_cast Nat.succ_le_succ hi
      have m0 := hr.mono a0
      have m1 := hr.mono a1
      rw [hzero] at m0
      rw [hone] at m1
      obtain ⟨v, hv, -, hv1⟩ := between_cases m0 m1
      exact ⟨v, hv, hv1⟩
    choose! v hv hv1 using hfin
    refine ⟨v 0 ^ 2, Tc.crpsInt_step hone hv ?_ (hv1 n le_rfl), ?_⟩
    · intro i j hij hj
      have hle : ((i + 1 : ℕ) : ℝ) ≤ ((j + 1 : ℕ) : ℝ) := by exact_mod_cast Nat.succ_le_succ hij
      have := hr.mono (div_le_div_of_nonneg_right hle hM.le)
      rwa [hv i (hij.trans hj), hv j hj, fin_le] at this
    · have hwv : w = v 0 := by
        have h0 := hv 0 (Nat.zero_le _)
        unfold Tc.weight at hw
        rw [XF.one_def, show ((n + 1 : ℕ) : XF) = fin ((n + 1 : ℕ) : ℝ) from rfl, fin_div hM.ne'] at hw
        have hw' : r (1 / ((n + 1 : ℕ) : ℝ)) = fin w := hw
        rw [zero_add, Nat.cast_one, hw', fin_inj] at h0
        exact h0
      intro h
      apply hp
      apply hiff.1
      rw [hwv]
      have h0 : 0 ≤ v 0 := by
        have := hr.mono (show (0:ℝ) ≤ ((0 + 1 : ℕ) : ℝ) / ((n + 1 : ℕ) : ℝ) by positivity)
        rwa [hzero, hv 0 (Nat.zero_le _), fin_le] at this
      have h3 : (((n + 1 : ℕ) : ℝ) * v 0) ^ 2 = 1 ^ 2 := by rw [mul_pow, h]; field_simp
      exact (pow_left_inj₀ (by positivity) zero_le_one two_ne_zero).1 h3

/-- three members -/
example : ∃ v : ℝ, Tc.crpsInt rn32 (fin 1) [fin 0, fin 1, fin 1] = fin v ∧ v ≠ 1 / (3:ℕ) ^ 2 := by
  refine (C139_int_false rn32_nearest (M := 3) (by norm_num) (by norm_num) ?_).2
  rintro ⟨j, hj⟩
  rcases j with _ | _ | j
  · norm_num at hj
  · norm_num at hj
  · rw [pow_succ, pow_succ] at hj; omega

end Verif
