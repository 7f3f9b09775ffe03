import Verif.Model.Energy
import Verif.Model.Variogram
import Verif.Model.Kernel
import Verif.Model.DssMv

/-!
# Axes of multivariate forecasts that do not exist

The claim would be that a score of a multivariate ensemble is refused when `m_axis` or `v_axis` is not an axis of the
forecasts, or when both are the same axis.
-/

noncomputable section

open scoped Classical

namespace Verif

open XF Api

/-- every score of a multivariate ensemble ends with an error -/
def Refused (obs fct : Arr XF) (m v : ℤ) : Prop :=
  ∃ e : Err, ∀ (path : Path) (wf : List XF → XF) (w : Option (List (List XF))) (W : Option (Arr XF)) (p : ℝ)
    (est : String) (bias : Bool),
    esEnsemble path obs fct m v W est = .error e ∧
    owesEnsemble path obs fct wf m v W = .error e ∧
    vresEnsemble path obs fct wf m v W = .error e ∧
    vsEnsemble path obs fct w m v W p est = .error e ∧
    owvsEnsemble path obs fct wf w m v W p = .error e ∧
    vrvsEnsemble path obs fct wf w m v W p = .error e ∧
    gksmvEnsemble path obs fct m v W est = .error e ∧
    owgksmvEnsemble path obs fct wf m v W = .error e ∧
    vrgksmvEnsemble path obs fct wf m v W = .error e ∧
    dssmvEnsemble path obs fct m v bias = .error e

theorem refused_of_check {obs fct : Arr XF} {m v : ℤ} (h : ∃ e, multivariateArrayCheck obs fct m v = .error e) :
    Refused obs fct m v := by
  obtain ⟨e, h⟩ := h
  refine ⟨e, fun path wf w W p est bias => ?_⟩
  refine ⟨?_, ?_, ?_, ?_, ?_, ?_, ?_, ?_, ?_, ?_⟩
  · unfold esEnsemble; rw [h]; rfl
  · unfold owesEnsemble; rw [h]; rfl
  · unfold vresEnsemble; rw [h]; rfl
  · unfold vsEnsemble; rw [h]; rfl
  · unfold owvsEnsemble; rw [h]; rfl
  · unfold vrvsEnsemble; rw [h]; rfl
  · unfold gksmvEnsemble; rw [h]; rfl
  · unfold owgksmvEnsemble; rw [h]; rfl
  · unfold vrgksmvEnsemble; rw [h]; rfl
  · unfold dssmvEnsemble; rw [h]; rfl

theorem check_of_move {obs fct : Arr XF} {m v : ℤ}
    (h : ∃ e, fct.moveaxisLast2 (if 0 ≤ m then m else fct.ndim + m) (if 0 ≤ v then v else fct.ndim + v) = .error e) :
    ∃ e, multivariateArrayCheck obs fct m v = .error e := by
  obtain ⟨e, h⟩ := h
  unfold multivariateArrayCheck
  simp only [bind, Except.bind]
  cases hs : shapeCheck obs fct (if 0 ≤ m then m else fct.ndim + m) with
  | error e' => exact ⟨e', rfl⟩
  | ok u =>
    simp only [h]
    exact ⟨e, rfl⟩

/-- One axis for both: refused by every score, for all arrays and both ways to name the axis. -/
theorem C148_same_axis (obs fct : Arr XF) {m v : ℤ}
    (h : m = v ∨ m = v + fct.ndim ∧ 0 ≤ m ∧ v < 0 ∨ v = m + fct.ndim ∧ 0 ≤ v ∧ m < 0) : Refused obs fct m v := by
  refine refused_of_check (check_of_move ?_)
  have hs : (if 0 ≤ m then m else (fct.ndim : ℤ) + m) = if 0 ≤ v then v else (fct.ndim : ℤ) + v := by
    rcases h with h | ⟨h, h1, h2⟩ | ⟨h, h1, h2⟩
    · rw [h]
    · rw [if_pos h1, if_neg (not_le.2 h2)]; linarith
    · rw [if_pos h1, if_neg (not_le.2 h2)]; linarith
  rw [hs]
  generalize (if 0 ≤ v then v else (fct.ndim : ℤ) + v) = a
  unfold Arr.moveaxisLast2
  dsimp only
  rw [if_pos rfl]
  generalize (if 0 ≤ a then a else (fct.ndim : ℤ) + a) = b
  split <;> exact ⟨_, rfl⟩

example : Refused ⟨[2, 3], fun _ => fin 0⟩ ⟨[4, 2, 3], fun _ => fin 0⟩ 2 (-1) :=
  C148_same_axis _ _ (Or.inr (Or.inl ⟨by norm_num [Arr.ndim], by norm_num, by norm_num⟩))

/-- Axes beyond the last one, and negative ones below `-2 * ndim`, are refused by every score, for all arrays.
Missing are those from `-2 * ndim` to `-ndim - 1`, where the claim fails. -/
theorem C148_out_of_range_partial (obs fct : Arr XF) {m v : ℤ}
    (h : (fct.ndim : ℤ) ≤ m ∨ m < -2 * fct.ndim ∨ (fct.ndim : ℤ) ≤ v ∨ v < -2 * fct.ndim) : Refused obs fct m v := by
  refine refused_of_check (check_of_move ⟨.axisError, ?_⟩)
  unfold Arr.moveaxisLast2
  dsimp only
  rw [if_pos]
  intro ⟨h1, h2, h3, h4⟩
  have hn : (0:ℤ) ≤ fct.ndim := Int.natCast_nonneg _
  rcases h with h | h | h | h
  all_goals
    split_ifs at h1 h2 h3 h4 <;> linarith

example : Refused ⟨[2, 3], fun _ => fin 0⟩ ⟨[4, 2, 3], fun _ => fin 0⟩ 0 3 :=
  C148_out_of_range_partial _ _ (Or.inr (Or.inr (Or.inl (by norm_num [Arr.ndim]))))

/-- The array check accepts every `v_axis` from `-2 * ndim + 1` to `-ndim - 1`, none of which is an axis, unless it
falls on the ensemble axis when `ndim` is added twice. -/
theorem C148_accepted {obs fct : Arr XF} {m : ℕ} (hm : m < fct.ndim)
    (hs : obs.shape.take m ++ [fct.shape.getD m 0] ++ obs.shape.drop m = fct.shape) {v : ℤ}
    (h1 : -2 * (fct.ndim : ℤ) + 1 ≤ v) (h2 : v < -fct.ndim) (hne : (m : ℤ) ≠ v + 2 * fct.ndim) :
    ∃ out, multivariateArrayCheck obs fct m v = .ok out := by
  have hlen : obs.ndim + 1 = fct.ndim := by
    have := congrArg List.length hs
    simp only [List.length_append, List.length_take, List.length_drop, List.length_singleton] at this
    unfold Arr.ndim
    omega
  have hn : (0:ℤ) ≤ fct.ndim := Int.natCast_nonneg _
  have hml : (m : ℤ) < fct.ndim := by exact_mod_cast hm
  have hol : (obs.ndim : ℤ) + 1 = fct.ndim := by exact_mod_cast hlen
  have hv : ¬ (0 ≤ v) := by omega
  have hv' : ¬ (0 ≤ (fct.ndim : ℤ) + v) := by omega
  have hc : shapeCheck obs fct m = .ok () := by
    unfold shapeCheck
    have hg : Arr.pyGet fct.shape m = some (fct.shape.getD m 0) := by
      unfold Arr.pyGet
      have : m < fct.shape.length := hm
      simp [this]
    have ht : Arr.pyTo obs.shape m = obs.shape.take m := by simp [Arr.pyTo]
    have hf : Arr.pyFrom obs.shape m = obs.shape.drop m := by simp [Arr.pyFrom]
    rw [hg]
    simp only [ht, hf, hs, ne_eq, not_true_eq_false, if_false]
  have hmv : ¬ ((m : ℤ) < fct.ndim + v) := by omega
  unfold multivariateArrayCheck
  simp only [Int.natCast_nonneg, if_true, hv, if_false, hc, bind, Except.bind, hmv]
  have h3 : fct.moveaxisLast2 m (fct.ndim + v) = .ok (fct.moveLast2 m (fct.ndim + (fct.ndim + v)).toNat) := by
    unfold Arr.moveaxisLast2
    simp only [Int.natCast_nonneg, if_true, hv', if_false, Int.toNat_natCast]
    rw [if_neg (by rw [not_not]; refine ⟨?_, ?_, ?_, ?_⟩ <;> first | trivial | omega), if_neg (by omega)]
  have h4 : obs.moveaxisLast (fct.ndim + v) = .ok (obs.moveLast (obs.ndim + (fct.ndim + v)).toNat) := by
    unfold Arr.moveaxisLast
    simp only [hv', if_false]
    rw [if_pos]; omega
  rw [h3]
  simp only [h4]
  exact ⟨_, rfl⟩

example : ∃ out, multivariateArrayCheck ⟨[2, 2], fun _ => fin 0⟩ ⟨[2, 2, 5], fun _ => fin 0⟩ (2 : ℕ) (-5) = .ok out :=
  C148_accepted (by norm_num [Arr.ndim]) rfl (by norm_num [Arr.ndim]) (by norm_num [Arr.ndim]) (by norm_num [Arr.ndim])

/-- observations of two variables at two places: one at place 0 and variable 1, zero elsewhere -/
def obsEx : Arr XF := ⟨[2, 2], fun i => if i = [0, 1] then fin 1 else fin 0⟩

/-- an ensemble of one member that hits them -/
def fctEx : Arr XF := ⟨[2, 2, 1], fun i => if i = [0, 1, 0] then fin 1 else fin 0⟩

/-- A perfect forecast has energy score zero with `v_axis = 1`.  With `v_axis = -5`, which does not exist for arrays
with three axes, it is accepted and compared with the transposed observations: the score is one. -/
theorem C148_wrong_score_false (path : Path) :
    (∃ out, esEnsemble path obsEx fctEx 2 1 none "nrg" = .ok out ∧ out.get [0] = fin 0) ∧
    ∃ out, esEnsemble path obsEx fctEx 2 (-5) none "nrg" = .ok out ∧ out.get [0] = fin 1 := by
  have hk : ∃ k, esKernel path "nrg" = .ok k ∧ k [fin 0, fin 1] [[fin 0, fin 1]] = fin 0 ∧
      k [fin 0, fin 0] [[fin 0, fin 1]] = fin 1 := by
    have n0 : Mv.vnorm (Mv.vsub [fin 0, fin 1] [fin 0, fin 1]) = fin 0 := by
      simp [Mv.vnorm, Mv.vsub, Py.zip2, XF.sqrt, XF.zero_def]
    have n1 : Mv.vnorm (Mv.vsub [fin 0, fin 1] [fin 0, fin 0]) = fin 1 := by
      simp [Mv.vnorm, Mv.vsub, Py.zip2, XF.sqrt, XF.zero_def]
    have c1 : ((1 : ℕ) : XF) = fin 1 := by rw [XF.natCast_def, Nat.cast_one]
    have ch : Py.half = fin (1 / 2) := rfl
    cases path
    · refine ⟨EsGufunc.nrg, rfl, ?_, ?_⟩
      · have : EsGufunc.loop [fin 0, fin 1] [[fin 0, fin 1]] = (fin 0, fin 0) := by
          simp [EsGufunc.loop, Py.forRange, Mv.vat, n0, XF.zero_def]
        simp [EsGufunc.nrg, this, c1, ch, fin_div one_ne_zero]
      · have : EsGufunc.loop [fin 0, fin 0] [[fin 0, fin 1]] = (fin 1, fin 0) := by
          simp [EsGufunc.loop, Py.forRange, Mv.vat, n1, XF.zero_def]
        simp [EsGufunc.nrg, this, c1, ch, fin_div one_ne_zero]
    · refine ⟨EsApprox.nrg, rfl, ?_, ?_⟩
      · simp [EsApprox.nrg, EsApprox.e1, EsApprox.errNorm, EsApprox.spread, n0, c1, ch, XF.zero_def, fin_div one_ne_zero]
      · simp [EsApprox.nrg, EsApprox.e1, EsApprox.errNorm, EsApprox.spread, n0, n1, c1, ch, XF.zero_def, fin_div one_ne_zero]
  obtain ⟨k, hk1, hk2, hk3⟩ := hk
  constructor
  · refine ⟨perMat k (obsEx.moveLast 1) (fctEx.moveLast2 2 1), ?_, ?_⟩
    · unfold esEnsemble
      rw [hk1]
      rfl
    · rw [← hk2]
      rfl
  · refine ⟨perMat k (obsEx.moveLast 0) (fctEx.moveLast2 2 1), ?_, ?_⟩
    · unfold esEnsemble
      rw [hk1]
      rfl
    · rw [← hk3]
      rfl

end Verif
