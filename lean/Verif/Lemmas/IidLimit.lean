import Verif.Lemmas.Iid
import Verif.Spec.Limit
import Mathlib.Probability.Independence.Integration
import Mathlib.MeasureTheory.Integral.DominatedConvergence
import Mathlib.Tactic.Positivity
import Mathlib.Tactic.FieldSimp

/-!
# Means over pairs of independent members, when the ensemble grows
-/

noncomputable section

open scoped Classical
open MeasureTheory ProbabilityTheory

namespace Verif

open Spec

variable {E : Type} [MeasurableSpace E] {Q : Measure E} [IsProbabilityMeasure Q] {M : ℕ}

theorem iid_indep : iIndepFun (fun (k : Fin M) (x : Fin M → E) => x k) (iid M Q) :=
  iIndepFun_pi (X := fun _ : Fin M => (id : E → E)) fun _ => aemeasurable_id

/-- disjoint pairs are uncorrelated -/
theorem iid_uncorr {i j k l : Fin M} (hij : i ≠ j) (hkl : k ≠ l) (hik : i ≠ k) (hil : i ≠ l) (hjk : j ≠ k) (hjl : j ≠ l)
    {h : E × E → ℝ} (hm : Measurable h) (hi : Integrable h (Q.prod Q)) :
    ∫ x, (h (x i, x j) - ∫ z, h z ∂(Q.prod Q)) * (h (x k, x l) - ∫ z, h z ∂(Q.prod Q)) ∂(iid M Q) = 0 := by
  have hI := (iid_indep (M := M) (Q := Q)).indepFun_prodMk_prodMk (fun i => measurable_pi_apply i) i j k l hik hil hjk hjl
  set θ := ∫ z, h z ∂(Q.prod Q) with hθ
  have hI' : IndepFun (fun x : Fin M → E => h (x i, x j) - θ) (fun x : Fin M → E => h (x k, x l) - θ) (iid M Q) :=
    hI.comp (φ := fun z => h z - θ) (ψ := fun z => h z - θ) (hm.sub_const θ) (hm.sub_const θ)
  rw [hI'.integral_fun_mul_eq_mul_integral
    (((hm.comp ((measurable_pi_apply i).prodMk (measurable_pi_apply j))).sub_const θ).aestronglyMeasurable)
    (((hm.comp ((measurable_pi_apply k).prodMk (measurable_pi_apply l))).sub_const θ).aestronglyMeasurable)]
  have e := iid_pairMean (M := M) (Q := Q) hij (K := fun a b => h (a, b)) hi
  rw [integral_sub e.1 (integrable_const _), e.2]
  have : pairMean (fun a b => h (a, b)) Q Q = θ := rfl
  simp [this]

/-- second moment of a sum over pairs, for a bounded function -/
theorem iid_sq (σ : Fin M → Fin M) (hσ : Function.Injective σ) (hne : ∀ i, i ≠ σ i) {h : E × E → ℝ} (hm : Measurable h)
    {C : ℝ} (hC : ∀ z, |h z| ≤ C) :
    Integrable (fun x : Fin M → E => (∑ i, (h (x i, x (σ i)) - ∫ z, h z ∂(Q.prod Q))) ^ 2) (iid M Q) ∧
    ∫ x, (∑ i, (h (x i, x (σ i)) - ∫ z, h z ∂(Q.prod Q))) ^ 2 ∂(iid M Q) ≤ 12 * C ^ 2 * M := by
  have hi : Integrable h (Q.prod Q) := Integrable.mono' (integrable_const C) hm.aestronglyMeasurable (ae_of_all _ fun z => hC z)
  set θ := ∫ z, h z ∂(Q.prod Q) with hθ
  have hθC : |θ| ≤ C := by
    have := norm_integral_le_of_norm_le_const (μ := Q.prod Q) (f := h) (C := C) (ae_of_all _ fun z => hC z)
    simpa using this
  set Z : Fin M → (Fin M → E) → ℝ := fun i x => h (x i, x (σ i)) - θ with hZ
  have hZm : ∀ i, Measurable (Z i) := fun i =>
    (hm.comp ((measurable_pi_apply i).prodMk (measurable_pi_apply (σ i)))).sub_const θ
  have hZb : ∀ i x, |Z i x| ≤ 2 * C := fun i x => by
    have := abs_sub (h (x i, x (σ i))) θ
    have h1 := hC (x i, x (σ i))
    have h2 : |Z i x| ≤ |h (x i, x (σ i))| + |θ| := this
    linarith
  have hC0 : 0 ≤ C := (abs_nonneg _).trans hθC
  have hpb : ∀ i k x, |Z i x * Z k x| ≤ 4 * C ^ 2 := fun i k x => by
    rw [abs_mul]
    nlinarith [hZb i x, hZb k x, abs_nonneg (Z i x), abs_nonneg (Z k x)]
  have hpi : ∀ i k, Integrable (fun x => Z i x * Z k x) (iid M Q) := fun i k =>
    Integrable.mono' (integrable_const (4 * C ^ 2)) ((hZm i).mul (hZm k)).aestronglyMeasurable (ae_of_all _ fun x => hpb i k x)
  have hex : ∀ x, (∑ i, Z i x) ^ 2 = ∑ i, ∑ k, Z i x * Z k x := fun x => by
    rw [sq, Finset.sum_mul_sum]
  have hI : Integrable (fun x => (∑ i, Z i x) ^ 2) (iid M Q) := by
    simp only [hex]
    exact integrable_finsetSum _ fun i _ => integrable_finsetSum _ fun k _ => hpi i k
  refine ⟨hI, ?_⟩
  show ∫ x, (∑ i, Z i x) ^ 2 ∂(iid M Q) ≤ _
  simp only [hex]
  rw [integral_finsetSum _ fun i _ => integrable_finsetSum _ fun k _ => hpi i k]
  have key : ∀ i, ∫ x, ∑ k, Z i x * Z k x ∂(iid M Q) ≤ 12 * C ^ 2 := by
    intro i
    rw [integral_finsetSum _ fun k _ => hpi i k]
    have hb : ∀ k, ∫ x, Z i x * Z k x ∂(iid M Q)
        ≤ (if k = i then 4 * C ^ 2 else 0) + (if k = σ i then 4 * C ^ 2 else 0) + (if i = σ k then 4 * C ^ 2 else 0) := by
      intro k
      have h4 : (0:ℝ) ≤ 4 * C ^ 2 := by positivity
      by_cases h0 : k = i ∨ k = σ i ∨ i = σ k
      · have hle : ∫ x, Z i x * Z k x ∂(iid M Q) ≤ 4 * C ^ 2 := by
          refine (le_abs_self _).trans ?_
          have := norm_integral_le_of_norm_le_const (μ := iid M Q) (f := fun x => Z i x * Z k x) (C := 4 * C ^ 2)
            (ae_of_all _ fun x => hpb i k x)
          simpa using this
        refine hle.trans ?_
        rcases h0 with h0 | h0 | h0
        · rw [if_pos h0]; split_ifs <;> linarith
        · rw [if_pos h0]; split_ifs <;> linarith
        · rw [if_pos h0]; split_ifs <;> linarith
      · push Not at h0
        obtain ⟨a, b, c⟩ := h0
        rw [if_neg a, if_neg b, if_neg c]
        have := iid_uncorr (Q := Q) (hne i) (hne k) (Ne.symm a) c (Ne.symm b) (fun e => a (hσ e).symm) hm hi
        simp only [hZ]
        rw [this]
        norm_num
    refine (Finset.sum_le_sum fun k _ => hb k).trans ?_
    rw [Finset.sum_add_distrib, Finset.sum_add_distrib]
    have s3 : (∑ k, if i = σ k then 4 * C ^ 2 else 0) ≤ 4 * C ^ 2 := by
      by_cases hk : ∃ k, i = σ k
      · obtain ⟨k0, hk0⟩ := hk
        rw [Finset.sum_eq_single k0]
        · rw [if_pos hk0]
        · intro k _ hne'
          rw [if_neg]
          intro e
          exact hne' (hσ (e ▸ hk0))
        · simp
      · push Not at hk
        rw [Finset.sum_eq_zero fun k _ => if_neg (hk k)]
        positivity
    simp only [Finset.sum_ite_eq', Finset.mem_univ, if_true]
    linarith
  refine (Finset.sum_le_sum fun i _ => key i).trans ?_
  simp
  linarith

/-- `clip` at `±C` -/
def clip (C t : ℝ) : ℝ := max (-C) (min t C)

theorem clip_le {C : ℝ} (hC : 0 ≤ C) (t : ℝ) : |clip C t| ≤ C := by
  unfold clip
  rw [abs_le]
  exact ⟨le_max_left _ _, max_le (by linarith) (min_le_right _ _)⟩

theorem clip_eq {C t : ℝ} (h : |t| ≤ C) : clip C t = t := by
  unfold clip
  rw [abs_le] at h
  rw [min_eq_left h.2, max_eq_right h.1]

theorem clip_err {C : ℝ} (hC : 0 ≤ C) (t : ℝ) : |t - clip C t| ≤ |t| := by
  unfold clip
  rcases le_total t C with h1 | h1
  · rw [min_eq_left h1]
    rcases le_total (-C) t with h2 | h2
    · rw [max_eq_right h2]; simp
    · rw [max_eq_left h2, abs_le]
      have := neg_abs_le t
      constructor <;> linarith [abs_nonneg t]
  · rw [min_eq_right h1, max_eq_right (by linarith), abs_le]
    have := le_abs_self t
    constructor <;> linarith [abs_nonneg t]

theorem clip_limit {α : Type} [MeasurableSpace α] {P : Measure α} {f : α → ℝ} (hf : Integrable f P) :
    Filter.Tendsto (fun n : ℕ => ∫ z, |f z - clip n (f z)| ∂P) Filter.atTop (nhds 0) := by
  have : (0:ℝ) = ∫ _, (0:ℝ) ∂P := by simp
  rw [this]
  refine tendsto_integral_of_dominated_convergence (fun z => |f z|) (fun n => ?_) hf.abs
    (fun n => ae_of_all _ fun z => ?_) (ae_of_all _ fun z => ?_)
  · have hc : Continuous (fun t : ℝ => |t - clip n t|) := by unfold clip; fun_prop
    exact hc.comp_aestronglyMeasurable hf.aestronglyMeasurable
  · rw [Real.norm_eq_abs, abs_abs]
    exact clip_err (Nat.cast_nonneg n) _
  · obtain ⟨N, hN⟩ := exists_nat_ge |f z|
    refine tendsto_const_nhds.congr' ?_
    filter_upwards [Filter.eventually_ge_atTop N] with n hn
    rw [clip_eq (hN.trans (by exact_mod_cast hn)), sub_self, abs_zero]

/-- mean over the pairs `(i, σ i)` -/
def pairAvg (σ : Fin M → Fin M) (h : E × E → ℝ) (x : Fin M → E) : ℝ := (∑ i, h (x i, x (σ i))) * (1 / M)

theorem pairAvg_int (σ : Fin M → Fin M) (hne : ∀ i, i ≠ σ i) {h : E × E → ℝ} (hi : Integrable h (Q.prod Q)) :
    Integrable (pairAvg σ h) (iid M Q) :=
  (iid_sum_map (K := fun a b => h (a, b)) hi σ hne).1.mul_const _

/-- a bound of the mean distance for a bounded function -/
theorem pairAvg_bdd (hM : M ≠ 0) (σ : Fin M → Fin M) (hσ : Function.Injective σ) (hne : ∀ i, i ≠ σ i) {h : E × E → ℝ}
    (hm : Measurable h) {C t : ℝ} (ht : 0 < t) (hC : ∀ z, |h z| ≤ C) :
    ∫ x, |pairAvg σ h x - ∫ z, h z ∂(Q.prod Q)| ∂(iid M Q) ≤ t / 2 + 6 * C ^ 2 / (t * M) := by
  have hi : Integrable h (Q.prod Q) := Integrable.mono' (integrable_const C) hm.aestronglyMeasurable (ae_of_all _ fun z => hC z)
  obtain ⟨h1, h2⟩ := iid_sq (Q := Q) σ hσ hne hm hC
  set θ := ∫ z, h z ∂(Q.prod Q) with hθ
  have hM0 : (0:ℝ) < M := by positivity
  have e : ∀ x, pairAvg σ h x - θ = (∑ i, (h (x i, x (σ i)) - θ)) * (1 / M) := fun x => by
    unfold pairAvg
    rw [Finset.sum_sub_distrib]
    simp
    field_simp
  have hb : ∀ x, |pairAvg σ h x - θ| ≤ t / 2 + (∑ i, (h (x i, x (σ i)) - θ)) ^ 2 * (1 / (2 * t * M ^ 2)) := fun x => by
    rw [e x]
    set s := ∑ i, (h (x i, x (σ i)) - θ)
    have h3 : s ^ 2 * (1 / (2 * t * M ^ 2)) = |s * (1 / M)| ^ 2 / (2 * t) := by
      rw [sq_abs]; field_simp
    rw [h3]
    set a := |s * (1 / M)|
    have : 0 ≤ (t - a) ^ 2 / (2 * t) := by positivity
    have e2 : (t - a) ^ 2 / (2 * t) = t / 2 + a ^ 2 / (2 * t) - a := by field_simp; ring
    linarith
  have hint : Integrable (fun x => t / 2 + (∑ i, (h (x i, x (σ i)) - θ)) ^ 2 * (1 / (2 * t * M ^ 2))) (iid M Q) :=
    (integrable_const _).add (h1.mul_const _)
  refine (integral_mono (((pairAvg_int σ hne hi).sub (integrable_const θ)).abs) hint hb).trans ?_
  rw [integral_add (integrable_const _) (h1.mul_const _), integral_mul_const]
  have : (∫ x, (∑ i, (h (x i, x (σ i)) - θ)) ^ 2 ∂(iid M Q)) * (1 / (2 * t * M ^ 2))
      ≤ 12 * C ^ 2 * M * (1 / (2 * t * M ^ 2)) := mul_le_mul_of_nonneg_right h2 (by positivity)
  have e3 : 12 * C ^ 2 * (M:ℝ) * (1 / (2 * t * M ^ 2)) = 6 * C ^ 2 / (t * M) := by field_simp; ring
  simp only [integral_const, smul_eq_mul, probReal_univ, one_mul]
  linarith

/-- the mean over pairs comes close to its expectation, whatever the pairing -/
theorem pairAvg_limit {h : E × E → ℝ} (hm : Measurable h) (hi : Integrable h (Q.prod Q)) {ε : ℝ} (hε : 0 < ε) :
    ∃ N : ℕ, 2 ≤ N ∧ ∀ M, N ≤ M → ∀ σ : Fin M → Fin M, Function.Injective σ → (∀ i, i ≠ σ i) →
      ∫ x, |pairAvg σ h x - ∫ z, h z ∂(Q.prod Q)| ∂(iid M Q) ≤ ε := by
  obtain ⟨n, hn⟩ := ((clip_limit hi).eventually (gt_mem_nhds (show (0:ℝ) < ε / 4 by positivity))).exists
  set C : ℝ := (n : ℝ) with hCdef
  have hC0 : 0 ≤ C := Nat.cast_nonneg n
  set g : E × E → ℝ := fun z => clip C (h z) with hg
  have hgm : Measurable g := by
    have : Measurable (clip C) := by
      have : Continuous (clip C) := by unfold clip; fun_prop
      exact this.measurable
    exact this.comp hm
  have hgi : Integrable g (Q.prod Q) :=
    Integrable.mono' (integrable_const C) hgm.aestronglyMeasurable (ae_of_all _ fun z => clip_le hC0 _)
  obtain ⟨N, hN⟩ := exists_nat_ge (96 * C ^ 2 / ε ^ 2)
  refine ⟨N + 2, by omega, fun M hM σ hσ hne => ?_⟩
  have hM0 : M ≠ 0 := by omega
  have hMr : (0:ℝ) < M := by positivity
  have b1 := pairAvg_bdd (Q := Q) hM0 σ hσ hne hgm (t := ε / 2) (by positivity) (fun z => clip_le hC0 (h z))
  have b2 : 6 * C ^ 2 / (ε / 2 * M) ≤ ε / 4 := by
    have : 96 * C ^ 2 / ε ^ 2 ≤ M := hN.trans (by exact_mod_cast (by omega : N ≤ M))
    rw [div_le_iff₀ (by positivity)] at this ⊢
    nlinarith
  have b3 : ∫ x, |pairAvg σ h x - pairAvg σ g x| ∂(iid M Q) ≤ ε / 4 := by
    have hd : Integrable (fun z => |h z - g z|) (Q.prod Q) := (hi.sub hgi).abs
    have e1 : ∀ x, |pairAvg σ h x - pairAvg σ g x| ≤ pairAvg σ (fun z => |h z - g z|) x := fun x => by
      unfold pairAvg
      rw [← sub_mul, abs_mul, ← Finset.sum_sub_distrib, abs_of_nonneg (by positivity : (0:ℝ) ≤ 1 / M)]
      exact mul_le_mul_of_nonneg_right (Finset.abs_sum_le_sum_abs _ _) (by positivity)
    refine (integral_mono (((pairAvg_int σ hne hi).sub (pairAvg_int σ hne hgi)).abs) (pairAvg_int σ hne hd) e1).trans ?_
    unfold pairAvg
    rw [integral_mul_const, (iid_sum_map (K := fun a b => |h (a, b) - g (a, b)|) hd σ hne).2]
    have e2 : pairMean (fun a b => |h (a, b) - g (a, b)|) Q Q = ∫ z, |h z - g z| ∂(Q.prod Q) := rfl
    rw [e2, mul_assoc, mul_comm _ (1 / (M:ℝ)), ← mul_assoc, mul_one_div_cancel hMr.ne', one_mul]
    exact hn.le
  have b4 : |∫ z, g z ∂(Q.prod Q) - ∫ z, h z ∂(Q.prod Q)| ≤ ε / 4 := by
    rw [← integral_sub hgi hi]
    refine (abs_integral_le_integral_abs).trans ?_
    simp only [abs_sub_comm (g _)]
    exact hn.le
  have hb : ∀ x, |pairAvg σ h x - ∫ z, h z ∂(Q.prod Q)| ≤ |pairAvg σ h x - pairAvg σ g x|
      + |pairAvg σ g x - ∫ z, g z ∂(Q.prod Q)| + |∫ z, g z ∂(Q.prod Q) - ∫ z, h z ∂(Q.prod Q)| := fun x => by
    have t1 := abs_sub_le (pairAvg σ h x) (pairAvg σ g x) (∫ z, h z ∂(Q.prod Q))
    have t2 := abs_sub_le (pairAvg σ g x) (∫ z, g z ∂(Q.prod Q)) (∫ z, h z ∂(Q.prod Q))
    linarith
  have i1 : Integrable (fun x => |pairAvg σ h x - pairAvg σ g x|) (iid M Q) :=
    ((pairAvg_int σ hne hi).sub (pairAvg_int σ hne hgi)).abs
  have i2 : Integrable (fun x => |pairAvg σ g x - ∫ z, g z ∂(Q.prod Q)|) (iid M Q) :=
    ((pairAvg_int σ hne hgi).sub (integrable_const (∫ z, g z ∂(Q.prod Q)))).abs
  have i12 : Integrable (fun x => |pairAvg σ h x - pairAvg σ g x| + |pairAvg σ g x - ∫ z, g z ∂(Q.prod Q)|) (iid M Q) :=
    i1.add i2
  refine (integral_mono (((pairAvg_int σ hne hi).sub (integrable_const _)).abs) (i12.add (integrable_const _)) hb).trans ?_
  simp only [Pi.add_apply]
  rw [integral_add i12 (integrable_const _), integral_add i1 i2]
  simp only [integral_const, smul_eq_mul, probReal_univ, one_mul]
  linarith

/-! ### kernel scores -/

/-- mean of a function of one member -/
def oneAvg (f : E → ℝ) (x : Fin M → E) : ℝ := (∑ i, f (x i)) * (1 / M)

theorem rot_inj [NeZero M] (s : Fin M) : Function.Injective (fun i : Fin M => i + s) := fun _ _ h => add_right_cancel h

theorem rot_ne [NeZero M] {s : Fin M} (hs : s ≠ 0) (i : Fin M) : i ≠ i + s := fun h => hs (left_eq_add.1 h)

theorem oneAvg_limit {f : E → ℝ} (hm : Measurable f) (hi : Integrable f Q) {ε : ℝ} (hε : 0 < ε) :
    ∃ N : ℕ, 2 ≤ N ∧ ∀ M, N ≤ M → Integrable (oneAvg (M := M) f) (iid M Q) ∧
      ∫ x, |oneAvg f x - ∫ z, f z ∂Q| ∂(iid M Q) ≤ ε := by
  have hi' : Integrable (fun z : E × E => f z.1) (Q.prod Q) := hi.comp_fst Q
  obtain ⟨N, h2, hN⟩ := pairAvg_limit (Q := Q) (h := fun z => f z.1) (hm.comp measurable_fst) hi' hε
  refine ⟨N, h2, fun M hM => ⟨(iid_sum hi).1.mul_const _, ?_⟩⟩
  haveI : NeZero M := ⟨by omega⟩
  have h1 : (1 : Fin M) ≠ 0 := by
    intro h
    have := congrArg Fin.val h
    rw [Fin.val_one', Fin.val_zero, Nat.mod_eq_of_lt (by omega)] at this
    omega
  have := hN M hM (fun i => i + 1) (rot_inj 1) (rot_ne h1)
  have e : ∫ z : E × E, f z.1 ∂(Q.prod Q) = ∫ z, f z ∂Q := by
    rw [integral_fun_fst]
    simp
  rw [e] at this
  exact this

/-- mean over all pairs of different members -/
def fairAvg (K : E → E → ℝ) (x : Fin M → E) : ℝ :=
  (∑ i, ∑ j, K (x i) (x j) - ∑ i, K (x i) (x i)) * (1 / (M * (M - 1)))

theorem fairAvg_eq [NeZero M] (hM : 2 ≤ M) (K : E → E → ℝ) (x : Fin M → E) :
    fairAvg K x = (∑ s ∈ (Finset.univ.erase (0 : Fin M)), pairAvg (fun i => i + s) (fun z => K z.1 z.2) x) * (1 / (M - 1)) := by
  have e : ∑ i, ∑ j, K (x i) (x j) = ∑ s : Fin M, ∑ i, K (x i) (x (i + s)) := by
    rw [Finset.sum_comm (s := Finset.univ) (t := Finset.univ) (f := fun s i => K (x i) (x (i + s)))]
    refine Finset.sum_congr rfl fun i _ => ?_
    exact (Equiv.sum_comp (Equiv.addLeft i) fun j => K (x i) (x j)).symm
  have hM1 : (M:ℝ) - 1 ≠ 0 := by
    have : (2:ℝ) ≤ M := by exact_mod_cast hM
    linarith
  have hM0 : (M:ℝ) ≠ 0 := by positivity
  unfold fairAvg pairAvg
  rw [e, ← Finset.add_sum_erase _ _ (Finset.mem_univ (0 : Fin M)), ← Finset.sum_mul]
  simp only [add_zero, add_sub_cancel_left]
  field_simp

theorem fairAvg_limit {K : E → E → ℝ} (hm : Measurable fun z : E × E => K z.1 z.2)
    (hi : Integrable (fun z : E × E => K z.1 z.2) (Q.prod Q)) {ε : ℝ} (hε : 0 < ε) :
    ∃ N : ℕ, 2 ≤ N ∧ ∀ M, N ≤ M → Integrable (fairAvg (M := M) K) (iid M Q) ∧
      ∫ x, |fairAvg K x - pairMean K Q Q| ∂(iid M Q) ≤ ε := by
  obtain ⟨N, h2, hN⟩ := pairAvg_limit (Q := Q) hm hi hε
  refine ⟨N, h2, fun M hM => ?_⟩
  haveI : NeZero M := ⟨by omega⟩
  have hM1 : (0:ℝ) < (M:ℝ) - 1 := by
    have : (2:ℝ) ≤ M := by exact_mod_cast h2.trans hM
    linarith
  set σ : Fin M → Fin M → Fin M := fun s i => i + s with hσ
  have hint : ∀ s ∈ Finset.univ.erase (0 : Fin M), Integrable (pairAvg (σ s) fun z => K z.1 z.2) (iid M Q) :=
    fun s hs => pairAvg_int (σ s) (rot_ne (Finset.ne_of_mem_erase hs)) hi
  have hI : Integrable (fairAvg (M := M) K) (iid M Q) := by
    have : fairAvg (M := M) K = fun x => (∑ s ∈ (Finset.univ.erase (0 : Fin M)), pairAvg (σ s) (fun z => K z.1 z.2) x)
        * (1 / (M - 1)) := funext fun x => fairAvg_eq (h2.trans hM) K x
    rw [this]
    exact (integrable_finsetSum _ hint).mul_const _
  refine ⟨hI, ?_⟩
  set θ := pairMean K Q Q with hθ
  have hcard : ((Finset.univ.erase (0 : Fin M)).card : ℝ) = M - 1 := by
    rw [Finset.card_erase_of_mem (Finset.mem_univ _), Finset.card_univ, Fintype.card_fin,
      Nat.cast_sub (by omega : 1 ≤ M)]
    simp
  have hb : ∀ x, |fairAvg K x - θ|
      ≤ (∑ s ∈ (Finset.univ.erase (0 : Fin M)), |pairAvg (σ s) (fun z => K z.1 z.2) x - θ|) * (1 / (M - 1)) := fun x => by
    have e : fairAvg K x - θ
        = (∑ s ∈ (Finset.univ.erase (0 : Fin M)), (pairAvg (σ s) (fun z => K z.1 z.2) x - θ)) * (1 / (M - 1)) := by
      rw [fairAvg_eq (h2.trans hM), Finset.sum_sub_distrib, Finset.sum_const, nsmul_eq_mul, hcard]
      field_simp
      rfl
    rw [e, abs_mul, abs_of_nonneg (by positivity : (0:ℝ) ≤ 1 / (M - 1))]
    exact mul_le_mul_of_nonneg_right (Finset.abs_sum_le_sum_abs _ _) (by positivity)
  have hint2 : ∀ s ∈ Finset.univ.erase (0 : Fin M),
      Integrable (fun x => |pairAvg (σ s) (fun z => K z.1 z.2) x - θ|) (iid M Q) :=
    fun s hs => ((hint s hs).sub (integrable_const θ)).abs
  refine (integral_mono ((hI.sub (integrable_const θ)).abs) ((integrable_finsetSum _ hint2).mul_const _) hb).trans ?_
  rw [integral_mul_const, integral_finsetSum _ hint2]
  have hs : (∑ s ∈ (Finset.univ.erase (0 : Fin M)), ∫ x, |pairAvg (σ s) (fun z => K z.1 z.2) x - θ| ∂(iid M Q))
      ≤ (M - 1) * ε := by
    refine (Finset.sum_le_sum fun s hs => hN M hM (σ s) (rot_inj s) (rot_ne (Finset.ne_of_mem_erase hs))).trans ?_
    rw [Finset.sum_const, nsmul_eq_mul, hcard]
  calc _ ≤ (M - 1) * ε * (1 / (M - 1)) := mul_le_mul_of_nonneg_right hs (by positivity)
    _ = ε := by field_simp


/-- a sum of two averages that converge -/
theorem mean_comb {α : Type} [MeasurableSpace α] {P : Measure α} {A B : α → ℝ} {a b ε δ c d : ℝ}
    (hA : Integrable (fun x => |A x - a|) P) (hA' : ∫ x, |A x - a| ∂P ≤ ε)
    (hB : Integrable (fun x => |B x - b|) P) (hB' : ∫ x, |B x - b| ∂P ≤ δ) (hc : 0 ≤ c) (hd : 0 ≤ d)
    {T : α → ℝ} {m : ℝ} (hT : AEStronglyMeasurable T P) (hTb : ∀ x, |T x - m| ≤ c * |A x - a| + d * |B x - b|)
    [IsFiniteMeasure P] :
    Integrable (fun x => |T x - m|) P ∧ ∫ x, |T x - m| ∂P ≤ c * ε + d * δ := by
  have hi : Integrable (fun x => c * |A x - a| + d * |B x - b|) P := (hA.const_mul c).add (hB.const_mul d)
  have hTi : Integrable (fun x => |T x - m|) P := by
    refine Integrable.mono' hi ((hT.sub aestronglyMeasurable_const).norm) (ae_of_all _ fun x => ?_)
    rw [Real.norm_eq_abs, abs_abs]
    exact hTb x
  refine ⟨hTi, (integral_mono hTi hi hTb).trans ?_⟩
  rw [integral_add (hA.const_mul c) (hB.const_mul d), integral_const_mul, integral_const_mul]
  exact add_le_add (mul_le_mul_of_nonneg_left hA' hc) (mul_le_mul_of_nonneg_left hB' hd)

section
variable {K : E → E → ℝ} (hm : Measurable fun z : E × E => K z.1 z.2)
  (hK : Integrable (fun z : E × E => K z.1 z.2) (Q.prod Q))

include hm hK in
theorem ksCirc_limit (g : ∀ M, Fin M → Fin M) (hg : ∀ M, 2 ≤ M → Function.Injective (g M) ∧ ∀ i, i ≠ g M i) (y : E)
    (hy : Integrable (fun x => K x y) Q) :
    ConvergesInMean (fun M => iid M Q) (fun M x => XF.fin (ksCirc K (g M) y x)) (ksLaw K y Q) := by
  intro ε hε
  have hmy : Measurable fun x => K x y := hm.comp (measurable_id.prodMk measurable_const)
  obtain ⟨N1, h1, hN1⟩ := pairAvg_limit (Q := Q) hm hK (ε := ε) hε
  obtain ⟨N2, h2, hN2⟩ := oneAvg_limit (Q := Q) hmy hy (ε := ε / 2) (by positivity)
  refine ⟨max N1 N2, fun M hM => ⟨fun x => ksCirc K (g M) y x, ae_of_all _ fun _ => rfl, ?_⟩⟩
  have hM1 := (le_max_left _ _).trans hM
  have hM2 := (le_max_right _ _).trans hM
  obtain ⟨gi, gn⟩ := hg M (h1.trans hM1)
  have iA := pairAvg_int (Q := Q) (g M) gn hK
  have iB := (hN2 M hM2).1
  have hM0 : (M:ℝ) ≠ 0 := by
    have : M ≠ 0 := by omega
    exact_mod_cast this
  have e : ∀ x : Fin M → E, ksCirc K (g M) y x - ksLaw K y Q
      = 1 / 2 * (pairAvg (g M) (fun z => K z.1 z.2) x - ∫ z, K z.1 z.2 ∂(Q.prod Q))
        - (oneAvg (fun x => K x y) x - ∫ x, K x y ∂Q) := fun x => by
    unfold ksCirc ksLaw pairMean pairAvg oneAvg
    field_simp
    ring
  have hT : AEStronglyMeasurable (fun x : Fin M → E => ksCirc K (g M) y x) (iid M Q) := by
    have : (fun x : Fin M → E => ksCirc K (g M) y x) = fun x =>
        1 / 2 * (pairAvg (g M) (fun z => K z.1 z.2) x - ∫ z, K z.1 z.2 ∂(Q.prod Q))
        - (oneAvg (fun x => K x y) x - ∫ x, K x y ∂Q) + ksLaw K y Q := by
      funext x; rw [← e x]; ring
    rw [this]
    exact ((((iA.sub (integrable_const _)).const_mul _).sub (iB.sub (integrable_const _))).add
      (integrable_const _)).aestronglyMeasurable
  have := mean_comb (c := 1 / 2) (d := 1) (iA.sub (integrable_const _)).abs (hN1 M hM1 (g M) gi gn)
    (iB.sub (integrable_const _)).abs (hN2 M hM2).2 (by norm_num) (by norm_num) hT (m := ksLaw K y Q) fun x => by
      rw [e x]
      refine (abs_sub _ _).trans ?_
      rw [abs_mul, one_mul, abs_of_nonneg (by norm_num : (0:ℝ) ≤ 1 / 2)]
  exact ⟨this.1, this.2.trans (by linarith)⟩

include hm hK in
theorem ksFair_lim (y : E) (hy : Integrable (fun x => K x y) Q) {ε : ℝ} (hε : 0 < ε) :
    ∃ N, 2 ≤ N ∧ ∀ M, N ≤ M → AEStronglyMeasurable (fun x : Fin M → E => ksFair K y (List.ofFn x)) (iid M Q) ∧
      Integrable (fun x : Fin M → E => |ksFair K y (List.ofFn x) - ksLaw K y Q|) (iid M Q) ∧
      ∫ x : Fin M → E, |ksFair K y (List.ofFn x) - ksLaw K y Q| ∂(iid M Q) ≤ ε := by
  have hmy : Measurable fun x => K x y := hm.comp (measurable_id.prodMk measurable_const)
  obtain ⟨N1, h1, hN1⟩ := fairAvg_limit (Q := Q) hm hK (ε := ε) hε
  obtain ⟨N2, h2, hN2⟩ := oneAvg_limit (Q := Q) hmy hy (ε := ε / 2) (by positivity)
  refine ⟨max N1 N2, h1.trans (le_max_left _ _), fun M hM => ?_⟩
  have hM1 := (le_max_left _ _).trans hM
  have hM2 := (le_max_right _ _).trans hM
  have iA := (hN1 M hM1).1
  have iB := (hN2 M hM2).1
  have hM0 : (M:ℝ) ≠ 0 := by
    have : M ≠ 0 := by omega
    exact_mod_cast this
  have hM11 : (M:ℝ) - 1 ≠ 0 := by
    have : (2:ℝ) ≤ M := by exact_mod_cast h1.trans hM1
    linarith
  have e : ∀ x : Fin M → E, ksFair K y (List.ofFn x) - ksLaw K y Q
      = 1 / 2 * (fairAvg K x - pairMean K Q Q)
        - (oneAvg (fun x => K x y) x - ∫ x, K x y ∂Q) := fun x => by
    rw [ksFair_ofFn]
    unfold ksLaw fairAvg oneAvg
    field_simp
    ring
  have hT : AEStronglyMeasurable (fun x : Fin M → E => ksFair K y (List.ofFn x)) (iid M Q) := by
    have : (fun x : Fin M → E => ksFair K y (List.ofFn x)) = fun x =>
        1 / 2 * (fairAvg K x - pairMean K Q Q) - (oneAvg (fun x => K x y) x - ∫ x, K x y ∂Q) + ksLaw K y Q := by
      funext x; rw [← e x]; ring
    rw [this]
    exact ((((iA.sub (integrable_const _)).const_mul _).sub (iB.sub (integrable_const _))).add
      (integrable_const _)).aestronglyMeasurable
  have := mean_comb (c := 1 / 2) (d := 1) (iA.sub (integrable_const _)).abs (hN1 M hM1).2
    (iB.sub (integrable_const _)).abs (hN2 M hM2).2 (by norm_num) (by norm_num) hT (m := ksLaw K y Q) fun x => by
      rw [e x]
      refine (abs_sub _ _).trans ?_
      rw [abs_mul, one_mul, abs_of_nonneg (by norm_num : (0:ℝ) ≤ 1 / 2)]
  exact ⟨hT, this.1, this.2.trans (by linarith)⟩

include hm hK in
theorem ksFair_limit (y : E) (hy : Integrable (fun x => K x y) Q) :
    ConvergesInMean (fun M => iid M Q) (fun M x => XF.fin (ksFair K y (List.ofFn x))) (ksLaw K y Q) := by
  intro ε hε
  obtain ⟨N, _, hN⟩ := ksFair_lim hm hK y hy hε
  exact ⟨N, fun M hM => ⟨fun x => ksFair K y (List.ofFn x), ae_of_all _ fun _ => rfl, (hN M hM).2⟩⟩

include hm hK in
theorem ks_limit (y : E) (hd : Integrable (fun x => K x x) Q) (hy : Integrable (fun x => K x y) Q) :
    ConvergesInMean (fun M => iid M Q) (fun M x => XF.fin (ks K y (eqW (List.ofFn x)))) (ksLaw K y Q) := by
  intro ε hε
  have hmd : Measurable fun x => K x x := hm.comp (measurable_id.prodMk measurable_id)
  obtain ⟨N1, h1, hN1⟩ := ksFair_lim hm hK y hy (ε := ε / 2) (by positivity)
  obtain ⟨N2, h2, hN2⟩ := fairAvg_limit (Q := Q) hm hK (ε := 1) one_pos
  obtain ⟨N3, h3, hN3⟩ := oneAvg_limit (Q := Q) hmd hd (ε := 1) one_pos
  set τ := |∫ x, K x x ∂Q - pairMean K Q Q| with hτ
  obtain ⟨N4, hN4⟩ := exists_nat_ge ((2 + τ) / ε)
  refine ⟨max (max N1 N2) (max N3 N4), fun M hM => ?_⟩
  obtain ⟨sm, si, hs⟩ := hN1 M (by omega)
  obtain ⟨iA, hA⟩ := hN2 M (by omega)
  obtain ⟨iB, hB⟩ := hN3 M (by omega)
  have hM2 : 2 ≤ M := by omega
  have hM0 : (0:ℝ) < M := by
    have : 0 < M := by omega
    exact_mod_cast this
  have hM11 : (M:ℝ) - 1 ≠ 0 := by
    have : (2:ℝ) ≤ M := by exact_mod_cast hM2
    linarith
  have e : ∀ x : Fin M → E, ks K y (eqW (List.ofFn x)) = ksFair K y (List.ofFn x)
      + (oneAvg (fun x => K x x) x - fairAvg K x) * (1 / (2 * M)) := fun x => by
    rw [ks_ofFn, ksFair_ofFn]
    unfold fairAvg oneAvg
    field_simp
    ring
  have iA' := (iA.sub (integrable_const (pairMean K Q Q))).abs
  have iB' := (iB.sub (integrable_const (∫ x, K x x ∂Q))).abs
  have hT : AEStronglyMeasurable (fun x : Fin M → E => ks K y (eqW (List.ofFn x))) (iid M Q) := by
    have : (fun x : Fin M → E => ks K y (eqW (List.ofFn x))) = fun x => ksFair K y (List.ofFn x)
      + (oneAvg (fun x => K x x) x - fairAvg K x) * (1 / (2 * M)) := funext e
    rw [this]
    exact sm.add ((iB.sub iA).mul_const _).aestronglyMeasurable
  have hi1 : Integrable (fun x : Fin M → E => 1 / (2 * (M:ℝ)) * |oneAvg (fun x => K x x) x - ∫ x, K x x ∂Q|) (iid M Q) :=
    iB'.const_mul _
  have hi2 : Integrable (fun x : Fin M → E => 1 / (2 * (M:ℝ)) * |fairAvg K x - pairMean K Q Q|) (iid M Q) :=
    iA'.const_mul _
  have hi3 : Integrable (fun _ : Fin M → E => 1 / (2 * (M:ℝ)) * τ) (iid M Q) := integrable_const _
  have hi12 : Integrable (fun x : Fin M → E => 1 / (2 * (M:ℝ)) * |oneAvg (fun x => K x x) x - ∫ x, K x x ∂Q|
      + 1 / (2 * (M:ℝ)) * |fairAvg K x - pairMean K Q Q|) (iid M Q) := hi1.add hi2
  have hi123 : Integrable (fun x : Fin M → E => (1 / (2 * (M:ℝ)) * |oneAvg (fun x => K x x) x - ∫ x, K x x ∂Q|
      + 1 / (2 * (M:ℝ)) * |fairAvg K x - pairMean K Q Q|) + 1 / (2 * (M:ℝ)) * τ) (iid M Q) := hi12.add hi3
  have hi : Integrable (fun x : Fin M → E => |ksFair K y (List.ofFn x) - ksLaw K y Q|
      + ((1 / (2 * (M:ℝ)) * |oneAvg (fun x => K x x) x - ∫ x, K x x ∂Q|
      + 1 / (2 * (M:ℝ)) * |fairAvg K x - pairMean K Q Q|) + 1 / (2 * (M:ℝ)) * τ)) (iid M Q) := si.add hi123
  have hb : ∀ x : Fin M → E, |ks K y (eqW (List.ofFn x)) - ksLaw K y Q| ≤ |ksFair K y (List.ofFn x) - ksLaw K y Q|
      + ((1 / (2 * (M:ℝ)) * |oneAvg (fun x => K x x) x - ∫ x, K x x ∂Q|
      + 1 / (2 * (M:ℝ)) * |fairAvg K x - pairMean K Q Q|) + 1 / (2 * (M:ℝ)) * τ) := fun x => by
    rw [e x, add_sub_right_comm]
    refine (abs_add_le _ _).trans (add_le_add le_rfl ?_)
    rw [abs_mul, abs_of_nonneg (by positivity : (0:ℝ) ≤ 1 / (2 * M)), mul_comm, ← mul_add, ← mul_add]
    refine mul_le_mul_of_nonneg_left ?_ (by positivity)
    have : oneAvg (fun x => K x x) x - fairAvg K x = (oneAvg (fun x => K x x) x - ∫ x, K x x ∂Q)
        - (fairAvg K x - pairMean K Q Q) + (∫ x, K x x ∂Q - pairMean K Q Q) := by ring
    rw [this]
    exact (abs_add_le _ _).trans (add_le_add (abs_sub _ _) le_rfl)
  have hTi : Integrable (fun x : Fin M → E => |ks K y (eqW (List.ofFn x)) - ksLaw K y Q|) (iid M Q) := by
    refine Integrable.mono' hi ((hT.sub aestronglyMeasurable_const).norm) (ae_of_all _ fun x => ?_)
    rw [Real.norm_eq_abs, abs_abs]
    exact hb x
  refine ⟨fun x => ks K y (eqW (List.ofFn x)), ae_of_all _ fun _ => rfl, hTi, (integral_mono hTi hi hb).trans ?_⟩
  rw [integral_add si hi123, integral_add hi12 hi3, integral_add hi1 hi2, integral_const_mul, integral_const_mul,
    integral_const]
  simp only [probReal_univ, one_smul]
  have hτM : (2 + τ) ≤ M * ε := by
    have h4 : ((N4:ℕ):ℝ) ≤ M := by exact_mod_cast (by omega : N4 ≤ M)
    have := hN4.trans h4
    rwa [div_le_iff₀ hε] at this
  have h5 : 1 / (2 * (M:ℝ)) * (2 + τ) ≤ ε / 2 := by
    rw [one_div, inv_mul_le_iff₀ (by positivity)]
    linarith
  have hnn : (0:ℝ) ≤ 1 / (2 * M) := by positivity
  nlinarith [mul_le_mul_of_nonneg_left hA hnn, mul_le_mul_of_nonneg_left hB hnn]

end

end Verif
