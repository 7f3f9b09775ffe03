import Verif.Lemmas.GradGtc
import Verif.Props.GradEdge

/-!
# C132: gradients of the truncated scores at, beyond and without bounds
-/

noncomputable section

open scoped Classical Topology

namespace Verif

open XF Py Mv Node Filter Spec

/-- `crps_gtcnormal` and `crps_gtclogistic` with finite bounds, at an observation between or beyond the bounds: the
gradients with respect to the observation, the location, the scale, the bounds and the point masses are the
derivatives.  Not so at a bound (`C132_tnormal_edge_false`). -/
theorem C132_gtc_partial {y m s l u L U : ℝ} (hs : 0 < s) (hlu : l < u) (h1 : y ≠ l) (h2 : y ≠ u) (hLU : L + U ≠ 1)
    {G : Node → Node → Node → Node → Node → Node → Node → Node} {S : XF → XF → XF → XF → XF → XF → XF → XF}
    (hG : (G = Grad.gtcnormal ∧ S = Closed.gtcnormal) ∨ (G = Grad.gtclogistic ∧ S = Closed.gtclogistic)) :
    IsGradient (fun t => S t (fin m) (fin s) (fin l) (fin u) (fin L) (fin U)) y
      (G (leaf (fin y)) (const (fin m)) (const (fin s)) (const (fin l)) (const (fin u)) (const (fin L))
        (const (fin U))).grad ∧
    IsGradient (fun t => S (fin y) t (fin s) (fin l) (fin u) (fin L) (fin U)) m
      (G (const (fin y)) (leaf (fin m)) (const (fin s)) (const (fin l)) (const (fin u)) (const (fin L))
        (const (fin U))).grad ∧
    IsGradient (fun t => S (fin y) (fin m) t (fin l) (fin u) (fin L) (fin U)) s
      (G (const (fin y)) (const (fin m)) (leaf (fin s)) (const (fin l)) (const (fin u)) (const (fin L))
        (const (fin U))).grad ∧
    IsGradient (fun t => S (fin y) (fin m) (fin s) t (fin u) (fin L) (fin U)) l
      (G (const (fin y)) (const (fin m)) (const (fin s)) (leaf (fin l)) (const (fin u)) (const (fin L))
        (const (fin U))).grad ∧
    IsGradient (fun t => S (fin y) (fin m) (fin s) (fin l) t (fin L) (fin U)) u
      (G (const (fin y)) (const (fin m)) (const (fin s)) (const (fin l)) (leaf (fin u)) (const (fin L))
        (const (fin U))).grad ∧
    IsGradient (fun t => S (fin y) (fin m) (fin s) (fin l) (fin u) t (fin U)) L
      (G (const (fin y)) (const (fin m)) (const (fin s)) (const (fin l)) (const (fin u)) (leaf (fin L))
        (const (fin U))).grad ∧
    IsGradient (fun t => S (fin y) (fin m) (fin s) (fin l) (fin u) (fin L) t) U
      (G (const (fin y)) (const (fin m)) (const (fin s)) (const (fin l)) (const (fin u)) (const (fin L))
        (leaf (fin U))).grad := by
  have k1 := Tr.gtc (θ := y) Tr.leaf (Tr.const m) (Tr.const s) (Tr.const l) (Tr.const u) (Tr.const L) (Tr.const U)
    hs hlu h1 h2 hLU
  have k2 := Tr.gtc (θ := m) (Tr.const y) Tr.leaf (Tr.const s) (Tr.const l) (Tr.const u) (Tr.const L) (Tr.const U)
    hs hlu h1 h2 hLU
  have k3 := Tr.gtc (θ := s) (Tr.const y) (Tr.const m) Tr.leaf (Tr.const l) (Tr.const u) (Tr.const L) (Tr.const U)
    hs hlu h1 h2 hLU
  have k4 := Tr.gtc (θ := l) (Tr.const y) (Tr.const m) (Tr.const s) Tr.leaf (Tr.const u) (Tr.const L) (Tr.const U)
    hs hlu h1 h2 hLU
  have k5 := Tr.gtc (θ := u) (Tr.const y) (Tr.const m) (Tr.const s) (Tr.const l) Tr.leaf (Tr.const L) (Tr.const U)
    hs hlu h1 h2 hLU
  have k6 := Tr.gtc (θ := L) (Tr.const y) (Tr.const m) (Tr.const s) (Tr.const l) (Tr.const u) Tr.leaf (Tr.const U)
    hs hlu h1 h2 hLU
  have k7 := Tr.gtc (θ := U) (Tr.const y) (Tr.const m) (Tr.const s) (Tr.const l) (Tr.const u) (Tr.const L) Tr.leaf
    hs hlu h1 h2 hLU
  rcases hG with ⟨rfl, rfl⟩ | ⟨rfl, rfl⟩
  · exact ⟨k1.1.choose_spec.isGradient fun _ => gtcnormal_val .., k2.1.choose_spec.isGradient fun _ => gtcnormal_val ..,
      k3.1.choose_spec.isGradient fun _ => gtcnormal_val .., k4.1.choose_spec.isGradient fun _ => gtcnormal_val ..,
      k5.1.choose_spec.isGradient fun _ => gtcnormal_val .., k6.1.choose_spec.isGradient fun _ => gtcnormal_val ..,
      k7.1.choose_spec.isGradient fun _ => gtcnormal_val ..⟩
  · exact ⟨k1.2.choose_spec.isGradient fun _ => gtclogistic_val ..,
      k2.2.choose_spec.isGradient fun _ => gtclogistic_val .., k3.2.choose_spec.isGradient fun _ => gtclogistic_val ..,
      k4.2.choose_spec.isGradient fun _ => gtclogistic_val .., k5.2.choose_spec.isGradient fun _ => gtclogistic_val ..,
      k6.2.choose_spec.isGradient fun _ => gtclogistic_val .., k7.2.choose_spec.isGradient fun _ => gtclogistic_val ..⟩

/-- an observation beyond the bounds 0 and 2 -/
example : (0:ℝ) < 1 ∧ (0:ℝ) < 2 ∧ (3:ℝ) ≠ 0 ∧ (3:ℝ) ≠ 2 ∧ (1 / 4 : ℝ) + 1 / 4 ≠ 1 := by norm_num

/-- At an observation equal to a bound the gradient of `crps_tnormal` with respect to the observation is half the
derivative: -1/2 instead of -1 at the lower bound, 1/2 instead of 1 at the upper bound, whether the other bound is
finite or not. -/
theorem C132_tnormal_edge_false {s : ℝ} (m : ℝ) (hs : 0 < s) :
    (∀ l u : ℝ, l < u →
      ((Grad.tnormal (leaf (fin l)) (const (fin m)) (const (fin s)) (const (fin l)) (const (fin u))).grad = fin (-1 / 2) ∧
        IsGradient (fun t => Closed.tnormal t (fin m) (fin s) (fin l) (fin u)) l (fin (-1))) ∧
      ((Grad.tnormal (leaf (fin u)) (const (fin m)) (const (fin s)) (const (fin l)) (const (fin u))).grad = fin (1 / 2) ∧
        IsGradient (fun t => Closed.tnormal t (fin m) (fin s) (fin l) (fin u)) u (fin 1))) ∧
    (∀ l : ℝ,
      (Grad.tnormal (leaf (fin l)) (const (fin m)) (const (fin s)) (const (fin l)) (const pinf)).grad = fin (-1 / 2) ∧
        IsGradient (fun t => Closed.tnormal t (fin m) (fin s) (fin l) pinf) l (fin (-1))) ∧
    (∀ u : ℝ,
      (Grad.tnormal (leaf (fin u)) (const (fin m)) (const (fin s)) (const ninf) (const (fin u))).grad = fin (1 / 2) ∧
        IsGradient (fun t => Closed.tnormal t (fin m) (fin s) ninf (fin u)) u (fin 1)) := by
  have hcm := isDensity_mono (C57_normal m hs).1
  have hcc := isDensity_continuous (C57_normal m hs).1
  have hN : ∀ x, cdfNormal m s x = Φ ((x - m) / s) := fun _ => rfl
  have hst : ∀ {a b : ℝ}, a < b → (a - m) / s < (b - m) / s := fun h =>
    (div_lt_div_iff_of_pos_right hs).2 (by linarith)
  refine ⟨fun l u hlu => ⟨⟨?_, ?_⟩, ?_, ?_⟩, fun l => ⟨?_, ?_⟩, fun u => ⟨?_, ?_⟩⟩
  · obtain ⟨hz, hA⟩ := clamp_lower (l := l) (m := m) hs (u := fin u) (by rw [fin_lt]; exact hlu)
    have hF := Φ_strictMono (hst hlu)
    obtain ⟨_, h⟩ := normCore_obs (s := s) hA hz (nstd_dead (fin u) m s) (nstd_dead (fin l) m s)
      (by rw [nstd_fin _ _ hs]; simp) (by rw [nstd_fin _ _ hs]; simp) (by rw [nstd_fin _ _ hs]; simp)
      (by rw [nstd_fin _ _ hs]; simp) (by rw [nstd_fin _ _ hs, nstd_fin _ _ hs]; exact hF.ne')
    refine h.grad.trans ?_
    rw [nstd_fin _ _ hs, nstd_fin _ _ hs, fin_inj]
    simp only [endF]
    have := sub_pos.2 hF
    field_simp; ring
  · have h := C119_derivative (score := fun t => Closed.tnormal t (fin m) (fin s) (fin l) (fin u))
      (C119_gtcnormal hs hlu le_rfl le_rfl (by norm_num) m) (θ := l) univ_mem
      (cdfGtc_cont_lower hcm hcc hlu (by rw [hN, hN]; exact Φ_strictMono (hst hlu)))
    convert h using 2
    rw [cdfGtc, if_neg (lt_irrefl _), if_pos hlu]; simp
  · obtain ⟨hz, hA⟩ := clamp_upper (u := u) (m := m) hs (l := fin l) (by rw [fin_lt]; exact hlu)
    have hF := Φ_strictMono (hst hlu)
    obtain ⟨_, h⟩ := normCore_obs (s := s) hA hz (nstd_dead (fin u) m s) (nstd_dead (fin l) m s)
      (by rw [nstd_fin _ _ hs]; simp) (by rw [nstd_fin _ _ hs]; simp) (by rw [nstd_fin _ _ hs]; simp)
      (by rw [nstd_fin _ _ hs]; simp) (by rw [nstd_fin _ _ hs, nstd_fin _ _ hs]; exact hF.ne')
    refine h.grad.trans ?_
    rw [nstd_fin _ _ hs, nstd_fin _ _ hs, fin_inj]
    simp only [endF]
    have := sub_pos.2 hF
    field_simp; ring
  · have h := C119_derivative (score := fun t => Closed.tnormal t (fin m) (fin s) (fin l) (fin u))
      (C119_gtcnormal hs hlu le_rfl le_rfl (by norm_num) m) (θ := u) univ_mem
      (cdfGtc_cont_upper hcm hcc hlu (by rw [hN, hN]; exact Φ_strictMono (hst hlu)))
    convert h using 2
    rw [cdfGtc, if_neg (not_lt.2 hlu.le), if_neg (lt_irrefl _)]; norm_num
  · obtain ⟨hz, hA⟩ := clamp_lower (l := l) (m := m) hs (u := pinf) (by simp)
    have hF := Φ_lt_one ((l - m) / s)
    obtain ⟨_, h⟩ := normCore_obs (s := s) hA hz (nstd_dead pinf m s) (nstd_dead (fin l) m s)
      (by rw [nstd_pinf _ hs]; simp) (by rw [nstd_fin _ _ hs]; simp) (by rw [nstd_pinf _ hs]; simp)
      (by rw [nstd_fin _ _ hs]; simp) (by rw [nstd_fin _ _ hs, nstd_pinf _ hs]; exact hF.ne')
    refine h.grad.trans ?_
    rw [nstd_fin _ _ hs, nstd_pinf _ hs, fin_inj]
    simp only [endF]
    have := sub_pos.2 hF
    field_simp; ring
  · have hF := sub_pos.2 (Φ_lt_one ((l - m) / s))
    have hc : ContinuousAt (cdfGtcLo (cdfNormal m s) l 0) l := by
      have h2 : ContinuousAt (fun z => max 0 ((cdfNormal m s z - cdfNormal m s l) / (1 - cdfNormal m s l))) l := by
        apply Continuous.continuousAt; fun_prop
      refine h2.congr (Eventually.of_forall fun z => ?_)
      have hF' : 0 < 1 - cdfNormal m s l := hF
      unfold cdfGtcLo
      beta_reduce
      split_ifs with h
      · exact max_eq_left (div_nonpos_of_nonpos_of_nonneg (by linarith [hcm h.le]) hF'.le)
      · rw [max_eq_right (div_nonneg (by linarith [hcm (not_lt.1 h)]) hF'.le)]; ring
    have h := C119_derivative (score := fun t => Closed.tnormal t (fin m) (fin s) (fin l) pinf)
      (C119_gtcnormal_lower hs le_rfl one_pos m l) (θ := l) univ_mem hc
    convert h using 2
    rw [cdfGtcLo, if_neg (lt_irrefl _)]; simp
  · obtain ⟨hz, hA⟩ := clamp_upper (u := u) (m := m) hs (l := ninf) (by simp)
    have hF := Φ_pos ((u - m) / s)
    obtain ⟨_, h⟩ := normCore_obs (s := s) hA hz (nstd_dead (fin u) m s) (nstd_dead ninf m s)
      (by rw [nstd_fin _ _ hs]; simp) (by rw [nstd_ninf _ hs]; simp) (by rw [nstd_fin _ _ hs]; simp)
      (by rw [nstd_ninf _ hs]; simp) (by rw [nstd_fin _ _ hs, nstd_ninf _ hs]; exact hF.ne')
    refine h.grad.trans ?_
    rw [nstd_fin _ _ hs, nstd_ninf _ hs, fin_inj]
    simp only [endF]
    generalize Φ ((u - m) / s) = p at hF ⊢
    have hp : p - 0 ≠ 0 := by simpa using hF.ne'
    field_simp; ring
  · have hF : 0 < cdfNormal m s u := Φ_pos ((u - m) / s)
    have hc : ContinuousAt (cdfGtcUp (cdfNormal m s) u 0) u := by
      have h2 : ContinuousAt (fun z => min 1 (cdfNormal m s z / cdfNormal m s u)) u := by
        apply Continuous.continuousAt; fun_prop
      refine h2.congr (Eventually.of_forall fun z => ?_)
      unfold cdfGtcUp
      beta_reduce
      split_ifs with h
      · rw [min_eq_right (by rw [div_le_one hF]; exact hcm h.le)]; ring
      · exact min_eq_left (by rw [one_le_div hF]; exact hcm (not_lt.1 h))
    have h := C119_derivative (score := fun t => Closed.tnormal t (fin m) (fin s) ninf (fin u))
      (C119_gtcnormal_upper hs le_rfl one_pos m u) (θ := u) univ_mem hc
    convert h using 2
    rw [cdfGtcUp, if_neg (lt_irrefl _)]; norm_num

/-- scale 2, bounds 0 and 1 -/
example : (0:ℝ) < 2 ∧ (0:ℝ) < 1 := by norm_num

/-- At an observation equal to a bound the gradient of `crps_tlogistic` with respect to the observation is half the
derivative as well. -/
theorem C132_tlogistic_edge_false {s l u : ℝ} (m : ℝ) (hs : 0 < s) (hlu : l < u) :
    ((Grad.tlogistic (leaf (fin l)) (const (fin m)) (const (fin s)) (const (fin l)) (const (fin u))).grad = fin (-1 / 2) ∧
      IsGradient (fun t => Closed.tlogistic t (fin m) (fin s) (fin l) (fin u)) l (fin (-1))) ∧
    ((Grad.tlogistic (leaf (fin u)) (const (fin m)) (const (fin s)) (const (fin l)) (const (fin u))).grad = fin (1 / 2) ∧
      IsGradient (fun t => Closed.tlogistic t (fin m) (fin s) (fin l) (fin u)) u (fin 1)) := by
  have hcm := isDensity_mono (C57_logistic m hs).1
  have hcc := isDensity_continuous (C57_logistic m hs).1
  have hN : ∀ x, cdfLogistic m s x = logis ((x - m) / s) := fun _ => rfl
  have hst : (l - m) / s < (u - m) / s := (div_lt_div_iff_of_pos_right hs).2 (by linarith)
  have hF := logis_strictMono hst
  have hF' := sub_pos.2 hF
  have hlt : cdfLogistic m s l < cdfLogistic m s u := by rw [hN, hN]; exact hF
  refine ⟨⟨?_, ?_⟩, ?_, ?_⟩
  · obtain ⟨hz, hA⟩ := clamp_lower (l := l) (m := m) hs (u := fin u) (by rw [fin_lt]; exact hlu)
    obtain ⟨_, h⟩ := logisCore_obs (s := s) hA hz (nstd_dead (fin u) m s) (nstd_dead (fin l) m s)
      (nstd_fin _ _ hs) (nstd_fin _ _ hs) hst
    refine h.grad.trans ?_
    rw [fin_inj]
    field_simp; ring
  · have h := C119_derivative (score := fun t => Closed.tlogistic t (fin m) (fin s) (fin l) (fin u))
      (C119_gtclogistic hs hlu le_rfl le_rfl (by norm_num) m) (θ := l) univ_mem (cdfGtc_cont_lower hcm hcc hlu hlt)
    convert h using 2
    rw [cdfGtc, if_neg (lt_irrefl _), if_pos hlu]; simp
  · obtain ⟨hz, hA⟩ := clamp_upper (u := u) (m := m) hs (l := fin l) (by rw [fin_lt]; exact hlu)
    obtain ⟨_, h⟩ := logisCore_obs (s := s) hA hz (nstd_dead (fin u) m s) (nstd_dead (fin l) m s)
      (nstd_fin _ _ hs) (nstd_fin _ _ hs) hst
    refine h.grad.trans ?_
    rw [fin_inj]
    field_simp; ring
  · have h := C119_derivative (score := fun t => Closed.tlogistic t (fin m) (fin s) (fin l) (fin u))
      (C119_gtclogistic hs hlu le_rfl le_rfl (by norm_num) m) (θ := u) univ_mem (cdfGtc_cont_upper hcm hcc hlu hlt)
    convert h using 2
    rw [cdfGtc, if_neg (not_lt.2 hlu.le), if_neg (lt_irrefl _)]; norm_num

/-- scale 2, bounds 0 and 1 -/
example : (0:ℝ) < 2 ∧ (0:ℝ) < 1 := by norm_num

end Verif
