import Verif.Lemmas.RoundEnergyLoop
import Verif.Props.RoundEnergy

/-!
# Property C168: accuracy of the compiled energy score in binary64

The loops of the numba path (`core/energy/_gufuncs.py`) with a norm routine of relative error `K / 2 ^ 51` compute the
energy score of data below `2 ^ 940` up to `(K + M ^ 2) / 2 ^ 46` times the mean distance of the members from the
observation.  A scaled norm routine works for data of every size up to there, so there is neither the overflow at
`2 ^ 513` nor the loss of differences below `2 ^ -540` of the array path (`C154_overflow_false`,
`C154_underflow_false`).
-/

noncomputable section

open scoped Classical

namespace Verif

open XF Py Mv Spec

/-- Without rounding and with the exact norm the functions are those of the exact model. -/
theorem C168_exact : RndLoop.esNrg fin Mv.vnorm = EsGufunc.nrg ∧ RndLoop.esFair fin Mv.vnorm = EsGufunc.fair ∧
    RndLoop.esAkr fin Mv.vnorm = EsGufunc.akr ∧ RndLoop.esAkrCircperm fin Mv.vnorm = EsGufunc.akrCircperm := by
  refine ⟨?_, ?_, ?_, ?_⟩ <;> funext y xs
  · unfold RndLoop.esNrg EsGufunc.nrg
    simp only [rd_fin_eq, esLoop_exact]
  · unfold RndLoop.esFair EsGufunc.fair
    simp only [rd_fin_eq, esLoop_exact]
  · simp only [RndLoop.esAkr, RndLoop.esCirc, EsGufunc.akr, rd_fin_eq, Rnd.vsub, Mv.vsub]
  · simp only [RndLoop.esAkrCircperm, RndLoop.esCirc, EsGufunc.akrCircperm, rd_fin_eq, Rnd.vsub, Mv.vsub]

example : RndLoop.esNrg fin Mv.vnorm (vec (!₂[1, 2] : Eu 2)) (plane3.map vec) = fin (es !₂[1, 2] (equalW plane3)) := by
  rw [C168_exact.1]
  exact EsGufunc.nrg_fin _ _ (by simp [plane3])

/-- a norm routine as in the assumption exists: the correctly rounded norm -/
theorem normAcc_rd {r : ℝ → XF} (hr : Binary64 r) {D : ℕ} (hD : D ≤ 2 ^ 20) :
    NormAcc (fun v => Rnd.rd r (Mv.vnorm v)) D 1 := by
  intro v hv
  have hn : ‖v‖ ≤ 2 ^ 1000 := by
    refine (norm_le_of_coord hD (by positivity) hv).trans ?_
    rw [← pow_add]
    exact pow_le_pow_right₀ (by norm_num) (by norm_num)
  have h : SqNear (1 / 2 ^ 1060) (fin ‖v‖) ‖v‖ 0 0 := ⟨‖v‖, rfl, norm_nonneg v, by simp⟩
  obtain ⟨b, e, b0, hb⟩ := h.rd hr unit_nrm (norm_nonneg v) hn (by norm_num) (by norm_num)
  refine ⟨b, ?_, b0, hb.trans (le_of_eq ?_)⟩
  · dsimp only
    rw [vnorm_vec]
    exact e
  · rw [zero_add, one_mul, one_mul]

example : NormAcc (fun v => Rnd.rd rn64 (Mv.vnorm v)) 2 1 := normAcc_rd rn64_nearest.toBinary64 (by norm_num)

/-- Full property: for all finite data the energy score computed by the compiled loop in binary64, with an accurate norm
routine, is close to the energy score.  Proved for coordinates up to `2 ^ 940` and up to `2 ^ 20` members and coordinates;
missing: larger data, for which it is false (`C168_overflow_false`). -/
theorem C168_nrg_partial {r : ℝ → XF} (hr : Binary64 r) {D : ℕ} (hD : D ≤ 2 ^ 20) {N : List XF → XF} {K : ℝ} (hK0 : 0 ≤ K)
    (hK : K ≤ 2 ^ 20) (hN : NormAcc N D K) {y : Eu D} {xs : List (Eu D)} (hne : xs ≠ []) (hM : xs.length ≤ 2 ^ 20)
    (hy : ∀ i, |y i| ≤ 2 ^ 940) (hx : ∀ x ∈ xs, ∀ i, |x i| ≤ 2 ^ 940) :
    ∃ v : ℝ, RndLoop.esNrg r N (vec y) (xs.map vec) = fin v ∧
      |v - es y (equalW xs)|
        ≤ (K + (xs.length : ℝ) ^ 2) / 2 ^ 46 * ((xs.map fun x => dist x y).sum / xs.length) + 1 / 2 ^ 1055 := by
  have hM' : (xs.length : ℝ) ≤ 2 ^ 20 := by exact_mod_cast hM
  have hM1 : (1:ℝ) ≤ xs.length := by exact_mod_cast List.length_pos_iff.mpr hne
  have hMM : (xs.length : ℝ) ^ 2 ≤ 2 ^ 40 := by
    calc (xs.length : ℝ) ^ 2 ≤ (2 ^ 20) ^ 2 := pow_le_pow_left₀ (Nat.cast_nonneg _) hM' 2
      _ = 2 ^ 40 := by rw [← pow_mul]
  obtain ⟨v, e, hv⟩ := esLoop_near hr hN hD hK0 hK hne hM hy hx (Q := (xs.length : ℝ) ^ 2) (one_le_pow₀ hM1)
    (by linarith only [sq_nonneg (xs.length : ℝ)]) hMM
  refine ⟨v, ?_, ?_⟩
  · unfold RndLoop.esNrg
    rw [List.length_map]
    dsimp only
    rw [natCast_fin, natCast_fin, half_fin, Nat.cast_pow]
    rw [fin_div (by positivity)]
    exact e
  · rw [es_equal_eq]
    exact hv

theorem plane3_bound' : ∀ x ∈ plane3, ∀ i, |x i| ≤ 2 ^ 940 := fun x hx i =>
  (plane3_bound x hx i).trans (pow_le_pow_right₀ (by norm_num) (by norm_num))

example : Binary64 rn64 ∧ 2 ≤ 2 ^ 20 ∧ (0:ℝ) ≤ 1 ∧ (1:ℝ) ≤ 2 ^ 20 ∧ NormAcc (fun v => Rnd.rd rn64 (Mv.vnorm v)) 2 1 ∧
    plane3 ≠ [] ∧ plane3.length ≤ 2 ^ 20 ∧ (∀ i, |(!₂[1, 2] : Eu 2) i| ≤ 2 ^ 940) ∧ ∀ x ∈ plane3, ∀ i, |x i| ≤ 2 ^ 940 :=
  ⟨rn64_nearest.toBinary64, by norm_num, by norm_num, by norm_num, normAcc_rd rn64_nearest.toBinary64 (by norm_num),
    by simp [plane3], by simp [plane3], plane3_bound' _ (by simp [plane3]), plane3_bound'⟩

/-- The same for the fair form, for two members or more. -/
theorem C168_fair_partial {r : ℝ → XF} (hr : Binary64 r) {D : ℕ} (hD : D ≤ 2 ^ 20) {N : List XF → XF} {K : ℝ} (hK0 : 0 ≤ K)
    (hK : K ≤ 2 ^ 20) (hN : NormAcc N D K) {y : Eu D} {xs : List (Eu D)} (h2 : 2 ≤ xs.length) (hM : xs.length ≤ 2 ^ 20)
    (hy : ∀ i, |y i| ≤ 2 ^ 940) (hx : ∀ x ∈ xs, ∀ i, |x i| ≤ 2 ^ 940) :
    ∃ v : ℝ, RndLoop.esFair r N (vec y) (xs.map vec) = fin v ∧
      |v - Spec.esFair y xs|
        ≤ (K + (xs.length : ℝ) ^ 2) / 2 ^ 46 * ((xs.map fun x => dist x y).sum / xs.length) + 1 / 2 ^ 1055 := by
  have hne : xs ≠ [] := by intro e; simp [e] at h2
  have hM' : (xs.length : ℝ) ≤ 2 ^ 20 := by exact_mod_cast hM
  have h2' : (2:ℝ) ≤ xs.length := by exact_mod_cast h2
  have hMM : (xs.length : ℝ) * ((xs.length : ℝ) - 1) ≤ 2 ^ 40 := by
    calc (xs.length : ℝ) * ((xs.length : ℝ) - 1) ≤ 2 ^ 20 * 2 ^ 20 :=
          mul_le_mul hM' (by linarith only [hM']) (by linarith only [h2']) (by positivity)
      _ = 2 ^ 40 := by rw [← pow_add]
  have hQ1 : 1 ≤ (xs.length : ℝ) * ((xs.length : ℝ) - 1) := by nlinarith only [h2']
  obtain ⟨v, e, hv⟩ := esLoop_near hr hN hD hK0 hK hne hM hy hx (Q := (xs.length : ℝ) * ((xs.length : ℝ) - 1)) hQ1
    (by nlinarith only [h2']) hMM
  refine ⟨v, ?_, ?_⟩
  · unfold RndLoop.esFair
    rw [List.length_map]
    dsimp only
    rw [natCast_fin, natCast_fin, half_fin, natPred_cast h2]
    rw [fin_div (by linarith only [hQ1])]
    exact e
  · have e2 : Spec.esFair y xs = meanDist y xs - 1 / 2 * (pairDist xs / ((xs.length : ℝ) * ((xs.length : ℝ) - 1))) := by
      unfold Spec.esFair meanDist pairDist
      rw [mul_comm (2:ℝ), ← div_div]
      ring
    rw [e2]
    exact hv

example : Binary64 rn64 ∧ 2 ≤ 2 ^ 20 ∧ (0:ℝ) ≤ 1 ∧ (1:ℝ) ≤ 2 ^ 20 ∧ NormAcc (fun v => Rnd.rd rn64 (Mv.vnorm v)) 2 1 ∧
    2 ≤ plane3.length ∧ plane3.length ≤ 2 ^ 20 ∧ (∀ i, |(!₂[1, 2] : Eu 2) i| ≤ 2 ^ 940) ∧
    ∀ x ∈ plane3, ∀ i, |x i| ≤ 2 ^ 940 :=
  ⟨rn64_nearest.toBinary64, by norm_num, by norm_num, by norm_num, normAcc_rd rn64_nearest.toBinary64 (by norm_num),
    by simp [plane3], by simp [plane3], plane3_bound' _ (by simp [plane3]), plane3_bound'⟩

/-- the mean distance between every member and the one `s` places after it, the members arranged in a circle -/
def Spec.circleDist {D : ℕ} (s : ℕ) (xs : List (Eu D)) : ℝ :=
  ((List.range xs.length).map fun i => dist (xs.getD i 0) (xs.getD ((i + s) % xs.length) 0)).sum / xs.length

/-- Full property: for all finite data `akr` and `akr_circperm` of the compiled loops in binary64 are close to their exact
values, relative to the distances that enter; the partner of a member is the one before it, or the one half the ensemble
further on.  Proved for coordinates up to `2 ^ 940` and up to `2 ^ 20` members and coordinates; missing: larger data, for
which distances may be beyond binary64. -/
theorem C168_akr_partial {r : ℝ → XF} (hr : Nearest64 r) {D : ℕ} (hD : D ≤ 2 ^ 20) {N : List XF → XF} {K : ℝ} (hK0 : 0 ≤ K)
    (hK : K ≤ 2 ^ 20) (hN : NormAcc N D K) {y : Eu D} {xs : List (Eu D)} (hne : xs ≠ []) (hM : xs.length ≤ 2 ^ 20)
    (hy : ∀ i, |y i| ≤ 2 ^ 940) (hx : ∀ x ∈ xs, ∀ i, |x i| ≤ 2 ^ 940) :
    (∃ v : ℝ, RndLoop.esAkr r N (vec y) (xs.map vec) = fin v ∧
      |v - ((xs.map fun x => dist x y).sum / xs.length - 1 / 2 * circleDist (xs.length - 1) xs)|
        ≤ (K + xs.length + 6) / 2 ^ 51 * ((xs.map fun x => dist x y).sum / xs.length + 1 / 2 * circleDist (xs.length - 1) xs)
          + 1 / 2 ^ 1055) ∧
    ∃ v : ℝ, RndLoop.esAkrCircperm r N (vec y) (xs.map vec) = fin v ∧
      |v - ((xs.map fun x => dist x y).sum / xs.length - 1 / 2 * circleDist (xs.length / 2) xs)|
        ≤ (K + xs.length + 6) / 2 ^ 51 * ((xs.map fun x => dist x y).sum / xs.length + 1 / 2 * circleDist (xs.length / 2) xs)
          + 1 / 2 ^ 1055 := by
  have hM0 : 0 < xs.length := List.length_pos_iff.mpr hne
  have hMp : (xs.length : ℝ) ≠ 0 := by exact_mod_cast hM0.ne'
  have h1 : Rnd.rd r (half * 1) = fin (1 / 2) := by
    rw [half_fin, one_fin, fin_mul, mul_one]
    exact half_rd hr (n := 1) (by norm_num) (by norm_num) (by norm_num)
  have sum_eq : ∀ (s : ℕ) (σ : ℕ → ℕ), (∀ i < xs.length, σ i = (i + s) % xs.length) →
      circDist σ xs / xs.length = circleDist s xs := by
    intro s σ h
    unfold circDist circleDist
    rw [Nat.sub_zero, ← List.range_eq_range', List.map_congr_left fun i hi => by rw [h i (List.mem_range.1 hi)]]
  constructor
  · have hσ : ∀ i < xs.length, (if i = 0 then xs.length else i) - 1 = (i + (xs.length - 1)) % xs.length := by
      intro i hi
      split_ifs with h0
      · rw [h0, zero_add, Nat.mod_eq_of_lt (by omega)]
      · rw [show i + (xs.length - 1) = (i - 1) + xs.length by omega, Nat.add_mod_right, Nat.mod_eq_of_lt (by omega)]
    obtain ⟨v, e, hv⟩ := esCirc_near hr.toBinary64 hN hD hK0 hK hne hM hy hx
      (σ := fun i => (if i = 0 then xs.length else i) - 1) (fun i hi => by rw [hσ i hi]; exact Nat.mod_lt _ hM0)
    rw [sum_eq _ _ hσ] at hv
    refine ⟨v, ?_, hv⟩
    unfold RndLoop.esAkr
    rw [List.length_map]
    dsimp only
    rw [h1, natCast_fin, fin_div hMp]
    exact e
  · obtain ⟨v, e, hv⟩ := esCirc_near hr.toBinary64 hN hD hK0 hK hne hM hy hx (σ := fun i => (i + xs.length / 2) % xs.length)
      (fun i hi => Nat.mod_lt _ hM0)
    rw [sum_eq _ _ fun i _ => rfl] at hv
    refine ⟨v, ?_, hv⟩
    unfold RndLoop.esAkrCircperm
    rw [List.length_map]
    dsimp only
    rw [h1, natCast_fin, fin_div hMp]
    exact e

example : Nearest64 rn64 ∧ 2 ≤ 2 ^ 20 ∧ (0:ℝ) ≤ 1 ∧ (1:ℝ) ≤ 2 ^ 20 ∧ NormAcc (fun v => Rnd.rd rn64 (Mv.vnorm v)) 2 1 ∧
    plane3 ≠ [] ∧ plane3.length ≤ 2 ^ 20 ∧ (∀ i, |(!₂[1, 2] : Eu 2) i| ≤ 2 ^ 940) ∧ ∀ x ∈ plane3, ∀ i, |x i| ≤ 2 ^ 940 :=
  ⟨rn64_nearest, by norm_num, by norm_num, by norm_num, normAcc_rd rn64_nearest.toBinary64 (by norm_num),
    by simp [plane3], by simp [plane3], plane3_bound' _ (by simp [plane3]), plane3_bound'⟩

/-- Two members `P` and `-P` with `P` at least `2 ^ 1023`, that is in the upper half of the binary64 range: the distance
between them is beyond the range, and the result is not a number at all or infinite, although the energy score `P / 2` is
well inside.  Of the norm routine only that an infinite entry gives infinity is used. -/
theorem C168_overflow_false {r : ℝ → XF} (hr : Binary64 r) {N : List XF → XF} (hN : N [pinf] = pinf) {P : ℝ}
    (hP : 2 ^ 1023 ≤ P) :
    (∀ v : ℝ, RndLoop.esNrg r N (vec (pt 0)) ([pt P, pt (-P)].map vec) ≠ fin v) ∧
      es (pt 0) (equalW [pt P, pt (-P)]) = P / 2 := by
  have hP0 : 0 < P := lt_of_lt_of_le (by positivity) hP
  constructor
  · intro v
    have e3 : [pt P, pt (-P)].map vec = [[fin P], [fin (-P)]] := by
      rw [List.map_cons, List.map_singleton, vec_pt, vec_pt]
    have e4 : Rnd.vsub r [fin P] [fin (-P)] = [pinf] := by
      show [Rnd.rd r (fin P - fin (-P))] = _
      rw [fin_sub]
      have : Rnd.rd r (fin (P - -P)) = pinf := hr.over (by
        rw [sub_neg_eq_add, ← two_mul]
        calc (2:ℝ) ^ 1024 = 2 * 2 ^ 1023 := pow_succ' _ _
          _ ≤ 2 * P := mul_le_mul_of_nonneg_left hP (by norm_num))
      rw [this]
    have e5 : (RndLoop.esLoop r N [fin 0] [[fin P], [fin (-P)]]).2 = pinf := by
      show Rnd.rd r (0 + Rnd.rd r (2 * N (Rnd.vsub r [fin P] [fin (-P)]))) = pinf
      rw [e4, hN, two_fin]
      have : fin 2 * pinf = pinf := by simp [HMul.hMul, Mul.mul, XF.mul, XF.infMul]
      rw [this]
      rfl
    obtain ⟨b, hb, hb0, hbc⟩ := rd_const hr (c := 1 / 2 / 4)
      (by rw [div_div]; refine one_div_le_one_div_of_le (by norm_num) ?_
          calc (2 * 4 : ℝ) = 2 ^ 3 := by norm_num
            _ ≤ 2 ^ 900 := pow_le_pow_right₀ (by norm_num) (by norm_num)) (by norm_num)
    have hb1 : 0 < b := by
      have := (abs_le.1 hbc).1
      clear hP
      norm_num at this; linarith
    have e6 : half / (([[fin P], [fin (-P)]].length ^ 2 : ℕ) : XF) = fin (1 / 2 / 4) := by
      rw [half_fin, natCast_fin, fin_div (by simp)]
      simp
    have e7 : fin b * pinf = pinf := by
      simp [HMul.hMul, Mul.mul, XF.mul, XF.infMul, hb1, hb1.ne']
    rw [e3, vec_pt]
    unfold RndLoop.esNrg
    dsimp only
    rw [e5, e6, hb, e7]
    show Rnd.rd r (_ - pinf) ≠ _
    generalize Rnd.rd r ((RndLoop.esLoop r N [fin 0] [[fin P], [fin (-P)]]).1 / _) = z
    cases z <;> exact fun h => XF.noConfusion h
  · clear hP
    rw [es_equal_eq]
    simp only [meanDist, pairDist, dist_pt, List.map_cons, List.map_nil, List.sum_cons, List.sum_nil, List.length_cons,
      List.length_nil, sub_zero, sub_self, abs_neg, abs_zero, sub_neg_eq_add]
    rw [abs_of_pos hP0, abs_of_pos (by linarith : 0 < P + P), show |(-P) - P| = P + P by
      rw [abs_of_neg (by linarith)]; ring]
    norm_num
    ring

example : Binary64 rn64 ∧ (fun v => Rnd.rd rn64 (Mv.vnorm v)) [pinf] = pinf ∧ (2:ℝ) ^ 1023 ≤ 2 ^ 1023 :=
  ⟨rn64_nearest.toBinary64, by
    have : Mv.vnorm [pinf] = pinf := by
      show XF.sqrt (pinf * pinf + 0) = pinf
      rfl
    dsimp only
    rw [this]
    rfl, le_refl _⟩

end Verif
