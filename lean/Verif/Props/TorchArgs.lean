import Verif.Model.TorchArgs
import Verif.Props.Comb32
import Verif.Props.Quantile
import Verif.Props.Stable

/-!
# C142: Python numbers as arguments on torch

Claim: levels, thresholds and observations given as Python numbers are used as they are, together with double precision
tensors.
-/

noncomputable section

open scoped Classical

namespace Verif

open XF Spec Py Api

variable {r : ℝ → XF}

/-- `torch.as_tensor(0.1)` -/
theorem Tc.number_tenth (hr : Nearest32 r) : Tc.number r (fin (1 / 10)) = fin (13421773 / 2 ^ 27) := by
  have := hr.eq (a := 1 / 10) (-4) 13421773 (by norm_num) (by norm_num) (by norm_num) (by norm_num)
    (by rw [abs_lt]; norm_num)
  unfold Tc.number
  show r _ = _
  rw [this]; norm_num

/-- `torch.as_tensor(0.3)` -/
theorem Tc.number_three_tenths (hr : Nearest32 r) : Tc.number r (fin (3 / 10)) = fin (10066330 / 2 ^ 25) := by
  have := hr.eq (a := 3 / 10) (-2) 10066330 (by norm_num) (by norm_num) (by norm_num) (by norm_num)
    (by rw [abs_lt]; norm_num)
  unfold Tc.number
  show r _ = _
  rw [this]; norm_num

/-- a number is moved by at most `2 ^ -24` of itself plus `2 ^ -126` -/
theorem Tc.number_near (hr : Binary32 r) {x : ℝ} (h : |x| < 2 ^ 127) :
    ∃ x' : ℝ, Tc.number r (fin x) = fin x' ∧ |x' - x| ≤ |x| / 2 ^ 24 + 1 / 2 ^ 126 := by
  obtain ⟨δ, η, h1, h2, h3⟩ := hr.acc h
  refine ⟨_, h3, ?_⟩
  have : x * (1 + δ) + η - x = x * δ + η := by ring
  rw [this]
  refine (abs_add_le _ _).trans (add_le_add ?_ h2)
  rw [abs_mul, div_eq_mul_one_div]
  exact mul_le_mul_of_nonneg_left h1 (abs_nonneg _)

/-! ### levels -/

/-- C142 is false of `quantile_score` on torch: with the level 0.1 every observation above the forecast is scored with a
larger level. -/
theorem C142_quantile_false (hr : Nearest32 r) {q y : ℝ} (h : q < y) :
    ∃ s : ℝ, Tc.quantileScore r (fin y) (fin q) (fin (1 / 10)) = .ok (fin s) ∧
      s = pinball (1 / 10) q y + 2 / (10 * 2 ^ 27) * (y - q) := by
  unfold Tc.quantileScore
  rw [Tc.number_tenth hr]
  have e : Rnd.rd r (0 - fin (13421773 / 2 ^ 27)) = fin (-(13421773 / 2 ^ 27)) := by
    have := hr.eq (a := 13421773 / 2 ^ 27) (-4) 13421773 (by norm_num) (by norm_num) (by norm_num) (by norm_num)
      (by rw [abs_lt]; norm_num)
    rw [XF.zero_def, fin_sub, zero_sub]
    show r _ = _
    rw [hr.neg, this, fin_neg]; norm_num
  have hlt : ¬ (fin y < fin q) := by rw [fin_lt]; exact not_lt.2 h.le
  simp only [XF.zero_def, XF.one_def, fin_lt, ind_def, hlt, if_false] at e ⊢
  rw [if_neg (by norm_num), e, fin_sub, fin_mul]
  refine ⟨_, rfl, ?_⟩
  unfold pinball
  rw [max_eq_left (by nlinarith)]
  ring

example : ∃ s : ℝ, Tc.quantileScore rn32 (fin 1) (fin 0) (fin (1 / 10)) = .ok (fin s) ∧
    s = pinball (1 / 10) 0 1 + 2 / (10 * 2 ^ 27) * (1 - 0) := C142_quantile_false rn32_nearest one_pos

/-- What holds of `quantile_score` on torch: the observation is scored with a level that differs from the given one by
`2 ^ -22` at most. -/
theorem C142_quantile_partial (hr : Binary32 r) {α : ℝ} (h0 : 0 ≤ α) (h1 : α ≤ 1) (q y : ℝ) :
    ∃ s α' : ℝ, Tc.quantileScore r (fin y) (fin q) (fin α) = .ok (fin s) ∧ s = pinball α' q y ∧
      |α' - α| ≤ 1 / 2 ^ 22 ∧ |s - pinball α q y| ≤ |y - q| / 2 ^ 22 := by
  obtain ⟨a, ha, ha2⟩ := Tc.number_near hr (x := α) (by rw [abs_of_nonneg h0]; linarith [show (1:ℝ) < 2 ^ 127 by norm_num])
  have a0 : 0 ≤ a := by
    have := hr.mono h0
    rw [show r 0 = fin 0 from by simpa using hr.nat 0 (by norm_num), show r α = fin a from ha, fin_le] at this
    exact this
  have a1 : a ≤ 1 := by
    have := hr.mono h1
    rw [show r 1 = fin 1 from by simpa using hr.nat 1 (by norm_num), show r α = fin a from ha, fin_le] at this
    exact this
  have hi : ∀ i : ℝ, i = 0 ∨ i = 1 → |i - a| ≤ 1 := by
    rintro i (rfl | rfl) <;> rw [abs_le] <;> constructor <;> linarith
  obtain ⟨i, hi1, hi2⟩ : ∃ i : ℝ, (i = 0 ∨ i = 1) ∧ i = if y < q then (1:ℝ) else 0 := ⟨_, by split_ifs <;> simp, rfl⟩
  have hia := hi i hi1
  obtain ⟨c, hc, hc2⟩ := Tc.number_near hr (x := i - a) (hia.trans_lt (by norm_num))
  have key : |i - c - α| ≤ 1 / 2 ^ 22 := by
    have b1 : |a - α| ≤ 1 / 2 ^ 24 + 1 / 2 ^ 126 := by
      refine ha2.trans ?_
      rw [abs_of_nonneg h0]
      have : α / 2 ^ 24 ≤ 1 / 2 ^ 24 := div_le_div_of_nonneg_right h1 (by norm_num)
      linarith
    have b2 : |c - (i - a)| ≤ 1 / 2 ^ 24 + 1 / 2 ^ 126 := by
      refine hc2.trans ?_
      have : |i - a| / 2 ^ 24 ≤ 1 / 2 ^ 24 := div_le_div_of_nonneg_right hia (by norm_num)
      linarith
    have e : i - c - α = (a - α) - (c - (i - a)) := by ring
    rw [e]
    refine (abs_sub _ _).trans ((add_le_add b1 b2).trans ?_)
    norm_num
  have hp : ∀ α' : ℝ, pinball α' q y = (i - α') * (q - y) := fun α' => by rw [pinball_eq, hi2]
  refine ⟨c * (q - y), i - c, ?_, ?_, key, ?_⟩
  · unfold Tc.quantileScore
    rw [ha]
    simp only [XF.zero_def, XF.one_def, fin_lt, ind_def, fin_sub]
    rw [if_neg (by push Not; exact ⟨a0, a1⟩)]
    rw [← hi2, show Rnd.rd r (fin (i - a)) = fin c from hc, fin_mul]
  · rw [hp]; ring
  · rw [hp, show c * (q - y) - (i - α) * (q - y) = (i - c - α) * (y - q) by ring, abs_mul, div_eq_mul_one_div, mul_comm]
    exact mul_le_mul_of_nonneg_left key (abs_nonneg _)

example : ∃ s α' : ℝ, Tc.quantileScore rn32 (fin 1) (fin 2) (fin (1 / 10)) = .ok (fin s) ∧ s = pinball α' 2 1 ∧
    |α' - 1 / 10| ≤ 1 / 2 ^ 22 ∧ |s - pinball (1 / 10) 2 1| ≤ |(1:ℝ) - 2| / 2 ^ 22 :=
  C142_quantile_partial rn32_nearest.toBinary32 (by norm_num) (by norm_num) 2 1

/-- C142 is false of `crps_quantile` on torch: a level within `2 ^ -25` of one is refused. -/
theorem C142_crps_quantile_refused_false (hr : Binary32 r) {α : ℝ} (h1 : α < 1) (h2 : 1 - 1 / 2 ^ 25 ≤ α)
    (y : XF) (q : List XF) (l : List XF) (hl : fin α ∈ l) : Tc.crpsQuantile r y q l = .error .valueError := by
  unfold Tc.crpsQuantile
  simp only
  rw [if_pos]
  right
  refine ⟨1, List.mem_map.2 ⟨_, hl, ?_⟩, by rw [XF.one_def, fin_le]⟩
  exact hr.one (by rw [abs_le]; constructor <;> linarith)

example : Tc.crpsQuantile rn32 (fin 0) [fin 1, fin 2] [fin (1 / 2), fin (1 - 1 / 10 ^ 9)] = .error .valueError :=
  C142_crps_quantile_refused_false rn32_nearest.toBinary32 (α := 1 - 1 / 10 ^ 9) (by norm_num) (by norm_num) _ _ _ (by simp)

/-- the part of `crps_quantile` that one level contributes -/
def Tc.part (r : ℝ → XF) (y : ℝ) (p : ℝ × ℝ) : XF :=
  ind (fin p.2 ≤ fin y) * Tc.number r (fin p.1) * (fin y - fin p.2) +
    ind (fin y < fin p.2) * Rnd.rd r (1 - Tc.number r (fin p.1)) * (fin p.2 - fin y)

theorem Tc.crpsQuantile_parts (y : ℝ) (l : List (ℝ × ℝ))
    (h : ∀ p ∈ l, ∃ a : ℝ, Tc.number r (fin p.1) = fin a ∧ 0 < a ∧ a < 1) :
    Tc.crpsQuantile r (fin y) (l.map fun p => fin p.2) (l.map fun p => fin p.1)
      = .ok (2 * mean (l.map (Tc.part r y))) := by
  unfold Tc.crpsQuantile
  simp only [List.map_map]
  rw [if_neg, if_neg (by simp)]
  · simp only [zip2, List.zipWith_map, List.zipWith_self, Function.comp]
    rfl
  · rintro (⟨a, ha, h0⟩ | ⟨a, ha, h0⟩) <;>
    · obtain ⟨p, hp, rfl⟩ := List.mem_map.1 ha
      obtain ⟨b, hb, h1, h2⟩ := h p hp
      simp only [Function.comp, hb, XF.zero_def, XF.one_def, fin_le] at h0
      linarith

/-- C142 is false of `crps_quantile` on torch: with the level 0.1 a quantile above the observation is scored with a
weight below 0.9, because one minus the level is rounded again. -/
theorem C142_crps_quantile_false (hr : Nearest32 r) {q y : ℝ} (h : y < q) :
    ∃ s : ℝ, Tc.crpsQuantile r (fin y) [fin q] [fin (1 / 10)] = .ok (fin s) ∧
      s = 2 * (15099494 / 2 ^ 24) * (q - y) ∧ s < 2 * pinball (1 / 10) q y := by
  have e1 : Rnd.rd r (fin (1 - 13421773 / 2 ^ 27)) = fin (15099494 / 2 ^ 24) := by
    have := hr.eq (a := 1 - 13421773 / 2 ^ 27) (-1) 15099494 (by norm_num) (by norm_num) (by norm_num) (by norm_num)
      (by rw [abs_lt]; norm_num)
    show r _ = _
    rw [this]; norm_num
  have e := Tc.crpsQuantile_parts (r := r) y [(1 / 10, q)] (by
    intro p hp
    rw [List.mem_singleton.1 hp]
    exact ⟨_, Tc.number_tenth hr, by norm_num, by norm_num⟩)
  simp only [List.map_cons, List.map_nil] at e
  refine ⟨_, ?_, rfl, ?_⟩
  · rw [e]
    simp only [Tc.part, Tc.number_tenth hr, mean, XF.one_def, fin_sub, e1, ind_def, fin_le, fin_lt, fin_mul, fin_add,
      not_le.2 h, h, if_true, if_false, List.sum_cons, List.sum_nil, XF.zero_def, List.length_cons, List.length_nil,
      XF.ofNat_def, natCast_def]
    rw [fin_div (by norm_num), fin_mul]
    congr 2
    norm_num; ring
  · rw [pinball_eq, if_pos h]
    nlinarith

example : ∃ s : ℝ, Tc.crpsQuantile rn32 (fin 0) [fin 1] [fin (1 / 10)] = .ok (fin s) ∧
    s = 2 * (15099494 / 2 ^ 24) * (1 - 0) ∧ s < 2 * pinball (1 / 10) 1 0 := C142_crps_quantile_false rn32_nearest one_pos

/-- What holds of `crps_quantile` on torch: for levels away from zero and one it is twice the mean of the quantile
scores, up to `2 ^ -22` of the mean distance to the observation. -/
theorem C142_crps_quantile_partial (hr : Binary32 r) (y : ℝ) {l : List (ℝ × ℝ)} (hl : l ≠ [])
    (h : ∀ p ∈ l, 1 / 2 ^ 100 ≤ p.1 ∧ p.1 ≤ 1 - 1 / 2 ^ 22) :
    ∃ s : ℝ, Tc.crpsQuantile r (fin y) (l.map fun p => fin p.2) (l.map fun p => fin p.1) = .ok (fin s) ∧
      |s - 2 * ((l.map fun p => pinball p.1 p.2 y).sum / l.length)|
        ≤ 2 * ((l.map fun p => |y - p.2|).sum / l.length) / 2 ^ 22 := by
  have hn : ∀ p ∈ l, ∃ a : ℝ, Tc.number r (fin p.1) = fin a ∧ 0 < a ∧ a < 1 ∧ |a - p.1| ≤ 1 / 2 ^ 23 := by
    intro p hp
    obtain ⟨h0, h1⟩ := h p hp
    have hpos : 0 < p.1 := lt_of_lt_of_le (by positivity) h0
    obtain ⟨a, ha, hb⟩ := Tc.number_near hr (x := p.1) (by
      rw [abs_of_pos hpos]; exact (h1.trans (by norm_num : (1:ℝ) - 1 / 2 ^ 22 ≤ 1)).trans_lt (by norm_num))
    rw [abs_of_pos hpos] at hb
    have hb' := abs_le.1 hb
    refine ⟨a, ha, ?_, ?_, ?_⟩
    · norm_num at h0 h1 hb' ⊢; linarith
    · norm_num at h0 h1 hb' ⊢; linarith
    · refine hb.trans ?_
      norm_num at h0 h1 ⊢; linarith
  have hp : ∀ p ∈ l, ∃ t : ℝ, Tc.part r y p = fin t ∧ |t - pinball p.1 p.2 y| ≤ |y - p.2| / 2 ^ 22 := by
    intro p hp
    obtain ⟨a, ha, a0, a1, a2⟩ := hn p hp
    unfold Tc.part
    rw [ha]
    obtain ⟨c, hc, hc2⟩ := Tc.number_near hr (x := 1 - a) (by rw [abs_of_pos (by linarith)]; linarith [show (1:ℝ) < 2 ^ 127 by norm_num])
    rw [abs_of_pos (by linarith : 0 < 1 - a)] at hc2
    simp only [XF.one_def, fin_sub]
    rw [show Rnd.rd r (fin (1 - a)) = fin c from hc]
    simp only [ind_def, fin_le, fin_lt, fin_mul, fin_add, fin_inj]
    refine ⟨_, rfl, ?_⟩
    rw [pinball_eq]
    rcases lt_or_ge y p.2 with hy | hy
    · rw [if_neg (not_le.2 hy), if_pos hy]
      rw [show 0 * a * (y - p.2) + 1 * c * (p.2 - y) - (1 - p.1) * (p.2 - y) = (c - (1 - p.1)) * (p.2 - y) by ring,
        abs_mul, abs_sub_comm p.2 y, div_eq_mul_one_div, mul_comm]
      refine mul_le_mul_of_nonneg_left ?_ (abs_nonneg _)
      rw [show c - (1 - p.1) = (c - (1 - a)) - (a - p.1) by ring]
      refine (abs_sub _ _).trans ((add_le_add hc2 a2).trans ?_)
      norm_num; linarith
    · rw [if_pos hy, if_neg (not_lt.2 hy)]
      rw [show 1 * a * (y - p.2) + 0 * c * (p.2 - y) - (0 - p.1) * (p.2 - y) = (a - p.1) * (y - p.2) by ring,
        abs_mul, div_eq_mul_one_div, mul_comm]
      exact mul_le_mul_of_nonneg_left (a2.trans (by norm_num)) (abs_nonneg _)
  have hs : ∀ m : List (ℝ × ℝ), (∀ p ∈ m, p ∈ l) → ∃ t : ℝ, (m.map (Tc.part r y)).sum = fin t ∧
      |t - (m.map fun p => pinball p.1 p.2 y).sum| ≤ (m.map fun p => |y - p.2|).sum / 2 ^ 22 := by
    intro m
    induction m with
    | nil => intro _; exact ⟨0, by simp [XF.zero_def], by simp⟩
    | cons p m ih =>
      intro hm
      obtain ⟨t, ht, ht2⟩ := ih fun q hq => hm q (List.mem_cons_of_mem _ hq)
      obtain ⟨u, hu, hu2⟩ := hp p (hm p List.mem_cons_self)
      refine ⟨u + t, by rw [List.map_cons, List.sum_cons, ht, hu, fin_add], ?_⟩
      simp only [List.map_cons, List.sum_cons]
      rw [add_div]
      refine le_trans (le_of_eq ?_) ((abs_add_le (u - pinball p.1 p.2 y) _).trans (add_le_add hu2 ht2))
      congr 1; ring
  obtain ⟨t, ht, ht2⟩ := hs l fun _ h => h
  have hl0 : (0:ℝ) < l.length := by exact_mod_cast List.length_pos_iff.2 hl
  refine ⟨2 * (t / l.length), ?_, ?_⟩
  · rw [Tc.crpsQuantile_parts y l fun p hp => by obtain ⟨a, h1, h2, h3, -⟩ := hn p hp; exact ⟨a, h1, h2, h3⟩]
    unfold mean
    rw [ht, List.length_map, natCast_def, fin_div hl0.ne', XF.ofNat_def, fin_mul]
  · rw [← mul_sub, ← sub_div, abs_mul, abs_div, abs_of_pos (two_pos : (0:ℝ) < 2), abs_of_pos hl0, mul_div_assoc]
    refine mul_le_mul_of_nonneg_left ?_ two_pos.le
    rw [div_right_comm]
    exact div_le_div_of_nonneg_right ht2 hl0.le

example : ∃ s : ℝ, Tc.crpsQuantile rn32 (fin 0) [fin 1, fin 2] [fin (1 / 10), fin (1 / 2)] = .ok (fin s) ∧
    |s - 2 * (([(1 / 10, 1), (1 / 2, 2)].map fun p : ℝ × ℝ => pinball p.1 p.2 0).sum / 2)|
      ≤ 2 * (([(1 / 10, 1), (1 / 2, 2)].map fun p : ℝ × ℝ => |0 - p.2|).sum / 2) / 2 ^ 22 :=
  C142_crps_quantile_partial rn32_nearest.toBinary32 0 (l := [(1 / 10, 1), (1 / 2, 2)]) (by simp)
    (by intro p hp; simp only [List.mem_cons, List.not_mem_nil, or_false] at hp; rcases hp with rfl | rfl <;> norm_num)

theorem Tc.intervalScore_fin {α f : ℝ} (h : Rnd.rd r (2 / Tc.number r (fin α)) = fin f) (l u y : ℝ) :
    Tc.intervalScore r (fin y) (fin l) (fin u) (fin α) = fin ((u - l) + f * max (l - y) 0 + f * max (y - u) 0) := by
  unfold Tc.intervalScore
  rw [h]
  simp only [ind_def, ofNat_def, fin_sub, fin_mul, fin_add, fin_lt, fin_inj]
  have e1 : (if y < l then (1:ℝ) else 0) * f * (l - y) = f * max (l - y) 0 := by
    split_ifs with h
    · rw [max_eq_left (by linarith)]; ring
    · rw [max_eq_right (by linarith)]; ring
  have e2 : (if u < y then (1:ℝ) else 0) * f * (y - u) = f * max (y - u) 0 := by
    split_ifs with h
    · rw [max_eq_left (by linarith)]; ring
    · rw [max_eq_right (by linarith)]; ring
  rw [e1, e2]

/-- C142 is false of `interval_score` on torch: with the level 0.3 an observation below the interval is not penalised
enough. -/
theorem C142_interval_false (hr : Nearest32 r) {l u y : ℝ} (hlu : l ≤ u) (h : y < l) :
    ∃ s : ℝ, Tc.intervalScore r (fin y) (fin l) (fin u) (fin (3 / 10)) = fin s ∧
      s = intervalScore (3 / 10) l u y - 1 / (3 * 2 ^ 21) * (l - y) := by
  have e : Rnd.rd r (2 / Tc.number r (fin (3 / 10))) = fin (13981013 / 2 ^ 21) := by
    rw [Tc.number_three_tenths hr, XF.ofNat_def, fin_div (by norm_num)]
    have := hr.eq (a := 2 / (10066330 / 2 ^ 25)) 2 13981013 (by norm_num) (by norm_num) (by norm_num) (by norm_num)
      (by rw [abs_lt]; norm_num)
    show r _ = _
    rw [this]; norm_num
  refine ⟨_, Tc.intervalScore_fin e l u y, ?_⟩
  unfold intervalScore
  rw [max_eq_left (by linarith : (0:ℝ) ≤ l - y), max_eq_right (by linarith : y - u ≤ 0)]
  ring

example : ∃ s : ℝ, Tc.intervalScore rn32 (fin 0) (fin 1) (fin 2) (fin (3 / 10)) = fin s ∧
    s = intervalScore (3 / 10) 1 2 0 - 1 / (3 * 2 ^ 21) * (1 - 0) :=
  C142_interval_false rn32_nearest (by norm_num) (by norm_num)

/-- The level 0.1 does no harm, because the error of the level is rounded away in the quotient. -/
theorem C142_interval_partial (hr : Nearest32 r) (l u y : ℝ) :
    Tc.intervalScore r (fin y) (fin l) (fin u) (fin (1 / 10)) = fin (intervalScore (1 / 10) l u y) := by
  have e : Rnd.rd r (2 / Tc.number r (fin (1 / 10))) = fin 20 := by
    rw [Tc.number_tenth hr, XF.ofNat_def, fin_div (by norm_num)]
    have := hr.eq (a := 2 / (13421773 / 2 ^ 27)) 4 10485760 (by norm_num) (by norm_num) (by norm_num) (by norm_num)
      (by rw [abs_lt]; norm_num)
    show r _ = _
    rw [this]; norm_num
  rw [Tc.intervalScore_fin e]
  unfold intervalScore
  norm_num

example : Tc.intervalScore rn32 (fin 0) (fin 1) (fin 2) (fin (1 / 10)) = fin (intervalScore (1 / 10) 1 2 0) :=
  C142_interval_partial rn32_nearest 1 2 0

/-! ### thresholds and observations -/

theorem defaultV_clip (a b x : ℝ) : defaultV (fin a) (fin b) (fin x) = fin (min (max x a) b) := by
  unfold defaultV; rw [fin_max, fin_min]

theorem clip_near (x a b a' b' : ℝ) : |min (max x a') b' - min (max x a) b| ≤ |a' - a| + |b' - b| := by
  have h1 : |min (max x a') b' - min (max x a) b| ≤ max |max x a' - max x a| |b' - b| := abs_min_sub_min_le_max _ _ _ _
  have h2 : |max x a' - max x a| ≤ max |x - x| |a' - a| := abs_max_sub_max_le_max _ _ _ _
  rw [sub_self, abs_zero, max_eq_right (abs_nonneg (a' - a))] at h2
  refine h1.trans (max_le (by linarith [abs_nonneg (b' - b)]) (by linarith [abs_nonneg (a' - a)]))

theorem single_nrg (y x : ℝ) : crps1 .array "nrg" false "propagate" (fin y) [fin x] none = .ok (fin |y - x|) := by
  have := crps1_nrg .array false y (xs := [x]) (by simp)
  rw [List.map_cons, List.map_nil] at this
  rw [this]
  simp [energy, uw, wabs, wpair, pairsAll, abs_sub_comm]

/-- C142 is false of `twcrps_ensemble` on torch: with the upper threshold 0.1, a member above it and an observation below
it score more than they do with the threshold itself. -/
theorem C142_twcrps_false (hr : Nearest32 r) {y x : ℝ} (h : y ≤ 1 / 10) (hx : 1 / 5 ≤ x) :
    ∃ s : ℝ, crps1 .array "nrg" false "propagate" (defaultV ninf (fin (1 / 10)) (fin y))
        [defaultV ninf (fin (1 / 10)) (fin x)] none = .ok (fin s) ∧ s = 1 / 10 - y ∧
      Tc.twcrps r "nrg" (fin y) [fin x] ninf (fin (1 / 10)) = .ok (fin (s + 2 / (10 * 2 ^ 27))) := by
  have hv : ∀ b z : ℝ, defaultV ninf (fin b) (fin z) = fin (min z b) := fun b z => by
    unfold defaultV; rw [max_fin_ninf, fin_min]
  have hn : Tc.number r ninf = ninf := rfl
  have k : (13421773 / 2 ^ 27 : ℝ) = 1 / 10 + 2 / (10 * 2 ^ 27) := by norm_num
  have k2 : (13421773 / 2 ^ 27 : ℝ) ≤ 1 / 5 := by norm_num
  have k3 : (0:ℝ) ≤ 2 / (10 * 2 ^ 27) := by norm_num
  refine ⟨1 / 10 - y, ?_, rfl, ?_⟩
  · rw [hv, hv, single_nrg, min_eq_left h, min_eq_right (by linarith), abs_sub_comm, abs_of_nonneg (by linarith)]
  · unfold Tc.twcrps
    simp only [hn, Tc.number_tenth hr, List.map_cons, List.map_nil, hv]
    rw [single_nrg, k] at *
    rw [min_eq_left (by linarith), min_eq_right (by linarith), abs_sub_comm, abs_of_nonneg (by linarith)]
    congr 2; ring

example : ∃ s : ℝ, s = 1 / 10 - 0 ∧ Tc.twcrps rn32 "nrg" (fin 0) [fin 1] ninf (fin (1 / 10))
    = .ok (fin (s + 2 / (10 * 2 ^ 27))) := by
  obtain ⟨s, -, h1, h2⟩ := C142_twcrps_false rn32_nearest (y := 0) (x := 1) (by norm_num) (by norm_num)
  exact ⟨s, h1, h2⟩

/-- What holds of `twcrps_ensemble` on torch, for every estimator: the score moves by at most three times the errors of the
two thresholds. -/
theorem C142_twcrps_partial (hr : Binary32 r) {M : ℕ} (est : String) (he : est ∈ Spec.estimators) (hM : M ≠ 0)
    (h2 : est = "fair" ∨ est = "pwm" → 2 ≤ M) (y : ℝ) (x : Fin M → ℝ) {a b : ℝ} (ha : |a| < 2 ^ 127) (hb : |b| < 2 ^ 127) :
    ∃ s s' : ℝ, crps1 .array est false "propagate" (defaultV (fin a) (fin b) (fin y))
        (((List.ofFn x).map fin).map (defaultV (fin a) (fin b))) none = .ok (fin s) ∧
      Tc.twcrps r est (fin y) ((List.ofFn x).map fin) (fin a) (fin b) = .ok (fin s') ∧
      |s' - s| ≤ 3 * ((|a| + |b|) / 2 ^ 24 + 1 / 2 ^ 125) := by
  obtain ⟨a', ha1, ha2⟩ := Tc.number_near hr ha
  obtain ⟨b', hb1, hb2⟩ := Tc.number_near hr hb
  have hv : ∀ a b : ℝ, ((List.ofFn x).map fin).map (defaultV (fin a) (fin b))
      = (List.ofFn fun i => min (max (x i) a) b).map fin := fun a b => by
    simp only [List.map_map, List.map_ofFn]
    congr 1
    funext i
    exact defaultV_clip a b (x i)
  obtain ⟨s, h3, h4⟩ := crps1_ofFn_value (M := M) .array est he hM h2
  refine ⟨s (min (max y a) b) fun i => min (max (x i) a) b, s (min (max y a') b') fun i => min (max (x i) a') b',
    by rw [hv, defaultV_clip]; exact h3 _ _, ?_, (h4 _ _ _ _).trans ?_⟩
  · unfold Tc.twcrps
    rw [ha1, hb1]
    simp only
    rw [hv, defaultV_clip]
    exact h3 _ _
  · have e1 := clip_near y a b a' b'
    have e2 : (∑ i, |min (max (x i) a') b' - min (max (x i) a) b|) / M ≤ |a' - a| + |b' - b| := by
      rw [div_le_iff₀ (by positivity)]
      refine (Finset.sum_le_sum fun i _ => clip_near (x i) a b a' b').trans ?_
      rw [Finset.sum_const, Finset.card_univ, Fintype.card_fin, nsmul_eq_mul, mul_comm]
    have : (1:ℝ) / 2 ^ 125 = 1 / 2 ^ 126 + 1 / 2 ^ 126 := by norm_num
    rw [this, add_div]
    linarith

example : ∃ s s' : ℝ, crps1 .array "pwm" false "propagate" (defaultV (fin (1 / 10)) (fin 1) (fin 0))
      (((List.ofFn ![(2:ℝ), 1 / 2, 0]).map fin).map (defaultV (fin (1 / 10)) (fin 1))) none = .ok (fin s) ∧
    Tc.twcrps rn32 "pwm" (fin 0) ((List.ofFn ![(2:ℝ), 1 / 2, 0]).map fin) (fin (1 / 10)) (fin 1) = .ok (fin s') ∧
    |s' - s| ≤ 3 * ((|1 / 10| + |1|) / 2 ^ 24 + 1 / 2 ^ 125) :=
  C142_twcrps_partial rn32_nearest.toBinary32 "pwm" (by simp [Spec.estimators]) (by norm_num) (fun _ => by norm_num) 0 _
    (by norm_num [abs_of_pos]) (by norm_num)

/-- C142 is false of `crps_ensemble` on torch: the observation 0.1 as a number and a double precision member 0.1 do not
agree, the perfect forecast has a positive score. -/
theorem C142_crps_false (hr : Nearest32 r) :
    Tc.crpsNumber r "nrg" (fin (1 / 10)) [fin (1 / 10)] = .ok (fin (2 / (10 * 2 ^ 27))) := by
  unfold Tc.crpsNumber
  rw [Tc.number_tenth hr, single_nrg]
  congr 2
  rw [abs_of_nonneg] <;> norm_num

example : Tc.crpsNumber rn32 "nrg" (fin (1 / 10)) [fin (1 / 10)] = .ok (fin (2 / (10 * 2 ^ 27))) :=
  C142_crps_false rn32_nearest

/-- What holds of `crps_ensemble` on torch, for every estimator: the score moves by at most the error of the
observation. -/
theorem C142_crps_partial (hr : Binary32 r) {M : ℕ} (est : String) (he : est ∈ Spec.estimators) (hM : M ≠ 0)
    (h2 : est = "fair" ∨ est = "pwm" → 2 ≤ M) {y : ℝ} (hy : |y| < 2 ^ 127) (x : Fin M → ℝ) :
    ∃ s s' : ℝ, crps1 .array est false "propagate" (fin y) ((List.ofFn x).map fin) none = .ok (fin s) ∧
      Tc.crpsNumber r est (fin y) ((List.ofFn x).map fin) = .ok (fin s') ∧
      |s' - s| ≤ |y| / 2 ^ 24 + 1 / 2 ^ 126 := by
  obtain ⟨y', h3, h4⟩ := Tc.number_near hr hy
  obtain ⟨s, h5, h6⟩ := crps1_ofFn_value (M := M) .array est he hM h2
  refine ⟨_, _, h5 y x, by unfold Tc.crpsNumber; rw [h3]; exact h5 y' x, (h6 y' y x x).trans ?_⟩
  simpa using h4

example : ∃ s s' : ℝ, crps1 .array "qd" false "propagate" (fin (1 / 10)) ((List.ofFn ![(2:ℝ), 1]).map fin) none
      = .ok (fin s) ∧
    Tc.crpsNumber rn32 "qd" (fin (1 / 10)) ((List.ofFn ![(2:ℝ), 1]).map fin) = .ok (fin s') ∧
    |s' - s| ≤ |1 / 10| / 2 ^ 24 + 1 / 2 ^ 126 :=
  C142_crps_partial rn32_nearest.toBinary32 "qd" (by simp [Spec.estimators]) (by norm_num) (by simp)
    (by norm_num [abs_of_pos]) _

end Verif
