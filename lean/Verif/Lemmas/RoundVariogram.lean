import Verif.Model.RoundVariogram
import Verif.Lemmas.RoundEnergy
import Verif.Lemmas.Variogram
import Mathlib.Analysis.MeanInequalitiesPow

/-! Rounded powers, weighted squares and variogram scores. -/

noncomputable section

open scoped Classical

namespace Verif

open XF Py Mv Spec

theorem rpow_subadd {a b p : ℝ} (ha : 0 ≤ a) (hb : 0 ≤ b) (hp : 0 ≤ p) (hp1 : p ≤ 1) : (a + b) ^ p ≤ a ^ p + b ^ p := by
  lift a to NNReal using ha
  lift b to NNReal using hb
  exact_mod_cast NNReal.rpow_add_le_add_rpow a b hp hp1

/-- a power up to one of an approximation -/
theorem rpow_near {a b κ τ p : ℝ} (ha : 0 ≤ a) (hb : 0 ≤ b) (hκ : 0 ≤ κ) (hκ1 : κ < 1) (hτ : 0 ≤ τ) (hp : 0 ≤ p) (hp1 : p ≤ 1)
    (h : |b - a| ≤ κ * a + τ) : |b ^ p - a ^ p| ≤ κ * a ^ p + τ ^ p := by
  obtain ⟨h1, h2⟩ := abs_le.1 h
  have ap := Real.rpow_nonneg ha p
  rw [abs_le]
  constructor
  · have h3 : ((1 - κ) * a) ^ p ≤ (b + τ) ^ p := Real.rpow_le_rpow (mul_nonneg (by linarith) ha) (by linarith) hp
    rw [Real.mul_rpow (by linarith) ha] at h3
    have h4 : 1 - κ ≤ (1 - κ) ^ p := by
      calc 1 - κ = (1 - κ) ^ (1:ℝ) := (Real.rpow_one _).symm
        _ ≤ (1 - κ) ^ p := Real.rpow_le_rpow_of_exponent_ge (by linarith) (by linarith) hp1
    have h5 := rpow_subadd hb hτ hp hp1
    have h6 := mul_le_mul_of_nonneg_right h4 ap
    linarith
  · have h3 : b ^ p ≤ ((1 + κ) * a + τ) ^ p := Real.rpow_le_rpow hb (by linarith) hp
    have h4 := rpow_subadd (mul_nonneg (by linarith : 0 ≤ 1 + κ) ha) hτ hp hp1
    rw [Real.mul_rpow (by linarith) ha] at h4
    have h5 : (1 + κ) ^ p ≤ 1 + κ := by
      calc (1 + κ) ^ p ≤ (1 + κ) ^ (1:ℝ) := Real.rpow_le_rpow_of_exponent_le (by linarith) hp1
        _ = 1 + κ := Real.rpow_one _
    have h6 := mul_le_mul_of_nonneg_right h5 ap
    linarith

theorem tiny_pow {p : ℝ} (hp : 1 / 2 ≤ p) : ((1:ℝ) / 2 ^ 1075) ^ p ≤ 1 / 2 ^ 537 := by
  have h1 : ((1:ℝ) / 2 ^ 1075) ^ p ≤ ((1:ℝ) / 2 ^ 1075) ^ (1 / 2 : ℝ) :=
    Real.rpow_le_rpow_of_exponent_ge (by positivity)
      (by rw [div_le_one (by positivity)]; exact one_le_pow₀ (by norm_num)) hp
  refine h1.trans ?_
  rw [← Real.sqrt_eq_rpow, Real.sqrt_le_iff]
  refine ⟨by positivity, ?_⟩
  rw [div_pow, one_pow, ← pow_mul]
  exact one_div_le_one_div_of_le (by positivity) (pow_le_pow_right₀ (by norm_num) (by norm_num))

/-- a power between a half and two of a rounded number -/
theorem rpow_near2 {a b p : ℝ} (ha : 0 ≤ a) (hb : 0 ≤ b) (hp : 1 / 2 ≤ p) (hp2 : p ≤ 2)
    (h : |b - a| ≤ 1 / 2 ^ 53 * a + 1 / 2 ^ 1075) : |b ^ p - a ^ p| ≤ 1 / 2 ^ 51 * a ^ p + 1 / 2 ^ 520 := by
  have hκ : (1:ℝ) / 2 ^ 53 < 1 := by norm_num
  rcases le_or_gt p 1 with hp1 | hp1
  · have h1 := rpow_near ha hb (by positivity) hκ (by positivity) (by linarith) hp1 h
    have h2 := tiny_pow hp
    have h3 : (1:ℝ) / 2 ^ 537 ≤ 1 / 2 ^ 520 :=
      one_div_le_one_div_of_le (by positivity) (pow_le_pow_right₀ (by norm_num) (by norm_num))
    have ap := Real.rpow_nonneg ha p
    have h4 : (1:ℝ) / 2 ^ 53 * a ^ p ≤ 1 / 2 ^ 51 * a ^ p := mul_le_mul_of_nonneg_right (by norm_num) ap
    exact h1.trans (add_le_add h4 (h2.trans h3))
  · have h1 := rpow_near (p := p / 2) ha hb (by positivity) hκ (by positivity) (by linarith) (by linarith) h
    have h2 := tiny_pow (p := p / 2) (by linarith)
    have ea : a ^ p = (a ^ (p / 2)) ^ 2 := by
      rw [← Real.rpow_natCast, ← Real.rpow_mul ha]; congr 1; push_cast; ring
    have eb : b ^ p = (b ^ (p / 2)) ^ 2 := by
      rw [← Real.rpow_natCast, ← Real.rpow_mul hb]; congr 1; push_cast; ring
    rw [ea, eb]
    have h3 : |b ^ (p / 2) - a ^ (p / 2)| ≤ 1 / 2 ^ 53 * a ^ (p / 2) + 1 / 2 ^ 537 := h1.trans (by linarith)
    have c0 := Real.rpow_nonneg ha (p / 2)
    have d0 := Real.rpow_nonneg hb (p / 2)
    generalize a ^ (p / 2) = c at *
    generalize b ^ (p / 2) = d at *
    clear h1 h2 h ea eb
    have ht : ((1:ℝ) / 2 ^ 537) ^ 2 * 2 ^ 54 ≤ 1 / 2 ^ 521 := by
      have e : ((1:ℝ) / 2 ^ 537) ^ 2 * 2 ^ 54 = 1 / 2 ^ 1020 := by
        rw [div_pow, one_pow, ← pow_mul, show 537 * 2 = 1020 + 54 from rfl, pow_add]
        field_simp
      rw [e]
      exact one_div_le_one_div_of_le (by positivity) (pow_le_pow_right₀ (by norm_num) (by norm_num))
    have e520 : (1:ℝ) / 2 ^ 520 = 2 * (1 / 2 ^ 521) := by
      rw [show (521:ℕ) = 520 + 1 from rfl, pow_succ]; field_simp
    rw [e520]
    have hτ : (0:ℝ) ≤ 1 / 2 ^ 537 := by positivity
    generalize (1:ℝ) / 2 ^ 537 = τ at *
    generalize (1:ℝ) / 2 ^ 521 = t at *
    have e : d ^ 2 - c ^ 2 = (d - c) * (d - c + 2 * c) := by ring
    have h5 : |d ^ 2 - c ^ 2| ≤ (1 / 2 ^ 53 * c + τ) * ((1 / 2 ^ 53 * c + τ) + 2 * c) := by
      rw [e, abs_mul]
      refine mul_le_mul h3 ?_ (abs_nonneg _) (by positivity)
      refine (abs_add_le _ _).trans ?_
      rw [abs_of_nonneg (by linarith : 0 ≤ 2 * c)]
      linarith
    refine h5.trans ?_
    have a1 := sq_nonneg (c * (1 / 2 ^ 27) - 2 ^ 26 * τ)
    have a2 : (c * (1 / 2 ^ 27) - 2 ^ 26 * τ) ^ 2 = 1 / 2 ^ 54 * c ^ 2 + 2 ^ 52 * τ ^ 2 - c * τ := by ring
    rw [a2] at a1
    have a3 := sq_nonneg c
    have a4 := sq_nonneg τ
    norm_num at a1 ht ⊢
    nlinarith

section

variable {r : ℝ → XF} (hr : Binary64 r)
include hr

/-- one entry of the variogram -/
theorem rho_near {p u : ℝ} (hp : 1 / 2 ≤ p) (hp2 : p ≤ 2) (hu : |u| ≤ 2 ^ 200) :
    SqNear (1 / 2 ^ 520) (Rnd.rd r (XF.rpow (XF.abs (Rnd.rd r (fin u))) p)) (|u| ^ p) 2 2 ∧ |u| ^ p ≤ 2 ^ 400 := by
  have hb : |u| ^ p ≤ 2 ^ 400 := by
    rcases le_or_gt |u| 1 with h1 | h1
    · exact (Real.rpow_le_one (abs_nonneg u) h1 (by linarith)).trans (one_le_pow₀ (by norm_num))
    · calc |u| ^ p ≤ |u| ^ (2:ℝ) := Real.rpow_le_rpow_of_exponent_le h1.le hp2
        _ = |u| ^ 2 := Real.rpow_two _
        _ ≤ (2 ^ 200) ^ 2 := pow_le_pow_left₀ (abs_nonneg u) hu 2
        _ = 2 ^ 400 := by rw [← pow_mul]
  refine ⟨?_, hb⟩
  have hu' : |u| < 2 ^ 1023 := hu.trans_lt (pow_lt_pow_right₀ (by norm_num) (by norm_num))
  obtain ⟨δ, η, hδ, hη, e1⟩ := hr.acc hu'
  have h : SqNear (1 / 2 ^ 520) (XF.rpow (XF.abs (Rnd.rd r (fin u))) p) (|u| ^ p) 1 1 := by
    show SqNear _ (XF.rpow (XF.abs (r u)) p) _ _ _
    rw [e1]
    refine ⟨|u * (1 + δ) + η| ^ p, fin_rpow (abs_nonneg _) (by linarith), Real.rpow_nonneg (abs_nonneg _) _, ?_⟩
    rw [one_mul, one_mul]
    refine rpow_near2 (abs_nonneg _) (abs_nonneg _) hp hp2 ?_
    refine (abs_abs_sub_abs_le _ _).trans ?_
    rw [show u * (1 + δ) + η - u = δ * u + η by ring]
    refine (abs_add_le _ _).trans (add_le_add ?_ hη)
    rw [abs_mul]
    exact mul_le_mul_of_nonneg_right hδ (abs_nonneg u)
  have := h.rd hr unit_norm (Real.rpow_nonneg (abs_nonneg _) _) (hb.trans (pow_le_pow_right₀ (by norm_num) (by norm_num)))
    (by norm_num) (by norm_num)
  exact this.mono unit_norm.nonneg (Real.rpow_nonneg (abs_nonneg _) _) (by norm_num) (by norm_num)

end

/-- `x` approximates `a` up to `k / 2 ^ 51` times the size `c` -/
def CNear (x : XF) (a c k : ℝ) : Prop := ∃ b : ℝ, x = fin b ∧ |b - a| ≤ k * (1 / 2 ^ 51) * c

theorem CNear.mono {x : XF} {a c k k' : ℝ} (h : CNear x a c k) (hc : 0 ≤ c) (hk : k ≤ k') : CNear x a c k' := by
  obtain ⟨b, h1, h2⟩ := h
  exact ⟨b, h1, h2.trans (mul_le_mul_of_nonneg_right (mul_le_mul_of_nonneg_right hk (by positivity)) hc)⟩

section

variable {r : ℝ → XF} (hr : Binary64 r)
include hr

theorem CNear.rd {x : XF} {a c k : ℝ} (h : CNear x a c k) (ha : |a| ≤ c) (hc : 1 / 2 ^ 1000 ≤ c) (hC : c ≤ 2 ^ 1000)
    (hk : k ≤ 2 ^ 50) : CNear (Rnd.rd r x) a c (k + 1) := by
  obtain ⟨b, rfl, h3⟩ := h
  have hc0 : 0 ≤ c := (abs_nonneg a).trans ha
  have hkq : k * (1 / 2 ^ 51) ≤ 1 := by
    rw [mul_one_div, div_le_one (by positivity)]; exact hk.trans (pow_le_pow_right₀ (by norm_num) (by norm_num))
  have hb : |b| ≤ 2 * c := by
    have h4 : k * (1 / 2 ^ 51) * c ≤ 1 * c := mul_le_mul_of_nonneg_right hkq hc0
    have h8 := abs_sub_abs_le_abs_sub b a
    linarith
  have hb' : |b| < 2 ^ 1023 := by
    refine hb.trans_lt ?_
    have h7 : (2:ℝ) ^ 1023 = 2 ^ 1000 * 2 ^ 23 := by rw [← pow_add]
    have h9 : (0:ℝ) < 2 ^ 1000 := by positivity
    rw [h7]
    clear h7 hc
    generalize (2:ℝ) ^ 1000 = P at *
    norm_num; linarith
  obtain ⟨δ, η, hδ, hη, e1⟩ := hr.acc hb'
  refine ⟨_, e1, ?_⟩
  have hη' : |η| ≤ 1 / 2 ^ 53 * c := by
    refine hη.trans ?_
    calc (1:ℝ) / 2 ^ 1075 ≤ 1 / 2 ^ 53 * (1 / 2 ^ 1000) := by
          rw [one_div_mul_one_div, ← pow_add]
          exact one_div_le_one_div_of_le (by positivity) (pow_le_pow_right₀ (by norm_num) (by norm_num))
      _ ≤ 1 / 2 ^ 53 * c := mul_le_mul_of_nonneg_left hc (by positivity)
  have e : b * (1 + δ) + η - a = (b - a) + δ * b + η := by ring
  rw [e]
  refine (abs_add_three _ _ _).trans ?_
  have h5 : |δ * b| ≤ 1 / 2 ^ 53 * (2 * c) := by
    rw [abs_mul]; exact mul_le_mul hδ hb (abs_nonneg _) (by positivity)
  clear hη hδ hC hc hkq e1 hb' hk
  norm_num at h3 h5 hη' ⊢
  linarith

/-- rounded sums -/
theorem RSum.cNear_aux {k : ℝ} {xs : List XF} {s : XF} (h : RSum r xs s) : ∀ {as : List (ℝ × ℝ)}, xs ≠ [] →
    List.Forall₂ (fun x a => |a.1| ≤ a.2 ∧ 1 / 2 ^ 1000 ≤ a.2 ∧ CNear x a.1 a.2 k) xs as →
    (as.map Prod.snd).sum ≤ 2 ^ 1000 → k + xs.length ≤ 2 ^ 50 →
    |(as.map Prod.fst).sum| ≤ (as.map Prod.snd).sum ∧ 1 / 2 ^ 1000 ≤ (as.map Prod.snd).sum ∧
      CNear s (as.map Prod.fst).sum (as.map Prod.snd).sum (k + xs.length - 1) := by
  induction h with
  | nil => intro as h; simp at h
  | one x =>
    intro as _ h _ _
    cases h with
    | cons h1 h2 =>
      cases h2
      simpa using h1
  | @append xs ys s t' h1 h2 _ _ ih1 ih2 =>
    intro as _ h hS hk
    obtain ⟨a1, a2, rfl, f1, f2⟩ := forall₂_append_split h
    have l1 : (1:ℝ) ≤ xs.length := by exact_mod_cast List.length_pos_iff.mpr h1
    have l2 : (1:ℝ) ≤ ys.length := by exact_mod_cast List.length_pos_iff.mpr h2
    have nn : ∀ {zs : List XF} {bs : List (ℝ × ℝ)}, List.Forall₂ (fun x a => |a.1| ≤ a.2 ∧ 1 / 2 ^ 1000 ≤ a.2 ∧ CNear x a.1 a.2 k) zs bs →
        0 ≤ (bs.map Prod.snd).sum := by
      intro zs bs hf
      induction hf with
      | nil => simp
      | cons hh _ ih => rw [List.map_cons, List.sum_cons]; exact add_nonneg ((abs_nonneg _).trans hh.1) ih
    have p1 := nn f1
    have p2 := nn f2
    rw [List.map_append, List.map_append, List.sum_append, List.sum_append] at *
    rw [List.length_append, Nat.cast_add] at hk ⊢
    obtain ⟨u1, v1, i1⟩ := ih1 h1 f1 (by generalize (2:ℝ) ^ 1000 = P at *; linarith) (by linarith)
    obtain ⟨u2, v2, i2⟩ := ih2 h2 f2 (by generalize (2:ℝ) ^ 1000 = P at *; linarith) (by linarith)
    have ua := (abs_add_le (a1.map Prod.fst).sum (a2.map Prod.fst).sum).trans (add_le_add u1 u2)
    have va : 1 / 2 ^ 1000 ≤ (a1.map Prod.snd).sum + (a2.map Prod.snd).sum := by
      generalize (1:ℝ) / 2 ^ 1000 = P at *; linarith
    refine ⟨ua, va, ?_⟩
    have hs : CNear (s + t') ((a1.map Prod.fst).sum + (a2.map Prod.fst).sum) ((a1.map Prod.snd).sum + (a2.map Prod.snd).sum)
        (k + (xs.length + ys.length) - 2) := by
      obtain ⟨b1, rfl, d1⟩ := i1
      obtain ⟨b2, rfl, d2⟩ := i2
      refine ⟨b1 + b2, fin_add _ _, ?_⟩
      rw [show b1 + b2 - ((a1.map Prod.fst).sum + (a2.map Prod.fst).sum)
        = (b1 - (a1.map Prod.fst).sum) + (b2 - (a2.map Prod.fst).sum) by ring]
      refine (abs_add_le _ _).trans ?_
      have q1 : (0:ℝ) ≤ 1 / 2 ^ 51 * (a1.map Prod.snd).sum := by positivity
      have q2 : (0:ℝ) ≤ 1 / 2 ^ 51 * (a2.map Prod.snd).sum := by positivity
      have g1 := mul_le_mul_of_nonneg_right (by linarith : k + (xs.length:ℝ) - 1 ≤ k + (xs.length + ys.length) - 2) q1
      have g2 := mul_le_mul_of_nonneg_right (by linarith : k + (ys.length:ℝ) - 1 ≤ k + (xs.length + ys.length) - 2) q2
      nlinarith
    refine (hs.rd hr ua va hS (by linarith)).mono (by linarith) (by linarith)
  | @perm xs ys s hp _ ih =>
    intro as hne h hS hk
    obtain ⟨bs, h1, h2⟩ := List.perm_comp_forall₂ hp h
    have e1 := (h2.map Prod.fst).sum_eq
    have e2 := (h2.map Prod.snd).sum_eq
    have hl := hp.length_eq
    rw [← e1, ← e2, ← hl]
    rw [← e2] at hS
    rw [← hl] at hk
    exact ih (by intro e; subst e; exact hne hp.nil_eq.symm) h1 hS hk

end

end Verif
