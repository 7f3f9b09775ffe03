import Verif.Model.RoundEnergy
import Verif.Lemmas.RoundingEns
import Verif.Lemmas.Energy

/-! Rounded sums, norms and energy scores. -/

noncomputable section

open scoped Classical

namespace Verif

open XF Py Mv Spec

/-- `x` approximates the nonnegative number `a` up to a relative error `k / 2 ^ 51` and an absolute error
`m t`, and is itself nonnegative -/
def SqNear (t : ℝ) (x : XF) (a k m : ℝ) : Prop :=
  ∃ b : ℝ, x = fin b ∧ 0 ≤ b ∧ |b - a| ≤ k * (1 / 2 ^ 51) * a + m * t

theorem SqNear.mono {t : ℝ} (ht : 0 ≤ t) {x : XF} {a k m k' m' : ℝ} (h : SqNear t x a k m) (ha : 0 ≤ a) (hk : k ≤ k')
    (hm : m ≤ m') : SqNear t x a k' m' := by
  obtain ⟨b, h1, h2, h3⟩ := h
  refine ⟨b, h1, h2, h3.trans ?_⟩
  gcongr

/-- abstract form of one rounding step -/
theorem sq_step {a b k m q t δ η : ℝ} (ha : 0 ≤ a) (hq0 : 0 ≤ q) (ht0 : 0 ≤ t) (hk : k * q ≤ 1) (hm : m * q ≤ 1)
    (h3 : |b - a| ≤ k * q * a + m * t) (hδ : |δ| ≤ q / 4) (hη : |η| ≤ t / 4) :
    |b * (1 + δ) + η - a| ≤ (k + 1) * q * a + (m + 1) * t := by
  have hb : |b| ≤ a + (k * q * a + m * t) := by
    have := abs_sub_abs_le_abs_sub b a
    rw [abs_of_nonneg ha] at this; linarith
  have h4 : |b * δ| ≤ (a + (k * q * a + m * t)) * (q / 4) := by
    rw [abs_mul]; exact mul_le_mul hb hδ (abs_nonneg _) ((abs_nonneg b).trans hb)
  have e2 : b * (1 + δ) + η - a = (b - a) + b * δ + η := by ring
  rw [e2]
  refine (abs_add_three _ _ _).trans ?_
  have h5 : k * q * a ≤ 1 * a := mul_le_mul_of_nonneg_right hk ha
  have h6 : k * q * a * q ≤ 1 * a * q := mul_le_mul_of_nonneg_right h5 hq0
  have h7 : m * q * t ≤ 1 * t := mul_le_mul_of_nonneg_right hm ht0
  have h8 : 0 ≤ a * q := mul_nonneg ha hq0
  nlinarith

/-- the absolute errors considered: those of rounding are smaller -/
def Unit' (t : ℝ) : Prop := 1 / 2 ^ 1073 ≤ t ∧ t ≤ 1

theorem Unit'.nonneg {t : ℝ} (h : Unit' t) : 0 ≤ t := le_trans (by positivity) h.1

theorem Unit'.tiny {t η : ℝ} (h : Unit' t) (hη : |η| ≤ 1 / 2 ^ 1075) : |η| ≤ t / 4 := by
  refine hη.trans ?_
  have h1 := h.1
  rw [show (1075 : ℕ) = 1073 + 2 from rfl, pow_add, ← div_div]
  generalize (1:ℝ) / 2 ^ 1073 = w at *
  norm_num; linarith

/-- absolute form of the distance between square roots -/
theorem sqrt_near {a b κ μ : ℝ} (ha : 0 ≤ a) (hb : 0 ≤ b) (hκ : 0 ≤ κ) (hκ1 : κ ≤ 1) (hμ : 0 ≤ μ)
    (h : |b - a| ≤ κ * a + μ) : |√b - √a| ≤ κ * √a + 2 * √μ := by
  have e : b - a = (√b - √a) * (√b + √a) := by
    have h1 := Real.mul_self_sqrt ha
    have h2 := Real.mul_self_sqrt hb
    nlinarith
  have ha' := Real.sqrt_nonneg a
  have hb' := Real.sqrt_nonneg b
  have hm' := Real.sqrt_nonneg μ
  have hs : 0 ≤ √b + √a := by linarith
  rw [e, abs_mul, abs_of_nonneg hs] at h
  set z := |√b - √a| with hz
  have hz0 : 0 ≤ z := abs_nonneg _
  have hzs : z ≤ √b + √a := by rw [hz, abs_le]; constructor <;> linarith
  have ea := Real.mul_self_sqrt ha
  have em := Real.mul_self_sqrt hμ
  rcases le_or_gt (√μ) (√a) with hc | hc
  · by_contra hn
    push Not at hn
    have h1 : z * √a ≤ z * (√b + √a) := mul_le_mul_of_nonneg_left (by linarith) hz0
    rcases eq_or_lt_of_le ha' with h0 | h0
    · rw [← h0] at hc hn
      have : √μ = 0 := le_antisymm hc hm'
      rw [this] at em
      have : a = 0 := by rw [← ea, ← h0]; ring
      subst this
      nlinarith
    · have : (κ * √a + 2 * √μ) * √a < z * √a := mul_lt_mul_of_pos_right hn h0
      have : √μ * √μ ≤ √μ * √a := mul_le_mul_of_nonneg_left hc hm'
      nlinarith
  · have h1 : z * z ≤ z * (√b + √a) := mul_le_mul_of_nonneg_left hzs hz0
    have h2 : κ * a ≤ 1 * a := mul_le_mul_of_nonneg_right hκ1 ha
    have h3 : √a * √a ≤ √μ * √μ := mul_le_mul hc.le hc.le ha' hm'
    have h4 : z * z ≤ (2 * √μ) * (2 * √μ) := by nlinarith
    have h5 : z ≤ 2 * √μ := by
      by_contra hn
      push Not at hn
      nlinarith
    have : 0 ≤ κ * √a := by positivity
    linarith

section
variable {r : ℝ → XF} (hr : Binary64 r)
include hr

theorem Binary64.nonneg {a b : ℝ} (ha : 0 ≤ a) (h : r a = fin b) : 0 ≤ b := by
  have h1 := hr.mono ha
  have h2 : r 0 = fin 0 := by simpa using hr.nat 0 (by norm_num)
  rw [h, h2] at h1
  simpa using h1

theorem SqNear.rd {t : ℝ} (ht : Unit' t) {x : XF} {a k m : ℝ} (h : SqNear t x a k m) (ha : 0 ≤ a) (hA : a ≤ 2 ^ 1000)
    (hk : k ≤ 2 ^ 50) (hm : m ≤ 2 ^ 50) : SqNear t (Rnd.rd r x) a (k + 1) (m + 1) := by
  obtain ⟨b, rfl, h2, h3⟩ := h
  have hkq : k * (1 / 2 ^ 51) ≤ 1 := by
    rw [mul_one_div, div_le_one (by positivity)]; exact hk.trans (pow_le_pow_right₀ (by norm_num) (by norm_num))
  have hmq : m * (1 / 2 ^ 51) ≤ 1 := by
    rw [mul_one_div, div_le_one (by positivity)]; exact hm.trans (pow_le_pow_right₀ (by norm_num) (by norm_num))
  have hb : |b| < 2 ^ 1023 := by
    have h4 : k * (1 / 2 ^ 51) * a ≤ 1 * a := mul_le_mul_of_nonneg_right hkq ha
    have h5 : m * t ≤ 2 ^ 50 := by
      refine (mul_le_mul_of_nonneg_right hm ht.nonneg).trans ?_
      exact mul_le_of_le_one_right (by positivity) ht.2
    have h6 : (2:ℝ) ^ 50 ≤ 2 ^ 1000 := pow_le_pow_right₀ (by norm_num) (by norm_num)
    have h6' := h5.trans h6
    have h7 : (2:ℝ) ^ 1023 = 2 ^ 1000 * 2 ^ 23 := by rw [← pow_add]
    have h8 := abs_sub_abs_le_abs_sub b a
    have h9 : (0:ℝ) < 2 ^ 1000 := by positivity
    rw [abs_of_nonneg ha] at h8
    rw [h7]
    clear h7 hk hm hkq hmq ht h5 h6
    generalize (2:ℝ) ^ 1000 = P at *
    generalize m * t = w at *
    generalize k * (1 / (2:ℝ) ^ 51) * a = w' at *
    have : |b| ≤ 3 * P := by linarith
    norm_num; linarith
  obtain ⟨δ, η, hδ, hη, e1⟩ := hr.acc hb
  exact ⟨_, e1, hr.nonneg h2 e1, sq_step ha (by positivity) ht.nonneg hkq hmq h3 (hδ.trans (by norm_num)) (ht.tiny hη)⟩

/-- the rounded square of a rounded difference -/
theorem sqNear_sq {u : ℝ} (hu : |u| ≤ 2 ^ 490) :
    SqNear (1 / 2 ^ 1070) (Rnd.rd r (Rnd.rd r (fin u) * Rnd.rd r (fin u))) (u ^ 2) 2 2 := by
  have hu' : |u| < 2 ^ 1023 := hu.trans_lt (pow_lt_pow_right₀ (by norm_num) (by norm_num))
  have hunit : Unit' (1 / 2 ^ 1070) :=
    ⟨one_div_le_one_div_of_le (by positivity) (pow_le_pow_right₀ (by norm_num) (by norm_num)),
      by rw [div_le_one (by positivity)]; exact one_le_pow₀ (by norm_num)⟩
  obtain ⟨δ, η, hδ, hη, e1⟩ := hr.acc hu'
  have h : SqNear (1 / 2 ^ 1070) (Rnd.rd r (fin u) * Rnd.rd r (fin u)) (u ^ 2) 1 1 := by
    refine ⟨(u * (1 + δ) + η) * (u * (1 + δ) + η), by simp [Rnd.rd, e1], mul_self_nonneg _, ?_⟩
    have e : (u * (1 + δ) + η) * (u * (1 + δ) + η) - u ^ 2 = (2 * δ + δ ^ 2) * u ^ 2 + 2 * (1 + δ) * (u * η) + η ^ 2 := by
      ring
    rw [e]
    have hη2 : η ^ 2 ≤ 1 / 2 ^ 1070 * (1 / 2 ^ 100) := by
      rw [← sq_abs]
      have h1 : |η| ≤ 1 / 2 ^ 100 :=
        hη.trans (one_div_le_one_div_of_le (by positivity) (pow_le_pow_right₀ (by norm_num) (by norm_num)))
      have h2 : |η| ≤ 1 / 2 ^ 1070 :=
        hη.trans (one_div_le_one_div_of_le (by positivity) (pow_le_pow_right₀ (by norm_num) (by norm_num)))
      rw [sq]; exact mul_le_mul h2 h1 (abs_nonneg _) (by positivity)
    have hδ' := abs_le.mp hδ
    have hu2 := sq_nonneg u
    have ht : (0:ℝ) ≤ 1 / 2 ^ 1070 := by positivity
    clear hη hu hu' e e1 hunit
    generalize (1:ℝ) / 2 ^ 1070 = t at *
    have k1 : |(2 * δ + δ ^ 2) * u ^ 2| ≤ 3 * (1 / 2 ^ 53) * u ^ 2 := by
      rw [abs_mul, abs_of_nonneg hu2]
      refine mul_le_mul_of_nonneg_right ?_ hu2
      rw [abs_le]; constructor <;> nlinarith
    have k2 : |u * η| ≤ 1 / 2 ^ 56 * u ^ 2 + 2 ^ 54 * η ^ 2 := by
      have a1 := sq_nonneg (|u| * (1 / 2 ^ 28) - 2 ^ 27 * |η|)
      have a2 : (|u| * (1 / 2 ^ 28) - 2 ^ 27 * |η|) ^ 2 = 1 / 2 ^ 56 * |u| ^ 2 + 2 ^ 54 * |η| ^ 2 - |u| * |η| := by ring
      rw [abs_mul, ← sq_abs u, ← sq_abs η]; linarith
    have k3 : |2 * (1 + δ) * (u * η)| ≤ 3 * (1 / 2 ^ 56 * u ^ 2 + 2 ^ 54 * η ^ 2) := by
      rw [abs_mul]
      refine mul_le_mul ?_ k2 (abs_nonneg _) (by norm_num)
      rw [abs_le]; constructor <;> norm_num at hδ' ⊢ <;> linarith
    refine (abs_add_three _ _ _).trans ?_
    rw [abs_of_nonneg (sq_nonneg η)]
    norm_num at k1 k3 hη2 ⊢
    linarith
  have := h.rd hr hunit (sq_nonneg u) ?_ (by norm_num) (by norm_num)
  · exact this.mono hunit.nonneg (sq_nonneg u) (by norm_num) (by norm_num)
  · rw [← sq_abs]
    calc |u| ^ 2 ≤ (2 ^ 490) ^ 2 := pow_le_pow_left₀ (abs_nonneg _) hu 2
      _ = 2 ^ 980 := by rw [← pow_mul]
      _ ≤ 2 ^ 1000 := pow_le_pow_right₀ (by norm_num) (by norm_num)

end

theorem forall₂_append_split {α β : Type} {R : α → β → Prop} : ∀ {xs ys : List α} {as : List β},
    List.Forall₂ R (xs ++ ys) as → ∃ as1 as2, as = as1 ++ as2 ∧ List.Forall₂ R xs as1 ∧ List.Forall₂ R ys as2
  | [], _, as, h => ⟨[], as, rfl, .nil, h⟩
  | _ :: _, _, _, .cons h t => by
    obtain ⟨a1, a2, e, h1, h2⟩ := forall₂_append_split t
    exact ⟨_ :: a1, a2, by rw [e]; rfl, .cons h h1, h2⟩

theorem forall₂_sum_nonneg {xs : List XF} {as : List ℝ} {P : XF → ℝ → Prop}
    (h : List.Forall₂ (fun x a => 0 ≤ a ∧ P x a) xs as) : 0 ≤ as.sum := by
  induction h with
  | nil => simp
  | cons h _ ih => rw [List.sum_cons]; exact add_nonneg h.1 ih

theorem RSum.eq_zero {r : ℝ → XF} {xs : List XF} {s : XF} (h : RSum r xs s) (hx : xs = []) : s = 0 := by
  induction h with
  | nil => rfl
  | one x => simp at hx
  | append h1 h2 _ _ _ _ => simp [h1] at hx
  | perm hp _ ih => exact ih (by rw [hx] at hp; exact hp.eq_nil)

theorem RSum.eq_one {r : ℝ → XF} {xs : List XF} {s : XF} (h : RSum r xs s) {x : XF} (hx : xs = [x]) : s = x := by
  induction h with
  | nil => simp at hx
  | one y => simpa using hx
  | append h1 h2 _ _ _ _ =>
    rcases List.append_eq_singleton_iff.mp hx with h | h
    · exact absurd h.1 h1
    · exact absurd h.2 h2
  | perm hp _ ih => exact ih (by rw [hx] at hp; exact List.perm_singleton.mp hp)

section
variable {r : ℝ → XF} (hr : Binary64 r)
include hr

/-- every way of adding numbers keeps the relative error small -/
theorem RSum.sqNear_aux {t : ℝ} (ht : Unit' t) {k m : ℝ} (hm0 : 0 ≤ m) {xs : List XF} {s : XF}
    (h : RSum r xs s) : ∀ {as : List ℝ}, xs ≠ [] →
    List.Forall₂ (fun x a => 0 ≤ a ∧ SqNear t x a k m) xs as → as.sum ≤ 2 ^ 1000 →
    k + xs.length ≤ 2 ^ 50 → (m + 1) * xs.length ≤ 2 ^ 50 →
    SqNear t s as.sum (k + xs.length - 1) ((m + 1) * xs.length - 1) := by
  induction h with
  | nil => intro as h; simp at h
  | one x =>
    intro as _ h _ _ _
    cases h with
    | cons h1 h2 =>
      cases h2
      simpa using h1.2
  | @append xs ys s t' h1 h2 _ _ ih1 ih2 =>
    intro as _ h hS hk hm
    obtain ⟨a1, a2, rfl, f1, f2⟩ := forall₂_append_split h
    have p1 := forall₂_sum_nonneg f1
    have p2 := forall₂_sum_nonneg f2
    have l1 : (1:ℝ) ≤ xs.length := by exact_mod_cast List.length_pos_iff.mpr h1
    have l2 : (1:ℝ) ≤ ys.length := by exact_mod_cast List.length_pos_iff.mpr h2
    rw [List.sum_append] at hS ⊢
    rw [List.length_append, Nat.cast_add] at hk hm ⊢
    have m1 : (m + 1) * (xs.length : ℝ) ≤ (m + 1) * (xs.length + ys.length) :=
      mul_le_mul_of_nonneg_left (by linarith) (by linarith)
    have m2 : (m + 1) * (ys.length : ℝ) ≤ (m + 1) * (xs.length + ys.length) :=
      mul_le_mul_of_nonneg_left (by linarith) (by linarith)
    have i1 := ih1 h1 f1 (by generalize (2:ℝ) ^ 1000 = P at *; linarith) (by linarith) (by linarith)
    have i2 := ih2 h2 f2 (by generalize (2:ℝ) ^ 1000 = P at *; linarith) (by linarith) (by linarith)
    have hs : SqNear t (s + t') (a1.sum + a2.sum) (k + (xs.length + ys.length) - 2)
        ((m + 1) * (xs.length + ys.length) - 2) := by
      obtain ⟨b1, rfl, c1, d1⟩ := i1
      obtain ⟨b2, rfl, c2, d2⟩ := i2
      refine ⟨b1 + b2, fin_add _ _, by linarith, ?_⟩
      have e : b1 + b2 - (a1.sum + a2.sum) = (b1 - a1.sum) + (b2 - a2.sum) := by ring
      rw [e]
      refine (abs_add_le _ _).trans ?_
      have q1 : (0:ℝ) ≤ 1 / 2 ^ 51 * a1.sum := by positivity
      have q2 : (0:ℝ) ≤ 1 / 2 ^ 51 * a2.sum := by positivity
      have g1 := mul_le_mul_of_nonneg_right (by linarith : k + (xs.length:ℝ) - 1 ≤ k + (xs.length + ys.length) - 2) q1
      have g2 := mul_le_mul_of_nonneg_right (by linarith : k + (ys.length:ℝ) - 1 ≤ k + (xs.length + ys.length) - 2) q2
      nlinarith
    refine (hs.rd hr ht (by linarith) hS (by linarith) (by linarith)).mono ht.nonneg (by linarith) (by linarith) (by linarith)
  | @perm xs ys s hp _ ih =>
    intro as hne h hS hk hm
    obtain ⟨bs, h1, h2⟩ := List.perm_comp_forall₂ hp h
    have e := h2.sum_eq
    have hl := hp.length_eq
    rw [← e, ← hl]
    rw [← e] at hS
    rw [← hl] at hk hm
    exact ih (by intro e; subst e; exact hne hp.nil_eq.symm) h1 hS hk hm

theorem RSum.sqNear {t : ℝ} (ht : Unit' t) {k m : ℝ} (hm0 : 0 ≤ m) {xs : List XF} {s : XF}
    (h : RSum r xs s) {as : List ℝ} (hf : List.Forall₂ (fun x a => 0 ≤ a ∧ SqNear t x a k m) xs as)
    (hS : as.sum ≤ 2 ^ 1000) (hk : k + xs.length ≤ 2 ^ 50) (hm : (m + 1) * xs.length ≤ 2 ^ 50) :
    SqNear t s as.sum (k + xs.length) ((m + 1) * xs.length) := by
  by_cases hx : xs = []
  · rw [h.eq_zero hx]
    subst hx
    cases hf
    exact ⟨0, rfl, le_refl _, by simp⟩
  · exact (h.sqNear_aux hr ht hm0 hx hf hS hk hm).mono ht.nonneg (forall₂_sum_nonneg hf) (by linarith) (by linarith)

omit hr in
/-- the absolute error of norms and of everything computed from them -/
theorem unit_norm : Unit' (1 / 2 ^ 520) :=
  ⟨one_div_le_one_div_of_le (by positivity) (pow_le_pow_right₀ (by norm_num) (by norm_num)),
    by rw [div_le_one (by positivity)]; exact one_le_pow₀ (by norm_num)⟩

omit hr in
theorem unit_sq : Unit' (1 / 2 ^ 1070) :=
  ⟨one_div_le_one_div_of_le (by positivity) (pow_le_pow_right₀ (by norm_num) (by norm_num)),
    by rw [div_le_one (by positivity)]; exact one_le_pow₀ (by norm_num)⟩

omit hr in
theorem small_dim {x : ℝ} (h : x ≤ 2 ^ 20) :
    (2 + x) * (1 / 2 ^ 51) ≤ 1 ∧ x + 2 ≤ 2 ^ 50 ∧ 2 + x ≤ 2 ^ 50 ∧ (2 + 1) * x ≤ 2 ^ 50 := by
  norm_num at h ⊢
  refine ⟨?_, ?_, ?_, ?_⟩ <;> linarith

omit hr in
theorem sqrt_tiny {D : ℝ} (h : D ≤ 2 ^ 20) : 2 * √(3 * D * (1 / 2 ^ 1070)) ≤ 1 / 2 ^ 520 := by
  have h1 : √(3 * D * (1 / 2 ^ 1070)) ≤ 1 / 2 ^ 521 := by
    rw [Real.sqrt_le_iff]
    refine ⟨by positivity, ?_⟩
    have h2 : 3 * D ≤ 2 ^ 22 := by norm_num at h ⊢; linarith
    calc 3 * D * (1 / 2 ^ 1070) ≤ 2 ^ 22 * (1 / 2 ^ 1070) := mul_le_mul_of_nonneg_right h2 (by positivity)
      _ = 1 / 2 ^ 1048 := by rw [show (1070:ℕ) = 22 + 1048 from rfl, pow_add]; field_simp
      _ ≤ 1 / 2 ^ 1042 := one_div_le_one_div_of_le (by positivity) (pow_le_pow_right₀ (by norm_num) (by norm_num))
      _ = (1 / 2 ^ 521) ^ 2 := by rw [div_pow, one_pow, ← pow_mul]
  have e : (2:ℝ) ^ 521 = 2 ^ 520 * 2 := pow_succ _ _
  rw [e, ← div_div] at h1
  linarith

variable {D : ℕ} {S : List XF → XF} (hS : ∀ xs, RSum r xs (S xs))
include hS

omit hr hS in
theorem dist_le_big {a b : Eu D} (hD : D ≤ 2 ^ 20) (h : ∀ i, |a i - b i| ≤ 2 ^ 480) :
    ∑ i, (a i - b i) ^ 2 ≤ 2 ^ 980 ∧ dist a b = √(∑ i, (a i - b i) ^ 2) ∧ dist a b ≤ 2 ^ 490 := by
  have h1 : ∑ i, (a i - b i) ^ 2 ≤ 2 ^ 980 := by
    have : ∀ i ∈ Finset.univ, (a i - b i) ^ 2 ≤ (2 ^ 480) ^ 2 := by
      intro i _
      rw [← sq_abs]
      exact pow_le_pow_left₀ (abs_nonneg _) (h i) 2
    refine (Finset.sum_le_sum this).trans ?_
    rw [Finset.sum_const, Finset.card_univ, Fintype.card_fin, nsmul_eq_mul]
    have hD' : (D : ℝ) ≤ 2 ^ 20 := by exact_mod_cast hD
    calc (D : ℝ) * (2 ^ 480) ^ 2 ≤ 2 ^ 20 * (2 ^ 480) ^ 2 := mul_le_mul_of_nonneg_right hD' (by positivity)
      _ = 2 ^ 980 := by rw [← pow_mul, ← pow_add]
  have h2 : dist a b = √(∑ i, (a i - b i) ^ 2) := by
    rw [EuclideanSpace.dist_eq]
    congr 1
    refine Finset.sum_congr rfl fun i _ => ?_
    rw [Real.dist_eq, sq_abs]
  refine ⟨h1, h2, ?_⟩
  rw [h2, Real.sqrt_le_iff]
  refine ⟨by positivity, h1.trans (le_of_eq ?_)⟩
  rw [← pow_mul]

/-- the rounded norm of a rounded difference -/
theorem vnorm_near {a b : Eu D} (hD : D ≤ 2 ^ 20) (h : ∀ i, |a i - b i| ≤ 2 ^ 480) :
    SqNear (1 / 2 ^ 520) (Rnd.vnorm r S (Rnd.vsub r (vec a) (vec b))) (dist a b) (D + 3) 2 := by
  obtain ⟨h1, h2, h3⟩ := dist_le_big hD h
  have hD' : (D : ℝ) ≤ 2 ^ 20 := by exact_mod_cast hD
  have hD0 : (0 : ℝ) ≤ D := Nat.cast_nonneg D
  have e1 : (Rnd.vsub r (vec a) (vec b)).map (fun x => Rnd.rd r (x * x))
      = (List.finRange D).map fun i => Rnd.rd r (Rnd.rd r (fin (a i - b i)) * Rnd.rd r (fin (a i - b i))) := by
    unfold Rnd.vsub zip2 vec
    apply List.ext_getElem
    · simp
    · intro i _ _
      simp
  have hs := (hS ((Rnd.vsub r (vec a) (vec b)).map (fun x => Rnd.rd r (x * x)))).sqNear hr unit_sq (k := 2) (m := 2)
    (by norm_num) (as := (List.finRange D).map fun i => (a i - b i) ^ 2) ?_ ?_ ?_ ?_
  · have e2 : ((List.finRange D).map fun i => (a i - b i) ^ 2).sum = ∑ i, (a i - b i) ^ 2 := by
      rw [← List.ofFn_eq_map, List.sum_ofFn]
    have e3 : ((Rnd.vsub r (vec a) (vec b)).map (fun x => Rnd.rd r (x * x))).length = D := by
      rw [e1]; simp
    rw [e2, e3] at hs
    obtain ⟨c, c1, c2, c3⟩ := hs
    have hp : 0 ≤ ∑ i, (a i - b i) ^ 2 := Finset.sum_nonneg fun i _ => sq_nonneg _
    have c4 := sqrt_near hp c2 (κ := (2 + D) * (1 / 2 ^ 51)) (μ := (2 + 1) * D * (1 / 2 ^ 1070)) (by positivity)
      (small_dim hD').1 (by positivity) c3
    rw [← h2] at c4
    have c5 : SqNear (1 / 2 ^ 520) (XF.sqrt (S ((Rnd.vsub r (vec a) (vec b)).map fun x => Rnd.rd r (x * x)))) (dist a b)
        (D + 2) 1 := by
      refine ⟨√c, by rw [c1, fin_sqrt c2], Real.sqrt_nonneg _, c4.trans ?_⟩
      have := sqrt_tiny hD'
      rw [show ((2:ℝ) + 1) * D = 3 * D by ring, one_mul, add_comm (2:ℝ) D]
      gcongr
    refine (c5.rd hr unit_norm dist_nonneg (h3.trans (pow_le_pow_right₀ (by norm_num) (by norm_num)))
      (small_dim hD').2.1 (by norm_num)).mono unit_norm.nonneg dist_nonneg ?_ ?_ <;> linarith
  · rw [e1, List.forall₂_map_left_iff, List.forall₂_map_right_iff, List.forall₂_same]
    intro i _
    exact ⟨sq_nonneg _, sqNear_sq hr ((h i).trans (pow_le_pow_right₀ (by norm_num) (by norm_num)))⟩
  · rw [← List.ofFn_eq_map, List.sum_ofFn]
    exact h1.trans (pow_le_pow_right₀ (by norm_num) (by norm_num))
  · rw [e1]; simp only [List.length_map, List.length_finRange]; exact (small_dim hD').2.2.1
  · rw [e1]; simp only [List.length_map, List.length_finRange]; exact (small_dim hD').2.2.2

end

theorem SqNear.div {t : ℝ} {x : XF} {a k m c : ℝ} (hc : 0 < c) (h : SqNear t x a k m) :
    SqNear t (x / fin c) (a / c) k (m / c) := by
  obtain ⟨b, rfl, h2, h3⟩ := h
  refine ⟨b / c, fin_div hc.ne' _, by positivity, ?_⟩
  rw [← sub_div, abs_div, abs_of_pos hc, div_le_iff₀ hc]
  refine h3.trans (le_of_eq ?_)
  field_simp

theorem SqNear.half {t : ℝ} {x : XF} {a k m : ℝ} (h : SqNear t x a k m) :
    SqNear t (fin (1 / 2) * x) (1 / 2 * a) k (m / 2) := by
  obtain ⟨b, rfl, h2, h3⟩ := h
  refine ⟨1 / 2 * b, fin_mul _ _, by positivity, ?_⟩
  rw [← mul_sub, abs_mul, abs_of_pos (by norm_num : (0:ℝ) < 1 / 2)]
  nlinarith

theorem forall₂_flatMap' {α β γ : Type} {R : α → β → Prop} {f : γ → List α} {g : γ → List β} :
    ∀ {l : List γ}, (∀ c ∈ l, List.Forall₂ R (f c) (g c)) → List.Forall₂ R (l.flatMap f) (l.flatMap g)
  | [], _ => .nil
  | c :: l, h => by
    rw [List.flatMap_cons, List.flatMap_cons]
    exact List.rel_append (h c (by simp)) (forall₂_flatMap' fun c hc => h c (by simp [hc]))

theorem sum_map_le {α : Type} {l : List α} {f : α → ℝ} {B : ℝ} (h : ∀ a ∈ l, f a ≤ B) : (l.map f).sum ≤ l.length * B := by
  have := List.sum_le_card_nsmul (l.map f) B (by simpa using h)
  simpa using this

theorem sum_flatMap_eq {α : Type} (l : List α) (f : α → List ℝ) : (l.flatMap f).sum = (l.map fun a => (f a).sum).sum := by
  induction l with
  | nil => simp
  | cons a l ih => simp [ih]

/-- mean distance of the members from the observation -/
def meanDist {D : ℕ} (y : Eu D) (xs : List (Eu D)) : ℝ := (xs.map fun x => dist x y).sum / xs.length

/-- sum of all distances between members -/
def pairDist {D : ℕ} (xs : List (Eu D)) : ℝ := (xs.map fun a => (xs.map fun b => dist a b).sum).sum

theorem list_sum_nonneg' {α : Type} {l : List α} {f : α → ℝ} (h : ∀ a ∈ l, 0 ≤ f a) : 0 ≤ (l.map f).sum :=
  List.sum_nonneg (by simpa using h)

theorem meanDist_nonneg {D : ℕ} (y : Eu D) (xs : List (Eu D)) : 0 ≤ meanDist y xs :=
  div_nonneg (list_sum_nonneg' fun _ _ => dist_nonneg) (Nat.cast_nonneg _)

theorem pairDist_nonneg {D : ℕ} (xs : List (Eu D)) : 0 ≤ pairDist xs :=
  list_sum_nonneg' fun _ _ => list_sum_nonneg' fun _ _ => dist_nonneg

theorem pairDist_le {D : ℕ} (y : Eu D) {xs : List (Eu D)} (h : xs ≠ []) :
    pairDist xs ≤ 2 * (xs.length : ℝ) ^ 2 * meanDist y xs := by
  have hM : (xs.length : ℝ) ≠ 0 := by simpa using h
  have e : (xs.map fun x => dist x y).sum = xs.length * meanDist y xs := by unfold meanDist; field_simp
  have h1 : ∀ a ∈ xs, (xs.map fun b => dist a b).sum ≤ xs.length * dist a y + xs.length * meanDist y xs := by
    intro a _
    have : (xs.map fun b => dist a b).sum ≤ (xs.map fun b => dist a y + dist b y).sum :=
      List.sum_le_sum fun b _ => by rw [dist_comm b y]; exact dist_triangle _ _ _
    refine this.trans (le_of_eq ?_)
    rw [List.sum_map_add, e]
    simp
  refine (List.sum_le_sum h1).trans (le_of_eq ?_)
  rw [List.sum_map_add, List.sum_map_mul_left, e]
  simp
  ring

section
variable {r : ℝ → XF} (hr : Binary64 r) {D : ℕ} {S : List XF → XF} (hS : ∀ xs, RSum r xs (S xs))
include hr hS

theorem esErr_near {y : Eu D} {xs : List (Eu D)} (hD : D ≤ 2 ^ 20) (hM : xs.length ≤ 2 ^ 20) (hne : xs ≠ [])
    (h : ∀ x ∈ xs, ∀ i, |x i - y i| ≤ 2 ^ 480) :
    SqNear (1 / 2 ^ 520) (Rnd.esErr r S (vec y) (xs.map vec)) (meanDist y xs) (D + xs.length + 4) 4 ∧
      meanDist y xs ≤ 2 ^ 490 := by
  have hD' : (D : ℝ) ≤ 2 ^ 20 := by exact_mod_cast hD
  have hM' : (xs.length : ℝ) ≤ 2 ^ 20 := by exact_mod_cast hM
  have hM0 : (0:ℝ) < xs.length := by exact_mod_cast List.length_pos_iff.mpr hne
  have hsum : (xs.map fun x => dist x y).sum ≤ xs.length * 2 ^ 490 :=
    sum_map_le fun x hx => (dist_le_big hD (h x hx)).2.2
  have hmean : meanDist y xs ≤ 2 ^ 490 := by
    unfold meanDist
    rw [div_le_iff₀ hM0, mul_comm]
    exact hsum
  refine ⟨?_, hmean⟩
  have h0 : 0 ≤ (xs.map fun x => dist x y).sum := list_sum_nonneg' fun _ _ => dist_nonneg
  have hs := (hS ((xs.map vec).map fun x => Rnd.vnorm r S (Rnd.vsub r x (vec y)))).sqNear hr unit_norm
    (k := D + 3) (m := 2) (by norm_num) (as := xs.map fun x => dist x y) ?_ ?_ ?_ ?_
  · simp only [List.length_map] at hs
    have hd := (hs.div hM0).rd hr unit_norm (meanDist_nonneg y xs) (hmean.trans (pow_le_pow_right₀ (by norm_num) (by norm_num)))
      ?_ ?_
    · unfold Rnd.esErr
      rw [List.length_map, natCast_fin]
      refine hd.mono unit_norm.nonneg (meanDist_nonneg y xs) (by linarith) ?_
      rw [mul_div_cancel_right₀ _ hM0.ne']; norm_num
    · clear hs h0 hsum hmean h
      generalize (xs.length : ℝ) = M at *
      generalize (D : ℝ) = d at *
      norm_num at *; linarith
    · rw [mul_div_cancel_right₀ _ hM0.ne']; norm_num
  · rw [List.map_map, List.forall₂_map_left_iff, List.forall₂_map_right_iff, List.forall₂_same]
    intro x hx
    exact ⟨dist_nonneg, vnorm_near hr hS hD (h x hx)⟩
  · refine hsum.trans ?_
    calc (xs.length : ℝ) * 2 ^ 490 ≤ 2 ^ 20 * 2 ^ 490 := mul_le_mul_of_nonneg_right hM' (by positivity)
      _ = 2 ^ 510 := by rw [← pow_add]
      _ ≤ 2 ^ 1000 := pow_le_pow_right₀ (by norm_num) (by norm_num)
  · simp only [List.length_map]
    clear h0 hsum hmean h
    generalize (xs.length : ℝ) = M at *
    generalize (D : ℝ) = d at *
    norm_num at *; linarith
  · simp only [List.length_map]
    clear h0 hsum hmean h
    generalize (xs.length : ℝ) = M at *
    norm_num at *; linarith

theorem esSpread_near {xs : List (Eu D)} (hD : D ≤ 2 ^ 20) (hM : xs.length ≤ 2 ^ 20)
    (h : ∀ x ∈ xs, ∀ x' ∈ xs, ∀ i, |x i - x' i| ≤ 2 ^ 480) :
    SqNear (1 / 2 ^ 520) (Rnd.esSpread r S (xs.map vec)) (pairDist xs) (D + 3 + (xs.length : ℝ) ^ 2)
      (3 * (xs.length : ℝ) ^ 2) ∧ pairDist xs ≤ (xs.length : ℝ) ^ 2 * 2 ^ 490 := by
  have hD' : (D : ℝ) ≤ 2 ^ 20 := by exact_mod_cast hD
  have hM' : (xs.length : ℝ) ≤ 2 ^ 20 := by exact_mod_cast hM
  have hM2 : (xs.length : ℝ) ^ 2 ≤ 2 ^ 40 := by
    calc (xs.length : ℝ) ^ 2 ≤ (2 ^ 20) ^ 2 := pow_le_pow_left₀ (Nat.cast_nonneg _) hM' 2
      _ = 2 ^ 40 := by rw [← pow_mul]
  have hsum : pairDist xs ≤ (xs.length : ℝ) ^ 2 * 2 ^ 490 := by
    unfold pairDist
    rw [sq, mul_assoc]
    refine sum_map_le fun a ha => sum_map_le fun b hb => (dist_le_big hD (h a ha b hb)).2.2
  refine ⟨?_, hsum⟩
  have e : ((xs.flatMap fun a => xs.map fun b => dist b a)).sum = pairDist xs := by
    rw [sum_flatMap_eq]
    unfold pairDist
    simp only [dist_comm]
  have el : ((xs.map vec).flatMap fun a => (xs.map vec).map fun b => Rnd.vnorm r S (Rnd.vsub r b a)).length
      = xs.length ^ 2 := by
    simp [sq, Function.comp_def]
  have hs := (hS ((xs.map vec).flatMap fun a => (xs.map vec).map fun b => Rnd.vnorm r S (Rnd.vsub r b a))).sqNear hr
    unit_norm (k := D + 3) (m := 2) (by norm_num) (as := xs.flatMap fun a => xs.map fun b => dist b a) ?_ ?_ ?_ ?_
  · rw [e, el, Nat.cast_pow] at hs
    unfold Rnd.esSpread
    exact hs.mono unit_norm.nonneg (pairDist_nonneg xs) (le_refl _) (by linarith)
  · rw [List.flatMap_map]
    refine forall₂_flatMap' fun a ha => ?_
    rw [List.map_map, List.forall₂_map_left_iff, List.forall₂_map_right_iff, List.forall₂_same]
    intro b hb
    exact ⟨dist_nonneg, vnorm_near hr hS hD (h b hb a ha)⟩
  · rw [e]
    refine hsum.trans ?_
    calc (xs.length : ℝ) ^ 2 * 2 ^ 490 ≤ 2 ^ 40 * 2 ^ 490 := mul_le_mul_of_nonneg_right hM2 (by positivity)
      _ = 2 ^ 530 := by rw [← pow_add]
      _ ≤ 2 ^ 1000 := pow_le_pow_right₀ (by norm_num) (by norm_num)
  · rw [el, Nat.cast_pow]
    clear hsum h e el
    generalize (xs.length : ℝ) ^ 2 = M at *
    generalize (D : ℝ) = d at *
    clear hM' hM hD
    norm_num at *; linarith
  · rw [el, Nat.cast_pow]
    clear hsum h e el
    generalize (xs.length : ℝ) ^ 2 = M at *
    clear hM' hM hD hD'
    norm_num at *; linarith

omit hS in
/-- the difference of two approximated numbers, rounded -/
theorem sub_near {t : ℝ} (ht : Unit' t) {x y : XF} {a b k m m' : ℝ} (hx : SqNear t x a k m) (hy : SqNear t y b k m')
    (ha : 0 ≤ a) (hb : 0 ≤ b) (hk : k ≤ 2 ^ 50) (hm : m + m' ≤ 2 ^ 50) (hA : a + b ≤ 2 ^ 1000) :
    ∃ v : ℝ, Rnd.rd r (x - y) = fin v ∧ |v - (a - b)| ≤ (k + 1) * (1 / 2 ^ 51) * (a + b) + (m + m' + 1) * t := by
  obtain ⟨x, rfl, _, x2⟩ := hx
  obtain ⟨y, rfl, _, y2⟩ := hy
  have hkq : k * (1 / 2 ^ 51) ≤ 1 := by
    rw [mul_one_div, div_le_one (by positivity)]; exact hk.trans (pow_le_pow_right₀ (by norm_num) (by norm_num))
  have hmq : (m + m') * (1 / 2 ^ 51) ≤ 1 := by
    rw [mul_one_div, div_le_one (by positivity)]; exact hm.trans (pow_le_pow_right₀ (by norm_num) (by norm_num))
  have hd : |(x - y) - (a - b)| ≤ k * (1 / 2 ^ 51) * (a + b) + (m + m') * t := by
    have e : (x - y) - (a - b) = (x - a) - (y - b) := by ring
    rw [e]
    refine (abs_sub _ _).trans ?_
    linarith
  have hab : |a - b| ≤ a + b := by rw [abs_le]; constructor <;> linarith
  have hc0 : 0 ≤ a + b := by linarith
  have hxy : |x - y| ≤ (a + b) + (k * (1 / 2 ^ 51) * (a + b) + (m + m') * t) := by
    have := abs_sub_abs_le_abs_sub (x - y) (a - b)
    linarith
  have hlt : |x - y| < 2 ^ 1023 := by
    have h4 : k * (1 / 2 ^ 51) * (a + b) ≤ 1 * (a + b) := mul_le_mul_of_nonneg_right hkq hc0
    have h5 : (m + m') * t ≤ 2 ^ 50 := by
      refine (mul_le_mul_of_nonneg_right hm ht.nonneg).trans ?_
      exact mul_le_of_le_one_right (by positivity) ht.2
    have h6' := h5.trans (pow_le_pow_right₀ (by norm_num) (by norm_num) : (2:ℝ) ^ 50 ≤ 2 ^ 1000)
    have h7 : (2:ℝ) ^ 1023 = 2 ^ 1000 * 2 ^ 23 := by rw [← pow_add]
    have h9 : (0:ℝ) < 2 ^ 1000 := by positivity
    rw [h7]
    clear h7 hk hm hkq hmq ht h5 hd x2 y2
    generalize (2:ℝ) ^ 1000 = P at *
    generalize (m + m') * t = w at *
    generalize k * (1 / (2:ℝ) ^ 51) * (a + b) = w' at *
    have : |x - y| ≤ 3 * P := by linarith
    norm_num; linarith
  obtain ⟨δ, η, hδ, hη, e1⟩ := hr.acc hlt
  refine ⟨_, by rw [fin_sub]; exact e1, ?_⟩
  have hη' := ht.tiny hη
  have ht0 := ht.nonneg
  have e2 : (x - y) * (1 + δ) + η - (a - b) = ((x - y) - (a - b)) + (x - y) * δ + η := by ring
  rw [e2]
  refine (abs_add_three _ _ _).trans ?_
  have h4 : |(x - y) * δ| ≤ ((a + b) + (k * (1 / 2 ^ 51) * (a + b) + (m + m') * t)) * (1 / 2 ^ 51 / 4) := by
    rw [abs_mul]; exact mul_le_mul hxy (hδ.trans (by norm_num)) (abs_nonneg _) ((abs_nonneg _).trans hxy)
  have hq0 : (0:ℝ) ≤ 1 / 2 ^ 51 := by positivity
  clear hη e1 hlt x2 y2 hδ hk hm ht
  generalize (1:ℝ) / 2 ^ 51 = q at *
  have h5 : k * q * (a + b) ≤ 1 * (a + b) := mul_le_mul_of_nonneg_right hkq hc0
  have h6 : k * q * (a + b) * q ≤ 1 * (a + b) * q := mul_le_mul_of_nonneg_right h5 hq0
  have h7 : (m + m') * q * t ≤ 1 * t := mul_le_mul_of_nonneg_right hmq ht0
  have h8 : 0 ≤ (a + b) * q := mul_nonneg hc0 hq0
  nlinarith

omit hr hS in
theorem es_sizes {d M Q : ℝ} (hd : d ≤ 2 ^ 20) (hM : M ≤ 2 ^ 20) (hM1 : 1 ≤ M) (hQ : M ^ 2 ≤ 2 * Q) :
    d + 3 + M ^ 2 ≤ 2 ^ 49 ∧ 3 * M ^ 2 / Q ≤ 6 := by
  have h1 : M ^ 2 ≤ (2 ^ 20) ^ 2 := pow_le_pow_left₀ (by linarith) hM 2
  have hQ0 : 0 < Q := by nlinarith
  refine ⟨by norm_num at *; linarith, ?_⟩
  rw [div_le_iff₀ hQ0]; linarith

theorem es_near {y : Eu D} {xs : List (Eu D)} (hD : D ≤ 2 ^ 20) (hM : xs.length ≤ 2 ^ 20) (hne : xs ≠ [])
    (hy : ∀ i, |y i| ≤ 2 ^ 479) (hx : ∀ x ∈ xs, ∀ i, |x i| ≤ 2 ^ 479) {Q : ℝ} (hQ : (xs.length : ℝ) ^ 2 ≤ 2 * Q) :
    ∃ v : ℝ, Rnd.rd r (Rnd.esErr r S (vec y) (xs.map vec)
        - Rnd.rd r (fin (1 / 2) * Rnd.rd r (Rnd.esSpread r S (xs.map vec) / fin Q))) = fin v ∧
      |v - (meanDist y xs - 1 / 2 * (pairDist xs / Q))|
        ≤ (D + (xs.length : ℝ) ^ 2) / 2 ^ 46 * meanDist y xs + 1 / 2 ^ 500 := by
  have two : (2:ℝ) ^ 479 + 2 ^ 479 = 2 ^ 480 := by rw [← two_mul, ← pow_succ']
  have hxy : ∀ x ∈ xs, ∀ i, |x i - y i| ≤ 2 ^ 480 := fun x h i =>
    (abs_sub _ _).trans ((add_le_add (hx x h i) (hy i)).trans two.le)
  have hxx : ∀ x ∈ xs, ∀ x' ∈ xs, ∀ i, |x i - x' i| ≤ 2 ^ 480 := fun x h x' h' i =>
    (abs_sub _ _).trans ((add_le_add (hx x h i) (hx x' h' i)).trans two.le)
  have hD' : (D : ℝ) ≤ 2 ^ 20 := by exact_mod_cast hD
  have hM' : (xs.length : ℝ) ≤ 2 ^ 20 := by exact_mod_cast hM
  have hM1 : (1:ℝ) ≤ xs.length := by exact_mod_cast List.length_pos_iff.mpr hne
  obtain ⟨s1, s2⟩ := es_sizes hD' hM' hM1 hQ
  have hQ0 : 0 < Q := by nlinarith
  obtain ⟨n1, b1⟩ := esErr_near hr hS hD hM hne hxy
  obtain ⟨n2, b2⟩ := esSpread_near hr hS hD hM hxx
  have p1 := meanDist_nonneg y xs
  have p2 := pairDist_nonneg xs
  have p3 : 0 ≤ pairDist xs / Q := by positivity
  have hpd := pairDist_le y hne
  have hpq : pairDist xs / Q ≤ 4 * meanDist y xs := by
    rw [div_le_iff₀ hQ0]
    refine hpd.trans ?_
    nlinarith
  have big1 : pairDist xs / Q ≤ 2 ^ 1000 := by
    refine hpq.trans ?_
    calc 4 * meanDist y xs ≤ 2 ^ 2 * 2 ^ 490 := by
          rw [show (4:ℝ) = 2 ^ 2 by norm_num]; exact mul_le_mul_of_nonneg_left b1 (by positivity)
      _ = 2 ^ 492 := by rw [← pow_add]
      _ ≤ 2 ^ 1000 := pow_le_pow_right₀ (by norm_num) (by norm_num)
  have hD0 : (0 : ℝ) ≤ D := Nat.cast_nonneg D
  have n3 := (n2.div hQ0).rd hr unit_norm p3 big1 (s1.trans (by norm_num)) (s2.trans (by norm_num))
  have n4 := n3.half.rd hr unit_norm (by positivity)
    (le_trans (by linarith) big1) (by norm_num at s1 ⊢; linarith) (by norm_num at s2 ⊢; linarith)
  have hMM : (xs.length : ℝ) ≤ (xs.length : ℝ) ^ 2 := by nlinarith
  have n1' := n1.mono unit_norm.nonneg p1 (k' := D + 3 + (xs.length : ℝ) ^ 2 + 1 + 1) (m' := 4) (by linarith) (le_refl _)
  have n4' := n4.mono unit_norm.nonneg (by positivity) (k' := D + 3 + (xs.length : ℝ) ^ 2 + 1 + 1) (m' := 5) (le_refl _)
    (by linarith)
  obtain ⟨v, e, hv⟩ := sub_near hr unit_norm n1' n4' p1 (by positivity) (by norm_num at s1 ⊢; linarith) (by norm_num) (by
    have : 3 * meanDist y xs ≤ 2 ^ 2 * 2 ^ 490 := by
      refine le_trans ?_ (mul_le_mul_of_nonneg_left b1 (by positivity))
      norm_num; linarith
    refine le_trans (by linarith) (this.trans ?_)
    rw [← pow_add]
    exact pow_le_pow_right₀ (by norm_num) (by norm_num))
  refine ⟨v, e, hv.trans ?_⟩
  have g1 : ((D : ℝ) + 3 + (xs.length : ℝ) ^ 2 + 1 + 1 + 1) * (1 / 2 ^ 51) * (meanDist y xs + 1 / 2 * (pairDist xs / Q))
      ≤ (D + (xs.length : ℝ) ^ 2) / 2 ^ 46 * meanDist y xs := by
    have f1 : meanDist y xs + 1 / 2 * (pairDist xs / Q) ≤ 3 * meanDist y xs := by linarith
    have f2 : (D : ℝ) + 3 + (xs.length : ℝ) ^ 2 + 1 + 1 + 1 ≤ 7 * (D + (xs.length : ℝ) ^ 2) := by nlinarith
    calc _ ≤ (7 * (D + (xs.length : ℝ) ^ 2)) * (1 / 2 ^ 51) * (3 * meanDist y xs) := by gcongr
      _ = 21 / 2 ^ 51 * ((D + (xs.length : ℝ) ^ 2) * meanDist y xs) := by ring
      _ ≤ 1 / 2 ^ 46 * ((D + (xs.length : ℝ) ^ 2) * meanDist y xs) := by
        refine mul_le_mul_of_nonneg_right (by norm_num) (by positivity)
      _ = _ := by ring
  have g2 : ((4:ℝ) + 5 + 1) * (1 / 2 ^ 520) ≤ 1 / 2 ^ 500 := by
    rw [show (520:ℕ) = 20 + 500 from rfl, pow_add]
    have : (0:ℝ) < 1 / 2 ^ 500 := by positivity
    rw [← one_div_mul_one_div, ← mul_assoc]
    generalize (1:ℝ) / 2 ^ 500 = w at *
    norm_num; linarith
  exact add_le_add g1 g2

end

/-! ### infinite and nonnegative values -/

/-- nonnegative or `+∞` -/
def NonnegX (x : XF) : Prop := x = pinf ∨ ∃ a : ℝ, 0 ≤ a ∧ x = fin a

theorem NonnegX.add {x y : XF} (hx : NonnegX x) (hy : NonnegX y) : NonnegX (x + y) := by
  rcases hx with rfl | ⟨a, ha, rfl⟩ <;> rcases hy with rfl | ⟨b, hb, rfl⟩
  · exact .inl rfl
  · exact .inl rfl
  · exact .inl rfl
  · exact .inr ⟨a + b, by positivity, fin_add _ _⟩

theorem NonnegX.pinf_add {x : XF} (hx : NonnegX x) : pinf + x = pinf := by
  rcases hx with rfl | ⟨a, _, rfl⟩ <;> rfl

theorem NonnegX.add_pinf {x : XF} (hx : NonnegX x) : x + pinf = pinf := by
  rcases hx with rfl | ⟨a, _, rfl⟩ <;> rfl

theorem NonnegX.rd {r : ℝ → XF} (hr : Binary64 r) {x : XF} (hx : NonnegX x) : NonnegX (Rnd.rd r x) := by
  rcases hx with rfl | ⟨a, ha, rfl⟩
  · exact .inl rfl
  · have h1 := hr.mono ha
    have h2 : r 0 = fin 0 := by simpa using hr.nat 0 (by norm_num)
    rw [h2] at h1
    show NonnegX (r a)
    cases e : r a with
    | nan => exact absurd e (hr.noNan a)
    | ninf => rw [e] at h1; exact absurd h1 (by simp)
    | pinf => exact .inl rfl
    | fin b => exact .inr ⟨b, hr.nonneg ha e, rfl⟩

theorem RSum.nonneg {r : ℝ → XF} (hr : Binary64 r) {xs : List XF} {s : XF} (h : RSum r xs s) :
    (∀ x ∈ xs, NonnegX x) → NonnegX s ∧ (pinf ∈ xs → s = pinf) := by
  induction h with
  | nil => intro _; exact ⟨.inr ⟨0, le_refl _, rfl⟩, by simp⟩
  | one x => intro h; exact ⟨h x (by simp), fun hp => (List.mem_singleton.mp hp).symm⟩
  | append _ _ _ _ ih1 ih2 =>
    intro h
    obtain ⟨a1, b1⟩ := ih1 fun x hx => h x (by simp [hx])
    obtain ⟨a2, b2⟩ := ih2 fun x hx => h x (by simp [hx])
    refine ⟨(a1.add a2).rd hr, fun hp => ?_⟩
    rcases List.mem_append.mp hp with hp | hp
    · rw [b1 hp, a2.pinf_add]; rfl
    · rw [b2 hp, a1.add_pinf]; rfl
  | perm hp _ ih =>
    intro h
    obtain ⟨a, b⟩ := ih fun x hx => h x (hp.mem_iff.mp hx)
    exact ⟨a, fun hx => b (hp.mem_iff.mpr hx)⟩

/-- some order of summation always exists -/
theorem exists_rsum (r : ℝ → XF) : ∃ S : List XF → XF, ∀ xs, RSum r xs (S xs) := by
  have : ∀ xs, ∃ s, RSum r xs s := by
    intro xs
    induction xs with
    | nil => exact ⟨0, .nil⟩
    | cons x xs ih =>
      obtain ⟨s, hs⟩ := ih
      by_cases h : xs = []
      · subst h; exact ⟨x, .one x⟩
      · exact ⟨_, RSum.append (xs := [x]) (by simp) h (.one x) hs⟩
  exact ⟨fun xs => (this xs).choose, fun xs => (this xs).choose_spec⟩

theorem rd_fin_eq (x : XF) : Rnd.rd fin x = x := by cases x <;> rfl

/-- without rounding the order does not matter -/
theorem RSum.exact {xs : List XF} {s : XF} (h : RSum fin xs s) : s = xs.sum := by
  induction h with
  | nil => rfl
  | one x => simp
  | append _ _ _ _ ih1 ih2 =>
    rw [List.sum_append, ← ih1, ← ih2]
    exact rd_fin_eq _
  | perm hp _ ih => rw [ih, hp.sum_eq]

theorem xsum_flatMap {α : Type} (l : List α) (f : α → List XF) : (l.flatMap f).sum = (l.map fun a => (f a).sum).sum := by
  induction l with
  | nil => simp
  | cons a l ih => simp [ih]

/-- a single one-dimensional difference -/
theorem rvnorm_one {r : ℝ → XF} {S : List XF → XF} (hS : ∀ xs, RSum r xs (S xs)) (x y : XF) :
    Rnd.vnorm r S (Rnd.vsub r [x] [y]) = Rnd.rd r (XF.sqrt (Rnd.rd r (Rnd.rd r (x - y) * Rnd.rd r (x - y)))) := by
  have e : (Rnd.vsub r [x] [y]).map (fun x => Rnd.rd r (x * x)) = [Rnd.rd r (Rnd.rd r (x - y) * Rnd.rd r (x - y))] := rfl
  unfold Rnd.vnorm
  rw [e, (hS [_]).eq_one rfl]

section
variable {r : ℝ → XF} (hr : Binary64 r) {S : List XF → XF} (hS : ∀ xs, RSum r xs (S xs))
include hr hS

theorem vnorm_self (a : ℝ) : Rnd.vnorm r S (Rnd.vsub r [fin a] [fin a]) = fin 0 := by
  have h2 : r 0 = fin 0 := by simpa using hr.nat 0 (by norm_num)
  rw [rvnorm_one hS, fin_sub, sub_self]
  simp [Rnd.rd, h2, XF.sqrt]

theorem vnorm_over {a b : ℝ} (h : 2 ^ 513 ≤ |a - b|) : Rnd.vnorm r S (Rnd.vsub r [fin a] [fin b]) = pinf := by
  rw [rvnorm_one hS, fin_sub]
  suffices h : Rnd.rd r (Rnd.rd r (fin (a - b)) * Rnd.rd r (fin (a - b))) = pinf by rw [h]; rfl
  generalize a - b = u at *
  show Rnd.rd r (r u * r u) = pinf
  have hpos : ∀ u : ℝ, 2 ^ 513 ≤ u → Rnd.rd r (r u * r u) = pinf := by
    intro u hu
    have hc : NonnegX (r u) := NonnegX.rd (x := fin u) hr (.inr ⟨u, le_trans (by positivity) hu, rfl⟩)
    have h512 : ∀ c, r (2 ^ 513) = fin c → (2:ℝ) ^ 512 ≤ c := by
      intro c hc
      obtain ⟨δ, η, hδ, hη, e1⟩ := hr.acc (a := 2 ^ 513)
        (by rw [abs_of_pos (by positivity)]; exact pow_lt_pow_right₀ (by norm_num) (by norm_num))
      rw [e1] at hc
      have hc' : 2 ^ 513 * (1 + δ) + η = c := by simpa using hc
      have d1 := (abs_le.mp hδ).1
      have d2 := (abs_le.mp hη).1
      have d3 : (1:ℝ) / 2 ^ 1075 ≤ 1 := by rw [div_le_one (by positivity)]; exact one_le_pow₀ (by norm_num)
      have d4 : (2:ℝ) ^ 513 = 2 ^ 512 * 2 := pow_succ _ _
      have d5 : (4:ℝ) ≤ 2 ^ 512 := by
        calc (4:ℝ) = 2 ^ 2 := by norm_num
          _ ≤ 2 ^ 512 := pow_le_pow_right₀ (by norm_num) (by norm_num)
      have d6 : (-1:ℝ) ≤ η := by linarith
      rw [← hc', d4]
      have d7 : (-(1 / 4):ℝ) ≤ δ := le_trans (by norm_num) d1
      clear d2 d3 hη hc e1 hu hc' d4 d1 hδ
      generalize (2:ℝ) ^ 512 = P at *
      nlinarith
    rcases hc with hc | ⟨c, _, hc⟩
    · rw [hc]; rfl
    · have hm := hr.mono hu
      have h1 : (2:ℝ) ^ 512 ≤ c := by
        have hc2 : NonnegX (r (2 ^ 513)) := NonnegX.rd (x := fin (2 ^ 513)) hr (.inr ⟨_, by positivity, rfl⟩)
        rcases hc2 with h | ⟨c', _, h⟩
        · rw [h, hc] at hm; exact absurd hm (by simp)
        · rw [h, hc] at hm
          exact (h512 c' h).trans (by simpa using hm)
      rw [hc, fin_mul]
      refine hr.over ?_
      calc (2:ℝ) ^ 1024 = 2 ^ 512 * 2 ^ 512 := by rw [← pow_add]
        _ ≤ c * c := mul_le_mul h1 h1 (by positivity) (le_trans (by positivity) h1)
  rcases le_total 0 u with hu | hu
  · rw [abs_of_nonneg hu] at h; exact hpos u h
  · rw [abs_of_nonpos hu] at h
    have e := hpos (-u) h
    rw [hr.neg] at e
    rw [← e]
    congr 1
    cases r u with
    | nan => rfl
    | ninf => rfl
    | pinf => rfl
    | fin b => simp

theorem vnorm_under {a b : ℝ} (h : |a - b| ≤ 1 / 2 ^ 540) : Rnd.vnorm r S (Rnd.vsub r [fin a] [fin b]) = fin 0 := by
  have h2 : r 0 = fin 0 := by simpa using hr.nat 0 (by norm_num)
  rw [rvnorm_one hS, fin_sub]
  suffices h : Rnd.rd r (Rnd.rd r (fin (a - b)) * Rnd.rd r (fin (a - b))) = fin 0 by
    rw [h]; simp [Rnd.rd, h2, XF.sqrt]
  generalize a - b = u at *
  obtain ⟨δ, η, hδ, hη, e1⟩ := hr.acc (a := u) (h.trans_lt (lt_of_le_of_lt
    (by rw [div_le_one (by positivity)]; exact one_le_pow₀ (by norm_num)) (one_lt_pow₀ (by norm_num) (by norm_num))))
  show Rnd.rd r (r u * r u) = fin 0
  rw [e1, fin_mul]
  refine hr.under ?_
  have hη' : |η| ≤ 1 / 2 ^ 540 :=
    hη.trans (one_div_le_one_div_of_le (by positivity) (pow_le_pow_right₀ (by norm_num) (by norm_num)))
  have hb : |u * (1 + δ) + η| ≤ 1 / 2 ^ 538 := by
    have e4 : (1:ℝ) / 2 ^ 538 = 4 * (1 / 2 ^ 540) := by
      rw [show (540:ℕ) = 538 + 2 from rfl, pow_add, ← one_div_mul_one_div]; ring
    have h3 : |1 + δ| ≤ 2 := by
      have := abs_le.mp (hδ.trans (by norm_num : (1:ℝ) / 2 ^ 53 ≤ 1))
      rw [abs_le]; constructor <;> linarith
    have h4 : |u * (1 + δ)| ≤ 1 / 2 ^ 540 * 2 := by
      rw [abs_mul]; exact mul_le_mul h h3 (abs_nonneg _) (by positivity)
    have h5 : (0:ℝ) < 1 / 2 ^ 540 := by positivity
    rw [e4]
    refine (abs_add_le _ _).trans ?_
    clear e4 hη e1
    generalize (1:ℝ) / 2 ^ 540 = w at *
    linarith
  rw [abs_mul]
  calc |u * (1 + δ) + η| * |u * (1 + δ) + η| ≤ 1 / 2 ^ 538 * (1 / 2 ^ 538) :=
        mul_le_mul hb hb (abs_nonneg _) (by positivity)
    _ = 1 / 2 ^ 1076 := by rw [one_div_mul_one_div, ← pow_add]
    _ ≤ 1 / 2 ^ 1075 := one_div_le_one_div_of_le (by positivity) (pow_le_pow_right₀ (by norm_num) (by norm_num))

end

end Verif
