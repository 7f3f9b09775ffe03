import Verif.Model.RoundKernel
import Verif.Lemmas.RoundEnergy
import Verif.Lemmas.RoundClosed
import Verif.Lemmas.Kernel
import Verif.Spec.Kernel

/-!
# Rounding in the Gaussian kernel score
-/

noncomputable section

open scoped Classical

namespace Verif

open XF Py Mv Spec

/-- relative and absolute errors before the exponential: `n` is an approximation of `d` -/
theorem gauss_arg {d δ η δ2 η2 δ3 η3 ε0 : ℝ} (hd : |d| ≤ 2 ^ 100) (hε0 : ε0 ≤ 1 / 16)
    (hδ : |δ| ≤ ε0) (hη : |η| ≤ 1 / 2 ^ 200) (hδ2 : |δ2| ≤ 1 / 2 ^ 53) (hη2 : |η2| ≤ 1 / 2 ^ 1075)
    (hδ3 : |δ3| ≤ 1 / 2 ^ 53) (hη3 : |η3| ≤ 1 / 2 ^ 1075) :
    |Real.exp (-(1 / 2) * ((d * (1 + δ) + η) ^ 2 * (1 + δ2) + η2) * (1 + δ3) + η3) - Real.exp (-d ^ 2 / 2)|
      ≤ 4 * (4 * ε0 + 1 / 2 ^ 51) := by
  have hε00 : 0 ≤ ε0 := (abs_nonneg _).trans hδ
  have hη2' : |η2| ≤ 1 / 2 ^ 90 := hη2.trans (one_div_le_one_div_of_le (by positivity) (pow_le_pow_right₀ (by norm_num) (by norm_num)))
  have hη3' : |η3| ≤ 1 / 2 ^ 90 := hη3.trans (one_div_le_one_div_of_le (by positivity) (pow_le_pow_right₀ (by norm_num) (by norm_num)))
  clear hη2 hη3
  have e1 : -(1 / 2) * ((d * (1 + δ) + η) ^ 2 * (1 + δ2) + η2) * (1 + δ3) + η3
      = -(d ^ 2 / 2 * ((1 + δ) ^ 2 * ((1 + δ2) * (1 + δ3))))
        + (-(1 / 2) * (1 + δ3) * ((2 * d * (1 + δ) * η + η ^ 2) * (1 + δ2) + η2) + η3) := by ring
  have h53 : (1:ℝ) / 2 ^ 53 ≤ 1 / 8 := by norm_num
  obtain ⟨a1, a2⟩ := abs_le.1 hδ
  have b2 : |(1:ℝ) + δ2| ≤ 2 := by
    refine (abs_add_le _ _).trans ?_
    rw [abs_one]; linarith
  have b3 : |(1:ℝ) + δ3| ≤ 2 := by
    refine (abs_add_le _ _).trans ?_
    rw [abs_one]; linarith
  have b1 : |(1:ℝ) + δ| ≤ 2 := by
    refine (abs_add_le _ _).trans ?_
    rw [abs_one]; linarith
  rw [e1, show -d ^ 2 / 2 = -(d ^ 2 / 2) by ring]
  refine exp_rel_arg (by positivity) ?_ ?_ ?_
  · have c1 : |(1 + δ) ^ 2 - 1| ≤ 17 / 8 * ε0 := by
      rw [show (1 + δ) ^ 2 - 1 = δ * (2 + δ) by ring, abs_mul, mul_comm]
      refine mul_le_mul ?_ hδ (abs_nonneg _) (by norm_num)
      refine (abs_add_le _ _).trans ?_
      rw [abs_of_pos (two_pos : (0:ℝ) < 2)]; linarith
    have c2 : |(1 + δ2) * (1 + δ3) - 1| ≤ 3 * (1 / 2 ^ 53) := by
      rw [show (1 + δ2) * (1 + δ3) - 1 = δ2 + δ3 * (1 + δ2) by ring]
      refine (abs_add_le _ _).trans ?_
      rw [abs_mul]
      have := mul_le_mul hδ3 b2 (abs_nonneg _) (by positivity)
      linarith
    have c3 : (1 + δ) ^ 2 * ((1 + δ2) * (1 + δ3)) - 1
        = ((1 + δ) ^ 2 - 1) * ((1 + δ2) * (1 + δ3)) + ((1 + δ2) * (1 + δ3) - 1) := by ring
    have c4 : |(1 + δ2) * (1 + δ3)| ≤ 9 / 8 := by
      have := abs_sub_abs_le_abs_sub ((1 + δ2) * (1 + δ3)) 1
      rw [abs_one] at this
      have : (3:ℝ) * (1 / 2 ^ 53) ≤ 1 / 8 := by norm_num
      linarith
    rw [c3]
    refine (abs_add_le _ _).trans ?_
    rw [abs_mul]
    have c5 := mul_le_mul c1 c4 (abs_nonneg _) (by positivity)
    have : (3:ℝ) * (1 / 2 ^ 53) ≤ 1 / 2 ^ 51 := by norm_num
    nlinarith
  · have c1 : |2 * d * (1 + δ) * η + η ^ 2| ≤ 1 / 2 ^ 90 := by
      refine (abs_add_le _ _).trans ?_
      rw [abs_mul, abs_mul, abs_mul, abs_of_pos (two_pos : (0:ℝ) < 2), abs_pow]
      have g1 : 2 * |d| * |1 + δ| * |η| ≤ 2 * 2 ^ 100 * 2 * (1 / 2 ^ 200) := by
        gcongr
      have g2 : |η| ^ 2 ≤ (1 / 2 ^ 200) ^ 2 := pow_le_pow_left₀ (abs_nonneg _) hη 2
      refine (add_le_add g1 g2).trans ?_
      norm_num
    have c2 : |(2 * d * (1 + δ) * η + η ^ 2) * (1 + δ2) + η2| ≤ 3 * (1 / 2 ^ 90) := by
      refine (abs_add_le _ _).trans ?_
      rw [abs_mul]
      have := mul_le_mul c1 b2 (abs_nonneg _) (by positivity)
      linarith
    refine (abs_add_le _ _).trans ?_
    rw [abs_mul, abs_mul, abs_neg, abs_of_pos (by norm_num : (0:ℝ) < 1 / 2)]
    have g : 1 / 2 * |1 + δ3| * |(2 * d * (1 + δ) * η + η ^ 2) * (1 + δ2) + η2| ≤ 1 / 2 * 2 * (3 * (1 / 2 ^ 90)) := by
      gcongr
    have : (1:ℝ) / 2 * 2 * (3 * (1 / 2 ^ 90)) + 1 / 2 ^ 90 ≤ 1 / 2 ^ 51 := by norm_num
    linarith
  · have : (1:ℝ) / 2 ^ 51 ≤ 1 / 8 := by norm_num
    linarith

/-- a number close to `d`, written with a relative and an absolute error -/
theorem split_near {n d ε m : ℝ} (hε : 0 ≤ ε) (hm : 0 ≤ m) (h : |n - d| ≤ ε * |d| + m) :
    ∃ δ η : ℝ, |δ| ≤ ε ∧ |η| ≤ m ∧ n = d * (1 + δ) + η := by
  by_cases hd : d = 0
  · subst hd
    exact ⟨0, n, by simpa using hε, by simpa using h, by simp⟩
  by_cases h1 : |n - d| ≤ ε * |d|
  · refine ⟨(n - d) / d, 0, ?_, by simpa using hm, by field_simp; ring⟩
    rw [abs_div, div_le_iff₀ (abs_pos.2 hd)]; exact h1
  · push Not at h1
    rcases le_total 0 (n - d) with h2 | h2
    · refine ⟨ε * |d| / d, n - d - ε * |d|, ?_, ?_, by field_simp; ring⟩
      · rw [abs_div, abs_mul, abs_abs, abs_of_nonneg hε, mul_div_assoc, div_self (abs_ne_zero.2 hd), mul_one]
      · rw [abs_of_nonneg h2] at h h1
        rw [abs_of_nonneg (by linarith)]; linarith
    · refine ⟨-(ε * |d| / d), n - d + ε * |d|, ?_, ?_, by field_simp; ring⟩
      · rw [abs_neg, abs_div, abs_mul, abs_abs, abs_of_nonneg hε, mul_div_assoc, div_self (abs_ne_zero.2 hd), mul_one]
      · rw [abs_of_nonpos h2] at h h1
        rw [abs_of_nonpos (by linarith)]; linarith

section
variable {r : ℝ → XF} (hr : Binary64 r)
include hr

/-- the kernel of a distance known up to a small relative error -/
theorem gaussOf_near {n d ε0 : ℝ} (hd : |d| ≤ 2 ^ 100) (h0 : 0 ≤ ε0) (hε0 : ε0 ≤ 1 / 2 ^ 20)
    (h : |n - d| ≤ ε0 * |d| + 1 / 2 ^ 200) :
    SqNear (16 * ε0 + 1 / 2 ^ 49) (Rnd.gaussOf r (fin n)) (Real.exp (-d ^ 2 / 2)) 1 2 := by
  have ht : Unit' (16 * ε0 + 1 / 2 ^ 49) := by
    constructor
    · have : (1:ℝ) / 2 ^ 1073 ≤ 1 / 2 ^ 49 :=
        one_div_le_one_div_of_le (by positivity) (pow_le_pow_right₀ (by norm_num) (by norm_num))
      linarith
    · have : (16:ℝ) * (1 / 2 ^ 20) + 1 / 2 ^ 49 ≤ 1 := by norm_num
      linarith
  have hn : |n| ≤ 2 ^ 102 := by
    have := abs_sub_abs_le_abs_sub n d
    have e : ε0 * |d| ≤ 1 * 2 ^ 100 := mul_le_mul (hε0.trans (by norm_num)) hd (abs_nonneg _) (by norm_num)
    have : (1:ℝ) / 2 ^ 200 ≤ 1 := by norm_num
    norm_num at *; linarith
  have hn2 : |n ^ 2| ≤ 2 ^ 204 := by
    rw [abs_pow]
    calc |n| ^ 2 ≤ (2 ^ 102) ^ 2 := pow_le_pow_left₀ (abs_nonneg _) hn 2
      _ = 2 ^ 204 := by rw [← pow_mul]
  have big : ∀ {x : ℝ}, |x| ≤ 2 ^ 210 → |x| < 2 ^ 1023 := fun h =>
    h.trans_lt (pow_lt_pow_right₀ (by norm_num) (by norm_num))
  obtain ⟨δ, η, hδ, hη, e⟩ := split_near h0 (by positivity) h
  obtain ⟨δ2, η2, hδ2, hη2, e2⟩ := hr.acc (a := n ^ 2) (big (hn2.trans (pow_le_pow_right₀ (by norm_num) (by norm_num))))
  have hu : |-(1 / 2) * (n ^ 2 * (1 + δ2) + η2)| ≤ 2 ^ 210 := by
    have g1 : |(1:ℝ) + δ2| ≤ 2 := by
      refine (abs_add_le _ _).trans ?_
      rw [abs_one]
      have : (1:ℝ) / 2 ^ 53 ≤ 1 := by norm_num
      linarith
    have g2 : |η2| ≤ 1 := hη2.trans (by rw [div_le_one (by positivity)]; exact one_le_pow₀ (by norm_num))
    rw [abs_mul, abs_neg, abs_of_pos (by norm_num : (0:ℝ) < 1 / 2)]
    have g3 : |n ^ 2 * (1 + δ2) + η2| ≤ 2 ^ 204 * 2 + 1 := by
      refine (abs_add_le _ _).trans (add_le_add ?_ g2)
      rw [abs_mul]
      exact mul_le_mul hn2 g1 (abs_nonneg _) (by positivity)
    norm_num at *; linarith
  obtain ⟨δ3, η3, hδ3, hη3, e3⟩ := hr.acc (big hu)
  have key := gauss_arg hd (hε0.trans (by norm_num)) hδ hη hδ2 hη2 hδ3 hη3
  have e5 : Rnd.rd r (-half * Rnd.rd r (fin n ^ 2)) = fin (-(1 / 2) * (n ^ 2 * (1 + δ2) + η2) * (1 + δ3) + η3) := by
    rw [fin_pow, show Rnd.rd r (fin (n ^ 2)) = r (n ^ 2) from rfl, e2, half_fin, fin_neg, fin_mul]
    exact e3
  unfold Rnd.gaussOf
  rw [e5, fin_exp]
  have first : SqNear (16 * ε0 + 1 / 2 ^ 49) (fin (Real.exp (-(1 / 2) * (n ^ 2 * (1 + δ2) + η2) * (1 + δ3) + η3)))
      (Real.exp (-d ^ 2 / 2)) 0 1 := by
    refine ⟨_, rfl, (Real.exp_pos _).le, ?_⟩
    rw [e]
    refine key.trans (le_of_eq ?_)
    ring
  have le1 : Real.exp (-d ^ 2 / 2) ≤ 2 ^ 1000 := by
    refine le_trans (Real.exp_le_one_iff.2 ?_) (one_le_pow₀ (by norm_num))
    have := sq_nonneg d; linarith
  refine (first.rd hr ht (Real.exp_pos _).le le1 (by norm_num) (by norm_num)).mono ht.nonneg (Real.exp_pos _).le ?_ ?_ <;>
    norm_num

/-- far apart the kernel is zero, also when the distance or its square overflows -/
theorem gaussOf_far {x : XF} (h : fin (64 : ℕ) ≤ x ∨ x ≤ fin (-(64 : ℕ))) : Rnd.gaussOf r x = fin 0 := by
  have h1 : fin (4096 : ℕ) ≤ x ^ 2 := by
    cases x with
    | nan => rcases h with h | h <;> exact absurd h (by simp)
    | pinf => rw [pow_two]; exact trivial
    | ninf => rw [pow_two]; exact trivial
    | fin a =>
      rw [fin_pow, fin_le]
      rcases h with h | h <;> rw [fin_le] at h <;> push_cast at h ⊢ <;> nlinarith
  have h2 := hr.rd_ge (n := 4096) (by norm_num) h1
  have h3 : -half * Rnd.rd r (x ^ 2) ≤ fin (-(2048 : ℕ)) := by
    rw [half_fin, fin_neg]
    generalize Rnd.rd r (x ^ 2) = y at h2
    cases y with
    | nan => exact absurd h2 (by simp)
    | ninf => exact absurd h2 (by simp)
    | pinf => rw [neg_mul_pinf (by norm_num)]; exact trivial
    | fin a =>
      rw [fin_le] at h2
      rw [fin_mul, fin_le]; push_cast at h2 ⊢; linarith
  have h4 := hr.rd_le_neg (n := 2048) (by norm_num) h3
  refine hr.exp_under ?_
  generalize Rnd.rd r (-half * Rnd.rd r (x ^ 2)) = y at h4
  cases y with
  | nan => exact absurd h4 (by simp)
  | pinf => exact absurd h4 (by simp)
  | ninf => exact trivial
  | fin a => rw [fin_le] at h4 ⊢; push_cast at h4; linarith

theorem gaussOf_far_near {x : XF} (h : fin (64 : ℕ) ≤ x ∨ x ≤ fin (-(64 : ℕ))) {d t : ℝ} (hd : 64 ≤ |d|)
    (ht : 1 / 2 ^ 1000 ≤ t) : SqNear t (Rnd.gaussOf r x) (Real.exp (-d ^ 2 / 2)) 1 2 := by
  have ht0 : 0 ≤ t := le_trans (by positivity) ht
  refine ⟨0, gaussOf_far hr h, le_rfl, ?_⟩
  have h1 : Real.exp (-d ^ 2 / 2) ≤ 1 / 2 ^ 1075 := by
    refine exp_neg_le nat_746 ?_
    have := pow_le_pow_left₀ (by norm_num) hd 2
    rw [sq_abs] at this
    push_cast; linarith
  have h2 : (1:ℝ) / 2 ^ 1075 ≤ 1 / 2 ^ 1000 :=
    one_div_le_one_div_of_le (by positivity) (pow_le_pow_right₀ (by norm_num) (by norm_num))
  have h0 := (Real.exp_pos (-d ^ 2 / 2)).le
  rw [zero_sub, abs_neg, abs_of_nonneg h0]
  have : (0:ℝ) ≤ 1 * (1 / 2 ^ 51) * Real.exp (-d ^ 2 / 2) := by positivity
  linarith

theorem kernUv_near (a b : ℝ) : SqNear (1 / 2 ^ 48) (Rnd.kernUv r (fin a) (fin b)) (gauss1 a b) 1 2 := by
  unfold Rnd.kernUv gauss1
  rw [fin_sub]
  by_cases h : |a - b| < 64
  · obtain ⟨δ, η, hδ, hη, e⟩ := hr.acc (a := a - b) (h.trans (by
      calc (64:ℝ) = 2 ^ 6 := by norm_num
        _ < 2 ^ 1023 := pow_lt_pow_right₀ (by norm_num) (by norm_num)))
    rw [show Rnd.rd r (fin (a - b)) = r (a - b) from rfl, e]
    have := gaussOf_near hr (n := (a - b) * (1 + δ) + η) (d := a - b) (ε0 := 1 / 2 ^ 53)
      (h.le.trans (by norm_num)) (by positivity) (by norm_num) (by
        rw [show (a - b) * (1 + δ) + η - (a - b) = δ * (a - b) + η by ring]
        refine (abs_add_le _ _).trans (add_le_add ?_ (hη.trans
          (one_div_le_one_div_of_le (by positivity) (pow_le_pow_right₀ (by norm_num) (by norm_num)))))
        rw [abs_mul]
        exact mul_le_mul_of_nonneg_right hδ (abs_nonneg _))
    rwa [show (16:ℝ) * (1 / 2 ^ 53) + 1 / 2 ^ 49 = 1 / 2 ^ 48 by norm_num] at this
  · push Not at h
    refine gaussOf_far_near hr ?_ h (one_div_le_one_div_of_le (by positivity) (pow_le_pow_right₀ (by norm_num) (by norm_num)))
    rcases le_abs.1 h with h | h
    · exact .inl (hr.rd_ge (by norm_num) (by rw [fin_le]; exact_mod_cast h))
    · refine .inr (hr.rd_le_neg (by norm_num) ?_)
      rw [fin_le]; push_cast; linarith

end

/-- a sum is at least as large as each of its nonnegative terms -/
theorem RSum.ge {r : ℝ → XF} (hr : Binary64 r) {n : ℕ} (hn : n ≤ 2 ^ 53) {xs : List XF} {s : XF} (h : RSum r xs s) :
    (∀ x ∈ xs, NonnegX x) → (∃ x ∈ xs, fin n ≤ x) → fin n ≤ s := by
  have add : ∀ {x y : XF}, fin n ≤ x → NonnegX y → fin n ≤ x + y := by
    intro x y hx hy
    rcases hy with rfl | ⟨b, hb, rfl⟩
    · cases x with
      | nan => exact absurd hx (by simp)
      | ninf => exact absurd hx (by simp)
      | pinf => exact trivial
      | fin a => exact trivial
    · cases x with
      | nan => exact absurd hx (by simp)
      | ninf => exact absurd hx (by simp)
      | pinf => exact trivial
      | fin a => rw [fin_add, fin_le] at *; linarith
  induction h with
  | nil => intro _ h; simp at h
  | one x => intro _ ⟨y, hy, h⟩; rw [List.mem_singleton] at hy; exact hy ▸ h
  | append _ _ h1 h2 ih1 ih2 =>
    intro h ⟨y, hy, hx⟩
    have a1 := (h1.nonneg hr fun x hx => h x (by simp [hx])).1
    have a2 := (h2.nonneg hr fun x hx => h x (by simp [hx])).1
    apply hr.rd_ge hn
    rcases List.mem_append.mp hy with hy | hy
    · exact add (ih1 (fun x hx => h x (by simp [hx])) ⟨y, hy, hx⟩) a2
    · rw [add_comm]
      exact add (ih2 (fun x hx => h x (by simp [hx])) ⟨y, hy, hx⟩) a1
  | perm hp _ ih =>
    intro h ⟨y, hy, hx⟩
    exact ih (fun x hx => h x (hp.mem_iff.mp hx)) ⟨y, hp.mem_iff.mpr hy, hx⟩

section
variable {r : ℝ → XF} (hr : Binary64 r) {S : List XF → XF} (hS : ∀ xs, RSum r xs (S xs)) {D : ℕ}
include hr hS

omit hS in
theorem sq_nonneg_rd (u : ℝ) : NonnegX (Rnd.rd r (Rnd.rd r (fin u) * Rnd.rd r (fin u))) := by
  have h := hr.noNan u
  apply NonnegX.rd hr
  show NonnegX (r u * r u)
  cases e : r u with
  | nan => exact absurd e h
  | ninf => exact .inl rfl
  | pinf => exact .inl rfl
  | fin b => exact .inr ⟨b * b, mul_self_nonneg b, fin_mul _ _⟩

omit hS in
theorem sq_far {u : ℝ} (h : 64 ≤ |u|) : fin (4096 : ℕ) ≤ Rnd.rd r (Rnd.rd r (fin u) * Rnd.rd r (fin u)) := by
  apply hr.rd_ge (by norm_num)
  rcases le_abs.1 h with h | h
  · have h1 := hr.rd_ge (n := 64) (x := fin u) (by norm_num) (by rw [fin_le]; exact_mod_cast h)
    generalize Rnd.rd r (fin u) = x at *
    cases x with
    | nan => exact absurd h1 (by simp)
    | ninf => exact absurd h1 (by simp)
    | pinf => exact trivial
    | fin a => rw [fin_mul, fin_le] at *; push_cast at *; nlinarith
  · have h1 := hr.rd_le_neg (n := 64) (x := fin u) (by norm_num) (by rw [fin_le]; push_cast; linarith)
    generalize Rnd.rd r (fin u) = x at *
    cases x with
    | nan => exact absurd h1 (by simp)
    | pinf => exact absurd h1 (by simp)
    | ninf => exact trivial
    | fin a => rw [fin_mul, fin_le] at *; push_cast at *; nlinarith

theorem vnorm_far {a b : Eu D} {i : Fin D} (h : 64 ≤ |a i - b i|) :
    fin (64 : ℕ) ≤ Rnd.vnorm r S (Rnd.vsub r (vec a) (vec b)) := by
  have e1 : (Rnd.vsub r (vec a) (vec b)).map (fun x => Rnd.rd r (x * x))
      = (List.finRange D).map fun i => Rnd.rd r (Rnd.rd r (fin (a i - b i)) * Rnd.rd r (fin (a i - b i))) := by
    unfold Rnd.vsub zip2 vec
    apply List.ext_getElem
    · simp
    · intro i _ _
      simp
  unfold Rnd.vnorm
  rw [e1]
  apply hr.rd_ge (by norm_num)
  have h1 := (hS _).ge hr (n := 4096) (by norm_num) (xs := (List.finRange D).map fun i =>
      Rnd.rd r (Rnd.rd r (fin (a i - b i)) * Rnd.rd r (fin (a i - b i)))) (by
    intro x hx
    obtain ⟨j, _, rfl⟩ := List.mem_map.1 hx
    exact sq_nonneg_rd hr _) ⟨_, List.mem_map_of_mem (List.mem_finRange i), sq_far hr h⟩
  generalize S _ = x at h1
  cases x with
  | nan => exact absurd h1 (by simp)
  | ninf => exact absurd h1 (by simp)
  | pinf => exact trivial
  | fin c =>
    rw [fin_le] at h1
    push_cast at h1
    rw [fin_sqrt (by linarith), fin_le]
    apply Real.le_sqrt_of_sq_le
    push_cast; linarith

theorem kernMv_near (hD : D ≤ 2 ^ 20) (a b : Eu D) :
    SqNear ((4 * D + 13) / 2 ^ 49) (Rnd.kernMv r S (vec a) (vec b)) (gaussD a b) 1 2 := by
  have hD' : (D : ℝ) ≤ 1048576 := by exact_mod_cast hD
  have hD0 : (0 : ℝ) ≤ D := Nat.cast_nonneg D
  unfold Rnd.kernMv gaussD
  have ed : dist a b = √(∑ i, (a i - b i) ^ 2) := by
    rw [EuclideanSpace.dist_eq]; simp [Real.dist_eq, sq_abs]
  by_cases h : ∃ i, 64 ≤ |a i - b i|
  · obtain ⟨i, hi⟩ := h
    refine gaussOf_far_near hr (.inl (vnorm_far hr hS hi)) ?_ ?_
    · rw [abs_of_nonneg dist_nonneg, ed]
      refine hi.trans ?_
      rw [← Real.sqrt_sq_eq_abs]
      exact Real.sqrt_le_sqrt (Finset.single_le_sum (f := fun i => (a i - b i) ^ 2) (fun _ _ => sq_nonneg _) (Finset.mem_univ i))
    · have h1 : (1:ℝ) / 2 ^ 1000 ≤ 1 / 2 ^ 49 :=
        one_div_le_one_div_of_le (by positivity) (pow_le_pow_right₀ (by norm_num) (by norm_num))
      refine h1.trans (div_le_div_of_nonneg_right ?_ (by positivity))
      linarith
  · push Not at h
    obtain ⟨v, e, _, hv⟩ := vnorm_near hr hS (a := a) (b := b) hD
      (fun i => (h i).le.trans (by
        calc (64:ℝ) = 2 ^ 6 := by norm_num
          _ ≤ 2 ^ 480 := pow_le_pow_right₀ (by norm_num) (by norm_num)))
    have hd : dist a b ≤ 2 ^ 100 := by
      rw [ed, Real.sqrt_le_left (by positivity)]
      have h1 : ∑ i, (a i - b i) ^ 2 ≤ ∑ _i : Fin D, (4096:ℝ) := Finset.sum_le_sum fun i _ => by
        rw [← sq_abs]
        have := pow_le_pow_left₀ (abs_nonneg _) (h i).le 2
        norm_num at this ⊢; exact this
      simp only [Finset.sum_const, Finset.card_univ, Fintype.card_fin, nsmul_eq_mul] at h1
      refine h1.trans ?_
      norm_num; linarith
    rw [e]
    have := gaussOf_near hr (n := v) (d := dist a b) (ε0 := (D + 3) * (1 / 2 ^ 51)) (by rwa [abs_of_nonneg dist_nonneg])
      (by positivity) (by norm_num; linarith) (by
        rw [abs_of_nonneg dist_nonneg]
        refine hv.trans (add_le_add le_rfl ?_)
        rw [show (520:ℕ) = 200 + 320 from rfl, pow_add, ← one_div_mul_one_div]
        have h1 : (1:ℝ) / 2 ^ 320 ≤ 1 / 2 ^ 1 :=
          one_div_le_one_div_of_le (by positivity) (pow_le_pow_right₀ (by norm_num) (by norm_num))
        have h2 : (0:ℝ) < 1 / 2 ^ 200 := by positivity
        generalize (1:ℝ) / 2 ^ 320 = w at *
        generalize (1:ℝ) / 2 ^ 200 = z at *
        norm_num at h1; nlinarith)
    rwa [show (16:ℝ) * ((D + 3) * (1 / 2 ^ 51)) + 1 / 2 ^ 49 = (4 * D + 13) / 2 ^ 49 by norm_num; ring] at this

end

theorem SqNear.near {t : ℝ} {x : XF} {a k m : ℝ} (h : SqNear t x a k m) : Near x a (k * (1 / 2 ^ 51) * a + m * t) := by
  obtain ⟨b, h1, _, h3⟩ := h
  exact ⟨b, h1, h3⟩

theorem pairs_product {α β : Type} (l : List α) (f : α → α → β) :
    (l.flatMap fun a => l.map fun b => f a b) = (l.product l).map fun p => f p.1 p.2 := by
  unfold List.product
  rw [List.map_flatMap]
  simp only [List.map_map, Function.comp_def]

theorem pairs_emb {α β : Type} (l : List β) (emb : β → α) (k : α → α → XF) :
    ((l.map emb).flatMap fun a => (l.map emb).map fun b => k a b)
      = (l.product l).map fun p => k (emb p.1) (emb p.2) := by
  rw [← pairs_product l fun a b => k (emb a) (emb b), List.flatMap_map]
  simp only [List.map_map, Function.comp_def]

section
variable {r : ℝ → XF} (hr : Binary64 r) {S : List XF → XF} (hS : ∀ xs, RSum r xs (S xs))
include hr

/-- a sum of kernel values -/
theorem ksum_near {γ : Type} {t : ℝ} (hS : ∀ xs, RSum r xs (S xs)) (ht : Unit' t) {l : List γ} {f : γ → XF} {F : γ → ℝ}
    (h : ∀ c ∈ l, 0 ≤ F c ∧ F c ≤ 1 ∧ SqNear t (f c) (F c) 1 2) (hl : (l.length : ℝ) ≤ 1099511627776) :
    SqNear t (S (l.map f)) (l.map F).sum (1 + l.length) (3 * l.length) ∧ 0 ≤ (l.map F).sum ∧ (l.map F).sum ≤ l.length := by
  have hle : (l.map F).sum ≤ l.length := by
    have := sum_map_le (l := l) (f := F) (B := 1) fun a ha => (h a ha).2.1
    rwa [mul_one] at this
  refine ⟨?_, list_sum_nonneg' fun a ha => (h a ha).1, hle⟩
  have := (hS (l.map f)).sqNear hr ht (k := 1) (m := 2) (by norm_num) (as := l.map F) ?_ ?_ ?_ ?_
  · rw [List.length_map] at this
    refine this.mono ht.nonneg (list_sum_nonneg' fun a ha => (h a ha).1) le_rfl (le_of_eq (by ring))
  · rw [List.forall₂_map_left_iff, List.forall₂_map_right_iff, List.forall₂_same]
    exact fun c hc => ⟨(h c hc).1, (h c hc).2.2⟩
  · exact hle.trans (hl.trans (le_trans (by norm_num) (pow_le_pow_right₀ (by norm_num : (1:ℝ) ≤ 2) (by norm_num : 40 ≤ 1000))))
  · rw [List.length_map]; norm_num; linarith
  · rw [List.length_map]; norm_num; linarith

theorem ks_combine {x z w : XF} {A B C eA eB eC : ℝ} (hx : Near x A eA) (hz : Near z B eB) (hw : Near w C eC)
    (hA : |A| ≤ 1) (hB : |B| ≤ 2) (hC : |C| ≤ 1) (hA' : eA ≤ 1) (hB' : eB ≤ 1) (hC' : eC ≤ 1) :
    Near (Neg.neg (Rnd.rd r (Rnd.rd r (x - z) - w))) (B + C - A) (eA + eB + eC + 9 * (1 / 2 ^ 51)) := by
  have mid : ∀ n : ℝ, 1 ≤ n → n ≤ 2 ^ 10 → Mid n := fun n h1 h2 =>
    ⟨le_trans (by rw [div_le_one (by positivity)]; exact one_le_pow₀ (by norm_num)) h1,
      h2.trans (pow_le_pow_right₀ (by norm_num) (by norm_num))⟩
  have q : (4:ℝ) * (1 / 2 ^ 51) ≤ 1 / 4 := by norm_num
  have g1 := (hx.sub hz).rd hr (mid 4 (by norm_num) (by norm_num)) ((abs_sub _ _).trans (by linarith)) (by linarith)
  have g2 := (g1.sub hw).rd hr (mid 5 (by norm_num) (by norm_num)) ((abs_sub _ _).trans (by
    have := (abs_sub A B); linarith)) (by linarith)
  obtain ⟨b, e, hb⟩ := g2
  refine ⟨-b, by rw [e, fin_neg], ?_⟩
  rw [show -b - (B + C - A) = -(b - (A - B - C)) by ring, abs_neg]
  linarith

end

section
variable {r : ℝ → XF} (hr : Binary64 r) {S : List XF → XF} (hS : ∀ xs, RSum r xs (S xs))
variable {α β : Type} {k : α → α → XF} {emb : β → α} {K : β → β → ℝ} {t : ℝ}
include hr hS

theorem ksA_near (ht : Unit' t) (hk : ∀ a b, 0 ≤ K a b ∧ K a b ≤ 1 ∧ SqNear t (k (emb a) (emb b)) (K a b) 1 2)
    (y : β) {xs : List β} (hne : xs ≠ []) (hM : (xs.length : ℝ) ≤ 1048576) :
    Near (Rnd.rd r (S ((xs.map emb).map fun x => k (emb y) x) / fin xs.length)) ((xs.map fun x => K y x).sum / xs.length)
        ((xs.length + 2) * (1 / 2 ^ 51) + 4 * t) ∧
      0 ≤ (xs.map fun x => K y x).sum / xs.length ∧ (xs.map fun x => K y x).sum / xs.length ≤ 1 := by
  have hM0 : (0:ℝ) < xs.length := by exact_mod_cast List.length_pos_iff.mpr hne
  obtain ⟨h1, h2, h3⟩ := ksum_near hr hS ht (l := xs) (f := fun x => k (emb y) (emb x)) (F := fun x => K y x)
    (fun c _ => hk y c) (hM.trans (by norm_num))
  have le1 : (xs.map fun x => K y x).sum / xs.length ≤ 1 := by rwa [div_le_one hM0]
  have ge0 : 0 ≤ (xs.map fun x => K y x).sum / xs.length := by positivity
  refine ⟨?_, ge0, le1⟩
  rw [List.map_map]
  have h4 := ((h1.div hM0).rd hr ht ge0 (le1.trans (one_le_pow₀ (by norm_num)))
    (by norm_num; linarith) (by rw [mul_div_assoc, div_self hM0.ne']; norm_num)).near
  refine h4.mono ?_
  rw [mul_div_assoc, div_self hM0.ne']
  have := ht.nonneg
  have : (1 + (xs.length:ℝ) + 1) * (1 / 2 ^ 51) * ((xs.map fun x => K y x).sum / xs.length)
      ≤ (1 + (xs.length:ℝ) + 1) * (1 / 2 ^ 51) * 1 := mul_le_mul_of_nonneg_left le1 (by positivity)
  linarith

omit hS in
theorem ksC_near (ht : Unit' t) (hk : ∀ a b, 0 ≤ K a b ∧ K a b ≤ 1 ∧ SqNear t (k (emb a) (emb b)) (K a b) 1 2) (y : β) :
    Near (Rnd.rd r (fin (1 / 2) * k (emb y) (emb y))) (1 / 2 * K y y) (1 / 2 ^ 51 + 2 * t) := by
  obtain ⟨h1, h2, h3⟩ := hk y y
  have h4 := (h3.half.rd hr ht (by positivity) (le_trans (by linarith) (one_le_pow₀ (by norm_num : (1:ℝ) ≤ 2)))
    (by norm_num) (by norm_num)).near
  refine h4.mono ?_
  have := ht.nonneg
  norm_num at *
  linarith

theorem ksNrg_near (ht : Unit' t) (ht' : t ≤ 1 / 2 ^ 20)
    (hk : ∀ a b, 0 ≤ K a b ∧ K a b ≤ 1 ∧ SqNear t (k (emb a) (emb b)) (K a b) 1 2) (hs : ∀ a b, K a b = K b a)
    (y : β) {xs : List β} (hne : xs ≠ []) (hM : xs.length ≤ 2 ^ 20) :
    ∃ v : ℝ, Rnd.ksNrg r S k (emb y) (xs.map emb) = fin v ∧
      |v - ks K y (eqW xs)| ≤ ((xs.length : ℝ) ^ 2 + 2 * xs.length + 27) / 2 ^ 52 + 19 / 2 * t := by
  have hM' : (xs.length : ℝ) ≤ 1048576 := by exact_mod_cast hM
  have hM0 : (1:ℝ) ≤ xs.length := by exact_mod_cast List.length_pos_iff.mpr hne
  have ht0 := ht.nonneg
  obtain ⟨a1, a2, a3⟩ := ksA_near hr hS ht hk y hne hM'
  have c1 := ksC_near hr ht hk y
  have hl : ((xs.product xs).length : ℝ) = (xs.length : ℝ) ^ 2 := by
    rw [show (xs.product xs).length = (xs ×ˢ xs).length from rfl, List.length_product]; push_cast; ring
  have hM2 : (xs.length : ℝ) ^ 2 ≤ 1099511627776 := by
    have := pow_le_pow_left₀ (by linarith) hM' 2
    norm_num at this ⊢; exact this
  obtain ⟨b1, b2, b3⟩ := ksum_near hr hS ht (l := xs.product xs) (f := fun p => k (emb p.1) (emb p.2))
    (F := fun p => K p.1 p.2) (fun c _ => hk c.1 c.2) (by rwa [hl])
  rw [hl] at b1 b3
  have hQ : (0:ℝ) < (xs.length : ℝ) ^ 2 := by positivity
  set E := ((xs.product xs).map fun p => K p.1 p.2).sum with hE
  have E1 : 1 / 2 * E / (xs.length : ℝ) ^ 2 ≤ 1 / 2 := by rw [div_le_iff₀ hQ]; linarith
  have E0 : 0 ≤ 1 / 2 * E / (xs.length : ℝ) ^ 2 := by positivity
  have g1 := b1.half.rd hr ht (by positivity) (le_trans (by norm_num; linarith) (pow_le_pow_right₀ (by norm_num : (1:ℝ) ≤ 2)
    (by norm_num : 40 ≤ 1000))) (by norm_num; linarith) (by norm_num; linarith)
  have g2 := ((g1.div hQ).mono ht0 E0 le_rfl (m' := 5 / 2) (by
    rw [div_le_iff₀ hQ]; nlinarith)).rd hr ht E0 (E1.trans (le_trans (by norm_num) (one_le_pow₀ (by norm_num : (1:ℝ) ≤ 2))))
      (by norm_num; linarith) (by norm_num)
  have g3 := g2.near.mono (e' := ((xs.length : ℝ) ^ 2 + 3) * (1 / 2 ^ 51) * (1 / 2) + 7 / 2 * t) (by
    have : (1 + (xs.length : ℝ) ^ 2 + 1 + 1) * (1 / 2 ^ 51) * (1 / 2 * E / (xs.length : ℝ) ^ 2)
      ≤ (1 + (xs.length : ℝ) ^ 2 + 1 + 1) * (1 / 2 ^ 51) * (1 / 2) := mul_le_mul_of_nonneg_left E1 (by positivity)
    linarith)
  have fin1 := ks_combine hr a1 g3 c1 (by rw [abs_of_nonneg a2]; exact a3) (by rw [abs_of_nonneg E0]; linarith)
    (by rw [abs_of_nonneg (by have := (hk y y).1; positivity)]; have := (hk y y).2.1; linarith)
    (by norm_num at ht' ⊢; linarith) (by norm_num at ht' ⊢; linarith) (by norm_num at ht' ⊢; linarith)
  obtain ⟨v, e, hv⟩ := fin1
  refine ⟨v, ?_, ?_⟩
  · rw [← e]
    unfold Rnd.ksNrg
    dsimp only
    rw [List.length_map, natCast_fin, natCast_fin, Nat.cast_pow, half_fin, pairs_emb]
  · have e2 : pairsAll K xs = E := by
      rw [hE, ← pairs_product, sum_flatMap_eq]; rfl
    have e3 : (xs.map fun x => K x y).sum = (xs.map fun x => K y x).sum := by
      congr 1; exact List.map_congr_left fun x _ => hs x y
    rw [ks_eq, kabs_eqW, kpair_eqW, e2, e3]
    refine le_trans (le_of_eq ?_) (hv.trans (le_of_eq ?_))
    · congr 1; ring
    · ring

theorem ksFair_near (ht : Unit' t) (ht' : t ≤ 1 / 2 ^ 20)
    (hk : ∀ a b, 0 ≤ K a b ∧ K a b ≤ 1 ∧ SqNear t (k (emb a) (emb b)) (K a b) 1 2) (hs : ∀ a b, K a b = K b a)
    (y : β) {xs : List β} (h2 : 2 ≤ xs.length) (hM : xs.length ≤ 2 ^ 20) :
    ∃ v : ℝ, Rnd.ksFair r S k (emb y) (xs.map emb) = fin v ∧
      |v - Spec.ksFair K y xs| ≤ (3 * (xs.length : ℝ) ^ 2 + 2 * xs.length + 38) / 2 ^ 52 + 11 * t := by
  have hM' : (xs.length : ℝ) ≤ 1048576 := by exact_mod_cast hM
  have h2' : (2:ℝ) ≤ xs.length := by exact_mod_cast h2
  have hne : xs ≠ [] := by intro e; simp [e] at h2
  have ht0 := ht.nonneg
  obtain ⟨a1, a2, a3⟩ := ksA_near hr hS ht hk y hne hM'
  have c1 := ksC_near hr ht hk y
  have hl : ((xs.product xs).length : ℝ) = (xs.length : ℝ) ^ 2 := by
    rw [show (xs.product xs).length = (xs ×ˢ xs).length from rfl, List.length_product]; push_cast; ring
  have hM2 : (xs.length : ℝ) ^ 2 ≤ 1099511627776 := by
    have := pow_le_pow_left₀ (by linarith) hM' 2
    norm_num at this ⊢; exact this
  obtain ⟨b1, b2, b3⟩ := ksum_near hr hS ht (l := xs.product xs) (f := fun p => k (emb p.1) (emb p.2))
    (F := fun p => K p.1 p.2) (fun c _ => hk c.1 c.2) (by rwa [hl])
  obtain ⟨d1, d2, d3⟩ := ksum_near hr hS ht (l := xs) (f := fun x => k (emb x) (emb x))
    (F := fun x => K x x) (fun c _ => hk c c) (by linarith)
  rw [hl] at b1 b3
  set M := (xs.length : ℝ) with hMdef
  set E := ((xs.product xs).map fun p => K p.1 p.2).sum with hE
  set G := (xs.map fun x => K x x).sum with hG
  have hQ : (0:ℝ) < M * (M - 1) := by nlinarith
  have hMM : M ≤ M ^ 2 := by nlinarith
  obtain ⟨v1, f1, f2⟩ := sub_near hr ht b1 (d1.mono ht0 d2 (k' := 1 + M ^ 2) (by linarith) le_rfl) b2 d2
    (by norm_num; linarith) (by norm_num; linarith)
    (le_trans (by norm_num; linarith) (pow_le_pow_right₀ (by norm_num : (1:ℝ) ≤ 2) (by norm_num : 60 ≤ 1000)))
  have f3 : Near (Rnd.rd r (S ((xs.product xs).map fun p => k (emb p.1) (emb p.2)) - S (xs.map fun x => k (emb x) (emb x))))
      (E - G) ((M ^ 2 + 2) * (1 / 2 ^ 51) * (M ^ 2 + M) + (3 * M ^ 2 + 3 * M + 1) * t) := by
    refine ⟨v1, f1, f2.trans ?_⟩
    have : (1 + M ^ 2 + 1) * (1 / 2 ^ 51) * (E + G) ≤ (1 + M ^ 2 + 1) * (1 / 2 ^ 51) * (M ^ 2 + M) :=
      mul_le_mul_of_nonneg_left (by linarith) (by positivity)
    linarith
  clear f1 f2
  have habs : |1 / 2 * (E - G)| ≤ M ^ 2 := by
    rw [abs_le]; constructor <;> linarith
  have mid : ∀ n : ℝ, 1 ≤ n → n ≤ 2 ^ 50 → Mid n := fun n h1 h2 =>
    ⟨le_trans (by rw [div_le_one (by positivity)]; exact one_le_pow₀ (by norm_num)) h1,
      h2.trans (pow_le_pow_right₀ (by norm_num) (by norm_num))⟩
  have sz : |(1:ℝ) / 2| * ((M ^ 2 + 2) * (1 / 2 ^ 51) * (M ^ 2 + M) + (3 * M ^ 2 + 3 * M + 1) * t) ≤ M ^ 2 := by
    rw [abs_of_pos (by norm_num : (0:ℝ) < 1 / 2)]
    have p1 : (M ^ 2 + 2) * (1 / 2 ^ 51) ≤ 1 / 4 := by norm_num; linarith
    have p2 : (M ^ 2 + 2) * (1 / 2 ^ 51) * (M ^ 2 + M) ≤ 1 / 4 * (M ^ 2 + M) :=
      mul_le_mul_of_nonneg_right p1 (by positivity)
    have p3 : (3 * M ^ 2 + 3 * M + 1) * t ≤ (3 * M ^ 2 + 3 * M + 1) * (1 / 16) :=
      mul_le_mul_of_nonneg_left (ht'.trans (by norm_num)) (by positivity)
    linarith
  have f4 := ((f3.smul (1 / 2)).rd hr (mid (M ^ 2) (by linarith) (by norm_num; linarith)) habs sz).div hQ
  have f5 := f4.mono (e' := (3 / 2 * M ^ 2 + 5) * (1 / 2 ^ 51) + 5 * t) (by
    rw [div_le_iff₀ hQ, abs_of_pos (by norm_num : (0:ℝ) < 1 / 2)]
    have p1 : M ^ 2 + M ≤ 3 * (M * (M - 1)) := by nlinarith
    have p2 : (M ^ 2 + 2) * (1 / 2 ^ 51) * (M ^ 2 + M) ≤ (M ^ 2 + 2) * (1 / 2 ^ 51) * (3 * (M * (M - 1))) :=
      mul_le_mul_of_nonneg_left p1 (by positivity)
    have p3 : 3 * M ^ 2 + 3 * M + 1 ≤ 10 * (M * (M - 1)) := by nlinarith
    have p4 : (3 * M ^ 2 + 3 * M + 1) * t ≤ 10 * (M * (M - 1)) * t := mul_le_mul_of_nonneg_right p3 ht0
    have p5 : M ^ 2 * (1 / 2 ^ 51) ≤ 2 * (M * (M - 1)) * (1 / 2 ^ 51) :=
      mul_le_mul_of_nonneg_right (by nlinarith) (by positivity)
    linarith)
  have hB : |1 / 2 * (E - G) / (M * (M - 1))| ≤ 2 := by
    rw [abs_div, abs_of_pos hQ, div_le_iff₀ hQ]; nlinarith
  have f6 := f5.rd hr (mid 2 (by norm_num) (by norm_num)) hB (by norm_num at ht' ⊢; linarith)
  have fin1 := ks_combine hr a1 f6 c1 (by rw [abs_of_nonneg a2]; exact a3) hB
    (by rw [abs_of_nonneg (by have := (hk y y).1; positivity)]; have := (hk y y).2.1; linarith)
    (by norm_num at ht' ⊢; linarith) (by norm_num at ht' ⊢; linarith) (by norm_num at ht' ⊢; linarith)
  obtain ⟨v, e, hv⟩ := fin1
  refine ⟨v, ?_, ?_⟩
  · rw [← e]
    unfold Rnd.ksFair
    dsimp only
    rw [List.length_map, natCast_fin, natCast_fin, natPred_cast h2, half_fin, pairs_emb, List.map_map (l := xs) (g := fun x => k x x)]
    rfl
  · have e2 : (xs.map fun a => (xs.map fun b => K a b).sum).sum = E := by
      rw [hE, ← pairs_product, sum_flatMap_eq]
    have e3 : (xs.map fun x => K x y).sum = (xs.map fun x => K y x).sum := by
      congr 1; exact List.map_congr_left fun x _ => hs x y
    unfold Spec.ksFair
    rw [e2, e3, ← hG, ← hMdef]
    refine le_trans (le_of_eq ?_) (hv.trans (le_of_eq ?_))
    · congr 1
      rw [show 1 / 2 * (E - G) / (M * (M - 1)) = (E - G) / (2 * (M * (M - 1))) by field_simp]
    · ring

end

end Verif
