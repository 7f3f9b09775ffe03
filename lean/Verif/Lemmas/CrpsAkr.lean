import Verif.Lemmas.CrpsUnweighted

/-! The approximate kernel representation estimators. -/

noncomputable section

open scoped Classical

namespace Verif

open XF Py

theorem abs_sub_comm' (a b : XF) : XF.abs (a - b) = XF.abs (b - a) := by
  cases a <;> cases b <;>
    first
    | rfl
    | (simp only [fin_sub, fin_abs, abs_sub_comm])

theorem zipIdx_eq_range {A : Type} (xs : List XF) (f : XF → ℕ → A) :
    xs.zipIdx.map (fun p => f p.1 p.2) = (List.range xs.length).map fun i => f (idx xs i) i := by
  apply List.ext_getElem
  · simp
  · intro i h1 h2
    simp at h1 h2
    simp [idx, h1]

theorem forEnum_pair (xs : List XF) (f g : XF → ℕ → XF) :
    forEnum xs ((0, 0) : XF × XF) (fun i x e => (e.1 + f x i, e.2 + g x i))
      = (((List.range xs.length).map fun i => f (idx xs i) i).sum,
         ((List.range xs.length).map fun i => g (idx xs i) i).sum) := by
  unfold forEnum
  rw [foldl_pair_eq xs.zipIdx (fun p => f p.1 p.2) (fun p => g p.1 p.2), zipIdx_eq_range,
    zipIdx_eq_range]
  simp

theorem half_div (e : XF) (M : ℕ) (h : M ≠ 0) :
    half * 1 / (M : XF) * e = half * (e / (M : XF)) := by
  have hM : (M : ℝ) ≠ 0 := by exact_mod_cast h
  have hp : (0 : ℝ) < M := by positivity
  rw [natCast_fin, half_fin, one_fin, fin_mul, fin_div hM]
  cases e with
  | nan => rfl
  | fin a => rw [fin_div hM, fin_mul, fin_mul]; congr 1; ring
  | pinf =>
    show XF.infMul true (1 / 2 * 1 / (M : ℝ)) = XF.mul _ (XF.div pinf (fin (M : ℝ)))
    simp [XF.infMul, XF.mul, XF.div, hM, hp, hp.le]
  | ninf =>
    show XF.infMul false (1 / 2 * 1 / (M : ℝ)) = XF.mul _ (XF.div ninf (fin (M : ℝ)))
    simp [XF.infMul, XF.mul, XF.div, hM, hp, hp.le]

theorem sum_idx_range {A : Type} [AddCommMonoid A] (xs : List XF) (f : XF → A) :
    ((List.range xs.length).map fun i => f (idx xs i)).sum = (xs.map f).sum := by
  have := map_range_getD xs nan f
  unfold idx
  rw [this]

theorem zip_roll_sum (xs : List XF) (s : ℕ) (F : XF → XF → XF) :
    zip2 F xs (roll xs s) = (List.range xs.length).map fun i =>
      F (idx xs i) (idx xs ((i + (xs.length - s % xs.length)) % xs.length)) := by
  unfold zip2 roll
  apply List.ext_getElem
  · simp
  · intro i h1 h2
    simp at h1 h2
    simp [idx, h2]

/-- numba and numpy `akr` coincide on all inputs, including NaN and infinities. -/
theorem akr_path_eq (obs : XF) (fct : List XF) (h : fct ≠ []) :
    Gufunc.akr obs fct = Approx.akr obs fct := by
  have hM : fct.length ≠ 0 := by simpa using h
  unfold Gufunc.akr Approx.akr Approx.e1
  dsimp only
  rw [forEnum_pair fct (fun x _ => XF.abs (x - obs))
    (fun x i => XF.abs (x - idx fct ((if i = 0 then fct.length else i) - 1)))]
  rw [half_div _ _ hM, zip_roll_sum]
  rw [sum_idx_range fct (fun x => XF.abs (x - obs))]
  congr 2
  · dsimp only
    congr 2
    funext x
    exact abs_sub_comm' _ _
  · dsimp only
    congr 2
    apply List.map_congr_left
    intro i hi
    have hi' : i < fct.length := by simpa using hi
    congr 3
    rcases Nat.eq_zero_or_pos i with rfl | hpos
    · simp only [if_true, Nat.zero_add]
      rcases Nat.lt_or_ge 1 fct.length with h1 | h1
      · rw [Nat.mod_eq_of_lt h1, Nat.mod_eq_of_lt (by omega)]
      · have : fct.length = 1 := by omega
        simp [this]
    · rw [if_neg (by omega), Nat.mod_eq_of_lt (by omega : 1 < fct.length)]
      have : i + (fct.length - 1) = (i - 1) + fct.length := by omega
      rw [this, Nat.add_mod_right, Nat.mod_eq_of_lt (by omega)]

theorem sigma_eq (M i : ℕ) : Gufunc.sigma M i = (i + 1 + (M - 1) / 2) % M := by
  unfold Gufunc.sigma
  rcases Nat.eq_zero_or_pos M with rfl | hM
  · simp
  · have h1 := Nat.div_add_mod (i + 1 + (M - 1) / 2) M
    have h2 := Nat.mod_lt (i + 1 + (M - 1) / 2) hM
    set q := (i + 1 + (M - 1) / 2) / M
    set r := (i + 1 + (M - 1) / 2) % M
    have h3 : 2 * (i + 1) + (M - 1) = 2 * M * q + (2 * r + (M - 1) % 2) := by
      have : 2 * M * q = 2 * (M * q) := by ring
      omega
    rw [h3, Nat.mul_add_mod, Nat.mod_eq_of_lt (by omega)]
    omega

theorem shift_half (M i : ℕ) (hM : 0 < M) :
    (i + (M - M / 2 % M)) % M = (i + 1 + (M - 1) / 2) % M := by
  rcases Nat.lt_or_ge 1 M with h1 | h1
  · have : M / 2 % M = M / 2 := Nat.mod_eq_of_lt (by omega)
    rw [this]
    congr 1
    omega
  · have : M = 1 := by omega
    subst this
    simp [Nat.mod_one]

/-- numba and numpy `akr_circperm` coincide on all inputs, including NaN and infinities. -/
theorem akrCircperm_path_eq (obs : XF) (fct : List XF) (h : fct ≠ []) :
    Gufunc.akrCircperm obs fct = Approx.akrCircperm obs fct := by
  have hM : fct.length ≠ 0 := by simpa using h
  unfold Gufunc.akrCircperm Approx.akrCircperm Approx.e1
  dsimp only
  rw [forEnum_pair fct (fun x _ => XF.abs (x - obs))
    (fun x i => XF.abs (x - idx fct (Gufunc.sigma fct.length i)))]
  rw [half_div _ _ hM, zip_roll_sum]
  rw [sum_idx_range fct (fun x => XF.abs (x - obs))]
  congr 2
  · dsimp only
    congr 2
    funext x
    exact abs_sub_comm' _ _
  · dsimp only
    congr 2
    apply List.map_congr_left
    intro i hi
    rw [sigma_eq, shift_half _ _ (by omega)]

/-! ### cyclic reindexing -/

theorem sum_shift_one {A : Type} [AddCommMonoid A] (M : ℕ) (f : ℕ → A) :
    ((List.range M).map fun i => f ((i + 1) % M)).sum = ((List.range M).map f).sum := by
  cases M with
  | zero => simp
  | succ M =>
    rw [List.range_succ, List.map_append, List.sum_append]
    conv_rhs => rw [← List.range_succ, List.range_succ_eq_map, List.map_cons, List.sum_cons,
      List.map_map]
    rw [add_comm]
    congr 1
    · simp
    · congr 1
      apply List.map_congr_left
      intro i hi
      have : i < M := by simpa using hi
      rw [Nat.mod_eq_of_lt (by omega)]
      rfl

theorem sum_shift {A : Type} [AddCommMonoid A] (M s : ℕ) (f : ℕ → A) :
    ((List.range M).map fun i => f ((i + s) % M)).sum = ((List.range M).map f).sum := by
  induction s with
  | zero =>
    congr 1
    apply List.map_congr_left
    intro i hi
    have : i < M := by simpa using hi
    rw [Nat.add_zero, Nat.mod_eq_of_lt this]
  | succ s ih =>
    rw [← ih, ← sum_shift_one M (fun i => f ((i + s) % M))]
    congr 1
    apply List.map_congr_left
    intro i _
    congr 1
    rw [Nat.mod_add_mod]
    congr 1
    ring

theorem sum_zip_e1 (obs : XF) (fct w : List XF) (h : fct.length = w.length) :
    ((List.range fct.length).map fun i => XF.abs (idx fct i - obs) * idx w i).sum
      = ApproxW.e1 obs fct w := by
  unfold ApproxW.e1 zip2
  congr 1
  apply List.ext_getElem
  · simp [h]
  · intro i h1 h2
    simp at h1 h2
    simp [idx, h2.1, h2.2, abs_sub_comm']

/-- weighted `akr`: numba and numpy coincide on all inputs. -/
theorem akrW_path_eq (obs : XF) (fct w : List XF) (h : fct.length = w.length) :
    GufuncW.akr obs fct w = ApproxW.akr obs fct w := by
  unfold GufuncW.akr ApproxW.akr
  dsimp only
  rw [forEnum_pair fct (fun x i => XF.abs (x - obs) * idx w i)
    (fun x i => XF.abs (x - idx fct (if 0 < i then i - 1 else fct.length - 1)) * idx w i)]
  rw [sum_zip_e1 obs fct w h]
  congr 2
  dsimp only
  rw [← sum_shift_one]
  congr 1
  apply List.map_congr_left
  intro i hi
  have hi' : i < fct.length := by simpa using hi
  congr 4
  rcases Nat.lt_or_ge (i + 1) fct.length with h1 | h1
  · rw [Nat.mod_eq_of_lt h1, if_pos (by omega)]; rfl
  · have : i + 1 = fct.length := by omega
    rw [this, Nat.mod_self, if_neg (by omega)]
    omega

/-- weighted `akr_circperm`: numba and numpy coincide for an odd number of members. -/
theorem akrCircpermW_path_eq (obs : XF) (fct w : List XF) (h : fct.length = w.length)
    (hodd : fct.length % 2 = 1) :
    GufuncW.akrCircperm obs fct w = ApproxW.akrCircperm obs fct w := by
  unfold GufuncW.akrCircperm ApproxW.akrCircperm
  dsimp only
  rw [forEnum_pair fct (fun x i => XF.abs (x - obs) * idx w i)
    (fun x i => XF.abs (x - idx fct (Gufunc.sigma fct.length i)) * idx w i)]
  rw [sum_zip_e1 obs fct w h]
  congr 2
  dsimp only
  rw [← sum_shift fct.length ((fct.length - 1) / 2)]
  congr 1
  apply List.map_congr_left
  intro i hi
  have hi' : i < fct.length := by simpa using hi
  congr 4
  rw [sigma_eq, Nat.add_assoc, Nat.mod_add_mod]
  have : i + (fct.length - 1) / 2 + (1 + (fct.length - 1) / 2) = i + fct.length := by omega
  rw [this, Nat.add_mod_right, Nat.mod_eq_of_lt hi']

end Verif
