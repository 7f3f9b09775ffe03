import Verif.Model.RoundVariogramLoop
import Verif.Lemmas.RoundVariogram2
import Verif.Lemmas.RoundEnergyLoop

/-! The variogram score loops of the numba path with rounding. -/

noncomputable section

open scoped Classical

namespace Verif

open XF Py Mv Spec

/-- all pairs of coordinates -/
def gridF (D : ℕ) : List (Fin D × Fin D) := List.product (List.finRange D) (List.finRange D)

theorem gridF_length (D : ℕ) : (gridF D).length = D ^ 2 := by
  have := List.length_product (List.finRange D) (List.finRange D)
  rw [List.length_finRange, ← sq] at this; exact this

theorem gridF_sum {D : ℕ} (h : Fin D → Fin D → ℝ) : ((gridF D).map fun q => h q.1 q.2).sum = ∑ i, ∑ j, h i j := by
  unfold gridF List.product
  rw [List.map_flatMap, sum_flatMap_eq, Fin.sum_univ_def]
  congr 1
  refine List.map_congr_left fun i _ => ?_
  rw [Fin.sum_univ_def, List.map_map]
  rfl

theorem grid_fold {A : Type} (D : ℕ) (s : A) (f : A → ℕ → ℕ → A) :
    (forRange 0 D s fun i s => forRange 0 D s fun j s => f s i j) = (gridF D).foldl (fun s q => f s q.1 q.2) s := by
  have e : List.range' 0 (D - 0) = (List.finRange D).map fun i : Fin D => (i : ℕ) := by
    rw [Nat.sub_zero, ← List.range_eq_range', List.map_coe_finRange_eq_range]
  unfold forRange gridF List.product
  rw [List.foldl_flatMap, e, List.foldl_map]
  simp only [List.foldl_map]

theorem pair_fold {α A B : Type} (l : List α) (f : α → A → A) (g : α → B → B) (s : A × B) :
    l.foldl (fun e k => (f k e.1, g k e.2)) s = (l.foldl (fun e k => f k e) s.1, l.foldl (fun e k => g k e) s.2) := by
  induction l generalizing s with
  | nil => rfl
  | cons a l ih => rw [List.foldl_cons, ih]; rfl

section
variable {r : ℝ → XF} (hr : Binary64 r)
include hr

/-- a sum that starts from zero -/
theorem Sized.sumFrom {α : Type} {l : List α} {f : α → XF} {g c : α → ℝ} {k : ℝ} {s : XF} (h : RSum r ([fin 0] ++ l.map f) s)
    (hne : l ≠ []) (hk0 : 0 ≤ k) (hf : ∀ a ∈ l, Sized (f a) (g a) (c a) k) (hl : ∀ a ∈ l, 1 / 2 ^ 938 ≤ c a)
    (hC : (l.map c).sum ≤ 2 ^ 990) (hk : k + l.length + 1 ≤ 2 ^ 50) :
    Sized s (l.map g).sum (l.map c).sum (k + l.length + 1) ∧ 1 / 2 ^ 938 ≤ (l.map c).sum := by
  have p0 : (0:ℝ) < 1 / 2 ^ 938 := by positivity
  have pE : (1:ℝ) / 2 ^ 1000 ≤ 1 / 2 ^ 50 * (1 / 2 ^ 938) := by
    rw [one_div_mul_one_div, ← pow_add]
    exact one_div_le_one_div_of_le (by positivity) (pow_le_pow_right₀ (by norm_num) (by norm_num))
  have low : 1 / 2 ^ 938 ≤ (l.map c).sum := by
    cases l with
    | nil => exact absurd rfl hne
    | cons a l =>
      rw [List.map_cons, List.sum_cons]
      exact (hl a (by simp)).trans (le_add_of_nonneg_right (list_sum_nonneg' fun b hb => p0.le.trans (hl b (by simp [hb]))))
  have := h.cNear_aux hr (k := k) (as := (0, 1 / 2 ^ 1000) :: l.map fun a => (g a, c a)) (by simp) ?_ ?_ ?_
  · simp only [List.map_cons, List.map_map, Function.comp_def, List.sum_cons, zero_add, List.length_append,
      List.length_singleton, List.length_map] at this
    obtain ⟨t1, t2, b, e, hb⟩ := this
    have hle : |(l.map g).sum| ≤ (l.map c).sum := by
      clear hb t1 t2 low hC hk h hne
      induction l with
      | nil => simp
      | cons a l ih =>
        simp only [List.map_cons, List.sum_cons]
        exact (abs_add_le _ _).trans (add_le_add (hf a (by simp)).le
          (ih (fun b hb => hf b (by simp [hb])) fun b hb => hl b (by simp [hb])))
    refine ⟨⟨hle, ?_, b, e, hb.trans ?_⟩, low⟩
    · refine le_trans ?_ low
      exact one_div_le_one_div_of_le (by positivity) (pow_le_pow_right₀ (by norm_num) (by norm_num))
    · push_cast
      have hn : (0:ℝ) ≤ k + l.length := by positivity
      have e1 : (k + l.length) * (1 / 2 ^ 1000) ≤ (l.map c).sum := by
        calc (k + l.length) * (1 / 2 ^ 1000) ≤ 2 ^ 50 * (1 / 2 ^ 50 * (1 / 2 ^ 938)) :=
              mul_le_mul (by linarith) pE (by positivity) (by positivity)
          _ = 1 / 2 ^ 938 := by rw [← mul_assoc, mul_one_div_cancel (by positivity), one_mul]
          _ ≤ _ := low
      rw [show k + (1 + (l.length : ℝ)) - 1 = k + l.length by ring]
      have e2 := mul_le_mul_of_nonneg_left e1 (by positivity : (0:ℝ) ≤ 1 / 2 ^ 51)
      generalize (1:ℝ) / 2 ^ 1000 = T at *
      generalize (1:ℝ) / 2 ^ 51 = q at *
      generalize (l.map c).sum = C at *
      nlinarith only [e2]
  · rw [List.singleton_append]
    refine List.Forall₂.cons ?_ ?_
    · refine ⟨by rw [abs_zero]; positivity, le_rfl, 0, rfl, ?_⟩
      rw [sub_zero, abs_zero]; positivity
    · rw [List.forall₂_map_left_iff, List.forall₂_map_right_iff, List.forall₂_same]
      exact fun a ha => ⟨(hf a ha).le, (hf a ha).low, (hf a ha).near⟩
  · simp only [List.map_cons, List.map_map, Function.comp_def, List.sum_cons]
    have p1 : (1:ℝ) / 2 ^ 1000 ≤ 2 ^ 990 := by
      refine le_trans ?_ (one_le_pow₀ (by norm_num : (1:ℝ) ≤ 2))
      rw [div_le_one (by positivity)]; exact one_le_pow₀ (by norm_num)
    refine (add_le_add p1 hC).trans ?_
    rw [← two_mul, ← pow_succ']; exact pow_le_pow_right₀ (by norm_num) (by norm_num)
  · simp only [List.length_append, List.length_singleton, List.length_map]
    push_cast
    linarith

end

theorem Sized.wider {x : XF} {a c c' k : ℝ} (h : Sized x a c k) (hk : 0 ≤ k) (hc : c ≤ c') : Sized x a c' k := by
  obtain ⟨h1, h2, b, e, hb⟩ := h
  exact ⟨h1.trans hc, h2.trans hc, b, e, hb.trans (mul_le_mul_of_nonneg_left hc (by positivity))⟩

section
variable {r : ℝ → XF} (hr : Binary64 r) {D : ℕ} {p : ℝ} (hp : 1 / 2 ≤ p) (hp2 : p ≤ 2)
include hr hp hp2

theorem vrho_near {v : Eu D} {i j : Fin D} (h : |v i - v j| ≤ 2 ^ 200) :
    SqNear (1 / 2 ^ 520) (RndLoop.vrho r p (vec v) i j) (vdiff p v i j) 2 2 ∧ vdiff p v i j ≤ 2 ^ 400 := by
  have := rho_near hr hp hp2 (u := v i - v j) h
  unfold RndLoop.vrho vdiff
  rw [idx_vec, idx_vec, fin_sub]
  exact this

/-- the mean variogram of the members -/
theorem vfct_near {xs : List (Eu D)} (hne : xs ≠ []) (hM : xs.length ≤ 2 ^ 20) {i j : Fin D}
    (h : ∀ x ∈ xs, |x i - x j| ≤ 2 ^ 200) :
    SqNear (1 / 2 ^ 520) (Rnd.rd r ((forRange 0 xs.length (0 : XF) fun m v =>
        Rnd.rd r (v + RndLoop.vrho r p (vat (xs.map vec) m) i j)) / (xs.length : XF)))
      ((xs.map fun x => vdiff p x i j).sum / xs.length) (xs.length + 4) 7 ∧
      0 ≤ (xs.map fun x => vdiff p x i j).sum / xs.length ∧
      (xs.map fun x => vdiff p x i j).sum / xs.length ≤ 2 ^ 400 := by
  have hM' : (xs.length : ℝ) ≤ 2 ^ 20 := by exact_mod_cast hM
  have hM0 : (0:ℝ) < xs.length := by exact_mod_cast List.length_pos_iff.mpr hne
  have hM1 : (1:ℝ) ≤ xs.length := by exact_mod_cast List.length_pos_iff.mpr hne
  have hv : ∀ x : Eu D, 0 ≤ vdiff p x i j := fun x => Real.rpow_nonneg (abs_nonneg _) _
  have hs := RSum.fold (r := r) (fun m => RndLoop.vrho r p (vat (xs.map vec) m) i j) (List.range' 0 (xs.length - 0))
    (L := [fin 0]) (s := fin 0) (.one _) (by simp)
  rw [map_range_vat xs fun x => RndLoop.vrho r p x i j] at hs
  have k1 : (2:ℝ) + (xs.length + 1) ≤ 2 ^ 50 := by
    clear hs h
    generalize (xs.length : ℝ) = M at *
    norm_num at *; linarith
  have k2 : ((2:ℝ) + 1) * (xs.length + 1) ≤ 2 ^ 50 := by
    clear hs h
    generalize (xs.length : ℝ) = M at *
    norm_num at *; linarith
  obtain ⟨n, n0, nb⟩ := sum0_near hr unit_norm hs (k := 2) (m := 2) (B := 2 ^ 400) (a := fun x => vdiff p x i j)
    (by norm_num) (fun x hx => ⟨hv x, (vrho_near hr hp hp2 (h x hx)).2, (vrho_near hr hp hp2 (h x hx)).1⟩) (by
      calc (xs.length : ℝ) * 2 ^ 400 ≤ 2 ^ 20 * 2 ^ 400 := mul_le_mul_of_nonneg_right hM' (by positivity)
        _ = 2 ^ 420 := by rw [← pow_add]
        _ ≤ 2 ^ 1000 := pow_le_pow_right₀ (by norm_num) (by norm_num)) k1 k2
  have h0 : 0 ≤ (xs.map fun x => vdiff p x i j).sum / xs.length := div_nonneg n0 hM0.le
  have hmean : (xs.map fun x => vdiff p x i j).sum / xs.length ≤ 2 ^ 400 := by
    rw [div_le_iff₀ hM0, mul_comm]
    exact nb
  have k3 : ((2:ℝ) + 1) * (xs.length + 1) / xs.length ≤ 6 := by
    rw [div_le_iff₀ hM0]; linarith
  refine ⟨?_, h0, hmean⟩
  have hd := (SqNear.div hM0 n).rd hr unit_norm h0 (hmean.trans (pow_le_pow_right₀ (by norm_num) (by norm_num))) k1
    (k3.trans (by norm_num))
  rw [natCast_fin]
  exact hd.mono unit_norm.nonneg h0 (by linarith) (by linarith)

theorem loopNrg_near (hD : 0 < D) (hD2 : D ≤ 2 ^ 20) {W : Fin D → Fin D → ℝ} (hW : ∀ i j, |W i j| ≤ 2 ^ 100) {y : Eu D}
    {xs : List (Eu D)} (hne : xs ≠ []) (hM : xs.length ≤ 2 ^ 20) (hy : ∀ i j, |y i - y j| ≤ 2 ^ 200)
    (hx : ∀ x ∈ xs, ∀ i j, |x i - x j| ≤ 2 ^ 200) :
    Sized (RndLoop.vsNrg r (matl W) p (vec y) (xs.map vec))
      (∑ i, ∑ j, W i j * (vdiff p y i j - (xs.map fun x => vdiff p x i j).sum / xs.length) ^ 2)
      (wsize W (vdiff p y) fun i j => (xs.map fun x => vdiff p x i j).sum / xs.length) (3 * xs.length + (D : ℝ) ^ 2 + 42) := by
  have hM' : (xs.length : ℝ) ≤ 2 ^ 20 := by exact_mod_cast hM
  have hM1 : (1:ℝ) ≤ xs.length := by exact_mod_cast List.length_pos_iff.mpr hne
  have hD' : (D : ℝ) ≤ 2 ^ 20 := by exact_mod_cast hD2
  have hDD : (D : ℝ) ^ 2 ≤ 2 ^ 40 := by
    calc (D : ℝ) ^ 2 ≤ (2 ^ 20) ^ 2 := pow_le_pow_left₀ (Nat.cast_nonneg D) hD' 2
      _ = 2 ^ 40 := by rw [← pow_mul]
  have hv : ∀ (x : Eu D) i j, 0 ≤ vdiff p x i j := fun x i j => Real.rpow_nonneg (abs_nonneg _) _
  have hw := fun i j : Fin D => wsq_near hr (hv y i j) (vfct_near hr hp hp2 hne hM fun x h => hx x h i j).2.1
    (vrho_near hr hp hp2 (hy i j)).2 (vfct_near hr hp hp2 hne hM fun x h => hx x h i j).2.2 (k := xs.length + 4) (by linarith)
    (by generalize (xs.length : ℝ) = M at *; clear hDD; norm_num at *; linarith) (hW i j) (m1 := 2) (m2 := 7) (by norm_num)
    ((vrho_near hr hp hp2 (hy i j)).1.mono unit_norm.nonneg (hv y i j) (by linarith) le_rfl)
    (vfct_near hr hp hp2 hne hM fun x h => hx x h i j).1
  have hs := RSum.fold (r := r) (fun q : Fin D × Fin D => Rnd.wsq r (fin (W q.1 q.2)) (RndLoop.vrho r p (vec y) q.1 q.2)
    (Rnd.rd r ((forRange 0 xs.length (0 : XF) fun m v =>
        Rnd.rd r (v + RndLoop.vrho r p (vat (xs.map vec) m) q.1 q.2)) / (xs.length : XF)))) (gridF D)
    (L := [fin 0]) (s := fin 0) (.one _) (by simp)
  have hk : 3 * ((xs.length : ℝ) + 4) + 29 + (gridF D).length + 1 ≤ 2 ^ 50 := by
    rw [gridF_length, Nat.cast_pow]
    clear hw hs
    generalize (xs.length : ℝ) = M at *
    generalize (D : ℝ) ^ 2 = d at *
    norm_num at *; linarith
  have hp0 : ∀ i j, (1:ℝ) / 2 ^ 938 ≤ |W i j| * (vdiff p y i j + (xs.map fun x => vdiff p x i j).sum / xs.length + 1 / 2 ^ 469) ^ 2
      + 1 / 2 ^ 938 := fun i j => le_add_of_nonneg_left (by positivity)
  have hC : ((gridF D).map fun q => |W q.1 q.2| * (vdiff p y q.1 q.2 + (xs.map fun x => vdiff p x q.1 q.2).sum / xs.length
      + 1 / 2 ^ 469) ^ 2 + 1 / 2 ^ 938).sum ≤ 2 ^ 990 := by
    calc _ ≤ ((gridF D).length : ℝ) * 2 ^ 910 := sum_map_le fun q _ => (hw q.1 q.2).2
      _ ≤ 2 ^ 40 * 2 ^ 910 := by
          rw [gridF_length, Nat.cast_pow]; exact mul_le_mul_of_nonneg_right hDD (by positivity)
      _ = 2 ^ 950 := by rw [← pow_add]
      _ ≤ _ := pow_le_pow_right₀ (by norm_num) (by norm_num)
  have h := (Sized.sumFrom hr hs (by rw [← List.length_pos_iff, gridF_length]; positivity) (by positivity)
    (g := fun q => W q.1 q.2 * (vdiff p y q.1 q.2 - (xs.map fun x => vdiff p x q.1 q.2).sum / xs.length) ^ 2)
    (fun q _ => (hw q.1 q.2).1) (fun q _ => hp0 q.1 q.2) hC hk).1
  rw [gridF_sum (fun i j => W i j * (vdiff p y i j - (xs.map fun x => vdiff p x i j).sum / xs.length) ^ 2),
    gridF_sum (fun i j => |W i j| * (vdiff p y i j + (xs.map fun x => vdiff p x i j).sum / xs.length + 1 / 2 ^ 469) ^ 2
      + 1 / 2 ^ 938), gridF_length, Nat.cast_pow] at h
  unfold RndLoop.vsNrg
  simp only [vec_length, List.length_map]
  rw [grid_fold D (0 : XF) fun s i j => _]
  simp only [mget_matl]
  exact h.mono (by linarith)

end
end Verif
