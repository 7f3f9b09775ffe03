import Verif.Model.WeightedUv
import Verif.Lemmas.CrpsEquiv
import Verif.Lemmas.ArrSlices

/-! Kernels and array handling of the outcome-weighted and vertically re-scaled CRPS. -/

noncomputable section

open scoped Classical

namespace Verif

open XF Py

/-! ### real-number forms -/

/-- value of the vertically re-scaled score; the weights in `l` carry the factor `1/M` -/
def vrVal (y o : ℝ) (l : List (ℝ × ℝ)) : ℝ :=
  o * wabs y l - wpair l / 2 + ((l.map fun p => |p.1| * p.2).sum - |y| * o) * (wtot l - o)

theorem wabs_scale (c y : ℝ) (l : List (ℝ × ℝ)) :
    wabs y (l.map fun p => (p.1, c * p.2)) = c * wabs y l := by
  unfold wabs
  rw [List.map_map, ← sum_map_mul_left']
  apply sum_map_congr
  intro p _
  show |p.1 - y| * (c * p.2) = c * (|p.1 - y| * p.2)
  ring

theorem wpair_scale (c : ℝ) (l : List (ℝ × ℝ)) :
    wpair (l.map fun p => (p.1, c * p.2)) = c ^ 2 * wpair l := by
  unfold wpair
  rw [pairsAll_map, ← pairsAll_mul_left]
  apply pairsAll_congr
  intro p _ q _
  ring

theorem wtot_scale (c : ℝ) (l : List (ℝ × ℝ)) :
    wtot (l.map fun p => (p.1, c * p.2)) = c * wtot l := by
  unfold wtot
  rw [List.map_map, ← sum_map_mul_left']
  rfl

theorem norml_eq_scale (l : List (ℝ × ℝ)) :
    norml l = l.map fun p => (p.1, (wtot l)⁻¹ * p.2) := by
  unfold norml
  apply List.map_congr_left
  intro p _
  rw [div_eq_inv_mul]

theorem energy_norml (y : ℝ) (l : List (ℝ × ℝ)) :
    energy y (norml l) = wabs y l / wtot l - wpair l / 2 / (wtot l) ^ 2 := by
  rw [norml_eq_scale, energy, wabs_scale, wpair_scale]
  rw [inv_pow]
  ring

theorem vrVal_scale (c y o : ℝ) (l : List (ℝ × ℝ)) :
    vrVal y (c * o) (l.map fun p => (p.1, c * p.2)) = c ^ 2 * vrVal y o l := by
  unfold vrVal
  rw [wabs_scale, wpair_scale, wtot_scale, List.map_map]
  have : (l.map ((fun p : ℝ × ℝ => |p.1| * p.2) ∘ fun p : ℝ × ℝ => (p.1, c * p.2))).sum
      = c * (l.map fun p => |p.1| * p.2).sum := by
    rw [← sum_map_mul_left']
    apply sum_map_congr
    intro p _
    show |p.1| * (c * p.2) = c * (|p.1| * p.2)
    ring
  rw [this]
  ring

theorem vrVal_one (y : ℝ) {l : List (ℝ × ℝ)} (h : wtot l = 1) : vrVal y 1 l = energy y l := by
  unfold vrVal energy
  rw [h]; ring

/-! ### kernels without ensemble weights -/

theorem mean_Ws {l : List (ℝ × ℝ)} (h : l ≠ []) :
    mean (Ws l) = fin (wtot l / l.length) := by
  have hM : (l.length : ℝ) ≠ 0 := by simpa using h
  unfold mean Ws
  rw [sum_map_fin', List.length_map, natCast_fin, fin_div hM]
  rfl

theorem pairsUp_scale (c : ℝ) (l : List (ℝ × ℝ)) :
    pairsUp (fun p q : ℝ × ℝ => 2 * |p.1 - q.1| * p.2 * q.2 * c) l = c * wpair l := by
  have h := pairsAll_eq (fun p q : ℝ × ℝ => 2 * |p.1 - q.1| * p.2 * q.2 * c)
    (fun a b => by rw [abs_sub_comm]; ring) l
  have e : pairsAll (fun p q : ℝ × ℝ => 2 * |p.1 - q.1| * p.2 * q.2 * c) l = 2 * c * wpair l := by
    unfold wpair; rw [← pairsAll_mul_left]; apply pairsAll_congr; intro a _ b _; ring
  rw [e] at h
  have z : (l.map fun a : ℝ × ℝ => 2 * |a.1 - a.1| * a.2 * a.2 * c).sum = 0 := by simp
  rw [z] at h
  linarith

theorem sum_abs_scale (c y : ℝ) (l : List (ℝ × ℝ)) :
    (l.map fun p : ℝ × ℝ => |p.1 - y| * p.2 * c).sum = c * wabs y l := by
  unfold wabs; rw [← sum_map_mul_left']; apply sum_map_congr; intro p _; ring

theorem len_mul_mean {l : List (ℝ × ℝ)} (h : l ≠ []) :
    (l.length : ℝ) * (wtot l / l.length) = wtot l := by
  have hM : (l.length : ℝ) ≠ 0 := by simpa using h
  field_simp

theorem ne_nil_of_wtot {l : List (ℝ × ℝ)} (h : wtot l ≠ 0) : l ≠ [] := by
  rintro rfl; exact h rfl

theorem Gufunc.ow_fin (y o : ℝ) (l : List (ℝ × ℝ)) (h : wtot l ≠ 0) :
    Gufunc.ow (fin y) (Xs l) (fin o) (Ws l) = fin (o * energy y (norml l)) := by
  have hl := ne_nil_of_wtot h
  have := forRange_pairs l
    (fun p => XF.abs (p.elim nan (fun p => fin p.1) - fin y) * p.elim nan (fun p => fin p.2) * fin o)
    (fun p q => 2 * XF.abs (p.elim nan (fun p => fin p.1) - q.elim nan (fun p => fin p.1))
      * p.elim nan (fun p => fin p.2) * q.elim nan (fun p => fin p.2) * fin o)
  unfold Gufunc.ow
  rw [if_neg (by simp), mean_Ws hl, Xs_length]
  simp only [Xs, Ws, idx_map]
  rw [this]
  simp only [Option.elim, fin_sub, fin_abs, fin_mul, two_fin, sum_map_fin', pairsUp_fin,
    pairsUp_scale, sum_abs_scale, half_fin, natCast_fin, len_mul_mean hl, fin_pow]
  rw [fin_div h, fin_div (pow_ne_zero 2 h), fin_sub, fin_inj, energy_norml]
  ring

theorem Gufunc.vr_fin (y o : ℝ) (l : List (ℝ × ℝ)) (hl : l ≠ []) :
    Gufunc.vr (fin y) (Xs l) (fin o) (Ws l)
      = fin (vrVal y o (l.map fun p => (p.1, (l.length : ℝ)⁻¹ * p.2))) := by
  have hM : (l.length : ℝ) ≠ 0 := by simpa using hl
  have := forRange_pairs l
    (fun p => XF.abs (p.elim nan (fun p => fin p.1) - fin y) * p.elim nan (fun p => fin p.2) * fin o)
    (fun p q => 2 * XF.abs (p.elim nan (fun p => fin p.1) - q.elim nan (fun p => fin p.1))
      * p.elim nan (fun p => fin p.2) * q.elim nan (fun p => fin p.2))
  have hp := pairsUp_scale 1 l
  simp only [mul_one, one_mul] at hp
  unfold Gufunc.vr
  rw [if_neg (by simp), mean_Ws hl, Xs_length]
  simp only [Xs, Ws, idx_map]
  rw [this, zip2_map]
  simp only [Option.elim, fin_sub, fin_abs, fin_mul, two_fin, sum_map_fin', pairsUp_fin,
    hp, sum_abs_scale, half_fin, natCast_fin, mean, List.length_map]
  rw [fin_div hM, fin_div (by push_cast; positivity), fin_div hM]
  simp only [fin_sub, fin_add, fin_mul, fin_inj]
  unfold vrVal
  rw [wabs_scale, wpair_scale, wtot_scale, List.map_map]
  have : (l.map ((fun p : ℝ × ℝ => |p.1| * p.2) ∘ fun p : ℝ × ℝ =>
      (p.1, (l.length : ℝ)⁻¹ * p.2))).sum = (l.length : ℝ)⁻¹ * (l.map fun p => |p.1| * p.2).sum := by
    rw [← sum_map_mul_left']
    apply sum_map_congr
    intro p _
    show |p.1| * (_ * p.2) = _ * (|p.1| * p.2)
    ring
  rw [this]
  push_cast
  field_simp

theorem sum_abs_Xs (y : ℝ) (l : List (ℝ × ℝ)) :
    (zip2 (fun x w => XF.abs (fin y - x) * w) (Xs l) (Ws l)).sum = fin (wabs y l) := by
  unfold Xs Ws
  rw [zip2_map]
  simp only [fin_sub, fin_abs, fin_mul, sum_map_fin', wabs, fin_inj]
  apply sum_map_congr; intro p _; rw [abs_sub_comm]

theorem Approx.ow_fin (y o : ℝ) (l : List (ℝ × ℝ)) (h : wtot l ≠ 0) :
    Approx.ow (fin y) (Xs l) (fin o) (Ws l) = fin (o * energy y (norml l)) := by
  have hl := ne_nil_of_wtot h
  have hM : (l.length : ℝ) ≠ 0 := by simpa using hl
  unfold Approx.ow
  rw [mean_Ws hl, Xs_length, sum_abs_Xs]
  simp only [Xs_zip_Ws, List.map_map, Function.comp_def, fin_sub, fin_abs, fin_mul, sum_map_fin',
    natCast_fin, fin_pow, half_fin, len_mul_mean hl]
  have e : (((l.length ^ 2 : ℕ) : ℝ) * (wtot l / l.length) ^ 2) = wtot l ^ 2 := by
    push_cast; field_simp
  rw [e, fin_div h, fin_div (pow_ne_zero 2 h), fin_mul, fin_mul, fin_sub, fin_inj, energy_norml]
  have : (l.map fun p : ℝ × ℝ => (l.map fun q : ℝ × ℝ => |p.1 - q.1| * p.2 * q.2).sum).sum
      = wpair l := rfl
  rw [this]
  ring

theorem Approx.vr_fin (y o : ℝ) (l : List (ℝ × ℝ)) (hl : l ≠ []) :
    Approx.vr (fin y) (Xs l) (fin o) (Ws l)
      = fin (vrVal y o (l.map fun p => (p.1, (l.length : ℝ)⁻¹ * p.2))) := by
  have hM : (l.length : ℝ) ≠ 0 := by simpa using hl
  unfold Approx.vr Approx.vrWith
  rw [mean_Ws hl, Xs_length, sum_abs_Xs]
  unfold mean
  have e0 : zip2 (fun x w => XF.abs x * w) (Xs l) (Ws l) = l.map fun p => fin (|p.1| * p.2) := by
    unfold Xs Ws; rw [zip2_map]; rfl
  simp only [e0, Xs_zip_Ws, List.map_map, Function.comp_def, fin_sub, fin_abs, fin_mul,
    sum_map_fin', natCast_fin, half_fin, List.length_map]
  rw [fin_div hM, fin_div (by push_cast; positivity), fin_div hM]
  simp only [fin_sub, fin_add, fin_mul, fin_inj]
  unfold vrVal
  rw [wabs_scale, wpair_scale, wtot_scale, List.map_map]
  have : (l.map ((fun p : ℝ × ℝ => |p.1| * p.2) ∘ fun p : ℝ × ℝ =>
      (p.1, (l.length : ℝ)⁻¹ * p.2))).sum = (l.length : ℝ)⁻¹ * (l.map fun p => |p.1| * p.2).sum := by
    rw [← sum_map_mul_left']
    apply sum_map_congr
    intro p _
    show |p.1| * (_ * p.2) = _ * (|p.1| * p.2)
    ring
  have hp : (l.map fun p : ℝ × ℝ => (l.map fun q : ℝ × ℝ => |p.1 - q.1| * (p.2 * q.2)).sum).sum
      = wpair l := by
    unfold wpair pairsAll
    apply sum_map_congr; intro p _; apply sum_map_congr; intro q _; ring
  rw [this, hp]
  push_cast
  field_simp

/-! ### kernels with ensemble weights; members are triples (value, outcome weight, weight) -/

/-- values -/
def Tx (l : List (ℝ × ℝ × ℝ)) : List XF := l.map fun p => fin p.1
/-- outcome weights -/
def Tw (l : List (ℝ × ℝ × ℝ)) : List XF := l.map fun p => fin p.2.1
/-- ensemble weights -/
def Tv (l : List (ℝ × ℝ × ℝ)) : List XF := l.map fun p => fin p.2.2
/-- combined weights -/
def comb (l : List (ℝ × ℝ × ℝ)) : List (ℝ × ℝ) := l.map fun p => (p.1, p.2.2 * p.2.1)

theorem wtot_comb (l : List (ℝ × ℝ × ℝ)) : (zip2 (· * ·) (Tv l) (Tw l)).sum = fin (wtot (comb l)) := by
  unfold Tv Tw
  rw [zip2_map]
  simp only [fin_mul, sum_map_fin', comb, wtot, List.map_map, Function.comp_def]

theorem wabs_comb (y c : ℝ) (l : List (ℝ × ℝ × ℝ)) :
    (l.map fun p => p.2.2 * |p.1 - y| * p.2.1 * c).sum = c * wabs y (comb l) := by
  unfold wabs comb
  rw [List.map_map, ← sum_map_mul_left']
  apply sum_map_congr; intro p _
  show _ = c * (|p.1 - y| * (p.2.2 * p.2.1))
  ring

theorem absx_comb (l : List (ℝ × ℝ × ℝ)) :
    (l.map fun p => p.2.2 * |p.1| * p.2.1).sum = ((comb l).map fun p => |p.1| * p.2).sum := by
  unfold comb
  rw [List.map_map]
  apply sum_map_congr; intro p _
  show _ = |p.1| * (p.2.2 * p.2.1)
  ring

theorem pairsAll_comb (l : List (ℝ × ℝ × ℝ)) :
    pairsAll (fun p q : ℝ × ℝ × ℝ => p.2.2 * q.2.2 * |p.1 - q.1| * p.2.1 * q.2.1) l
      = wpair (comb l) := by
  unfold wpair comb
  rw [pairsAll_map]
  apply pairsAll_congr; intro p _ q _
  ring

theorem pairsUp_comb (c : ℝ) (l : List (ℝ × ℝ × ℝ)) :
    pairsUp (fun p q : ℝ × ℝ × ℝ => 2 * p.2.2 * q.2.2 * |p.1 - q.1| * p.2.1 * q.2.1 * c) l
      = c * wpair (comb l) := by
  rw [← pairsUp_scale, comb, pairsUp_map]
  congr 1
  funext p q
  ring

theorem GufuncW.ow_fin (y o : ℝ) (l : List (ℝ × ℝ × ℝ)) (h : wtot (comb l) ≠ 0) :
    GufuncW.ow (fin y) (Tx l) (fin o) (Tw l) (Tv l) = fin (o * energy y (norml (comb l))) := by
  have := forRange_pairs l
    (fun p => p.elim nan (fun p => fin p.2.2) * XF.abs (p.elim nan (fun p => fin p.1) - fin y)
      * p.elim nan (fun p => fin p.2.1) * fin o)
    (fun p q => 2 * p.elim nan (fun p => fin p.2.2) * q.elim nan (fun p => fin p.2.2)
      * XF.abs (p.elim nan (fun p => fin p.1) - q.elim nan (fun p => fin p.1))
      * p.elim nan (fun p => fin p.2.1) * q.elim nan (fun p => fin p.2.1) * fin o)
  unfold GufuncW.ow
  rw [if_neg (by simp), wtot_comb, show (Tx l).length = l.length by simp [Tx]]
  simp only [Tx, Tw, Tv, idx_map]
  rw [this]
  simp only [Option.elim, fin_sub, fin_abs, fin_mul, two_fin, sum_map_fin', pairsUp_fin,
    pairsUp_comb, wabs_comb, half_fin, fin_pow]
  rw [fin_div h, fin_div (pow_ne_zero 2 h), fin_sub, fin_inj, energy_norml]
  ring

theorem GufuncW.vr_fin (y o : ℝ) (l : List (ℝ × ℝ × ℝ)) :
    GufuncW.vr (fin y) (Tx l) (fin o) (Tw l) (Tv l) = fin (vrVal y o (comb l)) := by
  have := forRange_pairs l
    (fun p => p.elim nan (fun p => fin p.2.2) * XF.abs (p.elim nan (fun p => fin p.1) - fin y)
      * p.elim nan (fun p => fin p.2.1) * fin o)
    (fun p q => 2 * p.elim nan (fun p => fin p.2.2) * q.elim nan (fun p => fin p.2.2)
      * XF.abs (p.elim nan (fun p => fin p.1) - q.elim nan (fun p => fin p.1))
      * p.elim nan (fun p => fin p.2.1) * q.elim nan (fun p => fin p.2.1))
  have hp := pairsUp_comb 1 l
  simp only [mul_one, one_mul] at hp
  unfold GufuncW.vr
  rw [if_neg (by simp), wtot_comb, show (Tx l).length = l.length by simp [Tx]]
  simp only [Tx, Tw, Tv, idx_map]
  rw [this, zip2_map, zip2_map]
  simp only [Option.elim, fin_sub, fin_abs, fin_mul, two_fin, sum_map_fin', pairsUp_fin,
    hp, wabs_comb, half_fin, absx_comb, fin_add, fin_inj]
  unfold vrVal
  ring

theorem zip_comb (l : List (ℝ × ℝ × ℝ)) :
    ((Tx l).zip (Tw l)).zip (Tv l) = l.map fun p => ((fin p.1, fin p.2.1), fin p.2.2) := by
  unfold Tx Tw Tv
  induction l with
  | nil => rfl
  | cons p l ih => simp [ih]

theorem approxW_e1 (y : ℝ) (l : List (ℝ × ℝ × ℝ)) :
    (zip2 (· * ·) (zip2 (fun v x => v * XF.abs (fin y - x)) (Tv l) (Tx l)) (Tw l)).sum
      = fin (wabs y (comb l)) := by
  unfold Tx Tw Tv
  rw [zip2_map, zip2_map]
  simp only [fin_sub, fin_abs, fin_mul, sum_map_fin', fin_inj]
  have := wabs_comb y 1 l
  rw [one_mul] at this
  rw [← this]
  apply sum_map_congr; intro p _
  rw [abs_sub_comm]; ring

theorem approxW_e2 (l : List (ℝ × ℝ × ℝ)) :
    ((((Tx l).zip (Tw l)).zip (Tv l)).map fun p => ((((Tx l).zip (Tw l)).zip (Tv l)).map fun q =>
      p.2 * q.2 * XF.abs (p.1.1 - q.1.1) * p.1.2 * q.1.2).sum).sum = fin (wpair (comb l)) := by
  rw [zip_comb]
  simp only [List.map_map, Function.comp_def, fin_sub, fin_abs, fin_mul, sum_map_fin', fin_inj]
  rw [← pairsAll_comb]
  rfl

theorem ApproxW.ow_fin (y o : ℝ) (l : List (ℝ × ℝ × ℝ)) (h : wtot (comb l) ≠ 0) :
    ApproxW.ow (fin y) (Tx l) (fin o) (Tw l) (Tv l) = fin (o * energy y (norml (comb l))) := by
  unfold ApproxW.ow
  simp only [wtot_comb, approxW_e1, approxW_e2, fin_pow, half_fin, fin_mul]
  rw [fin_div h, fin_div (pow_ne_zero 2 h), fin_mul, fin_mul, fin_sub, fin_inj, energy_norml]
  ring

theorem ApproxW.vr_fin (y o : ℝ) (l : List (ℝ × ℝ × ℝ)) :
    ApproxW.vr (fin y) (Tx l) (fin o) (Tw l) (Tv l) = fin (vrVal y o (comb l)) := by
  have e : zip2 (· * ·) (zip2 (fun v x => v * XF.abs x) (Tv l) (Tx l)) (Tw l)
      = l.map fun p => fin (p.2.2 * |p.1| * p.2.1) := by
    unfold Tx Tw Tv; rw [zip2_map, zip2_map]; rfl
  unfold ApproxW.vr
  simp only [wtot_comb, approxW_e1, approxW_e2, half_fin, fin_mul, e, sum_map_fin', absx_comb,
    fin_abs, fin_sub, fin_add, fin_inj]
  unfold vrVal
  ring

/-! ### array handling -/

namespace Api
open Spec

theorem ndim_moveLast {α : Type} {a : Arr α} {k : ℕ} (hk : k < a.ndim) :
    (a.moveLast k).ndim = a.ndim := by
  unfold Arr.ndim at *
  rw [Arr.moveLast_shape, List.length_append, List.length_eraseIdx_of_lt hk, List.length_singleton]
  omega

theorem moveaxisLast_neg1 {α : Type} {a : Arr α} (h : 0 < a.ndim) :
    a.moveaxisLast (-1) = .ok (a.moveLast (a.ndim - 1)) :=
  moveaxisLast_axis ⟨by omega, Or.inr (by omega)⟩

theorem moveLast_last_same {α : Type} {a : Arr α} (h : 0 < a.ndim) :
    (a.moveLast (a.ndim - 1)).Same a := by
  obtain ⟨s, n, hs⟩ : ∃ s n, a.shape = s ++ [n] := by
    have : a.shape ≠ [] := List.ne_nil_of_length_pos h
    exact ⟨a.shape.dropLast, a.shape.getLast this, (List.dropLast_append_getLast this).symm⟩
  have hn : a.ndim - 1 = s.length := by simp [Arr.ndim, hs]
  rw [hn]
  refine ⟨by rw [Arr.moveLast_last_shape hs, hs], fun i hi => ?_⟩
  rw [Arr.moveLast_last_shape hs] at hi
  obtain ⟨j, t, rfl, h1, h2⟩ := Arr.valid_append_iff.1 hi
  show a.get _ = _
  rw [List.dropLast_concat, List.getLastD_concat, ← h1.length, List.insertIdx_length_self]

theorem valid_insertIdx {s : List ℕ} {k : ℕ} {i : List ℕ} {j : ℕ} (hk : k < s.length)
    (hi : Arr.Valid (s.eraseIdx k) i) (hj : j < s.getD k 0) : Arr.Valid s (i.insertIdx k j) := by
  induction s generalizing k i with
  | nil => simp at hk
  | cons n s ih =>
    cases k with
    | zero =>
      simp only [List.eraseIdx_cons_zero] at hi
      simp only [List.getD_cons_zero] at hj
      rw [List.insertIdx_zero]
      exact List.Forall₂.cons hj hi
    | succ k =>
      simp only [List.eraseIdx_cons_succ] at hi
      cases hi with
      | cons h1 h2 =>
        rw [List.insertIdx_succ_cons]
        exact List.Forall₂.cons h1 (ih (by simpa using hk) h2 (by simpa using hj))

theorem sliceAt_same {α : Type} {a b : Arr α} (h : a.Same b) {k : ℕ} (hk : k < b.ndim) {i : List ℕ}
    (hi : Arr.Valid (b.shape.eraseIdx k) i) : a.sliceAt k i = b.sliceAt k i := by
  unfold Arr.sliceAt
  rw [h.1]
  apply List.map_congr_left
  intro j hj
  apply h.2
  rw [h.1]
  exact valid_insertIdx hk hi (List.mem_range.1 hj)

theorem sliceAt_map {α β : Type} (a : Arr α) (f : α → β) (k : ℕ) (i : List ℕ) :
    (a.map f).sliceAt k i = (a.sliceAt k i).map f := by
  simp [Arr.sliceAt, Arr.map]

theorem uvWeights_ok {obs fct : Arr XF} {w : XF → XF} (h1 : ¬ (obs.map w).Any (fun v => v < 0))
    (h2 : ¬ (fct.map w).Any (fun v => v < 0)) :
    uvWeights obs fct w = .ok (obs.map w, fct.map w) := by
  unfold uvWeights
  dsimp only
  rw [if_neg (by rintro (h | h); exacts [h1 h, h2 h])]

theorem applyNan_propagate_none (obs fct : Arr XF) :
    applyNanPolicy obs fct "propagate" none none (-1) = .ok (fct, none) := by
  unfold applyNanPolicy
  simp [bind, Except.bind]

theorem applyNan_propagate_some (obs fct w : Arr XF) (h : 0 < w.ndim) :
    applyNanPolicy obs fct "propagate" (some w) none (-1)
      = .ok (fct, some (w.moveLast (w.ndim - 1))) := by
  unfold applyNanPolicy
  simp [bind, Except.bind, moveaxisLast_neg1 h, Except.map]

theorem owPrep_none {obs fct : Arr XF} {m : ℤ} {k : ℕ} {w : XF → XF} (h : AxisIs m fct.ndim k)
    (hs : obs.shape = fct.shape.eraseIdx k) (h1 : ¬ (obs.map w).Any (fun v => v < 0))
    (h2 : ¬ ((fct.moveLast k).map w).Any (fun v => v < 0)) :
    owPrep obs fct w m none "propagate"
      = .ok (fct.moveLast k, obs.map w, (fct.moveLast k).map w, none) := by
  unfold owPrep
  rw [arrayCheck_axis h hs]
  simp only [bind, Except.bind, uvWeights_ok h1 h2, applyNan_propagate_none]

/-- `univariate_weight_check` on weights whose ensemble axis has not been moved yet -/
theorem weightCheck_axis {W fct : Arr XF} {m : ℤ} {k : ℕ} (h : AxisIs m fct.ndim k)
    (hs : W.shape = fct.shape) :
    univariateWeightCheck W (fct.moveLast k) m =
      if (W.moveLast k).Any (fun v => v < 0) then .error .valueError
      else .ok ((W.moveLast k).mapRows fun r => r.map fun v => v / r.sum) := by
  unfold univariateWeightCheck
  have hn : W.ndim = fct.ndim := by simp [Arr.ndim, hs]
  have : (if 0 ≤ m then m else ((fct.moveLast k).ndim : ℤ) + m) = k := by
    rw [ndim_moveLast h.1]
    have := h.1
    rcases h.2 with h2 | h2
    · rw [if_pos (by omega)]; exact h2
    · rw [if_neg (by omega)]; omega
  simp only [this]
  rw [moveaxisLast_axis (k := k) ⟨by rw [hn]; exact h.1, Or.inl rfl⟩]
  simp only [bind, Except.bind]
  rw [if_neg (by simp [Arr.moveLast_shape, hs])]

theorem any_moveLast {α : Type} {a : Arr α} {k : ℕ} (hk : k < a.ndim) (p : α → Prop)
    (h : (a.moveLast k).Any p) : a.Any p := by
  obtain ⟨i, h1, h2⟩ := h
  rw [Arr.moveLast_shape] at h1
  obtain ⟨j, t, rfl, h3, h4⟩ := Arr.valid_append_iff.1 h1
  refine ⟨j.insertIdx k t, valid_insertIdx hk h3 h4, ?_⟩
  have : (a.moveLast k).get (j ++ [t]) = a.get (j.insertIdx k t) := by
    show a.get _ = _
    rw [List.dropLast_concat, List.getLastD_concat]
  rwa [this] at h2

theorem any_same {α : Type} {a b : Arr α} (h : a.Same b) (p : α → Prop) (ha : a.Any p) : b.Any p := by
  obtain ⟨i, h1, h2⟩ := ha
  exact ⟨i, by rwa [← h.1], by rwa [← h.2 i h1]⟩

theorem same_trans {α : Type} {a b c : Arr α} (h : a.Same b) (h' : b.Same c) : a.Same c :=
  ⟨h.1.trans h'.1, fun i hi => (h.2 i hi).trans (h'.2 i (by rwa [← h.1]))⟩

theorem owPrep_some {obs fct W : Arr XF} {m : ℤ} {k : ℕ} {w : XF → XF} (h : AxisIs m fct.ndim k)
    (hs : obs.shape = fct.shape.eraseIdx k) (hW : W.shape = fct.shape)
    (h1 : ¬ (obs.map w).Any (fun v => v < 0))
    (h2 : ¬ ((fct.moveLast k).map w).Any (fun v => v < 0)) (h3 : ¬ W.Any (fun v => v < 0)) :
    ∃ W', owPrep obs fct w m (some W) "propagate"
      = .ok (fct.moveLast k, obs.map w, (fct.moveLast k).map w, some W') ∧
      ∀ i, Arr.Valid obs.shape i → W'.row i = normW (W.sliceAt k i) := by
  have hk := h.1
  have hn : W.ndim = fct.ndim := by simp [Arr.ndim, hW]
  have hpos : 0 < W.ndim := by omega
  set W1 := W.moveLast (W.ndim - 1) with hW1
  have s1 : W1.Same W := moveLast_last_same hpos
  have hn1 : W1.ndim = W.ndim := by simp [Arr.ndim, s1.1]
  set W2 := W1.moveLast (W1.ndim - 1) with hW2
  have s2 : W2.Same W1 := moveLast_last_same (by omega)
  have s : W2.Same W := same_trans s2 s1
  have hs2 : W2.shape = fct.shape := s.1.trans hW
  have hnd2 : W2.ndim = fct.ndim := by simp [Arr.ndim, hs2]
  have hk2 : k < W2.ndim := by omega
  have hc := weightCheck_axis (W := W2) h hs2
  rw [if_neg (fun h' => h3 (any_same s _ (any_moveLast hk2 _ h')))] at hc
  refine ⟨(W2.moveLast k).mapRows fun r => r.map fun v => v / r.sum, ?_, ?_⟩
  · unfold owPrep
    rw [arrayCheck_axis h hs]
    simp only [bind, Except.bind, uvWeights_ok h1 h2, applyNan_propagate_some _ _ _ hpos]
    rw [← hW1]
    rw [applyNan_propagate_some _ _ W1 (by omega)]
    simp only [← hW2, hc]
  · intro i hi
    rw [Arr.row_mapRows (s := W2.shape.eraseIdx k) (n := W2.shape.getD k 0) rfl, Arr.row_moveLast,
      sliceAt_same s (by omega) (by rw [hW, ← hs]; exact hi)]
    · rfl
    · rw [List.length_map, Arr.row_length (Arr.moveLast_shape W2 k)]

end Api
end Verif
