import Verif.Lemmas.LoopsXF
import Verif.Lemmas.CrpsReal

/-! Values of the CRPS kernels on finite inputs. -/

noncomputable section

open scoped Classical

namespace Verif

open XF Py

/-- values of a list of (value, weight) pairs, as extended numbers -/
def Xs (l : List (ℝ × ℝ)) : List XF := l.map fun p => fin p.1
/-- weights of a list of (value, weight) pairs, as extended numbers -/
def Ws (l : List (ℝ × ℝ)) : List XF := l.map fun p => fin p.2
/-- equal weights -/
def uw (xs : List ℝ) : List (ℝ × ℝ) := xs.map fun x => (x, 1 / (xs.length : ℝ))

@[simp] theorem Xs_length (l : List (ℝ × ℝ)) : (Xs l).length = l.length := by simp [Xs]
@[simp] theorem Ws_length (l : List (ℝ × ℝ)) : (Ws l).length = l.length := by simp [Ws]

theorem natCast_fin (n : ℕ) : (n : XF) = fin (n : ℝ) := rfl
theorem one_fin : (1 : XF) = fin 1 := rfl
theorem zero_fin : (0 : XF) = fin 0 := rfl

theorem two_fin : (2 : XF) = fin 2 := by
  have : (2 : XF) = ((2 : ℕ) : XF) := rfl
  rw [this, natCast_fin]; norm_num

/-! ## numba, weighted -/

theorem pairsUp_wpair (l : List (ℝ × ℝ)) :
    pairsUp (fun p q : ℝ × ℝ => |q.1 - p.1| * q.2 * p.2) l = wpair l / 2 := by
  have h := pairsAll_eq (fun p q : ℝ × ℝ => |q.1 - p.1| * q.2 * p.2)
    (fun a b => by rw [abs_sub_comm]; ring) l
  have e : pairsAll (fun p q : ℝ × ℝ => |q.1 - p.1| * q.2 * p.2) l = wpair l := by
    unfold wpair; apply pairsAll_congr; intro a _ b _; rw [abs_sub_comm]; ring
  rw [e] at h
  have z : (l.map fun a : ℝ × ℝ => |a.1 - a.1| * a.2 * a.2).sum = 0 := by simp
  rw [z] at h
  linarith

theorem GufuncW.loop_fin (y : ℝ) (l : List (ℝ × ℝ)) :
    forRange 0 (Xs l).length ((0, 0) : XF × XF) (fun i e =>
      (e.1 + XF.abs (idx (Xs l) i - fin y) * idx (Ws l) i,
       forRange (i + 1) (Xs l).length e.2 fun j e2 =>
        e2 + XF.abs (idx (Xs l) j - idx (Xs l) i) * idx (Ws l) j * idx (Ws l) i))
      = (fin (wabs y l), fin (wpair l / 2)) := by
  have := forRange_pairs l
    (fun o => XF.abs (o.elim nan (fun p => fin p.1) - fin y) * o.elim nan (fun p => fin p.2))
    (fun o o' => XF.abs (o'.elim nan (fun p => fin p.1) - o.elim nan (fun p => fin p.1))
      * o'.elim nan (fun p => fin p.2) * o.elim nan (fun p => fin p.2))
  rw [Xs_length]
  simp only [Xs, Ws, idx_map]
  rw [this]
  simp only [Option.elim, fin_sub, fin_abs, fin_mul, sum_map_fin', pairsUp_fin, pairsUp_wpair, wabs]

theorem GufuncW.nrg_fin (y : ℝ) (l : List (ℝ × ℝ)) :
    GufuncW.nrg (fin y) (Xs l) (Ws l) = fin (energy y l) := by
  unfold GufuncW.nrg
  simp only [GufuncW.loop_fin]
  simp [energy]

/-- sum of squared weights -/
def wsq (l : List (ℝ × ℝ)) : ℝ := (l.map fun p => p.2 ^ 2).sum

theorem sum_sq_Ws (l : List (ℝ × ℝ)) : ((Ws l).map fun v => v ^ 2).sum = fin (wsq l) := by
  simp only [Ws, List.map_map, Function.comp_def, fin_pow, sum_map_fin', wsq]

theorem GufuncW.fair_fin (y : ℝ) (l : List (ℝ × ℝ)) (h : 1 - wsq l ≠ 0) :
    GufuncW.fair (fin y) (Xs l) (Ws l) = fin (wabs y l - wpair l / 2 / (1 - wsq l)) := by
  unfold GufuncW.fair
  simp only [GufuncW.loop_fin, sum_sq_Ws]
  have h2 : ¬ (1 - fin (wsq l) : XF).feq 0 := by
    rw [one_fin, zero_fin, fin_sub]; simpa [XF.feq] using h
  rw [if_neg (by simp), if_neg h2, one_fin, fin_sub, fin_div h, fin_sub]

theorem GufuncW.fair_nan (y : ℝ) (l : List (ℝ × ℝ)) (h : 1 - wsq l = 0) :
    GufuncW.fair (fin y) (Xs l) (Ws l) = nan := by
  unfold GufuncW.fair
  simp only [GufuncW.loop_fin, sum_sq_Ws]
  have h2 : (1 - fin (wsq l) : XF).feq 0 := by
    rw [one_fin, zero_fin, fin_sub]; simpa [XF.feq] using h
  rw [if_pos h2]
  simp

/-! ### integral form -/

/-- loop body shared by the two `int` gufuncs; `v` is the weight of the member -/
def intStep (obs x v : XF) (s : Gufunc.IntSt) : Option Gufunc.IntSt :=
  if x.isnan then none
  else
    let s' : Gufunc.IntSt :=
      if s.obsCdf = false ∧ obs < x then
        { s with
          integral := s.integral + (obs - s.prev) * s.fcCdf ^ 2
            + (x - obs) * (s.fcCdf - 1) ^ 2
          obsCdf := true }
      else
        { s with
          integral := s.integral + (s.fcCdf - s.obsCdfX) ^ 2 * (x - s.prev) }
    some { s' with
      fcCdf := s'.fcCdf + v
      prev := x
      forecast := x }

theorem intLoop_passed (y c p I : ℝ) (f : XF) (l : List (ℝ × ℝ)) :
    ∃ s, l.foldlM (fun s (q : ℝ × ℝ) => intStep (fin y) (fin q.1) (fin q.2) s)
        (⟨true, fin c, fin p, fin I, f⟩ : Gufunc.IntSt) = some s ∧ s.obsCdf = true ∧
      s.integral = fin (I + int1 c p l) := by
  induction l generalizing c p I f with
  | nil => exact ⟨_, rfl, rfl, by simp [int1]⟩
  | cons q l ih =>
    obtain ⟨s, h1, h2, h3⟩ := ih (c + q.2) q.1 (I + (c - 1) ^ 2 * (q.1 - p)) (fin q.1)
    refine ⟨s, ?_, h2, ?_⟩
    · rw [List.foldlM_cons, ← h1]
      simp [intStep, Gufunc.IntSt.obsCdfX, one_fin, fin_pow]
    · rw [h3, int1, add_assoc]

theorem intLoop_before (y c p I : ℝ) (f : XF) (l : List (ℝ × ℝ)) (hf : l = [] → f = fin p) :
    ∃ s, l.foldlM (fun s (q : ℝ × ℝ) => intStep (fin y) (fin q.1) (fin q.2) s)
        (⟨false, fin c, fin p, fin I, f⟩ : Gufunc.IntSt) = some s ∧
      (if s.obsCdf = false then s.integral + (fin y - s.forecast) else s.integral)
        = fin (I + int0 y c p l) := by
  induction l generalizing c p I f with
  | nil => exact ⟨_, rfl, by simp [int0, hf rfl]⟩
  | cons q l ih =>
    by_cases hy : y < q.1
    · obtain ⟨s, h1, h2, h3⟩ := intLoop_passed y (c + q.2) q.1
        (I + (y - p) * c ^ 2 + (q.1 - y) * (c - 1) ^ 2) (fin q.1) l
      refine ⟨s, ?_, ?_⟩
      · rw [List.foldlM_cons, ← h1]
        simp [intStep, one_fin, fin_pow, hy]
      · rw [h2, h3, int0, if_pos hy]
        simp only [Bool.true_eq_false, if_false, fin.injEq]
        ring
    · obtain ⟨s, h1, h2⟩ := ih (c + q.2) q.1 (I + c ^ 2 * (q.1 - p)) (fin q.1) (fun _ => rfl)
      refine ⟨s, ?_, ?_⟩
      · rw [List.foldlM_cons, ← h1]
        simp [intStep, Gufunc.IntSt.obsCdfX, fin_pow, hy, zero_fin]
      · rw [h2, int0, if_neg hy, add_assoc]

theorem GufuncW.int_fin (y : ℝ) (l : List (ℝ × ℝ)) (hl : l ≠ []) :
    GufuncW.int (fin y) (Xs l) (Ws l) = fin (int0 y 0 0 l) := by
  unfold GufuncW.int
  rw [if_neg (by simp)]
  unfold Xs
  rw [forEnumM_map l (fun p => fin p.1) _ _ (fun q s => intStep (fin y) (fin q.1) (fin q.2) s)]
  · obtain ⟨s, h1, h2⟩ := intLoop_before y 0 0 0 nan l (fun h => absurd h hl)
    rw [show ((⟨false, 0, 0, 0, nan⟩ : Gufunc.IntSt)) = ⟨false, fin 0, fin 0, fin 0, nan⟩ from rfl,
      h1]
    simp only [h2, zero_add]
  · intro i a s h
    have : idx (Ws l) i = fin a.2 := idx_map_of_getElem? _ h
    simp only [this, intStep]

theorem Gufunc.int_fin (y : ℝ) (xs : List ℝ) (hl : xs ≠ []) :
    Gufunc.int (fin y) (xs.map fin) = fin (int0 y 0 0 (uw xs)) := by
  have hM : (xs.length : ℝ) ≠ 0 := by
    simpa using hl
  unfold Gufunc.int
  rw [if_neg (by simp)]
  rw [forEnumM_map xs fin _ _
    (fun x s => intStep (fin y) (fin x) (fin (1 / (xs.length : ℝ))) s)]
  · obtain ⟨s, h1, h2⟩ := intLoop_before y 0 0 0 nan (uw xs) (fun h => absurd h (by simp [uw, hl]))
    rw [uw, List.foldlM_map] at h1
    rw [show ((⟨false, 0, 0, 0, nan⟩ : Gufunc.IntSt)) = ⟨false, fin 0, fin 0, fin 0, nan⟩ from rfl,
      h1]
    simp only [h2, zero_add]
  · intro i a s h
    simp only [intStep, List.length_map, natCast_fin, one_fin, fin_div hM]

/-! ### quantile decomposition -/

/-- (value, weight, running total of the weights) -/
def aug : ℝ → List (ℝ × ℝ) → List (ℝ × ℝ × ℝ)
  | _, [] => []
  | c, p :: l => (p.1, p.2, c + p.2) :: aug (c + p.2) l

theorem aug_val (c : ℝ) (l : List (ℝ × ℝ)) : (aug c l).map (fun t => fin t.1) = Xs l := by
  induction l generalizing c with
  | nil => rfl
  | cons p l ih => simp only [aug, List.map_cons, ih, Xs]

theorem aug_wt (c : ℝ) (l : List (ℝ × ℝ)) : (aug c l).map (fun t => fin t.2.1) = Ws l := by
  induction l generalizing c with
  | nil => rfl
  | cons p l ih => simp only [aug, List.map_cons, ih, Ws]

theorem cums_Ws (c : ℝ) (l : List (ℝ × ℝ)) :
    cums (fin c) (Ws l) = (aug c l).map (fun t => fin t.2.2) := by
  induction l generalizing c with
  | nil => rfl
  | cons p l ih =>
    simp only [Ws, List.map_cons, cums, aug, fin_add] at *
    rw [ih]

theorem cumsum_Ws (l : List (ℝ × ℝ)) : cumsum (Ws l) = (aug 0 l).map (fun t => fin t.2.2) := by
  rw [cumsum_eq, zero_fin, cums_Ws]

theorem aug_mem {c : ℝ} {l : List (ℝ × ℝ)} {t : ℝ × ℝ × ℝ} (h : t ∈ aug c l) :
    (t.1, t.2.1) ∈ l := by
  induction l generalizing c with
  | nil => simp [aug] at h
  | cons p l ih =>
    simp only [aug, List.mem_cons] at h ⊢
    rcases h with rfl | h
    · left; rfl
    · right; exact ih h

theorem qdLoop (y c o s : ℝ) (l : List (ℝ × ℝ)) (h : SortedP l)
    (ho : o = 0 ∨ (o = 1 ∧ ∀ p ∈ l, y < p.1)) :
    ∃ o', (aug c l).foldlM (fun (s : XF × XF) (t : ℝ × ℝ × ℝ) =>
        if (fin t.1).isnan then none
        else
          let obsCdf := if fin y < fin t.1 then 1 else s.1
          some (obsCdf, s.2 + fin t.2.1 * (obsCdf - fin (t.2.2 - t.2.1 / 2)) * (fin t.1 - fin y)))
        ((fin o, fin s) : XF × XF) = some (o', fin (s + qdSum y c l)) := by
  induction l generalizing c o s with
  | nil => exact ⟨fin o, by simp [aug, qdSum]⟩
  | cons p l ih =>
    have hh := List.pairwise_cons.1 h
    by_cases hy : y < p.1
    · obtain ⟨o', h'⟩ := ih (c + p.2) 1 (s + p.2 * (1 - (c + p.2 / 2)) * (p.1 - y)) hh.2
        (Or.inr ⟨rfl, fun q hq => lt_of_lt_of_le hy (hh.1 q hq)⟩)
      refine ⟨o', ?_⟩
      simp only [aug, List.foldlM_cons, qdSum, if_pos hy]
      rw [← add_assoc, ← h']
      simp [hy, one_fin]
      congr 4
      ring
    · have : o = 0 := by
        rcases ho with h | h
        · exact h
        · exact absurd (h.2 p (by simp)) hy
      subst this
      obtain ⟨o', h'⟩ := ih (c + p.2) 0 (s + p.2 * (0 - (c + p.2 / 2)) * (p.1 - y)) hh.2
        (Or.inl rfl)
      refine ⟨o', ?_⟩
      simp only [aug, List.foldlM_cons, qdSum, if_neg hy]
      rw [← add_assoc, ← h']
      simp [hy]
      congr 4
      ring

theorem GufuncW.qd_fin (y : ℝ) (l : List (ℝ × ℝ)) (h : SortedP l) :
    GufuncW.qd (fin y) (Xs l) (Ws l) = fin (2 * qdSum y 0 l) := by
  unfold GufuncW.qd
  rw [if_neg (by simp)]
  have ea : zip2 (fun c v => c - v / 2) (cumsum (Ws l)) (Ws l)
      = (aug 0 l).map fun t => fin (t.2.2 - t.2.1 / 2) := by
    rw [cumsum_Ws]
    conv_lhs => rw [← aug_wt 0 l]
    rw [zip2_map]
    apply List.map_congr_left
    intro t _
    rw [two_fin, fin_div (by norm_num), fin_sub]
  simp only [ea]
  rw [← aug_val 0 l]
  rw [forEnumM_map (aug 0 l) (fun t => fin t.1) _ _ (fun t s =>
    if (fin t.1).isnan then none
        else
          let obsCdf := if fin y < fin t.1 then 1 else s.1
          some (obsCdf, s.2 + fin t.2.1 * (obsCdf - fin (t.2.2 - t.2.1 / 2)) * (fin t.1 - fin y)))]
  · obtain ⟨o', h'⟩ := qdLoop y 0 0 0 l h (Or.inl rfl)
    rw [show ((0, 0) : XF × XF) = (fin 0, fin 0) from rfl, h']
    simp only [two_fin, zero_add, fin_mul]
  · intro i t s ht
    have e1 : idx (Ws l) i = fin t.2.1 := by
      rw [← aug_wt 0 l]; exact idx_map_of_getElem? _ ht
    simp only [e1, idx_map_of_getElem? (fun t : ℝ × ℝ × ℝ => fin (t.2.2 - t.2.1 / 2)) ht]

/-! ### probability weighted moments -/

theorem pwm_aug (c : ℝ) (l : List (ℝ × ℝ)) :
    ((aug c l).map fun t => t.1 * t.2.1 * (t.2.2 - t.2.1)).sum = pwmSum c l := by
  induction l generalizing c with
  | nil => rfl
  | cons p l ih => simp only [aug, List.map_cons, List.sum_cons, ih, pwmSum]; ring

theorem aug_sum (F : ℝ → ℝ → ℝ) (c : ℝ) (l : List (ℝ × ℝ)) :
    ((aug c l).map fun t => F t.1 t.2.1).sum = (l.map fun p => F p.1 p.2).sum := by
  induction l generalizing c with
  | nil => rfl
  | cons p l ih => simp only [aug, List.map_cons, List.sum_cons, ih]

theorem GufuncW.pwm_fin (y : ℝ) (l : List (ℝ × ℝ)) :
    GufuncW.pwm (fin y) (Xs l) (Ws l)
      = fin (wabs y l + wmean l) - fin (2 * pwmSum 0 l) / fin (1 - wsq l) := by
  unfold GufuncW.pwm
  rw [if_neg (by simp)]
  rw [← aug_val 0 l]
  simp only
  rw [forEnum_map (aug 0 l) (fun t => fin t.1) _ _ (fun t s =>
    (s.1 + fin (|t.1 - y| * t.2.1), s.2.1 + fin (t.1 * t.2.1),
      s.2.2 + fin (t.1 * t.2.1 * (t.2.2 - t.2.1))))]
  · rw [foldl_triple_eq, sum_sq_Ws]
    simp only [sum_map_fin', pwm_aug, aug_sum (fun x w => |x - y| * w), aug_sum (fun x w => x * w),
      zero_add, fin_add, one_fin, two_fin, fin_mul, fin_sub]
    rfl
  · intro i t s ht
    have e1 : idx (Ws l) i = fin t.2.1 := by
      rw [← aug_wt 0 l]; exact idx_map_of_getElem? _ ht
    have e2 : idx (cumsum (Ws l)) i = fin t.2.2 := by
      rw [cumsum_Ws]; exact idx_map_of_getElem? _ ht
    simp only [e1, e2, fin_sub, fin_mul, fin_abs]

/-! ## numpy-style, weighted -/

theorem Xs_zip_Ws (l : List (ℝ × ℝ)) :
    (Xs l).zip (Ws l) = l.map fun p => ((fin p.1, fin p.2) : XF × XF) := by
  induction l with
  | nil => rfl
  | cons p l ih => simpa [Xs, Ws] using ih

theorem ApproxW.e1_fin (y : ℝ) (l : List (ℝ × ℝ)) :
    ApproxW.e1 (fin y) (Xs l) (Ws l) = fin (wabs y l) := by
  unfold ApproxW.e1 Xs Ws
  rw [zip2_map]
  simp only [fin_sub, fin_abs, fin_mul, sum_map_fin', wabs, abs_sub_comm]

theorem ApproxW.pairSum_fin (l : List (ℝ × ℝ)) :
    ApproxW.pairSum (Xs l) (Ws l) = fin (wpair l) := by
  unfold ApproxW.pairSum
  simp only [Xs_zip_Ws, List.map_map, Function.comp_def, fin_sub, fin_abs, fin_mul, sum_map_fin',
    wpair, pairsAll]

theorem zip2_Ws_sq (l : List (ℝ × ℝ)) : (zip2 (· * ·) (Ws l) (Ws l)).sum = fin (wsq l) := by
  unfold Ws
  rw [zip2_map]
  simp only [fin_mul, sum_map_fin', wsq, pow_two]

theorem half_fin : half = fin (1 / 2) := rfl

theorem ApproxW.nrg_fin (y : ℝ) (l : List (ℝ × ℝ)) :
    ApproxW.nrg (fin y) (Xs l) (Ws l) = fin (energy y l) := by
  unfold ApproxW.nrg
  rw [ApproxW.e1_fin, ApproxW.pairSum_fin, half_fin, fin_mul, fin_sub, energy]
  congr 1; ring

theorem ApproxW.fair_fin (y : ℝ) (l : List (ℝ × ℝ)) (h : 1 - wsq l ≠ 0) :
    ApproxW.fair (fin y) (Xs l) (Ws l) = fin (wabs y l - wpair l / 2 / (1 - wsq l)) := by
  unfold ApproxW.fair
  simp only [ApproxW.e1_fin, ApproxW.pairSum_fin, half_fin, zip2_Ws_sq, one_fin, fin_sub, fin_div h,
    fin_mul]
  congr 1; ring

theorem ApproxW.pwm_fin (y : ℝ) (l : List (ℝ × ℝ)) :
    ApproxW.pwm (fin y) (Xs l) (Ws l)
      = fin (wabs y l + wmean l) - fin 2 * (fin (pwmSum 0 l) / fin (1 - wsq l)) := by
  unfold ApproxW.pwm
  have e : (zip2 (· * ·) (zip2 (· * ·) (Xs l) (Ws l)) (zip2 (· - ·) (cumsum (Ws l)) (Ws l))).sum
      = fin (pwmSum 0 l) := by
    rw [cumsum_Ws]
    conv_lhs => rw [← aug_wt 0 l, ← aug_val 0 l]
    simp only [zip2_map, fin_mul, fin_sub, sum_map_fin', pwm_aug]
  have e' : (zip2 (· * ·) (Xs l) (Ws l)).sum = fin (wmean l) := by
    unfold Xs Ws
    simp only [zip2_map, fin_mul, sum_map_fin', wmean]
  simp only [ApproxW.e1_fin, e, e', zip2_Ws_sq, one_fin, two_fin, fin_sub, fin_add]

theorem qdSum_aug (y c : ℝ) (l : List (ℝ × ℝ)) :
    ((aug c l).map fun t => t.2.1 * ((if y < t.1 then 1 else 0) - (t.2.2 - t.2.1 / 2)) * (t.1 - y)).sum
      = qdSum y c l := by
  induction l generalizing c with
  | nil => rfl
  | cons p l ih =>
    simp only [aug, List.map_cons, List.sum_cons, ih, qdSum]
    congr 3
    ring

theorem ApproxW.qd_fin (y : ℝ) (l : List (ℝ × ℝ)) :
    ApproxW.qd (fin y) (Xs l) (Ws l) = fin (2 * qdSum y 0 l) := by
  unfold ApproxW.qd
  rw [cumsum_Ws]
  conv_lhs => rw [← aug_wt 0 l, ← aug_val 0 l]
  simp only [zip2_map, List.map_map, Function.comp_def, fin_sub, fin_mul, half_fin, one_fin]
  rw [← qdSum_aug, two_fin, ← fin_mul]
  congr 1
  rw [← sum_map_fin']
  congr 1
  apply List.map_congr_left
  intro t _
  by_cases h : y < t.1
  · have h' : (0 : XF) < fin (t.1 - y) := by rw [zero_fin]; simpa using h
    rw [if_pos h', if_pos h]
    simp only [fin_mul]
    congr 1; ring
  · have h' : ¬ (0 : XF) < fin (t.1 - y) := by rw [zero_fin]; simpa using h
    rw [if_neg h', if_neg h]
    simp only [fin_neg, fin_mul]
    congr 1; ring

end Verif
