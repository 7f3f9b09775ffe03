import Verif.Lemmas.CrpsInt

/-! Unweighted CRPS kernels on finite inputs. -/

noncomputable section

open scoped Classical

namespace Verif

open XF Py

/-- `Σ |x - y|` -/
def sabs (y : ℝ) (xs : List ℝ) : ℝ := (xs.map fun x => |x - y|).sum
/-- `Σ Σ |x - x'|` -/
def spair (xs : List ℝ) : ℝ := pairsAll (fun a b => |a - b|) xs

theorem uw_ne {xs : List ℝ} (h : xs ≠ []) : uw xs ≠ [] := by simpa [uw] using h

theorem len_ne {xs : List ℝ} (h : xs ≠ []) : (xs.length : ℝ) ≠ 0 := by simpa using h

theorem wabs_uw (y : ℝ) (xs : List ℝ) : wabs y (uw xs) = sabs y xs / xs.length := by
  unfold wabs uw sabs
  rw [List.map_map]
  simp only [Function.comp_def, mul_one_div, sum_map_div']

theorem wmean_uw (xs : List ℝ) : wmean (uw xs) = xs.sum / xs.length := by
  unfold wmean uw
  rw [List.map_map]
  simp only [Function.comp_def, mul_one_div, sum_map_div', List.map_id']

theorem wpair_uw (xs : List ℝ) : wpair (uw xs) = spair xs / (xs.length : ℝ) ^ 2 := by
  unfold wpair uw spair
  rw [pairsAll_map]
  have : pairsAll (fun a b : ℝ => |a - b| * (1 / (xs.length : ℝ)) * (1 / (xs.length : ℝ))) xs
      = pairsAll (fun a b => (1 / (xs.length : ℝ) ^ 2) * |a - b|) xs := by
    apply pairsAll_congr
    intro a _ b _
    ring
  rw [this, pairsAll_mul_left]; ring

theorem wtot_uw {xs : List ℝ} (h : xs ≠ []) : wtot (uw xs) = 1 := by
  unfold wtot uw
  rw [List.map_map]
  simp only [Function.comp_def, sum_map_const']
  field_simp [len_ne h]

theorem wsq_uw {xs : List ℝ} (h : xs ≠ []) : wsq (uw xs) = 1 / xs.length := by
  unfold wsq uw
  rw [List.map_map]
  simp only [Function.comp_def, sum_map_const']
  have := len_ne h
  field_simp

theorem sortedP_uw {xs : List ℝ} (h : xs.Pairwise (· ≤ ·)) : SortedP (uw xs) := by
  unfold SortedP uw
  rw [List.pairwise_map]
  exact h

theorem Xs_uw (xs : List ℝ) : Xs (uw xs) = xs.map fin := by
  simp [Xs, uw, Function.comp_def]

theorem Ws_uw (xs : List ℝ) : Ws (uw xs) = xs.map fun _ => fin (1 / (xs.length : ℝ)) := by
  simp only [Ws, uw, List.map_map, Function.comp_def]

/-! ### energy form and fair -/

theorem pairsUp_spair (xs : List ℝ) :
    pairsUp (fun a b : ℝ => 2 * |b - a|) xs = spair xs := by
  have h := pairsAll_eq (fun a b : ℝ => 2 * |b - a|) (fun a b => by rw [abs_sub_comm]) xs
  have e : pairsAll (fun a b : ℝ => 2 * |b - a|) xs = 2 * spair xs := by
    unfold spair; rw [← pairsAll_mul_left]; apply pairsAll_congr; intro a _ b _
    rw [abs_sub_comm]
  rw [e] at h
  have z : (xs.map fun a : ℝ => 2 * |a - a|).sum = 0 := by simp
  rw [z] at h
  linarith

theorem Gufunc.loop_fin (y : ℝ) (xs : List ℝ) :
    forRange 0 (xs.map fin).length ((0, 0) : XF × XF) (fun i e =>
      (e.1 + XF.abs (idx (xs.map fin) i - fin y),
       forRange (i + 1) (xs.map fin).length e.2 fun j e2 =>
        e2 + 2 * XF.abs (idx (xs.map fin) j - idx (xs.map fin) i)))
      = (fin (sabs y xs), fin (spair xs)) := by
  have := forRange_pairs xs
    (fun o => XF.abs (o.elim nan fin - fin y))
    (fun o o' => 2 * XF.abs (o'.elim nan fin - o.elim nan fin))
  rw [List.length_map]
  simp only [idx_map]
  rw [this]
  simp only [Option.elim, fin_sub, fin_abs, fin_mul, sum_map_fin', pairsUp_fin, two_fin,
    pairsUp_spair, sabs]

theorem Gufunc.nrg_fin (y : ℝ) (xs : List ℝ) (h : xs ≠ []) :
    Gufunc.nrg (fin y) (xs.map fin) = fin (energy y (uw xs)) := by
  have hM := len_ne h
  unfold Gufunc.nrg
  rw [if_neg (by simp)]
  simp only [Gufunc.loop_fin]
  simp only [List.length_map, natCast_fin, half_fin, fin_mul]
  rw [fin_div hM, fin_div (by push_cast; positivity), fin_sub, energy, wabs_uw, wpair_uw]
  congr 1; push_cast; field_simp

theorem Gufunc.fair_eq (y : ℝ) (xs : List ℝ) :
    Gufunc.fair (fin y) (xs.map fin) = fin (sabs y xs) / fin xs.length
      - fin (1 / 2 * spair xs) / fin ((xs.length * (xs.length - 1) : ℕ) : ℝ) := by
  unfold Gufunc.fair
  rw [if_neg (by simp)]
  simp only [Gufunc.loop_fin]
  simp only [List.length_map, natCast_fin, half_fin, fin_mul]

theorem natPred_cast {n : ℕ} (h : 2 ≤ n) : ((n * (n - 1) : ℕ) : ℝ) = (n : ℝ) * ((n : ℝ) - 1) := by
  push_cast [Nat.cast_sub (by omega : 1 ≤ n)]; ring

theorem Gufunc.fair_fin (y : ℝ) (xs : List ℝ) (h : 2 ≤ xs.length) :
    Gufunc.fair (fin y) (xs.map fin)
      = fin (sabs y xs / xs.length - spair xs / (2 * ((xs.length : ℝ) * ((xs.length : ℝ) - 1)))) := by
  have h2 : (2 : ℝ) ≤ xs.length := by exact_mod_cast h
  have a : (xs.length : ℝ) ≠ 0 := by linarith
  have b : (xs.length : ℝ) - 1 ≠ 0 := by linarith
  rw [Gufunc.fair_eq, natPred_cast h, fin_div a, fin_div (mul_ne_zero a b), fin_sub]
  congr 1; field_simp

theorem spair_single (x : ℝ) : spair [x] = 0 := by simp [spair, pairsAll]

theorem Gufunc.fair_one (y x : ℝ) : Gufunc.fair (fin y) ([x].map fin) = nan := by
  rw [Gufunc.fair_eq, spair_single]
  simp [fin_div_zero]

theorem Approx.e1_fin (y : ℝ) (xs : List ℝ) (h : xs ≠ []) :
    Approx.e1 (fin y) (xs.map fin) = fin (sabs y xs / xs.length) := by
  unfold Approx.e1
  simp only [List.map_map, Function.comp_def, fin_sub, fin_abs, sum_map_fin', List.length_map,
    natCast_fin, fin_div (len_ne h), sabs, abs_sub_comm]

theorem sum2_fin (xs : List ℝ) :
    sum2 (fun a b => XF.abs (a - b)) (xs.map fin) = fin (spair xs) := by
  unfold sum2
  simp only [List.map_map, Function.comp_def, fin_sub, fin_abs, sum_map_fin', spair, pairsAll]

theorem Approx.nrg_fin (y : ℝ) (xs : List ℝ) (h : xs ≠ []) :
    Approx.nrg (fin y) (xs.map fin) = fin (energy y (uw xs)) := by
  have hM := len_ne h
  unfold Approx.nrg
  simp only [Approx.e1_fin y xs h, sum2_fin, List.length_map, natCast_fin, half_fin]
  rw [fin_div (by push_cast; positivity), fin_mul, fin_sub, energy, wabs_uw, wpair_uw]
  congr 1; push_cast; field_simp

theorem Approx.fair_fin (y : ℝ) (xs : List ℝ) (h : 2 ≤ xs.length) :
    Approx.fair (fin y) (xs.map fin)
      = fin (sabs y xs / xs.length - spair xs / (2 * ((xs.length : ℝ) * ((xs.length : ℝ) - 1)))) := by
  have h2 : (2 : ℝ) ≤ xs.length := by exact_mod_cast h
  have a : (xs.length : ℝ) ≠ 0 := by linarith
  have b : (xs.length : ℝ) - 1 ≠ 0 := by linarith
  have hne : xs ≠ [] := by intro e; simp [e] at h
  unfold Approx.fair
  simp only [Approx.e1_fin y xs hne, sum2_fin, List.length_map, natCast_fin, half_fin]
  rw [natPred_cast h, fin_div (mul_ne_zero a b), fin_mul, fin_sub]
  congr 1; field_simp

theorem Approx.fair_one (y x : ℝ) : Approx.fair (fin y) ([x].map fin) = nan := by
  unfold Approx.fair
  simp only [sum2_fin, spair_single, natCast_fin]
  simp [fin_div_zero]

/-! ### integral form -/

theorem cumsum_const (xs : List ℝ) (d : ℝ) :
    cumsum (xs.map fun _ => fin d) = (List.range xs.length).map fun i => fin (((i + 1 : ℕ) : ℝ) * d) := by
  unfold cumsum
  rw [List.length_map]
  apply List.map_congr_left
  intro i hi
  rw [← List.map_take, sum_map_fin' (xs.take (i + 1)) (fun _ => d), sum_map_const',
    List.length_take, min_eq_left]
  simpa using hi

theorem Approx.int_eq_w (y : ℝ) (xs : List ℝ) (h : xs ≠ []) :
    Approx.int (fin y) (xs.map fin) = ApproxW.int (fin y) (Xs (uw xs)) (Ws (uw xs)) := by
  have hM := len_ne h
  unfold Approx.int ApproxW.int
  have e1 : mean ((xs.map fin).map fun x => ind (x ≤ fin y) * 1)
      = (zip2 (fun x v => ind (x ≤ fin y) * v) (Xs (uw xs)) (Ws (uw xs))).sum := by
    rw [Xs_uw, Ws_uw, zip2_map]
    have : ∀ x : ℝ, ind (fin x ≤ fin y) = fin (if x ≤ y then 1 else 0) := by
      intro x; by_cases h : x ≤ y <;> simp [h, ind, one_fin, zero_fin]
    unfold mean
    simp only [List.map_map, Function.comp_def, this, one_fin, fin_mul, sum_map_fin', List.length_map,
      natCast_fin, fin_div hM, mul_one, mul_one_div, sum_map_div']
  have e2 : ((List.range (xs.map fin).length).map fun i =>
        0 + ((i + 1 : ℕ) : XF) / (((xs.map fin).length : ℕ) : XF)) = cumsum (Ws (uw xs)) := by
    rw [Ws_uw, cumsum_const, List.length_map]
    apply List.map_congr_left
    intro i _
    rw [natCast_fin, natCast_fin, fin_div hM, zero_add]
    congr 1; ring
  dsimp only
  rw [e1, e2, Xs_uw]

theorem uw_nonneg (xs : List ℝ) : ∀ p ∈ uw xs, 0 ≤ p.2 := by
  intro p hp
  simp only [uw, List.mem_map] at hp
  obtain ⟨x, _, rfl⟩ := hp
  positivity

theorem Approx.int_fin (y : ℝ) (xs : List ℝ) (h : xs ≠ []) (hs : xs.Pairwise (· ≤ ·)) :
    Approx.int (fin y) (xs.map fin) = fin (int0 y 0 0 (uw xs)) := by
  rw [Approx.int_eq_w y xs h, ApproxW.int_fin y _ (sortedP_uw hs) (uw_nonneg xs) (wtot_uw h)]

/-! ### quantile decomposition -/

/-- unweighted quantile decomposition sum, `k` members already processed, `M` members in total -/
def qdU (y M : ℝ) : ℕ → List ℝ → ℝ
  | _, [] => 0
  | k, x :: l => (x - y) * (M * (if y < x then 1 else 0) - (k + 1) + 1 / 2) + qdU y M (k + 1) l

theorem qdU_eq (y M : ℝ) (hM : M ≠ 0) (k : ℕ) (l : List ℝ) :
    qdU y M k l = M ^ 2 * qdSum y (k / M) (l.map fun x => (x, 1 / M)) := by
  induction l generalizing k with
  | nil => simp [qdU, qdSum]
  | cons x l ih =>
    have : (k : ℝ) / M + 1 / M = ((k + 1 : ℕ) : ℝ) / M := by push_cast; ring
    simp only [qdU, List.map_cons, qdSum, ih, this]
    field_simp
    ring

theorem Gufunc.qdLoop (y : ℝ) (M : ℕ) (k : ℕ) (o s : ℝ) (l : List ℝ) (h : l.Pairwise (· ≤ ·))
    (ho : o = 0 ∨ (o = 1 ∧ ∀ x ∈ l, y < x)) :
    ∃ o', ((l.map fin).zipIdx k).foldlM (fun (s : XF × XF) (p : XF × ℕ) =>
        if p.1.isnan then none
        else
          let obsCdf := if fin y < p.1 then 1 else s.1
          some (obsCdf,
            s.2 + (p.1 - fin y) * ((M : XF) * obsCdf - ((p.2 + 1 : ℕ) : XF) + half)))
        ((fin o, fin s) : XF × XF) = some (o', fin (s + qdU y M k l)) := by
  induction l generalizing k o s with
  | nil => exact ⟨fin o, by simp [qdU]⟩
  | cons x l ih =>
    have hh := List.pairwise_cons.1 h
    by_cases hy : y < x
    · obtain ⟨o', h'⟩ := ih (k + 1) 1 (s + (x - y) * (M * 1 - (k + 1) + 1 / 2)) hh.2
        (Or.inr ⟨rfl, fun q hq => lt_of_lt_of_le hy (hh.1 q hq)⟩)
      refine ⟨o', ?_⟩
      simp only [List.map_cons, List.zipIdx_cons, List.foldlM_cons, qdU, if_pos hy]
      rw [← add_assoc, ← h']
      simp [hy, one_fin, natCast_fin, half_fin]
    · have : o = 0 := by
        rcases ho with h | h
        · exact h
        · exact absurd (h.2 x (by simp)) hy
      subst this
      obtain ⟨o', h'⟩ := ih (k + 1) 0 (s + (x - y) * (M * 0 - (k + 1) + 1 / 2)) hh.2 (Or.inl rfl)
      refine ⟨o', ?_⟩
      simp only [List.map_cons, List.zipIdx_cons, List.foldlM_cons, qdU, if_neg hy]
      rw [← add_assoc, ← h']
      simp [hy, natCast_fin, half_fin]

theorem Gufunc.qd_fin (y : ℝ) (xs : List ℝ) (h : xs ≠ []) (hs : xs.Pairwise (· ≤ ·)) :
    Gufunc.qd (fin y) (xs.map fin) = fin (2 * qdSum y 0 (uw xs)) := by
  have hM := len_ne h
  unfold Gufunc.qd
  rw [if_neg (by simp)]
  unfold forEnumM
  obtain ⟨o', h'⟩ := Gufunc.qdLoop y (xs.map fin).length 0 0 0 xs hs (Or.inl rfl)
  rw [show ((0, 0) : XF × XF) = (fin 0, fin 0) from rfl, h']
  simp only [List.length_map, natCast_fin, two_fin, zero_add]
  rw [fin_div (by push_cast; positivity), fin_mul, qdU_eq y _ hM]
  congr 1
  unfold uw
  push_cast
  field_simp
  simp

theorem sum_zip_range (l : List ℝ) (F : XF → XF → XF) (G : ℕ → XF) :
    zip2 F (l.map fin) ((List.range l.length).map G) = l.zipIdx.map fun p => F (fin p.1) (G p.2) := by
  unfold zip2
  apply List.ext_getElem
  · simp
  · intro i h1 h2
    simp at h1 h2
    simp

theorem qdU_zipIdx (y M : ℝ) (k : ℕ) (l : List ℝ) :
    ((l.zipIdx k).map fun p => (p.1 - y) * (M * (if y < p.1 then 1 else 0) - ((p.2 : ℝ) + 1) + 1 / 2)).sum
      = qdU y M k l := by
  induction l generalizing k with
  | nil => rfl
  | cons x l ih => simp only [List.zipIdx_cons, List.map_cons, List.sum_cons, ih, qdU]

theorem Approx.qd_fin (y : ℝ) (xs : List ℝ) (h : xs ≠ []) :
    Approx.qd (fin y) (xs.map fin) = fin (2 * qdSum y 0 (uw xs)) := by
  have hM := len_ne h
  unfold Approx.qd
  simp only [List.length_map]
  rw [sum_zip_range, sum_zip_range, zip2_map]
  have : ∀ p ∈ xs.zipIdx, (ind (fin p.1 ≤ fin y) * (((p.2 + 1 : ℕ) : XF) - half) * (fin y - fin p.1)
      + ind (fin y < fin p.1) * (((xs.length : ℕ) : XF) - (((p.2 + 1 : ℕ) : XF) - half))
          * (fin p.1 - fin y))
      = fin ((p.1 - y) * ((xs.length : ℝ) * (if y < p.1 then 1 else 0) - ((p.2 : ℝ) + 1) + 1 / 2)) := by
    intro p _
    by_cases hy : y < p.1
    · have : ¬ p.1 ≤ y := not_le.2 hy
      simp [hy, this, ind, natCast_fin, half_fin, one_fin, zero_fin]
      ring
    · have : p.1 ≤ y := not_lt.1 hy
      simp [hy, this, ind, natCast_fin, half_fin, one_fin, zero_fin]
      ring
  rw [sum_map_congr this, sum_map_fin', qdU_zipIdx, natCast_fin, fin_div (by push_cast; positivity),
    two_fin, fin_mul, qdU_eq y _ hM]
  congr 1
  unfold uw
  push_cast
  field_simp
  simp

/-! ### probability weighted moments -/

/-- `Σ i x_i` -/
def pwmU : ℕ → List ℝ → ℝ
  | _, [] => 0
  | k, x :: l => x * k + pwmU (k + 1) l

theorem pwmU_zipIdx (k : ℕ) (l : List ℝ) :
    ((l.zipIdx k).map fun p => p.1 * (p.2 : ℝ)).sum = pwmU k l := by
  induction l generalizing k with
  | nil => rfl
  | cons x l ih => simp only [List.zipIdx_cons, List.map_cons, List.sum_cons, ih, pwmU]

theorem pwmU_eq (M : ℝ) (hM : M ≠ 0) (k : ℕ) (l : List ℝ) :
    pwmU k l = M ^ 2 * pwmSum (k / M) (l.map fun x => (x, 1 / M)) := by
  induction l generalizing k with
  | nil => simp [pwmU, pwmSum]
  | cons x l ih =>
    have : (k : ℝ) / M + 1 / M = ((k + 1 : ℕ) : ℝ) / M := by push_cast; ring
    simp only [pwmU, List.map_cons, pwmSum, ih, this]
    field_simp

theorem pwmU_sorted {xs : List ℝ} (h : xs ≠ []) (hs : xs.Pairwise (· ≤ ·)) :
    pwmU 0 xs = spair xs / 4 + ((xs.length : ℝ) - 1) / 2 * xs.sum := by
  have hM := len_ne h
  have e := pwmSum_sorted (sortedP_uw hs)
  rw [pwmU_eq _ hM]
  have e2 : ((uw xs).map fun p => p.1 * p.2 ^ 2).sum = xs.sum / (xs.length : ℝ) ^ 2 := by
    unfold uw
    rw [List.map_map]
    simp only [Function.comp_def, one_div, inv_pow, ← div_eq_mul_inv, sum_map_div', List.map_id']
  rw [e2, wpair_uw, wtot_uw h, wmean_uw] at e
  unfold uw at e
  rw [Nat.cast_zero, zero_div, e]
  field_simp
  ring

theorem Gufunc.pwm_eq (y : ℝ) (xs : List ℝ) :
    Gufunc.pwm (fin y) (xs.map fin) = fin (sabs y xs) / fin xs.length + fin xs.sum / fin xs.length
      - fin (2 * pwmU 0 xs) / fin ((xs.length * (xs.length - 1) : ℕ) : ℝ) := by
  unfold Gufunc.pwm
  rw [if_neg (by simp)]
  unfold forEnum
  rw [foldl_triple_eq (xs.map fin).zipIdx (fun p => XF.abs (p.1 - fin y)) (fun p => p.1)
    (fun p => p.1 * (p.2 : XF))]
  have e1 : (xs.map fin).zipIdx = xs.zipIdx.map (fun p => (fin p.1, p.2)) := by
    rw [List.zipIdx_map]; rfl
  have e2 : (xs.zipIdx.map fun p => |p.1 - y|).sum = sabs y xs := by
    unfold sabs
    conv_rhs => rw [← List.zipIdx_map_fst 0 xs, List.map_map]
    rfl
  have e3 : (xs.zipIdx.map fun p => p.1).sum = xs.sum := by
    conv_rhs => rw [← List.zipIdx_map_fst 0 xs]
  rw [e1]
  simp only [List.map_map, Function.comp_def, fin_sub, fin_abs, natCast_fin, fin_mul, sum_map_fin',
    pwmU_zipIdx, e2, e3, zero_add, two_fin, List.length_map]

theorem Approx.pwm_eq (y : ℝ) (xs : List ℝ) (h : xs ≠ []) :
    Approx.pwm (fin y) (xs.map fin) = fin (sabs y xs / xs.length) + fin (xs.sum / xs.length)
      - fin 2 * (fin (pwmU 0 xs) / fin ((xs.length : ℝ) * ((xs.length : ℝ) - 1))) := by
  unfold Approx.pwm
  simp only [List.length_map, Approx.e1_fin y xs h]
  rw [sum_zip_range]
  simp only [natCast_fin, fin_mul, sum_map_fin', pwmU_zipIdx, two_fin, one_fin, fin_sub,
    sum_map_fin, fin_div (len_ne h)]

theorem pwm_val {y : ℝ} {xs : List ℝ} (h : 2 ≤ xs.length) (hs : xs.Pairwise (· ≤ ·)) :
    sabs y xs / xs.length + xs.sum / xs.length
        - 2 * pwmU 0 xs / ((xs.length : ℝ) * ((xs.length : ℝ) - 1))
      = sabs y xs / xs.length - spair xs / (2 * ((xs.length : ℝ) * ((xs.length : ℝ) - 1))) := by
  have h2 : (2 : ℝ) ≤ xs.length := by exact_mod_cast h
  have a : (xs.length : ℝ) ≠ 0 := by linarith
  have b : (xs.length : ℝ) - 1 ≠ 0 := by linarith
  have hne : xs ≠ [] := by intro e; simp [e] at h
  rw [pwmU_sorted hne hs]
  field_simp
  ring

theorem Gufunc.pwm_fin (y : ℝ) (xs : List ℝ) (h : 2 ≤ xs.length) (hs : xs.Pairwise (· ≤ ·)) :
    Gufunc.pwm (fin y) (xs.map fin)
      = fin (sabs y xs / xs.length - spair xs / (2 * ((xs.length : ℝ) * ((xs.length : ℝ) - 1)))) := by
  have h2 : (2 : ℝ) ≤ xs.length := by exact_mod_cast h
  have a : (xs.length : ℝ) ≠ 0 := by linarith
  have b : (xs.length : ℝ) - 1 ≠ 0 := by linarith
  rw [Gufunc.pwm_eq, natPred_cast h, fin_div a, fin_div a, fin_div (mul_ne_zero a b), fin_add,
    fin_sub, ← pwm_val h hs]

theorem Approx.pwm_fin (y : ℝ) (xs : List ℝ) (h : 2 ≤ xs.length) (hs : xs.Pairwise (· ≤ ·)) :
    Approx.pwm (fin y) (xs.map fin)
      = fin (sabs y xs / xs.length - spair xs / (2 * ((xs.length : ℝ) * ((xs.length : ℝ) - 1)))) := by
  have h2 : (2 : ℝ) ≤ xs.length := by exact_mod_cast h
  have a : (xs.length : ℝ) ≠ 0 := by linarith
  have b : (xs.length : ℝ) - 1 ≠ 0 := by linarith
  have hne : xs ≠ [] := by intro e; simp [e] at h
  rw [Approx.pwm_eq y xs hne, fin_div (mul_ne_zero a b), fin_add, fin_mul, fin_sub, ← pwm_val h hs]
  congr 1; ring

theorem Gufunc.pwm_one (y x : ℝ) : Gufunc.pwm (fin y) ([x].map fin) = nan := by
  rw [Gufunc.pwm_eq]
  simp [pwmU, fin_div_zero]

theorem Approx.pwm_one (y x : ℝ) : Approx.pwm (fin y) ([x].map fin) = nan := by
  rw [Approx.pwm_eq y _ (by simp)]
  simp [pwmU, fin_div_zero]

end Verif
