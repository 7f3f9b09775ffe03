import Verif.Lemmas.CrpsApi

/-! Degenerate weights and the approximate kernel representation estimators. -/

noncomputable section

open scoped Classical

namespace Verif

open XF Py Api

/-! ### all weight on one member -/

theorem wtot_cons (p : ℝ × ℝ) (l : List (ℝ × ℝ)) : wtot (p :: l) = p.2 + wtot l := by simp [wtot]
theorem wsq_cons (p : ℝ × ℝ) (l : List (ℝ × ℝ)) : wsq (p :: l) = p.2 ^ 2 + wsq l := by simp [wsq]

theorem wsq_le {l : List (ℝ × ℝ)} (hw : ∀ p ∈ l, 0 ≤ p.2) : wsq l ≤ wtot l ^ 2 := by
  induction l with
  | nil => simp [wsq, wtot]
  | cons p l ih =>
    rw [wsq_cons, wtot_cons]
    have h1 := ih fun q hq => hw q (List.mem_cons_of_mem _ hq)
    have h2 := hw p List.mem_cons_self
    have h3 : 0 ≤ wtot l := wtot_nonneg fun q hq => hw q (List.mem_cons_of_mem _ hq)
    nlinarith [mul_nonneg h2 h3]

theorem zero_of_wtot {l : List (ℝ × ℝ)} (hw : ∀ p ∈ l, 0 ≤ p.2) (h : wtot l = 0) :
    ∀ p ∈ l, p.2 = 0 := by
  induction l with
  | nil => simp
  | cons p l ih =>
    rw [wtot_cons] at h
    have h2 := hw p List.mem_cons_self
    have h3 : 0 ≤ wtot l := wtot_nonneg fun q hq => hw q (List.mem_cons_of_mem _ hq)
    intro q hq
    rcases List.mem_cons.1 hq with rfl | hq
    · linarith
    · exact ih (fun q hq => hw q (List.mem_cons_of_mem _ hq)) (by linarith) q hq

theorem pwmSum_cons0 (p : ℝ × ℝ) (l : List (ℝ × ℝ)) :
    pwmSum 0 (p :: l) = p.2 * wmean l + pwmSum 0 l := by
  have h : ∀ c, pwmSum c l = c * wmean l + pwmSum 0 l := by
    intro c
    rw [pwmSum_eq, pwmSum_eq]
    have := rankSum_shift 0 c l
    rw [zero_add] at this
    rw [this]; ring
  show p.1 * p.2 * 0 + pwmSum (0 + p.2) l = _
  rw [h (0 + p.2)]; ring

theorem degenerate {l : List (ℝ × ℝ)} (hw : ∀ p ∈ l, 0 ≤ p.2) (h : wsq l = wtot l ^ 2) :
    wpair l = 0 ∧ pwmSum 0 l = 0 := by
  induction l with
  | nil => simp [wpair, pairsAll, pwmSum]
  | cons p l ih =>
    have hw' : ∀ q ∈ l, 0 ≤ q.2 := fun q hq => hw q (List.mem_cons_of_mem _ hq)
    have h2 := hw p List.mem_cons_self
    have h3 : 0 ≤ wtot l := wtot_nonneg hw'
    have h4 := wsq_le hw'
    rw [wsq_cons, wtot_cons] at h
    have h5 := mul_nonneg h2 h3
    have h6 : p.2 * wtot l = 0 := by nlinarith
    obtain ⟨i1, i2⟩ := ih hw' (by nlinarith)
    rw [wpair_cons, pwmSum_cons0, i1, i2]
    rcases mul_eq_zero.1 h6 with h7 | h7
    · simp [h7]
    · have hz := zero_of_wtot hw' h7
      have e1 : (l.map fun q => |p.1 - q.1| * p.2 * q.2).sum = 0 := by
        apply List.sum_eq_zero
        intro v hv
        rw [List.mem_map] at hv
        obtain ⟨q, hq, rfl⟩ := hv
        rw [hz q hq, mul_zero]
      have e2 : wmean l = 0 := by
        unfold wmean
        apply List.sum_eq_zero
        intro v hv
        rw [List.mem_map] at hv
        obtain ⟨q, hq, rfl⟩ := hv
        rw [hz q hq, mul_zero]
      simp [e1, e2]

theorem crps1W_fair_nan (path : Path) (sorted : Bool) (y : ℝ) {l : List (ℝ × ℝ)}
    (hw : ∀ p ∈ l, 0 ≤ p.2) (ht : wtot l ≠ 0) (hq : wsq (norml l) = 1) :
    crps1 path "fair" sorted "propagate" (fin y) (Xs l) (some (Ws l)) = .ok nan := by
  obtain ⟨l', h1, h2, h3, h4⟩ := crps1_some path "fair" sorted (fin y) hw ht
  have ht' : wtot l' = 1 := by rw [wtot_perm h1, wtot_norml ht]
  have hq' : wsq l' = 1 := by rw [wsq_perm h1, hq]
  have hw' : ∀ p ∈ l', 0 ≤ p.2 := fun p hp => norml_nonneg hw p (h1.mem_iff.1 hp)
  rw [h4]
  have hd := (degenerate hw' (by rw [hq', ht']; norm_num)).1
  cases path
  · simp [kernelW, estimatorGufuncsW, Except.map, GufuncW.fair_nan y l' (by rw [hq']; norm_num)]
  · simp only [kernelW, ensembleKernelW]
    simp [Except.map, ApproxW.fair, ApproxW.pairSum_fin, hd, zip2_Ws_sq, hq', one_fin]

theorem crps1W_pwm_nan (path : Path) {sorted : Bool} (y : ℝ) {l : List (ℝ × ℝ)}
    (hw : ∀ p ∈ l, 0 ≤ p.2) (ht : wtot l ≠ 0) (hq : wsq (norml l) = 1) :
    crps1 path "pwm" sorted "propagate" (fin y) (Xs l) (some (Ws l)) = .ok nan := by
  obtain ⟨l', h1, h2, h3, h4⟩ := crps1_some path "pwm" sorted (fin y) hw ht
  have ht' : wtot l' = 1 := by rw [wtot_perm h1, wtot_norml ht]
  have hq' : wsq l' = 1 := by rw [wsq_perm h1, hq]
  have hw' : ∀ p ∈ l', 0 ≤ p.2 := fun p hp => norml_nonneg hw p (h1.mem_iff.1 hp)
  rw [h4]
  have hd := (degenerate hw' (by rw [hq', ht']; norm_num)).2
  cases path
  · simp only [kernelW, estimatorGufuncsW]
    simp [Except.map, GufuncW.pwm_fin, hd, hq']
  · simp only [kernelW, ensembleKernelW]
    simp [Except.map, ApproxW.pwm_fin, hd, hq']

/-! ### akr and akr_circperm on finite data -/

/-- sum of the differences `|x_i - x_{g i}|` -/
def circ (g : ℕ → ℕ) (xs : List ℝ) : ℝ :=
  ((List.range xs.length).map fun i => |xs.getD i 0 - xs.getD (g i) 0|).sum

/-- weighted version of `circ` -/
def circW (g : ℕ → ℕ) (l : List (ℝ × ℝ)) : ℝ :=
  ((List.range l.length).map fun i =>
    |(l.getD i (0, 0)).1 - (l.getD (g i) (0, 0)).1| * (l.getD i (0, 0)).2).sum

/-- index of the preceding member -/
def prevI (M i : ℕ) : ℕ := (if i = 0 then M else i) - 1

theorem prevI_lt {M i : ℕ} (h : i < M) : prevI M i < M := by
  unfold prevI; split_ifs <;> omega

theorem sigma_lt {M i : ℕ} (h : i < M) : Gufunc.sigma M i < M := by
  rw [sigma_eq]; exact Nat.mod_lt _ (by omega)

theorem idx_map_fin (xs : List ℝ) {i : ℕ} (h : i < xs.length) :
    idx (xs.map fin) i = fin (xs.getD i 0) := by
  simp [idx, h]

theorem range_sum_fin (n : ℕ) (f : ℕ → XF) (g : ℕ → ℝ) (h : ∀ i < n, f i = fin (g i)) :
    ((List.range n).map f).sum = fin ((List.range n).map g).sum := by
  rw [← sum_map_fin, List.map_map]
  congr 1
  apply List.map_congr_left
  intro i hi
  exact h i (List.mem_range.1 hi)

theorem range_getD_sum (xs : List ℝ) (f : ℝ → ℝ) :
    ((List.range xs.length).map fun i => f (xs.getD i 0)).sum = (xs.map f).sum := by
  congr 1
  apply List.ext_getElem
  · simp
  · intro j h1 h2
    simp at h1
    simp [h1]

theorem circ_kernel (y : ℝ) (xs : List ℝ) (h : xs ≠ []) (g : ℕ → ℕ)
    (hg : ∀ i < xs.length, g i < xs.length) :
    ((List.range (xs.map fin).length).map fun i => XF.abs (idx (xs.map fin) i - fin y)).sum
        / ((xs.map fin).length : XF)
      - half * 1 / ((xs.map fin).length : XF) * ((List.range (xs.map fin).length).map fun i =>
          XF.abs (idx (xs.map fin) i - idx (xs.map fin) (g i))).sum
      = fin (sabs y xs / xs.length - 1 / 2 * (circ g xs / xs.length)) := by
  rw [List.length_map]
  rw [range_sum_fin _ _ (fun i => |xs.getD i 0 - y|), range_sum_fin _ _
    (fun i => |xs.getD i 0 - xs.getD (g i) 0|)]
  · rw [range_getD_sum xs fun v => |v - y|]
    rw [natCast_fin, half_fin, one_fin]
    simp only [fin_mul, fin_div (len_ne h), fin_sub]
    congr 1
    unfold sabs circ
    ring
  · intro i hi
    rw [idx_map_fin xs hi, idx_map_fin xs (hg i hi)]
    simp
  · intro i hi
    rw [idx_map_fin xs hi]
    simp

theorem Gufunc.akr_fin (y : ℝ) (xs : List ℝ) (h : xs ≠ []) :
    Gufunc.akr (fin y) (xs.map fin)
      = fin (sabs y xs / xs.length - 1 / 2 * (circ (prevI xs.length) xs / xs.length)) := by
  rw [← circ_kernel y xs h _ fun i hi => prevI_lt hi]
  unfold Gufunc.akr
  dsimp only
  rw [forEnum_pair]
  simp only [List.length_map]
  rfl

theorem Gufunc.akrCircperm_fin (y : ℝ) (xs : List ℝ) (h : xs ≠ []) :
    Gufunc.akrCircperm (fin y) (xs.map fin)
      = fin (sabs y xs / xs.length - 1 / 2 * (circ (Gufunc.sigma xs.length) xs / xs.length)) := by
  rw [← circ_kernel y xs h _ fun i hi => sigma_lt hi]
  unfold Gufunc.akrCircperm
  dsimp only
  rw [forEnum_pair]
  simp only [List.length_map]

theorem rangeW_sum (l : List (ℝ × ℝ)) (f : ℝ × ℝ → ℝ) :
    ((List.range l.length).map fun i => f (l.getD i (0, 0))).sum = (l.map f).sum := by
  congr 1
  apply List.ext_getElem
  · simp
  · intro j h1 h2
    simp at h1
    simp [h1]

theorem circW_kernel (y : ℝ) (l : List (ℝ × ℝ)) (g : ℕ → ℕ)
    (hg : ∀ i < l.length, g i < l.length) :
    ((List.range (Xs l).length).map fun i =>
        XF.abs (idx (Xs l) i - fin y) * idx (Ws l) i).sum
      - half * ((List.range (Xs l).length).map fun i =>
          XF.abs (idx (Xs l) i - idx (Xs l) (g i)) * idx (Ws l) i).sum
      = fin (wabs y l - 1 / 2 * circW g l) := by
  rw [Xs_length]
  rw [range_sum_fin _ _ (fun i => |(l.getD i (0, 0)).1 - y| * (l.getD i (0, 0)).2),
    range_sum_fin _ _ (fun i => |(l.getD i (0, 0)).1 - (l.getD (g i) (0, 0)).1| *
      (l.getD i (0, 0)).2)]
  · rw [rangeW_sum l fun p => |p.1 - y| * p.2, half_fin]
    simp only [fin_mul, fin_sub]
    rfl
  · intro i hi
    rw [idx_Xs l hi, idx_Xs l (hg i hi), idx_Ws l hi]
    simp
  · intro i hi
    rw [idx_Xs l hi, idx_Ws l hi]
    simp

theorem GufuncW.akr_fin (y : ℝ) (l : List (ℝ × ℝ)) :
    GufuncW.akr (fin y) (Xs l) (Ws l) = fin (wabs y l - 1 / 2 * circW (prevI l.length) l) := by
  rw [← circW_kernel y l _ fun i hi => prevI_lt hi]
  unfold GufuncW.akr
  dsimp only
  rw [forEnum_pair]
  simp only [Xs_length]
  congr 4
  funext i
  unfold prevI
  by_cases h : i = 0
  · simp [h]
  · simp [h, Nat.pos_of_ne_zero h]

theorem GufuncW.akrCircperm_fin (y : ℝ) (l : List (ℝ × ℝ)) :
    GufuncW.akrCircperm (fin y) (Xs l) (Ws l)
      = fin (wabs y l - 1 / 2 * circW (Gufunc.sigma l.length) l) := by
  rw [← circW_kernel y l _ fun i hi => sigma_lt hi]
  unfold GufuncW.akrCircperm
  dsimp only
  rw [forEnum_pair]
  simp only [Xs_length]

theorem circW_uw (g : ℕ → ℕ) (xs : List ℝ) (hg : ∀ i < xs.length, g i < xs.length) :
    circW g (uw xs) = circ g xs / xs.length := by
  unfold circW circ
  rw [div_eq_mul_inv, ← List.sum_map_mul_right]
  have : (uw xs).length = xs.length := by simp [uw]
  rw [this]
  congr 1
  apply List.map_congr_left
  intro i hi
  have hi := List.mem_range.1 hi
  have h2 := hg i hi
  simp [uw, hi, h2]

end Verif
