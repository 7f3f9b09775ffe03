import Verif.Lemmas.Loops
import Mathlib.Tactic.FieldSimp

/-! Real-number identities between the representations of the CRPS of a weighted ensemble. -/

noncomputable section

open scoped Classical

namespace Verif

/-- total weight -/
def wtot (l : List (ℝ × ℝ)) : ℝ := (l.map Prod.snd).sum
/-- weighted mean -/
def wmean (l : List (ℝ × ℝ)) : ℝ := (l.map fun p => p.1 * p.2).sum
/-- weighted mean absolute deviation from `y` -/
def wabs (y : ℝ) (l : List (ℝ × ℝ)) : ℝ := (l.map fun p => |p.1 - y| * p.2).sum
/-- weighted sum of absolute differences over ordered pairs -/
def wpair (l : List (ℝ × ℝ)) : ℝ := pairsAll (fun p q => |p.1 - q.1| * p.2 * q.2) l
/-- energy form of the CRPS for weights summing to one -/
def energy (y : ℝ) (l : List (ℝ × ℝ)) : ℝ := wabs y l - wpair l / 2

/-- `Σ x_i w_i (c + w_1 + ... + w_i - w_i / 2)` -/
def rankSum : ℝ → List (ℝ × ℝ) → ℝ
  | _, [] => 0
  | c, p :: l => p.1 * p.2 * (c + p.2 / 2) + rankSum (c + p.2) l

theorem rankSum_shift (c d : ℝ) (l : List (ℝ × ℝ)) :
    rankSum (c + d) l = d * wmean l + rankSum c l := by
  induction l generalizing c with
  | nil => simp [rankSum, wmean]
  | cons p l ih =>
    have : c + d + p.2 = (c + p.2) + d := by ring
    simp only [rankSum, this, ih, wmean, List.map_cons, List.sum_cons]
    ring

/-- sorted by value -/
def SortedP (l : List (ℝ × ℝ)) : Prop := l.Pairwise fun p q => p.1 ≤ q.1

theorem wpair_cons (p : ℝ × ℝ) (l : List (ℝ × ℝ)) :
    wpair (p :: l) = 2 * ((l.map fun q => |p.1 - q.1| * p.2 * q.2).sum) + wpair l := by
  unfold wpair
  rw [pairsAll_cons]
  have : (l.map fun b : ℝ × ℝ => |b.1 - p.1| * b.2 * p.2)
      = l.map fun q => |p.1 - q.1| * p.2 * q.2 := by
    apply List.map_congr_left; intro q _; rw [abs_sub_comm]; ring
  simp only [this, sub_self, abs_zero]
  ring

theorem sum_abs_head {p : ℝ × ℝ} {l : List (ℝ × ℝ)} (h : ∀ q ∈ l, p.1 ≤ q.1) :
    (l.map fun q => |p.1 - q.1| * p.2 * q.2).sum = p.2 * (wmean l - p.1 * wtot l) := by
  induction l with
  | nil => simp [wmean, wtot]
  | cons q l ih =>
    have h1 : |p.1 - q.1| = q.1 - p.1 := by
      rw [abs_sub_comm, abs_of_nonneg]; linarith [h q (by simp)]
    have := ih (fun r hr => h r (by simp [hr]))
    simp only [List.map_cons, List.sum_cons, this, h1, wmean, wtot]
    ring

theorem wpair_sorted {l : List (ℝ × ℝ)} (h : SortedP l) :
    wpair l = 4 * rankSum 0 l - 2 * wtot l * wmean l := by
  induction l with
  | nil => simp [wpair, pairsAll, rankSum, wtot, wmean]
  | cons p l ih =>
    have hh := List.pairwise_cons.1 h
    rw [wpair_cons, sum_abs_head hh.1, ih hh.2]
    have e : rankSum (0 + p.2) l = p.2 * wmean l + rankSum 0 l := rankSum_shift 0 p.2 l
    simp only [rankSum, e, wmean, wtot, List.map_cons, List.sum_cons]
    ring

/-! ### permutations -/

theorem wtot_perm {l l' : List (ℝ × ℝ)} (p : l.Perm l') : wtot l = wtot l' := (p.map _).sum_eq
theorem wmean_perm {l l' : List (ℝ × ℝ)} (p : l.Perm l') : wmean l = wmean l' := (p.map _).sum_eq
theorem wabs_perm (y : ℝ) {l l' : List (ℝ × ℝ)} (p : l.Perm l') : wabs y l = wabs y l' :=
  (p.map _).sum_eq
theorem wpair_perm {l l' : List (ℝ × ℝ)} (p : l.Perm l') : wpair l = wpair l' := pairsAll_perm _ p
theorem energy_perm (y : ℝ) {l l' : List (ℝ × ℝ)} (p : l.Perm l') : energy y l = energy y l' := by
  rw [energy, energy, wabs_perm y p, wpair_perm p]

/-! ### quantile decomposition -/

/-- `Σ w_i (1{y < x_i} - (c + W_i - w_i/2)) (x_i - y)` -/
def qdSum (y : ℝ) : ℝ → List (ℝ × ℝ) → ℝ
  | _, [] => 0
  | c, p :: l => p.2 * ((if y < p.1 then 1 else 0) - (c + p.2 / 2)) * (p.1 - y)
      + qdSum y (c + p.2) l

theorem qdSum_eq (y c : ℝ) (l : List (ℝ × ℝ)) :
    qdSum y c l = (wabs y l + wmean l - y * wtot l) / 2 - rankSum c l
      + y * (c * wtot l + wtot l ^ 2 / 2) := by
  induction l generalizing c with
  | nil => simp [qdSum, wabs, wmean, wtot, rankSum]
  | cons p l ih =>
    have : p.2 * (if y < p.1 then (1 : ℝ) else 0) * (p.1 - y)
        = (|p.1 - y| * p.2 + p.1 * p.2 - y * p.2) / 2 := by
      split_ifs with h
      · rw [abs_of_pos (by linarith)]; ring
      · rw [abs_of_nonpos (by linarith)]; ring
    simp only [qdSum, ih, wabs, wmean, wtot, rankSum, List.map_cons, List.sum_cons]
    simp only [wabs, wmean, wtot] at *
    linear_combination this

theorem qdSum_energy (y : ℝ) {l : List (ℝ × ℝ)} (h : SortedP l) (hw : wtot l = 1) :
    2 * qdSum y 0 l = energy y l := by
  rw [qdSum_eq, energy, wpair_sorted h, hw]; ring

/-! ### probability weighted moments -/

/-- `Σ x_i w_i (c + w_1 + ... + w_{i-1})` -/
def pwmSum : ℝ → List (ℝ × ℝ) → ℝ
  | _, [] => 0
  | c, p :: l => p.1 * p.2 * c + pwmSum (c + p.2) l

theorem pwmSum_eq (c : ℝ) (l : List (ℝ × ℝ)) :
    pwmSum c l = rankSum c l - (l.map fun p => p.1 * p.2 ^ 2).sum / 2 := by
  induction l generalizing c with
  | nil => simp [pwmSum, rankSum]
  | cons p l ih => simp only [pwmSum, ih, rankSum, List.map_cons, List.sum_cons]; ring

theorem pwmSum_sorted {l : List (ℝ × ℝ)} (h : SortedP l) :
    pwmSum 0 l = (wpair l + 2 * wtot l * wmean l) / 4 - (l.map fun p => p.1 * p.2 ^ 2).sum / 2 := by
  rw [pwmSum_eq, wpair_sorted h]; ring

/-! ### integral form -/

/-- contribution of the pair `a, b` to the integral -/
def crossK (y a b : ℝ) : ℝ := (|a - y| + |b - y| - |a - b|) / 2

/-- remaining loop of the integral kernels after the observation has been passed -/
def int1 : ℝ → ℝ → List (ℝ × ℝ) → ℝ
  | _, _, [] => 0
  | c, p, q :: l => (c - 1) ^ 2 * (q.1 - p) + int1 (c + q.2) q.1 l

/-- remaining loop of the integral kernels before the observation has been passed; `c` is the
accumulated weight and `p` the previous member -/
def int0 (y : ℝ) : ℝ → ℝ → List (ℝ × ℝ) → ℝ
  | _, p, [] => y - p
  | c, p, q :: l =>
    if y < q.1 then (y - p) * c ^ 2 + (q.1 - y) * (c - 1) ^ 2 + int1 (c + q.2) q.1 l
    else c ^ 2 * (q.1 - p) + int0 y (c + q.2) q.1 l

/-- weighted sum of crossK over ordered pairs -/
def crossSum (y : ℝ) (l : List (ℝ × ℝ)) : ℝ :=
  pairsAll (fun p q => crossK y p.1 q.1 * p.2 * q.2) l

theorem crossK_comm (y a b : ℝ) : crossK y a b = crossK y b a := by
  unfold crossK; rw [abs_sub_comm a b]; ring

theorem crossSum_cons (y : ℝ) (p : ℝ × ℝ) (l : List (ℝ × ℝ)) :
    crossSum y (p :: l) = |p.1 - y| * p.2 ^ 2
      + 2 * p.2 * ((l.map fun q => crossK y p.1 q.1 * q.2).sum) + crossSum y l := by
  unfold crossSum
  rw [pairsAll_cons]
  have h1 : (l.map fun b : ℝ × ℝ => crossK y b.1 p.1 * b.2 * p.2)
      = l.map fun q => p.2 * (crossK y p.1 q.1 * q.2) := by
    apply List.map_congr_left; intro q _; rw [crossK_comm]; ring
  have h2 : (l.map fun b : ℝ × ℝ => crossK y p.1 b.1 * p.2 * b.2)
      = l.map fun q => p.2 * (crossK y p.1 q.1 * q.2) := by
    apply List.map_congr_left; intro q _; ring
  simp only [h1, h2, sum_map_mul_left']
  have : crossK y p.1 p.1 = |p.1 - y| := by unfold crossK; simp
  rw [this]; ring

theorem crossSum_energy (y : ℝ) {l : List (ℝ × ℝ)} (hw : wtot l = 1) :
    crossSum y l = energy y l := by
  have : crossSum y l = pairsAll (fun p q => (1/2) * (|p.1 - y| * p.2 * q.2)
      + ((1/2) * (p.2 * (|q.1 - y| * q.2)) + (-1/2) * (|p.1 - q.1| * p.2 * q.2))) l := by
    apply pairsAll_congr
    intro p _ q _
    unfold crossK; ring
  rw [this, pairsAll_add, pairsAll_add, pairsAll_mul_left, pairsAll_mul_left, pairsAll_mul_left,
    pairsAll_prod (fun p : ℝ × ℝ => |p.1 - y| * p.2) (fun q => q.2),
    pairsAll_prod (fun p : ℝ × ℝ => p.2) (fun q => |q.1 - y| * q.2)]
  have hw' : (l.map fun q => q.2).sum = 1 := hw
  rw [hw']
  simp only [energy, wabs, wpair]; ring

/-- after passing the observation -/
theorem int1_eq (y c p : ℝ) (l : List (ℝ × ℝ)) (h : SortedP l) (hp : ∀ q ∈ l, p ≤ q.1)
    (hy : y ≤ p) (hc : c + wtot l = 1) :
    int1 c p l = crossSum y l - (p - y) * (1 - c) ^ 2 := by
  induction l generalizing c p with
  | nil =>
    have : c = 1 := by simpa [wtot] using hc
    simp [int1, crossSum, pairsAll, this]
  | cons q l ih =>
    have hh := List.pairwise_cons.1 h
    have hq : p ≤ q.1 := hp q (by simp)
    have hc' : c + q.2 + wtot l = 1 := by
      simp only [wtot, List.map_cons, List.sum_cons] at hc ⊢; linarith
    rw [int1, ih (c + q.2) q.1 hh.2 hh.1 (by linarith) hc', crossSum_cons]
    have e1 : |q.1 - y| = q.1 - y := abs_of_nonneg (by linarith)
    have e2 : (l.map fun r => crossK y q.1 r.1 * r.2).sum = (q.1 - y) * wtot l := by
      unfold wtot
      rw [← sum_map_mul_left']
      apply sum_map_congr
      intro r hr
      have hr' := hh.1 r hr
      unfold crossK
      rw [e1, abs_of_nonneg (by linarith : 0 ≤ r.1 - y), abs_sub_comm,
        abs_of_nonneg (by linarith : 0 ≤ r.1 - q.1)]
      ring
    rw [e1, e2]
    have : wtot l = 1 - c - q.2 := by linarith
    rw [this]; ring

/-- positive part of `y - x`, weighted -/
def wneg (y : ℝ) (l : List (ℝ × ℝ)) : ℝ := (l.map fun p => max (y - p.1) 0 * p.2).sum

theorem int0_eq (y c p : ℝ) (l : List (ℝ × ℝ)) (h : SortedP l) (hc : c + wtot l = 1) :
    int0 y c p l = crossSum y l + 2 * c * wneg y l + c ^ 2 * (y - p) := by
  induction l generalizing c p with
  | nil =>
    have : c = 1 := by simpa [wtot] using hc
    simp [int0, crossSum, pairsAll, wneg, this]
  | cons q l ih =>
    have hh := List.pairwise_cons.1 h
    have hc' : c + q.2 + wtot l = 1 := by
      simp only [wtot, List.map_cons, List.sum_cons] at hc ⊢; linarith
    have hw : wtot l = 1 - c - q.2 := by linarith
    rw [int0]
    split_ifs with hy
    · rw [int1_eq y (c + q.2) q.1 l hh.2 hh.1 hy.le hc', crossSum_cons]
      have e1 : |q.1 - y| = q.1 - y := abs_of_nonneg (by linarith)
      have e2 : (l.map fun r => crossK y q.1 r.1 * r.2).sum = (q.1 - y) * wtot l := by
        unfold wtot
        rw [← sum_map_mul_left']
        apply sum_map_congr
        intro r hr
        have hr' := hh.1 r hr
        unfold crossK
        rw [e1, abs_of_nonneg (by linarith : 0 ≤ r.1 - y), abs_sub_comm,
          abs_of_nonneg (by linarith : 0 ≤ r.1 - q.1)]
        ring
      have e3 : wneg y (q :: l) = 0 := by
        unfold wneg
        apply List.sum_eq_zero
        intro x hx
        simp only [List.mem_map] at hx
        obtain ⟨r, hr, rfl⟩ := hx
        have : y ≤ r.1 := by
          rcases List.mem_cons.1 hr with rfl | hr
          · exact hy.le
          · linarith [hh.1 r hr]
        rw [max_eq_right (by linarith)]; ring
      rw [e1, e2, e3, hw]; ring
    · push Not at hy
      rw [ih (c + q.2) q.1 hh.2 hc', crossSum_cons]
      have e1 : |q.1 - y| = y - q.1 := by rw [abs_of_nonpos (by linarith)]; ring
      have e2 : (l.map fun r => crossK y q.1 r.1 * r.2).sum = wneg y l := by
        unfold wneg
        apply sum_map_congr
        intro r hr
        have hr' := hh.1 r hr
        unfold crossK
        rw [e1, abs_sub_comm q.1 r.1, abs_of_nonneg (by linarith : 0 ≤ r.1 - q.1)]
        rcases le_total y r.1 with h | h
        · rw [abs_of_nonneg (by linarith : 0 ≤ r.1 - y), max_eq_right (by linarith)]; ring
        · rw [abs_of_nonpos (by linarith : r.1 - y ≤ 0), max_eq_left (by linarith)]; ring
      have e3 : wneg y (q :: l) = (y - q.1) * q.2 + wneg y l := by
        simp only [wneg, List.map_cons, List.sum_cons]
        rw [max_eq_left (by linarith)]
      rw [e1, e2, e3]; ring

theorem int0_energy (y p : ℝ) {l : List (ℝ × ℝ)} (h : SortedP l) (hw : wtot l = 1) :
    int0 y 0 p l = energy y l := by
  rw [int0_eq y 0 p l h (by linarith), crossSum_energy y hw]; ring

end Verif
