import Verif.Model.Band
import Verif.Props.Reliability
import Verif.Props.LogsEns

/-!
# Interpolation between knots and sample quantiles of real data
-/

noncomputable section

open scoped Classical

namespace Verif

open XF Py Api Spec

theorem getD_lt {c : List ℝ} {i : ℕ} (h : i < c.length) : c.getD i 0 = c[i] := by simp [h]

/-! ### Ascending lists -/

theorem getD_mono {c : List ℝ} (h : c.Pairwise (· ≤ ·)) {i j : ℕ} (hij : i ≤ j) (hj : j < c.length) :
    c.getD i 0 ≤ c.getD j 0 := by
  rcases hij.eq_or_lt with rfl | hlt
  · exact le_rfl
  · have := List.pairwise_iff_getElem.1 h i j (by omega) hj hlt
    rwa [getD_lt hj, getD_lt (hlt.trans hj)]

/-- number of knots from the left that are not above `x` -/
def below (xs : List ℝ) (x : ℝ) : ℕ := (xs.takeWhile fun a => decide (a ≤ x)).length

theorem below_le (xs : List ℝ) (x : ℝ) : below xs x ≤ xs.length := by
  unfold below
  exact (List.takeWhile_prefix _).length_le

theorem below_get {xs : List ℝ} {x : ℝ} {i : ℕ} (h : i < below xs x) : xs.getD i 0 ≤ x := by
  induction xs generalizing i with
  | nil => simp [below] at h
  | cons a xs ih =>
    by_cases ha : a ≤ x
    · cases i with
      | zero => simpa using ha
      | succ i =>
        have : i < below xs x := by
          simp only [below, List.takeWhile_cons, ha, decide_true, if_true, List.length_cons] at h ⊢
          omega
        simpa using ih this
    · simp [below, ha] at h

theorem below_next {xs : List ℝ} {x : ℝ} (h : below xs x < xs.length) : x < xs.getD (below xs x) 0 := by
  induction xs with
  | nil => simp at h
  | cons a xs ih =>
    by_cases ha : a ≤ x
    · have e : below (a :: xs) x = below xs x + 1 := by
        simp [below, ha]
      rw [e] at h ⊢
      simpa using ih (by simpa using h)
    · have e : below (a :: xs) x = 0 := by simp [below, ha]
      rw [e]
      simpa using ha

theorem below_mono (xs : List ℝ) {x x' : ℝ} (h : x ≤ x') : below xs x ≤ below xs x' := by
  by_contra hc
  have h1 : below xs x' < below xs x := by omega
  have h2 := below_get h1
  have h3 := below_next (h1.trans_le (below_le xs x))
  linarith

theorem below_pos {xs : List ℝ} {x : ℝ} (hx : xs ≠ []) (h : xs.getD 0 0 ≤ x) : 0 < below xs x := by
  cases xs with
  | nil => exact absurd rfl hx
  | cons a xs =>
    have : a ≤ x := by simpa using h
    simp [below, this]

theorem takeWhile_fin (xs : List ℝ) (x : ℝ) :
    ((xs.map fin).takeWhile fun a => decide (a ≤ fin x)).length = below xs x := by
  unfold below
  rw [List.takeWhile_map]
  simp only [List.length_map, Function.comp_def, fin_le]

/-! ### Interpolation -/

/-- the polygon through the knots `xs` with heights `c` -/
def poly (xs c : List ℝ) (x : ℝ) : ℝ :=
  let j := below xs x - 1
  if j + 1 < xs.length then
    (c.getD (j + 1) 0 - c.getD j 0) / (xs.getD (j + 1) 0 - xs.getD j 0) * (x - xs.getD j 0) + c.getD j 0
  else c.getD j 0

theorem interp1_fin {xs c : List ℝ} (hx : xs ≠ []) (hc : c.length = xs.length) (x : ℝ) :
    Reliability.interp1 (xs.map fin) (c.map fin) (fin x)
      = if xs.getD 0 0 ≤ x ∧ x ≤ xs.getD (xs.length - 1) 0 then fin (poly xs c x) else nan := by
  have hlen : 0 < xs.length := List.length_pos_iff.2 hx
  unfold Reliability.interp1
  rw [if_neg (by simp [XF.isnan])]
  simp only [List.length_map]
  rw [idx_map_fin_lt hlen, idx_map_fin_lt (by omega : xs.length - 1 < xs.length), fin_lt, fin_lt, takeWhile_fin]
  by_cases h : xs.getD 0 0 ≤ x ∧ x ≤ xs.getD (xs.length - 1) 0
  · rw [if_neg (by rw [not_or, not_lt, not_lt]; exact h), if_pos h]
    have hb := below_pos hx h.1
    have hb2 := below_le xs x
    by_cases hj : below xs x - 1 = xs.length - 1
    · rw [if_pos hj, idx_map_fin_lt (by omega), poly]
      rw [if_neg (by omega)]
    · rw [if_neg hj]
      have h1 : below xs x - 1 + 1 < xs.length := by omega
      have h2 := below_get (xs := xs) (x := x) (i := below xs x - 1) (by omega)
      have h3 := below_next (xs := xs) (x := x) (by omega)
      have e : below xs x - 1 + 1 = below xs x := by omega
      have h4 : xs.getD (below xs x - 1 + 1) 0 - xs.getD (below xs x - 1) 0 ≠ 0 := by
        rw [e]; linarith
      rw [idx_map_fin_lt (by omega : below xs x - 1 < xs.length), idx_map_fin_lt (by omega : below xs x - 1 < c.length),
        idx_map_fin_lt h1, idx_map_fin_lt (by omega : below xs x - 1 + 1 < c.length), poly]
      rw [if_pos h1]
      split_ifs with h5
      · have : xs.getD (below xs x - 1) 0 = x := by simpa using h5
        rw [this]; simp
      · rw [fin_sub, fin_sub, fin_div h4, fin_sub, fin_mul, fin_add]
  · rw [if_pos (by rw [← not_le, ← not_le, ← not_and_or]; exact h), if_neg h]

theorem poly_between {xs c : List ℝ} (hx : xs ≠ []) (hc : c.length = xs.length) (hcm : c.Pairwise (· ≤ ·)) {x : ℝ}
    (h : xs.getD 0 0 ≤ x) :
    c.getD (below xs x - 1) 0 ≤ poly xs c x ∧ poly xs c x ≤ c.getD (min (below xs x) (xs.length - 1)) 0 := by
  have hb := below_pos hx h
  have hb2 := below_le xs x
  have hlen : 0 < xs.length := List.length_pos_iff.2 hx
  have hm := getD_mono hcm (i := below xs x - 1) (j := min (below xs x) (xs.length - 1)) (by omega) (by omega)
  unfold poly
  simp only
  split_ifs with h1
  · have h2 := below_get (xs := xs) (x := x) (i := below xs x - 1) (by omega)
    have h3 := below_next (xs := xs) (x := x) (by omega)
    have e : below xs x - 1 + 1 = below xs x := by omega
    have e2 : min (below xs x) (xs.length - 1) = below xs x := by omega
    rw [e2] at hm
    rw [e, e2]
    have hd : 0 < xs.getD (below xs x) 0 - xs.getD (below xs x - 1) 0 := by linarith
    have hn : 0 ≤ c.getD (below xs x) 0 - c.getD (below xs x - 1) 0 := by linarith
    constructor
    · have := mul_nonneg (div_nonneg hn hd.le) (sub_nonneg.2 h2)
      linarith
    · have : (c.getD (below xs x) 0 - c.getD (below xs x - 1) 0) / (xs.getD (below xs x) 0 - xs.getD (below xs x - 1) 0)
          * (x - xs.getD (below xs x - 1) 0) ≤ c.getD (below xs x) 0 - c.getD (below xs x - 1) 0 := by
        rw [div_mul_eq_mul_div, div_le_iff₀ hd]
        exact mul_le_mul_of_nonneg_left (by linarith) hn
      linarith
  · exact ⟨le_rfl, hm⟩

theorem poly_mono {xs c : List ℝ} (hx : xs ≠ []) (hc : c.length = xs.length) (hcm : c.Pairwise (· ≤ ·)) {x x' : ℝ}
    (h : xs.getD 0 0 ≤ x) (hxx : x ≤ x') : poly xs c x ≤ poly xs c x' := by
  have hb := below_pos hx h
  have hm := below_mono xs hxx
  have hb2 := below_le xs x'
  rcases hm.eq_or_lt with he | hlt
  · unfold poly
    simp only [← he]
    split_ifs with h1
    · have h2 := below_get (xs := xs) (x := x) (i := below xs x - 1) (by omega)
      have h3 := below_next (xs := xs) (x := x) (by omega)
      have e : below xs x - 1 + 1 = below xs x := by omega
      have hcm := getD_mono hcm (i := below xs x - 1) (j := below xs x) (by omega) (by omega)
      rw [e]
      have : 0 ≤ (c.getD (below xs x) 0 - c.getD (below xs x - 1) 0) / (xs.getD (below xs x) 0 - xs.getD (below xs x - 1) 0) :=
        div_nonneg (by linarith) (by linarith)
      have := mul_le_mul_of_nonneg_left (sub_le_sub_right hxx (xs.getD (below xs x - 1) 0)) this
      linarith
    · exact le_rfl
  · have h1 := (poly_between hx hc hcm h).2
    have h2 := (poly_between hx hc hcm (h.trans hxx)).1
    refine h1.trans (le_trans ?_ h2)
    exact getD_mono hcm (by omega) (by omega)

/-! ### Sample quantiles -/

/-- linear interpolation between the entries of a list, at the position `h` counted from zero -/
def lerp (s : List ℝ) (h : ℝ) : ℝ :=
  s.getD ⌊h⌋₊ 0 + (h - ⌊h⌋₊) * (s.getD (min (⌊h⌋₊ + 1) (s.length - 1)) 0 - s.getD ⌊h⌋₊ 0)

/-- sample quantile -/
def rquant (p : ℝ) (xs : List ℝ) : ℝ := lerp (rsort xs) (((xs.length - 1 : ℕ) : ℝ) * p)

theorem rsort_length (xs : List ℝ) : (rsort xs).length = xs.length := (rsort_perm xs).length_eq

theorem pos_floor {n : ℕ} {p : ℝ} (hn : 0 < n) (h1 : p ≤ 1) : ⌊((n - 1 : ℕ) : ℝ) * p⌋₊ < n := by
  have : ((n - 1 : ℕ) : ℝ) * p ≤ ((n - 1 : ℕ) : ℝ) := mul_le_of_le_one_right (by positivity) h1
  have := Nat.floor_le_floor this
  rw [Nat.floor_natCast] at this
  omega

theorem quantile_rquant {p : ℝ} (h1 : p ≤ 1) {xs : List ℝ} (hx : xs ≠ []) :
    LogsEns.quantile p (xs.map fin) = fin (rquant p xs) := by
  have hn : 0 < xs.length := List.length_pos_iff.2 hx
  have hj := pos_floor hn h1
  unfold LogsEns.quantile
  rw [if_neg (by simp [XF.isnan])]
  simp only [List.length_map, sort_map_fin]
  rw [idx_map_fin_lt (by rw [rsort_length]; omega), idx_map_fin_lt (by rw [rsort_length]; omega)]
  have e : (1 : XF) = fin 1 := rfl
  simp only [e, fin_sub, fin_mul, fin_add, rquant, lerp, rsort_length]
  split_ifs <;> congr 1 <;> ring

theorem lerp_between {s : List ℝ} (hs : s.Pairwise (· ≤ ·)) {h : ℝ} (h0 : 0 ≤ h) (hl : ⌊h⌋₊ < s.length) :
    s.getD ⌊h⌋₊ 0 ≤ lerp s h ∧ lerp s h ≤ s.getD (min (⌊h⌋₊ + 1) (s.length - 1)) 0 := by
  have hm := getD_mono hs (i := ⌊h⌋₊) (j := min (⌊h⌋₊ + 1) (s.length - 1)) (by omega) (by omega)
  have h1 := Nat.floor_le h0
  have h2 := Nat.lt_floor_add_one h
  unfold lerp
  constructor <;> nlinarith

theorem lerp_mono {s : List ℝ} (hs : s.Pairwise (· ≤ ·)) {h h' : ℝ} (h0 : 0 ≤ h) (hh : h ≤ h') (hl : ⌊h'⌋₊ < s.length) :
    lerp s h ≤ lerp s h' := by
  have hf := Nat.floor_le_floor hh
  rcases hf.eq_or_lt with he | hlt
  · have hm := getD_mono hs (i := ⌊h⌋₊) (j := min (⌊h⌋₊ + 1) (s.length - 1)) (by omega) (by omega)
    unfold lerp
    rw [← he]
    nlinarith
  · have h1 := (lerp_between hs h0 (by omega)).2
    have h2 := (lerp_between hs (h0.trans hh) hl).1
    exact h1.trans ((getD_mono hs (by omega) hl).trans h2)

theorem rquant_mono {p q : ℝ} (h0 : 0 ≤ p) (hpq : p ≤ q) (h1 : q ≤ 1) {xs : List ℝ} (hx : xs ≠ []) :
    rquant p xs ≤ rquant q xs := by
  have hn : 0 < xs.length := List.length_pos_iff.2 hx
  unfold rquant
  exact lerp_mono (rsort_sorted xs) (by positivity) (mul_le_mul_of_nonneg_left hpq (by positivity))
    (by rw [rsort_length]; exact pos_floor hn h1)

theorem rquant_range {p lo hi : ℝ} (h0 : 0 ≤ p) (h1 : p ≤ 1) {xs : List ℝ} (hx : xs ≠ [])
    (h : ∀ a ∈ xs, lo ≤ a ∧ a ≤ hi) : lo ≤ rquant p xs ∧ rquant p xs ≤ hi := by
  have hn : 0 < xs.length := List.length_pos_iff.2 hx
  have hj := pos_floor hn h1
  have hb := lerp_between (rsort_sorted xs) (h := ((xs.length - 1 : ℕ) : ℝ) * p) (by positivity)
    (by rw [rsort_length]; exact hj)
  have hg : ∀ i, i < (rsort xs).length → lo ≤ (rsort xs).getD i 0 ∧ (rsort xs).getD i 0 ≤ hi := fun i hi' => by
    rw [getD_lt hi']
    exact h _ ((rsort_perm xs).mem_iff.1 (List.getElem_mem hi'))
  rw [rsort_length] at hb
  exact ⟨(hg _ (by rw [rsort_length]; omega)).1.trans hb.1, hb.2.trans (hg _ (by rw [rsort_length]; omega)).2⟩

theorem sorted_count {s : List ℝ} (hs : s.Pairwise (· ≤ ·)) (t : ℝ) {i : ℕ} (hi : i < s.length) :
    s.getD i 0 ≤ t ↔ i < s.countP fun a => decide (a ≤ t) := by
  induction s generalizing i with
  | nil => simp at hi
  | cons a s ih =>
    rw [List.pairwise_cons] at hs
    rw [List.countP_cons]
    by_cases ha : a ≤ t
    · simp only [ha, decide_true, if_true]
      cases i with
      | zero => simp [ha]
      | succ i =>
        rw [List.getD_cons_succ, ih hs.2 (by simpa using hi)]
        omega
    · have h0 : (s.countP fun a => decide (a ≤ t)) = 0 := by
        rw [List.countP_eq_zero]
        intro b hb
        have := hs.1 b hb
        simp only [decide_eq_true_eq, not_le]
        linarith [not_le.1 ha]
      rw [h0]
      simp only [ha, decide_false, Bool.false_eq_true, if_false, Nat.add_zero, Nat.not_lt_zero, iff_false]
      cases i with
      | zero => simpa using ha
      | succ i =>
        have hi' : i < s.length := by simpa using hi
        rw [List.getD_cons_succ, getD_lt hi']
        have := hs.1 _ (List.getElem_mem hi')
        linarith [not_le.1 ha]

theorem rsort_forall2 {u v : List ℝ} (h : List.Forall₂ (· ≤ ·) u v) {i : ℕ} (hi : i < u.length) :
    (rsort u).getD i 0 ≤ (rsort v).getD i 0 := by
  have hl := h.length_eq
  rw [sorted_count (rsort_sorted u) _ (by rwa [rsort_length]), (rsort_perm u).countP_eq]
  have h1 := (sorted_count (rsort_sorted v) ((rsort v).getD i 0) (i := i) (by rw [rsort_length]; omega)).1 le_rfl
  rw [(rsort_perm v).countP_eq] at h1
  refine h1.trans_le ?_
  generalize (rsort v).getD i 0 = t
  clear h1 hi hl
  induction h with
  | nil => simp
  | @cons a b u v hab _ ih =>
    rw [List.countP_cons, List.countP_cons]
    by_cases hb : b ≤ t
    · simp [hb, hab.trans hb, ih]
    · simp only [hb, decide_false, Bool.false_eq_true, if_false]
      omega

theorem rquant_forall2 {p : ℝ} (h0 : 0 ≤ p) (h1 : p ≤ 1) {u v : List ℝ} (hu : u ≠ []) (h : List.Forall₂ (· ≤ ·) u v) :
    rquant p u ≤ rquant p v := by
  have hn : 0 < u.length := List.length_pos_iff.2 hu
  have hl := h.length_eq
  have hj := pos_floor hn h1
  unfold rquant lerp
  rw [rsort_length, rsort_length, ← hl]
  have a1 := rsort_forall2 h hj
  have a2 := rsort_forall2 h (i := min (⌊((u.length - 1 : ℕ) : ℝ) * p⌋₊ + 1) (u.length - 1)) (by omega)
  have hp : 0 ≤ ((u.length - 1 : ℕ) : ℝ) * p := by positivity
  have b1 := Nat.floor_le hp
  have b2 := Nat.lt_floor_add_one (((u.length - 1 : ℕ) : ℝ) * p)
  generalize ((u.length - 1 : ℕ) : ℝ) * p = h at *
  have c1 := mul_le_mul_of_nonneg_left a1 (by linarith : 0 ≤ 1 - (h - ⌊h⌋₊))
  have c2 := mul_le_mul_of_nonneg_left a2 (by linarith : 0 ≤ h - ⌊h⌋₊)
  linarith

/-- at most `j` entries are below the entry at position `j` -/
theorem sorted_count_lt {s : List ℝ} (hs : s.Pairwise (· ≤ ·)) {j : ℕ} (hj : j < s.length) :
    (s.countP fun a => decide (a < s.getD j 0)) ≤ j := by
  induction s generalizing j with
  | nil => simp at hj
  | cons a s ih =>
    rw [List.pairwise_cons] at hs
    rw [List.countP_cons]
    cases j with
    | zero =>
      have h0 : (s.countP fun b => decide (b < a)) = 0 := by
        rw [List.countP_eq_zero]
        intro b hb
        simpa using hs.1 b hb
      simpa using h0
    | succ j =>
      have := ih hs.2 (j := j) (by simpa using hj)
      simp only [List.getD_cons_succ]
      split_ifs <;> omega

/-- position of the sample quantile among the data -/
theorem rquant_count {p : ℝ} (h0 : 0 ≤ p) (h1 : p ≤ 1) {xs : List ℝ} (hx : xs ≠ []) :
    ((xs.countP fun a => decide (a < rquant p xs) : ℕ) : ℝ) ≤ (xs.length - 1) * p + 1 ∧
      (xs.length - 1) * p < (xs.countP fun a => decide (a ≤ rquant p xs) : ℕ) := by
  have hn : 0 < xs.length := List.length_pos_iff.2 hx
  have hj := pos_floor hn h1
  have hc : (((xs.length - 1 : ℕ) : ℝ)) = (xs.length : ℝ) - 1 := by
    rw [Nat.cast_sub (by omega)]; simp
  have hp : 0 ≤ ((xs.length - 1 : ℕ) : ℝ) * p := by positivity
  have hb := lerp_between (rsort_sorted xs) hp (by rw [rsort_length]; exact hj)
  rw [rsort_length] at hb
  rw [← (rsort_perm xs).countP_eq, ← (rsort_perm xs).countP_eq, ← hc]
  have b1 := Nat.floor_le hp
  have b2 := Nat.lt_floor_add_one (((xs.length - 1 : ℕ) : ℝ) * p)
  constructor
  · have k1 : ((rsort xs).countP fun a => decide (a < rquant p xs)) ≤ ⌊((xs.length - 1 : ℕ) : ℝ) * p⌋₊ + 1 := by
      have k2 := sorted_count_lt (rsort_sorted xs)
        (j := min (⌊((xs.length - 1 : ℕ) : ℝ) * p⌋₊ + 1) (xs.length - 1)) (by rw [rsort_length]; omega)
      refine le_trans (List.countP_mono_left fun a _ ha => ?_) (k2.trans (min_le_left _ _))
      rw [decide_eq_true_eq] at ha ⊢
      exact ha.trans_le hb.2
    have : (((rsort xs).countP fun a => decide (a < rquant p xs) : ℕ) : ℝ) ≤ ⌊((xs.length - 1 : ℕ) : ℝ) * p⌋₊ + 1 := by
      exact_mod_cast k1
    linarith
  · have k1 := (sorted_count (rsort_sorted xs) (rquant p xs) (by rw [rsort_length]; exact hj)).1 hb.1
    have : ((⌊((xs.length - 1 : ℕ) : ℝ) * p⌋₊ + 1 : ℕ) : ℝ)
        ≤ ((rsort xs).countP fun a => decide (a ≤ rquant p xs) : ℕ) := by exact_mod_cast k1
    push_cast at this
    linarith

end Verif
