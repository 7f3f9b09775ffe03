import Verif.Lemmas.RoundVariogram

/-! Rounded sums of weighted squares, and the two forms of the variogram score. -/

noncomputable section

open scoped Classical

namespace Verif

open XF Py Mv Spec

/-- an approximation of a number by its size -/
structure Sized (x : XF) (a c k : ℝ) : Prop where
  le : |a| ≤ c
  low : 1 / 2 ^ 1000 ≤ c
  near : CNear x a c k

theorem Sized.nonneg {x : XF} {a c k : ℝ} (h : Sized x a c k) : 0 ≤ c := (abs_nonneg a).trans h.le

theorem Sized.mono {x : XF} {a c k k' : ℝ} (h : Sized x a c k) (hk : k ≤ k') : Sized x a c k' :=
  ⟨h.le, h.low, h.near.mono h.nonneg hk⟩

theorem Sized.div {x : XF} {a c k d : ℝ} (h : Sized x a c k) (hd : 0 < d) (hl : 1 / 2 ^ 1000 ≤ c / d) :
    Sized (x / fin d) (a / d) (c / d) k := by
  obtain ⟨h1, _, b, rfl, h3⟩ := h
  refine ⟨?_, hl, b / d, fin_div hd.ne' _, ?_⟩
  · rw [abs_div, abs_of_pos hd]; exact div_le_div_of_nonneg_right h1 hd.le
  · rw [← sub_div, abs_div, abs_of_pos hd, ← mul_div_assoc]
    exact div_le_div_of_nonneg_right h3 hd.le

theorem Sized.mul {x : XF} {a c k w T : ℝ} (h : Sized x a c k) (hk : 0 ≤ k) (hT : 1 / 2 ^ 1000 ≤ T) :
    Sized (fin w * x) (w * a) (|w| * c + T) k := by
  have hc := h.nonneg
  obtain ⟨h1, _, b, rfl, h3⟩ := h
  have hT0 : 0 ≤ T := le_trans (by positivity) hT
  have hw := abs_nonneg w
  refine ⟨?_, hT.trans (le_add_of_nonneg_left (by positivity)), w * b, fin_mul _ _, ?_⟩
  · rw [abs_mul]; exact (mul_le_mul_of_nonneg_left h1 hw).trans (by linarith)
  · rw [← mul_sub, abs_mul]
    refine (mul_le_mul_of_nonneg_left h3 hw).trans ?_
    have : 0 ≤ k * (1 / 2 ^ 51) * T := by positivity
    linarith

theorem Sized.sub {x y : XF} {a b c d k : ℝ} (h : Sized x a c k) (g : Sized y b d k) :
    Sized (x - y) (a - b) (c + d) k := by
  have hd := g.nonneg
  obtain ⟨h1, hl, u, rfl, h3⟩ := h
  obtain ⟨g1, _, v, rfl, g3⟩ := g
  refine ⟨?_, hl.trans (by linarith), u - v, fin_sub _ _, ?_⟩
  · rw [abs_le] at h1 g1 ⊢; constructor <;> linarith
  · rw [show u - v - (a - b) = (u - a) - (v - b) by ring]
    refine (abs_sub _ _).trans ?_
    linarith

theorem Sized.sq {x : XF} {a c k : ℝ} (h : Sized x a c k) (hk : k ≤ 2 ^ 50) (hk0 : 0 ≤ k) (hl : 1 / 2 ^ 1000 ≤ c ^ 2) :
    Sized (x ^ 2) (a ^ 2) (c ^ 2) (3 * k) := by
  have hc := h.nonneg
  obtain ⟨h1, _, b, rfl, h3⟩ := h
  refine ⟨?_, hl, b ^ 2, fin_pow _ _, ?_⟩
  · rw [abs_pow]; exact pow_le_pow_left₀ (abs_nonneg a) h1 2
  · have hkq : k * (1 / 2 ^ 51) ≤ 1 := by
      rw [mul_one_div, div_le_one (by positivity)]; exact hk.trans (pow_le_pow_right₀ (by norm_num) (by norm_num))
    have hkq0 : 0 ≤ k * (1 / 2 ^ 51) := by positivity
    rw [show 3 * k * (1 / 2 ^ 51) * c ^ 2 = 3 * (k * (1 / 2 ^ 51)) * c ^ 2 by ring]
    generalize k * (1 / 2 ^ 51) = q at *
    rw [show b ^ 2 - a ^ 2 = (b - a) * ((b - a) + 2 * a) by ring, abs_mul]
    have h4 : |b - a + 2 * a| ≤ 3 * c := by
      refine (abs_add_le _ _).trans ?_
      rw [abs_mul, abs_two]
      nlinarith
    calc |b - a| * |b - a + 2 * a| ≤ (q * c) * (3 * c) := mul_le_mul h3 h4 (abs_nonneg _) (by positivity)
      _ = 3 * q * c ^ 2 := by ring

section
variable {r : ℝ → XF} (hr : Binary64 r)
include hr

theorem Sized.rd {x : XF} {a c k : ℝ} (h : Sized x a c k) (hC : c ≤ 2 ^ 1000) (hk : k ≤ 2 ^ 50) :
    Sized (Rnd.rd r x) a c (k + 1) :=
  ⟨h.le, h.low, h.near.rd hr h.le h.low hC hk⟩

theorem Sized.sum {α : Type} {l : List α} {f : α → XF} {g c : α → ℝ} {k : ℝ} {s : XF} (h : RSum r (l.map f) s)
    (hne : l ≠ []) (hf : ∀ a ∈ l, Sized (f a) (g a) (c a) k) (hC : (l.map c).sum ≤ 2 ^ 1000) (hk : k + l.length ≤ 2 ^ 50) :
    Sized s (l.map g).sum (l.map c).sum (k + l.length) := by
  have := h.cNear_aux hr (k := k) (as := l.map fun a => (g a, c a)) (by simpa using hne) ?_ ?_ ?_
  · simp only [List.map_map, Function.comp_def, List.length_map] at this
    exact Sized.mono ⟨this.1, this.2.1, this.2.2⟩ (by linarith)
  · rw [List.forall₂_map_left_iff, List.forall₂_map_right_iff, List.forall₂_same]
    exact fun a ha => ⟨(hf a ha).le, (hf a ha).low, (hf a ha).near⟩
  · simpa only [List.map_map, Function.comp_def] using hC
  · simpa using hk

/-- the sum over all pairs of coordinates -/
theorem dsum_near {S : List XF → XF} (hS : ∀ xs, RSum r xs (S xs)) {D : ℕ} (hD : 0 < D) {f : ℕ → ℕ → XF}
    {g c : Fin D → Fin D → ℝ} {k : ℝ} (hf : ∀ i j : Fin D, Sized (f i j) (g i j) (c i j) k)
    (hC : ∑ i, ∑ j, c i j ≤ 2 ^ 1000) (hk : k + (D : ℝ) ^ 2 ≤ 2 ^ 50) :
    Sized (Rnd.dsum S D f) (∑ i, ∑ j, g i j) (∑ i, ∑ j, c i j) (k + (D : ℝ) ^ 2) := by
  have es : ∀ h : Fin D → Fin D → ℝ, ∑ i, ∑ j, h i j
      = ((List.product (List.finRange D) (List.finRange D)).map fun q => h q.1 q.2).sum := by
    intro h
    unfold List.product
    rw [List.map_flatMap, sum_flatMap_eq, Fin.sum_univ_def]
    congr 1
    refine List.map_congr_left fun i _ => ?_
    rw [Fin.sum_univ_def, List.map_map]
    rfl
  have el : (List.range D).flatMap (fun i => (List.range D).map fun j => f i j)
      = (List.product (List.finRange D) (List.finRange D)).map fun q => f q.1 q.2 := by
    unfold List.product
    rw [List.map_flatMap, ← List.map_coe_finRange_eq_range, List.flatMap_map]
    congr 1
    funext i
    rw [List.map_map, List.map_map]
    rfl
  have len : (List.product (List.finRange D) (List.finRange D)).length = D ^ 2 := by
    have := List.length_product (List.finRange D) (List.finRange D)
    rw [List.length_finRange, ← sq] at this; exact this
  unfold Rnd.dsum
  rw [es, es, el]
  rw [es] at hC
  have := Sized.sum hr (hS ((List.product (List.finRange D) (List.finRange D)).map fun q => f q.1 q.2))
    (l := List.product (List.finRange D) (List.finRange D)) ?_ (g := fun q => g q.1 q.2) (c := fun q => c q.1 q.2)
    (fun q _ => hf q.1 q.2) hC ?_
  · rw [len, Nat.cast_pow] at this; exact this
  · rw [← List.length_pos_iff, len]; positivity
  · rw [len, Nat.cast_pow]; exact hk

/-- one weighted square -/
theorem wsq_near {x y : XF} {a b k w : ℝ} (ha : 0 ≤ a) (hb : 0 ≤ b) (hA : a ≤ 2 ^ 400) (hB : b ≤ 2 ^ 400) (hk2 : 2 ≤ k)
    (hk : k ≤ 2 ^ 40) (hw : |w| ≤ 2 ^ 100) {m1 m2 : ℝ} (hm : m1 + m2 ≤ 10) (hx : SqNear (1 / 2 ^ 520) x a k m1)
    (hy : SqNear (1 / 2 ^ 520) y b k m2) :
    Sized (Rnd.wsq r (fin w) x y) (w * (a - b) ^ 2) (|w| * (a + b + 1 / 2 ^ 469) ^ 2 + 1 / 2 ^ 938) (3 * k + 29) ∧
      |w| * (a + b + 1 / 2 ^ 469) ^ 2 + 1 / 2 ^ 938 ≤ 2 ^ 910 := by
  have l1 : (1:ℝ) / 2 ^ 1000 ≤ 1 / 2 ^ 938 :=
    one_div_le_one_div_of_le (by positivity) (pow_le_pow_right₀ (by norm_num) (by norm_num))
  have l2 : (1:ℝ) / 2 ^ 938 = (1 / 2 ^ 469) ^ 2 := by rw [div_pow, one_pow, ← pow_mul]
  have l3 : (1:ℝ) / 2 ^ 1000 ≤ 1 / 2 ^ 469 :=
    one_div_le_one_div_of_le (by positivity) (pow_le_pow_right₀ (by norm_num) (by norm_num))
  have l4 : (1:ℝ) / 2 ^ 520 = 1 / 2 ^ 51 * (1 / 2 ^ 469) := by rw [one_div_mul_one_div, ← pow_add]
  have l5 : (1:ℝ) / 2 ^ 469 ≤ 1 := by rw [div_le_one (by positivity)]; exact one_le_pow₀ (by norm_num)
  have l6 : (1:ℝ) / 2 ^ 938 ≤ 1 := by rw [div_le_one (by positivity)]; exact one_le_pow₀ (by norm_num)
  have hT0 : (0:ℝ) < 1 / 2 ^ 469 := by positivity
  have hk50 : k ≤ 2 ^ 40 := hk
  norm_num at hk
  have h1 : Sized (x - y) (a - b) (a + b + 1 / 2 ^ 469) (k + 8) := by
    obtain ⟨u, rfl, _, hu⟩ := hx
    obtain ⟨v, rfl, _, hv⟩ := hy
    rw [l4] at hu hv
    refine ⟨?_, ?_, u - v, fin_sub _ _, ?_⟩
    · rw [abs_le]; constructor <;> linarith
    · linarith
    · rw [show u - v - (a - b) = (u - a) - (v - b) by ring]
      refine (abs_sub _ _).trans ?_
      have e0 : 0 ≤ 1 / 2 ^ 51 * a := by positivity
      have e1 : 0 ≤ 1 / 2 ^ 51 * b := by positivity
      have e2 : 0 ≤ 1 / 2 ^ 51 * ((1:ℝ) / 2 ^ 469) := by positivity
      have e3 : 0 ≤ k * (1 / 2 ^ 51 * ((1:ℝ) / 2 ^ 469)) := by positivity
      have e4 := mul_le_mul_of_nonneg_right hm e2
      generalize (1:ℝ) / 2 ^ 469 = T at *
      generalize (1:ℝ) / 2 ^ 51 = q at *
      nlinarith
  have hs : a + b + 1 / 2 ^ 469 ≤ 2 ^ 402 := by
    have : (2:ℝ) ^ 402 = 4 * 2 ^ 400 := by rw [show (402:ℕ) = 2 + 400 from rfl, pow_add]; norm_num
    rw [this]
    have h4 : (1:ℝ) ≤ 2 ^ 400 := one_le_pow₀ (by norm_num)
    clear l1 l2 l3 l4 l6 h1 this hx hy
    generalize (2:ℝ) ^ 400 = P at *
    generalize (1:ℝ) / 2 ^ 469 = T at *
    linarith
  have hs0 : 0 ≤ a + b + 1 / 2 ^ 469 := h1.nonneg
  have hss : (a + b + 1 / 2 ^ 469) ^ 2 ≤ 2 ^ 804 := by
    calc (a + b + 1 / 2 ^ 469) ^ 2 ≤ (2 ^ 402) ^ 2 := pow_le_pow_left₀ hs0 hs 2
      _ = 2 ^ 804 := by rw [← pow_mul]
  have h2 := (h1.rd hr (hs.trans (pow_le_pow_right₀ (by norm_num) (by norm_num))) (by norm_num; linarith)).sq
    (by norm_num; linarith) (by linarith)
    (l1.trans (by rw [l2]; exact pow_le_pow_left₀ hT0.le (by linarith) 2))
  have h3 := (h2.rd hr (hss.trans (pow_le_pow_right₀ (by norm_num) (by norm_num))) (by norm_num; linarith)).mul
    (w := w) (by linarith) l1
  have hc : |w| * (a + b + 1 / 2 ^ 469) ^ 2 + 1 / 2 ^ 938 ≤ 2 ^ 910 := by
    have e1 : |w| * (a + b + 1 / 2 ^ 469) ^ 2 ≤ 2 ^ 904 := by
      calc |w| * (a + b + 1 / 2 ^ 469) ^ 2 ≤ 2 ^ 100 * 2 ^ 804 := mul_le_mul hw hss (by positivity) (by positivity)
        _ = 2 ^ 904 := by rw [← pow_add]
    have e2 : (1:ℝ) ≤ 2 ^ 904 := one_le_pow₀ (by norm_num)
    have e3 : (2:ℝ) ^ 910 = 64 * 2 ^ 904 := by rw [show (910:ℕ) = 6 + 904 from rfl, pow_add]; norm_num
    rw [e3]
    generalize |w| * (a + b + 1 / 2 ^ 469) ^ 2 = u at *
    generalize (2:ℝ) ^ 904 = P at *
    generalize (1:ℝ) / 2 ^ 938 = T at *
    linarith only [e1, e2, l6]
  refine ⟨?_, hc⟩
  have h4 := h3.rd hr (hc.trans (pow_le_pow_right₀ (by norm_num) (by norm_num))) (by norm_num; linarith)
  exact h4.mono (by linarith)

end

theorem Sized.half {x : XF} {a c k : ℝ} (h : Sized x a c k) (hl : 1 / 2 ^ 938 ≤ c) :
    Sized (fin (1 / 2) * x) (1 / 2 * a) (1 / 2 * c) k := by
  obtain ⟨h1, _, b, rfl, h3⟩ := h
  refine ⟨?_, ?_, 1 / 2 * b, fin_mul _ _, ?_⟩
  · rw [abs_mul, abs_of_pos (by norm_num : (0:ℝ) < 1 / 2)]; linarith
  · have e : (1:ℝ) / 2 ^ 1000 ≤ 1 / 2 ^ 939 :=
      one_div_le_one_div_of_le (by positivity) (pow_le_pow_right₀ (by norm_num) (by norm_num))
    have e2 : (1:ℝ) / 2 ^ 939 = 1 / 2 * (1 / 2 ^ 938) := by
      rw [one_div_mul_one_div, ← pow_succ']
    rw [e2] at e
    exact e.trans (mul_le_mul_of_nonneg_left hl (by norm_num))
  · rw [← mul_sub, abs_mul, abs_of_pos (by norm_num : (0:ℝ) < 1 / 2)]
    linarith

/-- the size of a sum of weighted squares of differences: the same sum with absolute values and with sums in place of
differences -/
def wsize {D : ℕ} (W a b : Fin D → Fin D → ℝ) : ℝ :=
  ∑ i, ∑ j, (|W i j| * (a i j + b i j + 1 / 2 ^ 469) ^ 2 + 1 / 2 ^ 938)

theorem wsize_low {D : ℕ} (hD : 0 < D) (W a b : Fin D → Fin D → ℝ) : 1 / 2 ^ 938 ≤ wsize W a b := by
  have h0 : ∀ i j, 0 ≤ |W i j| * (a i j + b i j + 1 / 2 ^ 469) ^ 2 + 1 / 2 ^ 938 := fun i j => by positivity
  unfold wsize
  calc (1:ℝ) / 2 ^ 938 ≤ |W ⟨0, hD⟩ ⟨0, hD⟩| * (a ⟨0, hD⟩ ⟨0, hD⟩ + b ⟨0, hD⟩ ⟨0, hD⟩ + 1 / 2 ^ 469) ^ 2 + 1 / 2 ^ 938 :=
        le_add_of_nonneg_left (by positivity)
    _ ≤ ∑ j, (|W ⟨0, hD⟩ j| * (a ⟨0, hD⟩ j + b ⟨0, hD⟩ j + 1 / 2 ^ 469) ^ 2 + 1 / 2 ^ 938) :=
        Finset.single_le_sum (f := fun j => |W ⟨0, hD⟩ j| * (a ⟨0, hD⟩ j + b ⟨0, hD⟩ j + 1 / 2 ^ 469) ^ 2 + 1 / 2 ^ 938)
          (fun j _ => h0 _ j) (Finset.mem_univ _)
    _ ≤ _ := Finset.single_le_sum
          (f := fun i => ∑ j, (|W i j| * (a i j + b i j + 1 / 2 ^ 469) ^ 2 + 1 / 2 ^ 938))
          (fun i _ => Finset.sum_nonneg fun j _ => h0 i j) (Finset.mem_univ _)

section
variable {r : ℝ → XF} (hr : Binary64 r) {S : List XF → XF} (hS : ∀ xs, RSum r xs (S xs)) {D : ℕ} {p : ℝ} (hp : 1 / 2 ≤ p)
  (hp2 : p ≤ 2)
include hr hp hp2

theorem rhoT_near {v : Eu D} {i j : Fin D} (h : |v i - v j| ≤ 2 ^ 200) :
    SqNear (1 / 2 ^ 520) (Rnd.rhoT r p (vec v) i j) (vdiff p v i j) 2 2 ∧ vdiff p v i j ≤ 2 ^ 400 := by
  have := rho_near hr hp hp2 (u := v j - v i) (by rw [abs_sub_comm]; exact h)
  unfold Rnd.rhoT vdiff
  rw [idx_vec, idx_vec, fin_sub, abs_sub_comm (v i)]
  exact this

include hS

omit hp hp2 in
/-- the sum of the weighted squares -/
theorem wsum_near (hD : 0 < D) (hD2 : D ≤ 2 ^ 20) {W a b : Fin D → Fin D → ℝ} {x y : ℕ → ℕ → XF} {k : ℝ}
    (hW : ∀ i j, |W i j| ≤ 2 ^ 100) (ha : ∀ i j, 0 ≤ a i j ∧ a i j ≤ 2 ^ 400) (hb : ∀ i j, 0 ≤ b i j ∧ b i j ≤ 2 ^ 400)
    (hk2 : 2 ≤ k) (hk : k ≤ 2 ^ 40)
    (hx : ∀ i j : Fin D, SqNear (1 / 2 ^ 520) (x i j) (a i j) k 4)
    (hy : ∀ i j : Fin D, SqNear (1 / 2 ^ 520) (y i j) (b i j) k 4) :
    Sized (Rnd.dsum S D fun i j => Rnd.wsq r (mget (matl W) i j) (x i j) (y i j))
      (∑ i, ∑ j, W i j * (a i j - b i j) ^ 2) (wsize W a b) (3 * k + 29 + (D : ℝ) ^ 2) ∧ wsize W a b ≤ 2 ^ 950 := by
  have hD' : (D : ℝ) ≤ 2 ^ 20 := by exact_mod_cast hD2
  have hDD : (D : ℝ) ^ 2 ≤ 2 ^ 40 := by
    calc (D : ℝ) ^ 2 ≤ (2 ^ 20) ^ 2 := pow_le_pow_left₀ (Nat.cast_nonneg D) hD' 2
      _ = 2 ^ 40 := by rw [← pow_mul]
  have hw := fun i j : Fin D => wsq_near hr (ha i j).1 (hb i j).1 (ha i j).2 (hb i j).2 hk2 hk (hW i j) (by norm_num) (hx i j) (hy i j)
  have hs : wsize W a b ≤ 2 ^ 950 := by
    unfold wsize
    calc ∑ i, ∑ j, (|W i j| * (a i j + b i j + 1 / 2 ^ 469) ^ 2 + 1 / 2 ^ 938) ≤ ∑ _i : Fin D, ∑ _j : Fin D, (2:ℝ) ^ 910 :=
          Finset.sum_le_sum fun i _ => Finset.sum_le_sum fun j _ => (hw i j).2
      _ = (D : ℝ) ^ 2 * 2 ^ 910 := by
          rw [Finset.sum_const, Finset.sum_const, Finset.card_univ, Fintype.card_fin, nsmul_eq_mul, nsmul_eq_mul]; ring
      _ ≤ 2 ^ 40 * 2 ^ 910 := mul_le_mul_of_nonneg_right hDD (by positivity)
      _ = 2 ^ 950 := by rw [← pow_add]
  refine ⟨dsum_near hr hS hD (fun i j => ?_) (hs.trans (pow_le_pow_right₀ (by norm_num) (by norm_num))) ?_, hs⟩
  · rw [mget_matl]; exact (hw i j).1
  · clear hs hw
    norm_num at *; linarith

/-- the mean variogram of the members -/
theorem vmean_near {xs : List (Eu D)} (hne : xs ≠ []) (hM : xs.length ≤ 2 ^ 20) {i j : Fin D}
    (h : ∀ x ∈ xs, |x i - x j| ≤ 2 ^ 200) :
    SqNear (1 / 2 ^ 520) (Rnd.rd r (S ((xs.map vec).map fun x => Rnd.rhoT r p x i j) / (xs.length : XF)))
      ((xs.map fun x => vdiff p x i j).sum / xs.length) (xs.length + 3) 4 ∧
      (xs.map fun x => vdiff p x i j).sum / xs.length ≤ 2 ^ 400 := by
  have hM' : (xs.length : ℝ) ≤ 2 ^ 20 := by exact_mod_cast hM
  have hM0 : (0:ℝ) < xs.length := by exact_mod_cast List.length_pos_iff.mpr hne
  have hsum : (xs.map fun x => vdiff p x i j).sum ≤ xs.length * 2 ^ 400 :=
    sum_map_le fun x hx => (rhoT_near hr hp hp2 (h x hx)).2
  have hv : ∀ x : Eu D, 0 ≤ vdiff p x i j := fun x => Real.rpow_nonneg (abs_nonneg _) _
  have h0 : 0 ≤ (xs.map fun x => vdiff p x i j).sum / xs.length := div_nonneg (list_sum_nonneg' fun x _ => hv x) hM0.le
  have hmean : (xs.map fun x => vdiff p x i j).sum / xs.length ≤ 2 ^ 400 := by
    rw [div_le_iff₀ hM0, mul_comm]
    exact hsum
  refine ⟨?_, hmean⟩
  have hs := (hS ((xs.map vec).map fun x => Rnd.rhoT r p x i j)).sqNear hr unit_norm
    (k := 2) (m := 2) (by norm_num) (as := xs.map fun x => vdiff p x i j) ?_ ?_ ?_ ?_
  · simp only [List.length_map] at hs
    have hd := (hs.div hM0).rd hr unit_norm h0 (hmean.trans (pow_le_pow_right₀ (by norm_num) (by norm_num))) ?_ ?_
    · rw [natCast_fin]
      refine hd.mono unit_norm.nonneg h0 (by linarith) ?_
      rw [mul_div_cancel_right₀ _ hM0.ne']; norm_num
    · clear hs h0 hsum hmean h
      generalize (xs.length : ℝ) = M at *
      norm_num at *; linarith
    · rw [mul_div_cancel_right₀ _ hM0.ne']; norm_num
  · rw [List.map_map, List.forall₂_map_left_iff, List.forall₂_map_right_iff, List.forall₂_same]
    intro x hx
    exact ⟨hv x, (rhoT_near hr hp hp2 (h x hx)).1⟩
  · refine hsum.trans ?_
    calc (xs.length : ℝ) * 2 ^ 400 ≤ 2 ^ 20 * 2 ^ 400 := mul_le_mul_of_nonneg_right hM' (by positivity)
      _ = 2 ^ 420 := by rw [← pow_add]
      _ ≤ 2 ^ 1000 := pow_le_pow_right₀ (by norm_num) (by norm_num)
  · simp only [List.length_map]
    clear h0 hsum hmean h
    generalize (xs.length : ℝ) = M at *
    norm_num at *; linarith
  · simp only [List.length_map]
    clear h0 hsum hmean h
    generalize (xs.length : ℝ) = M at *
    norm_num at *; linarith

/-- the first form of the score -/
theorem vsNrg_near (hD : 0 < D) (hD2 : D ≤ 2 ^ 20) {W : Fin D → Fin D → ℝ} (hW : ∀ i j, |W i j| ≤ 2 ^ 100) {y : Eu D}
    {xs : List (Eu D)} (hne : xs ≠ []) (hM : xs.length ≤ 2 ^ 20) (hy : ∀ i j, |y i - y j| ≤ 2 ^ 200)
    (hx : ∀ x ∈ xs, ∀ i j, |x i - x j| ≤ 2 ^ 200) :
    Sized (Rnd.vsNrg r S (matl W) p (vec y) (xs.map vec))
      (∑ i, ∑ j, W i j * (vdiff p y i j - (xs.map fun x => vdiff p x i j).sum / xs.length) ^ 2)
      (wsize W (vdiff p y) fun i j => (xs.map fun x => vdiff p x i j).sum / xs.length) (3 * xs.length + (D : ℝ) ^ 2 + 38) := by
  have hM' : (xs.length : ℝ) ≤ 2 ^ 20 := by exact_mod_cast hM
  have hM0 : (0:ℝ) < xs.length := by exact_mod_cast List.length_pos_iff.mpr hne
  have hv : ∀ (x : Eu D) i j, 0 ≤ vdiff p x i j := fun x i j => Real.rpow_nonneg (abs_nonneg _) _
  have := wsum_near hr hS hD hD2 (k := xs.length + 3) hW
    (a := vdiff p y) (b := fun i j => (xs.map fun x => vdiff p x i j).sum / xs.length)
    (x := Rnd.rhoT r p (vec y))
    (y := fun i j => Rnd.rd r (S ((xs.map vec).map fun x => Rnd.rhoT r p x i j) / (xs.length : XF)))
    (fun i j => ⟨hv _ _ _, (rhoT_near hr hp hp2 (hy i j)).2⟩)
    (fun i j => ⟨div_nonneg (list_sum_nonneg' fun x _ => hv x _ _) hM0.le,
      (vmean_near hr hS hp hp2 hne hM fun x hx' => hx x hx' i j).2⟩)
    (by linarith) (by generalize (xs.length : ℝ) = M at *; norm_num at *; linarith)
    (fun i j => (rhoT_near hr hp hp2 (hy i j)).1.mono unit_norm.nonneg (hv _ _ _) (by linarith) (by norm_num))
    (fun i j => (vmean_near hr hS hp hp2 hne hM fun x hx' => hx x hx' i j).1)
  unfold Rnd.vsNrg
  rw [vec_length, List.length_map]
  exact this.1.mono (by linarith)

/-- one entry of the arrays of the second form -/
theorem vsE_near (hD : 0 < D) (hD2 : D ≤ 2 ^ 20) {W : Fin D → Fin D → ℝ} (hW : ∀ i j, |W i j| ≤ 2 ^ 100) {x y : Eu D}
    (hx : ∀ i j, |x i - x j| ≤ 2 ^ 200) (hy : ∀ i j, |y i - y j| ≤ 2 ^ 200) :
    Sized (Rnd.vsE2 r S (matl W) p D (vec x) (vec y)) (vdist p W x y) (wsize W (vdiff p x) (vdiff p y))
      (35 + (D : ℝ) ^ 2) ∧ wsize W (vdiff p x) (vdiff p y) ≤ 2 ^ 950 := by
  have hv : ∀ (x : Eu D) i j, 0 ≤ vdiff p x i j := fun x i j => Real.rpow_nonneg (abs_nonneg _) _
  have := wsum_near hr hS hD hD2 (k := 2) hW
    (a := vdiff p x) (b := vdiff p y) (x := Rnd.rhoT r p (vec x)) (y := Rnd.rhoT r p (vec y))
    (fun i j => ⟨hv _ _ _, (rhoT_near hr hp hp2 (hx i j)).2⟩)
    (fun i j => ⟨hv _ _ _, (rhoT_near hr hp hp2 (hy i j)).2⟩)
    (by linarith) (by norm_num)
    (fun i j => (rhoT_near hr hp hp2 (hx i j)).1.mono unit_norm.nonneg (hv _ _ _) (by linarith) (by norm_num))
    (fun i j => (rhoT_near hr hp hp2 (hy i j)).1.mono unit_norm.nonneg (hv _ _ _) (by linarith) (by norm_num))
  exact ⟨this.1.mono (by linarith), this.2⟩

/-- the size of the second form: both terms with their absolute values -/
def fairSize (p : ℝ) (W : Fin D → Fin D → ℝ) (y : Eu D) (xs : List (Eu D)) : ℝ :=
  (xs.map fun x => wsize W (vdiff p x) (vdiff p y)).sum / xs.length
    + 1 / 2 * ((xs.map fun a => (xs.map fun b => wsize W (vdiff p a) (vdiff p b)).sum).sum
      / ((xs.length : ℝ) * ((xs.length : ℝ) - 1)))

omit hp hp2 in
/-- a mean of approximations -/
theorem smean_near {α : Type} {l : List α} {f : α → XF} {g c : α → ℝ} {k d : ℝ} (hne : l ≠ []) (hl : l.length ≤ 2 ^ 40)
    (hd : 1 ≤ d) (hdl : d ≤ l.length) (hk : k ≤ 2 ^ 49) (hf : ∀ a ∈ l, Sized (f a) (g a) (c a) k)
    (hc : ∀ a ∈ l, 1 / 2 ^ 938 ≤ c a ∧ c a ≤ 2 ^ 950) :
    Sized (Rnd.rd r (S (l.map f) / fin d)) ((l.map g).sum / d) ((l.map c).sum / d) (k + l.length + 1) ∧
      1 / 2 ^ 938 ≤ (l.map c).sum / d ∧ (l.map c).sum / d ≤ 2 ^ 990 := by
  have hl' : (l.length : ℝ) ≤ 2 ^ 40 := by exact_mod_cast hl
  have hd0 : 0 < d := by linarith
  have hC : (l.map c).sum ≤ 2 ^ 990 := by
    calc (l.map c).sum ≤ l.length * 2 ^ 950 := sum_map_le fun a ha => (hc a ha).2
      _ ≤ 2 ^ 40 * 2 ^ 950 := mul_le_mul_of_nonneg_right hl' (by positivity)
      _ = 2 ^ 990 := by rw [← pow_add]
  have h0 : 0 ≤ (l.map c).sum := list_sum_nonneg' fun a ha => le_trans (by positivity) (hc a ha).1
  have hlow : 1 / 2 ^ 938 ≤ (l.map c).sum / d := by
    rw [le_div_iff₀ hd0]
    have h1 : (l.map fun a => -c a).sum ≤ l.length * (-(1 / 2 ^ 938)) := sum_map_le fun a ha => neg_le_neg (hc a ha).1
    have h2 : (l.map fun a => -c a).sum = -(l.map c).sum := by
      clear h1 h0 hC hc hf hdl hl hl' hne
      induction l with
      | nil => simp
      | cons a l ih => simp only [List.map_cons, List.sum_cons, ih]; ring
    have h3 : (1:ℝ) / 2 ^ 938 * d ≤ 1 / 2 ^ 938 * l.length := mul_le_mul_of_nonneg_left hdl (by positivity)
    generalize (1:ℝ) / 2 ^ 938 = T at *
    linarith
  have hup : (l.map c).sum / d ≤ 2 ^ 990 := (div_le_self h0 hd).trans hC
  have l1 : (1:ℝ) / 2 ^ 1000 ≤ 1 / 2 ^ 938 :=
    one_div_le_one_div_of_le (by positivity) (pow_le_pow_right₀ (by norm_num) (by norm_num))
  have l2 : (2:ℝ) ^ 990 ≤ 2 ^ 1000 := pow_le_pow_right₀ (by norm_num) (by norm_num)
  have hkl : k + l.length ≤ 2 ^ 50 := by
    clear hlow hup hC hc l1 l2 h0 hf
    generalize (l.length : ℝ) = M at *
    norm_num at *; linarith
  exact ⟨(((Sized.sum hr (hS _) hne hf (hC.trans l2) hkl).div hd0 (l1.trans hlow)).rd hr (hup.trans l2) hkl), hlow, hup⟩

/-- the second form of the score -/
theorem vsFair_near (hD : 0 < D) (hD2 : D ≤ 2 ^ 20) {W : Fin D → Fin D → ℝ} (hW : ∀ i j, |W i j| ≤ 2 ^ 100) {y : Eu D}
    {xs : List (Eu D)} (h2 : 2 ≤ xs.length) (hM : xs.length ≤ 2 ^ 20) (hy : ∀ i j, |y i - y j| ≤ 2 ^ 200)
    (hx : ∀ x ∈ xs, ∀ i j, |x i - x j| ≤ 2 ^ 200) :
    Sized (Rnd.vsFair r S (matl W) p (vec y) (xs.map vec)) (Spec.vsFair p W y xs) (fairSize p W y xs)
      ((xs.length : ℝ) ^ 2 + (D : ℝ) ^ 2 + 38) := by
  have hne : xs ≠ [] := by intro e; simp [e] at h2
  have h2' : (2:ℝ) ≤ xs.length := by exact_mod_cast h2
  have hD' : (D : ℝ) ≤ 2 ^ 20 := by exact_mod_cast hD2
  have hM' : (xs.length : ℝ) ≤ 2 ^ 20 := by exact_mod_cast hM
  have hDD : (D : ℝ) ^ 2 ≤ 2 ^ 40 := by
    calc (D : ℝ) ^ 2 ≤ (2 ^ 20) ^ 2 := pow_le_pow_left₀ (Nat.cast_nonneg D) hD' 2
      _ = 2 ^ 40 := by rw [← pow_mul]
  have hMM : (xs.length : ℝ) ^ 2 ≤ 2 ^ 40 := by
    calc (xs.length : ℝ) ^ 2 ≤ (2 ^ 20) ^ 2 := pow_le_pow_left₀ (Nat.cast_nonneg _) hM' 2
      _ = 2 ^ 40 := by rw [← pow_mul]
  have hk : 35 + (D : ℝ) ^ 2 ≤ 2 ^ 49 := by
    generalize (D : ℝ) ^ 2 = d at *
    norm_num at *; linarith
  have e1 := smean_near hr hS (l := xs) (f := fun x => Rnd.vsE2 r S (matl W) p D (vec x) (vec y)) (d := xs.length) hne
    (hM.trans (Nat.pow_le_pow_right (by norm_num) (by norm_num))) (by linarith) le_rfl hk
    (fun x hx' => (vsE_near hr hS hp hp2 hD hD2 hW (hx x hx') hy).1)
    (fun x hx' => ⟨wsize_low hD _ _ _, (vsE_near hr hS hp hp2 hD hD2 hW (hx x hx') hy).2⟩)
  have len : (List.product xs xs).length = xs.length ^ 2 := by
    have := List.length_product xs xs
    rw [← sq] at this; exact this
  have mem : ∀ q ∈ List.product xs xs, q.1 ∈ xs ∧ q.2 ∈ xs := fun q hq => by
    exact List.pair_mem_product.1 hq
  have e2 := smean_near hr hS (l := List.product xs xs) (f := fun q => Rnd.vsE2 r S (matl W) p D (vec q.1) (vec q.2))
    (d := (xs.length : ℝ) * ((xs.length : ℝ) - 1))
    (by rw [← List.length_pos_iff, len]; positivity)
    (by rw [len]
        calc xs.length ^ 2 ≤ (2 ^ 20) ^ 2 := Nat.pow_le_pow_left hM 2
          _ = 2 ^ 40 := by rw [← pow_mul])
    (by nlinarith) (by rw [len, Nat.cast_pow]; nlinarith) hk
    (fun q hq => (vsE_near hr hS hp hp2 hD hD2 hW (hx _ (mem q hq).1) (hx _ (mem q hq).2)).1)
    (fun q hq => ⟨wsize_low hD _ _ _, (vsE_near hr hS hp hp2 hD hD2 hW (hx _ (mem q hq).1) (hx _ (mem q hq).2)).2⟩)
  have ps : ∀ h : Eu D → Eu D → ℝ, ((List.product xs xs).map fun q => h q.1 q.2).sum
      = (xs.map fun a => (xs.map fun b => h a b).sum).sum := by
    intro h
    unfold List.product
    rw [List.map_flatMap, sum_flatMap_eq]
    congr 1
    refine List.map_congr_left fun i _ => ?_
    rw [List.map_map]
    rfl
  have pl : (xs.map vec).flatMap (fun x => (xs.map vec).map fun x' => Rnd.vsE2 r S (matl W) p D x x')
      = (List.product xs xs).map fun q => Rnd.vsE2 r S (matl W) p D (vec q.1) (vec q.2) := by
    unfold List.product
    rw [List.map_flatMap, List.flatMap_map]
    congr 1
    funext i
    rw [List.map_map, List.map_map]
    rfl
  rw [ps, ps (fun a b => wsize W (vdiff p a) (vdiff p b)), len, Nat.cast_pow, ← pl] at e2
  obtain ⟨s1, l1, u1⟩ := e1
  obtain ⟨s2, l2, u2⟩ := e2
  have hx2 : (xs.length : ℝ) ≤ (xs.length : ℝ) ^ 2 := by nlinarith
  have uu : (2:ℝ) ^ 990 ≤ 2 ^ 1000 := pow_le_pow_right₀ (by norm_num) (by norm_num)
  have u3 : 1 / 2 * ((xs.map fun a => (xs.map fun b => wsize W (vdiff p a) (vdiff p b)).sum).sum
      / ((xs.length : ℝ) * ((xs.length : ℝ) - 1))) ≤ 2 ^ 990 := by
    have h3 := s2.nonneg
    exact (by linarith : _ ≤ (xs.map fun a => (xs.map fun b => wsize W (vdiff p a) (vdiff p b)).sum).sum
      / ((xs.length : ℝ) * ((xs.length : ℝ) - 1))).trans u2
  have hk2 : 35 + (D : ℝ) ^ 2 + (xs.length : ℝ) ^ 2 + 3 ≤ 2 ^ 50 := by
    generalize (D : ℝ) ^ 2 = d at *
    generalize (xs.length : ℝ) ^ 2 = m at *
    clear u1 u2 u3 l1 l2 s1 s2 uu
    norm_num at *; linarith
  have s3 := (s2.half l2).rd hr (u3.trans uu) (by linarith)
  have s4 := ((s1.mono (by linarith)).sub s3).rd hr
    (by
      have u4 : (2:ℝ) ^ 990 + 2 ^ 990 ≤ 2 ^ 1000 := by
        rw [← two_mul, ← pow_succ']; exact pow_le_pow_right₀ (by norm_num) (by norm_num)
      exact (add_le_add u1 u3).trans u4) (by linarith)
  have s5 := s4.mono (k' := (xs.length : ℝ) ^ 2 + (D : ℝ) ^ 2 + 38) (by linarith)
  have ev : Spec.vsFair p W y xs = (xs.map fun x => vdist p W x y).sum / xs.length - 1 / 2 *
      ((xs.map fun a => (xs.map fun b => vdist p W a b).sum).sum / ((xs.length : ℝ) * ((xs.length : ℝ) - 1))) := by
    unfold Spec.vsFair
    rw [mul_comm (2:ℝ), ← div_div]
    ring
  rw [ev]
  unfold Rnd.vsFair
  simp only [List.length_map, vec_length, natCast_fin, half_fin, natPred_cast h2]
  rw [List.map_map]
  have eE : (fun x => Rnd.vsE1 r S (matl W) p (vec y) x) ∘ vec = fun x : Eu D => Rnd.vsE2 r S (matl W) p D (vec x) (vec y) := by
    funext x
    simp only [Function.comp_apply, Rnd.vsE1, Rnd.vsE2, vec_length]
  rw [eE]
  exact s5

end

end Verif
