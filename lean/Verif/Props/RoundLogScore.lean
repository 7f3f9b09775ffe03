import Verif.Lemmas.RoundLog
import Verif.Lemmas.Nearest64

/-!
# Property C171: the logarithmic scores of probabilities in binary64

The code forms the probability of the outcome as `|fct + obs - 1|` (`core/brier.py:31`, `42`).  For an event that happens the
forecast probability is first added to one, which destroys small probabilities: below `2 ^ -54` the score is infinite,
while the exact score `-log f` is a moderate number.  For probabilities that are not small the error is bounded.
-/

noncomputable section

open scoped Classical

namespace Verif

open XF Py Spec

/-- Without rounding the functions are those of the exact model, in whatever order the entries are added. -/
theorem C171_exact {T S : List XF → XF} (hT : ∀ xs, RSum fin xs (T xs)) (hS : ∀ xs, RSum fin xs (S xs)) :
    Rnd.log1 fin = Brier.log1 ∧ Rnd.rls1 fin T S = Brier.rls1 := by
  have ht : T = List.sum := funext fun xs => (hT xs).exact
  have hs : S = List.sum := funext fun xs => (hS xs).exact
  subst ht hs
  constructor
  · funext o f
    simp only [Rnd.log1, Brier.log1, rd_fin_eq]
  · funext o f
    simp only [Rnd.rls1, Rnd.log1, Brier.rls1, Rnd.cumsum, Py.cumsum, rd_fin_eq]

example : ∃ T S : List XF → XF, (∀ xs, RSum fin xs (T xs)) ∧ ∀ xs, RSum fin xs (S xs) := by
  obtain ⟨S, hS⟩ := exists_rsum fin
  exact ⟨S, S, hS, hS⟩

theorem log1_absorbed {r : ℝ → XF} (hr : Binary64 r) {f : ℝ} (h0 : 0 < f) (hf : f ≤ 1 / 2 ^ 54) :
    Rnd.log1 r 1 (fin f) = pinf := by
  have e : Rnd.rd r (fin f + 1) = fin 1 := by
    rw [one_fin, fin_add]
    exact hr.one (by rw [add_sub_cancel_right, abs_of_pos h0]; exact hf)
  have z : Rnd.rd r (fin 0) = fin 0 := hr.under (by rw [abs_zero]; positivity)
  unfold Rnd.log1
  rw [e, one_fin, fin_sub, sub_self, z]
  show -Rnd.rd r (XF.log (fin |0|)) = pinf
  rw [abs_zero]
  simp [XF.log, Rnd.rd]
  rfl

/-- The score of an event that happens is infinite for every probability up to `2 ^ -54`, although the score of the
probability `2 ^ -60` is `60 log 2`, about 41.6. -/
theorem C171_log_false {r : ℝ → XF} (hr : Binary64 r) :
    (∀ f : ℝ, 0 < f → f ≤ 1 / 2 ^ 54 → Rnd.log1 r 1 (fin f) = pinf) ∧
      Rnd.log1 fin 1 (fin (1 / 2 ^ 60)) = fin (60 * Real.log 2) ∧ -Real.log (probOf (1 / 2 ^ 60) true) = 60 * Real.log 2 := by
  have l : -Real.log (1 / 2 ^ 60) = 60 * Real.log 2 := by
    rw [one_div, Real.log_inv, Real.log_pow, neg_neg]; norm_num
  refine ⟨fun f h0 hf => log1_absorbed hr h0 hf, ?_, ?_⟩
  · simp only [Rnd.log1, rd_fin_eq]
    rw [one_fin, fin_add, fin_sub, add_sub_cancel_right]
    show -XF.log (fin |1 / 2 ^ 60|) = _
    rw [abs_of_pos (by positivity)]
    simp only [XF.log]
    rw [if_pos (by positivity), fin_neg, l]
  · simp only [probOf, if_true]
    exact l

example : Binary64 rn64 ∧ (0:ℝ) < 1 / 2 ^ 60 ∧ (1:ℝ) / 2 ^ 60 ≤ 1 / 2 ^ 54 :=
  ⟨rn64_nearest.toBinary64, by positivity, by norm_num⟩

/-- The log score of the probability `f`, for both outcomes.  Missing from the full claim: probabilities of the outcome
below `2 ^ -48`, for which the claim is false (`C171_log_false`). -/
theorem C171_log_partial {r : ℝ → XF} (hr : Binary64 r) {f : ℝ} (h0 : 0 ≤ f) (h1 : f ≤ 1 + 1 / 2 ^ 10) (o : Bool)
    (hp : 1 / 2 ^ 48 ≤ probOf f o) :
    ∃ v : ℝ, Rnd.log1 r (if o then 1 else 0) (fin f) = fin v ∧
      |v - -Real.log (probOf f o)| ≤ (4 / probOf f o + 1) / 2 ^ 51 * (|Real.log (probOf f o)| + 1) := by
  have hp0 : 0 < probOf f o := lt_of_lt_of_le (by positivity) hp
  have hw : (if o then (1 : XF) else 0) = fin (if o then 1 else 0) := by split_ifs <;> rfl
  have e : |f + (if o then 1 else 0) - 1| = probOf f o := by
    cases o
    · simp only [probOf] at *
      simp only [Bool.false_eq_true, if_false] at *
      rw [add_zero, abs_sub_comm, abs_of_pos hp0]
    · simp only [probOf, if_true] at *
      rw [add_sub_cancel_right, abs_of_pos hp0]
  rw [hw]
  have s := log1_near hr (u := f) (F := f) (w := if o then 1 else 0) (O := if o then 1 else 0) (e1 := 0) (e2 := 0)
    (p := probOf f o) (δ := probOf f o) (k := 4 / probOf f o) (by rw [sub_self, abs_zero]) (by rw [sub_self, abs_zero])
    h0 (h1.trans (by norm_num)) (by split_ifs <;> norm_num) (by split_ifs <;> norm_num) e
    (le_trans (by norm_num) hp) le_rfl
    (by
      have : (1:ℝ) / 2 ^ 50 ≤ 1 / 2 ^ 48 / 2 := by norm_num
      linarith)
    (by norm_num) (le_of_eq (by field_simp; norm_num)) (by
      rw [div_le_iff₀ hp0]
      calc (4:ℝ) = 2 ^ 50 * (1 / 2 ^ 48) := by norm_num
        _ ≤ _ := mul_le_mul_of_nonneg_left hp (by positivity))
  obtain ⟨_, _, v, ev, hv⟩ := s
  exact ⟨v, ev, hv.trans (le_of_eq (by ring))⟩

example : Binary64 rn64 ∧ (0:ℝ) ≤ 1 / 4 ∧ (1:ℝ) / 4 ≤ 1 + 1 / 2 ^ 10 ∧ 1 / 2 ^ 48 ≤ probOf (1 / 4) true ∧
    1 / 2 ^ 48 ≤ probOf (1 / 4) false :=
  ⟨rn64_nearest.toBinary64, by norm_num, by norm_num, by norm_num [probOf], by norm_num [probOf]⟩

/-- The ranked log score of the forecast `(2 ^ -60, 1)` when the first category occurs is infinite in every order of
summation, while the exact score is `60 log 2 - log (1 + 2 ^ -60)`, a number. -/
theorem C171_rls_false {r : ℝ → XF} (hr : Binary64 r) {T S : List XF → XF} (hT : ∀ xs, RSum r xs (T xs))
    (hS : ∀ xs, RSum r xs (S xs)) :
    Rnd.rls1 r T S [1, 0] [fin (1 / 2 ^ 60), 1] = pinf ∧
      rls [1 / 2 ^ 60, 1] 1 = 60 * Real.log 2 - Real.log (1 + 1 / 2 ^ 60) := by
  have q : (1:ℝ) / 2 ^ 60 ≤ 1 / 2 ^ 54 := by norm_num
  have t1 : ∀ x : XF, T [x] = x := fun x => (hT [x]).eq_one rfl
  have t2 : ∀ x y : XF, T [x, y] = Rnd.rd r (x + y) := fun x y => (hT [x, y]).two (List.Perm.refl _)
  constructor
  · have e1 : T [fin (1 / 2 ^ 60), 1] = 1 := by
      rw [t2, one_fin, fin_add]
      exact hr.one (by rw [add_sub_cancel_right, abs_of_pos (by positivity)]; exact q)
    have e2 : T [1, 0] = 1 := by
      rw [t2, one_fin, show (0:XF) = fin 0 from rfl, fin_add, add_zero]
      exact hr.one (by rw [sub_self, abs_zero]; positivity)
    have l : zip2 (fun f o => Rnd.log1 r o f) (Rnd.cumsum T [fin (1 / 2 ^ 60), 1]) (Rnd.cumsum T [1, 0])
        = [pinf, Rnd.log1 r 1 1] := by
      simp only [Rnd.cumsum, zip2, List.length_cons, List.length_nil, List.range_succ, List.range_zero, List.nil_append,
        List.map_cons, List.map_nil, List.take_succ_cons, List.take_zero, List.cons_append, zero_add,
        List.zipWith_cons_cons, List.zipWith_nil_left, t1, e1, e2]
      rw [log1_absorbed hr (by positivity) q]
    have z1 : Rnd.log1 r 1 1 = 0 := by
      have d2 : Rnd.rd r (fin 2) = fin 2 := hr.nat 2 (by norm_num)
      have d1 : Rnd.rd r (fin 1) = fin 1 := hr.one (by rw [sub_self, abs_zero]; positivity)
      have z : Rnd.rd r (fin 0) = fin 0 := hr.under (by rw [abs_zero]; positivity)
      unfold Rnd.log1
      rw [one_fin, fin_add, show (1:ℝ) + 1 = 2 by norm_num, d2, fin_sub, show (2:ℝ) - 1 = 1 by norm_num, d1]
      show -Rnd.rd r (XF.log (fin |1|)) = 0
      rw [abs_one]
      simp only [XF.log]
      rw [if_pos one_pos, Real.log_one, z, fin_neg, neg_zero]; rfl
    unfold Rnd.rls1
    rw [l, z1, (hS [pinf, 0]).two (List.Perm.refl _)]
    rfl
  · have c0 : cum [1 / 2 ^ 60, 1] 0 = 1 / 2 ^ 60 := by simp [cum]
    have c1 : cum [1 / 2 ^ 60, 1] 1 = 1 + 1 / 2 ^ 60 := by simp [cum, add_comm]
    have l : -Real.log (1 / 2 ^ 60) = 60 * Real.log 2 := by
      rw [one_div, Real.log_inv, Real.log_pow, neg_neg]; norm_num
    unfold rls
    simp only [List.length_cons, List.length_nil, List.range_succ, List.range_zero, List.nil_append,
      List.map_cons, List.map_nil, List.cons_append, zero_add, List.sum_cons, List.sum_nil, add_zero, c0, c1, probOf]
    simp only [le_refl, Nat.one_le_ofNat, Nat.reduceAdd, decide_true, if_true]
    rw [l]; ring

example : ∃ T S : List XF → XF, (∀ xs, RSum rn64 xs (T xs)) ∧ (∀ xs, RSum rn64 xs (S xs)) ∧ Binary64 rn64 := by
  obtain ⟨S, hS⟩ := exists_rsum rn64
  exact ⟨S, S, hS, hS, rn64_nearest.toBinary64⟩

/-- The ranked log score of probabilities `f` when category `c` occurs.  Missing from the full claim: forecasts for which the
probability of the outcome at some threshold is below `(K + 4) / 2 ^ 47`, where the claim is false (`C171_rls_false`). -/
theorem C171_rls_partial {r : ℝ → XF} (hr : Binary64 r) {T S : List XF → XF} (hT : ∀ xs, RSum r xs (T xs))
    (hS : ∀ xs, RSum r xs (S xs)) {f : List ℝ} {c : ℕ} {δ : ℝ} (hc : 1 ≤ c) (hcK : c ≤ f.length) (hK : f.length ≤ 2 ^ 20)
    (h0 : ∀ p ∈ f, 0 ≤ p) (h1 : f.sum ≤ 1 + 1 / 2 ^ 10) (hd : ((f.length : ℝ) + 4) / 2 ^ 47 ≤ δ)
    (hp : ∀ j < f.length, δ ≤ probOf (cum f j) (decide (c ≤ j + 1))) :
    ∃ v : ℝ, Rnd.rls1 r T S ((List.range f.length).map fun j => if c = j + 1 then 1 else 0) (f.map fin) = fin v ∧
      |v - rls f c| ≤ (6 * (f.length + 4) / δ + f.length + 1) / 2 ^ 51 *
        ((List.range f.length).map fun j => |Real.log (probOf (cum f j) (decide (c ≤ j + 1)))| + 1).sum := by
  have hK'' : (f.length : ℝ) ≤ 1048576 := by
    have : (f.length : ℝ) ≤ 2 ^ 20 := by exact_mod_cast hK
    exact this.trans (by norm_num)
  have hK1 : (1:ℝ) ≤ f.length := by exact_mod_cast hc.trans hcK
  have hne : List.range f.length ≠ [] := by
    rw [← List.length_pos_iff, List.length_range]; omega
  have eo : ((List.range f.length).map fun j => if c = j + 1 then (1 : XF) else 0) = (hotRow f.length c).map fin := by
    unfold hotRow
    rw [List.map_map]
    refine List.map_congr_left fun j _ => ?_
    simp only [Function.comp_apply]
    split_ifs <;> rfl
  have len : (hotRow f.length c).length = f.length := by simp [hotRow]
  have so : ∀ j < f.length, cum (hotRow f.length c) j ≤ 1 := fun j hj => by
    rw [hot_cum hc hj]; split_ifs <;> norm_num
  have sf : ∀ j, cum f j ≤ 1 + 1 / 2 ^ 10 := fun j => (cum_le h0 j).trans h1
  have p400 : (2:ℝ) ≤ 2 ^ 400 := le_self_pow₀ (by norm_num) (by norm_num)
  have hos : (hotRow f.length c).sum ≤ 1 := by
    have : (hotRow f.length c).sum = cum (hotRow f.length c) (f.length - 1) := by
      unfold cum
      rw [List.take_of_length_le (by rw [len]; omega)]
    rw [this]; exact so _ (by omega)
  have hd0 : 0 < δ := lt_of_lt_of_le (by positivity) hd
  have l520 : (1:ℝ) * (1 / 2 ^ 520) ≤ 1 / 2 * (1 / 2 ^ 51) := by
    rw [one_mul, one_div_mul_one_div, ← pow_succ']
    exact one_div_le_one_div_of_le (by positivity) (pow_le_pow_right₀ (by norm_num) (by norm_num))
  generalize hKr : (f.length : ℝ) = K at *
  have hKd : (K + 4) * (1 / 2 ^ 51) ≤ δ / 16 := by
    rw [div_le_iff₀ (by positivity)] at hd
    rw [mul_one_div, div_le_iff₀ (by positivity)]
    calc K + 4 ≤ δ * 2 ^ 47 := hd
      _ = δ / 16 * 2 ^ 51 := by ring
  have ee : ((2 * K + 5) * (1 / 2 ^ 51) : ℝ) + (K + 5) * (1 / 2 ^ 51) + 1 / 2 ^ 50 = 3 * ((K + 4) * (1 / 2 ^ 51)) := by ring
  have hkk : 6 * (K + 4) / δ ≤ 6 * 2 ^ 47 := by
    rw [div_le_iff₀ hd0]
    rw [div_le_iff₀ (by positivity)] at hd
    calc 6 * (K + 4) ≤ 6 * (δ * 2 ^ 47) := by linarith only [hd]
      _ = 6 * 2 ^ 47 * δ := by ring
  have ht : ∀ j ∈ List.range f.length, Sized
      (Rnd.log1 r (T (((hotRow f.length c).map fin).take (j + 1))) (T ((f.map fin).take (j + 1))))
      (-Real.log (probOf (cum f j) (decide (c ≤ j + 1)))) (|Real.log (probOf (cum f j) (decide (c ≤ j + 1)))| + 1)
      (6 * (K + 4) / δ + 1) := by
    intro j hj
    have hj := List.mem_range.1 hj
    obtain ⟨u, eu, _, hu⟩ := cum_near hr h0 (h1.trans (le_trans (by norm_num) p400)) hK j (hT _)
    obtain ⟨w, ew, _, hw⟩ :=
      cum_near hr hot_nonneg (hos.trans (le_trans (by norm_num) p400)) (by rw [len]; exact hK) j (hT _)
    rw [len, hKr] at hw
    rw [hKr] at hu
    rw [eu, ew]
    have hu2 : |u - cum f j| ≤ (2 * K + 5) * (1 / 2 ^ 51) := by
      refine hu.trans (le_trans (add_le_add (mul_le_mul_of_nonneg_left (sf j) (by positivity)) l520) ?_)
      have q0 : (0:ℝ) ≤ 1 / 2 ^ 51 := by positivity
      have : (K + 2) * (1 + 1 / 2 ^ 10) + 1 / 2 ≤ 2 * K + 5 := by
        norm_num; linarith only [hK1]
      calc (K + 2) * (1 / 2 ^ 51) * (1 + 1 / 2 ^ 10) + 1 / 2 * (1 / 2 ^ 51)
          = ((K + 2) * (1 + 1 / 2 ^ 10) + 1 / 2) * (1 / 2 ^ 51) := by ring
        _ ≤ _ := mul_le_mul_of_nonneg_right this q0
    have hw2 : |w - cum (hotRow f.length c) j| ≤ (K + 5) * (1 / 2 ^ 51) := by
      refine hw.trans (le_trans (add_le_add (mul_le_mul_of_nonneg_left (so j hj) (by positivity)) l520) ?_)
      have q0 : (0:ℝ) ≤ 1 / 2 ^ 51 := by positivity
      nlinarith only [q0]
    have hpj := hp j hj
    have ep : |cum f j + cum (hotRow f.length c) j - 1| = probOf (cum f j) (decide (c ≤ j + 1)) := by
      have pos := hd0.trans_le hpj
      rw [hot_cum hc hj]
      unfold probOf at *
      by_cases h : c ≤ j + 1
      · simp only [h, decide_true, if_true] at *
        rw [add_sub_cancel_right, abs_of_pos pos]
      · simp only [h, decide_false, Bool.false_eq_true, if_false] at *
        rw [add_zero, abs_sub_comm, abs_of_pos pos]
    refine log1_near hr hu2 hw2 (cum_nonneg h0 j) ((sf j).trans (by norm_num)) (cum_nonneg hot_nonneg j) (so j hj) ep
      (le_trans ?_ hd) hpj ?_ ?_ ?_ (hkk.trans (by norm_num))
    · rw [div_le_div_iff₀ (by positivity) (by positivity)]
      norm_num; linarith only [hK1]
    · rw [ee]; linarith only [hKd, hd0]
    · have : (3 * K + 10) * (1 / 2 ^ 51) ≤ 1 / 4 := by
        rw [mul_one_div, div_le_iff₀ (by positivity)]; norm_num; linarith only [hK'']
      linarith only [this]
    · rw [ee]; exact le_of_eq (by ring)
  have big : ((List.range f.length).map fun j => |Real.log (probOf (cum f j) (decide (c ≤ j + 1)))| + 1).sum ≤ 2 ^ 1000 := by
    refine (List.sum_le_card_nsmul _ ((2:ℝ) ^ 50) fun x hx => ?_).trans ?_
    · obtain ⟨j, hj, rfl⟩ := List.mem_map.1 hx
      have hj := List.mem_range.1 hj
      refine log_size (le_trans ?_ (hd.trans (hp j hj))) ?_
      · rw [div_le_div_iff₀ (by positivity) (by positivity)]
        norm_num; linarith only [hK1]
      · have a0 := cum_nonneg h0 j
        have a1 := sf j
        have : (1:ℝ) + 1 / 2 ^ 10 ≤ 2 := by norm_num
        unfold probOf
        split_ifs <;> linarith only [a0, a1, this]
    · rw [List.length_map, List.length_range, nsmul_eq_mul, hKr]
      calc K * 2 ^ 50 ≤ 1048576 * 2 ^ 50 := mul_le_mul_of_nonneg_right hK'' (by positivity)
        _ = 2 ^ 70 := by norm_num
        _ ≤ 2 ^ 1000 := pow_le_pow_right₀ (by norm_num) (by norm_num)
  have s := Sized.sum hr (hS ((List.range f.length).map fun j =>
      Rnd.log1 r (T (((hotRow f.length c).map fin).take (j + 1))) (T ((f.map fin).take (j + 1))))) hne ht big (by
    rw [List.length_range, hKr]
    calc 6 * (K + 4) / δ + 1 + K ≤ 6 * 2 ^ 47 + 1 + 1048576 := by linarith only [hkk, hK'']
      _ ≤ 2 ^ 50 := by norm_num)
  rw [List.length_range, hKr] at s
  obtain ⟨_, _, v, e, hv⟩ := s
  refine ⟨v, ?_, hv.trans (le_of_eq ?_)⟩
  · rw [eo, ← e]
    unfold Rnd.rls1 zip2 Rnd.cumsum
    rw [List.length_map, List.length_map, len, List.zipWith_map, List.zipWith_self]
  · ring

example : ∃ (T S : List XF → XF), (∀ xs, RSum rn64 xs (T xs)) ∧ (∀ xs, RSum rn64 xs (S xs)) ∧ Binary64 rn64 ∧ 1 ≤ 2 ∧
    2 ≤ [(1:ℝ) / 4, 1 / 2, 1 / 4].length ∧ [(1:ℝ) / 4, 1 / 2, 1 / 4].length ≤ 2 ^ 20 ∧
    (∀ p ∈ [(1:ℝ) / 4, 1 / 2, 1 / 4], 0 ≤ p) ∧ [(1:ℝ) / 4, 1 / 2, 1 / 4].sum ≤ 1 + 1 / 2 ^ 10 ∧
    (([(1:ℝ) / 4, 1 / 2, 1 / 4].length : ℝ) + 4) / 2 ^ 47 ≤ 1 / 2 ∧
    ∀ j < [(1:ℝ) / 4, 1 / 2, 1 / 4].length, 1 / 2 ≤ probOf (cum [(1:ℝ) / 4, 1 / 2, 1 / 4] j) (decide (2 ≤ j + 1)) := by
  obtain ⟨S, hS⟩ := exists_rsum rn64
  refine ⟨S, S, hS, hS, rn64_nearest.toBinary64, by norm_num, by simp, by simp, ?_, by norm_num, by norm_num, ?_⟩
  · intro p hp
    simp only [List.mem_cons, List.not_mem_nil, or_false] at hp
    rcases hp with rfl | rfl | rfl <;> norm_num
  · intro j hj
    simp only [List.length_cons, List.length_nil] at hj
    interval_cases j <;> norm_num [cum, probOf]

end Verif
