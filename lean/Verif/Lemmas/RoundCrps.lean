import Verif.Model.RoundCrps
import Verif.Model.Rounding32
import Verif.Lemmas.RoundEnergy
import Verif.Lemmas.CrpsUnweighted
import Verif.Lemmas.CrpsIntegral
import Verif.Lemmas.CrpsApi
import Verif.Lemmas.Nearest64

/-! Rounded distances, their means, and the estimators of the ensemble CRPS made from them. -/

noncomputable section

open scoped Classical

namespace Verif

open XF Py Spec

theorem unit_abs : Unit' (1 / 2 ^ 1073) :=
  ⟨le_refl _, by rw [div_le_one (by positivity)]; exact one_le_pow₀ (by norm_num)⟩

theorem spair_nonneg' (xs : List ℝ) : 0 ≤ sumAbsDiff xs :=
  list_sum_nonneg' fun _ _ => list_sum_nonneg' fun _ _ => abs_nonneg _

theorem meanAbs_nonneg' (y : ℝ) (xs : List ℝ) : 0 ≤ meanAbs y xs :=
  div_nonneg (list_sum_nonneg' fun _ _ => abs_nonneg _) (Nat.cast_nonneg _)

theorem sumAbsDiff_le (y : ℝ) {xs : List ℝ} (h : xs ≠ []) :
    sumAbsDiff xs ≤ 2 * (xs.length : ℝ) ^ 2 * meanAbs y xs := by
  have hM : (xs.length : ℝ) ≠ 0 := by simpa using h
  have e : (xs.map fun x => |x - y|).sum = xs.length * meanAbs y xs := by unfold meanAbs; field_simp
  have h1 : ∀ a ∈ xs, (xs.map fun b => |a - b|).sum ≤ xs.length * |a - y| + xs.length * meanAbs y xs := by
    intro a _
    have : (xs.map fun b => |a - b|).sum ≤ (xs.map fun b => |a - y| + |b - y|).sum :=
      List.sum_le_sum fun b _ => by rw [abs_sub_comm b y]; exact abs_sub_le a y b
    refine this.trans (le_of_eq ?_)
    rw [List.sum_map_add, e]
    simp
  refine (List.sum_le_sum h1).trans (le_of_eq ?_)
  rw [List.sum_map_add, List.sum_map_mul_left, e]
  simp
  ring

section
variable {r : ℝ → XF} (hr : Binary64 r)
include hr

/-- one rounded distance -/
theorem adiff_near {a b : ℝ} (h : |a - b| ≤ 2 ^ 960) :
    SqNear (1 / 2 ^ 1073) (Rnd.adiff r (fin a) (fin b)) |a - b| 1 1 := by
  obtain ⟨δ, η, hδ, hη, e1⟩ := hr.acc (h.trans_lt (pow_lt_pow_right₀ (by norm_num) (by norm_num)))
  unfold Rnd.adiff
  rw [fin_sub]
  show SqNear _ (XF.abs (r (a - b))) _ _ _
  rw [e1, fin_abs]
  refine ⟨_, rfl, abs_nonneg _, ?_⟩
  refine (abs_abs_sub_abs_le _ _).trans ?_
  rw [show (a - b) * (1 + δ) + η - (a - b) = (a - b) * δ + η by ring]
  refine (abs_add_le _ _).trans (add_le_add ?_ ?_)
  · rw [abs_mul, mul_comm]
    exact mul_le_mul_of_nonneg_right (hδ.trans (by norm_num)) (abs_nonneg _)
  · rw [one_mul]
    exact hη.trans (one_div_le_one_div_of_le (by positivity) (pow_le_pow_right₀ (by norm_num) (by norm_num)))

variable {S : List XF → XF} (hS : ∀ xs, RSum r xs (S xs))
include hS

/-- the sum of rounded distances of pairs, divided -/
theorem dmean_near {l : List (ℝ × ℝ)} {d : ℝ} (hl : l.length ≤ 2 ^ 40) (hd : 1 ≤ d) (hdl : l.length ≤ 2 * d)
    (h : ∀ q ∈ l, |q.1 - q.2| ≤ 2 ^ 960) :
    SqNear (1 / 2 ^ 1073) (Rnd.rd r (S (l.map fun q => Rnd.adiff r (fin q.1) (fin q.2)) / fin d))
      ((l.map fun q => |q.1 - q.2|).sum / d) (l.length + 2) 5 ∧ (l.map fun q => |q.1 - q.2|).sum / d ≤ 2 ^ 961 := by
  have hl' : (l.length : ℝ) ≤ 2 ^ 40 := by exact_mod_cast hl
  have hd0 : 0 < d := by linarith
  have h0 : 0 ≤ (l.map fun q => |q.1 - q.2|).sum := list_sum_nonneg' fun _ _ => abs_nonneg _
  have hs1 : (l.map fun q => |q.1 - q.2|).sum ≤ l.length * 2 ^ 960 := sum_map_le h
  have hmean : (l.map fun q => |q.1 - q.2|).sum / d ≤ 2 ^ 961 := by
    rw [div_le_iff₀ hd0]
    calc (l.map fun q => |q.1 - q.2|).sum ≤ 2 * d * 2 ^ 960 := hs1.trans (mul_le_mul_of_nonneg_right hdl (by positivity))
      _ = 2 ^ 961 * d := by
        have e : (2:ℝ) ^ 961 = 2 ^ 960 * 2 := pow_succ _ _
        rw [e]; generalize (2:ℝ) ^ 960 = P; ring
  refine ⟨?_, hmean⟩
  have hs := (hS (l.map fun q => Rnd.adiff r (fin q.1) (fin q.2))).sqNear hr unit_abs
    (k := 1) (m := 1) (by norm_num) (as := l.map fun q => |q.1 - q.2|) ?_ ?_ ?_ ?_
  · simp only [List.length_map] at hs
    have m4 : (1 + 1) * (l.length : ℝ) / d ≤ 4 := by rw [div_le_iff₀ hd0]; linarith
    have := (hs.div hd0).rd hr unit_abs (div_nonneg h0 hd0.le)
      (hmean.trans (pow_le_pow_right₀ (by norm_num) (by norm_num))) ?_ (m4.trans (by norm_num))
    · exact this.mono unit_abs.nonneg (div_nonneg h0 hd0.le) (by linarith) (by linarith)
    · clear hs h0 hs1 hmean h hdl m4
      generalize (l.length : ℝ) = M at *
      norm_num at *; linarith
  · rw [List.forall₂_map_left_iff, List.forall₂_map_right_iff, List.forall₂_same]
    intro q hq
    exact ⟨abs_nonneg _, adiff_near hr (h q hq)⟩
  · refine hs1.trans ?_
    calc (l.length : ℝ) * 2 ^ 960 ≤ 2 ^ 40 * 2 ^ 960 := mul_le_mul_of_nonneg_right hl' (by positivity)
      _ = 2 ^ 1000 := by rw [← pow_add]
  · simp only [List.length_map]
    clear h0 hs1 hmean h hdl
    generalize (l.length : ℝ) = M at *
    norm_num at *; linarith
  · simp only [List.length_map]
    clear h0 hs1 hmean h hdl
    generalize (l.length : ℝ) = M at *
    norm_num at *; linarith

theorem crpsE1_near {y : ℝ} {xs : List ℝ} (hne : xs ≠ []) (hM : xs.length ≤ 2 ^ 20) (hy : |y| ≤ 2 ^ 959)
    (hx : ∀ x ∈ xs, |x| ≤ 2 ^ 959) :
    SqNear (1 / 2 ^ 1073) (Rnd.crpsE1 r S (fin y) (xs.map fin)) (meanAbs y xs) (xs.length + 2) 5 ∧
      meanAbs y xs ≤ 2 ^ 961 := by
  have hM1 : (1:ℝ) ≤ xs.length := by exact_mod_cast List.length_pos_iff.mpr hne
  have := dmean_near hr hS (l := xs.map fun x => (y, x)) (d := xs.length)
    (by rw [List.length_map]; exact hM.trans (by norm_num)) hM1 (by rw [List.length_map]; linarith) (by
      intro q hq
      obtain ⟨x, hx', rfl⟩ := List.mem_map.1 hq
      refine (abs_sub _ _).trans ((add_le_add hy (hx x hx')).trans (le_of_eq ?_))
      rw [← two_mul, ← pow_succ'])
  rw [List.length_map, List.map_map, List.map_map] at this
  have e : ((fun q : ℝ × ℝ => |q.1 - q.2|) ∘ fun x => (y, x)) = fun x => |x - y| := by
    funext x; exact abs_sub_comm _ _
  rw [e] at this
  unfold Rnd.crpsE1
  rw [List.length_map, List.map_map, natCast_fin]
  exact this

/-- the two forms that subtract half the mean distance of pairs -/
theorem crpsPair_near {y : ℝ} {xs : List ℝ} (hne : xs ≠ []) (hM : xs.length ≤ 2 ^ 20) (hy : |y| ≤ 2 ^ 959)
    (hx : ∀ x ∈ xs, |x| ≤ 2 ^ 959) {Q : ℝ} (hQ1 : 1 ≤ Q) (hQ : (xs.length : ℝ) ^ 2 ≤ 2 * Q) :
    ∃ v : ℝ, Rnd.rd r (Rnd.crpsE1 r S (fin y) (xs.map fin)
        - Rnd.rd r (fin (1 / 2) * Rnd.rd r (Rnd.crpsPairs r S (xs.map fin) / fin Q))) = fin v ∧
      |v - (meanAbs y xs - 1 / 2 * (sumAbsDiff xs / Q))| ≤ (xs.length : ℝ) ^ 2 / 2 ^ 47 * meanAbs y xs + 1 / 2 ^ 1069 := by
  have hM' : (xs.length : ℝ) ≤ 2 ^ 20 := by exact_mod_cast hM
  have hM1 : (1:ℝ) ≤ xs.length := by exact_mod_cast List.length_pos_iff.mpr hne
  have hMM : (xs.length : ℝ) ^ 2 ≤ 2 ^ 40 := by
    calc (xs.length : ℝ) ^ 2 ≤ (2 ^ 20) ^ 2 := pow_le_pow_left₀ (Nat.cast_nonneg _) hM' 2
      _ = 2 ^ 40 := by rw [← pow_mul]
  have hQ0 : 0 < Q := by linarith
  obtain ⟨n1, b1⟩ := crpsE1_near hr hS hne hM hy hx
  have len : (List.product xs xs).length = xs.length ^ 2 := by
    have := List.length_product xs xs
    rw [← sq] at this; exact this
  have n2 := dmean_near hr hS (l := List.product xs xs) (d := Q)
    (by rw [len]
        calc xs.length ^ 2 ≤ (2 ^ 20) ^ 2 := Nat.pow_le_pow_left hM 2
          _ = 2 ^ 40 := by rw [← pow_mul]) hQ1 (by rw [len, Nat.cast_pow]; exact hQ) (by
      intro q hq
      have := List.pair_mem_product.1 hq
      refine (abs_sub _ _).trans ((add_le_add (hx _ this.1) (hx _ this.2)).trans (le_of_eq ?_))
      rw [← two_mul, ← pow_succ'])
  have ps : ((List.product xs xs).map fun q => |q.1 - q.2|).sum = sumAbsDiff xs := by
    unfold List.product sumAbsDiff
    rw [List.map_flatMap, sum_flatMap_eq]
    congr 1
    refine List.map_congr_left fun i _ => ?_
    rw [List.map_map]
    rfl
  have pl : ((List.product xs xs).map fun q => Rnd.adiff r (fin q.1) (fin q.2))
      = (xs.map fin).flatMap fun a => (xs.map fin).map fun b => Rnd.adiff r a b := by
    unfold List.product
    rw [List.map_flatMap, List.flatMap_map]
    congr 1
    funext i
    rw [List.map_map, List.map_map]
    rfl
  rw [ps, pl, len, Nat.cast_pow] at n2
  obtain ⟨n2, b2⟩ := n2
  have p1 := meanAbs_nonneg' y xs
  have p2 := spair_nonneg' xs
  have p3 : 0 ≤ sumAbsDiff xs / Q := by positivity
  have hpd := sumAbsDiff_le y hne
  have hpq : sumAbsDiff xs / Q ≤ 4 * meanAbs y xs := by
    rw [div_le_iff₀ hQ0]
    refine hpd.trans ?_
    nlinarith
  have u1 : (2:ℝ) ^ 961 ≤ 2 ^ 1000 := pow_le_pow_right₀ (by norm_num) (by norm_num)
  have u2 : (2:ℝ) ^ 961 + 2 ^ 961 ≤ 2 ^ 1000 := by
    rw [← two_mul, ← pow_succ']; exact pow_le_pow_right₀ (by norm_num) (by norm_num)
  have hk : (xs.length : ℝ) ^ 2 + 3 ≤ 2 ^ 50 := by
    clear n1 n2 b1 b2 hpd hpq hQ
    generalize (xs.length : ℝ) ^ 2 = m at *
    clear hM' hM hM1
    norm_num at *; linarith
  have b3 : 1 / 2 * (sumAbsDiff xs / Q) ≤ 2 ^ 961 := le_trans (by linarith) b2
  have n4 := n2.half.rd hr unit_abs (by positivity) (b3.trans u1) (by linarith) (by norm_num)
  have hx2 : (xs.length : ℝ) ≤ (xs.length : ℝ) ^ 2 := by nlinarith
  have n1' := n1.mono unit_abs.nonneg p1 (k' := (xs.length : ℝ) ^ 2 + 3) (m' := 5) (by linarith) (le_refl _)
  have n4' := n4.mono unit_abs.nonneg (by positivity) (k' := (xs.length : ℝ) ^ 2 + 3) (m' := 4) (by linarith) (by norm_num)
  obtain ⟨v, e, hv⟩ := sub_near hr unit_abs n1' n4' p1 (by positivity) hk (by norm_num) ((add_le_add b1 b3).trans u2)
  refine ⟨v, e, hv.trans (add_le_add ?_ ?_)⟩
  · have f1 : meanAbs y xs + 1 / 2 * (sumAbsDiff xs / Q) ≤ 3 * meanAbs y xs := by linarith
    have f2 : (xs.length : ℝ) ^ 2 + 3 + 1 ≤ 5 * (xs.length : ℝ) ^ 2 := by nlinarith
    calc _ ≤ (5 * (xs.length : ℝ) ^ 2) * (1 / 2 ^ 51) * (3 * meanAbs y xs) := by gcongr
      _ = 15 / 2 ^ 51 * ((xs.length : ℝ) ^ 2 * meanAbs y xs) := by ring
      _ ≤ 1 / 2 ^ 47 * ((xs.length : ℝ) ^ 2 * meanAbs y xs) := by
        refine mul_le_mul_of_nonneg_right (by norm_num) (by positivity)
      _ = _ := by ring
  · rw [show (1073:ℕ) = 4 + 1069 from rfl, pow_add, ← one_div_mul_one_div, ← mul_assoc]
    have : (0:ℝ) < 1 / 2 ^ 1069 := by positivity
    generalize (1:ℝ) / 2 ^ 1069 = w at *
    norm_num; linarith

end

/-- half-integers are kept -/
theorem Nearest64.half_int {r : ℝ → XF} (hr : Nearest64 r) {n : ℕ} (h0 : 0 < n) (hn : n < 2 ^ 53) :
    r (n / 2) = fin (n / 2) := by
  have hn0 : (0:ℝ) < (n:ℝ) / 2 := by positivity
  set e := Int.log 2 ((n:ℝ) / 2) with he
  have h1 : (2:ℝ) ^ e ≤ (n:ℝ) / 2 := by exact_mod_cast Int.zpow_log_le_self (b := 2) (by norm_num) hn0
  have h2 : (n:ℝ) / 2 < (2:ℝ) ^ (e + 1) := by exact_mod_cast Int.lt_zpow_succ_log_self (b := 2) (by norm_num) ((n:ℝ) / 2)
  have n1 : (1:ℝ) ≤ n := by exact_mod_cast h0
  have n2 : (n:ℝ) < 2 ^ 53 := by exact_mod_cast hn
  have e1 : -1 ≤ e := by
    by_contra hc
    have : e + 1 ≤ -1 := by omega
    have h3 : (2:ℝ) ^ (e + 1) ≤ (2:ℝ) ^ (-1 : ℤ) := zpow_le_zpow_right₀ (by norm_num) this
    norm_num at h3
    linarith
  have e2 : e ≤ 51 := by
    by_contra hc
    have : (52:ℤ) ≤ e := by omega
    have h3 : (2:ℝ) ^ (52 : ℤ) ≤ (2:ℝ) ^ e := zpow_le_zpow_right₀ (by norm_num) this
    have h4 : (2:ℝ) ^ (52 : ℤ) = 2 ^ 53 / 2 := by norm_num
    rw [h4] at h3
    generalize (2:ℝ) ^ 53 = P at *
    linarith
  obtain ⟨m, hm, hd⟩ := hr.grid (by omega) (by omega) h1 h2
  obtain ⟨k, hk⟩ : ∃ k : ℕ, 51 - e = k := ⟨(51 - e).toNat, by omega⟩
  have hu : (0:ℝ) < (2:ℝ) ^ (e - 52) := by positivity
  have hN : (n:ℝ) / 2 = ((n * 2 ^ k : ℕ) : ℝ) * (2:ℝ) ^ (e - 52) := by
    push_cast
    rw [← zpow_natCast, ← hk, mul_assoc, ← zpow_add₀ two_ne_zero, show 51 - e + (e - 52) = -1 by ring]
    norm_num
    ring
  have hu2 : (2:ℝ) ^ (e - 53) = 1 / 2 * (2:ℝ) ^ (e - 52) := by
    rw [show e - 53 = e - 52 - 1 by ring, zpow_sub_one₀ two_ne_zero]; ring
  rw [hN, ← sub_mul, abs_mul, abs_of_pos hu, hu2] at hd
  have hd' := le_of_mul_le_mul_right hd hu
  have hz : ((n * 2 ^ k : ℕ) : ℤ) = m := by
    have h4 : |(((n * 2 ^ k : ℕ) : ℤ) : ℝ) - m| < 1 := by
      push_cast at hd' ⊢; linarith
    rw [← Int.cast_sub, ← Int.cast_abs] at h4
    have h5 : |((n * 2 ^ k : ℕ) : ℤ) - m| < 1 := by exact_mod_cast h4
    exact sub_eq_zero.1 (Int.abs_lt_one_iff.1 h5)
  rw [hm, hN, ← hz]
  simp

theorem SqNear.mulc {t : ℝ} {x : XF} {a k m c : ℝ} (hc : 0 ≤ c) (h : SqNear t x a k m) :
    SqNear t (fin c * x) (c * a) k (c * m) := by
  obtain ⟨b, rfl, h2, h3⟩ := h
  refine ⟨c * b, fin_mul _ _, by positivity, ?_⟩
  rw [← mul_sub, abs_mul, abs_of_nonneg hc]
  calc c * |b - a| ≤ c * (k * (1 / 2 ^ 51) * a + m * t) := mul_le_mul_of_nonneg_left h3 hc
    _ = _ := by ring

section
variable {r : ℝ → XF} (hr : Nearest64 r)
include hr

theorem pos_near {u : ℝ} (h0 : 0 ≤ u) (h : u ≤ 2 ^ 960) : SqNear (1 / 2 ^ 1073) (Rnd.rd r (fin u)) u 1 1 := by
  have h' : |u - 0| ≤ 2 ^ 960 := by rw [sub_zero, abs_of_nonneg h0]; exact h
  obtain ⟨b, hb, b0, hd⟩ := adiff_near hr.toBinary64 (a := u) (b := 0) h'
  rw [sub_zero, abs_of_nonneg h0] at hd
  unfold Rnd.adiff at hb
  rw [fin_sub, sub_zero] at hb
  refine ⟨b, ?_, b0, hd⟩
  obtain ⟨δ, η, _, _, e1⟩ := hr.acc (a := u) (by
    rw [abs_of_nonneg h0]; exact h.trans_lt (pow_lt_pow_right₀ (by norm_num) (by norm_num)))
  change XF.abs (r u) = _ at hb
  change r u = _
  rw [e1] at hb ⊢
  have := hr.toBinary64.nonneg h0 e1
  rw [fin_abs, abs_of_nonneg this] at hb
  exact hb

/-- one entry of the quantile form -/
theorem qdTerm_near {y x : ℝ} {i M : ℕ} (hi : i < M) (hM : M ≤ 2 ^ 20) (h : |x - y| ≤ 2 ^ 960) :
    SqNear (1 / 2 ^ 1073)
      (Rnd.rd r (Rnd.rd r (Rnd.rd r (ind (fin x ≤ fin y) * Rnd.rd r (((i + 1 : ℕ) : XF) - half)) * Rnd.rd r (fin y - fin x))
        + Rnd.rd r (Rnd.rd r (ind (fin y < fin x) * Rnd.rd r ((M : XF) - Rnd.rd r (((i + 1 : ℕ) : XF) - half)))
          * Rnd.rd r (fin x - fin y))))
      ((x - y) * ((M : ℝ) * (if y < x then 1 else 0) - ((i : ℝ) + 1) + 1 / 2)) 3 (2 ^ 21) ∧
    0 ≤ (x - y) * ((M : ℝ) * (if y < x then 1 else 0) - ((i : ℝ) + 1) + 1 / 2) ∧
    (x - y) * ((M : ℝ) * (if y < x then 1 else 0) - ((i : ℝ) + 1) + 1 / 2) ≤ 2 ^ 980 := by
  have hM' : (M : ℝ) ≤ 2 ^ 20 := by exact_mod_cast hM
  have hi' : (i : ℝ) + 1 ≤ M := by exact_mod_cast hi
  have hi0 : (0 : ℝ) ≤ i := Nat.cast_nonneg i
  have z : Rnd.rd r (fin 0) = fin 0 := by
    have := hr.nat 0 (by norm_num)
    simpa [Rnd.rd] using this
  have ea : Rnd.rd r (((i + 1 : ℕ) : XF) - half) = fin ((i : ℝ) + 1 / 2) := by
    rw [natCast_fin, half_fin, fin_sub]
    have e : ((i + 1 : ℕ) : ℝ) - 1 / 2 = ((2 * i + 1 : ℕ) : ℝ) / 2 := by push_cast; ring
    rw [e]
    show r _ = _
    rw [hr.half_int (by omega) (by omega)]
    congr 1; push_cast; ring
  have eb : Rnd.rd r ((M : XF) - fin ((i : ℝ) + 1 / 2)) = fin ((M : ℝ) - ((i : ℝ) + 1 / 2)) := by
    rw [natCast_fin, fin_sub]
    have e : (M : ℝ) - ((i : ℝ) + 1 / 2) = ((2 * (M - i) - 1 : ℕ) : ℝ) / 2 := by
      rw [Nat.cast_sub (by omega), Nat.cast_mul, Nat.cast_sub hi.le]; push_cast; ring
    rw [e]
    show r _ = _
    exact hr.half_int (by omega) (by omega)
  have ec : Rnd.rd r (fin ((i : ℝ) + 1 / 2)) = fin ((i : ℝ) + 1 / 2) := by
    have e : (i : ℝ) + 1 / 2 = ((2 * i + 1 : ℕ) : ℝ) / 2 := by push_cast; ring
    rw [e]
    exact hr.half_int (by omega) (by omega)
  have ed : Rnd.rd r (fin ((M : ℝ) - ((i : ℝ) + 1 / 2))) = fin ((M : ℝ) - ((i : ℝ) + 1 / 2)) := by
    rw [natCast_fin, fin_sub] at eb; exact eb
  have key : ∀ {c u : ℝ}, 0 ≤ c → c ≤ 2 ^ 20 → 0 ≤ u → u ≤ 2 ^ 960 →
      SqNear (1 / 2 ^ 1073) (Rnd.rd r (Rnd.rd r (fin c * Rnd.rd r (fin u)))) (u * c) 3 (2 ^ 21) ∧ 0 ≤ u * c ∧ u * c ≤ 2 ^ 980 := by
    intro c u hc hc2 hu hu2
    have h1 := (pos_near hr hu hu2).mulc hc
    have p : 0 ≤ c * u := mul_nonneg hc hu
    have b : c * u ≤ 2 ^ 980 := by
      calc c * u ≤ 2 ^ 20 * 2 ^ 960 := mul_le_mul hc2 hu2 hu (by positivity)
        _ = 2 ^ 980 := by rw [← pow_add]
    have b' : c * u ≤ 2 ^ 1000 := b.trans (pow_le_pow_right₀ (by norm_num) (by norm_num))
    norm_num at hc2
    have h2 := h1.rd hr.toBinary64 unit_abs p b' (by norm_num) (by norm_num; linarith)
    have h3 := h2.rd hr.toBinary64 unit_abs p b' (by norm_num) (by norm_num; linarith)
    rw [mul_comm u c]
    exact ⟨h3.mono unit_abs.nonneg p (by norm_num) (by norm_num; linarith), p, b⟩
  have zero : ∀ {u : ℝ}, |u| ≤ 2 ^ 960 → Rnd.rd r (fin 0 * Rnd.rd r (fin u)) = fin 0 := by
    intro u hu
    obtain ⟨δ, η, _, _, e1⟩ := hr.acc (a := u) (hu.trans_lt (pow_lt_pow_right₀ (by norm_num) (by norm_num)))
    have : Rnd.rd r (fin u) = fin (u * (1 + δ) + η) := e1
    rw [this, fin_mul, zero_mul, z]
  rw [ea, eb]
  by_cases hy : y < x
  · have hx : ¬ x ≤ y := not_le.2 hy
    have i1 : ind (fin x ≤ fin y) = fin 0 := by simp [hx, ind, zero_fin]
    have i2 : ind (fin y < fin x) = fin 1 := by simp [hy, ind, one_fin]
    rw [i1, i2, fin_mul, zero_mul, z, fin_mul, one_mul, ed, fin_sub, fin_sub, zero (by rw [abs_sub_comm]; exact h), if_pos hy]
    have hu : 0 ≤ x - y := by linarith
    rw [abs_of_nonneg hu] at h
    have := key (c := (M : ℝ) - ((i : ℝ) + 1 / 2)) (u := x - y) (by linarith) (by linarith) hu h
    obtain ⟨k1, k2, k3⟩ := this
    have e : (M : ℝ) * 1 - ((i : ℝ) + 1) + 1 / 2 = (M : ℝ) - ((i : ℝ) + 1 / 2) := by ring
    rw [e]
    refine ⟨?_, k2, k3⟩
    have hz : ∀ w : XF, fin 0 + w = w := by
      intro w
      cases w with
      | fin a => rw [fin_add, zero_add]
      | nan => rfl
      | pinf => rfl
      | ninf => rfl
    rw [hz]
    exact k1
  · have hx : x ≤ y := not_lt.1 hy
    have i1 : ind (fin x ≤ fin y) = fin 1 := by simp [hx, ind, one_fin]
    have i2 : ind (fin y < fin x) = fin 0 := by simp [hy, ind, zero_fin]
    rw [i1, i2, fin_mul, one_mul, ec, fin_mul, zero_mul, z, fin_sub, fin_sub, zero h, if_neg hy]
    have hu : 0 ≤ y - x := by linarith
    rw [abs_sub_comm, abs_of_nonneg hu] at h
    obtain ⟨k1, k2, k3⟩ := key (c := (i : ℝ) + 1 / 2) (u := y - x) (by linarith) (by linarith) hu h
    have e : (x - y) * ((M : ℝ) * 0 - ((i : ℝ) + 1) + 1 / 2) = (y - x) * ((i : ℝ) + 1 / 2) := by ring
    rw [e]
    refine ⟨?_, k2, k3⟩
    have hz : ∀ w : XF, w + fin 0 = w := by
      intro w
      cases w with
      | fin a => rw [fin_add, add_zero]
      | nan => rfl
      | pinf => rfl
      | ninf => rfl
    rw [hz]
    exact k1

/-- the quantile form -/
theorem crpsQd_near {S : List XF → XF} (hS : ∀ xs, RSum r xs (S xs)) {y : ℝ} {xs : List ℝ} (hne : xs ≠ [])
    (hM : xs.length ≤ 2 ^ 20) (hy : |y| ≤ 2 ^ 959) (hx : ∀ x ∈ xs, |x| ≤ 2 ^ 959) :
    SqNear (1 / 2 ^ 1073) (Rnd.crpsQd r S (fin y) (xs.map fin)) (2 * qdSum y 0 (uw xs)) (xs.length + 5) (2 ^ 23) ∧
      0 ≤ qdSum y 0 (uw xs) := by
  have hM' : (xs.length : ℝ) ≤ 2 ^ 20 := by exact_mod_cast hM
  have hM1 : (1:ℝ) ≤ xs.length := by exact_mod_cast List.length_pos_iff.mpr hne
  have hM0 : (xs.length : ℝ) ≠ 0 := by linarith
  have hM2 : (0:ℝ) < (xs.length : ℝ) ^ 2 := by positivity
  have hx2 : (xs.length : ℝ) ≤ (xs.length : ℝ) ^ 2 := by nlinarith
  have hd : ∀ x ∈ xs, |x - y| ≤ 2 ^ 960 := fun x h => by
    refine (abs_sub _ _).trans ((add_le_add (hx x h) hy).trans (le_of_eq ?_))
    rw [← two_mul, ← pow_succ']
  have mem : ∀ p ∈ xs.zipIdx, p.1 ∈ xs ∧ p.2 < xs.length := by
    intro p hp
    have := List.mem_zipIdx hp
    refine ⟨?_, by omega⟩
    rw [this.2.2]
    exact List.getElem_mem _
  have ev : ((xs.zipIdx).map fun p => (p.1 - y) * ((xs.length : ℝ) * (if y < p.1 then 1 else 0) - ((p.2 : ℝ) + 1) + 1 / 2)).sum
      / (xs.length : ℝ) ^ 2 = qdSum y 0 (uw xs) := by
    rw [qdU_zipIdx, qdU_eq y _ hM0]
    unfold uw
    rw [mul_div_cancel_left₀ _ hM2.ne']
    simp
  have t := fun p hp => qdTerm_near hr (y := y) (x := p.1) (mem p hp).2 hM (hd p.1 (mem p hp).1)
  have h0 : 0 ≤ ((xs.zipIdx).map fun p => (p.1 - y) * ((xs.length : ℝ) * (if y < p.1 then 1 else 0) - ((p.2 : ℝ) + 1) + 1 / 2)).sum :=
    list_sum_nonneg' fun p hp => (t p hp).2.1
  have hb : ((xs.zipIdx).map fun p => (p.1 - y) * ((xs.length : ℝ) * (if y < p.1 then 1 else 0) - ((p.2 : ℝ) + 1) + 1 / 2)).sum
      ≤ 2 ^ 1000 := by
    refine (sum_map_le fun p hp => (t p hp).2.2).trans ?_
    rw [List.length_zipIdx]
    calc (xs.length : ℝ) * 2 ^ 980 ≤ 2 ^ 20 * 2 ^ 980 := mul_le_mul_of_nonneg_right hM' (by positivity)
      _ = 2 ^ 1000 := by rw [← pow_add]
  have hq : 0 ≤ qdSum y 0 (uw xs) := by rw [← ev]; positivity
  refine ⟨?_, hq⟩
  have hb2 : qdSum y 0 (uw xs) ≤ 2 ^ 980 := by
    rw [← ev, div_le_iff₀ hM2]
    refine (sum_map_le fun p hp => (t p hp).2.2).trans ?_
    rw [List.length_zipIdx, mul_comm]
    exact mul_le_mul_of_nonneg_left hx2 (by positivity)
  have hs := (hS ((xs.zipIdx).map fun p => Rnd.rd r (
      Rnd.rd r (Rnd.rd r (ind (fin p.1 ≤ fin y) * Rnd.rd r (((p.2 + 1 : ℕ) : XF) - half)) * Rnd.rd r (fin y - fin p.1))
      + Rnd.rd r (Rnd.rd r (ind (fin y < fin p.1) * Rnd.rd r ((xs.length : XF) - Rnd.rd r (((p.2 + 1 : ℕ) : XF) - half)))
        * Rnd.rd r (fin p.1 - fin y))))).sqNear hr.toBinary64 unit_abs
    (k := 3) (m := 2 ^ 21) (by norm_num)
    (as := (xs.zipIdx).map fun p => (p.1 - y) * ((xs.length : ℝ) * (if y < p.1 then 1 else 0) - ((p.2 : ℝ) + 1) + 1 / 2))
    ?_ hb ?_ ?_
  · simp only [List.length_map, List.length_zipIdx] at hs
    have h1 := hs.div hM2
    rw [ev] at h1
    have m1 : ((2:ℝ) ^ 21 + 1) * (xs.length : ℝ) / (xs.length : ℝ) ^ 2 ≤ 2 ^ 21 + 1 := by
      rw [div_le_iff₀ hM2]
      exact mul_le_mul_of_nonneg_left hx2 (by positivity)
    have kk : (3:ℝ) + xs.length + 1 ≤ 2 ^ 50 := by
      clear hs h1 m1 hb hb2 hx2
      generalize (xs.length : ℝ) = M at *
      norm_num at hM' ⊢; linarith
    have c1 : (2:ℝ) ^ 980 ≤ 2 ^ 1000 := pow_le_pow_right₀ (by norm_num) (by norm_num)
    have c2 : 2 * qdSum y 0 (uw xs) ≤ 2 ^ 1000 := by
      calc 2 * qdSum y 0 (uw xs) ≤ 2 * 2 ^ 980 := by linarith only [hb2]
        _ = 2 ^ 981 := (pow_succ' _ _).symm
        _ ≤ 2 ^ 1000 := pow_le_pow_right₀ (by norm_num) (by norm_num)
    have h2 := ((h1.mono unit_abs.nonneg hq (le_refl _) m1).rd hr.toBinary64 unit_abs hq (hb2.trans c1)
      (by linarith only [kk]) (by norm_num)).mulc (c := 2) (by norm_num)
    have h3 := h2.rd hr.toBinary64 unit_abs (by linarith only [hq]) c2 kk (by norm_num)
    have h4 := h3.mono unit_abs.nonneg (by linarith only [hq]) (k' := xs.length + 5) (m' := 2 ^ 23) (by linarith only) (by norm_num)
    unfold Rnd.crpsQd
    simp only [List.length_map]
    rw [sum_zip_range, sum_zip_range, zip2_map]
    have e2 : ((xs.length ^ 2 : ℕ) : XF) = fin ((xs.length : ℝ) ^ 2) := by rw [natCast_fin]; push_cast; rfl
    rw [e2, two_fin]
    exact h4
  · rw [List.forall₂_map_left_iff, List.forall₂_map_right_iff, List.forall₂_same]
    intro p hp
    exact ⟨(t p hp).2.1, (t p hp).1⟩
  · simp only [List.length_map, List.length_zipIdx]
    clear hb hb2 hx2
    generalize (xs.length : ℝ) = M at *
    norm_num at hM' ⊢; linarith
  · simp only [List.length_map, List.length_zipIdx]
    clear hb hb2 hx2
    generalize (xs.length : ℝ) = M at *
    norm_num at hM' ⊢; linarith

end

end Verif
