import Verif.Model.RoundKernelLoop
import Verif.Lemmas.RoundKernel
import Verif.Lemmas.RoundEnergyLoop

/-! The kernel score loops with rounding. -/

noncomputable section

open scoped Classical

namespace Verif

open XF Py Mv Spec

theorem getD_emb' {α β : Type} {xs : List β} (emb : β → α) (d : α) (y : β) {i : ℕ} (hi : i < xs.length) :
    (xs.map emb).getD i d = emb (xs.getD i y) := by
  simp [hi]

theorem getD_memW {β : Type} {xs : List β} (y : β) {i : ℕ} (hi : i < xs.length) : xs.getD i y ∈ xs := by
  rw [show xs.getD i y = xs[i] by simp [hi]]
  exact List.getElem_mem hi

section
variable {r : ℝ → XF} (hr : Binary64 r) {α β : Type} {k kk : α → α → XF} {emb : β → α} {K : β → β → ℝ} {t : ℝ} {P : β → Prop}
include hr

/-- the mean of the kernel values at the observation -/
theorem loopA_near (ht : Unit' t)
    (hk : ∀ a b, P a → P b → 0 ≤ K a b ∧ K a b ≤ 1 ∧ SqNear t (k (emb a) (emb b)) (K a b) 1 2)
    {y : β} {xs : List β} (hy : P y) (hx : ∀ x ∈ xs, P x) (hne : xs ≠ []) (hM : (xs.length : ℝ) ≤ 1048576) {s : XF}
    (hs : RSum r ([fin 0] ++ xs.map fun x => k (emb x) (emb y)) s) :
    Near (Rnd.rd r (s / fin xs.length)) ((xs.map fun x => K x y).sum / xs.length) ((xs.length + 3) * (1 / 2 ^ 51) + 7 * t) ∧
      0 ≤ (xs.map fun x => K x y).sum / xs.length ∧ (xs.map fun x => K x y).sum / xs.length ≤ 1 := by
  have hM1 : (1:ℝ) ≤ xs.length := by exact_mod_cast List.length_pos_iff.mpr hne
  have hM0 : (0:ℝ) < xs.length := by linarith
  have ht0 := ht.nonneg
  obtain ⟨h1, h2, h3⟩ := sum0_near hr ht (a := fun x => K x y) (k := 1) (m := 2) (B := 1) hs (by norm_num)
    (fun c hc => hk c y (hx c hc) hy) (by
      rw [mul_one]
      exact hM.trans (le_trans (by norm_num) (pow_le_pow_right₀ (by norm_num : (1:ℝ) ≤ 2) (by norm_num : 20 ≤ 1000))))
    (by norm_num; linarith only [hM]) (by norm_num; linarith only [hM])
  rw [mul_one] at h3
  have le1 : (xs.map fun x => K x y).sum / xs.length ≤ 1 := by rwa [div_le_one hM0]
  have ge0 : 0 ≤ (xs.map fun x => K x y).sum / xs.length := div_nonneg h2 hM0.le
  refine ⟨?_, ge0, le1⟩
  have h4 := (((h1.div hM0).mono ht0 ge0 le_rfl (m' := 6) (by
      rw [div_le_iff₀ hM0]; linarith only [hM1])).rd hr ht ge0 (le1.trans (one_le_pow₀ (by norm_num)))
    (by norm_num; linarith only [hM]) (by norm_num)).near
  refine h4.mono ?_
  have : (1 + ((xs.length:ℝ) + 1) + 1) * (1 / 2 ^ 51) * ((xs.map fun x => K x y).sum / xs.length)
      ≤ (1 + ((xs.length:ℝ) + 1) + 1) * (1 / 2 ^ 51) * 1 := mul_le_mul_of_nonneg_left le1 (by positivity)
  linarith only [this, ht0]

/-- the term of the observation with itself -/
theorem loopC_near (ht : Unit' t)
    (hk : ∀ a b, P a → P b → 0 ≤ K a b ∧ K a b ≤ 1 ∧ SqNear t (k (emb a) (emb b)) (K a b) 1 2) {y : β} (hy : P y) :
    Near (Rnd.rd r (fin (1 / 2) * k (emb y) (emb y))) (1 / 2 * K y y) (1 / 2 ^ 51 + 2 * t) ∧ |1 / 2 * K y y| ≤ 1 := by
  obtain ⟨h1, h2, h3⟩ := hk y y hy hy
  refine ⟨?_, by rw [abs_of_nonneg (by positivity)]; linarith⟩
  have h4 := (h3.half.rd hr ht (by positivity) (le_trans (by linarith) (one_le_pow₀ (by norm_num : (1:ℝ) ≤ 2)))
    (by norm_num) (by norm_num)).near
  refine h4.mono ?_
  have := ht.nonneg
  norm_num at *
  linarith

theorem ksLoopNrg_near (ht : Unit' t) (ht' : t ≤ 1 / 2 ^ 20)
    (hk : ∀ a b, P a → P b → 0 ≤ K a b ∧ K a b ≤ 1 ∧ SqNear t (k (emb a) (emb b)) (K a b) 1 2) (d : α)
    {y : β} {xs : List β} (hy : P y) (hx : ∀ x ∈ xs, P x) (hne : xs ≠ []) (hM : xs.length ≤ 2 ^ 20) :
    ∃ v : ℝ, RndLoop.ksNrg r k d (emb y) (xs.map emb) = fin v ∧
      |v - ks K y (eqW xs)| ≤ ((xs.length : ℝ) ^ 2 + 2 * xs.length + 30) / 2 ^ 52 + 27 / 2 * t := by
  have hM' : (xs.length : ℝ) ≤ 1048576 := by exact_mod_cast hM
  have hM0 : (1:ℝ) ≤ xs.length := by exact_mod_cast List.length_pos_iff.mpr hne
  have ht0 := ht.nonneg
  have fl := RSum.fold2 (r := r) (fun i => k ((xs.map emb).getD i d) (emb y))
    (fun _ => List.range' 0 (xs.length - 0)) (fun i j => k ((xs.map emb).getD i d) ((xs.map emb).getD j d))
    (List.range' 0 (xs.length - 0)) (L1 := [fin 0]) (L2 := [fin 0]) (s := (0, 0)) (.one _) (by simp) (.one _) (by simp)
  have rr : (List.range' 0 (xs.length - 0)) = List.range xs.length := by rw [Nat.sub_zero, List.range_eq_range']
  have e1 : ((List.range xs.length).map fun i => k ((xs.map emb).getD i d) (emb y)) = xs.map fun x => k (emb x) (emb y) := by
    have := map_range_getD (xs.map emb) d fun a => k a (emb y)
    rwa [List.length_map, List.map_map] at this
  have e2 : ((List.range xs.length).flatMap fun i => (List.range xs.length).map fun j =>
      k ((xs.map emb).getD i d) ((xs.map emb).getD j d)) = (xs.product xs).map fun p => k (emb p.1) (emb p.2) := by
    rw [← pairs_product xs fun a b => k (emb a) (emb b)]
    have g : ∀ a, ((List.range xs.length).map fun j => k a ((xs.map emb).getD j d)) = xs.map fun b => k a (emb b) := fun a => by
      have := map_range_getD (xs.map emb) d fun b => k a b
      rwa [List.length_map, List.map_map] at this
    simp only [g]
    rw [List.flatMap_def, List.flatMap_def]
    congr 1
    have := map_range_getD (xs.map emb) d fun a => xs.map fun b => k a (emb b)
    rwa [List.length_map, List.map_map] at this
  rw [rr, e1, e2] at fl
  obtain ⟨f1, f2⟩ := fl
  set e := (List.range xs.length).foldl (fun (s : XF × XF) i => (Rnd.rd r (s.1 + k ((xs.map emb).getD i d) (emb y)),
    (List.range xs.length).foldl (fun e j => Rnd.rd r (e + k ((xs.map emb).getD i d) ((xs.map emb).getD j d))) s.2))
    ((0, 0) : XF × XF) with he
  obtain ⟨a1, a2, a3⟩ := loopA_near hr ht hk hy hx hne hM' f1
  obtain ⟨c1, c2⟩ := loopC_near hr ht hk hy
  have hl : ((xs.product xs).length : ℝ) = (xs.length : ℝ) ^ 2 := by
    rw [show (xs.product xs).length = (xs ×ˢ xs).length from rfl, List.length_product]; push_cast; ring
  have hM2 : (xs.length : ℝ) ^ 2 ≤ 1099511627776 := by
    have := pow_le_pow_left₀ (by linarith) hM' 2
    norm_num at this ⊢; exact this
  have hM21 : 1 ≤ (xs.length : ℝ) ^ 2 := one_le_pow₀ hM0
  obtain ⟨b1, b2, b3⟩ := sum0_near hr ht (a := fun p => K p.1 p.2) (k := 1) (m := 2) (B := 1) f2 (by norm_num)
    (fun c hc => by
      have := List.pair_mem_product.1 (show (c.1, c.2) ∈ xs ×ˢ xs from hc)
      exact hk c.1 c.2 (hx _ this.1) (hx _ this.2))
    (by
      rw [mul_one, hl]
      exact hM2.trans (le_trans (by norm_num) (pow_le_pow_right₀ (by norm_num : (1:ℝ) ≤ 2) (by norm_num : 40 ≤ 1000))))
    (by rw [hl]; norm_num; linarith only [hM2]) (by rw [hl]; norm_num; linarith only [hM2])
  rw [hl] at b1 b3
  rw [mul_one] at b3
  have hQ : (0:ℝ) < (xs.length : ℝ) ^ 2 := by positivity
  have e3 : pairsAll K xs = ((xs.product xs).map fun p => K p.1 p.2).sum := by
    rw [← pairs_product xs K, sum_flatMap_eq, pairsAll]
  set E := ((xs.product xs).map fun p => K p.1 p.2).sum with hE
  generalize hm : (xs.length : ℝ) = M at *
  have E1 : E / M ^ 2 ≤ 1 := by rw [div_le_one hQ]; exact b3
  have E0 : 0 ≤ E / M ^ 2 := div_nonneg b2 hQ.le
  have g1 := ((b1.div hQ).mono ht0 E0 le_rfl (m' := 6) (by
      rw [div_le_iff₀ hQ]; linarith only [hM21])).rd hr ht E0 (E1.trans (one_le_pow₀ (by norm_num)))
    (by norm_num; linarith only [hM2]) (by norm_num)
  have g2 := (g1.half.rd hr ht (by positivity) (le_trans (by linarith only [E1]) (one_le_pow₀ (by norm_num : (1:ℝ) ≤ 2)))
    (by norm_num; linarith only [hM2]) (by norm_num)).near
  have g3 := g2.mono (e' := (M ^ 2 + 4) * (1 / 2 ^ 51) * (1 / 2) + 9 / 2 * t) (by
    have : (1 + (M ^ 2 + 1) + 1 + 1) * (1 / 2 ^ 51) * (1 / 2 * (E / M ^ 2))
      ≤ (1 + (M ^ 2 + 1) + 1 + 1) * (1 / 2 ^ 51) * (1 / 2) :=
      mul_le_mul_of_nonneg_left (by linarith only [E1]) (by positivity)
    linarith only [this])
  have fin1 := ks_combine hr a1 g3 c1 (by rw [abs_of_nonneg a2]; exact a3)
    (by rw [abs_of_nonneg (by positivity)]; linarith only [E1]) c2
    (by norm_num at ht' ⊢; linarith only [ht', hM']) (by norm_num at ht' ⊢; linarith only [ht', hM2])
    (by norm_num at ht' ⊢; linarith only [ht'])
  obtain ⟨v, ev, hv⟩ := fin1
  refine ⟨v, ?_, ?_⟩
  · rw [← ev]
    unfold RndLoop.ksNrg forRange
    dsimp only
    rw [List.length_map, rr, ← he, natCast_fin, natCast_fin, Nat.cast_pow, hm, half_fin]
  · rw [ks_eq, kabs_eqW, kpair_eqW, e3, hm]
    refine le_trans (le_of_eq ?_) (hv.trans (le_of_eq ?_))
    · congr 1
    · ring

theorem ksLoopFair_near (ht : Unit' t) (ht' : t ≤ 1 / 2 ^ 20)
    (hk : ∀ a b, P a → P b → 0 ≤ K a b ∧ K a b ≤ 1 ∧ SqNear t (k (emb a) (emb b)) (K a b) 1 2)
    (hkk : ∀ a b, P a → P b → SqNear t (kk (emb a) (emb b)) (K a b) 1 2) (hK : ∀ a b, K a b = K b a) (d : α)
    {y : β} {xs : List β} (hy : P y) (hx : ∀ x ∈ xs, P x) (h2 : 2 ≤ xs.length) (hM : xs.length ≤ 2 ^ 20) :
    ∃ v : ℝ, RndLoop.ksFairOf r k d kk (emb y) (xs.map emb) = fin v ∧
      |v - Spec.ksFair K y xs| ≤ ((xs.length : ℝ) ^ 2 + xs.length + 16) / 2 ^ 51 + 29 / 2 * t := by
  have hne : xs ≠ [] := by intro e; simp [e] at h2
  have hM' : (xs.length : ℝ) ≤ 1048576 := by exact_mod_cast hM
  have h2' : (2:ℝ) ≤ xs.length := by exact_mod_cast h2
  have ht0 := ht.nonneg
  have fl := RSum.fold2 (r := r) (fun i => k ((xs.map emb).getD i d) (emb y))
    (fun i => List.range' (i + 1) (xs.length - (i + 1))) (fun i j => kk ((xs.map emb).getD i d) ((xs.map emb).getD j d))
    (List.range' 0 (xs.length - 0)) (L1 := [fin 0]) (L2 := [fin 0]) (s := (0, 0)) (.one _) (by simp) (.one _) (by simp)
  have rr : (List.range' 0 (xs.length - 0)) = List.range xs.length := by rw [Nat.sub_zero, List.range_eq_range']
  have e1 : ((List.range xs.length).map fun i => k ((xs.map emb).getD i d) (emb y)) = xs.map fun x => k (emb x) (emb y) := by
    have := map_range_getD (xs.map emb) d fun a => k a (emb y)
    rwa [List.length_map, List.map_map] at this
  have e2 : ((List.range' 0 (xs.length - 0)).flatMap fun i => (List.range' (i + 1) (xs.length - (i + 1))).map fun j =>
      kk ((xs.map emb).getD i d) ((xs.map emb).getD j d))
      = (upIdx xs.length).map fun q => kk (emb (xs.getD q.1 y)) (emb (xs.getD q.2 y)) := by
    unfold upIdx
    rw [List.map_flatMap]
    refine List.flatMap_congr fun i hi => ?_
    rw [List.map_map]
    refine List.map_congr_left fun j hj => ?_
    rw [List.mem_range'_1] at hi hj
    rw [getD_emb' emb d y (by omega), getD_emb' emb d y (by omega)]
    rfl
  rw [e2, rr, e1] at fl
  obtain ⟨f1, f2⟩ := fl
  set e := (List.range xs.length).foldl (fun (s : XF × XF) i => (Rnd.rd r (s.1 + k ((xs.map emb).getD i d) (emb y)),
    (List.range' (i + 1) (xs.length - (i + 1))).foldl
      (fun e j => Rnd.rd r (e + kk ((xs.map emb).getD i d) ((xs.map emb).getD j d))) s.2))
    ((0, 0) : XF × XF) with he
  obtain ⟨a1, a2, a3⟩ := loopA_near hr ht hk hy hx hne hM' f1
  obtain ⟨c1, c2⟩ := loopC_near hr ht hk hy
  have hl : ((upIdx xs.length).length : ℝ) ≤ (xs.length : ℝ) * ((xs.length : ℝ) - 1) := by
    have h := upIdx_length xs.length
    calc ((upIdx xs.length).length : ℝ) ≤ ((xs.length * (xs.length - 1) : ℕ) : ℝ) := by exact_mod_cast h
      _ = _ := by rw [Nat.cast_mul, Nat.cast_sub (by omega), Nat.cast_one]
  have hM2 : (xs.length : ℝ) * ((xs.length : ℝ) - 1) ≤ 1099511627776 := by nlinarith only [hM', h2']
  have hQ2 : 2 ≤ (xs.length : ℝ) * ((xs.length : ℝ) - 1) := by nlinarith only [h2']
  obtain ⟨b1, b2, b3⟩ := sum0_near hr ht (a := fun q => K (xs.getD q.1 y) (xs.getD q.2 y)) (k := 1) (m := 2) (B := 1) f2
    (by norm_num)
    (fun c hc => by
      have := upIdx_mem hc
      have p1 := hx _ (getD_memW y this.1)
      have p2 := hx _ (getD_memW y this.2)
      exact ⟨(hk _ _ p1 p2).1, (hk _ _ p1 p2).2.1, hkk _ _ p1 p2⟩)
    (by
      rw [mul_one]
      exact hl.trans (hM2.trans (le_trans (by norm_num)
        (pow_le_pow_right₀ (by norm_num : (1:ℝ) ≤ 2) (by norm_num : 40 ≤ 1000)))))
    (by norm_num; linarith only [hM2, hl]) (by norm_num; linarith only [hM2, hl])
  rw [mul_one] at b3
  have e3 : ((upIdx xs.length).map fun q => K (xs.getD q.1 y) (xs.getD q.2 y)).sum = pairsUp K xs := by
    rw [← pairsUp_eq_range K xs y]
    unfold upIdx
    rw [List.map_flatMap, sum_flatMap_eq, rr]
    simp only [List.map_map, Function.comp_def]
  have e4 : (xs.map fun a => (xs.map fun b => K a b).sum).sum
      = pairsUp K xs + pairsUp K xs + (xs.map fun a => K a a).sum := pairsAll_eq K hK xs
  rw [e3] at b1 b2 b3
  generalize hn : ((upIdx xs.length).length : ℝ) = n at *
  have hcast : ((xs.length * (xs.length - 1) : ℕ) : ℝ) = xs.length * ((xs.length : ℝ) - 1) := by
    rw [Nat.cast_mul, Nat.cast_sub (by omega), Nat.cast_one]
  unfold Spec.ksFair
  rw [e4]
  generalize pairsUp K xs = E at *
  generalize hm : (xs.length : ℝ) = M at *
  have hQ : 0 < M * (M - 1) := by linarith only [hQ2]
  have E1 : E / (M * (M - 1)) ≤ 1 := by rw [div_le_one hQ]; exact b3.trans hl
  have E0 : 0 ≤ E / (M * (M - 1)) := div_nonneg b2 hQ.le
  have g1 := (((b1.div hQ).mono ht0 E0 le_rfl (m' := 9 / 2) (by
      rw [div_le_iff₀ hQ]; linarith only [hQ2, hl])).rd hr ht E0 (E1.trans (one_le_pow₀ (by norm_num)))
    (by norm_num; linarith only [hM2, hl]) (by norm_num)).near
  have n0 : 0 ≤ n := by rw [← hn]; positivity
  have g3 := g1.mono (e' := (M ^ 2 + 3) * (1 / 2 ^ 51) + 11 / 2 * t) (by
    have : (1 + (n + 1) + 1) * (1 / 2 ^ 51) * (E / (M * (M - 1))) ≤ (1 + (n + 1) + 1) * (1 / 2 ^ 51) * 1 :=
      mul_le_mul_of_nonneg_left E1 (by positivity)
    have h3 : (1 + (n + 1) + 1) * (1 / 2 ^ 51) ≤ (M ^ 2 + 3) * (1 / 2 ^ 51) :=
      mul_le_mul_of_nonneg_right (by nlinarith only [hl, h2']) (by positivity)
    linarith only [this, h3])
  have hMM : M ^ 2 ≤ 1099511627776 := by nlinarith only [hM', h2']
  have fin1 := ks_combine hr a1 g3 c1 (by rw [abs_of_nonneg a2]; exact a3)
    (by rw [abs_of_nonneg E0]; linarith only [E1]) c2
    (by norm_num at ht' ⊢; linarith only [ht', hM']) (by norm_num at ht' ⊢; linarith only [ht', hMM])
    (by norm_num at ht' ⊢; linarith only [ht'])
  obtain ⟨v, ev, hv⟩ := fin1
  refine ⟨v, ?_, ?_⟩
  · rw [← ev]
    unfold RndLoop.ksFairOf forRange
    dsimp only
    rw [List.length_map, rr, ← he, natCast_fin, natCast_fin, hcast, hm, half_fin]
  · refine le_trans (le_of_eq ?_) (hv.trans (le_of_eq ?_))
    · congr 1
      have h1 : M ≠ 0 := by linarith only [h2']
      have h3 : M - 1 ≠ 0 := by linarith only [h2']
      field_simp
      ring
    · ring

theorem ksLoopCirc_near (ht : Unit' t) (ht' : t ≤ 1 / 2 ^ 20)
    (hk : ∀ a b, P a → P b → 0 ≤ K a b ∧ K a b ≤ 1 ∧ SqNear t (k (emb a) (emb b)) (K a b) 1 2) (d : α)
    {y : β} {xs : List β} (hy : P y) (hx : ∀ x ∈ xs, P x) (hne : xs ≠ []) (hM : xs.length ≤ 2 ^ 20)
    {σ : ℕ → ℕ → ℕ} (hσ : ∀ i < xs.length, σ xs.length i < xs.length) :
    ∃ v : ℝ, RndLoop.ksCirc r k d σ (emb y) (xs.map emb) = fin v ∧
      |v - (1 / 2 * (((List.range xs.length).map fun i => K (xs.getD i y) (xs.getD (σ xs.length i) y)).sum / xs.length)
          + 1 / 2 * K y y - (xs.map fun x => K x y).sum / xs.length)|
        ≤ (3 * (xs.length : ℝ) + 30) / 2 ^ 52 + 14 * t := by
  have hM' : (xs.length : ℝ) ≤ 1048576 := by exact_mod_cast hM
  have hM0 : (1:ℝ) ≤ xs.length := by exact_mod_cast List.length_pos_iff.mpr hne
  have ht0 := ht.nonneg
  have fl := RSum.foldPair (r := r) (fun i => k ((xs.map emb).getD i d) (emb y))
    (fun i => k ((xs.map emb).getD i d) ((xs.map emb).getD (σ xs.length i) d))
    (List.range xs.length) (L1 := [fin 0]) (L2 := [fin 0]) (s := (0, 0)) (.one _) (by simp) (.one _) (by simp)
  have rr : (List.range' 0 (xs.length - 0)) = List.range xs.length := by rw [Nat.sub_zero, List.range_eq_range']
  have e1 : ((List.range xs.length).map fun i => k ((xs.map emb).getD i d) (emb y)) = xs.map fun x => k (emb x) (emb y) := by
    have := map_range_getD (xs.map emb) d fun a => k a (emb y)
    rwa [List.length_map, List.map_map] at this
  have e2 : ((List.range xs.length).map fun i => k ((xs.map emb).getD i d) ((xs.map emb).getD (σ xs.length i) d))
      = (List.range xs.length).map fun i => k (emb (xs.getD i y)) (emb (xs.getD (σ xs.length i) y)) := by
    refine List.map_congr_left fun i hi => ?_
    have hi := List.mem_range.1 hi
    rw [getD_emb' emb d y hi, getD_emb' emb d y (hσ i hi)]
  rw [e1, e2] at fl
  obtain ⟨f1, f2⟩ := fl
  set e := (List.range xs.length).foldl (fun (s : XF × XF) i => (Rnd.rd r (s.1 + k ((xs.map emb).getD i d) (emb y)),
    Rnd.rd r (s.2 + k ((xs.map emb).getD i d) ((xs.map emb).getD (σ xs.length i) d)))) ((0, 0) : XF × XF) with he
  obtain ⟨a1, a2, a3⟩ := loopA_near hr ht hk hy hx hne hM' f1
  obtain ⟨c1, c2⟩ := loopC_near hr ht hk hy
  obtain ⟨b1, b2, b3⟩ := sum0_near hr ht (a := fun i => K (xs.getD i y) (xs.getD (σ xs.length i) y)) (k := 1) (m := 2)
    (B := 1) f2 (by norm_num)
    (fun i hi => by
      have hi := List.mem_range.1 hi
      exact hk _ _ (hx _ (getD_memW y hi)) (hx _ (getD_memW y (hσ i hi))))
    (by
      rw [mul_one, List.length_range]
      exact hM'.trans (le_trans (by norm_num) (pow_le_pow_right₀ (by norm_num : (1:ℝ) ≤ 2) (by norm_num : 20 ≤ 1000))))
    (by rw [List.length_range]; norm_num; linarith only [hM']) (by rw [List.length_range]; norm_num; linarith only [hM'])
  rw [List.length_range] at b1 b3
  rw [mul_one] at b3
  set E := ((List.range xs.length).map fun i => K (xs.getD i y) (xs.getD (σ xs.length i) y)).sum with hE
  have hcirc : RndLoop.ksCirc r k d σ (emb y) (xs.map emb)
      = Neg.neg (Rnd.rd r (Rnd.rd r (Rnd.rd r (e.1 / fin (xs.length : ℝ)) - Rnd.rd r (Rnd.rd r (fin (1 / 2) * e.2)
        / fin (xs.length : ℝ))) - Rnd.rd r (fin (1 / 2) * k (emb y) (emb y)))) := by
    unfold RndLoop.ksCirc forRange
    dsimp only
    rw [List.length_map, rr, ← he, natCast_fin, half_fin]
  rw [hcirc]
  clear hcirc
  generalize (xs.length : ℝ) = M at *
  have hMp : 0 < M := by linarith only [hM0]
  have E1 : 1 / 2 * E / M ≤ 1 / 2 := by rw [div_le_iff₀ hMp]; linarith only [b3]
  have E0 : 0 ≤ 1 / 2 * E / M := by positivity
  have g1 := b1.half.rd hr ht (by positivity) (le_trans (by norm_num; linarith only [b3, hM'])
    (pow_le_pow_right₀ (by norm_num : (1:ℝ) ≤ 2) (by norm_num : 20 ≤ 1000)))
    (by norm_num; linarith only [hM']) (by norm_num; linarith only [hM'])
  have g2 := (((g1.div hMp).mono ht0 E0 le_rfl (m' := 4) (by
      rw [div_le_iff₀ hMp]; linarith only [hM0])).rd hr ht E0
      (E1.trans (le_trans (by norm_num) (one_le_pow₀ (by norm_num : (1:ℝ) ≤ 2))))
    (by norm_num; linarith only [hM']) (by norm_num)).near
  have g3 := g2.mono (e' := (M + 4) * (1 / 2 ^ 51) * (1 / 2) + 5 * t) (by
    have : (1 + (M + 1) + 1 + 1) * (1 / 2 ^ 51) * (1 / 2 * E / M) ≤ (1 + (M + 1) + 1 + 1) * (1 / 2 ^ 51) * (1 / 2) :=
      mul_le_mul_of_nonneg_left E1 (by positivity)
    linarith only [this])
  have fin1 := ks_combine hr a1 g3 c1 (by rw [abs_of_nonneg a2]; exact a3)
    (by rw [abs_of_nonneg E0]; linarith only [E1]) c2
    (by norm_num at ht' ⊢; linarith only [ht', hM']) (by norm_num at ht' ⊢; linarith only [ht', hM'])
    (by norm_num at ht' ⊢; linarith only [ht'])
  obtain ⟨v, ev, hv⟩ := fin1
  refine ⟨v, ev, le_trans (le_of_eq ?_) (hv.trans (le_of_eq ?_))⟩
  · congr 1; ring
  · ring

end

/-- the kernel of two vectors with an accurate norm routine -/
theorem kernLoopMv_near {r : ℝ → XF} (hr : Binary64 r) {D : ℕ} {N : List XF → XF} {L : ℝ} (hN : NormAcc N D L)
    (hD : D ≤ 2 ^ 20) (hL0 : 0 ≤ L) (hL : L ≤ 2 ^ 20) {a b : Eu D} (h : ∀ i, |a i - b i| ≤ 2 ^ 941) :
    SqNear ((L + 2) / 2 ^ 47) (RndLoop.kernMv r N (vec a) (vec b)) (gaussD a b) 1 2 := by
  have hL' : L ≤ 1048576 := hL.trans (by norm_num)
  obtain ⟨⟨n, e, n0, hn⟩, _⟩ := nrm_near hr hN (a := a) (b := b) hD hL0 hL h
  have d0 : 0 ≤ dist a b := dist_nonneg
  have l1060 : (2:ℝ) * (1 / 2 ^ 1060) ≤ 1 / 2 ^ 200 := by
    rw [show (1060:ℕ) = 1 + 1059 from rfl, pow_add, pow_one, ← one_div_mul_one_div, ← mul_assoc,
      show (2:ℝ) * (1 / 2) = 1 by norm_num, one_mul]
    exact one_div_le_one_div_of_le (by positivity) (pow_le_pow_right₀ (by norm_num) (by norm_num))
  have t1 : (16:ℝ) * ((L + 1) * (1 / 2 ^ 51)) + 1 / 2 ^ 49 ≤ (L + 2) / 2 ^ 47 := by
    norm_num; linarith only [hL0]
  unfold RndLoop.kernMv gaussD
  rw [e]
  by_cases hd : dist a b ≤ 2 ^ 100
  · have := gaussOf_near hr (n := n) (d := dist a b) (ε0 := (L + 1) * (1 / 2 ^ 51)) (by rwa [abs_of_nonneg d0])
      (by positivity) (by norm_num; linarith only [hL']) (by
        rw [abs_of_nonneg d0]
        exact hn.trans (add_le_add le_rfl l1060))
    obtain ⟨b, e, b0, hb⟩ := this
    exact ⟨b, e, b0, hb.trans (by linarith only [t1])⟩
  · push Not at hd
    have q : (L + 1) * (1 / 2 ^ 51) ≤ 1 / 4 := by norm_num; linarith only [hL']
    have q2 : (L + 1) * (1 / 2 ^ 51) * dist a b ≤ 1 / 4 * dist a b := mul_le_mul_of_nonneg_right q d0
    have q3 : (1:ℝ) / 2 ^ 200 ≤ 1 := by norm_num
    have q4 : (128:ℝ) ≤ dist a b := le_trans (by norm_num) hd.le
    have := (abs_le.1 hn).1
    refine gaussOf_far_near hr (.inl ?_) (by rw [abs_of_nonneg d0]; linarith only [q4]) ?_
    · rw [fin_le]
      push_cast
      linarith only [this, q2, q3, q4, l1060]
    · have h1 : (1:ℝ) / 2 ^ 1000 ≤ 1 / 2 ^ 47 :=
        one_div_le_one_div_of_le (by positivity) (pow_le_pow_right₀ (by norm_num) (by norm_num))
      refine h1.trans (div_le_div_of_nonneg_right ?_ (by positivity))
      linarith only [hL0]

end Verif
