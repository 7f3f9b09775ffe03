import Verif.Lemmas.RoundCrpsInt
import Verif.Lemmas.CrpsAkr

/-! The estimators `akr` and `akr_circperm` of the numba path. -/

noncomputable section

open scoped Classical

namespace Verif

open XF Py Spec

/-- a loop with two sums -/
theorem RSum.foldPair {α : Type} {r : ℝ → XF} (a b : α → XF) (l : List α) :
    ∀ {L1 L2 : List XF} {s : XF × XF}, RSum r L1 s.1 → L1 ≠ [] → RSum r L2 s.2 → L2 ≠ [] →
    RSum r (L1 ++ l.map a) (l.foldl (fun (s : XF × XF) i => (Rnd.rd r (s.1 + a i), Rnd.rd r (s.2 + b i))) s).1 ∧
    RSum r (L2 ++ l.map b) (l.foldl (fun (s : XF × XF) i => (Rnd.rd r (s.1 + a i), Rnd.rd r (s.2 + b i))) s).2 := by
  induction l with
  | nil => intro L1 L2 s h1 _ h2 _; simpa using ⟨h1, h2⟩
  | cons x l ih =>
    intro L1 L2 s h1 n1 h2 n2
    have := ih (L1 := L1 ++ [a x]) (L2 := L2 ++ [b x]) (s := (Rnd.rd r (s.1 + a x), Rnd.rd r (s.2 + b x)))
      (h1.snoc n1 _) (by simp) (h2.snoc n2 _) (by simp)
    simpa [List.append_assoc] using this

theorem zipIdx_map_range {β : Type} (xs : List ℝ) (g : ℝ → ℕ → β) :
    (xs.zipIdx.map fun p => g p.1 p.2) = (List.range xs.length).map fun i => g (xs.getD i 0) i := by
  apply List.ext_getElem
  · simp
  · intro i h1 h2
    have hi : i < xs.length := by simpa using h1
    simp [hi]

section
variable {r : ℝ → XF} (hr : Nearest64 r)
include hr

/-- the two sums and the final expression; `σ` is the index of the partner of a member -/
theorem loopCirc_near {y : ℝ} {xs : List ℝ} (hne : xs ≠ []) (hM : xs.length ≤ 2 ^ 20) (hy : |y| ≤ 2 ^ 959)
    (hx : ∀ x ∈ xs, |x| ≤ 2 ^ 959) {σ : ℕ → ℕ} (hσ : ∀ i < xs.length, σ i < xs.length) {e : XF × XF}
    (he : e = forEnum (xs.map fin) ((0, 0) : XF × XF) fun i forecast e =>
      (Rnd.rd r (e.1 + Rnd.adiff r forecast (fin y)), Rnd.rd r (e.2 + Rnd.adiff r forecast (idx (xs.map fin) (σ i))))) :
    ∃ v : ℝ, Rnd.rd r (Rnd.rd r (e.1 / fin xs.length) - Rnd.rd r (Rnd.rd r (Rnd.rd r (fin (1 / 2)) / fin xs.length) * e.2)) = fin v ∧
      |v - (meanAbs y xs - 1 / 2 * (((List.range xs.length).map fun i => |xs.getD i 0 - xs.getD (σ i) 0|).sum / xs.length))|
        ≤ (2 * xs.length + 10) / 2 ^ 51 * (meanAbs y xs
          + 1 / 2 * (((List.range xs.length).map fun i => |xs.getD i 0 - xs.getD (σ i) 0|).sum / xs.length)) + 1 / 2 ^ 1050 := by
  have hM' : (xs.length : ℝ) ≤ 2 ^ 20 := by exact_mod_cast hM
  have hM0 : 0 < xs.length := List.length_pos_iff.mpr hne
  have hM1 : (1:ℝ) ≤ xs.length := by exact_mod_cast hM0
  have hMp : (0:ℝ) < xs.length := by linarith
  have hg : ∀ i < xs.length, |xs.getD i 0| ≤ 2 ^ 959 := by
    intro i hi
    rw [show xs.getD i 0 = xs[i] by simp [hi]]
    exact hx _ (List.getElem_mem hi)
  have hf : ∀ i < xs.length, idx (xs.map fin) i = fin (xs.getD i 0) := by
    intro i hi
    unfold idx
    simp [hi]
  have dist : ∀ i < xs.length, |xs.getD i 0 - xs.getD (σ i) 0| ≤ 2 ^ 960 := fun i hi => dist960 (hg i hi) (hg _ (hσ i hi))
  obtain ⟨s1, s2⟩ := RSum.foldPair (r := r) (fun p : ℝ × ℕ => Rnd.adiff r (fin p.1) (fin y))
    (fun p : ℝ × ℕ => Rnd.adiff r (fin p.1) (idx (xs.map fin) (σ p.2))) xs.zipIdx (L1 := [fin 0]) (L2 := [fin 0])
    (s := ((0, 0) : XF × XF)) (.one _) (by simp) (.one _) (by simp)
  have he' : e = xs.zipIdx.foldl (fun (s : XF × XF) p => (Rnd.rd r (s.1 + Rnd.adiff r (fin p.1) (fin y)),
      Rnd.rd r (s.2 + Rnd.adiff r (fin p.1) (idx (xs.map fin) (σ p.2))))) ((0, 0) : XF × XF) := by
    rw [he]
    unfold forEnum
    rw [List.zipIdx_map, List.foldl_map]
    rfl
  rw [← he'] at s1 s2
  clear he he'
  -- the mean distance
  have z1 : (xs.zipIdx.map fun p : ℝ × ℕ => Rnd.adiff r (fin p.1) (fin y)) = (xs.map fun x => (x, y)).map fun q =>
      Rnd.adiff r (fin q.1) (fin q.2) := by
    rw [List.map_map, show (fun p : ℝ × ℕ => Rnd.adiff r (fin p.1) (fin y)) = (fun x => Rnd.adiff r (fin x) (fin y)) ∘ Prod.fst from rfl,
      ← List.map_map, List.zipIdx_map_fst]
    rfl
  rw [z1] at s1
  have n1 := dmean0_near hr.toBinary64 (d := xs.length) s1
    (by rw [List.length_map]; omega) hM1 (by rw [List.length_map]; linarith) (by
      intro q hq
      obtain ⟨x, hx', rfl⟩ := List.mem_map.1 hq
      exact dist960 (hx x hx') hy)
  rw [List.map_map, List.length_map] at n1
  obtain ⟨n1, b1⟩ := n1
  change SqNear _ _ (meanAbs y xs) _ _ at n1
  change meanAbs y xs ≤ _ at b1
  -- the distances to the partners
  have z2 : (xs.zipIdx.map fun p : ℝ × ℕ => Rnd.adiff r (fin p.1) (idx (xs.map fin) (σ p.2)))
      = (List.range xs.length).map fun i => Rnd.adiff r (fin (xs.getD i 0)) (fin (xs.getD (σ i) 0)) := by
    rw [zipIdx_map_range xs fun x i => Rnd.adiff r (fin x) (idx (xs.map fin) (σ i))]
    refine List.map_congr_left fun i hi => ?_
    rw [hf _ (hσ i (List.mem_range.1 hi))]
  rw [z2] at s2
  have p1 := meanAbs_nonneg' y xs
  have p2 : 0 ≤ ((List.range xs.length).map fun i => |xs.getD i 0 - xs.getD (σ i) 0|).sum :=
    list_sum_nonneg' fun _ _ => abs_nonneg _
  have b2 : ((List.range xs.length).map fun i => |xs.getD i 0 - xs.getD (σ i) 0|).sum ≤ (xs.length : ℝ) * 2 ^ 960 := by
    have := sum_map_le (l := List.range xs.length) (f := fun i => |xs.getD i 0 - xs.getD (σ i) 0|) (B := 2 ^ 960)
      fun i hi => dist i (List.mem_range.1 hi)
    rwa [List.length_range] at this
  have k1 : (2:ℝ) * 2 ^ 20 + 8 ≤ 2 ^ 50 := by norm_num
  have k2 : (4:ℝ) * 2 ^ 20 + 16 ≤ 2 ^ 50 := by norm_num
  have k3 : (4:ℝ) * 2 ^ 20 + 11 ≤ 2 ^ 23 := by norm_num
  have n2 := s2.sqNear hr.toBinary64 unit_abs (k := 1) (m := 1) (by norm_num)
    (as := [0] ++ (List.range xs.length).map fun i => |xs.getD i 0 - xs.getD (σ i) 0|) ?_ ?_ ?_ ?_
  · rw [List.sum_append, List.sum_singleton, zero_add, List.length_append, List.length_map, List.length_range,
      List.length_singleton] at n2
    push_cast at n2
    have w1 : RelNear (fin (1 / 2)) (1 / 2) 0 := ⟨1 / 2, rfl, by norm_num, by simp⟩
    have low : (1:ℝ) / 2 ^ 900 ≤ 1 / 2 ^ 21 := one_div_le_one_div_of_le (by norm_num) (pow_le_pow_right₀ (by norm_num) (by norm_num))
    have w2 := w1.rd hr (Or.inr (low.trans (by norm_num))) (by norm_num) (by norm_num)
    have w3 : RelNear (Rnd.rd r (fin (1 / 2)) / fin xs.length) (1 / 2 / xs.length) (0 + 2) := by
      have := SqNear.div hMp w2
      rw [zero_div] at this
      exact this
    have f0 : (0:ℝ) ≤ 1 / 2 / xs.length := by positivity
    have f1 : (1:ℝ) / 2 / xs.length ≤ 1 := by
      rw [div_le_one hMp]; linarith only [hM1]
    have f2 : (1:ℝ) / 2 ^ 900 ≤ 1 / 2 / xs.length := by
      refine low.trans ?_
      rw [div_div]
      refine one_div_le_one_div_of_le (by linarith only [hMp]) ?_
      have : (2:ℝ) ^ 21 = 2 * 2 ^ 20 := pow_succ' _ _
      linarith only [hM', this]
    have w4 := w3.rd hr (Or.inr f2) (by linarith only [f1]) (by norm_num)
    have n3 := n2.mulnear w4 p2 f0 f1 (by norm_num) (by linarith only [hMp])
    have e5 : 1 / 2 / (xs.length : ℝ) * ((List.range xs.length).map fun i => |xs.getD i 0 - xs.getD (σ i) 0|).sum
        = 1 / 2 * (((List.range xs.length).map fun i => |xs.getD i 0 - xs.getD (σ i) 0|).sum / xs.length) := by ring
    rw [e5] at n3
    have b4 : ((List.range xs.length).map fun i => |xs.getD i 0 - xs.getD (σ i) 0|).sum / (xs.length : ℝ) ≤ 2 ^ 960 := by
      rw [div_le_iff₀ hMp, mul_comm]; exact b2
    have p4 : 0 ≤ ((List.range xs.length).map fun i => |xs.getD i 0 - xs.getD (σ i) 0|).sum / (xs.length : ℝ) :=
      div_nonneg p2 hMp.le
    generalize ((List.range xs.length).map fun i => |xs.getD i 0 - xs.getD (σ i) 0|).sum / (xs.length : ℝ) = T at *
    have u1 : (2:ℝ) ^ 961 ≤ 2 ^ 1000 := pow_le_pow_right₀ (by norm_num) (by norm_num)
    have u2 : (2:ℝ) ^ 961 + 2 ^ 961 ≤ 2 ^ 1000 := by
      rw [← two_mul, ← pow_succ']; exact pow_le_pow_right₀ (by norm_num) (by norm_num)
    have u3 : (2:ℝ) ^ 960 ≤ 2 ^ 961 := pow_le_pow_right₀ (by norm_num) (by norm_num)
    have b5 : 1 / 2 * T ≤ 2 ^ 961 := le_trans (by linarith only [p4]) (b4.trans u3)
    have n4 := n3.rd hr.toBinary64 unit_abs (by positivity) (b5.trans u1) (by linarith only [k1, hM']) (by linarith only [k2, hM'])
    have n4' := n4.mono unit_abs.nonneg (by positivity) (k' := 2 * (xs.length : ℝ) + 9) (m' := 4 * (xs.length : ℝ) + 5)
      (by linarith only []) (by linarith only [])
    have n1' := n1.mono unit_abs.nonneg p1 (k' := 2 * (xs.length : ℝ) + 9) (m' := 5) (by linarith only [hMp]) (le_refl _)
    obtain ⟨v, e, hv⟩ := sub_near hr.toBinary64 unit_abs n1' n4' p1 (by positivity) (by linarith only [k2, hM']) (by linarith only [k2, hM'])
      ((add_le_add b1 b5).trans u2)
    refine ⟨v, e, hv.trans (add_le_add (le_of_eq (by ring)) ?_)⟩
    rw [show (1073:ℕ) = 23 + 1050 from rfl, pow_add, ← one_div_mul_one_div, ← mul_assoc]
    refine mul_le_of_le_one_left (by positivity) ?_
    rw [mul_one_div, div_le_one (by positivity)]
    linarith only [k3, hM']
  · refine List.rel_append (List.forall₂_cons.2 ⟨⟨le_refl _, SqNear.zero (by positivity)⟩, .nil⟩) ?_
    rw [List.forall₂_map_left_iff, List.forall₂_map_right_iff, List.forall₂_same]
    exact fun i hi => ⟨abs_nonneg _, adiff_near hr.toBinary64 (dist i (List.mem_range.1 hi))⟩
  · rw [List.sum_append, List.sum_singleton, zero_add]
    refine b2.trans ?_
    calc (xs.length : ℝ) * 2 ^ 960 ≤ 2 ^ 20 * 2 ^ 960 := mul_le_mul_of_nonneg_right hM' (by positivity)
      _ = 2 ^ 980 := by rw [← pow_add]
      _ ≤ 2 ^ 1000 := pow_le_pow_right₀ (by norm_num) (by norm_num)
  · rw [List.length_append, List.length_map, List.length_range, List.length_singleton]
    push_cast
    linarith only [k1, hM', hMp]
  · rw [List.length_append, List.length_map, List.length_range, List.length_singleton]
    push_cast
    linarith only [k1, hM', hMp]

end

end Verif
