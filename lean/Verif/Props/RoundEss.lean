import Verif.Lemmas.RoundEss
import Verif.Props.NoSpread
import Verif.Props.Ess

/-!
# The error-spread score in binary64 is a number

C175: the error-spread score of finite data with positive variance, computed in binary64 by the compiled function or by
the array function, is a finite number.
-/

noncomputable section

open scoped Classical

namespace Verif

open XF Py Api Spec

/-- The part of C175 that holds: data up to `2 ^ 40`, two members at least `2 ^ -40` apart, from three to `2 ^ 20 - 1`
members.  The statement without the bounds is false, see `C175_underflow_false`. -/
theorem C175_finite_partial {r : ℝ → XF} (hr : Nearest64 r) {S : List XF → XF} (hS : ∀ xs, RSum r xs (S xs)) {y : ℝ} {xs : List ℝ}
    (h3 : 3 ≤ xs.length) (hM : xs.length < 2 ^ 20) (hy : |y| ≤ (2:ℝ) ^ (40 : ℤ)) (hx : ∀ x ∈ xs, |x| ≤ (2:ℝ) ^ (40 : ℤ)) {a b : ℝ}
    (ha : a ∈ xs) (hb : b ∈ xs) (hab : (2:ℝ) ^ (-40 : ℤ) ≤ |a - b|) :
    (∃ v : ℝ, Rnd.essScore r S (fin y) (xs.map fin) = fin v) ∧ ∃ v : ℝ, Rnd.essGufunc r (fin y) (xs.map fin) = fin v := by
  have hne : xs.map fin ≠ [] := by
    intro h
    have := congrArg List.length h
    simp at this
    simp [this] at h3
  have hxf : ∀ x ∈ xs.map fin, ∃ a : ℝ, x = fin a ∧ |a| ≤ (2:ℝ) ^ (40 : ℤ) := fun x h => by
    obtain ⟨c, hc, rfl⟩ := List.mem_map.1 h
    exact ⟨c, rfl, hx c hc⟩
  have hy' : |y| ≤ (2:ℝ) ^ (41 : ℤ) := hy.trans (zpow_le_zpow_right₀ (by norm_num) (by norm_num))
  constructor
  · obtain ⟨m, em, hm⟩ := mean_bandZ hr (k := 40) (by norm_num) (by norm_num) (z := []) (by simp) (by simp) hne (hS (xs.map fin))
      (by simpa using hM.le) hxf
    obtain ⟨s, es, hs, hg⟩ := ess_moments hr (z := []) (by simp) (by simpa using hM.le) h3 hx ha hb hab hm (hS _)
    obtain ⟨g, eg, hg⟩ := hg _ (hS _)
    obtain ⟨e, ee, he⟩ := hr.subTwo (k := 41) (by norm_num) (by norm_num) hm hy'
    obtain ⟨v, ev⟩ := essLast_band hr hs hg he
    refine ⟨v, ?_⟩
    unfold Rnd.essScore Rnd.avg
    simp only [List.length_map] at es eg ⊢
    rw [List.length_map] at em
    simp only [em]
    simp only [List.nil_append] at es eg
    rw [es, eg, ee, ev]
  · have z0 : ∀ x ∈ [fin 0], x = fin 0 := by simp
    have hl : [fin 0].length + xs.length ≤ 2 ^ 20 := by rw [List.length_singleton]; omega
    have l1 := RSum.loop r (fun x => x) (xs.map fin)
    obtain ⟨m, em, hm⟩ := mean_bandZ hr (k := 40) (by norm_num) (by norm_num) z0 le_rfl (L := (xs.map fin).map fun x => x)
      (by simpa using hne) l1 (by rw [List.length_map, List.length_map]; exact hl) (by rw [List.map_id']; exact hxf)
    obtain ⟨s, es, hs, hg⟩ := ess_moments hr z0 hl h3 hx ha hb hab hm (RSum.loop r _ (xs.map fin))
    obtain ⟨g, eg, hg⟩ := hg _ (RSum.loop r _ (xs.map fin))
    obtain ⟨e, ee, he⟩ := mean_bandZ hr (k := 41) (by norm_num) (by norm_num) z0 le_rfl
      (L := (xs.map fin).map fun x => Rnd.rd r (x - fin y)) (by simpa using hne) (RSum.loop r _ (xs.map fin))
      (by rw [List.length_map, List.length_map]; exact hl) (fun x h => by
        rw [List.map_map] at h
        obtain ⟨c, hc, rfl⟩ := List.mem_map.1 h
        exact hr.subTwo (k := 40) (by norm_num) (by norm_num) (hx c hc) hy)
    obtain ⟨v, ev⟩ := essLast_band hr hs hg he
    refine ⟨v, ?_⟩
    unfold Rnd.essGufunc
    simp only [List.length_map] at em es eg ee ⊢
    simp only [em, es, eg, ee, ev]

example : ∃ S : List XF → XF, Nearest64 rn64 ∧ (∀ xs, RSum rn64 xs (S xs)) ∧ 3 ≤ [(1:ℝ), 2, 5].length ∧
    [(1:ℝ), 2, 5].length < 2 ^ 20 ∧ |(3:ℝ)| ≤ (2:ℝ) ^ (40 : ℤ) ∧ (∀ x ∈ [(1:ℝ), 2, 5], |x| ≤ (2:ℝ) ^ (40 : ℤ)) ∧
    (1:ℝ) ∈ [(1:ℝ), 2, 5] ∧ (5:ℝ) ∈ [(1:ℝ), 2, 5] ∧ (2:ℝ) ^ (-40 : ℤ) ≤ |(1:ℝ) - 5| := by
  obtain ⟨S, hS⟩ := exists_rsum rn64
  refine ⟨S, rn64_nearest, hS, by simp, by simp, by norm_num, ?_, by simp, by simp, by norm_num⟩
  intro x h
  simp only [List.mem_cons, List.not_mem_nil, or_false] at h
  rcases h with rfl | rfl | rfl <;> norm_num

/-- a sum with an entry that is not a number -/
theorem RSum.nanEntry {r : ℝ → XF} {xs : List XF} {t : XF} (ht : RSum r xs t) : nan ∈ xs → t = nan := by
  induction ht with
  | nil => intro h; simp at h
  | one x => intro h; exact (List.mem_singleton.1 h).symm
  | append _ _ _ _ ih1 ih2 =>
    intro h
    rcases List.mem_append.1 h with h | h
    · rw [ih1 h, nan_add]; rfl
    · rw [ih2 h, add_nan]; rfl
  | perm hp _ ih => intro h; exact ih (hp.mem_iff.2 h)

example : ∃ t, RSum rn64 [fin 1, nan] t ∧ nan ∈ [fin 1, nan] := by
  obtain ⟨S, hS⟩ := exists_rsum rn64
  exact ⟨_, hS _, by simp⟩

/-- Three members `2 ^ -600`, `-2 ^ -600` and zero and the observation zero: the score is `2 ^ -2400`, which rounds to
zero, and the computed score is not a number, because the squares in the spread round to zero. -/
theorem C175_underflow_false {r : ℝ → XF} (hr : Nearest64 r) {S : List XF → XF} (hS : ∀ xs, RSum r xs (S xs)) :
    Rnd.essScore r S (fin 0) ([1 / 2 ^ 600, -(1 / 2 ^ 600), 0].map fin) = nan ∧
      Rnd.essGufunc r (fin 0) ([1 / 2 ^ 600, -(1 / 2 ^ 600), 0].map fin) = nan ∧
      ∀ path, ess1 path (fin 0) ([1 / 2 ^ 600, -(1 / 2 ^ 600), 0].map fin) = .ok (fin ((1 / 2 ^ 600) ^ 4)) := by
  have hP : Rnd.rd r (fin ((1:ℝ) / 2 ^ 600)) = fin (1 / 2 ^ 600) := by
    have := hr.two (k := -600) (by norm_num) (by norm_num)
    rwa [zpow_neg, ← one_div, show ((2:ℝ) ^ (600 : ℤ)) = 2 ^ 600 from by exact_mod_cast rfl] at this
  have sq : Rnd.rd r (fin (((1:ℝ) / 2 ^ 600) ^ 2)) = fin 0 := hr.under (by
    rw [div_pow, one_pow, ← pow_mul, abs_of_pos (by positivity)]
    exact one_div_le_one_div_of_le (by positivity) (pow_le_pow_right₀ (by norm_num) (by norm_num)))
  have hp : (0:ℝ) < 1 / 2 ^ 600 := by positivity
  generalize (1:ℝ) / 2 ^ 600 = P at *
  have z := rd_zero' hr.toBinary64
  have hN : Rnd.rd r (fin (-P)) = fin (-P) := by
    show r (-P) = _
    rw [hr.neg, show r P = fin P from hP, fin_neg]
  have s0 : XF.sqrt (fin 0) = fin 0 := by rw [fin_sqrt le_rfl, Real.sqrt_zero]
  have zk : ∀ k : ℕ, k ≠ 0 → Rnd.rd r (fin 0 / (k : XF)) = fin 0 := fun k hk => by
    rw [natCast_fin, fin_div (by exact_mod_cast hk), zero_div, z]
  have q : ∀ x ∈ [P, -P, 0].map fin, Rnd.rd r (Rnd.rd r (x - fin 0) ^ 2) = fin 0 := by
    intro x hx
    simp only [List.map_cons, List.map_nil, List.mem_cons, List.not_mem_nil, or_false] at hx
    rcases hx with rfl | rfl | rfl
    · rw [fin_sub, sub_zero, hP, fin_pow, sq]
    · rw [fin_sub, sub_zero, hN, fin_pow, neg_sq, sq]
    · rw [fin_sub, sub_zero, z, fin_pow, zero_pow two_ne_zero, z]
  have zs : ∀ x ∈ ([P, -P, 0].map fin).map fun x => Rnd.rd r (Rnd.rd r (x - fin 0) ^ 2), x = fin 0 := by
    intro x hx
    obtain ⟨c, hc, rfl⟩ := List.mem_map.1 hx
    exact q c hc
  have nn : nan ∈ ([P, -P, 0].map fin).map fun x => Rnd.rd r (Rnd.rd r (Rnd.rd r (x - fin 0) / fin 0) ^ 3) := by
    refine List.mem_map.2 ⟨fin 0, by simp, ?_⟩
    rw [fin_sub, sub_zero, z, zero_div_zero, show Rnd.rd r nan = nan from rfl, nan_pow]; rfl
  have last : ∀ s e : XF, Rnd.essLast r s (Rnd.rd r (nan / (((3 - 1) * (3 - 2) : ℕ) : XF))) e = nan := by
    intro s e
    unfold Rnd.essLast
    rw [nan_div, show Rnd.rd r nan = nan from rfl, mul_nan, show Rnd.rd r nan = nan from rfl, sub_nan,
      show Rnd.rd r nan = nan from rfl, nan_pow]; rfl
  have len : ([P, -P, 0].map fin).length = 3 := rfl
  refine ⟨?_, ?_, fun path => ?_⟩
  · have m : Rnd.avg r S ([P, -P, 0].map fin) = fin 0 := by
      unfold Rnd.avg
      have : S ([P, -P, 0].map fin) = fin 0 := by
        rcases (hS ([P, -P, 0].map fin)).three (List.Perm.refl _) with h | h | h <;> rw [h, fin_add]
        · rw [add_zero, hN, fin_add, add_neg_cancel, z]
        · rw [add_zero, hP, fin_add, neg_add_cancel, z]
        · rw [add_neg_cancel, z, fin_add, add_zero, z]
      rw [this, len]
      exact zk 3 (by norm_num)
    unfold Rnd.essScore
    simp only [m, len]
    rw [(hS _).zeros hr.toBinary64 zs, zk _ (by norm_num), s0, z, (hS _).nanEntry nn]
    exact last _ _
  · have l1 : forRange 0 3 (0 : XF) (fun i m => Rnd.rd r (m + idx ([P, -P, 0].map fin) i)) = fin 0 := by
      show Rnd.rd r (Rnd.rd r (Rnd.rd r (fin 0 + fin P) + fin (-P)) + fin 0) = fin 0
      rw [fin_add, zero_add, hP, fin_add, add_neg_cancel, z, fin_add, add_zero, z]
    have l2 := RSum.loop r (fun x => Rnd.rd r (Rnd.rd r (x - fin 0) ^ 2)) ([P, -P, 0].map fin)
    have l3 := RSum.loop r (fun x => Rnd.rd r (Rnd.rd r (Rnd.rd r (x - fin 0) / fin 0) ^ 3)) ([P, -P, 0].map fin)
    have e2 := l2.zeros hr.toBinary64 (by
      intro x hx
      rcases List.mem_append.1 hx with h | h
      · simpa using h
      · exact zs x h)
    have e3 := l3.nanEntry (List.mem_append_right _ nn)
    rw [len] at e2 e3
    unfold Rnd.essGufunc
    simp only [len]
    rw [l1, zk 3 (by norm_num), e2, zk _ (by norm_num), s0, z, e3]
    exact last _ _
  · have e1 : Spec.avg [P, -P, 0] = 0 := by simp [Spec.avg]
    have e2 : Spec.svar false [P, -P, 0] = P ^ 2 := by
      unfold Spec.svar Spec.csum
      rw [e1]
      simp
      norm_num
    have e3 : Spec.sd [P, -P, 0] = P := by rw [Spec.sd, e2, Real.sqrt_sq hp.le]
    rw [C39_value path 0 [P, -P, 0] (by simp) ⟨P, by simp, 0, by simp, hp.ne'⟩, Spec.ess, e1, e3, Spec.es3]
    congr 2
    ring

example : ∃ S : List XF → XF, Nearest64 rn64 ∧ ∀ xs, RSum rn64 xs (S xs) := by
  obtain ⟨S, hS⟩ := exists_rsum rn64
  exact ⟨S, rn64_nearest, hS⟩

end Verif
