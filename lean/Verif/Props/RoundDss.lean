import Verif.Lemmas.RoundDss
import Verif.Lemmas.Nearest64

/-!
# Property C173: ensembles without spread in binary64

The Dawid-Sebastiani score and the error-spread score of equal members are not numbers (`C143_dss_false`,
`C143_ess_false`): the spread is zero.  In binary64 that is so as long as the sum of the members is exact.  The mean of
three members `0.1` is computed as a neighbour of `0.1`, so that the computed spread is not zero, and the scores are
ordinary numbers made of rounding errors.
-/

noncomputable section

open scoped Classical

namespace Verif

open XF Py Api Spec

/-- Without rounding the functions are those of the exact model, in whatever order the entries are added. -/
theorem C173_exact {S : List XF → XF} (hS : ∀ xs, RSum fin xs (S xs)) :
    Rnd.dssGufunc fin S = Dss.gufunc ∧ Rnd.dssScore fin S = Dss.score ∧ Rnd.essGufunc fin = Ess.gufunc ∧
      Rnd.essScore fin S = Ess.score := by
  have hs : S = List.sum := funext fun xs => (hS xs).exact
  subst hs
  refine ⟨?_, ?_, ?_, ?_⟩
  · funext b y xs
    simp only [Rnd.dssGufunc, Rnd.avg, Dss.gufunc, mean, rd_fin_eq]
  · funext b y xs
    simp only [Rnd.dssScore, Rnd.ensStd, Rnd.avg, Dss.score, Dss.std, mean, rd_fin_eq]
  · funext y xs
    simp only [Rnd.essGufunc, Rnd.essLast, Ess.gufunc, rd_fin_eq]
  · funext y xs
    simp only [Rnd.essScore, Rnd.essLast, Rnd.avg, Ess.score, mean, rd_fin_eq]

example : ∃ S : List XF → XF, ∀ xs, RSum fin xs (S xs) := exists_rsum fin

/-- Full property: the scores of equal members are not numbers in binary64 either.  Proved for members that are
nonnegative integers with a sum of at most `2 ^ 53`; missing: other members, for which it is false (`C173_dss_false`,
`C173_ess_false`). -/
theorem C173_const_partial {r : ℝ → XF} (hr : Binary64 r) {S : List XF → XF} (hS : ∀ xs, RSum r xs (S xs)) {M n : ℕ}
    (hM : M ≠ 0) (hM2 : M ≤ 2 ^ 53) (h : M * n ≤ 2 ^ 53) (y : ℝ) :
    (∀ bias, Rnd.dssGufunc r S bias (fin y) (List.replicate M (fin (n:ℝ))) = nan) ∧
    (∀ bias, Rnd.dssScore r S bias (fin y) (List.replicate M (fin (n:ℝ))) = nan) ∧
    Rnd.essGufunc r (fin y) (List.replicate M (fin (n:ℝ))) = nan ∧
    Rnd.essScore r S (fin y) (List.replicate M (fin (n:ℝ))) = nan := by
  have z := rd_zero' hr
  have hm : Rnd.avg r S (List.replicate M (fin (n:ℝ))) = fin n := by
    unfold Rnd.avg
    rw [List.length_replicate]
    exact sum_const hr hM h (.inl (hS _))
  have hz : S (List.replicate M (fin 0)) = fin 0 := (hS _).zeros hr fun x hx => (List.mem_replicate.1 hx).2
  have sq : (fin (0:ℝ) : XF) ^ 2 = fin 0 := by rw [fin_pow]; norm_num
  have s0 : XF.sqrt (fin 0) = fin 0 := by rw [fin_sqrt le_rfl, Real.sqrt_zero]
  have l0 : Rnd.rd r (2 * Rnd.rd r (XF.log (fin 0))) = ninf := by
    have h1 : XF.log (fin 0) = ninf := by
      show (if (0:ℝ) < 0 then _ else if (0:ℝ) = 0 then ninf else nan) = ninf
      simp
    rw [h1]
    show Rnd.rd r (2 * ninf) = ninf
    have : (2 : XF) * ninf = ninf := by
      show (if _ then _ else _) = _
      simp
    rw [this]; rfl
  -- the spread is zero, or not a number when the divisor is zero
  have sp : ∀ k : ℕ, Rnd.rd r (XF.sqrt (Rnd.rd r (fin 0 / (k : XF)))) = fin 0 ∨
      Rnd.rd r (XF.sqrt (Rnd.rd r (fin 0 / (k : XF)))) = nan := by
    intro k
    rw [natCast_fin]
    by_cases hk : (k:ℝ) = 0
    · right; rw [hk, zero_div_zero]; rfl
    · left; rw [fin_div hk, zero_div, z, s0, z]
  have tail : ∀ {sig : XF} (d : XF), sig = fin 0 ∨ sig = nan →
      Rnd.rd r (Rnd.rd r (Rnd.rd r (d / sig) ^ 2) + Rnd.rd r (2 * Rnd.rd r (XF.log sig))) = nan := by
    intro sig d h
    rcases h with rfl | rfl
    · rw [l0]; exact sq_div_zero_add d
    · rw [div_nan, show Rnd.rd r nan = nan from rfl, nan_pow, show Rnd.rd r nan = nan from rfl, nan_add]; rfl
  have dev : Rnd.rd r (fin (n:ℝ) - fin n) = fin 0 := by rw [fin_sub, sub_self, z]
  have last : ∀ s e : XF, Rnd.essLast r s nan e = nan := by
    intro s e
    unfold Rnd.essLast
    rw [mul_nan, show Rnd.rd r nan = nan from rfl, sub_nan, show Rnd.rd r nan = nan from rfl, nan_pow]; rfl
  have cube : ∀ {s : XF}, s = fin 0 ∨ s = nan → Rnd.rd r (Rnd.rd r (fin 0 / s) ^ 3) = nan := by
    intro s h
    rcases h with rfl | rfl
    · rw [zero_div_zero, show Rnd.rd r nan = nan from rfl, nan_pow]; rfl
    · rw [div_nan, show Rnd.rd r nan = nan from rfl, nan_pow]; rfl
  have snan : ∀ {xs : List XF} {t : XF}, RSum r xs t → nan ∈ xs → t = nan := by
    intro xs t ht
    induction ht with
    | nil => intro h; simp at h
    | one x => intro h; exact (List.mem_singleton.1 h).symm
    | append _ _ _ _ ih1 ih2 =>
      intro h
      rcases List.mem_append.1 h with h | h
      · rw [ih1 h, nan_add]; rfl
      · rw [ih2 h, add_nan]; rfl
    | perm hp _ ih => intro h; exact ih (hp.mem_iff.2 h)
  refine ⟨fun bias => ?_, fun bias => ?_, ?_, ?_⟩
  · have f : (if bias = true then Rnd.rd r (Rnd.rd r ((M : XF) - 1) + 1) else Rnd.rd r ((M : XF) - 1))
        = (((if bias = true then M else M - 1) : ℕ) : XF) := by
      have c : Rnd.rd r ((M : XF) - 1) = fin ((M - 1 : ℕ) : ℝ) := by
        rw [natCast_fin, one_fin, fin_sub, show (M:ℝ) - 1 = ((M - 1 : ℕ) : ℝ) by
          rw [Nat.cast_sub (Nat.pos_of_ne_zero hM), Nat.cast_one]]
        exact hr.nat _ (by omega)
      cases bias
      · simp only [Bool.false_eq_true, if_false]; rw [c, natCast_fin]
      · simp only [if_true]
        rw [c, one_fin, fin_add, natCast_fin, show ((M - 1 : ℕ) : ℝ) + 1 = M by
          rw [Nat.cast_sub (Nat.pos_of_ne_zero hM), Nat.cast_one]; ring]
        exact hr.nat _ hM2
    unfold Rnd.dssGufunc
    simp only [hm, List.map_replicate, List.length_replicate]
    rw [dev, sq, z, hz, f]
    exact tail _ (sp _)
  · unfold Rnd.dssScore Rnd.ensStd
    simp only [hm, List.map_replicate, List.length_replicate]
    rw [dev, fin_mul, mul_zero, z, hz]
    exact tail _ (sp _)
  · have id0 : ∀ f : XF → XF, ∀ t : XF, forRange 0 M t (fun i m => Rnd.rd r (m + f (idx (List.replicate M (fin (n:ℝ))) i)))
        = (List.range M).foldl (fun m _ => Rnd.rd r (m + f (fin (n:ℝ)))) t := by
      intro f t
      unfold forRange
      rw [Nat.sub_zero, ← List.range_eq_range']
      refine List.foldl_ext _ _ _ fun a i hi => ?_
      have hi := List.mem_range.1 hi
      dsimp only
      rw [show idx (List.replicate M (fin (n:ℝ))) i = fin n by simp [idx, hi]]
    have fr : ∀ c : XF, RSum r ([fin 0] ++ List.replicate M c) ((List.range M).foldl (fun m _ => Rnd.rd r (m + c)) 0) := by
      intro c
      have := RSum.fold (r := r) (fun _ : ℕ => c) (List.range M) (L := [fin 0]) (s := 0) (.one _) (by simp)
      rwa [List.map_const', List.length_range] at this
    unfold Rnd.essGufunc
    simp only [List.length_replicate]
    have e1 := id0 (fun x => x) 0
    rw [e1, sum_const hr hM h (.inr (fr _))]
    have e2 := id0 (fun x => Rnd.rd r (Rnd.rd r (x - fin (n:ℝ)) ^ 2)) 0
    rw [e2, dev, sq, z, (fr (fin 0)).zeros hr (by simp)]
    have e3 := id0 (fun x => Rnd.rd r (Rnd.rd r (Rnd.rd r (x - fin (n:ℝ))
      / Rnd.rd r (XF.sqrt (Rnd.rd r (fin 0 / ((M - 1 : ℕ) : XF))))) ^ 3)) 0
    rw [e3, dev, cube (sp _), snan (fr nan) (by simp [hM]), nan_div, show Rnd.rd r nan = nan from rfl]
    exact last _ _
  · unfold Rnd.essScore
    simp only [hm, List.map_replicate, List.length_replicate]
    rw [dev, sq, z, hz, cube (sp _), snan (hS _) (by simp [hM]), nan_div, show Rnd.rd r nan = nan from rfl]
    exact last _ _

example : ∃ S : List XF → XF, Binary64 rn64 ∧ (∀ xs, RSum rn64 xs (S xs)) ∧ 50 ≠ 0 ∧ 50 ≤ 2 ^ 53 ∧ 50 * 17 ≤ 2 ^ 53 := by
  obtain ⟨S, hS⟩ := exists_rsum rn64
  exact ⟨S, rn64_nearest.toBinary64, hS, by norm_num, by norm_num, by norm_num⟩

/-- the sum of three equal entries -/
theorem RSum.same3 {r : ℝ → XF} {c t : XF} (h : RSum r [c, c, c] t) : t = Rnd.rd r (c + Rnd.rd r (c + c)) := by
  rcases h.three (List.Perm.refl _) with h | h | h <;> exact h

example : ∃ t, RSum rn64 [fin 1, fin 1, fin 1] t := by
  obtain ⟨S, hS⟩ := exists_rsum rn64
  exact ⟨_, hS _⟩

/-- the mean and the sum of squares of three members `0.1` -/
theorem tenth_moments {r : ℝ → XF} (hr : Nearest64 r) {S : List XF → XF} (hS : ∀ xs, RSum r xs (S xs)) :
    ∃ δ : ℝ, (δ = 1 / 2 ^ 56 ∨ δ = -(1 / 2 ^ 56)) ∧ Rnd.avg r S (List.replicate 3 (fin tenth)) = fin (tenth + δ) ∧
      Rnd.rd r (fin tenth - fin (tenth + δ)) = fin (-δ) ∧ Rnd.rd r (fin (δ ^ 2)) = fin (1 / 2 ^ 112) ∧
      Rnd.rd r (S (List.replicate 3 (fin (1 / 2 ^ 112))) / fin 2) = fin (3 / 2 ^ 113) := by
  obtain ⟨h2, δ, hδ, h3⟩ := mean_tenth hr
  obtain ⟨d1, d2, d3, d4⟩ := dev_tenth hr hδ
  refine ⟨δ, hδ, ?_, ?_, ?_, ?_⟩
  · unfold Rnd.avg
    rw [List.length_replicate, natCast_fin,
      show List.replicate 3 (fin tenth) = [fin tenth, fin tenth, fin tenth] from rfl,
      RSum.same3 (hS [fin tenth, fin tenth, fin tenth]), h2]
    exact_mod_cast h3
  · rw [fin_sub, show tenth - (tenth + δ) = -δ by ring]
    exact d2
  · rw [d3]; exact kept_112 hr
  · have e := RSum.same3 (hS [fin (1 / 2 ^ 112), fin (1 / 2 ^ 112), fin (1 / 2 ^ 112)])
    rw [show List.replicate 3 (fin (1 / 2 ^ 112) : XF) = [fin (1 / 2 ^ 112), fin (1 / 2 ^ 112), fin (1 / 2 ^ 112)] from rfl, e,
      fin_add, show (1:ℝ) / 2 ^ 112 + 1 / 2 ^ 112 = 2 / 2 ^ 112 by ring, show Rnd.rd r (fin (2 / 2 ^ 112)) = _ from kept_111 hr,
      fin_add, show (1:ℝ) / 2 ^ 112 + 2 / 2 ^ 112 = 3 / 2 ^ 112 by ring, show Rnd.rd r (fin (3 / 2 ^ 112)) = _ from kept_3_112 hr,
      fin_div (by norm_num), show (3:ℝ) / 2 ^ 112 / 2 = 3 / 2 ^ 113 by ring]
    exact kept_3_113 hr

example : ∃ S : List XF → XF, Nearest64 rn64 ∧ ∀ xs, RSum rn64 xs (S xs) := by
  obtain ⟨S, hS⟩ := exists_rsum rn64
  exact ⟨S, rn64_nearest, hS⟩

/-- Three members and an observation equal to `0.1`: the exact score is not a number, the score computed in binary64 is a
number between `-78` and `-75`, whatever the order of summation and the treatment of ties. -/
theorem C173_dss_false {r : ℝ → XF} (hr : Nearest64 r) {S : List XF → XF} (hS : ∀ xs, RSum r xs (S xs)) :
    (∃ v : ℝ, Rnd.dssGufunc r S false (fin tenth) (List.replicate 3 (fin tenth)) = fin v ∧ -78 ≤ v ∧ v ≤ -75) ∧
    (∃ v : ℝ, Rnd.dssScore r S false (fin tenth) (List.replicate 3 (fin tenth)) = fin v ∧ -78 ≤ v ∧ v ≤ -75) ∧
    ∀ path, dss1 path false (fin tenth) (List.replicate 3 (fin tenth)) = .ok nan := by
  obtain ⟨δ, hδ, m, dv, sq, sm⟩ := tenth_moments hr hS
  obtain ⟨_, _, _, d4⟩ := dev_tenth hr hδ
  obtain ⟨s, es, s1, s2⟩ := sig_tenth hr
  obtain ⟨v, ev, hv⟩ := dssTail_tenth hr s1 s2 (δ := -δ) (by rw [abs_neg]; exact d4)
  refine ⟨⟨v, ?_, hv⟩, ⟨v, ?_, hv⟩, fun path => C143_dss_false path false (by norm_num) _ _⟩
  · have f : Rnd.rd r (((3 : ℕ) : XF) - 1) = fin 2 := by
      rw [natCast_fin, one_fin, fin_sub, show ((3 : ℕ) : ℝ) - 1 = (2 : ℕ) by norm_num]
      exact_mod_cast hr.nat 2 (by norm_num)
    unfold Rnd.dssGufunc
    simp only [m, List.map_replicate, List.length_replicate, Bool.false_eq_true, if_false]
    rw [dv, fin_pow, neg_sq, sq, f, sm, es]
    exact ev
  · unfold Rnd.dssScore Rnd.ensStd
    simp only [m, List.map_replicate, List.length_replicate, Bool.false_eq_true, if_false]
    rw [dv, fin_mul, show -δ * -δ = δ ^ 2 by ring, sq, show ((3 - 1 : ℕ) : XF) = fin 2 by rw [natCast_fin]; norm_num, sm, es]
    exact ev

example : ∃ S : List XF → XF, Nearest64 rn64 ∧ ∀ xs, RSum rn64 xs (S xs) := by
  obtain ⟨S, hS⟩ := exists_rsum rn64
  exact ⟨S, rn64_nearest, hS⟩

/-- The same data in the error-spread score: not a number exactly, a number in binary64. -/
theorem C173_ess_false {r : ℝ → XF} (hr : Nearest64 r) {S : List XF → XF} (hS : ∀ xs, RSum r xs (S xs)) :
    (∃ v : ℝ, Rnd.essScore r S (fin tenth) (List.replicate 3 (fin tenth)) = fin v ∧ |v| ≤ 25) ∧
    (∃ v : ℝ, Rnd.essGufunc r (fin tenth) (List.replicate 3 (fin tenth)) = fin v ∧ |v| ≤ 25) ∧
    ∀ path, ess1 path (fin tenth) ([tenth, tenth, tenth].map fin) = .ok nan := by
  have z := rd_zero' hr.toBinary64
  refine ⟨?_, ?_, fun path => C143_ess_false path _ _ (by simp) (.inr ⟨tenth, by simp⟩)⟩
  · obtain ⟨δ, hδ, m, dv, sq, sm⟩ := tenth_moments hr hS
    obtain ⟨d1, _, _, d4⟩ := dev_tenth hr hδ
    obtain ⟨s, es, s1, s2⟩ := sig_tenth hr
    obtain ⟨c, ec, hc⟩ := cube_kept hr s1 (δ := -δ) (by rw [abs_neg]; exact d4)
    obtain ⟨g, eg, hg⟩ := three_kept hr hc (.inl (RSum.same3 (hS [fin c, fin c, fin c])))
    have s0 : 0 ≤ s := le_trans (by positivity) s1
    obtain ⟨v, ev, hv⟩ := essTail_kept hr (s := s) (g := g) (e := δ)
      (by rw [abs_of_nonneg s0]; exact s2.trans (by norm_num)) hg (by rw [d4]; norm_num)
    refine ⟨v, ?_, hv⟩
    unfold Rnd.essScore
    simp only [m, List.map_replicate, List.length_replicate]
    rw [dv, fin_pow, neg_sq, sq, show ((3 - 1 : ℕ) : XF) = fin 2 by rw [natCast_fin]; norm_num, sm, es, ec,
      show List.replicate 3 (fin c) = [fin c, fin c, fin c] from rfl, eg, fin_sub, add_sub_cancel_left,
      show Rnd.rd r (fin δ) = fin δ from d1]
    exact ev
  · obtain ⟨h2, δ, hδ, h3⟩ := mean_tenth hr
    obtain ⟨d1, d2, d3, d4⟩ := dev_tenth hr hδ
    obtain ⟨s, es, s1, s2⟩ := sig_tenth hr
    obtain ⟨c, ec, hc⟩ := cube_kept hr s1 (δ := -δ) (by rw [abs_neg]; exact d4)
    obtain ⟨g, eg, hg⟩ := three_kept hr hc (.inr rfl)
    have s0 : 0 ≤ s := le_trans (by positivity) s1
    obtain ⟨v, ev, hv⟩ := essTail_kept hr (s := s) (g := g) (e := 0)
      (by rw [abs_of_nonneg s0]; exact s2.trans (by norm_num)) hg (by norm_num)
    refine ⟨v, ?_, hv⟩
    have loop : ∀ f : XF → XF, forRange 0 3 (0 : XF) (fun i m => Rnd.rd r (m + f (idx (List.replicate 3 (fin tenth)) i)))
        = Rnd.rd r (Rnd.rd r (Rnd.rd r (fin 0 + f (fin tenth)) + f (fin tenth)) + f (fin tenth)) := fun f => rfl
    have dv : Rnd.rd r (fin tenth - fin (tenth + δ)) = fin (-δ) := by
      rw [fin_sub, show tenth - (tenth + δ) = -δ by ring]; exact d2
    have k1 : Rnd.rd r (fin tenth) = fin tenth := kept_tenth hr
    unfold Rnd.essGufunc
    simp only [List.length_replicate]
    have e1 := loop fun x => x
    rw [e1, fin_add, zero_add, k1, h2, add_comm (fin (2 * tenth)), show ((3 : ℕ) : XF) = fin 3 by rw [natCast_fin]; norm_num, h3]
    have e2 := loop fun x => Rnd.rd r (Rnd.rd r (x - fin (tenth + δ)) ^ 2)
    have s3 : Rnd.rd r (Rnd.rd r (Rnd.rd r (Rnd.rd r (fin 0 + fin (1 / 2 ^ 112)) + fin (1 / 2 ^ 112)) + fin (1 / 2 ^ 112)) / fin 2)
        = fin (3 / 2 ^ 113) := by
      rw [fin_add, zero_add, show Rnd.rd r (fin (1 / 2 ^ 112)) = _ from kept_112 hr,
        fin_add, show (1:ℝ) / 2 ^ 112 + 1 / 2 ^ 112 = 2 / 2 ^ 112 by ring, show Rnd.rd r (fin (2 / 2 ^ 112)) = _ from kept_111 hr,
        fin_add, show (2:ℝ) / 2 ^ 112 + 1 / 2 ^ 112 = 3 / 2 ^ 112 by ring, show Rnd.rd r (fin (3 / 2 ^ 112)) = _ from kept_3_112 hr,
        fin_div (by norm_num), show (3:ℝ) / 2 ^ 112 / 2 = 3 / 2 ^ 113 by ring]
      exact kept_3_113 hr
    rw [e2, dv, fin_pow, neg_sq, d3, show Rnd.rd r (fin (1 / 2 ^ 112)) = _ from kept_112 hr,
      show ((3 - 1 : ℕ) : XF) = fin 2 by rw [natCast_fin]; norm_num, s3, es]
    have e3 := loop fun x => Rnd.rd r (Rnd.rd r (Rnd.rd r (x - fin (tenth + δ)) / fin s) ^ 3)
    rw [e3, dv, ec, eg]
    have e4 := loop fun x => Rnd.rd r (x - fin tenth)
    rw [e4, fin_sub, sub_self, z, fin_add, add_zero, z, fin_add, add_zero, z, fin_add, add_zero, z,
      fin_div (by norm_num), zero_div, z]
    exact ev

example : ∃ S : List XF → XF, Nearest64 rn64 ∧ ∀ xs, RSum rn64 xs (S xs) := by
  obtain ⟨S, hS⟩ := exists_rsum rn64
  exact ⟨S, rn64_nearest, hS⟩

end Verif
