import Verif.Props.Closer
import Verif.Props.Brier
import Verif.Props.Quantile
import Verif.Lemmas.LogShape

/-!
# Property C157: probability, quantile and interval forecasts closer to what happened never score worse
-/

noncomputable section

open scoped Classical

namespace Verif

open XF Py Api Brier

/-! ### probabilities -/

theorem brier_closer {o : Bool} {p p' : ℝ} (h : OnTheWay (outc o) p' p) : Spec.brier p' o ≤ Spec.brier p o := by
  rw [onTheWay_iff] at h
  cases o
  · simp only [outc, Bool.false_eq_true, if_false] at h
    simp only [Spec.brier, Bool.false_eq_true, if_false]
    rcases h with h | h <;> nlinarith
  · simp only [outc, if_true] at h
    simp only [Spec.brier, if_true]
    rcases h with h | h <;> nlinarith

theorem brier_closer_strict {o : Bool} {p p' : ℝ} (h : OnTheWay (outc o) p' p) (hne : p' ≠ p) :
    Spec.brier p' o < Spec.brier p o := by
  rw [onTheWay_iff] at h
  cases o
  · simp only [outc, Bool.false_eq_true, if_false] at h
    simp only [Spec.brier, Bool.false_eq_true, if_false]
    rcases h with ⟨h1, h2⟩ | ⟨h1, h2⟩
    · have := lt_of_le_of_ne h1 hne.symm; nlinarith
    · have := lt_of_le_of_ne h2 hne; nlinarith
  · simp only [outc, if_true] at h
    simp only [Spec.brier, if_true]
    rcases h with ⟨h1, h2⟩ | ⟨h1, h2⟩
    · have := lt_of_le_of_ne h1 hne.symm; nlinarith
    · have := lt_of_le_of_ne h2 hne; nlinarith

/-- C157: the Brier score falls strictly when the probability moves towards the outcome. -/
theorem C157_brier {o : Bool} {p p' : ℝ} (h : OnTheWay (outc o) p' p) (hne : p' ≠ p) :
    brier1 (fin (outc o)) (fin p') < brier1 (fin (outc o)) (fin p) := by
  rw [brier1_fin, brier1_fin, fin_lt]
  exact brier_closer_strict h hne

/-- the event happened, the probability rises from 1/4 to 1/2 -/
example : OnTheWay (outc true) (1 / 2) (1 / 4) ∧ (1:ℝ) / 2 ≠ 1 / 4 := by
  rw [onTheWay_iff]; norm_num [outc]

/-- C157: so does the logarithmic score. -/
theorem C157_log {o : Bool} {p p' : ℝ} (h0 : 0 ≤ p) (h1 : p ≤ 1) (h : OnTheWay (outc o) p' p) (hne : p' ≠ p) :
    log1 (fin (outc o)) (fin p') < log1 (fin (outc o)) (fin p) := by
  rw [onTheWay_iff] at h
  have hp : 0 ≤ p' ∧ p' ≤ 1 ∧ Spec.probOf p o < Spec.probOf p' o := by
    cases o
    · simp only [outc, Bool.false_eq_true, if_false] at h
      simp only [Spec.probOf, Bool.false_eq_true, if_false]
      rcases h with ⟨h2, h3⟩ | ⟨h2, h3⟩
      · exact absurd (by linarith) hne
      · exact ⟨h2, by linarith, by have := lt_of_le_of_ne h3 hne; linarith⟩
    · simp only [outc, if_true] at h
      simp only [Spec.probOf, if_true]
      rcases h with ⟨h2, h3⟩ | ⟨h2, h3⟩
      · exact ⟨by linarith, h3, lt_of_le_of_ne h2 hne.symm⟩
      · exact absurd (by linarith) hne
  obtain ⟨h2, h3, h4⟩ := hp
  have h5 : 0 ≤ Spec.probOf p o := by unfold Spec.probOf; split_ifs <;> linarith
  rw [log1_fin o h2 h3, log1_fin o h0 h1, if_neg (by linarith)]
  split_ifs with h6
  · simp
  · rw [fin_lt]
    exact neg_lt_neg (Real.log_lt_log (lt_of_le_of_ne h5 (Ne.symm h6)) h4)

/-- the event did not happen, the probability falls from 1 (excluded) to 1/2 -/
example : OnTheWay (outc false) (1 / 2) 1 ∧ (1:ℝ) / 2 ≠ 1 := by
  rw [onTheWay_iff]; norm_num [outc]

/-! ### categories -/

theorem rps_closer {f f' : List ℝ} {c : ℕ} (h : TowardsCategory c f' f) : Spec.rps f' c ≤ Spec.rps f c := by
  unfold Spec.rps
  rw [h.1]
  refine List.sum_le_sum fun j hj => brier_closer ?_
  have := h.2 j (List.mem_range.1 hj)
  unfold outc
  simpa using this

/-- Moving the probability `e` from category `a` to category `b` (counted from 0) is a move towards every observed category
`c` (counted from 1) that is `b` or lies behind `b`, seen from `a`. -/
theorem towards_shift {f : List ℝ} {a b c : ℕ} {e : ℝ} (he : 0 ≤ e)
    (hp : Spec.IsProb f) (hea : e ≤ f.getD a 0) (hab : (a < b ∧ b < c) ∨ (b < a ∧ c ≤ b + 1)) :
    TowardsCategory c (List.ofFn fun i : Fin f.length =>
      f.getD i 0 - (if (i:ℕ) = a then e else 0) + (if (i:ℕ) = b then e else 0)) f := by
  refine ⟨by simp, fun j hj => ?_⟩
  have hn : ∀ i, 0 ≤ f.getD i 0 := fun i => by
    rcases lt_or_ge i f.length with h | h
    · have : f.getD i 0 = f[i] := by simp [h]
      rw [this]; exact hp.1 _ (List.getElem_mem h)
    · have : f.getD i 0 = 0 := by simp [h]
      rw [this]
  have hc : Spec.cum (List.ofFn fun i : Fin f.length =>
      f.getD i 0 - (if (i:ℕ) = a then e else 0) + (if (i:ℕ) = b then e else 0)) j
      = Spec.cum f j - (if a ≤ j then e else 0) + (if b ≤ j then e else 0) := by
    rw [cum_eq_sum, cum_eq_sum]
    have : ∀ i ∈ Finset.range (j + 1), (List.ofFn fun i : Fin f.length =>
        f.getD i 0 - (if (i:ℕ) = a then e else 0) + (if (i:ℕ) = b then e else 0)).getD i 0
        = f.getD i 0 - (if i = a then e else 0) + (if i = b then e else 0) := fun i hi => by
      have hi' : i < f.length := by rw [Finset.mem_range] at hi; omega
      simp [hi']
    rw [Finset.sum_congr rfl this, Finset.sum_add_distrib, Finset.sum_sub_distrib, Finset.sum_ite_eq', Finset.sum_ite_eq']
    simp only [Finset.mem_range, Nat.lt_succ_iff]
  rw [hc, onTheWay_iff]
  rcases hab with ⟨h1, h2⟩ | ⟨h1, h2⟩
  · by_cases h3 : a ≤ j
    · by_cases h4 : b ≤ j
      · rw [if_pos h3, if_pos h4, sub_add_cancel]
        have h5 : 0 ≤ Spec.cum f j := by rw [cum_eq_sum]; exact Finset.sum_nonneg fun i _ => hn i
        have h6 : Spec.cum f j ≤ 1 := by
          rw [← hp.2]
          unfold Spec.cum
          exact List.Sublist.sum_le_sum (List.take_sublist _ _) hp.1
        split_ifs
        · exact Or.inl ⟨le_rfl, h6⟩
        · exact Or.inr ⟨h5, le_rfl⟩
      · rw [if_pos h3, if_neg h4, if_neg (by omega), add_zero]
        refine Or.inr ⟨?_, by linarith⟩
        have : f.getD a 0 ≤ Spec.cum f j := by
          rw [cum_eq_sum]
          exact Finset.single_le_sum (f := fun i => f.getD i 0) (fun i _ => hn i) (Finset.mem_range.2 (by omega))
        linarith
    · rw [if_neg h3, if_neg (by omega), if_neg (by omega)]
      rw [sub_zero, add_zero]
      refine Or.inr ⟨?_, le_rfl⟩
      rw [cum_eq_sum]; exact Finset.sum_nonneg fun i _ => hn i
  · have hlast : ∀ k, Spec.cum f k ≤ 1 := fun k => by
      rw [← hp.2]
      unfold Spec.cum
      exact List.Sublist.sum_le_sum (List.take_sublist _ _) hp.1
    by_cases h3 : b ≤ j
    · by_cases h4 : a ≤ j
      · rw [if_pos h4, if_pos h3, sub_add_cancel, if_pos (by omega)]
        exact Or.inl ⟨le_rfl, hlast j⟩
      · rw [if_neg h4, if_pos h3, sub_zero, if_pos (by omega)]
        refine Or.inl ⟨by linarith, ?_⟩
        have h5 := hlast a
        rw [cum_eq_sum, Finset.sum_range_succ] at h5
        have h6 : Spec.cum f j ≤ ∑ i ∈ Finset.range a, f.getD i 0 := by
          rw [cum_eq_sum]
          exact Finset.sum_le_sum_of_subset_of_nonneg (Finset.range_mono (by omega)) fun i _ _ => hn i
        linarith
    · rw [if_neg h3, if_neg (by omega), sub_zero, add_zero]
      have h5 : 0 ≤ Spec.cum f j := by rw [cum_eq_sum]; exact Finset.sum_nonneg fun i _ => hn i
      split_ifs
      · exact Or.inl ⟨le_rfl, hlast j⟩
      · exact Or.inr ⟨h5, le_rfl⟩

/-- C157: the ranked probability score does not grow when the forecast moves towards the observed category. -/
theorem C157_rps {obs : Arr ℕ} {fct fct' : Arr ℝ} {m : ℤ} {k : ℕ} (h : Spec.AxisIs m fct.ndim k)
    (hs : obs.shape = fct.shape.eraseIdx k) (hs' : fct'.shape = fct.shape)
    (hf : ∀ i, Arr.Valid fct.shape i → 0 ≤ fct.get i ∧ fct.get i ≤ 1)
    (hf' : ∀ i, Arr.Valid fct.shape i → 0 ≤ fct'.get i ∧ fct'.get i ≤ 1)
    (hc : ∀ i, Arr.Valid obs.shape i → 1 ≤ obs.get i)
    (ht : ∀ i, Arr.Valid obs.shape i → TowardsCategory (obs.get i) (fct'.sliceAt k i) (fct.sliceAt k i)) :
    ∃ out out', rpsScore (obs.map fun c : ℕ => (c : XF)) (fct.map fin) m false = .ok out ∧
      rpsScore (obs.map fun c : ℕ => (c : XF)) (fct'.map fin) m false = .ok out' ∧
      out.shape = obs.shape ∧ out'.shape = obs.shape ∧
      ∀ i, Arr.Valid obs.shape i → ∃ s s' : ℝ, out.get i = fin s ∧ out'.get i = fin s' ∧ s' ≤ s := by
  obtain ⟨o, h1, h2, h3⟩ := C31_rps_value h hs hf hc
  obtain ⟨o', h1', h2', h3'⟩ := C31_rps_value (obs := obs) (fct := fct') (m := m) (k := k)
    (by unfold Arr.ndim; rw [hs']; exact h) (by rw [hs']; exact hs) (by rw [hs']; exact hf') hc
  exact ⟨o, o', h1, h1', h2, h2', fun i hi => ⟨_, _, h3 i hi, h3' i hi, rps_closer (ht i hi)⟩⟩

/-- three categories, the third is observed; 1/4 moves from the first to the second -/
example : TowardsCategory 3 (List.ofFn fun i : Fin [(1:ℝ) / 2, 1 / 4, 1 / 4].length =>
    [(1:ℝ) / 2, 1 / 4, 1 / 4].getD i 0 - (if (i:ℕ) = 0 then 1 / 4 else 0) + (if (i:ℕ) = 1 then 1 / 4 else 0))
    [1 / 2, 1 / 4, 1 / 4] :=
  towards_shift (a := 0) (b := 1) (by norm_num)
    ⟨fun p hp => by simp at hp; rcases hp with rfl | rfl <;> norm_num, by norm_num⟩ (by norm_num) (Or.inl ⟨by norm_num, by norm_num⟩)

theorem probOf_closer {o : Bool} {p p' : ℝ} (h0 : 0 ≤ p) (h1 : p ≤ 1) (h : OnTheWay (outc o) p' p) :
    Spec.probOf p o ≤ Spec.probOf p' o := by
  rw [onTheWay_iff] at h
  cases o
  · simp only [outc, Bool.false_eq_true, if_false] at h
    simp only [Spec.probOf, Bool.false_eq_true, if_false]
    rcases h with h | h <;> linarith
  · simp only [outc, if_true] at h
    simp only [Spec.probOf, if_true]
    rcases h with h | h <;> linarith

/-- C157: neither does the ranked logarithmic score, infinite values included. -/
theorem C157_rls {obs : Arr ℕ} {fct fct' : Arr ℝ} {m : ℤ} {k : ℕ} (h : Spec.AxisIs m fct.ndim k)
    (hs : obs.shape = fct.shape.eraseIdx k) (hs' : fct'.shape = fct.shape)
    (hf : ∀ i, Arr.Valid fct.shape i → 0 ≤ fct.get i ∧ fct.get i ≤ 1)
    (hf' : ∀ i, Arr.Valid fct.shape i → 0 ≤ fct'.get i ∧ fct'.get i ≤ 1)
    (hp : ∀ i, Arr.Valid obs.shape i → Spec.IsProb (fct.sliceAt k i))
    (hp' : ∀ i, Arr.Valid obs.shape i → Spec.IsProb (fct'.sliceAt k i))
    (hc : ∀ i, Arr.Valid obs.shape i → 1 ≤ obs.get i)
    (ht : ∀ i, Arr.Valid obs.shape i → TowardsCategory (obs.get i) (fct'.sliceAt k i) (fct.sliceAt k i)) :
    ∃ out out', rlsScore (obs.map fun c : ℕ => (c : XF)) (fct.map fin) m false = .ok out ∧
      rlsScore (obs.map fun c : ℕ => (c : XF)) (fct'.map fin) m false = .ok out' ∧
      out.shape = obs.shape ∧ out'.shape = obs.shape ∧
      ∀ i, Arr.Valid obs.shape i → out'.get i ≤ out.get i := by
  obtain ⟨o, h1, h2, h3⟩ := C32_rls_value h hs hf hp hc
  obtain ⟨o', h1', h2', h3'⟩ := C32_rls_value (obs := obs) (fct := fct') (m := m) (k := k)
    (by unfold Arr.ndim; rw [hs']; exact h) (by rw [hs']; exact hs) (by rw [hs']; exact hf') hp' hc
  refine ⟨o, o', h1, h1', h2, h2', fun i hi => ?_⟩
  have hM : (fct.sliceAt k i).length = fct.shape.getD k 0 := by unfold Arr.sliceAt; simp
  have hcum : ∀ f : List ℝ, Spec.IsProb f → ∀ j, 0 ≤ Spec.cum f j ∧ Spec.cum f j ≤ 1 := fun f hf j => by
    constructor
    · exact List.sum_nonneg fun p hp => hf.1 p (List.mem_of_mem_take hp)
    · rw [← hf.2]
      exact List.Sublist.sum_le_sum (List.take_sublist _ _) hf.1
  have key : ∀ j < fct.shape.getD k 0, Spec.probOf (Spec.cum (fct.sliceAt k i) j) (decide (obs.get i ≤ j + 1))
      ≤ Spec.probOf (Spec.cum (fct'.sliceAt k i) j) (decide (obs.get i ≤ j + 1)) := fun j hj => by
    refine probOf_closer (hcum _ (hp i hi) j).1 (hcum _ (hp i hi) j).2 ?_
    have := (ht i hi).2 j (by rw [hM]; exact hj)
    unfold outc
    simpa using this
  have hpn : ∀ j, 0 ≤ Spec.probOf (Spec.cum (fct.sliceAt k i) j) (decide (obs.get i ≤ j + 1)) := fun j => by
    unfold Spec.probOf
    split_ifs <;> linarith [(hcum _ (hp i hi) j).1, (hcum _ (hp i hi) j).2]
  rw [h3 i hi, h3' i hi, hs']
  by_cases hz : ∃ j < fct.shape.getD k 0,
      Spec.probOf (Spec.cum (fct.sliceAt k i) j) (decide (obs.get i ≤ j + 1)) = 0
  · rw [if_pos hz]
    split_ifs <;> simp
  · rw [if_neg hz]
    push Not at hz
    rw [if_neg, fin_le]
    · unfold Spec.rls
      rw [(ht i hi).1]
      refine List.sum_le_sum fun j hj => neg_le_neg (Real.log_le_log ?_ (key j ?_))
      · exact lt_of_le_of_ne (hpn j) (Ne.symm (hz j (by rw [← hM]; exact List.mem_range.1 hj)))
      · rw [← hM]; exact List.mem_range.1 hj
    · rintro ⟨j, hj, h0⟩
      have := key j hj
      rw [h0] at this
      exact hz j hj (le_antisymm this (hpn j))

/-- all on the wrong category (score `+inf`) against one third on each -/
example : TowardsCategory 3 [1 / 3, 1 / 3, 1 / 3] [1, 0, 0] ∧ Spec.IsProb [1, 0, 0] := by
  refine ⟨⟨rfl, fun j hj => ?_⟩, ⟨by simp, by norm_num⟩⟩
  have hj' : j < 3 := hj
  rw [onTheWay_iff]
  interval_cases j <;> norm_num [Spec.cum]

/-! ### quantiles and intervals -/

theorem pinball_closer {α q q' y : ℝ} (h0 : 0 ≤ α) (h1 : α ≤ 1) (h : OnTheWay y q' q) :
    Spec.pinball α q' y ≤ Spec.pinball α q y := by
  rw [onTheWay_iff] at h
  unfold Spec.pinball
  rcases h with ⟨h2, h3⟩ | ⟨h2, h3⟩
  · refine max_le ((mul_le_mul_of_nonneg_left (by linarith) h0).trans (le_max_left _ _)) ?_
    exact le_trans (by nlinarith) (le_max_left _ _)
  · refine max_le ?_ ((mul_le_mul_of_nonneg_left (by linarith) (by linarith)).trans (le_max_right _ _))
    exact le_trans (by nlinarith) (le_max_right _ _)

/-- C157: the quantile score, strictly for levels inside the unit interval. -/
theorem C157_quantile {α q q' y : ℝ} (h0 : 0 ≤ α) (h1 : α ≤ 1) (h : OnTheWay y q' q) :
    Quantile.score1 (fin y) (fin q') (fin α) ≤ Quantile.score1 (fin y) (fin q) (fin α) ∧
    (0 < α → α < 1 → q' ≠ q → Quantile.score1 (fin y) (fin q') (fin α) < Quantile.score1 (fin y) (fin q) (fin α)) := by
  rw [Quantile.score1_fin, Quantile.score1_fin, fin_le, fin_lt]
  refine ⟨pinball_closer h0 h1 h, fun h2 h3 hne => ?_⟩
  rw [onTheWay_iff] at h
  unfold Spec.pinball
  rcases h with ⟨h4, h5⟩ | ⟨h4, h5⟩
  · have h6 := lt_of_le_of_ne h4 hne.symm
    exact lt_max_of_lt_left (max_lt (by nlinarith) (by nlinarith))
  · have h6 := lt_of_le_of_ne h5 hne
    exact lt_max_of_lt_right (max_lt (by nlinarith) (by nlinarith))

/-- level 1/10, observation 1, the report falls from 5 to 2 -/
example : OnTheWay (1:ℝ) 2 5 ∧ (0:ℝ) ≤ 1 / 10 ∧ (1:ℝ) / 10 ≤ 1 := by
  rw [onTheWay_iff]; norm_num

theorem pinballs_closer {y : ℝ} {qs qs' : List ℝ} (h : List.Forall₂ (OnTheWay y) qs' qs) :
    ∀ {al : List ℝ}, (∀ a ∈ al, 0 < a ∧ a < 1) →
    ((qs'.zip al).map fun p => Spec.pinball p.2 p.1 y).sum ≤ ((qs.zip al).map fun p => Spec.pinball p.2 p.1 y).sum := by
  induction h with
  | nil => intro al _; simp
  | cons h1 _ ih =>
    intro al ha
    cases al with
    | nil => simp
    | cons a al =>
      simp only [List.zip_cons_cons, List.map_cons, List.sum_cons]
      exact add_le_add (pinball_closer (ha a (by simp)).1.le (ha a (by simp)).2.le h1)
        (ih fun b hb => ha b (by simp [hb]))

/-- C157: the CRPS from quantiles, on both paths, for every array rank and axis. -/
theorem C157_crps_quantile {obs fct fct' : Arr ℝ} {alpha : List ℝ} {m : ℤ} {k : ℕ}
    (h : Spec.AxisIs m fct.ndim k) (hs : obs.shape = fct.shape.eraseIdx k) (hs' : fct'.shape = fct.shape)
    (hq : fct.shape.getD k 0 = alpha.length) (hne : alpha ≠ []) (ha : ∀ a ∈ alpha, 0 < a ∧ a < 1)
    (ht : ∀ i, List.Forall₂ (OnTheWay (obs.get i)) (fct'.sliceAt k i) (fct.sliceAt k i)) (path : Path) :
    ∃ out out', crpsQuantile path (obs.map fin) (fct.map fin) (alpha.map fin) m = .ok out ∧
      crpsQuantile path (obs.map fin) (fct'.map fin) (alpha.map fin) m = .ok out' ∧
      out.shape = obs.shape ∧ out'.shape = obs.shape ∧
      ∀ i, ∃ s s' : ℝ, out.get i = fin s ∧ out'.get i = fin s' ∧ s' ≤ s := by
  obtain ⟨o, h1, h2, h3⟩ := C26_crps_quantile_value h hs hq hne ha path
  obtain ⟨o', h1', h2', h3'⟩ := C26_crps_quantile_value (obs := obs) (fct := fct') (m := m) (k := k)
    (by unfold Arr.ndim; rw [hs']; exact h) (by rw [hs']; exact hs) (by rw [hs']; exact hq) hne ha path
  refine ⟨o, o', h1, h1', h2, h2', fun i => ⟨_, _, h3 i, h3' i, ?_⟩⟩
  have := pinballs_closer (ht i) ha
  gcongr

/-- two quantiles around the observation 1, both move towards it -/
example : List.Forall₂ (OnTheWay (1:ℝ)) [0, 2] [-1, 3] := by
  refine List.Forall₂.cons ?_ (List.Forall₂.cons ?_ List.Forall₂.nil) <;> rw [onTheWay_iff] <;> norm_num

/-- C157: the interval score does not grow when both ends move towards the observation: shorter intervals that still cover
it, longer ones that come closer to it. -/
theorem C157_interval {α l l' u u' y : ℝ} (h0 : 0 < α) (h2 : α ≤ 2) (hl : OnTheWay y l' l) (hu : OnTheWay y u' u) :
    Interval.score1 (fin y) (fin l') (fin u') (fin α) ≤ Interval.score1 (fin y) (fin l) (fin u) (fin α) := by
  rw [Interval.score1_fin y _ _ h0.ne', Interval.score1_fin y _ _ h0.ne', fin_le, intervalScore_eq h0.ne',
    intervalScore_eq h0.ne']
  have h3 := pinball_closer (α := α / 2) (by linarith) (by linarith) hl
  have h4 := pinball_closer (α := 1 - α / 2) (by linarith) (by linarith) hu
  exact mul_le_mul_of_nonneg_left (by linarith) (by positivity)

/-- the interval from 3 to 5 misses the observation 1; the interval from 2 to 5 is longer, but closer -/
example : OnTheWay (1:ℝ) 2 3 ∧ OnTheWay (1:ℝ) 5 5 ∧ (0:ℝ) < 1 / 5 ∧ (1:ℝ) / 5 ≤ 2 := by
  rw [onTheWay_iff, onTheWay_iff]; norm_num

/-- C157 for the weighted interval score.  Full property: both paths; proved for the numba path.  Missing: the array path,
where it is false (`C157_wis_false`). -/
theorem C157_wis_partial {y m m' w0 : ℝ} {K : ℕ} {l l' u u' a w : Fin K → ℝ} (hw0 : 0 ≤ w0) (hw : ∀ i, 0 ≤ w i)
    (ha : ∀ i, 0 < a i ∧ a i ≤ 2) (hm : OnTheWay y m' m) (hl : ∀ i, OnTheWay y (l' i) (l i))
    (hu : ∀ i, OnTheWay y (u' i) (u i)) :
    ∃ s s' : ℝ,
      Interval.wisGufunc (fin y) (fin m) ((List.ofFn l).map fin) ((List.ofFn u).map fin) ((List.ofFn a).map fin) (fin w0)
        ((List.ofFn w).map fin) = fin s ∧
      Interval.wisGufunc (fin y) (fin m') ((List.ofFn l').map fin) ((List.ofFn u').map fin) ((List.ofFn a).map fin) (fin w0)
        ((List.ofFn w).map fin) = fin s' ∧ s' ≤ s := by
  have e : ∀ (m : ℝ) (l u : Fin K → ℝ), Interval.wisGufunc (fin y) (fin m) ((List.ofFn l).map fin) ((List.ofFn u).map fin)
      ((List.ofFn a).map fin) (fin w0) ((List.ofFn w).map fin)
      = fin (Spec.wis w0 m y (List.ofFn fun i => (l i, u i, a i, w i))) := fun m l u => by
    rw [← C28_wis_numba y m w0 (List.ofFn fun i => (l i, u i, a i, w i)) fun p hp => by
      obtain ⟨i, rfl⟩ := (List.mem_ofFn).1 hp
      exact (ha i).1.ne']
    unfold ivL ivU ivA ivW
    simp only [List.map_ofFn, Function.comp_def]
  refine ⟨_, _, e m l u, e m' l' u', ?_⟩
  unfold Spec.wis
  simp only [List.length_ofFn, List.map_ofFn, Function.comp_def, List.sum_ofFn]
  refine div_le_div_of_nonneg_right (add_le_add ?_ (Finset.sum_le_sum fun i _ => ?_)) (by positivity)
  · refine mul_le_mul_of_nonneg_left ?_ hw0
    unfold OnTheWay at hm
    rw [abs_sub_comm, ← Real.dist_eq, abs_sub_comm, ← Real.dist_eq]
    linarith [dist_nonneg (x := m) (y := m')]
  · refine mul_le_mul_of_nonneg_left ?_ (hw i)
    have := C157_interval (ha i).1 (ha i).2 (hl i) (hu i)
    rwa [Interval.score1_fin y _ _ (ha i).1.ne', Interval.score1_fin y _ _ (ha i).1.ne', fin_le] at this

/-- median and both ends of one interval move -/
example : OnTheWay (1:ℝ) 2 3 ∧ OnTheWay (1:ℝ) 0 (-1) ∧ OnTheWay (1:ℝ) 4 5 := by
  rw [onTheWay_iff, onTheWay_iff, onTheWay_iff]; norm_num

/-- On the array path a median below the observation makes the weighted interval score worse by moving towards it: the code
adds `w0 * median` instead of `w0 * |obs - median|`. -/
theorem C157_wis_false {y m m' w0 : ℝ} (l : List (ℝ × ℝ × ℝ × ℝ)) (h : ∀ p ∈ l, p.2.2.1 ≠ 0) (hw0 : 0 < w0) (h1 : m < m')
    (h2 : m' ≤ y) :
    OnTheWay y m' m ∧
    Interval.wisArray (fin y) (fin m) (ivL l) (ivU l) (ivA l) (fin w0) (ivW l)
      < Interval.wisArray (fin y) (fin m') (ivL l) (ivU l) (ivA l) (fin w0) (ivW l) := by
  refine ⟨onTheWay_iff.2 (Or.inl ⟨h1.le, h2⟩), ?_⟩
  rw [C28_wis_array_partial y m w0 l h, C28_wis_array_partial y m' w0 l h, fin_lt]
  have e : ∀ m, Spec.wis w0 m y l + w0 * (m - |y - m|) / (l.length + 1 / 2)
      = (w0 * m + (l.map fun p => p.2.2.2 * Spec.intervalScore p.2.2.1 p.1 p.2.1 y).sum) / (l.length + 1 / 2) := fun m => by
    rw [Spec.wis]; ring
  rw [e, e]
  refine div_lt_div_of_pos_right ?_ (by positivity)
  have := mul_lt_mul_of_pos_left h1 hw0
  linarith

/-- observation 0, median forecasts -1 and 0 -/
example : (∀ p ∈ [((-2:ℝ), (1:ℝ), (1:ℝ) / 2, (1:ℝ) / 4)], p.2.2.1 ≠ 0) ∧ (0:ℝ) < 1 / 2 ∧ (-1:ℝ) < 0 := by norm_num

end Verif
