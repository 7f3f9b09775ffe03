import Verif.Props.LogsEns
import Verif.Props.Ess
import Verif.Props.DssMv
import Verif.Props.Quantile
import Verif.Props.ScoreNan
import Verif.Model.Brier

/-!
# Property C107: missing values in the remaining scores
-/

noncomputable section

open scoped Classical

namespace Verif

open XF Py Api Spec Mv

/-! ### probability forecasts of a binary event -/

/-- C107: a missing outcome is refused by the Brier and the logarithmic score. -/
theorem C107_binary_obs {obs fct : Arr XF} {i : List ℕ} (hi : Arr.Valid obs.shape i)
    (h : obs.get i = nan) :
    Brier.brierScore obs fct = .error .valueError ∧ Brier.logScore obs fct = .error .valueError := by
  have hc : Brier.binaryCheck obs fct = .error .valueError := by
    unfold Brier.binaryCheck
    split_ifs with h1 h2
    · rfl
    · rfl
    · exact absurd ⟨i, hi, by rw [h]; simp [zero_def, one_def]⟩ h2
  unfold Brier.brierScore Brier.logScore
  rw [hc]
  exact ⟨rfl, rfl⟩

example : Arr.Valid (Arr.ofList [fin 1, nan]).shape [1] ∧ (Arr.ofList [fin 1, nan]).get [1] = nan := by
  simp [Arr.Valid, Arr.ofList]

/-- C107: a missing probability gives a missing score in its place. -/
theorem C107_binary_fct {obs fct out : Arr XF} {i : List ℕ} (h : fct.bget i = nan) :
    (Brier.brierScore obs fct = .ok out → out.get i = nan) ∧
    (Brier.logScore obs fct = .ok out → out.get i = nan) := by
  constructor
  · intro ho
    unfold Brier.brierScore at ho
    cases hc : Brier.binaryCheck obs fct with
    | error e => rw [hc] at ho; cases ho
    | ok u =>
      rw [hc] at ho
      simp only [bind, Except.bind, Arr.map2] at ho
      split at ho
      · cases ho
      · cases ho; simp [h, Brier.brier1]
  · intro ho
    unfold Brier.logScore at ho
    cases hc : Brier.binaryCheck obs fct with
    | error e => rw [hc] at ho; cases ho
    | ok u =>
      rw [hc] at ho
      simp only [bind, Except.bind, Arr.map2] at ho
      split at ho
      · cases ho
      · cases ho; simp [h, Brier.log1]

/-- The call goes through: NaN passes the range check. -/
example : ∃ out, Brier.brierScore (Arr.scalar 1) (Arr.scalar nan) = .ok out := by
  have hc : Brier.binaryCheck (Arr.scalar 1) (Arr.scalar nan) = .ok () := by
    unfold Brier.binaryCheck
    rw [if_neg (by simp [Arr.Any, Arr.scalar]), if_neg (by simp [Arr.Any, Arr.scalar])]
  unfold Brier.brierScore
  rw [hc]
  exact ⟨_, rfl⟩

/-! ### ranked scores -/

theorem cumsum_nan {xs : List XF} (h : nan ∈ xs) : ∃ i < xs.length, idx (cumsum xs) i = nan := by
  have hpos : 0 < xs.length := List.length_pos_of_mem h
  refine ⟨xs.length - 1, by omega, ?_⟩
  have : (xs.take (xs.length - 1 + 1)).sum = nan := by
    rw [Nat.sub_add_cancel hpos, List.take_length]
    exact sum_eq_nan_of_mem h
  rw [← this]
  unfold idx cumsum
  simp [hpos]

/-- C107: a NaN among the probabilities or the one-hot entries of a case gives a missing ranked score. -/
theorem C107_ranked {obs fct : List XF} (hl : obs.length = fct.length) (h : nan ∈ obs ∨ nan ∈ fct) :
    Brier.rps1 obs fct = nan ∧ Brier.rls1 obs fct = nan := by
  have hc : ∀ xs : List XF, (cumsum xs).length = xs.length := fun xs => by simp [cumsum]
  rcases h with h | h
  · obtain ⟨i, hi, e⟩ := cumsum_nan h
    exact ⟨zip2_sum_nan (i := i) (by rw [hc]; omega) (by rw [hc]; omega) (by simp [e]),
      zip2_sum_nan (i := i) (by rw [hc]; omega) (by rw [hc]; omega) (by simp [e])⟩
  · obtain ⟨i, hi, e⟩ := cumsum_nan h
    exact ⟨zip2_sum_nan (i := i) (by rw [hc]; omega) (by rw [hc]; omega) (by simp [e]),
      zip2_sum_nan (i := i) (by rw [hc]; omega) (by rw [hc]; omega) (by simp [e])⟩

example : ([fin 0, fin 1] : List XF).length = [fin (1 / 2), nan].length ∧
    nan ∈ ([fin (1 / 2), nan] : List XF) := by simp

/-- C107 is false for a missing category: it is no category at all, its one-hot vector is zero, and the
score is a number, here 17/16 for the probabilities 1/4 and 3/4. -/
theorem C107_rps_category_false :
    item (Brier.rpsScore (Arr.scalar nan) (Arr.ofList [fin (1 / 4), fin (3 / 4)]) (-1) false)
      = .ok (fin (17 / 16)) := by
  have hv : ∀ i, Arr.Valid (Arr.ofList [fin (1 / 4), fin (3 / 4)]).shape i →
      (Arr.ofList [fin (1 / 4), fin (3 / 4)]).get i = fin (1 / 4) ∨
      (Arr.ofList [fin (1 / 4), fin (3 / 4)]).get i = fin (3 / 4) := by
    intro i hi
    cases hi with
    | cons h1 h2 =>
      cases h2
      rename_i a
      have : a < 2 := h1
      interval_cases a
      · exact .inl rfl
      · exact .inr rfl
  have hc : Brier.categoricalCheck (Arr.scalar nan) (Arr.ofList [fin (1 / 4), fin (3 / 4)]) (-1) false
      = .ok (Brier.onehotOf (Arr.scalar nan) 2, Arr.ofList [fin (1 / 4), fin (3 / 4)]) := by
    unfold Brier.categoricalCheck
    rw [if_neg]
    · simp [Brier.moveK, Arr.ofList, Arr.scalar, bind, Except.bind]
    · rintro (⟨i, hi, h⟩ | ⟨i, hi, h⟩)
      · rcases hv i hi with e | e <;> rw [e, zero_def, fin_lt] at h <;> norm_num at h
      · rcases hv i hi with e | e <;> rw [e, one_def, Brier.eps, fin_add, fin_lt] at h <;> norm_num at h
  have hr : (Brier.onehotOf (Arr.scalar nan) 2).row [] = [fin 0, fin 0] := by
    simp [Arr.row, Brier.onehotOf, Arr.scalar, XF.feq, List.range_succ, zero_def]
  have hf : (Arr.ofList [fin (1 / 4), fin (3 / 4)]).row [] = [fin (1 / 4), fin (3 / 4)] := by
    simp [Arr.row, Arr.ofList, List.range_succ]
  unfold Brier.rpsScore
  rw [hc]
  simp only [bind, Except.bind, item, Except.map]
  rw [hr, hf]
  simp [Brier.rps1, cumsum, zip2, List.range_succ, fin_pow]
  norm_num

/-! ### quantile and interval scores -/

/-- C107: a NaN in the observation, the quantile or the level gives a missing entry. -/
theorem C107_quantile {obs fct alpha out : Arr XF} {i : List ℕ}
    (ho : Quantile.score obs fct alpha = .ok out)
    (h : obs.bget i = nan ∨ fct.bget i = nan ∨ alpha.bget i = nan) : out.get i = nan := by
  unfold Quantile.score at ho
  split_ifs at ho
  split at ho
  · cases ho
  · cases ho
    rcases h with h | h | h <;> simp [Quantile.score1, h]

example : ∃ out, Quantile.score (Arr.scalar nan) (Arr.scalar 1) (Arr.scalar (fin (1 / 2))) = .ok out := by
  unfold Quantile.score
  rw [if_neg]
  · exact ⟨_, rfl⟩
  · rw [zero_def, one_def]
    simp [Arr.Any, Arr.scalar]
    norm_num

/-- C107: the interval score, before the axes of length one are dropped. -/
theorem C107_interval {obs lower upper alpha out : Arr XF} {i : List ℕ}
    (ho : Interval.core obs lower upper alpha = .ok out)
    (h : obs.bget i = nan ∨ lower.bget i = nan ∨ upper.bget i = nan ∨ alpha.bget i = nan) :
    out.get i = nan := by
  unfold Interval.core at ho
  split at ho
  · cases ho
  · cases ho
    rcases h with h | h | h | h <;> simp [Interval.score1, h]

example : ∃ out, Interval.core (Arr.scalar nan) (Arr.scalar 0) (Arr.scalar 1) (Arr.scalar (fin (1 / 2)))
    = .ok out := ⟨_, rfl⟩

/-- C107: the same for the public call on scalars. -/
theorem C107_interval_score {y l u a r : XF}
    (hr : item (Interval.score (Arr.scalar y) (Arr.scalar l) (Arr.scalar u) (Arr.scalar a)) = .ok r)
    (h : y = nan ∨ l = nan ∨ u = nan ∨ a = nan) : r = nan := by
  have e : item (Interval.score (Arr.scalar y) (Arr.scalar l) (Arr.scalar u) (Arr.scalar a))
      = .ok (Interval.score1 y l u a) := rfl
  rw [e] at hr
  cases hr
  rcases h with h | h | h | h <;> simp [Interval.score1, h]

example : ∃ r, item (Interval.score (Arr.scalar nan) (Arr.scalar 0) (Arr.scalar 1) (Arr.scalar 1)) = .ok r :=
  ⟨_, rfl⟩

theorem foldl_add_nan {α : Type} {f : α → XF} {l : List α} {a : α} (ha : a ∈ l) (h : f a = nan) (s : XF) :
    l.foldl (fun s p => s + f p) s = nan := by
  have : ∀ (l : List α) s, l.foldl (fun s p => s + f p) s = s + (l.map f).sum := by
    intro l
    induction l with
    | nil => intro s; simp
    | cons b l ih => intro s; rw [List.foldl_cons, ih, List.map_cons, List.sum_cons, add_assoc]
  rw [this, sum_map_nan ha h, add_nan]

/-- C107: the weighted interval score of the gufunc is missing if the observation, the median, the median
weight or an entry of an interval is. -/
theorem C107_wis_numba {y m wm : XF} {l : List (XF × XF × XF × XF)}
    (h : y = nan ∨ m = nan ∨ wm = nan ∨
      ∃ p ∈ l, p.1 = nan ∨ p.2.1 = nan ∨ p.2.2.1 = nan ∨ p.2.2.2 = nan) :
    Interval.wisGufunc y m (l.map fun p => p.1) (l.map fun p => p.2.1) (l.map fun p => p.2.2.1) wm
      (l.map fun p => p.2.2.2) = nan := by
  unfold Interval.wisGufunc
  dsimp only
  have hz : (l.map fun p => p.1).zip ((l.map fun p => p.2.1).zip ((l.map fun p => p.2.2.1).zip
      (l.map fun p => p.2.2.2))) = l := by
    clear h
    induction l with
    | nil => rfl
    | cons a l ih => simpa using ih
  rw [hz]
  rcases h with h | h | h | ⟨p, hp, h⟩
  · simp [h]
  · simp [h]
  · simp [h]
  · rw [foldl_add_nan (f := fun p : XF × XF × XF × XF => p.2.2.2 * ((p.2.1 - p.1)
      + ind (y < p.1) * (2 / p.2.2.1) * (p.1 - y) + ind (p.2.1 < y) * (2 / p.2.2.1) * (y - p.2.1))) hp
      (by rcases h with h | h | h | h <;> simp [h])]
    simp

example : ∃ p ∈ [((fin 0, nan, fin 1, fin 1) : XF × XF × XF × XF)], p.2.1 = nan :=
  ⟨_, List.mem_singleton.2 rfl, rfl⟩

/-- C107, weighted interval score of the array code: the same, if there is at least one interval. -/
theorem C107_wis_array_partial {y m wm : XF} {l : List (XF × XF × XF × XF)} (hl : l ≠ [])
    (h : y = nan ∨ m = nan ∨ wm = nan ∨
      ∃ p ∈ l, p.1 = nan ∨ p.2.1 = nan ∨ p.2.2.1 = nan ∨ p.2.2.2 = nan) :
    Interval.wisArray y m (l.map fun p => p.1) (l.map fun p => p.2.1) (l.map fun p => p.2.2.1) wm
      (l.map fun p => p.2.2.2) = nan := by
  unfold Interval.wisArray
  dsimp only
  have hz : zip2 (· * ·) (((l.map fun p => p.1).zip ((l.map fun p => p.2.1).zip
      (l.map fun p => p.2.2.1))).map fun p => Interval.score1 y p.1 p.2.1 p.2.2) (l.map fun p => p.2.2.2)
      = l.map fun p => Interval.score1 y p.1 p.2.1 p.2.2.1 * p.2.2.2 := by
    clear h hl
    unfold zip2
    induction l with
    | nil => rfl
    | cons a l ih => simpa using ih
  rw [hz]
  rcases h with h | h | h | ⟨p, hp, h⟩
  · obtain ⟨p, hp⟩ := List.exists_mem_of_ne_nil l hl
    rw [sum_map_nan hp (by simp [Interval.score1, h])]
    simp
  · simp [h]
  · simp [h]
  · rw [sum_map_nan hp (by rcases h with h | h | h | h <;> simp [Interval.score1, h])]
    simp

example : [((fin 0, fin 1, fin (1 / 2), fin 1) : XF × XF × XF × XF)] ≠ [] := by simp

/-- C107 is false for the array code without intervals: the observation does not occur (C28). -/
theorem C107_wis_array_false : Interval.wisArray nan (fin 3) [] [] [] half [] = fin 3 := by
  simp [Interval.wisArray, zip2, half]
  rw [natCast_fin, fin_add, fin_div (by norm_num)]
  norm_num

/-- C107: the CRPS of a set of quantiles. -/
theorem C107_crps_quantile {y : XF} {l : List (XF × XF)} (hl : l ≠ [])
    (h : y = nan ∨ ∃ p ∈ l, p.1 = nan ∨ p.2 = nan) :
    Gufunc.quantilePinball y (l.map fun p => p.1) (l.map fun p => p.2) = nan ∧
    Approx.quantilePinball y (l.map fun p => p.1) (l.map fun p => p.2) = nan := by
  obtain ⟨p, hp, h⟩ : ∃ p ∈ l, y = nan ∨ p.1 = nan ∨ p.2 = nan := by
    rcases h with h | ⟨p, hp, h⟩
    · obtain ⟨p, hp⟩ := List.exists_mem_of_ne_nil l hl
      exact ⟨p, hp, .inl h⟩
    · exact ⟨p, hp, .inr h⟩
  constructor
  · unfold Gufunc.quantilePinball
    dsimp only
    have hz : (l.map fun p => p.1).zip (l.map fun p => p.2) = l := by
      rw [List.zip_map', List.map_id'']
      intro p; rfl
    rw [hz, foldl_add_nan (f := fun p : XF × XF => ind (p.1 < y) * p.2 * (y - p.1)
      + ind (y ≤ p.1) * (1 - p.2) * (p.1 - y)) hp (by rcases h with h | h | h <;> simp [h])]
    simp
  · unfold Approx.quantilePinball
    dsimp only
    have hz : zip2 (· + ·) (zip2 (fun x a => ind (x ≤ y) * a * (y - x)) (l.map fun p => p.1)
        (l.map fun p => p.2)) (zip2 (fun x a => ind (y < x) * (1 - a) * (x - y)) (l.map fun p => p.1)
        (l.map fun p => p.2)) = l.map fun p => ind (p.1 ≤ y) * p.2 * (y - p.1)
          + ind (y < p.1) * (1 - p.2) * (p.1 - y) := by
      clear hp hl h
      unfold zip2
      induction l with
      | nil => rfl
      | cons a l ih => simpa using ih
    rw [hz, mean, sum_map_nan hp (by rcases h with h | h | h <;> simp [h])]
    simp

example : ∃ p ∈ [((fin 1, fin (1 / 2)) : XF × XF), (nan, fin (3 / 4))], p.1 = nan ∨ p.2 = nan :=
  ⟨(nan, fin (3 / 4)), by simp, .inl rfl⟩

/-! ### Dawid-Sebastiani and error-spread score -/

theorem mean_nan {xs : List XF} (h : nan ∈ xs) : mean xs = nan := by
  rw [mean, sum_eq_nan_of_mem h, nan_div]

/-- C107: the univariate Dawid-Sebastiani score. -/
theorem C107_dss {path : Path} {bias : Bool} {y : XF} {xs : List XF} (h : Spec.HasNan y xs none) :
    dss1 path bias y xs = .ok nan := by
  rw [dss1_eq]
  rcases h with h | h | ⟨w, h, _⟩
  · cases path <;> simp [Dss.gufunc, Dss.score, h]
  · cases path <;> simp [Dss.gufunc, Dss.score, mean_nan h]
  · simp at h

example : Spec.HasNan nan [fin 0, fin 2] none := .inl rfl

/-- C107: the error-spread score. -/
theorem C107_ess {path : Path} {y : XF} {xs : List XF} (hx : xs ≠ []) (h : Spec.HasNan y xs none) :
    ess1 path y xs = .ok nan := by
  rw [ess1_eq]
  have hp : 0 < xs.length := List.length_pos_iff.2 hx
  have key : nan ∈ xs ∨ y = nan := by
    rcases h with h | h | ⟨w, h, _⟩
    · exact .inr h
    · exact .inl h
    · simp at h
  cases path
  · have he : (forRange 0 xs.length (0 : XF) fun i e => e + (idx xs i - y)) = nan := by
      rcases key with h | h
      · obtain ⟨i, hi, e⟩ := exists_idx_nan h
        exact forRange_sum_nan (f := fun i => idx xs i - y) hi (by rw [e, nan_sub]) 0
      · exact forRange_sum_nan (f := fun i => idx xs i - y) hp (by rw [h, sub_nan]) 0
    simp only [Ess.gufunc, he]
    simp
  · rcases key with h | h
    · simp [Ess.score, mean_nan h]
    · simp [Ess.score, h]

example : Spec.HasNan (fin 1) [fin 0, nan, fin 2] none := .inr (.inl (by simp))

/-- C107: the multivariate Dawid-Sebastiani score, whenever the call returns. -/
theorem C107_dssmv {path : Path} {bias : Bool} {D : ℕ} {y : List XF} {xs : List (List XF)} {r : XF}
    (hy : y.length = D) (hx : ∀ x ∈ xs, x.length = D) (h : Spec.HasNanMv y xs none)
    (hr : dssmv1 path bias D y xs = .ok r) : r = nan := by
  have hm : ∃ c < D, idx y c - mean (DssMv.col xs c) = nan := by
    rcases hasNanMv_none h with h | ⟨x, hxs, h⟩
    · obtain ⟨c, hc, e⟩ := exists_idx_nan h
      exact ⟨c, hy ▸ hc, by rw [e, nan_sub]⟩
    · obtain ⟨c, hc, e⟩ := exists_idx_nan h
      refine ⟨c, (hx x hxs) ▸ hc, ?_⟩
      rw [mean_nan (xs := DssMv.col xs c) (List.mem_map.2 ⟨x, hxs, e⟩), sub_nan]
  obtain ⟨c, hc, e⟩ := hm
  have hq : ∀ P : Matrix (Fin D) (Fin D) XF,
      DssMv.quad (vsub y ((List.range D).map fun j => mean (DssMv.col xs j))) P = nan := by
    intro P
    have hi : idx (vsub y ((List.range D).map fun j => mean (DssMv.col xs j))) c = nan := by
      rw [← e]
      unfold vsub zip2 idx
      simp [hy, hc]
    exact sum_map_nan (a := (⟨c, hc⟩ : Fin D)) (List.mem_finRange _) (by simp [hi])
  subst hy
  rw [dssmv1_eq path bias rfl hx] at hr
  have hk : ∀ v, dssKernel path bias y xs = .ok v → v = nan := by
    intro v hv
    cases path
    · simp only [dssKernel, DssMv.gufunc, bind, Except.bind] at hv
      split at hv
      · cases hv
      · rename_i P _
        have := hq P
        unfold mean at this
        simp only [DssMv.col, List.length_map] at this hv
        rw [this] at hv
        cases hv
        simp
    · simp only [dssKernel, DssMv.scoreMat, bind, Except.bind] at hv
      split at hv
      · cases hv
      · split at hv
        · cases hv
        · rename_i P _
          rw [hq P] at hv
          cases hv
          simp
  cases hv : dssKernel path bias y xs with
  | error e => rw [hv] at hr; cases hr
  | ok v => rw [hv] at hr; cases hr; exact hk _ hv

/-- The call returns for an ensemble with a NaN on the numba path: the covariance matrix is NaN. -/
example : ∃ r, dssmv1 .numba false 1 [fin 0] [[nan], [fin 1]] = .ok r := by
  rw [dssmv1_eq (D := 1) .numba false (y := [fin 0]) rfl (by simp)]
  have hinv : DssMv.inv (DssMv.cov false 1 [[nan], [fin 1]]) = .ok fun _ _ => nan := by
    unfold DssMv.inv
    rw [dif_neg]
    rintro ⟨A, hA⟩
    have := congrFun (congrFun hA 0) 0
    simp [DssMv.cov, DssMv.col, idx, mean, zip2] at this
  simp only [dssKernel, DssMv.gufunc, bind, Except.bind]
  erw [hinv]
  exact ⟨_, rfl⟩

/-! ### ensemble logarithmic scores -/

theorem row_length (a : Arr XF) (i : List ℕ) : (a.row i).length = a.shape.getLastD 0 := by
  simp [Arr.row]

theorem mixnorm_nan {y : XF} {m s w : List XF} {j : ℕ} (hm : j < m.length) (hs : j < s.length)
    (hw : j < w.length) (h : y = nan ∨ idx m j = nan ∨ idx s j = nan) : Logs.mixnorm y m s w = nan := by
  unfold Logs.mixnorm
  dsimp only
  have : (zip2 (· * ·) w (zip2 (fun zi si => Stats.normPdf zi / si)
      (zip2 (fun mi si => (y - mi) / si) m s) s)).sum = nan := by
    apply sum_eq_nan_of_mem
    rw [List.mem_iff_getElem]
    refine ⟨j, by simp [zip2, hm, hs, hw], ?_⟩
    unfold idx at h
    simp only [zip2, List.getElem_zipWith]
    simp only [List.getD_eq_getElem?_getD, List.getElem?_eq_getElem hm, List.getElem?_eq_getElem hs,
      Option.getD_some] at h
    rcases h with h | h | h <;> simp [h, Stats.normPdf]
  rw [this]
  rfl

/-- C107: the logarithmic score of an ensemble is missing if the observation, a member or the bandwidth of
the case is. -/
theorem C107_logs_ensemble {obs fct : Arr XF} {m : ℤ} {k : ℕ} (hm : AxisIs m fct.ndim k)
    (hs : obs.shape = fct.shape.eraseIdx k) (hM : fct.shape.getD k 0 ≠ 0) {bw : Option (Arr XF)}
    (hw : WShape bw obs.shape) {i : List ℕ} (hi : Arr.Valid obs.shape i)
    (h : obs.get i = nan ∨ nan ∈ fct.sliceAt k i ∨ ∃ b, bw = some b ∧ b.get i = nan) :
    ∃ out, logsEnsemble obs fct m bw = .ok out ∧ out.get i = nan := by
  unfold logsEnsemble
  rw [arrayCheck_axis hm hs]
  simp only [bind, Except.bind]
  have hsh : (fct.moveLast k).shape = obs.shape ++ [fct.shape.getD k 0] := by
    rw [Arr.moveLast_shape, hs]
  rw [LogsEns.bandwidth_ok hsh hM bw hw]
  simp only
  obtain ⟨out, ho, hos, hov⟩ := LogsEns.mixnormArr_ok (obs := obs) (m := fct.moveLast k)
    (s := ⟨obs.shape ++ [fct.shape.getD k 0], fun i =>
      LogsEns.bwOf bw ((fct.moveLast k).row i.dropLast) i.dropLast⟩)
    (w := ⟨(fct.moveLast k).shape, fun _ => 1 / (((fct.moveLast k).shape.getLastD 0 : ℕ) : XF)⟩) hsh rfl hsh
  refine ⟨out, ho, ?_⟩
  rw [hov i hi]
  have hl : (fct.moveLast k).shape.getLastD 0 = fct.shape.getD k 0 := by rw [hsh, List.getLastD_concat]
  have l1 : ((fct.moveLast k).row i).length = fct.shape.getD k 0 := by rw [row_length, hl]
  rcases h with h | h | ⟨b, rfl, h⟩
  · exact mixnorm_nan (j := 0) (by rw [l1]; omega) (by rw [row_length, List.getLastD_concat]; omega)
      (by rw [row_length]; show 0 < (fct.moveLast k).shape.getLastD 0; rw [hl]; omega) (.inl h)
  · rw [← Arr.row_moveLast] at h
    obtain ⟨j, hj, e⟩ := exists_idx_nan h
    have hj' : j < fct.shape.getD k 0 := l1 ▸ hj
    exact mixnorm_nan (j := j) hj (by rw [row_length, List.getLastD_concat]; exact hj')
      (by rw [row_length]; show j < (fct.moveLast k).shape.getLastD 0; rw [hl]; exact hj') (.inr (.inl e))
  · refine mixnorm_nan (j := 0) (by rw [l1]; omega) (by rw [row_length, List.getLastD_concat]; omega)
      (by rw [row_length]; show 0 < (fct.moveLast k).shape.getLastD 0; rw [hl]; omega) (.inr (.inr ?_))
    have hmem : ∀ x ∈ Arr.row (⟨obs.shape ++ [fct.shape.getD k 0], fun i =>
        LogsEns.bwOf (some b) ((fct.moveLast k).row i.dropLast) i.dropLast⟩ : Arr XF) i, x = nan := by
      intro x hx
      obtain ⟨j, -, rfl⟩ := List.mem_map.1 hx
      simp [LogsEns.bwOf, h]
    exact hmem _ (idx_mem (by rw [row_length, List.getLastD_concat]; omega))

/-- The hypotheses are met: two cases of three members along the first axis, the observation of the second
missing, bandwidths 1 and 2. -/
example : ∃ (obs : Arr XF) (fct : Arr ℝ) (bw : Arr XF),
    AxisIs 0 fct.ndim 0 ∧ obs.shape = fct.shape.eraseIdx 0 ∧ fct.shape.getD 0 0 ≠ 0 ∧
    WShape (some bw) obs.shape ∧ Arr.Valid obs.shape [1] ∧ obs.get [1] = nan ∧
    BwAt (some bw) (fct.sliceAt 0 [1]) [1] 2 :=
  ⟨Arr.ofList [fin 0, nan], ⟨[3, 2], fun i => i.headD 0⟩, Arr.ofList [fin 1, fin 2],
    by simp [AxisIs, Arr.ndim], rfl, by simp, by simp [WShape, Arr.ofList],
    by simp [Arr.Valid, Arr.ofList], rfl, rfl⟩

/-- C107 is false for `clogs_ensemble` without censoring: an observation that is missing scores zero, the
best value of an observation outside the interval, whatever the members and thresholds. -/
theorem C107_clogs_false {obs fct : Arr XF} {m : ℤ} {k : ℕ} (hm : AxisIs m fct.ndim k)
    (hs : obs.shape = fct.shape.eraseIdx k) (hM : fct.shape.getD k 0 ≠ 0) {bw : Option (Arr XF)}
    (hw : WShape bw obs.shape) (a b : XF) {i : List ℕ} (hi : Arr.Valid obs.shape i)
    (h : obs.get i = nan) :
    ∃ out, clogsEnsemble obs fct (Arr.scalar a) (Arr.scalar b) m bw false = .ok out ∧ out.get i = 0 := by
  unfold clogsEnsemble
  rw [arrayCheck_axis hm hs]
  simp only [bind, Except.bind]
  have hsh : (fct.moveLast k).shape = obs.shape ++ [fct.shape.getD k 0] := by
    rw [Arr.moveLast_shape, hs]
  rw [LogsEns.bandwidth_ok hsh hM bw hw]
  simp only
  obtain ⟨out, ho, -, hov⟩ := LogsEns.clogs_ok (obs := obs) (fct := fct.moveLast k)
    (bw := ⟨obs.shape ++ [fct.shape.getD k 0], fun i =>
      LogsEns.bwOf bw ((fct.moveLast k).row i.dropLast) i.dropLast⟩) a b false hsh rfl
  refine ⟨out, ho, ?_⟩
  rw [hov i hi, h]
  simp [LogsEns.clogs1]

/-- The hypotheses are met: two cases of three members along the first axis, the observation of the second
missing, bandwidths 1 and 2. -/
example : ∃ (obs : Arr XF) (fct : Arr ℝ) (bw : Arr XF),
    AxisIs 0 fct.ndim 0 ∧ obs.shape = fct.shape.eraseIdx 0 ∧ fct.shape.getD 0 0 ≠ 0 ∧
    WShape (some bw) obs.shape ∧ Arr.Valid obs.shape [1] ∧ obs.get [1] = nan ∧
    BwAt (some bw) (fct.sliceAt 0 [1]) [1] 2 :=
  ⟨Arr.ofList [fin 0, nan], ⟨[3, 2], fun i => i.headD 0⟩, Arr.ofList [fin 1, fin 2],
    by simp [AxisIs, Arr.ndim], rfl, by simp, by simp [WShape, Arr.ofList],
    by simp [Arr.Valid, Arr.ofList], rfl, rfl⟩

/-- C107 is false for `clogs_ensemble` with censoring: a missing observation gets the finite score of an
observation outside the interval. -/
theorem C107_clogs_cens_false {obs : Arr XF} {fct : Arr ℝ} {m : ℤ} {k : ℕ} (hm : AxisIs m fct.ndim k)
    (hs : obs.shape = fct.shape.eraseIdx k) (hM : fct.shape.getD k 0 ≠ 0) {bw : Option (Arr XF)}
    (hw : WShape bw obs.shape) (a b : ℝ) {i : List ℕ} (hi : Arr.Valid obs.shape i)
    (h : obs.get i = nan) {t : ℝ} (hb : BwAt bw (fct.sliceAt k i) i t) (ht : 0 < t) :
    ∃ out, clogsEnsemble obs (fct.map fin) (Arr.scalar (fin a)) (Arr.scalar (fin b)) m bw true = .ok out ∧
      out.get i = fin (-Real.log (1 - (kdeCdf (fct.sliceAt k i) t b - kdeCdf (fct.sliceAt k i) t a))) := by
  unfold clogsEnsemble
  rw [arrayCheck_axis (fct := fct.map fin) hm hs]
  simp only [bind, Except.bind]
  have hsh : ((fct.map fin).moveLast k).shape = obs.shape ++ [fct.shape.getD k 0] := by
    rw [Arr.moveLast_shape, hs]; rfl
  rw [LogsEns.bandwidth_ok hsh hM bw hw]
  simp only
  obtain ⟨out, ho, -, hov⟩ := LogsEns.clogs_ok (obs := obs) (fct := (fct.map fin).moveLast k)
    (bw := ⟨obs.shape ++ [fct.shape.getD k 0], fun i =>
      LogsEns.bwOf bw (((fct.map fin).moveLast k).row i.dropLast) i.dropLast⟩) (fin a) (fin b) true hsh rfl
  refine ⟨out, ho, ?_⟩
  rw [hov i hi, h]
  have hlen : (fct.sliceAt k i).length = fct.shape.getD k 0 := by simp [Arr.sliceAt]
  have hne : fct.sliceAt k i ≠ [] := by
    rw [← List.length_pos_iff, hlen]; omega
  have hbm := bw_model hb ht
  rw [← sliceAt_map, ← Arr.row_moveLast] at hbm
  simp only [List.dropLast_concat]
  rw [hbm]
  have e1 : ((List.range (fct.shape.getD k 0)).map fun j =>
      (((fct.map fin).moveLast k).get (i ++ [j]), fin t))
      = (fct.sliceAt k i).map fun x => (fin x, fin t) := by
    simp [Arr.sliceAt, Arr.moveLast, Arr.map]
  rw [e1]
  unfold LogsEns.clogs1
  simp only
  rw [mean_cdf hne ht (by simp), mean_cdf hne ht (by simp), if_neg (by simp), if_pos trivial, fin_sub, one_def,
    fin_sub, fin_log, fin_neg]
  · rfl
  · have p := kdeCdf_pos hne t a
    have q := kdeCdf_lt_one hne t b
    simp only [cdfAt]
    linarith

/-- The hypotheses are met: two cases of three members along the first axis, the observation of the second
missing, bandwidths 1 and 2. -/
example : ∃ (obs : Arr XF) (fct : Arr ℝ) (bw : Arr XF),
    AxisIs 0 fct.ndim 0 ∧ obs.shape = fct.shape.eraseIdx 0 ∧ fct.shape.getD 0 0 ≠ 0 ∧
    WShape (some bw) obs.shape ∧ Arr.Valid obs.shape [1] ∧ obs.get [1] = nan ∧
    BwAt (some bw) (fct.sliceAt 0 [1]) [1] 2 :=
  ⟨Arr.ofList [fin 0, nan], ⟨[3, 2], fun i => i.headD 0⟩, Arr.ofList [fin 1, fin 2],
    by simp [AxisIs, Arr.ndim], rfl, by simp, by simp [WShape, Arr.ofList],
    by simp [Arr.Valid, Arr.ofList], rfl, rfl⟩

/-- C107 for the members in `clogs_ensemble`: a NaN member gives a missing score under censoring, and
otherwise for an observation between the thresholds.  Missing: outside them the uncensored score is zero. -/
theorem C107_clogs_member_partial {obs fct : Arr XF} {m : ℤ} {k : ℕ} (hm : AxisIs m fct.ndim k)
    (hs : obs.shape = fct.shape.eraseIdx k) (hM : fct.shape.getD k 0 ≠ 0) {bw : Option (Arr XF)}
    (hw : WShape bw obs.shape) (a b : XF) {cens : Bool} {i : List ℕ} (hi : Arr.Valid obs.shape i)
    (h : nan ∈ fct.sliceAt k i) (hc : cens = true ∨ a < obs.get i ∧ obs.get i < b) :
    ∃ out, clogsEnsemble obs fct (Arr.scalar a) (Arr.scalar b) m bw cens = .ok out ∧ out.get i = nan := by
  unfold clogsEnsemble
  rw [arrayCheck_axis hm hs]
  simp only [bind, Except.bind]
  have hsh : (fct.moveLast k).shape = obs.shape ++ [fct.shape.getD k 0] := by
    rw [Arr.moveLast_shape, hs]
  rw [LogsEns.bandwidth_ok hsh hM bw hw]
  simp only
  obtain ⟨out, ho, -, hov⟩ := LogsEns.clogs_ok (obs := obs) (fct := fct.moveLast k)
    (bw := ⟨obs.shape ++ [fct.shape.getD k 0], fun i =>
      LogsEns.bwOf bw ((fct.moveLast k).row i.dropLast) i.dropLast⟩) a b cens hsh rfl
  refine ⟨out, ho, ?_⟩
  rw [hov i hi]
  rw [← Arr.row_moveLast] at h
  unfold Arr.row at h
  rw [hsh, List.getLastD_concat, List.mem_map] at h
  obtain ⟨j, hj, e⟩ := h
  have key : ∀ (B : XF) (f : XF → XF → XF), (∀ t, f nan t = nan) →
      mean (((List.range (fct.shape.getD k 0)).map fun j => ((fct.moveLast k).get (i ++ [j]), B)).map
        fun p => f p.1 p.2) = nan := by
    intro B f hf
    rw [List.map_map, mean, sum_map_nan hj (by simp [e, hf]), nan_div]
  simp only [List.dropLast_concat, LogsEns.clogs1]
  rw [key _ (fun x t => Stats.normPdf ((obs.get i - x) / t) / t) (by simp [Stats.normPdf]),
    key _ (fun x t => Stats.normCdf ((b - x) / t)) (by simp [Stats.normCdf, XF.erf]),
    key _ (fun x t => Stats.normCdf ((a - x) / t)) (by simp [Stats.normCdf, XF.erf])]
  rcases hc with rfl | hc
  · simp
  · simp [hc]

/-- The hypotheses are met by one case with members 0 and NaN, between the thresholds. -/
example : AxisIs (-1) (Arr.ofList [fin 0, nan]).ndim 0 ∧
    (Arr.scalar (fin 0)).shape = (Arr.ofList [fin 0, nan]).shape.eraseIdx 0 ∧
    Arr.Valid (Arr.scalar (fin 0)).shape [] ∧ nan ∈ (Arr.ofList [fin 0, nan]).sliceAt 0 [] ∧
    (fin (-1) < (Arr.scalar (fin 0)).get [] ∧ (Arr.scalar (fin 0)).get [] < fin 1) := by
  refine ⟨ofList_axis _, rfl, List.Forall₂.nil, ?_, ?_⟩
  · rw [ofList_sliceAt]; simp
  · simp [Arr.scalar]

end Verif
