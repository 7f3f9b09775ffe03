import Verif.Lemmas.Stable
import Verif.Props.Quantile

/-!
# Property C118: a small change of the data changes a score by little
-/

noncomputable section

open scoped Classical

namespace Verif

open XF Py Api Spec Mv

variable {D M : ℕ}

/-! ### The continuous ranked probability score -/

/-- value of every estimator on an ensemble indexed by `Fin M` -/
theorem crps1_ofFn_value (path : Path) (est : String) (he : est ∈ Spec.estimators) (hM : M ≠ 0)
    (h2 : est = "fair" ∨ est = "pwm" → 2 ≤ M) :
    ∃ s : ℝ → (Fin M → ℝ) → ℝ,
      (∀ y x, crps1 path est false "propagate" (fin y) ((List.ofFn x).map fin) none = .ok (fin (s y x))) ∧
      ∀ y y' x x', |s y x - s y' x'| ≤ |y - y'| + 2 * ((∑ i, |x i - x' i|) / M) := by
  have hx : ∀ x : Fin M → ℝ, List.ofFn x ≠ [] := fun x => by simpa using hM
  have hx' : ∀ x : Fin M → ℝ, (List.ofFn x).map fin ≠ [] := fun x => by simpa using hM
  have hs : ∀ x : Fin M → ℝ, SortOK false (List.ofFn x) := fun x h => by simp at h
  have k1 := fun (y y' : ℝ) (x x' : Fin M → ℝ) => ksEq_lip lipK_negDist hM y y' x x'
  simp only [one_mul, Real.dist_eq] at k1
  simp only [Spec.estimators, List.mem_cons, List.not_mem_nil, or_false] at he
  rcases he with rfl | rfl | rfl | rfl | rfl | rfl | rfl
  · exact ⟨_, fun y x => by rw [crps1_nrg path false y (hx x), energy_ks, uw_eqW], k1⟩
  · have h3 := h2 (Or.inl rfl)
    have k2 := fun (y y' : ℝ) (x x' : Fin M → ℝ) => ksFair_lip lipK_negDist h3 y y' x x'
    simp only [one_mul, Real.dist_eq] at k2
    exact ⟨_, fun y x => by rw [crps1_fair path false y (by simpa using h3), fairCrps_ks], k2⟩
  · have h3 := h2 (Or.inr rfl)
    have k2 := fun (y y' : ℝ) (x x' : Fin M → ℝ) => ksFair_lip lipK_negDist h3 y y' x x'
    simp only [one_mul, Real.dist_eq] at k2
    exact ⟨_, fun y x => by rw [crps1_pwm path y (by simpa using h3) (hs x), fairCrps_ks], k2⟩
  · exact ⟨_, fun y x => by rw [crps1_qd path y (hx x) (hs x), energy_ks, uw_eqW], k1⟩
  · exact ⟨_, fun y x => by rw [crps1_int path y (hx x) (hs x), energy_ks, uw_eqW], k1⟩
  · have k3 := fun (y y' : ℝ) (x x' : Fin M → ℝ) => ksCirc_lip lipK_negDist hM prevF_inj y y' x x'
    simp only [one_mul, Real.dist_eq] at k3
    exact ⟨_, fun y x => by
      rw [crps1_akr path false _ _ (hx' x), Gufunc.akr_fin y _ (hx x),
        crps_circ prevF (h := prevI (List.ofFn x).length) (fun i => by simp [prevF])], k3⟩
  · have k3 := fun (y y' : ℝ) (x x' : Fin M → ℝ) => ksCirc_lip lipK_negDist hM sigmaF_inj y y' x x'
    simp only [one_mul, Real.dist_eq] at k3
    exact ⟨_, fun y x => by
      rw [crps1_akrCircperm path false _ _ (hx' x), Gufunc.akrCircperm_fin y _ (hx x),
        crps_circ sigmaF (h := Gufunc.sigma (List.ofFn x).length) (fun i => by simp [sigmaF])], k3⟩

/-- C118: if the observation moves and every member moves, the ensemble CRPS changes by at most the distance the
observation moves plus twice the mean distance the members move, for every estimator and on both paths. -/
theorem C118_crps (path : Path) (est : String) (he : est ∈ Spec.estimators) (hM : M ≠ 0)
    (h2 : est = "fair" ∨ est = "pwm" → 2 ≤ M) (y y' : ℝ) (x x' : Fin M → ℝ) :
    ∃ s s' : ℝ, crps1 path est false "propagate" (fin y) ((List.ofFn x).map fin) none = .ok (fin s) ∧
      crps1 path est false "propagate" (fin y') ((List.ofFn x').map fin) none = .ok (fin s') ∧
      |s - s'| ≤ |y - y'| + 2 * ((∑ i, |x i - x' i|) / M) := by
  obtain ⟨s, h1, h3⟩ := crps1_ofFn_value path est he hM h2
  exact ⟨_, _, h1 y x, h1 y' x', h3 y y' x x'⟩

/-- three members and the estimator `pwm` -/
example : "pwm" ∈ Spec.estimators ∧ 3 ≠ 0 ∧ 2 ≤ 3 := by simp [Spec.estimators]

/-- C118: the same for the estimators `nrg`, `qd` and `int` with weights that are not negative and not all zero; the
distances the members move are averaged with the weights. -/
theorem C118_crps_weighted (path : Path) (est : String) (he : est ∈ ["nrg", "qd", "int"]) (w : Fin M → ℝ)
    (hw : ∀ i, 0 ≤ w i) (ht : 0 < ∑ i, w i) (y y' : ℝ) (x x' : Fin M → ℝ) :
    ∃ s s' : ℝ, crps1 path est false "propagate" (fin y) ((List.ofFn x).map fin) (some ((List.ofFn w).map fin))
        = .ok (fin s) ∧
      crps1 path est false "propagate" (fin y') ((List.ofFn x').map fin) (some ((List.ofFn w).map fin))
        = .ok (fin s') ∧
      |s - s'| ≤ |y - y'| + 2 * ((∑ i, w i * |x i - x' i|) / ∑ i, w i) := by
  have tot : ∀ x : Fin M → ℝ, wtot (List.ofFn fun i => (x i, w i)) = ∑ i, w i := fun x => by
    unfold wtot
    rw [sum_ofFn_map]
  have val : ∀ (y : ℝ) (x : Fin M → ℝ),
      crps1 path est false "propagate" (fin y) ((List.ofFn x).map fin) (some ((List.ofFn w).map fin))
        = .ok (fin (ks negDist y (List.ofFn fun i => (x i, w i / ∑ i, w i)))) := by
    intro y x
    have e1 : (List.ofFn x).map fin = Xs (List.ofFn fun i => (x i, w i)) := by
      simp only [Xs, List.map_ofFn]; rfl
    have e2 : (List.ofFn w).map fin = Ws (List.ofFn fun i => (x i, w i)) := by
      simp only [Ws, List.map_ofFn]; rfl
    have e3 : norml (List.ofFn fun i => (x i, w i)) = List.ofFn fun i => (x i, w i / ∑ i, w i) := by
      unfold norml
      rw [tot, List.map_ofFn]; rfl
    have hw' : ∀ p ∈ List.ofFn fun i => (x i, w i), 0 ≤ p.2 := by
      intro p hp
      obtain ⟨i, rfl⟩ := List.mem_ofFn.1 hp
      exact hw i
    have ht' : wtot (List.ofFn fun i => (x i, w i)) ≠ 0 := by rw [tot]; exact ht.ne'
    have hs : SortOKW false (List.ofFn fun i => (x i, w i)) := by simp [SortOKW]
    rw [e1, e2, ← e3, ← energy_ks]
    simp only [List.mem_cons, List.not_mem_nil, or_false] at he
    rcases he with rfl | rfl | rfl
    · exact crps1W_nrg path false y hw' ht'
    · exact crps1W_qd path y hw' ht' hs
    · exact crps1W_int path y hw' ht' hs
  refine ⟨_, _, val y x, val y' x', ?_⟩
  have k := ks_lip (lipK_negDist (E := ℝ)) (w := fun i => w i / ∑ i, w i) (fun i => div_nonneg (hw i) ht.le)
    (by rw [← Finset.sum_div, div_self ht.ne']) y y' x x'
  simp only [one_mul, Real.dist_eq] at k
  refine k.trans (le_of_eq ?_)
  rw [Finset.sum_div]
  congr 2
  exact Finset.sum_congr rfl fun i _ => by ring

/-- a weight of zero is allowed -/
example : "qd" ∈ ["nrg", "qd", "int"] ∧ (∀ i, 0 ≤ (![1, 0, 3] : Fin 3 → ℝ) i) ∧ 0 < ∑ i, (![1, 0, 3] : Fin 3 → ℝ) i := by
  refine ⟨by simp, fun i => ?_, ?_⟩
  · fin_cases i <;> simp
  · simp [Fin.sum_univ_succ]; norm_num

/-- C118: the constants cannot be made smaller.  With members 0 and 1, moving the observation away from both changes
the score by exactly the distance moved; with the fair estimator, moving the smaller member away from an observation
below both changes the score by exactly twice the mean distance moved. -/
theorem C118_crps_sharp (path : Path) :
    (∃ s s' : ℝ, crps1 path "fair" false "propagate" (fin 2) [fin 0, fin 1] none = .ok (fin s) ∧
      crps1 path "fair" false "propagate" (fin 5) [fin 0, fin 1] none = .ok (fin s') ∧ |s - s'| = |(2:ℝ) - 5|) ∧
    ∃ s s' : ℝ, crps1 path "fair" false "propagate" (fin (-1)) [fin 0, fin 1] none = .ok (fin s) ∧
      crps1 path "fair" false "propagate" (fin (-1)) [fin (1 / 2), fin 1] none = .ok (fin s') ∧
      |s - s'| = 2 * ((|(0:ℝ) - 1 / 2| + |(1:ℝ) - 1|) / 2) := by
  have v : ∀ y a b : ℝ, crps1 path "fair" false "propagate" (fin y) [fin a, fin b] none
      = .ok (fin (fairCrps y [a, b])) := fun y a b => crps1_fair path false y (xs := [a, b]) (by simp)
  refine ⟨⟨_, _, v _ _ _, v _ _ _, ?_⟩, ⟨_, _, v _ _ _, v _ _ _, ?_⟩⟩
  · simp only [fairCrps, meanAbs, sumAbsDiff, List.map_cons, List.map_nil, List.sum_cons, List.sum_nil,
      List.length_cons, List.length_nil]
    norm_num [abs_of_pos, abs_of_neg]
  · simp only [fairCrps, meanAbs, sumAbsDiff, List.map_cons, List.map_nil, List.sum_cons, List.sum_nil,
      List.length_cons, List.length_nil]
    norm_num [abs_of_pos, abs_of_neg]

/-- the two changes are 3 and 1/2 -/
example : |(2:ℝ) - 5| = 3 ∧ 2 * ((|(0:ℝ) - 1 / 2| + |(1:ℝ) - 1|) / 2) = 1 / 2 := by
  norm_num [abs_of_pos, abs_of_neg]

/-! ### The energy score -/

/-- C118: the same for the energy score, distances being Euclidean. -/
theorem C118_es (path : Path) (est : String) (he : est ∈ Spec.esEstimators) (hM : M ≠ 0) (h2 : est = "fair" → 2 ≤ M)
    (y y' : Eu D) (x x' : Fin M → Eu D) :
    ∃ s s' : ℝ, es1 path est D (vec y) ((List.ofFn x).map vec) none = .ok (fin s) ∧
      es1 path est D (vec y') ((List.ofFn x').map vec) none = .ok (fin s') ∧
      |s - s'| ≤ dist y y' + 2 * ((∑ i, dist (x i) (x' i)) / M) := by
  have hx : ∀ x : Fin M → Eu D, List.ofFn x ≠ [] := fun x => by simpa using hM
  rw [← one_mul (dist y y' + 2 * ((∑ i, dist (x i) (x' i)) / M))]
  simp only [Spec.esEstimators, List.mem_cons, List.not_mem_nil, or_false] at he
  rcases he with rfl | rfl | rfl | rfl
  · have v : ∀ (y : Eu D) (x : Fin M → Eu D), es1 path "nrg" D (vec y) ((List.ofFn x).map vec) none
        = .ok (fin (ks negDist y (eqW (List.ofFn x)))) := fun y x => by
      rw [es1_nrg path y (hx x), es_ks]; rfl
    exact ⟨_, _, v y x, v y' x', ksEq_lip lipK_negDist hM y y' x x'⟩
  · have v : ∀ (y : Eu D) (x : Fin M → Eu D), es1 path "fair" D (vec y) ((List.ofFn x).map vec) none
        = .ok (fin (ksFair negDist y (List.ofFn x))) := fun y x => by
      rw [es1_fair path y (by simpa using h2 rfl), esFair_ks]
    exact ⟨_, _, v y x, v y' x', ksFair_lip lipK_negDist (h2 rfl) y y' x x'⟩
  · exact ⟨_, _, es1_akr_value path hM y x, es1_akr_value path hM y' x', ksCirc_lip lipK_negDist hM prevF_inj y y' x x'⟩
  · exact ⟨_, _, es1_akrCircperm_value path hM y x, es1_akrCircperm_value path hM y' x',
      ksCirc_lip lipK_negDist hM halfF_inj y y' x x'⟩

/-- four members -/
example : "akr_circperm" ∈ Spec.esEstimators ∧ 4 ≠ 0 := by simp [Spec.esEstimators]

/-! ### Gaussian kernel scores -/

/-- C118: the univariate Gaussian kernel score changes by at most `exp (-1/2)` times that bound. -/
theorem C118_gksuv (path : Path) (est : String) (he : est ∈ Spec.gksEstimators) (hM : M ≠ 0)
    (h2 : est = "fair" → 2 ≤ M) (y y' : ℝ) (x x' : Fin M → ℝ) :
    ∃ s s' : ℝ, gksuv1 path est (fin y) ((List.ofFn x).map fin) none = .ok (fin s) ∧
      gksuv1 path est (fin y') ((List.ofFn x').map fin) none = .ok (fin s') ∧
      |s - s'| ≤ Real.exp (-1 / 2) * (|y - y'| + 2 * ((∑ i, |x i - x' i|) / M)) := by
  have hK : LipK gauss1 (Real.exp (-1 / 2)) := by rw [gauss1_eq]; exact lipK_gk
  have hx : ∀ x : Fin M → ℝ, List.ofFn x ≠ [] := fun x => by simpa using hM
  simp only [← Real.dist_eq]
  simp only [Spec.gksEstimators, List.mem_cons, List.not_mem_nil, or_false] at he
  rcases he with rfl | rfl | rfl | rfl
  · exact ⟨_, _, C37_gksuv_value path y (hx x), C37_gksuv_value path y' (hx x'), ksEq_lip hK hM y y' x x'⟩
  · exact ⟨_, _, C37_gksuv_fair path y (by simpa using h2 rfl), C37_gksuv_fair path y' (by simpa using h2 rfl),
      ksFair_lip hK (h2 rfl) y y' x x'⟩
  · have v : ∀ (y : ℝ) (x : Fin M → ℝ), gksuv1 path "akr" (fin y) ((List.ofFn x).map fin) none
        = .ok (fin (ksCirc gauss1 prevF y x)) := fun y x => by
      rw [gksuv1_none]
      cases path
      · simp [-List.map_ofFn, gksuvKernel, Except.map, nanGuard, notnan, KsGufunc.akr_value uv_emb nan hM y x]
      · simp [-List.map_ofFn, gksuvKernel, Except.map, ← KsGufunc.akr_eq uv_symm, KsGufunc.akr_value uv_emb nan hM y x]
    exact ⟨_, _, v y x, v y' x', ksCirc_lip hK hM prevF_inj y y' x x'⟩
  · have v : ∀ (y : ℝ) (x : Fin M → ℝ), gksuv1 path "akr_circperm" (fin y) ((List.ofFn x).map fin) none
        = .ok (fin (ksCirc gauss1 sigmaF y x)) := fun y x => by
      rw [gksuv1_none]
      cases path
      · simp [-List.map_ofFn, gksuvKernel, Except.map, nanGuard, notnan, KsGufunc.akrCircperm_value uv_emb nan hM y x]
      · simp [-List.map_ofFn, gksuvKernel, Except.map, ← KsGufunc.akrCircperm_eq uv_symm,
          KsGufunc.akrCircperm_value uv_emb nan hM y x]
    exact ⟨_, _, v y x, v y' x', ksCirc_lip hK hM sigmaF_inj y y' x x'⟩

/-- two members -/
example : "fair" ∈ Spec.gksEstimators ∧ 2 ≠ 0 ∧ 2 ≤ 2 := by simp [Spec.gksEstimators]

/-- C118: the same in several variables. -/
theorem C118_gksmv (path : Path) (est : String) (he : est ∈ Spec.gksEstimators) (hM : M ≠ 0)
    (h2 : est = "fair" → 2 ≤ M) (y y' : Eu D) (x x' : Fin M → Eu D) :
    ∃ s s' : ℝ, gksmv1 path est D (vec y) ((List.ofFn x).map vec) none = .ok (fin s) ∧
      gksmv1 path est D (vec y') ((List.ofFn x').map vec) none = .ok (fin s') ∧
      |s - s'| ≤ Real.exp (-1 / 2) * (dist y y' + 2 * ((∑ i, dist (x i) (x' i)) / M)) := by
  have hK : LipK (gaussD (D := D)) (Real.exp (-1 / 2)) := by rw [gaussD_eq]; exact lipK_gk
  have hx : ∀ x : Fin M → Eu D, List.ofFn x ≠ [] := fun x => by simpa using hM
  simp only [Spec.gksEstimators, List.mem_cons, List.not_mem_nil, or_false] at he
  rcases he with rfl | rfl | rfl | rfl
  · exact ⟨_, _, C37_gksmv_value path y (hx x), C37_gksmv_value path y' (hx x'), ksEq_lip hK hM y y' x x'⟩
  · exact ⟨_, _, C37_gksmv_fair path y (by simpa using h2 rfl), C37_gksmv_fair path y' (by simpa using h2 rfl),
      ksFair_lip hK (h2 rfl) y y' x x'⟩
  · have v : ∀ (y : Eu D) (x : Fin M → Eu D), gksmv1 path "akr" D (vec y) ((List.ofFn x).map vec) none
        = .ok (fin (ksCirc gaussD prevF y x)) := fun y x => by
      rw [gksmv1_none _ _ (vec_length y) (vecs_length _)]
      cases path
      · simp [-List.map_ofFn, gksmvKernel, Except.map, KsGufunc.akr_value mv_emb [] hM y x]
      · simp [-List.map_ofFn, gksmvKernel, Except.map, ← KsGufunc.akr_eq mv_symm, KsGufunc.akr_value mv_emb [] hM y x]
    exact ⟨_, _, v y x, v y' x', ksCirc_lip hK hM prevF_inj y y' x x'⟩
  · have v : ∀ (y : Eu D) (x : Fin M → Eu D), gksmv1 path "akr_circperm" D (vec y) ((List.ofFn x).map vec) none
        = .ok (fin (ksCirc gaussD sigmaF y x)) := fun y x => by
      rw [gksmv1_none _ _ (vec_length y) (vecs_length _)]
      cases path
      · simp [-List.map_ofFn, gksmvKernel, Except.map, KsGufunc.akrCircperm_value mv_emb [] hM y x]
      · simp [-List.map_ofFn, gksmvKernel, Except.map, ← KsGufunc.akrCircperm_eq mv_symm,
          KsGufunc.akrCircperm_value mv_emb [] hM y x]
    exact ⟨_, _, v y x, v y' x', ksCirc_lip hK hM sigmaF_inj y y' x x'⟩

/-- three members -/
example : "akr" ∈ Spec.gksEstimators ∧ 3 ≠ 0 := by simp [Spec.gksEstimators]

/-! ### Quantile and interval scores -/

theorem pinball_lip {α : ℝ} (h0 : 0 ≤ α) (h1 : α ≤ 1) (q q' y y' : ℝ) :
    |pinball α q y - pinball α q' y'| ≤ max α (1 - α) * |(y - q) - (y' - q')| := by
  unfold pinball
  refine (abs_max_sub_max_le_max _ _ _ _).trans (max_le ?_ ?_)
  · rw [← mul_sub, abs_mul, abs_of_nonneg h0]
    exact mul_le_mul_of_nonneg_right (le_max_left _ _) (abs_nonneg _)
  · rw [← mul_sub, abs_mul, abs_of_nonneg (sub_nonneg.2 h1), ← abs_neg]
    have : -((q - y) - (q' - y')) = (y - q) - (y' - q') := by ring
    rw [this]
    exact mul_le_mul_of_nonneg_right (le_max_right _ _) (abs_nonneg _)

/-- C118: the quantile score changes by at most the larger of `α` and `1 - α` times the change of the difference of
observation and quantile. -/
theorem C118_quantile {α : ℝ} (h0 : 0 ≤ α) (h1 : α ≤ 1) (q q' y y' : ℝ) :
    ∃ s s' : ℝ, Quantile.score1 (fin y) (fin q) (fin α) = fin s ∧ Quantile.score1 (fin y') (fin q') (fin α) = fin s' ∧
      |s - s'| ≤ max α (1 - α) * |(y - q) - (y' - q')| :=
  ⟨_, _, Quantile.score1_fin _ _ _, Quantile.score1_fin _ _ _, pinball_lip h0 h1 q q' y y'⟩

/-- a level -/
example : (0:ℝ) ≤ 1 / 10 ∧ (1 / 10 : ℝ) ≤ 1 := by norm_num

/-- C118: the interval score of a central `1 - α` interval changes by at most `2/α` times the distance the observation
moves plus `2/α - 1` times the distance each end moves. -/
theorem C118_interval {α l u : ℝ} (h0 : 0 < α) (h1 : α ≤ 1) (hlu : l ≤ u) (l' u' y y' : ℝ) :
    ∃ s s' : ℝ, Interval.score1 (fin y) (fin l) (fin u) (fin α) = fin s ∧
      Interval.score1 (fin y') (fin l') (fin u') (fin α) = fin s' ∧
      |s - s'| ≤ 2 / α * |y - y'| + (2 / α - 1) * (|l - l'| + |u - u'|) := by
  refine ⟨_, _, Interval.score1_fin y l u h0.ne', Interval.score1_fin y' l' u' h0.ne', ?_⟩
  have hp : 0 < 2 / α := by positivity
  have e1 : |intervalScore α l u y - intervalScore α l u y'| ≤ 2 / α * |y - y'| := by
    unfold intervalScore
    have t : (u - l) + 2 / α * max (l - y) 0 + 2 / α * max (y - u) 0
        - ((u - l) + 2 / α * max (l - y') 0 + 2 / α * max (y' - u) 0)
        = 2 / α * ((max (l - y) 0 + max (y - u) 0) - (max (l - y') 0 + max (y' - u) 0)) := by ring
    rw [t, abs_mul, abs_of_pos hp]
    refine mul_le_mul_of_nonneg_left ?_ hp.le
    rw [abs_le]
    rcases abs_cases (y - y') with ⟨h, _⟩ | ⟨h, _⟩ <;> rw [h] <;>
      rcases max_cases (l - y) 0 with ⟨a, _⟩ | ⟨a, _⟩ <;> rcases max_cases (y - u) 0 with ⟨b, _⟩ | ⟨b, _⟩ <;>
      rcases max_cases (l - y') 0 with ⟨c, _⟩ | ⟨c, _⟩ <;> rcases max_cases (y' - u) 0 with ⟨d, _⟩ | ⟨d, _⟩ <;>
      rw [a, b, c, d] <;> constructor <;> linarith
  have e2 : |intervalScore α l u y' - intervalScore α l' u' y'| ≤ (2 / α - 1) * (|l - l'| + |u - u'|) := by
    rw [intervalScore_eq h0.ne', intervalScore_eq h0.ne', ← mul_sub, abs_mul, abs_of_pos hp]
    have p1 := pinball_lip (α := α / 2) (by linarith) (by linarith) l l' y' y'
    have p2 := pinball_lip (α := 1 - α / 2) (by linarith) (by linarith) u u' y' y'
    have c1 : max (α / 2) (1 - α / 2) = 1 - α / 2 := max_eq_right (by linarith)
    have c2 : max (1 - α / 2) (1 - (1 - α / 2)) = 1 - α / 2 := max_eq_left (by linarith)
    have d1 : |y' - l - (y' - l')| = |l - l'| := by rw [← abs_neg]; congr 1; ring
    have d2 : |y' - u - (y' - u')| = |u - u'| := by rw [← abs_neg]; congr 1; ring
    rw [c1, d1] at p1
    rw [c2, d2] at p2
    have t : pinball (α / 2) l y' + pinball (1 - α / 2) u y' - (pinball (α / 2) l' y' + pinball (1 - α / 2) u' y')
        = (pinball (α / 2) l y' - pinball (α / 2) l' y') + (pinball (1 - α / 2) u y' - pinball (1 - α / 2) u' y') := by
      ring
    rw [t]
    have f : 2 / α * ((1 - α / 2) * |l - l'| + (1 - α / 2) * |u - u'|) = (2 / α - 1) * (|l - l'| + |u - u'|) := by
      field_simp
    rw [← f]
    exact mul_le_mul_of_nonneg_left ((abs_add_le _ _).trans (add_le_add p1 p2)) hp.le
  calc |intervalScore α l u y - intervalScore α l' u' y'|
      = |(intervalScore α l u y - intervalScore α l u y') + (intervalScore α l u y' - intervalScore α l' u' y')| := by
        congr 1; ring
    _ ≤ _ := (abs_add_le _ _).trans (add_le_add e1 e2)

/-- a ninety per cent interval -/
example : (0:ℝ) < 1 / 10 ∧ (1 / 10 : ℝ) ≤ 1 ∧ (-2:ℝ) ≤ 3 := by norm_num

end Verif
