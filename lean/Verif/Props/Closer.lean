import Verif.Props.TwSplit
import Verif.Props.Crps
import Verif.Spec.Closer

/-!
# Property C155: members that move towards the observation never worsen the score
-/

noncomputable section

open scoped Classical

namespace Verif

open XF Py Api Spec Mv

variable {M D : ℕ}

section
variable {E : Type} [NormedAddCommGroup E]

theorem detour_closer {y a b a' b' : E} (ha : OnTheWay y a' a) (hb : OnTheWay y b' b) :
    detour y a' b' ≤ detour y a b := by
  unfold OnTheWay at ha hb
  unfold detour
  have h1 := dist_triangle4 a a' b' b
  rw [dist_comm b' b] at h1
  linarith

theorem pairSum_closer {A : Fin M → Fin M → ℝ} (h0 : ∀ i j, 0 ≤ A i j) {y : E} {x x' : Fin M → E}
    (h : ∀ i, OnTheWay y (x' i) (x i)) : pairSum A y x' ≤ pairSum A y x :=
  Finset.sum_le_sum fun i _ => Finset.sum_le_sum fun j _ => mul_le_mul_of_nonneg_left (detour_closer (h i) (h j)) (h0 i j)

/-- the pairs of a member with itself count `2 A i i` times the way -/
theorem pairSum_closer_diag {A : Fin M → Fin M → ℝ} (h0 : ∀ i j, 0 ≤ A i j) {y : E} {x x' : Fin M → E}
    (h : ∀ i, OnTheWay y (x' i) (x i)) : pairSum A y x' + ∑ i, 2 * A i i * dist (x i) (x' i) ≤ pairSum A y x := by
  unfold pairSum
  rw [← Finset.sum_add_distrib]
  refine Finset.sum_le_sum fun i _ => ?_
  have e : ∀ f : Fin M → ℝ, ∑ j, f j = f i + ∑ j ∈ Finset.univ.erase i, f j := fun f =>
    (Finset.add_sum_erase _ _ (Finset.mem_univ i)).symm
  rw [e, e fun j => A i j * detour y (x i) (x j)]
  have h1 : ∑ j ∈ Finset.univ.erase i, A i j * detour y (x' i) (x' j) ≤ ∑ j ∈ Finset.univ.erase i, A i j * detour y (x i) (x j) :=
    Finset.sum_le_sum fun j _ => mul_le_mul_of_nonneg_left (detour_closer (h i) (h j)) (h0 i j)
  have h2 : A i i * detour y (x' i) (x' i) + 2 * A i i * dist (x i) (x' i) = A i i * detour y (x i) (x i) := by
    have := h i
    unfold OnTheWay at this
    simp only [detour, dist_self, ← this]; ring
  linarith

/-- On the line, on the way means in between. -/
theorem onTheWay_iff {y x' x : ℝ} : OnTheWay y x' x ↔ (x ≤ x' ∧ x' ≤ y) ∨ (y ≤ x' ∧ x' ≤ x) := by
  unfold OnTheWay
  rw [Real.dist_eq, Real.dist_eq, Real.dist_eq]
  constructor
  · intro h
    rcases le_total x x' with h1 | h1 <;> rcases le_total x' y with h2 | h2 <;> rcases le_total x y with h3 | h3 <;>
      simp only [abs_of_nonneg, abs_of_nonpos, sub_nonneg, sub_nonpos, h1, h2, h3] at h
    all_goals first
      | exact Or.inl ⟨by linarith, by linarith⟩
      | exact Or.inr ⟨by linarith, by linarith⟩
  · rintro (⟨h1, h2⟩ | ⟨h1, h2⟩)
    · rw [abs_of_nonpos (by linarith), abs_of_nonpos (by linarith), abs_of_nonpos (by linarith)]; ring
    · rw [abs_of_nonneg (by linarith), abs_of_nonneg (by linarith), abs_of_nonneg (by linarith)]; ring

theorem OnTheWay.mono {y x' x : ℝ} (h : OnTheWay y x' x) {c : ℝ → ℝ} (hc : Monotone c) : OnTheWay (c y) (c x') (c x) := by
  rw [onTheWay_iff] at *
  rcases h with ⟨h1, h2⟩ | ⟨h1, h2⟩
  · exact Or.inl ⟨hc h1, hc h2⟩
  · exact Or.inr ⟨hc h1, hc h2⟩

end

/-- C155 for `crps_ensemble`, every estimator, both paths: if every member moves towards the observation (or stays), the
score does not grow. -/
theorem C155_crps (path : Path) {est : String} (he : est ∈ Spec.estimators) (hM : M ≠ 0)
    (h2 : est = "fair" ∨ est = "pwm" → 2 ≤ M) (sorted : Bool) {y : ℝ} {x x' : Fin M → ℝ}
    (h : ∀ i, OnTheWay y (x' i) (x i)) (hs : sorted = true → Monotone x ∧ Monotone x') :
    ∃ s s' : ℝ, crps1 path est sorted "propagate" (fin y) ((List.ofFn x).map fin) none = .ok (fin s) ∧
      crps1 path est sorted "propagate" (fin y) ((List.ofFn x').map fin) none = .ok (fin s') ∧ s' ≤ s := by
  obtain ⟨A, h0, -, hA⟩ := crps1_pairs path he hM h2
  refine ⟨_, _, hA sorted y x fun h1 => ?_, hA sorted y x' fun h1 => ?_, pairSum_closer h0 h⟩
  · rw [List.pairwise_ofFn]
    exact fun i j hij => (hs h1).1 hij.le
  · rw [List.pairwise_ofFn]
    exact fun i j hij => (hs h1).2 hij.le

/-- observation 1; the members 0, 5, 7 move to 1/2, 5, 3 -/
example : ∀ i, OnTheWay (1:ℝ) ((![1 / 2, 5, 3] : Fin 3 → ℝ) i) ((![0, 5, 7] : Fin 3 → ℝ) i) := by
  intro i
  fin_cases i <;> norm_num [OnTheWay, Real.dist_eq, abs_of_neg, abs_of_pos]

/-- The estimator `nrg` (and with it `qd` and `int`, C02) falls at least by the length of the way divided by the square of
the number of members. -/
theorem C155_strict (path : Path) (hM : M ≠ 0) (sorted : Bool) {y : ℝ} {x x' : Fin M → ℝ}
    (h : ∀ i, OnTheWay y (x' i) (x i)) :
    ∃ s s' : ℝ, crps1 path "nrg" sorted "propagate" (fin y) ((List.ofFn x).map fin) none = .ok (fin s) ∧
      crps1 path "nrg" sorted "propagate" (fin y) ((List.ofFn x').map fin) none = .ok (fin s') ∧
      s' + (∑ i, |x i - x' i|) / (M:ℝ) ^ 2 ≤ s := by
  have hx : ∀ x : Fin M → ℝ, List.ofFn x ≠ [] := fun x => by simpa using hM
  have hv : ∀ x : Fin M → ℝ, crps1 path "nrg" sorted "propagate" (fin y) ((List.ofFn x).map fin) none
      = .ok (fin (pairSum (fun _ _ => 1 / (M:ℝ) * (1 / (M:ℝ)) / 2) y x)) := fun x => by
    rw [crps1_nrg path sorted y (hx x), energy_ks, uw_eqW, pair_ks hM]
  refine ⟨_, _, hv x, hv x', le_trans (le_of_eq ?_) (pairSum_closer_diag (fun _ _ => by positivity) h)⟩
  congr 1
  rw [Finset.sum_div]
  refine Finset.sum_congr rfl fun i _ => ?_
  rw [Real.dist_eq]
  have : (M:ℝ) ≠ 0 := by exact_mod_cast hM
  field_simp

/-- observation 1; the members 0, 5, 7 move to 1/2, 5, 3 -/
example : ∃ x x' : Fin 3 → ℝ, (∀ i, OnTheWay (1:ℝ) (x' i) (x i)) ∧ 0 < ∑ i, |x i - x' i| := by
  refine ⟨![0, 5, 7], ![1 / 2, 5, 3], ?_, ?_⟩
  · intro i
    fin_cases i <;> norm_num [OnTheWay, Real.dist_eq, abs_of_neg, abs_of_pos]
  · norm_num [Fin.sum_univ_succ, abs_of_neg, abs_of_pos]

/-- C155 for `twcrps_ensemble` on arrays: every monotone chaining function, in particular `crps_ensemble` (the identity)
and thresholds (`clamp`). -/
theorem C155_tw {obs fct fct' : Arr ℝ} {m : ℤ} {k : ℕ} (h : Spec.AxisIs m fct.ndim k)
    (hs : obs.shape = fct.shape.eraseIdx k) (hs' : fct'.shape = fct.shape) (hk : fct.shape.getD k 0 ≠ 0)
    (hne : ∃ i, Arr.Valid obs.shape i) (path : Path) {est : String} (he : est ∈ Spec.estimators)
    (h2 : est = "fair" ∨ est = "pwm" → 2 ≤ fct.shape.getD k 0) (sorted : Bool)
    (hsort : sorted = true → ∀ i, (fct.sliceAt k i).Pairwise (· ≤ ·) ∧ (fct'.sliceAt k i).Pairwise (· ≤ ·))
    {v : XF → XF} {c : ℝ → ℝ} (hc : ∀ x, v (fin x) = fin (c x)) (mc : Monotone c)
    (hmove : ∀ i, Arr.Valid obs.shape i → ∀ j,
      OnTheWay (obs.get i) ((fct'.sliceAt k i).getD j 0) ((fct.sliceAt k i).getD j 0)) :
    ∃ out out', twcrpsEnsemble path (obs.map fin) (fct.map fin) v m none est sorted "propagate" = .ok out ∧
      twcrpsEnsemble path (obs.map fin) (fct'.map fin) v m none est sorted "propagate" = .ok out' ∧
      out.shape = obs.shape ∧ out'.shape = obs.shape ∧
      ∀ i, Arr.Valid obs.shape i → ∃ s s' : ℝ, out.get i = fin s ∧ out'.get i = fin s' ∧ s' ≤ s := by
  obtain ⟨A, hA0, -, hA⟩ := crps1_pairs path he hk h2
  have hM : ∀ i, (fct.sliceAt k i).length = fct.shape.getD k 0 := fun i => by unfold Arr.sliceAt; simp
  have hM' : ∀ i, (fct'.sliceAt k i).length = fct.shape.getD k 0 := fun i => by unfold Arr.sliceAt; simp [hs']
  obtain ⟨o1, h1, s1, v1⟩ := tw_pairs (W := none) h hs hne (by simp [Spec.WShape]) path est sorted
    (fun h i => (hsort h i).1) hM (fun _ => A) (fun i _ => hA) hc mc
  have h' : Spec.AxisIs m fct'.ndim k := by unfold Arr.ndim; rw [hs']; exact h
  obtain ⟨o2, h2, s2, v2⟩ := tw_pairs (W := none) h' (hs.trans (by rw [hs'])) hne (by simp [Spec.WShape]) path est sorted
    (fun h i => (hsort h i).2) hM' (fun _ => A) (fun i _ => hA) hc mc
  refine ⟨o1, o2, h1, h2, s1, s2, fun i hi => ⟨_, _, v1 i hi, v2 i hi, pairSum_closer hA0 fun j => OnTheWay.mono ?_ mc⟩⟩
  have e : ∀ (l : List ℝ) (n : ℕ) (h : n < l.length), l.getD n 0 = l[n] := fun l n h => by simp [h]
  have := hmove i hi j
  rw [e _ _ (by rw [hM']; exact j.2), e _ _ (by rw [hM]; exact j.2)] at this
  exact this

/-- two by three members at 0, …, 3, all of which go half the way to the observations 0 and 1; thresholds 1 and 2 -/
example : let fct : Arr ℝ := ⟨[2, 3], fun i => i.sum⟩
    let obs : Arr ℝ := ⟨[2], fun i => i.sum⟩
    let fct' : Arr ℝ := ⟨[2, 3], fun i => (i.sum + (i.dropLast.sum : ℕ)) / 2⟩
    Spec.AxisIs (-1) fct.ndim 1 ∧ obs.shape = fct.shape.eraseIdx 1 ∧ fct'.shape = fct.shape ∧ Arr.Valid obs.shape [1] ∧
      ∀ j < 3, OnTheWay (obs.get [1]) ((fct'.sliceAt 1 [1]).getD j 0) ((fct.sliceAt 1 [1]).getD j 0) := by
  refine ⟨⟨by simp [Arr.ndim], Or.inr (by simp [Arr.ndim])⟩, rfl, rfl, by simp [Arr.Valid], fun j hj => ?_⟩
  rw [onTheWay_iff]
  interval_cases j <;> simp [Arr.sliceAt, List.insertIdx, List.range_succ] <;> norm_num

/-- C155 for the energy score, in every dimension. -/
theorem C155_es (path : Path) {est : String} (he : est ∈ Spec.esEstimators) (hM : M ≠ 0) (h2 : est = "fair" → 2 ≤ M)
    {y : Eu D} {x x' : Fin M → Eu D} (h : ∀ i, OnTheWay y (x' i) (x i)) :
    ∃ s s' : ℝ, es1 path est D (vec y) ((List.ofFn x).map vec) none = .ok (fin s) ∧
      es1 path est D (vec y) ((List.ofFn x').map vec) none = .ok (fin s') ∧ s' ≤ s := by
  obtain ⟨A, h0, -, hA⟩ := es1_pairs (D := D) path he hM h2
  exact ⟨_, _, hA y x, hA y x', pairSum_closer h0 h⟩

/-- every member of every ensemble may go any part of the straight way -/
example (y : Eu D) (x : Fin M → Eu D) {t : ℝ} (h0 : 0 ≤ t) (h1 : t ≤ 1) (i : Fin M) :
    OnTheWay y (AffineMap.lineMap (x i) y t) (x i) := by
  unfold OnTheWay
  rw [dist_left_lineMap, dist_lineMap_right, Real.norm_eq_abs, Real.norm_eq_abs, abs_of_nonneg h0,
    abs_of_nonneg (by linarith)]
  ring

/-- C155 with weights.  Full property: every estimator; proved for `nrg`, `qd` and `int`.  Missing: the estimators
`fair` and `akr`, where it is false (`C155_weighted_false`). -/
theorem C155_weighted_partial (path : Path) {est : String} (he : est = "nrg" ∨ est = "qd" ∨ est = "int") {w : Fin M → ℝ}
    (hw : ∀ i, 0 ≤ w i) (ht : 0 < ∑ i, w i) (sorted : Bool) {y : ℝ} {x x' : Fin M → ℝ}
    (h : ∀ i, OnTheWay y (x' i) (x i)) (hs : sorted = true → Monotone x ∧ Monotone x') :
    ∃ s s' : ℝ,
      crps1 path est sorted "propagate" (fin y) ((List.ofFn x).map fin) (some ((List.ofFn w).map fin)) = .ok (fin s) ∧
      crps1 path est sorted "propagate" (fin y) ((List.ofFn x').map fin) (some ((List.ofFn w).map fin)) = .ok (fin s') ∧
      s' ≤ s := by
  obtain ⟨A, h0, -, hA⟩ := crps1W_pairs path he hw ht
  refine ⟨_, _, hA sorted y x fun h1 => ?_, hA sorted y x' fun h1 => ?_, pairSum_closer h0 h⟩
  · rw [List.pairwise_ofFn]
    exact fun i j hij => (hs h1).1 hij.le
  · rw [List.pairwise_ofFn]
    exact fun i j hij => (hs h1).2 hij.le

/-- a weight of zero is allowed -/
example : (∀ i, 0 ≤ (![1, 0, 3] : Fin 3 → ℝ) i) ∧ 0 < ∑ i, (![1, 0, 3] : Fin 3 → ℝ) i ∧
    ∀ i, OnTheWay (1:ℝ) ((![1 / 2, 5, 3] : Fin 3 → ℝ) i) ((![0, 5, 7] : Fin 3 → ℝ) i) := by
  refine ⟨fun i => ?_, ?_, ?_⟩
  · fin_cases i <;> simp
  · simp [Fin.sum_univ_succ]; norm_num
  · intro i
    fin_cases i <;> norm_num [OnTheWay, Real.dist_eq, abs_of_neg, abs_of_pos]

/-- C155 is false for weighted ensembles and the estimators `fair` and `akr`: two members with weights `p > q > 0`, the
observation equal to the heavier one.  If the lighter one moves towards it, from `b` to `b'`, the score grows. -/
theorem C155_weighted_false (path : Path) {est : String} (he : est = "fair" ∨ est = "akr") (sorted : Bool) {a b b' p q : ℝ}
    (hb : OnTheWay a b' b) (hne : b' ≠ a) (hlt : b' ≠ b) (hq : 0 < q) (hpq : q < p) :
    ∃ s s' : ℝ, crps1 path est sorted "propagate" (fin a) [fin a, fin b] (some [fin p, fin q]) = .ok (fin s) ∧
      crps1 path est sorted "propagate" (fin a) [fin a, fin b'] (some [fin p, fin q]) = .ok (fin s') ∧ s < s' := by
  have hp : 0 < p := hq.trans hpq
  have hv : ∀ b, a ≠ b → crps1 path est sorted "propagate" (fin a) [fin a, fin b] (some [fin p, fin q])
      = .ok (fin ((q / (p + q) - 1 / 2) * |a - b|)) := by
    intro b hab
    rcases he with rfl | rfl
    · obtain ⟨s, h1, h2, -⟩ := C134_weighted_fair_false path sorted hab hq hpq
      rw [h1, h2]
    · have ht : wtot [(a, p), (b, q)] = p + q := by simp [wtot]
      have hpq0 : p + q ≠ 0 := by positivity
      have h := crps1W_akr path sorted a (l := [(a, p), (b, q)]) (by
        intro r hr; simp at hr; rcases hr with rfl | rfl <;> simp [hp.le, hq.le]) (by rw [ht]; exact hpq0)
      refine h.trans ?_
      congr 2
      have hpq0' : q + p ≠ 0 := by rwa [add_comm]
      simp [wabs, norml, ht, circW, prevI, List.range_succ, abs_sub_comm b a]
      field_simp
  have hba : b ≠ a := by
    rintro rfl
    unfold OnTheWay at hb
    rw [dist_self] at hb
    exact hlt (dist_le_zero.1 (by linarith [dist_nonneg (x := b) (y := b')]))
  refine ⟨_, _, hv b hba.symm, hv b' hne.symm, ?_⟩
  have h1 : 0 < dist b b' := dist_pos.2 hlt.symm
  have h2 : q / (p + q) < 1 / 2 := by rw [div_lt_div_iff₀ (by positivity) (by norm_num)]; linarith
  unfold OnTheWay at hb
  rw [← Real.dist_eq, ← Real.dist_eq, dist_comm a b, dist_comm a b']
  nlinarith

/-- observation 0, weights 3 and 1; the light member moves from 2 to 1 -/
example : OnTheWay (0:ℝ) 1 2 ∧ (1:ℝ) ≠ 0 ∧ (1:ℝ) ≠ 2 ∧ (0:ℝ) < 1 ∧ (1:ℝ) < 3 := by
  norm_num [OnTheWay, Real.dist_eq]

end Verif
