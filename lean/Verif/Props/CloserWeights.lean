import Verif.Props.Closer

/-!
# Property C158: weight moved to members closer to the observation never makes the score worse
-/

noncomputable section

open scoped Classical

namespace Verif

open XF Py Api Spec Mv

variable {M : ℕ} {E : Type} [NormedAddCommGroup E]

/-- sum over all pairs with the product of weights -/
theorem pairSum_shift {v : Fin M → ℝ} (hv : ∀ i, 0 ≤ v i) {y : E} {x : Fin M → E} {a b : Fin M} {e : ℝ}
    (h : OnTheWay y (x b) (x a)) (h0 : 0 ≤ e) (h1 : e ≤ v a) :
    pairSum (fun i j => (v i - (if i = a then e else 0) + if i = b then e else 0)
        * (v j - (if j = a then e else 0) + if j = b then e else 0) / 2) y x + e * v a * dist (x a) (x b)
      ≤ pairSum (fun i j => v i * v j / 2) y x := by
  have comm : ∀ i j, detour y (x i) (x j) = detour y (x j) (x i) := fun i j => by
    unfold detour; rw [dist_comm (x i) (x j)]; ring
  have key : pairSum (fun i j => (v i - (if i = a then e else 0) + if i = b then e else 0)
        * (v j - (if j = a then e else 0) + if j = b then e else 0) / 2) y x
      = pairSum (fun i j => v i * v j / 2) y x + e * ∑ i, v i * (detour y (x i) (x b) - detour y (x i) (x a))
        + e ^ 2 / 2 * (detour y (x b) (x b) - 2 * detour y (x a) (x b) + detour y (x a) (x a)) := by
    unfold pairSum
    let δ : Fin M → ℝ := fun i => (if i = b then e else 0) - if i = a then e else 0
    have hδ : ∀ f : Fin M → ℝ, ∑ i, δ i * f i = e * f b - e * f a := fun f => by
      simp only [δ, sub_mul, ite_mul, zero_mul, Finset.sum_sub_distrib, Finset.sum_ite_eq', Finset.mem_univ, if_true]
    have e1 : ∀ i j, (v i - (if i = a then e else 0) + if i = b then e else 0)
        * (v j - (if j = a then e else 0) + if j = b then e else 0) / 2 * detour y (x i) (x j)
        = v i * v j / 2 * detour y (x i) (x j) + v i / 2 * (δ j * detour y (x i) (x j))
          + δ i * (v j / 2 * detour y (x i) (x j)) + δ i * (δ j * (detour y (x i) (x j) / 2)) := fun i j => by
      simp only [δ]; ring
    simp only [e1, Finset.sum_add_distrib, ← Finset.mul_sum, hδ]
    have e2 : ∀ c : Fin M, ∑ j, v j / 2 * detour y (x c) (x j) = (∑ i, v i * detour y (x i) (x c)) / 2 := fun c => by
      rw [Finset.sum_div]; exact Finset.sum_congr rfl fun j _ => by rw [comm c j]; ring
    have e3 : ∑ i, v i / 2 * (e * detour y (x i) (x b) - e * detour y (x i) (x a))
        = e / 2 * (∑ i, v i * detour y (x i) (x b) - ∑ i, v i * detour y (x i) (x a)) := by
      rw [← Finset.sum_sub_distrib, Finset.mul_sum]; exact Finset.sum_congr rfl fun j _ => by ring
    rw [e2, e2, e3, comm b a]
    simp only [mul_sub, Finset.sum_sub_distrib]
    ring
  have hd := h
  unfold OnTheWay at hd
  have hself : ∀ i, OnTheWay y (x i) (x i) := fun i => by unfold OnTheWay; rw [dist_self, zero_add]
  have hsum : ∑ i, v i * (detour y (x i) (x b) - detour y (x i) (x a)) ≤ v a * (-2 * dist (x a) (x b)) := by
    rw [← Finset.add_sum_erase _ _ (Finset.mem_univ a)]
    have h2 : ∑ i ∈ Finset.univ.erase a, v i * (detour y (x i) (x b) - detour y (x i) (x a)) ≤ 0 :=
      Finset.sum_nonpos fun i _ => mul_nonpos_of_nonneg_of_nonpos (hv i) (sub_nonpos.2 (detour_closer (hself i) h))
    have h3 : detour y (x a) (x b) - detour y (x a) (x a) = -2 * dist (x a) (x b) := by
      unfold detour; rw [dist_self]; linarith
    rw [h3]
    linarith
  have h4 : detour y (x b) (x b) - 2 * detour y (x a) (x b) + detour y (x a) (x a) = 2 * dist (x a) (x b) := by
    unfold detour; rw [dist_self, dist_self]; ring
  rw [key, h4]
  have h5 := mul_le_mul_of_nonneg_left hsum h0
  have h6 := mul_le_mul_of_nonneg_right (mul_le_mul_of_nonneg_left h1 h0) (dist_nonneg (x := x a) (y := x b))
  nlinarith

/-- moving `e` from `a` to `b` keeps the sum of the weights -/
theorem shift_sum (w : Fin M → ℝ) (a b : Fin M) (e : ℝ) :
    ∑ i, (w i - (if i = a then e else 0) + if i = b then e else 0) = ∑ i, w i := by
  simp [Finset.sum_add_distrib, Finset.sum_sub_distrib]

theorem shift_nonneg {w : Fin M → ℝ} (hw : ∀ i, 0 ≤ w i) {a b : Fin M} {e : ℝ} (h0 : 0 ≤ e) (h1 : e ≤ w a) (i : Fin M) :
    0 ≤ w i - (if i = a then e else 0) + if i = b then e else 0 := by
  have := hw i
  by_cases h2 : i = a
  · subst h2
    rw [if_pos rfl]
    split_ifs <;> linarith
  · rw [if_neg h2]
    split_ifs <;> linarith

theorem shift_norm (w : Fin M → ℝ) (a b : Fin M) (e T : ℝ) :
    (fun i j => (w i - (if i = a then e else 0) + if i = b then e else 0) / T
        * ((w j - (if j = a then e else 0) + if j = b then e else 0) / T) / 2)
      = fun i j => (w i / T - (if i = a then e / T else 0) + if i = b then e / T else 0)
        * (w j / T - (if j = a then e / T else 0) + if j = b then e / T else 0) / 2 := by
  funext i j
  split_ifs <;> ring

/-- C158.  Full property: every estimator; proved for `nrg`, `qd` and `int`: the score falls at least by the product of the
moved weight, the weight of the member it was taken from and their distance, for weights normalised to sum 1.  Missing: the
estimators `fair` and `akr`, where it is false (`C158_fair_false`, `C158_akr_false`). -/
theorem C158_crps_partial (path : Path) {est : String} (he : est = "nrg" ∨ est = "qd" ∨ est = "int") {w : Fin M → ℝ}
    (hw : ∀ i, 0 ≤ w i) (ht : 0 < ∑ i, w i) (sorted : Bool) {y : ℝ} {x : Fin M → ℝ} {a b : Fin M} {e : ℝ}
    (h : OnTheWay y (x b) (x a)) (h0 : 0 ≤ e) (h1 : e ≤ w a) (hs : sorted = true → Monotone x) :
    ∃ s s' : ℝ,
      crps1 path est sorted "propagate" (fin y) ((List.ofFn x).map fin) (some ((List.ofFn w).map fin)) = .ok (fin s) ∧
      crps1 path est sorted "propagate" (fin y) ((List.ofFn x).map fin)
        (some ((List.ofFn fun i => w i - (if i = a then e else 0) + if i = b then e else 0).map fin)) = .ok (fin s') ∧
      s' + e * w a / (∑ i, w i) ^ 2 * |x a - x b| ≤ s := by
  have hs' : SortOK sorted (List.ofFn x) := fun h1 => by
    rw [List.pairwise_ofFn]
    exact fun i j hij => hs h1 hij.le
  refine ⟨_, _, crps1W_pairs_eq path he hw ht sorted y x hs',
    crps1W_pairs_eq path he (shift_nonneg hw h0 h1) (by rw [shift_sum]; exact ht) sorted y x hs', ?_⟩
  rw [shift_sum, shift_norm]
  have := pairSum_shift (v := fun i => w i / ∑ i, w i) (fun i => div_nonneg (hw i) ht.le) h (e := e / ∑ i, w i)
    (div_nonneg h0 ht.le) (div_le_div_of_nonneg_right h1 ht.le)
  rw [Real.dist_eq] at this
  rw [show e * w a / (∑ i, w i) ^ 2 = e / (∑ i, w i) * (w a / ∑ i, w i) by field_simp]
  exact this

/-- weights 1, 2, 3; two of the three units of the member 7 go to the member 5, observation 1 -/
example : (∀ i, 0 ≤ (![1, 2, 3] : Fin 3 → ℝ) i) ∧ 0 < ∑ i, (![1, 2, 3] : Fin 3 → ℝ) i ∧
    OnTheWay (1:ℝ) ((![0, 5, 7] : Fin 3 → ℝ) 1) ((![0, 5, 7] : Fin 3 → ℝ) 2) ∧ (2:ℝ) ≤ (![1, 2, 3] : Fin 3 → ℝ) 2 := by
  refine ⟨fun i => ?_, ?_, ?_, ?_⟩
  · fin_cases i <;> simp
  · simp [Fin.sum_univ_succ]; norm_num
  · rw [onTheWay_iff]; simp; norm_num
  · simp; norm_num

/-- C158 for the energy score with the estimator `nrg`, in every dimension. -/
theorem C158_es {D : ℕ} (path : Path) {w : Fin M → ℝ} (hw : ∀ i, 0 ≤ w i) (ht : 0 < ∑ i, w i) {y : Eu D} {x : Fin M → Eu D}
    {a b : Fin M} {e : ℝ} (h : OnTheWay y (x b) (x a)) (h0 : 0 ≤ e) (h1 : e ≤ w a) :
    ∃ s s' : ℝ,
      es1 path "nrg" D (vec y) (List.ofFn fun i => vec (x i)) (some (List.ofFn fun i => fin (w i))) = .ok (fin s) ∧
      es1 path "nrg" D (vec y) (List.ofFn fun i => vec (x i))
        (some (List.ofFn fun i => fin (w i - (if i = a then e else 0) + if i = b then e else 0))) = .ok (fin s') ∧
      s' + e * w a / (∑ i, w i) ^ 2 * dist (x a) (x b) ≤ s := by
  have val : ∀ {w : Fin M → ℝ}, (∀ i, 0 ≤ w i) → 0 < ∑ i, w i →
      es1 path "nrg" D (vec y) (List.ofFn fun i => vec (x i)) (some (List.ofFn fun i => fin (w i)))
        = .ok (fin (pairSum (fun i j => w i / (∑ i, w i) * (w j / ∑ i, w i) / 2) y x)) := fun {w} hw ht => by
    have tot : ((List.ofFn fun i => (x i, w i)).map Prod.snd).sum = ∑ i, w i := by
      rw [List.map_ofFn, List.sum_ofFn]; rfl
    have := es1_nrg_weighted path y (List.ofFn fun i => (x i, w i)) (fun p hp => by
      obtain ⟨i, rfl⟩ := List.mem_ofFn.1 hp
      exact hw i) (by rw [tot]; exact ht.ne')
    rw [List.map_ofFn, List.map_ofFn] at this
    refine this.trans ?_
    rw [es_ks]
    unfold Spec.normW
    rw [tot, List.map_ofFn]
    exact congrArg (fun r => Except.ok (fin r)) (pair_ksW (fun i => w i / ∑ i, w i) (by rw [← Finset.sum_div, div_self ht.ne']) y x)
  refine ⟨_, _, val hw ht, val (shift_nonneg hw h0 h1) (by rw [shift_sum]; exact ht), ?_⟩
  rw [shift_sum, shift_norm]
  have := pairSum_shift (v := fun i => w i / ∑ i, w i) (fun i => div_nonneg (hw i) ht.le) h (e := e / ∑ i, w i)
    (div_nonneg h0 ht.le) (div_le_div_of_nonneg_right h1 ht.le)
  rw [show e * w a / (∑ i, w i) ^ 2 = e / (∑ i, w i) * (w a / ∑ i, w i) by field_simp]
  exact this

/-- two members in the plane: one at the observation takes over the weight of the other -/
example (y z : Eu 2) : OnTheWay y ((![z, y] : Fin 2 → Eu 2) 1) ((![z, y] : Fin 2 → Eu 2) 0) ∧
    (1:ℝ) ≤ (![1, 1] : Fin 2 → ℝ) 0 := by
  simp [OnTheWay]

/-- C158 is false for the weighted estimator `fair`: observation 0, members 0, 1, 10 with weights 6, 0, 2; if one unit moves from
the member 10 to the member 1, the score grows. -/
theorem C158_fair_false (path : Path) (sorted : Bool) :
    ∃ s s' : ℝ,
      crps1 path "fair" sorted "propagate" (fin 0) [fin 0, fin 1, fin 10] (some [fin 6, fin 0, fin 2]) = .ok (fin s) ∧
      crps1 path "fair" sorted "propagate" (fin 0) [fin 0, fin 1, fin 10] (some [fin 6, fin 1, fin 1]) = .ok (fin s') ∧
      s < s' := by
  have v1 := crps1W_fair path sorted 0 (l := [(0, 6), (1, 0), (10, 2)]) (by
    intro p hp; simp at hp; rcases hp with rfl | rfl | rfl <;> norm_num) (by norm_num [wtot]) (by norm_num [wsq, norml, wtot])
  have v2 := crps1W_fair path sorted 0 (l := [(0, 6), (1, 1), (10, 1)]) (by
    intro p hp; simp at hp; rcases hp with rfl | rfl | rfl <;> norm_num) (by norm_num [wtot]) (by norm_num [wsq, norml, wtot])
  refine ⟨_, _, v1, v2, ?_⟩
  norm_num [wfair, norml, wtot, wabs, wpair, pairsAll, wsq, abs_of_neg, abs_of_pos]

/-- C158 is false for the weighted estimator `akr`: observation 0, members -100, 2, 1; if the weight moves from the member 2 to the
member 1, the score grows. -/
theorem C158_akr_false (path : Path) (sorted : Bool) :
    ∃ s s' : ℝ,
      crps1 path "akr" sorted "propagate" (fin 0) [fin (-100), fin 2, fin 1] (some [fin 1, fin 1, fin 0]) = .ok (fin s) ∧
      crps1 path "akr" sorted "propagate" (fin 0) [fin (-100), fin 2, fin 1] (some [fin 1, fin 0, fin 1]) = .ok (fin s') ∧
      s < s' := by
  have v1 := crps1W_akr path sorted 0 (l := [(-100, 1), (2, 1), (1, 0)]) (by
    intro p hp; simp at hp; rcases hp with rfl | rfl | rfl <;> norm_num) (by norm_num [wtot])
  have v2 := crps1W_akr path sorted 0 (l := [(-100, 1), (2, 0), (1, 1)]) (by
    intro p hp; simp at hp; rcases hp with rfl | rfl | rfl <;> norm_num) (by norm_num [wtot])
  refine ⟨_, _, v1, v2, ?_⟩
  norm_num [norml, wtot, wabs, circW, prevI, List.range_succ, abs_of_neg, abs_of_pos]

/-- the second and the third member of the last two claims are on the way -/
example : OnTheWay (0:ℝ) 1 10 ∧ OnTheWay (0:ℝ) 1 2 := by
  rw [onTheWay_iff, onTheWay_iff]; norm_num

end Verif
