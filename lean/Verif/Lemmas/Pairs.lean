import Verif.Lemmas.Stable
import Verif.Props.Stable

/-!
# Every estimator of the ensemble CRPS and of the energy score is a sum over pairs of members
-/

noncomputable section

open scoped Classical

namespace Verif

open XF Py Api Spec Mv

variable {M : ℕ} {E : Type} [NormedAddCommGroup E]

/-- by how much the way from `a` over `y` to `b` is longer than the direct way -/
def detour (y a b : E) : ℝ := dist a y + dist b y - dist a b

theorem detour_nonneg (y a b : E) : 0 ≤ detour y a b := by
  unfold detour
  have := dist_triangle a y b
  rw [dist_comm y b] at this
  linarith

/-- sum over all pairs -/
def pairSum (A : Fin M → Fin M → ℝ) (y : E) (x : Fin M → E) : ℝ := ∑ i, ∑ j, A i j * detour y (x i) (x j)

theorem pairSum_nonneg {A : Fin M → Fin M → ℝ} (h : ∀ i j, 0 ≤ A i j) (y : E) (x : Fin M → E) : 0 ≤ pairSum A y x :=
  Finset.sum_nonneg fun i _ => Finset.sum_nonneg fun j _ => mul_nonneg (h i j) (detour_nonneg ..)

/-- if the coefficients of the pairs with member `i` add up to `w i` -/
theorem pairSum_eq {A : Fin M → Fin M → ℝ} {w : Fin M → ℝ} (h : ∀ i, ∑ j, (A i j + A j i) = w i) (y : E) (x : Fin M → E) :
    pairSum A y x = ∑ i, w i * dist (x i) y - ∑ i, ∑ j, A i j * dist (x i) (x j) := by
  have e : pairSum A y x = (∑ i, ∑ j, A i j * dist (x i) y + ∑ i, ∑ j, A i j * dist (x j) y)
      - ∑ i, ∑ j, A i j * dist (x i) (x j) := by
    simp only [pairSum, detour, ← Finset.sum_add_distrib, ← Finset.sum_sub_distrib]
    exact Finset.sum_congr rfl fun i _ => Finset.sum_congr rfl fun j _ => by ring
  rw [e, Finset.sum_comm (f := fun i j => A i j * dist (x j) y), ← Finset.sum_add_distrib]
  congr 1
  refine Finset.sum_congr rfl fun i _ => ?_
  rw [← h i, Finset.sum_mul, ← Finset.sum_add_distrib]
  exact Finset.sum_congr rfl fun j _ => by ring

theorem rows_w {w : Fin M → ℝ} (ht : ∑ i, w i = 1) (i : Fin M) : ∑ j, (w i * w j / 2 + w j * w i / 2) = w i := by
  have : ∀ j, w i * w j / 2 + w j * w i / 2 = w i * w j := fun j => by ring
  simp only [this, ← Finset.mul_sum, ht, mul_one]

theorem rows_fair (hM : 2 ≤ M) (i : Fin M) :
    ∑ j, ((if i = j then (0:ℝ) else 1 / (2 * (M * ((M:ℝ) - 1)))) + if j = i then (0:ℝ) else 1 / (2 * (M * ((M:ℝ) - 1))))
      = 1 / (M:ℝ) := by
  have hM0 : (M:ℝ) ≠ 0 := by positivity
  have hM1 : (M:ℝ) - 1 ≠ 0 := by
    have : (2:ℝ) ≤ M := by exact_mod_cast hM
    linarith
  have e : ∀ j, ((if i = j then (0:ℝ) else 1 / (2 * (M * ((M:ℝ) - 1)))) + if j = i then (0:ℝ) else 1 / (2 * (M * ((M:ℝ) - 1))))
      = 1 / (M * ((M:ℝ) - 1)) - if i = j then 1 / (M * ((M:ℝ) - 1)) else 0 := fun j => by
    by_cases h : i = j
    · subst h; simp
    · rw [if_neg h, if_neg (Ne.symm h), if_neg h]; field_simp; ring
  simp only [e, Finset.sum_sub_distrib, Finset.sum_ite_eq, Finset.mem_univ, if_true, Finset.sum_const,
    Finset.card_univ, Fintype.card_fin, nsmul_eq_mul]
  field_simp

theorem rows_circ (hM : M ≠ 0) {g : Fin M → Fin M} (hg : Function.Injective g) (i : Fin M) :
    ∑ j, ((if j = g i then 1 / (2 * (M:ℝ)) else 0) + if i = g j then 1 / (2 * (M:ℝ)) else 0) = 1 / (M:ℝ) := by
  have hM0 : (M:ℝ) ≠ 0 := by exact_mod_cast hM
  rw [Finset.sum_add_distrib, Finset.sum_ite_eq' Finset.univ (g i)]
  have hb := Finite.injective_iff_bijective.1 hg
  have : ∑ j, (if i = g j then 1 / (2 * (M:ℝ)) else 0) = ∑ j, (if i = j then 1 / (2 * (M:ℝ)) else 0) :=
    hb.sum_comp fun j => if i = j then 1 / (2 * (M:ℝ)) else 0
  rw [this]
  simp only [Finset.sum_ite_eq, Finset.mem_univ, if_true]
  field_simp; ring

theorem pair_ksW (w : Fin M → ℝ) (ht : ∑ i, w i = 1) (y : E) (x : Fin M → E) :
    ks negDist y (List.ofFn fun i => (x i, w i)) = pairSum (fun i j => w i * w j / 2) y x := by
  rw [ks_ofFnW, pairSum_eq (w := w)]
  · simp only [negDist, dist_self, mul_neg, Finset.sum_neg_distrib, Finset.mul_sum]
    have : ∀ i j, w i * w j / 2 * dist (x i) (x j) = 1 / 2 * (w i * w j * dist (x i) (x j)) := fun i j => by ring
    simp only [this]
    ring
  · exact rows_w ht

theorem pair_ks (hM : M ≠ 0) (y : E) (x : Fin M → E) :
    ks negDist y (eqW (List.ofFn x)) = pairSum (fun _ _ => 1 / (M:ℝ) * (1 / (M:ℝ)) / 2) y x := by
  have hM0 : (M:ℝ) ≠ 0 := by exact_mod_cast hM
  rw [eqW_ofFn]
  exact pair_ksW (fun _ => 1 / (M:ℝ)) (by simp [hM0]) y x

theorem pair_ksFair (hM : 2 ≤ M) (y : E) (x : Fin M → E) :
    ksFair negDist y (List.ofFn x) = pairSum (fun i j => if i = j then 0 else 1 / (2 * (M * ((M:ℝ) - 1)))) y x := by
  have hM0 : (M:ℝ) ≠ 0 := by positivity
  have hM1 : (M:ℝ) - 1 ≠ 0 := by
    have : (2:ℝ) ≤ M := by exact_mod_cast hM
    linarith
  rw [ksFair_ofFn, pairSum_eq (w := fun _ => 1 / (M:ℝ))]
  · simp only [negDist, dist_self, mul_neg, Finset.sum_neg_distrib, neg_zero, Finset.sum_const_zero]
    have : ∀ i j, (if i = j then (0:ℝ) else 1 / (2 * (M * ((M:ℝ) - 1)))) * dist (x i) (x j)
        = dist (x i) (x j) * (1 / (2 * (M * ((M:ℝ) - 1)))) := fun i j => by
      split_ifs with h
      · rw [h]; simp
      · ring
    simp only [this, ← Finset.sum_mul, ← Finset.mul_sum]
    ring
  · exact rows_fair hM

theorem pair_ksCirc (hM : M ≠ 0) {g : Fin M → Fin M} (hg : Function.Injective g) (y : E) (x : Fin M → E) :
    ksCirc negDist g y x = pairSum (fun i j => if j = g i then 1 / (2 * (M:ℝ)) else 0) y x := by
  have hM0 : (M:ℝ) ≠ 0 := by exact_mod_cast hM
  rw [ksCirc, pairSum_eq (w := fun _ => 1 / (M:ℝ))]
  · simp only [negDist, dist_self, mul_neg, Finset.sum_neg_distrib, neg_zero, ite_mul, zero_mul, Finset.sum_ite_eq',
      Finset.mem_univ, if_true, ← Finset.mul_sum]
    ring
  · exact rows_circ hM hg

/-- every estimator is a sum over pairs, with coefficients that are not negative -/
theorem crps1_pairs (path : Path) {est : String} (he : est ∈ Spec.estimators) (hM : M ≠ 0)
    (h2 : est = "fair" ∨ est = "pwm" → 2 ≤ M) :
    ∃ A : Fin M → Fin M → ℝ, (∀ i j, 0 ≤ A i j) ∧ (∀ i, ∑ j, (A i j + A j i) = 1 / (M:ℝ)) ∧
      ∀ sorted (y : ℝ) x, SortOK sorted (List.ofFn x) →
      crps1 path est sorted "propagate" (fin y) ((List.ofFn x).map fin) none = .ok (fin (pairSum A y x)) := by
  have hx : ∀ x : Fin M → ℝ, List.ofFn x ≠ [] := fun x => by simpa using hM
  have hx' : ∀ x : Fin M → ℝ, (List.ofFn x).map fin ≠ [] := fun x => by simpa using hM
  have n1 : (0:ℝ) ≤ 1 / (M:ℝ) * (1 / (M:ℝ)) / 2 := by positivity
  have nf : 2 ≤ M → ∀ i j : Fin M, (0:ℝ) ≤ if i = j then 0 else 1 / (2 * (M * ((M:ℝ) - 1))) := fun h i j => by
    have : (2:ℝ) ≤ M := by exact_mod_cast h
    have : 0 ≤ (M:ℝ) - 1 := by linarith
    split_ifs <;> positivity
  have nc : ∀ g : Fin M → Fin M, ∀ i j : Fin M, (0:ℝ) ≤ if j = g i then 1 / (2 * (M:ℝ)) else 0 := fun g i j => by
    split_ifs <;> positivity
  have r1 := rows_w (M := M) (w := fun _ => 1 / (M:ℝ)) (by
    have hM0 : (M:ℝ) ≠ 0 := by exact_mod_cast hM
    simp [hM0])
  simp only [Spec.estimators, List.mem_cons, List.not_mem_nil, or_false] at he
  rcases he with rfl | rfl | rfl | rfl | rfl | rfl | rfl
  · exact ⟨_, fun _ _ => n1, r1, fun s y x hs => by rw [crps1_nrg path s y (hx x), energy_ks, uw_eqW, pair_ks hM]⟩
  · have h3 := h2 (Or.inl rfl)
    exact ⟨_, nf h3, rows_fair h3, fun s y x hs => by rw [crps1_fair path s y (by simpa using h3), fairCrps_ks, pair_ksFair h3]⟩
  · have h3 := h2 (Or.inr rfl)
    exact ⟨_, nf h3, rows_fair h3, fun s y x hs => by rw [crps1_pwm path y (by simpa using h3) hs, fairCrps_ks, pair_ksFair h3]⟩
  · exact ⟨_, fun _ _ => n1, r1, fun s y x hs => by rw [crps1_qd path y (hx x) hs, energy_ks, uw_eqW, pair_ks hM]⟩
  · exact ⟨_, fun _ _ => n1, r1, fun s y x hs => by rw [crps1_int path y (hx x) hs, energy_ks, uw_eqW, pair_ks hM]⟩
  · exact ⟨_, nc prevF, rows_circ hM prevF_inj, fun s y x hs => by
      rw [crps1_akr path s _ _ (hx' x), Gufunc.akr_fin y _ (hx x),
        crps_circ prevF (h := prevI (List.ofFn x).length) (fun i => by simp [prevF]), pair_ksCirc hM prevF_inj]⟩
  · exact ⟨_, nc sigmaF, rows_circ hM sigmaF_inj, fun s y x hs => by
      rw [crps1_akrCircperm path s _ _ (hx' x), Gufunc.akrCircperm_fin y _ (hx x),
        crps_circ sigmaF (h := Gufunc.sigma (List.ofFn x).length) (fun i => by simp [sigmaF]), pair_ksCirc hM sigmaF_inj]⟩

/-- the weighted estimators `nrg`, `qd` and `int` -/
theorem crps1W_pairs_eq (path : Path) {est : String} (he : est = "nrg" ∨ est = "qd" ∨ est = "int") {w : Fin M → ℝ}
    (hw : ∀ i, 0 ≤ w i) (ht : 0 < ∑ i, w i) (s : Bool) (y : ℝ) (x : Fin M → ℝ) (hs : SortOK s (List.ofFn x)) :
    crps1 path est s "propagate" (fin y) ((List.ofFn x).map fin) (some ((List.ofFn w).map fin))
      = .ok (fin (pairSum (fun i j => w i / (∑ i, w i) * (w j / ∑ i, w i) / 2) y x)) := by
  have tot : wtot (List.ofFn fun i => (x i, w i)) = ∑ i, w i := by
    unfold wtot
    rw [sum_ofFn_map]
  have e1 : (List.ofFn x).map fin = Xs (List.ofFn fun i => (x i, w i)) := by
    simp only [Xs, List.map_ofFn]; rfl
  have e2 : (List.ofFn w).map fin = Ws (List.ofFn fun i => (x i, w i)) := by
    simp only [Ws, List.map_ofFn]; rfl
  have e3 : norml (List.ofFn fun i => (x i, w i)) = List.ofFn fun i => (x i, w i / ∑ i, w i) := by
    unfold norml
    rw [tot, List.map_ofFn]; rfl
  have hw' : ∀ p ∈ List.ofFn fun i => (x i, w i), 0 ≤ p.2 := by
    intro p hp
    obtain ⟨i, rfl⟩ := List.mem_ofFn.1 hp
    exact hw i
  have ht' : wtot (List.ofFn fun i => (x i, w i)) ≠ 0 := by rw [tot]; exact ht.ne'
  have hs' : SortOKW s (List.ofFn fun i => (x i, w i)) := by
    intro h
    have := hs h
    unfold SortedP
    rw [List.pairwise_ofFn] at this ⊢
    exact this
  rw [← pair_ksW (fun i => w i / ∑ i, w i) (by rw [← Finset.sum_div, div_self ht.ne']), e1, e2, ← e3, ← energy_ks]
  rcases he with rfl | rfl | rfl
  · exact crps1W_nrg path s y hw' ht'
  · exact crps1W_qd path y hw' ht' hs'
  · exact crps1W_int path y hw' ht' hs'

theorem crps1W_pairs (path : Path) {est : String} (he : est = "nrg" ∨ est = "qd" ∨ est = "int") {w : Fin M → ℝ}
    (hw : ∀ i, 0 ≤ w i) (ht : 0 < ∑ i, w i) :
    ∃ A : Fin M → Fin M → ℝ, (∀ i j, 0 ≤ A i j) ∧ (∀ i, ∑ j, (A i j + A j i) = w i / ∑ i, w i) ∧
      ∀ sorted (y : ℝ) x, SortOK sorted (List.ofFn x) →
      crps1 path est sorted "propagate" (fin y) ((List.ofFn x).map fin) (some ((List.ofFn w).map fin))
        = .ok (fin (pairSum A y x)) := by
  refine ⟨fun i j => w i / (∑ i, w i) * (w j / ∑ i, w i) / 2, fun i j => ?_,
    rows_w (w := fun i => w i / ∑ i, w i) (by rw [← Finset.sum_div, div_self ht.ne']),
    fun s y x hs => crps1W_pairs_eq path he hw ht s y x hs⟩
  have := hw i; have := hw j; positivity

/-- every estimator of the energy score -/
theorem es1_pairs {D : ℕ} (path : Path) {est : String} (he : est ∈ Spec.esEstimators) (hM : M ≠ 0)
    (h2 : est = "fair" → 2 ≤ M) :
    ∃ A : Fin M → Fin M → ℝ, (∀ i j, 0 ≤ A i j) ∧ (∀ i, ∑ j, (A i j + A j i) = 1 / (M:ℝ)) ∧
      ∀ (y : Eu D) x, es1 path est D (vec y) ((List.ofFn x).map vec) none = .ok (fin (pairSum A y x)) := by
  have hx : ∀ x : Fin M → Eu D, List.ofFn x ≠ [] := fun x => by simpa using hM
  have n1 : (0:ℝ) ≤ 1 / (M:ℝ) * (1 / (M:ℝ)) / 2 := by positivity
  have nf : 2 ≤ M → ∀ i j : Fin M, (0:ℝ) ≤ if i = j then 0 else 1 / (2 * (M * ((M:ℝ) - 1))) := fun h i j => by
    have : (2:ℝ) ≤ M := by exact_mod_cast h
    have : 0 ≤ (M:ℝ) - 1 := by linarith
    split_ifs <;> positivity
  have nc : ∀ g : Fin M → Fin M, ∀ i j : Fin M, (0:ℝ) ≤ if j = g i then 1 / (2 * (M:ℝ)) else 0 := fun g i j => by
    split_ifs <;> positivity
  have r1 := rows_w (M := M) (w := fun _ => 1 / (M:ℝ)) (by
    have hM0 : (M:ℝ) ≠ 0 := by exact_mod_cast hM
    simp [hM0])
  simp only [Spec.esEstimators, List.mem_cons, List.not_mem_nil, or_false] at he
  rcases he with rfl | rfl | rfl | rfl
  · exact ⟨_, fun _ _ => n1, r1, fun y x => by rw [← pair_ks hM, es1_nrg path y (hx x), es_ks]; rfl⟩
  · exact ⟨_, nf (h2 rfl), rows_fair (h2 rfl), fun y x => by
      rw [← pair_ksFair (h2 rfl), es1_fair path y (by simpa using h2 rfl), esFair_ks]⟩
  · exact ⟨_, nc prevF, rows_circ hM prevF_inj, fun y x => by rw [← pair_ksCirc hM prevF_inj, es1_akr_value path hM y x]⟩
  · exact ⟨_, nc halfF, rows_circ hM halfF_inj, fun y x => by
      rw [← pair_ksCirc hM halfF_inj, es1_akrCircperm_value path hM y x]⟩

end Verif
