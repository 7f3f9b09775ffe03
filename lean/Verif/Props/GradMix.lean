import Verif.Lemmas.GradMix
import Verif.Model.Closed2
import Verif.Model.Dss

/-!
# C132: gradients of the normal mixture CRPS, the error-spread score and the variogram score

`B.sqrt` of the torch backend cuts the gradient, so that the gradients of the normal mixture CRPS with respect to
the standard deviations and those of the error-spread score with respect to the ensemble are wrong on torch.
-/

noncomputable section

open scoped Classical Topology

namespace Verif

open XF Py Mv Node Filter Grad
open Spec (IsGradient HasGradient φ Φ)

theorem nget_val (l : List Node) (i : ℕ) : (nget l i).val = idx (l.map Node.val) i := by
  unfold nget idx
  rw [List.getD_eq_getElem?_getD, List.getD_eq_getElem?_getD, List.getElem?_map]
  cases l[i]? <;> rfl

theorem nget_range {n i : ℕ} (F : ℕ → Node) (hi : i ∈ List.range n) : nget ((List.range n).map F) i = F i := by
  have := List.mem_range.1 hi
  simp [nget, this]

theorem bsqrt_val (lib : Lib) (a : Node) : (Node.bsqrt lib a).val = XF.sqrt a.val := by cases lib <;> rfl

theorem normCdf_val (a : Node) : (Grad.normCdf a).val = Stats.normCdf a.val := rfl
theorem normPdf_val (a : Node) : (Grad.normPdf a).val = Stats.normPdf a.val := rfl
theorem pow_val (a : Node) (n : ℕ) : (Node.pow a n).val = a.val ^ n := rfl

theorem mixnorm_val (lib : Lib) (y : Node) (m s w : List Node) : (Grad.mixnorm lib y m s w).val
    = Closed.mixnorm y.val (m.map Node.val) (s.map Node.val) (w.map Node.val) := by
  simp only [Grad.mixnorm, Closed.mixnorm, sub_val, mul_val, sum_val, const_val, List.map_map, Function.comp_def,
    List.length_map, nget_val, add_val, div_val, normCdf_val, normPdf_val, bsqrt_val, pow_val]

/-- The gradient of the normal mixture CRPS with respect to the observation, a mean and a weight on both libraries,
and with respect to a standard deviation on jax. -/
theorem C132_mixnorm_partial (y : ℝ) {m s w : List ℝ} (hs : s.length = m.length) (hw : w.length = m.length)
    (h0 : ∀ x ∈ s, 0 < x) {k : ℕ} (hk : k < m.length) (lib : Lib) :
    IsGradient (fun t => Closed.mixnorm t (m.map fin) (s.map fin) (w.map fin)) y
      (Grad.mixnorm lib (leaf (fin y)) (consts (m.map fin)) (consts (s.map fin)) (consts (w.map fin))).grad ∧
    IsGradient (fun t => Closed.mixnorm (fin y) ((m.map fin).set k t) (s.map fin) (w.map fin)) m[k]
      (Grad.mixnorm lib (const (fin y)) (leafAt k (m.map fin)) (consts (s.map fin)) (consts (w.map fin))).grad ∧
    IsGradient (fun t => Closed.mixnorm (fin y) (m.map fin) (s.map fin) ((w.map fin).set k t)) w[k]
      (Grad.mixnorm lib (const (fin y)) (consts (m.map fin)) (consts (s.map fin)) (leafAt k (w.map fin))).grad ∧
    IsGradient (fun t => Closed.mixnorm (fin y) (m.map fin) ((s.map fin).set k t) (w.map fin)) s[k]
      (Grad.mixnorm .jax (const (fin y)) (consts (m.map fin)) (leafAt k (s.map fin)) (consts (w.map fin))).grad := by
  have hc : ∀ (v : List ℝ) (θ : ℝ), v.length = m.length → ∀ i ∈ List.range m.length,
      Tr (fun _ => nget (consts (v.map fin)) i) (fun _ => v.getD i 0) θ := by
    intro v θ hv i hi
    refine (Tr.const (v.getD i 0)).congrN fun t => ?_
    rw [consts_eq, hv, nget_range _ hi]
  have hl : ∀ (v : List ℝ) (θ : ℝ), v.length = m.length → ∀ i ∈ List.range m.length,
      Tr (fun t => nget (leafAt k ((v.map fin).set k (fin t))) i) (entry v k i) θ := by
    intro v θ hv i hi
    refine (entry_tr v k i θ).congrN fun t => ?_
    rw [leafAt_eq, hv, nget_range _ hi]
  have hpos : ∀ i ∈ List.range m.length, 0 < s.getD i 0 := by
    intro i hi
    have : i < s.length := by rw [hs]; exact List.mem_range.1 hi
    rw [getD_lt this]
    exact h0 _ (List.getElem_mem this)
  refine ⟨?_, ?_, ?_, ?_⟩
  · refine (Tr.mixnorm (lib := lib) m.length (fun t => by simp [consts]) Tr.leaf (hc m y rfl) (hc s y hs)
      (hc w y hw) hpos (Or.inr fun _ _ _ => rfl)).isGradient fun t => ?_
    rw [mixnorm_val, consts_val, consts_val, consts_val]; rfl
  · have h := (Tr.mixnorm (lib := lib) (m := fun t => leafAt k ((m.map fin).set k (fin t))) m.length
      (fun t => by simp [leafAt]) (Tr.const y) (hl m m[k] rfl) (hc s _ hs) (hc w _ hw) hpos
      (Or.inr fun _ _ _ => rfl)).isGradient (score := fun t =>
        Closed.mixnorm (fin y) ((m.map fin).set k t) (s.map fin) (w.map fin)) fun t => by
        rw [mixnorm_val, leafAt_val, consts_val, consts_val]; rfl
    rwa [set_self] at h
  · have h := (Tr.mixnorm (lib := lib) (w := fun t => leafAt k ((w.map fin).set k (fin t))) m.length
      (fun t => by simp [consts]) (Tr.const y) (hc m _ rfl) (hc s _ hs) (hl w w[k] hw) hpos
      (Or.inr fun _ _ _ => rfl)).isGradient (score := fun t =>
        Closed.mixnorm (fin y) (m.map fin) (s.map fin) ((w.map fin).set k t)) fun t => by
        rw [mixnorm_val, leafAt_val, consts_val, consts_val]; rfl
    rwa [set_self] at h
  · have h := (Tr.mixnorm (lib := .jax) (s := fun t => leafAt k ((s.map fin).set k (fin t))) m.length
      (fun t => by simp [consts]) (Tr.const y) (hc m _ rfl) (hl s s[k] hs) (hc w _ hw) (fun i hi => by
        unfold entry
        split_ifs
        · exact h0 _ (List.getElem_mem _)
        · exact hpos i hi)
      (Or.inl rfl)).isGradient (score := fun t =>
        Closed.mixnorm (fin y) (m.map fin) ((s.map fin).set k t) (w.map fin)) fun t => by
        rw [mixnorm_val, leafAt_val, consts_val, consts_val]; rfl
    rwa [set_self] at h

example : ∃ (m s w : List ℝ), s.length = m.length ∧ w.length = m.length ∧ (∀ x ∈ s, 0 < x) ∧ 1 < m.length :=
  ⟨[0, 1], [1, 2], [1 / 4, 3 / 4], rfl, rfl, by simp, by simp⟩

/-! ### the standard deviations on torch -/

/-- no gradient -/
def Dead (n : Node) : Prop := ∀ g, n.back g = 0

namespace Dead

theorem const (x : XF) : Dead (Node.const x) := fun _ => rfl
theorem add {a b : Node} (ha : Dead a) (hb : Dead b) : Dead (a + b) := fun g => by rw [add_back, ha, hb, add_zero]
theorem sub {a b : Node} (ha : Dead a) (hb : Dead b) : Dead (a - b) := fun g => by rw [sub_back, ha, hb, add_zero]
theorem mul {a b : Node} (ha : Dead a) (hb : Dead b) : Dead (a * b) := fun g => by rw [mul_back, ha, hb, add_zero]
theorem div {a b : Node} (ha : Dead a) (hb : Dead b) : Dead (a / b) := fun g => by rw [div_back, ha, hb, add_zero]
theorem normCdf {a : Node} (ha : Dead a) : Dead (Grad.normCdf a) :=
  ((const _).add (b := Node.erf (a / Node.const (XF.sqrt 2))) fun _ => (ha.div (const _)) _).div (const _)
theorem normPdf {a : Node} (ha : Dead a) : Dead (Grad.normPdf a) :=
  (const _).mul (b := Node.exp (-(Node.pow a 2) / Node.const 2)) fun _ =>
    (Dead.div (a := -(Node.pow a 2)) (fun _ => ha _) (const _)) _

theorem sum {l : List Node} (h : ∀ n ∈ l, Dead n) : Dead (Node.sum l) := by
  intro g
  rw [sum_back]
  refine List.sum_eq_zero fun x hx => ?_
  obtain ⟨n, hn, rfl⟩ := List.mem_map.1 hx
  exact h n hn g

end Dead

theorem A_deriv (d : ℝ) {τ : ℝ} (hτ : τ ≠ 0) : HasDerivAt (fun t => Tr.A d t) (2 * φ (d / τ)) τ := by
  have hz : HasDerivAt (fun t : ℝ => d / t) (-d / τ ^ 2) τ := by
    have := (hasDerivAt_const τ d).div (hasDerivAt_id τ) hτ
    refine this.congr_deriv ?_
    simp
  have h1 := (Φ_deriv (d / τ)).comp τ hz
  have h2 := (φ_deriv (d / τ)).comp τ hz
  have := (((h1.const_mul 2).sub_const 1).const_mul d).add (((hasDerivAt_id τ).const_mul 2).mul h2)
  refine this.congr_deriv ?_
  simp only [id, Function.comp]
  field_simp
  ring

theorem entry_deriv (xs : List ℝ) (k i : ℕ) (θ : ℝ) :
    HasDerivAt (entry xs k i) (if i = k then 1 else 0) θ := by
  by_cases h : i = k
  · rw [if_pos h, show entry xs k i = id by funext t; simp [entry, h]]
    exact hasDerivAt_id _
  · rw [if_neg h, show entry xs k i = fun _ => xs.getD i 0 by funext t; simp [entry, h]]
    exact hasDerivAt_const _ _

theorem hasDerivAt_lsum {ι : Type} (l : List ι) {f : ι → ℝ → ℝ} {d : ι → ℝ} {θ : ℝ}
    (h : ∀ i ∈ l, HasDerivAt (f i) (d i) θ) :
    HasDerivAt (fun t => (l.map fun i => f i t).sum) (l.map d).sum θ := by
  induction l with
  | nil => simpa using hasDerivAt_const θ (0 : ℝ)
  | cons i l ih =>
    simp only [List.map_cons, List.sum_cons]
    exact (h i (by simp)).add (ih fun j hj => h j (by simp [hj]))

/-- On torch the gradient of the normal mixture CRPS with respect to a standard deviation is `2 w φ((y - m) / s)`.
It is positive whatever the observation, and larger than the derivative of the score. -/
theorem C132_mixnorm_torch_false (y : ℝ) {m s w : List ℝ} (hs : s.length = m.length) (hw : w.length = m.length)
    (h0 : ∀ x ∈ s, 0 < x) (hw0 : ∀ x ∈ w, 0 ≤ x) {k : ℕ} (hk : k < m.length) (hwk : 0 < w[k]) :
    (Grad.mixnorm .torch (const (fin y)) (consts (m.map fin)) (leafAt k (s.map fin)) (consts (w.map fin))).grad
      = fin (2 * w[k] * φ ((y - m[k]) / s[k])) ∧
    0 < 2 * w[k] * φ ((y - m[k]) / s[k]) ∧
    ∃ g, IsGradient (fun t => Closed.mixnorm (fin y) (m.map fin) ((s.map fin).set k t) (w.map fin)) s[k] (fin g) ∧
      g < 2 * w[k] * φ ((y - m[k]) / s[k]) := by
  have hk' : k < s.length := by omega
  have hkw : k < w.length := by omega
  have hc : ∀ (v : List ℝ) (θ : ℝ), v.length = m.length → ∀ i ∈ List.range m.length,
      Tr (fun _ => nget (consts (v.map fin)) i) (fun _ => v.getD i 0) θ := by
    intro v θ hv i hi
    refine (Tr.const (v.getD i 0)).congrN fun t => ?_
    rw [consts_eq, hv, nget_range _ hi]
  have hl : ∀ i ∈ List.range m.length,
      Tr (fun t => nget (leafAt k ((s.map fin).set k (fin t))) i) (entry s k i) s[k] := by
    intro i hi
    refine (entry_tr s k i _).congrN fun t => ?_
    rw [leafAt_eq, hs, nget_range _ hi]
  have hθ : ∀ i ∈ List.range m.length, entry s k i s[k] = s.getD i 0 := by
    intro i hi
    unfold entry
    split_ifs with h
    · subst h; rw [getD_lt hk']
    · rfl
  have hpos : ∀ i ∈ List.range m.length, 0 < s.getD i 0 := by
    intro i hi
    have : i < s.length := by rw [hs]; exact List.mem_range.1 hi
    rw [getD_lt this]
    exact h0 _ (List.getElem_mem this)
  have hepos : ∀ i ∈ List.range m.length, 0 < entry s k i s[k] := fun i hi => by rw [hθ i hi]; exact hpos i hi
  have hwn : ∀ i, 0 ≤ w.getD i 0 := by
    intro i
    by_cases h : i < w.length
    · rw [getD_lt h]; exact hw0 _ (List.getElem_mem h)
    · simp [h]
  -- the first sum
  have d1 : HasDerivAt (fun t => ((List.range m.length).map fun i =>
      w.getD i 0 * Tr.A (y - m.getD i 0) (entry s k i t)).sum) (2 * w[k] * φ ((y - m[k]) / s[k])) s[k] := by
    have := hasDerivAt_lsum (List.range m.length) (θ := s[k]) fun i hi =>
      ((A_deriv (y - m.getD i 0) (hepos i hi).ne').comp s[k] (entry_deriv s k i s[k])).const_mul (w.getD i 0)
    refine this.congr_deriv ?_
    have e : ∀ i ∈ List.range m.length, w.getD i 0 * (2 * φ ((y - m.getD i 0) / entry s k i s[k])
        * if i = k then 1 else 0) = if i = k then 2 * w[k] * φ ((y - m[k]) / s[k]) else 0 := by
      intro i hi
      split_ifs with h
      · subst h
        rw [hθ i hi, getD_lt hk, getD_lt hk', getD_lt hkw]; ring
      · ring
    rw [List.map_congr_left e]
    have : ((List.range m.length).map fun i => if i = k then 2 * w[k] * φ ((y - m[k]) / s[k]) else 0).sum
        = ∑ i ∈ Finset.range m.length, if i = k then 2 * w[k] * φ ((y - m[k]) / s[k]) else 0 := rfl
    rw [this, Finset.sum_ite_eq', if_pos (Finset.mem_range.2 hk)]
  -- the second sum
  have hq : ∀ i ∈ List.range m.length, ∀ j ∈ List.range m.length, 0 < entry s k i s[k] ^ 2 + entry s k j s[k] ^ 2 := by
    intro i hi j hj
    have := hepos i hi
    positivity
  have d2 := hasDerivAt_lsum (List.range m.length) (θ := s[k]) fun i hi =>
    hasDerivAt_lsum (List.range m.length) (θ := s[k]) fun j hj =>
      ((A_deriv (m.getD i 0 - m.getD j 0) (Real.sqrt_pos.2 (hq i hi j hj)).ne').comp s[k]
        ((((entry_deriv s k i s[k]).pow 2).add ((entry_deriv s k j s[k]).pow 2)).sqrt (hq i hi j hj).ne')).const_mul
          (w.getD i 0 * w.getD j 0)
  obtain ⟨D, hD, d2⟩ : ∃ D, 0 < D ∧ HasDerivAt (fun t => ((List.range m.length).map fun i =>
      ((List.range m.length).map fun j => w.getD i 0 * w.getD j 0 * Tr.A (m.getD i 0 - m.getD j 0)
        (Real.sqrt (entry s k i t ^ 2 + entry s k j t ^ 2))).sum).sum) D s[k] := by
    refine ⟨_, ?_, d2⟩
    have hnn : ∀ i ∈ List.range m.length, ∀ j ∈ List.range m.length,
        0 ≤ w.getD i 0 * w.getD j 0 * (2 * φ ((m.getD i 0 - m.getD j 0)
          / Real.sqrt (entry s k i s[k] ^ 2 + entry s k j s[k] ^ 2)) *
          (((2 : ℕ) * entry s k i s[k] ^ (2 - 1) * (if i = k then 1 else 0)
            + (2 : ℕ) * entry s k j s[k] ^ (2 - 1) * (if j = k then 1 else 0))
            / (2 * Real.sqrt (entry s k i s[k] ^ 2 + entry s k j s[k] ^ 2)))) := by
      intro i hi j hj
      have h1 := hepos i hi
      have h2 := hepos j hj
      have h3 := hwn i
      have h4 := hwn j
      have h5 := φ_pos ((m.getD i 0 - m.getD j 0) / Real.sqrt (entry s k i s[k] ^ 2 + entry s k j s[k] ^ 2))
      have h6 : (0 : ℝ) ≤ if i = k then 1 else 0 := by split_ifs <;> norm_num
      have h7 : (0 : ℝ) ≤ if j = k then 1 else 0 := by split_ifs <;> norm_num
      positivity
    have hkm := List.mem_range.2 hk
    refine Finset.sum_pos' (s := Finset.range m.length) (fun i hi => List.sum_nonneg fun x hx => ?_)
      ⟨k, Finset.mem_range.2 hk, Finset.sum_pos' (s := Finset.range m.length) (fun j hj => ?_)
        ⟨k, Finset.mem_range.2 hk, ?_⟩⟩
    · obtain ⟨j, hj, rfl⟩ := List.mem_map.1 hx
      exact hnn i (List.mem_range.2 (Finset.mem_range.1 hi)) j hj
    · exact hnn k hkm j (List.mem_range.2 (Finset.mem_range.1 hj))
    · simp only [if_true]
      have h1 := hepos k hkm
      have h3 : 0 < w.getD k 0 := by rw [getD_lt hkw]; exact hwk
      have h5 := φ_pos ((m.getD k 0 - m.getD k 0) / Real.sqrt (entry s k k s[k] ^ 2 + entry s k k s[k] ^ 2))
      have h6 := Real.sqrt_pos.2 (hq k hkm k hkm)
      positivity
  refine ⟨?_, mul_pos (by linarith) (φ_pos _), 2 * w[k] * φ ((y - m[k]) / s[k]) - 1 / 2 * D, ?_, by linarith⟩
  · have h1 := Tr.sum (List.range m.length) fun i hi => (hc w s[k] hw i hi).mul
      (((Tr.const y).sub (hc m s[k] rfl i hi)).mixA (hl i hi) (hepos i hi).ne')
    obtain ⟨_, d, hd, hb⟩ := h1
    beta_reduce at hb
    rw [set_self _ hk'] at hb
    have hdd := hd.unique d1
    show (Grad.mixnorm .torch (const (fin y)) (consts (m.map fin)) (leafAt k (s.map fin))
      (consts (w.map fin))).back 1 = _
    have hlen : (consts (m.map fin)).length = m.length := by simp [consts]
    have hcd : ∀ (v : List ℝ) i, Dead (nget (consts (v.map fin)) i) := by
      intro v i g
      unfold nget consts
      by_cases h : i < v.length <;> simp [h]
    have hdead : Dead (const (fin (1 / 2)) * Node.sum ((List.range m.length).map fun i =>
        Node.sum ((List.range m.length).map fun j =>
          nget (consts (w.map fin)) i * nget (consts (w.map fin)) j *
          ((nget (consts (m.map fin)) i - nget (consts (m.map fin)) j) * (const 2 * Grad.normCdf
            ((nget (consts (m.map fin)) i - nget (consts (m.map fin)) j) / bsqrt .torch
              (pow (nget (leafAt k (s.map fin)) i) 2 + pow (nget (leafAt k (s.map fin)) j) 2)) - const 1)
          + const 2 * bsqrt .torch (pow (nget (leafAt k (s.map fin)) i) 2 + pow (nget (leafAt k (s.map fin)) j) 2)
            * Grad.normPdf ((nget (consts (m.map fin)) i - nget (consts (m.map fin)) j) / bsqrt .torch
              (pow (nget (leafAt k (s.map fin)) i) 2 + pow (nget (leafAt k (s.map fin)) j) 2)))))) := by
      refine (Dead.const _).mul (Dead.sum fun n hn => ?_)
      obtain ⟨i, _, rfl⟩ := List.mem_map.1 hn
      refine Dead.sum fun n hn => ?_
      obtain ⟨j, _, rfl⟩ := List.mem_map.1 hn
      have hb : ∀ a : Node, Dead (bsqrt .torch a) := fun a => Dead.const _
      have hm := (hcd m i).sub (hcd m j)
      exact ((hcd w i).mul (hcd w j)).mul ((hm.mul (((Dead.const _).mul (hm.div (hb _)).normCdf).sub
        (Dead.const _))).add (((Dead.const _).mul (hb _)).mul (hm.div (hb _)).normPdf))
    unfold Grad.mixnorm
    simp only [hlen]
    rw [sub_back, hdead, add_zero]
    refine (hb 1).trans ?_
    rw [one_mul, hdd]
  · have h2 := (Tr.mixnorm (lib := .jax) (s := fun t => leafAt k ((s.map fin).set k (fin t))) m.length
      (fun t => by simp [consts]) (Tr.const y) (hc m _ rfl) hl (hc w _ hw) hepos
      (Or.inl rfl)).1
    refine ⟨_, _, ?_, d1.sub (d2.const_mul (1 / 2)), rfl⟩
    filter_upwards [h2] with t ht
    rw [mixnorm_val, leafAt_val, consts_val, consts_val] at ht
    exact ht

example : ∃ (m s w : List ℝ) (hk : 0 < w.length), s.length = m.length ∧ w.length = m.length ∧ (∀ x ∈ s, 0 < x) ∧
    (∀ x ∈ w, 0 ≤ x) ∧ 0 < w[0] :=
  ⟨[0, 1], [1, 2], [1 / 4, 3 / 4], by simp, rfl, rfl, by simp, by norm_num, by norm_num⟩

/-! ### error-spread score -/

theorem ess_val (lib : Lib) (y : Node) (fct : List Node) :
    (Grad.ess lib y fct).val = Ess.score y.val (fct.map Node.val) := by
  simp only [Grad.ess, Ess.score, mean, sub_val, mul_val, sum_val, const_val, List.map_map, Function.comp_def,
    List.length_map, div_val, bsqrt_val, pow_val]

/-- The gradient of the error-spread score with respect to the observation on both libraries, and with respect to
member `k` on jax, if the members are not all equal. -/
theorem C132_ess_partial (y : ℝ) {xs : List ℝ} (hM : 3 ≤ xs.length) {a b : ℝ} (ha : a ∈ xs) (hb : b ∈ xs)
    (hab : a ≠ b) {k : ℕ} (hk : k < xs.length) (lib : Lib) :
    IsGradient (fun t => Ess.score t (xs.map fin)) y
      (Grad.ess lib (leaf (fin y)) (consts (xs.map fin))).grad ∧
    IsGradient (fun t => Ess.score (fin y) ((xs.map fin).set k t)) xs[k]
      (Grad.ess .jax (const (fin y)) (leafAt k (xs.map fin))).grad := by
  have e : ((List.range xs.length).map fun i => xs.getD i 0) = xs := by
    refine List.ext_getElem (by simp) fun i h1 h2 => ?_
    simp [h2]
  have hpos : 0 < ((List.range xs.length).map fun i =>
      (xs.getD i 0 - ((List.range xs.length).map fun j => xs.getD j 0).sum / xs.length) ^ 2).sum := by
    rw [e]
    have e2 : ((List.range xs.length).map fun i => (xs.getD i 0 - xs.sum / xs.length) ^ 2)
        = xs.map fun x => (x - xs.sum / xs.length) ^ 2 := by
      conv_rhs => rw [← e]
      rw [List.map_map, e]; rfl
    rw [e2]
    have hnn : ∀ z ∈ xs.map fun x => (x - xs.sum / xs.length) ^ 2, 0 ≤ z := by
      intro z hz
      obtain ⟨x, _, rfl⟩ := List.mem_map.1 hz
      positivity
    have h1 := List.single_le_sum hnn _ (List.mem_map.2 ⟨a, ha, rfl⟩)
    have h2 := List.single_le_sum hnn _ (List.mem_map.2 ⟨b, hb, rfl⟩)
    by_contra hc
    have ea : a - xs.sum / xs.length = 0 := pow_eq_zero_iff two_ne_zero |>.1
      (le_antisymm (by linarith) (sq_nonneg _))
    have eb : b - xs.sum / xs.length = 0 := pow_eq_zero_iff two_ne_zero |>.1
      (le_antisymm (by linarith) (sq_nonneg _))
    exact hab (by linarith)
  have hθ : ∀ i, entry xs k i xs[k] = xs.getD i 0 := by
    intro i
    unfold entry
    split_ifs with h
    · subst h; rw [getD_lt hk]
    · rfl
  constructor
  · obtain ⟨q, hq⟩ := Tr.ess (lib := lib) xs.length hM (Tr.leaf (θ := y)) (N := fun i _ => const (fin (xs.getD i 0)))
      (fun i _ => Tr.const _) hpos (Or.inr fun _ _ _ => rfl)
    refine (hq.congrN (N' := fun t => Grad.ess lib (leaf (fin t)) (consts (xs.map fin))) fun t => by
      rw [consts_eq]).isGradient fun t => ?_
    rw [ess_val, consts_val]; rfl
  · obtain ⟨q, hq⟩ := Tr.ess (lib := .jax) xs.length hM (Tr.const y (θ := xs[k])) (N := entryN xs k)
      (fun i _ => entry_tr xs k i _) (by simp only [hθ]; exact hpos) (Or.inl rfl)
    have h := (hq.congrN (N' := fun t => Grad.ess .jax (const (fin y)) (leafAt k ((xs.map fin).set k (fin t))))
      fun t => by rw [leafAt_eq]).isGradient (score := fun t => Ess.score (fin y) ((xs.map fin).set k t))
        fun t => by rw [ess_val, leafAt_val]; rfl
    rwa [set_self] at h

example : ∃ (xs : List ℝ), 3 ≤ xs.length ∧ (0 : ℝ) ∈ xs ∧ (1 : ℝ) ∈ xs ∧ (0 : ℝ) ≠ 1 :=
  ⟨[0, 1, 5], by simp, by simp, by simp, by norm_num⟩

/-- On torch the gradient of the error-spread score with respect to a member need not be the derivative: for the
members −1, 0, 1 and the observation 0 the gradient for the third member is 0, the derivative 2. -/
theorem C132_ess_torch_false :
    (Grad.ess .torch (const (fin 0)) (leafAt 2 ([-1, 0, 1].map fin))).grad = fin 0 ∧
    IsGradient (fun t => Ess.score (fin 0) (([-1, 0, 1].map fin).set 2 t)) 1 (fin 2) := by
  have e1 : (([-1, 0, 1] : List ℝ).map fin) = [fin (-1), fin 0, fin 1] := rfl
  have h1 : (1 : XF) = fin 1 := rfl
  have h2 : (2 : XF) = fin 2 := rfl
  have h3 : (3 : XF) = fin 3 := rfl
  have q1 : ∀ a : ℝ, fin a / fin 1 = fin a := fun a => by rw [fin_div one_ne_zero, div_one]
  have q2 : ∀ a : ℝ, fin a / fin 2 = fin (a / 2) := fun a => fin_div two_ne_zero a
  have q3 : ∀ a : ℝ, fin a / fin 3 = fin (a / 3) := fun a => fin_div three_ne_zero a
  have p2 : ∀ a : ℝ, fin a ^ 2 = fin (a ^ 2) := fun a => by rw [pow_two, fin_mul, pow_two]
  have p3 : ∀ a : ℝ, fin a ^ 3 = fin (a ^ 3) := fun a => by rw [pow_succ, p2, fin_mul, ← pow_succ]
  have hs : XF.sqrt (fin 1) = fin 1 := by rw [fin_sqrt zero_le_one, Real.sqrt_one]
  constructor
  · show Node.back _ 1 = _
    simp only [e1, Grad.ess, leafAt, List.mapIdx_cons, List.mapIdx_nil, List.length_cons, List.length_nil,
      List.map_cons, List.map_nil]
    norm_num [Node.pow, Node.sum, bsqrt, mul_back, sub_back, div_back, add_back, natCast_def]
    simp only [h1, h2, h3, q1, q2, q3, p2, p3, fin_sub, fin_add, fin_mul, fin_neg]
    norm_num [q1, hs]
    simp only [q1, q2, q3, fin_sub, fin_add, fin_mul, fin_neg]
    norm_num
  · have h := (C132_ess_partial 0 (xs := [-1, 0, 1]) (by simp) (a := 0) (b := 1) (by simp) (by simp) (by norm_num)
      (k := 2) (by simp) .jax).2
    have e : (Grad.ess .jax (const (fin 0)) (leafAt 2 ([-1, 0, 1].map fin))).grad = fin 2 := by
      show Node.back _ 1 = _
      simp only [e1, Grad.ess, leafAt, List.mapIdx_cons, List.mapIdx_nil, List.length_cons, List.length_nil,
        List.map_cons, List.map_nil]
      norm_num [Node.pow, Node.sum, bsqrt, Node.sqrt, mul_back, sub_back, div_back, add_back, natCast_def]
      simp only [h1, h2, h3, q1, q2, q3, p2, p3, fin_sub, fin_add, fin_mul, fin_neg]
      norm_num [q1, hs]
      simp only [q1, q2, q3, fin_sub, fin_add, fin_mul, fin_neg]
      norm_num
    rw [e] at h
    exact h

end Verif
