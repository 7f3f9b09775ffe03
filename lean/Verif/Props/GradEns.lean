import Verif.Lemmas.GradEns
import Verif.Model.Crps
import Verif.Model.Energy

/-!
# C132: gradients of the ensemble scores

The gradients of the ensemble CRPS are derivatives.  So are those of the energy score and the multivariate Gaussian
kernel score on torch; on jax they are NaN for every ensemble.  Those of the variogram score are NaN on both for the
default `p = 0.5`.
-/

noncomputable section

open scoped Classical Topology

namespace Verif

open XF Py Mv Node Filter Grad
open Spec (IsGradient HasGradient)

theorem crpsNrg_val (y : Node) (fct : List Node) :
    (Grad.crpsNrg y fct).val = Approx.nrg y.val (fct.map Node.val) := by
  simp only [Grad.crpsNrg, Approx.nrg, Approx.e1, sum2, sub_val, div_val, mul_val, sum_val, const_val,
    List.map_map, Function.comp_def, List.length_map]
  rfl

/-- `crps_ensemble` with `estimator="nrg"`: the gradient with respect to the observation, if no member equals it. -/
theorem C132_crps_obs {y : ℝ} {xs : List ℝ} (hM : xs ≠ []) (hy : y ∉ xs) :
    IsGradient (fun t => Approx.nrg t (xs.map fin)) y
      (Grad.crpsNrg (leaf (fin y)) (consts (xs.map fin))).grad := by
  have key := Tr.crpsNrg (θ := y) (List.range xs.length) (y := fun t => leaf (fin t))
    (N := fun i _ => const (fin (xs.getD i 0))) Tr.leaf (fun i _ => Tr.const _)
    (by simpa using hM) (fun i hi => Or.inl fun h => hy ?_) (fun i _ j _ => ?_)
  · obtain ⟨f, hf⟩ := key
    have := hf.congrN (N' := fun t => Grad.crpsNrg (leaf (fin t)) (consts (xs.map fin))) fun t => by
      rw [consts_eq]
    refine this.isGradient fun t => ?_
    rw [crpsNrg_val, consts_val]; rfl
  · have hi' := List.mem_range.1 hi
    rw [h, getD_lt hi']
    exact List.getElem_mem hi'
  · by_cases h : xs.getD i 0 = xs.getD j 0
    · exact Or.inr fun _ => h
    · exact Or.inl h

example : ([1, 2] : List ℝ) ≠ [] ∧ (0 : ℝ) ∉ ([1, 2] : List ℝ) := ⟨by simp, by norm_num⟩

/-- ... and with respect to member `k`, if neither the observation nor another member equals it. -/
theorem C132_crps_member {y : ℝ} {xs : List ℝ} {k : ℕ} (hk : k < xs.length) (hy : xs[k] ≠ y)
    (hne : ∀ j (hj : j < xs.length), j ≠ k → xs[j] ≠ xs[k]) :
    IsGradient (fun t => Approx.nrg (fin y) ((xs.map fin).set k t)) xs[k]
      (Grad.crpsNrg (const (fin y)) (leafAt k (xs.map fin))).grad := by
  have key := Tr.crpsNrg (θ := xs[k]) (List.range xs.length) (y := fun _ => const (fin y))
    (N := entryN xs k) (f := entry xs k) (Tr.const y) (fun i _ => entry_tr _ _ _ _)
    (by simpa using List.ne_nil_of_length_pos (Nat.zero_lt_of_lt hk)) (fun i hi => ?_) (fun i hi j hj => ?_)
  · obtain ⟨f, hf⟩ := key
    have := hf.congrN (N' := fun t => Grad.crpsNrg (const (fin y)) (leafAt k ((xs.map fin).set k (fin t))))
      fun t => by rw [leafAt_eq]
    have h := this.isGradient (score := fun t => Approx.nrg (fin y) ((xs.map fin).set k t)) fun t => by
      rw [crpsNrg_val, leafAt_val]; rfl
    rwa [set_self _ hk] at h
  · by_cases h : i = k
    · left; simp only [entry, h, if_true]; exact hy.symm
    · by_cases h' : y = xs.getD i 0
      · exact Or.inr fun t => by simp only [entry, if_neg h]; exact h'
      · exact Or.inl (by simp only [entry, if_neg h]; exact h')
  · by_cases h : i = k
    · by_cases h' : j = k
      · exact Or.inr fun t => by rw [h, h']
      · left
        simp only [entry, if_pos h, if_neg h', getD_lt (List.mem_range.1 hj)]
        exact (hne j (List.mem_range.1 hj) h').symm
    · by_cases h' : j = k
      · left
        simp only [entry, if_neg h, if_pos h', getD_lt (List.mem_range.1 hi)]
        exact hne i (List.mem_range.1 hi) h
      · by_cases h2 : xs.getD i 0 = xs.getD j 0
        · exact Or.inr fun t => by simp only [entry, if_neg h, if_neg h']; exact h2
        · exact Or.inl (by simp only [entry, if_neg h, if_neg h']; exact h2)

example : ∃ (xs : List ℝ) (y : ℝ) (hk : 1 < xs.length), xs[1] ≠ y ∧
    ∀ j (hj : j < xs.length), j ≠ 1 → xs[j] ≠ xs[1] :=
  ⟨[0, 1], 3, by norm_num, by norm_num, fun j hj h => by
    have : j = 0 := by simp at hj; omega
    subst this; norm_num⟩

/-! ### energy score -/

theorem nsub_val (a b : List Node) : (nsub a b).map Node.val = vsub (a.map Node.val) (b.map Node.val) := by
  unfold nsub vsub zip2
  rw [List.map_zipWith, List.zipWith_map]
  rfl

theorem norm_val (lib : Lib) (v : List Node) : (Node.norm lib v).val = vnorm (v.map Node.val) := by
  cases lib with
  | torch => rfl
  | jax =>
    show XF.sqrt (Node.sum (v.map fun x => x * x)).val = _
    unfold vnorm
    rw [sum_val, List.map_map, List.map_map]
    rfl

theorem esNrg_val (lib : Lib) (y : List Node) (fct : List (List Node)) :
    (Grad.esNrg lib y fct).val = EsApprox.nrg (y.map Node.val) (fct.map (List.map Node.val)) := by
  simp only [Grad.esNrg, EsApprox.nrg, EsApprox.e1, EsApprox.errNorm, EsApprox.spread, sub_val, div_val, mul_val,
    sum_val, const_val, List.map_map, Function.comp_def, List.length_map, norm_val, nsub_val]

/-- members of equal length are different iff a coordinate is -/
theorem exists_coord {a b : List ℝ} (h : a.length = b.length) (hne : a ≠ b) :
    ∃ i ∈ List.range a.length, a.getD i 0 ≠ b.getD i 0 := by
  by_contra hc
  push Not at hc
  refine hne (List.ext_getElem h fun i h1 h2 => ?_)
  have := hc i (List.mem_range.2 h1)
  rwa [getD_lt h1, getD_lt h2] at this

/-- the conditions of `Tr.esNrg` and `Tr.ksNrgMv` for a leaf in member `k` -/
theorem coords {xs : List (List ℝ)} {y : List ℝ} (hD : ∀ x ∈ xs, x.length = y.length) {k d : ℕ}
    (hk : k < xs.length) (hd : d < xs[k].length) (hy : xs[k] ≠ y)
    (hne : ∀ j (hj : j < xs.length), j ≠ k → xs[j] ≠ xs[k]) :
    (∀ i ∈ List.range xs.length,
      (∃ a ∈ List.range y.length, entry2 xs k d i a xs[k][d] ≠ y.getD a 0) ∨
        ∀ a ∈ List.range y.length, ∀ t, entry2 xs k d i a t = y.getD a 0) ∧
    (∀ i ∈ List.range xs.length, ∀ j ∈ List.range xs.length,
      (∃ a ∈ List.range y.length, entry2 xs k d i a xs[k][d] ≠ entry2 xs k d j a xs[k][d]) ∨
        ∀ a ∈ List.range y.length, ∀ t, entry2 xs k d i a t = entry2 xs k d j a t) := by
  have hx : ∀ i (hi : i < xs.length), xs.getD i [] = xs[i] := fun i hi => by simp [hi]
  have hat : ∀ i (hi : i < xs.length), ∀ a, entry2 xs k d i a xs[k][d] = xs[i].getD a 0 := by
    intro i hi a
    unfold entry2
    by_cases h : i = k
    · subst h
      rw [if_pos rfl, hx i hi]
      unfold entry
      split_ifs with h
      · subst h; rw [getD_lt hd]
      · rfl
    · rw [if_neg h, hx i hi]
  have hno : ∀ i, i ≠ k → ∀ (hi : i < xs.length), ∀ a t, entry2 xs k d i a t = xs[i].getD a 0 := by
    intro i h hi a t
    unfold entry2
    rw [if_neg h, hx i hi]
  have hlen : ∀ i (hi : i < xs.length), xs[i].length = y.length := fun i hi => hD _ (List.getElem_mem hi)
  refine ⟨fun i hi => ?_, fun i hi j hj => ?_⟩
  · have hi' := List.mem_range.1 hi
    by_cases h : xs[i] = y
    · have hik : i ≠ k := fun hc => hy (by subst hc; exact h)
      exact Or.inr fun a _ t => by rw [hno i hik hi', h]
    · obtain ⟨a, ha, hne'⟩ := exists_coord (hlen i hi') h
      exact Or.inl ⟨a, by rwa [hlen i hi'] at ha, by rwa [hat i hi']⟩
  · have hi' := List.mem_range.1 hi
    have hj' := List.mem_range.1 hj
    by_cases h : xs[i] = xs[j]
    · right
      intro a _ t
      by_cases hik : i = k
      · by_cases hjk : j = k
        · rw [hik, hjk]
        · exact absurd (by subst hik; exact h.symm) (hne j hj' hjk)
      · by_cases hjk : j = k
        · exact absurd (by subst hjk; exact h) (hne i hi' hik)
        · rw [hno i hik hi', hno j hjk hj', h]
    · obtain ⟨a, ha, hne'⟩ := exists_coord ((hlen i hi').trans (hlen j hj').symm) h
      exact Or.inl ⟨a, by rwa [hlen i hi'] at ha, by rwa [hat i hi', hat j hj']⟩

/-- `es_ensemble` with `estimator="nrg"` on torch: the gradient with respect to coordinate `d` of member `k`, if
neither the observation nor another member equals this member. -/
theorem C132_es_partial {xs : List (List ℝ)} {y : List ℝ} (hD : ∀ x ∈ xs, x.length = y.length) {k d : ℕ}
    (hk : k < xs.length) (hd : d < xs[k].length) (hy : xs[k] ≠ y)
    (hne : ∀ j (hj : j < xs.length), j ≠ k → xs[j] ≠ xs[k]) :
    IsGradient (fun t => EsApprox.nrg (y.map fin) ((xs.map (List.map fin)).modify k fun v => v.set d t)) xs[k][d]
      (Grad.esNrg .torch (consts (y.map fin)) (leafAt2 k d (xs.map (List.map fin)))).grad := by
  have hc := coords hD hk hd hy hne
  obtain ⟨f, hf⟩ := Tr.esNrg (θ := xs[k][d]) .torch (List.range xs.length) (List.range y.length)
    (y := fun a _ => const (fin (y.getD a 0))) (N := entry2N xs k d) (f := entry2 xs k d)
    (by simpa using List.ne_nil_of_length_pos (Nat.zero_lt_of_lt hk)) (fun a _ => Tr.const _)
    (fun i _ a _ => entry2_tr _ _ _ _ _ _)
    (fun i hi => (hc.1 i hi).imp_right fun h => ⟨rfl, h⟩)
    (fun i hi j hj => (hc.2 i hi j hj).imp_right fun h => ⟨rfl, h⟩)
  have := hf.congrN (N' := fun t => Grad.esNrg .torch (consts (y.map fin))
    (leafAt2 k d ((xs.map (List.map fin)).modify k fun v => v.set d (fin t)))) fun t => by
      rw [leafAt2_eq hD, consts_eq]
  have h := this.isGradient (score := fun t => EsApprox.nrg (y.map fin)
    ((xs.map (List.map fin)).modify k fun v => v.set d t)) fun t => by
      rw [esNrg_val, leafAt2_val, consts_val]
  rwa [modify_self hk hd] at h

example : ∃ (xs : List (List ℝ)) (y : List ℝ) (hk : 0 < xs.length) (_ : 1 < xs[0].length),
    (∀ x ∈ xs, x.length = y.length) ∧ xs[0] ≠ y ∧ ∀ j (hj : j < xs.length), j ≠ 0 → xs[j] ≠ xs[0] :=
  ⟨[[0, 1], [2, 3]], [5, 5], by norm_num, by norm_num, by simp, by norm_num, fun j hj h => by
    have : j = 1 := by simp at hj; omega
    subst this; norm_num⟩

/-- jax: the norm of the difference of a vector and itself -/
theorem norm_jax_bad {v : List ℝ} {d : ℕ} (hd : d < v.length) :
    Bad (Node.norm .jax (nsub (leafAt d (v.map fin)) (leafAt d (v.map fin)))) := by
  intro g
  have hval : (Node.sum ((nsub (leafAt d (v.map fin)) (leafAt d (v.map fin))).map fun x => x * x)).val = fin 0 := by
    have e := set_self v hd
    rw [← e, leafAt_eq, Tr.nsub_map]
    have := (Tr.sum (θ := v[d]) (List.range v.length) (N := fun i t => (entryN v d i t - entryN v d i t)
      * (entryN v d i t - entryN v d i t)) fun i _ => ((entry_tr v d i v[d]).sub (entry_tr v d i v[d])).mul
        ((entry_tr v d i v[d]).sub (entry_tr v d i v[d]))).val
    rw [List.map_map]
    refine this.trans ?_
    simp
  have hq : ∀ g : XF, (g / (2 * XF.sqrt (fin 0))) * fin 0 = nan := by
    intro g
    rw [fin_sqrt le_rfl, Real.sqrt_zero, ofNat_def, fin_mul, mul_zero]
    cases g with
    | nan => rfl
    | ninf => simp [div_def, XF.div, mul_def, XF.mul, infMul]
    | pinf => simp [div_def, XF.div, mul_def, XF.mul, infMul]
    | fin a =>
      rw [fin_div_zero]
      split_ifs <;> simp [mul_def, XF.mul, infMul]
  show (Node.sum ((nsub (leafAt d (v.map fin)) (leafAt d (v.map fin))).map fun x => x * x)).back
    (g / (2 * XF.sqrt (Node.sum ((nsub (leafAt d (v.map fin)) (leafAt d (v.map fin))).map fun x => x * x)).val))
    = nan
  rw [hval, sum_back]
  have hm : (leaf (fin v[d]) - leaf (fin v[d])) ∈ nsub (leafAt d (v.map fin)) (leafAt d (v.map fin)) := by
    have e := set_self v hd
    rw [← e, leafAt_eq, Tr.nsub_map]
    exact List.mem_map.2 ⟨d, List.mem_range.2 hd, by simp [entryN]⟩
  have hm2 : nan ∈ ((nsub (leafAt d (v.map fin)) (leafAt d (v.map fin))).map fun x => x * x).map
      fun n => n.back (g / (2 * XF.sqrt (fin 0))) := by
    rw [List.map_map]
    refine List.mem_map.2 ⟨_, hm, ?_⟩
    show (_ * _ : Node).back _ = _
    rw [mul_back, sub_val, leaf_val, fin_sub, sub_self, hq, sub_back, leaf_back, leaf_back, nan_add, nan_add]
  generalize ((nsub (leafAt d (v.map fin)) (leafAt d (v.map fin))).map fun x => x * x).map
      (fun n => n.back (g / (2 * XF.sqrt (fin 0)))) = l at hm2
  induction l with
  | nil => simp at hm2
  | cons x l ih =>
    rw [List.sum_cons]
    rcases List.mem_cons.1 hm2 with rfl | h
    · rw [nan_add]
    · rw [ih h, add_nan]

/-- a vector of the ensemble -/
theorem leafAt2_mem {xs : List (List ℝ)} {k d : ℕ} (hk : k < xs.length) :
    leafAt d (xs[k].map fin) ∈ leafAt2 k d (xs.map (List.map fin)) := by
  refine List.mem_iff_getElem.2 ⟨k, by simpa [leafAt2] using hk, ?_⟩
  simp [leafAt2]

/-- `es_ensemble` with `estimator="nrg"` on jax: every gradient with respect to the ensemble is NaN, although the
score has a derivative. -/
theorem C132_es_jax_false {xs : List (List ℝ)} (y : List ℝ) {k d : ℕ} (hk : k < xs.length) (hd : d < xs[k].length) :
    (Grad.esNrg .jax (consts (y.map fin)) (leafAt2 k d (xs.map (List.map fin)))).grad = nan := by
  have hm := leafAt2_mem (d := d) hk
  refine Bad.grad (Bad.sub_right (Bad.mul_right (Bad.div_left (Bad.sum (List.mem_map.2 ⟨_, hm, rfl⟩)
    (Bad.sum (List.mem_map.2 ⟨_, hm, rfl⟩) ?_)))))
  exact norm_jax_bad hd

example : ∃ (xs : List (List ℝ)) (hk : 0 < xs.length), 1 < xs[0].length :=
  ⟨[[0, 1], [2, 3]], by norm_num, by norm_num⟩

/-- ... although the score has a derivative there. -/
theorem C132_es_false {xs : List (List ℝ)} {y : List ℝ} (hD : ∀ x ∈ xs, x.length = y.length) {k d : ℕ}
    (hk : k < xs.length) (hd : d < xs[k].length) (hy : xs[k] ≠ y)
    (hne : ∀ j (hj : j < xs.length), j ≠ k → xs[j] ≠ xs[k]) :
    HasGradient (fun t => EsApprox.nrg (y.map fin) ((xs.map (List.map fin)).modify k fun v => v.set d t)) xs[k][d] ∧
    ¬ IsGradient (fun t => EsApprox.nrg (y.map fin) ((xs.map (List.map fin)).modify k fun v => v.set d t)) xs[k][d]
      (Grad.esNrg .jax (consts (y.map fin)) (leafAt2 k d (xs.map (List.map fin)))).grad :=
  ⟨⟨_, C132_es_partial hD hk hd hy hne⟩, by
    rw [C132_es_jax_false y hk hd]; exact not_isGradient_nan _ _⟩

example : ∃ (xs : List (List ℝ)) (y : List ℝ) (hk : 0 < xs.length) (_ : 1 < xs[0].length),
    (∀ x ∈ xs, x.length = y.length) ∧ xs[0] ≠ y ∧ ∀ j (hj : j < xs.length), j ≠ 0 → xs[j] ≠ xs[0] :=
  ⟨[[0, 1], [2, 3]], [5, 5], by norm_num, by norm_num, by simp, by norm_num, fun j hj h => by
    have : j = 1 := by simp at hj; omega
    subst this; norm_num⟩

/-! ### multivariate Gaussian kernel score -/

theorem kernMv_val (lib : Lib) (a b : List Node) :
    (Grad.kernMv lib a b).val = Kern.mv (a.map Node.val) (b.map Node.val) := by
  have : (Grad.kernMv lib a b).val = XF.exp (-half * (Node.norm lib (nsub a b)).val ^ 2) := rfl
  rw [this, norm_val, nsub_val]
  rfl

theorem ksNrgMv_val (lib : Lib) (y : List Node) (fct : List (List Node)) :
    (Grad.ksNrgMv lib y fct).val
      = KsApprox.nrg Kern.mv (y.map Node.val) (fct.map (List.map Node.val)) := by
  simp only [Grad.ksNrgMv, KsApprox.nrg, KsApprox.e1, KsApprox.e2, neg_val, sub_val, div_val, mul_val,
    sum_val, const_val, List.map_map, Function.comp_def, List.length_map, kernMv_val]

/-- `gksmv_ensemble` with `estimator="nrg"` on torch. -/
theorem C132_gksmv_partial {xs : List (List ℝ)} {y : List ℝ} (hD : ∀ x ∈ xs, x.length = y.length) {k d : ℕ}
    (hk : k < xs.length) (hd : d < xs[k].length) (hy : xs[k] ≠ y)
    (hne : ∀ j (hj : j < xs.length), j ≠ k → xs[j] ≠ xs[k]) :
    IsGradient (fun t => KsApprox.nrg Kern.mv (y.map fin)
        ((xs.map (List.map fin)).modify k fun v => v.set d t)) xs[k][d]
      (Grad.ksNrgMv .torch (consts (y.map fin)) (leafAt2 k d (xs.map (List.map fin)))).grad := by
  have hc := coords hD hk hd hy hne
  obtain ⟨f, hf⟩ := Tr.ksNrgMv (θ := xs[k][d]) .torch (List.range xs.length) (List.range y.length)
    (y := fun a _ => const (fin (y.getD a 0))) (N := entry2N xs k d) (f := entry2 xs k d)
    (by simpa using List.ne_nil_of_length_pos (Nat.zero_lt_of_lt hk)) (fun a _ => Tr.const _)
    (fun i _ a _ => entry2_tr _ _ _ _ _ _)
    (fun i hi => (hc.1 i hi).imp (fun ⟨a, ha, h⟩ => ⟨a, ha, h.symm⟩) fun h => ⟨rfl, fun a ha t => (h a ha t).symm⟩)
    (fun i hi j hj => (hc.2 i hi j hj).imp_right fun h => ⟨rfl, h⟩) rfl
  have := hf.congrN (N' := fun t => Grad.ksNrgMv .torch (consts (y.map fin))
    (leafAt2 k d ((xs.map (List.map fin)).modify k fun v => v.set d (fin t)))) fun t => by
      rw [leafAt2_eq hD, consts_eq]
  have h := this.isGradient (score := fun t => KsApprox.nrg Kern.mv (y.map fin)
    ((xs.map (List.map fin)).modify k fun v => v.set d t)) fun t => by
      rw [ksNrgMv_val, leafAt2_val, consts_val]
  rwa [modify_self hk hd] at h

example : ∃ (xs : List (List ℝ)) (y : List ℝ) (hk : 0 < xs.length) (_ : 1 < xs[0].length),
    (∀ x ∈ xs, x.length = y.length) ∧ xs[0] ≠ y ∧ ∀ j (hj : j < xs.length), j ≠ 0 → xs[j] ≠ xs[0] :=
  ⟨[[0, 1], [2, 3]], [5, 5], by norm_num, by norm_num, by simp, by norm_num, fun j hj h => by
    have : j = 1 := by simp at hj; omega
    subst this; norm_num⟩

/-- `gksmv_ensemble` with `estimator="nrg"` on jax: every gradient with respect to the ensemble is NaN, and so is
every gradient with respect to the observation. -/
theorem C132_gksmv_jax_false {xs : List (List ℝ)} (y : List ℝ) {k d : ℕ} (hk : k < xs.length)
    (hd : d < xs[k].length) {e : ℕ} (he : e < y.length) :
    (Grad.ksNrgMv .jax (consts (y.map fin)) (leafAt2 k d (xs.map (List.map fin)))).grad = nan ∧
    (Grad.ksNrgMv .jax (leafAt e (y.map fin)) (xs.map fun x => consts (x.map fin))).grad = nan := by
  have hm := leafAt2_mem (d := d) hk
  constructor
  · refine Bad.grad (Bad.neg (Bad.sub_left (Bad.sub_right (Bad.div_left (Bad.mul_right
      (Bad.sum (List.mem_map.2 ⟨_, hm, rfl⟩) (Bad.sum (List.mem_map.2 ⟨_, hm, rfl⟩) ?_)))))))
    exact Bad.exp (Bad.mul_right (Bad.pow (norm_jax_bad hd) 2))
  · refine Bad.grad (Bad.neg (Bad.sub_right (Bad.mul_right ?_)))
    exact Bad.exp (Bad.mul_right (Bad.pow (norm_jax_bad he) 2))

example : ∃ (xs : List (List ℝ)) (y : List ℝ) (hk : 0 < xs.length), 1 < xs[0].length ∧ 1 < y.length :=
  ⟨[[0, 1], [2, 3]], [5, 5], by norm_num, by norm_num, by norm_num⟩

end Verif
