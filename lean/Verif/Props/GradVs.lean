import Verif.Props.GradMix
import Verif.Props.GradEns

/-!
# C132: gradients of the variogram score

For `p < 1`, and so for the default `p = 0.5`, every gradient of the variogram score is NaN.
-/

noncomputable section

open scoped Classical Topology

namespace Verif

open XF Py Mv Node Filter Grad
open Spec (IsGradient HasGradient)

theorem rhoT_val (p : ℝ) (x : List Node) (i j : ℕ) :
    (Grad.rhoT p x i j).val = Mv.rhoT p (x.map Node.val) i j := by
  show XF.rpow (XF.abs ((nget x j).val - (nget x i).val)) p = _
  rw [nget_val, nget_val]; rfl

theorem vsNrg_val (w : List (List XF)) (p : ℝ) (y : List Node) (fct : List (List Node)) :
    (Grad.vsNrg w p y fct).val = VsApprox.nrg w p (y.map Node.val) (fct.map (List.map Node.val)) := by
  simp only [Grad.vsNrg, VsApprox.nrg, dsum, sub_val, mul_val, sum_val, const_val, List.map_map, Function.comp_def,
    List.length_map, div_val, pow_val, rhoT_val]

/-- the variogram score as a function of the entries `|x_j - x_i| ** p` -/
theorem vs_tr {ι : Type} {θ : ℝ} (l : List ι) (hl : l ≠ []) (D : ℕ) {w : List (List XF)}
    (hw : ∀ i ∈ List.range D, ∀ j ∈ List.range D, ∃ r, mget w i j = fin r)
    {Ry : ℕ → ℕ → ℝ → Node} {R : ι → ℕ → ℕ → ℝ → Node}
    (hy : ∀ i ∈ List.range D, ∀ j ∈ List.range D, ∃ q, Tr (Ry i j) q θ)
    (hR : ∀ k ∈ l, ∀ i ∈ List.range D, ∀ j ∈ List.range D, ∃ q, Tr (R k i j) q θ) :
    ∃ q, Tr (fun t => Node.sum ((List.range D).map fun i => Node.sum ((List.range D).map fun j =>
      const (mget w i j) * Node.pow (Ry i j t - Node.sum (l.map fun k => R k i j t) / const (l.length : XF)) 2))) q θ := by
  have hM : (l.length : ℝ) ≠ 0 := by
    have := List.length_pos_of_ne_nil hl
    positivity
  have hc : Tr (θ := θ) (fun _ => Node.const (l.length : XF)) (fun _ => (l.length : ℝ)) :=
    Tr.constx (natCast_def _)
  refine Tr.sum' _ fun i hi => Tr.sum' _ fun j hj => ?_
  obtain ⟨q, hq⟩ := hy i hi j hj
  obtain ⟨q', hq'⟩ := Tr.sum' l fun k hk => hR k hk i hi j hj
  obtain ⟨r, hr⟩ := hw i hi j hj
  exact ⟨_, (Tr.constx hr).mul ((hq.sub (hq'.div hc hM)).pow 2)⟩

/-- two coordinates of a member with a leaf are different or always equal -/
theorem entry2_dich {xs : List (List ℝ)} {k d : ℕ} (hk : k < xs.length) (hd : d < xs[k].length)
    (hne : ∀ a (ha : a < xs[k].length), a ≠ d → xs[k][a] ≠ xs[k][d]) (m : ℕ) {i j : ℕ} (hi : i < xs[k].length)
    (hj : j < xs[k].length) :
    entry2 xs k d m j xs[k][d] ≠ entry2 xs k d m i xs[k][d] ∨
      ∀ t, entry2 xs k d m j t = entry2 xs k d m i t := by
  have hx : xs.getD k [] = xs[k] := by simp [hk]
  unfold entry2
  by_cases hm : m = k
  · simp only [if_pos hm, hx, entry]
    by_cases h1 : j = d
    · by_cases h2 : i = d
      · exact Or.inr fun t => by rw [if_pos h1, if_pos h2]
      · left
        rw [if_pos h1, if_neg h2, getD_lt hi]
        exact (hne i hi h2).symm
    · by_cases h2 : i = d
      · left
        rw [if_neg h1, if_pos h2, getD_lt hj]
        exact hne j hj h1
      · simp only [if_neg h1, if_neg h2]
        exact (em (xs[k].getD j 0 = xs[k].getD i 0)).symm.imp_right fun h _ => h
  · simp only [if_neg hm]
    exact (em ((xs.getD m []).getD j 0 = (xs.getD m []).getD i 0)).symm.imp_right fun h _ => h

theorem entry2N_val (xs : List (List ℝ)) (k d i a : ℕ) (t : ℝ) :
    (entry2N xs k d i a t).val = fin (entry2 xs k d i a t) := by
  unfold entry2N entry2 entryN entry
  split_ifs <;> rfl

/-- `vs_ensemble` with `estimator="nrg"` and `p ≥ 1`, on both libraries: the gradient with respect to coordinate `d`
of member `k`, if no other coordinate of this member equals it. -/
theorem C132_vs_partial {xs : List (List ℝ)} {y : List ℝ} (hD : ∀ x ∈ xs, x.length = y.length) {k d : ℕ}
    (hk : k < xs.length) (hd : d < xs[k].length)
    (hne : ∀ a (ha : a < xs[k].length), a ≠ d → xs[k][a] ≠ xs[k][d]) {w : List (List XF)}
    (hw : ∀ i ∈ List.range y.length, ∀ j ∈ List.range y.length, ∃ r, mget w i j = fin r) {p : ℝ} (hp : 1 ≤ p) :
    IsGradient (fun t => VsApprox.nrg w p (y.map fin) ((xs.map (List.map fin)).modify k fun v => v.set d t)) xs[k][d]
      (Grad.vsNrg w p (consts (y.map fin)) (leafAt2 k d (xs.map (List.map fin)))).grad := by
  have hp0 : 0 < p := by linarith
  have hlen : xs[k].length = y.length := hD _ (List.getElem_mem hk)
  have rho : ∀ {A B : ℝ → Node} {fa fb : ℝ → ℝ}, Tr A fa xs[k][d] → Tr B fb xs[k][d] →
      (fa xs[k][d] ≠ fb xs[k][d] ∨ ∀ t, fa t = fb t) →
      ∃ q, Tr (fun t => Node.rpow (Node.abs (A t - B t)) p) q xs[k][d] := by
    intro A B fa fb hA hB h
    rcases h with h | h
    · exact ⟨_, ((hA.sub hB).abs (sub_ne_zero.2 h)).rpow (abs_pos.2 (sub_ne_zero.2 h)) hp0⟩
    · exact ⟨_, (hA.sub hB).rpow_zero (fun t => sub_eq_zero.2 (h t)) hp⟩
  obtain ⟨q, hq⟩ := vs_tr (θ := xs[k][d]) (List.range xs.length)
    (by simpa using List.ne_nil_of_length_pos (Nat.zero_lt_of_lt hk)) y.length hw
    (Ry := fun i j _ => Node.rpow (Node.abs (const (fin (y.getD j 0)) - const (fin (y.getD i 0)))) p)
    (R := fun m i j t => Node.rpow (Node.abs (entry2N xs k d m j t - entry2N xs k d m i t)) p)
    (fun i _ j _ => rho (Tr.const _) (Tr.const _)
      ((em (y.getD j 0 = y.getD i 0)).symm.imp_right fun h _ => h))
    (fun m _ i hi j hj => rho (entry2_tr xs k d m j _) (entry2_tr xs k d m i _)
      (entry2_dich hk hd hne m (by rw [hlen]; exact List.mem_range.1 hi) (by rw [hlen]; exact List.mem_range.1 hj)))
  have := hq.congrN (N' := fun t => Grad.vsNrg w p (consts (y.map fin))
    (leafAt2 k d ((xs.map (List.map fin)).modify k fun v => v.set d (fin t)))) fun t => by
      rw [leafAt2_eq hD, consts_eq]
      simp only [Grad.vsNrg, Grad.rhoT, List.length_map, List.length_range, List.map_map, Function.comp_def]
      refine congrArg Node.sum (List.map_congr_left fun i hi => congrArg Node.sum
        (List.map_congr_left fun j hj => ?_))
      rw [nget_range _ hi, nget_range _ hj]
      simp only [nget_range _ hi, nget_range _ hj]
  have h := this.isGradient (score := fun t => VsApprox.nrg w p (y.map fin)
    ((xs.map (List.map fin)).modify k fun v => v.set d t)) fun t => by
      rw [vsNrg_val, leafAt2_val, consts_val]
  rwa [modify_self hk hd] at h

example : ∃ (xs : List (List ℝ)) (y : List ℝ) (hk : 0 < xs.length) (hd : 1 < xs[0].length),
    (∀ x ∈ xs, x.length = y.length) ∧ ∀ a (ha : a < xs[0].length), a ≠ 1 → xs[0][a] ≠ xs[0][1] :=
  ⟨[[0, 1], [2, 3]], [5, 5], by norm_num, by norm_num, by simp, fun j hj h => by
    have : j = 0 := by simp at hj; omega
    subst this; norm_num⟩

/-- `vs_ensemble` with `estimator="nrg"` and `0 < p < 1` (default `p = 0.5`), on both libraries: every gradient with
respect to the ensemble is NaN, and so is every gradient with respect to the observation. -/
theorem C132_vs_nan_false {xs : List (List ℝ)} {y : List ℝ} {k d e : ℕ} (hk : k < xs.length) (hd : d < xs[k].length)
    (hdy : d < y.length) (he : e < y.length) (w : List (List XF)) {p : ℝ} (hp : 0 < p) (hp1 : p < 1) :
    (Grad.vsNrg w p (consts (y.map fin)) (leafAt2 k d (xs.map (List.map fin)))).grad = nan ∧
    (Grad.vsNrg w p (leafAt e (y.map fin)) (xs.map fun x => consts (x.map fin))).grad = nan := by
  have hn : ∀ (v : List ℝ) (i : ℕ) (hi : i < v.length), nget (leafAt i (v.map fin)) i = leaf (fin v[i]) := by
    intro v i hi
    simp [nget, leafAt, hi]
  constructor
  · refine Bad.grad (Bad.sum (List.mem_map.2 ⟨d, by simpa [consts] using hdy, rfl⟩)
      (Bad.sum (List.mem_map.2 ⟨d, by simpa [consts] using hdy, rfl⟩) (Bad.mul_right (Bad.pow (Bad.sub_right
        (Bad.div_left (Bad.sum (List.mem_map.2 ⟨_, leafAt2_mem (d := d) hk, rfl⟩) ?_))) 2))))
    unfold Grad.rhoT
    rw [hn _ _ hd]
    exact rho_bad hp hp1
  · refine Bad.grad (Bad.sum (List.mem_map.2 ⟨e, by simpa [leafAt] using he, rfl⟩)
      (Bad.sum (List.mem_map.2 ⟨e, by simpa [leafAt] using he, rfl⟩) (Bad.mul_right (Bad.pow (Bad.sub_left ?_) 2))))
    unfold Grad.rhoT
    rw [hn _ _ he]
    exact rho_bad hp hp1

example : ∃ (xs : List (List ℝ)) (y : List ℝ) (hk : 0 < xs.length), 1 < xs[0].length ∧ 1 < y.length ∧
    (0 : ℝ) < 1 / 2 ∧ (1 / 2 : ℝ) < 1 :=
  ⟨[[0, 1], [2, 3]], [5, 5], by norm_num, by norm_num, by norm_num, by norm_num, by norm_num⟩

/-- ... although the score has a derivative with respect to a coordinate that no other coordinate of the member
equals. -/
theorem C132_vs_false {xs : List (List ℝ)} {y : List ℝ} (hD : ∀ x ∈ xs, x.length = y.length) {k d : ℕ}
    (hk : k < xs.length) (hd : d < xs[k].length)
    (hne : ∀ a (ha : a < xs[k].length), a ≠ d → xs[k][a] ≠ xs[k][d]) {w : List (List XF)}
    (hw : ∀ i ∈ List.range y.length, ∀ j ∈ List.range y.length, ∃ r, mget w i j = fin r) {p : ℝ} (hp0 : 0 < p)
    (hp1 : p < 1) :
    HasGradient (fun t => VsApprox.nrg w p (y.map fin) ((xs.map (List.map fin)).modify k fun v => v.set d t))
      xs[k][d] ∧
    ¬ IsGradient (fun t => VsApprox.nrg w p (y.map fin) ((xs.map (List.map fin)).modify k fun v => v.set d t))
      xs[k][d] (Grad.vsNrg w p (consts (y.map fin)) (leafAt2 k d (xs.map (List.map fin)))).grad := by
  have hlen : xs[k].length = y.length := hD _ (List.getElem_mem hk)
  have hdy : d < y.length := by omega
  refine ⟨?_, by rw [(C132_vs_nan_false hk hd hdy hdy w hp0 hp1).1]; exact not_isGradient_nan _ _⟩
  -- the node in which `|x - x| ** p` is the constant 0
  let Z : (ℝ → Node) → (ℝ → Node) → (ℝ → ℝ) → (ℝ → ℝ) → ℝ → Node := fun A B fa fb t =>
    if ∀ t, fa t = fb t then const (fin 0) else Node.rpow (Node.abs (A t - B t)) p
  have rho : ∀ {A B : ℝ → Node} {fa fb : ℝ → ℝ}, Tr A fa xs[k][d] → Tr B fb xs[k][d] →
      (fa xs[k][d] ≠ fb xs[k][d] ∨ ∀ t, fa t = fb t) → ∃ q, Tr (Z A B fa fb) q xs[k][d] := by
    intro A B fa fb hA hB h
    by_cases hc : ∀ t, fa t = fb t
    · exact ⟨_, (Tr.const 0).congrN fun t => if_pos hc⟩
    · have h := h.resolve_right hc
      exact ⟨_, (((hA.sub hB).abs (sub_ne_zero.2 h)).rpow (abs_pos.2 (sub_ne_zero.2 h)) hp0).congrN
        fun t => if_neg hc⟩
  have Zval : ∀ {A B : ℝ → Node} {fa fb : ℝ → ℝ} {t : ℝ}, (A t).val = fin (fa t) → (B t).val = fin (fb t) →
      (Z A B fa fb t).val = XF.rpow (XF.abs ((A t).val - (B t).val)) p := by
    intro A B fa fb t hA hB
    by_cases hc : ∀ t, fa t = fb t
    · rw [show Z A B fa fb t = const (fin 0) from if_pos hc, hA, hB, hc t, fin_sub, sub_self, fin_abs, abs_zero,
        fin_rpow le_rfl hp0, Real.zero_rpow hp0.ne']
      rfl
    · rw [show Z A B fa fb t = Node.rpow (Node.abs (A t - B t)) p from if_neg hc]
      rfl
  obtain ⟨q, hq⟩ := vs_tr (θ := xs[k][d]) (List.range xs.length)
    (by simpa using List.ne_nil_of_length_pos (Nat.zero_lt_of_lt hk)) y.length hw
    (Ry := fun i j => Z (fun _ => const (fin (y.getD j 0))) (fun _ => const (fin (y.getD i 0)))
      (fun _ => y.getD j 0) (fun _ => y.getD i 0))
    (R := fun m i j => Z (entry2N xs k d m j) (entry2N xs k d m i) (entry2 xs k d m j) (entry2 xs k d m i))
    (fun i _ j _ => rho (Tr.const _) (Tr.const _)
      ((em (y.getD j 0 = y.getD i 0)).symm.imp_right fun h _ => h))
    (fun m _ i hi j hj => rho (entry2_tr xs k d m j _) (entry2_tr xs k d m i _)
      (entry2_dich hk hd hne m (by rw [hlen]; exact List.mem_range.1 hi) (by rw [hlen]; exact List.mem_range.1 hj)))
  refine ⟨_, hq.isGradient fun t => ?_⟩
  rw [← consts_val (y.map fin), ← leafAt2_val k d ((xs.map (List.map fin)).modify k fun v => v.set d (fin t)),
    ← vsNrg_val, leafAt2_eq hD, consts_eq]
  simp only [Grad.vsNrg, List.length_map, List.length_range, List.map_map, Function.comp_def, sum_val, mul_val,
    pow_val, sub_val, div_val, const_val]
  refine congrArg List.sum (List.map_congr_left fun i hi => congrArg List.sum (List.map_congr_left fun j hj => ?_))
  have e0 : (Z (fun _ => const (fin (y.getD j 0))) (fun _ => const (fin (y.getD i 0))) (fun _ => y.getD j 0)
      (fun _ => y.getD i 0) t).val = XF.rpow (XF.abs (fin (y.getD j 0) - fin (y.getD i 0))) p :=
    Zval (A := fun _ => const (fin (y.getD j 0))) (B := fun _ => const (fin (y.getD i 0))) (fa := fun _ => y.getD j 0)
      (fb := fun _ => y.getD i 0) (t := t) rfl rfl
  rw [e0]
  have e1 : (Grad.rhoT p ((List.range y.length).map fun i => const (fin (y.getD i 0))) i j).val
      = XF.rpow (XF.abs (fin (y.getD j 0) - fin (y.getD i 0))) p := by
    unfold Grad.rhoT
    rw [nget_range _ hi, nget_range _ hj]
    rfl
  rw [e1]
  congr 5
  refine List.map_congr_left fun m _ => ?_
  refine (Zval (A := entry2N xs k d m j) (B := entry2N xs k d m i) (fa := entry2 xs k d m j)
    (fb := entry2 xs k d m i) (entry2N_val xs k d m j t) (entry2N_val xs k d m i t)).trans ?_
  unfold Grad.rhoT
  rw [nget_range _ hi, nget_range _ hj]
  rfl

example : ∃ (xs : List (List ℝ)) (y : List ℝ) (w : List (List XF)) (hk : 0 < xs.length) (hd : 1 < xs[0].length),
    (∀ x ∈ xs, x.length = y.length) ∧ (∀ a (ha : a < xs[0].length), a ≠ 1 → xs[0][a] ≠ xs[0][1]) ∧
    ∀ i ∈ List.range y.length, ∀ j ∈ List.range y.length, ∃ r, mget w i j = fin r :=
  ⟨[[0, 1], [2, 3]], [5, 5], [[fin 1, fin 1], [fin 1, fin 1]], by norm_num, by norm_num, by simp, fun j hj h => by
    have : j = 0 := by simp at hj; omega
    subst this; norm_num, fun i hi j hj => by
      have hi' : i < 2 := List.mem_range.1 hi
      have hj' : j < 2 := List.mem_range.1 hj
      interval_cases i <;> interval_cases j <;> exact ⟨1, rfl⟩⟩

end Verif
