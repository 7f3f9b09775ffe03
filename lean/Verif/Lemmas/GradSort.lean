import Verif.Lemmas.GradEns
import Verif.Lemmas.Sorting
import Verif.Model.GradEns

/-!
# Gradients of the estimators of the ensemble CRPS
-/

noncomputable section

open scoped Classical Topology

namespace Verif

open XF Py Mv Node Filter Grad
open Api (argsort gather)

theorem zipWith_same {α β γ κ : Type} (f : α → β → γ) (l : List κ) (a : κ → α) (b : κ → β) :
    List.zipWith f (l.map a) (l.map b) = l.map fun i => f (a i) (b i) := by
  induction l with
  | nil => rfl
  | cons x l ih => simp [ih]

theorem nget_map_range (M : ℕ) (A : ℕ → Node) {i : ℕ} (hi : i < M) :
    nget ((List.range M).map A) i = A i := by
  simp [nget, hi]

namespace Tr

variable {N N' : ℝ → Node} {f f' : ℝ → ℝ} {θ : ℝ}

theorem congrEv (h : Tr N f θ) (e : ∀ᶠ t in 𝓝 θ, N' t = N t) : Tr N' f θ := by
  obtain ⟨hv, d, hd, hb⟩ := h
  refine ⟨?_, d, hd, fun g => ?_⟩
  · filter_upwards [hv, e] with t h1 h2
    rw [h2, h1]
  · rw [e.self_of_nhds, hb]

/-- a comparison is constant near `θ` -/
theorem ind_le (h : Tr N f θ) (h' : Tr N' f' θ) (hne : f θ ≠ f' θ ∨ ∀ t, f t = f' t) :
    ∃ c : ℝ, Tr (fun t => Node.const (ind ((N t).val ≤ (N' t).val))) (fun _ => c) θ := by
  have hev : ∀ᶠ t in 𝓝 θ, (f t ≤ f' t ↔ f θ ≤ f' θ) := by
    rcases hne with hne | hne
    · rcases lt_or_gt_of_ne hne with hlt | hlt
      · filter_upwards [h.cont.eventually_lt h'.cont hlt] with t ht
        exact ⟨fun _ => hlt.le, fun _ => ht.le⟩
      · filter_upwards [h'.cont.eventually_lt h.cont hlt] with t ht
        exact ⟨fun hc => absurd hc (not_le.2 ht), fun hc => absurd hc (not_le.2 hlt)⟩
    · exact Eventually.of_forall fun t => by simp [hne]
  refine ⟨if f θ ≤ f' θ then 1 else 0, ?_, 0, hasDerivAt_const _ _, fun g => ?_⟩
  · filter_upwards [h.1, h'.1, hev] with t h1 h2 h3
    show ind ((N t).val ≤ (N' t).val) = _
    rw [h1, h2, XF.ind, fin_le]
    by_cases hc : f θ ≤ f' θ
    · rw [if_pos (h3.2 hc), if_pos hc]; rfl
    · rw [if_neg fun hh => hc (h3.1 hh), if_neg hc]; rfl
  · rw [mul_zero]; rfl

theorem ind_lt (h : Tr N f θ) (h' : Tr N' f' θ) (hne : f θ ≠ f' θ ∨ ∀ t, f t = f' t) :
    ∃ c : ℝ, Tr (fun t => Node.const (ind ((N t).val < (N' t).val))) (fun _ => c) θ := by
  have hev : ∀ᶠ t in 𝓝 θ, (f t < f' t ↔ f θ < f' θ) := by
    rcases hne with hne | hne
    · rcases lt_or_gt_of_ne hne with hlt | hlt
      · filter_upwards [h.cont.eventually_lt h'.cont hlt] with t ht
        exact ⟨fun _ => hlt, fun _ => ht⟩
      · filter_upwards [h'.cont.eventually_lt h.cont hlt] with t ht
        exact ⟨fun hc => absurd hc (not_lt.2 ht.le), fun hc => absurd hc (not_lt.2 hlt.le)⟩
    · exact Eventually.of_forall fun t => by simp [hne]
  refine ⟨if f θ < f' θ then 1 else 0, ?_, 0, hasDerivAt_const _ _, fun g => ?_⟩
  · filter_upwards [h.1, h'.1, hev] with t h1 h2 h3
    show ind ((N t).val < (N' t).val) = _
    rw [h1, h2, XF.ind, fin_lt]
    by_cases hc : f θ < f' θ
    · rw [if_pos (h3.2 hc), if_pos hc]; rfl
    · rw [if_neg fun hh => hc (h3.1 hh), if_neg hc]; rfl
  · rw [mul_zero]; rfl

section Ens

variable {M : ℕ} {y : ℝ → Node} {fy : ℝ → ℝ} {X : ℕ → ℝ → Node} {fx : ℕ → ℝ → ℝ}

theorem natc (n : ℕ) : Tr (θ := θ) (fun _ => Node.const (n : XF)) (fun _ => (n : ℝ)) := Tr.constx (natCast_def _)

theorem halfc : Tr (θ := θ) (fun _ => Node.const half) (fun _ => 1 / 2) := Tr.constx rfl

theorem crpsE1 (hy : Tr y fy θ) (hX : ∀ i < M, Tr (X i) (fx i) θ) (hM : 0 < M)
    (h1 : ∀ i < M, fy θ ≠ fx i θ ∨ ∀ t, fy t = fx i t) :
    ∃ g, Tr (fun t => Grad.crpsE1 (y t) ((List.range M).map fun i => X i t)) g θ := by
  obtain ⟨g1, hg1⟩ := Tr.sum' (θ := θ) (List.range M) (N := fun i t => Node.abs (y t - X i t)) fun i hi =>
    (hy.sub (hX i (List.mem_range.1 hi))).abs'
      ((h1 i (List.mem_range.1 hi)).imp sub_ne_zero.2 fun h t => sub_eq_zero.2 (h t))
  have := hg1.div (natc M) (by positivity)
  refine ⟨_, this.congrN fun t => ?_⟩
  simp only [Grad.crpsE1, List.map_map, Function.comp_def, List.length_map, List.length_range]

theorem crpsFair (hy : Tr y fy θ) (hX : ∀ i < M, Tr (X i) (fx i) θ) (hM : 2 ≤ M)
    (h1 : ∀ i < M, fy θ ≠ fx i θ ∨ ∀ t, fy t = fx i t)
    (h2 : ∀ i < M, ∀ j < M, fx i θ ≠ fx j θ ∨ ∀ t, fx i t = fx j t) :
    ∃ g, Tr (fun t => Grad.crpsFair (y t) ((List.range M).map fun i => X i t)) g θ := by
  obtain ⟨g1, hg1⟩ := crpsE1 hy hX (by omega) h1
  obtain ⟨g2, hg2⟩ := Tr.sum' (θ := θ) (List.range M)
    (N := fun i t => Node.sum ((List.range M).map fun j => Node.abs (X i t - X j t)))
    fun i hi => Tr.sum' _ fun j hj => ((hX i (List.mem_range.1 hi)).sub (hX j (List.mem_range.1 hj))).abs'
      ((h2 i (List.mem_range.1 hi) j (List.mem_range.1 hj)).imp sub_ne_zero.2 fun h t => sub_eq_zero.2 (h t))
  have hne : ((M * (M - 1) : ℕ) : ℝ) ≠ 0 := by
    have : 0 < M * (M - 1) := Nat.mul_pos (by omega) (by omega)
    positivity
  have := hg1.sub (halfc.mul (hg2.div (natc (M * (M - 1))) hne))
  refine ⟨_, this.congrN fun t => ?_⟩
  simp only [Grad.crpsFair, List.map_map, Function.comp_def, List.length_map, List.length_range]

theorem crpsPwm (hy : Tr y fy θ) (hX : ∀ i < M, Tr (X i) (fx i) θ) (hM : 2 ≤ M)
    (h1 : ∀ i < M, fy θ ≠ fx i θ ∨ ∀ t, fy t = fx i t) :
    ∃ g, Tr (fun t => Grad.crpsPwm (y t) ((List.range M).map fun i => X i t)) g θ := by
  obtain ⟨g1, hg1⟩ := crpsE1 hy hX (by omega) h1
  have hg2 := Tr.sum (List.range M) fun i hi => hX i (List.mem_range.1 hi)
  have hg3 := Tr.sum (List.range M) fun i hi => (hX i (List.mem_range.1 hi)).mul (natc i)
  have hM1 : (1 : ℝ) < M := by exact_mod_cast hM
  have hc : Tr (θ := θ) (fun _ => Node.const ((M : XF) * ((M : XF) - 1))) (fun _ => (M : ℝ) * (M - 1)) :=
    Tr.constx (by rw [natCast_def, one_def, fin_sub, fin_mul])
  have := (hg1.add (hg2.div (natc M) (by positivity))).sub
    (Tr.two.mul (hg3.div hc (mul_pos (by linarith) (by linarith)).ne'))
  refine ⟨_, this.congrN fun t => ?_⟩
  simp only [Grad.crpsPwm, List.length_map, List.length_range, zipWith_same]

theorem crpsRoll (hy : Tr y fy θ) (hX : ∀ i < M, Tr (X i) (fx i) θ) (hM : 0 < M) (s : ℕ)
    (h1 : ∀ i < M, fy θ ≠ fx i θ ∨ ∀ t, fy t = fx i t)
    (h2 : ∀ i < M, ∀ j < M, fx i θ ≠ fx j θ ∨ ∀ t, fx i t = fx j t) :
    ∃ g, Tr (fun t => Grad.crpsE1 (y t) ((List.range M).map fun i => X i t) - Node.const half *
      (Node.sum (List.zipWith (fun a b => Node.abs (a - b)) ((List.range M).map fun i => X i t)
        (rollN ((List.range M).map fun i => X i t) s)) / Node.const (M : XF))) g θ := by
  obtain ⟨g1, hg1⟩ := crpsE1 hy hX hM h1
  have hr : ∀ i, (i + (M - s % M)) % M < M := fun i => Nat.mod_lt _ hM
  obtain ⟨g2, hg2⟩ := Tr.sum' (θ := θ) (List.range M)
    (N := fun i t => Node.abs (X i t - X ((i + (M - s % M)) % M) t))
    fun i hi => ((hX i (List.mem_range.1 hi)).sub (hX _ (hr i))).abs'
      ((h2 i (List.mem_range.1 hi) _ (hr i)).imp sub_ne_zero.2 fun h t => sub_eq_zero.2 (h t))
  have := hg1.sub (halfc.mul (hg2.div (natc M) (by positivity)))
  refine ⟨_, this.congrN fun t => ?_⟩
  have e : rollN ((List.range M).map fun i => X i t) s
      = (List.range M).map fun i => X ((i + (M - s % M)) % M) t := by
    unfold rollN
    simp only [List.length_map, List.length_range]
    exact List.map_congr_left fun i hi => nget_map_range _ _ (hr i)
  rw [e, zipWith_same]

theorem crpsAkr (hy : Tr y fy θ) (hX : ∀ i < M, Tr (X i) (fx i) θ) (hM : 0 < M)
    (h1 : ∀ i < M, fy θ ≠ fx i θ ∨ ∀ t, fy t = fx i t)
    (h2 : ∀ i < M, ∀ j < M, fx i θ ≠ fx j θ ∨ ∀ t, fx i t = fx j t) :
    ∃ g, Tr (fun t => Grad.crpsAkr (y t) ((List.range M).map fun i => X i t)) g θ := by
  obtain ⟨g, hg⟩ := crpsRoll hy hX hM 1 h1 h2
  refine ⟨g, hg.congrN fun t => ?_⟩
  simp only [Grad.crpsAkr, List.length_map, List.length_range]

theorem crpsAkrCircperm (hy : Tr y fy θ) (hX : ∀ i < M, Tr (X i) (fx i) θ) (hM : 0 < M)
    (h1 : ∀ i < M, fy θ ≠ fx i θ ∨ ∀ t, fy t = fx i t)
    (h2 : ∀ i < M, ∀ j < M, fx i θ ≠ fx j θ ∨ ∀ t, fx i t = fx j t) :
    ∃ g, Tr (fun t => Grad.crpsAkrCircperm (y t) ((List.range M).map fun i => X i t)) g θ := by
  obtain ⟨g, hg⟩ := crpsRoll hy hX hM (M / 2) h1 h2
  refine ⟨g, hg.congrN fun t => ?_⟩
  simp only [Grad.crpsAkrCircperm, List.length_map, List.length_range]

theorem crpsQd (hy : Tr y fy θ) (hX : ∀ i < M, Tr (X i) (fx i) θ) (hM : 0 < M)
    (h1 : ∀ i < M, fy θ ≠ fx i θ ∨ ∀ t, fy t = fx i t) :
    ∃ g, Tr (fun t => Grad.crpsQd (y t) ((List.range M).map fun i => X i t)) g θ := by
  have ha : ∀ i : ℕ, Tr (θ := θ) (fun _ => Node.const (((i + 1 : ℕ) : XF) - half))
      (fun _ => ((i + 1 : ℕ) : ℝ) - 1 / 2) := fun i => Tr.constx (by
    rw [natCast_def, half, fin_sub])
  obtain ⟨g, hg⟩ := Tr.sum' (θ := θ) (List.range M)
    (N := fun i t => Node.const (ind ((X i t).val ≤ (y t).val)) * Node.const (((i + 1 : ℕ) : XF) - half)
        * (y t - X i t)
      + Node.const (ind ((y t).val < (X i t).val)) * (Node.const (M : XF)
        - Node.const (((i + 1 : ℕ) : XF) - half)) * (X i t - y t)) fun i hi => by
    have hi' := List.mem_range.1 hi
    obtain ⟨c, hc⟩ := (hX i hi').ind_le hy ((h1 i hi').imp Ne.symm fun h t => (h t).symm)
    obtain ⟨d, hd⟩ := hy.ind_lt (hX i hi') (h1 i hi')
    exact ⟨_, ((hc.mul (ha i)).mul (hy.sub (hX i hi'))).add
      ((hd.mul ((natc M).sub (ha i))).mul ((hX i hi').sub hy))⟩
  have hM2 : ((M ^ 2 : ℕ) : ℝ) ≠ 0 := by push_cast; positivity
  refine ⟨_, (Tr.two.mul (hg.div (natc (M ^ 2)) hM2)).congrN fun t => ?_⟩
  simp only [Grad.crpsQd, List.length_map, List.length_range, zipWith_same]

end Ens
end Tr

/-! ### values -/

theorem sortN_val (fct : List Node) :
    (sortN fct).map Node.val = gather (fct.map Node.val) (argsort (fct.map Node.val)) := by
  unfold sortN gather
  rw [List.map_map]
  refine List.map_congr_left fun i _ => ?_
  show (nget fct i).val = idx (fct.map Node.val) i
  unfold nget idx
  by_cases h : i < fct.length <;> simp [h]

theorem crpsE1_val (y : Node) (fct : List Node) :
    (Grad.crpsE1 y fct).val = Approx.e1 y.val (fct.map Node.val) := by
  simp only [Grad.crpsE1, Approx.e1, div_val, sum_val, const_val, List.map_map, Function.comp_def, List.length_map]
  rfl

theorem crpsFair_val (y : Node) (fct : List Node) :
    (Grad.crpsFair y fct).val = Approx.fair y.val (fct.map Node.val) := by
  simp only [Grad.crpsFair, Approx.fair, sum2, sub_val, div_val, mul_val, sum_val, const_val, crpsE1_val,
    List.map_map, Function.comp_def, List.length_map]
  rfl

theorem zipWith_val (f : Node → Node → Node) (g : XF → XF → XF) (h : ∀ a b, (f a b).val = g a.val b.val)
    (a b : List Node) : (List.zipWith f a b).map Node.val = List.zipWith g (a.map Node.val) (b.map Node.val) := by
  rw [List.map_zipWith, List.zipWith_map]
  congr 1
  funext x y
  exact h x y

theorem crpsPwm_val (y : Node) (fct : List Node) :
    (Grad.crpsPwm y fct).val = Approx.pwm y.val (fct.map Node.val) := by
  simp only [Grad.crpsPwm, Approx.pwm, sub_val, add_val, div_val, mul_val, sum_val, const_val, crpsE1_val,
    List.length_map, zip2]
  rw [zipWith_val (· * ·) (· * ·) fun _ _ => rfl]
  simp only [List.map_map, Function.comp_def, const_val]

theorem rollN_val (fct : List Node) (s : ℕ) : (rollN fct s).map Node.val = roll (fct.map Node.val) s := by
  unfold rollN roll
  simp only [List.map_map, List.length_map]
  refine List.map_congr_left fun i hi => ?_
  show (nget fct _).val = idx (fct.map Node.val) _
  unfold nget idx
  by_cases h : (i + (fct.length - s % fct.length)) % fct.length < fct.length <;> simp [h]

theorem crpsAkr_val (y : Node) (fct : List Node) :
    (Grad.crpsAkr y fct).val = Approx.akr y.val (fct.map Node.val) := by
  simp only [Grad.crpsAkr, Approx.akr, sub_val, div_val, mul_val, sum_val, const_val, crpsE1_val,
    List.length_map, zip2]
  rw [zipWith_val (fun a b => Node.abs (a - b)) (fun a b => XF.abs (a - b)) fun _ _ => rfl, rollN_val]

theorem crpsAkrCircperm_val (y : Node) (fct : List Node) :
    (Grad.crpsAkrCircperm y fct).val = Approx.akrCircperm y.val (fct.map Node.val) := by
  simp only [Grad.crpsAkrCircperm, Approx.akrCircperm, sub_val, div_val, mul_val, sum_val, const_val, crpsE1_val,
    List.length_map, zip2]
  rw [zipWith_val (fun a b => Node.abs (a - b)) (fun a b => XF.abs (a - b)) fun _ _ => rfl, rollN_val]

theorem crpsQd_val (y : Node) (fct : List Node) :
    (Grad.crpsQd y fct).val = Approx.qd y.val (fct.map Node.val) := by
  simp only [Grad.crpsQd, Approx.qd, div_val, mul_val, sum_val, const_val, List.length_map, zip2]
  rw [zipWith_val (· + ·) (· + ·) fun _ _ => rfl,
    zipWith_val (fun x a => Node.const (ind (x.val ≤ y.val)) * a * (y - x))
      (fun x a => ind (x ≤ y.val) * a * (y.val - x)) fun _ _ => rfl,
    zipWith_val (fun x a => Node.const (ind (y.val < x.val)) * (Node.const (fct.length : XF) - a) * (x - y))
      (fun x a => ind (y.val < x) * ((fct.length : XF) - a) * (x - y.val)) fun _ _ => rfl]
  simp only [List.map_map, Function.comp_def, const_val]

/-! ### sorting near a member without ties -/

theorem idx_set (xs : List ℝ) {k : ℕ} (hk : k < xs.length) (t : ℝ) (i : ℕ) :
    idx ((xs.map fin).set k (fin t)) i = if i = k then fin t else idx (xs.map fin) i := by
  unfold idx
  by_cases h : i = k
  · subst h; simp [hk]
  · rw [if_neg h, List.getD_eq_getElem?_getD, List.getElem?_set_ne (Ne.symm h), ← List.getD_eq_getElem?_getD]

theorem argsort_near (xs : List ℝ) {k : ℕ} (hk : k < xs.length)
    (hne : ∀ j (hj : j < xs.length), j ≠ k → xs[j] ≠ xs[k]) :
    ∀ᶠ t in 𝓝 xs[k], argsort ((xs.map fin).set k (fin t)) = argsort (xs.map fin) := by
  have hev : ∀ᶠ t in 𝓝 xs[k], ∀ j, j < xs.length → j ≠ k →
      ((t ≤ xs.getD j 0 ↔ xs[k] ≤ xs.getD j 0) ∧ (xs.getD j 0 ≤ t ↔ xs.getD j 0 ≤ xs[k])) := by
    refine (Filter.eventually_all_finite (Set.finite_lt_nat xs.length)).2 fun j hj => ?_
    by_cases hjk : j = k
    · exact Eventually.of_forall fun _ h => absurd hjk h
    · have hj' : j < xs.length := hj
      have hn := hne j hj' hjk
      rw [getD_lt hj']
      rcases lt_or_gt_of_ne hn with h | h
      · filter_upwards [lt_mem_nhds h] with t ht _
        exact ⟨⟨fun hc => absurd hc (not_le.2 ht), fun hc => absurd hc (not_le.2 h)⟩,
          ⟨fun _ => h.le, fun _ => ht.le⟩⟩
      · filter_upwards [gt_mem_nhds h] with t ht _
        exact ⟨⟨fun _ => h.le, fun _ => ht.le⟩,
          ⟨fun hc => absurd hc (not_le.2 ht), fun hc => absurd hc (not_le.2 h)⟩⟩
  filter_upwards [hev] with t ht
  unfold argsort
  rw [List.length_set]
  congr 1
  funext i j
  have hx : ∀ {j}, j < xs.length → idx (xs.map fin) j = fin (xs.getD j 0) := by
    intro j hj; simp [idx, hj]
  have hx' : ∀ {j}, ¬ j < xs.length → idx (xs.map fin) j = nan := by
    intro j hj; simp [idx, hj]
  have hxk : idx (xs.map fin) k = fin xs[k] := by rw [hx hk, getD_lt hk]
  rw [idx_set xs hk, idx_set xs hk]
  by_cases hi : i = k
  · by_cases hj : j = k
    · rw [if_pos hi, if_pos hj, hi, hj, hxk]
      exact decide_eq_decide.2 (by simp)
    · rw [if_pos hi, if_neg hj, hi, hxk]
      by_cases hjl : j < xs.length
      · rw [hx hjl]
        have := (ht j hjl hj).1
        exact decide_eq_decide.2 (by rw [sortLe_fin, sortLe_fin]; exact this)
      · rw [hx' hjl]; exact decide_eq_decide.2 Iff.rfl
  · by_cases hj : j = k
    · rw [if_neg hi, if_pos hj, hj, hxk]
      by_cases hil : i < xs.length
      · rw [hx hil]
        have := (ht i hil hi).2
        exact decide_eq_decide.2 (by rw [sortLe_fin, sortLe_fin]; exact this)
      · rw [hx' hil]; exact decide_eq_decide.2 Iff.rfl
    · rw [if_neg hi, if_neg hj]

theorem argsort_lt (r : List XF) {i : ℕ} (h : i ∈ argsort r) : i < r.length :=
  List.mem_range.1 ((Api.argsort_perm r).mem_iff.1 h)

/-- a list as a function on the range of its length -/
theorem map_getD_range (l : List ℕ) {β : Type} (F : ℕ → β) :
    l.map F = (List.range l.length).map fun p => F (l.getD p 0) := by
  refine List.ext_getElem (by simp) fun i h1 h2 => ?_
  have : i < l.length := by simpa using h1
  simp [this]

/-- the sorted members, none of which is the leaf -/
theorem sortN_consts (xs : List ℝ) : sortN (consts (xs.map fin))
    = (List.range xs.length).map fun p => const (fin (xs.getD ((argsort (xs.map fin)).getD p 0) 0)) := by
  unfold sortN
  rw [consts_val]
  have hl : (argsort (xs.map fin)).length = xs.length := by simpa using (Api.argsort_perm (xs.map fin)).length_eq
  rw [← hl, ← map_getD_range _ fun i => const (fin (xs.getD i 0))]
  refine List.map_congr_left fun i hi => ?_
  have : i < xs.length := by simpa using argsort_lt _ hi
  rw [consts_eq, nget_map_range _ _ this]

/-- the sorted members with the leaf among them, near a value without ties -/
theorem sortN_leafAt (xs : List ℝ) {k : ℕ} (hk : k < xs.length)
    (hne : ∀ j (hj : j < xs.length), j ≠ k → xs[j] ≠ xs[k]) :
    ∀ᶠ t in 𝓝 xs[k], sortN (leafAt k ((xs.map fin).set k (fin t)))
      = (List.range xs.length).map fun p => entryN xs k ((argsort (xs.map fin)).getD p 0) t := by
  filter_upwards [argsort_near xs hk hne] with t ht
  unfold sortN
  rw [leafAt_val, ht]
  have hl : (argsort (xs.map fin)).length = xs.length := by simpa using (Api.argsort_perm (xs.map fin)).length_eq
  rw [← hl, ← map_getD_range _ fun i => entryN xs k i t]
  refine List.map_congr_left fun i hi => ?_
  have : i < xs.length := by simpa using argsort_lt _ hi
  rw [leafAt_eq, nget_map_range _ _ this]

/-- positions of the sorted ensemble are positions -/
theorem sorted_lt (xs : List ℝ) {p : ℕ} (hp : p < xs.length) :
    (argsort (xs.map fin)).getD p 0 < xs.length := by
  have hl : (argsort (xs.map fin)).length = xs.length := by simpa using (Api.argsort_perm (xs.map fin)).length_eq
  have hp' : p < (argsort (xs.map fin)).length := by omega
  have h := argsort_lt (xs.map fin) (List.getElem_mem hp')
  have e : (argsort (xs.map fin)).getD p 0 = (argsort (xs.map fin))[p] := by simp [List.getD, hp']
  rw [e]
  simpa using h

theorem getD_ne {y : ℝ} {xs : List ℝ} (hy : y ∉ xs) {i : ℕ} (hi : i < xs.length) : y ≠ xs.getD i 0 := by
  intro h
  refine hy ?_
  rw [h, getD_lt hi]
  exact List.getElem_mem hi

end Verif
