import Verif.Lemmas.ArrSlices
import Verif.Lemmas.CrpsUnweighted
import Verif.Lemmas.CrpsAkr
import Verif.Lemmas.CrpsIntegral

/-! Values of `crps_ensemble` on finite one-dimensional data. -/

noncomputable section

open scoped Classical

namespace Verif

open XF Py Api

theorem crps1_none (path : Path) (est : String) (sorted : Bool) (y : XF) (xs : List XF) :
    crps1 path est sorted "propagate" y xs none =
      (kernel path est).map fun k =>
        k y (if !sorted && sortingEstimator est then Py.sort xs else xs) := by
  rw [crps1_eq _ _ _ _ _ _ _ (by simp)]
  unfold sliceScore sliceNan sliceCore
  rw [if_pos rfl]
  simp only [bind, Except.bind, gather_argsort_eq]

/-- ascending rearrangement of a list of reals -/
def rsort (xs : List ℝ) : List ℝ := xs.mergeSort fun a b => decide (a ≤ b)

theorem rsort_perm (xs : List ℝ) : (rsort xs).Perm xs := List.mergeSort_perm _ _

theorem rsort_sorted (xs : List ℝ) : (rsort xs).Pairwise (· ≤ ·) := by
  have := List.pairwise_mergeSort (le := fun a b : ℝ => decide (a ≤ b))
    (by intro a b c; simpa using le_trans) (by intro a b; simpa using le_total a b) xs
  simpa [rsort] using this

theorem sort_map_fin (xs : List ℝ) : Py.sort (xs.map fin) = (rsort xs).map fin :=
  sort_eq_of ((rsort_perm xs).symm.map fin) (sortedX_map_fin.2 (rsort_sorted xs))

theorem rsort_of_sorted {xs : List ℝ} (h : xs.Pairwise (· ≤ ·)) : rsort xs = xs :=
  (rsort_perm xs).eq_of_pairwise (fun _ _ _ _ h1 h2 => le_antisymm h1 h2) (rsort_sorted xs) h

/-- `sorted_ensemble=True` may only be passed with an ascending ensemble -/
def SortOK (sorted : Bool) (xs : List ℝ) : Prop := sorted = true → xs.Pairwise (· ≤ ·)

theorem prep_sorting {sorted : Bool} {xs : List ℝ} (h : SortOK sorted xs) {est : String}
    (he : sortingEstimator est = true) :
    (if !sorted && sortingEstimator est then Py.sort (xs.map fin) else xs.map fin)
      = (rsort xs).map fin := by
  rw [he, sort_map_fin]
  cases sorted with
  | false => rfl
  | true => simp [rsort_of_sorted (h rfl)]

theorem uw_perm {xs ys : List ℝ} (h : xs.Perm ys) : (uw xs).Perm (uw ys) := by
  unfold uw
  rw [h.length_eq]
  exact h.map _

theorem rsort_ne {xs : List ℝ} (h : xs ≠ []) : rsort xs ≠ [] := by
  intro h'
  have := (rsort_perm xs).length_eq
  rw [h'] at this
  exact h (List.length_eq_zero_iff.1 this.symm)

theorem qdSum_uw (y : ℝ) {xs : List ℝ} (h : xs ≠ []) (hs : xs.Pairwise (· ≤ ·)) :
    2 * qdSum y 0 (uw xs) = energy y (uw xs) :=
  qdSum_energy y (sortedP_uw hs) (wtot_uw h)

theorem int0_uw (y : ℝ) {xs : List ℝ} (h : xs ≠ []) (hs : xs.Pairwise (· ≤ ·)) :
    int0 y 0 0 (uw xs) = energy y (uw xs) :=
  int0_energy y 0 (sortedP_uw hs) (wtot_uw h)

theorem crps1_nrg (path : Path) (sorted : Bool) (y : ℝ) {xs : List ℝ} (h : xs ≠ []) :
    crps1 path "nrg" sorted "propagate" (fin y) (xs.map fin) none
      = .ok (fin (energy y (uw xs))) := by
  rw [crps1_none]
  have : sortingEstimator "nrg" = false := by simp [sortingEstimator]
  rw [this]
  cases path <;> simp [kernel, estimatorGufuncs, ensembleKernel, Except.map, Gufunc.nrg_fin y xs h,
    Approx.nrg_fin y xs h]

theorem crps1_qd (path : Path) {sorted : Bool} (y : ℝ) {xs : List ℝ} (h : xs ≠ [])
    (hs : SortOK sorted xs) :
    crps1 path "qd" sorted "propagate" (fin y) (xs.map fin) none
      = .ok (fin (energy y (uw xs))) := by
  rw [crps1_none, prep_sorting hs (by simp [sortingEstimator])]
  have h1 := rsort_ne h
  have h2 := rsort_sorted xs
  rw [← energy_perm y (uw_perm (rsort_perm xs)), ← qdSum_uw y h1 h2]
  cases path <;> simp [kernel, estimatorGufuncs, ensembleKernel, Except.map,
    Gufunc.qd_fin y _ h1 h2, Approx.qd_fin y _ h1]

theorem crps1_int (path : Path) {sorted : Bool} (y : ℝ) {xs : List ℝ} (h : xs ≠ [])
    (hs : SortOK sorted xs) :
    crps1 path "int" sorted "propagate" (fin y) (xs.map fin) none
      = .ok (fin (energy y (uw xs))) := by
  rw [crps1_none, prep_sorting hs (by simp [sortingEstimator])]
  have h1 := rsort_ne h
  have h2 := rsort_sorted xs
  rw [← energy_perm y (uw_perm (rsort_perm xs)), ← int0_uw y h1 h2]
  cases path <;> simp [kernel, estimatorGufuncs, ensembleKernel, Except.map,
    Gufunc.int_fin y _ h1, Approx.int_fin y _ h1 h2]

theorem sabs_eq (y : ℝ) (xs : List ℝ) : sabs y xs / xs.length = Spec.meanAbs y xs := rfl

theorem spair_eq (xs : List ℝ) : spair xs = Spec.sumAbsDiff xs := by
  unfold spair Spec.sumAbsDiff pairsAll
  rfl

theorem spair_perm {xs ys : List ℝ} (h : xs.Perm ys) : spair xs = spair ys := by
  rw [spair_eq, spair_eq]
  unfold Spec.sumAbsDiff
  have : (fun a => (xs.map fun b => |a - b|).sum) = fun a => (ys.map fun b => |a - b|).sum := by
    funext a
    exact (h.map _).sum_eq
  rw [this]
  exact (h.map _).sum_eq

theorem meanAbs_perm (y : ℝ) {xs ys : List ℝ} (h : xs.Perm ys) :
    Spec.meanAbs y xs = Spec.meanAbs y ys := by
  unfold Spec.meanAbs
  rw [(h.map _).sum_eq, h.length_eq]

theorem fairCrps_perm (y : ℝ) {xs ys : List ℝ} (h : xs.Perm ys) :
    Spec.fairCrps y xs = Spec.fairCrps y ys := by
  unfold Spec.fairCrps
  rw [meanAbs_perm y h, ← spair_eq, ← spair_eq, spair_perm h, h.length_eq]

theorem crps1_fair (path : Path) (sorted : Bool) (y : ℝ) {xs : List ℝ} (h : 2 ≤ xs.length) :
    crps1 path "fair" sorted "propagate" (fin y) (xs.map fin) none
      = .ok (fin (Spec.fairCrps y xs)) := by
  rw [crps1_none]
  have : sortingEstimator "fair" = false := by simp [sortingEstimator]
  rw [this]
  unfold Spec.fairCrps
  rw [← sabs_eq, ← spair_eq]
  cases path <;> simp [kernel, estimatorGufuncs, ensembleKernel, Except.map, Gufunc.fair_fin y xs h,
    Approx.fair_fin y xs h]

theorem crps1_fair_one (path : Path) (sorted : Bool) (y x : ℝ) :
    crps1 path "fair" sorted "propagate" (fin y) [fin x] none = .ok nan := by
  rw [crps1_none]
  have : sortingEstimator "fair" = false := by simp [sortingEstimator]
  rw [this]
  have e1 := Gufunc.fair_one y x
  have e2 := Approx.fair_one y x
  simp only [List.map_cons, List.map_nil] at e1 e2
  cases path <;> simp [kernel, estimatorGufuncs, ensembleKernel, Except.map, e1, e2]

theorem crps1_pwm (path : Path) {sorted : Bool} (y : ℝ) {xs : List ℝ} (h : 2 ≤ xs.length)
    (hs : SortOK sorted xs) :
    crps1 path "pwm" sorted "propagate" (fin y) (xs.map fin) none
      = .ok (fin (Spec.fairCrps y xs)) := by
  rw [crps1_none, prep_sorting hs (by simp [sortingEstimator])]
  rw [← fairCrps_perm y (rsort_perm xs)]
  have h' : 2 ≤ (rsort xs).length := by rw [(rsort_perm xs).length_eq]; exact h
  have h2 := rsort_sorted xs
  unfold Spec.fairCrps
  rw [← sabs_eq, ← spair_eq]
  cases path <;> simp [kernel, estimatorGufuncs, ensembleKernel, Except.map,
    Gufunc.pwm_fin y _ h' h2, Approx.pwm_fin y _ h' h2]

theorem crps1_pwm_one (path : Path) (sorted : Bool) (y x : ℝ) :
    crps1 path "pwm" sorted "propagate" (fin y) [fin x] none = .ok nan := by
  rw [crps1_none]
  have hs : (if !sorted && sortingEstimator "pwm" then Py.sort [fin x] else [fin x]) = [fin x] := by
    split_ifs
    · exact sort_eq_of (List.Perm.refl _) (List.pairwise_singleton _ _)
    · rfl
  rw [hs]
  have e1 := Gufunc.pwm_one y x
  have e2 := Approx.pwm_one y x
  simp only [List.map_cons, List.map_nil] at e1 e2
  cases path <;> simp [kernel, estimatorGufuncs, ensembleKernel, Except.map, e1, e2]

theorem crps1_akr (path : Path) (sorted : Bool) (y : XF) (xs : List XF) (h : xs ≠ []) :
    crps1 path "akr" sorted "propagate" y xs none = .ok (Gufunc.akr y xs) := by
  rw [crps1_none]
  have : sortingEstimator "akr" = false := by simp [sortingEstimator]
  rw [this]
  cases path <;> simp [kernel, estimatorGufuncs, ensembleKernel, Except.map, akr_path_eq y xs h]

theorem crps1_akrCircperm (path : Path) (sorted : Bool) (y : XF) (xs : List XF) (h : xs ≠ []) :
    crps1 path "akr_circperm" sorted "propagate" y xs none = .ok (Gufunc.akrCircperm y xs) := by
  rw [crps1_none]
  have : sortingEstimator "akr_circperm" = false := by simp [sortingEstimator]
  rw [this]
  cases path <;> simp [kernel, estimatorGufuncs, ensembleKernel, Except.map,
    akrCircperm_path_eq y xs h]

/-! ### weighted ensembles -/

/-- weights divided by their total -/
def norml (l : List (ℝ × ℝ)) : List (ℝ × ℝ) := l.map fun p => (p.1, p.2 / wtot l)

theorem normW_Ws {l : List (ℝ × ℝ)} (h : wtot l ≠ 0) : normW (Ws l) = Ws (norml l) := by
  unfold normW
  have : (Ws l).sum = fin (wtot l) := by
    unfold Ws wtot
    rw [← sum_map_fin, List.map_map]
    rfl
  rw [this]
  unfold Ws norml
  simp only [List.map_map]
  apply List.map_congr_left
  intro p _
  simp [fin_div h]

theorem wtot_norml {l : List (ℝ × ℝ)} (h : wtot l ≠ 0) : wtot (norml l) = 1 := by
  have : wtot (norml l) = wtot l / wtot l := by
    conv_lhs => unfold wtot norml
    rw [List.map_map]
    have : (Prod.snd ∘ fun p : ℝ × ℝ => (p.1, p.2 / wtot l)) = fun p : ℝ × ℝ => p.2 * (wtot l)⁻¹ := by
      funext p; simp [div_eq_mul_inv]
    rw [this, List.sum_map_mul_right, div_eq_mul_inv]
    rfl
  rw [this, div_self h]

theorem norml_of_one {l : List (ℝ × ℝ)} (h : wtot l = 1) : norml l = l := by
  unfold norml
  rw [h]
  simp

theorem Xs_norml (l : List (ℝ × ℝ)) : Xs (norml l) = Xs l := by
  simp [Xs, norml, Function.comp_def]

theorem norml_nonneg {l : List (ℝ × ℝ)} (h : ∀ p ∈ l, 0 ≤ p.2) : ∀ p ∈ norml l, 0 ≤ p.2 := by
  intro p hp
  unfold norml at hp
  rw [List.mem_map] at hp
  obtain ⟨q, hq, rfl⟩ := hp
  exact div_nonneg (h q hq) (wtot_nonneg h)

theorem not_neg_Ws {l : List (ℝ × ℝ)} (h : ∀ p ∈ l, 0 ≤ p.2) : ¬ ∃ v ∈ Ws l, v < 0 := by
  rintro ⟨v, hv, hn⟩
  unfold Ws at hv
  rw [List.mem_map] at hv
  obtain ⟨p, hp, rfl⟩ := hv
  rw [zero_def, fin_lt] at hn
  exact absurd (h p hp) (not_le.2 hn)

theorem norml_sorted {l : List (ℝ × ℝ)} (h : SortedP l) : SortedP (norml l) := by
  unfold SortedP norml at *
  rw [List.pairwise_map]
  exact h

theorem norml_perm {l l' : List (ℝ × ℝ)} (h : l.Perm l') : (norml l).Perm (norml l') := by
  unfold norml
  rw [wtot_perm h]
  exact h.map _

theorem idx_Xs (l : List (ℝ × ℝ)) {i : ℕ} (hi : i < l.length) :
    idx (Xs l) i = fin (l.getD i (0, 0)).1 := by
  simp [idx, Xs, hi]

theorem idx_Ws (l : List (ℝ × ℝ)) {i : ℕ} (hi : i < l.length) :
    idx (Ws l) i = fin (l.getD i (0, 0)).2 := by
  simp [idx, Ws, hi]

/-- reordering of a weighted ensemble by any sorting permutation of its values -/
theorem gather_pairs (l : List (ℝ × ℝ)) {ind : List ℕ} (hp : ind.Perm (List.range l.length))
    (hs : ind.Pairwise fun i j => sortLe (idx (Xs l) i) (idx (Xs l) j)) :
    ∃ l', l'.Perm l ∧ SortedP l' ∧ gather (Xs l) ind = Xs l' ∧ gather (Ws l) ind = Ws l' := by
  have hlt : ∀ i ∈ ind, i < l.length := fun i hi => List.mem_range.1 (hp.mem_iff.1 hi)
  refine ⟨ind.map fun i => l.getD i (0, 0), ?_, ?_, ?_, ?_⟩
  · refine (hp.map _).trans ?_
    have : (List.range l.length).map (fun i => l.getD i (0, 0)) = l := by
      apply List.ext_getElem
      · simp
      · intro j h1 h2
        simp [h2]
    rw [this]
  · unfold SortedP
    rw [List.pairwise_map]
    apply hs.imp_of_mem
    intro i j hi hj h
    rw [idx_Xs l (hlt i hi), idx_Xs l (hlt j hj), sortLe_fin] at h
    exact h
  · unfold gather
    conv_rhs => rw [Xs, List.map_map]
    apply List.map_congr_left
    intro i hi
    rw [idx_Xs l (hlt i hi)]
    rfl
  · unfold gather
    conv_rhs => rw [Ws, List.map_map]
    apply List.map_congr_left
    intro i hi
    rw [idx_Ws l (hlt i hi)]
    rfl

theorem crps1_some (path : Path) (est : String) (sorted : Bool) (y : XF) {l : List (ℝ × ℝ)}
    (hw : ∀ p ∈ l, 0 ≤ p.2) (ht : wtot l ≠ 0) :
    ∃ l', l'.Perm (norml l) ∧
      ((!sorted && sortingEstimator est) = true → SortedP l') ∧
      ((!sorted && sortingEstimator est) = false → l' = norml l) ∧
      crps1 path est sorted "propagate" y (Xs l) (some (Ws l)) =
        (kernelW path est).map fun k => k y (Xs l') (Ws l') := by
  rw [crps1_eq _ _ _ _ _ _ _ (by simp)]
  unfold sliceScore sliceNan sliceCore
  rw [if_pos rfl]
  simp only [bind, Except.bind]
  rw [if_neg (not_neg_Ws hw), normW_Ws ht]
  cases hb : !sorted && sortingEstimator est with
  | false =>
    refine ⟨norml l, List.Perm.refl _, by simp, by simp, ?_⟩
    simp only [Bool.false_eq_true, if_false]
    rw [if_neg (not_neg_Ws (norml_nonneg hw)), normW_Ws (by rw [wtot_norml ht]; exact one_ne_zero),
      norml_of_one (wtot_norml ht), Xs_norml]
  | true =>
    obtain ⟨l', h1, h2, h3, h4⟩ := gather_pairs (norml l) (ind := argsort (Xs l))
      (by simpa [norml] using argsort_perm (Xs l))
      (by rw [Xs_norml]; exact argsort_sorted (Xs l))
    rw [Xs_norml] at h3
    refine ⟨l', h1, fun _ => h2, by simp, ?_⟩
    have hw' : ∀ p ∈ l', 0 ≤ p.2 := fun p hp => norml_nonneg hw p (h1.mem_iff.1 hp)
    have ht' : wtot l' = 1 := by rw [wtot_perm h1, wtot_norml ht]
    simp only [if_true]
    rw [h3, h4, if_neg (not_neg_Ws hw'), normW_Ws (by rw [ht']; exact one_ne_zero),
      norml_of_one ht']

/-- weighted version of `SortOK` -/
def SortOKW (sorted : Bool) (l : List (ℝ × ℝ)) : Prop := sorted = true → SortedP l

theorem crps1_sorting {est : String} (he : sortingEstimator est = true) (path : Path)
    {sorted : Bool} (y : XF) {l : List (ℝ × ℝ)}
    (hw : ∀ p ∈ l, 0 ≤ p.2) (ht : wtot l ≠ 0) (hs : SortOKW sorted l) :
    ∃ l', l'.Perm (norml l) ∧ SortedP l' ∧ wtot l' = 1 ∧ (∀ p ∈ l', 0 ≤ p.2) ∧ l' ≠ [] ∧
      crps1 path est sorted "propagate" y (Xs l) (some (Ws l)) =
        (kernelW path est).map fun k => k y (Xs l') (Ws l') := by
  obtain ⟨l', h1, h2, h3, h4⟩ := crps1_some path est sorted y hw ht
  have ht' : wtot l' = 1 := by rw [wtot_perm h1, wtot_norml ht]
  refine ⟨l', h1, ?_, ht', fun p hp => norml_nonneg hw p (h1.mem_iff.1 hp), ?_, h4⟩
  · cases hb : sorted with
    | false => exact h2 (by simp [hb, he])
    | true =>
      rw [h3 (by simp [hb])]
      exact norml_sorted (hs hb)
  · rintro rfl
    simp [wtot] at ht'

theorem crps1W_nrg (path : Path) (sorted : Bool) (y : ℝ) {l : List (ℝ × ℝ)}
    (hw : ∀ p ∈ l, 0 ≤ p.2) (ht : wtot l ≠ 0) :
    crps1 path "nrg" sorted "propagate" (fin y) (Xs l) (some (Ws l))
      = .ok (fin (energy y (norml l))) := by
  obtain ⟨l', h1, h2, h3, h4⟩ := crps1_some path "nrg" sorted (fin y) hw ht
  rw [h4, ← energy_perm y h1]
  cases path <;> simp [kernelW, estimatorGufuncsW, ensembleKernelW, Except.map, GufuncW.nrg_fin,
    ApproxW.nrg_fin]

theorem crps1W_qd (path : Path) {sorted : Bool} (y : ℝ) {l : List (ℝ × ℝ)}
    (hw : ∀ p ∈ l, 0 ≤ p.2) (ht : wtot l ≠ 0) (hs : SortOKW sorted l) :
    crps1 path "qd" sorted "propagate" (fin y) (Xs l) (some (Ws l))
      = .ok (fin (energy y (norml l))) := by
  obtain ⟨l', h1, h2, h3, _, _, h4⟩ :=
    crps1_sorting (est := "qd") (by simp [sortingEstimator]) path (fin y) hw ht hs
  rw [h4, ← energy_perm y h1, ← qdSum_energy y h2 h3]
  cases path <;> simp [kernelW, estimatorGufuncsW, ensembleKernelW, Except.map,
    GufuncW.qd_fin y _ h2, ApproxW.qd_fin]

theorem crps1W_int (path : Path) {sorted : Bool} (y : ℝ) {l : List (ℝ × ℝ)}
    (hw : ∀ p ∈ l, 0 ≤ p.2) (ht : wtot l ≠ 0) (hs : SortOKW sorted l) :
    crps1 path "int" sorted "propagate" (fin y) (Xs l) (some (Ws l))
      = .ok (fin (energy y (norml l))) := by
  obtain ⟨l', h1, h2, h3, h5, h6, h4⟩ :=
    crps1_sorting (est := "int") (by simp [sortingEstimator]) path (fin y) hw ht hs
  rw [h4, ← energy_perm y h1, ← int0_energy y 0 h2 h3]
  cases path <;> simp [kernelW, estimatorGufuncsW, ensembleKernelW, Except.map,
    GufuncW.int_fin y _ h6, ApproxW.int_fin y _ h2 h5 h3]

theorem wsq_perm {l l' : List (ℝ × ℝ)} (h : l.Perm l') : wsq l = wsq l' := by
  unfold wsq
  exact (h.map _).sum_eq

/-- value of the weighted fair estimator -/
def wfair (y : ℝ) (l : List (ℝ × ℝ)) : ℝ := wabs y l - wpair l / 2 / (1 - wsq l)

theorem crps1W_fair (path : Path) (sorted : Bool) (y : ℝ) {l : List (ℝ × ℝ)}
    (hw : ∀ p ∈ l, 0 ≤ p.2) (ht : wtot l ≠ 0) (hq : wsq (norml l) ≠ 1) :
    crps1 path "fair" sorted "propagate" (fin y) (Xs l) (some (Ws l))
      = .ok (fin (wfair y (norml l))) := by
  obtain ⟨l', h1, h2, h3, h4⟩ := crps1_some path "fair" sorted (fin y) hw ht
  have hq' : 1 - wsq l' ≠ 0 := by
    rw [wsq_perm h1]
    exact sub_ne_zero.2 hq.symm
  rw [h4]
  unfold wfair
  rw [← wabs_perm y h1, ← wpair_perm h1, ← wsq_perm h1]
  cases path <;> simp [kernelW, estimatorGufuncsW, ensembleKernelW, Except.map,
    GufuncW.fair_fin y _ hq', ApproxW.fair_fin y _ hq']

/-- value of the weighted PWM estimator on an ascending ensemble -/
def wpwm (y : ℝ) (l : List (ℝ × ℝ)) : ℝ :=
  wabs y l + wmean l
    - 2 * ((wpair l + 2 * wmean l) / 4 - (l.map fun p => p.1 * p.2 ^ 2).sum / 2) / (1 - wsq l)

theorem wpwm_perm (y : ℝ) {l l' : List (ℝ × ℝ)} (h : l.Perm l') : wpwm y l = wpwm y l' := by
  unfold wpwm
  rw [wabs_perm y h, wmean_perm h, wpair_perm h, wsq_perm h, (h.map _).sum_eq]

theorem crps1W_pwm (path : Path) {sorted : Bool} (y : ℝ) {l : List (ℝ × ℝ)}
    (hw : ∀ p ∈ l, 0 ≤ p.2) (ht : wtot l ≠ 0) (hs : SortOKW sorted l) (hq : wsq (norml l) ≠ 1) :
    crps1 path "pwm" sorted "propagate" (fin y) (Xs l) (some (Ws l))
      = .ok (fin (wpwm y (norml l))) := by
  obtain ⟨l', h1, h2, h3, h5, h6, h4⟩ :=
    crps1_sorting (est := "pwm") (by simp [sortingEstimator]) path (fin y) hw ht hs
  have hq' : 1 - wsq l' ≠ 0 := by
    rw [wsq_perm h1]
    exact sub_ne_zero.2 hq.symm
  rw [h4, ← wpwm_perm y h1]
  have e : 2 * ((wpair l' + 2 * wmean l') / 4 - (l'.map fun p => p.1 * p.2 ^ 2).sum / 2)
      = 2 * pwmSum 0 l' := by
    rw [pwmSum_sorted h2, h3]; ring
  unfold wpwm
  rw [e]
  have e2 : 2 * (pwmSum 0 l' / (1 - wsq l')) = 2 * pwmSum 0 l' / (1 - wsq l') := by ring
  cases path
  · simp only [kernelW, estimatorGufuncsW]
    simp [Except.map, GufuncW.pwm_fin, fin_div hq']
  · simp only [kernelW, ensembleKernelW]
    simp [Except.map, ApproxW.pwm_fin, fin_div hq', e2]

end Verif
