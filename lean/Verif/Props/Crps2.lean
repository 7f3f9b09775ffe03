import Verif.Lemmas.CrpsEquiv

/-!
# Properties C06 - C10, C18, C61, C62, C65 of `crps_ensemble`
-/

noncomputable section

open scoped Classical

namespace Verif

open XF Py Api

/-! ### C06 -/

/-- C06: the score is non-negative, and zero exactly for a perfect ensemble. -/
theorem C06_nonneg_and_zero_iff (path : Path) (est : String)
    (he : est = "nrg" ∨ est = "qd" ∨ est = "int") (sorted : Bool) (y : ℝ) (xs : List ℝ)
    (h : xs ≠ []) (hs : sorted = true → xs.Pairwise (· ≤ ·)) :
    ∃ v : ℝ, crps1 path est sorted "propagate" (fin y) (xs.map fin) none = .ok (fin v) ∧ 0 ≤ v ∧
      (v = 0 ↔ ∀ x ∈ xs, x = y) := by
  refine ⟨energy y (uw xs), ?_, energy_nonneg (uw_nonneg xs) (wtot_uw h) y, ?_⟩
  · rcases he with rfl | rfl | rfl
    · exact crps1_nrg path sorted y h
    · exact crps1_qd path y h hs
    · exact crps1_int path y h hs
  · rw [energy_eq_zero (uw_nonneg xs) (wtot_uw h)]
    constructor
    · intro h1 x hx
      refine h1 (x, 1 / (xs.length : ℝ)) ?_ (one_div_ne_zero (len_ne h))
      unfold uw
      exact List.mem_map_of_mem hx
    · intro h1 p hp _
      unfold uw at hp
      rw [List.mem_map] at hp
      obtain ⟨x, hx, rfl⟩ := hp
      exact h1 x hx

example : ([1, 2, 2] : List ℝ) ≠ [] ∧ (true = true → ([1, 2, 2] : List ℝ).Pairwise (· ≤ ·)) := by
  simp

/-- C06 with weights: only members carrying weight count. -/
theorem C06_weighted (path : Path) (est : String)
    (he : est = "nrg" ∨ est = "qd" ∨ est = "int") (sorted : Bool) (y : ℝ) (l : List (ℝ × ℝ))
    (hw : ∀ p ∈ l, 0 ≤ p.2) (ht : 0 < (l.map Prod.snd).sum)
    (hs : sorted = true → l.Pairwise fun p q => p.1 ≤ q.1) :
    ∃ v : ℝ, crps1 path est sorted "propagate" (fin y) (l.map fun p => fin p.1)
        (some (l.map fun p => fin p.2)) = .ok (fin v) ∧ 0 ≤ v ∧
      (v = 0 ↔ ∀ p ∈ l, p.2 ≠ 0 → p.1 = y) := by
  have ht' : wtot l ≠ 0 := ht.ne'
  refine ⟨energy y (norml l), ?_, energy_nonneg (norml_nonneg hw) (wtot_norml ht') y, ?_⟩
  · rcases he with rfl | rfl | rfl
    · exact crps1W_nrg path sorted y hw ht'
    · exact crps1W_qd path y hw ht' hs
    · exact crps1W_int path y hw ht' hs
  · rw [energy_eq_zero (norml_nonneg hw) (wtot_norml ht')]
    constructor
    · intro h1 p hp hp0
      refine h1 (p.1, p.2 / wtot l) ?_ (div_ne_zero hp0 ht')
      unfold norml
      exact List.mem_map_of_mem (f := fun p : ℝ × ℝ => (p.1, p.2 / wtot l)) hp
    · intro h1 p hp hp0
      unfold norml at hp
      rw [List.mem_map] at hp
      obtain ⟨q, hq, rfl⟩ := hp
      exact h1 q hq fun h => hp0 (by simp [h])

example : ("qd" = "nrg" ∨ "qd" = "qd" ∨ "qd" = "int") ∧ ([2, 2] : List ℝ) ≠ [] ∧
    (true = true → ([2, 2] : List ℝ).Pairwise (· ≤ ·)) := by simp

/-! ### C07 -/

/-- C07: permuting the members does not change the score. -/
theorem C07_permutation (path : Path) (est : String)
    (he : est ∈ ["nrg", "fair", "pwm", "qd", "int"]) (sorted sorted' : Bool) (y : ℝ)
    (xs ys : List ℝ) (h : xs ≠ []) (hp : xs.Perm ys)
    (hs : sorted = true → xs.Pairwise (· ≤ ·)) (hs' : sorted' = true → ys.Pairwise (· ≤ ·)) :
    crps1 path est sorted "propagate" (fin y) (xs.map fin) none
      = crps1 path est sorted' "propagate" (fin y) (ys.map fin) none := by
  have h' : ys ≠ [] := fun h0 => h (by rw [h0] at hp; exact hp.eq_nil)
  have he' := energy_perm y (uw_perm hp)
  simp only [List.mem_cons, List.not_mem_nil, or_false] at he
  rcases he with rfl | rfl | rfl | rfl | rfl
  · rw [crps1_nrg _ _ _ h, crps1_nrg _ _ _ h', he']
  · rcases cases_length h with ⟨x, rfl⟩ | h2
    · rw [← List.singleton_perm.1 hp]
      simp only [List.map_cons, List.map_nil]
      rw [crps1_fair_one, crps1_fair_one]
    · rw [crps1_fair _ _ _ h2, crps1_fair _ _ _ (hp.length_eq ▸ h2), fairCrps_perm y hp]
  · rcases cases_length h with ⟨x, rfl⟩ | h2
    · rw [← List.singleton_perm.1 hp]
      simp only [List.map_cons, List.map_nil]
      rw [crps1_pwm_one, crps1_pwm_one]
    · rw [crps1_pwm _ _ h2 hs, crps1_pwm _ _ (hp.length_eq ▸ h2) hs', fairCrps_perm y hp]
  · rw [crps1_qd _ _ h hs, crps1_qd _ _ h' hs', he']
  · rw [crps1_int _ _ h hs, crps1_int _ _ h' hs', he']

example : "pwm" ∈ ["nrg", "fair", "pwm", "qd", "int"] ∧ ([3, 1] : List ℝ).Perm [1, 3] ∧
    (false = true → ([3, 1] : List ℝ).Pairwise (· ≤ ·)) ∧
    (true = true → ([1, 3] : List ℝ).Pairwise (· ≤ ·)) := by
  refine ⟨by simp, List.Perm.swap _ _ _, by simp, by simp⟩

/-- C07 with weights: members are permuted together with their weights. -/
theorem C07_permutation_weighted (path : Path) (est : String)
    (he : est ∈ ["nrg", "fair", "pwm", "qd", "int"]) (sorted sorted' : Bool) (y : ℝ)
    (l m : List (ℝ × ℝ)) (hp : l.Perm m) (hw : ∀ p ∈ l, 0 ≤ p.2) (ht : 0 < (l.map Prod.snd).sum)
    (hs : sorted = true → l.Pairwise fun p q => p.1 ≤ q.1)
    (hs' : sorted' = true → m.Pairwise fun p q => p.1 ≤ q.1) :
    crps1 path est sorted "propagate" (fin y) (l.map fun p => fin p.1)
        (some (l.map fun p => fin p.2))
      = crps1 path est sorted' "propagate" (fin y) (m.map fun p => fin p.1)
        (some (m.map fun p => fin p.2)) := by
  have ht' : wtot l ≠ 0 := ht.ne'
  have htm : wtot m ≠ 0 := by rw [← wtot_perm hp]; exact ht'
  have hwm : ∀ p ∈ m, 0 ≤ p.2 := fun p hm => hw p (hp.mem_iff.2 hm)
  have hn := norml_perm hp
  have he' := energy_perm y hn
  show crps1 path est sorted "propagate" (fin y) (Xs l) (some (Ws l))
      = crps1 path est sorted' "propagate" (fin y) (Xs m) (some (Ws m))
  simp only [List.mem_cons, List.not_mem_nil, or_false] at he
  rcases he with rfl | rfl | rfl | rfl | rfl
  · rw [crps1W_nrg _ _ _ hw ht', crps1W_nrg _ _ _ hwm htm, he']
  · by_cases hq : wsq (norml l) = 1
    · rw [crps1W_fair_nan _ _ _ hw ht' hq, crps1W_fair_nan _ _ _ hwm htm (by rw [← wsq_perm hn, hq])]
    · rw [crps1W_fair _ _ _ hw ht' hq, crps1W_fair _ _ _ hwm htm (by rw [← wsq_perm hn]; exact hq)]
      unfold wfair
      rw [wabs_perm y hn, wpair_perm hn, wsq_perm hn]
  · by_cases hq : wsq (norml l) = 1
    · rw [crps1W_pwm_nan _ _ hw ht' hq, crps1W_pwm_nan _ _ hwm htm (by rw [← wsq_perm hn, hq])]
    · rw [crps1W_pwm _ _ hw ht' hs hq, crps1W_pwm _ _ hwm htm hs' (by rw [← wsq_perm hn]; exact hq),
        wpwm_perm y hn]
  · rw [crps1W_qd _ _ hw ht' hs, crps1W_qd _ _ hwm htm hs', he']
  · rw [crps1W_int _ _ hw ht' hs, crps1W_int _ _ hwm htm hs', he']

example : "pwm" ∈ ["nrg", "fair", "pwm", "qd", "int"] ∧
    ([3, 1, 2] : List ℝ).Perm [1, 2, 3] ∧
    (true = true → ([1, 2, 3] : List ℝ).Pairwise (· ≤ ·)) := by
  refine ⟨by simp, ?_, by simp; norm_num⟩
  exact (List.perm_append_comm (l₁ := [3]) (l₂ := [1, 2]))

/-! ### C08 -/

theorem sorted_aff {c d : ℝ} (hc : 0 ≤ c) {xs : List ℝ} (h : xs.Pairwise (· ≤ ·)) :
    (xs.map fun x => c * x + d).Pairwise (· ≤ ·) := by
  rw [List.pairwise_map]
  exact h.imp fun hab => by nlinarith

/-- C08: the score of `c x + d` against `c y + d` is `|c|` times the score, for every estimator. -/
theorem C08_equivariance (path : Path) (est : String) (he : est ∈ Spec.estimators) (c d y : ℝ)
    (xs : List ℝ) (h : xs ≠ []) :
    crps1 path est false "propagate" (fin (c * y + d)) ((xs.map fun x => c * x + d).map fin) none
      = (crps1 path est false "propagate" (fin y) (xs.map fin) none).map fun v => fin |c| * v := by
  have h' : (xs.map fun x => c * x + d) ≠ [] := by simpa using h
  have hne : xs.map fin ≠ [] := by simpa using h
  have hne' : (xs.map fun x => c * x + d).map fin ≠ [] := by simpa using h
  have hs : SortOK false xs := by simp [SortOK]
  have hs' : SortOK false (xs.map fun x => c * x + d) := by simp [SortOK]
  simp only [Spec.estimators, List.mem_cons, List.not_mem_nil, or_false] at he
  rcases he with rfl | rfl | rfl | rfl | rfl | rfl | rfl
  · rw [crps1_nrg _ _ _ h, crps1_nrg _ _ _ h', uw_aff, energy_aff]; rfl
  · rcases cases_length h with ⟨x, rfl⟩ | h2
    · simp only [List.map_cons, List.map_nil]
      rw [crps1_fair_one, crps1_fair_one]; simp [Except.map]
    · rw [crps1_fair _ _ _ h2, crps1_fair _ _ _ (by simpa using h2), fairCrps_aff]; rfl
  · rcases cases_length h with ⟨x, rfl⟩ | h2
    · simp only [List.map_cons, List.map_nil]
      rw [crps1_pwm_one, crps1_pwm_one]; simp [Except.map]
    · rw [crps1_pwm _ _ h2 hs, crps1_pwm _ _ (by simpa using h2) hs', fairCrps_aff]; rfl
  · rw [crps1_qd _ _ h hs, crps1_qd _ _ h' hs', uw_aff, energy_aff]; rfl
  · rw [crps1_int _ _ h hs, crps1_int _ _ h' hs', uw_aff, energy_aff]; rfl
  · rw [crps1_akr _ _ _ _ hne, crps1_akr _ _ _ _ hne', Gufunc.akr_fin _ _ h, Gufunc.akr_fin _ _ h',
      List.length_map, circ_aff c d _ _ fun i hi => prevI_lt hi, sabs_aff]
    simp only [Except.map, fin_mul]
    congr 2; ring
  · rw [crps1_akrCircperm _ _ _ _ hne, crps1_akrCircperm _ _ _ _ hne', Gufunc.akrCircperm_fin _ _ h,
      Gufunc.akrCircperm_fin _ _ h', List.length_map, circ_aff c d _ _ fun i hi => sigma_lt hi,
      sabs_aff]
    simp only [Except.map, fin_mul]
    congr 2; ring

example : "int" ∈ Spec.estimators ∧ ([3, 1, 2] : List ℝ) ≠ [] := by simp [Spec.estimators]

/-- weighted sum over a rotation, the weight taken at the rotated index -/
def circV (g : ℕ → ℕ) (l : List (ℝ × ℝ)) : ℝ :=
  ((List.range l.length).map fun i =>
    |(l.getD (g i) (0, 0)).1 - (l.getD i (0, 0)).1| * (l.getD (g i) (0, 0)).2).sum

theorem circV_aff (c d : ℝ) (g : ℕ → ℕ) (l : List (ℝ × ℝ)) (hg : ∀ i < l.length, g i < l.length) :
    circV g (affP c d l) = |c| * circV g l := by
  unfold circV affP
  rw [← List.sum_map_mul_left, List.length_map]
  congr 1
  apply List.map_congr_left
  intro i hi
  have hi := List.mem_range.1 hi
  have h2 := hg i hi
  simp only [List.getD_eq_getElem?_getD, List.getElem?_map, List.getElem?_eq_getElem hi,
    List.getElem?_eq_getElem h2, Option.map_some, Option.getD_some]
  rw [aff_abs]; ring

theorem ApproxW.akrCircperm_fin (y : ℝ) (l : List (ℝ × ℝ)) :
    ApproxW.akrCircperm (fin y) (Xs l) (Ws l)
      = fin (wabs y l - 1 / 2 * circV (fun i => (i + (l.length - 1) / 2) % l.length) l) := by
  unfold ApproxW.akrCircperm
  dsimp only
  rw [ApproxW.e1_fin, Xs_length, range_sum_fin _ _ (fun i =>
    |(l.getD ((i + (l.length - 1) / 2) % l.length) (0, 0)).1 - (l.getD i (0, 0)).1|
      * (l.getD ((i + (l.length - 1) / 2) % l.length) (0, 0)).2)]
  · rw [half_fin]; simp only [fin_mul, fin_sub]; rfl
  · intro i hi
    have h2 : (i + (l.length - 1) / 2) % l.length < l.length := Nat.mod_lt _ (by omega)
    rw [idx_Xs l hi, idx_Xs l h2, idx_Ws l h2]
    simp

theorem crps1W_akrCircperm_array (sorted : Bool) (y : ℝ) {l : List (ℝ × ℝ)}
    (hw : ∀ p ∈ l, 0 ≤ p.2) (ht : wtot l ≠ 0) :
    crps1 .array "akr_circperm" sorted "propagate" (fin y) (Xs l) (some (Ws l))
      = .ok (fin (wabs y (norml l)
          - 1 / 2 * circV (fun i => (i + (l.length - 1) / 2) % l.length) (norml l))) := by
  obtain ⟨l', h1, h2, h3, h4⟩ := crps1_some .array "akr_circperm" sorted (fin y) hw ht
  rw [h3 (by simp [sortingEstimator])] at h4
  rw [h4]
  have hl : (norml l).length = l.length := by simp [norml]
  have e := ApproxW.akrCircperm_fin y (norml l)
  rw [hl] at e
  simp [kernelW, ensembleKernelW, Except.map, e]

/-- C08 for weighted ensembles.  For `pwm` it needs `0 ≤ c`.

Full statement: the same without `hpwm`; it is false, see `C08_weighted_pwm_reflection_fails`. -/
theorem C08_equivariance_weighted_partial (path : Path) (est : String) (he : est ∈ Spec.estimators)
    (c d y : ℝ) (l : List (ℝ × ℝ)) (hw : ∀ p ∈ l, 0 ≤ p.2) (ht : 0 < (l.map Prod.snd).sum)
    (hpwm : est = "pwm" → 0 ≤ c) :
    crps1 path est false "propagate" (fin (c * y + d)) (l.map fun p => fin (c * p.1 + d))
        (some (l.map fun p => fin p.2))
      = (crps1 path est false "propagate" (fin y) (l.map fun p => fin p.1)
        (some (l.map fun p => fin p.2))).map fun v => fin |c| * v := by
  have ht' : wtot l ≠ 0 := ht.ne'
  have e1 : (l.map fun p => fin (c * p.1 + d)) = Xs (affP c d l) := by
    simp [Xs, affP, Function.comp_def]
  have e2 : (l.map fun p => fin p.2) = Ws (affP c d l) := by simp [Ws, affP, Function.comp_def]
  have hwa : ∀ p ∈ affP c d l, 0 ≤ p.2 := by
    intro p hp
    unfold affP at hp
    rw [List.mem_map] at hp
    obtain ⟨q, hq, rfl⟩ := hp
    exact hw q hq
  have hta : wtot (affP c d l) ≠ 0 := by rw [wtot_aff]; exact ht'
  have hs : SortOKW false l := by simp [SortOKW]
  have hs' : SortOKW false (affP c d l) := by simp [SortOKW]
  have hla : (affP c d l).length = l.length := by simp [affP]
  have hln : (norml l).length = l.length := by simp [norml]
  rw [e1]
  conv_lhs => rw [e2]
  show _ = (crps1 path est false "propagate" (fin y) (Xs l) (some (Ws l))).map fun v => fin |c| * v
  simp only [Spec.estimators, List.mem_cons, List.not_mem_nil, or_false] at he
  rcases he with rfl | rfl | rfl | rfl | rfl | rfl | rfl
  · rw [crps1W_nrg _ _ _ hw ht', crps1W_nrg _ _ _ hwa hta, norml_aff, energy_aff]; rfl
  · by_cases hq : wsq (norml l) = 1
    · rw [crps1W_fair_nan _ _ _ hw ht' hq, crps1W_fair_nan _ _ _ hwa hta
        (by rw [norml_aff, wsq_aff, hq])]
      simp [Except.map]
    · rw [crps1W_fair _ _ _ hw ht' hq, crps1W_fair _ _ _ hwa hta
        (by rw [norml_aff, wsq_aff]; exact hq), norml_aff, wfair_aff]; rfl
  · by_cases hq : wsq (norml l) = 1
    · rw [crps1W_pwm_nan _ _ hw ht' hq, crps1W_pwm_nan _ _ hwa hta
        (by rw [norml_aff, wsq_aff, hq])]
      simp [Except.map]
    · rw [crps1W_pwm _ _ hw ht' hs hq, crps1W_pwm _ _ hwa hta hs'
        (by rw [norml_aff, wsq_aff]; exact hq), norml_aff, wpwm_aff (hpwm rfl) _ _ _ hq
        (wtot_norml ht')]; rfl
  · rw [crps1W_qd _ _ hw ht' hs, crps1W_qd _ _ hwa hta hs', norml_aff, energy_aff]; rfl
  · rw [crps1W_int _ _ hw ht' hs, crps1W_int _ _ hwa hta hs', norml_aff, energy_aff]; rfl
  · rw [crps1W_akr _ _ _ hw ht', crps1W_akr _ _ _ hwa hta, norml_aff, wabs_aff, hla, circW_aff]
    · simp only [Except.map, fin_mul]
      congr 2; ring
    · rw [hln]; exact fun i hi => prevI_lt hi
  · cases path
    · rw [crps1W_akrCircperm _ _ _ hw ht' (by simp),
        crps1W_akrCircperm _ _ _ hwa hta (by simp), norml_aff, wabs_aff, hla, circW_aff]
      · simp only [Except.map, fin_mul]
        congr 2; ring
      · rw [hln]; exact fun i hi => sigma_lt hi
    · rw [crps1W_akrCircperm_array _ _ hw ht', crps1W_akrCircperm_array _ _ hwa hta, norml_aff,
        wabs_aff, hla, circV_aff]
      · simp only [Except.map, fin_mul]
        congr 2; ring
      · rw [hln]; exact fun i hi => Nat.mod_lt _ (by omega)

example : (∀ p ∈ ([(1, 2), (3, 0)] : List (ℝ × ℝ)), 0 ≤ p.2) ∧
    0 < (([(1, 2), (3, 0)] : List (ℝ × ℝ)).map Prod.snd).sum ∧
    ("akr_circperm" = "pwm" → (0 : ℝ) ≤ -2) := by
  refine ⟨?_, by norm_num, by simp⟩
  intro p hp; simp at hp; rcases hp with rfl | rfl <;> norm_num

/-- C08 fails for weighted `pwm` under reflection: members 0, 1 with weights 1, 3. -/
theorem C08_weighted_pwm_reflection_fails (path : Path) :
    ∃ a b : ℝ, crps1 path "pwm" false "propagate" (fin 0) [fin 0, fin 1] (some [fin 1, fin 3])
        = .ok (fin a) ∧
      crps1 path "pwm" false "propagate" (fin (-0)) [fin (-0), fin (-1)] (some [fin 1, fin 3])
        = .ok (fin b) ∧ b ≠ |(-1 : ℝ)| * a := by
  have hw : ∀ p ∈ ([(0, 1), (1, 3)] : List (ℝ × ℝ)), 0 ≤ p.2 := by
    intro p hp; simp at hp; rcases hp with rfl | rfl <;> norm_num
  have hw' : ∀ p ∈ ([(-0, 1), (-1, 3)] : List (ℝ × ℝ)), 0 ≤ p.2 := by
    intro p hp; simp at hp; rcases hp with rfl | rfl <;> norm_num
  have ht : wtot ([(0, 1), (1, 3)] : List (ℝ × ℝ)) ≠ 0 := by norm_num [wtot]
  have ht' : wtot ([(-0, 1), (-1, 3)] : List (ℝ × ℝ)) ≠ 0 := by norm_num [wtot]
  have h1 := crps1W_pwm path (sorted := false) 0 hw ht (by simp [SortOKW])
    (by norm_num [wsq, norml, wtot])
  have h2 := crps1W_pwm path (sorted := false) (-0) hw' ht' (by simp [SortOKW])
    (by norm_num [wsq, norml, wtot])
  refine ⟨_, _, h1, h2, ?_⟩
  norm_num [wpwm, wabs, wmean, wpair, pairsAll, wsq, norml, wtot]

/-! ### C09 -/

theorem norml_const {k : ℝ} (hk : k ≠ 0) (xs : List ℝ) (h : xs ≠ []) :
    norml (xs.map fun x => (x, k)) = uw xs := by
  have : wtot (xs.map fun x => (x, k)) = xs.length * k := by
    simp [wtot, Function.comp_def]
  unfold norml uw
  rw [this, List.map_map]
  apply List.map_congr_left
  intro x _
  have := len_ne h
  simp only [Function.comp]
  congr 1
  field_simp

theorem wfair_uw {xs : List ℝ} (h : 2 ≤ xs.length) (y : ℝ) :
    wfair y (uw xs) = Spec.fairCrps y xs ∧ wsq (uw xs) ≠ 1 := by
  have hx : xs ≠ [] := by rintro rfl; simp at h
  have h2 : (2 : ℝ) ≤ xs.length := by exact_mod_cast h
  have h3 : (xs.length : ℝ) ≠ 0 := by linarith
  have h4 : (xs.length : ℝ) - 1 ≠ 0 := by linarith
  constructor
  · unfold wfair Spec.fairCrps
    rw [wabs_uw, wpair_uw, wsq_uw hx, ← sabs_eq, ← spair_eq]
    congr 1
    have : 1 - 1 / (xs.length : ℝ) = (xs.length - 1) / xs.length := by field_simp
    rw [this]
    field_simp
  · rw [wsq_uw hx]
    intro h5
    rw [div_eq_one_iff_eq h3] at h5
    exact h4 (by linarith)

theorem wpwm_uw {xs : List ℝ} (h : 2 ≤ xs.length) (y : ℝ) :
    wpwm y (uw xs) = Spec.fairCrps y xs := by
  have hx : xs ≠ [] := by rintro rfl; simp at h
  rw [wpwm_eq _ _ (wfair_uw h y).2, (wfair_uw h y).1]
  have : wxsq (uw xs) = wmean (uw xs) * wsq (uw xs) := by
    rw [wsq_uw hx]
    unfold wxsq wmean uw
    rw [List.map_map, List.map_map, ← List.sum_map_mul_right]
    congr 1
    apply List.map_congr_left
    intro x _
    simp only [Function.comp]; ring
  rw [this]; simp

/-- C09 for every estimator except `akr_circperm` on the array path with an even number of members.

Full statement: the same without `hodd`; it is false, see `C09_akr_circperm_differs`. -/
theorem C09_constant_weights_partial (path : Path) (est : String) (he : est ∈ Spec.estimators)
    (sorted : Bool) (y k : ℝ) (hk : 0 < k) (xs : List ℝ) (h : xs ≠ [])
    (hs : sorted = true → xs.Pairwise (· ≤ ·))
    (hodd : est = "akr_circperm" → path = .array → xs.length % 2 = 1) :
    crps1 path est sorted "propagate" (fin y) (xs.map fin) (some (xs.map fun _ => fin k))
      = crps1 path est sorted "propagate" (fin y) (xs.map fin) none := by
  set l := xs.map fun x => (x, k) with hl
  have e1 : xs.map fin = Xs l := by simp [Xs, hl, Function.comp_def]
  have e2 : (xs.map fun _ => fin k) = Ws l := by simp [Ws, hl, Function.comp_def]
  have hw : ∀ p ∈ l, 0 ≤ p.2 := by
    intro p hp
    rw [hl, List.mem_map] at hp
    obtain ⟨x, _, rfl⟩ := hp
    exact hk.le
  have hn : norml l = uw xs := norml_const hk.ne' xs h
  have ht : wtot l ≠ 0 := by
    have : wtot l = xs.length * k := by simp [wtot, hl, Function.comp_def]
    rw [this]
    exact mul_ne_zero (len_ne h) hk.ne'
  have hs' : SortOKW sorted l := by
    intro h1
    unfold SortedP
    rw [hl, List.pairwise_map]
    exact hs h1
  have hne : xs.map fin ≠ [] := by simpa using h
  have hll : l.length = xs.length := by simp [hl]
  rw [e2]
  conv_lhs => rw [e1]
  simp only [Spec.estimators, List.mem_cons, List.not_mem_nil, or_false] at he
  rcases he with rfl | rfl | rfl | rfl | rfl | rfl | rfl
  · rw [crps1W_nrg _ _ _ hw ht, crps1_nrg _ _ _ h, hn]
  · rcases cases_length h with ⟨x, rfl⟩ | h2
    · rw [crps1W_fair_nan _ _ _ hw ht (by rw [hn]; simp [wsq, uw])]
      simp only [List.map_cons, List.map_nil]
      rw [crps1_fair_one]
    · rw [crps1W_fair _ _ _ hw ht (by rw [hn]; exact (wfair_uw h2 y).2), crps1_fair _ _ _ h2, hn,
        (wfair_uw h2 y).1]
  · rcases cases_length h with ⟨x, rfl⟩ | h2
    · rw [crps1W_pwm_nan _ _ hw ht (by rw [hn]; simp [wsq, uw])]
      simp only [List.map_cons, List.map_nil]
      rw [crps1_pwm_one]
    · rw [crps1W_pwm _ _ hw ht hs' (by rw [hn]; exact (wfair_uw h2 y).2), crps1_pwm _ _ h2 hs, hn,
        wpwm_uw h2]
  · rw [crps1W_qd _ _ hw ht hs', crps1_qd _ _ h hs, hn]
  · rw [crps1W_int _ _ hw ht hs', crps1_int _ _ h hs, hn]
  · rw [crps1W_akr _ _ _ hw ht, crps1_akr _ _ _ _ hne, hn, hll, Gufunc.akr_fin _ _ h,
      circW_uw _ _ fun i hi => prevI_lt hi, wabs_uw]
  · rw [crps1W_akrCircperm _ _ _ hw ht (by rw [hll]; exact hodd rfl), crps1_akrCircperm _ _ _ _ hne,
      hn, hll, Gufunc.akrCircperm_fin _ _ h, circW_uw _ _ fun i hi => sigma_lt hi, wabs_uw]

example : "akr_circperm" ∈ Spec.estimators ∧ (0 : ℝ) < 3 ∧ ([1, 2, 4] : List ℝ) ≠ [] ∧
    ([1, 2, 4] : List ℝ).length % 2 = 1 := by simp [Spec.estimators]

/-- C09 fails on the array path for `akr_circperm` with two members. -/
theorem C09_akr_circperm_differs :
    crps1 .array "akr_circperm" false "propagate" (fin 0) [fin 0, fin 2] (some [fin 1, fin 1])
        = .ok (fin 1) ∧
      crps1 .array "akr_circperm" false "propagate" (fin 0) [fin 0, fin 2] none = .ok (fin 0) := by
  refine ⟨C05_akr_circperm_disagrees.2, ?_⟩
  rw [crps1_akrCircperm _ _ _ _ (by simp)]
  have := Gufunc.akrCircperm_fin 0 [0, 2] (by simp)
  simp only [List.map_cons, List.map_nil] at this
  rw [this]
  congr 2
  simp [sabs, circ, Gufunc.sigma, List.range_succ]

/-! ### C10 -/

theorem fin_mul_div {c : ℝ} (hc : 0 < c) (v s : XF) : (fin c * v) / (fin c * s) = v / s := by
  have hm : ∀ x, XF.mul (fin c) x = fin c * x := fun _ => rfl
  have e1 : fin c * pinf = pinf := by rw [fin_mul_pinf, infMul_eq]; simp [hc, hc.ne']
  have e2 : fin c * ninf = ninf := by rw [fin_mul_ninf, infMul_eq]; simp [hc, hc.ne']
  cases v <;> cases s <;> simp only [e1, e2, mul_nan, nan_div, div_nan, fin_mul] <;>
    simp only [div_def, XF.div]
  · simp [mul_nonneg_iff_of_pos_left hc]
  · simp [mul_nonneg_iff_of_pos_left hc]
  · rename_i a b
    simp only [mul_eq_zero, hc.ne', false_or, mul_pos_iff_of_pos_left hc, mul_div_mul_left _ _ hc.ne']

theorem fin_mul_add {c : ℝ} (hc : 0 < c) (a b : XF) : fin c * (a + b) = fin c * a + fin c * b := by
  have e1 : fin c * pinf = pinf := by rw [fin_mul_pinf, infMul_eq]; simp [hc, hc.ne']
  have e2 : fin c * ninf = ninf := by rw [fin_mul_ninf, infMul_eq]; simp [hc, hc.ne']
  cases a <;> cases b <;> simp only [add_def, XF.add, e1, e2, mul_nan, fin_mul] <;>
    first | rfl | (rw [mul_add])

theorem fin_mul_sum {c : ℝ} (hc : 0 < c) (l : List XF) :
    (l.map fun v => fin c * v).sum = fin c * l.sum := by
  induction l with
  | nil => simp [zero_def]
  | cons a l ih => rw [List.map_cons, List.sum_cons, List.sum_cons, ih, fin_mul_add hc]

theorem fin_mul_lt_zero {c : ℝ} (hc : 0 < c) (v : XF) : fin c * v < 0 ↔ v < 0 := by
  have e1 : fin c * pinf = pinf := by rw [fin_mul_pinf, infMul_eq]; simp [hc, hc.ne']
  have e2 : fin c * ninf = ninf := by rw [fin_mul_ninf, infMul_eq]; simp [hc, hc.ne']
  cases v
  · simp
  · rw [e2]
  · rw [e1]
  · rw [fin_mul, zero_def, fin_lt, fin_lt]
    constructor
    · intro h; by_contra h'; nlinarith [mul_nonneg hc.le (not_lt.1 h')]
    · intro h; exact mul_neg_of_pos_of_neg hc h

theorem fin_mul_isnan {c : ℝ} (hc : 0 < c) (v : XF) : (fin c * v).isnan ↔ v.isnan := by
  have e1 : fin c * pinf = pinf := by rw [fin_mul_pinf, infMul_eq]; simp [hc, hc.ne']
  have e2 : fin c * ninf = ninf := by rw [fin_mul_ninf, infMul_eq]; simp [hc, hc.ne']
  cases v <;> simp [e1, e2]

theorem normW_scale {c : ℝ} (hc : 0 < c) (w : List XF) :
    normW (w.map fun v => fin c * v) = normW w := by
  unfold normW
  rw [fin_mul_sum hc, List.map_map]
  apply List.map_congr_left
  intro v _
  exact fin_mul_div hc _ _

theorem sliceCore_scale {c : ℝ} (hc : 0 < c) (path : Path) (est : String) (sorted : Bool) (y : XF)
    (xs w : List XF) :
    sliceCore path est sorted y xs (some (w.map fun v => fin c * v))
      = sliceCore path est sorted y xs (some w) := by
  have hneg : (∃ v ∈ w.map fun v => fin c * v, v < 0) ↔ ∃ v ∈ w, v < 0 := by
    simp only [List.mem_map, exists_exists_and_eq_and, fin_mul_lt_zero hc]
  unfold sliceCore
  simp only [normW_scale hc, hneg]

/-- C10: multiplying all weights by a positive constant changes nothing, for every estimator,
policy, path and all float weights (NaN and infinities included). -/
theorem C10_weight_scale (path : Path) (est : String) (sorted : Bool) (policy : String) (c : ℝ)
    (hc : 0 < c) (y : XF) (xs ws : List XF) (hlen : ws.length = xs.length) :
    crps1 path est sorted policy y xs (some (ws.map fun v => fin c * v))
      = crps1 path est sorted policy y xs (some ws) := by
  rw [crps1_eq _ _ _ _ _ _ _ (by simpa using hlen), crps1_eq _ _ _ _ _ _ _ (by simpa using hlen)]
  unfold sliceScore sliceNan
  by_cases h1 : policy = "propagate"
  · simp only [if_pos h1, bind, Except.bind]
    exact sliceCore_scale hc _ _ _ _ _ _
  simp only [if_neg h1]
  by_cases h2 : policy = "raise"
  · have hn : (∃ v ∈ ws.map fun v => fin c * v, v.isnan) ↔ ∃ v ∈ ws, v.isnan := by
      simp only [List.mem_map, exists_exists_and_eq_and, fin_mul_isnan hc]
    simp only [if_pos h2, Option.some.injEq, exists_eq_left', hn]
    split_ifs
    · rfl
    · exact sliceCore_scale hc _ _ _ _ _ _
  simp only [if_neg h2]
  by_cases h3 : policy = "omit"
  · simp only [if_pos h3]
    split_ifs
    · rfl
    · have : List.zipWith (fun x v : XF => if x.isnan ∨ v.isnan then 0 else v) xs
          (ws.map fun v => fin c * v)
          = (List.zipWith (fun x v : XF => if x.isnan ∨ v.isnan then 0 else v) xs ws).map
            fun v => fin c * v := by
        rw [List.zipWith_map_right, List.map_zipWith]
        congr 1
        funext x v
        simp only [fin_mul_isnan hc]
        split_ifs
        · simp [zero_def]
        · rfl
      simp only [bind, Except.bind]
      rw [this]
      exact sliceCore_scale hc _ _ _ _ _ _
  · simp only [if_neg h3]

example : (0 : ℝ) < 5 ∧ ([fin 1, nan] : List XF).length = ([fin 2, fin 0] : List XF).length := by
  simp

/-- C10: the second normalisation performed by `crps_ensemble` is the identity. -/
theorem C10_normalisation_idempotent (l : List ℝ) (h : l.sum ≠ 0) :
    normW (normW (l.map fin)) = normW (l.map fin) := by
  have e : normW (l.map fin) = (l.map fun v => v / l.sum).map fin := by
    unfold normW
    rw [sum_map_fin, List.map_map, List.map_map]
    apply List.map_congr_left
    intro v _
    simp [fin_div h]
  have e2 : (l.map fun v => v / l.sum).sum = 1 := by
    have : (l.map fun v => v / l.sum) = l.map fun v => v * l.sum⁻¹ := by
      simp only [div_eq_mul_inv]
    rw [this, List.sum_map_mul_right, List.map_id', mul_inv_cancel₀ h]
  rw [e]
  unfold normW
  rw [sum_map_fin, e2]
  rw [List.map_map]
  apply List.map_congr_left
  intro v _
  simp [fin_div one_ne_zero]

example : ([1, 2, 5] : List ℝ).sum ≠ 0 := by norm_num

/-! ### C18 -/

theorem argsort_of_sorted {xs : List XF} (h : xs.Pairwise sortLe) :
    argsort xs = List.range xs.length := by
  unfold argsort
  apply List.mergeSort_of_pairwise
  rw [List.pairwise_iff_getElem]
  intro i j hi hj hij
  simp only [List.getElem_range, decide_eq_true_eq]
  simp only [List.length_range] at hi hj
  have := List.pairwise_iff_getElem.1 h i j hi hj hij
  simpa [idx, hi, hj] using this

theorem gather_range {r : List XF} {n : ℕ} (h : r.length = n) : gather r (List.range n) = r := by
  subst h
  exact map_idx_range r

/-- C18: for an ensemble in ascending order (NaN last) the flag has no effect, for every estimator
string, policy-free core, weighted or not. -/
theorem C18_sorted_flag (path : Path) (est : String) (y : XF) (xs : List XF)
    (ws : Option (List XF)) (hlen : ∀ w, ws = some w → w.length = xs.length)
    (h : xs.Pairwise sortLe) :
    crps1 path est true "propagate" y xs ws = crps1 path est false "propagate" y xs ws := by
  rw [crps1_eq _ _ _ _ _ _ _ hlen, crps1_eq _ _ _ _ _ _ _ hlen]
  unfold sliceScore sliceNan
  simp only [if_true, bind, Except.bind]
  unfold sliceCore
  rw [argsort_of_sorted h, gather_range rfl]
  cases ws with
  | none => simp
  | some w =>
    have : (normW w).length = xs.length := by
      unfold normW; rw [List.length_map]; exact hlen w rfl
    simp [gather_range this]

example : ([fin 1, fin 1, fin 7, pinf, nan] : List XF).Pairwise sortLe := by
  simp [sortLe, XF.le]

/-- C18: any permutation that sorts the values (in particular an unstable one) leads to the same
weighted score, so the choice made by `np.argsort` among ties does not matter. -/
theorem C18_any_sorting_permutation (path : Path) (est : String)
    (he : est = "qd" ∨ est = "pwm" ∨ est = "int") (y : ℝ) (l : List (ℝ × ℝ))
    (hw : ∀ p ∈ l, 0 ≤ p.2) (ht : (l.map Prod.snd).sum = 1) (ind : List ℕ)
    (hp : ind.Perm (List.range l.length))
    (hi : (ind.map fun i => (l.getD i (0, 0)).1).Pairwise (· ≤ ·)) :
    (kernelW path est).map (fun k => k (fin y)
        (ind.map fun i => fin (l.getD i (0, 0)).1) (ind.map fun i => fin (l.getD i (0, 0)).2))
      = crps1 path est false "propagate" (fin y) (l.map fun p => fin p.1)
        (some (l.map fun p => fin p.2)) := by
  set m := ind.map fun i => l.getD i (0, 0) with hm
  have hpm : m.Perm l := by
    refine (hp.map _).trans ?_
    have : (List.range l.length).map (fun i => l.getD i (0, 0)) = l := by
      apply List.ext_getElem
      · simp
      · intro j h1 h2
        simp [h2]
    rw [this]
  have hsm : m.Pairwise fun p q => p.1 ≤ q.1 := by
    rw [hm, List.pairwise_map]
    rw [List.pairwise_map] at hi
    exact hi
  have htm : wtot m = 1 := by rw [wtot_perm hpm]; exact ht
  have e1 : (ind.map fun i => fin (l.getD i (0, 0)).1) = Xs m := by
    simp only [Xs, hm, List.map_map, Function.comp_def]
  have e2 : (ind.map fun i => fin (l.getD i (0, 0)).2) = Ws m := by
    simp only [Ws, hm, List.map_map, Function.comp_def]
  rw [e1, e2]
  have hwm : ∀ p ∈ m, 0 ≤ p.2 := fun p hp => hw p (hpm.mem_iff.1 hp)
  have key : crps1 path est true "propagate" (fin y) (Xs m) (some (Ws m))
      = (kernelW path est).map fun k => k (fin y) (Xs m) (Ws m) := by
    obtain ⟨l', h1, h2, h3, h4⟩ := crps1_some path est true (fin y) hwm
      (by rw [htm]; exact one_ne_zero)
    rw [h4, h3 (by simp), norml_of_one htm]
  rw [← key]
  refine C07_permutation_weighted path est ?_ true false y m l hpm hwm ?_ (fun _ => hsm) (by simp)
  · rcases he with rfl | rfl | rfl <;> simp
  · show 0 < wtot m
    rw [htm]; exact one_pos

/-- two tied members with different weights, in both orders -/
example : ([1, 0] : List ℕ).Perm (List.range ([(3, 1/4), (3, 3/4)] : List (ℝ × ℝ)).length) ∧
    (([1, 0] : List ℕ).map fun i => (([(3, 1/4), (3, 3/4)] : List (ℝ × ℝ)).getD i (0, 0)).1).Pairwise
      (· ≤ ·) ∧ (([(3, 1/4), (3, 3/4)] : List (ℝ × ℝ)).map Prod.snd).sum = 1 := by
  refine ⟨?_, by simp, by norm_num⟩
  simp only [List.length_cons, List.length_nil]
  exact List.Perm.swap 0 1 []

/-! ### C61 -/

theorem ecdf_flatMap (k : ℕ) (hk : k ≠ 0) (xs : List ℝ) :
    Spec.ecdf (xs.flatMap fun x => List.replicate k x) = Spec.ecdf xs := by
  funext z
  unfold Spec.ecdf
  have h1 : ((xs.flatMap fun x => List.replicate k x).countP fun x => decide (x ≤ z))
      = k * xs.countP fun x => decide (x ≤ z) := by
    induction xs with
    | nil => simp
    | cons x xs ih =>
      rw [List.flatMap_cons, List.countP_append, ih, List.countP_cons, List.countP_replicate]
      split_ifs <;> ring
  have h2 : (xs.flatMap fun x => List.replicate k x).length = k * xs.length := by
    rw [List.length_flatMap]; simp [mul_comm]
  rw [h1, h2]
  push_cast
  rw [mul_div_mul_left]
  exact_mod_cast hk

/-- C61: replicating every member `k` times does not change the nrg, qd and int scores. -/
theorem C61_duplication (path : Path) (est : String)
    (he : est = "nrg" ∨ est = "qd" ∨ est = "int") (y : ℝ) (xs : List ℝ) (h : xs ≠ []) (k : ℕ)
    (hk : k ≠ 0) :
    crps1 path est false "propagate" (fin y) ((xs.flatMap fun x => List.replicate k x).map fin) none
      = crps1 path est false "propagate" (fin y) (xs.map fin) none := by
  have h' : (xs.flatMap fun x => List.replicate k x) ≠ [] := by
    cases xs with
    | nil => exact absurd rfl h
    | cons x xs =>
      cases k with
      | zero => exact absurd rfl hk
      | succ k => simp [List.replicate_succ]
  have e : energy y (uw (xs.flatMap fun x => List.replicate k x)) = energy y (uw xs) := by
    rw [← crps_ecdf_eq_energy y h', ← crps_ecdf_eq_energy y h, ecdf_flatMap k hk]
  rcases he with rfl | rfl | rfl
  · rw [crps1_nrg _ _ _ h, crps1_nrg _ _ _ h', e]
  · rw [crps1_qd _ _ h (by simp [SortOK]), crps1_qd _ _ h' (by simp [SortOK]), e]
  · rw [crps1_int _ _ h (by simp [SortOK]), crps1_int _ _ h' (by simp [SortOK]), e]

example : ("qd" = "nrg" ∨ "qd" = "qd" ∨ "qd" = "int") ∧ ([3, 1] : List ℝ) ≠ [] ∧ 2 ≠ 0 := by simp

/-- C61: the fair score is the nrg score minus the mean pairwise distance over `2 (M - 1)`; in
particular it never exceeds it. -/
theorem C61_fair_eq_nrg_minus (path : Path) (y : ℝ) (xs : List ℝ) (h : 2 ≤ xs.length) :
    ∃ f n : ℝ, crps1 path "fair" false "propagate" (fin y) (xs.map fin) none = .ok (fin f) ∧
      crps1 path "nrg" false "propagate" (fin y) (xs.map fin) none = .ok (fin n) ∧
      f = n - Spec.sumAbsDiff xs / (xs.length : ℝ) ^ 2 / (2 * (xs.length - 1)) ∧ f ≤ n := by
  have hx : xs ≠ [] := by rintro rfl; simp at h
  have h2 : (2 : ℝ) ≤ xs.length := by exact_mod_cast h
  have h3 : (xs.length : ℝ) ≠ 0 := by linarith
  have h4 : (xs.length : ℝ) - 1 ≠ 0 := by linarith
  have e : Spec.fairCrps y xs
      = energy y (uw xs) - Spec.sumAbsDiff xs / (xs.length : ℝ) ^ 2 / (2 * (xs.length - 1)) := by
    unfold Spec.fairCrps energy
    rw [wabs_uw, wpair_uw, ← sabs_eq, ← spair_eq]
    field_simp
    ring
  refine ⟨_, _, crps1_fair path false y h, crps1_nrg path false y hx, e, ?_⟩
  rw [e]
  have : 0 ≤ Spec.sumAbsDiff xs := by
    unfold Spec.sumAbsDiff
    apply List.sum_nonneg
    intro v hv
    rw [List.mem_map] at hv
    obtain ⟨a, _, rfl⟩ := hv
    apply List.sum_nonneg
    intro v hv
    rw [List.mem_map] at hv
    obtain ⟨b, _, rfl⟩ := hv
    exact abs_nonneg _
  have h5 : 0 ≤ Spec.sumAbsDiff xs / (xs.length : ℝ) ^ 2 / (2 * (xs.length - 1)) :=
    div_nonneg (div_nonneg this (by positivity)) (by linarith)
  linarith

example : (3 : ℕ) ≠ 0 ∧ 2 ≤ ([1, 5] : List ℝ).length := by simp

/-! ### C62 -/

/-- C62: a member of weight zero may be removed. -/
theorem C62_zero_weight_member (path : Path) (est : String)
    (he : est ∈ ["nrg", "fair", "pwm", "qd", "int"]) (y x : ℝ) (A B : List (ℝ × ℝ))
    (hw : ∀ p ∈ A ++ B, 0 ≤ p.2) (ht : 0 < ((A ++ B).map Prod.snd).sum) :
    crps1 path est false "propagate" (fin y) ((A ++ (x, 0) :: B).map fun p => fin p.1)
        (some ((A ++ (x, 0) :: B).map fun p => fin p.2))
      = crps1 path est false "propagate" (fin y) ((A ++ B).map fun p => fin p.1)
        (some ((A ++ B).map fun p => fin p.2)) := by
  have hperm : (A ++ (x, 0) :: B).Perm ((x, 0) :: (A ++ B)) := List.perm_middle
  have hw1 : ∀ p ∈ (x, (0 : ℝ)) :: (A ++ B), 0 ≤ p.2 := by
    intro p hp
    rcases List.mem_cons.1 hp with rfl | hp
    · exact le_rfl
    · exact hw p hp
  have hz := zero_weight y x (A ++ B)
  have hzn := zero_weight y x (norml (A ++ B))
  have hn := norml_zero_cons x (A ++ B)
  have ht2 : wtot (A ++ B) ≠ 0 := ht.ne'
  have ht1 : 0 < wtot ((x, 0) :: (A ++ B)) := by rw [hz.1]; exact ht
  rw [C07_permutation_weighted path est he false false y _ _ hperm
    (fun p hp => hw1 p (hperm.mem_iff.1 hp)) (by
      show 0 < wtot _
      rw [wtot_perm hperm]; exact ht1) (by simp) (by simp)]
  show crps1 path est false "propagate" (fin y) (Xs ((x, 0) :: (A ++ B)))
      (some (Ws ((x, 0) :: (A ++ B))))
    = crps1 path est false "propagate" (fin y) (Xs (A ++ B)) (some (Ws (A ++ B)))
  have he' : energy y (norml ((x, 0) :: (A ++ B))) = energy y (norml (A ++ B)) := by
    rw [hn]; unfold energy; rw [hzn.2.1, hzn.2.2.1]
  have hs : ∀ l, SortOKW false l := fun l => by simp [SortOKW]
  have hq : wsq (norml ((x, 0) :: (A ++ B))) = wsq (norml (A ++ B)) := by rw [hn, hzn.2.2.2.1]
  have hf : wfair y (norml ((x, 0) :: (A ++ B))) = wfair y (norml (A ++ B)) := by
    rw [hn]; unfold wfair; rw [hzn.2.1, hzn.2.2.1, hzn.2.2.2.1]
  simp only [List.mem_cons, List.not_mem_nil, or_false] at he
  rcases he with rfl | rfl | rfl | rfl | rfl
  · rw [crps1W_nrg _ _ _ hw1 ht1.ne', crps1W_nrg _ _ _ hw ht2, he']
  · by_cases h1 : wsq (norml (A ++ B)) = 1
    · rw [crps1W_fair_nan _ _ _ hw1 ht1.ne' (by rw [hq, h1]), crps1W_fair_nan _ _ _ hw ht2 h1]
    · rw [crps1W_fair _ _ _ hw1 ht1.ne' (by rw [hq]; exact h1), crps1W_fair _ _ _ hw ht2 h1, hf]
  · by_cases h1 : wsq (norml (A ++ B)) = 1
    · rw [crps1W_pwm_nan _ _ hw1 ht1.ne' (by rw [hq, h1]), crps1W_pwm_nan _ _ hw ht2 h1]
    · rw [crps1W_pwm _ _ hw1 ht1.ne' (hs _) (by rw [hq]; exact h1), crps1W_pwm _ _ hw ht2 (hs _) h1,
        wpwm_eq _ _ h1, wpwm_eq _ _ (by rw [hq]; exact h1), hf, hq, hn, hzn.2.2.2.2.1,
        hzn.2.2.2.2.2]
  · rw [crps1W_qd _ _ hw1 ht1.ne' (hs _), crps1W_qd _ _ hw ht2 (hs _), he']
  · rw [crps1W_int _ _ hw1 ht1.ne' (hs _), crps1W_int _ _ hw ht2 (hs _), he']

example : (∀ p ∈ ([(1, 2)] ++ [(4, 1)] : List (ℝ × ℝ)), 0 ≤ p.2) ∧
    0 < ((([(1, 2)] ++ [(4, 1)] : List (ℝ × ℝ))).map Prod.snd).sum := by
  refine ⟨?_, by norm_num⟩
  intro p hp; simp at hp; rcases hp with rfl | rfl <;> norm_num

/-! ### C65 -/

/-- C65, what holds: the weighted `pwm` score is the weighted `fair` score plus the term
`(Σ x w² - (Σ x w)(Σ w²)) / (1 - Σ w²)` in the normalised weights `w`; they agree exactly when it
vanishes.

Full statement: `pwm` and `fair` agree for all weights.  It is false, see
`C65_weighted_pwm_ne_fair`. -/
theorem C65_weighted_pwm_fair_partial (path : Path) (y : ℝ) (l : List (ℝ × ℝ))
    (hw : ∀ p ∈ l, 0 ≤ p.2) (ht : (l.map Prod.snd).sum = 1)
    (hq : (l.map fun p => p.2 ^ 2).sum ≠ 1) :
    ∃ f g : ℝ, crps1 path "fair" false "propagate" (fin y) (l.map fun p => fin p.1)
        (some (l.map fun p => fin p.2)) = .ok (fin f) ∧
      crps1 path "pwm" false "propagate" (fin y) (l.map fun p => fin p.1)
        (some (l.map fun p => fin p.2)) = .ok (fin g) ∧
      g = f + ((l.map fun p => p.1 * p.2 ^ 2).sum
        - (l.map fun p => p.1 * p.2).sum * (l.map fun p => p.2 ^ 2).sum)
          / (1 - (l.map fun p => p.2 ^ 2).sum) := by
  have ht1 : wtot l = 1 := ht
  have ht' : wtot l ≠ 0 := by rw [ht1]; exact one_ne_zero
  have hn := norml_of_one ht1
  have hq' : wsq (norml l) ≠ 1 := by rw [hn]; exact hq
  refine ⟨wfair y l, wpwm y l, ?_, ?_, ?_⟩
  · have := crps1W_fair path false y hw ht' hq'
    rw [hn] at this; exact this
  · have := crps1W_pwm path (sorted := false) y hw ht' (by simp [SortOKW]) hq'
    rw [hn] at this; exact this
  · exact wpwm_eq y l hq

example : (∀ p ∈ ([(1, 1 / 4), (3, 3 / 4)] : List (ℝ × ℝ)), 0 ≤ p.2) ∧
    (([(1, 1 / 4), (3, 3 / 4)] : List (ℝ × ℝ)).map Prod.snd).sum = 1 ∧
    (([(1, 1 / 4), (3, 3 / 4)] : List (ℝ × ℝ)).map fun p => p.2 ^ 2).sum ≠ 1 := by
  refine ⟨?_, by norm_num, by norm_num⟩
  intro p hp; simp at hp; rcases hp with rfl | rfl <;> norm_num

/-- C65 fails: members 0, 1 with weights 1/4, 3/4. -/
theorem C65_weighted_pwm_ne_fair (path : Path) :
    ∃ f g : ℝ, crps1 path "fair" false "propagate" (fin 0) [fin 0, fin 1]
        (some [fin (1 / 4), fin (3 / 4)]) = .ok (fin f) ∧
      crps1 path "pwm" false "propagate" (fin 0) [fin 0, fin 1]
        (some [fin (1 / 4), fin (3 / 4)]) = .ok (fin g) ∧ f ≠ g := by
  obtain ⟨f, g, h1, h2, h3⟩ := C65_weighted_pwm_fair_partial path 0 [(0, 1 / 4), (1, 3 / 4)]
    (by intro p hp; simp at hp; rcases hp with rfl | rfl <;> norm_num) (by norm_num) (by norm_num)
  refine ⟨f, g, h1, h2, ?_⟩
  intro h
  rw [h] at h3
  norm_num at h3

end Verif
