import Verif.Lemmas.Iid
import Verif.Props.VariogramProper
import Verif.Props.Crps2

/-!
# Property C111: which ensemble estimators are unbiased when the members are drawn from a law
-/

noncomputable section

open scoped Classical
open MeasureTheory

namespace Verif

open XF Py Api Spec Mv

variable {D M : ℕ}

/-! ### Paired members are distinct -/

theorem shift_ne {M i s : ℕ} (hi : i < M) (h0 : 0 < s) (h1 : s < M) : i ≠ (i + s) % M := by
  intro h
  rcases Nat.lt_or_ge (i + s) M with h2 | h2
  · rw [Nat.mod_eq_of_lt h2] at h; omega
  · rw [Nat.mod_eq_sub_mod h2, Nat.mod_eq_of_lt (by omega)] at h; omega

/-- the preceding member -/
def prevF (i : Fin M) : Fin M := ⟨prevI M i, prevI_lt i.2⟩
/-- the member about half the ensemble further on, as in `akr_circperm` of the univariate scores -/
def sigmaF (i : Fin M) : Fin M := ⟨Gufunc.sigma M i, sigma_lt i.2⟩
/-- the same as in `akr_circperm` of the energy score -/
def halfF (i : Fin M) : Fin M := ⟨(i + M / 2) % M, Nat.mod_lt _ i.pos⟩

theorem prevF_ne (hM : 2 ≤ M) (i : Fin M) : i ≠ prevF i := by
  intro h
  have := congrArg Fin.val h
  simp only [prevF, prevI] at this
  split_ifs at this <;> omega

theorem sigmaF_ne (hM : 2 ≤ M) (i : Fin M) : i ≠ sigmaF i := by
  intro h
  have := congrArg Fin.val h
  simp only [sigmaF, sigma_eq] at this
  rw [Nat.add_assoc] at this
  exact shift_ne i.2 (by omega) (by omega) this

theorem halfF_ne (hM : 2 ≤ M) (i : Fin M) : i ≠ halfF i := by
  intro h
  have := congrArg Fin.val h
  exact shift_ne i.2 (by omega) (by omega) this

/-! ### Values -/

theorem range_sum_Fin {f : ℕ → XF} {g : Fin M → ℝ} (h : ∀ i : Fin M, f i = fin (g i)) :
    ((List.range M).map f).sum = fin (∑ i, g i) := by
  have e : (List.range M).map f = (List.ofFn g).map fin := by
    apply List.ext_getElem
    · simp
    · intro i h1 h2
      have hi : i < M := by simpa using h1
      simpa using h ⟨i, hi⟩
  rw [e, sum_map_fin, List.sum_ofFn]

theorem getD_ofFn_map {α β : Type} (x : Fin M → β) (emb : β → α) (d : α) (i : Fin M) :
    ((List.ofFn x).map emb).getD i d = emb (x i) := by
  simp

theorem KsGufunc.circ_fin {α β : Type} {k : α → α → XF} {emb : β → α} {K : β → β → ℝ} (hk : Emb k emb K) (d : α)
    (hM : M ≠ 0) (g : Fin M → Fin M) {h : ℕ → ℕ} (hg : ∀ i : Fin M, h i = g i) (y : β) (x : Fin M → β) :
    (Neg.neg (((List.range M).map fun i => k (((List.ofFn x).map emb).getD i d) (emb y)).sum / (M : XF)
      - half * ((List.range M).map fun i => k (((List.ofFn x).map emb).getD i d)
          (((List.ofFn x).map emb).getD (h i) d)).sum / (M : XF) - half * k (emb y) (emb y)) : XF)
      = fin (ksCirc K g y x) := by
  have hM0 : (M:ℝ) ≠ 0 := by exact_mod_cast hM
  rw [range_sum_Fin (g := fun i => K (x i) y) fun i => by rw [getD_ofFn_map, hk.val],
    range_sum_Fin (g := fun i => K (x i) (x (g i))) fun i => by
      rw [hg i, getD_ofFn_map, getD_ofFn_map, hk.val],
    hk.val, natCast_fin, half_fin]
  simp only [fin_mul, fin_div hM0, fin_sub, fin_neg, ksCirc]
  congr 1
  ring

theorem KsGufunc.akr_value {α β : Type} {k : α → α → XF} {emb : β → α} {K : β → β → ℝ} (hk : Emb k emb K) (d : α)
    (hM : M ≠ 0) (y : β) (x : Fin M → β) :
    KsGufunc.akr k d (emb y) ((List.ofFn x).map emb) = fin (ksCirc K prevF y x) := by
  rw [← KsGufunc.circ_fin hk d hM prevF (h := fun i => (if i = 0 then M else i) - 1) (fun i => rfl) y x]
  unfold KsGufunc.akr
  dsimp only
  simp only [List.length_map, List.length_ofFn]
  rw [forRange_two M (fun i => k (((List.ofFn x).map emb).getD i d) (emb y))
    (fun i => k (((List.ofFn x).map emb).getD i d)
      (((List.ofFn x).map emb).getD ((if i = 0 then M else i) - 1) d))]

theorem KsGufunc.akrCircperm_value {α β : Type} {k : α → α → XF} {emb : β → α} {K : β → β → ℝ} (hk : Emb k emb K)
    (d : α) (hM : M ≠ 0) (y : β) (x : Fin M → β) :
    KsGufunc.akrCircperm k d (emb y) ((List.ofFn x).map emb) = fin (ksCirc K sigmaF y x) := by
  rw [← KsGufunc.circ_fin hk d hM sigmaF (h := fun i => Gufunc.sigma M i) (fun i => rfl) y x]
  unfold KsGufunc.akrCircperm
  dsimp only
  simp only [List.length_map, List.length_ofFn]
  rw [forRange_two M (fun i => k (((List.ofFn x).map emb).getD i d) (emb y))
    (fun i => k (((List.ofFn x).map emb).getD i d) (((List.ofFn x).map emb).getD (Gufunc.sigma M i) d))]

theorem EsGufunc.circ_fin (hM : M ≠ 0) (g : Fin M → Fin M) {h : ℕ → ℕ} (hg : ∀ i : Fin M, h i = g i) (y : Eu D)
    (x : Fin M → Eu D) :
    ((List.range M).map fun i => vnorm (vsub (vat ((List.ofFn x).map vec) i) (vec y))).sum / (M : XF)
      - half * 1 / (M : XF) * ((List.range M).map fun i => vnorm (vsub (vat ((List.ofFn x).map vec) i)
          (vat ((List.ofFn x).map vec) (h i)))).sum
      = fin (ksCirc negDist g y x) := by
  have hM0 : (M:ℝ) ≠ 0 := by exact_mod_cast hM
  have hv : ∀ i : Fin M, vat ((List.ofFn x).map vec) i = vec (x i) := fun i => by
    simp [vat]
  rw [range_sum_Fin (g := fun i => dist (x i) y) fun i => by rw [hv, vnorm_sub],
    range_sum_Fin (g := fun i => dist (x i) (x (g i))) fun i => by rw [hg i, hv, hv, vnorm_sub],
    natCast_fin, half_fin, one_fin]
  simp only [fin_mul, fin_div hM0, fin_sub, ksCirc, negDist, Finset.sum_neg_distrib, dist_self]
  congr 1
  ring

theorem es1_akr_value (path : Path) (hM : M ≠ 0) (y : Eu D) (x : Fin M → Eu D) :
    es1 path "akr" D (vec y) ((List.ofFn x).map vec) none = .ok (fin (ksCirc negDist prevF y x)) := by
  have hx : (List.ofFn x).map (vec (D := D)) ≠ [] := by simpa using hM
  rw [es1_none path _ (vec_length y) (vecs_length _)]
  have e : EsGufunc.akr (vec y) ((List.ofFn x).map vec) = fin (ksCirc negDist prevF y x) := by
    rw [← EsGufunc.circ_fin hM prevF (h := fun i => (if i = 0 then M else i) - 1) (fun i => rfl) y x]
    unfold EsGufunc.akr
    dsimp only
    simp only [List.length_map, List.length_ofFn]
    rw [forRange_two M (fun i => vnorm (vsub (vat ((List.ofFn x).map vec) i) (vec y)))
      (fun i => vnorm (vsub (vat ((List.ofFn x).map vec) i)
        (vat ((List.ofFn x).map vec) ((if i = 0 then M else i) - 1))))]
  cases path
  · simp [-List.map_ofFn, esKernel, Except.map, e]
  · simp [-List.map_ofFn, esKernel, Except.map, ← EsGufunc.akr_eq _ _ hx, e]

theorem es1_akrCircperm_value (path : Path) (hM : M ≠ 0) (y : Eu D) (x : Fin M → Eu D) :
    es1 path "akr_circperm" D (vec y) ((List.ofFn x).map vec) none = .ok (fin (ksCirc negDist halfF y x)) := by
  have hx : (List.ofFn x).map (vec (D := D)) ≠ [] := by simpa using hM
  rw [es1_none path _ (vec_length y) (vecs_length _)]
  have e : EsGufunc.akrCircperm (vec y) ((List.ofFn x).map vec) = fin (ksCirc negDist halfF y x) := by
    rw [← EsGufunc.circ_fin hM halfF (h := fun i => (i + M / 2) % M) (fun i => rfl) y x]
    unfold EsGufunc.akrCircperm
    dsimp only
    simp only [List.length_map, List.length_ofFn]
    rw [forRange_two M (fun i => vnorm (vsub (vat ((List.ofFn x).map vec) i) (vec y)))
      (fun i => vnorm (vsub (vat ((List.ofFn x).map vec) i) (vat ((List.ofFn x).map vec) ((i + M / 2) % M))))]
  cases path
  · simp [-List.map_ofFn, esKernel, Except.map, e]
  · simp [-List.map_ofFn, esKernel, Except.map, ← EsGufunc.akrCircperm_eq _ _ hx, e]

theorem circ_ofFn (g : Fin M → Fin M) {h : ℕ → ℕ} (hg : ∀ i : Fin M, h i = g i) (x : Fin M → ℝ) :
    circ h (List.ofFn x) = ∑ i, |x i - x (g i)| := by
  unfold circ
  rw [List.length_ofFn, ← List.sum_ofFn]
  congr 1
  apply List.ext_getElem
  · simp
  · intro i h1 h2
    have hi : i < M := by simpa using h1
    have := hg ⟨i, hi⟩
    simp only at this
    simp [this, hi]

theorem crps_circ (g : Fin M → Fin M) {h : ℕ → ℕ} (hg : ∀ i : Fin M, h i = g i) (y : ℝ) (x : Fin M → ℝ) :
    sabs y (List.ofFn x) / (List.ofFn x).length - 1 / 2 * (circ h (List.ofFn x) / (List.ofFn x).length)
      = ksCirc negDist g y x := by
  rw [circ_ofFn g hg, sabs, sum_ofFn_map, List.length_ofFn]
  simp only [ksCirc, negDist, Finset.sum_neg_distrib, dist_self, Real.dist_eq]
  ring

theorem fairCrps_ks (y : ℝ) (xs : List ℝ) : fairCrps y xs = ksFair negDist y xs := by
  unfold fairCrps meanAbs sumAbsDiff ksFair negDist
  simp only [lsum_neg, dist_self, Real.dist_eq]
  simp
  ring

theorem esFair_ks (y : Eu D) (xs : List (Eu D)) : esFair y xs = ksFair negDist y xs := by
  unfold esFair ksFair negDist
  simp only [lsum_neg, dist_self]
  simp
  ring

theorem uw_eqW (xs : List ℝ) : uw xs = eqW xs := rfl

/-! ### Integrability -/

section
variable {E : Type} [NormedAddCommGroup E] [MeasurableSpace E] [BorelSpace E] [SecondCountableTopology E]
  {Q : Measure E} [IsProbabilityMeasure Q]

theorem negDist_int (hQ : Q ∈ FinMean E) (y : E) :
    Integrable (fun z : E × E => negDist z.1 z.2) (Q.prod Q) ∧ Integrable (fun x => negDist x x) Q ∧
      Integrable (fun x => negDist x y) Q := by
  have hQ' : Integrable (fun x => ‖x‖) Q := hQ
  refine ⟨?_, ?_, ?_⟩
  · unfold negDist
    have : Integrable (fun z : E × E => dist z.1 z.2) (Q.prod Q) := by
      refine Integrable.mono' ((hQ'.comp_fst Q).add (hQ'.comp_snd Q))
        (by fun_prop : Continuous fun z : E × E => dist z.1 z.2).aestronglyMeasurable (ae_of_all _ fun z => ?_)
      rw [Real.norm_eq_abs, abs_of_nonneg dist_nonneg, dist_eq_norm]
      exact norm_sub_le _ _
    exact this.neg
  · simp [negDist]
  · unfold negDist
    have : Integrable (fun x : E => dist x y) Q := by
      refine Integrable.mono' (hQ'.add (integrable_const ‖y‖))
        (by fun_prop : Continuous fun x : E => dist x y).aestronglyMeasurable (ae_of_all _ fun z => ?_)
      rw [Real.norm_eq_abs, abs_of_nonneg dist_nonneg, dist_eq_norm]
      exact norm_sub_le _ _
    exact this.neg

end

theorem ksLaw_es (y : Eu D) (Q : Measure (Eu D)) : ksLaw negDist y Q = esLaw y Q := by
  unfold ksLaw esLaw pairMean negDist
  rw [integral_neg, integral_neg]
  simp
  ring

theorem ksLaw_crps (y : ℝ) {Q : Measure ℝ} [IsProbabilityMeasure Q] (hQ : Integrable (fun x => x) Q) :
    ksLaw negDist y Q = crps (distr Q) y := by
  rw [crps_distr hQ, crpsEntropy_eq hQ]
  unfold ksLaw pairMean negDist
  rw [integral_neg, integral_neg]
  simp [Real.dist_eq]
  ring

theorem pairMean_crps {Q : Measure ℝ} [IsProbabilityMeasure Q] (hQ : Integrable (fun x => x) Q) :
    ∫ x, negDist x x ∂Q - pairMean negDist Q Q = 2 * crpsEntropy (distr Q) := by
  rw [crpsEntropy_eq hQ]
  unfold pairMean negDist
  simp only [integral_neg]
  simp [Real.dist_eq]

theorem finMean_real {Q : Measure ℝ} (hQ : Integrable (fun x => x) Q) : Q ∈ FinMean ℝ := hQ.norm

/-! ### The continuous ranked probability score -/

/-- C111: if the members are drawn independently from a law with a finite mean, the mean of the score with the
estimators `fair`, `pwm`, `akr` and `akr_circperm` is the score of the law itself, whatever the ensemble size. -/
theorem C111_crps_unbiased (path : Path) (est : String) (he : est ∈ ["fair", "pwm", "akr", "akr_circperm"])
    (sorted : Bool) (hs : est = "pwm" → sorted = false) (hM : 2 ≤ M) (y : ℝ) (Q : Measure ℝ)
    [IsProbabilityMeasure Q] (hQ : Integrable (fun x => x) Q) :
    ∃ S : (Fin M → ℝ) → XF,
      (∀ x, crps1 path est sorted "propagate" (fin y) ((List.ofFn x).map fin) none = .ok (S x)) ∧
      HasMean (iid M Q) S (crps (distr Q) y) := by
  obtain ⟨i1, i2, i3⟩ := negDist_int (finMean_real hQ) y
  have hM0 : M ≠ 0 := by omega
  have hx : ∀ x : Fin M → ℝ, List.ofFn x ≠ [] := fun x => by simpa using hM0
  have hx' : ∀ x : Fin M → ℝ, (List.ofFn x).map fin ≠ [] := fun x => by simpa using hM0
  have hl : ∀ x : Fin M → ℝ, 2 ≤ (List.ofFn x).length := fun x => by simpa using hM
  have key := ksFair_iid hM y i1 i2 i3
  simp only [← ksLaw_crps y hQ]
  simp only [List.mem_cons, List.not_mem_nil, or_false] at he
  rcases he with rfl | rfl | rfl | rfl
  · exact ⟨_, fun x => by rw [crps1_fair path sorted y (hl x), fairCrps_ks], key⟩
  · exact ⟨_, fun x => by
      rw [crps1_pwm path y (hl x) (fun h => by rw [hs rfl] at h; simp at h), fairCrps_ks], key⟩
  · exact ⟨_, fun x => by
      rw [crps1_akr path sorted _ _ (hx' x), Gufunc.akr_fin y _ (hx x),
        crps_circ prevF (h := prevI (List.ofFn x).length) (fun i => by simp [prevF])],
      ksCirc_iid hM0 prevF (prevF_ne hM) y i1 i3⟩
  · exact ⟨_, fun x => by
      rw [crps1_akrCircperm path sorted _ _ (hx' x), Gufunc.akrCircperm_fin y _ (hx x),
        crps_circ sigmaF (h := Gufunc.sigma (List.ofFn x).length) (fun i => by simp [sigmaF])],
      ksCirc_iid hM0 sigmaF (sigmaF_ne hM) y i1 i3⟩

/-- three members, and a law that is not concentrated on one point -/
example : "pwm" ∈ ["fair", "pwm", "akr", "akr_circperm"] ∧ 2 ≤ 3 ∧
    Integrable (fun x : ℝ => x) (ensLaw (eqW [1, 2, (2:ℝ)])) :=
  ⟨by simp, by norm_num, (integral_ensLaw (eqW_nonneg _) _).1⟩

/-- C111: the estimators `nrg`, `qd` and `int` are biased: their mean exceeds the score of the law by its entropy
(half the mean distance of two members) over the ensemble size. -/
theorem C111_crps_bias (path : Path) (est : String) (he : est ∈ ["nrg", "qd", "int"]) (hM : M ≠ 0) (y : ℝ)
    (Q : Measure ℝ) [IsProbabilityMeasure Q] (hQ : Integrable (fun x => x) Q) :
    ∃ S : (Fin M → ℝ) → XF,
      (∀ x, crps1 path est false "propagate" (fin y) ((List.ofFn x).map fin) none = .ok (S x)) ∧
      HasMean (iid M Q) S (crps (distr Q) y + crpsEntropy (distr Q) / M) := by
  obtain ⟨i1, i2, i3⟩ := negDist_int (finMean_real hQ) y
  have hx : ∀ x : Fin M → ℝ, List.ofFn x ≠ [] := fun x => by simpa using hM
  have hs : ∀ x : Fin M → ℝ, SortOK false (List.ofFn x) := fun x h => by simp at h
  have key := ks_iid hM y i1 i2 i3
  rw [ksLaw_crps y hQ, pairMean_crps hQ, mul_div_mul_left _ _ (by norm_num : (2:ℝ) ≠ 0)] at key
  simp only [List.mem_cons, List.not_mem_nil, or_false] at he
  rcases he with rfl | rfl | rfl
  · exact ⟨_, fun x => by rw [crps1_nrg path false y (hx x), energy_ks, uw_eqW], key⟩
  · exact ⟨_, fun x => by rw [crps1_qd path y (hx x) (hs x), energy_ks, uw_eqW], key⟩
  · exact ⟨_, fun x => by rw [crps1_int path y (hx x) (hs x), energy_ks, uw_eqW], key⟩

/-- one member, and a law that is not concentrated on one point -/
example : "qd" ∈ ["nrg", "qd", "int"] ∧ 1 ≠ 0 ∧ Integrable (fun x : ℝ => x) (ensLaw (eqW [1, 2, (2:ℝ)])) :=
  ⟨by simp, by norm_num, (integral_ensLaw (eqW_nonneg _) _).1⟩

/-! ### The energy score -/

/-- C111: the estimators `fair`, `akr` and `akr_circperm` of the energy score are unbiased. -/
theorem C111_es_unbiased (path : Path) (est : String) (he : est ∈ ["fair", "akr", "akr_circperm"]) (hM : 2 ≤ M)
    (y : Eu D) (Q : Measure (Eu D)) [IsProbabilityMeasure Q] (hQ : Q ∈ FinMean (Eu D)) :
    ∃ S : (Fin M → Eu D) → XF,
      (∀ x, es1 path est D (vec y) ((List.ofFn x).map vec) none = .ok (S x)) ∧
      HasMean (iid M Q) S (esLaw y Q) := by
  obtain ⟨i1, i2, i3⟩ := negDist_int hQ y
  have hM0 : M ≠ 0 := by omega
  simp only [← ksLaw_es y Q]
  simp only [List.mem_cons, List.not_mem_nil, or_false] at he
  rcases he with rfl | rfl | rfl
  · exact ⟨_, fun x => by rw [es1_fair path y (by simpa using hM), esFair_ks], ksFair_iid hM y i1 i2 i3⟩
  · exact ⟨_, fun x => es1_akr_value path hM0 y x, ksCirc_iid hM0 prevF (prevF_ne hM) y i1 i3⟩
  · exact ⟨_, fun x => es1_akrCircperm_value path hM0 y x, ksCirc_iid hM0 halfF (halfF_ne hM) y i1 i3⟩

/-- C111: the estimator `nrg` of the energy score exceeds the score of the law by half the mean distance of two
members, over the ensemble size. -/
theorem C111_es_bias (path : Path) (hM : M ≠ 0) (y : Eu D) (Q : Measure (Eu D)) [IsProbabilityMeasure Q]
    (hQ : Q ∈ FinMean (Eu D)) :
    ∃ S : (Fin M → Eu D) → XF,
      (∀ x, es1 path "nrg" D (vec y) ((List.ofFn x).map vec) none = .ok (S x)) ∧
      HasMean (iid M Q) S (esLaw y Q + pairMean dist Q Q / (2 * M)) := by
  obtain ⟨i1, i2, i3⟩ := negDist_int hQ y
  have key := ks_iid hM y i1 i2 i3
  have e : ∫ x, negDist x x ∂Q - pairMean negDist Q Q = pairMean dist Q Q := by
    unfold pairMean negDist
    simp only [integral_neg]
    simp
  rw [ksLaw_es, e] at key
  exact ⟨_, fun x => by
    rw [es1_nrg path y (by simpa using hM : List.ofFn x ≠ []), es_ks]
    rfl, key⟩

/-- three members in the plane; `C111_es_unbiased`, `C111_es_bias` -/
example : "akr" ∈ ["fair", "akr", "akr_circperm"] ∧ 2 ≤ 3 ∧
    ensLaw (eqW [!₂[3, 4], !₂[0, (1:ℝ)]]) ∈ FinMean (Eu 2) :=
  ⟨by simp, by norm_num, (integral_ensLaw (eqW_nonneg _) _).1⟩

/-! ### The Gaussian kernel score -/

section
variable {E : Type} [NormedAddCommGroup E] [InnerProductSpace ℝ E] [MeasurableSpace E] [BorelSpace E]
  [FiniteDimensional ℝ E] {Q : Measure E} [IsProbabilityMeasure Q]

theorem gk_int {s : ℝ} (hs : 0 ≤ s) (y : E) :
    Integrable (fun z : E × E => gk s z.1 z.2) (Q.prod Q) ∧ Integrable (fun x => gk s x x) Q ∧
      Integrable (fun x => gk s x y) Q := by
  have hb : ∀ a b : E, ‖gk s a b‖ ≤ 1 := fun a b => by
    rw [Real.norm_eq_abs, abs_of_pos (gk_pos s a b)]
    exact gk_le_one hs a b
  refine ⟨?_, ?_, ?_⟩
  · exact Integrable.mono' (integrable_const (1:ℝ)) (gk_continuous s).aestronglyMeasurable (ae_of_all _ fun z => hb _ _)
  · simp [gk_self]
  · exact Integrable.mono' (integrable_const (1:ℝ))
      ((gk_continuous s).comp (by fun_prop : Continuous fun x : E => (x, y))).aestronglyMeasurable
      (ae_of_all _ fun z => hb _ _)

end

/-- C111: the estimators `fair`, `akr` and `akr_circperm` of the Gaussian kernel score are unbiased for every law. -/
theorem C111_gksuv_unbiased (path : Path) (est : String) (he : est ∈ ["fair", "akr", "akr_circperm"]) (hM : 2 ≤ M)
    (y : ℝ) (Q : Measure ℝ) [IsProbabilityMeasure Q] :
    ∃ S : (Fin M → ℝ) → XF,
      (∀ x, gksuv1 path est (fin y) ((List.ofFn x).map fin) none = .ok (S x)) ∧
      HasMean (iid M Q) S (ksLaw gauss1 y Q) := by
  obtain ⟨i1, i2, i3⟩ := gk_int (Q := Q) (by norm_num : (0:ℝ) ≤ 1 / 2) y
  simp only [← gauss1_eq] at i1 i2 i3
  have hM0 : M ≠ 0 := by omega
  simp only [List.mem_cons, List.not_mem_nil, or_false] at he
  rcases he with rfl | rfl | rfl
  · exact ⟨_, fun x => C37_gksuv_fair path y (by simpa using hM), ksFair_iid hM y i1 i2 i3⟩
  · refine ⟨_, fun x => ?_, ksCirc_iid hM0 prevF (prevF_ne hM) y i1 i3⟩
    rw [gksuv1_none]
    cases path
    · simp [-List.map_ofFn, gksuvKernel, Except.map, nanGuard, notnan, KsGufunc.akr_value uv_emb nan hM0 y x]
    · simp [-List.map_ofFn, gksuvKernel, Except.map, ← KsGufunc.akr_eq uv_symm, KsGufunc.akr_value uv_emb nan hM0 y x]
  · refine ⟨_, fun x => ?_, ksCirc_iid hM0 sigmaF (sigmaF_ne hM) y i1 i3⟩
    rw [gksuv1_none]
    cases path
    · simp [-List.map_ofFn, gksuvKernel, Except.map, nanGuard, notnan, KsGufunc.akrCircperm_value uv_emb nan hM0 y x]
    · simp [-List.map_ofFn, gksuvKernel, Except.map, ← KsGufunc.akrCircperm_eq uv_symm,
        KsGufunc.akrCircperm_value uv_emb nan hM0 y x]

/-- C111: the estimator `nrg` of the Gaussian kernel score exceeds the score of the law by half of one minus the mean
kernel of two members, over the ensemble size. -/
theorem C111_gksuv_bias (path : Path) (hM : M ≠ 0) (y : ℝ) (Q : Measure ℝ) [IsProbabilityMeasure Q] :
    ∃ S : (Fin M → ℝ) → XF,
      (∀ x, gksuv1 path "nrg" (fin y) ((List.ofFn x).map fin) none = .ok (S x)) ∧
      HasMean (iid M Q) S (ksLaw gauss1 y Q + (1 - pairMean gauss1 Q Q) / (2 * M)) := by
  obtain ⟨i1, i2, i3⟩ := gk_int (Q := Q) (by norm_num : (0:ℝ) ≤ 1 / 2) y
  simp only [← gauss1_eq] at i1 i2 i3
  have key := ks_iid hM y i1 i2 i3
  have e : ∫ x, gauss1 x x ∂Q = 1 := by simp [gauss1]
  rw [e] at key
  exact ⟨_, fun x => C37_gksuv_value path y (by simpa using hM), key⟩

/-- two members; `C111_gksuv_unbiased`, `C111_gksuv_bias` -/
example : "akr_circperm" ∈ ["fair", "akr", "akr_circperm"] ∧ 2 ≤ 2 ∧ 2 ≠ 0 := by simp

/-- C111: the same in several variables. -/
theorem C111_gksmv_unbiased (path : Path) (est : String) (he : est ∈ ["fair", "akr", "akr_circperm"]) (hM : 2 ≤ M)
    (y : Eu D) (Q : Measure (Eu D)) [IsProbabilityMeasure Q] :
    ∃ S : (Fin M → Eu D) → XF,
      (∀ x, gksmv1 path est D (vec y) ((List.ofFn x).map vec) none = .ok (S x)) ∧
      HasMean (iid M Q) S (ksLaw gaussD y Q) := by
  obtain ⟨i1, i2, i3⟩ := gk_int (Q := Q) (by norm_num : (0:ℝ) ≤ 1 / 2) y
  simp only [← gaussD_eq] at i1 i2 i3
  have hM0 : M ≠ 0 := by omega
  simp only [List.mem_cons, List.not_mem_nil, or_false] at he
  rcases he with rfl | rfl | rfl
  · exact ⟨_, fun x => C37_gksmv_fair path y (by simpa using hM), ksFair_iid hM y i1 i2 i3⟩
  · refine ⟨_, fun x => ?_, ksCirc_iid hM0 prevF (prevF_ne hM) y i1 i3⟩
    rw [gksmv1_none _ _ (vec_length y) (vecs_length _)]
    cases path
    · simp [-List.map_ofFn, gksmvKernel, Except.map, KsGufunc.akr_value mv_emb [] hM0 y x]
    · simp [-List.map_ofFn, gksmvKernel, Except.map, ← KsGufunc.akr_eq mv_symm, KsGufunc.akr_value mv_emb [] hM0 y x]
  · refine ⟨_, fun x => ?_, ksCirc_iid hM0 sigmaF (sigmaF_ne hM) y i1 i3⟩
    rw [gksmv1_none _ _ (vec_length y) (vecs_length _)]
    cases path
    · simp [-List.map_ofFn, gksmvKernel, Except.map, KsGufunc.akrCircperm_value mv_emb [] hM0 y x]
    · simp [-List.map_ofFn, gksmvKernel, Except.map, ← KsGufunc.akrCircperm_eq mv_symm,
        KsGufunc.akrCircperm_value mv_emb [] hM0 y x]

/-- C111: the same in several variables. -/
theorem C111_gksmv_bias (path : Path) (hM : M ≠ 0) (y : Eu D) (Q : Measure (Eu D)) [IsProbabilityMeasure Q] :
    ∃ S : (Fin M → Eu D) → XF,
      (∀ x, gksmv1 path "nrg" D (vec y) ((List.ofFn x).map vec) none = .ok (S x)) ∧
      HasMean (iid M Q) S (ksLaw gaussD y Q + (1 - pairMean gaussD Q Q) / (2 * M)) := by
  obtain ⟨i1, i2, i3⟩ := gk_int (Q := Q) (by norm_num : (0:ℝ) ≤ 1 / 2) y
  simp only [← gaussD_eq] at i1 i2 i3
  have key := ks_iid hM y i1 i2 i3
  have e : ∫ x, gaussD (D := D) x x ∂Q = 1 := by simp [gaussD]
  rw [e] at key
  exact ⟨_, fun x => C37_gksmv_value path y (by simpa using hM), key⟩

/-- two members; `C111_gksmv_unbiased`, `C111_gksmv_bias` -/
example : "akr" ∈ ["fair", "akr", "akr_circperm"] ∧ 2 ≤ 2 ∧ 2 ≠ 0 := by simp

/-! ### The variogram score -/

section
variable {p : ℝ} {W : Fin D → Fin D → ℝ}

/-- the kernel of the variogram score -/
def negV (p : ℝ) (W : Fin D → Fin D → ℝ) (a b : Eu D) : ℝ := -vdist p W a b

theorem vsFair_ks (y : Eu D) (xs : List (Eu D)) : vsFair p W y xs = ksFair (negV p W) y xs := by
  unfold vsFair ksFair negV
  simp only [lsum_neg, vdist_self]
  simp
  ring

theorem vs_ks (y : Eu D) {l : List (Eu D × ℝ)} (h : (l.map Prod.snd).sum = 1) :
    vs p W y l = ks (negV p W) y l := by
  have := vs_kernel p W y l h
  unfold ks negV
  simp only [lsum_neg, vdist_self, mul_neg]
  rw [this]
  unfold vabs vpair pairsAll
  ring

theorem vdist_int (hQ : ∀ i j, Integrable (fun x => vdiff p x i j ^ 2) Q) [IsProbabilityMeasure Q] (y : Eu D) :
    (Integrable (fun z : Eu D × Eu D => vdist p W z.1 z.2) (Q.prod Q) ∧
      pairMean (vdist p W) Q Q = 2 * featVar (vdiff p) W Q) ∧
    Integrable (fun x => vdist p W x y) Q ∧
      ∫ x, vdist p W x y ∂Q = featVar (vdiff p) W Q + vsLaw p W y Q := by
  have hm := measurable_vdiff (D := D) p
  have h1 := fun i j c => sq_mean (hm i j).aestronglyMeasurable (hQ i j) c
  have hp : ∀ i j, Integrable (fun z : Eu D × Eu D => (vdiff p z.1 i j - vdiff p z.2 i j) ^ 2) (Q.prod Q) := fun i j => by
    refine Integrable.mono' ((((hQ i j).comp_fst Q).add ((hQ i j).comp_snd Q)).const_mul 2)
      ((((hm i j).comp measurable_fst).sub ((hm i j).comp measurable_snd)).pow_const 2).aestronglyMeasurable
      (ae_of_all _ fun z => ?_)
    rw [Real.norm_eq_abs, abs_of_nonneg (sq_nonneg _)]
    show _ ≤ 2 * (vdiff p z.1 i j ^ 2 + vdiff p z.2 i j ^ 2)
    nlinarith [sq_nonneg (vdiff p z.1 i j + vdiff p z.2 i j)]
  have hp' : ∀ i j, ∫ z, (vdiff p z.1 i j - vdiff p z.2 i j) ^ 2 ∂(Q.prod Q)
      = 2 * ∫ x, (vdiff p x i j - featMean (vdiff p) Q i j) ^ 2 ∂Q := fun i j => by
    rw [integral_prod_symm _ (hp i j)]
    have e : (fun y : Eu D => ∫ x, (vdiff p x i j - vdiff p y i j) ^ 2 ∂Q)
        = fun y => (∫ x, (vdiff p x i j - featMean (vdiff p) Q i j) ^ 2 ∂Q)
          + (vdiff p y i j - featMean (vdiff p) Q i j) ^ 2 := funext fun y => by
      rw [(h1 i j (vdiff p y i j)).2]
      unfold featMean
      ring
    rw [e]
    rw [integral_add (integrable_const _) (h1 i j _).1]
    simp only [integral_const, probReal_univ, one_smul]
    ring
  refine ⟨⟨?_, ?_⟩, ?_, ?_⟩
  · unfold vdist
    exact integrable_finsetSum _ fun i _ => integrable_finsetSum _ fun j _ => (hp i j).const_mul _
  · unfold pairMean vdist
    rw [integral_finsetSum _ fun i _ => integrable_finsetSum _ fun j _ => (hp i j).const_mul _]
    unfold featVar
    rw [Finset.mul_sum]
    refine Finset.sum_congr rfl fun i _ => ?_
    rw [integral_finsetSum _ fun j _ => (hp i j).const_mul _, Finset.mul_sum]
    refine Finset.sum_congr rfl fun j _ => ?_
    rw [integral_const_mul, hp' i j]
    ring
  · unfold vdist
    exact integrable_finsetSum _ fun i _ => integrable_finsetSum _ fun j _ => (h1 i j _).1.const_mul _
  · unfold vdist
    rw [integral_finsetSum _ fun i _ => integrable_finsetSum _ fun j _ => (h1 i j _).1.const_mul _]
    unfold featVar vsLaw
    rw [← Finset.sum_add_distrib]
    refine Finset.sum_congr rfl fun i _ => ?_
    rw [integral_finsetSum _ fun j _ => (h1 i j _).1.const_mul _, ← Finset.sum_add_distrib]
    refine Finset.sum_congr rfl fun j _ => ?_
    rw [integral_const_mul, (h1 i j _).2]
    unfold featMean
    ring

theorem negV_int (hQ : ∀ i j, Integrable (fun x => vdiff p x i j ^ 2) Q) [IsProbabilityMeasure Q] (y : Eu D) :
    (Integrable (fun z : Eu D × Eu D => negV p W z.1 z.2) (Q.prod Q) ∧ Integrable (fun x => negV p W x x) Q ∧
      Integrable (fun x => negV p W x y) Q) ∧ ksLaw (negV p W) y Q = vsLaw p W y Q ∧
      ∫ x, negV p W x x ∂Q - pairMean (negV p W) Q Q = 2 * featVar (vdiff p) W Q := by
  obtain ⟨⟨h1, h2⟩, h3, h4⟩ := vdist_int (W := W) hQ y
  refine ⟨⟨h1.neg, by simp [negV, vdist_self], h3.neg⟩, ?_, ?_⟩
  · unfold ksLaw negV
    rw [pairMean_neg, integral_neg, h2, h4, vdist_self]
    ring
  · unfold negV
    rw [pairMean_neg, h2]
    simp [vdist_self]

/-- C111: the estimator `fair` of the variogram score is unbiased if the variogram has a finite second moment. -/
theorem C111_vs_unbiased (hp : 0 < p) (W : Fin D → Fin D → ℝ) (path : Path) (hM : 2 ≤ M) (y : Eu D)
    (Q : Measure (Eu D)) [IsProbabilityMeasure Q] (hQ : ∀ i j, Integrable (fun x => vdiff p x i j ^ 2) Q) :
    ∃ S : (Fin M → Eu D) → XF,
      (∀ x, vs1 path "fair" p (some (matl W)) D (vec y) ((List.ofFn x).map vec) none = .ok (S x)) ∧
      HasMean (iid M Q) S (vsLaw p W y Q) := by
  obtain ⟨⟨i1, i2, i3⟩, e, _⟩ := negV_int (W := W) hQ y
  rw [← e]
  exact ⟨_, fun x => by rw [vs1_fair hp W path y (by simpa using hM), vsFair_ks], ksFair_iid hM y i1 i2 i3⟩

/-- C111: the estimator `nrg` of the variogram score exceeds the score of the law by the weighted variances of the
variogram over the ensemble size. -/
theorem C111_vs_bias (hp : 0 < p) (W : Fin D → Fin D → ℝ) (path : Path) (hM : M ≠ 0) (y : Eu D)
    (Q : Measure (Eu D)) [IsProbabilityMeasure Q] (hQ : ∀ i j, Integrable (fun x => vdiff p x i j ^ 2) Q) :
    ∃ S : (Fin M → Eu D) → XF,
      (∀ x, vs1 path "nrg" p (some (matl W)) D (vec y) ((List.ofFn x).map vec) none = .ok (S x)) ∧
      HasMean (iid M Q) S (vsLaw p W y Q + featVar (vdiff p) W Q / M) := by
  obtain ⟨⟨i1, i2, i3⟩, e, e2⟩ := negV_int (W := W) hQ y
  have key := ks_iid hM y i1 i2 i3
  rw [e, e2, mul_div_mul_left _ _ (by norm_num : (2:ℝ) ≠ 0)] at key
  have hx : ∀ x : Fin M → Eu D, List.ofFn x ≠ [] := fun x => by simpa using hM
  exact ⟨_, fun x => by rw [vs1_nrg hp W path y (hx x)]; exact congrArg _ (congrArg _ (vs_ks _ (eqW_sum (hx x)))), key⟩

/-- order 1/2, three members in the plane; `C111_vs_unbiased`, `C111_vs_bias` -/
example : (0:ℝ) < 1 / 2 ∧ 2 ≤ 3 ∧
    ∀ i j : Fin 2, Integrable (fun y => vdiff (1 / 2) y i j ^ 2) (ensLaw (eqW [!₂[3, 4], !₂[0, (1:ℝ)]])) :=
  ⟨by norm_num, by norm_num, fun i j => (integral_ensLaw (eqW_nonneg _) _).1⟩

end

end Verif
