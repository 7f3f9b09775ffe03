import Verif.Props.Kernel
import Verif.Lemmas.Mmd

/-!
# Property C103: the Gaussian kernel scores are strictly proper
-/

noncomputable section

open scoped Classical
open MeasureTheory

namespace Verif

open XF Py Api Spec Mv

variable {D : ℕ}

theorem eqW_nonneg {β : Type} (xs : List β) : ∀ p ∈ eqW xs, 0 ≤ p.2 := by
  intro p hp
  obtain ⟨x, -, rfl⟩ := List.mem_map.1 hp
  positivity

theorem nrmW_nonneg {β : Type} {l : List (β × ℝ)} (hw : ∀ p ∈ l, 0 ≤ p.2) : ∀ p ∈ nrmW l, 0 ≤ p.2 := by
  intro p hp
  obtain ⟨x, hx, rfl⟩ := List.mem_map.1 hp
  refine div_nonneg (hw x hx) (List.sum_nonneg fun a ha => ?_)
  obtain ⟨q, hq, rfl⟩ := List.mem_map.1 ha
  exact hw q hq

/-- re-weighting equally weighted members -/
theorem nrmW_out {β : Type} (w : β → ℝ) {xs : List β} (h : xs ≠ []) :
    nrmW ((eqW xs).map fun p => (p.1, w p.1 * p.2)) = nrmW (xs.map fun x => (x, w x)) := by
  have hM : (xs.length : ℝ) ≠ 0 := by simpa using h
  unfold nrmW eqW
  simp only [List.map_map]
  have e : (xs.map (Prod.snd ∘ (fun p : β × ℝ => (p.1, w p.1 * p.2)) ∘ fun x => (x, 1 / (xs.length : ℝ)))).sum
      = (xs.map (Prod.snd ∘ fun x => (x, w x))).sum * (1 / xs.length) := by
    rw [← List.sum_map_mul_right]
    rfl
  refine List.map_congr_left fun x _ => ?_
  simp only [Function.comp_def] at e ⊢
  rw [e, mul_div_mul_right _ _ (by positivity)]

theorem out_pos {β : Type} {w : β → ℝ} (h0 : ∀ x, 0 ≤ w x) {l : List (β × ℝ)} (hw : ∀ p ∈ l, 0 ≤ p.2)
    (h : (l.map fun p => w p.1 * p.2).sum ≠ 0) : 0 < (l.map fun p => w p.1 * p.2).sum := by
  refine lt_of_le_of_ne (List.sum_nonneg fun a ha => ?_) h.symm
  obtain ⟨q, hq, rfl⟩ := List.mem_map.1 ha
  exact mul_nonneg (h0 _) (hw q hq)

theorem out_eqW {β : Type} {w : β → ℝ} {xs : List β} (h : (xs.map w).sum ≠ 0) :
    ((eqW xs).map fun p => w p.1 * p.2).sum ≠ 0 := by
  have hx : xs ≠ [] := by rintro rfl; simp at h
  have hM : (xs.length : ℝ) ≠ 0 := by simpa using hx
  have e : ((eqW xs).map fun p => w p.1 * p.2).sum = (xs.map w).sum * (1 / xs.length) := by
    rw [← List.sum_map_mul_right]
    unfold eqW
    rw [List.map_map]
    rfl
  rw [e]
  positivity

section

variable {E : Type} [NormedAddCommGroup E] [InnerProductSpace ℝ E] [FiniteDimensional ℝ E]
  [MeasurableSpace E] [BorelSpace E]

theorem owProper_gk {s : ℝ} (hs : 0 < s) {w : E → ℝ} (h0 : ∀ x, 0 ≤ w x) (hm : Measurable w)
    {l : List (E × ℝ)} (hw : ∀ p ∈ l, 0 ≤ p.2) (h : (l.map fun p => w p.1 * p.2).sum ≠ 0) :
    OwProper Set.univ (gk s) w
      (fun y => fin (owks (gk s) (w y) y (l.map fun p => (p.1, w p.1 * p.2)))) (ensLaw l) := by
  unfold owks
  refine owProper_of h0 hm ?_
  rw [condLaw_ensLaw h0 hw (out_pos h0 hw h)]
  refine kernelProper_gk hs (nrmW_nonneg fun p hp => ?_)
  obtain ⟨q, hq, rfl⟩ := List.mem_map.1 hp
  exact mul_nonneg (h0 _) (hw q hq)

end

/-! ### The Gaussian kernel scores -/

/-- C103: the Gaussian kernel score of an ensemble has, under every law of the observation, a finite mean that is
never below the entropy of that law, and equals it only if the law is the empirical distribution. -/
theorem C103_gksuv (path : Path) {xs : List ℝ} (h : xs ≠ []) :
    ∃ S : ℝ → XF, (∀ y, gksuv1 path "nrg" (fin y) (xs.map fin) none = .ok (S y)) ∧
      KernelProper Set.univ gauss1 S (ensLaw (eqW xs)) :=
  ⟨_, fun y => C37_gksuv_value path y h, by
    rw [gauss1_eq]; exact kernelProper_gk (by norm_num : (0:ℝ) < 1 / 2) (eqW_nonneg xs)⟩

/-- three members, two of them equal -/
example : ([1, 2, 2] : List ℝ) ≠ [] := by simp

/-- C103: the same with ensemble weights. -/
theorem C103_gksuv_weighted (path : Path) {l : List (ℝ × ℝ)} (hw : ∀ p ∈ l, 0 ≤ p.2)
    (h : (l.map Prod.snd).sum ≠ 0) :
    ∃ S : ℝ → XF, (∀ y, gksuv1 path "nrg" (fin y) (l.map fun p => fin p.1)
        (some (l.map fun p => fin p.2)) = .ok (S y)) ∧
      KernelProper Set.univ gauss1 S (ensLaw (nrmW l)) :=
  ⟨_, fun y => C37_gksuv_weighted_value path y l hw h, by
    rw [gauss1_eq]; exact kernelProper_gk (by norm_num : (0:ℝ) < 1 / 2) (nrmW_nonneg hw)⟩

/-- two members, one without weight -/
example : (∀ p ∈ ([(1, 2), (4, 0)] : List (ℝ × ℝ)), 0 ≤ p.2) ∧
    (([(1, 2), (4, 0)] : List (ℝ × ℝ)).map Prod.snd).sum ≠ 0 := by simp

/-- C103: the multivariate Gaussian kernel score, in every dimension. -/
theorem C103_gksmv (path : Path) {xs : List (Eu D)} (h : xs ≠ []) :
    ∃ S : Eu D → XF, (∀ y, gksmv1 path "nrg" D (vec y) (xs.map vec) none = .ok (S y)) ∧
      KernelProper Set.univ gaussD S (ensLaw (eqW xs)) :=
  ⟨_, fun y => C37_gksmv_value path y h, by
    rw [gaussD_eq]; exact kernelProper_gk (by norm_num : (0:ℝ) < 1 / 2) (eqW_nonneg xs)⟩

/-- two members in the plane -/
example : ([!₂[1, 2], 0] : List (Eu 2)) ≠ [] := by simp

/-- C103: the same with ensemble weights. -/
theorem C103_gksmv_weighted (path : Path) {l : List (Eu D × ℝ)} (hw : ∀ p ∈ l, 0 ≤ p.2)
    (h : (l.map Prod.snd).sum ≠ 0) :
    ∃ S : Eu D → XF, (∀ y, gksmv1 path "nrg" D (vec y) (l.map fun p => vec p.1)
        (some (l.map fun p => fin p.2)) = .ok (S y)) ∧
      KernelProper Set.univ gaussD S (ensLaw (nrmW l)) :=
  ⟨_, fun y => C37_gksmv_weighted_value path y l hw h, by
    rw [gaussD_eq]; exact kernelProper_gk (by norm_num : (0:ℝ) < 1 / 2) (nrmW_nonneg hw)⟩

/-- two members in the plane, one without weight -/
example : (∀ p ∈ ([(!₂[1, 2], 2), (0, 0)] : List (Eu 2 × ℝ)), 0 ≤ p.2) ∧
    (([(!₂[1, 2], 2), (0, 0)] : List (Eu 2 × ℝ)).map Prod.snd).sum ≠ 0 := by simp

/-- C103: among ensembles the one whose empirical distribution is the law of the observation has the smallest
mean score, and every other empirical distribution a larger one. -/
theorem C103_truth_wins {E : Type} [MeasurableSpace E] {A : Set (Measure E)} {K : E → E → ℝ} {S S' : E → XF}
    {Q Q' : Measure E} (h : KernelProper A K S Q) (h' : KernelProper A K S' Q') (hQ : Q ∈ A)
    (hp : IsProbabilityMeasure Q) :
    ∃ e e', HasMean Q S e ∧ HasMean Q S' e' ∧ e ≤ e' ∧ (e = e' ↔ Q = Q') := by
  obtain ⟨h1, -, h3⟩ := h Q hQ hp
  obtain ⟨k1, k2, k3⟩ := h' Q hQ hp
  refine ⟨_, _, h1, k1, ?_, ?_⟩
  · rw [h3.2 rfl]; linarith
  · rw [h3.2 rfl, ← k3]
    constructor <;> intro h <;> linarith

/-- the empirical distributions of two ensembles of the line -/
example : KernelProper Set.univ gauss1 (fun y => fin (ks gauss1 y (eqW [1, 2, 2]))) (ensLaw (eqW [1, 2, 2])) ∧
    KernelProper Set.univ gauss1 (fun y => fin (ks gauss1 y (eqW [3]))) (ensLaw (eqW [3])) ∧
    IsProbabilityMeasure (ensLaw (eqW ([1, 2, 2] : List ℝ))) := by
  rw [gauss1_eq]
  exact ⟨kernelProper_gk (by norm_num : (0:ℝ) < 1 / 2) (eqW_nonneg _),
    kernelProper_gk (by norm_num : (0:ℝ) < 1 / 2) (eqW_nonneg _),
    ensLaw_prob (eqW_nonneg _) (by norm_num [eqW])⟩

/-! ### Outcome weights -/

/-- weight functions used in the examples: `1 + x²` of a number, `1 + x₀²` of a point of the plane -/
def exW (v : XF) : XF := match v with
  | fin x => fin (1 + x ^ 2)
  | _ => nan

def exW2 (v : List XF) : XF := match v with
  | fin x :: _ => fin (1 + x ^ 2)
  | _ => nan

theorem exW_fn : WeightFn exW fun x => 1 + x ^ 2 := ⟨fun _ => rfl, fun _ => by positivity⟩

theorem exW2_fn : Spec.WeightFun (D := 2) exW2 fun v => 1 + v 0 ^ 2 :=
  ⟨fun v => by simp [exW2, vec], fun _ => by positivity⟩


/-- C103: the outcome-weighted score measures the distance of the re-weighted laws. -/
theorem C103_owgksuv (path : Path) {wF : XF → XF} {w : ℝ → ℝ} (hw : WeightFn wF w) (hm : Measurable w)
    {xs : List ℝ} (h : (xs.map w).sum ≠ 0) :
    ∃ S : ℝ → XF, (∀ y, owgksuv1 path wF (fin y) (xs.map fin) none = .ok (S y)) ∧
      OwProper Set.univ gauss1 w S (ensLaw (eqW xs)) :=
  ⟨_, fun y => C37_owgksuv_value path hw y h, by
    have h1 := owProper_gk (by norm_num : (0:ℝ) < 1 / 2) hw.nonneg hm (eqW_nonneg xs) (out_eqW h)
    have hx : xs ≠ [] := by rintro rfl; simp at h
    unfold owks at h1 ⊢
    rw [nrmW_out w hx] at h1
    rw [gauss1_eq]; exact h1⟩

/-- the weight function `x ↦ 1 + x²` -/
example : WeightFn exW (fun x => 1 + x ^ 2) ∧
    Measurable (fun x : ℝ => 1 + x ^ 2) ∧ (([1, 2, 2] : List ℝ).map fun x => 1 + x ^ 2).sum ≠ 0 :=
  ⟨exW_fn, by fun_prop, by norm_num⟩

/-- C103: the same with ensemble weights. -/
theorem C103_owgksuv_weighted (path : Path) {wF : XF → XF} {w : ℝ → ℝ} (hw : WeightFn wF w) (hm : Measurable w)
    {l : List (ℝ × ℝ)} (hl : ∀ p ∈ l, 0 ≤ p.2) (h : (l.map Prod.snd).sum ≠ 0)
    (h' : ((nrmW l).map fun p => w p.1 * p.2).sum ≠ 0) :
    ∃ S : ℝ → XF, (∀ y, owgksuv1 path wF (fin y) (l.map fun p => fin p.1)
        (some (l.map fun p => fin p.2)) = .ok (S y)) ∧
      OwProper Set.univ gauss1 w S (ensLaw (nrmW l)) :=
  ⟨_, fun y => C37_owgksuv_weighted path hw y l hl h h', by
    rw [gauss1_eq]
    exact owProper_gk (by norm_num : (0:ℝ) < 1 / 2) hw.nonneg hm (nrmW_nonneg hl) h'⟩

example : WeightFn exW (fun x => 1 + x ^ 2) ∧
    Measurable (fun x : ℝ => 1 + x ^ 2) ∧ (∀ p ∈ ([(1, 2), (4, 0)] : List (ℝ × ℝ)), 0 ≤ p.2) ∧
    (([(1, 2), (4, 0)] : List (ℝ × ℝ)).map Prod.snd).sum ≠ 0 ∧
    ((nrmW ([(1, 2), (4, 0)] : List (ℝ × ℝ))).map fun p => (1 + p.1 ^ 2) * p.2).sum ≠ 0 :=
  ⟨exW_fn, by fun_prop, by simp, by simp, by norm_num [nrmW]⟩

/-- C103: the multivariate outcome-weighted score. -/
theorem C103_owgksmv (path : Path) {wFunc : List XF → XF} {f : Eu D → ℝ} (hf : Spec.WeightFun wFunc f)
    (hm : Measurable f) {xs : List (Eu D)} (h : (xs.map f).sum ≠ 0) :
    ∃ S : Eu D → XF, (∀ y, owgksmv1 path D wFunc (vec y) (xs.map vec) none = .ok (S y)) ∧
      OwProper Set.univ gaussD f S (ensLaw (eqW xs)) :=
  ⟨_, fun y => C37_owgksmv_value path hf y h, by
    have h1 := owProper_gk (by norm_num : (0:ℝ) < 1 / 2) hf.nonneg hm (eqW_nonneg xs) (out_eqW h)
    have hx : xs ≠ [] := by rintro rfl; simp at h
    unfold owks at h1 ⊢
    rw [nrmW_out f hx] at h1
    rw [gaussD_eq]; exact h1⟩

example : Spec.WeightFun (D := 2) exW2 (fun v => 1 + v 0 ^ 2) ∧ Measurable (fun v : Eu 2 => 1 + v 0 ^ 2) ∧
    (([!₂[1, 2], 0] : List (Eu 2)).map fun v => 1 + v 0 ^ 2).sum ≠ 0 :=
  ⟨exW2_fn, by fun_prop, by norm_num⟩

/-- C103: the same with ensemble weights. -/
theorem C103_owgksmv_weighted (path : Path) {wFunc : List XF → XF} {f : Eu D → ℝ}
    (hf : Spec.WeightFun wFunc f) (hm : Measurable f) {l : List (Eu D × ℝ)} (hl : ∀ p ∈ l, 0 ≤ p.2)
    (h : (l.map Prod.snd).sum ≠ 0) (h' : ((nrmW l).map fun p => f p.1 * p.2).sum ≠ 0) :
    ∃ S : Eu D → XF, (∀ y, owgksmv1 path D wFunc (vec y) (l.map fun p => vec p.1)
        (some (l.map fun p => fin p.2)) = .ok (S y)) ∧
      OwProper Set.univ gaussD f S (ensLaw (nrmW l)) :=
  ⟨_, fun y => C37_owgksmv_weighted path hf y l hl h h', by
    rw [gaussD_eq]
    exact owProper_gk (by norm_num : (0:ℝ) < 1 / 2) hf.nonneg hm (nrmW_nonneg hl) h'⟩

example : Spec.WeightFun (D := 2) exW2 (fun v => 1 + v 0 ^ 2) ∧ Measurable (fun v : Eu 2 => 1 + v 0 ^ 2) ∧
    (∀ p ∈ ([(!₂[1, 2], 2), (0, 0)] : List (Eu 2 × ℝ)), 0 ≤ p.2) ∧
    (([(!₂[1, 2], 2), (0, 0)] : List (Eu 2 × ℝ)).map Prod.snd).sum ≠ 0 ∧
    ((nrmW ([(!₂[1, 2], 2), (0, 0)] : List (Eu 2 × ℝ))).map fun p => (1 + p.1 0 ^ 2) * p.2).sum ≠ 0 :=
  ⟨exW2_fn, by fun_prop, by simp, by simp, by norm_num [nrmW]⟩

/-- C103: the vertically re-scaled score measures the distance of the re-weighted measures, for every law under
which the outcome weight has a second moment. -/
theorem C103_vrgksuv (path : Path) {wF : XF → XF} {w : ℝ → ℝ} (hw : WeightFn wF w) (hm : Measurable w)
    {xs : List ℝ} (h : xs ≠ []) :
    ∃ S : ℝ → XF, (∀ y, vrgksuv1 path wF (fin y) (xs.map fin) none = .ok (S y)) ∧
      VrProper {P | Integrable (fun y => w y ^ 2) P} gauss1 w S (ensLaw (eqW xs)) :=
  ⟨_, fun y => C37_vrgksuv_value path hw y h, by
    have h1 := vrProper_gk (by norm_num : (0:ℝ) < 1 / 2) (eqW_nonneg xs) hw.nonneg hm
    have e : (xs.map fun x => (x, w x / (xs.length : ℝ)))
        = (eqW xs).map fun p => (p.1, w p.1 * p.2) := by
      unfold eqW
      rw [List.map_map]
      refine List.map_congr_left fun x _ => ?_
      simp only [Function.comp_def, mul_one_div]
    rw [gauss1_eq, e]; exact h1⟩

/-- and a law under which the weight has a second moment -/
example : WeightFn exW (fun x => 1 + x ^ 2) ∧ Measurable (fun x : ℝ => 1 + x ^ 2) ∧ ([1, 2, 2] : List ℝ) ≠ [] ∧
    Integrable (fun y : ℝ => (1 + y ^ 2) ^ 2) (ensLaw (eqW [3, 4])) :=
  ⟨exW_fn, by fun_prop, by simp, (integral_ensLaw (eqW_nonneg _) _).1⟩

/-- C103: the same with ensemble weights. -/
theorem C103_vrgksuv_weighted (path : Path) {wF : XF → XF} {w : ℝ → ℝ} (hw : WeightFn wF w) (hm : Measurable w)
    {l : List (ℝ × ℝ)} (hl : ∀ p ∈ l, 0 ≤ p.2) (h : (l.map Prod.snd).sum ≠ 0) :
    ∃ S : ℝ → XF, (∀ y, vrgksuv1 path wF (fin y) (l.map fun p => fin p.1)
        (some (l.map fun p => fin p.2)) = .ok (S y)) ∧
      VrProper {P | Integrable (fun y => w y ^ 2) P} gauss1 w S (ensLaw (nrmW l)) :=
  ⟨_, fun y => C37_vrgksuv_weighted path hw y l hl h, by
    rw [gauss1_eq]; exact vrProper_gk (by norm_num : (0:ℝ) < 1 / 2) (nrmW_nonneg hl) hw.nonneg hm⟩

example : WeightFn exW (fun x => 1 + x ^ 2) ∧ Measurable (fun x : ℝ => 1 + x ^ 2) ∧
    (∀ p ∈ ([(1, 2), (4, 0)] : List (ℝ × ℝ)), 0 ≤ p.2) ∧
    (([(1, 2), (4, 0)] : List (ℝ × ℝ)).map Prod.snd).sum ≠ 0 :=
  ⟨exW_fn, by fun_prop, by simp, by simp⟩

/-- C103: the multivariate vertically re-scaled score. With ensemble weights the numba path raises
(`C37_vrgksmv_weighted_fails`). -/
theorem C103_vrgksmv (path : Path) {wFunc : List XF → XF} {f : Eu D → ℝ} (hf : Spec.WeightFun wFunc f)
    (hm : Measurable f) {xs : List (Eu D)} (h : xs ≠ []) :
    ∃ S : Eu D → XF, (∀ y, vrgksmv1 path D wFunc (vec y) (xs.map vec) none = .ok (S y)) ∧
      VrProper {P | Integrable (fun y => f y ^ 2) P} gaussD f S (ensLaw (eqW xs)) :=
  ⟨_, fun y => C37_vrgksmv_value path hf y h, by
    have h1 := vrProper_gk (by norm_num : (0:ℝ) < 1 / 2) (eqW_nonneg xs) hf.nonneg hm
    have e : (xs.map fun x => (x, f x / (xs.length : ℝ)))
        = (eqW xs).map fun p => (p.1, f p.1 * p.2) := by
      unfold eqW
      rw [List.map_map]
      refine List.map_congr_left fun x _ => ?_
      simp only [Function.comp_def, mul_one_div]
    rw [gaussD_eq, e]; exact h1⟩

example : Spec.WeightFun (D := 2) exW2 (fun v => 1 + v 0 ^ 2) ∧ Measurable (fun v : Eu 2 => 1 + v 0 ^ 2) ∧
    ([!₂[1, 2], 0] : List (Eu 2)) ≠ [] ∧
    Integrable (fun v : Eu 2 => (1 + v 0 ^ 2) ^ 2) (ensLaw (eqW [!₂[3, 4]])) :=
  ⟨exW2_fn, by fun_prop, by simp, (integral_ensLaw (eqW_nonneg _) _).1⟩

/-- C103: the same with ensemble weights on the array path; the numba path raises for them
(`C37_vrgksmv_weighted_fails`). -/
theorem C103_vrgksmv_weighted_array {wFunc : List XF → XF} {f : Eu D → ℝ} (hf : Spec.WeightFun wFunc f)
    (hm : Measurable f) {l : List (Eu D × ℝ)} (hl : ∀ p ∈ l, 0 ≤ p.2) (h : (l.map Prod.snd).sum ≠ 0) :
    ∃ S : Eu D → XF, (∀ y, vrgksmv1 .array D wFunc (vec y) (l.map fun p => vec p.1)
        (some (l.map fun p => fin p.2)) = .ok (S y)) ∧
      VrProper {P | Integrable (fun y => f y ^ 2) P} gaussD f S (ensLaw (nrmW l)) :=
  ⟨_, fun y => C37_vrgksmv_weighted_partial hf y l hl h, by
    rw [gaussD_eq]; exact vrProper_gk (by norm_num : (0:ℝ) < 1 / 2) (nrmW_nonneg hl) hf.nonneg hm⟩

example : Spec.WeightFun (D := 2) exW2 (fun v => 1 + v 0 ^ 2) ∧ Measurable (fun v : Eu 2 => 1 + v 0 ^ 2) ∧
    (∀ p ∈ ([(!₂[1, 2], 2), (0, 0)] : List (Eu 2 × ℝ)), 0 ≤ p.2) ∧
    (([(!₂[1, 2], 2), (0, 0)] : List (Eu 2 × ℝ)).map Prod.snd).sum ≠ 0 :=
  ⟨exW2_fn, by fun_prop, by simp, by simp⟩

end Verif
