import Verif.Spec.Weighted
import Verif.Lemmas.WeightedUv
import Verif.Lemmas.CrpsIntegral
import Verif.Props.CrpsArr

/-!
# Threshold-weighted, outcome-weighted and vertically re-scaled CRPS (C21 to C25)
-/

noncomputable section

open scoped Classical
open MeasureTheory

namespace Verif

open XF Py Api

/-! ### C21 -/

/-- the default chaining function on finite values -/
theorem defaultV_fin {a b : XF} (ha : a ≠ pinf) (hb : b ≠ ninf) (hab : a ≤ b) :
    ∃ c : ℝ → ℝ, (∀ x, defaultV a b (fin x) = fin (c x)) ∧
      (∀ x z, fin z < a → z < c x) ∧ (∀ x z, b ≤ fin z → c x ≤ z) ∧
      (∀ x z, a ≤ fin z → fin z < b → (c x ≤ z ↔ x ≤ z)) ∧ Monotone c := by
  cases a with
  | nan => exact absurd hab (by simp)
  | pinf => exact absurd rfl ha
  | ninf =>
    cases b with
    | nan => exact absurd hab (by simp)
    | ninf => exact absurd rfl hb
    | pinf =>
      refine ⟨fun x => x, fun x => ?_, fun x z h => absurd h (by simp), fun x z h =>
        absurd h (by simp), fun x z _ _ => Iff.rfl, fun _ _ h => h⟩
      unfold defaultV XF.max XF.min
      simp
    | fin b =>
      refine ⟨fun x => min x b, fun x => ?_, fun x z h => absurd h (by simp),
        fun x z h => ?_, fun x z _ h => ?_, fun x y h => min_le_min_right _ h⟩
      · unfold defaultV
        have : XF.max (fin x) ninf = fin x := by unfold XF.max; simp
        rw [this, fin_min]
      · exact (min_le_right _ _).trans (by simpa using h)
      · have h' : z < b := by simpa using h
        rw [min_le_iff]
        constructor
        · rintro (h1 | h1)
          · exact h1
          · linarith
        · exact Or.inl
  | fin a =>
    cases b with
    | nan => exact absurd hab (by simp)
    | ninf => exact absurd rfl hb
    | pinf =>
      refine ⟨fun x => max x a, fun x => ?_, fun x z h => ?_, fun x z h =>
        absurd h (by simp), fun x z h _ => ?_, fun x y h => max_le_max_right _ h⟩
      · unfold defaultV
        rw [fin_max]; unfold XF.min; simp
      · exact lt_of_lt_of_le (by simpa using h) (le_max_right _ _)
      · have h' : a ≤ z := by simpa using h
        rw [max_le_iff]
        exact ⟨fun h => h.1, fun h => ⟨h, h'⟩⟩
    | fin b =>
      have hab' : a ≤ b := by simpa using hab
      refine ⟨fun x => min (max x a) b, fun x => ?_, fun x z h => ?_, fun x z h => ?_,
        fun x z h1 h2 => ?_, fun x y h => min_le_min_right _ (max_le_max_right _ h)⟩
      · unfold defaultV
        rw [fin_max, fin_min]
      · have h' : z < a := by simpa using h
        exact lt_min (lt_of_lt_of_le h' (le_max_right _ _)) (lt_of_lt_of_le h' hab')
      · exact (min_le_right _ _).trans (by simpa using h)
      · have h1' : a ≤ z := by simpa using h1
        have h2' : z < b := by simpa using h2
        rw [min_le_iff, max_le_iff]
        constructor
        · rintro (h | h)
          · exact h.1
          · linarith
        · exact fun h => Or.inl ⟨h, h1'⟩

theorem measurable_between (a b : XF) : MeasurableSet (Spec.between a b) := by
  have e : Spec.between a b = {z | a ≤ fin z} ∩ {z | fin z ≤ b} := rfl
  rw [e]
  apply MeasurableSet.inter
  · cases a with
    | nan => simp
    | pinf => simp
    | ninf => simp
    | fin a => exact measurableSet_Ici (a := a)
  · cases b with
    | nan => simp
    | ninf => simp
    | pinf => simp
    | fin b => exact measurableSet_Iic (a := b)

theorem not_le_fin {a : XF} (h : ¬ a.isnan) (z : ℝ) : ¬ a ≤ fin z ↔ fin z < a := by
  cases a with
  | nan => simp at h
  | ninf => simp
  | pinf => simp
  | fin a => simp

theorem not_lt_fin {b : XF} (h : ¬ b.isnan) (z : ℝ) : ¬ fin z < b ↔ b ≤ fin z := by
  cases b with
  | nan => simp at h
  | ninf => simp
  | pinf => simp
  | fin a => simp

theorem twCrps_clamp {a b : XF} (hab : a ≤ b) {c : ℝ → ℝ}
    (h1 : ∀ x z, fin z < a → z < c x) (h2 : ∀ x z, b ≤ fin z → c x ≤ z)
    (h3 : ∀ x z, a ≤ fin z → fin z < b → (c x ≤ z ↔ x ≤ z)) {l : List (ℝ × ℝ)}
    (ht : wtot l ≠ 0) (y : ℝ) :
    Spec.crps (Spec.wcdf (l.map fun p => (c p.1, p.2))) (c y)
      = Spec.twCrps (Spec.between a b) (Spec.wcdf l) y := by
  have ha : ¬ a.isnan := by rintro h; rw [isnan_iff.1 h] at hab; exact absurd hab (by simp)
  have hb : ¬ b.isnan := by rintro h; rw [isnan_iff.1 h] at hab; exact absurd hab (by simp)
  have hsnd : (l.map fun p => (c p.1, p.2)).map Prod.snd = l.map Prod.snd := by
    rw [List.map_map]; rfl
  unfold Spec.crps Spec.twCrps
  rw [← integral_indicator (measurable_between a b)]
  apply integral_congr_ae
  have hnull : volume {z : ℝ | b = fin z} = 0 := by
    apply Set.Subsingleton.measure_zero
    intro z hz z' hz'
    have : fin z = fin z' := by rw [← hz, ← hz']
    simpa using this
  have hae : ∀ᵐ z : ℝ, ¬ b = fin z := by
    rw [ae_iff]; simpa using hnull
  filter_upwards [hae] with z hz
  by_cases hza : a ≤ fin z
  · by_cases hzb : fin z < b
    · have hm : z ∈ Spec.between a b := by
        refine ⟨hza, ?_⟩
        cases b with
        | nan => simp at hb
        | ninf => simp at hzb
        | pinf => simp
        | fin b => simp at hzb ⊢; exact hzb.le
      rw [Set.indicator_of_mem hm]
      have e : Spec.wcdf (l.map fun p => (c p.1, p.2)) z = Spec.wcdf l z := by
        unfold Spec.wcdf
        rw [hsnd, List.filter_map, List.map_map]
        congr 3
        apply List.filter_congr
        intro p _
        simp [h3 p.1 z hza hzb]
      rw [e]
      simp only [h3 y z hza hzb]
    · have hzb' := (not_lt_fin hb z).1 hzb
      have hm : z ∉ Spec.between a b := by
        rintro ⟨-, h⟩
        apply hz
        cases b with
        | nan => simp at hb
        | ninf => simp at h
        | pinf => simp at hzb'
        | fin b => simp at h hzb' ⊢; linarith
      rw [Set.indicator_of_notMem hm]
      have e : Spec.wcdf (l.map fun p => (c p.1, p.2)) z = 1 := by
        unfold Spec.wcdf
        rw [hsnd, List.filter_eq_self.2, hsnd]
        · exact div_self ht
        · intro p hp
          obtain ⟨q, _, rfl⟩ := List.mem_map.1 hp
          simp [h2 q.1 z hzb']
      rw [e, if_pos (h2 y z hzb')]
      norm_num
  · have hza' := (not_le_fin ha z).1 hza
    have hm : z ∉ Spec.between a b := fun h => hza h.1
    rw [Set.indicator_of_notMem hm]
    have e : Spec.wcdf (l.map fun p => (c p.1, p.2)) z = 0 := by
      unfold Spec.wcdf
      rw [List.filter_eq_nil_iff.2]
      · simp
      · intro p hp
        obtain ⟨q, _, rfl⟩ := List.mem_map.1 hp
        simpa using h1 q.1 z hza'
    rw [e, if_neg (by simpa using h1 y z hza')]
    norm_num

theorem wcdf_one (xs : List ℝ) : Spec.wcdf (xs.map fun x => (x, 1)) = Spec.ecdf xs := by
  funext z
  unfold Spec.wcdf Spec.ecdf
  congr 1
  · induction xs with
    | nil => simp
    | cons x xs ih =>
      by_cases h : x ≤ z
      · simp [h, ih]; ring
      · simp [h, ih]
  · rw [List.map_map]
    induction xs with
    | nil => simp
    | cons x xs ih => simp [ih]; ring

theorem wtot_one {xs : List ℝ} (h : xs ≠ []) : wtot (xs.map fun x => (x, 1)) ≠ 0 := by
  have : wtot (xs.map fun x => (x, (1 : ℝ))) = xs.length := by
    clear h
    unfold wtot
    rw [List.map_map]
    induction xs with
    | nil => simp
    | cons x xs ih =>
      rw [List.map_cons, List.sum_cons, ih, List.length_cons]
      push_cast
      show (1 : ℝ) + _ = _
      ring
  rw [this]
  simpa using h

/-- C21: with thresholds `a ≤ b` (finite or infinite) and estimator `nrg`, `qd` or `int`, every entry
of `twcrps_ensemble` is the integral over `[a, b]` of the squared difference between the empirical
distribution function of the slice and the step at the observation.  Arrays of every rank, every
ensemble axis, both paths. -/
theorem C21_twcrps_is_restricted_integral {obs fct : Arr ℝ} {m : ℤ} {k : ℕ}
    (h : Spec.AxisIs m fct.ndim k) (hs : obs.shape = fct.shape.eraseIdx k)
    (hk : fct.shape.getD k 0 ≠ 0) (hne : ∃ i, Arr.Valid obs.shape i) {a b : XF} (ha : a ≠ pinf)
    (hb : b ≠ ninf) (hab : a ≤ b) (path : Path) {est : String}
    (he : est = "nrg" ∨ est = "qd" ∨ est = "int") (sorted : Bool)
    (hsort : sorted = true → ∀ i, (fct.sliceAt k i).Pairwise (· ≤ ·)) :
    ∃ out, twcrpsEnsemble path (obs.map fin) (fct.map fin) (defaultV a b) m none est sorted
        "propagate" = .ok out ∧ out.shape = obs.shape ∧
      ∀ i, Arr.Valid obs.shape i → out.get i
        = fin (Spec.twCrps (Spec.between a b) (Spec.ecdf (fct.sliceAt k i)) (obs.get i)) := by
  obtain ⟨c, hc, h1, h2, h3, hmono⟩ := defaultV_fin ha hb hab
  unfold twcrpsEnsemble
  refine C14_total (obs := (obs.map fin).map (defaultV a b)) (fct := (fct.map fin).map (defaultV a b))
    h hs (by simp [Spec.WShape]) path est sorted "propagate" hne _ ?_
  intro i hi
  have hl : fct.sliceAt k i ≠ [] := by
    unfold Arr.sliceAt; simpa using hk
  have e : ((fct.map fin).map (defaultV a b)).sliceAt k i = ((fct.sliceAt k i).map c).map fin := by
    rw [sliceAt_map, sliceAt_map, List.map_map, List.map_map]
    exact List.map_congr_left fun x _ => hc x
  have ey : ((obs.map fin).map (defaultV a b)).get i = fin (c (obs.get i)) := hc _
  rw [e, ey, Option.map_none]
  have hl' : (fct.sliceAt k i).map c ≠ [] := by simpa using hl
  have hs' : sorted = true → ((fct.sliceAt k i).map c).Pairwise (· ≤ ·) := by
    intro hs1
    exact (hsort hs1 i).map c fun _ _ h => hmono h
  have key : Spec.crps (Spec.ecdf ((fct.sliceAt k i).map c)) (c (obs.get i))
      = Spec.twCrps (Spec.between a b) (Spec.ecdf (fct.sliceAt k i)) (obs.get i) := by
    have := twCrps_clamp hab h1 h2 h3 (wtot_one hl) (obs.get i)
    rw [wcdf_one] at this
    rw [← this, ← wcdf_one, List.map_map, List.map_map]
    rfl
  rw [← key]
  rcases he with rfl | he
  · exact C01_nrg_is_integral path sorted _ _ hl'
  · exact C02_qd_int_are_integral path sorted _ _ hl' hs' he

example : let fct : Arr ℝ := ⟨[2, 3], fun i => i.sum⟩
    let obs : Arr ℝ := ⟨[2], fun i => i.sum⟩
    Spec.AxisIs (-1) fct.ndim 1 ∧ obs.shape = fct.shape.eraseIdx 1 ∧ fct.shape.getD 1 0 ≠ 0 ∧
      Arr.Valid obs.shape [1] ∧ fin (-1) ≠ pinf ∧ (pinf : XF) ≠ ninf ∧ fin (-1) ≤ pinf := by
  refine ⟨⟨by simp [Arr.ndim], Or.inr (by simp [Arr.ndim])⟩, rfl, by simp, by simp [Arr.Valid],
    by simp, by simp, by simp⟩

/-- C21 with ensemble weights. -/
theorem C21_twcrps_weighted {obs fct W : Arr ℝ} {m : ℤ} {k : ℕ}
    (h : Spec.AxisIs m fct.ndim k) (hs : obs.shape = fct.shape.eraseIdx k)
    (hW : W.shape = fct.shape) (hne : ∃ i, Arr.Valid obs.shape i)
    (hw : ∀ i, 0 ≤ W.get i) (ht : ∀ i, Arr.Valid obs.shape i → 0 < (W.sliceAt k i).sum)
    {a b : XF} (ha : a ≠ pinf) (hb : b ≠ ninf) (hab : a ≤ b) (path : Path) {est : String}
    (he : est = "nrg" ∨ est = "qd" ∨ est = "int") (sorted : Bool)
    (hsort : sorted = true → ∀ i, (fct.sliceAt k i).Pairwise (· ≤ ·)) :
    ∃ out, twcrpsEnsemble path (obs.map fin) (fct.map fin) (defaultV a b) m (some (W.map fin)) est
        sorted "propagate" = .ok out ∧ out.shape = obs.shape ∧
      ∀ i, Arr.Valid obs.shape i → out.get i
        = fin (Spec.twCrps (Spec.between a b)
            (Spec.wcdf ((fct.sliceAt k i).zip (W.sliceAt k i))) (obs.get i)) := by
  obtain ⟨c, hc, h1, h2, h3, hmono⟩ := defaultV_fin ha hb hab
  unfold twcrpsEnsemble
  refine C14_total (obs := (obs.map fin).map (defaultV a b)) (fct := (fct.map fin).map (defaultV a b))
    h hs (by intro w hw; cases hw; exact hW) path est sorted "propagate" hne _ ?_
  intro i hi
  set xs := fct.sliceAt k i with hxs
  set ws := W.sliceAt k i with hws
  have hlen : xs.length = ws.length := by simp [hxs, hws, Arr.sliceAt, hW]
  have e : ((fct.map fin).map (defaultV a b)).sliceAt k i
      = ((xs.zip ws).map fun p => (c p.1, p.2)).map fun p => fin p.1 := by
    rw [sliceAt_map, sliceAt_map, List.map_map, List.map_map, ← hxs]
    have : xs = (xs.zip ws).map Prod.fst := (List.map_fst_zip hlen.le).symm
    conv_lhs => rw [this]
    rw [List.map_map]
    exact List.map_congr_left fun p _ => hc p.1
  have ew : (W.map fin).sliceAt k i
      = ((xs.zip ws).map fun p => (c p.1, p.2)).map fun p => fin p.2 := by
    rw [sliceAt_map, List.map_map, ← hws]
    have : ws = (xs.zip ws).map Prod.snd := (List.map_snd_zip hlen.ge).symm
    conv_lhs => rw [this]
    rw [List.map_map]
    rfl
  have ey : ((obs.map fin).map (defaultV a b)).get i = fin (c (obs.get i)) := hc _
  rw [e, ey, Option.map_some, ew]
  have hsnd : ((xs.zip ws).map fun p => (c p.1, p.2)).map Prod.snd = ws := by
    rw [List.map_map]
    exact List.map_snd_zip hlen.ge
  have hsnd' : (xs.zip ws).map Prod.snd = ws := List.map_snd_zip hlen.ge
  have ht1 : 0 < (((xs.zip ws).map fun p => (c p.1, p.2)).map Prod.snd).sum := by
    rw [hsnd]; exact ht i hi
  have ht2 : wtot (xs.zip ws) ≠ 0 := by
    unfold wtot; rw [hsnd']; exact (ht i hi).ne'
  have hnn : ∀ p ∈ (xs.zip ws).map fun p => (c p.1, p.2), 0 ≤ p.2 := by
    intro p hp
    obtain ⟨q, hq, rfl⟩ := List.mem_map.1 hp
    have := List.of_mem_zip hq
    have h2 := this.2
    simp only [hws, Arr.sliceAt, List.mem_map] at h2
    obtain ⟨j, _, hj⟩ := h2
    rw [← hj]
    exact hw _
  have hs' : sorted = true → ((xs.zip ws).map fun p => (c p.1, p.2)).Pairwise
      fun p q => p.1 ≤ q.1 := by
    intro hs1
    have h0 := (hsort hs1 i).map c fun _ _ h => hmono h
    have : ((xs.zip ws).map fun p => (c p.1, p.2)).map Prod.fst = xs.map c := by
      rw [List.map_map]
      have : xs = (xs.zip ws).map Prod.fst := (List.map_fst_zip hlen.le).symm
      conv_rhs => rw [this]
      rw [List.map_map]
      rfl
    rw [← hxs, ← this, List.pairwise_map] at h0
    exact h0
  rw [← twCrps_clamp hab h1 h2 h3 ht2 (obs.get i)]
  rcases he with rfl | he
  · exact C01_nrg_weighted_is_integral path sorted _ _ hnn ht1
  · exact C02_weighted path sorted _ _ hnn ht1 hs' he

/-- thresholds -1 and +inf are admissible -/
example : fin (-1) ≠ pinf ∧ pinf ≠ ninf ∧ fin (-1) ≤ pinf := by simp

/-- the two values lie on the same side of the interval from `a` to `b`, or are equal -/
def SameSide (a b x x' : XF) : Prop := x = x' ∨ (x ≤ a ∧ x' ≤ a) ∨ (b ≤ x ∧ b ≤ x')

theorem defaultV_sameSide {a b x x' : XF} (hab : a ≤ b) (h : SameSide a b x x') :
    defaultV a b x = defaultV a b x' := by
  rcases h with rfl | ⟨h1, h2⟩ | ⟨h1, h2⟩
  · rfl
  · have : ∀ x, x ≤ a → XF.max x a = a := by
      intro x hx
      cases x <;> cases a <;> simp_all [XF.max]
    unfold defaultV
    rw [this x h1, this x' h2]
  · have : ∀ x, b ≤ x → XF.min (XF.max x a) b = b := by
      intro x hx
      cases a with
      | nan => exact absurd hab (by simp)
      | pinf =>
        cases b with
        | pinf => cases x <;> simp_all [XF.max, XF.min]
        | _ => simp at hab
      | ninf =>
        cases b <;> cases x <;> simp_all [XF.max, XF.min]
        intro h; linarith
      | fin a =>
        cases b <;> cases x <;> simp_all
        · simp [XF.max, XF.min]
        · simp [XF.max, XF.min]
    unfold defaultV
    rw [this x h1, this x' h2]

/-- C21: values outside `[a, b]` matter only through the side they lie on: replacing observations and
members by others on the same side (infinities included) changes nothing, for every estimator, policy,
weighting and path. -/
theorem C21_only_the_side_matters {a b : XF} (hab : a ≤ b) {obs obs' fct fct' : Arr XF}
    (ho : obs.shape = obs'.shape) (hf : fct.shape = fct'.shape)
    (ho' : ∀ i, SameSide a b (obs.get i) (obs'.get i))
    (hf' : ∀ i, SameSide a b (fct.get i) (fct'.get i)) (path : Path) (m : ℤ) (W : Option (Arr XF))
    (est : String) (sorted : Bool) (np : String) :
    twcrpsEnsemble path obs fct (defaultV a b) m W est sorted np
      = twcrpsEnsemble path obs' fct' (defaultV a b) m W est sorted np := by
  have e1 : obs.map (defaultV a b) = obs'.map (defaultV a b) := by
    unfold Arr.map
    rw [ho]
    congr 1
    funext i
    exact defaultV_sameSide hab (ho' i)
  have e2 : fct.map (defaultV a b) = fct'.map (defaultV a b) := by
    unfold Arr.map
    rw [hf]
    congr 1
    funext i
    exact defaultV_sameSide hab (hf' i)
  unfold twcrpsEnsemble
  rw [e1, e2]

/-- -5 and minus infinity are on the same side of [0, 1] -/
example : SameSide (fin 0) (fin 1) (fin (-5)) ninf := Or.inr (Or.inl (by simp))

/-! ### C22 -/

theorem defaultV_trivial (x : XF) : defaultV ninf pinf x = x := by
  cases x <;> simp [defaultV, XF.max, XF.min]

/-- C22: `twcrps_ensemble` with the default thresholds is `crps_ensemble`, for all inputs. -/
theorem C22_twcrps_default (path : Path) (obs fct : Arr XF) (m : ℤ) (W : Option (Arr XF))
    (est : String) (sorted : Bool) (np : String) :
    twcrpsEnsemble path obs fct (defaultV ninf pinf) m W est sorted np
      = crpsEnsemble path obs fct m W est sorted np := by
  have : ∀ a : Arr XF, a.map (defaultV ninf pinf) = a := by
    intro a
    unfold Arr.map
    simp only [defaultV_trivial]
  unfold twcrpsEnsemble
  rw [this, this]

/-- hypotheses shared by the statements on outcome weights: `wF` computes the non-negative real
function `w` on finite numbers -/
structure WeightFn (wF : XF → XF) (w : ℝ → ℝ) : Prop where
  eq : ∀ x, wF (fin x) = fin (w x)
  nonneg : ∀ x, 0 ≤ w x

theorem WeightFn.not_neg {wF : XF → XF} {w : ℝ → ℝ} (h : WeightFn wF w) (a : Arr ℝ) :
    ¬ ((a.map fin).map wF).Any (fun v => v < 0) := by
  rintro ⟨i, -, hi⟩
  have e : ((a.map fin).map wF).get i = fin (w (a.get i)) := h.eq _
  rw [e, zero_fin, fin_lt] at hi
  exact absurd hi (not_lt.2 (h.nonneg _))

theorem moveLast_map {α β : Type} (a : Arr α) (f : α → β) (k : ℕ) :
    (a.map f).moveLast k = (a.moveLast k).map f := rfl

theorem not_neg_fin {a : Arr ℝ} (h : ∀ i, 0 ≤ a.get i) : ¬ (a.map fin).Any (fun v => v < 0) := by
  rintro ⟨i, -, hi⟩
  have e : (a.map fin).get i = fin (a.get i) := rfl
  rw [e, zero_fin, fin_lt] at hi
  exact absurd hi (not_lt.2 (h i))

theorem crps_wcdf_norml (y : ℝ) {l : List (ℝ × ℝ)} (h : wtot l ≠ 0) :
    energy y (norml l) = Spec.crps (Spec.wcdf l) y := by
  rw [← wcdf_norml h, crps_wcdf_eq_energy y _ (wtot_norml h)]

/-! ### C23 -/

/-- C23: every entry of `owcrps_ensemble` is `w(y)` times the CRPS of the ensemble reweighted by `w`;
all ranks, ensemble axes and both paths. -/
theorem C23_ow_value {obs fct : Arr ℝ} {m : ℤ} {k : ℕ} (h : Spec.AxisIs m fct.ndim k)
    (hs : obs.shape = fct.shape.eraseIdx k) {wF : XF → XF} {w : ℝ → ℝ} (hw : WeightFn wF w)
    (hpos : ∀ i, Arr.Valid obs.shape i → 0 < ((fct.sliceAt k i).map w).sum) (path : Path) :
    ∃ out, owcrpsEnsemble path (obs.map fin) (fct.map fin) wF m none "propagate" = .ok out ∧
      out.shape = obs.shape ∧ ∀ i, Arr.Valid obs.shape i → out.get i = fin (w (obs.get i) *
        Spec.crps (Spec.wcdf (Spec.reweight w (fct.sliceAt k i))) (obs.get i)) := by
  have hp := owPrep_none (obs := obs.map fin) (fct := fct.map fin) (w := wF) h hs (hw.not_neg _)
    (by rw [moveLast_map]; exact hw.not_neg _)
  have hslice : ∀ i, ((fct.map fin).moveLast k).row i = Xs (Spec.reweight w (fct.sliceAt k i)) := by
    intro i
    rw [Arr.row_moveLast, sliceAt_map]
    unfold Xs Spec.reweight
    rw [List.map_map]; rfl
  have hwt : ∀ i, (((fct.map fin).moveLast k).map wF).row i
      = Ws (Spec.reweight w (fct.sliceAt k i)) := by
    intro i
    rw [Arr.row_map, Arr.row_moveLast, sliceAt_map]
    unfold Ws Spec.reweight
    rw [List.map_map, List.map_map]
    exact List.map_congr_left fun x _ => hw.eq x
  have ho : ∀ i, ((obs.map fin).map wF).get i = fin (w (obs.get i)) := fun i => hw.eq _
  have ht : ∀ i, Arr.Valid obs.shape i → wtot (Spec.reweight w (fct.sliceAt k i)) ≠ 0 := by
    intro i hi
    have := hpos i hi
    unfold wtot Spec.reweight
    rw [List.map_map]
    exact this.ne'
  unfold owcrpsEnsemble
  simp only [hp, bind, Except.bind]
  cases path with
  | numba =>
    refine ⟨_, rfl, rfl, fun i hi => ?_⟩
    show Gufunc.ow (fin (obs.get i)) _ _ _ = _
    rw [hslice, hwt, ho, Gufunc.ow_fin _ _ _ (ht i hi), crps_wcdf_norml _ (ht i hi)]
  | array =>
    refine ⟨_, rfl, rfl, fun i hi => ?_⟩
    show Approx.ow (fin (obs.get i)) _ _ _ = _
    rw [hslice, hwt, ho, Approx.ow_fin _ _ _ (ht i hi), crps_wcdf_norml _ (ht i hi)]

/-- members of a slice with their outcome weights and normalised ensemble weights -/
def triples (w : ℝ → ℝ) (l : List (ℝ × ℝ)) : List (ℝ × ℝ × ℝ) :=
  l.map fun p => (p.1, w p.1, p.2 / wtot l)

theorem comb_triples (w : ℝ → ℝ) (l : List (ℝ × ℝ)) :
    comb (triples w l) = (Spec.reweightW w l).map fun p => (p.1, (wtot l)⁻¹ * p.2) := by
  unfold comb triples Spec.reweightW
  rw [List.map_map, List.map_map]
  apply List.map_congr_left
  intro p _
  show (p.1, p.2 / wtot l * w p.1) = (p.1, (wtot l)⁻¹ * (p.2 * w p.1))
  rw [Prod.mk.injEq]
  exact ⟨rfl, by ring⟩

theorem energy_norml_scale {c : ℝ} (hc : c ≠ 0) (y : ℝ) (l : List (ℝ × ℝ)) :
    energy y (norml (l.map fun p => (p.1, c * p.2))) = energy y (norml l) := by
  rw [energy_norml, energy_norml, wabs_scale, wpair_scale, wtot_scale]
  by_cases h : wtot l = 0
  · simp [h]
  · field_simp

/-- what `owPrep` leaves for the kernels when ensemble weights are given -/
theorem owPrep_triples {obs fct W : Arr ℝ} {m : ℤ} {k : ℕ} (h : Spec.AxisIs m fct.ndim k)
    (hs : obs.shape = fct.shape.eraseIdx k) (hW : W.shape = fct.shape) {wF : XF → XF} {w : ℝ → ℝ}
    (hw : WeightFn wF w) (hv : ∀ i, 0 ≤ W.get i)
    (hpos : ∀ i, Arr.Valid obs.shape i → 0 < (W.sliceAt k i).sum) :
    ∃ f fw W', owPrep (obs.map fin) (fct.map fin) wF m (some (W.map fin)) "propagate"
        = .ok (f, (obs.map fin).map wF, fw, some W') ∧
      ∀ i, Arr.Valid obs.shape i →
        f.row i = Tx (triples w ((fct.sliceAt k i).zip (W.sliceAt k i))) ∧
        fw.row i = Tw (triples w ((fct.sliceAt k i).zip (W.sliceAt k i))) ∧
        W'.row i = Tv (triples w ((fct.sliceAt k i).zip (W.sliceAt k i))) := by
  obtain ⟨W', hp, hW'⟩ := owPrep_some (obs := obs.map fin) (fct := fct.map fin) (W := W.map fin)
    (w := wF) h hs hW (hw.not_neg _) (by rw [moveLast_map]; exact hw.not_neg _) (not_neg_fin hv)
  refine ⟨_, _, _, hp, fun i hi => ?_⟩
  have hlen : (fct.sliceAt k i).length = (W.sliceAt k i).length := by simp [Arr.sliceAt, hW]
  have e1 : (fct.sliceAt k i) = ((fct.sliceAt k i).zip (W.sliceAt k i)).map Prod.fst :=
    (List.map_fst_zip hlen.le).symm
  have e2 : (W.sliceAt k i) = ((fct.sliceAt k i).zip (W.sliceAt k i)).map Prod.snd :=
    (List.map_snd_zip hlen.ge).symm
  have ht : wtot ((fct.sliceAt k i).zip (W.sliceAt k i)) ≠ 0 := by
    unfold wtot; rw [← e2]; exact (hpos i hi).ne'
  refine ⟨?_, ?_, ?_⟩
  · rw [Arr.row_moveLast, sliceAt_map]
    conv_lhs => rw [e1]
    unfold Tx triples
    rw [List.map_map, List.map_map]; rfl
  · rw [Arr.row_map, Arr.row_moveLast, sliceAt_map]
    conv_lhs => rw [e1]
    unfold Tw triples
    rw [List.map_map, List.map_map, List.map_map]
    exact List.map_congr_left fun x _ => hw.eq x.1
  · rw [hW' i hi, sliceAt_map]
    conv_lhs => rw [e2]
    rw [List.map_map]
    have := normW_Ws ht
    unfold Ws at this
    show normW (((fct.sliceAt k i).zip (W.sliceAt k i)).map fun p => fin p.2) = _
    rw [this]
    unfold Tv triples norml
    rw [List.map_map, List.map_map]; rfl

/-- C23 with ensemble weights: the members are weighted by `ens_w` times `w`. -/
theorem C23_ow_value_weighted {obs fct W : Arr ℝ} {m : ℤ} {k : ℕ} (h : Spec.AxisIs m fct.ndim k)
    (hs : obs.shape = fct.shape.eraseIdx k) (hW : W.shape = fct.shape) {wF : XF → XF} {w : ℝ → ℝ}
    (hw : WeightFn wF w) (hv : ∀ i, 0 ≤ W.get i)
    (hpos : ∀ i, Arr.Valid obs.shape i → 0 < (W.sliceAt k i).sum)
    (hpos' : ∀ i, Arr.Valid obs.shape i →
      0 < ((Spec.reweightW w ((fct.sliceAt k i).zip (W.sliceAt k i))).map Prod.snd).sum)
    (path : Path) :
    ∃ out, owcrpsEnsemble path (obs.map fin) (fct.map fin) wF m (some (W.map fin)) "propagate"
        = .ok out ∧
      out.shape = obs.shape ∧ ∀ i, Arr.Valid obs.shape i → out.get i = fin (w (obs.get i) *
        Spec.crps (Spec.wcdf (Spec.reweightW w ((fct.sliceAt k i).zip (W.sliceAt k i))))
          (obs.get i)) := by
  obtain ⟨f, fw, W', hp, hr⟩ := owPrep_triples h hs hW hw hv hpos
  have ho : ∀ i, ((obs.map fin).map wF).get i = fin (w (obs.get i)) := fun i => hw.eq _
  have hlen : ∀ i, (fct.sliceAt k i).length = (W.sliceAt k i).length := by
    intro i; simp [Arr.sliceAt, hW]
  have ht0 : ∀ i, Arr.Valid obs.shape i → wtot ((fct.sliceAt k i).zip (W.sliceAt k i)) ≠ 0 := by
    intro i hi
    unfold wtot
    rw [List.map_snd_zip (hlen i).ge]
    exact (hpos i hi).ne'
  have ht1 : ∀ i, Arr.Valid obs.shape i →
      wtot (Spec.reweightW w ((fct.sliceAt k i).zip (W.sliceAt k i))) ≠ 0 :=
    fun i hi => (hpos' i hi).ne'
  have ht : ∀ i, Arr.Valid obs.shape i →
      wtot (comb (triples w ((fct.sliceAt k i).zip (W.sliceAt k i)))) ≠ 0 := by
    intro i hi
    rw [comb_triples, wtot_scale]
    exact mul_ne_zero (inv_ne_zero (ht0 i hi)) (ht1 i hi)
  have key : ∀ i, Arr.Valid obs.shape i →
      energy (obs.get i) (norml (comb (triples w ((fct.sliceAt k i).zip (W.sliceAt k i)))))
        = Spec.crps (Spec.wcdf (Spec.reweightW w ((fct.sliceAt k i).zip (W.sliceAt k i))))
          (obs.get i) := by
    intro i hi
    rw [comb_triples, energy_norml_scale (inv_ne_zero (ht0 i hi)), crps_wcdf_norml _ (ht1 i hi)]
  unfold owcrpsEnsemble
  simp only [hp, bind, Except.bind]
  cases path with
  | numba =>
    refine ⟨_, rfl, rfl, fun i hi => ?_⟩
    show GufuncW.ow (fin (obs.get i)) _ _ _ _ = _
    rw [(hr i hi).1, (hr i hi).2.1, (hr i hi).2.2, ho, GufuncW.ow_fin _ _ _ (ht i hi), key i hi]
  | array =>
    refine ⟨_, rfl, rfl, fun i hi => ?_⟩
    show ApproxW.ow (fin (obs.get i)) _ _ _ _ = _
    rw [(hr i hi).1, (hr i hi).2.1, (hr i hi).2.2, ho, ApproxW.ow_fin _ _ _ (ht i hi), key i hi]

theorem vrVal_spec (w : ℝ → ℝ) {l : List (ℝ × ℝ)} (h : wtot l ≠ 0) (y : ℝ) :
    vrVal y (w y) ((Spec.reweightW w l).map fun p => (p.1, (wtot l)⁻¹ * p.2))
      = Spec.vrCrps w l y := by
  have hT : (l.map Prod.snd).sum = wtot l := rfl
  have e1 : wabs y (Spec.reweightW w l) * w y
      = (l.map fun p : ℝ × ℝ => p.2 * (|p.1 - y| * w p.1 * w y)).sum := by
    unfold wabs Spec.reweightW
    rw [List.map_map, mul_comm, ← sum_map_mul_left']
    apply sum_map_congr; intro p _
    show w y * (|p.1 - y| * (p.2 * w p.1)) = _
    ring
  have e2 : wpair (Spec.reweightW w l)
      = (l.map fun p : ℝ × ℝ => p.2 * (l.map fun q : ℝ × ℝ =>
          q.2 * (|p.1 - q.1| * w p.1 * w q.1)).sum).sum := by
    unfold wpair Spec.reweightW
    rw [pairsAll_map]
    unfold pairsAll
    apply sum_map_congr; intro p _
    rw [← sum_map_mul_left']
    apply sum_map_congr; intro q _
    ring
  have e3 : ((Spec.reweightW w l).map fun p => |p.1| * ((wtot l)⁻¹ * p.2)).sum
      = (l.map fun p : ℝ × ℝ => p.2 * (|p.1| * w p.1)).sum / wtot l := by
    unfold Spec.reweightW
    rw [List.map_map, div_eq_inv_mul, ← sum_map_mul_left']
    apply sum_map_congr; intro p _
    show |p.1| * ((wtot l)⁻¹ * (p.2 * w p.1)) = _
    ring
  have e4 : wtot (Spec.reweightW w l) = (l.map fun p : ℝ × ℝ => p.2 * w p.1).sum := by
    unfold wtot Spec.reweightW
    rw [List.map_map]; rfl
  have e5 : (l.map fun p : ℝ × ℝ => p.2 * ((l.map fun q : ℝ × ℝ =>
          q.2 * (|p.1 - q.1| * w p.1 * w q.1)).sum / wtot l)).sum
      = wpair (Spec.reweightW w l) / wtot l := by
    rw [e2, ← sum_map_div']
    apply sum_map_congr; intro p _
    ring
  unfold vrVal Spec.vrCrps
  simp only [hT]
  rw [wabs_scale, wpair_scale, wtot_scale, List.map_map, e5, ← e1, ← e4]
  have e3' : ((Spec.reweightW w l).map ((fun p : ℝ × ℝ => |p.1| * p.2) ∘
      fun p : ℝ × ℝ => (p.1, (wtot l)⁻¹ * p.2))).sum
      = (l.map fun p : ℝ × ℝ => p.2 * (|p.1| * w p.1)).sum / wtot l := e3
  rw [e3']
  field_simp

theorem reweightW_one (w : ℝ → ℝ) (xs : List ℝ) :
    Spec.reweightW w (xs.map fun x => (x, 1)) = Spec.reweight w xs := by
  unfold Spec.reweightW Spec.reweight
  rw [List.map_map]
  apply List.map_congr_left
  intro x _
  show (x, 1 * w x) = (x, w x)
  rw [one_mul]

theorem wtot_one_eq (xs : List ℝ) : wtot (xs.map fun x => (x, (1 : ℝ))) = xs.length := by
  unfold wtot
  rw [List.map_map]
  induction xs with
  | nil => simp
  | cons x xs ih =>
    rw [List.map_cons, List.sum_cons, ih, List.length_cons]
    push_cast
    show (1 : ℝ) + _ = _
    ring

theorem vrVal_unweighted (w : ℝ → ℝ) {xs : List ℝ} (h : xs ≠ []) (y : ℝ) :
    vrVal y (w y) ((Spec.reweight w xs).map fun p =>
        (p.1, ((Spec.reweight w xs).length : ℝ)⁻¹ * p.2))
      = Spec.vrCrps w (xs.map fun x => (x, 1)) y := by
  rw [← vrVal_spec w (wtot_one h), reweightW_one, wtot_one_eq]
  have : (Spec.reweight w xs).length = xs.length := by simp [Spec.reweight]
  rw [this]

/-- `B.mean(fw, axis=1)` on a two-dimensional array is the mean along the last axis. -/
theorem vrEnsembleArr_2d {obs fct obsW fctW : Arr XF} {n q : ℕ} (ho : obs.shape = [n])
    (how : obsW.shape = [n]) (hf : fctW.shape = [n, q]) :
    ∃ out, vrEnsembleArr obs fct obsW fctW = .ok out ∧ out.shape = [n] ∧
      ∀ i, Arr.Valid [n] i → out.get i
        = Approx.vr (obs.get i) (fct.row i) (obsW.get i) (fctW.row i) := by
  unfold vrEnsembleArr meanAxis1
  have : ¬ fctW.ndim < 2 := by simp [Arr.ndim, hf]
  rw [if_neg this]
  simp only [bind, Except.bind, hf, how, ho]
  have e : Arr.bshape ([n, q].eraseIdx 1) [n] = some [n] := Arr.bshape_self [n]
  rw [e]
  simp only [ne_eq, not_true_eq_false, if_false]
  refine ⟨_, rfl, rfl, fun i hi => ?_⟩
  cases hi with
  | cons h1 h2 =>
    cases h2
    rename_i j
    unfold Approx.vr
    dsimp only
    congr 1
    rw [Arr.bget_self]
    · dsimp only
      congr 1
      simp [Arr.row, hf]
    · exact List.Forall₂.cons h1 List.Forall₂.nil

/-- C23 / C24: every entry of `vrcrps_ensemble` is the documented vertically re-scaled CRPS, provided
the forecasts are two-dimensional when the numpy path is used.

Full claim (C24): the same without `hrank`; it is false, see `C24_false_scalar` and below. -/
theorem C24_vr_value_partial {obs fct : Arr ℝ} {m : ℤ} {k : ℕ} (h : Spec.AxisIs m fct.ndim k)
    (hs : obs.shape = fct.shape.eraseIdx k) (hk : fct.shape.getD k 0 ≠ 0) {wF : XF → XF}
    {w : ℝ → ℝ} (hw : WeightFn wF w) (path : Path) (hrank : path = .array → fct.ndim = 2) :
    ∃ out, vrcrpsEnsemble path (obs.map fin) (fct.map fin) wF m none "propagate" = .ok out ∧
      out.shape = obs.shape ∧ ∀ i, Arr.Valid obs.shape i → out.get i
        = fin (Spec.vrCrps w ((fct.sliceAt k i).map fun x => (x, 1)) (obs.get i)) := by
  have hp := owPrep_none (obs := obs.map fin) (fct := fct.map fin) (w := wF) h hs (hw.not_neg _)
    (by rw [moveLast_map]; exact hw.not_neg _)
  have hslice : ∀ i, ((fct.map fin).moveLast k).row i = Xs (Spec.reweight w (fct.sliceAt k i)) := by
    intro i
    rw [Arr.row_moveLast, sliceAt_map]
    unfold Xs Spec.reweight
    rw [List.map_map]; rfl
  have hwt : ∀ i, (((fct.map fin).moveLast k).map wF).row i
      = Ws (Spec.reweight w (fct.sliceAt k i)) := by
    intro i
    rw [Arr.row_map, Arr.row_moveLast, sliceAt_map]
    unfold Ws Spec.reweight
    rw [List.map_map, List.map_map]
    exact List.map_congr_left fun x _ => hw.eq x
  have ho : ∀ i, ((obs.map fin).map wF).get i = fin (w (obs.get i)) := fun i => hw.eq _
  have hl : ∀ i, fct.sliceAt k i ≠ [] := by
    intro i; unfold Arr.sliceAt; simpa using hk
  have hl' : ∀ i, Spec.reweight w (fct.sliceAt k i) ≠ [] := by
    intro i; unfold Spec.reweight; simpa using hl i
  unfold vrcrpsEnsemble
  simp only [hp, bind, Except.bind]
  cases path with
  | numba =>
    refine ⟨_, rfl, rfl, fun i hi => ?_⟩
    show Gufunc.vr (fin (obs.get i)) _ _ _ = _
    rw [hslice, hwt, ho, Gufunc.vr_fin _ _ _ (hl' i), vrVal_unweighted w (hl i)]
  | array =>
    have h2 : fct.shape.length = 2 := hrank rfl
    have hk2 : k < 2 := by have := h.1; unfold Arr.ndim at this; omega
    obtain ⟨n, hn⟩ : ∃ n, fct.shape.eraseIdx k = [n] := by
      have : (fct.shape.eraseIdx k).length = 1 := by
        rw [List.length_eraseIdx_of_lt (by omega)]; omega
      exact List.length_eq_one_iff.1 this
    have hon : obs.shape = [n] := hs.trans hn
    obtain ⟨out, h1, h2, h3⟩ := vrEnsembleArr_2d (obs := obs.map fin)
      (fct := (fct.map fin).moveLast k)
      (obsW := (obs.map fin).map wF) (fctW := ((fct.map fin).moveLast k).map wF) (n := n)
      (q := fct.shape.getD k 0) hon hon
      (by show fct.shape.eraseIdx k ++ [_] = _; rw [hn]; rfl)
    refine ⟨out, h1, by rw [h2, hon], fun i hi => ?_⟩
    rw [hon] at hi
    rw [h3 i hi]
    show Approx.vr (fin (obs.get i)) _ _ _ = _
    rw [hslice, hwt, ho, Approx.vr_fin _ _ _ (hl' i), vrVal_unweighted w (hl i)]

/-- C23: `vrcrps_ensemble` with ensemble weights is the documented score, for every rank, ensemble
axis and path. -/
theorem C23_vr_value_weighted {obs fct W : Arr ℝ} {m : ℤ} {k : ℕ} (h : Spec.AxisIs m fct.ndim k)
    (hs : obs.shape = fct.shape.eraseIdx k) (hW : W.shape = fct.shape) {wF : XF → XF} {w : ℝ → ℝ}
    (hw : WeightFn wF w) (hv : ∀ i, 0 ≤ W.get i)
    (hpos : ∀ i, Arr.Valid obs.shape i → 0 < (W.sliceAt k i).sum) (path : Path) :
    ∃ out, vrcrpsEnsemble path (obs.map fin) (fct.map fin) wF m (some (W.map fin)) "propagate"
        = .ok out ∧
      out.shape = obs.shape ∧ ∀ i, Arr.Valid obs.shape i → out.get i
        = fin (Spec.vrCrps w ((fct.sliceAt k i).zip (W.sliceAt k i)) (obs.get i)) := by
  obtain ⟨f, fw, W', hp, hr⟩ := owPrep_triples h hs hW hw hv hpos
  have ho : ∀ i, ((obs.map fin).map wF).get i = fin (w (obs.get i)) := fun i => hw.eq _
  have hlen : ∀ i, (fct.sliceAt k i).length = (W.sliceAt k i).length := by
    intro i; simp [Arr.sliceAt, hW]
  have ht0 : ∀ i, Arr.Valid obs.shape i → wtot ((fct.sliceAt k i).zip (W.sliceAt k i)) ≠ 0 := by
    intro i hi
    unfold wtot
    rw [List.map_snd_zip (hlen i).ge]
    exact (hpos i hi).ne'
  unfold vrcrpsEnsemble
  simp only [hp, bind, Except.bind]
  cases path with
  | numba =>
    refine ⟨_, rfl, rfl, fun i hi => ?_⟩
    show GufuncW.vr (fin (obs.get i)) _ _ _ _ = _
    rw [(hr i hi).1, (hr i hi).2.1, (hr i hi).2.2, ho, GufuncW.vr_fin, comb_triples,
      vrVal_spec w (ht0 i hi)]
  | array =>
    refine ⟨_, rfl, rfl, fun i hi => ?_⟩
    show ApproxW.vr (fin (obs.get i)) _ _ _ _ = _
    rw [(hr i hi).1, (hr i hi).2.1, (hr i hi).2.2, ho, ApproxW.vr_fin, comb_triples,
      vrVal_spec w (ht0 i hi)]

theorem crps_nonneg' (F : ℝ → ℝ) (y : ℝ) : 0 ≤ Spec.crps F y :=
  integral_nonneg fun _ => sq_nonneg _

/-- C23: `owcrps_ensemble` is never negative, and zero where the observation has weight zero. -/
theorem C23_ow_nonneg {obs fct : Arr ℝ} {m : ℤ} {k : ℕ} (h : Spec.AxisIs m fct.ndim k)
    (hs : obs.shape = fct.shape.eraseIdx k) {wF : XF → XF} {w : ℝ → ℝ} (hw : WeightFn wF w)
    (hpos : ∀ i, Arr.Valid obs.shape i → 0 < ((fct.sliceAt k i).map w).sum) (path : Path) :
    ∃ out, owcrpsEnsemble path (obs.map fin) (fct.map fin) wF m none "propagate" = .ok out ∧
      ∀ i, Arr.Valid obs.shape i → ∃ r : ℝ, out.get i = fin r ∧ 0 ≤ r ∧
        (w (obs.get i) = 0 → r = 0) := by
  obtain ⟨out, h1, -, h3⟩ := C23_ow_value h hs hw hpos path
  refine ⟨out, h1, fun i hi => ⟨_, h3 i hi, ?_, ?_⟩⟩
  · exact mul_nonneg (hw.nonneg _) (crps_nonneg' _ _)
  · intro h0; rw [h0, zero_mul]

theorem wcdf_scale {c : ℝ} (hc : c ≠ 0) (w : ℝ → ℝ) (xs : List ℝ) :
    Spec.wcdf (Spec.reweight (fun x => c * w x) xs) = Spec.wcdf (Spec.reweight w xs) := by
  funext z
  unfold Spec.wcdf Spec.reweight
  rw [List.filter_map, List.filter_map, List.map_map, List.map_map, List.map_map, List.map_map]
  have e : ∀ ys : List ℝ, (ys.map (Prod.snd ∘ fun x => (x, c * w x))).sum
      = c * (ys.map (Prod.snd ∘ fun x => (x, w x))).sum := by
    intro ys
    rw [← sum_map_mul_left']
    rfl
  rw [e, e]
  exact mul_div_mul_left _ _ hc

/-- C23: `owcrps_ensemble` is homogeneous of degree one in the weight function. -/
theorem C23_ow_homogeneous {obs fct : Arr ℝ} {m : ℤ} {k : ℕ} (h : Spec.AxisIs m fct.ndim k)
    (hs : obs.shape = fct.shape.eraseIdx k) {wF wF' : XF → XF} {w : ℝ → ℝ} {c : ℝ} (hc : 0 < c)
    (hw : WeightFn wF w) (hw' : WeightFn wF' fun x => c * w x)
    (hpos : ∀ i, Arr.Valid obs.shape i → 0 < ((fct.sliceAt k i).map w).sum) (path : Path) :
    ∃ out out', owcrpsEnsemble path (obs.map fin) (fct.map fin) wF m none "propagate" = .ok out ∧
      owcrpsEnsemble path (obs.map fin) (fct.map fin) wF' m none "propagate" = .ok out' ∧
      ∀ i, Arr.Valid obs.shape i → out'.get i = fin c * out.get i := by
  have hpos' : ∀ i, Arr.Valid obs.shape i → 0 < ((fct.sliceAt k i).map fun x => c * w x).sum := by
    intro i hi
    rw [sum_map_mul_left']
    exact mul_pos hc (hpos i hi)
  obtain ⟨out, h1, -, h3⟩ := C23_ow_value h hs hw hpos path
  obtain ⟨out', h1', -, h3'⟩ := C23_ow_value h hs hw' hpos' path
  refine ⟨out, out', h1, h1', fun i hi => ?_⟩
  rw [h3 i hi, h3' i hi, fin_mul, wcdf_scale hc.ne', mul_assoc]

theorem vrCrps_scale (c : ℝ) (w : ℝ → ℝ) (l : List (ℝ × ℝ)) (h : wtot l ≠ 0) (y : ℝ) :
    Spec.vrCrps (fun x => c * w x) l y = c ^ 2 * Spec.vrCrps w l y := by
  rw [← vrVal_spec _ h, ← vrVal_spec _ h, ← vrVal_scale]
  congr 1
  unfold Spec.reweightW
  rw [List.map_map, List.map_map, List.map_map]
  apply List.map_congr_left
  intro p _
  show (p.1, (wtot l)⁻¹ * (p.2 * (c * w p.1))) = (p.1, c * ((wtot l)⁻¹ * (p.2 * w p.1)))
  rw [Prod.mk.injEq]
  exact ⟨rfl, by ring⟩

/-- C23: `vrcrps_ensemble` is homogeneous of degree two in the weight function (with ensemble
weights: all ranks; without: the cases in which the score is computed at all, see C24). -/
theorem C23_vr_homogeneous {obs fct : Arr ℝ} {m : ℤ} {k : ℕ} (h : Spec.AxisIs m fct.ndim k)
    (hs : obs.shape = fct.shape.eraseIdx k) (hk : fct.shape.getD k 0 ≠ 0) {wF wF' : XF → XF}
    {w : ℝ → ℝ} {c : ℝ} (hw : WeightFn wF w) (hw' : WeightFn wF' fun x => c * w x) (path : Path)
    (hrank : path = .array → fct.ndim = 2) :
    ∃ out out', vrcrpsEnsemble path (obs.map fin) (fct.map fin) wF m none "propagate" = .ok out ∧
      vrcrpsEnsemble path (obs.map fin) (fct.map fin) wF' m none "propagate" = .ok out' ∧
      ∀ i, Arr.Valid obs.shape i → out'.get i = fin (c ^ 2) * out.get i := by
  obtain ⟨out, h1, -, h3⟩ := C24_vr_value_partial h hs hk hw path hrank
  obtain ⟨out', h1', -, h3'⟩ := C24_vr_value_partial h hs hk hw' path hrank
  refine ⟨out, out', h1, h1', fun i hi => ?_⟩
  have hl : fct.sliceAt k i ≠ [] := by unfold Arr.sliceAt; simpa using hk
  rw [h3 i hi, h3' i hi, fin_mul, vrCrps_scale c w _ (wtot_one hl)]

theorem C23_vr_homogeneous_weighted {obs fct W : Arr ℝ} {m : ℤ} {k : ℕ}
    (h : Spec.AxisIs m fct.ndim k) (hs : obs.shape = fct.shape.eraseIdx k)
    (hW : W.shape = fct.shape) {wF wF' : XF → XF} {w : ℝ → ℝ} {c : ℝ}
    (hw : WeightFn wF w) (hw' : WeightFn wF' fun x => c * w x) (hv : ∀ i, 0 ≤ W.get i)
    (hpos : ∀ i, Arr.Valid obs.shape i → 0 < (W.sliceAt k i).sum) (path : Path) :
    ∃ out out',
      vrcrpsEnsemble path (obs.map fin) (fct.map fin) wF m (some (W.map fin)) "propagate" = .ok out ∧
      vrcrpsEnsemble path (obs.map fin) (fct.map fin) wF' m (some (W.map fin)) "propagate"
        = .ok out' ∧
      ∀ i, Arr.Valid obs.shape i → out'.get i = fin (c ^ 2) * out.get i := by
  obtain ⟨out, h1, -, h3⟩ := C23_vr_value_weighted h hs hW hw hv hpos path
  obtain ⟨out', h1', -, h3'⟩ := C23_vr_value_weighted h hs hW hw' hv hpos path
  refine ⟨out, out', h1, h1', fun i hi => ?_⟩
  have hlen : (fct.sliceAt k i).length = (W.sliceAt k i).length := by simp [Arr.sliceAt, hW]
  have ht : wtot ((fct.sliceAt k i).zip (W.sliceAt k i)) ≠ 0 := by
    unfold wtot
    rw [List.map_snd_zip hlen.ge]
    exact (hpos i hi).ne'
  rw [h3 i hi, h3' i hi, fin_mul, vrCrps_scale c w _ ht]

/-- `C23_ow_value`, `C23_ow_value_weighted`, `C24_vr_value_partial`, `C23_vr_value_weighted`,
`C23_ow_nonneg`, `C23_ow_homogeneous`, `C23_vr_homogeneous`, `C23_vr_homogeneous_weighted`: the
weight function `w(x) = x²` (times 4), two cases with three members and ensemble weights 1, 2, 3. -/
example : let fct : Arr ℝ := ⟨[2, 3], fun i => i.sum⟩
    let obs : Arr ℝ := ⟨[2], fun i => i.sum⟩
    let W : Arr ℝ := ⟨[2, 3], fun i => 1 + i.getD 1 0⟩
    Spec.AxisIs (-1) fct.ndim 1 ∧ obs.shape = fct.shape.eraseIdx 1 ∧ W.shape = fct.shape ∧
      fct.shape.getD 1 0 ≠ 0 ∧ fct.ndim = 2 ∧
      WeightFn (fun x => x * x) (fun x => x * x) ∧
      WeightFn (fun x => fin 4 * (x * x)) (fun x => 4 * (x * x)) ∧ (0 : ℝ) < 4 ∧
      (∀ i, 0 ≤ W.get i) ∧
      (∀ i, Arr.Valid obs.shape i → 0 < ((fct.sliceAt 1 i).map fun x => x * x).sum) ∧
      (∀ i, Arr.Valid obs.shape i → 0 < (W.sliceAt 1 i).sum) ∧
      ∀ i, Arr.Valid obs.shape i → 0 < ((Spec.reweightW (fun x => x * x)
        ((fct.sliceAt 1 i).zip (W.sliceAt 1 i))).map Prod.snd).sum := by
  refine ⟨⟨by simp [Arr.ndim], Or.inr (by simp [Arr.ndim])⟩, rfl, rfl, by simp, rfl,
    ⟨fun _ => rfl, fun x => mul_self_nonneg x⟩,
    ⟨fun _ => rfl, fun x => mul_nonneg (by norm_num) (mul_self_nonneg x)⟩, by norm_num,
    fun i => by positivity, ?_, ?_, ?_⟩ <;>
  · intro i hi
    simp only [Arr.Valid, List.forall₂_cons_right_iff, List.forall₂_nil_right_iff] at hi
    obtain ⟨a, _, ha, rfl, rfl⟩ := hi
    simp [Arr.sliceAt, List.range_succ, Spec.reweightW]
    positivity

/-- C23: a weight function that is negative on some observation or some member makes both functions
raise `ValueError`, whatever the other arguments are. -/
theorem C23_negative_weight {obs fct : Arr XF} {m : ℤ} {k : ℕ} (h : Spec.AxisIs m fct.ndim k)
    (hs : obs.shape = fct.shape.eraseIdx k) {wF : XF → XF}
    (hneg : (∃ i, Arr.Valid obs.shape i ∧ wF (obs.get i) < 0) ∨
      ∃ i j, Arr.Valid obs.shape i ∧ j < fct.shape.getD k 0 ∧ wF (fct.get (i.insertIdx k j)) < 0)
    (path : Path) (W : Option (Arr XF)) (np : String) :
    owcrpsEnsemble path obs fct wF m W np = .error .valueError ∧
      vrcrpsEnsemble path obs fct wF m W np = .error .valueError := by
  have hp : owPrep obs fct wF m W np = .error .valueError := by
    unfold owPrep
    rw [arrayCheck_axis h hs]
    simp only [bind, Except.bind]
    have : uvWeights obs (fct.moveLast k) wF = .error .valueError := by
      unfold uvWeights
      dsimp only
      rw [if_pos]
      rcases hneg with ⟨i, h1, h2⟩ | ⟨i, j, h1, h2, h3⟩
      · exact Or.inl ⟨i, h1, h2⟩
      · refine Or.inr ⟨i ++ [j], ?_, ?_⟩
        · show Arr.Valid (fct.shape.eraseIdx k ++ [_]) _
          exact Arr.valid_append_iff.2 ⟨i, j, rfl, by rwa [← hs], h2⟩
        · have : ((fct.moveLast k).map wF).get (i ++ [j]) = wF (fct.get (i.insertIdx k j)) := by
            show wF (fct.get _) = _
            rw [List.dropLast_concat, List.getLastD_concat]
          rw [this]; exact h3
    simp only [this]
  unfold owcrpsEnsemble vrcrpsEnsemble
  simp only [hp, bind, Except.bind]
  exact ⟨trivial, trivial⟩

/-! non-vacuity: `w(x) = x²` is a weight function; a 2×3 forecast with members 1 -/
example : WeightFn (fun x => x * x) (fun x => x * x) := ⟨fun _ => rfl, fun x => mul_self_nonneg x⟩
example : Spec.AxisIs (-1) 2 1 ∧ ([2] : List ℕ) = [2, 3].eraseIdx 1 ∧
    ([2, 3] : List ℕ).getD 1 0 ≠ 0 := by
  refine ⟨⟨by norm_num, Or.inr (by norm_num)⟩, rfl, by simp⟩
example : 0 < (((⟨[2, 3], fun _ => 1⟩ : Arr ℝ).sliceAt 1 [0]).map fun x => x * x).sum := by
  simp [Arr.sliceAt]; norm_num

/-- C22: with a weight function equal to one on finite numbers (a constant, or the default one with
infinite thresholds), `owcrps_ensemble` equals `crps_ensemble` with estimator `nrg`. -/
theorem C22_ow_trivial {obs fct : Arr ℝ} {m : ℤ} {k : ℕ} (h : Spec.AxisIs m fct.ndim k)
    (hs : obs.shape = fct.shape.eraseIdx k) (hk : fct.shape.getD k 0 ≠ 0)
    (hne : ∃ i, Arr.Valid obs.shape i) {wF : XF → XF} (hw : ∀ x, wF (fin x) = 1) (path : Path)
    (sorted : Bool) :
    ∃ out out', owcrpsEnsemble path (obs.map fin) (fct.map fin) wF m none "propagate" = .ok out ∧
      crpsEnsemble path (obs.map fin) (fct.map fin) m none "nrg" sorted "propagate" = .ok out' ∧
      out.Same out' := by
  have hw' : WeightFn wF fun _ => 1 := ⟨hw, fun _ => zero_le_one⟩
  have hl : ∀ i, fct.sliceAt k i ≠ [] := by
    intro i; unfold Arr.sliceAt; simpa using hk
  obtain ⟨out, h1, h2, h3⟩ := C23_ow_value h hs hw' (fun i hi => by
    have := wtot_one_eq (fct.sliceAt k i)
    unfold wtot at this
    rw [List.map_map] at this
    have h' : ((fct.sliceAt k i).map fun _ => (1 : ℝ)).sum = (fct.sliceAt k i).length := this
    rw [h']
    exact_mod_cast List.length_pos_of_ne_nil (hl i)) path
  obtain ⟨out', h1', h2', h3'⟩ := C14_total (obs := obs.map fin) (fct := fct.map fin)
    (W := none) h hs (by simp [Spec.WShape]) path "nrg" sorted "propagate" hne
    (fun i => fin (Spec.crps (Spec.ecdf (fct.sliceAt k i)) (obs.get i)))
    (fun i hi => by
      rw [sliceAt_map, Option.map_none]
      exact C01_nrg_is_integral path sorted _ _ (hl i))
  refine ⟨out, out', h1, h1', ?_, fun i hi => ?_⟩
  · rw [h2, h2']; rfl
  · rw [h2] at hi
    rw [h3 i hi, h3' i hi, one_mul, ← wcdf_one]
    rfl

/-- C22 with ensemble weights. -/
theorem C22_ow_trivial_weighted {obs fct W : Arr ℝ} {m : ℤ} {k : ℕ}
    (h : Spec.AxisIs m fct.ndim k) (hs : obs.shape = fct.shape.eraseIdx k)
    (hW : W.shape = fct.shape) (hne : ∃ i, Arr.Valid obs.shape i) {wF : XF → XF}
    (hw : ∀ x, wF (fin x) = 1) (hv : ∀ i, 0 ≤ W.get i)
    (hpos : ∀ i, Arr.Valid obs.shape i → 0 < (W.sliceAt k i).sum) (path : Path) (sorted : Bool) :
    ∃ out out', owcrpsEnsemble path (obs.map fin) (fct.map fin) wF m (some (W.map fin)) "propagate"
        = .ok out ∧
      crpsEnsemble path (obs.map fin) (fct.map fin) m (some (W.map fin)) "nrg" sorted "propagate"
        = .ok out' ∧ out.Same out' := by
  have hw' : WeightFn wF fun _ => 1 := ⟨hw, fun _ => zero_le_one⟩
  have hlen : ∀ i, (fct.sliceAt k i).length = (W.sliceAt k i).length := by
    intro i; simp [Arr.sliceAt, hW]
  have hre : ∀ l : List (ℝ × ℝ), Spec.reweightW (fun _ => 1) l = l := by
    intro l
    unfold Spec.reweightW
    conv_rhs => rw [← List.map_id l]
    apply List.map_congr_left
    intro p _
    simp
  have hsum : ∀ i, Arr.Valid obs.shape i →
      0 < (((fct.sliceAt k i).zip (W.sliceAt k i)).map Prod.snd).sum := by
    intro i hi
    rw [List.map_snd_zip (hlen i).ge]
    exact hpos i hi
  obtain ⟨out, h1, h2, h3⟩ := C23_ow_value_weighted h hs hW hw' hv hpos
    (fun i hi => by rw [hre]; exact hsum i hi) path
  obtain ⟨out', h1', h2', h3'⟩ := C14_total (obs := obs.map fin) (fct := fct.map fin)
    (W := some (W.map fin)) h hs (by intro w hw; cases hw; exact hW) path "nrg" sorted "propagate" hne
    (fun i => fin (Spec.crps (Spec.wcdf ((fct.sliceAt k i).zip (W.sliceAt k i))) (obs.get i)))
    (fun i hi => by
      rw [sliceAt_map, Option.map_some, sliceAt_map]
      have e1 : (fct.sliceAt k i).map fin
          = ((fct.sliceAt k i).zip (W.sliceAt k i)).map fun p => fin p.1 := by
        conv_lhs => rw [← List.map_fst_zip (hlen i).le]
        rw [List.map_map]; rfl
      have e2 : (W.sliceAt k i).map fin
          = ((fct.sliceAt k i).zip (W.sliceAt k i)).map fun p => fin p.2 := by
        conv_lhs => rw [← List.map_snd_zip (hlen i).ge]
        rw [List.map_map]; rfl
      rw [e1, e2]
      refine C01_nrg_weighted_is_integral path sorted _ _ ?_ (hsum i hi)
      intro p hp
      have h2 := (List.of_mem_zip hp).2
      simp only [Arr.sliceAt, List.mem_map] at h2
      obtain ⟨j, _, hj⟩ := h2
      rw [← hj]; exact hv _)
  refine ⟨out, out', h1, h1', ?_, fun i hi => ?_⟩
  · rw [h2, h2']; rfl
  · rw [h2] at hi
    rw [h3 i hi, h3' i hi, one_mul, hre]

/-- `C22_ow_trivial`, `C22_ow_trivial_weighted` -/
example : let fct : Arr ℝ := ⟨[2, 3], fun i => i.sum⟩
    let obs : Arr ℝ := ⟨[2], fun i => i.sum⟩
    let W : Arr ℝ := ⟨[2, 3], fun i => 1 + i.sum⟩
    Spec.AxisIs (-1) fct.ndim 1 ∧ obs.shape = fct.shape.eraseIdx 1 ∧ W.shape = fct.shape ∧
      fct.shape.getD 1 0 ≠ 0 ∧ Arr.Valid obs.shape [1] ∧ (∀ i, 0 ≤ W.get i) ∧
      (∀ i, 0 < (W.sliceAt 1 i).sum) ∧ ∀ x : ℝ, defaultW ninf pinf (fin x) = 1 := by
  refine ⟨⟨by simp [Arr.ndim], Or.inr (by simp [Arr.ndim])⟩, rfl, rfl, by simp, by simp [Arr.Valid],
    fun i => by positivity, fun i => ?_, fun x => by simp [defaultW, ind, one_def]⟩
  refine List.sum_pos _ (fun x hx => ?_) (by simp [Arr.sliceAt])
  simp only [Arr.sliceAt, List.mem_map] at hx
  obtain ⟨j, _, rfl⟩ := hx
  positivity

theorem vrCrps_one {l : List (ℝ × ℝ)} (h : wtot l ≠ 0) (y : ℝ) :
    Spec.vrCrps (fun _ => 1) l y = Spec.crps (Spec.wcdf l) y := by
  rw [← vrVal_spec _ h]
  have hre : Spec.reweightW (fun _ => 1) l = l := by
    unfold Spec.reweightW
    conv_rhs => rw [← List.map_id l]
    apply List.map_congr_left
    intro p _
    simp
  rw [hre, ← norml_eq_scale, vrVal_one y (wtot_norml h), crps_wcdf_norml y h]

/-- C22 for `vrcrps_ensemble`, in the cases in which the unweighted score is computed (C24).

Full claim: the same without `hrank`; false because C24 is. -/
theorem C22_vr_trivial_partial {obs fct : Arr ℝ} {m : ℤ} {k : ℕ} (h : Spec.AxisIs m fct.ndim k)
    (hs : obs.shape = fct.shape.eraseIdx k) (hk : fct.shape.getD k 0 ≠ 0)
    (hne : ∃ i, Arr.Valid obs.shape i) {wF : XF → XF} (hw : ∀ x, wF (fin x) = 1) (path : Path)
    (hrank : path = .array → fct.ndim = 2) (sorted : Bool) :
    ∃ out out', vrcrpsEnsemble path (obs.map fin) (fct.map fin) wF m none "propagate" = .ok out ∧
      crpsEnsemble path (obs.map fin) (fct.map fin) m none "nrg" sorted "propagate" = .ok out' ∧
      out.Same out' := by
  have hw' : WeightFn wF fun _ => 1 := ⟨hw, fun _ => zero_le_one⟩
  have hl : ∀ i, fct.sliceAt k i ≠ [] := by
    intro i; unfold Arr.sliceAt; simpa using hk
  obtain ⟨out, h1, h2, h3⟩ := C24_vr_value_partial h hs hk hw' path hrank
  obtain ⟨out', h1', h2', h3'⟩ := C14_total (obs := obs.map fin) (fct := fct.map fin)
    (W := none) h hs (by simp [Spec.WShape]) path "nrg" sorted "propagate" hne
    (fun i => fin (Spec.crps (Spec.ecdf (fct.sliceAt k i)) (obs.get i)))
    (fun i hi => by
      rw [sliceAt_map, Option.map_none]
      exact C01_nrg_is_integral path sorted _ _ (hl i))
  refine ⟨out, out', h1, h1', ?_, fun i hi => ?_⟩
  · rw [h2, h2']; rfl
  · rw [h2] at hi
    rw [h3 i hi, h3' i hi, vrCrps_one (wtot_one (hl i)), wcdf_one]

/-- the constant and the default weight functions satisfy the hypothesis of C22 -/
example : (∀ x, (fun _ => (1 : XF)) (fin x) = 1) ∧ ∀ x, defaultW ninf pinf (fin x) = 1 := by
  refine ⟨fun _ => rfl, fun x => ?_⟩
  simp [defaultW, ind, one_def]

end Verif
