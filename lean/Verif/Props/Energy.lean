import Verif.Lemmas.EnergyApi
import Verif.Lemmas.PosDef
import Verif.Lemmas.CrpsApi

/-!
# Properties C33, C34 and C35: energy score

`vec v` is the array holding the coordinates of the point `v` of Euclidean space.
-/

noncomputable section

open scoped Classical

namespace Verif

open XF Py Api Spec

variable {D : ℕ}

/-! ### C33 -/

theorem gtot_equalW {xs : List (Eu D)} (h : xs ≠ []) : gtot (equalW xs) = 1 := by
  have : (xs.length : ℝ) ≠ 0 := by simpa using h
  unfold gtot equalW
  rw [List.map_map]
  have := sum_map_const' xs (1 / (xs.length : ℝ))
  simp only [Function.comp_def]
  rw [this]
  field_simp

/-- The energy score as a double sum of triangle-inequality defects. -/
theorem es_defect (y : Eu D) (l : List (Eu D × ℝ)) (h : gtot l = 1) :
    es y l = pairsAll (fun p q : Eu D × ℝ =>
      1 / 2 * (p.2 * q.2 * (dist p.1 y + dist q.1 y - dist p.1 q.1))) l := by
  rw [es_eq, pairsAll_mul_left]
  have e : (fun p q : Eu D × ℝ => p.2 * q.2 * (dist p.1 y + dist q.1 y - dist p.1 q.1))
      = fun p q => (p.2 * dist p.1 y * q.2 + p.2 * (q.2 * dist q.1 y))
        + (-1) * (p.2 * q.2 * dist p.1 q.1) := by
    funext p q; ring
  rw [e, pairsAll_add, pairsAll_add, pairsAll_mul_left, pairsAll_prod, pairsAll_prod]
  have h1 : (l.map fun p : Eu D × ℝ => p.2).sum = 1 := h
  rw [h1]
  unfold gabs gpair
  ring

theorem es_nonneg (y : Eu D) {l : List (Eu D × ℝ)} (h : gtot l = 1) (hw : ∀ p ∈ l, 0 ≤ p.2) :
    0 ≤ es y l := by
  rw [es_defect y l h]
  refine pairsAll_nonneg fun p hp q hq => ?_
  have h1 := dist_triangle_right p.1 q.1 y
  have := mul_nonneg (hw p hp) (hw q hq)
  have : 0 ≤ p.2 * q.2 * (dist p.1 y + dist q.1 y - dist p.1 q.1) :=
    mul_nonneg this (by linarith)
  linarith

theorem es_zero_iff (y : Eu D) {l : List (Eu D × ℝ)} (h : gtot l = 1) (hw : ∀ p ∈ l, 0 < p.2) :
    es y l = 0 ↔ ∀ p ∈ l, p.1 = y := by
  constructor
  · intro h0 p hp
    rw [es_defect y l h] at h0
    have hn : ∀ a ∈ l, ∀ b ∈ l,
        0 ≤ 1 / 2 * (a.2 * b.2 * (dist a.1 y + dist b.1 y - dist a.1 b.1)) := by
      intro a ha b hb
      have h1 := dist_triangle_right a.1 b.1 y
      have := mul_pos (hw a ha) (hw b hb)
      have : 0 ≤ a.2 * b.2 * (dist a.1 y + dist b.1 y - dist a.1 b.1) :=
        mul_nonneg this.le (by linarith)
      linarith
    have key : ∀ (L : List (Eu D × ℝ)) (f : Eu D × ℝ → ℝ), (∀ a ∈ L, 0 ≤ f a) →
        (L.map f).sum = 0 → ∀ a ∈ L, f a = 0 := by
      intro L f hf hs a ha
      have hle : f a ≤ (L.map f).sum := List.single_le_sum (by
        intro x hx
        obtain ⟨b, hb, rfl⟩ := List.mem_map.1 hx
        exact hf b hb) _ (List.mem_map_of_mem ha)
      have := hf a ha
      linarith
    have r1 := key l _ (fun a ha => List.sum_nonneg (by
      intro x hx
      obtain ⟨b, hb, rfl⟩ := List.mem_map.1 hx
      exact hn a ha b hb)) h0 p hp
    have r2 := key l _ (fun b hb => hn p hp b hb) r1 p hp
    have hp2 := hw p hp
    rw [dist_self] at r2
    have : dist p.1 y = 0 := by
      have h3 : p.2 * p.2 * dist p.1 y = 0 := by linarith
      have h4 : p.2 * p.2 ≠ 0 := by positivity
      exact (mul_eq_zero.1 h3).resolve_left h4
    exact dist_eq_zero.1 this
  · intro hall
    rw [es_defect y l h]
    have : pairsAll (fun p q : Eu D × ℝ =>
        1 / 2 * (p.2 * q.2 * (dist p.1 y + dist q.1 y - dist p.1 q.1))) l
        = pairsAll (fun _ _ => (0 : ℝ)) l := by
      refine pairsAll_congr fun p hp q hq => ?_
      rw [hall p hp, hall q hq]
      simp
    rw [this]
    simp [pairsAll]

/-- C33: both paths return the mean distance to the observation minus half the mean distance between
members. -/
theorem C33_value (path : Path) (y : Eu D) {xs : List (Eu D)} (h : xs ≠ []) :
    es1 path "nrg" D (vec y) (xs.map vec) none
      = .ok (fin ((xs.map fun x => dist x y).sum / xs.length
          - (xs.map fun a => (xs.map fun b => dist a b).sum).sum / (2 * (xs.length : ℝ) ^ 2))) := by
  rw [es1_nrg path y h, es_eq, gabs_equal, gpair_equal]
  congr 2
  unfold pairsAll
  ring

example : ([!₂[1, 2], !₂[0, 3]] : List (Eu 2)) ≠ [] := by simp

/-- C33 with weights: both paths return the energy score of the ensemble with normalised weights. -/
theorem C33_value_weighted (path : Path) (y : Eu D) (l : List (Eu D × ℝ))
    (hw : ∀ p ∈ l, 0 ≤ p.2) (h : (l.map Prod.snd).sum ≠ 0) :
    es1 path "nrg" D (vec y) (l.map fun p => vec p.1) (some (l.map fun p => fin p.2))
      = .ok (fin (es y (Spec.normW l))) := es1_nrg_weighted path y l hw h

example : ∀ p ∈ ([(0, 1), (!₂[1, 2], 3)] : List (Eu 2 × ℝ)), 0 ≤ p.2 := by simp

/-- C33: the two paths agree. -/
theorem C33_paths (y : Eu D) {xs : List (Eu D)} (h : xs ≠ []) :
    es1 .numba "nrg" D (vec y) (xs.map vec) none = es1 .array "nrg" D (vec y) (xs.map vec) none := by
  rw [es1_nrg _ y h, es1_nrg _ y h]

example : ([!₂[1, 2], !₂[0, 3]] : List (Eu 2)) ≠ [] := by simp

/-- C33: with one variable the score equals the CRPS of estimator `nrg`. -/
theorem C33_univariate (path path' : Path) (sorted : Bool) (y : ℝ) {xs : List ℝ} (h : xs ≠ []) :
    es1 path "nrg" 1 [fin y] (xs.map fun x => [fin x]) none
      = crps1 path' "nrg" sorted "propagate" (fin y) (xs.map fin) none := by
  let e : ℝ → Eu 1 := fun x => WithLp.toLp 2 fun _ => x
  have he : ∀ x, vec (e x) = [fin x] := by intro x; simp [vec, e]
  have hd : ∀ a b, dist (e a) (e b) = |a - b| := by
    intro a b
    rw [EuclideanSpace.dist_eq]
    simp [e, Real.dist_eq, Real.sqrt_sq_eq_abs]
  have h1 := C33_value path (e y) (xs := xs.map e) (by simpa using h)
  rw [he, List.map_map] at h1
  have h2 : (vec ∘ e) = fun x => [fin x] := by funext x; exact he x
  rw [h2] at h1
  rw [h1, crps1_nrg path' sorted y h]
  congr 2
  unfold energy wabs wpair uw
  simp only [List.map_map, Function.comp_def, List.length_map, hd, pairsAll_map]
  rw [sum_map_mul_right']
  have : (fun p q : ℝ => |p - q| * (1 / (xs.length : ℝ)) * (1 / (xs.length : ℝ)))
      = fun p q => (1 / (xs.length : ℝ)) * (1 / (xs.length : ℝ)) * |p - q| := by
    funext p q; ring
  rw [this, pairsAll_mul_left]
  unfold pairsAll
  by_cases h0 : (xs.length : ℝ) = 0
  · simp [h0]
  · field_simp

example : ([1, 3, 3] : List ℝ) ≠ [] := by simp

/-- C33: the score is non-negative. -/
theorem C33_nonneg (path : Path) (y : Eu D) {xs : List (Eu D)} (h : xs ≠ []) :
    ∃ s : ℝ, es1 path "nrg" D (vec y) (xs.map vec) none = .ok (fin s) ∧ 0 ≤ s := by
  refine ⟨_, es1_nrg path y h, es_nonneg y (gtot_equalW h) ?_⟩
  intro p hp
  obtain ⟨x, _, rfl⟩ := List.mem_map.1 hp
  dsimp only
  positivity

example : ([!₂[1, 2], !₂[0, 3]] : List (Eu 2)) ≠ [] := by simp

/-- C33: the score is zero exactly if every member equals the observation. -/
theorem C33_zero_iff (path : Path) (y : Eu D) {xs : List (Eu D)} (h : xs ≠ []) :
    es1 path "nrg" D (vec y) (xs.map vec) none = .ok (fin 0) ↔ ∀ x ∈ xs, x = y := by
  rw [es1_nrg path y h, Except.ok.injEq, fin_inj]
  have hl : 0 < (xs.length : ℝ) := by exact_mod_cast List.length_pos_iff.2 h
  rw [es_zero_iff y (gtot_equalW h) (by
    intro p hp
    obtain ⟨x, _, rfl⟩ := List.mem_map.1 hp
    dsimp only
    positivity)]
  unfold equalW
  simp

example : ([!₂[1, 2], !₂[0, 3]] : List (Eu 2)) ≠ [] := by simp

/-- C33: the order of the members does not matter. -/
theorem C33_perm (path : Path) (y : Eu D) {xs xs' : List (Eu D)} (h : xs ≠ []) (p : xs.Perm xs') :
    es1 path "nrg" D (vec y) (xs.map vec) none = es1 path "nrg" D (vec y) (xs'.map vec) none := by
  have h' : xs' ≠ [] := by
    intro e; rw [e] at p; exact h p.eq_nil
  rw [es1_nrg path y h, es1_nrg path y h', es_eq, es_eq, gabs_equal, gabs_equal, gpair_equal,
    gpair_equal, (p.map _).sum_eq, pairsAll_perm _ p, p.length_eq]

example : ([!₂[1, 2], !₂[0, 3]] : List (Eu 2)) ≠ [] ∧
    ([!₂[1, 2], !₂[0, 3]] : List (Eu 2)).Perm [!₂[0, 3], !₂[1, 2]] :=
  ⟨by simp, List.Perm.swap _ _ _⟩

/-- C33: isometries (translations, rotations, reflections, embeddings in a larger space) leave the
score unchanged. -/
theorem C33_isometry {D' : ℕ} (path : Path) (T : Eu D → Eu D') (hT : Isometry T) (y : Eu D)
    {xs : List (Eu D)} (h : xs ≠ []) :
    es1 path "nrg" D' (vec (T y)) (xs.map fun x => vec (T x)) none
      = es1 path "nrg" D (vec y) (xs.map vec) none := by
  have h1 := es1_nrg path (T y) (xs := xs.map T) (by simpa using h)
  rw [List.map_map] at h1
  have e : (vec ∘ T) = fun x => vec (T x) := rfl
  rw [e] at h1
  rw [h1, es1_nrg path y h, es_eq, es_eq, gabs_equal, gabs_equal, gpair_equal, gpair_equal]
  simp only [List.map_map, List.length_map, pairsAll_map, Function.comp_def, hT.dist_eq]

example : Isometry (fun x : Eu 2 => -x) ∧ ([!₂[1, 2], !₂[0, 3]] : List (Eu 2)) ≠ [] :=
  ⟨fun a b => by rw [edist_neg_neg], by simp⟩

/-- C33: adding the same vector to members and observation leaves the score unchanged. -/
theorem C33_translation (path : Path) (c y : Eu D) {xs : List (Eu D)} (h : xs ≠ []) :
    es1 path "nrg" D (vec (y + c)) (xs.map fun x => vec (x + c)) none
      = es1 path "nrg" D (vec y) (xs.map vec) none :=
  C33_isometry path (fun x => x + c) (isometry_add_right c) y h

example : ([!₂[1, 2], !₂[0, 3]] : List (Eu 2)) ≠ [] := by simp

/-- C33: multiplying members and observation by `c` multiplies the score by `|c|`. -/
theorem C33_scale (path : Path) (c : ℝ) (y : Eu D) {xs : List (Eu D)} (h : xs ≠ []) :
    ∃ s : ℝ, es1 path "nrg" D (vec y) (xs.map vec) none = .ok (fin s) ∧
      es1 path "nrg" D (vec (c • y)) (xs.map fun x => vec (c • x)) none = .ok (fin (|c| * s)) := by
  refine ⟨_, es1_nrg path y h, ?_⟩
  have h1 := es1_nrg path (c • y) (xs := xs.map fun x => c • x) (by simpa using h)
  rw [List.map_map] at h1
  have e : (vec ∘ fun x : Eu D => c • x) = fun x => vec (c • x) := rfl
  rw [e] at h1
  rw [h1, es_eq, es_eq, gabs_equal, gabs_equal, gpair_equal, gpair_equal]
  simp only [List.map_map, List.length_map, pairsAll_map, Function.comp_def, dist_smul₀,
    Real.norm_eq_abs, sum_map_mul_left', pairsAll_mul_left]
  congr 2
  have : pairsAll dist xs = pairsAll (fun a b => dist a b) xs := rfl
  rw [this]
  ring

example : ([!₂[1, 2], !₂[0, 3]] : List (Eu 2)) ≠ [] ∧ (!₂[1, 2] : Eu 2) ≠ !₂[0, 3] := by
  refine ⟨by simp, fun h => ?_⟩
  have := congrFun (congrArg (fun v : Eu 2 => (v : Fin 2 → ℝ)) h) 0
  simp at this

/-! ### C35 -/

theorem gpair_append (F G : List (Eu D × ℝ)) :
    gpair (F ++ G.map fun q => (q.1, -q.2)) = gpair F + gpair G
      - 2 * (G.map fun q => q.2 * gabs q.1 F).sum := by
  have cross : ∀ (A B : List (Eu D × ℝ)), (A.map fun p => (B.map fun q =>
      p.2 * q.2 * dist p.1 q.1).sum).sum = (B.map fun q => (A.map fun p =>
      p.2 * q.2 * dist p.1 q.1).sum).sum := by
    intro A B
    induction A with
    | nil => simp
    | cons a A ih => simp [ih, sum_map_add']
  have hneg : ∀ (B : List (Eu D × ℝ)) (f : Eu D × ℝ → ℝ),
      (B.map fun q => -(f q)).sum = -(B.map f).sum := by
    intro B f
    have := sum_map_mul_left' B (-1) f
    simpa using this
  unfold gpair pairsAll
  simp only [List.map_append, List.sum_append, List.map_map, Function.comp_def, sum_map_add']
  have e1 : (F.map fun p => (G.map fun q => p.2 * -q.2 * dist p.1 q.1).sum).sum
      = -(G.map fun q => q.2 * gabs q.1 F).sum := by
    simp only [mul_neg, neg_mul, hneg]
    rw [cross]
    congr 1
    apply sum_map_congr; intro q _
    unfold gabs
    rw [← sum_map_mul_left']
    apply sum_map_congr; intro p _; ring
  have e2 : (G.map fun q => (F.map fun p => -q.2 * p.2 * dist q.1 p.1).sum).sum
      = -(G.map fun q => q.2 * gabs q.1 F).sum := by
    rw [← hneg]
    apply sum_map_congr; intro q _
    unfold gabs
    rw [← sum_map_mul_left', ← hneg]
    apply sum_map_congr; intro p _
    rw [dist_comm q.1 p.1]
    ring
  have e3 : (G.map fun p => (G.map fun q => -p.2 * -q.2 * dist p.1 q.1).sum).sum
      = (G.map fun p => (G.map fun q => p.2 * q.2 * dist p.1 q.1).sum).sum := by
    apply sum_map_congr; intro p _
    apply sum_map_congr; intro q _; ring
  rw [e1, e2, e3]
  ring

/-- Expected score of `F` minus expected score of `G` when the observation follows `G`. -/
theorem es_divergence (F G : List (Eu D × ℝ)) (hG : gtot G = 1) :
    (G.map fun q => q.2 * es q.1 F).sum - (G.map fun q => q.2 * es q.1 G).sum
      = -(1 / 2) * gpair (F ++ G.map fun q => (q.1, -q.2)) := by
  have key : ∀ L : List (Eu D × ℝ), (G.map fun q => q.2 * es q.1 L).sum
      = (G.map fun q => q.2 * gabs q.1 L).sum - 1 / 2 * gpair L := by
    intro L
    have : ∀ q : Eu D × ℝ, q.2 * es q.1 L = q.2 * gabs q.1 L - (1 / 2 * gpair L) * q.2 := by
      intro q; rw [es_eq]; ring
    simp only [this]
    rw [sum_map_sub', sum_map_mul_left']
    have h1 : (G.map fun q : Eu D × ℝ => q.2).sum = 1 := hG
    rw [h1, mul_one]
  have self : (G.map fun q => q.2 * gabs q.1 G).sum = gpair G := by
    unfold gpair pairsAll
    apply sum_map_congr; intro q _
    unfold gabs
    rw [← sum_map_mul_left']
    apply sum_map_congr; intro p _
    dsimp only
    rw [dist_comm q.1 p.1]; ring
  rw [key, key, self, gpair_append]
  ring

theorem es_proper (F G : List (Eu D × ℝ)) (hF : gtot F = 1) (hG : gtot G = 1) :
    (G.map fun q => q.2 * es q.1 G).sum ≤ (G.map fun q => q.2 * es q.1 F).sum := by
  have h := es_divergence F G hG
  have h0 : ((F ++ G.map fun q => (q.1, -q.2)).map Prod.snd).sum = 0 := by
    have h1 : (F.map fun q : Eu D × ℝ => q.2).sum = 1 := hF
    have h2 : (G.map fun q : Eu D × ℝ => -q.2).sum = -1 := by
      have h3 : (G.map fun q : Eu D × ℝ => q.2).sum = 1 := hG
      have := sum_map_mul_left' G (-1) fun q : Eu D × ℝ => q.2
      rw [h3] at this
      simpa using this
    simp only [List.map_append, List.sum_append, List.map_map, Function.comp_def]
    rw [show (F.map Prod.snd).sum = 1 from hF, h2]
    ring
  have := dist_cnd _ h0
  have h2 : gpair (F ++ G.map fun q => (q.1, -q.2)) ≤ 0 := this
  linarith

/-- C35: when the observation is drawn from the members of `G`, the average energy score of `G` is at
most that of any other ensemble `F`. -/
theorem C35_proper (path : Path) (F G : List (Eu D)) (hF : F ≠ []) (hG : G ≠ []) :
    ∃ s : List (Eu D) → Eu D → ℝ,
      (∀ xs, xs ≠ [] → ∀ y, es1 path "nrg" D (vec y) (xs.map vec) none = .ok (fin (s xs y))) ∧
      (G.map (s G)).sum / G.length ≤ (G.map (s F)).sum / G.length := by
  refine ⟨fun xs y => es y (equalW xs), fun xs hx y => es1_nrg path y hx, ?_⟩
  have h := es_proper (equalW F) (equalW G) (gtot_equalW hF) (gtot_equalW hG)
  have e : ∀ L : List (Eu D × ℝ), ((equalW G).map fun q => q.2 * es q.1 L).sum
      = (G.map fun y => es y L).sum / G.length := by
    intro L
    unfold equalW
    rw [List.map_map, ← sum_map_div']
    apply sum_map_congr; intro y _
    simp only [Function.comp_apply]
    ring
  rw [e, e] at h
  exact h

example : ([!₂[1, 2], 0] : List (Eu 2)) ≠ [] ∧ ([!₂[1, 1]] : List (Eu 2)) ≠ [] := by simp

/-- C35 with weights: the observation is drawn from `G` with its normalised weights. -/
theorem C35_proper_weighted (path : Path) (F G : List (Eu D × ℝ))
    (hF : (F.map Prod.snd).sum ≠ 0) (hG : (G.map Prod.snd).sum ≠ 0) :
    ∃ s : List (Eu D × ℝ) → Eu D → ℝ,
      (∀ l : List (Eu D × ℝ), (∀ p ∈ l, 0 ≤ p.2) → (l.map Prod.snd).sum ≠ 0 → ∀ y,
        es1 path "nrg" D (vec y) (l.map fun p => vec p.1) (some (l.map fun p => fin p.2))
          = .ok (fin (s l y))) ∧
      (G.map fun q => q.2 / (G.map Prod.snd).sum * s G q.1).sum
        ≤ (G.map fun q => q.2 / (G.map Prod.snd).sum * s F q.1).sum := by
  refine ⟨fun l y => es y (Spec.normW l), fun l hw h y => es1_nrg_weighted path y l hw h, ?_⟩
  have tot : ∀ l : List (Eu D × ℝ), (l.map Prod.snd).sum ≠ 0 → gtot (Spec.normW l) = 1 := by
    intro l hl
    rw [normW_eq, gtot_scale]
    exact inv_mul_cancel₀ hl
  have h := es_proper (Spec.normW F) (Spec.normW G) (tot F hF) (tot G hG)
  have e : ∀ L : List (Eu D × ℝ), ((Spec.normW G).map fun q => q.2 * es q.1 L).sum
      = (G.map fun q => q.2 / (G.map Prod.snd).sum * es q.1 L).sum := by
    intro L
    unfold Spec.normW
    rw [List.map_map]
    rfl
  rw [e, e] at h
  exact h

example : (([(0, 1), (!₂[1, 2], 3)] : List (Eu 2 × ℝ)).map Prod.snd).sum ≠ 0 := by norm_num

end Verif
