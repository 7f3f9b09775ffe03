import Verif.Lemmas.GradClosed

/-!
# Gradients of the ensemble scores
-/

noncomputable section

open scoped Classical Topology

namespace Verif

open XF Py Mv Node Filter Grad

/-! ### lists with a leaf -/

/-- entry `i` of a list of reals whose entry `k` is replaced by `t` -/
def entry (xs : List ℝ) (k i : ℕ) (t : ℝ) : ℝ := if i = k then t else xs.getD i 0

/-- its node -/
def entryN (xs : List ℝ) (k i : ℕ) (t : ℝ) : Node :=
  if i = k then leaf (fin t) else const (fin (xs.getD i 0))

theorem entry_tr (xs : List ℝ) (k i : ℕ) (θ : ℝ) : Tr (entryN xs k i) (entry xs k i) θ := by
  by_cases h : i = k
  · have e1 : entryN xs k i = fun t => leaf (fin t) := by funext t; simp [entryN, h]
    have e2 : entry xs k i = fun t => t := by funext t; simp [entry, h]
    rw [e1, e2]; exact Tr.leaf
  · have e1 : entryN xs k i = fun _ => const (fin (xs.getD i 0)) := by funext t; simp [entryN, h]
    have e2 : entry xs k i = fun _ => xs.getD i 0 := by funext t; simp [entry, h]
    rw [e1, e2]; exact Tr.const _

theorem getD_lt {xs : List ℝ} {i : ℕ} (hi : i < xs.length) : xs.getD i 0 = xs[i] := by simp [hi]

theorem leafAt_eq (xs : List ℝ) (k : ℕ) (t : ℝ) :
    leafAt k ((xs.map fin).set k (fin t)) = (List.range xs.length).map fun i => entryN xs k i t := by
  refine List.ext_getElem (by simp [leafAt]) fun i h1 h2 => ?_
  have hi : i < xs.length := by simpa [leafAt] using h1
  simp only [leafAt, List.getElem_mapIdx, List.getElem_map, List.getElem_range, entryN]
  by_cases h : i = k
  · subst h; simp
  · rw [if_neg h, if_neg h, List.getElem_set_ne (Ne.symm h), List.getElem_map,
      getD_lt hi]

theorem leafAt_val (k : ℕ) (xs : List XF) : (leafAt k xs).map Node.val = xs := by
  refine List.ext_getElem (by simp [leafAt]) fun i h1 h2 => ?_
  simp only [leafAt, List.getElem_map, List.getElem_mapIdx]
  split_ifs <;> rfl

theorem consts_val (xs : List XF) : (consts xs).map Node.val = xs := by
  simp [consts, Function.comp_def]

theorem consts_eq (xs : List ℝ) : consts (xs.map fin) = (List.range xs.length).map fun i =>
    const (fin (xs.getD i 0)) := by
  refine List.ext_getElem (by simp [consts]) fun i h1 h2 => ?_
  have hi : i < xs.length := by simpa [consts] using h1
  simp only [consts, List.getElem_map, List.getElem_range, getD_lt hi]

theorem set_self (xs : List ℝ) {k : ℕ} (hk : k < xs.length) :
    (xs.map fin).set k (fin xs[k]) = xs.map fin := by
  refine List.ext_getElem (by simp) fun i h1 h2 => ?_
  rw [List.getElem_set]
  split_ifs with h
  · subst h; simp
  · rfl

namespace Tr

variable {N N' : ℝ → Node} {f f' : ℝ → ℝ} {θ : ℝ}

theorem congrN (h : Tr N f θ) (e : ∀ t, N' t = N t) : Tr N' f θ := by
  rwa [show N' = N from funext e]

theorem sum' {ι : Type} (l : List ι) {N : ι → ℝ → Node} (h : ∀ i ∈ l, ∃ f, Tr (N i) f θ) :
    ∃ f, Tr (fun t => Node.sum (l.map fun i => N i t)) f θ := by
  choose! f hf using h
  exact ⟨_, Tr.sum l hf⟩

theorem abs' (h : Tr N f θ) (h0 : f θ ≠ 0 ∨ ∀ t, f t = 0) : ∃ f, Tr (fun t => Node.abs (N t)) f θ := by
  rcases h0 with h0 | h0
  · exact ⟨_, h.abs h0⟩
  · exact ⟨_, h.abs_zero h0⟩

/-- `_crps_ensemble_nrg` -/
theorem crpsNrg {ι : Type} (l : List ι) {y : ℝ → Node} {fy : ℝ → ℝ} {N : ι → ℝ → Node} {f : ι → ℝ → ℝ}
    (hy : Tr y fy θ) (hN : ∀ i ∈ l, Tr (N i) (f i) θ) (hl : l ≠ [])
    (h1 : ∀ i ∈ l, fy θ ≠ f i θ ∨ ∀ t, fy t = f i t)
    (h2 : ∀ i ∈ l, ∀ j ∈ l, f i θ ≠ f j θ ∨ ∀ t, f i t = f j t) :
    ∃ g, Tr (fun t => Grad.crpsNrg (y t) (l.map fun i => N i t)) g θ := by
  have hM : (l.length : ℝ) ≠ 0 := by
    have := List.length_pos_of_ne_nil hl
    positivity
  have hM2 : ((l.length ^ 2 : ℕ) : ℝ) ≠ 0 := by
    push_cast; positivity
  obtain ⟨g1, hg1⟩ := Tr.sum' (θ := θ) l (N := fun i t => Node.abs (y t - N i t)) fun i hi =>
    (hy.sub (hN i hi)).abs' ((h1 i hi).imp sub_ne_zero.2 fun h t => sub_eq_zero.2 (h t))
  obtain ⟨g2, hg2⟩ := Tr.sum' (θ := θ) l (N := fun i t => Node.sum (l.map fun j => Node.abs (N i t - N j t)))
    fun i hi => Tr.sum' l fun j hj => ((hN i hi).sub (hN j hj)).abs'
      ((h2 i hi j hj).imp sub_ne_zero.2 fun h t => sub_eq_zero.2 (h t))
  have hc1 : Tr (θ := θ) (fun _ => Node.const (l.length : XF)) (fun _ => (l.length : ℝ)) :=
    Tr.constx (natCast_def _)
  have hc2 : Tr (θ := θ) (fun _ => Node.const ((l.length ^ 2 : ℕ) : XF)) (fun _ => ((l.length ^ 2 : ℕ) : ℝ)) :=
    Tr.constx (natCast_def _)
  have hc3 : Tr (θ := θ) (fun _ => Node.const half) (fun _ => 1 / 2) := Tr.constx rfl
  have := (hg1.div hc1 hM).sub (hc3.mul (hg2.div hc2 hM2))
  refine ⟨_, this.congrN fun t => ?_⟩
  simp only [Grad.crpsNrg, List.map_map, Function.comp_def, List.length_map]

/-- torch: the norm of a vector that is 0 near `θ` -/
theorem norm_zero {ι : Type} (l : List ι) {N : ι → ℝ → Node} {f : ι → ℝ → ℝ}
    (h : ∀ i ∈ l, Tr (N i) (f i) θ) (h0 : ∀ i ∈ l, ∀ t, f i t = 0) :
    Tr (fun t => Node.norm .torch (l.map fun i => N i t)) (fun _ => 0) θ := by
  have hv : ∀ᶠ t in 𝓝 θ, vnorm ((l.map fun i => N i t).map Node.val) = fin 0 := by
    have hs := (Tr.sum l fun i hi => (h i hi).mul (h i hi)).1
    filter_upwards [hs] with t ht
    have e : (l.map fun i => f i t * f i t).sum = 0 := by
      refine List.sum_eq_zero fun x hx => ?_
      obtain ⟨i, hi, rfl⟩ := List.mem_map.1 hx
      rw [h0 i hi, mul_zero]
    rw [e] at ht
    have e' : (((l.map fun i => N i t).map Node.val).map fun x => x * x).sum = fin 0 := by
      rw [← ht, sum_val]
      simp [List.map_map, Function.comp_def]
    unfold vnorm
    rw [e', fin_sqrt le_rfl, Real.sqrt_zero]
  refine ⟨hv, 0, hasDerivAt_const _ _, fun g => ?_⟩
  have hθ := hv.self_of_nhds
  show ((l.map fun i => N i θ).map fun x => x.back (if XF.feq (vnorm ((l.map fun i => N i θ).map
        Node.val)) 0 then 0 else x.val * (fin g / vnorm ((l.map fun i => N i θ).map Node.val)))).sum = _
  rw [hθ]
  have : XF.feq (fin 0) 0 := rfl
  simp only [if_pos this, List.map_map, Function.comp_def]
  rw [mul_zero]
  refine List.sum_eq_zero fun x hx => ?_
  obtain ⟨i, hi, rfl⟩ := List.mem_map.1 hx
  obtain ⟨_, d, _, hb⟩ := h i hi
  rw [zero_def, hb, zero_mul]

theorem norm' {ι : Type} (lib : Lib) (l : List ι) {N : ι → ℝ → Node} {f : ι → ℝ → ℝ}
    (h : ∀ i ∈ l, Tr (N i) (f i) θ)
    (h0 : 0 < (l.map fun i => f i θ * f i θ).sum ∨ (lib = .torch ∧ ∀ i ∈ l, ∀ t, f i t = 0)) :
    ∃ g, Tr (fun t => Node.norm lib (l.map fun i => N i t)) g θ := by
  rcases h0 with h0 | ⟨rfl, h0⟩
  · exact ⟨_, Tr.norm lib l h h0⟩
  · exact ⟨_, Tr.norm_zero l h h0⟩

theorem nsub_map {κ : Type} (c : List κ) (A B : κ → Node) :
    nsub (c.map A) (c.map B) = c.map fun a => A a - B a := by
  unfold nsub
  induction c with
  | nil => rfl
  | cons a c ih => simp only [List.map_cons, List.zipWith_cons_cons, ih]

/-- the distance of two vectors -/
theorem dist {κ : Type} (lib : Lib) (c : List κ) {A B : κ → ℝ → Node} {f g : κ → ℝ → ℝ}
    (hA : ∀ a ∈ c, Tr (A a) (f a) θ) (hB : ∀ a ∈ c, Tr (B a) (g a) θ)
    (h0 : (∃ a ∈ c, f a θ ≠ g a θ) ∨ (lib = .torch ∧ ∀ a ∈ c, ∀ t, f a t = g a t)) :
    ∃ q, Tr (fun t => Node.norm lib (nsub (c.map fun a => A a t) (c.map fun a => B a t))) q θ := by
  have : ∃ q, Tr (fun t => Node.norm lib (c.map fun a => A a t - B a t)) q θ := by
    refine Tr.norm' lib c (fun a ha => (hA a ha).sub (hB a ha)) ?_
    rcases h0 with ⟨a, ha, hne⟩ | ⟨hl, h0⟩
    · left
      have h1 : ∀ x ∈ c.map fun i => (f i θ - g i θ) * (f i θ - g i θ), 0 ≤ x := by
        intro x hx
        obtain ⟨i, _, rfl⟩ := List.mem_map.1 hx
        exact mul_self_nonneg _
      refine lt_of_le_of_ne (List.sum_nonneg h1) fun hc => ?_
      have hm : (f a θ - g a θ) * (f a θ - g a θ) ∈ c.map fun i => (f i θ - g i θ) * (f i θ - g i θ) :=
        List.mem_map.2 ⟨a, ha, rfl⟩
      have := List.single_le_sum h1 _ hm
      rw [← hc] at this
      have h3 : (f a θ - g a θ) * (f a θ - g a θ) > 0 := mul_self_pos.2 (sub_ne_zero.2 hne)
      linarith
    · exact Or.inr ⟨hl, fun a ha t => sub_eq_zero.2 (h0 a ha t)⟩
  obtain ⟨q, hq⟩ := this
  exact ⟨q, hq.congrN fun t => by rw [nsub_map]⟩

/-- `_es_ensemble_nrg` -/
theorem esNrg {ι κ : Type} (lib : Lib) (l : List ι) (c : List κ) {y : κ → ℝ → Node} {fy : κ → ℝ → ℝ}
    {N : ι → κ → ℝ → Node} {f : ι → κ → ℝ → ℝ} (hl : l ≠ [])
    (hy : ∀ a ∈ c, Tr (y a) (fy a) θ) (hN : ∀ i ∈ l, ∀ a ∈ c, Tr (N i a) (f i a) θ)
    (h1 : ∀ i ∈ l, (∃ a ∈ c, f i a θ ≠ fy a θ) ∨ (lib = .torch ∧ ∀ a ∈ c, ∀ t, f i a t = fy a t))
    (h2 : ∀ i ∈ l, ∀ j ∈ l, (∃ a ∈ c, f i a θ ≠ f j a θ) ∨ (lib = .torch ∧ ∀ a ∈ c, ∀ t, f i a t = f j a t)) :
    ∃ g, Tr (fun t => Grad.esNrg lib (c.map fun a => y a t) (l.map fun i => c.map fun a => N i a t)) g θ := by
  have hM : (l.length : ℝ) ≠ 0 := by
    have := List.length_pos_of_ne_nil hl
    positivity
  have hM2 : ((l.length ^ 2 : ℕ) : ℝ) ≠ 0 := by
    push_cast; positivity
  obtain ⟨g1, hg1⟩ := Tr.sum' (θ := θ) l
    (N := fun i t => Node.norm lib (nsub (c.map fun a => N i a t) (c.map fun a => y a t))) fun i hi =>
      Tr.dist lib c (hN i hi) hy (h1 i hi)
  obtain ⟨g2, hg2⟩ := Tr.sum' (θ := θ) l
    (N := fun i t => Node.sum (l.map fun j => Node.norm lib (nsub (c.map fun a => N i a t) (c.map fun a => N j a t))))
    fun i hi => Tr.sum' l fun j hj => Tr.dist lib c (hN i hi) (hN j hj) (h2 i hi j hj)
  have hc1 : Tr (θ := θ) (fun _ => Node.const (l.length : XF)) (fun _ => (l.length : ℝ)) :=
    Tr.constx (natCast_def _)
  have hc2 : Tr (θ := θ) (fun _ => Node.const ((l.length ^ 2 : ℕ) : XF)) (fun _ => ((l.length ^ 2 : ℕ) : ℝ)) :=
    Tr.constx (natCast_def _)
  have hc3 : Tr (θ := θ) (fun _ => Node.const half) (fun _ => 1 / 2) := Tr.constx rfl
  have := (hg1.div hc1 hM).sub (hc3.mul (hg2.div hc2 hM2))
  refine ⟨_, this.congrN fun t => ?_⟩
  simp only [Grad.esNrg, List.map_map, Function.comp_def, List.length_map]

/-- `gauss_kern_mv` -/
theorem kernMv {κ : Type} (lib : Lib) (c : List κ) {A B : κ → ℝ → Node} {f g : κ → ℝ → ℝ}
    (hA : ∀ a ∈ c, Tr (A a) (f a) θ) (hB : ∀ a ∈ c, Tr (B a) (g a) θ)
    (h0 : (∃ a ∈ c, f a θ ≠ g a θ) ∨ (lib = .torch ∧ ∀ a ∈ c, ∀ t, f a t = g a t)) :
    ∃ q, Tr (fun t => Grad.kernMv lib (c.map fun a => A a t) (c.map fun a => B a t)) q θ := by
  obtain ⟨q, hq⟩ := Tr.dist lib c hA hB h0
  have hc : Tr (θ := θ) (fun _ => Node.const (-half)) (fun _ => -(1 / 2)) := Tr.constx (fin_neg _)
  exact ⟨_, (hc.mul (hq.pow 2)).exp⟩

/-- `_ks_ensemble_nrg_mv` -/
theorem ksNrgMv {ι κ : Type} (lib : Lib) (l : List ι) (c : List κ) {y : κ → ℝ → Node} {fy : κ → ℝ → ℝ}
    {N : ι → κ → ℝ → Node} {f : ι → κ → ℝ → ℝ} (hl : l ≠ [])
    (hy : ∀ a ∈ c, Tr (y a) (fy a) θ) (hN : ∀ i ∈ l, ∀ a ∈ c, Tr (N i a) (f i a) θ)
    (h1 : ∀ i ∈ l, (∃ a ∈ c, fy a θ ≠ f i a θ) ∨ (lib = .torch ∧ ∀ a ∈ c, ∀ t, fy a t = f i a t))
    (h2 : ∀ i ∈ l, ∀ j ∈ l, (∃ a ∈ c, f i a θ ≠ f j a θ) ∨ (lib = .torch ∧ ∀ a ∈ c, ∀ t, f i a t = f j a t))
    (h3 : lib = .torch) :
    ∃ g, Tr (fun t => Grad.ksNrgMv lib (c.map fun a => y a t) (l.map fun i => c.map fun a => N i a t)) g θ := by
  have hM : (l.length : ℝ) ≠ 0 := by
    have := List.length_pos_of_ne_nil hl
    positivity
  have hM2 : ((l.length ^ 2 : ℕ) : ℝ) ≠ 0 := by
    push_cast; positivity
  obtain ⟨g1, hg1⟩ := Tr.sum' (θ := θ) l
    (N := fun i t => Grad.kernMv lib (c.map fun a => y a t) (c.map fun a => N i a t)) fun i hi =>
      Tr.kernMv lib c hy (hN i hi) (h1 i hi)
  obtain ⟨g2, hg2⟩ := Tr.sum' (θ := θ) l
    (N := fun i t => Node.sum (l.map fun j => Grad.kernMv lib (c.map fun a => N i a t) (c.map fun a => N j a t)))
    fun i hi => Tr.sum' l fun j hj => Tr.kernMv lib c (hN i hi) (hN j hj) (h2 i hi j hj)
  obtain ⟨g3, hg3⟩ := Tr.kernMv lib c hy hy (Or.inr ⟨h3, fun _ _ _ => rfl⟩)
  have hc1 : Tr (θ := θ) (fun _ => Node.const (l.length : XF)) (fun _ => (l.length : ℝ)) :=
    Tr.constx (natCast_def _)
  have hc2 : Tr (θ := θ) (fun _ => Node.const ((l.length ^ 2 : ℕ) : XF)) (fun _ => ((l.length ^ 2 : ℕ) : ℝ)) :=
    Tr.constx (natCast_def _)
  have hc3 : Tr (θ := θ) (fun _ => Node.const half) (fun _ => 1 / 2) := Tr.constx rfl
  have := (((hg1.div hc1 hM).sub ((hc3.mul hg2).div hc2 hM2)).sub (hc3.mul hg3)).neg
  refine ⟨_, this.congrN fun t => ?_⟩
  simp only [Grad.ksNrgMv, List.map_map, Function.comp_def, List.length_map]

end Tr

/-! ### ensembles of vectors with a leaf -/

/-- coordinate `a` of member `i`, coordinate `d` of member `k` being replaced by `t` -/
def entry2 (xs : List (List ℝ)) (k d i a : ℕ) (t : ℝ) : ℝ :=
  if i = k then entry (xs.getD k []) d a t else (xs.getD i []).getD a 0

/-- its node -/
def entry2N (xs : List (List ℝ)) (k d i a : ℕ) (t : ℝ) : Node :=
  if i = k then entryN (xs.getD k []) d a t else const (fin ((xs.getD i []).getD a 0))

theorem entry2_tr (xs : List (List ℝ)) (k d i a : ℕ) (θ : ℝ) :
    Tr (entry2N xs k d i a) (entry2 xs k d i a) θ := by
  by_cases h : i = k
  · have e1 : entry2N xs k d i a = entryN (xs.getD k []) d a := by funext t; simp [entry2N, h]
    have e2 : entry2 xs k d i a = entry (xs.getD k []) d a := by funext t; simp [entry2, h]
    rw [e1, e2]; exact entry_tr _ _ _ _
  · have e1 : entry2N xs k d i a = fun _ => const (fin ((xs.getD i []).getD a 0)) := by
      funext t; simp [entry2N, h]
    have e2 : entry2 xs k d i a = fun _ => (xs.getD i []).getD a 0 := by funext t; simp [entry2, h]
    rw [e1, e2]; exact Tr.const _

theorem leafAt2_eq {xs : List (List ℝ)} {D : ℕ} (hD : ∀ x ∈ xs, x.length = D) (k d : ℕ) (t : ℝ) :
    leafAt2 k d ((xs.map (List.map fin)).modify k fun v => v.set d (fin t))
      = (List.range xs.length).map fun i => (List.range D).map fun a => entry2N xs k d i a t := by
  refine List.ext_getElem (by simp [leafAt2]) fun i h1 h2 => ?_
  have hi : i < xs.length := by simpa [leafAt2] using h1
  have hx : xs.getD i [] = xs[i] := by simp [hi]
  have hDi : xs[i].length = D := hD _ (List.getElem_mem hi)
  simp only [leafAt2, List.getElem_mapIdx, List.getElem_map, List.getElem_range]
  by_cases h : i = k
  · subst h
    rw [if_pos rfl, List.getElem_modify, if_pos rfl, List.getElem_map, leafAt_eq, hDi]
    refine List.map_congr_left fun a _ => ?_
    rw [entry2N, if_pos rfl, hx]
  · rw [if_neg h, List.getElem_modify, if_neg (Ne.symm h), List.getElem_map, consts_eq, hDi]
    refine List.map_congr_left fun a _ => ?_
    rw [entry2N, if_neg h, hx]

theorem leafAt2_val (k d : ℕ) (xs : List (List XF)) : (leafAt2 k d xs).map (List.map Node.val) = xs := by
  refine List.ext_getElem (by simp [leafAt2]) fun i h1 h2 => ?_
  simp only [leafAt2, List.getElem_map, List.getElem_mapIdx]
  split_ifs
  · exact leafAt_val _ _
  · exact consts_val _

theorem modify_self {xs : List (List ℝ)} {k d : ℕ} (hk : k < xs.length) (hd : d < xs[k].length) :
    ((xs.map (List.map fin)).modify k fun v => v.set d (fin xs[k][d])) = xs.map (List.map fin) := by
  refine List.ext_getElem (by simp) fun i h1 h2 => ?_
  rw [List.getElem_modify]
  split_ifs with h
  · subst h
    rw [List.getElem_map, set_self _ hd]
  · rfl

end Verif
