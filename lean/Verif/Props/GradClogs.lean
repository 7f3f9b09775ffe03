import Verif.Lemmas.GradClogs

/-!
# C132: gradients of the logarithmic scores of ensembles and of normal mixtures

`clogs_ensemble` computes the logarithm of the probability of the complement of the region for every observation and
discards it with `B.where`.  With the default bounds that probability is 0, and the gradient with respect to every
member is NaN, although the score is the logarithmic score, whose gradient `logs_ensemble` returns.
-/

noncomputable section

open scoped Classical Topology

namespace Verif

open XF Py Mv Node Filter Grad
open Spec (IsGradient HasGradient φ Φ single)

/-- `clogs_ensemble` of one ensemble with a given bandwidth (`_logs.py:72-147`) -/
def clogsOf (y : XF) (xs : List XF) (a b h : XF) (cens : Bool) : XF :=
  single (Api.clogsEnsemble (Arr.scalar y) (Arr.ofList xs) (Arr.scalar a) (Arr.scalar b) (-1) (some (Arr.scalar h)) cens)

/-- `logs_ensemble` of one ensemble with a given bandwidth (`_logs.py:11-69`) -/
def logsOf (y : XF) (xs : List XF) (h : XF) : XF :=
  single (Api.logsEnsemble (Arr.scalar y) (Arr.ofList xs) (-1) (some (Arr.scalar h)))

theorem consts_tr {n : ℕ} (v : List ℝ) (hv : v.length = n) (θ : ℝ) : ∀ i ∈ List.range n,
    Tr (fun _ => nget (consts (v.map fin)) i) (fun _ => v.getD i 0) θ := by
  intro i hi
  refine (Tr.const (v.getD i 0)).congrN fun t => ?_
  rw [consts_eq, hv]
  have := List.mem_range.1 hi
  simp [nget, this]

theorem leafAt_tr {n : ℕ} (v : List ℝ) (hv : v.length = n) (k : ℕ) (θ : ℝ) : ∀ i ∈ List.range n,
    Tr (fun t => nget (leafAt k ((v.map fin).set k (fin t))) i) (entry v k i) θ := by
  intro i hi
  refine (entry_tr v k i θ).congrN fun t => ?_
  rw [leafAt_eq, hv]
  have := List.mem_range.1 hi
  simp [nget, this]

/-! ### normal mixtures and `logs_ensemble` -/

theorem Tr.logsMixnorm {θ : ℝ} (n : ℕ) {Y : ℝ → Node} {y : ℝ → ℝ} {M S W : ℕ → ℝ → Node} {m s w : ℕ → ℝ → ℝ}
    (hY : Tr Y y θ) (hM : ∀ i ∈ List.range n, Tr (M i) (m i) θ) (hS : ∀ i ∈ List.range n, Tr (S i) (s i) θ)
    (hW : ∀ i ∈ List.range n, Tr (W i) (w i) θ) (hs : ∀ i ∈ List.range n, 0 < s i θ)
    (hw : ∀ i ∈ List.range n, 0 ≤ w i θ) (hp : ∃ i ∈ List.range n, 0 < w i θ) :
    ∃ g, Tr (fun t => Grad.logsMixnorm (Y t) ((List.range n).map fun i => M i t) ((List.range n).map fun i => S i t)
      ((List.range n).map fun i => W i t)) g θ := by
  have h := Tr.sum (List.range n) fun i hi => (hW i hi).mul
    ((((hY.sub (hM i hi)).div (hS i hi) (hs i hi).ne').normPdf).div (hS i hi) (hs i hi).ne')
  have hpos : 0 < ((List.range n).map fun i => w i θ * (φ ((y θ - m i θ) / s i θ) / s i θ)).sum := by
    obtain ⟨k, hk, hwk⟩ := hp
    refine Finset.sum_pos' (s := Finset.range n) (fun i hi => ?_) ⟨k, Finset.mem_range.2 (List.mem_range.1 hk), ?_⟩
    · have hi' := List.mem_range.2 (Finset.mem_range.1 hi)
      exact mul_nonneg (hw i hi') (div_nonneg (φ_pos _).le (hs i hi').le)
    · exact mul_pos hwk (div_pos (φ_pos _) (hs k hk))
  refine ⟨_, (h.log hpos).neg.congrN fun t => ?_⟩
  unfold Grad.logsMixnorm
  simp only [zipWith_range]

theorem getD_pos {n : ℕ} {s : List ℝ} (hs : s.length = n) {P : ℝ → Prop} (h0 : ∀ x ∈ s, P x) :
    ∀ i ∈ List.range n, P (s.getD i 0) := by
  intro i hi
  have : i < s.length := by rw [hs]; exact List.mem_range.1 hi
  rw [getD_lt this]
  exact h0 _ (List.getElem_mem this)

theorem entry_prop {n : ℕ} {s : List ℝ} (hs : s.length = n) {P : ℝ → Prop} (h0 : ∀ x ∈ s, P x) {k : ℕ}
    (hk : k < s.length) : ∀ i ∈ List.range n, P (entry s k i s[k]) := by
  intro i hi
  unfold entry
  split_ifs
  · exact h0 _ (List.getElem_mem hk)
  · exact getD_pos hs h0 i hi

theorem entry_self {s : List ℝ} {k : ℕ} (hk : k < s.length) (i : ℕ) : entry s k i s[k] = s.getD i 0 := by
  unfold entry
  split_ifs with h
  · subst h; rw [getD_lt hk]
  · rfl

theorem nget_all {l : List Node} {n : ℕ} (hl : l.length = n) : (List.range n).map (nget l) = l := by
  refine List.ext_getElem (by simp [hl]) fun i h1 h2 => ?_
  simp [nget, h2]

/-- The gradient of the logarithmic score of a normal mixture with respect to the observation, a mean, a standard
deviation and a weight. -/
theorem C132_logs_mixnorm (y : ℝ) {m s w : List ℝ} (hs : s.length = m.length) (hw : w.length = m.length)
    (h0 : ∀ x ∈ s, 0 < x) (hw0 : ∀ x ∈ w, 0 ≤ x) (hw1 : ∃ x ∈ w, 0 < x) {k : ℕ} (hk : k < m.length) :
    IsGradient (fun t => Logs.mixnorm t (m.map fin) (s.map fin) (w.map fin)) y
      (Grad.logsMixnorm (leaf (fin y)) (consts (m.map fin)) (consts (s.map fin)) (consts (w.map fin))).grad ∧
    IsGradient (fun t => Logs.mixnorm (fin y) ((m.map fin).set k t) (s.map fin) (w.map fin)) m[k]
      (Grad.logsMixnorm (const (fin y)) (leafAt k (m.map fin)) (consts (s.map fin)) (consts (w.map fin))).grad ∧
    IsGradient (fun t => Logs.mixnorm (fin y) (m.map fin) ((s.map fin).set k t) (w.map fin)) s[k]
      (Grad.logsMixnorm (const (fin y)) (consts (m.map fin)) (leafAt k (s.map fin)) (consts (w.map fin))).grad ∧
    IsGradient (fun t => Logs.mixnorm (fin y) (m.map fin) (s.map fin) ((w.map fin).set k t)) w[k]
      (Grad.logsMixnorm (const (fin y)) (consts (m.map fin)) (consts (s.map fin)) (leafAt k (w.map fin))).grad := by
  have hks : k < s.length := by omega
  have hkw : k < w.length := by omega
  have p1 := getD_pos hs h0
  have p2 := getD_pos hw hw0
  have p3 : ∃ i ∈ List.range m.length, 0 < w.getD i 0 := by
    obtain ⟨x, hx, hp⟩ := hw1
    obtain ⟨i, hi, rfl⟩ := List.getElem_of_mem hx
    exact ⟨i, List.mem_range.2 (by omega), by rwa [getD_lt hi]⟩
  have lc : ∀ v : List ℝ, v.length = m.length → (consts (v.map fin)).length = m.length := by
    intro v hv; simp [consts, hv]
  have ll : ∀ (v : List ℝ) (t : ℝ), v.length = m.length → (leafAt k ((v.map fin).set k (fin t))).length = m.length := by
    intro v t hv; simp [leafAt, hv]
  refine ⟨?_, ?_, ?_, ?_⟩
  · obtain ⟨g, h⟩ := Tr.logsMixnorm m.length (Tr.leaf (θ := y)) (consts_tr m rfl y) (consts_tr s hs y)
      (consts_tr w hw y) p1 p2 p3
    simp only [nget_all (lc m rfl), nget_all (lc s hs), nget_all (lc w hw)] at h
    refine h.isGradient fun t => ?_
    rw [logsMixnorm_val, consts_val, consts_val, consts_val]; rfl
  · obtain ⟨g, h⟩ := Tr.logsMixnorm m.length (Tr.const (θ := m[k]) y) (leafAt_tr m rfl k m[k]) (consts_tr s hs m[k])
      (consts_tr w hw m[k]) p1 p2 p3
    simp only [nget_all (ll m _ rfl), nget_all (lc s hs), nget_all (lc w hw)] at h
    have h' := h.isGradient (score := fun t => Logs.mixnorm (fin y) ((m.map fin).set k t) (s.map fin) (w.map fin))
      fun t => by rw [logsMixnorm_val, leafAt_val, consts_val, consts_val]; rfl
    rwa [set_self] at h'
  · obtain ⟨g, h⟩ := Tr.logsMixnorm m.length (Tr.const (θ := s[k]) y) (consts_tr m rfl s[k]) (leafAt_tr s hs k s[k])
      (consts_tr w hw s[k]) (entry_prop hs h0 hks) p2 p3
    simp only [nget_all (ll s _ hs), nget_all (lc m rfl), nget_all (lc w hw)] at h
    have h' := h.isGradient (score := fun t => Logs.mixnorm (fin y) (m.map fin) ((s.map fin).set k t) (w.map fin))
      fun t => by rw [logsMixnorm_val, leafAt_val, consts_val, consts_val]; rfl
    rwa [set_self] at h'
  · obtain ⟨g, h⟩ := Tr.logsMixnorm m.length (Tr.const (θ := w[k]) y) (consts_tr m rfl w[k]) (consts_tr s hs w[k])
      (leafAt_tr w hw k w[k]) p1 (entry_prop hw hw0 hkw) (by simpa only [entry_self hkw] using p3)
    simp only [nget_all (ll w _ hw), nget_all (lc s hs), nget_all (lc m rfl)] at h
    have h' := h.isGradient (score := fun t => Logs.mixnorm (fin y) (m.map fin) (s.map fin) ((w.map fin).set k t))
      fun t => by rw [logsMixnorm_val, leafAt_val, consts_val, consts_val]; rfl
    rwa [set_self] at h'

example : ∃ (m s w : List ℝ), s.length = m.length ∧ w.length = m.length ∧ (∀ x ∈ s, 0 < x) ∧ (∀ x ∈ w, 0 ≤ x) ∧
    (∃ x ∈ w, 0 < x) ∧ 1 < m.length :=
  ⟨[0, 1], [1, 2], [1 / 4, 3 / 4], rfl, rfl, by simp, by norm_num, ⟨1 / 4, by simp, by norm_num⟩, by simp⟩

/-- The gradient of `logs_ensemble` with a given bandwidth, with respect to the observation, a member and the
bandwidth. -/
theorem C132_logs_ensemble (y : ℝ) {xs : List ℝ} {h : ℝ} (hh : 0 < h) {k : ℕ} (hk : k < xs.length) :
    IsGradient (fun t => logsOf t (xs.map fin) (fin h)) y
      (Grad.logsEnsemble (leaf (fin y)) (consts (xs.map fin)) (const (fin h))).grad ∧
    IsGradient (fun t => logsOf (fin y) ((xs.map fin).set k t) (fin h)) xs[k]
      (Grad.logsEnsemble (const (fin y)) (leafAt k (xs.map fin)) (const (fin h))).grad ∧
    IsGradient (fun t => logsOf (fin y) (xs.map fin) t) h
      (Grad.logsEnsemble (const (fin y)) (consts (xs.map fin)) (leaf (fin h))).grad := by
  have hx : xs ≠ [] := List.ne_nil_of_length_pos (by omega)
  have hM : (xs.length : ℝ) ≠ 0 := by simpa using hx
  have hMp : (0 : ℝ) < 1 / xs.length := by positivity
  have hv : ∀ (Y : Node) (F : List Node) (B : Node), F ≠ [] → (Grad.logsEnsemble Y F B).val
      = logsOf Y.val (F.map Node.val) B.val := by
    intro Y F B hF
    unfold Grad.logsEnsemble logsOf
    rw [single_logs _ (by simpa using hF), logsMixnorm_val, List.map_replicate, List.map_replicate, List.length_map]
    rfl
  have hW : ∀ θ, ∀ i ∈ List.range xs.length, Tr (fun _ => const (1 / (xs.length : XF)))
      (fun _ => 1 / (xs.length : ℝ)) θ := fun θ i _ => Tr.constx (by rw [natCast_fin, one_def, fin_div hM])
  have lc : (consts (xs.map fin)).length = xs.length := by simp [consts]
  have ll : ∀ t : ℝ, (leafAt k ((xs.map fin).set k (fin t))).length = xs.length := by intro t; simp [leafAt]
  have p2 : ∀ i ∈ List.range xs.length, (0 : ℝ) ≤ 1 / (xs.length : ℝ) := fun _ _ => hMp.le
  have p3 : ∃ i ∈ List.range xs.length, (0 : ℝ) < 1 / (xs.length : ℝ) := ⟨k, List.mem_range.2 hk, hMp⟩
  have rep : ∀ x : Node, (List.range xs.length).map (fun _ => x) = List.replicate xs.length x := by
    intro x; simp
  refine ⟨?_, ?_, ?_⟩
  · obtain ⟨g, hT⟩ := Tr.logsMixnorm xs.length (Tr.leaf (θ := y)) (consts_tr xs rfl y) (fun _ _ => Tr.const h)
      (hW y) (fun _ _ => hh) p2 p3
    simp only [nget_all lc, rep] at hT
    refine (hT.congrN (N' := fun t => Grad.logsEnsemble (leaf (fin t)) (consts (xs.map fin)) (const (fin h)))
      fun t => ?_).isGradient fun t => ?_
    · unfold Grad.logsEnsemble; rw [lc]
    · rw [hv _ _ _ (by simpa [consts] using hx), consts_val]; rfl
  · obtain ⟨g, hT⟩ := Tr.logsMixnorm xs.length (Tr.const (θ := xs[k]) y) (leafAt_tr xs rfl k xs[k])
      (fun _ _ => Tr.const h) (hW xs[k]) (fun _ _ => hh) p2 p3
    simp only [nget_all (ll _), rep] at hT
    have h' := (hT.congrN (N' := fun t => Grad.logsEnsemble (const (fin y)) (leafAt k ((xs.map fin).set k (fin t)))
      (const (fin h))) fun t => by unfold Grad.logsEnsemble; rw [ll]).isGradient
      (score := fun t => logsOf (fin y) ((xs.map fin).set k t) (fin h)) fun t => by
        rw [hv _ _ _ (by rw [← List.length_pos_iff, ll]; omega), leafAt_val]; rfl
    rwa [set_self] at h'
  · obtain ⟨g, hT⟩ := Tr.logsMixnorm xs.length (Tr.const (θ := h) y) (consts_tr xs rfl h) (fun _ _ => Tr.leaf)
      (hW h) (fun _ _ => hh) p2 p3
    simp only [nget_all lc, rep] at hT
    refine (hT.congrN (N' := fun t => Grad.logsEnsemble (const (fin y)) (consts (xs.map fin)) (leaf (fin t)))
      fun t => ?_).isGradient fun t => ?_
    · unfold Grad.logsEnsemble; rw [lc]
    · rw [hv _ _ _ (by simpa [consts] using hx), consts_val]; rfl

example : ∃ (xs : List ℝ) (h : ℝ), 0 < h ∧ 1 < xs.length := ⟨[0, 1, 3], 1 / 2, by norm_num, by simp⟩

/-! ### `clogs_ensemble` -/

theorem clogsEnsemble_val (Y : Node) {F : List Node} (hF : F ≠ []) (A B H : Node) (cens : Bool) :
    (Grad.clogsEnsemble Y F A B H cens).val = clogsOf Y.val (F.map Node.val) A.val B.val H.val cens := by
  unfold clogsOf
  rw [single_clogs _ (by simpa using hF), clogs_val]

theorem side_eventually {a b : XF} (ha : a ≠ nan) (hb : b ≠ nan) {y : ℝ} (h1 : a ≠ fin y) (h2 : b ≠ fin y) :
    (∀ᶠ t in 𝓝 y, a < fin t ∧ fin t < b) ∨ ∀ᶠ t in 𝓝 y, ¬ (a < fin t ∧ fin t < b) := by
  have A : (∀ᶠ t in 𝓝 y, a < fin t) ∨ ∀ᶠ t in 𝓝 y, ¬ (a < fin t) := by
    cases a with
    | nan => exact (ha rfl).elim
    | pinf => exact Or.inr (Eventually.of_forall fun t h => h)
    | ninf => exact Or.inl (Eventually.of_forall fun t => trivial)
    | fin a =>
      rcases lt_or_gt_of_ne (fun h => h1 (congrArg fin h) : a ≠ y) with h | h
      · exact Or.inl ((lt_mem_nhds h).mono fun t ht => ht)
      · exact Or.inr ((gt_mem_nhds h).mono fun t ht h' => lt_asymm ht h')
  have B : (∀ᶠ t in 𝓝 y, fin t < b) ∨ ∀ᶠ t in 𝓝 y, ¬ (fin t < b) := by
    cases b with
    | nan => exact (hb rfl).elim
    | pinf => exact Or.inl (Eventually.of_forall fun t => trivial)
    | ninf => exact Or.inr (Eventually.of_forall fun t h => h)
    | fin b =>
      rcases lt_or_gt_of_ne (fun h => h2 (congrArg fin h) : b ≠ y) with h | h
      · exact Or.inr ((lt_mem_nhds h).mono fun t ht h' => lt_asymm ht h')
      · exact Or.inl ((gt_mem_nhds h).mono fun t ht => ht)
  rcases A with A | A
  · rcases B with B | B
    · exact Or.inl (A.and B)
    · exact Or.inr (B.mono fun t h h' => h h'.2)
  · exact Or.inr (A.mono fun t h h' => h h'.1)

/-- The gradients of `clogs_ensemble` with a given bandwidth that are right: with respect to the observation, off the
bounds, whether they are finite or not; with respect to a member, unless the score is the censored one and both bounds
are infinite; and with respect to the bandwidth, if both bounds are finite. -/
theorem C132_clogs_partial (y : ℝ) {xs : List ℝ} {h : ℝ} (hh : 0 < h) {a b : XF} (hab : a < b) (cens : Bool) {k : ℕ}
    (hk : k < xs.length) :
    (a ≠ fin y → b ≠ fin y → IsGradient (fun t => clogsOf t (xs.map fin) a b (fin h) cens) y
      (Grad.clogsEnsemble (leaf (fin y)) (consts (xs.map fin)) (const a) (const b) (const (fin h)) cens).grad) ∧
    ((cens = true → a ≠ ninf ∨ b ≠ pinf) →
      IsGradient (fun t => clogsOf (fin y) ((xs.map fin).set k t) a b (fin h) cens) xs[k]
        (Grad.clogsEnsemble (const (fin y)) (leafAt k (xs.map fin)) (const a) (const b) (const (fin h)) cens).grad) ∧
    ((∃ r r', a = fin r ∧ b = fin r') →
      IsGradient (fun t => clogsOf (fin y) (xs.map fin) a b t cens) h
        (Grad.clogsEnsemble (const (fin y)) (consts (xs.map fin)) (const a) (const b) (leaf (fin h)) cens).grad) := by
  have hx : xs ≠ [] := List.ne_nil_of_length_pos (by omega)
  have hn : xs.length ≠ 0 := by simpa using hx
  have ha : a ≠ nan := by rintro rfl; exact hab
  have hb : b ≠ nan := by rintro rfl; cases a <;> exact hab
  have lc : (consts (xs.map fin)).length = xs.length := by simp [consts]
  have ll : ∀ t : ℝ, (leafAt k ((xs.map fin).set k (fin t))).length = xs.length := by intro t; simp [leafAt]
  have nc : consts (xs.map fin) ≠ [] := by simpa [consts] using hx
  have side : ∀ θ : ℝ, (∀ᶠ _ in 𝓝 θ, a < fin y ∧ fin y < b) ∨ ∀ᶠ _ in 𝓝 θ, ¬ (a < fin y ∧ fin y < b) := by
    intro θ
    by_cases h : a < fin y ∧ fin y < b
    · exact Or.inl (Eventually.of_forall fun _ => h)
    · exact Or.inr (Eventually.of_forall fun _ => h)
  refine ⟨fun h1 h2 => ?_, fun hc => ?_, fun hf => ?_⟩
  · by_cases hd : cens = true ∧ a = ninf ∧ b = pinf
    · obtain ⟨rfl, rfl, rfl⟩ := hd
      obtain ⟨g, hT⟩ := Tr.clogs_default (θ := y) hn (fun i => xs.getD i 0) hh
      rw [← consts_eq] at hT
      refine hT.isGradient fun t => ?_
      rw [clogsEnsemble_val _ nc, consts_val]; rfl
    · obtain ⟨g, hT⟩ := Tr.clogs hn hab (Tr.leaf (θ := y)) (consts_tr xs rfl y) (Tr.const h) hh
        (Or.inr fun _ => rfl) (side_eventually ha hb h1 h2) cens fun hc => by
          by_contra hq
          push Not at hq
          exact hd ⟨hc, hq⟩
      simp only [nget_all lc] at hT
      refine hT.isGradient fun t => ?_
      rw [clogsEnsemble_val _ nc, consts_val]; rfl
  · obtain ⟨g, hT⟩ := Tr.clogs hn hab (Tr.const (θ := xs[k]) y) (leafAt_tr xs rfl k xs[k]) (Tr.const h) hh
      (Or.inr fun _ => rfl) (side _) cens hc
    simp only [nget_all (ll _)] at hT
    have h' := hT.isGradient (score := fun t => clogsOf (fin y) ((xs.map fin).set k t) a b (fin h) cens) fun t => by
      rw [clogsEnsemble_val _ (by rw [← List.length_pos_iff, ll]; omega), leafAt_val]; rfl
    rwa [set_self] at h'
  · obtain ⟨g, hT⟩ := Tr.clogs hn hab (Tr.const (θ := h) y) (consts_tr xs rfl h) Tr.leaf hh (Or.inl hf) (side _) cens
      fun _ => Or.inl (by obtain ⟨r, r', rfl, -⟩ := hf; simp)
    simp only [nget_all lc] at hT
    refine hT.isGradient fun t => ?_
    rw [clogsEnsemble_val _ nc, consts_val]; rfl

example : ∃ (y : ℝ) (xs : List ℝ) (h : ℝ) (a b : XF), 0 < h ∧ a < b ∧ 1 < xs.length ∧ a ≠ fin y ∧ b ≠ fin y ∧
    (a ≠ ninf ∨ b ≠ pinf) ∧ (∃ r r', a = fin r ∧ b = fin r') :=
  ⟨1 / 2, [0, 1, 3], 1, fin 0, fin 1, by norm_num, by simp, by simp, by simp, by simp, by simp, 0, 1, rfl, rfl⟩

/-! ### infinite bounds -/

theorem clogsOf_fin {xs : List ℝ} (hx : xs ≠ []) {h : ℝ} (hh : 0 < h) (y : ℝ) {a b : XF} (ha : a ≠ nan) (hb : b ≠ nan)
    (cens : Bool) : clogsOf (fin y) (xs.map fin) a b (fin h) cens
      = if cens then Spec.censLik (Spec.kdeDens xs h) (Spec.kdeCdf xs h) a b y
        else Spec.condLik (Spec.kdeDens xs h) (Spec.kdeCdf xs h) a b y := by
  unfold clogsOf
  rw [single_clogs _ (by simpa using hx), ← clogs1_fin hx hh y ha hb, List.map_map]
  rfl

theorem logsOf_fin {xs : List ℝ} (hx : xs ≠ []) {h : ℝ} (hh : 0 < h) (y : ℝ) :
    logsOf (fin y) (xs.map fin) (fin h) = Spec.negLog (Spec.kdeDens xs h y) := by
  have hM : (xs.length : ℝ) ≠ 0 := by simpa using hx
  unfold logsOf
  rw [single_logs _ (by simpa using hx)]
  have e1 : xs.map fin = (xs.map fun x => (x, h, 1 / (xs.length : ℝ))).map fun p => fin p.1 := by
    rw [List.map_map]; rfl
  have e2 : List.replicate (xs.map fin).length (fin h)
      = (xs.map fun x => (x, h, 1 / (xs.length : ℝ))).map fun p => fin p.2.1 := by
    simp [Function.comp_def]
  have e3 : List.replicate (xs.map fin).length (1 / ((xs.map fin).length : XF))
      = (xs.map fun x => (x, h, 1 / (xs.length : ℝ))).map fun p => fin p.2.2 := by
    rw [List.length_map, natCast_fin, one_def, fin_div hM]
    simp [Function.comp_def]
  rw [e2, e3, e1, mixnorm_prob _ _ (by simpa using fun x _ => hh)]
  have e4 : Spec.densMix (xs.map fun x => (x, h, 1 / (xs.length : ℝ))) y = Spec.kdeDens xs h y := by
    simp only [Spec.densMix, Spec.kdeDens, Spec.avg, List.map_map, Function.comp_def, List.length_map]
    rw [sum_map_mul_left']; ring
  rw [e4, log_fin_nonneg (kdeDens_pos hx hh y).le]

/-- with the default bounds `clogs_ensemble` is `logs_ensemble` -/
theorem clogsOf_default {xs : List ℝ} (hx : xs ≠ []) {h : ℝ} (hh : 0 < h) (y : ℝ) (cens : Bool) :
    clogsOf (fin y) (xs.map fin) ninf pinf (fin h) cens = logsOf (fin y) (xs.map fin) (fin h) := by
  rw [clogsOf_fin hx hh y (by simp) (by simp), logsOf_fin hx hh]
  cases cens <;> simp [Spec.condLik, Spec.censLik, Spec.cdfAt]

theorem Spec.IsGradient.congrEv {s s' : XF → XF} {θ : ℝ} {g : XF} (h : IsGradient s θ g)
    (e : ∀ᶠ t in 𝓝 θ, s' (fin t) = s (fin t)) : IsGradient s' θ g := by
  obtain ⟨f, d, hv, hd, hg⟩ := h
  exact ⟨f, d, by filter_upwards [hv, e] with t h1 h2; rw [h2, h1], hd, hg⟩

theorem listSum_diff {ι : Type} (l : List ι) {f : ι → ℝ → ℝ} {θ : ℝ} (h : ∀ i ∈ l, DifferentiableAt ℝ (f i) θ) :
    DifferentiableAt ℝ (fun t => (l.map fun i => f i t).sum) θ := by
  induction l with
  | nil => simp
  | cons i l ih =>
    simp only [List.map_cons, List.sum_cons]
    exact (h i (by simp)).add (ih fun j hj => h j (by simp [hj]))

theorem kdeDens_diff (xs : List ℝ) {h : ℝ} (hh : h ≠ 0) (y : ℝ) :
    DifferentiableAt ℝ (fun t => Spec.kdeDens xs t y) h := by
  unfold Spec.kdeDens Spec.avg Spec.densNormal
  simp only [List.length_map]
  refine (listSum_diff xs fun x _ => ?_).div_const _
  exact (((φ_deriv _).differentiableAt).comp h ((differentiableAt_const (y - x)).div differentiableAt_id hh)).div
    differentiableAt_id hh

theorem kdeCdf_diff (xs : List ℝ) {h : ℝ} (hh : h ≠ 0) (a : XF) :
    DifferentiableAt ℝ (fun t => Spec.cdfAt (Spec.kdeCdf xs t) a) h := by
  cases a with
  | fin a =>
    unfold Spec.cdfAt Spec.kdeCdf Spec.avg Spec.cdfNormal
    simp only [List.length_map]
    refine (listSum_diff xs fun x _ => ?_).div_const _
    exact ((Φ_deriv _).differentiableAt).comp h ((differentiableAt_const (a - x)).div differentiableAt_id hh)
  | _ => exact differentiableAt_const _

/-- `clogs_ensemble` has a derivative with respect to the bandwidth -/
theorem clogs_bw_hasGradient {xs : List ℝ} (hx : xs ≠ []) {h : ℝ} (hh : 0 < h) (y : ℝ) {a b : XF} (ha : a ≠ nan)
    (hb : b ≠ nan) (cens : Bool) : HasGradient (fun t => clogsOf (fin y) (xs.map fin) a b t cens) h := by
  have hd := kdeDens_diff xs hh.ne' y
  have hc := (kdeCdf_diff xs hh.ne' b).sub (kdeCdf_diff xs hh.ne' a)
  have hp := kdeDens_pos hx hh y
  by_cases hw : a < fin y ∧ fin y < b
  · have hcp := cons_pos hx hh hw.1 hw.2
    cases cens with
    | true =>
      refine hasGradient_of (f := fun t => -Real.log (Spec.kdeDens xs t y)) ?_ (hd.log hp.ne').neg
      filter_upwards [lt_mem_nhds hh] with t ht
      rw [clogsOf_fin hx ht y ha hb, if_pos rfl, Spec.censLik, if_pos hw, Spec.negLog,
        if_neg (kdeDens_pos hx ht y).ne']
    | false =>
      refine hasGradient_of (f := fun t => -Real.log (Spec.kdeDens xs t y
        / (Spec.cdfAt (Spec.kdeCdf xs t) b - Spec.cdfAt (Spec.kdeCdf xs t) a))) ?_
        ((hd.div hc hcp.ne').log (div_pos hp hcp).ne').neg
      filter_upwards [lt_mem_nhds hh] with t ht
      rw [clogsOf_fin hx ht y ha hb, if_neg Bool.false_ne_true, Spec.condLik, if_pos hw, Spec.negLog,
        if_neg (div_pos (kdeDens_pos hx ht y) (cons_pos hx ht hw.1 hw.2)).ne']
  · cases cens with
    | true =>
      have h1 : ∀ t, 0 < 1 - (Spec.cdfAt (Spec.kdeCdf xs t) b - Spec.cdfAt (Spec.kdeCdf xs t) a) := fun t => by
        have := cons_lt_one hx (h := t) ha hb hw
        linarith
      refine hasGradient_of (f := fun t => -Real.log (1 - (Spec.cdfAt (Spec.kdeCdf xs t) b
        - Spec.cdfAt (Spec.kdeCdf xs t) a))) ?_ ((hc.const_sub 1).log (h1 h).ne').neg
      filter_upwards [lt_mem_nhds hh] with t ht
      rw [clogsOf_fin hx ht y ha hb, if_pos rfl, Spec.censLik, if_neg hw, Spec.negLog, if_neg (h1 t).ne']
    | false =>
      refine hasGradient_of (f := fun _ => 0) ?_ (differentiableAt_const _)
      filter_upwards [lt_mem_nhds hh] with t ht
      rw [clogsOf_fin hx ht y ha hb, if_neg Bool.false_ne_true, Spec.condLik, if_neg hw]

/-- With the default bounds (and the default `cens=True`) the gradient of `clogs_ensemble` with respect to every member
is NaN, however the bandwidth was computed.  With a given bandwidth the score has a derivative there: the gradient that
`logs_ensemble` returns. -/
theorem C132_clogs_false (y : ℝ) {xs : List ℝ} {k : ℕ} (hk : k < xs.length) {h : ℝ} (hh : 0 < h) :
    (∀ bw : Node, bw.val = fin h →
      (Grad.clogsEnsemble (const (fin y)) (leafAt k (xs.map fin)) (const ninf) (const pinf) bw true).grad = nan) ∧
    IsGradient (fun t => clogsOf (fin y) ((xs.map fin).set k t) ninf pinf (fin h) true) xs[k]
      (Grad.logsEnsemble (const (fin y)) (leafAt k (xs.map fin)) (const (fin h))).grad := by
  constructor
  · intro bw hbw
    have hm : leaf (fin xs[k]) ∈ leafAt k (xs.map fin) := by
      refine List.mem_iff_getElem.2 ⟨k, by simpa [leafAt] using hk, ?_⟩
      simp [leafAt]
    refine clogs_default_bad hm hh hbw (fun x hx => ?_) (fun c => ?_) (r := y) rfl
    · have : x.val ∈ (leafAt k (xs.map fin)).map Node.val := List.mem_map_of_mem hx
      rw [leafAt_val] at this
      obtain ⟨r, -, hr⟩ := List.mem_map.1 this
      exact ⟨r, hr.symm⟩
    · rw [div_back, sub_back, const_back, leaf_back, nan_div, neg_nan, add_nan, nan_add]
  · refine (C132_logs_ensemble y hh hk).2.1.congrEv (Eventually.of_forall fun t => ?_)
    have e : (xs.map fin).set k (fin t) = (xs.set k t).map fin := by rw [List.map_set]
    simp only [e]
    exact clogsOf_default (by rw [← List.length_pos_iff, List.length_set]; omega) hh y true

example : ∃ (xs : List ℝ) (k : ℕ) (h : ℝ), k < xs.length ∧ 0 < h := ⟨[0, 1, 3], 2, 1 / 2, by simp, by norm_num⟩

/-- With an infinite bound the gradient of `clogs_ensemble` with respect to the bandwidth is NaN, for the censored and
the conditional score, although the score has a derivative there. -/
theorem C132_clogs_bandwidth_false (y : ℝ) {xs : List ℝ} (hx : xs ≠ []) {h : ℝ} (hh : 0 < h) {a b : XF} (hab : a < b)
    (hi : a = ninf ∨ b = pinf) (cens : Bool) :
    HasGradient (fun t => clogsOf (fin y) (xs.map fin) a b t cens) h ∧
    (Grad.clogsEnsemble (const (fin y)) (consts (xs.map fin)) (const a) (const b) (leaf (fin h)) cens).grad = nan ∧
    ¬ IsGradient (fun t => clogsOf (fin y) (xs.map fin) a b t cens) h
      (Grad.clogsEnsemble (const (fin y)) (consts (xs.map fin)) (const a) (const b) (leaf (fin h)) cens).grad := by
  have ha : a ≠ nan := by rintro rfl; exact hab
  have hb : b ≠ nan := by rintro rfl; cases a <;> exact hab
  have hbad := clogs_bw_bad (y := const (fin y)) hx hh (a := a) (b := b) (hi.imp Or.inl Or.inr) cens
  exact ⟨clogs_bw_hasGradient hx hh y ha hb cens, hbad, by rw [hbad]; exact not_isGradient_nan _ _⟩

example : ∃ (xs : List ℝ) (h : ℝ) (a b : XF), xs ≠ [] ∧ 0 < h ∧ a < b ∧ (a = ninf ∨ b = pinf) :=
  ⟨[0, 1, 3], 1 / 2, fin 1, pinf, by simp, by norm_num, by simp, Or.inr rfl⟩

/-- If the region is empty because the bounds are equal, the conditional score is 0 for every observation and ensemble,
and its gradients with respect to the members and the bandwidth are NaN instead of 0. -/
theorem C132_clogs_empty_false (y a : ℝ) {xs : List ℝ} {k : ℕ} (hk : k < xs.length) {h : ℝ} (hh : 0 < h) :
    IsGradient (fun t => clogsOf (fin y) ((xs.map fin).set k t) (fin a) (fin a) (fin h) false) xs[k] (fin 0) ∧
    (Grad.clogsEnsemble (const (fin y)) (leafAt k (xs.map fin)) (const (fin a)) (const (fin a)) (const (fin h)) false).grad
      = nan ∧
    IsGradient (fun t => clogsOf (fin y) (xs.map fin) (fin a) (fin a) t false) h (fin 0) ∧
    (Grad.clogsEnsemble (const (fin y)) (consts (xs.map fin)) (const (fin a)) (const (fin a)) (leaf (fin h)) false).grad
      = nan := by
  have hx : xs ≠ [] := List.ne_nil_of_length_pos (by omega)
  have hw : ¬ (fin a < fin y ∧ fin y < fin a) := by
    rw [fin_lt, fin_lt]; exact fun h => lt_asymm h.1 h.2
  have hv : ∀ (v : List ℝ) (t : ℝ), v ≠ [] → 0 < t → clogsOf (fin y) (v.map fin) (fin a) (fin a) (fin t) false = fin 0 := by
    intro v t hv ht
    rw [clogsOf_fin hv ht y (by simp) (by simp), if_neg Bool.false_ne_true, Spec.condLik, if_neg hw]
  refine ⟨⟨fun _ => 0, 0, Eventually.of_forall fun t => ?_, hasDerivAt_const _ _, rfl⟩, ?_,
    ⟨fun _ => 0, 0, ?_, hasDerivAt_const _ _, rfl⟩, ?_⟩
  · have e : (xs.map fin).set k (fin t) = (xs.set k t).map fin := by rw [List.map_set]
    simp only [e]
    exact hv _ h (by rw [← List.length_pos_iff, List.length_set]; omega) hh
  · have hm : leaf (fin xs[k]) ∈ leafAt k (xs.map fin) := by
      refine List.mem_iff_getElem.2 ⟨k, by simpa [leafAt] using hk, ?_⟩
      simp [leafAt]
    refine clogs_empty_bad hm hh rfl (fun x hx => ?_) (fun c => ?_) (r := y) rfl
    · have : x.val ∈ (leafAt k (xs.map fin)).map Node.val := List.mem_map_of_mem hx
      rw [leafAt_val] at this
      obtain ⟨r, -, hr⟩ := List.mem_map.1 this
      exact ⟨r, hr.symm⟩
    · rw [div_back, sub_back, const_back, leaf_back, nan_div, neg_nan, add_nan, nan_add]
  · filter_upwards [lt_mem_nhds hh] with t ht
    exact hv xs t hx ht
  · obtain ⟨x, hx⟩ := List.exists_mem_of_ne_nil xs hx
    have hm : const (fin x) ∈ consts (xs.map fin) := by
      unfold consts
      exact List.mem_map_of_mem (List.mem_map_of_mem hx)
    refine clogs_empty_bad hm hh rfl (fun x hx => ?_) (fun c => ?_) (r := y) rfl
    · have : x.val ∈ (consts (xs.map fin)).map Node.val := List.mem_map_of_mem hx
      rw [consts_val] at this
      obtain ⟨r, -, hr⟩ := List.mem_map.1 this
      exact ⟨r, hr.symm⟩
    · rw [div_back, leaf_back, neg_nan, nan_mul, add_nan]

example : ∃ (xs : List ℝ) (k : ℕ) (h : ℝ), k < xs.length ∧ 0 < h := ⟨[0, 1, 3], 2, 1 / 2, by simp, by norm_num⟩

end Verif
