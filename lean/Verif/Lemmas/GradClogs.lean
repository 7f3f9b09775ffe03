import Verif.Lemmas.GradTail
import Verif.Lemmas.GradEns
import Verif.Model.GradClogs
import Verif.Spec.Single
import Verif.Props.LogsEns

/-!
# Gradients of the logarithmic scores of ensembles
-/

noncomputable section

open scoped Classical Topology

namespace Verif

open XF Py Mv Node Filter Grad
open Spec (IsGradient HasGradient φ Φ single)

theorem zipWith_range {α β γ : Type} (f : α → β → γ) (n : ℕ) (A : ℕ → α) (B : ℕ → β) :
    List.zipWith f ((List.range n).map A) ((List.range n).map B) = (List.range n).map fun i => f (A i) (B i) := by
  rw [List.zipWith_map, List.zipWith_self]

theorem map_val_zipWith (f : Node → Node → Node) (F : XF → XF → XF) (h : ∀ a b, (f a b).val = F a.val b.val)
    (l l' : List Node) :
    (List.zipWith f l l').map Node.val = List.zipWith F (l.map Node.val) (l'.map Node.val) := by
  rw [List.map_zipWith, List.zipWith_map]
  simp only [h]

theorem logsMixnorm_val (y : Node) (m s w : List Node) : (Grad.logsMixnorm y m s w).val
    = Logs.mixnorm y.val (m.map Node.val) (s.map Node.val) (w.map Node.val) := by
  unfold Grad.logsMixnorm Logs.mixnorm Py.zip2
  simp only [neg_val, log_val, sum_val]
  rw [map_val_zipWith (· * ·) (· * ·) fun _ _ => rfl,
    map_val_zipWith _ (fun zi si => Stats.normPdf zi / si) fun _ _ => rfl,
    map_val_zipWith _ (fun mi si => (y.val - mi) / si) fun _ _ => rfl]

theorem nmean_val (l : List Node) : (nmean l).val = mean (l.map Node.val) := by
  unfold nmean mean
  rw [div_val, sum_val, const_val, List.length_map]

theorem clogs_val (y : Node) (fct : List Node) (a b bw : Node) (cens : Bool) :
    (Grad.clogsEnsemble y fct a b bw cens).val
      = LogsEns.clogs1 y.val a.val b.val ((fct.map Node.val).map fun x => (x, bw.val)) cens := by
  unfold Grad.clogsEnsemble LogsEns.clogs1
  cases cens
  · simp only [Bool.false_eq_true, if_false, sel_val, neg_val, log_val, nmean_val, add_val, sub_val, const_val,
      List.map_map, Function.comp_def]
    rfl
  · simp only [if_true, sel_val, neg_val, log_val, nmean_val, add_val, sub_val, const_val,
      List.map_map, Function.comp_def]
    rfl

namespace Tr

variable {N N' : ℝ → Node} {f f' : ℝ → ℝ} {θ : ℝ}

theorem sel_pos' (h : Tr N f θ) {c : ℝ → Prop} (hc : ∀ᶠ t in 𝓝 θ, c t) (h' : Tr N' f' θ) :
    Tr (fun t => Node.sel (c t) (N t) (N' t)) f θ := h.sel_pos hc h'.back_zero

theorem sel_neg' (h : Tr N f θ) {c : ℝ → Prop} (hc : ∀ᶠ t in 𝓝 θ, ¬ c t) (h' : Tr N' f' θ) :
    Tr (fun t => Node.sel (c t) (N' t) (N t)) f θ := h.sel_neg hc h'.back_zero

theorem nmean {ι : Type} (l : List ι) (hl : l ≠ []) {N : ι → ℝ → Node} {f : ι → ℝ → ℝ}
    (h : ∀ i ∈ l, Tr (N i) (f i) θ) :
    Tr (fun t => Grad.nmean (l.map fun i => N i t)) (fun t => (l.map fun i => f i t).sum / l.length) θ := by
  have hM : (l.length : ℝ) ≠ 0 := by
    have := List.length_pos_of_ne_nil hl
    exact_mod_cast this.ne'
  refine ((Tr.sum l h).div (Tr.const (l.length : ℝ)) hM).congrN fun t => ?_
  unfold Grad.nmean
  rw [List.length_map, natCast_fin]

/-- the normal distribution function at a bound that may be infinite; at an infinite bound the bandwidth is constant -/
theorem cdfBound {a : XF} (ha : a ≠ nan) {X H : ℝ → Node} {x h : ℝ → ℝ} (hX : Tr X x θ) (hH : Tr H h θ)
    (h0 : 0 < h θ) (hi : (∃ r, a = fin r) ∨ ∀ t, H t = Node.const (fin (h t))) :
    Tr (fun t => Grad.normCdf ((Node.const a - X t) / H t)) (fun t => ext Φ a (x t) (h t)) θ := by
  have hp := hH.cont.eventually_const_lt h0
  have key : ∀ c : ℝ, (a = pinf ∧ c = 1) ∨ (a = ninf ∧ c = 0) →
      Tr (fun t => Grad.normCdf ((Node.const a - X t) / H t)) (fun _ => c) θ := by
    intro c hc
    have hH' : ∀ t, H t = Node.const (fin (h t)) := by
      rcases hi with ⟨r, hr⟩ | hi
      · rcases hc with ⟨h, -⟩ | ⟨h, -⟩ <;> rw [h] at hr <;> cases hr
      · exact hi
    have h2 : (0 : ℝ) < Real.sqrt 2 := Real.sqrt_pos.2 two_pos
    refine ⟨?_, 0, hasDerivAt_const _ _, fun g => ?_⟩
    · filter_upwards [hX.1, hp] with t ht hpt
      show Stats.normCdf ((a - (X t).val) / (H t).val) = _
      rw [ht, hH' t, const_val]
      rcases hc with ⟨rfl, rfl⟩ | ⟨rfl, rfl⟩
      · rw [sub_fin_div_pinf hpt, normCdf_pinf]
      · rw [sub_fin_div_ninf hpt, normCdf_ninf]
    · have hv : ((Node.const a - X θ) / H θ).val = a := by
        rw [div_val, sub_val, const_val, hX.val, hH.val]
        rcases hc with ⟨rfl, rfl⟩ | ⟨rfl, rfl⟩
        · rw [sub_fin_div_pinf h0]
        · rw [sub_fin_div_ninf h0]
      have he : (2 : XF) / XF.sqrt XF.pi * XF.exp (-((a / XF.sqrt 2) ^ 2)) = fin 0 := by
        have hpi : 0 < Real.sqrt Real.pi := Real.sqrt_pos.2 Real.pi_pos
        rw [XF.pi, fin_sqrt Real.pi_pos.le, ofNat_def, fin_div hpi.ne', ← ofNat_def, sqrt2_fin]
        rcases hc with ⟨rfl, rfl⟩ | ⟨rfl, rfl⟩ <;> rw [pow_two]
        · rw [pinf_div_pos h2]; simp [mul_def, XF.mul, neg_def, XF.neg, XF.exp]
        · rw [ninf_div_pos h2]; simp [mul_def, XF.mul, neg_def, XF.neg, XF.exp]
      have hb : (Grad.normCdf ((Node.const a - X θ) / H θ)).back (fin g)
          = (0 + (((Node.const a - X θ) / H θ).back (fin g / 2 * (2 / XF.sqrt XF.pi
            * XF.exp (-((((Node.const a - X θ) / H θ).val / XF.sqrt 2) ^ 2))) / XF.sqrt 2) + 0)) + 0 := rfl
      rw [hb, hv, he, sqrt2_fin, ofNat_def, fin_div two_ne_zero, fin_mul, fin_div h2.ne', mul_zero, zero_div,
        div_back, hH' θ, const_back, const_val, fin_div h0.ne', sub_back, const_back, zero_div, fin_neg, neg_zero,
        hX.back_zero, zero_def]
      simp only [fin_add, add_zero, mul_zero]
  cases a with
  | nan => exact (ha rfl).elim
  | pinf => exact key 1 (Or.inl ⟨rfl, rfl⟩)
  | ninf => exact key 0 (Or.inr ⟨rfl, rfl⟩)
  | fin r => exact (((Tr.const r).sub hX).div hH h0.ne').normCdf

end Tr

theorem exists_between_bounds {a b : XF} (h : a < b) : ∃ y : ℝ, a < fin y ∧ fin y < b := by
  cases a <;> cases b <;> try exact h.elim
  · exact ⟨0, trivial, trivial⟩
  · rename_i b; exact ⟨b - 1, trivial, by rw [fin_lt]; linarith⟩
  · rename_i a; exact ⟨a + 1, by rw [fin_lt]; linarith, trivial⟩
  · rename_i a b
    have h : a < b := h
    exact ⟨(a + b) / 2, by rw [fin_lt]; linarith, by rw [fin_lt]; linarith⟩

/-- the mean over the members of the normal distribution function at a bound -/
def cdfMean (a : XF) (n : ℕ) (x : ℕ → ℝ → ℝ) (h : ℝ → ℝ) (t : ℝ) : ℝ :=
  ((List.range n).map fun i => ext Φ a (x i t) (h t)).sum / (List.range n).length

theorem cdfMean_lt {a b : XF} (hab : a < b) {n : ℕ} (hn : n ≠ 0) (x : ℕ → ℝ → ℝ) (h : ℝ → ℝ) {t : ℝ} (h0 : 0 < h t) :
    cdfMean a n x h t < cdfMean b n x h t := by
  obtain ⟨y, h1, h2⟩ := exists_between_bounds hab
  unfold cdfMean
  rw [div_lt_div_iff_of_pos_right (by rw [List.length_range]; exact_mod_cast Nat.pos_of_ne_zero hn)]
  exact List.sum_lt_sum_of_ne_nil (by simpa using hn) _ _ fun i _ =>
    ext_lt Φ_strictMono Φ_pos Φ_lt_one h1 h2 _ h0

theorem cdfMean_one {n : ℕ} (hn : n ≠ 0) (x : ℕ → ℝ → ℝ) (h : ℝ → ℝ) (t : ℝ) :
    cdfMean pinf n x h t = 1 ∧ cdfMean ninf n x h t = 0 := by
  have hn' : (n : ℝ) ≠ 0 := by exact_mod_cast hn
  unfold cdfMean ext
  simp [hn']

theorem cdfMean_le_one {a : XF} (ha : a ≠ nan) {n : ℕ} (hn : n ≠ 0) (x : ℕ → ℝ → ℝ) (h : ℝ → ℝ) {t : ℝ} (h0 : 0 < h t) :
    0 ≤ cdfMean a n x h t ∧ cdfMean a n x h t ≤ 1 := by
  have h1 := cdfMean_one hn x h t
  cases a with
  | nan => exact (ha rfl).elim
  | pinf => rw [h1.1]; norm_num
  | ninf => rw [h1.2]; norm_num
  | fin a =>
    have A := cdfMean_lt (a := ninf) (b := fin a) trivial hn x h h0
    have B := cdfMean_lt (a := fin a) (b := pinf) trivial hn x h h0
    rw [h1.2] at A
    rw [h1.1] at B
    exact ⟨A.le, B.le⟩

theorem cdfMean_sub_lt_one {a b : XF} (hab : a < b) (hi : a ≠ ninf ∨ b ≠ pinf) {n : ℕ} (hn : n ≠ 0) (x : ℕ → ℝ → ℝ)
    (h : ℝ → ℝ) {t : ℝ} (h0 : 0 < h t) : cdfMean b n x h t - cdfMean a n x h t < 1 := by
  have h1 := cdfMean_one hn x h t
  have ha : a ≠ nan := by rintro rfl; exact hab
  have hb : b ≠ nan := by rintro rfl; cases a <;> exact hab
  have qa := cdfMean_le_one ha hn x h h0
  have qb := cdfMean_le_one hb hn x h h0
  rcases hi with hi | hi
  · cases a with
    | nan => exact hab.elim
    | pinf => cases b <;> exact hab.elim
    | ninf => exact (hi rfl).elim
    | fin a =>
      have A := cdfMean_lt (a := ninf) (b := fin a) trivial hn x h h0
      rw [h1.2] at A
      linarith
  · cases b with
    | nan => exact (hb rfl).elim
    | ninf => cases a <;> exact hab.elim
    | pinf => exact (hi rfl).elim
    | fin b =>
      have A := cdfMean_lt (a := fin b) (b := pinf) trivial hn x h h0
      rw [h1.1] at A
      linarith

/-- `clogs_ensemble` for an observation that is not the leaf or stays on its side of the bounds -/
theorem Tr.clogs {θ : ℝ} {n : ℕ} (hn : n ≠ 0) {a b : XF} (hab : a < b) {Y H : ℝ → Node} {X : ℕ → ℝ → Node} {y h : ℝ → ℝ}
    {x : ℕ → ℝ → ℝ} (hY : Tr Y y θ) (hX : ∀ i ∈ List.range n, Tr (X i) (x i) θ) (hH : Tr H h θ) (h0 : 0 < h θ)
    (hi : (∃ r r', a = fin r ∧ b = fin r') ∨ ∀ t, H t = Node.const (fin (h t)))
    (hw : (∀ᶠ t in 𝓝 θ, a < (Y t).val ∧ (Y t).val < b) ∨ ∀ᶠ t in 𝓝 θ, ¬ (a < (Y t).val ∧ (Y t).val < b))
    (cens : Bool) (hc : cens = true → (a ≠ ninf ∨ b ≠ pinf)) :
    ∃ g, Tr (fun t => Grad.clogsEnsemble (Y t) ((List.range n).map fun i => X i t) (Node.const a) (Node.const b) (H t)
      cens) g θ := by
  have ha : a ≠ nan := by rintro rfl; exact hab
  have hb : b ≠ nan := by rintro rfl; cases a <;> exact hab
  have hl : List.range n ≠ [] := by simpa using hn
  have hd := Tr.nmean (List.range n) hl fun i hm => (((hY.sub (hX i hm)).div hH h0.ne').normPdf).div hH h0.ne'
  have hdp : 0 < ((List.range n).map fun i => φ ((y θ - x i θ) / h θ) / h θ).sum / (List.range n).length := by
    refine div_pos (List.sum_pos _ (fun z hz => ?_) (by simpa using hn)) (by
      rw [List.length_range]; exact_mod_cast Nat.pos_of_ne_zero hn)
    obtain ⟨i, -, rfl⟩ := List.mem_map.1 hz
    exact div_pos (φ_pos _) h0
  have s1 := (hd.log hdp).neg
  have Fa : Tr _ (cdfMean a n x h) θ := Tr.nmean (List.range n) hl fun i hm => Tr.cdfBound ha (hX i hm) hH h0
    (hi.imp_left fun ⟨r, r', h, h'⟩ => ⟨r, h⟩)
  have Fb : Tr _ (cdfMean b n x h) θ := Tr.nmean (List.range n) hl fun i hm => Tr.cdfBound hb (hX i hm) hH h0
    (hi.imp_left fun ⟨r, r', h, h'⟩ => ⟨r', h'⟩)
  have cons := Fb.sub Fa
  have cp : 0 < cdfMean b n x h θ - cdfMean a n x h θ := sub_pos.2 (cdfMean_lt hab hn x h h0)
  cases cens with
  | true =>
    have c1 := cdfMean_sub_lt_one hab (hc rfl) hn x h h0
    have s2 := ((Tr.one.sub cons).log (sub_pos.2 c1)).neg
    rcases hw with hw | hw
    · refine ⟨_, (s1.sel_pos' hw s2).congrN fun t => ?_⟩
      unfold Grad.clogsEnsemble
      simp only [if_true, List.map_map, Function.comp_def, const_val]
    · refine ⟨_, (s2.sel_neg' hw s1).congrN fun t => ?_⟩
      unfold Grad.clogsEnsemble
      simp only [if_true, List.map_map, Function.comp_def, const_val]
  | false =>
    have s2 := s1.add (cons.log cp)
    rcases hw with hw | hw
    · refine ⟨_, (s2.sel_pos hw (M := fun _ => Node.const 0) rfl).congrN fun t => ?_⟩
      unfold Grad.clogsEnsemble
      simp only [Bool.false_eq_true, if_false, List.map_map, Function.comp_def, const_val]
    · refine ⟨_, (Tr.zero.sel_neg' hw s2).congrN fun t => ?_⟩
      unfold Grad.clogsEnsemble
      simp only [Bool.false_eq_true, if_false, List.map_map, Function.comp_def, const_val]

namespace NoGrad

theorem sum {l : List Node} (h : ∀ n ∈ l, NoGrad n) : NoGrad (Node.sum l) := by
  intro g
  rw [sum_back, ← zero_def]
  refine List.sum_eq_zero fun x hx => ?_
  obtain ⟨n, hn, rfl⟩ := List.mem_map.1 hx
  exact h n hn g

theorem normCdf {a : Node} (ha : NoGrad a) : NoGrad (Grad.normCdf a) :=
  ((const _).add (b := Node.erf (a / Node.const (XF.sqrt 2))) fun _ => (ha.div (const _)) _).div (const _)

theorem nmean {l : List Node} (h : ∀ n ∈ l, NoGrad n) : NoGrad (Grad.nmean l) := (sum h).div (const _)

end NoGrad

/-- `clogs_ensemble` as a function of the observation, with the default bounds -/
theorem Tr.clogs_default {θ : ℝ} {n : ℕ} (hn : n ≠ 0) (x : ℕ → ℝ) {h : ℝ} (h0 : 0 < h) :
    ∃ g, Tr (fun t => Grad.clogsEnsemble (Node.leaf (fin t)) ((List.range n).map fun i => Node.const (fin (x i)))
      (Node.const ninf) (Node.const pinf) (Node.const (fin h)) true) g θ := by
  have hl : List.range n ≠ [] := by simpa using hn
  have hd := Tr.nmean (List.range n) hl fun i _ => (((Tr.leaf (θ := θ).sub (Tr.const (x i))).div (Tr.const h) h0.ne').normPdf).div
    (Tr.const h) h0.ne'
  have hdp : 0 < ((List.range n).map fun i => φ ((θ - x i) / h) / h).sum / (List.range n).length := by
    refine div_pos (List.sum_pos _ (fun z hz => ?_) (by simpa using hn)) (by
      rw [List.length_range]; exact_mod_cast Nat.pos_of_ne_zero hn)
    obtain ⟨i, -, rfl⟩ := List.mem_map.1 hz
    exact div_pos (φ_pos _) h0
  have s1 := (hd.log hdp).neg
  have F : ∀ c : XF, NoGrad (Grad.nmean ((List.range n).map fun i =>
      Grad.normCdf ((Node.const c - Node.const (fin (x i))) / Node.const (fin h)))) := fun c => NoGrad.nmean fun m hm => by
    obtain ⟨i, -, rfl⟩ := List.mem_map.1 hm
    exact NoGrad.normCdf (((NoGrad.const _).sub (NoGrad.const _)).div (NoGrad.const _))
  have s2 := (((NoGrad.const 1).sub ((F pinf).sub (F ninf))).log).neg
  refine ⟨_, (s1.sel_pos (c := fun t => ninf < fin t ∧ fin t < pinf)
    (Eventually.of_forall fun t => ⟨(trivial : True), (trivial : True)⟩) (M := fun _ => _) (s2 (fin 0))).congrN fun t => ?_⟩
  unfold Grad.clogsEnsemble
  simp only [if_true, List.map_map, Function.comp_def, const_val]
  rfl

/-! ### NaN -/

theorem sel_back_pos {c : Prop} (hc : c) (a b : Node) (g : XF) : (Node.sel c a b).back g = a.back g + b.back 0 := by
  show a.back (if c then g else 0) + b.back (if c then 0 else g) = _
  rw [if_pos hc, if_pos hc]

theorem sel_back_neg {c : Prop} (hc : ¬ c) (a b : Node) (g : XF) : (Node.sel c a b).back g = a.back 0 + b.back g := by
  show a.back (if c then g else 0) + b.back (if c then 0 else g) = _
  rw [if_neg hc, if_neg hc]

theorem sum_back_nan {l : List Node} {n : Node} (hn : n ∈ l) (g : XF) (h : n.back g = nan) :
    (Node.sum l).back g = nan := by
  show (l.map fun n => n.back g).sum = nan
  induction l with
  | nil => simp at hn
  | cons x l ih =>
    rw [List.map_cons, List.sum_cons]
    rcases List.mem_cons.1 hn with rfl | hm
    · rw [h, nan_add]
    · rw [ih hm, add_nan]

theorem nmean_back_nan {l : List Node} {n : Node} (hn : n ∈ l) (h : n.back nan = nan) :
    (Grad.nmean l).back nan = nan := by
  unfold Grad.nmean
  rw [div_back, nan_div, sum_back_nan hn nan h, nan_add]

theorem Bad.nmean {l : List Node} {n : Node} (hn : n ∈ l) (h : Bad n) : Bad (Grad.nmean l) :=
  Bad.div_left (Bad.sum hn h)

theorem normCdf_back_nan {u : Node} (h : u.back nan = nan) : (Grad.normCdf u).back nan = nan := by
  have : (Grad.normCdf u).back nan = (0 + (u.back (nan / 2 * (2 / XF.sqrt XF.pi
      * XF.exp (-((u.val / XF.sqrt 2) ^ 2))) / XF.sqrt 2) + 0)) + 0 := rfl
  rw [this, nan_div, nan_mul, nan_div, h]; rfl

/-- a logarithm of 0 that `B.where` does not select -/
theorem log_zero_back {u : Node} (hv : u.val = fin 0) (h : u.back nan = nan) : (Node.log u).back (fin 0) = nan := by
  show u.back (fin 0 / u.val) = nan
  rw [hv, show (fin 0 : XF) / fin 0 = nan from by simp [div_def, XF.div], h]

/-- the distribution functions at the bounds pass NaN on -/
theorem cons_back_nan {fct : List Node} {x : Node} (hx : x ∈ fct) {a b : XF} {bw : Node}
    (h : ∀ c : XF, ((Node.const c - x) / bw).back nan = nan) :
    (Grad.nmean (fct.map fun x => Grad.normCdf ((Node.const b - x) / bw))
      - Grad.nmean (fct.map fun x => Grad.normCdf ((Node.const a - x) / bw))).back nan = nan := by
  rw [sub_back, nmean_back_nan (List.mem_map_of_mem (f := fun x => Grad.normCdf ((Node.const b - x) / bw)) hx)
    (normCdf_back_nan (h b)), nan_add]

/-- with the default bounds the probability of the complement is 0, and the gradient NaN -/
theorem clogs_default_bad {y : Node} {fct : List Node} {x : Node} (hx : x ∈ fct) {bw : Node} {h : ℝ} (h0 : 0 < h)
    (hbw : bw.val = fin h) (hf : ∀ x ∈ fct, ∃ r, x.val = fin r)
    (hl : ∀ c : XF, ((Node.const c - x) / bw).back nan = nan) {r : ℝ} (hy : y.val = fin r) :
    (Grad.clogsEnsemble y fct (Node.const ninf) (Node.const pinf) bw true).grad = nan := by
  have hn : fct ≠ [] := List.ne_nil_of_mem hx
  have hlen : (fct.length : ℝ) ≠ 0 := by simpa using hn
  have hc : ∀ (c : XF) (p : ℝ), (c = pinf ∧ p = 1) ∨ (c = ninf ∧ p = 0) →
      (Grad.nmean (fct.map fun x => Grad.normCdf ((Node.const c - x) / bw))).val = fin p := by
    intro c p hcp
    rw [nmean_val, List.map_map]
    have : ∀ x ∈ fct, (Node.val ∘ fun x => Grad.normCdf ((Node.const c - x) / bw)) x = fin p := by
      intro x hx
      obtain ⟨r, hr⟩ := hf x hx
      show Stats.normCdf ((c - x.val) / bw.val) = _
      rw [hr, hbw]
      rcases hcp with ⟨rfl, rfl⟩ | ⟨rfl, rfl⟩
      · rw [sub_fin_div_pinf h0, normCdf_pinf]
      · rw [sub_fin_div_ninf h0, normCdf_ninf]
    rw [List.map_congr_left this, mean_map_fin fct hn fun _ => p]
    simp [Spec.avg, hlen]
  have hv : (Node.const 1 - (Grad.nmean (fct.map fun x => Grad.normCdf ((Node.const pinf - x) / bw))
      - Grad.nmean (fct.map fun x => Grad.normCdf ((Node.const ninf - x) / bw)))).val = fin 0 := by
    rw [sub_val, sub_val, hc pinf 1 (Or.inl ⟨rfl, rfl⟩), hc ninf 0 (Or.inr ⟨rfl, rfl⟩), const_val, one_def, fin_sub,
      fin_sub]
    norm_num
  have hb : (Node.const 1 - (Grad.nmean (fct.map fun x => Grad.normCdf ((Node.const pinf - x) / bw))
      - Grad.nmean (fct.map fun x => Grad.normCdf ((Node.const ninf - x) / bw)))).back nan = nan := by
    rw [sub_back, neg_nan, cons_back_nan hx hl, add_nan]
  have key := log_zero_back hv hb
  unfold Grad.clogsEnsemble Node.grad
  simp only [if_true]
  rw [sel_back_pos (by rw [hy]; exact ⟨trivial, trivial⟩), neg_back (Node.log (Node.const 1 - _)), zero_def, fin_neg, neg_zero, key, add_nan]

/-- an empty region -/
theorem clogs_empty_bad {y : Node} {fct : List Node} {x : Node} (hx : x ∈ fct) {bw : Node} {h : ℝ} (h0 : 0 < h)
    (hbw : bw.val = fin h) (hf : ∀ x ∈ fct, ∃ r, x.val = fin r) {a : ℝ}
    (hl : ∀ c : XF, ((Node.const c - x) / bw).back nan = nan) {r : ℝ} (hy : y.val = fin r) :
    (Grad.clogsEnsemble y fct (Node.const (fin a)) (Node.const (fin a)) bw false).grad = nan := by
  have hn : fct ≠ [] := List.ne_nil_of_mem hx
  obtain ⟨p, hp⟩ : ∃ p, (Grad.nmean (fct.map fun x => Grad.normCdf ((Node.const (fin a) - x) / bw))).val = fin p := by
    rw [nmean_val, List.map_map]
    choose! r hr using hf
    have : ∀ x ∈ fct, (Node.val ∘ fun x => Grad.normCdf ((Node.const (fin a) - x) / bw)) x
        = fin (Φ ((a - r x) / h)) := by
      intro x hx
      show Stats.normCdf ((fin a - x.val) / bw.val) = _
      rw [hr x hx, hbw, fin_sub, fin_div h0.ne', normCdf_fin]
    rw [List.map_congr_left this]
    exact ⟨_, mean_map_fin fct hn _⟩
  have hv : (Grad.nmean (fct.map fun x => Grad.normCdf ((Node.const (fin a) - x) / bw))
      - Grad.nmean (fct.map fun x => Grad.normCdf ((Node.const (fin a) - x) / bw))).val = fin 0 := by
    rw [sub_val, hp, fin_sub, sub_self]
  have key := log_zero_back hv (cons_back_nan hx hl)
  unfold Grad.clogsEnsemble Node.grad
  simp only [Bool.false_eq_true, if_false]
  rw [sel_back_neg (by rw [hy, const_val, fin_lt, fin_lt]; exact fun h => lt_asymm h.1 h.2), add_back, zero_def, key,
    add_nan, nan_add]

/-- an infinite bound makes the gradient with respect to the bandwidth NaN -/
theorem clogs_bw_bad {y : Node} {xs : List ℝ} (hx : xs ≠ []) {h : ℝ} (h0 : 0 < h) {a b : XF}
    (hab : (a = ninf ∨ a = pinf) ∨ (b = ninf ∨ b = pinf)) (cens : Bool) :
    (Grad.clogsEnsemble y (consts (xs.map fin)) (Node.const a) (Node.const b) (leaf (fin h)) cens).grad = nan := by
  obtain ⟨x, hx⟩ := List.exists_mem_of_ne_nil xs hx
  have hm : Node.const (fin x) ∈ consts (xs.map fin) := by
    unfold consts
    exact List.mem_map_of_mem (List.mem_map_of_mem hx)
  have F : ∀ c : XF, c = ninf ∨ c = pinf →
      Bad (Grad.nmean ((consts (xs.map fin)).map fun x => Grad.normCdf ((Node.const c - x) / leaf (fin h)))) := by
    intro c hc
    have hb := bound_bad (m := x) h0 (x := c)
    refine Bad.nmean (List.mem_map_of_mem hm) (normCdf_bad ?_ (bound_zero h0 hc.symm) hb.1.2)
    rcases hc with hc | hc
    · exact Or.inr (hb.2.2 hc).2
    · exact Or.inl (hb.2.1 hc).2
  have C : Bad (Grad.nmean ((consts (xs.map fin)).map fun x => Grad.normCdf ((Node.const b - x) / leaf (fin h)))
      - Grad.nmean ((consts (xs.map fin)).map fun x => Grad.normCdf ((Node.const a - x) / leaf (fin h)))) :=
    hab.elim (fun h => Bad.sub_right (F a h)) fun h => Bad.sub_left (F b h)
  unfold Grad.clogsEnsemble
  cases cens with
  | true => exact (Bad.sel_right (Bad.neg (Bad.log (Bad.sub_right C)))).grad
  | false => exact (Bad.sel_left (Bad.add_right (Bad.log C))).grad

/-! ### the public functions on one ensemble -/

theorem single_clogs (y : XF) {xs : List XF} (hx : xs ≠ []) (a b h : XF) (cens : Bool) :
    single (Api.clogsEnsemble (Arr.scalar y) (Arr.ofList xs) (Arr.scalar a) (Arr.scalar b) (-1)
      (some (Arr.scalar h)) cens) = LogsEns.clogs1 y a b (xs.map fun x => (x, h)) cens := by
  have hM : xs.length ≠ 0 := by simpa using hx
  have hch : Api.univariateArrayCheck (Arr.scalar y) (Arr.ofList xs) (-1) = .ok ((Arr.ofList xs).moveLast 0) :=
    Api.arrayCheck_axis (by simp [Spec.AxisIs, Arr.ndim, Arr.ofList]) rfl
  have hsh : ((Arr.ofList xs).moveLast 0).shape = [] ++ [xs.length] := by
    rw [Arr.moveLast_shape]; rfl
  unfold Api.clogsEnsemble
  rw [hch]
  simp only [Bind.bind, Except.bind]
  rw [LogsEns.bandwidth_ok hsh hM (some (Arr.scalar h)) fun w hw => by cases hw; rfl]
  simp only
  obtain ⟨out, ho, hos, hov⟩ := LogsEns.clogs_ok (obs := Arr.scalar y) (fct := (Arr.ofList xs).moveLast 0)
    (bw := ⟨[] ++ [xs.length], fun i =>
      LogsEns.bwOf (some (Arr.scalar h)) (((Arr.ofList xs).moveLast 0).row i.dropLast) i.dropLast⟩) a b cens hsh rfl
  rw [ho]
  unfold single
  simp only
  rw [if_pos (show out.shape = [] from hos), hov [] (by simp [Arr.Valid, Arr.scalar])]
  congr 1
  refine List.ext_getElem (by simp) fun i h1 h2 => ?_
  have hi : i < xs.length := by simpa using h2
  simp [Arr.moveLast, Arr.ofList, LogsEns.bwOf, Arr.scalar, hi]

theorem single_logs (y : XF) {xs : List XF} (hx : xs ≠ []) (h : XF) :
    single (Api.logsEnsemble (Arr.scalar y) (Arr.ofList xs) (-1) (some (Arr.scalar h)))
      = Logs.mixnorm y xs (List.replicate xs.length h) (List.replicate xs.length (1 / (xs.length : XF))) := by
  have hM : xs.length ≠ 0 := by simpa using hx
  have hch : Api.univariateArrayCheck (Arr.scalar y) (Arr.ofList xs) (-1) = .ok ((Arr.ofList xs).moveLast 0) :=
    Api.arrayCheck_axis (by simp [Spec.AxisIs, Arr.ndim, Arr.ofList]) rfl
  have hsh : ((Arr.ofList xs).moveLast 0).shape = [] ++ [xs.length] := by
    rw [Arr.moveLast_shape]; rfl
  unfold Api.logsEnsemble
  rw [hch]
  simp only [Bind.bind, Except.bind]
  rw [LogsEns.bandwidth_ok hsh hM (some (Arr.scalar h)) fun w hw => by cases hw; rfl]
  simp only
  obtain ⟨out, ho, hos, hov⟩ := LogsEns.mixnormArr_ok (obs := Arr.scalar y) (m := (Arr.ofList xs).moveLast 0)
    (s := ⟨[] ++ [xs.length], fun i =>
      LogsEns.bwOf (some (Arr.scalar h)) (((Arr.ofList xs).moveLast 0).row i.dropLast) i.dropLast⟩)
    (w := ⟨((Arr.ofList xs).moveLast 0).shape,
      fun _ => 1 / ((((Arr.ofList xs).moveLast 0).shape.getLastD 0 : ℕ) : XF)⟩) hsh rfl hsh
  rw [ho]
  unfold single
  simp only
  rw [if_pos (show out.shape = [] from hos), hov [] (by simp [Arr.Valid, Arr.scalar])]
  congr 1
  · refine List.ext_getElem (by simp [Arr.row, hsh]) fun i h1 h2 => ?_
    simp [Arr.row, Arr.moveLast, Arr.ofList, h2]
  · simp [Arr.row, LogsEns.bwOf, Arr.scalar]
  · simp [Arr.row, hsh]

end Verif
