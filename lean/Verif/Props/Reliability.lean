import Verif.Model.Reliability
import Verif.Spec.Reliability
import Verif.Lemmas.CrpsApi
import Verif.Props.Dss
import Mathlib.Analysis.InnerProductSpace.Projection.Minimal
import Mathlib.Analysis.InnerProductSpace.PiL2

/-!
# C60, C68: the CORP decomposition of the reliability diagram
-/

noncomputable section

open scoped Classical

namespace Verif

open XF Py Api Spec

/-! ### existence of the isotonic regression -/

/-- `iso` computes isotonic regressions of real data. -/
def IsoRegression (iso : List XF → List XF) : Prop :=
  ∀ y : List ℝ, ∃ c, iso (y.map fin) = c.map fin ∧ IsoFit y c

theorem mse_ofFn {n : ℕ} (f g : Fin n → ℝ) :
    mse (List.ofFn f) (List.ofFn g) = (∑ i, (f i - g i) ^ 2) / n := by
  have : List.zipWith (fun a b => (a - b) ^ 2) (List.ofFn f) (List.ofFn g)
      = List.ofFn fun i => (f i - g i) ^ 2 := by
    apply List.ext_getElem <;> simp
  rw [mse, this, avg, List.length_ofFn, List.sum_ofFn]

theorem exists_isoFit (y : List ℝ) : ∃ c, IsoFit y c := by
  set n := y.length with hn
  let K : Set (EuclideanSpace ℝ (Fin n)) := {v | Monotone fun i => v i}
  have hne : K.Nonempty := ⟨0, fun _ _ _ => le_refl _⟩
  have hcl : IsClosed K := by
    have : K = ⋂ (i : Fin n) (j : Fin n) (_ : i ≤ j), {v : EuclideanSpace ℝ (Fin n) | v i ≤ v j} := by
      ext v; simp [K, Monotone]
    rw [this]
    refine isClosed_iInter fun i => isClosed_iInter fun j => isClosed_iInter fun _ => ?_
    exact isClosed_le (by fun_prop) (by fun_prop)
  have hcv : Convex ℝ K := by
    intro u hu v hv a b ha hb _ i j hij
    have h1 := hu hij
    have h2 := hv hij
    simp only [PiLp.add_apply, PiLp.smul_apply, smul_eq_mul] at *
    exact add_le_add (mul_le_mul_of_nonneg_left h1 ha) (mul_le_mul_of_nonneg_left h2 hb)
  let u : EuclideanSpace ℝ (Fin n) := WithLp.toLp 2 fun i => y.get i
  obtain ⟨v, hv, hmin⟩ := exists_norm_eq_iInf_of_complete_convex hne hcl.isComplete hcv u
  have hy : y = List.ofFn fun i => y.get i := (List.ofFn_get y).symm
  refine ⟨List.ofFn fun i => v i, by simp [hn], ?_, fun d hd hm => ?_⟩
  · rw [List.pairwise_ofFn]
    exact fun i j hij => hv hij.le
  · have hdl : d = List.ofFn fun i : Fin n => d.get (i.cast hd.symm) := by
      apply List.ext_getElem <;> simp [hd, hn]
    let w : EuclideanSpace ℝ (Fin n) := WithLp.toLp 2 fun i => d.get (i.cast hd.symm)
    have hw : w ∈ K := by
      intro i j hij
      rcases hij.eq_or_lt with h | h
      · rw [h]
      · exact List.pairwise_iff_get.1 hm _ _ (by simpa using h)
    have hle : ‖u - v‖ ≤ ‖u - w‖ := by
      rw [hmin]
      exact ciInf_le ⟨0, by rintro _ ⟨_, rfl⟩; positivity⟩ (⟨w, hw⟩ : K)
    rw [EuclideanSpace.norm_eq, EuclideanSpace.norm_eq] at hle
    have hle := (Real.sqrt_le_sqrt_iff (Finset.sum_nonneg fun i _ => by positivity)).1 hle
    simp only [PiLp.sub_apply, Real.norm_eq_abs, sq_abs] at hle
    have e1 : mse y (List.ofFn fun i => v i) = (∑ i, (y.get i - v i) ^ 2) / n := by
      rw [← mse_ofFn, List.ofFn_get]
    have e2 : mse y d = (∑ i : Fin n, (y.get i - d.get (i.cast hd.symm)) ^ 2) / n := by
      rw [← mse_ofFn, ← hdl, List.ofFn_get]
    rw [e1, e2]
    exact div_le_div_of_nonneg_right hle (by positivity)

/-- The hypothesis of the theorems below can be met. -/
theorem exists_isoRegression : ∃ iso, IsoRegression iso := by
  choose f hf using exists_isoFit
  have hinj : ∀ y z : List ℝ, y.map fin = z.map fin → y = z := fun y z h =>
    List.map_injective_iff.2 (fun a b h => by simpa using h) h
  refine ⟨fun l => if h : ∃ y : List ℝ, l = y.map fin then (f h.choose).map fin else [], fun y => ?_⟩
  have h : ∃ z : List ℝ, y.map fin = z.map fin := ⟨y, rfl⟩
  refine ⟨f y, ?_, hf y⟩
  simp only [dif_pos h]
  rw [← hinj _ _ h.choose_spec]

/-! ### sorting real data -/

theorem zip2_fin (f : XF → XF → XF) (g : ℝ → ℝ → ℝ) (h : ∀ a b, f (fin a) (fin b) = fin (g a b))
    (y c : List ℝ) : zip2 f (y.map fin) (c.map fin) = (List.zipWith g y c).map fin := by
  induction y generalizing c with
  | nil => simp [zip2]
  | cons a y ih =>
    cases c with
    | nil => simp [zip2]
    | cons b c =>
      have := ih c
      simp only [zip2, List.map_cons, List.zipWith_cons_cons] at this ⊢
      rw [this, h]

theorem gather_fin (y : List ℝ) (ind : List ℕ) (h : ∀ i ∈ ind, i < y.length) :
    gather (y.map fin) ind = (ind.map fun i => y.getD i 0).map fin := by
  simp only [gather, List.map_map]
  apply List.map_congr_left
  intro i hi
  simp [idx, h i hi]


theorem argsort_mem {r : List XF} {i : ℕ} (h : i ∈ argsort r) : i < r.length :=
  List.mem_range.1 ((argsort_perm r).mem_iff.1 h)

/-- The arrays computed by the code for real data: the forecasts in ascending order, the observations in
the same order. -/
theorem corp_real (iso : List XF → List XF) (y x : List ℝ) (hl : x.length = y.length) :
    ∃ ys xs : List ℝ, Reliability.corpReliability iso (y.map fin) (x.map fin)
        = .ok (xs.map fin, ys.map fin, iso (ys.map fin)) ∧
      xs.length = x.length ∧ ys.length = x.length ∧ xs.Pairwise (· ≤ ·) ∧
      (ys.zip xs).Perm (y.zip x) := by
  set ind := argsort (x.map fin) with hind
  have hm : ∀ i ∈ ind, i < x.length := fun i hi => by simpa using argsort_mem hi
  refine ⟨ind.map fun i => y.getD i 0, ind.map fun i => x.getD i 0, ?_, ?_, ?_, ?_, ?_⟩
  · unfold Reliability.corpReliability
    rw [if_neg (by simp [hl])]
    simp only [← hind]
    rw [gather_fin x ind hm, gather_fin y ind (fun i hi => hl ▸ hm i hi)]
  · simp [hind, argsort_length]
  · simp [hind, argsort_length]
  · have := gather_argsort_sorted (x.map fin)
    rw [← hind, gather_fin x ind hm] at this
    exact sortedX_map_fin.1 this
  · have h1 : (ind.map fun i => y.getD i 0).zip (ind.map fun i => x.getD i 0)
        = ind.map fun i => (y.getD i 0, x.getD i 0) := by
      rw [List.zip_map', ]
    have h2 : y.zip x = (List.range x.length).map fun i => (y.getD i 0, x.getD i 0) := by
      apply List.ext_getElem
      · simp [hl]
      · intro j h3 h4
        simp at h3
        simp [h3.1, h3.2]
    rw [h1, h2]
    have := (argsort_perm (x.map fin)).map fun i => (y.getD i 0, x.getD i 0)
    simpa using this

theorem zipWith_eq_map_zip (f : ℝ → ℝ → ℝ) (a b : List ℝ) :
    List.zipWith f a b = (a.zip b).map fun p => f p.1 p.2 := by
  rw [List.zip_eq_zipWith, List.map_zipWith]

theorem avg_perm {a b : List ℝ} (h : a.Perm b) : avg a = avg b := by
  rw [avg, avg, h.sum_eq, h.length_eq]

theorem mse_perm {y x y' x' : List ℝ} (h : (y.zip x).Perm (y'.zip x')) : mse y x = mse y' x' := by
  rw [mse, mse, zipWith_eq_map_zip, zipWith_eq_map_zip]
  exact avg_perm (h.map _)

theorem decomposition_real (x y c : List ℝ) (hy : y ≠ []) (hx : x.length = y.length)
    (hc : c.length = y.length) :
    Reliability.decomposition (x.map fin) (y.map fin) (c.map fin)
      = (fin (mse y c), fin (mse y x), fin (mse y (y.map fun _ => avg y))) := by
  unfold Reliability.decomposition
  simp only
  have h1 : ∀ a b : ℝ, (fin a - fin b) ^ 2 = fin ((a - b) ^ 2) := fun a b => by
    rw [fin_sub, fin_pow]
  have hne : ∀ z : List ℝ, z.length = y.length → List.zipWith (fun a b => (a - b) ^ 2) y z ≠ [] := by
    intro z hz h
    have := congrArg List.length h
    simp [hz] at this
    exact hy this
  rw [zip2_fin _ (fun a b => (a - b) ^ 2) h1, zip2_fin _ (fun a b => (a - b) ^ 2) h1,
    dss_mean _ (hne c hc), dss_mean _ (hne x hx), dss_mean y hy]
  simp only [List.map_map, Function.comp_def, h1]
  have hm : mean (y.map fun a => fin ((a - avg y) ^ 2)) = fin (mse y (y.map fun _ => avg y)) := by
    rw [mse, ← dss_mean _ (hne (y.map fun _ => avg y) (by simp)), List.zipWith_map_right,
      List.zipWith_self, List.map_map]
    rfl
  rw [hm]
  rfl

/-- C60: for every sample of real outcomes and forecasts (binary or not), whatever its size and order,
the three numbers printed by `reliability_diagram` are non-negative and satisfy
`mean squared error = MCB - DSC + UNC`, where the mean squared error is that of the sample as given and
the uncertainty is the variance of the outcomes. -/
theorem C60_decomposition {iso : List XF → List XF} (hiso : IsoRegression iso) {y x : List ℝ}
    (hl : x.length = y.length) (hy : y ≠ []) :
    ∃ mcb dsc unc : ℝ, Reliability.printed iso (y.map fin) (x.map fin)
        = .ok (fin mcb, fin dsc, fin unc) ∧
      0 ≤ mcb ∧ 0 ≤ dsc ∧ unc = svar true y ∧ mse y x = mcb - dsc + unc := by
  obtain ⟨ys, xs, h1, hxs, hys, hsx, hp⟩ := corp_real iso y x hl
  obtain ⟨c, hc, hfit⟩ := hiso ys
  have hy' : ys ≠ [] := by
    rw [← List.length_pos_iff, hys, hl, List.length_pos_iff]; exact hy
  have hmean : ys.Perm y := by
    have := hp.map Prod.fst
    rwa [List.map_fst_zip (by omega), List.map_fst_zip (by omega)] at this
  refine ⟨mse ys xs - mse ys c, mse ys (ys.map fun _ => avg ys) - mse ys c,
    mse ys (ys.map fun _ => avg ys), ?_, ?_, ?_, ?_, ?_⟩
  · unfold Reliability.printed
    rw [h1]
    simp only [bind, Except.bind]
    rw [hc, decomposition_real xs ys c hy' (by omega) hfit.length]
    simp only [fin_sub]
  · exact sub_nonneg.2 (hfit.best xs (by omega) hsx)
  · refine sub_nonneg.2 (hfit.best _ (by simp) ?_)
    rw [List.pairwise_map]
    exact List.pairwise_of_forall fun _ _ => le_refl _
  · have e : ∀ l : List ℝ, mse l (l.map fun _ => avg l) = svar true l := by
      intro l
      rw [mse, List.zipWith_map_right, List.zipWith_self, svar, csum, avg, List.length_map]
      simp
    rw [e]
    simp only [svar, csum, avg, hmean.sum_eq, hmean.length_eq]
    congr 1
    exact (hmean.map _).sum_eq
  · rw [← mse_perm hp]; ring

example : ∃ iso, IsoRegression iso := exists_isoRegression


/-! ### the fitted event probabilities -/

theorem mse_shift (y c : List ℝ) (h : c.length = y.length) (t : ℝ) (hy : y ≠ []) :
    mse y (c.map fun a => a + t) = mse y c - 2 * t * (avg y - avg c) + t ^ 2 := by
  have hn : (y.length : ℝ) ≠ 0 := by simpa using hy
  have key : ∀ (y c : List ℝ), c.length = y.length →
      (List.zipWith (fun a b => (a - b) ^ 2) y (c.map fun a => a + t)).sum
        = (List.zipWith (fun a b => (a - b) ^ 2) y c).sum - 2 * t * (y.sum - c.sum)
          + y.length * t ^ 2 := by
    intro y
    induction y with
    | nil => intro c hc; simp at hc; simp [hc]
    | cons a y ih =>
      intro c hc
      cases c with
      | nil => simp at hc
      | cons b c =>
        have := ih c (by simpa using hc)
        simp only [List.map_cons, List.zipWith_cons_cons, List.sum_cons, this, List.length_cons,
          Nat.cast_add, Nat.cast_one]
        ring
  have l1 : (List.zipWith (fun a b => (a - b) ^ 2) y (c.map fun a => a + t)).length = y.length := by
    simp [h]
  have l2 : (List.zipWith (fun a b => (a - b) ^ 2) y c).length = y.length := by simp [h]
  rw [mse, mse, avg, avg, avg, avg, l1, l2, key y c h, h]
  field_simp

/-- C60: the fitted event probabilities have the same mean as the outcomes. -/
theorem C60_cep_mean {y c : List ℝ} (hy : y ≠ []) (h : IsoFit y c) : avg c = avg y := by
  have hmono : ∀ t : ℝ, (c.map fun a => a + t).Pairwise (· ≤ ·) := fun t => by
    rw [List.pairwise_map]
    exact h.mono.imp fun hab => by linarith
  have := h.best (c.map fun a => a + (avg y - avg c)) (by simp [h.length]) (hmono _)
  rw [mse_shift y c h.length _ hy] at this
  have : (avg y - avg c) ^ 2 ≤ 0 := by nlinarith
  have := pow_eq_zero_iff (two_ne_zero) |>.1 (le_antisymm this (sq_nonneg _))
  linarith

/-- C60: the fitted event probabilities of outcomes between `lo` and `hi` (for instance 0 and 1) lie
between `lo` and `hi`. -/
theorem C60_cep_range {y c : List ℝ} {lo hi : ℝ} (hlh : lo ≤ hi) (h : IsoFit y c)
    (hr : ∀ a ∈ y, lo ≤ a ∧ a ≤ hi) : ∀ a ∈ c, lo ≤ a ∧ a ≤ hi := by
  let cl : ℝ → ℝ := fun a => max lo (min a hi)
  have hcl : Monotone cl := fun a b hab => max_le_max (le_refl _) (min_le_min_right _ hab)
  have hmono : (c.map cl).Pairwise (· ≤ ·) := by
    rw [List.pairwise_map]; exact h.mono.imp fun hab => hcl hab
  have hbest := h.best (c.map cl) (by simp [h.length]) hmono
  have key : ∀ (y c : List ℝ), c.length = y.length → (∀ a ∈ y, lo ≤ a ∧ a ≤ hi) →
      (List.zipWith (fun a b => (a - b) ^ 2) y (c.map cl)).sum + (c.map fun b => (b - cl b) ^ 2).sum
        ≤ (List.zipWith (fun a b => (a - b) ^ 2) y c).sum := by
    intro y
    induction y with
    | nil => intro c hc _; simp at hc; simp [hc]
    | cons a y ih =>
      intro c hc ha
      cases c with
      | nil => simp at hc
      | cons b c =>
        have ih := ih c (by simpa using hc) fun a ha' => ha a (List.mem_cons_of_mem _ ha')
        obtain ⟨h1, h2⟩ := ha a List.mem_cons_self
        simp only [List.map_cons, List.zipWith_cons_cons, List.sum_cons]
        have : (a - cl b) ^ 2 + (b - cl b) ^ 2 ≤ (a - b) ^ 2 := by
          simp only [cl]
          rcases le_total b hi with hb | hb
          · rw [min_eq_left hb]
            rcases le_total lo b with hb' | hb'
            · rw [max_eq_right hb']; nlinarith
            · rw [max_eq_left hb']; nlinarith
          · rw [min_eq_right hb, max_eq_right hlh]; nlinarith
        linarith
  intro a ha
  have hk := key y c h.length hr
  by_cases hy : y = []
  · have := h.length; rw [hy] at this; simp at this; rw [this] at ha; simp at ha
  have hn : (0 : ℝ) < y.length := by exact_mod_cast List.length_pos_iff.2 hy
  have l1 : (List.zipWith (fun a b => (a - b) ^ 2) y (c.map cl)).length = y.length := by
    simp [h.length]
  have l2 : (List.zipWith (fun a b => (a - b) ^ 2) y c).length = y.length := by simp [h.length]
  rw [mse, mse, avg, avg, l1, l2, div_le_div_iff_of_pos_right hn] at hbest
  have hz : (c.map fun b => (b - cl b) ^ 2).sum ≤ 0 := by linarith
  have hle : (a - cl a) ^ 2 ≤ (c.map fun b => (b - cl b) ^ 2).sum :=
    List.single_le_sum (by intro z hz; obtain ⟨b, -, rfl⟩ := List.mem_map.1 hz; positivity) _
      (List.mem_map.2 ⟨a, ha, rfl⟩)
  have h0 : a = cl a := by
    have := pow_eq_zero_iff (two_ne_zero) |>.1 (le_antisymm (hle.trans hz) (sq_nonneg _))
    linarith
  rw [h0]
  exact ⟨le_max_left _ _, max_le hlh (min_le_right _ _)⟩

/-- `C60_cep_mean`, `C60_cep_range`: increasing outcomes are their own isotonic fit. -/
example : IsoFit [0, 1] [0, 1] ∧ ([0, 1] : List ℝ) ≠ [] ∧ (0 : ℝ) ≤ 1 ∧
    ∀ a ∈ ([0, 1] : List ℝ), 0 ≤ a ∧ a ≤ 1 := by
  refine ⟨⟨by simp, by simp, ?_⟩, by simp, by simp, by simp⟩
  intro d hd _
  rw [show mse [0, 1] [0, 1] = 0 by simp [mse, avg]]
  refine div_nonneg (List.sum_nonneg fun x hx => ?_) (Nat.cast_nonneg _)
  rw [← List.map_uncurry_zip_eq_zipWith] at hx
  obtain ⟨q, _, rfl⟩ := List.mem_map.1 hx
  exact sq_nonneg _

/-- The hypotheses are met by a sample that is not already ascending. -/
theorem isoFit_10 : IsoFit [1, 0] [1 / 2, 1 / 2] := by
  refine ⟨rfl, by simp, fun d hd hm => ?_⟩
  match d, hd with
  | [a, b], _ =>
    have : a ≤ b := by simpa using hm
    simp only [mse, avg, List.zipWith_cons_cons, List.zipWith_nil_left, List.sum_cons, List.sum_nil,
      List.length_cons, List.length_nil]
    norm_num
    nlinarith [sq_nonneg (a + b - 1), sq_nonneg (b - a)]

theorem isoFit_01 : IsoFit [0, 1] [0, 1] := by
  refine ⟨rfl, by simp, fun d hd hm => ?_⟩
  match d, hd with
  | [a, b], _ =>
    simp only [mse, avg, List.zipWith_cons_cons, List.zipWith_nil_left, List.sum_cons, List.sum_nil,
      List.length_cons, List.length_nil]
    norm_num
    positivity

/-! ### C68: the order of the sample -/

/-- C68, what holds: when no two forecasts are equal, the printed numbers do not depend on the order of
the sample, whatever the regression routine. -/
theorem C68_partial (iso : List XF → List XF) {y x y' x' : List ℝ} (hl : x.length = y.length)
    (hl' : x'.length = y'.length) (hp : (y.zip x).Perm (y'.zip x')) (hd : x.Nodup) :
    Reliability.printed iso (y.map fin) (x.map fin) = Reliability.printed iso (y'.map fin) (x'.map fin) := by
  obtain ⟨ys, xs, h1, h2, h3, h4, h5⟩ := corp_real iso y x hl
  obtain ⟨ys', xs', h1', h2', h3', h4', h5'⟩ := corp_real iso y' x' hl'
  have hpp : (ys.zip xs).Perm (ys'.zip xs') := h5.trans (hp.trans h5'.symm)
  have hx : xs.Perm x := by
    have := h5.map Prod.snd
    rwa [List.map_snd_zip (by omega), List.map_snd_zip (by omega)] at this
  have hsnd : (ys.zip xs).map Prod.snd = xs := List.map_snd_zip (by omega)
  have hsnd' : (ys'.zip xs').map Prod.snd = xs' := List.map_snd_zip (by omega)
  have hfst : (ys.zip xs).map Prod.fst = ys := List.map_fst_zip (by omega)
  have hfst' : (ys'.zip xs').map Prod.fst = ys' := List.map_fst_zip (by omega)
  have hnd : xs.Nodup := hx.nodup_iff.2 hd
  have heq : ys.zip xs = ys'.zip xs' := by
    refine List.Perm.eq_of_pairwise (le := fun p q : ℝ × ℝ => p.2 ≤ q.2) ?_ ?_ ?_ hpp
    · intro p q hp hq hpq hqp
      have he : p.2 = q.2 := le_antisymm hpq hqp
      have hinj : ∀ p ∈ ys.zip xs, ∀ q ∈ ys.zip xs, p.2 = q.2 → p = q :=
        List.inj_on_of_nodup_map (by rw [hsnd]; exact hnd)
      exact hinj p hp q (hpp.mem_iff.2 hq) he
    · rw [← List.pairwise_map, hsnd]; exact h4
    · rw [← List.pairwise_map, hsnd']; exact h4'
  have e1 : xs = xs' := by rw [← hsnd, heq, hsnd']
  have e2 : ys = ys' := by rw [← hfst, heq, hfst']
  unfold Reliability.printed
  rw [h1, h1', e1, e2]

example : ([(1 : ℝ), 2].zip [(3 : ℝ), 4]).Perm ([(2 : ℝ), 1].zip [(4 : ℝ), 3]) ∧
    [(3 : ℝ), 4].Nodup := by
  constructor
  · exact List.Perm.swap ..
  · simp

/-- C68 is false with tied forecasts: outcomes 0 and 1 with the same forecast 1/2 have discrimination
1/4 in one order and 0 in the other. -/
theorem C68_false {iso : List XF → List XF} (h01 : iso [fin 0, fin 1] = [fin 0, fin 1])
    (h10 : iso [fin 1, fin 0] = [fin (1 / 2), fin (1 / 2)]) :
    Reliability.printed iso [fin 0, fin 1] [fin (1 / 2), fin (1 / 2)]
      = .ok (fin (1 / 4), fin (1 / 4), fin (1 / 4)) ∧
    Reliability.printed iso [fin 1, fin 0] [fin (1 / 2), fin (1 / 2)]
      = .ok (fin 0, fin 0, fin (1 / 4)) ∧
    IsoFit [0, 1] [0, 1] ∧ IsoFit [1, 0] [1 / 2, 1 / 2] := by
  have hs : argsort [fin (1 / 2), fin (1 / 2)] = [0, 1] := by
    simp [argsort, List.range, List.range.loop, List.mergeSort, idx, List.merge]
  have hd : ∀ y1 y2 c1 c2 x1 x2 : ℝ, Reliability.decomposition [fin x1, fin x2] [fin y1, fin y2]
      [fin c1, fin c2] = (fin (mse [y1, y2] [c1, c2]), fin (mse [y1, y2] [x1, x2]),
        fin (mse [y1, y2] [avg [y1, y2], avg [y1, y2]])) := fun y1 y2 c1 c2 x1 x2 =>
    decomposition_real [x1, x2] [y1, y2] [c1, c2] (by simp) rfl rfl
  refine ⟨?_, ?_, isoFit_01, isoFit_10⟩
  · unfold Reliability.printed Reliability.corpReliability
    simp only [hs, gather, idx, List.map_cons, List.map_nil, List.getD_cons_zero, List.getD_cons_succ,
      h01, bind, Except.bind, List.length_cons, List.length_nil, lt_irrefl, if_false, hd, fin_sub]
    norm_num [mse, avg]
  · unfold Reliability.printed Reliability.corpReliability
    simp only [hs, gather, idx, List.map_cons, List.map_nil, List.getD_cons_zero, List.getD_cons_succ,
      h10, bind, Except.bind, List.length_cons, List.length_nil, lt_irrefl, if_false, hd, fin_sub]
    norm_num [mse, avg]

example : ∃ iso : List XF → List XF, iso [fin 0, fin 1] = [fin 0, fin 1] ∧
    iso [fin 1, fin 0] = [fin (1 / 2), fin (1 / 2)] :=
  ⟨fun l => if l = [fin 1, fin 0] then [fin (1 / 2), fin (1 / 2)] else l, by simp, by simp⟩

end Verif
