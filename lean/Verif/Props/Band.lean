import Verif.Lemmas.Band

/-!
# C122, C123: the uncertainty band of the reliability diagram
-/

noncomputable section

open scoped Classical

namespace Verif

open XF Py Api Spec Reliability

theorem mapM_ok' {ε α β : Type} (l : List α) (f : α → Except ε β) (g : α → β) (h : ∀ a ∈ l, f a = .ok (g a)) :
    l.mapM f = .ok (l.map g) := by
  induction l with
  | nil => rfl
  | cons a t ih =>
    rw [List.mapM_cons, h a List.mem_cons_self, ih fun b hb => h b (List.mem_cons_of_mem _ hb)]
    rfl

/-- What the random number generators can return in one pass of the loop over `n` forecasts: `n` positions, and for
each probability a zero or a one. -/
structure GoodDraw (n : ℕ) (d : Draw) : Prop where
  length : d.idx.length = n
  lt : ∀ i ∈ d.idx, i < n
  binary : ∀ p : List XF, ∃ b : List Bool, b.length = p.length ∧ d.rv p = b.map fun t => fin (if t then 1 else 0)

/-- The forecasts of the replicate reach from `t` or less to `t` or more. -/
def Covers (x : List ℝ) (d : Draw) (t : ℝ) : Prop :=
  (∃ i ∈ d.idx, x.getD i 0 ≤ t) ∧ ∃ i ∈ d.idx, t ≤ x.getD i 0

section
variable {iso : List XF → List XF} {x cep : List ℝ} {d : Draw} {bt : String}

theorem covers_sorted {xs l : List ℝ} (hs : xs.Pairwise (· ≤ ·)) (hp : xs.Perm l) (hl : l ≠ []) (t : ℝ) :
    (xs.getD 0 0 ≤ t ∧ t ≤ xs.getD (xs.length - 1) 0) ↔ (∃ a ∈ l, a ≤ t) ∧ ∃ a ∈ l, t ≤ a := by
  have hlen : 0 < xs.length := by rw [hp.length_eq]; exact List.length_pos_iff.2 hl
  constructor
  · rintro ⟨h1, h2⟩
    refine ⟨⟨_, hp.mem_iff.1 ?_, h1⟩, ⟨_, hp.mem_iff.1 ?_, h2⟩⟩
    · rw [getD_lt hlen]; exact List.getElem_mem _
    · rw [getD_lt (by omega : xs.length - 1 < xs.length)]; exact List.getElem_mem _
  · rintro ⟨⟨a, ha, h1⟩, b, hb, h2⟩
    obtain ⟨i, hi, rfl⟩ := List.getElem_of_mem (hp.mem_iff.2 ha)
    obtain ⟨j, hj, rfl⟩ := List.getElem_of_mem (hp.mem_iff.2 hb)
    rw [← getD_lt hi] at h1
    rw [← getD_lt hj] at h2
    exact ⟨(getD_mono hs (Nat.zero_le i) hi).trans h1, h2.trans (getD_mono hs (by omega) (by omega))⟩

theorem covers_iff (t : ℝ) : Covers x d t ↔
    (∃ a ∈ d.idx.map fun i => x.getD i 0, a ≤ t) ∧ ∃ a ∈ d.idx.map fun i => x.getD i 0, t ≤ a := by
  simp [Covers]

/-- one pass of the loop -/
theorem replicate_real (hiso : IsoRegression iso) (hx0 : x ≠ []) (hx : ∀ a ∈ x, 0 ≤ a ∧ a ≤ 1)
    (hc : cep.length = x.length) (hcep : ∀ a ∈ cep, 0 ≤ a ∧ a ≤ 1) (hd : GoodDraw x.length d)
    (hbt : bt ∈ ["consistency", "confidence"]) :
    ∃ f : ℝ → ℝ, (∀ t, Covers x d t → 0 ≤ f t ∧ f t ≤ 1) ∧
      (∀ t t', Covers x d t → Covers x d t' → t ≤ t' → f t ≤ f t') ∧
      replicate iso (x.map fin) (cep.map fin) bt d = .ok (x.map fun t => if Covers x d t then fin (f t) else nan) := by
  have hg : gather (x.map fin) d.idx = (d.idx.map fun i => x.getD i 0).map fin := gather_fin x d.idx hd.lt
  have hgc : gather (cep.map fin) d.idx = (d.idx.map fun i => cep.getD i 0).map fin :=
    gather_fin cep d.idx fun i hi => by rw [hc]; exact hd.lt i hi
  have hmem : ∀ (c : List ℝ), c.length = x.length → (∀ a ∈ c, 0 ≤ a ∧ a ≤ 1) →
      ¬∃ q ∈ (d.idx.map fun i => c.getD i 0).map fin, ¬(fin 0 ≤ q ∧ q ≤ fin 1) := by
    rintro c hcl hcr ⟨q, hq, hn⟩
    obtain ⟨r, hr, rfl⟩ := List.mem_map.1 hq
    obtain ⟨i, hi, rfl⟩ := List.mem_map.1 hr
    apply hn
    have hi' : i < c.length := by rw [hcl]; exact hd.lt i hi
    simp only [fin_le]
    rw [getD_lt hi']
    exact hcr _ (List.getElem_mem hi')
  obtain ⟨p, hp, hpn, hpl⟩ : ∃ p : List XF, bandProbs (x.map fin) (cep.map fin) bt d = .ok p ∧
      (¬∃ q ∈ p, ¬(fin 0 ≤ q ∧ q ≤ fin 1)) ∧ p.length = d.idx.length := by
    simp only [List.mem_cons, List.not_mem_nil, or_false] at hbt
    rcases hbt with rfl | rfl
    · exact ⟨_, by simp [bandProbs]; rfl, by rw [hg]; exact hmem x rfl hx, by simp [gather]⟩
    · exact ⟨_, by simp [bandProbs]; rfl, by rw [hgc]; exact hmem cep hc hcep, by simp [gather]⟩
  obtain ⟨b, hb, hrv⟩ := hd.binary p
  have hrv' : d.rv p = (b.map fun t => if t then (1:ℝ) else 0).map fin := by
    rw [hrv, List.map_map]; rfl
  have hlen : (d.idx.map fun i => x.getD i 0).length = (b.map fun t => if t then (1:ℝ) else 0).length := by
    simp [hb, hpl]
  obtain ⟨ys, xs, h1, h2, h3, h4, h5⟩ := corp_real iso (b.map fun t => if t then (1:ℝ) else 0)
    (d.idx.map fun i => x.getD i 0) hlen
  obtain ⟨c, hc1, hc2⟩ := hiso ys
  have hperm : xs.Perm (d.idx.map fun i => x.getD i 0) := by
    have := h5.map Prod.snd
    rwa [List.map_snd_zip (by omega), List.map_snd_zip (by omega)] at this
  have hyperm : ys.Perm (b.map fun t => if t then (1:ℝ) else 0) := by
    have := h5.map Prod.fst
    rwa [List.map_fst_zip (by omega), List.map_fst_zip (by omega)] at this
  have hne : (d.idx.map fun i => x.getD i 0) ≠ [] := by
    rw [← List.length_pos_iff, List.length_map, hd.length, List.length_pos_iff]
    exact hx0
  have hxs : xs ≠ [] := fun h => hne (by rw [h] at hperm; exact hperm.nil_eq.symm)
  have hcl : c.length = xs.length := by rw [hc2.length, h3, h2]
  have hcr : ∀ a ∈ c, 0 ≤ a ∧ a ≤ 1 := C60_cep_range zero_le_one hc2 fun a ha => by
    obtain ⟨t, _, rfl⟩ := List.mem_map.1 (hyperm.mem_iff.1 ha)
    cases t <;> simp
  have hcov : ∀ t, Covers x d t ↔ xs.getD 0 0 ≤ t ∧ t ≤ xs.getD (xs.length - 1) 0 := fun t => by
    rw [covers_iff, ← covers_sorted h4 hperm hne]
  have hlen0 : 0 < xs.length := List.length_pos_iff.2 hxs
  refine ⟨poly xs c, fun t ht => ?_, fun t t' ht _ htt => poly_mono hxs hcl hc2.mono ((hcov t).1 ht).1 htt, ?_⟩
  · have := poly_between hxs hcl hc2.mono ((hcov t).1 ht).1
    have hb2 := below_le xs t
    have hg : ∀ i, i < c.length → 0 ≤ c.getD i 0 ∧ c.getD i 0 ≤ 1 := fun i hi => by
      rw [getD_lt hi]; exact hcr _ (List.getElem_mem hi)
    exact ⟨(hg _ (by omega)).1.trans this.1, this.2.trans (hg _ (by omega)).2⟩
  · unfold Reliability.replicate
    rw [hp]
    simp only
    rw [if_neg hpn, hg, hrv', h1]
    simp only
    rw [if_neg (by simpa using hxs), hc1, List.map_map]
    congr 1
    apply List.map_congr_left
    intro t _
    show interp1 (xs.map fin) (c.map fin) (fin t) = _
    rw [interp1_fin hxs hcl, if_congr (hcov t) rfl rfl]

theorem nanQuantile_col {p : ℝ} (h1 : p ≤ 1) (l : List Draw) (C : Draw → Prop) (g : Draw → ℝ) :
    nanQuantile p (l.map fun d => if C d then fin (g d) else nan)
      = if (∃ d ∈ l, C d) then fin (rquant p ((l.filter fun d => decide (C d)).map g)) else nan := by
  have e : ((l.map fun d => if C d then fin (g d) else nan).filter fun a => decide (¬a.isnan))
      = ((l.filter fun d => decide (C d)).map g).map fin := by
    induction l with
    | nil => rfl
    | cons d l ih =>
      by_cases h : C d
      · simp only [List.map_cons, h, if_true]
        rw [List.filter_cons_of_pos (by rw [decide_eq_true_eq]; simp [XF.isnan]), ih, List.filter_cons_of_pos (by simpa using h)]
        simp
      · simp only [List.map_cons, h, if_false]
        rw [List.filter_cons_of_neg (by rw [decide_eq_true_eq]; simp [XF.isnan]), ih, List.filter_cons_of_neg (by simpa using h)]
  unfold nanQuantile
  simp only [e]
  by_cases h : ∃ d ∈ l, C d
  · have hne : (l.filter fun d => decide (C d)).map g ≠ [] := by
      obtain ⟨d, hd, hC⟩ := h
      intro hn
      have := List.map_eq_nil_iff.1 hn
      rw [List.filter_eq_nil_iff] at this
      exact this d hd (by simpa using hC)
    rw [if_neg (by simpa using hne), if_pos h, quantile_rquant h1 hne]
  · rw [if_neg h, if_pos]
    simp only [List.map_eq_nil_iff, List.filter_eq_nil_iff, decide_eq_true_eq]
    exact fun d hd hC => h ⟨d, hd, hC⟩

/-- the band of the diagram -/
theorem band_real (hiso : IsoRegression iso) {y x : List ℝ} (hl : x.length = y.length) (hx0 : x ≠ [])
    (hy : ∀ a ∈ y, a = 0 ∨ a = 1) (hx : ∀ a ∈ x, 0 ≤ a ∧ a ≤ 1) {draws : List Draw}
    (hd : ∀ d ∈ draws, GoodDraw x.length d) (hbt : bt ∈ ["consistency", "confidence"]) {α : ℝ} (h0 : 0 ≤ α)
    (h1 : α ≤ 1) :
    ∃ (xs : List ℝ) (f : Draw → ℝ → ℝ), xs.Perm x ∧ xs.Pairwise (· ≤ ·) ∧
      (∀ d ∈ draws, ∀ t, Covers xs d t → 0 ≤ f d t ∧ f d t ≤ 1) ∧
      (∀ d ∈ draws, ∀ t t', Covers xs d t → Covers xs d t' → t ≤ t' → f d t ≤ f d t') ∧
      diagramBand iso (y.map fin) (x.map fin) draws bt α = .ok (xs.map fin,
        xs.map (fun t => if (∃ d ∈ draws, Covers xs d t) then
          fin (rquant α ((draws.filter fun d => decide (Covers xs d t)).map fun d => f d t)) else nan),
        xs.map (fun t => if (∃ d ∈ draws, Covers xs d t) then
          fin (rquant (1 - α) ((draws.filter fun d => decide (Covers xs d t)).map fun d => f d t)) else nan)) := by
  obtain ⟨ys, xs, e1, e2, e3, e4, e5⟩ := corp_real iso y x hl
  obtain ⟨c, hc1, hc2⟩ := hiso ys
  have hperm : xs.Perm x := by
    have := e5.map Prod.snd
    rwa [List.map_snd_zip (by omega), List.map_snd_zip (by omega)] at this
  have hyperm : ys.Perm y := by
    have := e5.map Prod.fst
    rwa [List.map_fst_zip (by omega), List.map_fst_zip (by omega)] at this
  have hxs0 : xs ≠ [] := fun h => hx0 (by rw [h] at hperm; exact hperm.nil_eq.symm)
  have hcl : c.length = xs.length := by rw [hc2.length, e3, e2]
  have hcr : ∀ a ∈ c, 0 ≤ a ∧ a ≤ 1 := C60_cep_range zero_le_one hc2 fun a ha => by
    rcases hy a (hyperm.mem_iff.1 ha) with rfl | rfl <;> simp
  have key : ∀ d ∈ draws, _ := fun d hdd => replicate_real (iso := iso) (bt := bt) hiso hxs0
    (fun a ha => hx a (hperm.mem_iff.1 ha)) hcl hcr (by rw [hperm.length_eq]; exact hd d hdd) hbt
  choose! f hf1 hf2 hf3 using key
  refine ⟨xs, f, hperm, e4, hf1, hf2, ?_⟩
  unfold diagramBand
  rw [e1, hc1]
  simp only
  unfold uncertaintyBand
  rw [mapM_ok' draws _ _ hf3]
  show Except.map _ (if _ then _ else _) = _
  rw [if_neg (by rw [not_or, not_lt, not_lt]; exact ⟨h0, h1⟩)]
  have hcol : ∀ i, i < xs.length → ((draws.map fun d => xs.map fun t => if Covers xs d t then fin (f d t) else nan).map
      fun r => idx r i) = draws.map fun d => if Covers xs d (xs.getD i 0) then fin (f d (xs.getD i 0)) else nan := by
    intro i hi
    rw [List.map_map]
    apply List.map_congr_left
    intro d _
    simp [idx, hi]
  have hmap : ∀ q : ℝ, q ≤ 1 → ((List.range (xs.map fin).length).map fun i => nanQuantile q
      ((draws.map fun d => xs.map fun t => if Covers xs d t then fin (f d t) else nan).map fun r => idx r i))
      = xs.map (fun t => if (∃ d ∈ draws, Covers xs d t) then
          fin (rquant q ((draws.filter fun d => decide (Covers xs d t)).map fun d => f d t)) else nan) := by
    intro q hq
    apply List.ext_getElem
    · simp
    · intro i hi1 hi2
      have hi : i < xs.length := by simpa using hi1
      rw [List.getElem_map, List.getElem_map, List.getElem_range, hcol i hi, getD_lt hi, nanQuantile_col hq]
  simp only
  rw [hmap α h1, hmap (1 - α) (by linarith)]
  rfl

/-- C122: for outcomes 0 and 1 and forecast probabilities, whatever the random numbers, the band is defined at a
forecast exactly when some replicate reaches to both sides of it, and is NaN otherwise.  Where it is defined both ends
are probabilities; they are in order for `alpha` up to one half and in the wrong order from there on. -/
theorem C122_band (hiso : IsoRegression iso) {y x : List ℝ} (hl : x.length = y.length) (hx0 : x ≠ [])
    (hy : ∀ a ∈ y, a = 0 ∨ a = 1) (hx : ∀ a ∈ x, 0 ≤ a ∧ a ≤ 1) (draws : List Draw)
    (hd : ∀ d ∈ draws, GoodDraw x.length d) (hbt : bt ∈ ["consistency", "confidence"]) (α : ℝ) (h0 : 0 ≤ α)
    (h1 : α ≤ 1) :
    ∃ (xs : List ℝ) (ql qu : List XF), diagramBand iso (y.map fin) (x.map fin) draws bt α = .ok (xs.map fin, ql, qu) ∧
      xs.Perm x ∧ xs.Pairwise (· ≤ ·) ∧ ql.length = x.length ∧ qu.length = x.length ∧
      ∀ i, ∀ hi : i < xs.length,
        ((∃ d ∈ draws, Covers xs d xs[i]) → ∃ l u : ℝ, ql[i]? = some (fin l) ∧ qu[i]? = some (fin u) ∧
          0 ≤ l ∧ l ≤ 1 ∧ 0 ≤ u ∧ u ≤ 1 ∧ (α ≤ 1 / 2 → l ≤ u) ∧ (1 / 2 ≤ α → u ≤ l)) ∧
        ((¬∃ d ∈ draws, Covers xs d xs[i]) → ql[i]? = some nan ∧ qu[i]? = some nan) := by
  obtain ⟨xs, f, hp, hs, hf1, hf2, e⟩ := band_real hiso hl hx0 hy hx hd hbt h0 h1
  refine ⟨xs, _, _, e, hp, hs, by simp [hp.length_eq], by simp [hp.length_eq], fun i hi => ⟨fun hc => ?_, fun hc => ?_⟩⟩
  · have hne : ((draws.filter fun d => decide (Covers xs d xs[i])).map fun d => f d xs[i]) ≠ [] := by
      obtain ⟨d, hd', hC⟩ := hc
      intro hn
      have := List.map_eq_nil_iff.1 hn
      rw [List.filter_eq_nil_iff] at this
      exact this d hd' (by simpa using hC)
    have hr : ∀ a ∈ (draws.filter fun d => decide (Covers xs d xs[i])).map fun d => f d xs[i], 0 ≤ a ∧ a ≤ 1 := by
      intro a ha
      obtain ⟨d, hdm, rfl⟩ := List.mem_map.1 ha
      obtain ⟨hdm, hC⟩ := List.mem_filter.1 hdm
      exact hf1 d hdm _ (by simpa using hC)
    refine ⟨_, _, by rw [List.getElem?_map, List.getElem?_eq_getElem hi]; simp only [Option.map_some]; rw [if_pos hc],
      by rw [List.getElem?_map, List.getElem?_eq_getElem hi]; simp only [Option.map_some]; rw [if_pos hc],
      (rquant_range h0 h1 hne hr).1, (rquant_range h0 h1 hne hr).2,
      (rquant_range (by linarith) (by linarith) hne hr).1, (rquant_range (by linarith) (by linarith) hne hr).2,
      fun h => rquant_mono h0 (by linarith) (by linarith) hne, fun h => rquant_mono (by linarith) (by linarith) h1 hne⟩
  · rw [List.getElem?_map, List.getElem?_map, List.getElem?_eq_getElem hi]
    simp only [Option.map_some]
    rw [if_neg hc, if_neg hc]
    exact ⟨rfl, rfl⟩

/-- a draw whose outcomes are all the same, for the examples -/
def constDraw (l : List ℕ) (b : Bool) : Draw := ⟨l, fun p => p.map fun _ => fin (if b then 1 else 0)⟩

theorem goodDraw_ex {l : List ℕ} {n : ℕ} (h : l.length = n) (hl : ∀ i ∈ l, i < n) (b : Bool) :
    GoodDraw n (constDraw l b) :=
  ⟨h, hl, fun p => ⟨p.map fun _ => b, by simp, by simp [constDraw]⟩⟩

/-- three forecasts, one replicate that repeats the second forecast -/
example : (∃ iso, IsoRegression iso) ∧ ([1 / 2, 1 / 4, 1] : List ℝ).length = ([0, 1, 1] : List ℝ).length ∧
    (∀ a ∈ ([0, 1, 1] : List ℝ), a = 0 ∨ a = 1) ∧ (∀ a ∈ ([1 / 2, 1 / 4, 1] : List ℝ), 0 ≤ a ∧ a ≤ 1) ∧
    GoodDraw 3 (constDraw [1, 1, 2] true) ∧
    "consistency" ∈ ["consistency", "confidence"] ∧ (0:ℝ) ≤ 1 / 20 ∧ (1 / 20 : ℝ) ≤ 1 := by
  refine ⟨exists_isoRegression, rfl, by simp, ?_, goodDraw_ex (by simp) (by simp) _, by simp, by norm_num, by norm_num⟩
  intro a ha
  simp only [List.mem_cons, List.not_mem_nil, or_false] at ha
  rcases ha with rfl | rfl | rfl <;> norm_num

/-- C122: the level of each end is `alpha`, not half of it: among the replicates that reach a forecast, at most
`alpha (n - 1) + 1` lie below the lower end and more than `alpha (n - 1)` do not lie above it.  (For the upper end read
`1 - alpha`.) -/
theorem C122_level {p : ℝ} (h0 : 0 ≤ p) (h1 : p ≤ 1) {col : List XF} {v : List ℝ} (hv : v ≠ [])
    (hc : col.filter (fun a => decide (¬a.isnan)) = v.map fin) :
    ∃ q : ℝ, nanQuantile p col = fin q ∧ ((v.countP fun a => decide (a < q) : ℕ) : ℝ) ≤ (v.length - 1) * p + 1 ∧
      (v.length - 1) * p < (v.countP fun a => decide (a ≤ q) : ℕ) := by
  refine ⟨rquant p v, ?_, rquant_count h0 h1 hv⟩
  unfold nanQuantile
  simp only [hc]
  rw [if_neg (by simpa using hv), quantile_rquant h1 hv]

/-- three replicates, one of which does not reach the forecast -/
example : (0:ℝ) ≤ 1 / 20 ∧ (1 / 20 : ℝ) ≤ 1 ∧ ([1, 0] : List ℝ) ≠ [] ∧
    [fin 1, nan, fin 0].filter (fun a => decide (¬a.isnan)) = ([1, 0] : List ℝ).map fin := by
  refine ⟨by norm_num, by norm_num, by simp, ?_⟩
  rw [List.filter_cons_of_pos (by rw [decide_eq_true_eq]; simp [XF.isnan]),
    List.filter_cons_of_neg (by rw [decide_eq_true_eq]; simp [XF.isnan]),
    List.filter_cons_of_pos (by rw [decide_eq_true_eq]; simp [XF.isnan])]
  rfl

/-- C122: a misspelt kind of band is not reported as such: the loop uses `_y` before assignment. -/
theorem C122_bandtype (x cep : List XF) (d : Draw) (draws : List Draw) (hbt : bt ∉ ["consistency", "confidence"])
    (α : ℝ) : uncertaintyBand iso x cep (d :: draws) bt α = .error .unboundLocalError := by
  simp only [List.mem_cons, List.not_mem_nil, or_false, not_or] at hbt
  have h : Reliability.replicate iso x cep bt d = .error .unboundLocalError := by
    unfold Reliability.replicate bandProbs
    rw [if_neg hbt.1, if_neg hbt.2]
  unfold uncertaintyBand
  rw [List.mapM_cons, h]
  rfl

/-- a capital letter -/
example : "Confidence" ∉ ["consistency", "confidence"] := by simp

/-- C122: a level outside [0, 1] is refused with `ValueError`, after all replicates have been computed. -/
theorem C122_alpha (hiso : IsoRegression iso) {x cep : List ℝ} (hx0 : x ≠ []) (hx : ∀ a ∈ x, 0 ≤ a ∧ a ≤ 1)
    (hc : cep.length = x.length) (hcep : ∀ a ∈ cep, 0 ≤ a ∧ a ≤ 1) (draws : List Draw)
    (hd : ∀ d ∈ draws, GoodDraw x.length d) (hbt : bt ∈ ["consistency", "confidence"]) (α : ℝ) (h : α < 0 ∨ 1 < α) :
    uncertaintyBand iso (x.map fin) (cep.map fin) draws bt α = .error (.py .valueError) := by
  have key : ∀ d ∈ draws, _ := fun d hdd => replicate_real (iso := iso) (bt := bt) hiso hx0 hx hc hcep (hd d hdd) hbt
  choose! f hf1 hf2 hf3 using key
  unfold uncertaintyBand
  rw [mapM_ok' draws _ _ hf3]
  show (if _ then _ else _) = _
  rw [if_pos h]

/-- five percent given as 5 -/
example : (∃ iso, IsoRegression iso) ∧ ([1 / 4, 1] : List ℝ) ≠ [] ∧ (∀ a ∈ ([0, 1] : List ℝ), 0 ≤ a ∧ a ≤ 1) ∧
    GoodDraw 2 (constDraw [1, 1] true) ∧ ((5:ℝ) < 0 ∨ 1 < (5:ℝ)) := by
  refine ⟨exists_isoRegression, by simp, ?_, goodDraw_ex (by simp) (by simp) _, Or.inr (by norm_num)⟩
  intro a ha
  simp only [List.mem_cons, List.not_mem_nil, or_false] at ha
  rcases ha with rfl | rfl <;> norm_num

/-- What is proved of C123: both ends of the band ascend with the forecast if every replicate contains the smallest and
the largest forecast.  Missing: replicates that leave out an extreme forecast, for which it is false
(`C123_false`). -/
theorem C123_partial (hiso : IsoRegression iso) {y x : List ℝ} (hl : x.length = y.length) (hx0 : x ≠ [])
    (hy : ∀ a ∈ y, a = 0 ∨ a = 1) (hx : ∀ a ∈ x, 0 ≤ a ∧ a ≤ 1) (draws : List Draw) (hd0 : draws ≠ [])
    (hd : ∀ d ∈ draws, GoodDraw x.length d) (hex : ∀ d ∈ draws, 0 ∈ d.idx ∧ x.length - 1 ∈ d.idx)
    (hbt : bt ∈ ["consistency", "confidence"]) (α : ℝ) (h0 : 0 ≤ α) (h1 : α ≤ 1) :
    ∃ (xs ql qu : List ℝ), diagramBand iso (y.map fin) (x.map fin) draws bt α
        = .ok (xs.map fin, ql.map fin, qu.map fin) ∧
      ql.Pairwise (· ≤ ·) ∧ qu.Pairwise (· ≤ ·) := by
  obtain ⟨xs, f, hp, hs, hf1, hf2, e⟩ := band_real hiso hl hx0 hy hx hd hbt h0 h1
  have hlen : 0 < xs.length := by rw [hp.length_eq]; exact List.length_pos_iff.2 hx0
  have hcov : ∀ d ∈ draws, ∀ t ∈ xs, Covers xs d t := fun d hdm t ht => by
    obtain ⟨i, hi, rfl⟩ := List.getElem_of_mem ht
    rw [← getD_lt hi]
    refine ⟨⟨0, (hex d hdm).1, getD_mono hs (Nat.zero_le _) hi⟩, x.length - 1, (hex d hdm).2, ?_⟩
    rw [← hp.length_eq]
    exact getD_mono hs (by omega) (by omega)
  have hfil : ∀ t ∈ xs, (draws.filter fun d => decide (Covers xs d t)) = draws := fun t ht => by
    rw [List.filter_eq_self]
    intro d hdm
    simpa using hcov d hdm t ht
  have hexd : ∀ t ∈ xs, ∃ d ∈ draws, Covers xs d t := fun t ht => by
    obtain ⟨d, hdm⟩ := List.exists_mem_of_ne_nil _ hd0
    exact ⟨d, hdm, hcov d hdm t ht⟩
  have hval : ∀ q : ℝ, (xs.map fun t => if (∃ d ∈ draws, Covers xs d t) then
      fin (rquant q ((draws.filter fun d => decide (Covers xs d t)).map fun d => f d t)) else nan)
      = (xs.map fun t => rquant q (draws.map fun d => f d t)).map fin := fun q => by
    rw [List.map_map]
    apply List.map_congr_left
    intro t ht
    rw [if_pos (hexd t ht), hfil t ht]
    rfl
  have hmono : ∀ q : ℝ, 0 ≤ q → q ≤ 1 → (xs.map fun t => rquant q (draws.map fun d => f d t)).Pairwise (· ≤ ·) := by
    intro q q0 q1
    rw [List.pairwise_map]
    refine hs.imp_of_mem ?_
    intro t t' ht ht' htt
    refine rquant_forall2 q0 q1 (by simpa using hd0) ?_
    rw [List.forall₂_map_left_iff, List.forall₂_map_right_iff, List.forall₂_same]
    exact fun d hdm => hf2 d hdm t t' (hcov d hdm t ht) (hcov d hdm t' ht') htt
  exact ⟨xs, _, _, by rw [e, hval α, hval (1 - α)], hmono α h0 h1, hmono _ (by linarith) (by linarith)⟩

/-- three forecasts, two replicates that contain the first and the last -/
example : (∃ iso, IsoRegression iso) ∧
    GoodDraw 3 (constDraw [2, 0, 2] true) ∧
    GoodDraw 3 (constDraw [0, 1, 2] false) ∧
    (∀ l ∈ [[2, 0, 2], [0, 1, 2]], 0 ∈ l ∧ 3 - 1 ∈ l) :=
  ⟨exists_isoRegression, goodDraw_ex (by simp) (by simp) _, goodDraw_ex (by simp) (by simp) _, by simp⟩

theorem argsort_two {a b : ℝ} (h : a ≤ b) : argsort [fin a, fin b] = [0, 1] := by
  simp [argsort, List.range, List.range.loop, List.mergeSort, idx, h]

theorem corp_two {a b : ℝ} (h : a ≤ b) (u v : XF) : corpReliability iso [u, v] [fin a, fin b]
    = .ok ([fin a, fin b], [u, v], iso [u, v]) := by
  unfold corpReliability
  simp [argsort_two h, gather, idx]

theorem iso_const (hiso : IsoRegression iso) (a : ℝ) : iso [fin a, fin a] = [fin a, fin a] := by
  obtain ⟨c, hc, hf⟩ := hiso [a, a]
  have hl := hf.length
  have hr := C60_cep_range le_rfl hf (lo := a) (hi := a) (by simp)
  rw [List.map_cons, List.map_cons, List.map_nil] at hc
  rw [hc]
  match c, hl with
  | [p, q], _ =>
    have h1 := hr p (by simp)
    have h2 := hr q (by simp)
    simp [le_antisymm h1.2 h1.1, le_antisymm h2.2 h2.1]

/-- C123 is false of the code: with forecasts 0.5 and 0.6, one replicate that draws both and sees two events, and one
that draws 0.6 twice and sees none, both ends of the band fall from 0.5 to 0.6. -/
theorem C123_false (hiso : IsoRegression iso) :
    GoodDraw 2 (constDraw [0, 1] true) ∧ GoodDraw 2 (constDraw [1, 1] false) ∧
    diagramBand iso [fin 0, fin 1] [fin (1 / 2), fin (3 / 5)] [constDraw [0, 1] true, constDraw [1, 1] false]
      "consistency" (1 / 20) = .ok ([fin (1 / 2), fin (3 / 5)], [fin 1, fin (1 / 20)], [fin 1, fin (19 / 20)]) := by
  refine ⟨goodDraw_ex (by simp) (by simp) _, goodDraw_ex (by simp) (by simp) _, ?_⟩
  have hA : ∀ c, Reliability.replicate iso [fin (1 / 2), fin (3 / 5)] c "consistency" (constDraw [0, 1] true)
      = .ok [fin 1, fin 1] := fun c => by
    have hi : (fun t => interp1 [fin (1 / 2), fin (3 / 5)] [fin 1, fin 1] (fin t))
        = fun t => if (1 / 2 : ℝ) ≤ t ∧ t ≤ 3 / 5 then fin (poly [1 / 2, 3 / 5] [1, 1] t) else nan := funext fun t =>
      interp1_fin (xs := [1 / 2, 3 / 5]) (c := [1, 1]) (by simp) rfl t
    have h1 := congrFun hi (1 / 2)
    have h2 := congrFun hi (3 / 5)
    rw [if_pos (by norm_num)] at h1 h2
    have p1 : poly [1 / 2, 3 / 5] [1, 1] (1 / 2) = 1 := by
      have : below [1 / 2, 3 / 5] (1 / 2) = 1 := by norm_num [below, List.takeWhile_cons]
      unfold poly
      rw [this]
      simp
    have p2 : poly [1 / 2, 3 / 5] [1, 1] (3 / 5) = 1 := by
      have : below [1 / 2, 3 / 5] (3 / 5) = 2 := by norm_num [below, List.takeWhile_cons]
      unfold poly
      rw [this]
      simp
    unfold Reliability.replicate bandProbs
    simp only [if_true, constDraw, gather, List.map_cons, List.map_nil, idx, List.getD_cons_zero, List.getD_cons_succ]
    rw [if_neg (by simp; norm_num), corp_two (by norm_num), iso_const hiso]
    simp only
    rw [if_neg (by simp), h1, h2, p1, p2]
  have hB : ∀ c, Reliability.replicate iso [fin (1 / 2), fin (3 / 5)] c "consistency" (constDraw [1, 1] false)
      = .ok [nan, fin 0] := fun c => by
    have hi : (fun t => interp1 [fin (3 / 5), fin (3 / 5)] [fin 0, fin 0] (fin t))
        = fun t => if (3 / 5 : ℝ) ≤ t ∧ t ≤ 3 / 5 then fin (poly [3 / 5, 3 / 5] [0, 0] t) else nan := funext fun t =>
      interp1_fin (xs := [3 / 5, 3 / 5]) (c := [0, 0]) (by simp) rfl t
    have h1 := congrFun hi (1 / 2)
    have h2 := congrFun hi (3 / 5)
    rw [if_neg (by norm_num)] at h1
    rw [if_pos (by norm_num)] at h2
    have p2 : poly [3 / 5, 3 / 5] [0, 0] (3 / 5) = 0 := by
      have : below [3 / 5, 3 / 5] (3 / 5) = 2 := by norm_num [below, List.takeWhile_cons]
      unfold poly
      rw [this]
      simp
    unfold Reliability.replicate bandProbs
    simp only [if_true, constDraw, gather, List.map_cons, List.map_nil, idx, List.getD_cons_zero, List.getD_cons_succ,
      Bool.false_eq_true, if_false]
    rw [if_neg (by simp; norm_num), corp_two (by norm_num), iso_const hiso]
    simp only
    rw [if_neg (by simp), h1, h2, p2]
  have hs1 : rsort [1] = [1] := by simp [rsort]
  have hs2 : rsort [1, 0] = [0, 1] := by simp [rsort, List.mergeSort, List.merge]
  have q1 : ∀ p : ℝ, p ≤ 1 → nanQuantile p [fin 1, nan] = fin 1 := fun p hp => by
    unfold nanQuantile
    have e : [fin 1, nan].filter (fun a => decide (¬a.isnan)) = [1].map fin := by
      rw [List.filter_cons_of_pos (by rw [decide_eq_true_eq]; simp [XF.isnan]),
        List.filter_cons_of_neg (by rw [decide_eq_true_eq]; simp [XF.isnan])]
      rfl
    simp only [e]
    rw [if_neg (by simp), quantile_rquant hp (by simp)]
    simp [rquant, lerp, hs1]
  have q2 : ∀ p : ℝ, 0 ≤ p → p < 1 → nanQuantile p [fin 1, fin 0] = fin p := fun p hp0 hp => by
    unfold nanQuantile
    have e : [fin 1, fin 0].filter (fun a => decide (¬a.isnan)) = [1, 0].map fin := by
      rw [List.filter_cons_of_pos (by rw [decide_eq_true_eq]; simp [XF.isnan]),
        List.filter_cons_of_pos (by rw [decide_eq_true_eq]; simp [XF.isnan])]
      rfl
    simp only [e]
    rw [if_neg (by simp), quantile_rquant hp.le (by simp)]
    have : ⌊p⌋₊ = 0 := Nat.floor_eq_zero.2 hp
    simp [rquant, lerp, hs2, this]
  unfold diagramBand
  rw [corp_two (by norm_num)]
  simp only
  unfold uncertaintyBand
  rw [List.mapM_cons, hA, List.mapM_cons, hB]
  show Except.map _ (if _ then _ else _) = _
  rw [if_neg (by norm_num)]
  simp only [Except.map, List.length_cons, List.length_nil, List.range, List.range.loop, List.map_cons, List.map_nil, idx,
    List.getD_cons_zero, List.getD_cons_succ, List.reverse_nil]
  rw [q1 _ (by norm_num), q1 _ (by norm_num), q2 _ (by norm_num) (by norm_num), q2 _ (by norm_num) (by norm_num)]
  norm_num

/-- isotonic regressions exist -/
example : ∃ iso, IsoRegression iso := exists_isoRegression

end

end Verif
