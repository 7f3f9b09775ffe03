import Verif.Lemmas.CrpsNan
import Verif.Lemmas.KernelApi
import Verif.Lemmas.EnergyApi
import Verif.Lemmas.VariogramApi

/-! NaN propagation through the kernel, energy and variogram scores. -/

noncomputable section

open scoped Classical

namespace Verif

open XF Py Mv

theorem forRange_stay {S : Type} (bad : S → Prop) (lo hi : ℕ) (body : ℕ → S → S)
    (stay : ∀ j s, bad s → bad (body j s)) (s : S) (hs : bad s) : bad (forRange lo hi s body) := by
  unfold forRange
  generalize List.range' lo (hi - lo) = l
  induction l generalizing s with
  | nil => exact hs
  | cons a l ih => exact ih _ (stay a s hs)

/-- a loop whose `i`-th round makes the state bad, and which never repairs it, ends in a bad state -/
theorem forRange_absorb {S : Type} (bad : S → Prop) {lo hi i : ℕ} (h1 : lo ≤ i) (h2 : i < hi)
    (body : ℕ → S → S) (stay : ∀ j s, bad s → bad (body j s)) (hit : ∀ s, bad (body i s)) (s : S) :
    bad (forRange lo hi s body) := by
  unfold forRange
  have hm : i ∈ List.range' lo (hi - lo) := by rw [List.mem_range'_1]; omega
  generalize List.range' lo (hi - lo) = l at hm
  induction l generalizing s with
  | nil => simp at hm
  | cons a l ih =>
    rw [List.foldl_cons]
    by_cases h : i ∈ l
    · exact ih _ h
    · have : a = i := by
        rcases List.mem_cons.1 hm with h' | h'
        · exact h'.symm
        · exact absurd h' h
      subst this
      have key : ∀ (l : List ℕ) (s : S), bad s → bad (l.foldl (fun s i => body i s) s) := by
        intro l
        induction l with
        | nil => intro s hs; exact hs
        | cons b l ih => intro s hs; exact ih _ (stay b s hs)
      exact key l _ (hit s)

/-- the first accumulator of a two-accumulator loop -/
theorem forRange_fst_nan {S : Type} {M i : ℕ} (hi : i < M) {f : ℕ → XF} {g : ℕ → XF × S → S}
    (h : f i = nan) (s : XF × S) :
    (forRange 0 M s fun i e => (e.1 + f i, g i e)).1 = nan :=
  forRange_absorb (fun e : XF × S => e.1 = nan) (Nat.zero_le _) hi _
    (fun j s hs => by simp [hs]) (fun s => by simp [h]) s

theorem zip_getD_mem {α β : Type} {a : List α} {b : List β} {i : ℕ} (ha : i < a.length)
    (hb : i < b.length) (d : α) (e : β) : (a.getD i d, b.getD i e) ∈ a.zip b := by
  rw [List.mem_iff_getElem]
  exact ⟨i, by simp [ha, hb], by simp [ha, hb]⟩

theorem getD_mem {α : Type} {a : List α} {i : ℕ} (ha : i < a.length) (d : α) : a.getD i d ∈ a := by
  simp [ha]

section kernels
variable {α : Type} {k : α → α → XF} {d obs : α} {fct : List α} {i : ℕ}

/-- the kernel values of member `i` with the observation are NaN -/
structure KNan (k : α → α → XF) (d obs : α) (fct : List α) (i : ℕ) : Prop where
  lt : i < fct.length
  l : k (fct.getD i d) obs = nan
  r : k obs (fct.getD i d) = nan

/-- the weighted kernel values of member `i` with the observation are NaN -/
structure KNanW (k : α → α → XF) (d obs : α) (fct : List α) (w : List XF) (i : ℕ) : Prop where
  lt : i < fct.length
  ltw : i < w.length
  nn : (k (fct.getD i d) obs = nan ∧ k obs (fct.getD i d) = nan) ∨ idx w i = nan

theorem KNanW.l {w : List XF} (h : KNanW k d obs fct w i) : k (fct.getD i d) obs * idx w i = nan := by
  rcases h.nn with h | h <;> simp only [h, nan_mul, mul_nan]

section u
variable (h : KNan k d obs fct i)
include h

namespace KsGufunc
theorem nrg_nan : nrg k d obs fct = nan := by
  unfold nrg; dsimp only; rw [forRange_fst_nan h.lt h.l]; simp
theorem fair_nan : fair k d obs fct = nan := by
  unfold fair; dsimp only; rw [forRange_fst_nan h.lt h.l]; simp
theorem akr_nan : akr k d obs fct = nan := by
  unfold akr; dsimp only; rw [forRange_fst_nan h.lt h.l]; simp
theorem akrCircperm_nan : akrCircperm k d obs fct = nan := by
  unfold akrCircperm; dsimp only; rw [forRange_fst_nan h.lt h.l]; simp
theorem ow_nan (o : XF) (fw : List XF) : ow k d obs fct o fw = nan := by
  unfold ow; dsimp only
  rw [forRange_fst_nan (f := fun i => k (fct.getD i d) obs * idx fw i * o) h.lt (by simp only [h.l, nan_mul])]; simp
theorem vr_nan (o : XF) (fw : List XF) : vr k d obs fct o fw = nan := by
  unfold vr; dsimp only
  rw [forRange_fst_nan (f := fun i => k (fct.getD i d) obs * idx fw i * o) h.lt (by simp only [h.l, nan_mul])]; simp
end KsGufunc

namespace KsApprox
theorem e1_nan : e1 k obs fct = nan := sum_map_nan (getD_mem h.lt d) h.r
theorem nrg_nan : nrg k obs fct = nan := by unfold nrg; simp [e1_nan h]
theorem fair_nan : fair k obs fct = nan := by unfold fair; simp [e1_nan h]
theorem akr_nan (d' : α) : akr k d' obs fct = nan := by unfold akr; simp [e1_nan h]
theorem akrCircperm_nan (d' : α) : akrCircperm k d' obs fct = nan := by
  unfold akrCircperm; simp [e1_nan h]

variable {fw : List XF} (hf : fw.length = fct.length)
include hf

theorem owUv_nan (o : XF) : owUv k obs fct o fw = nan := by
  have := sum_map_nan (f := fun p : α × XF => k obs p.1 * p.2)
    (zip_getD_mem h.lt (b := fw) (by rw [hf]; exact h.lt) d nan) (by simp only [h.r, nan_mul])
  unfold owUv; simp [this]
theorem owMv_nan (o : XF) : owMv k obs fct o fw = nan := by
  have := sum_map_nan (f := fun p : α × XF => k obs p.1 * p.2 * o)
    (zip_getD_mem h.lt (b := fw) (by rw [hf]; exact h.lt) d nan) (by simp only [h.r, nan_mul])
  unfold owMv; simp [this]
theorem vrUv_nan (o : XF) : vrUv k obs fct o fw = nan := by
  have := sum_map_nan (f := fun p : α × XF => k obs p.1 * p.2)
    (zip_getD_mem h.lt (b := fw) (by rw [hf]; exact h.lt) d nan) (by simp only [h.r, nan_mul])
  unfold vrUv; simp [this]
theorem vrMv_nan (o : XF) : vrMv k obs fct o fw = nan := by
  have := sum_map_nan (f := fun p : α × XF => k obs p.1 * p.2 * o)
    (zip_getD_mem h.lt (b := fw) (by rw [hf]; exact h.lt) d nan) (by simp only [h.r, nan_mul])
  unfold vrMv; simp [this]
end KsApprox
end u

section w
variable {w : List XF} (h : KNanW k d obs fct w i)
include h

namespace KsGufuncW
theorem nrg_nan : nrg k d obs fct w = nan := by
  unfold nrg; dsimp only; rw [forRange_fst_nan h.lt h.l]; simp
theorem fair_nan : fair k d obs fct w = nan := by
  unfold fair; dsimp only; rw [forRange_fst_nan h.lt h.l]; simp
theorem akr_nan : akr k d obs fct w = nan := by
  unfold akr; dsimp only; rw [forRange_fst_nan h.lt h.l]; simp
theorem akrCircperm_nan : akrCircperm k d obs fct w = nan := by
  unfold akrCircperm; dsimp only; rw [forRange_fst_nan h.lt h.l]; simp
theorem ow_nan (o : XF) (fw : List XF) : ow k d obs fct o fw w = nan := by
  unfold ow; dsimp only
  rw [forRange_fst_nan (f := fun i => k (fct.getD i d) obs * idx fw i * o * idx w i) h.lt
    (by rcases h.nn with h | h <;> simp only [h, nan_mul, mul_nan])]; simp
theorem vr_nan (o : XF) (fw : List XF) : vr k d obs fct o fw w = nan := by
  unfold vr; dsimp only
  rw [forRange_fst_nan (f := fun i => k (fct.getD i d) obs * idx fw i * o * idx w i) h.lt
    (by rcases h.nn with h | h <;> simp only [h, nan_mul, mul_nan])]; simp
end KsGufuncW

namespace KsApproxW
theorem e1_nan : e1 k obs fct w = nan := by
  refine sum_map_nan (zip_getD_mem h.lt h.ltw d nan) ?_
  rcases h.nn with h | h
  · simp only [h.2, nan_mul]
  · unfold idx at h; simp only [h, mul_nan]
theorem nrg_nan : nrg k obs fct w = nan := by unfold nrg; simp [e1_nan h]
theorem fair_nan : fair k obs fct w = nan := by unfold fair; simp [e1_nan h]
theorem akr_nan (d' : α) : akr k d' obs fct w = nan := by unfold akr; simp [e1_nan h]
theorem akrCircperm_nan (d' : α) : akrCircperm k d' obs fct w = nan := by
  unfold akrCircperm; simp [e1_nan h]

variable {fw : List XF} (hf : fw.length = fct.length)
include hf

theorem xw_mem : ((fct.getD i d, fw.getD i nan), w.getD i nan) ∈ (fct.zip fw).zip w := by
  have hl : i < (fct.zip fw).length := by simp [hf, h.lt]
  have := zip_getD_mem hl h.ltw (d, nan) nan
  have e : (fct.zip fw).getD i (d, nan) = (fct.getD i d, fw.getD i nan) := by
    simp [hl, h.lt, hf]
  rw [e] at this
  exact this

theorem owUv_nan (o : XF) : owUv k obs fct o fw w = nan := by
  have := sum_map_nan (f := fun p : (α × XF) × XF => p.2 * k obs p.1.1 * p.1.2) (xw_mem h hf)
    (by rcases h.nn with h | h
        · simp only [h.2, mul_nan, nan_mul]
        · unfold idx at h; simp only [h, nan_mul])
  unfold owUv; simp [this]
theorem owMv_nan (o : XF) : owMv k obs fct o fw w = nan := by
  have := sum_map_nan (f := fun p : (α × XF) × XF => k obs p.1.1 * p.1.2 * o * p.2) (xw_mem h hf)
    (by rcases h.nn with h | h
        · simp only [h.2, nan_mul]
        · unfold idx at h; simp only [h, mul_nan])
  unfold owMv; simp [this]
theorem vrUv_nan (o : XF) : vrUv k obs fct o fw w = nan := by
  have := sum_map_nan (f := fun p : (α × XF) × XF => p.2 * k obs p.1.1 * p.1.2) (xw_mem h hf)
    (by rcases h.nn with h | h
        · simp only [h.2, mul_nan, nan_mul]
        · unfold idx at h; simp only [h, nan_mul])
  unfold vrUv; simp [this]
theorem vrMv_nan (o : XF) : vrMv k obs fct o fw w = nan := by
  have := sum_map_nan (f := fun p : (α × XF) × XF => k obs p.1.1 * p.1.2 * o * p.2) (xw_mem h hf)
    (by rcases h.nn with h | h
        · simp only [h.2, nan_mul]
        · unfold idx at h; simp only [h, mul_nan])
  unfold vrMv; simp [this]
end KsApproxW
end w
end kernels

/-! ### energy score -/

section energy
variable {obs : List XF} {fct : List (List XF)} {i : ℕ}

/-- the distance between vectors as a kernel -/
def ekern (a b : List XF) : XF := vnorm (vsub a b)

section u
variable (h : KNan ekern [] obs fct i)
include h

namespace EsGufunc
theorem loop_nan : (loop obs fct).1 = nan := forRange_fst_nan h.lt h.l _
theorem nrg_nan : nrg obs fct = nan := by unfold nrg; simp [loop_nan h]
theorem fair_nan : fair obs fct = nan := by unfold fair; simp [loop_nan h]
theorem akr_nan : akr obs fct = nan := by
  unfold akr; dsimp only; rw [forRange_fst_nan h.lt h.l]; simp
theorem akrCircperm_nan : akrCircperm obs fct = nan := by
  unfold akrCircperm; dsimp only; rw [forRange_fst_nan h.lt h.l]; simp
theorem ow_nan (o : XF) (fw : List XF) : ow obs fct o fw = nan := by
  unfold ow; dsimp only
  rw [forRange_fst_nan (f := fun i => vnorm (vsub (vat fct i) obs) * idx fw i * o) h.lt
    (by have e : vnorm (vsub (vat fct i) obs) = nan := h.l
        simp only [e, nan_mul])]; simp
theorem vr_nan (o : XF) (fw : List XF) : vr obs fct o fw = nan := by
  unfold vr; dsimp only
  rw [forRange_fst_nan (f := fun i => vnorm (vsub (vat fct i) obs) * idx fw i * o) h.lt
    (by have e : vnorm (vsub (vat fct i) obs) = nan := h.l
        simp only [e, nan_mul])]; simp
end EsGufunc

namespace EsApprox
theorem errNorm_idx : idx (errNorm obs fct) i = nan := by
  have := h.l
  unfold errNorm idx
  unfold ekern at this
  simp only [List.getD_eq_getElem?_getD, List.getElem?_map, List.getElem?_eq_getElem h.lt,
    Option.getD_some, Option.map_some] at this ⊢
  exact this
theorem e1_nan : e1 obs fct = nan := by
  unfold e1 errNorm
  rw [sum_map_nan (getD_mem h.lt []) h.l, nan_div]
theorem nrg_nan : nrg obs fct = nan := by unfold nrg; simp [e1_nan h]
theorem fair_nan : fair obs fct = nan := by unfold fair; simp [e1_nan h]
theorem akr_nan : akr obs fct = nan := by unfold akr; simp [e1_nan h]
theorem akrCircperm_nan : akrCircperm obs fct = nan := by unfold akrCircperm; simp [e1_nan h]

variable {fw : List XF} (hf : fw.length = fct.length)
include hf
theorem ow_nan (o : XF) : ow obs fct o fw = nan := by
  have : (zip2 (fun n w => n * w * o) (errNorm obs fct) fw).sum = nan :=
    zip2_sum_nan (i := i) (by simp [errNorm, h.lt]) (by rw [hf]; exact h.lt)
      (by simp only [errNorm_idx h, nan_mul])
  unfold ow; simp [mean, this]
theorem vr_nan (o : XF) : vr obs fct o fw = nan := by
  have : (zip2 (fun n w => n * (w * o)) (errNorm obs fct) fw).sum = nan :=
    zip2_sum_nan (i := i) (by simp [errNorm, h.lt]) (by rw [hf]; exact h.lt)
      (by simp only [errNorm_idx h, nan_mul])
  unfold vr; simp [mean, this]
end EsApprox
end u

section w
variable {w : List XF} (h : KNanW ekern [] obs fct w i)
include h

namespace EsGufuncW
theorem loop_nan : (loop obs fct w).1 = nan := forRange_fst_nan h.lt h.l _
theorem nrg_nan : nrg obs fct w = nan := by unfold nrg; simp [loop_nan h]
theorem fair_nan : fair obs fct w = nan := by unfold fair; simp [loop_nan h]
theorem akr_nan : akr obs fct w = nan := by
  unfold akr; dsimp only; rw [forRange_fst_nan h.lt h.l]; simp
theorem akrCircperm_nan : akrCircperm obs fct w = nan := by
  unfold akrCircperm; dsimp only; rw [forRange_fst_nan h.lt h.l]; simp
theorem ow_nan (o : XF) (fw : List XF) : ow obs fct o fw w = nan := by
  unfold ow; dsimp only
  rw [forRange_fst_nan (f := fun i => vnorm (vsub (vat fct i) obs) * idx fw i * o * idx w i) h.lt
    (by have e : vnorm (vsub (vat fct i) obs) = nan ∨ idx w i = nan := h.nn.imp_left And.left
        rcases e with e | e <;> simp only [e, nan_mul, mul_nan])]; simp
theorem vr_nan (o : XF) (fw : List XF) : vr obs fct o fw w = nan := by
  unfold vr; dsimp only
  rw [forRange_fst_nan (f := fun i => vnorm (vsub (vat fct i) obs) * idx fw i * o * idx w i) h.lt
    (by have e : vnorm (vsub (vat fct i) obs) = nan ∨ idx w i = nan := h.nn.imp_left And.left
        rcases e with e | e <;> simp only [e, nan_mul, mul_nan])]; simp
end EsGufuncW

namespace EsApproxW
theorem errNorm_or : idx (EsApprox.errNorm obs fct) i = nan ∨ idx w i = nan := by
  rcases h.nn with h' | h'
  · exact .inl (EsApprox.errNorm_idx ⟨h.lt, h'.1, h'.2⟩)
  · exact .inr h'
theorem e1_nan : e1 obs fct w = nan :=
  zip2_sum_nan (i := i) (by simp [EsApprox.errNorm, h.lt]) h.ltw
    (by rcases errNorm_or h with h | h <;> simp only [h, nan_mul, mul_nan])
theorem nrg_nan : nrg obs fct w = nan := by unfold nrg; simp [e1_nan h]
theorem fair_nan : fair obs fct w = nan := by unfold fair; simp [e1_nan h]
theorem akr_nan : akr obs fct w = nan := by unfold akr; simp [e1_nan h]
theorem akrCircperm_nan : akrCircperm obs fct w = nan := by unfold akrCircperm; simp [e1_nan h]

variable {fw : List XF} (hf : fw.length = fct.length)
include hf
theorem e1o_nan (g : XF → XF → XF) (hg : ∀ v, g nan v = nan) :
    (zip2 (· * ·) (zip2 g (EsApprox.errNorm obs fct) fw) w).sum = nan := by
  have hl : i < (zip2 g (EsApprox.errNorm obs fct) fw).length := by
    simp [zip2, EsApprox.errNorm, h.lt, hf]
  refine zip2_sum_nan (i := i) hl h.ltw ?_
  have e : idx (zip2 g (EsApprox.errNorm obs fct) fw) i
      = g (idx (EsApprox.errNorm obs fct) i) (idx fw i) := by
    have h1 : i < (EsApprox.errNorm obs fct).length := by simp [EsApprox.errNorm, h.lt]
    have h2 : i < fw.length := by rw [hf]; exact h.lt
    rw [idx_lt hl, idx_lt h1, idx_lt h2]
    simp [zip2]
  rw [e]
  rcases errNorm_or h with h | h <;> simp only [h, hg, nan_mul, mul_nan]
theorem ow_nan (o : XF) : ow obs fct o fw w = nan := by
  unfold ow
  dsimp only
  rw [e1o_nan h hf (fun n f => n * f * o) (by simp)]
  simp
theorem vr_nan (o : XF) : vr obs fct o fw w = nan := by
  unfold vr
  dsimp only
  rw [e1o_nan h hf (fun n f => n * (f * o)) (by simp)]
  simp
end EsApproxW
end w
end energy

/-! ### variogram score -/

section variogram
variable {W : List (List XF)} {p : ℝ} {obs : List XF} {fct : List (List XF)} {c m : ℕ}

theorem rhoT_self (p : ℝ) (x : List XF) (c : ℕ) : rhoT p x c c = rho p x c c := rfl

/-- at component `c` the observation or member `m` is NaN -/
structure VNan (p : ℝ) (obs : List XF) (fct : List (List XF)) (c m : ℕ) : Prop where
  ltc : c < obs.length
  ltm : m < fct.length
  nn : rho p (vat fct m) c c = nan ∨ rho p obs c c = nan

/-- at component `c` the observation or member `m` is NaN, or the weight of member `m` is -/
structure VNanW (p : ℝ) (obs : List XF) (fct : List (List XF)) (w : List XF) (c m : ℕ) : Prop where
  ltc : c < obs.length
  ltm : m < fct.length
  ltw : m < w.length
  nn : (rho p (vat fct m) c c = nan ∨ rho p obs c c = nan) ∨ idx w m = nan

theorem dsum_nan {D : ℕ} {f : ℕ → ℕ → XF} (hc : c < D) (h : f c c = nan) : dsum D f = nan :=
  sum_range_nan hc (sum_range_nan hc h)

/-- a double loop adding `f i j` -/
theorem forRange2_nan {D : ℕ} {f : ℕ → ℕ → XF} (hc : c < D) (h : f c c = nan) (s : XF) :
    (forRange 0 D s fun i s => forRange 0 D s fun j s => s + f i j) = nan := by
  refine forRange_absorb (fun s : XF => s = nan) (Nat.zero_le _) hc _ ?_ ?_ s
  · intro i s hs
    exact forRange_stay (fun s : XF => s = nan) 0 D _ (fun j s hs => by simp [hs]) s hs
  · intro s
    exact forRange_absorb (fun s : XF => s = nan) (Nat.zero_le _) hc _ (fun j s hs => by simp [hs])
      (fun s => by simp [h]) s

theorem forRange2_stay {D : ℕ} {f : ℕ → ℕ → XF} :
    (forRange 0 D nan fun i s => forRange 0 D s fun j s => s + f i j) = nan := by
  refine forRange_stay (fun s : XF => s = nan) 0 D _ ?_ nan rfl
  intro i s hs
  exact forRange_stay (fun s : XF => s = nan) 0 D _ (fun j s hs => by simp [hs]) s hs

/-- the first accumulator of the loops over members and pairs of components -/
theorem forRange3_fst_nan {M D : ℕ} {f : ℕ → ℕ → ℕ → XF} {S : Type} {g : ℕ → XF × S → S} (hc : c < D)
    (hm : m < M) (h : f m c c = nan) (s : XF × S) :
    (forRange 0 M s fun k e =>
      (forRange 0 D e.1 fun i s => forRange 0 D s fun j s => s + f k i j, g k e)).1 = nan := by
  refine forRange_absorb (fun e : XF × S => e.1 = nan) (Nat.zero_le _) hm _ ?_ ?_ s
  · intro j s hs
    dsimp only
    rw [hs]
    exact forRange2_stay
  · intro s
    exact forRange2_nan hc h _

theorem forRange_sum_nan {M : ℕ} {f : ℕ → XF} (hm : m < M) (h : f m = nan) (s : XF) :
    (forRange 0 M s fun k s => s + f k) = nan :=
  forRange_absorb (fun s : XF => s = nan) (Nat.zero_le _) hm _ (fun j s hs => by simp [hs])
    (fun s => by simp [h]) s

theorem sq_nan' : (nan : XF) ^ 2 = nan := by simp

section u
variable (h : VNan p obs fct c m)
include h

theorem VNan.d : (rho p (vat fct m) c c - rho p obs c c) ^ 2 = nan := by
  rcases h.nn with h | h <;> simp [h]

namespace VsGufunc
theorem nrg_nan : nrg W p obs fct = nan := by
  unfold nrg
  dsimp only
  refine forRange2_nan (f := fun i j => mget W i j * (rho p obs i j -
    (forRange 0 fct.length (0 : XF) fun m v => v + rho p (vat fct m) i j) / (fct.length : XF)) ^ 2)
    h.ltc ?_ 0
  rcases h.nn with h' | h'
  · rw [forRange_sum_nan (f := fun m => rho p (vat fct m) c c) h.ltm h']; simp
  · simp [h']
theorem fair_nan : fair W p obs fct = nan := by
  unfold fair; dsimp only
  rw [forRange3_fst_nan (f := fun k i j => mget W i j * (rho p (vat fct k) i j - rho p obs i j) ^ 2)
    h.ltc h.ltm (by simp only [h.d, mul_nan])]; simp
theorem ow_nan (o : XF) (fw : List XF) : ow W p obs fct o fw = nan := by
  unfold ow; dsimp only
  rw [forRange3_fst_nan (f := fun k i j => mget W i j * (rho p (vat fct k) i j - rho p obs i j) ^ 2
    * idx fw k * o) h.ltc h.ltm (by simp only [h.d, mul_nan, nan_mul])]; simp
theorem vr_nan (o : XF) (fw : List XF) : vr W p obs fct o fw = nan := by
  unfold vr; dsimp only
  rw [forRange3_fst_nan (f := fun k i j => mget W i j * (rho p (vat fct k) i j - rho p obs i j) ^ 2
    * idx fw k * o) h.ltc h.ltm (by simp only [h.d, mul_nan, nan_mul])]; simp
end VsGufunc

namespace VsApprox
theorem e1_nan : e1 W p obs (vat fct m) = nan :=
  dsum_nan h.ltc (by rw [rhoT_self, rhoT_self, h.d, mul_nan])
theorem nrg_nan : nrg W p obs fct = nan := by
  refine dsum_nan h.ltc ?_
  rcases h.nn with h' | h'
  · rw [sum_map_nan (f := fun x => rhoT p x c c) (getD_mem h.ltm []) h']; simp
  · simp [rhoT_self, h']
theorem e1s_idx : idx (fct.map fun x => e1 W p obs x) m = nan := by
  have := e1_nan (W := W) h
  unfold vat at this
  unfold idx
  simp only [List.getD_eq_getElem?_getD, List.getElem?_map, List.getElem?_eq_getElem h.ltm,
    Option.getD_some, Option.map_some] at this ⊢
  exact this
theorem fair_nan : fair W p obs fct = nan := by
  unfold fair; dsimp only
  rw [sum_map_nan (f := fun x => e1 W p obs x) (getD_mem h.ltm []) (e1_nan h)]; simp

variable {fw : List XF} (hf : fw.length = fct.length)
include hf
theorem e1o_nan (o : XF) :
    (zip2 (fun e f => e * f * o) (fct.map fun x => e1 W p obs x) fw).sum = nan :=
  zip2_sum_nan (i := m) (by simp [h.ltm]) (by rw [hf]; exact h.ltm)
    (by simp only [e1s_idx h, nan_mul])
theorem ow_nan (o : XF) : ow W p obs fct o fw = nan := by
  unfold ow; dsimp only [mean]; rw [e1o_nan h hf]; simp
theorem vr_nan (o : XF) : vr W p obs fct o fw = nan := by
  unfold vr; dsimp only [mean]; rw [e1o_nan h hf]; simp
end VsApprox
end u

section w
variable {w : List XF} (h : VNanW p obs fct w c m)
include h

theorem VNanW.d : (rho p (vat fct m) c c - rho p obs c c) ^ 2 = nan ∨ idx w m = nan := by
  rcases h.nn with (h | h) | h <;> simp [h]

namespace VsGufuncW
theorem nrg_nan : nrg W p obs fct w = nan := by
  unfold nrg
  dsimp only
  refine forRange2_nan (f := fun i j => mget W i j * (rho p obs i j -
    (forRange 0 fct.length (0 : XF) fun m v => v + idx w m * rho p (vat fct m) i j)) ^ 2)
    h.ltc ?_ 0
  have key : ∀ h' : rho p (vat fct m) c c = nan ∨ idx w m = nan, _ = nan := fun h' =>
    forRange_sum_nan (f := fun m => idx w m * rho p (vat fct m) c c) h.ltm
      (by rcases h' with h' | h' <;> simp only [h', nan_mul, mul_nan]) 0
  rcases h.nn with (h' | h') | h'
  · rw [key (.inl h')]; simp
  · simp [h']
  · rw [key (.inr h')]; simp
theorem fair_nan : fair W p obs fct w = nan := by
  unfold fair; dsimp only
  rw [forRange3_fst_nan (f := fun k i j => mget W i j * (rho p (vat fct k) i j - rho p obs i j) ^ 2
    * idx w k) h.ltc h.ltm (by rcases h.d with h | h <;> simp only [h, mul_nan, nan_mul])]; simp
theorem ow_nan (o : XF) (fw : List XF) : ow W p obs fct o fw w = nan := by
  unfold ow; dsimp only
  rw [forRange3_fst_nan (f := fun k i j => mget W i j * (rho p (vat fct k) i j - rho p obs i j) ^ 2
    * idx fw k * o * idx w k) h.ltc h.ltm
    (by rcases h.d with h | h <;> simp only [h, mul_nan, nan_mul])]; simp
theorem vr_nan (o : XF) (fw : List XF) : vr W p obs fct o fw w = nan := by
  unfold vr; dsimp only
  rw [forRange3_fst_nan (f := fun k i j => mget W i j * (rho p (vat fct k) i j - rho p obs i j) ^ 2
    * idx fw k * o * idx w k) h.ltc h.ltm
    (by rcases h.d with h | h <;> simp only [h, mul_nan, nan_mul])]; simp
end VsGufuncW

namespace VsApproxW
theorem nrg_nan : nrg W p obs fct w = nan := by
  refine dsum_nan h.ltc ?_
  have key : ∀ h' : rho p (vat fct m) c c = nan ∨ idx w m = nan,
      (zip2 (· * ·) (fct.map fun x => rhoT p x c c) w).sum = nan := fun h' =>
    zip2_sum_nan (i := m) (by simp [h.ltm]) h.ltw (by
      have e : idx (fct.map fun x => rhoT p x c c) m = rho p (vat fct m) c c := by
        unfold idx vat
        simp only [List.getD_eq_getElem?_getD, List.getElem?_map, List.getElem?_eq_getElem h.ltm,
          Option.getD_some, Option.map_some]
        rfl
      rw [e]
      rcases h' with h' | h' <;> simp only [h', nan_mul, mul_nan])
  rcases h.nn with (h' | h') | h'
  · rw [key (.inl h')]; simp
  · simp [rhoT_self, h']
  · rw [key (.inr h')]; simp
theorem e1s_or : idx (fct.map fun x => VsApprox.e1 W p obs x) m = nan ∨ idx w m = nan := by
  rcases h.nn with h' | h'
  · exact .inl (VsApprox.e1s_idx ⟨h.ltc, h.ltm, h'⟩)
  · exact .inr h'
theorem fair_nan : fair W p obs fct w = nan := by
  unfold fair; dsimp only
  rw [zip2_sum_nan (i := m) (by simp [h.ltm]) h.ltw
    (by rcases e1s_or (W := W) h with h | h <;> simp only [h, nan_mul, mul_nan])]; simp

variable {fw : List XF} (hf : fw.length = fct.length)
include hf
theorem e1o_nan (o : XF) : (zip2 (· * ·)
    (zip2 (fun e f => e * f * o) (fct.map fun x => VsApprox.e1 W p obs x) fw) w).sum = nan := by
  have hl : m < (zip2 (fun e f => e * f * o) (fct.map fun x => VsApprox.e1 W p obs x) fw).length := by
    simp [zip2, h.ltm, hf]
  refine zip2_sum_nan (i := m) hl h.ltw ?_
  have e : idx (zip2 (fun e f => e * f * o) (fct.map fun x => VsApprox.e1 W p obs x) fw) m
      = idx (fct.map fun x => VsApprox.e1 W p obs x) m * idx fw m * o := by
    have h1 : m < (fct.map fun x => VsApprox.e1 W p obs x).length := by simp [h.ltm]
    have h2 : m < fw.length := by rw [hf]; exact h.ltm
    rw [idx_lt hl, idx_lt h1, idx_lt h2]
    simp [zip2]
  rw [e]
  rcases e1s_or (W := W) h with h | h <;> simp only [h, nan_mul, mul_nan]
theorem ow_nan (o : XF) : ow W p obs fct o fw w = nan := by
  unfold ow; dsimp only; rw [e1o_nan h hf]; simp
theorem vr_nan (o : XF) : vr W p obs fct o fw w = nan := by
  unfold vr; dsimp only; rw [e1o_nan h hf]; simp
end VsApproxW
end w
end variogram

end Verif
