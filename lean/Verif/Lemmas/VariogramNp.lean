import Verif.Model.VariogramNp
import Verif.Lemmas.EnergyNp

/-!
# The vectorised variogram score, entry by entry
-/

noncomputable section

open scoped Classical

namespace Verif

open XF Py Np Spec Mv

namespace Np

variable {a b : Arr XF} {s : List ℕ} {n m D : ℕ} {W : List ℕ → ℕ → ℕ → XF} {f : XF → XF → XF}

/-- pair weights: one matrix per batch index, or one matrix shared by all -/
def Wt (a : Arr XF) (s : List ℕ) (D : ℕ) (W : List ℕ → ℕ → ℕ → XF) : Prop :=
  Ma a s D D W ∨ ∃ W0, W = (fun _ => W0) ∧ Ma a [] D D fun _ => W0

/-- the same after `expand_dims(w, -3)` -/
def Wt3 (a : Arr XF) (s : List ℕ) (D : ℕ) (W : List ℕ → ℕ → ℕ → XF) : Prop :=
  (Te a s 1 D D fun i _ l p => W i l p) ∨ ∃ W0, W = (fun _ => W0) ∧ Te a [] 1 D D fun _ _ l p => W0 l p

/-- the same after `expand_dims(w, (-3, -4))` -/
def Wt4 (a : Arr XF) (s : List ℕ) (D : ℕ) (W : List ℕ → ℕ → ℕ → XF) : Prop :=
  (Qu a s 1 1 D D fun i _ _ l p => W i l p) ∨
    ∃ W0, W = (fun _ => W0) ∧ Qu a [] 1 1 D D fun _ _ _ l p => W0 l p

theorem Wt.ex3 (h : Wt a s D W) : Ret (expandDims a [-3]) fun b => Wt3 b s D W := by
  rcases h with h | ⟨W0, e, h⟩
  · obtain ⟨b, hb, h⟩ := h.ex3
    exact ⟨b, hb, Or.inl h⟩
  · obtain ⟨b, hb, h⟩ := h.ex3
    exact ⟨b, hb, Or.inr ⟨W0, e, h⟩⟩

theorem Wt.ex34 (h : Wt a s D W) : Ret (expandDims a [-3, -4]) fun b => Wt4 b s D W := by
  rcases h with h | ⟨W0, e, h⟩
  · obtain ⟨b, hb, h⟩ := h.ex34
    exact ⟨b, hb, Or.inl h⟩
  · obtain ⟨b, hb, h⟩ := h.ex34
    exact ⟨b, hb, Or.inr ⟨W0, e, h⟩⟩

theorem Wt.op {v} (h : Wt a s D W) (hb : Ma b s D D v) :
    EMa (Arr.map2 f a b) s D D fun i l p => f (W i l p) (v i l p) := by
  rcases h with h | ⟨W0, rfl, h⟩
  · exact Ma.op h hb
  · exact Ma.opLeft h hb

theorem Wt3.op {v} (h : Wt3 a s D W) (hb : Te b s n D D v) :
    ETe (Arr.map2 f a b) s n D D fun i k l p => f (W i l p) (v i k l p) := by
  rcases h with h | ⟨W0, rfl, h⟩
  · exact Te.opL h hb
  · exact Te.opLeft h hb

theorem Wt4.op {v} (h : Wt4 a s D W) (hb : Qu b s n m D D v) :
    EQu (Arr.map2 f a b) s n m D D fun i k j l p => f (W i l p) (v i k j l p) := by
  rcases h with h | ⟨W0, rfl, h⟩
  · exact Qu.opL h hb
  · exact Qu.opLeft h hb

end Np

namespace VariogramNp

open EnergyNp (mem nMembers_eq fwProd_comm)

variable {obs fct ow fw w ensW : Arr XF} {s : List ℕ} {M D : ℕ} {c : List ℕ → XF} {P : ℝ}
  {y u v : List ℕ → ℕ → XF} {x W : List ℕ → ℕ → ℕ → XF}

/-- `|f p - f l| ** P` -/
abbrev R (P : ℝ) (f : ℕ → XF) (l p : ℕ) : XF := XF.rpow (XF.abs (f p - f l)) P

/-- the matrix as a list of rows -/
abbrev rows (D : ℕ) (W : ℕ → ℕ → XF) : List (List XF) := (List.range D).map fun k => (List.range D).map (W k)

theorem rhoT_range {f : ℕ → XF} {l p : ℕ} (hl : l < D) (hp : p < D) :
    rhoT P ((List.range D).map f) l p = R P f l p := by
  simp [rhoT, idx, hl, hp]

theorem mget_range {W : ℕ → ℕ → XF} {l p : ℕ} (hl : l < D) (hp : p < D) :
    mget (rows D W) l p = W l p := by
  simp [mget, idx, vat, rows, hl, hp]

theorem dsum_congr {F G : ℕ → ℕ → XF} (h : ∀ l < D, ∀ p < D, F l p = G l p) :
    dsum D F = ((List.range D).map fun l => ((List.range D).map fun p => G l p).sum).sum := by
  unfold dsum
  congr 1
  refine List.map_congr_left fun l hl => ?_
  congr 1
  exact List.map_congr_left fun p hp => h l (List.mem_range.1 hl) p (List.mem_range.1 hp)

theorem e1_eq (W : ℕ → ℕ → XF) (y f : ℕ → XF) :
    VsApprox.e1 (rows D W) P ((List.range D).map y) ((List.range D).map f) =
      ((List.range D).map fun l => ((List.range D).map fun p =>
        W l p * (R P f l p - R P y l p) ^ 2).sum).sum := by
  unfold VsApprox.e1
  rw [List.length_map, List.length_range]
  refine dsum_congr fun l hl p hp => ?_
  rw [mget_range hl hp, rhoT_range hl hp, rhoT_range hl hp]

theorem e2_eq (W : ℕ → ℕ → XF) (g f : ℕ → XF) :
    VsApprox.e2 (rows D W) P D ((List.range D).map g) ((List.range D).map f) =
      ((List.range D).map fun l => ((List.range D).map fun p =>
        W l p * (R P g l p - R P f l p) ^ 2).sum).sum := by
  unfold VsApprox.e2
  refine dsum_congr fun l hl p hp => ?_
  rw [mget_range hl hp, rhoT_range hl hp, rhoT_range hl hp]

theorem sq_eq (W : ℕ → ℕ → XF) (f : ℕ → XF) :
    (dsum D fun l p => mget (rows D W) l p * rhoT P ((List.range D).map f) l p ^ 2) =
      ((List.range D).map fun l => ((List.range D).map fun p => W l p * R P f l p ^ 2).sum).sum := by
  refine dsum_congr fun l hl p hp => ?_
  rw [mget_range hl hp, rhoT_range hl hp]

theorem diff_obs_ev (ho : Ve obs s D y) : EMa (diff P obs) s D D fun i l p => R P (y i) l p := by
  unfold diff
  refine ho.ex2.bind fun a ha => ho.ex1.bind fun b hb => (Ma.op21 ha hb).bind fun d hd => ?_
  exact Ret.ok ((hd.map _).map _)

theorem diff_fct_ev (hf : Ma fct s M D x) :
    ETe (diff P fct) s M D D fun i k l p => R P (x i k) l p := by
  unfold diff
  refine hf.ex2.bind fun a ha => hf.ex1.bind fun b hb => (Te.op23 ha hb).bind fun d hd => ?_
  exact Ret.ok ((hd.map _).map _)

theorem e1_ev {fd od : Arr XF} (hw : Wt w s D W) (hf : Te fd s M D D fun i k l p => R P (x i k) l p)
    (ho : Ma od s D D fun i l p => R P (y i) l p) :
    EVe (e1 w fd od) s M fun i k => VsApprox.e1 (rows D (W i)) P ((List.range D).map (y i))
      (mem D (x i) k) := by
  unfold e1
  refine ho.ex3.bind fun a ha => (Te.opR hf ha).bind fun b hb => hw.ex3.bind fun d hd =>
    (Wt3.op hd (hb.map _)).bind fun e he => ?_
  simp only [mem, e1_eq]
  exact Te.sum2 he

theorem e2_ev {fd : Arr XF} (hw : Wt w s D W) (hf : Te fd s M D D fun i k l p => R P (x i k) l p) :
    EMa (e2 w fd) s M M fun i k j => VsApprox.e2 (rows D (W i)) P D (mem D (x i) k) (mem D (x i) j) := by
  unfold e2
  refine hf.ex3.bind fun a ha => hf.ex4.bind fun b hb => (Qu.op21 ha hb).bind fun c hc =>
    hw.ex34.bind fun d hd => (Wt4.op hd (hc.map _)).bind fun e he => ?_
  simp only [mem, e2_eq]
  exact Qu.sum2 he

theorem nrg_ev (ho : Ve obs s D y) (hf : Ma fct s M D x) (hw : Wt w s D W) :
    ESc (nrg P obs fct w) s fun i =>
      VsApprox.nrg (rows D (W i)) P ((List.range D).map (y i)) ((List.range M).map (mem D (x i))) := by
  unfold nrg
  rw [nMembers_eq hf]
  refine (diff_fct_ev hf).bind fun a ha => (diff_obs_ev ho).bind fun b hb =>
    (Te.sum3 ha).bind fun c hc => (Ma.op hb (hc.map _)).bind fun d hd =>
    (Wt.op hw (hd.map _)).bind fun e he => ?_
  refine (Ma.sum2 he).congr fun i _ => ?_
  unfold VsApprox.nrg
  rw [List.length_map, List.length_range]
  refine (dsum_congr fun l hl p hp => ?_).symm
  rw [mget_range hl hp, rhoT_range hl hp]
  simp only [List.map_map, Function.comp_def, List.length_map, List.length_range, mem, rhoT_range hl hp]

theorem fair_ev (ho : Ve obs s D y) (hf : Ma fct s M D x) (hw : Wt w s D W) :
    ESc (fair P obs fct w) s fun i =>
      VsApprox.fair (rows D (W i)) P ((List.range D).map (y i)) ((List.range M).map (mem D (x i))) := by
  unfold fair
  rw [nMembers_eq hf]
  refine (diff_fct_ev hf).bind fun a ha => (diff_obs_ev ho).bind fun b hb =>
    (e1_ev hw ha hb).bind fun c hc => (Ve.sum hc).bind fun d hd =>
    (e2_ev hw ha).bind fun e he => (Ma.sum2 he).bind fun g hg => ?_
  refine (Sc.op (hd.map _) ((hg.map _).map _)).congr fun i _ => ?_
  simp only [VsApprox.fair, List.map_map, Function.comp_def, List.length_map, List.length_range]

theorem ow_ev (ho : Ve obs s D y) (hf : Ma fct s M D x) (hw : Wt w s D W) (hc : Sc ow s c)
    (hu : Ve fw s M u) :
    ESc (VariogramNp.ow P obs fct w ow fw) s fun i =>
      VsApprox.ow (rows D (W i)) P ((List.range D).map (y i)) ((List.range M).map (mem D (x i))) (c i)
        ((List.range M).map (u i)) := by
  unfold VariogramNp.ow
  refine (Ve.mean hu).bind fun wb hwb => (diff_fct_ev hf).bind fun a ha => (diff_obs_ev ho).bind fun b hb =>
    (e1_ev hw ha hb).bind fun a0 h0 => (Ve.op h0 hu).bind fun a1 h1 => hc.ex.bind fun a2 h2 =>
    (Ve.op1r h1 h2).bind fun a3 h3 => (Ve.mean h3).bind fun a4 h4 => (Sc.op h4 hwb).bind fun e1 he1 =>
    hu.ex2.bind fun a5 h5 => hu.ex1.bind fun a6 h6 => (Ma.op21 h5 h6).bind fun fp hfp =>
    (e2_ev hw ha).bind fun a7 h7 => hc.ex21.bind fun a8 h8 => (Ma.op1 hfp h8).bind fun a9 h9 =>
    (Ma.inplace h7 h9).bind fun a10 h10 => (Ma.mean2 h10).bind fun a11 h11 =>
    (Sc.op h11 (hwb.map _)).bind fun e2 he2 => ?_
  refine (Sc.op he1 (he2.map _)).congr fun i _ => ?_
  simp only [VsApprox.ow, Py.mean, zip2_map, List.zip_map', List.map_map,
    Function.comp_def, List.length_map, List.length_range]

theorem vr_ev (ho : Ve obs s D y) (hf : Ma fct s M D x) (hw : Wt w s D W) (hc : Sc ow s c)
    (hu : Ve fw s M u) :
    ESc (VariogramNp.vr P obs fct w ow fw) s fun i =>
      VsApprox.vr (rows D (W i)) P ((List.range D).map (y i)) ((List.range M).map (mem D (x i))) (c i)
        ((List.range M).map (u i)) := by
  unfold VariogramNp.vr
  refine (Ve.mean hu).bind fun wb hwb => (diff_fct_ev hf).bind fun a ha => (diff_obs_ev ho).bind fun b hb =>
    (e1_ev hw ha hb).bind fun a0 h0 => (Ve.op h0 hu).bind fun a1 h1 => hc.ex.bind fun a2 h2 =>
    (Ve.op1r h1 h2).bind fun a3 h3 => (Ve.mean h3).bind fun e1 he1 =>
    (e2_ev hw ha).bind fun a7 h7 => hu.ex2.bind fun a5 h5 => hu.ex1.bind fun a6 h6 =>
    (Ma.op21 h5 h6).bind fun fp hfp => (Ma.op h7 hfp).bind fun a8 h8 => (Ma.mean2 h8).bind fun e2 he2 =>
    hw.ex3.bind fun a9 h9 => (Wt3.op h9 (ha.map _)).bind fun a10 h10 => (Te.sum2 h10).bind fun a11 h11 =>
    (Ve.op h11 hu).bind fun a12 h12 => (Ve.mean h12).bind fun a13 h13 =>
    (Wt.op hw (hb.map _)).bind fun a14 h14 => (Ma.sum2 h14).bind fun a15 h15 =>
    (Sc.op h15 hc).bind fun a16 h16 => (Sc.inplace h13 h16).bind fun a17 h17 =>
    (Sc.op hwb hc).bind fun a18 h18 => (Sc.inplace h17 h18).bind fun e3 he3 =>
    (Sc.op he1 (he2.map _)).bind fun a19 h19 => ?_
  refine (Sc.op h19 he3).congr fun i _ => ?_
  simp only [VsApprox.vr, Py.mean, zip2_map, List.zip_map', List.map_map,
    Function.comp_def, List.length_map, List.length_range, sq_eq, mem]

end VariogramNp

namespace VariogramNpW

open EnergyNp (mem nMembers_eq)
open VariogramNp

variable {obs fct ow fw w ensW : Arr XF} {s : List ℕ} {M D : ℕ} {c : List ℕ → XF} {P : ℝ}
  {y u v : List ℕ → ℕ → XF} {x W : List ℕ → ℕ → ℕ → XF}

theorem nrg_ev (ho : Ve obs s D y) (hf : Ma fct s M D x) (hw : Wt w s D W) (hv : Ve ensW s M v) :
    ESc (VariogramNpW.nrg P obs fct w ensW) s fun i =>
      VsApproxW.nrg (rows D (W i)) P ((List.range D).map (y i)) ((List.range M).map (mem D (x i)))
        ((List.range M).map (v i)) := by
  unfold VariogramNpW.nrg
  refine (diff_fct_ev hf).bind fun a ha => (diff_obs_ev ho).bind fun b hb => hv.ex12.bind fun c hc =>
    (Te.opC ha hc).bind fun c hc => (Te.sum3 hc).bind fun c hc => (Ma.op hb hc).bind fun d hd =>
    (Wt.op hw (hd.map _)).bind fun e he => ?_
  refine (Ma.sum2 he).congr fun i _ => ?_
  unfold VsApproxW.nrg
  rw [List.length_map, List.length_range]
  refine (dsum_congr fun l hl p hp => ?_).symm
  rw [mget_range hl hp, rhoT_range hl hp]
  simp only [List.map_map, Function.comp_def, mem, rhoT_range hl hp, zip2_map]

theorem fair_ev (ho : Ve obs s D y) (hf : Ma fct s M D x) (hw : Wt w s D W) (hv : Ve ensW s M v) :
    ESc (VariogramNpW.fair P obs fct w ensW) s fun i =>
      VsApproxW.fair (rows D (W i)) P ((List.range D).map (y i)) ((List.range M).map (mem D (x i)))
        ((List.range M).map (v i)) := by
  unfold VariogramNpW.fair
  refine (diff_fct_ev hf).bind fun a ha => (diff_obs_ev ho).bind fun b hb =>
    (e1_ev hw ha hb).bind fun c hc => (Ve.op hc hv).bind fun d hd => (Ve.sum hd).bind fun e1 he1 =>
    (e2_ev hw ha).bind fun e he => hv.ex2.bind fun a1 h1 => (Ma.opR he h1).bind fun a2 h2 =>
    hv.ex1.bind fun a3 h3 => (Ma.opC h2 h3).bind fun a4 h4 => (Ma.sum2 h4).bind fun e2 he2 =>
    (Ve.op hv hv).bind fun a5 h5 => (Ve.sum h5).bind fun a6 h6 =>
    (Sc.op (he2.map _) (h6.map _)).bind fun a7 h7 => ?_
  refine (Sc.op he1 h7).congr fun i _ => ?_
  simp only [VsApproxW.fair, zip2_map, List.zip_map', List.map_map, Function.comp_def, List.length_map,
    List.length_range]

theorem ow_ev (ho : Ve obs s D y) (hf : Ma fct s M D x) (hw : Wt w s D W) (hc : Sc ow s c)
    (hu : Ve fw s M u) (hv : Ve ensW s M v) :
    ESc (VariogramNpW.ow P obs fct w ow fw ensW) s fun i =>
      VsApproxW.ow (rows D (W i)) P ((List.range D).map (y i)) ((List.range M).map (mem D (x i))) (c i)
        ((List.range M).map (u i)) ((List.range M).map (v i)) := by
  unfold VariogramNpW.ow
  refine (Ve.op hu hv).bind fun wb hwb => (Ve.sum hwb).bind fun wb hwb =>
    (diff_fct_ev hf).bind fun a ha => (diff_obs_ev ho).bind fun b hb =>
    (e1_ev hw ha hb).bind fun a0 h0 => (Ve.op h0 hu).bind fun a1 h1 => hc.ex.bind fun a2 h2 =>
    (Ve.op1r h1 h2).bind fun a3 h3 => (Ve.op h3 hv).bind fun a3 h3 =>
    (Ve.sum h3).bind fun a4 h4 => (Sc.op h4 hwb).bind fun e1 he1 =>
    hu.ex2.bind fun a5 h5 => hu.ex1.bind fun a6 h6 => (Ma.op21 h5 h6).bind fun fp hfp =>
    hv.ex2.bind fun a5 h5 => hv.ex1.bind fun a6 h6 => (Ma.op21 h5 h6).bind fun ep hep =>
    (e2_ev hw ha).bind fun a7 h7 => hc.ex21.bind fun a8 h8 => (Ma.op1 hfp h8).bind fun a9 h9 =>
    (Ma.op h9 hep).bind fun a9 h9 =>
    (Ma.inplace h7 h9).bind fun a10 h10 => (Ma.sum2 h10).bind fun a11 h11 =>
    (Sc.op h11 (hwb.map _)).bind fun e2 he2 => ?_
  refine (Sc.op he1 (he2.map _)).congr fun i _ => ?_
  simp only [VsApproxW.ow, zip2_map, List.zip_map', List.map_map,
    Function.comp_def, List.length_map, List.length_range]

theorem vr_ev (ho : Ve obs s D y) (hf : Ma fct s M D x) (hw : Wt w s D W) (hc : Sc ow s c)
    (hu : Ve fw s M u) (hv : Ve ensW s M v) :
    ESc (VariogramNpW.vr P obs fct w ow fw ensW) s fun i =>
      VsApproxW.vr (rows D (W i)) P ((List.range D).map (y i)) ((List.range M).map (mem D (x i))) (c i)
        ((List.range M).map (u i)) ((List.range M).map (v i)) := by
  unfold VariogramNpW.vr
  refine (Ve.op hu hv).bind fun wb hwb => (Ve.sum hwb).bind fun wb hwb =>
    (diff_fct_ev hf).bind fun a ha => (diff_obs_ev ho).bind fun b hb =>
    (e1_ev hw ha hb).bind fun a0 h0 => (Ve.op h0 hu).bind fun a1 h1 => hc.ex.bind fun a2 h2 =>
    (Ve.op1r h1 h2).bind fun a3 h3 => (Ve.op h3 hv).bind fun a3 h3 => (Ve.sum h3).bind fun e1 he1 =>
    (e2_ev hw ha).bind fun a7 h7 => hu.ex2.bind fun a5 h5 => hu.ex1.bind fun a6 h6 =>
    (Ma.op21 h5 h6).bind fun fp hfp => hv.ex2.bind fun a5 h5 => hv.ex1.bind fun a6 h6 =>
    (Ma.op21 h5 h6).bind fun ep hep => (Ma.op h7 hfp).bind fun a8 h8 => (Ma.op h8 hep).bind fun a8 h8 =>
    (Ma.sum2 h8).bind fun e2 he2 =>
    hw.ex3.bind fun a9 h9 => (Wt3.op h9 (ha.map _)).bind fun a10 h10 => (Te.sum2 h10).bind fun a11 h11 =>
    (Ve.op h11 hu).bind fun a12 h12 => (Ve.op h12 hv).bind fun a12 h12 => (Ve.sum h12).bind fun a13 h13 =>
    (Wt.op hw (hb.map _)).bind fun a14 h14 => (Ma.sum2 h14).bind fun a15 h15 =>
    (Sc.op h15 hc).bind fun a16 h16 => (Sc.inplace h13 h16).bind fun a17 h17 =>
    (Sc.op hwb hc).bind fun a18 h18 => (Sc.inplace h17 h18).bind fun e3 he3 =>
    (Sc.op he1 (he2.map _)).bind fun a19 h19 => ?_
  refine (Sc.op h19 he3).congr fun i _ => ?_
  simp only [VsApproxW.vr, zip2_map, List.zip_map', List.map_map,
    Function.comp_def, List.length_map, List.length_range, sq_eq, mem]

end VariogramNpW
end Verif
