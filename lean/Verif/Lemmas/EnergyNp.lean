import Verif.Model.EnergyNp
import Verif.Lemmas.NpTensor
import Verif.Lemmas.Energy

/-!
# The vectorised energy score, entry by entry
-/

noncomputable section

open scoped Classical

namespace Verif

open XF Py Np Spec Mv

namespace EnergyNp

variable {obs fct ow fw w : Arr XF} {s : List ℕ} {M D : ℕ} {c : List ℕ → XF}
  {y u v : List ℕ → ℕ → XF} {x : List ℕ → ℕ → ℕ → XF}

theorem nMembers_eq (hf : Ma fct s M D x) : nMembers fct = M := by
  simp [nMembers, Arr.ndim, hf.shape]

/-- the `k`-th member as a list -/
abbrev mem (D : ℕ) (x : ℕ → ℕ → XF) (k : ℕ) : List XF := (List.range D).map (x k)

theorem vsub_map (f g : ℕ → XF) (n : ℕ) :
    vsub ((List.range n).map f) ((List.range n).map g) = (List.range n).map fun k => f k - g k := by
  unfold vsub
  exact zip2_map _ _ _ _

theorem errNorm_ev (ho : Ve obs s D y) (hf : Ma fct s M D x) :
    EVe (errNorm obs fct) s M fun i k =>
      vnorm (vsub (mem D (x i) k) ((List.range D).map (y i))) := by
  unfold errNorm
  refine ho.ex2.bind fun a ha => (Ma.opR hf ha).bind fun b hb => ?_
  simp only [mem, vsub_map]
  exact Ma.norm hb

theorem spread_ev (hf : Ma fct s M D x) :
    EMa (spread fct) s M M fun i k l => vnorm (vsub (mem D (x i) k) (mem D (x i) l)) := by
  unfold spread
  refine hf.ex3.bind fun a ha => hf.ex2.bind fun b hb => (Te.op12 ha hb).bind fun d hd => ?_
  obtain ⟨r, hr, h⟩ := Te.norm hd
  refine ⟨r, hr, IsB.congr h fun i _ j _ => ?_⟩
  dsimp only
  rw [vsub_norm_comm, vsub_map]

theorem spread'_ev (hf : Ma fct s M D x) :
    EMa (spread' fct) s M M fun i k l => vnorm (vsub (mem D (x i) k) (mem D (x i) l)) := by
  unfold spread'
  refine hf.ex2.bind fun a ha => hf.ex3.bind fun b hb => (Te.op21 ha hb).bind fun d hd => ?_
  simp only [mem, vsub_map]
  exact Te.norm hd

theorem rollNorm_ev (hf : Ma fct s M D x) (sh : ℕ) :
    EVe (rollNorm fct sh) s M fun i k =>
      vnorm (vsub (mem D (x i) k) (mem D (x i) ((k + (M - sh % M)) % M))) := by
  unfold rollNorm
  refine (hf.roll sh).bind fun a ha => (Ma.op hf ha).bind fun b hb => ?_
  simp only [mem, vsub_map]
  exact Ma.norm hb

theorem rollNorm_eq (x : ℕ → ℕ → XF) (sh : ℕ) :
    EsApprox.rollNorm ((List.range M).map (mem D x)) sh = (List.range M).map fun k =>
      vnorm (vsub (mem D x k) (mem D x ((k + (M - sh % M)) % M))) := by
  simp only [EsApprox.rollNorm, vroll, List.length_map, List.length_range, List.zipWith_map,
    List.zipWith_self]
  refine List.map_congr_left fun k hk => ?_
  have hM : 0 < M := by have := List.mem_range.1 hk; omega
  simp [vat, Nat.mod_lt _ hM]

theorem fwProd_comm {a : Arr XF} (h : Ma a s M M fun i k l => u i l * u i k) :
    Ma a s M M fun i k l => u i k * u i l := IsB.congr h fun _ _ _ _ => mul_comm _ _

theorem nrg_ev (ho : Ve obs s D y) (hf : Ma fct s M D x) :
    ESc (nrg obs fct) s fun i =>
      EsApprox.nrg ((List.range D).map (y i)) ((List.range M).map (mem D (x i))) := by
  unfold nrg
  refine (errNorm_ev ho hf).bind fun a ha => (Ve.sum ha).bind fun b hb =>
    (spread_ev hf).bind fun c hc => (Ma.sum2 hc).bind fun d hd => ?_
  rw [nMembers_eq hf]
  refine (Sc.op (hb.map _) ((hd.map _).map _)).congr fun i _ => ?_
  simp only [EsApprox.nrg, EsApprox.e1, EsApprox.errNorm, EsApprox.spread, List.map_map, Function.comp_def,
    List.length_map, List.length_range]

theorem fair_ev (ho : Ve obs s D y) (hf : Ma fct s M D x) :
    ESc (fair obs fct) s fun i =>
      EsApprox.fair ((List.range D).map (y i)) ((List.range M).map (mem D (x i))) := by
  unfold fair
  refine (errNorm_ev ho hf).bind fun a ha => (Ve.sum ha).bind fun b hb =>
    (spread_ev hf).bind fun c hc => (Ma.sum2 hc).bind fun d hd => ?_
  rw [nMembers_eq hf]
  refine (Sc.op (hb.map _) ((hd.map _).map _)).congr fun i _ => ?_
  simp only [EsApprox.fair, EsApprox.e1, EsApprox.errNorm, EsApprox.spread, List.map_map, Function.comp_def,
    List.length_map, List.length_range]

theorem akr_ev (ho : Ve obs s D y) (hf : Ma fct s M D x) :
    ESc (akr obs fct) s fun i =>
      EsApprox.akr ((List.range D).map (y i)) ((List.range M).map (mem D (x i))) := by
  unfold akr
  refine (errNorm_ev ho hf).bind fun a ha => (Ve.sum ha).bind fun b hb =>
    (rollNorm_ev hf 1).bind fun c hc => (Ve.sum hc).bind fun d hd => ?_
  rw [nMembers_eq hf]
  refine (Sc.op (hb.map _) ((hd.map _).map _)).congr fun i _ => ?_
  simp only [EsApprox.akr, EsApprox.e1, EsApprox.errNorm, rollNorm_eq, List.map_map, Function.comp_def,
    List.length_map, List.length_range]

theorem akrCircperm_ev (ho : Ve obs s D y) (hf : Ma fct s M D x) :
    ESc (akrCircperm obs fct) s fun i =>
      EsApprox.akrCircperm ((List.range D).map (y i)) ((List.range M).map (mem D (x i))) := by
  unfold akrCircperm
  rw [nMembers_eq hf]
  refine (errNorm_ev ho hf).bind fun a ha => (Ve.sum ha).bind fun b hb =>
    (rollNorm_ev hf (M / 2)).bind fun c hc => (Ve.sum hc).bind fun d hd => ?_
  refine (Sc.op (hb.map _) ((hd.map _).map _)).congr fun i _ => ?_
  simp only [EsApprox.akrCircperm, EsApprox.e1, EsApprox.errNorm, rollNorm_eq, List.map_map,
    Function.comp_def, List.length_map, List.length_range]

theorem ow_ev (ho : Ve obs s D y) (hf : Ma fct s M D x) (hc : Sc ow s c) (hu : Ve fw s M u) :
    ESc (EnergyNp.ow obs fct ow fw) s fun i =>
      EsApprox.ow ((List.range D).map (y i)) ((List.range M).map (mem D (x i))) (c i)
        ((List.range M).map (u i)) := by
  unfold EnergyNp.ow
  refine (Ve.mean hu).bind fun wb hwb => (errNorm_ev ho hf).bind fun er her =>
    (Ve.op her hu).bind fun a1 h1 => hc.ex.bind fun a2 h2 => (Ve.op1r h1 h2).bind fun a3 h3 =>
    (Ve.mean h3).bind fun a4 h4 => (Sc.op h4 hwb).bind fun e1 he1 =>
    (spread'_ev hf).bind fun sp hsp => hu.ex1.bind fun a5 h5 => hu.ex2.bind fun a6 h6 =>
    (Ma.op12 h5 h6).bind fun fp hfp => hc.ex21.bind fun a7 h7 => (Ma.op1 hfp h7).bind fun a8 h8 =>
    (Ma.inplace hsp h8).bind fun a9 h9 => (Ma.mean2 h9).bind fun a10 h10 =>
    (Sc.op h10 (hwb.map _)).bind fun e2 he2 => ?_
  refine (Sc.op he1 (he2.map _)).congr fun i _ => ?_
  simp only [EsApprox.ow, EsApprox.errNorm, Py.mean, zip2_map, List.zip_map', List.map_map,
    Function.comp_def, List.length_map, List.length_range]

theorem vr_ev (ho : Ve obs s D y) (hf : Ma fct s M D x) (hc : Sc ow s c) (hu : Ve fw s M u) :
    ESc (EnergyNp.vr obs fct ow fw) s fun i =>
      EsApprox.vr ((List.range D).map (y i)) ((List.range M).map (mem D (x i))) (c i)
        ((List.range M).map (u i)) := by
  unfold EnergyNp.vr
  refine (Ve.mean hu).bind fun wb hwb => (errNorm_ev ho hf).bind fun er her =>
    hc.ex.bind fun a2 h2 => (Ve.op1r hu h2).bind fun a3 h3 => (Ve.inplace her h3).bind fun a1 h1 =>
    (Ve.mean h1).bind fun e1 he1 =>
    (spread'_ev hf).bind fun sp hsp => hu.ex2.bind fun a5 h5 => hu.ex1.bind fun a6 h6 =>
    (Ma.op21 h5 h6).bind fun fp hfp => (Ma.op hsp (fwProd_comm hfp)).bind fun a8 h8 =>
    (Ma.mean2 h8).bind fun e2 he2 =>
    (Ma.norm hf).bind fun a9 h9 => (Ve.op h9 hu).bind fun a10 h10 => (Ve.mean h10).bind fun rb hrb =>
    (Ve.norm ho).bind fun a11 h11 => (Sc.op h11 hc).bind fun a12 h12 =>
    (Sc.op hrb h12).bind fun a13 h13 => (Sc.op hwb hc).bind fun a14 h14 =>
    (Sc.op h13 h14).bind fun e3 he3 => (Sc.op he1 (he2.map _)).bind fun a15 h15 => ?_
  refine (Sc.op h15 he3).congr fun i _ => ?_
  simp only [EsApprox.vr, EsApprox.errNorm, Py.mean, zip2_map, List.zip_map', List.map_map,
    Function.comp_def, List.length_map, List.length_range]

end EnergyNp

namespace EnergyNpW

open EnergyNp (mem nMembers_eq errNorm_ev spread_ev spread'_ev rollNorm_ev rollNorm_eq fwProd_comm)

variable {obs fct ow fw w : Arr XF} {s : List ℕ} {M D : ℕ} {c : List ℕ → XF}
  {y u v : List ℕ → ℕ → XF} {x : List ℕ → ℕ → ℕ → XF}

theorem pairSum_ev {sp : Arr XF} {g : List ℕ → ℕ → ℕ → XF} (hs : Ma sp s M M g) (hw : Ve w s M v) :
    ESc (pairSum sp w) s fun i => ((List.range M).map fun k => ((List.range M).map fun l =>
      g i k l * v i k * v i l).sum).sum := by
  unfold pairSum
  exact hw.ex1.bind fun a ha => (Ma.opC hs ha).bind fun b hb => hw.ex2.bind fun d hd =>
    (Ma.opR hb hd).bind fun e he => Ma.sum2 he

theorem nrg_ev (ho : Ve obs s D y) (hf : Ma fct s M D x) (hw : Ve w s M v) :
    ESc (nrg obs fct w) s fun i =>
      EsApproxW.nrg ((List.range D).map (y i)) ((List.range M).map (mem D (x i)))
        ((List.range M).map (v i)) := by
  unfold nrg
  refine (errNorm_ev ho hf).bind fun a ha => (Ve.op ha hw).bind fun b hb => (Ve.sum hb).bind fun e1 he1 =>
    (spread_ev hf).bind fun c hc => (pairSum_ev hc hw).bind fun e2 he2 => ?_
  refine (Sc.op he1 (he2.map _)).congr fun i _ => ?_
  simp only [EsApproxW.nrg, EsApproxW.e1, EsApprox.errNorm, EsApproxW.spread, zip2_map, List.zip_map',
    List.map_map, Function.comp_def]

theorem fair_ev (ho : Ve obs s D y) (hf : Ma fct s M D x) (hw : Ve w s M v) :
    ESc (fair obs fct w) s fun i =>
      EsApproxW.fair ((List.range D).map (y i)) ((List.range M).map (mem D (x i)))
        ((List.range M).map (v i)) := by
  unfold fair
  refine (errNorm_ev ho hf).bind fun a ha => (Ve.op ha hw).bind fun b hb => (Ve.sum hb).bind fun e1 he1 =>
    (spread_ev hf).bind fun c hc => (pairSum_ev hc hw).bind fun e2 he2 =>
    (Ve.op hw hw).bind fun d hd => (Ve.sum hd).bind fun e he =>
    (Sc.op (he2.map _) (he.map _)).bind fun g hg => ?_
  refine (Sc.op he1 hg).congr fun i _ => ?_
  simp only [EsApproxW.fair, EsApproxW.e1, EsApprox.errNorm, EsApproxW.spread, zip2_map, List.zip_map',
    List.map_map, Function.comp_def]

theorem akr_ev (ho : Ve obs s D y) (hf : Ma fct s M D x) (hw : Ve w s M v) :
    ESc (akr obs fct w) s fun i =>
      EsApproxW.akr ((List.range D).map (y i)) ((List.range M).map (mem D (x i)))
        ((List.range M).map (v i)) := by
  unfold akr
  refine (errNorm_ev ho hf).bind fun a ha => (Ve.op ha hw).bind fun b hb => (Ve.sum hb).bind fun e1 he1 =>
    (rollNorm_ev hf 1).bind fun c hc => (Ve.op hc hw).bind fun d hd => (Ve.sum hd).bind fun e2 he2 => ?_
  refine (Sc.op he1 (he2.map _)).congr fun i _ => ?_
  simp only [EsApproxW.akr, EsApproxW.e1, EsApprox.errNorm, rollNorm_eq, zip2_map,
    List.map_map, Function.comp_def]

theorem akrCircperm_ev (ho : Ve obs s D y) (hf : Ma fct s M D x) (hw : Ve w s M v) :
    ESc (akrCircperm obs fct w) s fun i =>
      EsApproxW.akrCircperm ((List.range D).map (y i)) ((List.range M).map (mem D (x i)))
        ((List.range M).map (v i)) := by
  unfold akrCircperm
  rw [nMembers_eq hf]
  refine (errNorm_ev ho hf).bind fun a ha => (Ve.op ha hw).bind fun b hb => (Ve.sum hb).bind fun e1 he1 =>
    (rollNorm_ev hf (M / 2)).bind fun c hc => (Ve.op hc hw).bind fun d hd =>
    (Ve.sum hd).bind fun e2 he2 => ?_
  refine (Sc.op he1 (he2.map _)).congr fun i _ => ?_
  simp only [EsApproxW.akrCircperm, EsApproxW.e1, EsApprox.errNorm, rollNorm_eq, zip2_map,
    List.map_map, Function.comp_def, List.length_map, List.length_range]

theorem ow_ev (ho : Ve obs s D y) (hf : Ma fct s M D x) (hc : Sc ow s c) (hu : Ve fw s M u)
    (hw : Ve w s M v) :
    ESc (EnergyNpW.ow obs fct ow fw w) s fun i =>
      EsApproxW.ow ((List.range D).map (y i)) ((List.range M).map (mem D (x i))) (c i)
        ((List.range M).map (u i)) ((List.range M).map (v i)) := by
  unfold EnergyNpW.ow
  refine (Ve.op hu hw).bind fun a0 h0 => (Ve.sum h0).bind fun wb hwb =>
    (errNorm_ev ho hf).bind fun er her =>
    (Ve.op her hu).bind fun a1 h1 => hc.ex.bind fun a2 h2 => (Ve.op1r h1 h2).bind fun a3 h3 =>
    (Ve.op h3 hw).bind fun b3 g3 =>
    (Ve.sum g3).bind fun a4 h4 => (Sc.op h4 hwb).bind fun e1 he1 =>
    (spread'_ev hf).bind fun sp hsp => hu.ex1.bind fun a5 h5 => hu.ex2.bind fun a6 h6 =>
    (Ma.op12 h5 h6).bind fun fp hfp => hc.ex21.bind fun a7 h7 => (Ma.op1 hfp h7).bind fun a8 h8 =>
    (Ma.inplace hsp h8).bind fun a9 h9 => (pairSum_ev h9 hw).bind fun a10 h10 =>
    (Sc.op h10 (hwb.map _)).bind fun e2 he2 => ?_
  refine (Sc.op he1 (he2.map _)).congr fun i _ => ?_
  simp only [EsApproxW.ow, EsApprox.errNorm, zip2_map, List.zip_map', List.map_map,
    Function.comp_def]

theorem vr_ev (ho : Ve obs s D y) (hf : Ma fct s M D x) (hc : Sc ow s c) (hu : Ve fw s M u)
    (hw : Ve w s M v) :
    ESc (EnergyNpW.vr obs fct ow fw w) s fun i =>
      EsApproxW.vr ((List.range D).map (y i)) ((List.range M).map (mem D (x i))) (c i)
        ((List.range M).map (u i)) ((List.range M).map (v i)) := by
  unfold EnergyNpW.vr
  refine (Ve.op hu hw).bind fun a0 h0 => (Ve.sum h0).bind fun wb hwb =>
    (errNorm_ev ho hf).bind fun er her =>
    hc.ex.bind fun a2 h2 => (Ve.op1r hu h2).bind fun a3 h3 => (Ve.inplace her h3).bind fun a1 h1 =>
    (Ve.op h1 hw).bind fun b1 g1 => (Ve.sum g1).bind fun e1 he1 =>
    (spread'_ev hf).bind fun sp hsp => hu.ex2.bind fun a5 h5 => hu.ex1.bind fun a6 h6 =>
    (Ma.op21 h5 h6).bind fun fp hfp => (Ma.op hsp (fwProd_comm hfp)).bind fun a8 h8 =>
    (pairSum_ev h8 hw).bind fun e2 he2 =>
    (Ma.norm hf).bind fun a9 h9 => (Ve.op h9 hu).bind fun a10 h10 => (Ve.op h10 hw).bind fun b10 g10 =>
    (Ve.sum g10).bind fun rb hrb =>
    (Ve.norm ho).bind fun a11 h11 => (Sc.op h11 hc).bind fun a12 h12 =>
    (Sc.op hrb h12).bind fun a13 h13 => (Sc.op hwb hc).bind fun a14 h14 =>
    (Sc.op h13 h14).bind fun e3 he3 => (Sc.op he1 (he2.map _)).bind fun a15 h15 => ?_
  refine (Sc.op h15 he3).congr fun i _ => ?_
  simp only [EsApproxW.vr, EsApprox.errNorm, zip2_map, List.zip_map', List.map_map,
    Function.comp_def]

end EnergyNpW
end Verif
