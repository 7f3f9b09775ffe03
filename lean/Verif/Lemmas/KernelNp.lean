import Verif.Model.KernelNp
import Verif.Lemmas.EnergyNp

/-!
# The vectorised kernel scores, entry by entry
-/

noncomputable section

open scoped Classical

namespace Verif

open XF Py Np Spec Mv

namespace KernelNp

open EnergyNp (mem nMembers_eq vsub_map)

variable {obs fct ow fw w : Arr XF} {s : List ℕ} {M D : ℕ} {y c : List ℕ → XF}
  {z u v : List ℕ → ℕ → XF} {x : List ℕ → ℕ → ℕ → XF} {t : List ℕ → ℕ → XF}

theorem combine_ev {a b d : Arr XF} {p q r : List ℕ → XF} (ha : Sc a s p) (hb : Sc b s q) (hd : Sc d s r) :
    ESc (combine a b d) s fun i => Neg.neg (p i - half * q i - half * r i) := by
  unfold combine
  exact (Sc.op ha (hb.map _)).bind fun e he => (Sc.op he (hd.map _)).bind fun g hg => Ret.ok (hg.map _)

/-! ### univariate -/

theorem errUv_ev (ho : Sc obs s y) (hf : Ve fct s M t) :
    EVe (errUv obs fct) s M fun i k => Kern.uv (y i) (t i k) := by
  unfold errUv kernUv
  exact ho.ex.bind fun a ha => (Ve.op1l ha hf).bind fun b hb => Ret.ok (hb.map _)

theorem pairUv_ev (hf : Ve fct s M t) :
    EMa (pairUv fct) s M M fun i k l => Kern.uv (t i k) (t i l) := by
  unfold pairUv kernUv
  exact hf.ex1.bind fun a ha => hf.ex2.bind fun b hb => (Ma.op12 ha hb).bind fun d hd => Ret.ok (hd.map _)

theorem selfUv_ev (ho : Sc obs s y) : ESc (kernUv obs obs) s fun i => Kern.uv (y i) (y i) := by
  unfold kernUv
  exact (Sc.op ho ho).bind fun a ha => Ret.ok (ha.map _)

theorem diagUv_ev (hf : Ve fct s M t) : EVe (kernUv fct fct) s M fun i k => Kern.uv (t i k) (t i k) := by
  unfold kernUv
  exact (Ve.op hf hf).bind fun a ha => Ret.ok (ha.map _)

theorem rollUv_ev (hf : Ve fct s M t) (sh : ℕ) :
    EVe (roll fct sh (-1) >>= fun r => kernUv fct r) s M fun i k =>
      Kern.uv (t i k) (t i ((k + (M - sh % M)) % M)) := by
  unfold kernUv
  exact (hf.roll sh).bind fun a ha => (Ve.op hf ha).bind fun b hb => Ret.ok (hb.map _)

theorem roll_eq {α : Type} (k : α → α → XF) (d : α) (f : ℕ → α) (sh : ℕ) :
    List.zipWith k ((List.range M).map f) (KsApprox.roll d ((List.range M).map f) sh) =
      (List.range M).map fun j => k (f j) (f ((j + (M - sh % M)) % M)) := by
  simp only [KsApprox.roll, List.length_map, List.length_range, List.zipWith_map, List.zipWith_self]
  refine List.map_congr_left fun j hj => ?_
  have hM : 0 < M := by have := List.mem_range.1 hj; omega
  simp [Nat.mod_lt _ hM]

/-! ### multivariate -/

theorem errMv_ev (ho : Ve obs s D z) (hf : Ma fct s M D x) :
    EVe (errMv obs fct) s M fun i k => Kern.mv ((List.range D).map (z i)) (mem D (x i) k) := by
  unfold errMv kernMv
  refine ho.ex2.bind fun a ha => (Ma.opl1 ha hf).bind fun b hb => (Ma.norm hb).bind fun d hd => ?_
  simp only [Kern.mv, mem, vsub_map]
  exact Ret.ok (hd.map _)

theorem pairMv_ev (hf : Ma fct s M D x) :
    EMa (pairMv fct) s M M fun i k l => Kern.mv (mem D (x i) k) (mem D (x i) l) := by
  unfold pairMv kernMv
  refine hf.ex3.bind fun a ha => hf.ex2.bind fun b hb => (Te.op12 ha hb).bind fun d hd =>
    (Te.norm hd).bind fun e he => ?_
  refine Ret.ok (IsB.congr (he.map _) fun i _ j _ => ?_)
  simp only [Kern.mv]
  rw [vsub_norm_comm, vsub_map]

theorem selfMv_ev (ho : Ve obs s D z) : ESc (kernMv obs obs) s fun i =>
    Kern.mv ((List.range D).map (z i)) ((List.range D).map (z i)) := by
  unfold kernMv
  refine (Ve.op ho ho).bind fun a ha => (Ve.norm ha).bind fun b hb => ?_
  simp only [Kern.mv, vsub_map]
  exact Ret.ok (hb.map _)

theorem diagMv_ev (hf : Ma fct s M D x) :
    EVe (kernMv fct fct) s M fun i k => Kern.mv (mem D (x i) k) (mem D (x i) k) := by
  unfold kernMv
  refine (Ma.op hf hf).bind fun a ha => (Ma.norm ha).bind fun b hb => ?_
  simp only [Kern.mv, mem, vsub_map]
  exact Ret.ok (hb.map _)

theorem rollMv_ev (hf : Ma fct s M D x) (sh : ℕ) :
    EVe (roll fct sh (-2) >>= fun r => kernMv fct r) s M fun i k =>
      Kern.mv (mem D (x i) k) (mem D (x i) ((k + (M - sh % M)) % M)) := by
  unfold kernMv
  refine (hf.roll sh).bind fun a ha => (Ma.op hf ha).bind fun b hb => (Ma.norm hb).bind fun d hd => ?_
  simp only [Kern.mv, mem, vsub_map]
  exact Ret.ok (hd.map _)

theorem rollUv_bind {β : Type} (hf : Ve fct s M t) (sh : ℕ) {k : Arr XF → Except Err (Arr β)}
    {Q : Arr β → Prop}
    (h : ∀ a, (Ve a s M fun i k => Kern.uv (t i k) (t i ((k + (M - sh % M)) % M))) → Ret (k a) Q) :
    Ret (roll fct sh (-1) >>= fun r => kernUv fct r >>= k) Q := by
  have := (rollUv_ev hf sh).bind h
  rwa [bind_assoc] at this

theorem rollMv_bind {β : Type} (hf : Ma fct s M D x) (sh : ℕ) {k : Arr XF → Except Err (Arr β)}
    {Q : Arr β → Prop}
    (h : ∀ a, (Ve a s M fun i k => Kern.mv (mem D (x i) k) (mem D (x i) ((k + (M - sh % M)) % M))) →
      Ret (k a) Q) :
    Ret (roll fct sh (-2) >>= fun r => kernMv fct r >>= k) Q := by
  have := (rollMv_ev hf sh).bind h
  rwa [bind_assoc] at this

theorem nrgUv_ev (ho : Sc obs s y) (hf : Ve fct s M t) :
    ESc (nrgUv obs fct) s fun i => KsApprox.nrg Kern.uv (y i) ((List.range M).map (t i)) := by
  unfold nrgUv
  rw [hf.lastLen]
  refine (errUv_ev ho hf).bind fun a ha => (Ve.sum ha).bind fun e1 he1 => (pairUv_ev hf).bind fun b hb =>
    (Ma.sum2 hb).bind fun e2 he2 => (selfUv_ev ho).bind fun e3 he3 =>
    (Sc.op (he1.map _) (he2.map _)).bind fun d hd => (Sc.op hd (he3.map _)).bind fun g hg => ?_
  refine ESc.congr (Ret.ok (hg.map _)) fun i _ => ?_
  simp only [KsApprox.nrg, KsApprox.e1, KsApprox.e2, List.map_map, Function.comp_def, List.length_map,
    List.length_range]

theorem fairUv_ev (ho : Sc obs s y) (hf : Ve fct s M t) :
    ESc (fairUv obs fct) s fun i => KsApprox.fair Kern.uv (y i) ((List.range M).map (t i)) := by
  unfold fairUv
  rw [hf.lastLen]
  refine (errUv_ev ho hf).bind fun a ha => (Ve.sum ha).bind fun e1 he1 => (pairUv_ev hf).bind fun b hb =>
    (Ma.sum2 hb).bind fun e2 he2 => (diagUv_ev hf).bind fun dg hdg => (Ve.sum hdg).bind fun ds hds =>
    (Sc.inplace he2 hds).bind fun e2 he2 => (selfUv_ev ho).bind fun e3 he3 =>
    (Sc.op (he1.map _) (he2.map _)).bind fun d hd => (Sc.op hd (he3.map _)).bind fun g hg => ?_
  refine ESc.congr (Ret.ok (hg.map _)) fun i _ => ?_
  simp only [KsApprox.fair, KsApprox.e1, KsApprox.e2, List.map_map, Function.comp_def, List.length_map,
    List.length_range]

theorem akrUv_ev (ho : Sc obs s y) (hf : Ve fct s M t) :
    ESc (akrUv obs fct) s fun i => KsApprox.akr Kern.uv nan (y i) ((List.range M).map (t i)) := by
  unfold akrUv
  rw [hf.lastLen]
  refine (errUv_ev ho hf).bind fun a ha => (Ve.sum ha).bind fun e1 he1 => rollUv_bind hf 1 fun b hb =>
    (Ve.sum hb).bind fun e2 he2 => (selfUv_ev ho).bind fun e3 he3 =>
    (Sc.op (he1.map _) (he2.map _)).bind fun d hd => (Sc.op hd (he3.map _)).bind fun g hg => ?_
  refine ESc.congr (Ret.ok (hg.map _)) fun i _ => ?_
  simp only [KsApprox.akr, KsApprox.e1, roll_eq, List.map_map, Function.comp_def, List.length_map,
    List.length_range]

theorem akrCircpermUv_ev (ho : Sc obs s y) (hf : Ve fct s M t) :
    ESc (akrCircpermUv obs fct) s fun i => KsApprox.akrCircperm Kern.uv nan (y i) ((List.range M).map (t i)) := by
  unfold akrCircpermUv
  rw [hf.lastLen]
  refine (errUv_ev ho hf).bind fun a ha => (Ve.sum ha).bind fun e1 he1 => rollUv_bind hf (M / 2) fun b hb =>
    (Ve.sum hb).bind fun e2 he2 => (selfUv_ev ho).bind fun e3 he3 =>
    (Sc.op (he1.map _) (he2.map _)).bind fun d hd => (Sc.op hd (he3.map _)).bind fun g hg => ?_
  refine ESc.congr (Ret.ok (hg.map _)) fun i _ => ?_
  simp only [KsApprox.akrCircperm, KsApprox.e1, roll_eq, List.map_map, Function.comp_def, List.length_map,
    List.length_range]

theorem owUv_ev (ho : Sc obs s y) (hf : Ve fct s M t) (hc : Sc ow s c)
    (hu : Ve fw s M u) :
    ESc (KernelNp.owUv obs fct ow fw) s fun i =>
      KsApprox.owUv Kern.uv (y i) ((List.range M).map (t i)) (c i) ((List.range M).map (u i)) := by
  unfold KernelNp.owUv
  rw [hf.lastLen]
  refine (Ve.mean hu).bind fun wb hwb => (errUv_ev ho hf).bind fun a ha =>
    (Ve.op ha hu).bind fun b hb => (Ve.sum hb).bind fun a1 h1 => (Sc.op h1 hc).bind fun a2 h2 =>
    (Sc.op h2 (hwb.map _)).bind fun e1 he1 => (pairUv_ev hf).bind fun a3 h3 => hu.ex1.bind fun a4 h4 =>
    (Ma.opC h3 h4).bind fun a5 h5 => hu.ex2.bind fun a6 h6 => (Ma.opR h5 h6).bind fun a7 h7 =>
    (Ma.sum2 h7).bind fun a8 h8 => (Sc.op hc (hwb.map _)).bind fun a9 h9 =>
    (Sc.inplace h8 h9).bind fun e2 he2 => (selfUv_ev ho).bind fun a10 h10 =>
    (Sc.op h10 hc).bind fun e3 he3 => ?_
  refine ESc.congr (combine_ev he1 he2 he3) fun i _ => ?_
  simp only [KsApprox.owUv, Py.mean, List.zip_map', List.map_map, Function.comp_def, List.length_map,
    List.length_range]

theorem vrUv_ev (ho : Sc obs s y) (hf : Ve fct s M t) (hc : Sc ow s c)
    (hu : Ve fw s M u) :
    ESc (KernelNp.vrUv obs fct ow fw) s fun i =>
      KsApprox.vrUv Kern.uv (y i) ((List.range M).map (t i)) (c i) ((List.range M).map (u i)) := by
  unfold KernelNp.vrUv
  rw [hf.lastLen]
  refine (errUv_ev ho hf).bind fun a ha =>
    (Ve.op ha hu).bind fun b hb => (Ve.sum hb).bind fun a1 h1 => (Sc.op h1 hc).bind fun a2 h2 =>
    (pairUv_ev hf).bind fun a3 h3 => hu.ex1.bind fun a4 h4 => hu.ex2.bind fun a6 h6 =>
    (Ma.op12 h4 h6).bind fun a5 h5 => (Ma.op h3 h5).bind fun a7 h7 =>
    (Ma.sum2 h7).bind fun a8 h8 => (selfUv_ev ho).bind fun a10 h10 =>
    (Sc.op h10 hc).bind fun a11 h11 => (Sc.op h11 hc).bind fun e3 he3 => ?_
  refine ESc.congr (combine_ev (h2.map _) (h8.map _) he3) fun i _ => ?_
  simp only [KsApprox.vrUv, Py.mean, List.zip_map', List.map_map, Function.comp_def, List.length_map,
    List.length_range]

theorem nrgMv_ev (ho : Ve obs s D z) (hf : Ma fct s M D x) :
    ESc (nrgMv obs fct) s fun i => KsApprox.nrg Kern.mv ((List.range D).map (z i)) ((List.range M).map (mem D (x i))) := by
  unfold nrgMv
  rw [nMembers_eq hf]
  refine (errMv_ev ho hf).bind fun a ha => (Ve.sum ha).bind fun e1 he1 => (pairMv_ev hf).bind fun b hb =>
    (Ma.sum2 hb).bind fun e2 he2 => (selfMv_ev ho).bind fun e3 he3 =>
    (Sc.op (he1.map _) (he2.map _)).bind fun d hd => (Sc.op hd (he3.map _)).bind fun g hg => ?_
  refine ESc.congr (Ret.ok (hg.map _)) fun i _ => ?_
  simp only [KsApprox.nrg, KsApprox.e1, KsApprox.e2, List.map_map, Function.comp_def, List.length_map,
    List.length_range]

theorem fairMv_ev (ho : Ve obs s D z) (hf : Ma fct s M D x) :
    ESc (fairMv obs fct) s fun i => KsApprox.fair Kern.mv ((List.range D).map (z i)) ((List.range M).map (mem D (x i))) := by
  unfold fairMv
  rw [nMembers_eq hf]
  refine (errMv_ev ho hf).bind fun a ha => (Ve.sum ha).bind fun e1 he1 => (pairMv_ev hf).bind fun b hb =>
    (Ma.sum2 hb).bind fun e2 he2 => (diagMv_ev hf).bind fun dg hdg => (Ve.sum hdg).bind fun ds hds =>
    (Sc.inplace he2 hds).bind fun e2 he2 => (selfMv_ev ho).bind fun e3 he3 =>
    (Sc.op (he1.map _) (he2.map _)).bind fun d hd => (Sc.op hd (he3.map _)).bind fun g hg => ?_
  refine ESc.congr (Ret.ok (hg.map _)) fun i _ => ?_
  simp only [KsApprox.fair, KsApprox.e1, KsApprox.e2, List.map_map, Function.comp_def, List.length_map,
    List.length_range]

theorem akrMv_ev (ho : Ve obs s D z) (hf : Ma fct s M D x) :
    ESc (akrMv obs fct) s fun i => KsApprox.akr Kern.mv [] ((List.range D).map (z i)) ((List.range M).map (mem D (x i))) := by
  unfold akrMv
  rw [nMembers_eq hf]
  refine (errMv_ev ho hf).bind fun a ha => (Ve.sum ha).bind fun e1 he1 => rollMv_bind hf 1 fun b hb =>
    (Ve.sum hb).bind fun e2 he2 => (selfMv_ev ho).bind fun e3 he3 =>
    (Sc.op (he1.map _) (he2.map _)).bind fun d hd => (Sc.op hd (he3.map _)).bind fun g hg => ?_
  refine ESc.congr (Ret.ok (hg.map _)) fun i _ => ?_
  simp only [KsApprox.akr, KsApprox.e1, roll_eq, List.map_map, Function.comp_def, List.length_map,
    List.length_range]

theorem akrCircpermMv_ev (ho : Ve obs s D z) (hf : Ma fct s M D x) :
    ESc (akrCircpermMv obs fct) s fun i => KsApprox.akrCircperm Kern.mv [] ((List.range D).map (z i)) ((List.range M).map (mem D (x i))) := by
  unfold akrCircpermMv
  rw [nMembers_eq hf]
  refine (errMv_ev ho hf).bind fun a ha => (Ve.sum ha).bind fun e1 he1 => rollMv_bind hf (M / 2) fun b hb =>
    (Ve.sum hb).bind fun e2 he2 => (selfMv_ev ho).bind fun e3 he3 =>
    (Sc.op (he1.map _) (he2.map _)).bind fun d hd => (Sc.op hd (he3.map _)).bind fun g hg => ?_
  refine ESc.congr (Ret.ok (hg.map _)) fun i _ => ?_
  simp only [KsApprox.akrCircperm, KsApprox.e1, roll_eq, List.map_map, Function.comp_def, List.length_map,
    List.length_range]

theorem owMv_ev (ho : Ve obs s D z) (hf : Ma fct s M D x) (hc : Sc ow s c)
    (hu : Ve fw s M u) :
    ESc (KernelNp.owMv obs fct ow fw) s fun i =>
      KsApprox.owMv Kern.mv ((List.range D).map (z i)) ((List.range M).map (mem D (x i))) (c i) ((List.range M).map (u i)) := by
  unfold KernelNp.owMv
  rw [nMembers_eq hf]
  refine (Ve.sum hu).bind fun wb hwb => (errMv_ev ho hf).bind fun a ha =>
    (Ve.op ha hu).bind fun b hb => hc.ex.bind fun a1 h1 => (Ve.op1r hb h1).bind fun a2 h2 =>
    (Ve.sum h2).bind fun a3 h3 => (Sc.op h3 ((hwb.map _).map _)).bind fun e1 he1 =>
    (pairMv_ev hf).bind fun a4 h4 => hu.ex1.bind fun a5 h5 => hu.ex2.bind fun a6 h6 =>
    (Ma.op12 h5 h6).bind fun a7 h7 => hc.ex21.bind fun a8 h8 => (Ma.op1 h7 h8).bind fun a9 h9 =>
    (Ma.inplace h4 h9).bind fun a10 h10 => (Ma.sum2 h10).bind fun a11 h11 =>
    (Sc.op h11 ((hwb.map _).map _)).bind fun e2 he2 => (selfMv_ev ho).bind fun a12 h12 =>
    (Sc.op h12 hc).bind fun e3 he3 => ?_
  refine ESc.congr (combine_ev he1 he2 he3) fun i _ => ?_
  simp only [KsApprox.owMv, Py.mean, List.zip_map', List.map_map, Function.comp_def, List.length_map,
    List.length_range]

theorem vrMv_ev (ho : Ve obs s D z) (hf : Ma fct s M D x) (hc : Sc ow s c)
    (hu : Ve fw s M u) :
    ESc (KernelNp.vrMv obs fct ow fw) s fun i =>
      KsApprox.vrMv Kern.mv ((List.range D).map (z i)) ((List.range M).map (mem D (x i))) (c i) ((List.range M).map (u i)) := by
  unfold KernelNp.vrMv
  rw [nMembers_eq hf]
  refine (errMv_ev ho hf).bind fun a ha =>
    (Ve.op ha hu).bind fun b hb => hc.ex.bind fun a1 h1 => (Ve.op1r hb h1).bind fun a2 h2 =>
    (Ve.sum h2).bind fun a3 h3 =>
    (pairMv_ev hf).bind fun a4 h4 => hu.ex1.bind fun a5 h5 => hu.ex2.bind fun a6 h6 =>
    (Ma.op12 h5 h6).bind fun a7 h7 =>
    (Ma.inplace h4 h7).bind fun a10 h10 => (Ma.sum2 h10).bind fun a11 h11 =>
    (selfMv_ev ho).bind fun a12 h12 =>
    (Sc.op h12 hc).bind fun a13 h13 => (Sc.op h13 hc).bind fun e3 he3 => ?_
  refine ESc.congr (combine_ev (h3.map _) (h11.map _) he3) fun i _ => ?_
  simp only [KsApprox.vrMv, Py.mean, List.zip_map', List.map_map, Function.comp_def, List.length_map,
    List.length_range]

end KernelNp

namespace KernelNpW

open EnergyNp (mem nMembers_eq vsub_map)
open KernelNp (combine_ev errUv_ev pairUv_ev selfUv_ev rollUv_bind errMv_ev pairMv_ev selfMv_ev rollMv_bind
  roll_eq)

variable {obs fct ow fw w : Arr XF} {s : List ℕ} {M D : ℕ} {y c : List ℕ → XF}
  {z u v : List ℕ → ℕ → XF} {x : List ℕ → ℕ → ℕ → XF} {t : List ℕ → ℕ → XF}

theorem pairSum_ev {a : Arr XF} {g : List ℕ → ℕ → ℕ → XF} (ha : Ma a s M M g) (hw : Ve w s M v) :
    ESc (pairSum a w) s fun i => ((List.range M).map fun k => ((List.range M).map fun l =>
      g i k l * v i k * v i l).sum).sum := by
  unfold pairSum
  exact hw.ex1.bind fun b hb => (Ma.opC ha hb).bind fun d hd => hw.ex2.bind fun e he =>
    (Ma.opR hd he).bind fun g hg => Ma.sum2 hg

theorem ve_comm {a : Arr XF} {f g : List ℕ → ℕ → XF} (h : Ve a s M fun i k => f i k * g i k) :
    Ve a s M fun i k => g i k * f i k := IsB.congr h fun _ _ _ _ => mul_comm _ _

theorem nrgUv_ev (ho : Sc obs s y) (hf : Ve fct s M t) (hw : Ve w s M v) :
    ESc (nrgUv obs fct w) s fun i =>
      KsApproxW.nrg Kern.uv (y i) ((List.range M).map (t i)) ((List.range M).map (v i)) := by
  unfold nrgUv
  refine (errUv_ev ho hf).bind fun a ha => (Ve.op ha hw).bind fun b hb =>
    (Ve.sum hb).bind fun e1 he1 => (pairUv_ev hf).bind fun d hd => (pairSum_ev hd hw).bind fun e2 he2 =>
    (selfUv_ev ho).bind fun e3 he3 => ?_
  refine ESc.congr (combine_ev he1 he2 he3) fun i _ => ?_
  simp only [KsApproxW.nrg, KsApproxW.e1, KsApproxW.e2, List.zip_map', List.map_map, Function.comp_def, List.length_map,
    List.length_range]

theorem fairUv_ev (ho : Sc obs s y) (hf : Ve fct s M t) (hw : Ve w s M v) :
    ESc (fairUv obs fct w) s fun i =>
      KsApproxW.fair Kern.uv (y i) ((List.range M).map (t i)) ((List.range M).map (v i)) := by
  unfold fairUv
  refine (errUv_ev ho hf).bind fun a ha => (Ve.op ha hw).bind fun b hb =>
    (Ve.sum hb).bind fun e1 he1 => (pairUv_ev hf).bind fun d hd => (pairSum_ev hd hw).bind fun e2 he2 =>
    (selfUv_ev ho).bind fun e3 he3 => (Ve.op hw hw).bind fun a1 h1 => (Ve.sum h1).bind fun a2 h2 =>
    (Sc.op (he2.map _) (h2.map _)).bind fun a3 h3 => (Sc.op he1 h3).bind fun a4 h4 =>
    (Sc.op h4 (he3.map _)).bind fun a5 h5 => ?_
  refine ESc.congr (Ret.ok (h5.map _)) fun i _ => ?_
  simp only [KsApproxW.fair, KsApproxW.e1, KsApproxW.e2, List.zip_map', zip2_map, List.map_map, Function.comp_def, List.length_map,
    List.length_range]

theorem akrUv_ev (ho : Sc obs s y) (hf : Ve fct s M t) (hw : Ve w s M v) :
    ESc (akrUv obs fct w) s fun i =>
      KsApproxW.akr Kern.uv nan (y i) ((List.range M).map (t i)) ((List.range M).map (v i)) := by
  unfold akrUv
  refine (errUv_ev ho hf).bind fun a ha => (Ve.op ha hw).bind fun b hb => (Ve.sum hb).bind fun e1 he1 =>
    rollUv_bind hf 1 fun d hd => (Ve.op hd hw).bind fun e he => (Ve.sum he).bind fun e2 he2 =>
    (selfUv_ev ho).bind fun e3 he3 => ?_
  refine ESc.congr (combine_ev he1 he2 he3) fun i _ => ?_
  simp only [KsApproxW.akr, KsApproxW.e1, roll_eq, List.zip_map', zip2_map, List.map_map, Function.comp_def, List.length_map,
    List.length_range]

theorem akrCircpermUv_ev (ho : Sc obs s y) (hf : Ve fct s M t) (hw : Ve w s M v) :
    ESc (akrCircpermUv obs fct w) s fun i =>
      KsApproxW.akrCircperm Kern.uv nan (y i) ((List.range M).map (t i)) ((List.range M).map (v i)) := by
  unfold akrCircpermUv
  rw [hf.lastLen]
  refine (errUv_ev ho hf).bind fun a ha => (Ve.op ha hw).bind fun b hb => (Ve.sum hb).bind fun e1 he1 =>
    rollUv_bind hf (M / 2) fun d hd => (Ve.op hd hw).bind fun e he => (Ve.sum he).bind fun e2 he2 =>
    (selfUv_ev ho).bind fun e3 he3 => ?_
  refine ESc.congr (combine_ev he1 he2 he3) fun i _ => ?_
  simp only [KsApproxW.akrCircperm, KsApproxW.e1, roll_eq, List.zip_map', zip2_map, List.map_map, Function.comp_def, List.length_map,
    List.length_range]

theorem nrgMv_ev (ho : Ve obs s D z) (hf : Ma fct s M D x) (hw : Ve w s M v) :
    ESc (nrgMv obs fct w) s fun i =>
      KsApproxW.nrg Kern.mv ((List.range D).map (z i)) ((List.range M).map (mem D (x i))) ((List.range M).map (v i)) := by
  unfold nrgMv
  refine (errMv_ev ho hf).bind fun a ha => (Ve.op hw ha).bind fun b hb =>
    (Ve.sum (ve_comm hb)).bind fun e1 he1 => (pairMv_ev hf).bind fun d hd => (pairSum_ev hd hw).bind fun e2 he2 =>
    (selfMv_ev ho).bind fun e3 he3 => ?_
  refine ESc.congr (combine_ev he1 he2 he3) fun i _ => ?_
  simp only [KsApproxW.nrg, KsApproxW.e1, KsApproxW.e2, List.zip_map', List.map_map, Function.comp_def, List.length_map,
    List.length_range]

theorem fairMv_ev (ho : Ve obs s D z) (hf : Ma fct s M D x) (hw : Ve w s M v) :
    ESc (fairMv obs fct w) s fun i =>
      KsApproxW.fair Kern.mv ((List.range D).map (z i)) ((List.range M).map (mem D (x i))) ((List.range M).map (v i)) := by
  unfold fairMv
  refine (errMv_ev ho hf).bind fun a ha => (Ve.op hw ha).bind fun b hb =>
    (Ve.sum (ve_comm hb)).bind fun e1 he1 => (pairMv_ev hf).bind fun d hd => (pairSum_ev hd hw).bind fun e2 he2 =>
    (selfMv_ev ho).bind fun e3 he3 => (Ve.op hw hw).bind fun a1 h1 => (Ve.sum h1).bind fun a2 h2 =>
    (Sc.op (he2.map _) (h2.map _)).bind fun a3 h3 => (Sc.op he1 h3).bind fun a4 h4 =>
    (Sc.op h4 (he3.map _)).bind fun a5 h5 => ?_
  refine ESc.congr (Ret.ok (h5.map _)) fun i _ => ?_
  simp only [KsApproxW.fair, KsApproxW.e1, KsApproxW.e2, List.zip_map', zip2_map, List.map_map, Function.comp_def, List.length_map,
    List.length_range]

theorem akrMv_ev (ho : Ve obs s D z) (hf : Ma fct s M D x) (hw : Ve w s M v) :
    ESc (akrMv obs fct w) s fun i =>
      KsApproxW.akr Kern.mv [] ((List.range D).map (z i)) ((List.range M).map (mem D (x i))) ((List.range M).map (v i)) := by
  unfold akrMv
  refine (errMv_ev ho hf).bind fun a ha => (Ve.op ha hw).bind fun b hb => (Ve.sum hb).bind fun e1 he1 =>
    rollMv_bind hf 1 fun d hd => (Ve.op hd hw).bind fun e he => (Ve.sum he).bind fun e2 he2 =>
    (selfMv_ev ho).bind fun e3 he3 => ?_
  refine ESc.congr (combine_ev he1 he2 he3) fun i _ => ?_
  simp only [KsApproxW.akr, KsApproxW.e1, roll_eq, List.zip_map', zip2_map, List.map_map, Function.comp_def, List.length_map,
    List.length_range]

theorem akrCircpermMv_ev (ho : Ve obs s D z) (hf : Ma fct s M D x) (hw : Ve w s M v) :
    ESc (akrCircpermMv obs fct w) s fun i =>
      KsApproxW.akrCircperm Kern.mv [] ((List.range D).map (z i)) ((List.range M).map (mem D (x i))) ((List.range M).map (v i)) := by
  unfold akrCircpermMv
  rw [nMembers_eq hf]
  refine (errMv_ev ho hf).bind fun a ha => (Ve.op ha hw).bind fun b hb => (Ve.sum hb).bind fun e1 he1 =>
    rollMv_bind hf (M / 2) fun d hd => (Ve.op hd hw).bind fun e he => (Ve.sum he).bind fun e2 he2 =>
    (selfMv_ev ho).bind fun e3 he3 => ?_
  refine ESc.congr (combine_ev he1 he2 he3) fun i _ => ?_
  simp only [KsApproxW.akrCircperm, KsApproxW.e1, roll_eq, List.zip_map', zip2_map, List.map_map, Function.comp_def, List.length_map,
    List.length_range]

theorem owPairUv_ev (hf : Ve fct s M t) (hu : Ve fw s M u) (hw : Ve w s M v) :
    ESc (owPairUv fct fw w) s fun i => ((List.range M).map fun k => ((List.range M).map fun l =>
      v i k * v i l * Kern.uv (t i k) (t i l) * u i k * u i l).sum).sum := by
  unfold owPairUv
  exact hw.ex1.bind fun a ha => hw.ex2.bind fun b hb => (Ma.op12 ha hb).bind fun d hd =>
    (pairUv_ev hf).bind fun e he => (Ma.op hd he).bind fun g hg => hu.ex1.bind fun a1 h1 =>
    (Ma.opC hg h1).bind fun a2 h2 => hu.ex2.bind fun a3 h3 => (Ma.opR h2 h3).bind fun a4 h4 => Ma.sum2 h4

theorem owUv_ev (ho : Sc obs s y) (hf : Ve fct s M t) (hc : Sc ow s c)
    (hu : Ve fw s M u) (hw : Ve w s M v) :
    ESc (KernelNpW.owUv obs fct ow fw w) s fun i =>
      KsApproxW.owUv Kern.uv (y i) ((List.range M).map (t i)) (c i) ((List.range M).map (u i))
        ((List.range M).map (v i)) := by
  unfold KernelNpW.owUv
  refine (Ve.op hw hu).bind fun a0 h0 => (Ve.sum h0).bind fun wb hwb =>
    (errUv_ev ho hf).bind fun a ha => (Ve.op hw ha).bind fun b hb => (Ve.op hb hu).bind fun b hb =>
    (Ve.sum hb).bind fun a1 h1 => (Sc.op h1 hc).bind fun a2 h2 => (Sc.op h2 hwb).bind fun e1 he1 =>
    (owPairUv_ev hf hu hw).bind fun a3 h3 => (Sc.op hc (hwb.map _)).bind fun a4 h4 =>
    (Sc.inplace h3 h4).bind fun e2 he2 => (selfUv_ev ho).bind fun a5 h5 =>
    (Sc.op h5 hc).bind fun e3 he3 => ?_
  refine ESc.congr (combine_ev he1 he2 he3) fun i _ => ?_
  simp only [KsApproxW.owUv, List.zip_map', zip2_map, List.map_map, Function.comp_def, List.length_map,
    List.length_range]

theorem vrUv_ev (ho : Sc obs s y) (hf : Ve fct s M t) (hc : Sc ow s c)
    (hu : Ve fw s M u) (hw : Ve w s M v) :
    ESc (KernelNpW.vrUv obs fct ow fw w) s fun i =>
      KsApproxW.vrUv Kern.uv (y i) ((List.range M).map (t i)) (c i) ((List.range M).map (u i))
        ((List.range M).map (v i)) := by
  unfold KernelNpW.vrUv
  refine (errUv_ev ho hf).bind fun a ha => (Ve.op hw ha).bind fun b hb =>
    (Ve.op hb hu).bind fun b hb => (Ve.sum hb).bind fun a1 h1 => (Sc.op h1 hc).bind fun e1 he1 =>
    (owPairUv_ev hf hu hw).bind fun e2 he2 => (selfUv_ev ho).bind fun a5 h5 =>
    (Sc.op h5 hc).bind fun a6 h6 => (Sc.op h6 hc).bind fun e3 he3 => ?_
  refine ESc.congr (combine_ev he1 he2 he3) fun i _ => ?_
  simp only [KsApproxW.vrUv, List.zip_map', zip2_map, List.map_map, Function.comp_def, List.length_map,
    List.length_range]

theorem owMv_ev (ho : Ve obs s D z) (hf : Ma fct s M D x) (hc : Sc ow s c)
    (hu : Ve fw s M u) (hw : Ve w s M v) :
    ESc (KernelNpW.owMv obs fct ow fw w) s fun i =>
      KsApproxW.owMv Kern.mv ((List.range D).map (z i)) ((List.range M).map (mem D (x i))) (c i) ((List.range M).map (u i))
        ((List.range M).map (v i)) := by
  unfold KernelNpW.owMv
  refine (Ve.op hu hw).bind fun a0 h0 => (Ve.sum h0).bind fun wb hwb =>
    (errMv_ev ho hf).bind fun a ha => (Ve.op ha hu).bind fun b hb => hc.ex.bind fun a1 h1 =>
    (Ve.op1r hb h1).bind fun a2 h2 => (Ve.op h2 hw).bind fun a2 h2 =>
    (Ve.sum h2).bind fun a3 h3 => (Sc.op h3 hwb).bind fun e1 he1 =>
    (pairMv_ev hf).bind fun a4 h4 => hu.ex1.bind fun a5 h5 => hu.ex2.bind fun a6 h6 =>
    (Ma.op12 h5 h6).bind fun a7 h7 => hc.ex21.bind fun a8 h8 => (Ma.op1 h7 h8).bind fun a9 h9 =>
    (Ma.inplace h4 h9).bind fun a10 h10 => (pairSum_ev h10 hw).bind fun a11 h11 =>
    (Sc.op h11 (hwb.map _)).bind fun e2 he2 => (selfMv_ev ho).bind fun a12 h12 =>
    (Sc.op h12 hc).bind fun e3 he3 => ?_
  refine ESc.congr (combine_ev he1 he2 he3) fun i _ => ?_
  simp only [KsApproxW.owMv, List.zip_map', zip2_map, List.map_map, Function.comp_def, List.length_map,
    List.length_range]

theorem vrMv_ev (ho : Ve obs s D z) (hf : Ma fct s M D x) (hc : Sc ow s c)
    (hu : Ve fw s M u) (hw : Ve w s M v) :
    ESc (KernelNpW.vrMv obs fct ow fw w) s fun i =>
      KsApproxW.vrMv Kern.mv ((List.range D).map (z i)) ((List.range M).map (mem D (x i))) (c i) ((List.range M).map (u i))
        ((List.range M).map (v i)) := by
  unfold KernelNpW.vrMv
  refine (errMv_ev ho hf).bind fun a ha => (Ve.op ha hu).bind fun b hb =>
    hc.ex.bind fun a1 h1 => (Ve.op1r hb h1).bind fun a2 h2 => (Ve.op h2 hw).bind fun a2 h2 =>
    (Ve.sum h2).bind fun e1 he1 =>
    (pairMv_ev hf).bind fun a4 h4 => hu.ex1.bind fun a5 h5 => hu.ex2.bind fun a6 h6 =>
    (Ma.op12 h5 h6).bind fun a7 h7 =>
    (Ma.inplace h4 h7).bind fun a10 h10 => (pairSum_ev h10 hw).bind fun e2 he2 =>
    (selfMv_ev ho).bind fun a12 h12 =>
    (Sc.op h12 hc).bind fun a13 h13 => (Sc.op h13 hc).bind fun e3 he3 => ?_
  refine ESc.congr (combine_ev he1 he2 he3) fun i _ => ?_
  simp only [KsApproxW.vrMv, List.zip_map', zip2_map, List.map_map, Function.comp_def, List.length_map,
    List.length_range]

end KernelNpW
end Verif
