import Verif.Model.Energy
import Verif.Model.WeightedUv

/-!
# Gaussian kernel scores

Transcription of `/repo/scoringrules/core/kernels/_gufuncs.py`, `_gufuncs_w.py` (numba), `_approx.py`,
`_approx_w.py` (numpy-style) on one (observation, ensemble) pair, and of the public functions of
`/repo/scoringrules/_kernels.py`.

The univariate and the multivariate functions of the source differ only in the kernel, in the type of a
member (a number or a vector) and, on the numba path, in a NaN check of the observation.  They are
written once, for a kernel `k` and a default member `d` for out-of-range positions, and every definition
cites both source functions.
-/

noncomputable section

open scoped Classical

namespace Verif

open XF Py Mv

namespace Kern

/-- `gauss_kern_uv`, `kernels/_approx.py:9-14`, `_approx_w.py:9-14`; `_gauss_kern_uv`,
`_gufuncs.py:10-13`, `_gufuncs_w.py:10-13`: `exp(-0.5 * (x1 - x2) ** 2)`. -/
def uv (x1 x2 : XF) : XF := XF.exp (-half * (x1 - x2) ^ 2)

/-- `gauss_kern_mv`, `kernels/_approx.py:17-22`, `_approx_w.py:17-22`; `_gauss_kern_mv`,
`_gufuncs.py:17-20`, `_gufuncs_w.py:17-20`: `exp(-0.5 * norm(x1 - x2) ** 2)`. -/
def mv (x1 x2 : List XF) : XF := XF.exp (-half * vnorm (vsub x1 x2) ^ 2)

end Kern

variable {α : Type}

/-! ## numba, unweighted: `/repo/scoringrules/core/kernels/_gufuncs.py` -/
namespace KsGufunc

/-- `_ks_ensemble_uv_nrg_gufunc`, `kernels/_gufuncs.py:32-41`, and `_ks_ensemble_mv_nrg_gufunc`, `kernels/_gufuncs.py:165-175`. -/
def nrg (k : α → α → XF) (d : α) (obs : α) (fct : List α) : XF :=
  let M := fct.length
  let e := forRange 0 M ((0, 0) : XF × XF) fun i e =>
    (e.1 + k (fct.getD i d) obs,
     forRange 0 M e.2 fun j e2 => e2 + k (fct.getD i d) (fct.getD j d))
  let e3 := k obs obs
  Neg.neg (e.1 / (M : XF) - half * (e.2 / ((M ^ 2 : ℕ) : XF)) - half * e3)

/-- `_ks_ensemble_uv_fair_gufunc`, `kernels/_gufuncs.py:53-62` (which passes the two members to the kernel in the other
order), and `_ks_ensemble_mv_fair_gufunc`, `kernels/_gufuncs.py:181-191`. -/
def fair (k : α → α → XF) (d : α) (obs : α) (fct : List α) : XF :=
  let M := fct.length
  let e := forRange 0 M ((0, 0) : XF × XF) fun i e =>
    (e.1 + k (fct.getD i d) obs,
     forRange (i + 1) M e.2 fun j e2 => e2 + k (fct.getD i d) (fct.getD j d))
  let e3 := k obs obs
  Neg.neg (e.1 / (M : XF) - e.2 / ((M * (M - 1) : ℕ) : XF) - half * e3)

/-- `_ks_ensemble_uv_akr_gufunc`, `kernels/_gufuncs.py:74-81`, and `_ks_ensemble_mv_akr_gufunc`, `kernels/_gufuncs.py:197-206`;
`fct[i - 1]` with `i = 0` is the last member. -/
def akr (k : α → α → XF) (d : α) (obs : α) (fct : List α) : XF :=
  let M := fct.length
  let e := forRange 0 M ((0, 0) : XF × XF) fun i e =>
    (e.1 + k (fct.getD i d) obs,
     e.2 + k (fct.getD i d) (fct.getD ((if i = 0 then M else i) - 1) d))
  let e3 := k obs obs
  Neg.neg (e.1 / (M : XF) - half * e.2 / (M : XF) - half * e3)

/-- `_ks_ensemble_uv_akr_circperm_gufunc`, `kernels/_gufuncs.py:95-103`, and `_ks_ensemble_mv_akr_circperm_gufunc`,
`kernels/_gufuncs.py:214-224`; `Gufunc.sigma` is `int((i + 1 + ((M - 1) / 2)) % M)`. -/
def akrCircperm (k : α → α → XF) (d : α) (obs : α) (fct : List α) : XF :=
  let M := fct.length
  let e := forRange 0 M ((0, 0) : XF × XF) fun i e =>
    (e.1 + k (fct.getD i d) obs,
     e.2 + k (fct.getD i d) (fct.getD (Gufunc.sigma M i) d))
  let e3 := k obs obs
  Neg.neg (e.1 / (M : XF) - half * e.2 / (M : XF) - half * e3)

/-- `_owks_ensemble_uv_gufunc`, `kernels/_gufuncs.py:121-132`, and `_owks_ensemble_mv_gufunc`, `kernels/_gufuncs.py:236-248`. -/
def ow (k : α → α → XF) (d : α) (obs : α) (fct : List α) (ow : XF) (fw : List XF) : XF :=
  let M := fct.length
  let e := forRange 0 M ((0, 0) : XF × XF) fun i e =>
    (e.1 + k (fct.getD i d) obs * idx fw i * ow,
     forRange 0 M e.2 fun j e2 =>
       e2 + k (fct.getD i d) (fct.getD j d) * idx fw i * idx fw j * ow)
  let e3 := k obs obs * ow
  let wbar := mean fw
  Neg.neg (e.1 / ((M : XF) * wbar) - half * e.2 / (((M ^ 2 : ℕ) : XF) * wbar ^ 2) - half * e3)

/-- `_vrks_ensemble_uv_gufunc`, `kernels/_gufuncs.py:150-159`, and `_vrks_ensemble_mv_gufunc`, `kernels/_gufuncs.py:260-270`. -/
def vr (k : α → α → XF) (d : α) (obs : α) (fct : List α) (ow : XF) (fw : List XF) : XF :=
  let M := fct.length
  let e := forRange 0 M ((0, 0) : XF × XF) fun i e =>
    (e.1 + k (fct.getD i d) obs * idx fw i * ow,
     forRange 0 M e.2 fun j e2 =>
       e2 + k (fct.getD i d) (fct.getD j d) * idx fw i * idx fw j)
  let e3 := k obs obs * ow * ow
  Neg.neg (e.1 / (M : XF) - half * (e.2 / ((M ^ 2 : ℕ) : XF)) - half * e3)

end KsGufunc

/-! ## numba, weighted: `/repo/scoringrules/core/kernels/_gufuncs_w.py` -/
namespace KsGufuncW

/-- `_ks_ensemble_uv_w_nrg_gufunc`, `kernels/_gufuncs_w.py:34-43`, and `_ks_ensemble_mv_w_nrg_gufunc`, `kernels/_gufuncs_w.py:173-183`. -/
def nrg (k : α → α → XF) (d : α) (obs : α) (fct : List α) (w : List XF) : XF :=
  let M := fct.length
  let e := forRange 0 M ((0, 0) : XF × XF) fun i e =>
    (e.1 + k (fct.getD i d) obs * idx w i,
     forRange 0 M e.2 fun j e2 => e2 + k (fct.getD i d) (fct.getD j d) * idx w i * idx w j)
  let e3 := k obs obs
  Neg.neg (e.1 - half * e.2 - half * e3)

/-- `_ks_ensemble_uv_w_fair_gufunc`, `kernels/_gufuncs_w.py:57-66`, and `_ks_ensemble_mv_w_fair_gufunc`, lines
191-201. -/
def fair (k : α → α → XF) (d : α) (obs : α) (fct : List α) (w : List XF) : XF :=
  let M := fct.length
  let e := forRange 0 M ((0, 0) : XF × XF) fun i e =>
    (e.1 + k (fct.getD i d) obs * idx w i,
     forRange (i + 1) M e.2 fun j e2 => e2 + k (fct.getD i d) (fct.getD j d) * idx w i * idx w j)
  let e3 := k obs obs
  Neg.neg (e.1 - e.2 / (1 - (zip2 (· * ·) w w).sum) - half * e3)

/-- `_ks_ensemble_uv_w_akr_gufunc`, `kernels/_gufuncs_w.py:80-87`, and `_ks_ensemble_mv_w_akr_gufunc`, `kernels/_gufuncs_w.py:209-218`. -/
def akr (k : α → α → XF) (d : α) (obs : α) (fct : List α) (w : List XF) : XF :=
  let M := fct.length
  let e := forRange 0 M ((0, 0) : XF × XF) fun i e =>
    (e.1 + k (fct.getD i d) obs * idx w i,
     e.2 + k (fct.getD i d) (fct.getD ((if i = 0 then M else i) - 1) d) * idx w i)
  let e3 := k obs obs
  Neg.neg (e.1 - half * e.2 - half * e3)

/-- `_ks_ensemble_uv_w_akr_circperm_gufunc`, `kernels/_gufuncs_w.py:101-109`, and
`_ks_ensemble_mv_w_akr_circperm_gufunc`, `kernels/_gufuncs_w.py:226-236`. -/
def akrCircperm (k : α → α → XF) (d : α) (obs : α) (fct : List α) (w : List XF) : XF :=
  let M := fct.length
  let e := forRange 0 M ((0, 0) : XF × XF) fun i e =>
    (e.1 + k (fct.getD i d) obs * idx w i,
     e.2 + k (fct.getD i d) (fct.getD (Gufunc.sigma M i) d) * idx w i)
  let e3 := k obs obs
  Neg.neg (e.1 - half * e.2 - half * e3)

/-- `_owks_ensemble_uv_w_gufunc`, `kernels/_gufuncs_w.py:127-138`, and `_owks_ensemble_mv_w_gufunc`, `kernels/_gufuncs_w.py:249-264`, where
`ow = ow[0]` only unpacks the scalar. -/
def ow (k : α → α → XF) (d : α) (obs : α) (fct : List α) (ow : XF) (fw w : List XF) : XF :=
  let M := fct.length
  let e := forRange 0 M ((0, 0) : XF × XF) fun i e =>
    (e.1 + k (fct.getD i d) obs * idx fw i * ow * idx w i,
     forRange 0 M e.2 fun j e2 =>
       e2 + k (fct.getD i d) (fct.getD j d) * idx fw i * idx fw j * ow * idx w i * idx w j)
  let e3 := k obs obs * ow
  let wbar := (zip2 (· * ·) fw w).sum
  Neg.neg (e.1 / wbar - half * e.2 / wbar ^ 2 - half * e3)

/-- `_vrks_ensemble_uv_w_gufunc`, `kernels/_gufuncs_w.py:156-165`.  The multivariate counterpart (`kernels/_gufuncs_w.py:267-287`) is not a
gufunc; see `Api.vrgksmvEnsemble`. -/
def vr (k : α → α → XF) (d : α) (obs : α) (fct : List α) (ow : XF) (fw w : List XF) : XF :=
  let M := fct.length
  let e := forRange 0 M ((0, 0) : XF × XF) fun i e =>
    (e.1 + k (fct.getD i d) obs * idx fw i * ow * idx w i,
     forRange 0 M e.2 fun j e2 =>
       e2 + k (fct.getD i d) (fct.getD j d) * idx fw i * idx fw j * idx w i * idx w j)
  let e3 := k obs obs * ow * ow
  Neg.neg (e.1 - half * e.2 - half * e3)

end KsGufuncW

/-! ## numpy-style, unweighted: `/repo/scoringrules/core/kernels/_approx.py` -/
namespace KsApprox

/-- `B.sum(gauss_kern(obs[..., None], fct), axis=-1)` (`kernels/_approx.py:48-82`). -/
def e1 (k : α → α → XF) (obs : α) (fct : List α) : XF := (fct.map fun x => k obs x).sum

/-- `B.sum(gauss_kern(fct[..., None], fct[..., None, :]), axis=(-1, -2))` (`kernels/_approx.py:48-82`). -/
def e2 (k : α → α → XF) (fct : List α) : XF := (fct.map fun a => (fct.map fun b => k a b).sum).sum

/-- `np.roll(fct, shift)` along the ensemble axis (`backend/numpy.py:289-290`). -/
def roll (d : α) (fct : List α) (shift : ℕ) : List α :=
  (List.range fct.length).map fun j =>
    fct.getD ((j + (fct.length - shift % fct.length)) % fct.length) d

/-- `_ks_ensemble_nrg_uv`, `kernels/_approx.py:48-63`, and `_ks_ensemble_nrg_mv`, `kernels/_approx.py:146-161`. -/
def nrg (k : α → α → XF) (obs : α) (fct : List α) : XF :=
  let M := fct.length
  let e3 := k obs obs
  Neg.neg (e1 k obs fct / (M : XF) - half * e2 k fct / ((M ^ 2 : ℕ) : XF) - half * e3)

/-- `_ks_ensemble_fair_uv`, `kernels/_approx.py:66-82`, and `_ks_ensemble_fair_mv`, `kernels/_approx.py:164-180`. -/
def fair (k : α → α → XF) (obs : α) (fct : List α) : XF :=
  let M := fct.length
  let e2' := e2 k fct - (fct.map fun x => k x x).sum
  let e3 := k obs obs
  Neg.neg (e1 k obs fct / (M : XF) - half * e2' / ((M * (M - 1) : ℕ) : XF) - half * e3)

/-- `_ks_ensemble_akr_uv`, `kernels/_approx.py:85-99`, and `_ks_ensemble_akr_mv`, `kernels/_approx.py:183-197`. -/
def akr (k : α → α → XF) (d : α) (obs : α) (fct : List α) : XF :=
  let M := fct.length
  let e2 := (List.zipWith k fct (roll d fct 1)).sum
  let e3 := k obs obs
  Neg.neg (e1 k obs fct / (M : XF) - half * e2 / (M : XF) - half * e3)

/-- `_ks_ensemble_akr_circperm_uv`, `kernels/_approx.py:102-117`, and `_ks_ensemble_akr_circperm_mv`, lines
200-215. -/
def akrCircperm (k : α → α → XF) (d : α) (obs : α) (fct : List α) : XF :=
  let M := fct.length
  let e2 := (List.zipWith k fct (roll d fct (M / 2))).sum
  let e3 := k obs obs
  Neg.neg (e1 k obs fct / (M : XF) - half * e2 / (M : XF) - half * e3)

/-- `ow_ensemble_uv`, `kernels/_approx.py:218-244`. -/
def owUv (k : α → α → XF) (obs : α) (fct : List α) (ow : XF) (fw : List XF) : XF :=
  let M := fct.length
  let wbar := mean fw
  let xw := fct.zip fw
  let e1 := (xw.map fun p => k obs p.1 * p.2).sum * ow / ((M : XF) * wbar)
  let e2 := (xw.map fun p => (xw.map fun q => k p.1 q.1 * p.2 * q.2).sum).sum
    * (ow / (((M ^ 2 : ℕ) : XF) * wbar ^ 2))
  let e3 := k obs obs * ow
  Neg.neg (e1 - half * e2 - half * e3)

/-- `ow_ensemble_mv`, `kernels/_approx.py:247-276`. -/
def owMv (k : α → α → XF) (obs : α) (fct : List α) (ow : XF) (fw : List XF) : XF :=
  let M := fct.length
  let wbar := fw.sum / (M : XF)
  let xw := fct.zip fw
  let e1 := (xw.map fun p => k obs p.1 * p.2 * ow).sum / ((M : XF) * wbar)
  let e2 := (xw.map fun p => (xw.map fun q => k p.1 q.1 * (p.2 * q.2 * ow)).sum).sum
    / (((M ^ 2 : ℕ) : XF) * wbar ^ 2)
  let e3 := k obs obs * ow
  Neg.neg (e1 - half * e2 - half * e3)

/-- `vr_ensemble_uv`, `kernels/_approx.py:279-308`. -/
def vrUv (k : α → α → XF) (obs : α) (fct : List α) (ow : XF) (fw : List XF) : XF :=
  let M := fct.length
  let xw := fct.zip fw
  let e1 := (xw.map fun p => k obs p.1 * p.2).sum * ow / (M : XF)
  let e2 := (xw.map fun p => (xw.map fun q => k p.1 q.1 * (p.2 * q.2)).sum).sum / ((M ^ 2 : ℕ) : XF)
  let e3 := k obs obs * ow * ow
  Neg.neg (e1 - half * e2 - half * e3)

/-- `vr_ensemble_mv`, `kernels/_approx.py:311-339`. -/
def vrMv (k : α → α → XF) (obs : α) (fct : List α) (ow : XF) (fw : List XF) : XF :=
  let M := fct.length
  let xw := fct.zip fw
  let e1 := (xw.map fun p => k obs p.1 * p.2 * ow).sum / (M : XF)
  let e2 := (xw.map fun p => (xw.map fun q => k p.1 q.1 * (p.2 * q.2)).sum).sum / ((M ^ 2 : ℕ) : XF)
  let e3 := k obs obs * ow * ow
  Neg.neg (e1 - half * e2 - half * e3)

end KsApprox

/-! ## numpy-style, weighted: `/repo/scoringrules/core/kernels/_approx_w.py` -/
namespace KsApproxW

/-- `B.sum(gauss_kern(obs[..., None], fct) * ens_w, axis=-1)` (`kernels/_approx_w.py:49-92`). -/
def e1 (k : α → α → XF) (obs : α) (fct : List α) (w : List XF) : XF :=
  ((fct.zip w).map fun p => k obs p.1 * p.2).sum

/-- `B.sum(gauss_kern(fct[..., None], fct[..., None, :]) * ens_w[..., None] * ens_w[..., None, :],
axis=(-1, -2))` (`kernels/_approx_w.py:49-92`). -/
def e2 (k : α → α → XF) (fct : List α) (w : List XF) : XF :=
  ((fct.zip w).map fun p => ((fct.zip w).map fun q => k p.1 q.1 * p.2 * q.2).sum).sum

/-- `_ks_ensemble_nrg_uv_w`, `kernels/_approx_w.py:49-68`, and `_ks_ensemble_nrg_mv_w`, `kernels/_approx_w.py:156-177`. -/
def nrg (k : α → α → XF) (obs : α) (fct : List α) (w : List XF) : XF :=
  let e3 := k obs obs
  Neg.neg (e1 k obs fct w - half * e2 k fct w - half * e3)

/-- `_ks_ensemble_fair_uv_w`, `kernels/_approx_w.py:71-92`, and `_ks_ensemble_fair_mv_w`, `kernels/_approx_w.py:180-203`.  Unlike the
unweighted and the numba versions, the pairs of a member with itself are kept in `e_2`. -/
def fair (k : α → α → XF) (obs : α) (fct : List α) (w : List XF) : XF :=
  let e3 := k obs obs
  let fairC := 1 - (zip2 (· * ·) w w).sum
  Neg.neg (e1 k obs fct w - half * e2 k fct w / fairC - half * e3)

/-- `_ks_ensemble_akr_uv_w`, `kernels/_approx_w.py:95-110`, and `_ks_ensemble_akr_mv_w`, `kernels/_approx_w.py:206-222`. -/
def akr (k : α → α → XF) (d : α) (obs : α) (fct : List α) (w : List XF) : XF :=
  let e2 := (zip2 (· * ·) (List.zipWith k fct (KsApprox.roll d fct 1)) w).sum
  let e3 := k obs obs
  Neg.neg (e1 k obs fct w - half * e2 - half * e3)

/-- `_ks_ensemble_akr_circperm_uv_w`, `kernels/_approx_w.py:113-129`, and `_ks_ensemble_akr_circperm_mv_w`, lines
225-243. -/
def akrCircperm (k : α → α → XF) (d : α) (obs : α) (fct : List α) (w : List XF) : XF :=
  let e2 := (zip2 (· * ·) (List.zipWith k fct (KsApprox.roll d fct (fct.length / 2))) w).sum
  let e3 := k obs obs
  Neg.neg (e1 k obs fct w - half * e2 - half * e3)

/-- `ow_ensemble_uv_w`, `kernels/_approx_w.py:246-274`. -/
def owUv (k : α → α → XF) (obs : α) (fct : List α) (ow : XF) (fw w : List XF) : XF :=
  let wbar := (zip2 (· * ·) w fw).sum
  let xw := (fct.zip fw).zip w
  let e1 := (xw.map fun p => p.2 * k obs p.1.1 * p.1.2).sum * ow / wbar
  let e2 := (xw.map fun p => (xw.map fun q =>
    p.2 * q.2 * k p.1.1 q.1.1 * p.1.2 * q.1.2).sum).sum * (ow / wbar ^ 2)
  let e3 := k obs obs * ow
  Neg.neg (e1 - half * e2 - half * e3)

/-- `ow_ensemble_mv_w`, `kernels/_approx_w.py:277-308`. -/
def owMv (k : α → α → XF) (obs : α) (fct : List α) (ow : XF) (fw w : List XF) : XF :=
  let wbar := (zip2 (· * ·) fw w).sum
  let xw := (fct.zip fw).zip w
  let e1 := (xw.map fun p => k obs p.1.1 * p.1.2 * ow * p.2).sum / wbar
  let e2 := (xw.map fun p => (xw.map fun q =>
    k p.1.1 q.1.1 * (p.1.2 * q.1.2 * ow) * p.2 * q.2).sum).sum / wbar ^ 2
  let e3 := k obs obs * ow
  Neg.neg (e1 - half * e2 - half * e3)

/-- `vr_ensemble_uv_w`, `kernels/_approx_w.py:311-338`. -/
def vrUv (k : α → α → XF) (obs : α) (fct : List α) (ow : XF) (fw w : List XF) : XF :=
  let xw := (fct.zip fw).zip w
  let e1 := (xw.map fun p => p.2 * k obs p.1.1 * p.1.2).sum * ow
  let e2 := (xw.map fun p => (xw.map fun q =>
    p.2 * q.2 * k p.1.1 q.1.1 * p.1.2 * q.1.2).sum).sum
  let e3 := k obs obs * ow * ow
  Neg.neg (e1 - half * e2 - half * e3)

/-- `vr_ensemble_mv_w`, `kernels/_approx_w.py:341-371`. -/
def vrMv (k : α → α → XF) (obs : α) (fct : List α) (ow : XF) (fw w : List XF) : XF :=
  let xw := (fct.zip fw).zip w
  let e1 := (xw.map fun p => k obs p.1.1 * p.1.2 * ow * p.2).sum
  let e2 := (xw.map fun p => (xw.map fun q =>
    k p.1.1 q.1.1 * (p.1.2 * q.1.2) * p.2 * q.2).sum).sum
  let e3 := k obs obs * ow * ow
  Neg.neg (e1 - half * e2 - half * e3)

end KsApproxW

/-! ## public functions: `/repo/scoringrules/_kernels.py` -/
namespace Api

/-- the test `if np.isnan(obs): out[0] = np.nan; return` at the top of the univariate gufuncs,
`_gufuncs.py:28-30, 49-51, 70-72, 91-93` -/
def nanGuard (k : XF → List XF → XF) (obs : XF) (fct : List XF) : XF :=
  if obs.isnan then nan else k obs fct

/-- the same test in the weighted gufuncs, `_gufuncs_w.py:30-32, 53-55, 76-78, 97-99` -/
def nanGuardW (k : XF → List XF → List XF → XF) (obs : XF) (fct w : List XF) : XF :=
  if obs.isnan then nan else k obs fct w

/-- `kernels.estimator_gufuncs_uv` (`_gufuncs.py:273-280`) for `backend == "numba"`, else the dispatch
of `ensemble_uv` (`_approx.py:25-45`).  The table also holds the four-argument `ow`/`vr`, which fail
with a `TypeError` when called with two arguments. -/
def gksuvKernel (path : Path) (est : String) : Except Err (XF → List XF → XF) :=
  match path with
  | .numba =>
    if est = "akr" then .ok (nanGuard (KsGufunc.akr Kern.uv nan))
    else if est = "akr_circperm" then .ok (nanGuard (KsGufunc.akrCircperm Kern.uv nan))
    else if est = "fair" then .ok (nanGuard (KsGufunc.fair Kern.uv nan))
    else if est = "nrg" then .ok (nanGuard (KsGufunc.nrg Kern.uv nan))
    else if est = "ow" ∨ est = "vr" then .error .typeError
    else .error .valueError
  | .array =>
    if est = "nrg" then .ok (KsApprox.nrg Kern.uv)
    else if est = "fair" then .ok (KsApprox.fair Kern.uv)
    else if est = "akr" then .ok (KsApprox.akr Kern.uv nan)
    else if est = "akr_circperm" then .ok (KsApprox.akrCircperm Kern.uv nan)
    else .error .valueError

/-- Weighted counterpart: `estimator_gufuncs_uv_w` (`_gufuncs_w.py:290-297`) and `ensemble_uv_w`
(`_approx_w.py:25-46`), which tests for the name `"akr_circperm_w"` (line 39). -/
def gksuvKernelW (path : Path) (est : String) : Except Err (XF → List XF → List XF → XF) :=
  match path with
  | .numba =>
    if est = "fair" then .ok (nanGuardW (KsGufuncW.fair Kern.uv nan))
    else if est = "nrg" then .ok (nanGuardW (KsGufuncW.nrg Kern.uv nan))
    else if est = "akr" then .ok (nanGuardW (KsGufuncW.akr Kern.uv nan))
    else if est = "akr_circperm" then .ok (nanGuardW (KsGufuncW.akrCircperm Kern.uv nan))
    else if est = "ow" ∨ est = "vr" then .error .typeError
    else .error .valueError
  | .array =>
    if est = "nrg" then .ok (KsApproxW.nrg Kern.uv)
    else if est = "fair" then .ok (KsApproxW.fair Kern.uv)
    else if est = "akr" then .ok (KsApproxW.akr Kern.uv nan)
    else if est = "akr_circperm_w" then .ok (KsApproxW.akrCircperm Kern.uv nan)
    else .error .valueError

/-- `gksuv_ensemble`, `_kernels.py:20-87`. -/
def gksuvEnsemble (path : Path) (obs fct : Arr XF) (mAxis : ℤ) (ensW : Option (Arr XF))
    (est : String) : Except Err (Arr XF) := do
  let fct ← univariateArrayCheck obs fct mAxis
  match ensW with
  | none => (gksuvKernel path est).map fun k => perSlice k obs fct
  | some w =>
    let w ← univariateWeightCheck w fct mAxis
    (gksuvKernelW path est).map fun k => perSliceW k obs fct w

/-- `twgksuv_ensemble`, `_kernels.py:90-167`. -/
def twgksuvEnsemble (path : Path) (obs fct : Arr XF) (vFunc : XF → XF) (mAxis : ℤ)
    (ensW : Option (Arr XF)) (est : String) : Except Err (Arr XF) :=
  gksuvEnsemble path (obs.map vFunc) (fct.map vFunc) mAxis ensW est

/-- `owgksuv_ensemble`, `_kernels.py:170-251`; the gufuncs test the observation for NaN
(`_gufuncs.py:117-119`, `_gufuncs_w.py:123-125`). -/
def owgksuvEnsemble (path : Path) (obs fct : Arr XF) (wFunc : XF → XF) (mAxis : ℤ)
    (ensW : Option (Arr XF)) : Except Err (Arr XF) := do
  let fct ← univariateArrayCheck obs fct mAxis
  let (obsW, fctW) ← uvWeights obs fct wFunc
  match ensW with
  | none => match path with
    | .numba => .ok (perSliceO (fun o f ow fw => if o.isnan then nan else
        KsGufunc.ow Kern.uv nan o f ow fw) obs fct obsW fctW)
    | .array => .ok (perSliceO (KsApprox.owUv Kern.uv) obs fct obsW fctW)
  | some w =>
    let w ← univariateWeightCheck w fct mAxis
    match path with
    | .numba => .ok (perSliceOW (fun o f ow fw w => if o.isnan then nan else
        KsGufuncW.ow Kern.uv nan o f ow fw w) obs fct obsW fctW w)
    | .array => .ok (perSliceOW (KsApproxW.owUv Kern.uv) obs fct obsW fctW w)

/-- `vrgksuv_ensemble`, `_kernels.py:254-334`. -/
def vrgksuvEnsemble (path : Path) (obs fct : Arr XF) (wFunc : XF → XF) (mAxis : ℤ)
    (ensW : Option (Arr XF)) : Except Err (Arr XF) := do
  let fct ← univariateArrayCheck obs fct mAxis
  let (obsW, fctW) ← uvWeights obs fct wFunc
  match ensW with
  | none => match path with
    | .numba => .ok (perSliceO (fun o f ow fw => if o.isnan then nan else
        KsGufunc.vr Kern.uv nan o f ow fw) obs fct obsW fctW)
    | .array => .ok (perSliceO (KsApprox.vrUv Kern.uv) obs fct obsW fctW)
  | some w =>
    let w ← univariateWeightCheck w fct mAxis
    match path with
    | .numba => .ok (perSliceOW (fun o f ow fw w => if o.isnan then nan else
        KsGufuncW.vr Kern.uv nan o f ow fw w) obs fct obsW fctW w)
    | .array => .ok (perSliceOW (KsApproxW.vrUv Kern.uv) obs fct obsW fctW w)

/-- `kernels.estimator_gufuncs_mv` (`_gufuncs.py:282-289`) for `backend == "numba"`, else the dispatch
of `ensemble_mv` (`_approx.py:120-143`). -/
def gksmvKernel (path : Path) (est : String) : Except Err (List XF → List (List XF) → XF) :=
  match path with
  | .numba =>
    if est = "akr" then .ok (KsGufunc.akr Kern.mv [])
    else if est = "akr_circperm" then .ok (KsGufunc.akrCircperm Kern.mv [])
    else if est = "fair" then .ok (KsGufunc.fair Kern.mv [])
    else if est = "nrg" then .ok (KsGufunc.nrg Kern.mv [])
    else if est = "ow" ∨ est = "vr" then .error .typeError
    else .error .valueError
  | .array =>
    if est = "nrg" then .ok (KsApprox.nrg Kern.mv)
    else if est = "fair" then .ok (KsApprox.fair Kern.mv)
    else if est = "akr" then .ok (KsApprox.akr Kern.mv [])
    else if est = "akr_circperm" then .ok (KsApprox.akrCircperm Kern.mv [])
    else .error .valueError

/-- Weighted counterpart: `estimator_gufuncs_mv_w` (`_gufuncs_w.py:299-306`) and `ensemble_mv_w`
(`_approx_w.py:132-153`). -/
def gksmvKernelW (path : Path) (est : String) :
    Except Err (List XF → List (List XF) → List XF → XF) :=
  match path with
  | .numba =>
    if est = "fair" then .ok (KsGufuncW.fair Kern.mv [])
    else if est = "nrg" then .ok (KsGufuncW.nrg Kern.mv [])
    else if est = "akr" then .ok (KsGufuncW.akr Kern.mv [])
    else if est = "akr_circperm" then .ok (KsGufuncW.akrCircperm Kern.mv [])
    else if est = "ow" ∨ est = "vr" then .error .typeError
    else .error .valueError
  | .array =>
    if est = "nrg" then .ok (KsApproxW.nrg Kern.mv)
    else if est = "fair" then .ok (KsApproxW.fair Kern.mv)
    else if est = "akr" then .ok (KsApproxW.akr Kern.mv [])
    else if est = "akr_circperm" then .ok (KsApproxW.akrCircperm Kern.mv [])
    else .error .valueError

/-- `gksmv_ensemble`, `_kernels.py:337-406`. -/
def gksmvEnsemble (path : Path) (obs fct : Arr XF) (mAxis vAxis : ℤ) (ensW : Option (Arr XF))
    (est : String) : Except Err (Arr XF) := do
  let (obs, fct) ← multivariateArrayCheck obs fct mAxis vAxis
  match ensW with
  | none => (gksmvKernel path est).map fun k => perMat k obs fct
  | some w =>
    let w ← multivariateWeightCheck w fct mAxis
    (gksmvKernelW path est).map fun k => perMatW k obs fct w

/-- `twgksmv_ensemble`, `_kernels.py:409-472`. -/
def twgksmvEnsemble (path : Path) (obs fct : Arr XF) (vFunc : Arr XF → Arr XF) (mAxis vAxis : ℤ)
    (ensW : Option (Arr XF)) (est : String) : Except Err (Arr XF) :=
  gksmvEnsemble path (vFunc obs) (vFunc fct) mAxis vAxis ensW est

/-- `owgksmv_ensemble`, `_kernels.py:475-553`. -/
def owgksmvEnsemble (path : Path) (obs fct : Arr XF) (wFunc : List XF → XF) (mAxis vAxis : ℤ)
    (ensW : Option (Arr XF)) : Except Err (Arr XF) := do
  let (obs, fct) ← multivariateArrayCheck obs fct mAxis vAxis
  let (obsW, fctW) ← mvWeights obs fct wFunc
  match ensW with
  | none => match path with
    | .numba => .ok (perMatO (KsGufunc.ow Kern.mv []) obs fct obsW fctW)
    | .array => .ok (perMatO (KsApprox.owMv Kern.mv) obs fct obsW fctW)
  | some w =>
    let w ← multivariateWeightCheck w fct mAxis
    match path with
    | .numba => .ok (perMatOW (KsGufuncW.ow Kern.mv []) obs fct obsW fctW w)
    | .array => .ok (perMatOW (KsApproxW.owMv Kern.mv) obs fct obsW fctW w)

/-- The call of `_vrks_ensemble_mv_w_gufunc` (`_gufuncs_w.py:267-287`) through
`lazy_gufunc_wrapper_mv`.  The function lacks `@guvectorize`, so it receives the whole arrays as plain
Python: `ow = ow[0]` (line 277) raises `IndexError` when `ow` is 0-dimensional or empty, and otherwise
`_gauss_kern_mv` (compiled for one-dimensional arguments only) is called with `obs`, which has at least
two axes, and raises `TypeError`. -/
def vrksMvW (obsW : Arr XF) : Except Err (Arr XF) :=
  if obsW.shape.headD 0 = 0 then .error .indexError else .error .typeError

/-- `vrgksmv_ensemble`, `_kernels.py:556-624`. -/
def vrgksmvEnsemble (path : Path) (obs fct : Arr XF) (wFunc : List XF → XF) (mAxis vAxis : ℤ)
    (ensW : Option (Arr XF)) : Except Err (Arr XF) := do
  let (obs, fct) ← multivariateArrayCheck obs fct mAxis vAxis
  let (obsW, fctW) ← mvWeights obs fct wFunc
  match ensW with
  | none => match path with
    | .numba => .ok (perMatO (KsGufunc.vr Kern.mv []) obs fct obsW fctW)
    | .array => .ok (perMatO (KsApprox.vrMv Kern.mv) obs fct obsW fctW)
  | some w =>
    let w ← multivariateWeightCheck w fct mAxis
    match path with
    | .numba => vrksMvW obsW
    | .array => .ok (perMatOW (KsApproxW.vrMv Kern.mv) obs fct obsW fctW w)

/-- The call `gksuv_ensemble(y, xs, ens_w=ws, estimator=est)` on one-dimensional data. (`_kernels.py:20-87`) -/
def gksuv1 (path : Path) (est : String) (y : XF) (xs : List XF) (ws : Option (List XF)) :
    Except Err XF :=
  item (gksuvEnsemble path (Arr.scalar y) (Arr.ofList xs) (-1) (ws.map Arr.ofList) est)

/-- The call `owgksuv_ensemble(y, xs, w_func=w, ens_w=ws)` on one-dimensional data. (`_kernels.py:170-251`) -/
def owgksuv1 (path : Path) (wFunc : XF → XF) (y : XF) (xs : List XF) (ws : Option (List XF)) :
    Except Err XF :=
  item (owgksuvEnsemble path (Arr.scalar y) (Arr.ofList xs) wFunc (-1) (ws.map Arr.ofList))

/-- The call `vrgksuv_ensemble(y, xs, w_func=w, ens_w=ws)` on one-dimensional data. (`_kernels.py:254-334`) -/
def vrgksuv1 (path : Path) (wFunc : XF → XF) (y : XF) (xs : List XF) (ws : Option (List XF)) :
    Except Err XF :=
  item (vrgksuvEnsemble path (Arr.scalar y) (Arr.ofList xs) wFunc (-1) (ws.map Arr.ofList))

/-- The call `gksmv_ensemble(y, xs, ens_w=ws, estimator=est)` on one observation vector.
(`_kernels.py:337-406`) -/
def gksmv1 (path : Path) (est : String) (D : ℕ) (y : List XF) (xs : List (List XF))
    (ws : Option (List XF)) : Except Err XF :=
  item (gksmvEnsemble path (Arr.ofList y) (Arr.ofRows D xs) (-2) (-1) (ws.map Arr.ofList) est)

/-- The call `owgksmv_ensemble(y, xs, w_func, ens_w=ws)` on one observation vector. (`_kernels.py:475-553`) -/
def owgksmv1 (path : Path) (D : ℕ) (wFunc : List XF → XF) (y : List XF) (xs : List (List XF))
    (ws : Option (List XF)) : Except Err XF :=
  item (owgksmvEnsemble path (Arr.ofList y) (Arr.ofRows D xs) wFunc (-2) (-1) (ws.map Arr.ofList))

/-- The call `vrgksmv_ensemble(y, xs, w_func, ens_w=ws)` on one observation vector. (`_kernels.py:556-624`) -/
def vrgksmv1 (path : Path) (D : ℕ) (wFunc : List XF → XF) (y : List XF) (xs : List (List XF))
    (ws : Option (List XF)) : Except Err XF :=
  item (vrgksmvEnsemble path (Arr.ofList y) (Arr.ofRows D xs) wFunc (-2) (-1) (ws.map Arr.ofList))

end Api
end Verif
