import Verif.Lemmas.Kernel
import Verif.Lemmas.EnergyApi
import Verif.Lemmas.WeightedUv

/-! The kernel score functions on one observation and one ensemble. -/

noncomputable section

open scoped Classical

namespace Verif

open XF Py Mv Spec

namespace Api

/-- the pattern of the univariate ensemble scores without outcome weights and NaN policies -/
def uvScore (K : Except Err (XF → List XF → XF)) (KW : Except Err (XF → List XF → List XF → XF))
    (obs fct : Arr XF) (mAxis : ℤ) (ensW : Option (Arr XF)) : Except Err (Arr XF) := do
  let fct ← univariateArrayCheck obs fct mAxis
  match ensW with
  | none => K.map fun k => perSlice k obs fct
  | some w =>
    let w ← univariateWeightCheck w fct mAxis
    KW.map fun k => perSliceW k obs fct w

variable {K : Except Err (XF → List XF → XF)} {KW : Except Err (XF → List XF → List XF → XF)}

theorem uvScore_none {obs fct : Arr XF} {m : ℤ} {k : ℕ} (h : AxisIs m fct.ndim k)
    (hs : obs.shape = fct.shape.eraseIdx k) :
    uvScore K KW obs fct m none = K.map fun κ => perSlice κ obs (fct.moveLast k) := by
  unfold uvScore
  rw [arrayCheck_axis h hs]
  simp only [bind, Except.bind]

theorem uvScore_some {obs fct W : Arr XF} {m : ℤ} {k : ℕ} (h : AxisIs m fct.ndim k)
    (hs : obs.shape = fct.shape.eraseIdx k) (hW : W.shape = fct.shape) :
    uvScore K KW obs fct m (some W) = if (W.moveLast k).Any (fun v => v < 0) then .error .valueError
      else KW.map fun κ => perSliceW κ obs (fct.moveLast k)
        ((W.moveLast k).mapRows fun r => r.map fun v => v / r.sum) := by
  unfold uvScore
  rw [arrayCheck_axis h hs]
  simp only [bind, Except.bind]
  rw [weightCheck_axis h hW]
  split_ifs <;> rfl

theorem ofList_axis (xs : List XF) : AxisIs (-1) (Arr.ofList xs).ndim 0 := by
  constructor <;> simp [Arr.ndim, Arr.ofList]

theorem uvRow_norm (W : Arr XF) (k : ℕ) (i : List ℕ) :
    ((W.moveLast k).mapRows fun r => r.map fun x => x / r.sum).row i
      = (W.sliceAt k i).map fun x => x / (W.sliceAt k i).sum := mvRow_norm ..

theorem uv1_none (y : XF) (xs : List XF) :
    item (uvScore K KW (Arr.scalar y) (Arr.ofList xs) (-1) none) = K.map fun k => k y xs := by
  rw [uvScore_none (ofList_axis xs) rfl]
  cases K with
  | error e => rfl
  | ok k =>
    simp only [item, Except.map, perSlice]
    rw [Arr.row_moveLast, ofList_sliceAt]
    rfl

theorem ofList_moveLast_any (ws : List XF) (p : XF → Prop) :
    ((Arr.ofList ws).moveLast 0).Any p ↔ ∃ x ∈ ws, p x := ofList_any ws p

theorem uv1_some (y : XF) {xs ws : List XF} (hw : ws.length = xs.length) :
    item (uvScore K KW (Arr.scalar y) (Arr.ofList xs) (-1) (some (Arr.ofList ws)))
      = if ∃ x ∈ ws, x < 0 then .error .valueError
        else KW.map fun k => k y xs (ws.map fun x => x / ws.sum) := by
  rw [uvScore_some (ofList_axis xs) rfl (by simp [Arr.ofList, hw])]
  by_cases hn : ∃ x ∈ ws, x < 0
  · rw [if_pos ((ofList_moveLast_any ws _).2 hn), if_pos hn]; rfl
  · rw [if_neg (fun h => hn ((ofList_moveLast_any ws _).1 h)), if_neg hn]
    cases KW with
    | error e => rfl
    | ok k =>
      simp only [item, Except.map, perSliceW]
      rw [Arr.row_moveLast, uvRow_norm, ofList_sliceAt, ofList_sliceAt]
      rfl

/-- the pattern of the outcome-weighted univariate scores without NaN policies -/
def uvScoreO (kg ka : XF → List XF → XF → List XF → XF)
    (kgw kaw : XF → List XF → XF → List XF → List XF → XF) (path : Path)
    (obs fct : Arr XF) (wFunc : XF → XF) (mAxis : ℤ) (ensW : Option (Arr XF)) :
    Except Err (Arr XF) := do
  let fct ← univariateArrayCheck obs fct mAxis
  let (obsW, fctW) ← uvWeights obs fct wFunc
  match ensW with
  | none => match path with
    | .numba => .ok (perSliceO kg obs fct obsW fctW)
    | .array => .ok (perSliceO ka obs fct obsW fctW)
  | some w =>
    let w ← univariateWeightCheck w fct mAxis
    match path with
    | .numba => .ok (perSliceOW kgw obs fct obsW fctW w)
    | .array => .ok (perSliceOW kaw obs fct obsW fctW w)

variable {kg ka : XF → List XF → XF → List XF → XF}
    {kgw kaw : XF → List XF → XF → List XF → List XF → XF}

theorem uvWeights_one (y : XF) (xs : List XF) (f : XF → XF) :
    uvWeights (Arr.scalar y) ((Arr.ofList xs).moveLast 0) f
      = if f y < 0 ∨ ∃ x ∈ xs, f x < 0 then .error .valueError
        else .ok ((Arr.scalar y).map f, ((Arr.ofList xs).moveLast 0).map f) := by
  unfold uvWeights
  dsimp only
  have a1 : ((Arr.scalar y).map f).Any (fun v => v < 0) ↔ f y < 0 := by
    unfold Arr.Any
    constructor
    · rintro ⟨i, hi, h⟩
      exact h
    · intro h
      exact ⟨[], List.Forall₂.nil, h⟩
  have a2 : (((Arr.ofList xs).moveLast 0).map f).Any (fun v => v < 0) ↔ ∃ x ∈ xs, f x < 0 :=
    ofList_moveLast_any xs (fun x => f x < 0)
  simp only [a1, a2]

theorem uvO_none (path : Path) (y : XF) (xs : List XF) (f : XF → XF) :
    item (uvScoreO kg ka kgw kaw path (Arr.scalar y) (Arr.ofList xs) f (-1) none)
      = if f y < 0 ∨ ∃ x ∈ xs, f x < 0 then .error .valueError
        else .ok (match path with
          | .numba => kg y xs (f y) (xs.map f)
          | .array => ka y xs (f y) (xs.map f)) := by
  unfold uvScoreO
  rw [arrayCheck_axis (ofList_axis xs) rfl]
  simp only [bind, Except.bind]
  rw [uvWeights_one]
  split_ifs
  · rfl
  · cases path <;>
      simp only [item, Except.map, perSliceO, Arr.row_map, Arr.row_moveLast, ofList_sliceAt] <;> rfl

theorem uvO_some (path : Path) (y : XF) {xs ws : List XF} (hw : ws.length = xs.length)
    (f : XF → XF) :
    item (uvScoreO kg ka kgw kaw path (Arr.scalar y) (Arr.ofList xs) f (-1)
        (some (Arr.ofList ws)))
      = if (f y < 0 ∨ ∃ x ∈ xs, f x < 0) ∨ ∃ x ∈ ws, x < 0 then .error .valueError
        else .ok (match path with
          | .numba => kgw y xs (f y) (xs.map f) (ws.map fun x => x / ws.sum)
          | .array => kaw y xs (f y) (xs.map f) (ws.map fun x => x / ws.sum)) := by
  unfold uvScoreO
  rw [arrayCheck_axis (ofList_axis xs) rfl]
  simp only [bind, Except.bind]
  rw [uvWeights_one]
  by_cases hf : f y < 0 ∨ ∃ x ∈ xs, f x < 0
  · rw [if_pos hf, if_pos (Or.inl hf)]; rfl
  · rw [if_neg hf]
    dsimp only
    rw [weightCheck_axis (ofList_axis xs) (by simp [Arr.ofList, hw])]
    by_cases hn : ∃ x ∈ ws, x < 0
    · rw [if_pos ((ofList_moveLast_any ws _).2 hn), if_pos (Or.inr hn)]; rfl
    · rw [if_neg (fun h => hn ((ofList_moveLast_any ws _).1 h)), if_neg (not_or.2 ⟨hf, hn⟩)]
      cases path <;>
        simp only [item, Except.map, perSliceOW, Arr.row_map, Arr.row_moveLast, ofList_sliceAt,
          uvRow_norm] <;> rfl

/-! instances -/

theorem gksuvEnsemble_eq (path : Path) (obs fct : Arr XF) (m : ℤ) (W : Option (Arr XF))
    (est : String) : gksuvEnsemble path obs fct m W est
      = uvScore (gksuvKernel path est) (gksuvKernelW path est) obs fct m W := by
  unfold gksuvEnsemble uvScore
  cases univariateArrayCheck obs fct m <;> cases W <;> rfl

theorem gksmvEnsemble_eq (path : Path) (obs fct : Arr XF) (mAxis vAxis : ℤ) (W : Option (Arr XF))
    (est : String) : gksmvEnsemble path obs fct mAxis vAxis W est
      = mvScore (gksmvKernel path est) (gksmvKernelW path est) obs fct mAxis vAxis W := by
  unfold gksmvEnsemble mvScore
  cases multivariateArrayCheck obs fct mAxis vAxis <;> cases W <;> rfl

theorem owgksuvEnsemble_eq (path : Path) (obs fct : Arr XF) (f : XF → XF) (m : ℤ)
    (W : Option (Arr XF)) : owgksuvEnsemble path obs fct f m W
      = uvScoreO (fun o f ow fw => if o.isnan then nan else KsGufunc.ow Kern.uv nan o f ow fw)
        (KsApprox.owUv Kern.uv)
        (fun o f ow fw w => if o.isnan then nan else KsGufuncW.ow Kern.uv nan o f ow fw w)
        (KsApproxW.owUv Kern.uv) path obs fct f m W := by
  unfold owgksuvEnsemble uvScoreO
  cases univariateArrayCheck obs fct m <;> cases W <;> rfl

theorem vrgksuvEnsemble_eq (path : Path) (obs fct : Arr XF) (f : XF → XF) (m : ℤ)
    (W : Option (Arr XF)) : vrgksuvEnsemble path obs fct f m W
      = uvScoreO (fun o f ow fw => if o.isnan then nan else KsGufunc.vr Kern.uv nan o f ow fw)
        (KsApprox.vrUv Kern.uv)
        (fun o f ow fw w => if o.isnan then nan else KsGufuncW.vr Kern.uv nan o f ow fw w)
        (KsApproxW.vrUv Kern.uv) path obs fct f m W := by
  unfold vrgksuvEnsemble uvScoreO
  cases univariateArrayCheck obs fct m <;> cases W <;> rfl

theorem owgksmvEnsemble_eq (path : Path) (obs fct : Arr XF) (f : List XF → XF) (mAxis vAxis : ℤ)
    (W : Option (Arr XF)) : owgksmvEnsemble path obs fct f mAxis vAxis W
      = mvScoreO (KsGufunc.ow Kern.mv []) (KsApprox.owMv Kern.mv) (KsGufuncW.ow Kern.mv [])
        (KsApproxW.owMv Kern.mv) path obs fct f mAxis vAxis W := by
  unfold owgksmvEnsemble mvScoreO
  cases multivariateArrayCheck obs fct mAxis vAxis <;> cases W <;> rfl

theorem vrgksmvEnsemble_none (path : Path) (obs fct : Arr XF) (f : List XF → XF) (mAxis vAxis : ℤ) :
    vrgksmvEnsemble path obs fct f mAxis vAxis none
      = mvScoreO (KsGufunc.vr Kern.mv []) (KsApprox.vrMv Kern.mv) (KsGufuncW.vr Kern.mv [])
        (KsApproxW.vrMv Kern.mv) path obs fct f mAxis vAxis none := by
  unfold vrgksmvEnsemble mvScoreO
  cases multivariateArrayCheck obs fct mAxis vAxis <;> rfl

theorem vrgksmvEnsemble_array (obs fct : Arr XF) (f : List XF → XF) (mAxis vAxis : ℤ)
    (W : Option (Arr XF)) :
    vrgksmvEnsemble .array obs fct f mAxis vAxis W
      = mvScoreO (KsGufunc.vr Kern.mv []) (KsApprox.vrMv Kern.mv) (KsGufuncW.vr Kern.mv [])
        (KsApproxW.vrMv Kern.mv) .array obs fct f mAxis vAxis W := by
  unfold vrgksmvEnsemble mvScoreO
  cases multivariateArrayCheck obs fct mAxis vAxis <;> cases W <;> rfl

theorem gksuv1_none (path : Path) (est : String) (y : XF) (xs : List XF) :
    gksuv1 path est y xs none = (gksuvKernel path est).map fun k => k y xs := by
  unfold gksuv1
  rw [Option.map_none, gksuvEnsemble_eq, uv1_none]

theorem gksuv1_some (path : Path) (est : String) (y : XF) {xs ws : List XF}
    (hw : ws.length = xs.length) :
    gksuv1 path est y xs (some ws) = if ∃ x ∈ ws, x < 0 then .error .valueError
      else (gksuvKernelW path est).map fun k => k y xs (ws.map fun x => x / ws.sum) := by
  unfold gksuv1
  rw [Option.map_some, gksuvEnsemble_eq, uv1_some y hw]

theorem gksmv1_none {D : ℕ} {y : List XF} {xs : List (List XF)} (path : Path) (est : String)
    (hy : y.length = D) (hx : ∀ x ∈ xs, x.length = D) :
    gksmv1 path est D y xs none = (gksmvKernel path est).map fun k => k y xs := by
  unfold gksmv1
  rw [Option.map_none, gksmvEnsemble_eq, mv1_none hy hx]

theorem gksmv1_some {D : ℕ} {y : List XF} {xs : List (List XF)} {ws : List XF} (path : Path)
    (est : String) (hy : y.length = D) (hx : ∀ x ∈ xs, x.length = D) (hw : ws.length = xs.length) :
    gksmv1 path est D y xs (some ws) = if ∃ x ∈ ws, x < 0 then .error .valueError
      else (gksmvKernelW path est).map fun k => k y xs (ws.map fun x => x / ws.sum) := by
  unfold gksmv1
  rw [Option.map_some, gksmvEnsemble_eq, mv1_some hy hx hw]

end Api

/-! ### lists of weights -/

section lists
variable {β : Type}

theorem nrmW_snd (l : List (β × ℝ)) (h : ktot l ≠ 0) :
    (l.map fun p => fin p.2).map (fun x => x / (l.map fun p => fin p.2).sum)
      = (nrmW l).map fun p => fin p.2 := by
  unfold nrmW
  rw [List.map_map, List.map_map]
  apply List.map_congr_left
  intro p _
  simp only [Function.comp_apply]
  have : (l.map fun p => fin p.2).sum = fin (ktot l) := sum_map_fin' l _
  rw [this, fin_div h]
  rfl

theorem nrmW_fst {α : Type} (f : β → α) (l : List (β × ℝ)) :
    (nrmW l).map (fun p => f p.1) = l.map fun p => f p.1 := by
  unfold nrmW; rw [List.map_map]; rfl

theorem nrmW_const (xs : List β) {c : ℝ} (hc : c ≠ 0) :
    nrmW (xs.map fun x => (x, c)) = eqW xs := by
  unfold nrmW eqW
  rw [List.map_map]
  apply List.map_congr_left
  intro x hx
  have hM : (xs.length : ℝ) ≠ 0 := by
    have := List.length_pos_of_mem hx
    exact_mod_cast this.ne'
  have e : ((xs.map fun x => (x, c)).map Prod.snd).sum = xs.length * c := by
    rw [List.map_map]
    exact sum_map_const' xs c
  simp only [Function.comp_apply, e]
  congr 1
  field_simp

theorem ktot_nrmW {l : List (β × ℝ)} (h : ktot l ≠ 0) : ktot (nrmW l) = 1 := by
  rw [nrmW_eq]
  unfold ktot at *
  rw [List.map_map]
  have := sum_map_mul_left' l (l.map Prod.snd).sum⁻¹ Prod.snd
  simp only [Function.comp_def]
  rw [this]
  exact inv_mul_cancel₀ h

theorem ktot_eqW {xs : List β} (h : xs ≠ []) : ktot (eqW xs) = 1 := by
  have hM : (xs.length : ℝ) ≠ 0 := by simpa using h
  unfold ktot eqW
  rw [List.map_map]
  have := sum_map_const' xs (1 / (xs.length : ℝ))
  simp only [Function.comp_def]
  rw [this]
  field_simp

/-- the ensemble with normalised weights and outcome weights -/
def kowList (f : β → ℝ) (l : List (β × ℝ)) : List (β × ℝ × ℝ) :=
  (nrmW l).map fun p => (p.1, f p.1, p.2)

theorem kowList_maps {α : Type} (emb : β → α) (f : β → ℝ) (l : List (β × ℝ)) :
    (kowList f l).map (fun p => emb p.1) = l.map (fun p => emb p.1) ∧
    (kowList f l).map (fun p => fin p.2.1) = l.map (fun p => fin (f p.1)) ∧
    (kowList f l).map (fun p => fin p.2.2) = (nrmW l).map (fun p => fin p.2) ∧
    kcomb (kowList f l) = (nrmW l).map fun p => (p.1, f p.1 * p.2) := by
  refine ⟨?_, ?_, ?_, ?_⟩
  · unfold kowList
    rw [List.map_map]
    exact nrmW_fst emb l
  · unfold kowList
    rw [List.map_map]
    exact nrmW_fst (fun x => fin (f x)) l
  · unfold kowList
    rw [List.map_map]; rfl
  · unfold kcomb kowList
    rw [List.map_map]; rfl

end lists

/-! ### the `akr` estimators under a change of the type of members -/

section transport
variable {α β : Type}

theorem getD_map_lt (f : β → α) (d : α) (d' : β) (xs : List β) {i : ℕ} (h : i < xs.length) :
    (xs.map f).getD i d = f (xs.getD i d') := by
  simp [h]

theorem KsGufunc.akr_map (k : α → α → XF) (f : β → α) (d : α) (d' y : β) (xs : List β) :
    KsGufunc.akr k d (f y) (xs.map f) = KsGufunc.akr (fun a b => k (f a) (f b)) d' y xs := by
  unfold KsGufunc.akr
  dsimp only
  rw [List.length_map, forRange_two xs.length (fun i => k (f (xs.getD i d')) (f y))
    (fun i => k (f (xs.getD i d')) (f (xs.getD ((if i = 0 then xs.length else i) - 1) d'))),
    forRange_two xs.length (fun i => k ((xs.map f).getD i d) (f y))
    (fun i => k ((xs.map f).getD i d) ((xs.map f).getD ((if i = 0 then xs.length else i) - 1) d))]
  have e1 : ((List.range xs.length).map fun i => k ((xs.map f).getD i d) (f y))
      = (List.range xs.length).map fun i => k (f (xs.getD i d')) (f y) := by
    apply List.map_congr_left; intro i hi
    rw [getD_map_lt f d d' xs (by simpa using hi)]
  have e2 : ((List.range xs.length).map fun i =>
        k ((xs.map f).getD i d) ((xs.map f).getD ((if i = 0 then xs.length else i) - 1) d))
      = (List.range xs.length).map fun i =>
        k (f (xs.getD i d')) (f (xs.getD ((if i = 0 then xs.length else i) - 1) d')) := by
    apply List.map_congr_left; intro i hi
    have hi : i < xs.length := by simpa using hi
    rw [getD_map_lt f d d' xs hi, getD_map_lt f d d' xs (by split_ifs <;> omega)]
  rw [e1, e2]

theorem KsGufunc.akrCircperm_map (k : α → α → XF) (f : β → α) (d : α) (d' y : β) (xs : List β) :
    KsGufunc.akrCircperm k d (f y) (xs.map f)
      = KsGufunc.akrCircperm (fun a b => k (f a) (f b)) d' y xs := by
  unfold KsGufunc.akrCircperm
  dsimp only
  rw [List.length_map, forRange_two xs.length (fun i => k (f (xs.getD i d')) (f y))
    (fun i => k (f (xs.getD i d')) (f (xs.getD (Gufunc.sigma xs.length i) d'))),
    forRange_two xs.length (fun i => k ((xs.map f).getD i d) (f y))
    (fun i => k ((xs.map f).getD i d) ((xs.map f).getD (Gufunc.sigma xs.length i) d))]
  have e1 : ((List.range xs.length).map fun i => k ((xs.map f).getD i d) (f y))
      = (List.range xs.length).map fun i => k (f (xs.getD i d')) (f y) := by
    apply List.map_congr_left; intro i hi
    rw [getD_map_lt f d d' xs (by simpa using hi)]
  have e2 : ((List.range xs.length).map fun i =>
        k ((xs.map f).getD i d) ((xs.map f).getD (Gufunc.sigma xs.length i) d))
      = (List.range xs.length).map fun i =>
        k (f (xs.getD i d')) (f (xs.getD (Gufunc.sigma xs.length i) d')) := by
    apply List.map_congr_left; intro i hi
    have hi : i < xs.length := by simpa using hi
    rw [getD_map_lt f d d' xs hi, getD_map_lt f d d' xs (sigma_lt hi)]
  rw [e1, e2]

theorem KsGufuncW.akr_map (k : α → α → XF) (f : β → α) (d : α) (d' y : β) (xs : List β)
    (w : List XF) :
    KsGufuncW.akr k d (f y) (xs.map f) w = KsGufuncW.akr (fun a b => k (f a) (f b)) d' y xs w := by
  unfold KsGufuncW.akr
  dsimp only
  rw [List.length_map, forRange_two xs.length (fun i => k (f (xs.getD i d')) (f y) * idx w i)
    (fun i => k (f (xs.getD i d')) (f (xs.getD ((if i = 0 then xs.length else i) - 1) d'))
      * idx w i),
    forRange_two xs.length (fun i => k ((xs.map f).getD i d) (f y) * idx w i)
    (fun i => k ((xs.map f).getD i d) ((xs.map f).getD ((if i = 0 then xs.length else i) - 1) d)
      * idx w i)]
  have e1 : ((List.range xs.length).map fun i => k ((xs.map f).getD i d) (f y) * idx w i)
      = (List.range xs.length).map fun i => k (f (xs.getD i d')) (f y) * idx w i := by
    apply List.map_congr_left; intro i hi
    rw [getD_map_lt f d d' xs (by simpa using hi)]
  have e2 : ((List.range xs.length).map fun i =>
        k ((xs.map f).getD i d) ((xs.map f).getD ((if i = 0 then xs.length else i) - 1) d)
          * idx w i)
      = (List.range xs.length).map fun i =>
        k (f (xs.getD i d')) (f (xs.getD ((if i = 0 then xs.length else i) - 1) d')) * idx w i := by
    apply List.map_congr_left; intro i hi
    have hi : i < xs.length := by simpa using hi
    rw [getD_map_lt f d d' xs hi, getD_map_lt f d d' xs (by split_ifs <;> omega)]
  rw [e1, e2]

theorem KsGufuncW.akrCircperm_map (k : α → α → XF) (f : β → α) (d : α) (d' y : β) (xs : List β)
    (w : List XF) :
    KsGufuncW.akrCircperm k d (f y) (xs.map f) w
      = KsGufuncW.akrCircperm (fun a b => k (f a) (f b)) d' y xs w := by
  unfold KsGufuncW.akrCircperm
  dsimp only
  rw [List.length_map, forRange_two xs.length (fun i => k (f (xs.getD i d')) (f y) * idx w i)
    (fun i => k (f (xs.getD i d')) (f (xs.getD (Gufunc.sigma xs.length i) d')) * idx w i),
    forRange_two xs.length (fun i => k ((xs.map f).getD i d) (f y) * idx w i)
    (fun i => k ((xs.map f).getD i d) ((xs.map f).getD (Gufunc.sigma xs.length i) d) * idx w i)]
  have e1 : ((List.range xs.length).map fun i => k ((xs.map f).getD i d) (f y) * idx w i)
      = (List.range xs.length).map fun i => k (f (xs.getD i d')) (f y) * idx w i := by
    apply List.map_congr_left; intro i hi
    rw [getD_map_lt f d d' xs (by simpa using hi)]
  have e2 : ((List.range xs.length).map fun i =>
        k ((xs.map f).getD i d) ((xs.map f).getD (Gufunc.sigma xs.length i) d) * idx w i)
      = (List.range xs.length).map fun i =>
        k (f (xs.getD i d')) (f (xs.getD (Gufunc.sigma xs.length i) d')) * idx w i := by
    apply List.map_congr_left; intro i hi
    have hi : i < xs.length := by simpa using hi
    rw [getD_map_lt f d d' xs hi, getD_map_lt f d d' xs (sigma_lt hi)]
  rw [e1, e2]

end transport

end Verif
