import Verif.Lemmas.MvScore
import Verif.Lemmas.Energy

/-! The energy score functions on one observation vector and one ensemble. -/

noncomputable section

open scoped Classical

namespace Verif

open XF Py Mv Spec

namespace Api

theorem esEnsemble_eq (path : Path) (obs fct : Arr XF) (mAxis vAxis : ℤ) (W : Option (Arr XF))
    (est : String) : esEnsemble path obs fct mAxis vAxis W est
      = mvScore (esKernel path est) (esKernelW path est) obs fct mAxis vAxis W := by
  unfold esEnsemble mvScore
  cases multivariateArrayCheck obs fct mAxis vAxis <;> cases W <;> rfl

theorem es1_none {D : ℕ} {y : List XF} {xs : List (List XF)} (path : Path) (est : String)
    (hy : y.length = D) (hx : ∀ x ∈ xs, x.length = D) :
    es1 path est D y xs none = (esKernel path est).map fun k => k y xs := by
  unfold es1
  rw [esEnsemble_eq, Option.map_none, mv1_none hy hx]

theorem es1_some {D : ℕ} {y : List XF} {xs : List (List XF)} {ws : List XF} (path : Path)
    (est : String) (hy : y.length = D) (hx : ∀ x ∈ xs, x.length = D) (hw : ws.length = xs.length) :
    es1 path est D y xs (some ws) = if ∃ x ∈ ws, x < 0 then .error .valueError
      else (esKernelW path est).map fun k => k y xs (ws.map fun x => x / ws.sum) := by
  unfold es1
  rw [esEnsemble_eq, Option.map_some, mv1_some hy hx hw]

/-! outcome weights of one observation -/

theorem mvWeights_one {D : ℕ} {y : List XF} {xs : List (List XF)} (f : List XF → XF)
    (hx : ∀ x ∈ xs, x.length = D) :
    ∃ obsW fctW : Arr XF, obsW.get [] = f y ∧ fctW.row [] = xs.map f ∧
      mvWeights ((Arr.ofList y).moveLast 0) ((Arr.ofRows D xs).moveLast2 0 1) f
        = if f y < 0 ∨ ∃ x ∈ xs, f x < 0 then .error .valueError else .ok (obsW, fctW) := by
  have h1 : ((Arr.ofList y).moveLast 0).row [] = y := by rw [Arr.row_moveLast, ofList_sliceAt]
  have h2 : ∀ j (hj : j < xs.length), ((Arr.ofRows D xs).moveLast2 0 1).row [j] = xs[j] := by
    intro j hj
    have hl := hx xs[j] (List.getElem_mem hj)
    unfold Arr.row Arr.moveLast2 Arr.ofRows
    apply List.ext_getElem
    · simp [hl]
    · intro k hk1 hk2
      simp [Arr.insert2, hj, hk2]
  have s1 : (alongLast f ((Arr.ofList y).moveLast 0)).shape = [] := by
    simp [alongLast, Arr.moveLast, Arr.ofList]
  have s2 : (alongLast f ((Arr.ofRows D xs).moveLast2 0 1)).shape = [xs.length] := by
    simp [alongLast, Arr.moveLast2, Arr.erase2, Arr.ofRows]
  have r2 : (alongLast f ((Arr.ofRows D xs).moveLast2 0 1)).row [] = xs.map f := by
    unfold Arr.row
    rw [s2]
    apply List.ext_getElem
    · simp
    · intro j h3 h4
      have hj : j < xs.length := by simpa using h4
      simp [alongLast, h2 j hj]
  refine ⟨alongLast f ((Arr.ofList y).moveLast 0), alongLast f ((Arr.ofRows D xs).moveLast2 0 1),
    ?_, r2, ?_⟩
  · simp only [alongLast, h1]
  · unfold mvWeights
    dsimp only
    have a1 : (alongLast f ((Arr.ofList y).moveLast 0)).Any (fun v => v < 0) ↔ f y < 0 := by
      unfold Arr.Any
      rw [s1]
      constructor
      · rintro ⟨i, hi, h⟩
        have : i = [] := by cases hi; rfl
        subst this
        simpa only [alongLast, h1] using h
      · intro h
        exact ⟨[], List.Forall₂.nil, by simpa only [alongLast, h1] using h⟩
    have a2 : (alongLast f ((Arr.ofRows D xs).moveLast2 0 1)).Any (fun v => v < 0)
        ↔ ∃ x ∈ xs, f x < 0 := by
      rw [Arr.any_iff (s := []) (n := xs.length) s2]
      constructor
      · rintro ⟨i, hi, x, hx, h⟩
        have : i = [] := by cases hi; rfl
        subst this
        rw [r2, List.mem_map] at hx
        obtain ⟨z, hz, rfl⟩ := hx
        exact ⟨z, hz, h⟩
      · rintro ⟨x, hx, h⟩
        exact ⟨[], List.Forall₂.nil, f x, by rw [r2]; exact List.mem_map_of_mem hx, h⟩
    simp only [a1, a2]

/-- the pattern of `owes_ensemble`, `vres_ensemble` and their variogram counterparts -/
def mvScoreO (kg ka : List XF → List (List XF) → XF → List XF → XF)
    (kgw kaw : List XF → List (List XF) → XF → List XF → List XF → XF) (path : Path)
    (obs fct : Arr XF) (wFunc : List XF → XF) (mAxis vAxis : ℤ)
    (ensW : Option (Arr XF)) : Except Err (Arr XF) := do
  let (obs, fct) ← multivariateArrayCheck obs fct mAxis vAxis
  let (obsW, fctW) ← mvWeights obs fct wFunc
  match ensW with
  | none => match path with
    | .numba => .ok (perMatO kg obs fct obsW fctW)
    | .array => .ok (perMatO ka obs fct obsW fctW)
  | some w =>
    let w ← multivariateWeightCheck w fct mAxis
    match path with
    | .numba => .ok (perMatOW kgw obs fct obsW fctW w)
    | .array => .ok (perMatOW kaw obs fct obsW fctW w)

variable {kg ka : List XF → List (List XF) → XF → List XF → XF}
    {kgw kaw : List XF → List (List XF) → XF → List XF → List XF → XF}

theorem mvO_none {D : ℕ} {y : List XF} {xs : List (List XF)} (path : Path) (f : List XF → XF)
    (hy : y.length = D) (hx : ∀ x ∈ xs, x.length = D) :
    item (mvScoreO kg ka kgw kaw path (Arr.ofList y) (Arr.ofRows D xs) f (-2) (-1) none)
      = if f y < 0 ∨ ∃ x ∈ xs, f x < 0 then .error .valueError
        else .ok (match path with
          | .numba => kg y xs (f y) (xs.map f)
          | .array => ka y xs (f y) (xs.map f)) := by
  unfold mvScoreO
  rw [mvArrayCheck (ofRows_axes D xs) (ofRows_shape hy)]
  simp only [bind, Except.bind, axisWithout]
  rw [show (if (0 : ℕ) < 1 then 1 - 1 else 1) = 0 from rfl]
  obtain ⟨obsW, fctW, e1, e2, e3⟩ := mvWeights_one (y := y) f hx
  rw [e3]
  split_ifs
  · rfl
  · have h1 : ((Arr.ofList y).moveLast 0).row [] = y := by rw [Arr.row_moveLast, ofList_sliceAt]
    cases path <;>
      simp only [item, Except.map, perMatO, e1, e2, h1, Arr.moveLast2_mat, ofRows_matAt hx]

theorem mvO_some {D : ℕ} {y : List XF} {xs : List (List XF)} {ws : List XF} (path : Path)
    (f : List XF → XF)
    (hy : y.length = D) (hx : ∀ x ∈ xs, x.length = D) (hw : ws.length = xs.length) :
    item (mvScoreO kg ka kgw kaw path (Arr.ofList y) (Arr.ofRows D xs) f (-2) (-1)
        (some (Arr.ofList ws)))
      = if (f y < 0 ∨ ∃ x ∈ xs, f x < 0) ∨ ∃ x ∈ ws, x < 0 then .error .valueError
        else .ok (match path with
          | .numba => kgw y xs (f y) (xs.map f) (ws.map fun x => x / ws.sum)
          | .array => kaw y xs (f y) (xs.map f) (ws.map fun x => x / ws.sum)) := by
  unfold mvScoreO
  rw [mvArrayCheck (ofRows_axes D xs) (ofRows_shape hy)]
  simp only [bind, Except.bind, axisWithout]
  rw [show (if (0 : ℕ) < 1 then 1 - 1 else 1) = 0 from rfl]
  obtain ⟨obsW, fctW, e1, e2, e3⟩ := mvWeights_one (y := y) f hx
  rw [e3]
  by_cases hf : f y < 0 ∨ ∃ x ∈ xs, f x < 0
  · rw [if_pos hf, if_pos (Or.inl hf)]; rfl
  · rw [if_neg hf]
    dsimp only
    rw [mvWeightCheck (ofRows_axes D xs) (by decide) (by simp [Arr.ofList, Arr.ofRows, hw])]
    by_cases hn : ∃ x ∈ ws, x < 0
    · rw [if_pos ((ofList_any ws _).2 hn), if_pos (Or.inr hn)]; rfl
    · rw [if_neg (fun h => hn ((ofList_any ws _).1 h)), if_neg (not_or.2 ⟨hf, hn⟩)]
      have h1 : ((Arr.ofList y).moveLast 0).row [] = y := by rw [Arr.row_moveLast, ofList_sliceAt]
      cases path <;>
        simp only [item, Except.map, perMatOW, e1, e2, h1, Arr.moveLast2_mat, ofRows_matAt hx,
          mvRow_norm, ofList_sliceAt]

theorem owesEnsemble_eq (path : Path) (obs fct : Arr XF) (f : List XF → XF) (mAxis vAxis : ℤ)
    (W : Option (Arr XF)) : owesEnsemble path obs fct f mAxis vAxis W
      = mvScoreO EsGufunc.ow EsApprox.ow EsGufuncW.ow EsApproxW.ow path obs fct f mAxis vAxis W := by
  unfold owesEnsemble mvScoreO
  cases multivariateArrayCheck obs fct mAxis vAxis <;> cases W <;> rfl

theorem vresEnsemble_eq (path : Path) (obs fct : Arr XF) (f : List XF → XF) (mAxis vAxis : ℤ)
    (W : Option (Arr XF)) : vresEnsemble path obs fct f mAxis vAxis W
      = mvScoreO EsGufunc.vr EsApprox.vr EsGufuncW.vr EsApproxW.vr path obs fct f mAxis vAxis W := by
  unfold vresEnsemble mvScoreO
  cases multivariateArrayCheck obs fct mAxis vAxis <;> cases W <;> rfl

end Api

/-! ### finite data -/

section fin
variable {D : ℕ}
open Api

theorem vecs_length (xs : List (Eu D)) : ∀ x ∈ xs.map vec, x.length = D := by
  intro x hx
  obtain ⟨v, _, rfl⟩ := List.mem_map.1 hx
  exact vec_length v

theorem vecs_length' {α : Type} (f : α → Eu D) (l : List α) :
    ∀ x ∈ l.map (fun a => vec (f a)), x.length = D := by
  intro x hx
  obtain ⟨v, _, rfl⟩ := List.mem_map.1 hx
  exact vec_length _

theorem no_neg {α : Type} (l : List α) (w : α → ℝ) (h : ∀ p ∈ l, 0 ≤ w p) :
    ¬ ∃ x ∈ l.map (fun p => fin (w p)), x < 0 := by
  rintro ⟨x, hx, hn⟩
  obtain ⟨p, hp, rfl⟩ := List.mem_map.1 hx
  rw [zero_def] at hn
  exact absurd ((fin_lt _ _).1 hn) (not_lt.2 (h p hp))

theorem es1_nrg (path : Path) (y : Eu D) {xs : List (Eu D)} (h : xs ≠ []) :
    es1 path "nrg" D (vec y) (xs.map vec) none = .ok (fin (es y (equalW xs))) := by
  rw [es1_none path _ (vec_length y) (vecs_length xs)]
  cases path <;>
    simp [esKernel, Except.map, EsGufunc.nrg_fin y xs h, EsApprox.nrg_fin y xs h]

theorem es1_fair (path : Path) (y : Eu D) {xs : List (Eu D)} (h : 2 ≤ xs.length) :
    es1 path "fair" D (vec y) (xs.map vec) none = .ok (fin (esFair y xs)) := by
  rw [es1_none path _ (vec_length y) (vecs_length xs)]
  cases path <;>
    simp [esKernel, Except.map, EsGufunc.fair_fin y xs h, EsApprox.fair_fin y xs h]

theorem norm_weights (l : List (Eu D × ℝ)) (h : (l.map Prod.snd).sum ≠ 0) :
    ((l.map fun p => fin p.2).map fun x => x / (l.map fun p => fin p.2).sum)
      = (Spec.normW l).map fun p => fin p.2 := by
  rw [sum_map_fin', List.map_map]
  unfold Spec.normW
  rw [List.map_map]
  apply List.map_congr_left
  intro p _
  simp only [Function.comp_apply]
  exact fin_div h _

theorem normW_fst (l : List (Eu D × ℝ)) :
    (Spec.normW l).map (fun p => vec p.1) = l.map fun p => vec p.1 := by
  unfold Spec.normW
  rw [List.map_map]
  rfl

theorem es1_weighted (path : Path) (est : String) (y : Eu D) (l : List (Eu D × ℝ))
    (hw : ∀ p ∈ l, 0 ≤ p.2) (h : (l.map Prod.snd).sum ≠ 0) :
    es1 path est D (vec y) (l.map fun p => vec p.1) (some (l.map fun p => fin p.2))
      = (esKernelW path est).map fun k => k (vec y) ((Spec.normW l).map fun p => vec p.1)
        ((Spec.normW l).map fun p => fin p.2) := by
  rw [es1_some path est (vec_length y) (vecs_length' _ l) (by simp), if_neg (no_neg l _ hw),
    norm_weights l h, normW_fst]

theorem es1_nrg_weighted (path : Path) (y : Eu D) (l : List (Eu D × ℝ))
    (hw : ∀ p ∈ l, 0 ≤ p.2) (h : (l.map Prod.snd).sum ≠ 0) :
    es1 path "nrg" D (vec y) (l.map fun p => vec p.1) (some (l.map fun p => fin p.2))
      = .ok (fin (es y (Spec.normW l))) := by
  rw [es1_weighted path _ y l hw h]
  cases path <;>
    simp [esKernelW, Except.map, EsGufuncW.nrg_fin, EsApproxW.nrg_fin]

end fin
end Verif
