import Verif.Model.ApiNp
import Verif.Lemmas.SliceBySlice
import Verif.Props.CrpsNp
import Verif.Props.EnergyNp
import Verif.Props.VariogramNp
import Verif.Props.KernelNp

/-! Shapes after the argument checks, and calls with the same outcome. -/

noncomputable section

open scoped Classical

namespace Verif

open XF Py Spec

namespace ApiNp

theorem same_refl (x : Except Err (Arr XF)) : SameResult x x := by
  cases x with
  | error e => exact rfl
  | ok a => exact ⟨rfl, fun _ _ => rfl⟩

theorem same_bind {α : Type} (x : Except Err α) {f g : α → Except Err (Arr XF)}
    (h : ∀ a, x = .ok a → SameResult (f a) (g a)) : SameResult (x >>= f) (x >>= g) := by
  cases x with
  | error e => exact rfl
  | ok a => exact h a rfl

theorem same_of_returns {x : Except Err (Arr XF)} {s s' : List ℕ} {v : List ℕ → XF}
    (h : Returns x s v) (hs : s = s') : SameResult x (.ok ⟨s', v⟩) := by
  obtain ⟨o, e, h1, h2⟩ := h
  subst hs
  rw [e]
  exact ⟨h1, fun i hi => h2 i (by rw [← h1]; exact hi)⟩

/-! ### the univariate checks -/

theorem erase_of_check {o f : List ℕ} {n k : ℕ} (hk : k ≤ o.length)
    (h : o.take k ++ [n] ++ o.drop k = f) : f.eraseIdx k = o := by
  have hl : (o.take k).length = k := by simp [hk]
  subst h
  rw [List.append_assoc, List.eraseIdx_append_of_length_le (by omega), hl, Nat.sub_self]
  simp

theorem erase_of_check' {o f : List ℕ} {n k : ℕ} (hk : k < o.length)
    (h : o.take k ++ [n] ++ o.drop k = f) (hn : f[k + 1]? = some n) :
    f.eraseIdx (k + 1) = o := by
  have hl : (o.take k).length = k := by simp [hk.le]
  subst h
  rw [List.append_assoc, List.getElem?_append_right (by omega), hl, Nat.add_sub_cancel_left] at hn
  rw [List.append_assoc, List.eraseIdx_append_of_length_le (by omega), hl, Nat.add_sub_cancel_left]
  rw [List.drop_eq_getElem_cons hk] at hn ⊢
  simp only [List.cons_append, List.nil_append, List.getElem?_cons_succ, List.getElem?_cons_zero,
    Option.some.injEq] at hn
  simp only [List.cons_append, List.nil_append, List.eraseIdx_cons_succ, List.eraseIdx_cons_zero]
  rw [← hn, ← List.drop_eq_getElem_cons hk, List.take_append_drop]

/-- After `univariate_array_check` the forecasts have the shape of the observations with the ensemble axis
appended, whatever the axis argument. -/
theorem check_shape {obs fct f : Arr XF} {mAxis : ℤ}
    (h : Api.univariateArrayCheck obs fct mAxis = .ok f) : ∃ M, f.shape = obs.shape ++ [M] := by
  unfold Api.univariateArrayCheck at h
  simp only [bind, Except.bind] at h
  generalize (if 0 ≤ mAxis then mAxis else (fct.ndim : ℤ) + mAxis) = m at h
  cases hc : Api.shapeCheck obs fct m with
  | error e => rw [hc] at h; simp at h
  | ok u =>
    rw [hc] at h
    simp only at h
    unfold Api.shapeCheck at hc
    cases hg : Arr.pyGet fct.shape m with
    | none => rw [hg] at hc; simp at hc
    | some n =>
      rw [hg] at hc
      simp only at hc
      split_ifs at hc with hne
      push Not at hne
      unfold Arr.pyGet at hg
      unfold Arr.pyTo Arr.pyFrom at hne
      have hlen : fct.shape.length = obs.shape.length + 1 := by
        rw [← hne]; simp; omega
      by_cases hm : 0 ≤ m
      · simp only [hm, if_true] at hg hne
        rw [if_pos (by omega)] at h
        unfold Arr.moveaxisLast at h
        simp only [hm, if_true] at h
        have hlt : m.toNat < fct.shape.length := (List.getElem?_eq_some_iff.1 hg).1
        rw [if_pos ⟨trivial, by unfold Arr.ndim; omega⟩] at h
        cases h
        exact ⟨_, by rw [Arr.moveLast]; dsimp only; rw [erase_of_check (by omega) hne]⟩
      · simp only [hm, if_false] at hg hne
        split_ifs at hg with hp
        set p := ((fct.shape.length : ℤ) + m).toNat with hpdef
        have hq : ((obs.shape.length : ℤ) + m).toNat = p - 1 := by omega
        rw [hq] at hne
        have hlt : p < fct.shape.length := (List.getElem?_eq_some_iff.1 hg).1
        have he : fct.shape.eraseIdx p = obs.shape := by
          by_cases h0 : p = 0
          · rw [h0] at hne ⊢
            exact erase_of_check (by omega) hne
          · have := erase_of_check' (k := p - 1) (by omega) hne
              (by rw [Nat.sub_add_cancel (by omega)]; exact hg)
            rw [Nat.sub_add_cancel (by omega)] at this
            exact this
        by_cases h1 : m = -1
        · rw [if_neg (by simpa using h1)] at h
          cases h
          have hpl : p = fct.shape.length - 1 := by omega
          refine ⟨n, ?_⟩
          rw [← he, hpl, List.eraseIdx_length_sub_one]
          have := List.getElem?_eq_some_iff.1 hg
          obtain ⟨_, h3⟩ := this
          conv_lhs => rw [← List.dropLast_append_getLast (l := fct.shape) (by
            intro hnil; rw [hnil] at hlt; simp at hlt)]
          rw [List.getLast_eq_getElem]
          simp only [← hpl, h3]
        · rw [if_pos (by simpa using h1)] at h
          unfold Arr.moveaxisLast at h
          simp only [hm, if_false] at h
          unfold Arr.ndim at h
          rw [if_pos ⟨hp, by omega⟩] at h
          cases h
          exact ⟨_, by rw [Arr.moveLast]; dsimp only; rw [he]⟩

theorem weight_shape {w fct v : Arr XF} {mAxis : ℤ}
    (h : Api.univariateWeightCheck w fct mAxis = .ok v) : v.shape = fct.shape := by
  unfold Api.univariateWeightCheck at h
  simp only [bind, Except.bind] at h
  split at h
  · simp at h
  · split_ifs at h with h1 h2
    cases h
    push Not at h1
    exact h1

theorem nanStage_shape {obs fct f : Arr XF} {pol : String} {w v : Option (Arr XF)} {e : Option String}
    (h : Api.nanStage obs fct pol w e = .ok (f, v)) : f.shape = fct.shape := by
  unfold Api.nanStage at h
  by_cases h1 : pol = "propagate"
  · rw [if_pos h1] at h
    cases h; rfl
  rw [if_neg h1] at h
  cases hm : Api.nanMask fct w with
  | error er => rw [hm] at h; cases h
  | ok mask =>
    rw [hm] at h
    simp only [bind, Except.bind] at h
    by_cases h2 : pol = "raise"
    · rw [if_pos h2] at h
      split_ifs at h
      cases h; rfl
    rw [if_neg h2] at h
    by_cases h3 : pol = "omit"
    · rw [if_pos h3] at h
      split_ifs at h
      cases w with
      | none => cases h; rfl
      | some w =>
        simp only at h
        cases hz : Api.whereZero mask w with
        | error e => rw [hz] at h; cases h
        | ok z => rw [hz] at h; cases h; rfl
    · rw [if_neg h3] at h; cases h

theorem nan_shape {obs fct f : Arr XF} {pol : String} {w v : Option (Arr XF)} {e : Option String} {m : ℤ}
    (h : Api.applyNanPolicy obs fct pol w e m = .ok (f, v)) : f.shape = fct.shape := by
  cases w with
  | none => exact nanStage_shape (w := none) h
  | some w =>
    unfold Api.applyNanPolicy at h
    cases hm : w.moveaxisLast m with
    | error er => simp only [hm] at h; cases h
    | ok w' => simp only [hm] at h; exact nanStage_shape (w := some w') h

theorem sort_shape {fct f : Arr XF} {w v : Option (Arr XF)} {m : ℤ} {est : String} {b : Bool}
    (h : Api.univariateSortEns fct w m est b = .ok (f, v)) : f.shape = fct.shape := by
  unfold Api.univariateSortEns at h
  simp only [bind, Except.bind] at h
  split at h
  · cases h; split_ifs <;> rfl
  · split at h
    · simp at h
    · cases h; split_ifs <;> rfl

/-! ### the multivariate checks -/

theorem mv_obs {obs fct o f : Arr XF} {mAxis vAxis : ℤ} {m v : ℕ}
    (hx : MvAxes mAxis vAxis fct.ndim m v)
    (h : Api.multivariateArrayCheck obs fct mAxis vAxis = .ok (o, f)) :
    obs.shape = fct.shape.eraseIdx m := by
  have hm := hx.hm.1
  unfold Api.multivariateArrayCheck at h
  simp only [Api.axis_norm hx.hm, Api.axis_norm hx.hv] at h
  cases hc : Api.shapeCheck obs fct (m : ℤ) with
  | error e => rw [hc] at h; cases h
  | ok u =>
    unfold Api.shapeCheck at hc
    have hg : Arr.pyGet fct.shape (m : ℤ) = some fct.shape[m] := by
      unfold Arr.pyGet
      rw [if_pos (by omega)]
      simp only [Int.toNat_natCast]
      exact List.getElem?_eq_getElem hm
    rw [hg] at hc
    simp only at hc
    split_ifs at hc with hne
    push Not at hne
    unfold Arr.pyTo Arr.pyFrom at hne
    rw [if_pos (by omega)] at hne
    simp only [Int.toNat_natCast] at hne
    have hlen : fct.shape.length = obs.shape.length + 1 := by
      rw [← hne]; simp; omega
    have : m < fct.shape.length := hm
    exact (erase_of_check (by omega) hne).symm

theorem mv_fct {obs fct o f : Arr XF} {mAxis vAxis : ℤ} {m v : ℕ}
    (hx : MvAxes mAxis vAxis fct.ndim m v)
    (h : Api.multivariateArrayCheck obs fct mAxis vAxis = .ok (o, f)) : f = fct.moveLast2 m v := by
  rw [Api.mvArrayCheck hx (mv_obs hx h)] at h
  cases h
  rfl

/-- After `multivariate_array_check` with two distinct axes of the forecasts, the observations have shape
`s + (D,)` and the forecasts `s + (M, D)`. -/
theorem mv_shape {obs fct o f : Arr XF} {mAxis vAxis : ℤ} {m v : ℕ}
    (hx : MvAxes mAxis vAxis fct.ndim m v)
    (h : Api.multivariateArrayCheck obs fct mAxis vAxis = .ok (o, f)) :
    ∃ s M D, o.shape = s ++ [D] ∧ f.shape = s ++ [M, D] := by
  have hs := mv_obs hx h
  rw [Api.mvArrayCheck hx hs] at h
  cases h
  refine ⟨Arr.erase2 m v fct.shape, fct.shape.getD m 0, fct.shape.getD v 0, ?_, rfl⟩
  rw [Arr.moveLast, hs]
  dsimp only
  rw [Api.erase2_eq hx.ne, Api.eraseIdx_getD_without hx.ne]

theorem mvWeight_shape {w fct v : Arr XF} {mAxis : ℤ} {s : List ℕ} {M D : ℕ}
    (hf : fct.shape = s ++ [M, D])
    (h : Api.multivariateWeightCheck w fct mAxis = .ok v) : v.shape = s ++ [M] := by
  unfold Api.multivariateWeightCheck at h
  simp only [bind, Except.bind] at h
  split at h
  · simp at h
  · split_ifs at h with h1 h2
    cases h
    push Not at h1
    refine h1.trans ?_
    rw [hf, show s ++ [M, D] = (s ++ [M]) ++ [D] by simp, List.dropLast_concat]

theorem mvWeights_shape {obs fct o f : Arr XF} {wFunc : List XF → XF} {s : List ℕ} {M D : ℕ}
    (ho : obs.shape = s ++ [D]) (hf : fct.shape = s ++ [M, D])
    (h : Api.mvWeights obs fct wFunc = .ok (o, f)) : o.shape = s ∧ f.shape = s ++ [M] := by
  unfold Api.mvWeights at h
  simp only at h
  split_ifs at h
  cases h
  simp only [Api.alongLast, ho, hf, List.dropLast_concat, true_and]
  rw [show s ++ [M, D] = (s ++ [M]) ++ [D] by simp, List.dropLast_concat]

theorem uvWeights_shape {obs fct o f : Arr XF} {wFunc : XF → XF}
    (h : Api.uvWeights obs fct wFunc = .ok (o, f)) : o.shape = obs.shape ∧ f.shape = fct.shape := by
  unfold Api.uvWeights at h
  simp only at h
  split_ifs at h
  cases h
  exact ⟨rfl, rfl⟩

theorem owPrep_shape {obs fct f ow fw : Arr XF} {wFunc : XF → XF} {mAxis : ℤ} {w v : Option (Arr XF)}
    {pol : String} (h : Api.owPrep obs fct wFunc mAxis w pol = .ok (f, ow, fw, v)) :
    ∃ M, f.shape = obs.shape ++ [M] ∧ ow.shape = obs.shape ∧ fw.shape = obs.shape ++ [M] ∧
      ∀ u, v = some u → u.shape = obs.shape ++ [M] := by
  unfold Api.owPrep at h
  cases h1 : Api.univariateArrayCheck obs fct mAxis with
  | error e => rw [h1] at h; cases h
  | ok f1 =>
  obtain ⟨M, hM⟩ := check_shape h1
  rw [h1] at h
  simp only [bind, Except.bind] at h
  cases h2 : Api.uvWeights obs f1 wFunc with
  | error e => rw [h2] at h; cases h
  | ok p =>
  obtain ⟨o2, w2⟩ := p
  obtain ⟨e2, e2'⟩ := uvWeights_shape h2
  rw [h2] at h
  simp only at h
  cases h3 : Api.applyNanPolicy obs f1 pol w none (-1) with
  | error e => rw [h3] at h; cases h
  | ok p =>
  obtain ⟨f3, v3⟩ := p
  have e3 := nan_shape h3
  rw [h3] at h
  simp only at h
  cases h4 : Api.applyNanPolicy o2 w2 pol v3 none (-1) with
  | error e => rw [h4] at h; cases h
  | ok p =>
  obtain ⟨f4, v4⟩ := p
  have e4 := nan_shape h4
  rw [h4] at h
  simp only at h
  cases v4 with
  | none =>
    cases h
    exact ⟨M, e3.trans hM, e2, e4.trans (e2'.trans hM), fun u hu => by cases hu⟩
  | some x =>
    simp only at h
    cases h5 : Api.univariateWeightCheck x f3 mAxis with
    | error e => rw [h5] at h; cases h
    | ok y =>
      rw [h5] at h
      cases h
      exact ⟨M, e3.trans hM, e2, e4.trans (e2'.trans hM), fun u hu => by
        cases hu; exact (weight_shape h5).trans (e3.trans hM)⟩

end ApiNp
end Verif
