import Verif.Model.LogsEns
import Verif.Lemmas.ArrRows

/-!
# Broadcasting lemmas for arrays with one more axis
-/

noncomputable section

open scoped Classical

namespace Verif

open XF Py

namespace Arr

theorem bshapeR_nil_right (s : List ℕ) : bshapeR s [] = some s := by cases s <;> rfl

theorem bshape_nil_right (s : List ℕ) : bshape s [] = some s := by
  simp [bshape, bshapeR_nil_right]

theorem bshape_nil_left (s : List ℕ) : bshape [] s = some s := by
  simp [bshape, bshapeR]

theorem bshape_expand (s : List ℕ) (K : ℕ) : bshape (s ++ [1]) (s ++ [K]) = some (s ++ [K]) := by
  by_cases hK : K = 1
  · rw [hK]; exact bshape_self _
  · simp [bshape, bshapeR, bshapeR_self, Ne.symm hK]

theorem bcast_one (s : List ℕ) : bcast [s] = some s := by
  show bshape s [] = _
  exact bshape_nil_right s

theorem bcast_nil : bcast [] = some [] := rfl

theorem bcast_cons (s : List ℕ) (l : List (List ℕ)) :
    bcast (s :: l) = (bcast l).bind fun t => bshape s t := rfl

variable {α : Type}

theorem bget_scalar (x : α) (i : List ℕ) : (scalar x).bget i = x := rfl

theorem bget_mk {s : List ℕ} (f : List ℕ → α) {i : List ℕ} (h : Valid s i) :
    (⟨s, f⟩ : Arr α).bget i = f i := bget_self (a := ⟨s, f⟩) h

theorem bget_expandLast {a : Arr α} {i : List ℕ} (h : Valid a.shape i) (j : ℕ) :
    a.expandLast.bget (i ++ [j]) = a.get i := by
  have hil : i.length = a.shape.length := h.length
  unfold bget
  have : a.expandLast.ndim = a.shape.length + 1 := by simp [ndim, expandLast]
  rw [this]
  simp only [List.length_append, List.length_singleton, hil, Nat.sub_self, List.drop_zero]
  show a.get (List.dropLast (List.zipWith _ (a.shape ++ [1]) _)) = _
  rw [List.zipWith_append hil.symm]
  simp only [List.zipWith_cons_cons, List.zipWith_nil_right, List.dropLast_concat]
  have := bget_self (a := a) (i := i) h
  unfold bget at this
  rw [show a.ndim = a.shape.length from rfl, hil, Nat.sub_self, List.drop_zero] at this
  exact this

end Arr

namespace LogsEns

open Arr

/-- the last axis appended -/
theorem valid_snoc {s : List ℕ} {M : ℕ} {i : List ℕ} {j : ℕ} (hi : Valid s i) (hj : j < M) :
    Valid (s ++ [M]) (i ++ [j]) := valid_append_iff.2 ⟨i, j, rfl, hi, hj⟩

theorem brow_eq {a : Arr XF} {s : List ℕ} {M : ℕ} (ha : a.shape = s ++ [M]) {i : List ℕ}
    (hi : Valid s i) : brow a M i = a.row i := by
  unfold brow row
  rw [ha]
  simp only [List.getLastD_concat]
  apply List.map_congr_left
  intro j hj
  exact bget_self (by rw [ha]; exact valid_snoc hi (List.mem_range.1 hj))

/-- the bandwidth of one case -/
def bwOf (bw : Option (Arr XF)) (xs : List XF) (i : List ℕ) : XF :=
  match bw with
  | some w => w.get i
  | none => silverman xs

theorem bandwidth_ok {fct : Arr XF} {s : List ℕ} {M : ℕ} (hf : fct.shape = s ++ [M]) (hM : M ≠ 0)
    (bw : Option (Arr XF)) (hb : ∀ w, bw = some w → w.shape = s) :
    bandwidth fct bw = .ok ⟨s ++ [M], fun i => bwOf bw (fct.row i.dropLast) i.dropLast⟩ := by
  unfold bandwidth
  rw [hf]
  simp only [List.getLastD_concat, if_neg hM, List.dropLast_concat]
  cases bw with
  | none => rfl
  | some w => simp [hb w rfl, bwOf]

theorem mixnormArr_ok {obs m s w : Arr XF} {M : ℕ} (hm : m.shape = obs.shape ++ [M])
    (hs : s.shape = obs.shape ++ [M]) (hw : w.shape = obs.shape ++ [M]) :
    ∃ out, mixnormArr obs m s w = .ok out ∧ out.shape = obs.shape ∧
      ∀ i, Valid obs.shape i → out.get i = Logs.mixnorm (obs.get i) (m.row i) (s.row i) (w.row i) := by
  unfold mixnormArr
  have hb : bcast [obs.expandLast.shape, m.shape, s.shape, w.shape] = some (obs.shape ++ [M]) := by
    rw [hm, hs, hw]
    simp only [bcast_cons, bcast_nil, Option.bind_some, bshape_self, bshape_nil_right]
    exact bshape_expand _ _
  rw [hb]
  refine ⟨_, rfl, by simp, fun i hi => ?_⟩
  simp only [List.getLastD_concat]
  rw [bget_expandLast hi, brow_eq hm hi, brow_eq hs hi, brow_eq hw hi]

theorem meanLast3_ok {f : XF → XF → XF → XF} {a b c : Arr XF} {s : List ℕ} {M : ℕ} (g : List ℕ → XF)
    (hb : b.shape = s ++ [M]) (hc : c.shape = s ++ [M])
    (ha : bshape a.shape (s ++ [M]) = some (s ++ [M]))
    (hg : ∀ i j, Valid s i → j < M → a.bget (i ++ [j]) = g i) :
    ∃ out, meanLast3 f a b c = .ok out ∧ out.shape = s ∧
      ∀ i, Valid s i → out.get i
        = mean ((List.range M).map fun j => f (g i) (b.get (i ++ [j])) (c.get (i ++ [j]))) := by
  unfold meanLast3
  have hbc : bcast [a.shape, b.shape, c.shape] = some (s ++ [M]) := by
    rw [hb, hc]
    simp only [bcast_cons, bcast_nil, Option.bind_some, bshape_self, bshape_nil_right]
    exact ha
  rw [hbc]
  refine ⟨_, rfl, by simp, fun i hi => ?_⟩
  simp only [List.getLastD_concat]
  congr 1
  apply List.map_congr_left
  intro j hj
  have hj := List.mem_range.1 hj
  rw [hg i j hi hj, bget_self (a := b) (by rw [hb]; exact valid_snoc hi hj),
    bget_self (a := c) (by rw [hc]; exact valid_snoc hi hj)]

/-- The value of `clogs` on one case: observation `y`, thresholds `a` and `b`, member/bandwidth pairs. -/
def clogs1 (y a b : XF) (l : List (XF × XF)) (cens : Bool) : XF :=
  let s1 := -XF.log (mean (l.map fun p => Stats.normPdf ((y - p.1) / p.2) / p.2))
  let cons := mean (l.map fun p => Stats.normCdf ((b - p.1) / p.2))
    - mean (l.map fun p => Stats.normCdf ((a - p.1) / p.2))
  if a < y ∧ y < b then (if cens then s1 else s1 + XF.log cons)
  else (if cens then -XF.log (1 - cons) else 0)

theorem clogs_ok {obs fct bw : Arr XF} {M : ℕ} (a b : XF) (cens : Bool)
    (hf : fct.shape = obs.shape ++ [M]) (hw : bw.shape = obs.shape ++ [M]) :
    ∃ out, clogs obs fct (scalar a) (scalar b) bw cens = .ok out ∧ out.shape = obs.shape ∧
      ∀ i, Valid obs.shape i → out.get i = clogs1 (obs.get i) a b
        ((List.range M).map fun j => (fct.get (i ++ [j]), bw.get (i ++ [j]))) cens := by
  obtain ⟨d, hd, hds, hdv⟩ := meanLast3_ok (f := fun y x h => Stats.normPdf ((y - x) / h) / h)
    (a := obs.expandLast) (fun i => obs.get i) hf hw (bshape_expand _ _)
    (fun i j hi _ => bget_expandLast hi j)
  obtain ⟨fa, hfa, hfas, hfav⟩ := meanLast3_ok (f := fun y x h => Stats.normCdf ((y - x) / h))
    (a := scalar a) (fun _ => a) hf hw (bshape_nil_left _) (fun _ _ _ _ => rfl)
  obtain ⟨fb, hfb, hfbs, hfbv⟩ := meanLast3_ok (f := fun y x h => Stats.normCdf ((y - x) / h))
    (a := scalar b) (fun _ => b) hf hw (bshape_nil_left _) (fun _ _ _ _ => rfl)
  have hcons : Arr.map2 (fun u v : XF => u - v) fb fa
      = .ok ⟨obs.shape, fun i => fb.bget i - fa.bget i⟩ := by
    unfold Arr.map2
    rw [hfas, hfbs, bshape_self]
  have hwi : wInd obs (scalar a) (scalar b)
      = .ok ⟨obs.shape, fun i => a < obs.bget i ∧ obs.bget i < b⟩ := by
    unfold wInd
    have : bcast [obs.shape, (scalar a).shape, (scalar b).shape] = some obs.shape := by
      show bshape obs.shape [] = _
      exact bshape_nil_right _
    rw [this]; rfl
  unfold clogs
  rw [hd, hfa, hfb]
  simp only [bind, Except.bind]
  rw [hcons]
  simp only
  rw [hwi]
  simp only
  cases cens
  · simp only [Bool.false_eq_true, if_false]
    have hadd : Arr.map2 (fun u v : XF => u + v) (d.map fun d => -XF.log d)
        ((⟨obs.shape, fun i => fb.bget i - fa.bget i⟩ : Arr XF).map fun c => XF.log c)
        = .ok ⟨obs.shape, fun i => (d.map fun d => -XF.log d).bget i
          + ((⟨obs.shape, fun i => fb.bget i - fa.bget i⟩ : Arr XF).map fun c => XF.log c).bget i⟩ := by
      unfold Arr.map2
      show (match bshape d.shape obs.shape with | none => _ | some s => _) = _
      rw [hds, bshape_self]
    rw [hadd]
    simp only
    unfold whereA
    have : bcast [obs.shape, obs.shape, (scalar (0 : XF)).shape] = some obs.shape := by
      simp [bcast, scalar, bshape_self, bshape_nil_left, bshape_nil_right]
    rw [this]
    refine ⟨_, rfl, rfl, fun i hi => ?_⟩
    simp only [bget_mk _ hi, bget_scalar, Arr.map]
    rw [bget_self (a := fb) (by rw [hfbs]; exact hi),
      bget_self (a := fa) (by rw [hfas]; exact hi), hfav i hi, hfbv i hi]
    have : (⟨d.shape, fun i => -XF.log (d.get i)⟩ : Arr XF).bget i = -XF.log (d.get i) := by
      rw [hds]; exact bget_mk _ hi
    rw [this, hdv i hi]
    simp only [clogs1, List.map_map, Function.comp_def]
    split_ifs <;> simp_all
  · simp only [if_true]
    unfold whereA
    have : bcast [obs.shape, (d.map fun d => -XF.log d).shape,
        ((⟨obs.shape, fun i => fb.bget i - fa.bget i⟩ : Arr XF).map fun c => -XF.log (1 - c)).shape]
        = some obs.shape := by
      simp only [Arr.map, hds]
      simp [bcast, bshape_self, bshape_nil_right]
    rw [this]
    refine ⟨_, rfl, rfl, fun i hi => ?_⟩
    simp only [bget_mk _ hi, Arr.map]
    rw [bget_self (a := fb) (by rw [hfbs]; exact hi),
      bget_self (a := fa) (by rw [hfas]; exact hi), hfav i hi, hfbv i hi]
    have : (⟨d.shape, fun i => -XF.log (d.get i)⟩ : Arr XF).bget i = -XF.log (d.get i) := by
      rw [hds]; exact bget_mk _ hi
    rw [this, hdv i hi]
    simp only [clogs1, List.map_map, Function.comp_def, if_true]

end LogsEns
end Verif
