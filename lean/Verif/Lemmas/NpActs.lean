import Verif.Lemmas.NpTensor

/-!
# From a formula per slice to one call per slice
-/

noncomputable section

open scoped Classical

namespace Verif

open XF Py Np Spec

namespace Np

variable {s : List ℕ} {M D : ℕ}

theorem mat_of_shape {a : Arr XF} (h : a.shape = s ++ [M, D]) (i : List ℕ) :
    a.mat i = (List.range M).map fun k => (List.range D).map fun l => a.get (i ++ [k, l]) := by
  unfold Arr.mat
  simp [Arr.ndim, h]

theorem row_eq {a : Arr XF} (h : a.shape = s ++ [M]) (i : List ℕ) :
    a.row i = (List.range M).map fun k => a.get (i ++ [k]) := by
  unfold Arr.row
  simp [h]

theorem ofList_row' (l : List XF) : (Arr.ofList l).row [] = l := by
  rw [row_eq (s := []) (M := l.length) rfl]
  conv_rhs => rw [← List.take_length (l := l), CrpsNp.range_of_length l l.length le_rfl]
  simp [Arr.ofList]

theorem ofRows_mat (r : ℕ → ℕ → XF) :
    (Arr.ofRows D ((List.range M).map fun k => (List.range D).map (r k))).mat [] =
      (List.range M).map fun k => (List.range D).map (r k) := by
  rw [mat_of_shape (s := []) (M := M) (D := D) (by simp [Arr.ofRows])]
  refine List.map_congr_left fun k hk => List.map_congr_left fun l hl => ?_
  rw [List.mem_range] at hk hl
  simp [Arr.ofRows, hk, hl]

theorem actsMat_of_returns {f : Arr XF → Arr XF → Except Err (Arr XF)} {k : List XF → List (List XF) → XF}
    (h : ∀ (obs fct : Arr XF) (s : List ℕ) (M D : ℕ), obs.shape = s ++ [D] → fct.shape = s ++ [M, D] →
      Returns (f obs fct) s fun i => k (obs.row i) (fct.mat i)) : ActsPerMat f := by
  intro obs fct s M D ho hf
  obtain ⟨out, e, hs, hv⟩ := h obs fct s M D ho hf
  rw [e]
  refine ⟨hs, fun i hi => ?_⟩
  have hl : (obs.row i).length = D := by rw [row_eq ho]; simp
  obtain ⟨o, e', _, hv'⟩ := h (Arr.ofList (obs.row i)) (Arr.ofRows D (fct.mat i)) [] M D
    (by rw [← hl]; rfl) (by rw [mat_of_shape hf]; simp [Arr.ofRows])
  have := hv' [] List.Forall₂.nil
  dsimp only at this
  have em : (Arr.ofRows D (fct.mat i)).mat [] = fct.mat i := by
    rw [mat_of_shape hf]; exact ofRows_mat _
  rw [ofList_row', em] at this
  dsimp only
  rw [e', hv i hi]
  dsimp only
  rw [← this]
  rfl

theorem actsMatW_of_returns {f : Arr XF → Arr XF → Arr XF → Except Err (Arr XF)}
    {k : List XF → List (List XF) → List XF → XF}
    (h : ∀ (obs fct w : Arr XF) (s : List ℕ) (M D : ℕ), obs.shape = s ++ [D] → fct.shape = s ++ [M, D] →
      w.shape = s ++ [M] →
      Returns (f obs fct w) s fun i => k (obs.row i) (fct.mat i) (w.row i)) : ActsPerMatW f := by
  intro obs fct w s M D ho hf hw
  obtain ⟨out, e, hs, hv⟩ := h obs fct w s M D ho hf hw
  rw [e]
  refine ⟨hs, fun i hi => ?_⟩
  have hl : (obs.row i).length = D := by rw [row_eq ho]; simp
  have hl' : (w.row i).length = M := by rw [row_eq hw]; simp
  obtain ⟨o, e', _, hv'⟩ := h (Arr.ofList (obs.row i)) (Arr.ofRows D (fct.mat i)) (Arr.ofList (w.row i))
    [] M D (by rw [← hl]; rfl) (by rw [mat_of_shape hf]; simp [Arr.ofRows]) (by rw [← hl']; rfl)
  have := hv' [] List.Forall₂.nil
  dsimp only at this
  have em : (Arr.ofRows D (fct.mat i)).mat [] = fct.mat i := by
    rw [mat_of_shape hf]; exact ofRows_mat _
  rw [ofList_row', ofList_row', em] at this
  dsimp only
  rw [e', hv i hi]
  dsimp only
  rw [← this]
  rfl

theorem actsMatP_of_returns {f : Arr XF → Arr XF → Arr XF → Except Err (Arr XF)}
    {k : List XF → List (List XF) → List (List XF) → XF}
    (h : ∀ (obs fct w : Arr XF) (s : List ℕ) (M D : ℕ), obs.shape = s ++ [D] → fct.shape = s ++ [M, D] →
      w.shape = s ++ [D, D] →
      Returns (f obs fct w) s fun i => k (obs.row i) (fct.mat i) (w.mat i)) : ActsPerMatP f := by
  intro obs fct w s M D ho hf hw
  obtain ⟨out, e, hs, hv⟩ := h obs fct w s M D ho hf hw
  rw [e]
  refine ⟨hs, fun i hi => ?_⟩
  have hl : (obs.row i).length = D := by rw [row_eq ho]; simp
  obtain ⟨o, e', _, hv'⟩ := h (Arr.ofList (obs.row i)) (Arr.ofRows D (fct.mat i)) (Arr.ofRows D (w.mat i))
    [] M D (by rw [← hl]; rfl) (by rw [mat_of_shape hf]; simp [Arr.ofRows])
    (by rw [mat_of_shape hw]; simp [Arr.ofRows])
  have := hv' [] List.Forall₂.nil
  dsimp only at this
  have em : (Arr.ofRows D (fct.mat i)).mat [] = fct.mat i := by
    rw [mat_of_shape hf]; exact ofRows_mat _
  have em' : (Arr.ofRows D (w.mat i)).mat [] = w.mat i := by
    rw [mat_of_shape hw]; exact ofRows_mat _
  rw [ofList_row', em', em] at this
  dsimp only
  rw [e', hv i hi]
  dsimp only
  rw [← this]
  rfl

end Np
end Verif
