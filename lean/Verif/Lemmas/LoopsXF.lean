import Verif.Lemmas.Loops
import Verif.Model.Crps

/-! Loop lemmas for the `Py` combinators. -/

noncomputable section

open scoped Classical

namespace Verif

open XF Py

variable {α : Type}

theorem idx_map (l : List α) (f : α → XF) (i : ℕ) :
    idx (l.map f) i = ((l.map some).getD i none).elim nan f := by
  unfold idx
  by_cases h : i < l.length
  · simp [h]
  · simp [h]

/-- The double loop of the energy-form kernels. -/
theorem forRange_pairs (l : List α) (F : Option α → XF) (H : Option α → Option α → XF) :
    forRange 0 l.length ((0, 0) : XF × XF) (fun i e =>
      (e.1 + F ((l.map some).getD i none),
       forRange (i + 1) l.length e.2 fun j e2 =>
        e2 + H ((l.map some).getD i none) ((l.map some).getD j none)))
      = ((l.map fun a => F (some a)).sum, pairsUp (fun a b => H (some a) (some b)) l) := by
  unfold forRange
  simp only [foldl_add_eq, Nat.sub_zero]
  rw [foldl_pair_eq]
  rw [show List.range' 0 l.length = List.range l.length from (List.range_eq_range').symm]
  have h1 := map_range_getD (l.map some) none F
  have h2 := pairsUp_eq_range H (l.map some) none
  simp only [List.length_map] at h1 h2
  rw [h1, h2]
  simp [Function.comp_def, pairsUp_map]

/-- enumerated loops whose body reads other arrays at the loop index -/
theorem forEnum_map {S : Type} (l : List α) (f : α → XF) (s : S)
    (body : ℕ → XF → S → S) (body' : α → S → S)
    (h : ∀ i a s, l[i]? = some a → body i (f a) s = body' a s) :
    forEnum (l.map f) s body = l.foldl (fun s a => body' a s) s := by
  unfold forEnum
  have e1 : (l.map f).zipIdx = l.zipIdx.map (fun p => (f p.1, p.2)) := by
    rw [List.zipIdx_map]; rfl
  rw [e1, List.foldl_map]
  have e2 : l.foldl (fun s a => body' a s) s = l.zipIdx.foldl (fun s p => body' p.1 s) s := by
    conv_lhs => rw [← List.zipIdx_map_fst 0 l]
    rw [List.foldl_map]
  rw [e2]
  apply List.foldl_ext
  intro s p hp
  exact h _ _ _ (List.mem_zipIdx_iff_getElem?.1 hp)

theorem foldlM_ext' {S : Type} (l : List α) (f g : S → α → Option S)
    (h : ∀ s, ∀ a ∈ l, f s a = g s a) (s : S) : l.foldlM f s = l.foldlM g s := by
  induction l generalizing s with
  | nil => rfl
  | cons a l ih =>
    simp only [List.foldlM_cons]
    rw [h s a (by simp)]
    congr 1
    funext s'
    exact ih (fun s b hb => h s b (by simp [hb])) s'

theorem forEnumM_map {S : Type} (l : List α) (f : α → XF) (s : S)
    (body : ℕ → XF → S → Option S) (body' : α → S → Option S)
    (h : ∀ i a s, l[i]? = some a → body i (f a) s = body' a s) :
    forEnumM (l.map f) s body = l.foldlM (fun s a => body' a s) s := by
  unfold forEnumM
  have e1 : (l.map f).zipIdx = l.zipIdx.map (fun p => (f p.1, p.2)) := by
    rw [List.zipIdx_map]; rfl
  rw [e1, List.foldlM_map]
  have e2 : l.foldlM (fun s a => body' a s) s = l.zipIdx.foldlM (fun s p => body' p.1 s) s := by
    conv_lhs => rw [← List.zipIdx_map_fst 0 l]
    rw [List.foldlM_map]
  rw [e2]
  apply foldlM_ext'
  intro s p hp
  exact h _ _ _ (List.mem_zipIdx_iff_getElem?.1 hp)

theorem idx_map_of_getElem? {l : List α} {i : ℕ} {a : α} (f : α → XF) (h : l[i]? = some a) :
    idx (l.map f) i = f a := by
  unfold idx; simp [h]

theorem sum_map_fin' (l : List α) (f : α → ℝ) : (l.map fun a => fin (f a)).sum = fin (l.map f).sum := by
  induction l with
  | nil => rfl
  | cons a l ih => simp [ih]

theorem pairsUp_fin (h : α → α → ℝ) (l : List α) :
    pairsUp (fun a b => fin (h a b)) l = fin (pairsUp h l) := by
  induction l with
  | nil => rfl
  | cons a l ih => simp only [pairsUp, ih, sum_map_fin', fin_add]

theorem pairsAll_fin (h : α → α → ℝ) (l : List α) :
    pairsAll (fun a b => fin (h a b)) l = fin (pairsAll h l) := by
  simp only [pairsAll, sum_map_fin']

theorem zip2_map (F : XF → XF → XF) (f g : α → XF) (l : List α) :
    zip2 F (l.map f) (l.map g) = l.map fun a => F (f a) (g a) := by
  simp only [zip2, List.zipWith_map, List.zipWith_self]

/-- running totals -/
def cums : XF → List XF → List XF
  | _, [] => []
  | c, a :: l => (c + a) :: cums (c + a) l

theorem cums_length (c : XF) (l : List XF) : (cums c l).length = l.length := by
  induction l generalizing c with
  | nil => rfl
  | cons a l ih => simp [cums, ih]

theorem cums_getElem (c : XF) (l : List XF) (i : ℕ) (h : i < (cums c l).length) :
    (cums c l)[i] = c + (l.take (i + 1)).sum := by
  induction l generalizing c i with
  | nil => simp [cums] at h
  | cons a l ih =>
    cases i with
    | zero => simp [cums]
    | succ i =>
      simp only [cums, List.getElem_cons_succ, ih, List.take_succ_cons, List.sum_cons]
      rw [add_assoc]

theorem cumsum_eq (l : List XF) : cumsum l = cums 0 l := by
  apply List.ext_getElem
  · simp [cumsum, cums_length]
  · intro i h1 h2
    rw [cums_getElem]
    simp [cumsum]

end Verif
