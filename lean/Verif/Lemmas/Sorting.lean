import Verif.Lemmas.LoopsXF
import Verif.Model.Api
import Mathlib.Data.List.Sort

/-! Sorting with NaN last. -/

noncomputable section

open scoped Classical

namespace Verif

open XF Py

theorem sortLe_trans (a b c : XF) (h1 : sortLe a b) (h2 : sortLe b c) : sortLe a c := by
  cases a <;> cases b <;> cases c <;> simp_all [sortLe, XF.le]
  exact le_trans h1 h2

theorem sortLe_total (a b : XF) : sortLe a b ∨ sortLe b a := by
  cases a <;> cases b <;> simp [sortLe, XF.le]
  exact le_total _ _

theorem sortLe_antisymm (a b : XF) (h1 : sortLe a b) (h2 : sortLe b a) : a = b := by
  cases a <;> cases b <;> simp_all [sortLe, XF.le]
  exact le_antisymm h1 h2

@[simp] theorem sortLe_fin (a b : ℝ) : sortLe (fin a) (fin b) ↔ a ≤ b := Iff.rfl

/-- ascending, NaN last -/
def SortedX (l : List XF) : Prop := l.Pairwise sortLe

theorem sort_sorted (l : List XF) : SortedX (Py.sort l) := by
  have := List.pairwise_mergeSort (le := fun a b => decide (sortLe a b))
    (fun a b c => by simpa using sortLe_trans a b c)
    (fun a b => by simpa using sortLe_total a b) l
  simpa [SortedX, Py.sort] using this

theorem sort_perm (l : List XF) : (Py.sort l).Perm l := List.mergeSort_perm _ _

theorem sortedX_unique {l l' : List XF} (p : l.Perm l') (h : SortedX l) (h' : SortedX l') :
    l = l' :=
  List.Perm.eq_of_pairwise (le := sortLe) (fun a b _ _ => sortLe_antisymm a b) h h' p

theorem sort_eq_of {l l' : List XF} (p : l.Perm l') (h' : SortedX l') : Py.sort l = l' :=
  sortedX_unique ((sort_perm l).trans p) (sort_sorted l) h'

namespace Api

theorem argsort_perm (r : List XF) : (argsort r).Perm (List.range r.length) :=
  List.mergeSort_perm _ _

theorem argsort_sorted (r : List XF) :
    (argsort r).Pairwise fun i j => sortLe (idx r i) (idx r j) := by
  have := List.pairwise_mergeSort (le := fun i j => decide (sortLe (idx r i) (idx r j)))
    (fun a b c => by simpa using sortLe_trans _ _ _)
    (fun a b => by simpa using sortLe_total _ _) (List.range r.length)
  simpa [argsort] using this

theorem gather_length (r : List XF) (ind : List ℕ) : (gather r ind).length = ind.length := by
  simp [gather]

theorem argsort_length (r : List XF) : (argsort r).length = r.length := by
  simpa using (argsort_perm r).length_eq

theorem map_idx_range (r : List XF) : (List.range r.length).map (idx r) = r := by
  have := map_range_getD r nan id
  exact this.trans (List.map_id _)

theorem gather_argsort_perm (r : List XF) : (gather r (argsort r)).Perm r := by
  have := (argsort_perm r).map (idx r)
  rwa [map_idx_range] at this

theorem gather_argsort_sorted (r : List XF) : SortedX (gather r (argsort r)) := by
  unfold SortedX gather
  rw [List.pairwise_map]
  exact argsort_sorted r

theorem gather_argsort_eq (r : List XF) : gather r (argsort r) = Py.sort r :=
  sortedX_unique ((gather_argsort_perm r).trans (sort_perm r).symm) (gather_argsort_sorted r)
    (sort_sorted r)

theorem zip_gather_perm (r w : List XF) (h : r.length = w.length) :
    ((gather r (argsort r)).zip (gather w (argsort r))).Perm (r.zip w) := by
  have := (argsort_perm r).map (fun i => (idx r i, idx w i))
  have e1 : (gather r (argsort r)).zip (gather w (argsort r))
      = (argsort r).map (fun i => (idx r i, idx w i)) := by
    unfold gather; rw [List.zip_map']
  have e2 : (List.range r.length).map (fun i => (idx r i, idx w i)) = r.zip w := by
    rw [← List.zip_map', map_idx_range, h, map_idx_range]
  rw [e1, ← e2]
  exact this

end Api

end Verif
