import Verif.Model.Py
import Mathlib.Algebra.BigOperators.Group.List.Lemmas
import Mathlib.Algebra.Ring.Defs
import Mathlib.Tactic.Ring
import Mathlib.Tactic.Linarith

/-! Turning accumulator loops into list sums. -/

noncomputable section

open scoped Classical

namespace Verif

open XF Py

section generic
variable {α β : Type} {A : Type} [AddCommMonoid A]

theorem foldl_add_eq (l : List α) (f : α → A) (s : A) :
    l.foldl (fun s i => s + f i) s = s + (l.map f).sum := by
  induction l generalizing s with
  | nil => simp
  | cons a l ih => simp [ih, add_assoc]

theorem foldl_pair_eq {B : Type} [AddCommMonoid B] (l : List α) (f : α → A) (g : α → B)
    (s : A × B) :
    l.foldl (fun s i => (s.1 + f i, s.2 + g i)) s = (s.1 + (l.map f).sum, s.2 + (l.map g).sum) := by
  induction l generalizing s with
  | nil => simp
  | cons a l ih => simp [ih, add_assoc]

theorem foldl_triple_eq (l : List α) (f g h : α → A) (s : A × A × A) :
    l.foldl (fun s i => (s.1 + f i, s.2.1 + g i, s.2.2 + h i)) s
      = (s.1 + (l.map f).sum, s.2.1 + (l.map g).sum, s.2.2 + (l.map h).sum) := by
  induction l generalizing s with
  | nil => simp
  | cons a l ih => simp [ih, add_assoc]

/-- Sum over unordered pairs of positions `i < j` of `h x_i x_j`. -/
def pairsUp (h : α → α → A) : List α → A
  | [] => 0
  | a :: l => (l.map (h a)).sum + pairsUp h l

/-- Sum over all ordered pairs. -/
def pairsAll (h : α → α → A) (l : List α) : A := (l.map fun a => (l.map fun b => h a b).sum).sum

omit [AddCommMonoid A] in
theorem map_range_getD (l : List α) (d : α) (f : α → A) :
    ((List.range l.length).map fun i => f (l.getD i d)) = l.map f := by
  apply List.ext_getElem
  · simp
  · intro i h1 h2
    simp at h1 h2
    simp [h2]

omit [AddCommMonoid A] in
theorem map_range'_getD (l : List α) (d : α) (f : α → A) (k : ℕ) :
    ((List.range' k (l.length - k)).map fun i => f (l.getD i d)) = (l.drop k).map f := by
  apply List.ext_getElem
  · simp
  · intro i h1 h2
    simp at h1 h2
    have : k + i < l.length := by omega
    simp [this]

theorem pairsUp_eq_range (h : α → α → A) (l : List α) (d : α) :
    ((List.range l.length).map fun i =>
      ((List.range' (i + 1) (l.length - (i + 1))).map fun j => h (l.getD i d) (l.getD j d)).sum).sum
      = pairsUp h l := by
  have : ∀ i, ((List.range' (i + 1) (l.length - (i + 1))).map
      fun j => h (l.getD i d) (l.getD j d)) = (l.drop (i + 1)).map (h (l.getD i d)) := by
    intro i; exact map_range'_getD l d _ _
  simp only [this]
  clear this
  induction l with
  | nil => simp [pairsUp]
  | cons a l ih =>
    simp only [List.length_cons, pairsUp, List.range_succ_eq_map, List.map_cons, List.sum_cons,
      List.map_map]
    congr 1

theorem sum_map_add' (l : List α) (f g : α → A) :
    (l.map fun a => f a + g a).sum = (l.map f).sum + (l.map g).sum := by
  induction l with
  | nil => simp
  | cons a l ih => simp only [List.map_cons, List.sum_cons, ih]; abel

theorem pairsAll_eq (h : α → α → A) (hs : ∀ a b, h a b = h b a) (l : List α) :
    pairsAll h l = (pairsUp h l + pairsUp h l) + (l.map fun a => h a a).sum := by
  induction l with
  | nil => simp [pairsAll, pairsUp]
  | cons a l ih =>
    unfold pairsAll at *
    simp only [List.map_cons, List.sum_cons, pairsUp]
    rw [sum_map_add', ih]
    have : (l.map fun b => h b a) = l.map (h a) := by
      apply List.map_congr_left; intro b _; exact hs _ _
    rw [this]
    abel

theorem pairsAll_perm (h : α → α → A) {l l' : List α} (p : l.Perm l') :
    pairsAll h l = pairsAll h l' := by
  unfold pairsAll
  have : ∀ a, (l.map fun b => h a b).sum = (l'.map fun b => h a b).sum :=
    fun a => (p.map _).sum_eq
  simp only [this]
  exact (p.map _).sum_eq

theorem pairsAll_map (h : β → β → A) (f : α → β) (l : List α) :
    pairsAll h (l.map f) = pairsAll (fun a b => h (f a) (f b)) l := by
  simp [pairsAll, Function.comp_def]

theorem pairsAll_cons (h : α → α → A) (a : α) (l : List α) :
    pairsAll h (a :: l) = h a a + (l.map (h a)).sum + ((l.map fun b => h b a).sum + pairsAll h l) := by
  simp only [pairsAll, List.map_cons, List.sum_cons]
  rw [sum_map_add']

theorem pairsAll_add (h k : α → α → A) (l : List α) :
    pairsAll (fun a b => h a b + k a b) l = pairsAll h l + pairsAll k l := by
  simp only [pairsAll, sum_map_add']

theorem pairsAll_congr {h k : α → α → A} {l : List α} (e : ∀ a ∈ l, ∀ b ∈ l, h a b = k a b) :
    pairsAll h l = pairsAll k l := by
  unfold pairsAll
  congr 1
  apply List.map_congr_left
  intro a ha
  congr 1
  apply List.map_congr_left
  intro b hb
  exact e a ha b hb

theorem sum_map_congr {l : List α} {f g : α → A} (e : ∀ a ∈ l, f a = g a) :
    (l.map f).sum = (l.map g).sum := by
  congr 1; exact List.map_congr_left e

theorem pairsUp_map (h : β → β → A) (f : α → β) (l : List α) :
    pairsUp h (l.map f) = pairsUp (fun a b => h (f a) (f b)) l := by
  induction l with
  | nil => rfl
  | cons a l ih => simp [pairsUp, ih, Function.comp_def]

end generic

/-- Enumerated loops over additive accumulators. -/
theorem zipIdx_foldl_eq {α A : Type} [AddCommMonoid A] (l : List α) (f : α × ℕ → A) (s : A) :
    l.zipIdx.foldl (fun s p => s + f p) s = s + (l.zipIdx.map f).sum := foldl_add_eq _ _ _

section ring
variable {α : Type}

theorem sum_map_mul_left' (l : List α) (c : ℝ) (f : α → ℝ) :
    (l.map fun a => c * f a).sum = c * (l.map f).sum := by
  induction l with
  | nil => simp
  | cons a l ih => simp [ih]; ring

theorem sum_map_mul_right' (l : List α) (c : ℝ) (f : α → ℝ) :
    (l.map fun a => f a * c).sum = (l.map f).sum * c := by
  induction l with
  | nil => simp
  | cons a l ih => simp [ih]; ring

theorem sum_map_sub' (l : List α) (f g : α → ℝ) :
    (l.map fun a => f a - g a).sum = (l.map f).sum - (l.map g).sum := by
  induction l with
  | nil => simp
  | cons a l ih => simp [ih]; ring

theorem sum_map_div' (l : List α) (c : ℝ) (f : α → ℝ) :
    (l.map fun a => f a / c).sum = (l.map f).sum / c := by
  induction l with
  | nil => simp
  | cons a l ih => simp [ih]; ring

theorem sum_map_const' (l : List α) (c : ℝ) : (l.map fun _ => c).sum = l.length * c := by
  induction l with
  | nil => simp
  | cons a l ih => simp; ring

theorem pairsAll_mul_left (c : ℝ) (h : α → α → ℝ) (l : List α) :
    pairsAll (fun a b => c * h a b) l = c * pairsAll h l := by
  simp only [pairsAll, sum_map_mul_left']

theorem pairsAll_nonneg {h : α → α → ℝ} {l : List α} (e : ∀ a ∈ l, ∀ b ∈ l, 0 ≤ h a b) :
    0 ≤ pairsAll h l := by
  unfold pairsAll
  apply List.sum_nonneg
  intro x hx
  simp only [List.mem_map] at hx
  obtain ⟨a, ha, rfl⟩ := hx
  apply List.sum_nonneg
  intro x hx
  simp only [List.mem_map] at hx
  obtain ⟨b, hb, rfl⟩ := hx
  exact e a ha b hb

/-- The double sum of a product form is a product of sums. -/
theorem pairsAll_prod (f g : α → ℝ) (l : List α) :
    pairsAll (fun a b => f a * g b) l = (l.map f).sum * (l.map g).sum := by
  simp only [pairsAll, sum_map_mul_left', sum_map_mul_right']

theorem pairsAll_left (f g : α → ℝ) (l : List α) :
    pairsAll (fun a b => f a * g b) l = (l.map f).sum * (l.map g).sum := pairsAll_prod f g l

end ring

end Verif
