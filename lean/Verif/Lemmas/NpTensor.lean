import Verif.Lemmas.CrpsNp
import Verif.Model.Multivariate

/-!
# Arrays with three and four axes per batch index
-/

noncomputable section

open scoped Classical

namespace Verif

open XF Py Np Spec Mv

namespace Np

theorem valid3 {n m r : ℕ} {j : List ℕ} (h : Arr.Valid [n, m, r] j) :
    ∃ k l p, k < n ∧ l < m ∧ p < r ∧ j = [k, l, p] := by
  cases h with
  | cons hk h =>
    obtain ⟨l, p, hl, hp, rfl⟩ := valid2 h
    exact ⟨_, l, p, hk, hl, hp, rfl⟩

theorem valid4 {n m r q : ℕ} {j : List ℕ} (h : Arr.Valid [n, m, r, q] j) :
    ∃ k l p o, k < n ∧ l < m ∧ p < r ∧ o < q ∧ j = [k, l, p, o] := by
  cases h with
  | cons hk h =>
    obtain ⟨l, p, o, hl, hp, ho, rfl⟩ := valid3 h
    exact ⟨_, l, p, o, hk, hl, hp, ho, rfl⟩

theorem valid2' {n m k l : ℕ} (h : k < n) (h' : l < m) : Arr.Valid [n, m] [k, l] :=
  List.Forall₂.cons h (valid1' h')

theorem valid3' {n m r k l p : ℕ} (h : k < n) (h' : l < m) (h'' : p < r) :
    Arr.Valid [n, m, r] [k, l, p] := List.Forall₂.cons h (valid2' h' h'')

/-- a 3-tensor per batch index -/
def Te {α : Type} (a : Arr α) (s : List ℕ) (n m r : ℕ) (v : List ℕ → ℕ → ℕ → ℕ → α) : Prop :=
  IsB a s [n, m, r] fun i j => v i (j.getD 0 0) (j.getD 1 0) (j.getD 2 0)

/-- a 4-tensor per batch index -/
def Qu {α : Type} (a : Arr α) (s : List ℕ) (n m r q : ℕ) (v : List ℕ → ℕ → ℕ → ℕ → ℕ → α) : Prop :=
  IsB a s [n, m, r, q] fun i j => v i (j.getD 0 0) (j.getD 1 0) (j.getD 2 0) (j.getD 3 0)

abbrev ETe {α : Type} (x : Except Err (Arr α)) (s : List ℕ) (n m r : ℕ)
    (v : List ℕ → ℕ → ℕ → ℕ → α) : Prop := Ret x fun a => Te a s n m r v
abbrev EQu {α : Type} (x : Except Err (Arr α)) (s : List ℕ) (n m r q : ℕ)
    (v : List ℕ → ℕ → ℕ → ℕ → ℕ → α) : Prop := Ret x fun a => Qu a s n m r q v

variable {α β : Type} {f : α → α → β} {a b : Arr α} {s : List ℕ} {n m r q : ℕ}

theorem Te.map {v} (h : Te a s n m r v) (f : α → β) :
    Te (a.map f) s n m r fun i k l p => f (v i k l p) := IsB.map h f

theorem Qu.map {v} (h : Qu a s n m r q v) (f : α → β) :
    Qu (a.map f) s n m r q fun i k l p o => f (v i k l p o) := IsB.map h f

theorem Ma.self (h : a.shape = s ++ [n, m]) : Ma a s n m fun i k l => a.get (i ++ [k, l]) := by
  refine IsB.congr (IsB.self h) fun i _ j hj => ?_
  obtain ⟨k, l, _, _, rfl⟩ := valid2 hj; rfl

theorem Te.op {v w} (ha : Te a s n m r v) (hb : Te b s n m r w) :
    ETe (Arr.map2 f a b) s n m r fun i k l p => f (v i k l p) (w i k l p) := Ev.map2_same ha hb

theorem Ma.ex3 {v} (h : Ma a s n m v) :
    ETe (expandDims a [-3]) s 1 n m fun i _ l p => v i l p := by
  have := Ev.expand h [-3] [0] (by simp) (by simp) (by simp) [1, n, m] (by simp [insOnes]) ?_
  · refine this.congr fun i _ j hj => ?_
    obtain ⟨k, l, p, _, _, _, rfl⟩ := valid3 hj
    simp [dropAt]
  · intro j hj
    obtain ⟨k, l, p, _, hl, hp, rfl⟩ := valid3 hj
    simpa [dropAt] using valid2' hl hp

theorem Ma.ex2 {v} (h : Ma a s n m v) :
    ETe (expandDims a [-2]) s n 1 m fun i k _ p => v i k p := by
  have := Ev.expand h [-2] [1] (by simp) (by simp) (by simp) [n, 1, m] (by simp [insOnes]) ?_
  · refine this.congr fun i _ j hj => ?_
    obtain ⟨k, l, p, _, _, _, rfl⟩ := valid3 hj
    simp [dropAt]
  · intro j hj
    obtain ⟨k, l, p, hk, _, hp, rfl⟩ := valid3 hj
    simpa [dropAt] using valid2' hk hp

theorem Ma.ex1 {v} (h : Ma a s n m v) :
    ETe (expandDims a [-1]) s n m 1 fun i k l _ => v i k l := by
  have := Ev.expand h [-1] [2] (by simp) (by simp) (by simp) [n, m, 1] (by simp [insOnes]) ?_
  · refine this.congr fun i _ j hj => ?_
    obtain ⟨k, l, p, _, _, _, rfl⟩ := valid3 hj
    simp [dropAt]
  · intro j hj
    obtain ⟨k, l, p, hk, hl, _, rfl⟩ := valid3 hj
    simpa [dropAt] using valid2' hk hl

theorem Sc.ex21 {v} (h : Sc a s v) :
    EMa (expandDims a [-2, -1]) s 1 1 fun i _ _ => v i  := by
  have := Ev.expand h [-2, -1] [0, 1] (by simp) (by simp) (by simp) [1, 1] (by simp [insOnes]) ?_
  · refine this.congr fun i _ j hj => ?_
    obtain ⟨k, l, _, _, rfl⟩ := valid2 hj
    simp [dropAt]
  · intro j hj
    obtain ⟨k, l, _, _, rfl⟩ := valid2 hj
    simp [dropAt, Arr.Valid]

theorem Ve.ex12 {v} (h : Ve a s n v) :
    ETe (expandDims a [-1, -2]) s n 1 1 fun i k _ _ => v i k := by
  have := Ev.expand h [-1, -2] [2, 1] (by simp) (by simp) (by simp) [n, 1, 1] (by simp [insOnes]) ?_
  · refine this.congr fun i _ j hj => ?_
    obtain ⟨k, l, p, _, _, _, rfl⟩ := valid3 hj
    simp [dropAt]
  · intro j hj
    obtain ⟨k, l, p, hk, _, _, rfl⟩ := valid3 hj
    simpa [dropAt] using valid1' hk

theorem Te.ex3 {v} (h : Te a s n m r v) :
    EQu (expandDims a [-3]) s n 1 m r fun i k _ p o => v i k p o := by
  have := Ev.expand h [-3] [1] (by simp) (by simp) (by simp) [n, 1, m, r] (by simp [insOnes]) ?_
  · refine this.congr fun i _ j hj => ?_
    obtain ⟨k, l, p, o, _, _, _, _, rfl⟩ := valid4 hj
    simp [dropAt]
  · intro j hj
    obtain ⟨k, l, p, o, hk, _, hp, ho, rfl⟩ := valid4 hj
    simpa [dropAt] using valid3' hk hp ho

theorem Te.ex4 {v} (h : Te a s n m r v) :
    EQu (expandDims a [-4]) s 1 n m r fun i _ l p o => v i l p o := by
  have := Ev.expand h [-4] [0] (by simp) (by simp) (by simp) [1, n, m, r] (by simp [insOnes]) ?_
  · refine this.congr fun i _ j hj => ?_
    obtain ⟨k, l, p, o, _, _, _, _, rfl⟩ := valid4 hj
    simp [dropAt]
  · intro j hj
    obtain ⟨k, l, p, o, _, hl, hp, ho, rfl⟩ := valid4 hj
    simpa [dropAt] using valid3' hl hp ho

theorem Ma.ex34 {v} (h : Ma a s n m v) :
    EQu (expandDims a [-3, -4]) s 1 1 n m fun i _ _ p o => v i p o := by
  have := Ev.expand h [-3, -4] [1, 0] (by simp) (by simp) (by simp) [1, 1, n, m] (by simp [insOnes]) ?_
  · refine this.congr fun i _ j hj => ?_
    obtain ⟨k, l, p, o, _, _, _, _, rfl⟩ := valid4 hj
    simp [dropAt]
  · intro j hj
    obtain ⟨k, l, p, o, _, _, hp, ho, rfl⟩ := valid4 hj
    simpa [dropAt] using valid2' hp ho

theorem Ma.op1 {v w} (ha : Ma a s n m v) (hb : Ma b s 1 1 w) :
    EMa (Arr.map2 f a b) s n m fun i k l => f (v i k l) (w i 0 0) := by
  refine Ev.congr (Ev.map2 [false, false] [true, true] [n, m] ha hb) fun i _ j hj => ?_
  obtain ⟨k, l, _, _, rfl⟩ := valid2 hj
  simp [clip]

theorem Ma.op21 {v w} (ha : Ma a s 1 m v) (hb : Ma b s n 1 w) :
    EMa (Arr.map2 f a b) s n m fun i k l => f (v i 0 l) (w i k 0) := by
  refine Ev.congr (Ev.map2 [true, false] [false, true] [n, m] ha hb) fun i _ j hj => ?_
  obtain ⟨k, l, _, _, rfl⟩ := valid2 hj
  simp [clip]

theorem Ma.opl1 {v w} (ha : Ma a s 1 m v) (hb : Ma b s n m w) :
    EMa (Arr.map2 f a b) s n m fun i k l => f (v i 0 l) (w i k l) := by
  refine Ev.congr (Ev.map2 [true, false] [false, false] [n, m] ha hb) fun i _ j hj => ?_
  obtain ⟨k, l, _, _, rfl⟩ := valid2 hj
  simp [clip]

theorem Ma.opLeft {v w} (ha : Ma a [] n m v) (hb : Ma b s n m w) :
    EMa (Arr.map2 f a b) s n m fun i k l => f (v [] k l) (w i k l) := by
  refine Ev.congr (Ev.map2_left [false, false] [false, false] [n, m] ha hb) fun i _ j hj => ?_
  obtain ⟨k, l, _, _, rfl⟩ := valid2 hj
  simp [clip]

theorem Te.op12 {v w} (ha : Te a s 1 m r v) (hb : Te b s n 1 r w) :
    ETe (Arr.map2 f a b) s n m r fun i k l p => f (v i 0 l p) (w i k 0 p) := by
  refine Ev.congr (Ev.map2 [true, false, false] [false, true, false] [n, m, r] ha hb) fun i _ j hj => ?_
  obtain ⟨k, l, p, _, _, _, rfl⟩ := valid3 hj
  simp [clip]

theorem Te.op21 {v w} (ha : Te a s n 1 r v) (hb : Te b s 1 m r w) :
    ETe (Arr.map2 f a b) s n m r fun i k l p => f (v i k 0 p) (w i 0 l p) := by
  refine Ev.congr (Ev.map2 [false, true, false] [true, false, false] [n, m, r] ha hb) fun i _ j hj => ?_
  obtain ⟨k, l, p, _, _, _, rfl⟩ := valid3 hj
  simp [clip]

theorem Te.op23 {v w} (ha : Te a s n 1 r v) (hb : Te b s n m 1 w) :
    ETe (Arr.map2 f a b) s n m r fun i k l p => f (v i k 0 p) (w i k l 0) := by
  refine Ev.congr (Ev.map2 [false, true, false] [false, false, true] [n, m, r] ha hb) fun i _ j hj => ?_
  obtain ⟨k, l, p, _, _, _, rfl⟩ := valid3 hj
  simp [clip]

theorem Te.opR {v w} (ha : Te a s n m r v) (hb : Te b s 1 m r w) :
    ETe (Arr.map2 f a b) s n m r fun i k l p => f (v i k l p) (w i 0 l p) := by
  refine Ev.congr (Ev.map2 [false, false, false] [true, false, false] [n, m, r] ha hb) fun i _ j hj => ?_
  obtain ⟨k, l, p, _, _, _, rfl⟩ := valid3 hj
  simp [clip]

theorem Te.opL {v w} (ha : Te a s 1 m r v) (hb : Te b s n m r w) :
    ETe (Arr.map2 f a b) s n m r fun i k l p => f (v i 0 l p) (w i k l p) := by
  refine Ev.congr (Ev.map2 [true, false, false] [false, false, false] [n, m, r] ha hb) fun i _ j hj => ?_
  obtain ⟨k, l, p, _, _, _, rfl⟩ := valid3 hj
  simp [clip]

theorem Te.opLeft {v w} (ha : Te a [] 1 m r v) (hb : Te b s n m r w) :
    ETe (Arr.map2 f a b) s n m r fun i k l p => f (v [] 0 l p) (w i k l p) := by
  refine Ev.congr (Ev.map2_left [true, false, false] [false, false, false] [n, m, r] ha hb) fun i _ j hj => ?_
  obtain ⟨k, l, p, _, _, _, rfl⟩ := valid3 hj
  simp [clip]

theorem Te.opC {v w} (ha : Te a s n m r v) (hb : Te b s n 1 1 w) :
    ETe (Arr.map2 f a b) s n m r fun i k l p => f (v i k l p) (w i k 0 0) := by
  refine Ev.congr (Ev.map2 [false, false, false] [false, true, true] [n, m, r] ha hb) fun i _ j hj => ?_
  obtain ⟨k, l, p, _, _, _, rfl⟩ := valid3 hj
  simp [clip]

theorem Qu.op21 {v w} (ha : Qu a s n 1 r q v) (hb : Qu b s 1 m r q w) :
    EQu (Arr.map2 f a b) s n m r q fun i k l p o => f (v i k 0 p o) (w i 0 l p o) := by
  refine Ev.congr (Ev.map2 [false, true, false, false] [true, false, false, false] [n, m, r, q] ha hb) fun i _ j hj => ?_
  obtain ⟨k, l, p, o, _, _, _, _, rfl⟩ := valid4 hj
  simp [clip]

theorem Qu.opL {v w} (ha : Qu a s 1 1 r q v) (hb : Qu b s n m r q w) :
    EQu (Arr.map2 f a b) s n m r q fun i k l p o => f (v i 0 0 p o) (w i k l p o) := by
  refine Ev.congr (Ev.map2 [true, true, false, false] [false, false, false, false] [n, m, r, q] ha hb) fun i _ j hj => ?_
  obtain ⟨k, l, p, o, _, _, _, _, rfl⟩ := valid4 hj
  simp [clip]

theorem Qu.opLeft {v w} (ha : Qu a [] 1 1 r q v) (hb : Qu b s n m r q w) :
    EQu (Arr.map2 f a b) s n m r q fun i k l p o => f (v [] 0 0 p o) (w i k l p o) := by
  refine Ev.congr (Ev.map2_left [true, true, false, false] [false, false, false, false] [n, m, r, q] ha hb) fun i _ j hj => ?_
  obtain ⟨k, l, p, o, _, _, _, _, rfl⟩ := valid4 hj
  simp [clip]


/-! ### reductions -/

section
variable {a b : Arr XF} {f : XF → XF → XF}

theorem Ve.inplace {v w} (ha : Ve a s n v) (hb : Ve b s n w) :
    EVe (inplace f a b) s n fun i k => f (v i k) (w i k) := Ev.inplace_same ha hb

theorem Ma.inplace {v w} (ha : Ma a s n m v) (hb : Ma b s n m w) :
    EMa (inplace f a b) s n m fun i k l => f (v i k l) (w i k l) := Ev.inplace_same ha hb

theorem Ma.mean2 {v} (ha : Ma a s n m v) :
    ESc (meanLast2 a) s fun i =>
      ((List.range n).map fun k => ((List.range m).map (v i k)).sum).sum / ((n * m : ℕ) : XF) := by
  refine Ev.congr (Ev.mean2 [] n m ha) fun i _ j hj => ?_
  cases hj; simp

theorem Ma.roll {v} (ha : Ma a s n m v) (sh : ℕ) :
    EMa (Np.roll a sh (-2)) s n m fun i k l => v i ((k + (n - sh % n)) % n) l := by
  refine Ev.congr (Ev.rolled [] n [m] ha sh) fun i _ j hj => ?_
  obtain ⟨k, l, _, _, rfl⟩ := valid2 hj
  simp

theorem Te.sum3 {v} (ha : Te a s n m r v) :
    EMa (sumAxis a (-3)) s m r fun i k l => ((List.range n).map fun p => v i p k l).sum := by
  refine Ev.congr (Ev.sum [] n [m, r] ha) fun i _ j hj => ?_
  obtain ⟨k, l, _, _, rfl⟩ := valid2 hj
  simp

theorem Te.sum2 {v} (ha : Te a s n m r v) :
    EVe (sumLast2 a) s n fun i k =>
      ((List.range m).map fun l => ((List.range r).map (v i k l)).sum).sum := by
  refine Ev.congr (Ev.sum2 [n] m r ha) fun i _ j hj => ?_
  obtain ⟨k, _, rfl⟩ := valid1 hj
  simp

theorem Qu.sum2 {v} (ha : Qu a s n m r q v) :
    EMa (sumLast2 a) s n m fun i k l =>
      ((List.range r).map fun p => ((List.range q).map (v i k l p)).sum).sum := by
  refine Ev.congr (Ev.sum2 [n, m] r q ha) fun i _ j hj => ?_
  obtain ⟨k, l, _, _, rfl⟩ := valid2 hj
  simp

theorem sqrt_eq_vnorm (g : ℕ → XF) (n : ℕ) :
    XF.sqrt ((List.range n).map fun k => g k ^ 2).sum = vnorm ((List.range n).map g) := by
  unfold vnorm
  rw [List.map_map]
  congr 2
  exact List.map_congr_left fun k _ => pow_two _

theorem Ve.norm {v} (ha : Ve a s n v) :
    ESc (normLast a) s fun i => vnorm ((List.range n).map (v i)) := by
  refine Ev.congr (Ev.norm [] n ha) fun i _ j hj => ?_
  cases hj
  simp only [← sqrt_eq_vnorm]
  simp

theorem Ma.norm {v} (ha : Ma a s n m v) :
    EVe (normLast a) s n fun i k => vnorm ((List.range m).map (v i k)) := by
  refine Ev.congr (Ev.norm [n] m ha) fun i _ j hj => ?_
  obtain ⟨k, _, rfl⟩ := valid1 hj
  simp only [← sqrt_eq_vnorm]
  simp

theorem Te.norm {v} (ha : Te a s n m r v) :
    EMa (normLast a) s n m fun i k l => vnorm ((List.range r).map (v i k l)) := by
  refine Ev.congr (Ev.norm [n, m] r ha) fun i _ j hj => ?_
  obtain ⟨k, l, _, _, rfl⟩ := valid2 hj
  simp only [← sqrt_eq_vnorm]
  simp

end

end Np
end Verif
