import Verif.Model.TorchArr
import Verif.Spec.ExpandDims
import Verif.Props.DiscreteArr
import Mathlib.Data.Finset.Card

/-!
# Property C120: `expand_dims` of the torch backend
-/

noncomputable section

open scoped Classical

namespace Verif

open Spec Arr

variable {α : Type}

/-- `keepAt` from position `k` on -/
def keepFrom (pos : ℕ → Prop) (k : ℕ) (l : List ℕ) : List ℕ := ((l.zipIdx k).filter fun q => ¬ pos q.2).map Prod.fst

theorem keepFrom_nil (pos : ℕ → Prop) (k : ℕ) : keepFrom pos k [] = [] := rfl

theorem keepFrom_cons (pos : ℕ → Prop) (k j : ℕ) (l : List ℕ) :
    keepFrom pos k (j :: l) = if pos k then keepFrom pos (k + 1) l else j :: keepFrom pos (k + 1) l := by
  unfold keepFrom
  rw [List.zipIdx_cons, List.filter_cons]
  by_cases h : pos k <;> simp [h]

/-- the number of positions `k, …, k+n-1` that are not in `pos` -/
def freeCount (pos : ℕ → Prop) : ℕ → ℕ → ℕ
  | _, 0 => 0
  | k, n + 1 => (if pos k then 0 else 1) + freeCount pos (k + 1) n

theorem newShape_succ (axes : List ℤ) (k n : ℕ) (l : List ℕ) :
    Torch.newShape axes k (n + 1) l = if (k : ℤ) ∈ axes then (Torch.newShape axes (k + 1) n l).map (1 :: ·)
      else match l with
        | [] => .error .stopIteration
        | d :: l => (Torch.newShape axes (k + 1) n l).map (d :: ·) := by
  cases l <;> rfl

theorem newShape_short {axes : List ℤ} {pos : ℕ → Prop} (hp : ∀ p : ℕ, (p : ℤ) ∈ axes ↔ pos p) (n : ℕ) :
    ∀ (k : ℕ) (l : List ℕ), l.length < freeCount pos k n → Torch.newShape axes k n l = .error .stopIteration := by
  induction n with
  | zero => intro k l h; simp [freeCount] at h
  | succ n ih =>
    intro k l h
    rw [freeCount] at h
    rw [newShape_succ]
    by_cases hk : pos k
    · rw [if_pos ((hp k).2 hk), ih (k + 1) l (by simpa [hk] using h)]; rfl
    · rw [if_neg (fun h => hk ((hp k).1 h))]
      rcases l with _ | ⟨d, l⟩
      · rfl
      · simp only
        rw [ih (k + 1) l (by simp [hk] at h; omega)]; rfl

theorem newShape_long {axes : List ℤ} {pos : ℕ → Prop} (hp : ∀ p : ℕ, (p : ℤ) ∈ axes ↔ pos p) (n : ℕ) :
    ∀ (k : ℕ) (l : List ℕ), l.length = freeCount pos k n →
      ∃ s, Torch.newShape axes k n l = .ok s ∧ s.length = n ∧ keepFrom pos k s = l ∧
        (∀ p, p < n → pos (k + p) → s[p]? = some 1) ∧
        ∀ P : List ℕ, (∀ p, p ∈ P ↔ pos p ∧ True) → Np.insOnes P k n l = s := by
  induction n with
  | zero =>
    intro k l h
    have : l = [] := List.length_eq_zero_iff.1 (by simpa [freeCount] using h)
    subst this
    exact ⟨[], rfl, rfl, rfl, fun p hp => absurd hp (by omega), fun P _ => rfl⟩
  | succ n ih =>
    intro k l h
    rw [freeCount] at h
    by_cases hk : pos k
    · obtain ⟨s, h1, h2, h3, h4, h5⟩ := ih (k + 1) l (by simpa [hk] using h)
      refine ⟨1 :: s, ?_, by simp [h2], ?_, ?_, ?_⟩
      · rw [newShape_succ, if_pos ((hp k).2 hk), h1]; rfl
      · rw [keepFrom_cons, if_pos hk, h3]
      · intro p hpn hpp
        rcases p with _ | p
        · rfl
        · simpa using h4 p (by omega) (by rw [show k + 1 + p = k + (p + 1) by ring]; exact hpp)
      · intro P hP
        rw [Np.insOnes, if_pos ((hP k).2 ⟨hk, trivial⟩), h5 P hP]
    · rcases l with _ | ⟨d, l⟩
      · simp only [hk, if_false, List.length_nil] at h; omega
      obtain ⟨s, h1, h2, h3, h4, h5⟩ := ih (k + 1) l (by simp [hk] at h; omega)
      refine ⟨d :: s, ?_, by simp [h2], ?_, ?_, ?_⟩
      · rw [newShape_succ, if_neg (fun h => hk ((hp k).1 h))]
        simp only [h1]; rfl
      · rw [keepFrom_cons, if_neg hk, h3]
      · intro p hpn hpp
        rcases p with _ | p
        · exact absurd hpp hk
        · simpa using h4 p (by omega) (by rw [show k + 1 + p = k + (p + 1) by ring]; exact hpp)
      · intro P hP
        rw [Np.insOnes, if_neg (fun h => hk ((hP k).1 h).1)]
        simp only [List.headD_cons, List.tail_cons, h5 P hP]

theorem dropAt_keep {pos : ℕ → Prop} {P : List ℕ} (hP : ∀ p, p ∈ P ↔ pos p ∧ True) (l : List ℕ) :
    ∀ k, Np.dropAt P k l = keepFrom pos k l := by
  induction l with
  | nil => intro k; rfl
  | cons j l ih =>
    intro k
    rw [Np.dropAt, keepFrom_cons, ih]
    by_cases h : pos k
    · rw [if_pos h, if_pos ((hP k).2 ⟨h, trivial⟩)]
    · rw [if_neg h, if_neg (fun hh => h ((hP k).1 hh).1)]

theorem keep_ravel {pos : ℕ → Prop} {s i : List ℕ} (h : Valid s i) :
    ∀ k, (∀ p, p < s.length → pos (k + p) → s[p]? = some 1) →
      s.prod = (keepFrom pos k s).prod ∧ Valid (keepFrom pos k s) (keepFrom pos k i) ∧
      ravel s i = ravel (keepFrom pos k s) (keepFrom pos k i) := by
  induction h with
  | nil => intro k _; exact ⟨rfl, List.Forall₂.nil, rfl⟩
  | @cons j d i s hj ht ih =>
    intro k h1
    obtain ⟨a, b, c⟩ := ih (k + 1) (fun p hp hpp => by
      have := h1 (p + 1) (by simpa using hp) (by rwa [show k + (p + 1) = k + 1 + p by ring])
      simpa using this)
    rw [keepFrom_cons, keepFrom_cons]
    by_cases hk : pos k
    · have hd : d = 1 := by simpa using h1 0 (by simp) hk
      subst hd
      have hj0 : j = 0 := by omega
      subst hj0
      simp only [hk, if_true, ravel, List.prod_cons, one_mul, zero_mul, zero_add]
      exact ⟨a, b, c⟩
    · simp only [hk, if_false, ravel, List.prod_cons]
      exact ⟨by rw [a], List.Forall₂.cons hj b, by rw [a, c]⟩

theorem keep_prod {pos : ℕ → Prop} (s : List ℕ) :
    ∀ k, (∀ p, p < s.length → pos (k + p) → s[p]? = some 1) → s.prod = (keepFrom pos k s).prod := by
  induction s with
  | nil => intro k _; rfl
  | cons d s ih =>
    intro k h1
    have a := ih (k + 1) (fun p hp hpp => by
      have := h1 (p + 1) (by simpa using hp) (by rwa [show k + (p + 1) = k + 1 + p by ring])
      simpa using this)
    rw [keepFrom_cons]
    by_cases hk : pos k
    · have hd : d = 1 := by simpa using h1 0 (by simp) hk
      subst hd
      simp only [hk, if_true, List.prod_cons, one_mul, a]
    · simp only [hk, if_false, List.prod_cons, a]

theorem freeCount_card (pos : ℕ → Prop) (n : ℕ) :
    ∀ k, freeCount pos k n + ((Finset.range n).filter fun p => pos (k + p)).card = n := by
  induction n with
  | zero => intro k; simp [freeCount]
  | succ n ih =>
    intro k
    have := ih (k + 1)
    rw [freeCount, Finset.card_filter, Finset.sum_range_succ']
    rw [Finset.card_filter] at this
    have e : ∀ p, k + (p + 1) = k + 1 + p := fun p => by ring
    have e2 : (∑ i ∈ Finset.range n, if pos (k + (i + 1)) then 1 else 0)
        = ∑ i ∈ Finset.range n, if pos (k + 1 + i) then 1 else 0 :=
      Finset.sum_congr rfl fun p _ => by rw [e p]
    rw [e2, show k + 0 = k from rfl]
    by_cases hk : pos k
    · rw [if_pos hk, if_pos hk]; omega
    · rw [if_neg hk, if_neg hk]; omega

theorem normAxes_eq (out : ℕ) (axes : List ℤ) : Torch.normAxes out axes = axes.map (Np.normAxis out) := by
  unfold Torch.normAxes Np.normAxis
  refine List.map_congr_left fun a _ => ?_
  simp only [add_comm]

theorem names_iff {n : ℕ} {a : ℤ} {p : ℕ} (hp : p < n) : NamesAxis n a p ↔ Np.normAxis n a = p := by
  unfold NamesAxis Np.normAxis
  split_ifs <;> omega

theorem axesOk_iff (n : ℕ) (axes : List ℤ) :
    AxesOk n axes ↔ (∀ q ∈ axes.map (Np.normAxis n), 0 ≤ q ∧ q < n) ∧ (axes.map (Np.normAxis n)).Nodup := by
  have hv : ∀ a : ℤ, (∃ p, NamesAxis n a p) ↔ 0 ≤ Np.normAxis n a ∧ Np.normAxis n a < n := by
    intro a
    constructor
    · rintro ⟨p, hp⟩
      have := (names_iff hp.1).1 hp
      have := hp.1
      omega
    · rintro ⟨h1, h2⟩
      have h3 : (Np.normAxis n a).toNat < n := by omega
      exact ⟨_, (names_iff h3).2 (by omega)⟩
  unfold AxesOk
  rw [List.Nodup, List.pairwise_map]
  simp only [List.forall_mem_map]
  constructor
  · rintro ⟨h1, h2⟩
    refine ⟨fun a ha => (hv a).1 (h1 a ha), ?_⟩
    refine h2.imp_of_mem fun {a b} ha hb hab he => hab ?_
    obtain ⟨p, hp⟩ := h1 a ha
    exact ⟨p, hp, (names_iff hp.1).2 (he ▸ (names_iff hp.1).1 hp)⟩
  · rintro ⟨h1, h2⟩
    refine ⟨fun a ha => (hv a).2 (h1 a ha), h2.imp fun {a b} hab => ?_⟩
    rintro ⟨p, hp, hq⟩
    exact hab (((names_iff hp.1).1 hp).trans ((names_iff hq.1).1 hq).symm)

theorem card_axes {n : ℕ} {P : List ℤ} :
    ((Finset.range n).filter fun p : ℕ => (p : ℤ) ∈ P).card ≤ P.length ∧
    (((Finset.range n).filter fun p : ℕ => (p : ℤ) ∈ P).card = P.length ↔
      (∀ q ∈ P, 0 ≤ q ∧ q < n) ∧ P.Nodup) := by
  set S := (Finset.range n).filter fun p : ℕ => (p : ℤ) ∈ P with hS
  have hinj : Function.Injective (fun p : ℕ => (p : ℤ)) := fun a b h => by simpa using h
  have hc : (S.image fun p : ℕ => (p : ℤ)).card = S.card := Finset.card_image_of_injective _ hinj
  have hsub : (S.image fun p : ℕ => (p : ℤ)) ⊆ P.toFinset := by
    intro q hq
    obtain ⟨p, hp, rfl⟩ := Finset.mem_image.1 hq
    exact List.mem_toFinset.2 (Finset.mem_filter.1 hp).2
  have h1 := Finset.card_le_card hsub
  have h2 := List.toFinset_card_le P
  refine ⟨by omega, fun h => ?_, ?_⟩
  · have e := Finset.eq_of_subset_of_card_le hsub (by omega)
    refine ⟨fun q hq => ?_, ?_⟩
    · have : q ∈ S.image fun p : ℕ => (p : ℤ) := e ▸ List.mem_toFinset.2 hq
      obtain ⟨p, hp, rfl⟩ := Finset.mem_image.1 this
      have := Finset.mem_range.1 (Finset.mem_filter.1 hp).1
      omega
    · exact Multiset.coe_nodup.1 ((Multiset.toFinset_card_eq_card_iff_nodup (m := (P : Multiset ℤ))).1
        (by simpa using (by omega : P.toFinset.card = P.length)))
  · rintro ⟨hv, hn⟩
    rw [← List.toFinset_card_of_nodup hn, ← hc]
    congr 1
    refine Finset.Subset.antisymm hsub fun q hq => ?_
    have hq' := List.mem_toFinset.1 hq
    have := hv q hq'
    refine Finset.mem_image.2 ⟨q.toNat, Finset.mem_filter.2 ⟨Finset.mem_range.2 (by omega), ?_⟩, by simp; omega⟩
    rwa [Int.toNat_of_nonneg this.1]

/-- C120: with axis numbers that name different positions of the result, the torch `expand_dims` returns the array
with new axes of length one there, and it is the array numpy's `expand_dims` returns. -/
theorem C120_ok (x : Arr α) {axes : List ℤ} (h : AxesOk (x.ndim + axes.length) axes) :
    ∃ r r' : Arr α, Torch.expandDims x axes = .ok r ∧ Np.expandDims x axes = .ok r' ∧ Same r r' ∧
      r.ndim = x.ndim + axes.length ∧ IsExpand x (fun p => ∃ a ∈ axes, NamesAxis (x.ndim + axes.length) a p) r := by
  set n := x.ndim + axes.length with hn
  set P := axes.map (Np.normAxis n) with hP
  set pos : ℕ → Prop := fun p => (p : ℤ) ∈ P with hpos
  obtain ⟨hv, hnd⟩ := (axesOk_iff n axes).1 h
  have hc := freeCount_card pos n 0
  have hk := (card_axes (n := n) (P := P)).2.2 ⟨hv, hnd⟩
  simp only [Nat.zero_add] at hc
  have hl : x.shape.length = freeCount pos 0 n := by
    have : P.length = axes.length := by simp [hP]
    have : x.ndim = x.shape.length := rfl
    simp only [hpos] at hc ⊢
    omega
  obtain ⟨s, h1, h2, h3, h4, h5⟩ := newShape_long (axes := P) (pos := pos) (fun p => Iff.rfl) n 0 x.shape hl
  have hmem : ∀ p, p ∈ P.map Int.toNat ↔ pos p ∧ True := by
    intro p
    rw [and_true, List.mem_map]
    constructor
    · rintro ⟨q, hq, rfl⟩
      simp only [hpos, Int.toNat_of_nonneg (hv q hq).1, hq]
    · intro hp; exact ⟨p, hp, by simp⟩
  have h4' : ∀ p, p < s.length → pos (0 + p) → s[p]? = some 1 := fun p hp => h4 p (h2 ▸ hp)
  have hprod : s.prod = x.shape.prod := by rw [keep_prod s 0 h4', h3]
  have hget : ∀ i, Valid s i → unravel x.shape (ravel s i) = keepFrom pos 0 i := by
    intro i hi
    obtain ⟨-, b, c⟩ := keep_ravel hi 0 h4'
    rw [c, ← h3, unravel_ravel b]
  have hpe : (fun p => ∃ a ∈ axes, NamesAxis n a p) = fun p => p < n ∧ pos p := by
    funext p
    refine propext ⟨?_, ?_⟩
    · rintro ⟨a, ha, hap⟩
      exact ⟨hap.1, List.mem_map.2 ⟨a, ha, (names_iff hap.1).1 hap⟩⟩
    · rintro ⟨hp, hpp⟩
      obtain ⟨a, ha, hap⟩ := List.mem_map.1 hpp
      exact ⟨a, ha, (names_iff hp).2 hap⟩
  have hke : (fun p => p < n ∧ pos p) = pos := by
    funext p
    refine propext ⟨fun h => h.2, fun h => ⟨?_, h⟩⟩
    have := hv _ h
    omega
  refine ⟨⟨s, fun i => x.get (unravel x.shape (ravel s i))⟩, ⟨s, fun i => x.get (Np.dropAt (P.map Int.toNat) 0 i)⟩,
    ?_, ?_, ⟨rfl, fun i hi => ?_⟩, h2, ?_⟩
  · unfold Torch.expandDims
    simp only [normAxes_eq, Nat.add_comm axes.length, ← hn, ← hP, h1]
    show Torch.reshape x s = _
    unfold Torch.reshape
    rw [if_pos hprod]
  · unfold Np.expandDims
    simp only [← hn, ← hP]
    rw [if_neg (by push Not; exact hv), if_neg (by simpa using hnd), h5 _ hmem]
  · simp only [hget i hi, dropAt_keep hmem]
  · rw [hpe, hke]
    refine ⟨h3, fun p hp hpp => h4' p hp (by rwa [Nat.zero_add]), fun i hi => ?_⟩
    simp only [hget i hi]
    rfl

/-- a matrix with a new first and a new last axis -/
example : AxesOk ((⟨[2, 3], fun i => i.sum⟩ : Arr ℕ).ndim + [0, (-1 : ℤ)].length) [0, -1] := by
  refine ⟨?_, ?_⟩
  · intro a ha
    simp only [List.mem_cons, List.not_mem_nil, or_false] at ha
    rcases ha with rfl | rfl
    · exact ⟨0, by simp [NamesAxis, Arr.ndim]⟩
    · exact ⟨3, by simp [NamesAxis, Arr.ndim]⟩
  · simp only [List.pairwise_cons, List.mem_cons, List.not_mem_nil, or_false, forall_eq, List.Pairwise.nil, and_true,
      forall_false, IsEmpty.forall_iff, implies_true]
    rintro ⟨p, hp, hq⟩
    simp [NamesAxis, Arr.ndim] at hp hq
    omega

/-- C120: with any other axis numbers the torch `expand_dims` raises `StopIteration` and numpy's raises
`AxisError` or `ValueError`; neither returns an array. -/
theorem C120_error (x : Arr α) {axes : List ℤ} (h : ¬ AxesOk (x.ndim + axes.length) axes) :
    Torch.expandDims x axes = .error .stopIteration ∧
    (Np.expandDims x axes = .error .axisError ∨ Np.expandDims x axes = .error .valueError) := by
  set n := x.ndim + axes.length with hn
  set P := axes.map (Np.normAxis n) with hP
  set pos : ℕ → Prop := fun p => (p : ℤ) ∈ P with hpos
  have hc := freeCount_card pos n 0
  have hk := card_axes (n := n) (P := P)
  simp only [Nat.zero_add] at hc
  rw [axesOk_iff] at h
  have hne : ¬ ((Finset.range n).filter fun p : ℕ => (p : ℤ) ∈ P).card = P.length := fun e => h (hk.2.1 e)
  constructor
  · have hl : x.shape.length < freeCount pos 0 n := by
      have : P.length = axes.length := by simp [hP]
      have : x.ndim = x.shape.length := rfl
      have := hk.1
      simp only [hpos] at hc ⊢
      omega
    unfold Torch.expandDims
    simp only [normAxes_eq, Nat.add_comm axes.length, ← hn, ← hP,
      newShape_short (axes := P) (pos := pos) (fun p => Iff.rfl) n 0 x.shape hl]
    rfl
  · unfold Np.expandDims
    simp only [← hn, ← hP]
    by_cases h1 : ∃ p ∈ P, p < 0 ∨ (n : ℤ) ≤ p
    · rw [if_pos h1]; exact Or.inl rfl
    · rw [if_neg h1]
      by_cases h2 : P.Nodup
      · exact absurd ⟨by push Not at h1; exact h1, h2⟩ h
      · rw [if_pos h2]; exact Or.inr rfl

/-- the same axis named twice -/
example : ¬ AxesOk ((⟨[2], fun i => i.sum⟩ : Arr ℕ).ndim + [0, (-3 : ℤ)].length) [0, -3] := by
  rintro ⟨-, h⟩
  simp only [List.pairwise_cons, List.mem_singleton, forall_eq] at h
  exact h.1 ⟨0, by simp [NamesAxis, Arr.ndim]⟩

end Verif
