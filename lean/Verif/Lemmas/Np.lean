import Verif.Model.Np
import Verif.Lemmas.Bcast

/-!
# Reasoning about broadcasting code

`IsB a s t g`: the array `a` has the batch shape `s` followed by the shape `t`, and its entry at `i ++ j`
is `g i j`.  `Ev x s t g`: the computation `x` returns such an array.
-/

noncomputable section

open scoped Classical

namespace Verif

open XF Py

namespace Np

variable {α β : Type}

structure IsB (a : Arr α) (s t : List ℕ) (g : List ℕ → List ℕ → α) : Prop where
  shape : a.shape = s ++ t
  get : ∀ i, Arr.Valid s i → ∀ j, Arr.Valid t j → a.get (i ++ j) = g i j

def Ev (x : Except Err (Arr α)) (s t : List ℕ) (g : List ℕ → List ℕ → α) : Prop :=
  ∃ a, x = .ok a ∧ IsB a s t g

theorem Ev.ok {a : Arr α} {s t g} (h : IsB a s t g) : Ev (.ok a) s t g := ⟨a, rfl, h⟩

theorem Ev.bind {x : Except Err (Arr α)} {s t g} {k : Arr α → Except Err (Arr β)} {s' t' g'}
    (h : Ev x s t g) (hk : ∀ a, IsB a s t g → Ev (k a) s' t' g') : Ev (x >>= k) s' t' g' := by
  obtain ⟨a, rfl, ha⟩ := h
  exact hk a ha

theorem IsB.congr {a : Arr α} {s t g g'} (h : IsB a s t g)
    (e : ∀ i, Arr.Valid s i → ∀ j, Arr.Valid t j → g i j = g' i j) : IsB a s t g' :=
  ⟨h.shape, fun i hi j hj => (h.get i hi j hj).trans (e i hi j hj)⟩

theorem IsB.self {a : Arr α} {s t : List ℕ} (h : a.shape = s ++ t) :
    IsB a s t fun i j => a.get (i ++ j) := ⟨h, fun _ _ _ _ => rfl⟩

theorem IsB.map {a : Arr α} {s t g} (h : IsB a s t g) (f : α → β) :
    IsB (a.map f) s t fun i j => f (g i j) :=
  ⟨h.shape, fun i hi j hj => congrArg f (h.get i hi j hj)⟩

theorem valid_append {s t i j : List ℕ} (hi : Arr.Valid s i) (hj : Arr.Valid t j) :
    Arr.Valid (s ++ t) (i ++ j) := List.rel_append hi hj

/-! ### broadcasting -/

/-- the shape with the marked axes of length one -/
def msk : List Bool → List ℕ → List ℕ := List.zipWith fun m n => if m then 1 else n

/-- the index with zeros at the marked axes -/
def clip : List Bool → List ℕ → List ℕ := List.zipWith fun m n => if m then 0 else n

theorem clip_valid {m : List Bool} {u j : List ℕ} (hm : m.length = u.length) (hj : Arr.Valid u j) :
    Arr.Valid (msk m u) (clip m j) := by
  induction hj generalizing m with
  | nil => cases m <;> exact List.Forall₂.nil
  | cons h _ ih =>
    cases m with
    | nil => simp at hm
    | cons b m =>
      refine List.Forall₂.cons ?_ (ih (by simpa using hm))
      cases b <;> simp [h]

/-- the masks do not both mark an axis -/
def Cover (m m' : List Bool) : Prop := List.Forall₂ (fun a b => ¬ (a = true ∧ b = true)) m m'

theorem bshapeR_append {t t' u : List ℕ} (h : Arr.bshapeR t t' = some u) (hl : t.length = t'.length)
    (s : List ℕ) : Arr.bshapeR (t ++ s) (t' ++ s) = some (u ++ s) := by
  induction t generalizing t' u with
  | nil =>
    cases t' with
    | nil =>
      simp only [Arr.bshapeR, Option.some.injEq] at h
      subst h
      simpa using Arr.bshapeR_self s
    | cons => simp at hl
  | cons a t ih =>
    cases t' with
    | nil => simp at hl
    | cons b t' =>
      simp only [List.cons_append, Arr.bshapeR] at h ⊢
      split_ifs at h ⊢ <;>
      · simp only [Option.map_eq_some_iff] at h
        obtain ⟨v, hv, rfl⟩ := h
        rw [ih hv (by simpa using hl)]
        rfl

theorem bshapeR_append_left {t t' u : List ℕ} (h : Arr.bshapeR t t' = some u)
    (hl : t.length = t'.length) (s : List ℕ) : Arr.bshapeR (t ++ s) t' = some (u ++ s) := by
  induction t generalizing t' u with
  | nil =>
    cases t' with
    | nil =>
      simp only [Arr.bshapeR, Option.some.injEq] at h
      subst h
      simpa using Arr.bshapeR_nil_right s
    | cons => simp at hl
  | cons a t ih =>
    cases t' with
    | nil => simp at hl
    | cons b t' =>
      simp only [List.cons_append, Arr.bshapeR] at h ⊢
      split_ifs at h ⊢ <;>
      · simp only [Option.map_eq_some_iff] at h
        obtain ⟨v, hv, rfl⟩ := h
        rw [ih hv (by simpa using hl)]
        rfl

theorem bshapeR_append_right {t t' u : List ℕ} (h : Arr.bshapeR t t' = some u)
    (hl : t.length = t'.length) (s : List ℕ) : Arr.bshapeR t (t' ++ s) = some (u ++ s) := by
  induction t generalizing t' u with
  | nil =>
    cases t' with
    | nil =>
      simp only [Arr.bshapeR, Option.some.injEq] at h
      subst h
      simp [Arr.bshapeR]
    | cons => simp at hl
  | cons a t ih =>
    cases t' with
    | nil => simp at hl
    | cons b t' =>
      simp only [List.cons_append, Arr.bshapeR] at h ⊢
      split_ifs at h ⊢ <;>
      · simp only [Option.map_eq_some_iff] at h
        obtain ⟨v, hv, rfl⟩ := h
        rw [ih hv (by simpa using hl)]
        rfl

theorem bshapeR_mk {m m' : List Bool} {u : List ℕ} (hm : m.length = u.length)
    (hm' : m'.length = u.length) (hc : Cover m m') : Arr.bshapeR (msk m u) (msk m' u) = some u := by
  induction hc generalizing u with
  | nil =>
    have : u = [] := by simpa [eq_comm] using hm
    subst this; rfl
  | @cons a b m m' hab _ ih =>
    cases u with
    | nil => simp at hm
    | cons n u =>
      have := ih (u := u) (by simpa using hm) (by simpa using hm')
      unfold msk at this ⊢
      cases a <;> cases b <;> simp only [List.zipWith_cons_cons, Arr.bshapeR, this] <;> simp_all

theorem mk_reverse {m : List Bool} {u : List ℕ} (hm : m.length = u.length) :
    (msk m u).reverse = msk m.reverse u.reverse := by
  unfold msk
  rw [List.reverse_zipWith hm]

theorem Cover.reverse {m m' : List Bool} (h : Cover m m') : Cover m.reverse m'.reverse :=
  List.rel_reverse h

theorem bshape_mk {m m' : List Bool} {u : List ℕ} (hm : m.length = u.length)
    (hm' : m'.length = u.length) (hc : Cover m m') (s : List ℕ) :
    Arr.bshape (s ++ msk m u) (s ++ msk m' u) = some (s ++ u) ∧
      Arr.bshape (s ++ msk m u) (msk m' u) = some (s ++ u) ∧
      Arr.bshape (msk m u) (s ++ msk m' u) = some (s ++ u) := by
  have h : Arr.bshapeR (msk m u).reverse (msk m' u).reverse = some u.reverse := by
    rw [mk_reverse hm, mk_reverse hm']
    exact bshapeR_mk (by simpa using hm) (by simpa using hm') hc.reverse
  have hl : (msk m u).reverse.length = (msk m' u).reverse.length := by simp [msk, hm, hm']
  refine ⟨?_, ?_, ?_⟩
  · simp only [Arr.bshape, List.reverse_append]
    rw [bshapeR_append h hl]; simp
  · simp only [Arr.bshape, List.reverse_append]
    rw [bshapeR_append_left h hl]; simp
  · simp only [Arr.bshape, List.reverse_append]
    rw [bshapeR_append_right h hl]; simp

theorem zipWith_one_self {s i : List ℕ} (h : Arr.Valid s i) :
    List.zipWith (fun n j => if n = 1 then 0 else j) s i = i := by
  induction h with
  | nil => rfl
  | cons h _ ih =>
    rename_i a b
    simp only [List.zipWith_cons_cons, ih]
    congr 1
    split
    · omega
    · rfl

theorem zipWith_one_mk {m : List Bool} {u j : List ℕ} (hm : m.length = u.length)
    (h : Arr.Valid u j) :
    List.zipWith (fun n j => if n = 1 then 0 else j) (msk m u) j = clip m j := by
  induction h generalizing m with
  | nil => cases m <;> rfl
  | cons h _ ih =>
    cases m with
    | nil => simp at hm
    | cons b m =>
      have := ih (m := m) (by simpa using hm)
      unfold msk clip at this ⊢
      simp only [List.zipWith_cons_cons, this]
      congr 1
      cases b
      · simp only [Bool.false_eq_true, if_false]
        split
        · omega
        · rfl
      · simp

theorem IsB.bget {a : Arr α} {s : List ℕ} {m : List Bool} {u : List ℕ} {g}
    (h : IsB a s (msk m u) g) (hm : m.length = u.length) {i j : List ℕ} (hi : Arr.Valid s i)
    (hj : Arr.Valid u j) : a.bget (i ++ j) = g i (clip m j) := by
  unfold Arr.bget
  have hlj : j.length = u.length := hj.length_eq
  have hli : i.length = s.length := hi.length_eq
  have e : (i ++ j).length - a.ndim = 0 := by
    simp [Arr.ndim, h.shape, msk, hm, hlj, hli]
  rw [e, List.drop_zero, h.shape, List.zipWith_append hli.symm, zipWith_one_self hi,
    zipWith_one_mk hm hj]
  exact h.get i hi _ (clip_valid hm hj)

theorem IsB.bget_nobatch {a : Arr α} {s : List ℕ} {m : List Bool} {u : List ℕ} {g}
    (h : IsB a [] (msk m u) g) (hm : m.length = u.length) {i j : List ℕ} (hi : Arr.Valid s i)
    (hj : Arr.Valid u j) : a.bget (i ++ j) = g [] (clip m j) := by
  unfold Arr.bget
  have hlj : j.length = u.length := hj.length_eq
  have e : (i ++ j).length - a.ndim = i.length := by
    simp [Arr.ndim, h.shape, msk, hm, hlj]
  rw [e, List.drop_left, h.shape, List.nil_append, zipWith_one_mk hm hj]
  exact h.get [] List.Forall₂.nil _ (clip_valid hm hj)

/-- a binary operation of two arrays with the same batch axes -/
theorem Ev.map2 (m m' : List Bool) (u : List ℕ) {f : α → α → β} {a b : Arr α} {s g g'}
    (ha : IsB a s (msk m u) g) (hb : IsB b s (msk m' u) g')
    (hm : m.length = u.length := by simp) (hm' : m'.length = u.length := by simp)
    (hc : Cover m m' := by simp [Cover]) :
    Ev (Arr.map2 f a b) s u fun i j => f (g i (clip m j)) (g' i (clip m' j)) := by
  refine ⟨_, by rw [Arr.map2, ha.shape, hb.shape, (bshape_mk hm hm' hc s).1], rfl, ?_⟩
  intro i hi j hj
  show f _ _ = _
  rw [ha.bget hm hi hj, hb.bget hm' hi hj]

/-- a binary operation whose second operand has no batch axes -/
theorem Ev.map2_right (m m' : List Bool) (u : List ℕ) {f : α → α → β} {a b : Arr α} {s g g'}
    (ha : IsB a s (msk m u) g) (hb : IsB b [] (msk m' u) g')
    (hm : m.length = u.length := by simp) (hm' : m'.length = u.length := by simp)
    (hc : Cover m m' := by simp [Cover]) :
    Ev (Arr.map2 f a b) s u fun i j => f (g i (clip m j)) (g' [] (clip m' j)) := by
  refine ⟨_, by rw [Arr.map2, ha.shape, hb.shape, List.nil_append, (bshape_mk hm hm' hc s).2.1], rfl, ?_⟩
  intro i hi j hj
  show f _ _ = _
  rw [ha.bget hm hi hj, hb.bget_nobatch hm' hi hj]

/-- a binary operation whose first operand has no batch axes -/
theorem Ev.map2_left (m m' : List Bool) (u : List ℕ) {f : α → α → β} {a b : Arr α} {s g g'}
    (ha : IsB a [] (msk m u) g) (hb : IsB b s (msk m' u) g')
    (hm : m.length = u.length := by simp) (hm' : m'.length = u.length := by simp)
    (hc : Cover m m' := by simp [Cover]) :
    Ev (Arr.map2 f a b) s u fun i j => f (g [] (clip m j)) (g' i (clip m' j)) := by
  refine ⟨_, by rw [Arr.map2, ha.shape, hb.shape, List.nil_append, (bshape_mk hm hm' hc s).2.2], rfl, ?_⟩
  intro i hi j hj
  show f _ _ = _
  rw [ha.bget_nobatch hm hi hj, hb.bget hm' hi hj]

theorem clip_false {t j : List ℕ} (h : Arr.Valid t j) :
    clip (t.map fun _ => false) j = j := by
  induction h with
  | nil => rfl
  | cons _ _ ih => unfold clip at ih ⊢; rw [List.map_cons, List.zipWith_cons_cons, ih]; rfl

theorem mk_false (t : List ℕ) : msk (t.map fun _ => false) t = t := by
  induction t with
  | nil => rfl
  | cons n t ih => unfold msk at ih ⊢; rw [List.map_cons, List.zipWith_cons_cons, ih]; rfl

/-- a binary operation of two arrays of the same shape -/
theorem Ev.map2_same {f : α → α → β} {a b : Arr α} {s t g g'} (ha : IsB a s t g)
    (hb : IsB b s t g') : Ev (Arr.map2 f a b) s t fun i j => f (g i j) (g' i j) := by
  obtain ⟨c, hc, h⟩ := Ev.map2 (f := f) (t.map fun _ => false) (t.map fun _ => false) t
    (by rw [mk_false]; exact ha) (by rw [mk_false]; exact hb) (by simp) (by simp)
    (by unfold Cover; induction t <;> simp_all)
  exact ⟨c, hc, h.congr fun i _ j hj => by rw [clip_false hj]⟩

theorem Ev.inplace_same {f : XF → XF → XF} {a b : Arr XF} {s t g g'} (ha : IsB a s t g)
    (hb : IsB b s t g') : Ev (inplace f a b) s t fun i j => f (g i j) (g' i j) := by
  obtain ⟨c, hc, h⟩ := Ev.map2_same (f := f) ha hb
  refine ⟨c, ?_, h⟩
  unfold inplace
  rw [hc]
  show (if c.shape = a.shape then (Except.ok c : Except Err (Arr XF)) else _) = _
  rw [if_pos (by rw [h.shape, ha.shape])]

/-! ### new axes -/

theorem insOnes_append (pos : List ℕ) (k : ℕ) (s : List ℕ) (n : ℕ) (t : List ℕ)
    (h : ∀ p ∈ pos, k + s.length ≤ p) :
    insOnes pos k (s.length + n) (s ++ t) = s ++ insOnes pos (k + s.length) n t := by
  induction s generalizing k with
  | nil => simp
  | cons a s ih =>
    have hk : k ∉ pos := fun hp => by have := h k hp; simp at this
    rw [List.length_cons, Nat.add_right_comm]
    simp only [List.cons_append, insOnes, if_neg hk, List.headD_cons, List.tail_cons]
    rw [ih (k + 1) (fun p hp => by have := h p hp; simp at this; omega)]
    rw [show k + 1 + s.length = k + (s.length + 1) by omega]

theorem dropAt_append (pos : List ℕ) (k : ℕ) (i j : List ℕ) (h : ∀ p ∈ pos, k + i.length ≤ p) :
    dropAt pos k (i ++ j) = i ++ dropAt pos (k + i.length) j := by
  induction i generalizing k with
  | nil => simp
  | cons a i ih =>
    have hk : k ∉ pos := fun hp => by have := h k hp; simp at this
    simp only [List.cons_append, dropAt, if_neg hk]
    rw [ih (k + 1) (fun p hp => by have := h p hp; simp at this; omega)]
    congr 3
    simp; omega

theorem insOnes_shift (d : ℕ) (pos : List ℕ) (k n : ℕ) (t : List ℕ) :
    insOnes (pos.map (· + d)) (k + d) n t = insOnes pos k n t := by
  induction n generalizing k t with
  | zero => rfl
  | succ n ih =>
    have e : k + d + 1 = k + 1 + d := by omega
    have hm : k + d ∈ pos.map (· + d) ↔ k ∈ pos := by
      simp
    simp only [insOnes, hm, e, ih]

theorem dropAt_shift (d : ℕ) (pos : List ℕ) (k : ℕ) (j : List ℕ) :
    dropAt (pos.map (· + d)) (k + d) j = dropAt pos k j := by
  induction j generalizing k with
  | nil => rfl
  | cons a j ih =>
    have e : k + d + 1 = k + 1 + d := by omega
    have hm : k + d ∈ pos.map (· + d) ↔ k ∈ pos := by simp
    simp only [dropAt, hm, e, ih]

/-- `expand_dims` with axes inside the tail; `pos` are their positions in the new tail -/
theorem Ev.expand {a : Arr α} {s t g} (ha : IsB a s t g) (axes : List ℤ) (pos : List ℕ)
    (hpos : axes.map (fun ax => (t.length + axes.length : ℤ) + ax) = pos.map (fun p : ℕ => (p : ℤ)))
    (hneg : ∀ ax ∈ axes, ax < 0) (hnd : pos.Nodup) (u : List ℕ)
    (hu : insOnes pos 0 (t.length + axes.length) t = u)
    (hv : ∀ j, Arr.Valid u j → Arr.Valid t (dropAt pos 0 j)) :
    Ev (expandDims a axes) s u fun i j => g i (dropAt pos 0 j) := by
  have hn : a.ndim = s.length + t.length := by simp [Arr.ndim, ha.shape]
  have e1 : axes.map (normAxis (a.ndim + axes.length))
      = (pos.map (· + s.length)).map fun p : ℕ => (p : ℤ) := by
    have : axes.map (normAxis (a.ndim + axes.length))
        = (axes.map fun ax => (t.length + axes.length : ℤ) + ax).map (· + (s.length : ℤ)) := by
      rw [List.map_map]
      apply List.map_congr_left
      intro ax hax
      simp only [normAxis, if_pos (hneg ax hax), hn, Function.comp]
      push_cast
      ring
    rw [this, hpos, List.map_map, List.map_map]
    apply List.map_congr_left
    intro p _
    simp
  have hlt : ∀ p ∈ pos, p < t.length + axes.length := by
    intro p hp
    have : (p : ℤ) ∈ axes.map (fun ax => (t.length + axes.length : ℤ) + ax) := by
      rw [hpos]; exact List.mem_map_of_mem hp
    obtain ⟨ax, hax, e⟩ := List.mem_map.1 this
    have := hneg ax hax
    omega
  refine ⟨⟨insOnes (pos.map (· + s.length)) 0 (a.ndim + axes.length) a.shape,
    fun i => a.get (dropAt (pos.map (· + s.length)) 0 i)⟩, ?_, ?_⟩
  · have e2 : ((pos.map (· + s.length)).map fun p : ℕ => (p : ℤ)).map Int.toNat
        = pos.map (· + s.length) := by
      conv_rhs => rw [← List.map_id (pos.map (· + s.length))]
      rw [List.map_map]
      apply List.map_congr_left
      intro p _
      simp
    unfold expandDims
    simp only [e1, e2]
    rw [if_neg, if_neg]
    · rintro h
      refine h ?_
      refine ((hnd.map ?_).map ?_)
      · intro x y h; simpa using h
      · intro x y h; simpa using h
    · rintro ⟨p, hp, h⟩
      simp only [List.map_map, List.mem_map, Function.comp] at hp
      obtain ⟨q, hq, rfl⟩ := hp
      have := hlt q hq
      rw [hn] at h
      push_cast at h
      omega
  · constructor
    · show insOnes _ 0 (a.ndim + axes.length) a.shape = _
      rw [hn, ha.shape, Nat.add_assoc, insOnes_append]
      · rw [insOnes_shift s.length pos 0, hu]
      · intro p hp
        obtain ⟨q, _, rfl⟩ := List.mem_map.1 hp
        omega
    · intro i hi j hj
      show a.get (dropAt _ 0 (i ++ j)) = _
      have hli : i.length = s.length := hi.length_eq
      rw [dropAt_append, hli, dropAt_shift s.length pos 0]
      · exact ha.get i hi _ (hv j hj)
      · intro p hp
        obtain ⟨q, _, rfl⟩ := List.mem_map.1 hp
        omega

/-! ### reductions -/

theorem valid_split {t1 t2 j : List ℕ} (h : Arr.Valid (t1 ++ t2) j) :
    ∃ j1 j2, j = j1 ++ j2 ∧ Arr.Valid t1 j1 ∧ Arr.Valid t2 j2 := by
  induction t1 generalizing j with
  | nil => exact ⟨[], j, rfl, List.Forall₂.nil, h⟩
  | cons n t1 ih =>
    cases h with
    | cons hk h =>
      obtain ⟨j1, j2, rfl, h1, h2⟩ := ih h
      exact ⟨_ :: j1, j2, rfl, List.Forall₂.cons hk h1, h2⟩

theorem insertIdx_append' (l l' : List ℕ) (k : ℕ) :
    (l ++ l').insertIdx l.length k = l ++ k :: l' := by
  induction l with
  | nil => simp
  | cons a l ih => simp [ih]

/-- the facts about an axis at a given place of the tail -/
theorem IsB.axis {a : Arr α} {s : List ℕ} (t1 : List ℕ) (n : ℕ) (t2 : List ℕ) {g}
    (ha : IsB a s (t1 ++ n :: t2) g) {ax : ℤ} (hax : ax = -((t2.length + 1 : ℕ) : ℤ)) :
    normAxis a.ndim ax = ((s.length + t1.length : ℕ) : ℤ) ∧
      ¬ (((s.length + t1.length : ℕ) : ℤ) < 0 ∨ (a.ndim : ℤ) ≤ ((s.length + t1.length : ℕ) : ℤ)) ∧
      a.shape.getD (s.length + t1.length) 0 = n ∧
      a.shape.eraseIdx (s.length + t1.length) = s ++ (t1 ++ t2) := by
  have hn : a.ndim = s.length + t1.length + 1 + t2.length := by
    simp [Arr.ndim, ha.shape]; omega
  have hs : a.shape = (s ++ t1) ++ n :: t2 := by rw [ha.shape, List.append_assoc]
  have hl : (s ++ t1).length = s.length + t1.length := by simp
  refine ⟨?_, ?_, ?_, ?_⟩
  · subst hax
    rw [normAxis, hn, if_pos (by omega)]; push_cast; ring
  · rw [hn]; push_cast; omega
  · rw [hs, List.getD_eq_getElem?_getD, ← hl, List.getElem?_append_right le_rfl]
    simp
  · rw [hs, ← hl, List.eraseIdx_append_of_length_le le_rfl]
    simp

theorem Ev.sum {a : Arr XF} {s : List ℕ} (t1 : List ℕ) (n : ℕ) (t2 : List ℕ) {g}
    (ha : IsB a s (t1 ++ n :: t2) g) {ax : ℤ} (hax : ax = -((t2.length + 1 : ℕ) : ℤ) := by norm_num) :
    Ev (sumAxis a ax) s (t1 ++ t2) fun i j =>
      ((List.range n).map fun k => g i (j.insertIdx t1.length k)).sum := by
  obtain ⟨hp, hn, hd, he⟩ := ha.axis t1 n t2 hax
  refine ⟨⟨s ++ (t1 ++ t2), fun i => ((List.range n).map fun k =>
    a.get (i.insertIdx (s.length + t1.length) k)).sum⟩, ?_, rfl, ?_⟩
  · unfold sumAxis
    simp only [hp]
    rw [if_neg hn]
    simp only [Int.toNat_natCast, hd, he]
  · intro i hi j hj
    show ((List.range n).map _).sum = _
    congr 1
    apply List.map_congr_left
    intro k hk
    obtain ⟨j1, j2, rfl, h1, h2⟩ := valid_split hj
    have l1 : j1.length = t1.length := h1.length_eq
    have li : i.length = s.length := hi.length_eq
    have e1 : (i ++ (j1 ++ j2)).insertIdx (s.length + t1.length) k = i ++ (j1 ++ k :: j2) := by
      rw [← li, ← l1, ← List.append_assoc, ← List.append_assoc, ← List.length_append,
        insertIdx_append']
    have e2 : (j1 ++ j2).insertIdx t1.length k = j1 ++ k :: j2 := by
      rw [← l1, insertIdx_append']
    rw [e1, e2]
    exact ha.get i hi _ (valid_append h1 (List.Forall₂.cons (List.mem_range.1 hk) h2))

theorem Ev.mean {a : Arr XF} {s : List ℕ} (t1 : List ℕ) (n : ℕ) (t2 : List ℕ) {g}
    (ha : IsB a s (t1 ++ n :: t2) g) {ax : ℤ} (hax : ax = -((t2.length + 1 : ℕ) : ℤ) := by norm_num) :
    Ev (meanAxis a ax) s (t1 ++ t2) fun i j =>
      ((List.range n).map fun k => g i (j.insertIdx t1.length k)).sum / ((n : ℕ) : XF) := by
  obtain ⟨r, hr, h⟩ := Ev.sum t1 n t2 ha hax
  obtain ⟨hp, hn, hd, he⟩ := ha.axis t1 n t2 hax
  refine ⟨r.map fun x => x / ((n : ℕ) : XF), ?_, h.map _⟩
  unfold meanAxis
  rw [hr, hp, Int.toNat_natCast, hd]
  rfl

theorem Ev.norm {a : Arr XF} {s : List ℕ} (t1 : List ℕ) (n : ℕ) {g}
    (ha : IsB a s (t1 ++ [n]) g) :
    Ev (normLast a) s t1 fun i j =>
      XF.sqrt ((List.range n).map fun k => g i (j.insertIdx t1.length k) ^ 2).sum := by
  obtain ⟨r, hr, h⟩ := Ev.sum (ax := -1) t1 n [] (ha.map fun x => x ^ 2)
  rw [List.append_nil] at h
  exact ⟨r.map XF.sqrt, by unfold normLast; rw [hr]; rfl, h.map _⟩

theorem Ev.sum2 {a : Arr XF} {s : List ℕ} (t : List ℕ) (n k : ℕ) {g}
    (ha : IsB a s (t ++ [n, k]) g) :
    Ev (sumLast2 a) s t fun i j =>
      ((List.range n).map fun p => ((List.range k).map fun q => g i (j ++ [p, q])).sum).sum := by
  have h1 := Ev.sum (ax := -1) (t ++ [n]) k [] (by simpa using ha)
  unfold sumLast2
  refine Ev.bind h1 fun b hb => ?_
  rw [List.append_nil] at hb
  obtain ⟨r, hr, h⟩ := Ev.sum (ax := -1) t n [] hb
  rw [List.append_nil] at h
  refine ⟨r, hr, h.congr fun i hi j hj => ?_⟩
  have l : j.length = t.length := hj.length_eq
  rw [← l]
  congr 1
  apply List.map_congr_left
  intro p _
  congr 1
  apply List.map_congr_left
  intro q _
  congr 1
  rw [List.insertIdx_length_self, show (t ++ [n]).length = (j ++ [p]).length by simp [l],
    List.insertIdx_length_self, List.append_assoc]
  rfl

theorem Ev.mean2 {a : Arr XF} {s : List ℕ} (t : List ℕ) (n k : ℕ) {g}
    (ha : IsB a s (t ++ [n, k]) g) :
    Ev (meanLast2 a) s t fun i j =>
      ((List.range n).map fun p => ((List.range k).map fun q => g i (j ++ [p, q])).sum).sum
        / ((n * k : ℕ) : XF) := by
  obtain ⟨r, hr, h⟩ := Ev.sum2 t n k ha
  refine ⟨r.map fun x => x / ((n * k : ℕ) : XF), ?_, h.map _⟩
  unfold meanLast2
  rw [hr]
  have hn : a.ndim = (s ++ t).length + 2 := by simp [Arr.ndim, ha.shape]; omega
  have hs : a.shape = (s ++ t) ++ [n, k] := by rw [ha.shape, List.append_assoc]
  rw [hn, hs]
  simp only [List.getD_eq_getElem?_getD]
  rw [show (s ++ t).length + 2 - 2 = (s ++ t).length by omega,
    show (s ++ t).length + 2 - 1 = (s ++ t).length + 1 by omega,
    List.getElem?_append_right le_rfl, List.getElem?_append_right (by omega)]
  simp [Except.map]

/-! ### the last axis -/

theorem Ev.rolled {a : Arr XF} {s : List ℕ} (t1 : List ℕ) (n : ℕ) (t2 : List ℕ) {g}
    (ha : IsB a s (t1 ++ n :: t2) g) (sh : ℕ) {ax : ℤ}
    (hax : ax = -((t2.length + 1 : ℕ) : ℤ) := by norm_num) :
    Ev (roll a sh ax) s (t1 ++ n :: t2) fun i j =>
      g i (j.set t1.length ((j.getD t1.length 0 + (n - sh % n)) % n)) := by
  obtain ⟨hp, hn, hd, he⟩ := ha.axis t1 n t2 hax
  refine ⟨⟨a.shape, fun i => a.get (i.set (s.length + t1.length)
    ((i.getD (s.length + t1.length) 0 + (n - sh % n)) % n))⟩, ?_, ha.shape, ?_⟩
  · unfold roll
    simp only [hp]
    rw [if_neg hn]
    simp only [Int.toNat_natCast, hd]
  · intro i hi j hj
    obtain ⟨j1, j2, rfl, h1, h2⟩ := valid_split hj
    have l1 : j1.length = t1.length := h1.length_eq
    have li : i.length = s.length := hi.length_eq
    cases h2 with
    | cons hk h2 =>
      rename_i k j2
      have hg : (i ++ (j1 ++ k :: j2)).getD (s.length + t1.length) 0 = k := by
        rw [← li, ← l1, ← List.append_assoc, ← List.length_append, List.getD_eq_getElem?_getD,
          List.getElem?_append_right le_rfl]
        simp
      have hg' : (j1 ++ k :: j2).getD t1.length 0 = k := by
        rw [← l1, List.getD_eq_getElem?_getD, List.getElem?_append_right le_rfl]
        simp
      have e1 : ∀ x, (i ++ (j1 ++ k :: j2)).set (s.length + t1.length) x = i ++ (j1 ++ x :: j2) := by
        intro x
        rw [← li, ← l1, ← List.append_assoc, ← List.length_append, List.set_append_right _ _ le_rfl]
        simp
      have e2 : ∀ x, (j1 ++ k :: j2).set t1.length x = j1 ++ x :: j2 := by
        intro x
        rw [← l1, List.set_append_right _ _ le_rfl]
        simp
      show a.get (List.set _ _ _) = _
      rw [hg, hg', e1, e2]
      exact ha.get i hi _ (valid_append h1
        (List.Forall₂.cons (Nat.mod_lt _ (by omega)) h2))

theorem IsB.take {a : Arr XF} {s : List ℕ} {n : ℕ} {g} (ha : IsB a s [n] g) (ind : List ℕ)
    (hind : ∀ p ∈ ind, p < n) :
    IsB (takeLast a ind) s [ind.length] fun i j => g i [ind.getD (j.headD 0) 0] := by
  constructor
  · show a.shape.dropLast ++ _ = _
    rw [ha.shape]; simp
  · intro i hi j hj
    cases hj with
    | cons hk hj =>
      cases hj
      rename_i k
      show a.get ((i ++ [k]).dropLast ++ [ind.getD ((i ++ [k]).getLastD 0) 0]) = _
      have e : (i ++ [k]).getLastD 0 = k := by simp
      rw [e, List.dropLast_concat]
      refine ha.get i hi _ (List.Forall₂.cons ?_ List.Forall₂.nil)
      rw [List.getD_eq_getElem?_getD, List.getElem?_eq_getElem hk]
      exact hind _ (List.getElem_mem _)

theorem Ev.concat {a b : Arr XF} {s : List ℕ} {n k : ℕ} {g g'} (ha : IsB a s [n] g)
    (hb : IsB b s [k] g') :
    Ev (concatLast a b) s [n + k] fun i j =>
      if j.headD 0 < n then g i j else g' i [j.headD 0 - n] := by
  refine ⟨⟨s ++ [n + k], fun i =>
      if i.getLastD 0 < n then a.get i else b.get (i.dropLast ++ [i.getLastD 0 - n])⟩, ?_, rfl, ?_⟩
  · unfold concatLast
    rw [if_neg (by rw [ha.shape, hb.shape]; simp)]
    simp only [ha.shape, hb.shape, List.dropLast_concat]
    simp
  · intro i hi j hj
    cases hj with
    | cons hk hj =>
      cases hj
      rename_i q
      have e : (i ++ [q]).getLastD 0 = q := by simp
      show (if (i ++ [q]).getLastD 0 < n then _ else _) = _
      rw [e, List.dropLast_concat, List.headD_cons]
      split_ifs with h
      · exact ha.get i hi _ (List.Forall₂.cons h List.Forall₂.nil)
      · exact hb.get i hi _ (List.Forall₂.cons (by omega) List.Forall₂.nil)

theorem IsB.rows {a : Arr XF} {s : List ℕ} {n : ℕ} {g} (ha : IsB a s [n] g) (f : List XF → List XF) :
    IsB (a.mapRows f) s [n] fun i j =>
      (f ((List.range n).map fun k => g i [k])).getD (j.headD 0) nan := by
  constructor
  · exact ha.shape
  · intro i hi j hj
    cases hj with
    | cons hk hj =>
      cases hj
      rename_i q
      have hr : a.row i = (List.range n).map fun k => g i [k] := by
        unfold Arr.row
        rw [ha.shape]
        simp only [List.getLastD_concat]
        apply List.map_congr_left
        intro k hk
        exact ha.get i hi _ (List.Forall₂.cons (List.mem_range.1 hk) List.Forall₂.nil)
      simp [Arr.mapRows, hr]

theorem IsB.arange (lo n : ℕ) : IsB (arange lo n) [] [n] fun _ j => ((lo + j.headD 0 : ℕ) : XF) :=
  ⟨rfl, fun i hi j _ => by cases hi; rfl⟩

end Np
end Verif
