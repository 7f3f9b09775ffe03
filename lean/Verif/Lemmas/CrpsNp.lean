import Verif.Model.CrpsNp
import Verif.Model.WeightedUv
import Verif.Lemmas.Np
import Verif.Lemmas.LoopsXF
import Verif.Spec.SliceBySlice

/-!
# The vectorised CRPS formulas, entry by entry
-/

noncomputable section

open scoped Classical

namespace Verif

open XF Py Np Spec

namespace Np

variable {α : Type}

theorem Ev.returns {x : Except Err (Arr XF)} {s : List ℕ} {g v} (h : Ev x s [] g)
    (e : ∀ i, Arr.Valid s i → g i [] = v i) : Returns x s v := by
  obtain ⟨a, rfl, ha⟩ := h
  refine ⟨a, rfl, by rw [ha.shape, List.append_nil], fun i hi => ?_⟩
  have := ha.get i hi [] List.Forall₂.nil
  rw [List.append_nil] at this
  rw [this, e i hi]

theorem Ev.congr {x : Except Err (Arr α)} {s t g g'} (h : Ev x s t g)
    (e : ∀ i, Arr.Valid s i → ∀ j, Arr.Valid t j → g i j = g' i j) : Ev x s t g' := by
  obtain ⟨a, rfl, ha⟩ := h
  exact ⟨a, rfl, ha.congr e⟩

theorem valid1 {n : ℕ} {j : List ℕ} (h : Arr.Valid [n] j) : ∃ k, k < n ∧ j = [k] := by
  cases h with
  | cons hk h => cases h; exact ⟨_, hk, rfl⟩

theorem valid2 {n m : ℕ} {j : List ℕ} (h : Arr.Valid [n, m] j) : ∃ k l, k < n ∧ l < m ∧ j = [k, l] := by
  cases h with
  | cons hk h =>
    obtain ⟨l, hl, rfl⟩ := valid1 h
    exact ⟨_, l, hk, hl, rfl⟩

theorem valid1' {n k : ℕ} (h : k < n) : Arr.Valid [n] [k] := List.Forall₂.cons h List.Forall₂.nil

/-- a scalar per batch index -/
def Sc (a : Arr α) (s : List ℕ) (v : List ℕ → α) : Prop := IsB a s [] fun i _ => v i

/-- a vector per batch index -/
def Ve (a : Arr α) (s : List ℕ) (n : ℕ) (v : List ℕ → ℕ → α) : Prop :=
  IsB a s [n] fun i j => v i (j.getD 0 0)

/-- a matrix per batch index -/
def Ma (a : Arr α) (s : List ℕ) (n m : ℕ) (v : List ℕ → ℕ → ℕ → α) : Prop :=
  IsB a s [n, m] fun i j => v i (j.getD 0 0) (j.getD 1 0)

/-- the computation returns an array with the property `Q` -/
def Ret (x : Except Err (Arr α)) (Q : Arr α → Prop) : Prop := ∃ a, x = .ok a ∧ Q a

theorem Ret.ok {Q : Arr α → Prop} {a : Arr α} (h : Q a) : Ret (.ok a) Q := ⟨a, rfl, h⟩

theorem Ret.bind {β : Type} {x : Except Err (Arr α)} {Q : Arr α → Prop} {k : Arr α → Except Err (Arr β)}
    {Q' : Arr β → Prop} (h : Ret x Q) (hk : ∀ a, Q a → Ret (k a) Q') : Ret (x >>= k) Q' := by
  obtain ⟨a, rfl, ha⟩ := h
  exact hk a ha

abbrev ESc (x : Except Err (Arr α)) (s : List ℕ) (v : List ℕ → α) : Prop := Ret x fun a => Sc a s v
abbrev EVe (x : Except Err (Arr α)) (s : List ℕ) (n : ℕ) (v : List ℕ → ℕ → α) : Prop :=
  Ret x fun a => Ve a s n v
abbrev EMa (x : Except Err (Arr α)) (s : List ℕ) (n m : ℕ) (v : List ℕ → ℕ → ℕ → α) : Prop :=
  Ret x fun a => Ma a s n m v

theorem ESc.returns {x : Except Err (Arr XF)} {s : List ℕ} {v v'} (h : ESc x s v)
    (e : ∀ i, Arr.Valid s i → v i = v' i) : Returns x s v' := Ev.returns h e

theorem ESc.congr {x : Except Err (Arr α)} {s : List ℕ} {v v'} (h : ESc x s v)
    (e : ∀ i, Arr.Valid s i → v i = v' i) : ESc x s v' := Ev.congr h fun i hi _ _ => e i hi

theorem Sc.map {β : Type} {a : Arr α} {s : List ℕ} {v} (h : Sc a s v) (f : α → β) :
    Sc (a.map f) s fun i => f (v i) := IsB.map h f

theorem Ve.map {β : Type} {a : Arr α} {s : List ℕ} {n : ℕ} {v} (h : Ve a s n v) (f : α → β) :
    Ve (a.map f) s n fun i k => f (v i k) := IsB.map h f

theorem Ma.map {β : Type} {a : Arr α} {s : List ℕ} {n m : ℕ} {v} (h : Ma a s n m v) (f : α → β) :
    Ma (a.map f) s n m fun i k l => f (v i k l) := IsB.map h f

theorem Sc.self {a : Arr α} {s : List ℕ} (h : a.shape = s) : Sc a s a.get := by
  refine IsB.congr (IsB.self (t := []) (by rw [h, List.append_nil])) fun i _ j hj => ?_
  cases hj; rw [List.append_nil]

theorem Ve.self {a : Arr α} {s : List ℕ} {n : ℕ} (h : a.shape = s ++ [n]) :
    Ve a s n fun i k => a.get (i ++ [k]) := by
  refine IsB.congr (IsB.self h) fun i _ j hj => ?_
  obtain ⟨k, _, rfl⟩ := valid1 hj; rfl

/-- `a[..., None]` of a scalar per batch index -/
theorem Sc.ex {a : Arr α} {s v} (h : Sc a s v) : EVe (expandDims a [-1]) s 1 fun i _ => v i := by
  refine Ev.expand h [-1] [0] (by simp) (by simp) (by simp) _ (by simp [insOnes]) ?_
  intro j hj
  obtain ⟨k, _, rfl⟩ := valid1 hj
  simp [dropAt, Arr.Valid]

/-- `a[..., None]` of a vector per batch index -/
theorem Ve.ex1 {a : Arr α} {s n v} (h : Ve a s n v) :
    EMa (expandDims a [-1]) s n 1 fun i k _ => v i k := by
  have := Ev.expand h [-1] [1] (by simp) (by simp) (by simp) [n, 1] (by simp [insOnes]) ?_
  · refine this.congr fun i _ j hj => ?_
    obtain ⟨k, l, _, _, rfl⟩ := valid2 hj
    simp [dropAt]
  · intro j hj
    obtain ⟨k, l, hk, _, rfl⟩ := valid2 hj
    simpa [dropAt] using valid1' hk

/-- `a[..., None, :]` of a vector per batch index -/
theorem Ve.ex2 {a : Arr α} {s n v} (h : Ve a s n v) :
    EMa (expandDims a [-2]) s 1 n fun i _ k => v i k := by
  have := Ev.expand h [-2] [0] (by simp) (by simp) (by simp) [1, n] (by simp [insOnes]) ?_
  · refine this.congr fun i _ j hj => ?_
    obtain ⟨k, l, _, _, rfl⟩ := valid2 hj
    simp [dropAt]
  · intro j hj
    obtain ⟨k, l, _, hk, rfl⟩ := valid2 hj
    simpa [dropAt] using valid1' hk

variable {β : Type} {f : α → α → β} {a b : Arr α} {s : List ℕ} {n m : ℕ}

theorem Sc.op {v w} (ha : Sc a s v) (hb : Sc b s w) :
    ESc (Arr.map2 f a b) s fun i => f (v i) (w i) := Ev.map2_same ha hb

theorem Ve.op {v w} (ha : Ve a s n v) (hb : Ve b s n w) :
    EVe (Arr.map2 f a b) s n fun i k => f (v i k) (w i k) := Ev.map2_same ha hb

theorem Ma.op {v w} (ha : Ma a s n m v) (hb : Ma b s n m w) :
    EMa (Arr.map2 f a b) s n m fun i k l => f (v i k l) (w i k l) := Ev.map2_same ha hb

/-- `obs[..., None] ∘ vector` -/
theorem Ve.op1l {v w} (ha : Ve a s 1 v) (hb : Ve b s n w) :
    EVe (Arr.map2 f a b) s n fun i k => f (v i 0) (w i k) := by
  refine Ev.congr (Ev.map2 [true] [false] [n] ha hb) fun i _ j hj => ?_
  obtain ⟨k, _, rfl⟩ := valid1 hj
  simp [clip]

theorem Ve.op1r {v w} (ha : Ve a s n v) (hb : Ve b s 1 w) :
    EVe (Arr.map2 f a b) s n fun i k => f (v i k) (w i 0) := by
  refine Ev.congr (Ev.map2 [false] [true] [n] ha hb) fun i _ j hj => ?_
  obtain ⟨k, _, rfl⟩ := valid1 hj
  simp [clip]

/-- `vector ∘ arange` -/
theorem Ve.opN {v w} (ha : Ve a s n v) (hb : Ve b [] n w) :
    EVe (Arr.map2 f a b) s n fun i k => f (v i k) (w [] k) := by
  refine Ev.congr (Ev.map2_right [false] [false] [n] ha hb) fun i _ j hj => ?_
  obtain ⟨k, _, rfl⟩ := valid1 hj
  simp [clip]

/-- `a[..., None] ∘ b[..., None, :]` -/
theorem Ma.op12 {v w} (ha : Ma a s n 1 v) (hb : Ma b s 1 m w) :
    EMa (Arr.map2 f a b) s n m fun i k l => f (v i k 0) (w i 0 l) := by
  refine Ev.congr (Ev.map2 [false, true] [true, false] [n, m] ha hb) fun i _ j hj => ?_
  obtain ⟨k, l, _, _, rfl⟩ := valid2 hj
  simp [clip]

/-- `matrix ∘ b[..., None]` -/
theorem Ma.opC {v w} (ha : Ma a s n m v) (hb : Ma b s n 1 w) :
    EMa (Arr.map2 f a b) s n m fun i k l => f (v i k l) (w i k 0) := by
  refine Ev.congr (Ev.map2 [false, false] [false, true] [n, m] ha hb) fun i _ j hj => ?_
  obtain ⟨k, l, _, _, rfl⟩ := valid2 hj
  simp [clip]

/-- `matrix ∘ b[..., None, :]` -/
theorem Ma.opR {v w} (ha : Ma a s n m v) (hb : Ma b s 1 m w) :
    EMa (Arr.map2 f a b) s n m fun i k l => f (v i k l) (w i 0 l) := by
  refine Ev.congr (Ev.map2 [false, false] [true, false] [n, m] ha hb) fun i _ j hj => ?_
  obtain ⟨k, l, _, _, rfl⟩ := valid2 hj
  simp [clip]

theorem Ve.sum {a : Arr XF} {v} (ha : Ve a s n v) :
    ESc (sumAxis a (-1)) s fun i => ((List.range n).map (v i)).sum := by
  refine Ev.congr (Ev.sum [] n [] ha) fun i _ j hj => ?_
  cases hj; simp

theorem Ve.mean {a : Arr XF} {v} (ha : Ve a s n v) :
    ESc (meanAxis a (-1)) s fun i => ((List.range n).map (v i)).sum / (n : XF) := by
  refine Ev.congr (Ev.mean [] n [] ha) fun i _ j hj => ?_
  cases hj; simp

theorem Ma.sum2 {a : Arr XF} {v} (ha : Ma a s n m v) :
    ESc (sumLast2 a) s fun i =>
      ((List.range n).map fun k => ((List.range m).map (v i k)).sum).sum := by
  refine Ev.congr (Ev.sum2 [] n m ha) fun i _ j hj => ?_
  cases hj; simp

theorem Ve.roll {a : Arr XF} {v} (ha : Ve a s n v) (sh : ℕ) :
    EVe (roll a sh (-1)) s n fun i k => v i ((k + (n - sh % n)) % n) := by
  refine Ev.congr (Ev.rolled [] n [] ha sh) fun i _ j hj => ?_
  obtain ⟨k, _, rfl⟩ := valid1 hj
  simp

theorem Ve.take {a : Arr XF} {v} (ha : Ve a s n v) (ind : List ℕ) (hi : ∀ p ∈ ind, p < n) :
    Ve (takeLast a ind) s ind.length fun i k => v i (ind.getD k 0) := by
  refine IsB.congr (IsB.take ha ind hi) fun i _ j hj => ?_
  obtain ⟨k, _, rfl⟩ := valid1 hj
  simp

theorem Ve.take_map {a : Arr XF} {v} (ha : Ve a s n v) (φ : ℕ → ℕ) (hi : ∀ k < m, φ k < n) :
    Ve (takeLast a ((List.range m).map φ)) s m fun i k => v i (φ k) := by
  have h := ha.take ((List.range m).map φ) (by simpa using hi)
  have hl : ((List.range m).map φ).length = m := by simp
  rw [hl] at h
  refine IsB.congr h fun i _ j hj => ?_
  obtain ⟨k, hk, rfl⟩ := valid1 hj
  simp [hk]

theorem Ve.take_range {a : Arr XF} {v} (ha : Ve a s n v) (hi : m ≤ n) :
    Ve (takeLast a (List.range m)) s m v := by
  have := ha.take_map (m := m) id (fun k hk => by simp; omega)
  rwa [List.map_id] at this

theorem Ve.concat {a b : Arr XF} {v w} (ha : Ve a s n v) (hb : Ve b s m w) :
    EVe (concatLast a b) s (n + m) fun i k => if k < n then v i k else w i (k - n) := by
  refine Ev.congr (Ev.concat ha hb) fun i _ j hj => ?_
  obtain ⟨k, _, rfl⟩ := valid1 hj
  simp

theorem Ve.rows {a : Arr XF} {v} (ha : Ve a s n v) (f : List XF → List XF) :
    Ve (a.mapRows f) s n fun i k => (f ((List.range n).map (v i))).getD k nan := by
  refine IsB.congr (IsB.rows ha f) fun i _ j hj => ?_
  obtain ⟨k, _, rfl⟩ := valid1 hj
  simp

theorem Ve.arange (lo n : ℕ) : Ve (arange lo n) [] n fun _ k => ((lo + k : ℕ) : XF) := by
  refine IsB.congr (IsB.arange lo n) fun i _ j hj => ?_
  obtain ⟨k, _, rfl⟩ := valid1 hj
  simp

theorem Sc.inplace {f : XF → XF → XF} {a b : Arr XF} {v w} (ha : Sc a s v) (hb : Sc b s w) :
    ESc (inplace f a b) s fun i => f (v i) (w i) := Ev.inplace_same ha hb

theorem Ve.lastLen {a : Arr XF} {v} (ha : Ve a s n v) : CrpsNp.lastLen a = n := by
  simp [CrpsNp.lastLen, ha.shape]

end Np

namespace CrpsNp

variable {obs fct ow fw alpha w : Arr XF} {s : List ℕ} {M : ℕ} {y c : List ℕ → XF}
  {x u v : List ℕ → ℕ → XF}

theorem absErr_ev (ho : Sc obs s y) (hf : Ve fct s M x) :
    EVe (absErr obs fct) s M fun i k => XF.abs (y i - x i k) := by
  unfold absErr
  refine ho.ex.bind fun o ho => (Ve.op1l ho hf).bind fun d hd => ?_
  exact Ret.ok (hd.map _)

theorem e1_ev (ho : Sc obs s y) (hf : Ve fct s M x) :
    ESc (e1 obs fct) s fun i => ((List.range M).map fun k => XF.abs (y i - x i k)).sum / (M : XF) := by
  unfold e1
  refine (absErr_ev ho hf).bind fun o ho => (Ve.sum ho).bind fun d hd => ?_
  rw [hf.lastLen]
  exact Ret.ok (hd.map _)

theorem pairDiff_ev (hf : Ve fct s M x) :
    EMa (pairDiff fct) s M M fun i k l => XF.abs (x i k - x i l) := by
  unfold pairDiff
  refine hf.ex1.bind fun o ho => hf.ex2.bind fun d hd => (Ma.op12 ho hd).bind fun e he => ?_
  exact Ret.ok (he.map _)

theorem combine_ev {a b : Arr XF} {u v} (ha : Sc a s u) (hb : Sc b s v) :
    ESc (combine a b) s fun i => u i - half * v i := by
  unfold combine
  exact Sc.op ha (hb.map _)

theorem fair_ev (ho : Sc obs s y) (hf : Ve fct s M x) :
    ESc (fair obs fct) s fun i => Approx.fair (y i) ((List.range M).map (x i)) := by
  unfold fair
  refine (e1_ev ho hf).bind fun a ha => (pairDiff_ev hf).bind fun b hb => (Ma.sum2 hb).bind fun c hc => ?_
  rw [hf.lastLen]
  refine (combine_ev ha (hc.map _)).congr fun i _ => ?_
  simp [Approx.fair, Approx.e1, sum2, Function.comp_def]

theorem nrg_ev (ho : Sc obs s y) (hf : Ve fct s M x) :
    ESc (nrg obs fct) s fun i => Approx.nrg (y i) ((List.range M).map (x i)) := by
  unfold nrg
  refine (e1_ev ho hf).bind fun a ha => (pairDiff_ev hf).bind fun b hb => (Ma.sum2 hb).bind fun c hc => ?_
  rw [hf.lastLen]
  refine (combine_ev ha (hc.map _)).congr fun i _ => ?_
  simp [Approx.nrg, Approx.e1, sum2, Function.comp_def]

theorem pwm_ev (ho : Sc obs s y) (hf : Ve fct s M x) :
    ESc (pwm obs fct) s fun i => Approx.pwm (y i) ((List.range M).map (x i)) := by
  unfold pwm
  rw [hf.lastLen]
  refine (e1_ev ho hf).bind fun a ha => (Ve.sum hf).bind fun b hb =>
    (Ve.opN hf (Ve.arange 0 M)).bind fun c hc => (Ve.sum hc).bind fun d hd =>
    (Sc.op ha (hb.map _)).bind fun e he => ?_
  refine (Sc.op he ((hd.map _).map _)).congr fun i _ => ?_
  simp [Approx.pwm, Approx.e1, zip2, Function.comp_def, List.zipWith_map]

theorem rollTerm_ev (hf : Ve fct s M x) (sh : ℕ) :
    ESc (rollTerm fct sh) s fun i =>
      (zip2 (fun a b => XF.abs (a - b)) ((List.range M).map (x i))
        (Py.roll ((List.range M).map (x i)) sh)).sum / (M : XF) := by
  unfold rollTerm
  rw [hf.lastLen]
  refine (hf.roll sh).bind fun a ha => (Ve.op hf ha).bind fun b hb =>
    (Ve.sum (hb.map _)).bind fun c hc => ?_
  refine ESc.congr (Ret.ok (hc.map _)) fun i _ => ?_
  congr 2
  simp only [Py.roll, zip2, List.length_map, List.length_range, List.zipWith_map, List.zipWith_self]
  refine List.map_congr_left fun k hk => ?_
  have hM : 0 < M := by have := List.mem_range.1 hk; omega
  simp [idx, Nat.mod_lt _ hM]

theorem akr_ev (ho : Sc obs s y) (hf : Ve fct s M x) :
    ESc (akr obs fct) s fun i => Approx.akr (y i) ((List.range M).map (x i)) := by
  unfold akr
  refine (e1_ev ho hf).bind fun a ha => (rollTerm_ev hf 1).bind fun b hb => ?_
  refine (combine_ev ha hb).congr fun i _ => ?_
  simp [Approx.akr, Approx.e1, Function.comp_def]

theorem akrCircperm_ev (ho : Sc obs s y) (hf : Ve fct s M x) :
    ESc (akrCircperm obs fct) s fun i => Approx.akrCircperm (y i) ((List.range M).map (x i)) := by
  unfold akrCircperm
  rw [hf.lastLen]
  refine (e1_ev ho hf).bind fun a ha => (rollTerm_ev hf (M / 2)).bind fun b hb => ?_
  refine (combine_ev ha hb).congr fun i _ => ?_
  simp [Approx.akrCircperm, Approx.e1, Function.comp_def]

theorem qd_ev (ho : Sc obs s y) (hf : Ve fct s M x) :
    ESc (qd obs fct) s fun i => Approx.qd (y i) ((List.range M).map (x i)) := by
  unfold qd
  rw [hf.lastLen]
  have hα := (Ve.arange 1 M).map fun x => x - half
  refine ho.ex.bind fun o ho => (Ve.op1r hf ho).bind fun le hle =>
    (Ve.opN hle hα).bind fun b1 hb1 => (Ve.op1l ho hf).bind fun d1 hd1 =>
    (Ve.op hb1 hd1).bind fun below hbe => (Ve.op1r hf ho).bind fun gt hgt =>
    (Ve.opN hgt (hα.map _)).bind fun b2 hb2 => (Ve.op1r hf ho).bind fun d2 hd2 =>
    (Ve.op hb2 hd2).bind fun above hab => (Ve.op hbe hab).bind fun t ht =>
    (Ve.sum ht).bind fun r hr => ?_
  refine ESc.congr (Ret.ok ((hr.map _).map _)) fun i _ => ?_
  simp only [Approx.qd, zip2, List.length_map, List.length_range, List.zipWith_map, List.zipWith_self,
    Function.comp_def, Nat.add_comm 1]

theorem quantilePinball_ev (ho : Sc obs s y) (hf : Ve fct s M x) {al : ℕ → XF}
    (hα : Ve alpha [] M fun _ => al) :
    ESc (quantilePinball obs fct alpha) s fun i =>
      Approx.quantilePinball (y i) ((List.range M).map (x i)) ((List.range M).map al) := by
  unfold quantilePinball
  refine ho.ex.bind fun o ho => (Ve.op1r hf ho).bind fun le hle =>
    (Ve.opN hle hα).bind fun b1 hb1 => (Ve.op1l ho hf).bind fun d1 hd1 =>
    (Ve.op hb1 hd1).bind fun below hbe => (Ve.op1r hf ho).bind fun gt hgt =>
    (Ve.opN hgt (hα.map _)).bind fun b2 hb2 => (Ve.op1r hf ho).bind fun d2 hd2 =>
    (Ve.op hb2 hd2).bind fun above hab => (Ve.op hbe hab).bind fun t ht =>
    (Ve.mean ht).bind fun r hr => ?_
  refine ESc.congr (Ret.ok (hr.map _)) fun i _ => ?_
  simp only [Approx.quantilePinball, Py.mean, zip2, List.length_map, List.length_range, List.zipWith_map,
    List.zipWith_self, Function.comp_def]

theorem ow_ev (ho : Sc obs s y) (hf : Ve fct s M x) (hc : Sc ow s c) (hw : Ve fw s M u) :
    ESc (CrpsNp.ow obs fct ow fw) s fun i =>
      Approx.ow (y i) ((List.range M).map (x i)) (c i) ((List.range M).map (u i)) := by
  unfold CrpsNp.ow
  rw [hf.lastLen]
  refine (Ve.mean hw).bind fun wb hwb => (absErr_ev ho hf).bind fun a ha => (Ve.op ha hw).bind fun b hb =>
    (Ve.sum hb).bind fun b hb => (Sc.op hb hc).bind fun b hb => (Sc.op hb (hwb.map _)).bind fun e1 he1 =>
    (pairDiff_ev hf).bind fun p hp => hw.ex1.bind fun w1 hw1 => (Ma.opC hp hw1).bind fun p hp =>
    hw.ex2.bind fun w2 hw2 => (Ma.opR hp hw2).bind fun p hp => (Ma.sum2 hp).bind fun e2 he2 =>
    (Sc.op hc (hwb.map _)).bind fun d hd => (Sc.inplace he2 hd).bind fun e3 he3 => ?_
  refine (combine_ev he1 he3).congr fun i _ => ?_
  simp only [Approx.ow, Py.mean, zip2, List.length_map, List.length_range, List.zipWith_map,
    List.zipWith_self, List.zip_map', List.map_map, Function.comp_def]

theorem range_of_length (l : List XF) (n : ℕ) (h : n ≤ l.length) :
    l.take n = (List.range n).map fun k => l.getD k nan := by
  apply List.ext_getElem
  · simp [h]
  · intro k h1 h2
    have : k < l.length := by simp at h2; omega
    simp [this]

theorem drop_of_length (l : List XF) (n : ℕ) (h : l.length = n + 1) :
    l.drop 1 = (List.range n).map fun k => l.getD (k + 1) nan := by
  apply List.ext_getElem
  · simp [h]
  · intro k h1 h2
    have : k + 1 < l.length := by simp at h2; omega
    simp [this, Nat.add_comm 1]

theorem range_concat (a b : ℕ → XF) (n : ℕ) :
    ((List.range (n + 1)).map fun k => if k < n then a k else b (k - n))
      = (List.range n).map a ++ [b 0] := by
  rw [List.range_succ, List.map_append]
  congr 1
  · exact List.map_congr_left fun k hk => by simp [List.mem_range.1 hk]
  · simp

theorem sort_length (l : List XF) : (sort l).length = l.length := by simp [sort]

/-- the sum at the end of the `int` formulas for one slice -/
def intVal (obs : XF) (fct fctCdf : List XF) (ypos : XF) : XF :=
  let M := fct.length
  let fctCdf := sort (fctCdf ++ [ypos])
  let fctExp := sort (fct ++ [obs])
  let fctDif := zip2 (· - ·) (fctExp.drop 1) (fctExp.take M)
  let obsCdf := fctExp.map fun x => ind (obs ≤ x) * 1
  let dif := zip2 (fun c o => (c - o) ^ 2) (fctCdf.take M) (obsCdf.take M)
  (zip2 (· * ·) fctDif dif).sum

theorem intTail_ev {cdf yPos : Arr XF} {p : List ℕ → XF} (ho : Sc obs s y) (hf : Ve fct s M x)
    (hC : Ve cdf s M u) (hp : Ve yPos s 1 fun i _ => p i) :
    ESc (intTail obs fct cdf yPos) s fun i =>
      intVal (y i) ((List.range M).map (x i)) ((List.range M).map (u i)) (p i) := by
  unfold intTail
  rw [hf.lastLen]
  refine ho.ex.bind fun o ho => (Ve.concat hC hp).bind fun a ha => (Ve.concat hf ho).bind fun b hb => ?_
  have hA := ha.rows sort
  have hB := hb.rows sort
  refine (Ve.op (hB.take_map (m := M) (· + 1) (fun k hk => by omega))
    (hB.take_range (by omega))).bind fun d hd => ?_
  refine (Ve.op1l ho hB).bind fun e he => ?_
  refine (Ve.op (hA.take_range (by omega)) (he.take_range (by omega))).bind fun g hg => ?_
  refine (Ve.op hd (hg.map _)).bind fun r hr => ?_
  refine (Ve.sum hr).congr fun i _ => ?_
  unfold intVal
  simp only [List.length_map, List.length_range]
  rw [range_concat (u i) (fun _ => p i), range_concat (x i) (fun _ => y i)]
  have l1 : (sort (List.map (x i) (List.range M) ++ [y i])).length = M + 1 := by simp [sort_length]
  have l2 : (sort (List.map (u i) (List.range M) ++ [p i])).length = M + 1 := by simp [sort_length]
  generalize sort (List.map (x i) (List.range M) ++ [y i]) = X at l1 ⊢
  generalize sort (List.map (u i) (List.range M) ++ [p i]) = C at l2 ⊢
  rw [← List.map_take, range_of_length X M (by omega), range_of_length C M (by omega),
    drop_of_length X M l1, List.map_map]
  simp only [zip2_map, Function.comp_def]

theorem int_ev (ho : Sc obs s y) (hf : Ve fct s M x) :
    ESc (CrpsNp.int obs fct) s fun i => Approx.int (y i) ((List.range M).map (x i)) := by
  unfold CrpsNp.int
  rw [hf.lastLen]
  refine ho.ex.bind fun o ho' => (Ve.op1r hf ho').bind fun le hle => (Ve.mean hle).bind fun m hm =>
    hm.ex.bind fun yp hyp => ?_
  have hz : Ve (⟨fct.shape, fun _ => 0⟩ : Arr XF) s M fun _ _ => 0 := ⟨hf.shape, fun _ _ _ _ => rfl⟩
  refine (Ve.opN hz ((Ve.arange 1 M).map _)).bind fun c hc => ?_
  refine (intTail_ev ho hf hc hyp).congr fun i _ => ?_
  unfold Approx.int intVal
  simp only [Py.mean, List.length_map, List.length_range, List.map_map, Function.comp_def,
    Nat.add_comm 1]

theorem meanAxis_one (a : Arr XF) : meanAxis a 1 = Api.meanAxis1 a := by
  unfold meanAxis Api.meanAxis1 sumAxis normAxis
  by_cases h : a.ndim < 2
  · have : a.ndim ≤ 1 := by omega
    simp [h, this, Except.map]
  · have : ¬ a.ndim ≤ 1 := by omega
    simp [h, this, Except.map, Arr.map, Py.mean]

theorem bshapeR_idem {m s r : List ℕ} (h : Arr.bshapeR m s = some r) (hl : m.length = s.length) :
    Arr.bshapeR s r = some r := by
  induction m generalizing s r with
  | nil =>
    have : s = [] := by simpa [eq_comm] using hl
    subst this
    simp only [Arr.bshapeR, Option.some.injEq] at h
    subst h; rfl
  | cons a m ih =>
    cases s with
    | nil => simp at hl
    | cons b s =>
      simp only [Arr.bshapeR] at h
      split_ifs at h with h1 h2 h3 <;>
      · simp only [Option.map_eq_some_iff] at h
        obtain ⟨q, hq, rfl⟩ := h
        have := ih hq (by simpa using hl)
        simp_all [Arr.bshapeR]

theorem bshape_idem {m s r : List ℕ} (h : Arr.bshape m s = some r) (hl : m.length = s.length) :
    Arr.bshape s r = some r := by
  unfold Arr.bshape at h ⊢
  simp only [Option.map_eq_some_iff] at h
  obtain ⟨q, hq, rfl⟩ := h
  rw [List.reverse_reverse, bshapeR_idem hq (by simpa using hl)]
  rfl

theorem Ret.bind_same {x : Except Err (Arr XF)} {Q : Arr XF → Prop} {k : Arr XF → Except Err (Arr XF)}
    {z : Except Err (Arr XF)} (h : Ret x Q) (hk : ∀ a, Q a → SameResult (k a) z) :
    SameResult (x >>= k) z := by
  obtain ⟨a, rfl, ha⟩ := h
  exact hk a ha

theorem vr_same (ho : Sc obs s y) (hf : Ve fct s M x) (hc : Sc ow s c) (hw : Ve fw s M u) :
    SameResult (CrpsNp.vr obs fct ow fw) (Api.vrEnsembleArr obs fct ow fw) := by
  unfold CrpsNp.vr Api.vrEnsembleArr
  rw [hf.lastLen, meanAxis_one]
  refine Ret.bind_same (absErr_ev ho hf) fun a ha => Ret.bind_same (Ve.op ha hw) fun a ha =>
    Ret.bind_same (Ve.sum ha) fun a ha => Ret.bind_same (Sc.op ha hc) fun a ha =>
    Ret.bind_same hf.ex1 fun f1 hf1 => Ret.bind_same hf.ex2 fun f2 hf2 =>
    Ret.bind_same (Ma.op12 hf1 hf2) fun d hd => Ret.bind_same hw.ex1 fun w1 hw1 =>
    Ret.bind_same hw.ex2 fun w2 hw2 => Ret.bind_same (Ma.op12 hw1 hw2) fun p hp =>
    Ret.bind_same (Ma.op (hd.map _) hp) fun p hp => Ret.bind_same (Ma.sum2 hp) fun p hp =>
    Ret.bind_same (Ve.op (hf.map _) hw) fun q hq => Ret.bind_same (Ve.mean hq) fun q hq =>
    Ret.bind_same (Sc.op (ho.map _) hc) fun r hr => Ret.bind_same (Sc.op hq hr) fun e3 he3 => ?_
  have sfw : fw.shape = s ++ [M] := hw.shape
  have sow : ow.shape = s := by simpa using hc.shape
  have sob : obs.shape = s := by simpa using ho.shape
  have se3 : e3.shape = s := by simpa using he3.shape
  unfold Api.meanAxis1
  by_cases hn : fw.ndim < 2
  · simp only [if_pos hn]
    exact rfl
  simp only [if_neg hn]
  set m : Arr XF := ⟨fw.shape.eraseIdx 1, fun i =>
    Py.mean ((List.range (fw.shape.getD 1 0)).map fun j => fw.get (i.insertIdx 1 j))⟩ with hm
  have hlen : m.shape.length = s.length := by
    show (fw.shape.eraseIdx 1).length = _
    have : fw.ndim = s.length + 1 := by simp [Arr.ndim, sfw]
    rw [List.length_eraseIdx, if_pos (by simpa [Arr.ndim] using hn), sfw]
    simp
  simp only [bind, Except.bind]
  cases hb : Arr.bshape m.shape ow.shape with
  | none =>
    simp only [Arr.map2, hb]
    exact rfl
  | some r =>
    have h2 : Arr.map2 (· - ·) m ow = .ok ⟨r, fun i => m.bget i - ow.bget i⟩ := by
      simp only [Arr.map2, hb]
    rw [h2]
    simp only
    by_cases hrs : r = s
    · subst hrs
      rw [if_neg (by rw [sob]; simp)]
      have hR : Sc (⟨r, fun i => m.bget i - ow.bget i⟩ : Arr XF) r fun i => m.bget i - c i := by
        refine ⟨by simp, fun i hi j hj => ?_⟩
        cases hj
        show m.bget _ - ow.bget _ = _
        rw [List.append_nil, Arr.bget_self (a := ow) (by rw [sow]; exact hi)]
        have := hc.get i hi [] List.Forall₂.nil
        rw [List.append_nil] at this
        rw [this]
      refine Ret.bind_same (Sc.inplace he3 hR) fun e3 he3 =>
        Ret.bind_same (combine_ev (ha.map _) (hp.map _)) fun e he => ?_
      obtain ⟨z, hz, hz'⟩ := Sc.op (f := (· + ·)) he he3
      rw [hz]
      refine ⟨by rw [sob]; simpa using hz'.shape, fun i hi => ?_⟩
      have hi' : Arr.Valid r i := by
        have : z.shape = r := by simpa using hz'.shape
        rwa [this] at hi
      have := hz'.get i hi' [] List.Forall₂.nil
      rw [List.append_nil] at this
      rw [this]
      have hy : obs.get i = y i := by
        have := ho.get i hi' [] List.Forall₂.nil
        rwa [List.append_nil] at this
      have hcc : ow.get i = c i := by
        have := hc.get i hi' [] List.Forall₂.nil
        rwa [List.append_nil] at this
      have hrow : ∀ {a : Arr XF} {v : List ℕ → ℕ → XF}, Ve a r M v →
          a.row i = (List.range M).map (v i) := by
        intro a v h
        unfold Arr.row
        rw [h.shape]
        simp only [List.getLastD_concat]
        exact List.map_congr_left fun k hk =>
          h.get i hi' [k] (valid1' (List.mem_range.1 hk))
      show _ = Approx.vrWith (m.bget i) (obs.get i) (fct.row i) (ow.get i) (fw.row i)
      rw [hrow hf, hrow hw, hy, hcc]
      simp only [Approx.vrWith, Py.mean, zip2_map, List.zip_map', List.map_map, Function.comp_def,
        List.length_map, List.length_range]
    · rw [if_pos (by rw [sob]; exact hrs)]
      have h3 : inplace (· * ·) e3 ⟨r, fun i => m.bget i - ow.bget i⟩ = .error .valueError := by
        unfold inplace
        have hid : Arr.bshape e3.shape r = some r := by
          rw [se3, ← sow]; exact bshape_idem hb (by rw [hlen, sow])
        simp only [Arr.map2, hid]
        show (if r = e3.shape then _ else _) = _
        rw [if_neg (by rw [se3]; exact hrs)]
      rw [h3]
      exact rfl

end CrpsNp

namespace CrpsNpW

open CrpsNp

variable {obs fct ow fw w : Arr XF} {s : List ℕ} {M : ℕ} {y c : List ℕ → XF}
  {x u v : List ℕ → ℕ → XF}

theorem e1_ev (ho : Sc obs s y) (hf : Ve fct s M x) (hw : Ve w s M u) :
    ESc (e1 obs fct w) s fun i => ApproxW.e1 (y i) ((List.range M).map (x i)) ((List.range M).map (u i)) := by
  unfold e1
  refine (absErr_ev ho hf).bind fun a ha => (Ve.op ha hw).bind fun b hb => ?_
  refine (Ve.sum hb).congr fun i _ => ?_
  simp only [ApproxW.e1, zip2, List.zipWith_map, List.zipWith_self]

theorem pairSum_ev (hf : Ve fct s M x) (hw : Ve w s M u) :
    ESc (pairSum fct w) s fun i =>
      ApproxW.pairSum ((List.range M).map (x i)) ((List.range M).map (u i)) := by
  unfold pairSum
  refine (pairDiff_ev hf).bind fun p hp => hw.ex1.bind fun w1 hw1 => (Ma.opC hp hw1).bind fun p hp =>
    hw.ex2.bind fun w2 hw2 => (Ma.opR hp hw2).bind fun p hp => ?_
  refine (Ma.sum2 hp).congr fun i _ => ?_
  simp only [ApproxW.pairSum, List.zip_map', List.map_map, Function.comp_def]

theorem fairC_ev (hw : Ve w s M u) :
    ESc (fairC w) s fun i =>
      1 - (zip2 (· * ·) ((List.range M).map (u i)) ((List.range M).map (u i))).sum := by
  unfold fairC
  refine (Ve.op hw hw).bind fun a ha => (Ve.sum ha).bind fun b hb => ?_
  refine ESc.congr (Ret.ok (hb.map _)) fun i _ => ?_
  rw [zip2_map]

theorem fair_ev (ho : Sc obs s y) (hf : Ve fct s M x) (hw : Ve w s M u) :
    ESc (fair obs fct w) s fun i =>
      ApproxW.fair (y i) ((List.range M).map (x i)) ((List.range M).map (u i)) := by
  unfold fair
  refine (e1_ev ho hf hw).bind fun a ha => (pairSum_ev hf hw).bind fun b hb =>
    (fairC_ev hw).bind fun c hc => (Sc.op hb hc).bind fun d hd => ?_
  exact combine_ev ha hd

theorem nrg_ev (ho : Sc obs s y) (hf : Ve fct s M x) (hw : Ve w s M u) :
    ESc (nrg obs fct w) s fun i =>
      ApproxW.nrg (y i) ((List.range M).map (x i)) ((List.range M).map (u i)) := by
  unfold nrg
  refine (e1_ev ho hf hw).bind fun a ha => (pairSum_ev hf hw).bind fun b hb => ?_
  exact combine_ev ha hb

theorem cumsum_range (l : List XF) (n : ℕ) (h : l.length = n) :
    cumsum l = (List.range n).map fun k => (cumsum l).getD k nan := by
  have hl : (cumsum l).length = n := by simp [cumsum, h]
  apply List.ext_getElem
  · simp [hl]
  · intro k h1 h2
    simp [h1]

theorem pwm_ev (ho : Sc obs s y) (hf : Ve fct s M x) (hw : Ve w s M u) :
    ESc (pwm obs fct w) s fun i =>
      ApproxW.pwm (y i) ((List.range M).map (x i)) ((List.range M).map (u i)) := by
  unfold pwm
  have hs := hw.rows cumsum
  refine (e1_ev ho hf hw).bind fun a ha => (Ve.op hf hw).bind fun b hb => (Ve.sum hb).bind fun β0 h0 =>
    (Ve.op hs hw).bind fun d hd => (Ve.op hb hd).bind fun e he => (Ve.sum he).bind fun e he =>
    (fairC_ev hw).bind fun c hc => (Sc.op he hc).bind fun β1 h1 => (Sc.op ha h0).bind fun r hr => ?_
  refine (Sc.op hr (h1.map _)).congr fun i _ => ?_
  unfold ApproxW.pwm
  simp only
  conv_rhs => rw [cumsum_range ((List.range M).map (u i)) M (by simp)]
  simp only [zip2_map]

theorem qd_ev (ho : Sc obs s y) (hf : Ve fct s M x) (hw : Ve w s M u) :
    ESc (qd obs fct w) s fun i =>
      ApproxW.qd (y i) ((List.range M).map (x i)) ((List.range M).map (u i)) := by
  unfold qd
  have hs := hw.rows cumsum
  refine (Ve.op hs (hw.map _)).bind fun a ha => ho.ex.bind fun o ho => (Ve.op1r hf ho).bind fun d hd =>
    (Ve.op hd ha).bind fun c hc => (Ve.op hw hc).bind fun e he => (Ve.op he hd).bind fun e he =>
    (Ve.sum he).bind fun e he => ?_
  refine ESc.congr (Ret.ok (he.map _)) fun i _ => ?_
  unfold ApproxW.qd
  simp only
  conv_rhs => rw [cumsum_range ((List.range M).map (u i)) M (by simp)]
  simp only [zip2_map, List.map_map, Function.comp_def]

theorem indTerm_ev (hf : Ve fct s M x) (hw : Ve w s M u) (φ : ℕ → ℕ) (hφ : ∀ k < M, φ k < M) :
    ESc (indTerm fct w ((List.range M).map φ)) s fun i =>
      ((List.range M).map fun k => XF.abs (idx ((List.range M).map (x i)) (φ k)
        - idx ((List.range M).map (x i)) k) * idx ((List.range M).map (u i)) (φ k)).sum := by
  unfold indTerm
  refine (Ve.op (hf.take_map φ hφ) hf).bind fun d hd =>
    (Ve.op (hd.map _) (hw.take_map φ hφ)).bind fun e he => ?_
  refine (Ve.sum he).congr fun i _ => ?_
  congr 1
  refine List.map_congr_left fun k hk => ?_
  have hk := List.mem_range.1 hk
  simp [idx, hk, hφ k hk]

theorem akr_ev (ho : Sc obs s y) (hf : Ve fct s M x) (hw : Ve w s M u) :
    ESc (akr obs fct w) s fun i =>
      ApproxW.akr (y i) ((List.range M).map (x i)) ((List.range M).map (u i)) := by
  unfold akr
  rw [hf.lastLen]
  refine (e1_ev ho hf hw).bind fun a ha =>
    (indTerm_ev hf hw (fun i => (i + 1) % M) fun k hk => Nat.mod_lt _ (by omega)).bind fun b hb => ?_
  refine (combine_ev ha hb).congr fun i _ => ?_
  simp only [ApproxW.akr, List.length_map, List.length_range]

theorem akrCircperm_ev (ho : Sc obs s y) (hf : Ve fct s M x) (hw : Ve w s M u) :
    ESc (akrCircperm obs fct w) s fun i =>
      ApproxW.akrCircperm (y i) ((List.range M).map (x i)) ((List.range M).map (u i)) := by
  unfold akrCircperm
  rw [hf.lastLen]
  refine (e1_ev ho hf hw).bind fun a ha =>
    (indTerm_ev hf hw (fun i => (i + (M - 1) / 2) % M)
      fun k hk => Nat.mod_lt _ (by omega)).bind fun b hb => ?_
  refine (combine_ev ha hb).congr fun i _ => ?_
  simp only [ApproxW.akrCircperm, List.length_map, List.length_range]

theorem int_ev (ho : Sc obs s y) (hf : Ve fct s M x) (hw : Ve w s M u) :
    ESc (CrpsNpW.int obs fct w) s fun i =>
      ApproxW.int (y i) ((List.range M).map (x i)) ((List.range M).map (u i)) := by
  unfold CrpsNpW.int
  refine ho.ex.bind fun o ho' => (Ve.op1r hf ho').bind fun le hle => (Ve.op hle hw).bind fun m hm =>
    (Ve.sum hm).bind fun m hm => hm.ex.bind fun yp hyp => ?_
  refine (intTail_ev ho hf (hw.rows cumsum) hyp).congr fun i _ => ?_
  unfold ApproxW.int intVal
  rw [← cumsum_range _ M (by simp)]
  simp only [zip2_map]

theorem pairSumO_ev (hf : Ve fct s M x) (hw : Ve fw s M u) (hv : Ve w s M v) :
    ESc (pairSumO fct fw w) s fun i =>
      let t := (((List.range M).map (x i)).zip ((List.range M).map (u i))).zip ((List.range M).map (v i))
      (t.map fun p => (t.map fun q =>
        p.2 * q.2 * XF.abs (p.1.1 - q.1.1) * p.1.2 * q.1.2).sum).sum := by
  unfold pairSumO
  refine hv.ex1.bind fun v1 hv1 => hv.ex2.bind fun v2 hv2 => (Ma.op12 hv1 hv2).bind fun p hp =>
    (pairDiff_ev hf).bind fun d hd => (Ma.op hp hd).bind fun p hp => hw.ex1.bind fun w1 hw1 =>
    (Ma.opC hp hw1).bind fun p hp => hw.ex2.bind fun w2 hw2 => (Ma.opR hp hw2).bind fun p hp => ?_
  refine (Ma.sum2 hp).congr fun i _ => ?_
  simp only [List.zip_map', List.map_map, Function.comp_def]

theorem e1O_ev (ho : Sc obs s y) (hf : Ve fct s M x) (hw : Ve fw s M u) (hv : Ve w s M v) :
    ESc (e1O obs fct fw w) s fun i =>
      (zip2 (· * ·) (zip2 (fun v x => v * XF.abs (y i - x)) ((List.range M).map (v i))
        ((List.range M).map (x i))) ((List.range M).map (u i))).sum := by
  unfold e1O
  refine (absErr_ev ho hf).bind fun a ha => (Ve.op hv ha).bind fun b hb => (Ve.op hb hw).bind fun b hb => ?_
  refine (Ve.sum hb).congr fun i _ => ?_
  simp only [zip2, List.zipWith_map, List.zipWith_self]

theorem ow_ev (ho : Sc obs s y) (hf : Ve fct s M x) (hc : Sc ow s c) (hw : Ve fw s M u)
    (hv : Ve w s M v) :
    ESc (CrpsNpW.ow obs fct ow fw w) s fun i =>
      ApproxW.ow (y i) ((List.range M).map (x i)) (c i) ((List.range M).map (u i))
        ((List.range M).map (v i)) := by
  unfold CrpsNpW.ow
  refine (Ve.op hv hw).bind fun wb hwb => (Ve.sum hwb).bind fun wb hwb =>
    (e1O_ev ho hf hw hv).bind fun a ha => (Sc.op ha hc).bind fun a ha => (Sc.op ha hwb).bind fun e1 he1 =>
    (pairSumO_ev hf hw hv).bind fun e2 he2 => (Sc.op hc (hwb.map _)).bind fun d hd =>
    (Sc.inplace he2 hd).bind fun e2 he2 => ?_
  refine (combine_ev he1 he2).congr fun i _ => ?_
  simp only [ApproxW.ow, zip2, List.zipWith_map, List.zipWith_self]

theorem vr_ev (ho : Sc obs s y) (hf : Ve fct s M x) (hc : Sc ow s c) (hw : Ve fw s M u)
    (hv : Ve w s M v) :
    ESc (CrpsNpW.vr obs fct ow fw w) s fun i =>
      ApproxW.vr (y i) ((List.range M).map (x i)) (c i) ((List.range M).map (u i))
        ((List.range M).map (v i)) := by
  unfold CrpsNpW.vr
  refine (e1O_ev ho hf hw hv).bind fun a ha => (Sc.op ha hc).bind fun e1 he1 =>
    (pairSumO_ev hf hw hv).bind fun e2 he2 => (Ve.op hv (hf.map _)).bind fun b hb =>
    (Ve.op hb hw).bind fun b hb => (Ve.sum hb).bind fun b hb => (Sc.op (ho.map _) hc).bind fun d hd =>
    (Sc.op hb hd).bind fun e3 he3 => (Ve.op hv hw).bind fun g hg => (Ve.sum hg).bind fun g hg =>
    (Sc.op hg hc).bind fun g hg => (Sc.inplace he3 hg).bind fun e3 he3 =>
    (combine_ev he1 he2).bind fun r hr => ?_
  refine (Sc.op hr he3).congr fun i _ => ?_
  simp only [ApproxW.vr, zip2, List.zipWith_map, List.zipWith_self]

end CrpsNpW
end Verif
