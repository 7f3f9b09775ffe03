import Verif.Lemmas.CrpsKernels
import Verif.Lemmas.Sorting

/-! The array-style integral estimator on finite inputs. -/

noncomputable section

open scoped Classical

namespace Verif

open XF Py

/-- (value, running total) -/
def run : ℝ → List (ℝ × ℝ) → List (ℝ × ℝ)
  | _, [] => []
  | c, p :: l => (p.1, c + p.2) :: run (c + p.2) l

/-- integral over consecutive points `(e, c)` -/
def consec (y : ℝ) : List (ℝ × ℝ) → ℝ
  | [] => 0
  | [_] => 0
  | a :: b :: r => (b.1 - a.1) * (a.2 - if y ≤ a.1 then 1 else 0) ^ 2 + consec y (b :: r)

theorem run_append (c : ℝ) (A B : List (ℝ × ℝ)) :
    run c (A ++ B) = run c A ++ run (c + wtot A) B := by
  induction A generalizing c with
  | nil => simp [run, wtot]
  | cons p A ih => simp [run, ih, wtot, add_assoc]

theorem run_length (c : ℝ) (l : List (ℝ × ℝ)) : (run c l).length = l.length := by
  induction l generalizing c with
  | nil => rfl
  | cons p l ih => simp [run, ih]

theorem run_val (c : ℝ) (l : List (ℝ × ℝ)) : (run c l).map (fun t => fin t.1) = Xs l := by
  induction l generalizing c with
  | nil => rfl
  | cons p l ih => simp only [run, List.map_cons, ih, Xs]

theorem run_cum (c : ℝ) (l : List (ℝ × ℝ)) :
    (run c l).map (fun t => fin t.2) = cums (fin c) (Ws l) := by
  induction l generalizing c with
  | nil => rfl
  | cons p l ih => simp only [run, List.map_cons, ih, Ws, cums, fin_add]

theorem consec_passed (y c p : ℝ) (B : List (ℝ × ℝ)) (h : SortedP B) (hB : ∀ q ∈ B, p ≤ q.1)
    (hy : y ≤ p) : consec y ((p, c) :: run c B) = int1 c p B := by
  induction B generalizing c p with
  | nil => simp [run, consec, int1]
  | cons q B ih =>
    have hh := List.pairwise_cons.1 h
    have hq : p ≤ q.1 := hB q (by simp)
    simp only [run, consec, int1, if_pos hy]
    rw [ih (c + q.2) q.1 hh.2 hh.1 (by linarith)]
    ring

theorem consec_at (y c p : ℝ) (B : List (ℝ × ℝ)) (h : SortedP B) (hB : ∀ q ∈ B, y < q.1)
    (hc : c + wtot B = 1) :
    (y - p) * c ^ 2 + consec y ((y, c) :: run c B) = int0 y c p B := by
  cases B with
  | nil =>
    have : c = 1 := by simpa [wtot] using hc
    simp [run, consec, int0, this]
  | cons q B =>
    have hh := List.pairwise_cons.1 h
    have hq : y < q.1 := hB q (by simp)
    simp only [run, consec, int0, le_refl, if_true, if_pos hq]
    rw [consec_passed y (c + q.2) q.1 B hh.2 hh.1 hq.le]
    ring

theorem consec_before (y c p : ℝ) (A B : List (ℝ × ℝ)) (hA : SortedP A) (h : SortedP B)
    (hpA : ∀ q ∈ A, p ≤ q.1) (hp : p ≤ y) (hAy : ∀ q ∈ A, q.1 ≤ y)
    (hB : ∀ q ∈ B, y < q.1) (hc : c + wtot A + wtot B = 1) :
    consec y ((p, c) :: (run c A ++ (y, c + wtot A) :: run (c + wtot A) B)) = int0 y c p (A ++ B) := by
  induction A generalizing c p with
  | nil =>
    have hc' : c + wtot B = 1 := by simpa [wtot] using hc
    have e : wtot [] = 0 := rfl
    simp only [run, List.nil_append, e, add_zero]
    rw [← consec_at y c p B h hB hc', consec]
    congr 1
    by_cases hpy : y ≤ p
    · have : y = p := le_antisymm hpy hp
      simp [this]
    · simp [hpy]
  | cons q A ih =>
    have hh := List.pairwise_cons.1 hA
    have e : c + wtot (q :: A) = c + q.2 + wtot A := by simp [wtot, add_assoc]
    have hqy : q.1 ≤ y := hAy q (by simp)
    have hpq : p ≤ q.1 := hpA q (by simp)
    rw [e] at hc ⊢
    simp only [run, List.cons_append, consec, int0, if_neg (not_lt.2 hqy)]
    rw [ih (c + q.2) q.1 hh.2 hh.1 hqy (fun r hr => hAy r (by simp [hr])) hc]
    congr 1
    by_cases hpy : y ≤ p
    · have : q.1 - p = 0 := by linarith
      simp [this]
    · simp [hpy]; ring

/-- the merged list of points -/
theorem consec_full (y : ℝ) (A B : List (ℝ × ℝ)) (hA : SortedP A) (h : SortedP B)
    (hAy : ∀ q ∈ A, q.1 ≤ y) (hB : ∀ q ∈ B, y < q.1) (hc : wtot A + wtot B = 1) :
    consec y (run 0 A ++ (y, wtot A) :: run (wtot A) B) = int0 y 0 0 (A ++ B) := by
  cases A with
  | nil =>
    have e : wtot [] = 0 := rfl
    simp only [run, List.nil_append, e]
    rw [← consec_at y 0 0 B h hB (by simpa [wtot] using hc)]
    simp
  | cons q A =>
    have hh := List.pairwise_cons.1 hA
    have e : wtot (q :: A) = 0 + q.2 + wtot A := by simp [wtot]
    have hqy : q.1 ≤ y := hAy q (by simp)
    rw [e] at hc ⊢
    simp only [run, List.cons_append, int0, if_neg (not_lt.2 hqy)]
    rw [consec_before y (0 + q.2) q.1 A B hh.2 h hh.1 hqy (fun r hr => hAy r (by simp [hr])) hB hc]
    simp

/-- the array expression over the merged points -/
theorem arr_consec (y : ℝ) (L : List (ℝ × ℝ)) (M : ℕ) (hM : L.length = M + 1) :
    (zip2 (· * ·) (zip2 (· - ·) ((L.map fun t => fin t.1).drop 1) ((L.map fun t => fin t.1).take M))
      (zip2 (fun c o => (c - o) ^ 2) ((L.map fun t => fin t.2).take M)
        (((L.map fun t => fin t.1).map fun x => ind (fin y ≤ x) * 1).take M))).sum
      = fin (consec y L) := by
  induction L generalizing M with
  | nil => simp at hM
  | cons a L ih =>
    cases L with
    | nil =>
      have : M = 0 := by simpa using hM.symm
      subst this
      simp [consec, zip2, zero_fin]
    | cons b L =>
      obtain ⟨M', rfl⟩ : ∃ M', M = M' + 1 := ⟨L.length, by simpa using hM.symm⟩
      have := ih M' (by simpa using hM)
      simp only [List.map_cons, List.drop_succ_cons, List.drop_zero, List.take_succ_cons, zip2,
        List.zipWith_cons_cons, List.sum_cons] at this ⊢
      rw [this, consec]
      have e : ind (fin y ≤ fin a.1) * 1 = fin (if y ≤ a.1 then 1 else 0) := by
        by_cases h : y ≤ a.1 <;> simp [h, one_fin, zero_fin, ind]
      rw [e, fin_sub, fin_sub, fin_pow, fin_mul, fin_add]

theorem wtot_nonneg {l : List (ℝ × ℝ)} (h : ∀ p ∈ l, 0 ≤ p.2) : 0 ≤ wtot l := by
  apply List.sum_nonneg
  intro x hx
  simp only [List.mem_map] at hx
  obtain ⟨p, hp, rfl⟩ := hx
  exact h p hp

theorem run_bounds (c : ℝ) (l : List (ℝ × ℝ)) (h : ∀ p ∈ l, 0 ≤ p.2) :
    ((run c l).map Prod.snd).Pairwise (· ≤ ·) ∧
      ∀ t ∈ run c l, c ≤ t.2 ∧ t.2 ≤ c + wtot l := by
  induction l generalizing c with
  | nil => simp [run]
  | cons p l ih =>
    have hp := h p (by simp)
    have hl : ∀ q ∈ l, 0 ≤ q.2 := fun q hq => h q (by simp [hq])
    have h0 := wtot_nonneg hl
    obtain ⟨h1, h2⟩ := ih (c + p.2) hl
    have e : wtot (p :: l) = p.2 + wtot l := by simp [wtot]
    constructor
    · simp only [run, List.map_cons, List.pairwise_cons]
      refine ⟨?_, h1⟩
      intro x hx
      simp only [List.mem_map] at hx
      obtain ⟨t, ht, rfl⟩ := hx
      exact (h2 t ht).1
    · intro t ht
      simp only [run, List.mem_cons] at ht
      rcases ht with rfl | ht
      · exact ⟨by simpa using hp, by simp only [e]; linarith⟩
      · have := h2 t ht
        exact ⟨by linarith [this.1], by rw [e]; linarith [this.2]⟩

/-- Splitting a sorted ensemble at the observation. -/
theorem split_sorted (y : ℝ) (l : List (ℝ × ℝ)) (h : SortedP l) :
    ∃ A B, l = A ++ B ∧ (∀ q ∈ A, q.1 ≤ y) ∧ (∀ q ∈ B, y < q.1) ∧ SortedP A ∧ SortedP B := by
  induction l with
  | nil => exact ⟨[], [], rfl, by simp, by simp, List.Pairwise.nil, List.Pairwise.nil⟩
  | cons p l ih =>
    have hh := List.pairwise_cons.1 h
    by_cases hp : p.1 ≤ y
    · obtain ⟨A, B, e, h1, h2, h3, h4⟩ := ih hh.2
      refine ⟨p :: A, B, by simp [e], ?_, h2, ?_, h4⟩
      · intro q hq
        rcases List.mem_cons.1 hq with rfl | hq
        · exact hp
        · exact h1 q hq
      · refine List.pairwise_cons.2 ⟨fun q hq => hh.1 q (by simp [e, hq]), h3⟩
    · refine ⟨[], p :: l, rfl, by simp, ?_, List.Pairwise.nil, h⟩
      intro q hq
      push Not at hp
      rcases List.mem_cons.1 hq with rfl | hq
      · exact hp
      · exact lt_of_lt_of_le hp (hh.1 q hq)

theorem sortedX_map_fin {l : List ℝ} : SortedX (l.map fin) ↔ l.Pairwise (· ≤ ·) := by
  unfold SortedX
  rw [List.pairwise_map]
  rfl

theorem ApproxW.int_fin (y : ℝ) (l : List (ℝ × ℝ)) (h : SortedP l) (hw : ∀ p ∈ l, 0 ≤ p.2)
    (h1 : wtot l = 1) :
    ApproxW.int (fin y) (Xs l) (Ws l) = fin (int0 y 0 0 l) := by
  obtain ⟨A, B, e, hA, hB, sA, sB⟩ := split_sorted y l h
  subst e
  have hwA : ∀ p ∈ A, 0 ≤ p.2 := fun p hp => hw p (by simp [hp])
  have hwB : ∀ p ∈ B, 0 ≤ p.2 := fun p hp => hw p (by simp [hp])
  have hAB : wtot A + wtot B = 1 := by simpa [wtot] using h1
  -- the cdf value at the observation
  have eyA : ∀ l : List (ℝ × ℝ), (∀ q ∈ l, q.1 ≤ y) →
      (l.map fun p : ℝ × ℝ => ind (fin p.1 ≤ fin y) * fin p.2).sum = fin (wtot l) := by
    intro l hl
    rw [wtot, ← sum_map_fin']
    apply sum_map_congr
    intro p hp
    simp [hl p hp, ind, one_fin]
  have eyB : ∀ l : List (ℝ × ℝ), (∀ q ∈ l, y < q.1) →
      (l.map fun p : ℝ × ℝ => ind (fin p.1 ≤ fin y) * fin p.2).sum = fin 0 := by
    intro l hl
    have : (l.map fun p : ℝ × ℝ => ind (fin p.1 ≤ fin y) * fin p.2) = l.map fun _ => fin 0 := by
      apply List.map_congr_left
      intro p hp
      simp [hl p hp, ind, zero_fin]
    rw [this, sum_map_fin' l (fun _ => 0)]; simp
  have ey : (zip2 (fun x v => ind (x ≤ fin y) * v) (Xs (A ++ B)) (Ws (A ++ B))).sum
      = fin (wtot A) := by
    unfold Xs Ws
    rw [zip2_map, List.map_append, List.sum_append, eyA A hA, eyB B hB]
    simp
  -- merged points
  set L := run 0 A ++ (y, wtot A) :: run (wtot A) B with hL
  have eExp : Py.sort (Xs (A ++ B) ++ [fin y]) = L.map fun t => fin t.1 := by
    have e : (L.map fun t => fin t.1) = Xs A ++ fin y :: Xs B := by
      simp [hL, run_val]
    rw [e]
    apply sort_eq_of
    · have e2 : Xs (A ++ B) = Xs A ++ Xs B := by simp [Xs]
      rw [e2, List.append_assoc]
      exact (List.perm_append_comm (l₁ := Xs B) (l₂ := [fin y])).append_left _
    · have : Xs A ++ fin y :: Xs B = (A.map Prod.fst ++ y :: B.map Prod.fst).map fin := by
        simp [Xs, Function.comp_def]
      rw [this, sortedX_map_fin]
      rw [List.pairwise_append]
      refine ⟨List.pairwise_map.2 sA, ?_, ?_⟩
      · rw [List.pairwise_cons]
        refine ⟨?_, List.pairwise_map.2 sB⟩
        intro x hx
        obtain ⟨q, hq, rfl⟩ := List.mem_map.1 hx
        exact (hB q hq).le
      · intro a ha b hb
        obtain ⟨p, hp, rfl⟩ := List.mem_map.1 ha
        rcases List.mem_cons.1 hb with rfl | hb
        · exact hA p hp
        · obtain ⟨q, hq, rfl⟩ := List.mem_map.1 hb
          exact (hA p hp).trans (hB q hq).le
  have eCdf : Py.sort (cumsum (Ws (A ++ B)) ++ [fin (wtot A)]) = L.map fun t => fin t.2 := by
    rw [cumsum_eq, zero_fin, ← run_cum, run_append, zero_add]
    have e : (L.map fun t => fin t.2)
        = ((run 0 A).map fun t => fin t.2) ++ fin (wtot A) :: (run (wtot A) B).map fun t => fin t.2 := by
      simp [hL]
    rw [e]
    apply sort_eq_of
    · rw [List.map_append, List.append_assoc]
      exact (List.perm_append_comm (l₁ := ((run (wtot A) B).map fun t => fin t.2))
        (l₂ := [fin (wtot A)])).append_left _
    · have : ((run 0 A).map fun t => fin t.2) ++ fin (wtot A) ::
            (run (wtot A) B).map (fun t => fin t.2)
          = ((run 0 A).map Prod.snd ++ wtot A :: (run (wtot A) B).map Prod.snd).map fin := by
        simp [Function.comp_def]
      rw [this, sortedX_map_fin]
      obtain ⟨a1, a2⟩ := run_bounds 0 A hwA
      obtain ⟨b1, b2⟩ := run_bounds (wtot A) B hwB
      rw [List.pairwise_append]
      refine ⟨a1, ?_, ?_⟩
      · rw [List.pairwise_cons]
        refine ⟨?_, b1⟩
        intro x hx
        obtain ⟨q, hq, rfl⟩ := List.mem_map.1 hx
        exact (b2 q hq).1
      · intro a ha b hb
        obtain ⟨p, hp, rfl⟩ := List.mem_map.1 ha
        have hpA := (a2 p hp).2
        rcases List.mem_cons.1 hb with rfl | hb
        · linarith
        · obtain ⟨q, hq, rfl⟩ := List.mem_map.1 hb
          linarith [(b2 q hq).1]
  unfold ApproxW.int
  simp only [ey, eExp, eCdf]
  rw [arr_consec y L _ (by simp [hL, run_length]; omega), hL,
    consec_full y A B sA sB hA hB hAB]

end Verif
