import Verif.Lemmas.RoundCrpsInt
import Verif.Lemmas.CrpsApi

/-! The integral form of the array path. -/

noncomputable section

open scoped Classical

namespace Verif

open XF Py Spec

/-- the values of the distribution function: `1 / M`, …, `M / M` and its value at the observation -/
def cdfL (y : ℝ) (xs : List ℝ) : List ℝ :=
  (List.range xs.length).map (fun i => ((i + 1 : ℕ) : ℝ) / xs.length)
    ++ [(((xs.map fun x => if x ≤ y then 1 else 0).sum : ℕ) : ℝ) / xs.length]

theorem cdfL_count (y : ℝ) (xs : List ℝ) : (xs.map fun x => if x ≤ y then 1 else 0).sum ≤ xs.length := by
  induction xs with
  | nil => simp
  | cons x xs ih => simp only [List.map_cons, List.sum_cons, List.length_cons]; split_ifs <;> omega

theorem cdfL_mem {y : ℝ} {xs : List ℝ} {a : ℝ} (h : a ∈ cdfL y xs) : ∃ j : ℕ, j ≤ xs.length ∧ a = j / xs.length := by
  unfold cdfL at h
  rcases List.mem_append.1 h with h | h
  · obtain ⟨i, hi, rfl⟩ := List.mem_map.1 h
    exact ⟨i + 1, by have := List.mem_range.1 hi; omega, rfl⟩
  · rw [List.mem_singleton] at h
    exact ⟨_, cdfL_count y xs, h⟩

theorem cdfL_unit {y : ℝ} {xs : List ℝ} {a : ℝ} (hne : xs ≠ []) (h : a ∈ cdfL y xs) : 0 ≤ a ∧ a ≤ 1 := by
  obtain ⟨j, hj, rfl⟩ := cdfL_mem h
  have hM0 : (0:ℝ) < xs.length := by exact_mod_cast List.length_pos_iff.mpr hne
  have : (j:ℝ) ≤ xs.length := by exact_mod_cast hj
  exact ⟨by positivity, by rw [div_le_one hM0]; exact this⟩

/-- whole numbers are added exactly -/
theorem RSum.nats_aux {r : ℝ → XF} (hr : Binary64 r) (v : XF → ℕ) {xs : List XF} {s : XF} (h : RSum r xs s) :
    (∀ x ∈ xs, x = fin (v x)) → (xs.map v).sum ≤ 2 ^ 53 → s = fin ((xs.map v).sum : ℕ) := by
  induction h with
  | nil => intro _ _; simp [zero_fin]
  | one x => intro h _; simpa using h x (by simp)
  | append _ _ _ _ ih1 ih2 =>
    intro h hle
    rw [List.map_append, List.sum_append] at hle ⊢
    rw [ih1 (fun x hx => h x (by simp [hx])) (by omega), ih2 (fun x hx => h x (by simp [hx])) (by omega), fin_add, ← Nat.cast_add]
    exact hr.nat _ hle
  | perm e _ ih =>
    intro h hle
    rw [← (e.map v).sum_eq] at hle ⊢
    exact ih (fun x hx => h x (e.mem_iff.1 hx)) hle

theorem RSum.nats {r : ℝ → XF} (hr : Binary64 r) {ns : List ℕ} {s : XF} (h : RSum r (ns.map fun n : ℕ => fin (n:ℝ)) s)
    (hle : ns.sum ≤ 2 ^ 53) : s = fin (ns.sum : ℕ) := by
  obtain ⟨v, hv⟩ : ∃ v : XF → ℕ, ∀ n : ℕ, v (fin (n:ℝ)) = n := by
    refine ⟨fun x : XF => if h : ∃ n : ℕ, x = fin (n:ℝ) then h.choose else 0, fun n => ?_⟩
    have he : ∃ m : ℕ, fin (n:ℝ) = fin (m:ℝ) := ⟨n, rfl⟩
    dsimp only
    rw [dif_pos he]
    have := he.choose_spec
    rw [fin.injEq] at this
    exact_mod_cast this.symm
  have e := RSum.nats_aux hr v h (by
    intro x hx
    obtain ⟨n, _, rfl⟩ := List.mem_map.1 hx
    rw [hv n]) (by
    rw [List.map_map, show (v ∘ fun n : ℕ => fin (n:ℝ)) = id from funext hv, List.map_id]
    exact hle)
  rw [List.map_map, show (v ∘ fun n : ℕ => fin (n:ℝ)) = id from funext hv, List.map_id] at e
  exact e

/-- sorting and a monotone function -/
theorem sort_map_mono {R : ℝ → ℝ} {l : List ℝ} (h : ∀ a ∈ l, ∀ b ∈ l, a ≤ b → R a ≤ R b) :
    Py.sort (l.map fun a => fin (R a)) = (rsort l).map fun a => fin (R a) := by
  have h1 : ((rsort l).map R).Pairwise (· ≤ ·) := by
    rw [List.pairwise_map]
    exact (rsort_sorted l).imp_of_mem fun ha hb hab => h _ ((rsort_perm l).mem_iff.1 ha) _ ((rsort_perm l).mem_iff.1 hb) hab
  have h2 := sort_map_fin (l.map R)
  rw [List.map_map] at h2
  have h3 : rsort (l.map R) = (rsort l).map R :=
    ((rsort_perm (l.map R)).trans ((rsort_perm l).map R).symm).eq_of_pairwise (fun _ _ _ _ h1 h2 => le_antisymm h1 h2)
      (rsort_sorted _) h1
  rw [h3, List.map_map] at h2
  exact h2

theorem crpsInt_shape {r : ℝ → XF} {S : List XF → XF} {R : ℝ → ℝ} (hR : ∀ a, 0 ≤ a → a ≤ 1 → r a = fin (R a))
    (hmono : ∀ a b, 0 ≤ a → a ≤ b → b ≤ 1 → R a ≤ R b) (h0 : r 0 = fin 0) (h1 : r 1 = fin 1)
    (hS : ∀ ns : List ℕ, ns.sum ≤ 2 ^ 53 → S (ns.map fun n : ℕ => fin (n:ℝ)) = fin (ns.sum : ℕ)) {y : ℝ} {xs : List ℝ}
    (hne : xs ≠ []) (hM : xs.length ≤ 2 ^ 20) :
    Rnd.crpsInt r S (fin y) (xs.map fin) = S ((List.range xs.length).map fun i =>
      Rnd.rd r (Rnd.rd r (fin ((rsort (xs ++ [y])).getD (i + 1) 0 - (rsort (xs ++ [y])).getD i 0))
        * Rnd.rd r (Rnd.rd r (fin (R ((rsort (cdfL y xs)).getD i 0))
          - fin (if y ≤ (rsort (xs ++ [y])).getD i 0 then 1 else 0)) ^ 2))) := by
  have hM0 : (xs.length : ℝ) ≠ 0 := by simpa using hne
  have hi : ∀ p : Prop, Rnd.rd r (ind p * 1) = fin (if p then 1 else 0) := by
    intro p
    rw [ind_def, one_fin, fin_mul, mul_one]
    split_ifs
    · exact h1
    · exact h0
  have hi2 : ∀ p : Prop, Rnd.rd r (ind p) = fin (if p then 1 else 0) := by
    intro p
    rw [ind_def]
    split_ifs
    · exact h1
    · exact h0
  have ypos : Rnd.rd r (S ((xs.map fin).map fun x => Rnd.rd r (ind (x ≤ fin y) * 1)) / (xs.length : XF))
      = fin (R ((((xs.map fun x => if x ≤ y then 1 else 0).sum : ℕ) : ℝ) / xs.length)) := by
    have e : ((xs.map fin).map fun x => Rnd.rd r (ind (x ≤ fin y) * 1))
        = (xs.map fun x => if x ≤ y then 1 else 0).map fun n : ℕ => fin (n:ℝ) := by
      rw [List.map_map, List.map_map]
      refine List.map_congr_left fun x _ => ?_
      simp only [Function.comp_apply, hi, fin_le]
      split_ifs <;> simp
    have hc := cdfL_count y xs
    rw [e, hS _ (hc.trans (hM.trans (by norm_num))), natCast_fin, fin_div hM0]
    have u := cdfL_unit (y := y) hne (a := (((xs.map fun x => if x ≤ y then 1 else 0).sum : ℕ) : ℝ) / xs.length) (by simp [cdfL])
    exact hR _ u.1 u.2
  have cdf : ((List.range xs.length).map fun i => 0 + Rnd.rd r (((i + 1 : ℕ) : XF) / (xs.length : XF)))
      ++ [fin (R ((((xs.map fun x => if x ≤ y then 1 else 0).sum : ℕ) : ℝ) / xs.length))] = (cdfL y xs).map fun a => fin (R a) := by
    unfold cdfL
    rw [List.map_append, List.map_map]
    congr 1
    refine List.map_congr_left fun i hi' => ?_
    have u := cdfL_unit (y := y) hne (a := ((i + 1 : ℕ) : ℝ) / xs.length)
      (List.mem_append_left _ (List.mem_map.2 ⟨i, hi', rfl⟩))
    rw [natCast_fin, natCast_fin, fin_div hM0]
    show 0 + r _ = _
    rw [hR _ u.1 u.2, zero_fin, fin_add, zero_add]
    rfl
  unfold Rnd.crpsInt
  simp only [List.length_map]
  rw [ypos, cdf, sort_map_mono fun a ha b hb hab => hmono a b (cdfL_unit hne ha).1 hab (cdfL_unit hne hb).2,
    show xs.map fin ++ [fin y] = (xs ++ [y]).map fin by simp, sort_map_fin]
  have l1 : (rsort (xs ++ [y])).length = xs.length + 1 := by rw [(rsort_perm _).length_eq]; simp
  have l2 : (rsort (cdfL y xs)).length = xs.length + 1 := by rw [(rsort_perm _).length_eq]; simp [cdfL]
  congr 1
  apply List.ext_getElem
  · simp [zip2, l1, l2]
  · intro i h3 h4
    have h5 : i < xs.length := by simpa using h4
    have h6 : i < (rsort (xs ++ [y])).length := by omega
    have h7 : i + 1 < (rsort (xs ++ [y])).length := by omega
    have h8 : i < (rsort (cdfL y xs)).length := by omega
    simp [zip2, hi2, h6, h7, h8]

section
variable {r : ℝ → XF} (hr : Nearest64 r) {S : List XF → XF} (hS : ∀ xs, RSum r xs (S xs))
include hr hS

theorem crpsInt_near {y : ℝ} {xs : List ℝ} (hne : xs ≠ []) (hM : xs.length ≤ 2 ^ 20) (hs : xs.Pairwise (· ≤ ·))
    (hy : |y| ≤ 2 ^ 959) (hx : ∀ x ∈ xs, |x| ≤ 2 ^ 959) (hb : int0 y 0 0 (uw xs) ≤ 2 ^ 1000) :
    SqNear (1 / 2 ^ 1073) (Rnd.crpsInt r S (fin y) (xs.map fin)) (int0 y 0 0 (uw xs)) (6 * (xs.length : ℝ) ^ 2 + 11 + xs.length)
      (4 * xs.length) := by
  have hM' : (xs.length : ℝ) ≤ 2 ^ 20 := by exact_mod_cast hM
  have hl : 0 < xs.length := List.length_pos_iff.mpr hne
  have hM0 : (0:ℝ) < xs.length := by exact_mod_cast hl
  have hMM : (xs.length : ℝ) ^ 2 ≤ 2 ^ 40 := by
    calc (xs.length : ℝ) ^ 2 ≤ (2 ^ 20) ^ 2 := pow_le_pow_left₀ (Nat.cast_nonneg _) hM' 2
      _ = 2 ^ 40 := by rw [← pow_mul]
  have h01 : (1:ℝ) < 2 ^ 1023 := one_lt_pow₀ (by norm_num) (by norm_num)
  have ex : ∀ a : ℝ, ∃ b, 0 ≤ a → a ≤ 1 → r a = fin b := by
    intro a
    by_cases h : 0 ≤ a ∧ a ≤ 1
    · obtain ⟨δ, η, _, _, e⟩ := hr.acc (a := a) (by rw [abs_of_nonneg h.1]; exact h.2.trans_lt h01)
      exact ⟨_, fun _ _ => e⟩
    · exact ⟨0, fun h1 h2 => absurd ⟨h1, h2⟩ h⟩
  choose R hR using ex
  have hmono : ∀ a b, 0 ≤ a → a ≤ b → b ≤ 1 → R a ≤ R b := by
    intro a b h1 h2 h3
    have := hr.mono h2
    rw [hR a h1 (h2.trans h3), hR b (h1.trans h2) h3, fin_le] at this
    exact this
  have r0 : r 0 = fin 0 := by simpa using hr.nat 0 (by norm_num)
  have r1 : r 1 = fin 1 := by simpa using hr.nat 1 (by norm_num)
  rw [crpsInt_shape hR hmono r0 r1 (fun ns h => (hS _).nats hr.toBinary64 h) hne hM]
  -- the exact sum
  have real := crpsInt_shape (r := fin) (S := List.sum) (R := id) (fun _ _ _ => rfl) (fun _ _ _ h _ => h) rfl rfl
    (fun ns _ => by rw [sum_map_fin', Nat.cast_list_sum]) (y := y) hne hM
  have ex2 : Rnd.crpsInt fin List.sum = Approx.int := by
    funext y xs
    simp only [Rnd.crpsInt, Approx.int, rd_fin_eq, mean, List.length_map]
  rw [ex2, Approx.int_fin y xs hne hs] at real
  simp only [rd_fin_eq, fin_sub, fin_pow, fin_mul, id, sum_map_fin'] at real
  rw [fin.injEq] at real
  generalize hE : rsort (xs ++ [y]) = E at *
  generalize hC : rsort (cdfL y xs) = C at *
  have pE : E.Perm (xs ++ [y]) := hE ▸ rsort_perm _
  have pC : C.Perm (cdfL y xs) := hC ▸ rsort_perm _
  have lE : E.length = xs.length + 1 := by rw [← hE, (rsort_perm _).length_eq]; simp
  have lC : C.length = xs.length + 1 := by rw [← hC, (rsort_perm _).length_eq]; simp [cdfL]
  have sE : E.Pairwise (· ≤ ·) := hE ▸ rsort_sorted _
  have bE : ∀ i ≤ xs.length, |E.getD i 0| ≤ 2 ^ 959 := by
    intro i hi
    rw [show E.getD i 0 = E[i] by simp [show i < E.length by omega]]
    have : E[i] ∈ xs ++ [y] := pE.mem_iff.1 (List.getElem_mem _)
    rcases List.mem_append.1 this with h | h
    · exact hx _ h
    · rw [List.mem_singleton.1 h]; exact hy
  have stepE : ∀ i < xs.length, E.getD i 0 ≤ E.getD (i + 1) 0 := by
    intro i hi
    rw [show E.getD i 0 = E[i] by simp [show i < E.length by omega], show E.getD (i + 1) 0 = E[i + 1] by simp [show i + 1 < E.length by omega]]
    exact List.pairwise_iff_getElem.1 sE i (i + 1) (by omega) (by omega) (by omega)
  have cC : ∀ i < xs.length, ∃ j : ℕ, j ≤ xs.length ∧ C.getD i 0 = j / xs.length := by
    intro i hi
    rw [show C.getD i 0 = C[i] by simp [show i < C.length by omega]]
    exact cdfL_mem (y := y) (pC.mem_iff.1 (List.getElem_mem _))
  have ent : ∀ i < xs.length, Ent xs.length (Rnd.rd r (Rnd.rd r (fin (E.getD (i + 1) 0 - E.getD i 0))
      * Rnd.rd r (Rnd.rd r (fin (R (C.getD i 0)) - fin (if y ≤ E.getD i 0 then 1 else 0)) ^ 2)))
      ((E.getD (i + 1) 0 - E.getD i 0) * (C.getD i 0 - if y ≤ E.getD i 0 then 1 else 0) ^ 2) := by
    intro i hi
    obtain ⟨j, hj, hc⟩ := cC i hi
    have hj' : (j:ℝ) ≤ xs.length := by exact_mod_cast hj
    have u0 : 0 ≤ E.getD (i + 1) 0 - E.getD i 0 := sub_nonneg.2 (stepE i hi)
    have u1 : |E.getD (i + 1) 0 - E.getD i 0| ≤ 2 ^ 960 := dist960 (bE _ (by omega)) (bE _ (by omega))
    have f0 : (0:ℝ) ≤ j / xs.length := by positivity
    have f1 : (j:ℝ) / xs.length ≤ 1 := by rw [div_le_one hM0]; exact hj'
    rw [hc, XF.mul_comm', mul_comm (E.getD (i + 1) 0 - E.getD i 0)]
    have low : (j:ℝ) / xs.length = 0 ∨ 1 / 2 ^ 900 ≤ (j:ℝ) / xs.length := by
      rcases Nat.eq_zero_or_pos j with h | h
      · left; simp [h]
      · right
        have h1 : (1:ℝ) / 2 ^ 900 ≤ 1 / 2 ^ 20 := one_div_le_one_div_of_le (by positivity) (pow_le_pow_right₀ (by norm_num) (by norm_num))
        exact h1.trans (div_le_div₀ (by positivity) (by exact_mod_cast h) hM0 hM')
    have n0 : RelNear (fin ((j:ℝ) / xs.length)) (j / xs.length) 0 := ⟨_, rfl, f0, by simp⟩
    have n1 : RelNear (fin (R ((j:ℝ) / xs.length))) (j / xs.length) (0 + 2) := by
      have := n0.rd hr low (by linarith) (by norm_num)
      rwa [show Rnd.rd r (fin ((j:ℝ) / xs.length)) = fin (R ((j:ℝ) / xs.length)) from hR _ f0 f1] at this
    have j0 : (0:ℝ) ≤ j := Nat.cast_nonneg _
    rcases Nat.lt_or_ge j xs.length with hlt | hge
    · split_ifs
      · rw [← one_fin]
        exact ent_compl hr hlt hM (n1.mono f0 (by linarith)) u0 u1
      · rw [fin_sub, sub_zero, sub_zero]
        exact ent_cdf hr hlt hM (k := 0 + 2 + 2) (by norm_num) (by linarith) (n1.rd hr low (by linarith) (by norm_num)) (Or.inr u0) u1
    · have e1 : (j:ℝ) / xs.length = 1 := by
        rw [show j = xs.length by omega]; exact div_self hM0.ne'
      have e2 : R 1 = 1 := by
        have := hR 1 (by norm_num) le_rfl
        rw [r1, fin.injEq] at this
        exact this.symm
      rw [e1, e2]
      have g1 : RelNear (fin 1) 1 0 := ⟨1, rfl, by norm_num, by simp⟩
      have g0 : RelNear (fin 0) 0 0 := ⟨0, rfl, le_rfl, by simp⟩
      have rr0 : Rnd.rd r (fin 0) = fin 0 := r0
      have rr1 : Rnd.rd r (fin 1) = fin 1 := r1
      have sqp := sq_nonneg (xs.length : ℝ)
      split_ifs
      · rw [fin_sub, sub_self, rr0, fin_pow, show (0:ℝ) ^ 2 = 0 by norm_num, rr0]
        have := intTerm_near hr g0 le_rfl (by norm_num) (Or.inr u0) u1 (by norm_num)
        exact ⟨this.1, this.2.mono unit_abs.nonneg this.1 (by linarith) le_rfl⟩
      · rw [fin_sub, sub_zero, rr1, fin_pow, one_pow, rr1]
        have := intTerm_near hr g1 (by norm_num) le_rfl (Or.inr u0) u1 (by norm_num)
        exact ⟨this.1, this.2.mono unit_abs.nonneg this.1 (by linarith) le_rfl⟩
  have k1 : 6 * (2:ℝ) ^ 40 + 11 + (2 + 2 ^ 20) ≤ 2 ^ 50 := by norm_num
  have k2 : (4:ℝ) * (2 + 2 ^ 20) ≤ 2 ^ 50 := by norm_num
  have n := (hS ((List.range xs.length).map fun i => Rnd.rd r (Rnd.rd r (fin (E.getD (i + 1) 0 - E.getD i 0))
      * Rnd.rd r (Rnd.rd r (fin (R (C.getD i 0)) - fin (if y ≤ E.getD i 0 then 1 else 0)) ^ 2)))).sqNear hr.toBinary64 unit_abs
    (k := 6 * (xs.length : ℝ) ^ 2 + 11) (m := 3) (by norm_num)
    (as := (List.range xs.length).map fun i => (E.getD (i + 1) 0 - E.getD i 0) * (C.getD i 0 - if y ≤ E.getD i 0 then 1 else 0) ^ 2)
    ?_ ?_ ?_ ?_
  · rw [← real, List.length_map, List.length_range] at n
    refine n.mono unit_abs.nonneg ?_ le_rfl (by linarith)
    rw [real]
    refine list_sum_nonneg' fun i hi => (ent i (List.mem_range.1 hi)).1
  · rw [List.forall₂_map_left_iff, List.forall₂_map_right_iff, List.forall₂_same]
    exact fun i hi => ent i (List.mem_range.1 hi)
  · rw [← real]; exact hb
  · rw [List.length_map, List.length_range]; linarith only [k1, hMM, hM']
  · rw [List.length_map, List.length_range]; linarith only [k2, hM']

end

end Verif
