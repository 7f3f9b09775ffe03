import Verif.Model.RoundEnergyLoop
import Verif.Lemmas.RoundCrpsAkr

/-! The energy score loops with an accurate norm routine. -/

noncomputable section

open scoped Classical

namespace Verif

open XF Py Mv Spec

theorem unit_nrm : Unit' (1 / 2 ^ 1060) :=
  ⟨one_div_le_one_div_of_le (by positivity) (pow_le_pow_right₀ (by norm_num) (by norm_num)),
    by rw [div_le_one (by positivity)]; exact one_le_pow₀ (by norm_num)⟩

/-- a rounded positive constant of moderate size -/
theorem rd_const {r : ℝ → XF} (hr : Binary64 r) {c : ℝ} (cl : 1 / 2 ^ 900 ≤ c) (c1 : c ≤ 2) :
    ∃ b : ℝ, Rnd.rd r (fin c) = fin b ∧ 0 ≤ b ∧ |b - c| ≤ 1 / 2 ^ 51 * c := by
  have c0 : 0 < c := lt_of_lt_of_le (by positivity) cl
  obtain ⟨δ, η, hδ, hη, e⟩ := hr.acc (a := c) (by
    rw [abs_of_pos c0]
    calc c ≤ 2 ^ 1 := by linarith
      _ < 2 ^ 1023 := pow_lt_pow_right₀ (by norm_num) (by norm_num))
  have hη' : |η| ≤ 1 / 2 ^ 53 * c := by
    refine hη.trans (le_trans ?_ (mul_le_mul_of_nonneg_left cl (by positivity)))
    rw [one_div_mul_one_div, ← pow_add]
    exact one_div_le_one_div_of_le (by positivity) (pow_le_pow_right₀ (by norm_num) (by norm_num))
  have hd' : |c * (1 + δ) + η - c| ≤ 1 / 2 ^ 51 * c := by
    rw [show c * (1 + δ) + η - c = c * δ + η by ring]
    refine (abs_add_le _ _).trans ?_
    rw [abs_mul, abs_of_pos c0]
    have : c * |δ| ≤ c * (1 / 2 ^ 53) := mul_le_mul_of_nonneg_left hδ c0.le
    clear cl
    norm_num at this hη' ⊢
    linarith
  refine ⟨_, e, ?_, hd'⟩
  have := (abs_le.1 hd').1
  clear cl
  norm_num at this
  linarith

/-- a sum that starts from zero -/
theorem sum0_near {α : Type} {r : ℝ → XF} (hr : Binary64 r) {t : ℝ} (ht : Unit' t) {l : List α} {f : α → XF} {a : α → ℝ}
    {k m B : ℝ} {s : XF} (hs : RSum r ([fin 0] ++ l.map f) s) (hm : 0 ≤ m)
    (h : ∀ c ∈ l, 0 ≤ a c ∧ a c ≤ B ∧ SqNear t (f c) (a c) k m) (hB : l.length * B ≤ 2 ^ 1000)
    (hk : k + (l.length + 1) ≤ 2 ^ 50) (hm2 : (m + 1) * (l.length + 1) ≤ 2 ^ 50) :
    SqNear t s (l.map a).sum (k + (l.length + 1)) ((m + 1) * (l.length + 1)) ∧ 0 ≤ (l.map a).sum ∧
      (l.map a).sum ≤ l.length * B := by
  have hb : (l.map a).sum ≤ l.length * B := sum_map_le fun c hc => (h c hc).2.1
  refine ⟨?_, list_sum_nonneg' fun c hc => (h c hc).1, hb⟩
  have n := hs.sqNear hr ht hm (k := k) (as := [0] ++ l.map a) ?_ ?_ ?_ ?_
  · rw [List.sum_append, List.sum_singleton, zero_add, List.length_append, List.length_map, List.length_singleton] at n
    push_cast at n
    rw [add_comm (1:ℝ) (l.length:ℝ)] at n
    exact n
  · refine List.rel_append (List.forall₂_cons.2 ⟨⟨le_refl _, SqNear.zero (mul_nonneg hm ht.nonneg)⟩, .nil⟩) ?_
    rw [List.forall₂_map_left_iff, List.forall₂_map_right_iff, List.forall₂_same]
    exact fun c hc => ⟨(h c hc).1, (h c hc).2.2⟩
  · rw [List.sum_append, List.sum_singleton, zero_add]
    exact hb.trans hB
  · rw [List.length_append, List.length_map, List.length_singleton]
    push_cast
    linarith only [hk]
  · rw [List.length_append, List.length_map, List.length_singleton]
    push_cast
    rw [add_comm (1:ℝ)]
    exact hm2

/-- the last line of the functions -/
theorem loopEnd {r : ℝ → XF} (hr : Binary64 r) {t : ℝ} (ht : Unit' t) {x1 x2 : XF} {A1 A2 k1 k2 m1 m2 M c : ℝ}
    (h1 : SqNear t x1 A1 k1 m1) (h2 : SqNear t x2 A2 k2 m2) (p1 : 0 ≤ A1) (p2 : 0 ≤ A2) (hM : 1 ≤ M)
    (cl : 1 / 2 ^ 900 ≤ c) (c1 : c ≤ 2) (b1 : A1 / M ≤ 2 ^ 990) (b2 : c * A2 ≤ 2 ^ 990) (q2 : 0 ≤ m2)
    {k n1 n2 : ℝ} (hk1 : k1 + 1 ≤ k) (hk2 : k2 + 3 ≤ k) (hk : k ≤ 2 ^ 49) (hn1 : m1 / M + 1 ≤ n1)
    (hn2 : 2 * c * m2 + 1 ≤ n2) (g1 : n1 ≤ 2 ^ 49) (g2 : n2 ≤ 2 ^ 49) :
    ∃ v : ℝ, Rnd.rd r (Rnd.rd r (x1 / fin M) - Rnd.rd r (Rnd.rd r (fin c) * x2)) = fin v ∧
      |v - (A1 / M - c * A2)| ≤ (k + 1) * (1 / 2 ^ 51) * (A1 / M + c * A2) + (n1 + n2 + 1) * t := by
  have M0 : 0 < M := by linarith only [hM]
  have c0 : 0 < c := lt_of_lt_of_le (by positivity) cl
  obtain ⟨b, hb, hb0, hbc⟩ := rd_const hr cl c1
  have k50 : (2:ℝ) ^ 50 = 2 * 2 ^ 49 := pow_succ' _ _
  have k0 : (0:ℝ) < 2 ^ 49 := by positivity
  have u : (2:ℝ) ^ 990 ≤ 2 ^ 1000 := pow_le_pow_right₀ (by norm_num) (by norm_num)
  have u2 : (2:ℝ) ^ 990 + 2 ^ 990 ≤ 2 ^ 1000 := by
    rw [← two_mul, ← pow_succ']; exact pow_le_pow_right₀ (by norm_num) (by norm_num)
  have r1 : 0 ≤ A1 / M := div_nonneg p1 M0.le
  have r2 : 0 ≤ c * A2 := mul_nonneg c0.le p2
  have s1 := ((h1.div M0).rd hr ht r1 (b1.trans u) (by linarith only [hk1, hk, k50, k0]) (by linarith only [hn1, g1, k50, k0])).mono
    ht.nonneg r1 hk1 hn1
  have s2 := ((SqNear.mulrel p2 ht.nonneg (by linarith only [hk2, hk, k50, k0]) q2 hb0 c0.le hbc h2).rd hr ht r2 (b2.trans u)
    (by linarith only [hk2, hk, k50, k0]) (by linarith only [hn2, g2, k50, k0])).mono ht.nonneg r2 (k' := k) (by linarith only [hk2]) hn2
  rw [hb]
  exact sub_near hr ht s1 s2 r1 r2 (by linarith only [hk, k50, k0]) (by linarith only [g1, g2, k50]) ((add_le_add b1 b2).trans u2)

/-- A norm routine with a small error: for vectors with `D` coordinates up to `2 ^ 960` the result differs from the
Euclidean norm by at most `K / 2 ^ 51` times the norm plus `2 ^ -1060`. -/
def NormAcc (N : List XF → XF) (D : ℕ) (K : ℝ) : Prop :=
  ∀ v : Eu D, (∀ i, |v i| ≤ 2 ^ 960) → ∃ b : ℝ, N (vec v) = fin b ∧ 0 ≤ b ∧ |b - ‖v‖| ≤ K / 2 ^ 51 * ‖v‖ + 1 / 2 ^ 1060

section
variable {r : ℝ → XF} (hr : Binary64 r) {D : ℕ} {N : List XF → XF} {K : ℝ} (hN : NormAcc N D K)

theorem norm_le_of_coord {D : ℕ} {w : Eu D} {B : ℝ} (hD : D ≤ 2 ^ 20) (hB : 0 ≤ B) (h : ∀ i, |w i| ≤ B) : ‖w‖ ≤ 2 ^ 10 * B := by
  rw [EuclideanSpace.norm_eq, Real.sqrt_le_iff]
  refine ⟨by positivity, ?_⟩
  have : ∀ i ∈ Finset.univ, ‖w i‖ ^ 2 ≤ B ^ 2 := fun i _ => pow_le_pow_left₀ (norm_nonneg _) (h i) 2
  refine (Finset.sum_le_sum this).trans ?_
  rw [Finset.sum_const, Finset.card_univ, Fintype.card_fin, nsmul_eq_mul]
  have hD' : (D : ℝ) ≤ 2 ^ 20 := by exact_mod_cast hD
  calc (D : ℝ) * B ^ 2 ≤ 2 ^ 20 * B ^ 2 := mul_le_mul_of_nonneg_right hD' (by positivity)
    _ = (2 ^ 10 * B) ^ 2 := by ring

theorem norm_le_mul {D : ℕ} {w u : Eu D} {c : ℝ} (hc : 0 ≤ c) (h : ∀ i, |w i| ≤ c * |u i|) : ‖w‖ ≤ c * ‖u‖ := by
  rw [EuclideanSpace.norm_eq, EuclideanSpace.norm_eq, Real.sqrt_le_iff]
  refine ⟨by positivity, ?_⟩
  rw [mul_pow, Real.sq_sqrt (Finset.sum_nonneg fun _ _ => sq_nonneg _), Finset.mul_sum]
  refine Finset.sum_le_sum fun i _ => ?_
  rw [← mul_pow]
  exact pow_le_pow_left₀ (norm_nonneg _) (h i) 2

include hr in
/-- the rounded difference of two vectors -/
theorem vsub_near {a b : Eu D} (hD : D ≤ 2 ^ 20) (h : ∀ i, |a i - b i| ≤ 2 ^ 941) :
    ∃ v : Eu D, Rnd.vsub r (vec a) (vec b) = vec v ∧ (∀ i, |v i| ≤ 2 ^ 960) ∧
      |‖v‖ - dist a b| ≤ 1 / 2 ^ 53 * dist a b + 1 / 2 ^ 1065 := by
  have acc : ∀ i, ∃ δ η : ℝ, |δ| ≤ 1 / 2 ^ 53 ∧ |η| ≤ 1 / 2 ^ 1075 ∧ r (a i - b i) = fin ((a i - b i) * (1 + δ) + η) := fun i =>
    hr.acc (lt_of_le_of_lt (h i) (pow_lt_pow_right₀ (by norm_num) (by norm_num)))
  choose δ η hδ hη e using acc
  refine ⟨WithLp.toLp 2 fun i => (a i - b i) * (1 + δ i) + η i, ?_, ?_, ?_⟩
  · unfold Rnd.vsub zip2 vec
    apply List.ext_getElem
    · simp
    · intro i h1 h2
      have hi : i < D := by simpa using h2
      simp only [List.getElem_zipWith, List.getElem_ofFn, fin_sub]
      exact e ⟨i, hi⟩
  · intro i
    show |(a i - b i) * (1 + δ i) + η i| ≤ 2 ^ 960
    have d1 : |1 + δ i| ≤ 2 := by
      refine (abs_add_le _ _).trans ?_
      have := hδ i
      rw [abs_one]
      norm_num at this ⊢; linarith
    have d2 : |η i| ≤ 1 := (hη i).trans (by rw [div_le_one (by positivity)]; exact one_le_pow₀ (by norm_num))
    calc |(a i - b i) * (1 + δ i) + η i| ≤ |a i - b i| * |1 + δ i| + |η i| := by
          refine (abs_add_le _ _).trans ?_
          rw [abs_mul]
      _ ≤ 2 ^ 941 * 2 + 1 := add_le_add (mul_le_mul (h i) d1 (abs_nonneg _) (by positivity)) d2
      _ ≤ 2 ^ 942 + 2 ^ 942 := add_le_add (le_of_eq (pow_succ _ _).symm) (one_le_pow₀ (by norm_num))
      _ = 2 ^ 943 := by rw [← two_mul, ← pow_succ']
      _ ≤ 2 ^ 960 := pow_le_pow_right₀ (by norm_num) (by norm_num)
  · have hw : (WithLp.toLp 2 fun i => (a i - b i) * (1 + δ i) + η i : Eu D)
        = (a - b) + ((WithLp.toLp 2 fun i => (a i - b i) * δ i : Eu D) + (WithLp.toLp 2 fun i => η i : Eu D)) := by
      ext i
      show (a i - b i) * (1 + δ i) + η i = (a i - b i) + ((a i - b i) * δ i + η i)
      ring
    rw [dist_eq_norm, hw]
    refine (abs_norm_sub_norm_le _ _).trans ?_
    rw [add_sub_cancel_left]
    refine (norm_add_le _ _).trans (add_le_add ?_ ?_)
    · refine norm_le_mul (by positivity) fun i => ?_
      show |(a i - b i) * δ i| ≤ 1 / 2 ^ 53 * |a i - b i|
      rw [abs_mul, mul_comm]
      exact mul_le_mul_of_nonneg_right (hδ i) (abs_nonneg _)
    · refine (norm_le_of_coord hD (B := 1 / 2 ^ 1075) (by positivity) fun i => hη i).trans (le_of_eq ?_)
      rw [show (1075:ℕ) = 10 + 1065 from rfl, pow_add, ← one_div_mul_one_div, ← mul_assoc]
      norm_num

include hr hN in
/-- the norm of a rounded difference, computed with the routine -/
theorem nrm_near {a b : Eu D} (hD : D ≤ 2 ^ 20) (hK0 : 0 ≤ K) (hK : K ≤ 2 ^ 20) (h : ∀ i, |a i - b i| ≤ 2 ^ 941) :
    SqNear (1 / 2 ^ 1060) (N (Rnd.vsub r (vec a) (vec b))) (dist a b) (K + 1) 2 ∧ dist a b ≤ 2 ^ 951 := by
  have hd : dist a b ≤ 2 ^ 951 := by
    rw [dist_eq_norm]
    refine (norm_le_of_coord hD (B := 2 ^ 941) (by positivity) h).trans (le_of_eq ?_)
    rw [← pow_add]
  refine ⟨?_, hd⟩
  obtain ⟨v, e, hv, hn⟩ := vsub_near hr hD h
  obtain ⟨c, e2, c0, hc⟩ := hN v hv
  rw [e]
  refine ⟨c, e2, c0, ?_⟩
  have t1 : (1:ℝ) / 2 ^ 1065 = 1 / 2 ^ 5 * (1 / 2 ^ 1060) := by
    rw [one_div_mul_one_div, ← pow_add]
  rw [t1] at hn
  have t0 : (0:ℝ) ≤ 1 / 2 ^ 1060 := by positivity
  have d0 : 0 ≤ dist a b := dist_nonneg
  clear hv h hd e e2 t1
  generalize (1:ℝ) / 2 ^ 1060 = t at *
  generalize dist a b = d at *
  generalize ‖v‖ = n at *
  have kq : K / 2 ^ 51 ≤ 1 / 2 ^ 31 := by
    rw [div_le_div_iff₀ (by positivity) (by positivity)]
    calc K * 2 ^ 31 ≤ 2 ^ 20 * 2 ^ 31 := mul_le_mul_of_nonneg_right hK (by positivity)
      _ = 1 * 2 ^ 51 := by norm_num
  have kq0 : 0 ≤ K / 2 ^ 51 := by positivity
  rw [show (K + 1) * (1 / 2 ^ 51) = K / 2 ^ 51 + 1 / 2 ^ 51 by ring]
  generalize K / 2 ^ 51 = κ at *
  have n1 := (abs_le.1 hn).2
  have hcd : |c - d| ≤ |c - n| + |n - d| := by
    rw [show c - d = (c - n) + (n - d) by ring]; exact abs_add_le _ _
  have s1 : κ * n ≤ κ * d + (1 / 2 ^ 31) * (1 / 2 ^ 53 * d + 1 / 2 ^ 5 * t) := by
    have : κ * n ≤ κ * (d + (1 / 2 ^ 53 * d + 1 / 2 ^ 5 * t)) := mul_le_mul_of_nonneg_left (by linarith) kq0
    have w : κ * (1 / 2 ^ 53 * d + 1 / 2 ^ 5 * t) ≤ (1 / 2 ^ 31) * (1 / 2 ^ 53 * d + 1 / 2 ^ 5 * t) :=
      mul_le_mul_of_nonneg_right kq (by positivity)
    linarith
  norm_num at s1 hn hc ⊢
  linarith

/-- the index pairs of the double loop -/
def upIdx (n : ℕ) : List (ℕ × ℕ) :=
  (List.range' 0 (n - 0)).flatMap fun i => (List.range' (i + 1) (n - (i + 1))).map fun j => (i, j)

theorem upIdx_mem {n : ℕ} {q : ℕ × ℕ} (h : q ∈ upIdx n) : q.1 < n ∧ q.2 < n := by
  unfold upIdx at h
  obtain ⟨i, hi, hq⟩ := List.mem_flatMap.1 h
  obtain ⟨j, hj, rfl⟩ := List.mem_map.1 hq
  rw [List.mem_range'_1] at hi hj
  exact ⟨by dsimp only; omega, by dsimp only; omega⟩

theorem upIdx_length (n : ℕ) : (upIdx n).length ≤ n * (n - 1) := by
  unfold upIdx
  rw [List.length_flatMap]
  refine (List.sum_le_card_nsmul _ (n - 1) ?_).trans ?_
  · intro m hm
    obtain ⟨i, _, rfl⟩ := List.mem_map.1 hm
    simp
    omega
  · simp

theorem vat_getD {xs : List (Eu D)} {i : ℕ} (hi : i < xs.length) : vat (xs.map vec) i = vec (xs.getD i 0) := by
  unfold vat
  simp [hi]

theorem getD_mem_eu {xs : List (Eu D)} {i : ℕ} (hi : i < xs.length) : xs.getD i 0 ∈ xs := by
  rw [show xs.getD i 0 = xs[i] by simp [hi]]
  exact List.getElem_mem hi

theorem map_range_vat (xs : List (Eu D)) (f : List XF → XF) :
    ((List.range' 0 (xs.length - 0)).map fun i => f (vat (xs.map vec) i)) = xs.map fun x => f (vec x) := by
  apply List.ext_getElem
  · simp
  · intro i h1 h2
    have hi : i < xs.length := by simpa using h2
    simp [vat, hi]

theorem esLoop_rsum (r : ℝ → XF) (N : List XF → XF) (y : Eu D) (xs : List (Eu D)) :
    RSum r ([fin 0] ++ xs.map fun x => N (Rnd.vsub r (vec x) (vec y))) (RndLoop.esLoop r N (vec y) (xs.map vec)).1 ∧
    RSum r ([fin 0] ++ (upIdx xs.length).map fun q =>
        Rnd.rd r (2 * N (Rnd.vsub r (vec (xs.getD q.1 0)) (vec (xs.getD q.2 0)))))
      (RndLoop.esLoop r N (vec y) (xs.map vec)).2 := by
  have := RSum.fold2 (r := r) (fun i => N (Rnd.vsub r (vat (xs.map vec) i) (vec y)))
    (fun i => List.range' (i + 1) ((xs.map vec).length - (i + 1)))
    (fun i j => Rnd.rd r (2 * N (Rnd.vsub r (vat (xs.map vec) i) (vat (xs.map vec) j))))
    (List.range' 0 ((xs.map vec).length - 0)) (L1 := [fin 0]) (L2 := [fin 0]) (s := (0, 0)) (.one _) (by simp) (.one _) (by simp)
  have e1 := map_range_vat xs fun x => N (Rnd.vsub r x (vec y))
  have e2 : ((List.range' 0 ((xs.map vec).length - 0)).flatMap fun i =>
      (List.range' (i + 1) ((xs.map vec).length - (i + 1))).map fun j =>
        Rnd.rd r (2 * N (Rnd.vsub r (vat (xs.map vec) i) (vat (xs.map vec) j))))
      = (upIdx xs.length).map fun q => Rnd.rd r (2 * N (Rnd.vsub r (vec (xs.getD q.1 0)) (vec (xs.getD q.2 0)))) := by
    unfold upIdx
    rw [List.map_flatMap, List.length_map]
    refine List.flatMap_congr fun i hi => ?_
    rw [List.map_map]
    refine List.map_congr_left fun j hj => ?_
    rw [List.mem_range'_1] at hi hj
    rw [vat_getD (by omega), vat_getD (by omega)]
    rfl
  rw [e2] at this
  rw [List.length_map, e1] at this
  unfold RndLoop.esLoop forRange
  rw [List.length_map]
  exact this

theorem esLoop_exact : RndLoop.esLoop fin Mv.vnorm = EsGufunc.loop := by
  funext y xs
  unfold RndLoop.esLoop EsGufunc.loop
  simp only [rd_fin_eq, Rnd.vsub, Mv.vsub]

theorem upIdx_sum (xs : List (Eu D)) :
    ((upIdx xs.length).map fun q => 2 * dist (xs.getD q.1 0) (xs.getD q.2 0)).sum = pairDist xs := by
  have h := (esLoop_rsum fin Mv.vnorm 0 xs).2.exact
  rw [esLoop_exact, EsGufunc.loop_fin] at h
  have e : ∀ a b : Eu D, Rnd.vsub fin (vec a) (vec b) = Mv.vsub (vec a) (vec b) := fun a b => by
    simp only [rd_fin_eq, Rnd.vsub, Mv.vsub]
  simp only [rd_fin_eq, e, vnorm_sub, two_fin, fin_mul, List.sum_append, List.sum_singleton, sum_map_fin', fin_add,
    zero_add] at h
  exact (XF.fin.inj h).symm

include hr hN in
theorem esLoop_near {y : Eu D} {xs : List (Eu D)} (hD : D ≤ 2 ^ 20) (hK0 : 0 ≤ K) (hK : K ≤ 2 ^ 20) (hne : xs ≠ [])
    (hM : xs.length ≤ 2 ^ 20) (hy : ∀ i, |y i| ≤ 2 ^ 940) (hx : ∀ x ∈ xs, ∀ i, |x i| ≤ 2 ^ 940) {Q : ℝ} (hQ1 : 1 ≤ Q)
    (hQ : (xs.length : ℝ) ^ 2 ≤ 2 * Q) (hQ2 : Q ≤ 2 ^ 40) :
    ∃ v : ℝ, Rnd.rd r (Rnd.rd r ((RndLoop.esLoop r N (vec y) (xs.map vec)).1 / fin xs.length)
        - Rnd.rd r (Rnd.rd r (fin (1 / 2 / Q)) * (RndLoop.esLoop r N (vec y) (xs.map vec)).2)) = fin v ∧
      |v - (meanDist y xs - 1 / 2 * (pairDist xs / Q))| ≤ (K + (xs.length : ℝ) ^ 2) / 2 ^ 46 * meanDist y xs + 1 / 2 ^ 1055 := by
  have hM' : (xs.length : ℝ) ≤ 2 ^ 20 := by exact_mod_cast hM
  have hM0 : 0 < xs.length := List.length_pos_iff.mpr hne
  have hM1 : (1:ℝ) ≤ xs.length := by exact_mod_cast hM0
  have hMp : (0:ℝ) < xs.length := by linarith only [hM1]
  have hQ0 : 0 < Q := by linarith only [hQ1]
  have hMM : (xs.length : ℝ) ^ 2 ≤ 2 ^ 40 := by
    calc (xs.length : ℝ) ^ 2 ≤ (2 ^ 20) ^ 2 := pow_le_pow_left₀ (Nat.cast_nonneg _) hM' 2
      _ = 2 ^ 40 := by rw [← pow_mul]
  have hx2 : (xs.length : ℝ) ≤ (xs.length : ℝ) ^ 2 := by nlinarith only [hM1]
  have dd : ∀ {a b : Eu D}, (∀ i, |a i| ≤ 2 ^ 940) → (∀ i, |b i| ≤ 2 ^ 940) → ∀ i, |a i - b i| ≤ 2 ^ 941 := by
    intro a b ha hb i
    refine (abs_sub _ _).trans ((add_le_add (ha i) (hb i)).trans (le_of_eq ?_))
    rw [← two_mul, ← pow_succ']
  have L : (upIdx xs.length).length + 1 ≤ xs.length ^ 2 := by
    have := upIdx_length xs.length
    obtain ⟨m, hm⟩ : ∃ m, xs.length = m + 1 := ⟨xs.length - 1, by omega⟩
    rw [hm] at this ⊢
    simp only [Nat.add_sub_cancel] at this
    nlinarith
  have L' : ((upIdx xs.length).length : ℝ) + 1 ≤ (xs.length : ℝ) ^ 2 := by exact_mod_cast L
  have c20 : (2:ℝ) ^ 20 + 2 ^ 20 + 2 ^ 40 + 10 ≤ 2 ^ 49 := by norm_num
  have c49 : (2:ℝ) ^ 49 ≤ 2 ^ 50 := pow_le_pow_right₀ (by norm_num) (by norm_num)
  have m20 : (3:ℝ) * (2 ^ 20 + 1) ≤ 2 ^ 49 := by norm_num
  have m40 : (6:ℝ) * 2 ^ 40 ≤ 2 ^ 49 := by norm_num
  obtain ⟨s1, s2⟩ := esLoop_rsum r N y xs
  obtain ⟨n1, p1, b1⟩ := sum0_near hr unit_nrm (a := fun x => dist x y) (k := K + 1) (m := 2) (B := 2 ^ 951) s1 (by norm_num)
    (fun x h => have w := nrm_near hr hN hD hK0 hK (dd (hx x h) hy); ⟨dist_nonneg, w.2, w.1⟩)
    (by
      calc (xs.length : ℝ) * 2 ^ 951 ≤ 2 ^ 20 * 2 ^ 951 := mul_le_mul_of_nonneg_right hM' (by positivity)
        _ = 2 ^ 971 := by rw [← pow_add]
        _ ≤ 2 ^ 1000 := pow_le_pow_right₀ (by norm_num) (by norm_num))
    (by have := hM'; linarith only [this, hK, c20, c49, hMM, hx2]) (by linarith only [hM', m20, c49])
  obtain ⟨n2, p2, b2⟩ := sum0_near hr unit_nrm (a := fun q : ℕ × ℕ => 2 * dist (xs.getD q.1 0) (xs.getD q.2 0)) (k := K + 2) (m := 5)
    (B := 2 ^ 952) s2 (by norm_num) (fun q h => by
      have w := nrm_near hr hN hD hK0 hK (dd (hx _ (getD_mem_eu (upIdx_mem h).1)) (hx _ (getD_mem_eu (upIdx_mem h).2)))
      have d0 : 0 ≤ dist (xs.getD q.1 0) (xs.getD q.2 0) := dist_nonneg
      have d1 : 2 * dist (xs.getD q.1 0) (xs.getD q.2 0) ≤ 2 ^ 952 := by
        calc 2 * dist (xs.getD q.1 0) (xs.getD q.2 0) ≤ 2 * 2 ^ 951 := mul_le_mul_of_nonneg_left w.2 (by norm_num)
          _ = 2 ^ 952 := (pow_succ' _ _).symm
      refine ⟨by positivity, d1, ?_⟩
      have g := (w.1.mulc (c := 2) (by norm_num)).rd hr unit_nrm (by positivity)
        (d1.trans (pow_le_pow_right₀ (by norm_num) (by norm_num)))
        (by linarith only [hK, c20, c49, hMM, hx2, hM1]) (by norm_num)
      rw [two_fin]
      exact g.mono unit_nrm.nonneg (by positivity) (by linarith only []) (by norm_num))
    (by
      calc ((upIdx xs.length).length : ℝ) * 2 ^ 952 ≤ 2 ^ 40 * 2 ^ 952 :=
            mul_le_mul_of_nonneg_right (by linarith only [L', hMM]) (by positivity)
        _ = 2 ^ 992 := by rw [← pow_add]
        _ ≤ 2 ^ 1000 := pow_le_pow_right₀ (by norm_num) (by norm_num))
    (by linarith only [L', hMM, hK, c20, c49]) (by linarith only [L', hMM, m40, c49])
  rw [upIdx_sum] at n2 p2 b2
  have n2' := n2.mono unit_nrm.nonneg p2 (k' := K + 2 + (xs.length : ℝ) ^ 2) (m' := 6 * (xs.length : ℝ) ^ 2)
    (by linarith only [L']) (by linarith only [L'])
  have d0 : 0 ≤ meanDist y xs := meanDist_nonneg y xs
  have d1 : meanDist y xs ≤ 2 ^ 951 := by
    unfold meanDist
    rw [div_le_iff₀ hMp, mul_comm]; exact b1
  have hpd := pairDist_le y hne
  have hc2 : 1 / 2 / Q * pairDist xs ≤ 2 * meanDist y xs := by
    rw [div_mul_eq_mul_div, div_le_iff₀ hQ0]
    have := mul_le_mul_of_nonneg_right hQ d0
    nlinarith only [this, hpd]
  have d2 : 2 * meanDist y xs ≤ 2 ^ 952 := by
    calc 2 * meanDist y xs ≤ 2 * 2 ^ 951 := mul_le_mul_of_nonneg_left d1 (by norm_num)
      _ = 2 ^ 952 := (pow_succ' _ _).symm
  have cl : (1:ℝ) / 2 ^ 900 ≤ 1 / 2 / Q := by
    rw [div_div]
    refine one_div_le_one_div_of_le (by linarith only [hQ0]) ?_
    calc 2 * Q ≤ 2 * 2 ^ 40 := mul_le_mul_of_nonneg_left hQ2 (by norm_num)
      _ = 2 ^ 41 := (pow_succ' _ _).symm
      _ ≤ 2 ^ 900 := pow_le_pow_right₀ (by norm_num) (by norm_num)
  have c1 : 1 / 2 / Q ≤ 2 := by rw [div_le_iff₀ hQ0]; linarith only [hQ1]
  obtain ⟨v, e, hv⟩ := loopEnd hr unit_nrm n1 n2' p1 p2 hM1 cl c1 (d1.trans (pow_le_pow_right₀ (by norm_num) (by norm_num)))
    ((hc2.trans d2).trans (pow_le_pow_right₀ (by norm_num) (by norm_num))) (by positivity)
    (k := K + (xs.length : ℝ) ^ 2 + 5) (n1 := 7) (n2 := 13) (by linarith only [hx2]) (by linarith only [])
    (by linarith only [hK, hMM, c20]) (by
      have : (2 + 1) * ((xs.length : ℝ) + 1) / xs.length ≤ 6 := by rw [div_le_iff₀ hMp]; linarith only [hM1]
      linarith only [this]) (by
      have : 2 * (1 / 2 / Q) * (6 * (xs.length : ℝ) ^ 2) ≤ 12 := by
        rw [show 2 * (1 / 2 / Q) * (6 * (xs.length : ℝ) ^ 2) = 6 * (xs.length : ℝ) ^ 2 / Q by ring, div_le_iff₀ hQ0]
        linarith only [hQ]
      linarith only [this]) (by norm_num) (by norm_num)
  refine ⟨v, e, ?_⟩
  rw [show 1 / 2 * (pairDist xs / Q) = 1 / 2 / Q * pairDist xs by ring]
  refine hv.trans (add_le_add ?_ ?_)
  · change _ * _ * (meanDist y xs + _) ≤ _
    have f1 : meanDist y xs + 1 / 2 / Q * pairDist xs ≤ 3 * meanDist y xs := by linarith only [hc2]
    have f2 : 3 * (K + (xs.length : ℝ) ^ 2 + 5 + 1) ≤ 32 * (K + (xs.length : ℝ) ^ 2) := by linarith only [hK0, hM1, hx2]
    calc _ ≤ (K + (xs.length : ℝ) ^ 2 + 5 + 1) * (1 / 2 ^ 51) * (3 * meanDist y xs) :=
          mul_le_mul_of_nonneg_left f1 (by positivity)
      _ = 3 * (K + (xs.length : ℝ) ^ 2 + 5 + 1) * (1 / 2 ^ 51 * meanDist y xs) := by ring
      _ ≤ 32 * (K + (xs.length : ℝ) ^ 2) * (1 / 2 ^ 51 * meanDist y xs) := mul_le_mul_of_nonneg_right f2 (by positivity)
      _ = _ := by ring
  · rw [show (1060:ℕ) = 5 + 1055 from rfl, pow_add, ← one_div_mul_one_div, ← mul_assoc]
    have : (0:ℝ) < 1 / 2 ^ 1055 := by positivity
    generalize (1:ℝ) / 2 ^ 1055 = w at *
    norm_num; linarith only [this]

/-- sum of the distances to the partners -/
def circDist (σ : ℕ → ℕ) (xs : List (Eu D)) : ℝ :=
  ((List.range' 0 (xs.length - 0)).map fun i => dist (xs.getD i 0) (xs.getD (σ i) 0)).sum

theorem esCirc_rsum (r : ℝ → XF) (N : List XF → XF) {σ : ℕ → ℕ} (y : Eu D) {xs : List (Eu D)}
    (hσ : ∀ i < xs.length, σ i < xs.length) :
    RSum r ([fin 0] ++ xs.map fun x => N (Rnd.vsub r (vec x) (vec y))) (RndLoop.esCirc r N σ (vec y) (xs.map vec)).1 ∧
    RSum r ([fin 0] ++ (List.range' 0 (xs.length - 0)).map fun i => N (Rnd.vsub r (vec (xs.getD i 0)) (vec (xs.getD (σ i) 0))))
      (RndLoop.esCirc r N σ (vec y) (xs.map vec)).2 := by
  have := RSum.foldPair (r := r) (fun i => N (Rnd.vsub r (vat (xs.map vec) i) (vec y)))
    (fun i => N (Rnd.vsub r (vat (xs.map vec) i) (vat (xs.map vec) (σ i))))
    (List.range' 0 (xs.length - 0)) (L1 := [fin 0]) (L2 := [fin 0]) (s := (0, 0)) (.one _) (by simp) (.one _) (by simp)
  have e1 := map_range_vat xs fun x => N (Rnd.vsub r x (vec y))
  have e2 : ((List.range' 0 (xs.length - 0)).map fun i => N (Rnd.vsub r (vat (xs.map vec) i) (vat (xs.map vec) (σ i))))
      = (List.range' 0 (xs.length - 0)).map fun i => N (Rnd.vsub r (vec (xs.getD i 0)) (vec (xs.getD (σ i) 0))) := by
    refine List.map_congr_left fun i hi => ?_
    rw [List.mem_range'_1] at hi
    have hi' : i < xs.length := by omega
    rw [vat_getD hi', vat_getD (hσ i hi')]
  rw [e1, e2] at this
  unfold RndLoop.esCirc forRange
  rw [List.length_map]
  exact this

include hr hN in
theorem esCirc_near {y : Eu D} {xs : List (Eu D)} (hD : D ≤ 2 ^ 20) (hK0 : 0 ≤ K) (hK : K ≤ 2 ^ 20) (hne : xs ≠ [])
    (hM : xs.length ≤ 2 ^ 20) (hy : ∀ i, |y i| ≤ 2 ^ 940) (hx : ∀ x ∈ xs, ∀ i, |x i| ≤ 2 ^ 940) {σ : ℕ → ℕ}
    (hσ : ∀ i < xs.length, σ i < xs.length) :
    ∃ v : ℝ, Rnd.rd r (Rnd.rd r ((RndLoop.esCirc r N σ (vec y) (xs.map vec)).1 / fin xs.length)
        - Rnd.rd r (Rnd.rd r (fin (1 / 2 / xs.length)) * (RndLoop.esCirc r N σ (vec y) (xs.map vec)).2)) = fin v ∧
      |v - (meanDist y xs - 1 / 2 * (circDist σ xs / xs.length))|
        ≤ (K + xs.length + 6) / 2 ^ 51 * (meanDist y xs + 1 / 2 * (circDist σ xs / xs.length)) + 1 / 2 ^ 1055 := by
  have hM' : (xs.length : ℝ) ≤ 2 ^ 20 := by exact_mod_cast hM
  have hM0 : 0 < xs.length := List.length_pos_iff.mpr hne
  have hM1 : (1:ℝ) ≤ xs.length := by exact_mod_cast hM0
  have hMp : (0:ℝ) < xs.length := by linarith only [hM1]
  have dd : ∀ {a b : Eu D}, (∀ i, |a i| ≤ 2 ^ 940) → (∀ i, |b i| ≤ 2 ^ 940) → ∀ i, |a i - b i| ≤ 2 ^ 941 := by
    intro a b ha hb i
    refine (abs_sub _ _).trans ((add_le_add (ha i) (hb i)).trans (le_of_eq ?_))
    rw [← two_mul, ← pow_succ']
  have c20 : (2:ℝ) ^ 20 + 2 ^ 20 + 10 ≤ 2 ^ 49 := by norm_num
  have c49 : (2:ℝ) ^ 49 ≤ 2 ^ 50 := pow_le_pow_right₀ (by norm_num) (by norm_num)
  have m20 : (3:ℝ) * (2 ^ 20 + 1) ≤ 2 ^ 49 := by norm_num
  have big : (xs.length : ℝ) * 2 ^ 951 ≤ 2 ^ 1000 := by
    calc (xs.length : ℝ) * 2 ^ 951 ≤ 2 ^ 20 * 2 ^ 951 := mul_le_mul_of_nonneg_right hM' (by positivity)
      _ = 2 ^ 971 := by rw [← pow_add]
      _ ≤ 2 ^ 1000 := pow_le_pow_right₀ (by norm_num) (by norm_num)
  have kk : K + 1 + ((xs.length : ℝ) + 1) ≤ 2 ^ 50 := by linarith only [hM', hK, c20, c49]
  have mm : (2 + 1) * ((xs.length : ℝ) + 1) ≤ 2 ^ 50 := by linarith only [hM', m20, c49]
  have ll : (List.range' 0 (xs.length - 0)).length = xs.length := by simp
  obtain ⟨s1, s2⟩ := esCirc_rsum r N y hσ
  obtain ⟨n1, p1, b1⟩ := sum0_near hr unit_nrm (a := fun x => dist x y) (k := K + 1) (m := 2) (B := 2 ^ 951) s1 (by norm_num)
    (fun x h => have w := nrm_near hr hN hD hK0 hK (dd (hx x h) hy); ⟨dist_nonneg, w.2, w.1⟩) big kk mm
  obtain ⟨n2, p2, b2⟩ := sum0_near hr unit_nrm (a := fun i : ℕ => dist (xs.getD i 0) (xs.getD (σ i) 0)) (k := K + 1) (m := 2)
    (B := 2 ^ 951) s2 (by norm_num) (fun i h => by
      rw [List.mem_range'_1] at h
      have hi : i < xs.length := by omega
      have w := nrm_near hr hN hD hK0 hK (dd (hx _ (getD_mem_eu hi)) (hx _ (getD_mem_eu (hσ i hi))))
      exact ⟨dist_nonneg, w.2, w.1⟩) (by rw [ll]; exact big) (by rw [ll]; exact kk) (by rw [ll]; exact mm)
  rw [ll] at n2 b2
  change SqNear _ _ (circDist σ xs) _ _ at n2
  change 0 ≤ circDist σ xs at p2
  change circDist σ xs ≤ _ at b2
  have d1 : (xs.map fun x => dist x y).sum / xs.length ≤ 2 ^ 951 := by
    rw [div_le_iff₀ hMp, mul_comm]; exact b1
  have d2 : 1 / 2 / (xs.length : ℝ) * circDist σ xs ≤ 2 ^ 951 := by
    rw [div_mul_eq_mul_div, div_le_iff₀ hMp]
    generalize (2:ℝ) ^ 951 = P at *
    linarith only [p2, b2]
  have cl : (1:ℝ) / 2 ^ 900 ≤ 1 / 2 / xs.length := by
    rw [div_div]
    refine one_div_le_one_div_of_le (by linarith only [hMp]) ?_
    calc 2 * (xs.length : ℝ) ≤ 2 * 2 ^ 20 := mul_le_mul_of_nonneg_left hM' (by norm_num)
      _ = 2 ^ 21 := (pow_succ' _ _).symm
      _ ≤ 2 ^ 900 := pow_le_pow_right₀ (by norm_num) (by norm_num)
  have c1 : 1 / 2 / (xs.length : ℝ) ≤ 2 := by rw [div_le_iff₀ hMp]; linarith only [hM1]
  have u : (2:ℝ) ^ 951 ≤ 2 ^ 990 := pow_le_pow_right₀ (by norm_num) (by norm_num)
  have q6 : (2 + 1) * ((xs.length : ℝ) + 1) / xs.length ≤ 6 := by rw [div_le_iff₀ hMp]; linarith only [hM1]
  obtain ⟨v, e, hv⟩ := loopEnd hr unit_nrm n1 n2 p1 p2 hM1 cl c1 (d1.trans u) (d2.trans u) (by positivity)
    (k := K + (xs.length : ℝ) + 5) (n1 := 7) (n2 := 7) (by linarith only []) (by linarith only [])
    (by linarith only [hK, hM', c20]) (by linarith only [q6]) (by
      rw [show 2 * (1 / 2 / (xs.length : ℝ)) * ((2 + 1) * ((xs.length : ℝ) + 1)) = (2 + 1) * ((xs.length : ℝ) + 1) / xs.length by ring]
      linarith only [q6]) (by norm_num) (by norm_num)
  refine ⟨v, e, ?_⟩
  rw [show 1 / 2 * (circDist σ xs / xs.length) = 1 / 2 / xs.length * circDist σ xs by ring]
  refine hv.trans (add_le_add (le_of_eq ?_) ?_)
  · unfold meanDist
    ring
  · rw [show (1060:ℕ) = 5 + 1055 from rfl, pow_add, ← one_div_mul_one_div, ← mul_assoc]
    have : (0:ℝ) < 1 / 2 ^ 1055 := by positivity
    generalize (1:ℝ) / 2 ^ 1055 = w at *
    norm_num; linarith only [this]

end

end Verif
