import Verif.Model.RoundingEns
import Verif.Lemmas.Rounding
import Verif.Lemmas.CrpsUnweighted

/-! # Error bounds for rounded computations -/

noncomputable section

open scoped Classical

namespace Verif

open XF Py

/-- a bound on the size of numbers that is of ordinary size itself -/
def Mid (B : ℝ) : Prop := 1 / 2 ^ 1000 ≤ B ∧ B ≤ 2 ^ 1000

theorem Mid.pos {B : ℝ} (h : Mid B) : 0 < B := lt_of_lt_of_le (by positivity) h.1

theorem Mid.of {R k : ℝ} (h1 : 1 / 2 ^ 1000 ≤ R) (h2 : R ≤ 2 ^ 900) (hk : 1 ≤ k) (hk' : k ≤ 2 ^ 50) : Mid (k * R) := by
  have h0 : 0 < R := lt_of_lt_of_le (by positivity) h1
  refine ⟨h1.trans (le_mul_of_one_le_left h0.le hk), ?_⟩
  calc k * R ≤ 2 ^ 50 * 2 ^ 900 := mul_le_mul hk' h2 h0.le (by positivity)
    _ = 2 ^ 950 := by rw [← pow_add]
    _ ≤ 2 ^ 1000 := pow_le_pow_right₀ (by norm_num) (by norm_num)

theorem Mid.lt {B a : ℝ} (h : Mid B) (ha : |a| ≤ 2 * B) : |a| < 2 ^ 1023 := by
  refine ha.trans_lt ?_
  calc 2 * B ≤ 2 ^ 1 * 2 ^ 1000 := by rw [pow_one]; exact mul_le_mul_of_nonneg_left h.2 (by norm_num)
    _ = 2 ^ 1001 := by rw [← pow_add]
    _ < 2 ^ 1023 := pow_lt_pow_right₀ (by norm_num) (by norm_num)

theorem Mid.tiny {B : ℝ} (h : Mid B) : 1 / 2 ^ 1075 ≤ B * (1 / 2 ^ 53) := by
  have e : (1 : ℝ) / 2 ^ 1075 ≤ 1 / 2 ^ 1000 * (1 / 2 ^ 53) := by
    rw [one_div_mul_one_div, ← pow_add]
    exact one_div_le_one_div_of_le (by positivity) (pow_le_pow_right₀ (by norm_num) (by norm_num))
  exact e.trans (mul_le_mul_of_nonneg_right h.1 (by positivity))

/-- the value `x` is a number within `e` of `a` -/
def Near (x : XF) (a e : ℝ) : Prop := ∃ b : ℝ, x = fin b ∧ |b - a| ≤ e

/-- the value `x` is a number with relative error at most `k / 2 ^ 53` with respect to `a` -/
def Rel (x : XF) (a : ℝ) (k : ℕ) : Prop := Near x a (k / 2 ^ 53 * |a|)

theorem near_fin (a : ℝ) : Near (fin a) a 0 := ⟨a, rfl, by simp⟩

theorem Near.mono {x : XF} {a e e' : ℝ} (h : Near x a e) (he : e ≤ e') : Near x a e' := by
  obtain ⟨b, h1, h2⟩ := h
  exact ⟨b, h1, h2.trans he⟩

theorem Near.congr {x : XF} {a a' e : ℝ} (h : Near x a e) (ha : a = a') : Near x a' e := ha ▸ h

theorem Near.abs {x : XF} {a e : ℝ} (h : Near x a e) : Near (XF.abs x) |a| e := by
  obtain ⟨b, rfl, h2⟩ := h
  exact ⟨|b|, rfl, (abs_abs_sub_abs_le b a).trans h2⟩

theorem Near.add {x y : XF} {a b e f : ℝ} (h : Near x a e) (h' : Near y b f) : Near (x + y) (a + b) (e + f) := by
  obtain ⟨c, rfl, h2⟩ := h
  obtain ⟨d, rfl, h4⟩ := h'
  refine ⟨c + d, fin_add _ _, ?_⟩
  rw [abs_le] at *; constructor <;> linarith [h2.1, h2.2, h4.1, h4.2]

theorem Near.sub {x y : XF} {a b e f : ℝ} (h : Near x a e) (h' : Near y b f) : Near (x - y) (a - b) (e + f) := by
  obtain ⟨c, rfl, h2⟩ := h
  obtain ⟨d, rfl, h4⟩ := h'
  refine ⟨c - d, fin_sub _ _, ?_⟩
  rw [abs_le] at *; constructor <;> linarith [h2.1, h2.2, h4.1, h4.2]

theorem Near.smul {x : XF} {a e : ℝ} (k : ℝ) (h : Near x a e) : Near (fin k * x) (k * a) (|k| * e) := by
  obtain ⟨c, rfl, h2⟩ := h
  refine ⟨k * c, fin_mul _ _, ?_⟩
  rw [← mul_sub, abs_mul]
  exact mul_le_mul_of_nonneg_left h2 (abs_nonneg k)

theorem Near.div {x : XF} {a e k : ℝ} (hk : 0 < k) (h : Near x a e) : Near (x / fin k) (a / k) (e / k) := by
  obtain ⟨c, rfl, h2⟩ := h
  refine ⟨c / k, fin_div hk.ne' c, ?_⟩
  rw [← sub_div, abs_div, abs_of_pos hk]
  exact div_le_div_of_nonneg_right h2 hk.le

section
variable {r : ℝ → XF} (hr : Binary64 r)
include hr

theorem Near.rd {x : XF} {a e B : ℝ} (h : Near x a e) (hB : Mid B) (ha : |a| ≤ B) (he : e ≤ B) :
    Near (Rnd.rd r x) a (e + B * (1 / 2 ^ 51)) := by
  obtain ⟨b, rfl, h2⟩ := h
  have hb : |b| ≤ 2 * B := by
    have := abs_sub_abs_le_abs_sub b a
    linarith
  obtain ⟨δ, η, hδ, hη, e1⟩ := hr.acc (hB.lt hb)
  refine ⟨_, e1, ?_⟩
  have ht := hη.trans hB.tiny
  have hp := hB.pos
  have h3 : |b * δ| ≤ 2 * B * (1 / 2 ^ 53) := by
    rw [abs_mul]
    exact mul_le_mul hb hδ (abs_nonneg _) (by positivity)
  have e2 : b * (1 + δ) + η - a = (b - a) + b * δ + η := by ring
  rw [e2]
  clear hη hB e1
  have h4 := abs_add_three (b - a) (b * δ) η
  have h5 : B * (1 / 2 ^ 51 : ℝ) = 4 * (B * (1 / 2 ^ 53)) := by norm_num; ring
  have h6 : 0 ≤ B * (1 / 2 ^ 53 : ℝ) := by positivity
  rw [h5]
  generalize B * (1 / 2 ^ 53 : ℝ) = q at *
  have h7 : 2 * B * (1 / 2 ^ 53 : ℝ) = 2 * (B * (1 / 2 ^ 53)) := by ring
  nlinarith

end

/-- two loops over the same range keep a relation between their states -/
theorem forRange_rel {S T : Type} (P : ℕ → S → T → Prop) (lo n : ℕ) (f : ℕ → S → S) (g : ℕ → T → T) {s : S} {t : T}
    (h0 : P 0 s t) (hs : ∀ k < n, ∀ s t, P k s t → P (k + 1) (f (lo + k) s) (g (lo + k) t)) :
    P n (forRange lo (lo + n) s f) (forRange lo (lo + n) t g) := by
  unfold forRange
  rw [Nat.add_sub_cancel_left]
  induction n with
  | zero => simpa using h0
  | succ n ih =>
    rw [List.range'_1_concat, List.foldl_append, List.foldl_append]
    exact hs n (by omega) _ _ (ih fun k hk => hs k (by omega))

theorem idx_map_lt {xs : List ℝ} {i : ℕ} (h : i < xs.length) : idx (xs.map fin) i = fin xs[i] := by
  simp [idx, h]

/-- the state after `k` additions of numbers up to `c`, with errors up to `d` -/
def Acc (c d : ℝ) (k : ℝ) (x t : XF) : Prop := ∃ b : ℝ, t = fin b ∧ 0 ≤ b ∧ b ≤ k * c ∧ Near x b (k * d)

theorem Acc.mono {c d k k' : ℝ} {x t : XF} (hc : 0 ≤ c) (hd : 0 ≤ d) (hk : k ≤ k') (h : Acc c d k x t) : Acc c d k' x t := by
  obtain ⟨b, h1, h2, h3, h4⟩ := h
  exact ⟨b, h1, h2, h3.trans (mul_le_mul_of_nonneg_right hk hc), h4.mono (mul_le_mul_of_nonneg_right hk hd)⟩

section
variable {r : ℝ → XF} (hr : Binary64 r)
include hr

/-- one more addition -/
theorem Acc.step {c d e k B v : ℝ} {x t z : XF} (h : Acc c d k x t) (hv : 0 ≤ v) (hvc : v ≤ c) (hz : Near z v e)
    (hB : Mid B) (hkB : (k + 1) * c ≤ B) (hdB : (k + 1) * d ≤ B) (hd : e + B * (1 / 2 ^ 51) ≤ d) :
    Acc c d (k + 1) (Rnd.rd r (x + z)) (t + fin v) := by
  obtain ⟨b, rfl, h2, h3, h4⟩ := h
  have hq : 0 ≤ B * (1 / 2 ^ 51) := mul_nonneg hB.pos.le (by positivity)
  refine ⟨b + v, fin_add _ _, by linarith, by linarith, ?_⟩
  refine ((h4.add hz).rd hr hB ?_ ?_).mono ?_
  · rw [abs_of_nonneg (by linarith)]; linarith
  · generalize B * (1 / 2 ^ 51) = q at *; linarith
  · generalize B * (1 / 2 ^ 51) = q at *; linarith

theorem nrgLoop_near {R : ℝ} (h1 : 1 / 2 ^ 1000 ≤ R) (h2 : R ≤ 2 ^ 900) {y : ℝ} (hy : |y| ≤ R) {xs : List ℝ}
    (hx : ∀ x ∈ xs, |x| ≤ R) (hM : xs.length ≤ 2 ^ 20) :
    Acc (2 * R) (4 * xs.length * R * (1 / 2 ^ 51)) xs.length (Rnd.nrgLoop r (fin y) (xs.map fin)).1 (fin (sabs y xs)) ∧
    Acc (4 * R) (12 * xs.length ^ 2 * R * (1 / 2 ^ 51)) (xs.length ^ 2) (Rnd.nrgLoop r (fin y) (xs.map fin)).2
      (fin (spair xs)) := by
  have hR : 0 < R := lt_of_lt_of_le (by positivity) h1
  have mid : ∀ k : ℝ, 1 ≤ k → k ≤ 2 ^ 50 → Mid (k * R) := fun k a b => Mid.of h1 h2 a b
  clear h1 h2
  have hM' : (xs.length : ℝ) ≤ 1048576 := by exact_mod_cast hM.trans (by norm_num)
  have hsub : ∀ {a b : ℝ}, |a| ≤ R → |b| ≤ R → |(|a - b|)| ≤ 2 * R := by
    intro a b ha hb
    rw [abs_abs]
    exact (abs_sub a b).trans (by linarith)
  have hdiff : ∀ {a b : ℝ}, |a| ≤ R → |b| ≤ R → Near (XF.abs (Rnd.rd r (fin a - fin b))) |a - b| (2 * R * (1 / 2 ^ 51)) := by
    intro a b ha hb
    have e := hsub ha hb
    rw [abs_abs] at e
    rw [fin_sub]
    refine (((near_fin (a - b)).rd hr (mid 2 (by norm_num) (by norm_num)) e (by positivity)).mono ?_).abs
    linarith
  have key := forRange_rel (S := XF × XF) (T := XF × XF) (fun k s t =>
      Acc (2 * R) (4 * xs.length * R * (1 / 2 ^ 51)) k s.1 t.1 ∧
      Acc (4 * R) (12 * xs.length ^ 2 * R * (1 / 2 ^ 51)) (k * xs.length) s.2 t.2) 0 xs.length
    (fun i e =>
      (Rnd.rd r (e.1 + XF.abs (Rnd.rd r (idx (xs.map fin) i - fin y))),
       forRange (i + 1) (xs.map fin).length e.2 fun j e2 =>
         Rnd.rd r (e2 + Rnd.rd r (2 * XF.abs (Rnd.rd r (idx (xs.map fin) j - idx (xs.map fin) i))))))
    (fun i e =>
      (e.1 + XF.abs (idx (xs.map fin) i - fin y),
       forRange (i + 1) (xs.map fin).length e.2 fun j e2 =>
        e2 + 2 * XF.abs (idx (xs.map fin) j - idx (xs.map fin) i)))
    (s := ((0, 0) : XF × XF)) (t := ((0, 0) : XF × XF)) ?_ ?_
  · have e := Gufunc.loop_fin y xs
    rw [Nat.zero_add] at key
    rw [List.length_map] at e key
    rw [e] at key
    unfold Rnd.nrgLoop
    rw [List.length_map]
    refine ⟨key.1, ?_⟩
    rw [pow_two]
    simpa only [pow_two] using key.2
  · refine ⟨⟨0, rfl, le_refl _, by simp, 0, rfl, by simp⟩, ⟨0, rfl, le_refl _, by simp, 0, rfl, by simp⟩⟩
  · rintro k hk ⟨s1, s2⟩ ⟨t1, t2⟩ ⟨hA, hE⟩
    have hk1 : (k : ℝ) + 1 ≤ xs.length := by exact_mod_cast hk
    have hk0 : (0:ℝ) ≤ k := Nat.cast_nonneg k
    have hm1 : (1:ℝ) ≤ xs.length := by linarith
    simp only [Nat.zero_add]
    rw [idx_map_lt hk]
    have hxk : |xs[k]| ≤ R := hx _ (List.getElem_mem hk)
    constructor
    · rw [fin_sub, fin_abs, Nat.cast_add, Nat.cast_one, ← fin_sub]
      refine hA.step hr (B := 2 * xs.length * R) (abs_nonneg _) ?_ (hdiff hxk hy) (mid _ ?_ ?_) ?_ ?_ ?_
      · simpa using hsub hxk hy
      · linarith
      · linarith
      · nlinarith
      · have : ((k:ℝ) + 1) * (4 * xs.length * R * (1 / 2 ^ 51)) ≤ xs.length * (4 * xs.length * R * (1 / 2 ^ 51)) :=
          mul_le_mul_of_nonneg_right hk1 (by positivity)
        refine this.trans ?_
        have e2 : (xs.length:ℝ) * (4 * xs.length * R * (1 / 2 ^ 51)) = (xs.length * R) * (4 * xs.length * (1 / 2 ^ 51)) := by ring
        have e3 : 2 * (xs.length:ℝ) * R = (xs.length * R) * 2 := by ring
        rw [e2, e3]
        refine mul_le_mul_of_nonneg_left ?_ (by positivity)
        linarith
      · have : R ≤ xs.length * R := le_mul_of_one_le_left hR.le hm1
        norm_num; linarith
    · rw [List.length_map]
      obtain ⟨n, hn⟩ : ∃ n, xs.length = k + 1 + n := ⟨xs.length - (k + 1), by omega⟩
      have inner := forRange_rel (S := XF) (T := XF) (fun j s t =>
          Acc (4 * R) (12 * xs.length ^ 2 * R * (1 / 2 ^ 51)) (k * xs.length + j) s t) (k + 1) n
        (fun j e2 => Rnd.rd r (e2 + Rnd.rd r (2 * XF.abs (Rnd.rd r (idx (xs.map fin) j - fin xs[k])))))
        (fun j e2 => e2 + 2 * XF.abs (idx (xs.map fin) j - fin xs[k])) (s := s2) (t := t2)
        (by simpa using hE) ?_
      · rw [← hn] at inner
        refine Acc.mono (by positivity) (by positivity) ?_ inner
        have : (n : ℝ) ≤ xs.length := by exact_mod_cast (by omega : n ≤ xs.length)
        push_cast; linarith
      · intro j hj s t hst
        have hj' : k + 1 + j < xs.length := by omega
        have hxj : |xs[k + 1 + j]| ≤ R := hx _ (List.getElem_mem hj')
        have hj1 : (k : ℝ) * xs.length + j + 1 ≤ xs.length ^ 2 := by
          have : (k : ℝ) + 1 + j + 1 ≤ xs.length := by exact_mod_cast hj'
          nlinarith
        rw [idx_map_lt hj', two_fin]
        have hd := (hdiff hxj hxk).smul 2
        have hs := hsub hxj hxk
        rw [abs_abs] at hs
        have hd2 := hd.rd hr (B := 4 * R) (mid 4 (by norm_num) (by norm_num))
          (by rw [abs_mul, abs_abs, abs_of_pos (by norm_num : (0:ℝ) < 2)]; linarith) (by norm_num; linarith)
        have hMR : R ≤ xs.length ^ 2 * R := le_mul_of_one_le_left hR.le (by nlinarith)
        have e1 : fin 2 * XF.abs (fin xs[k + 1 + j] - fin xs[k]) = fin (2 * |xs[k + 1 + j] - xs[k]|) := by
          rw [fin_sub, fin_abs, fin_mul]
        rw [e1, Nat.cast_add, Nat.cast_one, ← add_assoc]
        refine hst.step hr (B := 4 * xs.length ^ 2 * R) (by positivity) (by linarith) hd2 (mid _ ?_ ?_) ?_ ?_ ?_
        · nlinarith
        · have : (xs.length : ℝ) ^ 2 ≤ 1048576 ^ 2 := pow_le_pow_left₀ (by positivity) hM' 2
          norm_num at this ⊢; linarith
        · nlinarith
        · have : ((k:ℝ) * xs.length + j + 1) * (12 * xs.length ^ 2 * R * (1 / 2 ^ 51))
              ≤ xs.length ^ 2 * (12 * xs.length ^ 2 * R * (1 / 2 ^ 51)) :=
            mul_le_mul_of_nonneg_right hj1 (by positivity)
          refine this.trans ?_
          have e2 : (xs.length:ℝ) ^ 2 * (12 * xs.length ^ 2 * R * (1 / 2 ^ 51))
            = (xs.length ^ 2 * R) * (12 * xs.length ^ 2 * (1 / 2 ^ 51)) := by ring
          have e3 : 4 * (xs.length:ℝ) ^ 2 * R = (xs.length ^ 2 * R) * 4 := by ring
          rw [e2, e3]
          refine mul_le_mul_of_nonneg_left ?_ (by positivity)
          have : (xs.length : ℝ) ^ 2 ≤ 1048576 ^ 2 := pow_le_pow_left₀ (by positivity) hM' 2
          norm_num at this ⊢; linarith
        · norm_num; linarith

end

/-! ### relative errors -/

/-- a number between `2 ^ -n` and `2 ^ n` -/
def Size (n : ℕ) (a : ℝ) : Prop := 1 / 2 ^ n ≤ a ∧ a ≤ 2 ^ n

theorem Size.pos {n : ℕ} {a : ℝ} (h : Size n a) : 0 < a := lt_of_lt_of_le (by positivity) h.1

theorem Size.mono {m n : ℕ} {a : ℝ} (h : Size m a) (hmn : m ≤ n) : Size n a :=
  ⟨(one_div_le_one_div_of_le (by positivity) (pow_le_pow_right₀ (by norm_num) hmn)).trans h.1,
    h.2.trans (pow_le_pow_right₀ (by norm_num) hmn)⟩

theorem Size.mul {m n : ℕ} {a b : ℝ} (h : Size m a) (h' : Size n b) : Size (m + n) (a * b) := by
  constructor
  · rw [pow_add, ← one_div_mul_one_div]
    exact mul_le_mul h.1 h'.1 (by positivity) h.pos.le
  · rw [pow_add]
    exact mul_le_mul h.2 h'.2 h'.pos.le (by positivity)

theorem Size.add {n : ℕ} {a b : ℝ} (h : Size n a) (h' : Size n b) : Size (n + 1) (a + b) := by
  constructor
  · exact ((h.mono (Nat.le_succ n)).1).trans (le_add_of_nonneg_right h'.pos.le)
  · rw [pow_succ, mul_two]
    exact add_le_add h.2 h'.2

theorem Size.mid {n : ℕ} {a : ℝ} (h : Size n a) (hn : n ≤ 1000) : Mid a := h.mono hn

theorem Rel.zero (k : ℕ) : Rel (fin 0) 0 k := ⟨0, rfl, by simp⟩

theorem Rel.fin (a : ℝ) : Rel (fin a) a 0 := ⟨a, rfl, by simp⟩

theorem Rel.mono {x : XF} {a : ℝ} {k m : ℕ} (h : Rel x a k) (hk : k ≤ m) : Rel x a m := by
  refine Near.mono h (mul_le_mul_of_nonneg_right ?_ (abs_nonneg a))
  exact div_le_div_of_nonneg_right (by exact_mod_cast hk) (by positivity)

theorem Rel.mul {x y : XF} {a b : ℝ} {k m : ℕ} (h : Rel x a k) (h' : Rel y b m) (hk : k ≤ 1000) (hm : m ≤ 1000) :
    Rel (x * y) (a * b) (k + m + 1) := by
  obtain ⟨c, rfl, h2⟩ := h
  obtain ⟨d, rfl, h4⟩ := h'
  refine ⟨c * d, fin_mul _ _, ?_⟩
  have e : c * d - a * b = a * (d - b) + (c - a) * b + (c - a) * (d - b) := by ring
  have h5 := abs_add_three (a * (d - b)) ((c - a) * b) ((c - a) * (d - b))
  rw [← e, abs_mul, abs_mul, abs_mul] at h5
  have h6 : |a| * |d - b| ≤ |a| * (m / 2 ^ 53 * |b|) := mul_le_mul_of_nonneg_left h4 (abs_nonneg a)
  have h7 : |c - a| * |b| ≤ k / 2 ^ 53 * |a| * |b| := mul_le_mul_of_nonneg_right h2 (abs_nonneg b)
  have h8 : |c - a| * |d - b| ≤ (k / 2 ^ 53 * |a|) * (m / 2 ^ 53 * |b|) := mul_le_mul h2 h4 (abs_nonneg _) (by positivity)
  have h9 : (k : ℝ) / 2 ^ 53 * (m / 2 ^ 53) ≤ 1 / 2 ^ 53 := by
    have a1 : (k : ℝ) ≤ 1000 := by exact_mod_cast hk
    have a2 : (m : ℝ) ≤ 1000 := by exact_mod_cast hm
    have a3 : (k : ℝ) * m ≤ 1000 * 1000 := mul_le_mul a1 a2 (by positivity) (by positivity)
    rw [div_mul_div_comm, div_le_div_iff₀ (by positivity) (by positivity)]
    linarith
  have h10 : (k / 2 ^ 53 * |a|) * (m / 2 ^ 53 * |b|) ≤ 1 / 2 ^ 53 * (|a| * |b|) := by
    calc _ = (k : ℝ) / 2 ^ 53 * (m / 2 ^ 53) * (|a| * |b|) := by ring
      _ ≤ _ := mul_le_mul_of_nonneg_right h9 (by positivity)
  rw [abs_mul]
  have h11 : ((k + m + 1 : ℕ) : ℝ) / 2 ^ 53 * (|a| * |b|)
      = |a| * (m / 2 ^ 53 * |b|) + k / 2 ^ 53 * |a| * |b| + 1 / 2 ^ 53 * (|a| * |b|) := by push_cast; ring
  rw [h11]
  linarith

theorem Rel.add {x y : XF} {a b : ℝ} {k : ℕ} (h : Rel x a k) (h' : Rel y b k) (ha : 0 ≤ a) (hb : 0 ≤ b) :
    Rel (x + y) (a + b) k := by
  refine Near.mono (Near.add h h') ?_
  rw [abs_of_nonneg ha, abs_of_nonneg hb, abs_of_nonneg (add_nonneg ha hb), mul_add]

section
variable {r : ℝ → XF} (hr : Binary64 r)
include hr

theorem Rel.rd {x : XF} {a : ℝ} {k : ℕ} (h : Rel x a k) (hk : k ≤ 1000) (ha : Mid |a|) : Rel (Rnd.rd r x) a (k + 4) := by
  have hp := ha.pos
  have hk' : (k : ℝ) ≤ 1000 := by exact_mod_cast hk
  refine (Near.rd hr h ha (le_refl _) ?_).mono ?_
  · refine mul_le_of_le_one_left hp.le ?_
    rw [div_le_one (by positivity)]
    linarith
  · apply le_of_eq
    push_cast
    ring

theorem rd_rel {a : ℝ} (ha : Mid |a|) : Rel (Rnd.rd r (XF.fin a)) a 4 := (Rel.fin a).rd hr (by norm_num) ha

end

end Verif
