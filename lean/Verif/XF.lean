import Mathlib.Data.Real.Basic
import Mathlib.Analysis.Real.Sqrt
import Mathlib.Analysis.SpecialFunctions.Exp
import Mathlib.Analysis.SpecialFunctions.Log.Basic
import Mathlib.Analysis.SpecialFunctions.Pow.Real
import Mathlib.Algebra.BigOperators.Group.List.Basic

/-!
# `XF`: floating point numbers without rounding

Models the numbers flowing through numpy / numba arrays: NaN, the two infinities and finite values,
the latter being exact reals.  The special-value rules are those of IEEE-754.

Simplifications (see DESIGN.md, trusted base): no rounding, no overflow of finite operations, no
signed zero (division of a non-zero number by zero uses the sign of the numerator, as for `+0`).
-/

noncomputable section

open scoped Classical

namespace Verif

/-- A float: NaN, an infinity or an exact real.
Models: element type of every array in /repo/scoringrules (numpy float64); no rounding. -/
inductive XF where
  | nan : XF
  | ninf : XF
  | pinf : XF
  | fin : ℝ → XF

namespace XF

instance : Inhabited XF := ⟨nan⟩

/-- IEEE addition. (e.g. `core/crps/_closed.py:696-701`) -/
protected def add : XF → XF → XF
  | nan, _ => nan
  | _, nan => nan
  | ninf, pinf => nan
  | pinf, ninf => nan
  | ninf, _ => ninf
  | _, ninf => ninf
  | pinf, _ => pinf
  | _, pinf => pinf
  | fin a, fin b => fin (a + b)

/-- IEEE negation. (e.g. `core/stats.py:24`) -/
protected def neg : XF → XF
  | nan => nan
  | ninf => pinf
  | pinf => ninf
  | fin a => fin (-a)

/-- The product of an infinity of sign `s` (`true` = positive) with a real.
(part of the product below; e.g. `core/crps/_closed.py:696-701`) -/
def infMul (s : Bool) (a : ℝ) : XF :=
  if a = 0 then nan else if (0 < a) = (s = true) then pinf else ninf

/-- IEEE multiplication. (e.g. `core/crps/_closed.py:696-701`) -/
protected def mul : XF → XF → XF
  | nan, _ => nan
  | _, nan => nan
  | ninf, ninf => pinf
  | pinf, pinf => pinf
  | ninf, pinf => ninf
  | pinf, ninf => ninf
  | ninf, fin a => infMul false a
  | fin a, ninf => infMul false a
  | pinf, fin a => infMul true a
  | fin a, pinf => infMul true a
  | fin a, fin b => fin (a * b)

/-- IEEE division (zero denominators count as `+0`). (e.g. `core/crps/_closed.py:696-701`) -/
protected def div : XF → XF → XF
  | nan, _ => nan
  | _, nan => nan
  | ninf, ninf => nan
  | pinf, pinf => nan
  | ninf, pinf => nan
  | pinf, ninf => nan
  | ninf, fin a => if 0 ≤ a then ninf else pinf
  | pinf, fin a => if 0 ≤ a then pinf else ninf
  | fin _, ninf => fin 0
  | fin _, pinf => fin 0
  | fin a, fin b =>
      if b = 0 then (if a = 0 then nan else if 0 < a then pinf else ninf) else fin (a / b)

/-- `abs`. (`backend/numpy.py:161-162`) -/
protected def abs : XF → XF
  | nan => nan
  | ninf => pinf
  | pinf => pinf
  | fin a => fin |a|

instance : Zero XF := ⟨fin 0⟩
instance : One XF := ⟨fin 1⟩
instance : Add XF := ⟨XF.add⟩
instance : Neg XF := ⟨XF.neg⟩
instance : Sub XF := ⟨fun a b => XF.add a (XF.neg b)⟩
instance : Mul XF := ⟨XF.mul⟩
instance : Div XF := ⟨XF.div⟩
instance : NatCast XF := ⟨fun n => fin n⟩

/-- `np.isnan`. (`backend/numpy.py:167-168`) -/
def isnan : XF → Prop
  | nan => True
  | _ => False

/-- `<` with IEEE semantics: false when an operand is NaN. (e.g. `core/utils.py:103`) -/
protected def lt : XF → XF → Prop
  | nan, _ => False
  | _, nan => False
  | ninf, ninf => False
  | ninf, _ => True
  | pinf, _ => False
  | fin _, ninf => False
  | fin _, pinf => True
  | fin a, fin b => a < b

/-- `<=` with IEEE semantics: false when an operand is NaN. (e.g. `core/utils.py:146`) -/
protected def le : XF → XF → Prop
  | nan, _ => False
  | _, nan => False
  | ninf, _ => True
  | pinf, pinf => True
  | pinf, _ => False
  | fin _, ninf => False
  | fin _, pinf => True
  | fin a, fin b => a ≤ b

/-- `==` with IEEE semantics: NaN is different from everything. (e.g. `core/stats.py:117`) -/
protected def feq : XF → XF → Prop
  | nan, _ => False
  | _, nan => False
  | a, b => a = b

instance : LT XF := ⟨XF.lt⟩
instance : LE XF := ⟨XF.le⟩

/-- The order used by `np.sort` / `np.argsort`: ascending with NaN last. (`backend/numpy.py:196-217`) -/
def sortLe : XF → XF → Prop
  | _, nan => True
  | nan, _ => False
  | a, b => XF.le a b

/-- A Boolean used as a number (`(cond) * 1.0`). (e.g. `core/utils.py:146`) -/
def ind (p : Prop) : XF := if p then 1 else 0

/-- `np.maximum` (propagates NaN). (`backend/numpy.py:236-237`) -/
protected def max : XF → XF → XF
  | nan, _ => nan
  | _, nan => nan
  | a, b => if a ≤ b then b else a

/-- `np.minimum` (propagates NaN). (`backend/numpy.py:233-234`) -/
protected def min : XF → XF → XF
  | nan, _ => nan
  | _, nan => nan
  | a, b => if a ≤ b then a else b

/-- `np.sqrt`. (`backend/numpy.py:173-174`) -/
protected def sqrt : XF → XF
  | nan => nan
  | ninf => nan
  | pinf => pinf
  | fin a => if 0 ≤ a then fin (Real.sqrt a) else nan

/-- `np.exp`. (`backend/numpy.py:164-165`) -/
protected def exp : XF → XF
  | nan => nan
  | ninf => fin 0
  | pinf => pinf
  | fin a => fin (Real.exp a)

/-- `np.log`. (`backend/numpy.py:170-171`) -/
protected def log : XF → XF
  | nan => nan
  | ninf => nan
  | pinf => pinf
  | fin a => if 0 < a then fin (Real.log a) else if a = 0 then ninf else nan

/-! ### algebraic structure -/

theorem zero_def : (0 : XF) = fin 0 := rfl
theorem one_def : (1 : XF) = fin 1 := rfl
theorem natCast_def (n : ℕ) : (n : XF) = fin n := rfl
theorem ofNat_def (n : ℕ) [n.AtLeastTwo] : (OfNat.ofNat n : XF) = fin (OfNat.ofNat n) := rfl

theorem add_def (a b : XF) : a + b = XF.add a b := rfl
theorem mul_def (a b : XF) : a * b = XF.mul a b := rfl
theorem neg_def (a : XF) : -a = XF.neg a := rfl
theorem sub_def (a b : XF) : a - b = a + -b := rfl
theorem div_def (a b : XF) : a / b = XF.div a b := rfl

@[simp] theorem fin_inj {a b : ℝ} : fin a = fin b ↔ a = b := ⟨fun h => by injection h, fun h => h ▸ rfl⟩

@[simp] theorem fin_add (a b : ℝ) : fin a + fin b = fin (a + b) := rfl
@[simp] theorem fin_mul (a b : ℝ) : fin a * fin b = fin (a * b) := rfl
@[simp] theorem fin_neg (a : ℝ) : -fin a = fin (-a) := rfl
@[simp] theorem fin_sub (a b : ℝ) : fin a - fin b = fin (a - b) := by
  rw [sub_def, fin_neg, fin_add, sub_eq_add_neg]
@[simp] theorem fin_abs (a : ℝ) : XF.abs (fin a) = fin |a| := rfl
theorem fin_div {b : ℝ} (hb : b ≠ 0) (a : ℝ) : fin a / fin b = fin (a / b) := by
  show XF.div _ _ = _
  simp [XF.div, hb]
theorem fin_div_zero (a : ℝ) :
    fin a / fin 0 = if a = 0 then nan else if 0 < a then pinf else ninf := by
  show XF.div _ _ = _
  simp [XF.div]
@[simp] theorem fin_zero_div_zero : fin 0 / fin 0 = nan := by simp [fin_div_zero]

@[simp] theorem nan_add (a : XF) : nan + a = nan := rfl
@[simp] theorem add_nan (a : XF) : a + nan = nan := by cases a <;> rfl
@[simp] theorem nan_mul (a : XF) : nan * a = nan := rfl
@[simp] theorem mul_nan (a : XF) : a * nan = nan := by cases a <;> rfl
@[simp] theorem neg_nan : -nan = nan := rfl
@[simp] theorem nan_sub (a : XF) : nan - a = nan := rfl
@[simp] theorem sub_nan (a : XF) : a - nan = nan := by rw [sub_def, neg_nan, add_nan]
@[simp] theorem nan_div (a : XF) : nan / a = nan := rfl
@[simp] theorem div_nan (a : XF) : a / nan = nan := by cases a <;> rfl
@[simp] theorem abs_nan : XF.abs nan = nan := rfl
@[simp] theorem sqrt_nan : XF.sqrt nan = nan := rfl
@[simp] theorem exp_nan : XF.exp nan = nan := rfl
@[simp] theorem log_nan : XF.log nan = nan := rfl
@[simp] theorem max_nan (a : XF) : XF.max a nan = nan := by cases a <;> rfl
@[simp] theorem nan_max (a : XF) : XF.max nan a = nan := rfl
@[simp] theorem min_nan (a : XF) : XF.min a nan = nan := by cases a <;> rfl
@[simp] theorem nan_min (a : XF) : XF.min nan a = nan := rfl

@[simp] theorem fin_lt (a b : ℝ) : fin a < fin b ↔ a < b := Iff.rfl
@[simp] theorem fin_le (a b : ℝ) : fin a ≤ fin b ↔ a ≤ b := Iff.rfl
@[simp] theorem not_nan_lt (a : XF) : ¬ nan < a := fun h => h
@[simp] theorem not_lt_nan (a : XF) : ¬ a < nan := by cases a <;> exact fun h => h
@[simp] theorem not_nan_le (a : XF) : ¬ nan ≤ a := fun h => h
@[simp] theorem not_le_nan (a : XF) : ¬ a ≤ nan := by cases a <;> exact fun h => h
@[simp] theorem ninf_le_fin (a : ℝ) : ninf ≤ fin a := trivial
@[simp] theorem fin_le_pinf (a : ℝ) : fin a ≤ pinf := trivial
@[simp] theorem not_pinf_le_fin (a : ℝ) : ¬ pinf ≤ fin a := fun h => h
@[simp] theorem not_fin_le_ninf (a : ℝ) : ¬ fin a ≤ ninf := fun h => h
@[simp] theorem ninf_lt_fin (a : ℝ) : ninf < fin a := trivial
@[simp] theorem fin_lt_pinf (a : ℝ) : fin a < pinf := trivial
@[simp] theorem not_pinf_lt_fin (a : ℝ) : ¬ pinf < fin a := fun h => h
@[simp] theorem not_fin_lt_ninf (a : ℝ) : ¬ fin a < ninf := fun h => h

@[simp] theorem ninf_le_pinf : ninf ≤ pinf := trivial
@[simp] theorem ninf_le_ninf : ninf ≤ ninf := trivial
@[simp] theorem pinf_le_pinf : pinf ≤ pinf := trivial
@[simp] theorem not_pinf_le_ninf : ¬ pinf ≤ ninf := fun h => h
@[simp] theorem ninf_lt_pinf : ninf < pinf := trivial
@[simp] theorem not_ninf_lt_ninf : ¬ ninf < ninf := fun h => h
@[simp] theorem not_pinf_lt (a : XF) : ¬ pinf < a := by cases a <;> exact fun h => h
@[simp] theorem not_lt_ninf (a : XF) : ¬ a < ninf := by cases a <;> exact fun h => h

@[simp] theorem isnan_nan : isnan nan := trivial
@[simp] theorem not_isnan_fin (a : ℝ) : ¬ isnan (fin a) := fun h => h
@[simp] theorem not_isnan_pinf : ¬ isnan pinf := fun h => h
@[simp] theorem not_isnan_ninf : ¬ isnan ninf := fun h => h
theorem isnan_iff {a : XF} : isnan a ↔ a = nan := by cases a <;> simp

@[simp] theorem fin_max (a b : ℝ) : XF.max (fin a) (fin b) = fin (max a b) := by
  simp only [XF.max, fin_le]
  split_ifs with h
  · rw [max_eq_right h]
  · rw [max_eq_left (le_of_not_ge h)]
@[simp] theorem fin_min (a b : ℝ) : XF.min (fin a) (fin b) = fin (min a b) := by
  simp only [XF.min, fin_le]
  split_ifs with h
  · rw [min_eq_left h]
  · rw [min_eq_right (le_of_not_ge h)]

@[simp] theorem fin_exp (a : ℝ) : XF.exp (fin a) = fin (Real.exp a) := rfl
theorem fin_log {a : ℝ} (h : 0 < a) : XF.log (fin a) = fin (Real.log a) := by simp [XF.log, h]
theorem fin_sqrt {a : ℝ} (h : 0 ≤ a) : XF.sqrt (fin a) = fin (Real.sqrt a) := by simp [XF.sqrt, h]

theorem ind_true {p : Prop} (h : p) : ind p = fin 1 := by simp [ind, h, one_def]
theorem ind_false {p : Prop} (h : ¬ p) : ind p = fin 0 := by simp [ind, h, zero_def]
theorem ind_def (p : Prop) : ind p = fin (if p then 1 else 0) := by
  by_cases h : p <;> simp [ind, h, zero_def, one_def]

instance : AddCommMonoid XF where
  add_assoc a b c := by
    cases a <;> cases b <;> cases c <;>
      first
      | rfl
      | (simp only [add_def, XF.add]; try rw [add_assoc])
  zero_add a := by
    cases a <;> simp [zero_def, add_def, XF.add]
  add_zero a := by
    cases a <;> simp [zero_def, add_def, XF.add]
  add_comm a b := by
    cases a <;> cases b <;> first | rfl | (simp only [add_def, XF.add]; rw [add_comm])
  nsmul := nsmulRec

theorem mul_comm' (a b : XF) : a * b = b * a := by
  cases a <;> cases b <;> first | rfl | (simp only [mul_def, XF.mul]; rw [mul_comm])

theorem infMul_eq (s : Bool) (a : ℝ) :
    infMul s a = if a = 0 then nan else if 0 < a then (if s then pinf else ninf)
      else (if s then ninf else pinf) := by
  unfold infMul
  by_cases h : a = 0
  · simp [h]
  · by_cases h' : 0 < a <;> cases s <;> simp [h, h']

theorem infMul_mul_fin (s : Bool) (a b : ℝ) : infMul s a * fin b = infMul s (a * b) := by
  rcases lt_trichotomy a 0 with ha | rfl | ha
  · rcases lt_trichotomy b 0 with hb | rfl | hb
    · have h := mul_pos_of_neg_of_neg ha hb
      cases s <;> simp [infMul_eq, mul_def, XF.mul, ha.ne, hb.ne, h.ne', ha.not_gt, hb.not_gt, h]
    · cases s <;> simp [infMul_eq, mul_def, XF.mul, ha.ne, ha.not_gt]
    · have h := mul_neg_of_neg_of_pos ha hb
      cases s <;> simp [infMul_eq, mul_def, XF.mul, ha.ne, hb.ne', h.ne, ha.not_gt, hb, h.not_gt]
  · simp [infMul_eq]
  · rcases lt_trichotomy b 0 with hb | rfl | hb
    · have h := mul_neg_of_pos_of_neg ha hb
      cases s <;> simp [infMul_eq, mul_def, XF.mul, ha.ne', hb.ne, h.ne, ha, hb.not_gt, h.not_gt]
    · cases s <;> simp [infMul_eq, mul_def, XF.mul, ha.ne', ha]
    · have h := mul_pos ha hb
      cases s <;> simp [infMul_eq, mul_def, XF.mul, ha.ne', hb.ne', h.ne', ha, hb, h]

theorem infMul_mul_pinf (s : Bool) (a : ℝ) : infMul s a * pinf = infMul s a := by
  rw [infMul_eq]; split_ifs <;> rfl

theorem infMul_mul_ninf (s : Bool) (a : ℝ) : infMul s a * ninf = infMul (!s) a := by
  rw [infMul_eq, infMul_eq]; cases s <;> split_ifs <;> first | rfl | simp_all

theorem pinf_mul_fin (a : ℝ) : pinf * fin a = infMul true a := rfl
theorem fin_mul_pinf (a : ℝ) : fin a * pinf = infMul true a := rfl
theorem ninf_mul_fin (a : ℝ) : ninf * fin a = infMul false a := rfl
theorem fin_mul_ninf (a : ℝ) : fin a * ninf = infMul false a := rfl

theorem mul_assoc' (a b c : XF) : a * b * c = a * (b * c) := by
  cases a <;> cases b <;> cases c <;>
    first
    | rfl
    | (simp only [fin_mul]; rw [mul_assoc])
    | (simp only [nan_mul, mul_nan]; done)
    | (simp only [pinf_mul_fin, fin_mul_pinf, ninf_mul_fin, fin_mul_ninf, fin_mul,
        mul_comm' _ (infMul _ _), infMul_mul_fin, infMul_mul_pinf, infMul_mul_ninf, Bool.not_true,
        Bool.not_false]
       first
       | done
       | rfl
       | (congr 1; ring))

instance : CommMonoid XF where
  mul_assoc := mul_assoc'
  one_mul a := by
    cases a <;> simp [one_def, mul_def, XF.mul, infMul]
  mul_one a := by
    cases a <;> simp [one_def, mul_def, XF.mul, infMul]
  mul_comm := mul_comm'

@[simp] theorem fin_pow (a : ℝ) (n : ℕ) : fin a ^ n = fin (a ^ n) := by
  induction n with
  | zero => simp [one_def]
  | succ n ih => rw [pow_succ, pow_succ, ih, fin_mul]

@[simp] theorem nan_pow (n : ℕ) : nan ^ (n + 1) = nan := by rw [pow_succ, mul_nan]

@[simp] theorem sum_map_fin (l : List ℝ) : (l.map fin).sum = fin l.sum := by
  induction l with
  | nil => rfl
  | cons a l ih => simp [ih]

theorem sum_eq_nan_of_mem {l : List XF} (h : nan ∈ l) : l.sum = nan := by
  induction l with
  | nil => simp at h
  | cons a l ih =>
    rcases List.mem_cons.1 h with h | h
    · rw [← h]; simp
    · simp [ih h]

end XF
end Verif
