import Verif.Model.Nanomit
import Verif.Lemmas.CrpsApi2

/-!
# C88, C89: the NaN-omitting estimators and the multivariate NaN policy
-/

noncomputable section

open scoped Classical

namespace Verif

open XF Py

namespace Spec

/-- the real value of a member, `none` for NaN and the infinities -/
def realOf : XF → Option ℝ
  | .fin r => some r
  | _ => none

/-- the members that are numbers, in their order -/
def numbers (xs : List XF) : List ℝ := xs.filterMap realOf

/-- every member is a real number or NaN -/
def NumOrNan (xs : List XF) : Prop := ∀ x ∈ xs, x = nan ∨ ∃ r : ℝ, x = fin r

end Spec

open Spec

theorem numbers_nan (t : List XF) : numbers (nan :: t) = numbers t := rfl
theorem numbers_fin (r : ℝ) (t : List XF) : numbers (fin r :: t) = r :: numbers t := rfl

/-- a loop that skips NaN runs over the numbers only -/
theorem foldl_skip {S : Type} (f : S → XF → S) (hf : ∀ s, f s nan = s) {xs : List XF} (h : NumOrNan xs) (s : S) :
    xs.foldl f s = ((numbers xs).map fin).foldl f s := by
  induction xs generalizing s with
  | nil => rfl
  | cons x t ih =>
    have ht : NumOrNan t := fun z hz => h z (List.mem_cons_of_mem _ hz)
    rcases h x List.mem_cons_self with rfl | ⟨r, rfl⟩
    · rw [numbers_nan, List.foldl_cons, hf, ih ht]
    · rw [numbers_fin, List.map_cons, List.foldl_cons, List.foldl_cons, ih ht]

/-- sum of the absolute differences of successive members after `p` -/
def chain : ℝ → List ℝ → ℝ
  | _, [] => 0
  | p, x :: t => |x - p| + chain x t

theorem chain_eq (p : ℝ) (t : List ℝ) :
    chain p t = ((List.range t.length).map fun i => |t.getD i 0 - (p :: t).getD i 0|).sum := by
  induction t generalizing p with
  | nil => rfl
  | cons x t ih =>
    rw [chain, ih, List.length_cons, List.range_succ_eq_map]
    simp [Function.comp_def]

theorem circ_prev (a : ℝ) (t : List ℝ) :
    circ (prevI (a :: t).length) (a :: t) = chain a t + |a - (a :: t).getD t.length 0| := by
  unfold circ
  rw [chain_eq, List.length_cons, List.range_succ_eq_map]
  simp only [List.map_cons, List.map_map, List.sum_cons, Function.comp_def]
  rw [add_comm]
  congr 1

theorem nanomit_fold (y p a : ℝ) (e1 e2 : ℝ) (m : ℕ) (t : List ℝ) :
    (t.map fin).foldl (Gufunc.akrNanomitStep (fin y)) ⟨fin e1, fin e2, m + 1, fin a, fin p⟩
      = ⟨fin (e1 + sabs y t), fin (e2 + chain p t), m + 1 + t.length, fin a, fin ((p :: t).getD t.length 0)⟩ := by
  induction t generalizing p e1 e2 m with
  | nil => simp [sabs, chain]
  | cons x t ih =>
    have : Gufunc.akrNanomitStep (fin y) ⟨fin e1, fin e2, m + 1, fin a, fin p⟩ (fin x)
        = ⟨fin (e1 + |x - y|), fin (e2 + |x - p|), m + 1 + 1, fin a, fin x⟩ := by
      simp [Gufunc.akrNanomitStep]
    rw [List.map_cons, List.foldl_cons, this, ih]
    simp [sabs, chain, add_assoc]
    omega

/-- C88: the NaN-omitting `akr` estimator is the plain estimator of the members that are numbers, and NaN
if there is none. -/
theorem C88_akr (y : ℝ) {xs : List XF} (h : NumOrNan xs) :
    Gufunc.akrNanomit (fin y) xs
      = if numbers xs = [] then nan else Gufunc.akr (fin y) ((numbers xs).map fin) := by
  unfold Gufunc.akrNanomit
  rw [foldl_skip _ (fun s => by simp [Gufunc.akrNanomitStep]) h]
  cases e : numbers xs with
  | nil => simp
  | cons a t =>
    have h0 : Gufunc.akrNanomitStep (fin y) ⟨0, 0, 0, 0, 0⟩ (fin a) = ⟨fin |a - y|, fin 0, 0 + 1, fin a, fin a⟩ := by
      simp [Gufunc.akrNanomitStep, zero_def]
    rw [if_neg (List.cons_ne_nil a t), Gufunc.akr_fin y _ (by simp), List.map_cons, List.foldl_cons, h0, nanomit_fold, circ_prev]
    have hM : ((t.length + 1 : ℕ) : ℝ) ≠ 0 := by positivity
    have e3 : 0 + 1 + t.length = t.length + 1 := by omega
    simp only [e3, List.length_cons, natCast_fin, half_fin, if_neg (Nat.succ_ne_zero t.length)]
    cases t with
    | nil => simp [sabs, chain, fin_div]
    | cons b t =>
      rw [if_pos (by simp)]
      simp only [fin_sub, fin_abs, fin_add, fin_div hM, fin_mul]
      congr 1
      simp only [sabs, List.map_cons, List.sum_cons]
      ring

example : NumOrNan [fin 1, nan, fin 3, nan, fin 2] ∧ numbers [fin 1, nan, fin 3, nan, fin 2] = [1, 3, 2] := by
  constructor
  · intro x hx
    simp only [List.mem_cons, List.not_mem_nil, or_false] at hx
    rcases hx with rfl | rfl | rfl | rfl | rfl <;> simp
  · rfl

theorem nthValid_eq {xs : List XF} (h : NumOrNan xs) {k : ℕ} (hk : k < (numbers xs).length) :
    Gufunc.nthValid xs k = some (fin ((numbers xs).getD k 0)) := by
  induction xs generalizing k with
  | nil => simp [numbers] at hk
  | cons x t ih =>
    have ht : NumOrNan t := fun z hz => h z (List.mem_cons_of_mem _ hz)
    rcases h x List.mem_cons_self with rfl | ⟨r, rfl⟩
    · rw [numbers_nan] at hk ⊢
      rw [Gufunc.nthValid, if_pos isnan_nan]
      exact ih ht hk
    · rw [numbers_fin] at hk ⊢
      simp only [Gufunc.nthValid]
      cases k with
      | zero => simp
      | succ k =>
        simp only [List.length_cons] at hk
        simp [ih ht (Nat.lt_of_succ_lt_succ hk)]

theorem count_fold {t : List ℝ} (m : ℕ) :
    (t.map fin).foldl (fun m x => if ¬ XF.isnan x then m + 1 else m) m = m + t.length := by
  induction t generalizing m with
  | nil => rfl
  | cons x t ih =>
    simp only [List.map_cons, List.foldl_cons]
    rw [if_pos (by simp []), ih, List.length_cons]
    omega

theorem circperm_fold (y : ℝ) {xs : List XF} (h : NumOrNan xs) (p t : List ℝ) (e : numbers xs = p ++ t) :
    (t.map fin).foldl (Gufunc.akrCircpermNanomitStep (fin y) xs (numbers xs).length)
        (fin (sabs y p), fin ((List.range p.length).map fun i => |(numbers xs).getD i 0 -
          (numbers xs).getD (Gufunc.sigma (numbers xs).length i) 0|).sum, p.length)
      = (fin (sabs y (numbers xs)), fin (circ (Gufunc.sigma (numbers xs).length) (numbers xs)), (numbers xs).length) := by
  induction t generalizing p with
  | nil =>
    rw [List.append_nil] at e
    simp only [List.map_nil, List.foldl_nil, circ, e]
  | cons x t ih =>
    have hp : p.length < (numbers xs).length := by rw [e]; simp
    have hx : (numbers xs).getD p.length 0 = x := by rw [e]; simp
    have hst : Gufunc.akrCircpermNanomitStep (fin y) xs (numbers xs).length
        (fin (sabs y p), fin ((List.range p.length).map fun i => |(numbers xs).getD i 0 -
          (numbers xs).getD (Gufunc.sigma (numbers xs).length i) 0|).sum, p.length) (fin x)
        = (fin (sabs y (p ++ [x])), fin ((List.range (p ++ [x]).length).map fun i => |(numbers xs).getD i 0 -
          (numbers xs).getD (Gufunc.sigma (numbers xs).length i) 0|).sum, (p ++ [x]).length) := by
      unfold Gufunc.akrCircpermNanomitStep
      rw [if_neg (by simp []), nthValid_eq h (sigma_lt hp)]
      simp only [List.length_append, List.length_singleton, List.range_succ, List.map_append, List.sum_append,
        List.map_singleton, List.sum_singleton, hx, fin_sub, fin_abs, fin_add, sabs]
    rw [List.map_cons, List.foldl_cons, hst, ih (p ++ [x]) (by rw [e]; simp)]

/-- C88: the same for the cyclic permutation estimator. -/
theorem C88_akr_circperm (y : ℝ) {xs : List XF} (h : NumOrNan xs) :
    Gufunc.akrCircpermNanomit (fin y) xs
      = if numbers xs = [] then nan else Gufunc.akrCircperm (fin y) ((numbers xs).map fin) := by
  unfold Gufunc.akrCircpermNanomit
  rw [foldl_skip _ (fun s => by simp []) h, count_fold, zero_add]
  dsimp only
  by_cases e : numbers xs = []
  · simp [e]
  · have hl : (numbers xs).length ≠ 0 := by simpa using e
    have hM : ((numbers xs).length : ℝ) ≠ 0 := by exact_mod_cast hl
    have := circperm_fold y h [] (numbers xs) rfl
    rw [show (fin (sabs y []), fin ((List.range ([] : List ℝ).length).map fun i => |(numbers xs).getD i 0 -
      (numbers xs).getD (Gufunc.sigma (numbers xs).length i) 0|).sum, ([] : List ℝ).length) = ((0 : XF), (0 : XF), 0) by
        simp [sabs, zero_def]] at this
    rw [if_neg hl, if_neg e, Gufunc.akrCircperm_fin y _ e,
      foldl_skip _ (fun s => by simp [Gufunc.akrCircpermNanomitStep]) h, this]
    simp only [natCast_fin, half_fin, fin_div hM, fin_mul, fin_sub]
    congr 1
    ring

/-- `C88_akr_circperm` -/
example : NumOrNan [fin 1, nan, fin 2] := by
  intro x hx
  simp at hx
  rcases hx with rfl | rfl | rfl <;> simp

/-- C88 does not extend to infinite members: one infinite
member gives NaN in the plain estimator, which takes its difference to itself, and infinity here. -/
theorem C88_infinite (y : ℝ) : Gufunc.akrNanomit (fin y) [pinf] = pinf ∧ Gufunc.akr (fin y) [pinf] = nan := by
  constructor
  · have h1 : XF.abs (pinf - fin y) = pinf := rfl
    have h2 : pinf / fin (1 : ℝ) = pinf := by
      show (if (0:ℝ) ≤ 1 then pinf else ninf) = pinf
      simp
    have h3 : pinf - fin (0 : ℝ) = pinf := rfl
    simp [Gufunc.akrNanomit, Gufunc.akrNanomitStep, natCast_fin, half_fin, zero_def, fin_div, h1, h2, h3,
      show fin (0 : ℝ) + pinf = pinf from rfl]
  · have h1 : XF.abs (pinf - pinf) = nan := rfl
    simp [Gufunc.akr, forEnum, idx, h1]

/-! ### C89: the multivariate NaN policy -/

/-- C89: `raise` fails exactly if some value is NaN and changes nothing otherwise. -/
theorem C89_raise (obs : List XF) (fct : List (List XF)) :
    Api.applyNanPolicyMv obs fct "raise"
      = if nan ∈ obs ∨ ∃ x ∈ fct, nan ∈ x then .error .valueError else .ok (obs, fct, none) := by
  have hn : ∀ l : List XF, (∃ v ∈ l, XF.isnan v) ↔ nan ∈ l := fun l => by
    simp [isnan_iff]
  unfold Api.applyNanPolicyMv
  rw [if_pos rfl]
  simp only [hn, or_comm]

/-- C89: `omit` marks exactly the members that contain a NaN, replaces them by zeros, keeps all others and the
observation, and leaves no NaN among the members. -/
theorem C89_omit (obs : List XF) (fct : List (List XF)) :
    ∃ fct' mask, Api.applyNanPolicyMv obs fct "omit" = .ok (obs, fct', some mask) ∧
      mask.length = fct.length ∧ fct'.length = fct.length ∧
      ∀ i (hi : i < fct.length), (mask.getD i false = true ↔ nan ∈ fct[i]) ∧
        fct'.getD i [] = (if nan ∈ fct[i] then List.replicate fct[i].length (0 : XF) else fct[i]) ∧
        nan ∉ fct'.getD i [] := by
  have hn : ∀ l : List XF, (l.any fun v => decide (XF.isnan v)) = true ↔ nan ∈ l := fun l => by
    simp [isnan_iff]
  refine ⟨List.zipWith (fun (b : Bool) (x : List XF) => if b = true then x.map fun _ => (0 : XF) else x)
    (fct.map fun x => x.any fun v => decide (XF.isnan v)) fct, fct.map fun x => x.any fun v => decide (XF.isnan v),
    ?_, ?_, ?_, fun i hi => ?_⟩
  · unfold Api.applyNanPolicyMv
    rw [if_neg (by simp), if_pos rfl]
  · simp
  · simp
  · have h1 : (fct.map fun x => x.any fun v => decide (XF.isnan v)).getD i false = fct[i].any fun v => decide (XF.isnan v) := by simp [hi]
    have h2 : (List.zipWith (fun (b : Bool) (x : List XF) => if b = true then x.map fun _ => (0 : XF) else x)
        (fct.map fun x => x.any fun v => decide (XF.isnan v)) fct).getD i [] = if nan ∈ fct[i] then List.replicate fct[i].length (0 : XF) else fct[i] := by
      simp [hi, ← hn]
    refine ⟨by rw [h1, hn], h2, ?_⟩
    rw [h2]
    split_ifs with h
    · simp [zero_def]
    · exact h

/-- the second of two members is marked (`C89_raise`, `C89_omit`) -/
example : ∃ fct' mask, Api.applyNanPolicyMv [fin 0, fin 1] [[fin 1, fin 2], [fin 3, nan]] "omit"
    = .ok ([fin 0, fin 1], fct', some mask) ∧ mask.getD 0 false = false ∧ mask.getD 1 false = true ∧
      Api.applyNanPolicyMv [fin 0, fin 1] [[fin 1, fin 2], [fin 3, nan]] "raise" = .error .valueError := by
  obtain ⟨f, m, h1, _, _, h2⟩ := C89_omit [fin 0, fin 1] [[fin 1, fin 2], [fin 3, nan]]
  refine ⟨f, m, h1, ?_, ?_, ?_⟩
  · have := (h2 0 (by simp)).1
    simpa using this
  · exact (h2 1 (by simp)).1.2 (by simp)
  · rw [C89_raise, if_pos (by simp)]

/-- C89: any other policy, also an unknown one that `nan_policy_check` refuses, changes nothing. -/
theorem C89_other (obs : List XF) (fct : List (List XF)) {policy : String} (h1 : policy ≠ "raise") (h2 : policy ≠ "omit") :
    Api.applyNanPolicyMv obs fct policy = .ok (obs, fct, none) ∧
      (Api.nanPolicyCheck policy = .ok () ↔ policy = "propagate") := by
  unfold Api.applyNanPolicyMv Api.nanPolicyCheck
  rw [if_neg h1, if_neg h2]
  simp [h1, h2]

example : ("ignore" : String) ≠ "raise" ∧ ("ignore" : String) ≠ "omit" := by simp

/-- C89: `nan_policy_check` accepts the three policies and rejects every other string with `ValueError`. -/
theorem C89_check (policy : String) :
    Api.nanPolicyCheck policy
      = if policy = "propagate" ∨ policy = "omit" ∨ policy = "raise" then .ok () else .error .valueError := by
  unfold Api.nanPolicyCheck
  simp

example : Api.nanPolicyCheck "raise" = .ok () ∧ Api.nanPolicyCheck "ignore" = .error .valueError := by
  rw [C89_check, C89_check]
  simp

end Verif
