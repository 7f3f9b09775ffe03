import Verif.Lemmas.CrpsNan

/-! A value that is not a number in the data keeps every CRPS kernel from returning a finite number. -/

noncomputable section

open scoped Classical

namespace Verif

open XF Py Api

/-- infinite or NaN -/
def XF.Nonfin (x : XF) : Prop := ∀ r : ℝ, x ≠ fin r

theorem nf_nan : XF.Nonfin nan := fun _ h => nomatch h
theorem nf_pinf : XF.Nonfin pinf := fun _ h => nomatch h
theorem nf_ninf : XF.Nonfin ninf := fun _ h => nomatch h

theorem not_nf_fin (r : ℝ) : ¬ XF.Nonfin (fin r) := fun h => h r rfl

theorem nf_infMul (b : Bool) (a : ℝ) : XF.Nonfin (infMul b a) := by
  rw [infMul_eq]
  split_ifs <;> (intro r h; exact nomatch h)

theorem nf_add_left {x : XF} (h : XF.Nonfin x) (y : XF) : XF.Nonfin (x + y) := by
  cases x <;> cases y <;> first | exact absurd h (not_nf_fin _) | exact fun r e => nomatch e

theorem nf_add_right {x : XF} (h : XF.Nonfin x) (y : XF) : XF.Nonfin (y + x) := by
  cases x <;> cases y <;> first | exact absurd h (not_nf_fin _) | exact fun r e => nomatch e

theorem nf_sub_left {x : XF} (h : XF.Nonfin x) (y : XF) : XF.Nonfin (x - y) := by
  cases x <;> cases y <;> first | exact absurd h (not_nf_fin _) | exact fun r e => nomatch e

theorem nf_sub_right {x : XF} (h : XF.Nonfin x) (y : XF) : XF.Nonfin (y - x) := by
  cases x <;> cases y <;> first | exact absurd h (not_nf_fin _) | exact fun r e => nomatch e

theorem nf_mul_left {x : XF} (h : XF.Nonfin x) (y : XF) : XF.Nonfin (x * y) := by
  cases x <;> cases y <;> first
    | exact absurd h (not_nf_fin _) | exact nf_infMul _ _ | exact fun r e => nomatch e

theorem nf_mul_right {x : XF} (h : XF.Nonfin x) (y : XF) : XF.Nonfin (y * x) := by
  rw [XF.mul_comm']; exact nf_mul_left h y

theorem nf_div {x : XF} (h : XF.Nonfin x) (y : XF) : XF.Nonfin (x / y) := by
  intro r e
  cases x with
  | fin a => exact not_nf_fin a h
  | nan => exact nomatch e
  | pinf =>
    cases y with
    | fin a => change (if 0 ≤ a then pinf else ninf) = fin r at e; split_ifs at e
    | nan => exact nomatch e
    | pinf => exact nomatch e
    | ninf => exact nomatch e
  | ninf =>
    cases y with
    | fin a => change (if 0 ≤ a then ninf else pinf) = fin r at e; split_ifs at e
    | nan => exact nomatch e
    | pinf => exact nomatch e
    | ninf => exact nomatch e

theorem nf_abs {x : XF} (h : XF.Nonfin x) : XF.Nonfin (XF.abs x) := by
  cases x <;> first | exact absurd h (not_nf_fin _) | exact fun r e => nomatch e

theorem nf_sum {l : List XF} {x : XF} (hx : x ∈ l) (h : XF.Nonfin x) : XF.Nonfin l.sum := by
  induction l with
  | nil => simp at hx
  | cons a l ih =>
    rw [List.sum_cons]
    rcases List.mem_cons.1 hx with rfl | hx
    · exact nf_add_left h _
    · exact nf_add_right (ih hx) _

theorem nf_sum_map {α : Type} {l : List α} {f : α → XF} {a : α} (ha : a ∈ l) (h : XF.Nonfin (f a)) :
    XF.Nonfin (l.map f).sum := nf_sum (List.mem_map_of_mem ha) h

theorem nf_sum_range {M : ℕ} {f : ℕ → XF} {i : ℕ} (hi : i < M) (h : XF.Nonfin (f i)) :
    XF.Nonfin ((List.range M).map f).sum := nf_sum_map (List.mem_range.2 hi) h

theorem nf_zip2_sum {f : XF → XF → XF} {a b : List XF} {i : ℕ} (ha : i < a.length)
    (hb : i < b.length) (h : XF.Nonfin (f (idx a i) (idx b i))) : XF.Nonfin (zip2 f a b).sum := by
  refine nf_sum ?_ h
  unfold zip2
  rw [List.mem_iff_getElem]
  exact ⟨i, by simp [ha, hb], by simp [idx, ha, hb]⟩

/-- the observation or a member is not a finite number -/
def NfIn (y : XF) (xs : List XF) : Prop := XF.Nonfin y ∨ ∃ x ∈ xs, XF.Nonfin x

theorem NfIn.dif {y : XF} {xs : List XF} (hne : xs ≠ []) (h : NfIn y xs) :
    ∃ i < xs.length, XF.Nonfin (idx xs i - y) ∧ XF.Nonfin (y - idx xs i) := by
  rcases h with h | ⟨x, hx, h⟩
  · exact ⟨0, List.length_pos_iff.2 hne, nf_sub_right h _, nf_sub_left h _⟩
  · obtain ⟨i, hi, rfl⟩ := List.mem_iff_getElem.1 hx
    refine ⟨i, hi, ?_, ?_⟩ <;> rw [idx_lt hi]
    · exact nf_sub_left h _
    · exact nf_sub_right h _

/-- a loop that gives up or reaches a state with the property from the element `a` on -/
theorem foldlM_from {S α : Type} (f : S → α → Option S) (P : S → Prop) {l : List α} {a : α} (ha : a ∈ l)
    (h0 : ∀ s s', f s a = some s' → P s') (h1 : ∀ s b s', P s → f s b = some s' → P s') (s r : S)
    (hr : l.foldlM f s = some r) : P r := by
  induction l generalizing s with
  | nil => simp at ha
  | cons b l ih =>
    rw [List.foldlM_cons] at hr
    cases hf : f s b with
    | none => rw [hf] at hr; simp at hr
    | some s' =>
      rw [hf] at hr
      rcases List.mem_cons.1 ha with rfl | ha
      · exact foldlM_inv f P l h1 s' (h0 s s' hf) r hr
      · exact ih ha s' hr

theorem mem_zipIdx_idx {xs : List XF} {i : ℕ} (hi : i < xs.length) : (idx xs i, i) ∈ xs.zipIdx := by
  rw [List.mem_zipIdx_iff_getElem?, idx_lt hi]
  simp [hi]

section
variable {y : XF} {xs : List XF} (hne : xs ≠ []) (h : NfIn y xs)
include hne h

namespace Gufunc

theorem nrg_nf : XF.Nonfin (nrg y xs) := by
  unfold nrg
  dsimp only
  split_ifs with hy
  · exact nf_nan
  obtain ⟨i, hi, e, _⟩ := h.dif hne
  rw [forRange_nested]
  exact nf_sub_left (nf_div (nf_sum_range hi (nf_abs e)) _) _

theorem fair_nf : XF.Nonfin (fair y xs) := by
  unfold fair
  dsimp only
  split_ifs with hy
  · exact nf_nan
  obtain ⟨i, hi, e, _⟩ := h.dif hne
  rw [forRange_nested]
  exact nf_sub_left (nf_div (nf_sum_range hi (nf_abs e)) _) _

theorem pwm_nf : XF.Nonfin (pwm y xs) := by
  unfold pwm
  dsimp only
  split_ifs with hy
  · exact nf_nan
  obtain ⟨i, hi, e, _⟩ := h.dif hne
  rw [forEnum_triple]
  exact nf_sub_left (nf_add_left (nf_div (nf_sum_range hi (nf_abs e)) _) _) _

theorem akr_nf : XF.Nonfin (akr y xs) := by
  unfold akr
  dsimp only
  obtain ⟨i, hi, e, _⟩ := h.dif hne
  rw [forEnum_pair xs (fun x _ => XF.abs (x - y))
    (fun x i => XF.abs (x - idx xs ((if i = 0 then xs.length else i) - 1)))]
  exact nf_sub_left (nf_div (nf_sum_range hi (nf_abs e)) _) _

theorem akrCircperm_nf : XF.Nonfin (akrCircperm y xs) := by
  unfold akrCircperm
  dsimp only
  obtain ⟨i, hi, e, _⟩ := h.dif hne
  rw [forEnum_pair xs (fun x _ => XF.abs (x - y))
    (fun x i => XF.abs (x - idx xs (sigma xs.length i)))]
  exact nf_sub_left (nf_div (nf_sum_range hi (nf_abs e)) _) _

theorem qd_nf : XF.Nonfin (qd y xs) := by
  unfold qd
  dsimp only
  split_ifs with hy
  · exact nf_nan
  obtain ⟨i, hi, e, _⟩ := h.dif hne
  unfold forEnumM
  generalize hr : List.foldlM (m := Option) _ _ _ = r
  cases r with
  | none => exact nf_nan
  | some r =>
    refine nf_mul_right ?_ _
    refine foldlM_from _ (fun s : XF × XF => XF.Nonfin s.2) (mem_zipIdx_idx hi) ?_ ?_ _ r hr
    · intro s s' hf
      dsimp only at hf
      split_ifs at hf <;> · injection hf with hf; rw [← hf]; exact nf_add_right (nf_mul_left e _) _
    · intro s b s' hs hf
      dsimp only at hf
      split_ifs at hf <;> · injection hf with hf; rw [← hf]; exact nf_add_left hs _

end Gufunc

namespace Approx

theorem e1_nf : XF.Nonfin (e1 y xs) := by
  obtain ⟨i, hi, _, e⟩ := h.dif hne
  unfold e1
  exact nf_div (nf_sum_map (f := fun x => XF.abs (y - x)) (idx_mem hi) (nf_abs e)) _

theorem nrg_nf : XF.Nonfin (nrg y xs) := nf_sub_left (e1_nf hne h) _

theorem fair_nf : XF.Nonfin (fair y xs) := nf_sub_left (e1_nf hne h) _

theorem pwm_nf : XF.Nonfin (pwm y xs) := nf_sub_left (nf_add_left (e1_nf hne h) _) _

theorem akr_nf : XF.Nonfin (akr y xs) := nf_sub_left (e1_nf hne h) _

theorem akrCircperm_nf : XF.Nonfin (akrCircperm y xs) := nf_sub_left (e1_nf hne h) _

theorem qd_nf : XF.Nonfin (qd y xs) := by
  obtain ⟨i, hi, e, e'⟩ := h.dif hne
  unfold qd
  dsimp only
  refine nf_mul_right (nf_div (nf_zip2_sum (i := i) (by simp [zip2, hi]) (by simp [zip2, hi]) ?_) _) _
  refine nf_add_left ?_ _
  rw [idx_lt (by simp [zip2, hi])]
  simp only [zip2, List.getElem_zipWith]
  rw [idx_lt hi] at e'
  exact nf_mul_right e' _

end Approx

/-- the step lengths of the integral form -/
theorem expDif_nf (d : List XF) (hd : d.length = xs.length) :
    XF.Nonfin (zip2 (· * ·) (zip2 (· - ·) ((Py.sort (xs ++ [y])).drop 1)
      ((Py.sort (xs ++ [y])).take xs.length)) d).sum := by
  have hm : ∃ v ∈ Py.sort (xs ++ [y]), XF.Nonfin v := by
    rcases h with h | ⟨x, hx, h⟩
    · exact ⟨y, by rw [(sort_perm _).mem_iff]; simp, h⟩
    · exact ⟨x, by rw [(sort_perm _).mem_iff]; simp [hx], h⟩
  have hlen : (Py.sort (xs ++ [y])).length = xs.length + 1 := by
    rw [(sort_perm _).length_eq]; simp
  have hp : 0 < xs.length := List.length_pos_iff.2 hne
  obtain ⟨v, hv, hn⟩ := hm
  obtain ⟨j, hj, rfl⟩ := List.mem_iff_getElem.1 hv
  have key : ∀ i (hi : i < xs.length), XF.Nonfin ((Py.sort (xs ++ [y]))[i + 1]'(by omega) - (Py.sort (xs ++ [y]))[i]) →
      XF.Nonfin (zip2 (· * ·) (zip2 (· - ·) ((Py.sort (xs ++ [y])).drop 1)
        ((Py.sort (xs ++ [y])).take xs.length)) d).sum := by
    intro i hi hk
    refine nf_zip2_sum (i := i) (by simp [zip2, hlen]; omega) (by omega) (nf_mul_left ?_ _)
    rw [idx_lt (by simp [zip2, hlen]; omega)]
    simp only [zip2, List.getElem_zipWith, List.getElem_take, List.getElem_drop]
    rw [show (Py.sort (xs ++ [y]))[1 + i]'(by omega) = (Py.sort (xs ++ [y]))[i + 1]'(by omega) by
      congr 1; omega]
    exact hk
  rcases Nat.lt_or_ge j xs.length with hjx | hjx
  · exact key j hjx (nf_sub_right hn _)
  · have : j = (xs.length - 1) + 1 := by omega
    subst this
    exact key (xs.length - 1) (by omega) (nf_sub_left hn _)

theorem Approx.int_nf : XF.Nonfin (Approx.int y xs) := by
  unfold Approx.int
  dsimp only
  apply expDif_nf hne h
  simp [zip2, (sort_perm _).length_eq]

end

/-- the loop of the two `int` kernels, with any rule for the weights -/
theorem intLoop_nf {y : XF} {xs : List XF} (h : NfIn y xs) (g : ℕ → XF) (s0 r : Gufunc.IntSt)
    (hs0 : s0.obsCdf = false)
    (hr : forEnumM xs s0 (fun n forecast s =>
      if forecast.isnan then none
      else
        let s' : Gufunc.IntSt :=
          if s.obsCdf = false ∧ y < forecast then
            { s with
              integral := s.integral + (y - s.prev) * s.fcCdf ^ 2 + (forecast - y) * (s.fcCdf - 1) ^ 2
              obsCdf := true }
          else
            { s with
              integral := s.integral + (s.fcCdf - s.obsCdfX) ^ 2 * (forecast - s.prev) }
        some { s' with
          fcCdf := s'.fcCdf + g n
          prev := forecast
          forecast := forecast }) = some r) :
    XF.Nonfin (if r.obsCdf = false then r.integral + (y - r.forecast) else r.integral) := by
  unfold forEnumM at hr
  rcases h with h | ⟨x, hx, h⟩
  · have : r.obsCdf = true → XF.Nonfin r.integral := by
      refine foldlM_inv _ (fun s : Gufunc.IntSt => s.obsCdf = true → XF.Nonfin s.integral) _ ?_ s0 ?_ r hr
      · intro s b s' hs hf
        dsimp only at hf
        split_ifs at hf with h1 h2
        · injection hf with hf
          rw [← hf]
          intro _
          exact nf_add_left (nf_add_right (nf_mul_left (nf_sub_left h _) _) _) _
        · injection hf with hf
          rw [← hf]
          intro hc
          exact nf_add_left (hs hc) _
      · rw [hs0]; simp
    split_ifs with hc
    · exact nf_add_right (nf_sub_left h _) _
    · exact this (by simpa using hc)
  · obtain ⟨i, hi, rfl⟩ := List.mem_iff_getElem.1 hx
    rw [← idx_lt hi] at h
    have : XF.Nonfin r.integral := by
      refine foldlM_from _ (fun s : Gufunc.IntSt => XF.Nonfin s.integral) (mem_zipIdx_idx hi) ?_ ?_ s0 r hr
      · intro s s' hf
        dsimp only at hf
        split_ifs at hf with h1 h2
        · injection hf with hf
          rw [← hf]
          exact nf_add_right (nf_mul_left (nf_sub_left h _) _) _
        · injection hf with hf
          rw [← hf]
          exact nf_add_right (nf_mul_right (nf_sub_left h _) _) _
      · intro s b s' hs hf
        dsimp only at hf
        split_ifs at hf with h1 h2
        · injection hf with hf
          rw [← hf]
          exact nf_add_left (nf_add_left hs _) _
        · injection hf with hf
          rw [← hf]
          exact nf_add_left hs _
    split_ifs
    · exact nf_add_left this _
    · exact this

theorem Gufunc.int_nf {y : XF} {xs : List XF} (h : NfIn y xs) : XF.Nonfin (Gufunc.int y xs) := by
  unfold Gufunc.int
  dsimp only
  split_ifs with hy
  · exact nf_nan
  generalize hr : forEnumM xs _ _ = r
  cases r with
  | none => exact nf_nan
  | some r => exact intLoop_nf h (fun _ => 1 / (xs.length : XF)) _ r rfl hr

theorem GufuncW.int_nf {y : XF} {xs ws : List XF} (h : NfIn y xs) :
    XF.Nonfin (GufuncW.int y xs ws) := by
  unfold GufuncW.int
  dsimp only
  split_ifs with hy
  · exact nf_nan
  generalize hr : forEnumM xs _ _ = r
  cases r with
  | none => exact nf_nan
  | some r => exact intLoop_nf h (fun n => idx ws n) _ r rfl hr

/-! weighted -/

section
variable {y : XF} {xs ws : List XF} (hne : xs ≠ []) (h : NfIn y xs)
include hne h

namespace GufuncW

theorem nrg_nf : XF.Nonfin (nrg y xs ws) := by
  unfold nrg
  dsimp only
  split_ifs with hy
  · exact nf_nan
  obtain ⟨i, hi, e, _⟩ := h.dif hne
  rw [forRange_nested]
  exact nf_sub_left (nf_sum_range hi (nf_mul_left (nf_abs e) _)) _

theorem fair_nf : XF.Nonfin (fair y xs ws) := by
  unfold fair
  dsimp only
  split_ifs with hy
  · exact nf_nan
  · exact nf_nan
  obtain ⟨i, hi, e, _⟩ := h.dif hne
  rw [forRange_nested]
  exact nf_sub_left (nf_sum_range hi (nf_mul_left (nf_abs e) _)) _

theorem pwm_nf : XF.Nonfin (pwm y xs ws) := by
  unfold pwm
  dsimp only
  split_ifs with hy
  · exact nf_nan
  obtain ⟨i, hi, e, _⟩ := h.dif hne
  rw [forEnum_triple xs (fun x i => XF.abs (x - y) * idx ws i) (fun x i => x * idx ws i)
    (fun x i => x * idx ws i * (idx (cumsum ws) i - idx ws i))]
  exact nf_sub_left (nf_add_left (nf_sum_range hi (nf_mul_left (nf_abs e) _)) _) _

theorem akr_nf : XF.Nonfin (akr y xs ws) := by
  unfold akr
  dsimp only
  obtain ⟨i, hi, e, _⟩ := h.dif hne
  rw [forEnum_pair xs (fun x i => XF.abs (x - y) * idx ws i)
    (fun x i => XF.abs (x - idx xs (if 0 < i then i - 1 else xs.length - 1)) * idx ws i)]
  exact nf_sub_left (nf_sum_range hi (nf_mul_left (nf_abs e) _)) _

theorem akrCircperm_nf : XF.Nonfin (akrCircperm y xs ws) := by
  unfold akrCircperm
  dsimp only
  obtain ⟨i, hi, e, _⟩ := h.dif hne
  rw [forEnum_pair xs (fun x i => XF.abs (x - y) * idx ws i)
    (fun x i => XF.abs (x - idx xs (Gufunc.sigma xs.length i)) * idx ws i)]
  exact nf_sub_left (nf_sum_range hi (nf_mul_left (nf_abs e) _)) _

theorem qd_nf : XF.Nonfin (qd y xs ws) := by
  unfold qd
  dsimp only
  split_ifs with hy
  · exact nf_nan
  obtain ⟨i, hi, e, _⟩ := h.dif hne
  unfold forEnumM
  generalize hr : List.foldlM (m := Option) _ _ _ = r
  cases r with
  | none => exact nf_nan
  | some r =>
    refine nf_mul_right ?_ _
    refine foldlM_from _ (fun s : XF × XF => XF.Nonfin s.2) (mem_zipIdx_idx hi) ?_ ?_ _ r hr
    · intro s s' hf
      dsimp only at hf
      split_ifs at hf <;> · injection hf with hf; rw [← hf]; exact nf_add_right (nf_mul_right e _) _
    · intro s b s' hs hf
      dsimp only at hf
      split_ifs at hf <;> · injection hf with hf; rw [← hf]; exact nf_add_left hs _

end GufuncW

namespace ApproxW

variable (hl : ws.length = xs.length)
include hl

theorem e1_nf : XF.Nonfin (e1 y xs ws) := by
  obtain ⟨i, hi, _, e⟩ := h.dif hne
  unfold e1
  exact nf_zip2_sum hi (by omega) (nf_mul_left (nf_abs e) _)

theorem nrg_nf : XF.Nonfin (nrg y xs ws) := nf_sub_left (e1_nf hne h hl) _

theorem fair_nf : XF.Nonfin (fair y xs ws) := nf_sub_left (e1_nf hne h hl) _

theorem pwm_nf : XF.Nonfin (pwm y xs ws) := nf_sub_left (nf_add_left (e1_nf hne h hl) _) _

theorem akr_nf : XF.Nonfin (akr y xs ws) := nf_sub_left (e1_nf hne h hl) _

theorem akrCircperm_nf : XF.Nonfin (akrCircperm y xs ws) := nf_sub_left (e1_nf hne h hl) _

theorem qd_nf : XF.Nonfin (qd y xs ws) := by
  obtain ⟨i, hi, e, _⟩ := h.dif hne
  have hi' : i < ws.length := by omega
  rw [idx_lt hi] at e
  unfold qd
  dsimp only
  refine nf_mul_right (nf_zip2_sum (i := i) (by simp [zip2, hi, hi', cumsum]) (by simp [hi]) (nf_mul_right ?_ _)) _
  rw [idx_lt (by simp [hi])]
  simpa using e

theorem int_nf : XF.Nonfin (int y xs ws) := by
  unfold int
  dsimp only
  apply expDif_nf hne h
  simp [zip2, (sort_perm _).length_eq, cumsum, hl]

end ApproxW
end

theorem kernel_nf {path : Path} {est : String} {k : XF → List XF → XF}
    (hk : kernel path est = .ok k) {y : XF} {xs : List XF} (hne : xs ≠ []) (h : NfIn y xs) :
    XF.Nonfin (k y xs) := by
  cases path
  · simp only [kernel, estimatorGufuncs] at hk
    split_ifs at hk <;> injection hk with hk <;> subst hk
    · exact Gufunc.akrCircperm_nf hne h
    · exact Gufunc.akr_nf hne h
    · exact Gufunc.fair_nf hne h
    · exact Gufunc.int_nf h
    · exact Gufunc.nrg_nf hne h
    · exact Gufunc.pwm_nf hne h
    · exact Gufunc.qd_nf hne h
  · simp only [kernel, ensembleKernel] at hk
    split_ifs at hk <;> injection hk with hk <;> subst hk
    · exact Approx.nrg_nf hne h
    · exact Approx.pwm_nf hne h
    · exact Approx.fair_nf hne h
    · exact Approx.qd_nf hne h
    · exact Approx.akr_nf hne h
    · exact Approx.akrCircperm_nf hne h
    · exact Approx.int_nf hne h

theorem kernelW_nf {path : Path} {est : String} {k : XF → List XF → List XF → XF}
    (hk : kernelW path est = .ok k) {y : XF} {xs ws : List XF} (hne : xs ≠ [])
    (hl : ws.length = xs.length) (h : NfIn y xs) : XF.Nonfin (k y xs ws) := by
  cases path
  · simp only [kernelW, estimatorGufuncsW] at hk
    split_ifs at hk <;> injection hk with hk <;> subst hk
    · exact GufuncW.akrCircperm_nf hne h
    · exact GufuncW.akr_nf hne h
    · exact GufuncW.fair_nf hne h
    · exact GufuncW.int_nf h
    · exact GufuncW.nrg_nf hne h
    · exact GufuncW.pwm_nf hne h
    · exact GufuncW.qd_nf hne h
  · simp only [kernelW, ensembleKernelW] at hk
    split_ifs at hk <;> injection hk with hk <;> subst hk
    · exact ApproxW.nrg_nf hne h hl
    · exact ApproxW.pwm_nf hne h hl
    · exact ApproxW.fair_nf hne h hl
    · exact ApproxW.qd_nf hne h hl
    · exact ApproxW.akr_nf hne h hl
    · exact ApproxW.akrCircperm_nf hne h hl
    · exact ApproxW.int_nf hne h hl

end Verif
