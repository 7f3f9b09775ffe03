import Verif.Lemmas.CrpsApi2

/-! NaN propagation through the CRPS kernels. -/

noncomputable section

open scoped Classical

namespace Verif

open XF Py Api

theorem sum_map_nan {α : Type} {l : List α} {f : α → XF} {a : α} (ha : a ∈ l) (h : f a = nan) :
    (l.map f).sum = nan := sum_eq_nan_of_mem (by rw [← h]; exact List.mem_map_of_mem ha)

theorem sum_range_nan {M : ℕ} {f : ℕ → XF} {i : ℕ} (hi : i < M) (h : f i = nan) :
    ((List.range M).map f).sum = nan := sum_map_nan (List.mem_range.2 hi) h

theorem zip2_sum_nan {f : XF → XF → XF} {a b : List XF} {i : ℕ} (ha : i < a.length)
    (hb : i < b.length) (h : f (idx a i) (idx b i) = nan) : (zip2 f a b).sum = nan := by
  apply sum_eq_nan_of_mem
  rw [← h]
  unfold zip2
  rw [List.mem_iff_getElem]
  exact ⟨i, by simp [ha, hb], by simp [idx, ha, hb]⟩

theorem idx_lt {l : List XF} {i : ℕ} (h : i < l.length) : idx l i = l[i] := by
  unfold idx; simp [h]

theorem idx_mem {l : List XF} {i : ℕ} (h : i < l.length) : idx l i ∈ l := by
  rw [idx_lt h]; simp

theorem exists_idx_nan {xs : List XF} (h : nan ∈ xs) : ∃ i < xs.length, idx xs i = nan := by
  obtain ⟨i, hi, e⟩ := List.mem_iff_getElem.1 h
  exact ⟨i, hi, by simp [idx, hi, e]⟩

theorem forRange_nested (M : ℕ) (f : ℕ → XF) (g : ℕ → ℕ → XF) :
    forRange 0 M ((0, 0) : XF × XF) (fun i e =>
      (e.1 + f i, forRange (i + 1) M e.2 fun j e2 => e2 + g i j))
      = (((List.range M).map f).sum,
         ((List.range M).map fun i => ((List.range' (i + 1) (M - (i + 1))).map (g i)).sum).sum) := by
  unfold forRange
  simp only [foldl_add_eq, Nat.sub_zero]
  rw [foldl_pair_eq]
  rw [show List.range' 0 M = List.range M from (List.range_eq_range').symm]
  simp

theorem forEnum_triple (xs : List XF) (f g h : XF → ℕ → XF) :
    forEnum xs ((0, 0, 0) : XF × XF × XF)
      (fun i x e => (e.1 + f x i, e.2.1 + g x i, e.2.2 + h x i))
      = (((List.range xs.length).map fun i => f (idx xs i) i).sum,
         ((List.range xs.length).map fun i => g (idx xs i) i).sum,
         ((List.range xs.length).map fun i => h (idx xs i) i).sum) := by
  unfold forEnum
  rw [foldl_triple_eq xs.zipIdx (fun p => f p.1 p.2) (fun p => g p.1 p.2) (fun p => h p.1 p.2),
    zipIdx_eq_range, zipIdx_eq_range, zipIdx_eq_range]
  simp

theorem foldlM_none {S α : Type} (f : S → α → Option S) {l : List α} {a : α} (ha : a ∈ l)
    (h : ∀ s, f s a = none) (s : S) : l.foldlM f s = none := by
  induction l generalizing s with
  | nil => simp at ha
  | cons b l ih =>
    rw [List.foldlM_cons]
    rcases List.mem_cons.1 ha with rfl | ha
    · rw [h]; rfl
    · cases f s b with
      | none => rfl
      | some s' => exact ih ha s'

theorem forEnumM_nan {S : Type} {xs : List XF} (h : nan ∈ xs) (s : S)
    (body : ℕ → XF → S → Option S) (hb : ∀ i s, body i nan s = none) :
    forEnumM xs s body = none := by
  obtain ⟨i, hi, e⟩ := List.mem_iff_getElem.1 h
  unfold forEnumM
  exact foldlM_none (a := (nan, i)) _ (List.mem_zipIdx_iff_getElem?.2 (by simp [hi, e])) (fun s => hb i s) s

theorem foldlM_inv {S α : Type} (f : S → α → Option S) (P : S → Prop) (l : List α)
    (h : ∀ s a s', P s → f s a = some s' → P s') (s : S) (hs : P s) :
    ∀ r, l.foldlM f s = some r → P r := by
  induction l generalizing s with
  | nil => intro r hr; simp only [List.foldlM_nil, Option.pure_def, Option.some.injEq] at hr; exact hr ▸ hs
  | cons a l ih =>
    intro r hr
    rw [List.foldlM_cons] at hr
    cases hf : f s a with
    | none => rw [hf] at hr; simp at hr
    | some s' =>
      rw [hf] at hr
      exact ih s' (h s a s' hs hf) r hr

/-- the observation or a member is NaN -/
def NanIn (y : XF) (xs : List XF) : Prop := y = nan ∨ nan ∈ xs

theorem NanIn.term {y : XF} {xs : List XF} (hne : xs ≠ []) (h : NanIn y xs) :
    ∃ i < xs.length, XF.abs (idx xs i - y) = nan ∧ XF.abs (y - idx xs i) = nan := by
  rcases h with h | h
  · exact ⟨0, List.length_pos_iff.2 hne, by simp [h], by simp [h]⟩
  · obtain ⟨i, hi, e⟩ := exists_idx_nan h
    exact ⟨i, hi, by simp [e], by simp [e]⟩

theorem NanIn.mem {y : XF} {xs : List XF} (h : NanIn y xs) (hy : ¬ y.isnan) : nan ∈ xs := by
  rcases h with h | h
  · rw [h] at hy; simp at hy
  · exact h

section
variable {y : XF} {xs : List XF} (hne : xs ≠ []) (h : NanIn y xs)
include hne h

namespace Gufunc

theorem nrg_nan : nrg y xs = nan := by
  unfold nrg
  dsimp only
  split_ifs with hy
  · rfl
  obtain ⟨i, hi, e, _⟩ := h.term hne
  rw [forRange_nested]
  dsimp only
  rw [sum_range_nan hi (by rw [e]), nan_div, nan_sub]

theorem fair_nan : fair y xs = nan := by
  unfold fair
  dsimp only
  split_ifs with hy
  · rfl
  obtain ⟨i, hi, e, _⟩ := h.term hne
  rw [forRange_nested]
  dsimp only
  rw [sum_range_nan hi (by rw [e]), nan_div, nan_sub]

theorem pwm_nan : pwm y xs = nan := by
  unfold pwm
  dsimp only
  split_ifs with hy
  · rfl
  obtain ⟨i, hi, e, _⟩ := h.term hne
  rw [forEnum_triple]
  dsimp only
  rw [sum_range_nan hi (by rw [e]), nan_div, nan_add, nan_sub]

theorem akr_nan : akr y xs = nan := by
  unfold akr
  dsimp only
  obtain ⟨i, hi, e, _⟩ := h.term hne
  rw [forEnum_pair xs (fun x _ => XF.abs (x - y))
    (fun x i => XF.abs (x - idx xs ((if i = 0 then xs.length else i) - 1)))]
  dsimp only
  rw [sum_range_nan hi (by rw [e]), nan_div, nan_sub]

theorem akrCircperm_nan : akrCircperm y xs = nan := by
  unfold akrCircperm
  dsimp only
  obtain ⟨i, hi, e, _⟩ := h.term hne
  rw [forEnum_pair xs (fun x _ => XF.abs (x - y))
    (fun x i => XF.abs (x - idx xs (sigma xs.length i)))]
  dsimp only
  rw [sum_range_nan hi (by rw [e]), nan_div, nan_sub]

omit hne in
theorem qd_nan : qd y xs = nan := by
  unfold qd
  dsimp only
  split_ifs with hy
  · rfl
  rw [forEnumM_nan (h.mem hy) _ _ (by intro i s; simp)]

omit hne in
theorem int_nan : int y xs = nan := by
  unfold int
  dsimp only
  split_ifs with hy
  · rfl
  rw [forEnumM_nan (h.mem hy) _ _ (by intro i s; simp)]

end Gufunc

namespace Approx

theorem e1_nan : e1 y xs = nan := by
  obtain ⟨i, hi, _, e⟩ := h.term hne
  unfold e1
  rw [sum_map_nan (a := idx xs i) (by unfold idx; simp [hi]) e, nan_div]

theorem nrg_nan : nrg y xs = nan := by
  unfold nrg; dsimp only; rw [e1_nan hne h, nan_sub]

theorem fair_nan : fair y xs = nan := by
  unfold fair; dsimp only; rw [e1_nan hne h, nan_sub]

theorem pwm_nan : pwm y xs = nan := by
  unfold pwm; dsimp only; rw [e1_nan hne h, nan_add, nan_sub]

theorem akr_nan : akr y xs = nan := by
  unfold akr; dsimp only; rw [e1_nan hne h, nan_sub]

theorem akrCircperm_nan : akrCircperm y xs = nan := by
  unfold akrCircperm; dsimp only; rw [e1_nan hne h, nan_sub]

theorem qd_nan : qd y xs = nan := by
  obtain ⟨i, hi, e, e'⟩ := h.term hne
  have e1 : y - idx xs i = nan := by
    cases hh : y - idx xs i <;> rw [hh] at e' <;> simp [XF.abs] at e' ⊢
  unfold qd
  dsimp only
  rw [zip2_sum_nan (i := i) (by simp [zip2, hi]) (by simp [zip2, hi])]
  · simp
  · have : idx (zip2 (fun x a => ind (x ≤ y) * a * (y - x)) xs
        (List.map (fun i : ℕ => ((i + 1 : ℕ) : XF) - half) (List.range xs.length))) i = nan := by
      have e2 : y - xs[i] = nan := by rw [← e1]; simp [idx, hi]
      simp [idx, zip2, hi, e2]
    rw [this, nan_add]

end Approx
end

theorem sorted_last_nan {l : List XF} (h : nan ∈ l) (hs : SortedX l) (hl : l ≠ []) :
    l.getLast hl = nan := by
  rw [← List.dropLast_append_getLast hl] at h hs
  rcases List.mem_append.1 h with h | h
  · have := (List.pairwise_append.1 hs).2.2 nan h (l.getLast hl) (by simp)
    cases hh : l.getLast hl <;> rw [hh] at this <;> simp [sortLe] at this ⊢
  · simpa using (List.mem_singleton.1 h).symm

/-- the step lengths of the integral form end with a NaN -/
theorem expDif_nan {y : XF} {xs : List XF} (hne : xs ≠ []) (h : NanIn y xs) (d : List XF)
    (hd : d.length = xs.length) :
    (zip2 (· * ·) (zip2 (· - ·) ((Py.sort (xs ++ [y])).drop 1)
      ((Py.sort (xs ++ [y])).take xs.length)) d).sum = nan := by
  have hm : nan ∈ Py.sort (xs ++ [y]) := by
    rw [(sort_perm _).mem_iff]
    rcases h with h | h <;> simp [h]
  have hlen : (Py.sort (xs ++ [y])).length = xs.length + 1 := by
    rw [(sort_perm _).length_eq]; simp
  have hl : Py.sort (xs ++ [y]) ≠ [] := by
    intro h'; rw [h'] at hlen; simp at hlen
  have hlast := sorted_last_nan hm (sort_sorted _) hl
  have hp : 0 < xs.length := List.length_pos_iff.2 hne
  rw [List.getLast_eq_getElem] at hlast
  apply zip2_sum_nan (i := xs.length - 1)
  · simp [zip2, hlen]; omega
  · omega
  · have h1 : idx (zip2 (· - ·) ((Py.sort (xs ++ [y])).drop 1)
      ((Py.sort (xs ++ [y])).take xs.length)) (xs.length - 1) = nan := by
      unfold zip2
      rw [idx_lt (by simp [hlen]; omega)]
      rw [List.getElem_zipWith]
      have : ((Py.sort (xs ++ [y])).drop 1)[xs.length - 1]'(by simp [hlen]; omega) = nan := by
        rw [List.getElem_drop]
        rw [← hlast]
        congr 1
        omega
      rw [this, nan_sub]
    rw [h1, nan_mul]

theorem Approx.int_nan {y : XF} {xs : List XF} (hne : xs ≠ []) (h : NanIn y xs) :
    Approx.int y xs = nan := by
  unfold Approx.int
  dsimp only
  apply expDif_nan hne h
  have : (Py.sort (xs ++ [y])).length = xs.length + 1 := by
    rw [(sort_perm _).length_eq]; simp
  simp [zip2, (sort_perm _).length_eq]

theorem kernel_nan {path : Path} {est : String} {k : XF → List XF → XF}
    (hk : kernel path est = .ok k) {y : XF} {xs : List XF} (hne : xs ≠ []) (h : NanIn y xs) :
    k y xs = nan := by
  cases path
  · simp only [kernel, estimatorGufuncs] at hk
    split_ifs at hk <;> injection hk with hk <;> subst hk
    · exact Gufunc.akrCircperm_nan hne h
    · exact Gufunc.akr_nan hne h
    · exact Gufunc.fair_nan hne h
    · exact Gufunc.int_nan h
    · exact Gufunc.nrg_nan hne h
    · exact Gufunc.pwm_nan hne h
    · exact Gufunc.qd_nan h
  · simp only [kernel, ensembleKernel] at hk
    split_ifs at hk <;> injection hk with hk <;> subst hk
    · exact Approx.nrg_nan hne h
    · exact Approx.pwm_nan hne h
    · exact Approx.fair_nan hne h
    · exact Approx.qd_nan hne h
    · exact Approx.akr_nan hne h
    · exact Approx.akrCircperm_nan hne h
    · exact Approx.int_nan hne h

/-! weighted -/

/-- the observation, a member or all weights are NaN -/
def NanInW (y : XF) (xs ws : List XF) : Prop := NanIn y xs ∨ ∀ w ∈ ws, w = nan

theorem NanInW.term {y : XF} {xs ws : List XF} (hne : xs ≠ []) (hl : ws.length = xs.length)
    (h : NanInW y xs ws) :
    ∃ i < xs.length, XF.abs (idx xs i - y) * idx ws i = nan ∧
      XF.abs (y - idx xs i) * idx ws i = nan := by
  rcases h with h | h
  · obtain ⟨i, hi, e, e'⟩ := h.term hne
    exact ⟨i, hi, by rw [e, nan_mul], by rw [e', nan_mul]⟩
  · have h0 : 0 < xs.length := List.length_pos_iff.2 hne
    have : idx ws 0 = nan := h _ (idx_mem (by omega))
    exact ⟨0, h0, by rw [this, mul_nan], by rw [this, mul_nan]⟩

section
variable {y : XF} {xs ws : List XF} (hne : xs ≠ []) (hl : ws.length = xs.length)
  (h : NanInW y xs ws)
include hne hl h

namespace GufuncW

theorem nrg_nan : nrg y xs ws = nan := by
  unfold nrg
  dsimp only
  split_ifs with hy
  · rfl
  obtain ⟨i, hi, e, _⟩ := h.term hne hl
  rw [forRange_nested]
  dsimp only
  rw [sum_range_nan hi (by rw [e]), nan_sub]

theorem fair_nan' : fair y xs ws = nan := by
  unfold fair
  dsimp only
  split_ifs with hy
  · rfl
  · rfl
  obtain ⟨i, hi, e, _⟩ := h.term hne hl
  rw [forRange_nested]
  dsimp only
  rw [sum_range_nan hi (by rw [e]), nan_sub]

theorem pwm_nan : pwm y xs ws = nan := by
  unfold pwm
  dsimp only
  split_ifs with hy
  · rfl
  obtain ⟨i, hi, e, _⟩ := h.term hne hl
  rw [forEnum_triple xs (fun x i => XF.abs (x - y) * idx ws i) (fun x i => x * idx ws i)
    (fun x i => x * idx ws i * (idx (cumsum ws) i - idx ws i))]
  dsimp only
  rw [sum_range_nan hi (by rw [e]), nan_add, nan_sub]

theorem akr_nan : akr y xs ws = nan := by
  unfold akr
  dsimp only
  obtain ⟨i, hi, e, _⟩ := h.term hne hl
  rw [forEnum_pair xs (fun x i => XF.abs (x - y) * idx ws i)
    (fun x i => XF.abs (x - idx xs (if 0 < i then i - 1 else xs.length - 1)) * idx ws i)]
  dsimp only
  rw [sum_range_nan hi (by rw [e]), nan_sub]

theorem akrCircperm_nan : akrCircperm y xs ws = nan := by
  unfold akrCircperm
  dsimp only
  obtain ⟨i, hi, e, _⟩ := h.term hne hl
  rw [forEnum_pair xs (fun x i => XF.abs (x - y) * idx ws i)
    (fun x i => XF.abs (x - idx xs (Gufunc.sigma xs.length i)) * idx ws i)]
  dsimp only
  rw [sum_range_nan hi (by rw [e]), nan_sub]

theorem qd_nan : qd y xs ws = nan := by
  unfold qd
  dsimp only
  split_ifs with hy
  · rfl
  rcases h with h | h
  · rw [forEnumM_nan (h.mem hy) _ _ (by intro i s; simp)]
  · obtain ⟨x, xs', rfl⟩ := List.exists_cons_of_ne_nil hne
    have h0 : idx ws 0 = nan := h _ (idx_mem (by rw [hl]; simp))
    unfold forEnumM
    rw [List.zipIdx_cons, List.foldlM_cons]
    dsimp only
    rw [h0]
    by_cases hx : x.isnan
    · simp [hx]
    · rw [if_neg hx]
      have := foldlM_inv (fun (s : XF × XF) (p : XF × ℕ) =>
        if p.1.isnan then none
        else some ((if y < p.1 then (1 : XF) else s.1), s.2 + idx ws p.2 *
          ((if y < p.1 then (1 : XF) else s.1) -
            idx (zip2 (fun c v => c - v / 2) (cumsum ws) ws) p.2) * (p.1 - y)))
        (fun s => s.2 = nan) (xs'.zipIdx 1) (by
          intro s a s' hs hf
          split_ifs at hf <;> · injection hf with hf; rw [← hf]; dsimp only; rw [hs, nan_add])
        ((if y < x then (1 : XF) else 0), nan) rfl
      simp only [nan_mul, add_nan, Option.bind_eq_bind, Option.bind_some]
      generalize hr : List.foldlM (m := Option) _ _ _ = r at this ⊢
      cases r with
      | none => rfl
      | some r => 
        have := this r rfl
        dsimp only
        rw [this, mul_nan]

/-- two or more members -/
theorem int_nan (h2 : NanIn y xs ∨ 2 ≤ xs.length) : int y xs ws = nan := by
  unfold int
  dsimp only
  split_ifs with hy
  · rfl
  by_cases hm : nan ∈ xs
  · rw [forEnumM_nan hm _ _ (by intro i s; simp)]
  have hw : ∀ w ∈ ws, w = nan := h.resolve_left (fun h' => hm (h'.mem hy))
  have h2 : 2 ≤ xs.length := h2.resolve_left (fun h' => hm (h'.mem hy))
  obtain ⟨x, xs', rfl⟩ := List.exists_cons_of_ne_nil hne
  have hne' : xs' ≠ [] := by rintro rfl; simp at h2
  obtain ⟨x', xs'', rfl⟩ := List.exists_cons_of_ne_nil hne'
  have hidx : ∀ i < ws.length, idx ws i = nan := fun i hi => hw _ (idx_mem hi)
  have h0 := hidx 0 (by rw [hl]; simp)
  have hx : ¬ x.isnan := fun hx => hm (by rw [isnan_iff.1 hx]; simp)
  have hx' : ¬ x'.isnan := fun hx => hm (by rw [isnan_iff.1 hx]; simp)
  unfold forEnumM
  rw [List.zipIdx_cons, List.foldlM_cons]
  dsimp only
  rw [h0, if_neg hx]
  simp only [Option.bind_eq_bind, Option.bind_some]
  rw [List.zipIdx_cons, List.foldlM_cons]
  dsimp only
  rw [if_neg hx']
  simp only [Option.bind_eq_bind, Option.bind_some, add_nan]
  generalize hr : List.foldlM (m := Option) _ _ _ = r
  cases r with
  | none => rfl
  | some r =>
    have : r.integral = nan := by
      refine foldlM_inv _ (fun s : Gufunc.IntSt => s.integral = nan) _ ?_ _ ?_ r hr
      · intro s a s' hs hf
        split_ifs at hf <;> · injection hf with hf; rw [← hf]; dsimp only; rw [hs]; simp
      · split_ifs <;> simp
    dsimp only
    rw [this, nan_add, ite_self]

end GufuncW

namespace ApproxW

theorem e1_nan : e1 y xs ws = nan := by
  obtain ⟨i, hi, _, e⟩ := h.term hne hl
  unfold e1
  exact zip2_sum_nan hi (by omega) e

theorem nrg_nan : nrg y xs ws = nan := by
  unfold nrg; rw [e1_nan hne hl h, nan_sub]

theorem fair_nan : fair y xs ws = nan := by
  unfold fair; dsimp only; rw [e1_nan hne hl h, nan_sub]

theorem pwm_nan : pwm y xs ws = nan := by
  unfold pwm; dsimp only; rw [e1_nan hne hl h, nan_add, nan_sub]

theorem akr_nan : akr y xs ws = nan := by
  unfold akr; dsimp only; rw [e1_nan hne hl h, nan_sub]

theorem akrCircperm_nan : akrCircperm y xs ws = nan := by
  unfold akrCircperm; dsimp only; rw [e1_nan hne hl h, nan_sub]

theorem qd_nan : qd y xs ws = nan := by
  have key : ∃ i < xs.length, idx xs i - y = nan ∨ idx ws i = nan := by
    rcases h with h | h
    · rcases h with h | h
      · exact ⟨0, List.length_pos_iff.2 hne, .inl (by rw [h, sub_nan])⟩
      · obtain ⟨i, hi, e⟩ := exists_idx_nan h
        exact ⟨i, hi, .inl (by rw [e, nan_sub])⟩
    · have := List.length_pos_iff.2 hne
      exact ⟨0, this, .inr (h _ (idx_mem (by omega)))⟩
  obtain ⟨i, hi, key⟩ := key
  have hi' : i < ws.length := by omega
  rw [idx_lt hi, idx_lt hi'] at key
  unfold qd
  dsimp only
  rw [zip2_sum_nan (i := i) (by simp [zip2, hi, hi', cumsum]) (by simp [hi])]
  · simp
  · rw [idx_lt (by simp [zip2, hi, hi', cumsum]), idx_lt (by simp [hi])]
    simp only [zip2, List.getElem_zipWith, List.getElem_map]
    rcases key with key | key
    · rw [key, mul_nan]
    · rw [key, nan_mul, nan_mul]

theorem int_nan : int y xs ws = nan := by
  unfold int
  dsimp only
  by_cases hn : NanIn y xs
  · apply expDif_nan hne hn
    simp [zip2, (sort_perm _).length_eq, cumsum, hl]
  have hw : ∀ w ∈ ws, w = nan := h.resolve_left hn
  have h0 := List.length_pos_iff.2 hne
  have hall : ∀ v ∈ Py.sort (cumsum ws ++ [(zip2 (fun x v => ind (x ≤ y) * v) xs ws).sum]),
      v = nan := by
    intro v hv
    rw [(sort_perm _).mem_iff] at hv
    rcases List.mem_append.1 hv with hv | hv
    · simp only [cumsum, List.mem_map, List.mem_range] at hv
      obtain ⟨i, hi, rfl⟩ := hv
      apply sum_eq_nan_of_mem
      obtain ⟨w, ws', rfl⟩ := List.exists_cons_of_ne_nil (l := ws) (by rintro rfl; simp at hi)
      rw [← hw w (by simp)]
      simp
    · rw [List.mem_singleton.1 hv]
      refine zip2_sum_nan (i := 0) h0 (by omega) ?_
      rw [hw _ (idx_mem (by omega)), mul_nan]
  have hlC : (Py.sort (cumsum ws ++
      [(zip2 (fun x v => ind (x ≤ y) * v) xs ws).sum])).length = xs.length + 1 := by
    rw [(sort_perm _).length_eq]; simp [cumsum, hl]
  apply zip2_sum_nan (i := 0)
  · simp [zip2, (sort_perm _).length_eq, h0]
  · simp [zip2, (sort_perm _).length_eq, h0, cumsum, hl]
  · generalize Py.sort (cumsum ws ++ [(zip2 (fun x v => ind (x ≤ y) * v) xs ws).sum]) = C
      at hall hlC ⊢
    rw [idx_lt (l := zip2 (fun c o => (c - o) ^ 2) _ _) (by
      simp [zip2, (sort_perm _).length_eq, h0, hlC])]
    simp only [zip2, List.getElem_zipWith, List.getElem_take, List.getElem_map]
    rw [hall _ (List.getElem_mem _)]
    simp

end ApproxW
end

theorem kernelW_nan {path : Path} {est : String} {k : XF → List XF → List XF → XF}
    (hk : kernelW path est = .ok k) {y : XF} {xs ws : List XF} (hne : xs ≠ [])
    (hl : ws.length = xs.length) (h : NanInW y xs ws)
    (h2 : path = .numba → est = "int" → NanIn y xs ∨ 2 ≤ xs.length) :
    k y xs ws = nan := by
  cases path
  · simp only [kernelW, estimatorGufuncsW] at hk
    split_ifs at hk <;> injection hk with hk <;> subst hk
    · exact GufuncW.akrCircperm_nan hne hl h
    · exact GufuncW.akr_nan hne hl h
    · exact GufuncW.fair_nan' hne hl h
    · exact GufuncW.int_nan hne hl h (h2 rfl (by assumption))
    · exact GufuncW.nrg_nan hne hl h
    · exact GufuncW.pwm_nan hne hl h
    · exact GufuncW.qd_nan hne hl h
  · simp only [kernelW, ensembleKernelW] at hk
    split_ifs at hk <;> injection hk with hk <;> subst hk
    · exact ApproxW.nrg_nan hne hl h
    · exact ApproxW.pwm_nan hne hl h
    · exact ApproxW.fair_nan hne hl h
    · exact ApproxW.qd_nan hne hl h
    · exact ApproxW.akr_nan hne hl h
    · exact ApproxW.akrCircperm_nan hne hl h
    · exact ApproxW.int_nan hne hl h

end Verif
