import Verif.Model.DiscreteArr
import Verif.Lemmas.Bcast

/-!
# C90, C91: the binomial and hypergeometric CRPS on arrays
-/

noncomputable section

open scoped Classical

namespace Verif

open XF Py Arr

/-! ### C90: binomial -/

theorem binomial_term (y : XF) (n : ℕ) (p : XF) :
    Closed.binomial y n p = 2 * ((List.range (n + 1)).map (Closed.binomialTerm y n p)).sum := rfl

theorem allIdx_one (n : ℕ) : allIdx [n] = (List.range n).map fun j => [j] := by
  simp [allIdx, List.flatMap]
  induction List.range n with
  | nil => rfl
  | cons a t ih => simp [ih]

namespace Spec

/-- a scalar, an array of length one or an array of length `K` -/
def UpTo (K : ℕ) (s : List ℕ) : Prop := s = [] ∨ s = [1] ∨ s = [K]

end Spec

open Spec

theorem binomialInner_scalar (obs prob : Arr XF) (n : Arr ℕ) (hn : n.shape = [] ∨ n.shape = [1])
    (ho : obs.shape = [] ∨ obs.shape = [1]) (hp : prob.shape = [] ∨ prob.shape = [1]) :
    Closed.binomialInner obs n prob = .ok (Closed.binomial obs.item n.item prob.item) := by
  unfold Closed.binomialInner
  have h1 : n.size = 1 := by rcases hn with h | h <;> simp [Arr.size, h]
  have hb : bcast [[n.item + 1], n.shape, prob.shape, obs.shape] = some [n.item + 1] := by
    rcases hn with h | h <;> rcases ho with h' | h' <;> rcases hp with h'' | h'' <;> rw [h, h', h''] <;>
      simp [bcast, bshape, bshapeR]
    all_goals by_cases h0 : n.item = 0 <;> simp [h0, bshapeR]
  simp only [h1, ne_eq, not_true_eq_false, if_false, hb]
  rw [allIdx_one, binomial_term, List.map_map]
  congr 3
  apply List.map_congr_left
  intro j hj
  have hj' := List.mem_range.1 hj
  have r : ∀ a : Arr XF, a.shape = [] ∨ a.shape = [1] → a.bget [j] = a.item := by
    intro a h
    rcases h with h | h <;> simp [Arr.bget, Arr.item, h, Arr.ndim]
  have rx : (⟨[n.item + 1], fun i => i.headD 0⟩ : Arr ℕ).bget [j] = j := by
    simp [Arr.bget, Arr.ndim]
    omega
  simp only [Function.comp, r _ ho, r _ hp, rx]

/-- What is proved of C90, scalar `n`: observations and probabilities that are scalars or one-dimensional
arrays of length one or `K` (at least one of length `K ≥ 2`) give an array of length `K` with the score of
every pair.  Missing: arrays of rank two and more (`C90_false`, `C90_matrix_raises`) and empty arrays. -/
theorem C90_scalar_n_partial (obs prob : Arr XF) (n : ℕ) {K : ℕ} (hK : 2 ≤ K) (ho : UpTo K obs.shape)
    (hp : UpTo K prob.shape) (h : obs.shape = [K] ∨ prob.shape = [K]) :
    ∃ out, Closed.binomialArr obs (Arr.scalar n) prob = .ok out ∧ out.shape = [K] ∧
      ∀ i < K, out.get [i] = Closed.binomial (obs.bget [i]) n (prob.bget [i]) := by
  have hn : (Arr.scalar n).size = 1 := rfl
  have hni : (Arr.scalar n).item = n := rfl
  have K1 : K ≠ 1 := by omega
  have hs : ¬ (obs.size = 1 ∧ prob.size = 1) := by
    rintro ⟨h1, h2⟩
    rcases h with h | h
    · simp [Arr.size, h] at h1; omega
    · simp [Arr.size, h] at h2; omega
  have ax : ∀ a : Arr XF, UpTo K a.shape →
      ((Closed.binomialAxis a).shape = [1] ∨ (Closed.binomialAxis a).shape = [1, 1] ∨ (Closed.binomialAxis a).shape = [K, 1])
      ∧ (a.shape = [K] → (Closed.binomialAxis a).shape = [K, 1])
      ∧ ∀ i j, i < K → (Closed.binomialAxis a).bget [i, j] = a.bget [i] := by
    intro a ha
    rcases ha with ha | ha | ha
    · have : Closed.binomialAxis a = a.newFirst := if_neg (by simp [Arr.size, ha])
      rw [this]
      refine ⟨Or.inl (by simp [Arr.newFirst, ha]), fun h => by rw [ha] at h; simp at h, fun i j _ => ?_⟩
      simp [Arr.bget, Arr.newFirst, ha, Arr.ndim]
    · have : Closed.binomialAxis a = a.newFirst := if_neg (by simp [Arr.size, ha])
      rw [this]
      refine ⟨Or.inr (Or.inl (by simp [Arr.newFirst, ha])), fun h => by rw [ha] at h; simp at h; omega, fun i j _ => ?_⟩
      simp [Arr.bget, Arr.newFirst, ha, Arr.ndim]
    · have : Closed.binomialAxis a = a.newSecond := if_pos (by simp [Arr.size, ha]; omega)
      rw [this]
      refine ⟨Or.inr (Or.inr (by simp [Arr.newSecond, ha])), fun _ => by simp [Arr.newSecond, ha], fun i j _ => ?_⟩
      simp [Arr.bget, Arr.newSecond, ha, Arr.ndim, K1]
  obtain ⟨so, so', go⟩ := ax obs ho
  obtain ⟨sp, sp', gp⟩ := ax prob hp
  have hb : bcast [[1, n + 1], [], (Closed.binomialAxis prob).shape, (Closed.binomialAxis obs).shape] = some [K, n + 1] := by
    have n1 : (n + 1 = 1) ↔ n = 0 := by omega
    rcases h with h | h
    · rw [so' h]
      rcases sp with e | e | e <;> rw [e] <;> simp [bcast, bshape, bshapeR, K1, Ne.symm K1] <;>
        by_cases h0 : n = 0 <;> simp [h0, bshapeR, Ne.symm K1]
    · rw [sp' h]
      rcases so with e | e | e <;> rw [e] <;> simp [bcast, bshape, bshapeR, K1, Ne.symm K1] <;>
        by_cases h0 : n = 0 <;> simp [h0, bshapeR, Ne.symm K1]
  unfold Closed.binomialArr
  rw [if_pos hn, if_neg hs]
  simp only [hni]
  rw [show (Arr.scalar n).shape = [] from rfl, hb]
  refine ⟨_, rfl, rfl, fun i hi => ?_⟩
  rw [binomial_term]
  show 2 * ((List.range (n + 1)).map _).sum = _
  congr 2
  apply List.map_congr_left
  intro j hj
  have hj' := List.mem_range.1 hj
  have rx : (⟨[1, n + 1], fun i => i.getD 1 0⟩ : Arr ℕ).bget [i, j] = j := by
    simp [Arr.bget, Arr.ndim]
    omega
  show Closed.binomialTerm _ _ _ _ = _
  rw [show [i] ++ [j] = [i, j] from rfl, go i j hi, gp i j hi, rx]

example : UpTo 3 [3] ∧ UpTo 3 [] ∧ UpTo 3 [1] := ⟨Or.inr (Or.inr rfl), Or.inl rfl, Or.inr (Or.inl rfl)⟩

/-- C90: with observations, trials and probabilities of size one the result is a scalar. -/
theorem C90_single (obs prob : Arr XF) (n : Arr ℕ) (hn : n.shape = [] ∨ n.shape = [1])
    (ho : obs.shape = [] ∨ obs.shape = [1]) (hp : prob.shape = [] ∨ prob.shape = [1]) :
    Closed.binomialArr obs n prob = .ok (Arr.scalar (Closed.binomial obs.item n.item prob.item)) := by
  have one : ∀ {α : Type} (a : Arr α), a.shape = [] ∨ a.shape = [1] → a.size = 1 := by
    intro α a h
    rcases h with h | h <;> simp [Arr.size, h]
  unfold Closed.binomialArr
  rw [if_pos (one n hn), if_pos ⟨one obs ho, one prob hp⟩, binomialInner_scalar _ _ _ hn ho hp]
  rfl

example : (Arr.scalar (fin 2) : Arr XF).shape = [] ∧ (⟨[1], fun _ => 5⟩ : Arr ℕ).shape = [1] :=
  ⟨rfl, rfl⟩

theorem mapM_ok {α β : Type} (l : List α) (f : α → Except Err β) (g : α → β) (h : ∀ a ∈ l, f a = .ok (g a)) :
    l.mapM f = .ok (l.map g) := by
  induction l with
  | nil => rfl
  | cons a t ih =>
    rw [List.mapM_cons, h a List.mem_cons_self, ih fun b hb => h b (List.mem_cons_of_mem _ hb)]
    rfl

/-- What is proved of C90, one-dimensional `n` of length `K ≥ 2`: one score per number of trials, with scalar
or one-dimensional observations and probabilities.  Missing: as for `C90_scalar_n_partial`. -/
theorem C90_array_n_partial (obs prob : Arr XF) (n : Arr ℕ) {K : ℕ} (hK : 2 ≤ K) (hn : n.shape = [K])
    (ho : UpTo K obs.shape) (hp : UpTo K prob.shape) :
    ∃ out, Closed.binomialArr obs n prob = .ok out ∧ out.shape = [K] ∧
      ∀ i < K, out.get [i] = Closed.binomial (obs.bget [i]) (n.get [i]) (prob.bget [i]) := by
  have hs : n.size ≠ 1 := by simp [Arr.size, hn]; omega
  have K1 : K ≠ 1 := by omega
  have lk : ∀ a : Arr XF, UpTo K a.shape → ∃ b, Closed.likeN a n = .ok b ∧ b.shape = [K] ∧
      ∀ i < K, b.get [i] = a.bget [i] := by
    intro a ha
    unfold Closed.likeN
    rcases ha with ha | ha | ha
    · rw [if_pos (by simp [Arr.size, ha]), ha, hn, show bshape [] [K] = some [K] from rfl]
      exact ⟨_, rfl, rfl, fun i _ => rfl⟩
    · rw [if_pos (by simp [Arr.size, ha]), ha, hn, show bshape [1] [K] = some [K] by simp [bshape, bshapeR, Ne.symm K1]]
      exact ⟨_, rfl, rfl, fun i _ => rfl⟩
    · rw [if_neg (by simp [Arr.size, ha]; omega)]
      exact ⟨a, rfl, ha, fun i _ => by simp [Arr.bget, ha, Arr.ndim, K1]⟩
  obtain ⟨o, eo, so, go⟩ := lk obs ho
  obtain ⟨p, ep, sp, gp⟩ := lk prob hp
  unfold Closed.binomialArr
  rw [if_neg hs, eo, ep]
  dsimp only
  unfold Closed.binomialLoop
  rw [if_neg (by simp [so, sp, hn])]
  simp only [so, sp, hn, List.headD_cons, min_self]
  rw [mapM_ok _ _ (fun j => Closed.binomial (o.get [j]) (n.get [j]) (p.get [j]))]
  · dsimp only
    rw [if_neg (by simp; omega)]
    refine ⟨_, rfl, rfl, fun i hi => ?_⟩
    simp [hi, go i hi, gp i hi]
  · intro j _
    have := binomialInner_scalar (o.sub j) (p.sub j) (n.sub j) (Or.inl (by simp [Arr.sub, hn]))
      (Or.inl (by simp [Arr.sub, so])) (Or.inl (by simp [Arr.sub, sp]))
    rw [this]
    simp [Arr.item, Arr.sub, so, sp, hn]

example : ∃ out, Closed.binomialArr (Arr.scalar (fin 2)) ⟨[3], fun i => 5 + i.headD 0⟩
      (Arr.ofList [fin (1 / 2), fin (1 / 3), fin (1 / 4)]) = .ok out ∧ out.shape = [3] ∧
    ∀ i < 3, out.get [i] = Closed.binomial ((Arr.scalar (fin 2)).bget [i])
      ((⟨[3], fun i => 5 + i.headD 0⟩ : Arr ℕ).get [i])
      ((Arr.ofList [fin (1 / 2), fin (1 / 3), fin (1 / 4)]).bget [i]) :=
  C90_array_n_partial _ _ _ (K := 3) (by norm_num) rfl (by simp [UpTo, Arr.scalar]) (by simp [UpTo, Arr.ofList])

/-- C90: one-dimensional arguments of different lengths that cannot be broadcast raise `ValueError`. -/
theorem C90_lengths (obs prob : Arr XF) (n : Arr ℕ) {A K C : ℕ} (hK : 2 ≤ K) (hn : n.shape = [K])
    (ho : obs.shape = [A]) (hp : prob.shape = [C]) (hA : A ≠ 1) (hC : C ≠ 1) (h : A ≠ K ∨ C ≠ K) :
    Closed.binomialArr obs n prob = .error .valueError := by
  have hs : n.size ≠ 1 := by simp [Arr.size, hn]; omega
  unfold Closed.binomialArr Closed.likeN
  rw [if_neg hs, if_neg (by simpa [Arr.size, ho] using hA), if_neg (by simpa [Arr.size, hp] using hC)]
  dsimp only
  unfold Closed.binomialLoop
  rw [if_neg (by simp [ho, hp, hn])]
  simp only [ho, hp, hn, List.headD_cons]
  rw [mapM_ok _ _ (fun j => Closed.binomial (obs.get [j]) (n.get [j]) (prob.get [j]))]
  · dsimp only
    rw [if_pos (by omega)]
  · intro j _
    have := binomialInner_scalar (obs.sub j) (prob.sub j) (n.sub j) (Or.inl (by simp [Arr.sub, hn]))
      (Or.inl (by simp [Arr.sub, ho])) (Or.inl (by simp [Arr.sub, hp]))
    rw [this]
    simp [Arr.item, Arr.sub, ho, hp, hn]

/-- three observations, two numbers of trials, two probabilities -/
example : (⟨[2], fun _ => 5⟩ : Arr ℕ).shape = [2] ∧ (Arr.ofList [fin 1, fin 2, fin 3]).shape = [3] ∧
    (Arr.ofList [fin (1 / 2), fin (1 / 3)]).shape = [2] ∧ 3 ≠ 1 ∧ 2 ≠ 1 ∧ (3 ≠ 2 ∨ 2 ≠ 2) := by
  simp [Arr.ofList]

/-- C90 fails for a matrix of observations: unless its second length happens to fit the `n + 1` terms of the
sum the function raises. -/
theorem C90_matrix_raises (obs : Arr XF) (p : XF) (n : ℕ) {a b : ℕ} (ho : obs.shape = [a, b]) (ha : 1 ≤ a)
    (hb : 2 ≤ b) (hn : n ≠ 0) (h : b ≠ n + 1) :
    Closed.binomialArr obs (Arr.scalar n) (Arr.scalar p) = .error .valueError := by
  have hsz : 1 < obs.size := by
    simp [Arr.size, ho]
    nlinarith
  unfold Closed.binomialArr
  rw [if_pos (by rfl), if_neg (by rintro ⟨h1, -⟩; omega)]
  have e1 : Closed.binomialAxis obs = obs.newSecond := if_pos hsz
  have e2 : (Closed.binomialAxis (Arr.scalar p)).shape = [1] := by
    simp [Closed.binomialAxis, Arr.size, Arr.scalar, Arr.newFirst]
  have b1 : b ≠ 1 := by omega
  simp only [e1, e2, Arr.newSecond, ho, show (Arr.scalar n).shape = [] from rfl, show (Arr.scalar n).item = n from rfl]
  simp [bcast, bshape, bshapeR, Ne.symm b1, hn, b1, Ne.symm h]

example : ∃ obs : Arr XF, obs.shape = [2, 3] ∧ (3:ℕ) ≠ 10 + 1 := ⟨⟨[2, 3], fun _ => 0⟩, rfl, by norm_num⟩

/-- C90 fails for a matrix of observations: if its second length is `n + 1`, the sum runs over the
observations and the terms at the same time, and the result has shape `(a, 1)` instead of `(a, b)`. -/
theorem C90_false (obs : Arr XF) (p : XF) (n : ℕ) {a : ℕ} (ho : obs.shape = [a, n + 1]) (ha : 1 ≤ a) (hn : 1 ≤ n) :
    ∃ out, Closed.binomialArr obs (Arr.scalar n) (Arr.scalar p) = .ok out ∧ out.shape = [a, 1] := by
  have hsz : 1 < obs.size := by
    simp [Arr.size, ho]
    nlinarith
  unfold Closed.binomialArr
  rw [if_pos (by rfl), if_neg (by rintro ⟨h1, -⟩; omega)]
  have e1 : Closed.binomialAxis obs = obs.newSecond := if_pos hsz
  have e2 : (Closed.binomialAxis (Arr.scalar p)).shape = [1] := by
    simp [Closed.binomialAxis, Arr.size, Arr.scalar, Arr.newFirst]
  have n0 : n ≠ 0 := by omega
  have hb : bcast [[1, n + 1], [], [1], [a, 1, n + 1]] = some [a, 1, n + 1] := by
    simp [bcast, bshape, bshapeR, n0]
  simp only [e1, e2, show (Arr.scalar n).shape = [] from rfl, show (Arr.scalar n).item = n from rfl]
  rw [show obs.newSecond.shape = [a, 1, n + 1] by simp [Arr.newSecond, ho], hb]
  exact ⟨_, rfl, rfl⟩

example : ∃ obs : Arr XF, obs.shape = [2, 1 + 1] := ⟨⟨[2, 2], fun _ => 0⟩, rfl⟩

/-! ### C91: hypergeometric -/

theorem hypergeometric_term (y : XF) (m n k : ℕ) :
    Closed.hypergeometric y m n k = 2 * ((List.range (n + 1)).map (Closed.hypergeometricTerm y m n k)).sum := rfl

theorem bshapeR_absorb (s t u : List ℕ) (h : bshapeR s t = some u) : bshapeR s u = some u := by
  induction s generalizing t u with
  | nil => rfl
  | cons a s ih =>
    cases t with
    | nil => simp [bshapeR] at h; subst h; simp [bshapeR, bshapeR_self]
    | cons b t =>
      unfold bshapeR at h
      split_ifs at h with h1 h2 h3
      · obtain ⟨v, hv, rfl⟩ := Option.map_eq_some_iff.1 h
        simp [bshapeR, ih _ _ hv]
      · obtain ⟨v, hv, rfl⟩ := Option.map_eq_some_iff.1 h
        simp [bshapeR, ih _ _ hv, h2]
      · obtain ⟨v, hv, rfl⟩ := Option.map_eq_some_iff.1 h
        simp [bshapeR, ih _ _ hv]

theorem bshape_absorb {s t u : List ℕ} (h : bshape s t = some u) : bshape s u = some u := by
  unfold bshape at h ⊢
  obtain ⟨v, hv, rfl⟩ := Option.map_eq_some_iff.1 h
  rw [List.reverse_reverse, bshapeR_absorb _ _ _ hv]
  rfl

theorem bshapeR_length (s t u : List ℕ) (h : bshapeR s t = some u) : u.length = max s.length t.length := by
  induction s generalizing t u with
  | nil => simp [bshapeR] at h; simp [h]
  | cons a s ih =>
    cases t with
    | nil => simp [bshapeR] at h; simp [← h]
    | cons b t =>
      unfold bshapeR at h
      split_ifs at h <;> obtain ⟨v, hv, rfl⟩ := Option.map_eq_some_iff.1 h <;> simp [ih _ _ hv]

theorem bshape_length {s t u : List ℕ} (h : bshape s t = some u) : u.length = max s.length t.length := by
  unfold bshape at h
  obtain ⟨v, hv, rfl⟩ := Option.map_eq_some_iff.1 h
  simpa using bshapeR_length _ _ _ hv

theorem bshapeR_ones (c : ℕ) (u : List ℕ) : bshapeR (List.replicate u.length 1 ++ [c]) u = some (u ++ [c]) := by
  induction u with
  | nil => rfl
  | cons a u ih =>
    rw [List.length_cons, List.replicate_succ]
    simp only [List.cons_append, bshapeR, ih, if_true]
    split_ifs with h
    · simp [h]
    · rfl

theorem bshape_ones (c : ℕ) (u : List ℕ) : bshape (c :: List.replicate u.length 1) u = some (c :: u) := by
  unfold bshape
  rw [List.reverse_cons, List.reverse_replicate, ← List.length_reverse, bshapeR_ones]
  simp

theorem bget_cons {α : Type} (a : Arr α) (j : ℕ) {i : List ℕ} (h : a.ndim ≤ i.length) : a.bget (j :: i) = a.bget i := by
  unfold Arr.bget
  rw [List.length_cons, Nat.succ_sub h, List.drop_succ_cons]

/-- C91: with a scalar number `n` of failure states, arrays of any shapes that broadcast together give the
broadcast shape and the score of every element. -/
theorem C91_scalar_n (obs : Arr XF) (m k : Arr ℕ) (n : ℕ) {T : List ℕ}
    (hT : bcast [obs.shape, m.shape, k.shape] = some T) :
    ∃ out, Closed.hypergeometricArr obs m (Arr.scalar n) k = .ok out ∧ out.shape = T ∧
      ∀ i, Valid T i → out.get i = Closed.hypergeometric (obs.bget i) (m.bget i) n (k.bget i) := by
  have hT2 : bcast [obs.shape, m.shape, m.shape, k.shape] = some T ∧
      T.length = max (max obs.ndim m.shape.length) (max m.ndim k.ndim) := by
    rw [bcast_cons] at hT ⊢
    obtain ⟨u, hu, h1⟩ := Option.bind_eq_some_iff.1 hT
    have hu' := hu
    rw [bcast_cons, bcast_one] at hu'
    have hu2 : bshape m.shape k.shape = some u := hu'
    have e : bcast [m.shape, m.shape, k.shape] = some u := by
      rw [bcast_cons, hu]
      exact bshape_absorb hu2
    rw [e]
    refine ⟨h1, ?_⟩
    rw [bshape_length h1, bshape_length hu2]
    simp only [Arr.ndim]
    omega
  obtain ⟨hT2, hl⟩ := hT2
  unfold Closed.hypergeometricArr
  rw [show (Arr.scalar n).shape = [] from rfl, bshape_nil_right]
  dsimp only
  rw [if_pos (by rfl), show (Arr.scalar n).item = n from rfl, ← hl, bcast_cons, hT2]
  dsimp only [Option.bind_some]
  rw [bshape_ones]
  refine ⟨_, rfl, rfl, fun i hi => ?_⟩
  have il : i.length = T.length := hi.length
  rw [hypergeometric_term]
  show 2 * ((List.range (n + 1)).map _).sum = _
  congr 2
  apply List.map_congr_left
  intro j hj
  have hj' := List.mem_range.1 hj
  have rx : (⟨(n + 1) :: List.replicate T.length 1, fun i => i.headD 0⟩ : Arr ℕ).bget (j :: i) = j := by
    simp [Arr.bget, Arr.ndim, il]
    omega
  rw [bget_cons obs j (by rw [il, hl]; simp [Arr.ndim]), bget_cons m j (by rw [il, hl]; simp [Arr.ndim]),
    bget_cons k j (by rw [il, hl]; simp [Arr.ndim]), rx]

example : bcast [[2, 3], [3], []] = some [2, 3] := by simp [bcast, bshape, bshapeR]

theorem ravel_lt {s i : List ℕ} (h : Valid s i) : ravel s i < s.prod := by
  induction h with
  | nil => simp [ravel]
  | cons ha _ ih =>
    rename_i a b l1 l2 _
    simp only [ravel, List.prod_cons]
    calc _ < a * l2.prod + l2.prod := by omega
      _ = (a + 1) * l2.prod := by ring
      _ ≤ _ := Nat.mul_le_mul_right _ ha

theorem unravel_ravel {s i : List ℕ} (h : Valid s i) : unravel s (ravel s i) = i := by
  induction h with
  | nil => rfl
  | cons ha ht ih =>
    rename_i a b l1 l2
    have := ravel_lt ht
    simp only [ravel, unravel]
    rw [Nat.mul_comm a, Nat.mul_add_div (by omega), Nat.div_eq_of_lt this, Nat.mul_add_mod, Nat.mod_eq_of_lt this, ih]
    simp

/-- What is proved of C91 for an array of numbers of failure states: if its shape is the broadcast shape of all
arguments, the result has this shape and the score of every element.  Missing: arrays `n` that have to be
broadcast themselves (`C91_broadcast_raises`). -/
theorem C91_array_n_partial (obs : Arr XF) (m n k : Arr ℕ) (hn : n.size ≠ 1) (hM : bshape m.shape n.shape = some n.shape)
    (hT : bcast [obs.shape, n.shape, m.shape, k.shape] = some n.shape) :
    ∃ out, Closed.hypergeometricArr obs m n k = .ok out ∧ out.shape = n.shape ∧
      ∀ i, Valid n.shape i → out.get i = Closed.hypergeometric (obs.bget i) (m.bget i) (n.get i) (k.bget i) := by
  unfold Closed.hypergeometricArr
  rw [hM]
  dsimp only
  rw [if_neg hn, hT]
  dsimp only
  rw [if_neg (by simp [Arr.size]), if_neg (by simp [Arr.size])]
  refine ⟨_, rfl, rfl, fun i hi => ?_⟩
  dsimp only
  rw [unravel_ravel hi, hypergeometric_term]

example : bshape [3] [2, 3] = some [2, 3] ∧ bcast [[2, 1], [2, 3], [3], []] = some [2, 3] := by
  simp [bcast, bshape, bshapeR]

/-- C91 fails if the array `n` has to be broadcast: one score per entry of `n` is computed, and the reshape to
the larger broadcast shape raises. -/
theorem C91_broadcast_raises (obs : Arr XF) (m n k : Arr ℕ) {sM T : List ℕ} (hn : n.size ≠ 1)
    (hM : bshape m.shape n.shape = some sM) (hT : bcast [obs.shape, sM, m.shape, k.shape] = some T)
    (h : n.size < T.prod) : Closed.hypergeometricArr obs m n k = .error .valueError := by
  unfold Closed.hypergeometricArr
  rw [hM]
  dsimp only
  rw [if_neg hn, hT]
  dsimp only
  rw [if_neg (by omega), if_pos (by omega)]

example : Closed.hypergeometricArr (Arr.ofRows 2 [[fin 1, fin 2], [fin 3, fin 4]])
    (Arr.scalar 5) ⟨[2], fun i => 6 + i.headD 0⟩ (Arr.scalar 4) = .error .valueError :=
  C91_broadcast_raises _ _ _ _ (sM := [2]) (T := [2, 2]) (by simp [Arr.size])
    (by simp [Arr.scalar, bshape_nil_left])
    (by simp [Arr.scalar, Arr.ofRows, bcast, Arr.bshape, Arr.bshapeR]) (by simp [Arr.size])

/-- C91 fails: observations of shape `(2, 2)` with `n` of shape `(2,)`. -/
theorem C91_false : ∃ (obs : Arr XF) (m n k : Arr ℕ) (T : List ℕ),
    bcast [obs.shape, m.shape, n.shape, k.shape] = some T ∧ Closed.hypergeometricArr obs m n k = .error .valueError := by
  refine ⟨⟨[2, 2], fun _ => 0⟩, Arr.scalar 3, ⟨[2], fun _ => 4⟩, Arr.scalar 2, [2, 2], ?_, ?_⟩
  · simp [bcast, bshape, bshapeR, Arr.scalar]
  · refine C91_broadcast_raises (sM := [2]) (T := [2, 2]) _ _ _ _ ?_ ?_ ?_ ?_ <;>
      simp [bcast, bshape, bshapeR, Arr.scalar, Arr.size]

end Verif
