import Verif.Lemmas.GradSort
import Verif.Lemmas.CrpsApi

/-!
# C132: gradients of the estimators of the ensemble CRPS

Every estimator without a sort, and the sorted ensemble with the quantile decomposition (the default) and the
probability weighted moments, have the derivative as gradient where nothing is tied.
-/

noncomputable section

open scoped Classical Topology

namespace Verif

open XF Py Mv Node Filter Grad
open Spec (IsGradient HasGradient)
open Api (argsort gather)

/-- `crps_ensemble`: the gradient with respect to the observation, if no member equals it.  The estimators are the
default `qd` and `pwm` on the sorted ensemble, `fair`, `akr` and `akr_circperm`. -/
theorem C132_crps_estimators_obs {y : ℝ} {xs : List ℝ} (hM : 2 ≤ xs.length) (hy : y ∉ xs) :
    IsGradient (fun t => Approx.qd t (gather (xs.map fin) (argsort (xs.map fin)))) y
      (Grad.crpsQd (leaf (fin y)) (sortN (consts (xs.map fin)))).grad ∧
    IsGradient (fun t => Approx.pwm t (gather (xs.map fin) (argsort (xs.map fin)))) y
      (Grad.crpsPwm (leaf (fin y)) (sortN (consts (xs.map fin)))).grad ∧
    IsGradient (fun t => Approx.fair t (xs.map fin)) y
      (Grad.crpsFair (leaf (fin y)) (consts (xs.map fin))).grad ∧
    IsGradient (fun t => Approx.akr t (xs.map fin)) y
      (Grad.crpsAkr (leaf (fin y)) (consts (xs.map fin))).grad ∧
    IsGradient (fun t => Approx.akrCircperm t (xs.map fin)) y
      (Grad.crpsAkrCircperm (leaf (fin y)) (consts (xs.map fin))).grad := by
  have hX : ∀ i < xs.length, Tr (θ := y) (fun _ => const (fin (xs.getD i 0))) (fun _ => xs.getD i 0) :=
    fun i _ => Tr.const _
  have hS : ∀ p < xs.length, Tr (θ := y) (fun _ => const (fin (xs.getD ((argsort (xs.map fin)).getD p 0) 0)))
    (fun _ => xs.getD ((argsort (xs.map fin)).getD p 0) 0) := fun i _ => Tr.const _
  have h1 : ∀ i < xs.length, y ≠ xs.getD i 0 ∨ ∀ t : ℝ, t = xs.getD i 0 := fun i hi => Or.inl (getD_ne hy hi)
  have h1s : ∀ p < xs.length, y ≠ xs.getD ((argsort (xs.map fin)).getD p 0) 0 ∨
      ∀ t : ℝ, t = xs.getD ((argsort (xs.map fin)).getD p 0) 0 := fun p hp => Or.inl (getD_ne hy (sorted_lt xs hp))
  have h2 : ∀ i < xs.length, ∀ j < xs.length, xs.getD i 0 ≠ xs.getD j 0 ∨ ∀ _ : ℝ, xs.getD i 0 = xs.getD j 0 := by
    intro i _ j _
    by_cases h : xs.getD i 0 = xs.getD j 0
    · exact Or.inr fun _ => h
    · exact Or.inl h
  obtain ⟨_, a1⟩ := Tr.crpsQd (θ := y) (y := fun t => leaf (fin t)) Tr.leaf hS (by omega) h1s
  obtain ⟨_, a2⟩ := Tr.crpsPwm (θ := y) (y := fun t => leaf (fin t)) Tr.leaf hS hM h1s
  obtain ⟨_, a3⟩ := Tr.crpsFair (θ := y) (y := fun t => leaf (fin t)) Tr.leaf hX hM h1 h2
  obtain ⟨_, a4⟩ := Tr.crpsAkr (θ := y) (y := fun t => leaf (fin t)) Tr.leaf hX (by omega) h1 h2
  obtain ⟨_, a5⟩ := Tr.crpsAkrCircperm (θ := y) (y := fun t => leaf (fin t)) Tr.leaf hX (by omega) h1 h2
  refine ⟨?_, ?_, ?_, ?_, ?_⟩
  · refine (a1.congrN (N' := fun t => Grad.crpsQd (leaf (fin t)) (sortN (consts (xs.map fin)))) fun t => by
      rw [sortN_consts]).isGradient fun t => ?_
    rw [crpsQd_val, sortN_val, consts_val]; rfl
  · refine (a2.congrN (N' := fun t => Grad.crpsPwm (leaf (fin t)) (sortN (consts (xs.map fin)))) fun t => by
      rw [sortN_consts]).isGradient fun t => ?_
    rw [crpsPwm_val, sortN_val, consts_val]; rfl
  · refine (a3.congrN (N' := fun t => Grad.crpsFair (leaf (fin t)) (consts (xs.map fin))) fun t => by
      rw [consts_eq]).isGradient fun t => ?_
    rw [crpsFair_val, consts_val]; rfl
  · refine (a4.congrN (N' := fun t => Grad.crpsAkr (leaf (fin t)) (consts (xs.map fin))) fun t => by
      rw [consts_eq]).isGradient fun t => ?_
    rw [crpsAkr_val, consts_val]; rfl
  · refine (a5.congrN (N' := fun t => Grad.crpsAkrCircperm (leaf (fin t)) (consts (xs.map fin))) fun t => by
      rw [consts_eq]).isGradient fun t => ?_
    rw [crpsAkrCircperm_val, consts_val]; rfl

example : 2 ≤ ([2, 1] : List ℝ).length ∧ (0 : ℝ) ∉ ([2, 1] : List ℝ) := ⟨by simp, by norm_num⟩

/-- ... and with respect to member `k`, if neither the observation nor another member equals it. -/
theorem C132_crps_estimators_member {y : ℝ} {xs : List ℝ} {k : ℕ} (hM : 2 ≤ xs.length) (hk : k < xs.length)
    (hy : xs[k] ≠ y) (hne : ∀ j (hj : j < xs.length), j ≠ k → xs[j] ≠ xs[k]) :
    IsGradient (fun t => Approx.qd (fin y) (gather ((xs.map fin).set k t) (argsort ((xs.map fin).set k t)))) xs[k]
      (Grad.crpsQd (const (fin y)) (sortN (leafAt k (xs.map fin)))).grad ∧
    IsGradient (fun t => Approx.pwm (fin y) (gather ((xs.map fin).set k t) (argsort ((xs.map fin).set k t)))) xs[k]
      (Grad.crpsPwm (const (fin y)) (sortN (leafAt k (xs.map fin)))).grad ∧
    IsGradient (fun t => Approx.fair (fin y) ((xs.map fin).set k t)) xs[k]
      (Grad.crpsFair (const (fin y)) (leafAt k (xs.map fin))).grad ∧
    IsGradient (fun t => Approx.akr (fin y) ((xs.map fin).set k t)) xs[k]
      (Grad.crpsAkr (const (fin y)) (leafAt k (xs.map fin))).grad ∧
    IsGradient (fun t => Approx.akrCircperm (fin y) ((xs.map fin).set k t)) xs[k]
      (Grad.crpsAkrCircperm (const (fin y)) (leafAt k (xs.map fin))).grad := by
  have hX : ∀ i < xs.length, Tr (entryN xs k i) (entry xs k i) xs[k] := fun i _ => entry_tr _ _ _ _
  have h1 : ∀ i < xs.length, y ≠ entry xs k i xs[k] ∨ ∀ t : ℝ, y = entry xs k i t := by
    intro i hi
    by_cases h : i = k
    · left; simp only [entry, h, if_true]; exact hy.symm
    · by_cases h' : y = xs.getD i 0
      · exact Or.inr fun t => by simp only [entry, if_neg h]; exact h'
      · exact Or.inl (by simp only [entry, if_neg h]; exact h')
  have h2 : ∀ i < xs.length, ∀ j < xs.length, entry xs k i xs[k] ≠ entry xs k j xs[k] ∨
      ∀ t, entry xs k i t = entry xs k j t := by
    intro i hi j hj
    by_cases h : i = k
    · by_cases h' : j = k
      · exact Or.inr fun t => by rw [h, h']
      · left
        simp only [entry, if_pos h, if_neg h', getD_lt hj]
        exact (hne j hj h').symm
    · by_cases h' : j = k
      · left
        simp only [entry, if_neg h, if_pos h', getD_lt hi]
        exact hne i hi h
      · by_cases h2 : xs.getD i 0 = xs.getD j 0
        · exact Or.inr fun t => by simp only [entry, if_neg h, if_neg h']; exact h2
        · exact Or.inl (by simp only [entry, if_neg h, if_neg h']; exact h2)
  have hS : ∀ p < xs.length, Tr (entryN xs k ((argsort (xs.map fin)).getD p 0))
    (entry xs k ((argsort (xs.map fin)).getD p 0)) xs[k] := fun i _ => entry_tr _ _ _ _
  have h1s : ∀ p < xs.length, y ≠ entry xs k ((argsort (xs.map fin)).getD p 0) xs[k] ∨
      ∀ t : ℝ, y = entry xs k ((argsort (xs.map fin)).getD p 0) t := fun p hp => h1 _ (sorted_lt xs hp)
  obtain ⟨_, a1⟩ := Tr.crpsQd (θ := xs[k]) (Tr.const y) hS (by omega) h1s
  obtain ⟨_, a2⟩ := Tr.crpsPwm (θ := xs[k]) (Tr.const y) hS hM h1s
  obtain ⟨_, a3⟩ := Tr.crpsFair (θ := xs[k]) (Tr.const y) hX hM h1 h2
  obtain ⟨_, a4⟩ := Tr.crpsAkr (θ := xs[k]) (Tr.const y) hX (by omega) h1 h2
  obtain ⟨_, a5⟩ := Tr.crpsAkrCircperm (θ := xs[k]) (Tr.const y) hX (by omega) h1 h2
  have hsort := sortN_leafAt xs hk hne
  refine ⟨?_, ?_, ?_, ?_, ?_⟩
  · have := (a1.congrEv (N' := fun t => Grad.crpsQd (const (fin y))
      (sortN (leafAt k ((xs.map fin).set k (fin t))))) (hsort.mono fun t ht => by rw [ht])).isGradient
      (score := fun t => Approx.qd (fin y) (gather ((xs.map fin).set k t) (argsort ((xs.map fin).set k t))))
      fun t => by rw [crpsQd_val, sortN_val, leafAt_val]; rfl
    rwa [set_self _ hk] at this
  · have := (a2.congrEv (N' := fun t => Grad.crpsPwm (const (fin y))
      (sortN (leafAt k ((xs.map fin).set k (fin t))))) (hsort.mono fun t ht => by rw [ht])).isGradient
      (score := fun t => Approx.pwm (fin y) (gather ((xs.map fin).set k t) (argsort ((xs.map fin).set k t))))
      fun t => by rw [crpsPwm_val, sortN_val, leafAt_val]; rfl
    rwa [set_self _ hk] at this
  · have := (a3.congrN (N' := fun t => Grad.crpsFair (const (fin y)) (leafAt k ((xs.map fin).set k (fin t))))
      fun t => by rw [leafAt_eq]).isGradient (score := fun t => Approx.fair (fin y) ((xs.map fin).set k t))
      fun t => by rw [crpsFair_val, leafAt_val]; rfl
    rwa [set_self _ hk] at this
  · have := (a4.congrN (N' := fun t => Grad.crpsAkr (const (fin y)) (leafAt k ((xs.map fin).set k (fin t))))
      fun t => by rw [leafAt_eq]).isGradient (score := fun t => Approx.akr (fin y) ((xs.map fin).set k t))
      fun t => by rw [crpsAkr_val, leafAt_val]; rfl
    rwa [set_self _ hk] at this
  · have := (a5.congrN (N' := fun t => Grad.crpsAkrCircperm (const (fin y))
      (leafAt k ((xs.map fin).set k (fin t)))) fun t => by rw [leafAt_eq]).isGradient
      (score := fun t => Approx.akrCircperm (fin y) ((xs.map fin).set k t))
      fun t => by rw [crpsAkrCircperm_val, leafAt_val]; rfl
    rwa [set_self _ hk] at this

example : ∃ (xs : List ℝ) (y : ℝ) (hk : 1 < xs.length), 2 ≤ xs.length ∧ xs[1] ≠ y ∧
    ∀ j (hj : j < xs.length), j ≠ 1 → xs[j] ≠ xs[1] :=
  ⟨[0, 1], 3, by norm_num, by norm_num, by norm_num, fun j hj h => by
    have : j = 0 := by simp at hj; omega
    subst this; norm_num⟩

end Verif
