import Verif.Model.Avail

/-!
# Which closed forms a backend can compute
-/

noncomputable section

open scoped Classical

namespace Verif

open XF

/-- The closed forms whose availability depends on the backend: the CRPS of the beta, GEV, generalised
truncated-censored t, truncated t, t, log-logistic and negative binomial laws and the log score of the t law. -/
inductive BkScore where
  | beta | gev | gtct | tt | t | loglogistic | negbinom | logst

/-- The score of `Verif.Model.Closed2` and `Verif.Model.Logs`, for an observation and seven further parameters
(those a score does not have are ignored). -/
def BkScore.value : BkScore → XF → (Fin 7 → XF) → Except Err XF
  | .beta, y, p => Closed.beta y (p 0) (p 1) (p 2) (p 3)
  | .gev, y, p => .ok (Closed.gev y (p 0) (p 1) (p 2))
  | .gtct, y, p => .ok (Closed.gtct y (p 0) (p 1) (p 2) (p 3) (p 4) (p 5) (p 6))
  | .tt, y, p => .ok (Closed.tt y (p 0) (p 1) (p 2) (p 3) (p 4))
  | .t, y, p => .ok (Closed.t y (p 0) (p 1) (p 2))
  | .loglogistic, y, p => .ok (Closed.loglogistic y (p 0) (p 1))
  | .negbinom, y, p => .ok (Closed.negbinom y (p 0) (p 1))
  | .logst, y, p => .ok (Logs.t y (p 0) (p 1) (p 2))

/-- What backend `b` returns. -/
def BkScore.run (b : Bk) : BkScore → XF → (Fin 7 → XF) → Except Err XF
  | .beta, y, p => b.crpsBeta y (p 0) (p 1) (p 2) (p 3)
  | .gev, y, p => b.crpsGev y (p 0) (p 1) (p 2)
  | .gtct, y, p => b.crpsGtct y (p 0) (p 1) (p 2) (p 3) (p 4) (p 5) (p 6)
  | .tt, y, p => b.crpsTt y (p 0) (p 1) (p 2) (p 3) (p 4)
  | .t, y, p => b.crpsT y (p 0) (p 1) (p 2)
  | .loglogistic, y, p => b.crpsLoglogistic y (p 0) (p 1)
  | .negbinom, y, p => b.crpsNegbinom y (p 0) (p 1)
  | .logst, y, p => b.logsT y (p 0) (p 1) (p 2)

/-- The full claim would be: every backend returns the score.  It holds on numpy for all scores and on jax for all
but the negative binomial. -/
theorem C124_partial (b : Bk) (s : BkScore) (h : b = .numpy ∨ b = .jax ∧ s ≠ .negbinom) (y : XF) (p : Fin 7 → XF) :
    s.run b y p = s.value y p := by
  rcases h with rfl | ⟨rfl, h⟩
  · cases s <;> rfl
  · cases s <;> first | rfl | exact absurd rfl h

example : Bk.jax = .numpy ∨ Bk.jax = .jax ∧ BkScore.t ≠ .negbinom := Or.inr ⟨rfl, by simp⟩

/-- With the other combinations no input is scored: on torch each of the eight raises, on jax the negative
binomial does. -/
theorem C124_false (b : Bk) (s : BkScore) (h : b = .torch ∨ b = .jax ∧ s = .negbinom) (y : XF) (p : Fin 7 → XF) :
    ∃ e, s.run b y p = .error e := by
  rcases h with rfl | ⟨rfl, rfl⟩
  · cases s
    case beta =>
      simp only [BkScore.run, Bk.crpsBeta]
      split
      · exact ⟨_, rfl⟩
      · exact ⟨_, rfl⟩
    all_goals exact ⟨_, rfl⟩
  · exact ⟨_, rfl⟩

example : ∃ e, BkScore.run .torch .t (fin 0) (fun _ => fin 1) = .error e :=
  C124_false .torch .t (Or.inl rfl) _ _

/-- The exceptions: `NotImplementedError` for the CRPS (and for a beta law with ordered limits), `TypeError` for
the log score of the t law. -/
theorem C124_errors (s : BkScore) (y : XF) (p : Fin 7 → XF) :
    (s ≠ .beta → s ≠ .logst → s.run .torch y p = .error .notImplemented) ∧
    (p 2 < p 3 → BkScore.beta.run .torch y p = .error .notImplemented) ∧
    (p 3 ≤ p 2 → BkScore.beta.run .torch y p = .error .valueError) ∧
    BkScore.logst.run .torch y p = .error .typeError ∧
    BkScore.negbinom.run .jax y p = .error .notImplemented := by
  refine ⟨fun h1 h2 => ?_, fun h => ?_, fun h => ?_, rfl, rfl⟩
  · cases s <;> first | rfl | exact absurd rfl h1 | exact absurd rfl h2
  · have : ¬ p 3 ≤ p 2 := by
      generalize p 2 = a, p 3 = c at h
      cases a <;> cases c <;> simp_all
    simp only [BkScore.run, Bk.crpsBeta, this, and_false, if_false]
    rfl
  · simp [BkScore.run, Bk.crpsBeta, Bk.isScalarValue, h]

example : (fin 0 : XF) < fin 1 ∧ BkScore.t ≠ .beta ∧ BkScore.t ≠ .logst := ⟨by rw [fin_lt]; norm_num, by simp, by simp⟩

/-- The full claim would be: with a backend named by the caller the result does not depend on the active one.  For
the censored t CRPS and the truncated t log score it holds while the active backend is numpy or jax. -/
theorem C125_partial {b act : Bk} (hb : b ≠ .torch) (ha : act ≠ .torch) (y df μ σ lo up : XF) :
    b.crpsCt act y df μ σ lo up = .ok (Closed.ct y df μ σ lo up) ∧
    b.logsTt act y df μ σ lo up = .ok (Logs.tt y df μ σ lo up) := by
  cases b <;> cases act <;> first | exact absurd rfl hb | exact absurd rfl ha | exact ⟨rfl, rfl⟩

example : Bk.numpy ≠ .torch ∧ Bk.jax ≠ .torch := ⟨by simp, by simp⟩

/-- With torch active and numpy (or jax) named in the call, both functions raise on every input: they compute a
part of the score with the active backend. -/
theorem C125_false {b : Bk} (hb : b ≠ .torch) (y df μ σ lo up : XF) :
    b.crpsCt .torch y df μ σ lo up = .error .notImplemented ∧
    b.logsTt .torch y df μ σ lo up = .error .typeError := by
  cases b <;> first | exact absurd rfl hb | exact ⟨rfl, rfl⟩

example : Bk.numpy ≠ .torch := by simp

/-- With torch named in the call both raise whatever the active backend is. -/
theorem C125_torch (act : Bk) (y df μ σ lo up : XF) :
    Bk.torch.crpsCt act y df μ σ lo up = .error .notImplemented ∧
    Bk.torch.logsTt act y df μ σ lo up = .error .notImplemented := by
  cases act <;> exact ⟨rfl, rfl⟩

example : Bk.torch.crpsCt .numpy (fin 0) (fin 2) (fin 0) (fin 1) ninf pinf = .error .notImplemented :=
  (C125_torch .numpy _ _ _ _ _ _).1

end Verif
