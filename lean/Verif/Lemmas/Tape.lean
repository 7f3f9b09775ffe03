import Verif.Model.Tape
import Mathlib.Tactic.Common

/-!
# Backpropagation through scores with operations in place (C140)
-/

namespace Verif

open Tape

/-- A tensor that exists, whose own backward pass has not been disturbed. -/
def Live (s : St) (t : Ten) : Prop :=
  t.id < s.next ∧ (t.req = false → t.saved = []) ∧ ∀ p ∈ t.saved, p.1 < s.next ∧ s.ver p.1 = p.2

theorem tape_bind {α β : Type} (m : Tp α) (f : α → Tp β) (s : St) :
    (m >>= f) s = match m s with | .ok (a, s') => f a s' | .error e => .error e := rfl

theorem tape_all {l : List (ℕ × ℕ)} {v : ℕ → ℕ} :
    (l.all fun p => v p.1 == p.2) = true ↔ ∀ p ∈ l, v p.1 = p.2 := by simp

theorem run_ok_iff {f : Tp Ten} {s : St} :
    run f s = .ok () ↔ ∃ o s', f s = .ok (o, s') ∧ ∀ p ∈ o.saved, s'.ver p.1 = p.2 := by
  unfold run
  cases h : f s with
  | error e => simp
  | ok r => obtain ⟨o, s'⟩ := r; simp [backward]


theorem run_modified {f : Tp Ten} {s : St} {o : Ten} {s' : St} (h : f s = .ok (o, s')) {p : ℕ × ℕ} (hp : p ∈ o.saved)
    (hv : s'.ver p.1 ≠ p.2) : run f s = .error .modified := by
  unfold run
  rw [h]
  simp only [backward]
  rw [if_neg]
  rw [tape_all]
  exact fun hh => hv (hh p hp)

section
variable {P : ℕ × ℕ → Prop}

theorem saved_append {a b : List (ℕ × ℕ)} (ha : ∀ p ∈ a, P p) (hb : ∀ p ∈ b, P p) : ∀ p ∈ a ++ b, P p :=
  List.forall_mem_append.2 ⟨ha, hb⟩

theorem saved_ite {c : Bool} {l : List (ℕ × ℕ)} (h : ∀ p ∈ l, P p) : ∀ p ∈ if c = true then l else [], P p := by
  cases c <;> simp_all

theorem saved_one {q : ℕ × ℕ} (h : P q) : ∀ p ∈ [q], P p := by simpa using h

theorem saved_keep {s : St} {c : Bool} {t : Ten} (h : P (t.id, s.ver t.id)) : ∀ p ∈ keep s c t, P p :=
  saved_ite (saved_one h)

theorem saved_nil : ∀ p ∈ ([] : List (ℕ × ℕ)), P p := by simp

end

set_option hygiene false in
/-- every tensor kept has its old version -/
macro "tape_ok" : tactic => `(tactic| (
  rw [run_ok_iff]
  refine ⟨_, _, rfl, ?_⟩
  repeat' first
    | exact saved_nil
    | apply saved_append
    | apply saved_keep
    | apply saved_ite
    | apply saved_one
  all_goals
    first
    | rfl
    | (intro x hx
       have h : x.1 < s.next ∧ s.ver x.1 = x.2 := by
         first | exact ho x hx | exact hf x hx | exact how x hx | exact hfw x hx | exact hew x hx | exact hw x hx | exact hz x hx | exact hz x hx | exact hz x hx
       clear hx
       first | exact h.2 | (dsimp only [view]; split_ifs <;> omega))
    | (dsimp only [view]; split_ifs <;> omega)))

theorem run_esNrg {s : St} {obs fct : Ten} (ho : Live s obs) (hf : Live s fct) :
    run (esNrg obs fct) s = .ok () := by
  obtain ⟨i1, r1, l1, v1⟩ := obs
  obtain ⟨i2, r2, l2, v2⟩ := fct
  obtain ⟨b1, -, ho⟩ := ho
  obtain ⟨b2, -, hf⟩ := hf
  dsimp only at b1 b2 ho hf
  tape_ok

theorem run_esAkr {s : St} {obs fct : Ten} (ho : Live s obs) (hf : Live s fct) :
    run (esAkr obs fct) s = .ok () := by
  obtain ⟨i1, r1, l1, v1⟩ := obs
  obtain ⟨i2, r2, l2, v2⟩ := fct
  obtain ⟨b1, -, ho⟩ := ho
  obtain ⟨b2, -, hf⟩ := hf
  dsimp only at b1 b2 ho hf
  tape_ok

theorem run_esNrgW {s : St} {obs fct ensW : Ten} (ho : Live s obs) (hf : Live s fct) (hew : Live s ensW) :
    run (esNrgW obs fct ensW) s = .ok () := by
  obtain ⟨i1, r1, l1, v1⟩ := obs
  obtain ⟨i2, r2, l2, v2⟩ := fct
  obtain ⟨i3, r3, l3, v3⟩ := ensW
  obtain ⟨b1, -, ho⟩ := ho
  obtain ⟨b2, -, hf⟩ := hf
  obtain ⟨b3, -, hew⟩ := hew
  dsimp only at b1 b2 b3 ho hf hew
  tape_ok

theorem run_esFairW {s : St} {obs fct ensW : Ten} (ho : Live s obs) (hf : Live s fct) (hew : Live s ensW) :
    run (esFairW obs fct ensW) s = .ok () := by
  obtain ⟨i1, r1, l1, v1⟩ := obs
  obtain ⟨i2, r2, l2, v2⟩ := fct
  obtain ⟨i3, r3, l3, v3⟩ := ensW
  obtain ⟨b1, -, ho⟩ := ho
  obtain ⟨b2, -, hf⟩ := hf
  obtain ⟨b3, -, hew⟩ := hew
  dsimp only at b1 b2 b3 ho hf hew
  tape_ok

theorem run_ksNrgUv {s : St} {obs fct : Ten} (ho : Live s obs) (hf : Live s fct) :
    run (ksNrg kernUv obs fct) s = .ok () := by
  obtain ⟨i1, r1, l1, v1⟩ := obs
  obtain ⟨i2, r2, l2, v2⟩ := fct
  obtain ⟨b1, -, ho⟩ := ho
  obtain ⟨b2, -, hf⟩ := hf
  dsimp only at b1 b2 ho hf
  tape_ok

theorem run_ksNrgMv {s : St} {obs fct : Ten} (ho : Live s obs) (hf : Live s fct) :
    run (ksNrg kernMv obs fct) s = .ok () := by
  obtain ⟨i1, r1, l1, v1⟩ := obs
  obtain ⟨i2, r2, l2, v2⟩ := fct
  obtain ⟨b1, -, ho⟩ := ho
  obtain ⟨b2, -, hf⟩ := hf
  dsimp only at b1 b2 ho hf
  tape_ok

theorem run_ksFairUv {s : St} {obs fct : Ten} (ho : Live s obs) (hf : Live s fct) :
    run (ksFair kernUv obs fct) s = .ok () := by
  obtain ⟨i1, r1, l1, v1⟩ := obs
  obtain ⟨i2, r2, l2, v2⟩ := fct
  obtain ⟨b1, -, ho⟩ := ho
  obtain ⟨b2, -, hf⟩ := hf
  dsimp only at b1 b2 ho hf
  tape_ok

theorem run_ksFairMv {s : St} {obs fct : Ten} (ho : Live s obs) (hf : Live s fct) :
    run (ksFair kernMv obs fct) s = .ok () := by
  obtain ⟨i1, r1, l1, v1⟩ := obs
  obtain ⟨i2, r2, l2, v2⟩ := fct
  obtain ⟨b1, -, ho⟩ := ho
  obtain ⟨b2, -, hf⟩ := hf
  dsimp only at b1 b2 ho hf
  tape_ok

theorem run_owksUv {s : St} {obs fct ow fw : Ten} (ho : Live s obs) (hf : Live s fct) (how : Live s ow) (hfw : Live s fw) :
    run (owksUv obs fct ow fw) s = .ok () := by
  obtain ⟨i1, r1, l1, v1⟩ := obs
  obtain ⟨i2, r2, l2, v2⟩ := fct
  obtain ⟨i3, r3, l3, v3⟩ := ow
  obtain ⟨i4, r4, l4, v4⟩ := fw
  obtain ⟨b1, -, ho⟩ := ho
  obtain ⟨b2, -, hf⟩ := hf
  obtain ⟨b3, -, how⟩ := how
  obtain ⟨b4, -, hfw⟩ := hfw
  dsimp only at b1 b2 b3 b4 ho hf how hfw
  tape_ok

theorem run_vrksUv {s : St} {obs fct ow fw : Ten} (ho : Live s obs) (hf : Live s fct) (how : Live s ow) (hfw : Live s fw) :
    run (vrksUv obs fct ow fw) s = .ok () := by
  obtain ⟨i1, r1, l1, v1⟩ := obs
  obtain ⟨i2, r2, l2, v2⟩ := fct
  obtain ⟨i3, r3, l3, v3⟩ := ow
  obtain ⟨i4, r4, l4, v4⟩ := fw
  obtain ⟨b1, -, ho⟩ := ho
  obtain ⟨b2, -, hf⟩ := hf
  obtain ⟨b3, -, how⟩ := how
  obtain ⟨b4, -, hfw⟩ := hfw
  dsimp only at b1 b2 b3 b4 ho hf how hfw
  tape_ok

theorem run_vsNrg {s : St} {obs fct w : Ten} (ho : Live s obs) (hf : Live s fct) (hw : Live s w) :
    run (vsNrg obs fct w) s = .ok () := by
  obtain ⟨i1, r1, l1, v1⟩ := obs
  obtain ⟨i2, r2, l2, v2⟩ := fct
  obtain ⟨i3, r3, l3, v3⟩ := w
  obtain ⟨b1, -, ho⟩ := ho
  obtain ⟨b2, -, hf⟩ := hf
  obtain ⟨b3, -, hw⟩ := hw
  dsimp only at b1 b2 b3 ho hf hw
  tape_ok

theorem run_owvs {s : St} {obs fct w ow fw : Ten} (ho : Live s obs) (hf : Live s fct) (hw : Live s w) (how : Live s ow) (hfw : Live s fw) :
    run (owvs obs fct w ow fw) s = .ok () := by
  obtain ⟨i1, r1, l1, v1⟩ := obs
  obtain ⟨i2, r2, l2, v2⟩ := fct
  obtain ⟨i3, r3, l3, v3⟩ := w
  obtain ⟨i4, r4, l4, v4⟩ := ow
  obtain ⟨i5, r5, l5, v5⟩ := fw
  obtain ⟨b1, -, ho⟩ := ho
  obtain ⟨b2, -, hf⟩ := hf
  obtain ⟨b3, -, hw⟩ := hw
  obtain ⟨b4, -, how⟩ := how
  obtain ⟨b5, -, hfw⟩ := hfw
  dsimp only at b1 b2 b3 b4 b5 ho hf hw how hfw
  tape_ok

theorem run_vrvs {s : St} {obs fct w ow fw : Ten} (ho : Live s obs) (hf : Live s fct) (hw : Live s w) (how : Live s ow) (hfw : Live s fw) :
    run (vrvs obs fct w ow fw) s = .ok () := by
  obtain ⟨i1, r1, l1, v1⟩ := obs
  obtain ⟨i2, r2, l2, v2⟩ := fct
  obtain ⟨i3, r3, l3, v3⟩ := w
  obtain ⟨i4, r4, l4, v4⟩ := ow
  obtain ⟨i5, r5, l5, v5⟩ := fw
  obtain ⟨b1, -, ho⟩ := ho
  obtain ⟨b2, -, hf⟩ := hf
  obtain ⟨b3, -, hw⟩ := hw
  obtain ⟨b4, -, how⟩ := how
  obtain ⟨b5, -, hfw⟩ := hfw
  dsimp only at b1 b2 b3 b4 b5 ho hf hw how hfw
  tape_ok

theorem run_owcrps {s : St} {obs fct ow fw : Ten} (ho : Live s obs) (hf : Live s fct) (how : Live s ow) (hfw : Live s fw) :
    run (owcrps obs fct ow fw) s = .ok () := by
  obtain ⟨i1, r1, l1, v1⟩ := obs
  obtain ⟨i2, r2, l2, v2⟩ := fct
  obtain ⟨i3, r3, l3, v3⟩ := ow
  obtain ⟨i4, r4, l4, v4⟩ := fw
  obtain ⟨b1, -, ho⟩ := ho
  obtain ⟨b2, -, hf⟩ := hf
  obtain ⟨b3, -, how⟩ := how
  obtain ⟨b4, -, hfw⟩ := hfw
  dsimp only at b1 b2 b3 b4 ho hf how hfw
  tape_ok

theorem run_vrcrps {s : St} {obs fct ow fw : Ten} (ho : Live s obs) (hf : Live s fct) (how : Live s ow) (hfw : Live s fw) :
    run (vrcrps obs fct ow fw) s = .ok () := by
  obtain ⟨i1, r1, l1, v1⟩ := obs
  obtain ⟨i2, r2, l2, v2⟩ := fct
  obtain ⟨i3, r3, l3, v3⟩ := ow
  obtain ⟨i4, r4, l4, v4⟩ := fw
  obtain ⟨b1, -, ho⟩ := ho
  obtain ⟨b2, -, hf⟩ := hf
  obtain ⟨b3, -, how⟩ := how
  obtain ⟨b4, -, hfw⟩ := hfw
  dsimp only at b1 b2 b3 b4 ho hf how hfw
  tape_ok

theorem run_owksUvW {s : St} {obs fct ow fw ensW : Ten} (ho : Live s obs) (hf : Live s fct) (how : Live s ow) (hfw : Live s fw) (hew : Live s ensW) :
    run (owksUvW obs fct ow fw ensW) s = .ok () := by
  obtain ⟨i1, r1, l1, v1⟩ := obs
  obtain ⟨i2, r2, l2, v2⟩ := fct
  obtain ⟨i3, r3, l3, v3⟩ := ow
  obtain ⟨i4, r4, l4, v4⟩ := fw
  obtain ⟨i5, r5, l5, v5⟩ := ensW
  obtain ⟨b1, -, ho⟩ := ho
  obtain ⟨b2, -, hf⟩ := hf
  obtain ⟨b3, -, how⟩ := how
  obtain ⟨b4, -, hfw⟩ := hfw
  obtain ⟨b5, -, hew⟩ := hew
  dsimp only at b1 b2 b3 b4 b5 ho hf how hfw hew
  tape_ok

theorem run_owvsW {s : St} {obs fct w ow fw ensW : Ten} (ho : Live s obs) (hf : Live s fct) (hw : Live s w) (how : Live s ow) (hfw : Live s fw) (hew : Live s ensW) :
    run (owvsW obs fct w ow fw ensW) s = .ok () := by
  obtain ⟨i1, r1, l1, v1⟩ := obs
  obtain ⟨i2, r2, l2, v2⟩ := fct
  obtain ⟨i3, r3, l3, v3⟩ := w
  obtain ⟨i4, r4, l4, v4⟩ := ow
  obtain ⟨i5, r5, l5, v5⟩ := fw
  obtain ⟨i6, r6, l6, v6⟩ := ensW
  obtain ⟨b1, -, ho⟩ := ho
  obtain ⟨b2, -, hf⟩ := hf
  obtain ⟨b3, -, hw⟩ := hw
  obtain ⟨b4, -, how⟩ := how
  obtain ⟨b5, -, hfw⟩ := hfw
  obtain ⟨b6, -, hew⟩ := hew
  dsimp only at b1 b2 b3 b4 b5 b6 ho hf hw how hfw hew
  tape_ok

theorem run_vrvsW {s : St} {obs fct w ow fw ensW : Ten} (ho : Live s obs) (hf : Live s fct) (hw : Live s w) (how : Live s ow) (hfw : Live s fw) (hew : Live s ensW) :
    run (vrvsW obs fct w ow fw ensW) s = .ok () := by
  obtain ⟨i1, r1, l1, v1⟩ := obs
  obtain ⟨i2, r2, l2, v2⟩ := fct
  obtain ⟨i3, r3, l3, v3⟩ := w
  obtain ⟨i4, r4, l4, v4⟩ := ow
  obtain ⟨i5, r5, l5, v5⟩ := fw
  obtain ⟨i6, r6, l6, v6⟩ := ensW
  obtain ⟨b1, -, ho⟩ := ho
  obtain ⟨b2, -, hf⟩ := hf
  obtain ⟨b3, -, hw⟩ := hw
  obtain ⟨b4, -, how⟩ := how
  obtain ⟨b5, -, hfw⟩ := hfw
  obtain ⟨b6, -, hew⟩ := hew
  dsimp only at b1 b2 b3 b4 b5 b6 ho hf hw how hfw hew
  tape_ok

theorem run_owcrpsW {s : St} {obs fct ow fw ensW : Ten} (ho : Live s obs) (hf : Live s fct) (how : Live s ow) (hfw : Live s fw) (hew : Live s ensW) :
    run (owcrpsW obs fct ow fw ensW) s = .ok () := by
  obtain ⟨i1, r1, l1, v1⟩ := obs
  obtain ⟨i2, r2, l2, v2⟩ := fct
  obtain ⟨i3, r3, l3, v3⟩ := ow
  obtain ⟨i4, r4, l4, v4⟩ := fw
  obtain ⟨i5, r5, l5, v5⟩ := ensW
  obtain ⟨b1, -, ho⟩ := ho
  obtain ⟨b2, -, hf⟩ := hf
  obtain ⟨b3, -, how⟩ := how
  obtain ⟨b4, -, hfw⟩ := hfw
  obtain ⟨b5, -, hew⟩ := hew
  dsimp only at b1 b2 b3 b4 b5 ho hf how hfw hew
  tape_ok

theorem run_vrcrpsW {s : St} {obs fct ow fw ensW : Ten} (ho : Live s obs) (hf : Live s fct) (how : Live s ow) (hfw : Live s fw) (hew : Live s ensW) :
    run (vrcrpsW obs fct ow fw ensW) s = .ok () := by
  obtain ⟨i1, r1, l1, v1⟩ := obs
  obtain ⟨i2, r2, l2, v2⟩ := fct
  obtain ⟨i3, r3, l3, v3⟩ := ow
  obtain ⟨i4, r4, l4, v4⟩ := fw
  obtain ⟨i5, r5, l5, v5⟩ := ensW
  obtain ⟨b1, -, ho⟩ := ho
  obtain ⟨b2, -, hf⟩ := hf
  obtain ⟨b3, -, how⟩ := how
  obtain ⟨b4, -, hfw⟩ := hfw
  obtain ⟨b5, -, hew⟩ := hew
  dsimp only at b1 b2 b3 b4 b5 ho hf how hfw hew
  tape_ok

theorem run_intervalScore {s : St} {obs lower upper alpha : Ten} (ho : Live s obs) (hf : Live s lower) (how : Live s upper) (hfw : Live s alpha) :
    run (intervalScore obs lower upper alpha) s = .ok () := by
  obtain ⟨i1, r1, l1, v1⟩ := obs
  obtain ⟨i2, r2, l2, v2⟩ := lower
  obtain ⟨i3, r3, l3, v3⟩ := upper
  obtain ⟨i4, r4, l4, v4⟩ := alpha
  obtain ⟨b1, -, ho⟩ := ho
  obtain ⟨b2, -, hf⟩ := hf
  obtain ⟨b3, -, how⟩ := how
  obtain ⟨b4, -, hfw⟩ := hfw
  dsimp only at b1 b2 b3 b4 ho hf how hfw
  tape_ok

theorem run_wis {s : St} {obs median lower upper alpha wMedian wAlpha : Ten} (ho : Live s obs) (hew : Live s median) (hf : Live s lower) (how : Live s upper) (hfw : Live s alpha) (hw : Live s wMedian) (hz : Live s wAlpha) :
    run (wis obs median lower upper alpha wMedian wAlpha) s = .ok () := by
  obtain ⟨i1, r1, l1, v1⟩ := obs
  obtain ⟨i2, r2, l2, v2⟩ := median
  obtain ⟨i3, r3, l3, v3⟩ := lower
  obtain ⟨i4, r4, l4, v4⟩ := upper
  obtain ⟨i5, r5, l5, v5⟩ := alpha
  obtain ⟨i6, r6, l6, v6⟩ := wMedian
  obtain ⟨i7, r7, l7, v7⟩ := wAlpha
  obtain ⟨b1, -, ho⟩ := ho
  obtain ⟨b2, -, hew⟩ := hew
  obtain ⟨b3, -, hf⟩ := hf
  obtain ⟨b4, -, how⟩ := how
  obtain ⟨b5, -, hfw⟩ := hfw
  obtain ⟨b6, -, hw⟩ := hw
  obtain ⟨b7, -, hz⟩ := hz
  dsimp only at b1 b2 b3 b4 b5 b6 b7 ho hew hf how hfw hw hz
  tape_ok

theorem run_owes {s : St} {obs fct ow fw : Ten} (ho : Live s obs) (hf : Live s fct) (how : Live s ow) (hfw : Live s fw) :
    run (owes obs fct ow fw) s = if fct.req then .error .modified else .ok () := by
  obtain ⟨i1, r1, l1, v1⟩ := obs
  obtain ⟨i2, r2, l2, v2⟩ := fct
  obtain ⟨i3, r3, l3, v3⟩ := ow
  obtain ⟨i4, r4, l4, v4⟩ := fw
  obtain ⟨b1, -, ho⟩ := ho
  obtain ⟨b2, -, hf⟩ := hf
  obtain ⟨b3, -, how⟩ := how
  obtain ⟨b4, -, hfw⟩ := hfw
  dsimp only at b1 b2 b3 b4 ho hf how hfw
  cases r2 <;>
    simp only [Bool.false_eq_true, reduceIte] <;>
    first
    | tape_ok
    | (refine run_modified rfl (p := (s.next + 8, s.ver (s.next + 8))) ?_ ?_ <;> simp [view, keep])

theorem run_vres {s : St} {obs fct ow fw : Ten} (ho : Live s obs) (hf : Live s fct) (how : Live s ow) (hfw : Live s fw) :
    run (vres obs fct ow fw) s = if obs.req || fct.req then .error .modified else .ok () := by
  obtain ⟨i1, r1, l1, v1⟩ := obs
  obtain ⟨i2, r2, l2, v2⟩ := fct
  obtain ⟨i3, r3, l3, v3⟩ := ow
  obtain ⟨i4, r4, l4, v4⟩ := fw
  obtain ⟨b1, -, ho⟩ := ho
  obtain ⟨b2, -, hf⟩ := hf
  obtain ⟨b3, -, how⟩ := how
  obtain ⟨b4, -, hfw⟩ := hfw
  dsimp only at b1 b2 b3 b4 ho hf how hfw
  cases r1 <;> cases r2 <;>
    simp only [Bool.or_true, Bool.or_false, Bool.false_eq_true, reduceIte] <;>
    first
    | tape_ok
    | (refine run_modified rfl (p := (s.next + 2, s.ver (s.next + 2))) ?_ ?_ <;> simp [view, keep])

theorem run_owesW {s : St} {obs fct ow fw ensW : Ten} (ho : Live s obs) (hf : Live s fct) (how : Live s ow) (hfw : Live s fw) (hew : Live s ensW) :
    run (owesW obs fct ow fw ensW) s = if fct.req then .error .modified else .ok () := by
  obtain ⟨i1, r1, l1, v1⟩ := obs
  obtain ⟨i2, r2, l2, v2⟩ := fct
  obtain ⟨i3, r3, l3, v3⟩ := ow
  obtain ⟨i4, r4, l4, v4⟩ := fw
  obtain ⟨i5, r5, l5, v5⟩ := ensW
  obtain ⟨b1, -, ho⟩ := ho
  obtain ⟨b2, -, hf⟩ := hf
  obtain ⟨b3, -, how⟩ := how
  obtain ⟨b4, -, hfw⟩ := hfw
  obtain ⟨b5, -, hew⟩ := hew
  dsimp only at b1 b2 b3 b4 b5 ho hf how hfw hew
  cases r2 <;>
    simp only [Bool.false_eq_true, reduceIte] <;>
    first
    | tape_ok
    | (refine run_modified rfl (p := (s.next + 10, s.ver (s.next + 10))) ?_ ?_ <;> simp [view, keep])

theorem run_vresW {s : St} {obs fct ow fw ensW : Ten} (ho : Live s obs) (hf : Live s fct) (how : Live s ow) (hfw : Live s fw) (hew : Live s ensW) :
    run (vresW obs fct ow fw ensW) s = if obs.req || fct.req then .error .modified else .ok () := by
  obtain ⟨i1, r1, l1, v1⟩ := obs
  obtain ⟨i2, r2, l2, v2⟩ := fct
  obtain ⟨i3, r3, l3, v3⟩ := ow
  obtain ⟨i4, r4, l4, v4⟩ := fw
  obtain ⟨i5, r5, l5, v5⟩ := ensW
  obtain ⟨b1, -, ho⟩ := ho
  obtain ⟨b2, -, hf⟩ := hf
  obtain ⟨b3, -, how⟩ := how
  obtain ⟨b4, -, hfw⟩ := hfw
  obtain ⟨b5, -, hew⟩ := hew
  dsimp only at b1 b2 b3 b4 b5 ho hf how hfw hew
  cases r1 <;> cases r2 <;>
    simp only [Bool.or_true, Bool.or_false, Bool.false_eq_true, reduceIte] <;>
    first
    | tape_ok
    | (refine run_modified rfl (p := (s.next + 3, s.ver (s.next + 3))) ?_ ?_ <;> simp [view, keep])

theorem run_owksMv {s : St} {obs fct ow fw : Ten} (ho : Live s obs) (hf : Live s fct) (how : Live s ow) (hfw : Live s fw) :
    run (owksMv obs fct ow fw) s = if fct.req then .error .modified else .ok () := by
  obtain ⟨i1, r1, l1, v1⟩ := obs
  obtain ⟨i2, r2, l2, v2⟩ := fct
  obtain ⟨i3, r3, l3, v3⟩ := ow
  obtain ⟨i4, r4, l4, v4⟩ := fw
  obtain ⟨b1, -, ho⟩ := ho
  obtain ⟨b2, -, hf⟩ := hf
  obtain ⟨b3, -, how⟩ := how
  obtain ⟨b4, -, hfw⟩ := hfw
  dsimp only at b1 b2 b3 b4 ho hf how hfw
  cases r2 <;>
    simp only [Bool.false_eq_true, reduceIte] <;>
    first
    | tape_ok
    | (refine run_modified rfl (p := (s.next + 16, s.ver (s.next + 16))) ?_ ?_ <;> simp [view, keep])

theorem run_vrksMv {s : St} {obs fct ow fw : Ten} (ho : Live s obs) (hf : Live s fct) (how : Live s ow) (hfw : Live s fw) :
    run (vrksMv obs fct ow fw) s = if fct.req then .error .modified else .ok () := by
  obtain ⟨i1, r1, l1, v1⟩ := obs
  obtain ⟨i2, r2, l2, v2⟩ := fct
  obtain ⟨i3, r3, l3, v3⟩ := ow
  obtain ⟨i4, r4, l4, v4⟩ := fw
  obtain ⟨b1, -, ho⟩ := ho
  obtain ⟨b2, -, hf⟩ := hf
  obtain ⟨b3, -, how⟩ := how
  obtain ⟨b4, -, hfw⟩ := hfw
  dsimp only at b1 b2 b3 b4 ho hf how hfw
  cases r2 <;>
    simp only [Bool.false_eq_true, reduceIte] <;>
    first
    | tape_ok
    | (refine run_modified rfl (p := (s.next + 13, s.ver (s.next + 13))) ?_ ?_ <;> simp [view, keep])

theorem run_owksMvW {s : St} {obs fct ow fw ensW : Ten} (ho : Live s obs) (hf : Live s fct) (how : Live s ow) (hfw : Live s fw) (hew : Live s ensW) :
    run (owksMvW obs fct ow fw ensW) s = if fct.req then .error .modified else .ok () := by
  obtain ⟨i1, r1, l1, v1⟩ := obs
  obtain ⟨i2, r2, l2, v2⟩ := fct
  obtain ⟨i3, r3, l3, v3⟩ := ow
  obtain ⟨i4, r4, l4, v4⟩ := fw
  obtain ⟨i5, r5, l5, v5⟩ := ensW
  obtain ⟨b1, -, ho⟩ := ho
  obtain ⟨b2, -, hf⟩ := hf
  obtain ⟨b3, -, how⟩ := how
  obtain ⟨b4, -, hfw⟩ := hfw
  obtain ⟨b5, -, hew⟩ := hew
  dsimp only at b1 b2 b3 b4 b5 ho hf how hfw hew
  cases r2 <;>
    simp only [Bool.false_eq_true, reduceIte] <;>
    first
    | tape_ok
    | (refine run_modified rfl (p := (s.next + 16, s.ver (s.next + 16))) ?_ ?_ <;> simp [view, keep])

theorem run_vrksMvW {s : St} {obs fct ow fw ensW : Ten} (ho : Live s obs) (hf : Live s fct) (how : Live s ow) (hfw : Live s fw) (hew : Live s ensW) :
    run (vrksMvW obs fct ow fw ensW) s = if fct.req then .error .modified else .ok () := by
  obtain ⟨i1, r1, l1, v1⟩ := obs
  obtain ⟨i2, r2, l2, v2⟩ := fct
  obtain ⟨i3, r3, l3, v3⟩ := ow
  obtain ⟨i4, r4, l4, v4⟩ := fw
  obtain ⟨i5, r5, l5, v5⟩ := ensW
  obtain ⟨b1, -, ho⟩ := ho
  obtain ⟨b2, -, hf⟩ := hf
  obtain ⟨b3, -, how⟩ := how
  obtain ⟨b4, -, hfw⟩ := hfw
  obtain ⟨b5, -, hew⟩ := hew
  dsimp only at b1 b2 b3 b4 b5 ho hf how hfw hew
  cases r2 <;>
    simp only [Bool.false_eq_true, reduceIte] <;>
    first
    | tape_ok
    | (refine run_modified rfl (p := (s.next + 13, s.ver (s.next + 13))) ?_ ?_ <;> simp [view, keep])

/-- A leaf that requires a gradient is refused by `obs -= location`. -/
theorem run_exponential2_leaf {s : St} {obs location scale : Ten} (h1 : obs.leaf = true) (h2 : obs.req = true) :
    run (logsExponential2 obs location scale) s = .error .leaf := by
  obtain ⟨i1, r1, l1, v1⟩ := obs
  cases h1; cases h2
  rfl

theorem run_exponentialM_leaf {s : St} {mass0 scale1 : Bool} {obs mass location scale : Ten} (h1 : obs.leaf = true)
    (h2 : obs.req = true) : run (crpsExponentialM false mass0 scale1 obs mass location scale) s = .error .leaf := by
  obtain ⟨i1, r1, l1, v1⟩ := obs
  cases h1; cases h2
  rfl

theorem run_exponentialM_zero {s : St} {mass0 scale1 : Bool} {obs mass location scale : Ten} (ho : Live s obs)
    (hf : Live s mass) (how : Live s location) (hfw : Live s scale) :
    run (crpsExponentialM true mass0 scale1 obs mass location scale) s = .ok () := by
  obtain ⟨i1, r1, l1, v1⟩ := obs
  obtain ⟨i2, r2, l2, v2⟩ := mass
  obtain ⟨i3, r3, l3, v3⟩ := location
  obtain ⟨i4, r4, l4, v4⟩ := scale
  obtain ⟨b1, -, ho⟩ := ho
  obtain ⟨b2, -, hf⟩ := hf
  obtain ⟨b3, -, how⟩ := how
  obtain ⟨b4, -, hfw⟩ := hfw
  dsimp only at b1 b2 b3 b4 ho hf how hfw
  cases mass0 <;> cases scale1 <;> tape_ok

/-- Observations without gradient, which nothing else depends on, may be modified. -/
theorem run_exponential2_free {s : St} {obs location scale : Ten} (hr : obs.req = false) (hi : obs.id < s.next)
    (how : Live s location) (hfw : Live s scale) (n1 : ∀ p ∈ location.saved, p.1 ≠ obs.id)
    (n2 : ∀ p ∈ scale.saved, p.1 ≠ obs.id) (n3 : scale.id ≠ obs.id) (hs : obs.saved = []) :
    run (logsExponential2 obs location scale) s = .ok () := by
  obtain ⟨i1, r1, l1, v1⟩ := obs
  obtain ⟨i3, r3, l3, v3⟩ := location
  obtain ⟨i4, r4, l4, v4⟩ := scale
  cases hr; cases hs
  obtain ⟨b3, -, how⟩ := how
  obtain ⟨b4, -, hfw⟩ := hfw
  dsimp only at b3 b4 how hfw n1 n2 n3 hi
  cases l1 <;>
  · rw [run_ok_iff]
    refine ⟨_, _, rfl, ?_⟩
    repeat' first
      | exact saved_nil
      | apply saved_append
      | apply saved_keep
      | apply saved_ite
      | apply saved_one
    all_goals
      first
      | rfl
      | (intro x hx
         have h := how x hx
         have := n1 x hx
         exact (if_neg this).trans h.2)
      | (intro x hx
         have h := hfw x hx
         have := n2 x hx
         exact (if_neg this).trans h.2)
      | (dsimp only; split_ifs <;> omega)

end Verif
