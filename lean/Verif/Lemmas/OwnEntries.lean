/-
Force routines which carry more than the force vector from configuration to configuration (densities, dipoles): if each
configuration writes its own entries only, and values which do not depend on the state, then the split over ranks and the past
make no difference.
-/
import Verif.Lemmas.FullRun
import Verif.Lemmas.Parallel
import Verif.Lemmas.ForceRun

set_option linter.unusedSectionVars false

namespace Verif.Force

open Verif.Spec Verif.Mpi

variable {K : Type*} [Field K] [LinearOrder K] [IsStrictOrderedRing K] {τ ε : Type*}

/-- What the evaluation of a configuration leaves in the force vector `fv` of the state. -/
structure OwnWrites (fv : τ → FV K) (b : Build) (lim : Bool) (c : Conf K) (one : Nat → Conf K → τ → τ × ε) (f : Nat → V3 K)
    (e : K) (st : Fin 6 → K) (l : K) (r : ε) : Prop where
  force : ∀ ci s a, (fv (one ci c s).1).force a = if c.start ≤ a ∧ a < c.start + c.atoms.length then f a else (fv s).force a
  energy : ∀ ci s, (fv (one ci c s).1).energy = Function.update (fv s).energy ci e
  stress : ∀ ci s, (fv (one ci c s).1).stress = if b.stress then Function.update (fv s).stress ci st else (fv s).stress
  limit : ∀ ci s, lim = true → b.rescale = true → (fv (one ci c s).1).limit = Function.update (fv s).limit ci l
  noLimit : ∀ ci s, lim = false → (fv (one ci c s).1).limit = (fv s).limit
  err : ∀ ci s, (one ci c s).2 = r

/-- From the form in which the routines are specified. -/
theorem ownWrites_of (fv : τ → FV K) (b : Build) (lim : Bool) (c : Conf K) (one : Nat → Conf K → τ → τ × ε) (F : Nat → V3 K)
    (e : K) (st : Fin 6 → K) (l : K) (r : ε)
    (h1 : ∀ ci s x, (x < c.start ∨ c.start + c.atoms.length ≤ x) → (fv (one ci c s).1).force x = (fv s).force x)
    (h2 : ∀ ci s k a, c.atoms[k]? = some a → (fv (one ci c s).1).force (c.start + k) =
      if c.uf then scaled b true a (F (c.start + k) - c.force0 (c.start + k)) else 0)
    (h3 : ∀ ci s, (fv (one ci c s).1).energy = Function.update (fv s).energy ci e)
    (h4 : ∀ ci s, (fv (one ci c s).1).stress = if b.stress then Function.update (fv s).stress ci st else (fv s).stress)
    (h5 : ∀ ci s, lim = true → b.rescale = true → (fv (one ci c s).1).limit = Function.update (fv s).limit ci l)
    (h6 : ∀ ci s, lim = false → (fv (one ci c s).1).limit = (fv s).limit)
    (h7 : ∀ ci s, (one ci c s).2 = r) : ∃ f, OwnWrites fv b lim c one f e st l r := by
  refine ⟨_, fun ci s a => force_cases (c := c) (f := (fv (one ci c s).1).force) (g := (fv s).force)
    (h := fun i a => if c.uf then scaled b true a (F i - c.force0 i) else 0) (fun a ha => h1 ci s a ?_)
    (fun j a hj => h2 ci s j a hj) ⟨0, [], 0, true⟩ a, h3, h4, h5, h6, h7⟩
  have ha : ¬ (c.start ≤ a ∧ a < c.start + c.atoms.length) := ha
  omega

theorem local_of_own (fv : τ → FV K) (b : Build) (lim : Bool) {good : Nat → Conf K → Prop} (one : Nat → Conf K → τ → τ × ε)
    (s₀ : τ) (h : ∀ ci c, good ci c → ∃ f e st l r, OwnWrites fv b lim c one f e st l r) :
    Local (fun s => cellOf b lim (fv s)) good (ownCell b lim) one (fun ci c => cellOf b lim (fv (one ci c s₀).1))
      (fun ci c => (one ci c s₀).2) := by
  constructor
  · intro ci c s x hg hx
    obtain ⟨f, e, st, l, r, w⟩ := h ci c hg
    cases x with
    | force a k =>
      have hx : c.start ≤ a ∧ a < c.start + c.atoms.length := hx
      simp only [cellOf, FV.get]
      rw [w.force, w.force, if_pos hx, if_pos hx]
    | energy j =>
      obtain rfl : j = ci := hx
      simp only [cellOf, FV.get]
      rw [w.energy, w.energy, Function.update_self, Function.update_self]
    | stress j k =>
      obtain ⟨hb, rfl⟩ := hx
      simp only [cellOf, FV.get]
      rw [w.stress, w.stress, if_pos hb, if_pos hb, Function.update_self, Function.update_self]
    | limit j =>
      obtain ⟨hb, hl, rfl⟩ := hx
      simp only [cellOf]
      rw [w.limit _ _ hl hb, w.limit _ _ hl hb, Function.update_self, Function.update_self]
    | rho a => rfl
    | gradF a => rfl
  · intro ci c s x hg hx
    obtain ⟨f, e, st, l, r, w⟩ := h ci c hg
    cases x with
    | force a k =>
      have hx : ¬ (c.start ≤ a ∧ a < c.start + c.atoms.length) := hx
      simp only [cellOf, FV.get]
      rw [w.force, if_neg hx]
    | energy j =>
      simp only [cellOf, FV.get]
      rw [w.energy, Function.update_of_ne hx]
    | stress j k =>
      simp only [cellOf, FV.get]
      rw [w.stress]
      by_cases hb : b.stress = true
      · rw [if_pos hb, Function.update_of_ne (fun he => hx ⟨hb, he⟩)]
      · rw [if_neg hb]
    | limit j =>
      simp only [cellOf]
      by_cases hl : lim = true
      · by_cases hb : b.rescale = true
        · rw [w.limit _ _ hl hb, Function.update_of_ne (fun he => hx ⟨hb, hl, he⟩)]
        · rw [Bool.not_eq_true] at hb
          rw [if_pos ⟨hl, hb⟩, if_pos ⟨hl, hb⟩]
      · rw [w.noLimit _ _ (by simpa using hl)]
    | rho a => rfl
    | gradF a => rfl
  · intro ci c s hg
    obtain ⟨f, e, st, l, r, w⟩ := h ci c hg
    show (one ci c s).2 = (one ci c s₀).2
    rw [w.err, w.err]

/-- If no configuration changes limiting constraints which are zero, they stay zero. -/
theorem limit_zero [AddMonoid ε] (fv : τ → FV K) (one : Nat → Conf K → τ → τ × ε) (confs : List (Conf K))
    (h : ∀ ci, ∀ c ∈ confs, ∀ s, (fv s).limit = 0 → (fv (one ci c s).1).limit = 0) (ci : Nat) (s : τ × ε)
    (hs : (fv s.1).limit = 0) : (fv (confLoop one confs ci s).1).limit = 0 := by
  induction confs generalizing ci s with
  | nil => simpa [confLoop] using hs
  | cons c cs ih =>
    simp only [confLoop]
    exact ih (fun ci c hc => h ci c (List.mem_cons_of_mem _ hc)) _ _ (h ci c (List.mem_cons_self ..) _ hs)

end Verif.Force
