/-
C57  Acceptance of trial steps in simulated annealing.
-/
import Verif.Props.C29
import Mathlib.MeasureTheory.Measure.Lebesgue.Basic
import Mathlib.Analysis.SpecialFunctions.Exp

set_option linter.unusedSectionVars false

namespace Verif.Props

open Verif.Annealing MeasureTheory

variable {ι σ : Type*} [DecidableEq ι] {N : Nat}

/-- The Metropolis probability for going from a state of value `f` to one of value `f'` at temperature `T`. -/
noncomputable def metropolis (T f f' : ℝ) : ℝ := min 1 (Real.exp (-(f' - f) / T))

/-- The annealer with `u` as the random number which decides about acceptance. -/
def withDraw {K : Type*} (E : Env K ι σ N) (u : K) : Env K ι σ N := { E with draw := fun g => ((E.draw g).1, u) }

/-- The two ways a trial step with trial point `new` may end. -/
def Outcome {K : Type*} (s s' : Annealing.St K ι σ N) (h : Fin N) (new : ι → K) (f : K) : Prop :=
  (s'.xi = new ∧ s'.f = f ∧ s'.naccept = Function.update s.naccept h (s.naccept h + 1)) ∨
  (s'.xi = s.xi ∧ s'.f = s.f ∧ s'.naccept = s.naccept)

/-- **C57, both outcomes.** The trial point is either taken, with its value, and counted as accepted, or the point stays. -/
theorem C57_outcomes (E : Env ℝ ι σ N) (ho : OneOnly E) (T : ℝ) (s : Annealing.St ℝ ι σ N) (h : Fin N) :
    Outcome s (E.step T s h) h (E.move s.rng h s.xi s.v).2.1 (E.obj (E.move s.rng h s.xi s.v).2.1) := by
  have hnew : (if E.apot = true then Function.update s.xi (E.idx h) ((E.move s.rng h s.xi s.v).2.1 (E.idx h))
      else (E.move s.rng h s.xi s.v).2.1) = (E.move s.rng h s.xi s.v).2.1 := by
    split
    · next ha =>
      funext x
      by_cases hx : x = E.idx h
      · rw [hx, Function.update_self]
      · rw [Function.update_of_ne hx]
        exact (ho ha _ _ _ _ _ hx).symm
    · rfl
  unfold Env.step
  simp only
  split
  · split
    · exact Or.inl ⟨hnew, rfl, rfl⟩
    · exact Or.inl ⟨hnew, rfl, rfl⟩
  · split
    · exact Or.inl ⟨rfl, rfl, rfl⟩
    · exact Or.inr ⟨rfl, rfl, rfl⟩

/-- Which random numbers lead to acceptance. -/
theorem C57_accept_iff (E : Env ℝ ι σ N) (he : E.exp = Real.exp) (T : ℝ) (hT : 0 < T) (s : Annealing.St ℝ ι σ N) (h : Fin N) (u : ℝ)
    (hu : u < 1) :
    ((withDraw E u).step T s h).naccept h = s.naccept h + 1 ↔ u < metropolis T s.f (E.obj (E.move s.rng h s.xi s.v).2.1) := by
  unfold metropolis Env.step
  simp only [withDraw, he]
  have e : ∀ a b : ℝ, (a - b) / T = -(b - a) / T := fun a b => by ring
  rw [e]
  split
  · next hle =>
    have h1 : (1 : ℝ) ≤ Real.exp (-(E.obj (E.move s.rng h s.xi s.v).2.1 - s.f) / T) := by
      rw [Real.one_le_exp_iff]
      exact div_nonneg (by linarith) hT.le
    rw [min_eq_left h1]
    refine ⟨fun _ => hu, fun _ => ?_⟩
    split
    · exact Function.update_self ..
    · exact Function.update_self ..
  · split
    · next hlt =>
      refine ⟨fun _ => lt_min hu hlt, fun _ => Function.update_self ..⟩
    · next hge =>
      refine ⟨fun h' => ?_, fun h' => absurd (h'.trans_le (min_le_right _ _)) hge⟩
      have : s.naccept h = s.naccept h + 1 := h'
      omega

/-- **C57.** For a random number equally distributed in `[0, 1)`, a trial step is accepted with the Metropolis probability. -/
theorem C57_metropolis (E : Env ℝ ι σ N) (he : E.exp = Real.exp) (T : ℝ) (hT : 0 < T) (s : Annealing.St ℝ ι σ N) (h : Fin N) :
    volume {u ∈ Set.Ico (0 : ℝ) 1 | ((withDraw E u).step T s h).naccept h = s.naccept h + 1} =
      ENNReal.ofReal (metropolis T s.f (E.obj (E.move s.rng h s.xi s.v).2.1)) := by
  have hset : {u ∈ Set.Ico (0 : ℝ) 1 | ((withDraw E u).step T s h).naccept h = s.naccept h + 1} =
      Set.Ico 0 (metropolis T s.f (E.obj (E.move s.rng h s.xi s.v).2.1)) := by
    ext u
    simp only [Set.mem_ofPred_eq, Set.mem_Ico]
    constructor
    · rintro ⟨⟨h0, h1⟩, h2⟩
      exact ⟨h0, (C57_accept_iff E he T hT s h u h1).1 h2⟩
    · rintro ⟨h0, h1⟩
      have h2 : u < 1 := h1.trans_le (min_le_left _ _)
      exact ⟨⟨h0, h2⟩, (C57_accept_iff E he T hT s h u h2).2 h1⟩
  rw [hset, Real.volume_Ico, sub_zero]

/-- Steps which do not increase the objective are always accepted. -/
theorem C57_downhill (E : Env ℝ ι σ N) (he : E.exp = Real.exp) (T : ℝ) (hT : 0 < T) (s : Annealing.St ℝ ι σ N) (h : Fin N)
    (hle : E.obj (E.move s.rng h s.xi s.v).2.1 ≤ s.f) (u : ℝ) (hu : u < 1) :
    ((withDraw E u).step T s h).naccept h = s.naccept h + 1 := by
  rw [C57_accept_iff E he T hT s h u hu, metropolis, min_eq_left]
  · exact hu
  · rw [Real.one_le_exp_iff]
    exact div_nonneg (by linarith) hT.le

/-- A step from value 1 to value 3 at temperature 2. -/
noncomputable def climbEnv : Env ℝ (Fin 1) Nat 1 where
  obj := fun x => x 0
  idx := fun _ => 0
  move := fun s _ xi v => (s + 1, (fun _ => xi 0 + 2), v)
  apot := true
  draw := fun s => (s + 1, 0)
  exp := Real.exp
  log := Real.log
  flag := fun _ => false

/-- It is accepted with probability `1 / e`. -/
example : volume {u ∈ Set.Ico (0 : ℝ) 1 |
      ((withDraw climbEnv u).step 2 ⟨fun _ => 1, 1, fun _ => 1, 1, fun _ => 1, fun _ => 4, 0, 0, []⟩ 0).naccept 0 = 4 + 1} =
    ENNReal.ofReal (Real.exp (-1)) := by
  rw [C57_metropolis climbEnv rfl 2 (by norm_num)]
  unfold metropolis
  congr 1
  show min 1 (Real.exp (-(1 + 2 - 1) / 2)) = _
  rw [min_eq_right]
  · congr 1; norm_num
  · rw [Real.exp_le_one_iff]; norm_num

end Verif.Props
