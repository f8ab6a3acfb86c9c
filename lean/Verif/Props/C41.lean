/-
C41  The shifted Morse-stretch and Buckingham potentials at the cutoff.
-/
import Verif.Model.Tails
import Mathlib.Analysis.SpecialFunctions.ExpDeriv
import Mathlib.Analysis.Calculus.Deriv.Inv
import Mathlib.Analysis.Calculus.Deriv.Pow
import Mathlib.Analysis.Complex.ExponentialBounds
import Mathlib.Tactic.FieldSimp
import Mathlib.Tactic.LinearCombination
import Mathlib.Tactic.Linarith

namespace Verif.Props

open Verif.Tails

/-- The Morse-stretch potential. -/
noncomputable def ms (p0 p1 p2 r : ℝ) : ℝ := p0 * (Real.exp (p1 * (1 - r / p2)) - 2 * Real.exp (p1 * (1 - r / p2) / 2))

/-- Its slope. -/
noncomputable def ms' (p0 p1 p2 r : ℝ) : ℝ :=
  p0 * p1 / p2 * (-Real.exp (p1 * (1 - r / p2)) + Real.exp (p1 * (1 - r / p2) / 2))

/-- The Buckingham potential. -/
noncomputable def buck (p0 p1 p2 r : ℝ) : ℝ := p0 * Real.exp (-r / p1) - p2 * (p1 ^ 6 / r ^ 6)

/-- Its slope. -/
noncomputable def buck' (p0 p1 p2 r : ℝ) : ℝ := -p0 / p1 * Real.exp (-r / p1) + 6 * p2 * (p1 ^ 6 / r ^ 7)

theorem ms_hasDerivAt (p0 p1 p2 r : ℝ) : HasDerivAt (ms p0 p1 p2) (ms' p0 p1 p2 r) r := by
  have h1 : HasDerivAt (fun r : ℝ => p1 * (1 - r / p2)) (-(p1 / p2)) r := by
    refine ((((hasDerivAt_id r).div_const p2).const_sub 1).const_mul p1).congr_deriv ?_
    ring
  have h2 : HasDerivAt (fun r : ℝ => p1 * (1 - r / p2) / 2) (-(p1 / p2) / 2) r := h1.div_const 2
  have h3 := (h1.exp.sub (h2.exp.const_mul 2)).const_mul p0
  refine HasDerivAt.congr_deriv (f := ms p0 p1 p2) h3 ?_
  unfold ms'
  ring

theorem buck_hasDerivAt (p0 p1 p2 r : ℝ) (hr : r ≠ 0) : HasDerivAt (buck p0 p1 p2) (buck' p0 p1 p2 r) r := by
  have h1 : HasDerivAt (fun r : ℝ => -r / p1) (-1 / p1) r := ((hasDerivAt_id r).neg).div_const p1
  have h2 : HasDerivAt (fun r : ℝ => p1 ^ 6 / r ^ 6) ((0 * r ^ 6 - p1 ^ 6 * ((6 : ℕ) * r ^ 5 * 1)) / (r ^ 6) ^ 2) r :=
    (hasDerivAt_const r (p1 ^ 6)).div ((hasDerivAt_id r).pow 6) (pow_ne_zero 6 hr)
  have h3 := (h1.exp.const_mul p0).sub (h2.const_mul p2)
  refine HasDerivAt.congr_deriv (f := buck p0 p1 p2) h3 ?_
  have h4 : ∀ q : ℝ, (0 * r ^ 6 - q * ((6 : ℕ) * r ^ 5 * 1)) / (r ^ 6) ^ 2 = -(6 * (q / r ^ 7)) := by
    intro q
    push_cast
    field_simp
    ring
  rw [h4]
  unfold buck'
  ring

/-- **C41, value.** Both potentials vanish at the electrostatic cutoff. -/
theorem C41_value (cut p0 p1 p2 : ℝ) : msValue cut cut p0 p1 p2 = 0 ∧ buckValue cut cut p0 p1 p2 = 0 := by
  unfold msValue buckValue
  simp

/-- **C41, slope, what holds.** The slope of the implemented `ms` at the cutoff is the slope of the unshifted potential times
`1 - 1 / cut`, that of `buck` the slope of the unshifted potential times `1 - cut`.  For the full claim both would have to be 0
(`C41_ms_violated`, `C41_buck_violated`): the shift of `ms` lacks a factor `r`, that of `buck` has one too many. -/
theorem C41_slope_partial (cut p0 p1 p2 : ℝ) (hc : cut ≠ 0) :
    HasDerivAt (fun r => msValue cut r p0 p1 p2) (ms' p0 p1 p2 cut * (1 - 1 / cut)) cut ∧
    HasDerivAt (fun r => buckValue cut r p0 p1 p2) (buck' p0 p1 p2 cut * (1 - cut)) cut := by
  constructor
  · have hpot : (fun r => (msInit r p0 p1 p2).1) = ms p0 p1 p2 := rfl
    have hgrad : (msInit cut p0 p1 p2).2 = ms' p0 p1 p2 cut / cut := by
      unfold msInit ms'
      simp only
      rw [mul_comm cut p2, ← div_div]
      ring
    have h1 := ms_hasDerivAt p0 p1 p2 cut
    rw [← hpot] at h1
    have h2 := (h1.sub_const (msInit cut p0 p1 p2).1).sub
      (((hasDerivAt_id cut).sub_const cut).mul_const (msInit cut p0 p1 p2).2)
    refine HasDerivAt.congr_deriv (f := fun r => msValue cut r p0 p1 p2) h2 ?_
    rw [hgrad]
    ring
  · have hpot : (fun r => (buckInit r p0 p1 p2).1) = buck p0 p1 p2 := by
      funext r
      unfold buckInit buck
      simp only
      congr 1
      rw [mul_assoc, mul_assoc, div_mul_div_comm, div_mul_div_comm]
      congr 2
      · ring
      · ring
    have hgrad : (buckInit cut p0 p1 p2).2 = buck' p0 p1 p2 cut := by
      unfold buckInit buck'
      simp only
      congr 1
      · ring
      · field_simp
    have h1 := buck_hasDerivAt p0 p1 p2 cut hc
    rw [← hpot] at h1
    have h2 := (h1.sub_const (buckInit cut p0 p1 p2).1).sub
      (((hasDerivAt_id cut).mul ((hasDerivAt_id cut).sub_const cut)).mul_const (buckInit cut p0 p1 p2).2)
    refine HasDerivAt.congr_deriv (f := fun r => buckValue cut r p0 p1 p2) h2 ?_
    rw [hgrad]
    simp only [id]
    ring

/-- **C41, exact condition.** The slopes vanish only if the unshifted potential is flat at the cutoff or the cutoff radius is 1. -/
theorem C41_slope_iff (cut p0 p1 p2 : ℝ) (hc : cut ≠ 0) :
    (HasDerivAt (fun r => msValue cut r p0 p1 p2) 0 cut ↔ ms' p0 p1 p2 cut = 0 ∨ cut = 1) ∧
    (HasDerivAt (fun r => buckValue cut r p0 p1 p2) 0 cut ↔ buck' p0 p1 p2 cut = 0 ∨ cut = 1) := by
  obtain ⟨h1, h2⟩ := C41_slope_partial cut p0 p1 p2 hc
  have e1 : 1 - 1 / cut = 0 ↔ cut = 1 := by
    rw [sub_eq_zero, eq_comm, div_eq_iff hc, one_mul, eq_comm]
  have e2 : 1 - cut = 0 ↔ cut = 1 := by
    rw [sub_eq_zero, eq_comm]
  constructor
  · rw [← e1, ← mul_eq_zero]
    exact ⟨fun h => (h.unique h1).symm, fun h => by rw [h] at h1; exact h1⟩
  · rw [← e2, ← mul_eq_zero]
    exact ⟨fun h => (h.unique h2).symm, fun h => by rw [h] at h2; exact h2⟩

/-- **C41, slope of `ms`: violated.** Depth 1, steepness 2, minimum at 2, cutoff 4. -/
theorem C41_ms_violated : ¬HasDerivAt (fun r => msValue 4 r 1 2 2) 0 4 := by
  rw [(C41_slope_iff 4 1 2 2 (by norm_num)).1]
  rintro (h | h)
  · unfold ms' at h
    norm_num at h
    have : Real.exp (-2) < Real.exp (-1) := Real.exp_lt_exp.2 (by norm_num)
    linarith
  · norm_num at h

/-- **C41, slope of `buck`: violated.** Amplitude 0, range 1, dispersion 1, cutoff 2: a pure dispersion term. -/
theorem C41_buck_violated : ¬HasDerivAt (fun r => buckValue 2 r 0 1 1) 0 2 := by
  rw [(C41_slope_iff 2 0 1 1 (by norm_num)).2]
  rintro (h | h)
  · unfold buck' at h
    norm_num at h
  · norm_num at h

end Verif.Props
