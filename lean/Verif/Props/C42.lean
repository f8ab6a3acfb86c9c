/-
C42  Short-range dipole damping.
-/
import Verif.Model.Tails
import Mathlib.Analysis.SpecialFunctions.ExpDeriv
import Mathlib.Analysis.Calculus.Deriv.Pow
import Mathlib.Algebra.BigOperators.Fin
import Mathlib.Tactic.FieldSimp
import Mathlib.Tactic.NormNum

namespace Verif.Props

open Verif.Tails

/-- The damping function of the literature: `c exp(-b r) (sum of (b r)^k / k!, k = 0..4)`, in units of `DP_EPS`. -/
noncomputable def damping (b c r : ℝ) : ℝ :=
  c * (∑ k ∈ Finset.range 5, (b * r) ^ k / (k.factorial : ℝ)) * Real.exp (-(b * r)) / dpEps

theorem damping_eq (b c r : ℝ) : (shortrangeTerm r b c).1 = damping b c r := by
  unfold shortrangeTerm damping
  simp only [Finset.sum_range_succ, Finset.sum_range_zero, Nat.factorial]
  push_cast
  ring

/-- **C42.** The returned gradient is the derivative of the returned value divided by the distance; the value is the damping function
of the literature, and the induced short-range moment is the value times `a`. -/
theorem C42_consistent (r b c : ℝ) (hr : r ≠ 0) :
    HasDerivAt (fun r => (shortrangeTerm r b c).1) (r * (shortrangeTerm r b c).2) r ∧
    (shortrangeTerm r b c).1 = damping b c r ∧ ∀ a, shortrangeValue r a b c = a * (shortrangeTerm r b c).1 := by
  refine ⟨?_, damping_eq b c r, ?_⟩
  · have h0 : HasDerivAt (fun r : ℝ => b * r) b r := by simpa using (hasDerivAt_id r).const_mul b
    have h1 : HasDerivAt (fun r : ℝ => b * r * (b * r)) (2 * b ^ 2 * r) r :=
      (h0.mul h0).congr_deriv (by ring)
    have h2 : HasDerivAt (fun r : ℝ => b * r * (b * r) * (b * r)) (3 * b ^ 3 * r ^ 2) r :=
      (h1.mul h0).congr_deriv (by ring)
    have h3 : HasDerivAt (fun r : ℝ => b * r * (b * r) * (b * r * (b * r))) (4 * b ^ 4 * r ^ 3) r :=
      (h1.mul h1).congr_deriv (by ring)
    have h4 := ((((hasDerivAt_const r (1 : ℝ)).add h0).add (h1.div_const 2)).add (h2.div_const 6)).add (h3.div_const 24)
    have h5 := (((h4.const_mul c).mul h0.neg.exp)).div_const dpEps
    refine HasDerivAt.congr_deriv (f := fun r => (shortrangeTerm r b c).1) h5 ?_
    unfold shortrangeTerm
    simp only [Pi.add_apply, Pi.mul_apply]
    have : dpEps ≠ 0 := by unfold dpEps; norm_num
    field_simp
    simp only [Pi.add_apply, Pi.neg_apply]
    ring
  · intro a
    unfold shortrangeValue shortrangeTerm
    simp only
    ring

example : HasDerivAt (fun r => (shortrangeTerm r 1 2).1) (3 * (shortrangeTerm 3 1 2).2) 3 ∧ (shortrangeTerm 3 1 2).2 ≠ 0 := by
  refine ⟨(C42_consistent 3 1 2 (by norm_num)).1, ?_⟩
  unfold shortrangeTerm dpEps
  simp only
  have := (Real.exp_pos (-(1 * 3))).ne'
  refine div_ne_zero (mul_ne_zero (by norm_num) this) (by norm_num)

end Verif.Props
