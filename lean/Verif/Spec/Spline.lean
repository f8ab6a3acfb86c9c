/-
Specification of interpolating cubic splines, in terms of polynomials.
-/
import Mathlib.Algebra.Polynomial.Derivative
import Mathlib.Algebra.Polynomial.Degree.Defs

namespace Verif.Spec

open Polynomial

/-- Condition at one end of a spline. -/
inductive EndCond (K : Type*)
  /-- vanishing second derivative -/
  | natural
  /-- prescribed first derivative -/
  | slope (s : K)

variable {K : Type*} [Field K]

/-- The polynomial `p` satisfies the end condition at `x`. -/
def EndCond.Holds : EndCond K → K[X] → K → Prop
  | .natural, p, x => (derivative (derivative p)).eval x = 0
  | .slope s, p, x => (derivative p).eval x = s

/-- potfit's convention for end slopes: a value above `0.99e30` asks for the natural condition. -/
def endCond [LinearOrder K] (yp : K) : EndCond K :=
  if yp > 99 * 10 ^ 28 then .natural else .slope yp

/-- `p 0, …, p (n-2)` are cubic polynomials; `p k` belongs to the interval `[x k, x (k+1)]` and has
the given values `y` and second derivatives `m` at both ends of it. -/
structure IsPiecewiseCubic (x y m : ℕ → K) (n : ℕ) (p : ℕ → K[X]) : Prop where
  cubic : ∀ k, k + 1 < n → (p k).natDegree ≤ 3
  interp_left : ∀ k, k + 1 < n → (p k).eval (x k) = y k
  interp_right : ∀ k, k + 1 < n → (p k).eval (x (k + 1)) = y (k + 1)
  curv_left : ∀ k, k + 1 < n → (derivative (derivative (p k))).eval (x k) = m k
  curv_right : ∀ k, k + 1 < n → (derivative (derivative (p k))).eval (x (k + 1)) = m (k + 1)

/-- `p 0, …, p (n-2)` are the pieces of the interpolating cubic spline through the points
`(x 0, y 0), …, (x (n-1), y (n-1))` with second derivatives `m 0, …, m (n-1)` at the knots:
cubics, interpolating at both ends of their interval, with matching first and second derivatives at
interior knots and with the two end conditions. -/
structure IsSpline (x y m : ℕ → K) (n : ℕ) (left right : EndCond K) (p : ℕ → K[X]) : Prop extends
    IsPiecewiseCubic x y m n p where
  smooth : ∀ k, k + 2 < n →
    (derivative (p k)).eval (x (k + 1)) = (derivative (p (k + 1))).eval (x (k + 1))
  left_end : left.Holds (p 0) (x 0)
  right_end : right.Holds (p (n - 2)) (x (n - 1))

end Verif.Spec
