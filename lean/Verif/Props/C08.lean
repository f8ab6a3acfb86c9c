/-
C08  General-knot spline set-up solves the general spline system.
-/
import Verif.Lemmas.Splines
import Mathlib.Algebra.Order.Ring.Rat
import Mathlib.Tactic.NormNum

namespace Verif.Props

open Verif.Splines Verif.Spec Polynomial

variable {K : Type*} [Field K] [LinearOrder K] [IsStrictOrderedRing K]

/-- For strictly increasing knots and both kinds of end condition at both ends, `spline_ne` performs
no division by zero and stores the second derivatives of the interpolating cubic spline. -/
theorem C08_spline_ne (x y : ℕ → K) (n : ℕ) (hn : 2 ≤ n) (hx : ∀ k, k + 1 < n → x k < x (k + 1))
    (yp1 ypn : K) :
    ∃ (m : ℕ → K) (p : ℕ → K[X]),
      (∀ k, k < n → splineNe x y n yp1 ypn k = .ok (m k)) ∧
      IsSpline x y m n (endCond yp1) (endCond ypn) p :=
  ⟨second x y n yp1 ypn, _, fun _ _ => neBack_ok x y yp1 ypn n hn hx _,
    second_isSpline x y yp1 ypn n hn hx⟩

example : (∀ k : ℕ, k + 1 < 4 → ((k : ℚ) * k) < ((k + 1 : ℕ) : ℚ) * (k + 1 : ℕ)) ∧
    splineNe (fun k => (k : ℚ) * k) (fun k => (k : ℚ)) 4 (10 ^ 30) (10 ^ 30) 1
      = .ok (-(44 / 85)) := by
  refine ⟨fun k _ => by push_cast; nlinarith [(Nat.cast_nonneg k : (0 : ℚ) ≤ (k : ℕ))], ?_⟩
  decide +kernel

end Verif.Props
