/-
C04  Spline set-up never divides by zero and yields the C2 spline (equidistant tables).
-/
import Verif.Lemmas.Splines
import Mathlib.Data.Rat.Lemmas
import Mathlib.Algebra.Order.Ring.Rat
import Mathlib.Tactic.NormNum

namespace Verif.Props

open Verif.Splines Verif.Spec Polynomial

variable {K : Type*} [Field K] [LinearOrder K] [IsStrictOrderedRing K]

/-- For every equidistant table with at least two knots and positive spacing and for both kinds of
end condition at both ends, `spline_ed` performs no division by zero and the second derivatives it
stores are those of the interpolating cubic spline with these end conditions. -/
theorem C04_spline_ed (x0 h : K) (hh : 0 < h) (y : ℕ → K) (n : ℕ) (hn : 2 ≤ n) (yp1 ypn : K) :
    ∃ (m : ℕ → K) (p : ℕ → K[X]),
      (∀ k, k < n → splineEd h y n yp1 ypn k = .ok (m k)) ∧
      IsSpline (fun k => x0 + k * h) y m n (endCond yp1) (endCond ypn) p := by
  have hx : ∀ k, k + 1 < n → x0 + (k : K) * h < x0 + ((k + 1 : ℕ) : K) * h := by
    intro k _
    push_cast
    linarith
  refine ⟨second (fun k => x0 + k * h) y n yp1 ypn, _, ?_,
    second_isSpline (fun k => x0 + k * h) y yp1 ypn n hn hx⟩
  intro k _
  unfold splineEd
  rw [edBack_eq_neBack x0 h hh.ne' y yp1 ypn n hn]
  exact neBack_ok (fun k => x0 + k * h) y yp1 ypn n hn hx _

/-- A table of four points with slope 0 on the left and a natural right end. -/
example : (0 : ℚ) < 1 / 2 ∧ 2 ≤ 4 ∧
    splineEd (1 / 2 : ℚ) (fun k => if k = 1 then 1 else 0) 4 0 (10 ^ 30) 3 = .ok 0 ∧
    splineEd (1 / 2 : ℚ) (fun k => if k = 1 then 1 else 0) 4 0 (10 ^ 30) 0 = .ok (288 / 13) := by
  refine ⟨by norm_num, by norm_num, by decide +kernel, by decide +kernel⟩

end Verif.Props
