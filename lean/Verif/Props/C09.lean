/-
C09  Knot search terminates and brackets the argument.
-/
import Verif.Lemmas.SplineEval
import Mathlib.Data.Rat.Floor
import Mathlib.Algebra.Order.Ring.Rat
import Mathlib.Tactic.NormNum

set_option linter.unusedSectionVars false

namespace Verif.Props

open Verif.Splines

variable {K : Type*} [Field K] [LinearOrder K] [IsStrictOrderedRing K]

/-- The search returns two adjacent entries of the column, whatever the table contains.
(Termination: `bisect` is a total function with decreasing measure `khi - klo`.) -/
theorem C09_adjacent (x : ℕ → K) (r : K) (first last : ℕ) (h : first < last) :
    (bisect x r first last).2 = (bisect x r first last).1 + 1 ∧
    first ≤ (bisect x r first last).1 ∧ (bisect x r first last).2 ≤ last := by
  obtain ⟨a, b, c, -, -⟩ := bisect_spec x r first last h
  exact ⟨a, b, c⟩

/-- For an argument inside the table the returned interval contains it: `x[klo] <= r < x[khi]`,
or `r` is the very last knot.  No ordering of the knots is needed. -/
theorem C09_brackets (x : ℕ → K) (r : K) (first last : ℕ) (h : first < last)
    (h1 : x first ≤ r) (h2 : r ≤ x last) :
    x (bisect x r first last).1 ≤ r ∧ r ≤ x (bisect x r first last).2 ∧
      (r < x last → r < x (bisect x r first last).2) := by
  obtain ⟨-, -, -, d, e⟩ := bisect_spec x r first last h
  refine ⟨?_, ?_, ?_⟩
  · rcases d with d | d
    · exact d
    · rw [d]; exact h1
  · rcases e with e | e
    · exact e.le
    · rw [e]; exact h2
  · intro h3
    rcases e with e | e
    · exact e
    · rw [e]; exact h3

example : (3 : ℕ) < 7 ∧ ((3 : ℚ) * 3 ≤ 17) ∧ (17 : ℚ) ≤ 7 * 7 ∧
    bisect (fun k => (k : ℚ) * k) 17 3 7 = (4, 5) := by
  refine ⟨by norm_num, by norm_num, by norm_num, by decide +kernel⟩

/-- The number of halvings is at most the number of intervals: the search halves the range. -/
theorem C09_halves (klo khi : ℕ) (h : 1 < khi - klo) :
    (khi + klo) / 2 - klo ≤ (khi - klo + 1) / 2 ∧ khi - (khi + klo) / 2 ≤ (khi - klo + 1) / 2 := by
  omega

example : 1 < 9 - 3 := by decide

end Verif.Props
