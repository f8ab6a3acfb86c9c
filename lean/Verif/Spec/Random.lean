/-
Notions used in the statements about random numbers.
-/
import Mathlib.Data.Rat.Defs
import Mathlib.Algebra.Order.Field.Rat
import Mathlib.Order.Monotone.Defs
import Mathlib.Algebra.Order.Group.Unbundled.Abs

namespace Verif.Spec

/-- A number in [0, 1) which is a multiple of 2⁻⁵². -/
def UnitGrid (x : ℚ) : Prop := ∃ m : Nat, m < 2 ^ 52 ∧ x = (m : ℚ) / 2 ^ 52

/-- The number of bits which are set. -/
def bitCount (x : BitVec 64) : Nat := ((List.range 64).filter (fun i => x.getLsbD i)).length

/-- Rounding to doubles, in any direction: it keeps the order, and numbers with at most 53 bits are not changed. -/
structure Rounding (rd : ℚ → ℚ) : Prop where
  mono : Monotone rd
  exact : ∀ m e : Int, |m| ≤ 2 ^ 53 → -1074 ≤ e → e ≤ 900 → rd (m * 2 ^ e) = m * 2 ^ e

end Verif.Spec
