/-
Shared pieces of the model.
-/
import Mathlib.Algebra.Field.Basic

namespace Verif

/-- Events that end a modelled C routine without a result.  `divZero` and `outOfColumn` are not
detected by the C code (IEEE infinity/NaN, or undefined behaviour); the model makes them visible.
`shortDistance` is the `error(1, ...)` exit of the look-up routines, `zeroCutoff` and `nanValue` those
of `update_calc_table` (`src/potential_input.c` 645, 683). -/
inductive Fault
  | divZero
  | outOfColumn
  | shortDistance
  | zeroCutoff
  | nanValue
  deriving DecidableEq, Repr

/-- Division `a / b` as it occurs in the C sources, division by zero being a fault. -/
def cdiv {K : Type*} [Field K] [DecidableEq K] (a b : K) : Except Fault K :=
  if b = 0 then .error .divZero else .ok (a / b)

theorem cdiv_ok {K : Type*} [Field K] [DecidableEq K] {a b : K} (h : b ≠ 0) :
    cdiv a b = .ok (a / b) := if_neg h

end Verif
