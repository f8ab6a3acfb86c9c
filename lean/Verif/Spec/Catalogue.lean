/-
The description of the analytic functions that comes with the program: `util/potfit/functions.py` 87-511, used by `makeapot` to write
potential files and by `plotapot` to draw them.  Number of parameters in the order in which they are written to the file, and formula in
the distance `x`.  The variable `r` in the formulas of `gen_lj` and `gljm` is taken to be `x` (in `poly_5` also, with `{4}` for `{5}`).
-/
import Verif.Model.Catalogue

namespace Verif.Spec

open Verif.Catalogue

/-- What is said about a function. -/
structure Described where
  nPar : Nat
  formula : Option (ℝ → (Nat → ℝ) → ℝ)

/-- `util/potfit/functions.py`. -/
noncomputable def described : Fn → Option Described
  | .const => some ⟨1, some fun _ p => p 0⟩
  | .lj => some ⟨2, some fun x p => 4 * p 0 * ((p 1 / x) ^ 12 - (p 1 / x) ^ 6)⟩
  | .morse => some ⟨3, some fun x p => p 0 * ((1 - Real.exp (-p 1 * (x - p 2))) ^ 2 - 1)⟩
  | .power => some ⟨2, some fun x p => p 0 * x ^ p 1⟩
  | .softshell => some ⟨2, some fun x p => (p 0 / x) ^ p 1⟩
  | .powerDecay => some ⟨2, some fun x p => p 0 * (1 / x) ^ p 1⟩
  | .expDecay => some ⟨2, some fun x p => p 0 * Real.exp (-p 1 * x)⟩
  | .mexpDecay => some ⟨3, some fun x p => p 0 * Real.exp (-p 1 * (x - p 2))⟩
  | .expPlus => some ⟨3, some fun x p => p 0 * Real.exp (-p 1 * x) + p 2⟩
  | .sqrt => some ⟨2, some fun x p => p 0 * √(x / p 1)⟩
  | .born => some ⟨5, some fun x p => p 0 * Real.exp ((p 4 - x) / p 1) - p 2 / x ^ 6 + p 3 / x ^ 8⟩
  | .harmonic => some ⟨2, some fun x p => p 0 * (x - p 1) ^ 2⟩
  | .acosharmonic => some ⟨2, some fun x p => p 0 * (Real.arccos x - p 1) ^ 2⟩
  | .eopp => some ⟨6, some fun x p => p 0 / x ^ p 1 + p 2 / x ^ p 3 * Real.cos (p 4 * x + p 5)⟩
  | .meopp => some ⟨7, some fun x p => p 0 / (x - p 6) ^ p 1 + p 2 / x ^ p 3 * Real.cos (p 4 * x + p 5)⟩
  | .eoppExp => some ⟨6, some fun x p => p 0 * Real.exp (-p 1 * x) + p 2 / x ^ p 3 * Real.cos (p 4 * x + p 5)⟩
  | .ms => some ⟨3, some fun x p => p 0 * (Real.exp (p 1 * (1 - x / p 2)) - 2 * Real.exp (p 1 / 2 * (1 - x / p 2)))⟩
  | .strmm => some ⟨5, some fun x p => 2 * p 0 * Real.exp (-p 1 * (x - p 4) / 2) -
      p 2 * (1 + p 3 * (x - p 4) * Real.exp (-p 3 * (x - p 4)))⟩
  | .doubleMorse => some ⟨7, some fun x p => p 0 * (Real.exp (-2 * p 1 * (x - p 2)) - 2 * Real.exp (-p 1 * (x - p 2))) +
      p 3 * (Real.exp (-2 * p 4 * (x - p 5)) - 2 * Real.exp (-p 4 * (x - p 5))) + p 6⟩
  | .doubleExp => some ⟨5, some fun x p => p 0 * Real.exp (-p 1 * (x - p 2) ^ 2) + Real.exp (-p 3 * (x - p 4))⟩
  | .poly5 => some ⟨5, some fun x p => p 0 + 0.5 * p 1 * (x - 1) ^ 2 + p 2 * (x - 1) ^ 3 + p 3 * (x - 1) ^ 4 + p 4 * (x - 1) ^ 5⟩
  | .buck => some ⟨3, some fun x p => p 0 * Real.exp (-x / p 1) - p 2 * (p 1 / x) ^ 6⟩
  | .kawamura => some ⟨9, some fun x p => p 0 * p 1 / x + p 2 * (p 5 + p 6) * Real.exp ((p 3 + p 4 - x) / (p 5 + p 6)) -
      p 7 * p 8 / x ^ 6⟩
  | .kawamuraMix => some ⟨12, some fun x p => p 0 * p 1 / x + p 2 * (p 5 + p 6) * Real.exp ((p 3 + p 4 - x) / (p 5 + p 6)) -
      p 7 * p 8 / x ^ 6 + p 2 * p 9 * (Real.exp (-2 * p 10 * (x - p 11)) - 2 * Real.exp (-p 10 * (x - p 11)))⟩
  | .mishin => some ⟨6, some fun x p => p 0 * (x - p 3) ^ p 4 * Real.exp (-p 5 * (x - p 3)) *
      (1 + p 1 * Real.exp (-p 5 * (x - p 3))) + p 2⟩
  | .genLj => some ⟨5, some fun x p => p 0 / (p 2 - p 1) * (p 2 / (x / p 3) ^ p 1 - p 1 / (x / p 3) ^ p 2) + p 4⟩
  | .gljm => some ⟨11, some fun x p => p 0 / (p 2 - p 1) * (p 2 / (x / p 3) ^ p 1 - p 1 / (x / p 3) ^ p 2) + p 4 +
      p 5 * (p 6 * (x - p 9) ^ p 10 * Real.exp (-p 11 * (x - p 9)) * (1 + p 7 * Real.exp (-p 11 * (x - p 9))) + p 8)⟩
  | .vas => some ⟨2, some fun x p => Real.exp (p 0 / (x - p 1))⟩
  | .vpair => some ⟨7, some fun x p => 14.4 * (p 0 / x ^ p 1 - (p 4 * p 3 * p 3 + p 5 * p 2 * p 2) / x ^ 4 * Real.exp (-x / p 6))⟩
  | .universal => some ⟨4, some fun x p => p 0 * (p 2 / (p 2 - p 1) * x ^ p 1 - p 1 / (p 2 - p 1) * x ^ p 2) + p 3 * x⟩
  | .bjs => some ⟨3, some fun x p => p 0 * (1 - p 1 * Real.log x) * x ^ p 1 + p 2⟩
  | .parabola => some ⟨3, some fun x p => p 0 * x ^ 2 + p 1 * x + p 2⟩
  | .csw => some ⟨4, some fun x p => (1 + p 0 * Real.cos (p 2 * x) + p 1 * Real.sin (p 2 * x)) / x ^ p 3⟩
  | .csw2 => some ⟨4, some fun x p => (1 + p 0 * Real.cos (p 1 * x + p 2)) / x ^ p 3⟩
  | .tersoffPot => some ⟨11, none⟩
  | .tersoffMix => some ⟨2, none⟩
  | .stiweb2 => some ⟨6, none⟩
  | .stiweb3 => some ⟨2, none⟩
  | _ => none

end Verif.Spec
