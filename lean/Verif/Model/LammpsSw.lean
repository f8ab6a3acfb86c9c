/-
Stillinger-Weber potentials: functions used by `src/force_stiweb.c` and the parameters written by `src/potential_output_lammps.c` 137-171.
Simplifications: real numbers; the values are taken before they are printed with `%g` (6 digits); `double x[2] = {neigh_j->r, x[0]}` in
`src/force_stiweb.c` 171 is taken to mean twice the distance, although C does not fix the order of these two.
-/
import Verif.Model.Basic
import Verif.Model.PairIndex
import Mathlib.Analysis.SpecialFunctions.Pow.Real

namespace Verif.LammpsSw

open Verif.PairIndex

/-- The fitted parameters: for each pair column `A B p q delta a1` and `gamma a2`, and `lambda` for each triple of types. -/
structure Sw where
  A : Nat → ℝ
  B : Nat → ℝ
  p : Nat → ℝ
  q : Nat → ℝ
  delta : Nat → ℝ
  a1 : Nat → ℝ
  gamma : Nat → ℝ
  a2 : Nat → ℝ
  lam : Nat → Nat → Nat → ℝ

/-- Pair energy, `src/force_stiweb.c` 169-180. -/
noncomputable def v2 (s : Sw) (col : Nat) (r : ℝ) : ℝ :=
  if r < s.a1 col then
    let phiR := s.A col * r ^ (-s.p col)
    let phiA := -s.B col * r ^ (-s.q col)
    let invC := 1 / (r - s.a1 col)
    (phiR + phiA) * Real.exp (s.delta col * invC)
  else 0

/-- `neigh->f` inside of the cutoff, `src/force_stiweb.c` 222-232. -/
noncomputable def f (s : Sw) (col : Nat) (r : ℝ) : ℝ :=
  let tmp := r - s.a2 col
  if tmp < -0.01 * s.gamma col then Real.exp (s.gamma col * (1 / tmp)) else 0

/-- Energy of a triple with central atom of type `i`, `src/force_stiweb.c` 244-262. -/
noncomputable def v3 (s : Sw) (n i j k : Nat) (rj rk cos : ℝ) : ℝ :=
  if rj < s.a2 (pairCol n i j) then
    let lambda := s.lam i j k
    if lambda = 0 then 0
    else if rk < s.a2 (pairCol n i k) then
      let tmp := cos + 1 / 3
      lambda * f s (pairCol n i j) rj * f s (pairCol n i k) rk * tmp * tmp
    else 0
  else 0

/-- One line of the parameter file of LAMMPS. -/
structure Entry where
  epsilon : ℝ
  sigma : ℝ
  a : ℝ
  lambda : ℝ
  gamma : ℝ
  costheta0 : ℝ
  A : ℝ
  B : ℝ
  p : ℝ
  q : ℝ
  tol : ℝ

/-- The line for the types `i j k`, `src/potential_output_lammps.c` 139-171. -/
noncomputable def entry (s : Sw) (n i j k : Nat) : Except Fault Entry := do
  let col := pairCol n i j
  let epsilon : ℝ := 1
  let sigma := s.delta col
  let scaleP ← cdiv 1 (epsilon * sigma ^ s.p col)
  let scaleQ ← cdiv 1 (epsilon * sigma ^ s.q col)
  let a ← cdiv (s.a1 col) sigma
  let lambda ← cdiv (s.lam i j k) epsilon
  let gamma ← cdiv (s.gamma col) sigma
  let b ← cdiv (s.A col * scaleP) (s.B col)
  let b ← cdiv b scaleQ
  pure ⟨epsilon, sigma, a, lambda, gamma, -1 / 3, s.B col * scaleQ, b, s.p col, s.q col, 0⟩

end Verif.LammpsSw
