/-
The functions of the Stillinger-Weber potential as computed in `src/force_stiweb.c` 163-227.

Simplifications: doubles are real numbers, `power_m` and `exp` the real functions.  The parameters are those the
pointers of `update_stiweb_pointers` lead to (`Model/Pointers.lean`).
-/
import Verif.Model.ThreeBody
import Mathlib.Analysis.SpecialFunctions.Pow.Real

namespace Verif.Force

/-- Parameters of a column and the strengths of the angles. -/
structure SwPars where
  A : Nat → ℝ
  B : Nat → ℝ
  p : Nat → ℝ
  q : Nat → ℝ
  delta : Nat → ℝ
  a1 : Nat → ℝ
  gamma : Nat → ℝ
  a2 : Nat → ℝ
  lambda : Nat → Nat → Nat → ℝ

/-- `v2_val`, 167-175. -/
noncomputable def swV2 (s : SwPars) (col : Nat) (r : ℝ) : ℝ :=
  (s.A col * r ^ (-s.p col) + -s.B col * r ^ (-s.q col)) * Real.exp (s.delta col * (1 / (r - s.a1 col)))

/-- `v2_grad`, 178-181. -/
noncomputable def swV2Grad (s : SwPars) (col : Nat) (r : ℝ) : ℝ :=
  -swV2 s col r * s.delta col * (1 / (r - s.a1 col)) * (1 / (r - s.a1 col)) -
    Real.exp (s.delta col * (1 / (r - s.a1 col))) * (1 / r) *
      (s.p col * (s.A col * r ^ (-s.p col)) + s.q col * (-s.B col * r ^ (-s.q col)))

/-- `neigh_j->f`, 219-226, within the range `a2`. -/
noncomputable def swF3 (s : SwPars) (col : Nat) (r : ℝ) : ℝ :=
  if r - s.a2 col < -(1 / 100) * s.gamma col then Real.exp (s.gamma col * (1 / (r - s.a2 col))) else 0

/-- `neigh_j->df`. -/
noncomputable def swDf3 (s : SwPars) (col : Nat) (r : ℝ) : ℝ :=
  if r - s.a2 col < -(1 / 100) * s.gamma col then
    -Real.exp (s.gamma col * (1 / (r - s.a2 col))) * s.gamma col * (1 / (r - s.a2 col)) * (1 / (r - s.a2 col)) / r
  else 0

/-- The functions of a parameter set. -/
noncomputable def swFunctions (s : SwPars) : SwPots ℝ where
  fin := s.a1
  beg := fun _ => 0
  step := fun _ => 0
  val := swV2 s
  grad := swV2Grad s
  fin3 := s.a2
  f := swF3 s
  df := swDf3 s
  lambda := s.lambda

end Verif.Force
