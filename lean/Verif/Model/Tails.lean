/-
Analytic pieces of `src/functions.c` and `src/functions_impl.c`: normalisation of parameters, electrostatic tails, short-range
damping, the shifted potentials `ms` and `buck`, the oscillating potentials.  Doubles are real numbers; `pow`, `exp`, `cos`, `erfc` of
the C library are the mathematical functions.
-/
import Mathlib.Analysis.SpecialFunctions.Pow.Real
import Mathlib.Analysis.SpecialFunctions.Trigonometric.Basic
import Mathlib.MeasureTheory.Integral.IntervalIntegral.Basic

namespace Verif.Tails

noncomputable section

/-! ### Electrostatics -/

/-- `erfc` of the C library, by its definition. -/
def erfc (x : ℝ) : ℝ := 1 - 2 / √Real.pi * ∫ t in (0 : ℝ)..x, Real.exp (-t ^ 2)

/-- `DP_EPS`, `src/defines.h` 54. -/
def dpEps : ℝ := 14.40

/-- Energy tail, radial force factor, and second factor. -/
structure Tail where
  fn : ℝ
  grad : ℝ
  ggrad : ℝ

/-- `elstat_value`, `src/functions.c` 414-427. -/
def elstatValue (r kappa : ℝ) : Tail :=
  let x0 := r * r
  let x1 := kappa * kappa
  let x2 := 2 * dpEps * kappa / √Real.pi
  let x3 := Real.exp (-x0 * x1)
  let ftail := dpEps * erfc (kappa * r) / r
  let gtail := -(ftail + x2 * x3) / x0
  let ggtail := (2 * x1 * x2 * x3 - gtail * 3) / x0
  ⟨ftail, gtail, ggtail⟩

/-- `elstat_shift`, 434-455; `dipole` is the compile-time option. -/
def elstatShift (dipole : Bool) (cut r kappa : ℝ) : Tail :=
  let x0 := r * r
  let x1 := cut * cut
  let x2 := x0 - x1
  let t := elstatValue r kappa
  let c := elstatValue cut kappa
  let v : Tail := ⟨t.fn - c.fn - x2 * c.grad / 2, t.grad - c.grad, 0⟩
  if dipole then ⟨v.fn - x2 * x2 * c.ggrad / 8, v.grad - x2 * c.ggrad / 2, t.ggrad - c.ggrad⟩ else v

/-- `elstat_dsf`, 464-488. -/
def elstatDsf (dipole : Bool) (cut r kappa : ℝ) : Tail :=
  let x0 := r * r
  let x1 := cut * cut
  let x2 := x0 - x1
  let t := elstatValue r kappa
  let c := elstatValue cut kappa
  let v : Tail := ⟨t.fn - c.fn - (r - cut) * c.grad * cut, t.grad - c.grad * cut / r, 0⟩
  if dipole then ⟨v.fn - x2 * x2 * c.ggrad / 8, v.grad - x2 * c.ggrad / 2, t.ggrad - c.ggrad⟩ else v

/-! ### Short-range damping -/

/-- `shortrange_value`, 523-534. -/
def shortrangeValue (r a b c : ℝ) : ℝ :=
  let x0 := b * r
  let x1 := x0 * x0
  let x2 := x1 * x0
  let x3 := x1 * x1
  let x4 := 1 + x0 + x1 / 2 + x2 / 6 + x3 / 24
  a * c * x4 * Real.exp (-x0) / dpEps

/-- `shortrange_term`, 541-555: value and gradient. -/
def shortrangeTerm (r b c : ℝ) : ℝ × ℝ :=
  let x0 := b * r
  let x1 := x0 * x0
  let x2 := x1 * x0
  let x3 := x1 * x1
  let x4 := 1 + x0 + x1 / 2 + x2 / 6 + x3 / 24
  let x5 := Real.exp (-x0)
  (c * x4 * x5 / dpEps, -c * b * x3 * x5 / (24 * dpEps * r))

/-! ### `ms` and `buck` in builds with electrostatics -/

/-- `ms_init`, `src/functions_impl.c` 92-103. -/
def msInit (r p0 p1 p2 : ℝ) : ℝ × ℝ :=
  let x0 := 1 - r / p2
  let x1 := Real.exp (p1 * x0)
  let x2 := Real.exp (p1 * x0 / 2)
  let x3 := p0 * p1 / (r * p2)
  (p0 * (x1 - 2 * x2), x3 * (-x1 + x2))

/-- `ms_value`, 105-116. -/
def msValue (cut r p0 p1 p2 : ℝ) : ℝ :=
  (msInit r p0 p1 p2).1 - (msInit cut p0 p1 p2).1 - (r - cut) * (msInit cut p0 p1 p2).2

/-- `buck_init`, 134-144. -/
def buckInit (r p0 p1 p2 : ℝ) : ℝ × ℝ :=
  let x0 := p1 * p1 / (r * r)
  let x1 := p2 * x0 * x0 * x0
  let x2 := p0 * Real.exp (-r / p1)
  (x2 - x1, -x2 / p1 + 6 * x1 / r)

/-- `buck_value`, 146-157. -/
def buckValue (cut r p0 p1 p2 : ℝ) : ℝ :=
  (buckInit r p0 p1 p2).1 - (buckInit cut p0 p1 p2).1 - r * (r - cut) * (buckInit cut p0 p1 p2).2

/-! ### Oscillating potentials and their normalisation -/

/-- `eopp_value`, 64-73, on the parameters `p[0..5]`. -/
def eoppValue (r : ℝ) (p : Nat → ℝ) : ℝ := p 0 / r ^ p 1 + p 2 / r ^ p 3 * Real.cos (p 4 * r + p 5)

/-- `csw2_value`, 333-340. -/
def csw2Value (r : ℝ) (p : Nat → ℝ) : ℝ := (1 + p 0 * Real.cos (p 1 * r + p 2)) / r ^ p 3

/-- `eopp_exp_value`, 201-208. -/
def eoppExpValue (r : ℝ) (p : Nat → ℝ) : ℝ := p 0 * Real.exp (-p 1 * r) + p 2 / r ^ p 3 * Real.cos (p 4 * r + p 5)

/-- A function name of the potential file; `n` is the number of parameters of the others. -/
inductive Fn
  | eopp
  | csw2
  | tersoffPot
  | other (n : Nat) (value : ℝ → (Nat → ℝ) → ℝ)

/-- `apot_get_num_parameters`, `src/functions.c` 108-116, with the numbers of `src/functions.itm`. -/
def Fn.nPar : Fn → Nat
  | .eopp => 6
  | .csw2 => 4
  | .tersoffPot => 11
  | .other n _ => n

/-- `do params[k] -= 2 pi; while (params[k] > 2 pi)`; `sub` is the subtraction of `2 pi`. `none`: more than `n` turns. -/
def down (sub : ℝ → ℝ) : Nat → ℝ → Option ℝ
  | 0, _ => none
  | n + 1, x => if sub x > 2 * Real.pi then down sub n (sub x) else some (sub x)

/-- `do params[k] += 2 pi; while (params[k] < 0)`. -/
def up (add : ℝ → ℝ) : Nat → ℝ → Option ℝ
  | 0, _ => none
  | n + 1, x => if add x < 0 then up add n (add x) else some (add x)

/-- 274-281, in exact arithmetic. -/
def wrap (n : Nat) (x : ℝ) : Option ℝ := do
  let x ← if x > 2 * Real.pi then down (· - 2 * Real.pi) n x else some x
  if x < 0 then up (· + 2 * Real.pi) n x else some x

/-- The body of the loop of `apot_check_params`, 270-304, for the potential with parameters from `j` on; `tersoff` is the compile-time
option. -/
def checkOne (tersoff : Bool) (n : Nat) (f : Fn) (j : Nat) (p : Nat → ℝ) : Option (Nat → ℝ) :=
  match f with
  | .eopp => (wrap n (p (j + 5))).map fun x => Function.update p (j + 5) x
  | .csw2 => (wrap n (p (j + 2))).map fun x => Function.update p (j + 2) x
  | .tersoffPot =>
    if tersoff ∧ p (j + 9) < p (j + 10) then
      some (Function.update (Function.update p (j + 9) (p (j + 10))) (j + 10) (p (j + 9)))
    else some p
  | .other _ _ => some p

/-- `apot_check_params`, 264-315, from potential parameter position `j` on. -/
def checkFrom (tersoff : Bool) (n : Nat) : List (Fn × Bool) → Nat → (Nat → ℝ) → Option (Nat → ℝ)
  | [], _, p => some p
  | (f, smooth) :: fs, j, p =>
    (checkOne tersoff n f j p).bind fun p => checkFrom tersoff n fs (j + (2 + f.nPar + if smooth then 1 else 0)) p

def checkParams (tersoff : Bool) (n : Nat) (fs : List (Fn × Bool)) (p : Nat → ℝ) : Option (Nat → ℝ) :=
  checkFrom tersoff n fs 2 p

end

end Verif.Tails
