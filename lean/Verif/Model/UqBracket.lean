/-
Size of the perturbations for the Hessian, `src/uq.c`: `hess_bracketing` 274-377, `subsection_pert` 386-475, and their use in
`calc_hessian` 531-570.

`c` is the objective as a function of the relative change of one parameter (`single_param_pert_cost`, which leaves the table as it was,
see `Verif.Uq.singlePertCost`).  Simplifications: exact arithmetic; screen output and `DEBUG` parts are left out; a division by zero
(infinity or not-a-number in the code) is an outcome of its own; loops and the recursion get `fuel`.
-/
import Verif.Model.Uq

namespace Verif.UqBracket

variable {K : Type*} [Field K] [LinearOrder K]

/-- Outcomes other than a value. -/
inductive Stop
  /-- not finished within the given number of turns -/
  | running
  /-- "Bracketing of parameter perturbation failed.", 425 -/
  | refused
  /-- division by zero -/
  | zero
  deriving DecidableEq, Repr

/-- Quotient, 361-363, 453. -/
def quot (a b : K) : Except Stop K := if b = 0 then .error .zero else .ok (a / b)

/-- 300-304: while the cost is above the aim the perturbation is divided by ten. -/
def shrink (c : K → K) (aim : K) : Nat → K → Except Stop K
  | 0, _ => .error .running
  | fuel + 1, p => if c p > aim then shrink c aim fuel (p / 10) else .ok p

/-- 312-324: while the cost is below the aim the perturbation is multiplied by ten; lower and upper bound. -/
def grow (c : K → K) (aim : K) : Nat → K → K → Except Stop (K × K)
  | 0, _, _ => .error .running
  | fuel + 1, lb, p => if c p < aim then grow c aim fuel p (p * 10) else .ok (lb, p)

/-- Do the costs fail to enclose the aim?  405, 416 -/
def outside (aim c0 c10 : K) : Bool := decide (c0 > aim) || decide (c10 < aim)

/-- `range[i]`, 434. -/
def place (lb ub : K) (i : Nat) : K := lb + i / 10 * (ub - lb)

/-- 433-464: the first of the places `1, …, 10` whose cost is not below the aim. -/
def firstAbove (c : K → K) (aim lb ub : K) : Option Nat := (List.range' 1 10).find? fun i => decide (c (place lb ub i) ≥ aim)

/-- 399-429: signs are changed if the costs do not enclose the aim.  Bounds and costs afterwards; the arrays `range[0]` and
`range[10]` keep the bounds from before. -/
def turned (c : K → K) (aim lb ub : K) : Except Stop ((K × K) × (K × K)) :=
  if outside aim (c lb) (c ub) = true then
    if outside aim (c (-lb)) (c (-ub)) = true then .error .refused else .ok ((-lb, -ub), (c (-lb), c (-ub)))
  else .ok ((lb, ub), (c lb, c ub))

/-- 432-464: new bounds and `cost_range[10]`; `b` and `c10` are the bounds and the cost after a change of signs. -/
def refined (c : K → K) (aim lb ub : K) (b : K × K) (c10 : K) : (K × K) × K :=
  match firstAbove c aim lb ub with
  | some i => ((place lb ub (i - 1), place lb ub i), if i = 10 then c (place lb ub 10) else c10)
  | none => ((place lb ub 10, b.2), c (place lb ub 10))

/-- `subsection_pert`, 386-475. -/
def subsection (c : K → K) (aim : K) : Nat → K → K → Except Stop (K × K)
  | 0, _, _ => .error .running
  | fuel + 1, lb, ub =>
    match turned c aim lb ub with
    | .error e => .error e
    | .ok (b, costs) =>
      let r := refined c aim lb ub b costs.2
      match quot (r.2 - costs.1) aim with
      | .error e => .error e
      | .ok q => if q ≤ 5 / 100 then .ok r.1 else subsection c aim fuel r.1.1 r.1.2

/-- 354-369: the line through the two points, where it reaches the aim; the absolute value of the mean of two equal numbers. -/
def lineFit (c : K → K) (aim lb ub : K) : Except Stop K := do
  let grad ← quot (c ub - c lb) (ub - lb)
  let l ← quot (aim - c lb) grad
  let u ← quot (aim - c ub) grad
  .ok (|(l + lb) + (u + ub)| / 2)

/-- First guess, 281-292: `neg` is `dir == 1`. -/
def guess (neg : Bool) : K := if neg then -(1 / 1000000) else 1 / 1000000

/-- `hess_bracketing`, 274-377; `fuel` for each of the loops. -/
def bracketing (c : K → K) (aim : K) (neg : Bool) (fuel : Nat) : Except Stop K := do
  let p ← shrink c aim fuel (guess neg)
  let b ← grow c aim fuel p p
  let b := if |b.2| < |b.1| then (b.2, b.1) else b
  let b ← subsection c aim fuel b.1 b.2
  lineFit c aim b.1 b.2

/-- `pert[i]`, 536-569: given by the user if `hess_pert` is not negative, else the smaller one of both directions, at most 1. -/
def pertOf (c : K → K) (aim userPert : K) (fuel : Nat) : Except Stop K :=
  if userPert < 0 then do
    let pos ← bracketing c aim false fuel
    let neg ← bracketing c aim true fuel
    let p := if pos ≤ neg then pos else neg
    .ok (if p > 1 then 1 else p)
  else .ok userPert

/-- `cost_aim`, 531-532. -/
def costAim (cost temp : K) (n : Nat) : K := cost + 2 * cost * temp / n

/-- The objective as a function of the relative change of parameter `i`, 483-497. -/
def costOf (obj : (Nat → K) → K) (idx : Nat → Nat) (x : Nat → K) (i : Nat) (p : K) : K := (Uq.singlePertCost obj idx x p i).1

end Verif.UqBracket
