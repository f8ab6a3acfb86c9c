/-
Cubic splines, `src/splines.c`.

Simplifications: `double` is an ordered field `K` (exact arithmetic).  Arrays are functions of the
index.  The scratch array `u` and the partially filled `y2` of the elimination are returned by the
forward recursion as pairs `(y2[i], u[i])`.  The comparison constant `0.99e30` is `99 * 10 ^ 28`.
-/
import Mathlib.Algebra.Order.Field.Basic
import Mathlib.Algebra.Order.Floor.Semiring
import Verif.Model.Basic

namespace Verif.Splines

variable {K : Type*} [Field K] [LinearOrder K]

/-- The test `yp > 0.99e30` which selects the natural end condition. -/
def isNatural (yp : K) : Prop := yp > 99 * 10 ^ 28

instance (yp : K) : Decidable (isNatural yp) := inferInstanceAs (Decidable (_ > _))

/-- Forward elimination of `spline_ed`, `src/splines.c` 56-71: the pair `(y2[i], u[i])`. -/
def edFwd (h : K) (y : ℕ → K) (yp1 : K) : ℕ → Except Fault (K × K)
  | 0 =>
    if isNatural yp1 then .ok (0, 0)
    else do
      let c ← cdiv 3 h
      let s ← cdiv (y 1 - y 0) h
      return (-(1 / 2), c * (s - yp1))
  | i + 1 => do
    let (y2p, up) ← edFwd h y yp1 i
    let p := 1 / 2 * y2p + 2
    let y2 ← cdiv (-(1 / 2)) p
    let s1 ← cdiv (y (i + 2) - y (i + 1)) h
    let s0 ← cdiv (y (i + 1) - y i) h
    let w ← cdiv (6 * (s1 - s0)) (2 * h)
    let u ← cdiv (w - 1 / 2 * up) p
    return (y2, u)

/-- Last second derivative `y2[n-1]` of `spline_ed`, `src/splines.c` 73-81. -/
def edLast (h : K) (y : ℕ → K) (n : ℕ) (yp1 ypn : K) : Except Fault K := do
  let (y2, u) ← edFwd h y yp1 (n - 2)
  if isNatural ypn then
    cdiv (0 - 0 * u) (0 * y2 + 1)
  else do
    let c ← cdiv 3 h
    let s ← cdiv (y (n - 1) - y (n - 2)) h
    cdiv (c * (ypn - s) - 1 / 2 * u) (1 / 2 * y2 + 1)

/-- Back substitution of `spline_ed`, `src/splines.c` 83-84; the value of `y2[n-1-j]`. -/
def edBack (h : K) (y : ℕ → K) (n : ℕ) (yp1 ypn : K) : ℕ → Except Fault K
  | 0 => edLast h y n yp1 ypn
  | j + 1 => do
    let next ← edBack h y n yp1 ypn j
    let (y2, u) ← edFwd h y yp1 (n - 1 - (j + 1))
    return y2 * next + u

/-- `spline_ed`, `src/splines.c` 43-85: second derivative `y2[k]` after the call, for `k < n`.
A fault in any step that enters the value is returned. -/
def splineEd (h : K) (y : ℕ → K) (n : ℕ) (yp1 ypn : K) (k : ℕ) : Except Fault K :=
  edBack h y n yp1 ypn (n - 1 - k)

/-- Forward elimination of `spline_ne`, `src/splines.c` 276-291. -/
def neFwd (x y : ℕ → K) (yp1 : K) : ℕ → Except Fault (K × K)
  | 0 =>
    if isNatural yp1 then .ok (0, 0)
    else do
      let c ← cdiv 3 (x 1 - x 0)
      let s ← cdiv (y 1 - y 0) (x 1 - x 0)
      return (-(1 / 2), c * (s - yp1))
  | i + 1 => do
    let (y2p, up) ← neFwd x y yp1 i
    let sig ← cdiv (x (i + 1) - x i) (x (i + 2) - x i)
    let p := sig * y2p + 2
    let y2 ← cdiv (sig - 1) p
    let s1 ← cdiv (y (i + 2) - y (i + 1)) (x (i + 2) - x (i + 1))
    let s0 ← cdiv (y (i + 1) - y i) (x (i + 1) - x i)
    let w ← cdiv (6 * (s1 - s0)) (x (i + 2) - x i)
    let u ← cdiv (w - sig * up) p
    return (y2, u)

/-- Last second derivative of `spline_ne`, `src/splines.c` 293-302. -/
def neLast (x y : ℕ → K) (n : ℕ) (yp1 ypn : K) : Except Fault K := do
  let (y2, u) ← neFwd x y yp1 (n - 2)
  if isNatural ypn then
    cdiv (0 - 0 * u) (0 * y2 + 1)
  else do
    let c ← cdiv 3 (x (n - 1) - x (n - 2))
    let s ← cdiv (y (n - 1) - y (n - 2)) (x (n - 1) - x (n - 2))
    cdiv (c * (ypn - s) - 1 / 2 * u) (1 / 2 * y2 + 1)

/-- Back substitution of `spline_ne`, `src/splines.c` 304-305; the value of `y2[n-1-j]`. -/
def neBack (x y : ℕ → K) (n : ℕ) (yp1 ypn : K) : ℕ → Except Fault K
  | 0 => neLast x y n yp1 ypn
  | j + 1 => do
    let next ← neBack x y n yp1 ypn j
    let (y2, u) ← neFwd x y yp1 (n - 1 - (j + 1))
    return y2 * next + u

/-- `spline_ne`, `src/splines.c` 264-306: second derivative `y2[k]` after the call, for `k < n`. -/
def splineNe (x y : ℕ → K) (n : ℕ) (yp1 ypn : K) (k : ℕ) : Except Fault K :=
  neBack x y n yp1 ypn (n - 1 - k)

/-! ### Tables and look-up -/

/-- The fields of `pot_table_t` used by the look-up routines (`src/types.h`), for one column:
`begin[col]`, `end[col]`, `step[col]`, `invstep[col]`, `first[col]`, `last[col]`, and the arrays
`xcoord`, `d2tab`. -/
structure Column (K : Type*) where
  beg : K
  fin : K
  step : K
  invstep : K
  first : ℕ
  last : ℕ
  xcoord : ℕ → K
  d2tab : ℕ → K

/-- Read entry `k` of an array, allowed only for entries `first … last` of the column. -/
def Column.rd (c : Column K) (a : ℕ → K) (k : ℕ) : Except Fault K :=
  if c.first ≤ k ∧ k ≤ c.last then .ok (a k) else .error .outOfColumn

/-- The interval index and fraction used by the `_ed` routines, `src/splines.c` 96-106:
`rr = r - begin; k = (int)(rr*invstep); b = (rr - k*step)*invstep; k += first`.
A negative `rr` is the `error(1, ...)` exit, so the cast is the floor of a non-negative number. -/
def edSlot [FloorSemiring K] (c : Column K) (r : K) : Except Fault (ℕ × K) :=
  let rr := r - c.beg
  if rr < 0 then .error .shortDistance
  else
    let k := ⌊rr * c.invstep⌋₊
    .ok (k + c.first, (rr - k * c.step) * c.invstep)

/-- `splint_ed`, `src/splines.c` 93-115. -/
def splintEd [FloorSemiring K] (c : Column K) (xi : ℕ → K) (r : K) : Except Fault K := do
  let (k, b) ← edSlot c r
  let a := 1 - b
  let p1 ← c.rd xi k
  let d21 ← c.rd c.d2tab k
  let p2 ← c.rd xi (k + 1)
  let d22 ← c.rd c.d2tab (k + 1)
  let q ← cdiv ((a * a * a - a) * d21 + (b * b * b - b) * d22) (6 * c.invstep * c.invstep)
  return a * p1 + b * p2 + q

/-- `splint_comb_ed`, `src/splines.c` 123-153: value and `*grad`. -/
def splintCombEd [FloorSemiring K] (c : Column K) (xi : ℕ → K) (r : K) : Except Fault (K × K) := do
  let (k, b) ← edSlot c r
  let a := 1 - b
  let p1 ← c.rd xi k
  let d21 ← c.rd c.d2tab k
  let p2 ← c.rd xi (k + 1)
  let d22 ← c.rd c.d2tab (k + 1)
  let g ← cdiv ((3 * (b * b) - 1) * d22 - (3 * (a * a) - 1) * d21) (6 * c.invstep)
  let q ← cdiv ((a * a * a - a) * d21 + (b * b * b - b) * d22) (6 * c.invstep * c.invstep)
  return (a * p1 + b * p2 + q, (p2 - p1) * c.invstep + g)

/-- `splint_grad_ed`, `src/splines.c` 161-189, with the guard `if (k >= last) { k--; b += 1; }`. -/
def splintGradEd [FloorSemiring K] (c : Column K) (xi : ℕ → K) (r : K) : Except Fault K := do
  let (k0, b0) ← edSlot c r
  let k := if k0 ≥ c.last then k0 - 1 else k0
  let b := if k0 ≥ c.last then b0 + 1 else b0
  let a := 1 - b
  let p1 ← c.rd xi k
  let d21 ← c.rd c.d2tab k
  let p2 ← c.rd xi (k + 1)
  let d22 ← c.rd c.d2tab (k + 1)
  let g ← cdiv ((3 * (b * b) - 1) * d22 - (3 * (a * a) - 1) * d21) (6 * c.invstep)
  return (p2 - p1) * c.invstep + g

/-- `splint_dir`, `src/splines.c` 199-210. -/
def splintDir (c : Column K) (xi : ℕ → K) (k : ℕ) (b step : K) : Except Fault K := do
  let a := 1 - b
  let p1 ← c.rd xi k
  let d21 ← c.rd c.d2tab k
  let p2 ← c.rd xi (k + 1)
  let d22 ← c.rd c.d2tab (k + 1)
  return a * p1 + b * p2 +
    ((a * a * a - a) * d21 + (b * b * b - b) * d22) * (step * step) / 6

/-- `splint_comb_dir`, `src/splines.c` 221-235: value and `*grad`. -/
def splintCombDir (c : Column K) (xi : ℕ → K) (k : ℕ) (b step : K) : Except Fault (K × K) := do
  let a := 1 - b
  let p1 ← c.rd xi k
  let d21 ← c.rd c.d2tab k
  let p2 ← c.rd xi (k + 1)
  let d22 ← c.rd c.d2tab (k + 1)
  let s ← cdiv (p2 - p1) step
  return (a * p1 + b * p2 +
      ((a * a * a - a) * d21 + (b * b * b - b) * d22) * (step * step) / 6,
    s + ((3 * (b * b) - 1) * d22 - (3 * (a * a) - 1) * d21) * step / 6)

/-- `splint_grad_dir`, `src/splines.c` 245-257. -/
def splintGradDir (c : Column K) (xi : ℕ → K) (k : ℕ) (b step : K) : Except Fault K := do
  let a := 1 - b
  let p1 ← c.rd xi k
  let d21 ← c.rd c.d2tab k
  let p2 ← c.rd xi (k + 1)
  let d22 ← c.rd c.d2tab (k + 1)
  let s ← cdiv (p2 - p1) step
  return s + ((3 * (b * b) - 1) * d22 - (3 * (a * a) - 1) * d21) * step / 6

/-- Bisection of the `_ne` routines, `src/splines.c` 320-327 (same text at 351-358, 402-409,
438-445 and `src/config.c` 1334-1341): `while (khi - klo > 1) { k = (khi+klo)>>1; ... }`. -/
def bisect (x : ℕ → K) (r : K) (klo khi : ℕ) : ℕ × ℕ :=
  if khi - klo > 1 then
    if x ((khi + klo) / 2) > r then bisect x r klo ((khi + klo) / 2)
    else bisect x r ((khi + klo) / 2) khi
  else (klo, khi)
termination_by khi - klo
decreasing_by all_goals omega

/-- `splint_ne`, `src/splines.c` 315-338. -/
def splintNe (c : Column K) (xi : ℕ → K) (r : K) : Except Fault K := do
  let (klo, khi) := bisect c.xcoord r c.first c.last
  let h := c.xcoord khi - c.xcoord klo
  let b ← cdiv (r - c.xcoord klo) h
  let a := 1 - b
  let p1 ← c.rd xi klo
  let p2 ← c.rd xi khi
  let d21 ← c.rd c.d2tab klo
  let d22 ← c.rd c.d2tab khi
  return a * p1 + b * p2 + ((a * a * a - a) * d21 + (b * b * b - b) * d22) * (h * h) / 6

/-- `splint_ne_lin`, `src/splines.c` 346-389. -/
def splintNeLin (c : Column K) (xi : ℕ → K) (r : K) : Except Fault K := do
  let (klo, khi) := bisect c.xcoord r c.first c.last
  let h := c.xcoord khi - c.xcoord klo
  let b0 ← cdiv (r - c.xcoord klo) h
  let a0 := 1 - b0
  let p1 ← c.rd xi klo
  let p2 ← c.rd xi khi
  let d21 ← c.rd c.d2tab klo
  let d22 ← c.rd c.d2tab khi
  if r < c.beg then do
    let b : K := 0
    let a : K := 1
    let s ← cdiv (p2 - p1) h
    let grad := s + ((3 * (b * b) - 1) * d22 - (3 * (a * a) - 1) * d21) * h / 6
    return p1 + grad * (r - c.xcoord klo)
  else if r > c.fin then do
    let b : K := 1
    let a : K := 0
    let s ← cdiv (p2 - p1) h
    let grad := s + ((3 * (b * b) - 1) * d22 - (3 * (a * a) - 1) * d21) * h / 6
    return p2 + grad * (r - c.xcoord khi)
  else
    return a0 * p1 + b0 * p2 +
      ((a0 * a0 * a0 - a0) * d21 + (b0 * b0 * b0 - b0) * d22) * (h * h) / 6

/-- `splint_comb_ne`, `src/splines.c` 397-425: value and `*grad`. -/
def splintCombNe (c : Column K) (xi : ℕ → K) (r : K) : Except Fault (K × K) := do
  let (klo, khi) := bisect c.xcoord r c.first c.last
  let h := c.xcoord khi - c.xcoord klo
  let b ← cdiv (r - c.xcoord klo) h
  let a := 1 - b
  let p1 ← c.rd xi klo
  let p2 ← c.rd xi khi
  let d21 ← c.rd c.d2tab klo
  let d22 ← c.rd c.d2tab khi
  let s ← cdiv (p2 - p1) h
  return (a * p1 + b * p2 + ((a * a * a - a) * d21 + (b * b * b - b) * d22) * (h * h) / 6,
    s + ((3 * (b * b) - 1) * d22 - (3 * (a * a) - 1) * d21) * h / 6)

/-- `splint_grad_ne`, `src/splines.c` 433-456. -/
def splintGradNe (c : Column K) (xi : ℕ → K) (r : K) : Except Fault K := do
  let (klo, khi) := bisect c.xcoord r c.first c.last
  let h := c.xcoord khi - c.xcoord klo
  let b ← cdiv (r - c.xcoord klo) h
  let a := 1 - b
  let p1 ← c.rd xi klo
  let p2 ← c.rd xi khi
  let d21 ← c.rd c.d2tab klo
  let d22 ← c.rd c.d2tab khi
  let s ← cdiv (p2 - p1) h
  return s + ((3 * (b * b) - 1) * d22 - (3 * (a * a) - 1) * d21) * h / 6

/-! ### Slots cached with a neighbour -/

/-- `set_neighbor_slot` for analytic and equidistant formats, `src/config.c` 1309-1328, 1356-1364:
the stored `(slot, shift, step)`. -/
def setSlotEd [FloorSemiring K] (c : Column K) (r : K) : Except Fault (ℕ × K × K) := do
  let (slot, shift) ← edSlot c r
  if slot ≥ c.last then return (slot - 1, shift + 1, c.step)
  else return (slot, shift, c.step)

/-- `set_neighbor_slot` for non-equidistant tables, `src/config.c` 1329-1346, 1356-1364. -/
def setSlotNe (c : Column K) (r : K) : Except Fault (ℕ × K × K) := do
  let (klo, khi) := bisect c.xcoord r c.first c.last
  let step := c.xcoord khi - c.xcoord klo
  let shift ← cdiv (r - c.xcoord klo) step
  if klo ≥ c.last then return (klo - 1, shift + 1, step)
  else return (klo, shift, step)

/-- `update_neighbor_slots`, `src/config.c` 688-703 (APOT): recomputed only if `r < end[col]`,
otherwise the stored triple is kept.  `none` stands for `r < begin[col]`, where the C cast of a
negative number would produce a slot in front of the column. -/
def updateSlot [FloorSemiring K] (c : Column K) (r : K) (old : ℕ × K × K) : Option (ℕ × K × K) :=
  if r < c.fin then
    let rr := r - c.beg
    if rr < 0 then none
    else
      let k := ⌊rr * c.invstep⌋₊
      some (k + c.first, (rr - k * c.step) * c.invstep, c.step)
  else some old

/-- How the readers fill the column data of equidistant tables: `src/potential_input_f3.c` 79-80
(`step = (end - begin)/(n-1)`, `invstep = 1/step`, `first`, `last = first + n - 1`) and
`src/potential_input_f0.c` 977-982 for sampled analytic potentials. -/
structure Column.EqDist (c : Column K) : Prop where
  knots : c.first < c.last
  range : c.beg < c.fin
  step_eq : c.step = (c.fin - c.beg) / ((c.last : K) - (c.first : K))
  invstep_eq : c.invstep = 1 / c.step

/-- How the reader fills the column data of general tables, `src/potential_input_f4.c` 85-145: the
abscissae are strictly increasing (checked there), `begin`/`end` are the first/last abscissa. -/
structure Column.General (c : Column K) : Prop where
  knots : c.first < c.last
  mono : ∀ k, c.first ≤ k → k < c.last → c.xcoord k < c.xcoord (k + 1)
  beg_eq : c.beg = c.xcoord c.first
  fin_eq : c.fin = c.xcoord c.last

end Verif.Splines
