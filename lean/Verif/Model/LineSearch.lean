/-
One-dimensional minimisation: `bracket` (`src/bracket.c` 38-211), `brent` (`src/brent.c` 39-183) and `linmin`
(`src/linmin.c` 55-91).

`calc_forces(vecu, buffer, 0)` is an arbitrary function giving the objective and the vector written to `buffer`.
Doubles are elements of an ordered field (no NaN: `calc_forces` maps it to 10e10, see C18).  The vectors are kept in
three buffers, and the pointers to them are modelled as such, because `SWAP` exchanges pointers.
`error(1, ..)` ends the program: `Stop.abort` with the evaluations made so far.
-/
import Mathlib.Algebra.Order.Field.Basic
import Mathlib.Logic.Function.Basic
import Mathlib.Data.Fin.VecNotation
import Mathlib.Algebra.Order.AbsoluteValue.Basic
import Mathlib.Tactic.NormNum

namespace Verif.LineSearch

variable {K : Type*} [Field K] [LinearOrder K] [IsStrictOrderedRing K] {V : Type*}

/-- `CGOLD`, `src/bracket.h` 34. -/
def cgold : K := 3819660 / 10000000

/-- `ZEPS`, `src/bracket.h` 39. -/
def zeps : K := 1 / 1000000000

/-- `MAX_IT`, `src/bracket.h` 35. -/
def maxIt : Nat := 100

/-- `ITMAX`, `src/bracket.h` 38. -/
def itMax : Nat := 100

/-- Ends without result: `error(1, ..)`; `fuel` stands for a loop which does not end (shown not to occur in C27). -/
inductive Stop (K : Type*)
  | abort (seen : List K)
  | fuel

/-- Local variables of `bracket`; `seen` lists the places of the evaluations (it is not part of the C code, its
length is the number of calls of `calc_forces`). -/
structure Br (K V : Type*) where
  xl : K
  xc : K
  xr : K
  fl : K
  fc : K
  fr : K
  buf : Fin 3 → V
  pl : Fin 3
  pr : Fin 3
  pc : Fin 3
  last : Nat
  nb : Nat
  seen : List K

/-- `x_left = x; nb_eval++; f_left = calc_forces(vecu, p_left, 0)`. -/
def Br.evalLeft (F : K → K × V) (s : Br K V) (x : K) : Br K V :=
  { s with xl := x, fl := (F x).1, buf := Function.update s.buf s.pl (F x).2, nb := s.nb + 1, seen := x :: s.seen }

/-- `x_right = x; nb_eval++; f_right = calc_forces(vecu, p_right, 0)`. -/
def Br.evalRight (F : K → K × V) (s : Br K V) (x : K) : Br K V :=
  { s with xr := x, fr := (F x).1, buf := Function.update s.buf s.pr (F x).2, nb := s.nb + 1, seen := x :: s.seen }

/-- `bracket.c` 115-125 and 162-172. -/
def Br.goRight (F : K → K × V) (s : Br K V) : Br K V :=
  Br.evalRight F { s with xl := s.xc, fl := s.fc, xc := s.xr, fc := s.fr,
                          pl := s.pc, pc := s.pr, pr := s.pl } ((s.xr - s.xc) / cgold + s.xc)

/-- `bracket.c` 141-151. -/
def Br.goLeft (F : K → K × V) (s : Br K V) : Br K V :=
  Br.evalLeft F { s with xr := s.xc, fr := s.fc, xc := s.xl, fc := s.fl,
                         pr := s.pc, pc := s.pl, pl := s.pr } (-(s.xc - s.xl) / cgold + s.xc)

/-- Body of the `do` loop, 98-203, without the return. -/
def Br.turn (F : K → K × V) (s : Br K V) : Br K V :=
  if s.fc < s.fl then
    if s.fc > s.fr then s.goRight F
    else { Br.evalRight F s ((s.xr - s.xl) * cgold + s.xr) with last := 1 }
  else if s.fc > s.fl then s.goLeft F
  else if s.fc < s.fr then { Br.evalLeft F s (-(s.xr - s.xl) * cgold + s.xl) with last := 2 }
  else if s.fc > s.fr then s.goRight F
  else if s.last = 2 then { Br.evalLeft F s (-(s.xr - s.xl) / cgold + s.xl) with last := 1 }
  else { Br.evalRight F s ((s.xr - s.xl) / cgold + s.xr) with last := 2 }

/-- 97-205: the first argument bounds the recursion; `bracket` starts with enough of it (`C27_fuel`). -/
def brLoop (F : K → K × V) : Nat → Br K V → Except (Stop K) (Br K V)
  | 0, _ => .error .fuel
  | n + 1, s =>
    if s.fc < s.fl ∧ s.fc < s.fr then .ok s
    else if (s.turn F).nb < maxIt then brLoop F n (s.turn F) else .error (.abort (s.turn F).seen)

/-- 76-95: the first evaluation. `b` holds the buffers `f_vec1`, `f_vec2`, `f_vec3`. -/
def brStart (F : K → K × V) (xl xr fl fr : K) (b : Fin 3 → V) : Br K V :=
  if fr ≥ fl then
    Br.evalLeft F ⟨xl, xl, xr, fl, fl, fr, b, 2, 1, 0, 0, 0, []⟩ (-(xr - xl) / cgold + xr)
  else
    Br.evalRight F ⟨xl, xr, xr, fl, fr, fr, b, 0, 2, 1, 0, 0, []⟩ ((xr - xl) / cgold + xl)

/-- `bracket`. The final state stands for the six values; `f_vec1` is set to the vector of the centre (104-105). -/
def bracket (F : K → K × V) (xl xr fl fr : K) (b : Fin 3 → V) : Except (Stop K) (Br K V) :=
  (brLoop F maxIt (brStart F xl xr fl fr b)).map fun s =>
    { s with buf := Function.update s.buf 0 (s.buf s.pc) }

/-- Local variables of `brent`. -/
structure Bt (K V : Type*) where
  xl : K
  xr : K
  z : K
  v : K
  w : K
  fz : K
  fv : K
  fw : K
  d : K
  e : K
  buf : Fin 3 → V
  pz : Fin 3
  pw : Fin 3
  pu : Fin 3
  seen : List K

/-- `tolerance`, 92. -/
def Bt.tol (tol : K) (s : Bt K V) : K := tol * |s.z| + zeps

/-- 91. -/
def Bt.mid (s : Bt K V) : K := (s.xl + s.xr) / 2

/-- 95. -/
def Bt.done (tol : K) (s : Bt K V) : Prop := |s.z - s.mid| ≤ 2 * s.tol tol - (s.xr - s.xl) / 2

instance (tol : K) (s : Bt K V) : Decidable (s.done tol) := inferInstanceAs (Decidable (_ ≤ _))

/-- The golden section step, 132-133 and 136-137: the new `e` and `d`. -/
def Bt.golden (s : Bt K V) : K × K :=
  let e := if s.z < s.mid then s.xr - s.z else -(s.z - s.xl)
  (e, cgold * e)

/-- 109-119: numerator and denominator of the parabola step. -/
def Bt.parab (s : Bt K V) : K × K :=
  let r := (s.z - s.w) * (s.fz - s.fv)
  let q := (s.z - s.v) * (s.fz - s.fw)
  let p := (s.z - s.v) * q - (s.z - s.w) * r
  let q := 2 * (q - r)
  if q > 0 then (-p, q) else (p, -q)

/-- 106-138: the new `e` and `d`. -/
def Bt.choose (tol : K) (s : Bt K V) : K × K :=
  if |s.e| > s.tol tol then
    let pq := s.parab
    if |pq.1| < |pq.2 * s.e / 2| ∧ pq.1 > pq.2 * (s.xl - s.z) ∧ pq.1 < pq.2 * (s.xr - s.z) then
      let d := pq.1 / pq.2
      let u := s.z + d
      (s.d, if u - s.xl < 2 * s.tol tol ∨ s.xr - u < 2 * s.tol tol then
              (if s.z < s.mid then s.tol tol else -s.tol tol) else d)
    else s.golden
  else s.golden

/-- 140-144. -/
def Bt.place (tol : K) (s : Bt K V) (d : K) : K :=
  if |d| ≥ s.tol tol then s.z + d else s.z + (if d > 0 then s.tol tol else -s.tol tol)

/-- 146-178: evaluation at `u` and update of the three best places. -/
def Bt.accept (F : K → K × V) (s : Bt K V) (u : K) : Bt K V :=
  let fu := (F u).1
  let s := { s with buf := Function.update s.buf s.pu (F u).2, seen := u :: s.seen }
  if fu > s.fz then
    let s := if u < s.z then { s with xl := u } else { s with xr := u }
    if fu ≤ s.fw ∨ s.w = s.z then { s with v := s.w, fv := s.fw, w := u, fw := fu, pw := s.pu, pu := s.pw }
    else if fu ≤ s.fv ∨ s.v = s.z ∨ s.v = s.w then { s with v := u, fv := fu }
    else s
  else
    let s := if u < s.z then { s with xr := s.z } else { s with xl := s.z }
    { s with v := s.w, w := s.z, z := u, fv := s.fw, fw := s.fz, fz := fu, pw := s.pz, pz := s.pu, pu := s.pw }

/-- One turn of the loop. -/
def Bt.turn (F : K → K × V) (tol : K) (s : Bt K V) : Bt K V :=
  let ed := s.choose tol
  Bt.accept F { s with e := ed.1, d := ed.2 } (s.place tol ed.2)

/-- `for (iter = 1; iter <= ITMAX; iter++)`, 90-180: the argument is the number of turns left. -/
def btLoop (F : K → K × V) (tol : K) : Nat → Bt K V → Except (Stop K) (Bt K V)
  | 0, s => .error (.abort s.seen)
  | n + 1, s => if s.done tol then .ok s else btLoop F tol n (s.turn F tol)

/-- 75-88. -/
def btStart (F : K → K × V) (ax bx cx fbx : K) (b : Fin 3 → V) : Bt K V :=
  let xl := if ax < cx then ax else cx
  let xr := if ax > cx then ax else cx
  let v := xl + cgold * (xr - xl)
  ⟨xl, xr, bx, v, v, fbx, (F v).1, (F v).1, 0, 0, Function.update b 1 (F v).2, 0, 1, 2, [v]⟩

/-- `brent`; on return `fxmin` and `fxmin2` are set to the vectors of `z` and `w` (99-103), `*xmin` is `z`, `*xmin2` is
`w`. -/
def brent (F : K → K × V) (ax bx cx fbx tol : K) (b : Fin 3 → V) : Except (Stop K) (Bt K V) :=
  (btLoop F tol itMax (btStart F ax bx cx fbx b)).map fun s =>
    { s with buf := Function.update (Function.update s.buf 1 (s.buf s.pw)) 0 (s.buf s.pz) }

/-- Results of `linmin`. -/
structure Lin (ι K V : Type*) where
  xi : ι → K
  del : ι → K
  x1 : K
  x2 : K
  fret1 : V
  fret2 : V
  f : K
  seen : List K

variable {ι : Type*}

/-- `vecu[j] = xicom[j] + x * delcom[j]; calc_forces(vecu, ..)`. -/
def along (obj : (ι → K) → K × V) (xi del : ι → K) (x : K) : K × V := obj fun j => xi j + x * del j

/-- `linmin`; `fret1` is the vector at `xi`.  The two private buffers have arbitrary content `junk`. -/
def linmin (obj : (ι → K) → K × V) (xi del : ι → K) (fxi1 : K) (fret1 : V) (junk junk' : V) :
    Except (Stop K) (Lin ι K V) :=
  let F := along obj xi del
  let bx : K := 1 / 10
  match bracket F 0 bx fxi1 (F bx).1 ![fret1, (F bx).2, junk] with
  | .error .fuel => .error .fuel
  | .error (.abort seen) => .error (.abort (seen ++ [bx]))
  | .ok s =>
    match brent F s.xl s.xc s.xr s.fc (1 / 10) ![s.buf 0, s.buf 1, junk'] with
    | .error .fuel => .error .fuel
    | .error (.abort seen) => .error (.abort (seen ++ s.seen ++ [bx]))
    | .ok t =>
      .ok ⟨fun j => xi j + del j * t.z, fun j => del j * t.z, t.z, t.w, t.buf 0, t.buf 1, t.fz,
        t.seen ++ s.seen ++ [bx]⟩

end Verif.LineSearch
