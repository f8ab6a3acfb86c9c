/-
`src/powell_lsq.c`: the least-squares optimiser.

Simplifications: doubles are elements of an ordered field, sums are order free; `sqrt` is an arbitrary function; the LAPACK
routine `dsysvx_` is an arbitrary function of the number of the call, the matrix and the right-hand side; the presence of
the break flag file is an arbitrary function of the outer loop counter; `calc_forces` is an arbitrary function.
Printing and the temporary potential file are left out.  A division by zero ends the run with `divZero` (the C code goes on
with infinities and NaN), except in `gamma_update`, where both cases lead to a NaN norm, for which the test fails
and the routine returns 1: `a = b` makes `fa = fb`.
-/
import Verif.Model.LineSearch
import Mathlib.Algebra.BigOperators.Group.Finset.Basic
import Mathlib.Data.Fintype.Basic

open scoped BigOperators

namespace Verif.Powell

open Verif.LineSearch

variable {K : Type*} [Field K] [LinearOrder K] [IsStrictOrderedRing K] {ι : Type*} [DecidableEq ι] {N M : Nat}

/-- `EPS`, line 60. -/
def eps : K := 1 / 1000
/-- `PRECISION`, line 61. -/
def precision : K := 1 / 10000000
/-- `VERY_SMALL`, line 62. -/
def verySmall : K := 1 / 1000000000000
/-- `INNERLOOPS`, line 63. -/
def innerLoops : Nat := 801
/-- `TOOBIG`, line 64. -/
def tooBig : K := 10000

/-- Result of `dsysvx_`. -/
structure Solved (K : Type*) (N : Nat) where
  info : Int
  q : Fin N → K
  ferror : K
  berror : K

/-- What the optimiser works with: `N` free parameters (`ndim`), `M` residuals (`mdim`), all parameters indexed by `ι`. -/
structure Env (K ι : Type*) (N M : Nat) where
  /-- `calc_forces`: objective and vector of residuals -/
  obj : (ι → K) → K × (Fin M → K)
  /-- `opt_pot.idx` -/
  idx : Fin N → ι
  /-- `pmin`, `pmax` of the free parameters with `APOT` or `KIM` -/
  bounds : Option (Fin N → K × K)
  /-- `maxchange` with `usemaxch`, for tabulated potentials; `none` if absent or not positive -/
  maxch : ι → Option K
  solve : Nat → (Fin N → Fin N → K) → (Fin N → K) → Solved K N
  sqrt : K → K
  flag : Nat → Bool
  dEps : K
  /-- `rescale(&opt_pot, 1.0, 1)` if compiled with `RESCALE` -/
  rescale : Option ((ι → K) → (ι → K))
  /-- content of the private buffers of `bracket` and `brent` -/
  junk : Fin M → K

/-- How the run ends without result. -/
inductive End
  | abort
  | fuel
  | divZero
  deriving DecidableEq

/-- Variables of `run_powell_lsq`. -/
structure St (K ι : Type*) (N M : Nat) where
  xi : ι → K
  f : K
  f1 : Fin M → K
  f2 : Fin M → K
  gamma : Fin M → Fin N → K
  d : Fin N → Fin N → K
  les : Fin N → Fin N → K
  p : Fin N → K
  delta : ι → K
  /-- number of calls of `dsysvx_` so far -/
  calls : Nat

/-- `scale`, 408-415. -/
def Env.scale (E : Env K ι N M) (i : Fin N) : K :=
  match E.bounds with
  | some b => (b i).2 - (b i).1
  | none => 1

/-- Norm of a column. -/
def Env.norm (E : Env K ι N M) (c : Fin M → K) : K := E.sqrt (∑ j, c j * c j)

/-- Difference quotients for parameter `i`, 417-425. -/
def Env.column (E : Env K ι N M) (xi : ι → K) (f0 : Fin M → K) (i : Fin N) (j : Fin M) : K :=
  ((E.obj (Function.update xi (E.idx i) (xi (E.idx i) + eps * E.scale i))).2 j - f0 j) / (eps * E.scale i)

/-- `gamma[.][i] = c`. -/
def setCol (g : Fin M → Fin N → K) (i : Fin N) (c : Fin M → K) : Fin M → Fin N → K :=
  fun j => Function.update (g j) i (c j)

/-- State of `gamma_init`. -/
structure Gam (K ι : Type*) (N M : Nat) where
  xi : ι → K
  gamma : Fin M → Fin N → K
  d : Fin N → Fin N → K

/-- Loop of `gamma_init`, 406-440; the second component is `return i + 1`. -/
def Env.gammaLoop (E : Env K ι N M) (f0 : Fin M → K) : List (Fin N) → Gam K ι N M → Except End (Gam K ι N M × Option (Fin N))
  | [], g => .ok (g, none)
  | i :: is, g =>
    if eps * E.scale i = 0 then .error .divZero
    else
      let c := E.column g.xi f0 i
      let temp := E.norm c
      let xi' := Function.update (Function.update g.xi (E.idx i) (g.xi (E.idx i) + eps * E.scale i)) (E.idx i)
        (g.xi (E.idx i))
      if temp > verySmall then
        E.gammaLoop f0 is ⟨xi', setCol g.gamma i fun j => c j / temp,
          Function.update g.d i (Function.update (g.d i) i (g.d i i / temp))⟩
      else .ok (⟨xi', setCol g.gamma i c, g.d⟩, some i)

/-- `gamma_init`, 390-441. -/
def Env.gammaInit (E : Env K ι N M) (gamma : Fin M → Fin N → K) (xi : ι → K) (f0 : Fin M → K) :
    Except End (Gam K ι N M × Option (Fin N)) :=
  E.gammaLoop f0 (List.finRange N) ⟨xi, gamma, fun i j => if i = j then 1 else 0⟩

/-- `gamma_update`, 450-482: the new `gamma` and the new `delta`, or `none` for `return 1`. -/
def Env.gammaUpdate (E : Env K ι N M) (gamma : Fin M → Fin N → K) (a b : K) (fa fb : Fin M → K) (delta : ι → K)
    (j : Fin N) (fmin : K) : Option ((Fin M → Fin N → K) × (ι → K)) :=
  if a = b ∨ fmin = 0 then none
  else
    let t := fun i => (fa i - fb i) / (a - b)
    let mu := (∑ i, t i * fa i) / fmin
    let c := fun i => t i - mu * fa i
    let temp := E.norm c
    if temp > verySmall then some (setCol gamma j fun i => c i / temp, fun x => delta x / temp) else none

/-- `p` of `lineqsys_init` and `lineqsys_update`. -/
def rhs (gamma : Fin M → Fin N → K) (f : Fin M → K) : Fin N → K := fun i => -∑ j, gamma j i * f j

/-- `lineqsys_init`, 491-515: upper triangle, copied to the lower one. -/
def lesInit (gamma : Fin M → Fin N → K) : Fin N → Fin N → K := fun i k =>
  if i = k then ∑ j, gamma j i * gamma j i
  else if i < k then ∑ j, gamma j i * gamma j k
  else ∑ j, gamma j k * gamma j i

/-- `lineqsys_update`, 524-538: row `i` and column `i`. -/
def lesUpdate (gamma : Fin M → Fin N → K) (les : Fin N → Fin N → K) (i : Fin N) : Fin N → Fin N → K :=
  (List.finRange N).foldl (fun les k =>
    let les := Function.update les i (Function.update (les i) k (∑ j, gamma j i * gamma j k))
    Function.update les k (Function.update (les k) i (les i k))) les

/-- 232-238: a component of the direction, limited by the bounds (`APOT`, `KIM`). -/
def Env.limit (E : Env K ι N M) (xi : ι → K) (i : Fin N) (v : K) : K :=
  match E.bounds with
  | none => v
  | some b =>
    let v := if xi (E.idx i) + v < (b i).1 then (b i).1 - xi (E.idx i) else v
    if xi (E.idx i) + v > (b i).2 then (b i).2 - xi (E.idx i) else v

/-- 225-250: the direction. -/
def Env.direction (E : Env K ι N M) (s : St K ι N M) (q : Fin N → K) : ι → K :=
  (List.finRange N).foldl (fun delta i => Function.update delta (E.idx i) (E.limit s.xi i (∑ j, s.d i j * q j))) s.delta

/-- 239-247: `breakflag`. -/
def Env.outOfControl (E : Env K ι N M) (delta : ι → K) : Bool :=
  E.bounds.isNone && (List.finRange N).any fun i =>
    match E.maxch (E.idx i) with
    | some c => decide (|delta (E.idx i)| > c)
    | none => false

/-- 272-282: the direction to be replaced. -/
def argmax [NeZero N] (p q : Fin N → K) : Fin N :=
  ((List.finRange N).foldl (fun (jt : Fin N × K) i => if |p i * q i| > jt.2 then (i, |p i * q i|) else jt) (0, 0)).1

/-- 285-298: replacing a direction, everything after the line search. -/
def Env.replace (E : Env K ι N M) (s : St K ι N M) (x1 x2 : K) (dn : ι → K) (j : Fin N) : Option (St K ι N M) :=
  match E.gammaUpdate s.gamma x1 x2 s.f1 s.f2 dn j s.f with
  | none => none
  | some (g, dn) =>
    some { s with gamma := g, d := fun i => Function.update (s.d i) j (dn (E.idx i)),
                  les := lesUpdate g s.les j, p := rhs g s.f1 }

/-- The state after the line search. -/
def St.moved (s : St K ι N M) (r : Lin ι K (Fin M → K)) : St K ι N M :=
  { s with xi := r.xi, f := r.f, f1 := r.fret1, f2 := r.fret2, delta := r.del }

/-- Inner loop, 203-306.  The first argument bounds the recursion, the last one is `m`. -/
def Env.inner [NeZero N] (E : Env K ι N M) : Nat → St K ι N M → Nat → Except End (St K ι N M)
  | 0, _, _ => .error .fuel
  | n + 1, s, m =>
    let sol := E.solve s.calls s.les s.p
    let s := { s with calls := s.calls + 1 }
    if 0 < sol.info ∧ sol.info ≤ N then .ok s
    else
      let s := { s with delta := E.direction s sol.q }
      if E.outOfControl s.delta then .ok s
      else
        match linmin E.obj s.xi s.delta s.f s.f1 E.junk E.junk with
        | .error .fuel => .error .fuel
        | .error (.abort _) => .error .abort
        | .ok r =>
          if sol.ferror + sol.berror > 1 ∧ m > 5 then .ok (s.moved r)
          else
            match E.replace (s.moved r) r.x1 r.x2 s.delta (argmax s.p sol.q) with
            | none => .ok (s.moved r)
            | some s' =>
              let df := s.f - r.f
              if (m + 1 < N ∨ (m + 1 ≤ innerLoops ∧ df > precision)) ∧ df < tooBig then E.inner n s' (m + 1)
              else .ok s'

/-- The state with the results of `gamma_init`. -/
def St.put (s : St K ι N M) (g : Gam K ι N M) : St K ι N M := { s with xi := g.xi, gamma := g.gamma, d := g.d }

/-- 152-194: `gamma_init`, with `RESCALE` a second attempt; `false` means that the fit is impossible. -/
def Env.prepare (E : Env K ι N M) (s : St K ι N M) : Except End (St K ι N M × Bool) :=
  match E.gammaInit s.gamma s.xi s.f2 with
  | .error e => .error e
  | .ok (g, none) => .ok (s.put g, true)
  | .ok (g, some _) =>
    match E.rescale with
    | none => .ok (s.put g, false)
    | some f =>
      let r := E.obj (f g.xi)
      match E.gammaInit g.gamma (f g.xi) r.2 with
      | .error e => .error e
      | .ok (g', o) => .ok ({ s.put g' with f := r.1, f1 := r.2 }, o.isNone)

/-- 197. -/
def St.system (s : St K ι N M) : St K ι N M := { s with les := lesInit s.gamma, p := rhs s.gamma s.f1 }

/-- Outer loop, 149-360.  The first argument bounds the recursion, the last one is `n`. -/
def Env.outer [NeZero N] (E : Env K ι N M) : Nat → St K ι N M → Nat → Except End (St K ι N M)
  | 0, _, _ => .error .fuel
  | fuel + 1, s, n =>
    match E.prepare s with
    | .error e => .error e
    | .ok (s, false) => .ok s
    | .ok (s, true) =>
      match E.inner (N + innerLoops + 1) s.system 0 with
      | .error e => .error e
      | .ok s' =>
        if E.flag (n + 1) then .ok s'
        else if (s.f - s'.f > precision / 10 ∨ s.f - s'.f < 0) ∧ s.f - s'.f > E.dEps then E.outer fuel s' (n + 1)
        else .ok s'

/-- 131-138: the state before the outer loop. -/
def Env.first (E : Env K ι N M) (xi : ι → K) : St K ι N M :=
  ⟨xi, (E.obj xi).1, (E.obj xi).2, (E.obj xi).2, fun _ _ => 0, fun _ _ => 0, fun _ _ => 0, fun _ => 0, fun _ => 0, 0⟩

/-- `run_powell_lsq`. -/
def Env.run [NeZero N] (E : Env K ι N M) (fuel : Nat) (xi : ι → K) : Except End (St K ι N M) :=
  if (E.obj xi).1 < verySmall then .ok (E.first xi) else E.outer fuel (E.first xi) 0

end Verif.Powell
