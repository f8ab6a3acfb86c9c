/-
Export of Tersoff and modified Tersoff potentials, `src/potential_output_lammps.c` 136-242.
Simplifications: the values are taken before they are printed with `%g` (6 digits); `apot_table.values` and the pointers
`tersoff.omega`, `tersoff.chi` are represented by the fitted parameters by column.
-/
import Verif.Model.Basic
import Verif.Model.PairIndex
import Verif.Model.Tersoff

namespace Verif.LammpsTersoff

open Verif.PairIndex Verif.Force

variable {K : Type*} [Field K] [LinearOrder K]

/-- One line of the file for `pair_style tersoff`, in the order of the file. -/
structure TersEntry (K : Type*) where
  m : K
  gamma : K
  lambda3 : K
  c : K
  d : K
  costheta0 : K
  n : K
  beta : K
  lambda2 : K
  B : K
  R : K
  D : K
  lambda1 : K
  A : K

/-- The line of the types `i j k`, 176-203: everything is taken from the column of `i` and `j`. -/
def entry (p : TersPars K) (chi : Nat → K) (ntypes i j _k : Nat) : TersEntry K :=
  let col := pairCol ntypes i j
  { m := 1
    gamma := p.omega col
    lambda3 := 0
    c := p.c col
    d := p.d col
    costheta0 := p.h col
    n := p.n col
    beta := p.gamma col
    lambda2 := p.mu col
    B := p.B col * chi col
    R := 1 / 2 * (p.S col + p.R col)
    D := 1 / 2 * (p.S col - p.R col)
    lambda1 := p.lambda col
    A := p.A col }

/-- One line of the file for `pair_style tersoff/mod`, in the order of the file. -/
structure ModEntry (K : Type*) where
  beta : K
  alpha : K
  h : K
  eta : K
  betaTers : K
  lambda2 : K
  B : K
  R : K
  D : K
  lambda1 : K
  A : K
  n : K
  c1 : K
  c2 : K
  c3 : K
  c4 : K
  c5 : K

/-- The line of the types `i j k`, 205-235. -/
def modEntry (p : TersModPars K) (ntypes i j _k : Nat) : Except Fault (ModEntry K) := do
  let col := pairCol ntypes i j
  let n ← cdiv 1 (2 * p.delta col)
  pure
    { beta := p.beta col
      alpha := p.alpha col
      h := p.h col
      eta := p.eta col
      betaTers := 1
      lambda2 := p.mu col
      B := p.B col
      R := 1 / 2 * (p.R1 col + p.R2 col)
      D := 1 / 2 * (p.R2 col - p.R1 col)
      lambda1 := p.lambda col
      A := p.A col
      n := n
      c1 := p.c1 col
      c2 := p.c2 col
      c3 := p.c3 col
      c4 := p.c4 col
      c5 := p.c5 col }

/-- The loops over the types, 136-143: one line for every triple. -/
def lines {α : Type*} (ntypes : Nat) (e : Nat → Nat → Nat → α) : List ((Nat × Nat × Nat) × α) :=
  (List.range ntypes).flatMap fun i => (List.range ntypes).flatMap fun j => (List.range ntypes).map fun k => ((i, j, k), e i j k)

end Verif.LammpsTersoff
