/-
Pair energies in the routines working on full neighbour lists (`THREEBODY`).  Only the running sum of the
energy in the first loop over the neighbours is modelled here.
-/
import Verif.Model.Force

namespace Verif.Force

variable {K : Type*} [Field K] [LinearOrder K]

/-- `src/force_ang.c` 263-290, `src/force_meam.c` 286-313: one half of the pair energy for every entry. -/
def halfEnergy (P : Pots K) (_own : Nat) (e : K) (n : Neigh K) : K :=
  if n.r < P.fin n.col0 then e + (1 / 2) * P.val n.col0 n.r else e

/-- `src/force_stiweb.c` 162-196 (`val` is the two-body function, `fin` the cutoff `a1`),
`src/force_tersoff.c` 166-196 and 499-529: the same, but the energy of an entry which is an image of the atom itself
is multiplied by one half before. -/
def selfHalfEnergy (P : Pots K) (own : Nat) (e : K) (n : Neigh K) : K :=
  if n.r < P.fin n.col0 then
    let v := P.val n.col0 n.r
    let v := if n.nr = own then v * (1 / 2) else v
    e + (1 / 2) * v
  else e

/-- The loop over atoms and neighbours, starting with atom number `i`. -/
def energyLoop (step : Nat → K → Neigh K → K) : List (Atom K) → Nat → K → K
  | [], _, e => e
  | a :: as, i, e => energyLoop step as (i + 1) (a.neigh.foldl (step i) e)

end Verif.Force
