/-
`src/errors.c` 215-269 (`write_local_electron_density`): the file with the local electron densities, for EAM and ADP without
MPI.

Simplifications: doubles are elements of an ordered field; a quotient with divisor zero (printed as `nan`) is `none`; file name,
headings and formats are left out.  Types of atoms are below `ntypes` (they were checked on reading), so `totdens`
is a function of the type.
-/
import Verif.Model.Errors

namespace Verif.Force

variable {K : Type*} [Field K] [LinearOrder K]

/-- A line for one atom, 246-247: number, type, density. -/
structure RhoRow (K : Type*) where
  num : Nat
  typ : Nat
  rho : K

/-- The lines for the atoms, 244-255; `rho` is `atoms[.].rho`. -/
def rhoRows (confs : List (Conf K)) (rho : Nat → K) : List (RhoRow K) :=
  (allAtoms confs).zipIdx.map fun x => ⟨x.2, x.1.2.typ, rho x.2⟩

/-- `totdens` after the loop, 235-236 and 254. -/
def totDens (rows : List (RhoRow K)) : Nat → K :=
  rows.foldl (fun tot r => Function.update tot r.typ (tot r.typ + r.rho)) fun _ => 0

/-- The lines for the types, 257-262; `na` is `na_type[nconf]`. -/
def rhoMeans (ntypes : Nat) (na : Nat → Nat) (rows : List (RhoRow K)) : List (Option K) :=
  (List.range ntypes).map fun t => shown (totDens rows t) (na t : K)

end Verif.Force
