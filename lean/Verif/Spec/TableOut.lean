/-
How other programs read the tables.
-/
import Verif.Model.TableOut

namespace Verif.Spec

open Verif.TableOut

variable {K : Type*}

/-- Value of an analytic potential in the fit: multiplied by the cutoff function for smooth potentials. -/
def fitted [Mul K] (F : Fns K) (k : Nat) (r : K) : Option K :=
  (F.val k r).map fun v => match F.cut k with | some c => v * c r | none => v

/-- LAMMPS, format `setfl` for `n` elements: for each element `nrho` values of the embedding function and `nr` of the density,
then `nr` values for each pair of elements `i ≥ j` (`0 0`, `1 0`, `1 1`, `2 0`, …): distance times potential, then in the same
order the dipole and the quadrupole functions (ADP). -/
def readEmbed (s : Setfl K) (i m : Nat) : Option (Option K) := s.vals[i * (s.nrho + s.nr) + m]?
def readDensity (s : Setfl K) (i m : Nat) : Option (Option K) := s.vals[i * (s.nrho + s.nr) + s.nrho + m]?
def readPair (s : Setfl K) (n i j m : Nat) : Option (Option K) := s.vals[n * (s.nrho + s.nr) + (i * (i + 1) / 2 + j) * s.nr + m]?
def readDipole (s : Setfl K) (n i j m : Nat) : Option (Option K) :=
  s.vals[n * (s.nrho + s.nr) + (n * (n + 1) / 2 + (i * (i + 1) / 2 + j)) * s.nr + m]?
def readQuadrupole (s : Setfl K) (n i j m : Nat) : Option (Option K) :=
  s.vals[n * (s.nrho + s.nr) + (n * (n + 1) + (i * (i + 1) / 2 + j)) * s.nr + m]?

/-- IMD, format 2: column `c` has the values for the arguments `beg`, `beg + step`, …, `fin`, `steps + 1` in number. -/
def imdValue (t : Imd K) (steps c m : Nat) : Option (Option K) := t.vals[c * (steps + 1) + m]?

end Verif.Spec
