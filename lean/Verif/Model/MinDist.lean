/-
The matrix of minimal distances: the distances collected while the neighbour lists are built (`src/config.c` 118-122, 1227-1230, `mindist` of
`Model/Ranges.lean`), the test at the end of `read_config` (571-583, and 465-472 with `APOT`) and
`print_minimal_distances_matrix` (1621-1642).

Simplifications: doubles are elements of an ordered field and are printed exactly; `DBL_MAX` is `none`; the headings with the names of the elements
are left out; `KIM` is left out.
-/
import Verif.Model.Ranges
import Verif.Model.Force

namespace Verif.MinDist

open Verif.Force Verif.Ranges Verif.PairIndex

variable {K : Type*} [Field K] [LinearOrder K]

/-- The neighbours stored for the atoms of a configuration, in this order, 1096-1290. -/
def stored (f : Conf K) : List (Stored K) := f.atoms.flatMap fun a => a.neigh.map fun n => ⟨a.typ, n.typ, n.r⟩

/-- `mindist` after all configurations have been read. -/
def distances (nt : Nat) (confs : List (Conf K)) : Nat → Option K := mindist nt (confs.flatMap stored)

/-- "No atoms found in interaction range for potential %d!", 571-583: the number of the first column without neighbours. -/
def missing (nt : Nat) (md : Nat → Option K) : Option Nat :=
  ((typePairs nt).find? fun p => (md (pairCol nt p.1 p.2)).isNone).map fun p => pairCol nt p.1 p.2

/-- `print_minimal_distances_matrix`, 1633-1640. -/
def rows (nt : Nat) (md : Nat → Option K) : List (List (Option K)) :=
  (List.range nt).map fun i => (List.range nt).map fun j => md (pairCol nt i j)

/-- End of `read_config`, 571-588: the program stops with the number of a column, or prints the matrix. -/
def matrix (nt : Nat) (confs : List (Conf K)) : Except Nat (List (List (Option K))) :=
  match missing nt (distances nt confs) with
  | some k => .error k
  | none => .ok (rows nt (distances nt confs))

end Verif.MinDist
