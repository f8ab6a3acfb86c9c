/-
Numbering of pair columns.
-/
import Mathlib.Tactic.Ring

namespace Verif.PairIndex

/-- Column of the pair of types `(i, j)` for `n` atom types:
`(i <= j) ? i*n + j - ((i*(i+1))/2) : j*n + i - ((j*(j+1))/2)`.
`src/config.c` 1227-1229 (`init_neighbors`), the same text at `src/config.c` 469, 579, 1635,
`src/potential_input.c` 522-523 (`calculate_cutoffs`), `src/potential_output_lammps.c` 140, 493,
531, 567.  C `int` is modelled by `Nat`; the theorems of `Props.C01` show that the truncated
subtraction loses nothing for `i, j < n`. -/
def pairCol (n i j : Nat) : Nat :=
  if i ≤ j then i * n + j - i * (i + 1) / 2 else j * n + i - j * (j + 1) / 2

/-- Number of pair columns, `src/potential_input.c` 78: `(ntypes * (ntypes + 1)) / 2`. -/
def paircol (n : Nat) : Nat := n * (n + 1) / 2

/-- Value of the running sum after iteration `i` of a loop `m = 0; for (i = 0; ...) { m += i; ...}`,
`src/potential_output_imd.c` 194-199 (`m` in the outer, `m2` in the inner loop). -/
def runSum : Nat → Nat
  | 0 => 0 + 0
  | i + 1 => runSum i + (i + 1)

/-- Column used by the IMD writer for the pair `(i, j)`, `src/potential_output_imd.c` 200-201 (also
226, 396, 422, 469, 495, 544, 569): `i < j ? i*ntypes + j - m : j*ntypes + i - m2`. -/
def imdCol (n i j : Nat) : Nat :=
  if i < j then i * n + j - runSum i else j * n + i - runSum j

end Verif.PairIndex
