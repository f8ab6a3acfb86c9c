/-
The file of radial distributions: `write_pair_distribution_file` (`src/config.c` 1546-1616).  Numbers are elements of an ordered
field, the entries of `pair_table` (whole numbers stored as `double`) natural numbers.  Opening of the file and the debug output are
left out.
-/
import Verif.Model.PairIndex
import Mathlib.Algebra.Order.Floor.Semiring
import Mathlib.Algebra.Order.Field.Basic

namespace Verif.PairDist

open Verif.PairIndex

inductive Fault where
  /-- Access behind `pair_table`. -/
  | outOfBounds
  /-- Division by a bin width of zero, converted to `int`. -/
  | undefined
  deriving DecidableEq, Repr

variable {K : Type*} [Field K] [LinearOrder K] [IsStrictOrderedRing K] [FloorSemiring K]

/-- An entry of the neighbour list of an atom: types of the atom and the neighbour, distance.  `col[0]` is `pairCol` of the types
(`src/config.c` 1222-1233). -/
structure Neigh (K : Type*) where
  a : Nat
  b : Nat
  r : K

/-- `pair_dist`, `src/config.c` 1575-1582: both orders of a pair of types write the same entry. -/
def binWidth (n steps : Nat) (rcut : Nat → Nat → K) : Nat → K :=
  ((List.range n).flatMap fun i => (List.range n).map fun k => (i, k)).foldl
    (fun d p => Function.update d (pairCol n p.1 p.2) (rcut p.1 p.2 / steps)) 0

/-- `pair_table` and `max_count`. -/
structure Counts where
  table : Nat → Nat
  max : Nat

/-- `src/config.c` 1588-1600, body of the loop: `size` is the number of entries allocated. -/
def countStep (n steps size : Nat) (w : Nat → K) (k : Nat) (s : Counts) (x : Neigh K) : Except Fault Counts :=
  if pairCol n x.a x.b = k then
    if w k = 0 then .error .undefined
    else
      let pos := k * steps + ⌊x.r / w k⌋₊
      if pos < size then
        let v := s.table pos + 1
        .ok ⟨Function.update s.table pos v, if v > s.max then v else s.max⟩
      else .error .outOfBounds
  else .ok s

/-- `src/config.c` 1584-1603: `xs` are the entries of the lists of all atoms in their order. -/
def countAll (n steps : Nat) (w : Nat → K) (xs : List (Neigh K)) : Except Fault Counts :=
  (List.range (paircol n)).foldlM (fun s k => xs.foldlM (countStep n steps (paircol n * steps) w k) s) ⟨fun _ => 0, 0⟩

/-- A printed number; `0.0 / 0` is not a number. -/
def scaled (v m : Nat) : Option K := if m = 0 then none else some ((v : K) / m)

/-- `src/config.c` 1605-1613: lines of the columns. -/
def lines (n steps : Nat) (w : Nat → K) (s : Counts) : List (List (K × Option K)) :=
  (List.range (paircol n)).map fun k => (List.range steps).map fun (i : Nat) => ((i : K) * w k, scaled (s.table (k * steps + i)) s.max)

/-- `write_pair_distribution_file`; without pair columns (1554-1557) there is no file. -/
def pairDistribution (n steps : Nat) (rcut : Nat → Nat → K) (xs : List (Neigh K)) : Except Fault (Option (List (List (K × Option K)))) :=
  if paircol n = 0 then .ok none
  else match countAll n steps (binWidth n steps rcut) xs with
    | .error e => .error e
    | .ok s => .ok (some (lines n steps (binWidth n steps rcut) s))

end Verif.PairDist
