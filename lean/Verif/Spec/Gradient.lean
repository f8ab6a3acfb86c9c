/-
A configuration with fixed neighbour lists as a function of the positions of its atoms.
-/
import Verif.Spec.Neighbors
import Verif.Spec.ForceEam

namespace Verif.Spec

open Verif.Force

/-- An entry of a neighbour list without the distance: the neighbour, its type, the lattice vector by which it is
shifted, and the columns of the potential table. -/
structure Link where
  nr : Nat
  typ : Nat
  shift : V3 ℝ
  col0 : Nat
  col1 : Nat

/-- An atom with the entries of its neighbour list. -/
structure Node where
  typ : Nat
  links : List Link
  absforce : ℝ
  contrib : Bool

/-- Vector from atom `own` to the neighbour. -/
def reach (x : Nat → V3 ℝ) (own : Nat) (l : Link) : V3 ℝ := x l.nr + l.shift - x own

/-- The entry with distance, direction and distance vector for atoms at positions `x`. -/
noncomputable def placed (x : Nat → V3 ℝ) (own : Nat) (l : Link) : Neigh ℝ :=
  { nr := l.nr
    typ := l.typ
    r := length (reach x own l)
    dist := fun k => reach x own l k / length (reach x own l) * length (reach x own l)
    distR := fun k => reach x own l k / length (reach x own l)
    col0 := l.col0
    col1 := l.col1 }

noncomputable def placeFrom (x : Nat → V3 ℝ) : Nat → List Node → List (Atom ℝ)
  | _, [] => []
  | i, a :: as => ⟨a.typ, a.links.map (placed x i), a.absforce, a.contrib⟩ :: placeFrom x (i + 1) as

/-- The configuration `f` with the atoms `ts` at positions `x`. -/
noncomputable def place (f : Conf ℝ) (ts : List Node) (x : Nat → V3 ℝ) : Conf ℝ :=
  { f with atoms := placeFrom x f.start ts }

/-- Component `k` of the position of atom `a` replaced by `t`. -/
def moved (x : Nat → V3 ℝ) (a : Nat) (k : Fin 3) (t : ℝ) : Nat → V3 ℝ :=
  Function.update x a (Function.update (x a) k t)

end Verif.Spec
