/-
Configurations with fixed neighbour lists while atoms move or the cell is strained.
-/
import Verif.Spec.Gradient
import Verif.Spec.Terms
import Mathlib.Analysis.Calculus.Deriv.Basic

namespace Verif.Spec

open Verif.Force

/-- The entry of a neighbour list for the vector `v` leading to the neighbour. -/
noncomputable def placedAt (v : V3 ℝ) (l : Link) : Neigh ℝ :=
  { nr := l.nr
    typ := l.typ
    r := length v
    dist := fun k => v k / length v * length v
    distR := fun k => v k / length v
    col0 := l.col0
    col1 := l.col1 }

noncomputable def placeWithFrom (rf : Nat → Link → V3 ℝ) : Nat → List Node → List (Atom ℝ)
  | _, [] => []
  | i, a :: as => ⟨a.typ, a.links.map fun l => placedAt (rf i l) l, a.absforce, a.contrib⟩ :: placeWithFrom rf (i + 1) as

/-- The configuration `f` with the atoms `ts`, the vector of entry `l` of atom `i` being `rf i l`. -/
noncomputable def placeWith (f : Conf ℝ) (ts : List Node) (rf : Nat → Link → V3 ℝ) : Conf ℝ :=
  { f with atoms := placeWithFrom rf f.start ts }

/-- The vector `v` in a cell strained by `e` in component `α β`. -/
def strained (e : ℝ) (α β : Fin 3) (v : V3 ℝ) : V3 ℝ := fun k => v k + if k = α then e * v β else 0

/-- The configuration at positions `x` after positions and cell have been strained. -/
noncomputable def placeStrained (f : Conf ℝ) (ts : List Node) (x : Nat → V3 ℝ) (α β : Fin 3) (e : ℝ) : Conf ℝ :=
  placeWith f ts fun i l => strained e α β (reach x i l)

/-- Energy of configuration `c`, taken from its entry in the force vector (energy per atom minus reference). -/
noncomputable def reportedEnergy (res : Conf ℝ → FV ℝ) (ci : Nat) (c : Conf ℝ) : ℝ :=
  ((res c).energy ci + c.energy0) * c.atoms.length

/-- Force on atom `a`, taken from the force vector (with `FWEIGHT` divided by a scale, minus reference). -/
noncomputable def reportedForce (b : Build) (v : FV ℝ) (c : Conf ℝ) (absforce : ℝ) (a : Nat) : V3 ℝ :=
  fun k => v.force a k * (if b.fweight then 1 / 10 + absforce else 1) + c.force0 a k

/-- Stress times volume, taken from the force vector. -/
noncomputable def reportedVirial (v : FV ℝ) (ci : Nat) (c : Conf ℝ) : Fin 6 → ℝ :=
  fun k => (v.stress ci k + c.stress0 k) * c.vol

/-- An entry of a neighbour list: atom, neighbour, lattice vector and column of the pair function. -/
structure Arrow where
  own : Nat
  nr : Nat
  shift : V3 ℝ
  col : Nat

/-- The entry by which the neighbour sees the atom. -/
def Arrow.back (a : Arrow) : Arrow := ⟨a.nr, a.own, -a.shift, a.col⟩

/-- All entries of the lists of the atoms `i, i+1, …`. -/
def arrowsFrom : Nat → List Node → List Arrow
  | _, [] => []
  | i, a :: as => (a.links.map fun l => ⟨i, l.nr, l.shift, l.col0⟩) ++ arrowsFrom (i + 1) as

/-- Every entry occurs as often as the one in the opposite direction: the lists are full lists. -/
def Mutual (f : Conf ℝ) (ts : List Node) : Prop :=
  (arrowsFrom f.start ts).Perm ((arrowsFrom f.start ts).map Arrow.back)

/-- A function cut off at `fin` has the slope `grad` at `r`. -/
def CutSlope (fin : ℝ) (val : ℝ → ℝ) (grad : ℝ) (r : ℝ) : Prop :=
  HasDerivAt (fun r => if r < fin then val r else 0) (if r < fin then grad else 0) r

end Verif.Spec
