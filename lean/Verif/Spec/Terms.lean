/-
Energies composed of terms, each depending on vectors from one atom to some of its neighbours.
-/
import Verif.Spec.Force

namespace Verif.Spec

open Verif.Force

variable {K : Type*} [Field K] [LinearOrder K]

/-- A neighbour together with the derivative of an energy with respect to the vector leading to it. -/
structure Pull (K : Type*) where
  n : Neigh K
  g : V3 K

/-- An energy depending on the vectors from atom `own` to the neighbours in `pulls`. -/
structure Term (K : Type*) where
  own : Nat
  energy : K
  pulls : List (Pull K)

/-- Force on atom `a`: minus the derivative with respect to its position. -/
def Term.force (t : Term K) (a : Nat) : V3 K :=
  (t.pulls.map fun p => (if a = t.own then p.g else 0) - (if a = p.n.nr then p.g else 0)).sum

/-- Derivative of the energy if all vectors `v` are replaced by `v + e * v β` in direction `α`. -/
def Term.strain (t : Term K) (α β : Fin 3) : K := (t.pulls.map fun p => p.g α * p.n.dist β).sum

/-- The terms of atoms `i, i+1, …`, given those of one atom. -/
def termsFrom {β : Type*} (site : Nat → β → List (Term K)) : Nat → List β → List (Term K)
  | _, [] => []
  | i, a :: as => site i a ++ termsFrom site (i + 1) as

/-- All pairs of an element of the list and a later one. -/
def pairsOf {α : Type*} : List α → List (α × α)
  | [] => []
  | a :: as => as.map (fun x => (a, x)) ++ pairsOf as

/-- Energy of the terms. -/
def sumEnergy (ts : List (Term K)) : K := (ts.map Term.energy).sum

/-- Force of the terms on atom `a`. -/
def sumForce (ts : List (Term K)) (a : Nat) : V3 K := (ts.map fun t => t.force a).sum

/-- Strain derivative of the terms. -/
def sumStrain (ts : List (Term K)) (α β : Fin 3) : K := (ts.map fun t => t.strain α β).sum

end Verif.Spec
