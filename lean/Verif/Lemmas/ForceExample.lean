/-
A small concrete data set used in the examples beside the force theorems: two atoms of different type,
neighbours of each other, the first also neighbour of its own periodic image; then a second configuration
with a single atom.
-/
import Verif.Spec.ForceEam
import Verif.Spec.Parallel
import Mathlib.Data.Rat.Defs
import Mathlib.Algebra.Order.Ring.Rat
import Mathlib.Algebra.Field.Rat

namespace Verif.Force

/-- Columns 0-2 pair functions, 3-4 transfer functions, 5-6 embedding functions. -/
def exPots : EamPots ℚ where
  fin := fun col => if col < 5 then 3 else 10
  beg := fun _ => 0
  step := fun _ => 1
  val := fun col r => (col + 1) * r * r
  grad := fun col r => 2 * (col + 1) * r
  paircol := 3
  ntypes := 2
  ana := fun _ x => (x, 1)

/-- First configuration. -/
def exConf : Conf ℚ where
  start := 0
  atoms := [⟨0, [⟨1, 1, 1, ![1, 0, 0], ![1, 0, 0], 1, 4⟩, ⟨0, 0, 2, ![0, 2, 0], ![0, 1, 0], 0, 3⟩], 2, true⟩,
    ⟨1, [], 1, true⟩]
  uf := true
  us := true
  weight := 3
  vol := 8
  force0 := fun a => ![(a : ℚ) + 1, 0, 1]
  energy0 := 1
  stress0 := fun _ => 0
  limit0 := 0
  chem := 0

/-- Second configuration: one atom, no neighbours. -/
def exConf2 : Conf ℚ where
  start := 2
  atoms := [⟨1, [], 0, true⟩]
  uf := true
  us := false
  weight := 1
  vol := 1
  force0 := fun _ => ![0, 1, 0]
  energy0 := -2
  stress0 := fun _ => 0
  limit0 := 0
  chem := 0

/-- Compilation with stresses and force weights. -/
def exBuild : Build := ⟨true, true, false, false, false, false⟩

open Verif.Spec

theorem exConf_half : HalfList exConf := by unfold HalfList; decide

theorem exConf2_half : HalfList exConf2 := by unfold HalfList; decide

theorem exConf_cols : EamColumns exPots exConf := by unfold EamColumns; decide

theorem exConf2_cols : EamColumns exPots exConf2 := by unfold EamColumns; decide

theorem exConfs_numbered : Numbered [exConf, exConf2] := by
  intro k c hk
  match k with
  | 0 => simp only [List.getElem?_cons_zero, Option.some.injEq] at hk; subst hk; decide
  | 1 => simp only [List.getElem?_cons_succ, List.getElem?_cons_zero, Option.some.injEq] at hk
         subst hk; decide
  | k + 2 => simp at hk

end Verif.Force
