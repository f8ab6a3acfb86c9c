/-
What the neighbour lists are meant to contain.
-/
import Verif.Model.Neighbors

namespace Verif.Spec

open Verif.Force Verif.Neighbors

/-- Euclidean length. -/
noncomputable def length (v : V3 ℝ) : ℝ := Real.sqrt (∑ k : Fin 3, v k ^ 2)

/-- Vector from atom `i` to the image of atom `m.j` shifted by `m.n` cell vectors. -/
def arrow (c : Cell) (i : Nat) (m : Image) : V3 ℝ :=
  (c.site m.j).pos + (∑ k : Fin 3, (m.n k : ℝ) • c.box.edge k) - (c.site i).pos

/-- The position lies in the cell: fractional coordinates in `[0,1)`. -/
def InCell (edge : Fin 3 → V3 ℝ) (p : V3 ℝ) : Prop :=
  ∃ s : Fin 3 → ℝ, (∀ k, 0 ≤ s k ∧ s k < 1) ∧ p = ∑ k : Fin 3, s k • edge k

/-- The images which belong into the list of atom `i`: atoms of the configuration (without `full` only those
not before `i`), not the atom itself, within the cutoff. -/
def Wanted (full : Bool) (cut : Cutoffs) (c : Cell) (i : Nat) (m : Image) : Prop :=
  m.j < c.sites.length ∧ (full = true ∨ i ≤ m.j) ∧ ¬ (m.j = i ∧ m.n = 0) ∧
  length (arrow c i m) ≤ cut.rcut (c.site i).typ (c.site m.j).typ

end Verif.Spec
