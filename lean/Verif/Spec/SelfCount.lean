/-
Energies of periodic cells without reference to neighbour lists, and the same crystal described by a larger cell.
-/
import Verif.Spec.Neighbors
import Mathlib.Algebra.BigOperators.Finprod

namespace Verif.Spec

open Verif.Force Verif.Neighbors

/-- Sum over all interaction vectors from atom `i` to atoms and images within the cutoff; `ψ` is given the type
of the other atom and the length. -/
noncomputable def around (cut : Cutoffs) (c : Cell) (i : Nat) (ψ : Nat → ℝ → ℝ) : ℝ :=
  ∑ᶠ m ∈ {m | Wanted true cut c i m}, ψ (c.site m.j).typ (length (arrow c i m))

/-- Pair function of two types, zero beyond its range. -/
noncomputable def phi (P : Pots ℝ) (ntypes s t : Nat) (r : ℝ) : ℝ :=
  if r < P.fin (PairIndex.pairCol ntypes s t) then P.val (PairIndex.pairCol ntypes s t) r else 0

/-- Pair energy of the cell: one half for every interaction vector. -/
noncomputable def crystalPair (cut : Cutoffs) (P : Pots ℝ) (c : Cell) : ℝ :=
  ∑ i ∈ Finset.range c.sites.length, (1 / 2) * around cut c i (phi P c.ntypes (c.site i).typ)

/-- The same crystal with `M` cells along direction `d` taken as one; copy `a` of atom `i` is number `a * N + i`. -/
def supercell (d : Fin 3) (M : Nat) (edge : Fin 3 → V3 ℝ) (box : Box ℝ) (start : Nat) (c : Cell) : Cell :=
  { c with
    box := box
    start := start
    sites := (List.range (M * c.sites.length)).map fun J =>
      ⟨(c.site (J % c.sites.length)).typ,
        (c.site (J % c.sites.length)).pos + ((J / c.sites.length : Nat) : ℝ) • edge d⟩ }

/-- Its cell vectors. -/
def superEdge (d : Fin 3) (M : Nat) (edge : Fin 3 → V3 ℝ) : Fin 3 → V3 ℝ := fun k =>
  if k = d then (M : ℝ) • edge k else edge k

end Verif.Spec
