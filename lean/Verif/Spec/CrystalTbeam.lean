/-
Energy of an infinite periodic crystal with a two-band EAM potential.
-/
import Verif.Spec.Crystal
import Verif.Spec.ForceTbeam

namespace Verif.Spec

open Verif.Force
open Verif.Neighbors

/-- Embedding energy of one band, per cell. -/
noncomputable def latticeEmbedding (b : Build) (P : EamPots ℝ) (c : Cell) : ℝ :=
  ∑ i ∈ Finset.range c.sites.length, (embed b P (P.paircol + P.ntypes + (c.site i).typ) (latticeDensity P c i)).value

/-- Energy of the crystal per cell: pair energy and the embedding energies of both bands. -/
noncomputable def latticeTb (b : Build) (P : EamPots ℝ) (c : Cell) : ℝ :=
  latticePair P.toPots c + latticeEmbedding b P c + latticeEmbedding b P.second c

end Verif.Spec
