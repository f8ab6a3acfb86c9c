/-
What the EAM routine is meant to compute with two bands.
-/
import Verif.Spec.Objective
import Verif.Model.ForceTbeam

namespace Verif.Spec

open Verif.Force

variable {K : Type*} [Field K] [LinearOrder K]

/-- Energy of a configuration: pair energies and the embedding energies of both bands. -/
def tbTotal (b : Build) (P : EamPots K) (c : Conf K) : K :=
  totalPairEnergy P.toPots c + totalEmbedding b P c + totalEmbedding b P.second c

/-- Slope of an entry along the connection line, for given slopes of the embedding functions. -/
def tbSlope (P : EamPots K) (gradF gradS : Nat → K) (e : Entry K) : K :=
  pairSlope P.toPots e + eamSlope P gradF e + eamSlope P.second gradS e

/-- The distance is within the range of a transfer function of the first band. -/
def InReach (P : EamPots K) (e : Entry K) : Prop := e.n.r < P.fin (P.paircol + e.n.typ) ∨ e.n.r < P.fin (P.paircol + e.otyp)

instance (P : EamPots K) (e : Entry K) : Decidable (InReach P e) := by unfold InReach; infer_instance

/-- Entries within reach of the second band are within reach of the first. -/
def Covered (P : EamPots K) (c : Conf K) : Prop := ∀ e ∈ entries c, InReach P.second e → InReach P e

/-- Slope used by the routine: without the second band where the first is out of reach. -/
def tbUsed (P : EamPots K) (gradF gradS : Nat → K) (e : Entry K) : K :=
  pairSlope P.toPots e + eamSlope P gradF e + if InReach P e then eamSlope P.second gradS e else 0

/-- Sum of the punishments for densities outside of the tabulated range. -/
def tbExcess (b : Build) (P : EamPots K) (c : Conf K) : K :=
  (c.atoms.zipIdx.map fun ak => (embedAt b P c ak.2 ak.1).limit).sum +
  (c.atoms.zipIdx.map fun ak => (embedAt b P.second c ak.2 ak.1).limit).sum

end Verif.Spec
