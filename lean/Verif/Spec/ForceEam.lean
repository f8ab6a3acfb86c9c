/-
What the EAM routine is meant to compute.
-/
import Verif.Spec.Force
import Verif.Model.ForceEam

namespace Verif.Spec

open Verif.Force

variable {K : Type*} [Field K] [LinearOrder K]

/-- Columns and types of the neighbour entries: `col[1]` is the transfer function of the neighbour's
type (`src/config.c` 1242), and an atom's own image has the atom's type. -/
def EamColumns (P : EamPots K) (c : Conf K) : Prop :=
  ∀ e ∈ entries c, e.n.col1 = P.paircol + e.n.typ ∧ (e.n.nr = e.own → e.n.typ = e.otyp)

/-- Transfer function of atoms of type `t` at distance `r`, zero beyond its range. -/
def transfer (P : EamPots K) (t : Nat) (r : K) : K :=
  if r < P.fin (P.paircol + t) then P.val (P.paircol + t) r else 0

/-- Its slope. -/
def transferSlope (P : EamPots K) (t : Nat) (r : K) : K :=
  if r < P.fin (P.paircol + t) then P.grad (P.paircol + t) r else 0

/-- Density an entry adds at atom `a`: the owner receives the transfer function of the neighbour's type,
the neighbour that of the owner's type; an atom receives the density of its own image once. -/
def densityOn (P : EamPots K) (e : Entry K) (a : Nat) : K :=
  (if a = e.own then transfer P e.n.typ e.n.r else 0) +
  (if a = e.n.nr ∧ e.n.nr ≠ e.own then transfer P e.otyp e.n.r else 0)

/-- Total density at atom `a`. -/
def totalDensity (P : EamPots K) (c : Conf K) (a : Nat) : K :=
  ((entries c).map fun e => densityOn P e a).sum

/-- Embedding of atom number `k` of the configuration. -/
def embedAt (b : Build) (P : EamPots K) (c : Conf K) (k : Nat) (a : Atom K) : Embed K :=
  embed b P (P.paircol + P.ntypes + a.typ) (totalDensity P c (c.start + k))

/-- Sum of the embedding energies. -/
def totalEmbedding (b : Build) (P : EamPots K) (c : Conf K) : K :=
  (c.atoms.zipIdx.map fun ak => (embedAt b P c ak.2 ak.1).value).sum

/-- Slope of the EAM interaction along the connection line, `gradF` being the slopes of the embedding
functions. -/
def eamSlope (P : EamPots K) (gradF : Nat → K) (e : Entry K) : K :=
  transferSlope P e.n.typ e.n.r * gradF e.own + transferSlope P e.otyp e.n.r * gradF e.n.nr

end Verif.Spec
