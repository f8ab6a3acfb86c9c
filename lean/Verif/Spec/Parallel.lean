/-
Numbering of atoms and configurations, and the memory cells that hold results of an evaluation.
-/
import Verif.Model.Gather

namespace Verif.Spec

open Verif.Force Verif.Mpi

variable {K : Type*}

/-- Number of atoms of configuration `k`. -/
def inconf (confs : List (Conf K)) (k : Nat) : Nat :=
  match confs[k]? with | some c => c.atoms.length | none => 0

/-- Atoms are numbered through the configurations. -/
def Numbered (confs : List (Conf K)) : Prop :=
  ∀ k c, confs[k]? = some c → c.start = ((List.range k).map (inconf confs)).sum

/-- Cells whose content is a result of the evaluation: force on every atom, energy and stresses of every
configuration, and with `RESCALE` (EAM) the limiting constraints. -/
def ResultCell (b : Build) (eam : Bool) (confs : List (Conf K)) : Cell → Prop
  | .force a _ => a < ((List.range confs.length).map (inconf confs)).sum
  | .energy c => c < confs.length
  | .stress c _ => b.stress = true ∧ c < confs.length
  | .limit c => b.rescale = true ∧ eam = true ∧ c < confs.length
  | .rho _ => False
  | .gradF _ => False

end Verif.Spec
