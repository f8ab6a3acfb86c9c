/-
The intended layout of the parameter vector: two entries for slopes and the parameters of each potential, then chemical
potentials or electrostatic parameters, then global parameters.
-/
import Verif.Model.ApotLayout

namespace Verif.Spec

open Verif.ApotLayout

variable {K : Type*}

/-- A place of the vector: nothing, or parameter `par` of potential `pot`. -/
abbrev Cell (K : Type*) := Option (Nat × Nat × Par K)

def cellsOf (i : Nat) (frozen : Bool) (ps : List (Par K)) : List (Cell K) :=
  ps.zipIdx.map fun pj => some (i, pj.2, ⟨pj.1.val, frozen || pj.1.fixed⟩)

def cellsFns (fs : List (Fn K)) : List (Cell K) :=
  fs.zipIdx.flatMap fun fi => [none, none] ++ cellsOf fi.2 fi.1.frozen fi.1.pars

def cellsExtra (n : Nat) : Extra K → List (Cell K)
  | .none => []
  | .chem ps => cellsOf n false ps
  | .elstat _ secs => secs.zipIdx.flatMap fun si => cellsOf (n + si.2) false si.1

def cellsGlobals (f : File K) : List (Cell K) :=
  if f.used then cellsOf (globalPot f) false f.globals else []

def cells (f : File K) : List (Cell K) := cellsFns f.fns ++ cellsExtra f.fns.length f.extra ++ cellsGlobals f

/-- Numbers of parameters besides those of potentials fit the number of types. -/
def Fits (f : File K) : Prop :=
  match f.extra with
  | .none => True
  | .chem ps => ps.length = f.ntypes ∧ f.fns.length = f.ntypes * (f.ntypes + 1) / 2
  | .elstat dipole secs => 0 < f.ntypes ∧ (secs.map List.length).sum = f.ntypes + if dipole then f.ntypes * (f.ntypes + 2) else 0

/-- No chemical potential is fixed. -/
def ChemFree : Extra K → Prop
  | .chem ps => ∀ p ∈ ps, p.fixed = false
  | _ => True

end Verif.Spec
