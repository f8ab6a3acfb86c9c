/-
Evaluation of the objective with a KIM model: `update_kim_model` and `calc_forces` of `src/force_kim.c`
53-113 and 164-307 (one process; `wscript` forbids MPI with KIM).

Simplifications:
* The KIM model is an arbitrary function `Compute` of its parameters and the configuration number, which
  yields energy, forces of all particles (real atoms and images) and virial.  The check of the cutoff distances
  (78-113) is left out: the model's cutoffs do not change.
* All parameters are doubles (others are skipped, 63-65); they are numbered as in `xi_opt`.
* The square roots of the weights are given numbers (`sw*`).
* The punishments (267-288) are added to the sum; where they are stored is the subject of C22, here they
  have a section of their own.
-/
import Verif.Model.Objective

namespace Verif.Force

variable {K : Type*} [Field K] [LinearOrder K]

/-- What a KIM model computes for one configuration. -/
structure KimResult (K : Type*) where
  energy : K
  forces : List (V3 K)
  virial : Fin 6 → K

/-- One configuration: number of the first atom, atoms with force weights, `source[i]` is
`source_atom[h][i]`, the number of the atom particle `i` is an image of. -/
structure KimConf (K : Type*) where
  start : Nat
  atoms : List (Atom K)
  source : List Nat
  uf : Bool
  us : Bool
  swForce : K
  swEnergy : K
  swStress : K
  vol : K
  force0 : Nat → V3 K
  energy0 : K
  stress0 : Fin 6 → K

/-- State which survives an evaluation: parameters inside the KIM model, force vector, punishments. -/
structure KimState (K : Type*) where
  model : Nat → K
  fv : FV K
  par : Nat → K

/-- `update_kim_model`, 53-75, for one parameter: `cache` is `g_kim.params[i].values[j].d`, read once when the
model is set up (`src/kim.c` 120-126) and never written again. -/
def kimUpdate (cache xi model : Nat → K) : Nat → K := fun i =>
  if xi i ≠ cache i then xi i else model i

/-- Collect the forces of all particles at their source atoms, 200-206: the entries are not reset. -/
def kimGather : List Nat → List (V3 K) → (Nat → V3 K) → Nat → V3 K
  | a :: as, f :: fs, force => kimGather as fs (addAt force a f)
  | _, _, force => force

/-- Forces and errors of the atoms, 208-239. -/
def kimAtoms (b : Build) (c : KimConf K) : List (Atom K) → Nat → (Nat → V3 K) × K → (Nat → V3 K) × K
  | [], _, s => s
  | a :: as, i, s =>
    let f : V3 K := if c.uf then fun k => c.swForce * (s.1 i k - c.force0 i k) else 0
    let f : V3 K := if b.fweight then fun k => f k / (forceEps + a.absforce) else f
    kimAtoms b c as (i + 1)
      (Function.update s.1 i f, if !b.contrib || a.contrib then s.2 + sq3 f else s.2)

/-- One configuration, 175-265. -/
def kimConf (b : Build) (compute : Nat → KimResult K) (h : Nat) (c : KimConf K) (fv : FV K) : FV K × K :=
  let r := compute h
  let s := kimAtoms b c c.atoms c.start (kimGather c.source r.forces fv.force, 0)
  let e := c.swEnergy * r.energy - c.swEnergy * c.energy0
  let st : Fin 6 → K := if c.uf && c.us then
      fun k => c.swStress * r.virial k / c.vol - c.swStress * c.stress0 k
    else 0
  let err := s.2 + e * e
  let err := if b.stress && c.uf && c.us then err + (List.ofFn fun k => st k * st k).sum else err
  (⟨s.1, Function.update fv.energy h e, if b.stress then Function.update fv.stress h st else fv.stress,
    fv.limit⟩, err)

/-- `calc_forces` of `src/force_kim.c`: new state and returned value for the parameters `xi`; `bounds` are the
fitted parameters with their bounds. -/
def kimObjective (b : Build) (compute : (Nat → K) → Nat → KimResult K) (cache : Nat → K)
    (confs : List (KimConf K)) (bounds : (Nat → K) → List (Bound K)) (xi : Nat → K) (s : KimState K) :
    KimState K × K :=
  let model := kimUpdate cache xi s.model
  let r := confLoop (kimConf b (compute model)) confs 0 (s.fv, 0)
  let p := punishPars (bounds xi) 0 ⟨s.par, 0, 0⟩
  (⟨model, r.1, p.par⟩, r.2 + p.sum)

end Verif.Force
