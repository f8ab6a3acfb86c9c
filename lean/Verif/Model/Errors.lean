/-
The error report: `write_errors`, `write_force_errors`, `write_energy_errors` and `write_stress_errors` of
`src/errors.c` 45-471.

Simplifications:
* Doubles are elements of an ordered field `K`.  A quotient with divisor zero is printed as `inf` or `nan` by the C code;
  here it is `none`.
* The force vector is split into its sections (`FV`, positions: `Model/Sections.lean`); `write_errors` uses the positions
  `3 natoms + i` and `3 natoms + nconf + 6 i + j` for the entries which the other routines address by `energy_p` and `stress_p`.
* Of the root-mean-square deviations the mean squares are modelled, i.e. the arguments of `sqrt`.
* File names, formats and the choice between file and terminal are left out; the file holds more columns (386-391), they are in
  the rows below.
-/
import Verif.Model.Force

namespace Verif.Force

variable {K : Type*} [Field K] [LinearOrder K]

/-- `g_config.atoms` with `atoms[i].conf`, configurations numbered from `k`. -/
def atomsFrom : List (Conf K) → Nat → List (Nat × Atom K)
  | [], _ => []
  | c :: cs, k => c.atoms.map (fun a => (k, a)) ++ atomsFrom cs (k + 1)

/-- All atoms with the number of their configuration. -/
def allAtoms (confs : List (Conf K)) : List (Nat × Atom K) := atomsFrom confs 0

/-- A quotient which is printed. -/
def shown (a b : K) : Option K := if b = 0 then none else some (a / b)

/-- A line of the force file, 299-333: configuration, `df^2`, `f`, `f0`, `df/f0`. -/
structure ForceRow (K : Type*) where
  conf : Nat
  sqr : K
  f : K
  f0 : K
  ratio : Option K

/-- Weight of the deviation of an atom (`FWEIGHT`). -/
def reportScale (b : Build) (a : Atom K) : K := if b.fweight then forceEps + a.absforce else 1

/-- Number `i` of the loop over `3 natoms` entries, 300-332.  Without `FWEIGHT` the factor does not occur. -/
def forceRow (b : Build) (confs : List (Conf K)) (v : FV K) (i : Nat) : Option (ForceRow K) :=
  match (allAtoms confs)[i / 3]? with
  | none => none
  | some (k, a) =>
    match confs[k]? with
    | none => none
    | some c =>
      let x := v.force (i / 3) (Fin.ofNat 3 (i % 3))
      let f0 := c.force0 (i / 3) (Fin.ofNat 3 (i % 3))
      some ⟨k, if b.contrib && !a.contrib then 0 else c.weight * (x * x),
        if b.fweight then x * reportScale b a + f0 else x + f0, f0, shown x f0⟩

/-- The lines of the force file. -/
def forceRows (b : Build) (confs : List (Conf K)) (v : FV K) : List (ForceRow K) :=
  (List.range (3 * (allAtoms confs).length)).filterMap (forceRow b confs v)

/-- `force_error`. -/
def forceSum (b : Build) (confs : List (Conf K)) (v : FV K) : K := ((forceRows b confs v).map ForceRow.sqr).sum

/-- A line of the energy file, 380-400: weight, `w*de^2`, the same with the weight of the configuration, `e`, `e0`, `e-e0`,
`de/e0`. -/
structure EnergyRow (K : Type*) where
  weight : K
  unweighted : Option K
  sqr : K
  e : K
  e0 : K
  dev : K
  ratio : Option K

/-- Configuration number `i`. -/
def energyRow (ew : K) (confs : List (Conf K)) (v : FV K) (i : Nat) : Option (EnergyRow K) :=
  match confs[i]? with
  | none => none
  | some c =>
    let x := v.energy i
    let sqr := c.weight * ew * (x * x)
    some ⟨c.weight, shown sqr c.weight, sqr, x + c.energy0, c.energy0, x, shown x c.energy0⟩

/-- The lines of the energy file. -/
def energyRows (ew : K) (confs : List (Conf K)) (v : FV K) : List (EnergyRow K) :=
  if ew = 0 then [] else (List.range confs.length).filterMap (energyRow ew confs v)

/-- `energy_error`. -/
def energySum (ew : K) (confs : List (Conf K)) (v : FV K) : K := ((energyRows ew confs v).map EnergyRow.sqr).sum

/-- A line of the stress file, 454-462. -/
structure StressRow (K : Type*) where
  conf : Nat
  sqr : K
  s : K
  s0 : K
  ratio : Option K

/-- Number `i` of the loop over `6 nconf` entries. -/
def stressRow (sw : K) (confs : List (Conf K)) (v : FV K) (i : Nat) : Option (StressRow K) :=
  match confs[i / 6]? with
  | none => none
  | some c =>
    let x := v.stress (i / 6) (Fin.ofNat 6 (i % 6))
    let s0 := c.stress0 (Fin.ofNat 6 (i % 6))
    some ⟨i / 6, c.weight * sw * (x * x), x + s0, s0, shown x s0⟩

/-- The lines of the stress file. -/
def stressRows (b : Build) (sw : K) (confs : List (Conf K)) (v : FV K) : List (StressRow K) :=
  if b.stress && !decide (sw = 0) then (List.range (6 * confs.length)).filterMap (stressRow sw confs v) else []

/-- `stress_error`. -/
def stressSum (b : Build) (sw : K) (confs : List (Conf K)) (v : FV K) : K :=
  ((stressRows b sw confs v).map StressRow.sqr).sum

/-- State of the loop 79-99: sum and number of the atoms counted. -/
def rmsForceStep (b : Build) (v : FV K) (s : K × Nat) (ai : (Nat × Atom K) × Nat) : K × Nat :=
  if b.contrib && !ai.1.2.contrib then s
  else (s.1 + sq3 (fun x => v.force ai.2 x * reportScale b ai.1.2), s.2 + 1)

/-- Mean square of the force deviations, 74-105. -/
def meanForce (b : Build) (confs : List (Conf K)) (v : FV K) : Option K :=
  let s := (allAtoms confs).zipIdx.foldl (rmsForceStep b v) (0, 0)
  if b.contrib then shown s.1 ((3 * s.2 : Nat) : K) else shown s.1 ((3 * (allAtoms confs).length : Nat) : K)

/-- Mean square of the energy deviations, 107-114. -/
def meanEnergy (ew : K) (confs : List (Conf K)) (v : FV K) : Option K :=
  if ew = 0 then some 0
  else shown ((List.range confs.length).map fun i => v.energy i * v.energy i).sum ((confs.length : Nat) : K)

/-- Mean square of the stress deviations, 116-127. -/
def meanStress (b : Build) (sw : K) (confs : List (Conf K)) (v : FV K) : Option K :=
  if b.stress && !decide (sw = 0) then
    shown ((List.range confs.length).map fun i =>
      ((List.range 6).map fun j => v.stress i (Fin.ofNat 6 j) * v.stress i (Fin.ofNat 6 j)).sum).sum ((6 * confs.length : Nat) : K)
  else some 0

/-- What is printed beside the root mean square of the stresses as a number of MPa, 171, 177, 207. -/
def inMPa (x : K) : K := x / (1602 / 10) * 1000

/-- The final report, 55-209. -/
structure Report (K : Type*) where
  total : K
  force : K
  energy : K
  stress : K
  /-- Percentages. -/
  forcePart : Option K
  energyPart : Option K
  stressPart : Option K
  /-- The warning about punishments with their sum. -/
  punish : Option K
  rmsForce : Option K
  rmsEnergy : Option K
  rmsStress : Option K

/-- A percentage. -/
def percent (x tot : K) : Option K := (shown x tot).map (· * 100)

/-- `write_errors`; `opt` is `g_param.opt == 1`. -/
def writeErrors (b : Build) (opt : Bool) (ew sw : K) (confs : List (Conf K)) (v : FV K) (tot : K) : Report K :=
  let f := forceSum b confs v
  let e := energySum ew confs v
  let s := stressSum b sw confs v
  { total := tot, force := f, energy := e, stress := s
    forcePart := percent f tot
    energyPart := percent e tot
    stressPart := percent s tot
    punish := if 1 / 100 < tot - f - e - s ∧ opt = true then some (tot - f - e - s) else none
    rmsForce := meanForce b confs v
    rmsEnergy := meanEnergy ew confs v
    rmsStress := meanStress b sw confs v }

end Verif.Force
