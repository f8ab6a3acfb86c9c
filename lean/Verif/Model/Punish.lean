/-
The report on the constraints: `write_eam_punishments` of `src/errors.c` 477-547, compiled with `EAM`, `ADP` or `MEAM` and without
`NOPUNISH`.

Simplifications:
* Doubles are elements of an ordered field `K`; a quotient with divisor zero is `none` (`shown`).
* The force vector is split into its sections (positions: `Model/Sections.lean`): `limit_p + i` is `v.limit i`, `dummy_p + i` is
  `dummy i`.  `force_0[limit_p + i]` is `limit0` of configuration `i`.
* Names of the elements, formats and headings are left out.
-/
import Verif.Model.Errors
import Verif.Model.ForceEam

namespace Verif.Force

variable {K : Type*} [Field K] [LinearOrder K]

/-- A line of the limiting constraints, 498-508: number of the configuration, `p^2`, `punishment`; on the terminal also reference and
ratio. -/
structure LimitRow (K : Type*) where
  conf : Nat
  sqr : K
  value : K
  ref : K
  ratio : Option K

/-- Number `i` of the loop 498-508. -/
def limitRow (v : FV K) (ck : Conf K × Nat) : LimitRow K :=
  let x := v.limit ck.2
  ⟨ck.2, x * x, x + ck.1.limit0, ck.1.limit0, shown x ck.1.limit0⟩

/-- A line of the dummy constraints in the file, 511-525: `U^2`, `U'^2`, `U`, `U'`. -/
structure GaugeRow (K : Type*) where
  u2 : K
  du2 : K
  u : K
  du : K

/-- The line of type `i`, 513-524. -/
def gaugeRow (b : Build) (ntypes : Nat) (dummy : Nat → K) (i : Nat) : GaugeRow K :=
  if b.rescale then ⟨dummy (i + ntypes) * dummy (i + ntypes), dummy i * dummy i, dummy (i + ntypes), dummy i⟩
  else ⟨0, dummy i * dummy i, 0, dummy i⟩

/-- The lines on the mean density, 526-536: `<n>`, its deviation, the additional punishment. -/
structure MeanLines (K : Type*) where
  mean : K
  deviation : K
  additional : K

/-- Written without `RESCALE`. -/
def meanLines (b : Build) (ntypes : Nat) (dummy : Nat → K) : Option (MeanLines K) :=
  if b.rescale then none
  else some ⟨dummy ntypes / dummyWeight + 1, dummy ntypes / dummyWeight, dummy ntypes * dummy ntypes⟩

/-- The punishment file. -/
structure PunishFile (K : Type*) where
  limits : List (LimitRow K)
  gauges : List (GaugeRow K)
  mean : Option (MeanLines K)

/-- With `write_output_files`, 486-539. -/
def punishFile (b : Build) (ntypes : Nat) (confs : List (Conf K)) (v : FV K) (dummy : Nat → K) : PunishFile K :=
  ⟨confs.zipIdx.map (limitRow v), (List.range ntypes).map (gaugeRow b ntypes dummy), meanLines b ntypes dummy⟩

/-- Without output files, 495-507 and 540-545: the same lines on the limiting constraints; of the dummy constraints the square and the
value of the first `ntypes` entries. -/
structure PunishTerminal (K : Type*) where
  limits : List (LimitRow K)
  gauges : List (K × K)

/-- What is printed. -/
def punishTerminal (ntypes : Nat) (confs : List (Conf K)) (v : FV K) (dummy : Nat → K) : PunishTerminal K :=
  ⟨confs.zipIdx.map (limitRow v), (List.range ntypes).map fun i => (dummy i * dummy i, dummy i)⟩

end Verif.Force
