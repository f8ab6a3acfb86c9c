/-
`rescale` of `src/rescale_meam.c` 49-599 (MEAM, tabulated potentials).
Simplifications: those of `Model/Rescale.lean`. The interaction `meam` defines `MEAM` only (`wscript` 86-92), so the part within
`#if defined(EAM)` (480-587) is not compiled. Splines are initialised by `spline_ed` (104-119), the tables being equidistant; the
arguments of the functions `g` are not checked against their range.
-/
import Verif.Model.Rescale
import Verif.Model.ThreeBody

namespace Verif.Rescale

open Verif.Force Verif.PairIndex

/-- The potential: besides the functions of EAM the functions `f` by pair column and `g` by type of the central atom. -/
structure MeamPot (K : Type*) extends Pot K where
  f : Nat → Tab K
  g : Nat → Tab K

variable {K : Type*} [Field K] [LinearOrder K]

/-- `neigh->f`, `src/rescale_meam.c` 156-175: `typ` is the type of the atom which owns the list. -/
def fValue (I : Interp K) (P : MeamPot K) (typ : Nat) (n : Neigh K) : K :=
  let T := P.f (if typ ≤ n.typ then typ * P.ntypes + n.typ - typ * (typ + 1) / 2 else n.typ * P.ntypes + typ - n.typ * (n.typ + 1) / 2)
  if n.r < T.fin then I.val T n.r else 0

/-- Density of an atom as recalculated, `src/rescale_meam.c` 130-204. -/
def meamRho (I : Interp K) (P : MeamPot K) (a : Atom K) : K :=
  let rho := a.neigh.foldl (fun rho n => if n.r < (P.rho n.typ).fin then rho + I.val (P.rho n.typ) n.r else rho) 0
  pairsLoop (fun _ => true) (fun rho nj nk => rho + fValue I P a.typ nj * fValue I P a.typ nk * I.val (P.g a.typ) (cosine nj nk)) a.neigh rho

/-- Largest and smallest densities, `src/rescale_meam.c` 87-90, 123-221; `big` is `1e100`. -/
def meamRanges (I : Interp K) (P : MeamPot K) (big : K) (confs : List (Conf K)) : Range K :=
  confs.foldl (fun g c => c.atoms.foldl (fun g a => g.add a.typ (meamRho I P a)) g) ⟨fun _ => -big, fun _ => big⟩

/-- Scaled function, `src/rescale_meam.c` 332-342 for `rho`, 350-361 for `g`: unlike `src/rescale.c` both slopes are scaled. -/
def scaleBoth (a : K) (T : Tab K) : Tab K :=
  { T with y := fun j => a * T.y j, gl := if T.gl < free then T.gl * a else T.gl, gr := if T.gr < free then T.gr * a else T.gr }

/-- The changes of the potential, `src/rescale_meam.c` 274-476, for given factor and boundaries. -/
def meamChange (I : Interp K) (P : MeamPot K) (c : Choice K) : Except Fault (MeamPot K) := do
  let emb ← eachType P.ntypes (fun i => do
    let T ← resample I (P.emb i) (c.left i) (c.right i)
    scaleEmb c.pos c.a (c.left i) (c.right i) T) P.emb
  pure { P with
    rho := fun i => if i < P.ntypes then scaleBoth c.a (P.rho i) else P.rho i
    g := fun i => if i < P.ntypes then scaleBoth c.a (P.g i) else P.g i
    emb := emb }

/-- `rescale`, `src/rescale_meam.c` 49-599: returned factor (0 if nothing is to be done) and potential. Sides, boundaries, factor and the
need of an update (222-271) are found as in `src/rescale.c`. -/
def meamRescale (I : Interp K) (big upper : K) (flag : Bool) (confs : List (Conf K)) (P : MeamPot K) : Except Fault (K × MeamPot K) := do
  let c ← choose P.toPot big upper flag (meamRanges I P big confs)
  if c.update then
    let Q ← meamChange I P c
    pure (c.a, Q)
  else pure (0, P)

end Verif.Rescale
