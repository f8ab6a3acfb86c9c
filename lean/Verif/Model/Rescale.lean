/-
`rescale` and `embed_shift` of `src/rescale.c` 51-438 (EAM, tabulated potentials).
Simplifications: exact arithmetic; a function of the potential is a record of its own (`Tab`) instead of a section of the common table;
the spline routines are an arbitrary pair of functions (`Interp`) of the table as it is when the spline is initialised. In the C code
the spline is initialised before each use, after the last change of the values of the function (81-111, 287-309); the linear
terms taken from the embedding functions (363-376) do not change the second derivatives. Pair and transfer functions are always
initialised with slope 0.0 on the right (287-296, 379-389): their `gr` is 0 (`TabEnds` in C45).
-/
import Verif.Model.ForceEam
import Verif.Model.PairIndex

namespace Verif.Rescale

open Verif.Force Verif.PairIndex

/-- One function: `begin`, `end`, `step`, number of values, `xcoord`, values, and the slopes at both ends (the two entries in front of
the values; above `1e30` the end is free). -/
structure Tab (K : Type*) where
  beg : K
  fin : K
  step : K
  n : Nat
  x : Nat → K
  y : Nat → K
  gl : K
  gr : K

/-- The potential: pair functions by column, transfer and embedding functions by type. -/
structure Pot (K : Type*) where
  ntypes : Nat
  pair : Nat → Tab K
  rho : Nat → Tab K
  emb : Nat → Tab K

/-- Value and slope of the spline through a table. -/
structure Interp (K : Type*) where
  val : Tab K → K → K
  grad : Tab K → K → K

variable {K : Type*} [Field K] [LinearOrder K]

/-- Density of the atoms as recalculated, `src/rescale.c` 120-143: as in the force routine, but an entry counts only if the number of
the neighbour is higher than that of the atom. -/
def density (I : Interp K) (P : Pot K) (i typ : Nat) (rho : Nat → K) (n : Neigh K) : Nat → K :=
  if i < n.nr then
    if n.typ = typ then
      if n.r < (P.rho n.typ).fin then addRho (addRho rho i (I.val (P.rho n.typ) n.r)) n.nr (I.val (P.rho n.typ) n.r) else rho
    else
      let rho := if n.r < (P.rho n.typ).fin then addRho rho i (I.val (P.rho n.typ) n.r) else rho
      if n.r < (P.rho typ).fin then addRho rho n.nr (I.val (P.rho typ) n.r) else rho
  else rho

/-- Largest and smallest density of each type. -/
structure Range (K : Type*) where
  max : Nat → K
  min : Nat → K

/-- `maxrho[typ1] = MAX(...)`, `minrho[typ1] = MIN(...)`, `src/rescale.c` 144-145. -/
def Range.add (g : Range K) (t : Nat) (r : K) : Range K :=
  ⟨Function.update g.max t (if g.max t > r then g.max t else r), Function.update g.min t (if g.min t < r then g.min t else r)⟩

/-- Atoms of one configuration, `src/rescale.c` 117-146. -/
def rangeAtoms (I : Interp K) (P : Pot K) : List (Atom K) → Nat → (Nat → K) × Range K → (Nat → K) × Range K
  | [], _, s => s
  | a :: as, i, s =>
    let rho := a.neigh.foldl (density I P i a.typ) s.1
    rangeAtoms I P as (i + 1) (rho, s.2.add a.typ (rho i))

/-- All configurations, `src/rescale.c` 73-76, 114-147; `big` is `1e100`. -/
def ranges (I : Interp K) (P : Pot K) (big : K) (confs : List (Conf K)) : Range K :=
  confs.foldl (fun g c => (rangeAtoms I P c.atoms c.start (fun _ => 0, g)).2) ⟨fun _ => -big, fun _ => big⟩

/-- Index of the largest and of the smallest density, `src/rescale.c` 148-157. -/
structure Extreme (K : Type*) where
  max : K
  maxcol : Nat
  min : K
  mincol : Nat

def extreme (big : K) (nt : Nat) (g : Range K) : Extreme K :=
  (List.range nt).foldl (fun e i =>
    let e := if g.max i > e.max then { e with max := g.max i, maxcol := i } else e
    if g.min i < e.min then { e with min := g.min i, mincol := i } else e) ⟨-big, 0, big, 999⟩

/-- `1e30` -/
def free : K := 10 ^ 30

/-- Resampled embedding function, `src/rescale.c` 187-214. -/
def resample (I : Interp K) (T : Tab K) (l r : K) : Except Fault (Tab K) := do
  let step ← cdiv (r - l) ((T.n - 1 : Nat) : K)
  pure { T with
    step := step
    x := fun j => l + j * step
    y := fun j => I.val T (l + j * step)
    gl := if T.gl < free then I.grad T l else T.gl
    gr := if T.gr < free then I.grad T r else T.gr }

/-- Scaled transfer function, `src/rescale.c` 217-223. -/
def scaleRho (a : K) (T : Tab K) : Tab K :=
  { T with y := fun j => a * T.y j, gl := if T.gl < free then T.gl * a else T.gl }

/-- Embedding function in the scaled density, `src/rescale.c` 226-286: `pos` is `sign == 1`; `T` is the resampled function. -/
def scaleEmb (pos : Bool) (a : K) (l r : K) (T : Tab K) : Except Fault (Tab K) := do
  if pos then
    let gl ← if T.gl < free then cdiv T.gl a else pure T.gl
    let gr ← if T.gr < free then cdiv T.gr a else pure T.gr
    pure { T with
      beg := a * l
      fin := a * r
      step := a * T.step
      gl := gl
      gr := gr
      x := fun j => a * l + j * (a * T.step) }
  else
    let grad ← if T.gl < free then cdiv (-T.gl) a else pure free
    let gl ← if T.gr < free then cdiv (-T.gr) a else pure free
    pure { T with
      beg := a * r
      fin := a * l
      step := -a * T.step
      gl := gl
      gr := grad
      x := fun j => a * r + j * (-a * T.step)
      y := fun j => T.y (T.n - 1 - j) }

/-- Density term which moves to the pair function, `src/rescale.c` 325-335. -/
def pairTerm (f : Tab K → K → K) (lam : Nat → K) (rho : Nat → Tab K) (s t : Nat) (x : K) : K :=
  (if x < (rho t).fin then lam s * f (rho t) x else 0) + (if x < (rho s).fin then lam t * f (rho s) x else 0)

/-- New pair function of the types `s ≤ t`, `src/rescale.c` 322-362. -/
def gaugePair (I : Interp K) (lam : Nat → K) (rho : Nat → Tab K) (s t : Nat) (T : Tab K) : Tab K :=
  { T with
    y := fun j => T.y j + pairTerm I.val lam rho s t (T.x j)
    gl := if T.gl < 10 ^ 29 then T.gl + pairTerm I.grad lam rho s t T.beg else T.gl
    gr := if T.gr < 10 ^ 29 then T.gr + pairTerm I.grad lam rho s t T.fin else T.gr }

/-- New embedding function, `src/rescale.c` 363-377. -/
def gaugeEmb (lam : K) (T : Tab K) : Tab K :=
  { T with
    y := fun j => T.y j - T.x j * lam
    gl := if T.gl < 10 ^ 29 then T.gl - lam else T.gl
    gr := if T.gr < 10 ^ 29 then T.gr - lam else T.gr }

/-- Types of the pair column `i`: the loops 322-323 with `i++` at 361. -/
def typesOf (nt : Nat) (i : Nat) : Option (Nat × Nat) :=
  ((List.range nt).flatMap fun s => (List.range' s (nt - s)).map fun t => (s, t))[i]?

/-- Is an update needed for type `i`, `src/rescale.c` 166-171. -/
def needed (T : Tab K) (mn mx : K) : Bool :=
  decide (mn - T.beg < 0) || decide (mn - T.beg > 95 / 100 * T.step) || decide (mx - T.fin > 0) ||
    decide (mx - T.fin < -(95 / 100) * T.step)

/-- Factor and boundaries, `src/rescale.c` 148-178. -/
structure Choice (K : Type*) where
  pos : Bool
  left : Nat → K
  right : Nat → K
  a : K
  update : Bool

def choose (P : Pot K) (big upper : K) (flag : Bool) (g : Range K) : Except Fault (Choice K) := do
  let e := extreme big P.ntypes g
  let pos := decide (e.max ≥ -e.min)
  let left := fun i => g.min i - 3 / 10 * (P.emb i).step
  let right := fun i => g.max i + 3 / 10 * (P.emb i).step
  let flag := flag || (List.range P.ntypes).any fun i => needed (P.emb i) (g.min i) (g.max i)
  let a ← if pos then cdiv upper (right e.maxcol) else cdiv upper (left e.mincol)
  pure ⟨pos, left, right, a, flag || decide (|a| > 105 / 100) || decide (|a| < 95 / 100)⟩

/-- New function for each of the types. -/
def eachType (nt : Nat) (f : Nat → Except Fault (Tab K)) (old : Nat → Tab K) : Except Fault (Nat → Tab K) :=
  (List.range nt).foldlM (fun g i => do
    let T ← f i
    pure (Function.update g i T)) old

/-- The changes of the potential, `src/rescale.c` 184-379, for given factor and boundaries. Returns also the `lambda` used. -/
def change (I : Interp K) (P : Pot K) (c : Choice K) : Except Fault (Pot K × (Nat → K)) := do
  let emb ← eachType P.ntypes (fun i => do
    let T ← resample I (P.emb i) (c.left i) (c.right i)
    scaleEmb c.pos c.a (c.left i) (c.right i) T) P.emb
  let rho := fun i => if i < P.ntypes then scaleRho c.a (P.rho i) else P.rho i
  let lam := fun i => if i < P.ntypes then I.grad (emb i) (1 / 2 * ((emb i).beg + (emb i).fin)) else 0
  pure (⟨P.ntypes,
    fun i => match typesOf P.ntypes i with
      | some (s, t) => gaugePair I lam rho s t (P.pair i)
      | none => P.pair i,
    rho,
    fun i => if i < P.ntypes then gaugeEmb (lam i) (emb i) else emb i⟩, lam)

/-- `rescale`, `src/rescale.c` 51-401: returned factor (0 if nothing is to be done) and potential. -/
def rescale (I : Interp K) (big upper : K) (flag : Bool) (confs : List (Conf K)) (P : Pot K) : Except Fault (K × Pot K) := do
  let c ← choose P big upper flag (ranges I P big confs)
  if c.update then
    let r ← change I P c
    pure (c.a, r.1)
  else pure (0, P)

/-- `embed_shift`, `src/rescale.c` 409-438, for one type. -/
def embedShift (I : Interp K) (T : Tab K) : Tab K :=
  let shift := if T.beg ≤ 0 then I.val T 0 else T.y 0
  { T with y := fun j => T.y j - shift }

end Verif.Rescale
