/-
Tersoff and modified Tersoff potentials: `calc_forces` of `src/force_tersoff.c` 106-430 and 438-785.

Simplifications, besides those of `Model/ThreeBody.lean`:
* `exp`, `cos`, `sin`, `pow` and `M_PI` of the C library are parameters; the theorems take the real functions.
* `neigh->dzeta` is written and read for the same pair of neighbours; it is replaced by the value written.
* Contributions `x -= t * v` (`TERSOFFMOD`) are written `x += (-t) * v`, and the forces of the neighbours `k` are added
  in front of those of `i` and `j` in both variants.
-/
import Verif.Model.ThreeBody

namespace Verif.Force

variable {K : Type*} [Field K] [LinearOrder K]

/-- Functions of the C library. -/
structure Lib (K : Type*) where
  exp : K → K
  cos : K → K
  sin : K → K
  pow : K → K → K
  pi : K

/-- For every neighbour in a list the neighbour and all others, in order: loops
`for (j…) for (k…) if (k == j) continue;`. -/
def eachLoop {α σ : Type*} (f : σ → α → List α → σ) : List α → List α → σ → σ
  | _, [], s => s
  | pre, a :: as, s => eachLoop f (pre ++ [a]) as (f s a (pre ++ as))

/-- Stress contribution with symmetrised off-diagonal elements, `src/force_tersoff.c` 331-336, 356-361. -/
def virialSym (d f : V3 K) : Fin 6 → K :=
  ![d 0 * f 0, d 1 * f 1, d 2 * f 2, 1 / 2 * (d 0 * f 1 + d 1 * f 0), 1 / 2 * (d 1 * f 2 + d 2 * f 1),
    1 / 2 * (d 2 * f 0 + d 0 * f 2)]

/-- Sums over the neighbours `k`: `zeta`, `dzeta_i`, `dzeta_j`. -/
structure Zeta (K : Type*) where
  z : K
  di : V3 K
  dj : V3 K

/-- Distribution of the forces of a bond: 317-363 (`w = tmp_5`), 660-715 (`w = -tmp_3`).  `dz` is `neigh_k->dzeta`. -/
def bondSpread (b : Build) (cut : Nat → K) (us : Bool) (i : Nat) (w : K) (dz : Neigh K → V3 K) (di fj : V3 K)
    (nj : Neigh K) (others : List (Neigh K)) (s : Acc K) : Acc K :=
  let s := others.foldl (fun s nk =>
    if nk.r < cut nk.col0 then
      { s with
        force := addAt s.force nk.nr fun c => w * dz nk c
        stress := if b.stress && us then s.stress + virialSym nk.dist (fun c => w * dz nk c) else s.stress }
    else s) s
  { s with
    force := addAt (addAt s.force nj.nr fj) i fun c => w * di c - fj c
    stress := if b.stress && us then s.stress + virialSym nj.dist fj else s.stress }

/-! ### Tersoff -/

/-- Parameters by column. -/
structure TersPars (K : Type*) where
  A : Nat → K
  B : Nat → K
  lambda : Nat → K
  mu : Nat → K
  gamma : Nat → K
  n : Nat → K
  c : Nat → K
  d : Nat → K
  h : Nat → K
  S : Nat → K
  R : Nat → K
  omega : Nat → K

/-- `neigh->f`, 173-181 (216 outside of the range). -/
def tersF (L : Lib K) (p : TersPars K) (col : Nat) (r : K) : K :=
  let t := L.pi / (p.S col - p.R col)
  if r < p.R col then 1 else 1 / 2 * (1 + L.cos (t * (r - p.R col)))

/-- `neigh->df`. -/
def tersDf (L : Lib K) (p : TersPars K) (col : Nat) (r : K) : K :=
  let t := L.pi / (p.S col - p.R col)
  if r < p.R col then 0 else -(1 / 2) * t * L.sin (t * (r - p.R col))

/-- Pair part, 184-187, with range `S` (169); `beg` and `step` are not used. -/
def tersPots (L : Lib K) (p : TersPars K) : Pots K where
  beg := fun _ => 0
  step := fun _ => 0
  fin := p.S
  val := fun col r => tersF L p col r * p.A col * L.exp (-p.lambda col * r)
  grad := fun col r => (tersDf L p col r - p.lambda col * tersF L p col r) * (p.A col * L.exp (-p.lambda col * r))

/-- `g_theta`, 253-256; `c2` and `d2` from 980-983. -/
def tersG (p : TersPars K) (col : Nat) (cos : K) : K :=
  let t1 := p.h col - cos
  let t2 := 1 / (p.d col * p.d col + t1 * t1)
  1 + p.c col * p.c col / (p.d col * p.d col) - p.c col * p.c col * t2

/-- `tmp_3`, 274, without the factors behind `tmp_2`. -/
def tersDg (p : TersPars K) (col : Nat) (cos : K) : K :=
  let t1 := p.h col - cos
  let t2 := 1 / (p.d col * p.d col + t1 * t1)
  2 * (p.c col * p.c col) * t1 * t2 * t2

/-- `dcos_j`, 264-267. -/
def tersDcos (nj nk : Neigh K) : V3 K := fun c =>
  1 / (nj.r * nk.r) * nk.dist c - cosine nj nk / (nj.r * nj.r) * nj.dist c

/-- `dcos_k`, 269-272. -/
def tersDcosK (nj nk : Neigh K) : V3 K := fun c =>
  1 / (nj.r * nk.r) * nj.dist c - cosine nj nk / (nk.r * nk.r) * nk.dist c

/-- `neigh_k->dzeta`, 274-280. -/
def tersDzeta (L : Lib K) (p : TersPars K) (nj nk : Neigh K) : V3 K :=
  let t3 := tersDg p nj.col0 (cosine nj nk) * tersF L p nk.col0 nk.r * p.omega nk.col0
  let grad := tersDf L p nk.col0 nk.r / nk.r * tersG p nj.col0 (cosine nj nk) * p.omega nk.col0
  fun c => grad * nk.dist c - t3 * tersDcosK nj nk c

/-- One neighbour `k`, 244-290. -/
def tersInner (L : Lib K) (p : TersPars K) (nj : Neigh K) (s : Zeta K) (nk : Neigh K) : Zeta K :=
  if nk.r < p.S nk.col0 then
    let t3 := tersDg p nj.col0 (cosine nj nk) * tersF L p nk.col0 nk.r * p.omega nk.col0
    ⟨s.z + tersF L p nk.col0 nk.r * p.omega nk.col0 * tersG p nj.col0 (cosine nj nk),
     fun c => s.di c - tersDzeta L p nj nk c,
     fun c => s.dj c - t3 * tersDcos nj nk c⟩
  else s

/-- One bond, 226-364. -/
def tersBond (b : Build) (L : Lib K) (p : TersPars K) (us : Bool) (i : Nat) (s : Acc K) (nj : Neigh K)
    (others : List (Neigh K)) : Acc K :=
  if nj.r < p.S nj.col0 then
    if p.B nj.col0 = 0 then s
    else
      let z := others.foldl (tersInner L p nj) ⟨0, fun _ => 0, fun _ => 0⟩
      let f := tersF L p nj.col0 nj.r
      let df := tersDf L p nj.col0 nj.r
      let phiA := 1 / 2 * p.B nj.col0 * L.exp (-p.mu nj.col0 * nj.r)
      let t4 := L.pow (p.gamma nj.col0 * z.z) (p.n nj.col0)
      let bij := L.pow (1 + t4) (-1 / (2 * p.n nj.col0))
      let phi := -bij * phiA
      let t5 := if z.z = 0 then 0 else -bij * f * phiA * t4 / (2 * z.z * (1 + t4))
      let t6 := (f * phiA * p.mu nj.col0 * bij + df * phi) / nj.r
      let fj : V3 K := fun c => -t6 * nj.dist c + t5 * z.dj c
      bondSpread b p.S us i t5 (tersDzeta L p nj) z.di fj nj others { s with energy := s.energy + f * phi }
  else s

/-- Second loop for one atom, 159-366. -/
def tersAtom (b : Build) (L : Lib K) (p : TersPars K) (c : Conf K) (i : Nat) (a : Atom K) (s : Acc K) : Acc K :=
  eachLoop (tersBond b L p c.us i) [] a.neigh (a.neigh.foldl (fullPair b true (tersPots L p) c.uf c.us i) s)

/-- One configuration. -/
def tersConf (b : Build) (L : Lib K) (p : TersPars K) (eweight sweight : K) (ci : Nat) (c : Conf K) (fv : FV K) : FV K × K :=
  fullConf b (tersAtom b L p c) eweight sweight ci c fv

/-! ### Modified Tersoff -/

/-- Parameters by column, `TERSOFFMOD`. -/
structure TersModPars (K : Type*) where
  A : Nat → K
  B : Nat → K
  lambda : Nat → K
  mu : Nat → K
  eta : Nat → K
  delta : Nat → K
  alpha : Nat → K
  beta : Nat → K
  c1 : Nat → K
  c2 : Nat → K
  c3 : Nat → K
  c4 : Nat → K
  c5 : Nat → K
  h : Nat → K
  R1 : Nat → K
  R2 : Nat → K

/-- `neigh->f`, 506-514. -/
def modF (L : Lib K) (p : TersModPars K) (col : Nat) (r : K) : K :=
  let t1 := L.pi / (p.R2 col - p.R1 col)
  let t2 := t1 * (r - p.R1 col)
  if r < p.R1 col then 1 else 1 / 2 * (1 + 9 / 8 * L.cos t2 - 1 / 8 * L.cos (3 * t2))

/-- `neigh->df`. -/
def modDf (L : Lib K) (p : TersModPars K) (col : Nat) (r : K) : K :=
  let t1 := L.pi / (p.R2 col - p.R1 col)
  let t2 := t1 * (r - p.R1 col)
  if r < p.R1 col then 0 else -(1 / 2) * t1 * (9 / 8 * L.sin t2 - 3 / 8 * L.sin (3 * t2))

/-- Pair part, 517-520, with range `R2` (502); `beg` and `step` are not used. -/
def modPots (L : Lib K) (p : TersModPars K) : Pots K where
  beg := fun _ => 0
  step := fun _ => 0
  fin := p.R2
  val := fun col r => modF L p col r * p.A col * L.exp (-p.lambda col * r)
  grad := fun col r => (modDf L p col r - p.lambda col * modF L p col r) * (p.A col * L.exp (-p.lambda col * r))

/-- `g_theta`, 603-607. -/
def modG (L : Lib K) (p : TersModPars K) (col : Nat) (cos : K) : K :=
  let t1 := p.h col - cos
  let t2 := 1 / (p.c3 col + t1 * t1)
  let t3 := p.c4 col * L.exp (-p.c5 col * t1 * t1)
  p.c1 col + p.c2 col * t1 * t1 * t2 * (1 + t3)

/-- `dg_theta`, 608. -/
def modDg (L : Lib K) (p : TersModPars K) (col : Nat) (cos : K) : K :=
  let t1 := p.h col - cos
  let t2 := 1 / (p.c3 col + t1 * t1)
  let t3 := p.c4 col * L.exp (-p.c5 col * t1 * t1)
  2 * p.c2 col * t1 * t2 * (p.c5 col * t1 * t1 * t3 - p.c3 col * t2 * (1 + t3))

/-- `tmp_2`, 610-611. -/
def modRate (L : Lib K) (p : TersModPars K) (nj nk : Neigh K) : K :=
  p.alpha nj.col0 * p.beta nj.col0 * L.pow (nj.r - nk.r) (p.beta nj.col0 - 1)

/-- `tmp_3`, 612. -/
def modExp (L : Lib K) (p : TersModPars K) (nj nk : Neigh K) : K :=
  L.exp (p.alpha nj.col0 * L.pow (nj.r - nk.r) (p.beta nj.col0))

/-- `dcos_j`, 593-596. -/
def modDcos (nj nk : Neigh K) : V3 K := fun c => (nk.distR c - nj.distR c * cosine nj nk) / nj.r

/-- `dcos_k`, 597-600. -/
def modDcosK (nj nk : Neigh K) : V3 K := fun c => (nj.distR c - nk.distR c * cosine nj nk) / nk.r

/-- `neigh_k->dzeta`, 614-625. -/
def modDzeta (L : Lib K) (p : TersModPars K) (nj nk : Neigh K) : V3 K :=
  let ik := (modDf L p nk.col0 nk.r - modF L p nk.col0 nk.r * modRate L p nj nk) * modG L p nj.col0 (cosine nj nk) * modExp L p nj nk
  let zc := modF L p nk.col0 nk.r * modDg L p nj.col0 (cosine nj nk) * modExp L p nj nk
  fun c => zc * modDcosK nj nk c + ik * nk.distR c

/-- One neighbour `k`, 585-635; the last component is `dzeta_ij`. -/
def modInner (L : Lib K) (p : TersModPars K) (nj : Neigh K) (s : Zeta K × K) (nk : Neigh K) : Zeta K × K :=
  if nk.r < p.R2 nk.col0 then
    let t4 := modF L p nk.col0 nk.r * modG L p nj.col0 (cosine nj nk) * modExp L p nj nk
    let zc := modF L p nk.col0 nk.r * modDg L p nj.col0 (cosine nj nk) * modExp L p nj nk
    (⟨s.1.z + t4, fun c => s.1.di c - modDzeta L p nj nk c, fun c => s.1.dj c + zc * modDcos nj nk c⟩,
     s.2 + t4 * modRate L p nj nk)
  else s

/-- One bond, 561-719. -/
def modBond (b : Build) (L : Lib K) (p : TersModPars K) (us : Bool) (i : Nat) (s : Acc K) (nj : Neigh K)
    (others : List (Neigh K)) : Acc K :=
  if nj.r < p.R2 nj.col0 then
    if p.B nj.col0 = 0 then s
    else
      let zz := others.foldl (modInner L p nj) (⟨0, fun _ => 0, fun _ => 0⟩, 0)
      let z := zz.1
      let dj : V3 K := fun c => z.dj c + zz.2 * nj.distR c
      let f := modF L p nj.col0 nj.r
      let df := modDf L p nj.col0 nj.r
      let t1 := L.pow z.z (p.eta nj.col0)
      let bb := L.pow (1 + t1) (-p.delta nj.col0)
      let t2 := 1 / 2 * bb * p.B nj.col0 * L.exp (-p.mu nj.col0 * nj.r)
      let t3 := if z.z = 0 then 0 else t2 * f * p.eta nj.col0 * p.delta nj.col0 * t1 / ((1 + t1) * z.z)
      let t4 := -t2 * (df - p.mu nj.col0 * f)
      let fj : V3 K := fun c => -t4 * nj.distR c - t3 * dj c
      bondSpread b p.R2 us i (-t3) (modDzeta L p nj) z.di fj nj others { s with energy := s.energy + f * -t2 }
  else s

/-- Second loop for one atom, 491-721. -/
def modAtom (b : Build) (L : Lib K) (p : TersModPars K) (c : Conf K) (i : Nat) (a : Atom K) (s : Acc K) : Acc K :=
  eachLoop (modBond b L p c.us i) [] a.neigh (a.neigh.foldl (fullPair b true (modPots L p) c.uf c.us i) s)

/-- One configuration. -/
def modConf (b : Build) (L : Lib K) (p : TersModPars K) (eweight sweight : K) (ci : Nat) (c : Conf K) (fv : FV K) : FV K × K :=
  fullConf b (modAtom b L p c) eweight sweight ci c fv

end Verif.Force
