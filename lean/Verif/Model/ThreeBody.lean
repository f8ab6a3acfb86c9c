/-
Forces of the interactions working on full neighbour lists with angles: Stillinger-Weber
(`src/force_stiweb.c` 105-383), angular potentials (`src/force_ang.c` 113-531) and MEAM
(`src/force_meam.c` 116-765), configuration by configuration.

Simplifications, besides those of `Model/Force.lean`:
* `neigh->r2`, `neigh->inv_r` are `r * r` and `1 / r` (`src/config.c` 1206-1207).
* `angle->cos` is the scalar product of the two directions (`init_angles`, `src/config.c` 1398-1405); that the entry
  belonging to the two neighbours is used is property C25.
* The fields `f`, `df`, `drho` of a neighbour and `g`, `dg` of an angle are written in the same pass over the atom
  before they are read; they are replaced by the values written.
* `x[2] = { neigh_j->r, x[0] }` in `src/force_stiweb.c` 167 reads an element of the array being initialised; the
  order is left open by the C standard, the order meant (both entries are the distance) is assumed.
-/
import Verif.Model.ForceEam

namespace Verif.Force

variable {K : Type*} [Field K] [LinearOrder K]

/-- `angle->cos`, `src/config.c` 1398-1403. -/
def cosine (nj nk : Neigh K) : K :=
  nj.distR 0 * nk.distR 0 + nj.distR 1 * nk.distR 1 + nj.distR 2 * nk.distR 2

/-- `for (j = 0; j < n - 1; j++) if (outer j) for (k = j + 1; k < n; k++) f(j, k)`. -/
def pairsLoop {α σ : Type*} (outer : α → Bool) (f : σ → α → α → σ) : List α → σ → σ
  | [], s => s
  | a :: as, s => pairsLoop outer f as (if outer a then as.foldl (fun s x => f s a x) s else s)

/-- Pair part on a full list, one neighbour: `src/force_ang.c` 271-311, `src/force_meam.c` 294-334
(`selfHalf = false`), `src/force_stiweb.c` 160-215, `src/force_tersoff.c` 166-221 and 499-554 (`selfHalf = true`).
Half of the energy, the whole force on the atom owning the list, none on the neighbour. -/
def fullPair (b : Build) (selfHalf : Bool) (P : Pots K) (uf us : Bool) (i : Nat) (s : Acc K) (n : Neigh K) : Acc K :=
  if n.r < P.fin n.col0 then
    let v := P.val n.col0 n.r
    let g := if uf then P.grad n.col0 n.r else 0
    let v := if selfHalf && decide (n.nr = i) then v * (1 / 2) else v
    let g := if selfHalf && decide (n.nr = i) then g * (1 / 2) else g
    let s := { s with energy := s.energy + (1 / 2) * v }
    if uf then
      let tmp : V3 K := fun c => n.distR c * g
      { s with
        force := addAt s.force i tmp
        stress := if b.stress && us then s.stress - (1 / 2 : K) • virial n.dist tmp else s.stress }
    else s
  else s

/-- The three forces of an angle: `src/force_stiweb.c` 273-286, `src/force_ang.c` 399-412. -/
def scatter3 (f : Nat → V3 K) (i nj nk : Nat) (fj fk : V3 K) : Nat → V3 K :=
  addAt (addAt (addAt f i (fj + fk)) nj (-fj)) nk (-fk)

/-- Sum of the two stress contributions of an angle with symmetrised off-diagonal elements,
`src/force_stiweb.c` 291-296. -/
def virial3 (dj dk fj fk : V3 K) : Fin 6 → K :=
  ![fj 0 * dj 0 + fk 0 * dk 0, fj 1 * dj 1 + fk 1 * dk 1, fj 2 * dj 2 + fk 2 * dk 2,
    1 / 2 * (fj 0 * dj 1 + fk 0 * dk 1 + fj 1 * dj 0 + fk 1 * dk 0),
    1 / 2 * (fj 1 * dj 2 + fk 1 * dk 2 + fj 2 * dj 1 + fk 2 * dk 1),
    1 / 2 * (fj 2 * dj 0 + fk 2 * dk 0 + fj 0 * dj 2 + fk 0 * dk 2)]

/-! ### Stillinger-Weber -/

/-- The functions of the Stillinger-Weber potential: two-body function and slope with range `fin` (`a1`), and for
columns `f`, `df` (slope divided by the distance) with range `fin3` (`a2`), strengths `lambda`. -/
structure SwPots (K : Type*) extends Pots K where
  fin3 : Nat → K
  f : Nat → K → K
  df : Nat → K → K
  lambda : Nat → Nat → Nat → K

/-- One angle, `src/force_stiweb.c` 241-300. -/
def swAngle (b : Build) (P : SwPots K) (us : Bool) (i typ : Nat) (s : Acc K) (nj nk : Neigh K) : Acc K :=
  let lambda := P.lambda typ nj.typ nk.typ
  if lambda = 0 then s
  else if nk.r < P.fin3 nk.col0 then
    let cos := cosine nj nk
    let jf := P.f nj.col0 nj.r
    let kf := P.f nk.col0 nk.r
    let jdf := P.df nj.col0 nj.r
    let kdf := P.df nk.col0 nk.r
    let tmp := cos + 1 / 3
    let v3 := lambda * jf * kf * tmp * tmp
    let grad1 := lambda * jf * kf * 2 * tmp
    let grad2 := lambda * tmp * tmp
    let jj := 1 / (nj.r * nj.r)
    let jk := 1 / (nj.r * nk.r)
    let kk := 1 / (nk.r * nk.r)
    let t1 := grad2 * jdf * kf - grad1 * cos * jj
    let t2 := grad1 * jk
    let fj : V3 K := fun c => t1 * nj.dist c + t2 * nk.dist c
    let t1' := grad2 * kdf * jf - grad1 * cos * kk
    let fk : V3 K := fun c => t1' * nk.dist c + t2 * nj.dist c
    { s with
      energy := s.energy + v3
      force := scatter3 s.force i nj.nr nk.nr fj fk
      stress := if b.stress && us then s.stress - virial3 nj.dist nk.dist fj fk else s.stress }
  else s

/-- Second loop for one atom, 154-304. -/
def swAtom (b : Build) (P : SwPots K) (c : Conf K) (i : Nat) (a : Atom K) (s : Acc K) : Acc K :=
  let s := a.neigh.foldl (fullPair b true P.toPots c.uf c.us i) s
  pairsLoop (fun nj => decide (nj.r < P.fin3 nj.col0)) (swAngle b P c.us i a.typ) a.neigh s

/-- A loop over the atoms, `i` being the number of the first. -/
def atomLoop {σ : Type*} (one : Nat → Atom K → σ → σ) : List (Atom K) → Nat → σ → σ
  | [], _, s => s
  | a :: as, i, s => atomLoop one as (i + 1) (one i a s)

/-- One configuration, `src/force_stiweb.c` 133-357 (`src/force_tersoff.c` 136-405, 468-762 differ in `one`): second
loop, then the weighting of the forces, energy and stresses. -/
def fullConf (b : Build) (one : Nat → Atom K → Acc K → Acc K) (eweight sweight : K) (ci : Nat) (c : Conf K)
    (fv : FV K) : FV K × K :=
  let s := atomLoop one c.atoms c.start ⟨resetForces c fv.force, 0, 0, 0⟩
  let s := atomLoop (fun i a s => closeAtom b c a i s) c.atoms c.start s
  let s := closeConf b eweight sweight c s
  (⟨s.force, Function.update fv.energy ci s.energy,
    if b.stress then Function.update fv.stress ci s.stress else fv.stress, fv.limit⟩, s.err)

/-- Stillinger-Weber. -/
def swConf (b : Build) (P : SwPots K) (eweight sweight : K) (ci : Nat) (c : Conf K) (fv : FV K) : FV K × K :=
  fullConf b (swAtom b P c) eweight sweight ci c fv

/-! ### Angular potentials and MEAM -/

/-- The columns of angular functions: `fcol` is the column of `f` for a pair column, `gcol` that of `g` for the type
of the central atom (`src/config.c` 1246-1258, 638, 659). -/
structure AngPots (K : Type*) extends EamPots K where
  fcol : Nat → Nat
  gcol : Nat → Nat

/-- `neigh->f`, `src/force_ang.c` 320-331, `src/force_meam.c` 370-382. -/
def angF (P : AngPots K) (n : Neigh K) : K :=
  if n.r < P.fin (P.fcol n.col0) then P.val (P.fcol n.col0) n.r else 0

/-- `neigh->df`. -/
def angDf (P : AngPots K) (n : Neigh K) : K :=
  if n.r < P.fin (P.fcol n.col0) then P.grad (P.fcol n.col0) n.r else 0

/-- `dfj`: `src/force_ang.c` 384-397, `src/force_meam.c` 591-608.  `dfk` is the same with exchanged neighbours. -/
def angPull (P : AngPots K) (typ : Nat) (nj nk : Neigh K) : V3 K :=
  let g := P.val (P.gcol typ) (cosine nj nk)
  let dg := P.grad (P.gcol typ) (cosine nj nk)
  let dV3j := g * angDf P nj * angF P nk
  let V3' := angF P nj * angF P nk * dg
  let vlj := V3' * (1 / nj.r)
  let vv3j := dV3j - vlj * cosine nj nk
  fun c => vv3j * nj.distR c + vlj * nk.distR c

/-- `dfk`: `src/force_ang.c` 385-397. -/
def angPullK (P : AngPots K) (typ : Nat) (nj nk : Neigh K) : V3 K :=
  let g := P.val (P.gcol typ) (cosine nj nk)
  let dg := P.grad (P.gcol typ) (cosine nj nk)
  let dV3k := g * angF P nj * angDf P nk
  let V3' := angF P nj * angF P nk * dg
  let vlk := V3' * (1 / nk.r)
  let vv3k := dV3k - vlk * cosine nj nk
  fun c => vv3k * nk.distR c + vlk * nj.distR c

/-- One angle of an angular potential, `src/force_ang.c` 364-447; `energy` is `angener_sum`. -/
def angAngle (b : Build) (P : AngPots K) (uf us : Bool) (i typ : Nat) (s : Acc K) (nj nk : Neigh K) : Acc K :=
  if nk.r < P.fin (P.fcol nk.col0) then
    let s := { s with energy := s.energy + angF P nj * angF P nk * P.val (P.gcol typ) (cosine nj nk) }
    if uf then
      let fj := angPull P typ nj nk
      let fk := angPullK P typ nj nk
      { s with
        force := scatter3 s.force i nj.nr nk.nr fj fk
        stress := if b.stress && us then s.stress - virial nj.dist fj - virial nk.dist fk else s.stress }
    else s
  else s

/-- Second loop for one atom, `src/force_ang.c` 256-456. -/
def angAtom (b : Build) (P : AngPots K) (c : Conf K) (i : Nat) (a : Atom K) (s : Acc K) : Acc K :=
  let s := a.neigh.foldl (fullPair b false P.toPots c.uf c.us i) s
  let t := pairsLoop (fun nj => decide (nj.r < P.fin (P.fcol nj.col0))) (angAngle b P c.uf c.us i a.typ) a.neigh
    { s with energy := 0 }
  { t with energy := s.energy + t.energy }

/-- Third loop, `src/force_ang.c` 461-480, `src/force_meam.c` 661-681: unlike `closeAtom` also for configurations whose
forces are not used. -/
def closeAtomAlways (b : Build) (c : Conf K) (a : Atom K) (i : Nat) (s : Acc K) : Acc K :=
  let f : Nat → V3 K := if b.fweight then
      Function.update s.force i (fun k => s.force i k / (forceEps + a.absforce))
    else s.force
  { s with
    force := f
    err := if !b.contrib || a.contrib then s.err + c.weight * sq3 (f i) else s.err }

/-- End of a configuration, `src/force_ang.c` 482-506, `src/force_meam.c` 683-707: stresses are compared whether they
are used or not. -/
def closeConfAlways (b : Build) (eweight sweight : K) (c : Conf K) (s : Acc K) : Acc K :=
  let e := s.energy / (c.atoms.length : K) - c.energy0
  let s := { s with energy := e, err := s.err + c.weight * eweight * (e * e) }
  if b.stress then
    let st : Fin 6 → K := fun k => s.stress k / c.vol - c.stress0 k
    { s with stress := st
             err := s.err + (List.ofFn fun k => c.weight * sweight * (st k * st k)).sum }
  else s

/-- One configuration, `src/force_ang.c` 221-507. -/
def angConf (b : Build) (P : AngPots K) (eweight sweight : K) (ci : Nat) (c : Conf K) (fv : FV K) : FV K × K :=
  let s := atomLoop (angAtom b P c) c.atoms c.start ⟨resetForces c fv.force, 0, 0, 0⟩
  let s := atomLoop (fun i a s => closeAtomAlways b c a i s) c.atoms c.start s
  let s := closeConfAlways b eweight sweight c s
  (⟨s.force, Function.update fv.energy ci s.energy,
    if b.stress then Function.update fv.stress ci s.stress else fv.stress, fv.limit⟩, s.err)

/-- Running sums of a MEAM configuration: besides those of a pair potential the limiting constraint and the sum of the
densities. -/
structure MeamAcc (K : Type*) where
  acc : Acc K
  limit : K
  rhoSum : K

/-- Density of an atom: `src/force_meam.c` 351-362 and 403-423 (running sum `atom->rho`, first over the neighbours,
then over the angles). -/
def meamDensity (P : AngPots K) (a : Atom K) : K :=
  let rho := a.neigh.foldl (fun rho n => if n.r < P.fin n.col1 then rho + P.val n.col1 n.r else rho) 0
  pairsLoop (fun _ => true) (fun rho nj nk => rho + angF P nj * angF P nk * P.val (P.gcol a.typ) (cosine nj nk))
    a.neigh rho

/-- Force of the transfer function, `src/force_meam.c` 527-570. -/
def meamRadial (b : Build) (P : AngPots K) (us : Bool) (gradF : K) (i : Nat) (s : Acc K) (n : Neigh K) : Acc K :=
  if n.r < P.fin n.col1 then
    let tmp : V3 K := fun c => n.distR c * (P.grad n.col1 n.r * gradF)
    { s with
      force := scatter s.force i n.nr tmp
      stress := if b.stress && us then s.stress - virial n.dist tmp else s.stress }
  else s

/-- Force of an angle, `src/force_meam.c` 583-651. -/
def meamAngle (b : Build) (P : AngPots K) (us : Bool) (gradF : K) (i typ : Nat) (s : Acc K) (nj nk : Neigh K) : Acc K :=
  let fj : V3 K := fun c => gradF * angPull P typ nj nk c
  let fk : V3 K := fun c => gradF * angPullK P typ nj nk c
  { s with
    force := scatter3 s.force i nj.nr nk.nr fj fk
    stress := if b.stress && us then s.stress - virial nj.dist fj - virial nk.dist fk else s.stress }

/-- Embedding with `RESCALE`, `src/force_meam.c` 429-454: unlike `src/force_eam.c` the lower end is tested first.
Without `RESCALE` (456-519) the code is that of `src/force_eam.c`. -/
def meamEmbed (b : Build) (P : EamPots K) (col : Nat) (x : K) : Embed K :=
  if b.rescale then
    if x < P.beg col then
      ⟨P.beg col, P.val col (P.beg col), P.grad col (P.beg col),
        dummyWeight * 10 * ((P.beg col - x) * (P.beg col - x))⟩
    else if P.fin col < x then
      ⟨P.fin col, P.val col (P.fin col), P.grad col (P.fin col), dummyWeight * 10 * ((x - P.fin col) * (x - P.fin col))⟩
    else ⟨x, P.val col x, P.grad col x, 0⟩
  else embed b P col x

/-- Second loop for one atom, `src/force_meam.c` 278-656. -/
def meamAtom (b : Build) (P : AngPots K) (c : Conf K) (i : Nat) (a : Atom K) (s : MeamAcc K) : MeamAcc K :=
  let t := a.neigh.foldl (fullPair b false P.toPots c.uf c.us i) s.acc
  let m := meamEmbed b P.toEamPots (P.paircol + P.ntypes + a.typ) (meamDensity P a)
  let t := { t with energy := t.energy + m.value }
  let t := if c.uf then
      let t := a.neigh.foldl (meamRadial b P c.us m.grad i) t
      pairsLoop (fun _ => true) (meamAngle b P c.us m.grad i a.typ) a.neigh t
    else t
  ⟨t, s.limit + m.limit, s.rhoSum + m.rho⟩

/-- One configuration, `src/force_meam.c` 238-715: force vector, contribution to `error_sum` and to `rho_sum`. -/
def meamConf (b : Build) (P : AngPots K) (eweight sweight : K) (ci : Nat) (c : Conf K) (fv : FV K) : FV K × K × K :=
  let t := atomLoop (meamAtom b P c) c.atoms c.start ⟨⟨resetForces c fv.force, 0, 0, 0⟩, -c.limit0, 0⟩
  let s := atomLoop (fun i a s => closeAtomAlways b c a i s) c.atoms c.start t.acc
  let s := closeConfAlways b eweight sweight c s
  let lim := if b.rescale then t.limit * c.weight else t.limit
  (⟨s.force, Function.update fv.energy ci s.energy,
    if b.stress then Function.update fv.stress ci s.stress else fv.stress, Function.update fv.limit ci lim⟩,
   if b.rescale then s.err + lim * lim else s.err, t.rhoSum)

end Verif.Force
