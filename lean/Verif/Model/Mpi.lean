/-
Work distribution over MPI processes, `src/mpi_utils.c` 692-786.
-/
namespace Verif.Mpi

/-- Outcome of `broadcast_configurations`: the four tables filled on rank 0 and scattered. -/
structure Dist where
  confDist : Nat → Int
  confLen : Nat → Int
  atomDist : Nat → Int
  atomLen : Nat → Int

/-- `conf_dist[i]`, `src/mpi_utils.c` 709-710, 716-717 (`each`, `odd` as computed there).
C `/` and `%` on non-negative operands are `Int.tdiv`/`Int.tmod`. -/
def confDist (nconf P i : Int) : Int :=
  let each := Int.tdiv nconf P
  let odd := Int.tmod nconf P - P
  i * each + (if i + odd > 0 then i + odd else 0)

/-- `cnfstart[c]`: index of the first atom of configuration `c`, `src/config.c` `read_config`
(`cnfstart[nconf] = natoms` when a configuration header is read, `natoms` increased afterwards).
`inconf c` is the number of atoms of configuration `c`. -/
def cnfstart (inconf : Nat → Nat) : Nat → Nat
  | 0 => 0
  | c + 1 => cnfstart inconf c + inconf c

/-- `broadcast_configurations`, `src/mpi_utils.c` 692-731 (rank 0 part and the two rejections).
`none` is the `POTFIT_ERROR` return.  The total number of atoms is `cnfstart nconf`.
An index into `cnfstart` is converted with `toNat`; `Props.C02` shows that it is never negative. -/
def distribute (inconf : Nat → Nat) (nconf P : Nat) : Option Dist :=
  if P = 1 then none
  else if P > nconf then none
  else
    let cd : Nat → Int := fun i => confDist nconf P i
    let ad : Nat → Int := fun i => cnfstart inconf (cd i).toNat
    some
      { confDist := cd
        confLen := fun i => if i + 1 < P then cd (i + 1) - cd i else nconf - cd i
        atomDist := ad
        atomLen := fun i =>
          if i + 1 < P then ad (i + 1) - ad i else (cnfstart inconf nconf : Int) - ad i }

/-- `broadcast_atoms`, `src/mpi_utils.c` 769-786: rank `r` keeps the atoms `i` with
`firstatom <= i < firstatom + myatoms`, in order, at position `i - firstatom`. -/
def keptAtoms {A : Type} (d : Dist) (r : Nat) (atoms : List A) : List A :=
  (atoms.zipIdx.filter fun p => decide (d.atomDist r ≤ (p.2 : Int) ∧
    (p.2 : Int) < d.atomDist r + d.atomLen r)).map Prod.fst

end Verif.Mpi
