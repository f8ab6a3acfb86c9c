/-
Tail functions of the electrostatics stored with the neighbours: `sw_kappa` (`src/potential_input_f0.c` 511-522), `init_force`
(`src/force_elstat.c` 53-59, `src/force_eam_elstat.c` 52-58, `src/force_ang_elstat.c` 58-64), `init_tails` (`src/functions.c` 495-514) and
the loops of the force routines which bring them up to date (`src/force_elstat.c` 313-331, `src/force_eam_elstat.c` 356-374,
`src/force_ang_elstat.c` 346-356).  Simplifications: the work on a neighbour is an arbitrary function `body` which gets the stored
values; the tail function of distance and `kappa` (`elstat_shift` or `elstat_dsf`) is arbitrary.
-/
import Verif.Model.ForceElstat

namespace Verif.TailStore

open Verif.Force

variable {K : Type*} [Field K] [LinearOrder K] {σ : Type*}

/-- An atom: its type and its neighbours with the stored values. -/
abbrev Stored (K : Type*) := Nat × List (Neigh K × ElTail K)

/-- `sw_kappa`, 518-522: `kappa` is fixed if its bounds are equal.  Not sent to other processes, where it is 0. -/
def swKappa (pmin pmax : K) : Bool := decide (pmin = pmax)

/-- `init_tails`. -/
def initTails (tail : K → K → ElTail K) (kappa : K) (A : List (Stored K)) : List (Stored K) :=
  A.map fun a => (a.1, a.2.map fun e => (e.1, tail e.1.r kappa))

/-- `init_force`. -/
def initForce (sw : Bool) (tail : K → K → ElTail K) (kappa : K) (A : List (Stored K)) : List (Stored K) :=
  if sw = true then initTails tail kappa A else A

/-- The loop over the neighbours of atom `i`: the values are renewed if `kappa` is free, then used. -/
def neighLoop (sw : Bool) (tail : K → K → ElTail K) (kappa : K) (body : Nat → Nat → ElTail K → σ → Neigh K → σ) (i typ : Nat) :
    List (Neigh K × ElTail K) → σ → List (Neigh K × ElTail K) × σ
  | [], s => ([], s)
  | e :: l, s =>
    let t := if sw = true then e.2 else tail e.1.r kappa
    let r := neighLoop sw tail kappa body i typ l (body i typ t s e.1)
    ((e.1, t) :: r.1, r.2)

/-- The loop over atoms. -/
def atomLoop (sw : Bool) (tail : K → K → ElTail K) (kappa : K) (body : Nat → Nat → ElTail K → σ → Neigh K → σ) :
    List (Stored K) → Nat → σ → List (Stored K) × σ
  | [], _, s => ([], s)
  | a :: as, i, s =>
    let r := neighLoop sw tail kappa body i a.1 a.2 s
    let q := atomLoop sw tail kappa body as (i + 1) r.2
    ((a.1, r.1) :: q.1, q.2)

/-- A loop which only uses stored values (later loops of the same evaluation). -/
def laterLoop (body : Nat → Nat → ElTail K → σ → Neigh K → σ) : List (Stored K) → Nat → σ → σ
  | [], _, s => s
  | a :: as, i, s => laterLoop body as (i + 1) (a.2.foldl (fun s e => body i a.1 e.2 s e.1) s)

/-- Evaluations one after the other, each with the `kappa` of its parameter vector; the values left in memory. -/
def evaluations (sw : Bool) (tail : K → K → ElTail K) (body : Nat → Nat → ElTail K → σ → Neigh K → σ) (s0 : σ) :
    List K → List (Stored K) → List (Stored K)
  | [], A => A
  | k :: ks, A => evaluations sw tail body s0 ks (atomLoop sw tail k body A 0 s0).1

end Verif.TailStore
