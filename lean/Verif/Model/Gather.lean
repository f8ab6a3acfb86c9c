/-
Parallel evaluation of the objective: every process evaluates its own configurations, the sums are
reduced to process 0 and the pieces of the force vector are gathered there.
`src/force_common.c` 147-219, the loops of `src/force_pair.c` 170-300 and `src/force_eam.c` 195-608.

Simplifications: MPI transports faithfully; a reduction is the sum over the ranks in rank order.
-/
import Verif.Model.ForceEam
import Verif.Model.Mpi

namespace Verif.Force

/-- The memory cells written by a force routine: the entries of the force vector, and for EAM density
and embedding slope of the atoms. -/
inductive Cell where
  | force (atom : Nat) (k : Fin 3)
  | energy (conf : Nat)
  | stress (conf : Nat) (k : Fin 6)
  | limit (conf : Nat)
  | rho (atom : Nat)
  | gradF (atom : Nat)

variable {K : Type*} [Field K] [LinearOrder K]

/-- Content of a cell of the force vector (the pair routine has no densities). -/
def FV.get (s : FV K) : Cell → K
  | .force a k => s.force a k
  | .energy c => s.energy c
  | .stress c k => s.stress c k
  | .limit c => s.limit c
  | .rho _ => 0
  | .gradF _ => 0

/-- Content of a cell for the EAM routine. -/
def EamState.get (s : EamState K) : Cell → K
  | .rho a => s.rho a
  | .gradF a => s.gradF a
  | x => s.fv.get x

/-- The block of the force vector `gather_forces` takes from rank `r`: `atom_len[r]` vectors from
`atom_dist[r]` on, and `conf_len[r]` energies, stresses (`STRESS`) and limits (`RESCALE`) from
`conf_dist[r]` on.  Densities are not gathered.  `src/force_common.c` 172-214. -/
def inBlock (b : Build) (d : Mpi.Dist) (r : Nat) : Cell → Bool
  | .force a _ => decide (d.atomDist r ≤ (a : Int) ∧ (a : Int) < d.atomDist r + d.atomLen r)
  | .energy c => decide (d.confDist r ≤ (c : Int) ∧ (c : Int) < d.confDist r + d.confLen r)
  | .stress c _ => b.stress && decide (d.confDist r ≤ (c : Int) ∧ (c : Int) < d.confDist r + d.confLen r)
  | .limit c => b.rescale && decide (d.confDist r ≤ (c : Int) ∧ (c : Int) < d.confDist r + d.confLen r)
  | .rho _ => false
  | .gradF _ => false

/-- `gather_forces` on rank 0 (`mem r` is the memory of rank `r` before the call): the block of rank 0
is in place, the others are received. -/
def gather (b : Build) (d : Mpi.Dist) (P : Nat) (mem : Nat → Cell → K) : Cell → K :=
  (List.range P).foldl
    (fun m r => if r = 0 then m else fun x => if inBlock b d r x then mem r x else m x) (mem 0)

/-- Evaluation on rank `r`: the loop over `firstconf … firstconf + myconf - 1`, that is over the block
of configurations scattered to this rank, with the sums starting at zero. -/
def rankRun {σ τ ε : Type*} [AddMonoid ε] (one : Nat → σ → τ → τ × ε) (d : Mpi.Dist) (confs : List σ)
    (init : Nat → τ) (r : Nat) : τ × ε :=
  confLoop one ((confs.drop (d.confDist r).toNat).take (d.confLen r).toNat) (d.confDist r).toNat
    (init r, 0)

/-- The parallel evaluation: reduced sums and gathered memory on rank 0. -/
def parallelRun {σ τ ε : Type*} [AddMonoid ε] (b : Build) (get : τ → Cell → K)
    (one : Nat → σ → τ → τ × ε) (d : Mpi.Dist) (P : Nat) (confs : List σ) (init : Nat → τ) :
    (Cell → K) × ε :=
  (gather b d P fun r => get (rankRun one d confs init r).1,
   ((List.range P).map fun r => (rankRun one d confs init r).2).sum)

/-- The serial evaluation (`g_mpi.myconf = g_config.nconf`, `firstconf = 0`). -/
def serialRun {σ τ ε : Type*} [AddMonoid ε] (get : τ → Cell → K) (one : Nat → σ → τ → τ × ε)
    (confs : List σ) (init : τ) : (Cell → K) × ε :=
  let r := confLoop one confs 0 (init, 0)
  (get r.1, r.2)

end Verif.Force
