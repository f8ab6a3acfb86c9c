/-
Life of the processes of a parallel run: `main`, `start_mpi_worker`, `exit_potfit` and `error` (`src/potfit.c` 70-314),
`shutdown_mpi` and `broadcast_params_mpi` (`src/mpi_utils.c` 104-159), the part of `calc_forces` which communicates (the same in all
force routines, e.g. `src/force_eam.c` 138-171 and 546-625) and `gather_forces` (`src/force_common.c` 164-219).

A process is the sequence of its collective MPI calls.  A call completes when every process takes part with a call of the same
signature (operation, count, type); otherwise processes wait for ever.

Simplifications: `MPI_Init` and the MPI calls themselves succeed.  The calls in `broadcast_basic_data`, …, `broadcast_angles` are a list
which is the same for all processes (proved in C92).  The optimisers are an arbitrary list of force evaluations.  Errors
(`error(1, …)`) happen where the script says: while reading, in `update_calc_table` (`src/potential_input.c` 687; all processes hold
the same parameters, so that all of them stop there), in the loop over the configurations of one process, or in the root process
between evaluations.
-/
import Verif.Model.Basic

namespace Verif.Protocol

/-- Types of the data. -/
inductive Ty
  | int | dbl | chr | vector | stens | atom | neigh | angle
  deriving DecidableEq

/-- Signature of a collective call. -/
inductive Sig
  | bcast (n : Nat) (t : Ty)
  | reduce (t : Ty)
  | gather (t : Ty)
  | scatter (t : Ty)
  | finalize
  deriving DecidableEq

/-- `MPI_Bcast(&flag, 1, MPI_INT, …)`; also the one of `init_done`. -/
def flagSig : Sig := .bcast 1 .int

/-- Exit status of a process. -/
inductive Code
  | success
  | failure
  deriving DecidableEq

/-- Program and data: calls of `broadcast_params_mpi` after the first one, whether `broadcast_configurations` refuses (695-707),
`APOT`, `ndimtot`, length of the table, calls of `potsync`, number of densities which are summed, `STRESS`, limiting constraints. -/
structure Cfg where
  data : List Sig
  refused : Bool
  apot : Bool
  ndimtot : Nat
  len : Nat
  sync : List Sig
  rhos : Nat
  stress : Bool
  limits : Bool

/-- `gather_variable` and `gather_forces`, `src/force_common.c` 147-219. -/
def Cfg.body (c : Cfg) : List Sig :=
  List.replicate c.rhos (.reduce .dbl) ++ [.reduce .dbl, .gather .vector, .gather .dbl] ++
    (if c.stress then [.gather .stens] else []) ++ (if c.limits then [.gather .dbl] else [])

/-- Potential or parameters, `src/force_eam.c` 158 and 164. -/
def Cfg.xiSig (c : Cfg) : Sig := if c.apot then .bcast c.ndimtot .dbl else .bcast c.len .dbl

/-- Calls of `potsync` for this flag, `src/force_eam.c` 168-169. -/
def Cfg.syncCalls (c : Cfg) (flag : Int) : List Sig := if c.apot = false ∧ flag = 2 then c.sync else []

/-- Errors in the evaluations: number of the evaluation, and of the process for the loop over configurations (0 is the root). -/
structure Faults where
  /-- in `update_calc_table` before the first evaluation, `src/potfit.c` 110 -/
  first : Bool
  /-- in `update_calc_table` of evaluation `k` -/
  table : Nat → Bool
  /-- in the loop over the configurations of process `p` -/
  compute : Nat → Nat → Bool

/-- Where a worker is. -/
inductive W
  /-- `MPI_Bcast(&g_mpi.init_done, …)`, `src/mpi_utils.c` 128 -/
  | init
  /-- remaining calls of `broadcast_params_mpi` -/
  | data (rest : List Sig)
  /-- `MPI_Bcast(g_pot.opt_pot.table, …)`, `src/potfit.c` 107 -/
  | opt
  /-- in `calc_forces`, waiting for the flag of evaluation `k` -/
  | flag (k : Nat)
  /-- waiting for the parameters -/
  | xi (flag : Int) (k : Nat)
  | sync (rest : List Sig) (k : Nat)
  | body (rest : List Sig) (k : Nat)
  /-- `calc_forces(NULL, NULL, 1)` called by `error`, `src/potfit.c` 304 -/
  | err
  /-- `MPI_Finalize` -/
  | fin (code : Code)
  | gone (code : Code)
  /-- `calc_forces` with null pointers goes on -/
  | crash
  deriving DecidableEq

/-- The next call of a worker. -/
def W.next (c : Cfg) : W → Option Sig
  | .init => some flagSig
  | .data rest => rest.head?
  | .opt => some (.bcast c.ndimtot .dbl)
  | .flag _ => some flagSig
  | .xi _ _ => some c.xiSig
  | .sync rest _ => rest.head?
  | .body rest _ => rest.head?
  | .err => some flagSig
  | .fin _ => some .finalize
  | .gone _ => none
  | .crash => none

/-- After `broadcast_params_mpi`, `src/potfit.c` 87-117: `refused` is `case POTFIT_ERROR`. -/
def afterData (c : Cfg) : W := if c.refused then .fin .failure else if c.apot then .opt else .flag 0

/-- The loop over the configurations of worker `p`. -/
def compute (c : Cfg) (f : Faults) (p k : Nat) : W := if f.compute p k then .err else .body c.body k

/-- What a worker does after a call has been completed with the value `v` of the root process (for flags). -/
def W.recv (c : Cfg) (f : Faults) (p : Nat) (v : Int) : W → W
  | .init => if v = -1 then .fin .success else if c.data = [] then afterData c else .data c.data
  | .data rest => if rest.tail = [] then afterData c else .data rest.tail
  | .opt => if f.first then .err else .flag 0
  | .flag k => if v = 1 then .fin .success else .xi v k
  | .xi fl k =>
    if c.apot then (if f.table k then .err else compute c f p k)
    else if c.syncCalls fl = [] then compute c f p k else .sync (c.syncCalls fl) k
  | .sync rest k => if rest.tail = [] then compute c f p k else .sync rest.tail k
  | .body rest k => if rest.tail = [] then .flag (k + 1) else .body rest.tail k
  | .err => if v = 1 then .fin .failure else .crash
  | .fin code => .gone code
  | .gone code => .gone code
  | .crash => .crash

/-- Reading of the input files by the root process, `src/potfit.c` 217-240. -/
inductive Reading
  | ok
  /-- `error(1, …)` -/
  | error
  /-- `exit_potfit()` -/
  | exit
  deriving DecidableEq

/-- What the root process does: reading, flags of the force evaluations, and whether it ends with `error(1, …)` after them. -/
structure Script where
  reading : Reading
  flags : List Int
  failed : Bool

/-- A call of the root process with the value it sends. -/
abbrev Call := Sig × Int

/-- Calls whose value is of no interest. -/
def plain (l : List Sig) : List Call := l.map fun s => (s, 0)

/-- `calc_forces(NULL, NULL, 1)` and `shutdown_mpi` when everything has been set up, `src/potfit.c` 206, 271 and 302-306. -/
def stop : List Call := [(flagSig, 1), (.finalize, 0)]

/-- Calls of the root process in evaluation `k`, and whether it stops there with `error(1, …)`. -/
def evalCalls (c : Cfg) (f : Faults) (k : Nat) (flag : Int) : List Call × Bool :=
  let start := [(flagSig, flag), (c.xiSig, 0)]
  if c.apot = true ∧ f.table k = true then (start, true)
  else if f.compute 0 k = true then (start ++ plain (c.syncCalls flag), true)
  else (start ++ plain (c.syncCalls flag) ++ plain c.body, false)

/-- All evaluations, then `stop`; the exit status of the root process. -/
def evals (c : Cfg) (f : Faults) (failed : Bool) : Nat → List Int → List Call × Code
  | _, [] => (stop, if failed then .failure else .success)
  | k, flag :: rest =>
    match evalCalls c f k flag with
    | (l, true) => (l ++ stop, .failure)
    | (l, false) => (l ++ (evals c f failed (k + 1) rest).1, (evals c f failed (k + 1) rest).2)

/-- All calls of the root process and its exit status.  In `error` nothing is sent while `init_done` is 0 (`src/potfit.c` 302);
`exit_potfit` calls `shutdown_mpi`, which sends -1 (`src/mpi_utils.c` 107-110). -/
def root (c : Cfg) (f : Faults) (s : Script) : List Call × Code :=
  match s.reading with
  | .error => ([], .failure)
  | .exit => ([(flagSig, -1), (.finalize, 0)], .success)
  | .ok =>
    let setup := (flagSig, 1) :: plain c.data
    if c.refused then (setup ++ [(.finalize, 0)], .failure)
    else
      let first := if c.apot then [(Sig.bcast c.ndimtot .dbl, (0 : Int))] else []
      if c.apot = true ∧ f.first = true then (setup ++ first ++ stop, .failure)
      else
        let r := evals c f s.failed 0 s.flags
        (setup ++ first ++ r.1, r.2)

/-- How the run ends: exit codes of all processes, or some wait for ever (or crash). -/
inductive Outcome
  | ended (codes : List Code)
  | stuck
  deriving DecidableEq

/-- Exit codes if all workers are gone. -/
def codesOf : List W → Option (List Code)
  | [] => some []
  | .gone code :: ws => (codesOf ws).map (code :: ·)
  | _ :: _ => none

/-- All workers with their numbers (from 1 on) receive. -/
def recvAll (c : Cfg) (f : Faults) (v : Int) : Nat → List W → List W
  | _, [] => []
  | p, w :: ws => w.recv c f p v :: recvAll c f v (p + 1) ws

/-- The run: the root process makes its calls one after the other. -/
def exec (c : Cfg) (f : Faults) (code : Code) : List Call → List W → Outcome
  | [], ws => match codesOf ws with
    | some l => .ended (code :: l)
    | none => .stuck
  | (s, v) :: calls, ws =>
    if ws.all fun w => w.next c == some s then exec c f code calls (recvAll c f v 1 ws) else .stuck

/-- A parallel run with `n` workers. -/
def run (c : Cfg) (f : Faults) (s : Script) (n : Nat) : Outcome :=
  exec c f (root c f s).2 (root c f s).1 (List.replicate n .init)

end Verif.Protocol
