/-
The intermediate potential of differential evolution: `tempfile` of the parameter file.

Sources: /repo/src/diff_evo.c 340-504, in particular 432-447 (`write_pot_table_potfit(g_files.tempfile)`).

The file is represented by the parameters it contains: 436-443 copy the free parameters of the trial vector to the table, all others keep
the values they have there since the start.  Each function follows its namesake of `Verif.Model.DiffEvo`, whose states it takes, and keeps in
addition the content of the file and a list of snapshots, one after each trial vector: what somebody finds who stops the program there.
-/
import Verif.Model.DiffEvo

namespace Verif.TempFileEvo

open Verif.DiffEvo

variable {K : Type*} [Field K] [LinearOrder K] {σ : Type*} {d N : Nat}

/-- 436-443: the table with the free parameters of `t`; `xi` are the parameters of the start. -/
def written (E : Env K σ d N) (xi t : Fin d → K) : Fin d → K := fun x => if ∃ j, E.idx j = x then t x else xi x

/-- What is found if the program is stopped: the trial vectors so far and the content of the file. -/
structure Snap (K : Type*) (d : Nat) where
  tried : List (Fin d → K)
  file : Option (Fin d → K)

/-- The file and the snapshots taken so far, the newest first. -/
structure Files (K : Type*) (d : Nat) where
  file : Option (Fin d → K)
  snaps : List (Snap K d)

/-- 430-447: the file is written if the trial vector costs less than the recorded best; evaluated vectors are changed in place, and the
file gets the changed one. -/
def one [NeZero N] (E : Env K σ d N) (xi : Fin d → K) (pop : List (Ind K d)) (i : Nat) (p : Ind K d) (c : K) (st : St K σ d)
    (f : Files K d) : Files K d :=
  let st' := (E.one pop i p c st).2
  let file := if E.obj (E.mkTrial pop i p st).2.x < st.minCost then some (written E xi st'.trial) else f.file
  ⟨file, ⟨st'.tried, file⟩ :: f.snaps⟩

/-- 344-462. -/
def sweep [NeZero N] (E : Env K σ d N) (xi : Fin d → K) (pop : List (Ind K d)) : Nat → List (Ind K d) → List K → St K σ d →
    Files K d → Files K d
  | i, p :: ps, c :: cs, st, f => sweep E xi pop (i + 1) ps cs (E.one pop i p c st).2 (one E xi pop i p c st f)
  | _, _, _, _, f => f

/-- The loop 340-504. -/
def loop [NeZero N] (E : Env K σ d N) (xi : Fin d → K) : Nat → Gen K σ d → Files K d → Option (Gen K σ d × Files K d)
  | 0, _, _ => none
  | fuel + 1, g, f =>
    if g.st.maxCost - g.st.minCost ≥ E.thr ∧ g.st.minCost ≥ E.thr then
      let f := sweep E xi g.rows.pop 0 g.rows.pop g.rows.cost { g.st with maxCost := 0 } f
      let g := E.generation g
      if E.flag g.count then some (g, f) else loop E xi fuel g f
    else some (g, f)

/-- `run_differential_evolution`: the new parameters, the last state and the file with its snapshots. -/
def run [NeZero N] (E : Env K σ d N) (fuel : Nat) (rng : σ) (xi : Fin d → K) :
    Option ((Fin d → K) × Option (Gen K σ d) × Files K d) :=
  if E.thr = 0 then some (xi, none, ⟨none, []⟩)
  else (loop E xi fuel (E.start rng xi) ⟨none, []⟩).map fun g => (g.1.st.best.x, some g.1, g.2)

end Verif.TempFileEvo
