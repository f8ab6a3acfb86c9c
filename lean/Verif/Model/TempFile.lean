/-
The intermediate potential of the annealer: `tempfile` of the parameter file.

Sources: /repo/src/simann.c 335-376, in particular 361-370 (`write_pot_table_potfit(g_files.tempfile)`), 332-463.

The file is represented by the parameters it contains.  At 369 these are the ones of `xi`: for analytic potentials `update_apot_table(xi)`
has copied them (365), for tables `xi` is the table itself (`run_simulated_annealing(g_pot.opt_pot.table)`, optimize.c).  How parameters
are written to a file is the subject of C44 and C80.  Each function below follows its namesake of `Verif.Model.Annealing` and keeps in
addition the content of the file and a list of snapshots, one after each trial step: what somebody finds who stops the program there.
-/
import Verif.Model.Annealing

namespace Verif.TempFile

open Verif.Annealing

variable {K : Type*} [Field K] [LinearOrder K] {ι σ : Type*} [DecidableEq ι] {N : Nat}

/-- What is found if the program is stopped: the points evaluated in the loop so far and the content of the file. -/
structure Snap (K ι : Type*) where
  seen : List (ι → K)
  file : Option (ι → K)

/-- State of the annealer with the file and the snapshots taken so far, the newest first. -/
structure FSt (K ι σ : Type*) (N : Nat) where
  st : Annealing.St K ι σ N
  file : Option (ι → K)
  snaps : List (Snap K ι)

/-- simann.c 335-376: a trial step; the file is written if the new point is accepted at 345 and is below the optimum at 357. -/
def step (E : Env K ι σ N) (named : Bool) (T : K) (s : FSt K ι σ N) (h : Fin N) : FSt K ι σ N :=
  let fNew := E.obj (E.move s.st.rng h s.st.xi s.st.v).2.1
  let st := E.step T s.st h
  let file := if fNew ≤ s.st.f ∧ fNew < s.st.fOpt ∧ named = true then some st.xi else s.file
  ⟨st, file, ⟨st.seen, file⟩ :: s.snaps⟩

/-- 334-378. -/
def sweeps (E : Env K ι σ N) (named : Bool) (T : K) (s : FSt K ι σ N) : FSt K ι σ N :=
  times (fun s => (List.finRange N).foldl (step E named T) s) nStep s

/-- 333-423. -/
def temps (E : Env K ι σ N) (named : Bool) (T : K) : Nat → FSt K ι σ N → FSt K ι σ N × Bool
  | 0, s => (s, false)
  | m + 1, s =>
    let s := sweeps E named T s
    let st := adjust s.st
    let s := { s with st := { st with looks := st.looks + 1 } }
    if E.flag s.st.looks then ({ s with st := { s.st with xi := s.st.xiOpt, f := s.st.fOpt } }, true) else temps E named T m s

/-- 332-463. -/
def loop (E : Env K ι σ N) (named : Bool) : Nat → K → Nat → List K → FSt K ι σ N → FSt K ι σ N
  | 0, _, _, _, s => s
  | fuel + 1, T, counter, old, s =>
    let r := temps E named T (3 * N) s
    let counter := (if r.2 then kMax + 1 else counter) + 1
    let old := old.drop 1 ++ [r.1.st.f]
    let a := again old r.1.st
    let s := { r.1 with st := a.1 }
    if counter < kMax ∧ a.2 = true then loop E named fuel (T * (85 / 100)) counter old s else s

/-- Result: that of the annealer, the file left behind and the snapshots. -/
structure FRes (K ι : Type*) where
  res : Res K ι
  file : Option (ι → K)
  snaps : List (Snap K ι)

/-- `run_simulated_annealing`; `named`: a name is given for the file (362). -/
def run (E : Env K ι σ N) (named : Bool) (pick : σ → σ × Fin N) (t : Temp K) (rng : σ) (xi : ι → K) : Option (FRes K ι) :=
  let f := E.obj xi
  match E.temperature pick t xi f rng (fun _ => 1 / 10) with
  | none => none
  | some (T, r) =>
    if T = 0 then some ⟨⟨xi, f, [], r.seen⟩, none, []⟩
    else
      let s := loop E named kMax T 0 (List.replicate nEps f) ⟨⟨xi, f, xi, f, r.v, fun _ => 0, r.rng, 0, []⟩, none, []⟩
      some ⟨⟨s.st.xiOpt, s.st.fOpt, s.st.seen, r.seen⟩, s.file, s.snaps⟩

end Verif.TempFile
