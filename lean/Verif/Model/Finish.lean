/-
What is in the potential file at the end of a fit with analytic potentials: `run_optimization` of `src/optimize.c` 39-57, the end of
`main` in `src/potfit.c` 113-146, and `update_apot_table` of `src/potential_input.c` 600-616.

The optimisers work on the vector `opt_pot.table`; the file is written from `apot_table.values`, which `update_apot_table` copies from
it.  Simplifications: the optimisers are those of `Model/Annealing.lean`, `Model/DiffEvo.lean` and `Model/Powell.lean`; where they write
the temporary file the points are an arbitrary list; `calc_forces` does not alter the vector (phases: see C43).
-/
import Verif.Model.ApotLayout
import Verif.Model.Annealing
import Verif.Model.Powell

namespace Verif.Finish

open Verif.ApotLayout

variable {K : Type*} [Field K] [LinearOrder K] [IsStrictOrderedRing K] {σ : Type*} {N M : Nat}

/-- `apot_table.values`. -/
abbrev Values (K : Type*) := Nat → Nat → K

/-- `global_idx[glob][.] = (pot, par)`: a parameter which stands for a global one. -/
structure Ref where
  glob : Nat
  pot : Nat
  par : Nat
deriving DecidableEq

/-- `values[i][j] = x`. -/
def setValue (v : Values K) (i j : Nat) (x : K) : Values K := Function.update v i (Function.update (v i) j x)

/-- The free parameters, `potential_input.c` 602-605; also `diff_evo.c` 436-440. -/
def updateFree (f : File K) (x : Nat → K) (v : Values K) : Values K :=
  (build f).idx.foldl (fun v s => setValue v s.pot s.par (x s.pos)) v

/-- `update_apot_table`, 600-616. -/
def updateApot (f : File K) (refs : List Ref) (x : Nat → K) (v : Values K) : Values K :=
  let v := updateFree f x v
  if haveGlobals f then refs.foldl (fun v r => setValue v r.pot r.par (x (globalIdx f + r.glob))) v else v

/-- Vector and values. -/
structure Data (K : Type*) where
  table : Nat → K
  values : Values K

/-- `run_simulated_annealing` with the updates at `src/simann.c` 363-370 and 475-482 if there is a temporary file (`temp`); `stages` are
the points at the former ones.  With start temperature 0 no point is seen and the routine returns at 313. -/
def anneal (f : File K) (refs : List Ref) (temp : Bool) (A : Annealing.Env K Nat σ N) (pick : σ → σ × Fin N) (t : Annealing.Temp K)
    (rng : σ) (stages : List (Nat → K)) (d : Data K) : Option (Data K) :=
  (A.run pick t rng d.table).map fun r =>
    ⟨r.xi, if temp && !r.seen.isEmpty then updateApot f refs r.xi (stages.foldl (fun v x => updateApot f refs x v) d.values)
      else d.values⟩

/-- What differential evolution leaves: the best vector `x`; with a temporary file, the free parameters of the trial vectors `stages` which
were better than all before (`src/diff_evo.c` 432-447). -/
def evolve (f : File K) (temp : Bool) (x : Nat → K) (stages : List (Nat → K)) (d : Data K) : Data K :=
  ⟨x, if temp then stages.foldl (fun v x => updateFree f x v) d.values else d.values⟩

/-- `run_powell_lsq` with `update_apot_table` at `src/powell_lsq.c` 181, 351 (points `stages`) and 375; if the error is small from the
beginning the routine returns before (133-136). -/
def powell [NeZero N] (f : File K) (refs : List Ref) (P : Powell.Env K Nat N M) (fuel : Nat) (stages : List (Nat → K)) (d : Data K) :
    Except Powell.End (Data K) :=
  match P.run fuel d.table with
  | .error e => .error e
  | .ok s =>
    .ok ⟨s.xi, if (P.obj d.table).1 < Powell.verySmall then d.values
      else updateApot f refs s.xi (stages.foldl (fun v x => updateApot f refs x v) d.values)⟩

/-- The values in the file, `read_pot_table0`: those of the potentials, of the sections behind them and the global ones. -/
def readValues (f : File K) (i j : Nat) : K :=
  let get := fun ps : List (Par K) => ((ps[j]?).map Par.val).getD 0
  if i = globalPot f then get f.globals
  else match f.fns[i]? with
    | some g => get g.pars
    | none => match f.extra with
      | .none => 0
      | .chem ps => if i = f.fns.length then get ps else 0
      | .elstat _ secs => get (secs.getD (i - f.fns.length) [])

/-- After reading: the vector and the values. -/
def start (f : File K) : Data K := ⟨fun n => (entry f n).getD 0, readValues f⟩

/-- The parameters `ps` with new values. -/
def withValues (v : Nat → K) (ps : List (Par K)) : List (Par K) := ps.zipIdx.map fun pj => ⟨v pj.2, pj.1.fixed⟩

/-- What is found in the file that `write_pot_table0` writes (`src/potential_output.c` 180-260): the same potentials with the values `v`.
Decimals are taken to be exact here. -/
def written (f : File K) (v : Values K) : File K :=
  { f with
    fns := f.fns.zipIdx.map fun gi => ⟨gi.1.frozen, withValues (v gi.2) gi.1.pars⟩
    extra := match f.extra with
      | .none => .none
      | .chem ps => .chem (withValues (v f.fns.length) ps)
      | .elstat b secs => .elstat b (secs.zipIdx.map fun si => withValues (v (f.fns.length + si.2)) si.1)
    globals := withValues (v (globalPot f)) f.globals }

end Verif.Finish
