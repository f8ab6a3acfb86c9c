/-
`run_simulated_annealing` (`src/simann.c` 269-483) for tabulated EAM, ADP and MEAM potentials: rescaling every tenth step (408-420)
and the saving of the ranges of the embedding functions for MEAM (`store_pot_data`, `restore_pot_data`, 204-255).  `xi` is the table of
`opt_pot` (`src/optimize.c` 41-47, `src/potfit.c`), so `rescale` changes it in place.

Simplifications: those of `Verif.Model.Annealing`; `rescale` is an arbitrary function of ranges and values (`none`: not necessary,
return value 0), see `Verif.Model.Rescale` and `Verif.Model.RescaleMeam`; ranges are functions of the column and knots of the place.
-/
import Verif.Model.Annealing

namespace Verif.AnnealRescale

open Verif.Annealing

variable {K : Type*} [Field K] [LinearOrder K] [IsStrictOrderedRing K] {ι σ : Type*} [DecidableEq ι] {N : Nat}

/-- `begin`, `end`, `step`, `invstep` of the columns and `xcoord` of `opt_pot`. -/
structure Grid (K : Type*) where
  begin : Nat → K
  stop : Nat → K
  step : Nat → K
  invstep : Nat → K
  xcoord : Nat → K

/-- Place of the columns: `paircol`, `ntypes`, `first`, `last`. -/
structure Cols where
  paircol : Nat
  ntypes : Nat
  first : Nat → Nat
  last : Nat → Nat

/-- Columns of embedding functions, `paircol + ntypes, …, paircol + 2 * ntypes - 1`. -/
def Cols.embed (c : Cols) (i : Nat) : Bool := c.paircol + c.ntypes ≤ i ∧ i < c.paircol + 2 * c.ntypes

/-- Whether `j` is a place of an embedding function. -/
def Cols.knot (c : Cols) (j : Nat) : Bool :=
  (List.range c.ntypes).any fun k => c.first (c.paircol + c.ntypes + k) ≤ j ∧ j ≤ c.last (c.paircol + c.ntypes + k)

/-- `pot_data_t`, 191-199: the ranges are numbered by the type. -/
structure Saved (K : Type*) where
  begin : Nat → K
  stop : Nat → K
  step : Nat → K
  invstep : Nat → K
  xcoord : Nat → K

/-- `store_pot_data`, 204-228. -/
def store (c : Cols) (g : Grid K) (d : Saved K) : Saved K :=
  ⟨fun k => if k < c.ntypes then g.begin (c.paircol + c.ntypes + k) else d.begin k,
   fun k => if k < c.ntypes then g.stop (c.paircol + c.ntypes + k) else d.stop k,
   fun k => if k < c.ntypes then g.step (c.paircol + c.ntypes + k) else d.step k,
   fun k => if k < c.ntypes then g.invstep (c.paircol + c.ntypes + k) else d.invstep k,
   fun j => if c.knot j then g.xcoord j else d.xcoord j⟩

/-- `restore_pot_data`, 239-255. -/
def restore (c : Cols) (d : Saved K) (g : Grid K) : Grid K :=
  ⟨fun i => if c.embed i then d.begin (i - (c.paircol + c.ntypes)) else g.begin i,
   fun i => if c.embed i then d.stop (i - (c.paircol + c.ntypes)) else g.stop i,
   fun i => if c.embed i then d.step (i - (c.paircol + c.ntypes)) else g.step i,
   fun i => if c.embed i then d.invstep (i - (c.paircol + c.ntypes)) else g.invstep i,
   fun j => if c.knot j then d.xcoord j else g.xcoord j⟩

/-- What the annealer works with. -/
structure REnv (K ι σ : Type*) (N : Nat) where
  cols : Cols
  /-- `calc_forces` for ranges and values -/
  obj : Grid K → (ι → K) → K
  /-- `rescale(&opt_pot, 1.0, 0)` -/
  rescale : Grid K → (ι → K) → Option (Grid K × (ι → K))
  /-- `MEAM` -/
  meam : Bool
  /-- `RESCALE` -/
  resc : Bool
  idx : Fin N → ι
  move : σ → Fin N → (ι → K) → (Fin N → K) → σ × (ι → K) × (Fin N → K)
  draw : σ → σ × K
  exp : K → K
  log : K → K
  flag : Nat → Bool

/-- The annealer for fixed ranges; `APOT` and `KIM` are not defined. -/
def REnv.at (R : REnv K ι σ N) (g : Grid K) : Env K ι σ N := ⟨R.obj g, R.idx, R.move, false, R.draw, R.exp, R.log, R.flag⟩

/-- Variables; `points` (not in the code) lists ranges and values of all points evaluated in the annealing loop by trial steps. -/
structure RSt (K ι σ : Type*) (N : Nat) where
  base : St K ι σ N
  grid : Grid K
  saved : Saved K
  doRescale : Bool
  points : List (Grid K × (ι → K))

/-- 335-376: the trial step; ranges are saved when a new optimum is found (353-355). -/
def REnv.step (R : REnv K ι σ N) (T : K) (s : RSt K ι σ N) (h : Fin N) : RSt K ι σ N :=
  let new := (R.move s.base.rng h s.base.xi s.base.v).2.1
  let fNew := R.obj s.grid new
  { s with
    base := (R.at s.grid).step T s.base h
    saved := if R.meam ∧ fNew ≤ s.base.f ∧ fNew < s.base.fOpt then store R.cols s.grid s.saved else s.saved
    points := (s.grid, new) :: s.points }

/-- 334-378. -/
def REnv.sweeps (R : REnv K ι σ N) (T : K) (s : RSt K ι σ N) : RSt K ι σ N :=
  times (fun s => (List.finRange N).foldl (R.step T) s) nStep s

/-- 408-420: every tenth step; `m` is the loop variable. -/
def REnv.rescaleStep (R : REnv K ι σ N) (m : Nat) (s : RSt K ι σ N) : RSt K ι σ N :=
  if R.resc ∧ (m + 1) % 10 = 0 ∧ s.doRescale then
    match R.rescale s.grid s.base.xi with
    | none => s
    | some (g, x) => { s with grid := g, base := { s.base with xi := x, f := R.obj g x } }
  else s

/-- 333-423: `left` more turns of the loop over `m`; the Boolean tells whether the flag file was found. -/
def REnv.temps (R : REnv K ι σ N) (T : K) : (left m : Nat) → RSt K ι σ N → RSt K ι σ N × Bool
  | 0, _, s => (s, false)
  | left + 1, m, s =>
    let s := R.sweeps T s
    let s := { s with base := { adjust s.base with looks := s.base.looks + 1 } }
    if R.flag s.base.looks then ({ s with base := { s.base with xi := s.base.xiOpt, f := s.base.fOpt } }, true)
    else R.temps T left (m + 1) (R.rescaleStep m s)

/-- 434-461. -/
def REnv.again (R : REnv K ι σ N) (old : List K) (s : RSt K ι σ N) : RSt K ι σ N × Bool :=
  if (old.dropLast).any fun o => decide (|s.base.f - o| > epsF * s.base.f) then (s, true)
  else if s.base.f - s.base.fOpt > epsF * s.base.f then
    if R.meam then
      let g := restore R.cols s.saved s.grid
      ({ s with base := { s.base with xi := s.base.xiOpt, f := R.obj g s.base.xiOpt }, grid := g, doRescale := false }, true)
    else ({ s with base := { s.base with xi := s.base.xiOpt, f := s.base.fOpt } }, true)
  else (s, false)

/-- 332-463. -/
def REnv.loop (R : REnv K ι σ N) : Nat → K → Nat → List K → RSt K ι σ N → RSt K ι σ N
  | 0, _, _, _, s => s
  | fuel + 1, T, counter, old, s =>
    let r := R.temps T (3 * N) 0 s
    let counter := (if r.2 then kMax + 1 else counter) + 1
    let old := old.drop 1 ++ [r.1.base.f]
    let a := R.again old r.1
    if counter < kMax ∧ a.2 = true then R.loop fuel (T * (85 / 100)) counter old a.1 else a.1

/-- Outcome: the ranges and values of `opt_pot`, the recorded optimum, the points evaluated. -/
structure RRes (K ι : Type*) where
  grid : Grid K
  xi : ι → K
  fOpt : K
  points : List (Grid K × (ι → K))

/-- `run_simulated_annealing`; memory for `pot_data` is cleared. -/
def REnv.run (R : REnv K ι σ N) (pick : σ → σ × Fin N) (t : Temp K) (rng : σ) (g : Grid K) (xi : ι → K) : Option (RRes K ι) :=
  let f := R.obj g xi
  match (R.at g).temperature pick t xi f rng (fun _ => 1 / 10) with
  | none => none
  | some (T, r) =>
    if T = 0 then some ⟨g, xi, f, []⟩
    else
      let d := store R.cols g ⟨fun _ => 0, fun _ => 0, fun _ => 0, fun _ => 0, fun _ => 0⟩
      let s := R.loop kMax T 0 (List.replicate nEps f) ⟨⟨xi, f, xi, f, r.v, fun _ => 0, r.rng, 0, []⟩, g, d, true, []⟩
      some ⟨if R.meam then restore R.cols s.saved s.grid else s.grid, s.base.xiOpt, s.base.fOpt, s.points⟩

end Verif.AnnealRescale
