/-
`src/simann.c`: simulated annealing.

Simplifications: doubles are elements of an ordered field; random numbers come from an arbitrary state `σ`; `exp` and `log` are
arbitrary functions; `calc_forces` is an arbitrary function (only its value matters here); the break flag file is an arbitrary
function of the number of looks at it.  Builds with `RESCALE` and the saving of spline ranges for MEAM
(`store_pot_data`, `restore_pot_data`) are left out, as are printing and the temporary potential file.
-/
import Mathlib.Algebra.Order.Field.Basic
import Mathlib.Algebra.Order.AbsoluteValue.Basic
import Mathlib.Logic.Function.Basic
import Mathlib.Data.Fintype.Basic
import Mathlib.Data.Fin.VecNotation
import Mathlib.Tactic.NormNum

namespace Verif.Annealing

variable {K : Type*} [Field K] [LinearOrder K] [IsStrictOrderedRing K] {ι σ : Type*} [DecidableEq ι] {N : Nat}

/-- `NSTEP`, line 47. -/
def nStep : Nat := 20
/-- `NEPS`, line 46. -/
def nEps : Nat := 4
/-- `KMAX`, line 51. -/
def kMax : Nat := 1000
/-- `EPS * 0.01` with `EPS` from line 45. -/
def epsF : K := 1 / 1000

/-! ### Trial moves -/

/-- `APOT`, 83-90: up to ten draws, the last one stays if none is inside the bounds. `draw` is `eqdist`; the first argument is
the number of draws left. -/
def tries (draw : σ → σ × K) (lo hi x v : K) : Nat → σ → K → σ × K
  | 0, s, temp => (s, temp)
  | n + 1, s, _ =>
    let r := draw s
    let temp := x + (2 * r.2 - 1) * v
    if temp ≥ lo ∧ temp ≤ hi then (r.1, temp) else tries draw lo hi x v n r.1 temp

/-- `randomize_parameter` with `APOT` or `KIM`, 77-92: new random state, parameters and displacements. -/
def apotMove (draw : σ → σ × K) (idx : Fin N → ι) (bounds : Fin N → K × K) (s : σ) (n : Fin N) (xi : ι → K)
    (v : Fin N → K) : σ × (ι → K) × (Fin N → K) :=
  let lo := (bounds n).1
  let hi := (bounds n).2
  let v := if v n > hi - lo then Function.update v n (hi - lo) else v
  let r := tries draw lo hi (xi (idx n)) (v n) 10 s 0
  (r.1, Function.update xi (idx n) r.2, v)

/-- One turn of the loop 102-112 for tabulated potentials: `mem` is the memory of `opt_pot.idx` (`none`: outside of the
allocated block), `lo`, `hi` are `first` and `last` of the potential, `w` is the displacement `GAUSS(i / width) * height`. -/
def tabStep (mem : Nat → Option Nat) (ndim n lo hi i : Nat) (w : K) (xi : Nat → K) : Option (Nat → K) :=
  let right : Option (Nat → K) :=
    if n + i ≤ ndim then
      match mem (n + i) with
      | none => none
      | some a => some (if a ≤ hi then Function.update xi a (xi a + w) else xi)
    else some xi
  right.bind fun xi =>
    if i ≤ n then
      match mem (n - i) with
      | none => none
      | some a => some (if a ≥ lo then Function.update xi a (xi a + w) else xi)
    else some xi

/-- The loop 102-112: `turns` is the number of `i ≥ 0` with `i <= 4.0 * width`; `w i` the displacement for `i`. -/
def tabLoop (mem : Nat → Option Nat) (ndim n lo hi : Nat) (w : Nat → K) : Nat → (Nat → K) → Option (Nat → K)
  | 0, xi => some xi
  | i + 1, xi => (tabLoop mem ndim n lo hi w i xi).bind (tabStep mem ndim n lo hi i (w i))

/-- 99-100: the potential to which entry `a` belongs, from the list of `(first, last)`. -/
def potOf (pots : List (Nat × Nat)) (a : Nat) : Option (Nat × Nat) := pots.find? fun p => decide (a ≤ p.2)

/-- `randomize_parameter` for tabulated potentials, 94-112. `none` stands for an access outside of the arrays. -/
def tabMove (mem : Nat → Option Nat) (ndim : Nat) (pots : List (Nat × Nat)) (w : Nat → K) (turns n : Nat)
    (xi : Nat → K) : Option (Nat → K) :=
  match mem n with
  | none => none
  | some a =>
    match potOf pots a with
    | none => none
    | some p => tabLoop mem ndim n p.1 p.2 w turns xi

/-- The memory of `opt_pot.idx` after reading: `Malloc(len * sizeof(int))` is set to zero, the first entries are written
(`src/potential_input_f3.c` 97). -/
def idxMem (idx : List Nat) (len : Nat) (k : Nat) : Option Nat :=
  match idx[k]? with
  | some a => some a
  | none => if k < len then some 0 else none

/-! ### The annealing loop -/

/-- What the annealer works with: `N` free parameters. -/
structure Env (K ι σ : Type*) (N : Nat) where
  obj : (ι → K) → K
  idx : Fin N → ι
  /-- `randomize_parameter`: random state, parameter, parameters, displacements -/
  move : σ → Fin N → (ι → K) → (Fin N → K) → σ × (ι → K) × (Fin N → K)
  /-- `APOT` or `KIM` -/
  apot : Bool
  draw : σ → σ × K
  exp : K → K
  log : K → K
  flag : Nat → Bool

/-- Variables of `run_simulated_annealing`; `seen` (not in the code) lists the points evaluated in the annealing loop, and
`looks` counts the looks for the flag file. -/
structure St (K ι σ : Type*) (N : Nat) where
  xi : ι → K
  f : K
  xiOpt : ι → K
  fOpt : K
  v : Fin N → K
  naccept : Fin N → Nat
  rng : σ
  looks : Nat
  seen : List (ι → K)

/-- 335-376: one trial step for parameter `h` at temperature `T`. -/
def Env.step (E : Env K ι σ N) (T : K) (s : St K ι σ N) (h : Fin N) : St K ι σ N :=
  let r := E.move s.rng h s.xi s.v
  let new := r.2.1
  let fNew := E.obj new
  let s := { s with rng := r.1, v := r.2.2, seen := new :: s.seen }
  if fNew ≤ s.f then
    let s := { s with xi := if E.apot then Function.update s.xi (E.idx h) (new (E.idx h)) else new, f := fNew,
                      naccept := Function.update s.naccept h (s.naccept h + 1) }
    if fNew < s.fOpt then { s with xiOpt := new, fOpt := fNew } else s
  else
    let c := E.draw s.rng
    let s := { s with rng := c.1 }
    if c.2 < E.exp ((s.f - fNew) / T) then
      { s with xi := new, f := fNew, naccept := Function.update s.naccept h (s.naccept h + 1) }
    else s

/-- `n` times. -/
def times {α : Type*} (f : α → α) : Nat → α → α
  | 0, a => a
  | n + 1, a => times f n (f a)

/-- 334-378: `NSTEP` sweeps over the parameters. -/
def Env.sweeps (E : Env K ι σ N) (T : K) (s : St K ι σ N) : St K ι σ N :=
  times (fun s => (List.finRange N).foldl (E.step T) s) nStep s

/-- 381-387. -/
def adjust (s : St K ι σ N) : St K ι σ N :=
  { s with
    v := fun n =>
      if (s.naccept n : K) > 6 / 10 * 20 then s.v n * (1 + 2 * ((s.naccept n : K) / 20 - 6 / 10) / (4 / 10))
      else if (s.naccept n : K) < 4 / 10 * 20 then s.v n / (1 + 2 * (4 / 10 - (s.naccept n : K) / 20) / (4 / 10))
      else s.v n
    naccept := fun _ => 0 }

/-- 333-423: the loop over `m`; the Boolean tells whether the flag file was found. -/
def Env.temps (E : Env K ι σ N) (T : K) : Nat → St K ι σ N → St K ι σ N × Bool
  | 0, s => (s, false)
  | m + 1, s =>
    let s := adjust (E.sweeps T s)
    let s := { s with looks := s.looks + 1 }
    if E.flag s.looks then ({ s with xi := s.xiOpt, f := s.fOpt }, true) else E.temps T m s

/-- 434-461: whether to go on, with the backlog `old` already shifted. -/
def again (old : List K) (s : St K ι σ N) : St K ι σ N × Bool :=
  if (old.dropLast).any fun o => decide (|s.f - o| > epsF * s.f) then (s, true)
  else if s.f - s.fOpt > epsF * s.f then ({ s with xi := s.xiOpt, f := s.fOpt }, true)
  else (s, false)

/-- 332-463: the annealing loop. The first argument bounds the recursion: at most `KMAX` turns, since each one increases
`loop_counter`. -/
def Env.loop (E : Env K ι σ N) : Nat → K → Nat → List K → St K ι σ N → St K ι σ N
  | 0, _, _, _, s => s
  | fuel + 1, T, counter, old, s =>
    let r := E.temps T (3 * N) s
    let counter := (if r.2 then kMax + 1 else counter) + 1
    let old := old.drop 1 ++ [r.1.f]
    let a := again old r.1
    if counter < kMax ∧ a.2 = true then E.loop fuel (T * (85 / 100)) counter old a.1 else a.1

/-- 146-163: the trial steps for the automatic start temperature. -/
structure Tr (K ι σ : Type*) (N : Nat) where
  rng : σ
  v : Fin N → K
  m1 : Nat
  dF : K
  seen : List (ι → K)

/-- One trial step; `pick` is `(int)(eqdist() * ndim)`. -/
def Env.trial (E : Env K ι σ N) (pick : σ → σ × Fin N) (xi : ι → K) (f : K) (t : Tr K ι σ N) : Tr K ι σ N :=
  let h := pick t.rng
  let r := E.move h.1 h.2 xi t.v
  let fNew := E.obj r.2.1
  let t := { t with rng := r.1, v := r.2.2, seen := r.2.1 :: t.seen }
  if fNew ≤ f then { t with m1 := t.m1 + 1 } else { t with dF := t.dF + (fNew - f) }

/-- How the start temperature is obtained: given, or from trial steps. -/
inductive Temp (K : Type*)
  | given (T : K)
  | auto

/-- `get_annealing_temperature`, 130-181: `none` is `error(1, ..)`.  `isnan(T) || isinf(T)`: no uphill step (division by zero)
or a logarithm of zero. -/
def Env.temperature (E : Env K ι σ N) (pick : σ → σ × Fin N) (t : Temp K) (xi : ι → K) (f : K) (s : σ) (v : Fin N → K) :
    Option (K × Tr K ι σ N) :=
  match t with
  | .given T => if T < 0 then none else some (T, ⟨s, v, 0, 0, []⟩)
  | .auto =>
    let r := times (E.trial pick xi f) (10 * N) ⟨s, v, 0, 0, []⟩
    let u : K := ((10 * N - r.m1 : Nat) : K)
    let l := E.log (u / (u * (8 / 10) + (1 - 8 / 10) * (r.m1 : K)))
    if u = 0 ∨ l = 0 then none else some (|r.dF / u / l|, r)

/-- Result of the annealing: parameters, recorded optimum, points evaluated in the loop and before it. -/
structure Res (K ι : Type*) where
  xi : ι → K
  fOpt : K
  seen : List (ι → K)
  trials : List (ι → K)

/-- `run_simulated_annealing`. -/
def Env.run (E : Env K ι σ N) (pick : σ → σ × Fin N) (t : Temp K) (rng : σ) (xi : ι → K) : Option (Res K ι) :=
  let f := E.obj xi
  match E.temperature pick t xi f rng (fun _ => 1 / 10) with
  | none => none
  | some (T, r) =>
    if T = 0 then some ⟨xi, f, [], r.seen⟩
    else
      let s := E.loop kMax T 0 (List.replicate nEps f) ⟨xi, f, xi, f, r.v, fun _ => 0, r.rng, 0, []⟩
      some ⟨s.xiOpt, s.fOpt, s.seen, r.seen⟩

end Verif.Annealing
