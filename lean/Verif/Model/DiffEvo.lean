/-
`src/diff_evo.c`: differential evolution.

Simplifications: doubles are elements of an ordered field; random numbers come from an arbitrary state `σ`; `calc_forces` is an
arbitrary function for the value, and another one (`put`) for what it makes of the vector passed (`apot_check_params` turns
phases, `update_calc_table` copies global parameters and enters slopes); what it takes from memory beside the vector is left out (C106 and C108
show that it does not matter); the break flag file is an arbitrary function of the number of looks at it.
The loops 346-352, which draw until the numbers differ, are one arbitrary choice `pick`; so is `(int)floor(eqdist() * ndim)`.
A row of `D = ndimtot + 2` doubles is the parameter vector with the two last entries apart.  Printing and the temporary
potential file (`g_files.tempfile`, 435-445) are left out.
-/
import Mathlib.Algebra.Order.Field.Basic
import Mathlib.Logic.Function.Basic
import Mathlib.Data.Fintype.Basic
import Mathlib.Data.Fin.Basic
import Mathlib.Data.List.FinRange
import Mathlib.Data.Fin.VecNotation
import Mathlib.Tactic.NormNum

namespace Verif.DiffEvo

variable {K : Type*} [Field K] [LinearOrder K] [IsStrictOrderedRing K] {σ α : Type*} {d N : Nat}

/-! ### Sorting -/

/-- `SWAP` of two array elements, or `swap_population` (257-268). Never called with indices outside of the array. -/
def swapAt (l : List α) (i j : Nat) : List α :=
  match l[i]?, l[j]? with
  | some a, some b => (l.set i b).set j a
  | _, _ => l

/-- The two arrays which are sorted together: costs and individuals. -/
structure Rows (K α : Type*) where
  cost : List K
  pop : List α
  deriving DecidableEq

/-- Swap in both arrays, e.g. 232-233. -/
def Rows.swap (r : Rows K α) (i j : Nat) : Rows K α := ⟨swapAt r.cost i j, swapAt r.pop i j⟩

/-- The loop 237-243, with `n` turns left: `i` the loop variable, `cur` is `current_index`. -/
def partLoop (v : K) : Nat → Nat → Nat → Rows K α → Nat × Rows K α
  | 0, _, cur, r => (cur, r)
  | n + 1, i, cur, r =>
    if r.cost.getD i v ≤ v ∧ i ≠ cur then partLoop v n (i + 1) (cur + 1) (r.swap i cur)
    else partLoop v n (i + 1) cur r

/-- `partition`, 227-249. (`getD` reads `cost[index]`; the default plays no role, the index is in the array.) -/
def partition (r : Rows K α) (low high index : Nat) : Nat × Rows K α :=
  let v := r.cost.getD index 0
  let l := partLoop v (high - low) low low (r.swap index high)
  (l.1, l.2.swap l.1 high)

/-- `quicksort`, 211-219, for the `n` rows from `low` on: `high = low + n - 1`. `fuel` bounds the depth of the recursion, and
`n` is enough (`quicksort_eq`). -/
def qs : Nat → Nat → Nat → Rows K α → Rows K α
  | 0, _, _, r => r
  | fuel + 1, low, n, r =>
    if 1 < n then
      let high := low + n - 1
      let p := partition r low high ((low + high) / 2)
      qs fuel (p.1 + 1) (high - p.1) (qs fuel low (p.1 - low) p.2)
    else r

/-- `quicksort` of `n` rows from `low` on. -/
def quicksort (low n : Nat) (r : Rows K α) : Rows K α := qs n low n r

/-! ### Populations -/

/-- A row of the population: parameters, `F` (entry `D - 2`) and `CR` (entry `D - 1`). -/
structure Ind (K : Type*) (d : Nat) where
  x : Fin d → K
  f : K
  cr : K

/-- `NP`, lines 43-44. -/
def np (d : Nat) : Nat := 15 * (d + 2)

/-- What the algorithm works with: `d = ndimtot` parameters, `N = ndim` of them free. -/
structure Env (K σ : Type*) (d N : Nat) where
  obj : (Fin d → K) → K
  /-- The vector after an evaluation -/
  put : (Fin d → K) → Fin d → K := id
  idx : Fin N → Fin d
  lo : Fin N → K
  hi : Fin N → K
  /-- `APOT` or `KIM` -/
  apot : Bool
  /-- `eqdist` -/
  draw : σ → σ × K
  /-- `normdist` -/
  norm : σ → σ × K
  /-- 346-352: `a` and `b` for individual `i` -/
  pick : σ → Nat → σ × Nat × Nat
  /-- 366: the first parameter -/
  pickJ : σ → σ × Fin N
  flag : Nat → Bool
  thr : K

/-- 70-75: the start vector with random `F` and `CR`, `n` rows. -/
def Env.copies (E : Env K σ d N) (xi : Fin d → K) : Nat → σ → σ × List (Ind K d)
  | 0, s => (s, [])
  | n + 1, s =>
    let u := E.draw s
    let w := E.draw u.1
    let r := Env.copies E xi n w.1
    (r.1, ⟨xi, 1 / 10 + u.2 * (9 / 10), w.2⟩ :: r.2)

/-- 80-97: new value for a parameter `j` of value `val`. -/
def Env.initVal (E : Env K σ d N) (s : σ) (j : Fin N) (val : K) : σ × K :=
  if E.apot then
    let r := E.norm s
    let temp := r.2 / 3
    let temp := if |temp| > 1 then temp / |temp| else temp
    (r.1, if temp > 0 then val + temp * (E.hi j - val) else val + temp * (val - E.lo j))
  else
    let r := E.draw s
    (r.1, 10 * val * (2 * r.2 - 1))

/-- 79-98: random parameters for one row. -/
def Env.initRow (E : Env K σ d N) (xi : Fin d → K) (s : σ) (x : Fin d → K) : σ × (Fin d → K) :=
  (List.finRange N).foldl (fun a j =>
    let r := E.initVal a.1 j (xi (E.idx j))
    (r.1, Function.update a.2 (E.idx j) r.2)) (s, x)

/-- 78-99: all rows of a list. -/
def Env.initRows (E : Env K σ d N) (xi : Fin d → K) : σ → List (Ind K d) → σ × List (Ind K d)
  | s, [] => (s, [])
  | s, p :: l =>
    let r := E.initRow xi s p.x
    let t := Env.initRows E xi r.1 l
    (t.1, { p with x := r.2 } :: t.2)

/-- 144-156: smallest value of parameter `j`. -/
def Env.minp (E : Env K σ d N) (pop : List (Ind K d)) (j : Fin N) : K :=
  pop.foldl (fun m p => if p.x (E.idx j) < m then p.x (E.idx j) else m) (10 * 10 ^ 30)

/-- 144-156: largest value of parameter `j`. -/
def Env.maxp (E : Env K σ d N) (pop : List (Ind K d)) (j : Fin N) : K :=
  pop.foldl (fun m p => if p.x (E.idx j) > m then p.x (E.idx j) else m) (-(10 * 10 ^ 30))

/-- 160-183: the opposite of an individual. -/
def Env.opposite (E : Env K σ d N) (lo hi : Fin N → K) (p : Ind K d) : Ind K d :=
  { p with x := (List.finRange N).foldl (fun x j => Function.update x (E.idx j) (lo j + hi j - p.x (E.idx j))) p.x }

/-- The opposite population of `opposite_check`, 143-183. -/
def Env.opposites (E : Env K σ d N) (init : Bool) (pop : List (Ind K d)) : List (Ind K d) :=
  if init then pop.map (E.opposite E.lo E.hi) else pop.map (E.opposite (E.minp pop) (E.maxp pop))

/-- What a row becomes when it is evaluated in place (103, 190). -/
def Env.after (E : Env K σ d N) (p : Ind K d) : Ind K d := { p with x := E.put p.x }

/-- `opposite_check`, 121-203. -/
def Env.oppositeCheck (E : Env K σ d N) (init : Bool) (r : Rows K (Ind K d)) : Rows K (Ind K d) :=
  let opp := E.opposites init r.pop
  let s := quicksort 0 (2 * np d) ⟨r.cost ++ opp.map (fun p => E.obj p.x), r.pop ++ opp.map E.after⟩
  ⟨s.cost.take (np d), s.pop.take (np d)⟩

/-- `init_population`, 67-111. The last component lists the evaluated vectors. -/
def Env.initPop (E : Env K σ d N) (xi : Fin d → K) (s : σ) : σ × Rows K (Ind K d) × List (Fin d → K) :=
  let c := E.copies xi (np d) s
  let t := E.initRows xi c.1 (c.2.drop 1)
  let pop := c.2.take 1 ++ t.2
  let r : Rows K (Ind K d) := ⟨pop.map fun p => E.obj p.x, pop.map E.after⟩
  if E.apot then (t.1, E.oppositeCheck true r, (pop ++ E.opposites true r.pop).map Ind.x) else (t.1, r, pop.map Ind.x)

/-! ### The evolution -/

/-- 389-422: mutation of parameter `j`. -/
def Env.mutate (E : Env K σ d N) (best a b : Fin d → K) (f : K) (j : Fin N) : K :=
  let temp := best (E.idx j) + f * (a (E.idx j) - b (E.idx j))
  if E.apot then (if temp > E.hi j then E.hi j else if temp < E.lo j then E.lo j else temp) else temp

/-- The loop 382-428: `n` turns left, `k` the loop variable. -/
def Env.cross [NeZero N] (E : Env K σ d N) (best a b cur : Fin d → K) (f cr : K) :
    Nat → Nat → Fin N → σ → (Fin d → K) → σ × (Fin d → K)
  | 0, _, _, s, t => (s, t)
  | n + 1, k, j, s, t =>
    let r := E.draw s
    let v := if r.2 < cr ∨ k = j.val then E.mutate best a b f j else cur (E.idx j)
    Env.cross E best a b cur f cr n (k + 1) (j + 1) r.1 (Function.update t (E.idx j) v)

/-- Variables of `run_differential_evolution` within a generation; `seen` and `tried` (not in the code) list the evaluated vectors, and
those of them which are trial vectors. -/
structure St (K σ : Type*) (d : Nat) where
  rng : σ
  trial : Fin d → K
  best : Ind K d
  minCost : K
  maxCost : K
  seen : List (Fin d → K)
  tried : List (Fin d → K)

/-- 369-377: the self-adapting parameters. -/
def Env.adapt (E : Env K σ d N) (s : σ) (p : Ind K d) : σ × K × K :=
  let u := E.draw s
  let f := if u.2 < 1 / 10 then ((E.draw u.1).1, 1 / 10 + (E.draw u.1).2 * (9 / 10)) else (u.1, p.f)
  let w := E.draw f.1
  let cr := if w.2 < 1 / 10 then E.draw w.1 else (w.1, p.cr)
  (cr.1, f.2, cr.2)

/-- The trial vector for individual `i`, here `p`, 346-428. -/
def Env.mkTrial [NeZero N] (E : Env K σ d N) (pop : List (Ind K d)) (i : Nat) (p : Ind K d) (st : St K σ d) :
    σ × Ind K d :=
  let ab := E.pick st.rng i
  let j := E.pickJ ab.1
  let q := E.adapt j.1 p
  let c := E.cross st.best.x (pop.getD ab.2.1 p).x (pop.getD ab.2.2 p).x p.x q.2.1 q.2.2 N 1 j.2 q.1 st.trial
  (c.1, ⟨c.2, q.2.1, q.2.2⟩)

/-- 345-461: one individual; returns the row of the new population and its cost. -/
def Env.one [NeZero N] (E : Env K σ d N) (pop : List (Ind K d)) (i : Nat) (p : Ind K d) (c : K) (st : St K σ d) :
    (Ind K d × K) × St K σ d :=
  let t := E.mkTrial pop i p st
  let force := E.obj t.2.x
  let a := E.after t.2
  let st := { st with rng := t.1, trial := a.x, seen := t.2.x :: st.seen, tried := t.2.x :: st.tried }
  let st := if force < st.minCost then { st with best := a, minCost := force } else st
  let row := if force ≤ c then (a, force) else (p, c)
  (row, { st with maxCost := if row.2 > st.maxCost then row.2 else st.maxCost })

/-- 344-462: all individuals from `i` on. -/
def Env.sweep [NeZero N] (E : Env K σ d N) (pop : List (Ind K d)) : Nat → List (Ind K d) → List K → St K σ d →
    Rows K (Ind K d) × St K σ d
  | i, p :: ps, c :: cs, st =>
    let o := E.one pop i p c st
    let r := Env.sweep E pop (i + 1) ps cs o.2
    (⟨o.1.2 :: r.1.cost, o.1.1 :: r.1.pop⟩, r.2)
  | _, _, _, st => (⟨[], []⟩, st)

/-- State between generations. -/
structure Gen (K σ : Type*) (d : Nat) where
  rows : Rows K (Ind K d)
  st : St K σ d
  jumpSteps : Nat
  jumpRate : K
  count : Nat

/-- 341-488: one generation. -/
def Env.generation [NeZero N] (E : Env K σ d N) (g : Gen K σ d) : Gen K σ d :=
  let r := E.sweep g.rows.pop 0 g.rows.pop g.rows.cost { g.st with maxCost := 0 }
  let g := { g with rows := r.1, st := r.2, count := g.count + 1 }
  if E.apot then
    let u := E.draw g.st.rng
    let g := { g with st := { g.st with rng := u.1 } }
    if u.2 < g.jumpRate then
      let g := { g with
        rows := E.oppositeCheck false g.rows
        st := { g.st with seen := (E.opposites false g.rows.pop).map Ind.x ++ g.st.seen } }
      if g.jumpSteps + 1 > 10 then { g with jumpSteps := 0, jumpRate := g.jumpRate * (9 / 10) }
      else { g with jumpSteps := g.jumpSteps + 1 }
    else g
  else g

/-- 320-329: the best and the worst of the first population. -/
def scan : List (Ind K d) → List K → Ind K d → K → K → Ind K d × K × K
  | p :: ps, c :: cs, best, lo, hi =>
    scan ps cs (if c < lo then p else best) (if c < lo then c else lo) (if c > hi then c else hi)
  | _, _, best, lo, hi => (best, lo, hi)

/-- 297-333: the state before the first generation. `best` and the end of `trial` are zeroed by `Malloc`; `min_cost` is
`10e10`. -/
def Env.start (E : Env K σ d N) (rng : σ) (xi : Fin d → K) : Gen K σ d :=
  let p := E.initPop xi rng
  let b := scan p.2.1.pop p.2.1.cost ⟨fun _ => 0, 0, 0⟩ (10 * 10 ^ 10) 0
  ⟨p.2.1, ⟨p.1, xi, b.1, b.2.1, b.2.2, p.2.2, []⟩, 0, 6 / 10, 0⟩

/-- The loop 340-504. `none`: not finished after `fuel` generations; the code sets no limit. -/
def Env.loop [NeZero N] (E : Env K σ d N) : Nat → Gen K σ d → Option (Gen K σ d)
  | 0, _ => none
  | fuel + 1, g =>
    if g.st.maxCost - g.st.minCost ≥ E.thr ∧ g.st.minCost ≥ E.thr then
      let g := E.generation g
      if E.flag g.count then some g else Env.loop E fuel g
    else some g

/-- `run_differential_evolution`, 278-510: the new parameters and, if the algorithm is used at all, the last state. -/
def Env.run [NeZero N] (E : Env K σ d N) (fuel : Nat) (rng : σ) (xi : Fin d → K) : Option ((Fin d → K) × Option (Gen K σ d)) :=
  if E.thr = 0 then some (xi, none)
  else (E.loop fuel (E.start rng xi)).map fun g => (g.st.best.x, some g)

end Verif.DiffEvo
