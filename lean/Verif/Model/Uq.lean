/-
Uncertainty quantification, `src/uq.c`: Hessian of the objective by finite differences (`calc_hessian` 505-778) and Monte-Carlo moves
(`generate_mc_sample` 898-935, `mc_moves` 943-1037).
The table is a function `Nat → K`, `idx` maps the numbers of the free parameters (below `n`, `g_pot.opt_pot.idxlen`) to places in the
table, the objective `calc_forces` is any function of the table. Simplifications: exact arithmetic; output to the screen and to files is
left out; the relative steps `pert` are any values, whether given by the user or found by `hess_bracketing`.
-/
import Verif.Model.Basic
import Mathlib.Algebra.Order.Field.Basic

namespace Verif.Uq

variable {K : Type*} [Field K] [LinearOrder K]

/-- `table[p] += v` -/
def add (x : Nat → K) (p : Nat) (v : K) : Nat → K := fun q => if q = p then x q + v else x q

/-- `table[p] = v` -/
def put (x : Nat → K) (p : Nat) (v : K) : Nat → K := fun q => if q = p then v else x q

/-- `single_param_pert_cost`, `src/uq.c` 483-497: returns the cost and the table afterwards. -/
def singlePertCost (obj : (Nat → K) → K) (idx : Nat → Nat) (x : Nat → K) (pert : K) (i : Nat) : K × (Nat → K) :=
  let old := x (idx i)
  let x1 := put x (idx i) (old * (1 + pert))
  (obj x1, put x1 (idx i) old)

/-- `param_perturb_dist[j]`, `src/uq.c` 573-580. -/
def dist (idx : Nat → Nat) (x : Nat → K) (pert : Nat → K) (j : Nat) : K :=
  if x (idx j) = 0 then pert j else pert j * x (idx j)

/-- What the loops change: the table, the Hessian, and the best point met (`new_cost_param_values`). -/
structure State (K : Type*) where
  x : Nat → K
  h : Nat → Nat → K
  best : Nat → K
  bestCost : K

/-- A lower cost is recorded, `src/uq.c` 595-602, 607-614, 669-676, 683-690. -/
def note (idx : Nat → Nat) (cost : K) (c : K) (s : State K) : State K :=
  if c < cost ∧ c < s.bestCost then { s with best := fun j => s.x (idx j), bestCost := c } else s

/-- `hessian[i][j] = v` -/
def setH (h : Nat → Nat → K) (i j : Nat) (v : K) : Nat → Nat → K := fun a b => if a = i ∧ b = j then v else h a b

/-- Diagonal entry, `src/uq.c` 588-629. -/
def diag (obj : (Nat → K) → K) (idx : Nat → Nat) (cost : K) (d : Nat → K) (s : State K) (i : Nat) : Except Fault (State K) := do
  let s := { s with x := add s.x (idx i) (d i) }
  let plus := obj s.x
  let s := note idx cost plus s
  let s := { s with x := add s.x (idx i) (-(2 * d i)) }
  let minus := obj s.x
  let s := note idx cost minus s
  let s := { s with x := add s.x (idx i) (d i) }
  let v ← cdiv (plus - 2 * cost + minus) (d i * d i)
  pure { s with h := setH s.h i i v }

/-- Pair of parameters, `src/uq.c` 655-712. -/
def offDiag (obj : (Nat → K) → K) (idx : Nat → Nat) (cost : K) (d : Nat → K) (s : State K) (p : Nat × Nat) :
    Except Fault (State K) := do
  let i := p.1
  let j := p.2
  let s := { s with x := add (add s.x (idx i) (d i)) (idx j) (d j) }
  let plus2 := obj s.x
  let s := { s with x := add s.x (idx j) (-(2 * d j)) }
  let pm := obj s.x
  let s := note idx cost pm s
  let s := { s with x := add (add s.x (idx i) (-(2 * d i))) (idx j) (2 * d j) }
  let mp := obj s.x
  let s := note idx cost mp s
  let s := { s with x := add s.x (idx j) (-(2 * d j)) }
  let minus2 := obj s.x
  let s := { s with x := add (add s.x (idx i) (d i)) (idx j) (d j) }
  let v ← cdiv (plus2 + minus2 - pm - mp) (4 * d i * d j)
  pure { s with h := setH (setH s.h i j v) j i v }

/-- Pairs in the order of the loops, `src/uq.c` 653-654. -/
def pairs (n : Nat) : List (Nat × Nat) := (List.range n).flatMap fun i => (List.range' (i + 1) (n - (i + 1))).map fun j => (i, j)

/-- Result of `calc_hessian`: return value, table, Hessian and `*cost`. -/
structure Result (K : Type*) where
  again : Bool
  x : Nat → K
  h : Nat → Nat → K
  cost : K

/-- `calc_hessian`, `src/uq.c` 505-778; `h0` is the content of the matrix before, `large` is `VERY_LARGE`. -/
def calcHessian (obj : (Nat → K) → K) (n : Nat) (idx : Nat → Nat) (pert : Nat → K) (large : K) (x : Nat → K) (h0 : Nat → Nat → K)
    (cost : K) : Except Fault (Result K) := do
  let d := dist idx x pert
  let s ← (List.range n).foldlM (diag obj idx cost d) ⟨x, h0, fun _ => 0, large⟩
  let s ← (pairs n).foldlM (offDiag obj idx cost d) s
  if s.bestCost ≠ large then
    pure ⟨true, (List.range n).foldl (fun y j => put y (idx j) (s.best j)) s.x, s.h, s.bestCost⟩
  else pure ⟨false, s.x, s.h, cost⟩

/-! ### Monte-Carlo moves -/

/-- What a move depends on: the objective, the library functions `exp` and `sqrt`, the random numbers with their hidden state `S`, and
the input parameters `acc_rescaling`, `eig_max`, `uq_temp`, `VERY_LARGE`, the matrix `v_0` and the cost of the best fit. -/
structure Env (K S : Type*) where
  obj : (Nat → K) → K
  exp : K → K
  sqrt : K → K
  normdist : S → K × S
  eqdist : S → K × S
  n : Nat
  idx : Nat → Nat
  rescaling : K
  eigMax : K
  temp : K
  large : K
  v : Nat → Nat → K
  cost0 : K

variable {S : Type*}

/-- Smallest positive eigenvalue, `src/uq.c` 964-969. -/
def minPos (n : Nat) (large : K) (w : Nat → K) : K :=
  (List.range n).foldl (fun m j => if w j > 0 ∧ w j < m then w j else m) large

/-- New value of eigenvalue `i`, `src/uq.c` 960-984 (without `MIN_STEP`). -/
def fixEig (e : Env K S) (w : Nat → K) (i : Nat) : Nat → K :=
  let w := if w i < 0 then put w i (if |w i| ≤ minPos e.n e.large w then |w i| else minPos e.n e.large w) else w
  let w := if w i < e.eigMax then put w i e.eigMax else w
  put w i |w i|

/-- Loop over the eigenvalues, `src/uq.c` 954-987: eigenvalues, `lambda` and the state of the random numbers. -/
def lambdas (e : Env K S) (w : Nat → K) (g : S) : (Nat → K) × (Nat → K) × S :=
  (List.range e.n).foldl (fun (w, lam, g) i =>
    let (r, g) := e.normdist g
    let w := fixEig e w i
    (w, put lam i (1 / e.sqrt (w i) * (e.sqrt e.rescaling * r)), g)) (w, fun _ => 0, g)

/-- The proposed parameters, `src/uq.c` 991-999. -/
def propose (e : Env K S) (lam : Nat → K) (x : Nat → K) : Nat → K :=
  (List.range e.n).foldl (fun x i => add x (e.idx i) ((List.range e.n).foldl (fun s j => s + e.v j i * lam j) 0)) x

/-- State between moves: table, eigenvalues, cost and random numbers. -/
structure Walk (K S : Type*) where
  x : Nat → K
  w : Nat → K
  cost : K
  g : S

/-- `mc_moves`, `src/uq.c` 943-1037. -/
def mcMoves (e : Env K S) (s : Walk K S) : Bool × Walk K S :=
  let (w, lam, g) := lambdas e s.w s.g
  let x := propose e lam s.x
  let after := e.obj x
  let diff := after - s.cost
  if diff < 0 then (true, ⟨x, w, after, g⟩)
  else
    let (u, g) := e.eqdist g
    if u ≤ e.exp (-((e.n : K) * diff) / (2 * e.cost0 * e.temp)) then (true, ⟨x, w, after, g⟩)
    else (false, ⟨x, w, s.cost, g⟩)

/-- Parameters are set back, `src/uq.c` 923-925. -/
def restore (e : Env K S) (old : Nat → K) (x : Nat → K) : Nat → K :=
  (List.range e.n).foldl (fun x i => put x (e.idx i) (old i)) x

/-- The loop of `generate_mc_sample`, `src/uq.c` 919-930; `none`: no move is accepted within `fuel` trials. Returns the number of trials
(`weight`). -/
def trials (e : Env K S) (old : Nat → K) : Nat → Nat → Walk K S → Option (Nat × Walk K S)
  | 0, _, _ => none
  | fuel + 1, count, s =>
    match mcMoves e { s with x := restore e old s.x } with
    | (true, s) => some (count + 1, s)
    | (false, s) => trials e old fuel (count + 1) s

/-- `generate_mc_sample`, `src/uq.c` 898-935. -/
def sample (e : Env K S) (fuel : Nat) (s : Walk K S) : Option (Nat × Walk K S) := trials e (fun i => s.x (e.idx i)) fuel 0 s

/-- One line of the ensemble file: parameters, cost and weight. -/
structure Line (K : Type*) where
  params : List K
  cost : K
  weight : Nat

/-- The part of `ensemble_generation` which walks, `src/uq.c` 191-241, for `m` moves. The parameters and cost of a line are
written when the point is reached, its weight when it is left (233); the last line gets the last weight again (207-218). -/
def ensemble (e : Env K S) (fuel : Nat) : Nat → Nat → Walk K S → Option (List (Line K) × Walk K S)
  | 0, last, s => some ([⟨(List.range e.n).map fun i => s.x (e.idx i), s.cost, last⟩], s)
  | m + 1, _, s =>
    match sample e fuel s with
    | none => none
    | some (k, s') =>
      match ensemble e fuel m k s' with
      | none => none
      | some (ls, s'') => some (⟨(List.range e.n).map fun i => s.x (e.idx i), s.cost, k⟩ :: ls, s'')

end Verif.Uq
