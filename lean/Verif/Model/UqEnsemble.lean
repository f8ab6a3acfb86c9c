/-
`ensemble_generation`, `src/uq.c` 73-265: repeated Hessians (94-108), eigenvalues (124-162, `calc_h0_eigenvectors` 786-826, `calc_svd`
834-890), and the walk with its files (185-261).

Simplifications: those of `Verif.Model.Uq` and `Verif.Model.UqBracket`; the LAPACK routines `dsyevx` and `dgesvd` are arbitrary functions
of the matrix, which they overwrite; decimals of the files are not modelled, a potential file is the table at the time of writing.
-/
import Verif.Model.UqBracket

namespace Verif.UqEnsemble

variable {K : Type*} [Field K] [LinearOrder K] {S : Type*}

/-- Reasons to stop. -/
inductive Stop
  /-- in `hess_bracketing` -/
  | bracket (s : UqBracket.Stop)
  /-- division by zero in `calc_hessian` -/
  | zero
  /-- "Too many recalculations of the hessian", 99-102 -/
  | hessians
  /-- "Illegal argument supplied to eigenvalue decomposition function.", 820 -/
  | argument
  /-- `error` of `calc_svd`, 886, or of 153-156 -/
  | svd
  /-- the name of a potential file does not fit into `char file[255]`, 240-241 -/
  | name
  /-- not finished within the given number of turns -/
  | running
  deriving DecidableEq, Repr

/-! ### The Hessian -/

/-- The relative step of parameter `i`, 534-570. -/
def pertStep (obj : (Nat → K) → K) (idx : Nat → Nat) (x : Nat → K) (aim user : K) (fuel : Nat) (f : Nat → K) (i : Nat) :
    Except Stop (Nat → K) :=
  match UqBracket.pertOf (UqBracket.costOf obj idx x i) aim user fuel with
  | .ok p => .ok (Uq.put f i p)
  | .error e => .error (.bracket e)

/-- The relative steps of all parameters, 534-570. -/
def perts (obj : (Nat → K) → K) (n : Nat) (idx : Nat → Nat) (x : Nat → K) (aim user : K) (fuel : Nat) : Except Stop (Nat → K) :=
  (List.range n).foldlM (pertStep obj idx x aim user fuel) (fun _ => 0)

/-- `calc_hessian`, 505-778, with the search for the steps. -/
def hessianOnce (obj : (Nat → K) → K) (n : Nat) (idx : Nat → Nat) (temp user large : K) (fuel : Nat) (x : Nat → K) (h : Nat → Nat → K)
    (cost : K) : Except Stop (Uq.Result K) :=
  match perts obj n idx x (UqBracket.costAim cost temp n) user fuel with
  | .error e => .error e
  | .ok p => match Uq.calcHessian obj n idx p large x h cost with
    | .error _ => .error .zero
    | .ok r => .ok r

/-- 94-108: at most ten calls (`left` is the number of calls still allowed). -/
def hessLoop (obj : (Nat → K) → K) (n : Nat) (idx : Nat → Nat) (temp user large : K) (fuel : Nat) :
    Nat → (Nat → K) → (Nat → Nat → K) → K → Except Stop (Uq.Result K)
  | 0, _, _, _ => .error .hessians
  | left + 1, x, h, cost =>
    match hessianOnce obj n idx temp user large fuel x h cost with
    | .error e => .error e
    | .ok r => if r.again then hessLoop obj n idx temp user large fuel left r.x r.h r.cost else .ok r

/-! ### Eigenvalues -/

/-- What `dsyevx` and `dgesvd` return: `info`, number of eigenvalues (`dsyevx`), values, vectors and the matrix afterwards. -/
structure Answer (K : Type*) where
  info : Int
  m : Nat
  w : Nat → K
  v : Nat → Nat → K
  a : Nat → Nat → K

/-- The library. -/
structure Lapack (K : Type*) where
  syevx : (Nat → Nat → K) → Answer K
  gesvd : (Nat → Nat → K) → Answer K

/-- Variables of the loop: `m`, `count`, the matrix, values and vectors. -/
structure EigSt (K : Type*) where
  m : Int
  count : Nat
  a : Nat → Nat → K
  w : Nat → K
  v : Nat → Nat → K

/-- `calc_h0_eigenvectors`, 786-826: all eigenvalues are asked for, so the range is not used. -/
def eigenvectors (L : Lapack K) (n : Nat) (s : EigSt K) : Except Stop (EigSt K) :=
  let r := L.syevx s.a
  if r.info = 0 then .ok ⟨r.m, s.count, r.a, r.w, r.v⟩
  else if r.info > 0 then .ok ⟨(n : Int) - r.m, s.count, r.a, r.w, r.v⟩
  else .error .argument

/-- `calc_svd`, 834-890. -/
def svd (L : Lapack K) (n : Nat) (s : EigSt K) : Except Stop (EigSt K) :=
  let r := L.gesvd s.a
  if r.info = 0 then .ok ⟨n, s.count, r.a, r.w, r.v⟩ else .error .svd

/-- 137-161: body of the loop. -/
def eigTurn (L : Lapack K) (n : Nat) (useSvd : Bool) (s : EigSt K) : Except Stop (EigSt K) :=
  if useSvd then svd L n s
  else match eigenvectors L n s with
    | .error e => .error e
    | .ok s =>
      if s.count > 10 then
        match svd L n s with
        | .error e => .error e
        | .ok s => if s.m ≠ n then .error .svd else .ok { s with count := s.count + 1 }
      else .ok { s with count := s.count + 1 }

/-- 136-162: the loop. -/
def eigLoop (L : Lapack K) (n : Nat) (useSvd : Bool) : Nat → EigSt K → Except Stop (EigSt K)
  | 0, s => if s.m < n then .error .running else .ok s
  | fuel + 1, s =>
    if s.m < n then
      match eigTurn L n useSvd s with
      | .error e => .error e
      | .ok s => eigLoop L n useSvd fuel s
    else .ok s

/-- 124-162 for the Hessian `h`; `w0`, `v0` are the arrays before. -/
def eigen (L : Lapack K) (n : Nat) (useSvd : Bool) (fuel : Nat) (h : Nat → Nat → K) (w0 : Nat → K) (v0 : Nat → Nat → K) :
    Except Stop (EigSt K) := eigLoop L n useSvd fuel ⟨0, 0, h, w0, v0⟩

/-! ### Walk and files -/

/-- A line of the ensemble file: number, table, cost, weight, attempts and acceptance. -/
structure Row (K : Type*) where
  id : Nat
  table : Nat → K
  cost : K
  weight : Nat
  attempts : Nat
  prob : K

/-- Number of decimals of a number, `%d`. -/
def numLen (k : Nat) : Nat := if h : k < 10 then 1 else numLen (k / 10) + 1
decreasing_by omega

/-- Does `<prefix>.ensemble_pot_<k>` with the terminating zero fit into 255 characters?  240-241 -/
def fitsName (prefixLen k : Nat) : Bool := prefixLen + 14 + numLen k + 1 ≤ 255

/-- Is the potential of move `k` written?  243-258 -/
def writes (cost0 : K) (every k : Nat) (cost : K) : Bool := decide (cost < cost0) || (decide (every ≠ 0) && decide (k % every = 0))

/-- The loop 206-259: `left` more moves after `i`, `attempts` so far, `weight` of the last move.  Lines and potential files. -/
def rows (e : Uq.Env K S) (every prefixLen fuel : Nat) :
    Nat → Nat → Nat → Nat → Uq.Walk K S → Except Stop (List (Row K) × List (Nat × (Nat → K)))
  | 0, i, attempts, weight, s =>
    .ok ([⟨i, s.x, s.cost, weight, attempts + weight, ((i : K) + 1) / ((attempts + weight : Nat) : K)⟩], [])
  | left + 1, i, attempts, _, s =>
    match Uq.sample e fuel s with
    | none => .error .running
    | some (k, s') =>
      if fitsName prefixLen (i + 1) then
        match rows e every prefixLen fuel left (i + 1) (attempts + k) k s' with
        | .error x => .error x
        | .ok (ls, fs) =>
          .ok (⟨i, s.x, s.cost, k, attempts + k, ((i : K) + 1) / ((attempts + k : Nat) : K)⟩ :: ls,
            if writes e.cost0 every (i + 1) s'.cost then (i + 1, s'.x) :: fs else fs)
      else .error .name

/-- 185-261: `moves` is `acc_moves`. -/
def walk (e : Uq.Env K S) (every prefixLen fuel moves : Nat) (s : Uq.Walk K S) :
    Except Stop (List (Row K) × List (Nat × (Nat → K))) := rows e every prefixLen fuel moves 0 0 1 s

end Verif.UqEnsemble
