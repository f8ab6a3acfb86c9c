/-
Which analytic potentials are punished, and from which entries of the parameter vector: `apot_assign_punish_functions`
(`src/functions.c` 145-161, called for every potential by `apot_assign_functions`, 120-137) and the arguments of the three loops of
`apot_punish` (`src/functions.c` 356-405, the loops themselves: `Model/Objective.lean`).

Doubles are elements of an ordered field `K`.
-/
import Verif.Model.Objective
import Mathlib.Algebra.Order.Group.Unbundled.Abs

namespace Verif.Force

/-- `strncmp(name, s, strlen(s)) == 0`. -/
def startsAs (s name : List Char) : Bool := name.take s.length == s

/-- `function_table.punish_index[0]` and `[1]` without their counters; the counters are zero at the start (`Malloc` clears, 65-68). -/
structure PunishIndex where
  eopp : List Nat
  univ : List Nat
  deriving DecidableEq

/-- `apot_assign_punish_functions`, 145-161. -/
def assignPunish (t : PunishIndex) (ni : List Char × Nat) : PunishIndex :=
  if startsAs ['e', 'o', 'p', 'p'] ni.1 then { t with eopp := t.eopp ++ [ni.2] }
  else if startsAs ['u', 'n', 'i', 'v', 'e', 'r', 's', 'a', 'l'] ni.1 then { t with univ := t.univ ++ [ni.2] }
  else t

/-- All calls from the loop over the potentials, 122-135. -/
def punishIndex (names : List (List Char)) : PunishIndex := names.zipIdx.foldl assignPunish ⟨[], []⟩

section

variable {K : Type*} [Field K] [LinearOrder K]

/-- A free parameter: `opt_pot.idx[i]` and its bounds `pmin`, `pmax`, 362-367. -/
structure Free (K : Type*) where
  at_ : Nat
  lo : K
  hi : K

/-- What the first loop compares, 368-371. -/
def boundsAt (free : List (Free K)) (params : Nat → K) : List (Bound K) := free.map fun q => ⟨params q.at_, q.lo, q.hi⟩

/-- `x` of the second loop, 383-384: `first` is `opt_pot.first`. -/
def eoppAt (t : PunishIndex) (first : Nat → Nat) (params : Nat → K) : List (Nat × K) :=
  t.eopp.map fun p => (p, params (first p + 1) - params (first p + 3))

/-- `x` of the third loop, 395-396. -/
def univAt (t : PunishIndex) (first : Nat → Nat) (params : Nat → K) : List (Nat × K) :=
  t.univ.map fun p => (p, |params (first p + 2) - params (first p + 1)|)

/-- `apot_punish`, 356-405. -/
def apotPunishAll (w : K) (t : PunishIndex) (first : Nat → Nat) (free : List (Free K)) (params : Nat → K) (par pot : Nat → K) :
    Except Fault (Pun K) :=
  apotPunish w (boundsAt free params) (eoppAt t first params) (univAt t first params) par pot

end

end Verif.Force
