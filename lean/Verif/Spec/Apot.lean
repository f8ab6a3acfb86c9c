/-
Specification of the sampled table of an analytic potential, independent of the change cache and of
the pointer walk of `update_calc_table`.
-/
import Verif.Model.Apot

namespace Verif.Spec

open Verif.Apot

variable {K : Type*} [Field K] [LinearOrder K]

/-- The value parameter `n` of potential `m` is meant to have for the parameter vector `xi`: the
value of the global parameter it refers to, if it refers to one, otherwise its own entry. -/
def IsEffective (pots : List (Pot K)) (gidx : Nat) (globals : List (List (Nat × Nat))) (xi : Nat → K)
    (m n : Nat) (v : K) : Prop :=
  (∃ g l, globals[g]? = some l ∧ (m, n) ∈ l ∧ v = xi (gidx + g)) ∨
  ((∀ l ∈ globals, (m, n) ∉ l) ∧ v = xi (optFirst pots m + n))

/-- `y` is the value of potential `p` with parameters `val` at `x`, multiplied by the smooth cutoff
function whose width is the last parameter, if the potential has one. -/
def IsSample (p : Pot K) (x : K) (val : List K) (y : K) : Prop :=
  ∃ f, p.fvalue x val = .ok f ∧
    if p.smooth = true then
      ∃ h, val.getLast? = some h ∧ h ≠ 0 ∧
        y = if p.endR ≤ x then 0
            else f * (((x - p.endR) / h) ^ 4 / (1 + ((x - p.endR) / h) ^ 4))
    else y = f

/-- Global references are sound: they name existing parameters, a parameter refers to one global
only, and the global parameters are stored behind all potentials. -/
structure GoodGlobals (pots : List (Pot K)) (gidx : Nat) (globals : List (List (Nat × Nat))) : Prop where
  inRange : ∀ l ∈ globals, ∀ mn ∈ l, ∃ p, pots[mn.1]? = some p ∧ mn.2 < p.nPar
  disjoint : globals.Pairwise fun a b => ∀ mn ∈ a, mn ∉ b
  behind : (pots.map fun p => p.nPar + 2).sum ≤ gidx

end Verif.Spec
