/-
Specification: consecutive blocks.  Rank `r` owns `len r` items beginning with `start r`.
-/
namespace Verif.Spec

/-- The items owned by ranks `0, …, P-1`, listed rank after rank. -/
def owned (start len : Nat → Int) (P : Nat) : List Nat :=
  (List.range P).flatMap fun r => List.range' (start r).toNat (len r).toNat

/-- The blocks are given by non-negative numbers and together are exactly `0, …, N-1`, in order. -/
def IsPartition (start len : Nat → Int) (P N : Nat) : Prop :=
  (∀ r, r < P → 0 ≤ start r ∧ 0 ≤ len r) ∧ owned start len P = List.range N

end Verif.Spec
