/-
Specification for pair columns: the unordered pairs of `n` atom types in the order in which a
potential file lists them.
-/
namespace Verif.Spec

/-- `(0,0), (0,1), …, (0,n-1), (1,1), …, (n-1,n-1)`. -/
def filePairs (n : Nat) : List (Nat × Nat) :=
  (List.range n).flatMap fun i => (List.range' i (n - i)).map fun j => (i, j)

end Verif.Spec
