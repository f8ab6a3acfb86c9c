/-
C24  Reciprocal box vectors.

The dual vectors are right; the volume is the determinant with its sign, so it is negative for a left-handed
cell (and the stresses, which are divided by it, change sign).
-/
import Verif.Lemmas.Neighbors
import Mathlib.LinearAlgebra.Matrix.Determinant.Basic
import Mathlib.Data.Rat.Defs
import Mathlib.Algebra.Order.Ring.Rat

namespace Verif.Props

open Verif.Force Verif.Neighbors

variable {K : Type*} [Field K] [LinearOrder K]

/-- `make_box` fails exactly if the determinant of the cell vectors is zero; otherwise the edges are kept, the
vectors returned are dual to them and the volume is the determinant. -/
theorem C24_partial (edge : Fin 3 → V3 K) :
    (makeBox edge = .error .parallelEdges ↔ (Matrix.of edge).det = 0) ∧
    ∀ box vol, makeBox edge = .ok (box, vol) →
      box.edge = edge ∧ vol = (Matrix.of edge).det ∧
      ∀ i j, ∑ k : Fin 3, box.dual i k * edge j k = if i = j then 1 else 0 := by
  have hdet : (Matrix.of edge).det = sprod (edge 0) (vecProd (edge 1) (edge 2)) := by
    rw [Matrix.det_fin_three]
    simp only [Matrix.of_apply, sprod, vecProd, Matrix.cons_val_zero, Matrix.cons_val_one, Matrix.cons_val]
    ring
  refine ⟨?_, ?_⟩
  · rw [hdet]
    unfold makeBox
    simp only
    split
    · rename_i h; simp [← h]
    · rename_i h; simp only [reduceCtorEq, false_iff]; exact fun e => h e.symm
  · intro box vol h
    obtain ⟨h1, h2, h3⟩ := makeBox_dual h
    refine ⟨h1, ?_, ?_⟩
    · rw [hdet]
      unfold makeBox at h
      simp only at h
      split at h
      · cases h
      · simp only [Except.ok.injEq, Prod.mk.injEq] at h
        exact h.2.symm
    · intro i j
      rw [← h3 i j, Fin.sum_univ_three]
      rfl

/-- For right-handed cells the volume is the absolute value of the determinant. -/
theorem C24_right_handed_partial {K : Type*} [Field K] [LinearOrder K] [IsStrictOrderedRing K]
    (edge : Fin 3 → V3 K) (hpos : 0 < (Matrix.of edge).det) :
    ∃ box, makeBox edge = .ok (box, |(Matrix.of edge).det|) := by
  obtain ⟨h1, h2⟩ := C24_partial edge
  cases h : makeBox edge with
  | error e =>
    cases e with
    | parallelEdges => exact absurd (h1.1 h) hpos.ne'
    | _ => unfold makeBox at h; simp only at h; split at h <;> cases h
  | ok r =>
    obtain ⟨box, vol⟩ := r
    obtain ⟨-, hv, -⟩ := h2 box vol h
    exact ⟨box, by rw [abs_of_pos hpos, hv]⟩

/-- A left-handed cell: the stored volume is negative. -/
def leftHanded : Fin 3 → V3 ℚ := ![![0, 2, 0], ![2, 0, 0], ![0, 0, 2]]

theorem C24_violated : (match makeBox leftHanded with
    | .ok (_, vol) => decide (vol = -8) | .error _ => false) = true := by decide +kernel

/-- A sheared right-handed cell. -/
example : (match makeBox (![![2, 0, 0], ![1, 3, 0], ![0, 1, 4]] : Fin 3 → V3 ℚ) with
    | .ok (box, vol) => decide (vol = 24 ∧ sprod (box.dual 1) ![1, 3, 0] = 1 ∧ sprod (box.dual 1) ![0, 1, 4] = 0)
    | .error _ => false) = true := by decide +kernel

end Verif.Props
