import Mathlib.Analysis.Calculus.Deriv.Polynomial
import Mathlib.Topology.Algebra.Polynomial

namespace Verif.Splines

open Polynomial Set Filter Topology

/-- Polynomial pieces that match in value and slope at the knots form a differentiable function. -/
theorem glue_hasDerivAt (x : ℕ → ℝ) (n : ℕ) (P : ℕ → ℝ[X]) (F : ℝ → ℝ)
    (hx : ∀ k, k + 1 < n → x k < x (k + 1))
    (hval : ∀ k, k + 2 < n → (P k).eval (x (k + 1)) = (P (k + 1)).eval (x (k + 1)))
    (hder : ∀ k, k + 2 < n →
      (derivative (P k)).eval (x (k + 1)) = (derivative (P (k + 1))).eval (x (k + 1)))
    (hF : ∀ k, k + 1 < n → ∀ r, x k ≤ r → r < x (k + 1) → F r = (P k).eval r)
    (k : ℕ) (hk : k + 1 < n) (r : ℝ) (h1 : x k ≤ r) (h2 : r < x (k + 1)) (h0 : x 0 < r) :
    HasDerivAt F ((derivative (P k)).eval r) r := by
  rcases h1.lt_or_eq with hlt | heq
  · have hev : F =ᶠ[𝓝 r] fun t => (P k).eval t := by
      filter_upwards [Ioo_mem_nhds hlt h2] with t ht
      exact hF k hk t ht.1.le ht.2
    exact ((P k).hasDerivAt r).congr_of_eventuallyEq hev
  · cases k with
    | zero => rw [heq] at h0; exact absurd h0 (lt_irrefl _)
    | succ j =>
      subst heq
      have hj := hx j (by omega)
      have hl : HasDerivWithinAt F ((derivative (P (j + 1))).eval (x (j + 1))) (Iic (x (j + 1)))
          (x (j + 1)) := by
        rw [← hder j (by omega)]
        refine ((P j).hasDerivAt (x (j + 1))).hasDerivWithinAt.congr_of_eventuallyEq ?_ ?_
        · have hm : Ioi (x j) ∈ 𝓝[≤] (x (j + 1)) := mem_nhdsWithin_of_mem_nhds (Ioi_mem_nhds hj)
          filter_upwards [hm, self_mem_nhdsWithin] with t ht1 ht2
          rcases (show t ≤ x (j + 1) from ht2).lt_or_eq with h | h
          · exact hF j (by omega) t (le_of_lt ht1) h
          · rw [h, hF (j + 1) hk _ le_rfl h2, hval j (by omega)]
        · rw [hF (j + 1) hk _ le_rfl h2, hval j (by omega)]
      have hr : HasDerivWithinAt F ((derivative (P (j + 1))).eval (x (j + 1))) (Ici (x (j + 1)))
          (x (j + 1)) := by
        refine ((P (j + 1)).hasDerivAt (x (j + 1))).hasDerivWithinAt.congr_of_eventuallyEq ?_ ?_
        · have hm : Iio (x (j + 1 + 1)) ∈ 𝓝[≥] (x (j + 1)) :=
            mem_nhdsWithin_of_mem_nhds (Iio_mem_nhds h2)
          filter_upwards [hm, self_mem_nhdsWithin] with t ht1 ht2
          exact hF (j + 1) hk t ht2 ht1
        · exact hF (j + 1) hk _ le_rfl h2
      have := hl.union hr
      rwa [Iic_union_Ici, hasDerivWithinAt_univ] at this

/-- Polynomial pieces that match in value at the knots form a continuous function. -/
theorem glue_continuousAt (x : ℕ → ℝ) (n : ℕ) (P : ℕ → ℝ[X]) (F : ℝ → ℝ)
    (hx : ∀ k, k + 1 < n → x k < x (k + 1))
    (hval : ∀ k, k + 2 < n → (P k).eval (x (k + 1)) = (P (k + 1)).eval (x (k + 1)))
    (hF : ∀ k, k + 1 < n → ∀ r, x k ≤ r → r < x (k + 1) → F r = (P k).eval r)
    (k : ℕ) (hk : k + 1 < n) (r : ℝ) (h1 : x k ≤ r) (h2 : r < x (k + 1)) (h0 : x 0 < r) :
    ContinuousAt F r := by
  rcases h1.lt_or_eq with hlt | heq
  · have hev : F =ᶠ[𝓝 r] fun t => (P k).eval t := by
      filter_upwards [Ioo_mem_nhds hlt h2] with t ht
      exact hF k hk t ht.1.le ht.2
    exact ((P k).continuousAt).congr hev.symm
  · cases k with
    | zero => rw [heq] at h0; exact absurd h0 (lt_irrefl _)
    | succ j =>
      subst heq
      have hj := hx j (by omega)
      rw [continuousAt_iff_continuous_left_right]
      constructor
      · refine ((P j).continuous.continuousWithinAt).congr_of_eventuallyEq ?_ ?_
        · have hm : Ioi (x j) ∈ 𝓝[≤] (x (j + 1)) := mem_nhdsWithin_of_mem_nhds (Ioi_mem_nhds hj)
          filter_upwards [hm, self_mem_nhdsWithin] with t ht1 ht2
          rcases (show t ≤ x (j + 1) from ht2).lt_or_eq with h | h
          · exact hF j (by omega) t (le_of_lt ht1) h
          · rw [h, hF (j + 1) hk _ le_rfl h2, hval j (by omega)]
        · rw [hF (j + 1) hk _ le_rfl h2, hval j (by omega)]
      · refine ((P (j + 1)).continuous.continuousWithinAt).congr_of_eventuallyEq ?_ ?_
        · have hm : Iio (x (j + 1 + 1)) ∈ 𝓝[≥] (x (j + 1)) :=
            mem_nhdsWithin_of_mem_nhds (Iio_mem_nhds h2)
          filter_upwards [hm, self_mem_nhdsWithin] with t ht1 ht2
          exact hF (j + 1) hk t ht2 ht1
        · exact hF (j + 1) hk _ le_rfl h2

end Verif.Splines
