import Verif.Model.StiwebFunctions
import Verif.Spec.Motion
import Verif.Lemmas.Gradient
import Mathlib.Analysis.SpecialFunctions.SmoothTransition
import Mathlib.Analysis.SpecialFunctions.Pow.Deriv
import Mathlib.Analysis.SpecialFunctions.ExpDeriv
import Mathlib.Analysis.Calculus.LocalExtr.Basic

namespace Verif.Spec

open Verif.Force

/-- `exp(-1/x)` has slope zero where it vanishes. -/
theorem hasDerivAt_glue {x : ℝ} (hx : x ≤ 0) : HasDerivAt expNegInvGlue 0 x := by
  have hd : DifferentiableAt ℝ expNegInvGlue x :=
    (expNegInvGlue.contDiff (n := 1)).differentiable (by norm_num) x
  have hmin : IsLocalMin expNegInvGlue x := by
    refine Filter.Eventually.of_forall fun y => ?_
    rw [expNegInvGlue.zero_of_nonpos hx]
    exact expNegInvGlue.nonneg y
  have := hmin.hasDerivAt_eq_zero hd.hasDerivAt
  rw [← this]
  exact hd.hasDerivAt

theorem cutSlope_inside {fin : ℝ} {val : ℝ → ℝ} {g r : ℝ} (h : HasDerivAt val g r) (hr : r < fin) :
    CutSlope fin val g r := by
  unfold CutSlope
  rw [if_pos hr]
  refine h.congr_of_eventuallyEq ?_
  filter_upwards [Iio_mem_nhds hr] with y hy
  rw [if_pos (Set.mem_Iio.1 hy)]

theorem cutSlope_outside {fin : ℝ} {val : ℝ → ℝ} {g r : ℝ} (hr : fin < r) : CutSlope fin val g r := by
  unfold CutSlope
  rw [if_neg (not_lt.2 hr.le)]
  refine (hasDerivAt_const r (0 : ℝ)).congr_of_eventuallyEq ?_
  filter_upwards [Ioi_mem_nhds hr] with y hy
  rw [if_neg (not_lt.2 (le_of_lt hy))]

/-- The pair function is differentiable everywhere, including the end of its range, if `delta` is positive. -/
theorem sw_pair_slope (s : SwPars) (col : Nat) (hd : 0 < s.delta col) (r : ℝ) (hr : 0 < r) :
    CutSlope (s.a1 col) (swV2 s col) (swV2Grad s col r) r := by
  rcases lt_trichotomy r (s.a1 col) with h | h | h
  · apply cutSlope_inside _ h
    have hne : r - s.a1 col ≠ 0 := by linarith
    have h1 : HasDerivAt (fun r : ℝ => r ^ (-s.p col)) (-s.p col * r ^ (-s.p col - 1)) r :=
      Real.hasDerivAt_rpow_const (Or.inl hr.ne')
    have h2 : HasDerivAt (fun r : ℝ => r ^ (-s.q col)) (-s.q col * r ^ (-s.q col - 1)) r :=
      Real.hasDerivAt_rpow_const (Or.inl hr.ne')
    have h3 : HasDerivAt (fun r : ℝ => Real.exp (s.delta col * (1 / (r - s.a1 col))))
        (Real.exp (s.delta col * (1 / (r - s.a1 col))) * (s.delta col * ((0 * (r - s.a1 col) - 1 * 1) / (r - s.a1 col) ^ 2))) r :=
      (((hasDerivAt_const r (1 : ℝ)).div ((hasDerivAt_id r).sub_const (s.a1 col)) hne).const_mul (s.delta col)).exp
    have h4 := ((h1.const_mul (s.A col)).add (h2.const_mul (-s.B col))).mul h3
    refine h4.congr_deriv ?_
    unfold swV2Grad swV2
    have e1 : r ^ (-s.p col - 1) = r ^ (-s.p col) / r := Real.rpow_sub_one hr.ne' _
    have e2 : r ^ (-s.q col - 1) = r ^ (-s.q col) / r := Real.rpow_sub_one hr.ne' _
    rw [e1, e2]
    simp only [Pi.add_apply]
    field_simp
    ring
  · unfold CutSlope
    rw [if_neg (not_lt.2 h.ge)]
    have hg : HasDerivAt (fun y : ℝ => expNegInvGlue ((s.a1 col - y) / s.delta col)) (0 * (-1 / s.delta col)) r := by
      have hin : HasDerivAt (fun y : ℝ => (s.a1 col - y) / s.delta col) (-1 / s.delta col) r :=
        ((hasDerivAt_id r).const_sub (s.a1 col)).div_const (s.delta col)
      refine HasDerivAt.comp (h₂ := expNegInvGlue) r ?_ hin
      exact hasDerivAt_glue (by rw [h]; simp)
    have h1 : HasDerivAt (fun r : ℝ => r ^ (-s.p col)) (-s.p col * r ^ (-s.p col - 1)) r :=
      Real.hasDerivAt_rpow_const (Or.inl hr.ne')
    have h2 : HasDerivAt (fun r : ℝ => r ^ (-s.q col)) (-s.q col * r ^ (-s.q col - 1)) r :=
      Real.hasDerivAt_rpow_const (Or.inl hr.ne')
    have h4 := ((h1.const_mul (s.A col)).add (h2.const_mul (-s.B col))).mul hg
    refine (h4.congr_of_eventuallyEq (Filter.Eventually.of_forall fun y => ?_)).congr_deriv ?_
    · simp only [Pi.mul_apply, Pi.add_apply]
      by_cases hy : y < s.a1 col
      · rw [if_pos hy]
        unfold swV2 expNegInvGlue
        have hpos : ¬ (s.a1 col - y) / s.delta col ≤ 0 := by
          rw [not_le]; exact div_pos (by linarith) hd
        rw [if_neg hpos]
        congr 2
        have : y - s.a1 col ≠ 0 := by linarith
        have : s.a1 col - y ≠ 0 := by linarith
        rw [inv_div, ← neg_div_neg_eq, neg_sub]
        ring
      · rw [if_neg hy, expNegInvGlue.zero_of_nonpos (div_nonpos_of_nonpos_of_nonneg (by linarith) hd.le), mul_zero]
    · rw [h, sub_self, zero_div, expNegInvGlue.zero_of_nonpos le_rfl]
      ring
  · exact cutSlope_outside h

/-- The three-body function has a jump at distance `a2 - gamma / 100` only. -/
theorem sw_angle_slope (s : SwPars) (col : Nat) (hg : 0 < s.gamma col) (r : ℝ) (hr : 0 < r)
    (hrim : r ≠ s.a2 col - s.gamma col / 100) :
    CutSlope (s.a2 col) (swF3 s col) (swDf3 s col r * r) r := by
  rcases lt_or_gt_of_ne hrim with h | h
  · have hlt : r < s.a2 col := by linarith
    apply cutSlope_inside _ hlt
    have hne : r - s.a2 col ≠ 0 := by linarith
    have hc : r - s.a2 col < -(1 / 100) * s.gamma col := by linarith
    have h3 : HasDerivAt (fun r : ℝ => Real.exp (s.gamma col * (1 / (r - s.a2 col))))
        (Real.exp (s.gamma col * (1 / (r - s.a2 col))) * (s.gamma col * ((0 * (r - s.a2 col) - 1 * 1) / (r - s.a2 col) ^ 2))) r :=
      (((hasDerivAt_const r (1 : ℝ)).div ((hasDerivAt_id r).sub_const (s.a2 col)) hne).const_mul (s.gamma col)).exp
    refine (h3.congr_of_eventuallyEq ?_).congr_deriv ?_
    · filter_upwards [Iio_mem_nhds h] with y hy
      unfold swF3
      rw [if_pos (by have := Set.mem_Iio.1 hy; linarith)]
    · unfold swDf3
      rw [if_pos hc]
      field_simp
      ring
  · unfold CutSlope
    have hc : ¬ r - s.a2 col < -(1 / 100) * s.gamma col := by linarith
    have e0 : (if r < s.a2 col then swDf3 s col r * r else 0) = 0 := by
      unfold swDf3
      rw [if_neg hc]
      simp
    rw [e0]
    refine (hasDerivAt_const r (0 : ℝ)).congr_of_eventuallyEq ?_
    filter_upwards [Ioi_mem_nhds h] with y hy
    have hy' : ¬ y - s.a2 col < -(1 / 100) * s.gamma col := by have := Set.mem_Ioi.1 hy; linarith
    unfold swF3
    rw [if_neg hy', ite_self]

end Verif.Spec
