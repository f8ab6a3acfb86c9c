/-
Lemmas about normally distributed random numbers: change of variables in the polar method.
-/
import Verif.Model.Normal
import Mathlib.Analysis.SpecialFunctions.PolarCoord
import Mathlib.MeasureTheory.Function.JacobianOneDim
import Mathlib.Probability.Distributions.Gaussian.Real
import Mathlib.MeasureTheory.Measure.Prod
import Mathlib.MeasureTheory.Measure.WithDensity

set_option linter.unusedSectionVars false

namespace Verif.Normal

open MeasureTheory Set Real
open scoped ENNReal

/-- The two numbers made of a point of the disc. -/
noncomputable def boxMuller (x : ℝ × ℝ) : ℝ × ℝ :=
  (x.1 * √(-2 * Real.log (x.1 * x.1 + x.2 * x.2) / (x.1 * x.1 + x.2 * x.2)),
    x.2 * √(-2 * Real.log (x.1 * x.1 + x.2 * x.2) / (x.1 * x.1 + x.2 * x.2)))

/-- The points which are accepted. -/
def Disc : Set (ℝ × ℝ) := {x | 0 < x.1 * x.1 + x.2 * x.2 ∧ x.1 * x.1 + x.2 * x.2 < 1}

theorem measurableSet_disc : MeasurableSet Disc := by
  have h : Measurable fun x : ℝ × ℝ => x.1 * x.1 + x.2 * x.2 := by fun_prop
  exact (measurableSet_lt measurable_const h).inter (measurableSet_lt h measurable_const)

theorem measurable_boxMuller : Measurable boxMuller := by
  unfold boxMuller
  fun_prop

theorem boxMuller_polar {r θ : ℝ} (h0 : 0 < r) :
    boxMuller (r * cos θ, r * sin θ) = (√(-4 * log r) * cos θ, √(-4 * log r) * sin θ) := by
  have hs : r * cos θ * (r * cos θ) + r * sin θ * (r * sin θ) = r ^ 2 := by
    have := sin_sq_add_cos_sq θ
    linear_combination r ^ 2 * this
  have hl : -2 * log (r ^ 2) / r ^ 2 = (-4 * log r) / r ^ 2 := by
    rw [log_pow]
    push_cast
    ring
  have hq : r * √(-2 * log (r ^ 2) / r ^ 2) = √(-4 * log r) := by
    rw [hl, sqrt_div' _ (by positivity), sqrt_sq h0.le]
    field_simp
  unfold boxMuller
  simp only [hs]
  rw [← hq]
  ext <;> simp only <;> ring

theorem inner_integral (F : ℝ → ℝ≥0∞) :
    ∫⁻ r in Ioo (0 : ℝ) 1, ENNReal.ofReal r * F (√(-4 * log r))
      = ∫⁻ ρ in Ioi (0 : ℝ), ENNReal.ofReal ρ * (ENNReal.ofReal (exp (-ρ ^ 2 / 2) / 2) * F ρ) := by
  have himg : (fun ρ : ℝ => exp (-ρ ^ 2 / 4)) '' Ioi 0 = Ioo 0 1 := by
    ext r
    constructor
    · rintro ⟨ρ, hρ, rfl⟩
      have hρ : 0 < ρ := hρ
      refine ⟨exp_pos _, ?_⟩
      rw [exp_lt_one_iff]
      have : 0 < ρ ^ 2 := by positivity
      linarith
    · rintro ⟨h0, h1⟩
      have hl : log r < 0 := log_neg h0 h1
      refine ⟨√(-4 * log r), sqrt_pos.2 (by linarith), ?_⟩
      simp only
      rw [sq_sqrt (by linarith), show -(-4 * log r) / 4 = log r by ring, exp_log h0]
  have hanti : AntitoneOn (fun ρ : ℝ => exp (-ρ ^ 2 / 4)) (Ioi 0) := by
    intro a ha b hb hab
    have ha : 0 < a := ha
    apply exp_le_exp.2
    have : a ^ 2 ≤ b ^ 2 := pow_le_pow_left₀ ha.le hab 2
    linarith
  have hder : ∀ ρ ∈ Ioi (0 : ℝ), HasDerivWithinAt (fun ρ : ℝ => exp (-ρ ^ 2 / 4)) (exp (-ρ ^ 2 / 4) * (-ρ / 2)) (Ioi 0) ρ := by
    intro ρ _
    have h1 : HasDerivAt (fun ρ : ℝ => -ρ ^ 2 / 4) (-ρ / 2) ρ :=
      (((hasDerivAt_pow 2 ρ).neg).div_const 4).congr_deriv (by simp; ring)
    exact (h1.exp).hasDerivWithinAt
  rw [← himg, lintegral_image_eq_lintegral_deriv_mul_of_antitoneOn measurableSet_Ioi hder hanti]
  refine setLIntegral_congr_fun measurableSet_Ioi (fun ρ hρ => ?_)
  have hρ : 0 < ρ := hρ
  rw [log_exp, show -4 * (-ρ ^ 2 / 4) = ρ ^ 2 by ring, sqrt_sq hρ.le, ← mul_assoc, ← mul_assoc, ← ENNReal.ofReal_mul (by
    have := exp_pos (-ρ ^ 2 / 4)
    nlinarith [mul_pos this hρ]), ← ENNReal.ofReal_mul hρ.le]
  congr 2
  have : exp (-ρ ^ 2 / 2) = exp (-ρ ^ 2 / 4) * exp (-ρ ^ 2 / 4) := by
    rw [← exp_add]
    ring_nf
  rw [this]
  ring

theorem disc_integral (f : ℝ × ℝ → ℝ≥0∞) (hf : Measurable f) :
    ∫⁻ x in Disc, f (boxMuller x) = ∫⁻ x : ℝ × ℝ, ENNReal.ofReal (exp (-(x.1 * x.1 + x.2 * x.2) / 2) / 2) * f x := by
  rw [← lintegral_indicator measurableSet_disc, ← lintegral_comp_polarCoord_symm, ← lintegral_comp_polarCoord_symm]
  have htar : polarCoord.target = Ioi (0 : ℝ) ×ˢ Ioo (-π) π := rfl
  rw [htar]
  have hsym : ∀ p : ℝ × ℝ, polarCoord.symm p = (p.1 * cos p.2, p.1 * sin p.2) := fun _ => rfl
  simp only [hsym, smul_eq_mul]
  have hnorm : ∀ r θ : ℝ, r * cos θ * (r * cos θ) + r * sin θ * (r * sin θ) = r ^ 2 := by
    intro r θ
    have := sin_sq_add_cos_sq θ
    linear_combination r ^ 2 * this
  have hm1 : Measurable fun p : ℝ × ℝ => ENNReal.ofReal p.1 * Disc.indicator (fun x => f (boxMuller x)) (p.1 * cos p.2, p.1 * sin p.2) := by
    apply Measurable.mul (by fun_prop)
    exact ((hf.comp measurable_boxMuller).indicator measurableSet_disc).comp (by fun_prop)
  have hm2 : Measurable fun p : ℝ × ℝ => ENNReal.ofReal p.1 *
      (ENNReal.ofReal (exp (-(p.1 * cos p.2 * (p.1 * cos p.2) + p.1 * sin p.2 * (p.1 * sin p.2)) / 2) / 2)
        * f (p.1 * cos p.2, p.1 * sin p.2)) := by
    apply Measurable.mul (by fun_prop)
    apply Measurable.mul (by fun_prop)
    exact hf.comp (by fun_prop)
  rw [Measure.volume_eq_prod, ← Measure.prod_restrict, lintegral_prod_symm _ hm1.aemeasurable, lintegral_prod_symm _ hm2.aemeasurable]
  refine lintegral_congr fun θ => ?_
  simp only [hnorm]
  rw [← inner_integral (fun ρ => f (ρ * cos θ, ρ * sin θ))]
  have hsub : Ioo (0 : ℝ) 1 = Ioi 0 ∩ Iio 1 := rfl
  rw [hsub, inter_comm, ← Measure.restrict_restrict measurableSet_Iio, ← lintegral_indicator measurableSet_Iio]
  refine setLIntegral_congr_fun measurableSet_Ioi (fun r hr => ?_)
  have hr : 0 < r := hr
  by_cases h1 : r < 1
  · have hd : ((r * cos θ, r * sin θ) : ℝ × ℝ) ∈ Disc := by
      refine ⟨?_, ?_⟩
      · simp only [hnorm]; positivity
      · simp only [hnorm]; nlinarith
    rw [indicator_of_mem hd, indicator_of_mem (show r ∈ Iio (1 : ℝ) from h1), boxMuller_polar hr]
  · have hd : ((r * cos θ, r * sin θ) : ℝ × ℝ) ∉ Disc := by
      intro h
      have := h.2
      simp only [hnorm] at this
      nlinarith
    rw [indicator_of_notMem hd, indicator_of_notMem (show r ∉ Iio (1 : ℝ) from h1), mul_zero]

/-- The law of two independent standard normal numbers. -/
noncomputable def normal2 : Measure (ℝ × ℝ) := (ProbabilityTheory.gaussianReal 0 1).prod (ProbabilityTheory.gaussianReal 0 1)

instance : IsProbabilityMeasure normal2 := by
  unfold normal2
  infer_instance

theorem normal2_eq : normal2 = volume.withDensity fun x : ℝ × ℝ => ENNReal.ofReal ((2 * π)⁻¹ * exp (-(x.1 * x.1 + x.2 * x.2) / 2)) := by
  unfold normal2
  rw [ProbabilityTheory.gaussianReal_of_var_ne_zero _ (by norm_num),
    prod_withDensity (ProbabilityTheory.measurable_gaussianPDF 0 1) (ProbabilityTheory.measurable_gaussianPDF 0 1)]
  congr 1
  funext x
  simp only [ProbabilityTheory.gaussianPDF]
  rw [← ENNReal.ofReal_mul (ProbabilityTheory.gaussianPDFReal_nonneg _ _ _)]
  congr 1
  simp only [ProbabilityTheory.gaussianPDFReal, NNReal.coe_one, mul_one, sub_zero]
  have h : (√(2 * π))⁻¹ * (√(2 * π))⁻¹ = (2 * π)⁻¹ := by
    rw [← mul_inv, mul_self_sqrt (by positivity)]
  have e : exp (-(x.1 * x.1 + x.2 * x.2) / 2) = exp (-x.1 ^ 2 / 2) * exp (-x.2 ^ 2 / 2) := by
    rw [← exp_add]
    ring_nf
  rw [e, ← h]
  ring

theorem map_disc : (volume.restrict Disc).map boxMuller = ENNReal.ofReal π • normal2 := by
  ext s hs
  rw [Measure.map_apply measurable_boxMuller hs, Measure.smul_apply, normal2_eq, withDensity_apply _ hs, smul_eq_mul,
    ← lintegral_const_mul _ (by fun_prop), ← lintegral_indicator hs]
  have h := disc_integral (s.indicator 1) (measurable_one.indicator hs)
  have hl : ∫⁻ x in Disc, s.indicator (1 : ℝ × ℝ → ℝ≥0∞) (boxMuller x) = (volume.restrict Disc) (boxMuller ⁻¹' s) := by
    rw [← lintegral_indicator_one (measurable_boxMuller hs)]
    rfl
  rw [← hl, h]
  refine lintegral_congr fun x => ?_
  by_cases hx : x ∈ s
  · rw [indicator_of_mem hx, indicator_of_mem hx, Pi.one_apply, mul_one, ← ENNReal.ofReal_mul pi_pos.le]
    congr 1
    have := pi_pos
    field_simp
  · rw [indicator_of_notMem hx, indicator_of_notMem hx, mul_zero]

end Verif.Normal
