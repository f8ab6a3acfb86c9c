/-
C40  Shifted electrostatics vanish at the cutoff.
-/
import Verif.Model.Tails
import Mathlib.MeasureTheory.Integral.IntervalIntegral.FundThmCalculus
import Mathlib.Analysis.SpecialFunctions.ExpDeriv
import Mathlib.Analysis.Calculus.Deriv.Inv
import Mathlib.Tactic.FieldSimp
import Mathlib.Tactic.LinearCombination

namespace Verif.Props

open Verif.Tails

theorem erfc_hasDerivAt (x : ℝ) : HasDerivAt erfc (-(2 / √Real.pi) * Real.exp (-x ^ 2)) x := by
  have hc : Continuous fun t : ℝ => Real.exp (-t ^ 2) := by fun_prop
  have h := intervalIntegral.integral_hasDerivAt_right (hc.intervalIntegrable 0 x)
    (hc.stronglyMeasurableAtFilter _ _) hc.continuousAt
  have h2 := (h.const_mul (2 / √Real.pi)).const_sub 1
  unfold erfc
  refine h2.congr_deriv ?_
  ring

theorem sqrt_pi_ne : √Real.pi ≠ 0 := (Real.sqrt_pos.2 Real.pi_pos).ne'

/-- `gtail` is the derivative of `ftail` divided by `r`. -/
theorem ftail_hasDerivAt (r kappa : ℝ) (hr : r ≠ 0) :
    HasDerivAt (fun r => (elstatValue r kappa).fn) (r * (elstatValue r kappa).grad) r := by
  unfold elstatValue
  simp only
  have h1 : HasDerivAt (fun r : ℝ => kappa * r) kappa r := by simpa using (hasDerivAt_id r).const_mul kappa
  have h2 : HasDerivAt (fun r => erfc (kappa * r)) (-(2 / √Real.pi) * Real.exp (-(kappa * r) ^ 2) * kappa) r :=
    (erfc_hasDerivAt (kappa * r)).comp r h1
  have h3 := (h2.const_mul dpEps).div (hasDerivAt_id r) hr
  refine h3.congr_deriv ?_
  have he : Real.exp (-(kappa * r) ^ 2) = Real.exp (-(r * r) * (kappa * kappa)) := by
    congr 1
    ring
  rw [he]
  have := sqrt_pi_ne
  simp only [id]
  field_simp
  ring

/-- `ggtail` is the derivative of `gtail` divided by `r`. -/
theorem gtail_hasDerivAt (r kappa : ℝ) (hr : r ≠ 0) :
    HasDerivAt (fun r => (elstatValue r kappa).grad) (r * (elstatValue r kappa).ggrad) r := by
  have h1 := ftail_hasDerivAt r kappa hr
  have h2 : HasDerivAt (fun r : ℝ => Real.exp (-(r * r) * (kappa * kappa)))
      (Real.exp (-(r * r) * (kappa * kappa)) * (-(2 * r) * (kappa * kappa))) r := by
    have h : HasDerivAt (fun r : ℝ => -(r * r) * (kappa * kappa)) (-(2 * r) * (kappa * kappa)) r := by
      refine ((((hasDerivAt_id r).mul (hasDerivAt_id r)).neg).mul_const (kappa * kappa)).congr_deriv ?_
      simp only [id]
      ring
    exact h.exp
  have h3 : HasDerivAt (fun r : ℝ => r * r) (2 * r) r := by
    refine ((hasDerivAt_id r).mul (hasDerivAt_id r)).congr_deriv ?_
    simp only [id]
    ring
  have h4 := ((h1.add (h2.const_mul (2 * dpEps * kappa / √Real.pi))).neg).div h3 (mul_ne_zero hr hr)
  refine HasDerivAt.congr_deriv (f := fun r => (elstatValue r kappa).grad) h4 ?_
  simp only [Pi.neg_apply, Pi.add_apply]
  unfold elstatValue
  simp only
  have := sqrt_pi_ne
  field_simp
  ring

theorem sq_hasDerivAt (r cut : ℝ) : HasDerivAt (fun r : ℝ => r * r - cut * cut) (2 * r) r := by
  refine (((hasDerivAt_id r).mul (hasDerivAt_id r)).sub_const (cut * cut)).congr_deriv ?_
  simp only [id]
  ring

/-- **C40, cutoff.** With and without dipoles, for the shifted and the damped-shifted-force variant, energy tail and radial force factor
vanish at the cutoff; so does the second factor. -/
theorem C40_cutoff (dipole : Bool) (cut kappa : ℝ) (hc : cut ≠ 0) :
    ((elstatShift dipole cut cut kappa).fn = 0 ∧ (elstatShift dipole cut cut kappa).grad = 0 ∧
      (elstatShift dipole cut cut kappa).ggrad = 0) ∧
    ((elstatDsf dipole cut cut kappa).fn = 0 ∧ (elstatDsf dipole cut cut kappa).grad = 0 ∧
      (elstatDsf dipole cut cut kappa).ggrad = 0) := by
  unfold elstatShift elstatDsf
  have h : (elstatValue cut kappa).grad * cut / cut = (elstatValue cut kappa).grad := by
    field_simp
  cases dipole <;> simp [h]

/-- **C40, force factor.** At every distance the force factor is the derivative of the energy tail divided by `r`. -/
theorem C40_force (dipole : Bool) (cut r kappa : ℝ) (hr : r ≠ 0) :
    HasDerivAt (fun r => (elstatShift dipole cut r kappa).fn) (r * (elstatShift dipole cut r kappa).grad) r ∧
    HasDerivAt (fun r => (elstatDsf dipole cut r kappa).fn) (r * (elstatDsf dipole cut r kappa).grad) r := by
  have h1 := ftail_hasDerivAt r kappa hr
  have hs := sq_hasDerivAt r cut
  have hb := ((hs.mul hs).mul_const (elstatValue cut kappa).ggrad).div_const 8
  have ha := (h1.sub_const (elstatValue cut kappa).fn).sub ((hs.mul_const (elstatValue cut kappa).grad).div_const 2)
  have hd := (h1.sub_const (elstatValue cut kappa).fn).sub
    ((((hasDerivAt_id r).sub_const cut).mul_const (elstatValue cut kappa).grad).mul_const cut)
  cases dipole with
  | false =>
    constructor
    · refine HasDerivAt.congr_deriv (f := fun r => (elstatShift false cut r kappa).fn) ha ?_
      unfold elstatShift
      simp only [Bool.false_eq_true, if_false]
      ring
    · refine HasDerivAt.congr_deriv (f := fun r => (elstatDsf false cut r kappa).fn) hd ?_
      unfold elstatDsf
      simp only [Bool.false_eq_true, if_false]
      field_simp
  | true =>
    constructor
    · refine HasDerivAt.congr_deriv (f := fun r => (elstatShift true cut r kappa).fn) (ha.sub hb) ?_
      unfold elstatShift
      simp only [if_true]
      ring
    · refine HasDerivAt.congr_deriv (f := fun r => (elstatDsf true cut r kappa).fn) (hd.sub hb) ?_
      unfold elstatDsf
      simp only [if_true]
      field_simp
      ring

/-- The slope of the energy tail at the cutoff is 0 as well. -/
theorem C40_slope (dipole : Bool) (cut kappa : ℝ) (hc : cut ≠ 0) :
    HasDerivAt (fun r => (elstatShift dipole cut r kappa).fn) 0 cut ∧
    HasDerivAt (fun r => (elstatDsf dipole cut r kappa).fn) 0 cut := by
  have h := C40_force dipole cut cut kappa hc
  obtain ⟨⟨-, h1, -⟩, -, h2, -⟩ := C40_cutoff dipole cut kappa hc
  rw [h1, h2, mul_zero] at h
  exact h

/-- **C40, second factor.** With dipoles, for the shifted variant, the second factor is the derivative of the force factor divided by
`r`. -/
theorem C40_second (cut r kappa : ℝ) (hr : r ≠ 0) :
    HasDerivAt (fun r => (elstatShift true cut r kappa).grad) (r * (elstatShift true cut r kappa).ggrad) r := by
  have h1 := gtail_hasDerivAt r kappa hr
  have hs := sq_hasDerivAt r cut
  have h := (h1.sub_const (elstatValue cut kappa).grad).sub ((hs.mul_const (elstatValue cut kappa).ggrad).div_const 2)
  refine HasDerivAt.congr_deriv (f := fun r => (elstatShift true cut r kappa).grad) h ?_
  unfold elstatShift
  simp only [if_true]
  ring

/-- The hypotheses hold for any positive cutoff and distance. -/
example : HasDerivAt (fun r => (elstatShift true 10 r 0.1).fn) (3 * (elstatShift true 10 3 0.1).grad) 3 ∧
    (elstatDsf false 10 10 0.1).fn = 0 :=
  ⟨(C40_force true 10 3 0.1 (by norm_num)).1, (C40_cutoff false 10 0.1 (by norm_num)).2.1⟩

/-- The tail is not trivial: without screening it is the Coulomb energy. -/
example : (elstatShift false 10 2 0).fn = dpEps / 2 - dpEps / 10 - 48 / 100 * dpEps / 10 := by
  unfold elstatShift elstatValue erfc
  simp
  ring

/-- **Second factor with DSF.** For the damped-shifted-force variant with dipoles the second factor is not the derivative of the force
factor divided by `r`: already for the bare Coulomb tail. (The build script, `wscript` 312-318, excludes this combination.) -/
theorem C40_dsf_second :
    ¬HasDerivAt (fun r => (elstatDsf true 10 r 0).grad) (2 * (elstatDsf true 10 2 0).ggrad) 2 := by
  intro h
  have h1 := gtail_hasDerivAt 2 0 (by norm_num)
  have hs := sq_hasDerivAt 2 10
  have hi : HasDerivAt (fun r : ℝ => (elstatValue 10 0).grad * 10 / r) (-((elstatValue 10 0).grad * 10) / 2 ^ 2) 2 := by
    have := ((hasDerivAt_const (2 : ℝ) ((elstatValue 10 0).grad * 10)).div (hasDerivAt_id 2) (by norm_num))
    refine this.congr_deriv ?_
    simp
  have h2 := (h1.sub hi).sub ((hs.mul_const (elstatValue 10 0).ggrad).div_const 2)
  have h3 : HasDerivAt (fun r => (elstatDsf true 10 r 0).grad) _ 2 := h2
  have := h.unique h3
  have hd : dpEps ≠ 0 := by unfold dpEps; norm_num
  unfold elstatDsf elstatValue erfc at this
  simp at this
  apply hd
  linear_combination (400 : ℝ) * this

end Verif.Props
