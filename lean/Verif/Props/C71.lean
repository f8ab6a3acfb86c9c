/-
C71: tables of pair potentials for LAMMPS.
-/
import Verif.Lemmas.TableOut
import Mathlib.Analysis.Calculus.Deriv.MeanValue
import Mathlib.Analysis.Calculus.Deriv.Pow
import Mathlib.Tactic.NormNum
import Mathlib.Tactic.Linarith

set_option linter.unusedSectionVars false

namespace Verif.Props

open Verif.TableOut Verif.Spec

/-- First distance of a table. -/
def tableBegin {K : Type*} [Field K] [DecidableEq K] (apot : Bool) (plotmin beg : K) : K :=
  if apot = true ∧ plotmin ≠ 0 then plotmin else beg

section

variable {K : Type*} [Field K] [DecidableEq K]

/-- As many lines as announced, numbered from 1. -/
theorem C71_lines (apot : Bool) (F : Fns K) (steps : Nat) (plotmin beg fin : K) (idx : Nat) :
    (pairTable apot F steps plotmin beg fin idx).map (·.nr) = List.range' 1 steps := by
  apply List.ext_getElem?
  intro m
  have hl : (pairTable apot F steps plotmin beg fin idx).length = steps := by
    unfold pairTable
    cases apot
    · simp [pairTabRows_length]
    · simp [pairApotRows_length]
  by_cases hm : m < steps
  · rw [List.getElem?_map, List.getElem?_range' hm]
    unfold pairTable
    cases apot
    · simp only [Bool.false_eq_true, if_false]
      rw [pairTabRows_get _ _ _ _ _ _ _ hm (by omega)]
      simp [Nat.add_comm]
    · simp only [if_true]
      rw [pairApotRows_get _ _ _ _ _ _ hm]
      simp [pairApotRow, Nat.add_comm]
  · rw [List.getElem?_eq_none (by simp; omega), List.getElem?_eq_none (by simp; omega)]

/-- Analytic potentials: equidistant distances, the energies are the values used in the fit. -/
theorem C71_analytic (F : Fns K) (steps : Nat) (plotmin beg fin : K) (idx m : Nat) (hm : m < steps) :
    let r0 := tableBegin true plotmin beg
    let dr := (fin - r0) / (steps - 1)
    ((pairTable true F steps plotmin beg fin idx)[m]?).map (fun row => (row.r, row.energy)) =
      some (r0 + m * dr, fitted F idx (r0 + m * dr)) := by
  intro r0 dr
  have h0 : (if plotmin = 0 then beg else plotmin) = r0 := by
    show _ = tableBegin true plotmin beg
    unfold tableBegin
    by_cases h : plotmin = 0 <;> simp [h]
  unfold pairTable
  simp only [if_true, h0]
  rw [pairApotRows_get _ _ _ _ _ _ hm]
  unfold pairApotRow
  have hn : ∀ x : Option K, ¬(x = some 0 ∧ x = none) := by
    rintro x ⟨h1, h2⟩
    rw [h1] at h2
    cases h2
  simp only [Option.map_some, hn, if_false, smooth_eq]
  rfl

/-- Tabulated potentials: equidistant distances except for the last one, which is a little less; the energies are the
interpolated values. -/
theorem C71_tabulated (F : Fns K) (steps : Nat) (plotmin beg fin : K) (idx m : Nat) (hm : m < steps) :
    let dr := (fin - beg) / (steps - 1)
    let r := if m = steps - 1 then beg + m * dr - 1 / 1000000 else beg + m * dr
    ((pairTable false F steps plotmin beg fin idx)[m]?).map (fun row => (row.r, row.energy)) = some (r, F.val idx r) := by
  intro dr r
  unfold pairTable
  simp only [Bool.false_eq_true, if_false]
  rw [pairTabRows_get _ _ _ _ _ _ _ hm (by omega)]
  simp only [Option.map_some, Nat.zero_add]
  rfl

/-- The last distance is the end of the potential (for tabulated potentials before it is decreased). -/
theorem C71_last [CharZero K] (steps : Nat) (hs : 2 ≤ steps) (r0 fin : K) :
    r0 + ((steps - 1 : Nat) : K) * ((fin - r0) / (steps - 1)) = fin := by
  have h : ((steps - 1 : Nat) : K) = (steps : K) - 1 := by rw [Nat.cast_sub (by omega)]; simp
  have h2 : (steps : K) - 1 ≠ 0 := by
    rw [← h]
    exact Nat.cast_ne_zero.2 (by omega)
  rw [h, mul_div_cancel₀ _ h2]
  ring

/-- Tabulated potentials: the column for the force holds the slope of the energy, with the wrong sign. -/
theorem C71_tabulated_force_violated (F : Fns K) (steps : Nat) (plotmin beg fin : K) (idx : Nat) (row : Row K)
    (h : row ∈ pairTable false F steps plotmin beg fin idx) : row.force = some (F.grad idx row.r) := by
  obtain ⟨m, hm⟩ := List.mem_iff_getElem?.1 h
  have hl : m < steps := by
    have := (List.getElem?_eq_some_iff.1 hm).1
    unfold pairTable at this
    simpa [pairTabRows_length] using this
  unfold pairTable at hm
  simp only [Bool.false_eq_true, if_false] at hm
  rw [pairTabRows_get _ _ _ _ _ _ _ hl (by omega)] at hm
  rw [← Option.some.inj hm]

/-- An undefined value at the first distance is written as it is: the line meant to replace it (305) is never used. -/
theorem C71_undefined_violated (F : Fns K) (steps : Nat) (plotmin beg fin : K) (idx : Nat) (hs : 0 < steps)
    (h : F.val idx (tableBegin true plotmin beg) = none) :
    ((pairTable true F steps plotmin beg fin idx)[0]?).map (·.energy) = some none := by
  have h1 := C71_analytic F steps plotmin beg fin idx 0 hs
  simp only [Nat.cast_zero, zero_mul, add_zero] at h1
  cases hx : (pairTable true F steps plotmin beg fin idx)[0]? with
  | none => rw [hx] at h1; simp at h1
  | some row =>
    rw [hx] at h1
    simp only [Option.map_some, Option.some.injEq, Prod.mk.injEq] at h1 ⊢
    rw [h1.2]
    unfold fitted
    rw [h]
    rfl

end

/-- Analytic potentials: the column for the force is minus the slope of the energy at some point between the two neighbouring
distances. -/
theorem C71_analytic_force (F : Fns ℝ) (steps : Nat) (plotmin beg fin : ℝ) (idx m : Nat) (hm : m < steps) (φ φ' : ℝ → ℝ)
    (hφ : ∀ x, fitted F idx x = some (φ x)) (hd : ∀ x, HasDerivAt φ (φ' x) x) (hs : 2 ≤ steps)
    (hlt : tableBegin true plotmin beg < fin) :
    let r0 := tableBegin true plotmin beg
    let dr := (fin - r0) / (steps - 1)
    ∃ ξ ∈ Set.Ioo (r0 + m * dr - dr) (r0 + m * dr + dr),
      ((pairTable true F steps plotmin beg fin idx)[m]?).map (·.force) = some (some (-φ' ξ)) := by
  intro r0 dr
  have hs1 : (0 : ℝ) < (steps : ℝ) - 1 := by
    have : (2 : ℝ) ≤ steps := by exact_mod_cast hs
    linarith
  have hdr : 0 < dr := div_pos (by show 0 < fin - tableBegin true plotmin beg; linarith) hs1
  obtain ⟨ξ, h1, h2⟩ := exists_hasDerivAt_eq_slope φ φ' (show r0 + m * dr - dr < r0 + m * dr + dr by linarith)
    (fun x _ => (hd x).continuousAt.continuousWithinAt) (fun x _ => hd x)
  refine ⟨ξ, h1, ?_⟩
  have h0 : (if plotmin = 0 then beg else plotmin) = r0 := by
    show _ = tableBegin true plotmin beg
    unfold tableBegin
    by_cases h : plotmin = 0 <;> simp [h]
  unfold pairTable
  simp only [if_true, h0]
  rw [pairApotRows_get _ _ _ _ _ _ hm]
  unfold pairApotRow
  simp only [smooth_eq, hφ, Option.map_some, Option.bind_some, Option.some.injEq]
  rw [h2]
  show -(φ (r0 + m * dr + dr) - φ (r0 + m * dr - dr)) / (2 * dr) = _
  rw [show r0 + m * dr + dr - (r0 + m * dr - dr) = 2 * dr by ring]
  ring

/-! Examples. -/

/-- `x²`, undefined at zero, and its slope. -/
def squareFns : Fns ℚ where
  val _ r := if r = 0 then none else some (r * r)
  cut _ := none
  grad _ r := 2 * r
  zero _ := false

example : pairTable true squareFns 3 0 1 3 0 = [⟨1, 1, some 1, none⟩, ⟨2, 2, some 4, some (-4)⟩, ⟨3, 3, some 9, some (-6)⟩] := by
  decide +kernel
example : (pairTable false squareFns 3 0 1 3 0)[1]? = some ⟨2, 2, some 4, some 4⟩ := by decide +kernel
example : squareFns.val 0 (tableBegin true 0 0) = none := by decide +kernel

/-- The square of the distance everywhere meets the hypotheses of `C71_analytic_force`. -/
example (idx : Nat) : let F : Fns ℝ := ⟨fun _ r => some (r ^ 2), fun _ => none, fun _ r => 2 * r, fun _ => false⟩
    (∀ x, fitted F idx x = some (x ^ 2)) ∧ ∀ x : ℝ, HasDerivAt (fun x : ℝ => x ^ 2) (2 * x) x := by
  refine ⟨fun x => rfl, fun x => ?_⟩
  simpa using hasDerivAt_pow 2 x

/-- Rising energy (slope 4 at distance 2): the force written for the tabulated potential is repulsive. -/
theorem C71_sign_violated : ∃ row ∈ pairTable false squareFns 3 0 1 3 0, row.force = some 4 ∧ squareFns.grad 0 row.r = 4 :=
  ⟨⟨2, 2, some 4, some 4⟩, by decide +kernel⟩

end Verif.Props
