/-
C22  Sections of the force vector do not overlap.

Violated by the two punishment sections (the second starts after as many entries as there are variable
potentials, the first has one entry per fitted parameter), and by the dummy constraints of `TBEAM` with
analytic potentials.
-/
import Verif.Model.Sections
import Mathlib.Tactic.ByContra
import Mathlib.Order.Basic

namespace Verif.Props

open Verif.Sections

/-- The uses which occur in a program compiled with `f` for data of sizes `z`. -/
def Occurs (f : Flags) (z : Sizes) : Use → Prop
  | .force i k => i < z.natoms ∧ k < 3
  | .energy h => h < z.nconf
  | .stress h k => f.stress = true ∧ h < z.nconf ∧ k < 6
  | .limit h => f.eamLike = true ∧ h < z.nconf
  | .dummy d => f.eamLike = true ∧ d < (if f.tbeam = true then 4 else 2) * z.ntypes
  | .par i => f.apot = true ∧ i < z.idxlen
  | .pot p => f.apot = true ∧ p < z.number

/-- The use is not the punishment of a potential. -/
def NotPot : Use → Prop
  | .pot _ => False
  | _ => True

/-- Data as the program reads it: at most all potentials are invariant, and a variable potential has at
least one fitted parameter. -/
def Plausible (z : Sizes) : Prop := z.invar ≤ z.number ∧ z.number ≤ z.idxlen + z.invar

theorem C22_inside (f : Flags) (z : Sizes) (hz : Plausible z) (u : Use) (hu : Occurs f z u) :
    index f z u < mdim f z := by
  obtain ⟨h1, h2⟩ := hz
  rcases f with ⟨_ | _, _ | _, _ | _, _ | _⟩ <;> cases u <;>
    simp only [Occurs, index, mdim, punishPotP, punishParP, dummyP, limitP, stressP, energyP, if_true,
      Bool.false_eq_true, if_false, true_and, false_and, reduceCtorEq] at hu ⊢ <;> omega

/-- Two different uses have different places, unless one is the punishment of a potential, or `TBEAM` is
combined with `APOT`. -/
theorem C22_disjoint_partial (f : Flags) (z : Sizes) (ht : ¬ (f.tbeam = true ∧ f.apot = true))
    (u v : Use) (hu : Occurs f z u) (hv : Occurs f z v) (hpu : NotPot u) (hpv : NotPot v) (hne : u ≠ v) :
    index f z u ≠ index f z v := by
  rcases f with ⟨_ | _, _ | _, _ | _, _ | _⟩ <;> cases u <;> cases v <;>
    simp only [Occurs, NotPot, index, punishPotP, punishParP, dummyP, limitP, stressP, energyP, if_true,
      Bool.false_eq_true, if_false, true_and, false_and, reduceCtorEq, not_true_eq_false, and_self,
      and_true, and_false, ne_eq, Use.force.injEq, Use.energy.injEq, Use.stress.injEq, Use.limit.injEq,
      Use.dummy.injEq, Use.par.injEq, Use.pot.injEq, not_false_eq_true] at * <;> omega

/-- The punishments of potentials share no entry with other sections, and potentials have different
entries, exactly when the number of fitted parameters does not exceed the number of variable potentials
(or there is no potential, or no analytic potential). -/
theorem C22_pot_iff (f : Flags) (z : Sizes) (ht : ¬ (f.tbeam = true ∧ f.apot = true)) (hz : Plausible z) :
    (∀ u v, Occurs f z u → Occurs f z v → u ≠ v → index f z u ≠ index f z v) ↔
    (f.apot = false ∨ z.number = 0 ∨ z.idxlen + z.invar ≤ z.number) := by
  obtain ⟨h1, h2⟩ := hz
  constructor
  · intro h
    by_contra hc
    simp only [not_or, Bool.not_eq_false] at hc
    obtain ⟨ha, hn, hi⟩ := hc
    have := h (.par (z.number - z.invar)) (.pot 0) ⟨ha, by omega⟩ ⟨ha, by omega⟩ (by simp)
    apply this
    simp only [index, punishPotP]
    omega
  · intro h u v hu hv hne
    by_cases hpu : NotPot u
    · by_cases hpv : NotPot v
      · exact C22_disjoint_partial f z ht u v hu hv hpu hpv hne
      · rcases f with ⟨_ | _, _ | _, _ | _, _ | _⟩ <;> cases u <;> cases v <;>
          simp only [Occurs, NotPot, index, punishPotP, punishParP, dummyP, limitP, stressP, energyP, if_true,
            Bool.false_eq_true, if_false, true_and, false_and, reduceCtorEq, not_true_eq_false, and_self,
            and_true, and_false, ne_eq, not_false_eq_true, false_or, true_or] at * <;> omega
    · cases u <;> simp only [NotPot, not_true_eq_false, not_false_eq_true] at hpu
      by_cases hpv : NotPot v
      · rcases f with ⟨_ | _, _ | _, _ | _, _ | _⟩ <;> cases v <;>
          simp only [Occurs, NotPot, index, punishPotP, punishParP, dummyP, limitP, stressP, energyP, if_true,
            Bool.false_eq_true, if_false, true_and, false_and, reduceCtorEq, not_true_eq_false, and_self,
            and_true, and_false, ne_eq, not_false_eq_true, false_or, true_or] at * <;> omega
      · cases v <;> simp only [NotPot, not_true_eq_false, not_false_eq_true] at hpv
        simp only [index, ne_eq, Use.pot.injEq] at *
        omega

/-- One analytic pair potential with two parameters: the punishment of the second parameter and that of
the potential are the same entry. -/
def exSizes : Sizes := ⟨2, 1, 1, 2, 1, 0⟩

theorem C22_violated : Plausible exSizes ∧ ∃ u v, Occurs ⟨true, false, false, true⟩ exSizes u ∧
    Occurs ⟨true, false, false, true⟩ exSizes v ∧ u ≠ v ∧
    index ⟨true, false, false, true⟩ exSizes u = index ⟨true, false, false, true⟩ exSizes v :=
  ⟨by unfold Plausible exSizes; decide, .par 1, .pot 0, by simp [Occurs, exSizes],
    by simp [Occurs, exSizes], by simp, by decide⟩

/-- `TBEAM` with `APOT`: the constraint on the slope of the first s-band embedding function and the
punishment of the first parameter are the same entry, for all data. -/
theorem C22_tbeam_violated (st : Bool) (z : Sizes) (ht : 0 < z.ntypes) (hi : 0 < z.idxlen) :
    let f : Flags := ⟨st, true, true, true⟩
    Occurs f z (.dummy (2 * z.ntypes)) ∧ Occurs f z (.par 0) ∧
    index f z (.dummy (2 * z.ntypes)) = index f z (.par 0) := by
  refine ⟨⟨rfl, ?_⟩, ⟨rfl, hi⟩, ?_⟩
  · simp only [if_true]; omega
  · cases st <;> simp [index, punishParP]

/-- `KIM`: the punishment of parameter `i` is stored in entry `punishParKim + i`, which is a force component of
an atom, for all data with at least as many force components. -/
theorem C22_kim_violated (st : Bool) (z : Sizes) (i : Nat) (hi : i < 3 * z.natoms) :
    ∃ a k, Occurs ⟨st, false, false, false⟩ z (.force a k) ∧
      index ⟨st, false, false, false⟩ z (.force a k) = punishParKim + i :=
  ⟨i / 3, i % 3, ⟨by omega, by omega⟩, by simp only [index, punishParKim]; omega⟩

/-- Tabulated potentials: the property holds in full. -/
theorem C22_tabulated (f : Flags) (hf : f.apot = false) (z : Sizes) (u v : Use) (hu : Occurs f z u)
    (hv : Occurs f z v) (hne : u ≠ v) : index f z u ≠ index f z v ∧ index f z u < mdim f z := by
  refine ⟨?_, ?_⟩
  · apply C22_disjoint_partial f z (by simp [hf]) u v hu hv _ _ hne
    · cases u <;> simp_all [NotPot, Occurs]
    · cases v <;> simp_all [NotPot, Occurs]
  · have : index f z u < mdim f { z with number := 0, invar := 0 } := by
      have := C22_inside f { z with number := 0, invar := 0 } ⟨Nat.le_refl 0, Nat.zero_le _⟩ u
        (by cases u <;> simp_all [Occurs])
      cases u <;> simp_all [index, limitP, dummyP, stressP, energyP, Occurs]
    simpa [mdim, hf] using this

example : Plausible ⟨10, 2, 2, 7, 5, 1⟩ := by unfold Plausible; decide
example : Occurs ⟨true, true, false, true⟩ ⟨10, 2, 2, 7, 5, 1⟩ (.stress 1 5) ∧
    Occurs ⟨true, true, false, true⟩ ⟨10, 2, 2, 7, 5, 1⟩ (.par 6) ∧
    index ⟨true, true, false, true⟩ ⟨10, 2, 2, 7, 5, 1⟩ (.stress 1 5) = 43 ∧
    index ⟨true, true, false, true⟩ ⟨10, 2, 2, 7, 5, 1⟩ (.par 6) = 56 := by
  refine ⟨by simp [Occurs], by simp [Occurs], by decide, by decide⟩

end Verif.Props
