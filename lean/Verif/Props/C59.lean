/-
C59  Residuals with KIM models.
-/
import Verif.Model.ForceKim
import Verif.Lemmas.ForceExample
import Verif.Props.C20
import Mathlib.Tactic.Ring
import Mathlib.Tactic.Linarith
import Mathlib.Tactic.LinearCombination
import Mathlib.Tactic.FieldSimp

set_option linter.unusedSectionVars false

namespace Verif.Props

open Verif.Force

variable {K : Type*} [Field K] [LinearOrder K] [IsStrictOrderedRing K]

/-! ### Specification -/

/-- Force on atom `a`: the sum over all particles which are images of it. -/
def imageForce (c : KimConf K) (r : KimResult K) (a : Nat) : V3 K :=
  ((c.source.zip r.forces).map fun p => if p.1 = a then p.2 else 0).sum

/-- What the force entries should be: weighted deviations, zero if the forces of the configuration are not used. -/
def kimForceEntry (b : Build) (c : KimConf K) (r : KimResult K) (a : Atom K) (i : Nat) : V3 K := fun k =>
  if c.uf = true then c.swForce * (imageForce c r i k - c.force0 i k) / (if b.fweight = true then 1 / 10 + a.absforce else 1) else 0

/-- What the energy entry should be: the weighted deviation of the energy per atom, as in all other force routines. -/
def kimEnergyEntry (c : KimConf K) (r : KimResult K) : K := c.swEnergy * (r.energy / (c.atoms.length : K) - c.energy0)

/-- What the stress entries should be. -/
def kimStressEntry (c : KimConf K) (r : KimResult K) : Fin 6 → K := fun k =>
  if c.uf = true ∧ c.us = true then c.swStress * (r.virial k / c.vol - c.stress0 k) else 0

/-! ### Proofs -/

theorem kimGather_eq (ss : List Nat) : ∀ (fs : List (V3 K)) (force : Nat → V3 K) (a : Nat),
    kimGather ss fs force a = force a + ((ss.zip fs).map fun p => if p.1 = a then p.2 else 0).sum := by
  induction ss with
  | nil => intro fs force a; simp [kimGather]
  | cons s ss ih =>
    intro fs force a
    cases fs with
    | nil => simp [kimGather]
    | cons f fs =>
      rw [kimGather, ih, List.zip_cons_cons, List.map_cons, List.sum_cons]
      unfold addAt
      by_cases h : a = s
      · subst h
        rw [Function.update_self]
        simp only [if_true]
        rw [add_assoc]
      · rw [Function.update_of_ne h, if_neg (Ne.symm h), zero_add]

/-- The loop over the atoms: entries and error. -/
theorem kimAtoms_spec (b : Build) (c : KimConf K) (as : List (Atom K)) : ∀ (i : Nat) (s : (Nat → V3 K) × K),
    (∀ j a, as[j]? = some a → (kimAtoms b c as i s).1 (i + j) = fun k =>
      if c.uf = true then c.swForce * (s.1 (i + j) k - c.force0 (i + j) k) / (if b.fweight = true then 1 / 10 + a.absforce else 1) else 0) ∧
    (∀ x, x < i ∨ i + as.length ≤ x → (kimAtoms b c as i s).1 x = s.1 x) ∧
    (kimAtoms b c as i s).2 = s.2 + (as.zipIdx.map fun aj =>
      if b.contrib = true ∧ aj.1.contrib = false then 0 else ∑ k : Fin 3, (kimAtoms b c as i s).1 (i + aj.2) k ^ 2).sum := by
  induction as with
  | nil => intro i s; simp [kimAtoms]
  | cons a as ih =>
    intro i s
    rw [kimAtoms]
    generalize hf : (if b.fweight = true then fun k => (if c.uf = true then fun k => c.swForce * (s.1 i k - c.force0 i k) else (0 : V3 K)) k /
        (forceEps + a.absforce) else if c.uf = true then fun k => c.swForce * (s.1 i k - c.force0 i k) else (0 : V3 K)) = f
    have hfe : f = fun k => if c.uf = true then c.swForce * (s.1 i k - c.force0 i k) / (if b.fweight = true then 1 / 10 + a.absforce else 1)
        else 0 := by
      rw [← hf]
      funext k
      by_cases hb : b.fweight = true
      · by_cases hu : c.uf = true
        · simp only [if_pos hb, if_pos hu, forceEps]
        · simp only [if_pos hb, if_neg hu, Pi.zero_apply, zero_div]
      · by_cases hu : c.uf = true
        · simp only [if_neg hb, if_pos hu, div_one]
        · simp only [if_neg hb, if_neg hu, Pi.zero_apply]
    generalize ht : (Function.update s.1 i f, if (!b.contrib || a.contrib) = true then s.2 + sq3 f else s.2) = t
    have ht1 : t.1 = Function.update s.1 i f := by rw [← ht]
    have ht2 : t.2 = if (!b.contrib || a.contrib) = true then s.2 + sq3 f else s.2 := by rw [← ht]
    obtain ⟨h1, h2, h3⟩ := ih (i + 1) t
    have hat : (kimAtoms b c as (i + 1) t).1 i = f := by
      rw [h2 i (Or.inl (by omega)), ht1, Function.update_self]
    refine ⟨?_, ?_, ?_⟩
    · intro j a' hj
      cases j with
      | zero =>
        simp only [List.getElem?_cons_zero, Option.some.injEq] at hj
        subst hj
        simp only [Nat.add_zero]
        rw [hat, hfe]
      | succ j =>
        rw [List.getElem?_cons_succ] at hj
        have := h1 j a' hj
        rw [show i + 1 + j = i + (j + 1) by omega, ht1, Function.update_of_ne (by omega)] at this
        rw [this]
    · intro x hx
      simp only [List.length_cons] at hx
      rw [h2 x (by omega), ht1, Function.update_of_ne (by omega)]
    · rw [h3, ht2, List.zipIdx_cons, List.map_cons, List.sum_cons, ← add_assoc]
      congr 1
      · simp only [Nat.add_zero]
        rw [hat]
        by_cases hc : b.contrib = true ∧ a.contrib = false
        · rw [if_pos hc, if_neg (by simp [hc.1, hc.2]), add_zero]
        · rw [if_neg hc, if_pos (by
            cases hb : b.contrib <;> cases ha : a.contrib <;> simp_all), Fin.sum_univ_three]
          unfold sq3
          ring
      · rw [Nat.zero_add, List.zipIdx_succ, List.map_map]
        congr 1
        refine List.map_congr_left fun aj _ => ?_
        simp only [Function.comp, show ∀ n, i + 1 + n = i + (n + 1) from fun n => by omega]

/-- **C59, forces and stresses, and energies of configurations with one atom.** If the entries of the atoms are zero before, the entries
of a configuration are the weighted deviations, and what is added to the objective is the sum of their squares.
Missing for the full claim: energies of configurations with several atoms (`C59_energy_violated`) and forces if the entries are
not zero before (`C20_kim_force_violated`). -/
theorem C59_partial (b : Build) (compute : Nat → KimResult K) (h : Nat) (c : KimConf K) (fv : FV K) (hz : ∀ j < c.atoms.length, fv.force (c.start + j) = 0)
    (v : FV K) (e : K) (hr : kimConf b compute h c fv = (v, e)) :
    (∀ j a, c.atoms[j]? = some a → v.force (c.start + j) = kimForceEntry b c (compute h) a (c.start + j)) ∧
    v.energy h = c.swEnergy * ((compute h).energy - c.energy0) ∧
    (c.atoms.length = 1 → v.energy h = kimEnergyEntry c (compute h)) ∧
    (b.stress = true → v.stress h = kimStressEntry c (compute h)) ∧
    e = (c.atoms.zipIdx.map fun aj => if b.contrib = true ∧ aj.1.contrib = false then 0 else ∑ k : Fin 3, v.force (c.start + aj.2) k ^ 2).sum +
      v.energy h ^ 2 + (if b.stress = true then ∑ k : Fin 6, v.stress h k ^ 2 else 0) := by
  unfold kimConf at hr
  simp only [Prod.mk.injEq] at hr
  obtain ⟨rfl, rfl⟩ := hr
  obtain ⟨h1, h2, h3⟩ := kimAtoms_spec b c c.atoms c.start (kimGather c.source (compute h).forces fv.force, 0)
  have hen : c.swEnergy * (compute h).energy - c.swEnergy * c.energy0 = c.swEnergy * ((compute h).energy - c.energy0) := by ring
  have hst : (if (c.uf && c.us) = true then fun k => c.swStress * (compute h).virial k / c.vol - c.swStress * c.stress0 k else 0) =
      kimStressEntry c (compute h) := by
    funext k
    unfold kimStressEntry
    by_cases hu : c.uf = true ∧ c.us = true
    · rw [if_pos (by simp [hu.1, hu.2]), if_pos hu]; ring
    · rw [if_neg (by simpa using hu), if_neg hu]; rfl
  refine ⟨fun j a hj => ?_, ?_, fun hl => ?_, fun hb => ?_, ?_⟩
  · show (kimAtoms b c c.atoms c.start _).1 (c.start + j) = _
    rw [h1 j a hj]
    funext k
    unfold kimForceEntry imageForce
    simp only [kimGather_eq, hz j (List.getElem?_eq_some_iff.1 hj).1, zero_add]
  · simp only [Function.update_self, hen]
  · simp only [Function.update_self, hen, kimEnergyEntry, hl, Nat.cast_one, div_one]
  · simp only [if_pos hb, Function.update_self]
    exact hst
  · simp only [Function.update_self]
    rw [h3, zero_add]
    by_cases hb : b.stress = true
    · rw [if_pos hb]
      simp only [if_pos hb, Function.update_self]
      by_cases hu : c.uf = true ∧ c.us = true
      · rw [if_pos (by simp [hb, hu.1, hu.2]), List.sum_ofFn]
        congr 1
        · ring
        · exact Finset.sum_congr rfl fun k _ => by ring
      · rw [if_neg (by rw [Bool.and_eq_true, Bool.and_eq_true]; exact fun h => hu ⟨h.1.2, h.2⟩), if_neg (by simpa using hu)]
        simp only [Pi.zero_apply]
        ring_nf
        simp
    · rw [if_neg hb, if_neg (by rw [Bool.and_eq_true, Bool.and_eq_true]; exact fun h => hb h.1.1)]
      ring

/-- Two atoms in the cell; one particle is an image of the first atom. -/
def kimPair : KimConf ℚ := ⟨0, [⟨0, [], 1, true⟩, ⟨0, [], 1, true⟩], [0, 1, 0], true, true, 2, 1, 1, 4, fun _ => ![1, 0, 0], -3, fun _ => 0⟩

def kimPairModel (_ : Nat) : KimResult ℚ := ⟨-6, [![1, 0, 0], ![2, 0, 0], ![5, 0, 0]], fun _ => 8⟩

def noForces : FV ℚ := ⟨fun _ => 0, fun _ => 0, fun _ => 0, fun _ => 0⟩

example : (∀ j < kimPair.atoms.length, noForces.force (kimPair.start + j) = 0) ∧
    (kimConf exBuild kimPairModel 0 kimPair noForces).1.force 0 = ![2 * (6 - 1) / (11 / 10), 0, 0] ∧
    (kimConf exBuild kimPairModel 0 kimPair noForces).1.stress 0 = fun _ => 2 := by
  refine ⟨fun _ _ => rfl, ?_⟩
  decide +kernel

/-- **C59 is violated for energies.** Reference energy and model agree, -3 per atom, yet the residual is not zero: the
total energy is compared with the energy per atom. -/
theorem C59_energy_violated : kimEnergyEntry kimPair (kimPairModel 0) = 0 ∧
    (kimConf exBuild kimPairModel 0 kimPair noForces).1.energy 0 = -3 := by
  decide +kernel

/-- For every configuration with several atoms and every energy except zero. -/
theorem C59_energy_violated_general (b : Build) (compute : Nat → KimResult K) (h : Nat) (c : KimConf K) (fv : FV K) (hw : c.swEnergy ≠ 0)
    (hn : 2 ≤ c.atoms.length) (he : (compute h).energy ≠ 0) : (kimConf b compute h c fv).1.energy h ≠ kimEnergyEntry c (compute h) := by
  unfold kimConf kimEnergyEntry
  simp only [Function.update_self]
  intro hc
  have h1 : c.swEnergy * ((compute h).energy - (compute h).energy / (c.atoms.length : K)) = 0 := by linear_combination hc
  have hl : (2 : K) ≤ (c.atoms.length : K) := by exact_mod_cast hn
  rcases mul_eq_zero.1 h1 with h2 | h2
  · exact hw h2
  · have hl0 : (c.atoms.length : K) ≠ 0 := by linarith
    have h3 : (compute h).energy * ((c.atoms.length : K) - 1) = 0 := by
      field_simp at h2
      linarith
    rcases mul_eq_zero.1 h3 with h4 | h4
    · exact he h4
    · linarith

end Verif.Props
