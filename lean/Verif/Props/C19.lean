/-
C19  Half neighbour lists: every contribution has arrived before it is used.

The routines treat the atoms one after the other; density and force of an atom are used (embedding
energy, weighting, error sum) as soon as its own list is done.  The theorems say that the values used are
the complete sums over all entries of the configuration, and are what the memory contains at the end.
-/
import Verif.Lemmas.ForceRun
import Verif.Lemmas.ForceExample

namespace Verif.Props

open Verif.Force Verif.Spec

variable {K : Type*} [Field K] [LinearOrder K] [IsStrictOrderedRing K]

/-- Pair potentials: the final force entry of each atom is the weighted deviation of the complete force,
and the error sum counts exactly these final entries. -/
theorem C19_pair (b : Build) (P : Pots K) (ew sw : K) (ci : Nat) (c : Conf K) (hh : HalfList c)
    (hu : c.uf = true) (fv : FV K) :
    let r := pairConf b P ew sw ci c fv
    (∀ j a, c.atoms[j]? = some a →
      r.1.force (c.start + j) = deviation b (pairSlope P) c a (c.start + j)) ∧
    r.2 = (c.atoms.zipIdx.map fun ak => if b.contrib = true ∧ ak.1.contrib = false then 0 else
        c.weight * ∑ k : Fin 3, r.1.force (c.start + ak.2) k ^ 2).sum +
      c.weight * ew * r.1.energy ci ^ 2 +
      (if b.stress = true ∧ c.us = true then c.weight * sw * ∑ k : Fin 6, r.1.stress ci k ^ 2 else 0) := by
  intro r
  obtain ⟨-, p2, p3, p4, -, p6⟩ := pairConf_spec b P ew sw ci c hh fv
  refine ⟨fun j a hj => ?_, ?_⟩
  · rw [p2 j a hj, hu, if_pos rfl, scaled_eq]
  · rw [p6]
    congr 1
    · congr 1
      · congr 1
        apply List.map_congr_left
        intro ak _
        unfold atomErr
        have hs : ∀ v : V3 K, sq3 v = ∑ k : Fin 3, v k ^ 2 := by
          intro v; simp only [sq3, Fin.sum_univ_three]; ring
        cases hb : b.contrib <;> cases ha : ak.1.contrib <;> simp [hu, hs, r]
      · simp only [r, p3, Function.update_self]
    · by_cases h1 : b.stress = true ∧ c.us = true
      · rw [if_pos (by simp [h1, hu]), if_pos h1, Finset.mul_sum]
        simp only [r, p4, h1.1, if_true, Function.update_self, hu, h1.2, Bool.and_self]
      · rw [if_neg (by simp only [Bool.and_eq_true, hu, and_true]; exact h1), if_neg h1]

/-- EAM potentials: the density with which the embedding function of an atom is evaluated is the
complete density (sum over all entries of the configuration), the final density is the one used, and the
forces are the complete forces computed with the final slopes. -/
theorem C19_eam (b : Build) (P : EamPots K) (ew sw : K) (ci : Nat) (c : Conf K) (hh : HalfList c)
    (hc : EamColumns P c) (s : EamState K) :
    let r := eamConf b P ew sw ci c s
    (∀ j a, c.atoms[j]? = some a →
      let m := embed b P (P.paircol + P.ntypes + a.typ) (totalDensity P c (c.start + j))
      r.1.rho (c.start + j) = m.rho ∧ r.1.gradF (c.start + j) = m.grad ∧
      (c.uf = true → r.1.fv.force (c.start + j) =
        deviation b (fun e => pairSlope P.toPots e + eamSlope P r.1.gradF e) c a (c.start + j))) ∧
    r.1.fv.energy ci = energyDev (totalPairEnergy P.toPots c + (c.atoms.zipIdx.map fun ak =>
      (embed b P (P.paircol + P.ntypes + ak.1.typ) (totalDensity P c (c.start + ak.2))).value).sum) c := by
  intro r
  obtain ⟨p0, p1, -, p2, p3, -⟩ := eamConf_spec b P ew sw ci c hh hc s
  refine ⟨fun j a hj => ⟨p1 j a hj, p0 j a hj, fun hu => ?_⟩, ?_⟩
  · rw [p2 j a hj, hu, if_pos rfl, scaled_eq]
    rfl
  · simp only [r, p3, Function.update_self]
    rfl

example : HalfList exConf ∧ EamColumns exPots exConf ∧ exConf.uf = true :=
  ⟨exConf_half, exConf_cols, rfl⟩

/-- Atom 1 of the example has no list of its own; its density arrives from atom 0. -/
example : totalDensity exPots exConf 1 = 4 ∧ totalDensity exPots exConf 0 = 5 + 16 ∧
    (eamConf exBuild exPots 1 1 0 exConf ⟨⟨0, 0, 0, 0⟩, 0, 0⟩).1.rho 1 = 4 := by decide +kernel

/-- A configuration whose second atom stores the pair: not a half list. -/
def badConf : Conf ℚ := { exConf with
  atoms := [⟨0, [], 2, true⟩, ⟨1, [⟨0, 0, 1, ![1, 0, 0], ![1, 0, 0], 1, 3⟩], 1, true⟩] }

/-- The order of the list matters: with the pair stored at the later atom the force on atom 0 arrives
after atom 0 was weighted, and its entry is wrong. -/
theorem C19_needs_half_list : ¬ HalfList badConf ∧
    (pairConf exBuild exPots.toPots 1 1 0 badConf ⟨0, 0, 0, 0⟩).1.force 0 0 ≠
      deviation exBuild (pairSlope exPots.toPots) badConf ⟨0, [], 2, true⟩ 0 0 := by
  refine ⟨?_, ?_⟩
  · unfold HalfList; decide
  · decide +kernel

end Verif.Props
