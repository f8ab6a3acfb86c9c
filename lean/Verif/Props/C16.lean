/-
C16  The forces computed from the potential add up to zero.

The force vector holds `(force - reference) / scale`; the computed force is recovered as
`scale * entry + reference` (`scale` is 1 unless `FWEIGHT`).
-/
import Verif.Lemmas.ForceRun
import Verif.Lemmas.ForceExample
import Mathlib.Tactic.Positivity

namespace Verif.Props

open Verif.Force Verif.Spec

variable {K : Type*} [Field K] [LinearOrder K] [IsStrictOrderedRing K]

/-- Sum over the atoms of configuration `c` of the forces computed from the potential, recovered from
the force vector. -/
def recoveredSum (b : Build) (c : Conf K) (force : Nat → V3 K) : V3 K :=
  (c.atoms.zipIdx.map fun ak => (fun k => forceScale b ak.1 * force (c.start + ak.2) k +
    c.force0 (c.start + ak.2) k : V3 K)).sum

theorem forceScale_ne_zero (b : Build) (a : Atom K) (h : 0 ≤ a.absforce) : forceScale b a ≠ 0 := by
  unfold forceScale
  split
  · positivity
  · exact one_ne_zero

/-- Pair potentials: whatever the force vector contained before, after the evaluation the forces of
every configuration whose forces are used add up to zero. -/
theorem C16_pair (b : Build) (P : Pots K) (ew sw w : K) (qs : List (Bound K)) (eopp univ : List (Nat × K))
    (confs : List (Conf K)) (hn : Numbered confs) (hh : ∀ c ∈ confs, HalfList c)
    (ha : ∀ c ∈ confs, ∀ a ∈ c.atoms, 0 ≤ a.absforce) (v v' : PairVec K) (y : K)
    (hr : pairObjective b P ew sw w qs eopp univ confs v = .ok (v', y))
    (c : Conf K) (hc : c ∈ confs) (hu : c.uf = true) : recoveredSum b c v'.fv.force = 0 := by
  obtain ⟨k, hk⟩ := List.getElem?_of_mem hc
  have hv : v'.fv = (confLoop (pairConf b P ew sw) confs 0 (v.fv, 0)).1 := by
    unfold pairObjective at hr
    by_cases hb : b.apot = true
    · rw [if_pos hb] at hr
      cases hp : apotPunish w qs eopp univ v.par v.pot with
      | error e => simp [hp, bind, Except.bind] at hr
      | ok p =>
        simp only [hp, bind, Except.bind, Except.ok.injEq, Prod.mk.injEq] at hr
        rw [← hr.1]
    · rw [if_neg hb] at hr
      simp only [Except.ok.injEq, Prod.mk.injEq] at hr
      rw [← hr.1]
  obtain ⟨h1, -⟩ := pairRun_cells b P ew sw confs hn hh v.fv k c hk
  rw [hv]
  refine sum_recovered b (pairSlope P) c (hh c hc)
    (fun a h => forceScale_ne_zero b a (ha c hc a h)) _ ?_
  intro j a hj
  rw [h1 j a hj, if_pos hu]

/-- The same for EAM potentials. -/
theorem C16_eam (b : Build) (P : EamPots K) (ew sw w : K) (qs : List (Bound K)) (eopp univ : List (Nat × K))
    (dummy0 : Nat → K) (natoms : Nat)
    (confs : List (Conf K)) (hn : Numbered confs) (hh : ∀ c ∈ confs, HalfList c ∧ EamColumns P c)
    (ha : ∀ c ∈ confs, ∀ a ∈ c.atoms, 0 ≤ a.absforce) (v v' : EamVec K) (y : K)
    (hr : eamObjective b P ew sw w qs eopp univ dummy0 natoms confs v = .ok (v', y))
    (c : Conf K) (hc : c ∈ confs) (hu : c.uf = true) : recoveredSum b c v'.st.fv.force = 0 := by
  obtain ⟨k, hk⟩ := List.getElem?_of_mem hc
  have hv : v'.st = (confLoop (eamConf b P ew sw) confs 0 (v.st, (0, 0))).1 := by
    unfold eamObjective at hr
    by_cases hb : b.apot = true
    · rw [if_pos hb] at hr
      cases hp : apotPunish w qs eopp univ v.par v.pot with
      | error e => simp [hp, bind, Except.bind] at hr
      | ok p =>
        simp only [hp, bind, Except.bind, Except.ok.injEq, Prod.mk.injEq] at hr
        rw [← hr.1]
    · rw [if_neg hb] at hr
      simp only [Except.ok.injEq, Prod.mk.injEq] at hr
      rw [← hr.1]
  obtain ⟨h1, -⟩ := eamRun_cells b P ew sw confs hn hh v.st k c hk
  rw [hv]
  refine sum_recovered b (eamFullSlope b P c) c (hh c hc).1
    (fun a h => forceScale_ne_zero b a (ha c hc a h)) _ ?_
  intro j a hj
  rw [h1 j a hj, if_pos hu]

/-- The hypotheses are met by the example data, in which the single forces do not vanish. -/
example : Numbered [exConf, exConf2] ∧
    (∀ c ∈ [exConf, exConf2], HalfList c ∧ EamColumns exPots c) ∧
    (∀ c ∈ [exConf, exConf2], ∀ a ∈ c.atoms, 0 ≤ a.absforce) := by
  refine ⟨exConfs_numbered, ?_, ?_⟩
  · intro c hc
    simp only [List.mem_cons, List.not_mem_nil, or_false] at hc
    rcases hc with rfl | rfl
    · exact ⟨exConf_half, exConf_cols⟩
    · exact ⟨exConf2_half, exConf2_cols⟩
  · decide +kernel

example :
    (match pairObjective exBuild exPots.toPots 1 1 1 [] [] [] [exConf, exConf2]
        ⟨⟨0, 0, 0, 0⟩, 0, 0⟩ with
     | .ok (v, _) => [v.fv.force 0 0 * (21 / 10) + 1, v.fv.force 1 0 * (11 / 10) + 2]
     | .error _ => []) = [4, -4] := by decide +kernel

end Verif.Props
