/-
C03  Parallel evaluation returns the serial result.
-/
import Verif.Lemmas.Parallel
import Verif.Lemmas.ForceExample

namespace Verif.Props

open Verif.Force Verif.Spec Verif.Mpi

variable {K : Type*} [Field K] [LinearOrder K] [IsStrictOrderedRing K]

/-- Pair potentials.  However the configurations are split over `P` ranks by the program, and whatever
the ranks' force vectors contained before, the reduced error sum and every gathered force, energy and
stress equal those of the serial evaluation. -/
theorem C03_pair (b : Build) (pots : Pots K) (ew sw : K) (confs : List (Conf K)) (hn : Numbered confs)
    (hh : ∀ c ∈ confs, HalfList c) (P : Nat) (hP : 0 < P) (d : Dist)
    (hd : distribute (inconf confs) confs.length P = some d) (init : Nat → FV K) (init0 : FV K) :
    let par := parallelRun b FV.get (pairConf b pots ew sw) d P confs init
    let ser := serialRun FV.get (pairConf b pots ew sw) confs init0
    par.2 = ser.2 ∧ ∀ x, ResultCell b false confs x → par.1 x = ser.1 x :=
  parallel_eq_serial (pairConf_local b pots ew sw) confs
    (fun _ c hk => hh c (List.mem_of_getElem? hk)) hn P hP d hd init init0

/-- EAM potentials: error sum, sum of the densities (from which rank 0 computes the gauge constraints),
and every force, energy, stress and limiting constraint. -/
theorem C03_eam (b : Build) (pots : EamPots K) (ew sw : K) (confs : List (Conf K)) (hn : Numbered confs)
    (hh : ∀ c ∈ confs, HalfList c ∧ EamColumns pots c) (P : Nat) (hP : 0 < P) (d : Dist)
    (hd : distribute (inconf confs) confs.length P = some d) (init : Nat → EamState K)
    (init0 : EamState K) :
    let par := parallelRun b EamState.get (eamConf b pots ew sw) d P confs init
    let ser := serialRun EamState.get (eamConf b pots ew sw) confs init0
    par.2 = ser.2 ∧ ∀ x, ResultCell b true confs x → par.1 x = ser.1 x :=
  parallel_eq_serial (eamConf_local b pots ew sw) confs
    (fun _ c hk => hh c (List.mem_of_getElem? hk)) hn P hP d hd init init0

/-- Two configurations on two ranks. -/
example : (distribute (inconf [exConf, exConf2]) 2 2).isSome = true ∧
    Numbered [exConf, exConf2] ∧ (∀ c ∈ [exConf, exConf2], HalfList c ∧ EamColumns exPots c) := by
  refine ⟨by decide, exConfs_numbered, ?_⟩
  intro c hc
  simp only [List.mem_cons, List.not_mem_nil, or_false] at hc
  rcases hc with rfl | rfl
  · exact ⟨exConf_half, exConf_cols⟩
  · exact ⟨exConf2_half, exConf2_cols⟩

example :
    (match distribute (inconf [exConf, exConf2]) 2 2 with
     | some d =>
       let r := parallelRun exBuild FV.get (pairConf exBuild exPots.toPots 1 1) d 2 [exConf, exConf2]
         (fun _ => ⟨fun _ _ => 7, fun _ => 7, fun _ _ => 7, fun _ => 7⟩)
       [r.1 (.force 1 0), r.1 (.force 2 1), r.1 (.energy 0), r.1 (.energy 1)]
     | none => []) = [-60 / 11, -10, 1, 2] := by decide +kernel

end Verif.Props
