/-
C18  The objective is the weighted sum of squared deviations.
-/
import Verif.Lemmas.ForceRun
import Verif.Lemmas.ForceExample
import Mathlib.Tactic.Positivity

namespace Verif.Props

open Verif.Force Verif.Spec

variable {K : Type*} [Field K] [LinearOrder K] [IsStrictOrderedRing K]

/-- Pair potentials, tabulated: value of the objective. -/
theorem C18_pair (b : Build) (hb : b.apot = false) (P : Pots K) (ew sw w : K) (qs : List (Bound K))
    (eopp univ : List (Nat × K)) (confs : List (Conf K)) (hh : ∀ c ∈ confs, HalfList c) (v : PairVec K) :
    ∃ v', pairObjective b P ew sw w qs eopp univ confs v =
      .ok (v', (confs.map fun c => confError b (pairSlope P) (pairTotal P c) ew sw c).sum) := by
  unfold pairObjective
  rw [if_neg (by simp [hb])]
  exact ⟨_, by rw [pairLoopConfs_err b P ew sw confs hh]⟩

/-- Pair potentials, analytic: the punishments are added. -/
theorem C18_pair_apot (b : Build) (hb : b.apot = true) (P : Pots K) (ew sw w : K) (qs : List (Bound K))
    (eopp univ : List (Nat × K)) (confs : List (Conf K)) (hh : ∀ c ∈ confs, HalfList c)
    (v v' : PairVec K) (y : K) (hr : pairObjective b P ew sw w qs eopp univ confs v = .ok (v', y)) :
    y = (confs.map fun c => confError b (pairSlope P) (pairTotal P c) ew sw c).sum +
      totalPenalty w qs eopp univ := by
  unfold pairObjective at hr
  rw [if_pos hb] at hr
  cases hp : apotPunish w qs eopp univ v.par v.pot with
  | error e => simp [hp, bind, Except.bind] at hr
  | ok p =>
    simp only [hp, bind, Except.bind, Except.ok.injEq, Prod.mk.injEq] at hr
    rw [← hr.2, pairLoopConfs_err b P ew sw confs hh, apotPunish_sum w qs eopp univ _ _ p hp]

/-- EAM potentials: limiting constraints and gauge constraints are added, with `APOT` the
punishments. -/
theorem C18_eam (b : Build) (P : EamPots K) (ew sw w : K) (qs : List (Bound K))
    (eopp univ : List (Nat × K)) (dummy0 : Nat → K) (natoms : Nat) (confs : List (Conf K))
    (hh : ∀ c ∈ confs, HalfList c ∧ EamColumns P c) (v v' : EamVec K) (y : K)
    (hr : eamObjective b P ew sw w qs eopp univ dummy0 natoms confs v = .ok (v', y)) :
    y = (confs.map fun c =>
          confError b (eamFullSlope b P c) (eamTotal b P c) ew sw c + limitError b P c).sum +
      (if b.apot = true then totalPenalty w qs eopp univ else 0) +
      gaugeError b P dummy0 natoms confs := by
  unfold eamObjective at hr
  simp only [eamLoopConfs_err b P ew sw confs hh, eamDummies_err] at hr
  by_cases hb : b.apot = true
  · rw [if_pos hb] at hr
    cases hp : apotPunish w qs eopp univ v.par v.pot with
    | error e => simp [hp, bind, Except.bind] at hr
    | ok p =>
      simp only [hp, bind, Except.bind, Except.ok.injEq, Prod.mk.injEq] at hr
      rw [← hr.2, apotPunish_sum w qs eopp univ _ _ p hp, if_pos hb]
  · rw [if_neg hb] at hr
    simp only [Except.ok.injEq, Prod.mk.injEq] at hr
    rw [← hr.2, if_neg hb, add_zero]

theorem forceError_nonneg (b : Build) (slope : Entry K → K) (c : Conf K) : 0 ≤ forceError b slope c := by
  unfold forceError
  apply List.sum_nonneg
  intro x hx
  obtain ⟨ak, -, rfl⟩ := List.mem_map.1 hx
  split
  · exact le_refl _
  · exact Finset.sum_nonneg fun k _ => sq_nonneg _

theorem list_sum_eq_zero_iff {l : List K} (h : ∀ x ∈ l, 0 ≤ x) : l.sum = 0 ↔ ∀ x ∈ l, x = 0 := by
  induction l with
  | nil => simp
  | cons a l ih =>
    have h1 := h a (by simp)
    have h2 : ∀ x ∈ l, 0 ≤ x := fun x hx => h x (by simp [hx])
    have h3 := List.sum_nonneg h2
    rw [List.sum_cons, add_eq_zero_iff_of_nonneg h1 h3, ih h2]
    simp

theorem confError_nonneg (b : Build) (slope : Entry K → K) (energy ew sw : K) (c : Conf K)
    (hw : 0 ≤ c.weight) (he : 0 ≤ ew) (hs : 0 ≤ sw) : 0 ≤ confError b slope energy ew sw c := by
  unfold confError
  have h1 := forceError_nonneg b slope c
  have h2 : 0 ≤ ∑ k : Fin 6, stressDev slope c k ^ 2 := Finset.sum_nonneg fun k _ => sq_nonneg _
  have h3 := sq_nonneg (energyDev energy c)
  have a1 : 0 ≤ c.weight * forceError b slope c := mul_nonneg hw h1
  have a2 : 0 ≤ c.weight * ew * energyDev energy c ^ 2 := mul_nonneg (mul_nonneg hw he) h3
  have a3 : 0 ≤ c.weight * sw * ∑ k : Fin 6, stressDev slope c k ^ 2 := mul_nonneg (mul_nonneg hw hs) h2
  refine add_nonneg (add_nonneg ?_ a2) ?_
  · split
    · exact a1
    · exact le_refl _
  · split
    · exact a3
    · exact le_refl _

theorem confSum_nonneg (b : Build) (slope : Conf K → Entry K → K) (energy : Conf K → K) (ew sw : K)
    (confs : List (Conf K)) (hw : ∀ c ∈ confs, 0 ≤ c.weight) (he : 0 ≤ ew) (hs : 0 ≤ sw) :
    0 ≤ (confs.map fun c => confError b (slope c) (energy c) ew sw c).sum := by
  apply List.sum_nonneg
  intro x hx
  obtain ⟨c, hc, rfl⟩ := List.mem_map.1 hx
  exact confError_nonneg b _ _ ew sw c (hw c hc) he hs

theorem confSum_zero_iff (b : Build) (slope : Conf K → Entry K → K) (energy : Conf K → K) (ew sw : K)
    (confs : List (Conf K)) (hw : ∀ c ∈ confs, 0 < c.weight) (he : 0 < ew) (hs : 0 < sw) :
    (confs.map fun c => confError b (slope c) (energy c) ew sw c).sum = 0 ↔
    ∀ c ∈ confs,
      (c.uf = true → ∀ j a, c.atoms[j]? = some a → (b.contrib = true → a.contrib = true) →
        ∀ k, deviation b (slope c) c a (c.start + j) k = 0) ∧
      energyDev (energy c) c = 0 ∧
      (b.stress = true ∧ c.uf = true ∧ c.us = true → ∀ k, stressDev (slope c) c k = 0) := by
  rw [list_sum_eq_zero_iff (by
    intro x hx
    obtain ⟨c, hc, rfl⟩ := List.mem_map.1 hx
    exact confError_nonneg b _ _ ew sw c (hw c hc).le he.le hs.le)]
  simp only [List.mem_map, forall_exists_index, and_imp, forall_apply_eq_imp_iff₂]
  apply forall₂_congr
  intro c hc
  have hwc := hw c hc
  have h1 := forceError_nonneg b (slope c) c
  have h2 : 0 ≤ ∑ k : Fin 6, stressDev (slope c) c k ^ 2 := Finset.sum_nonneg fun k _ => sq_nonneg _
  have h3 := sq_nonneg (energyDev (energy c) c)
  have a1 : 0 ≤ (if c.uf = true then c.weight * forceError b (slope c) c else 0) := by
    split
    · exact mul_nonneg hwc.le h1
    · exact le_refl _
  have a2 : 0 ≤ c.weight * ew * energyDev (energy c) c ^ 2 := by positivity
  have a3 : 0 ≤ (if b.stress = true ∧ c.uf = true ∧ c.us = true then
    c.weight * sw * ∑ k : Fin 6, stressDev (slope c) c k ^ 2 else 0) := by
    split
    · positivity
    · exact le_refl _
  unfold confError
  rw [add_eq_zero_iff_of_nonneg (add_nonneg a1 a2) a3, add_eq_zero_iff_of_nonneg a1 a2, and_assoc]
  refine and_congr ?_ (and_congr ?_ ?_)
  · by_cases hu : c.uf = true
    · simp only [hu, if_true, true_imp_iff, mul_eq_zero, hwc.ne', false_or]
      unfold forceError
      rw [list_sum_eq_zero_iff (by
        intro x hx
        obtain ⟨ak, -, rfl⟩ := List.mem_map.1 hx
        split
        · exact le_refl _
        · exact Finset.sum_nonneg fun k _ => sq_nonneg _)]
      rw [List.forall_mem_map]
      constructor
      · intro h j a hj hcon k
        have := h (a, j) (List.mem_zipIdx_iff_getElem?.2 hj)
        rw [if_neg (by rintro ⟨h1, h2⟩; rw [hcon h1] at h2; cases h2),
          Finset.sum_eq_zero_iff_of_nonneg (fun k _ => sq_nonneg _)] at this
        exact pow_eq_zero_iff (two_ne_zero) |>.1 (this k (Finset.mem_univ k))
      · rintro h ⟨a, j⟩ hj
        rw [List.mem_zipIdx_iff_getElem?] at hj
        split
        · rfl
        · rename_i hcon
          apply Finset.sum_eq_zero
          intro k _
          rw [h j a hj (fun hb => by
            cases ha : a.contrib with
            | true => rfl
            | false => exact absurd ⟨hb, ha⟩ hcon) k]
          ring
    · simp [hu]
  · rw [mul_eq_zero, pow_eq_zero_iff two_ne_zero]
    simp [hwc.ne', he.ne']
  · by_cases hu : b.stress = true ∧ c.uf = true ∧ c.us = true
    · rw [if_pos hu, mul_eq_zero, Finset.sum_eq_zero_iff_of_nonneg (fun k _ => sq_nonneg _)]
      simp only [mul_eq_zero, hwc.ne', hs.ne', or_self, false_or, Finset.mem_univ, true_imp_iff,
        pow_eq_zero_iff two_ne_zero]
      exact ⟨fun h _ _ _ => h, fun h => h hu.1 hu.2.1 hu.2.2⟩
    · rw [if_neg hu]
      exact ⟨fun _ h1 h2 h3 => absurd ⟨h1, h2, h3⟩ hu, fun _ => rfl⟩

theorem totalPenalty_nonneg (w : K) (qs : List (Bound K)) (eopp univ : List (Nat × K)) (hw : 0 ≤ w) :
    0 ≤ totalPenalty w qs eopp univ := by
  unfold totalPenalty
  refine add_nonneg (add_nonneg ?_ ?_) ?_ <;> apply List.sum_nonneg <;> intro x hx <;>
    obtain ⟨q, -, rfl⟩ := List.mem_map.1 hx
  · unfold parPenalty
    split
    · positivity
    · split
      · positivity
      · exact le_refl _
  · unfold eoppPenalty
    split
    · positivity
    · exact le_refl _
  · unfold universalPenalty
    split
    · positivity
    · exact le_refl _

/-- Non-negative weights: the value returned by the pair routine is not negative. -/
theorem C18_pair_nonneg (b : Build) (P : Pots K) (ew sw w : K) (qs : List (Bound K))
    (eopp univ : List (Nat × K)) (confs : List (Conf K)) (hh : ∀ c ∈ confs, HalfList c)
    (hw : ∀ c ∈ confs, 0 ≤ c.weight) (he : 0 ≤ ew) (hs : 0 ≤ sw) (hp : 0 ≤ w) (v v' : PairVec K) (y : K)
    (hr : pairObjective b P ew sw w qs eopp univ confs v = .ok (v', y)) : 0 ≤ y := by
  have h0 := confSum_nonneg b (fun _ => pairSlope P) (pairTotal P) ew sw confs hw he hs
  cases hb : b.apot with
  | true =>
    rw [C18_pair_apot b hb P ew sw w qs eopp univ confs hh v v' y hr]
    exact add_nonneg h0 (totalPenalty_nonneg w qs eopp univ hp)
  | false =>
    obtain ⟨v'', h⟩ := C18_pair b hb P ew sw w qs eopp univ confs hh v
    rw [h] at hr
    simp only [Except.ok.injEq, Prod.mk.injEq] at hr
    rw [← hr.2]
    exact h0

/-- Positive weights, tabulated pair potentials: the returned value is zero exactly if all deviations
that count vanish: the forces of contributing atoms where forces are used, all energies, the stresses
where they are used. -/
theorem C18_pair_zero_iff (b : Build) (hb : b.apot = false) (P : Pots K) (ew sw w : K) (qs : List (Bound K))
    (eopp univ : List (Nat × K)) (confs : List (Conf K)) (hh : ∀ c ∈ confs, HalfList c)
    (hw : ∀ c ∈ confs, 0 < c.weight) (he : 0 < ew) (hs : 0 < sw) (v v' : PairVec K) (y : K)
    (hr : pairObjective b P ew sw w qs eopp univ confs v = .ok (v', y)) :
    y = 0 ↔ ∀ c ∈ confs,
      (c.uf = true → ∀ j a, c.atoms[j]? = some a → (b.contrib = true → a.contrib = true) →
        ∀ k, deviation b (pairSlope P) c a (c.start + j) k = 0) ∧
      energyDev (pairTotal P c) c = 0 ∧
      (b.stress = true ∧ c.uf = true ∧ c.us = true → ∀ k, stressDev (pairSlope P) c k = 0) := by
  obtain ⟨v'', h⟩ := C18_pair b hb P ew sw w qs eopp univ confs hh v
  rw [h] at hr
  simp only [Except.ok.injEq, Prod.mk.injEq] at hr
  rw [← hr.2]
  exact confSum_zero_iff b (fun _ => pairSlope P) (pairTotal P) ew sw confs hw he hs

theorem limitError_nonneg (b : Build) (P : EamPots K) (c : Conf K) (hw : 0 ≤ c.weight) :
    0 ≤ limitError b P c := by
  unfold limitError
  split
  · positivity
  · exact le_refl _

theorem gaugeError_nonneg (b : Build) (P : EamPots K) (dummy0 : Nat → K) (natoms : Nat)
    (confs : List (Conf K)) : 0 ≤ gaugeError b P dummy0 natoms confs := by
  unfold gaugeError
  split
  · exact le_refl _
  · split
    · exact Finset.sum_nonneg fun g _ => sq_nonneg _
    · refine add_nonneg (Finset.sum_nonneg fun g _ => sq_nonneg _) ?_
      split
      · exact sq_nonneg _
      · exact le_refl _

/-- Non-negative weights: the value returned by the EAM routine is not negative. -/
theorem C18_eam_nonneg (b : Build) (P : EamPots K) (ew sw w : K) (qs : List (Bound K))
    (eopp univ : List (Nat × K)) (dummy0 : Nat → K) (natoms : Nat) (confs : List (Conf K))
    (hh : ∀ c ∈ confs, HalfList c ∧ EamColumns P c) (hw : ∀ c ∈ confs, 0 ≤ c.weight) (he : 0 ≤ ew)
    (hs : 0 ≤ sw) (hp : 0 ≤ w) (v v' : EamVec K) (y : K)
    (hr : eamObjective b P ew sw w qs eopp univ dummy0 natoms confs v = .ok (v', y)) : 0 ≤ y := by
  rw [C18_eam b P ew sw w qs eopp univ dummy0 natoms confs hh v v' y hr]
  refine add_nonneg (add_nonneg (List.sum_nonneg ?_) ?_) (gaugeError_nonneg b P dummy0 natoms confs)
  · intro x hx
    obtain ⟨c, hc, rfl⟩ := List.mem_map.1 hx
    exact add_nonneg (confError_nonneg b _ _ ew sw c (hw c hc) he hs) (limitError_nonneg b P c (hw c hc))
  · split
    · exact totalPenalty_nonneg w qs eopp univ hp
    · exact le_refl _

/-- Without gauge and limiting constraints and punishments (`NOPUNISH`, tabulated, no `RESCALE`) and with
positive weights the value returned by the EAM routine is zero exactly if all deviations vanish. -/
theorem C18_eam_zero_iff (b : Build) (hb : b.apot = false) (hn : b.noPunish = true) (hre : b.rescale = false)
    (P : EamPots K) (ew sw w : K) (qs : List (Bound K))
    (eopp univ : List (Nat × K)) (dummy0 : Nat → K) (natoms : Nat) (confs : List (Conf K))
    (hh : ∀ c ∈ confs, HalfList c ∧ EamColumns P c) (hw : ∀ c ∈ confs, 0 < c.weight) (he : 0 < ew)
    (hs : 0 < sw) (v v' : EamVec K) (y : K)
    (hr : eamObjective b P ew sw w qs eopp univ dummy0 natoms confs v = .ok (v', y)) :
    y = 0 ↔ ∀ c ∈ confs,
      (c.uf = true → ∀ j a, c.atoms[j]? = some a → (b.contrib = true → a.contrib = true) →
        ∀ k, deviation b (eamFullSlope b P c) c a (c.start + j) k = 0) ∧
      energyDev (eamTotal b P c) c = 0 ∧
      (b.stress = true ∧ c.uf = true ∧ c.us = true → ∀ k, stressDev (eamFullSlope b P c) c k = 0) := by
  rw [C18_eam b P ew sw w qs eopp univ dummy0 natoms confs hh v v' y hr]
  rw [if_neg (by simp [hb]), add_zero]
  unfold gaugeError
  rw [if_pos hn, add_zero]
  have : ∀ c, limitError b P c = 0 := fun c => by simp [limitError, hre]
  simp only [this, add_zero]
  exact confSum_zero_iff b (eamFullSlope b P) (eamTotal b P) ew sw confs hw he hs

/-- The example data: hypotheses met, value positive. -/
example : (∀ c ∈ [exConf, exConf2], 0 < c.weight) ∧
    (match pairObjective exBuild exPots.toPots 1 1 1 [] [] [] [exConf, exConf2]
        ⟨⟨0, 0, 0, 0⟩, 0, 0⟩ with
     | .ok (_, y) => decide (0 < y) | .error _ => false) = true := by decide +kernel

example : ∃ v' y, eamObjective exBuild exPots 1 1 1 [] [] [] (fun _ => 0) 3 [exConf, exConf2]
    ⟨⟨⟨0, 0, 0, 0⟩, 0, 0⟩, 0, 0, 0⟩ = .ok (v', y) := ⟨_, _, rfl⟩

/-- A parameter 1/2 above its upper bound costs `10e6/4`. -/
example : (match pairObjective { exBuild with apot := true } exPots.toPots 1 1 1
        [⟨5 / 2, 0, 2⟩, ⟨1, 0, 2⟩] [(0, -1 / 2)] [(1, 1)] [] ⟨⟨0, 0, 0, 0⟩, 0, 0⟩ with
     | .ok (_, y) => y | .error _ => 0) = (10000000 : ℚ) / 4 + 1 / 4 := by decide +kernel

end Verif.Props
