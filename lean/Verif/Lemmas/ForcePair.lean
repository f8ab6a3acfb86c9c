import Verif.Lemmas.Force
import Mathlib.Algebra.BigOperators.Ring.List

set_option linter.unusedSectionVars false

namespace Verif.Force

open Verif.Spec

variable {K : Type*} [Field K] [LinearOrder K] [IsStrictOrderedRing K]

/-- Sum of the contributions of all entries to atom `a`. -/
theorem sum_contr (uf : Bool) (slope : Entry K → K) (c : Conf K) (a : Nat) :
    ((entriesFrom c.start c.atoms).map (contr (tmpOf uf slope) a)).sum =
      if uf then totalForce slope c a else 0 := by
  cases uf
  · rw [List.map_congr_left (fun e _ => contr_tmpOf_false slope e a)]
    simp
  · rw [List.map_congr_left (fun e _ => contr_tmpOf slope e a)]
    rfl

theorem totalForce_outside (slope : Entry K → K) {c : Conf K} (hh : HalfList c) {a : Nat}
    (ha : a < c.start ∨ c.start + c.atoms.length ≤ a) : totalForce slope c a = 0 := by
  have := sum_contr true slope c a
  rw [if_pos rfl] at this
  rw [← this]
  refine contr_sum_eq_zero _ _ _ ?_
  intro e he
  have h1 := hh e he
  have h2 := entriesFrom_ge he
  omega

/-- Stress of the configuration before normalisation. -/
def rawStress (b : Build) (slope : Entry K → K) (c : Conf K) : Fin 6 → K :=
  if c.uf && (b.stress && c.us) then totalStress slope c else 0

theorem sum_stressOf (b : Build) (slope : Entry K → K) (c : Conf K) :
    ((entriesFrom c.start c.atoms).map (stressOf b c.uf c.us slope)).sum = rawStress b slope c := by
  unfold rawStress stressOf
  split
  · rfl
  · simp

/-- Result of the atom loop of the pair routine. -/
theorem pairLoop_spec (b : Build) (P : Pots K) (c : Conf K) (hh : HalfList c) (f : Nat → V3 K)
    (e0 : K) :
    let r := pairLoop b P c ⟨resetForces c f, e0, 0, 0⟩
    r.energy = e0 + totalPairEnergy P c ∧
    r.stress = rawStress b (pairSlope P) c ∧
    (∀ x, (x < c.start ∨ c.start + c.atoms.length ≤ x) → r.force x = f x) ∧
    (∀ k a, c.atoms[k]? = some a → r.force (c.start + k) =
      if c.uf then scaled b true a (totalForce (pairSlope P) c (c.start + k) - c.force0 (c.start + k))
      else 0) ∧
    r.err = (c.atoms.zipIdx.map fun ak => atomErr b c ak.1 (r.force (c.start + ak.2))).sum := by
  have hs := forceLoop_spec (b := b) (c := c) (pairNeigh_scatters b P c.uf c.us) c.atoms c.start
    ⟨resetForces c f, e0, 0, 0⟩ (fun e he => (hh e he).1)
  obtain ⟨q1, q2, q3, q4, q5⟩ := hs
  refine ⟨q1, ?_, ?_, ?_, ?_⟩
  · refine q2.trans ?_
    rw [sum_stressOf]; simp
  · intro x hx
    refine (q3 x hx).trans ?_
    rw [sum_contr]
    have h1 : resetForces c f x = f x := by
      unfold resetForces; rw [if_neg (by omega)]
    simp only [h1]
    split
    · rw [totalForce_outside _ hh hx, add_zero]
    · rw [add_zero]
  · intro k a hk
    refine (q4 k a hk).trans ?_
    have hlt : k < c.atoms.length := (List.getElem?_eq_some_iff.1 hk).1
    rw [sum_contr]
    have h1 : resetForces c f (c.start + k) = if c.uf then -c.force0 (c.start + k) else 0 := by
      unfold resetForces; rw [if_pos (by omega)]
    simp only [h1]
    by_cases hu : c.uf = true
    · simp only [hu, if_true]
      congr 1
      abel
    · simp [hu, scaled]
  · refine q5.trans ?_
    simp only [zero_add]
    rfl

/-- Result for one configuration. -/
theorem pairConf_spec (b : Build) (P : Pots K) (ew sw : K) (ci : Nat) (c : Conf K) (hh : HalfList c)
    (fv : FV K) :
    let r := pairConf b P ew sw ci c fv
    (∀ x, (x < c.start ∨ c.start + c.atoms.length ≤ x) → r.1.force x = fv.force x) ∧
    (∀ k a, c.atoms[k]? = some a → r.1.force (c.start + k) =
      if c.uf then scaled b true a (totalForce (pairSlope P) c (c.start + k) - c.force0 (c.start + k))
      else 0) ∧
    (r.1.energy = Function.update fv.energy ci
      ((c.chem + totalPairEnergy P c) / (c.atoms.length : K) - c.energy0)) ∧
    (r.1.stress = if b.stress then Function.update fv.stress ci
        (if c.uf && c.us then fun k => totalStress (pairSlope P) c k / c.vol - c.stress0 k else 0)
      else fv.stress) ∧
    r.1.limit = fv.limit ∧
    r.2 = (c.atoms.zipIdx.map fun ak => atomErr b c ak.1 (r.1.force (c.start + ak.2))).sum +
      c.weight * ew * ((c.chem + totalPairEnergy P c) / (c.atoms.length : K) - c.energy0) ^ 2 +
      (if b.stress && c.uf && c.us then
        ∑ k : Fin 6, c.weight * sw * (totalStress (pairSlope P) c k / c.vol - c.stress0 k) ^ 2
       else 0) := by
  obtain ⟨q1, q2, q3, q4, q5⟩ := pairLoop_spec b P c hh fv.force c.chem
  intro r
  have hforce : r.1.force = (pairLoop b P c ⟨resetForces c fv.force, c.chem, 0, 0⟩).force := by
    simp only [r, pairConf, closeConf]
    split <;> rfl
  refine ⟨fun x hx => by rw [hforce]; exact q3 x hx, fun k a hk => by rw [hforce]; exact q4 k a hk,
    ?_, ?_, rfl, ?_⟩
  · simp only [r, pairConf, closeConf]
    split <;> simp only [q1]
  · simp only [r, pairConf, closeConf]
    by_cases h1 : b.stress = true
    · by_cases h2 : c.uf = true
      · by_cases h3 : c.us = true
        · simp [h1, h2, h3, q2, rawStress]
        · simp [h1, h2, h3, q2, rawStress]
      · simp [h1, h2, q2, rawStress]
    · simp [h1]
  · rw [hforce, ← q5]
    simp only [r, pairConf, closeConf, q1]
    by_cases h1 : (b.stress && c.uf && c.us) = true
    · have h2 : c.uf && (b.stress && c.us) := by
        simp only [Bool.and_eq_true] at h1 ⊢; tauto
      simp only [h1, if_true, q2, rawStress, h2, List.sum_ofFn, pow_two]
    · simp only [h1, pow_two]
      simp

end Verif.Force
