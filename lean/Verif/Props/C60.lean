/-
C60  The vector of residuals and the objective.
-/
import Verif.Props.C18

namespace Verif.Props

open Verif.Force Verif.Spec

variable {K : Type*} [Field K] [LinearOrder K] [IsStrictOrderedRing K]

/-! ### Specification -/

/-- Sum of the squared entries of the force vector which belong to configuration number `k`: forces, energy, stresses. -/
def entrySquares (b : Build) (v : FV K) (k : Nat) (c : Conf K) : K :=
  (∑ i ∈ Finset.range c.atoms.length, ∑ x : Fin 3, v.force (c.start + i) x ^ 2) + v.energy k ^ 2 +
    if b.stress = true then ∑ x : Fin 6, v.stress k x ^ 2 else 0

/-- All weights are one and all atoms contribute. -/
structure UnitWeights (b : Build) (ew sw : K) (confs : List (Conf K)) : Prop where
  conf : ∀ c ∈ confs, c.weight = 1
  energy : ew = 1
  stress : b.stress = true → sw = 1
  contrib : b.contrib = true → ∀ c ∈ confs, ∀ a ∈ c.atoms, a.contrib = true

/-! ### Proofs -/

theorem map_zipIdx_congr {α β : Type*} (l : List α) (f g : α × Nat → β) (h : ∀ (k : Nat) (a : α), l[k]? = some a → f (a, k) = g (a, k)) :
    l.zipIdx.map f = l.zipIdx.map g := by
  refine List.map_congr_left fun ak hak => ?_
  obtain ⟨a, k⟩ := ak
  exact h k a (List.mem_zipIdx_iff_getElem?.1 hak)

omit [LinearOrder K] [IsStrictOrderedRing K] in
theorem sum_map_zipIdx {α : Type*} (l : List α) (f : α → K) : (l.map f).sum = (l.zipIdx.map fun ak => f ak.1).sum := by
  congr 1
  have : l.zipIdx.map (fun ak => f ak.1) = (l.zipIdx.map Prod.fst).map f := by rw [List.map_map]; rfl
  rw [this, List.zipIdx_map_fst]

/-- One configuration. -/
theorem entry_conf (b : Build) (slope : Entry K → K) (energy ew sw : K) (c : Conf K) (v : FV K) (k : Nat) (hw : c.weight = 1)
    (he : ew = 1) (hs : b.stress = true → sw = 1) (hc : b.contrib = true → ∀ a ∈ c.atoms, a.contrib = true)
    (h1 : ∀ j a, c.atoms[j]? = some a → v.force (c.start + j) = if c.uf = true then deviation b slope c a (c.start + j) else 0)
    (h2 : v.energy k = energyDev energy c)
    (h3 : b.stress = true → v.stress k = if c.uf = true ∧ c.us = true then stressDev slope c else 0) :
    confError b slope energy ew sw c = entrySquares b v k c := by
  unfold confError entrySquares
  have e1 : (if c.uf = true then c.weight * forceError b slope c else 0) =
      ∑ i ∈ Finset.range c.atoms.length, ∑ x : Fin 3, v.force (c.start + i) x ^ 2 := by
    rw [← sum_zipIdx_range c.atoms (fun i => ∑ x : Fin 3, v.force (c.start + i) x ^ 2)]
    by_cases hu : c.uf = true
    · rw [if_pos hu, hw, one_mul]
      unfold forceError
      congr 1
      refine map_zipIdx_congr _ _ _ fun j a hj => ?_
      have hcon : ¬ (b.contrib = true ∧ a.contrib = false) := by
        rintro ⟨ha, hb⟩
        rw [hc ha a (List.mem_of_getElem? hj)] at hb
        cases hb
      simp only [if_neg hcon, h1 j a hj, if_pos hu]
    · rw [if_neg hu]
      symm
      apply List.sum_eq_zero
      intro y hy
      obtain ⟨⟨a, j⟩, haj, rfl⟩ := List.mem_map.1 hy
      have hj := List.mem_zipIdx_iff_getElem?.1 haj
      simp only [h1 j a hj, if_neg hu]
      simp
  have e3 : (if b.stress = true ∧ c.uf = true ∧ c.us = true then c.weight * sw * ∑ k : Fin 6, stressDev slope c k ^ 2 else 0) =
      if b.stress = true then ∑ x : Fin 6, v.stress k x ^ 2 else 0 := by
    by_cases hb : b.stress = true
    · rw [if_pos hb, h3 hb, hs hb, hw]
      by_cases hu : c.uf = true ∧ c.us = true
      · rw [if_pos ⟨hb, hu⟩, if_pos hu, mul_one, one_mul]
      · rw [if_neg (fun h => hu h.2), if_neg hu]
        simp
    · rw [if_neg hb, if_neg (fun h => hb h.1)]
  rw [e1, e3, h2, hw, he]
  ring

/-- **C60 for tabulated pair potentials with unit weights**: the returned value is the sum of the squares of the force vector.
Missing for the full claim: other weights (`C60_violated`) and punishments (`C60_punish_violated`). -/
theorem C60_pair_partial (b : Build) (hb : b.apot = false) (P : Pots K) (ew sw w : K) (qs : List (Bound K)) (eopp univ : List (Nat × K))
    (confs : List (Conf K)) (hn : Numbered confs) (hh : ∀ c ∈ confs, HalfList c) (hu : UnitWeights b ew sw confs) (v v' : PairVec K)
    (y : K) (hr : pairObjective b P ew sw w qs eopp univ confs v = .ok (v', y)) :
    y = (confs.zipIdx.map fun ck => entrySquares b v'.fv ck.2 ck.1).sum := by
  have hv : v'.fv = (confLoop (pairConf b P ew sw) confs 0 (v.fv, 0)).1 := by
    unfold pairObjective at hr
    rw [if_neg (by simp [hb])] at hr
    simp only [Except.ok.injEq, Prod.mk.injEq] at hr
    rw [← hr.1]
  obtain ⟨v'', h''⟩ := C18_pair b hb P ew sw w qs eopp univ confs hh v
  rw [hr] at h''
  simp only [Except.ok.injEq, Prod.mk.injEq] at h''
  rw [h''.2, sum_map_zipIdx]
  congr 1
  refine map_zipIdx_congr _ _ _ fun k c hk => ?_
  have hmem := List.mem_of_getElem? hk
  obtain ⟨c1, c2, c3⟩ := pairRun_cells b P ew sw confs hn hh v.fv k c hk
  rw [← hv] at c1 c2 c3
  exact entry_conf b (pairSlope P) (pairTotal P c) ew sw c v'.fv k (hu.conf c hmem) hu.energy hu.stress
    (fun h => hu.contrib h c hmem) c1 c2 c3

/-- The dummy constraints: their squares are in the objective, too. -/
theorem dummy_squares (b : Build) (hb : b.noPunish = false) (P : EamPots K) (hn : 0 < P.ntypes) (dummy0 : Nat → K) (natoms : Nat) (rhoSum : K)
    (dummy : Nat → K) : (eamDummies b P dummy0 natoms rhoSum dummy).2 =
      ∑ i ∈ Finset.range (2 * P.ntypes), (eamDummies b P dummy0 natoms rhoSum dummy).1 i ^ 2 := by
  unfold eamDummies
  rw [if_neg (by simp [hb])]
  simp only
  rw [two_mul, Finset.sum_range_add]
  have hr : ∀ f : Nat → K, ((List.range P.ntypes).map f).sum = ∑ g ∈ Finset.range P.ntypes, f g := by
    intro f
    rw [← List.sum_toFinset f List.nodup_range, List.toFinset_range]
  rw [hr]
  congr 1
  · refine Finset.sum_congr rfl fun i hi => ?_
    rw [if_pos (Finset.mem_range.1 hi)]
    ring
  · rw [Finset.sum_eq_single_of_mem 0 (Finset.mem_range.2 hn)]
    · rw [add_zero, if_neg (lt_irrefl _)]
      unfold dummyMean
      by_cases h : b.rescale = false ∧ 0 < rhoSum
      · rw [if_pos (by simp [h.1, h.2]), if_pos ⟨rfl, h⟩]
        ring
      · rw [if_neg (by simpa using h), if_neg (fun h' => h h'.2), if_pos (by omega)]
        ring
    · intro i hi h0
      rw [if_neg (by omega), if_neg (by omega), if_pos (by have := Finset.mem_range.1 hi; omega)]
      ring

/-- **C60 for tabulated EAM potentials with unit weights**, without `RESCALE`: entries of the configurations and dummy constraints. -/
theorem C60_eam_partial (b : Build) (hb : b.apot = false) (hre : b.rescale = false) (hno : b.noPunish = false) (P : EamPots K)
    (hnt : 0 < P.ntypes) (ew sw w : K) (qs : List (Bound K)) (eopp univ : List (Nat × K)) (dummy0 : Nat → K) (natoms : Nat)
    (confs : List (Conf K)) (hn : Numbered confs) (hh : ∀ c ∈ confs, HalfList c ∧ EamColumns P c) (hu : UnitWeights b ew sw confs)
    (v v' : EamVec K) (y : K) (hr : eamObjective b P ew sw w qs eopp univ dummy0 natoms confs v = .ok (v', y)) :
    y = (confs.zipIdx.map fun ck => entrySquares b v'.st.fv ck.2 ck.1).sum + ∑ i ∈ Finset.range (2 * P.ntypes), v'.dummy i ^ 2 := by
  have hy := C18_eam b P ew sw w qs eopp univ dummy0 natoms confs hh v v' y hr
  unfold eamObjective at hr
  simp only [eamLoopConfs_err b P ew sw confs hh] at hr
  rw [if_neg (by simp [hb])] at hr
  simp only [Except.ok.injEq, Prod.mk.injEq] at hr
  have hst : v'.st = (confLoop (eamConf b P ew sw) confs 0 (v.st, (0, 0))).1 := by rw [← hr.1]
  have hd : gaugeError b P dummy0 natoms confs = ∑ i ∈ Finset.range (2 * P.ntypes), v'.dummy i ^ 2 := by
    rw [← eamDummies_err b P dummy0 natoms confs v.dummy, dummy_squares b hno P hnt, ← hr.1]
  rw [hy, if_neg (by simp [hb]), add_zero, hd, sum_map_zipIdx]
  congr 2
  refine map_zipIdx_congr _ _ _ fun k c hk => ?_
  have hmem := List.mem_of_getElem? hk
  obtain ⟨c1, c2, c3, -⟩ := eamRun_cells b P ew sw confs hn hh v.st k c hk
  rw [← hst] at c1 c2 c3
  have hl : limitError b P c = 0 := by unfold limitError; rw [if_neg (by simp [hre])]
  simp only [hl, add_zero]
  exact entry_conf b (eamFullSlope b P c) (eamTotal b P c) ew sw c v'.st.fv k (hu.conf c hmem) hu.energy hu.stress
    (fun h => hu.contrib h c hmem) c1 c2 c3

/-- Unit weights. -/
def unitConf : Conf ℚ := { exConf with weight := 1 }

def zeroVec : PairVec ℚ := ⟨⟨fun _ => 0, fun _ => 0, fun _ => 0, fun _ => 0⟩, fun _ => 0, fun _ => 0⟩

theorem unit_weights : UnitWeights exBuild 1 1 [unitConf, exConf2] := by
  refine ⟨?_, rfl, fun _ => rfl, fun h => by cases h⟩
  intro c hc
  rcases List.mem_cons.1 hc with rfl | hc
  · rfl
  · rcases List.mem_cons.1 hc with rfl | hc
    · rfl
    · cases hc

example : UnitWeights exBuild 1 1 [unitConf, exConf2] ∧
    (match pairObjective exBuild exPots.toPots 1 1 0 [] [] [] [unitConf, exConf2] zeroVec with
      | .ok (v', y) => decide (y = ([unitConf, exConf2].zipIdx.map fun ck => entrySquares exBuild v'.fv ck.2 ck.1).sum ∧ 1 < y)
      | .error _ => false) = true := ⟨unit_weights, by decide +kernel⟩

/-- **C60 is violated for weights other than one**: the optimiser minimises the weighted sum, but linearises entries of the force
vector which are not weighted. -/
theorem C60_violated : ∃ v' y, pairObjective exBuild exPots.toPots 1 1 0 [] [] [] [exConf, exConf2] zeroVec = .ok (v', y) ∧
    y ≠ ([exConf, exConf2].zipIdx.map fun ck => entrySquares exBuild v'.fv ck.2 ck.1).sum := by
  have h : (match pairObjective exBuild exPots.toPots 1 1 0 [] [] [] [exConf, exConf2] zeroVec with
      | .ok (v', y) => decide (y ≠ ([exConf, exConf2].zipIdx.map fun ck => entrySquares exBuild v'.fv ck.2 ck.1).sum)
      | .error _ => false) = true := by decide +kernel
  cases hr : pairObjective exBuild exPots.toPots 1 1 0 [] [] [] [exConf, exConf2] zeroVec with
  | error e => rw [hr] at h; cases h
  | ok r =>
    rw [hr] at h
    exact ⟨r.1, r.2, rfl, by simpa using h⟩

/-! ### Punishments -/

/-- What is stored for a parameter outside of its bounds is what is added to the objective; parameters inside store nothing. -/
theorem punishPars_par (qs : List (Bound K)) : ∀ (n : Nat) (s : Pun K) (i : Nat),
    (punishPars qs n s).par i = match (if n ≤ i then qs[i - n]? else none) with
      | some q => if q.value < q.lo ∨ q.hi < q.value then parPenalty q else s.par i
      | none => s.par i := by
  induction qs with
  | nil => intro n s i; simp [punishPars]
  | cons q qs ih =>
    intro n s i
    rw [punishPars, ih]
    have hother : ∀ j, j ≠ n → (punishPar n q s).par j = s.par j := by
      intro j hj
      unfold punishPar
      split
      · exact Function.update_of_ne hj ..
      · split
        · exact Function.update_of_ne hj ..
        · rfl
    by_cases h1 : n + 1 ≤ i
    · rw [if_pos h1, if_pos (by omega), hother i (by omega)]
      rw [show i - n = (i - (n + 1)) + 1 by omega, List.getElem?_cons_succ]
    · rw [if_neg h1]
      by_cases h2 : i = n
      · subst h2
        rw [if_pos le_rfl, Nat.sub_self, List.getElem?_cons_zero]
        simp only
        unfold punishPar parPenalty apotPunishConst
        by_cases h3 : q.value < q.lo
        · simp only [if_pos h3, Function.update_self, h3, true_or, if_true]
          ring
        · by_cases h4 : q.hi < q.value
          · simp only [if_neg h3, if_pos h4, Function.update_self, h4, or_true, if_true]
            ring
          · simp only [if_neg h3, if_neg h4, h3, h4, or_self, if_false]
      · rw [if_neg (by omega), hother i h2]

omit [IsStrictOrderedRing K] in
theorem punishEopp_par (w : K) (l : List (Nat × K)) (s : Pun K) : (l.foldl (punishEopp w) s).par = s.par := by
  induction l generalizing s with
  | nil => rfl
  | cons p l ih =>
    rw [List.foldl_cons, ih]
    unfold punishEopp
    split <;> rfl

omit [IsStrictOrderedRing K] in
theorem punishUniversal_par (w : K) (l : List (Nat × K)) (s p : Pun K) (h : l.foldlM (punishUniversal w) s = .ok p) : p.par = s.par := by
  induction l generalizing s with
  | nil => cases h; rfl
  | cons q l ih =>
    rw [List.foldlM_cons] at h
    cases hq : punishUniversal w s q with
    | error e => rw [hq] at h; cases h
    | ok s' =>
      rw [hq] at h
      rw [ih s' h]
      unfold punishUniversal at hq
      split at hq
      · cases hc : cdiv w (q.2 * q.2) with
        | error e => rw [hc] at hq; cases hq
        | ok v => rw [hc] at hq; cases hq; rfl
      · cases hq; rfl

/-- **C60, punishments.** For a parameter outside of its bounds the force vector holds the punishment, which is added to the objective
(`C18_pair_apot`); so the objective contains the entry itself and not its square. -/
theorem C60_punish (w : K) (qs : List (Bound K)) (eopp univ : List (Nat × K)) (par pot : Nat → K) (p : Pun K)
    (h : apotPunish w qs eopp univ par pot = .ok p) (i : Nat) (q : Bound K) (hi : qs[i]? = some q) (hq : q.value < q.lo ∨ q.hi < q.value) :
    p.par i = parPenalty q := by
  unfold apotPunish at h
  rw [punishUniversal_par w univ _ p h, punishEopp_par, punishPars_par, if_pos (Nat.zero_le i), Nat.sub_zero, hi]
  simp only [if_pos hq]

/-- **C60 is violated by punishments**: objective of an empty data set with one parameter outside of its bounds. -/
theorem C60_punish_violated : ∃ v' y, pairObjective { exBuild with apot := true } exPots.toPots 1 1 0 [⟨5, 0, 2⟩] [] [] [] zeroVec = .ok (v', y) ∧
    v'.par 0 = y ∧ 1 < y ∧ (0 : ℚ) + v'.par 0 ^ 2 ≠ y := by
  have h : (match pairObjective { exBuild with apot := true } exPots.toPots 1 1 0 [⟨5, 0, 2⟩] [] [] [] zeroVec with
      | .ok (v', y) => decide (v'.par 0 = y ∧ 1 < y ∧ (0 : ℚ) + v'.par 0 ^ 2 ≠ y)
      | .error _ => false) = true := by decide +kernel
  cases hr : pairObjective { exBuild with apot := true } exPots.toPots 1 1 0 [⟨5, 0, 2⟩] [] [] [] zeroVec with
  | error e => rw [hr] at h; cases h
  | ok r =>
    rw [hr] at h
    exact ⟨r.1, r.2, rfl, by simpa using h⟩

end Verif.Props
