/-
C74  The error report: the sums of force, energy and stress errors and the punishments add up to the objective, the lines show the
computed quantities, the root mean squares are those of the fitted data.
-/
import Verif.Lemmas.Errors
import Verif.Props.C16
import Verif.Props.C60
import Verif.Props.C63

namespace Verif.Props

open Verif.Force Verif.Spec

variable {K : Type*} [Field K] [LinearOrder K] [IsStrictOrderedRing K]

omit [LinearOrder K] [IsStrictOrderedRing K] in
theorem sum_zipIdx_add {α : Type*} (l : List α) (f g : α → K) :
    (l.map fun a => f a + g a).sum = (l.map f).sum + (l.map g).sum := by
  induction l with
  | nil => simp
  | cons a l ih => simp only [List.map_cons, List.sum_cons, ih]; ring

/-! ### Routines with half neighbour lists -/

/-- The report of a force vector which holds the deviations of the used data and zeros elsewhere. -/
theorem report_cells (b : Build) (opt : Bool) (slope : Conf K → Entry K → K) (energy : Conf K → K) (ew sw : K) (confs : List (Conf K))
    (hn : Numbered confs) (v : FV K) (tot : K)
    (hcell : ∀ k c, confs[k]? = some c →
      (∀ j a, c.atoms[j]? = some a → v.force (c.start + j) = if c.uf = true then deviation b (slope c) c a (c.start + j) else 0) ∧
      v.energy k = energyDev (energy c) c ∧
      (b.stress = true → v.stress k = if c.uf = true ∧ c.us = true then stressDev (slope c) c else 0)) :
    let r := writeErrors b opt ew sw confs v tot
    r.force = (confs.map fun c => if c.uf = true then c.weight * forceError b (slope c) c else 0).sum ∧
    r.energy = (confs.map fun c => c.weight * ew * energyDev (energy c) c ^ 2).sum ∧
    r.stress = (confs.map fun c => if b.stress = true ∧ c.uf = true ∧ c.us = true then
      c.weight * sw * ∑ k : Fin 6, stressDev (slope c) c k ^ 2 else 0).sum ∧
    r.force + r.energy + r.stress = (confs.map fun c => confError b (slope c) (energy c) ew sw c).sum := by
  intro r
  have h1 : r.force = (confs.map fun c => if c.uf = true then c.weight * forceError b (slope c) c else 0).sum := by
    show forceSum b confs v = _
    rw [forceSum_eq b hn, sum_map_zipIdx confs]
    congr 1
    refine map_zipIdx_congr _ _ _ fun k c hk => ?_
    obtain ⟨c1, -, -⟩ := hcell k c hk
    simp only
    by_cases hu : c.uf = true
    · rw [if_pos hu]
      congr 1
      unfold forceResidual forceError
      congr 1
      refine map_zipIdx_congr _ _ _ fun j a hj => ?_
      simp only [c1 j a hj, if_pos hu]
    · rw [if_neg hu]
      have : forceResidual b v c = 0 := by
        unfold forceResidual
        apply List.sum_eq_zero
        intro y hy
        obtain ⟨⟨a, j⟩, haj, rfl⟩ := List.mem_map.1 hy
        have hj := List.mem_zipIdx_iff_getElem?.1 haj
        simp only [c1 j a hj, if_neg hu]
        split <;> simp
      rw [this, mul_zero]
  have h2 : r.energy = (confs.map fun c => c.weight * ew * energyDev (energy c) c ^ 2).sum := by
    show energySum ew confs v = _
    rw [energySum_eq, sum_map_zipIdx confs]
    congr 1
    refine map_zipIdx_congr _ _ _ fun k c hk => ?_
    simp only [(hcell k c hk).2.1]
  have h3 : r.stress = (confs.map fun c => if b.stress = true ∧ c.uf = true ∧ c.us = true then
      c.weight * sw * ∑ k : Fin 6, stressDev (slope c) c k ^ 2 else 0).sum := by
    show stressSum b sw confs v = _
    rw [stressSum_eq, sum_map_zipIdx confs]
    congr 1
    refine map_zipIdx_congr _ _ _ fun k c hk => ?_
    by_cases hb : b.stress = true
    · simp only [if_pos hb, (hcell k c hk).2.2 hb]
      by_cases hu : c.uf = true ∧ c.us = true
      · simp only [if_pos hu, if_pos (show b.stress = true ∧ c.uf = true ∧ c.us = true from ⟨hb, hu⟩)]
      · simp only [if_neg hu, if_neg (show ¬ (b.stress = true ∧ c.uf = true ∧ c.us = true) from fun h => hu h.2)]
        simp
    · simp only [if_neg hb, if_neg (show ¬ (b.stress = true ∧ c.uf = true ∧ c.us = true) from fun h => hb h.1)]
  refine ⟨h1, h2, h3, ?_⟩
  rw [h1, h2, h3, ← sum_zipIdx_add, ← sum_zipIdx_add]
  rfl

theorem report_punish (b : Build) (opt : Bool) (ew sw : K) (confs : List (Conf K)) (v : FV K) (tot rest : K)
    (h : tot = (writeErrors b opt ew sw confs v tot).force + (writeErrors b opt ew sw confs v tot).energy +
      (writeErrors b opt ew sw confs v tot).stress + rest) :
    (writeErrors b opt ew sw confs v tot).punish = if 1 / 100 < rest ∧ opt = true then some rest else none := by
  have e : tot - (writeErrors b opt ew sw confs v tot).force - (writeErrors b opt ew sw confs v tot).energy -
      (writeErrors b opt ew sw confs v tot).stress = rest := by linarith
  show (if 1 / 100 < tot - (writeErrors b opt ew sw confs v tot).force - (writeErrors b opt ew sw confs v tot).energy -
      (writeErrors b opt ew sw confs v tot).stress ∧ opt = true then _ else _) = _
  show (if _ then some (tot - (writeErrors b opt ew sw confs v tot).force - (writeErrors b opt ew sw confs v tot).energy -
      (writeErrors b opt ew sw confs v tot).stress) else none) = _
  rw [e]

theorem pairVec_run {b : Build} {P : Pots K} {ew sw w : K} {qs : List (Bound K)} {eopp univ : List (Nat × K)} {confs : List (Conf K)}
    {v v' : PairVec K} {y : K} (hr : pairObjective b P ew sw w qs eopp univ confs v = .ok (v', y)) :
    v'.fv = (confLoop (pairConf b P ew sw) confs 0 (v.fv, 0)).1 := by
  unfold pairObjective at hr
  by_cases hb : b.apot = true
  · rw [if_pos hb] at hr
    cases hp : apotPunish w qs eopp univ v.par v.pot with
    | error e => simp [hp, bind, Except.bind] at hr
    | ok p =>
      simp only [hp, bind, Except.bind, Except.ok.injEq, Prod.mk.injEq] at hr
      rw [← hr.1]
  · rw [if_neg hb] at hr
    simp only [Except.ok.injEq, Prod.mk.injEq] at hr
    rw [← hr.1]

/-- **C74 for pair potentials**: the three sums are the contributions of forces, energies and stresses to the objective, what is left
are the punishments, and the warning shows them. -/
theorem C74_pair (b : Build) (opt : Bool) (P : Pots K) (ew sw w : K) (qs : List (Bound K)) (eopp univ : List (Nat × K))
    (confs : List (Conf K)) (hn : Numbered confs) (hh : ∀ c ∈ confs, HalfList c) (v v' : PairVec K) (y : K)
    (hr : pairObjective b P ew sw w qs eopp univ confs v = .ok (v', y)) :
    let r := writeErrors b opt ew sw confs v'.fv y
    let pen := if b.apot = true then totalPenalty w qs eopp univ else 0
    r.total = y ∧
    r.force = (confs.map fun c => if c.uf = true then c.weight * forceError b (pairSlope P) c else 0).sum ∧
    r.energy = (confs.map fun c => c.weight * ew * energyDev (pairTotal P c) c ^ 2).sum ∧
    r.stress = (confs.map fun c => if b.stress = true ∧ c.uf = true ∧ c.us = true then
      c.weight * sw * ∑ k : Fin 6, stressDev (pairSlope P) c k ^ 2 else 0).sum ∧
    y = r.force + r.energy + r.stress + pen ∧
    r.punish = if 1 / 100 < pen ∧ opt = true then some pen else none := by
  intro r pen
  have hv := pairVec_run hr
  have hy : y = (confs.map fun c => confError b (pairSlope P) (pairTotal P c) ew sw c).sum + pen := by
    by_cases hb : b.apot = true
    · show _ = _ + if b.apot = true then _ else 0
      rw [if_pos hb]
      exact C18_pair_apot b hb P ew sw w qs eopp univ confs hh v v' y hr
    · show _ = _ + if b.apot = true then _ else 0
      rw [if_neg hb, add_zero]
      obtain ⟨v'', h''⟩ := C18_pair b (by simpa using hb) P ew sw w qs eopp univ confs hh v
      rw [hr] at h''
      simp only [Except.ok.injEq, Prod.mk.injEq] at h''
      exact h''.2
  obtain ⟨h1, h2, h3, h4⟩ := report_cells b opt (fun _ => pairSlope P) (pairTotal P) ew sw confs hn v'.fv y fun k c hk => by
    rw [hv]
    exact pairRun_cells b P ew sw confs hn hh v.fv k c hk
  have h5 : y = r.force + r.energy + r.stress + pen := by
    show y = (writeErrors b opt ew sw confs v'.fv y).force + (writeErrors b opt ew sw confs v'.fv y).energy +
      (writeErrors b opt ew sw confs v'.fv y).stress + pen
    rw [h4]
    exact hy
  exact ⟨rfl, h1, h2, h3, h5, report_punish b opt ew sw confs v'.fv y pen h5⟩

/-- The percentages are shares of the objective: for a nonzero objective they are printed, each times the objective is hundred times its sum,
and together with the share of the rest they make up hundred. -/
theorem C74_shares (b : Build) (opt : Bool) (ew sw : K) (confs : List (Conf K)) (v : FV K) (y : K) (hy : y ≠ 0) :
    let r := writeErrors b opt ew sw confs v y
    ∃ f e s, r.forcePart = some f ∧ r.energyPart = some e ∧ r.stressPart = some s ∧
      f * y = 100 * r.force ∧ e * y = 100 * r.energy ∧ s * y = 100 * r.stress ∧
      f + e + s + 100 * ((y - r.force - r.energy - r.stress) / y) = 100 := by
  intro r
  have h : ∀ x : K, percent x y = some (x / y * 100) := by
    intro x
    simp [percent, shown, hy]
  refine ⟨_, _, _, h _, h _, h _, ?_, ?_, ?_, ?_⟩
  · field_simp
    rfl
  · field_simp
    rfl
  · field_simp
    rfl
  · simp only [r, writeErrors]
    field_simp
    ring

/-- **C74 for EAM potentials**: what is left are the punishments and the limiting and gauge constraints. -/
theorem C74_eam (b : Build) (opt : Bool) (P : EamPots K) (ew sw w : K) (qs : List (Bound K)) (eopp univ : List (Nat × K))
    (dummy0 : Nat → K) (natoms : Nat) (confs : List (Conf K)) (hn : Numbered confs) (hh : ∀ c ∈ confs, HalfList c ∧ EamColumns P c)
    (v v' : EamVec K) (y : K) (hr : eamObjective b P ew sw w qs eopp univ dummy0 natoms confs v = .ok (v', y)) :
    let r := writeErrors b opt ew sw confs v'.st.fv y
    let rest := (confs.map (limitError b P)).sum + (if b.apot = true then totalPenalty w qs eopp univ else 0) +
      gaugeError b P dummy0 natoms confs
    r.total = y ∧
    r.force = (confs.map fun c => if c.uf = true then c.weight * forceError b (eamFullSlope b P c) c else 0).sum ∧
    r.energy = (confs.map fun c => c.weight * ew * energyDev (eamTotal b P c) c ^ 2).sum ∧
    r.stress = (confs.map fun c => if b.stress = true ∧ c.uf = true ∧ c.us = true then
      c.weight * sw * ∑ k : Fin 6, stressDev (eamFullSlope b P c) c k ^ 2 else 0).sum ∧
    y = r.force + r.energy + r.stress + rest ∧
    r.punish = if 1 / 100 < rest ∧ opt = true then some rest else none := by
  intro r rest
  have hy := C18_eam b P ew sw w qs eopp univ dummy0 natoms confs hh v v' y hr
  have hv : v'.st = (confLoop (eamConf b P ew sw) confs 0 (v.st, (0, 0))).1 := by
    unfold eamObjective at hr
    by_cases hb : b.apot = true
    · simp only [if_pos hb] at hr
      cases hp : apotPunish w qs eopp univ v.par v.pot with
      | error e => simp [hp, bind, Except.bind] at hr
      | ok p =>
        simp only [hp, bind, Except.bind, Except.ok.injEq, Prod.mk.injEq] at hr
        rw [← hr.1]
    · simp only [if_neg hb, Except.ok.injEq, Prod.mk.injEq] at hr
      rw [← hr.1]
  obtain ⟨h1, h2, h3, h4⟩ := report_cells b opt (eamFullSlope b P) (eamTotal b P) ew sw confs hn v'.st.fv y fun k c hk => by
    rw [hv]
    obtain ⟨c1, c2, c3, -⟩ := eamRun_cells b P ew sw confs hn hh v.st k c hk
    exact ⟨c1, c2, c3⟩
  have h5 : y = r.force + r.energy + r.stress + rest := by
    show y = (writeErrors b opt ew sw confs v'.st.fv y).force + (writeErrors b opt ew sw confs v'.st.fv y).energy +
      (writeErrors b opt ew sw confs v'.st.fv y).stress + (_ + _ + _)
    rw [h4, hy, sum_zipIdx_add]
    ring
  exact ⟨rfl, h1, h2, h3, h5, report_punish b opt ew sw confs v'.st.fv y rest h5⟩

/-! ### Routines with full neighbour lists -/

/-- Forces and, with `STRESS`, stresses of all configurations are used. -/
def AllUsed (b : Build) (confs : List (Conf K)) : Prop := ∀ c ∈ confs, c.uf = true ∧ (b.stress = true → c.us = true)

theorem report_residual (b : Build) (opt : Bool) (ew sw : K) (confs : List (Conf K)) (hn : Numbered confs) (hu : AllUsed b confs)
    (v : FV K) (tot : K) :
    let r := writeErrors b opt ew sw confs v tot
    r.force + r.energy + r.stress = (confs.zipIdx.map fun ck => residualError b ew sw v ck.2 ck.1).sum := by
  intro r
  show forceSum b confs v + energySum ew confs v + stressSum b sw confs v = _
  rw [forceSum_eq b hn, energySum_eq, stressSum_eq, ← sum_zipIdx_add, ← sum_zipIdx_add]
  congr 1
  refine map_zipIdx_congr _ _ _ fun k c hk => ?_
  obtain ⟨u1, u2⟩ := hu c (List.mem_of_getElem? hk)
  unfold residualError
  simp only [if_pos u1]
  by_cases hb : b.stress = true
  · rw [if_pos hb, if_pos ⟨hb, u1, u2 hb⟩]
  · rw [if_neg hb, if_neg (fun h => hb h.1)]

/-- Stillinger-Weber and both Tersoff routines, if all data are used.  Missing: forces of configurations which do not use them stay in
the force vector and are reported as errors (`C74_unused_violated`). -/
theorem C74_stiweb_partial (b : Build) (opt : Bool) (P : SwPots K) (ew sw w : K) (qs : List (Bound K)) (eopp univ : List (Nat × K))
    (confs : List (Conf K)) (hn : Numbered confs) (hi : ∀ c ∈ confs, Inside c) (hu : AllUsed b confs) (v v' : PairVec K) (y : K)
    (hr : swObjective b P ew sw w qs eopp univ confs v = .ok (v', y)) :
    let r := writeErrors b opt ew sw confs v'.fv y
    y = r.force + r.energy + r.stress + totalPenalty w qs eopp univ ∧
    r.punish = if 1 / 100 < totalPenalty w qs eopp univ ∧ opt = true then some (totalPenalty w qs eopp univ) else none := by
  intro r
  have h : y = r.force + r.energy + r.stress + totalPenalty w qs eopp univ :=
    (C63_stiweb b P ew sw w qs eopp univ confs hn hi v v' y hr).trans
      (congrArg (· + _) (report_residual b opt ew sw confs hn hu v'.fv y).symm)
  exact ⟨h, report_punish b opt ew sw confs v'.fv y _ h⟩

theorem C74_tersoff_partial (b : Build) (opt : Bool) (L : Lib K) (p : TersPars K) (ew sw w : K) (qs : List (Bound K))
    (eopp univ : List (Nat × K)) (confs : List (Conf K)) (hn : Numbered confs) (hi : ∀ c ∈ confs, Inside c) (hu : AllUsed b confs)
    (v v' : PairVec K) (y : K) (hr : tersObjective b L p ew sw w qs eopp univ confs v = .ok (v', y)) :
    let r := writeErrors b opt ew sw confs v'.fv y
    y = r.force + r.energy + r.stress + totalPenalty w qs eopp univ ∧
    r.punish = if 1 / 100 < totalPenalty w qs eopp univ ∧ opt = true then some (totalPenalty w qs eopp univ) else none := by
  intro r
  have h : y = r.force + r.energy + r.stress + totalPenalty w qs eopp univ :=
    (C63_tersoff b L p ew sw w qs eopp univ confs hn hi v v' y hr).trans
      (congrArg (· + _) (report_residual b opt ew sw confs hn hu v'.fv y).symm)
  exact ⟨h, report_punish b opt ew sw confs v'.fv y _ h⟩

theorem C74_tersoffmod_partial (b : Build) (opt : Bool) (L : Lib K) (p : TersModPars K) (ew sw w : K) (qs : List (Bound K))
    (eopp univ : List (Nat × K)) (confs : List (Conf K)) (hn : Numbered confs) (hi : ∀ c ∈ confs, Inside c) (hu : AllUsed b confs)
    (v v' : PairVec K) (y : K) (hr : modObjective b L p ew sw w qs eopp univ confs v = .ok (v', y)) :
    let r := writeErrors b opt ew sw confs v'.fv y
    y = r.force + r.energy + r.stress + totalPenalty w qs eopp univ ∧
    r.punish = if 1 / 100 < totalPenalty w qs eopp univ ∧ opt = true then some (totalPenalty w qs eopp univ) else none := by
  intro r
  have h : y = r.force + r.energy + r.stress + totalPenalty w qs eopp univ :=
    (C63_tersoffmod b L p ew sw w qs eopp univ confs hn hi v v' y hr).trans
      (congrArg (· + _) (report_residual b opt ew sw confs hn hu v'.fv y).symm)
  exact ⟨h, report_punish b opt ew sw confs v'.fv y _ h⟩

/-- Entry of the stresses of a configuration after a run of the routine for angular potentials. -/
theorem ang_stress_unused (b : Build) (P : AngPots K) (ew sw w : K) (qs : List (Bound K)) (eopp univ : List (Nat × K))
    (confs : List (Conf K)) (hn : Numbered confs) (hi : ∀ c ∈ confs, Inside c) (v v' : PairVec K) (y : K)
    (hr : angObjective b P ew sw w qs eopp univ confs v = .ok (v', y)) (k : Nat) (c : Conf K) (hk : confs[k]? = some c)
    (hb : b.stress = true) (hu : ¬ (c.uf = true ∧ c.us = true)) (x : Fin 6) : v'.fv.stress k x ^ 2 = c.stress0 x ^ 2 := by
  obtain ⟨h1, -⟩ := sumObjective_ok _ _ w qs eopp univ confs v v' y hr
  have hg : ∀ k c, confs[k]? = some c → (fun (_ : Nat) c => Inside c) k c := fun k c hk => hi c (List.mem_of_getElem? hk)
  have hl := local_of_writes (good := fun _ c => Inside c) b false (angConf b P ew sw) (fun _ c hc => angConf_writes b P ew sw c hc)
  have e := loop_cell hl confs hg hn (v.fv, 0) k c hk (.stress k x) ⟨hb, rfl⟩
  rw [h1]
  refine (congrArg (· ^ 2) e).trans ?_
  obtain ⟨E, F, S, -, hS, hq⟩ := angConf_result b P ew sw c (hg k c hk)
  have := (hq k ⟨0, 0, 0, 0⟩).2.2.2.1
  show (angConf b P ew sw k c ⟨0, 0, 0, 0⟩).1.stress k x ^ 2 = _
  rw [this, if_pos hb, Function.update_self]
  simp only [hS hu, Pi.zero_apply, zero_div, zero_sub, neg_sq]

/-- **C74 for angular potentials**: without restriction; the reference stresses of configurations which do not use them are part of
the objective and of the sum of the stress errors. -/
theorem C74_ang (b : Build) (opt : Bool) (P : AngPots K) (ew sw w : K) (qs : List (Bound K)) (eopp univ : List (Nat × K))
    (confs : List (Conf K)) (hn : Numbered confs) (hi : ∀ c ∈ confs, Inside c) (v v' : PairVec K) (y : K)
    (hr : angObjective b P ew sw w qs eopp univ confs v = .ok (v', y)) :
    let r := writeErrors b opt ew sw confs v'.fv y
    let pen := if b.apot = true then totalPenalty w qs eopp univ else 0
    y = r.force + r.energy + r.stress + pen ∧
    r.punish = if 1 / 100 < pen ∧ opt = true then some pen else none := by
  intro r pen
  have h : y = r.force + r.energy + r.stress + pen := by
    rw [ang_objective b P ew sw w qs eopp univ confs hn hi v v' y hr]
    show _ = forceSum b confs v'.fv + energySum ew confs v'.fv + stressSum b sw confs v'.fv + pen
    rw [forceSum_eq b hn, energySum_eq, stressSum_eq, ← sum_zipIdx_add, ← sum_zipIdx_add]
    congr 2
    refine map_zipIdx_congr _ _ _ fun k c hk => ?_
    unfold residualError stressOffset
    simp only
    have e1 : (if c.uf = true then c.weight * forceResidual b v'.fv c else 0) = c.weight * forceResidual b v'.fv c := by
      by_cases hu : c.uf = true
      · rw [if_pos hu]
      · have := C63_ang_unused b P ew sw w qs eopp univ confs hn hi v v' y hr k c hk (by simpa using hu)
        have e : forceResidual b v'.fv c = 0 := by
          unfold forceResidual
          apply List.sum_eq_zero
          intro z hz
          obtain ⟨⟨a, j⟩, haj, rfl⟩ := List.mem_map.1 hz
          have hj := (List.getElem?_eq_some_iff.1 (List.mem_zipIdx_iff_getElem?.1 haj)).1
          simp only [this (c.start + j) (by omega) (by omega)]
          split <;> simp
        rw [if_neg hu, e, mul_zero]
    rw [e1, add_assoc]
    congr 1
    by_cases hb : b.stress = true
    · rw [if_pos hb]
      by_cases hu : c.uf = true ∧ c.us = true
      · rw [if_pos ⟨hb, hu⟩, if_neg (fun h => h.2 hu), add_zero]
      · rw [if_neg (fun h => hu h.2), if_pos ⟨hb, hu⟩, zero_add]
        congr 1
        refine Finset.sum_congr rfl fun x _ => ?_
        exact (ang_stress_unused b P ew sw w qs eopp univ confs hn hi v v' y hr k c hk hb hu x).symm
    · rw [if_neg hb, if_neg (fun h => hb h.1), if_neg (fun h => hb h.1), add_zero]
  exact ⟨h, report_punish b opt ew sw confs v'.fv y pen h⟩

/-- MEAM, if all data are used: what is left are the limiting constraints, the punishments and the constraint on the mean density. -/
theorem C74_meam_partial (b : Build) (opt : Bool) (P : AngPots K) (hP : ∀ col, P.beg col ≤ P.fin col) (ew sw w : K) (qs : List (Bound K))
    (eopp univ : List (Nat × K)) (natoms : Nat) (confs : List (Conf K)) (hn : Numbered confs) (hi : ∀ c ∈ confs, Inside c)
    (hu : AllUsed b confs) (v v' : MeamVec K) (y : K)
    (hr : meamObjective b P ew sw w qs eopp univ natoms confs v = .ok (v', y)) :
    let r := writeErrors b opt ew sw confs v'.fv y
    let rest := (confs.map fun c => if b.rescale = true then (c.weight * meamExcess P c) ^ 2 else 0).sum +
      (if b.apot = true then totalPenalty w qs eopp univ else 0) +
      if b.rescale = true then 0 else (100 * (meamMean P natoms confs - 1)) ^ 2
    y = r.force + r.energy + r.stress + rest ∧
    r.punish = if 1 / 100 < rest ∧ opt = true then some rest else none := by
  intro r rest
  have h : y = r.force + r.energy + r.stress + rest := by
    show y = (writeErrors b opt ew sw confs v'.fv y).force + (writeErrors b opt ew sw confs v'.fv y).energy +
      (writeErrors b opt ew sw confs v'.fv y).stress + (_ + _ + _)
    rw [report_residual b opt ew sw confs hn hu v'.fv y, meam_objective b P hP ew sw w qs eopp univ natoms confs hn hi v v' y hr,
      sum_zipIdx_add, sum_map_zipIdx confs]
    have e : (confs.zipIdx.map fun ck => stressOffset b sw ck.1 + if b.rescale = true then (ck.1.weight * meamExcess P ck.1) ^ 2 else 0) =
        confs.zipIdx.map fun ck => if b.rescale = true then (ck.1.weight * meamExcess P ck.1) ^ 2 else 0 := by
      refine map_zipIdx_congr _ _ _ fun k c hk => ?_
      obtain ⟨u1, u2⟩ := hu c (List.mem_of_getElem? hk)
      unfold stressOffset
      rw [if_neg (fun h => h.2 ⟨u1, u2 h.1⟩), zero_add]
    rw [e]
    ring
  exact ⟨h, report_punish b opt ew sw confs v'.fv y rest h⟩

/-! ### Lines -/

theorem reportScale_eq (b : Build) (a : Atom K) : reportScale b a = forceScale b a := rfl

/-- A line of the force file of a configuration which uses forces shows the computed and the reference force. -/
theorem row_used (b : Build) (slope : Conf K → Entry K → K) (confs : List (Conf K)) (hn : Numbered confs) (v : FV K) (k : Nat) (c : Conf K)
    (hk : confs[k]? = some c) (hu : c.uf = true) (j : Nat) (a : Atom K) (hj : c.atoms[j]? = some a) (ha : 0 ≤ a.absforce)
    (h : v.force (c.start + j) = if c.uf = true then deviation b (slope c) c a (c.start + j) else 0) (x : Fin 3) :
    ∃ r, forceRow b confs v (3 * (c.start + j) + x.val) = some r ∧ r.conf = k ∧ r.f = totalForce (slope c) c (c.start + j) x ∧
      r.f0 = c.force0 (c.start + j) x ∧
      r.sqr = if b.contrib = true ∧ a.contrib = false then 0 else c.weight * deviation b (slope c) c a (c.start + j) x ^ 2 := by
  refine ⟨_, forceRow_eq b hn v hk hj x, rfl, ?_, rfl, ?_⟩
  · simp only [h, if_pos hu, reportScale_eq]
    unfold deviation
    rw [div_mul_cancel₀ _ (forceScale_ne_zero b a ha)]
    ring
  · simp only [h, if_pos hu]
    by_cases hc : b.contrib = true ∧ a.contrib = false
    · rw [if_pos hc, if_pos (by simp [hc])]
    · rw [if_neg hc, if_neg (by simpa using hc), pow_two]

/-- **C74, lines of the force file, pair potentials**: computed force, reference force, weighted square. -/
theorem C74_force_rows_partial (b : Build) (P : Pots K) (ew sw w : K) (qs : List (Bound K)) (eopp univ : List (Nat × K))
    (confs : List (Conf K)) (hn : Numbered confs) (hh : ∀ c ∈ confs, HalfList c) (v v' : PairVec K) (y : K)
    (hr : pairObjective b P ew sw w qs eopp univ confs v = .ok (v', y)) (k : Nat) (c : Conf K) (hk : confs[k]? = some c)
    (hu : c.uf = true) (j : Nat) (a : Atom K) (hj : c.atoms[j]? = some a) (ha : 0 ≤ a.absforce) (x : Fin 3) :
    ∃ r, forceRow b confs v'.fv (3 * (c.start + j) + x.val) = some r ∧ r.conf = k ∧
      r.f = totalForce (pairSlope P) c (c.start + j) x ∧ r.f0 = c.force0 (c.start + j) x ∧
      r.sqr = if b.contrib = true ∧ a.contrib = false then 0 else c.weight * deviation b (pairSlope P) c a (c.start + j) x ^ 2 := by
  have hv := pairVec_run hr
  exact row_used b (fun _ => pairSlope P) confs hn v'.fv k c hk hu j a hj ha
    (by rw [hv]; exact (pairRun_cells b P ew sw confs hn hh v.fv k c hk).1 j a hj) x

/-- A configuration which does not use forces: the reference force is printed in place of the computed one. -/
theorem C74_force_rows_unused (b : Build) (P : Pots K) (ew sw w : K) (qs : List (Bound K)) (eopp univ : List (Nat × K))
    (confs : List (Conf K)) (hn : Numbered confs) (hh : ∀ c ∈ confs, HalfList c) (v v' : PairVec K) (y : K)
    (hr : pairObjective b P ew sw w qs eopp univ confs v = .ok (v', y)) (k : Nat) (c : Conf K) (hk : confs[k]? = some c)
    (hu : c.uf = false) (j : Nat) (a : Atom K) (hj : c.atoms[j]? = some a) (x : Fin 3) :
    ∃ r, forceRow b confs v'.fv (3 * (c.start + j) + x.val) = some r ∧ r.f = c.force0 (c.start + j) x ∧ r.sqr = 0 := by
  have h : v'.fv.force (c.start + j) = 0 := by
    rw [pairVec_run hr, (pairRun_cells b P ew sw confs hn hh v.fv k c hk).1 j a hj, if_neg (by simp [hu])]
  refine ⟨_, forceRow_eq b hn v'.fv hk hj x, ?_, ?_⟩
  · simp [h]
  · simp [h]

/-- **C74, lines of the energy file, pair potentials**: energy per atom, reference, deviation; the column `w*de^2` is without the weight of
the configuration, and it is no number for configurations of weight zero; the last column is none for vanishing reference. -/
theorem C74_energy_rows (b : Build) (P : Pots K) (ew sw w : K) (qs : List (Bound K)) (eopp univ : List (Nat × K))
    (confs : List (Conf K)) (hn : Numbered confs) (hh : ∀ c ∈ confs, HalfList c) (v v' : PairVec K) (y : K)
    (hr : pairObjective b P ew sw w qs eopp univ confs v = .ok (v', y)) (k : Nat) (c : Conf K) (hk : confs[k]? = some c) :
    ∃ r, energyRow ew confs v'.fv k = some r ∧ r.weight = c.weight ∧ r.e = pairTotal P c / (c.atoms.length : K) ∧ r.e0 = c.energy0 ∧
      r.dev = pairTotal P c / (c.atoms.length : K) - c.energy0 ∧
      r.sqr = c.weight * ew * (pairTotal P c / (c.atoms.length : K) - c.energy0) ^ 2 ∧
      r.unweighted = (if c.weight = 0 then none else some (ew * (pairTotal P c / (c.atoms.length : K) - c.energy0) ^ 2)) ∧
      r.ratio = if c.energy0 = 0 then none else some ((pairTotal P c / (c.atoms.length : K) - c.energy0) / c.energy0) := by
  have h : v'.fv.energy k = pairTotal P c / (c.atoms.length : K) - c.energy0 := by
    rw [pairVec_run hr, (pairRun_cells b P ew sw confs hn hh v.fv k c hk).2.1]
    rfl
  unfold energyRow
  rw [hk]
  refine ⟨_, rfl, rfl, ?_, rfl, h, ?_, ?_, ?_⟩
  · simp only [h]
    ring
  · simp only [h]
    ring
  · simp only [h, shown]
    by_cases hw : c.weight = 0
    · rw [if_pos hw, if_pos hw]
    · rw [if_neg hw, if_neg hw]
      congr 1
      field_simp
  · simp only [h, shown]

/-- **C74, lines of the stress file, pair potentials** which use stresses. -/
theorem C74_stress_rows_partial (b : Build) (hb : b.stress = true) (P : Pots K) (ew sw w : K) (qs : List (Bound K))
    (eopp univ : List (Nat × K)) (confs : List (Conf K)) (hn : Numbered confs) (hh : ∀ c ∈ confs, HalfList c) (v v' : PairVec K) (y : K)
    (hr : pairObjective b P ew sw w qs eopp univ confs v = .ok (v', y)) (k : Nat) (c : Conf K) (hk : confs[k]? = some c)
    (hu : c.uf = true ∧ c.us = true) (x : Fin 6) :
    ∃ r, stressRow sw confs v'.fv (6 * k + x.val) = some r ∧ r.conf = k ∧ r.s = totalStress (pairSlope P) c x / c.vol ∧
      r.s0 = c.stress0 x ∧ r.sqr = c.weight * sw * (totalStress (pairSlope P) c x / c.vol - c.stress0 x) ^ 2 := by
  have h : v'.fv.stress k x = totalStress (pairSlope P) c x / c.vol - c.stress0 x := by
    rw [pairVec_run hr, (pairRun_cells b P ew sw confs hn hh v.fv k c hk).2.2 hb, if_pos hu]
    rfl
  have e1 : (6 * k + x.val) / 6 = k := by have := x.isLt; omega
  have e2 : Fin.ofNat 6 ((6 * k + x.val) % 6) = x := by
    apply Fin.ext
    show (6 * k + x.val) % 6 % 6 = x.val
    have := x.isLt
    omega
  unfold stressRow
  rw [e1, e2, hk]
  refine ⟨_, rfl, rfl, ?_, rfl, ?_⟩
  · simp only [h]
    ring
  · simp only [h]
    ring

/-! ### Root mean squares -/

theorem rms_fold (b : Build) (v : FV K) (l : List ((Nat × Atom K) × Nat)) : ∀ s : K × Nat,
    l.foldl (rmsForceStep b v) s = (s.1 + (l.map fun ai => if b.contrib = true ∧ ai.1.2.contrib = false then 0 else
        ∑ x : Fin 3, (v.force ai.2 x * reportScale b ai.1.2) ^ 2).sum,
      s.2 + (l.map fun ai => if b.contrib = true ∧ ai.1.2.contrib = false then 0 else 1).sum) := by
  induction l with
  | nil => intro s; simp
  | cons ai l ih =>
    intro s
    rw [List.foldl_cons, ih, List.map_cons, List.map_cons, List.sum_cons, List.sum_cons]
    unfold rmsForceStep
    by_cases hc : b.contrib = true ∧ ai.1.2.contrib = false
    · rw [if_pos hc, if_pos hc, if_pos (by simp [hc]), zero_add, zero_add]
    · rw [if_neg hc, if_neg hc, if_neg (by simpa using hc)]
      refine Prod.ext ?_ ?_
      · simp only [sq3, Fin.sum_univ_three]
        ring
      · simp only
        omega

/-- Number of atoms whose forces are fitted. -/
def fittedAtoms (b : Build) (confs : List (Conf K)) : Nat :=
  (confs.map fun c => if c.uf = true then
    (c.atoms.map fun a => if b.contrib = true ∧ a.contrib = false then 0 else 1).sum else 0).sum

/-- Sum of the squared differences between computed and reference forces over the atoms whose forces are fitted. -/
def forceSquares (b : Build) (slope : Conf K → Entry K → K) (confs : List (Conf K)) : K :=
  (confs.map fun c => if c.uf = true then
    (c.atoms.zipIdx.map fun ak => if b.contrib = true ∧ ak.1.contrib = false then 0 else
      ∑ x : Fin 3, (totalForce (slope c) c (c.start + ak.2) x - c.force0 (c.start + ak.2) x) ^ 2).sum else 0).sum

/-- **C74, root mean square of the forces, pair potentials**: mean of the squared differences, without the weights, over all components of
the fitted forces, if all configurations use forces and there is an atom which contributes. Missing: configurations which do not use forces
are counted as if they were reproduced exactly (`C74_rms_violated`), and without contributing atom no number is printed
(`C74_rms_none`). -/
theorem C74_rms_force_partial (b : Build) (opt : Bool) (P : Pots K) (ew sw w : K) (qs : List (Bound K)) (eopp univ : List (Nat × K))
    (confs : List (Conf K)) (hn : Numbered confs) (hh : ∀ c ∈ confs, HalfList c) (hu : ∀ c ∈ confs, c.uf = true)
    (ha : ∀ c ∈ confs, ∀ a ∈ c.atoms, 0 ≤ a.absforce) (h0 : 0 < fittedAtoms b confs) (v v' : PairVec K) (y : K)
    (hr : pairObjective b P ew sw w qs eopp univ confs v = .ok (v', y)) :
    (writeErrors b opt ew sw confs v'.fv y).rmsForce =
      some (forceSquares b (fun _ => pairSlope P) confs / ((3 * fittedAtoms b confs : Nat) : K)) := by
  have hv := pairVec_run hr
  have hsum : ((allAtoms confs).zipIdx.map fun ai => if b.contrib = true ∧ ai.1.2.contrib = false then 0 else
      ∑ x : Fin 3, (v'.fv.force ai.2 x * reportScale b ai.1.2) ^ 2).sum = forceSquares b (fun _ => pairSlope P) confs := by
    have := sum_atoms confs (fun i (_ : Nat) (a : Atom K) => if b.contrib = true ∧ a.contrib = false then 0 else
      ∑ x : Fin 3, (v'.fv.force i x * reportScale b a) ^ 2) 0 0 (starts_numbered hn)
    refine this.trans ?_
    unfold forceSquares
    rw [sum_map_zipIdx confs]
    congr 1
    refine map_zipIdx_congr _ _ _ fun k c hk => ?_
    have hc := List.mem_of_getElem? hk
    simp only [if_pos (hu c hc)]
    congr 1
    refine map_zipIdx_congr _ _ _ fun j a hj => ?_
    simp only
    by_cases hcon : b.contrib = true ∧ a.contrib = false
    · rw [if_pos hcon, if_pos hcon]
    · rw [if_neg hcon, if_neg hcon]
      refine Finset.sum_congr rfl fun x _ => ?_
      rw [hv, (pairRun_cells b P ew sw confs hn hh v.fv k c hk).1 j a hj, if_pos (hu c hc), reportScale_eq]
      unfold deviation
      rw [div_mul_cancel₀ _ (forceScale_ne_zero b a (ha c hc a (List.mem_of_getElem? hj)))]
  have hcount : ((allAtoms confs).zipIdx.map fun ai => if b.contrib = true ∧ ai.1.2.contrib = false then 0 else 1).sum =
      fittedAtoms b confs := by
    have := sum_atoms confs (fun (_ _ : Nat) (a : Atom K) => if b.contrib = true ∧ a.contrib = false then 0 else 1) 0 0
      (starts_numbered hn)
    refine this.trans ?_
    unfold fittedAtoms
    have e : confs = confs.zipIdx.map Prod.fst := by rw [List.zipIdx_map_fst]
    conv_rhs => rw [e]
    rw [List.map_map]
    congr 1
    refine map_zipIdx_congr _ _ _ fun k c hk => ?_
    simp only [Function.comp, if_pos (hu c (List.mem_of_getElem? hk))]
    have e : c.atoms = c.atoms.zipIdx.map Prod.fst := by rw [List.zipIdx_map_fst]
    conv_rhs => rw [e]
    rw [List.map_map]
    rfl
  have hlen : b.contrib = false → (allAtoms confs).length = fittedAtoms b confs := by
    intro hc
    rw [← hcount]
    simp [hc]
  show meanForce b confs v'.fv = _
  unfold meanForce
  simp only [rms_fold, zero_add, hsum, hcount]
  have hne : ((3 * fittedAtoms b confs : Nat) : K) ≠ 0 := by
    have : 3 * fittedAtoms b confs ≠ 0 := by omega
    exact_mod_cast this
  by_cases hc : b.contrib = true
  · rw [if_pos hc, shown, if_neg hne]
  · rw [if_neg hc, hlen (by simpa using hc), shown, if_neg hne]

/-- **C74, root mean square of the energies, pair potentials**: mean of the squared deviations per atom. -/
theorem C74_rms_energy (b : Build) (opt : Bool) (P : Pots K) (ew sw w : K) (he : ew ≠ 0) (qs : List (Bound K)) (eopp univ : List (Nat × K))
    (confs : List (Conf K)) (hn : Numbered confs) (hh : ∀ c ∈ confs, HalfList c) (h0 : confs ≠ []) (v v' : PairVec K) (y : K)
    (hr : pairObjective b P ew sw w qs eopp univ confs v = .ok (v', y)) :
    (writeErrors b opt ew sw confs v'.fv y).rmsEnergy =
      some ((confs.map fun c => (pairTotal P c / (c.atoms.length : K) - c.energy0) ^ 2).sum / (confs.length : K)) := by
  show meanEnergy ew confs v'.fv = _
  unfold meanEnergy
  have hne : ((confs.length : Nat) : K) ≠ 0 := by
    have : confs.length ≠ 0 := fun h => h0 (List.length_eq_zero_iff.1 h)
    exact_mod_cast this
  rw [if_neg he, shown, if_neg hne, sum_map_zipIdx confs]
  congr 2
  refine sum_zipIdx_get confs (fun _ c => (pairTotal P c / (c.atoms.length : K) - c.energy0) ^ 2) _ fun k c hk => ?_
  rw [pairVec_run hr, (pairRun_cells b P ew sw confs hn hh v.fv k c hk).2.1, energyDev]
  ring

/-- **C74, root mean square of the stresses, pair potentials**, if all configurations use stresses: mean of the squared deviations. -/
theorem C74_rms_stress_partial (b : Build) (hb : b.stress = true) (opt : Bool) (P : Pots K) (ew sw w : K) (hs : sw ≠ 0) (qs : List (Bound K))
    (eopp univ : List (Nat × K)) (confs : List (Conf K)) (hn : Numbered confs) (hh : ∀ c ∈ confs, HalfList c) (h0 : confs ≠ [])
    (hu : AllUsed b confs) (v v' : PairVec K) (y : K)
    (hr : pairObjective b P ew sw w qs eopp univ confs v = .ok (v', y)) :
    (writeErrors b opt ew sw confs v'.fv y).rmsStress =
      some ((confs.map fun c => ∑ x : Fin 6, (totalStress (pairSlope P) c x / c.vol - c.stress0 x) ^ 2).sum /
        ((6 * confs.length : Nat) : K)) := by
  show meanStress b sw confs v'.fv = _
  unfold meanStress
  have hne : ((6 * confs.length : Nat) : K) ≠ 0 := by
    have : 6 * confs.length ≠ 0 := by
      have : confs.length ≠ 0 := fun h => h0 (List.length_eq_zero_iff.1 h)
      omega
    exact_mod_cast this
  rw [if_pos (by simp [hb, hs]), shown, if_neg hne, sum_map_zipIdx confs]
  congr 2
  refine sum_zipIdx_get confs (fun _ c => ∑ x : Fin 6, (totalStress (pairSlope P) c x / c.vol - c.stress0 x) ^ 2) _ fun k c hk => ?_
  obtain ⟨u1, u2⟩ := hu c (List.mem_of_getElem? hk)
  have h := (pairRun_cells b P ew sw confs hn hh v.fv k c hk).2.2 hb
  rw [if_pos ⟨u1, u2 hb⟩, ← pairVec_run hr] at h
  rw [sum_range_six (fun x => v'.fv.stress k x * v'.fv.stress k x), h]
  refine Finset.sum_congr rfl fun x _ => ?_
  unfold stressDev
  ring

/-- The number of MPa beside the root mean square of the stresses: an electron volt per cubic Ångström is 160.2 GPa, i.e. 160200 MPa; the
printed number is too small by the factor 160.2 squared. -/
theorem C74_unit_violated (x : K) : 160200 * x = inMPa x * (1602 / 10) ^ 2 ∧ (x ≠ 0 → inMPa x ≠ 160200 * x) := by
  have e : 160200 * x = inMPa x * (1602 / 10) ^ 2 := by
    unfold inMPa
    ring
  refine ⟨e, fun hx h => ?_⟩
  have h1 : 160200 * x = 160200 * x * (1602 / 10) ^ 2 := by rw [h] at e; exact e
  have h2 : 160200 * x * ((1602 / 10) ^ 2 - 1) = 0 := by linear_combination -h1
  rcases mul_eq_zero.1 h2 with h3 | h3
  · rcases mul_eq_zero.1 h3 with h4 | h4
    · norm_num at h4
    · exact hx h4
  · norm_num at h3

/-! ### Examples and violations -/

/-- The example with all data: the four sums. -/
example : Numbered [exConf, exConf2] ∧ (∀ c ∈ [exConf, exConf2], HalfList c) ∧ (∀ c ∈ [exConf, exConf2], c.uf = true) ∧
    0 < fittedAtoms exBuild [exConf, exConf2] ∧
    (match pairObjective { exBuild with apot := true } exPots.toPots 1 1 0 [⟨5, 0, 2⟩] [] [] [exConf, exConf2] zeroVec with
      | .ok (v', y) =>
        let r := writeErrors { exBuild with apot := true } true 1 1 [exConf, exConf2] v'.fv y
        decide (0 < r.force ∧ 0 < r.energy ∧ 0 < r.stress ∧ r.punish = some 90000000 ∧
          y = r.force + r.energy + r.stress + 90000000)
      | .error _ => false) = true := by
  refine ⟨exConfs_numbered, ?_, ?_, by decide +kernel, by decide +kernel⟩
  · intro c hc
    rcases List.mem_cons.1 hc with rfl | hc
    · exact exConf_half
    · rcases List.mem_cons.1 hc with rfl | hc
      · exact exConf2_half
      · cases hc
  · intro c hc
    rcases List.mem_cons.1 hc with rfl | hc
    · rfl
    · rcases List.mem_cons.1 hc with rfl | hc
      · rfl
      · cases hc

/-- A configuration which does not use its forces. -/
def unusedConf : Conf ℚ := { exConf with uf := false }

/-- **C74 is violated by Stillinger-Weber potentials**: forces of a configuration which does not use them are reported as errors, the sum of
the force errors exceeds the objective. -/
theorem C74_unused_violated : ∃ (b : Build) (P : SwPots ℚ) (c : Conf ℚ) (v v' : PairVec ℚ) (y : ℚ),
    Inside c ∧ c.uf = false ∧ swObjective b P 0 1 1 [] [] [] [c] v = .ok (v', y) ∧
    y < (writeErrors b true 0 1 [c] v'.fv y).force :=
  ⟨⟨false, false, false, false, true, false⟩, cornerSw,
    cornerConf false false 0 1, ⟨⟨0, 0, 0, 0⟩, 0, 0⟩, _, _,
    corner_inside _ _ _ _, rfl, rfl, by decide +kernel⟩

/-- **The lines of the force file do not show the computed force** of a configuration which does not use forces. -/
theorem C74_force_rows_violated : ∃ v' y r, pairObjective exBuild exPots.toPots 1 1 0 [] [] [] [unusedConf] zeroVec = .ok (v', y) ∧
    forceRow exBuild [unusedConf] v'.fv 0 = some r ∧ r.f ≠ totalForce (pairSlope exPots.toPots) unusedConf 0 0 :=
  ⟨_, _, _, rfl, rfl, by decide +kernel⟩

/-- **The root mean square of the forces is that of all atoms**, including those of configurations which do not use forces: here the first
configuration is not used, and the mean is smaller than the mean over the fitted forces. -/
theorem C74_rms_violated : ∃ v' y m, pairObjective exBuild exPots.toPots 1 1 0 [] [] [] [unusedConf, exConf2] zeroVec = .ok (v', y) ∧
    (writeErrors exBuild true 1 1 [unusedConf, exConf2] v'.fv y).rmsForce = some m ∧
    m ≠ forceSquares exBuild (fun _ => pairSlope exPots.toPots) [unusedConf, exConf2] /
      ((3 * fittedAtoms exBuild [unusedConf, exConf2] : Nat) : ℚ) :=
  ⟨_, _, _, rfl, rfl, by decide +kernel⟩

/-- With `CONTRIB` and no contributing atom no root mean square is printed, whatever the energies are. -/
theorem C74_rms_none (b : Build) (hb : b.contrib = true) (opt : Bool) (ew sw : K) (confs : List (Conf K))
    (h : ∀ c ∈ confs, ∀ a ∈ c.atoms, a.contrib = false) (v : FV K) (y : K) : (writeErrors b opt ew sw confs v y).rmsForce = none := by
  have hmem : ∀ (l : List (Conf K)) (k : Nat), (∀ c ∈ l, ∀ a ∈ c.atoms, a.contrib = false) → ∀ ka ∈ atomsFrom l k, ka.2.contrib = false := by
    intro l
    induction l with
    | nil => intro k _ ka hka; cases hka
    | cons c l ih =>
      intro k hl ka hka
      rw [atomsFrom, List.mem_append] at hka
      rcases hka with hka | hka
      · obtain ⟨a, ha, rfl⟩ := List.mem_map.1 hka
        exact hl c (by simp) a ha
      · exact ih (k + 1) (fun c hc => hl c (by simp [hc])) ka hka
  show meanForce b confs v = none
  unfold meanForce
  simp only [rms_fold]
  have hz : ((allAtoms confs).zipIdx.map fun ai => if b.contrib = true ∧ ai.1.2.contrib = false then 0 else 1).sum = 0 := by
    apply List.sum_eq_zero
    intro z hz
    obtain ⟨ai, hai, rfl⟩ := List.mem_map.1 hz
    rw [if_pos ⟨hb, hmem confs 0 h ai.1 (List.mem_of_getElem? (List.mem_zipIdx_iff_getElem?.1 hai))⟩]
  rw [if_pos hb, hz]
  simp [shown]

example : ∀ c ∈ [{ exConf with atoms := [⟨0, [], 2, false⟩] }], ∀ a ∈ c.atoms, a.contrib = false := by
  intro c hc a ha
  obtain rfl := List.mem_singleton.1 hc
  obtain rfl := List.mem_singleton.1 ha
  rfl

/-- All data used. -/
example : AllUsed ⟨true, false, false, false, true, false⟩ [cornerConf true true 1 2] ∧
    (match swObjective ⟨true, false, false, false, true, false⟩ cornerSw 1 1 1 [] [] [] [cornerConf true true 1 2]
      ⟨⟨0, 0, 0, 0⟩, 0, 0⟩ with
    | .ok (v', y) =>
      let r := writeErrors ⟨true, false, false, false, true, false⟩ true 1 1 [cornerConf true true 1 2] v'.fv y
      decide (0 < r.force ∧ 0 < r.stress ∧ r.punish = none ∧ y = r.force + r.energy + r.stress)
    | .error _ => false) = true := by
  refine ⟨?_, by decide +kernel⟩
  intro c hc
  obtain rfl := List.mem_singleton.1 hc
  exact ⟨rfl, fun _ => rfl⟩

end Verif.Props
