/-
C74  The error report, continued: ADP, two-band EAM, charges and dipoles, angular potentials with charges, KIM.
-/
import Verif.Lemmas.ReportRun
import Verif.Props.C74
import Verif.Props.C59
import Verif.Props.C79
import Verif.Props.C85
import Verif.Props.C87
import Verif.Model.ForceKim

set_option linter.unusedSectionVars false

namespace Verif.Props

open Verif.Force Verif.Spec

variable {K : Type*} [Field K] [LinearOrder K] [IsStrictOrderedRing K]

/-- **C74 for ADP potentials**: what is left are the limiting constraints, the punishments and the gauge constraints. -/
theorem C74_adp (b : Build) (opt : Bool) (P : EamPots K) (ew sw w : K) (qs : List (Bound K)) (eopp univ : List (Nat × K))
    (dummy0 : Nat → K) (natoms : Nat) (confs : List (Conf K)) (hn : Numbered confs)
    (hh : ∀ c ∈ confs, HalfList c ∧ EamColumns P c ∧ Aligned c) (v v' : AdpVec K) (y : K)
    (hr : adpObjective b P ew sw w qs eopp univ dummy0 natoms confs v = .ok (v', y)) :
    let r := writeErrors b opt ew sw confs v'.st.fv y
    let rest := (confs.map (adpLimitError b P)).sum + (if b.apot = true then totalPenalty w qs eopp univ else 0) +
      adpGaugeError b P dummy0 natoms confs
    y = r.force + r.energy + r.stress + rest ∧
    r.punish = if 1 / 100 < rest ∧ opt = true then some rest else none := by
  intro r rest
  have hacc : ∀ ci c s, c ∈ confs → Accounted b ew sw (fun s : AdpState K => s.fv) (AddMonoidHom.fst K K) (adpLimitError b P)
      (adpConf b P ew sw) ci c s := by
    intro ci c s hc
    obtain ⟨-, -, p1, p2, p3, p4, -, p5, -⟩ := adpConf_spec b P ew sw ci c (hh c hc).1 (hh c hc).2.1 (hh c hc).2.2 s
    refine ⟨fun x hx => (p1 x hx).1, fun hu j a hj => ?_, _, _, p3, p4, p5⟩
    have := p2 j a hj
    rwa [hu, if_neg (by simp)] at this
  have hrun := reported_run b opt ew sw y (fun s : AdpState K => s.fv) (AddMonoidHom.fst K K) (adpLimitError b P) (adpConf b P ew sw)
    confs hn hacc v.st
  have hrho : (confLoop (adpConf b P ew sw) confs 0 (v.st, (0 : K × K))).2.2 =
      (confs.map fun c => (c.atoms.zipIdx.map fun ak => (embedAt b P c ak.2 ak.1).rho).sum).sum := by
    rw [confLoop_sum (adpConf b P ew sw) _ confs
      (fun ci c s hc => adpConf_err b P ew sw ci c (hh c hc).1 (hh c hc).2.1 (hh c hc).2.2 s) 0 (v.st, (0 : K × K)), zero_add]
    exact (map_list_sum (AddMonoidHom.snd K K) _).trans (by rw [List.map_map]; rfl)
  have hfin : v'.st = (confLoop (adpConf b P ew sw) confs 0 (v.st, (0 : K × K))).1 ∧
      y = (confLoop (adpConf b P ew sw) confs 0 (v.st, (0 : K × K))).2.1 + (if b.apot = true then totalPenalty w qs eopp univ else 0) + (adpDummies b P dummy0 natoms (confLoop (adpConf b P ew sw) confs 0 (v.st, (0 : K × K))).2.2 v.dummy).2 := by
    unfold adpObjective at hr
    by_cases hb : b.apot = true
    · simp only [if_pos hb] at hr
      cases hp : apotPunish w qs eopp univ v.par v.pot with
      | error e => simp [hp, bind, Except.bind] at hr
      | ok p =>
        simp only [hp, bind, Except.bind, Except.ok.injEq, Prod.mk.injEq] at hr
        rw [← hr.1, ← hr.2, if_pos hb, apotPunish_sum w qs eopp univ _ _ p hp]
        exact ⟨rfl, rfl⟩
    · simp only [if_neg hb, Except.ok.injEq, Prod.mk.injEq] at hr
      rw [← hr.1, ← hr.2, if_neg hb, add_zero]
      exact ⟨rfl, rfl⟩
  obtain ⟨hst, hy⟩ := hfin
  have h : y = r.force + r.energy + r.stress + rest := by
    refine hy.trans ?_
    simp only [AddMonoidHom.coe_fst] at hrun
    rw [hrun, hrho, adpDummies_err]
    simp only [r, rest]
    rw [hst]
    ring
  exact ⟨h, report_punish b opt ew sw confs v'.st.fv y rest h⟩

/-- **C74 for the two-band model**: the gauge constraints of both bands are left. -/
theorem C74_tbeam (b : Build) (opt : Bool) (P : EamPots K) (ew sw w : K) (qs : List (Bound K)) (eopp univ : List (Nat × K))
    (dummy0 : Nat → K) (natoms : Nat) (confs : List (Conf K)) (hn : Numbered confs) (hh : ∀ c ∈ confs, HalfList c ∧ EamColumns P c)
    (v v' : TbVec K) (y : K) (hr : tbObjective b P ew sw w qs eopp univ dummy0 natoms confs v = .ok (v', y)) :
    let r := writeErrors b opt ew sw confs v'.st.fv y
    let rest := (confs.map (tbLimitError b P)).sum + (if b.apot = true then totalPenalty w qs eopp univ else 0) +
      (gaugeError b P dummy0 natoms confs + gaugeError b P.second (fun g => dummy0 (2 * P.ntypes + g)) natoms confs)
    y = r.force + r.energy + r.stress + rest ∧
    r.punish = if 1 / 100 < rest ∧ opt = true then some rest else none := by
  intro r rest
  have hacc : ∀ ci c s, c ∈ confs → Accounted b ew sw (fun s : TbState K => s.fv) (AddMonoidHom.fst K (K × K)) (tbLimitError b P)
      (tbConf b P ew sw) ci c s := by
    intro ci c s hc
    obtain ⟨-, -, p1, p2, p3, p4, -, p5, -⟩ := tbConf_spec b P ew sw ci c (hh c hc).1 (hh c hc).2 s
    refine ⟨fun x hx => (p1 x hx).1, fun hu j a hj => ?_, _, _, p3, p4, p5⟩
    have := p2 j a hj
    rwa [hu, if_neg (by simp)] at this
  have hrun := reported_run b opt ew sw y (fun s : TbState K => s.fv) (AddMonoidHom.fst K (K × K)) (tbLimitError b P) (tbConf b P ew sw)
    confs hn hacc v.st
  have hsum : (confLoop (tbConf b P ew sw) confs 0 (v.st, (0 : K × K × K))).2 = (confs.map fun c =>
      (confError b (tbUsedSlope b P c) (tbTotal b P c) ew sw c + tbLimitError b P c,
       (c.atoms.zipIdx.map fun ak => (embedAt b P c ak.2 ak.1).rho).sum,
       (c.atoms.zipIdx.map fun ak => (embedAt b P.second c ak.2 ak.1).rho).sum)).sum := by
    rw [confLoop_sum (tbConf b P ew sw) _ confs
      (fun ci c s hc => tbConf_err b P ew sw ci c (hh c hc).1 (hh c hc).2 s) 0 (v.st, (0 : K × K × K)), zero_add]
  have hrho : (confLoop (tbConf b P ew sw) confs 0 (v.st, (0 : K × K × K))).2.2.1 =
      (confs.map fun c => (c.atoms.zipIdx.map fun ak => (embedAt b P c ak.2 ak.1).rho).sum).sum := by
    rw [hsum]
    exact (map_list_sum ((AddMonoidHom.fst K K).comp (AddMonoidHom.snd K (K × K))) _).trans (by rw [List.map_map]; rfl)
  have hrhoS : (confLoop (tbConf b P ew sw) confs 0 (v.st, (0 : K × K × K))).2.2.2 =
      (confs.map fun c => (c.atoms.zipIdx.map fun ak => (embedAt b P.second c ak.2 ak.1).rho).sum).sum := by
    rw [hsum]
    exact (map_list_sum ((AddMonoidHom.snd K K).comp (AddMonoidHom.snd K (K × K))) _).trans (by rw [List.map_map]; rfl)
  have hfin : v'.st = (confLoop (tbConf b P ew sw) confs 0 (v.st, (0 : K × K × K))).1 ∧
      y = (confLoop (tbConf b P ew sw) confs 0 (v.st, (0 : K × K × K))).2.1 + (if b.apot = true then totalPenalty w qs eopp univ else 0) + (tbDummies b P dummy0 natoms (confLoop (tbConf b P ew sw) confs 0 (v.st, (0 : K × K × K))).2.2.1 (confLoop (tbConf b P ew sw) confs 0 (v.st, (0 : K × K × K))).2.2.2 v.dummy).2 := by
    unfold tbObjective at hr
    by_cases hb : b.apot = true
    · simp only [if_pos hb] at hr
      cases hp : apotPunish w qs eopp univ v.par v.pot with
      | error e => simp [hp, bind, Except.bind] at hr
      | ok p =>
        simp only [hp, bind, Except.bind, Except.ok.injEq, Prod.mk.injEq] at hr
        rw [← hr.1, ← hr.2, if_pos hb, apotPunish_sum w qs eopp univ _ _ p hp]
        exact ⟨rfl, rfl⟩
    · simp only [if_neg hb, Except.ok.injEq, Prod.mk.injEq] at hr
      rw [← hr.1, ← hr.2, if_neg hb, add_zero]
      exact ⟨rfl, rfl⟩
  obtain ⟨hst, hy⟩ := hfin
  have h : y = r.force + r.energy + r.stress + rest := by
    refine hy.trans ?_
    simp only [AddMonoidHom.coe_fst] at hrun
    rw [hrun, hrho, hrhoS, tbDummies, eamDummies_err, eamDummies_err]
    simp only [r, rest]
    rw [hst]
    ring
  exact ⟨h, report_punish b opt ew sw confs v'.st.fv y rest h⟩

theorem eeDummies_err (b : Build) (P : EamPots K) (dummy0 dummy : Nat → K) : (eeDummies b P dummy0 dummy).2 = eeGaugeError b P dummy0 := by
  unfold eeDummies eeGaugeError
  by_cases h1 : b.noPunish = true
  · rw [if_pos h1, if_pos h1]
  · rw [if_neg h1, if_neg h1]
    simp only
    rw [← List.sum_toFinset _ List.nodup_range, List.toFinset_range]
    refine Finset.sum_congr rfl fun g _ => ?_
    rw [dummySlope, if_pos (show b.clamped.rescale = true from rfl), dummyWeight,
      show ((1 : K) / 2) * (P.beg (P.paircol + P.ntypes + g) + P.fin (P.paircol + P.ntypes + g))
        = (P.beg (P.paircol + P.ntypes + g) + P.fin (P.paircol + P.ntypes + g)) / 2 by ring]
    ring

/-- **C74 for EAM potentials with charges, without or with dipoles**, whatever dipoles the self-consistency loop arrived at. -/
theorem C74_eamel (b : Build) (opt dip : Bool) (P : EamPots K) (E : Elec K) (ew sw w : K) (qs : List (Bound K)) (eopp univ : List (Nat × K))
    (dummy0 : Nat → K) (confs : List (Conf K)) (hn : Numbered confs) (hh : ∀ c ∈ confs, HalfList c ∧ EamColumns P c ∧ Aligned c)
    (hd : dip = true → ∀ c ∈ confs, TypesMatch c ∧ PolarCharged E c ∧ SamePolar E c) (v v' : EeVector K) (y : K)
    (hr : eeObjective b dip P E ew sw w qs eopp univ dummy0 confs v = .ok (v', y)) :
    let r := writeErrors b opt ew sw confs v'.st.fv y
    let rest := (confs.map (adpLimitError b.clamped P)).sum + (if b.apot = true then totalPenalty w qs eopp univ else 0) +
      eeGaugeError b P dummy0
    y = r.force + r.energy + r.stress + rest ∧
    r.punish = if 1 / 100 < rest ∧ opt = true then some rest else none := by
  intro r rest
  have hacc : ∀ ci c s, c ∈ confs → Accounted b ew sw (fun s : EeState K => s.fv) (AddMonoidHom.fst K K) (adpLimitError b.clamped P)
      (eeConf b dip P E ew sw) ci c s := by
    intro ci c s hc
    obtain ⟨-, -, p1, p2, p3, p4, -, p5, -⟩ := eeConf_spec b dip P E ew sw ci c (hh c hc).1 (hh c hc).2.1 (hh c hc).2.2
      (fun h => (hd h c hc).1) (fun h => (hd h c hc).2.1) (fun h => (hd h c hc).2.2) s
    refine ⟨fun x hx => (p1 x hx).1, fun hu j a hj => ?_, _, _, p3, p4, p5⟩
    have := p2 j a hj
    rwa [hu, if_neg (by simp)] at this
  have hrun := reported_run b opt ew sw y (fun s : EeState K => s.fv) (AddMonoidHom.fst K K) (adpLimitError b.clamped P) (eeConf b dip P E ew sw)
    confs hn hacc v.st
  have hfin : v'.st = (confLoop (eeConf b dip P E ew sw) confs 0 (v.st, (0 : K × K))).1 ∧
      y = (confLoop (eeConf b dip P E ew sw) confs 0 (v.st, (0 : K × K))).2.1 + (if b.apot = true then totalPenalty w qs eopp univ else 0) + (eeDummies b P dummy0 v.dummy).2 := by
    unfold eeObjective at hr
    by_cases hb : b.apot = true
    · simp only [if_pos hb] at hr
      cases hp : apotPunish w qs eopp univ v.par v.pot with
      | error e => simp [hp, bind, Except.bind] at hr
      | ok p =>
        simp only [hp, bind, Except.bind, Except.ok.injEq, Prod.mk.injEq] at hr
        rw [← hr.1, ← hr.2, if_pos hb, apotPunish_sum w qs eopp univ _ _ p hp]
        exact ⟨rfl, rfl⟩
    · simp only [if_neg hb, Except.ok.injEq, Prod.mk.injEq] at hr
      rw [← hr.1, ← hr.2, if_neg hb, add_zero]
      exact ⟨rfl, rfl⟩
  obtain ⟨hst, hy⟩ := hfin
  have h : y = r.force + r.energy + r.stress + rest := by
    refine hy.trans ?_
    simp only [AddMonoidHom.coe_fst] at hrun
    rw [hrun, eeDummies_err]
    simp only [r, rest]
    rw [hst]
    ring
  exact ⟨h, report_punish b opt ew sw confs v'.st.fv y rest h⟩

/-- **C74 for pair potentials with charges, without or with dipoles**, whatever dipoles the self-consistency loop arrived at. -/
theorem C74_elstat (b : Build) (opt dip : Bool) (P : Pots K) (E : Elec K) (ew sw w : K) (qs : List (Bound K)) (eopp univ : List (Nat × K))
    (confs : List (Conf K)) (hn : Numbered confs) (hh : ∀ c ∈ confs, HalfList c ∧ Aligned c)
    (hd : dip = true → ∀ c ∈ confs, TypesMatch c ∧ PolarCharged E c) (v v' : ElVector K) (y : K)
    (hr : elObjective b dip P E ew sw w qs eopp univ confs v = .ok (v', y)) :
    let r := writeErrors b opt ew sw confs v'.st.fv y
    let rest := totalPenalty w qs eopp univ
    y = r.force + r.energy + r.stress + rest ∧
    r.punish = if 1 / 100 < rest ∧ opt = true then some rest else none := by
  intro r rest
  have hacc : ∀ ci c s, c ∈ confs → Accounted b ew sw (fun s : ElState K => s.fv) (AddMonoidHom.id K) (fun _ => 0)
      (elConf b dip P E ew sw) ci c s := by
    intro ci c s hc
    obtain ⟨p1, p2, p3, p4, -, p5⟩ := elConf_spec b dip P E ew sw ci c (hh c hc).1 (hh c hc).2
      (fun h => (hd h c hc).1) (fun h => (hd h c hc).2) s
    refine ⟨fun x hx => p1 x hx, fun hu j a hj => ?_, _, _, p3, p4, p5.trans (add_zero _).symm⟩
    have := p2 j a hj
    rwa [hu, if_neg (by simp)] at this
  have hrun := reported_run b opt ew sw y (fun s : ElState K => s.fv) (AddMonoidHom.id K) (fun _ => 0) (elConf b dip P E ew sw)
    confs hn hacc v.st
  have hfin : v'.st = (confLoop (elConf b dip P E ew sw) confs 0 (v.st, (0 : K))).1 ∧
      y = (confLoop (elConf b dip P E ew sw) confs 0 (v.st, (0 : K))).2 + totalPenalty w qs eopp univ := by
    unfold elObjective at hr
    cases hp : apotPunish w qs eopp univ v.par v.pot with
    | error e => simp [hp, bind, Except.bind] at hr
    | ok p =>
      simp only [hp, bind, Except.bind, Except.ok.injEq, Prod.mk.injEq] at hr
      rw [← hr.1, ← hr.2, apotPunish_sum w qs eopp univ _ _ p hp]
      exact ⟨rfl, rfl⟩
  obtain ⟨hst, hy⟩ := hfin
  have h : y = r.force + r.energy + r.stress + rest := by
    refine hy.trans ?_
    simp only [AddMonoidHom.id_apply] at hrun
    rw [hrun]
    simp only [r, rest]
    rw [hst]
    simp
  exact ⟨h, report_punish b opt ew sw confs v'.st.fv y rest h⟩

/-- **C74 for angular potentials with charges**: the reference stresses of configurations which do not use them are part of the objective and
of the sum of the stress errors. -/
theorem C74_angel (b : Build) (opt : Bool) (P : AngPots K) (E : Elec K) (ew sw w : K) (qs : List (Bound K)) (eopp univ : List (Nat × K))
    (confs : List (Conf K)) (hn : Numbered confs) (hi : ∀ c ∈ confs, Inside c) (v v' : PairVec K) (y : K)
    (hr : angElObjective b P E ew sw w qs eopp univ confs v = .ok (v', y)) :
    let r := writeErrors b opt ew sw confs v'.fv y
    let pen := if b.apot = true then totalPenalty w qs eopp univ else 0
    y = r.force + r.energy + r.stress + pen ∧
    r.punish = if 1 / 100 < pen ∧ opt = true then some pen else none := by
  intro r pen
  have hacc : ∀ k c, confs[k]? = some c →
      residualError b ew sw v'.fv k c + stressOffset b sw c = c.weight * forceResidual b v'.fv c + c.weight * ew * v'.fv.energy k ^ 2 +
        if b.stress = true then c.weight * sw * ∑ x : Fin 6, v'.fv.stress k x ^ 2 else 0 := by
    intro k c hk
    have hc := hi c (List.mem_of_getElem? hk)
    obtain ⟨h1, -⟩ := sumObjective_ok _ _ w qs eopp univ confs v v' y hr
    have hg : ∀ k c, confs[k]? = some c → (fun (_ : Nat) c => Inside c) k c := fun k c hk => hi c (List.mem_of_getElem? hk)
    have hl := local_of_writes (good := fun _ c => Inside c) b false (angElConf b P E ew sw) (fun _ c hc => angElConf_writes b P E ew sw c hc)
    obtain ⟨e, F, S, hF, hS, hq⟩ := angElConf_result b P E ew sw c hc
    have e1 : (if c.uf = true then c.weight * forceResidual b v'.fv c else 0) = c.weight * forceResidual b v'.fv c := by
      by_cases hu : c.uf = true
      · rw [if_pos hu]
      · rw [if_neg hu]
        have : forceResidual b v'.fv c = 0 := by
          unfold forceResidual
          apply List.sum_eq_zero
          intro z hz
          obtain ⟨⟨a, j⟩, haj, rfl⟩ := List.mem_map.1 hz
          have hj := List.mem_zipIdx_iff_getElem?.1 haj
          have hlt := (List.getElem?_eq_some_iff.1 hj).1
          have hz : ∀ x, v'.fv.force (c.start + j) x = 0 := by
            intro x
            have e := loop_cell hl confs hg hn (v.fv, 0) k c hk (.force (c.start + j) x) ⟨by omega, by omega⟩
            rw [h1]
            refine e.trans ?_
            exact congrFun (C85_unused b P E ew sw k c hc (by simpa using hu) ⟨0, 0, 0, 0⟩ (c.start + j) (by omega) (by omega)) x
          simp only [hz]
          split <;> simp
        rw [this, mul_zero]
    unfold residualError stressOffset
    rw [e1, add_assoc]
    congr 1
    by_cases hb : b.stress = true
    · rw [if_pos hb]
      by_cases hu : c.uf = true ∧ c.us = true
      · rw [if_pos ⟨hb, hu⟩, if_neg (fun h => h.2 hu), add_zero]
      · rw [if_neg (fun h => hu h.2), if_pos ⟨hb, hu⟩, zero_add]
        congr 1
        refine Finset.sum_congr rfl fun x _ => ?_
        have e := loop_cell hl confs hg hn (v.fv, 0) k c hk (.stress k x) ⟨hb, rfl⟩
        rw [h1]
        refine Eq.trans ?_ (congrArg (· ^ 2) e).symm
        have := (hq k ⟨0, 0, 0, 0⟩).2.2.2.1
        show _ = (angElConf b P E ew sw k c ⟨0, 0, 0, 0⟩).1.stress k x ^ 2
        rw [this, if_pos hb, Function.update_self]
        simp only [hS hu, Pi.zero_apply, zero_div, zero_sub, neg_sq]
    · rw [if_neg hb, if_neg (fun h => hb h.1), if_neg (fun h => hb h.1), add_zero]
  have h : y = r.force + r.energy + r.stress + pen := by
    refine (C85_objective b P E ew sw w qs eopp univ confs hn hi v v' y hr).trans ?_
    show _ = forceSum b confs v'.fv + energySum ew confs v'.fv + stressSum b sw confs v'.fv + pen
    rw [forceSum_eq b hn, energySum_eq, stressSum_eq, ← sum_zipIdx_add, ← sum_zipIdx_add, add_right_comm]
    congr 1
    rw [sum_map_zipIdx confs, ← sum_zipIdx_add]
    congr 1
    refine map_zipIdx_congr _ _ _ fun k c hk => ?_
    exact hacc k c hk
  exact ⟨h, report_punish b opt ew sw confs v'.fv y pen h⟩

/-! ### Examples for the routines with half neighbour lists -/

theorem reportConfs_half : ∀ c ∈ [exConf, exConf2], HalfList c ∧ EamColumns exPots c ∧ Aligned c := by
  intro c hc
  simp only [List.mem_cons, List.not_mem_nil, or_false] at hc
  rcases hc with rfl | rfl
  · exact ⟨exConf_half, exConf_cols, by unfold Aligned; decide +kernel⟩
  · exact ⟨exConf2_half, exConf2_cols, by unfold Aligned; decide +kernel⟩

/-- Analytic potentials, one parameter outside its bounds. -/
def reportBuild : Build := { exBuild with apot := true }

/-- The three sums are positive and do not make up the objective. -/
def reportsAll (fv : FV ℚ) (y : ℚ) : Bool :=
  let r := writeErrors reportBuild true 1 1 [exConf, exConf2] fv y
  decide (0 < r.force ∧ 0 < r.energy ∧ 0 < r.stress ∧ r.force + r.energy + r.stress + 90000000 ≤ y ∧ r.punish ≠ none)

example : Numbered [exConf, exConf2] ∧ (∀ c ∈ [exConf, exConf2], HalfList c ∧ EamColumns exPots c ∧ Aligned c) ∧
    (match adpObjective reportBuild exPots 1 1 0 [⟨5, 0, 2⟩] [] [] (fun _ => 0) 3 [exConf, exConf2] ⟨⟨⟨0, 0, 0, 0⟩, 0, 0, 0, 0, 0⟩, 0, 0, 0⟩ with
      | .ok (v', y) => reportsAll v'.st.fv y | .error _ => false) = true :=
  ⟨exConfs_numbered, reportConfs_half, by decide +kernel⟩

example : (match tbObjective reportBuild exPots 1 1 0 [⟨5, 0, 2⟩] [] [] (fun _ => 0) 3 [exConf, exConf2] ⟨⟨⟨0, 0, 0, 0⟩, 0, 0, 0, 0⟩, 0, 0, 0⟩ with
      | .ok (v', y) => reportsAll v'.st.fv y | .error _ => false) = true := by decide +kernel

example : (match elObjective reportBuild false exPots.toPots oneE 1 1 0 [⟨5, 0, 2⟩] [] [] [exConf, exConf2]
        ⟨⟨⟨0, 0, 0, 0⟩, ⟨0, 0, 0, 0, 0⟩⟩, 0, 0⟩ with
      | .ok (v', y) => reportsAll v'.st.fv y | .error _ => false) = true := by decide +kernel

/-- With dipoles: the second atom type is not polarisable. -/
example : (∀ c ∈ [exConf, exConf2], TypesMatch c ∧ PolarCharged oneE c) ∧
    (match elObjective reportBuild true exPots.toPots oneE 1 1 0 [⟨5, 0, 2⟩] [] [] [exConf, exConf2]
        ⟨⟨⟨0, 0, 0, 0⟩, ⟨0, 0, 0, 0, 0⟩⟩, 0, 0⟩ with
      | .ok (v', y) => reportsAll v'.st.fv y | .error _ => false) = true := by
  refine ⟨?_, by decide +kernel⟩
  intro c hc
  simp only [List.mem_cons, List.not_mem_nil, or_false] at hc
  rcases hc with rfl | rfl
  · exact ⟨by unfold TypesMatch; decide +kernel, by unfold PolarCharged; decide +kernel⟩
  · exact ⟨by unfold TypesMatch; decide +kernel, by unfold PolarCharged; decide +kernel⟩

example : (match eeObjective reportBuild false exPots oneE 1 1 0 [⟨5, 0, 2⟩] [] [] (fun _ => 0) [exConf, exConf2]
        ⟨⟨⟨0, 0, 0, 0⟩, ⟨0, 0, 0, 0, 0⟩, 0, 0⟩, 0, 0, 0⟩ with
      | .ok (v', y) => reportsAll v'.st.fv y | .error _ => false) = true := by decide +kernel

/-- Both types polarisable. -/
def bothPolar : Elec ℚ := { oneE with alpha := fun _ => 1 }

example : (∀ c ∈ [exConf, exConf2], TypesMatch c ∧ PolarCharged bothPolar c ∧ SamePolar bothPolar c) ∧
    (match eeObjective reportBuild true exPots bothPolar 1 1 0 [⟨5, 0, 2⟩] [] [] (fun _ => 0) [exConf, exConf2]
        ⟨⟨⟨0, 0, 0, 0⟩, ⟨0, 0, 0, 0, 0⟩, 0, 0⟩, 0, 0, 0⟩ with
      | .ok (v', y) => reportsAll v'.st.fv y | .error _ => false) = true := by
  refine ⟨?_, by decide +kernel⟩
  intro c hc
  simp only [List.mem_cons, List.not_mem_nil, or_false] at hc
  rcases hc with rfl | rfl
  · exact ⟨by unfold TypesMatch; decide +kernel, by unfold PolarCharged; decide +kernel, by unfold SamePolar; decide +kernel⟩
  · exact ⟨by unfold TypesMatch; decide +kernel, by unfold PolarCharged; decide +kernel, by unfold SamePolar; decide +kernel⟩

/-- A corner of three charged atoms: the reference stress of a configuration which does not use stresses is in both. -/
example : Numbered [cornerConf true false 1 2] ∧ (∀ c ∈ [cornerConf true false 1 2], Inside c) ∧
    (match angElObjective ⟨true, false, false, false, true, false⟩ cornerAng cornerElec 1 1 0 [] [] [] [cornerConf true false 1 2]
        ⟨⟨0, 0, 0, 0⟩, 0, 0⟩ with
      | .ok (v', y) =>
        let r := writeErrors ⟨true, false, false, false, true, false⟩ true 1 1 [cornerConf true false 1 2] v'.fv y
        decide (0 < r.force ∧ 0 < r.energy ∧ 0 < r.stress ∧ y = r.force + r.energy + r.stress ∧ r.punish = none)
      | .error _ => false) = true := by
  refine ⟨corner_numbered _ _ _ _, ?_, by decide +kernel⟩
  intro c hc
  obtain rfl := List.mem_singleton.1 hc
  exact corner_inside _ _ _ _

/-! ### KIM models -/

/-- A configuration as the KIM routine sees it: `sq` takes the roots of the weights, `src` gives the source atoms of the particles. -/
def kimOf (sq : K → K) (ew sw : K) (src : Conf K → List Nat) (c : Conf K) : KimConf K :=
  ⟨c.start, c.atoms, src c, c.uf, c.us, sq c.weight, sq (c.weight * ew), sq (c.weight * sw), c.vol, c.force0, c.energy0, c.stress0⟩

theorem confLoop_map {α β τ ε : Type*} [Add ε] (f : α → β) (one : Nat → β → τ → τ × ε) (l : List α) : ∀ (ci : Nat) (s : τ × ε),
    confLoop one (l.map f) ci s = confLoop (fun ci a => one ci (f a)) l ci s := by
  induction l with
  | nil => intro ci s; rfl
  | cons a l ih =>
    intro ci s
    rw [List.map_cons, confLoop, confLoop, ih]

theorem unpicked (p : Bool) (h : ¬ p = true) (t : Fin 6 → K) (x : Fin 6) : (if p = true then t else 0) x ^ 2 = 0 := by
  rw [if_neg h]
  exact zero_pow two_ne_zero

/-- One configuration: which entries are written, and the error. -/
theorem kimConf_report (b : Build) (compute : Nat → KimResult K) (sq : K → K) (ew sw : K) (src : Conf K → List Nat) (ci : Nat) (c : Conf K)
    (hs : ∀ a ∈ src c, c.start ≤ a ∧ a < c.start + c.atoms.length) (s : FV K) :
    OwnEntries (fun v => v) (fun ci c => kimConf b compute ci (kimOf sq ew sw src c)) ci c s ∧
    (kimConf b compute ci (kimOf sq ew sw src c) s).2 = forceResidual b (kimConf b compute ci (kimOf sq ew sw src c) s).1 c +
      (kimConf b compute ci (kimOf sq ew sw src c) s).1.energy ci ^ 2 +
      (if b.stress = true then ∑ x : Fin 6, (kimConf b compute ci (kimOf sq ew sw src c) s).1.stress ci x ^ 2 else 0) := by
  obtain ⟨-, h2, h3⟩ := kimAtoms_spec b (kimOf sq ew sw src c) c.atoms c.start (kimGather (src c) (compute ci).forces s.force, 0)
  refine ⟨⟨fun x hx => ?_, fun j hj => ?_, fun j hj => ?_⟩, ?_⟩
  · show (kimAtoms b (kimOf sq ew sw src c) c.atoms c.start (kimGather (src c) (compute ci).forces s.force, 0)).1 x = s.force x
    rw [h2 x hx]
    simp only [kimGather_eq]
    rw [List.sum_eq_zero, add_zero]
    intro z hz
    obtain ⟨p, hp, rfl⟩ := List.mem_map.1 hz
    have := hs p.1 (List.of_mem_zip hp).1
    rw [if_neg (by omega)]
  · exact Function.update_of_ne hj _ _
  · show (if b.stress = true then Function.update s.stress ci _ else s.stress) j = s.stress j
    split
    · exact Function.update_of_ne hj _ _
    · rfl
  · unfold kimConf
    simp only [kimOf] at h3 ⊢
    rw [h3]
    simp only [forceResidual, Function.update_self, zero_add]
    by_cases hb : b.stress = true
    · simp only [hb, Bool.true_and, if_true, Function.update_self]
      by_cases hu : (c.uf && c.us) = true
      · simp only [hu, if_true]
        rw [← List.sum_ofFn (f := fun x : Fin 6 => _)]
        simp only [pow_two]
      · have hu' : (c.uf && c.us) = false := by simpa using hu
        simp only [hu', if_false, Bool.false_eq_true]
        rw [pow_two]
        refine (add_zero _).symm.trans (congrArg _ (Eq.symm ?_))
        refine Finset.sum_eq_zero fun x _ => ?_
        exact unpicked _ hu _ x
    · simp only [hb, Bool.false_and, if_false, Bool.false_eq_true, add_zero]
      ring

/-- **C74 for KIM models**, what does hold whatever the weights: the objective is the sum of the squares of the entries plus the punishments,
and the report multiplies the squares of each configuration by its weights **once more**, though the entries hold the roots of the
weights already (`force_kim.c` 200-257). -/
theorem C74_kim_sums (b : Build) (opt : Bool) (compute : (Nat → K) → Nat → KimResult K) (cache : Nat → K) (sq : K → K) (ew sw : K)
    (src : Conf K → List Nat) (bounds : (Nat → K) → List (Bound K)) (confs : List (Conf K)) (hn : Numbered confs)
    (hs : ∀ c ∈ confs, ∀ a ∈ src c, c.start ≤ a ∧ a < c.start + c.atoms.length) (xi : Nat → K) (s s' : KimState K) (y : K)
    (hr : kimObjective b compute cache (confs.map (kimOf sq ew sw src)) bounds xi s = (s', y)) :
    let r := writeErrors b opt ew sw confs s'.fv y
    let F := fun c : Conf K => forceResidual b s'.fv c
    let E := fun k : Nat => s'.fv.energy k ^ 2
    let S := fun k : Nat => if b.stress = true then ∑ x : Fin 6, s'.fv.stress k x ^ 2 else 0
    y = (confs.zipIdx.map fun ck => F ck.1 + E ck.2 + S ck.2).sum + (punishPars (bounds xi) 0 ⟨s.par, 0, 0⟩).sum ∧
    r.force = (confs.zipIdx.map fun ck => ck.1.weight * F ck.1).sum ∧
    r.energy = (confs.zipIdx.map fun ck => ck.1.weight * ew * E ck.2).sum ∧
    r.stress = (confs.zipIdx.map fun ck => ck.1.weight * sw * S ck.2).sum := by
  intro r F E S
  refine ⟨?_, forceSum_eq b hn _, energySum_eq ew confs _, ?_⟩
  · obtain ⟨-, -, st, h2, h3⟩ := confLoop_states (fun v : FV K => v)
      (fun ci c => kimConf b (compute (kimUpdate cache xi s.model)) ci (kimOf sq ew sw src c)) confs
      (fun ci c v hc => (kimConf_report b _ sq ew sw src ci c (hs c hc) v).1) 0 0 (s.fv, (0 : K)) (starts_numbered hn)
    have hk : kimObjective b compute cache (confs.map (kimOf sq ew sw src)) bounds xi s =
        (⟨kimUpdate cache xi s.model,
          (confLoop (fun ci c => kimConf b (compute (kimUpdate cache xi s.model)) ci (kimOf sq ew sw src c)) confs 0 (s.fv, (0 : K))).1,
          (punishPars (bounds xi) 0 ⟨s.par, 0, 0⟩).par⟩,
          (confLoop (fun ci c => kimConf b (compute (kimUpdate cache xi s.model)) ci (kimOf sq ew sw src c)) confs 0 (s.fv, (0 : K))).2 +
            (punishPars (bounds xi) 0 ⟨s.par, 0, 0⟩).sum) := by
      rw [← confLoop_map (kimOf sq ew sw src) (kimConf b (compute (kimUpdate cache xi s.model)))]
      rfl
    rw [hk, Prod.mk.injEq] at hr
    obtain ⟨rfl, rfl⟩ := hr
    congr 1
    rw [h2, zero_add]
    congr 1
    refine List.map_congr_left fun ck hck => ?_
    have hk : confs[ck.2]? = some ck.1 := List.mem_zipIdx_iff_getElem?.1 hck
    obtain ⟨f1, f2, f3⟩ := h3 ck.2 ck.1 hk
    rw [(kimConf_report b _ sq ew sw src (0 + ck.2) ck.1 (hs ck.1 (List.mem_of_getElem? hk)) (st ck.2)).2]
    simp only [F, E, S]
    rw [Nat.zero_add] at f1 f2 f3 ⊢
    rw [f2, f3]
    congr 2
    unfold forceResidual
    congr 1
    refine List.map_congr_left fun ak hak => ?_
    rw [f1 ak.2 (List.getElem?_eq_some_iff.1 (List.mem_zipIdx_iff_getElem?.1 hak)).1]
  · refine (stressSum_eq b sw confs _).trans ?_
    congr 1
    refine List.map_congr_left fun ck _ => ?_
    simp only [S]
    split
    · rfl
    · rw [mul_zero]

/-- **C74 for KIM models if all weights are one**.  Missing: other weights (`C74_kim_violated`). -/
theorem C74_kim_partial (b : Build) (opt : Bool) (compute : (Nat → K) → Nat → KimResult K) (cache : Nat → K) (sq : K → K)
    (src : Conf K → List Nat) (bounds : (Nat → K) → List (Bound K)) (confs : List (Conf K)) (hn : Numbered confs)
    (hs : ∀ c ∈ confs, ∀ a ∈ src c, c.start ≤ a ∧ a < c.start + c.atoms.length) (hw : ∀ c ∈ confs, c.weight = 1) (xi : Nat → K)
    (s s' : KimState K) (y : K) (hr : kimObjective b compute cache (confs.map (kimOf sq 1 1 src)) bounds xi s = (s', y)) :
    let r := writeErrors b opt 1 1 confs s'.fv y
    let pen := (punishPars (bounds xi) 0 ⟨s.par, 0, 0⟩).sum
    y = r.force + r.energy + r.stress + pen ∧ r.punish = if 1 / 100 < pen ∧ opt = true then some pen else none := by
  intro r pen
  obtain ⟨h1, h2, h3, h4⟩ := C74_kim_sums b opt compute cache sq 1 1 src bounds confs hn hs xi s s' y hr
  have h : y = r.force + r.energy + r.stress + pen := by
    refine h1.trans ?_
    show _ = (writeErrors b opt 1 1 confs s'.fv y).force + (writeErrors b opt 1 1 confs s'.fv y).energy +
      (writeErrors b opt 1 1 confs s'.fv y).stress + pen
    rw [h2, h3, h4, ← List.sum_map_add, ← List.sum_map_add]
    congr 2
    refine List.map_congr_left fun ck hck => ?_
    rw [hw ck.1 (List.mem_of_getElem? (List.mem_zipIdx_iff_getElem?.1 hck))]
    ring
  exact ⟨h, report_punish b opt 1 1 confs s'.fv y pen h⟩

/-- Two atoms and an image of the first one, force weight four. -/
def kimWeighted (w : ℚ) : Conf ℚ := { exConf with weight := w }

/-- A model with forces of the three particles. -/
def kimForces (_ : Nat → ℚ) (_ : Nat) : KimResult ℚ := ⟨3, [![1, 0, 0], ![2, 0, 0], ![5, 0, 0]], fun _ => 8⟩

/-- Weight one: the report of the example. -/
example : Numbered [kimWeighted 1] ∧ (∀ c ∈ [kimWeighted 1], ∀ a ∈ [0, 1, 0], c.start ≤ a ∧ a < c.start + c.atoms.length) ∧
    (let o := kimObjective exBuild kimForces (fun _ => 0) ([kimWeighted 1].map (kimOf (fun x => x) 1 1 (fun _ => [0, 1, 0])))
      (fun _ => [⟨5, 0, 2⟩]) (fun _ => 1) ⟨fun _ => 0, ⟨0, 0, 0, 0⟩, 0⟩
     let r := writeErrors exBuild true 1 1 [kimWeighted 1] o.1.fv o.2
     0 < r.force ∧ 0 < r.energy ∧ 0 < r.stress ∧ o.2 = r.force + r.energy + r.stress + 90000000 ∧ r.punish = some 90000000) := by
  refine ⟨by intro k c hk; match k with | 0 => (cases hk; rfl) | k + 1 => simp at hk, by decide +kernel, by decide +kernel⟩

/-- **C74 is violated with KIM models**: a configuration of weight four (the root of the weight is two).  The force errors of the report are four
times the contribution of the forces to the objective, and more than the objective itself; the warning about the punishment of the
parameter outside its bounds is missing, since the rest is negative. -/
theorem C74_kim_violated :
    let sq : ℚ → ℚ := fun x => if x = 4 then 2 else 0
    let o := kimObjective exBuild kimForces (fun _ => 0) ([kimWeighted 4].map (kimOf sq 1 1 (fun _ => [0, 1, 0])))
      (fun _ => [⟨2001 / 1000, 0, 2⟩]) (fun _ => 1) ⟨fun _ => 0, ⟨0, 0, 0, 0⟩, 0⟩
    let r := writeErrors exBuild true 1 1 [kimWeighted 4] o.1.fv o.2
    sq 4 ^ 2 = 4 ∧ 1 / 100 < (punishPars [(⟨2001 / 1000, 0, 2⟩ : Bound ℚ)] 0 ⟨fun _ => 0, 0, 0⟩).sum ∧
    o.2 < r.force + r.energy + r.stress ∧ r.punish = none ∧
    r.force = 4 * forceResidual exBuild o.1.fv (kimWeighted 4) := by decide +kernel

end Verif.Props
