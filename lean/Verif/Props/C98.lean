/-
C98  The punishment file accounts for the constraint part of the objective.
-/
import Verif.Model.Punish
import Verif.Props.C63
import Verif.Props.C79
import Verif.Props.C87

set_option linter.unusedSectionVars false

namespace Verif.Props

open Verif.Force Verif.Spec

variable {K : Type*} [Field K] [LinearOrder K] [IsStrictOrderedRing K]

/-- Sum of all squares which a punishment file lists: the column `p^2`, the columns `U^2` and `U'^2`, the additional punishment. -/
def fileTotal (f : PunishFile K) : K :=
  (f.limits.map LimitRow.sqr).sum + (f.gauges.map fun r => r.u2 + r.du2).sum + (f.mean.map MeanLines.additional).getD 0

/-- Sum of all squares listed on the terminal. -/
def terminalTotal (f : PunishTerminal K) : K := (f.limits.map LimitRow.sqr).sum + (f.gauges.map Prod.fst).sum

theorem range_sum (n : Nat) (f : Nat → K) : ((List.range n).map f).sum = ∑ g ∈ Finset.range n, f g := by
  rw [← List.sum_toFinset f List.nodup_range, List.toFinset_range]

theorem fileTotal_eq (b : Build) (n : Nat) (confs : List (Conf K)) (v : FV K) (dummy : Nat → K) :
    fileTotal (punishFile b n confs v dummy) = (confs.zipIdx.map fun ck => v.limit ck.2 ^ 2).sum +
      ∑ g ∈ Finset.range n, dummy g ^ 2 +
      if b.rescale = true then ∑ g ∈ Finset.range n, dummy (g + n) ^ 2 else dummy n ^ 2 := by
  unfold fileTotal punishFile
  simp only [List.map_map]
  have h1 : (LimitRow.sqr ∘ limitRow v : Conf K × Nat → K) = fun ck => v.limit ck.2 ^ 2 := by
    funext ck
    simp [limitRow, pow_two]
  rw [h1, range_sum]
  by_cases hb : b.rescale = true
  · simp only [Function.comp, gaugeRow, meanLines, if_pos hb, Finset.sum_add_distrib, pow_two]
    simp only [Option.map_none, Option.getD_none]
    ring
  · simp only [Function.comp, gaugeRow, meanLines, if_neg hb, pow_two]
    simp

/-- Entries which a loop over the configurations writes. -/
theorem loop_limit {σ τ ε : Type*} [Add ε] (one : Nat → σ → τ → τ × ε) (lim : τ → Nat → K) (L : σ → K) (confs : List σ)
    (h : ∀ ci c s, c ∈ confs → lim (one ci c s).1 = Function.update (lim s) ci (L c)) (ci : Nat) (s : τ × ε) :
    (∀ k, k < ci → lim (confLoop one confs ci s).1 k = lim s.1 k) ∧
    ∀ k c, confs[k]? = some c → lim (confLoop one confs ci s).1 (ci + k) = L c := by
  induction confs generalizing ci s with
  | nil => simp [confLoop]
  | cons c cs ih =>
    obtain ⟨i1, i2⟩ := ih (fun ci c' s hc => h ci c' s (List.mem_cons_of_mem _ hc)) (ci + 1) ((one ci c s.1).1, s.2 + (one ci c s.1).2)
    have e := h ci c s.1 (by simp)
    simp only [confLoop]
    refine ⟨fun k hk => ?_, fun k c' hk => ?_⟩
    · rw [i1 k (by omega), e, Function.update_of_ne (by omega)]
    · match k with
      | 0 =>
        rw [List.getElem?_cons_zero, Option.some.injEq] at hk
        subst hk
        exact (i1 ci (by omega)).trans (by rw [e, Function.update_self])
      | k + 1 =>
        have := i2 k c' (by simpa using hk)
        rw [← this]
        congr 1
        omega

/-- Entries which it does not write. -/
theorem loop_keep {σ τ ε : Type*} [Add ε] (one : Nat → σ → τ → τ × ε) (lim : τ → Nat → K) (confs : List σ)
    (h : ∀ ci c s, c ∈ confs → lim (one ci c s).1 = lim s) (ci : Nat) (s : τ × ε) : lim (confLoop one confs ci s).1 = lim s.1 := by
  induction confs generalizing ci s with
  | nil => rfl
  | cons c cs ih =>
    simp only [confLoop]
    rw [ih (fun ci c' s hc => h ci c' s (List.mem_cons_of_mem _ hc)), h ci c s.1 (by simp)]

/-- Weighted and unweighted squares agree for weight one. -/
theorem sum_weight_one {α : Type*} (l : List α) (w x : α → K) (h : ∀ a ∈ l, w a = 1) :
    (l.map fun a => w a * x a).sum = (l.map x).sum := by
  congr 1
  exact List.map_congr_left fun a ha => by rw [h a ha, one_mul]

/-! ### EAM -/

/-- Sum of the punishments of the densities of a configuration relative to the reference. -/
def densityExcess (b : Build) (P : EamPots K) (c : Conf K) : K :=
  (c.atoms.zipIdx.map fun ak => (embedAt b P c ak.2 ak.1).limit).sum - c.limit0

/-- What the EAM routine leaves behind. -/
theorem eamVec_run {b : Build} {P : EamPots K} {ew sw w : K} {qs : List (Bound K)} {eopp univ : List (Nat × K)} {dummy0 : Nat → K}
    {natoms : Nat} {confs : List (Conf K)} {v v' : EamVec K} {y : K}
    (hr : eamObjective b P ew sw w qs eopp univ dummy0 natoms confs v = .ok (v', y)) :
    v'.st = (confLoop (eamConf b P ew sw) confs 0 (v.st, (0, 0))).1 ∧
    v'.dummy = (eamDummies b P dummy0 natoms (confLoop (eamConf b P ew sw) confs 0 (v.st, (0, 0))).2.2 v.dummy).1 := by
  unfold eamObjective at hr
  by_cases hb : b.apot = true
  · simp only [if_pos hb] at hr
    cases hp : apotPunish w qs eopp univ v.par v.pot with
    | error e => simp [hp, bind, Except.bind] at hr
    | ok p =>
      simp only [hp, bind, Except.bind, Except.ok.injEq, Prod.mk.injEq] at hr
      rw [← hr.1]
      exact ⟨rfl, rfl⟩
  · simp only [if_neg hb, Except.ok.injEq, Prod.mk.injEq] at hr
    rw [← hr.1]
    exact ⟨rfl, rfl⟩

/-- The squares of the entries which belong to the dummy constraints and the error which the routine adds. -/
theorem eamDummies_squares (b : Build) (hno : b.noPunish = false) (P : EamPots K) (hnt : 0 < P.ntypes) (dummy0 : Nat → K) (natoms : Nat)
    (rho : K) (dummy : Nat → K) :
    let d := eamDummies b P dummy0 natoms rho dummy
    (∑ g ∈ Finset.range P.ntypes, d.1 g ^ 2 +
      if b.rescale = true then ∑ g ∈ Finset.range P.ntypes, d.1 (g + P.ntypes) ^ 2 else d.1 P.ntypes ^ 2) = d.2 := by
  intro d
  simp only [d, eamDummies, hno, Bool.false_eq_true, if_false, range_sum]
  have e1 : ∀ g ∈ Finset.range P.ntypes, (if g < P.ntypes then dummySlope b P dummy0 g else
      if g = P.ntypes ∧ b.rescale = false ∧ 0 < rho then dummyMean b natoms rho else if g < 2 * P.ntypes then 0 else dummy g) ^ 2 =
      dummySlope b P dummy0 g * dummySlope b P dummy0 g + 0 * 0 := by
    intro g hg
    rw [if_pos (Finset.mem_range.1 hg)]
    ring
  rw [Finset.sum_congr rfl e1]
  congr 1
  by_cases hb : b.rescale = true
  · rw [if_pos hb, dummyMean, if_neg (by simp [hb])]
    rw [mul_zero]
    refine Finset.sum_eq_zero fun g hg => ?_
    have := Finset.mem_range.1 hg
    rw [if_neg (by omega), if_neg (by simp [hb]), if_pos (by omega)]
    ring
  · rw [if_neg hb, if_neg (lt_irrefl _)]
    have hb' : b.rescale = false := by simpa using hb
    by_cases hr : 0 < rho
    · rw [if_pos (by simp [hb', hr])]
      ring
    · rw [if_neg (fun h => hr h.2.2), if_pos (by omega), dummyMean, if_neg (by simp [hr])]
      ring

/-- **C98 for EAM potentials, what the file lists**: the squares of the unweighted limiting constraints and all gauge constraints.
Without `RESCALE` the entries of the limiting constraints are never written; they are zero as allocated. -/
theorem C98_eam_file (b : Build) (hno : b.noPunish = false) (P : EamPots K) (hnt : 0 < P.ntypes) (ew sw w : K) (qs : List (Bound K))
    (eopp univ : List (Nat × K)) (dummy0 : Nat → K) (natoms : Nat) (confs : List (Conf K)) (hh : ∀ c ∈ confs, HalfList c ∧ EamColumns P c)
    (v v' : EamVec K) (hz : b.rescale = false → v.st.fv.limit = 0) (y : K)
    (hr : eamObjective b P ew sw w qs eopp univ dummy0 natoms confs v = .ok (v', y)) :
    fileTotal (punishFile b P.ntypes confs v'.st.fv v'.dummy) =
      (confs.map fun c => if b.rescale = true then densityExcess b P c ^ 2 else 0).sum + gaugeError b P dummy0 natoms confs := by
  obtain ⟨h1, h2⟩ := eamVec_run hr
  rw [fileTotal_eq, add_assoc, h2, eamDummies_squares b hno P hnt, eamLoopConfs_err b P ew sw confs hh]
  simp only
  rw [eamDummies_err]
  congr 1
  rw [h1, sum_map_zipIdx confs]
  congr 1
  refine map_zipIdx_congr _ _ _ fun k c hk => ?_
  simp only
  by_cases hb : b.rescale = true
  · rw [if_pos hb]
    have := (loop_limit (eamConf b P ew sw) (fun s => s.fv.limit) (densityExcess b P) confs (fun ci c s hc => by
      have := (eamConf_spec b P ew sw ci c (hh c hc).1 (hh c hc).2 s).2.2.2.2.2.2.1
      rw [if_pos hb] at this
      exact this) 0 (v.st, ((0 : K), (0 : K)))).2 k c hk
    rw [Nat.zero_add] at this
    rw [this]
  · rw [if_neg hb]
    have := loop_keep (eamConf b P ew sw) (fun s => s.fv.limit) confs (fun ci c s hc => by
      have := (eamConf_spec b P ew sw ci c (hh c hc).1 (hh c hc).2 s).2.2.2.2.2.2.1
      rw [if_neg hb] at this
      exact this) 0 (v.st, ((0 : K), (0 : K)))
    rw [this, hz (by simpa using hb)]
    simp

/-- **C98 for EAM potentials**: the objective is the error of the data, the punishments of the parameters and what the file lists, if the
weights are one or densities are not limited.  Missing: with `RESCALE` the objective holds the weighted squares, the file the unweighted
ones (`C98_weight_violated`). -/
theorem C98_eam_partial (b : Build) (hno : b.noPunish = false) (P : EamPots K) (hnt : 0 < P.ntypes) (ew sw w : K) (qs : List (Bound K))
    (eopp univ : List (Nat × K)) (dummy0 : Nat → K) (natoms : Nat) (confs : List (Conf K)) (hh : ∀ c ∈ confs, HalfList c ∧ EamColumns P c)
    (hw : b.rescale = true → ∀ c ∈ confs, c.weight = 1) (v v' : EamVec K) (hz : b.rescale = false → v.st.fv.limit = 0) (y : K)
    (hr : eamObjective b P ew sw w qs eopp univ dummy0 natoms confs v = .ok (v', y)) :
    y = (confs.map fun c => confError b (eamFullSlope b P c) (eamTotal b P c) ew sw c).sum +
      (if b.apot = true then totalPenalty w qs eopp univ else 0) + fileTotal (punishFile b P.ntypes confs v'.st.fv v'.dummy) := by
  rw [C18_eam b P ew sw w qs eopp univ dummy0 natoms confs hh v v' y hr,
    C98_eam_file b hno P hnt ew sw w qs eopp univ dummy0 natoms confs hh v v' hz y hr]
  have e : (confs.map fun c => confError b (eamFullSlope b P c) (eamTotal b P c) ew sw c + limitError b P c).sum =
      (confs.map fun c => confError b (eamFullSlope b P c) (eamTotal b P c) ew sw c).sum +
      (confs.map fun c => if b.rescale = true then densityExcess b P c ^ 2 else 0).sum := by
    rw [← List.sum_map_add]
    congr 1
    refine List.map_congr_left fun c hc => ?_
    unfold limitError densityExcess
    by_cases hb : b.rescale = true
    · rw [if_pos hb, if_pos hb, hw hb c hc, one_mul]
    · rw [if_neg hb, if_neg hb]
  rw [e]
  ring

/-- **C98 for EAM potentials, mean density**: without `RESCALE` the file shows the mean density of all atoms and its distance from one, if
the sum of the densities is positive.  Missing: otherwise it shows one (`C98_mean_violated`). -/
theorem C98_eam_mean_partial (b : Build) (hno : b.noPunish = false) (hb : b.rescale = false) (P : EamPots K) (ew sw w : K)
    (qs : List (Bound K)) (eopp univ : List (Nat × K)) (dummy0 : Nat → K) (natoms : Nat) (confs : List (Conf K))
    (hh : ∀ c ∈ confs, HalfList c ∧ EamColumns P c)
    (hp : 0 < (confs.map fun c => (c.atoms.zipIdx.map fun ak => (embedAt b P c ak.2 ak.1).rho).sum).sum) (v v' : EamVec K) (y : K)
    (hr : eamObjective b P ew sw w qs eopp univ dummy0 natoms confs v = .ok (v', y)) :
    (punishFile b P.ntypes confs v'.st.fv v'.dummy).mean = some ⟨meanDensity b P natoms confs, meanDensity b P natoms confs - 1,
      (100 * (meanDensity b P natoms confs - 1)) ^ 2⟩ := by
  obtain ⟨-, h2⟩ := eamVec_run hr
  rw [eamLoopConfs_err b P ew sw confs hh] at h2
  have h3 : v'.dummy P.ntypes = 100 * (meanDensity b P natoms confs - 1) := by
    rw [h2]
    simp only [eamDummies, hno, Bool.false_eq_true, if_false, lt_irrefl, hb, hp, and_self, if_true]
    rw [dummyMean, if_pos (by simp [hb, hp])]
    rfl
  show meanLines b P.ntypes v'.dummy = _
  rw [meanLines, if_neg (by simp [hb]), h3, dummyWeight, mul_div_cancel_left₀ _ (by norm_num : (100 : K) ≠ 0), sub_add_cancel, pow_two]

/-! ### ADP -/

/-- **C98 for ADP potentials, what the file lists**. -/
theorem C98_adp_file (b : Build) (hno : b.noPunish = false) (P : EamPots K) (ew sw w : K) (qs : List (Bound K))
    (eopp univ : List (Nat × K)) (dummy0 : Nat → K) (natoms : Nat) (confs : List (Conf K))
    (hh : ∀ c ∈ confs, HalfList c ∧ EamColumns P c ∧ Aligned c) (v v' : AdpVec K) (y : K)
    (hr : adpObjective b P ew sw w qs eopp univ dummy0 natoms confs v = .ok (v', y)) :
    fileTotal (punishFile b P.ntypes confs v'.st.fv v'.dummy) =
      (confs.map fun c => densityExcess b P c ^ 2).sum + adpGaugeError b P dummy0 natoms confs ∧
    (b.rescale = false → (punishFile b P.ntypes confs v'.st.fv v'.dummy).mean = some ⟨meanDensity b P natoms confs,
      meanDensity b P natoms confs - 1, (100 * (meanDensity b P natoms confs - 1)) ^ 2⟩) := by
  have hrun : v'.st = (confLoop (adpConf b P ew sw) confs 0 (v.st, (0, 0))).1 ∧
      v'.dummy = (adpDummies b P dummy0 natoms (confLoop (adpConf b P ew sw) confs 0 (v.st, (0, 0))).2.2 v.dummy).1 := by
    unfold adpObjective at hr
    by_cases hb : b.apot = true
    · simp only [if_pos hb] at hr
      cases hp : apotPunish w qs eopp univ v.par v.pot with
      | error e => simp [hp, bind, Except.bind] at hr
      | ok p =>
        simp only [hp, bind, Except.bind, Except.ok.injEq, Prod.mk.injEq] at hr
        rw [← hr.1]
        exact ⟨rfl, rfl⟩
    · simp only [if_neg hb, Except.ok.injEq, Prod.mk.injEq] at hr
      rw [← hr.1]
      exact ⟨rfl, rfl⟩
  obtain ⟨h1, h2⟩ := hrun
  have hrho : (confLoop (adpConf b P ew sw) confs 0 (v.st, ((0 : K), (0 : K)))).2.2 =
      (confs.map fun c => (c.atoms.zipIdx.map fun ak => (embedAt b P c ak.2 ak.1).rho).sum).sum := by
    rw [confLoop_sum (adpConf b P ew sw) _ confs
      (fun ci c s hc => adpConf_err b P ew sw ci c (hh c hc).1 (hh c hc).2.1 (hh c hc).2.2 s) 0 (v.st, ((0 : K), (0 : K)))]
    have h2 : ∀ l : List (Conf K), ∀ f g : Conf K → K, (((0 : K), (0 : K)) + (l.map fun c => (f c, g c)).sum).2 = (l.map g).sum := by
      intro l f g
      have : ((0 : K), (0 : K)) = 0 := rfl
      rw [this, zero_add]
      induction l with
      | nil => rfl
      | cons c l ih => simp only [List.map_cons, List.sum_cons, ← ih]; rfl
    exact h2 _ _ _
  rw [hrho] at h2
  have hd : ∀ i, v'.dummy i = if i < P.ntypes then dummySlope b P dummy0 i
      else if i = P.ntypes ∧ b.rescale = false then 100 * (meanDensity b P natoms confs - 1)
      else if i < 2 * P.ntypes then 0 else v.dummy i := by
    intro i
    rw [h2]
    simp only [adpDummies, hno, Bool.false_eq_true, if_false]
    rfl
  refine ⟨?_, fun hb => ?_⟩
  · rw [fileTotal_eq, add_assoc]
    congr 1
    · rw [h1, sum_map_zipIdx confs]
      congr 1
      refine map_zipIdx_congr _ _ _ fun k c hk => ?_
      simp only
      have := (loop_limit (adpConf b P ew sw) (fun s => s.fv.limit) (densityExcess b P) confs (fun ci c s hc =>
        (adpConf_spec b P ew sw ci c (hh c hc).1 (hh c hc).2.1 (hh c hc).2.2 s).2.2.2.2.2.2.1) 0 (v.st, ((0 : K), (0 : K)))).2 k c hk
      rw [Nat.zero_add] at this
      rw [this]
    · rw [← adpDummies_err b P dummy0 natoms confs v.dummy]
      simp only [adpDummies, hno, Bool.false_eq_true, if_false, range_sum]
      congr 1
      · refine Finset.sum_congr rfl fun g hg => ?_
        rw [hd, if_pos (Finset.mem_range.1 hg)]
        ring
      · by_cases hb : b.rescale = true
        · rw [if_pos hb, if_pos hb]
          refine Finset.sum_eq_zero fun g hg => ?_
          have := Finset.mem_range.1 hg
          rw [hd, if_neg (by omega), if_neg (by simp [hb]), if_pos (by omega)]
          ring
        · rw [if_neg hb, if_neg hb, hd, if_neg (lt_irrefl _), if_pos ⟨rfl, by simpa using hb⟩, dummyWeight, pow_two]
          rfl
  · show meanLines b P.ntypes v'.dummy = _
    rw [meanLines, if_neg (by simp [hb]), hd, if_neg (lt_irrefl _), if_pos ⟨rfl, hb⟩, dummyWeight,
      mul_div_cancel_left₀ _ (by norm_num : (100 : K) ≠ 0), sub_add_cancel, pow_two]

/-- **C98 for ADP potentials**, if all weights are one. -/
theorem C98_adp_partial (b : Build) (hno : b.noPunish = false) (P : EamPots K) (ew sw w : K) (qs : List (Bound K))
    (eopp univ : List (Nat × K)) (dummy0 : Nat → K) (natoms : Nat) (confs : List (Conf K))
    (hh : ∀ c ∈ confs, HalfList c ∧ EamColumns P c ∧ Aligned c) (hw : ∀ c ∈ confs, c.weight = 1) (v v' : AdpVec K) (y : K)
    (hr : adpObjective b P ew sw w qs eopp univ dummy0 natoms confs v = .ok (v', y)) :
    y = (confs.map fun c => vecConfError b (adpFull b P c) (adpStressVec b P c) (adpTotal b P c) ew sw c).sum +
      (if b.apot = true then totalPenalty w qs eopp univ else 0) + fileTotal (punishFile b P.ntypes confs v'.st.fv v'.dummy) := by
  rw [C66_objective b P ew sw w qs eopp univ dummy0 natoms confs hh v v' y hr,
    (C98_adp_file b hno P ew sw w qs eopp univ dummy0 natoms confs hh v v' y hr).1, List.sum_map_add]
  have e := sum_weight_one confs (fun c => c.weight) (fun c => densityExcess b P c ^ 2) hw
  have e' : (confs.map fun c => adpLimitError b P c).sum = (confs.map fun c => c.weight * densityExcess b P c ^ 2).sum := rfl
  rw [e', e]
  ring

/-! ### MEAM -/

/-- **C98 for MEAM potentials**: here the weight is part of the entry, and the file lists what the objective holds.  The entries of the
slopes, which the routine does not write, are zero as allocated, and there are no references for the limiting constraints. -/
theorem C98_meam (b : Build) (P : AngPots K) (hP : ∀ col, P.beg col ≤ P.fin col) (ew sw w : K) (qs : List (Bound K))
    (eopp univ : List (Nat × K)) (natoms : Nat) (confs : List (Conf K)) (hn : Numbered confs) (hi : ∀ c ∈ confs, Inside c)
    (h0 : ∀ c ∈ confs, c.limit0 = 0) (v v' : MeamVec K) (hz : v.dummy = 0) (y : K)
    (hr : meamObjective b P ew sw w qs eopp univ natoms confs v = .ok (v', y)) :
    y = (confs.zipIdx.map fun ck => residualError b ew sw v'.fv ck.2 ck.1 + stressOffset b sw ck.1).sum +
      (if b.apot = true then totalPenalty w qs eopp univ else 0) + fileTotal (punishFile b P.ntypes confs v'.fv v'.dummy) ∧
    (b.rescale = false → (punishFile b P.ntypes confs v'.fv v'.dummy).mean = some ⟨meamMean P natoms confs,
      meamMean P natoms confs - 1, (100 * (meamMean P natoms confs - 1)) ^ 2⟩) := by
  have hrun : v'.fv = (confLoop (meamConf b P ew sw) confs 0 (v.fv, (0, 0))).1 ∧
      v'.dummy = (meamDummy b P.ntypes natoms (confLoop (meamConf b P ew sw) confs 0 (v.fv, (0, 0))).2.2 v.dummy).1 := by
    unfold meamObjective at hr
    by_cases hb : b.apot = true
    · simp only [if_pos hb] at hr
      cases hp : apotPunish w qs eopp univ v.par v.pot with
      | error e => simp [hp, bind, Except.bind] at hr
      | ok p =>
        simp only [hp, bind, Except.bind, Except.ok.injEq, Prod.mk.injEq] at hr
        rw [← hr.1]
        exact ⟨rfl, rfl⟩
    · simp only [if_neg hb, Except.ok.injEq, Prod.mk.injEq] at hr
      rw [← hr.1]
      exact ⟨rfl, rfl⟩
  obtain ⟨h1, h2⟩ := hrun
  have hd : v'.dummy = if b.rescale = true then 0 else Function.update (0 : Nat → K) P.ntypes (100 * (meamMean P natoms confs - 1)) := by
    rw [h2, hz]
    by_cases hb : b.rescale = true
    · rw [if_pos hb, meamDummy, if_pos hb]
    · rw [if_neg hb, meamDummy, if_neg hb, show ((0 : K), (0 : K)) = 0 from rfl, meam_rhoSum b (by simpa using hb) P ew sw confs hi v.fv]
      simp only [dummyWeight, meamMean]
  have hlim : ∀ k c, confs[k]? = some c → v'.fv.limit k = if b.rescale = true then c.weight * meamExcess P c else 0 := by
    intro k c hk
    have hc := List.mem_of_getElem? hk
    have := (loop_limit (meamConf b P ew sw) (fun s => s.limit)
      (fun c => if b.rescale then ((c.atoms.map fun a => (meamSiteEmbed b P a).limit).sum - c.limit0) * c.weight
          else (c.atoms.map fun a => (meamSiteEmbed b P a).limit).sum - c.limit0) confs (fun ci c s hc => by
      obtain ⟨E, F, S, -, -, hq⟩ := meamConf_result b P ew sw c (hi c hc)
      exact (hq ci s).2.2.2.2.1) 0 (v.fv, ((0 : K), (0 : K)))).2 k c hk
    rw [Nat.zero_add] at this
    rw [h1, this]
    by_cases hb : b.rescale = true
    · rw [if_pos hb, if_pos hb]
      unfold meamExcess
      simp only [meamSiteEmbed_limit b hb P hP]
      rw [mul_comm]
    · rw [if_neg hb, if_neg hb, h0 c hc, sub_zero]
      refine List.sum_eq_zero fun z hz => ?_
      obtain ⟨a, -, rfl⟩ := List.mem_map.1 hz
      unfold meamSiteEmbed meamEmbed embed
      rw [if_neg hb, if_neg hb]
      split
      · split <;> rfl
      · split
        · rfl
        · split <;> rfl
  refine ⟨?_, fun hb => ?_⟩
  · rw [meam_objective b P hP ew sw w qs eopp univ natoms confs hn hi v v' y hr, fileTotal_eq]
    have e1 : (confs.zipIdx.map fun ck => v'.fv.limit ck.2 ^ 2).sum =
        (confs.zipIdx.map fun ck => if b.rescale = true then (ck.1.weight * meamExcess P ck.1) ^ 2 else 0).sum := by
      congr 1
      refine map_zipIdx_congr _ _ _ fun k c hk => ?_
      simp only
      rw [hlim k c hk]
      split
      · rfl
      · ring
    have e2 : (confs.zipIdx.map fun ck => residualError b ew sw v'.fv ck.2 ck.1 + (stressOffset b sw ck.1 +
        if b.rescale = true then (ck.1.weight * meamExcess P ck.1) ^ 2 else 0)).sum =
        (confs.zipIdx.map fun ck => residualError b ew sw v'.fv ck.2 ck.1 + stressOffset b sw ck.1).sum +
        (confs.zipIdx.map fun ck => if b.rescale = true then (ck.1.weight * meamExcess P ck.1) ^ 2 else 0).sum := by
      rw [← List.sum_map_add]
      congr 1
      refine List.map_congr_left fun c hc => ?_
      ring
    rw [e1, e2, hd]
    by_cases hb : b.rescale = true
    · simp only [if_pos hb]
      simp
      ring
    · simp only [if_neg hb]
      have e3 : ∑ g ∈ Finset.range P.ntypes, (Function.update (0 : Nat → K) P.ntypes (100 * (meamMean P natoms confs - 1)) g) ^ 2 = 0 := by
        refine Finset.sum_eq_zero fun g hg => ?_
        have := Finset.mem_range.1 hg
        rw [Function.update_of_ne (by omega)]
        simp
      rw [e3, Function.update_self]
      simp
  · show meanLines b P.ntypes v'.dummy = _
    rw [meanLines, if_neg (by simp [hb]), hd, if_neg (by simp [hb]), Function.update_self, dummyWeight,
      mul_div_cancel_left₀ _ (by norm_num : (100 : K) ≠ 0), sub_add_cancel, pow_two]

/-! ### EAM with charges -/

/-- **C98 for EAM potentials with charges**: as for ADP, but there is no constraint on the mean density. -/
theorem C98_eamel_file (b : Build) (hno : b.noPunish = false) (P : EamPots K) (hnt : 0 < P.ntypes) (E : Elec K) (ew sw w : K)
    (qs : List (Bound K)) (eopp univ : List (Nat × K)) (dummy0 : Nat → K) (confs : List (Conf K))
    (hh : ∀ c ∈ confs, HalfList c ∧ EamColumns P c ∧ Aligned c) (v v' : EeVector K) (y : K)
    (hr : eeObjective b false P E ew sw w qs eopp univ dummy0 confs v = .ok (v', y)) :
    fileTotal (punishFile b P.ntypes confs v'.st.fv v'.dummy) =
      (confs.map fun c => densityExcess b.clamped P c ^ 2).sum + eeGaugeError b P dummy0 ∧
    (b.rescale = false → (punishFile b P.ntypes confs v'.st.fv v'.dummy).mean = some ⟨1, 0, 0⟩) := by
  have hrun : v'.st = (confLoop (eeConf b false P E ew sw) confs 0 (v.st, (0, 0))).1 ∧ v'.dummy = (eeDummies b P dummy0 v.dummy).1 := by
    unfold eeObjective at hr
    by_cases hb : b.apot = true
    · simp only [if_pos hb] at hr
      cases hp : apotPunish w qs eopp univ v.par v.pot with
      | error e => simp [hp, bind, Except.bind] at hr
      | ok p =>
        simp only [hp, bind, Except.bind, Except.ok.injEq, Prod.mk.injEq] at hr
        rw [← hr.1]
        exact ⟨rfl, rfl⟩
    · simp only [if_neg hb, Except.ok.injEq, Prod.mk.injEq] at hr
      rw [← hr.1]
      exact ⟨rfl, rfl⟩
  obtain ⟨h1, h2⟩ := hrun
  have hd : ∀ i, v'.dummy i = if i < P.ntypes then dummySlope b.clamped P dummy0 i else if i < 2 * P.ntypes then 0 else v.dummy i := by
    intro i
    rw [h2]
    simp only [eeDummies, hno, Bool.false_eq_true, if_false]
  refine ⟨?_, fun hb => ?_⟩
  · rw [fileTotal_eq, add_assoc]
    congr 1
    · rw [h1, sum_map_zipIdx confs]
      congr 1
      refine map_zipIdx_congr _ _ _ fun k c hk => ?_
      simp only
      have := (loop_limit (eeConf b false P E ew sw) (fun s => s.fv.limit) (densityExcess b.clamped P) confs (fun ci c s hc =>
        (eeConf_spec b false P E ew sw ci c (hh c hc).1 (hh c hc).2.1 (hh c hc).2.2 (by simp) (by simp) (by simp) s).2.2.2.2.2.2.1)
        0 (v.st, ((0 : K), (0 : K)))).2 k c hk
      rw [Nat.zero_add] at this
      rw [this]
    · have e2 : (if b.rescale = true then ∑ g ∈ Finset.range P.ntypes, v'.dummy (g + P.ntypes) ^ 2 else v'.dummy P.ntypes ^ 2) = 0 := by
        split
        · refine Finset.sum_eq_zero fun g hg => ?_
          have := Finset.mem_range.1 hg
          rw [hd, if_neg (by omega), if_pos (by omega)]
          ring
        · rw [hd, if_neg (by omega), if_pos (by omega)]
          ring
      rw [e2, add_zero]
      unfold eeGaugeError
      rw [if_neg (by simp [hno])]
      refine Finset.sum_congr rfl fun g hg => ?_
      rw [hd, if_pos (Finset.mem_range.1 hg), dummySlope, if_pos (show b.clamped.rescale = true from rfl), dummyWeight]
      congr 4
      ring
  · show meanLines b P.ntypes v'.dummy = _
    rw [meanLines, if_neg (by simp [hb]), hd, if_neg (lt_irrefl _), if_pos (by omega)]
    simp

/-- **C98 for EAM potentials with charges**, if all weights are one. -/
theorem C98_eamel_partial (b : Build) (hno : b.noPunish = false) (P : EamPots K) (hnt : 0 < P.ntypes) (E : Elec K) (ew sw w : K)
    (qs : List (Bound K)) (eopp univ : List (Nat × K)) (dummy0 : Nat → K) (confs : List (Conf K))
    (hh : ∀ c ∈ confs, HalfList c ∧ EamColumns P c ∧ Aligned c) (hw : ∀ c ∈ confs, c.weight = 1) (v v' : EeVector K) (y : K)
    (hr : eeObjective b false P E ew sw w qs eopp univ dummy0 confs v = .ok (v', y)) :
    y = (confs.map fun c => vecConfError b (eamCoulombFull b P E c) (eamCoulombFull b P E c)
          (coulombTotal P.toPots E c + totalEmbedding b.clamped P c) ew sw c).sum +
      (if b.apot = true then totalPenalty w qs eopp univ else 0) + fileTotal (punishFile b P.ntypes confs v'.st.fv v'.dummy) := by
  rw [C79_objective b P E ew sw w qs eopp univ dummy0 confs hh v v' y hr,
    (C98_eamel_file b hno P hnt E ew sw w qs eopp univ dummy0 confs hh v v' y hr).1, List.sum_map_add]
  have e := sum_weight_one confs (fun c => c.weight) (fun c => densityExcess b.clamped P c ^ 2) hw
  have e' : (confs.map fun c => adpLimitError b.clamped P c).sum = (confs.map fun c => c.weight * densityExcess b.clamped P c ^ 2).sum := rfl
  rw [e', e]
  ring

/-! ### Two-band EAM -/

/-- **C98 for the two-band model**: the gauge constraints of the second band are part of the objective but not of the file.  Missing:
those of the second band (`C98_second_band_violated`), and weights other than one with `RESCALE`. -/
theorem C98_tbeam_partial (b : Build) (hno : b.noPunish = false) (P : EamPots K) (hnt : 0 < P.ntypes) (ew sw w : K) (qs : List (Bound K))
    (eopp univ : List (Nat × K)) (dummy0 : Nat → K) (natoms : Nat) (confs : List (Conf K)) (hh : ∀ c ∈ confs, HalfList c ∧ EamColumns P c)
    (hw : b.rescale = true → ∀ c ∈ confs, c.weight = 1) (v v' : TbVec K) (hz : b.rescale = false → v.st.fv.limit = 0) (y : K)
    (hr : tbObjective b P ew sw w qs eopp univ dummy0 natoms confs v = .ok (v', y)) :
    y = (confs.map fun c => confError b (tbUsedSlope b P c) (tbTotal b P c) ew sw c).sum +
      (if b.apot = true then totalPenalty w qs eopp univ else 0) + fileTotal (punishFile b P.ntypes confs v'.st.fv v'.dummy) +
      gaugeError b P.second (fun g => dummy0 (2 * P.ntypes + g)) natoms confs := by
  have hrun : v'.st = (confLoop (tbConf b P ew sw) confs 0 (v.st, (0, 0, 0))).1 ∧ v'.dummy = (tbDummies b P dummy0 natoms
      (confLoop (tbConf b P ew sw) confs 0 (v.st, (0, 0, 0))).2.2.1 (confLoop (tbConf b P ew sw) confs 0 (v.st, (0, 0, 0))).2.2.2
      v.dummy).1 := by
    unfold tbObjective at hr
    by_cases hb : b.apot = true
    · simp only [if_pos hb] at hr
      cases hp : apotPunish w qs eopp univ v.par v.pot with
      | error e => simp [hp, bind, Except.bind] at hr
      | ok p =>
        simp only [hp, bind, Except.bind, Except.ok.injEq, Prod.mk.injEq] at hr
        rw [← hr.1]
        exact ⟨rfl, rfl⟩
    · simp only [if_neg hb, Except.ok.injEq, Prod.mk.injEq] at hr
      rw [← hr.1]
      exact ⟨rfl, rfl⟩
  obtain ⟨h1, h2⟩ := hrun
  have hrho : (confLoop (tbConf b P ew sw) confs 0 (v.st, ((0 : K), (0 : K), (0 : K)))).2.2.1 =
      (confs.map fun c => (c.atoms.zipIdx.map fun ak => (embedAt b P c ak.2 ak.1).rho).sum).sum := by
    rw [confLoop_sum (tbConf b P ew sw) _ confs (fun ci c s hc => tbConf_err b P ew sw ci c (hh c hc).1 (hh c hc).2 s) 0
      (v.st, ((0 : K), (0 : K), (0 : K)))]
    have h2 : ∀ l : List (Conf K), ∀ f g h : Conf K → K,
        (((0 : K), (0 : K), (0 : K)) + (l.map fun c => (f c, g c, h c)).sum).2.1 = (l.map g).sum := by
      intro l f g h
      have : ((0 : K), (0 : K), (0 : K)) = 0 := rfl
      rw [this, zero_add]
      induction l with
      | nil => rfl
      | cons c l ih => simp only [List.map_cons, List.sum_cons, ← ih]; rfl
    exact h2 _ _ _ _
  have hfile : fileTotal (punishFile b P.ntypes confs v'.st.fv v'.dummy) =
      (confs.map fun c => tbLimitError b P c).sum + gaugeError b P dummy0 natoms confs := by
    rw [fileTotal_eq, add_assoc]
    congr 1
    · rw [h1, sum_map_zipIdx confs]
      congr 1
      refine map_zipIdx_congr _ _ _ fun k c hk => ?_
      simp only
      unfold tbLimitError
      by_cases hb : b.rescale = true
      · rw [if_pos hb, hw hb c (List.mem_of_getElem? hk), one_mul]
        have := (loop_limit (tbConf b P ew sw) (fun s => s.fv.limit) (fun c => tbExcess b P c - c.limit0) confs (fun ci c s hc => by
          have := (tbConf_spec b P ew sw ci c (hh c hc).1 (hh c hc).2 s).2.2.2.2.2.2.1
          rw [if_pos hb] at this
          exact this) 0 (v.st, ((0 : K), (0 : K), (0 : K)))).2 k c hk
        rw [Nat.zero_add] at this
        rw [this]
      · rw [if_neg hb]
        have := loop_keep (tbConf b P ew sw) (fun s => s.fv.limit) confs (fun ci c s hc => by
          have := (tbConf_spec b P ew sw ci c (hh c hc).1 (hh c hc).2 s).2.2.2.2.2.2.1
          rw [if_neg hb] at this
          exact this) 0 (v.st, ((0 : K), (0 : K), (0 : K)))
        rw [this, hz (by simpa using hb)]
        simp
    · rw [← eamDummies_err b P dummy0 natoms confs v.dummy, ← hrho, ← eamDummies_squares b hno P hnt]
      have hd : ∀ i, i < 2 * P.ntypes → v'.dummy i = (eamDummies b P dummy0 natoms
          (confLoop (tbConf b P ew sw) confs 0 (v.st, (0, 0, 0))).2.2.1 v.dummy).1 i := by
        intro i hi
        rw [h2]
        simp only [tbDummies, if_pos hi]
      have e1 : ∀ g ∈ Finset.range P.ntypes, v'.dummy g ^ 2 = _ := fun g hg =>
        congrArg (· ^ 2) (hd g (by have := Finset.mem_range.1 hg; omega))
      have e2 : ∀ g ∈ Finset.range P.ntypes, v'.dummy (g + P.ntypes) ^ 2 = _ := fun g hg =>
        congrArg (· ^ 2) (hd (g + P.ntypes) (by have := Finset.mem_range.1 hg; omega))
      rw [Finset.sum_congr rfl e1, Finset.sum_congr rfl e2, hd P.ntypes (by omega)]
  rw [C87_objective b P ew sw w qs eopp univ dummy0 natoms confs hh v v' y hr, hfile, List.sum_map_add]
  ring

/-! ### Terminal -/

/-- Without output files the limiting constraints and the slopes are listed as in the file, the constraint on the mean density is not. -/
theorem C98_terminal (b : Build) (n : Nat) (confs : List (Conf K)) (v : FV K) (dummy : Nat → K) :
    (punishTerminal n confs v dummy).limits = (punishFile b n confs v dummy).limits ∧
    (punishTerminal n confs v dummy).gauges = (punishFile b n confs v dummy).gauges.map (fun r => (r.du2, r.du)) ∧
    fileTotal (punishFile b n confs v dummy) = terminalTotal (punishTerminal n confs v dummy) +
      if b.rescale = true then ∑ g ∈ Finset.range n, dummy (g + n) ^ 2 else dummy n ^ 2 := by
  refine ⟨rfl, ?_, ?_⟩
  · simp only [punishTerminal, punishFile, List.map_map]
    refine List.map_congr_left fun i _ => ?_
    simp only [Function.comp, gaugeRow]
    split <;> rfl
  · rw [fileTotal_eq]
    congr 1
    unfold terminalTotal punishTerminal
    simp only [List.map_map]
    congr 1
    · congr 1
      refine List.map_congr_left fun ck _ => ?_
      simp [limitRow, pow_two]
    · rw [range_sum]
      refine Finset.sum_congr rfl fun g _ => ?_
      simp [pow_two]

/-- Every line shows the square of the deviation and, by adding the reference, the punishment itself; the ratio is a number exactly if the
reference does not vanish. -/
theorem C98_rows (confs : List (Conf K)) (b : Build) (n : Nat) (v : FV K) (dummy : Nat → K) (k : Nat) (c : Conf K)
    (hk : confs[k]? = some c) :
    ∃ r, (punishFile b n confs v dummy).limits[k]? = some r ∧ r.conf = k ∧ r.sqr = (r.value - r.ref) ^ 2 ∧ r.ref = c.limit0 ∧
      r.value = v.limit k + c.limit0 ∧ (r.ratio.isSome ↔ c.limit0 ≠ 0) := by
  refine ⟨limitRow v (c, k), ?_, rfl, ?_, rfl, rfl, ?_⟩
  · simp [punishFile, List.getElem?_map, List.getElem?_zipIdx, hk]
  · simp only [limitRow]
    ring
  · simp only [limitRow, shown]
    split <;> simp_all

/-! ### Examples and disagreements -/

/-- Values and slopes as in `exPots`, but the embedding functions end at 2, below the densities of `exConf`. -/
def narrowPots : EamPots ℚ := { exPots with fin := fun col => if col < 5 then 3 else 2 }

/-- Compilation with `RESCALE`. -/
def rescaling : Build := ⟨true, true, false, true, false, false⟩

/-- Nothing computed yet. -/
def blankVec : EamVec ℚ := ⟨⟨⟨0, 0, 0, 0⟩, 0, 0⟩, 0, 0, 0⟩

/-- The same configuration with weight one. -/
def onceConf : Conf ℚ := { exConf with weight := 1 }

/-- Value, listed total and the two other parts of the objective of EAM potentials. -/
def eamBalance (b : Build) (P : EamPots ℚ) (confs : List (Conf ℚ)) (natoms : Nat) : Option (ℚ × ℚ × ℚ) :=
  match eamObjective b P 1 1 1 [] [] [] 0 natoms confs blankVec with
  | .ok (v', y) => some (y, (confs.map fun c => confError b (eamFullSlope b P c) (eamTotal b P c) 1 1 c).sum,
      fileTotal (punishFile b P.ntypes confs v'.st.fv v'.dummy))
  | .error _ => none

/-- The hypotheses of the theorems are met and the numbers are not trivial: with weight one the parts add up, and the limiting constraints
contribute. -/
example : ∃ y d f, eamBalance rescaling narrowPots [onceConf] 2 = some (y, d, f) ∧ y = d + f ∧ d ≠ 0 ∧
    f ≠ gaugeError rescaling narrowPots 0 2 [onceConf] := by
  refine ⟨_, _, _, rfl, ?_, ?_, ?_⟩ <;> decide +kernel

example : HalfList onceConf ∧ EamColumns narrowPots onceConf ∧ rescaling.noPunish = false ∧ 0 < narrowPots.ntypes := by
  unfold HalfList EamColumns
  decide

/-- Without `RESCALE` the weights do not matter and the mean density is shown. -/
example : ∃ y d f, eamBalance exBuild exPots [exConf, exConf2] 3 = some (y, d, f) ∧ y = d + f ∧ f ≠ 0 ∧
    0 < ([exConf, exConf2].map fun c => (c.atoms.zipIdx.map fun ak => (embedAt exBuild exPots c ak.2 ak.1).rho).sum).sum := by
  refine ⟨_, _, _, rfl, ?_, ?_, ?_⟩ <;> decide +kernel

/-- **C98 fails for weights other than one** (`RESCALE`): the file lists the squares without the weight of the configuration. -/
theorem C98_weight_violated : ∃ (b : Build) (P : EamPots ℚ) (confs : List (Conf ℚ)) (v v' : EamVec ℚ) (y : ℚ),
    b.noPunish = false ∧ 0 < P.ntypes ∧ (∀ c ∈ confs, HalfList c ∧ EamColumns P c) ∧
    eamObjective b P 1 1 1 [] [] [] 0 2 confs v = .ok (v', y) ∧
    y ≠ (confs.map fun c => confError b (eamFullSlope b P c) (eamTotal b P c) 1 1 c).sum +
      fileTotal (punishFile b P.ntypes confs v'.st.fv v'.dummy) := by
  refine ⟨rescaling, narrowPots, [exConf], blankVec, _, _, rfl, by decide, ?_, rfl, by decide +kernel⟩
  intro c hc
  rw [List.mem_singleton] at hc
  subst hc
  exact ⟨exConf_half, exConf_cols⟩

/-- **The mean density shown is wrong** if the densities do not sum up to a positive number: the file says one and no punishment. -/
theorem C98_mean_violated : ∃ (b : Build) (P : EamPots ℚ) (confs : List (Conf ℚ)) (v v' : EamVec ℚ) (y : ℚ),
    b.noPunish = false ∧ b.rescale = false ∧ 0 < P.ntypes ∧ (∀ c ∈ confs, HalfList c ∧ EamColumns P c) ∧
    eamObjective b P 1 1 1 [] [] [] 0 2 confs v = .ok (v', y) ∧
    meanDensity b P 2 confs = -25 / 2 ∧ (punishFile b P.ntypes confs v'.st.fv v'.dummy).mean.map MeanLines.mean = some 1 := by
  refine ⟨exBuild, { exPots with val := fun col r => -((col + 1) * r * r) }, [exConf], blankVec, _, _, rfl, rfl, by decide, ?_, rfl,
    by decide +kernel, by decide +kernel⟩
  intro c hc
  rw [List.mem_singleton] at hc
  subst hc
  refine ⟨exConf_half, ?_⟩
  unfold EamColumns
  decide

/-- **The gauge constraints of the second band are not in the file**, though they are part of the objective. -/
theorem C98_second_band_violated : ∃ (b : Build) (P : EamPots ℚ) (confs : List (Conf ℚ)) (v v' : TbVec ℚ) (y : ℚ),
    b.noPunish = false ∧ 0 < P.ntypes ∧ (∀ c ∈ confs, HalfList c ∧ EamColumns P c ∧ c.weight = 1) ∧
    tbObjective b P 1 1 1 [] [] [] 0 2 confs v = .ok (v', y) ∧
    y ≠ (confs.map fun c => confError b (tbUsedSlope b P c) (tbTotal b P c) 1 1 c).sum +
      fileTotal (punishFile b P.ntypes confs v'.st.fv v'.dummy) := by
  refine ⟨exBuild, exPots, [onceConf], ⟨⟨⟨0, 0, 0, 0⟩, 0, 0, 0, 0⟩, 0, 0, 0⟩, _, _, rfl, by decide, ?_, rfl, by decide +kernel⟩
  intro c hc
  rw [List.mem_singleton] at hc
  subst hc
  unfold HalfList EamColumns
  decide

/-- **The terminal does not list the constraint on the mean density**. -/
theorem C98_terminal_violated : ∃ (b : Build) (P : EamPots ℚ) (confs : List (Conf ℚ)) (v v' : EamVec ℚ) (y : ℚ),
    b.noPunish = false ∧ 0 < P.ntypes ∧ (∀ c ∈ confs, HalfList c ∧ EamColumns P c ∧ c.weight = 1) ∧
    eamObjective b P 1 1 1 [] [] [] 0 2 confs v = .ok (v', y) ∧
    y ≠ (confs.map fun c => confError b (eamFullSlope b P c) (eamTotal b P c) 1 1 c).sum +
      terminalTotal (punishTerminal P.ntypes confs v'.st.fv v'.dummy) := by
  refine ⟨exBuild, exPots, [onceConf], blankVec, _, _, rfl, by decide, ?_, rfl, by decide +kernel⟩
  intro c hc
  rw [List.mem_singleton] at hc
  subst hc
  unfold HalfList EamColumns
  decide

end Verif.Props
