/-
C63  Objective of the many-body routines on full neighbour lists (Stillinger-Weber, Tersoff, modified Tersoff, angular
potentials, MEAM): weighted sum of squared residuals of the data which are used.

Holds for Stillinger-Weber and both Tersoff routines.  Angular potentials and MEAM count reference stresses of
configurations which do not use them; MEAM squares the weight of the limiting constraint.  Stillinger-Weber and Tersoff
leave forces in entries of configurations which do not use forces.
-/
import Verif.Lemmas.FullRun
import Verif.Lemmas.ForceExample
import Verif.Model.ObjectiveFull

namespace Verif.Props

open Verif.Force Verif.Spec

variable {K : Type*} [Field K] [LinearOrder K] [IsStrictOrderedRing K]

theorem sumObjective_ok (b : Build) (one : Nat → Conf K → FV K → FV K × K) (w : K) (qs : List (Bound K))
    (eopp univ : List (Nat × K)) (confs : List (Conf K)) (v v' : PairVec K) (y : K)
    (hr : sumObjective b one w qs eopp univ confs v = .ok (v', y)) :
    v'.fv = (confLoop one confs 0 (v.fv, 0)).1 ∧
    y = (confLoop one confs 0 (v.fv, 0)).2 + if b.apot = true then totalPenalty w qs eopp univ else 0 := by
  unfold sumObjective at hr
  by_cases hb : b.apot = true
  · rw [if_pos hb] at hr
    cases hp : apotPunish w qs eopp univ v.par v.pot with
    | error e => simp [hp, bind, Except.bind] at hr
    | ok p =>
      simp only [hp, bind, Except.bind, Except.ok.injEq, Prod.mk.injEq] at hr
      rw [← hr.1, ← hr.2, apotPunish_sum w qs eopp univ _ _ p hp, if_pos hb]
      exact ⟨rfl, rfl⟩
  · rw [if_neg hb] at hr
    simp only [Except.ok.injEq, Prod.mk.injEq] at hr
    rw [← hr.1, ← hr.2, if_neg hb, add_zero]
    exact ⟨rfl, rfl⟩

theorem full_objective (b : Build) (one : Conf K → Nat → Atom K → Acc K → Acc K) (ew sw w : K) (qs : List (Bound K))
    (eopp univ : List (Nat × K)) (h : ∀ c, Inside c → ∀ j a, c.atoms[j]? = some a → Shift (Member c) (one c (c.start + j) a))
    (confs : List (Conf K)) (hn : Numbered confs) (hi : ∀ c ∈ confs, Inside c) (v v' : PairVec K) (y : K)
    (hr : sumObjective { b with apot := true } (fun ci c fv => fullConf b (one c) ew sw ci c fv) w qs eopp univ confs v = .ok (v', y)) :
    y = (confs.zipIdx.map fun ck => residualError b ew sw v'.fv ck.2 ck.1).sum + totalPenalty w qs eopp univ := by
  obtain ⟨h1, h2⟩ := sumObjective_ok _ _ w qs eopp univ confs v v' y hr
  have := run_error b false ew sw (fun ci c fv => fullConf b (one c) ew sw ci c fv) (AddMonoidHom.id K) (fun _ => 0)
    (fun c hc => fullConf_writes b one ew sw c (h c hc))
    (fun ci c fv hc => by
      obtain ⟨E, F, S, hq⟩ := fullConf_result b (one c) ew sw c (h c hc)
      rw [add_zero]
      exact (hq ci fv).2.2.2.2.2) confs hn hi v.fv
  simp only [AddMonoidHom.id_apply, add_zero] at this
  rw [h2, h1, this]
  simp

/-- Stillinger-Weber: the value is the weighted sum of the squared entries of the force vector which count, plus the
punishments. -/
theorem C63_stiweb (b : Build) (P : SwPots K) (ew sw w : K) (qs : List (Bound K)) (eopp univ : List (Nat × K))
    (confs : List (Conf K)) (hn : Numbered confs) (hi : ∀ c ∈ confs, Inside c) (v v' : PairVec K) (y : K)
    (hr : swObjective b P ew sw w qs eopp univ confs v = .ok (v', y)) :
    y = (confs.zipIdx.map fun ck => residualError b ew sw v'.fv ck.2 ck.1).sum + totalPenalty w qs eopp univ :=
  full_objective b (fun c => swAtom b P c) ew sw w qs eopp univ
    (fun c hc _ _ hj => swAtom_shift (member_of hj) (inside_neigh hc hj) b P c) confs hn hi v v' y hr

/-- Tersoff. -/
theorem C63_tersoff (b : Build) (L : Lib K) (p : TersPars K) (ew sw w : K) (qs : List (Bound K)) (eopp univ : List (Nat × K))
    (confs : List (Conf K)) (hn : Numbered confs) (hi : ∀ c ∈ confs, Inside c) (v v' : PairVec K) (y : K)
    (hr : tersObjective b L p ew sw w qs eopp univ confs v = .ok (v', y)) :
    y = (confs.zipIdx.map fun ck => residualError b ew sw v'.fv ck.2 ck.1).sum + totalPenalty w qs eopp univ :=
  full_objective b (fun c => tersAtom b L p c) ew sw w qs eopp univ
    (fun c hc _ _ hj => tersAtom_shift (member_of hj) (inside_neigh hc hj) b L p c) confs hn hi v v' y hr

/-- Modified Tersoff. -/
theorem C63_tersoffmod (b : Build) (L : Lib K) (p : TersModPars K) (ew sw w : K) (qs : List (Bound K)) (eopp univ : List (Nat × K))
    (confs : List (Conf K)) (hn : Numbered confs) (hi : ∀ c ∈ confs, Inside c) (v v' : PairVec K) (y : K)
    (hr : modObjective b L p ew sw w qs eopp univ confs v = .ok (v', y)) :
    y = (confs.zipIdx.map fun ck => residualError b ew sw v'.fv ck.2 ck.1).sum + totalPenalty w qs eopp univ :=
  full_objective b (fun c => modAtom b L p c) ew sw w qs eopp univ
    (fun c hc _ _ hj => modAtom_shift (member_of hj) (inside_neigh hc hj) b L p c) confs hn hi v v' y hr

theorem ang_objective (b : Build) (P : AngPots K) (ew sw w : K) (qs : List (Bound K)) (eopp univ : List (Nat × K))
    (confs : List (Conf K)) (hn : Numbered confs) (hi : ∀ c ∈ confs, Inside c) (v v' : PairVec K) (y : K)
    (hr : angObjective b P ew sw w qs eopp univ confs v = .ok (v', y)) :
    y = (confs.zipIdx.map fun ck => residualError b ew sw v'.fv ck.2 ck.1 + stressOffset b sw ck.1).sum +
      if b.apot = true then totalPenalty w qs eopp univ else 0 := by
  obtain ⟨h1, h2⟩ := sumObjective_ok _ _ w qs eopp univ confs v v' y hr
  have := run_error b false ew sw (angConf b P ew sw) (AddMonoidHom.id K) (stressOffset b sw)
    (fun c hc => angConf_writes b P ew sw c hc)
    (fun ci c fv hc => by
      obtain ⟨E, F, S, -, -, hq⟩ := angConf_result b P ew sw c hc
      exact (hq ci fv).2.2.2.2.2) confs hn hi v.fv
  simp only [AddMonoidHom.id_apply] at this
  rw [h2, h1, this]

/-- Reference stresses are given for configurations which use them only (with `STRESS`). -/
def StressesUsed (b : Build) (confs : List (Conf K)) : Prop :=
  ∀ c ∈ confs, b.stress = true → ¬ (c.uf = true ∧ c.us = true) → c.stress0 = 0

theorem stressOffset_used {b : Build} {confs : List (Conf K)} (h : StressesUsed b confs) (sw : K) {c : Conf K} (hc : c ∈ confs) :
    stressOffset b sw c = 0 := by
  unfold stressOffset
  by_cases hb : b.stress = true ∧ ¬ (c.uf = true ∧ c.us = true)
  · rw [if_pos hb, h c hc hb.1 hb.2]
    simp
  · rw [if_neg hb]

/-- Angular potentials, partial: the same, if configurations which do not use stresses have vanishing reference
stresses.  Missing: the code counts them otherwise (`C63_ang_stress_violated`). -/
theorem C63_ang_partial (b : Build) (P : AngPots K) (ew sw w : K) (qs : List (Bound K)) (eopp univ : List (Nat × K))
    (confs : List (Conf K)) (hn : Numbered confs) (hi : ∀ c ∈ confs, Inside c) (hs : StressesUsed b confs) (v v' : PairVec K) (y : K)
    (hr : angObjective b P ew sw w qs eopp univ confs v = .ok (v', y)) :
    y = (confs.zipIdx.map fun ck => residualError b ew sw v'.fv ck.2 ck.1).sum +
      if b.apot = true then totalPenalty w qs eopp univ else 0 := by
  rw [ang_objective b P ew sw w qs eopp univ confs hn hi v v' y hr]
  congr 2
  refine List.map_congr_left fun ck hck => ?_
  rw [stressOffset_used hs sw (List.mem_of_getElem? (List.mem_zipIdx_iff_getElem?.1 hck)), add_zero]

/-- Exact amount by which angular potentials exceed the sum of the residuals: the squared reference stresses of the
configurations which do not use them, constant with respect to the parameters. -/
theorem C63_ang_stress (b : Build) (P : AngPots K) (ew sw w : K) (qs : List (Bound K)) (eopp univ : List (Nat × K))
    (confs : List (Conf K)) (hn : Numbered confs) (hi : ∀ c ∈ confs, Inside c) (v v' : PairVec K) (y : K)
    (hr : angObjective b P ew sw w qs eopp univ confs v = .ok (v', y)) :
    y = (confs.zipIdx.map fun ck => residualError b ew sw v'.fv ck.2 ck.1).sum +
      (if b.apot = true then totalPenalty w qs eopp univ else 0) +
      (confs.map fun c => if b.stress = true ∧ ¬ (c.uf = true ∧ c.us = true) then
        c.weight * sw * ∑ k : Fin 6, c.stress0 k ^ 2 else 0).sum := by
  rw [ang_objective b P ew sw w qs eopp univ confs hn hi v v' y hr]
  have : ∀ l : List (Conf K × Nat), (l.map fun ck => residualError b ew sw v'.fv ck.2 ck.1 + stressOffset b sw ck.1).sum =
      (l.map fun ck => residualError b ew sw v'.fv ck.2 ck.1).sum + (l.map ((stressOffset b sw) ∘ Prod.fst)).sum := by
    intro l
    induction l with
    | nil => simp
    | cons a l ih => simp only [List.map_cons, List.sum_cons, ih, Function.comp]; ring
  rw [this, ← List.map_map, List.zipIdx_map_fst]
  unfold stressOffset
  ring

/-- Entries of forces and stresses which are not used: angular potentials and MEAM leave no forces. -/
theorem C63_ang_unused (b : Build) (P : AngPots K) (ew sw w : K) (qs : List (Bound K)) (eopp univ : List (Nat × K))
    (confs : List (Conf K)) (hn : Numbered confs) (hi : ∀ c ∈ confs, Inside c) (v v' : PairVec K) (y : K)
    (hr : angObjective b P ew sw w qs eopp univ confs v = .ok (v', y)) (k : Nat) (c : Conf K) (hk : confs[k]? = some c)
    (hu : c.uf = false) : ∀ a, c.start ≤ a → a < c.start + c.atoms.length → v'.fv.force a = 0 := by
  intro a ha hb
  obtain ⟨h1, -⟩ := sumObjective_ok _ _ w qs eopp univ confs v v' y hr
  have hg : ∀ k c, confs[k]? = some c → (fun (_ : Nat) c => Inside c) k c := fun k c hk => hi c (List.mem_of_getElem? hk)
  have hl := local_of_writes (good := fun _ c => Inside c) b false (angConf b P ew sw) (fun _ c hc => angConf_writes b P ew sw c hc)
  funext x
  rw [h1]
  have e := loop_cell hl confs hg hn (v.fv, 0) k c hk (.force a x) ⟨ha, hb⟩
  refine e.trans ?_
  obtain ⟨E, F, S, hF, -, hq⟩ := angConf_result b P ew sw c (hg k c hk)
  have hka : c.atoms[a - c.start]? = some (c.atoms[a - c.start]'(by omega)) := List.getElem?_eq_getElem (by omega)
  have := (hq k ⟨0, 0, 0, 0⟩).2.1 _ _ hka x
  rw [show c.start + (a - c.start) = a by omega] at this
  show (angConf b P ew sw k c ⟨0, 0, 0, 0⟩).1.force a x = 0
  rw [this, hF hu, hu]
  simp

/-- MEAM: exact value.  Besides the residuals the limiting constraints (`RESCALE`) with the square of the weight, the
constraint on the mean density (without `RESCALE`) and the reference stresses which are not used. -/
theorem meam_objective (b : Build) (P : AngPots K) (hP : ∀ col, P.beg col ≤ P.fin col) (ew sw w : K) (qs : List (Bound K))
    (eopp univ : List (Nat × K)) (natoms : Nat) (confs : List (Conf K)) (hn : Numbered confs) (hi : ∀ c ∈ confs, Inside c)
    (v v' : MeamVec K) (y : K) (hr : meamObjective b P ew sw w qs eopp univ natoms confs v = .ok (v', y)) :
    y = (confs.zipIdx.map fun ck => residualError b ew sw v'.fv ck.2 ck.1 + (stressOffset b sw ck.1 +
        if b.rescale = true then (ck.1.weight * meamExcess P ck.1) ^ 2 else 0)).sum +
      (if b.apot = true then totalPenalty w qs eopp univ else 0) +
      if b.rescale = true then 0 else (100 * (meamMean P natoms confs - 1)) ^ 2 := by
  have hrun := run_error b true ew sw (meamConf b P ew sw) (AddMonoidHom.fst K K)
    (fun c => stressOffset b sw c + if b.rescale = true then (c.weight * meamExcess P c) ^ 2 else 0)
    (fun c hc => meamConf_writes b P ew sw c hc)
    (fun ci c fv hc => by
      obtain ⟨E, F, S, -, -, hq⟩ := meamConf_result b P ew sw c hc
      show (meamConf b P ew sw ci c fv).2.1 = _
      rw [(hq ci fv).2.2.2.2.2.1, add_assoc]
      by_cases hb : b.rescale = true
      · rw [if_pos hb, if_pos hb]
        unfold meamExcess
        simp only [meamSiteEmbed_limit b hb P hP]
        rw [mul_comm c.weight]
      · rw [if_neg hb, if_neg hb]) confs hn hi v.fv
  simp only [AddMonoidHom.coe_fst] at hrun
  have hd : (meamDummy b P.ntypes natoms (confLoop (meamConf b P ew sw) confs 0 (v.fv, 0)).2.2 v.dummy).2 =
      if b.rescale = true then 0 else (100 * (meamMean P natoms confs - 1)) ^ 2 := by
    unfold meamDummy meamMean
    by_cases hb : b.rescale = true
    · rw [if_pos hb, if_pos hb]
    · rw [if_neg hb, if_neg hb, meam_rhoSum b (by simpa using hb) P ew sw confs hi v.fv]
      simp only [dummyWeight]
      ring
  unfold meamObjective at hr
  by_cases hb : b.apot = true
  · rw [if_pos hb] at hr
    cases hp : apotPunish w qs eopp univ v.par v.pot with
    | error e => simp [hp, bind, Except.bind] at hr
    | ok p =>
      simp only [hp, bind, Except.bind, Except.ok.injEq, Prod.mk.injEq] at hr
      rw [← hr.1, ← hr.2, apotPunish_sum w qs eopp univ _ _ p hp, if_pos hb]
      show (confLoop (meamConf b P ew sw) confs 0 (v.fv, 0)).2.1 + _ + (meamDummy b P.ntypes natoms (confLoop (meamConf b P ew sw) confs 0 (v.fv, 0)).2.2 v.dummy).2 = _
      rw [hrun, hd]
      rfl
  · rw [if_neg hb] at hr
    simp only [Except.ok.injEq, Prod.mk.injEq] at hr
    rw [← hr.1, ← hr.2, if_neg hb, add_zero]
    show (confLoop (meamConf b P ew sw) confs 0 (v.fv, 0)).2.1 + (meamDummy b P.ntypes natoms (confLoop (meamConf b P ew sw) confs 0 (v.fv, 0)).2.2 v.dummy).2 = _
    rw [hrun, hd]
    rfl

/-- MEAM, partial: weighted sum of squares, with `weight * excess²` for the limiting constraint as in the EAM routine, if
the weights of configurations with densities outside of the range are one (or zero).  Missing: the code squares the weight
(`C63_meam_limit_violated`), and the reference stresses as for angular potentials. -/
theorem C63_meam_partial (b : Build) (P : AngPots K) (hP : ∀ col, P.beg col ≤ P.fin col) (ew sw w : K) (qs : List (Bound K))
    (eopp univ : List (Nat × K)) (natoms : Nat) (confs : List (Conf K)) (hn : Numbered confs) (hi : ∀ c ∈ confs, Inside c)
    (hs : StressesUsed b confs)
    (hl : ∀ c ∈ confs, b.rescale = true → c.weight = 0 ∨ c.weight = 1 ∨ meamExcess P c = 0)
    (v v' : MeamVec K) (y : K) (hr : meamObjective b P ew sw w qs eopp univ natoms confs v = .ok (v', y)) :
    y = (confs.zipIdx.map fun ck => residualError b ew sw v'.fv ck.2 ck.1 +
        if b.rescale = true then ck.1.weight * meamExcess P ck.1 ^ 2 else 0).sum +
      (if b.apot = true then totalPenalty w qs eopp univ else 0) +
      if b.rescale = true then 0 else (100 * (meamMean P natoms confs - 1)) ^ 2 := by
  rw [meam_objective b P hP ew sw w qs eopp univ natoms confs hn hi v v' y hr]
  congr 3
  refine List.map_congr_left fun ck hck => ?_
  have hc := List.mem_of_getElem? (List.mem_zipIdx_iff_getElem?.1 hck)
  rw [stressOffset_used hs sw hc, zero_add]
  by_cases hb : b.rescale = true
  · rw [if_pos hb, if_pos hb]
    rcases hl ck.1 hc hb with h | h | h <;> rw [h] <;> ring
  · rw [if_neg hb, if_neg hb]

/-- Reported entry of the limiting constraint of MEAM: multiplied by the weight. -/
theorem C63_meam_limit (b : Build) (hb : b.rescale = true) (P : AngPots K) (hP : ∀ col, P.beg col ≤ P.fin col) (ew sw w : K)
    (qs : List (Bound K)) (eopp univ : List (Nat × K)) (natoms : Nat) (confs : List (Conf K)) (hn : Numbered confs)
    (hi : ∀ c ∈ confs, Inside c) (v v' : MeamVec K) (y : K)
    (hr : meamObjective b P ew sw w qs eopp univ natoms confs v = .ok (v', y)) (k : Nat) (c : Conf K) (hk : confs[k]? = some c) :
    v'.fv.limit k = c.weight * meamExcess P c := by
  have hv : v'.fv = (confLoop (meamConf b P ew sw) confs 0 (v.fv, 0)).1 := by
    unfold meamObjective at hr
    by_cases ha : b.apot = true
    · rw [if_pos ha] at hr
      cases hp : apotPunish w qs eopp univ v.par v.pot with
      | error e => simp [hp, bind, Except.bind] at hr
      | ok p =>
        simp only [hp, bind, Except.bind, Except.ok.injEq, Prod.mk.injEq] at hr
        rw [← hr.1]
        rfl
    · rw [if_neg ha] at hr
      simp only [Except.ok.injEq, Prod.mk.injEq] at hr
      rw [← hr.1]
      rfl
  have hg : ∀ k c, confs[k]? = some c → (fun (_ : Nat) c => Inside c) k c := fun k c hk => hi c (List.mem_of_getElem? hk)
  have hl := local_of_writes (good := fun _ c => Inside c) b true (meamConf b P ew sw) (fun _ c hc => meamConf_writes b P ew sw c hc)
  have e := loop_cell hl confs hg hn (v.fv, 0) k c hk (.limit k) ⟨hb, rfl, rfl⟩
  simp only [cellOf, hb] at e
  rw [if_neg (by simp), if_neg (by simp)] at e
  rw [hv, e]
  obtain ⟨E, F, S, -, -, hq⟩ := meamConf_result b P ew sw c (hg k c hk)
  rw [(hq k _).2.2.2.2.1, Function.update_self, if_pos hb, mul_comm]
  unfold meamExcess
  simp only [meamSiteEmbed_limit b hb P hP]

/-! ### Violations -/

/-- Three atoms in a right angle; atom 0 has neighbours 1 and 2. -/
def cornerConf (uf us : Bool) (stress0 : ℚ) (weight : ℚ) : Conf ℚ where
  start := 0
  atoms := [⟨0, [⟨1, 0, 1, ![1, 0, 0], ![1, 0, 0], 0, 1⟩, ⟨2, 0, 1, ![0, 1, 0], ![0, 1, 0], 0, 1⟩], 0, true⟩,
    ⟨0, [⟨0, 0, 1, ![-1, 0, 0], ![-1, 0, 0], 0, 1⟩], 0, true⟩, ⟨0, [⟨0, 0, 1, ![0, -1, 0], ![0, -1, 0], 0, 1⟩], 0, true⟩]
  uf := uf
  us := us
  weight := weight
  vol := 1
  force0 := fun _ => 0
  energy0 := 0
  stress0 := fun _ => stress0
  limit0 := 0
  chem := 0

/-- Functions with range 2. -/
def cornerAng : AngPots ℚ where
  fin := fun _ => 2
  beg := fun _ => 0
  step := fun _ => 1
  val := fun _ r => 2 - r
  grad := fun _ _ => -1
  paircol := 1
  ntypes := 1
  ana := fun _ y => (y, 1)
  fcol := fun _ => 3
  gcol := fun _ => 4

def cornerSw : SwPots ℚ where
  fin := fun _ => 2
  beg := fun _ => 0
  step := fun _ => 1
  val := fun _ r => 2 - r
  grad := fun _ _ => -1
  fin3 := fun _ => 2
  f := fun _ r => 2 - r
  df := fun _ _ => -1
  lambda := fun _ _ _ => 1

theorem corner_inside (uf us : Bool) (s w : ℚ) : Inside (cornerConf uf us s w) := by
  intro a ha n hn
  simp only [cornerConf, List.mem_cons, List.not_mem_nil, or_false] at ha
  rcases ha with rfl | rfl | rfl <;> simp only [List.mem_cons, List.not_mem_nil, or_false] at hn
  · rcases hn with rfl | rfl <;> simp [cornerConf]
  · subst hn; simp [cornerConf]
  · subst hn; simp [cornerConf]

theorem corner_numbered (uf us : Bool) (s w : ℚ) : Numbered [cornerConf uf us s w] := by
  intro k c hk
  match k with
  | 0 => simp only [List.getElem?_cons_zero, Option.some.injEq] at hk; subst hk; rfl
  | k + 1 => simp at hk

/-- Angular potentials: the reference stress of a configuration which does not use stresses changes the value.  The configuration has
a line `#S` but no forces (without `#S`, `read_config` leaves the reference stress 0). -/
theorem C63_ang_stress_violated : ∃ (b : Build) (P : AngPots ℚ) (c : Conf ℚ) (v v' : PairVec ℚ) (y : ℚ),
    Inside c ∧ c.uf = false ∧ c.us = true ∧ angObjective b P 1 1 1 [] [] [] [c] v = .ok (v', y) ∧
    y ≠ residualError b 1 1 v'.fv 0 c :=
  ⟨⟨true, false, false, false, false, false⟩, cornerAng, cornerConf false true 1 1, ⟨⟨0, 0, 0, 0⟩, 0, 0⟩, _, _,
    corner_inside _ _ _ _, rfl, rfl, rfl, by decide +kernel⟩

/-- MEAM with `RESCALE`: a configuration of weight 2 with a density outside of the range contributes `(2 x)²` where the
EAM routine has `2 x²`. -/
theorem C63_meam_limit_violated : ∃ (b : Build) (P : AngPots ℚ) (c : Conf ℚ) (v v' : MeamVec ℚ) (y : ℚ),
    Inside c ∧ b.rescale = true ∧ meamObjective b P 1 1 1 [] [] [] 3 [c] v = .ok (v', y) ∧
    y ≠ residualError b 1 1 v'.fv 0 c + c.weight * meamExcess P c ^ 2 :=
  ⟨⟨false, false, false, true, false, false⟩, { cornerAng with fin := fun col => if col = 2 then 1 else 2 },
    cornerConf true false 0 2, ⟨⟨0, 0, 0, 0⟩, 0, 0, 0⟩, _, _, corner_inside _ _ _ _, rfl, rfl, by decide +kernel⟩

/-- Stillinger-Weber: forces are left in the entries of a configuration which does not use forces. -/
theorem C63_unused_forces_violated : ∃ (b : Build) (P : SwPots ℚ) (c : Conf ℚ) (v v' : PairVec ℚ) (y : ℚ),
    Inside c ∧ c.uf = false ∧ swObjective b P 1 1 1 [] [] [] [c] v = .ok (v', y) ∧ v'.fv.force 0 0 ≠ 0 :=
  ⟨⟨false, false, false, false, true, false⟩, cornerSw, cornerConf false false 0 1, ⟨⟨0, 0, 0, 0⟩, 0, 0⟩, _, _,
    corner_inside _ _ _ _, rfl, rfl, by decide +kernel⟩

/-- Hypotheses of the theorems above. -/
example : Numbered [cornerConf true true 1 2] ∧ (∀ c ∈ [cornerConf true true 1 2], Inside c) ∧
    StressesUsed ⟨true, false, false, false, false, false⟩ [cornerConf true true 1 2] := by
  refine ⟨corner_numbered _ _ _ _, ?_, ?_⟩
  · intro c hc
    obtain rfl := List.mem_singleton.1 hc
    exact corner_inside _ _ _ _
  · intro c hc _ h
    obtain rfl := List.mem_singleton.1 hc
    exact absurd ⟨rfl, rfl⟩ h

/-- Values: forces, energy and stresses count. -/
example : (match swObjective ⟨true, false, false, false, true, false⟩ cornerSw 1 1 1 [] [] [] [cornerConf true true 1 2]
    ⟨⟨0, 0, 0, 0⟩, 0, 0⟩ with | .ok (_, y) => decide (0 < y) | .error _ => false) = true := by decide +kernel

/-- Densities inside of the range: no limiting constraint, and the weights are arbitrary. -/
example : meamExcess { cornerAng with fin := fun col => if col = 2 then 100 else 2 } (cornerConf true false 0 2) = 0 ∧
    ∀ col, ({ cornerAng with fin := fun col => if col = 2 then 100 else 2 } : AngPots ℚ).beg col ≤
      ({ cornerAng with fin := fun col => if col = 2 then 100 else 2 } : AngPots ℚ).fin col := by
  refine ⟨by decide +kernel, fun col => ?_⟩
  show (0 : ℚ) ≤ if col = 2 then 100 else 2
  split <;> norm_num

end Verif.Props
