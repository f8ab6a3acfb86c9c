/-
C87  Two-band EAM potentials: energy, densities, objective, forces, stresses.

Energy, forces and stresses are read off the force vector; positions and strains are varied at fixed neighbour lists as in
C17 and C65.  The second band enters energy and densities wherever its transfer functions reach, but forces and stresses
only where a transfer function of the first band reaches, too.
-/
import Verif.Lemmas.ForceTbeam
import Verif.Props.C60
import Verif.Props.C16
import Verif.Props.C65
import Verif.Props.C66

set_option linter.unusedSectionVars false

namespace Verif.Props

open Verif.Force Verif.Spec

section
variable {K : Type*} [Field K] [LinearOrder K] [IsStrictOrderedRing K]

/-- The energy of a configuration is the sum of pair energies and the embedding energies of both bands. -/
theorem C87_energy (b : Build) (P : EamPots K) (ew sw : K) (ci : Nat) (c : Conf K) (hh : HalfList c)
    (hcol : EamColumns P c) (s : TbState K) :
    (tbConf b P ew sw ci c s).1.fv.energy ci = tbTotal b P c / (c.atoms.length : K) - c.energy0 := by
  obtain ⟨-, -, -, -, h, -⟩ := tbConf_spec b P ew sw ci c hh hcol s
  rw [h, Function.update_self]

/-- Densities and slopes of both bands at every atom; nothing is changed outside of the configuration. -/
theorem C87_densities (b : Build) (P : EamPots K) (ew sw : K) (ci : Nat) (c : Conf K) (hh : HalfList c)
    (hcol : EamColumns P c) (s : TbState K) :
    let r := (tbConf b P ew sw ci c s).1
    (∀ k a, c.atoms[k]? = some a →
      r.rho (c.start + k) = (embedAt b P c k a).rho ∧ r.rhoS (c.start + k) = (embedAt b P.second c k a).rho ∧
      r.gradF (c.start + k) = (embedAt b P c k a).grad ∧ r.gradS (c.start + k) = (embedAt b P.second c k a).grad) ∧
    (∀ x, (x < c.start ∨ c.start + c.atoms.length ≤ x) → r.fv.force x = s.fv.force x ∧ r.rho x = s.rho x ∧
      r.gradF x = s.gradF x ∧ r.rhoS x = s.rhoS x ∧ r.gradS x = s.gradS x) := by
  intro r
  obtain ⟨h0, h1, h2, -⟩ := tbConf_spec b P ew sw ci c hh hcol s
  exact ⟨fun k a hk => ⟨(h1 k a hk).1, (h1 k a hk).2, h0.1 k a hk, h0.2 k a hk⟩, h2⟩

/-! ### Objective -/

/-- Slope used by the routine, with the slopes of the embedding functions at the densities. -/
def tbUsedSlope (b : Build) (P : EamPots K) (c : Conf K) : Entry K → K :=
  tbUsed P (embGrad b P c) (embGrad b P.second c)

/-- Slope of the energy. -/
def tbFullSlope (b : Build) (P : EamPots K) (c : Conf K) : Entry K → K :=
  tbSlope P (embGrad b P c) (embGrad b P.second c)

/-- Punishment of densities of either band outside of the tabulated range. -/
def tbLimitError (b : Build) (P : EamPots K) (c : Conf K) : K :=
  if b.rescale = true then c.weight * (tbExcess b P c - c.limit0) ^ 2 else 0

theorem eamSlope_unique {b : Build} {P : EamPots K} {c : Conf K} (hh : HalfList c) {g g' : Nat → K}
    (h : IsGradF b P c g) (h' : IsGradF b P c g') : ∀ e ∈ entries c, eamSlope P g e = eamSlope P g' e := by
  intro e he
  have := fullSlope_congr hh h h' e he
  unfold fullSlope at this
  exact add_left_cancel this

theorem tbUsed_congr {b : Build} {P : EamPots K} {c : Conf K} (hh : HalfList c) {g gs : Nat → K}
    (h : IsGradF b P c g) (h' : IsGradF b P.second c gs) :
    ∀ e ∈ entries c, tbUsed P g gs e = tbUsedSlope b P c e := by
  intro e he
  unfold tbUsedSlope tbUsed
  rw [eamSlope_unique hh h (embGrad_isGradF b P c) e he, eamSlope_unique hh h' (embGrad_isGradF b P.second c) e he]

theorem eamSlope_outside (P : EamPots K) (g : Nat → K) (e : Entry K) (h : ¬ InReach P e) : eamSlope P g e = 0 := by
  unfold InReach at h
  push Not at h
  unfold eamSlope transferSlope
  rw [if_neg (not_lt.2 h.1), if_neg (not_lt.2 h.2)]
  ring

/-- If the second band reaches nowhere farther than the first, the slope used is that of the energy. -/
theorem tbUsed_covered {P : EamPots K} {c : Conf K} (hc : Covered P c) (g gs : Nat → K) :
    ∀ e ∈ entries c, tbUsed P g gs e = tbSlope P g gs e := by
  intro e he
  unfold tbUsed tbSlope
  by_cases h : InReach P e
  · rw [if_pos h]
  · rw [if_neg h, eamSlope_outside P.second gs e (fun h' => h (hc e he h'))]

theorem tbConf_err (b : Build) (P : EamPots K) (ew sw : K) (ci : Nat) (c : Conf K) (hh : HalfList c)
    (hcol : EamColumns P c) (s : TbState K) :
    (tbConf b P ew sw ci c s).2 =
      (confError b (tbUsedSlope b P c) (tbTotal b P c) ew sw c + tbLimitError b P c,
       (c.atoms.zipIdx.map fun ak => (embedAt b P c ak.2 ak.1).rho).sum,
       (c.atoms.zipIdx.map fun ak => (embedAt b P.second c ak.2 ak.1).rho).sum) := by
  obtain ⟨p0, -, -, p2, -, -, -, p6, p7, p8⟩ := tbConf_spec b P ew sw ci c hh hcol s
  have hcg := tbUsed_congr hh p0.1 p0.2
  refine Prod.ext ?_ (Prod.ext p7 p8)
  simp only [totalForce_congr hcg] at p2
  simp only [totalStress_congr hcg] at p6
  rw [p6, atomErr_sum b (tbUsedSlope b P c) c _ p2]
  unfold confError energyDev stressDev tbLimitError
  simp only
  rw [Finset.mul_sum]
  simp only [Bool.and_eq_true, and_assoc]

/-- The value returned, for any ranges: the deviations of forces and stresses are those of the slope used by the routine. -/
theorem C87_objective (b : Build) (P : EamPots K) (ew sw w : K) (qs : List (Bound K)) (eopp univ : List (Nat × K))
    (dummy0 : Nat → K) (natoms : Nat) (confs : List (Conf K)) (hh : ∀ c ∈ confs, HalfList c ∧ EamColumns P c)
    (v v' : TbVec K) (y : K) (hr : tbObjective b P ew sw w qs eopp univ dummy0 natoms confs v = .ok (v', y)) :
    y = (confs.map fun c => confError b (tbUsedSlope b P c) (tbTotal b P c) ew sw c + tbLimitError b P c).sum +
      (if b.apot = true then totalPenalty w qs eopp univ else 0) +
      (gaugeError b P dummy0 natoms confs +
        gaugeError b P.second (fun g => dummy0 (2 * P.ntypes + g)) natoms confs) := by
  have hl := confLoop_sum (tbConf b P ew sw) (fun c =>
      (confError b (tbUsedSlope b P c) (tbTotal b P c) ew sw c + tbLimitError b P c,
       (c.atoms.zipIdx.map fun ak => (embedAt b P c ak.2 ak.1).rho).sum,
       (c.atoms.zipIdx.map fun ak => (embedAt b P.second c ak.2 ak.1).rho).sum)) confs
    (fun ci c s hc => tbConf_err b P ew sw ci c (hh c hc).1 (hh c hc).2 s) 0 (v.st, ((0 : K), (0 : K), (0 : K)))
  have h2 : ∀ l : List (Conf K), ∀ f g h : Conf K → K,
      ((0 : K), (0 : K), (0 : K)) + (l.map fun c => (f c, g c, h c)).sum = ((l.map f).sum, (l.map g).sum, (l.map h).sum) := by
    intro l f g h
    have : ((0 : K), (0 : K), (0 : K)) = 0 := rfl
    rw [this, zero_add]
    induction l with
    | nil => rfl
    | cons c l ih => simp only [List.map_cons, List.sum_cons, ih]; rfl
  rw [h2] at hl
  unfold tbObjective at hr
  simp only [hl, tbDummies, eamDummies_err] at hr
  by_cases hb : b.apot = true
  · rw [if_pos hb] at hr
    cases hp : apotPunish w qs eopp univ v.par v.pot with
    | error e => simp [hp, bind, Except.bind] at hr
    | ok p =>
      simp only [hp, bind, Except.bind, Except.ok.injEq, Prod.mk.injEq] at hr
      rw [← hr.2, apotPunish_sum w qs eopp univ _ _ p hp, if_pos hb]
  · rw [if_neg hb] at hr
    simp only [Except.ok.injEq, Prod.mk.injEq] at hr
    rw [← hr.2, if_neg hb, add_zero]

/-- The entries of the force vector: those behind the punishments hold the gauge conditions, first of one band, then of the other. -/
theorem C87_gauge_entries (b : Build) (hno : b.noPunish = false) (P : EamPots K) (hnt : 0 < P.ntypes) (ew sw w : K) (qs : List (Bound K))
    (eopp univ : List (Nat × K)) (dummy0 : Nat → K) (natoms : Nat) (confs : List (Conf K)) (hh : ∀ c ∈ confs, HalfList c ∧ EamColumns P c)
    (v v' : TbVec K) (y : K) (hr : tbObjective b P ew sw w qs eopp univ dummy0 natoms confs v = .ok (v', y)) :
    ∑ i ∈ Finset.range (2 * P.ntypes), v'.dummy i ^ 2 = gaugeError b P dummy0 natoms confs ∧
    ∑ i ∈ Finset.range (2 * P.ntypes), v'.dummy (2 * P.ntypes + i) ^ 2 =
      gaugeError b P.second (fun g => dummy0 (2 * P.ntypes + g)) natoms confs := by
  have hl := confLoop_sum (tbConf b P ew sw) (fun c =>
      (confError b (tbUsedSlope b P c) (tbTotal b P c) ew sw c + tbLimitError b P c,
       (c.atoms.zipIdx.map fun ak => (embedAt b P c ak.2 ak.1).rho).sum,
       (c.atoms.zipIdx.map fun ak => (embedAt b P.second c ak.2 ak.1).rho).sum)) confs
    (fun ci c s hc => tbConf_err b P ew sw ci c (hh c hc).1 (hh c hc).2 s) 0 (v.st, ((0 : K), (0 : K), (0 : K)))
  have h2 : ∀ l : List (Conf K), ∀ f g h : Conf K → K,
      ((0 : K), (0 : K), (0 : K)) + (l.map fun c => (f c, g c, h c)).sum = ((l.map f).sum, (l.map g).sum, (l.map h).sum) := by
    intro l f g h
    have : ((0 : K), (0 : K), (0 : K)) = 0 := rfl
    rw [this, zero_add]
    induction l with
    | nil => rfl
    | cons c l ih => simp only [List.map_cons, List.sum_cons, ih]; rfl
  rw [h2] at hl
  have hd : v'.dummy = (tbDummies b P dummy0 natoms
      (confs.map fun c => (c.atoms.zipIdx.map fun ak => (embedAt b P c ak.2 ak.1).rho).sum).sum
      (confs.map fun c => (c.atoms.zipIdx.map fun ak => (embedAt b P.second c ak.2 ak.1).rho).sum).sum v.dummy).1 := by
    unfold tbObjective at hr
    simp only [hl] at hr
    by_cases hb : b.apot = true
    · rw [if_pos hb] at hr
      cases hp : apotPunish w qs eopp univ v.par v.pot with
      | error e => simp [hp, bind, Except.bind] at hr
      | ok p =>
        simp only [hp, bind, Except.bind, Except.ok.injEq, Prod.mk.injEq] at hr
        rw [← hr.1]
    · rw [if_neg hb] at hr
      simp only [Except.ok.injEq, Prod.mk.injEq] at hr
      rw [← hr.1]
  have hs : P.second.ntypes = P.ntypes := rfl
  rw [hd]
  refine ⟨?_, ?_⟩
  · rw [← eamDummies_err b P dummy0 natoms confs v.dummy, dummy_squares b hno P hnt]
    apply Finset.sum_congr rfl
    intro i hi
    simp only [tbDummies, if_pos (Finset.mem_range.1 hi)]
  · rw [← eamDummies_err b P.second (fun g => dummy0 (2 * P.ntypes + g)) natoms confs (fun i => v.dummy (2 * P.ntypes + i)),
      dummy_squares b hno P.second (by rw [hs]; exact hnt), hs]
    apply Finset.sum_congr rfl
    intro i _
    simp only [tbDummies, if_neg (show ¬ 2 * P.ntypes + i < 2 * P.ntypes by omega), Nat.add_sub_cancel_left]

theorem confError_slopes {b : Build} {p q : Entry K → K} {c : Conf K} (h : ∀ e ∈ entries c, p e = q e) (en ew sw : K) :
    confError b p en ew sw c = confError b q en ew sw c := by
  unfold confError forceError stressDev deviation
  simp only [totalForce_congr h, totalStress_congr h]

/-- Missing for the full statement: configurations in which the second band reaches farther than the first. -/
theorem C87_objective_partial (b : Build) (P : EamPots K) (ew sw w : K) (qs : List (Bound K)) (eopp univ : List (Nat × K))
    (dummy0 : Nat → K) (natoms : Nat) (confs : List (Conf K))
    (hh : ∀ c ∈ confs, HalfList c ∧ EamColumns P c ∧ Covered P c)
    (v v' : TbVec K) (y : K) (hr : tbObjective b P ew sw w qs eopp univ dummy0 natoms confs v = .ok (v', y)) :
    y = (confs.map fun c => confError b (tbFullSlope b P c) (tbTotal b P c) ew sw c + tbLimitError b P c).sum +
      (if b.apot = true then totalPenalty w qs eopp univ else 0) +
      (gaugeError b P dummy0 natoms confs +
        gaugeError b P.second (fun g => dummy0 (2 * P.ntypes + g)) natoms confs) := by
  rw [C87_objective b P ew sw w qs eopp univ dummy0 natoms confs (fun c hc => ⟨(hh c hc).1, (hh c hc).2.1⟩) v v' y hr]
  congr 3
  apply List.map_congr_left
  intro c hc
  rw [confError_slopes (p := tbUsedSlope b P c) (q := tbFullSlope b P c) (tbUsed_covered (hh c hc).2.2 _ _)]

/-- The evaluation does not depend on what was computed before. -/
theorem C87_no_memory (b : Build) (P : EamPots K) (ew sw : K) (ci : Nat) (c : Conf K) (hh : HalfList c)
    (hcol : EamColumns P c) (s s' : TbState K) :
    (tbConf b P ew sw ci c s).2 = (tbConf b P ew sw ci c s').2 ∧
    (tbConf b P ew sw ci c s).1.fv.energy ci = (tbConf b P ew sw ci c s').1.fv.energy ci ∧
    (∀ k < c.atoms.length, (tbConf b P ew sw ci c s).1.fv.force (c.start + k) =
      (tbConf b P ew sw ci c s').1.fv.force (c.start + k)) ∧
    (b.stress = true → (tbConf b P ew sw ci c s).1.fv.stress ci = (tbConf b P ew sw ci c s').1.fv.stress ci) ∧
    (b.rescale = true → (tbConf b P ew sw ci c s).1.fv.limit ci = (tbConf b P ew sw ci c s').1.fv.limit ci) := by
  obtain ⟨a0, -, -, a2, -, a4, a5, -⟩ := tbConf_spec b P ew sw ci c hh hcol s
  obtain ⟨b0, -, -, b2, -, b4, b5, -⟩ := tbConf_spec b P ew sw ci c hh hcol s'
  simp only [totalForce_congr (tbUsed_congr hh a0.1 a0.2)] at a2
  simp only [totalForce_congr (tbUsed_congr hh b0.1 b0.2)] at b2
  simp only [totalStress_congr (tbUsed_congr hh a0.1 a0.2)] at a4
  simp only [totalStress_congr (tbUsed_congr hh b0.1 b0.2)] at b4
  refine ⟨?_, ?_, ?_, ?_, ?_⟩
  · rw [tbConf_err b P ew sw ci c hh hcol, tbConf_err b P ew sw ci c hh hcol]
  · rw [C87_energy b P ew sw ci c hh hcol, C87_energy b P ew sw ci c hh hcol]
  · intro k hk
    rw [a2 k _ (List.getElem?_eq_getElem hk), b2 k _ (List.getElem?_eq_getElem hk)]
  · intro hb
    rw [a4, b4, if_pos hb, if_pos hb, Function.update_self, Function.update_self]
  · intro hb
    rw [a5, b5, if_pos hb, if_pos hb, Function.update_self, Function.update_self]

/-- The computed forces of a configuration add up to zero, whatever the ranges. -/
theorem C87_balance (b : Build) (P : EamPots K) (ew sw : K) (ci : Nat) (c : Conf K) (hh : HalfList c)
    (hcol : EamColumns P c) (hu : c.uf = true) (ha : ∀ a ∈ c.atoms, 0 ≤ a.absforce) (s : TbState K) :
    recoveredSum b c (tbConf b P ew sw ci c s).1.fv.force = 0 := by
  obtain ⟨p0, -, -, p2, -⟩ := tbConf_spec b P ew sw ci c hh hcol s
  refine sum_recovered b (tbUsed P (tbConf b P ew sw ci c s).1.gradF (tbConf b P ew sw ci c s).1.gradS) c hh
    (fun a h => forceScale_ne_zero b a (ha a h)) _ ?_
  intro j a hj
  rw [p2 j a hj, if_pos hu, scaled_eq]

end

/-! ### Forces and stresses as derivatives -/

theorem tb_reported (b : Build) (P : EamPots ℝ) (ew sw : ℝ) (ci : Nat) (s : TbState ℝ) (f : Conf ℝ)
    (ts : List Node) (hne : ts ≠ []) (w : Nat → Link → V3 ℝ) (hh : HalfList (placeWith f ts w))
    (hc : EamColumns P (placeWith f ts w)) :
    reportedEnergy (fun c => (tbConf b P ew sw ci c s).1.fv) ci (placeWith f ts w) = tbTotal b P (placeWith f ts w) := by
  have hN : (ts.length : ℝ) ≠ 0 := by exact_mod_cast (List.length_pos_iff.2 hne).ne'
  have p3 := C87_energy b P ew sw ci (placeWith f ts w) hh hc s
  unfold reportedEnergy
  simp only [p3]
  have hl : (placeWith f ts w).atoms.length = ts.length := placeWithFrom_length _ ts f.start
  rw [hl]
  field_simp
  rw [sub_add_cancel]

theorem totalForce_add (p q : Entry ℝ → ℝ) (c : Conf ℝ) (a : Nat) (k : Fin 3) :
    totalForce (fun e => p e + q e) c a k = totalForce p c a k + totalForce q c a k := by
  simp only [totalForce_apply, ← List.sum_map_add]
  congr 1
  apply List.map_congr_left
  intro e _
  unfold forceOn
  split
  · simp
  · split
    · ring
    · split
      · ring
      · simp

theorem totalStress_add (p q : Entry ℝ → ℝ) (c : Conf ℝ) (k : Fin 6) :
    totalStress (fun e => p e + q e) c k = totalStress p c k + totalStress q c k := by
  unfold totalStress
  rw [sum_apply_fin, sum_apply_fin, sum_apply_fin, ← List.sum_map_add]
  congr 1
  apply List.map_congr_left
  intro e _
  simp only [entryStress]
  by_cases h : e.n.nr = e.own
  · simp only [if_pos h]; ring
  · simp only [if_neg h]; ring

theorem placed_atom (f : Conf ℝ) (ts : List Node) (x : Nat → V3 ℝ) (i : Nat) (m : Node) (hi : ts[i]? = some m) :
    (place f ts x).atoms[i]? =
      some (⟨m.typ, m.links.map (placed x (f.start + i)), m.absforce, m.contrib⟩ : Atom ℝ) := by
  simp only [place, placeFrom_getElem?, hi, Option.map_some]

/-- Derivative of the energy with respect to the position of an atom. -/
theorem tb_gradient (b : Build) (P : EamPots ℝ) (f : Conf ℝ) (ts : List Node) (x : Nat → V3 ℝ)
    (hh : HalfList (place f ts x)) (hs : PairSmooth P.toPots f ts x)
    (ht : TransferSmooth P f ts x) (ht' : TransferSmooth P.second f ts x) (he : EmbedSmooth b P f ts x)
    (he' : EmbedSmooth b P.second f ts x) (g gs : Nat → ℝ) (hg : IsGradF b P (place f ts x) g)
    (hgs : IsGradF b P.second (place f ts x) gs) (a : Nat) (k : Fin 3) :
    HasDerivAt (fun t => tbTotal b P (place f ts (moved x a k t)))
      (-totalForce (tbSlope P g gs) (place f ts x) a k) (x a k) := by
  have hd1 := hasDerivAt_totalPair P.toPots f ts x a k hs
  have hd2 := hasDerivAt_embedding b P f ts x a k (fun e he => (hs e he).1) ht hh g
    (fun i m hi => (he i m hi).congr_deriv (hg i _ (placed_atom f ts x i m hi)).symm)
  have hd3 := hasDerivAt_embedding b P.second f ts x a k (fun e he => (hs e he).1) ht' hh gs
    (fun i m hi => (he' i m hi).congr_deriv (hgs i _ (placed_atom f ts x i m hi)).symm)
  refine ((hd1.add hd2).add hd3).congr_deriv ?_
  have : totalForce (tbSlope P g gs) (place f ts x) a k = totalForce (pairSlope P.toPots) (place f ts x) a k +
      totalForce (eamSlope P g) (place f ts x) a k + totalForce (eamSlope P.second gs) (place f ts x) a k := by
    rw [← totalForce_add, ← totalForce_add]
    rfl
  rw [this]
  ring

/-- The entries of the force vector for the slope used by the routine. -/
theorem tb_reportedForce (b : Build) (P : EamPots ℝ) (ew sw : ℝ) (ci : Nat) (s : TbState ℝ) (f : Conf ℝ)
    (ts : List Node) (x : Nat → V3 ℝ) (hu : f.uf = true) (hh : HalfList (place f ts x)) (hc : EamColumns P (place f ts x))
    (hw : ∀ n ∈ ts, 0 ≤ n.absforce) (j : Nat) (n : Node) (hj : ts[j]? = some n) (k : Fin 3) :
    let r := (tbConf b P ew sw ci (place f ts x) s).1
    reportedForce b r.fv f n.absforce (f.start + j) k =
      totalForce (tbUsed P r.gradF r.gradS) (place f ts x) (f.start + j) k := by
  intro r
  obtain ⟨-, -, -, p4, -⟩ := tbConf_spec b P ew sw ci (place f ts x) hh hc s
  have hF := p4 j _ (placed_atom f ts x j n hj)
  have e1 : (place f ts x).uf = true := hu
  have e2 : (place f ts x).start = f.start := rfl
  have e3 : (place f ts x).force0 = f.force0 := rfl
  rw [if_pos e1, e2, e3] at hF
  unfold reportedForce
  rw [show r.fv.force (f.start + j) = _ from hF]
  have : (1 / 10 + n.absforce : ℝ) ≠ 0 := by linarith [hw n (List.mem_of_getElem? hj)]
  unfold scaled
  by_cases hb : b.fweight = true
  · simp only [hb, Bool.and_self, if_true, forceEps, Pi.sub_apply]
    rw [div_mul_cancel₀ _ this, sub_add_cancel]
  · simp [hb, r]

/-- Forces are minus the gradient of the energy.  Missing for the full statement: pairs of atoms within reach of the second
band only (see `C87_force_violated`). -/
theorem C87_force_partial (b : Build) (P : EamPots ℝ) (ew sw : ℝ) (ci : Nat) (s : TbState ℝ) (f : Conf ℝ)
    (ts : List Node) (x : Nat → V3 ℝ) (hu : f.uf = true) (hh : HalfList (place f ts x)) (hc : EamColumns P (place f ts x))
    (hcov : Covered P (place f ts x)) (hs : PairSmooth P.toPots f ts x)
    (ht : TransferSmooth P f ts x) (ht' : TransferSmooth P.second f ts x) (he : EmbedSmooth b P f ts x)
    (he' : EmbedSmooth b P.second f ts x) (hw : ∀ n ∈ ts, 0 ≤ n.absforce) (j : Nat) (n : Node)
    (hj : ts[j]? = some n) (k : Fin 3) :
    HasDerivAt (fun t => reportedEnergy (fun c => (tbConf b P ew sw ci c s).1.fv) ci
        (place f ts (moved x (f.start + j) k t)))
      (-reportedForce b (tbConf b P ew sw ci (place f ts x) s).1.fv f n.absforce (f.start + j) k)
      (x (f.start + j) k) := by
  have hne : ts ≠ [] := by rintro rfl; simp at hj
  obtain ⟨p0, -⟩ := tbConf_spec b P ew sw ci (place f ts x) hh hc s
  have h := tb_gradient b P f ts x hh hs ht ht' he he' _ _ p0.1 p0.2 (f.start + j) k
  refine (h.congr_of_eventuallyEq (Filter.Eventually.of_forall fun t => ?_)).congr_deriv ?_
  · have := tb_reported b P ew sw ci s f ts hne (reach (moved x (f.start + j) k t))
      (by rw [placeWith_reach]; exact halfList_place hh) (by rw [placeWith_reach]; exact eamColumns_place hc)
    rw [placeWith_reach] at this
    exact this
  · rw [tb_reportedForce b P ew sw ci s f ts x hu hh hc hw j n hj k, totalForce_congr (tbUsed_covered hcov _ _)]

/-- Stresses are the derivative of the energy with respect to the strain.  Missing for the full statement: pairs of atoms
within reach of the second band only. -/
theorem C87_stress_partial (b : Build) (P : EamPots ℝ) (ew sw : ℝ) (ci : Nat) (s : TbState ℝ) (f : Conf ℝ)
    (ts : List Node) (x : Nat → V3 ℝ) (hb : b.stress = true) (hu : f.uf = true) (hus : f.us = true) (hv : f.vol ≠ 0)
    (hne : ts ≠ []) (hh : HalfList (place f ts x)) (hc : EamColumns P (place f ts x))
    (hcov : Covered P (place f ts x)) (hs : PairSmooth P.toPots f ts x)
    (ht : TransferSmooth P f ts x) (ht' : TransferSmooth P.second f ts x) (he : EmbedSmooth b P f ts x)
    (he' : EmbedSmooth b P.second f ts x) (k : Fin 6) :
    HasDerivAt (fun e => reportedEnergy (fun c => (tbConf b P ew sw ci c s).1.fv) ci
        (placeStrained f ts x (voigt k).2 (voigt k).1 e))
      (-reportedVirial (tbConf b P ew sw ci (place f ts x) s).1.fv ci f k) 0 := by
  have hM := straining_now x (voigt k).2 (voigt k).1
  have hpl := place_eq_placeWith f ts x hM
  have hh' : HalfList (placeWith f ts ((straining x (voigt k).2 (voigt k).1).path
    (straining x (voigt k).2 (voigt k).1).now)) := by rw [hpl]; exact hh
  have hc' : EamColumns P (placeWith f ts ((straining x (voigt k).2 (voigt k).1).path
    (straining x (voigt k).2 (voigt k).1).now)) := by rw [hpl]; exact hc
  have hE : ∀ e, reportedEnergy (fun c => (tbConf b P ew sw ci c s).1.fv) ci
        (placeStrained f ts x (voigt k).2 (voigt k).1 e) =
      tbTotal b P (placeWith f ts ((straining x (voigt k).2 (voigt k).1).path e)) := fun e =>
    tb_reported b P ew sw ci s f ts hne _ (halfList_placeWith hh') (eamColumns_placeWith hc')
  obtain ⟨p0, -, -, -, -, p4, -⟩ := tbConf_spec b P ew sw ci (place f ts x) hh hc s
  have hd1 := rate_pair (straining x (voigt k).2 (voigt k).1) P.toPots f ts (pairSmooth_now hs hM)
  have hd2 := rate_embedding_self (straining x (voigt k).2 (voigt k).1) b P f ts
    (transferSmooth_now (fun e he => (hs e he).1) ht hM) hh' (fun e he => (hc' e he).2)
    (tbConf b P ew sw ci (place f ts x) s).1.gradF (by
      intro i m hi
      rw [hpl]
      exact (he i m hi).congr_deriv (p0.1 i _ (placed_atom f ts x i m hi)).symm)
  have hd3 := rate_embedding_self (straining x (voigt k).2 (voigt k).1) b P.second f ts
    (transferSmooth_now (fun e he => (hs e he).1) ht' hM) hh' (fun e he => (hc' e he).2)
    (tbConf b P ew sw ci (place f ts x) s).1.gradS (by
      intro i m hi
      rw [hpl]
      exact (he' i m hi).congr_deriv (p0.2 i _ (placed_atom f ts x i m hi)).symm)
  refine (((hd1.add hd2).add hd3).congr_of_eventuallyEq (Filter.Eventually.of_forall hE)).congr_deriv ?_
  rw [virial_along, virial_along, virial_along]
  have e1 : (place f ts x).uf = f.uf := rfl
  have e2 : (place f ts x).us = f.us := rfl
  have e3 : (place f ts x).vol = f.vol := rfl
  have e4 : (place f ts x).stress0 = f.stress0 := rfl
  unfold reportedVirial
  rw [p4, if_pos hb, Function.update_self, e1, e2, hu, hus, e3, e4]
  simp only [Bool.and_self, if_true, sub_add_cancel]
  rw [div_mul_cancel₀ _ hv, totalStress_congr (tbUsed_covered hcov _ _), ← neg_add, ← neg_add]
  congr 1
  rw [← totalStress_add, ← totalStress_add]
  rfl

/-! ### The two ranges -/

/-- Potentials for the examples: pair function `r ^ 2`, transfer functions `r`, embedding functions `y`; the transfer function
of the first band reaches to `near`, that of the second to 10. -/
noncomputable def tbPots (near : ℝ) : EamPots ℝ where
  fin := fun col => if col = 1 then near else 10
  beg := fun _ => -1
  step := fun _ => 1
  val := fun col r => if col = 0 then r ^ 2 else r
  grad := fun col r => if col = 0 then 2 * r else 1
  paircol := 1
  ntypes := 1
  ana := fun _ _ => (0, 0)

theorem tb_cols (near : ℝ) : EamColumns (tbPots near) (place gradConf gradNodes gradPos) := by
  intro e he
  rw [gradEntries] at he
  simp only [List.mem_singleton] at he
  subst he
  simp [tbPots]

theorem tb_pair (near : ℝ) : PairSmooth (tbPots near).toPots gradConf gradNodes gradPos := by
  intro e he
  rw [gradEntries] at he
  simp only [List.mem_singleton] at he
  subst he
  simp only [tbPots, if_neg (show (0 : ℕ) ≠ 1 by decide), if_true]
  refine ⟨by norm_num, by norm_num, fun _ => ?_⟩
  simpa using hasDerivAt_pow 2 (2 : ℝ)

theorem tb_transfer (near : ℝ) (h2 : (2 : ℝ) ≠ near) : TransferSmooth (tbPots near) gradConf gradNodes gradPos ∧
    TransferSmooth (tbPots near).second gradConf gradNodes gradPos := by
  constructor <;>
  · intro e he t ht
    rw [gradEntries] at he
    simp only [List.mem_singleton] at he
    subst he
    have : t = 0 := by simpa using ht
    subst this
    simp only [tbPots, EamPots.second, Nat.add_zero]
    first
      | exact ⟨by simpa using h2, fun _ => hasDerivAt_id (2 : ℝ)⟩
      | exact ⟨by norm_num, fun _ => hasDerivAt_id (2 : ℝ)⟩

/-- Tabulated potentials without `RESCALE`. -/
def tbBuild : Build := ⟨true, false, false, false, false, false⟩

theorem tb_embed (P : EamPots ℝ) (hP : P = tbPots 1 ∨ P = (tbPots 1).second ∨ P = tbPots 5 ∨ P = (tbPots 5).second)
    (y : ℝ) (h1 : -1 < y) (h2 : y < 10) :
    HasDerivAt (fun y => (embed tbBuild P (P.paircol + P.ntypes + 0) y).value)
      (embed tbBuild P (P.paircol + P.ntypes + 0) y).grad y := by
  have key : ∀ z : ℝ, -1 < z → z < 10 → embed tbBuild P (P.paircol + P.ntypes + 0) z = ⟨z, z, 1, 0⟩ := by
    intro z z1 z2
    have a1 := not_lt.2 z1.le
    have a2 := not_lt.2 z2.le
    rcases hP with rfl | rfl | rfl | rfl <;>
    simp [embed, tbBuild, tbPots, EamPots.second, a1, a2]
  rw [key y h1 h2]
  refine (hasDerivAt_id y).congr_of_eventuallyEq ?_
  filter_upwards [lt_mem_nhds h1, gt_mem_nhds h2] with z z1 z2
  rw [key z z1 z2]
  rfl

theorem tb_nodes (j : Nat) (n : Node) (h : gradNodes[j]? = some n) : n.typ = 0 ∧ j < 2 := by
  match j, h with
  | 0, h =>
    simp only [gradNodes, List.getElem?_cons_zero, Option.some.injEq] at h
    subst h
    exact ⟨rfl, by decide⟩
  | 1, h =>
    simp only [gradNodes, List.getElem?_cons_succ, List.getElem?_cons_zero, Option.some.injEq] at h
    subst h
    exact ⟨rfl, by decide⟩

theorem tb_density (P : EamPots ℝ) (hP : P = tbPots 1 ∨ P = (tbPots 1).second ∨ P = tbPots 5 ∨ P = (tbPots 5).second)
    (j : Nat) (hj : j < 2) : -1 < totalDensity P (place gradConf gradNodes gradPos) (gradConf.start + j) ∧
      totalDensity P (place gradConf gradNodes gradPos) (gradConf.start + j) < 10 := by
  unfold totalDensity
  rw [gradEntries]
  have : j = 0 ∨ j = 1 := by omega
  rcases this with rfl | rfl <;> rcases hP with rfl | rfl | rfl | rfl <;>
  simp [densityOn, transfer, tbPots, EamPots.second, gradConf] <;> norm_num

theorem tb_smooth (P : EamPots ℝ) (hP : P = tbPots 1 ∨ P = (tbPots 1).second ∨ P = tbPots 5 ∨ P = (tbPots 5).second) :
    EmbedSmooth tbBuild P gradConf gradNodes gradPos := by
  intro j n hj
  obtain ⟨h1, h2⟩ := tb_nodes j n hj
  obtain ⟨h3, h4⟩ := tb_density P hP j h2
  rw [h1]
  exact tb_embed P hP _ h3 h4

/-- The hypotheses are met if the first band reaches to 5. -/
example : tbBuild.stress = true ∧ gradConf.uf = true ∧ gradConf.us = true ∧ gradConf.vol ≠ 0 ∧ gradNodes ≠ [] ∧
    HalfList (place gradConf gradNodes gradPos) ∧ EamColumns (tbPots 5) (place gradConf gradNodes gradPos) ∧
    Covered (tbPots 5) (place gradConf gradNodes gradPos) ∧ PairSmooth (tbPots 5).toPots gradConf gradNodes gradPos ∧
    TransferSmooth (tbPots 5) gradConf gradNodes gradPos ∧ TransferSmooth (tbPots 5).second gradConf gradNodes gradPos ∧
    EmbedSmooth tbBuild (tbPots 5) gradConf gradNodes gradPos ∧
    EmbedSmooth tbBuild (tbPots 5).second gradConf gradNodes gradPos ∧ (∀ n ∈ gradNodes, 0 ≤ n.absforce) := by
  refine ⟨rfl, rfl, rfl, one_ne_zero, by simp [gradNodes], grad_half, tb_cols 5, ?_, tb_pair 5,
    (tb_transfer 5 (by norm_num)).1, (tb_transfer 5 (by norm_num)).2, tb_smooth _ (by simp), tb_smooth _ (by simp), ?_⟩
  · intro e he _
    rw [gradEntries] at he
    simp only [List.mem_singleton] at he
    subst he
    left
    simp [tbPots]
    norm_num
  · intro n hn
    simp only [gradNodes, List.mem_cons, List.not_mem_nil, or_false] at hn
    rcases hn with rfl | rfl <;> exact le_refl _

/-- If the first band reaches only to 1, two atoms at distance 2 interact by the second band in the energy, but not in the
forces: all other hypotheses hold, and the force is not minus the derivative. -/
theorem C87_force_violated (s : TbState ℝ) :
    let E := fun t => reportedEnergy (fun c => (tbConf tbBuild (tbPots 1) 1 1 0 c s).1.fv) 0
      (place gradConf gradNodes (moved gradPos 0 0 t))
    ∃ E', HasDerivAt E E' (gradPos 0 0) ∧
      E' ≠ -reportedForce tbBuild (tbConf tbBuild (tbPots 1) 1 1 0 (place gradConf gradNodes gradPos) s).1.fv gradConf 0 0 0 := by
  intro E
  obtain ⟨p0, -⟩ := tbConf_spec tbBuild (tbPots 1) 1 1 0 (place gradConf gradNodes gradPos) grad_half (tb_cols 1) s
  have h := tb_gradient tbBuild (tbPots 1) gradConf gradNodes gradPos grad_half (tb_pair 1)
    (tb_transfer 1 (by norm_num)).1 (tb_transfer 1 (by norm_num)).2 (tb_smooth _ (by simp)) (tb_smooth _ (by simp))
    _ _ p0.1 p0.2 0 0
  refine ⟨_, h.congr_of_eventuallyEq (Filter.Eventually.of_forall fun t => ?_), ?_⟩
  · have := tb_reported tbBuild (tbPots 1) 1 1 0 s gradConf gradNodes (by simp [gradNodes]) (reach (moved gradPos 0 0 t))
      (by rw [placeWith_reach]; exact halfList_place grad_half) (by rw [placeWith_reach]; exact eamColumns_place (tb_cols 1))
    rw [placeWith_reach] at this
    exact this
  · have hF := tb_reportedForce tbBuild (tbPots 1) 1 1 0 s gradConf gradNodes gradPos rfl grad_half (tb_cols 1) (by
      intro n hn
      simp only [gradNodes, List.mem_cons, List.not_mem_nil, or_false] at hn
      rcases hn with rfl | rfl <;> exact le_refl _) 0 _ rfl 0
    have e0 : gradConf.start + 0 = 0 := rfl
    rw [e0] at hF
    rw [hF]
    have hgs : ∀ i, i < 2 → (tbConf tbBuild (tbPots 1) 1 1 0 (place gradConf gradNodes gradPos) s).1.gradS i = 1 := by
      intro i hi
      have hi' : i < gradNodes.length := hi
      have hn := List.getElem?_eq_getElem hi'
      have h1 := p0.2 i _ (placed_atom gradConf gradNodes gradPos i _ hn)
      obtain ⟨d1, d2⟩ := tb_density (tbPots 1).second (by simp) i hi
      obtain ⟨h2, -⟩ := tb_nodes i _ hn
      have e0 : (place gradConf gradNodes gradPos).start = 0 := rfl
      have e1 : gradConf.start = 0 := rfl
      rw [e1, Nat.zero_add] at d1 d2
      unfold embedAt at h1
      simp only [e0, Nat.zero_add, h2] at h1
      rw [h1]
      have a1 := not_lt.2 d1.le
      have a2 := not_lt.2 d2.le
      have b1 : (tbPots 1).second.beg = fun _ => -1 := rfl
      have b2 : (tbPots 1).second.fin ((tbPots 1).second.paircol + (tbPots 1).second.ntypes + 0) = 10 := by
        simp [tbPots, EamPots.second]
      simp only [embed, b1, b2, a1, a2, tbBuild]
      simp [tbPots, EamPots.second]
    simp only [totalForce_apply, gradEntries, List.map_cons, List.map_nil, List.sum_cons, List.sum_nil, add_zero]
    simp only [forceOn, tbSlope, tbUsed, pairSlope, eamSlope, InReach, if_neg (show (0 : ℕ) ≠ 1 by decide), if_true,
      Matrix.cons_val, hgs 0 (by decide), hgs 1 (by decide)]
    simp [transferSlope, tbPots, EamPots.second]
    norm_num

end Verif.Props
