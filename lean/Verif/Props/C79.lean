/-
C79  EAM potentials with electrostatics: energy, forces, stresses, objective.

Energy, forces and stresses are read off the force vector; positions and strains are varied at fixed neighbour lists as in
C17 and C65.  Without `DIPOLE` the energy is that of C67 plus the embedding energies.  With `DIPOLE` the same holds at fixed
dipoles if charged neighbours are both polarisable or both not; otherwise the wrong polarisability is asked for and the
interaction of a dipole with a charge is left out or computed with a dipole that does not exist.
-/
import Verif.Lemmas.ForceEamElstat
import Verif.Props.C69

set_option linter.unusedSectionVars false

namespace Verif.Props

open Verif.Force Verif.Spec Verif.Tails

section
variable {K : Type*} [Field K] [LinearOrder K] [IsStrictOrderedRing K]

/-! ### Point charges -/

/-- The energy of a configuration. -/
theorem C79_energy (b : Build) (P : EamPots K) (E : Elec K) (ew sw : K) (ci : Nat) (c : Conf K) (hh : HalfList c)
    (hcol : EamColumns P c) (hal : Aligned c) (s : EeState K) :
    (eeConf b false P E ew sw ci c s).1.fv.energy ci =
      (coulombTotal P.toPots E c + totalEmbedding b.clamped P c) / (c.atoms.length : K) - c.energy0 := by
  obtain ⟨-, -, -, -, h, -⟩ := eeConf_spec b false P E ew sw ci c hh hcol hal (by simp) (by simp) (by simp) s
  rw [h, Function.update_self, elTotal_false]

/-- Derivative of the energy with respect to the vectors of the entries. -/
def eamCoulombFull (b : Build) (P : EamPots K) (E : Elec K) (c : Conf K) (e : Entry K) : V3 K :=
  coulombFull P.toPots E e + along (eamSlope P (embGrad b.clamped P c)) e

theorem eamSlope_congr {b : Build} {P : EamPots K} {c : Conf K} (hh : HalfList c) {g : Nat → K} (h : IsGradF b P c g) :
    ∀ e ∈ entries c, along (eamSlope P g) e = along (eamSlope P (embGrad b P c)) e := by
  intro e he
  have := eamFullSlope_congr hh h e he
  unfold fullSlope eamFullSlope at this
  unfold along
  rw [add_left_cancel this]

theorem eeConf_err (b : Build) (P : EamPots K) (E : Elec K) (ew sw : K) (ci : Nat) (c : Conf K) (hh : HalfList c)
    (hcol : EamColumns P c) (hal : Aligned c) (s : EeState K) :
    (eeConf b false P E ew sw ci c s).2 =
      (vecConfError b (eamCoulombFull b P E c) (eamCoulombFull b P E c) (coulombTotal P.toPots E c + totalEmbedding b.clamped P c)
        ew sw c + adpLimitError b.clamped P c,
       (c.atoms.zipIdx.map fun ak => (embedAt b.clamped P c ak.2 ak.1).rho).sum) := by
  obtain ⟨p0, -, -, p2, -, -, -, p6, p7⟩ := eeConf_spec b false P E ew sw ci c hh hcol hal (by simp) (by simp) (by simp) s
  have hv : ∀ e ∈ entries c, eeVec false P E (eeConf b false P E ew sw ci c s).1.dip.pInd (eeConf b false P E ew sw ci c s).1.gradF e =
      eamCoulombFull b P E c e := by
    intro e he
    unfold eeVec eamCoulombFull
    rw [elVec_false, eamSlope_congr hh p0 e he]
  have hF : ∀ a, vecForce (eeVec false P E (eeConf b false P E ew sw ci c s).1.dip.pInd
      (eeConf b false P E ew sw ci c s).1.gradF) c a = vecForce (eamCoulombFull b P E c) c a :=
    fun a => vecForce_congr (fun e he _ => hv e he) a
  simp only [hF] at p2
  simp only [vecStress_congr' hv, elTotal_false] at p6
  refine Prod.ext ?_ p7
  rw [p6, conf_err_vec b (eamCoulombFull b P E c) _ ew sw c _ p2]
  rfl

/-- Gauge condition on the slopes of the embedding functions in the middle of their range. -/
def eeGaugeError (b : Build) (P : EamPots K) (dummy0 : Nat → K) : K :=
  if b.noPunish = true then 0
  else ∑ g ∈ Finset.range P.ntypes, (100 * P.grad (P.paircol + P.ntypes + g)
    ((P.beg (P.paircol + P.ntypes + g) + P.fin (P.paircol + P.ntypes + g)) / 2) - dummy0 g) ^ 2

/-- The value returned by the routine: weighted squares of the deviations of forces, energies and stresses, the punishment of
densities outside of the range of the embedding functions, the punishments of the parameters and the gauge condition. -/
theorem C79_objective (b : Build) (P : EamPots K) (E : Elec K) (ew sw w : K) (qs : List (Bound K)) (eopp univ : List (Nat × K))
    (dummy0 : Nat → K) (confs : List (Conf K)) (hh : ∀ c ∈ confs, HalfList c ∧ EamColumns P c ∧ Aligned c)
    (v v' : EeVector K) (y : K) (hr : eeObjective b false P E ew sw w qs eopp univ dummy0 confs v = .ok (v', y)) :
    y = (confs.map fun c => vecConfError b (eamCoulombFull b P E c) (eamCoulombFull b P E c)
          (coulombTotal P.toPots E c + totalEmbedding b.clamped P c) ew sw c + adpLimitError b.clamped P c).sum +
      (if b.apot = true then totalPenalty w qs eopp univ else 0) + eeGaugeError b P dummy0 := by
  have hl := confLoop_sum (eeConf b false P E ew sw) (fun c =>
      (vecConfError b (eamCoulombFull b P E c) (eamCoulombFull b P E c) (coulombTotal P.toPots E c + totalEmbedding b.clamped P c)
        ew sw c + adpLimitError b.clamped P c,
       (c.atoms.zipIdx.map fun ak => (embedAt b.clamped P c ak.2 ak.1).rho).sum)) confs
    (fun ci c s hc => eeConf_err b P E ew sw ci c (hh c hc).1 (hh c hc).2.1 (hh c hc).2.2 s) 0 (v.st, ((0 : K), (0 : K)))
  have h2 : ∀ l : List (Conf K), ∀ f g : Conf K → K,
      ((0 : K), (0 : K)) + (l.map fun c => (f c, g c)).sum = ((l.map f).sum, (l.map g).sum) := by
    intro l f g
    have : ((0 : K), (0 : K)) = 0 := rfl
    rw [this, zero_add]
    induction l with
    | nil => rfl
    | cons c l ih => simp only [List.map_cons, List.sum_cons, ih]; rfl
  rw [h2] at hl
  have hd : (eeDummies b P dummy0 v.dummy).2 = eeGaugeError b P dummy0 := by
    have hg : eeGaugeError b P dummy0 = adpGaugeError b.clamped P dummy0 0 confs := by
      unfold eeGaugeError adpGaugeError
      by_cases h1 : b.noPunish = true
      · have h1' : b.clamped.noPunish = true := h1
        rw [if_pos h1, if_pos h1']
      · have h1' : ¬ b.clamped.noPunish = true := h1
        rw [if_neg h1, if_neg h1', if_pos (show b.clamped.rescale = true from rfl)]
    rw [hg, ← adpDummies_err b.clamped P dummy0 0 confs v.dummy]
    unfold eeDummies adpDummies
    by_cases h1 : b.noPunish = true
    · have h1' : b.clamped.noPunish = true := h1
      simp [h1, h1']
    · have h1' : ¬ b.clamped.noPunish = true := h1
      simp [h1, Build.clamped]
  unfold eeObjective at hr
  simp only [hl, hd] at hr
  by_cases hb : b.apot = true
  · rw [if_pos hb] at hr
    cases hp : apotPunish w qs eopp univ v.par v.pot with
    | error e => simp [hp, bind, Except.bind] at hr
    | ok p =>
      simp only [hp, bind, Except.bind, Except.ok.injEq, Prod.mk.injEq] at hr
      rw [← hr.2, apotPunish_sum w qs eopp univ _ _ p hp, if_pos hb]
  · rw [if_neg hb] at hr
    simp only [Except.ok.injEq, Prod.mk.injEq] at hr
    rw [← hr.2, if_neg hb, add_zero]

/-- The evaluation does not depend on what was computed before. -/
theorem C79_no_memory (b : Build) (P : EamPots K) (E : Elec K) (ew sw : K) (ci : Nat) (c : Conf K) (hh : HalfList c)
    (hcol : EamColumns P c) (hal : Aligned c) (s s' : EeState K) :
    (eeConf b false P E ew sw ci c s).2 = (eeConf b false P E ew sw ci c s').2 ∧
    (eeConf b false P E ew sw ci c s).1.fv.energy ci = (eeConf b false P E ew sw ci c s').1.fv.energy ci ∧
    (∀ k < c.atoms.length, (eeConf b false P E ew sw ci c s).1.fv.force (c.start + k) =
      (eeConf b false P E ew sw ci c s').1.fv.force (c.start + k)) ∧
    (b.stress = true → (eeConf b false P E ew sw ci c s).1.fv.stress ci =
      (eeConf b false P E ew sw ci c s').1.fv.stress ci) ∧
    (eeConf b false P E ew sw ci c s).1.fv.limit ci = (eeConf b false P E ew sw ci c s').1.fv.limit ci := by
  obtain ⟨a0, -, -, a2, -, a4, a5, -⟩ := eeConf_spec b false P E ew sw ci c hh hcol hal (by simp) (by simp) (by simp) s
  obtain ⟨b0, -, -, b2, -, b4, b5, -⟩ := eeConf_spec b false P E ew sw ci c hh hcol hal (by simp) (by simp) (by simp) s'
  have hv : ∀ (t : EeState K), IsGradF b.clamped P c (eeConf b false P E ew sw ci c t).1.gradF → ∀ e ∈ entries c,
      eeVec false P E (eeConf b false P E ew sw ci c t).1.dip.pInd (eeConf b false P E ew sw ci c t).1.gradF e =
      eamCoulombFull b P E c e := by
    intro t ht e he
    unfold eeVec eamCoulombFull
    rw [elVec_false, eamSlope_congr hh ht e he]
  have hF : ∀ (t : EeState K), IsGradF b.clamped P c (eeConf b false P E ew sw ci c t).1.gradF → ∀ a,
      vecForce (eeVec false P E (eeConf b false P E ew sw ci c t).1.dip.pInd (eeConf b false P E ew sw ci c t).1.gradF) c a =
        vecForce (eamCoulombFull b P E c) c a :=
    fun t ht a => vecForce_congr (fun e he _ => hv t ht e he) a
  simp only [hF s a0] at a2
  simp only [hF s' b0] at b2
  simp only [vecStress_congr' (hv s a0)] at a4
  simp only [vecStress_congr' (hv s' b0)] at b4
  refine ⟨?_, ?_, ?_, ?_, ?_⟩
  · rw [eeConf_err b P E ew sw ci c hh hcol hal, eeConf_err b P E ew sw ci c hh hcol hal]
  · rw [C79_energy b P E ew sw ci c hh hcol hal, C79_energy b P E ew sw ci c hh hcol hal]
  · intro k hk
    rw [a2 k _ (List.getElem?_eq_getElem hk), b2 k _ (List.getElem?_eq_getElem hk)]
  · intro hb
    rw [a4, b4, if_pos hb, if_pos hb, Function.update_self, Function.update_self]
  · rw [a5, b5, Function.update_self, Function.update_self]

/-! ### Dipoles -/

/-- Energy with the dipoles the iteration ends with, if neighbours are both polarisable or both not. -/
theorem C79_dipole_energy_partial (b : Build) (P : EamPots K) (E : Elec K) (ew sw : K) (ci : Nat) (c : Conf K) (hh : HalfList c)
    (hcol : EamColumns P c) (hal : Aligned c) (ht : TypesMatch c) (hq : PolarCharged E c) (hp : SamePolar E c)
    (s : EeState K) :
    let r := eeConf b true P E ew sw ci c s
    r.1.fv.energy ci = (elTotal true P.toPots E r.1.dip.pInd c + totalEmbedding b.clamped P c) / (c.atoms.length : K) -
      c.energy0 := by
  intro r
  obtain ⟨-, -, -, -, h, -⟩ := eeConf_spec b true P E ew sw ci c hh hcol hal (fun _ => ht) (fun _ => hq) (fun _ => hp) s
  exact (congrFun h ci).trans (Function.update_self _ _ _)

/-- Contribution of a configuration to the objective. -/
theorem C79_dipole_error_partial (b : Build) (P : EamPots K) (E : Elec K) (ew sw : K) (ci : Nat) (c : Conf K) (hh : HalfList c)
    (hcol : EamColumns P c) (hal : Aligned c) (ht : TypesMatch c) (hq : PolarCharged E c) (hp : SamePolar E c)
    (s : EeState K) :
    let r := eeConf b true P E ew sw ci c s
    let D := fun e => elVec true P.toPots E r.1.dip.pInd e + along (eamSlope P (embGrad b.clamped P c)) e
    r.2.1 = vecConfError b D D (elTotal true P.toPots E r.1.dip.pInd c + totalEmbedding b.clamped P c) ew sw c +
      adpLimitError b.clamped P c := by
  intro r D
  obtain ⟨p0, -, -, p2, -, -, -, p6, -⟩ :=
    eeConf_spec b true P E ew sw ci c hh hcol hal (fun _ => ht) (fun _ => hq) (fun _ => hp) s
  have hv : ∀ e ∈ entries c, eeVec true P E r.1.dip.pInd r.1.gradF e = D e := by
    intro e he
    show _ + _ = _
    rw [eamSlope_congr hh p0 e he]
  have hF : ∀ a, vecForce (eeVec true P E (eeConf b true P E ew sw ci c s).1.dip.pInd
      (eeConf b true P E ew sw ci c s).1.gradF) c a = vecForce D c a :=
    fun a => vecForce_congr (fun e he _ => hv e he) a
  simp only [hF] at p2
  have hv' : ∀ e ∈ entries c, eeVec true P E (eeConf b true P E ew sw ci c s).1.dip.pInd
    (eeConf b true P E ew sw ci c s).1.gradF e = D e := hv
  simp only [vecStress_congr' hv'] at p6
  rw [show r.2.1 = _ from p6, conf_err_vec b D _ ew sw c _ p2]
  rfl

end

/-! ### Forces and stresses as derivatives -/

theorem rate_ee (M : Motion) (b : Build) (dip : Bool) (P : EamPots ℝ) (E : Elec ℝ) (p : Nat → V3 ℝ) (G : Nat → ℝ)
    (f : Conf ℝ) (ts : List Node) (x : Nat → V3 ℝ) (hM : M.path M.now = reach x)
    (hh : HalfList (place f ts x)) (hc : EamColumns P (place f ts x)) (hs : PairSmooth P.toPots f ts x)
    (ht : TransferSmooth P f ts x) (he : EmbedSmooth b P f ts x) (hel : ElSmooth dip E f ts x)
    (hG : IsGradF b P (place f ts x) G) :
    HasDerivAt (fun t => elTotal dip P.toPots E p (placeWith f ts (M.path t)) + totalEmbedding b P (placeWith f ts (M.path t)))
      (totalRate M (eeVec dip P E p G) f ts) M.now := by
  have hpl := place_eq_placeWith f ts x hM
  have hh' : HalfList (placeWith f ts (M.path M.now)) := by rw [hpl]; exact hh
  have hc' : EamColumns P (placeWith f ts (M.path M.now)) := by rw [hpl]; exact hc
  have hat : ∀ (i : Nat) (m : Node), ts[i]? = some m → (place f ts x).atoms[i]? =
      some (⟨m.typ, m.links.map (placed x (f.start + i)), m.absforce, m.contrib⟩ : Atom ℝ) := by
    intro i m hi
    simp only [place, placeFrom_getElem?, hi, Option.map_some]
  have hd1 := rate_elTotal M dip P.toPots E p f ts (pairSmooth_now hs hM) (elSmooth_now hel hM)
  have hd2 := rate_embedding M b P f ts
    (transferSmooth_now (fun e he => (hs e he).1) ht hM) hh' hc' G (by
      intro i m hi
      rw [hpl]
      exact (he i m hi).congr_deriv (hG i _ (hat i m hi)).symm)
  refine (hd1.add hd2).congr_deriv ?_
  rw [← totalRate_add]
  rfl

theorem ee_force (b : Build) (dip : Bool) (P : EamPots ℝ) (E : Elec ℝ) (ew sw : ℝ) (ci : Nat) (s : EeState ℝ) (f : Conf ℝ)
    (ts : List Node) (x : Nat → V3 ℝ) (hu : f.uf = true) (hh : HalfList (place f ts x)) (hc : EamColumns P (place f ts x))
    (hm : dip = true → TypesMatch (place f ts x)) (hq : dip = true → PolarCharged E (place f ts x))
    (hp : dip = true → SamePolar E (place f ts x)) (hs : PairSmooth P.toPots f ts x)
    (ht : TransferSmooth P f ts x) (he : EmbedSmooth b.clamped P f ts x) (hel : ElSmooth dip E f ts x)
    (hw : ∀ n ∈ ts, 0 ≤ n.absforce) (j : Nat) (n : Node) (hj : ts[j]? = some n) (k : Fin 3) :
    let r := eeConf b dip P E ew sw ci (place f ts x) s
    HasDerivAt (fun t => elTotal dip P.toPots E r.1.dip.pInd (place f ts (moved x (f.start + j) k t)) +
        totalEmbedding b.clamped P (place f ts (moved x (f.start + j) k t)))
      (-reportedForce b r.1.fv f n.absforce (f.start + j) k) (x (f.start + j) k) := by
  intro r
  have hal : Aligned (place f ts x) := by rw [← placeWith_reach]; exact aligned_placeWith f ts _
  obtain ⟨p0, -, -, p4, -⟩ := eeConf_spec b dip P E ew sw ci (place f ts x) hh hc hal hm hq hp s
  have h := rate_ee (moving x (f.start + j) k) b.clamped dip P E r.1.dip.pInd r.1.gradF f ts x (moving_now x (f.start + j) k)
    hh hc hs ht he hel p0
  have hat : (place f ts x).atoms[j]? =
      some (⟨n.typ, n.links.map (placed x (f.start + j)), n.absforce, n.contrib⟩ : Atom ℝ) := by
    simp only [place, placeFrom_getElem?, hj, Option.map_some]
  have hF := p4 j _ hat
  have e1 : (place f ts x).uf = true := hu
  have e2 : (place f ts x).start = f.start := rfl
  have e3 : (place f ts x).force0 = f.force0 := rfl
  rw [if_pos e1, e2, e3] at hF
  refine (h.congr_of_eventuallyEq (Filter.Eventually.of_forall fun t => ?_)).congr_deriv ?_
  · show elTotal dip P.toPots E _ (place f ts (moved x (f.start + j) k t)) + totalEmbedding _ P
      (place f ts (moved x (f.start + j) k t)) = _
    rw [← placeWith_reach]
    rfl
  · rw [totalRate_moving]
    congr 1
    unfold reportedForce
    rw [show r.1.fv.force (f.start + j) = _ from hF]
    have : (1 / 10 + n.absforce : ℝ) ≠ 0 := by linarith [hw n (List.mem_of_getElem? hj)]
    unfold scaled
    by_cases hb : b.fweight = true
    · simp only [hb, Bool.and_self, if_true, forceEps, Pi.sub_apply]
      rw [div_mul_cancel₀ _ this, sub_add_cancel]
    · simp [hb, r]

theorem ee_stress (b : Build) (dip : Bool) (P : EamPots ℝ) (E : Elec ℝ) (ew sw : ℝ) (ci : Nat) (s : EeState ℝ) (f : Conf ℝ)
    (ts : List Node) (x : Nat → V3 ℝ) (hb : b.stress = true) (hu : f.uf = true) (hus : f.us = true) (hv : f.vol ≠ 0)
    (hh : HalfList (place f ts x)) (hc : EamColumns P (place f ts x))
    (hm : dip = true → TypesMatch (place f ts x)) (hq : dip = true → PolarCharged E (place f ts x))
    (hp : dip = true → SamePolar E (place f ts x)) (hs : PairSmooth P.toPots f ts x)
    (ht : TransferSmooth P f ts x) (he : EmbedSmooth b.clamped P f ts x) (hel : ElSmooth dip E f ts x) (k : Fin 6) :
    let r := eeConf b dip P E ew sw ci (place f ts x) s
    HasDerivAt (fun e => elTotal dip P.toPots E r.1.dip.pInd (placeStrained f ts x (voigt k).2 (voigt k).1 e) +
        totalEmbedding b.clamped P (placeStrained f ts x (voigt k).2 (voigt k).1 e))
      (-reportedVirial r.1.fv ci f k) 0 := by
  intro r
  have hal : Aligned (place f ts x) := by rw [← placeWith_reach]; exact aligned_placeWith f ts _
  obtain ⟨p0, -, -, -, -, p4, -⟩ := eeConf_spec b dip P E ew sw ci (place f ts x) hh hc hal hm hq hp s
  have h := rate_ee (straining x (voigt k).2 (voigt k).1) b.clamped dip P E r.1.dip.pInd r.1.gradF f ts x
    (straining_now x (voigt k).2 (voigt k).1) hh hc hs ht he hel p0
  refine h.congr_deriv ?_
  rw [totalRate_straining]
  have e1 : (place f ts x).uf = f.uf := rfl
  have e2 : (place f ts x).us = f.us := rfl
  have e3 : (place f ts x).vol = f.vol := rfl
  have e4 : (place f ts x).stress0 = f.stress0 := rfl
  unfold reportedVirial
  rw [show r.1.fv.stress = _ from p4, if_pos hb, Function.update_self, e1, e2, hu, hus, e3, e4]
  simp only [Bool.and_self, if_true, sub_add_cancel]
  rw [div_mul_cancel₀ _ hv]
  unfold vecStress
  rw [neg_neg]
  congr 1
  apply List.map_congr_left
  intro e _
  ring

theorem ee_reported (b : Build) (P : EamPots ℝ) (E : Elec ℝ) (ew sw : ℝ) (ci : Nat) (s : EeState ℝ) (f : Conf ℝ)
    (ts : List Node) (hne : ts ≠ []) (w : Nat → Link → V3 ℝ) (hh : HalfList (placeWith f ts w)) (hc : EamColumns P (placeWith f ts w))
    (p : Nat → V3 ℝ) :
    reportedEnergy (fun c => (eeConf b false P E ew sw ci c s).1.fv) ci (placeWith f ts w) =
      elTotal false P.toPots E p (placeWith f ts w) + totalEmbedding b.clamped P (placeWith f ts w) := by
  have hN : (ts.length : ℝ) ≠ 0 := by exact_mod_cast (List.length_pos_iff.2 hne).ne'
  have p3 := C79_energy b P E ew sw ci (placeWith f ts w) hh hc (aligned_placeWith f ts _) s
  unfold reportedEnergy
  simp only [p3]
  have hl : (placeWith f ts w).atoms.length = ts.length := placeWithFrom_length _ ts f.start
  rw [hl]
  field_simp
  rw [sub_add_cancel, elTotal_false]

/-- Without dipoles the forces are minus the gradient of the energy. -/
theorem C79_force (b : Build) (P : EamPots ℝ) (E : Elec ℝ) (ew sw : ℝ) (ci : Nat) (s : EeState ℝ) (f : Conf ℝ)
    (ts : List Node) (x : Nat → V3 ℝ) (hu : f.uf = true) (hh : HalfList (place f ts x)) (hc : EamColumns P (place f ts x))
    (hs : PairSmooth P.toPots f ts x) (ht : TransferSmooth P f ts x) (he : EmbedSmooth b.clamped P f ts x)
    (hel : ElSmooth false E f ts x) (hw : ∀ n ∈ ts, 0 ≤ n.absforce) (j : Nat) (n : Node) (hj : ts[j]? = some n) (k : Fin 3) :
    HasDerivAt (fun t => reportedEnergy (fun c => (eeConf b false P E ew sw ci c s).1.fv) ci
        (place f ts (moved x (f.start + j) k t)))
      (-reportedForce b (eeConf b false P E ew sw ci (place f ts x) s).1.fv f n.absforce (f.start + j) k)
      (x (f.start + j) k) := by
  have hne : ts ≠ [] := by rintro rfl; simp at hj
  have h := ee_force b false P E ew sw ci s f ts x hu hh hc (by simp) (by simp) (by simp) hs ht he hel hw j n hj k
  refine h.congr_of_eventuallyEq (Filter.Eventually.of_forall fun t => ?_)
  have hh' : HalfList (place f ts (moved x (f.start + j) k t)) := halfList_place hh
  have hc' : EamColumns P (place f ts (moved x (f.start + j) k t)) := eamColumns_place hc
  have := ee_reported b P E ew sw ci s f ts hne (reach (moved x (f.start + j) k t)) (by rw [placeWith_reach]; exact hh')
    (by rw [placeWith_reach]; exact hc') (eeConf b false P E ew sw ci (place f ts x) s).1.dip.pInd
  rw [placeWith_reach] at this
  exact this

/-- Without dipoles the stresses are the derivative of the energy with respect to the strain. -/
theorem C79_stress (b : Build) (P : EamPots ℝ) (E : Elec ℝ) (ew sw : ℝ) (ci : Nat) (s : EeState ℝ) (f : Conf ℝ)
    (ts : List Node) (x : Nat → V3 ℝ) (hb : b.stress = true) (hu : f.uf = true) (hus : f.us = true) (hv : f.vol ≠ 0)
    (hne : ts ≠ []) (hh : HalfList (place f ts x)) (hc : EamColumns P (place f ts x))
    (hs : PairSmooth P.toPots f ts x) (ht : TransferSmooth P f ts x) (he : EmbedSmooth b.clamped P f ts x)
    (hel : ElSmooth false E f ts x) (k : Fin 6) :
    HasDerivAt (fun e => reportedEnergy (fun c => (eeConf b false P E ew sw ci c s).1.fv) ci
        (placeStrained f ts x (voigt k).2 (voigt k).1 e))
      (-reportedVirial (eeConf b false P E ew sw ci (place f ts x) s).1.fv ci f k) 0 := by
  have h := ee_stress b false P E ew sw ci s f ts x hb hu hus hv hh hc (by simp) (by simp) (by simp) hs ht he hel k
  refine h.congr_of_eventuallyEq (Filter.Eventually.of_forall fun t => ?_)
  have hpl := place_eq_placeWith f ts x (straining_now x (voigt k).2 (voigt k).1)
  have hh' := hh
  have hc' := hc
  rw [← hpl] at hh' hc'
  exact ee_reported b P E ew sw ci s f ts hne _ (halfList_placeWith hh') (eamColumns_placeWith hc') _

/-- With dipoles the forces are minus the gradient of the energy at fixed dipoles, if neighbours are both polarisable or both
not. -/
theorem C79_dipole_force_partial (b : Build) (P : EamPots ℝ) (E : Elec ℝ) (ew sw : ℝ) (ci : Nat) (s : EeState ℝ) (f : Conf ℝ)
    (ts : List Node) (x : Nat → V3 ℝ) (hu : f.uf = true) (hh : HalfList (place f ts x)) (hc : EamColumns P (place f ts x))
    (hm : TypesMatch (place f ts x)) (hq : PolarCharged E (place f ts x)) (hp : SamePolar E (place f ts x))
    (hs : PairSmooth P.toPots f ts x) (ht : TransferSmooth P f ts x) (he : EmbedSmooth b.clamped P f ts x)
    (hel : ElSmooth true E f ts x) (hw : ∀ n ∈ ts, 0 ≤ n.absforce) (j : Nat) (n : Node) (hj : ts[j]? = some n) (k : Fin 3) :
    let r := eeConf b true P E ew sw ci (place f ts x) s
    HasDerivAt (fun t => elTotal true P.toPots E r.1.dip.pInd (place f ts (moved x (f.start + j) k t)) +
        totalEmbedding b.clamped P (place f ts (moved x (f.start + j) k t)))
      (-reportedForce b r.1.fv f n.absforce (f.start + j) k) (x (f.start + j) k) :=
  ee_force b true P E ew sw ci s f ts x hu hh hc (fun _ => hm) (fun _ => hq) (fun _ => hp) hs ht he hel hw j n hj k

/-- With dipoles the stresses are the derivative of the energy at fixed dipoles with respect to the strain, if neighbours are
both polarisable or both not. -/
theorem C79_dipole_stress_partial (b : Build) (P : EamPots ℝ) (E : Elec ℝ) (ew sw : ℝ) (ci : Nat) (s : EeState ℝ)
    (f : Conf ℝ) (ts : List Node) (x : Nat → V3 ℝ) (hb : b.stress = true) (hu : f.uf = true) (hus : f.us = true)
    (hv : f.vol ≠ 0) (hh : HalfList (place f ts x)) (hc : EamColumns P (place f ts x))
    (hm : TypesMatch (place f ts x)) (hq : PolarCharged E (place f ts x)) (hp : SamePolar E (place f ts x))
    (hs : PairSmooth P.toPots f ts x) (ht : TransferSmooth P f ts x) (he : EmbedSmooth b.clamped P f ts x)
    (hel : ElSmooth true E f ts x) (k : Fin 6) :
    let r := eeConf b true P E ew sw ci (place f ts x) s
    HasDerivAt (fun e => elTotal true P.toPots E r.1.dip.pInd (placeStrained f ts x (voigt k).2 (voigt k).1 e) +
        totalEmbedding b.clamped P (placeStrained f ts x (voigt k).2 (voigt k).1 e))
      (-reportedVirial r.1.fv ci f k) 0 :=
  ee_stress b true P E ew sw ci s f ts x hb hu hus hv hh hc (fun _ => hm) (fun _ => hq) (fun _ => hp) hs ht he hel k

/-- The forces on the atoms of a configuration add up to zero. -/
theorem C79_balance (b : Build) (P : EamPots ℝ) (E : Elec ℝ) (ew sw : ℝ) (ci : Nat) (s : EeState ℝ) (c : Conf ℝ)
    (hu : c.uf = true) (hh : HalfList c) (hc : EamColumns P c) (hal : Aligned c) (hw : ∀ a ∈ c.atoms, 0 ≤ a.absforce)
    (k : Fin 3) :
    (c.atoms.zipIdx.map fun ak =>
      reportedForce b (eeConf b false P E ew sw ci c s).1.fv c ak.1.absforce (c.start + ak.2) k).sum = 0 := by
  obtain ⟨-, -, -, p4, -⟩ := eeConf_spec b false P E ew sw ci c hh hc hal (by simp) (by simp) (by simp) s
  exact forces_balance b (eeConf b false P E ew sw ci c s).1.fv _ c hu hh hw p4 k

/-- The same with dipoles, if neighbours are both polarisable or both not. -/
theorem C79_dipole_balance_partial (b : Build) (P : EamPots ℝ) (E : Elec ℝ) (ew sw : ℝ) (ci : Nat) (s : EeState ℝ) (c : Conf ℝ)
    (hu : c.uf = true) (hh : HalfList c) (hc : EamColumns P c) (hal : Aligned c) (hm : TypesMatch c) (hq : PolarCharged E c)
    (hp : SamePolar E c) (hw : ∀ a ∈ c.atoms, 0 ≤ a.absforce) (k : Fin 3) :
    (c.atoms.zipIdx.map fun ak =>
      reportedForce b (eeConf b true P E ew sw ci c s).1.fv c ak.1.absforce (c.start + ak.2) k).sum = 0 := by
  obtain ⟨-, -, -, p4, -⟩ := eeConf_spec b true P E ew sw ci c hh hc hal (fun _ => hm) (fun _ => hq) (fun _ => hp) s
  exact forces_balance b (eeConf b true P E ew sw ci c s).1.fv _ c hu hh hw p4 k

/-! ### What is missing -/

/-- A polarisable ion of type 0 and an unpolarisable one of type 1 at distance 1. -/
def oneE : Elec ℚ where
  cut := 2
  charge := fun t => if t = 0 then 1 else -1
  alpha := fun t => if t = 0 then 1 else 0
  b := 0
  c := 0
  tail := fun r => ⟨1 / r, -(1 / r ^ 3), 3 / r ^ 5⟩
  srValue := fun _ _ _ _ => 0
  srTerm := fun _ _ _ => 0
  selfCoef := 0
  mix := 0
  tol := 100
  sqrt := id

/-- No short-range interaction. -/
def oneP : EamPots ℚ where
  fin := fun _ => 10
  beg := fun _ => 0
  step := fun _ => 1
  val := fun _ _ => 0
  grad := fun _ _ => 0
  paircol := 3
  ntypes := 2
  ana := fun _ _ => (0, 0)

/-- The two ions; the one of type `t` is the first atom. -/
def oneC (t : Nat) : Conf ℚ where
  start := 0
  atoms := [⟨t, [⟨1, 1 - t, 1, ![1, 0, 0], ![1, 0, 0], 1, 4 - t⟩], 0, true⟩, ⟨1 - t, [], 0, true⟩]
  uf := true
  us := true
  weight := 1
  vol := 1
  force0 := 0
  energy0 := 0
  stress0 := 0
  limit0 := 0
  chem := 0

def oneS : EeState ℚ := ⟨⟨0, 0, 0, 0⟩, ⟨0, 0, 0, 0, 0⟩, 0, 0⟩

/-- The energy depends on which of the two ions comes first, though all hypotheses but the one on the polarisabilities hold:
if the polarisable ion comes first, the interaction of its dipole with the charge of the other ion is left out.  In both
cases the dipole is the same; the second energy is the one of `elTotal`. -/
theorem C79_dipole_energy_violated :
    let r := fun t => eeConf ⟨false, false, false, false, false, false⟩ true oneP oneE 1 1 0 (oneC t) oneS
    (∀ t ≤ 1, HalfList (oneC t) ∧ EamColumns oneP (oneC t) ∧ Aligned (oneC t) ∧ TypesMatch (oneC t) ∧
      PolarCharged oneE (oneC t)) ∧
    (r 0).1.dip.pInd 0 = ![1, 0, 0] ∧ (r 1).1.dip.pInd 1 = ![-1, 0, 0] ∧
    (r 0).1.fv.energy 0 = -1 / 4 ∧ (r 1).1.fv.energy 0 = -3 / 4 ∧
    elTotal true oneP.toPots oneE (r 0).1.dip.pInd (oneC 0) = -3 / 2 ∧
    elTotal true oneP.toPots oneE (r 1).1.dip.pInd (oneC 1) = -3 / 2 := by
  refine ⟨?_, ?_, ?_, ?_, ?_, ?_, ?_⟩
  · intro t ht
    interval_cases t <;> refine ⟨?_, ?_, ?_, ?_, ?_⟩ <;>
      (first | unfold HalfList | unfold EamColumns | unfold Aligned | unfold TypesMatch | unfold PolarCharged) <;>
      decide +kernel
  all_goals decide +kernel

/-- A density above the tabulated range (here 2 above 1): the energy uses the value at the end of the range and does not
change with the density, but the forces use the slope there.  All other hypotheses hold. -/
theorem C79_range_violated (E : Elec ℝ) (hel : ElSmooth false E gradConf gradNodes gradPos) (s : EeState ℝ) :
    let b : Build := ⟨false, false, false, false, false, false⟩
    ∃ F, HasDerivAt (fun t => reportedEnergy (fun c => (eeConf b false (gradPots 1) E 1 1 0 c s).1.fv) 0
        (place gradConf gradNodes (moved gradPos 0 0 t))) F (gradPos 0 0) ∧
      F ≠ -reportedForce b (eeConf b false (gradPots 1) E 1 1 0 (place gradConf gradNodes gradPos) s).1.fv gradConf 0 0 0 := by
  intro b
  have hclamp : ∀ y, 1 < y → embed b.clamped (gradPots 1) 2 y = ⟨1, 1, 1, 1000 * ((y - 1) * (y - 1))⟩ := by
    intro y hy
    simp [embed, b, Build.clamped, gradPots, hy, dummyWeight, not_lt.2 (zero_le_one' ℝ)]
    left
    norm_num
  have hal : Aligned (place gradConf gradNodes gradPos) := by rw [← placeWith_reach]; exact aligned_placeWith _ _ _
  have hpl := place_eq_placeWith gradConf gradNodes gradPos (moving_now gradPos 0 0)
  have hh' := grad_half
  have hc' := grad_cols 1
  rw [← hpl] at hh' hc'
  have hd1 := rate_elTotal (moving gradPos 0 0) false (gradPots 1).toPots E 0 gradConf gradNodes
    (pairSmooth_now (grad_pair 1) (moving_now gradPos 0 0)) (elSmooth_now hel (moving_now gradPos 0 0))
  have hd2 := rate_embedding (moving gradPos 0 0) b.clamped (gradPots 1) gradConf gradNodes
    (transferSmooth_now (fun e he => (grad_pair 1 e he).1) (grad_transfer 1) (moving_now gradPos 0 0)) hh' hc' (fun _ => 0) (by
      intro j n hj
      rw [hpl]
      obtain ⟨h1, -, h2⟩ := grad_density 1 j n hj
      rw [h1, h2]
      refine (hasDerivAt_const (2 : ℝ) (1 : ℝ)).congr_of_eventuallyEq ?_
      filter_upwards [lt_mem_nhds (show (1 : ℝ) < 2 by norm_num)] with y hy
      rw [show (gradPots 1).paircol + (gradPots 1).ntypes + 0 = 2 from rfl, hclamp y hy])
  refine ⟨_, (hd1.add hd2).congr_of_eventuallyEq (Filter.Eventually.of_forall fun t => ?_), ?_⟩
  · have := ee_reported b (gradPots 1) E 1 1 0 s gradConf gradNodes (by simp [gradNodes]) (reach (moved gradPos 0 0 t))
      (by rw [placeWith_reach]; exact halfList_place grad_half) (by rw [placeWith_reach]; exact eamColumns_place (grad_cols 1)) 0
    show _ = elTotal _ _ _ _ (placeWith gradConf gradNodes (reach (moved gradPos 0 0 t))) + totalEmbedding _ _
      (placeWith gradConf gradNodes (reach (moved gradPos 0 0 t)))
    rw [← this, placeWith_reach]
  obtain ⟨p0, -, -, p4, -⟩ := eeConf_spec b false (gradPots 1) E 1 1 0 (place gradConf gradNodes gradPos) grad_half
    (grad_cols 1) hal (by simp) (by simp) (by simp) s
  have hat : ∀ (i : Nat) (m : Node), gradNodes[i]? = some m → (place gradConf gradNodes gradPos).atoms[i]? =
      some (⟨m.typ, m.links.map (placed gradPos (gradConf.start + i)), m.absforce, m.contrib⟩ : Atom ℝ) := by
    intro i m hi
    simp only [place, placeFrom_getElem?, hi, Option.map_some]
  have e0 : (place gradConf gradNodes gradPos).start = 0 := rfl
  have e1 : gradConf.start = 0 := rfl
  have hg : ∀ i, i < 2 → (eeConf b false (gradPots 1) E 1 1 0 (place gradConf gradNodes gradPos) s).1.gradF i = 1 := by
    intro i hi
    have hi' : i < gradNodes.length := hi
    have hn := List.getElem?_eq_getElem hi'
    have h1 := p0 i _ (hat i _ hn)
    obtain ⟨h2, -, h3⟩ := grad_density 1 i _ hn
    rw [e1, Nat.zero_add] at h3
    unfold embedAt at h1
    simp only [e0, Nat.zero_add, h2, h3] at h1
    rw [h1, show (gradPots 1).paircol + (gradPots 1).ntypes + 0 = 2 from rfl, hclamp 2 (by norm_num)]
  have hF := congrFun (p4 0 _ (hat 0 _ rfl)) 0
  have e2 : (place gradConf gradNodes gradPos).uf = true := rfl
  have e3 : (place gradConf gradNodes gradPos).force0 = 0 := rfl
  rw [if_pos e2, e0, e3] at hF
  rw [← totalRate_add, totalRate_moving]
  unfold reportedForce
  rw [show (eeConf b false (gradPots 1) E 1 1 0 (place gradConf gradNodes gradPos) s).1.fv.force 0 0 = _ from hF]
  simp only [scaled, b, Bool.false_and, Bool.false_eq_true, if_false, Nat.zero_add, sub_zero]
  intro h
  have h' := neg_injective h
  have hz : gradConf.force0 0 0 = 0 := rfl
  rw [hz, add_zero] at h'
  have g0 := hg 0 (by decide)
  have g1 := hg 1 (by decide)
  simp only [b] at g0 g1
  unfold eeVec at h'
  rw [elVec_false, elVec_false] at h'
  generalize (eeConf _ false (gradPots 1) E 1 1 0 (place gradConf gradNodes gradPos) s).1.gradF = G at h' g0 g1
  unfold vecForce at h'
  rw [gradEntries] at h'
  simp [along, eamSlope, g0, g1, transferSlope, gradPots] at h'
  norm_num at h'

/-! ### Examples -/

/-- Hypotheses of `C79_force`, `C79_stress` and `C79_balance`: two atoms and the tails of the program. -/
example (b : Build) : gradConf.uf = true ∧ gradConf.us = true ∧ gradConf.vol ≠ 0 ∧ gradNodes ≠ [] ∧
    HalfList (place gradConf gradNodes gradPos) ∧ EamColumns (gradPots 5) (place gradConf gradNodes gradPos) ∧
    PairSmooth (gradPots 5).toPots gradConf gradNodes gradPos ∧ TransferSmooth (gradPots 5) gradConf gradNodes gradPos ∧
    EmbedSmooth b.clamped (gradPots 5) gradConf gradNodes gradPos ∧
    ElSmooth false (progElec false true 10 0.1 (fun t => if t = 0 then 1 else -1) 0 1 1 0 0.1) gradConf gradNodes gradPos ∧
    Aligned (place gradConf gradNodes gradPos) ∧ (∀ n ∈ gradNodes, 0 ≤ n.absforce) := by
  refine ⟨rfl, rfl, one_ne_zero, by simp [gradNodes], grad_half, grad_cols 5, grad_pair 5, grad_transfer 5, ?_,
    fun e he => progElec_smooth false true (by simp) 10 0.1 (by norm_num) _ _ _ _ _ _ e.n.r (grad_pair 5 e he).1, ?_, ?_⟩
  · intro j n hj
    obtain ⟨h1, -, h2⟩ := grad_density 5 j n hj
    rw [h1, h2]
    apply C17_embed_inside
    · simp [gradPots]
    · simp [gradPots]; norm_num
    · norm_num
    · simp only [gradPots]
      exact hasDerivAt_id 2
  · rw [← placeWith_reach]; exact aligned_placeWith _ _ _
  · intro n hn
    simp only [gradNodes, List.mem_cons, List.not_mem_nil, or_false] at hn
    rcases hn with rfl | rfl <;> exact le_refl _

/-- The further hypotheses of the theorems on dipoles: all types charged and polarisable. -/
example : TypesMatch (place gradConf gradNodes gradPos) ∧
    PolarCharged (progElec true false 10 0.1 (fun t => if t = 0 then 1 else -1) (fun _ => 0.1) 1 1 0 0.1)
      (place gradConf gradNodes gradPos) ∧
    SamePolar (progElec true false 10 0.1 (fun t => if t = 0 then 1 else -1) (fun _ => 0.1) 1 1 0 0.1)
      (place gradConf gradNodes gradPos) ∧
    ElSmooth true (progElec true false 10 0.1 (fun t => if t = 0 then 1 else -1) (fun _ => 0.1) 1 1 0 0.1) gradConf gradNodes
      gradPos := by
  refine ⟨?_, fun e _ _ _ => ⟨by simp only [progElec]; split <;> norm_num, by simp only [progElec]; split <;> norm_num⟩,
    fun e _ _ => by simp [progElec], C69_program_smooth 10 0.1 (by norm_num) _ _ _ _ 0 0.1 _ _ _ _ (grad_pair 5)⟩
  intro e he
  rw [gradEntries, List.mem_singleton] at he
  subst he
  simp

/-- Hypotheses of `C79_energy`, `C79_objective` and `C79_no_memory`: two configurations with a positive error. -/
example : (∀ c ∈ [exConf, exConf2], HalfList c ∧ EamColumns exPots c ∧ Aligned c) ∧
    (match eeObjective exBuild false exPots oneE 1 1 1 [] [] [] (fun _ => 0) [exConf, exConf2]
        ⟨⟨⟨0, 0, 0, 0⟩, ⟨0, 0, 0, 0, 0⟩, 0, 0⟩, 0, 0, 0⟩ with
     | .ok (_, y) => decide (0 < y) | .error _ => false) = true := by
  refine ⟨?_, by decide +kernel⟩
  intro c hc
  simp only [List.mem_cons, List.not_mem_nil, or_false] at hc
  rcases hc with rfl | rfl
  · exact ⟨exConf_half, exConf_cols, by unfold Aligned; decide +kernel⟩
  · exact ⟨exConf2_half, exConf2_cols, by unfold Aligned; decide +kernel⟩

end Verif.Props
