/-
C66  ADP potentials: energy, forces, stresses and objective.

Energy, forces and stresses are read off the force vector; positions and strains are varied at fixed neighbour lists
as in C17 and C65.  The stress of the routine lacks part of the quadrupole contribution between an atom and its own
images.
-/
import Verif.Lemmas.AdpMotion
import Verif.Props.C65
import Verif.Lemmas.ForceExample

namespace Verif.Props

open Verif.Force Verif.Spec

section
variable {K : Type*} [Field K] [LinearOrder K] [IsStrictOrderedRing K]

/-! ### Energy, sum of forces, objective -/

/-- The energy of a configuration is the sum of pair, embedding, dipole and quadrupole energies. -/
theorem C66_energy (b : Build) (P : EamPots K) (ew sw : K) (ci : Nat) (c : Conf K) (hh : HalfList c)
    (hcol : EamColumns P c) (hal : Aligned c) (s : AdpState K) :
    (adpConf b P ew sw ci c s).1.fv.energy ci = adpTotal b P c / (c.atoms.length : K) - c.energy0 := by
  obtain ⟨-, -, -, -, p, -⟩ := adpConf_spec b P ew sw ci c hh hcol hal s
  rw [p, Function.update_self]
  rfl

/-- The energies of the distortions are not negative. -/
theorem C66_distortion_nonneg (m : V3 K) (q : Fin 3 → Fin 3 → K) : 0 ≤ distortion m q := by
  unfold distortion
  simp only [Fin.sum_univ_three]
  nlinarith [sq_nonneg (m 0), sq_nonneg (m 1), sq_nonneg (m 2), sq_nonneg (q 0 1), sq_nonneg (q 0 2), sq_nonneg (q 1 0),
    sq_nonneg (q 1 2), sq_nonneg (q 2 0), sq_nonneg (q 2 1), sq_nonneg (q 0 0 - q 1 1), sq_nonneg (q 1 1 - q 2 2),
    sq_nonneg (q 0 0 - q 2 2)]

theorem adpVec_congr {b : Build} {P : EamPots K} {c : Conf K} (hh : HalfList c) {g : Nat → K} (h : IsGradF b P c g)
    (mu : Nat → V3 K) (lam : Nat → Fin 3 → Fin 3 → K) : ∀ e ∈ entries c, adpVec P g mu lam e = adpVec P (embGrad b P c) mu lam e := by
  intro e he
  have := eamFullSlope_congr hh h e he
  unfold fullSlope eamFullSlope at this
  unfold adpVec along
  simp only [this]

theorem vecStress_congr' {g h : Entry K → V3 K} {c : Conf K} (hg : ∀ e ∈ entries c, g e = h e) (k : Fin 6) :
    vecStress g c k = vecStress h c k := by
  unfold vecStress
  congr 2
  apply List.map_congr_left
  intro e he
  rw [hg e he]

/-- What the routine uses for the stresses. -/
def adpStressVec (b : Build) (P : EamPots K) (c : Conf K) (e : Entry K) : V3 K :=
  adpFull b P c e - quadrupoleLost P (totalQuadrupole P c) e

theorem adpConf_err (b : Build) (P : EamPots K) (ew sw : K) (ci : Nat) (c : Conf K) (hh : HalfList c)
    (hcol : EamColumns P c) (hal : Aligned c) (s : AdpState K) :
    (adpConf b P ew sw ci c s).2 =
      (vecConfError b (adpFull b P c) (adpStressVec b P c) (adpTotal b P c) ew sw c + adpLimitError b P c,
       (c.atoms.zipIdx.map fun ak => (embedAt b P c ak.2 ak.1).rho).sum) := by
  obtain ⟨p0, -, -, p2, -, -, -, p6, p7⟩ := adpConf_spec b P ew sw ci c hh hcol hal s
  have hv := adpVec_congr hh p0 (totalDipole P c) (totalQuadrupole P c)
  have hF : ∀ a, vecForce (adpVec P (adpConf b P ew sw ci c s).1.gradF (totalDipole P c) (totalQuadrupole P c)) c a =
      vecForce (adpFull b P c) c a := fun a => vecForce_congr (fun e he _ => hv e he) a
  have hS : ∀ k, vecStress (adpCode P (adpConf b P ew sw ci c s).1.gradF (totalDipole P c) (totalQuadrupole P c)) c k =
      vecStress (adpStressVec b P c) c k := by
    intro k
    apply vecStress_congr'
    intro e he
    unfold adpCode adpStressVec adpFull
    rw [hv e he]
  refine Prod.ext ?_ p7
  rw [p6]
  unfold vecConfError adpLimitError
  congr 1
  congr 1
  congr 1
  · by_cases hu : c.uf = true
    · rw [if_pos hu, ← list_mul_sum]
      congr 1
      apply List.map_congr_left
      intro ak hak
      have hk : c.atoms[ak.2]? = some ak.1 := List.mem_zipIdx_iff_getElem?.1 hak
      rw [p2 _ _ hk, if_pos hu, hF]
      have hsc : scaled b true ak.1 (vecForce (adpFull b P c) c (c.start + ak.2) - c.force0 (c.start + ak.2)) =
          fun k => (vecForce (adpFull b P c) c (c.start + ak.2) k - c.force0 (c.start + ak.2) k) / forceScale b ak.1 := by
        funext k
        unfold scaled forceScale
        by_cases h : b.fweight = true
        · simp [h, forceEps]
        · simp [h]
      rw [hsc]
      have hs : ∀ v : V3 K, sq3 v = ∑ k : Fin 3, v k ^ 2 := by
        intro v; simp only [sq3, Fin.sum_univ_three]; ring
      unfold atomErr
      cases hb : b.contrib <;> cases ha : ak.1.contrib <;> simp [hu, hs]
    · rw [if_neg hu]
      simp [atomErr, hu]
  · simp only [hS]
    rw [Finset.mul_sum]
    simp only [Bool.and_eq_true, and_assoc]

theorem confLoop_sum {σ τ ε : Type*} [AddMonoid ε] (one : Nat → σ → τ → τ × ε) (err : σ → ε) (confs : List σ)
    (h : ∀ ci c s, c ∈ confs → (one ci c s).2 = err c) (ci : Nat) (s : τ × ε) :
    (confLoop one confs ci s).2 = s.2 + (confs.map err).sum := by
  induction confs generalizing ci s with
  | nil => simp [confLoop]
  | cons c cs ih =>
    simp only [confLoop, List.map_cons, List.sum_cons]
    rw [ih (fun ci c' s hc => h ci c' s (List.mem_cons_of_mem _ hc))]
    simp only [h ci c s.1 (by simp), add_assoc]

theorem adpDummies_err (b : Build) (P : EamPots K) (dummy0 : Nat → K) (natoms : Nat) (confs : List (Conf K))
    (dummy : Nat → K) :
    (adpDummies b P dummy0 natoms (confs.map fun c => (c.atoms.zipIdx.map fun ak =>
      (embedAt b P c ak.2 ak.1).rho).sum).sum dummy).2 = adpGaugeError b P dummy0 natoms confs := by
  have hr : ∀ f : Nat → K, ((List.range P.ntypes).map f).sum = ∑ g ∈ Finset.range P.ntypes, f g := by
    intro f
    rw [← List.sum_toFinset f List.nodup_range, List.toFinset_range]
  unfold adpDummies adpGaugeError
  by_cases h1 : b.noPunish = true
  · simp [h1]
  · rw [if_neg h1, if_neg h1]
    simp only [hr, meanDensity]
    by_cases h2 : b.rescale = true
    · simp only [h2, if_true, dummySlope, dummyWeight, mul_zero, add_zero]
      apply Finset.sum_congr rfl
      intro g _
      rw [pow_two, show ((1 : K) / 2) * (P.beg (P.paircol + P.ntypes + g) + P.fin (P.paircol + P.ntypes + g))
        = (P.beg (P.paircol + P.ntypes + g) + P.fin (P.paircol + P.ntypes + g)) / 2 by ring]
    · simp only [h2, dummySlope, dummyWeight, mul_zero, add_zero, if_neg (show ¬(false = true) by simp), pow_two]

/-- The value returned by the routine.  The stress deviations are those of `adpStressVec`. -/
theorem C66_objective (b : Build) (P : EamPots K) (ew sw w : K) (qs : List (Bound K)) (eopp univ : List (Nat × K))
    (dummy0 : Nat → K) (natoms : Nat) (confs : List (Conf K))
    (hh : ∀ c ∈ confs, HalfList c ∧ EamColumns P c ∧ Aligned c) (v v' : AdpVec K) (y : K)
    (hr : adpObjective b P ew sw w qs eopp univ dummy0 natoms confs v = .ok (v', y)) :
    y = (confs.map fun c => vecConfError b (adpFull b P c) (adpStressVec b P c) (adpTotal b P c) ew sw c +
          adpLimitError b P c).sum +
      (if b.apot = true then totalPenalty w qs eopp univ else 0) + adpGaugeError b P dummy0 natoms confs := by
  have hl := confLoop_sum (adpConf b P ew sw) (fun c =>
      (vecConfError b (adpFull b P c) (adpStressVec b P c) (adpTotal b P c) ew sw c + adpLimitError b P c,
       (c.atoms.zipIdx.map fun ak => (embedAt b P c ak.2 ak.1).rho).sum)) confs
    (fun ci c s hc => adpConf_err b P ew sw ci c (hh c hc).1 (hh c hc).2.1 (hh c hc).2.2 s) 0 (v.st, ((0 : K), (0 : K)))
  have h2 : ∀ l : List (Conf K), ∀ f g : Conf K → K,
      ((0 : K), (0 : K)) + (l.map fun c => (f c, g c)).sum = ((l.map f).sum, (l.map g).sum) := by
    intro l f g
    have : ((0 : K), (0 : K)) = 0 := rfl
    rw [this, zero_add]
    induction l with
    | nil => rfl
    | cons c l ih => simp only [List.map_cons, List.sum_cons, ih]; rfl
  rw [h2] at hl
  unfold adpObjective at hr
  simp only [hl, adpDummies_err] at hr
  by_cases hb : b.apot = true
  · rw [if_pos hb] at hr
    cases hp : apotPunish w qs eopp univ v.par v.pot with
    | error e => simp [hp, bind, Except.bind] at hr
    | ok p =>
      simp only [hp, bind, Except.bind, Except.ok.injEq, Prod.mk.injEq] at hr
      rw [← hr.2, apotPunish_sum w qs eopp univ _ _ p hp, if_pos hb]
  · rw [if_neg hb] at hr
    simp only [Except.ok.injEq, Prod.mk.injEq] at hr
    rw [← hr.2, if_neg hb, add_zero]

end

/-! ### Forces and stresses as derivatives -/

/-- No distance is exactly the range of a dipole or quadrupole function, and these are differentiable. -/
def DistortionSmooth (P : EamPots ℝ) (f : Conf ℝ) (ts : List Node) (x : Nat → V3 ℝ) : Prop :=
  ∀ e ∈ entries (place f ts x), ∀ c ∈ [P.dipCol e.n, P.quadCol e.n], e.n.r ≠ P.fin c ∧
    (e.n.r < P.fin c → HasDerivAt (P.val c) (P.grad c e.n.r) e.n.r)

theorem aligned_placeWith (f : Conf ℝ) (ts : List Node) (rf : Nat → Link → V3 ℝ) : Aligned (placeWith f ts rf) := by
  intro e he k
  rw [entries_placeWith, List.mem_map] at he
  obtain ⟨b, -, rfl⟩ := he
  rfl

/-- Rate of change of the energy. -/
theorem rate_adp (M : Motion) (b : Build) (P : EamPots ℝ) (ew sw : ℝ) (ci : Nat) (s : AdpState ℝ) (f : Conf ℝ)
    (ts : List Node) (x : Nat → V3 ℝ) (hM : M.path M.now = reach x) (hne : ts ≠ [])
    (hh : HalfList (place f ts x)) (hc : EamColumns P (place f ts x)) (hs : PairSmooth P.toPots f ts x)
    (ht : TransferSmooth P f ts x) (he : EmbedSmooth b P f ts x) (hd : DistortionSmooth P f ts x) :
    HasDerivAt (fun t => reportedEnergy (fun c => (adpConf b P ew sw ci c s).1.fv) ci (placeWith f ts (M.path t)))
      (totalRate M (adpVec P (adpConf b P ew sw ci (place f ts x) s).1.gradF (totalDipole P (place f ts x))
        (totalQuadrupole P (place f ts x))) f ts) M.now := by
  have hN : (ts.length : ℝ) ≠ 0 := by exact_mod_cast (List.length_pos_iff.2 hne).ne'
  have hpl := place_eq_placeWith f ts x hM
  have hh' : HalfList (placeWith f ts (M.path M.now)) := by rw [hpl]; exact hh
  have hc' : EamColumns P (placeWith f ts (M.path M.now)) := by rw [hpl]; exact hc
  have hE : ∀ t, reportedEnergy (fun c => (adpConf b P ew sw ci c s).1.fv) ci (placeWith f ts (M.path t)) =
      totalPairEnergy P.toPots (placeWith f ts (M.path t)) + totalEmbedding b P (placeWith f ts (M.path t)) +
        totalDistortion P (placeWith f ts (M.path t)) := by
    intro t
    have p3 := C66_energy b P ew sw ci (placeWith f ts (M.path t)) (halfList_placeWith hh') (eamColumns_placeWith hc')
      (aligned_placeWith f ts _) s
    unfold reportedEnergy
    simp only [p3]
    have hl : (placeWith f ts (M.path t)).atoms.length = ts.length := placeWithFrom_length _ ts f.start
    rw [hl]
    field_simp
    rw [sub_add_cancel]
    rfl
  have hal : Aligned (place f ts x) := by rw [← hpl]; exact aligned_placeWith f ts _
  obtain ⟨p1, -⟩ := adpConf_spec b P ew sw ci (place f ts x) hh hc hal s
  have hat : ∀ (i : Nat) (m : Node), ts[i]? = some m → (place f ts x).atoms[i]? =
      some (⟨m.typ, m.links.map (placed x (f.start + i)), m.absforce, m.contrib⟩ : Atom ℝ) := by
    intro i m hi
    simp only [place, placeFrom_getElem?, hi, Option.map_some]
  have hd1 := rate_pair M P.toPots f ts (pairSmooth_now hs hM)
  have hd2 := rate_embedding M b P f ts
    (transferSmooth_now (fun e he => (hs e he).1) ht hM) hh' hc' (adpConf b P ew sw ci (place f ts x) s).1.gradF (by
      intro i m hi
      rw [hpl]
      exact (he i m hi).congr_deriv (p1 i _ (hat i m hi)).symm)
  have hd3 := rate_distortion M P f ts (by
    intro bd hb
    have hm : bd.entry x ∈ entries (place f ts x) := by rw [entries_place]; exact List.mem_map_of_mem hb
    have h1 := (hs (bd.entry x) hm).1
    have h2 := hd (bd.entry x) hm
    unfold Bond.now
    rw [hM]
    exact ⟨h1, h2⟩) hh'
  refine (((hd1.add hd2).add hd3).congr_of_eventuallyEq (Filter.Eventually.of_forall hE)).congr_deriv ?_
  rw [← totalRate_add, ← totalRate_add, hpl]
  unfold totalRate
  congr 1
  apply List.map_congr_left
  intro bd _
  unfold entryRate
  apply Finset.sum_congr rfl
  intro k _
  congr 1
  simp only [adpVec, Pi.add_apply, along]
  by_cases h : (bd.now M).n.nr = (bd.now M).own
  · simp only [if_pos h]; ring
  · simp only [if_neg h]; ring

/-- Forces are minus the gradient of the energy. -/
theorem C66_force (b : Build) (P : EamPots ℝ) (ew sw : ℝ) (ci : Nat) (s : AdpState ℝ) (f : Conf ℝ) (ts : List Node)
    (x : Nat → V3 ℝ) (hu : f.uf = true) (hh : HalfList (place f ts x)) (hc : EamColumns P (place f ts x))
    (hs : PairSmooth P.toPots f ts x) (ht : TransferSmooth P f ts x) (he : EmbedSmooth b P f ts x)
    (hd : DistortionSmooth P f ts x) (hw : ∀ n ∈ ts, 0 ≤ n.absforce) (j : Nat) (n : Node) (hj : ts[j]? = some n)
    (k : Fin 3) :
    HasDerivAt (fun t => reportedEnergy (fun c => (adpConf b P ew sw ci c s).1.fv) ci
        (place f ts (moved x (f.start + j) k t)))
      (-reportedForce b (adpConf b P ew sw ci (place f ts x) s).1.fv f n.absforce (f.start + j) k)
      (x (f.start + j) k) := by
  have hne : ts ≠ [] := by rintro rfl; simp at hj
  have h := rate_adp (moving x (f.start + j) k) b P ew sw ci s f ts x (moving_now x _ k) hne hh hc hs ht he hd
  have hal : Aligned (place f ts x) := by rw [← placeWith_reach]; exact aligned_placeWith f ts _
  obtain ⟨-, -, -, p4, -⟩ := adpConf_spec b P ew sw ci (place f ts x) hh hc hal s
  have hat : (place f ts x).atoms[j]? =
      some (⟨n.typ, n.links.map (placed x (f.start + j)), n.absforce, n.contrib⟩ : Atom ℝ) := by
    simp only [place, placeFrom_getElem?, hj, Option.map_some]
  have hF := p4 j _ hat
  have e1 : (place f ts x).uf = true := hu
  have e2 : (place f ts x).start = f.start := rfl
  have e3 : (place f ts x).force0 = f.force0 := rfl
  rw [if_pos e1, e2, e3] at hF
  refine (h.congr_of_eventuallyEq (Filter.Eventually.of_forall fun t => ?_)).congr_deriv ?_
  · show reportedEnergy _ ci (place f ts (moved x (f.start + j) k t)) = _
    rw [← placeWith_reach]
    rfl
  · rw [totalRate_moving]
    congr 1
    unfold reportedForce
    rw [hF]
    have : (1 / 10 + n.absforce : ℝ) ≠ 0 := by linarith [hw n (List.mem_of_getElem? hj)]
    unfold scaled
    by_cases hb : b.fweight = true
    · simp only [hb, Bool.and_self, if_true, forceEps, Pi.sub_apply]
      rw [div_mul_cancel₀ _ this, sub_add_cancel]
    · simp [hb]

/-- The derivative of the energy with respect to the strain: besides the stress of the routine the part which it
leaves out between an atom and its own images. -/
theorem C66_strain (b : Build) (P : EamPots ℝ) (ew sw : ℝ) (ci : Nat) (s : AdpState ℝ) (f : Conf ℝ) (ts : List Node)
    (x : Nat → V3 ℝ) (hb : b.stress = true) (hu : f.uf = true) (hus : f.us = true) (hv : f.vol ≠ 0) (hne : ts ≠ [])
    (hh : HalfList (place f ts x)) (hc : EamColumns P (place f ts x)) (hs : PairSmooth P.toPots f ts x)
    (ht : TransferSmooth P f ts x) (he : EmbedSmooth b P f ts x) (hd : DistortionSmooth P f ts x) (k : Fin 6) :
    HasDerivAt (fun e => reportedEnergy (fun c => (adpConf b P ew sw ci c s).1.fv) ci
        (placeStrained f ts x (voigt k).2 (voigt k).1 e))
      (-reportedVirial (adpConf b P ew sw ci (place f ts x) s).1.fv ci f k -
        vecStress (quadrupoleLost P (totalQuadrupole P (place f ts x))) (place f ts x) k) 0 := by
  have h := rate_adp (straining x (voigt k).2 (voigt k).1) b P ew sw ci s f ts x (straining_now x _ _) hne hh hc hs ht he hd
  refine h.congr_deriv ?_
  have hal : Aligned (place f ts x) := by rw [← placeWith_reach]; exact aligned_placeWith f ts _
  obtain ⟨-, -, -, -, -, p4, -⟩ := adpConf_spec b P ew sw ci (place f ts x) hh hc hal s
  rw [totalRate_straining]
  have e1 : (place f ts x).uf = f.uf := rfl
  have e2 : (place f ts x).us = f.us := rfl
  have e3 : (place f ts x).vol = f.vol := rfl
  have e4 : (place f ts x).stress0 = f.stress0 := rfl
  unfold reportedVirial
  rw [p4, if_pos hb, Function.update_self, e1, e2, hu, hus, e3, e4]
  simp only [Bool.and_self, if_true, sub_add_cancel]
  rw [div_mul_cancel₀ _ hv]
  unfold vecStress
  rw [neg_neg, sub_neg_eq_add, ← List.sum_map_add]
  congr 1
  apply List.map_congr_left
  intro e _
  simp only [adpCode, Pi.sub_apply]
  ring

/-- Stresses are the derivative with respect to the strain if no atom interacts with an image of itself through a
quadrupole function. -/
theorem C66_stress_partial (b : Build) (P : EamPots ℝ) (ew sw : ℝ) (ci : Nat) (s : AdpState ℝ) (f : Conf ℝ) (ts : List Node)
    (x : Nat → V3 ℝ) (hb : b.stress = true) (hu : f.uf = true) (hus : f.us = true) (hv : f.vol ≠ 0) (hne : ts ≠ [])
    (hh : HalfList (place f ts x)) (hc : EamColumns P (place f ts x)) (hs : PairSmooth P.toPots f ts x)
    (ht : TransferSmooth P f ts x) (he : EmbedSmooth b P f ts x) (hd : DistortionSmooth P f ts x)
    (hself : ∀ e ∈ entries (place f ts x), e.n.nr = e.own → P.fin (P.quadCol e.n) ≤ e.n.r) (k : Fin 6) :
    HasDerivAt (fun e => reportedEnergy (fun c => (adpConf b P ew sw ci c s).1.fv) ci
        (placeStrained f ts x (voigt k).2 (voigt k).1 e))
      (-reportedVirial (adpConf b P ew sw ci (place f ts x) s).1.fv ci f k) 0 := by
  refine (C66_strain b P ew sw ci s f ts x hb hu hus hv hne hh hc hs ht he hd k).congr_deriv ?_
  have : vecStress (quadrupoleLost P (totalQuadrupole P (place f ts x))) (place f ts x) k = 0 := by
    unfold vecStress
    rw [neg_eq_zero]
    apply List.sum_eq_zero
    intro y hy
    obtain ⟨e, he', rfl⟩ := List.mem_map.1 hy
    unfold quadrupoleLost
    by_cases h : e.n.nr = e.own
    · have hn := not_lt.2 (hself e he' h)
      simp only [if_pos h, quadrupole, quadrupoleSlope, if_neg hn]
      ring
    · simp only [if_neg h, mul_zero]
  rw [this, sub_zero]

/-- The forces on the atoms of a configuration add up to zero. -/
theorem C66_balance (b : Build) (P : EamPots ℝ) (ew sw : ℝ) (ci : Nat) (s : AdpState ℝ) (c : Conf ℝ) (hu : c.uf = true)
    (hh : HalfList c) (hcol : EamColumns P c) (hal : Aligned c) (hw : ∀ a ∈ c.atoms, 0 ≤ a.absforce) (k : Fin 3) :
    (c.atoms.zipIdx.map fun ak =>
      reportedForce b (adpConf b P ew sw ci c s).1.fv c ak.1.absforce (c.start + ak.2) k).sum = 0 := by
  obtain ⟨-, -, -, p4, -⟩ := adpConf_spec b P ew sw ci c hh hcol hal s
  generalize adpVec P (adpConf b P ew sw ci c s).1.gradF (totalDipole P c) (totalQuadrupole P c) = g at p4
  have h1 : (c.atoms.zipIdx.map fun ak =>
      reportedForce b (adpConf b P ew sw ci c s).1.fv c ak.1.absforce (c.start + ak.2) k) =
      c.atoms.zipIdx.map fun ak => vecForce g c (c.start + ak.2) k := by
    apply List.map_congr_left
    intro ak hak
    have hk : c.atoms[ak.2]? = some ak.1 := List.mem_zipIdx_iff_getElem?.1 hak
    unfold reportedForce
    rw [p4 _ _ hk, if_pos hu]
    have : (1 / 10 + ak.1.absforce : ℝ) ≠ 0 := by linarith [hw ak.1 (List.mem_of_getElem? hk)]
    unfold scaled
    by_cases hb : b.fweight = true
    · simp only [hb, Bool.and_self, if_true, forceEps, Pi.sub_apply]
      rw [div_mul_cancel₀ _ this, sub_add_cancel]
    · simp [hb]
  rw [h1, sum_zipIdx c.atoms (fun _ j => vecForce g c (c.start + j) k) 0 (⟨0, [], 0, false⟩ : Atom ℝ)]
  simp only [Nat.zero_add]
  unfold vecForce
  have hone := sum_mul_listSum (Finset.range c.atoms.length) (entries c) (fun _ => (1 : ℝ)) (fun j e =>
    (if c.start + j = e.own then g e k else 0) - (if c.start + j = e.n.nr then g e k else 0))
  simp only [one_mul] at hone
  rw [hone]
  apply List.sum_eq_zero
  intro y hy
  obtain ⟨e, he, rfl⟩ := List.mem_map.1 hy
  have r2 := hh e he
  have r1 := (entriesFrom_ge he).1
  rw [Finset.sum_sub_distrib, pick_one c.start _ e.own (fun _ => g e k) r1 (by omega),
    pick_one c.start _ e.n.nr (fun _ => g e k) (by omega) (by omega), sub_self]

/-- Quadrupole function 1 up to distance 10, all others 0. -/
noncomputable def imagePots : EamPots ℝ where
  fin := fun _ => 10
  beg := fun _ => 0
  step := fun _ => 1
  val := fun col _ => if col = 4 then 1 else 0
  grad := fun _ _ => 0
  paircol := 1
  ntypes := 1
  ana := fun _ _ => (0, 0)

/-- One atom in a cell of length 1: its neighbours in one direction are its own images. -/
def imageNodes : List Node := [⟨0, [⟨0, 0, ![1, 0, 0], 0, 1⟩, ⟨0, 0, ![-1, 0, 0], 0, 1⟩], 0, true⟩]

def imageBuild : Build := ⟨true, false, false, false, false, false⟩

theorem imageEntries : entries (place gradConf imageNodes 0) =
    [⟨0, 0, ⟨0, 0, 1, ![1, 0, 0], ![1, 0, 0], 0, 1⟩⟩, ⟨0, 0, ⟨0, 0, 1, ![-1, 0, 0], ![-1, 0, 0], 0, 1⟩⟩] := by
  have hr : ∀ v : V3 ℝ, reach 0 0 ⟨0, 0, v, 0, 1⟩ = v := by
    intro v
    funext k
    simp [reach]
  have hl : ∀ u : ℝ, u ^ 2 = 1 → length (![u, 0, 0] : V3 ℝ) = 1 := by
    intro u hu
    unfold length
    rw [Fin.sum_univ_three]
    simp only [Matrix.cons_val]
    rw [hu, show (1 : ℝ) + 0 ^ 2 + 0 ^ 2 = 1 by norm_num, Real.sqrt_one]
  rw [entries_place]
  simp only [imageNodes, gradConf, bondsFrom, List.map_cons, List.map_nil, List.append_nil, Bond.entry, placed, hr,
    hl 1 (by norm_num), hl (-1) (by norm_num), div_one, mul_one]

theorem image_mem {e : Entry ℝ} (h : e ∈ entries (place gradConf imageNodes 0)) :
    e.own = 0 ∧ e.otyp = 0 ∧ e.n.nr = 0 ∧ e.n.typ = 0 ∧ e.n.r = 1 ∧ e.n.col0 = 0 ∧ e.n.col1 = 1 := by
  rw [imageEntries] at h
  simp only [List.mem_cons, List.not_mem_nil, or_false] at h
  rcases h with rfl | rfl <;> simp

theorem image_half : HalfList (place gradConf imageNodes 0) := by
  intro e he
  obtain ⟨h1, -, h2, -⟩ := image_mem he
  rw [h1, h2]
  simp only [place, placeFrom_length]
  decide

theorem image_cols : EamColumns imagePots (place gradConf imageNodes 0) := by
  intro e he
  obtain ⟨h1, h3, h2, h4, -, -, h5⟩ := image_mem he
  rw [h1, h2, h3, h4, h5]
  simp [imagePots]

theorem image_smooth : PairSmooth imagePots.toPots gradConf imageNodes 0 ∧ TransferSmooth imagePots gradConf imageNodes 0 ∧
    DistortionSmooth imagePots gradConf imageNodes 0 ∧ EmbedSmooth imageBuild imagePots gradConf imageNodes 0 := by
  have hd : ∀ c y : ℝ, HasDerivAt (fun _ : ℝ => c) 0 y := fun c y => hasDerivAt_const _ _
  refine ⟨?_, ?_, ?_, ?_⟩
  · intro e he
    obtain ⟨-, -, -, -, h, -⟩ := image_mem he
    rw [h]
    simp only [imagePots]
    exact ⟨by norm_num, by norm_num, fun _ => hd _ _⟩
  · intro e he t _
    obtain ⟨-, -, -, -, h, -⟩ := image_mem he
    rw [h]
    simp only [imagePots]
    exact ⟨by norm_num, fun _ => hd _ _⟩
  · intro e he t _
    obtain ⟨-, -, -, -, h, -⟩ := image_mem he
    rw [h]
    simp only [imagePots]
    exact ⟨by norm_num, fun _ => hd _ _⟩
  · intro j n hj
    have hv : ∀ y, (embed imageBuild imagePots (imagePots.paircol + imagePots.ntypes + n.typ) y).value =
        if n.typ = 2 then 1 else 0 := by
      intro y
      have : (imagePots.paircol + imagePots.ntypes + n.typ = 4) = (n.typ = 2) := by
        simp only [imagePots, eq_iff_iff]; omega
      simp only [embed, imageBuild, imagePots] at this ⊢
      simp only [this, mul_zero, add_zero, Bool.false_eq_true, if_false]
      split <;> [skip; split] <;> rfl
    have hg : ∀ y, (embed imageBuild imagePots (imagePots.paircol + imagePots.ntypes + n.typ) y).grad = 0 := by
      intro y
      by_cases h1 : y < 0
      · simp [embed, imageBuild, imagePots, h1]
      · by_cases h2 : 10 < y
        · simp [embed, imageBuild, imagePots, h1, h2]
        · simp [embed, imageBuild, imagePots, h1, h2]
    rw [hg]
    simp only [hv]
    exact hd _ _

theorem image_lost : vecStress (quadrupoleLost imagePots (totalQuadrupole imagePots (place gradConf imageNodes 0)))
    (place gradConf imageNodes 0) 0 = -4 := by
  have hq : ∀ l, totalQuadrupole imagePots (place gradConf imageNodes 0) 0 0 l = if l = 0 then 2 else 0 := by
    intro l
    unfold totalQuadrupole
    rw [imageEntries]
    simp only [List.map_cons, List.map_nil, List.sum_cons, List.sum_nil, quadrupoleOn, quadrupole, EamPots.quadCol, imagePots]
    fin_cases l <;> norm_num
  generalize totalQuadrupole imagePots (place gradConf imageNodes 0) = q at hq
  unfold vecStress
  rw [imageEntries]
  simp only [List.map_cons, List.map_nil, List.sum_cons, List.sum_nil, quadrupoleLost, if_true, voigt, Fin.sum_univ_three, hq,
    quadrupole, quadrupoleSlope, EamPots.quadCol, imagePots]
  norm_num [hq, show (2 : Fin 3) ≠ 0 by decide]

/-- Stresses are not the derivative of the energy for this atom: all other hypotheses are met. -/
theorem C66_stress_violated (s : AdpState ℝ) :
    let E := fun e => reportedEnergy (fun c => (adpConf imageBuild imagePots 1 1 0 c s).1.fv) 0
        (placeStrained gradConf imageNodes 0 0 0 e)
    ∃ E', HasDerivAt E E' 0 ∧
      E' ≠ -reportedVirial (adpConf imageBuild imagePots 1 1 0 (place gradConf imageNodes 0) s).1.fv 0 gradConf 0 := by
  intro E
  obtain ⟨h1, h2, h3, h4⟩ := image_smooth
  have h := C66_strain imageBuild imagePots 1 1 0 s gradConf imageNodes 0 rfl rfl rfl one_ne_zero (by simp [imageNodes])
    image_half image_cols h1 h2 h4 h3 0
  refine ⟨_, h, ?_⟩
  rw [image_lost]
  intro hc
  linarith

/-- The hypotheses are met (two atoms at distance 2; potentials of C17, dipole and quadrupole function `r`). -/
example (b : Build) (hb : b.stress = true) : b.stress = true ∧ gradConf.uf = true ∧ gradConf.us = true ∧
    gradConf.vol ≠ 0 ∧ gradNodes ≠ [] ∧ HalfList (place gradConf gradNodes gradPos) ∧
    EamColumns (gradPots 5) (place gradConf gradNodes gradPos) ∧
    PairSmooth (gradPots 5).toPots gradConf gradNodes gradPos ∧ TransferSmooth (gradPots 5) gradConf gradNodes gradPos ∧
    EmbedSmooth b (gradPots 5) gradConf gradNodes gradPos ∧ DistortionSmooth (gradPots 5) gradConf gradNodes gradPos ∧
    Aligned (place gradConf gradNodes gradPos) ∧
    (∀ e ∈ entries (place gradConf gradNodes gradPos), e.n.nr = e.own → (gradPots 5).fin ((gradPots 5).quadCol e.n) ≤ e.n.r) := by
  refine ⟨hb, rfl, rfl, one_ne_zero, by simp [gradNodes], grad_half, grad_cols 5, grad_pair 5, grad_transfer 5, ?_, ?_, ?_, ?_⟩
  · intro j n hj
    obtain ⟨h1, -, h2⟩ := grad_density 5 j n hj
    rw [h1, h2]
    apply C17_embed_inside
    · simp [gradPots]
    · simp [gradPots]; norm_num
    · norm_num
    · simp only [gradPots]
      exact hasDerivAt_id 2
  · intro e he c hc
    rw [gradEntries] at he
    simp only [List.mem_singleton] at he
    subst he
    simp only [EamPots.dipCol, EamPots.quadCol, gradPots, List.mem_cons, List.not_mem_nil, or_false] at hc
    have h2 : c ≠ 2 := by omega
    have h0 : c ≠ 0 := by omega
    simp only [gradPots, if_neg h2, if_neg h0]
    exact ⟨by norm_num, fun _ => hasDerivAt_id 2⟩
  · rw [← placeWith_reach]; exact aligned_placeWith _ _ _
  · intro e he
    rw [gradEntries] at he
    simp only [List.mem_singleton] at he
    subst he
    simp

/-- Hypotheses of the objective (two atoms of different type, one seeing its own image). -/
example : (∀ c ∈ [exConf, exConf2], HalfList c ∧ EamColumns exPots c ∧ Aligned c) ∧
    (match adpObjective exBuild exPots 1 1 1 [] [] [] (fun _ => 0) 3 [exConf, exConf2]
        ⟨⟨⟨0, 0, 0, 0⟩, 0, 0, 0, 0, 0⟩, 0, 0, 0⟩ with
     | .ok (_, y) => decide (0 < y) | .error _ => false) = true := by
  refine ⟨?_, by decide +kernel⟩
  intro c hc
  simp only [List.mem_cons, List.not_mem_nil, or_false] at hc
  rcases hc with rfl | rfl
  · exact ⟨exConf_half, exConf_cols, by unfold Aligned; decide +kernel⟩
  · exact ⟨exConf2_half, exConf2_cols, by unfold Aligned; decide +kernel⟩

end Verif.Props
