/-
C118  EAM with induced dipoles: energies, forces, stresses and objective are those of the infinite periodic crystals at the
dipoles found.

As C117, for builds with `EAM`, `COULOMB` and `DIPOLE`.  The routine asks for the wrong polarisability in one place (C79), so all
atoms of a crystal have to be polarisable or none, apart from neutral ones.
-/
import Verif.Props.C117

set_option linter.unusedSectionVars false

namespace Verif.Props

open Verif.Force hiding Cell
open Verif.Neighbors Verif.Spec Verif.Tails Topology

/-- Atoms are polarisable if a charged one is, and not if one is not. -/
def EvenPolar (E : Elec ℝ) (c : Cell) : Prop :=
  ∀ i < c.sites.length, ∀ j < c.sites.length, E.charge (c.site j).typ ≠ 0 →
    (E.alpha (c.site i).typ ≠ 0 ↔ E.alpha (c.site j).typ ≠ 0)

/-- The energy of the crystal for given electrostatic parameters and dipoles (by site). -/
noncomputable def eamPolarLattice (b : Build) (P : EamPots ℝ) (E : Elec ℝ) (p : Nat → V3 ℝ) : Cell → ℝ :=
  latticeEamPolar b.clamped P E.cut E.charge E.alpha (fun r => (E.tail r).fn) (dampOf E) E.selfCoef p

/-- What is needed of one crystal. -/
structure EamPolarReady (b : Build) (P : EamPots ℝ) (E : Elec ℝ) (cut : Cutoffs) (c : Cell) : Prop where
  cols : P.paircol = c.paircol
  pair : PairReach cut P.toPots c
  transfer : TransferReach cut P c
  charge : ChargeReach cut E.cut c
  pairs : PairClear P.toPots c
  transfers : TransferClear P c
  embeds : EmbedClear b.clamped P c
  tails : DipoleClear E c
  charged : ChargedPolar E c
  even : EvenPolar E c

/-- Derivative of the energy with respect to the vectors of the entries. -/
noncomputable def eamPolarVec (b : Build) (P : EamPots ℝ) (E : Elec ℝ) (p : Nat → V3 ℝ) (f : Conf ℝ) (e : Entry ℝ) : V3 ℝ :=
  elVec true P.toPots E p e + along (eamSlope P (embGrad b.clamped P f)) e

section
variable {edge : Fin 3 → V3 ℝ} {cut : Cutoffs} {scale : Fin 3 → ℤ} {c : Cell} {f : Conf ℝ} {now : ℝ} {C : ℝ → Cell}
  {b : Build} {P : EamPots ℝ} {E : Elec ℝ} {pc p : Nat → V3 ℝ}

theorem deform_eamPolar (hr : Ready edge cut scale c) (hD : Deform c now C) (hf : Built false cut scale c f)
    (hsym : ∀ s t, cut.rcut s t = cut.rcut t s) {H : Nat → List Image} (hn : ∀ i < c.sites.length, (H i).Nodup)
    (hm : ∀ i < c.sites.length, ∀ m, m ∈ H i ↔ Wanted false cut c i m) {rf : ℝ → Nat → Link → V3 ℝ} (ha : Along c C rf)
    (h0 : ∀ i < c.sites.length, ∀ m ∈ H i, length (arrow c i m) ≠ 0) (hE : TailSlope E) (h : EamPolarReady b P E cut c)
    (hpc : SiteDipoles c pc p) :
    ∀ᶠ t in 𝓝 now, eamPolarLattice b P E pc (C t) = elTotal true P.toPots E p (placeWith f (nodesFrom c H 0 f.atoms) (rf t)) +
      totalEmbedding b.clamped P (placeWith f (nodesFrom c H 0 f.atoms) (rf t)) := by
  filter_upwards [hD.eam hr hf hsym hn hm ha b.clamped P h.pair h.transfer, hD.pair hr hf hsym hn hm ha P.toPots h.pair,
    deform_polar hr hD hf hsym hn hm ha h0 P.toPots E hE h.pair h.charge hpc] with t e1 e2 e3
  rw [← e3]
  unfold eamPolarLattice latticeEamPolar latticeEamCoulomb polarLattice latticePolar latticeCoulomb
  rw [e1, e2]
  unfold dampOf
  ring

theorem eamPolar_rate (hr : Ready edge cut scale c) (hf : Built false cut scale c f)
    (hsym : ∀ s t, cut.rcut s t = cut.rcut t s) (h : EamPolarReady b P E cut c) (p : Nat → V3 ℝ) {H : Nat → List Image}
    (g3 : ∀ i a, f.atoms[i]? = some a → a.neigh = (H i).map (entryOf c i)) (M : Motion) (hM : M.path M.now = reach (posOf c)) :
    HasDerivAt (fun t => elTotal true P.toPots E p (placeWith f (nodesFrom c H 0 f.atoms) (M.path t)) +
        totalEmbedding b.clamped P (placeWith f (nodesFrom c H 0 f.atoms) (M.path t)))
      (totalRate M (eamPolarVec b P E p f) f (nodesFrom c H 0 f.atoms)) M.now := by
  have hp := place_nodes hf g3
  obtain ⟨hh, hc⟩ := C23_half cut scale c f hf P h.cols
  exact rate_ee M b.clamped true P E p (embGrad b.clamped P f) f (nodesFrom c H 0 f.atoms) (posOf c) hM
    (by rw [hp]; exact hh) (by rw [hp]; exact hc) (clear_pairSmooth hf h.pairs hp) (clear_transferSmooth hf h.transfers hp)
    (clear_embedSmooth hr hf hsym h.transfer h.embeds hp) (dipole_clear hf h.tails hp)
    (by rw [hp]; exact embGrad_isGradF b.clamped P f)

theorem eamPolar_force (hr : Ready edge cut scale c) (hf : Built false cut scale c f)
    (hsym : ∀ s t, cut.rcut s t = cut.rcut t s) (hE : TailSlope E) (h : EamPolarReady b P E cut c) (hpc : SiteDipoles c pc p)
    (j : Nat) (hj : j < c.sites.length) (k : Fin 3) :
    HasDerivAt (fun y => eamPolarLattice b P E pc (displaced c j k y)) (-vecForce (eamPolarVec b P E p f) f (c.start + j) k)
      ((c.site j).pos k) := by
  obtain ⟨H, g1, g2, g3⟩ := built_lists hr hf
  have hp := place_nodes hf g3
  have hev := deform_eamPolar hr (deform_displaced c j k hj) hf hsym g1 g2 (along_displaced c j k hj) (listed_apart hf g3) hE h hpc
  have hd := eamPolar_rate hr hf hsym h p g3 (moving (posOf c) (c.start + j) k) (moving_now _ _ _)
  have hx : (moving (posOf c) (c.start + j) k).now = (c.site j).pos k := by
    show posOf c (c.start + j) k = _
    unfold posOf; rw [Nat.add_sub_cancel_left]
  rw [totalRate_moving, hp, hx] at hd
  exact hd.congr_of_eventuallyEq hev

theorem eamPolar_strain (hr : Ready edge cut scale c) (hf : Built false cut scale c f)
    (hsym : ∀ s t, cut.rcut s t = cut.rcut t s) (hE : TailSlope E) (h : EamPolarReady b P E cut c) (hpc : SiteDipoles c pc p)
    (k : Fin 6) :
    HasDerivAt (fun e => eamPolarLattice b P E pc (strainedCell c (voigt k).2 (voigt k).1 e))
      (-vecStress (eamPolarVec b P E p f) f k) 0 := by
  obtain ⟨H, g1, g2, g3⟩ := built_lists hr hf
  have hp := place_nodes hf g3
  have hev := deform_eamPolar hr (deform_strained c (voigt k).2 (voigt k).1) hf hsym g1 g2
    (along_strained c (voigt k).2 (voigt k).1) (listed_apart hf g3) hE h hpc
  have hd := eamPolar_rate hr hf hsym h p g3 (straining (posOf c) (voigt k).2 (voigt k).1) (straining_now _ _ _)
  rw [totalRate_straining, hp] at hd
  refine (hd.congr_of_eventuallyEq hev).congr_deriv ?_
  unfold vecStress
  rw [neg_neg]
  congr 1
  apply List.map_congr_left
  intro e _
  ring

theorem lattice_eamPolar (hr : Ready edge cut scale c) (hf : Built false cut scale c f)
    (hsym : ∀ s t, cut.rcut s t = cut.rcut t s) (hE : TailSlope E) (h : EamPolarReady b P E cut c) (hpc : SiteDipoles c pc p) :
    eamPolarLattice b P E pc c = elTotal true P.toPots E p f + totalEmbedding b.clamped P f := by
  obtain ⟨H, g1, g2, g3⟩ := built_lists hr hf
  have hp := place_nodes hf g3
  have hev := (deform_eamPolar hr (deform_strained c 0 0) hf hsym g1 g2 (along_strained c 0 0) (listed_apart hf g3) hE h
    hpc).self_of_nhds
  have hs : ∀ v : V3 ℝ, strained 0 0 0 v = v := by
    intro v; funext l
    simp [strained]
  have hc : strainedCell c 0 0 0 = c := by
    unfold strainedCell
    simp only [hs]
    simp
  have hq : (fun (i : Nat) (l : Link) => strained 0 0 0 (reach (posOf c) i l)) = reach (posOf c) := by
    funext i l
    exact hs _
  rw [hc, hq, placeWith_reach, hp] at hev
  exact hev

theorem built_even (hf : Built false cut scale c f) (h : EvenPolar E c) : SamePolar E f := by
  intro e he h1
  obtain ⟨i, m, hi, hm, -, h3, h4, -, -⟩ := entry_image hf he
  rw [h4] at h1 ⊢
  rw [h3]
  exact h i hi m.j hm.1 h1

end

/-- The dipoles are those the routine without EAM would find. -/
theorem eeDipoles_eq (b : Build) (P : EamPots ℝ) (E : Elec ℝ) (f : Conf ℝ) (s : EeState ℝ) :
    eeDipoles b true P E f s = elDipoles b true P.toPots E f ⟨s.fv, s.dip⟩ := by
  have h := eeLoop2_split b true P E f f.atoms f.start
    ⟨⟨⟨resetForces f s.fv.force, 0, 0, 0⟩,
      fun a => if true = true ∧ f.start ≤ a ∧ a < f.start + f.atoms.length then 0 else s.dip.eStat a,
      fun a => if true = true ∧ f.start ≤ a ∧ a < f.start + f.atoms.length then 0 else s.dip.pSr a⟩,
     fun a => if f.start ≤ a ∧ a < f.start + f.atoms.length then 0 else s.rho a, s.gradF, -f.limit0, 0⟩ ⟨resetForces f s.fv.force, 0, 0, 0⟩
  have h1 : (eeStart b true P E f s).el.eStat = (elStart b true P.toPots E f ⟨s.fv, s.dip⟩).eStat := by
    rw [show eeStart b true P E f s = _ from h]
    rfl
  have h2 : (eeStart b true P E f s).el.pSr = (elStart b true P.toPots E f ⟨s.fv, s.dip⟩).pSr := by
    rw [show eeStart b true P E f s = _ from h]
    rfl
  show dipSolve E f { s.dip with eStat := (eeStart b true P E f s).el.eStat, pSr := (eeStart b true P E f s).el.pSr } = _
  rw [h1, h2]
  rfl

section
variable (edge : Fin 3 → V3 ℝ) (cut : Cutoffs) (scale : Fin 3 → ℤ) (c : Cell) (f : Conf ℝ)
  (hr : Ready edge cut scale c) (hf : Built false cut scale c f) (hsym : ∀ s t, cut.rcut s t = cut.rcut t s)
include hr hf hsym

/-- **One crystal.** Energy, forces and stresses in the force vector, for any tail function, at the dipoles the iteration ends with. -/
theorem C118_crystal_partial (b : Build) (P : EamPots ℝ) (E : Elec ℝ) (hE : TailSlope E) (h : EamPolarReady b P E cut c) (ew sw : ℝ)
    (ci : Nat) (s : EeState ℝ) :
    let r := eeConf b true P E ew sw ci f s
    let U := eamPolarLattice b P E fun i => r.1.dip.pInd (c.start + i)
    r.1.fv.energy ci = U c / (c.sites.length : ℝ) - f.energy0 ∧
    (f.uf = true → ∀ j a, f.atoms[j]? = some a → ∀ k,
      DifferentiableAt ℝ (fun y => U (displaced c j k y)) ((c.site j).pos k) ∧
      r.1.fv.force (c.start + j) k = (crystalForce U c j k - f.force0 (c.start + j) k) / forceScale b a) ∧
    (b.stress = true → f.uf = true → f.us = true → ∀ k,
      DifferentiableAt ℝ (fun e => U (strainedCell c (voigt k).2 (voigt k).1 e)) 0 ∧
      r.1.fv.stress ci k = crystalVirial U c k / f.vol - f.stress0 k) := by
  intro r U
  obtain ⟨hh, hc⟩ := C23_half cut scale c f hf P h.cols
  have hpc : SiteDipoles c (fun i => r.1.dip.pInd (c.start + i)) r.1.dip.pInd := fun _ _ => rfl
  obtain ⟨p0, -, -, p2, p3, p4, -⟩ := eeConf_spec b true P E ew sw ci f hh hc (built_aligned hf) (fun _ => built_types hf)
    (fun _ => built_polar hf h.charged) (fun _ => built_even hf h.even) s
  have hv : ∀ e ∈ entries f, eeVec true P E (eeConf b true P E ew sw ci f s).1.dip.pInd (eeConf b true P E ew sw ci f s).1.gradF e =
      eamPolarVec b P E r.1.dip.pInd f e := by
    intro e he
    unfold eeVec eamPolarVec
    rw [eamSlope_congr hh p0 e he]
  refine ⟨?_, ?_, ?_⟩
  · rw [show r.1.fv.energy = _ from p3, Function.update_self, hf.count]
    rw [show U c = _ from lattice_eamPolar hr hf hsym hE h hpc]
  · intro hu j a ha k
    have hj : j < c.sites.length := by rw [← hf.count]; exact (List.getElem?_eq_some_iff.1 ha).1
    have hd := eamPolar_force hr hf hsym hE h hpc j hj k
    refine ⟨hd.differentiableAt, ?_⟩
    unfold crystalForce
    rw [hd.deriv, neg_neg, ← hf.start, show r.1.fv.force (f.start + j) = _ from p2 j a ha, if_pos hu,
      vecForce_congr (fun e he _ => hv e he)]
    unfold scaled forceScale
    by_cases hb : b.fweight = true
    · simp [hb, forceEps]
    · simp [hb]
  · intro hb hu hus k
    have hd := eamPolar_strain hr hf hsym hE h hpc k
    refine ⟨hd.differentiableAt, ?_⟩
    unfold crystalVirial
    rw [hd.deriv, neg_neg, show r.1.fv.stress = _ from p4, if_pos hb, Function.update_self, hu, hus]
    simp only [Bool.and_self, if_true]
    rw [vecStress_congr' hv]

/-- **The dipoles**, without mixing: as in C117. -/
theorem C118_dipoles_partial (b : Build) (P : EamPots ℝ) {E : Elec ℝ} (hE : TailSlope E)
    (hsr : ∀ r a b c, E.srValue r a b c = a * (E.srTerm r b c).1)
    (hreach : ChargeReach cut E.cut c) (hroot : IsRoot E) (hmix : E.mix = 0) (ew sw : ℝ) (ci : Nat) (s : EeState ℝ) :
    let p := fun i => (eeConf b true P E ew sw ci f s).1.dip.pInd (c.start + i)
    let field := siteField E.cut E.charge E.alpha (fun r => (E.tail r).fn) (dampOf E)
    (∀ i < c.sites.length, E.alpha (c.site i).typ ≠ 0 → ∀ k, p i k = E.alpha (c.site i).typ * field (fun _ => 0) c i k) ∨
    crystalInconsistency E.cut E.charge E.alpha (fun r => (E.tail r).fn) (dampOf E) p c < E.tol ^ 2 := by
  have h : (eeConf b true P E ew sw ci f s).1.dip = (elConf b true P.toPots E ew sw ci f ⟨s.fv, s.dip⟩).1.dip :=
    eeDipoles_eq b P E f s
  rw [h]
  exact C117_dipoles_partial hr hf hsym b P.toPots hE hsr hreach hroot hmix ew sw ci ⟨s.fv, s.dip⟩

end

/-- Contribution of a configuration to the objective. -/
theorem eamPolar_error {edge : Fin 3 → V3 ℝ} {cut : Cutoffs} {scale : Fin 3 → ℤ} {c : Cell} {f : Conf ℝ}
    (hr : Ready edge cut scale c) (hf : Built false cut scale c f) (hsym : ∀ s t, cut.rcut s t = cut.rcut t s)
    (b : Build) (P : EamPots ℝ) (E : Elec ℝ) (hE : TailSlope E) (h : EamPolarReady b P E cut c) (ew sw : ℝ) {pc p : Nat → V3 ℝ}
    (hpc : SiteDipoles c pc p) :
    vecConfError b (eamPolarVec b P E p f) (eamPolarVec b P E p f) (elTotal true P.toPots E p f + totalEmbedding b.clamped P f) ew sw f =
      crystalError b (eamPolarLattice b P E pc) ew sw f.vol c f := by
  apply vecError_crystal b (eamPolarLattice b P E pc) _ _ _ ew sw (lattice_eamPolar hr hf hsym hE h hpc).symm hf.start hf.count
  · intro j hj k
    unfold crystalForce
    rw [(eamPolar_force hr hf hsym hE h hpc j hj k).deriv, neg_neg]
  · intro _ _ _ k
    unfold crystalVirial
    rw [(eamPolar_strain hr hf hsym hE h hpc k).deriv, neg_neg]

/-- The loop over the configurations. -/
theorem eamPolar_loop (cut : Cutoffs) (hsym : ∀ s t, cut.rcut s t = cut.rcut t s) (b : Build) (P : EamPots ℝ) (E : Elec ℝ)
    (hE : TailSlope E) (ew sw : ℝ) (L : List (Cell × Conf ℝ)) : (∀ x ∈ L, Prepared cut x.1 x.2 ∧ EamPolarReady b P E cut x.1) →
    ∀ (ci off : Nat) (s : EeState ℝ × ℝ × ℝ), Starts off (L.map Prod.snd) →
      (∀ a < off, (confLoop (eeConf b true P E ew sw) (L.map Prod.snd) ci s).1.dip.pInd a = s.1.dip.pInd a) ∧
      (confLoop (eeConf b true P E ew sw) (L.map Prod.snd) ci s).2.1 = s.2.1 +
        (L.map fun x => crystalError b (eamPolarLattice b P E fun i =>
          (confLoop (eeConf b true P E ew sw) (L.map Prod.snd) ci s).1.dip.pInd (x.1.start + i)) ew sw (cellVolume x.1.box.edge)
            x.1 x.2 + adpLimitError b.clamped P x.2).sum := by
  induction L with
  | nil => intro _ ci off s _; exact ⟨fun _ _ => rfl, by simp [confLoop]⟩
  | cons x L ih =>
    intro hL ci off s hst
    obtain ⟨hs1, hs2⟩ := hst
    obtain ⟨g1, g2⟩ := hL x List.mem_cons_self
    obtain ⟨edge, scale, hr, -, -, hf⟩ := g1.made
    simp only [List.map_cons, confLoop, List.sum_cons]
    set r := eeConf b true P E ew sw ci x.2 s.1 with hr'
    obtain ⟨i1, i2⟩ := ih (fun y hy => hL y (List.mem_cons_of_mem _ hy)) (ci + 1) (off + x.2.atoms.length) (r.1, s.2 + r.2) hs2
    have hoff : ∀ a, ¬ Member x.2 a → r.1.dip.pInd a = s.1.dip.pInd a := by
      have := (elDipoles_off b P.toPots E x.2 (built_half hf) ⟨s.1.fv, s.1.dip⟩).pInd
      rw [← eeDipoles_eq] at this
      exact this
    refine ⟨?_, ?_⟩
    · intro a ha
      rw [i1 a (by omega)]
      refine hoff a ?_
      unfold Member
      omega
    · rw [i2]
      have he : r.2.1 = crystalError b (eamPolarLattice b P E fun i =>
          (confLoop (eeConf b true P E ew sw) (L.map Prod.snd) (ci + 1) (r.1, s.2 + r.2)).1.dip.pInd (x.1.start + i)) ew sw
          (cellVolume x.1.box.edge) x.1 x.2 + adpLimitError b.clamped P x.2 := by
        obtain ⟨hh, hc⟩ := C23_half cut scale x.1 x.2 hf P g2.cols
        have := C79_dipole_error_partial b P E ew sw ci x.2 hh hc (built_aligned hf) (built_types hf) (built_polar hf g2.charged)
          (built_even hf g2.even) s.1
        rw [← g1.vol]
        refine Eq.trans this (congrArg (· + adpLimitError b.clamped P x.2)
          (eamPolar_error hr hf hsym b P E hE g2 ew sw fun i hi => ?_))
        have h1 := hf.start
        have h2 := hf.count
        exact i1 _ (by omega)
      rw [← he]
      show s.2.1 + r.2.1 + _ = _
      rw [add_assoc]

/-- **Objective**, for any tail function: the dipoles are those in memory after the evaluation. -/
theorem C118_objective_partial (cut : Cutoffs) (hsym : ∀ s t, cut.rcut s t = cut.rcut t s) (b : Build) (P : EamPots ℝ) (E : Elec ℝ)
    (hE : TailSlope E) (ew sw w : ℝ) (qs : List (Bound ℝ)) (eopp univ : List (Nat × ℝ)) (dummy0 : Nat → ℝ) (L : List (Cell × Conf ℝ))
    (hst : Starts 0 (L.map Prod.snd)) (hL : ∀ x ∈ L, Prepared cut x.1 x.2 ∧ EamPolarReady b P E cut x.1)
    (v v' : EeVector ℝ) (y : ℝ) (h : eeObjective b true P E ew sw w qs eopp univ dummy0 (L.map Prod.snd) v = .ok (v', y)) :
    y = (L.map fun x => crystalError b (eamPolarLattice b P E fun i => v'.st.dip.pInd (x.1.start + i)) ew sw (cellVolume x.1.box.edge)
        x.1 x.2 + adpLimitError b.clamped P x.2).sum +
      (if b.apot = true then totalPenalty w qs eopp univ else 0) + eeGaugeError b P dummy0 := by
  obtain ⟨-, hl⟩ := eamPolar_loop cut hsym b P E hE ew sw L hL 0 0 (v.st, (0, 0)) hst
  rw [zero_add] at hl
  have hd : (eeDummies b P dummy0 v.dummy).2 = eeGaugeError b P dummy0 := by
    have hg : eeGaugeError b P dummy0 = adpGaugeError b.clamped P dummy0 0 [] := by
      unfold eeGaugeError adpGaugeError
      by_cases h1 : b.noPunish = true
      · have h1' : b.clamped.noPunish = true := h1
        rw [if_pos h1, if_pos h1']
      · have h1' : ¬ b.clamped.noPunish = true := h1
        rw [if_neg h1, if_neg h1', if_pos (show b.clamped.rescale = true from rfl)]
    rw [hg, ← adpDummies_err b.clamped P dummy0 0 [] v.dummy]
    unfold eeDummies adpDummies
    by_cases h1 : b.noPunish = true
    · have h1' : b.clamped.noPunish = true := h1
      simp [h1, h1']
    · have h1' : ¬ b.clamped.noPunish = true := h1
      simp [h1, Build.clamped]
  unfold eeObjective at h
  by_cases hb : b.apot = true
  · simp only [if_pos hb] at h
    cases hp : apotPunish w qs eopp univ v.par v.pot with
    | error e => simp [hp, bind, Except.bind] at h
    | ok p =>
      simp only [hp, bind, Except.bind, Except.ok.injEq, Prod.mk.injEq] at h
      rw [← h.2, ← h.1, apotPunish_sum w qs eopp univ _ _ p hp, hl, if_pos hb, hd]
  · simp only [if_neg hb, Except.ok.injEq, Prod.mk.injEq] at h
    rw [← h.2, ← h.1, hl, if_neg hb, add_zero, hd]

/-! ### The program -/

open Verif.Cut in
/-- **The program.** With its tails and its cutoffs: from cells, positions, charges, polarisabilities and functions to the objective. -/
theorem C118_program_partial (n : Nat) (rc κ : ℝ) (hrc : rc ≠ 0) (q alpha be ce : Nat → ℝ) (mix tol : ℝ) (before : Nat → ℝ)
    (b : Build) (P : EamPots ℝ) (hpc : P.paircol = n * (n + 1) / 2) (ew sw w : ℝ) (qs : List (Bound ℝ)) (eopp univ : List (Nat × ℝ))
    (dummy0 : Nat → ℝ) (L : List (Cell × Conf ℝ)) (hst : Starts 0 (L.map Prod.snd)) (hq : ∀ t < n, alpha t ≠ 0 → q t ≠ 0)
    (hα : ∀ s < n, ∀ t < n, q t ≠ 0 → (alpha s ≠ 0 ↔ alpha t ≠ 0))
    (hL : ∀ x ∈ L, Prepared (toCutoffs n (rcut .eam true n P.fin rc before)) x.1 x.2 ∧ x.1.ntypes = n ∧ P.paircol = x.1.paircol ∧
      (∀ i < x.1.sites.length, (x.1.site i).typ < n) ∧ PairClear P.toPots x.1 ∧ TransferClear P x.1 ∧ EmbedClear b.clamped P x.1)
    (v v' : EeVector ℝ) (y : ℝ) (h : eeObjective b true P (progElec true false rc κ q alpha be ce mix tol) ew sw w qs eopp univ dummy0
      (L.map Prod.snd) v = .ok (v', y)) :
    y = (L.map fun x => crystalError b (latticeEamPolar b.clamped P rc q alpha (shiftedFourth (screened κ) rc)
        (fun col r => shortDamp (be col) (ce col) r) (ewaldSelf κ) fun i => v'.st.dip.pInd (x.1.start + i)) ew sw
        (cellVolume x.1.box.edge) x.1 x.2 + adpLimitError b.clamped P x.2).sum +
      (if b.apot = true then totalPenalty w qs eopp univ else 0) + eeGaugeError b P dummy0 := by
  obtain ⟨e1, e2, e3, e4⟩ := C117_tails rc κ hrc q alpha be ce mix tol
  have he : ∀ p, eamPolarLattice b P (progElec true false rc κ q alpha be ce mix tol) p =
      latticeEamPolar b.clamped P rc q alpha (shiftedFourth (screened κ) rc) (fun col r => shortDamp (be col) (ce col) r)
        (ewaldSelf κ) p := by
    intro p
    unfold eamPolarLattice dampOf
    rw [e1, e2, e3]
    rfl
  simp only [← he]
  refine C118_objective_partial _ (cutoffs_good .eam true n P.fin rc before) b P _ e4 ew sw w qs eopp univ dummy0 L hst ?_ v v' y h
  intro x hx
  obtain ⟨h1, h2, h3, h4, h5, h6, h7⟩ := hL x hx
  refine ⟨h1, h3, reach_pair .eam (Or.inr rfl) true n P.toPots rc before x.1 h2 h4, reach_transfer true n P rc before x.1 hpc h4, ?_, h5,
    h6, h7, ?_, fun i hi ha => hq _ (h4 i hi) ha, fun i hi j hj hc => hα _ (h4 i hi) _ (h4 j hj) hc⟩
  · intro i hi j hj
    simp only [toCutoffs]
    rw [if_pos ⟨h4 i hi, h4 j hj⟩]
    exact (C96_rcut .eam true n P.fin rc before _ _ (h4 i hi) (h4 j hj)).2.1 rfl
  · intro i _ m _ hg
    exact progElec_smooth true false (by simp) rc κ hrc q alpha be ce mix tol _ hg

/-! ### Example -/

open Verif.Cut in
/-- Hypotheses of `C118_program_partial`. -/
example (b : Build) (v : EeVector ℝ) (hb : b.apot = true) : ∃ f : Conf ℝ,
    evenEam.paircol = 1 * (1 + 1) / 2 ∧ Starts 0 [f] ∧
    (∀ t < 1, (fun _ : ℕ => (2 : ℝ)) t ≠ 0 → (fun _ : ℕ => (1 : ℝ)) t ≠ 0) ∧
    (∀ s < 1, ∀ t < 1, (fun _ : ℕ => (1 : ℝ)) t ≠ 0 → ((fun _ : ℕ => (2 : ℝ)) s ≠ 0 ↔ (fun _ : ℕ => (2 : ℝ)) t ≠ 0)) ∧
    (∀ x ∈ [(thin, f)], Prepared (toCutoffs 1 (rcut .eam true 1 evenEam.fin (5 / 4) fun _ => 0)) x.1 x.2 ∧ x.1.ntypes = 1 ∧
      evenEam.paircol = x.1.paircol ∧ (∀ i < x.1.sites.length, (x.1.site i).typ < 1) ∧ PairClear evenEam.toPots x.1 ∧
      TransferClear evenEam x.1 ∧ EmbedClear b.clamped evenEam x.1) ∧
    ∃ r, eeObjective b true evenEam (progElec true false (5 / 4) (1 / 10) (fun _ => 1) (fun _ => 2) (fun _ => 1) (fun _ => 1) 0 0) 1 1 1 [] [] [] 0 [f] v = .ok r := by
  obtain ⟨f, hf⟩ := thin_prepared .eam fun _ => 0
  obtain ⟨edge, scale, -, -, -, hbf⟩ := hf.made
  refine ⟨f, rfl, ⟨hbf.start, trivial⟩, fun _ _ _ => one_ne_zero, fun _ _ _ _ _ => Iff.rfl, ?_, ?_⟩
  · intro x hx
    obtain rfl := List.mem_singleton.1 hx
    rw [show evenEam.fin = evenPots.fin from rfl, even_rcut .eam (Or.inr rfl)]
    have hcl : ∀ i < thin.sites.length, ∀ m ∈ Others thin i, ∀ col, col ≠ 2 → SmoothAt evenEam.toPots col (gapTo thin i m) := by
      intro i hi m hm col hc
      obtain rfl : i = 0 := by have : i < 1 := hi; omega
      refine ⟨(even_clear 0 one_pos m hm).1, fun _ => ?_⟩
      simp only [evenEam, if_neg hc]
      exact hasDerivAt_const _ _
    have hty : ∀ i < thin.sites.length, (thin.site i).typ = 0 := by
      intro i hi
      obtain rfl : i = 0 := by have : i < 1 := hi; omega
      rfl
    refine ⟨hf, rfl, rfl, fun i hi => by rw [hty i hi]; exact one_pos, fun i hi m hm => hcl i hi m hm _ ?_,
      fun i hi m hm => hcl i hi m hm _ ?_, ?_⟩
    · unfold pairColumn
      rw [hty i hi, hty m.j hm.1]
      show PairIndex.pairCol 1 0 0 ≠ 2
      decide
    · rw [hty m.j hm.1]
      show 1 + 0 ≠ 2
      decide
    · intro i hi
      obtain rfl : i = 0 := by have : i < 1 := hi; omega
      rw [even_density]
      have hcol : evenEam.paircol + evenEam.ntypes + (thin.site 0).typ = 2 := rfl
      rw [hcol]
      have hval : ∀ y : ℝ, 0 < y → y < 3 / 2 → (embed b.clamped evenEam 2 y).value = y / 4 ∧
          (embed b.clamped evenEam 2 y).grad = 1 / 4 := by
        intro y h0 h1
        unfold embed Build.clamped
        have e1 : ¬ evenEam.fin 2 < y := by simp only [evenEam]; linarith
        have e2 : ¬ y < evenEam.beg 2 := by simp only [evenEam, if_true]; linarith
        simp only [if_true, if_neg e1, if_neg e2]
        simp [evenEam]
      rw [(hval _ (by norm_num) (by norm_num)).2]
      refine ((hasDerivAt_id (1 / 2 : ℝ)).div_const 4).congr_of_eventuallyEq ?_
      filter_upwards [Ioo_mem_nhds (show (0 : ℝ) < 1 / 2 by norm_num) (show (1 / 2 : ℝ) < 3 / 2 by norm_num)] with y hy
      exact (hval y hy.1 hy.2).1
  · unfold eeObjective
    simp only [hb, if_true]
    exact ⟨_, rfl⟩

end Verif.Props
