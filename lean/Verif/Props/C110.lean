/-
C110  ADP potentials: energies, forces and objective are those of the infinite periodic crystals; stresses are if no atom
interacts with images of itself through a quadrupole function.

As in C100 energies are lattice sums over all images of all atoms (`Spec/CrystalAdp.lean`), forces and stresses minus their
derivatives with respect to positions and strains, and nothing is kept fixed while deriving.
-/
import Verif.Lemmas.CrystalAdp
import Verif.Props.C66
import Verif.Props.C100

set_option linter.unusedSectionVars false

namespace Verif.Props

open Verif.Force hiding Cell
open Verif.Neighbors Verif.Spec

/-- Dipole and quadrupole functions end within the cutoff of the neighbour lists. -/
def DistortionReach (cut : Cutoffs) (P : EamPots ℝ) (c : Cell) : Prop :=
  ∀ i < c.sites.length, ∀ j < c.sites.length,
    P.fin (dipoleColumn P c.ntypes (c.site i).typ (c.site j).typ) ≤ cut.rcut (c.site i).typ (c.site j).typ ∧
    P.fin (quadrupoleColumn P c.ntypes (c.site i).typ (c.site j).typ) ≤ cut.rcut (c.site i).typ (c.site j).typ

/-- No distance in the crystal is exactly the end of a dipole or quadrupole function, and these are differentiable. -/
def DistortionClear (P : EamPots ℝ) (c : Cell) : Prop :=
  ∀ i < c.sites.length, ∀ m ∈ Others c i,
    SmoothAt P.toPots (dipoleColumn P c.ntypes (c.site i).typ (c.site m.j).typ) (gapTo c i m) ∧
    SmoothAt P.toPots (quadrupoleColumn P c.ntypes (c.site i).typ (c.site m.j).typ) (gapTo c i m)

/-- An atom's own images are beyond the quadrupole function. -/
def OwnFar (P : EamPots ℝ) (c : Cell) : Prop :=
  ∀ i < c.sites.length, ∀ m ∈ Others c i, m.j = i →
    P.fin (quadrupoleColumn P c.ntypes (c.site i).typ (c.site i).typ) ≤ gapTo c i m

/-- What the hypotheses of the theorems on one crystal have in common. -/
structure AdpCrystal (b : Build) (P : EamPots ℝ) (cut : Cutoffs) (c : Cell) : Prop where
  cols : P.paircol = c.paircol
  pair : PairReach cut P.toPots c
  transfer : TransferReach cut P c
  distortion : DistortionReach cut P c
  pairs : PairClear P.toPots c
  transfers : TransferClear P c
  embeds : EmbedClear b P c
  distortions : DistortionClear P c

section
variable {edge : Fin 3 → V3 ℝ} {cut : Cutoffs} {scale : Fin 3 → ℤ} {c : Cell} {f : Conf ℝ}

theorem clear_distortionSmooth (hf : Built false cut scale c f) {P : EamPots ℝ} (h : DistortionClear P c) {ts : List Node}
    {x : Nat → V3 ℝ} (hp : place f ts x = f) : DistortionSmooth P f ts x := by
  intro e he col hcol
  rw [hp] at he
  obtain ⟨i, m, hi, hm, -, -, h3, h4, -⟩ := entry_image hf he
  obtain ⟨h1, h2⟩ := h i hi m hm
  have d1 : P.dipCol e.n = dipoleColumn P c.ntypes (c.site i).typ (c.site m.j).typ := by rw [h3]; rfl
  have d2 : P.quadCol e.n = quadrupoleColumn P c.ntypes (c.site i).typ (c.site m.j).typ := by rw [h3]; rfl
  rw [d1, d2] at hcol
  rw [h4]
  simp only [List.mem_cons, List.not_mem_nil, or_false] at hcol
  rcases hcol with rfl | rfl
  · exact h1
  · exact h2

/-- Rate of the energy in the lists, whatever the motion. -/
theorem adp_rate (hr : Ready edge cut scale c) (hf : Built false cut scale c f)
    (hsym : ∀ s t, cut.rcut s t = cut.rcut t s) {b : Build} {P : EamPots ℝ} (h : AdpCrystal b P cut c) {H : Nat → List Image}
    (g3 : ∀ i a, f.atoms[i]? = some a → a.neigh = (H i).map (entryOf c i)) (M : Motion) (hM : M.path M.now = reach (posOf c)) :
    HasDerivAt (fun t => totalPairEnergy P.toPots (placeWith f (nodesFrom c H 0 f.atoms) (M.path t)) +
        totalEmbedding b P (placeWith f (nodesFrom c H 0 f.atoms) (M.path t)) +
        totalDistortion P (placeWith f (nodesFrom c H 0 f.atoms) (M.path t)))
      (totalRate M (adpFull b P f) f (nodesFrom c H 0 f.atoms)) M.now := by
  have hp := place_nodes hf g3
  obtain ⟨hh, hc⟩ := C23_half cut scale c f hf P h.cols
  have hpl := place_eq_placeWith f (nodesFrom c H 0 f.atoms) (posOf c) hM
  have hsm := clear_pairSmooth hf h.pairs hp
  have hdm := clear_distortionSmooth hf h.distortions hp
  have hd1 := rate_pair M P.toPots f (nodesFrom c H 0 f.atoms) (pairSmooth_now hsm hM)
  have hd2 := rate_embedding M b P f (nodesFrom c H 0 f.atoms)
    (transferSmooth_now (fun e he => (hsm e he).1) (clear_transferSmooth hf h.transfers hp) hM) (by rw [hpl, hp]; exact hh)
    (by rw [hpl, hp]; exact hc) (embGrad b P f) (by rw [hpl]; exact nodes_embed hr hf hsym h.transfer h.embeds hp)
  have hd3 := rate_distortion M P f (nodesFrom c H 0 f.atoms) (by
    intro bd hb
    have hm : bd.entry (posOf c) ∈ entries (place f (nodesFrom c H 0 f.atoms) (posOf c)) := by
      rw [entries_place]; exact List.mem_map_of_mem hb
    have h1 := (hsm (bd.entry (posOf c)) hm).1
    have h2 := hdm (bd.entry (posOf c)) hm
    unfold Bond.now
    rw [hM]
    exact ⟨h1, h2⟩) (by rw [hpl, hp]; exact hh)
  refine ((hd1.add hd2).add hd3).congr_deriv ?_
  rw [← totalRate_add, ← totalRate_add, hpl, hp]
  unfold totalRate
  congr 1
  apply List.map_congr_left
  intro bd _
  unfold entryRate
  apply Finset.sum_congr rfl
  intro k _
  congr 1
  simp only [adpFull, adpVec, Pi.add_apply, along]
  by_cases h : (bd.now M).n.nr = (bd.now M).own
  · simp only [if_pos h]; ring
  · simp only [if_neg h]; ring

theorem adp_force (hr : Ready edge cut scale c) (hf : Built false cut scale c f)
    (hsym : ∀ s t, cut.rcut s t = cut.rcut t s) {b : Build} {P : EamPots ℝ} (h : AdpCrystal b P cut c) (j : Nat)
    (hj : j < c.sites.length) (k : Fin 3) :
    HasDerivAt (fun y => latticeAdp b P (displaced c j k y)) (-vecForce (adpFull b P f) f (c.start + j) k)
      ((c.site j).pos k) := by
  obtain ⟨H, g1, g2, g3⟩ := built_lists hr hf
  have hp := place_nodes hf g3
  have hev := (deform_displaced c j k hj).adp hr hf hsym g1 g2 (along_displaced c j k hj) b P h.pair h.transfer h.distortion
  have hd := adp_rate hr hf hsym h g3 (moving (posOf c) (c.start + j) k) (moving_now _ _ _)
  have hx : (moving (posOf c) (c.start + j) k).now = (c.site j).pos k := by
    show posOf c (c.start + j) k = _
    unfold posOf; rw [Nat.add_sub_cancel_left]
  rw [totalRate_moving, hp, hx] at hd
  exact hd.congr_of_eventuallyEq hev

theorem adp_strain (hr : Ready edge cut scale c) (hf : Built false cut scale c f)
    (hsym : ∀ s t, cut.rcut s t = cut.rcut t s) {b : Build} {P : EamPots ℝ} (h : AdpCrystal b P cut c) (k : Fin 6) :
    HasDerivAt (fun e => latticeAdp b P (strainedCell c (voigt k).2 (voigt k).1 e)) (-vecStress (adpFull b P f) f k) 0 := by
  obtain ⟨H, g1, g2, g3⟩ := built_lists hr hf
  have hp := place_nodes hf g3
  have hev := (deform_strained c (voigt k).2 (voigt k).1).adp hr hf hsym g1 g2 (along_strained c (voigt k).2 (voigt k).1) b P
    h.pair h.transfer h.distortion
  have hd := adp_rate hr hf hsym h g3 (straining (posOf c) (voigt k).2 (voigt k).1) (straining_now _ _ _)
  rw [totalRate_straining, hp] at hd
  refine (hd.congr_of_eventuallyEq hev).congr_deriv ?_
  unfold vecStress
  rw [neg_neg]
  congr 1
  apply List.map_congr_left
  intro e _
  ring

/-- Energy of the crystal and in the lists. -/
theorem lattice_adp (hr : Ready edge cut scale c) (hf : Built false cut scale c f)
    (hsym : ∀ s t, cut.rcut s t = cut.rcut t s) {b : Build} {P : EamPots ℝ} (h1 : PairReach cut P.toPots c)
    (h2 : TransferReach cut P c) (h3 : DistortionReach cut P c) : latticeAdp b P c = adpTotal b P f := by
  obtain ⟨H, g1, g2, g3⟩ := built_lists hr hf
  have hp := place_nodes hf g3
  have hev := ((deform_strained c 0 0).adp hr hf hsym g1 g2 (along_strained c 0 0) b P h1 h2 h3).self_of_nhds
  have hs : ∀ v : V3 ℝ, strained 0 0 0 v = v := by
    intro v; funext l
    simp [strained]
  have hc : strainedCell c 0 0 0 = c := by
    unfold strainedCell
    simp only [hs]
    simp
  have hq : (fun (i : Nat) (l : Link) => strained 0 0 0 (reach (posOf c) i l)) = reach (posOf c) := by
    funext i l
    exact hs _
  rw [hc, hq, placeWith_reach, hp] at hev
  exact hev

theorem built_aligned (hf : Built false cut scale c f) : Aligned f := by
  intro e he k
  obtain ⟨i, m, -, -, -, -, h3, -⟩ := entry_image hf he
  rw [h3]
  rfl

theorem lost_zero (hf : Built false cut scale c f) {P : EamPots ℝ} (h : OwnFar P c) (lam : Nat → Fin 3 → Fin 3 → ℝ) :
    ∀ e ∈ entries f, quadrupoleLost P lam e = 0 := by
  intro e he
  obtain ⟨i, m, hi, hm, h1, -, h3, h4, -⟩ := entry_image hf he
  funext k
  unfold quadrupoleLost
  by_cases hs : e.n.nr = e.own
  · have hj : m.j = i := by
      rw [h3, h1] at hs
      have : c.start + m.j = c.start + i := hs
      omega
    have hq : P.quadCol e.n = quadrupoleColumn P c.ntypes (c.site i).typ (c.site i).typ := by
      rw [h3]
      show 2 * P.paircol + 2 * P.ntypes + PairIndex.pairCol c.ntypes (c.site i).typ (c.site m.j).typ = _
      rw [hj]
      rfl
    have hn : ¬ e.n.r < P.fin (P.quadCol e.n) := by
      rw [hq, h4, not_lt]
      exact h i hi m hm hj
    simp only [if_pos hs, quadrupole, quadrupoleSlope, if_neg hn, Pi.zero_apply]
    ring
  · simp only [if_neg hs, Pi.zero_apply]

end

/-! ### The claims -/

section
variable (edge : Fin 3 → V3 ℝ) (cut : Cutoffs) (scale : Fin 3 → ℤ) (c : Cell) (f : Conf ℝ)
  (hr : Ready edge cut scale c) (hf : Built false cut scale c f) (hsym : ∀ s t, cut.rcut s t = cut.rcut t s)
include hr hf hsym

/-- **One crystal.** Energy and forces in the force vector. -/
theorem C110_forces (b : Build) (P : EamPots ℝ) (h : AdpCrystal b P cut c) (ew sw : ℝ) (ci : Nat) (s : AdpState ℝ) :
    (adpConf b P ew sw ci f s).1.fv.energy ci = latticeAdp b P c / (c.sites.length : ℝ) - f.energy0 ∧
    (f.uf = true → ∀ j a, f.atoms[j]? = some a → ∀ k, DifferentiableAt ℝ (fun y => latticeAdp b P (displaced c j k y)) ((c.site j).pos k) ∧
      (adpConf b P ew sw ci f s).1.fv.force (c.start + j) k =
        (crystalForce (latticeAdp b P) c j k - f.force0 (c.start + j) k) / forceScale b a) := by
  obtain ⟨hh, hc⟩ := C23_half cut scale c f hf P h.cols
  obtain ⟨p0, -, -, p2, -⟩ := adpConf_spec b P ew sw ci f hh hc (built_aligned hf) s
  have hv := adpVec_congr hh p0 (totalDipole P f) (totalQuadrupole P f)
  refine ⟨?_, ?_⟩
  · rw [C66_energy b P ew sw ci f hh hc (built_aligned hf), ← lattice_adp hr hf hsym h.pair h.transfer h.distortion, hf.count]
  · intro hu j a ha k
    have hj : j < c.sites.length := by rw [← hf.count]; exact (List.getElem?_eq_some_iff.1 ha).1
    have hd := adp_force hr hf hsym h j hj k
    refine ⟨hd.differentiableAt, ?_⟩
    unfold crystalForce
    rw [hd.deriv, neg_neg, ← hf.start, p2 j a ha, if_pos hu, vecForce_congr (fun e he _ => hv e he)]
    unfold scaled forceScale adpFull
    by_cases hb : b.fweight = true
    · simp [hb, forceEps]
    · simp [hb]

/-- **One crystal, stresses.** They lack the contribution which `quadrupoleLost` describes. -/
theorem C110_strain (b : Build) (P : EamPots ℝ) (h : AdpCrystal b P cut c) (ew sw : ℝ) (ci : Nat) (s : AdpState ℝ)
    (hb : b.stress = true) (hu : f.uf = true) (hus : f.us = true) (k : Fin 6) :
    DifferentiableAt ℝ (fun e => latticeAdp b P (strainedCell c (voigt k).2 (voigt k).1 e)) 0 ∧
    (adpConf b P ew sw ci f s).1.fv.stress ci k =
      (crystalVirial (latticeAdp b P) c k - vecStress (quadrupoleLost P (totalQuadrupole P f)) f k) / f.vol - f.stress0 k := by
  obtain ⟨hh, hc⟩ := C23_half cut scale c f hf P h.cols
  obtain ⟨p0, -, -, -, -, p4, -⟩ := adpConf_spec b P ew sw ci f hh hc (built_aligned hf) s
  have hv := adpVec_congr hh p0 (totalDipole P f) (totalQuadrupole P f)
  have hd := adp_strain hr hf hsym h k
  refine ⟨hd.differentiableAt, ?_⟩
  unfold crystalVirial
  rw [hd.deriv, neg_neg, p4, if_pos hb, Function.update_self, hu, hus]
  simp only [Bool.and_self, if_true]
  congr 2
  unfold vecStress
  have hsum : ((entries f).map fun e => e.n.dist (voigt k).1 * adpFull b P f e (voigt k).2).sum =
      ((entries f).map fun e => e.n.dist (voigt k).1 *
        adpCode P (adpConf b P ew sw ci f s).1.gradF (totalDipole P f) (totalQuadrupole P f) e (voigt k).2).sum +
      ((entries f).map fun e => e.n.dist (voigt k).1 * quadrupoleLost P (totalQuadrupole P f) e (voigt k).2).sum := by
    rw [← List.sum_map_add]
    congr 1
    apply List.map_congr_left
    intro e he
    simp only [adpCode, Pi.sub_apply, hv e he, adpFull]
    ring
  rw [hsum]
  ring

/-- **One crystal, stresses.** Exact if no atom interacts with its own images through a quadrupole function. -/
theorem C110_stress_partial (b : Build) (P : EamPots ℝ) (h : AdpCrystal b P cut c) (hown : OwnFar P c) (ew sw : ℝ) (ci : Nat)
    (s : AdpState ℝ) (hb : b.stress = true) (hu : f.uf = true) (hus : f.us = true) (k : Fin 6) :
    DifferentiableAt ℝ (fun e => latticeAdp b P (strainedCell c (voigt k).2 (voigt k).1 e)) 0 ∧
    (adpConf b P ew sw ci f s).1.fv.stress ci k = crystalVirial (latticeAdp b P) c k / f.vol - f.stress0 k := by
  obtain ⟨h1, h2⟩ := C110_strain edge cut scale c f hr hf hsym b P h ew sw ci s hb hu hus k
  refine ⟨h1, ?_⟩
  rw [h2]
  have : vecStress (quadrupoleLost P (totalQuadrupole P f)) f k = 0 := by
    unfold vecStress
    rw [neg_eq_zero]
    apply List.sum_eq_zero
    intro y hy
    obtain ⟨e, he, rfl⟩ := List.mem_map.1 hy
    rw [lost_zero hf hown _ e he, Pi.zero_apply, mul_zero]
  rw [this, sub_zero]

end

section
variable {edge : Fin 3 → V3 ℝ} {cut : Cutoffs} {scale : Fin 3 → ℤ} {c : Cell} {f : Conf ℝ}

/-- The contribution of a configuration with forces, energy and, where they count, stresses of the crystal. -/
theorem vecError_crystal (b : Build) (E : Cell → ℝ) (g h : Entry ℝ → V3 ℝ) (en ew sw : ℝ) (hen : en = E c) (hst : f.start = c.start)
    (hcnt : f.atoms.length = c.sites.length) (hF : ∀ j < c.sites.length, ∀ k, crystalForce E c j k = vecForce g f (c.start + j) k)
    (hS : b.stress = true → f.uf = true → f.us = true → ∀ k, crystalVirial E c k = vecStress h f k) :
    vecConfError b g h en ew sw f = crystalError b E ew sw f.vol c f := by
  unfold vecConfError crystalError energyDev
  congr 1
  · congr 1
    · split
      · congr 2
        apply List.map_congr_left
        rintro ⟨a, j⟩ hj
        have hj' : j < c.sites.length := by
          rw [← hcnt]
          simpa using (List.mem_zipIdx hj).2.1
        simp only [hF j hj', hst]
      · rfl
    · rw [hen, hcnt]
  · split
    · next hb =>
      congr 1
      apply Finset.sum_congr rfl
      intro k _
      rw [hS hb.1 hb.2.1 hb.2.2]
    · rfl

theorem error_adp (hr : Ready edge cut scale c) (hf : Built false cut scale c f) (hsym : ∀ s t, cut.rcut s t = cut.rcut t s)
    (b : Build) (P : EamPots ℝ) (h : AdpCrystal b P cut c)
    (hown : b.stress = true → f.uf = true → f.us = true → OwnFar P c) (ew sw : ℝ) :
    vecConfError b (adpFull b P f) (adpStressVec b P f) (adpTotal b P f) ew sw f =
      crystalError b (latticeAdp b P) ew sw f.vol c f := by
  apply vecError_crystal b (latticeAdp b P) _ _ _ ew sw (lattice_adp hr hf hsym h.pair h.transfer h.distortion).symm hf.start hf.count
  · intro j hj k
    unfold crystalForce
    rw [(adp_force hr hf hsym h j hj k).deriv, neg_neg]
  · intro hb hu hus k
    unfold crystalVirial
    rw [(adp_strain hr hf hsym h k).deriv, neg_neg]
    apply vecStress_congr'
    intro e he
    unfold adpStressVec
    rw [lost_zero hf (hown hb hu hus) _ e he, sub_zero]

end

/-- **Objective.** From cells, positions and functions to the objective: the weighted squared deviations of forces, energies and
stresses of the infinite crystals, besides constraints and punishments.  Where stresses count, no atom may interact with its own
images through a quadrupole function. -/
theorem C110_objective_partial (cut : Cutoffs) (hsym : ∀ s t, cut.rcut s t = cut.rcut t s) (b : Build) (P : EamPots ℝ) (ew sw w : ℝ)
    (qs : List (Bound ℝ)) (eopp univ : List (Nat × ℝ)) (dummy0 : Nat → ℝ) (natoms : Nat) (L : List (Cell × Conf ℝ))
    (hL : ∀ x ∈ L, Prepared cut x.1 x.2 ∧ AdpCrystal b P cut x.1 ∧
      (b.stress = true → x.2.uf = true → x.2.us = true → OwnFar P x.1))
    (v v' : AdpVec ℝ) (y : ℝ) (h : adpObjective b P ew sw w qs eopp univ dummy0 natoms (L.map Prod.snd) v = .ok (v', y)) :
    y = (L.map fun x => crystalError b (latticeAdp b P) ew sw (cellVolume x.1.box.edge) x.1 x.2 + adpLimitError b P x.2).sum +
      (if b.apot = true then totalPenalty w qs eopp univ else 0) + adpGaugeError b P dummy0 natoms (L.map Prod.snd) := by
  have hh : ∀ g ∈ L.map Prod.snd, HalfList g ∧ EamColumns P g ∧ Aligned g := by
    intro g hg
    obtain ⟨x, hx, rfl⟩ := List.mem_map.1 hg
    obtain ⟨edge, scale, -, -, -, hb⟩ := (hL x hx).1.made
    obtain ⟨h1, h2⟩ := C23_half cut scale x.1 x.2 hb P (hL x hx).2.1.cols
    exact ⟨h1, h2, built_aligned hb⟩
  have hsum : ((L.map Prod.snd).map fun g => vecConfError b (adpFull b P g) (adpStressVec b P g) (adpTotal b P g) ew sw g +
        adpLimitError b P g) =
      L.map fun x => crystalError b (latticeAdp b P) ew sw (cellVolume x.1.box.edge) x.1 x.2 + adpLimitError b P x.2 := by
    rw [List.map_map]
    apply List.map_congr_left
    intro x hx
    obtain ⟨g1, g2, g3⟩ := hL x hx
    obtain ⟨edge, scale, hr, -, -, hb⟩ := g1.made
    rw [Function.comp_apply, error_adp hr hb hsym b P g2 g3, g1.vol]
  rw [C66_objective b P ew sw w qs eopp univ dummy0 natoms _ hh v v' y h, hsum]

/-! ### Tables -/

open Verif.SplineInit Verif.Splines Polynomial

open Verif.Cut in
/-- **From the table to the objective.** The cutoffs are computed from the ends of pair and transfer functions alone (C96), so that
dipole and quadrupole functions must not reach further than the pair functions. -/
theorem C110_table_partial {fmt : Format} (hh : Handles .adp fmt) {t : Cols ℝ} {n : ℕ}
    (hl : Layout (isGeneral fmt) t (3 * (n * (n + 1) / 2) + 2 * n)) (ana : ℕ → ℝ → ℝ × ℝ) (xi d before : ℕ → ℝ)
    (hshort : ∀ c < n * (n + 1) / 2, t.fin (n * (n + 1) / 2 + 2 * n + c) ≤ t.fin c ∧
      t.fin (2 * (n * (n + 1) / 2) + 2 * n + c) ≤ t.fin c) :
    ∃ d', refresh .adp fmt t xi (n * (n + 1) / 2) n d = .ok d' ∧
      (∀ col < 3 * (n * (n + 1) / 2) + 2 * n, ServesSpline fmt t xi d' col (endCond (xi (t.first col - 2)))
        (endCond (if n * (n + 1) / 2 + n ≤ col ∧ col < n * (n + 1) / 2 + 2 * n then xi (t.first col - 1) else 0))) ∧
      ∀ (b : Build) (ew sw w : ℝ) (qs : List (Bound ℝ)) (eopp univ : List (Nat × ℝ)) (dummy0 : ℕ → ℝ) (natoms : ℕ)
        (L : List (Cell × Conf ℝ)),
        (∀ x ∈ L, Prepared (toCutoffs n (rcut .adp false n t.fin 0 before)) x.1 x.2 ∧ x.1.ntypes = n ∧
          x.1.paircol = n * (n + 1) / 2 ∧ (∀ i < x.1.sites.length, (x.1.site i).typ < n) ∧
          (∀ i < x.1.sites.length, ∀ m ∈ Others x.1 i, OffEnds t (pairColumn x.1 i m.j) (gapTo x.1 i m) ∧
            OffEnds t (n * (n + 1) / 2 + (x.1.site m.j).typ) (gapTo x.1 i m) ∧
            OffEnds t (n * (n + 1) / 2 + 2 * n + pairColumn x.1 i m.j) (gapTo x.1 i m) ∧
            OffEnds t (2 * (n * (n + 1) / 2) + 2 * n + pairColumn x.1 i m.j) (gapTo x.1 i m)) ∧
          (∀ i < x.1.sites.length, InsideTable b t (n * (n + 1) / 2 + n + (x.1.site i).typ)
            (latticeDensity (tableEam fmt t n ana xi d') x.1 i)) ∧
          (b.stress = true → x.2.uf = true → x.2.us = true → OwnFar (tableEam fmt t n ana xi d') x.1)) →
        ∀ (v v' : AdpVec ℝ) (y : ℝ),
        adpObjective b (tableEam fmt t n ana xi d') ew sw w qs eopp univ dummy0 natoms (L.map Prod.snd) v = .ok (v', y) →
        y = (L.map fun x => crystalError b (latticeAdp b (tableEam fmt t n ana xi d')) ew sw (cellVolume x.1.box.edge) x.1 x.2 +
            adpLimitError b (tableEam fmt t n ana xi d') x.2).sum +
          (if b.apot = true then totalPenalty w qs eopp univ else 0) +
          adpGaugeError b (tableEam fmt t n ana xi d') dummy0 natoms (L.map Prod.snd) := by
  have hnum : numCols .adp (n * (n + 1) / 2) n = 3 * (n * (n + 1) / 2) + 2 * n := rfl
  obtain ⟨d', e1, e2, -⟩ := C99_fresh hh (pc := n * (n + 1) / 2) (nt := n) hl xi d
  refine ⟨d', e1, fun col hc => by simpa [takesRight] using e2 col hc, ?_⟩
  intro b ew sw w qs eopp univ dummy0 natoms L hL v v' y h
  have hreach := C96_reach_partial .adp false n t.fin 0 before (by
    intro a ha b hb c hc hcc
    simp only [columns, considered, List.mem_cons, List.not_mem_nil, or_false, true_or, or_true, if_true] at hc hcc
    push Not at hcc
    have hp := hshort _ (C01_in_range ha hb)
    rcases hc with rfl | rfl | rfl | rfl | rfl
    · exact absurd rfl hcc.1
    · exact absurd rfl hcc.2.2
    · exact absurd rfl hcc.2.1
    · exact hp.1
    · exact hp.2)
  refine C110_objective_partial _ (cutoffs_good .adp false n t.fin 0 before) b (tableEam fmt t n ana xi d') ew sw w qs eopp univ dummy0
    natoms L ?_ v v' y h
  intro x hx
  obtain ⟨h1, h2, h3, h4, h5, h6, h7⟩ := hL x hx
  have hcol : ∀ i < x.1.sites.length, ∀ j < x.1.sites.length, pairColumn x.1 i j < n * (n + 1) / 2 := by
    intro i hi j hj
    unfold pairColumn
    rw [h2]
    exact C01_in_range (h4 i hi) (h4 j hj)
  have hcut : ∀ i < x.1.sites.length, ∀ j < x.1.sites.length, ∀ c ∈ columns .adp n (x.1.site i).typ (x.1.site j).typ,
      t.fin c ≤ (toCutoffs n (rcut .adp false n t.fin 0 before)).rcut (x.1.site i).typ (x.1.site j).typ := by
    intro i hi j hj c hc
    simp only [toCutoffs]
    rw [if_pos ⟨h4 i hi, h4 j hj⟩]
    exact hreach _ (h4 i hi) _ (h4 j hj) c hc
  have hsm : ∀ col r, col < 3 * (n * (n + 1) / 2) + 2 * n → OffEnds t col r →
      SmoothAt (tableEam fmt t n ana xi d').toPots col r := by
    intro col r hc ho
    exact table_smooth (hl.good _ hc) (e2 _ hc) ho
  refine ⟨h1, ⟨h3.symm, ?_, ?_, ?_, ?_, ?_, ?_, ?_⟩, h7⟩
  · intro i hi j hj
    refine hcut i hi j hj _ ?_
    unfold pairColumn
    rw [h2]
    simp [columns]
  · intro i hi j hj
    exact hcut i hi j hj _ (by simp [columns, tableEam])
  · intro i hi j hj
    refine ⟨hcut i hi j hj _ ?_, hcut i hi j hj _ ?_⟩
    · simp [columns, tableEam, dipoleColumn, h2]
    · simp [columns, tableEam, quadrupoleColumn, h2]
  · intro i hi m hm
    have := hcol i hi m.j hm.1
    exact hsm _ _ (by omega) (h5 i hi m hm).1
  · intro i hi m hm
    have := h4 m.j hm.1
    exact hsm _ _ (by show n * (n + 1) / 2 + (x.1.site m.j).typ < _; omega) (h5 i hi m hm).2.1
  · intro i hi
    have hc' : n * (n + 1) / 2 + n + (x.1.site i).typ < numCols .adp (n * (n + 1) / 2) n := by
      have := h4 i hi
      rw [hnum]; omega
    exact table_embed b (hl.good _ hc') (e2 _ hc') (h6 i hi)
  · intro i hi m hm
    have := hcol i hi m.j hm.1
    have d1 : dipoleColumn (tableEam fmt t n ana xi d') x.1.ntypes (x.1.site i).typ (x.1.site m.j).typ =
        n * (n + 1) / 2 + 2 * n + pairColumn x.1 i m.j := rfl
    have d2 : quadrupoleColumn (tableEam fmt t n ana xi d') x.1.ntypes (x.1.site i).typ (x.1.site m.j).typ =
        2 * (n * (n + 1) / 2) + 2 * n + pairColumn x.1 i m.j := rfl
    rw [d1, d2]
    exact ⟨hsm _ _ (by omega) (h5 i hi m hm).2.2.1, hsm _ _ (by omega) (h5 i hi m hm).2.2.2⟩

/-! ### Own images -/

/-- Quadrupole function 1 up to the distance 3/2, all others 0. -/
noncomputable def ownPots : EamPots ℝ := { imagePots with fin := fun _ => 3 / 2 }

theorem own_smooth (col : ℕ) {r : ℝ} (h : r ≠ 3 / 2) : SmoothAt ownPots.toPots col r :=
  ⟨h, fun _ => hasDerivAt_const _ _⟩

theorem thin_typ (j : ℕ) : (thin.site j).typ = 0 := by
  cases j with
  | zero => rfl
  | succ j => simp [thin, Cell.site]

theorem thin_away {i : ℕ} (hi : i < thin.sites.length) {m : Image} (hm : m ∈ Others thin i) : gapTo thin i m ≠ 3 / 2 := by
  obtain rfl : i = 0 := by have : i < 1 := hi; omega
  rcases thin_gap m hm with ⟨h, -⟩ | h
  · rw [h]; norm_num
  · intro e; linarith

theorem own_crystal : AdpCrystal imageBuild ownPots thinCut thin where
  cols := rfl
  pair := fun _ _ _ _ => le_refl _
  transfer := fun _ _ _ _ => le_refl _
  distortion := fun _ _ _ _ => ⟨le_refl _, le_refl _⟩
  pairs := fun _ hi _ hm => own_smooth _ (thin_away hi hm)
  transfers := fun _ hi _ hm => own_smooth _ (thin_away hi hm)
  distortions := fun _ hi _ hm => ⟨own_smooth _ (thin_away hi hm), own_smooth _ (thin_away hi hm)⟩
  embeds := by
    intro i hi
    have hc : ownPots.paircol + ownPots.ntypes + (thin.site i).typ = 2 := by rw [thin_typ]; rfl
    rw [hc]
    have hv : ∀ y, (embed imageBuild ownPots 2 y).value = 0 := by
      intro y
      by_cases h1 : y < 0
      · simp [embed, imageBuild, ownPots, imagePots, h1]
      · by_cases h2 : 3 / 2 < y
        · simp [embed, imageBuild, ownPots, imagePots, h1, h2]
        · simp [embed, imageBuild, ownPots, imagePots, h1, h2]
    have hg : ∀ y, (embed imageBuild ownPots 2 y).grad = 0 := by
      intro y
      by_cases h1 : y < 0
      · simp [embed, imageBuild, ownPots, imagePots, h1]
      · by_cases h2 : 3 / 2 < y
        · simp [embed, imageBuild, ownPots, imagePots, h1, h2]
        · simp [embed, imageBuild, ownPots, imagePots, h1, h2]
    rw [hg]
    simp only [hv]
    exact hasDerivAt_const _ _

theorem thin_made : makeBox (boxOf 1).edge = .ok (thin.box, 100) := by
  have := boxOf_made 1 one_pos
  rw [one_mul] at this
  exact this

theorem thin_entry (x : ℤ) (hx : (x : ℝ) ^ 2 = 1) : entryOf thin 0 ⟨0, ![x, 0, 0]⟩ =
    ⟨0, 0, 1, ![(x : ℝ), 0, 0], ![(x : ℝ), 0, 0], 0, 1⟩ := by
  have ha : arrow thin 0 ⟨0, ![x, 0, 0]⟩ = ![(x : ℝ), 0, 0] := by
    rw [thin_arrow 0 one_pos _ one_pos]
    simp
  have hl : length (arrow thin 0 ⟨0, ![x, 0, 0]⟩) = 1 := by
    rw [ha, length_three]
    simp only [zero_pow two_ne_zero, add_zero, hx, Real.sqrt_one]
  have ho : offset thin.box (thin.site 0).pos (thin.site 0).pos ![x, 0, 0] = ![(x : ℝ), 0, 0] := by
    rw [← ha]
    exact offset_eq_arrow thin 0 ⟨0, ![x, 0, 0]⟩
  have hr : Real.sqrt (sprod (![(x : ℝ), 0, 0] : V3 ℝ) ![(x : ℝ), 0, 0]) = 1 := by
    rw [sqrt_sprod, ← ha, hl]
  unfold entryOf
  simp only [ho, hr, div_one, mul_one]
  rfl

/-- The list of the thin crystal: the two next images. -/
theorem thin_sum {f : Conf ℝ} (hf : Built false thinCut ![2, 1, 1] thin f) (g : Entry ℝ → ℝ) :
    ((entries f).map g).sum = g ⟨0, 0, ⟨0, 0, 1, ![1, 0, 0], ![1, 0, 0], 0, 1⟩⟩ + g ⟨0, 0, ⟨0, 0, 1, ![-1, 0, 0], ![-1, 0, 0], 0, 1⟩⟩ := by
  obtain ⟨H, g1, g2, g3⟩ := built_lists thin_ready hf
  have hne : (⟨0, ![1, 0, 0]⟩ : Image) ≠ ⟨0, ![-1, 0, 0]⟩ := by
    intro h
    have := congrFun (congrArg Image.n h) 0
    simp at this
  have hone : ∀ x : ℤ, (x : ℝ) ^ 2 = 1 → length (arrow thin 0 ⟨0, ![x, 0, 0]⟩) = 1 := by
    intro x hx
    rw [thin_arrow 0 one_pos _ one_pos, length_three]
    simp only [Matrix.cons_val, Int.cast_zero, zero_mul, zero_pow two_ne_zero, add_zero, hx, Real.sqrt_one]
  have hH : (H 0).Perm [⟨0, ![1, 0, 0]⟩, ⟨0, ![-1, 0, 0]⟩] := by
    rw [List.perm_ext_iff_of_nodup (g1 0 one_pos) (by simpa using hne)]
    intro m
    rw [g2 0 one_pos]
    simp only [List.mem_cons, List.not_mem_nil, or_false]
    constructor
    · rintro ⟨h1, -, h2, h3⟩
      rcases thin_gap m ⟨h1, h2⟩ with ⟨-, h⟩ | h
      · exact h
      · unfold gapTo at h
        have : thinCut.rcut (thin.site 0).typ (thin.site m.j).typ = 3 / 2 := rfl
        linarith
    · rintro (rfl | rfl)
      · refine ⟨one_pos, Or.inr (Nat.le_refl _), fun h => by simpa using congrFun h.2 0, ?_⟩
        rw [hone 1 (by norm_num)]
        show (1 : ℝ) ≤ 3 / 2
        norm_num
      · refine ⟨one_pos, Or.inr (Nat.le_refl _), fun h => by simpa using congrFun h.2 0, ?_⟩
        rw [hone (-1) (by norm_num)]
        show (1 : ℝ) ≤ 3 / 2
        norm_num
  rw [sum_built hf g3 g]
  have hlen : thin.sites.length = 1 := rfl
  rw [hlen, Finset.sum_range_one, (hH.map _).sum_eq]
  simp only [List.map_cons, List.map_nil, List.sum_cons, List.sum_nil, add_zero]
  rw [thin_entry 1 (by norm_num), thin_entry (-1) (by norm_num)]
  push_cast
  rfl

/-- What the stresses lack in the thin crystal. -/
theorem own_lost {f : Conf ℝ} (hf : Built false thinCut ![2, 1, 1] thin f) :
    vecStress (quadrupoleLost ownPots (totalQuadrupole ownPots f)) f 0 = -4 := by
  have hq : ∀ l, totalQuadrupole ownPots f 0 0 l = if l = 0 then 2 else 0 := by
    intro l
    unfold totalQuadrupole
    rw [thin_sum hf]
    simp only [quadrupoleOn, quadrupole, EamPots.quadCol, ownPots, imagePots]
    fin_cases l <;> norm_num
  generalize totalQuadrupole ownPots f = q at hq
  unfold vecStress
  rw [thin_sum hf]
  simp only [quadrupoleLost, if_true, voigt, Fin.sum_univ_three, hq, quadrupole, quadrupoleSlope, EamPots.quadCol, ownPots, imagePots]
  norm_num [hq, show (2 : Fin 3) ≠ 0 by decide]

/-- **Stresses: violated.** One atom per cell which sees its own images at the distance 1, a quadrupole function which is constant
there: all hypotheses but `OwnFar` are met, and the stress differs from that of the crystal. -/
theorem C110_stress_violated : ∃ f : Conf ℝ, Prepared thinCut thin f ∧ AdpCrystal imageBuild ownPots thinCut thin ∧
    imageBuild.stress = true ∧ f.uf = true ∧ f.us = true ∧ ∀ (ew sw : ℝ) (ci : Nat) (s : AdpState ℝ),
      (adpConf imageBuild ownPots ew sw ci f s).1.fv.stress ci 0 =
        crystalVirial (latticeAdp imageBuild ownPots) thin 0 / f.vol - f.stress0 0 + 1 / 25 := by
  obtain ⟨f, hf, -⟩ := thin_built false
  have hb : Built false thinCut ![2, 1, 1] thin { f with vol := 100, uf := true, us := true } :=
    ⟨hf.start, hf.count, hf.typ, hf.lists⟩
  refine ⟨{ f with vol := 100, uf := true, us := true },
    ⟨(boxOf 1).edge, ![2, 1, 1], thin_ready, thin_made, ?_, hb⟩, own_crystal, rfl, rfl, rfl, ?_⟩
  · rw [((C24_partial (boxOf 1).edge).2 _ _ thin_made).2.1.symm]
    norm_num
  · intro ew sw ci s
    rw [(C110_strain (boxOf 1).edge thinCut ![2, 1, 1] thin _ thin_ready hb (fun _ _ => rfl) imageBuild ownPots own_crystal ew sw ci s
      rfl rfl rfl 0).2, own_lost hb]
    ring

/-- Hypotheses of `C110_forces` and `C110_strain`. -/
example : ∃ f : Conf ℝ, Ready (boxOf 1).edge thinCut ![2, 1, 1] thin ∧ Built false thinCut ![2, 1, 1] thin f ∧
    (∀ s t, thinCut.rcut s t = thinCut.rcut t s) ∧ AdpCrystal imageBuild ownPots thinCut thin ∧ f.uf = true ∧ f.us = true := by
  obtain ⟨f, hf, -⟩ := thin_built false
  exact ⟨{ f with uf := true, us := true }, thin_ready, ⟨hf.start, hf.count, hf.typ, hf.lists⟩, fun _ _ => rfl, own_crystal, rfl, rfl⟩

/-! ### A table meeting all hypotheses -/

/-- Columns with the knots 1/2, 1 and 3/2 but for the quadrupole function, which has 1/4, 1/2 and 3/4. -/
noncomputable def shortCols : Cols ℝ where
  first c := 2 + 5 * c
  last c := 4 + 5 * c
  beg c := if c = 4 then 1 / 4 else 1 / 2
  fin c := if c = 4 then 3 / 4 else 3 / 2
  step c := if c = 4 then 1 / 4 else 1 / 2
  invstep c := if c = 4 then 4 else 2
  xcoord _ := 0

theorem shortCols_layout (n : ℕ) : Layout false shortCols n where
  good col _ := by
    refine ⟨by simp [shortCols], fun _ => ⟨?_, ?_, ?_, ?_⟩, fun h => by cases h⟩
    · simp only [Cols.col, shortCols]; omega
    · simp only [Cols.col, shortCols]; split <;> norm_num
    · simp only [Cols.col, shortCols]; split <;> push_cast <;> ring_nf
    · simp only [Cols.col, shortCols]; split <;> norm_num
  sep a b hab _ := by simp only [shortCols]; omega

open Verif.Cut in
theorem short_rcut (before : ℕ → ℝ) : rcut .adp false 1 shortCols.fin 0 before = rcut .adp false 1 halfCols.fin 0 before := by
  have h0 : PairIndex.pairCol 1 0 0 = 0 := rfl
  simp [rcut, overPairs, Kind.hasDensity, shortCols, halfCols, h0]

theorem short_off (i : ℕ) (hi : i < thin.sites.length) (m : Image) (hm : m ∈ Others thin i) (col : ℕ) :
    OffEnds shortCols col (gapTo thin i m) := by
  obtain rfl : i = 0 := by have : i < 1 := hi; omega
  rcases thin_gap m hm with ⟨h, -⟩ | h
  · rw [h]; constructor <;> simp only [shortCols] <;> split <;> norm_num
  · simp only [OffEnds, shortCols]
    constructor
    · split <;> linarith
    · intro e; split at e <;> linarith

/-- With all values 1/2 the density in the thin crystal is 1. -/
theorem short_density (ana : ℕ → ℝ → ℝ × ℝ) (d : ℕ → ℝ) {l e : EndCond ℝ}
    (hs : ServesSpline .eqDist shortCols (fun _ => 1 / 2) d 1 l e) :
    latticeDensity (tableEam .eqDist shortCols 1 ana (fun _ => 1 / 2) d) thin 0 = 1 := by
  have hval : (tablePots .eqDist shortCols (fun _ => 1 / 2) d).val 1 1 = 1 / 2 := by
    obtain ⟨p, hp, hq⟩ := hs
    have hg : isGeneral .eqDist = false := rfl
    have hk1 : knots (isGeneral .eqDist) shortCols 1 1 = 1 := by
      rw [hg]
      simp only [knots, shortCols]; norm_num
    have hk2 : knots (isGeneral .eqDist) shortCols 1 (1 + 1) = 3 / 2 := by
      rw [hg]
      simp only [knots, shortCols]; norm_num
    have h := (hq 1 (by simp [shortCols]) 1 (by rw [hk1]) (by rw [hk2]; norm_num)).1
    have h' := hp.interp_left 1 (by simp [shortCols])
    rw [hk1] at h'
    simp only [tablePots, h, delivered]
    exact h'
  unfold latticeDensity latticeSum
  have hne : (⟨0, ![1, 0, 0]⟩ : Image) ≠ ⟨0, ![-1, 0, 0]⟩ := by
    intro h
    have := congrFun (congrArg Image.n h) 0
    simp at this
  have hmem : ∀ m ∈ ({⟨0, ![1, 0, 0]⟩, ⟨0, ![-1, 0, 0]⟩} : Set Image), m ∈ Others thin 0 := by
    rintro m (rfl | rfl)
    · exact ⟨one_pos, fun h => by simpa using congrFun h.2 0⟩
    · exact ⟨one_pos, fun h => by simpa using congrFun h.2 0⟩
  have hone : ∀ m ∈ ({⟨0, ![1, 0, 0]⟩, ⟨0, ![-1, 0, 0]⟩} : Set Image), length (arrow thin 0 m) = 1 := by
    rintro m (rfl | rfl)
    · rw [thin_arrow 0 one_pos _ one_pos, length_three]; norm_num; rfl
    · rw [thin_arrow 0 one_pos _ one_pos, length_three]; norm_num; rfl
  have htr : transfer (tableEam .eqDist shortCols 1 ana (fun _ => 1 / 2) d) 0 1 = 1 / 2 := by
    unfold transfer
    rw [if_pos (by norm_num [tableEam, tablePots, shortCols])]
    exact hval
  rw [← finsum_mem_inter_support_eq _ ({⟨0, ![1, 0, 0]⟩, ⟨0, ![-1, 0, 0]⟩} : Set Image) (Others thin 0) ?_, finsum_mem_pair hne,
    hone _ (Or.inl rfl), hone _ (Or.inr rfl)]
  · have ht : (thin.site 0).typ = 0 := rfl
    simp only [ht, htr]
    norm_num
  · ext m
    simp only [Set.mem_inter_iff, Function.mem_support]
    constructor
    · rintro ⟨h1, h2⟩
      exact ⟨hmem m h1, h2⟩
    · rintro ⟨h1, h2⟩
      refine ⟨?_, h2⟩
      rcases thin_gap m h1 with ⟨-, h⟩ | h
      · exact h
      · exfalso
        apply h2
        unfold transfer
        rw [if_neg]
        simp only [tableEam, tablePots, shortCols]
        unfold gapTo at h
        split <;> linarith

open Verif.Cut in
/-- Hypotheses of `C110_table_partial`, for all stresses, and with `L` the thin crystal. -/
example (d : ℕ → ℝ) (ana : ℕ → ℝ → ℝ × ℝ) (b : Build) : ∃ d' f,
    refresh .adp .eqDist shortCols (fun _ => 1 / 2) (1 * (1 + 1) / 2) 1 d = .ok d' ∧
    (∀ c < 1 * (1 + 1) / 2, shortCols.fin (1 * (1 + 1) / 2 + 2 * 1 + c) ≤ shortCols.fin c ∧
      shortCols.fin (2 * (1 * (1 + 1) / 2) + 2 * 1 + c) ≤ shortCols.fin c) ∧
    (∀ x ∈ [(thin, f)], Prepared (toCutoffs 1 (rcut .adp false 1 shortCols.fin 0 fun _ => 0)) x.1 x.2 ∧ x.1.ntypes = 1 ∧
      x.1.paircol = 1 * (1 + 1) / 2 ∧ (∀ i < x.1.sites.length, (x.1.site i).typ < 1) ∧
      (∀ i < x.1.sites.length, ∀ m ∈ Others x.1 i, OffEnds shortCols (pairColumn x.1 i m.j) (gapTo x.1 i m) ∧
        OffEnds shortCols (1 * (1 + 1) / 2 + (x.1.site m.j).typ) (gapTo x.1 i m) ∧
        OffEnds shortCols (1 * (1 + 1) / 2 + 2 * 1 + pairColumn x.1 i m.j) (gapTo x.1 i m) ∧
        OffEnds shortCols (2 * (1 * (1 + 1) / 2) + 2 * 1 + pairColumn x.1 i m.j) (gapTo x.1 i m)) ∧
      (∀ i < x.1.sites.length, InsideTable b shortCols (1 * (1 + 1) / 2 + 1 + (x.1.site i).typ)
        (latticeDensity (tableEam .eqDist shortCols 1 ana (fun _ => 1 / 2) d') x.1 i)) ∧
      OwnFar (tableEam .eqDist shortCols 1 ana (fun _ => 1 / 2) d') x.1) := by
  have hshort : ∀ c < 1 * (1 + 1) / 2, shortCols.fin (1 * (1 + 1) / 2 + 2 * 1 + c) ≤ shortCols.fin c ∧
      shortCols.fin (2 * (1 * (1 + 1) / 2) + 2 * 1 + c) ≤ shortCols.fin c := by
    intro c hc
    obtain rfl : c = 0 := by omega
    norm_num [shortCols]
  obtain ⟨d', e1, e2, -⟩ := C110_table_partial (fmt := .eqDist) (n := 1) trivial (shortCols_layout _) ana (fun _ => 1 / 2) d (fun _ => 0)
    hshort
  obtain ⟨f, hf⟩ := thin_prepared .adp fun _ => 0
  refine ⟨d', f, e1, hshort, ?_⟩
  intro x hx
  obtain rfl := List.mem_singleton.1 hx
  rw [short_rcut]
  refine ⟨hf, rfl, rfl, ?_, fun i hi m hm => ⟨short_off i hi m hm _, short_off i hi m hm _, short_off i hi m hm _,
    short_off i hi m hm _⟩, ?_, ?_⟩
  · intro i hi
    obtain rfl : i = 0 := by have : i < 1 := hi; omega
    exact one_pos
  · intro i hi
    obtain rfl : i = 0 := by have : i < 1 := hi; omega
    rw [short_density ana d' (e2 1 (by norm_num))]
    have ht : 1 * (1 + 1) / 2 + 1 + (thin.site 0).typ = 2 := rfl
    rw [ht]
    refine ⟨?_, ?_, fun _ _ => by norm_num⟩ <;> norm_num [shortCols]
  · intro i hi m hm _
    obtain rfl : i = 0 := by have : i < 1 := hi; omega
    have hq : quadrupoleColumn (tableEam .eqDist shortCols 1 ana (fun _ => 1 / 2) d') thin.ntypes (thin.site 0).typ
        (thin.site 0).typ = 4 := rfl
    rw [hq]
    have hfin : (tableEam .eqDist shortCols 1 ana (fun _ => 1 / 2) d').fin 4 = 3 / 4 := by
      simp [tableEam, tablePots, shortCols]
    rw [hfin]
    rcases thin_gap m hm with ⟨h, -⟩ | h <;> linarith

end Verif.Props
