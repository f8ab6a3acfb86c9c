/-
C112  Two-band EAM potentials: energies are those of the infinite periodic crystals; forces, stresses and objective are if
the second band reaches no pair of atoms which the first does not reach, and differ by exactly the second band's part otherwise.

As in C100 energies are lattice sums over all images of all atoms (`Spec/CrystalTbeam.lean`), forces and stresses minus their
derivatives with respect to positions and strains, and nothing is kept fixed while deriving.
-/
import Verif.Spec.CrystalTbeam
import Verif.Props.C87
import Verif.Props.C100
import Verif.Props.C110

set_option linter.unusedSectionVars false

namespace Verif.Props

open Verif.Force hiding Cell
open Verif.Neighbors Verif.Spec

/-- What the hypotheses of the theorems on one crystal have in common. -/
structure TbCrystal (b : Build) (P : EamPots ℝ) (cut : Cutoffs) (c : Cell) : Prop where
  cols : P.paircol = c.paircol
  pair : PairReach cut P.toPots c
  transfer : TransferReach cut P c
  transferS : TransferReach cut P.second c
  pairs : PairClear P.toPots c
  transfers : TransferClear P c
  transfersS : TransferClear P.second c
  embeds : EmbedClear b P c
  embedsS : EmbedClear b P.second c

/-- Atoms and images within reach of a transfer function of the second band are within reach of one of the first. -/
def BandsCover (P : EamPots ℝ) (c : Cell) : Prop :=
  ∀ i < c.sites.length, ∀ m ∈ Others c i,
    (gapTo c i m < P.fin (P.paircol + 2 * P.ntypes + (c.site m.j).typ) ∨
      gapTo c i m < P.fin (P.paircol + 2 * P.ntypes + (c.site i).typ)) →
    gapTo c i m < P.fin (P.paircol + (c.site m.j).typ) ∨ gapTo c i m < P.fin (P.paircol + (c.site i).typ)

/-- Slope of the second band where the first is out of reach. -/
noncomputable def bandLost (b : Build) (P : EamPots ℝ) (f : Conf ℝ) (e : Entry ℝ) : ℝ :=
  if InReach P e then 0 else eamSlope P.second (embGrad b P.second f) e

theorem bandLost_zero {b : Build} {P : EamPots ℝ} {f : Conf ℝ} (h : Covered P f) : ∀ e ∈ entries f, bandLost b P f e = 0 := by
  intro e he
  unfold bandLost
  split
  · rfl
  · next hn => exact eamSlope_outside P.second _ e fun h' => hn (h e he h')

theorem tbFull_split (b : Build) (P : EamPots ℝ) (f : Conf ℝ) (e : Entry ℝ) :
    tbUsedSlope b P f e + bandLost b P f e = tbFullSlope b P f e := by
  unfold tbUsedSlope tbFullSlope bandLost tbUsed tbSlope
  split <;> ring

theorem force_split (b : Build) (P : EamPots ℝ) (f : Conf ℝ) (a : Nat) (k : Fin 3) :
    totalForce (tbUsedSlope b P f) f a k = totalForce (tbFullSlope b P f) f a k - totalForce (bandLost b P f) f a k := by
  rw [eq_sub_iff_add_eq, ← Verif.Props.totalForce_add]
  congr 1
  exact funext fun e => tbFull_split b P f e

theorem stress_split (b : Build) (P : EamPots ℝ) (f : Conf ℝ) (k : Fin 6) :
    totalStress (tbUsedSlope b P f) f k = totalStress (tbFullSlope b P f) f k - totalStress (bandLost b P f) f k := by
  rw [eq_sub_iff_add_eq, ← Verif.Props.totalStress_add]
  congr 1
  exact funext fun e => tbFull_split b P f e

section
variable {edge : Fin 3 → V3 ℝ} {cut : Cutoffs} {scale : Fin 3 → ℤ} {c : Cell} {f : Conf ℝ}

/-- The condition on the crystal implies that on the lists. -/
theorem built_covered (hf : Built false cut scale c f) {P : EamPots ℝ} (h : BandsCover P c) : Covered P f := by
  intro e he hr
  obtain ⟨i, m, hi, hm, -, h2, h3, h4, -⟩ := entry_image hf he
  have ht : e.n.typ = (c.site m.j).typ := by rw [h3]; rfl
  unfold InReach at hr ⊢
  rw [ht, h2, h4] at hr ⊢
  exact h i hi m hm hr

theorem embedding_deform {now : ℝ} {C : ℝ → Cell} (hr : Ready edge cut scale c) (hD : Deform c now C)
    (hf : Built false cut scale c f) (hsym : ∀ s t, cut.rcut s t = cut.rcut t s) {H : Nat → List Image}
    (hn : ∀ i < c.sites.length, (H i).Nodup) (hm : ∀ i < c.sites.length, ∀ m, m ∈ H i ↔ Wanted false cut c i m)
    {rf : ℝ → Nat → Link → V3 ℝ} (ha : Along c C rf) (b : Build) (P : EamPots ℝ) (h2 : TransferReach cut P c) :
    ∀ᶠ t in nhds now, latticeEmbedding b P (C t) =
      totalEmbedding b P (placeWith f (nodesFrom c H 0 f.atoms) (rf t)) := by
  filter_upwards [hD.density hr hf hsym hn hm ha P h2] with t ht2
  unfold latticeEmbedding
  rw [totalEmbedding_placeWith, nodesFrom_length, hf.count, hD.count]
  apply Finset.sum_congr rfl
  intro i hi
  rw [Finset.mem_range] at hi
  have hi' : i < f.atoms.length := by rw [hf.count]; exact hi
  rw [ht2 i hi, hD.typ, hf.start, List.getD_eq_getElem?_getD, nodesFrom_getElem?, List.getElem?_eq_getElem hi',
    Option.map_some, Option.getD_some, hf.typ i _ (List.getElem?_eq_getElem hi')]

/-- The energy along a deformation of the crystal is that of the neighbour lists. -/
theorem tb_deform {now : ℝ} {C : ℝ → Cell} (hr : Ready edge cut scale c) (hD : Deform c now C)
    (hf : Built false cut scale c f) (hsym : ∀ s t, cut.rcut s t = cut.rcut t s) {H : Nat → List Image}
    (hn : ∀ i < c.sites.length, (H i).Nodup) (hm : ∀ i < c.sites.length, ∀ m, m ∈ H i ↔ Wanted false cut c i m)
    {rf : ℝ → Nat → Link → V3 ℝ} (ha : Along c C rf) {b : Build} {P : EamPots ℝ} (h : TbCrystal b P cut c) :
    ∀ᶠ t in nhds now, latticeTb b P (C t) = tbTotal b P (placeWith f (nodesFrom c H 0 f.atoms) (rf t)) := by
  filter_upwards [hD.pair hr hf hsym hn hm ha P.toPots h.pair, embedding_deform hr hD hf hsym hn hm ha b P h.transfer,
    embedding_deform hr hD hf hsym hn hm ha b P.second h.transferS] with t h1 h2 h3
  unfold latticeTb tbTotal
  rw [h1, h2, h3]

theorem lattice_tb (hr : Ready edge cut scale c) (hf : Built false cut scale c f) (hsym : ∀ s t, cut.rcut s t = cut.rcut t s)
    {b : Build} {P : EamPots ℝ} (h : TbCrystal b P cut c) : latticeTb b P c = tbTotal b P f := by
  obtain ⟨H, g1, g2, g3⟩ := built_lists hr hf
  have hp := place_nodes hf g3
  have hev := (tb_deform hr (deform_strained c 0 0) hf hsym g1 g2 (along_strained c 0 0) h).self_of_nhds
  have hs : ∀ v : V3 ℝ, strained 0 0 0 v = v := by
    intro v; funext l
    simp [strained]
  have hc : strainedCell c 0 0 0 = c := by
    unfold strainedCell
    simp only [hs]
    simp
  have hq : (fun (i : Nat) (l : Link) => strained 0 0 0 (reach (posOf c) i l)) = reach (posOf c) := by
    funext i l
    exact hs _
  rw [hc, hq, placeWith_reach, hp] at hev
  exact hev

variable {b : Build} {P : EamPots ℝ}

theorem tb_force (hr : Ready edge cut scale c) (hf : Built false cut scale c f) (hsym : ∀ s t, cut.rcut s t = cut.rcut t s)
    (h : TbCrystal b P cut c) (j : Nat) (hj : j < c.sites.length) (k : Fin 3) :
    HasDerivAt (fun y => latticeTb b P (displaced c j k y)) (-totalForce (tbFullSlope b P f) f (c.start + j) k)
      ((c.site j).pos k) := by
  obtain ⟨H, g1, g2, g3⟩ := built_lists hr hf
  have hp := place_nodes hf g3
  obtain ⟨hh, -⟩ := C23_half cut scale c f hf P h.cols
  have hev := tb_deform hr (deform_displaced c j k hj) hf hsym g1 g2 (along_displaced c j k hj) h
  have hd := tb_gradient b P f (nodesFrom c H 0 f.atoms) (posOf c) (by rw [hp]; exact hh) (clear_pairSmooth hf h.pairs hp)
    (clear_transferSmooth hf h.transfers hp) (clear_transferSmooth hf h.transfersS hp)
    (clear_embedSmooth hr hf hsym h.transfer h.embeds hp) (clear_embedSmooth hr hf hsym h.transferS h.embedsS hp)
    (embGrad b P f) (embGrad b P.second f) (by rw [hp]; exact embGrad_isGradF b P f)
    (by rw [hp]; exact embGrad_isGradF b P.second f) (c.start + j) k
  have hx : posOf c (c.start + j) k = (c.site j).pos k := by unfold posOf; rw [Nat.add_sub_cancel_left]
  rw [hp, hx] at hd
  refine hd.congr_of_eventuallyEq ?_
  filter_upwards [hev] with t ht
  rw [ht, placeWith_reach]

theorem tb_strain (hr : Ready edge cut scale c) (hf : Built false cut scale c f) (hsym : ∀ s t, cut.rcut s t = cut.rcut t s)
    (h : TbCrystal b P cut c) (k : Fin 6) :
    HasDerivAt (fun e => latticeTb b P (strainedCell c (voigt k).2 (voigt k).1 e)) (-totalStress (tbFullSlope b P f) f k) 0 := by
  obtain ⟨H, g1, g2, g3⟩ := built_lists hr hf
  have hp := place_nodes hf g3
  obtain ⟨hh, hc⟩ := C23_half cut scale c f hf P h.cols
  have hev := tb_deform hr (deform_strained c (voigt k).2 (voigt k).1) hf hsym g1 g2 (along_strained c (voigt k).2 (voigt k).1) h
  have hM := straining_now (posOf c) (voigt k).2 (voigt k).1
  have hpl := place_eq_placeWith f (nodesFrom c H 0 f.atoms) (posOf c) hM
  have hsm := clear_pairSmooth hf h.pairs hp
  have hd1 := rate_pair (straining (posOf c) (voigt k).2 (voigt k).1) P.toPots f (nodesFrom c H 0 f.atoms) (pairSmooth_now hsm hM)
  have hd2 := rate_embedding_self (straining (posOf c) (voigt k).2 (voigt k).1) b P f (nodesFrom c H 0 f.atoms)
    (transferSmooth_now (fun e he => (hsm e he).1) (clear_transferSmooth hf h.transfers hp) hM) (by rw [hpl, hp]; exact hh)
    (by rw [hpl, hp]; exact fun e he => (hc e he).2) (embGrad b P f) (by rw [hpl]; exact nodes_embed hr hf hsym h.transfer h.embeds hp)
  have hd3 := rate_embedding_self (straining (posOf c) (voigt k).2 (voigt k).1) b P.second f (nodesFrom c H 0 f.atoms)
    (transferSmooth_now (fun e he => (hsm e he).1) (clear_transferSmooth hf h.transfersS hp) hM) (by rw [hpl, hp]; exact hh)
    (by rw [hpl, hp]; exact fun e he => (hc e he).2) (embGrad b P.second f)
    (by rw [hpl]; exact nodes_embed hr hf hsym h.transferS h.embedsS hp)
  have hd := (hd1.add hd2).add hd3
  rw [virial_along, virial_along, virial_along, hp] at hd
  refine (hd.congr_of_eventuallyEq hev).congr_deriv ?_
  rw [← neg_add, ← neg_add, ← Verif.Props.totalStress_add, ← Verif.Props.totalStress_add]
  rfl

end

/-! ### One crystal -/

section
variable (edge : Fin 3 → V3 ℝ) (cut : Cutoffs) (scale : Fin 3 → ℤ) (c : Cell) (f : Conf ℝ)
  (hr : Ready edge cut scale c) (hf : Built false cut scale c f) (hsym : ∀ s t, cut.rcut s t = cut.rcut t s)
include hr hf hsym

/-- **Energy** in the force vector, whatever the ranges of the bands. -/
theorem C112_energy (b : Build) (P : EamPots ℝ) (h : TbCrystal b P cut c) (ew sw : ℝ) (ci : Nat) (s : TbState ℝ) :
    (tbConf b P ew sw ci f s).1.fv.energy ci = latticeTb b P c / (c.sites.length : ℝ) - f.energy0 := by
  obtain ⟨hh, hc⟩ := C23_half cut scale c f hf P h.cols
  rw [C87_energy b P ew sw ci f hh hc, lattice_tb hr hf hsym h, hf.count]

/-- **Forces**: those of the crystal less what the second band exerts where the first is out of reach. -/
theorem C112_forces (b : Build) (P : EamPots ℝ) (h : TbCrystal b P cut c) (ew sw : ℝ) (ci : Nat) (s : TbState ℝ) (hu : f.uf = true)
    (j : Nat) (a : Atom ℝ) (ha : f.atoms[j]? = some a) (k : Fin 3) :
    DifferentiableAt ℝ (fun y => latticeTb b P (displaced c j k y)) ((c.site j).pos k) ∧
      (tbConf b P ew sw ci f s).1.fv.force (c.start + j) k =
        (crystalForce (latticeTb b P) c j k - totalForce (bandLost b P f) f (c.start + j) k - f.force0 (c.start + j) k) /
          forceScale b a := by
  obtain ⟨hh, hc⟩ := C23_half cut scale c f hf P h.cols
  obtain ⟨p0, -, -, p2, -⟩ := tbConf_spec b P ew sw ci f hh hc s
  have hcg := tbUsed_congr hh p0.1 p0.2
  have hj : j < c.sites.length := by rw [← hf.count]; exact (List.getElem?_eq_some_iff.1 ha).1
  have hd := tb_force hr hf hsym h j hj k
  refine ⟨hd.differentiableAt, ?_⟩
  unfold crystalForce
  rw [hd.deriv, neg_neg, ← force_split, ← hf.start, p2 j a ha, if_pos hu, scaled_eq, ← totalForce_congr hcg]
  rfl

/-- **Stresses** likewise. -/
theorem C112_stresses (b : Build) (P : EamPots ℝ) (h : TbCrystal b P cut c) (ew sw : ℝ) (ci : Nat) (s : TbState ℝ)
    (hb : b.stress = true) (hu : f.uf = true) (hus : f.us = true) (k : Fin 6) :
    DifferentiableAt ℝ (fun e => latticeTb b P (strainedCell c (voigt k).2 (voigt k).1 e)) 0 ∧
      (tbConf b P ew sw ci f s).1.fv.stress ci k =
        (crystalVirial (latticeTb b P) c k - totalStress (bandLost b P f) f k) / f.vol - f.stress0 k := by
  obtain ⟨hh, hc⟩ := C23_half cut scale c f hf P h.cols
  obtain ⟨p0, -, -, -, -, p4, -⟩ := tbConf_spec b P ew sw ci f hh hc s
  have hcg := tbUsed_congr hh p0.1 p0.2
  have hd := tb_strain hr hf hsym h k
  refine ⟨hd.differentiableAt, ?_⟩
  unfold crystalVirial
  rw [hd.deriv, neg_neg, ← stress_split, p4, if_pos hb, Function.update_self, hu, hus, totalStress_congr hcg]
  rfl

/-- Forces and stresses of the crystal if the bands cover each other. -/
theorem C112_derivatives_partial (b : Build) (P : EamPots ℝ) (h : TbCrystal b P cut c) (hcov : BandsCover P c) (ew sw : ℝ) (ci : Nat)
    (s : TbState ℝ) (hu : f.uf = true) :
    (∀ j a, f.atoms[j]? = some a → ∀ k, (tbConf b P ew sw ci f s).1.fv.force (c.start + j) k =
      (crystalForce (latticeTb b P) c j k - f.force0 (c.start + j) k) / forceScale b a) ∧
    (b.stress = true → f.us = true → ∀ k, (tbConf b P ew sw ci f s).1.fv.stress ci k =
      crystalVirial (latticeTb b P) c k / f.vol - f.stress0 k) := by
  have hz := bandLost_zero (b := b) (built_covered hf hcov)
  refine ⟨fun j a ha k => ?_, fun hb hus k => ?_⟩
  · rw [(C112_forces edge cut scale c f hr hf hsym b P h ew sw ci s hu j a ha k).2]
    have : totalForce (bandLost b P f) f (c.start + j) k = 0 := by
      rw [totalForce_congr (q := fun _ => 0) hz]
      have := Verif.Props.totalForce_add (fun _ => 0) (fun _ => 0) f (c.start + j) k
      simp only [add_zero] at this
      linarith
    rw [this, sub_zero]
  · rw [(C112_stresses edge cut scale c f hr hf hsym b P h ew sw ci s hb hu hus k).2]
    have : totalStress (bandLost b P f) f k = 0 := by
      rw [totalStress_congr (q := fun _ => 0) hz]
      have := Verif.Props.totalStress_add (fun _ => 0) (fun _ => 0) f k
      simp only [add_zero] at this
      linarith
    rw [this, sub_zero]

end

/-! ### The objective -/

section
variable {edge : Fin 3 → V3 ℝ} {cut : Cutoffs} {scale : Fin 3 → ℤ} {c : Cell} {f : Conf ℝ}

theorem error_tb (hr : Ready edge cut scale c) (hf : Built false cut scale c f) (hsym : ∀ s t, cut.rcut s t = cut.rcut t s)
    (b : Build) (P : EamPots ℝ) (h : TbCrystal b P cut c) (ew sw : ℝ) :
    confError b (tbFullSlope b P f) (tbTotal b P f) ew sw f = crystalError b (latticeTb b P) ew sw f.vol c f := by
  apply error_crystal b (latticeTb b P) (tbFullSlope b P f) _ ew sw _ hf.start hf.count
  · intro j hj k
    unfold crystalForce
    rw [(tb_force hr hf hsym h j hj k).deriv, neg_neg]
  · intro k
    unfold crystalVirial
    rw [(tb_strain hr hf hsym h k).deriv, neg_neg]
  · rw [lattice_tb hr hf hsym h, hf.count]

end

/-- **Objective.** From cells, positions and functions to the objective: the weighted squared deviations of forces, energies and
stresses of the infinite crystals, besides constraints and punishments.  Missing for the full claim: crystals in which the second
band reaches farther than the first (`C112_stress_violated`). -/
theorem C112_objective_partial (cut : Cutoffs) (hsym : ∀ s t, cut.rcut s t = cut.rcut t s) (b : Build) (P : EamPots ℝ) (ew sw w : ℝ)
    (qs : List (Bound ℝ)) (eopp univ : List (Nat × ℝ)) (dummy0 : Nat → ℝ) (natoms : Nat) (L : List (Cell × Conf ℝ))
    (hL : ∀ x ∈ L, Prepared cut x.1 x.2 ∧ TbCrystal b P cut x.1 ∧ BandsCover P x.1)
    (v v' : TbVec ℝ) (y : ℝ) (h : tbObjective b P ew sw w qs eopp univ dummy0 natoms (L.map Prod.snd) v = .ok (v', y)) :
    y = (L.map fun x => crystalError b (latticeTb b P) ew sw (cellVolume x.1.box.edge) x.1 x.2 + tbLimitError b P x.2).sum +
      (if b.apot = true then totalPenalty w qs eopp univ else 0) + (gaugeError b P dummy0 natoms (L.map Prod.snd) +
        gaugeError b P.second (fun g => dummy0 (2 * P.ntypes + g)) natoms (L.map Prod.snd)) := by
  have hh : ∀ g ∈ L.map Prod.snd, HalfList g ∧ EamColumns P g ∧ Covered P g := by
    intro g hg
    obtain ⟨x, hx, rfl⟩ := List.mem_map.1 hg
    obtain ⟨edge, scale, -, -, -, hb⟩ := (hL x hx).1.made
    obtain ⟨h1, h2⟩ := C23_half cut scale x.1 x.2 hb P (hL x hx).2.1.cols
    exact ⟨h1, h2, built_covered hb (hL x hx).2.2⟩
  have hsum : ((L.map Prod.snd).map fun g => confError b (tbFullSlope b P g) (tbTotal b P g) ew sw g + tbLimitError b P g) =
      L.map fun x => crystalError b (latticeTb b P) ew sw (cellVolume x.1.box.edge) x.1 x.2 + tbLimitError b P x.2 := by
    rw [List.map_map]
    apply List.map_congr_left
    intro x hx
    obtain ⟨g1, g2, g3⟩ := hL x hx
    obtain ⟨edge, scale, hr, -, -, hb⟩ := g1.made
    rw [Function.comp_apply, error_tb hr hb hsym b P g2, g1.vol]
  rw [C87_objective_partial b P ew sw w qs eopp univ dummy0 natoms _ hh v v' y h, hsum]

/-! ### Tables -/

open Verif.SplineInit Verif.Splines Polynomial

open Verif.Cut in
/-- **From the table to the objective.** The cutoffs are computed from the ends of pair functions and first band alone (C96), and
forces take the second band only where the first reaches, so the transfer functions of the second band must end with those of the first. -/
theorem C112_table_partial {fmt : Format} (hh : Handles .tbeam fmt) {t : Cols ℝ} {n : ℕ}
    (hl : Layout (isGeneral fmt) t (n * (n + 1) / 2 + 4 * n)) (ana : ℕ → ℝ → ℝ × ℝ) (xi d before : ℕ → ℝ)
    (hshort : ∀ a < n, t.fin (n * (n + 1) / 2 + 2 * n + a) ≤ t.fin (n * (n + 1) / 2 + a)) :
    ∃ d', refresh .tbeam fmt t xi (n * (n + 1) / 2) n d = .ok d' ∧
      (∀ col < n * (n + 1) / 2 + 4 * n, ServesSpline fmt t xi d' col (endCond (xi (t.first col - 2)))
        (endCond (if n * (n + 1) / 2 + n ≤ col ∧ col < n * (n + 1) / 2 + 2 * n ∨ n * (n + 1) / 2 + 3 * n ≤ col
          then xi (t.first col - 1) else 0))) ∧
      ∀ (b : Build) (ew sw w : ℝ) (qs : List (Bound ℝ)) (eopp univ : List (Nat × ℝ)) (dummy0 : ℕ → ℝ) (natoms : ℕ)
        (L : List (Cell × Conf ℝ)),
        (∀ x ∈ L, Prepared (toCutoffs n (rcut .tbeam false n t.fin 0 before)) x.1 x.2 ∧ x.1.ntypes = n ∧
          x.1.paircol = n * (n + 1) / 2 ∧ (∀ i < x.1.sites.length, (x.1.site i).typ < n) ∧
          (∀ i < x.1.sites.length, ∀ m ∈ Others x.1 i, OffEnds t (pairColumn x.1 i m.j) (gapTo x.1 i m) ∧
            OffEnds t (n * (n + 1) / 2 + (x.1.site m.j).typ) (gapTo x.1 i m) ∧
            OffEnds t (n * (n + 1) / 2 + 2 * n + (x.1.site m.j).typ) (gapTo x.1 i m)) ∧
          (∀ i < x.1.sites.length, InsideTable b t (n * (n + 1) / 2 + n + (x.1.site i).typ)
            (latticeDensity (tableEam fmt t n ana xi d') x.1 i) ∧
            InsideTable b t (n * (n + 1) / 2 + 3 * n + (x.1.site i).typ)
            (latticeDensity (tableEam fmt t n ana xi d').second x.1 i))) →
        ∀ (v v' : TbVec ℝ) (y : ℝ),
        tbObjective b (tableEam fmt t n ana xi d') ew sw w qs eopp univ dummy0 natoms (L.map Prod.snd) v = .ok (v', y) →
        y = (L.map fun x => crystalError b (latticeTb b (tableEam fmt t n ana xi d')) ew sw (cellVolume x.1.box.edge) x.1 x.2 +
            tbLimitError b (tableEam fmt t n ana xi d') x.2).sum +
          (if b.apot = true then totalPenalty w qs eopp univ else 0) +
          (gaugeError b (tableEam fmt t n ana xi d') dummy0 natoms (L.map Prod.snd) +
            gaugeError b (tableEam fmt t n ana xi d').second (fun g => dummy0 (2 * n + g)) natoms (L.map Prod.snd)) := by
  have hnum : numCols .tbeam (n * (n + 1) / 2) n = n * (n + 1) / 2 + 4 * n := rfl
  obtain ⟨d', e1, e2, -⟩ := C99_fresh hh (pc := n * (n + 1) / 2) (nt := n) hl xi d
  refine ⟨d', e1, fun col hc => by simpa [takesRight] using e2 col hc, ?_⟩
  intro b ew sw w qs eopp univ dummy0 natoms L hL v v' y h
  refine C112_objective_partial _ (cutoffs_good .tbeam false n t.fin 0 before) b (tableEam fmt t n ana xi d') ew sw w qs eopp univ dummy0
    natoms L ?_ v v' y h
  intro x hx
  obtain ⟨h1, h2, h3, h4, h5, h6⟩ := hL x hx
  have hcut : ∀ i < x.1.sites.length, ∀ j < x.1.sites.length, ∀ c ∈ considered .tbeam n (x.1.site i).typ (x.1.site j).typ,
      t.fin c ≤ (toCutoffs n (rcut .tbeam false n t.fin 0 before)).rcut (x.1.site i).typ (x.1.site j).typ := by
    intro i hi j hj c hc
    simp only [toCutoffs]
    rw [if_pos ⟨h4 i hi, h4 j hj⟩]
    exact (C96_rcut .tbeam false n t.fin 0 before _ _ (h4 i hi) (h4 j hj)).1 c hc
  have hsm : ∀ col r, col < n * (n + 1) / 2 + 4 * n → OffEnds t col r → SmoothAt (tableEam fmt t n ana xi d').toPots col r := by
    intro col r hc ho
    exact table_smooth (hl.good _ hc) (e2 _ hc) ho
  have hcov : BandsCover (tableEam fmt t n ana xi d') x.1 := by
    intro i hi m hm hg
    exact hg.imp (fun g => g.trans_le (hshort _ (h4 m.j hm.1))) (fun g => g.trans_le (hshort _ (h4 i hi)))
  refine ⟨h1, ⟨h3.symm, ?_, ?_, ?_, ?_, ?_, ?_, ?_, ?_⟩, hcov⟩
  · intro i hi j hj
    refine hcut i hi j hj _ ?_
    unfold pairColumn
    rw [h2]
    simp [considered]
  · intro i hi j hj
    exact hcut i hi j hj _ (by simp [considered, tableEam])
  · intro i hi j hj
    exact (hshort _ (h4 j hj)).trans (hcut i hi j hj _ (by simp [considered]))
  · intro i hi m hm
    have hc : pairColumn x.1 i m.j < n * (n + 1) / 2 := by
      unfold pairColumn
      rw [h2]
      exact C01_in_range (h4 i hi) (h4 m.j hm.1)
    exact hsm _ _ (by omega) (h5 i hi m hm).1
  · intro i hi m hm
    have := h4 m.j hm.1
    exact hsm _ _ (by show n * (n + 1) / 2 + (x.1.site m.j).typ < _; omega) (h5 i hi m hm).2.1
  · intro i hi m hm
    have := h4 m.j hm.1
    exact hsm _ _ (by show n * (n + 1) / 2 + 2 * n + (x.1.site m.j).typ < _; omega) (h5 i hi m hm).2.2
  · intro i hi
    have hc' : n * (n + 1) / 2 + n + (x.1.site i).typ < numCols .tbeam (n * (n + 1) / 2) n := by
      have := h4 i hi
      rw [hnum]; omega
    exact table_embed b (hl.good _ hc') (e2 _ hc') (h6 i hi).1
  · intro i hi
    have hc' : n * (n + 1) / 2 + 3 * n + (x.1.site i).typ < numCols .tbeam (n * (n + 1) / 2) n := by
      have := h4 i hi
      rw [hnum]; omega
    have hcol : (tableEam fmt t n ana xi d').second.paircol + (tableEam fmt t n ana xi d').second.ntypes + (x.1.site i).typ =
        n * (n + 1) / 2 + 3 * n + (x.1.site i).typ := by
      show n * (n + 1) / 2 + 2 * n + n + _ = _
      omega
    rw [hcol]
    exact table_embed (n := n) b (hl.good _ hc') (e2 _ hc') (h6 i hi).2

/-! ### Bands of different reach -/

/-- Density of a band in the thin crystal: its two next images at the distance 1, if the transfer function ends at 3/2. -/
theorem thin_band (P : EamPots ℝ) (hP : P.fin P.paircol = 3 / 2) : latticeDensity P thin 0 = 2 * P.val P.paircol 1 := by
  unfold latticeDensity latticeSum
  have hne : (⟨0, ![1, 0, 0]⟩ : Image) ≠ ⟨0, ![-1, 0, 0]⟩ := by
    intro h
    have := congrFun (congrArg Image.n h) 0
    simp at this
  have hmem : ∀ m ∈ ({⟨0, ![1, 0, 0]⟩, ⟨0, ![-1, 0, 0]⟩} : Set Image), m ∈ Others thin 0 := by
    rintro m (rfl | rfl)
    · exact ⟨one_pos, fun h => by simpa using congrFun h.2 0⟩
    · exact ⟨one_pos, fun h => by simpa using congrFun h.2 0⟩
  have hone : ∀ m ∈ ({⟨0, ![1, 0, 0]⟩, ⟨0, ![-1, 0, 0]⟩} : Set Image), length (arrow thin 0 m) = 1 := by
    rintro m (rfl | rfl)
    · rw [thin_arrow 0 one_pos _ one_pos, length_three]; norm_num; rfl
    · rw [thin_arrow 0 one_pos _ one_pos, length_three]; norm_num; rfl
  have htr : transfer P 0 1 = P.val P.paircol 1 := by
    unfold transfer
    rw [Nat.add_zero, hP, if_pos (by norm_num)]
  rw [← finsum_mem_inter_support_eq _ ({⟨0, ![1, 0, 0]⟩, ⟨0, ![-1, 0, 0]⟩} : Set Image) (Others thin 0) ?_, finsum_mem_pair hne,
    hone _ (Or.inl rfl), hone _ (Or.inr rfl)]
  · have ht : (thin.site 0).typ = 0 := rfl
    simp only [ht, htr]
    ring
  · ext m
    simp only [Set.mem_inter_iff, Function.mem_support]
    constructor
    · rintro ⟨h1, h2⟩
      exact ⟨hmem m h1, h2⟩
    · rintro ⟨h1, h2⟩
      refine ⟨?_, h2⟩
      rcases thin_gap m h1 with ⟨-, h⟩ | h
      · exact h
      · exfalso
        apply h2
        unfold transfer
        rw [thin_typ, Nat.add_zero, hP, if_neg]
        unfold gapTo at h
        linarith

/-- All functions are `r`; the transfer function of the first band ends at `near`, that of the second at 3/2. -/
noncomputable def bandPots (near : ℝ) : EamPots ℝ where
  fin := fun col => if col = 1 then near else if col = 0 ∨ col = 3 then 3 / 2 else 10
  beg := fun _ => -1
  step := fun _ => 1
  val := fun _ r => r
  grad := fun _ _ => 1
  paircol := 1
  ntypes := 1
  ana := fun _ _ => (0, 0)

theorem band_embed (P : EamPots ℝ) (col : Nat) (h1 : P.beg col = -1) (h2 : P.fin col = 10) (h3 : P.val col = fun r => r)
    (h4 : P.grad col = fun _ => 1) (y : ℝ) (y1 : -1 < y) (y2 : y < 10) : embed tbBuild P col y = ⟨y, y, 1, 0⟩ := by
  have a1 := not_lt.2 y1.le
  have a2 := not_lt.2 y2.le
  simp [embed, tbBuild, h1, h2, h3, h4, a1, a2]

theorem band_deriv (P : EamPots ℝ) (col : Nat) (h1 : P.beg col = -1) (h2 : P.fin col = 10) (h3 : P.val col = fun r => r)
    (h4 : P.grad col = fun _ => 1) (y : ℝ) (y1 : -1 < y) (y2 : y < 10) :
    HasDerivAt (fun z => (embed tbBuild P col z).value) (embed tbBuild P col y).grad y := by
  rw [band_embed P col h1 h2 h3 h4 y y1 y2]
  refine (hasDerivAt_id y).congr_of_eventuallyEq ?_
  filter_upwards [lt_mem_nhds y1, gt_mem_nhds y2] with z z1 z2
  rw [band_embed P col h1 h2 h3 h4 z z1 z2]
  rfl

theorem thin_next {i : ℕ} (hi : i < thin.sites.length) {m : Image} (hm : m ∈ Others thin i) :
    gapTo thin i m = 1 ∨ 3 / 2 < gapTo thin i m := by
  obtain rfl : i = 0 := by have : i < 1 := hi; omega
  rcases thin_gap m hm with ⟨h, -⟩ | h
  · exact Or.inl h
  · right; linarith

/-- The hypotheses on the crystal are met for a first band which ends at 1/2 or at 3/2. -/
theorem band_crystal (near : ℝ) (hn : near = 1 / 2 ∨ near = 3 / 2) : TbCrystal tbBuild (bandPots near) thinCut thin := by
  have hle : near ≤ 3 / 2 := by rcases hn with rfl | rfl <;> norm_num
  have hsm : ∀ col, col = 0 ∨ col = 1 ∨ col = 3 → ∀ i < thin.sites.length, ∀ m ∈ Others thin i,
      SmoothAt (bandPots near).toPots col (gapTo thin i m) := by
    intro col hc i hi m hm
    refine ⟨?_, fun _ => hasDerivAt_id _⟩
    intro e
    rcases hc with rfl | rfl | rfl <;> simp [bandPots] at e <;>
    rcases thin_next hi hm with h | h
    · rw [h] at e; norm_num at e
    · linarith
    · rw [h] at e; rcases hn with rfl | rfl <;> norm_num at e
    · linarith
    · rw [h] at e; norm_num at e
    · linarith
  have hden : -1 < latticeDensity (bandPots near) thin 0 ∧ latticeDensity (bandPots near) thin 0 < 10 := by
    rcases hn with rfl | rfl
    · have : latticeDensity (bandPots (1 / 2)) thin 0 = 0 := by
        unfold latticeDensity latticeSum
        apply finsum_mem_eq_zero_of_forall_eq_zero
        intro m hm
        unfold transfer
        rw [if_neg]
        rw [thin_typ]
        have hg := thin_next one_pos hm
        unfold gapTo at hg
        simp only [bandPots, not_lt]
        rcases hg with h | h
        · rw [h]; norm_num
        · norm_num; linarith
      rw [this]; norm_num
    · rw [thin_band _ (by simp [bandPots])]
      simp only [bandPots]; norm_num
  have hdenS : latticeDensity (bandPots near).second thin 0 = 2 := by
    rw [thin_band _ (by simp [bandPots, EamPots.second])]
    simp only [bandPots, EamPots.second]; norm_num
  refine ⟨rfl, ?_, ?_, ?_, ?_, ?_, ?_, ?_, ?_⟩
  · intro i hi j hj
    show (bandPots near).fin (pairColumn thin i j) ≤ 3 / 2
    unfold pairColumn
    rw [thin_typ, thin_typ]
    show (bandPots near).fin 0 ≤ 3 / 2
    simp [bandPots]
  · intro i hi j hj
    show (bandPots near).fin (1 + (thin.site j).typ) ≤ 3 / 2
    rw [thin_typ]
    simpa [bandPots] using hle
  · intro i hi j hj
    show (bandPots near).fin (1 + 2 + (thin.site j).typ) ≤ 3 / 2
    rw [thin_typ]
    simp [bandPots]
  · intro i hi m hm
    refine hsm _ (Or.inl ?_) i hi m hm
    unfold pairColumn
    rw [thin_typ, thin_typ]
    rfl
  · intro i hi m hm
    exact hsm _ (Or.inr (Or.inl (by rw [thin_typ]; rfl))) i hi m hm
  · intro i hi m hm
    exact hsm _ (Or.inr (Or.inr (by rw [thin_typ]; rfl))) i hi m hm
  · intro i hi
    obtain rfl : i = 0 := by have : i < 1 := hi; omega
    rw [thin_typ]
    exact band_deriv (bandPots near) 2 rfl (by simp [bandPots]) rfl rfl _ hden.1 hden.2
  · intro i hi
    obtain rfl : i = 0 := by have : i < 1 := hi; omega
    rw [thin_typ, hdenS]
    exact band_deriv (bandPots near).second 4 rfl (by simp [bandPots, EamPots.second]) rfl rfl _ (by norm_num) (by norm_num)

/-- What the stresses lack in the thin crystal. -/
theorem band_lost {f : Conf ℝ} (hf : Built false thinCut ![2, 1, 1] thin f) :
    totalStress (bandLost tbBuild (bandPots (1 / 2)) f) f 0 = -2 := by
  have hd : latticeDensity (bandPots (1 / 2)).second thin 0 = 2 := by
    rw [thin_band _ (by simp [bandPots, EamPots.second])]
    simp only [bandPots, EamPots.second]; norm_num
  rw [lattice_density thin_ready hf (fun _ _ => rfl) _ (band_crystal (1 / 2) (Or.inl rfl)).transferS 0 one_pos] at hd
  have hst : f.start = 0 := hf.start
  have hcnt : f.atoms.length = 1 := hf.count
  have hg : embGrad tbBuild (bandPots (1 / 2)).second f 0 = 1 := by
    have ha : f.atoms[0]? = some f.atoms[0] := List.getElem?_eq_getElem (by omega)
    have ht : f.atoms[0].typ = 0 := by rw [hf.typ 0 _ ha, thin_typ]
    unfold embGrad
    rw [hst, Nat.sub_zero, ha]
    simp only [embedAt, hst, ht]
    have : totalDensity (bandPots (1 / 2)).second f (0 + 0) = 2 := hd
    rw [this]
    have e := band_embed (bandPots (1 / 2)).second 4 rfl (by simp [bandPots, EamPots.second]) rfl rfl 2 (by norm_num) (by norm_num)
    exact congrArg Embed.grad e
  have h0 : totalStress (bandLost tbBuild (bandPots (1 / 2)) f) f 0 =
      ((entries f).map fun e => entryStress (bandLost tbBuild (bandPots (1 / 2)) f) e 0).sum := by
    unfold totalStress
    rw [sum_apply_fin]
  have hl : ∀ x : ℝ, bandLost tbBuild (bandPots (1 / 2)) f ⟨0, 0, ⟨0, 0, 1, ![x, 0, 0], ![x, 0, 0], 0, 1⟩⟩ = 2 := by
    intro x
    have hn : ¬ InReach (bandPots (1 / 2)) ⟨0, 0, ⟨0, 0, 1, ![x, 0, 0], ![x, 0, 0], 0, 1⟩⟩ := by
      simp only [InReach, bandPots]; norm_num
    unfold bandLost
    rw [if_neg hn]
    unfold eamSlope
    simp only [hg]
    simp only [transferSlope, EamPots.second, bandPots]
    norm_num
  rw [h0, thin_sum hf]
  simp only [entryStress, hl, voigt]
  norm_num

/-- **Stresses: violated.** One atom per cell which sees its own images at the distance 1; there the second band reaches, but the
first does not: all other hypotheses are met, and the stress differs from that of the crystal. -/
theorem C112_stress_violated : ∃ f : Conf ℝ, Prepared thinCut thin f ∧ TbCrystal tbBuild (bandPots (1 / 2)) thinCut thin ∧
    tbBuild.stress = true ∧ f.uf = true ∧ f.us = true ∧ ∀ (ew sw : ℝ) (ci : Nat) (s : TbState ℝ),
      (tbConf tbBuild (bandPots (1 / 2)) ew sw ci f s).1.fv.stress ci 0 =
        crystalVirial (latticeTb tbBuild (bandPots (1 / 2))) thin 0 / f.vol - f.stress0 0 + 1 / 50 := by
  obtain ⟨f, hf, -⟩ := thin_built false
  have hb : Built false thinCut ![2, 1, 1] thin { f with vol := 100, uf := true, us := true } :=
    ⟨hf.start, hf.count, hf.typ, hf.lists⟩
  have hc := band_crystal (1 / 2) (Or.inl rfl)
  refine ⟨{ f with vol := 100, uf := true, us := true },
    ⟨(boxOf 1).edge, ![2, 1, 1], thin_ready, thin_made, ?_, hb⟩, hc, rfl, rfl, rfl, ?_⟩
  · rw [((C24_partial (boxOf 1).edge).2 _ _ thin_made).2.1.symm]
    norm_num
  · intro ew sw ci s
    rw [(C112_stresses (boxOf 1).edge thinCut ![2, 1, 1] thin _ thin_ready hb (fun _ _ => rfl) tbBuild (bandPots (1 / 2)) hc ew sw ci s
      rfl rfl rfl 0).2, band_lost hb]
    ring

/-- Hypotheses of `C112_derivatives_partial` (and of the theorems before): both bands end at 3/2. -/
example : ∃ f : Conf ℝ, Ready (boxOf 1).edge thinCut ![2, 1, 1] thin ∧ Built false thinCut ![2, 1, 1] thin f ∧
    (∀ s t, thinCut.rcut s t = thinCut.rcut t s) ∧ TbCrystal tbBuild (bandPots (3 / 2)) thinCut thin ∧
    BandsCover (bandPots (3 / 2)) thin ∧ tbBuild.stress = true ∧ f.uf = true ∧ f.us = true := by
  obtain ⟨f, hf, -⟩ := thin_built false
  refine ⟨{ f with uf := true, us := true }, thin_ready, ⟨hf.start, hf.count, hf.typ, hf.lists⟩, fun _ _ => rfl,
    band_crystal _ (Or.inr rfl), ?_, rfl, rfl, rfl⟩
  intro i hi m hm
  rw [thin_typ, thin_typ]
  simp [bandPots]

/-! ### A table meeting all hypotheses -/

theorem half_value (d : ℕ → ℝ) (col : ℕ) {l e : EndCond ℝ} (hs : ServesSpline .eqDist halfCols (fun _ => 1 / 2) d col l e) :
    (tablePots .eqDist halfCols (fun _ => 1 / 2) d).val col 1 = 1 / 2 := by
  obtain ⟨p, hp, hq⟩ := hs
  have hg : isGeneral .eqDist = false := rfl
  have hk1 : knots (isGeneral .eqDist) halfCols col 1 = 1 := by
    rw [hg]
    simp only [knots, halfCols]; norm_num
  have hk2 : knots (isGeneral .eqDist) halfCols col (1 + 1) = 3 / 2 := by
    rw [hg]
    simp only [knots, halfCols]; norm_num
  have h := (hq 1 (by simp only [halfCols]; omega) 1 (by rw [hk1]) (by rw [hk2]; norm_num)).1
  have h' := hp.interp_left 1 (by simp only [halfCols]; omega)
  rw [hk1] at h'
  simp only [tablePots, h, delivered]
  exact h'

open Verif.Cut in
/-- Hypotheses of `C112_table_partial`. -/
example (d : ℕ → ℝ) (ana : ℕ → ℝ → ℝ × ℝ) (b : Build) : ∃ d' f,
    refresh .tbeam .eqDist halfCols (fun _ => 1 / 2) (1 * (1 + 1) / 2) 1 d = .ok d' ∧
    (∀ a < 1, halfCols.fin (1 * (1 + 1) / 2 + 2 * 1 + a) ≤ halfCols.fin (1 * (1 + 1) / 2 + a)) ∧
    (∀ x ∈ [(thin, f)], Prepared (toCutoffs 1 (rcut .tbeam false 1 halfCols.fin 0 fun _ => 0)) x.1 x.2 ∧ x.1.ntypes = 1 ∧
      x.1.paircol = 1 * (1 + 1) / 2 ∧ (∀ i < x.1.sites.length, (x.1.site i).typ < 1) ∧
      (∀ i < x.1.sites.length, ∀ m ∈ Others x.1 i, OffEnds halfCols (pairColumn x.1 i m.j) (gapTo x.1 i m) ∧
        OffEnds halfCols (1 * (1 + 1) / 2 + (x.1.site m.j).typ) (gapTo x.1 i m) ∧
        OffEnds halfCols (1 * (1 + 1) / 2 + 2 * 1 + (x.1.site m.j).typ) (gapTo x.1 i m)) ∧
      (∀ i < x.1.sites.length, InsideTable b halfCols (1 * (1 + 1) / 2 + 1 + (x.1.site i).typ)
        (latticeDensity (tableEam .eqDist halfCols 1 ana (fun _ => 1 / 2) d') x.1 i) ∧
        InsideTable b halfCols (1 * (1 + 1) / 2 + 3 * 1 + (x.1.site i).typ)
        (latticeDensity (tableEam .eqDist halfCols 1 ana (fun _ => 1 / 2) d').second x.1 i))) := by
  have hshort : ∀ a < 1, halfCols.fin (1 * (1 + 1) / 2 + 2 * 1 + a) ≤ halfCols.fin (1 * (1 + 1) / 2 + a) := fun _ _ => le_refl _
  obtain ⟨d', e1, e2, -⟩ := C112_table_partial (fmt := .eqDist) (n := 1) trivial (halfCols_layout _) ana (fun _ => 1 / 2) d (fun _ => 0)
    hshort
  obtain ⟨f, hf⟩ := thin_prepared .tbeam fun _ => 0
  have k1 := half_value d' 1 (e2 1 (by norm_num))
  have k3 := half_value d' 3 (e2 3 (by norm_num))
  refine ⟨d', f, e1, hshort, ?_⟩
  intro x hx
  obtain rfl := List.mem_singleton.1 hx
  refine ⟨hf, rfl, rfl, ?_, fun i hi m hm => ⟨thin_off i hi m hm _, thin_off i hi m hm _, thin_off i hi m hm _⟩, ?_⟩
  · intro i hi
    obtain rfl : i = 0 := by have : i < 1 := hi; omega
    exact one_pos
  · intro i hi
    obtain rfl : i = 0 := by have : i < 1 := hi; omega
    have q1 : latticeDensity (tableEam .eqDist halfCols 1 ana (fun _ => 1 / 2) d') thin 0 = 1 := by
      rw [thin_band _ rfl]
      have : (tableEam .eqDist halfCols 1 ana (fun _ => 1 / 2) d').val 1 1 = 1 / 2 := k1
      show 2 * (tableEam .eqDist halfCols 1 ana (fun _ => 1 / 2) d').val 1 1 = 1
      rw [this]; norm_num
    have q3 : latticeDensity (tableEam .eqDist halfCols 1 ana (fun _ => 1 / 2) d').second thin 0 = 1 := by
      rw [thin_band _ rfl]
      have : (tableEam .eqDist halfCols 1 ana (fun _ => 1 / 2) d').val 3 1 = 1 / 2 := k3
      show 2 * (tableEam .eqDist halfCols 1 ana (fun _ => 1 / 2) d').val 3 1 = 1
      rw [this]; norm_num
    rw [q1, q3]
    refine ⟨⟨?_, ?_, fun _ _ => by norm_num⟩, ⟨?_, ?_, fun _ _ => by norm_num⟩⟩ <;> norm_num [halfCols]

end Verif.Props
