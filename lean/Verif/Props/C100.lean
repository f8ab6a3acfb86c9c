/-
C100  The objective computed from cells and positions is the least-squares objective of the infinite periodic crystals.

Energies are lattice sums over all images of all atoms (`Spec/Crystal.lean`), forces and stresses are minus their derivatives
with respect to positions of atoms and to homogeneous strains of the crystal.  Nothing is kept fixed while deriving: atoms
enter and leave the range of the functions.
-/
import Verif.Lemmas.Crystal
import Verif.Model.TablePots
import Verif.Props.C21
import Verif.Props.C65
import Verif.Props.C18
import Verif.Props.C24
import Verif.Props.C96
import Verif.Props.C99
import Mathlib.Analysis.Calculus.Deriv.Basic
import Mathlib.Analysis.Calculus.Deriv.Polynomial

set_option linter.unusedSectionVars false

namespace Verif.Props

open Verif.Force hiding Cell
open Verif.Neighbors Verif.Spec

/-- Distance of an image. -/
noncomputable def gapTo (c : Cell) (i : Nat) (m : Image) : ℝ := length (arrow c i m)

/-- Column of the pair function of two atoms. -/
def pairColumn (c : Cell) (i j : Nat) : Nat := PairIndex.pairCol c.ntypes (c.site i).typ (c.site j).typ

/-- The function of column `col` cut off at its end has the slope given by the table at distance `r`. -/
def SmoothAt (P : Pots ℝ) (col : Nat) (r : ℝ) : Prop :=
  r ≠ P.fin col ∧ (r < P.fin col → HasDerivAt (P.val col) (P.grad col r) r)

/-- No distance in the crystal is exactly the end of a pair function, and pair functions are differentiable at distances
within their range. -/
def PairClear (P : Pots ℝ) (c : Cell) : Prop :=
  ∀ i < c.sites.length, ∀ m ∈ Others c i, SmoothAt P (pairColumn c i m.j) (gapTo c i m)

/-- The same for transfer functions (of the other atom). -/
def TransferClear (P : EamPots ℝ) (c : Cell) : Prop :=
  ∀ i < c.sites.length, ∀ m ∈ Others c i, SmoothAt P.toPots (P.paircol + (c.site m.j).typ) (gapTo c i m)

/-- Embedding functions are differentiable at the densities of the crystal. -/
def EmbedClear (b : Build) (P : EamPots ℝ) (c : Cell) : Prop :=
  ∀ i < c.sites.length, HasDerivAt (fun y => (embed b P (P.paircol + P.ntypes + (c.site i).typ) y).value)
    (embed b P (P.paircol + P.ntypes + (c.site i).typ) (latticeDensity P c i)).grad (latticeDensity P c i)

/-- Pair functions end within the cutoff of the neighbour lists. -/
def PairReach (cut : Cutoffs) (P : Pots ℝ) (c : Cell) : Prop :=
  ∀ i < c.sites.length, ∀ j < c.sites.length, P.fin (pairColumn c i j) ≤ cut.rcut (c.site i).typ (c.site j).typ

/-- So do transfer functions. -/
def TransferReach (cut : Cutoffs) (P : EamPots ℝ) (c : Cell) : Prop :=
  ∀ i < c.sites.length, ∀ j < c.sites.length, P.fin (P.paircol + (c.site j).typ) ≤ cut.rcut (c.site i).typ (c.site j).typ

section
variable {edge : Fin 3 → V3 ℝ} {cut : Cutoffs} {scale : Fin 3 → ℤ} {c : Cell} {f : Conf ℝ}

/-- Entries of the lists are images of the crystal. -/
theorem entry_image (hf : Built false cut scale c f) {e : Entry ℝ} (he : e ∈ entries f) :
    ∃ i m, i < c.sites.length ∧ m ∈ Others c i ∧ e.own = c.start + i ∧ e.otyp = (c.site i).typ ∧ e.n = entryOf c i m ∧
      e.n.r = gapTo c i m ∧ gapTo c i m ≠ 0 := by
  classical
  unfold entries at he
  obtain ⟨i, a, h1, h2, h3, h4⟩ := mem_entriesFrom he
  have hl := hf.lists i a h1
  have hi : i < c.sites.length := by
    rw [← hf.count]
    exact (List.getElem?_eq_some_iff.1 h1).1
  unfold neighbours at hl
  simp only at hl
  split at hl
  · cases hl
  · next hov =>
    simp only [Except.ok.injEq] at hl
    rw [← hl, List.mem_map] at h4
    obtain ⟨m, hm, hme⟩ := h4
    rw [List.mem_filter] at hm
    have hm0 := hm.1
    rw [mem_visited] at hm0
    refine ⟨i, m, hi, ⟨hm0.1, hm0.2.2.2⟩, by rw [h2, hf.start], by rw [h3, hf.typ i a h1], hme.symm, ?_, ?_⟩
    · rw [← hme, entryOf_r]; rfl
    · intro h0
      exact hov ⟨m, hm.1, by rw [dist_eq_length]; exact h0⟩

/-- What atom and image see of each other. -/
theorem others_back {i : Nat} (hi : i < c.sites.length) {m : Image} (hm : m ∈ Others c i) :
    (⟨i, fun k => -m.n k⟩ : Image) ∈ Others c m.j := by
  refine ⟨hi, ?_⟩
  rintro ⟨e1, e2⟩
  apply hm.2
  refine ⟨e1.symm, ?_⟩
  funext k
  have := congrFun e2 k
  simpa using this

theorem clear_pairSmooth (hf : Built false cut scale c f) {P : Pots ℝ} (h : PairClear P c) {ts : List Node}
    {x : Nat → V3 ℝ} (hp : place f ts x = f) : PairSmooth P f ts x := by
  intro e he
  rw [hp] at he
  obtain ⟨i, m, hi, hm, -, -, h3, h4, h5⟩ := entry_image hf he
  have hs := h i hi m hm
  have hcol : e.n.col0 = pairColumn c i m.j := by rw [h3]; rfl
  rw [hcol, h4]
  exact ⟨h5, hs.1, hs.2⟩

theorem clear_transferSmooth (hf : Built false cut scale c f) {P : EamPots ℝ} (h : TransferClear P c) {ts : List Node}
    {x : Nat → V3 ℝ} (hp : place f ts x = f) : TransferSmooth P f ts x := by
  intro e he
  rw [hp] at he
  obtain ⟨i, m, hi, hm, -, h2, h3, h4, h5⟩ := entry_image hf he
  have hs := h i hi m hm
  have hb := h m.j hm.1 _ (others_back hi hm)
  have hg : gapTo c m.j ⟨i, fun k => -m.n k⟩ = gapTo c i m := length_back c i m
  rw [hg] at hb
  have ht : e.n.typ = (c.site m.j).typ := by rw [h3]; rfl
  rw [ht, h2, h4]
  intro t hmem
  simp only [List.mem_cons, List.not_mem_nil, or_false] at hmem
  rcases hmem with rfl | rfl
  · exact hs
  · exact hb

/-- Density in the crystal and in the lists. -/
theorem lattice_density (hr : Ready edge cut scale c) (hf : Built false cut scale c f)
    (hsym : ∀ s t, cut.rcut s t = cut.rcut t s) (P : EamPots ℝ) (hreach : TransferReach cut P c) (i : Nat)
    (hi : i < c.sites.length) : latticeDensity P c i = totalDensity P f (c.start + i) := by
  rw [half_density hr hf hsym P i hi, (readyLists hr).around_eq hi]
  unfold latticeDensity
  rw [(readyLists hr).latticeSum_eq c rfl hi]
  intro m hm hw
  unfold transfer
  rw [if_neg]
  rw [not_lt]
  refine (hreach i hi m.j hm.1).trans ?_
  by_contra hle
  rw [not_le] at hle
  exact hw ⟨hm.1, Or.inl rfl, hm.2, hle.le⟩

/-- Pair energy of the crystal and the sum up to the cutoff of the lists. -/
theorem lattice_pair (hr : Ready edge cut scale c) (P : Pots ℝ) (hreach : PairReach cut P c) :
    latticePair P c = crystalPair cut P c := by
  unfold latticePair crystalPair
  apply Finset.sum_congr rfl
  intro i hi
  rw [Finset.mem_range] at hi
  rw [(readyLists hr).around_eq hi, (readyLists hr).latticeSum_eq c rfl hi]
  intro m hm hw
  unfold phi
  rw [if_neg]
  rw [not_lt]
  refine (hreach i hi m.j hm.1).trans ?_
  by_contra hle
  rw [not_le] at hle
  exact hw ⟨hm.1, Or.inl rfl, hm.2, hle.le⟩

theorem clear_embedSmooth (hr : Ready edge cut scale c) (hf : Built false cut scale c f)
    (hsym : ∀ s t, cut.rcut s t = cut.rcut t s) {b : Build} {P : EamPots ℝ} (hreach : TransferReach cut P c)
    (h : EmbedClear b P c) {H : Nat → List Image} {x : Nat → V3 ℝ} (hp : place f (nodesFrom c H 0 f.atoms) x = f) :
    EmbedSmooth b P f (nodesFrom c H 0 f.atoms) x := by
  intro j n hj
  rw [hp]
  rw [nodesFrom_getElem?, Option.map_eq_some_iff] at hj
  obtain ⟨a, ha, rfl⟩ := hj
  have hi : j < c.sites.length := by
    rw [← hf.count]
    exact (List.getElem?_eq_some_iff.1 ha).1
  have := h j hi
  rw [lattice_density hr hf hsym P hreach j hi] at this
  rw [hf.start]
  simp only [hf.typ j a ha]
  exact this

theorem nodes_embed (hr : Ready edge cut scale c) (hf : Built false cut scale c f)
    (hsym : ∀ s t, cut.rcut s t = cut.rcut t s) {b : Build} {P : EamPots ℝ} (hreach : TransferReach cut P c)
    (h : EmbedClear b P c) {H : Nat → List Image} {x : Nat → V3 ℝ} (hp : place f (nodesFrom c H 0 f.atoms) x = f) :
    ∀ j n, (nodesFrom c H 0 f.atoms)[j]? = some n →
      HasDerivAt (fun y => (embed b P (P.paircol + P.ntypes + n.typ) y).value) (embGrad b P f (f.start + j))
        (totalDensity P (place f (nodesFrom c H 0 f.atoms) x) (f.start + j)) := by
  intro j n hj
  have h1 := clear_embedSmooth hr hf hsym hreach h hp j n hj
  refine h1.congr_deriv ?_
  rw [nodesFrom_getElem?, Option.map_eq_some_iff] at hj
  obtain ⟨a, ha, rfl⟩ := hj
  rw [hp, embGrad_isGradF b P f j a ha]
  rfl

/-! ### Derivatives of the lattice sums -/

theorem pair_force (hr : Ready edge cut scale c) (hf : Built false cut scale c f)
    (hsym : ∀ s t, cut.rcut s t = cut.rcut t s) (P : Pots ℝ) (hreach : PairReach cut P c) (hs : PairClear P c) (j : Nat)
    (hj : j < c.sites.length) (k : Fin 3) :
    HasDerivAt (fun y => latticePair P (displaced c j k y)) (-totalForce (pairSlope P) f (c.start + j) k)
      ((c.site j).pos k) := by
  obtain ⟨H, h1, h2, h3⟩ := built_lists hr hf
  have hp := place_nodes hf h3
  have hev := (deform_displaced c j k hj).pair hr hf hsym h1 h2 (along_displaced c j k hj) P hreach
  have hd := hasDerivAt_totalPair P f (nodesFrom c H 0 f.atoms) (posOf c) (c.start + j) k (clear_pairSmooth hf hs hp)
  have hx : posOf c (c.start + j) k = (c.site j).pos k := by unfold posOf; rw [Nat.add_sub_cancel_left]
  rw [hp, hx] at hd
  refine hd.congr_of_eventuallyEq ?_
  filter_upwards [hev] with t ht
  rw [ht, placeWith_reach]

theorem pair_stress (hr : Ready edge cut scale c) (hf : Built false cut scale c f)
    (hsym : ∀ s t, cut.rcut s t = cut.rcut t s) (P : Pots ℝ) (hreach : PairReach cut P c) (hs : PairClear P c) (k : Fin 6) :
    HasDerivAt (fun e => latticePair P (strainedCell c (voigt k).2 (voigt k).1 e)) (-totalStress (pairSlope P) f k) 0 := by
  obtain ⟨H, h1, h2, h3⟩ := built_lists hr hf
  have hp := place_nodes hf h3
  have hev := (deform_strained c (voigt k).2 (voigt k).1).pair hr hf hsym h1 h2 (along_strained c (voigt k).2 (voigt k).1) P hreach
  have hM := straining_now (posOf c) (voigt k).2 (voigt k).1
  have hd := rate_pair (straining (posOf c) (voigt k).2 (voigt k).1) P f (nodesFrom c H 0 f.atoms)
    (pairSmooth_now (clear_pairSmooth hf hs hp) hM)
  rw [virial_along, hp] at hd
  exact hd.congr_of_eventuallyEq hev

variable {b : Build} {P : EamPots ℝ}

theorem eam_force (hr : Ready edge cut scale c) (hf : Built false cut scale c f)
    (hsym : ∀ s t, cut.rcut s t = cut.rcut t s) (hpc : P.paircol = c.paircol) (h1 : PairReach cut P.toPots c)
    (h2 : TransferReach cut P c) (hs : PairClear P.toPots c) (ht : TransferClear P c) (he : EmbedClear b P c) (j : Nat)
    (hj : j < c.sites.length) (k : Fin 3) :
    HasDerivAt (fun y => latticeEam b P (displaced c j k y)) (-totalForce (eamFullSlope b P f) f (c.start + j) k)
      ((c.site j).pos k) := by
  obtain ⟨H, g1, g2, g3⟩ := built_lists hr hf
  have hp := place_nodes hf g3
  obtain ⟨hh, -⟩ := C23_half cut scale c f hf P hpc
  have hev := (deform_displaced c j k hj).eam hr hf hsym g1 g2 (along_displaced c j k hj) b P h1 h2
  have hsm := clear_pairSmooth hf hs hp
  have hd1 := hasDerivAt_totalPair P.toPots f (nodesFrom c H 0 f.atoms) (posOf c) (c.start + j) k hsm
  have hd2 := hasDerivAt_embedding b P f (nodesFrom c H 0 f.atoms) (posOf c) (c.start + j) k (fun e he => (hsm e he).1)
    (clear_transferSmooth hf ht hp) (by rw [hp]; exact hh) (embGrad b P f) (nodes_embed hr hf hsym h2 he hp)
  have hx : posOf c (c.start + j) k = (c.site j).pos k := by unfold posOf; rw [Nat.add_sub_cancel_left]
  have hd := hd1.add hd2
  rw [hp, hx] at hd
  refine (hd.congr_of_eventuallyEq ?_).congr_deriv ?_
  · filter_upwards [hev] with t ht
    rw [ht, placeWith_reach]
    rfl
  · have := congrFun (Verif.Force.totalForce_add (pairSlope P.toPots) (eamSlope P (embGrad b P f)) f (c.start + j)) k
    rw [Pi.add_apply] at this
    rw [← neg_add, ← this]
    rfl

theorem eam_stress (hr : Ready edge cut scale c) (hf : Built false cut scale c f)
    (hsym : ∀ s t, cut.rcut s t = cut.rcut t s) (hpc : P.paircol = c.paircol) (h1 : PairReach cut P.toPots c)
    (h2 : TransferReach cut P c) (hs : PairClear P.toPots c) (ht : TransferClear P c) (he : EmbedClear b P c) (k : Fin 6) :
    HasDerivAt (fun e => latticeEam b P (strainedCell c (voigt k).2 (voigt k).1 e))
      (-totalStress (eamFullSlope b P f) f k) 0 := by
  obtain ⟨H, g1, g2, g3⟩ := built_lists hr hf
  have hp := place_nodes hf g3
  obtain ⟨hh, hc⟩ := C23_half cut scale c f hf P hpc
  have hev := (deform_strained c (voigt k).2 (voigt k).1).eam hr hf hsym g1 g2 (along_strained c (voigt k).2 (voigt k).1) b P h1 h2
  have hM := straining_now (posOf c) (voigt k).2 (voigt k).1
  have hpl := place_eq_placeWith f (nodesFrom c H 0 f.atoms) (posOf c) hM
  have hsm := clear_pairSmooth hf hs hp
  have hd1 := rate_pair (straining (posOf c) (voigt k).2 (voigt k).1) P.toPots f (nodesFrom c H 0 f.atoms) (pairSmooth_now hsm hM)
  have hd2 := rate_embedding (straining (posOf c) (voigt k).2 (voigt k).1) b P f (nodesFrom c H 0 f.atoms)
    (transferSmooth_now (fun e he => (hsm e he).1) (clear_transferSmooth hf ht hp) hM) (by rw [hpl, hp]; exact hh)
    (by rw [hpl, hp]; exact hc) (embGrad b P f) (by rw [hpl]; exact nodes_embed hr hf hsym h2 he hp)
  have hd := hd1.add hd2
  rw [virial_along, virial_along, hp] at hd
  refine (hd.congr_of_eventuallyEq hev).congr_deriv ?_
  have := congrFun (Verif.Force.totalStress_add (pairSlope P.toPots) (eamSlope P (embGrad b P f)) f) k
  rw [Pi.add_apply] at this
  rw [← neg_add, ← this]
  rfl

end

/-! ### The claims -/

section
variable (edge : Fin 3 → V3 ℝ) (cut : Cutoffs) (scale : Fin 3 → ℤ) (c : Cell) (f : Conf ℝ)
  (hr : Ready edge cut scale c) (hf : Built false cut scale c f) (hsym : ∀ s t, cut.rcut s t = cut.rcut t s)
include hr hf hsym

/-- **Pair potentials, one crystal.** Energy, force on each atom and stresses in the force vector. -/
theorem C100_pair (b : Build) (P : Pots ℝ) (hreach : PairReach cut P c) (hs : PairClear P c) (ew sw : ℝ) (ci : Nat) (fv : FV ℝ) :
    (pairConf b P ew sw ci f fv).1.energy ci = (f.chem + latticePair P c) / (c.sites.length : ℝ) - f.energy0 ∧
    (f.uf = true → ∀ j a, f.atoms[j]? = some a → ∀ k, DifferentiableAt ℝ (fun y => latticePair P (displaced c j k y)) ((c.site j).pos k) ∧
      (pairConf b P ew sw ci f fv).1.force (c.start + j) k =
        (crystalForce (latticePair P) c j k - f.force0 (c.start + j) k) / forceScale b a) ∧
    (b.stress = true → f.uf = true → f.us = true → ∀ k,
      DifferentiableAt ℝ (fun e => latticePair P (strainedCell c (voigt k).2 (voigt k).1 e)) 0 ∧
      (pairConf b P ew sw ci f fv).1.stress ci k = crystalVirial (latticePair P) c k / f.vol - f.stress0 k) := by
  have hh := (C23_half cut scale c f hf ⟨P, c.paircol, c.ntypes, fun _ _ => (0, 0)⟩ rfl).1
  obtain ⟨-, p2, -, p4, -⟩ := pairConf_spec b P ew sw ci f hh fv
  refine ⟨?_, ?_, ?_⟩
  · rw [C21_pair edge cut scale c f hr hf hsym, lattice_pair hr P hreach]
  · intro hu j a ha k
    have hj : j < c.sites.length := by rw [← hf.count]; exact (List.getElem?_eq_some_iff.1 ha).1
    have hd := pair_force hr hf hsym P hreach hs j hj k
    refine ⟨hd.differentiableAt, ?_⟩
    unfold crystalForce
    rw [hd.deriv, neg_neg, ← hf.start, p2 j a ha, if_pos hu, scaled_eq]
    rfl
  · intro hb hu hus k
    have hd := pair_stress hr hf hsym P hreach hs k
    refine ⟨hd.differentiableAt, ?_⟩
    unfold crystalVirial
    rw [hd.deriv, neg_neg, p4, if_pos hb, Function.update_self, hu, hus]
    rfl

/-- **EAM potentials, one crystal.** -/
theorem C100_eam (b : Build) (P : EamPots ℝ) (hpc : P.paircol = c.paircol) (h1 : PairReach cut P.toPots c)
    (h2 : TransferReach cut P c) (hs : PairClear P.toPots c) (ht : TransferClear P c) (he : EmbedClear b P c) (ew sw : ℝ) (ci : Nat)
    (s : EamState ℝ) :
    (eamConf b P ew sw ci f s).1.fv.energy ci = latticeEam b P c / (c.sites.length : ℝ) - f.energy0 ∧
    (f.uf = true → ∀ j a, f.atoms[j]? = some a → ∀ k, DifferentiableAt ℝ (fun y => latticeEam b P (displaced c j k y)) ((c.site j).pos k) ∧
      (eamConf b P ew sw ci f s).1.fv.force (c.start + j) k =
        (crystalForce (latticeEam b P) c j k - f.force0 (c.start + j) k) / forceScale b a) ∧
    (b.stress = true → f.uf = true → f.us = true → ∀ k,
      DifferentiableAt ℝ (fun e => latticeEam b P (strainedCell c (voigt k).2 (voigt k).1 e)) 0 ∧
      (eamConf b P ew sw ci f s).1.fv.stress ci k = crystalVirial (latticeEam b P) c k / f.vol - f.stress0 k) := by
  obtain ⟨hh, hc⟩ := C23_half cut scale c f hf P hpc
  obtain ⟨p0, -, -, p2, -, p4, -⟩ := eamConf_spec b P ew sw ci f hh hc s
  have hcg := eamFullSlope_congr hh p0
  refine ⟨?_, ?_, ?_⟩
  · rw [C21_eam edge cut scale c f hr hf hsym b P hpc]
    unfold latticeEam
    rw [lattice_pair hr P.toPots h1]
    congr 3
    apply Finset.sum_congr rfl
    intro i hi
    rw [Finset.mem_range] at hi
    rw [lattice_density hr hf hsym P h2 i hi, half_density hr hf hsym P i hi]
  · intro hu j a ha k
    have hj : j < c.sites.length := by rw [← hf.count]; exact (List.getElem?_eq_some_iff.1 ha).1
    have hd := eam_force hr hf hsym hpc h1 h2 hs ht he j hj k
    refine ⟨hd.differentiableAt, ?_⟩
    unfold crystalForce
    rw [hd.deriv, neg_neg, ← hf.start, p2 j a ha, if_pos hu, scaled_eq, ← totalForce_congr hcg]
    rfl
  · intro hb hu hus k
    have hd := eam_stress hr hf hsym hpc h1 h2 hs ht he k
    refine ⟨hd.differentiableAt, ?_⟩
    unfold crystalVirial
    rw [hd.deriv, neg_neg, p4, if_pos hb, Function.update_self, hu, hus, totalStress_congr hcg]
    rfl

end

/-- A right-handed cell with its configuration, as the program has set them up: box, number of images and volume computed from the
cell vectors, neighbour lists from the cutoffs. -/
structure Prepared (cut : Cutoffs) (c : Cell) (f : Conf ℝ) : Prop where
  made : ∃ edge scale, Ready edge cut scale c ∧ makeBox edge = .ok (c.box, f.vol) ∧ 0 < (Matrix.of edge).det ∧
    Built false cut scale c f

theorem Prepared.vol {cut : Cutoffs} {c : Cell} {f : Conf ℝ} (h : Prepared cut c f) : f.vol = cellVolume c.box.edge := by
  obtain ⟨edge, scale, -, hm, hp, -⟩ := h.made
  obtain ⟨h1, h2, -⟩ := (C24_partial edge).2 _ _ hm
  unfold cellVolume
  rw [h1, h2, abs_of_pos hp]

section
variable {edge : Fin 3 → V3 ℝ} {cut : Cutoffs} {scale : Fin 3 → ℤ} {c : Cell} {f : Conf ℝ}

/-- The contribution of a configuration with forces, energy and stresses of the crystal. -/
theorem error_crystal (b : Build) (E : Cell → ℝ) (slope : Entry ℝ → ℝ) (en ew sw : ℝ)
    (hen : en / (f.atoms.length : ℝ) = E c / (c.sites.length : ℝ)) (hst : f.start = c.start)
    (hcnt : f.atoms.length = c.sites.length) (hF : ∀ j < c.sites.length, ∀ k, crystalForce E c j k = totalForce slope f (c.start + j) k)
    (hS : ∀ k, crystalVirial E c k = totalStress slope f k) :
    confError b slope en ew sw f = crystalError b E ew sw f.vol c f := by
  unfold confError crystalError forceError energyDev stressDev
  congr 1
  · congr 1
    · split
      · congr 2
        apply List.map_congr_left
        rintro ⟨a, j⟩ hj
        have hj' : j < c.sites.length := by
          rw [← hcnt]
          simpa using (List.mem_zipIdx hj).2.1
        unfold deviation
        simp only [hF j hj', hst]
      · rfl
    · rw [hen]
  · split
    · congr 1
      apply Finset.sum_congr rfl
      intro k _
      rw [hS]
    · rfl

theorem error_pair (hr : Ready edge cut scale c) (hf : Built false cut scale c f) (hsym : ∀ s t, cut.rcut s t = cut.rcut t s)
    (b : Build) (P : Pots ℝ) (hreach : PairReach cut P c) (hs : PairClear P c) (ew sw : ℝ) :
    confError b (pairSlope P) (pairTotal P f) ew sw f =
      crystalError b (fun x => f.chem + latticePair P x) ew sw f.vol c f := by
  apply error_crystal b (fun x => f.chem + latticePair P x) (pairSlope P) _ ew sw _ hf.start hf.count
  · intro j hj k
    unfold crystalForce
    rw [((pair_force hr hf hsym P hreach hs j hj k).const_add f.chem).deriv, neg_neg]
  · intro k
    unfold crystalVirial
    rw [((pair_stress hr hf hsym P hreach hs k).const_add f.chem).deriv, neg_neg]
  · rw [lattice_pair hr P hreach, hf.count, pairTotal, half_pair hr hf hsym]

theorem error_eam (hr : Ready edge cut scale c) (hf : Built false cut scale c f) (hsym : ∀ s t, cut.rcut s t = cut.rcut t s)
    (b : Build) (P : EamPots ℝ) (hpc : P.paircol = c.paircol) (h1 : PairReach cut P.toPots c)
    (h2 : TransferReach cut P c) (hs : PairClear P.toPots c) (ht : TransferClear P c) (he : EmbedClear b P c) (ew sw : ℝ) :
    confError b (eamFullSlope b P f) (eamTotal b P f) ew sw f = crystalError b (latticeEam b P) ew sw f.vol c f := by
  obtain ⟨hh, hc⟩ := C23_half cut scale c f hf P hpc
  apply error_crystal b (latticeEam b P) (eamFullSlope b P f) _ ew sw _ hf.start hf.count
  · intro j hj k
    unfold crystalForce
    rw [(eam_force hr hf hsym hpc h1 h2 hs ht he j hj k).deriv, neg_neg]
  · intro k
    unfold crystalVirial
    rw [(eam_stress hr hf hsym hpc h1 h2 hs ht he k).deriv, neg_neg]
  · have e1 := (C100_eam edge cut scale c f hr hf hsym b P hpc h1 h2 hs ht he ew sw 0
      ⟨⟨fun _ => 0, fun _ => 0, fun _ _ => 0, fun _ => 0⟩, fun _ => 0, fun _ => 0⟩).1
    rw [(C19_eam b P ew sw 0 f hh hc _).2] at e1
    exact sub_left_injective e1

end

/-- **Objective, pair potentials.** From cells, positions and table to the objective: the weighted squared deviations of forces,
energies and stresses of the infinite crystals. -/
theorem C100_pair_objective (cut : Cutoffs) (hsym : ∀ s t, cut.rcut s t = cut.rcut t s) (b : Build) (P : Pots ℝ) (ew sw w : ℝ)
    (qs : List (Bound ℝ)) (eopp univ : List (Nat × ℝ)) (L : List (Cell × Conf ℝ))
    (hL : ∀ x ∈ L, Prepared cut x.1 x.2 ∧ PairReach cut P x.1 ∧ PairClear P x.1) (v : PairVec ℝ) :
    (b.apot = false → ∃ v', pairObjective b P ew sw w qs eopp univ (L.map Prod.snd) v =
      .ok (v', (L.map fun x => crystalError b (fun y => x.2.chem + latticePair P y) ew sw (cellVolume x.1.box.edge) x.1 x.2).sum)) ∧
    (b.apot = true → ∀ v' y, pairObjective b P ew sw w qs eopp univ (L.map Prod.snd) v = .ok (v', y) →
      y = (L.map fun x => crystalError b (fun y => x.2.chem + latticePair P y) ew sw (cellVolume x.1.box.edge) x.1 x.2).sum +
        totalPenalty w qs eopp univ) := by
  have hh : ∀ g ∈ L.map Prod.snd, HalfList g := by
    intro g hg
    obtain ⟨x, hx, rfl⟩ := List.mem_map.1 hg
    obtain ⟨edge, scale, -, -, -, hb⟩ := (hL x hx).1.made
    exact (C23_half cut scale x.1 x.2 hb ⟨P, x.1.paircol, x.1.ntypes, fun _ _ => (0, 0)⟩ rfl).1
  have hsum : ((L.map Prod.snd).map fun g => confError b (pairSlope P) (pairTotal P g) ew sw g) =
      L.map fun x => crystalError b (fun y => x.2.chem + latticePair P y) ew sw (cellVolume x.1.box.edge) x.1 x.2 := by
    rw [List.map_map]
    apply List.map_congr_left
    intro x hx
    obtain ⟨h1, h2, h3⟩ := hL x hx
    obtain ⟨edge, scale, hr, -, -, hb⟩ := h1.made
    rw [Function.comp_apply, error_pair hr hb hsym b P h2 h3, h1.vol]
  rw [← hsum]
  exact ⟨fun hb => C18_pair b hb P ew sw w qs eopp univ _ hh v, fun hb v' y h => C18_pair_apot b hb P ew sw w qs eopp univ _ hh v v' y h⟩

/-- **Objective, EAM.** Besides the constraints (limits of the density, gauge) and punishments. -/
theorem C100_eam_objective (cut : Cutoffs) (hsym : ∀ s t, cut.rcut s t = cut.rcut t s) (b : Build) (P : EamPots ℝ) (ew sw w : ℝ)
    (qs : List (Bound ℝ)) (eopp univ : List (Nat × ℝ)) (dummy0 : Nat → ℝ) (natoms : Nat) (L : List (Cell × Conf ℝ))
    (hL : ∀ x ∈ L, Prepared cut x.1 x.2 ∧ P.paircol = x.1.paircol ∧ PairReach cut P.toPots x.1 ∧ TransferReach cut P x.1 ∧
      PairClear P.toPots x.1 ∧ TransferClear P x.1 ∧ EmbedClear b P x.1)
    (v v' : EamVec ℝ) (y : ℝ) (h : eamObjective b P ew sw w qs eopp univ dummy0 natoms (L.map Prod.snd) v = .ok (v', y)) :
    y = (L.map fun x => crystalError b (latticeEam b P) ew sw (cellVolume x.1.box.edge) x.1 x.2 + limitError b P x.2).sum +
      (if b.apot = true then totalPenalty w qs eopp univ else 0) + gaugeError b P dummy0 natoms (L.map Prod.snd) := by
  have hh : ∀ g ∈ L.map Prod.snd, HalfList g ∧ EamColumns P g := by
    intro g hg
    obtain ⟨x, hx, rfl⟩ := List.mem_map.1 hg
    obtain ⟨edge, scale, -, -, -, hb⟩ := (hL x hx).1.made
    exact C23_half cut scale x.1 x.2 hb P (hL x hx).2.1
  have hsum : ((L.map Prod.snd).map fun g => confError b (eamFullSlope b P g) (eamTotal b P g) ew sw g + limitError b P g) =
      L.map fun x => crystalError b (latticeEam b P) ew sw (cellVolume x.1.box.edge) x.1 x.2 + limitError b P x.2 := by
    rw [List.map_map]
    apply List.map_congr_left
    intro x hx
    obtain ⟨g1, g2, g3, g4, g5, g6, g7⟩ := hL x hx
    obtain ⟨edge, scale, hr, -, -, hb⟩ := g1.made
    rw [Function.comp_apply, error_eam hr hb hsym b P g2 g3 g4 g5 g6 g7, g1.vol]
  rw [C18_eam b P ew sw w qs eopp univ dummy0 natoms _ hh v v' y h, hsum]

/-- **Left-handed cells: violated.** The stresses of a crystal given with a left-handed cell are compared with the wrong sign. -/
theorem C100_left_handed_violated (edge : Fin 3 → V3 ℝ) (cut : Cutoffs) (scale : Fin 3 → ℤ) (c : Cell) (f : Conf ℝ)
    (hr : Ready edge cut scale c) (hf : Built false cut scale c f) (hsym : ∀ s t, cut.rcut s t = cut.rcut t s)
    (hm : makeBox edge = .ok (c.box, f.vol)) (hneg : (Matrix.of edge).det < 0) (b : Build) (P : Pots ℝ)
    (hreach : PairReach cut P c) (hs : PairClear P c) (ew sw : ℝ) (ci : Nat) (fv : FV ℝ) (hb : b.stress = true) (hu : f.uf = true)
    (hus : f.us = true) (k : Fin 6) :
    (pairConf b P ew sw ci f fv).1.stress ci k = -(crystalVirial (latticePair P) c k / cellVolume c.box.edge) - f.stress0 k := by
  rw [((C100_pair edge cut scale c f hr hf hsym b P hreach hs ew sw ci fv).2.2 hb hu hus k).2]
  obtain ⟨h1, h2, -⟩ := (C24_partial edge).2 _ _ hm
  unfold cellVolume
  rw [h1, h2, abs_of_neg hneg, div_neg, neg_neg]

/-! ### Cutoffs of the program -/

open Verif.Cut in
/-- The cutoffs which the program computes from the ends of the functions have all the properties needed. -/
theorem cutoffs_good (kind : Kind) (coulomb : Bool) (n : Nat) (stop : Nat → ℝ) (dpCut : ℝ) (before : Nat → ℝ) :
    (∀ s t, (toCutoffs n (rcut kind coulomb n stop dpCut before)).rcut s t =
      (toCutoffs n (rcut kind coulomb n stop dpCut before)).rcut t s) := by
  intro s t
  simp only [toCutoffs]
  by_cases h : s < n ∧ t < n
  · rw [if_pos h, if_pos ⟨h.2, h.1⟩, C96_symmetric kind coulomb n stop dpCut before s t h.1 h.2]
  · rw [if_neg h, if_neg (fun h' => h ⟨h'.2, h'.1⟩)]

open Verif.Cut in
theorem reach_pair (kind : Kind) (hk : kind = .pair ∨ kind = .eam) (coulomb : Bool) (n : Nat) (P : Pots ℝ) (dpCut : ℝ) (before : Nat → ℝ) (c : Cell)
    (hn : c.ntypes = n) (ht : ∀ i < c.sites.length, (c.site i).typ < n) :
    PairReach (toCutoffs n (rcut kind coulomb n P.fin dpCut before)) P c := by
  intro i hi j hj
  simp only [toCutoffs]
  rw [if_pos ⟨ht i hi, ht j hj⟩]
  refine C96_reach kind (by rcases hk with rfl | rfl <;> simp) coulomb n P.fin dpCut before _ (ht i hi) _ (ht j hj) _ ?_
  unfold pairColumn
  rw [hn]
  rcases hk with rfl | rfl <;> simp [columns]

open Verif.Cut in
theorem reach_transfer (coulomb : Bool) (n : Nat) (P : EamPots ℝ) (dpCut : ℝ) (before : Nat → ℝ) (c : Cell)
    (hp : P.paircol = n * (n + 1) / 2) (ht : ∀ i < c.sites.length, (c.site i).typ < n) :
    TransferReach (toCutoffs n (rcut .eam coulomb n P.fin dpCut before)) P c := by
  intro i hi j hj
  simp only [toCutoffs]
  rw [if_pos ⟨ht i hi, ht j hj⟩]
  refine C96_reach .eam (by simp) coulomb n P.fin dpCut before _ (ht i hi) _ (ht j hj) _ ?_
  simp [columns, hp]

/-! ### Tables -/

open Verif.SplineInit Verif.Splines Polynomial

/-- A function made of pieces which join smoothly has the derivative of its pieces. -/
theorem pieces_deriv {x : ℕ → ℝ} {p : ℕ → ℝ[X]} {n : ℕ} {f g : ℝ → ℝ} (hx : ∀ k < n, x k < x (k + 1))
    (hf : ∀ k < n, ∀ r, x k ≤ r → r < x (k + 1) → f r = (p k).eval r)
    (hg : ∀ k < n, ∀ r, x k ≤ r → r < x (k + 1) → g r = (derivative (p k)).eval r)
    (h0 : ∀ k, k + 1 < n → (p k).eval (x (k + 1)) = (p (k + 1)).eval (x (k + 1)))
    (h1 : ∀ k, k + 1 < n → (derivative (p k)).eval (x (k + 1)) = (derivative (p (k + 1))).eval (x (k + 1)))
    {r : ℝ} (hr0 : x 0 < r) (hrn : r < x n) : HasDerivAt f (g r) r := by
  have hk : ∃ k < n, x k ≤ r ∧ r < x (k + 1) := by
    clear hf hg h0 h1 hx
    induction n with
    | zero => exact absurd hr0 (not_lt.2 hrn.le)
    | succ n ih =>
      rcases lt_or_ge r (x n) with h | h
      · obtain ⟨k, a, b⟩ := ih h
        exact ⟨k, by omega, b⟩
      · exact ⟨n, by omega, h, hrn⟩
  obtain ⟨k, hkn, hk1, hk2⟩ := hk
  rw [hg k hkn r hk1 hk2]
  rcases hk1.lt_or_eq with hlt | heq
  · refine ((p k).hasDerivAt r).congr_of_eventuallyEq ?_
    filter_upwards [Ioo_mem_nhds hlt hk2] with s hs
    exact hf k hkn s hs.1.le hs.2
  · obtain ⟨j, rfl⟩ : ∃ j, k = j + 1 := by
      cases k with
      | zero => exact absurd heq hr0.ne
      | succ j => exact ⟨j, rfl⟩
    have hr1 : HasDerivWithinAt f ((derivative (p (j + 1))).eval r) (Set.Ici r) r := by
      refine ((p (j + 1)).hasDerivAt r).hasDerivWithinAt.congr_of_eventuallyEq ?_ (hf _ hkn r hk1 hk2)
      filter_upwards [mem_nhdsWithin_of_mem_nhds (Iio_mem_nhds hk2), self_mem_nhdsWithin] with s hs1 hs2
      exact hf _ hkn s (hk1.trans hs2) hs1
    have hr2 : HasDerivWithinAt f ((derivative (p (j + 1))).eval r) (Set.Iic r) r := by
      have e := h1 j hkn
      rw [heq] at e
      rw [← e]
      refine ((p j).hasDerivAt r).hasDerivWithinAt.congr_of_eventuallyEq ?_ ?_
      · have hj := hx j (by omega)
        rw [heq] at hj
        filter_upwards [mem_nhdsWithin_of_mem_nhds (Ioi_mem_nhds hj), self_mem_nhdsWithin] with s hs1 hs2
        rcases (show s ≤ r from hs2).lt_or_eq with h | h
        · exact hf j (by omega) s (le_of_lt hs1) (by rw [heq]; exact h)
        · subst h
          rw [hf _ hkn s hk1 hk2]
          have := h0 j hkn
          rw [heq] at this
          exact this.symm
      · rw [hf _ hkn r hk1 hk2]
        have := h0 j hkn
        rw [heq] at this
        exact this.symm
    have := hr2.union hr1
    rw [Set.Iic_union_Ici] at this
    exact this.hasDerivAt Filter.univ_mem

/-- The delivered slope is the derivative of the delivered function, everywhere inside the table, at the knots too. -/
theorem table_deriv {fmt : Format} {t : Cols ℝ} {xi d : ℕ → ℝ} {col : ℕ} {l e : EndCond ℝ} (h : Good (isGeneral fmt) t col)
    (hs : ServesSpline fmt t xi d col l e) {r : ℝ} (h1 : t.beg col < r) (h2 : r < t.fin col) :
    HasDerivAt ((tablePots fmt t xi d).val col) ((tablePots fmt t xi d).grad col r) r := by
  obtain ⟨p, hp, hq⟩ := hs
  have hk := h.knots
  have hmono : ∀ k < t.last col - t.first col, knots (isGeneral fmt) t col k < knots (isGeneral fmt) t col (k + 1) := by
    intro k hk'
    unfold knots
    split
    · next hg => exact (h.gen hg).mono _ (Nat.le_add_right _ _) (by simp only [Cols.col]; omega)
    · next hg =>
      have hst : 0 < t.step col := (h.ed (by simpa using hg)).step_pos
      push_cast
      linarith
  have hbeg : knots (isGeneral fmt) t col 0 = t.beg col := by
    unfold knots
    split
    · next hg => exact (h.gen hg).beg_eq.symm
    · simp
  have hfin : knots (isGeneral fmt) t col (t.last col - t.first col) = t.fin col := by
    unfold knots
    split
    · next hg =>
      rw [Nat.add_sub_cancel' hk.le]
      exact (h.gen hg).fin_eq.symm
    · next hg =>
      have hst : t.step col = (t.fin col - t.beg col) / ((t.last col : ℝ) - (t.first col : ℝ)) := (h.ed (by simpa using hg)).step_eq
      have : ((t.last col : ℝ) - (t.first col : ℝ)) ≠ 0 := by
        have : (t.first col : ℝ) < (t.last col : ℝ) := by exact_mod_cast hk
        linarith
      rw [hst, Nat.cast_sub hk.le]
      field_simp
      ring
  refine pieces_deriv (x := knots (isGeneral fmt) t col) (p := p) (n := t.last col - t.first col) hmono ?_ ?_ ?_ ?_
    (by rw [hbeg]; exact h1) (by rw [hfin]; exact h2)
  · intro k hk' s a b
    simp only [tablePots, (hq k (by omega) s a b).1, delivered]
  · intro k hk' s a b
    simp only [tablePots, (hq k (by omega) s a b).2.1, delivered]
  · intro k hk'
    rw [hp.interp_right k (by omega), hp.interp_left (k + 1) (by omega)]
  · intro k hk'
    exact hp.smooth k (by omega)

/-- The end of column `col` is not a distance, and all distances are beyond its begin. -/
def OffEnds (t : Cols ℝ) (col : ℕ) (r : ℝ) : Prop := t.beg col < r ∧ r ≠ t.fin col

theorem table_smooth {fmt : Format} {t : Cols ℝ} {xi d : ℕ → ℝ} {col : ℕ} {l e : EndCond ℝ} (h : Good (isGeneral fmt) t col)
    (hs : ServesSpline fmt t xi d col l e) {r : ℝ} (hr : OffEnds t col r) : SmoothAt (tablePots fmt t xi d) col r :=
  ⟨hr.2, fun h2 => table_deriv h hs hr.1 h2⟩

open Verif.Cut in
/-- **From the table to the objective, pair potentials.** With the cutoffs computed from the table, `calc_forces_pair` sets up the
splines through the values `xi` and returns the objective of the infinite crystals whose atoms interact by these splines, if no
two atoms are closer than the table begins and no distance is exactly the end of a column. -/
theorem C100_table_pair {fmt : Format} (hh : Handles .pair fmt) {t : Cols ℝ} {n : ℕ}
    (hl : Layout (isGeneral fmt) t (n * (n + 1) / 2)) (xi d before : ℕ → ℝ) :
    ∃ d', refresh .pair fmt t xi (n * (n + 1) / 2) n d = .ok d' ∧
      (∀ col < n * (n + 1) / 2, ServesSpline fmt t xi d' col (endCond (xi (t.first col - 2))) (endCond 0)) ∧
      ∀ (b : Build) (ew sw w : ℝ) (qs : List (Bound ℝ)) (eopp univ : List (Nat × ℝ)) (L : List (Cell × Conf ℝ)),
        (∀ x ∈ L, Prepared (toCutoffs n (rcut .pair false n t.fin 0 before)) x.1 x.2 ∧ x.1.ntypes = n ∧
          (∀ i < x.1.sites.length, (x.1.site i).typ < n) ∧
          ∀ i < x.1.sites.length, ∀ m ∈ Others x.1 i, OffEnds t (pairColumn x.1 i m.j) (gapTo x.1 i m)) → ∀ v : PairVec ℝ,
        (b.apot = false → ∃ v', pairObjective b (tablePots fmt t xi d') ew sw w qs eopp univ (L.map Prod.snd) v =
          .ok (v', (L.map fun x => crystalError b (fun y => x.2.chem + latticePair (tablePots fmt t xi d') y) ew sw
            (cellVolume x.1.box.edge) x.1 x.2).sum)) ∧
        (b.apot = true → ∀ v' y, pairObjective b (tablePots fmt t xi d') ew sw w qs eopp univ (L.map Prod.snd) v = .ok (v', y) →
          y = (L.map fun x => crystalError b (fun y => x.2.chem + latticePair (tablePots fmt t xi d') y) ew sw
            (cellVolume x.1.box.edge) x.1 x.2).sum + totalPenalty w qs eopp univ) := by
  obtain ⟨d', e1, e2, -⟩ := C99_fresh hh (pc := n * (n + 1) / 2) (nt := n) hl xi d
  refine ⟨d', e1, fun col hc => by simpa [takesRight] using e2 col hc, ?_⟩
  intro b ew sw w qs eopp univ L hL v
  refine C100_pair_objective _ (cutoffs_good .pair false n t.fin 0 before) b (tablePots fmt t xi d') ew sw w qs eopp univ L ?_ v
  intro x hx
  obtain ⟨h1, h2, h3, h4⟩ := hL x hx
  refine ⟨h1, reach_pair .pair (Or.inl rfl) false n (tablePots fmt t xi d') 0 before x.1 h2 h3, ?_⟩
  intro i hi m hm
  have hc : pairColumn x.1 i m.j < n * (n + 1) / 2 := by
    unfold pairColumn
    rw [h2]
    exact C01_in_range (h3 i hi) (h3 m.j hm.1)
  exact table_smooth (hl.good _ hc) (e2 _ hc) (h4 i hi m hm)

/-- The density is inside the table of the embedding function (and, with analytic potentials, not so small that the analytic
function is used). -/
def InsideTable (b : Build) (t : Cols ℝ) (col : ℕ) (x : ℝ) : Prop :=
  t.beg col < x ∧ x < t.fin col ∧ (b.rescale = false → b.apot = true → 1 / 10 < x)

theorem table_embed (b : Build) {fmt : Format} {t : Cols ℝ} {n : ℕ} {ana : ℕ → ℝ → ℝ × ℝ} {xi d : ℕ → ℝ} {col : ℕ}
    {l e : EndCond ℝ} (h : Good (isGeneral fmt) t col) (hs : ServesSpline fmt t xi d col l e) {x : ℝ} (hx : InsideTable b t col x) :
    HasDerivAt (fun y => (embed b (tableEam fmt t n ana xi d) col y).value) (embed b (tableEam fmt t n ana xi d) col x).grad x := by
  have key : ∀ y, InsideTable b t col y → embed b (tableEam fmt t n ana xi d) col y =
      ⟨y, (tablePots fmt t xi d).val col y, (tablePots fmt t xi d).grad col y, 0⟩ := by
    intro y hy
    have g1 : ¬ (tableEam fmt t n ana xi d).fin col < y := not_lt.2 hy.2.1.le
    have g2 : ¬ y < (tableEam fmt t n ana xi d).beg col := not_lt.2 hy.1.le
    unfold embed
    by_cases hr : b.rescale = true
    · simp only [hr, if_true, if_neg g1, if_neg g2, add_zero]
      rfl
    · have hr' : b.rescale = false := by simpa using hr
      by_cases ha : b.apot = true
      · have g3 : ¬ (y < (tableEam fmt t n ana xi d).beg col ∨ (tableEam fmt t n ana xi d).fin col < y ∨ y < 1 / 10) := by
          rintro (h | h | h)
          · exact g2 h
          · exact g1 h
          · exact not_lt.2 (hy.2.2 hr' ha).le h
        simp only [hr, ha, if_true, if_neg g3]
        rfl
      · simp only [hr, ha, if_neg g1, if_neg g2]
        rfl
  rw [key x hx]
  refine (table_deriv h hs hx.1 hx.2.1).congr_of_eventuallyEq ?_
  have hnear : ∀ᶠ y in nhds x, InsideTable b t col y := by
    by_cases hc : b.rescale = false ∧ b.apot = true
    · filter_upwards [Ioo_mem_nhds hx.1 hx.2.1, Ioi_mem_nhds (hx.2.2 hc.1 hc.2)] with y h1 h2
      exact ⟨h1.1, h1.2, fun _ _ => h2⟩
    · filter_upwards [Ioo_mem_nhds hx.1 hx.2.1] with y h1
      exact ⟨h1.1, h1.2, fun h h' => absurd ⟨h, h'⟩ hc⟩
  filter_upwards [hnear] with y hy
  rw [key y hy]

open Verif.Cut in
/-- **From the table to the objective, EAM.** In addition the densities of the crystals have to be inside the tables of the
embedding functions. -/
theorem C100_table_eam {fmt : Format} (hh : Handles .eam fmt) {t : Cols ℝ} {n : ℕ}
    (hl : Layout (isGeneral fmt) t (n * (n + 1) / 2 + 2 * n)) (ana : ℕ → ℝ → ℝ × ℝ) (xi d before : ℕ → ℝ) :
    ∃ d', refresh .eam fmt t xi (n * (n + 1) / 2) n d = .ok d' ∧
      (∀ col < n * (n + 1) / 2 + 2 * n, ServesSpline fmt t xi d' col (endCond (xi (t.first col - 2)))
        (endCond (if n * (n + 1) / 2 + n ≤ col then xi (t.first col - 1) else 0))) ∧
      ∀ (b : Build) (ew sw w : ℝ) (qs : List (Bound ℝ)) (eopp univ : List (Nat × ℝ)) (dummy0 : ℕ → ℝ) (natoms : ℕ)
        (L : List (Cell × Conf ℝ)),
        (∀ x ∈ L, Prepared (toCutoffs n (rcut .eam false n t.fin 0 before)) x.1 x.2 ∧ x.1.ntypes = n ∧
          x.1.paircol = n * (n + 1) / 2 ∧ (∀ i < x.1.sites.length, (x.1.site i).typ < n) ∧
          (∀ i < x.1.sites.length, ∀ m ∈ Others x.1 i, OffEnds t (pairColumn x.1 i m.j) (gapTo x.1 i m) ∧
            OffEnds t (n * (n + 1) / 2 + (x.1.site m.j).typ) (gapTo x.1 i m)) ∧
          ∀ i < x.1.sites.length, InsideTable b t (n * (n + 1) / 2 + n + (x.1.site i).typ)
            (latticeDensity (tableEam fmt t n ana xi d') x.1 i)) → ∀ (v v' : EamVec ℝ) (y : ℝ),
        eamObjective b (tableEam fmt t n ana xi d') ew sw w qs eopp univ dummy0 natoms (L.map Prod.snd) v = .ok (v', y) →
        y = (L.map fun x => crystalError b (latticeEam b (tableEam fmt t n ana xi d')) ew sw (cellVolume x.1.box.edge) x.1 x.2 +
            limitError b (tableEam fmt t n ana xi d') x.2).sum +
          (if b.apot = true then totalPenalty w qs eopp univ else 0) +
          gaugeError b (tableEam fmt t n ana xi d') dummy0 natoms (L.map Prod.snd) := by
  obtain ⟨d', e1, e2, -⟩ := C99_fresh hh (pc := n * (n + 1) / 2) (nt := n) hl xi d
  refine ⟨d', e1, fun col hc => by simpa [takesRight] using e2 col hc, ?_⟩
  intro b ew sw w qs eopp univ dummy0 natoms L hL v v' y h
  refine C100_eam_objective _ (cutoffs_good .eam false n t.fin 0 before) b (tableEam fmt t n ana xi d') ew sw w qs eopp univ dummy0 natoms L ?_ v v' y h
  intro x hx
  obtain ⟨h1, h2, h3, h4, h5, h6⟩ := hL x hx
  refine ⟨h1, h3.symm, reach_pair .eam (Or.inr rfl) false n (tableEam fmt t n ana xi d').toPots 0 before x.1 h2 h4,
    reach_transfer false n (tableEam fmt t n ana xi d') 0 before x.1 rfl h4, ?_, ?_, ?_⟩
  · intro i hi m hm
    have hc : pairColumn x.1 i m.j < n * (n + 1) / 2 := by
      unfold pairColumn
      rw [h2]
      exact C01_in_range (h4 i hi) (h4 m.j hm.1)
    have hc' : pairColumn x.1 i m.j < numCols .eam (n * (n + 1) / 2) n := by simp only [numCols]; omega
    exact table_smooth (hl.good _ hc') (e2 _ hc') (h5 i hi m hm).1
  · intro i hi m hm
    have hc' : n * (n + 1) / 2 + (x.1.site m.j).typ < numCols .eam (n * (n + 1) / 2) n := by
      have := h4 m.j hm.1
      simp only [numCols]; omega
    exact table_smooth (hl.good _ hc') (e2 _ hc') (h5 i hi m hm).2
  · intro i hi
    have hc' : n * (n + 1) / 2 + n + (x.1.site i).typ < numCols .eam (n * (n + 1) / 2) n := by
      have := h4 i hi
      simp only [numCols]; omega
    exact table_embed b (hl.good _ hc') (e2 _ hc') (h6 i hi)

/-! ### A crystal meeting all hypotheses -/

/-- Columns with the knots 1/2, 1 and 3/2. -/
noncomputable def halfCols : Cols ℝ where
  first c := 2 + 5 * c
  last c := 4 + 5 * c
  beg _ := 1 / 2
  fin _ := 3 / 2
  step _ := 1 / 2
  invstep _ := 2
  xcoord _ := 0

theorem halfCols_layout (n : ℕ) : Layout false halfCols n where
  good col _ := by
    refine ⟨by simp [halfCols], fun _ => ⟨?_, ?_, ?_, ?_⟩, fun h => by cases h⟩
    · simp only [Cols.col, halfCols]; omega
    · simp only [Cols.col, halfCols]; norm_num
    · simp only [Cols.col, halfCols]; push_cast; ring_nf
    · simp only [Cols.col, halfCols]; norm_num
  sep a b hab _ := by simp only [halfCols]; omega

open Verif.Cut in
theorem thin_cutoffs (kind : Kind) (before : ℕ → ℝ) :
    (∀ s t, s < 1 → t < 1 → (toCutoffs 1 (rcut kind false 1 halfCols.fin 0 before)).rcut s t = 3 / 2) ∧
    (toCutoffs 1 (rcut kind false 1 halfCols.fin 0 before)).rcutmax = 3 / 2 := by
  have h : ∀ s t, s < 1 → t < 1 → (toCutoffs 1 (rcut kind false 1 halfCols.fin 0 before)).rcut s t = 3 / 2 := by
    intro s t hs ht
    simp only [toCutoffs]
    rw [if_pos ⟨hs, ht⟩]
    obtain ⟨-, -, h⟩ := C96_rcut kind false 1 halfCols.fin 0 before s t hs ht
    rcases h with ⟨c, -, h⟩ | ⟨h, -⟩
    · exact h
    · cases h
  refine ⟨h, ?_⟩
  obtain ⟨h1, h2, h3⟩ := C96_max 1 (rcut kind false 1 halfCols.fin 0 before) (0 : ℝ)
  have h4 := h 0 0 one_pos one_pos
  simp only [toCutoffs] at h4 ⊢
  rw [if_pos ⟨one_pos, one_pos⟩] at h4
  have h5 := h1 0 one_pos 0 one_pos
  rw [h4] at h5
  rcases h3 with h3 | ⟨a, ha, b, hb, h3⟩
  · linarith
  · obtain rfl : a = 0 := by omega
    obtain rfl : b = 0 := by omega
    rw [h3, h4]

open Verif.Cut in
theorem thin_prepared (kind : Kind) (before : ℕ → ℝ) :
    ∃ f : Conf ℝ, Prepared (toCutoffs 1 (rcut kind false 1 halfCols.fin 0 before)) thin f := by
  obtain ⟨h1, h2⟩ := thin_cutoffs kind before
  have hr : Ready (boxOf 1).edge (toCutoffs 1 (rcut kind false 1 halfCols.fin 0 before)) ![2, 1, 1] thin := by
    refine ⟨thin_ready.box, ?_, ?_, thin_ready.inside⟩
    · rw [h2]; exact thin_ready.images
    · intro s t
      rw [h2]
      by_cases h : s < 1 ∧ t < 1
      · exact (h1 s t h.1 h.2).le
      · simp only [toCutoffs]
        rw [if_neg h]
        norm_num
  obtain ⟨f, hf, -⟩ := exists_built _ _ _ _ hr (by rw [h2]; norm_num) false (by
    intro i hi m hj hne
    obtain ⟨g, hg, -⟩ := thin_built false
    rw [thin_arrow i hi m hj]
    apply length_ne_zero
    rintro ⟨e0, e1, e2⟩
    apply hne
    have hi' : i < 1 := hi
    have hj' : m.j < 1 := hj
    refine ⟨by omega, ?_⟩
    funext k
    match k with
    | 0 => exact_mod_cast e0
    | 1 => have : (m.n 1 : ℝ) = 0 := by linarith
           exact_mod_cast this
    | 2 => have : (m.n 2 : ℝ) = 0 := by linarith
           exact_mod_cast this)
  refine ⟨{ f with vol := 1 * 100 }, ⟨(boxOf 1).edge, ![2, 1, 1], hr, boxOf_made 1 one_pos, ?_, ⟨hf.start, hf.count, hf.typ, hf.lists⟩⟩⟩
  rw [((C24_partial (boxOf 1).edge).2 _ _ (boxOf_made 1 one_pos)).2.1.symm]
  norm_num

/-- Distances in the thin crystal: 1 for the two next images, at least 2 for all others. -/
theorem thin_gap (m : Image) (hm : m ∈ Others thin 0) :
    (gapTo thin 0 m = 1 ∧ (m = ⟨0, ![1, 0, 0]⟩ ∨ m = ⟨0, ![-1, 0, 0]⟩)) ∨ 2 ≤ gapTo thin 0 m := by
  obtain ⟨j, nn⟩ := m
  have hj : j = 0 := by have : j < 1 := hm.1; omega
  subst hj
  unfold gapTo
  rw [thin_arrow 0 one_pos _ one_pos, length_three]
  simp only
  by_cases h : nn 1 = 0 ∧ nn 2 = 0 ∧ (nn 0 = 1 ∨ nn 0 = -1)
  · left
    obtain ⟨h1, h2, h3⟩ := h
    have hv : nn = ![nn 0, nn 1, nn 2] := by
      funext k; match k with
      | 0 => rfl
      | 1 => rfl
      | 2 => rfl
    rcases h3 with h3 | h3
    · rw [h1, h2, h3]
      refine ⟨by norm_num, Or.inl ?_⟩
      rw [hv, h1, h2, h3]
    · rw [h1, h2, h3]
      refine ⟨by norm_num, Or.inr ?_⟩
      rw [hv, h1, h2, h3]
  · right
    apply Real.le_sqrt_of_sq_le
    have hint : (4 : ℤ) ≤ nn 0 ^ 2 + (nn 1 * 10) ^ 2 + (nn 2 * 10) ^ 2 := by
      by_cases h1 : nn 1 = 0
      · by_cases h2 : nn 2 = 0
        · have h0 : nn 0 ≠ 0 := by
            intro h0
            apply hm.2
            refine ⟨rfl, ?_⟩
            funext k; match k with
            | 0 => exact h0
            | 1 => exact h1
            | 2 => exact h2
          have h3 : ¬ (nn 0 = 1 ∨ nn 0 = -1) := fun h3 => h ⟨h1, h2, h3⟩
          have h4 : 2 ≤ nn 0 ∨ nn 0 ≤ -2 := by omega
          rw [h1, h2]
          rcases h4 with h4 | h4 <;> nlinarith
        · have : 1 ≤ nn 2 ∨ nn 2 ≤ -1 := by omega
          rcases this with h4 | h4 <;> nlinarith [sq_nonneg (nn 0), sq_nonneg (nn 1 * 10)]
      · have : 1 ≤ nn 1 ∨ nn 1 ≤ -1 := by omega
        rcases this with h4 | h4 <;> nlinarith [sq_nonneg (nn 0), sq_nonneg (nn 2 * 10)]
    have : ((4 : ℤ) : ℝ) ≤ ((nn 0 ^ 2 + (nn 1 * 10) ^ 2 + (nn 2 * 10) ^ 2 : ℤ) : ℝ) := Int.cast_le.2 hint
    push_cast at this
    norm_num
    linarith

theorem thin_off (i : ℕ) (hi : i < thin.sites.length) (m : Image) (hm : m ∈ Others thin i) (col : ℕ) :
    OffEnds halfCols col (gapTo thin i m) := by
  obtain rfl : i = 0 := by have : i < 1 := hi; omega
  rcases thin_gap m hm with ⟨h, -⟩ | h
  · rw [h]; constructor <;> norm_num [halfCols]
  · simp only [OffEnds, halfCols]
    constructor
    · linarith
    · intro e; linarith

open Verif.Cut in
/-- Hypotheses of `C100_table_pair`. -/
example : ∃ f, (∀ x ∈ [(thin, f)], Prepared (toCutoffs 1 (rcut .pair false 1 halfCols.fin 0 fun _ => 0)) x.1 x.2 ∧ x.1.ntypes = 1 ∧
    (∀ i < x.1.sites.length, (x.1.site i).typ < 1) ∧
    ∀ i < x.1.sites.length, ∀ m ∈ Others x.1 i, OffEnds halfCols (pairColumn x.1 i m.j) (gapTo x.1 i m)) ∧
    Handles .pair .eqDist ∧ Layout (isGeneral .eqDist) halfCols (1 * (1 + 1) / 2) := by
  obtain ⟨f, hf⟩ := thin_prepared .pair fun _ => 0
  refine ⟨f, ?_, trivial, halfCols_layout _⟩
  intro x hx
  obtain rfl := List.mem_singleton.1 hx
  refine ⟨hf, rfl, ?_, fun i hi m hm => thin_off i hi m hm _⟩
  intro i hi
  obtain rfl : i = 0 := by have : i < 1 := hi; omega
  exact one_pos

/-- With all values 1/2 the density in the thin crystal is 1, in the middle of the table of the embedding function. -/
theorem thin_density (ana : ℕ → ℝ → ℝ × ℝ) (d : ℕ → ℝ) {l e : EndCond ℝ} (hs : ServesSpline .eqDist halfCols (fun _ => 1 / 2) d 1 l e) :
    latticeDensity (tableEam .eqDist halfCols 1 ana (fun _ => 1 / 2) d) thin 0 = 1 := by
  have hval : (tablePots .eqDist halfCols (fun _ => 1 / 2) d).val 1 1 = 1 / 2 := by
    obtain ⟨p, hp, hq⟩ := hs
    have hk1 : knots (isGeneral .eqDist) halfCols 1 1 = 1 := by
      have hg : isGeneral .eqDist = false := rfl
      rw [hg]
      simp only [knots, halfCols]; norm_num
    have hk2 : knots (isGeneral .eqDist) halfCols 1 (1 + 1) = 3 / 2 := by
      have hg : isGeneral .eqDist = false := rfl
      rw [hg]
      simp only [knots, halfCols]; norm_num
    have h := (hq 1 (by simp [halfCols]) 1 (by rw [hk1]) (by rw [hk2]; norm_num)).1
    have h' := hp.interp_left 1 (by simp [halfCols])
    rw [hk1] at h'
    simp only [tablePots, h, delivered]
    exact h'
  unfold latticeDensity latticeSum
  have hne : (⟨0, ![1, 0, 0]⟩ : Image) ≠ ⟨0, ![-1, 0, 0]⟩ := by
    intro h
    have := congrFun (congrArg Image.n h) 0
    simp at this
  have hmem : ∀ m ∈ ({⟨0, ![1, 0, 0]⟩, ⟨0, ![-1, 0, 0]⟩} : Set Image), m ∈ Others thin 0 := by
    rintro m (rfl | rfl)
    · exact ⟨one_pos, fun h => by simpa using congrFun h.2 0⟩
    · exact ⟨one_pos, fun h => by simpa using congrFun h.2 0⟩
  have hone : ∀ m ∈ ({⟨0, ![1, 0, 0]⟩, ⟨0, ![-1, 0, 0]⟩} : Set Image), length (arrow thin 0 m) = 1 := by
    rintro m (rfl | rfl)
    · rw [thin_arrow 0 one_pos _ one_pos, length_three]; norm_num; rfl
    · rw [thin_arrow 0 one_pos _ one_pos, length_three]; norm_num; rfl
  have htr : transfer (tableEam .eqDist halfCols 1 ana (fun _ => 1 / 2) d) 0 1 = 1 / 2 := by
    unfold transfer
    rw [if_pos (by norm_num [tableEam, tablePots, halfCols])]
    exact hval
  rw [← finsum_mem_inter_support_eq _ ({⟨0, ![1, 0, 0]⟩, ⟨0, ![-1, 0, 0]⟩} : Set Image) (Others thin 0) ?_, finsum_mem_pair hne,
    hone _ (Or.inl rfl), hone _ (Or.inr rfl)]
  · have ht : (thin.site 0).typ = 0 := rfl
    simp only [ht, htr]
    norm_num
  · ext m
    simp only [Set.mem_inter_iff, Function.mem_support]
    constructor
    · rintro ⟨h1, h2⟩
      exact ⟨hmem m h1, h2⟩
    · rintro ⟨h1, h2⟩
      refine ⟨?_, h2⟩
      rcases thin_gap m h1 with ⟨-, h⟩ | h
      · exact h
      · exfalso
        apply h2
        unfold transfer
        rw [if_neg]
        simp only [tableEam, tablePots, halfCols]
        unfold gapTo at h
        linarith

open Verif.Cut in
/-- Hypotheses of `C100_table_eam`. -/
example (d : ℕ → ℝ) (ana : ℕ → ℝ → ℝ × ℝ) (b : Build) : ∃ d' f, refresh .eam .eqDist halfCols (fun _ => 1 / 2) (1 * (1 + 1) / 2) 1 d = .ok d' ∧
    (∀ x ∈ [(thin, f)], Prepared (toCutoffs 1 (rcut .eam false 1 halfCols.fin 0 fun _ => 0)) x.1 x.2 ∧ x.1.ntypes = 1 ∧
      x.1.paircol = 1 * (1 + 1) / 2 ∧ (∀ i < x.1.sites.length, (x.1.site i).typ < 1) ∧
      (∀ i < x.1.sites.length, ∀ m ∈ Others x.1 i, OffEnds halfCols (pairColumn x.1 i m.j) (gapTo x.1 i m) ∧
        OffEnds halfCols (1 * (1 + 1) / 2 + (x.1.site m.j).typ) (gapTo x.1 i m)) ∧
      ∀ i < x.1.sites.length, InsideTable b halfCols (1 * (1 + 1) / 2 + 1 + (x.1.site i).typ)
        (latticeDensity (tableEam .eqDist halfCols 1 ana (fun _ => 1 / 2) d') x.1 i)) := by
  obtain ⟨d', e1, e2, -⟩ := C100_table_eam (fmt := .eqDist) (n := 1) trivial (halfCols_layout _) ana (fun _ => 1 / 2) d fun _ => 0
  obtain ⟨f, hf⟩ := thin_prepared .eam fun _ => 0
  refine ⟨d', f, e1, ?_⟩
  intro x hx
  obtain rfl := List.mem_singleton.1 hx
  refine ⟨hf, rfl, rfl, ?_, fun i hi m hm => ⟨thin_off i hi m hm _, thin_off i hi m hm _⟩, ?_⟩
  · intro i hi
    obtain rfl : i = 0 := by have : i < 1 := hi; omega
    exact one_pos
  · intro i hi
    obtain rfl : i = 0 := by have : i < 1 := hi; omega
    rw [thin_density ana d' (e2 1 (by norm_num))]
    refine ⟨?_, ?_, fun _ _ => by norm_num⟩ <;> norm_num [halfCols]

/-- The thin cell, given by a left-handed set of vectors. -/
noncomputable def mirrored : Cell := ⟨boxOf (-1), 0, [⟨0, 0⟩], 1, 1⟩

theorem mirrored_made : makeBox (boxOf (-1)).edge = .ok (boxOf (-1), -100) := by
  have hv : sprod ((boxOf (-1)).edge 0) (vecProd ((boxOf (-1)).edge 1) ((boxOf (-1)).edge 2)) = -100 := by
    simp only [sprod, vecProd, boxOf, Matrix.cons_val]
    norm_num
  unfold makeBox
  simp only [hv]
  rw [if_neg (by norm_num)]
  unfold boxOf
  congr 3
  funext i
  fin_cases i <;> funext k <;> fin_cases k <;> simp only [vecProd, Matrix.cons_val, Fin.zero_eta, Fin.mk_one,
    Fin.reduceFinMk] <;> norm_num

theorem mirrored_ready : Ready (boxOf (-1)).edge thinCut ![2, 1, 1] mirrored := by
  refine ⟨⟨_, mirrored_made⟩, ?_, fun _ _ => le_refl _, ?_⟩
  · have e : ∀ k, sprod ((boxOf (-1)).dual k) ((boxOf (-1)).dual k) = sprod ((boxOf 1).dual k) ((boxOf 1).dual k) := by
      intro k
      unfold sprod boxOf
      fin_cases k <;> simp only [Matrix.cons_val, Fin.zero_eta, Fin.mk_one, Fin.reduceFinMk] <;> norm_num
    have h : cellScale thinCut.rcutmax mirrored.box = cellScale thinCut.rcutmax thin.box := by
      unfold cellScale mirrored thin
      simp only [e]
    rw [h]
    exact thin_ready.images
  · intro i hi
    refine ⟨0, fun k => ⟨le_refl _, one_pos⟩, ?_⟩
    simp only [mirrored, List.length_singleton] at hi
    have : i = 0 := by omega
    subst this
    simp [mirrored, Cell.site]

theorem mirrored_arrow (i : ℕ) (hi : i < 1) (m : Image) (hj : m.j < 1) :
    arrow mirrored i m = ![-(m.n 0 : ℝ), (m.n 1 : ℝ) * 10, (m.n 2 : ℝ) * 10] := by
  have h0 : i = 0 := by omega
  have h1 : m.j = 0 := by omega
  have hp : (mirrored.site 0).pos = 0 := rfl
  have hb : mirrored.box = boxOf (-1) := rfl
  funext k
  simp only [arrow, h0, h1, hp, hb, Fin.sum_univ_three, boxOf, Pi.add_apply, Pi.sub_apply, Pi.smul_apply,
    smul_eq_mul, Pi.zero_apply]
  fin_cases k <;> simp only [Fin.zero_eta, Fin.mk_one, Fin.reduceFinMk, Matrix.cons_val] <;> ring

theorem mirrored_gap (m : Image) (hm : m ∈ Others mirrored 0) : gapTo mirrored 0 m = gapTo thin 0 m := by
  unfold gapTo
  rw [mirrored_arrow 0 one_pos m hm.1, thin_arrow 0 one_pos m hm.1, length_three, length_three, neg_sq]

/-- Hypotheses of `C100_left_handed_violated`. -/
example (fmt : Format) (hh : Handles .pair fmt) (hf : isGeneral fmt = false) (xi d : ℕ → ℝ) : ∃ d' f,
    refresh .pair fmt halfCols xi 1 1 d = .ok d' ∧ Ready (boxOf (-1)).edge thinCut ![2, 1, 1] mirrored ∧
    Built false thinCut ![2, 1, 1] mirrored f ∧ makeBox (boxOf (-1)).edge = .ok (mirrored.box, f.vol) ∧
    (Matrix.of (boxOf (-1)).edge).det < 0 ∧ PairReach thinCut (tablePots fmt halfCols xi d') mirrored ∧
    PairClear (tablePots fmt halfCols xi d') mirrored ∧ f.uf = true ∧ f.us = true := by
  have hl : Layout (isGeneral fmt) halfCols (numCols .pair 1 1) := by rw [hf]; exact halfCols_layout _
  obtain ⟨d', e1, e2, -⟩ := C99_fresh hh (pc := 1) (nt := 1) hl xi d
  have hpos : ∀ i < mirrored.sites.length, ∀ m ∈ Others mirrored i, 1 ≤ gapTo mirrored i m ∧ gapTo mirrored i m ≠ 3 / 2 := by
    intro i hi m hm
    obtain rfl : i = 0 := by have : i < 1 := hi; omega
    rw [mirrored_gap m hm]
    rcases thin_gap m hm with ⟨h, -⟩ | h
    · rw [h]; norm_num
    · exact ⟨by linarith, by intro e; linarith⟩
  obtain ⟨f, hf, -⟩ := exists_built _ _ _ _ mirrored_ready (by norm_num [thinCut]) false (by
    intro i hi m hj hne
    have := (hpos i hi m ⟨hj, hne⟩).1
    unfold gapTo at this
    linarith)
  refine ⟨d', { f with vol := -100, uf := true, us := true }, e1, mirrored_ready, ⟨hf.start, hf.count, hf.typ, hf.lists⟩, mirrored_made,
    ?_, ?_, ?_, rfl, rfl⟩
  · rw [((C24_partial (boxOf (-1)).edge).2 _ _ mirrored_made).2.1.symm]
    norm_num
  · intro i _ j _
    exact le_refl _
  · intro i hi m hm
    obtain ⟨h1, h2⟩ := hpos i hi m hm
    obtain rfl : i = 0 := by have : i < 1 := hi; omega
    have hj : m.j = 0 := by have : m.j < 1 := hm.1; omega
    have hc : pairColumn mirrored 0 m.j = 0 := by rw [hj]; rfl
    rw [hc]
    refine table_smooth (hl.good 0 (by simp [numCols])) (e2 0 (by simp [numCols])) ⟨?_, ?_⟩
    · simp only [halfCols]; linarith
    · simpa only [halfCols] using h2

end Verif.Props
