/-
C113  The objective of potentials with angles is that of the infinite periodic crystals.

Stillinger-Weber, angular potentials and MEAM: energies are lattice sums over all images of all atoms and over all angles
(`Spec/CrystalAngles.lean`), forces and stresses minus their derivatives with respect to positions and strains.  Nothing is kept
fixed while deriving: atoms enter and leave the range of the functions.
-/
import Verif.Lemmas.CrystalFull
import Verif.Lemmas.FullRun
import Verif.Props.C63
import Verif.Props.C54
import Verif.Props.C100

set_option linter.unusedSectionVars false

namespace Verif.Props

open Verif.Force hiding Cell
open Verif.Neighbors Verif.Spec Topology

/-! ### Hypotheses -/

/-- Pair function and three-body function, cut off at their ends, have the slopes used by the routine at all distances in the
crystal. -/
def SwClear (P : SwPots ℝ) (c : Cell) : Prop :=
  ∀ i < c.sites.length, ∀ m ∈ Others c i,
    CutSlope (P.fin (pairColumn c i m.j)) (P.val (pairColumn c i m.j)) (P.grad (pairColumn c i m.j) (gapTo c i m)) (gapTo c i m) ∧
    CutSlope (P.fin3 (pairColumn c i m.j)) (P.f (pairColumn c i m.j)) (P.df (pairColumn c i m.j) (gapTo c i m) * gapTo c i m)
      (gapTo c i m)

/-- The same for pair function and radial function of angular potentials; the function of the cosine is differentiable at all
angles in the crystal. -/
def AngClear (P : AngPots ℝ) (c : Cell) : Prop :=
  ∀ i < c.sites.length, ∀ m ∈ Others c i,
    CutSlope (P.fin (pairColumn c i m.j)) (P.val (pairColumn c i m.j)) (P.grad (pairColumn c i m.j) (gapTo c i m)) (gapTo c i m) ∧
    CutSlope (P.fin (P.fcol (pairColumn c i m.j))) (P.val (P.fcol (pairColumn c i m.j)))
      (P.grad (P.fcol (pairColumn c i m.j)) (gapTo c i m)) (gapTo c i m) ∧
    ∀ n ∈ Others c i, HasDerivAt (P.val (P.gcol (c.site i).typ))
      (P.grad (P.gcol (c.site i).typ) (angleCos (arrow c i m) (arrow c i n))) (angleCos (arrow c i m) (arrow c i n))

/-- For MEAM also the transfer functions and, at the densities of the crystal, the embedding functions. -/
def MeamClear (b : Build) (P : AngPots ℝ) (c : Cell) : Prop :=
  AngClear P c ∧ ∀ i < c.sites.length,
    (∀ m ∈ Others c i, CutSlope (P.fin (P.paircol + (c.site m.j).typ)) (P.val (P.paircol + (c.site m.j).typ))
      (P.grad (P.paircol + (c.site m.j).typ) (gapTo c i m)) (gapTo c i m)) ∧
    HasDerivAt (fun y => (meamEmbed b P.toEamPots (P.paircol + P.ntypes + (c.site i).typ) y).value)
      (meamEmbed b P.toEamPots (P.paircol + P.ntypes + (c.site i).typ) (latticeMeamDensity P c i)).grad (latticeMeamDensity P c i)

/-- The three-body functions end within the cutoff of the neighbour lists. -/
def Reach3 (cut : Cutoffs) (P : SwPots ℝ) (c : Cell) : Prop :=
  ∀ i < c.sites.length, ∀ j < c.sites.length, P.fin3 (pairColumn c i j) ≤ cut.rcut (c.site i).typ (c.site j).typ

/-- So do the radial functions of angular potentials. -/
def ReachF (cut : Cutoffs) (P : AngPots ℝ) (c : Cell) : Prop :=
  ∀ i < c.sites.length, ∀ j < c.sites.length, P.fin (P.fcol (pairColumn c i j)) ≤ cut.rcut (c.site i).typ (c.site j).typ

/-- A right-handed cell with its configuration and full neighbour lists. -/
structure PreparedFull (cut : Cutoffs) (c : Cell) (f : Conf ℝ) : Prop where
  made : ∃ edge scale, Ready edge cut scale c ∧ makeBox edge = .ok (c.box, f.vol) ∧ 0 < (Matrix.of edge).det ∧
    Built true cut scale c f

theorem PreparedFull.vol {cut : Cutoffs} {c : Cell} {f : Conf ℝ} (h : PreparedFull cut c f) : f.vol = cellVolume c.box.edge := by
  obtain ⟨edge, scale, -, hm, hp, -⟩ := h.made
  obtain ⟨h1, h2, -⟩ := (C24_partial edge).2 _ _ hm
  unfold cellVolume
  rw [h1, h2, abs_of_pos hp]

/-! ### Sums of one atom -/

theorem angleCos_symm (v w : V3 ℝ) : angleCos v w = angleCos w v := by
  unfold angleCos
  rw [mul_comm (length v)]
  congr 1
  exact Finset.sum_congr rfl fun k _ => mul_comm _ _

theorem angleCos_eq (v w : V3 ℝ) : cosOf v w = angleCos v w := by
  unfold cosOf angleCos
  rw [Finset.sum_div]
  exact Finset.sum_congr rfl fun k _ => div_mul_div_comm _ _ _ _

section
variable {edge : Fin 3 → V3 ℝ} {cut : Cutoffs} {scale : Fin 3 → ℤ} {c d : Cell} {f : Conf ℝ} {H : Nat → List Image}

theorem near_self : Near cut c c := by
  refine ⟨rfl, fun _ => rfl, rfl, ?_⟩
  intro i hi m hm hw
  by_contra hle
  rw [not_le] at hle
  exact hw ⟨hm.1, Or.inl rfl, hm.2, hle.le⟩

theorem phi_zero (hd : Near cut c d) {P : Pots ℝ} (hreach : PairReach cut P c) {i : Nat} (hi : i < c.sites.length) :
    ∀ m ∈ Others c i, cut.rcut (c.site i).typ (c.site m.j).typ ≤ length (arrow d i m) →
      phi P d.ntypes (d.site i).typ (d.site m.j).typ (length (arrow d i m)) = 0 := by
  intro m hm hl
  unfold phi
  rw [hd.ntypes, hd.typ, hd.typ]
  exact if_neg (not_lt.2 ((hreach i hi m.j hm.1).trans hl))

/-- Pair energy of an atom with full lists. -/
theorem pair_site (hd : Near cut c d) (hH : FullOf cut c H) {P : Pots ℝ} (hreach : PairReach cut P c) (sh : Bool) {i : Nat}
    (hi : i < c.sites.length) :
    ((H i).map fun m => (pairTerm sh P (c.start + i) (placedAt (arrow d i m) (bondOf c i m))).energy).sum =
      (1 / 2) * latticeSum d i (phi P d.ntypes (d.site i).typ) -
        if sh = true then (1 / 2) * ((1 / 2) * ∑ᶠ m ∈ {m ∈ Others d i | m.j = i},
          phi P d.ntypes (d.site i).typ (d.site m.j).typ (length (arrow d i m))) else 0 := by
  unfold latticeSum
  rw [hd.sum hH hi _ (phi_zero hd hreach hi), hd.part hH hi (fun m => m.j = i) _ (phi_zero hd hreach hi)]
  have key : ∀ m, (pairTerm sh P (c.start + i) (placedAt (arrow d i m) (bondOf c i m))).energy =
      (1 / 2) * phi P d.ntypes (d.site i).typ (d.site m.j).typ (length (arrow d i m)) +
        (if sh = true then -(1 / 4) else 0) * (if m.j = i then phi P d.ntypes (d.site i).typ (d.site m.j).typ (length (arrow d i m)) else 0) := by
    intro m
    have e1 : pairVal P (placedAt (arrow d i m) (bondOf c i m)) =
        phi P d.ntypes (d.site i).typ (d.site m.j).typ (length (arrow d i m)) := by
      unfold phi
      rw [hd.ntypes, hd.typ, hd.typ]
      rfl
    have e2 : selfWeight sh (c.start + i) (placedAt (arrow d i m) (bondOf c i m)) = if sh = true ∧ m.j = i then (1 / 2 : ℝ) else 1 := by
      unfold selfWeight
      have : (placedAt (arrow d i m) (bondOf c i m)).nr = c.start + m.j := rfl
      rw [this]
      cases sh <;> simp
    show 1 / 2 * (selfWeight sh (c.start + i) _ * pairVal P _) = _
    rw [e1, e2]
    cases sh
    · simp
    · by_cases h : m.j = i
      · simp only [h, and_self, if_true]; ring
      · simp only [h, and_false, if_false]; ring
  rw [List.map_congr_left fun m _ => key m, sum_add_list, List.sum_map_mul_left, List.sum_map_mul_left]
  cases sh
  · simp
  · simp only [if_true]; ring

theorem endedAt_zero {fin : Nat → ℝ} {val : Nat → ℝ → ℝ} {col : Nat} {r : ℝ} (h : fin col ≤ r) : endedAt fin val col r = 0 :=
  if_neg (not_lt.2 h)

/-- Energy of the angles at an atom, Stillinger-Weber. -/
theorem sw_angles (hd : Near cut c d) (hH : FullOf cut c H) {P : SwPots ℝ} (hreach : Reach3 cut P c)
    (hl : ∀ s t u, P.lambda s t u = P.lambda s u t) {i : Nat} (hi : i < c.sites.length) :
    latticeAngles d i (swAngleEnergy P d.ntypes (d.site i).typ) =
      ((pairsOf ((H i).map fun m => placedAt (arrow d i m) (bondOf c i m))).map fun p =>
        (swTerm P (c.start + i) (c.site i).typ p.1 p.2).energy).sum := by
  rw [hd.angles hH hi, pairsOf_map, List.map_map]
  · congr 1
    apply List.map_congr_left
    intro p _
    show _ = swEnergy P (c.site i).typ _ _
    unfold swEnergy swF swAngleEnergy
    rw [cosine_placed, angleCos_eq, hd.ntypes, hd.typ]
    show _ = P.lambda (c.site i).typ (c.site p.1.j).typ (c.site p.2.j).typ * (endedAt P.fin3 P.f (PairIndex.pairCol c.ntypes (c.site i).typ (c.site p.1.j).typ) _ *
      endedAt P.fin3 P.f (PairIndex.pairCol c.ntypes (c.site i).typ (c.site p.2.j).typ) _ * _)
    simp only [placedAt]
    ring
  · intro s v t w
    unfold swAngleEnergy
    rw [hl, angleCos_symm]
    ring
  · intro m hm hlen t w
    unfold swAngleEnergy
    rw [hd.ntypes, hd.typ, endedAt_zero (show P.fin3 (PairIndex.pairCol c.ntypes (c.site i).typ (c.site m.j).typ) ≤ _ from
      (hreach i hi m.j hm.1).trans hlen)]
    ring

/-- Sum over the angles at an atom, angular potentials and MEAM. -/
theorem ang_angles (hd : Near cut c d) (hH : FullOf cut c H) {P : AngPots ℝ} (hreach : ReachF cut P c) {i : Nat}
    (hi : i < c.sites.length) :
    latticeAngles d i (angleProduct P d.ntypes (d.site i).typ) =
      ((pairsOf ((H i).map fun m => placedAt (arrow d i m) (bondOf c i m))).map fun p =>
        (angTerm P (c.start + i) (c.site i).typ p.1 p.2).energy).sum := by
  rw [hd.angles hH hi, pairsOf_map, List.map_map]
  · congr 1
    apply List.map_congr_left
    intro p _
    show _ = angF P _ * angF P _ * P.val _ _
    unfold angleProduct
    rw [cosine_placed, angleCos_eq, hd.ntypes, hd.typ]
    rfl
  · intro s v t w
    unfold angleProduct
    rw [angleCos_symm]
    ring
  · intro m hm hlen t w
    unfold angleProduct
    rw [hd.ntypes, hd.typ, endedAt_zero (show P.fin (P.fcol (PairIndex.pairCol c.ntypes (c.site i).typ (c.site m.j).typ)) ≤ _ from
      (hreach i hi m.j hm.1).trans hlen)]
    ring

/-- MEAM density of an atom with full lists. -/
theorem meam_density (hd : Near cut c d) (hH : FullOf cut c H) {P : AngPots ℝ} (hpc : P.paircol = c.paircol)
    (h1 : TransferReach cut P.toEamPots c) (h2 : ReachF cut P c) {i : Nat} (hi : i < c.sites.length) (w : ℝ) (q : Bool) :
    meamDensity P ⟨(c.site i).typ, (H i).map (fun m => placedAt (arrow d i m) (bondOf c i m)), w, q⟩ = latticeMeamDensity P d i := by
  rw [meamDensity_eq P (c.start + i)]
  unfold densTerms sumEnergy latticeMeamDensity latticeDensity latticeSum
  rw [List.map_append, List.sum_append, hd.sum hH hi, ang_angles hd hH h2 hi]
  · simp only [List.map_map]
    congr 2
    apply List.map_congr_left
    intro m _
    unfold transfer
    rw [hd.typ, hpc]
    rfl
  · intro m hm hl
    unfold transfer
    rw [hd.typ]
    exact if_neg (not_lt.2 ((h1 i hi m.j hm.1).trans hl))

/-! ### Smoothness at the lists -/

theorem clear_sw (hH : FullOf cut c H) (hf : Built true cut scale c f)
    (g3 : ∀ i a, f.atoms[i]? = some a → a.neigh = (H i).map (entryOf c i)) {P : SwPots ℝ} (hs : SwClear P c) :
    SwSmooth P f (nodesFrom c H 0 f.atoms) (posOf c) := by
  intro j n hj l hl
  obtain ⟨hlt, -, hlk, hmem⟩ := node_link hH hf g3 hj
  rw [hlk, List.mem_map] at hl
  obtain ⟨m, hm, rfl⟩ := hl
  obtain ⟨h1, h2, h3⟩ := hmem m hm
  simp only [h3]
  exact ⟨h2, hs j hlt m h1⟩

theorem clear_ang (hH : FullOf cut c H) (hf : Built true cut scale c f)
    (g3 : ∀ i a, f.atoms[i]? = some a → a.neigh = (H i).map (entryOf c i)) {P : AngPots ℝ} (hs : AngClear P c) :
    AngSmooth P f (nodesFrom c H 0 f.atoms) (posOf c) := by
  intro j n hj l hl
  obtain ⟨hlt, ht, hlk, hmem⟩ := node_link hH hf g3 hj
  rw [hlk, List.mem_map] at hl
  obtain ⟨m, hm, rfl⟩ := hl
  obtain ⟨h1, h2, h3⟩ := hmem m hm
  obtain ⟨s1, s2, s3⟩ := hs j hlt m h1
  simp only [h3]
  refine ⟨h2, s1, s2, ?_⟩
  intro l' hl'
  rw [hlk, List.mem_map] at hl'
  obtain ⟨m', hm', rfl⟩ := hl'
  obtain ⟨h1', -, h3'⟩ := hmem m' hm'
  rw [h3', angleCos_eq, ht]
  exact s3 m' h1'

theorem clear_meam (hH : FullOf cut c H) (hf : Built true cut scale c f)
    (g3 : ∀ i a, f.atoms[i]? = some a → a.neigh = (H i).map (entryOf c i)) {b : Build} {P : AngPots ℝ} (hpc : P.paircol = c.paircol)
    (h1 : TransferReach cut P.toEamPots c) (h2 : ReachF cut P c) (hs : MeamClear b P c) :
    MeamSmooth b P f (nodesFrom c H 0 f.atoms) (posOf c) := by
  refine ⟨clear_ang hH hf g3 hs.1, ?_⟩
  intro j n hj
  obtain ⟨hlt, ht, hlk, hmem⟩ := node_link hH hf g3 hj
  obtain ⟨s1, s2⟩ := hs.2 j hlt
  refine ⟨?_, ?_⟩
  · intro l hl
    rw [hlk, List.mem_map] at hl
    obtain ⟨m, hm, rfl⟩ := hl
    obtain ⟨e1, -, e3⟩ := hmem m hm
    simp only [e3]
    have : (bondOf c j m).col1 = P.paircol + (c.site m.j).typ := by rw [hpc]; rfl
    rw [this]
    exact s1 m e1
  · have e : meamDensity P (atomAt (reach (posOf c) (f.start + j)) n) = latticeMeamDensity P c j := by
      rw [← meam_density near_self hH hpc h1 h2 hlt n.absforce n.contrib]
      unfold atomAt
      rw [hlk, ht, List.map_map]
      congr 2
      apply List.map_congr_left
      intro m hm
      simp only [Function.comp, (hmem m hm).2.2]
    simp only [e, ht]
    exact s2

/-! ### Energy, forces and stresses -/

theorem sw_matches (hr : Ready edge cut scale c) (hf : Built true cut scale c f) (hsym : ∀ s t, cut.rcut s t = cut.rcut t s)
    (P : SwPots ℝ) (hl : ∀ s t u, P.lambda s t u = P.lambda s u t) (h1 : PairReach cut P.toPots c) (h3 : Reach3 cut P c)
    (hs : SwClear P c) : Matches (latticeSwHalved P) (swSite P) (swForceSum P) (swStress P) c f := by
  apply full_matches hr hf hsym (latticeSwHalved P) (fun d i => (1 / 2) * latticeSum d i (phi P.toPots d.ntypes (d.site i).typ) -
    (1 / 2) * ((1 / 2) * ∑ᶠ m ∈ {m ∈ Others d i | m.j = i},
      phi P.toPots d.ntypes (d.site i).typ (d.site m.j).typ (length (arrow d i m))) +
    latticeAngles d i (swAngleEnergy P d.ntypes (d.site i).typ))
  · intro d _
    unfold latticeSwHalved latticeSw latticeOwn latticePair
    rw [Finset.sum_add_distrib, Finset.sum_sub_distrib]
    simp only [← Finset.mul_sum]
    ring
  · intro H hH d hd i hi w q
    have e1 := pair_site hd hH h1 true hi
    rw [if_pos rfl] at e1
    unfold swSite sumEnergy
    rw [List.map_append, List.sum_append, List.map_map, List.map_map, sw_angles hd hH h3 hl hi, ← e1]
    simp only [List.map_map]
    rfl
  · intro ts hm
    exact sw_force_sum P f ts (posOf c) hm
  · intro ts _ k
    exact sw_stress_sum P (place f ts (posOf c)) k
  · intro H hH g3 m hm
    exact sw_follows P f _ (posOf c) (clear_sw hH hf g3 hs) m hm

theorem ang_matches (hr : Ready edge cut scale c) (hf : Built true cut scale c f) (hsym : ∀ s t, cut.rcut s t = cut.rcut t s)
    (P : AngPots ℝ) (h1 : PairReach cut P.toPots c) (h3 : ReachF cut P c)
    (hs : AngClear P c) : Matches (latticeAng P) (angSite P) (angForceSum P) (angStress P) c f := by
  apply full_matches hr hf hsym (latticeAng P) (fun d i => (1 / 2) * latticeSum d i (phi P.toPots d.ntypes (d.site i).typ) +
    latticeAngles d i (angleProduct P d.ntypes (d.site i).typ))
  · intro d _
    unfold latticeAng latticePair
    rw [Finset.sum_add_distrib]
  · intro H hH d hd i hi w q
    have e1 := pair_site hd hH h1 false hi
    rw [if_neg (by simp), sub_zero] at e1
    unfold angSite sumEnergy
    rw [List.map_append, List.sum_append, List.map_map, List.map_map, ang_angles hd hH h3 hi, ← e1]
    simp only [List.map_map]
    rfl
  · intro ts hm
    exact ang_force_sum P f ts (posOf c) hm
  · intro ts _ k
    exact ang_stress_sum P (place f ts (posOf c)) k
  · intro H hH g3 m hm
    exact ang_follows P f _ (posOf c) (clear_ang hH hf g3 hs) m hm

theorem meam_matches (hr : Ready edge cut scale c) (hf : Built true cut scale c f) (hsym : ∀ s t, cut.rcut s t = cut.rcut t s)
    (b : Build) (P : AngPots ℝ) (hpc : P.paircol = c.paircol) (h1 : PairReach cut P.toPots c) (h2 : TransferReach cut P.toEamPots c)
    (h3 : ReachF cut P c) (hs : MeamClear b P c) :
    Matches (latticeMeam b P) (meamSite b P) (meamForceSum b P) (meamStress b P) c f := by
  apply full_matches hr hf hsym (latticeMeam b P) (fun d i => (1 / 2) * latticeSum d i (phi P.toPots d.ntypes (d.site i).typ) +
    (meamEmbed b P.toEamPots (P.paircol + P.ntypes + (d.site i).typ) (latticeMeamDensity P d i)).value)
  · intro d _
    unfold latticeMeam latticePair
    rw [Finset.sum_add_distrib]
  · intro H hH d hd i hi w q
    have e1 := pair_site hd hH h1 false hi
    rw [if_neg (by simp), sub_zero] at e1
    unfold meamSite sumEnergy
    rw [List.map_append, List.sum_append, List.map_map, ← e1, ← meam_density hd hH hpc h2 h3 hi w q, hd.typ]
    simp only [List.map_map, List.map_cons, List.map_nil, List.sum_cons, List.sum_nil, add_zero]
    rfl
  · intro ts hm
    exact meam_force_sum b P f ts (posOf c) hm
  · intro ts _ k
    exact meam_stress_sum b P (place f ts (posOf c)) k
  · intro H hH g3 m hm
    exact meam_follows b P f _ (posOf c) (clear_meam hH hf g3 hpc h2 h3 hs) m hm

end

/-! ### The claims -/

section
variable (edge : Fin 3 → V3 ℝ) (cut : Cutoffs) (scale : Fin 3 → ℤ) (c : Cell) (f : Conf ℝ)
  (hr : Ready edge cut scale c) (hf : Built true cut scale c f) (hsym : ∀ s t, cut.rcut s t = cut.rcut t s)
include hr hf hsym

/-- **Stillinger-Weber, one crystal.** The force vector contains energy, forces and stresses of the crystal in which pair energies
of atoms with their own images count half. -/
theorem C113_stiweb (b : Build) (P : SwPots ℝ) (hl : ∀ s t u, P.lambda s t u = P.lambda s u t) (h1 : PairReach cut P.toPots c)
    (h3 : Reach3 cut P c) (hs : SwClear P c) (ew sw : ℝ) (ci : Nat) (fv : FV ℝ) :
    Reports b (latticeSwHalved P) (swConf b P ew sw ci f fv).1 ci c f :=
  leaves_crystal (res := fun c => (swConf b P ew sw ci c fv).1) (sw_matches hr hf hsym P hl h1 h3 hs) hf.start hf.count
    (fullConf_energy b _ _ (swAtom_energy b P f) ew sw ci f fv) (fun hu => sw_leaves b P ew sw ci fv f hu)

/-- **Angular potentials, one crystal.** -/
theorem C113_ang (b : Build) (P : AngPots ℝ) (h1 : PairReach cut P.toPots c) (h3 : ReachF cut P c) (hs : AngClear P c)
    (ew sw : ℝ) (ci : Nat) (fv : FV ℝ) : Reports b (latticeAng P) (angConf b P ew sw ci f fv).1 ci c f := by
  apply leaves_crystal (res := fun c => (angConf b P ew sw ci c fv).1) (ang_matches hr hf hsym P h1 h3 hs) hf.start hf.count
    ?_ (fun hu => ang_leaves b P ew sw ci fv f hu)
  show Function.update _ _ _ _ = _
  rw [Function.update_self, closeAlways_energy, atomLoop_energy Acc.energy _ _ (angAtom_energy b P f), zero_add]
  rfl

/-- **MEAM, one crystal.** -/
theorem C113_meam (b : Build) (P : AngPots ℝ) (hpc : P.paircol = c.paircol) (h1 : PairReach cut P.toPots c)
    (h2 : TransferReach cut P.toEamPots c) (h3 : ReachF cut P c) (hs : MeamClear b P c) (ew sw : ℝ) (ci : Nat) (fv : FV ℝ) :
    Reports b (latticeMeam b P) (meamConf b P ew sw ci f fv).1 ci c f := by
  apply leaves_crystal (res := fun c => (meamConf b P ew sw ci c fv).1) (meam_matches hr hf hsym b P hpc h1 h2 h3 hs) hf.start hf.count
    ?_ (fun hu => meam_leaves b P ew sw ci fv f hu)
  show Function.update _ _ _ _ = _
  rw [Function.update_self, closeAlways_energy, atomLoop_energy (fun s : MeamAcc ℝ => s.acc.energy) _ _ (meamAtom_energy b P f), zero_add]
  rfl

end

/-- No atom sees its own images within the range of the pair functions. -/
def OwnApart (P : Pots ℝ) (c : Cell) : Prop :=
  ∀ i < c.sites.length, ∀ m ∈ Others c i, m.j = i → P.fin (pairColumn c i i) < gapTo c i m

section
variable {edge : Fin 3 → V3 ℝ} {cut : Cutoffs} {scale : Fin 3 → ℤ} {c : Cell} {f : Conf ℝ}

theorem own_zero (hr : Ready edge cut scale c) {P : Pots ℝ} (ho : OwnApart P c) {now : ℝ} {C : ℝ → Cell} (hD : Deform c now C) :
    ∀ᶠ t in 𝓝 now, latticeOwn P (C t) = 0 := by
  have h : ∀ᶠ t in 𝓝 now, ∀ i ∈ Finset.range c.sites.length, ∀ n : Fin 3 → ℤ,
      P.fin (pairColumn c i i) < length (arrow c i ⟨i, n⟩) → P.fin (pairColumn c i i) ≤ length (arrow (C t) i ⟨i, n⟩) := by
    rw [Filter.eventually_all_finset]
    intro i hi
    rw [Finset.mem_range] at hi
    exact hD.far hr hi hi _
  filter_upwards [h] with t ht
  unfold latticeOwn
  rw [hD.count t]
  apply Finset.sum_eq_zero
  intro i hi
  have hi' := Finset.mem_range.1 hi
  rw [finsum_mem_eq_zero_of_forall_eq_zero, mul_zero]
  rintro ⟨j, n⟩ ⟨hm, hj⟩
  have hj : j = i := hj
  subst hj
  have hm' : (⟨j, n⟩ : Image) ∈ Others c j := by
    unfold Others at hm ⊢
    rw [hD.count t] at hm
    exact hm
  unfold phi
  rw [hD.ntypes t, hD.typ t]
  exact if_neg (not_lt.2 (ht j hi n (ho j hi' _ hm' rfl)))

/-- Then the energies agree in a neighbourhood, and so do forces and stresses. -/
theorem halved_reports (hr : Ready edge cut scale c) {b : Build} {P : Pots ℝ} (ho : OwnApart P c) {v : FV ℝ} {ci : Nat}
    (hf : Built true cut scale c f) {E : Cell → ℝ} (h : Reports b (fun d => E d - (1 / 2) * latticeOwn P d) v ci c f) :
    Reports b E v ci c f := by
  have key : ∀ {now : ℝ} {C : ℝ → Cell}, Deform c now C →
      (fun t => E (C t)) =ᶠ[𝓝 now] fun t => E (C t) - (1 / 2) * latticeOwn P (C t) := by
    intro now C hD
    filter_upwards [own_zero hr ho hD] with t ht
    rw [ht]
    ring
  obtain ⟨h1, h2, h3⟩ := h
  refine ⟨?_, ?_, ?_⟩
  · have := (key (C := fun _ => c) (now := 0) ⟨fun _ => rfl, fun _ _ => rfl, fun _ => rfl, fun ε hε => Filter.Eventually.of_forall
      fun t i m _ _ => by
        rw [sub_self, abs_zero]
        have := length_nonneg (arrow c i m)
        positivity⟩).self_of_nhds
    rw [h1]
    simp only at this
    rw [this]
  · intro hu j a ha k
    have hj : j < c.sites.length := by rw [← hf.count]; exact (List.getElem?_eq_some_iff.1 ha).1
    obtain ⟨d1, d2⟩ := h2 hu j a ha k
    have hk := key (deform_displaced c j k hj)
    refine ⟨d1.congr_of_eventuallyEq hk, ?_⟩
    rw [d2]
    unfold crystalForce
    rw [hk.deriv_eq]
  · intro hb hu hus k
    obtain ⟨d1, d2⟩ := h3 hb hu hus k
    have hk := key (deform_strained c (voigt k).2 (voigt k).1)
    refine ⟨d1.congr_of_eventuallyEq hk, ?_⟩
    rw [d2]
    unfold crystalVirial
    rw [hk.deriv_eq]

end

/-- **Stillinger-Weber, partial**: without own images in the range of the pair functions the force vector is that of the infinite
crystal.  Missing: small cells, see `C113_own_violated`. -/
theorem C113_stiweb_partial (edge : Fin 3 → V3 ℝ) (cut : Cutoffs) (scale : Fin 3 → ℤ) (c : Cell) (f : Conf ℝ)
    (hr : Ready edge cut scale c) (hf : Built true cut scale c f) (hsym : ∀ s t, cut.rcut s t = cut.rcut t s)
    (b : Build) (P : SwPots ℝ) (hl : ∀ s t u, P.lambda s t u = P.lambda s u t) (h1 : PairReach cut P.toPots c)
    (h3 : Reach3 cut P c) (hs : SwClear P c) (ho : OwnApart P.toPots c) (ew sw : ℝ) (ci : Nat) (fv : FV ℝ) :
    Reports b (latticeSw P) (swConf b P ew sw ci f fv).1 ci c f :=
  halved_reports hr ho hf (C113_stiweb edge cut scale c f hr hf hsym b P hl h1 h3 hs ew sw ci fv)

/-! ### Objective -/

/-- A loop over configurations with their cells. -/
theorem cells_total {ε : Type*} [AddMonoid ε] (one : Nat → Conf ℝ → FV ℝ → FV ℝ × ε) (g : Cell × Conf ℝ → ℝ) (pr : ε →+ ℝ)
    (L : List (Cell × Conf ℝ)) (h : ∀ x ∈ L, ∀ ci fv, pr (one ci x.2 fv).2 = g x) (ci : Nat) (s : FV ℝ × ε) :
    pr (confLoop one (L.map Prod.snd) ci s).2 = pr s.2 + (L.map g).sum := by
  induction L generalizing ci s with
  | nil => simp [confLoop]
  | cons x L ih =>
    have h0 := h x List.mem_cons_self ci s.1
    simp only [confLoop, List.map_cons, List.sum_cons]
    rw [ih (fun x hx => h x (List.mem_cons_of_mem _ hx))]
    simp only [map_add, h0]
    ring

theorem sw_part {cut : Cutoffs} (hsym : ∀ s t, cut.rcut s t = cut.rcut t s) (b : Build) (P : SwPots ℝ) {c : Cell} {f : Conf ℝ}
    (hp : PreparedFull cut c f) (hl : ∀ s t u, P.lambda s t u = P.lambda s u t) (h1 : PairReach cut P.toPots c) (h3 : Reach3 cut P c)
    (hs : SwClear P c) (ew sw : ℝ) (ci : Nat) (fv : FV ℝ) :
    (swConf b P ew sw ci f fv).2 = crystalError b (latticeSwHalved P) ew sw (cellVolume c.box.edge) c f := by
  obtain ⟨edge, scale, hr, -, -, hb⟩ := hp.made
  have hi := built_inside hr hb
  obtain ⟨E, F, S, hq⟩ := fullConf_result b (swAtom b P f) ew sw f fun _ _ hj => swAtom_shift (member_of hj) (inside_neigh hi hj) b P f
  obtain ⟨-, -, -, -, -, h⟩ := hq ci fv
  rw [← hp.vol, ← residual_crystal b _ ew sw _ ci c f hb.start (C113_stiweb edge cut scale c f hr hb hsym b P hl h1 h3 hs ew sw ci fv)]
  exact h

/-- **Objective, Stillinger-Weber.** -/
theorem C113_stiweb_objective (cut : Cutoffs) (hsym : ∀ s t, cut.rcut s t = cut.rcut t s) (b : Build) (P : SwPots ℝ)
    (hl : ∀ s t u, P.lambda s t u = P.lambda s u t) (ew sw w : ℝ) (qs : List (Bound ℝ)) (eopp univ : List (Nat × ℝ))
    (L : List (Cell × Conf ℝ))
    (hL : ∀ x ∈ L, PreparedFull cut x.1 x.2 ∧ PairReach cut P.toPots x.1 ∧ Reach3 cut P x.1 ∧ SwClear P x.1)
    (v v' : PairVec ℝ) (y : ℝ) (h : swObjective b P ew sw w qs eopp univ (L.map Prod.snd) v = .ok (v', y)) :
    y = (L.map fun x => crystalError b (latticeSwHalved P) ew sw (cellVolume x.1.box.edge) x.1 x.2).sum +
      totalPenalty w qs eopp univ := by
  have key := cells_total (swConf b P ew sw) (fun x => crystalError b (latticeSwHalved P) ew sw (cellVolume x.1.box.edge) x.1 x.2)
    (AddMonoidHom.id ℝ) L (fun x hx ci fv => by
      obtain ⟨g1, g2, g3, g4⟩ := hL x hx
      exact sw_part hsym b P g1 hl g2 g3 g4 ew sw ci fv) 0 (v.fv, 0)
  obtain ⟨-, h2⟩ := sumObjective_ok _ _ w qs eopp univ _ v v' y h
  simp only [AddMonoidHom.id_apply, zero_add] at key
  rw [← key, h2]
  simp

theorem ang_part {cut : Cutoffs} (hsym : ∀ s t, cut.rcut s t = cut.rcut t s) (b : Build) (P : AngPots ℝ) {c : Cell} {f : Conf ℝ}
    (hp : PreparedFull cut c f) (h1 : PairReach cut P.toPots c) (h3 : ReachF cut P c) (hs : AngClear P c) (ew sw : ℝ) (ci : Nat)
    (fv : FV ℝ) : (angConf b P ew sw ci f fv).2 =
      crystalError b (latticeAng P) ew sw (cellVolume c.box.edge) c f + stressOffset b sw f := by
  obtain ⟨edge, scale, hr, -, -, hb⟩ := hp.made
  have hi := built_inside hr hb
  obtain ⟨E, F, S, -, -, hq⟩ := angConf_result b P ew sw f hi
  obtain ⟨-, -, -, -, -, h⟩ := hq ci fv
  rw [← hp.vol, ← residual_crystal b _ ew sw _ ci c f hb.start (C113_ang edge cut scale c f hr hb hsym b P h1 h3 hs ew sw ci fv)]
  exact h

/-- **Objective, angular potentials**: squared reference stresses of configurations which do not use stresses are counted too. -/
theorem C113_ang_objective (cut : Cutoffs) (hsym : ∀ s t, cut.rcut s t = cut.rcut t s) (b : Build) (P : AngPots ℝ)
    (ew sw w : ℝ) (qs : List (Bound ℝ)) (eopp univ : List (Nat × ℝ)) (L : List (Cell × Conf ℝ))
    (hL : ∀ x ∈ L, PreparedFull cut x.1 x.2 ∧ PairReach cut P.toPots x.1 ∧ ReachF cut P x.1 ∧ AngClear P x.1)
    (v v' : PairVec ℝ) (y : ℝ) (h : angObjective b P ew sw w qs eopp univ (L.map Prod.snd) v = .ok (v', y)) :
    y = (L.map fun x => crystalError b (latticeAng P) ew sw (cellVolume x.1.box.edge) x.1 x.2 +
        if b.stress = true ∧ ¬ (x.2.uf = true ∧ x.2.us = true) then x.2.weight * sw * ∑ k : Fin 6, x.2.stress0 k ^ 2 else 0).sum +
      if b.apot = true then totalPenalty w qs eopp univ else 0 := by
  have key := cells_total (angConf b P ew sw)
    (fun x => crystalError b (latticeAng P) ew sw (cellVolume x.1.box.edge) x.1 x.2 + stressOffset b sw x.2)
    (AddMonoidHom.id ℝ) L (fun x hx ci fv => by
      obtain ⟨g1, g2, g3, g4⟩ := hL x hx
      exact ang_part hsym b P g1 g2 g3 g4 ew sw ci fv) 0 (v.fv, 0)
  obtain ⟨-, h2⟩ := sumObjective_ok _ _ w qs eopp univ _ v v' y h
  simp only [AddMonoidHom.id_apply, zero_add] at key
  rw [h2, key]
  rfl

/-- **Objective, angular potentials, partial**: if configurations which do not use stresses have vanishing reference stresses.
Missing: otherwise they are counted (`C63_ang_stress_violated`). -/
theorem C113_ang_partial (cut : Cutoffs) (hsym : ∀ s t, cut.rcut s t = cut.rcut t s) (b : Build) (P : AngPots ℝ)
    (ew sw w : ℝ) (qs : List (Bound ℝ)) (eopp univ : List (Nat × ℝ)) (L : List (Cell × Conf ℝ))
    (hL : ∀ x ∈ L, PreparedFull cut x.1 x.2 ∧ PairReach cut P.toPots x.1 ∧ ReachF cut P x.1 ∧ AngClear P x.1)
    (hu : StressesUsed b (L.map Prod.snd)) (v v' : PairVec ℝ) (y : ℝ)
    (h : angObjective b P ew sw w qs eopp univ (L.map Prod.snd) v = .ok (v', y)) :
    y = (L.map fun x => crystalError b (latticeAng P) ew sw (cellVolume x.1.box.edge) x.1 x.2).sum +
      if b.apot = true then totalPenalty w qs eopp univ else 0 := by
  rw [C113_ang_objective cut hsym b P ew sw w qs eopp univ L hL v v' y h]
  congr 2
  apply List.map_congr_left
  intro x hx
  have := stressOffset_used hu sw (List.mem_map_of_mem (f := Prod.snd) hx)
  unfold stressOffset at this
  rw [this, add_zero]

/-- The densities which the routine computes are those of the crystal. -/
theorem built_density {edge : Fin 3 → V3 ℝ} {cut : Cutoffs} {scale : Fin 3 → ℤ} {c : Cell} {f : Conf ℝ} (hr : Ready edge cut scale c)
    (hf : Built true cut scale c f) {P : AngPots ℝ} (hpc : P.paircol = c.paircol) (h1 : TransferReach cut P.toEamPots c)
    (h2 : ReachF cut P c) (g : Nat → ℝ → ℝ) :
    (f.atoms.map fun a => g a.typ (siteDensity P a)).sum =
      ∑ i ∈ Finset.range c.sites.length, g (c.site i).typ (latticeMeamDensity P c i) := by
  obtain ⟨H, g1, g2, g3⟩ := built_lists hr hf
  have hH : FullOf cut c H := ⟨g1, g2⟩
  have h := sum_zipIdx f.atoms (fun a _ => g a.typ (siteDensity P a)) 0 ⟨0, [], 0, false⟩
  have e : (f.atoms.map fun a => g a.typ (siteDensity P a)) = (f.atoms.zipIdx.map fun x => g x.1.typ (siteDensity P x.1)) := by
    have : (f.atoms.zipIdx.map fun x => g x.1.typ (siteDensity P x.1)) =
        (f.atoms.zipIdx.map Prod.fst).map fun a => g a.typ (siteDensity P a) := by rw [List.map_map]; rfl
    rw [this, List.zipIdx_map_fst]
  rw [e, h, hf.count]
  apply Finset.sum_congr rfl
  intro i hi
  rw [Finset.mem_range] at hi
  have hi' : i < f.atoms.length := by rw [hf.count]; exact hi
  have ha := List.getElem?_eq_getElem hi'
  rw [List.getD_eq_getElem?_getD, ha, Option.getD_some, hf.typ i _ ha, ← meamDensity_spec,
    ← meam_density near_self hH hpc h1 h2 hi f.atoms[i].absforce f.atoms[i].contrib]
  congr 2
  have e1 := g3 i _ ha
  have e2 := hf.typ i _ ha
  revert e1 e2
  generalize f.atoms[i] = a
  cases a
  intro e1 e2
  simp only at e1 e2 ⊢
  rw [e1, e2]
  congr 1
  apply List.map_congr_left
  intro m _
  rw [← placed_link, ← reach_link]
  rfl

theorem meam_part {cut : Cutoffs} (hsym : ∀ s t, cut.rcut s t = cut.rcut t s) (b : Build) (P : AngPots ℝ)
    (hP : ∀ col, P.beg col ≤ P.fin col) {c : Cell} {f : Conf ℝ} (hp : PreparedFull cut c f) (hpc : P.paircol = c.paircol)
    (h1 : PairReach cut P.toPots c) (h2 : TransferReach cut P.toEamPots c) (h3 : ReachF cut P c) (hs : MeamClear b P c) (ew sw : ℝ)
    (ci : Nat) (fv : FV ℝ) :
    (meamConf b P ew sw ci f fv).2.1 = crystalError b (latticeMeam b P) ew sw (cellVolume c.box.edge) c f + stressOffset b sw f +
      (if b.rescale = true then (f.weight * (latticeMeamExcess P c - f.limit0)) ^ 2 else 0) ∧
    (b.rescale = false → (meamConf b P ew sw ci f fv).2.2 = ∑ i ∈ Finset.range c.sites.length, latticeMeamDensity P c i) := by
  obtain ⟨edge, scale, hr, -, -, hb⟩ := hp.made
  have hi := built_inside hr hb
  obtain ⟨E, F, S, -, -, hq⟩ := meamConf_result b P ew sw f hi
  obtain ⟨-, -, -, -, -, h, h'⟩ := hq ci fv
  rw [← hp.vol, ← residual_crystal b _ ew sw _ ci c f hb.start (C113_meam edge cut scale c f hr hb hsym b P hpc h1 h2 h3 hs ew sw ci fv)]
  refine ⟨?_, ?_⟩
  · rw [h]
    congr 1
    by_cases hbr : b.rescale = true
    · rw [if_pos hbr, if_pos hbr]
      simp only [meamSiteEmbed_limit b hbr P hP]
      rw [built_density hr hb hpc h2 h3 (fun t x => 1000 * (max 0 (P.beg (P.paircol + P.ntypes + t) - x) +
        max 0 (x - P.fin (P.paircol + P.ntypes + t))) ^ 2), mul_comm f.weight]
      rfl
    · rw [if_neg hbr, if_neg hbr]
  · intro hbr
    rw [h']
    simp only [meamSiteEmbed_rho b hbr]
    exact built_density hr hb hpc h2 h3 fun _ x => x

/-- **Objective, MEAM.** Besides the deviations from the crystals: reference stresses of configurations which do not use them, the
limiting constraint (`RESCALE`) with the square of the weight, the constraint on the mean density of all crystals. -/
theorem C113_meam_objective (cut : Cutoffs) (hsym : ∀ s t, cut.rcut s t = cut.rcut t s) (b : Build) (P : AngPots ℝ)
    (hP : ∀ col, P.beg col ≤ P.fin col) (ew sw w : ℝ) (qs : List (Bound ℝ)) (eopp univ : List (Nat × ℝ)) (natoms : Nat)
    (L : List (Cell × Conf ℝ))
    (hL : ∀ x ∈ L, PreparedFull cut x.1 x.2 ∧ P.paircol = x.1.paircol ∧ PairReach cut P.toPots x.1 ∧
      TransferReach cut P.toEamPots x.1 ∧ ReachF cut P x.1 ∧ MeamClear b P x.1)
    (v v' : MeamVec ℝ) (y : ℝ) (h : meamObjective b P ew sw w qs eopp univ natoms (L.map Prod.snd) v = .ok (v', y)) :
    y = (L.map fun x => crystalError b (latticeMeam b P) ew sw (cellVolume x.1.box.edge) x.1 x.2 +
        (if b.stress = true ∧ ¬ (x.2.uf = true ∧ x.2.us = true) then x.2.weight * sw * ∑ k : Fin 6, x.2.stress0 k ^ 2 else 0) +
        if b.rescale = true then (x.2.weight * (latticeMeamExcess P x.1 - x.2.limit0)) ^ 2 else 0).sum +
      (if b.apot = true then totalPenalty w qs eopp univ else 0) +
      if b.rescale = true then 0 else
        (100 * ((L.map fun x => ∑ i ∈ Finset.range x.1.sites.length, latticeMeamDensity P x.1 i).sum / (natoms : ℝ) - 1)) ^ 2 := by
  have key := cells_total (meamConf b P ew sw)
    (fun x => crystalError b (latticeMeam b P) ew sw (cellVolume x.1.box.edge) x.1 x.2 + stressOffset b sw x.2 +
      if b.rescale = true then (x.2.weight * (latticeMeamExcess P x.1 - x.2.limit0)) ^ 2 else 0)
    (AddMonoidHom.fst ℝ ℝ) L (fun x hx ci fv => by
      obtain ⟨g1, g2, g3, g4, g5, g6⟩ := hL x hx
      exact (meam_part hsym b P hP g1 g2 g3 g4 g5 g6 ew sw ci fv).1) 0 (v.fv, 0)
  simp only [AddMonoidHom.coe_fst, Prod.fst_zero, zero_add] at key
  have hd : (meamDummy b P.ntypes natoms (confLoop (meamConf b P ew sw) (L.map Prod.snd) 0 (v.fv, 0)).2.2 v.dummy).2 =
      if b.rescale = true then 0 else
        (100 * ((L.map fun x => ∑ i ∈ Finset.range x.1.sites.length, latticeMeamDensity P x.1 i).sum / (natoms : ℝ) - 1)) ^ 2 := by
    unfold meamDummy
    by_cases hb : b.rescale = true
    · rw [if_pos hb, if_pos hb]
    · have key2 := cells_total (meamConf b P ew sw)
        (fun x => ∑ i ∈ Finset.range x.1.sites.length, latticeMeamDensity P x.1 i)
        (AddMonoidHom.snd ℝ ℝ) L (fun x hx ci fv => by
          obtain ⟨g1, g2, g3, g4, g5, g6⟩ := hL x hx
          exact (meam_part hsym b P hP g1 g2 g3 g4 g5 g6 ew sw ci fv).2 (by simpa using hb)) 0 (v.fv, 0)
      simp only [AddMonoidHom.coe_snd, Prod.snd_zero, zero_add] at key2
      rw [if_neg hb, if_neg hb, key2]
      simp only [dummyWeight]
      ring
  unfold meamObjective at h
  by_cases hb : b.apot = true
  · rw [if_pos hb] at h
    cases hp : apotPunish w qs eopp univ v.par v.pot with
    | error e => simp [hp, bind, Except.bind] at h
    | ok p =>
      simp only [hp, bind, Except.bind, Except.ok.injEq, Prod.mk.injEq] at h
      rw [← h.2, apotPunish_sum w qs eopp univ _ _ p hp, if_pos hb]
      show (confLoop (meamConf b P ew sw) (L.map Prod.snd) 0 (v.fv, 0)).2.1 + _ +
        (meamDummy b P.ntypes natoms (confLoop (meamConf b P ew sw) (L.map Prod.snd) 0 (v.fv, 0)).2.2 v.dummy).2 = _
      rw [key, hd]
      rfl
  · rw [if_neg hb] at h
    simp only [Except.ok.injEq, Prod.mk.injEq] at h
    rw [← h.2, if_neg hb, add_zero]
    show (confLoop (meamConf b P ew sw) (L.map Prod.snd) 0 (v.fv, 0)).2.1 +
      (meamDummy b P.ntypes natoms (confLoop (meamConf b P ew sw) (L.map Prod.snd) 0 (v.fv, 0)).2.2 v.dummy).2 = _
    rw [key, hd]
    rfl

/-! ### Small cells -/

/-- Functions with range 3/2 which end smoothly. -/
noncomputable def smallSw : SwPots ℝ where
  fin := fun _ => 3 / 2
  beg := fun _ => 0
  step := fun _ => 1
  val := fun _ r => (r - 3 / 2) ^ 2
  grad := fun _ r => 2 * (r - 3 / 2)
  fin3 := fun _ => 3 / 2
  f := fun _ r => (r - 3 / 2) ^ 2
  df := fun _ r => 2 * (r - 3 / 2) / r
  lambda := fun _ _ _ => 1

noncomputable def smallAng : AngPots ℝ where
  fin := fun col => if col = 2 then 1000 else 3 / 2
  val := fun col r => if col = 2 ∨ col = 4 then r ^ 2 else (r - 3 / 2) ^ 2
  grad := fun col r => if col = 2 ∨ col = 4 then 2 * r else 2 * (r - 3 / 2)
  beg := fun _ => -1000
  step := fun _ => 1
  ana := fun _ y => (y ^ 2, 2 * y)
  paircol := 1
  ntypes := 1
  fcol := fun _ => 3
  gcol := fun _ => 4

theorem short_cut (r : ℝ) (h : r ≠ 3 / 2) : CutSlope (3 / 2) (fun r : ℝ => (r - 3 / 2) ^ 2) (2 * (r - 3 / 2)) r := by
  unfold CutSlope
  rcases lt_or_gt_of_ne h with h | h
  · rw [if_pos h]
    have := ((hasDerivAt_id r).sub_const (3 / 2)).pow 2
    refine (this.congr_of_eventuallyEq ?_).congr_deriv (by simp)
    filter_upwards [gt_mem_nhds h] with z hz
    rw [if_pos hz]
    rfl
  · rw [if_neg (not_lt.2 h.le)]
    refine (hasDerivAt_const r (0 : ℝ)).congr_of_eventuallyEq ?_
    filter_upwards [lt_mem_nhds h] with z hz
    rw [if_neg (not_lt.2 (le_of_lt hz))]

theorem thin_off_end (i : Nat) (hi : i < thin.sites.length) (m : Image) (hm : m ∈ Others thin i) :
    gapTo thin i m ≠ 3 / 2 ∧ gapTo thin i m ≠ 0 := by
  obtain rfl : i = 0 := by have : i < 1 := hi; omega
  rcases thin_gap m hm with ⟨h, -⟩ | h
  · rw [h]; norm_num
  · exact ⟨by intro e; linarith, by intro e; linarith⟩

theorem thin_full (uf us : Bool) : ∃ f : Conf ℝ, PreparedFull thinCut thin f ∧ f.uf = uf ∧ f.us = us := by
  obtain ⟨f, hf, -⟩ := thin_built true
  refine ⟨{ f with vol := 1 * 100, uf := uf, us := us }, ⟨(boxOf 1).edge, ![2, 1, 1], thin_ready, boxOf_made 1 one_pos, ?_,
    ⟨hf.start, hf.count, hf.typ, hf.lists⟩⟩, rfl, rfl⟩
  rw [((C24_partial (boxOf 1).edge).2 _ _ (boxOf_made 1 one_pos)).2.1.symm]
  norm_num

theorem small_clear : SwClear smallSw thin := by
  intro i hi m hm
  obtain ⟨o1, o2⟩ := thin_off_end i hi m hm
  refine ⟨short_cut _ o1, ?_⟩
  have e : 2 * (gapTo thin i m - 3 / 2) / gapTo thin i m * gapTo thin i m = 2 * (gapTo thin i m - 3 / 2) := by field_simp
  show CutSlope (3 / 2) (fun r : ℝ => (r - 3 / 2) ^ 2) (2 * (gapTo thin i m - 3 / 2) / gapTo thin i m * gapTo thin i m) _
  rw [e]
  exact short_cut _ o1

/-- Pair energy of the atom of the thin crystal with its images. -/
theorem thin_images {P : Pots ℝ} (hfin : ∀ col, P.fin col ≤ 2) {x : ℝ} (hphi : ∀ s t, phi P thin.ntypes s t 1 = x) :
    latticeOwn P thin = x := by
  have hne : (⟨0, ![1, 0, 0]⟩ : Image) ≠ ⟨0, ![-1, 0, 0]⟩ := by
    intro h
    have := congrFun (congrArg Image.n h) 0
    simp at this
  have hmem : ∀ m ∈ ({⟨0, ![1, 0, 0]⟩, ⟨0, ![-1, 0, 0]⟩} : Set Image), m ∈ {m ∈ Others thin 0 | m.j = 0} := by
    rintro m (rfl | rfl)
    · exact ⟨⟨one_pos, fun h => by simpa using congrFun h.2 0⟩, rfl⟩
    · exact ⟨⟨one_pos, fun h => by simpa using congrFun h.2 0⟩, rfl⟩
  have hone : ∀ m ∈ ({⟨0, ![1, 0, 0]⟩, ⟨0, ![-1, 0, 0]⟩} : Set Image), length (arrow thin 0 m) = 1 := by
    rintro m (rfl | rfl)
    · rw [thin_arrow 0 one_pos _ one_pos, length_three]; norm_num; rfl
    · rw [thin_arrow 0 one_pos _ one_pos, length_three]; norm_num; rfl
  unfold latticeOwn
  rw [show thin.sites.length = 1 from rfl, Finset.sum_range_one,
    ← finsum_mem_inter_support_eq _ ({⟨0, ![1, 0, 0]⟩, ⟨0, ![-1, 0, 0]⟩} : Set Image) {m ∈ Others thin 0 | m.j = 0} ?_,
    finsum_mem_pair hne, hone _ (Or.inl rfl), hone _ (Or.inr rfl), hphi]
  · ring
  · ext m
    simp only [Set.mem_inter_iff, Function.mem_support]
    constructor
    · rintro ⟨h1, h2⟩
      exact ⟨hmem m h1, h2⟩
    · rintro ⟨h1, h2⟩
      refine ⟨?_, h2⟩
      rcases thin_gap m h1.1 with ⟨-, h⟩ | h
      · exact h
      · exfalso
        apply h2
        unfold phi
        rw [if_neg]
        have := hfin (PairIndex.pairCol thin.ntypes (thin.site 0).typ (thin.site m.j).typ)
        unfold gapTo at h
        linarith

theorem thin_own : latticeOwn smallSw.toPots thin = 1 / 4 := by
  refine thin_images (fun _ => by norm_num [smallSw]) fun s t => ?_
  unfold phi
  rw [if_pos (by norm_num [smallSw])]
  norm_num [smallSw]

/-- **Stillinger-Weber, small cells: violated.** In a crystal whose atoms meet their own images within the range of the pair
functions the energy is not that of the crystal (own images are in both directions in the full lists, but their pair energy is
halved once more). -/
theorem C113_own_violated : ∃ (P : SwPots ℝ) (c : Cell) (f : Conf ℝ), PreparedFull thinCut c f ∧ PairReach thinCut P.toPots c ∧
    Reach3 thinCut P c ∧ SwClear P c ∧ ∀ (b : Build) (ew sw : ℝ) (ci : Nat) (fv : FV ℝ),
      (swConf b P ew sw ci f fv).1.energy ci ≠ latticeSw P c / (c.sites.length : ℝ) - f.energy0 := by
  obtain ⟨f, hf, -⟩ := thin_full true true
  refine ⟨smallSw, thin, f, hf, fun _ _ _ _ => le_refl _, fun _ _ _ _ => le_refl _, small_clear, ?_⟩
  intro b ew sw ci fv
  obtain ⟨edge, scale, hr, -, -, hb⟩ := hf.made
  rw [(C113_stiweb edge thinCut scale thin f hr hb (fun _ _ => rfl) b smallSw (fun _ _ _ => rfl) (fun _ _ _ _ => le_refl _)
    (fun _ _ _ _ => le_refl _) small_clear ew sw ci fv).1]
  unfold latticeSwHalved
  rw [thin_own, show thin.sites.length = 1 from rfl]
  intro h
  norm_num at h

/-- Hypotheses of `C113_stiweb` and `C113_stiweb_objective`. -/
example : ∃ f, (∀ x ∈ [(thin, f)], PreparedFull thinCut x.1 x.2 ∧ PairReach thinCut smallSw.toPots x.1 ∧ Reach3 thinCut smallSw x.1 ∧
    SwClear smallSw x.1) ∧ f.uf = true ∧ f.us = true ∧ (∀ s t u, smallSw.lambda s t u = smallSw.lambda s u t) := by
  obtain ⟨f, hf, h1, h2⟩ := thin_full true true
  refine ⟨f, ?_, h1, h2, fun _ _ _ => rfl⟩
  intro x hx
  obtain rfl := List.mem_singleton.1 hx
  exact ⟨hf, fun _ _ _ _ => le_refl _, fun _ _ _ _ => le_refl _, small_clear⟩

/-- Hypotheses of `C113_stiweb_partial`: pair functions of range 1/2, three-body functions of range 3/2. -/
example : PairReach thinCut { smallSw with fin := fun _ => 1 / 2 } thin ∧ Reach3 thinCut { smallSw with fin := fun _ => 1 / 2 } thin ∧
    SwClear { smallSw with fin := fun _ => 1 / 2 } thin ∧ OwnApart { smallSw with fin := fun _ => 1 / 2 } thin := by
  have hlt : ∀ i < thin.sites.length, ∀ m ∈ Others thin i, 1 / 2 < gapTo thin i m := by
    intro i hi m hm
    obtain rfl : i = 0 := by have : i < 1 := hi; omega
    rcases thin_gap m hm with ⟨h, -⟩ | h
    · rw [h]; norm_num
    · linarith
  refine ⟨fun _ _ _ _ => by show (1 / 2 : ℝ) ≤ 3 / 2; norm_num, fun _ _ _ _ => le_refl _, ?_, fun i hi m hm _ => hlt i hi m hm⟩
  intro i hi m hm
  refine ⟨?_, (small_clear i hi m hm).2⟩
  have h := hlt i hi m hm
  show CutSlope (1 / 2) _ _ _
  unfold CutSlope
  rw [if_neg (not_lt.2 h.le)]
  refine (hasDerivAt_const _ (0 : ℝ)).congr_of_eventuallyEq ?_
  filter_upwards [lt_mem_nhds h] with z hz
  rw [if_neg (not_lt.2 (le_of_lt hz))]

theorem small_ang : PairReach thinCut smallAng.toPots thin ∧ TransferReach thinCut smallAng.toEamPots thin ∧
    ReachF thinCut smallAng thin ∧ AngClear smallAng thin := by
  have hcol : ∀ i < thin.sites.length, ∀ j < thin.sites.length, pairColumn thin i j = 0 := by
    intro i hi j hj
    obtain rfl : i = 0 := by have : i < 1 := hi; omega
    obtain rfl : j = 0 := by have : j < 1 := hj; omega
    rfl
  refine ⟨fun i hi j hj => ?_, fun i hi j hj => ?_, fun i hi j hj => ?_, ?_⟩
  · rw [hcol i hi j hj]
    show (if (0 : ℕ) = 2 then (1000 : ℝ) else 3 / 2) ≤ 3 / 2
    norm_num
  · obtain rfl : j = 0 := by have : j < 1 := hj; omega
    show (if (1 + 0 : ℕ) = 2 then (1000 : ℝ) else 3 / 2) ≤ 3 / 2
    norm_num
  · show (if (3 : ℕ) = 2 then (1000 : ℝ) else 3 / 2) ≤ 3 / 2
    norm_num
  · intro i hi m hm
    obtain ⟨o1, o2⟩ := thin_off_end i hi m hm
    rw [hcol i hi m.j hm.1]
    exact ⟨short_cut _ o1, short_cut _ o1, fun n _ => square_deriv _⟩

/-- Hypotheses of the theorems on angular potentials. -/
example : ∃ f, (∀ x ∈ [(thin, f)], PreparedFull thinCut x.1 x.2 ∧ PairReach thinCut smallAng.toPots x.1 ∧ ReachF thinCut smallAng x.1 ∧
    AngClear smallAng x.1) ∧ StressesUsed ⟨true, false, false, false, true, false⟩ [f] := by
  obtain ⟨f, hf, h1, h2⟩ := thin_full true true
  refine ⟨f, ?_, ?_⟩
  · intro x hx
    obtain rfl := List.mem_singleton.1 hx
    exact ⟨hf, small_ang.1, small_ang.2.2.1, small_ang.2.2.2⟩
  · intro c hc _ h
    obtain rfl := List.mem_singleton.1 hc
    exact absurd ⟨h1, h2⟩ h

/-- Hypotheses of the theorems on MEAM. -/
example : ∃ f, (∀ x ∈ [(thin, f)], PreparedFull thinCut x.1 x.2 ∧ smallAng.paircol = x.1.paircol ∧ PairReach thinCut smallAng.toPots x.1 ∧
    TransferReach thinCut smallAng.toEamPots x.1 ∧ ReachF thinCut smallAng x.1 ∧
    MeamClear ⟨true, false, false, false, true, false⟩ smallAng x.1) ∧ f.uf = true ∧ f.us = true ∧
    ∀ col, smallAng.beg col ≤ smallAng.fin col := by
  obtain ⟨f, hf, h1, h2⟩ := thin_full true true
  refine ⟨f, ?_, h1, h2, ?_⟩
  · intro x hx
    obtain rfl := List.mem_singleton.1 hx
    refine ⟨hf, rfl, small_ang.1, small_ang.2.1, small_ang.2.2.1, small_ang.2.2.2, ?_⟩
    intro i hi
    obtain rfl : i = 0 := by have : i < 1 := hi; omega
    refine ⟨?_, ?_⟩
    · intro m hm
      have hj : m.j = 0 := by have : m.j < 1 := hm.1; omega
      rw [hj]
      exact short_cut _ (thin_off_end 0 hi m hm).1
    · have e : ∀ y : ℝ, (meamEmbed ⟨true, false, false, false, true, false⟩ smallAng.toEamPots 2 y).value = y ^ 2 ∧
          (meamEmbed ⟨true, false, false, false, true, false⟩ smallAng.toEamPots 2 y).grad = 2 * y := by
        intro y
        unfold meamEmbed embed
        simp only [Bool.false_eq_true, if_false, if_true]
        by_cases h : y < smallAng.beg 2 ∨ smallAng.fin 2 < y ∨ y < 1 / 10
        · simp only [if_pos h]
          exact ⟨rfl, rfl⟩
        · simp only [if_neg h]
          simp [smallAng]
      show HasDerivAt (fun y => (meamEmbed _ smallAng.toEamPots 2 y).value) (meamEmbed _ smallAng.toEamPots 2 _).grad _
      simp only [e]
      exact square_deriv _
  · intro col
    show (-1000 : ℝ) ≤ if col = 2 then 1000 else 3 / 2
    split <;> norm_num

end Verif.Props
