/-
C115  Point charges: energies, forces, stresses and objective are those of the infinite periodic crystals.

Builds with `COULOMB` and without `DIPOLE`.  As in C100 energies are lattice sums over all images of all atoms
(`Spec/CrystalCharges.lean`), forces and stresses minus their derivatives with respect to positions and strains, and nothing is
kept fixed while deriving.
-/
import Verif.Spec.CrystalCharges
import Verif.Props.C67
import Verif.Props.C79
import Verif.Props.C110

set_option linter.unusedSectionVars false

namespace Verif.Props

open Verif.Force hiding Cell
open Verif.Neighbors Verif.Spec Verif.Tails Topology

/-- The cutoff of the electrostatic interaction is not beyond the cutoff of the neighbour lists. -/
def ChargeReach (cut : Cutoffs) (rc : ℝ) (c : Cell) : Prop :=
  ∀ i < c.sites.length, ∀ j < c.sites.length, rc ≤ cut.rcut (c.site i).typ (c.site j).typ

/-- The tail function has the slope given at all distances of the crystal (the program stops if atoms coincide). -/
def TailClear (E : Elec ℝ) (c : Cell) : Prop :=
  ∀ i < c.sites.length, ∀ m ∈ Others c i, gapTo c i m ≠ 0 → TailSmooth false E (gapTo c i m)

/-- The energy of the crystal for given electrostatic parameters. -/
noncomputable def elecLattice (P : Pots ℝ) (E : Elec ℝ) : Cell → ℝ :=
  latticeCoulomb P E.cut E.charge (fun r => (E.tail r).fn) E.selfCoef

section
variable {edge : Fin 3 → V3 ℝ} {cut : Cutoffs} {scale : Fin 3 → ℤ} {c : Cell} {f : Conf ℝ} {now : ℝ} {C : ℝ → Cell}

/-- Interaction of the charges in the lists and in the crystal while it is deformed. -/
theorem deform_charges (hr : Ready edge cut scale c) (hD : Deform c now C) (hf : Built false cut scale c f)
    (hsym : ∀ s t, cut.rcut s t = cut.rcut t s) {H : Nat → List Image} (hn : ∀ i < c.sites.length, (H i).Nodup)
    (hm : ∀ i < c.sites.length, ∀ m, m ∈ H i ↔ Wanted false cut c i m) {rf : ℝ → Nat → Link → V3 ℝ} (ha : Along c C rf)
    (E : Elec ℝ) (hreach : ChargeReach cut E.cut c) :
    ∀ᶠ t in 𝓝 now, latticeCharges E.cut E.charge (fun r => (E.tail r).fn) (C t) =
      ((entries (placeWith f (nodesFrom c H 0 f.atoms) (rf t))).map (coulombEnergy E)).sum := by
  let L := readyLists hr
  filter_upwards [hD.unlisted hr] with t ht
  have hb := sum_bonds c H (fun b => coulombEnergy E (b.entryAt (rf t))) f.atoms (fun i => (c.site i).typ) c.start 0
    (fun k a h => by rw [Nat.zero_add]; exact hf.typ k a h)
  simp only [Nat.zero_add, Nat.add_zero] at hb
  rw [entries_placeWith, List.map_map, hf.start]
  change _ = ((bondsFrom c.start (nodesFrom c H 0 f.atoms)).map fun b => coulombEnergy E (b.entryAt (rf t))).sum
  rw [hb, hf.count]
  have h1 := L.half_sum hsym H hn hm (fun i m => if length (arrow (C t) i m) < E.cut then
      E.charge (c.site i).typ * E.charge (c.site m.j).typ * (E.tail (length (arrow (C t) i m))).fn else 0)
    (fun i m => by
      simp only [length_back]
      rw [mul_comm (E.charge _)])
  have h2 : ∀ i ∈ Finset.range c.sites.length,
      ((H i).map fun m => coulombEnergy E (Bond.entryAt (rf t) ⟨c.start + i, (c.site i).typ, bondOf c i m⟩)).sum =
      ((H i).map fun m => if m.j = i then (if length (arrow (C t) i m) < E.cut then
          E.charge (c.site i).typ * E.charge (c.site m.j).typ * (E.tail (length (arrow (C t) i m))).fn else 0) / 2 else
        if length (arrow (C t) i m) < E.cut then
          E.charge (c.site i).typ * E.charge (c.site m.j).typ * (E.tail (length (arrow (C t) i m))).fn else 0).sum := by
    intro i hi
    rw [Finset.mem_range] at hi
    congr 1
    apply List.map_congr_left
    intro m hmem
    have hw := (hm i hi m).1 hmem
    have e := ha t i hi m hw.1
    have q1 : (Bond.entryAt (rf t) ⟨c.start + i, (c.site i).typ, bondOf c i m⟩).n.r = length (arrow (C t) i m) := by
      show length (rf t (c.start + i) (bondOf c i m)) = _
      rw [e]
    have q2 : (Bond.entryAt (rf t) ⟨c.start + i, (c.site i).typ, bondOf c i m⟩).n.nr = c.start + m.j := rfl
    have q3 : (Bond.entryAt (rf t) ⟨c.start + i, (c.site i).typ, bondOf c i m⟩).own = c.start + i := rfl
    have q4 : (Bond.entryAt (rf t) ⟨c.start + i, (c.site i).typ, bondOf c i m⟩).n.typ = (c.site m.j).typ := rfl
    have q5 : (Bond.entryAt (rf t) ⟨c.start + i, (c.site i).typ, bondOf c i m⟩).otyp = (c.site i).typ := rfl
    unfold coulombEnergy share
    rw [q1, q2, q3, q4, q5]
    have p1 : (c.start + m.j = c.start + i) ↔ m.j = i := by omega
    simp only [p1]
    by_cases hmi : m.j = i
    · simp only [if_pos hmi]
      split
      · ring
      · simp
    · simp only [if_neg hmi, one_mul]
  rw [Finset.sum_congr rfl h2, h1]
  unfold latticeCharges
  rw [hD.count]
  apply Finset.sum_congr rfl
  intro i hi
  rw [Finset.mem_range] at hi
  rw [L.latticeSum_eq (C t) (hD.count t) hi, hD.typ]
  · simp only [hD.typ]
  · intro m hmo hw
    have := ht i hi m hmo hw
    rw [if_neg (not_lt.2 ((hreach i hi m.j hmo.1).trans this))]

/-- Types of the atoms of a configuration. -/
theorem charge_squares (hf : Built false cut scale c f) (q : Nat → ℝ) (ts : List Node)
    (hts : ts = nodesFrom c (H : Nat → List Image) 0 f.atoms) (rf : Nat → Link → V3 ℝ) :
    ((placeWith f ts rf).atoms.map fun a => q a.typ ^ 2).sum = ∑ i ∈ Finset.range c.sites.length, q (c.site i).typ ^ 2 := by
  subst hts
  have h1 : ∀ (us : List Node) (i : Nat), (placeWithFrom rf i us).map (fun a => q a.typ ^ 2) = us.map fun u => q u.typ ^ 2 := by
    intro us
    induction us with
    | nil => intro i; rfl
    | cons u us ih => intro i; simp only [placeWithFrom, List.map_cons, ih]
  have h2 : ∀ (as : List (Atom ℝ)) (i : Nat), (nodesFrom c H i as).map (fun u => q u.typ ^ 2) = as.map fun a => q a.typ ^ 2 := by
    intro as
    induction as with
    | nil => intro i; rfl
    | cons a as ih => intro i; simp only [nodesFrom, List.map_cons, ih]
  have h3 : ∀ (as : List (Atom ℝ)) (g : Nat → ℝ), (∀ k a, as[k]? = some a → q a.typ ^ 2 = g k) →
      (as.map fun a => q a.typ ^ 2).sum = ∑ i ∈ Finset.range as.length, g i := by
    intro as
    induction as with
    | nil => intro g _; simp
    | cons a as ih =>
      intro g hg
      rw [List.map_cons, List.sum_cons, List.length_cons, Finset.sum_range_succ', hg 0 a rfl,
        ih (fun k => g (k + 1)) fun k b hb => hg (k + 1) b hb, add_comm]
  show (List.map _ (placeWithFrom rf f.start _)).sum = _
  rw [h1, h2, ← hf.count]
  exact h3 _ _ fun k a h => by rw [hf.typ k a h]

theorem deform_coulomb (hr : Ready edge cut scale c) (hD : Deform c now C) (hf : Built false cut scale c f)
    (hsym : ∀ s t, cut.rcut s t = cut.rcut t s) {H : Nat → List Image} (hn : ∀ i < c.sites.length, (H i).Nodup)
    (hm : ∀ i < c.sites.length, ∀ m, m ∈ H i ↔ Wanted false cut c i m) {rf : ℝ → Nat → Link → V3 ℝ} (ha : Along c C rf)
    (P : Pots ℝ) (E : Elec ℝ) (h1 : PairReach cut P c) (h2 : ChargeReach cut E.cut c) :
    ∀ᶠ t in 𝓝 now, elecLattice P E (C t) = coulombTotal P E (placeWith f (nodesFrom c H 0 f.atoms) (rf t)) := by
  filter_upwards [hD.pair hr hf hsym hn hm ha P h1, deform_charges hr hD hf hsym hn hm ha E h2] with t e1 e2
  unfold elecLattice latticeCoulomb coulombTotal
  rw [e1, e2, charge_squares hf E.charge _ rfl, hD.count]
  simp only [hD.typ]

theorem tail_clear (hf : Built false cut scale c f) {E : Elec ℝ} (h : TailClear E c) {ts : List Node} {x : Nat → V3 ℝ}
    (hp : place f ts x = f) : ElSmooth false E f ts x := by
  intro e he
  rw [hp] at he
  obtain ⟨i, m, hi, hm, -, -, -, h4, h5⟩ := entry_image hf he
  rw [h4]
  exact h i hi m hm h5

theorem coulomb_rate (hf : Built false cut scale c f) {P : Pots ℝ} {E : Elec ℝ} (hs : PairClear P c) (ht : TailClear E c)
    {H : Nat → List Image} (g3 : ∀ i a, f.atoms[i]? = some a → a.neigh = (H i).map (entryOf c i)) (M : Motion)
    (hM : M.path M.now = reach (posOf c)) :
    HasDerivAt (fun t => coulombTotal P E (placeWith f (nodesFrom c H 0 f.atoms) (M.path t)))
      (totalRate M (coulombFull P E) f (nodesFrom c H 0 f.atoms)) M.now := by
  have hp := place_nodes hf g3
  have h := rate_elTotal M false P E 0 f (nodesFrom c H 0 f.atoms) (pairSmooth_now (clear_pairSmooth hf hs hp) hM)
    (elSmooth_now (tail_clear hf ht hp) hM)
  simp only [elTotal_false, elVec_false] at h
  exact h

theorem coulomb_force (hr : Ready edge cut scale c) (hf : Built false cut scale c f)
    (hsym : ∀ s t, cut.rcut s t = cut.rcut t s) {P : Pots ℝ} {E : Elec ℝ} (h1 : PairReach cut P c) (h2 : ChargeReach cut E.cut c)
    (hs : PairClear P c) (ht : TailClear E c) (j : Nat) (hj : j < c.sites.length) (k : Fin 3) :
    HasDerivAt (fun y => elecLattice P E (displaced c j k y)) (-vecForce (coulombFull P E) f (c.start + j) k)
      ((c.site j).pos k) := by
  obtain ⟨H, g1, g2, g3⟩ := built_lists hr hf
  have hp := place_nodes hf g3
  have hev := deform_coulomb hr (deform_displaced c j k hj) hf hsym g1 g2 (along_displaced c j k hj) P E h1 h2
  have hd := coulomb_rate hf hs ht g3 (moving (posOf c) (c.start + j) k) (moving_now _ _ _)
  have hx : (moving (posOf c) (c.start + j) k).now = (c.site j).pos k := by
    show posOf c (c.start + j) k = _
    unfold posOf; rw [Nat.add_sub_cancel_left]
  rw [totalRate_moving, hp, hx] at hd
  exact hd.congr_of_eventuallyEq hev

theorem coulomb_strain (hr : Ready edge cut scale c) (hf : Built false cut scale c f)
    (hsym : ∀ s t, cut.rcut s t = cut.rcut t s) {P : Pots ℝ} {E : Elec ℝ} (h1 : PairReach cut P c) (h2 : ChargeReach cut E.cut c)
    (hs : PairClear P c) (ht : TailClear E c) (k : Fin 6) :
    HasDerivAt (fun e => elecLattice P E (strainedCell c (voigt k).2 (voigt k).1 e)) (-vecStress (coulombFull P E) f k) 0 := by
  obtain ⟨H, g1, g2, g3⟩ := built_lists hr hf
  have hp := place_nodes hf g3
  have hev := deform_coulomb hr (deform_strained c (voigt k).2 (voigt k).1) hf hsym g1 g2
    (along_strained c (voigt k).2 (voigt k).1) P E h1 h2
  have hd := coulomb_rate hf hs ht g3 (straining (posOf c) (voigt k).2 (voigt k).1) (straining_now _ _ _)
  rw [totalRate_straining, hp] at hd
  refine (hd.congr_of_eventuallyEq hev).congr_deriv ?_
  unfold vecStress
  rw [neg_neg]
  congr 1
  apply List.map_congr_left
  intro e _
  ring

/-- Energy of the crystal and in the lists. -/
theorem lattice_coulomb (hr : Ready edge cut scale c) (hf : Built false cut scale c f)
    (hsym : ∀ s t, cut.rcut s t = cut.rcut t s) {P : Pots ℝ} {E : Elec ℝ} (h1 : PairReach cut P c)
    (h2 : ChargeReach cut E.cut c) : elecLattice P E c = coulombTotal P E f := by
  obtain ⟨H, g1, g2, g3⟩ := built_lists hr hf
  have hp := place_nodes hf g3
  have hev := (deform_coulomb hr (deform_strained c 0 0) hf hsym g1 g2 (along_strained c 0 0) P E h1 h2).self_of_nhds
  have hs : ∀ v : V3 ℝ, strained 0 0 0 v = v := by
    intro v; funext l
    simp [strained]
  have hc : strainedCell c 0 0 0 = c := by
    unfold strainedCell
    simp only [hs]
    simp
  have hq : (fun (i : Nat) (l : Link) => strained 0 0 0 (reach (posOf c) i l)) = reach (posOf c) := by
    funext i l
    exact hs _
  rw [hc, hq, placeWith_reach, hp] at hev
  exact hev

theorem built_half (hf : Built false cut scale c f) : HalfList f :=
  (C23_half cut scale c f hf ⟨⟨fun _ => 0, fun _ => 0, fun _ => 0, fun _ _ => 0, fun _ _ => 0⟩, c.paircol, c.ntypes, fun _ _ => (0, 0)⟩
    rfl).1

end

/-! ### The claims -/

section
variable (edge : Fin 3 → V3 ℝ) (cut : Cutoffs) (scale : Fin 3 → ℤ) (c : Cell) (f : Conf ℝ)
  (hr : Ready edge cut scale c) (hf : Built false cut scale c f) (hsym : ∀ s t, cut.rcut s t = cut.rcut t s)
include hr hf hsym

/-- **One crystal.** Energy, forces and stresses in the force vector, for any tail function. -/
theorem C115_crystal (b : Build) (P : Pots ℝ) (E : Elec ℝ) (h1 : PairReach cut P c) (h2 : ChargeReach cut E.cut c)
    (hs : PairClear P c) (ht : TailClear E c) (ew sw : ℝ) (ci : Nat) (s : ElState ℝ) :
    (elConf b false P E ew sw ci f s).1.fv.energy ci = elecLattice P E c / (c.sites.length : ℝ) - f.energy0 ∧
    (f.uf = true → ∀ j a, f.atoms[j]? = some a → ∀ k,
      DifferentiableAt ℝ (fun y => elecLattice P E (displaced c j k y)) ((c.site j).pos k) ∧
      (elConf b false P E ew sw ci f s).1.fv.force (c.start + j) k =
        (crystalForce (elecLattice P E) c j k - f.force0 (c.start + j) k) / forceScale b a) ∧
    (b.stress = true → f.uf = true → f.us = true → ∀ k,
      DifferentiableAt ℝ (fun e => elecLattice P E (strainedCell c (voigt k).2 (voigt k).1 e)) 0 ∧
      (elConf b false P E ew sw ci f s).1.fv.stress ci k = crystalVirial (elecLattice P E) c k / f.vol - f.stress0 k) := by
  have hh := built_half hf
  obtain ⟨-, p2, -, p4, -⟩ := elConf_spec b false P E ew sw ci f hh (built_aligned hf) (by simp) (by simp) s
  rw [elVec_false] at p2 p4
  refine ⟨?_, ?_, ?_⟩
  · rw [C67_energy b P E ew sw ci f hh (built_aligned hf), ← lattice_coulomb hr hf hsym h1 h2, hf.count]
  · intro hu j a ha k
    have hj : j < c.sites.length := by rw [← hf.count]; exact (List.getElem?_eq_some_iff.1 ha).1
    have hd := coulomb_force hr hf hsym h1 h2 hs ht j hj k
    refine ⟨hd.differentiableAt, ?_⟩
    unfold crystalForce
    rw [hd.deriv, neg_neg, ← hf.start, p2 j a ha, if_pos hu]
    unfold scaled forceScale
    by_cases hb : b.fweight = true
    · simp [hb, forceEps]
    · simp [hb]
  · intro hb hu hus k
    have hd := coulomb_strain hr hf hsym h1 h2 hs ht k
    refine ⟨hd.differentiableAt, ?_⟩
    unfold crystalVirial
    rw [hd.deriv, neg_neg, p4, if_pos hb, Function.update_self, hu, hus]
    simp only [Bool.and_self, if_true]

end

theorem error_coulomb {edge : Fin 3 → V3 ℝ} {cut : Cutoffs} {scale : Fin 3 → ℤ} {c : Cell} {f : Conf ℝ}
    (hr : Ready edge cut scale c) (hf : Built false cut scale c f) (hsym : ∀ s t, cut.rcut s t = cut.rcut t s)
    (b : Build) (P : Pots ℝ) (E : Elec ℝ) (h1 : PairReach cut P c) (h2 : ChargeReach cut E.cut c) (hs : PairClear P c)
    (ht : TailClear E c) (ew sw : ℝ) :
    vecConfError b (coulombFull P E) (coulombFull P E) (coulombTotal P E f) ew sw f =
      crystalError b (elecLattice P E) ew sw f.vol c f := by
  apply vecError_crystal b (elecLattice P E) _ _ _ ew sw (lattice_coulomb hr hf hsym h1 h2).symm hf.start hf.count
  · intro j hj k
    unfold crystalForce
    rw [(coulomb_force hr hf hsym h1 h2 hs ht j hj k).deriv, neg_neg]
  · intro _ _ _ k
    unfold crystalVirial
    rw [(coulomb_strain hr hf hsym h1 h2 hs ht k).deriv, neg_neg]

/-- **Objective**, for any tail function. -/
theorem C115_objective (cut : Cutoffs) (hsym : ∀ s t, cut.rcut s t = cut.rcut t s) (b : Build) (P : Pots ℝ) (E : Elec ℝ)
    (ew sw w : ℝ) (qs : List (Bound ℝ)) (eopp univ : List (Nat × ℝ)) (L : List (Cell × Conf ℝ))
    (hL : ∀ x ∈ L, Prepared cut x.1 x.2 ∧ PairReach cut P x.1 ∧ ChargeReach cut E.cut x.1 ∧ PairClear P x.1 ∧ TailClear E x.1)
    (v v' : ElVector ℝ) (y : ℝ) (h : elObjective b false P E ew sw w qs eopp univ (L.map Prod.snd) v = .ok (v', y)) :
    y = (L.map fun x => crystalError b (elecLattice P E) ew sw (cellVolume x.1.box.edge) x.1 x.2).sum +
      totalPenalty w qs eopp univ := by
  have hh : ∀ g ∈ L.map Prod.snd, HalfList g ∧ Aligned g := by
    intro g hg
    obtain ⟨x, hx, rfl⟩ := List.mem_map.1 hg
    obtain ⟨edge, scale, -, -, -, hb⟩ := (hL x hx).1.made
    exact ⟨built_half hb, built_aligned hb⟩
  have hsum : ((L.map Prod.snd).map fun g => vecConfError b (coulombFull P E) (coulombFull P E) (coulombTotal P E g) ew sw g) =
      L.map fun x => crystalError b (elecLattice P E) ew sw (cellVolume x.1.box.edge) x.1 x.2 := by
    rw [List.map_map]
    apply List.map_congr_left
    intro x hx
    obtain ⟨g1, g2, g3, g4, g5⟩ := hL x hx
    obtain ⟨edge, scale, hr, -, -, hb⟩ := g1.made
    rw [Function.comp_apply, error_coulomb hr hb hsym b P E g2 g3 g4 g5, g1.vol]
  rw [C67_objective b P E ew sw w qs eopp univ _ hh v v' y h, hsum]

/-! ### EAM with charges -/

/-- The energy of the crystal for given electrostatic parameters; the densities of atoms below the begin of the embedding
function are replaced by its begin (`Build.clamped`, C79). -/
noncomputable def eamElecLattice (b : Build) (P : EamPots ℝ) (E : Elec ℝ) : Cell → ℝ :=
  latticeEamCoulomb b.clamped P E.cut E.charge (fun r => (E.tail r).fn) E.selfCoef

/-- What the hypotheses of the theorems on one crystal have in common. -/
structure ChargedEam (b : Build) (P : EamPots ℝ) (E : Elec ℝ) (cut : Cutoffs) (c : Cell) : Prop where
  cols : P.paircol = c.paircol
  pair : PairReach cut P.toPots c
  transfer : TransferReach cut P c
  charge : ChargeReach cut E.cut c
  pairs : PairClear P.toPots c
  transfers : TransferClear P c
  embeds : EmbedClear b.clamped P c
  tails : TailClear E c

section
variable {edge : Fin 3 → V3 ℝ} {cut : Cutoffs} {scale : Fin 3 → ℤ} {c : Cell} {f : Conf ℝ} {now : ℝ} {C : ℝ → Cell}
  {b : Build} {P : EamPots ℝ} {E : Elec ℝ}

theorem deform_eamCoulomb (hr : Ready edge cut scale c) (hD : Deform c now C) (hf : Built false cut scale c f)
    (hsym : ∀ s t, cut.rcut s t = cut.rcut t s) {H : Nat → List Image} (hn : ∀ i < c.sites.length, (H i).Nodup)
    (hm : ∀ i < c.sites.length, ∀ m, m ∈ H i ↔ Wanted false cut c i m) {rf : ℝ → Nat → Link → V3 ℝ} (ha : Along c C rf)
    (h : ChargedEam b P E cut c) :
    ∀ᶠ t in 𝓝 now, eamElecLattice b P E (C t) = coulombTotal P.toPots E (placeWith f (nodesFrom c H 0 f.atoms) (rf t)) +
      totalEmbedding b.clamped P (placeWith f (nodesFrom c H 0 f.atoms) (rf t)) := by
  filter_upwards [hD.eam hr hf hsym hn hm ha b.clamped P h.pair h.transfer, deform_charges hr hD hf hsym hn hm ha E h.charge] with t e1 e2
  unfold eamElecLattice latticeEamCoulomb coulombTotal
  rw [e1, e2, charge_squares hf E.charge _ rfl, hD.count]
  simp only [hD.typ]
  ring

theorem eamCoulomb_rate (hr : Ready edge cut scale c) (hf : Built false cut scale c f)
    (hsym : ∀ s t, cut.rcut s t = cut.rcut t s) (h : ChargedEam b P E cut c) {H : Nat → List Image}
    (g3 : ∀ i a, f.atoms[i]? = some a → a.neigh = (H i).map (entryOf c i)) (M : Motion) (hM : M.path M.now = reach (posOf c)) :
    HasDerivAt (fun t => coulombTotal P.toPots E (placeWith f (nodesFrom c H 0 f.atoms) (M.path t)) +
        totalEmbedding b.clamped P (placeWith f (nodesFrom c H 0 f.atoms) (M.path t)))
      (totalRate M (eamCoulombFull b P E f) f (nodesFrom c H 0 f.atoms)) M.now := by
  have hp := place_nodes hf g3
  obtain ⟨hh, hc⟩ := C23_half cut scale c f hf P h.cols
  have hd := rate_ee M b.clamped false P E 0 (embGrad b.clamped P f) f (nodesFrom c H 0 f.atoms) (posOf c) hM
    (by rw [hp]; exact hh) (by rw [hp]; exact hc) (clear_pairSmooth hf h.pairs hp) (clear_transferSmooth hf h.transfers hp)
    (clear_embedSmooth hr hf hsym h.transfer h.embeds hp) (tail_clear hf h.tails hp)
    (by rw [hp]; exact embGrad_isGradF b.clamped P f)
  simp only [elTotal_false] at hd
  refine hd.congr_deriv ?_
  congr 1
  funext e
  unfold eeVec eamCoulombFull
  rw [elVec_false]

theorem eamCoulomb_force (hr : Ready edge cut scale c) (hf : Built false cut scale c f)
    (hsym : ∀ s t, cut.rcut s t = cut.rcut t s) (h : ChargedEam b P E cut c) (j : Nat) (hj : j < c.sites.length) (k : Fin 3) :
    HasDerivAt (fun y => eamElecLattice b P E (displaced c j k y)) (-vecForce (eamCoulombFull b P E f) f (c.start + j) k)
      ((c.site j).pos k) := by
  obtain ⟨H, g1, g2, g3⟩ := built_lists hr hf
  have hp := place_nodes hf g3
  have hev := deform_eamCoulomb hr (deform_displaced c j k hj) hf hsym g1 g2 (along_displaced c j k hj) h
  have hd := eamCoulomb_rate hr hf hsym h g3 (moving (posOf c) (c.start + j) k) (moving_now _ _ _)
  have hx : (moving (posOf c) (c.start + j) k).now = (c.site j).pos k := by
    show posOf c (c.start + j) k = _
    unfold posOf; rw [Nat.add_sub_cancel_left]
  rw [totalRate_moving, hp, hx] at hd
  exact hd.congr_of_eventuallyEq hev

theorem eamCoulomb_strain (hr : Ready edge cut scale c) (hf : Built false cut scale c f)
    (hsym : ∀ s t, cut.rcut s t = cut.rcut t s) (h : ChargedEam b P E cut c) (k : Fin 6) :
    HasDerivAt (fun e => eamElecLattice b P E (strainedCell c (voigt k).2 (voigt k).1 e))
      (-vecStress (eamCoulombFull b P E f) f k) 0 := by
  obtain ⟨H, g1, g2, g3⟩ := built_lists hr hf
  have hp := place_nodes hf g3
  have hev := deform_eamCoulomb hr (deform_strained c (voigt k).2 (voigt k).1) hf hsym g1 g2
    (along_strained c (voigt k).2 (voigt k).1) h
  have hd := eamCoulomb_rate hr hf hsym h g3 (straining (posOf c) (voigt k).2 (voigt k).1) (straining_now _ _ _)
  rw [totalRate_straining, hp] at hd
  refine (hd.congr_of_eventuallyEq hev).congr_deriv ?_
  unfold vecStress
  rw [neg_neg]
  congr 1
  apply List.map_congr_left
  intro e _
  ring

theorem lattice_eamCoulomb (hr : Ready edge cut scale c) (hf : Built false cut scale c f)
    (hsym : ∀ s t, cut.rcut s t = cut.rcut t s) (h : ChargedEam b P E cut c) :
    eamElecLattice b P E c = coulombTotal P.toPots E f + totalEmbedding b.clamped P f := by
  obtain ⟨H, g1, g2, g3⟩ := built_lists hr hf
  have hp := place_nodes hf g3
  have hev := (deform_eamCoulomb hr (deform_strained c 0 0) hf hsym g1 g2 (along_strained c 0 0) h).self_of_nhds
  have hs : ∀ v : V3 ℝ, strained 0 0 0 v = v := by
    intro v; funext l
    simp [strained]
  have hc : strainedCell c 0 0 0 = c := by
    unfold strainedCell
    simp only [hs]
    simp
  have hq : (fun (i : Nat) (l : Link) => strained 0 0 0 (reach (posOf c) i l)) = reach (posOf c) := by
    funext i l
    exact hs _
  rw [hc, hq, placeWith_reach, hp] at hev
  exact hev

end

section
variable (edge : Fin 3 → V3 ℝ) (cut : Cutoffs) (scale : Fin 3 → ℤ) (c : Cell) (f : Conf ℝ)
  (hr : Ready edge cut scale c) (hf : Built false cut scale c f) (hsym : ∀ s t, cut.rcut s t = cut.rcut t s)
include hr hf hsym

/-- **One crystal, EAM.** Energy, forces and stresses in the force vector, for any tail function. -/
theorem C115_eam (b : Build) (P : EamPots ℝ) (E : Elec ℝ) (h : ChargedEam b P E cut c) (ew sw : ℝ) (ci : Nat) (s : EeState ℝ) :
    (eeConf b false P E ew sw ci f s).1.fv.energy ci = eamElecLattice b P E c / (c.sites.length : ℝ) - f.energy0 ∧
    (f.uf = true → ∀ j a, f.atoms[j]? = some a → ∀ k,
      DifferentiableAt ℝ (fun y => eamElecLattice b P E (displaced c j k y)) ((c.site j).pos k) ∧
      (eeConf b false P E ew sw ci f s).1.fv.force (c.start + j) k =
        (crystalForce (eamElecLattice b P E) c j k - f.force0 (c.start + j) k) / forceScale b a) ∧
    (b.stress = true → f.uf = true → f.us = true → ∀ k,
      DifferentiableAt ℝ (fun e => eamElecLattice b P E (strainedCell c (voigt k).2 (voigt k).1 e)) 0 ∧
      (eeConf b false P E ew sw ci f s).1.fv.stress ci k = crystalVirial (eamElecLattice b P E) c k / f.vol - f.stress0 k) := by
  obtain ⟨hh, hc⟩ := C23_half cut scale c f hf P h.cols
  obtain ⟨p0, -, -, p2, -, p4, -⟩ := eeConf_spec b false P E ew sw ci f hh hc (built_aligned hf) (by simp) (by simp) (by simp) s
  have hv : ∀ e ∈ entries f, eeVec false P E (eeConf b false P E ew sw ci f s).1.dip.pInd (eeConf b false P E ew sw ci f s).1.gradF e =
      eamCoulombFull b P E f e := by
    intro e he
    unfold eeVec eamCoulombFull
    rw [elVec_false, eamSlope_congr hh p0 e he]
  refine ⟨?_, ?_, ?_⟩
  · rw [C79_energy b P E ew sw ci f hh hc (built_aligned hf), ← lattice_eamCoulomb hr hf hsym h, hf.count]
  · intro hu j a ha k
    have hj : j < c.sites.length := by rw [← hf.count]; exact (List.getElem?_eq_some_iff.1 ha).1
    have hd := eamCoulomb_force hr hf hsym h j hj k
    refine ⟨hd.differentiableAt, ?_⟩
    unfold crystalForce
    rw [hd.deriv, neg_neg, ← hf.start, p2 j a ha, if_pos hu, vecForce_congr (fun e he _ => hv e he)]
    unfold scaled forceScale
    by_cases hb : b.fweight = true
    · simp [hb, forceEps]
    · simp [hb]
  · intro hb hu hus k
    have hd := eamCoulomb_strain hr hf hsym h k
    refine ⟨hd.differentiableAt, ?_⟩
    unfold crystalVirial
    rw [hd.deriv, neg_neg, p4, if_pos hb, Function.update_self, hu, hus]
    simp only [Bool.and_self, if_true]
    rw [vecStress_congr' hv]

end

/-- **Objective, EAM**, for any tail function. -/
theorem C115_eam_objective (cut : Cutoffs) (hsym : ∀ s t, cut.rcut s t = cut.rcut t s) (b : Build) (P : EamPots ℝ) (E : Elec ℝ)
    (ew sw w : ℝ) (qs : List (Bound ℝ)) (eopp univ : List (Nat × ℝ)) (dummy0 : Nat → ℝ) (L : List (Cell × Conf ℝ))
    (hL : ∀ x ∈ L, Prepared cut x.1 x.2 ∧ ChargedEam b P E cut x.1)
    (v v' : EeVector ℝ) (y : ℝ) (h : eeObjective b false P E ew sw w qs eopp univ dummy0 (L.map Prod.snd) v = .ok (v', y)) :
    y = (L.map fun x => crystalError b (eamElecLattice b P E) ew sw (cellVolume x.1.box.edge) x.1 x.2 +
        adpLimitError b.clamped P x.2).sum +
      (if b.apot = true then totalPenalty w qs eopp univ else 0) + eeGaugeError b P dummy0 := by
  have hh : ∀ g ∈ L.map Prod.snd, HalfList g ∧ EamColumns P g ∧ Aligned g := by
    intro g hg
    obtain ⟨x, hx, rfl⟩ := List.mem_map.1 hg
    obtain ⟨edge, scale, -, -, -, hb⟩ := (hL x hx).1.made
    obtain ⟨h1, h2⟩ := C23_half cut scale x.1 x.2 hb P (hL x hx).2.cols
    exact ⟨h1, h2, built_aligned hb⟩
  have hsum : ((L.map Prod.snd).map fun g => vecConfError b (eamCoulombFull b P E g) (eamCoulombFull b P E g)
        (coulombTotal P.toPots E g + totalEmbedding b.clamped P g) ew sw g + adpLimitError b.clamped P g) =
      L.map fun x => crystalError b (eamElecLattice b P E) ew sw (cellVolume x.1.box.edge) x.1 x.2 +
        adpLimitError b.clamped P x.2 := by
    rw [List.map_map]
    apply List.map_congr_left
    intro x hx
    obtain ⟨g1, g2⟩ := hL x hx
    obtain ⟨edge, scale, hr, -, -, hb⟩ := g1.made
    rw [Function.comp_apply, ← g1.vol, vecError_crystal b (eamElecLattice b P E) _ _ _ ew sw
      (lattice_eamCoulomb hr hb hsym g2).symm hb.start hb.count]
    · intro j hj k
      unfold crystalForce
      rw [(eamCoulomb_force hr hb hsym g2 j hj k).deriv, neg_neg]
    · intro _ _ _ k
      unfold crystalVirial
      rw [(eamCoulomb_strain hr hb hsym g2 k).deriv, neg_neg]
  rw [C79_objective b P E ew sw w qs eopp univ dummy0 _ hh v v' y h, hsum]

/-! ### The tails of the program -/

/-- Potential between unit charges. -/
noncomputable def chargePotential (dsf : Bool) (κ rc : ℝ) : ℝ → ℝ :=
  if dsf = true then shiftedForce (screened κ) rc else shiftedSquare (screened κ) rc

/-- Self energy of a unit charge. -/
noncomputable def chargeSelf (dsf : Bool) (κ rc : ℝ) : ℝ := if dsf = true then shiftedSelf κ rc else ewaldSelf κ

theorem screened_value (κ : ℝ) : (fun r => (elstatValue r κ).fn) = screened κ := by
  funext r
  unfold screened elstatValue dpEps
  norm_num

theorem screened_slope (κ rc : ℝ) (h : rc ≠ 0) : deriv (screened κ) rc = rc * (elstatValue rc κ).grad := by
  rw [← screened_value]
  exact (ftail_hasDerivAt rc κ h).deriv

/-- Functions and numbers of the program are the potential and the self energy described. -/
theorem C115_tails (dsf : Bool) (rc κ : ℝ) (hrc : rc ≠ 0) (q alpha b c : Nat → ℝ) (mix tol : ℝ) :
    let E := progElec false dsf rc κ q alpha b c mix tol
    (fun r => (E.tail r).fn) = chargePotential dsf κ rc ∧ E.selfCoef = chargeSelf dsf κ rc ∧ E.charge = q ∧ E.cut = rc := by
  intro E
  have hv : ∀ r, screened κ r = (elstatValue r κ).fn := fun r => (congrFun (screened_value κ) r).symm
  have hs := screened_slope κ rc hrc
  refine ⟨?_, ?_, rfl, rfl⟩
  · funext r
    cases dsf with
    | true =>
      simp only [E, progElec, chargePotential, if_true, shiftedForce, hs, hv, elstatDsf, Bool.false_eq_true, if_false]
      ring
    | false =>
      simp only [E, progElec, chargePotential, shiftedSquare, hs, hv, elstatShift, Bool.false_eq_true, if_false]
      field_simp
  · cases dsf with
    | true =>
      simp only [E, progElec, chargeSelf, if_true, shiftedSelf, ewaldSelf, hs, hv, dpEps]
      ring
    | false =>
      simp only [E, progElec, chargeSelf, Bool.false_eq_true, if_false, ewaldSelf, dpEps]
      norm_num

theorem program_tail (dsf : Bool) (rc κ : ℝ) (hrc : rc ≠ 0) (q alpha b e : Nat → ℝ) (mix tol : ℝ) (c : Cell) :
    TailClear (progElec false dsf rc κ q alpha b e mix tol) c := fun _ _ _ _ h =>
  progElec_smooth false dsf (by simp) rc κ hrc q alpha b e mix tol _ h

open Verif.Cut in
/-- **The program.** With its tails and its cutoffs: from cells, positions, charges and pair functions to the objective. -/
theorem C115_program (n : Nat) (dsf : Bool) (rc κ : ℝ) (hrc : rc ≠ 0) (q alpha be ce : Nat → ℝ) (mix tol : ℝ) (before : Nat → ℝ)
    (b : Build) (P : Pots ℝ) (ew sw w : ℝ) (qs : List (Bound ℝ)) (eopp univ : List (Nat × ℝ)) (L : List (Cell × Conf ℝ))
    (hL : ∀ x ∈ L, Prepared (toCutoffs n (rcut .pair true n P.fin rc before)) x.1 x.2 ∧ x.1.ntypes = n ∧
      (∀ i < x.1.sites.length, (x.1.site i).typ < n) ∧ PairClear P x.1)
    (v v' : ElVector ℝ) (y : ℝ)
    (h : elObjective b false P (progElec false dsf rc κ q alpha be ce mix tol) ew sw w qs eopp univ (L.map Prod.snd) v = .ok (v', y)) :
    y = (L.map fun x => crystalError b (latticeCoulomb P rc q (chargePotential dsf κ rc) (chargeSelf dsf κ rc)) ew sw
      (cellVolume x.1.box.edge) x.1 x.2).sum + totalPenalty w qs eopp univ := by
  obtain ⟨e1, e2, -, -⟩ := C115_tails dsf rc κ hrc q alpha be ce mix tol
  have he : elecLattice P (progElec false dsf rc κ q alpha be ce mix tol) =
      latticeCoulomb P rc q (chargePotential dsf κ rc) (chargeSelf dsf κ rc) := by
    unfold elecLattice
    rw [e1, e2]
    rfl
  rw [← he]
  refine C115_objective _ (cutoffs_good .pair true n P.fin rc before) b P _ ew sw w qs eopp univ L ?_ v v' y h
  intro x hx
  obtain ⟨h1, h2, h3, h4⟩ := hL x hx
  refine ⟨h1, reach_pair .pair (Or.inl rfl) true n P rc before x.1 h2 h3, ?_, h4, program_tail dsf rc κ hrc q alpha be ce mix tol x.1⟩
  intro i hi j hj
  simp only [toCutoffs]
  rw [if_pos ⟨h3 i hi, h3 j hj⟩]
  exact (C96_rcut .pair true n P.fin rc before _ _ (h3 i hi) (h3 j hj)).2.1 rfl

open Verif.Cut in
/-- **The program, EAM.** -/
theorem C115_program_eam (n : Nat) (dsf : Bool) (rc κ : ℝ) (hrc : rc ≠ 0) (q alpha be ce : Nat → ℝ) (mix tol : ℝ) (before : Nat → ℝ)
    (b : Build) (P : EamPots ℝ) (hpc : P.paircol = n * (n + 1) / 2) (ew sw w : ℝ) (qs : List (Bound ℝ)) (eopp univ : List (Nat × ℝ))
    (dummy0 : Nat → ℝ) (L : List (Cell × Conf ℝ))
    (hL : ∀ x ∈ L, Prepared (toCutoffs n (rcut .eam true n P.fin rc before)) x.1 x.2 ∧ x.1.ntypes = n ∧ P.paircol = x.1.paircol ∧
      (∀ i < x.1.sites.length, (x.1.site i).typ < n) ∧ PairClear P.toPots x.1 ∧ TransferClear P x.1 ∧ EmbedClear b.clamped P x.1)
    (v v' : EeVector ℝ) (y : ℝ) (h : eeObjective b false P (progElec false dsf rc κ q alpha be ce mix tol) ew sw w qs eopp univ dummy0
      (L.map Prod.snd) v = .ok (v', y)) :
    y = (L.map fun x => crystalError b (latticeEamCoulomb b.clamped P rc q (chargePotential dsf κ rc) (chargeSelf dsf κ rc)) ew sw
        (cellVolume x.1.box.edge) x.1 x.2 + adpLimitError b.clamped P x.2).sum +
      (if b.apot = true then totalPenalty w qs eopp univ else 0) + eeGaugeError b P dummy0 := by
  obtain ⟨e1, e2, -, -⟩ := C115_tails dsf rc κ hrc q alpha be ce mix tol
  have he : eamElecLattice b P (progElec false dsf rc κ q alpha be ce mix tol) =
      latticeEamCoulomb b.clamped P rc q (chargePotential dsf κ rc) (chargeSelf dsf κ rc) := by
    unfold eamElecLattice
    rw [e1, e2]
    rfl
  rw [← he]
  refine C115_eam_objective _ (cutoffs_good .eam true n P.fin rc before) b P _ ew sw w qs eopp univ dummy0 L ?_ v v' y h
  intro x hx
  obtain ⟨h1, h2, h3, h4, h5, h6, h7⟩ := hL x hx
  refine ⟨h1, h3, reach_pair .eam (Or.inr rfl) true n P.toPots rc before x.1 h2 h4, reach_transfer true n P rc before x.1 hpc h4, ?_, h5,
    h6, h7, program_tail dsf rc κ hrc q alpha be ce mix tol x.1⟩
  intro i hi j hj
  simp only [toCutoffs]
  rw [if_pos ⟨h4 i hi, h4 j hj⟩]
  exact (C96_rcut .eam true n P.fin rc before _ _ (h4 i hi) (h4 j hj)).2.1 rfl

/-! ### Examples -/

/-- Pair function `1 / 4` up to 3/2. -/
noncomputable def evenPots : Pots ℝ := ⟨fun _ => 3 / 2, fun _ => 1 / 2, fun _ => 1 / 2, fun _ _ => 1 / 4, fun _ _ => 0⟩

theorem even_clear : PairClear evenPots thin := by
  intro i hi m hm
  obtain rfl : i = 0 := by have : i < 1 := hi; omega
  refine ⟨?_, fun _ => hasDerivAt_const _ _⟩
  show gapTo thin 0 m ≠ 3 / 2
  rcases thin_gap m hm with ⟨h, -⟩ | h
  · rw [h]; norm_num
  · linarith

open Verif.Cut in
theorem even_rcut (kind : Kind) (hk : kind = .pair ∨ kind = .eam) (before : ℕ → ℝ) :
    rcut kind true 1 evenPots.fin (5 / 4) before = rcut kind false 1 halfCols.fin 0 before := by
  have h0 : PairIndex.pairCol 1 0 0 = 0 := rfl
  have h1 : max (3 / 2 : ℝ) (5 / 4) = 3 / 2 := max_eq_left (by norm_num)
  rcases hk with rfl | rfl <;> simp [rcut, overPairs, Kind.hasDensity, evenPots, halfCols, h0, h1]

open Verif.Cut in
/-- Hypotheses of `C115_program` (cutoff 5/4 of the charges), with `L` the thin crystal whose atoms meet their own images. -/
example (dsf : Bool) (q : ℕ → ℝ) (b : Build) (v : ElVector ℝ) : ∃ f : Conf ℝ,
    (∀ x ∈ [(thin, f)], Prepared (toCutoffs 1 (rcut .pair true 1 evenPots.fin (5 / 4) fun _ => 0)) x.1 x.2 ∧ x.1.ntypes = 1 ∧
      (∀ i < x.1.sites.length, (x.1.site i).typ < 1) ∧ PairClear evenPots x.1) ∧
    ∃ r, elObjective b false evenPots (progElec false dsf (5 / 4) (1 / 10) q q q q 0 0) 1 1 1 [] [] [] [f] v = .ok r := by
  obtain ⟨f, hf⟩ := thin_prepared .pair fun _ => 0
  refine ⟨f, ?_, ⟨_, rfl⟩⟩
  intro x hx
  obtain rfl := List.mem_singleton.1 hx
  rw [even_rcut .pair (Or.inl rfl)]
  refine ⟨hf, rfl, ?_, even_clear⟩
  intro i hi
  obtain rfl : i = 0 := by have : i < 1 := hi; omega
  exact one_pos

/-- Lattice sums of the thin crystal: each atom meets its two images at distance 1. -/
theorem thin_latticeSum (ψ : ℕ → ℝ → ℝ) (hψ : ∀ t r, 2 ≤ r → ψ t r = 0) : latticeSum thin 0 ψ = 2 * ψ 0 1 := by
  have hne : (⟨0, ![1, 0, 0]⟩ : Image) ≠ ⟨0, ![-1, 0, 0]⟩ := by
    intro h
    have := congrFun (congrArg Image.n h) 0
    simp at this
  have hmem : ∀ m ∈ ({⟨0, ![1, 0, 0]⟩, ⟨0, ![-1, 0, 0]⟩} : Set Image), m ∈ Others thin 0 := by
    rintro m (rfl | rfl)
    · exact ⟨one_pos, fun h => by simpa using congrFun h.2 0⟩
    · exact ⟨one_pos, fun h => by simpa using congrFun h.2 0⟩
  have hone : ∀ m ∈ ({⟨0, ![1, 0, 0]⟩, ⟨0, ![-1, 0, 0]⟩} : Set Image), length (arrow thin 0 m) = 1 := by
    rintro m (rfl | rfl)
    · rw [thin_arrow 0 one_pos _ one_pos, length_three]; norm_num; rfl
    · rw [thin_arrow 0 one_pos _ one_pos, length_three]; norm_num; rfl
  unfold latticeSum
  rw [← finsum_mem_inter_support_eq _ ({⟨0, ![1, 0, 0]⟩, ⟨0, ![-1, 0, 0]⟩} : Set Image) (Others thin 0) ?_,
    finsum_mem_pair hne, hone _ (Or.inl rfl), hone _ (Or.inr rfl)]
  · have ht : (thin.site 0).typ = 0 := rfl
    simp only [ht]
    ring
  · ext m
    simp only [Set.mem_inter_iff, Function.mem_support]
    constructor
    · rintro ⟨h1, h2⟩
      exact ⟨hmem m h1, h2⟩
    · rintro ⟨h1, h2⟩
      refine ⟨?_, h2⟩
      rcases thin_gap m h1 with ⟨-, h⟩ | h
      · exact h
      · exact absurd (hψ _ _ h) h2

/-- Energy of the charges of the thin crystal. -/
example (q : ℕ → ℝ) (φ : ℝ → ℝ) : latticeCharges (5 / 4) q φ thin = q 0 ^ 2 * φ 1 := by
  unfold latticeCharges
  rw [show thin.sites.length = 1 from rfl, Finset.sum_range_one, thin_latticeSum]
  · rw [if_pos (by norm_num), show (thin.site 0).typ = 0 from rfl]
    ring
  · intro t r hr
    rw [if_neg (by linarith)]

/-- EAM with pair and transfer functions `1 / 4` and embedding function `ρ / 4`. -/
noncomputable def evenEam : EamPots ℝ :=
  ⟨⟨fun _ => 3 / 2, fun c => if c = 2 then 0 else 1 / 2, fun _ => 1 / 2, fun c y => if c = 2 then y / 4 else 1 / 4,
    fun c _ => if c = 2 then 1 / 4 else 0⟩, 1, 1, fun _ y => (y / 4, 1 / 4)⟩

theorem even_density : latticeDensity evenEam thin 0 = 1 / 2 := by
  unfold latticeDensity
  rw [thin_latticeSum]
  · unfold transfer
    rw [if_pos (by norm_num [evenEam])]
    norm_num [evenEam]
  · intro t r hr
    unfold transfer
    rw [if_neg]
    simp only [evenEam]
    linarith

open Verif.Cut in
/-- Hypotheses of `C115_program_eam`. -/
example (dsf : Bool) (q : ℕ → ℝ) (b : Build) (v : EeVector ℝ) (hb : b.apot = true) : ∃ f : Conf ℝ,
    evenEam.paircol = 1 * (1 + 1) / 2 ∧
    (∀ x ∈ [(thin, f)], Prepared (toCutoffs 1 (rcut .eam true 1 evenEam.fin (5 / 4) fun _ => 0)) x.1 x.2 ∧ x.1.ntypes = 1 ∧
      evenEam.paircol = x.1.paircol ∧ (∀ i < x.1.sites.length, (x.1.site i).typ < 1) ∧ PairClear evenEam.toPots x.1 ∧
      TransferClear evenEam x.1 ∧ EmbedClear b.clamped evenEam x.1) ∧
    ∃ r, eeObjective b false evenEam (progElec false dsf (5 / 4) (1 / 10) q q q q 0 0) 1 1 1 [] [] [] 0 [f] v = .ok r := by
  obtain ⟨f, hf⟩ := thin_prepared .eam fun _ => 0
  refine ⟨f, rfl, ?_, ?_⟩
  · intro x hx
    obtain rfl := List.mem_singleton.1 hx
    rw [show evenEam.fin = evenPots.fin from rfl, even_rcut .eam (Or.inr rfl)]
    have hcl : ∀ i < thin.sites.length, ∀ m ∈ Others thin i, ∀ col, col ≠ 2 → SmoothAt evenEam.toPots col (gapTo thin i m) := by
      intro i hi m hm col hc
      obtain rfl : i = 0 := by have : i < 1 := hi; omega
      refine ⟨(even_clear 0 one_pos m hm).1, fun _ => ?_⟩
      simp only [evenEam, if_neg hc]
      exact hasDerivAt_const _ _
    have hty : ∀ i < thin.sites.length, (thin.site i).typ = 0 := by
      intro i hi
      obtain rfl : i = 0 := by have : i < 1 := hi; omega
      rfl
    refine ⟨hf, rfl, rfl, fun i hi => by rw [hty i hi]; exact one_pos, fun i hi m hm => hcl i hi m hm _ ?_,
      fun i hi m hm => hcl i hi m hm _ ?_, ?_⟩
    · unfold pairColumn
      rw [hty i hi, hty m.j hm.1]
      show PairIndex.pairCol 1 0 0 ≠ 2
      decide
    · rw [hty m.j hm.1]
      show 1 + 0 ≠ 2
      decide
    · intro i hi
      obtain rfl : i = 0 := by have : i < 1 := hi; omega
      rw [even_density]
      have hcol : evenEam.paircol + evenEam.ntypes + (thin.site 0).typ = 2 := rfl
      rw [hcol]
      have hval : ∀ y : ℝ, 0 < y → y < 3 / 2 → (embed b.clamped evenEam 2 y).value = y / 4 ∧
          (embed b.clamped evenEam 2 y).grad = 1 / 4 := by
        intro y h0 h1
        unfold embed Build.clamped
        have e1 : ¬ evenEam.fin 2 < y := by simp only [evenEam]; linarith
        have e2 : ¬ y < evenEam.beg 2 := by simp only [evenEam, if_true]; linarith
        simp only [if_true, if_neg e1, if_neg e2]
        simp [evenEam]
      rw [(hval _ (by norm_num) (by norm_num)).2]
      refine ((hasDerivAt_id (1 / 2 : ℝ)).div_const 4).congr_of_eventuallyEq ?_
      filter_upwards [Ioo_mem_nhds (show (0 : ℝ) < 1 / 2 by norm_num) (show (1 / 2 : ℝ) < 3 / 2 by norm_num)] with y hy
      exact (hval y hy.1 hy.2).1
  · unfold eeObjective
    simp only [hb, if_true]
    exact ⟨_, rfl⟩

end Verif.Props
