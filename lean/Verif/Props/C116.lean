/-
C116  Angular potentials with point charges: energies, forces, stresses and objective are those of the infinite periodic crystals.

Builds with `ANG` and `COULOMB`, without `DIPOLE`.  As in C113 and C115 energies are lattice sums over all images of all atoms,
over all angles and over all charges, forces and stresses minus their derivatives, and nothing is kept fixed while deriving.
-/
import Verif.Spec.CrystalCharges
import Verif.Props.C85
import Verif.Props.C113
import Verif.Props.C115

set_option linter.unusedSectionVars false

namespace Verif.Props

open Verif.Force hiding Cell
open Verif.Neighbors Verif.Spec Verif.Tails Topology

/-- The energy of the crystal for given electrostatic parameters. -/
noncomputable def angElecLattice (P : AngPots ℝ) (E : Elec ℝ) : Cell → ℝ :=
  latticeAngCoulomb P E.cut E.charge (fun r => (E.tail r).fn) E.selfCoef

section
variable {edge : Fin 3 → V3 ℝ} {cut : Cutoffs} {scale : Fin 3 → ℤ} {c d : Cell} {f : Conf ℝ} {H : Nat → List Image}

/-- Interaction of the charge of an atom with all others, full lists. -/
theorem charge_site (hd : Near cut c d) (hH : FullOf cut c H) (E : Elec ℝ) (hreach : ChargeReach cut E.cut c) {i : Nat}
    (hi : i < c.sites.length) :
    ((H i).map fun m => (coulTerm E (c.start + i) (c.site i).typ (placedAt (arrow d i m) (bondOf c i m))).energy).sum =
      (1 / 2) * latticeSum d i (fun t r => if r < E.cut then E.charge (d.site i).typ * E.charge t * (E.tail r).fn else 0) := by
  unfold latticeSum
  rw [hd.sum hH hi]
  · rw [← List.sum_map_mul_left]
    congr 1
    apply List.map_congr_left
    intro m _
    rw [hd.typ, hd.typ]
    show (if length (arrow d i m) < E.cut then 1 / 2 * (E.charge (c.site i).typ * E.charge (c.site m.j).typ *
      (E.tail (length (arrow d i m))).fn) else 0) = _
    by_cases h : length (arrow d i m) < E.cut
    · simp only [if_pos h]
    · simp only [if_neg h, mul_zero]
  · intro m hm hl
    exact if_neg (not_lt.2 ((hreach i hi m.j hm.1).trans hl))

theorem clear_charge (hH : FullOf cut c H) (hf : Built true cut scale c f)
    (g3 : ∀ i a, f.atoms[i]? = some a → a.neigh = (H i).map (entryOf c i)) {E : Elec ℝ} (hs : TailClear E c) :
    ChargeSmooth E f (nodesFrom c H 0 f.atoms) (posOf c) := by
  intro j n hj l hl
  obtain ⟨hlt, -, hlk, hmem⟩ := node_link hH hf g3 hj
  rw [hlk, List.mem_map] at hl
  obtain ⟨m, hm, rfl⟩ := hl
  obtain ⟨h1, h2, h3⟩ := hmem m hm
  rw [h3]
  exact hs j hlt m h1 h2

theorem angEl_matches (hr : Ready edge cut scale c) (hf : Built true cut scale c f) (hsym : ∀ s t, cut.rcut s t = cut.rcut t s)
    (P : AngPots ℝ) (E : Elec ℝ) (h1 : PairReach cut P.toPots c) (h2 : ChargeReach cut E.cut c) (h3 : ReachF cut P c)
    (hs : AngClear P c) (ht : TailClear E c) :
    Matches (angElecLattice P E) (angElSite P E) (angElForceSum P E) (angElStress P E) c f := by
  apply full_matches hr hf hsym (angElecLattice P E) (fun d i => (1 / 2) * latticeSum d i (phi P.toPots d.ntypes (d.site i).typ) +
    latticeAngles d i (angleProduct P d.ntypes (d.site i).typ) +
    (1 / 2) * latticeSum d i (fun t r => if r < E.cut then E.charge (d.site i).typ * E.charge t * (E.tail r).fn else 0) -
    E.selfCoef * E.charge (d.site i).typ ^ 2)
  · intro d _
    unfold angElecLattice latticeAngCoulomb latticeAng latticePair latticeCharges
    rw [Finset.sum_sub_distrib, Finset.sum_add_distrib, Finset.sum_add_distrib, ← Finset.mul_sum (f := fun i => E.charge (d.site i).typ ^ 2)]
  · intro H hH d hd i hi w q
    have e1 := pair_site hd hH h1 false hi
    rw [if_neg (by simp), sub_zero] at e1
    rw [angElSite_energy]
    unfold angElEnergy angSite sumEnergy
    rw [List.map_append, List.sum_append, List.map_map, List.map_map, ang_angles hd hH h3 hi, ← e1, ← charge_site hd hH E h2 hi, hd.typ]
    simp only [List.map_map]
    rfl
  · intro ts hm
    exact angEl_force_sum P E f ts (posOf c) hm
  · intro ts _ k
    exact angEl_stress_sum P E (place f ts (posOf c)) k
  · intro H hH g3 m hm
    exact angEl_follows P E f _ (posOf c) (clear_ang hH hf g3 hs) (clear_charge hH hf g3 ht) m hm

theorem chargedSite_terms (P : AngPots ℝ) (E : Elec ℝ) (c : Conf ℝ) (i : Nat) (a : Atom ℝ) :
    chargedSite P E a = sumEnergy (angElSite P E i a) := by
  have h1 := angElAtom_energy ⟨false, false, false, false, false, false⟩ P E { c with uf := true } i a ⟨0, 0, 0, 0⟩
  rw [angElAtom_plus _ P E _ rfl] at h1
  have h1 : 0 + angElEnergy P E i a = 0 + _ := h1
  rw [angElSite_energy]
  linear_combination -h1

theorem overAtoms_list {M : Type*} [AddCommMonoid M] (c : Conf ℝ) (g : Atom ℝ → M) :
    overAtoms c (fun _ a => g a) = (c.atoms.map g).sum := by
  unfold overAtoms
  rw [show (fun p : Atom ℝ × Nat => g p.1) = g ∘ Prod.fst from rfl, ← List.map_map, List.zipIdx_map_fst]

end

/-- **One crystal**: the force vector contains energy, forces and stresses of the crystal. -/
theorem C116_crystal (edge : Fin 3 → V3 ℝ) (cut : Cutoffs) (scale : Fin 3 → ℤ) (c : Cell) (f : Conf ℝ)
    (hr : Ready edge cut scale c) (hf : Built true cut scale c f) (hsym : ∀ s t, cut.rcut s t = cut.rcut t s) (b : Build)
    (P : AngPots ℝ) (E : Elec ℝ) (h1 : PairReach cut P.toPots c) (h2 : ChargeReach cut E.cut c) (h3 : ReachF cut P c)
    (hs : AngClear P c) (ht : TailClear E c) (ew sw : ℝ) (ci : Nat) (fv : FV ℝ) :
    Reports b (latticeAngCoulomb P E.cut E.charge (fun r => (E.tail r).fn) E.selfCoef) (angElConf b P E ew sw ci f fv).1 ci c f := by
  apply leaves_crystal (res := fun c => (angElConf b P E ew sw ci c fv).1) (angEl_matches hr hf hsym P E h1 h2 h3 hs ht)
    hf.start hf.count ?_ (fun hu => angEl_leaves b P E ew sw ci fv f hu)
  rw [C85_energy, ← overAtoms_list]
  congr 2
  apply overAtoms_congr
  intro j a _
  exact chargedSite_terms P E f _ a

theorem angEl_part {cut : Cutoffs} (hsym : ∀ s t, cut.rcut s t = cut.rcut t s) (b : Build) (P : AngPots ℝ) (E : Elec ℝ) {c : Cell}
    {f : Conf ℝ} (hp : PreparedFull cut c f) (h1 : PairReach cut P.toPots c) (h2 : ChargeReach cut E.cut c) (h3 : ReachF cut P c)
    (hs : AngClear P c) (ht : TailClear E c) (ew sw : ℝ) (ci : Nat) (fv : FV ℝ) : (angElConf b P E ew sw ci f fv).2 =
      crystalError b (angElecLattice P E) ew sw (cellVolume c.box.edge) c f + stressOffset b sw f := by
  obtain ⟨edge, scale, hr, -, -, hb⟩ := hp.made
  have hi := built_inside hr hb
  obtain ⟨e, F, S, -, -, hq⟩ := angElConf_result b P E ew sw f hi
  obtain ⟨-, -, -, -, -, h⟩ := hq ci fv
  unfold angElecLattice
  rw [← hp.vol, ← residual_crystal b _ ew sw _ ci c f hb.start
    (C116_crystal edge cut scale c f hr hb hsym b P E h1 h2 h3 hs ht ew sw ci fv)]
  exact h

/-- **Objective**: squared reference stresses of configurations which do not use stresses are counted too. -/
theorem C116_objective (cut : Cutoffs) (hsym : ∀ s t, cut.rcut s t = cut.rcut t s) (b : Build) (P : AngPots ℝ) (E : Elec ℝ)
    (ew sw w : ℝ) (qs : List (Bound ℝ)) (eopp univ : List (Nat × ℝ)) (L : List (Cell × Conf ℝ))
    (hL : ∀ x ∈ L, PreparedFull cut x.1 x.2 ∧ PairReach cut P.toPots x.1 ∧ ChargeReach cut E.cut x.1 ∧ ReachF cut P x.1 ∧
      AngClear P x.1 ∧ TailClear E x.1)
    (v v' : PairVec ℝ) (y : ℝ) (h : angElObjective b P E ew sw w qs eopp univ (L.map Prod.snd) v = .ok (v', y)) :
    y = (L.map fun x => crystalError b (latticeAngCoulomb P E.cut E.charge (fun r => (E.tail r).fn) E.selfCoef) ew sw
          (cellVolume x.1.box.edge) x.1 x.2 +
        if b.stress = true ∧ ¬ (x.2.uf = true ∧ x.2.us = true) then x.2.weight * sw * ∑ k : Fin 6, x.2.stress0 k ^ 2 else 0).sum +
      if b.apot = true then totalPenalty w qs eopp univ else 0 := by
  have key := cells_total (angElConf b P E ew sw)
    (fun x => crystalError b (angElecLattice P E) ew sw (cellVolume x.1.box.edge) x.1 x.2 + stressOffset b sw x.2)
    (AddMonoidHom.id ℝ) L (fun x hx ci fv => by
      obtain ⟨g1, g2, g3, g4, g5, g6⟩ := hL x hx
      exact angEl_part hsym b P E g1 g2 g3 g4 g5 g6 ew sw ci fv) 0 (v.fv, 0)
  obtain ⟨-, h2⟩ := sumObjective_ok _ _ w qs eopp univ _ v v' y h
  simp only [AddMonoidHom.id_apply, zero_add] at key
  rw [h2, key]
  rfl

/-- **Objective, partial**: if configurations which do not use stresses have vanishing reference stresses.  Missing: otherwise
they are counted (`C85_stress_violated`). -/
theorem C116_objective_partial (cut : Cutoffs) (hsym : ∀ s t, cut.rcut s t = cut.rcut t s) (b : Build) (P : AngPots ℝ) (E : Elec ℝ)
    (ew sw w : ℝ) (qs : List (Bound ℝ)) (eopp univ : List (Nat × ℝ)) (L : List (Cell × Conf ℝ))
    (hL : ∀ x ∈ L, PreparedFull cut x.1 x.2 ∧ PairReach cut P.toPots x.1 ∧ ChargeReach cut E.cut x.1 ∧ ReachF cut P x.1 ∧
      AngClear P x.1 ∧ TailClear E x.1)
    (hu : StressesUsed b (L.map Prod.snd)) (v v' : PairVec ℝ) (y : ℝ)
    (h : angElObjective b P E ew sw w qs eopp univ (L.map Prod.snd) v = .ok (v', y)) :
    y = (L.map fun x => crystalError b (latticeAngCoulomb P E.cut E.charge (fun r => (E.tail r).fn) E.selfCoef) ew sw
        (cellVolume x.1.box.edge) x.1 x.2).sum +
      if b.apot = true then totalPenalty w qs eopp univ else 0 := by
  rw [C116_objective cut hsym b P E ew sw w qs eopp univ L hL v v' y h]
  congr 2
  apply List.map_congr_left
  intro x hx
  have := stressOffset_used hu sw (List.mem_map_of_mem (f := Prod.snd) hx)
  unfold stressOffset at this
  rw [this, add_zero]

open Verif.Cut in
/-- **The program.** With its tails and its cutoffs; the radial functions of the angles end before the cutoff of the lists. -/
theorem C116_program (n : Nat) (dsf : Bool) (rc κ : ℝ) (hrc : rc ≠ 0) (q alpha be ce : Nat → ℝ) (mix tol : ℝ) (before : Nat → ℝ)
    (b : Build) (P : AngPots ℝ) (ew sw w : ℝ) (qs : List (Bound ℝ)) (eopp univ : List (Nat × ℝ)) (L : List (Cell × Conf ℝ))
    (hL : ∀ x ∈ L, PreparedFull (toCutoffs n (rcut .ang true n P.fin rc before)) x.1 x.2 ∧ x.1.ntypes = n ∧
      (∀ i < x.1.sites.length, (x.1.site i).typ < n) ∧
      ReachF (toCutoffs n (rcut .ang true n P.fin rc before)) P x.1 ∧ AngClear P x.1)
    (v v' : PairVec ℝ) (y : ℝ)
    (h : angElObjective b P (progElec false dsf rc κ q alpha be ce mix tol) ew sw w qs eopp univ (L.map Prod.snd) v = .ok (v', y)) :
    y = (L.map fun x => crystalError b (latticeAngCoulomb P rc q (chargePotential dsf κ rc) (chargeSelf dsf κ rc)) ew sw
          (cellVolume x.1.box.edge) x.1 x.2 +
        if b.stress = true ∧ ¬ (x.2.uf = true ∧ x.2.us = true) then x.2.weight * sw * ∑ k : Fin 6, x.2.stress0 k ^ 2 else 0).sum +
      if b.apot = true then totalPenalty w qs eopp univ else 0 := by
  obtain ⟨e1, e2, -, -⟩ := C115_tails dsf rc κ hrc q alpha be ce mix tol
  have := C116_objective _ (cutoffs_good .ang true n P.fin rc before) b P (progElec false dsf rc κ q alpha be ce mix tol) ew sw w
    qs eopp univ L ?_ v v' y h
  · rw [e1, e2] at this
    exact this
  · intro x hx
    obtain ⟨h1, h2, h3, h5, h6⟩ := hL x hx
    refine ⟨h1, ?_, ?_, h5, h6, program_tail dsf rc κ hrc q alpha be ce mix tol x.1⟩
    · intro i hi j hj
      simp only [toCutoffs]
      rw [if_pos ⟨h3 i hi, h3 j hj⟩]
      refine (C96_rcut .ang true n P.fin rc before _ _ (h3 i hi) (h3 j hj)).1 _ ?_
      unfold pairColumn
      rw [h2]
      exact List.mem_cons_self
    · intro i hi j hj
      simp only [toCutoffs]
      rw [if_pos ⟨h3 i hi, h3 j hj⟩]
      exact (C96_rcut .ang true n P.fin rc before _ _ (h3 i hi) (h3 j hj)).2.1 rfl

/-- Hypotheses of the theorems: cubic crystal with lattice constant 1, functions of range 1/2 and 3/2, charges up to 5/4. -/
example (dsf : Bool) (q : ℕ → ℝ) (b : Build) (v : PairVec ℝ) (hb : b.apot = true) :
    let E := progElec false dsf (5 / 4) (1 / 10) q q q q 0 0
    ∃ f, (∀ x ∈ [(thin, f)], PreparedFull thinCut x.1 x.2 ∧ PairReach thinCut smallAng.toPots x.1 ∧ ChargeReach thinCut E.cut x.1 ∧
      ReachF thinCut smallAng x.1 ∧ AngClear smallAng x.1 ∧ TailClear E x.1) ∧ StressesUsed b [f] ∧
      ∃ r, angElObjective b smallAng E 1 1 1 [] [] [] [f] v = .ok r := by
  obtain ⟨f, hf, h1, h2⟩ := thin_full true true
  refine ⟨f, ?_, ?_, ?_⟩
  · intro x hx
    obtain rfl := List.mem_singleton.1 hx
    refine ⟨hf, small_ang.1, ?_, small_ang.2.2.1, small_ang.2.2.2, program_tail dsf _ _ (by norm_num) q q q q 0 0 _⟩
    intro i hi j hj
    show (5 / 4 : ℝ) ≤ 3 / 2
    norm_num
  · intro c hc _ h
    obtain rfl := List.mem_singleton.1 hc
    exact absurd ⟨h1, h2⟩ h
  · unfold angElObjective
    simp only [sumObjective, hb, if_true]
    exact ⟨_, rfl⟩

end Verif.Props
