/-
C117  Induced dipoles: energies, forces, stresses and objective are those of the infinite periodic crystals at the dipoles found.

Builds with `DIPOLE`.  As in C115 energies are lattice sums over all images of all atoms (`Spec/CrystalDipoles.lean`); all images of
an atom carry the dipole the iteration ended with.  Forces and stresses are minus derivatives with respect to positions and strains
at fixed dipoles.
-/
import Verif.Spec.CrystalDipoles
import Verif.Lemmas.DipolesSame
import Verif.Lemmas.Errors
import Verif.Props.C69
import Verif.Props.C115

set_option linter.unusedSectionVars false

namespace Verif.Props

open Verif.Force hiding Cell
open Verif.Neighbors Verif.Spec Verif.Tails Topology

/-- Tail function, its slope and the damping have the slopes given at all distances of the crystal. -/
def DipoleClear (E : Elec ℝ) (c : Cell) : Prop :=
  ∀ i < c.sites.length, ∀ m ∈ Others c i, gapTo c i m ≠ 0 → TailSmooth true E (gapTo c i m)

/-- Polarisable atoms carry charges. -/
def ChargedPolar (E : Elec ℝ) (c : Cell) : Prop :=
  ∀ i < c.sites.length, E.alpha (c.site i).typ ≠ 0 → E.charge (c.site i).typ ≠ 0

/-- The energy of the crystal for given electrostatic parameters and dipoles (by site). -/
noncomputable def polarLattice (P : Pots ℝ) (E : Elec ℝ) (p : Nat → V3 ℝ) : Cell → ℝ :=
  latticePolar P E.cut E.charge E.alpha (fun r => (E.tail r).fn)
    (fun col r => if E.b col = 0 ∨ E.c col = 0 then 0 else (E.srTerm r (E.b col) (E.c col)).1) E.selfCoef p

/-- The slope of the tail function is that given. -/
def TailSlope (E : Elec ℝ) : Prop := ∀ r, r ≠ 0 → HasDerivAt (fun r => (E.tail r).fn) (r * (E.tail r).grad) r

/-- The dipoles `p` of the atoms belong to the sites. -/
def SiteDipoles (c : Cell) (pc p : Nat → V3 ℝ) : Prop := ∀ i < c.sites.length, pc i = p (c.start + i)

section
variable {edge : Fin 3 → V3 ℝ} {cut : Cutoffs} {scale : Fin 3 → ℤ} {c : Cell} {f : Conf ℝ} {now : ℝ} {C : ℝ → Cell}

/-- A sum over images is a sum over the lists if the other images do not contribute. -/
theorem images_sum (L : Lists cut c) (d : Cell) (hd : d.sites.length = c.sites.length) {i : Nat} (hi : i < c.sites.length)
    (ψ : Image → ℝ) (hz : ∀ m ∈ Others c i, ¬ Wanted true cut c i m → ψ m = 0) :
    ∑ᶠ m ∈ Others d i, ψ m = ((L.ims i).map ψ).sum := by
  classical
  rw [← List.sum_toFinset _ (L.nodup i hi), ← finsum_mem_coe_finset]
  apply finsum_mem_inter_support_eq
  ext m
  simp only [Set.mem_inter_iff, List.coe_toFinset, Function.mem_support]
  constructor
  · rintro ⟨h1, h2⟩
    refine ⟨?_, h2⟩
    by_contra hn
    refine h2 (hz m ?_ fun hw => hn ((L.mem i hi m).2 hw))
    unfold Others at h1 ⊢
    rw [← hd]
    exact h1
  · rintro ⟨h1, h2⟩
    refine ⟨?_, h2⟩
    have hw : Wanted true cut c i m := (L.mem i hi m).1 h1
    unfold Others
    rw [hd]
    exact ⟨hw.1, hw.2.2.1⟩

/-- The interaction is the same seen from the other atom. -/
theorem dipoleBond_back (rc : ℝ) (q α : Nat → ℝ) (φ : ℝ → ℝ) (damp : Nat → ℝ → ℝ) (p : Nat → V3 ℝ) (d : Cell) (i : Nat) (m : Image) :
    dipoleBond rc q α φ damp p d m.j ⟨i, fun k => -m.n k⟩ = dipoleBond rc q α φ damp p d i m := by
  unfold dipoleBond
  simp only [arrow_back, length_neg]
  rw [PairIndex.pairCol_comm]
  by_cases h : length (arrow d i m) < rc
  · simp only [if_pos h, dot3, Fin.sum_univ_three, Pi.neg_apply]
    ring
  · simp only [if_neg h]

/-- Atoms which do not coincide stay apart for a while. -/
theorem stay_apart (hD : Deform c now C) {H : Nat → List Image} (hj : ∀ i < c.sites.length, ∀ m ∈ H i, m.j < c.sites.length)
    (h0 : ∀ i < c.sites.length, ∀ m ∈ H i, length (arrow c i m) ≠ 0) :
    ∀ᶠ t in 𝓝 now, ∀ i < c.sites.length, ∀ m ∈ H i, length (arrow (C t) i m) ≠ 0 := by
  classical
  have h : ∀ᶠ t in 𝓝 now, ∀ i ∈ Finset.range c.sites.length, ∀ m ∈ (H i).toFinset, length (arrow (C t) i m) ≠ 0 := by
    rw [Filter.eventually_all_finset]
    intro i hi
    rw [Filter.eventually_all_finset]
    intro m hm
    rw [Finset.mem_range] at hi
    rw [List.mem_toFinset] at hm
    have hp : 0 < length (arrow c i m) := lt_of_le_of_ne (length_nonneg _) (h0 i hi m hm).symm
    have hq : 0 < length (arrow c i m) / (2 * (1 + length (arrow c i m))) := by positivity
    filter_upwards [hD.near _ hq] with t ht
    have h1 := (abs_le.1 (ht i m hi (hj i hi m hm))).1
    have h2 : length (arrow c i m) / (2 * (1 + length (arrow c i m))) * (1 + length (arrow c i m)) = length (arrow c i m) / 2 := by
      field_simp
    rw [h2] at h1
    have : 0 < length (arrow (C t) i m) := by linarith
    exact this.ne'
  filter_upwards [h] with t ht i hi m hm
  exact ht i (Finset.mem_range.2 hi) m (List.mem_toFinset.2 hm)

theorem mem_entriesFrom_of {i j : Nat} {as : List (Atom ℝ)} {a : Atom ℝ} {n : Neigh ℝ} (ha : as[j]? = some a) (hn : n ∈ a.neigh) :
    (⟨i + j, a.typ, n⟩ : Entry ℝ) ∈ entriesFrom i as := by
  induction as generalizing i j with
  | nil => simp at ha
  | cons b as ih =>
    simp only [entriesFrom, List.mem_append, List.mem_map]
    cases j with
    | zero =>
      simp only [List.getElem?_cons_zero, Option.some.injEq] at ha
      subst ha
      exact Or.inl ⟨n, hn, rfl⟩
    | succ j =>
      rw [List.getElem?_cons_succ] at ha
      have := ih (i := i + 1) ha
      rw [show i + 1 + j = i + (j + 1) by omega] at this
      exact Or.inr this

/-- Images in the lists do not coincide with the atom: the program stops if atoms do. -/
theorem listed_apart (hf : Built false cut scale c f) {H : Nat → List Image}
    (g3 : ∀ i a, f.atoms[i]? = some a → a.neigh = (H i).map (entryOf c i)) :
    ∀ i < c.sites.length, ∀ m ∈ H i, length (arrow c i m) ≠ 0 := by
  intro i hi m hm
  have hi' : i < f.atoms.length := by rw [hf.count]; exact hi
  have ha : f.atoms[i]? = some f.atoms[i] := List.getElem?_eq_getElem hi'
  have he := mem_entriesFrom_of (i := f.start) ha (n := entryOf c i m) (by rw [g3 i _ ha]; exact List.mem_map_of_mem hm)
  obtain ⟨i', m', -, -, -, -, -, h4, h5⟩ := entry_image hf he
  rw [← h4] at h5
  have h6 : (entryOf c i m).r ≠ 0 := h5
  rwa [entryOf_r] at h6

/-- Interaction of the dipoles in the lists and in the crystal while it is deformed. -/
theorem deform_dipoles (hr : Ready edge cut scale c) (hD : Deform c now C) (hf : Built false cut scale c f)
    (hsym : ∀ s t, cut.rcut s t = cut.rcut t s) {H : Nat → List Image} (hn : ∀ i < c.sites.length, (H i).Nodup)
    (hm : ∀ i < c.sites.length, ∀ m, m ∈ H i ↔ Wanted false cut c i m) {rf : ℝ → Nat → Link → V3 ℝ} (ha : Along c C rf)
    (h0 : ∀ i < c.sites.length, ∀ m ∈ H i, length (arrow c i m) ≠ 0)
    (E : Elec ℝ) (hE : TailSlope E) (hreach : ChargeReach cut E.cut c) {pc p : Nat → V3 ℝ} (hpc : SiteDipoles c pc p) :
    ∀ᶠ t in 𝓝 now, latticeDipoles E.cut E.charge E.alpha (fun r => (E.tail r).fn)
        (fun col r => if E.b col = 0 ∨ E.c col = 0 then 0 else (E.srTerm r (E.b col) (E.c col)).1) pc (C t) =
      ((entries (placeWith f (nodesFrom c H 0 f.atoms) (rf t))).map fun e => chargeDipole E p e + dipoleDipole E p e).sum := by
  let L := readyLists hr
  set damp : Nat → ℝ → ℝ := fun col r => if E.b col = 0 ∨ E.c col = 0 then 0 else (E.srTerm r (E.b col) (E.c col)).1 with hdamp
  filter_upwards [hD.unlisted hr, stay_apart hD (fun i hi m hmem => ((hm i hi m).1 hmem).1) h0] with t ht hap
  have hb := sum_bonds c H (fun b => chargeDipole E p (b.entryAt (rf t)) + dipoleDipole E p (b.entryAt (rf t))) f.atoms
    (fun i => (c.site i).typ) c.start 0 (fun k a h => by rw [Nat.zero_add]; exact hf.typ k a h)
  simp only [Nat.zero_add, Nat.add_zero] at hb
  rw [entries_placeWith, List.map_map, hf.start]
  change _ = ((bondsFrom c.start (nodesFrom c H 0 f.atoms)).map fun b =>
    chargeDipole E p (b.entryAt (rf t)) + dipoleDipole E p (b.entryAt (rf t))).sum
  rw [hb, hf.count]
  have h1 := L.half_sum hsym H hn hm (dipoleBond E.cut E.charge E.alpha (fun r => (E.tail r).fn) damp pc (C t))
    (dipoleBond_back _ _ _ _ _ _ _)
  have h2 : ∀ i ∈ Finset.range c.sites.length,
      ((H i).map fun m => chargeDipole E p (Bond.entryAt (rf t) ⟨c.start + i, (c.site i).typ, bondOf c i m⟩) +
        dipoleDipole E p (Bond.entryAt (rf t) ⟨c.start + i, (c.site i).typ, bondOf c i m⟩)).sum =
      ((H i).map fun m => if m.j = i then
          dipoleBond E.cut E.charge E.alpha (fun r => (E.tail r).fn) damp pc (C t) i m / 2 else
        dipoleBond E.cut E.charge E.alpha (fun r => (E.tail r).fn) damp pc (C t) i m).sum := by
    intro i hi
    rw [Finset.mem_range] at hi
    congr 1
    apply List.map_congr_left
    intro m hmem
    have hw := (hm i hi m).1 hmem
    have e := ha t i hi m hw.1
    set b : Entry ℝ := Bond.entryAt (rf t) ⟨c.start + i, (c.site i).typ, bondOf c i m⟩ with hbd
    have q1 : b.n.r = length (arrow (C t) i m) := by
      show length (rf t (c.start + i) (bondOf c i m)) = _
      rw [e]
    have q2 : b.n.nr = c.start + m.j := rfl
    have q3 : b.own = c.start + i := rfl
    have q4 : b.n.typ = (c.site m.j).typ := rfl
    have q5 : b.otyp = (c.site i).typ := rfl
    have q6 : b.n.dist = arrow (C t) i m := by
      funext x
      show (placedAt (rf t (c.start + i) (bondOf c i m)) (bondOf c i m)).dist x = _
      rw [e, placedAt_dist]
    have q7 : b.n.distR = fun x => arrow (C t) i m x / length (arrow (C t) i m) := by
      funext x
      show rf t (c.start + i) (bondOf c i m) x / length (rf t (c.start + i) (bondOf c i m)) = _
      rw [e]
    have q9 : (E.tail (length (arrow (C t) i m))).grad =
        deriv (fun r => (E.tail r).fn) (length (arrow (C t) i m)) / length (arrow (C t) i m) := by
      have h := hap i hi m hmem
      rw [(hE _ h).deriv, mul_comm, mul_div_cancel_right₀ _ h]
    have q8 : b.n.col0 = PairIndex.pairCol c.ntypes (c.site i).typ (c.site m.j).typ := rfl
    have w1 : moment E p (c.site i).typ (c.start + i) = siteMoment E.alpha pc (C t) i := by
      unfold moment siteMoment
      rw [hD.typ, hpc i hi]
    have w2 : moment E p (c.site m.j).typ (c.start + m.j) = siteMoment E.alpha pc (C t) m.j := by
      unfold moment siteMoment
      rw [hD.typ, hpc m.j hw.1]
    have w3 : (dampTerm E b.n).1 = damp (PairIndex.pairCol c.ntypes (c.site i).typ (c.site m.j).typ) (length (arrow (C t) i m)) := by
      unfold dampTerm
      rw [q8, q1, hdamp]
      dsimp only
      split <;> rfl
    unfold chargeDipole dipoleDipole coupling crossMoment share dipoleBond
    rw [q1, q2, q3, q4, q5, q6, q7, q9, w1, w2, w3, hD.typ, hD.typ, hD.ntypes]
    have p1 : (c.start + m.j = c.start + i) ↔ m.j = i := by omega
    simp only [p1]
    by_cases hl : length (arrow (C t) i m) < E.cut
    · simp only [if_pos hl]
      by_cases hmi : m.j = i
      · simp only [if_pos hmi]
        simp only [hmi, dot3, Fin.sum_univ_three]
        ring
      · simp only [if_neg hmi, dot3, Fin.sum_univ_three]
        ring
    · simp only [if_neg hl]
      simp
  rw [Finset.sum_congr rfl h2, h1]
  unfold latticeDipoles
  rw [hD.count]
  apply Finset.sum_congr rfl
  intro i hi
  rw [Finset.mem_range] at hi
  rw [images_sum L (C t) (hD.count t) hi]
  intro m hmo hw
  have := ht i hi m hmo hw
  unfold dipoleBond
  exact if_neg (not_lt.2 ((hreach i hi m.j hmo.1).trans this))

/-- Energies of single atoms. -/
theorem atom_energies (hf : Built false cut scale c f) (E : Elec ℝ) {pc p : Nat → V3 ℝ} (hpc : SiteDipoles c pc p) (H : Nat → List Image)
    (rf : Nat → Link → V3 ℝ) :
    ((placeWith f (nodesFrom c H 0 f.atoms) rf).atoms.zipIdx.map fun ak => atomEnergy true E p ak.1 (f.start + ak.2)).sum =
      polarisation E.alpha pc c - E.selfCoef * ∑ i ∈ Finset.range c.sites.length, E.charge (c.site i).typ ^ 2 := by
  have h1 : ∀ (as : List (Atom ℝ)) (i s : Nat) (g : Nat → ℝ),
      (∀ k a, as[k]? = some a → ∀ b : Atom ℝ, b.typ = a.typ → atomEnergy true E p b (f.start + (i + k)) = g k) →
      (((placeWithFrom rf s (nodesFrom c H i as)).zipIdx i).map fun ak => atomEnergy true E p ak.1 (f.start + ak.2)).sum =
        ∑ k ∈ Finset.range as.length, g k := by
    intro as
    induction as with
    | nil => intro i s g _; simp [nodesFrom, placeWithFrom]
    | cons a as ih =>
      intro i s g hg
      simp only [nodesFrom, placeWithFrom, List.zipIdx_cons, List.map_cons, List.sum_cons, List.length_cons]
      rw [Finset.sum_range_succ', ih (i + 1) (s + 1) (fun k => g (k + 1)) fun k b hb x hx => by
        have := hg (k + 1) b (by simpa using hb) x hx
        rwa [show i + (k + 1) = i + 1 + k by omega] at this]
      rw [add_comm]
      congr 1
      exact hg 0 a rfl _ rfl
  have h2 := h1 f.atoms 0 f.start
    (fun k => (if E.alpha (c.site k).typ = 0 then 0 else dot3 (pc k) (pc k) / (2 * E.alpha (c.site k).typ)) -
      E.selfCoef * E.charge (c.site k).typ ^ 2) (by
    intro k a ha b hb
    have hk : k < c.sites.length := by rw [← hf.count]; exact (List.getElem?_eq_some_iff.1 ha).1
    unfold atomEnergy
    rw [hb, hf.typ k a ha, hpc k hk, hf.start, Nat.zero_add]
    by_cases h : E.alpha (c.site k).typ = 0
    · simp [h]
    · simp [h])
  show (((placeWithFrom rf f.start (nodesFrom c H 0 f.atoms)).zipIdx 0).map fun ak => atomEnergy true E p ak.1 (f.start + ak.2)).sum = _
  rw [h2, hf.count, Finset.sum_sub_distrib, ← Finset.mul_sum]
  rfl

theorem deform_polar (hr : Ready edge cut scale c) (hD : Deform c now C) (hf : Built false cut scale c f)
    (hsym : ∀ s t, cut.rcut s t = cut.rcut t s) {H : Nat → List Image} (hn : ∀ i < c.sites.length, (H i).Nodup)
    (hm : ∀ i < c.sites.length, ∀ m, m ∈ H i ↔ Wanted false cut c i m) {rf : ℝ → Nat → Link → V3 ℝ} (ha : Along c C rf)
    (h0 : ∀ i < c.sites.length, ∀ m ∈ H i, length (arrow c i m) ≠ 0)
    (P : Pots ℝ) (E : Elec ℝ) (hE : TailSlope E) (h1 : PairReach cut P c) (h2 : ChargeReach cut E.cut c) {pc p : Nat → V3 ℝ} (hpc : SiteDipoles c pc p) :
    ∀ᶠ t in 𝓝 now, polarLattice P E pc (C t) = elTotal true P E p (placeWith f (nodesFrom c H 0 f.atoms) (rf t)) := by
  filter_upwards [hD.pair hr hf hsym hn hm ha P h1, deform_charges hr hD hf hsym hn hm ha E h2,
    deform_dipoles hr hD hf hsym hn hm ha h0 E hE h2 hpc] with t e1 e2 e3
  have e4 := atom_energies hf E hpc H (rf t)
  have e5 : ((entries (placeWith f (nodesFrom c H 0 f.atoms) (rf t))).map (elEntry true E p)).sum =
      ((entries (placeWith f (nodesFrom c H 0 f.atoms) (rf t))).map (coulombEnergy E)).sum +
      ((entries (placeWith f (nodesFrom c H 0 f.atoms) (rf t))).map fun e => chargeDipole E p e + dipoleDipole E p e).sum := by
    rw [← List.sum_map_add]
    congr 1
  have e6 : polarisation E.alpha pc (C t) = polarisation E.alpha pc c := by
    unfold polarisation
    rw [hD.count]
    simp only [hD.typ]
  unfold elTotal
  rw [show (placeWith f (nodesFrom c H 0 f.atoms) (rf t)).start = f.start from rfl, e4, e5, ← e1, ← e2, ← e3]
  unfold polarLattice latticePolar latticeCoulomb
  rw [e6, hD.count]
  simp only [hD.typ]
  ring

theorem dipole_clear (hf : Built false cut scale c f) {E : Elec ℝ} (h : DipoleClear E c) {ts : List Node} {x : Nat → V3 ℝ}
    (hp : place f ts x = f) : ElSmooth true E f ts x := by
  intro e he
  rw [hp] at he
  obtain ⟨i, m, hi, hm, -, -, -, h4, h5⟩ := entry_image hf he
  rw [h4]
  exact h i hi m hm h5

theorem polar_rate (hf : Built false cut scale c f) {P : Pots ℝ} {E : Elec ℝ} (hs : PairClear P c) (ht : DipoleClear E c)
    (p : Nat → V3 ℝ) {H : Nat → List Image} (g3 : ∀ i a, f.atoms[i]? = some a → a.neigh = (H i).map (entryOf c i)) (M : Motion)
    (hM : M.path M.now = reach (posOf c)) :
    HasDerivAt (fun t => elTotal true P E p (placeWith f (nodesFrom c H 0 f.atoms) (M.path t)))
      (totalRate M (elVec true P E p) f (nodesFrom c H 0 f.atoms)) M.now := by
  have hp := place_nodes hf g3
  exact rate_elTotal M true P E p f (nodesFrom c H 0 f.atoms) (pairSmooth_now (clear_pairSmooth hf hs hp) hM)
    (elSmooth_now (dipole_clear hf ht hp) hM)

theorem polar_force (hr : Ready edge cut scale c) (hf : Built false cut scale c f)
    (hsym : ∀ s t, cut.rcut s t = cut.rcut t s) {P : Pots ℝ} {E : Elec ℝ} (hE : TailSlope E) (h1 : PairReach cut P c) (h2 : ChargeReach cut E.cut c)
    (hs : PairClear P c) (ht : DipoleClear E c) {pc p : Nat → V3 ℝ} (hpc : SiteDipoles c pc p) (j : Nat) (hj : j < c.sites.length)
    (k : Fin 3) :
    HasDerivAt (fun y => polarLattice P E pc (displaced c j k y)) (-vecForce (elVec true P E p) f (c.start + j) k)
      ((c.site j).pos k) := by
  obtain ⟨H, g1, g2, g3⟩ := built_lists hr hf
  have hp := place_nodes hf g3
  have hev := deform_polar hr (deform_displaced c j k hj) hf hsym g1 g2 (along_displaced c j k hj) (listed_apart hf g3) P E hE h1 h2 hpc
  have hd := polar_rate hf hs ht p g3 (moving (posOf c) (c.start + j) k) (moving_now _ _ _)
  have hx : (moving (posOf c) (c.start + j) k).now = (c.site j).pos k := by
    show posOf c (c.start + j) k = _
    unfold posOf; rw [Nat.add_sub_cancel_left]
  rw [totalRate_moving, hp, hx] at hd
  exact hd.congr_of_eventuallyEq hev

theorem polar_strain (hr : Ready edge cut scale c) (hf : Built false cut scale c f)
    (hsym : ∀ s t, cut.rcut s t = cut.rcut t s) {P : Pots ℝ} {E : Elec ℝ} (hE : TailSlope E) (h1 : PairReach cut P c) (h2 : ChargeReach cut E.cut c)
    (hs : PairClear P c) (ht : DipoleClear E c) {pc p : Nat → V3 ℝ} (hpc : SiteDipoles c pc p) (k : Fin 6) :
    HasDerivAt (fun e => polarLattice P E pc (strainedCell c (voigt k).2 (voigt k).1 e)) (-vecStress (elVec true P E p) f k) 0 := by
  obtain ⟨H, g1, g2, g3⟩ := built_lists hr hf
  have hp := place_nodes hf g3
  have hev := deform_polar hr (deform_strained c (voigt k).2 (voigt k).1) hf hsym g1 g2
    (along_strained c (voigt k).2 (voigt k).1) (listed_apart hf g3) P E hE h1 h2 hpc
  have hd := polar_rate hf hs ht p g3 (straining (posOf c) (voigt k).2 (voigt k).1) (straining_now _ _ _)
  rw [totalRate_straining, hp] at hd
  refine (hd.congr_of_eventuallyEq hev).congr_deriv ?_
  unfold vecStress
  rw [neg_neg]
  congr 1
  apply List.map_congr_left
  intro e _
  ring

/-- Energy of the crystal and in the lists. -/
theorem lattice_polar (hr : Ready edge cut scale c) (hf : Built false cut scale c f)
    (hsym : ∀ s t, cut.rcut s t = cut.rcut t s) {P : Pots ℝ} {E : Elec ℝ} (hE : TailSlope E) (h1 : PairReach cut P c)
    (h2 : ChargeReach cut E.cut c) {pc p : Nat → V3 ℝ} (hpc : SiteDipoles c pc p) : polarLattice P E pc c = elTotal true P E p f := by
  obtain ⟨H, g1, g2, g3⟩ := built_lists hr hf
  have hp := place_nodes hf g3
  have hev := (deform_polar hr (deform_strained c 0 0) hf hsym g1 g2 (along_strained c 0 0) (listed_apart hf g3) P E hE h1 h2 hpc).self_of_nhds
  have hs : ∀ v : V3 ℝ, strained 0 0 0 v = v := by
    intro v; funext l
    simp [strained]
  have hc : strainedCell c 0 0 0 = c := by
    unfold strainedCell
    simp only [hs]
    simp
  have hq : (fun (i : Nat) (l : Link) => strained 0 0 0 (reach (posOf c) i l)) = reach (posOf c) := by
    funext i l
    exact hs _
  rw [hc, hq, placeWith_reach, hp] at hev
  exact hev

theorem built_types (hf : Built false cut scale c f) : TypesMatch f := by
  intro e he hn
  obtain ⟨i, m, hi, hm, ho, h2, h3, -, -⟩ := entry_image hf he
  rw [h3, ho] at hn
  have hn : c.start + m.j = c.start + i := hn
  have hj : m.j = i := by omega
  rw [h3, h2]
  show (c.site m.j).typ = _
  rw [hj]

theorem built_polar (hf : Built false cut scale c f) {E : Elec ℝ} (h : ChargedPolar E c) : PolarCharged E f := by
  intro e he h1 h2
  obtain ⟨i, m, hi, hm, -, h3, h4, -, -⟩ := entry_image hf he
  rw [h3] at h1 ⊢
  rw [h4] at h2 ⊢
  exact ⟨h i hi h1, h m.j hm.1 h2⟩

end

/-! ### The claims -/

/-- What is needed of one crystal. -/
structure PolarReady (P : Pots ℝ) (E : Elec ℝ) (cut : Cutoffs) (c : Cell) : Prop where
  pair : PairReach cut P c
  charge : ChargeReach cut E.cut c
  pairs : PairClear P c
  tails : DipoleClear E c
  charged : ChargedPolar E c

section
variable (edge : Fin 3 → V3 ℝ) (cut : Cutoffs) (scale : Fin 3 → ℤ) (c : Cell) (f : Conf ℝ)
  (hr : Ready edge cut scale c) (hf : Built false cut scale c f) (hsym : ∀ s t, cut.rcut s t = cut.rcut t s)
include hr hf hsym

/-- **One crystal.** Energy, forces and stresses in the force vector, for any tail function, at the dipoles the iteration ends with. -/
theorem C117_crystal_partial (b : Build) (P : Pots ℝ) (E : Elec ℝ) (hE : TailSlope E) (h : PolarReady P E cut c) (ew sw : ℝ) (ci : Nat)
    (s : ElState ℝ) :
    let r := elConf b true P E ew sw ci f s
    let U := polarLattice P E fun i => r.1.dip.pInd (c.start + i)
    r.1.fv.energy ci = U c / (c.sites.length : ℝ) - f.energy0 ∧
    (f.uf = true → ∀ j a, f.atoms[j]? = some a → ∀ k,
      DifferentiableAt ℝ (fun y => U (displaced c j k y)) ((c.site j).pos k) ∧
      r.1.fv.force (c.start + j) k = (crystalForce U c j k - f.force0 (c.start + j) k) / forceScale b a) ∧
    (b.stress = true → f.uf = true → f.us = true → ∀ k,
      DifferentiableAt ℝ (fun e => U (strainedCell c (voigt k).2 (voigt k).1 e)) 0 ∧
      r.1.fv.stress ci k = crystalVirial U c k / f.vol - f.stress0 k) := by
  intro r U
  have hh := built_half hf
  have hpc : SiteDipoles c (fun i => r.1.dip.pInd (c.start + i)) r.1.dip.pInd := fun _ _ => rfl
  obtain ⟨-, p2, p3, p4, -⟩ := elConf_spec b true P E ew sw ci f hh (built_aligned hf) (fun _ => built_types hf)
    (fun _ => built_polar hf h.charged) s
  refine ⟨?_, ?_, ?_⟩
  · rw [show r.1.fv.energy = _ from p3, Function.update_self, hf.count]
    rw [show U c = _ from lattice_polar hr hf hsym hE h.pair h.charge hpc]
  · intro hu j a ha k
    have hj : j < c.sites.length := by rw [← hf.count]; exact (List.getElem?_eq_some_iff.1 ha).1
    have hd := polar_force hr hf hsym hE h.pair h.charge h.pairs h.tails hpc j hj k
    refine ⟨hd.differentiableAt, ?_⟩
    unfold crystalForce
    rw [hd.deriv, neg_neg, ← hf.start, show r.1.fv.force (f.start + j) = _ from p2 j a ha, if_pos hu]
    unfold scaled forceScale
    by_cases hb : b.fweight = true
    · simp [hb, forceEps, r]
    · simp [hb, r]
  · intro hb hu hus k
    have hd := polar_strain hr hf hsym hE h.pair h.charge h.pairs h.tails hpc k
    refine ⟨hd.differentiableAt, ?_⟩
    unfold crystalVirial
    rw [hd.deriv, neg_neg, show r.1.fv.stress = _ from p4, if_pos hb, Function.update_self, hu, hus]
    simp only [Bool.and_self, if_true]
    rfl

end

theorem error_polar {edge : Fin 3 → V3 ℝ} {cut : Cutoffs} {scale : Fin 3 → ℤ} {c : Cell} {f : Conf ℝ}
    (hr : Ready edge cut scale c) (hf : Built false cut scale c f) (hsym : ∀ s t, cut.rcut s t = cut.rcut t s)
    (b : Build) (P : Pots ℝ) (E : Elec ℝ) (hE : TailSlope E) (h : PolarReady P E cut c) (ew sw : ℝ) {pc p : Nat → V3 ℝ}
    (hpc : SiteDipoles c pc p) :
    vecConfError b (elVec true P E p) (elVec true P E p) (elTotal true P E p f) ew sw f =
      crystalError b (polarLattice P E pc) ew sw f.vol c f := by
  apply vecError_crystal b (polarLattice P E pc) _ _ _ ew sw (lattice_polar hr hf hsym hE h.pair h.charge hpc).symm hf.start hf.count
  · intro j hj k
    unfold crystalForce
    rw [(polar_force hr hf hsym hE h.pair h.charge h.pairs h.tails hpc j hj k).deriv, neg_neg]
  · intro _ _ _ k
    unfold crystalVirial
    rw [(polar_strain hr hf hsym hE h.pair h.charge h.pairs h.tails hpc k).deriv, neg_neg]

/-- The loop over the configurations: later configurations leave the dipoles of the earlier ones alone. -/
theorem polar_loop (cut : Cutoffs) (hsym : ∀ s t, cut.rcut s t = cut.rcut t s) (b : Build) (P : Pots ℝ) (E : Elec ℝ) (hE : TailSlope E)
    (ew sw : ℝ) (L : List (Cell × Conf ℝ)) : (∀ x ∈ L, Prepared cut x.1 x.2 ∧ PolarReady P E cut x.1) →
    ∀ (ci off : Nat) (s : ElState ℝ × ℝ), Starts off (L.map Prod.snd) →
      (∀ a < off, (confLoop (elConf b true P E ew sw) (L.map Prod.snd) ci s).1.dip.pInd a = s.1.dip.pInd a) ∧
      (confLoop (elConf b true P E ew sw) (L.map Prod.snd) ci s).2 = s.2 + (L.map fun x => crystalError b (polarLattice P E fun i =>
        (confLoop (elConf b true P E ew sw) (L.map Prod.snd) ci s).1.dip.pInd (x.1.start + i)) ew sw (cellVolume x.1.box.edge)
          x.1 x.2).sum := by
  induction L with
  | nil => intro _ ci off s _; exact ⟨fun _ _ => rfl, by simp [confLoop]⟩
  | cons x L ih =>
    intro hL ci off s hst
    obtain ⟨hs1, hs2⟩ := hst
    obtain ⟨g1, g2⟩ := hL x List.mem_cons_self
    obtain ⟨edge, scale, hr, -, -, hf⟩ := g1.made
    simp only [List.map_cons, confLoop, List.sum_cons]
    set r := elConf b true P E ew sw ci x.2 s.1 with hr'
    obtain ⟨i1, i2⟩ := ih (fun y hy => hL y (List.mem_cons_of_mem _ hy)) (ci + 1) (off + x.2.atoms.length) (r.1, s.2 + r.2) hs2
    have hoff := (elDipoles_off b P E x.2 (built_half hf) s.1).pInd
    refine ⟨?_, ?_⟩
    · intro a ha
      rw [i1 a (by omega)]
      refine hoff a ?_
      unfold Member
      omega
    · rw [i2]
      have he : r.2 = crystalError b (polarLattice P E fun i =>
          (confLoop (elConf b true P E ew sw) (L.map Prod.snd) (ci + 1) (r.1, s.2 + r.2)).1.dip.pInd (x.1.start + i)) ew sw
          (cellVolume x.1.box.edge) x.1 x.2 := by
        have := C69_error b P E ew sw ci x.2 (built_half hf) (built_aligned hf) (built_types hf) (built_polar hf g2.charged) s.1
        rw [← g1.vol]
        refine Eq.trans this (error_polar hr hf hsym b P E hE g2 ew sw fun i hi => ?_)
        have h1 := hf.start
        have h2 := hf.count
        exact i1 _ (by omega)
      rw [add_assoc, ← he]

/-- **Objective**, for any tail function: the dipoles are those in memory after the evaluation. -/
theorem C117_objective_partial (cut : Cutoffs) (hsym : ∀ s t, cut.rcut s t = cut.rcut t s) (b : Build) (P : Pots ℝ) (E : Elec ℝ)
    (hE : TailSlope E) (ew sw w : ℝ) (qs : List (Bound ℝ)) (eopp univ : List (Nat × ℝ)) (L : List (Cell × Conf ℝ))
    (hst : Starts 0 (L.map Prod.snd)) (hL : ∀ x ∈ L, Prepared cut x.1 x.2 ∧ PolarReady P E cut x.1)
    (v v' : ElVector ℝ) (y : ℝ) (h : elObjective b true P E ew sw w qs eopp univ (L.map Prod.snd) v = .ok (v', y)) :
    y = (L.map fun x => crystalError b (polarLattice P E fun i => v'.st.dip.pInd (x.1.start + i)) ew sw (cellVolume x.1.box.edge)
      x.1 x.2).sum + totalPenalty w qs eopp univ := by
  obtain ⟨-, hl⟩ := polar_loop cut hsym b P E hE ew sw L hL 0 0 (v.st, 0) hst
  rw [zero_add] at hl
  unfold elObjective at h
  cases hp : apotPunish w qs eopp univ v.par v.pot with
  | error e => simp [hp, bind, Except.bind] at h
  | ok p =>
    simp only [hp, bind, Except.bind, Except.ok.injEq, Prod.mk.injEq] at h
    rw [← h.2, ← h.1, apotPunish_sum w qs eopp univ _ _ p hp, hl]

/-! ### The dipoles -/

/-- Damping function of given electrostatic parameters. -/
noncomputable def dampOf (E : Elec ℝ) : Nat → ℝ → ℝ :=
  fun col r => if E.b col = 0 ∨ E.c col = 0 then 0 else (E.srTerm r (E.b col) (E.c col)).1

open Classical in
/-- Half lists: what an atom receives if entry `m` of atom `k` gives `h k m` to `k` and what `k` is for the neighbour to the
neighbour; own images count once. -/
theorem half_pairs {cut : Cutoffs} {c : Cell} (L : Lists cut c) (hsym : ∀ s t, cut.rcut s t = cut.rcut t s)
    (H : Nat → List Image) (hn : ∀ i < c.sites.length, (H i).Nodup)
    (hm : ∀ i < c.sites.length, ∀ m, m ∈ H i ↔ Wanted false cut c i m) (h : Nat → Image → ℝ) (i : Nat) (hi : i < c.sites.length) :
    ∑ k ∈ Finset.range c.sites.length, ((H k).map fun m => (if i = k then h k m else 0) +
        (if i = m.j ∧ m.j ≠ k then h m.j ⟨k, fun x => -m.n x⟩ else 0)).sum = ((L.ims i).map fun m => h i m).sum := by
  rw [L.sum_half H hn hm (fun k m => (if i = k then h k m else 0) + (if i = m.j ∧ m.j ≠ k then h m.j ⟨k, fun x => -m.n x⟩ else 0)),
    L.sum_at h i hi]
  have e2 := L.sum_flip hsym h (fun a _ => a = i)
  rw [Finset.sum_filter, Finset.sum_filter] at e2
  have e3 : ∀ p : (Σ _ : Nat, Image), (if p.1 ≤ p.2.j then
        ((if i = p.1 then h p.1 p.2 else 0) + (if i = p.2.j ∧ p.2.j ≠ p.1 then h p.2.j ⟨p.1, fun x => -p.2.n x⟩ else 0)) else 0) =
      (if p.1 = i then h p.1 p.2 else 0) + (if p.1 < p.2.j ∧ p.2.j = i then h p.2.j ⟨p.1, fun x => -p.2.n x⟩ else 0) -
      (if p.2.j < p.1 ∧ p.1 = i then h p.1 p.2 else 0) := by
    intro p
    have q1 : (i = p.1) ↔ p.1 = i := eq_comm
    have q2 : (i = p.2.j ∧ p.2.j ≠ p.1) ↔ (p.2.j = i ∧ p.2.j ≠ p.1) := by rw [eq_comm]
    simp only [q1, q2]
    rcases lt_trichotomy p.1 p.2.j with hlt | heq | hgt
    · have a1 : (p.2.j = i ∧ p.2.j ≠ p.1) ↔ (p.1 < p.2.j ∧ p.2.j = i) := by omega
      rw [if_pos (show p.1 ≤ p.2.j by omega), if_neg (show ¬ (p.2.j < p.1 ∧ p.1 = i) by omega), sub_zero]
      simp only [a1]
    · rw [if_pos (show p.1 ≤ p.2.j by omega), if_neg (show ¬ (p.2.j < p.1 ∧ p.1 = i) by omega),
        if_neg (show ¬ (p.2.j = i ∧ p.2.j ≠ p.1) by omega), if_neg (show ¬ (p.1 < p.2.j ∧ p.2.j = i) by omega), sub_zero]
    · have a1 : (p.2.j < p.1 ∧ p.1 = i) ↔ p.1 = i := by omega
      rw [if_neg (show ¬ p.1 ≤ p.2.j by omega), if_neg (show ¬ (p.1 < p.2.j ∧ p.2.j = i) by omega)]
      simp only [a1]
      ring
  have e4 : (∑ p ∈ L.pairs, if p.2.j < p.1 ∧ p.1 = i then h p.1 p.2 else 0) =
      ∑ p ∈ L.pairs, if p.1 < p.2.j ∧ p.2.j = i then h p.2.j ⟨p.1, fun x => -p.2.n x⟩ else 0 := by
    convert e2
  rw [Finset.sum_filter, Finset.sum_congr rfl (fun p _ => e3 p), Finset.sum_sub_distrib, Finset.sum_add_distrib, e4]
  ring

section
variable {edge : Fin 3 → V3 ℝ} {cut : Cutoffs} {scale : Fin 3 → ℤ} {c : Cell} {f : Conf ℝ}

/-- Fields in the lists and in the crystal. -/
theorem lattice_field (hr : Ready edge cut scale c) (hf : Built false cut scale c f) (hsym : ∀ s t, cut.rcut s t = cut.rcut t s)
    {E : Elec ℝ} (hE : TailSlope E) (hsr : ∀ r a b c, E.srValue r a b c = a * (E.srTerm r b c).1) (hreach : ChargeReach cut E.cut c)
    {pc p : Nat → V3 ℝ} (hpc : SiteDipoles c pc p) (i : Nat) (hi : i < c.sites.length) (hα : E.alpha (c.site i).typ ≠ 0) (x : Fin 3) :
    E.alpha (c.site i).typ * (staticField E f (c.start + i) x + dipoleField E f p (c.start + i) x) + shortMoment E f (c.start + i) x =
      E.alpha (c.site i).typ * siteField E.cut E.charge E.alpha (fun r => (E.tail r).fn) (dampOf E) pc c i x := by
  classical
  let L := readyLists hr
  obtain ⟨H, g1, g2, g3⟩ := built_lists hr hf
  have hp := place_nodes hf g3
  have hap := listed_apart hf g3
  set rf := reach (posOf c) with hrf
  have hpl : placeWith f (nodesFrom c H 0 f.atoms) rf = f := by rw [hrf, placeWith_reach, hp]
  have hent : ∀ F : Entry ℝ → ℝ, ((entries f).map F).sum = ∑ k ∈ Finset.range c.sites.length,
      ((H k).map fun m => F (Bond.entryAt rf ⟨c.start + k, (c.site k).typ, bondOf c k m⟩)).sum := by
    intro F
    have hb := sum_bonds c H (fun b => F (b.entryAt rf)) f.atoms (fun i => (c.site i).typ) c.start 0
      (fun k a h => by rw [Nat.zero_add]; exact hf.typ k a h)
    simp only [Nat.zero_add, Nat.add_zero] at hb
    have : entries f = (bondsFrom c.start (nodesFrom c H 0 f.atoms)).map (Bond.entryAt rf) := by
      rw [← hf.start]
      conv_lhs => rw [← hpl]
      rw [entries_placeWith]
    rw [this, List.map_map, ← hf.count]
    exact hb
  have harrow : ∀ k < c.sites.length, ∀ m : Image, m.j < c.sites.length → rf (c.start + k) (bondOf c k m) = arrow c k m := by
    intro k hk m hmj
    have h := along_strained c 0 0 0 k hk m hmj
    have hs : ∀ v : V3 ℝ, strained 0 0 0 v = v := by
      intro v; funext l
      simp [strained]
    have hc : strainedCell c 0 0 0 = c := by
      unfold strainedCell
      simp only [hs]
      simp
    rw [hc] at h
    rw [← h]
    exact (hs _).symm
  -- what atom `k` receives from image `m`
  let g : Nat → Image → ℝ := fun k m => if length (arrow c k m) < E.cut then
    deriv (fun r => (E.tail r).fn) (length (arrow c k m)) / length (arrow c k m) * (E.charge (c.site m.j).typ * arrow c k m x) else 0
  let h : Nat → Image → ℝ := fun k m => if length (arrow c k m) < E.cut then
    deriv (fun r => (E.tail r).fn) (length (arrow c k m)) / length (arrow c k m) * (E.charge (c.site m.j).typ *
      (1 + dampOf E (PairIndex.pairCol c.ntypes (c.site k).typ (c.site m.j).typ) (length (arrow c k m))) * arrow c k m x +
      (3 * dot3 (siteMoment E.alpha pc c m.j) (arrow c k m) * arrow c k m x / length (arrow c k m) ^ 2 -
        siteMoment E.alpha pc c m.j x)) else 0
  have hown : ((L.ims i).map fun m => if m.j = i then g i m else 0).sum = 0 := by
    have h1 := L.half_odd hsym H g1 g2 (fun k m => if m.j = k then g k m else 0) (fun k m => by
      by_cases hk : m.j = k
      · have hk' : k = m.j := hk.symm
        simp only [if_pos hk, if_pos hk', g, arrow_back, length_neg, Pi.neg_apply]
        rw [hk]
        split
        · ring
        · ring
      · have hk' : ¬ k = m.j := fun e => hk e.symm
        simp only [if_neg hk, if_neg hk', neg_zero]) i hi
    rw [← h1]
    apply Finset.sum_eq_zero
    intro k _
    rw [List.sum_eq_zero]
    intro y hy
    obtain ⟨m, -, rfl⟩ := List.mem_map.1 hy
    by_cases hk : m.j = k
    · simp [hk]
    · simp [hk]
  have hsite : siteField E.cut E.charge E.alpha (fun r => (E.tail r).fn) (dampOf E) pc c i x =
      ((L.ims i).map fun m => h i m - if m.j = i then g i m else 0).sum := by
    have e1 : ((L.ims i).map fun m => h i m - if m.j = i then g i m else 0).sum = ((L.ims i).map fun m => h i m).sum := by
      have : ((L.ims i).map fun m => h i m).sum = ((L.ims i).map fun m => h i m - if m.j = i then g i m else 0).sum +
          ((L.ims i).map fun m => if m.j = i then g i m else 0).sum := by
        rw [← List.sum_map_add]
        simp
      rw [this, hown, add_zero]
    rw [e1]
    unfold siteField
    rw [images_sum L c rfl hi]
    intro m hmo hw
    have hlt : cut.rcut (c.site i).typ (c.site m.j).typ < length (arrow c i m) := by
      by_contra hle
      exact hw ⟨hmo.1, Or.inl rfl, hmo.2, not_lt.1 hle⟩
    exact if_neg (not_lt.2 ((hreach i hi m.j hmo.1).trans hlt.le))
  have hpairs := half_pairs L hsym H g1 g2 (fun k m => h k m - if m.j = k then g k m else 0) i hi
  rw [hsite, ← hpairs]
  unfold staticField dipoleField shortMoment
  rw [← List.sum_map_add, hent, hent, Finset.mul_sum, Finset.mul_sum, ← Finset.sum_add_distrib]
  apply Finset.sum_congr rfl
  intro k hk
  rw [Finset.mem_range] at hk
  rw [← list_mul_sum, ← list_mul_sum, ← List.sum_map_add]
  congr 1
  apply List.map_congr_left
  intro m hmem
  have hw := (g2 k hk m).1 hmem
  have e := harrow k hk m hw.1
  set b : Entry ℝ := Bond.entryAt rf ⟨c.start + k, (c.site k).typ, bondOf c k m⟩ with hbd
  have q1 : b.n.r = length (arrow c k m) := by
    show length (rf (c.start + k) (bondOf c k m)) = _
    rw [e]
  have q2 : b.n.nr = c.start + m.j := rfl
  have q3 : b.own = c.start + k := rfl
  have q4 : b.n.typ = (c.site m.j).typ := rfl
  have q5 : b.otyp = (c.site k).typ := rfl
  have q6 : b.n.dist = arrow c k m := by
    funext y
    show (placedAt (rf (c.start + k) (bondOf c k m)) (bondOf c k m)).dist y = _
    rw [e, placedAt_dist]
  have q7 : b.n.distR = fun y => arrow c k m y / length (arrow c k m) := by
    funext y
    show rf (c.start + k) (bondOf c k m) y / length (rf (c.start + k) (bondOf c k m)) = _
    rw [e]
  have q8 : b.n.col0 = PairIndex.pairCol c.ntypes (c.site k).typ (c.site m.j).typ := rfl
  have h0 := hap k hk m hmem
  have q9 : (E.tail (length (arrow c k m))).grad =
      deriv (fun r => (E.tail r).fn) (length (arrow c k m)) / length (arrow c k m) := by
    rw [(hE _ h0).deriv, mul_comm, mul_div_cancel_right₀ _ h0]
  unfold share
  rw [q1, q2, q3, q4, q5, q6, q7, q8, q9]
  have p1 : (c.start + m.j = c.start + k) ↔ m.j = k := by omega
  have p2 : (c.start + i = c.start + k) ↔ i = k := by omega
  have p3 : (c.start + i = c.start + m.j) ↔ i = m.j := by omega
  simp only [p1, p2, p3, ne_eq, hsr, h, g, arrow_back, length_neg, Pi.neg_apply]
  rw [PairIndex.pairCol_comm c.ntypes (c.site m.j).typ]
  generalize hG : deriv (fun r => (E.tail r).fn) (length (arrow c k m)) / length (arrow c k m) = G
  by_cases hl : length (arrow c k m) < E.cut
  swap
  · simp [hl]
  have hdir : ∀ y, length (arrow c k m) * (arrow c k m y / length (arrow c k m)) = arrow c k m y := fun y => by field_simp
  have hD : ∀ col a, (if ¬E.b col = 0 ∧ ¬E.c col = 0 then G * length (arrow c k m) * (arrow c k m x / length (arrow c k m)) *
      (a * (E.srTerm (length (arrow c k m)) (E.b col) (E.c col)).1) else 0) =
      a * (G * dampOf E col (length (arrow c k m)) * arrow c k m x) := by
    intro col a
    unfold dampOf
    by_cases hz : E.b col = 0 ∨ E.c col = 0
    · have hz' : ¬ (¬E.b col = 0 ∧ ¬E.c col = 0) := by tauto
      rw [if_neg hz', if_pos hz]
      ring
    · have hz' : ¬E.b col = 0 ∧ ¬E.c col = 0 := by tauto
      rw [if_pos hz', if_neg hz, mul_assoc G, hdir]
      ring
  have hM : ∀ j, E.alpha (c.site j).typ = 0 → siteMoment E.alpha pc c j = 0 := fun j hj => if_pos hj
  have hM' : ∀ j < c.sites.length, E.alpha (c.site j).typ ≠ 0 → siteMoment E.alpha pc c j = p (c.start + j) :=
    fun j hj hz => (if_neg hz).trans (hpc j hj)
  simp only [hl, true_and, if_true]
  by_cases hik : i = k
  · subst hik
    by_cases hji : m.j = i
    · simp only [hji, hα, not_false_eq_true, and_self, and_true, and_false, if_true, if_false, not_true_eq_false, false_and, sub_zero,
        add_zero, ← mul_assoc]
      have := hD (PairIndex.pairCol c.ntypes (c.site i).typ (c.site i).typ) (E.charge (c.site i).typ * E.alpha (c.site i).typ)
      simp only [← mul_assoc] at this
      rw [this, hM' i hi hα]
      simp only [dipoleTerm, dot3, Fin.sum_univ_three]
      ring
    · have hij : ¬ i = m.j := fun e => hji e.symm
      have := hD (PairIndex.pairCol c.ntypes (c.site i).typ (c.site m.j).typ) (E.charge (c.site m.j).typ * E.alpha (c.site i).typ)
      simp only [hji, hij, hα, not_false_eq_true, and_self, and_true, true_and, and_false, if_true, if_false, not_true_eq_false,
        false_and, sub_zero, add_zero, ← mul_assoc] at this ⊢
      rw [this]
      by_cases hz : E.alpha (c.site m.j).typ = 0
      · simp only [hM m.j hz, hz, not_true_eq_false, if_false, dot3, Fin.sum_univ_three, Pi.zero_apply]
        ring
      · simp only [hM' m.j hw.1 hz, hz, not_false_eq_true, if_true, dipoleTerm, dot3, Fin.sum_univ_three]
        ring
  · by_cases hij : i = m.j
    · subst hij
      have hki : ¬ k = m.j := fun e => hik e.symm
      have := hD (PairIndex.pairCol c.ntypes (c.site k).typ (c.site m.j).typ) (-(E.charge (c.site k).typ * E.alpha (c.site m.j).typ))
      simp only [hik, hki, hα, not_false_eq_true, and_self, and_true, true_and, and_false, if_true, if_false, not_true_eq_false,
        false_and, sub_zero, add_zero, zero_add, zero_sub, neg_mul, mul_neg, ← mul_assoc] at this ⊢
      rw [this]
      by_cases hz : E.alpha (c.site k).typ = 0
      · simp only [hM k hz, hz, not_true_eq_false, false_and, if_false, dot3, Fin.sum_univ_three, Pi.zero_apply, Pi.neg_apply]
        ring
      · simp only [hM' k hk hz, hz, not_false_eq_true, true_and, if_true, dipoleTerm, dot3, Fin.sum_univ_three, Pi.neg_apply]
        ring
    · simp [hik, hij]

/-- **The dipoles**, without mixing: they are those of the field of the charges of the crystal alone, or they are, up to the tolerance,
those induced by the field of the charges and dipoles of the crystal. -/
theorem C117_dipoles_partial (hr : Ready edge cut scale c) (hf : Built false cut scale c f) (hsym : ∀ s t, cut.rcut s t = cut.rcut t s)
    (b : Build) (P : Pots ℝ) {E : Elec ℝ} (hE : TailSlope E) (hsr : ∀ r a b c, E.srValue r a b c = a * (E.srTerm r b c).1)
    (hreach : ChargeReach cut E.cut c) (hroot : IsRoot E) (hmix : E.mix = 0) (ew sw : ℝ) (ci : Nat) (s : ElState ℝ) :
    let p := fun i => (elConf b true P E ew sw ci f s).1.dip.pInd (c.start + i)
    let field := siteField E.cut E.charge E.alpha (fun r => (E.tail r).fn) (dampOf E)
    (∀ i < c.sites.length, E.alpha (c.site i).typ ≠ 0 → ∀ k, p i k = E.alpha (c.site i).typ * field (fun _ => 0) c i k) ∨
    crystalInconsistency E.cut E.charge E.alpha (fun r => (E.tail r).fn) (dampOf E) p c < E.tol ^ 2 := by
  intro p field
  have hp : ∀ i, p i = (elDipoles b true P E f s).pInd (c.start + i) := fun _ => rfl
  have hat : ∀ i < c.sites.length, ∃ a, f.atoms[i]? = some a ∧ a.typ = (c.site i).typ := by
    intro i hi
    have hi' : i < f.atoms.length := by rw [hf.count]; exact hi
    exact ⟨_, List.getElem?_eq_getElem hi', hf.typ i _ (List.getElem?_eq_getElem hi')⟩
  rcases C68_self_consistent_partial b P E f hroot hmix s with h | h
  · left
    intro i hi hα k
    obtain ⟨a, ha, hty⟩ := hat i hi
    have h1 := h i a ha (by rw [hty]; exact hα)
    rw [hf.start, hty] at h1
    have h2 := lattice_field hr hf hsym hE hsr hreach (pc := fun _ => 0) (p := fun _ => 0) (fun _ _ => rfl) i hi hα k
    have h3 : dipoleField E f (fun _ => 0) (c.start + i) k = 0 := by
      unfold dipoleField
      rw [List.sum_eq_zero]
      intro y hy
      obtain ⟨e, -, rfl⟩ := List.mem_map.1 hy
      simp [dipoleTerm, dot3]
    rw [h3, add_zero] at h2
    rw [hp, h1]
    exact h2
  · right
    refine lt_of_eq_of_lt ?_ h
    unfold crystalInconsistency inconsistency polarSum
    rw [hf.count]
    congr 1
    set d : Atom ℝ := ⟨0, [], 0, false⟩
    rw [sum_zipIdx f.atoms (fun a j => if E.alpha a.typ = 0 then 0 else ∑ k : Fin 3, ((elDipoles b true P E f s).pInd (f.start + j) k -
      (E.alpha a.typ * (staticField E f (f.start + j) k + dipoleField E f (elDipoles b true P E f s).pInd (f.start + j) k) +
        shortMoment E f (f.start + j) k)) ^ 2) 0 d, hf.count]
    apply Finset.sum_congr rfl
    intro i hi
    rw [Finset.mem_range] at hi
    obtain ⟨a, ha, hty⟩ := hat i hi
    have hg : f.atoms.getD i d = a := by rw [List.getD_eq_getElem?_getD, ha, Option.getD_some]
    rw [hg, hty, Nat.zero_add, hf.start]
    by_cases hα : E.alpha (c.site i).typ = 0
    · rw [if_pos hα, if_pos hα]
    · rw [if_neg hα, if_neg hα]
      apply Finset.sum_congr rfl
      intro k _
      rw [lattice_field hr hf hsym hE hsr hreach (pc := p) (p := (elDipoles b true P E f s).pInd) (fun i _ => hp i) i hi hα k, hp]

end

/-! ### The tails of the program -/

theorem screened_curve (κ rc : ℝ) (h : rc ≠ 0) :
    deriv (deriv (screened κ)) rc = (elstatValue rc κ).grad + rc * (rc * (elstatValue rc κ).ggrad) := by
  have h1 : deriv (screened κ) =ᶠ[𝓝 rc] fun r => r * (elstatValue r κ).grad := by
    filter_upwards [isOpen_ne.mem_nhds h] with r hr
    exact screened_slope κ r hr
  rw [h1.deriv_eq]
  have h2 := (hasDerivAt_id rc).mul (gtail_hasDerivAt rc κ h)
  have h3 : HasDerivAt (fun r => r * (elstatValue r κ).grad) (1 * (elstatValue rc κ).grad + rc * (rc * (elstatValue rc κ).ggrad)) rc := h2
  rw [h3.deriv, one_mul]

/-- Functions and numbers of the program are the potential, the damping and the self energy described. -/
theorem C117_tails (rc κ : ℝ) (hrc : rc ≠ 0) (q alpha b c : Nat → ℝ) (mix tol : ℝ) :
    let E := progElec true false rc κ q alpha b c mix tol
    (fun r => (E.tail r).fn) = shiftedFourth (screened κ) rc ∧ E.selfCoef = ewaldSelf κ ∧
    (fun col r => if E.b col = 0 ∨ E.c col = 0 then 0 else (E.srTerm r (E.b col) (E.c col)).1) =
      (fun col r => shortDamp (b col) (c col) r) ∧ TailSlope E := by
  intro E
  have hv : ∀ r, screened κ r = (elstatValue r κ).fn := fun r => (congrFun (screened_value κ) r).symm
  have hs := screened_slope κ rc hrc
  refine ⟨?_, ?_, ?_, ?_⟩
  · funext r
    simp only [E, progElec, shiftedFourth, shiftedSquare, hs, screened_curve κ rc hrc, hv, elstatShift, Bool.false_eq_true, if_false,
      if_true]
    field_simp
    ring
  · simp only [E, progElec, Bool.false_eq_true, if_false, ewaldSelf, dpEps]
    norm_num
  · funext col r
    simp only [E, progElec, shortDamp, shortrangeTerm, dpEps]
    split
    · rfl
    · simp only [Finset.sum_range_succ, Finset.sum_range_zero, Nat.factorial]
      push_cast
      norm_num
      ring
  · intro r h
    exact (C40_force true rc r κ h).1

open Verif.Cut in
/-- **The program.** With its tails and its cutoffs: from cells, positions, charges, polarisabilities and pair functions to the
objective. -/
theorem C117_program_partial (n : Nat) (rc κ : ℝ) (hrc : rc ≠ 0) (q alpha be ce : Nat → ℝ) (mix tol : ℝ) (before : Nat → ℝ)
    (b : Build) (P : Pots ℝ) (ew sw w : ℝ) (qs : List (Bound ℝ)) (eopp univ : List (Nat × ℝ)) (L : List (Cell × Conf ℝ))
    (hst : Starts 0 (L.map Prod.snd)) (hq : ∀ t < n, alpha t ≠ 0 → q t ≠ 0)
    (hL : ∀ x ∈ L, Prepared (toCutoffs n (rcut .pair true n P.fin rc before)) x.1 x.2 ∧ x.1.ntypes = n ∧
      (∀ i < x.1.sites.length, (x.1.site i).typ < n) ∧ PairClear P x.1)
    (v v' : ElVector ℝ) (y : ℝ)
    (h : elObjective b true P (progElec true false rc κ q alpha be ce mix tol) ew sw w qs eopp univ (L.map Prod.snd) v = .ok (v', y)) :
    y = (L.map fun x => crystalError b (latticePolar P rc q alpha (shiftedFourth (screened κ) rc)
        (fun col r => shortDamp (be col) (ce col) r) (ewaldSelf κ) fun i => v'.st.dip.pInd (x.1.start + i)) ew sw
      (cellVolume x.1.box.edge) x.1 x.2).sum + totalPenalty w qs eopp univ := by
  obtain ⟨e1, e2, e3, e4⟩ := C117_tails rc κ hrc q alpha be ce mix tol
  have he : ∀ p, polarLattice P (progElec true false rc κ q alpha be ce mix tol) p =
      latticePolar P rc q alpha (shiftedFourth (screened κ) rc) (fun col r => shortDamp (be col) (ce col) r) (ewaldSelf κ) p := by
    intro p
    unfold polarLattice
    rw [e1, e2, e3]
    rfl
  simp only [← he]
  refine C117_objective_partial _ (cutoffs_good .pair true n P.fin rc before) b P _ e4 ew sw w qs eopp univ L hst ?_ v v' y h
  intro x hx
  obtain ⟨h1, h2, h3, h4⟩ := hL x hx
  refine ⟨h1, reach_pair .pair (Or.inl rfl) true n P rc before x.1 h2 h3, ?_, h4, ?_, fun i hi ha => hq _ (h3 i hi) ha⟩
  · intro i hi j hj
    simp only [toCutoffs]
    rw [if_pos ⟨h3 i hi, h3 j hj⟩]
    exact (C96_rcut .pair true n P.fin rc before _ _ (h3 i hi) (h3 j hj)).2.1 rfl
  · intro i _ m _ hg
    exact progElec_smooth true false (by simp) rc κ hrc q alpha be ce mix tol _ hg

/-- Functions of the program meet the hypotheses of `C117_dipoles_partial`. -/
theorem C117_dipoles_program (rc κ : ℝ) (q alpha be ce : Nat → ℝ) (mix tol : ℝ) :
    let E := progElec true false rc κ q alpha be ce mix tol
    TailSlope E ∧ (∀ r a b c, E.srValue r a b c = a * (E.srTerm r b c).1) ∧ IsRoot E := by
  intro E
  refine ⟨fun r h => (C40_force true rc r κ h).1, ?_, ?_⟩
  · intro r a b c
    simp only [E, progElec, shortrangeValue, shortrangeTerm]
    ring
  · exact fun x hx => ⟨Real.sqrt_nonneg x, Real.mul_self_sqrt hx⟩

/-! ### Examples -/

open Verif.Cut in
/-- Hypotheses of `C117_program_partial`: the thin crystal with polarisable charged atoms. -/
example (b : Build) (v : ElVector ℝ) : ∃ f : Conf ℝ, Starts 0 [f] ∧ (∀ t < 1, (fun _ : ℕ => (2 : ℝ)) t ≠ 0 → (fun _ : ℕ => (1 : ℝ)) t ≠ 0) ∧
    (∀ x ∈ [(thin, f)], Prepared (toCutoffs 1 (rcut .pair true 1 evenPots.fin (5 / 4) fun _ => 0)) x.1 x.2 ∧ x.1.ntypes = 1 ∧
      (∀ i < x.1.sites.length, (x.1.site i).typ < 1) ∧ PairClear evenPots x.1) ∧
    ∃ r, elObjective b true evenPots (progElec true false (5 / 4) (1 / 10) (fun _ => 1) (fun _ => 2) (fun _ => 1) (fun _ => 1) 0 0)
      1 1 1 [] [] [] [f] v = .ok r := by
  obtain ⟨f, hf⟩ := thin_prepared .pair fun _ => 0
  obtain ⟨edge, scale, -, -, -, hb⟩ := hf.made
  refine ⟨f, ⟨hb.start, trivial⟩, fun _ _ _ => one_ne_zero, ?_, ⟨_, rfl⟩⟩
  intro x hx
  obtain rfl := List.mem_singleton.1 hx
  rw [even_rcut .pair (Or.inl rfl)]
  refine ⟨hf, rfl, ?_, even_clear⟩
  intro i hi
  obtain rfl : i = 0 := by have : i < 1 := hi; omega
  exact one_pos

/-- Energy of dipoles along the short axis of the thin crystal: two neighbours at distance 1 in line with the dipole. -/
example (φ : ℝ → ℝ) : latticeDipoles (5 / 4) (fun _ => 1) (fun _ => 2) φ (fun _ _ => 0) (fun _ => ![1, 0, 0]) thin = 2 * deriv φ 1 := by
  have h : ∀ m ∈ Others thin 0, dipoleBond (5 / 4) (fun _ => 1) (fun _ => 2) φ (fun _ _ => 0) (fun _ => ![1, 0, 0]) thin 0 m =
      (fun (_ : ℕ) (r : ℝ) => if r < 5 / 4 then 2 * deriv φ r else 0) (thin.site m.j).typ (length (arrow thin 0 m)) := by
    intro m hm
    have hmu : ∀ j, siteMoment (fun _ => 2) (fun _ => ![1, 0, 0]) thin j = ![1, 0, 0] := fun j => if_neg (by norm_num)
    unfold dipoleBond
    simp only [hmu]
    rcases thin_gap m hm with ⟨hg, hmm⟩ | hg
    · have hg : length (arrow thin 0 m) = 1 := hg
      rw [hg, if_pos (by norm_num), if_pos (by norm_num)]
      rcases hmm with rfl | rfl <;> rw [thin_arrow 0 one_pos _ one_pos] <;> simp [dot3, Fin.sum_univ_three] <;> ring
    · have hg : 2 ≤ length (arrow thin 0 m) := hg
      rw [if_neg (by linarith), if_neg (by linarith)]
  unfold latticeDipoles
  rw [show thin.sites.length = 1 from rfl, Finset.sum_range_one, finsum_mem_congr rfl h]
  have := thin_latticeSum (fun (_ : ℕ) (r : ℝ) => if r < 5 / 4 then 2 * deriv φ r else 0) (fun t r hr => if_neg (by linarith))
  unfold latticeSum at this
  rw [this, if_pos (by norm_num)]
  ring

end Verif.Props
