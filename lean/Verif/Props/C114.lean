/-
C114  The objective of Tersoff potentials is that of the infinite periodic crystals.

Both variants of `src/force_tersoff.c`.  Energies are lattice sums over all bonds and, for each, over all other bonds of its atom
(`Spec/CrystalTersoff.lean`), forces and stresses minus their derivatives.  Atoms enter and leave the range of the functions while
deriving.
-/
import Verif.Spec.CrystalTersoff
import Verif.Props.C61
import Verif.Props.C113

set_option linter.unusedSectionVars false

namespace Verif.Props

open Verif.Force hiding Cell
open Verif.Neighbors Verif.Spec Topology

/-- No distance in the crystal equals the cut-off radius. -/
def OffRadii (cutoff : Nat → ℝ) (c : Cell) : Prop :=
  ∀ i < c.sites.length, ∀ m ∈ Others c i, gapTo c i m ≠ cutoff (pairColumn c i m.j)

/-- The functions end within the cutoff of the neighbour lists. -/
def ReachRadii (cut : Cutoffs) (cutoff : Nat → ℝ) (c : Cell) : Prop :=
  ∀ i < c.sites.length, ∀ j < c.sites.length, cutoff (pairColumn c i j) ≤ cut.rcut (c.site i).typ (c.site j).typ

/-! ### Sums over bonds -/

theorem bonds_nodup {α : Type*} [DecidableEq α] (F : α → ℝ → ℝ) (z : α → α → ℝ) (pre l : List α) (hn : (pre ++ l).Nodup) :
    ((othersOf pre l).map fun q => F q.1 (q.2.map (z q.1)).sum).sum =
      (l.map fun m => F m (((pre ++ l).map fun n => if n = m then 0 else z m n).sum)).sum := by
  induction l generalizing pre with
  | nil => simp [othersOf]
  | cons a l ih =>
    have hpre : ∀ x ∈ pre, x ≠ a := by
      intro x hx e
      subst e
      have := (List.nodup_append.1 hn).2.2 x hx x List.mem_cons_self
      exact this rfl
    have hl : ∀ x ∈ l, x ≠ a := by
      intro x hx e
      subst e
      exact (List.nodup_cons.1 (List.nodup_append.1 hn).2.1).1 hx
    have e1 : ((pre ++ l).map (z a)).sum = ((pre ++ a :: l).map fun n => if n = a then 0 else z a n).sum := by
      simp only [List.map_append, List.sum_append, List.map_cons, List.sum_cons, if_true, zero_add]
      congr 2
      · exact List.map_congr_left fun x hx => (if_neg (hpre x hx)).symm
      · exact List.map_congr_left fun x hx => (if_neg (hl x hx)).symm
    have e2 := ih (pre ++ [a]) (by simpa using hn)
    simp only [othersOf, List.map_cons, List.sum_cons, e1, e2, List.append_assoc, List.singleton_append]

section
variable {edge : Fin 3 → V3 ℝ} {cut : Cutoffs} {scale : Fin 3 → ℤ} {c d : Cell} {f : Conf ℝ} {H : Nat → List Image}

theorem bonds_site (hd : Near cut c d) (hH : FullOf cut c H) {i : Nat} (hi : i < c.sites.length)
    (T : Neigh ℝ → List (Neigh ℝ) → Term ℝ) (bond : Nat → V3 ℝ → ℝ → ℝ) (ζ : Nat → V3 ℝ → Nat → V3 ℝ → ℝ)
    (hT : ∀ m, ∀ l : List Image, (T (placedAt (arrow d i m) (bondOf c i m)) (l.map fun n => placedAt (arrow d i n) (bondOf c i n))).energy =
      bond (c.site m.j).typ (arrow d i m) (l.map fun n => ζ (c.site m.j).typ (arrow d i m) (c.site n.j).typ (arrow d i n)).sum)
    (hE : ∀ m ∈ Others c i, cut.rcut (c.site i).typ (c.site m.j).typ ≤ length (arrow d i m) →
      ∀ x, bond (c.site m.j).typ (arrow d i m) x = 0)
    (hz : ∀ t v, ∀ n ∈ Others c i, cut.rcut (c.site i).typ (c.site n.j).typ ≤ length (arrow d i n) →
      ζ t v (c.site n.j).typ (arrow d i n) = 0) :
    ((othersOf [] ((H i).map fun m => placedAt (arrow d i m) (bondOf c i m))).map fun q => (T q.1 q.2).energy).sum =
      latticeBonds d i bond ζ := by
  classical
  unfold latticeBonds
  rw [hd.sum hH hi _ (fun m hm hl => by rw [hd.typ]; exact hE m hm hl _)]
  have e := othersOf_map (fun m => placedAt (arrow d i m) (bondOf c i m)) [] (H i)
  rw [List.map_nil] at e
  rw [e, List.map_map]
  have k := bonds_nodup (fun m x => bond (c.site m.j).typ (arrow d i m) x)
    (fun m n => ζ (c.site m.j).typ (arrow d i m) (c.site n.j).typ (arrow d i n)) [] (H i) (by simpa using hH.nodup i hi)
  simp only [List.nil_append] at k
  refine Eq.trans ?_ (k.trans ?_)
  · congr 1
    exact List.map_congr_left fun q _ => hT q.1 q.2
  · congr 1
    apply List.map_congr_left
    intro m _
    rw [hd.typ, hd.rest hH hi m _ (fun n hn hl => by rw [hd.typ]; exact hz _ _ n hn hl)]
    congr 2
    apply List.map_congr_left
    intro n _
    rw [hd.typ]

/-- Energies of one atom. -/
theorem bond_site_energy (hd : Near cut c d) (hH : FullOf cut c H) {P : Pots ℝ} (hreach : PairReach cut P c) {i : Nat}
    (hi : i < c.sites.length) (T : Nat → Neigh ℝ → List (Neigh ℝ) → Term ℝ) (bond : Nat → V3 ℝ → ℝ → ℝ)
    (ζ : Nat → V3 ℝ → Nat → V3 ℝ → ℝ)
    (hT : ∀ m, ∀ l : List Image,
      (T (c.start + i) (placedAt (arrow d i m) (bondOf c i m)) (l.map fun n => placedAt (arrow d i n) (bondOf c i n))).energy =
      bond (c.site m.j).typ (arrow d i m) (l.map fun n => ζ (c.site m.j).typ (arrow d i m) (c.site n.j).typ (arrow d i n)).sum)
    (hE : ∀ m ∈ Others c i, cut.rcut (c.site i).typ (c.site m.j).typ ≤ length (arrow d i m) →
      ∀ x, bond (c.site m.j).typ (arrow d i m) x = 0)
    (hz : ∀ t v, ∀ n ∈ Others c i, cut.rcut (c.site i).typ (c.site n.j).typ ≤ length (arrow d i n) →
      ζ t v (c.site n.j).typ (arrow d i n) = 0) (w : ℝ) (q : Bool) :
    (1 / 2) * latticeSum d i (phi P d.ntypes (d.site i).typ) - (1 / 2) * ((1 / 2) * ∑ᶠ m ∈ {m ∈ Others d i | m.j = i},
      phi P d.ntypes (d.site i).typ (d.site m.j).typ (length (arrow d i m))) + latticeBonds d i bond ζ =
    sumEnergy (bondSite P T (c.start + i)
      ⟨(c.site i).typ, (H i).map (fun m => placedAt (arrow d i m) (bondOf c i m)), w, q⟩) := by
  have e1 := pair_site hd hH hreach true hi
  rw [if_pos rfl] at e1
  unfold bondSite sumEnergy
  rw [List.map_append, List.sum_append, ← bonds_site hd hH hi (T (c.start + i)) bond ζ hT hE hz, ← e1]
  simp only [List.map_map]
  rfl

theorem phi_congr {P Q : Pots ℝ} (hf : P.fin = Q.fin) (hv : ∀ col r, r < P.fin col → P.val col r = Q.val col r) : phi P = phi Q := by
  funext nt s t r
  unfold phi
  rw [hf]
  by_cases h : r < Q.fin (PairIndex.pairCol nt s t)
  · rw [if_pos h, if_pos h, hv _ _ (by rw [hf]; exact h)]
  · rw [if_neg h, if_neg h]

theorem off_radii (hH : FullOf cut c H) (hf : Built true cut scale c f)
    (g3 : ∀ i a, f.atoms[i]? = some a → a.neigh = (H i).map (entryOf c i)) {cutoff : Nat → ℝ} (hs : OffRadii cutoff c) :
    OffRadius cutoff f (nodesFrom c H 0 f.atoms) (posOf c) := by
  intro j n hj l hl
  obtain ⟨hlt, -, hlk, hmem⟩ := node_link hH hf g3 hj
  rw [hlk, List.mem_map] at hl
  obtain ⟨m, hm, rfl⟩ := hl
  obtain ⟨h1, h2, h3⟩ := hmem m hm
  rw [h3]
  exact ⟨h2, hs j hlt m h1⟩

/-! ### Tersoff -/

theorem cosineEnd_inside (p : TersPars ℝ) (col : Nat) {r : ℝ} (h : r < p.S col) :
    cosineEnd (p.R col) (p.S col) r = tersF realLib p col r := by
  unfold cosineEnd tersF
  by_cases h1 : r < p.R col
  · simp only [if_pos h1]
  · simp only [if_neg h1, if_pos h, realLib]
    rw [show Real.pi * ((r - p.R col) / (p.S col - p.R col)) = Real.pi / (p.S col - p.R col) * (r - p.R col) by ring]
    ring

theorem cosineEnd_outside {R S r : ℝ} (hR : R < S) (h : S ≤ r) : cosineEnd R S r = 0 := by
  unfold cosineEnd
  rw [if_neg (by linarith), if_neg (not_lt.2 h)]

theorem tersoff_phi (p : TersPars ℝ) : phi (tersPots realLib p) = phi (tersoffRepulsion p) := by
  apply phi_congr (P := tersPots realLib p) (Q := tersoffRepulsion p) rfl
  intro col r h
  show tersF realLib p col r * p.A col * Real.exp (-p.lambda col * r) = cosineEnd _ _ r * (p.A col * Real.exp (-(p.lambda col * r)))
  rw [cosineEnd_inside p col h, neg_mul, mul_assoc]

theorem tersZ_placed (p : TersPars ℝ) (hp : ∀ col, TersOk p col) (d : Cell) (i : Nat) (m n : Image) :
    tersZ realLib p (placedAt (arrow d i m) (bondOf c i m)) (placedAt (arrow d i n) (bondOf c i n)) =
      tersoffZeta p c.ntypes (c.site i).typ (c.site m.j).typ (arrow d i m) (c.site n.j).typ (arrow d i n) := by
  unfold tersZ tersoffZeta
  rw [cosine_placed, angleCos_eq]
  show (if length (arrow d i n) < p.S (PairIndex.pairCol c.ntypes (c.site i).typ (c.site n.j).typ) then
    tersF realLib p (PairIndex.pairCol c.ntypes (c.site i).typ (c.site n.j).typ) (length (arrow d i n)) *
      p.omega (PairIndex.pairCol c.ntypes (c.site i).typ (c.site n.j).typ) *
      tersG p (PairIndex.pairCol c.ntypes (c.site i).typ (c.site m.j).typ) _ else 0) = _
  by_cases h : length (arrow d i n) < p.S (PairIndex.pairCol c.ntypes (c.site i).typ (c.site n.j).typ)
  · rw [if_pos h, cosineEnd_inside p _ h]
    unfold tersG tersoffAngle
    simp only [sq, mul_one_div]
  · rw [if_neg h, cosineEnd_outside (hp _).range (not_lt.1 h)]
    ring

theorem tersTerm_placed (p : TersPars ℝ) (hp : ∀ col, TersOk p col) (d : Cell) (i : Nat) (m : Image) (l : List Image) :
    (tersTerm realLib p (c.start + i) (placedAt (arrow d i m) (bondOf c i m))
      (l.map fun n => placedAt (arrow d i n) (bondOf c i n))).energy =
    tersoffBond p c.ntypes (c.site i).typ (c.site m.j).typ (arrow d i m)
      (l.map fun n => tersoffZeta p c.ntypes (c.site i).typ (c.site m.j).typ (arrow d i m) (c.site n.j).typ (arrow d i n)).sum := by
  have hz : tersSum realLib p (placedAt (arrow d i m) (bondOf c i m)) (l.map fun n => placedAt (arrow d i n) (bondOf c i n)) =
      (l.map fun n => tersoffZeta p c.ntypes (c.site i).typ (c.site m.j).typ (arrow d i m) (c.site n.j).typ (arrow d i n)).sum := by
    unfold tersSum
    rw [List.map_map]
    congr 1
    exact List.map_congr_left fun n _ => tersZ_placed p hp d i m n
  have hc : (placedAt (arrow d i m) (bondOf c i m)).col0 = PairIndex.pairCol c.ntypes (c.site i).typ (c.site m.j).typ := rfl
  have hr : (placedAt (arrow d i m) (bondOf c i m)).r = length (arrow d i m) := rfl
  unfold tersTerm tersoffBond
  by_cases h : length (arrow d i m) < p.S (PairIndex.pairCol c.ntypes (c.site i).typ (c.site m.j).typ)
  · by_cases hB : p.B (PairIndex.pairCol c.ntypes (c.site i).typ (c.site m.j).typ) = 0
    · rw [if_neg (by rw [hc, hB]; simp)]
      simp [hB]
    · rw [if_pos ⟨h, hB⟩]
      show tersE realLib p _ _ = _
      unfold tersE
      rw [hz, hc, hr]
      simp only [cosineEnd_inside p _ h, realLib]
      rw [neg_div, neg_mul (p.mu _)]
      ring
  · rw [if_neg (fun h' => h h'.1)]
    simp only [cosineEnd_outside (hp _).range (not_lt.1 h)]
    ring

theorem ters_matches (hr : Ready edge cut scale c) (hf : Built true cut scale c f) (hsym : ∀ s t, cut.rcut s t = cut.rcut t s)
    (p : TersPars ℝ) (hp : ∀ col, TersOk p col) (h1 : ReachRadii cut p.S c) (hs : OffRadii p.S c) :
    Matches (latticeTersoffHalved p) (bondSite (tersPots realLib p) (tersTerm realLib p))
      (bondForceSum (tersPots realLib p) (tersTerm realLib p)) (bondStress (tersPots realLib p) (tersTerm realLib p)) c f := by
  apply full_matches hr hf hsym (latticeTersoffHalved p) (fun d i =>
    (1 / 2) * latticeSum d i (phi (tersPots realLib p) d.ntypes (d.site i).typ) -
    (1 / 2) * ((1 / 2) * ∑ᶠ m ∈ {m ∈ Others d i | m.j = i},
      phi (tersPots realLib p) d.ntypes (d.site i).typ (d.site m.j).typ (length (arrow d i m))) +
    latticeBonds d i (tersoffBond p d.ntypes (d.site i).typ) (tersoffZeta p d.ntypes (d.site i).typ))
  · intro d _
    unfold latticeTersoffHalved latticeTersoff latticeOwn latticePair
    rw [tersoff_phi, Finset.sum_add_distrib, Finset.sum_sub_distrib]
    simp only [← Finset.mul_sum]
    ring
  · intro H hH d hd i hi w q
    apply bond_site_energy hd hH (P := tersPots realLib p) h1 hi
    · intro m l
      rw [hd.ntypes, hd.typ]
      exact tersTerm_placed p hp d i m l
    · intro m hm hlen x
      unfold tersoffBond
      rw [hd.ntypes, hd.typ]
      simp only [cosineEnd_outside (hp _).range (show p.S (PairIndex.pairCol c.ntypes (c.site i).typ (c.site m.j).typ) ≤ _ from
        (h1 i hi m.j hm.1).trans hlen)]
      ring
    · intro t v n hn hlen
      unfold tersoffZeta
      rw [hd.ntypes, hd.typ, cosineEnd_outside (hp _).range (show p.S (PairIndex.pairCol c.ntypes (c.site i).typ (c.site n.j).typ) ≤ _ from
        (h1 i hi n.j hn.1).trans hlen)]
      ring
  · intro ts hm
    exact bond_force_sum (tersTerm_own p) f ts (posOf c) hm
  · intro ts _ k
    exact bond_stress_sum (place f ts (posOf c)) k fun _ _ _ _ _ => tersTerm_sym p _ _ _
  · intro H hH g3 m hm
    exact ters_follows p hp f _ (posOf c) (off_radii hH hf g3 hs) m hm

/-! ### Modified Tersoff -/

theorem cosinesEnd_inside (p : TersModPars ℝ) (col : Nat) {r : ℝ} (h : r < p.R2 col) :
    cosinesEnd (p.R1 col) (p.R2 col) r = modF realLib p col r := by
  unfold cosinesEnd modF
  by_cases h1 : r < p.R1 col
  · simp only [if_pos h1]
  · simp only [if_neg h1, if_pos h, realLib]
    rw [show Real.pi * ((r - p.R1 col) / (p.R2 col - p.R1 col)) = Real.pi / (p.R2 col - p.R1 col) * (r - p.R1 col) by ring]
    ring

theorem cosinesEnd_outside {R S r : ℝ} (hR : R < S) (h : S ≤ r) : cosinesEnd R S r = 0 := by
  unfold cosinesEnd
  rw [if_neg (by linarith), if_neg (not_lt.2 h)]

theorem modified_phi (p : TersModPars ℝ) : phi (modPots realLib p) = phi (modRepulsion p) := by
  apply phi_congr (P := modPots realLib p) (Q := modRepulsion p) rfl
  intro col r h
  show modF realLib p col r * p.A col * Real.exp (-p.lambda col * r) = cosinesEnd _ _ r * (p.A col * Real.exp (-(p.lambda col * r)))
  rw [cosinesEnd_inside p col h, neg_mul, mul_assoc]

theorem modZ_placed (p : TersModPars ℝ) (hp : ∀ col, ModOk p col) (d : Cell) (i : Nat) (m n : Image) :
    modZ realLib p (placedAt (arrow d i m) (bondOf c i m)) (placedAt (arrow d i n) (bondOf c i n)) =
      modZeta p c.ntypes (c.site i).typ (c.site m.j).typ (arrow d i m) (c.site n.j).typ (arrow d i n) := by
  unfold modZ modZeta
  rw [cosine_placed, angleCos_eq]
  show (if length (arrow d i n) < p.R2 (PairIndex.pairCol c.ntypes (c.site i).typ (c.site n.j).typ) then
    modF realLib p (PairIndex.pairCol c.ntypes (c.site i).typ (c.site n.j).typ) (length (arrow d i n)) *
      modG realLib p (PairIndex.pairCol c.ntypes (c.site i).typ (c.site m.j).typ) _ *
      Real.exp (p.alpha (PairIndex.pairCol c.ntypes (c.site i).typ (c.site m.j).typ) *
        (length (arrow d i m) - length (arrow d i n)) ^ p.beta (PairIndex.pairCol c.ntypes (c.site i).typ (c.site m.j).typ)) else 0) = _
  by_cases h : length (arrow d i n) < p.R2 (PairIndex.pairCol c.ntypes (c.site i).typ (c.site n.j).typ)
  · rw [if_pos h, cosinesEnd_inside p _ h]
    unfold modG modAngle
    simp only [realLib, sq, mul_one_div, neg_mul, mul_assoc]
  · rw [if_neg h, cosinesEnd_outside (hp _).range (not_lt.1 h)]
    ring

theorem modTerm_placed (p : TersModPars ℝ) (hp : ∀ col, ModOk p col) (d : Cell) (i : Nat) (m : Image) (l : List Image) :
    (modTerm realLib p (c.start + i) (placedAt (arrow d i m) (bondOf c i m))
      (l.map fun n => placedAt (arrow d i n) (bondOf c i n))).energy =
    modAttraction p c.ntypes (c.site i).typ (c.site m.j).typ (arrow d i m)
      (l.map fun n => modZeta p c.ntypes (c.site i).typ (c.site m.j).typ (arrow d i m) (c.site n.j).typ (arrow d i n)).sum := by
  have hz : modSum realLib p (placedAt (arrow d i m) (bondOf c i m)) (l.map fun n => placedAt (arrow d i n) (bondOf c i n)) =
      (l.map fun n => modZeta p c.ntypes (c.site i).typ (c.site m.j).typ (arrow d i m) (c.site n.j).typ (arrow d i n)).sum := by
    unfold modSum
    rw [List.map_map]
    congr 1
    exact List.map_congr_left fun n _ => modZ_placed p hp d i m n
  have hc : (placedAt (arrow d i m) (bondOf c i m)).col0 = PairIndex.pairCol c.ntypes (c.site i).typ (c.site m.j).typ := rfl
  have hr : (placedAt (arrow d i m) (bondOf c i m)).r = length (arrow d i m) := rfl
  unfold modTerm modAttraction
  by_cases h : length (arrow d i m) < p.R2 (PairIndex.pairCol c.ntypes (c.site i).typ (c.site m.j).typ)
  · by_cases hB : p.B (PairIndex.pairCol c.ntypes (c.site i).typ (c.site m.j).typ) = 0
    · rw [if_neg (by rw [hc, hB]; simp)]
      simp [hB]
    · rw [if_pos ⟨h, hB⟩]
      show modE realLib p _ _ = _
      unfold modE
      rw [hz, hc, hr]
      simp only [cosinesEnd_inside p _ h, realLib]
      rw [neg_mul (p.mu _)]
      ring
  · rw [if_neg (fun h' => h h'.1)]
    simp only [cosinesEnd_outside (hp _).range (not_lt.1 h)]
    ring

theorem built_mod_sym (hr : Ready edge cut scale c) (hf : Built true cut scale c f) (p : TersModPars ℝ) :
    ∀ j a, f.atoms[j]? = some a → ∀ q ∈ othersOf [] a.neigh, ∀ α β,
      (modTerm realLib p (f.start + j) q.1 q.2).strain α β = (modTerm realLib p (f.start + j) q.1 q.2).strain β α := by
  obtain ⟨H, g1, g2, g3⟩ := built_lists hr hf
  intro j a hj q hq
  have hlt : j < c.sites.length := by
    rw [← hf.count]
    exact (List.getElem?_eq_some_iff.1 hj).1
  have key : ∀ m ∈ a.neigh, m.r ≠ 0 ∧ ∀ k, m.dist k = m.distR k * m.r := by
    intro m hm
    rw [g3 j a hj, List.mem_map] at hm
    obtain ⟨x, hx, rfl⟩ := hm
    exact ⟨by rw [entryOf_r]; exact listed_nonzero hf hlt hj (g3 j a hj) hx, fun k => rfl⟩
  obtain ⟨h1, h2⟩ := mem_othersOf hq
  apply modTerm_sym
  · exact (key _ h1).2
  · exact (key _ h1).1
  · intro nk hk
    exact key nk (by simpa using h2 nk hk)

theorem mod_matches (hr : Ready edge cut scale c) (hf : Built true cut scale c f) (hsym : ∀ s t, cut.rcut s t = cut.rcut t s)
    (p : TersModPars ℝ) (hp : ∀ col, ModOk p col) (h1 : ReachRadii cut p.R2 c) (hs : OffRadii p.R2 c) :
    Matches (latticeModifiedHalved p) (bondSite (modPots realLib p) (modTerm realLib p))
      (bondForceSum (modPots realLib p) (modTerm realLib p)) (bondStress (modPots realLib p) (modTerm realLib p)) c f := by
  apply full_matches hr hf hsym (latticeModifiedHalved p) (fun d i =>
    (1 / 2) * latticeSum d i (phi (modPots realLib p) d.ntypes (d.site i).typ) -
    (1 / 2) * ((1 / 2) * ∑ᶠ m ∈ {m ∈ Others d i | m.j = i},
      phi (modPots realLib p) d.ntypes (d.site i).typ (d.site m.j).typ (length (arrow d i m))) +
    latticeBonds d i (modAttraction p d.ntypes (d.site i).typ) (modZeta p d.ntypes (d.site i).typ))
  · intro d _
    unfold latticeModifiedHalved latticeModified latticeOwn latticePair
    rw [modified_phi, Finset.sum_add_distrib, Finset.sum_sub_distrib]
    simp only [← Finset.mul_sum]
    ring
  · intro H hH d hd i hi w q
    apply bond_site_energy hd hH (P := modPots realLib p) h1 hi
    · intro m l
      rw [hd.ntypes, hd.typ]
      exact modTerm_placed p hp d i m l
    · intro m hm hlen x
      unfold modAttraction
      rw [hd.ntypes, hd.typ]
      simp only [cosinesEnd_outside (hp _).range (show p.R2 (PairIndex.pairCol c.ntypes (c.site i).typ (c.site m.j).typ) ≤ _ from
        (h1 i hi m.j hm.1).trans hlen)]
      ring
    · intro t v n hn hlen
      unfold modZeta
      rw [hd.ntypes, hd.typ, cosinesEnd_outside (hp _).range (show p.R2 (PairIndex.pairCol c.ntypes (c.site i).typ (c.site n.j).typ) ≤ _ from
        (h1 i hi n.j hn.1).trans hlen)]
      ring
  · intro ts hm
    exact bond_force_sum (modTerm_own p) f ts (posOf c) hm
  · intro ts ht k
    rw [ht]
    exact bond_stress_sum f k (built_mod_sym hr hf p)
  · intro H hH g3 m hm
    exact mod_follows p hp f _ (posOf c) (off_radii hH hf g3 hs) m hm

/-! ### Energies without forces -/

theorem eachLoop_energy {α : Type*} (step : Acc ℝ → α → List α → Acc ℝ) (e : α → List α → ℝ)
    (h : ∀ s x os, (step s x os).energy = s.energy + e x os) (pre l : List α) (s : Acc ℝ) :
    (eachLoop step pre l s).energy = s.energy + ((othersOf pre l).map fun q => e q.1 q.2).sum := by
  induction l generalizing pre s with
  | nil => simp [eachLoop, othersOf]
  | cons x l ih => rw [eachLoop, ih, h]; simp [othersOf, add_assoc]

theorem tersAtom_energy (b : Build) (p : TersPars ℝ) (f : Conf ℝ) (i : Nat) (a : Atom ℝ) (s : Acc ℝ) :
    (tersAtom b realLib p f i a s).energy = s.energy + sumEnergy (bondSite (tersPots realLib p) (tersTerm realLib p) i a) := by
  unfold tersAtom bondSite sumEnergy
  rw [eachLoop_energy _ (fun nj os => (tersTerm realLib p i nj os).energy) (fun s nj os => by rw [tersBond_plus]; rfl),
    foldl_energy _ _ (fullPair_energy b true (tersPots realLib p) f.uf f.us i)]
  simp only [List.map_append, List.sum_append, List.map_map, add_assoc]
  rfl

theorem modAtom_energy (b : Build) (p : TersModPars ℝ) (f : Conf ℝ) (i : Nat) (a : Atom ℝ) (s : Acc ℝ) :
    (modAtom b realLib p f i a s).energy = s.energy + sumEnergy (bondSite (modPots realLib p) (modTerm realLib p) i a) := by
  unfold modAtom bondSite sumEnergy
  rw [eachLoop_energy _ (fun nj os => (modTerm realLib p i nj os).energy) (fun s nj os => by rw [modBond_plus]; rfl),
    foldl_energy _ _ (fullPair_energy b true (modPots realLib p) f.uf f.us i)]
  simp only [List.map_append, List.sum_append, List.map_map, add_assoc]
  rfl

end

/-! ### The claims -/

section
variable (edge : Fin 3 → V3 ℝ) (cut : Cutoffs) (scale : Fin 3 → ℤ) (c : Cell) (f : Conf ℝ)
  (hr : Ready edge cut scale c) (hf : Built true cut scale c f) (hsym : ∀ s t, cut.rcut s t = cut.rcut t s)
include hr hf hsym

/-- **Tersoff, one crystal.** The force vector contains energy, forces and stresses of the crystal in which the repulsion of atoms
and their own images counts half. -/
theorem C114_tersoff (b : Build) (p : TersPars ℝ) (hp : ∀ col, TersOk p col) (h1 : ReachRadii cut p.S c) (hs : OffRadii p.S c)
    (ew sw : ℝ) (ci : Nat) (fv : FV ℝ) : Reports b (latticeTersoffHalved p) (tersConf b realLib p ew sw ci f fv).1 ci c f :=
  leaves_crystal (res := fun c => (tersConf b realLib p ew sw ci c fv).1) (ters_matches hr hf hsym p hp h1 hs) hf.start hf.count
    (fullConf_energy b _ _ (tersAtom_energy b p f) ew sw ci f fv) (fun hu => ters_leaves b p ew sw ci fv f hu)

/-- **Modified Tersoff, one crystal.** -/
theorem C114_modified (b : Build) (p : TersModPars ℝ) (hp : ∀ col, ModOk p col) (h1 : ReachRadii cut p.R2 c) (hs : OffRadii p.R2 c)
    (ew sw : ℝ) (ci : Nat) (fv : FV ℝ) : Reports b (latticeModifiedHalved p) (modConf b realLib p ew sw ci f fv).1 ci c f :=
  leaves_crystal (res := fun c => (modConf b realLib p ew sw ci c fv).1) (mod_matches hr hf hsym p hp h1 hs) hf.start hf.count
    (fullConf_energy b _ _ (modAtom_energy b p f) ew sw ci f fv) (fun hu => mod_leaves b p ew sw ci fv f hu)

/-- **Tersoff, partial**: without own images in the range of the repulsion the force vector is that of the infinite crystal.
Missing: small cells, see `C114_own_violated`. -/
theorem C114_tersoff_partial (b : Build) (p : TersPars ℝ) (hp : ∀ col, TersOk p col) (h1 : ReachRadii cut p.S c)
    (hs : OffRadii p.S c) (ho : OwnApart (tersoffRepulsion p) c) (ew sw : ℝ) (ci : Nat) (fv : FV ℝ) :
    Reports b (latticeTersoff p) (tersConf b realLib p ew sw ci f fv).1 ci c f :=
  halved_reports hr ho hf (C114_tersoff edge cut scale c f hr hf hsym b p hp h1 hs ew sw ci fv)

/-- **Modified Tersoff, partial.** -/
theorem C114_modified_partial (b : Build) (p : TersModPars ℝ) (hp : ∀ col, ModOk p col) (h1 : ReachRadii cut p.R2 c)
    (hs : OffRadii p.R2 c) (ho : OwnApart (modRepulsion p) c) (ew sw : ℝ) (ci : Nat) (fv : FV ℝ) :
    Reports b (latticeModified p) (modConf b realLib p ew sw ci f fv).1 ci c f :=
  halved_reports hr ho hf (C114_modified edge cut scale c f hr hf hsym b p hp h1 hs ew sw ci fv)

end

theorem ters_part {cut : Cutoffs} (hsym : ∀ s t, cut.rcut s t = cut.rcut t s) (b : Build) (p : TersPars ℝ) (hp : ∀ col, TersOk p col)
    {c : Cell} {f : Conf ℝ} (hc : PreparedFull cut c f) (h1 : ReachRadii cut p.S c) (hs : OffRadii p.S c) (ew sw : ℝ) (ci : Nat)
    (fv : FV ℝ) : (tersConf b realLib p ew sw ci f fv).2 =
      crystalError b (latticeTersoffHalved p) ew sw (cellVolume c.box.edge) c f := by
  obtain ⟨edge, scale, hr, -, -, hb⟩ := hc.made
  have hi := built_inside hr hb
  obtain ⟨E, F, S, hq⟩ := fullConf_result b (tersAtom b realLib p f) ew sw f
    fun _ _ hj => tersAtom_shift (member_of hj) (inside_neigh hi hj) b realLib p f
  obtain ⟨-, -, -, -, -, h⟩ := hq ci fv
  rw [← hc.vol, ← residual_crystal b _ ew sw _ ci c f hb.start (C114_tersoff edge cut scale c f hr hb hsym b p hp h1 hs ew sw ci fv)]
  exact h

theorem mod_part {cut : Cutoffs} (hsym : ∀ s t, cut.rcut s t = cut.rcut t s) (b : Build) (p : TersModPars ℝ) (hp : ∀ col, ModOk p col)
    {c : Cell} {f : Conf ℝ} (hc : PreparedFull cut c f) (h1 : ReachRadii cut p.R2 c) (hs : OffRadii p.R2 c) (ew sw : ℝ) (ci : Nat)
    (fv : FV ℝ) : (modConf b realLib p ew sw ci f fv).2 =
      crystalError b (latticeModifiedHalved p) ew sw (cellVolume c.box.edge) c f := by
  obtain ⟨edge, scale, hr, -, -, hb⟩ := hc.made
  have hi := built_inside hr hb
  obtain ⟨E, F, S, hq⟩ := fullConf_result b (modAtom b realLib p f) ew sw f
    fun _ _ hj => modAtom_shift (member_of hj) (inside_neigh hi hj) b realLib p f
  obtain ⟨-, -, -, -, -, h⟩ := hq ci fv
  rw [← hc.vol, ← residual_crystal b _ ew sw _ ci c f hb.start (C114_modified edge cut scale c f hr hb hsym b p hp h1 hs ew sw ci fv)]
  exact h

/-- **Objective, Tersoff.** -/
theorem C114_tersoff_objective (cut : Cutoffs) (hsym : ∀ s t, cut.rcut s t = cut.rcut t s) (b : Build) (p : TersPars ℝ)
    (hp : ∀ col, TersOk p col) (ew sw w : ℝ) (qs : List (Bound ℝ)) (eopp univ : List (Nat × ℝ)) (L : List (Cell × Conf ℝ))
    (hL : ∀ x ∈ L, PreparedFull cut x.1 x.2 ∧ ReachRadii cut p.S x.1 ∧ OffRadii p.S x.1)
    (v v' : PairVec ℝ) (y : ℝ) (h : tersObjective b realLib p ew sw w qs eopp univ (L.map Prod.snd) v = .ok (v', y)) :
    y = (L.map fun x => crystalError b (latticeTersoffHalved p) ew sw (cellVolume x.1.box.edge) x.1 x.2).sum +
      totalPenalty w qs eopp univ := by
  have key := cells_total (tersConf b realLib p ew sw)
    (fun x => crystalError b (latticeTersoffHalved p) ew sw (cellVolume x.1.box.edge) x.1 x.2)
    (AddMonoidHom.id ℝ) L (fun x hx ci fv => by
      obtain ⟨g1, g2, g3⟩ := hL x hx
      exact ters_part hsym b p hp g1 g2 g3 ew sw ci fv) 0 (v.fv, 0)
  obtain ⟨-, h2⟩ := sumObjective_ok _ _ w qs eopp univ _ v v' y h
  simp only [AddMonoidHom.id_apply, zero_add] at key
  rw [← key, h2]
  simp

/-- **Objective, modified Tersoff.** -/
theorem C114_modified_objective (cut : Cutoffs) (hsym : ∀ s t, cut.rcut s t = cut.rcut t s) (b : Build) (p : TersModPars ℝ)
    (hp : ∀ col, ModOk p col) (ew sw w : ℝ) (qs : List (Bound ℝ)) (eopp univ : List (Nat × ℝ)) (L : List (Cell × Conf ℝ))
    (hL : ∀ x ∈ L, PreparedFull cut x.1 x.2 ∧ ReachRadii cut p.R2 x.1 ∧ OffRadii p.R2 x.1)
    (v v' : PairVec ℝ) (y : ℝ) (h : modObjective b realLib p ew sw w qs eopp univ (L.map Prod.snd) v = .ok (v', y)) :
    y = (L.map fun x => crystalError b (latticeModifiedHalved p) ew sw (cellVolume x.1.box.edge) x.1 x.2).sum +
      totalPenalty w qs eopp univ := by
  have key := cells_total (modConf b realLib p ew sw)
    (fun x => crystalError b (latticeModifiedHalved p) ew sw (cellVolume x.1.box.edge) x.1 x.2)
    (AddMonoidHom.id ℝ) L (fun x hx ci fv => by
      obtain ⟨g1, g2, g3⟩ := hL x hx
      exact mod_part hsym b p hp g1 g2 g3 ew sw ci fv) 0 (v.fv, 0)
  obtain ⟨-, h2⟩ := sumObjective_ok _ _ w qs eopp univ _ v v' y h
  simp only [AddMonoidHom.id_apply, zero_add] at key
  rw [← key, h2]
  simp

/-! ### Small cells -/

/-- Tersoff parameters with range 3/2. -/
noncomputable def shortTersoff : TersPars ℝ :=
  ⟨fun _ => 1000, fun _ => 300, fun _ => 2, fun _ => 1, fun _ => 1, fun _ => 1 / 2, fun _ => 4, fun _ => 2, fun _ => -1,
    fun _ => 3 / 2, fun _ => 5 / 4, fun _ => 1⟩

noncomputable def shortModified : TersModPars ℝ :=
  ⟨fun _ => 3281, fun _ => 121, fun _ => 3, fun _ => 1, fun _ => 1, fun _ => 1 / 2, fun _ => 2, fun _ => 1,
    fun _ => 1 / 5, fun _ => 730418, fun _ => 1000000, fun _ => 1, fun _ => 26, fun _ => -9 / 25, fun _ => 5 / 4, fun _ => 3 / 2⟩

theorem short_ok : ∀ col, TersOk shortTersoff col := by
  intro col
  refine ⟨?_, ?_, ?_, ?_, ?_⟩ <;> norm_num [shortTersoff]

theorem shortMod_ok : ∀ col, ModOk shortModified col := by
  intro col
  refine ⟨?_, ?_, ?_, ?_, ?_, 0, ?_⟩ <;> norm_num [shortModified]

theorem thin_radii : OffRadii (fun _ => 3 / 2) thin := fun i hi m hm => (thin_off_end i hi m hm).1

/-- **Small cells: violated.** Atoms which meet their own images within the range of the repulsion: the energy is not that of the
crystal. -/
theorem C114_own_violated : ∃ (p : TersPars ℝ) (c : Cell) (f : Conf ℝ), (∀ col, TersOk p col) ∧ PreparedFull thinCut c f ∧
    ReachRadii thinCut p.S c ∧ OffRadii p.S c ∧ ∀ (b : Build) (ew sw : ℝ) (ci : Nat) (fv : FV ℝ),
      (tersConf b realLib p ew sw ci f fv).1.energy ci ≠ latticeTersoff p c / (c.sites.length : ℝ) - f.energy0 := by
  obtain ⟨f, hf, -⟩ := thin_full true true
  refine ⟨shortTersoff, thin, f, short_ok, hf, fun _ _ _ _ => le_refl _, thin_radii, ?_⟩
  intro b ew sw ci fv
  obtain ⟨edge, scale, hr, -, -, hb⟩ := hf.made
  rw [(C114_tersoff edge thinCut scale thin f hr hb (fun _ _ => rfl) b shortTersoff short_ok (fun _ _ _ _ => le_refl _)
    thin_radii ew sw ci fv).1]
  unfold latticeTersoffHalved
  rw [thin_images (P := tersoffRepulsion shortTersoff) (x := 1000 * Real.exp (-2)) (fun _ => by norm_num [tersoffRepulsion, shortTersoff]),
    show thin.sites.length = 1 from rfl]
  · intro h
    have := Real.exp_pos (-2)
    norm_num at h
  · intro s t
    unfold phi
    rw [if_pos (by norm_num [tersoffRepulsion, shortTersoff])]
    norm_num [tersoffRepulsion, shortTersoff, cosineEnd]

/-- Hypotheses of the theorems on Tersoff potentials. -/
example : ∃ f, (∀ x ∈ [(thin, f)], PreparedFull thinCut x.1 x.2 ∧ ReachRadii thinCut shortTersoff.S x.1 ∧ OffRadii shortTersoff.S x.1) ∧
    f.uf = true ∧ f.us = true ∧ (∀ col, TersOk shortTersoff col) := by
  obtain ⟨f, hf, h1, h2⟩ := thin_full true true
  refine ⟨f, ?_, h1, h2, short_ok⟩
  intro x hx
  obtain rfl := List.mem_singleton.1 hx
  exact ⟨hf, fun _ _ _ _ => le_refl _, thin_radii⟩

/-- Hypotheses of the theorems on modified Tersoff potentials. -/
example : ∃ f, (∀ x ∈ [(thin, f)], PreparedFull thinCut x.1 x.2 ∧ ReachRadii thinCut shortModified.R2 x.1 ∧ OffRadii shortModified.R2 x.1) ∧
    f.uf = true ∧ f.us = true ∧ (∀ col, ModOk shortModified col) := by
  obtain ⟨f, hf, h1, h2⟩ := thin_full true true
  refine ⟨f, ?_, h1, h2, shortMod_ok⟩
  intro x hx
  obtain rfl := List.mem_singleton.1 hx
  exact ⟨hf, fun _ _ _ _ => le_refl _, thin_radii⟩

/-- Hypotheses of the partial theorems. -/
example : (∀ col, TersOk { shortTersoff with S := fun _ => 1 / 2, R := fun _ => 1 / 4 } col) ∧
    OffRadii (fun _ => 1 / 2) thin ∧ ReachRadii thinCut (fun _ => 1 / 2) thin ∧
    OwnApart (tersoffRepulsion { shortTersoff with S := fun _ => 1 / 2, R := fun _ => 1 / 4 }) thin := by
  refine ⟨?_, ?_, fun _ _ _ _ => ?_, ?_⟩
  · intro col
    refine ⟨?_, ?_, ?_, ?_, ?_⟩ <;> norm_num [shortTersoff]
  · intro i hi m hm
    obtain rfl : i = 0 := by have : i < 1 := hi; omega
    rcases thin_gap m hm with ⟨h, -⟩ | h
    · rw [h]; norm_num
    · intro e; linarith
  · show (1 / 2 : ℝ) ≤ 3 / 2
    norm_num
  · intro i hi m hm _
    obtain rfl : i = 0 := by have : i < 1 := hi; omega
    show (1 / 2 : ℝ) < _
    rcases thin_gap m hm with ⟨h, -⟩ | h
    · rw [h]; norm_num
    · linarith

end Verif.Props
