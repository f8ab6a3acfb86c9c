/-
Distortions in a crystal that is deformed continuously, in terms of the neighbour lists built before the deformation.
-/
import Verif.Lemmas.Crystal
import Verif.Spec.CrystalAdp

set_option linter.unusedSectionVars false

namespace Verif.Neighbors

open Verif.Force hiding Cell
open Verif.Spec Verif.Props Topology

/-- A lattice sum of a function of the vectors is a sum over the lists if the other images do not contribute. -/
theorem Lists.latticeVec_eq {cut : Cutoffs} {c : Cell} (L : Lists cut c) (d : Cell) (hd : d.sites.length = c.sites.length)
    {i : Nat} (hi : i < c.sites.length) (ψ : Nat → V3 ℝ → ℝ)
    (hz : ∀ m ∈ Others c i, ¬ Wanted true cut c i m → ψ (d.site m.j).typ (arrow d i m) = 0) :
    latticeVec d i ψ = ((L.ims i).map fun m => ψ (d.site m.j).typ (arrow d i m)).sum := by
  classical
  unfold latticeVec
  rw [← List.sum_toFinset _ (L.nodup i hi), ← finsum_mem_coe_finset]
  apply finsum_mem_inter_support_eq
  ext m
  simp only [Set.mem_inter_iff, List.coe_toFinset, Function.mem_support]
  constructor
  · rintro ⟨h1, h2⟩
    refine ⟨?_, h2⟩
    by_contra hn
    refine h2 (hz m ?_ fun hw => hn ((L.mem i hi m).2 hw))
    unfold Others at h1 ⊢
    rw [← hd]
    exact h1
  · rintro ⟨h1, h2⟩
    refine ⟨?_, h2⟩
    have hw : Wanted true cut c i m := (L.mem i hi m).1 h1
    unfold Others
    rw [hd]
    exact ⟨hw.1, hw.2.2.1⟩

open Classical in
theorem Lists.sum_at {cut : Cutoffs} {c : Cell} (L : Lists cut c) (g : Nat → Image → ℝ) (i : Nat) (hi : i < c.sites.length) :
    ((L.ims i).map fun m => g i m).sum = ∑ p ∈ L.pairs, if p.1 = i then g p.1 p.2 else 0 := by
  rw [← L.sum_full (fun k m => if k = i then g k m else 0), Finset.sum_eq_single i]
  · simp
  · intro k _ hk
    simp [hk]
  · intro hn
    exact absurd (Finset.mem_range.2 hi) hn

open Classical in
/-- Half lists: what both atoms of a pair receive alike. -/
theorem Lists.half_even {cut : Cutoffs} {c : Cell} (L : Lists cut c) (hsym : ∀ s t, cut.rcut s t = cut.rcut t s)
    (H : Nat → List Image) (hn : ∀ i < c.sites.length, (H i).Nodup)
    (hm : ∀ i < c.sites.length, ∀ m, m ∈ H i ↔ Wanted false cut c i m) (g : Nat → Image → ℝ)
    (hg : ∀ i m, g m.j ⟨i, fun k => -m.n k⟩ = g i m) (i : Nat) (hi : i < c.sites.length) :
    ∑ k ∈ Finset.range c.sites.length, ((H k).map fun m => (if i = k then g k m else 0) +
        (if i = m.j ∧ m.j ≠ k then g k m else 0)).sum = ((L.ims i).map fun m => g i m).sum := by
  rw [L.sum_half H hn hm (fun k m => (if i = k then g k m else 0) + (if i = m.j ∧ m.j ≠ k then g k m else 0)), L.sum_at g i hi]
  have e2 := L.sum_flip hsym g (fun a _ => a = i)
  rw [Finset.sum_filter, Finset.sum_filter] at e2
  simp only [hg] at e2
  have e3 : ∀ p : (Σ _ : Nat, Image), (if p.1 ≤ p.2.j then
        ((if i = p.1 then g p.1 p.2 else 0) + (if i = p.2.j ∧ p.2.j ≠ p.1 then g p.1 p.2 else 0)) else 0) =
      (if p.1 = i then g p.1 p.2 else 0) + (if p.1 < p.2.j ∧ p.2.j = i then g p.1 p.2 else 0) -
      (if p.2.j < p.1 ∧ p.1 = i then g p.1 p.2 else 0) := by
    intro p
    have q1 : (i = p.1) ↔ p.1 = i := eq_comm
    have q2 : (i = p.2.j ∧ p.2.j ≠ p.1) ↔ (p.2.j = i ∧ p.2.j ≠ p.1) := by rw [eq_comm]
    simp only [q1, q2]
    rcases lt_trichotomy p.1 p.2.j with hlt | heq | hgt
    · have a1 : (p.2.j = i ∧ p.2.j ≠ p.1) ↔ (p.1 < p.2.j ∧ p.2.j = i) := by omega
      rw [if_pos (show p.1 ≤ p.2.j by omega), if_neg (show ¬ (p.2.j < p.1 ∧ p.1 = i) by omega), sub_zero]
      simp only [a1]
    · rw [if_pos (show p.1 ≤ p.2.j by omega), if_neg (show ¬ (p.2.j < p.1 ∧ p.1 = i) by omega),
        if_neg (show ¬ (p.2.j = i ∧ p.2.j ≠ p.1) by omega), if_neg (show ¬ (p.1 < p.2.j ∧ p.2.j = i) by omega), sub_zero]
    · have a1 : (p.2.j < p.1 ∧ p.1 = i) ↔ p.1 = i := by omega
      rw [if_neg (show ¬ p.1 ≤ p.2.j by omega), if_neg (show ¬ (p.1 < p.2.j ∧ p.2.j = i) by omega)]
      simp only [a1]
      ring
  have e4 : (∑ p ∈ L.pairs, if p.2.j < p.1 ∧ p.1 = i then g p.1 p.2 else 0) =
      ∑ p ∈ L.pairs, if p.1 < p.2.j ∧ p.2.j = i then g p.1 p.2 else 0 := by
    convert e2
  rw [Finset.sum_filter, Finset.sum_congr rfl (fun p _ => e3 p), Finset.sum_sub_distrib, Finset.sum_add_distrib, e4]
  ring

open Classical in
/-- Contributions of an atom's own images cancel if they are opposite. -/
theorem Lists.own_cancel {cut : Cutoffs} {c : Cell} (L : Lists cut c) (hsym : ∀ s t, cut.rcut s t = cut.rcut t s)
    (g : Nat → Image → ℝ) (hg : ∀ i m, g m.j ⟨i, fun k => -m.n k⟩ = -g i m) (i : Nat) :
    (∑ p ∈ L.pairs, if p.1 = i ∧ p.2.j = i then g p.1 p.2 else 0) = 0 := by
  have h : (∑ p ∈ L.pairs.filter (fun p => p.1 = i ∧ p.2.j = i), g p.1 p.2) =
      ∑ p ∈ L.pairs.filter (fun p => p.1 = i ∧ p.2.j = i), -g p.1 p.2 := by
    apply Finset.sum_bij' (fun p _ => (⟨p.2.j, ⟨p.1, fun k => -p.2.n k⟩⟩ : Σ _ : Nat, Image))
      (fun p _ => (⟨p.2.j, ⟨p.1, fun k => -p.2.n k⟩⟩ : Σ _ : Nat, Image))
    · intro p hp
      rw [Finset.mem_filter, L.mem_pairs] at hp ⊢
      obtain ⟨⟨h1, h2⟩, h3⟩ := hp
      exact ⟨wanted_flip hsym h1 h2, h3.2, h3.1⟩
    · intro p hp
      rw [Finset.mem_filter, L.mem_pairs] at hp ⊢
      obtain ⟨⟨h1, h2⟩, h3⟩ := hp
      exact ⟨wanted_flip hsym h1 h2, h3.2, h3.1⟩
    · rintro ⟨i, ⟨j, n⟩⟩ _; simp
    · rintro ⟨i, ⟨j, n⟩⟩ _; simp
    · rintro p _
      have := hg p.1 p.2
      simp only
      rw [this, neg_neg]
  rw [Finset.sum_neg_distrib] at h
  rw [← Finset.sum_filter]
  linarith

open Classical in
/-- Half lists: what both atoms of a pair receive with opposite signs. -/
theorem Lists.half_odd {cut : Cutoffs} {c : Cell} (L : Lists cut c) (hsym : ∀ s t, cut.rcut s t = cut.rcut t s)
    (H : Nat → List Image) (hn : ∀ i < c.sites.length, (H i).Nodup)
    (hm : ∀ i < c.sites.length, ∀ m, m ∈ H i ↔ Wanted false cut c i m) (g : Nat → Image → ℝ)
    (hg : ∀ i m, g m.j ⟨i, fun k => -m.n k⟩ = -g i m) (i : Nat) (hi : i < c.sites.length) :
    ∑ k ∈ Finset.range c.sites.length, ((H k).map fun m => (if i = k then g k m else 0) -
        (if i = m.j then g k m else 0)).sum = ((L.ims i).map fun m => g i m).sum := by
  rw [L.sum_half H hn hm (fun k m => (if i = k then g k m else 0) - (if i = m.j then g k m else 0)), L.sum_at g i hi]
  have e2 := L.sum_flip hsym g (fun a _ => a = i)
  rw [Finset.sum_filter, Finset.sum_filter] at e2
  simp only [hg] at e2
  have e5 := L.own_cancel hsym g hg i
  have e3 : ∀ p : (Σ _ : Nat, Image), (if p.1 ≤ p.2.j then
        ((if i = p.1 then g p.1 p.2 else 0) - (if i = p.2.j then g p.1 p.2 else 0)) else 0) =
      (if p.1 = i then g p.1 p.2 else 0) + (if p.1 < p.2.j ∧ p.2.j = i then -g p.1 p.2 else 0) -
      (if p.2.j < p.1 ∧ p.1 = i then g p.1 p.2 else 0) - (if p.1 = i ∧ p.2.j = i then g p.1 p.2 else 0) := by
    intro p
    have q1 : (i = p.1) ↔ p.1 = i := eq_comm
    have q2 : (i = p.2.j) ↔ p.2.j = i := eq_comm
    simp only [q1, q2]
    rcases lt_trichotomy p.1 p.2.j with hlt | heq | hgt
    · have a1 : (p.1 < p.2.j ∧ p.2.j = i) ↔ p.2.j = i := by omega
      rw [if_pos (show p.1 ≤ p.2.j by omega), if_neg (show ¬ (p.2.j < p.1 ∧ p.1 = i) by omega),
        if_neg (show ¬ (p.1 = i ∧ p.2.j = i) by omega)]
      simp only [a1]
      split_ifs <;> ring
    · rw [if_pos (show p.1 ≤ p.2.j by omega), if_neg (show ¬ (p.2.j < p.1 ∧ p.1 = i) by omega),
        if_neg (show ¬ (p.1 < p.2.j ∧ p.2.j = i) by omega)]
      by_cases h : p.1 = i
      · rw [if_pos h, if_pos (show p.2.j = i by omega), if_pos (show p.1 = i ∧ p.2.j = i by omega)]
        ring
      · rw [if_neg h, if_neg (show ¬ p.2.j = i by omega), if_neg (show ¬ (p.1 = i ∧ p.2.j = i) by omega)]
        ring
    · have a1 : (p.2.j < p.1 ∧ p.1 = i) ↔ p.1 = i := by omega
      rw [if_neg (show ¬ p.1 ≤ p.2.j by omega), if_neg (show ¬ (p.1 < p.2.j ∧ p.2.j = i) by omega),
        if_neg (show ¬ (p.1 = i ∧ p.2.j = i) by omega)]
      simp only [a1]
      ring
  have e4 : (∑ p ∈ L.pairs, if p.2.j < p.1 ∧ p.1 = i then g p.1 p.2 else 0) =
      ∑ p ∈ L.pairs, if p.1 < p.2.j ∧ p.2.j = i then -g p.1 p.2 else 0 := by
    convert e2
  have e6 : (∑ p ∈ L.pairs, if p.1 = i ∧ p.2.j = i then g p.1 p.2 else 0) = 0 := by convert e5
  rw [Finset.sum_filter, Finset.sum_congr rfl (fun p _ => e3 p), Finset.sum_sub_distrib, Finset.sum_sub_distrib,
    Finset.sum_add_distrib, e4, e6]
  ring

section
variable {edge : Fin 3 → V3 ℝ} {cut : Cutoffs} {scale : Fin 3 → ℤ} {c : Cell} {f : Conf ℝ} {now : ℝ} {C : ℝ → Cell}

theorem arrow_back (d : Cell) (i : Nat) (m : Image) : arrow d m.j ⟨i, fun k => -m.n k⟩ = -arrow d i m := by
  have := arrow_flip d i m
  simpa only [flip] using this

theorem Deform.dipole (hr : Ready edge cut scale c) (hD : Deform c now C) (hf : Built false cut scale c f)
    (hsym : ∀ s t, cut.rcut s t = cut.rcut t s) {H : Nat → List Image} (hn : ∀ i < c.sites.length, (H i).Nodup)
    (hm : ∀ i < c.sites.length, ∀ m, m ∈ H i ↔ Wanted false cut c i m) {rf : ℝ → Nat → Link → V3 ℝ} (ha : Along c C rf)
    (P : EamPots ℝ) (hreach : ∀ i < c.sites.length, ∀ j < c.sites.length,
      P.fin (dipoleColumn P c.ntypes (c.site i).typ (c.site j).typ) ≤ cut.rcut (c.site i).typ (c.site j).typ) :
    ∀ᶠ t in 𝓝 now, ∀ i < c.sites.length, latticeDipole P (C t) i =
      totalDipole P (placeWith f (nodesFrom c H 0 f.atoms) (rf t)) (c.start + i) := by
  let L := readyLists hr
  filter_upwards [hD.unlisted hr] with t ht i hi
  funext x
  have hb := sum_bonds c H (fun b => dipoleOn P (b.entryAt (rf t)) (c.start + i) x) f.atoms (fun i => (c.site i).typ) c.start 0
    (fun k a h => by rw [Nat.zero_add]; exact hf.typ k a h)
  simp only [Nat.zero_add, Nat.add_zero] at hb
  unfold totalDipole
  rw [entries_placeWith, List.map_map, hf.start]
  change _ = ((bondsFrom c.start (nodesFrom c H 0 f.atoms)).map fun b => dipoleOn P (b.entryAt (rf t)) (c.start + i) x).sum
  rw [hb, hf.count]
  have h1 := L.half_odd hsym H hn hm (fun i m => ranged P.toPots (dipoleColumn P c.ntypes (c.site i).typ (c.site m.j).typ)
      (length (arrow (C t) i m)) * arrow (C t) i m x) (fun i m => by
    simp only [arrow_back, length_neg, dipoleColumn, Pi.neg_apply]
    rw [PairIndex.pairCol_comm]
    ring) i hi
  have h2 : ∀ k ∈ Finset.range c.sites.length,
      ((H k).map fun m => dipoleOn P (Bond.entryAt (rf t) ⟨c.start + k, (c.site k).typ, bondOf c k m⟩) (c.start + i) x).sum =
      ((H k).map fun m => (if i = k then ranged P.toPots (dipoleColumn P c.ntypes (c.site k).typ (c.site m.j).typ)
          (length (arrow (C t) k m)) * arrow (C t) k m x else 0) -
        (if i = m.j then ranged P.toPots (dipoleColumn P c.ntypes (c.site k).typ (c.site m.j).typ)
          (length (arrow (C t) k m)) * arrow (C t) k m x else 0)).sum := by
    intro k hk
    rw [Finset.mem_range] at hk
    congr 1
    apply List.map_congr_left
    intro m hmem
    have hw := (hm k hk m).1 hmem
    have e := ha t k hk m hw.1
    have q1 : (Bond.entryAt (rf t) ⟨c.start + k, (c.site k).typ, bondOf c k m⟩).n.r = length (arrow (C t) k m) := by
      show length (rf t (c.start + k) (bondOf c k m)) = _
      rw [e]
    have q2 : (Bond.entryAt (rf t) ⟨c.start + k, (c.site k).typ, bondOf c k m⟩).n.nr = c.start + m.j := rfl
    have q3 : (Bond.entryAt (rf t) ⟨c.start + k, (c.site k).typ, bondOf c k m⟩).own = c.start + k := rfl
    have q4 : (Bond.entryAt (rf t) ⟨c.start + k, (c.site k).typ, bondOf c k m⟩).n.dist x = arrow (C t) k m x := by
      show (placedAt (rf t (c.start + k) (bondOf c k m)) (bondOf c k m)).dist x = _
      rw [e, placedAt_dist]
    have q5 : P.dipCol (Bond.entryAt (rf t) ⟨c.start + k, (c.site k).typ, bondOf c k m⟩).n =
      dipoleColumn P c.ntypes (c.site k).typ (c.site m.j).typ := rfl
    unfold dipoleOn Verif.Spec.dipole ranged
    rw [q1, q2, q3, q4, q5]
    have p1 : (c.start + i = c.start + k) ↔ i = k := by omega
    have p2 : (c.start + i = c.start + m.j) ↔ i = m.j := by omega
    simp only [p1, p2]
  rw [Finset.sum_congr rfl h2, h1]
  unfold latticeDipole
  rw [L.latticeVec_eq (C t) (hD.count t) hi]
  · simp only [hD.typ, hD.ntypes]
  · intro m hmo hw
    have := ht i hi m hmo hw
    rw [hD.typ, hD.ntypes, hD.typ]
    unfold ranged
    rw [if_neg (not_lt.2 ((hreach i hi m.j hmo.1).trans this)), zero_mul]

theorem Deform.quadrupole (hr : Ready edge cut scale c) (hD : Deform c now C) (hf : Built false cut scale c f)
    (hsym : ∀ s t, cut.rcut s t = cut.rcut t s) {H : Nat → List Image} (hn : ∀ i < c.sites.length, (H i).Nodup)
    (hm : ∀ i < c.sites.length, ∀ m, m ∈ H i ↔ Wanted false cut c i m) {rf : ℝ → Nat → Link → V3 ℝ} (ha : Along c C rf)
    (P : EamPots ℝ) (hreach : ∀ i < c.sites.length, ∀ j < c.sites.length,
      P.fin (quadrupoleColumn P c.ntypes (c.site i).typ (c.site j).typ) ≤ cut.rcut (c.site i).typ (c.site j).typ) :
    ∀ᶠ t in 𝓝 now, ∀ i < c.sites.length, latticeQuadrupole P (C t) i =
      totalQuadrupole P (placeWith f (nodesFrom c H 0 f.atoms) (rf t)) (c.start + i) := by
  let L := readyLists hr
  filter_upwards [hD.unlisted hr] with t ht i hi
  funext x y
  have hb := sum_bonds c H (fun b => quadrupoleOn P (b.entryAt (rf t)) (c.start + i) x y) f.atoms (fun i => (c.site i).typ) c.start 0
    (fun k a h => by rw [Nat.zero_add]; exact hf.typ k a h)
  simp only [Nat.zero_add, Nat.add_zero] at hb
  unfold totalQuadrupole
  rw [entries_placeWith, List.map_map, hf.start]
  change _ = ((bondsFrom c.start (nodesFrom c H 0 f.atoms)).map fun b => quadrupoleOn P (b.entryAt (rf t)) (c.start + i) x y).sum
  rw [hb, hf.count]
  have h1 := L.half_even hsym H hn hm (fun i m => ranged P.toPots (quadrupoleColumn P c.ntypes (c.site i).typ (c.site m.j).typ)
      (length (arrow (C t) i m)) * (arrow (C t) i m x * arrow (C t) i m y)) (fun i m => by
    simp only [arrow_back, length_neg, quadrupoleColumn, Pi.neg_apply]
    rw [PairIndex.pairCol_comm]
    ring) i hi
  have h2 : ∀ k ∈ Finset.range c.sites.length,
      ((H k).map fun m => quadrupoleOn P (Bond.entryAt (rf t) ⟨c.start + k, (c.site k).typ, bondOf c k m⟩) (c.start + i) x y).sum =
      ((H k).map fun m => (if i = k then ranged P.toPots (quadrupoleColumn P c.ntypes (c.site k).typ (c.site m.j).typ)
          (length (arrow (C t) k m)) * (arrow (C t) k m x * arrow (C t) k m y) else 0) +
        (if i = m.j ∧ m.j ≠ k then ranged P.toPots (quadrupoleColumn P c.ntypes (c.site k).typ (c.site m.j).typ)
          (length (arrow (C t) k m)) * (arrow (C t) k m x * arrow (C t) k m y) else 0)).sum := by
    intro k hk
    rw [Finset.mem_range] at hk
    congr 1
    apply List.map_congr_left
    intro m hmem
    have hw := (hm k hk m).1 hmem
    have e := ha t k hk m hw.1
    have q1 : (Bond.entryAt (rf t) ⟨c.start + k, (c.site k).typ, bondOf c k m⟩).n.r = length (arrow (C t) k m) := by
      show length (rf t (c.start + k) (bondOf c k m)) = _
      rw [e]
    have q2 : (Bond.entryAt (rf t) ⟨c.start + k, (c.site k).typ, bondOf c k m⟩).n.nr = c.start + m.j := rfl
    have q3 : (Bond.entryAt (rf t) ⟨c.start + k, (c.site k).typ, bondOf c k m⟩).own = c.start + k := rfl
    have q4 : ∀ x, (Bond.entryAt (rf t) ⟨c.start + k, (c.site k).typ, bondOf c k m⟩).n.dist x = arrow (C t) k m x := by
      intro x
      show (placedAt (rf t (c.start + k) (bondOf c k m)) (bondOf c k m)).dist x = _
      rw [e, placedAt_dist]
    have q5 : P.quadCol (Bond.entryAt (rf t) ⟨c.start + k, (c.site k).typ, bondOf c k m⟩).n =
      quadrupoleColumn P c.ntypes (c.site k).typ (c.site m.j).typ := rfl
    unfold quadrupoleOn Verif.Spec.quadrupole ranged
    rw [q1, q2, q3, q4, q4, q5]
    have p1 : (c.start + i = c.start + k) ↔ i = k := by omega
    have p2 : (c.start + i = c.start + m.j ∧ c.start + m.j ≠ c.start + k) ↔ (i = m.j ∧ m.j ≠ k) := by omega
    simp only [p1, p2]
  rw [Finset.sum_congr rfl h2, h1]
  unfold latticeQuadrupole
  rw [L.latticeVec_eq (C t) (hD.count t) hi]
  · simp only [hD.typ, hD.ntypes]
  · intro m hmo hw
    have := ht i hi m hmo hw
    rw [hD.typ, hD.ntypes, hD.typ]
    unfold ranged
    rw [if_neg (not_lt.2 ((hreach i hi m.j hmo.1).trans this)), zero_mul]

theorem Deform.adp (hr : Ready edge cut scale c) (hD : Deform c now C) (hf : Built false cut scale c f)
    (hsym : ∀ s t, cut.rcut s t = cut.rcut t s) {H : Nat → List Image} (hn : ∀ i < c.sites.length, (H i).Nodup)
    (hm : ∀ i < c.sites.length, ∀ m, m ∈ H i ↔ Wanted false cut c i m) {rf : ℝ → Nat → Link → V3 ℝ} (ha : Along c C rf)
    (b : Build) (P : EamPots ℝ) (h1 : ∀ i < c.sites.length, ∀ j < c.sites.length,
      P.fin (PairIndex.pairCol c.ntypes (c.site i).typ (c.site j).typ) ≤ cut.rcut (c.site i).typ (c.site j).typ)
    (h2 : ∀ i < c.sites.length, ∀ j < c.sites.length,
      P.fin (P.paircol + (c.site j).typ) ≤ cut.rcut (c.site i).typ (c.site j).typ)
    (h3 : ∀ i < c.sites.length, ∀ j < c.sites.length,
      P.fin (dipoleColumn P c.ntypes (c.site i).typ (c.site j).typ) ≤ cut.rcut (c.site i).typ (c.site j).typ ∧
      P.fin (quadrupoleColumn P c.ntypes (c.site i).typ (c.site j).typ) ≤ cut.rcut (c.site i).typ (c.site j).typ) :
    ∀ᶠ t in 𝓝 now, latticeAdp b P (C t) =
      totalPairEnergy P.toPots (placeWith f (nodesFrom c H 0 f.atoms) (rf t)) +
      totalEmbedding b P (placeWith f (nodesFrom c H 0 f.atoms) (rf t)) +
      totalDistortion P (placeWith f (nodesFrom c H 0 f.atoms) (rf t)) := by
  filter_upwards [hD.eam hr hf hsym hn hm ha b P h1 h2, hD.dipole hr hf hsym hn hm ha P (fun i hi j hj => (h3 i hi j hj).1),
    hD.quadrupole hr hf hsym hn hm ha P (fun i hi j hj => (h3 i hi j hj).2)] with t t1 t2 t3
  unfold latticeAdp totalDistortion
  have hl : (placeWith f (nodesFrom c H 0 f.atoms) (rf t)).atoms.length = c.sites.length := by
    rw [show (placeWith f (nodesFrom c H 0 f.atoms) (rf t)).atoms.length = (nodesFrom c H 0 f.atoms).length from
      placeWithFrom_length _ _ _, nodesFrom_length, hf.count]
  have hs : (placeWith f (nodesFrom c H 0 f.atoms) (rf t)).start = c.start := hf.start
  rw [t1, hl, hs, hD.count]
  congr 1
  apply Finset.sum_congr rfl
  intro i hi
  rw [Finset.mem_range] at hi
  rw [t2 i hi, t3 i hi]

end

end Verif.Neighbors
