/-
Sums over angles of a crystal that is deformed continuously, and energies, forces and stresses of potentials on full neighbour
lists as those of the infinite crystal.
-/
import Verif.Lemmas.Crystal
import Verif.Lemmas.Conservative
import Verif.Lemmas.Mutual
import Verif.Lemmas.Stiweb
import Verif.Lemmas.Angular
import Verif.Spec.CrystalAngles
import Verif.Spec.Residual

set_option linter.unusedSectionVars false

namespace Verif.Neighbors

open Verif.Force hiding Cell
open Verif.Spec Verif.Props Topology

/-- A finite sum over a set as a sum over a list. -/
theorem finsum_list {α : Type*} (S : Set α) {l : List α} (hn : l.Nodup) (g : α → ℝ) (h1 : ∀ m ∈ S, m ∉ l → g m = 0)
    (h2 : ∀ m ∈ l, m ∈ S ∨ g m = 0) : ∑ᶠ m ∈ S, g m = (l.map g).sum := by
  classical
  rw [← List.sum_toFinset _ hn, ← finsum_mem_coe_finset]
  apply finsum_mem_inter_support_eq
  ext m
  simp only [Set.mem_inter_iff, List.coe_toFinset, Function.mem_support]
  constructor
  · rintro ⟨a1, a2⟩
    refine ⟨?_, a2⟩
    by_contra hm
    exact a2 (h1 m a1 hm)
  · rintro ⟨a1, a2⟩
    exact ⟨(h2 m a1).resolve_right a2, a2⟩

open Classical in
/-- Pairs of elements of a list, each once. -/
theorem pairs_half {α : Type*} (g : α → α → ℝ) (hg : ∀ x y, g x y = g y x) (l : List α) (hn : l.Nodup) :
    ((pairsOf l).map fun p => g p.1 p.2).sum =
      (1 / 2) * (l.map fun m => (l.map fun n => if n = m then 0 else g m n).sum).sum := by
  induction l with
  | nil => simp [pairsOf]
  | cons a l ih =>
    obtain ⟨ha, hl⟩ := List.nodup_cons.1 hn
    have e1 : (l.map fun n => if n = a then 0 else g a n) = l.map (g a) :=
      List.map_congr_left fun n h => if_neg fun e : n = a => ha (e ▸ h)
    have e2 : (l.map fun m => ((if a = m then 0 else g m a) + (l.map fun n => if n = m then 0 else g m n).sum)) =
        l.map fun m => g a m + (l.map fun n => if n = m then 0 else g m n).sum := by
      apply List.map_congr_left
      intro m h
      rw [if_neg (fun e => ha (by rw [e]; exact h)), hg]
    simp only [pairsOf, List.map_append, List.sum_append, List.map_map, ih hl, List.map_cons, List.sum_cons, if_true, e1, e2]
    rw [sum_add_list]
    show (l.map fun x => g a x).sum + _ = _
    ring

/-- A crystal close to `c`: atoms and images which have no entry in the lists of `c` are beyond the cutoffs. -/
structure Near (cut : Cutoffs) (c d : Cell) : Prop where
  count : d.sites.length = c.sites.length
  typ : ∀ i, (d.site i).typ = (c.site i).typ
  ntypes : d.ntypes = c.ntypes
  unlisted : ∀ i < c.sites.length, ∀ m ∈ Others c i, ¬ Wanted true cut c i m →
    cut.rcut (c.site i).typ (c.site m.j).typ ≤ length (arrow d i m)

/-- Lists of images which the program lists. -/
structure FullOf (cut : Cutoffs) (c : Cell) (H : Nat → List Image) : Prop where
  nodup : ∀ i < c.sites.length, (H i).Nodup
  mem : ∀ i < c.sites.length, ∀ m, m ∈ H i ↔ Wanted true cut c i m

theorem Deform.near' {edge : Fin 3 → V3 ℝ} {cut : Cutoffs} {scale : Fin 3 → ℤ} {c : Cell} {now : ℝ} {C : ℝ → Cell}
    (hr : Ready edge cut scale c) (hD : Deform c now C) : ∀ᶠ t in 𝓝 now, Near cut c (C t) := by
  filter_upwards [hD.unlisted hr] with t ht
  exact ⟨hD.count t, hD.typ t, hD.ntypes t, ht⟩

section
variable {cut : Cutoffs} {c d : Cell} {H : Nat → List Image}

theorem Near.others (hd : Near cut c d) (i : Nat) : Others d i = Others c i := by
  unfold Others
  rw [hd.count]

/-- Lattice sums over the lists. -/
theorem Near.sum (hd : Near cut c d) (hH : FullOf cut c H) {i : Nat} (hi : i < c.sites.length) (g : Image → ℝ)
    (hz : ∀ m ∈ Others c i, cut.rcut (c.site i).typ (c.site m.j).typ ≤ length (arrow d i m) → g m = 0) :
    ∑ᶠ m ∈ Others d i, g m = ((H i).map g).sum := by
  rw [hd.others]
  apply finsum_list _ (hH.nodup i hi)
  · intro m hm hl
    exact hz m hm (hd.unlisted i hi m hm fun hw => hl ((hH.mem i hi m).2 hw))
  · intro m hm
    have hw := (hH.mem i hi m).1 hm
    exact Or.inl ⟨hw.1, hw.2.2.1⟩

/-- Sums over part of the atoms and images. -/
theorem Near.part (hd : Near cut c d) (hH : FullOf cut c H) {i : Nat} (hi : i < c.sites.length) (q : Image → Prop)
    [DecidablePred q] (g : Image → ℝ)
    (hz : ∀ m ∈ Others c i, cut.rcut (c.site i).typ (c.site m.j).typ ≤ length (arrow d i m) → g m = 0) :
    ∑ᶠ m ∈ {m ∈ Others d i | q m}, g m = ((H i).map fun m => if q m then g m else 0).sum := by
  rw [finsum_mem_congr rfl (show ∀ m ∈ {m ∈ Others d i | q m}, g m = if q m then g m else 0 from fun m hm => by rw [if_pos hm.2])]
  apply finsum_list _ (hH.nodup i hi)
  · intro m hm hl
    rw [hd.others] at hm
    rw [hz m hm.1 (hd.unlisted i hi m hm.1 fun hw => hl ((hH.mem i hi m).2 hw)), ite_self]
  · intro m hm
    have hw := (hH.mem i hi m).1 hm
    by_cases hq : q m
    · refine Or.inl ⟨?_, hq⟩
      rw [hd.others]
      exact ⟨hw.1, hw.2.2.1⟩
    · exact Or.inr (if_neg hq)

open Classical in
/-- Sums over the atoms and images other than `m`. -/
theorem Near.rest (hd : Near cut c d) (hH : FullOf cut c H) {i : Nat} (hi : i < c.sites.length) (m : Image) (g : Image → ℝ)
    (hz : ∀ n ∈ Others c i, cut.rcut (c.site i).typ (c.site n.j).typ ≤ length (arrow d i n) → g n = 0) :
    ∑ᶠ n ∈ Others d i \ {m}, g n = ((H i).map fun n => if n = m then 0 else g n).sum := by
  have := hd.part hH hi (fun n => ¬ n = m) g hz
  simp only [ite_not] at this
  exact this

/-- Sums over angles. -/
theorem Near.angles (hd : Near cut c d) (hH : FullOf cut c H) {i : Nat} (hi : i < c.sites.length)
    (ψ : Nat → V3 ℝ → Nat → V3 ℝ → ℝ) (hsym : ∀ s v t w, ψ s v t w = ψ t w s v)
    (hz : ∀ m ∈ Others c i, cut.rcut (c.site i).typ (c.site m.j).typ ≤ length (arrow d i m) →
      ∀ t w, ψ (c.site m.j).typ (arrow d i m) t w = 0) :
    latticeAngles d i ψ = ((pairsOf (H i)).map fun p =>
      ψ (c.site p.1.j).typ (arrow d i p.1) (c.site p.2.j).typ (arrow d i p.2)).sum := by
  classical
  unfold latticeAngles
  simp only [hd.typ]
  rw [pairs_half (fun m n => ψ (c.site m.j).typ (arrow d i m) (c.site n.j).typ (arrow d i n)) (fun x y => hsym _ _ _ _) _
    (hH.nodup i hi), hd.sum hH hi]
  · congr 2
    apply List.map_congr_left
    intro m _
    rw [hd.rest hH hi m]
    intro n hn hl
    rw [hsym]
    exact hz n hn hl _ _
  · intro m hm hl
    apply finsum_mem_eq_zero_of_forall_eq_zero
    intro n _
    exact hz m hm hl _ _

end

/-! ### Energies as sums of terms -/

/-- What a routine computes, in terms of sums over atoms, compared with the energy of the infinite crystal. -/
structure Matches (E : Cell → ℝ) (site : Nat → Atom ℝ → List (Term ℝ)) (F : Nat → Atom ℝ → Nat → V3 ℝ)
    (S : Nat → Atom ℝ → Fin 6 → ℝ) (c : Cell) (f : Conf ℝ) : Prop where
  energy : overAtoms f (fun i a => sumEnergy (site i a)) = E c
  force : ∀ j < c.sites.length, ∀ k,
    HasDerivAt (fun y => E (displaced c j k y)) (-(overAtoms f F (c.start + j) k)) ((c.site j).pos k)
  stress : ∀ k : Fin 6, HasDerivAt (fun e => E (strainedCell c (voigt k).2 (voigt k).1 e)) (-(overAtoms f S k)) 0

section
variable {edge : Fin 3 → V3 ℝ} {cut : Cutoffs} {scale : Fin 3 → ℤ} {c : Cell} {f : Conf ℝ}

theorem nodes_mutual {H : Nat → List Image} (hH : FullOf cut c H) (hsym : ∀ s t, cut.rcut s t = cut.rcut t s)
    (hf : Built true cut scale c f) : Mutual f (nodesFrom c H 0 f.atoms) := by
  unfold Mutual
  have key : arrowsFrom f.start (nodesFrom c H 0 f.atoms) =
      ((List.range c.sites.length).flatMap fun i => (H i).map fun m => (i, m)).map (arr c) := by
    rw [arrowsFrom_eq, List.map_flatMap]
    have hz : ((nodesFrom c H 0 f.atoms).zipIdx f.start).map (fun p => (p.1.links, p.2)) =
        (List.range c.sites.length).map fun i => ((H i).map (bondOf c i), c.start + i) := by
      apply List.ext_getElem?
      intro i
      rw [List.getElem?_map, List.getElem?_zipIdx, List.getElem?_map, nodesFrom_getElem?]
      by_cases hi : i < c.sites.length
      · rw [List.getElem?_range hi, hf.start, List.getElem?_eq_getElem (by rw [hf.count]; exact hi)]
        simp
      · rw [List.getElem?_eq_none (by rw [hf.count]; omega), List.getElem?_eq_none (by simpa using hi)]
        rfl
    have h2 : ((nodesFrom c H 0 f.atoms).zipIdx f.start).flatMap
          (fun p => p.1.links.map fun l => (⟨p.2, l.nr, l.shift, l.col0⟩ : Arrow)) =
        (((nodesFrom c H 0 f.atoms).zipIdx f.start).map (fun p => (p.1.links, p.2))).flatMap
          (fun p => p.1.map fun l => (⟨p.2, l.nr, l.shift, l.col0⟩ : Arrow)) := by
      rw [List.flatMap_map]
    rw [h2, hz, List.flatMap_map]
    apply List.flatMap_congr
    intro i _
    simp only [List.map_map]
    rfl
  rw [key, List.map_map, show Arrow.back ∘ arr c = arr c ∘ flip from funext fun p => (arr_flip c p).symm, ← List.map_map]
  exact (perm_flip hsym H hH.nodup hH.mem).map (arr c)

/-- Listed images do not coincide with the atom. -/
theorem listed_nonzero {full : Bool} (hf : Built full cut scale c f) {i : Nat} (hi : i < c.sites.length) {H : List Image}
    {a : Atom ℝ} (ha : f.atoms[i]? = some a) (hH : a.neigh = H.map (entryOf c i)) {m : Image} (hm : m ∈ H) :
    length (arrow c i m) ≠ 0 := by
  classical
  have hl := hf.lists i a ha
  unfold neighbours at hl
  simp only at hl
  split at hl
  · cases hl
  · next hov =>
    simp only [Except.ok.injEq] at hl
    have : entryOf c i m ∈ a.neigh := by rw [hH]; exact List.mem_map_of_mem hm
    rw [← hl, List.mem_map] at this
    obtain ⟨m', hm', he⟩ := this
    rw [List.mem_filter] at hm'
    have hr : length (arrow c i m) = length (arrow c i m') := by
      rw [← entryOf_r, ← entryOf_r, he]
    rw [hr]
    intro h0
    exact hov ⟨m', hm'.1, by rw [dist_eq_length]; exact h0⟩

theorem terms_sum (site : Nat → Atom ℝ → List (Term ℝ)) (H : Nat → List Image) (hf : Built true cut scale c f) (d : Cell)
    (rf : Nat → Link → V3 ℝ) (hrf : ∀ i < c.sites.length, ∀ m : Image, m.j < c.sites.length → rf (c.start + i) (bondOf c i m) = arrow d i m)
    (hj : ∀ i < c.sites.length, ∀ m ∈ H i, m.j < c.sites.length) (e : Nat → ℝ)
    (he : ∀ i < c.sites.length, ∀ w q, e i = sumEnergy (site (c.start + i)
      ⟨(c.site i).typ, (H i).map (fun m => placedAt (arrow d i m) (bondOf c i m)), w, q⟩)) :
    sumEnergy (termsFrom site f.start (placeWithFrom rf f.start (nodesFrom c H 0 f.atoms))) =
      ∑ i ∈ Finset.range c.sites.length, e i := by
  unfold sumEnergy
  rw [sum_termsFrom]
  have h := sum_zipIdx (placeWithFrom rf f.start (nodesFrom c H 0 f.atoms))
    (fun a i => ((site i a).map Term.energy).sum) f.start ⟨0, [], 0, false⟩
  rw [h, placeWithFrom_length, nodesFrom_length, hf.count]
  apply Finset.sum_congr rfl
  intro i hi
  rw [Finset.mem_range] at hi
  have hi' : i < f.atoms.length := by rw [hf.count]; exact hi
  have ha := List.getElem?_eq_getElem hi'
  rw [List.getD_eq_getElem?_getD, placeWithFrom_getElem?, nodesFrom_getElem?, ha, hf.start]
  simp only [Option.map_some, Option.getD_some, Nat.zero_add, hf.typ i _ ha]
  rw [he i hi f.atoms[i].absforce f.atoms[i].contrib]
  unfold sumEnergy
  simp only [List.map_map]
  have : (H i).map ((fun l => placedAt (rf (c.start + i) l) l) ∘ bondOf c i) =
      (H i).map fun m => placedAt (arrow d i m) (bondOf c i m) := by
    apply List.map_congr_left
    intro m hm
    simp only [Function.comp, hrf i hi m (hj i hi m hm)]
  rw [this]

/-- Energy, forces and stresses on full lists belong to the infinite crystal if the energy of every atom does and the terms are
differentiated correctly at fixed lists. -/
theorem full_matches (hr : Ready edge cut scale c) (hf : Built true cut scale c f) (hsym : ∀ s t, cut.rcut s t = cut.rcut t s)
    {site : Nat → Atom ℝ → List (Term ℝ)} {F : Nat → Atom ℝ → Nat → V3 ℝ} {S : Nat → Atom ℝ → Fin 6 → ℝ}
    (E : Cell → ℝ) (e : Cell → Nat → ℝ) (hE : ∀ d, Near cut c d → E d = ∑ i ∈ Finset.range d.sites.length, e d i)
    (hsite : ∀ H, FullOf cut c H → ∀ d, Near cut c d → ∀ i < c.sites.length, ∀ w q, e d i = sumEnergy (site (c.start + i)
      ⟨(c.site i).typ, (H i).map (fun m => placedAt (arrow d i m) (bondOf c i m)), w, q⟩))
    (hF : ∀ ts, Mutual f ts → overAtoms (place f ts (posOf c)) F =
      fun a => sumForce (termsFrom site f.start (place f ts (posOf c)).atoms) a)
    (hS : ∀ ts, place f ts (posOf c) = f → ∀ k,
      overAtoms (place f ts (posOf c)) S k = -sumStrain (termsFrom site f.start (place f ts (posOf c)).atoms) (voigt k).2 (voigt k).1)
    (hfol : ∀ H, FullOf cut c H → (∀ i a, f.atoms[i]? = some a → a.neigh = (H i).map (entryOf c i)) →
      ∀ m : Motion, m.path m.now = reach (posOf c) → Follows m site f.start (nodesFrom c H 0 f.atoms)) :
    Matches E site F S c f := by
  obtain ⟨H, g1, g2, g3⟩ := built_lists hr hf
  have hH : FullOf cut c H := ⟨g1, g2⟩
  have hp := place_nodes hf g3
  have hj : ∀ i < c.sites.length, ∀ m ∈ H i, m.j < c.sites.length := fun i hi m hm => ((g2 i hi m).1 hm).1
  have hev : ∀ {now : ℝ} {C : ℝ → Cell}, Deform c now C → ∀ {rf : ℝ → Nat → Link → V3 ℝ}, Along c C rf → ∀ᶠ t in 𝓝 now,
      E (C t) = sumEnergy (termsFrom site f.start (placeWithFrom (rf t) f.start (nodesFrom c H 0 f.atoms))) := by
    intro now C hD rf ha
    filter_upwards [hD.near' hr] with t ht
    rw [hE _ ht, ht.count, terms_sum site H hf (C t) (rf t) (fun i hi m hm => ha t i hi m hm) hj (e (C t))
      (fun i hi w q => hsite H hH (C t) ht i hi w q)]
  refine ⟨?_, ?_, ?_⟩
  · have h0 := (hev (deform_strained c 0 0) (along_strained c 0 0)).self_of_nhds
    have hs : ∀ v : V3 ℝ, strained 0 0 0 v = v := by
      intro v; funext l
      simp [strained]
    have hc : strainedCell c 0 0 0 = c := by
      unfold strainedCell
      simp only [hs]
      simp
    have hq : (fun (i : Nat) (l : Link) => strained 0 0 0 (reach (posOf c) i l)) = reach (posOf c) := by
      funext i l
      exact hs _
    rw [hc, hq, placeWithFrom_reach] at h0
    have h1 := overAtoms_terms f site Term.energy
    have h2 : placeFrom (posOf c) f.start (nodesFrom c H 0 f.atoms) = f.atoms := congrArg Conf.atoms hp
    rw [h2] at h0
    rw [h0]
    exact h1
  · intro j hjc k
    have h0 := hev (deform_displaced c j k hjc) (along_displaced c j k hjc)
    have hx : posOf c (c.start + j) k = (c.site j).pos k := by unfold posOf; rw [Nat.add_sub_cancel_left]
    have hm : (moving (posOf c) (c.start + j) k).path (moving (posOf c) (c.start + j) k).now = reach (posOf c) := by
      show reach (moved (posOf c) (c.start + j) k (posOf c (c.start + j) k)) = reach (posOf c)
      rw [moved_self]
    have h1 := hasDerivAt_terms (moving (posOf c) (c.start + j) k) site (nodesFrom c H 0 f.atoms) f.start (hfol H hH g3 _ hm)
    rw [sumRate_moving, hm, placeWithFrom_reach] at h1
    have h2 : overAtoms f F (c.start + j) k = sumForce (termsFrom site f.start
        (placeFrom (posOf c) f.start (nodesFrom c H 0 f.atoms))) (c.start + j) k := by
      have := hF (nodesFrom c H 0 f.atoms) (nodes_mutual hH hsym hf)
      have h3 := congrFun (congrFun this (c.start + j)) k
      rw [hp] at h3
      rw [h3]
      have h2 : placeFrom (posOf c) f.start (nodesFrom c H 0 f.atoms) = f.atoms := congrArg Conf.atoms hp
      rw [h2]
    rw [h2]
    have h1' : HasDerivAt (fun t => sumEnergy (termsFrom site f.start
        (placeWithFrom (reach (moved (posOf c) (c.start + j) k t)) f.start (nodesFrom c H 0 f.atoms))))
        (-sumForce (termsFrom site f.start (placeFrom (posOf c) f.start (nodesFrom c H 0 f.atoms))) (c.start + j) k)
        ((c.site j).pos k) := by
      rw [← hx]
      exact h1
    exact h1'.congr_of_eventuallyEq h0
  · intro k
    have h0 := hev (deform_strained c (voigt k).2 (voigt k).1) (along_strained c (voigt k).2 (voigt k).1)
    have hm : (straining (posOf c) (voigt k).2 (voigt k).1).path (straining (posOf c) (voigt k).2 (voigt k).1).now =
        reach (posOf c) := by
      funext i l x
      show strained 0 (voigt k).2 (voigt k).1 (reach (posOf c) i l) x = _
      simp [strained]
    have h1 := hasDerivAt_terms (straining (posOf c) (voigt k).2 (voigt k).1) site (nodesFrom c H 0 f.atoms) f.start (hfol H hH g3 _ hm)
    rw [sumRate_straining, hm, placeWithFrom_reach] at h1
    have h2 := hS (nodesFrom c H 0 f.atoms) hp k
    have h3 : placeFrom (posOf c) f.start (nodesFrom c H 0 f.atoms) = (place f (nodesFrom c H 0 f.atoms) (posOf c)).atoms := rfl
    rw [h3] at h1
    rw [hp] at h1 h2
    rw [h2, neg_neg]
    exact h1.congr_of_eventuallyEq h0

/-- The links of the nodes. -/
theorem node_link {H : Nat → List Image} (hH : FullOf cut c H) (hf : Built true cut scale c f)
    (g3 : ∀ i a, f.atoms[i]? = some a → a.neigh = (H i).map (entryOf c i)) {j : Nat} {n : Node}
    (hj : (nodesFrom c H 0 f.atoms)[j]? = some n) : j < c.sites.length ∧ n.typ = (c.site j).typ ∧ n.links = (H j).map (bondOf c j) ∧
      ∀ m ∈ H j, m ∈ Others c j ∧ length (arrow c j m) ≠ 0 ∧ reach (posOf c) (f.start + j) (bondOf c j m) = arrow c j m := by
  rw [nodesFrom_getElem?, Option.map_eq_some_iff] at hj
  obtain ⟨a, ha, rfl⟩ := hj
  have hlt : j < c.sites.length := by
    rw [← hf.count]
    exact (List.getElem?_eq_some_iff.1 ha).1
  refine ⟨hlt, hf.typ j a ha, by simp, ?_⟩
  intro m hm
  have hw := (hH.mem j hlt m).1 hm
  exact ⟨⟨hw.1, hw.2.2.1⟩, listed_nonzero hf hlt ha (g3 j a ha) hm, by rw [hf.start, reach_link]⟩

/-- Neighbours belong to the configuration. -/
theorem built_inside (hr : Ready edge cut scale c) (hf : Built true cut scale c f) : Inside f := by
  obtain ⟨H, g1, g2, g3⟩ := built_lists hr hf
  intro a ha n hn
  obtain ⟨i, hi⟩ := List.getElem?_of_mem ha
  have hlt : i < c.sites.length := by
    rw [← hf.count]
    exact (List.getElem?_eq_some_iff.1 hi).1
  rw [g3 i a hi, List.mem_map] at hn
  obtain ⟨m, hm, rfl⟩ := hn
  have hw := (g2 i hlt m).1 hm
  have h1 := hw.1
  have : (entryOf c i m).nr = c.start + m.j := rfl
  rw [this, hf.start, hf.count]
  omega

end

/-! ### Energies of configurations whether forces are used or not -/

section
variable {α : Type*}

theorem foldl_energy (step : Acc ℝ → α → Acc ℝ) (e : α → ℝ) (h : ∀ s x, (step s x).energy = s.energy + e x) (l : List α) (s : Acc ℝ) :
    (l.foldl step s).energy = s.energy + (l.map e).sum := by
  induction l generalizing s with
  | nil => simp
  | cons x l ih => rw [List.foldl_cons, ih, h, List.map_cons, List.sum_cons, add_assoc]

theorem pairsLoop_energy (outer : α → Bool) (step : Acc ℝ → α → α → Acc ℝ) (e : α → α → ℝ)
    (h : ∀ s x y, outer x = true → (step s x y).energy = s.energy + e x y) (h0 : ∀ x y, outer x = false → e x y = 0) (l : List α)
    (s : Acc ℝ) : (pairsLoop outer step l s).energy = s.energy + ((pairsOf l).map fun p => e p.1 p.2).sum := by
  induction l generalizing s with
  | nil => simp [pairsLoop, pairsOf]
  | cons x l ih =>
    rw [pairsLoop, ih]
    simp only [pairsOf, List.map_append, List.sum_append, List.map_map]
    cases hx : outer x with
    | true =>
      simp only [if_true]
      rw [foldl_energy _ (e x) (fun s y => h s x y hx), add_assoc]
      rfl
    | false =>
      have : (l.map ((fun p : α × α => e p.1 p.2) ∘ fun y => (x, y))).sum = 0 :=
        List.sum_eq_zero (by
          intro z hz
          obtain ⟨y, -, rfl⟩ := List.mem_map.1 hz
          exact h0 x y hx)
      rw [this, zero_add]
      simp

theorem atomLoop_energy {σ : Type*} (en : σ → ℝ) (one : Nat → Atom ℝ → σ → σ) (E : Nat → Atom ℝ → ℝ)
    (h : ∀ i a s, en (one i a s) = en s + E i a) (l : List (Atom ℝ)) (i : Nat) (s : σ) :
    en (atomLoop one l i s) = en s + ((l.zipIdx i).map fun p => E p.2 p.1).sum := by
  induction l generalizing i s with
  | nil => simp [atomLoop]
  | cons a l ih => rw [atomLoop, ih, h, List.zipIdx_cons, List.map_cons, List.sum_cons, add_assoc]

end

theorem fullPair_energy (b : Build) (sh : Bool) (P : Pots ℝ) (uf us : Bool) (i : Nat) (s : Acc ℝ) (n : Neigh ℝ) :
    (fullPair b sh P uf us i s n).energy = s.energy + (pairTerm sh P i n).energy := by
  unfold fullPair pairTerm pairVal selfWeight
  by_cases h : n.r < P.fin n.col0
  · simp only [if_pos h]
    cases uf <;> by_cases h2 : (sh && decide (n.nr = i)) = true <;> simp only [h2, if_true] <;> simp [mul_comm]
  · simp [if_neg h]

theorem fullConf_energy (b : Build) (one : Nat → Atom ℝ → Acc ℝ → Acc ℝ) (E : Nat → Atom ℝ → ℝ)
    (h : ∀ i a s, (one i a s).energy = s.energy + E i a) (ew sw : ℝ) (ci : Nat) (c : Conf ℝ) (fv : FV ℝ) :
    (fullConf b one ew sw ci c fv).1.energy ci = overAtoms c E / (c.atoms.length : ℝ) - c.energy0 := by
  have hk := (closeLoop_keep (fun i a s => closeAtom b c a i s) (fun i a s => (closeAtom_keep b c a i s).1)
    (fun i a s => (closeAtom_keep b c a i s).2.1) (fun i a s => (closeAtom_keep b c a i s).2.2) c.atoms c.start
    (atomLoop one c.atoms c.start ⟨resetForces c fv.force, 0, 0, 0⟩)).1
  rw [atomLoop_energy Acc.energy one E h, zero_add] at hk
  unfold fullConf closeConf
  simp only [Function.update_self]
  by_cases hb : (b.stress && c.uf && c.us) = true
  · simp only [if_pos hb, hk]; rfl
  · simp only [if_neg hb, hk]; rfl

theorem closeAlways_energy (b : Build) (ew sw : ℝ) (c : Conf ℝ) (T : Acc ℝ) :
    (closeConfAlways b ew sw c (atomLoop (fun i a s => closeAtomAlways b c a i s) c.atoms c.start T)).energy =
      T.energy / (c.atoms.length : ℝ) - c.energy0 := by
  have hk := (closeLoop_keep (fun i a s => closeAtomAlways b c a i s) (fun i a s => (closeAtomAlways_keep b c a i s).1)
    (fun i a s => (closeAtomAlways_keep b c a i s).2.1) (fun i a s => (closeAtomAlways_keep b c a i s).2.2) c.atoms c.start T).1
  unfold closeConfAlways
  by_cases hb : b.stress = true
  · simp only [if_pos hb, hk]
  · simp only [if_neg hb, hk]

theorem swAtom_energy (b : Build) (P : SwPots ℝ) (c : Conf ℝ) (i : Nat) (a : Atom ℝ) (s : Acc ℝ) :
    (swAtom b P c i a s).energy = s.energy + sumEnergy (swSite P i a) := by
  unfold swAtom swSite
  simp only
  rw [pairsLoop_energy _ _ (fun nj nk => (swTerm P i a.typ nj nk).energy), foldl_energy _ _ (fullPair_energy b true P.toPots c.uf c.us i)]
  · unfold sumEnergy
    simp only [List.map_append, List.sum_append, List.map_map, add_assoc]
    rfl
  · intro s x y hx
    rw [swAngle_plus b P c.us i a.typ s x y (by simpa using hx)]
    rfl
  · intro x y hx
    rw [swTerm_outside P i a.typ x y (fun h => by simp [h.1] at hx)]

theorem angAtom_energy (b : Build) (P : AngPots ℝ) (c : Conf ℝ) (i : Nat) (a : Atom ℝ) (s : Acc ℝ) :
    (angAtom b P c i a s).energy = s.energy + sumEnergy (angSite P i a) := by
  unfold angAtom angSite
  simp only
  rw [pairsLoop_energy _ _ (fun nj nk => (angTerm P i a.typ nj nk).energy), foldl_energy _ _ (fullPair_energy b false P.toPots c.uf c.us i)]
  · unfold sumEnergy
    simp only [List.map_append, List.sum_append, List.map_map, add_assoc, zero_add]
    rfl
  · intro s x y hx
    unfold angAngle
    by_cases hy : y.r < P.fin (P.fcol y.col0)
    · simp only [if_pos hy]
      by_cases hu : c.uf = true
      · simp only [if_pos hu]; rfl
      · simp only [if_neg hu]; rfl
    · rw [if_neg hy, angTerm_outside P i a.typ x y (fun h => hy h.2), add_zero]
  · intro x y hx
    rw [angTerm_outside P i a.typ x y (fun h => by simp [h.1] at hx)]

theorem meamAtom_energy (b : Build) (P : AngPots ℝ) (c : Conf ℝ) (i : Nat) (a : Atom ℝ) (s : MeamAcc ℝ) :
    (meamAtom b P c i a s).acc.energy = s.acc.energy + sumEnergy (meamSite b P i a) := by
  unfold meamAtom meamSite
  simp only
  have key : (a.neigh.foldl (fullPair b false P.toPots c.uf c.us i) s.acc).energy +
      (meamEmbed b P.toEamPots (P.paircol + P.ntypes + a.typ) (meamDensity P a)).value =
      s.acc.energy + sumEnergy (a.neigh.map (pairTerm false P.toPots i) ++ [embedTerm b P i a]) := by
    rw [foldl_energy _ _ (fullPair_energy b false P.toPots c.uf c.us i)]
    unfold sumEnergy embedTerm
    simp only [List.map_append, List.sum_append, List.map_map, add_assoc, List.map_cons, List.map_nil, List.sum_cons, List.sum_nil, add_zero]
    rfl
  by_cases hu : c.uf = true
  · rw [if_pos hu, pairsLoop_energy _ _ (fun _ _ => 0), foldl_energy _ (fun _ => 0)]
    · simp only [List.map_const', List.sum_replicate, smul_zero, add_zero]
      exact key
    · intro s x
      rw [meamRadial_plus]; rfl
    · intro s x y _
      rw [meamAngle_plus]; rfl
    · intros; rfl
  · rw [if_neg hu]
    exact key

/-! ### Objective -/

/-- Residuals of one configuration as deviations of the infinite crystal. -/
theorem residual_crystal (b : Build) (E : Cell → ℝ) (ew sw : ℝ) (v : FV ℝ) (k : Nat) (c : Cell) (f : Conf ℝ)
    (hst : f.start = c.start) (hv : Reports b E v k c f) : residualError b ew sw v k f = crystalError b E ew sw f.vol c f := by
  obtain ⟨hen, hfo, hsr⟩ := hv
  unfold residualError crystalError
  rw [hen]
  congr 1
  · congr 1
    by_cases hu : f.uf = true
    · rw [if_pos hu, if_pos hu]
      unfold forceResidual
      congr 2
      apply List.map_congr_left
      intro p hp
      by_cases hc : b.contrib = true ∧ p.1.contrib = false
      · rw [if_pos hc, if_pos hc]
      · rw [if_neg hc, if_neg hc]
        apply Finset.sum_congr rfl
        intro x _
        rw [hst, (hfo hu p.2 p.1 (List.mem_zipIdx_iff_getElem?.1 hp) x).2]
    · rw [if_neg hu, if_neg hu]
  · by_cases h : b.stress = true ∧ f.uf = true ∧ f.us = true
    · rw [if_pos h, if_pos h]
      congr 1
      apply Finset.sum_congr rfl
      intro x _
      rw [(hsr h.1 h.2.1 h.2.2 x).2]
    · rw [if_neg h, if_neg h]

/-- What a routine leaves in the force vector. -/
theorem leaves_crystal {b : Build} {E : Cell → ℝ} {res : Conf ℝ → FV ℝ} {ci : Nat} {site : Nat → Atom ℝ → List (Term ℝ)}
    {F : Nat → Atom ℝ → Nat → V3 ℝ} {S : Nat → Atom ℝ → Fin 6 → ℝ} {c : Cell} {f : Conf ℝ} (hm : Matches E site F S c f)
    (hst : f.start = c.start) (hct : f.atoms.length = c.sites.length)
    (hen : (res f).energy ci = overAtoms f (fun i a => sumEnergy (site i a)) / (f.atoms.length : ℝ) - f.energy0)
    (hl : f.uf = true → Leaves b res ci site F S f) : Reports b E (res f) ci c f := by
  refine ⟨?_, ?_, ?_⟩
  · rw [hen, hm.energy, hct]
  · intro hu j a ha x
    have hj : j < c.sites.length := by rw [← hct]; exact (List.getElem?_eq_some_iff.1 ha).1
    refine ⟨(hm.force j hj x).differentiableAt, ?_⟩
    have h1 := (hl hu).force j a ha x
    rw [hst] at h1
    rw [h1]
    unfold crystalForce
    rw [(hm.force j hj x).deriv, neg_neg]
    rfl
  · intro hb hu hus x
    refine ⟨(hm.stress x).differentiableAt, ?_⟩
    rw [(hl hu).stress hb hus x]
    unfold crystalVirial
    rw [(hm.stress x).deriv, neg_neg]

/-- A loop over the configurations whose parts of the sum do not depend on what has been computed before. -/
theorem confLoop_total {ε : Type*} [AddMonoid ε] (one : Nat → Conf ℝ → FV ℝ → FV ℝ × ε) (g : Conf ℝ → ℝ) (pr : ε →+ ℝ)
    (l : List (Conf ℝ)) (h : ∀ f ∈ l, ∀ ci fv, pr (one ci f fv).2 = g f) (ci : Nat) (s : FV ℝ × ε) :
    pr (confLoop one l ci s).2 = pr s.2 + (l.map g).sum := by
  induction l generalizing ci s with
  | nil => simp [confLoop]
  | cons f l ih =>
    have h0 := h f List.mem_cons_self ci s.1
    simp only [confLoop, List.map_cons, List.sum_cons]
    rw [ih (fun f hf => h f (List.mem_cons_of_mem _ hf))]
    simp only [map_add, h0]
    ring

end Verif.Neighbors
