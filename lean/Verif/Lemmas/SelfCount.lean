import Verif.Props.C23
import Verif.Spec.SelfCount
import Verif.Lemmas.PairIndex
import Verif.Lemmas.ForceRun
import Mathlib.Algebra.BigOperators.Group.Finset.Sigma
import Mathlib.Algebra.BigOperators.Ring.Finset

namespace Verif.Neighbors

open Verif.Force Verif.Spec Verif.Props

/-- The same interaction seen from the other atom. -/
def flip (p : Nat × Image) : Nat × Image := (p.2.j, ⟨p.1, fun k => -p.2.n k⟩)

theorem flip_flip (p : Nat × Image) : flip (flip p) = p := by
  obtain ⟨i, ⟨j, n⟩⟩ := p
  simp [flip]

theorem arrow_flip (c : Cell) (i : Nat) (m : Image) :
    arrow c (flip (i, m)).1 (flip (i, m)).2 = -arrow c i m := by
  funext k
  simp only [flip, arrow, Pi.add_apply, Pi.sub_apply, Pi.neg_apply, Fin.sum_univ_three, Pi.smul_apply,
    smul_eq_mul, Int.cast_neg]
  ring

theorem length_neg (v : V3 ℝ) : length (-v) = length v := by
  unfold length
  simp

theorem wanted_flip {cut : Cutoffs} (hsym : ∀ s t, cut.rcut s t = cut.rcut t s) {c : Cell} {i : Nat}
    (hi : i < c.sites.length) {m : Image} (h : Wanted true cut c i m) :
    m.j < c.sites.length ∧ Wanted true cut c m.j ⟨i, fun k => -m.n k⟩ := by
  obtain ⟨h1, -, h3, h4⟩ := h
  refine ⟨h1, hi, Or.inl rfl, ?_, ?_⟩
  · rintro ⟨e1, e2⟩
    apply h3
    refine ⟨e1.symm, ?_⟩
    funext k
    have := congrFun e2 k
    simpa using this
  · have := arrow_flip c i m
    simp only [flip] at this
    rw [this, length_neg, hsym]
    exact h4

theorem entryOf_r (c : Cell) (i : Nat) (m : Image) : (entryOf c i m).r = length (arrow c i m) := by
  simp only [entryOf, offset_eq_arrow, sqrt_sprod]

/-- Pair energy of an entry, zero beyond the range. -/
noncomputable def cutPhi (P : Pots ℝ) (n : Neigh ℝ) : ℝ := if n.r < P.fin n.col0 then P.val n.col0 n.r else 0

theorem cutPhi_entry (P : Pots ℝ) (c : Cell) (i : Nat) (m : Image) :
    cutPhi P (entryOf c i m) = phi P c.ntypes (c.site i).typ (c.site m.j).typ (length (arrow c i m)) := by
  unfold cutPhi phi
  rw [entryOf_r]
  rfl

theorem cutPhi_flip (P : Pots ℝ) (c : Cell) (i : Nat) (m : Image) :
    cutPhi P (entryOf c m.j ⟨i, fun k => -m.n k⟩) = cutPhi P (entryOf c i m) := by
  have h := arrow_flip c i m
  simp only [flip] at h
  unfold cutPhi
  rw [entryOf_r, entryOf_r, h, length_neg]
  have hcol : (entryOf c m.j ⟨i, fun k => -m.n k⟩).col0 = (entryOf c i m).col0 := by
    simp only [entryOf]
    exact PairIndex.pairCol_comm _ _ _
  rw [hcol]

/-- Sum over the entries of a configuration, atom by atom. -/
theorem sum_entries {M : Type*} [AddCommMonoid M] (g : Entry ℝ → M) (l : List (Atom ℝ)) (A : Nat → Atom ℝ)
    (s : Nat) (hA : ∀ i a, l[i]? = some a → A i = a) :
    ((entriesFrom s l).map g).sum =
      ∑ i ∈ Finset.range l.length, ((A i).neigh.map fun n => g ⟨s + i, (A i).typ, n⟩).sum := by
  induction l generalizing s A with
  | nil => simp [entriesFrom]
  | cons a l ih =>
    simp only [entriesFrom, List.map_append, List.sum_append, List.length_cons, List.map_map]
    rw [Finset.sum_range_succ', ih (fun i => A (i + 1)) (s + 1) (fun i b h => hA (i + 1) b (by simpa using h)),
      add_comm]
    have h0 := hA 0 a (by simp)
    rw [h0]
    congr 1
    apply Finset.sum_congr rfl
    intro i _
    rw [show s + 1 + i = s + (i + 1) by omega]

/-- All images in the full list of atom `i`. -/
structure Lists (cut : Cutoffs) (c : Cell) where
  ims : Nat → List Image
  nodup : ∀ i < c.sites.length, (ims i).Nodup
  mem : ∀ i < c.sites.length, ∀ m, m ∈ ims i ↔ Wanted true cut c i m

variable {cut : Cutoffs} {c : Cell}

open Classical in
/-- Pairs of atom and image. -/
noncomputable def Lists.pairs (L : Lists cut c) : Finset (Σ _ : Nat, Image) :=
  (Finset.range c.sites.length).sigma fun i => (L.ims i).toFinset

open Classical in
theorem Lists.mem_pairs (L : Lists cut c) (p : Σ _ : Nat, Image) :
    p ∈ L.pairs ↔ p.1 < c.sites.length ∧ Wanted true cut c p.1 p.2 := by
  unfold Lists.pairs
  rw [Finset.mem_sigma, Finset.mem_range, List.mem_toFinset]
  constructor
  · rintro ⟨h1, h2⟩; exact ⟨h1, (L.mem _ h1 _).1 h2⟩
  · rintro ⟨h1, h2⟩; exact ⟨h1, (L.mem _ h1 _).2 h2⟩

open Classical in
theorem Lists.sum_full (L : Lists cut c) (g : Nat → Image → ℝ) :
    ∑ i ∈ Finset.range c.sites.length, ((L.ims i).map (g i)).sum = ∑ p ∈ L.pairs, g p.1 p.2 := by
  unfold Lists.pairs
  rw [Finset.sum_sigma]
  apply Finset.sum_congr rfl
  intro i hi
  rw [Finset.mem_range] at hi
  rw [List.sum_toFinset _ (L.nodup i hi)]

open Classical in
/-- The sum over images of atoms before the own one equals that over images of atoms behind it, seen from
the other side. -/
theorem Lists.sum_flip (L : Lists cut c) (hsym : ∀ s t, cut.rcut s t = cut.rcut t s) (g : Nat → Image → ℝ)
    (q : Nat → Nat → Prop) :
    ∑ p ∈ L.pairs.filter (fun p => p.2.j < p.1 ∧ q p.1 p.2.j), g p.1 p.2 =
    ∑ p ∈ L.pairs.filter (fun p => p.1 < p.2.j ∧ q p.2.j p.1), g p.2.j ⟨p.1, fun k => -p.2.n k⟩ := by
  apply Finset.sum_bij' (fun p _ => (⟨p.2.j, ⟨p.1, fun k => -p.2.n k⟩⟩ : Σ _ : Nat, Image))
    (fun p _ => (⟨p.2.j, ⟨p.1, fun k => -p.2.n k⟩⟩ : Σ _ : Nat, Image))
  · intro p hp
    rw [Finset.mem_filter, L.mem_pairs] at hp ⊢
    obtain ⟨⟨h1, h2⟩, h3⟩ := hp
    exact ⟨wanted_flip hsym h1 h2, h3⟩
  · intro p hp
    rw [Finset.mem_filter, L.mem_pairs] at hp ⊢
    obtain ⟨⟨h1, h2⟩, h3⟩ := hp
    exact ⟨wanted_flip hsym h1 h2, h3⟩
  · rintro ⟨i, ⟨j, n⟩⟩ _; simp
  · rintro ⟨i, ⟨j, n⟩⟩ _; simp
  · rintro ⟨i, ⟨j, n⟩⟩ _; simp

open Classical in
/-- The half list of atom `i` consists of the images in the full list that do not belong to an atom before. -/
theorem Lists.sum_half (L : Lists cut c) (H : Nat → List Image)
    (hn : ∀ i < c.sites.length, (H i).Nodup)
    (hm : ∀ i < c.sites.length, ∀ m, m ∈ H i ↔ Wanted false cut c i m) (g : Nat → Image → ℝ) :
    ∑ i ∈ Finset.range c.sites.length, ((H i).map (g i)).sum =
      ∑ p ∈ L.pairs.filter (fun p => p.1 ≤ p.2.j), g p.1 p.2 := by
  have : ∀ i ∈ Finset.range c.sites.length, ((H i).map (g i)).sum =
      ∑ m ∈ (H i).toFinset, g i m := by
    intro i hi
    rw [Finset.mem_range] at hi
    rw [List.sum_toFinset _ (hn i hi)]
  rw [Finset.sum_congr rfl this, Finset.sum_sigma']
  apply Finset.sum_congr _ (fun _ _ => rfl)
  ext p
  rw [Finset.mem_sigma, Finset.mem_range, List.mem_toFinset, Finset.mem_filter, L.mem_pairs]
  constructor
  · rintro ⟨h1, h2⟩
    obtain ⟨a, b, d, e⟩ := (hm _ h1 _).1 h2
    exact ⟨⟨h1, a, Or.inl rfl, d, e⟩, by simpa using b⟩
  · rintro ⟨⟨h1, a, -, d, e⟩, b⟩
    exact ⟨h1, (hm _ h1 _).2 ⟨a, Or.inr b, d, e⟩⟩

open Classical in
/-- The full lists of a cell set up by the program. -/
noncomputable def readyLists {edge : Fin 3 → V3 ℝ} {scale : Fin 3 → ℤ} (hr : Ready edge cut scale c) :
    Lists cut c where
  ims i := (visited true c.sites.length scale i).filter fun m => decide (Wanted true cut c i m)
  nodup i _ := (visited_nodup true c.sites.length scale i).filter _
  mem i hi m := by
    obtain ⟨vol, hb⟩ := hr.box
    rw [List.mem_filter, decide_eq_true_eq, and_iff_right_iff_imp]
    rintro ⟨h1, h2, h4, h5⟩
    rw [mem_visited]
    exact ⟨h1, h2, scale_covers hb hr.images c rfl i m (hr.inside i hi) (hr.inside m.j h1)
        (h5.trans (hr.cutoff _ _)), h4⟩

theorem Lists.around_eq (L : Lists cut c) {i : Nat} (hi : i < c.sites.length) (ψ : Nat → ℝ → ℝ) :
    around cut c i ψ = ((L.ims i).map fun m => ψ (c.site m.j).typ (length (arrow c i m))).sum := by
  classical
  unfold around
  rw [← List.sum_toFinset _ (L.nodup i hi), ← finsum_mem_coe_finset]
  apply finsum_mem_congr _ (fun _ _ => rfl)
  ext m
  simp only [Set.mem_ofPred_eq, List.coe_toFinset]
  exact (L.mem i hi m).symm

/-- The lists of an atom in terms of images. -/
theorem built_lists {edge : Fin 3 → V3 ℝ} {scale : Fin 3 → ℤ} {full : Bool} {f : Conf ℝ}
    (hr : Ready edge cut scale c) (h : Built full cut scale c f) :
    ∃ H : Nat → List Image, (∀ i < c.sites.length, (H i).Nodup) ∧
      (∀ i < c.sites.length, ∀ m, m ∈ H i ↔ Wanted full cut c i m) ∧
      ∀ i a, f.atoms[i]? = some a → a.neigh = (H i).map (entryOf c i) := by
  classical
  have key : ∀ i : Nat, ∃ ims : List Image, i < c.sites.length → ims.Nodup ∧
      (∀ m, m ∈ ims ↔ Wanted full cut c i m) ∧ ∀ a, f.atoms[i]? = some a → a.neigh = ims.map (entryOf c i) := by
    intro i
    by_cases hi : i < c.sites.length
    · have hi' : i < f.atoms.length := by rw [h.count]; exact hi
      obtain ⟨ims, h1, h2, h3⟩ := C23_complete edge cut scale c hr full i hi _
        (h.lists i f.atoms[i] (List.getElem?_eq_getElem hi'))
      refine ⟨ims, fun _ => ⟨h1, h2, fun a ha => ?_⟩⟩
      rw [List.getElem?_eq_getElem hi'] at ha
      simp only [Option.some.injEq] at ha
      rw [← ha, h3]
    · exact ⟨[], fun h => absurd h hi⟩
  choose H hH using key
  refine ⟨H, fun i hi => (hH i hi).1, fun i hi => (hH i hi).2.1, fun i a ha => ?_⟩
  have hi : i < c.sites.length := by
    rw [← h.count]
    exact (List.getElem?_eq_some_iff.1 ha).1
  exact (hH i hi).2.2 a ha

theorem getD_eq {l : List (Atom ℝ)} (d : Atom ℝ) (i : Nat) (a : Atom ℝ) (h : l[i]? = some a) :
    l.getD i d = a := by
  rw [List.getD_eq_getElem?_getD, h, Option.getD_some]

/-- Sum over the entries of a configuration in terms of images. -/
theorem sum_built {full : Bool} {scale : Fin 3 → ℤ} {f : Conf ℝ} (h : Built full cut scale c f)
    {H : Nat → List Image} (hH : ∀ i a, f.atoms[i]? = some a → a.neigh = (H i).map (entryOf c i))
    (g : Entry ℝ → ℝ) :
    ((entries f).map g).sum = ∑ i ∈ Finset.range c.sites.length,
      ((H i).map fun m => g ⟨c.start + i, (c.site i).typ, entryOf c i m⟩).sum := by
  unfold entries
  rw [sum_entries g f.atoms (fun i => f.atoms.getD i ⟨0, [], 0, false⟩) f.start (fun i a ha => getD_eq _ i a ha),
    h.count]
  apply Finset.sum_congr rfl
  intro i hi
  rw [Finset.mem_range, ← h.count] at hi
  have ha := List.getElem?_eq_getElem hi
  rw [getD_eq _ i _ ha, hH i _ ha, h.typ i _ ha, h.start, List.map_map]
  rfl

theorem half_pair {edge : Fin 3 → V3 ℝ} {scale : Fin 3 → ℤ} {f : Conf ℝ} (hr : Ready edge cut scale c)
    (h : Built false cut scale c f) (hsym : ∀ s t, cut.rcut s t = cut.rcut t s) (P : Pots ℝ) :
    totalPairEnergy P f = crystalPair cut P c := by
  classical
  obtain ⟨H, h1, h2, h3⟩ := built_lists hr h
  let L := readyLists hr
  unfold totalPairEnergy crystalPair
  rw [sum_built h h3, L.sum_half H h1 h2 (fun i m => pairEnergy P ⟨c.start + i, (c.site i).typ, entryOf c i m⟩)]
  have e1 : ∑ i ∈ Finset.range c.sites.length, (1 / 2) * around cut c i (phi P c.ntypes (c.site i).typ) =
      (1 / 2) * ∑ p ∈ L.pairs, cutPhi P (entryOf c p.1 p.2) := by
    rw [← Finset.mul_sum, ← L.sum_full (fun i m => cutPhi P (entryOf c i m))]
    congr 1
    apply Finset.sum_congr rfl
    intro i hi
    rw [Finset.mem_range] at hi
    rw [L.around_eq hi]
    simp only [cutPhi_entry]
  rw [e1]
  have e2 := L.sum_flip hsym (fun i m => cutPhi P (entryOf c i m)) (fun _ _ => True)
  simp only [and_true, cutPhi_flip] at e2
  rw [Finset.sum_filter, Finset.sum_filter] at e2
  have e3 : ∀ p : (Σ _ : Nat, Image), (if p.1 ≤ p.2.j then
        pairEnergy P ⟨c.start + p.1, (c.site p.1).typ, entryOf c p.1 p.2⟩ else 0) =
      (1 / 2) * cutPhi P (entryOf c p.1 p.2) +
      (1 / 2) * (if p.1 < p.2.j then cutPhi P (entryOf c p.1 p.2) else 0) -
      (1 / 2) * (if p.2.j < p.1 then cutPhi P (entryOf c p.1 p.2) else 0) := by
    intro p
    have hn : (entryOf c p.1 p.2).nr = c.start + p.2.j := rfl
    unfold pairEnergy cutPhi
    simp only [hn]
    rcases lt_trichotomy p.1 p.2.j with hlt | heq | hgt
    · rw [if_pos (by omega), if_pos hlt, if_neg (show ¬ p.2.j < p.1 by omega),
        if_neg (show ¬ c.start + p.2.j = c.start + p.1 by omega)]
      ring
    · rw [if_pos (by omega), if_neg (show ¬ p.1 < p.2.j by omega), if_neg (show ¬ p.2.j < p.1 by omega),
        if_pos (show c.start + p.2.j = c.start + p.1 by omega)]
      split <;> ring
    · rw [if_neg (by omega), if_neg (show ¬ p.1 < p.2.j by omega), if_pos hgt]
      ring
  rw [Finset.sum_filter, Finset.sum_congr rfl (fun p _ => e3 p), Finset.sum_sub_distrib, Finset.sum_add_distrib,
    ← Finset.mul_sum, ← Finset.mul_sum, ← Finset.mul_sum, e2]
  ring

theorem half_density {edge : Fin 3 → V3 ℝ} {scale : Fin 3 → ℤ} {f : Conf ℝ} (hr : Ready edge cut scale c)
    (h : Built false cut scale c f) (hsym : ∀ s t, cut.rcut s t = cut.rcut t s) (P : EamPots ℝ) (i : Nat)
    (hi : i < c.sites.length) :
    totalDensity P f (c.start + i) = around cut c i (transfer P) := by
  classical
  obtain ⟨H, h1, h2, h3⟩ := built_lists hr h
  let L := readyLists hr
  unfold totalDensity
  rw [sum_built h h3, L.sum_half H h1 h2 (fun k m => densityOn P ⟨c.start + k, (c.site k).typ, entryOf c k m⟩ (c.start + i))]
  have e1 : around cut c i (transfer P) =
      ∑ p ∈ L.pairs, if p.1 = i then transfer P (c.site p.2.j).typ (length (arrow c p.1 p.2)) else 0 := by
    rw [← L.sum_full (fun k m => if k = i then transfer P (c.site m.j).typ (length (arrow c k m)) else 0),
      L.around_eq hi, Finset.sum_eq_single i]
    · simp
    · intro k _ hk
      simp [hk]
    · intro hn
      exact absurd (Finset.mem_range.2 hi) hn
  have e2 := L.sum_flip hsym (fun k m => transfer P (c.site m.j).typ (length (arrow c k m))) (fun a _ => a = i)
  rw [e1]
  rw [Finset.sum_filter, Finset.sum_filter] at e2
  have harr : ∀ p : (Σ _ : Nat, Image), length (arrow c p.2.j ⟨p.1, fun k => -p.2.n k⟩) = length (arrow c p.1 p.2) := by
    intro p
    have := arrow_flip c p.1 p.2
    simp only [flip] at this
    rw [this, length_neg]
  simp only [harr] at e2
  have e3 : ∀ p : (Σ _ : Nat, Image), (if p.1 ≤ p.2.j then
        densityOn P ⟨c.start + p.1, (c.site p.1).typ, entryOf c p.1 p.2⟩ (c.start + i) else 0) =
      (if p.1 = i then transfer P (c.site p.2.j).typ (length (arrow c p.1 p.2)) else 0) +
      (if p.1 < p.2.j ∧ p.2.j = i then transfer P (c.site p.1).typ (length (arrow c p.1 p.2)) else 0) -
      (if p.2.j < p.1 ∧ p.1 = i then transfer P (c.site p.2.j).typ (length (arrow c p.1 p.2)) else 0) := by
    intro p
    have hn : (entryOf c p.1 p.2).nr = c.start + p.2.j := rfl
    have ht : (entryOf c p.1 p.2).typ = (c.site p.2.j).typ := rfl
    have hl := entryOf_r c p.1 p.2
    unfold densityOn
    simp only [hn, ht, hl]
    have q1 : (c.start + i = c.start + p.1) ↔ p.1 = i := by omega
    have q2 : (c.start + i = c.start + p.2.j ∧ c.start + p.2.j ≠ c.start + p.1) ↔ (p.2.j = i ∧ p.2.j ≠ p.1) := by omega
    simp only [q1, q2]
    rcases lt_trichotomy p.1 p.2.j with hlt | heq | hgt
    · have a1 : (p.2.j = i ∧ p.2.j ≠ p.1) ↔ (p.1 < p.2.j ∧ p.2.j = i) := by omega
      rw [if_pos (show p.1 ≤ p.2.j by omega), if_neg (show ¬ (p.2.j < p.1 ∧ p.1 = i) by omega), sub_zero]
      simp only [a1]
    · rw [if_pos (show p.1 ≤ p.2.j by omega), if_neg (show ¬ (p.2.j < p.1 ∧ p.1 = i) by omega),
        if_neg (show ¬ (p.2.j = i ∧ p.2.j ≠ p.1) by omega), if_neg (show ¬ (p.1 < p.2.j ∧ p.2.j = i) by omega), sub_zero]
    · have a1 : (p.2.j < p.1 ∧ p.1 = i) ↔ p.1 = i := by omega
      rw [if_neg (show ¬ p.1 ≤ p.2.j by omega), if_neg (show ¬ (p.1 < p.2.j ∧ p.2.j = i) by omega)]
      simp only [a1]
      ring
  have e4 : (∑ p ∈ L.pairs, if p.2.j < p.1 ∧ p.1 = i then transfer P (c.site p.2.j).typ (length (arrow c p.1 p.2)) else 0) =
      ∑ p ∈ L.pairs, if p.1 < p.2.j ∧ p.2.j = i then transfer P (c.site p.1).typ (length (arrow c p.1 p.2)) else 0 := by
    convert e2
  rw [Finset.sum_filter, Finset.sum_congr rfl (fun p _ => e3 p), Finset.sum_sub_distrib, Finset.sum_add_distrib, e4]
  ring

end Verif.Neighbors
