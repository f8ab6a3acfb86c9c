/-
Lattice sums of a crystal that is deformed continuously: locally they are sums over the neighbour lists built before the
deformation.
-/
import Verif.Spec.Crystal
import Verif.Lemmas.SelfCount
import Verif.Lemmas.HalfMotion
import Mathlib.Order.Filter.Finite
import Mathlib.Order.Interval.Finset.Basic
import Mathlib.Order.Interval.Finset.Nat
import Mathlib.Data.Int.Interval
import Mathlib.Data.Pi.Interval
import Mathlib.Topology.Instances.Real.Lemmas
import Mathlib.Tactic.Positivity

set_option linter.unusedSectionVars false

namespace Verif.Neighbors

open Verif.Force hiding Cell
open Verif.Spec Verif.Props Topology

/-- Images at a given distance lie in cells near by. -/
theorem image_bound {edge : Fin 3 → V3 ℝ} {box : Box ℝ} {vol : ℝ} (hb : makeBox edge = .ok (box, vol)) (c : Cell)
    (hc : c.box = box) (i : Nat) (m : Image) (hi : InCell edge (c.site i).pos) (hj : InCell edge (c.site m.j).pos)
    (k : Fin 3) : |(m.n k : ℝ)| ≤ Real.sqrt (sprod (box.dual k) (box.dual k)) * length (arrow c i m) + 1 := by
  obtain ⟨he, -, hd⟩ := makeBox_dual hb
  obtain ⟨s, hs1, hs2⟩ := hi
  obtain ⟨t, ht1, ht2⟩ := hj
  have hfrac : sprod (box.dual k) (arrow c i m) = t k - s k + m.n k := by
    unfold arrow
    rw [hs2, ht2, hc, he]
    have h0 := hd k 0
    have h1 := hd k 1
    have h2 := hd k 2
    simp only [sprod, Pi.add_apply, Pi.sub_apply, Fin.sum_univ_three, Pi.smul_apply, smul_eq_mul] at h0 h1 h2 ⊢
    have hsum : ∀ u : Fin 3 → ℝ, u k = u 0 * (if k = 0 then 1 else 0) + u 1 * (if k = 1 then 1 else 0) +
        u 2 * (if k = 2 then 1 else 0) := by
      intro u
      fin_cases k <;> simp
    have hn := hsum (fun k => ((m.n k : ℤ) : ℝ))
    rw [hsum t, hsum s, hn, ← h0, ← h1, ← h2]
    ring
  have hlen := sprod_le (box.dual k) (arrow c i m)
  rw [sqrt_sprod (arrow c i m), hfrac, abs_le] at hlen
  rw [abs_le]
  have a1 := hs1 k
  have a2 := ht1 k
  constructor <;> linarith [hlen.1, hlen.2, a1.1, a1.2, a2.1, a2.2]

/-- Finitely many images of an atom lie within any distance. -/
theorem finite_within {edge : Fin 3 → V3 ℝ} {cut : Cutoffs} {scale : Fin 3 → ℤ} {c : Cell} (hr : Ready edge cut scale c)
    {i j : Nat} (hi : i < c.sites.length) (hj : j < c.sites.length) (R : ℝ) :
    {n : Fin 3 → ℤ | length (arrow c i ⟨j, n⟩) ≤ R}.Finite := by
  obtain ⟨vol, hb⟩ := hr.box
  let B : Fin 3 → ℤ := fun k => ⌈Real.sqrt (sprod (c.box.dual k) (c.box.dual k)) * R + 1⌉
  refine (Set.finite_Icc (fun k => -B k) B).subset ?_
  intro n hn
  have hk : ∀ k, |(n k : ℝ)| ≤ B k := by
    intro k
    refine (image_bound hb c rfl i ⟨j, n⟩ (hr.inside i hi) (hr.inside j hj) k).trans ?_
    refine le_trans ?_ (Int.le_ceil _)
    have := mul_le_mul_of_nonneg_left hn (Real.sqrt_nonneg (sprod (c.box.dual k) (c.box.dual k)))
    linarith
  constructor
  · intro k
    have := (abs_le.1 (hk k)).1
    exact_mod_cast this
  · intro k
    have := (abs_le.1 (hk k)).2
    exact_mod_cast this

/-- A continuous deformation of the crystal: distances change little, relative to their size. -/
structure Deform (c : Cell) (now : ℝ) (C : ℝ → Cell) : Prop where
  count : ∀ t, (C t).sites.length = c.sites.length
  typ : ∀ t i, ((C t).site i).typ = (c.site i).typ
  ntypes : ∀ t, (C t).ntypes = c.ntypes
  near : ∀ ε > 0, ∀ᶠ t in 𝓝 now, ∀ i m, i < c.sites.length → m.j < c.sites.length →
    |length (arrow (C t) i m) - length (arrow c i m)| ≤ ε * (1 + length (arrow c i m))

theorem length_nonneg (v : V3 ℝ) : 0 ≤ length v := Real.sqrt_nonneg _

/-- Images beyond a distance stay there for a while. -/
theorem Deform.far {edge : Fin 3 → V3 ℝ} {cut : Cutoffs} {scale : Fin 3 → ℤ} {c : Cell} {now : ℝ} {C : ℝ → Cell}
    (hr : Ready edge cut scale c) (hD : Deform c now C) {i j : Nat} (hi : i < c.sites.length) (hj : j < c.sites.length)
    (R : ℝ) : ∀ᶠ t in 𝓝 now, ∀ n : Fin 3 → ℤ, R < length (arrow c i ⟨j, n⟩) → R ≤ length (arrow (C t) i ⟨j, n⟩) := by
  by_cases hR : R < 0
  · exact Filter.Eventually.of_forall fun t n _ => hR.le.trans (length_nonneg _)
  rw [not_lt] at hR
  have h1 : ∀ᶠ t in 𝓝 now, ∀ n ∈ {n : Fin 3 → ℤ | length (arrow c i ⟨j, n⟩) ≤ R + 1}, R < length (arrow c i ⟨j, n⟩) →
      R ≤ length (arrow (C t) i ⟨j, n⟩) := by
    rw [Filter.eventually_all_finite (finite_within hr hi hj (R + 1))]
    intro n _
    by_cases hn : R < length (arrow c i ⟨j, n⟩)
    · have hp : 0 < (length (arrow c i ⟨j, n⟩) - R) / (1 + length (arrow c i ⟨j, n⟩)) := by
        apply div_pos <;> linarith
      filter_upwards [hD.near _ hp] with t ht _
      have := ht i ⟨j, n⟩ hi hj
      rw [div_mul_cancel₀ _ (by linarith), abs_le] at this
      linarith [this.1]
    · exact Filter.Eventually.of_forall fun t h => absurd h hn
  have hp : (0 : ℝ) < 1 / (R + 2) := by positivity
  filter_upwards [h1, hD.near _ hp] with t ht1 ht2 n hn
  by_cases hle : length (arrow c i ⟨j, n⟩) ≤ R + 1
  · exact ht1 n hle hn
  · rw [not_le] at hle
    have := (abs_le.1 (ht2 i ⟨j, n⟩ hi hj)).1
    have hq : (R + 2) * (1 / (R + 2)) = 1 := by field_simp
    have hlt : 1 / (R + 2) < 1 := by rw [div_lt_one (by linarith)]; linarith
    nlinarith

/-- Images which have no entry in the lists stay beyond the cutoff of the lists for a while. -/
theorem Deform.unlisted {edge : Fin 3 → V3 ℝ} {cut : Cutoffs} {scale : Fin 3 → ℤ} {c : Cell} {now : ℝ} {C : ℝ → Cell}
    (hr : Ready edge cut scale c) (hD : Deform c now C) : ∀ᶠ t in 𝓝 now, ∀ i < c.sites.length, ∀ m ∈ Others c i,
      ¬ Wanted true cut c i m → cut.rcut (c.site i).typ (c.site m.j).typ ≤ length (arrow (C t) i m) := by
  have h : ∀ᶠ t in 𝓝 now, ∀ i ∈ Finset.range c.sites.length, ∀ j ∈ Finset.range c.sites.length, ∀ n : Fin 3 → ℤ,
      cut.rcut (c.site i).typ (c.site j).typ < length (arrow c i ⟨j, n⟩) →
      cut.rcut (c.site i).typ (c.site j).typ ≤ length (arrow (C t) i ⟨j, n⟩) := by
    rw [Filter.eventually_all_finset]
    intro i hi
    rw [Filter.eventually_all_finset]
    intro j hj
    exact hD.far hr (Finset.mem_range.1 hi) (Finset.mem_range.1 hj) _
  filter_upwards [h] with t ht i hi m hm hw
  refine ht i (Finset.mem_range.2 hi) m.j (Finset.mem_range.2 hm.1) m.n ?_
  by_contra hle
  rw [not_lt] at hle
  exact hw ⟨hm.1, Or.inl rfl, hm.2, hle⟩

/-- A lattice sum is a sum over the lists if the other images do not contribute. -/
theorem Lists.latticeSum_eq {cut : Cutoffs} {c : Cell} (L : Lists cut c) (d : Cell) (hd : d.sites.length = c.sites.length)
    {i : Nat} (hi : i < c.sites.length) (ψ : Nat → ℝ → ℝ)
    (hz : ∀ m ∈ Others c i, ¬ Wanted true cut c i m → ψ (d.site m.j).typ (length (arrow d i m)) = 0) :
    latticeSum d i ψ = ((L.ims i).map fun m => ψ (d.site m.j).typ (length (arrow d i m))).sum := by
  classical
  unfold latticeSum
  rw [← List.sum_toFinset _ (L.nodup i hi), ← finsum_mem_coe_finset]
  apply finsum_mem_inter_support_eq
  ext m
  simp only [Set.mem_inter_iff, List.coe_toFinset, Function.mem_support]
  constructor
  · rintro ⟨h1, h2⟩
    refine ⟨?_, h2⟩
    by_contra hn
    refine h2 (hz m ?_ fun hw => hn ((L.mem i hi m).2 hw))
    unfold Others at h1 ⊢
    rw [← hd]
    exact h1
  · rintro ⟨h1, h2⟩
    refine ⟨?_, h2⟩
    have hw : Wanted true cut c i m := (L.mem i hi m).1 h1
    unfold Others
    rw [hd]
    exact ⟨hw.1, hw.2.2.1⟩

open Classical in
/-- Half lists: every interaction once, those of an atom with its own images one half. -/
theorem Lists.half_sum {cut : Cutoffs} {c : Cell} (L : Lists cut c) (hsym : ∀ s t, cut.rcut s t = cut.rcut t s)
    (H : Nat → List Image) (hn : ∀ i < c.sites.length, (H i).Nodup)
    (hm : ∀ i < c.sites.length, ∀ m, m ∈ H i ↔ Wanted false cut c i m) (g : Nat → Image → ℝ)
    (hg : ∀ i m, g m.j ⟨i, fun k => -m.n k⟩ = g i m) :
    ∑ i ∈ Finset.range c.sites.length, ((H i).map fun m => if m.j = i then g i m / 2 else g i m).sum =
      ∑ i ∈ Finset.range c.sites.length, (1 / 2) * ((L.ims i).map (g i)).sum := by
  rw [L.sum_half H hn hm (fun i m => if m.j = i then g i m / 2 else g i m), ← Finset.mul_sum, L.sum_full]
  have e2 := L.sum_flip hsym g (fun _ _ => True)
  simp only [and_true, hg] at e2
  rw [Finset.sum_filter, Finset.sum_filter] at e2
  have e3 : ∀ p : (Σ _ : Nat, Image), (if p.1 ≤ p.2.j then (if p.2.j = p.1 then g p.1 p.2 / 2 else g p.1 p.2) else 0) =
      (1 / 2) * g p.1 p.2 + (1 / 2) * (if p.1 < p.2.j then g p.1 p.2 else 0) -
      (1 / 2) * (if p.2.j < p.1 then g p.1 p.2 else 0) := by
    intro p
    rcases lt_trichotomy p.1 p.2.j with hlt | heq | hgt
    · rw [if_pos (by omega), if_pos hlt, if_neg (show ¬ p.2.j < p.1 by omega), if_neg (by omega)]
      ring
    · rw [if_pos (by omega), if_neg (show ¬ p.1 < p.2.j by omega), if_neg (show ¬ p.2.j < p.1 by omega), if_pos heq.symm]
      ring
    · rw [if_neg (by omega), if_neg (show ¬ p.1 < p.2.j by omega), if_pos hgt]
      ring
  rw [Finset.sum_filter, Finset.sum_congr rfl (fun p _ => e3 p), Finset.sum_sub_distrib, Finset.sum_add_distrib,
    ← Finset.mul_sum, ← Finset.mul_sum, ← Finset.mul_sum, e2]
  ring

open Classical in
/-- Half lists: what atom `i` receives, `τ` depending on the type of the giver and on the distance. -/
theorem Lists.half_receive {cut : Cutoffs} {c : Cell} (L : Lists cut c) (hsym : ∀ s t, cut.rcut s t = cut.rcut t s)
    (H : Nat → List Image) (hn : ∀ i < c.sites.length, (H i).Nodup)
    (hm : ∀ i < c.sites.length, ∀ m, m ∈ H i ↔ Wanted false cut c i m) (len : Nat → Image → ℝ)
    (hl : ∀ i m, len m.j ⟨i, fun k => -m.n k⟩ = len i m) (τ : Nat → ℝ → ℝ) (i : Nat) (hi : i < c.sites.length) :
    ∑ k ∈ Finset.range c.sites.length, ((H k).map fun m => (if i = k then τ (c.site m.j).typ (len k m) else 0) +
        (if i = m.j ∧ m.j ≠ k then τ (c.site k).typ (len k m) else 0)).sum =
      ((L.ims i).map fun m => τ (c.site m.j).typ (len i m)).sum := by
  rw [L.sum_half H hn hm (fun k m => (if i = k then τ (c.site m.j).typ (len k m) else 0) +
        (if i = m.j ∧ m.j ≠ k then τ (c.site k).typ (len k m) else 0))]
  have e1 : ((L.ims i).map fun m => τ (c.site m.j).typ (len i m)).sum =
      ∑ p ∈ L.pairs, if p.1 = i then τ (c.site p.2.j).typ (len p.1 p.2) else 0 := by
    rw [← L.sum_full (fun k m => if k = i then τ (c.site m.j).typ (len k m) else 0), Finset.sum_eq_single i]
    · simp
    · intro k _ hk
      simp [hk]
    · intro hn
      exact absurd (Finset.mem_range.2 hi) hn
  have e2 := L.sum_flip hsym (fun k m => τ (c.site m.j).typ (len k m)) (fun a _ => a = i)
  rw [e1]
  rw [Finset.sum_filter, Finset.sum_filter] at e2
  simp only [hl] at e2
  have e3 : ∀ p : (Σ _ : Nat, Image), (if p.1 ≤ p.2.j then
        ((if i = p.1 then τ (c.site p.2.j).typ (len p.1 p.2) else 0) +
        (if i = p.2.j ∧ p.2.j ≠ p.1 then τ (c.site p.1).typ (len p.1 p.2) else 0)) else 0) =
      (if p.1 = i then τ (c.site p.2.j).typ (len p.1 p.2) else 0) +
      (if p.1 < p.2.j ∧ p.2.j = i then τ (c.site p.1).typ (len p.1 p.2) else 0) -
      (if p.2.j < p.1 ∧ p.1 = i then τ (c.site p.2.j).typ (len p.1 p.2) else 0) := by
    intro p
    have q1 : (i = p.1) ↔ p.1 = i := eq_comm
    have q2 : (i = p.2.j ∧ p.2.j ≠ p.1) ↔ (p.2.j = i ∧ p.2.j ≠ p.1) := by rw [eq_comm]
    simp only [q1, q2]
    rcases lt_trichotomy p.1 p.2.j with hlt | heq | hgt
    · have a1 : (p.2.j = i ∧ p.2.j ≠ p.1) ↔ (p.1 < p.2.j ∧ p.2.j = i) := by omega
      rw [if_pos (show p.1 ≤ p.2.j by omega), if_neg (show ¬ (p.2.j < p.1 ∧ p.1 = i) by omega), sub_zero]
      simp only [a1]
    · rw [if_pos (show p.1 ≤ p.2.j by omega), if_neg (show ¬ (p.2.j < p.1 ∧ p.1 = i) by omega),
        if_neg (show ¬ (p.2.j = i ∧ p.2.j ≠ p.1) by omega), if_neg (show ¬ (p.1 < p.2.j ∧ p.2.j = i) by omega), sub_zero]
    · have a1 : (p.2.j < p.1 ∧ p.1 = i) ↔ p.1 = i := by omega
      rw [if_neg (show ¬ p.1 ≤ p.2.j by omega), if_neg (show ¬ (p.1 < p.2.j ∧ p.2.j = i) by omega)]
      simp only [a1]
      ring
  have e4 : (∑ p ∈ L.pairs, if p.2.j < p.1 ∧ p.1 = i then τ (c.site p.2.j).typ (len p.1 p.2) else 0) =
      ∑ p ∈ L.pairs, if p.1 < p.2.j ∧ p.2.j = i then τ (c.site p.1).typ (len p.1 p.2) else 0 := by
    convert e2
  rw [Finset.sum_filter, Finset.sum_congr rfl (fun p _ => e3 p), Finset.sum_sub_distrib, Finset.sum_add_distrib, e4]
  ring

/-! ### The lists of the program as links -/

/-- The entry of an image without the distance. -/
noncomputable def bondOf (c : Cell) (i : Nat) (m : Image) : Link :=
  ⟨c.start + m.j, (c.site m.j).typ, ∑ k : Fin 3, (m.n k : ℝ) • c.box.edge k,
    PairIndex.pairCol c.ntypes (c.site i).typ (c.site m.j).typ, c.paircol + (c.site m.j).typ⟩

/-- Atoms with links. -/
noncomputable def nodesFrom (c : Cell) (H : Nat → List Image) : Nat → List (Atom ℝ) → List Node
  | _, [] => []
  | i, a :: as => ⟨a.typ, (H i).map (bondOf c i), a.absforce, a.contrib⟩ :: nodesFrom c H (i + 1) as

/-- Positions by global number. -/
def posOf (c : Cell) : Nat → V3 ℝ := fun a => (c.site (a - c.start)).pos

theorem reach_link (c : Cell) (i : Nat) (m : Image) : reach (posOf c) (c.start + i) (bondOf c i m) = arrow c i m := by
  unfold reach arrow posOf bondOf
  simp only [Nat.add_sub_cancel_left]

theorem placed_link (c : Cell) (i : Nat) (m : Image) :
    placed (posOf c) (c.start + i) (bondOf c i m) = entryOf c i m := by
  simp only [placed, entryOf, reach_link, offset_eq_arrow, sqrt_sprod]
  rfl

theorem nodesFrom_length (c : Cell) (H : Nat → List Image) (l : List (Atom ℝ)) (i : Nat) :
    (nodesFrom c H i l).length = l.length := by
  induction l generalizing i with
  | nil => rfl
  | cons a l ih => simp [nodesFrom, ih]

theorem nodesFrom_getElem? (c : Cell) (H : Nat → List Image) (l : List (Atom ℝ)) (s j : Nat) :
    (nodesFrom c H s l)[j]? = l[j]?.map fun a => ⟨a.typ, (H (s + j)).map (bondOf c (s + j)), a.absforce, a.contrib⟩ := by
  induction l generalizing s j with
  | nil => simp [nodesFrom]
  | cons a l ih =>
    cases j with
    | zero => simp [nodesFrom]
    | succ j =>
      simp only [nodesFrom, List.getElem?_cons_succ, ih]
      rw [show s + 1 + j = s + (j + 1) by omega]

theorem place_nodes {full : Bool} {cut : Cutoffs} {scale : Fin 3 → ℤ} {c : Cell} {f : Conf ℝ}
    (h : Built full cut scale c f) {H : Nat → List Image}
    (hH : ∀ i a, f.atoms[i]? = some a → a.neigh = (H i).map (entryOf c i)) :
    place f (nodesFrom c H 0 f.atoms) (posOf c) = f := by
  have key : ∀ (l : List (Atom ℝ)) (s : Nat), (∀ i a, l[i]? = some a → a.neigh = (H (s + i)).map (entryOf c (s + i))) →
      placeFrom (posOf c) (c.start + s) (nodesFrom c H s l) = l := by
    intro l
    induction l with
    | nil => intro s _; rfl
    | cons a l ih =>
      intro s hl
      have ht := ih (s + 1) (fun i b hb => by
        rw [show s + 1 + i = s + (i + 1) by omega]
        exact hl (i + 1) b (by simpa using hb))
      have h0 := hl 0 a rfl
      rw [Nat.add_zero] at h0
      simp only [nodesFrom, placeFrom, List.map_map]
      rw [show c.start + s + 1 = c.start + (s + 1) by omega, ht]
      congr 1
      cases a
      simp only [Atom.mk.injEq, true_and, and_true] at h0 ⊢
      rw [h0]
      apply List.map_congr_left
      intro m _
      exact placed_link c s m
  have := key f.atoms 0 (fun i a ha => by rw [Nat.zero_add]; exact hH i a ha)
  rw [Nat.add_zero, ← h.start] at this
  unfold place
  rw [this]

/-- Sum over the links of a configuration. -/
theorem sum_bonds (c : Cell) (H : Nat → List Image) (g : Bond → ℝ) (l : List (Atom ℝ)) (typ : Nat → Nat) (s i : Nat)
    (ht : ∀ k a, l[k]? = some a → a.typ = typ (i + k)) :
    ((bondsFrom (s + i) (nodesFrom c H i l)).map g).sum =
      ∑ k ∈ Finset.range l.length, ((H (i + k)).map fun m => g ⟨s + (i + k), typ (i + k), bondOf c (i + k) m⟩).sum := by
  induction l generalizing i with
  | nil => simp [nodesFrom, bondsFrom]
  | cons a l ih =>
    simp only [nodesFrom, bondsFrom, List.map_append, List.sum_append, List.length_cons, List.map_map]
    rw [Finset.sum_range_succ', show s + i + 1 = s + (i + 1) by omega,
      ih (i + 1) (fun k b h => by rw [show i + 1 + k = i + (k + 1) by omega]; exact ht (k + 1) b (by simpa using h)), add_comm]
    have h0 := ht 0 a rfl
    rw [h0]
    congr 1
    apply Finset.sum_congr rfl
    intro k _
    rw [show i + 1 + k = i + (k + 1) by omega]

section
variable {edge : Fin 3 → V3 ℝ} {cut : Cutoffs} {scale : Fin 3 → ℤ} {c : Cell} {f : Conf ℝ} {now : ℝ} {C : ℝ → Cell}

theorem length_back (d : Cell) (i : Nat) (m : Image) :
    length (arrow d m.j ⟨i, fun k => -m.n k⟩) = length (arrow d i m) := by
  have := arrow_flip d i m
  simp only [flip] at this
  rw [this, length_neg]

/-- The vectors along the links of the lists. -/
def Along (c : Cell) (C : ℝ → Cell) (rf : ℝ → Nat → Link → V3 ℝ) : Prop :=
  ∀ t, ∀ i < c.sites.length, ∀ m : Image, m.j < c.sites.length → rf t (c.start + i) (bondOf c i m) = arrow (C t) i m

theorem Deform.pair (hr : Ready edge cut scale c) (hD : Deform c now C) (hf : Built false cut scale c f)
    (hsym : ∀ s t, cut.rcut s t = cut.rcut t s) {H : Nat → List Image} (hn : ∀ i < c.sites.length, (H i).Nodup)
    (hm : ∀ i < c.sites.length, ∀ m, m ∈ H i ↔ Wanted false cut c i m) {rf : ℝ → Nat → Link → V3 ℝ} (ha : Along c C rf)
    (P : Pots ℝ) (hreach : ∀ i < c.sites.length, ∀ j < c.sites.length,
      P.fin (PairIndex.pairCol c.ntypes (c.site i).typ (c.site j).typ) ≤ cut.rcut (c.site i).typ (c.site j).typ) :
    ∀ᶠ t in 𝓝 now, latticePair P (C t) = totalPairEnergy P (placeWith f (nodesFrom c H 0 f.atoms) (rf t)) := by
  let L := readyLists hr
  filter_upwards [hD.unlisted hr] with t ht
  have hb := sum_bonds c H (fun b => pairEnergy P (b.entryAt (rf t))) f.atoms (fun i => (c.site i).typ) c.start 0
    (fun k a h => by rw [Nat.zero_add]; exact hf.typ k a h)
  simp only [Nat.zero_add, Nat.add_zero] at hb
  unfold totalPairEnergy
  rw [entries_placeWith, List.map_map, hf.start]
  change _ = ((bondsFrom c.start (nodesFrom c H 0 f.atoms)).map fun b => pairEnergy P (b.entryAt (rf t))).sum
  rw [hb, hf.count]
  have h1 := L.half_sum hsym H hn hm (fun i m => phi P c.ntypes (c.site i).typ (c.site m.j).typ (length (arrow (C t) i m)))
    (fun i m => by
      simp only [length_back, phi]
      rw [PairIndex.pairCol_comm])
  have h2 : ∀ i ∈ Finset.range c.sites.length,
      ((H i).map fun m => pairEnergy P (Bond.entryAt (rf t) ⟨c.start + i, (c.site i).typ, bondOf c i m⟩)).sum =
      ((H i).map fun m => if m.j = i then
        phi P c.ntypes (c.site i).typ (c.site m.j).typ (length (arrow (C t) i m)) / 2 else
        phi P c.ntypes (c.site i).typ (c.site m.j).typ (length (arrow (C t) i m))).sum := by
    intro i hi
    rw [Finset.mem_range] at hi
    congr 1
    apply List.map_congr_left
    intro m hmem
    have hw := (hm i hi m).1 hmem
    have e := ha t i hi m hw.1
    have q1 : (Bond.entryAt (rf t) ⟨c.start + i, (c.site i).typ, bondOf c i m⟩).n.r = length (arrow (C t) i m) := by
      show length (rf t (c.start + i) (bondOf c i m)) = _
      rw [e]
    have q2 : (Bond.entryAt (rf t) ⟨c.start + i, (c.site i).typ, bondOf c i m⟩).n.nr = c.start + m.j := rfl
    have q3 : (Bond.entryAt (rf t) ⟨c.start + i, (c.site i).typ, bondOf c i m⟩).own = c.start + i := rfl
    have q4 : (Bond.entryAt (rf t) ⟨c.start + i, (c.site i).typ, bondOf c i m⟩).n.col0 =
      PairIndex.pairCol c.ntypes (c.site i).typ (c.site m.j).typ := rfl
    unfold pairEnergy phi
    rw [q1, q2, q3, q4]
    have p1 : (c.start + m.j = c.start + i) ↔ m.j = i := by omega
    simp only [p1]
    by_cases hmi : m.j = i
    · simp only [if_pos hmi]
      split <;> simp
    · simp only [if_neg hmi]
  rw [Finset.sum_congr rfl h2, h1]
  unfold latticePair
  rw [hD.count]
  apply Finset.sum_congr rfl
  intro i hi
  rw [Finset.mem_range] at hi
  rw [L.latticeSum_eq (C t) (hD.count t) hi, hD.ntypes, hD.typ]
  · simp only [hD.typ]
  · intro m hmo hw
    have := ht i hi m hmo hw
    rw [hD.typ, hD.ntypes, hD.typ]
    unfold phi
    rw [if_neg (not_lt.2 ((hreach i hi m.j hmo.1).trans this))]

theorem Deform.density (hr : Ready edge cut scale c) (hD : Deform c now C) (hf : Built false cut scale c f)
    (hsym : ∀ s t, cut.rcut s t = cut.rcut t s) {H : Nat → List Image} (hn : ∀ i < c.sites.length, (H i).Nodup)
    (hm : ∀ i < c.sites.length, ∀ m, m ∈ H i ↔ Wanted false cut c i m) {rf : ℝ → Nat → Link → V3 ℝ} (ha : Along c C rf)
    (P : EamPots ℝ) (hreach : ∀ i < c.sites.length, ∀ j < c.sites.length,
      P.fin (P.paircol + (c.site j).typ) ≤ cut.rcut (c.site i).typ (c.site j).typ) :
    ∀ᶠ t in 𝓝 now, ∀ i < c.sites.length, latticeDensity P (C t) i =
      totalDensity P (placeWith f (nodesFrom c H 0 f.atoms) (rf t)) (c.start + i) := by
  let L := readyLists hr
  filter_upwards [hD.unlisted hr] with t ht i hi
  have hb := sum_bonds c H (fun b => densityOn P (b.entryAt (rf t)) (c.start + i)) f.atoms (fun i => (c.site i).typ) c.start 0
    (fun k a h => by rw [Nat.zero_add]; exact hf.typ k a h)
  simp only [Nat.zero_add, Nat.add_zero] at hb
  unfold totalDensity
  rw [entries_placeWith, List.map_map, hf.start]
  change _ = ((bondsFrom c.start (nodesFrom c H 0 f.atoms)).map fun b => densityOn P (b.entryAt (rf t)) (c.start + i)).sum
  rw [hb, hf.count]
  have h1 := L.half_receive hsym H hn hm (fun i m => length (arrow (C t) i m)) (fun i m => length_back (C t) i m)
    (transfer P) i hi
  have h2 : ∀ k ∈ Finset.range c.sites.length,
      ((H k).map fun m => densityOn P (Bond.entryAt (rf t) ⟨c.start + k, (c.site k).typ, bondOf c k m⟩) (c.start + i)).sum =
      ((H k).map fun m => (if i = k then transfer P (c.site m.j).typ (length (arrow (C t) k m)) else 0) +
        (if i = m.j ∧ m.j ≠ k then transfer P (c.site k).typ (length (arrow (C t) k m)) else 0)).sum := by
    intro k hk
    rw [Finset.mem_range] at hk
    congr 1
    apply List.map_congr_left
    intro m hmem
    have hw := (hm k hk m).1 hmem
    have e := ha t k hk m hw.1
    have q1 : (Bond.entryAt (rf t) ⟨c.start + k, (c.site k).typ, bondOf c k m⟩).n.r = length (arrow (C t) k m) := by
      show length (rf t (c.start + k) (bondOf c k m)) = _
      rw [e]
    have q2 : (Bond.entryAt (rf t) ⟨c.start + k, (c.site k).typ, bondOf c k m⟩).n.nr = c.start + m.j := rfl
    have q3 : (Bond.entryAt (rf t) ⟨c.start + k, (c.site k).typ, bondOf c k m⟩).own = c.start + k := rfl
    have q4 : (Bond.entryAt (rf t) ⟨c.start + k, (c.site k).typ, bondOf c k m⟩).n.typ = (c.site m.j).typ := rfl
    have q5 : (Bond.entryAt (rf t) ⟨c.start + k, (c.site k).typ, bondOf c k m⟩).otyp = (c.site k).typ := rfl
    unfold densityOn
    rw [q1, q2, q3, q4, q5]
    have p1 : (c.start + i = c.start + k) ↔ i = k := by omega
    have p2 : (c.start + i = c.start + m.j ∧ c.start + m.j ≠ c.start + k) ↔ (i = m.j ∧ m.j ≠ k) := by omega
    simp only [p1, p2]
  rw [Finset.sum_congr rfl h2, h1]
  unfold latticeDensity
  rw [L.latticeSum_eq (C t) (hD.count t) hi]
  · simp only [hD.typ]
  · intro m hmo hw
    have := ht i hi m hmo hw
    rw [hD.typ]
    unfold transfer
    rw [if_neg (not_lt.2 ((hreach i hi m.j hmo.1).trans this))]

theorem Deform.eam (hr : Ready edge cut scale c) (hD : Deform c now C) (hf : Built false cut scale c f)
    (hsym : ∀ s t, cut.rcut s t = cut.rcut t s) {H : Nat → List Image} (hn : ∀ i < c.sites.length, (H i).Nodup)
    (hm : ∀ i < c.sites.length, ∀ m, m ∈ H i ↔ Wanted false cut c i m) {rf : ℝ → Nat → Link → V3 ℝ} (ha : Along c C rf)
    (b : Build) (P : EamPots ℝ) (h1 : ∀ i < c.sites.length, ∀ j < c.sites.length,
      P.fin (PairIndex.pairCol c.ntypes (c.site i).typ (c.site j).typ) ≤ cut.rcut (c.site i).typ (c.site j).typ)
    (h2 : ∀ i < c.sites.length, ∀ j < c.sites.length,
      P.fin (P.paircol + (c.site j).typ) ≤ cut.rcut (c.site i).typ (c.site j).typ) :
    ∀ᶠ t in 𝓝 now, latticeEam b P (C t) =
      totalPairEnergy P.toPots (placeWith f (nodesFrom c H 0 f.atoms) (rf t)) +
      totalEmbedding b P (placeWith f (nodesFrom c H 0 f.atoms) (rf t)) := by
  filter_upwards [hD.pair hr hf hsym hn hm ha P.toPots h1, hD.density hr hf hsym hn hm ha P h2] with t ht1 ht2
  unfold latticeEam
  rw [ht1, totalEmbedding_placeWith, nodesFrom_length, hf.count, hD.count]
  congr 1
  apply Finset.sum_congr rfl
  intro i hi
  rw [Finset.mem_range] at hi
  have hi' : i < f.atoms.length := by rw [hf.count]; exact hi
  rw [ht2 i hi, hD.typ, hf.start, List.getD_eq_getElem?_getD, nodesFrom_getElem?, List.getElem?_eq_getElem hi',
    Option.map_some, Option.getD_some, hf.typ i _ (List.getElem?_eq_getElem hi')]

/-! ### Two deformations -/

theorem length_add_le (v w : V3 ℝ) : length (v + w) ≤ length v + length w := by
  have h1 := sprod_le v w
  rw [sqrt_sprod, sqrt_sprod] at h1
  have h2 : length v ^ 2 = sprod v v := by rw [← sqrt_sprod, Real.sq_sqrt (sprod_self_nonneg v)]
  have h3 : length w ^ 2 = sprod w w := by rw [← sqrt_sprod, Real.sq_sqrt (sprod_self_nonneg w)]
  have h4 : length (v + w) ^ 2 = sprod (v + w) (v + w) := by rw [← sqrt_sprod, Real.sq_sqrt (sprod_self_nonneg _)]
  have h5 : sprod (v + w) (v + w) = sprod v v + 2 * sprod v w + sprod w w := by
    unfold sprod
    simp only [Pi.add_apply]
    ring
  apply le_of_sq_le_sq _ (add_nonneg (length_nonneg v) (length_nonneg w))
  have := (abs_le.1 h1).2
  nlinarith

theorem length_diff (v w : V3 ℝ) : |length w - length v| ≤ length (w - v) := by
  have h1 := length_add_le v (w - v)
  have h2 := length_add_le w (v - w)
  rw [add_sub_cancel] at h1 h2
  rw [show v - w = -(w - v) by rw [neg_sub], length_neg] at h2
  rw [abs_le]
  constructor <;> linarith

theorem length_single (k : Fin 3) (y : ℝ) : length (fun l => if l = k then y else 0) = |y| := by
  unfold length
  rw [← Real.sqrt_sq_eq_abs]
  congr 1
  rw [Finset.sum_eq_single k]
  · simp
  · intro l _ hl
    simp [hl]
  · simp

theorem coord_le (v : V3 ℝ) (k : Fin 3) : |v k| ≤ length v := by
  unfold length
  apply Real.abs_le_sqrt
  exact Finset.single_le_sum (f := fun k => v k ^ 2) (fun k _ => sq_nonneg _) (Finset.mem_univ k)

theorem displaced_site (c : Cell) (j : Nat) (k : Fin 3) (y : ℝ) (hj : j < c.sites.length) (i : Nat) :
    ((displaced c j k y).site i) =
      if i = j then ⟨(c.site j).typ, Function.update (c.site j).pos k y⟩ else c.site i := by
  unfold displaced Cell.site
  simp only [List.getD_eq_getElem?_getD, List.getElem?_modify]
  by_cases h : i = j
  · subst h
    simp only [if_true, List.getElem?_eq_getElem hj]
    rfl
  · have h' : ¬ j = i := fun e => h e.symm
    simp only [if_neg h, if_neg h']
    simp

theorem displaced_arrow (c : Cell) (j : Nat) (k : Fin 3) (y : ℝ) (hj : j < c.sites.length) (i : Nat) (m : Image) :
    arrow (displaced c j k y) i m = arrow c i m + fun l => if l = k then
      ((if m.j = j then 1 else 0) - (if i = j then 1 else 0)) * (y - (c.site j).pos k) else 0 := by
  unfold arrow
  rw [displaced_site c j k y hj, displaced_site c j k y hj]
  have hbox : (displaced c j k y).box = c.box := rfl
  rw [hbox]
  funext l
  by_cases h1 : m.j = j <;> by_cases h2 : i = j <;> by_cases hl : l = k <;>
    simp [h1, h2, hl]
  ring

theorem deform_displaced (c : Cell) (j : Nat) (k : Fin 3) (hj : j < c.sites.length) :
    Deform c ((c.site j).pos k) (displaced c j k) where
  count t := by simp [displaced]
  typ t i := by
    rw [displaced_site c j k t hj]
    split
    · next h => rw [h]
    · rfl
  ntypes t := rfl
  near ε hε := by
    have : ∀ᶠ t in 𝓝 ((c.site j).pos k), |t - (c.site j).pos k| < ε := by
      have h := Metric.ball_mem_nhds ((c.site j).pos k) hε
      filter_upwards [h] with t ht
      rwa [Metric.mem_ball, Real.dist_eq] at ht
    filter_upwards [this] with t ht i m _ _
    refine (length_diff _ _).trans ?_
    rw [displaced_arrow c j k t hj, add_sub_cancel_left, length_single, abs_mul]
    have h1 : |((if m.j = j then 1 else 0) - (if i = j then 1 else 0) : ℝ)| ≤ 1 := by
      by_cases h1 : m.j = j <;> by_cases h2 : i = j <;> simp [h1, h2]
    have h0 := length_nonneg (arrow c i m)
    have := abs_nonneg (t - (c.site j).pos k)
    nlinarith

theorem along_displaced (c : Cell) (j : Nat) (k : Fin 3) (hj : j < c.sites.length) :
    Along c (displaced c j k) fun t => reach (moved (posOf c) (c.start + j) k t) := by
  intro t i hi m hm
  have h0 : posOf c (c.start + j) = (c.site j).pos := by unfold posOf; rw [Nat.add_sub_cancel_left]
  have hp : ∀ l, moved (posOf c) (c.start + j) k t (c.start + l) = ((displaced c j k t).site l).pos := by
    intro l
    rw [displaced_site c j k t hj]
    unfold moved
    by_cases h : l = j
    · subst h
      rw [Function.update_self, if_pos rfl, h0]
    · rw [Function.update_of_ne (by omega), if_neg h]
      unfold posOf
      rw [Nat.add_sub_cancel_left]
  show moved (posOf c) (c.start + j) k t (c.start + m.j) + _ - moved (posOf c) (c.start + j) k t (c.start + i) = _
  rw [hp, hp]
  rfl

theorem strained_sum (e : ℝ) (α β : Fin 3) (v w : V3 ℝ) :
    strained e α β (v + w) = strained e α β v + strained e α β w := by
  funext l
  simp only [strained, Pi.add_apply]
  split <;> ring

theorem strained_arrow (c : Cell) (α β : Fin 3) (e : ℝ) (i : Nat) (m : Image) (hi : i < c.sites.length)
    (hm : m.j < c.sites.length) : arrow (strainedCell c α β e) i m = strained e α β (arrow c i m) := by
  have hs : ∀ l, l < c.sites.length → ((strainedCell c α β e).site l).pos = strained e α β (c.site l).pos := by
    intro l hl
    unfold strainedCell Cell.site
    simp only [List.getD_eq_getElem?_getD, List.getElem?_map, List.getElem?_eq_getElem hl, Option.map_some,
      Option.getD_some]
  unfold arrow
  rw [hs i hi, hs m.j hm]
  funext l
  simp only [strainedCell, strained, Pi.add_apply, Pi.sub_apply, Fin.sum_univ_three, Pi.smul_apply, smul_eq_mul]
  split <;> ring

theorem deform_strained (c : Cell) (α β : Fin 3) : Deform c 0 (strainedCell c α β) where
  count t := by simp [strainedCell]
  typ t i := by
    unfold strainedCell Cell.site
    simp only [List.getD_eq_getElem?_getD, List.getElem?_map]
    cases c.sites[i]? <;> rfl
  ntypes t := rfl
  near ε hε := by
    have : ∀ᶠ t in 𝓝 (0 : ℝ), |t| < ε := by
      have h := Metric.ball_mem_nhds (0 : ℝ) hε
      filter_upwards [h] with t ht
      rwa [Metric.mem_ball, Real.dist_eq, sub_zero] at ht
    filter_upwards [this] with t ht i m hi hm
    refine (length_diff _ _).trans ?_
    rw [strained_arrow c α β t i m hi hm]
    have hd : strained t α β (arrow c i m) - arrow c i m = fun l => if l = α then t * arrow c i m β else 0 := by
      funext l
      simp [strained]
    rw [hd, length_single, abs_mul]
    have h1 := coord_le (arrow c i m) β
    have h2 := abs_nonneg (arrow c i m β)
    have h3 := abs_nonneg t
    nlinarith

theorem along_strained (c : Cell) (α β : Fin 3) :
    Along c (strainedCell c α β) fun t i l => strained t α β (reach (posOf c) i l) := by
  intro t i hi m hm
  show strained t α β (reach (posOf c) (c.start + i) (bondOf c i m)) = _
  rw [reach_link, strained_arrow c α β t i m hi hm]

end

end Verif.Neighbors
