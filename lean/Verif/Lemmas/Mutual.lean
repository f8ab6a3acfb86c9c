import Verif.Lemmas.SelfCount
import Verif.Lemmas.Follow
import Mathlib.Data.List.Nodup

namespace Verif.Neighbors

open Verif.Force hiding Cell
open Verif.Spec Verif.Props

/-- The entry of a list for an image, without the distance. -/
noncomputable def linkOf (c : Cell) (i : Nat) (m : Image) : Link :=
  ⟨c.start + m.j, (c.site m.j).typ, ∑ k : Fin 3, (m.n k : ℝ) • c.box.edge k,
    PairIndex.pairCol c.ntypes (c.site i).typ (c.site m.j).typ, c.paircol + (c.site m.j).typ⟩

theorem placed_linkOf (c : Cell) (i : Nat) (m : Image) :
    placed (fun a => (c.site (a - c.start)).pos) (c.start + i) (linkOf c i m) = entryOf c i m := by
  have hr : reach (fun a => (c.site (a - c.start)).pos) (c.start + i) (linkOf c i m) = arrow c i m := by
    unfold reach arrow linkOf
    simp only [Nat.add_sub_cancel_left]
  simp only [placed, hr, entryOf, offset_eq_arrow, sqrt_sprod]
  rfl

theorem arrowsFrom_eq (s : Nat) (ts : List Node) :
    arrowsFrom s ts = (ts.zipIdx s).flatMap fun p => p.1.links.map fun l => ⟨p.2, l.nr, l.shift, l.col0⟩ := by
  induction ts generalizing s with
  | nil => rfl
  | cons a ts ih => simp only [arrowsFrom, List.zipIdx_cons, List.flatMap_cons, ih]

/-- The entry seen as arrow. -/
noncomputable def arr (c : Cell) (p : Nat × Image) : Arrow :=
  ⟨c.start + p.1, (linkOf c p.1 p.2).nr, (linkOf c p.1 p.2).shift, (linkOf c p.1 p.2).col0⟩

theorem arr_flip (c : Cell) (p : Nat × Image) : arr c (flip p) = (arr c p).back := by
  obtain ⟨i, m⟩ := p
  simp only [arr, flip, linkOf, Arrow.back, Arrow.mk.injEq, true_and]
  refine ⟨?_, PairIndex.pairCol_comm _ _ _⟩
  funext k
  simp only [Fin.sum_univ_three, Pi.add_apply, Pi.neg_apply, Pi.smul_apply, smul_eq_mul, Int.cast_neg]
  ring

theorem perm_flip {cut : Cutoffs} {c : Cell} (hsym : ∀ s t, cut.rcut s t = cut.rcut t s) (H : Nat → List Image)
    (hn : ∀ i < c.sites.length, (H i).Nodup) (hm : ∀ i < c.sites.length, ∀ m, m ∈ H i ↔ Wanted true cut c i m) :
    ((List.range c.sites.length).flatMap fun i => (H i).map fun m => (i, m)).Perm
      (((List.range c.sites.length).flatMap fun i => (H i).map fun m => (i, m)).map flip) := by
  have hmem : ∀ p : Nat × Image, p ∈ ((List.range c.sites.length).flatMap fun i => (H i).map fun m => (i, m)) ↔
      p.1 < c.sites.length ∧ Wanted true cut c p.1 p.2 := by
    rintro ⟨i, m⟩
    rw [List.mem_flatMap]
    constructor
    · rintro ⟨j, hj, hp⟩
      rw [List.mem_map] at hp
      obtain ⟨m', h1, h2⟩ := hp
      simp only [Prod.mk.injEq] at h2
      obtain ⟨rfl, rfl⟩ := h2
      rw [List.mem_range] at hj
      exact ⟨hj, (hm _ hj _).1 h1⟩
    · rintro ⟨h1, h2⟩
      exact ⟨i, List.mem_range.2 h1, List.mem_map.2 ⟨m, (hm i h1 m).2 h2, rfl⟩⟩
  have hnd : ((List.range c.sites.length).flatMap fun i => (H i).map fun m => (i, m)).Nodup := by
    rw [List.nodup_flatMap]
    refine ⟨?_, ?_⟩
    · intro i hi
      rw [List.mem_range] at hi
      exact (hn i hi).map (fun a b h => by simpa using h)
    · refine List.Pairwise.imp ?_ (List.nodup_range (n := c.sites.length))
      intro a b hab p hp hq
      rw [List.mem_map] at hp hq
      obtain ⟨_, _, rfl⟩ := hp
      obtain ⟨_, _, h⟩ := hq
      simp only [Prod.mk.injEq] at h
      exact hab h.1.symm
  rw [List.perm_ext_iff_of_nodup hnd (hnd.map (fun a b h => by rw [← flip_flip a, h, flip_flip]))]
  intro p
  rw [List.mem_map]
  constructor
  · intro hp
    rw [hmem] at hp
    exact ⟨flip p, (hmem _).2 (wanted_flip hsym hp.1 hp.2), flip_flip p⟩
  · rintro ⟨q, hq, rfl⟩
    rw [hmem] at hq
    exact (hmem _).2 (wanted_flip hsym hq.1 hq.2)

/-- The full lists built by `init_neighbors`. -/
theorem built_mutual {edge : Fin 3 → V3 ℝ} {cut : Cutoffs} {scale : Fin 3 → ℤ} {c : Cell} {f : Conf ℝ}
    (hr : Ready edge cut scale c) (hsym : ∀ s t, cut.rcut s t = cut.rcut t s) (h : Built true cut scale c f) :
    ∃ ts : List Node, place f ts (fun a => (c.site (a - c.start)).pos) = f ∧ Mutual f ts := by
  obtain ⟨H, hn, hm, hH⟩ := built_lists hr h
  let g : Nat → Node := fun i => ⟨(c.site i).typ, (H i).map (linkOf c i),
    (f.atoms.getD i ⟨0, [], 0, false⟩).absforce, (f.atoms.getD i ⟨0, [], 0, false⟩).contrib⟩
  refine ⟨(List.range c.sites.length).map g, ?_, ?_⟩
  · have : placeFrom (fun a => (c.site (a - c.start)).pos) f.start ((List.range c.sites.length).map g) = f.atoms := by
      apply List.ext_getElem?
      intro i
      rw [placeFrom_getElem?, List.getElem?_map]
      by_cases hi : i < c.sites.length
      · rw [List.getElem?_range hi]
        have hi' : i < f.atoms.length := by rw [h.count]; exact hi
        have ha := List.getElem?_eq_getElem hi'
        rw [ha]
        have e1 := hH i _ ha
        have e2 := h.typ i _ ha
        simp only [Option.map_some, g, Option.some.injEq, List.map_map, h.start, getD_eq _ i _ ha, ← e2]
        have e3 : (H i).map (placed (fun a => (c.site (a - c.start)).pos) (c.start + i) ∘ linkOf c i) =
            f.atoms[i].neigh := by
          rw [e1]
          apply List.map_congr_left
          intro m _
          exact placed_linkOf c i m
        rw [e3]
      · rw [List.getElem?_eq_none (by simpa using hi), List.getElem?_eq_none (by rw [h.count]; omega)]
        rfl
    unfold place
    rw [this]
  · unfold Mutual
    have key : arrowsFrom f.start ((List.range c.sites.length).map g) =
        ((List.range c.sites.length).flatMap fun i => (H i).map fun m => (i, m)).map (arr c) := by
      rw [arrowsFrom_eq, List.map_flatMap]
      have hz : (((List.range c.sites.length).map g).zipIdx f.start) =
          (List.range c.sites.length).map fun i => (g i, c.start + i) := by
        apply List.ext_getElem?
        intro i
        rw [List.getElem?_zipIdx, List.getElem?_map, List.getElem?_map]
        by_cases hi : i < c.sites.length
        · rw [List.getElem?_range hi, h.start]
          rfl
        · rw [List.getElem?_eq_none (by simpa using hi)]
          rfl
      rw [hz, List.flatMap_map]
      apply List.flatMap_congr
      intro i _
      simp only [g, List.map_map]
      rfl
    rw [key, List.map_map, show Arrow.back ∘ arr c = arr c ∘ flip from funext fun p => (arr_flip c p).symm, ← List.map_map]
    exact (perm_flip hsym H hn hm).map (arr c)

end Verif.Neighbors
