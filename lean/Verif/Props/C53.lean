/-
C53  Stillinger-Weber forces and stresses belong to the energy.

Energy, forces and stresses are taken from the force vector filled by `calc_forces` of `src/force_stiweb.c`.
Positions are varied at fixed neighbour lists; strain deforms positions and lattice vectors together.
-/
import Verif.Lemmas.Conservative
import Verif.Lemmas.Mutual
import Verif.Lemmas.Stiweb
import Verif.Lemmas.StiwebFunctions

namespace Verif.Props

open Verif.Force hiding Cell
open Verif.Neighbors Verif.Spec

/-- No two atoms coincide, and the functions have the slopes the routine uses. -/
def SwSmooth (P : SwPots ℝ) (f : Conf ℝ) (ts : List Node) (x : Nat → V3 ℝ) : Prop :=
  ∀ j n, ts[j]? = some n → ∀ l ∈ n.links,
    let r := length (reach x (f.start + j) l)
    r ≠ 0 ∧ CutSlope (P.fin l.col0) (P.val l.col0) (P.grad l.col0 r) r ∧
      CutSlope (P.fin3 l.col0) (P.f l.col0) (P.df l.col0 r * r) r

/-- Forces as the code collects them. -/
noncomputable def swForceSum (P : SwPots ℝ) (i : Nat) (a : Atom ℝ) : Nat → V3 ℝ :=
  (a.neigh.map (ownerForce true P.toPots i)).sum +
    ((pairsOf a.neigh).map fun p => pullForce i (swTerm P i a.typ p.1 p.2).pulls).sum

theorem sw_leaves (b : Build) (P : SwPots ℝ) (ew sw : ℝ) (ci : Nat) (fv : FV ℝ) (c : Conf ℝ) (hu : c.uf = true) :
    Leaves b (fun c => (swConf b P ew sw ci c fv).1) ci (swSite P) (swForceSum P) (swStress P) c := by
  obtain ⟨h1, h2, h3⟩ := fullConf_spec b (swAtom b P c) _ _ _ (swAtom_plus b P c hu) ew sw ci c fv
  refine ⟨h1, h2 hu, ?_⟩
  intro hb hs k
  have := h3 hb hu hs k
  simp only [hb, hs, Bool.and_self, if_true] at this
  exact this

theorem sw_force_sum (P : SwPots ℝ) (f : Conf ℝ) (ts : List Node) (x : Nat → V3 ℝ) (hm : Mutual f ts) :
    overAtoms (place f ts x) (swForceSum P) =
      fun a => sumForce (termsFrom (swSite P) f.start (place f ts x).atoms) a := by
  unfold swForceSum
  rw [overAtoms_add, owner_sum true P.toPots f ts x hm, ← overAtoms_add]
  funext a
  unfold sumForce
  have h := overAtoms_terms (place f ts x) (swSite P) (fun t => pullForce t.own t.pulls)
  have h' : (fun t : Term ℝ => t.force a) = fun t => pullForce t.own t.pulls a := funext fun t => term_force t a
  rw [h', ← sum_apply_nat]
  have e : termsFrom (swSite P) f.start (place f ts x).atoms = termsFrom (swSite P) (place f ts x).start (place f ts x).atoms := rfl
  rw [e, ← h]
  refine congrFun ?_ a
  apply overAtoms_congr
  intro j at' _
  simp only [swSite, List.map_append, List.sum_append, List.map_map]
  rfl

theorem sw_follows (P : SwPots ℝ) (f : Conf ℝ) (ts : List Node) (x : Nat → V3 ℝ) (hs : SwSmooth P f ts x) (m : Motion)
    (hm : m.path m.now = reach x) : Follows m (swSite P) f.start ts := by
  intro j n hj
  unfold swSite
  simp only [sumEnergy_append, sumRate_append]
  have h := hs j n hj
  refine HasDerivAt.add ?_ ?_
  · apply follow_map
    intro l hl
    obtain ⟨h0, h1, -⟩ := h l hl
    rw [← hm] at h0 h1
    exact follow_pair m true P.toPots _ l h0 h1
  · apply follow_pairs m (fun nj nk => swTerm P (f.start + j) n.typ nj nk)
    intro l hl l' hl'
    obtain ⟨h0, -, h1⟩ := h l hl
    obtain ⟨h0', -, h1'⟩ := h l' hl'
    rw [← hm] at h0 h1 h0' h1'
    exact follow_sw m P _ _ l l' h0 h0' h1 h1'

theorem moving_path (x : Nat → V3 ℝ) (a : Nat) (k : Fin 3) :
    (moving x a k).path (moving x a k).now = reach x := by
  show reach (moved x a k (x a k)) = reach x
  rw [moved_self]

theorem straining_path (x : Nat → V3 ℝ) (α β : Fin 3) : (straining x α β).path (straining x α β).now = reach x := by
  funext i l c
  show strained 0 α β (reach x i l) c = _
  simp [strained]

/-- The forces are minus the gradient of the energy. -/
theorem C53_forces (b : Build) (P : SwPots ℝ) (ew sw : ℝ) (ci : Nat) (fv : FV ℝ) (f : Conf ℝ) (ts : List Node)
    (x : Nat → V3 ℝ) (hu : f.uf = true) (hm : Mutual f ts) (hs : SwSmooth P f ts x) (j : Nat) (n : Node)
    (hj : ts[j]? = some n) (hw : 0 ≤ n.absforce) (k : Fin 3) :
    HasDerivAt (fun t => reportedEnergy (fun c => (swConf b P ew sw ci c fv).1) ci (place f ts (moved x (f.start + j) k t)))
      (-reportedForce b (swConf b P ew sw ci (place f ts x) fv).1 f n.absforce (f.start + j) k) (x (f.start + j) k) :=
  conservative_force (res := fun c => (swConf b P ew sw ci c fv).1)
    (fun rf => sw_leaves b P ew sw ci fv (placeWith f ts rf) hu) (sw_force_sum P f ts x hm)
    (fun a k => sw_follows P f ts x hs _ (moving_path x a k)) j n hj hw k

/-- The forces on the atoms of a configuration add up to zero. -/
theorem C53_balance (b : Build) (P : SwPots ℝ) (ew sw : ℝ) (ci : Nat) (fv : FV ℝ) (f : Conf ℝ) (ts : List Node)
    (x : Nat → V3 ℝ) (hu : f.uf = true) (hm : Mutual f ts) (hw : ∀ n ∈ ts, 0 ≤ n.absforce) (k : Fin 3) :
    (ts.zipIdx.map fun p => reportedForce b (swConf b P ew sw ci (place f ts x) fv).1 f p.1.absforce
      (f.start + p.2) k).sum = 0 := by
  apply conservative_balance (res := fun c => (swConf b P ew sw ci c fv).1)
    (fun rf => sw_leaves b P ew sw ci fv (placeWith f ts rf) hu) (sw_force_sum P f ts x hm) hm _ hw k
  intro i a t ht
  simp only [swSite, List.mem_append, List.mem_map] at ht
  rcases ht with ⟨n, hn, rfl⟩ | ⟨p, hp, rfl⟩
  · refine ⟨rfl, ?_⟩
    intro q hq
    simp only [pairTerm, List.mem_singleton] at hq
    rw [hq]; exact hn
  · refine ⟨rfl, ?_⟩
    intro q hq
    obtain ⟨h1, h2⟩ := mem_pairsOf hp
    simp only [swTerm, List.mem_cons, List.not_mem_nil, or_false] at hq
    rcases hq with rfl | rfl
    · exact h1
    · exact h2

theorem swTerm_sym (P : SwPots ℝ) (i typ : Nat) (nj nk : Neigh ℝ) (α β : Fin 3) :
    (swTerm P i typ nj nk).strain α β = (swTerm P i typ nj nk).strain β α := by
  by_cases h : nj.r < P.fin3 nj.col0 ∧ nk.r < P.fin3 nk.col0
  · simp only [Term.strain, swTerm, swPull, swPullK, if_pos h, List.map_cons, List.map_nil, List.sum_cons, List.sum_nil]
    ring
  · rw [swTerm_outside _ _ _ _ _ h]
    simp [Term.strain]

theorem meanVirial_apply (t : Term ℝ) (h : ∀ α β, t.strain α β = t.strain β α) (k : Fin 6) :
    meanVirial t.pulls k = t.strain (voigt k).2 (voigt k).1 := by
  have key : ∀ α β : Fin 3, (t.pulls.map fun p => 1 / 2 * (p.n.dist α * p.g β + p.n.dist β * p.g α)).sum = t.strain β α := by
    intro α β
    have h1 : (t.pulls.map fun p => 1 / 2 * (p.n.dist α * p.g β + p.n.dist β * p.g α)).sum =
        1 / 2 * (t.strain β α + t.strain α β) := by
      unfold Term.strain
      rw [← sum_add_list, ← List.sum_map_mul_left]
      congr 1
      apply List.map_congr_left
      intro p _
      ring
    rw [h1, h α β]
    ring
  have diag : ∀ α : Fin 3, (t.pulls.map fun p => p.n.dist α * p.g α).sum = t.strain α α := by
    intro α
    unfold Term.strain
    congr 1
    apply List.map_congr_left
    intro p _
    ring
  unfold meanVirial
  rw [sum_apply_fin]
  fin_cases k <;> simp only [symVirial, voigt, Fin.zero_eta, Fin.mk_one, Fin.reduceFinMk, Matrix.cons_val]
  · exact diag 0
  · exact diag 1
  · exact diag 2
  · exact key 0 1
  · exact key 1 2
  · exact key 2 0

theorem plainVirial_apply (t : Term ℝ) (k : Fin 6) : plainVirial t.pulls k = t.strain (voigt k).2 (voigt k).1 := by
  unfold plainVirial Term.strain
  rw [sum_apply_fin]
  congr 1
  apply List.map_congr_left
  intro p _
  fin_cases k <;> simp only [virial, voigt, Fin.zero_eta, Fin.mk_one, Fin.reduceFinMk, Matrix.cons_val] <;> ring

theorem sw_stress_sum (P : SwPots ℝ) (c : Conf ℝ) (k : Fin 6) :
    overAtoms c (swStress P) k = -sumStrain (termsFrom (swSite P) c.start c.atoms) (voigt k).2 (voigt k).1 := by
  have h := overAtoms_terms c (swSite P) (fun t => t.strain (voigt k).2 (voigt k).1)
  unfold sumStrain
  rw [← h]
  unfold overAtoms
  rw [sum_apply_fin, ← listSum_neg]
  congr 1
  apply List.map_congr_left
  intro p _
  unfold swStress swSite
  simp only [Pi.neg_apply, Pi.add_apply, List.map_append, List.sum_append, List.map_map, sum_apply_fin]
  congr 2
  · congr 1
    apply List.map_congr_left
    intro n _
    exact plainVirial_apply _ k
  · congr 1
    apply List.map_congr_left
    intro q _
    exact meanVirial_apply _ (swTerm_sym P p.2 p.1.typ q.1 q.2) k

/-- The stresses are minus the derivative of the energy with respect to strain, per volume. -/
theorem C53_stress (b : Build) (P : SwPots ℝ) (ew sw : ℝ) (ci : Nat) (fv : FV ℝ) (f : Conf ℝ) (ts : List Node)
    (x : Nat → V3 ℝ) (hu : f.uf = true) (hb : b.stress = true) (hus : f.us = true) (hv : f.vol ≠ 0) (hne : ts ≠ [])
    (hs : SwSmooth P f ts x) (k : Fin 6) :
    HasDerivAt (fun e => reportedEnergy (fun c => (swConf b P ew sw ci c fv).1) ci
        (placeStrained f ts x (voigt k).2 (voigt k).1 e))
      (-reportedVirial (swConf b P ew sw ci (place f ts x) fv).1 ci f k) 0 :=
  conservative_stress (res := fun c => (swConf b P ew sw ci c fv).1)
    (fun rf => sw_leaves b P ew sw ci fv (placeWith f ts rf) hu) hne hb hus hv _ _ k
    (sw_stress_sum P (place f ts x) k) (sw_follows P f ts x hs _ (straining_path x _ _))

/-- The functions computed by the routine have the required slopes, provided `delta` and `gamma` are positive, except
at the distance `a2 - gamma / 100`, where the three-body function is set to zero. -/
theorem C53_functions (s : SwPars) (f : Conf ℝ) (ts : List Node) (x : Nat → V3 ℝ)
    (hd : ∀ col, 0 < s.delta col) (hg : ∀ col, 0 < s.gamma col)
    (h : ∀ j n, ts[j]? = some n → ∀ l ∈ n.links, length (reach x (f.start + j) l) ≠ 0 ∧
      length (reach x (f.start + j) l) ≠ s.a2 l.col0 - s.gamma l.col0 / 100) :
    SwSmooth (swFunctions s) f ts x := by
  intro j n hj l hl
  obtain ⟨h0, h1⟩ := h j n hj l hl
  have hpos : 0 < length (reach x (f.start + j) l) := lt_of_le_of_ne (Real.sqrt_nonneg _) (Ne.symm h0)
  exact ⟨h0, sw_pair_slope s l.col0 (hd _) _ hpos, sw_angle_slope s l.col0 (hg _) _ hpos h1⟩

/-- The lists built by `init_neighbors` with `THREEBODY` are full lists. -/
theorem C53_lists {edge : Fin 3 → V3 ℝ} {cut : Cutoffs} {scale : Fin 3 → ℤ} {c : Cell} {f : Conf ℝ}
    (hr : Ready edge cut scale c) (hsym : ∀ s t, cut.rcut s t = cut.rcut t s) (h : Built true cut scale c f) :
    ∃ ts : List Node, place f ts (fun a => (c.site (a - c.start)).pos) = f ∧ Mutual f ts :=
  built_mutual hr hsym h

/-- A molecule of three atoms, each seeing the other two. -/
def triangle : List Node :=
  [⟨0, [⟨1, 0, 0, 0, 0⟩, ⟨2, 0, 0, 0, 0⟩], 1, true⟩, ⟨0, [⟨0, 0, 0, 0, 0⟩, ⟨2, 0, 0, 0, 0⟩], 1, true⟩,
   ⟨0, [⟨0, 0, 0, 0, 0⟩, ⟨1, 0, 0, 0, 0⟩], 1, true⟩]

def triangleConf : Conf ℝ := ⟨0, [], true, true, 1, 1, 0, 0, 0, 0, 0⟩

def trianglePos : Nat → V3 ℝ
  | 1 => ![1, 0, 0]
  | 2 => ![0, 1, 0]
  | _ => 0

theorem triangle_mutual : Mutual triangleConf triangle := by
  unfold Mutual
  have e : arrowsFrom triangleConf.start triangle =
      ([(0, 1), (0, 2), (1, 0), (1, 2), (2, 0), (2, 1)] : List (Nat × Nat)).map fun p => ⟨p.1, p.2, 0, 0⟩ := rfl
  have e2 : (arrowsFrom triangleConf.start triangle).map Arrow.back =
      (([(0, 1), (0, 2), (1, 0), (1, 2), (2, 0), (2, 1)] : List (Nat × Nat)).map Prod.swap).map
        fun p => ⟨p.1, p.2, 0, 0⟩ := by
    rw [e]
    simp only [List.map_cons, List.map_nil, Arrow.back, neg_zero, Prod.swap]
  rw [e2, e]
  apply List.Perm.map
  decide

theorem triangle_dist : ∀ j n, triangle[j]? = some n → ∀ l ∈ n.links,
    1 ≤ length (reach trianglePos (triangleConf.start + j) l) ∧
      length (reach trianglePos (triangleConf.start + j) l) ≤ 2 := by
  have h1 : ∀ v : V3 ℝ, 1 ≤ v 0 ^ 2 + v 1 ^ 2 + v 2 ^ 2 ∧ v 0 ^ 2 + v 1 ^ 2 + v 2 ^ 2 ≤ 4 → 1 ≤ length v ∧ length v ≤ 2 := by
    intro v hv
    unfold length
    rw [Real.one_le_sqrt, Fin.sum_univ_three, Real.sqrt_le_left (by norm_num)]
    exact ⟨hv.1, hv.2.trans (by norm_num)⟩
  intro j n hj l hl
  apply h1
  match j, hj with
  | 0, hj =>
    simp only [triangle, List.getElem?_cons_zero, Option.some.injEq] at hj
    subst hj
    simp only [List.mem_cons, List.not_mem_nil, or_false] at hl
    rcases hl with rfl | rfl <;> (simp only [reach, trianglePos, triangleConf, Pi.add_apply, Pi.sub_apply, Pi.zero_apply, Matrix.cons_val]; norm_num)
  | 1, hj =>
    simp only [triangle, List.getElem?_cons_succ, List.getElem?_cons_zero, Option.some.injEq] at hj
    subst hj
    simp only [List.mem_cons, List.not_mem_nil, or_false] at hl
    rcases hl with rfl | rfl <;> (simp only [reach, trianglePos, triangleConf, Pi.add_apply, Pi.sub_apply, Pi.zero_apply, Matrix.cons_val]; norm_num)
  | 2, hj =>
    simp only [triangle, List.getElem?_cons_succ, List.getElem?_cons_zero, Option.some.injEq] at hj
    subst hj
    simp only [List.mem_cons, List.not_mem_nil, or_false] at hl
    rcases hl with rfl | rfl <;> (simp only [reach, trianglePos, triangleConf, Pi.add_apply, Pi.sub_apply, Pi.zero_apply, Matrix.cons_val]; norm_num)
  | j + 3, hj => simp [triangle] at hj

/-- The molecule with a Stillinger-Weber potential meets the hypotheses. -/
example : SwSmooth (swFunctions ⟨fun _ => 2, fun _ => 1, fun _ => 4, fun _ => 0, fun _ => 1, fun _ => 2, fun _ => 1,
    fun _ => 3, fun _ _ _ => 1⟩) triangleConf triangle trianglePos ∧ Mutual triangleConf triangle ∧
    triangleConf.uf = true ∧ ∀ n ∈ triangle, 0 ≤ n.absforce := by
  refine ⟨?_, triangle_mutual, rfl, ?_⟩
  · apply C53_functions
    · intro _; norm_num
    · intro _; norm_num
    · intro j n hj l hl
      have := triangle_dist j n hj l hl
      refine ⟨by linarith [this.1], ?_⟩
      intro h
      rw [h] at this
      norm_num at this
  · intro n hn
    simp only [triangle, List.mem_cons, List.not_mem_nil, or_false] at hn
    rcases hn with rfl | rfl | rfl <;> norm_num

end Verif.Props
