/-
C54  Forces and stresses of angular potentials and MEAM belong to the energy.

Energy, forces and stresses are taken from the force vector filled by `calc_forces` of `src/force_ang.c` and
`src/force_meam.c`.  Positions are varied at fixed neighbour lists; strain deforms positions and lattice vectors together.
-/
import Verif.Lemmas.Angular
import Verif.Props.C17
import Verif.Props.C53

namespace Verif.Props

open Verif.Force hiding Cell
open Verif.Neighbors Verif.Spec

/-- No two atoms coincide, and pair function, radial function and function of the angle have the slopes the routine uses. -/
def AngSmooth (P : AngPots ℝ) (f : Conf ℝ) (ts : List Node) (x : Nat → V3 ℝ) : Prop :=
  ∀ j n, ts[j]? = some n → ∀ l ∈ n.links,
    let r := length (reach x (f.start + j) l)
    r ≠ 0 ∧ CutSlope (P.fin l.col0) (P.val l.col0) (P.grad l.col0 r) r ∧
      CutSlope (P.fin (P.fcol l.col0)) (P.val (P.fcol l.col0)) (P.grad (P.fcol l.col0) r) r ∧
      ∀ l' ∈ n.links,
        let c := cosOf (reach x (f.start + j) l) (reach x (f.start + j) l')
        HasDerivAt (P.val (P.gcol n.typ)) (P.grad (P.gcol n.typ) c) c

/-- For MEAM also the transfer functions and, at the density of each atom, the embedding functions. -/
def MeamSmooth (b : Build) (P : AngPots ℝ) (f : Conf ℝ) (ts : List Node) (x : Nat → V3 ℝ) : Prop :=
  AngSmooth P f ts x ∧ ∀ j n, ts[j]? = some n →
    (∀ l ∈ n.links,
      let r := length (reach x (f.start + j) l)
      CutSlope (P.fin l.col1) (P.val l.col1) (P.grad l.col1 r) r) ∧
    let rho := meamDensity P (atomAt (reach x (f.start + j)) n)
    HasDerivAt (fun y => (meamEmbed b P.toEamPots (P.paircol + P.ntypes + n.typ) y).value)
      (meamEmbed b P.toEamPots (P.paircol + P.ntypes + n.typ) rho).grad rho

theorem ang_leaves (b : Build) (P : AngPots ℝ) (ew sw : ℝ) (ci : Nat) (fv : FV ℝ) (c : Conf ℝ) (hu : c.uf = true) :
    Leaves b (fun c => (angConf b P ew sw ci c fv).1) ci (angSite P) (angForceSum P) (angStress P) c := by
  have hp := atomLoop_plus (angAtom b P c) _ _ _ (angAtom_plus b P c hu) c.atoms c.start ⟨resetForces c fv.force, 0, 0, 0⟩
  obtain ⟨h1, h2, h3⟩ := always_spec b _ _ _ _ ew sw c fv hp
  refine ⟨?_, ?_, ?_⟩
  · show Function.update _ _ _ _ = _
    rw [Function.update_self, h1]
    rfl
  · exact h2 hu
  · intro hb hs k
    have e : ∀ c', (angConf b P ew sw ci c' fv).1.stress = if b.stress = true then _ else _ := fun _ => rfl
    simp only [e, if_pos hb, Function.update_self, h3 hb k]
    simp only [hb, hs, Bool.and_self, if_true]
    rfl

theorem meam_leaves (b : Build) (P : AngPots ℝ) (ew sw : ℝ) (ci : Nat) (fv : FV ℝ) (c : Conf ℝ) (hu : c.uf = true) :
    Leaves b (fun c => (meamConf b P ew sw ci c fv).1) ci (meamSite b P) (meamForceSum b P) (meamStress b P) c := by
  have hp := atomLoop_plus (fun i a s => plus s (sumEnergy (meamSite b P i a)) (meamForceSum b P i a)
      (if b.stress && c.us then meamStress b P i a else 0)) _ _ _ (fun _ _ _ => rfl) c.atoms c.start
      ⟨resetForces c fv.force, 0, 0, 0⟩
  rw [← meamLoop_plus b P c hu c.atoms c.start ⟨⟨resetForces c fv.force, 0, 0, 0⟩, -c.limit0, 0⟩] at hp
  obtain ⟨h1, h2, h3⟩ := always_spec b _ _ _ _ ew sw c fv hp
  refine ⟨?_, ?_, ?_⟩
  · show Function.update _ _ _ _ = _
    rw [Function.update_self, h1]
    rfl
  · exact h2 hu
  · intro hb hs k
    have e : ∀ c', (meamConf b P ew sw ci c' fv).1.stress = if b.stress = true then _ else _ := fun _ => rfl
    simp only [e, if_pos hb, Function.update_self, h3 hb k]
    simp only [hb, hs, Bool.and_self, if_true]
    rfl

theorem sum_terms_apply (ts : List (Term ℝ)) (a : Nat) :
    sumForce ts a = (ts.map fun t => pullForce t.own t.pulls).sum a := by
  unfold sumForce
  rw [sum_apply_nat]
  congr 1
  exact List.map_congr_left fun t _ => term_force t a

theorem ang_force_sum (P : AngPots ℝ) (f : Conf ℝ) (ts : List Node) (x : Nat → V3 ℝ) (hm : Mutual f ts) :
    overAtoms (place f ts x) (angForceSum P) =
      fun a => sumForce (termsFrom (angSite P) f.start (place f ts x).atoms) a := by
  unfold angForceSum
  rw [overAtoms_add, owner_sum false P.toPots f ts x hm, ← overAtoms_add]
  funext a
  rw [sum_terms_apply]
  have h := overAtoms_terms (place f ts x) (angSite P) (fun t => pullForce t.own t.pulls)
  have e : termsFrom (angSite P) f.start (place f ts x).atoms =
    termsFrom (angSite P) (place f ts x).start (place f ts x).atoms := rfl
  rw [e, ← h]
  refine congrFun ?_ a
  apply overAtoms_congr
  intro j at' _
  simp only [angSite, List.map_append, List.sum_append, List.map_map]
  rfl

theorem meam_force_sum (b : Build) (P : AngPots ℝ) (f : Conf ℝ) (ts : List Node) (x : Nat → V3 ℝ) (hm : Mutual f ts) :
    overAtoms (place f ts x) (meamForceSum b P) =
      fun a => sumForce (termsFrom (meamSite b P) f.start (place f ts x).atoms) a := by
  unfold meamForceSum
  rw [overAtoms_add, owner_sum false P.toPots f ts x hm, ← overAtoms_add]
  funext a
  rw [sum_terms_apply]
  have h := overAtoms_terms (place f ts x) (meamSite b P) (fun t => pullForce t.own t.pulls)
  have e : termsFrom (meamSite b P) f.start (place f ts x).atoms =
    termsFrom (meamSite b P) (place f ts x).start (place f ts x).atoms := rfl
  rw [e, ← h]
  refine congrFun ?_ a
  apply overAtoms_congr
  intro j at' _
  simp only [meamSite, List.map_append, List.sum_append, List.map_map, List.map_cons, List.map_nil, List.sum_cons,
    List.sum_nil, add_zero]
  rfl

theorem ang_follows (P : AngPots ℝ) (f : Conf ℝ) (ts : List Node) (x : Nat → V3 ℝ) (hs : AngSmooth P f ts x) (m : Motion)
    (hm : m.path m.now = reach x) : Follows m (angSite P) f.start ts := by
  intro j n hj
  unfold angSite
  simp only [sumEnergy_append, sumRate_append]
  have h := hs j n hj
  refine HasDerivAt.add ?_ ?_
  · apply follow_map
    intro l hl
    obtain ⟨h0, h1, -⟩ := h l hl
    rw [← hm] at h0 h1
    exact follow_pair m false P.toPots _ l h0 h1
  · apply follow_pairs m (fun nj nk => angTerm P (f.start + j) n.typ nj nk)
    intro l hl l' hl'
    obtain ⟨h0, -, h1, hg⟩ := h l hl
    obtain ⟨h0', -, h1', -⟩ := h l' hl'
    have hg := hg l' hl'
    rw [← hm] at h0 h1 h0' h1' hg
    exact follow_ang m P _ _ l l' h0 h0' h1 h1' hg

theorem meam_follows (b : Build) (P : AngPots ℝ) (f : Conf ℝ) (ts : List Node) (x : Nat → V3 ℝ)
    (hs : MeamSmooth b P f ts x) (m : Motion) (hm : m.path m.now = reach x) :
    Follows m (meamSite b P) f.start ts := by
  intro j n hj
  unfold meamSite
  simp only [sumEnergy_append, sumRate_append]
  have h := hs.1 j n hj
  obtain ⟨ht, he⟩ := hs.2 j n hj
  refine HasDerivAt.add ?_ ?_
  · apply follow_map
    intro l hl
    obtain ⟨h0, h1, -⟩ := h l hl
    rw [← hm] at h0 h1
    exact follow_pair m false P.toPots _ l h0 h1
  · have hd : HasDerivAt (fun t => sumEnergy (densTerms P (f.start + j) (atomAt (m.path t (f.start + j)) n)))
        (sumRate m.speed (densTerms P (f.start + j) (atomAt (m.path m.now (f.start + j)) n))) m.now := by
      unfold densTerms
      simp only [sumEnergy_append, sumRate_append]
      refine HasDerivAt.add ?_ ?_
      · apply follow_map
        intro l hl
        obtain ⟨h0, -⟩ := h l hl
        have h1 := ht l hl
        simp only at h1
        rw [← hm] at h0 h1
        exact follow_trans m P _ l h0 h1
      · apply follow_pairs m (fun nj nk => angTerm P (f.start + j) n.typ nj nk)
        intro l hl l' hl'
        obtain ⟨h0, -, h1, hg⟩ := h l hl
        obtain ⟨h0', -, h1', -⟩ := h l' hl'
        have hg := hg l' hl'
        rw [← hm] at h0 h1 h0' h1' hg
        exact follow_ang m P _ _ l l' h0 h0' h1 h1' hg
    simp only at he
    rw [← hm] at he
    simp only [← meamDensity_eq] at hd
    have hc := HasDerivAt.comp m.now
      (h₂ := fun y => (meamEmbed b P.toEamPots (P.paircol + P.ntypes + n.typ) y).value)
      (h := fun t => meamDensity P (atomAt (m.path t (f.start + j)) n)) he hd
    simp only [sumEnergy, sumRate, List.map_cons, List.map_nil, List.sum_cons, List.sum_nil, add_zero]
    refine hc.congr_deriv ?_
    refine (rate_chained m.speed (f.start + j) _ _ _ ?_).symm
    intro t ht
    simp only [densTerms, List.mem_append, List.mem_map] at ht
    rcases ht with ⟨n, -, rfl⟩ | ⟨p, -, rfl⟩ <;> rfl

theorem ang_stress_sum (P : AngPots ℝ) (c : Conf ℝ) (k : Fin 6) :
    overAtoms c (angStress P) k = -sumStrain (termsFrom (angSite P) c.start c.atoms) (voigt k).2 (voigt k).1 := by
  have h := overAtoms_terms c (angSite P) (fun t => t.strain (voigt k).2 (voigt k).1)
  unfold sumStrain
  rw [← h]
  unfold overAtoms
  rw [sum_apply_fin, ← listSum_neg]
  congr 1
  apply List.map_congr_left
  intro p _
  unfold angStress angSite
  simp only [Pi.neg_apply, Pi.add_apply, List.map_append, List.sum_append, List.map_map, sum_apply_fin]
  congr 2
  · congr 1
    apply List.map_congr_left
    intro n _
    exact plainVirial_apply _ k
  · congr 1
    apply List.map_congr_left
    intro q _
    exact plainVirial_apply _ k

theorem meam_stress_sum (b : Build) (P : AngPots ℝ) (c : Conf ℝ) (k : Fin 6) :
    overAtoms c (meamStress b P) k = -sumStrain (termsFrom (meamSite b P) c.start c.atoms) (voigt k).2 (voigt k).1 := by
  have h := overAtoms_terms c (meamSite b P) (fun t => t.strain (voigt k).2 (voigt k).1)
  unfold sumStrain
  rw [← h]
  unfold overAtoms
  rw [sum_apply_fin, ← listSum_neg]
  congr 1
  apply List.map_congr_left
  intro p _
  unfold meamStress meamSite
  simp only [Pi.neg_apply, Pi.add_apply, List.map_append, List.sum_append, List.map_map, sum_apply_fin, List.map_cons,
    List.map_nil, List.sum_cons, List.sum_nil, add_zero]
  congr 2
  · congr 1
    apply List.map_congr_left
    intro n _
    exact plainVirial_apply _ k
  · exact plainVirial_apply _ k

/-- **C54, angular potentials**: the forces are minus the gradient of the energy. -/
theorem C54_ang_forces (b : Build) (P : AngPots ℝ) (ew sw : ℝ) (ci : Nat) (fv : FV ℝ) (f : Conf ℝ) (ts : List Node)
    (x : Nat → V3 ℝ) (hu : f.uf = true) (hm : Mutual f ts) (hs : AngSmooth P f ts x) (j : Nat) (n : Node)
    (hj : ts[j]? = some n) (hw : 0 ≤ n.absforce) (k : Fin 3) :
    HasDerivAt (fun t => reportedEnergy (fun c => (angConf b P ew sw ci c fv).1) ci (place f ts (moved x (f.start + j) k t)))
      (-reportedForce b (angConf b P ew sw ci (place f ts x) fv).1 f n.absforce (f.start + j) k) (x (f.start + j) k) :=
  conservative_force (res := fun c => (angConf b P ew sw ci c fv).1)
    (fun rf => ang_leaves b P ew sw ci fv (placeWith f ts rf) hu) (ang_force_sum P f ts x hm)
    (fun a k => ang_follows P f ts x hs _ (moving_path x a k)) j n hj hw k

/-- **C54, MEAM**: the forces are minus the gradient of the energy. -/
theorem C54_meam_forces (b : Build) (P : AngPots ℝ) (ew sw : ℝ) (ci : Nat) (fv : FV ℝ) (f : Conf ℝ) (ts : List Node)
    (x : Nat → V3 ℝ) (hu : f.uf = true) (hm : Mutual f ts) (hs : MeamSmooth b P f ts x) (j : Nat) (n : Node)
    (hj : ts[j]? = some n) (hw : 0 ≤ n.absforce) (k : Fin 3) :
    HasDerivAt (fun t => reportedEnergy (fun c => (meamConf b P ew sw ci c fv).1) ci (place f ts (moved x (f.start + j) k t)))
      (-reportedForce b (meamConf b P ew sw ci (place f ts x) fv).1 f n.absforce (f.start + j) k) (x (f.start + j) k) :=
  conservative_force (res := fun c => (meamConf b P ew sw ci c fv).1)
    (fun rf => meam_leaves b P ew sw ci fv (placeWith f ts rf) hu) (meam_force_sum b P f ts x hm)
    (fun a k => meam_follows b P f ts x hs _ (moving_path x a k)) j n hj hw k

theorem pairTerm_pulls {P : Pots ℝ} {i : Nat} {n : Neigh ℝ} {l : List (Neigh ℝ)} (hn : n ∈ l) :
    ∀ p ∈ (pairTerm false P i n).pulls, p.n ∈ l := by
  intro q hq
  simp only [pairTerm, List.mem_singleton] at hq
  rw [hq]; exact hn

theorem angTerm_pulls {P : AngPots ℝ} {i typ : Nat} {l : List (Neigh ℝ)} {p : Neigh ℝ × Neigh ℝ} (hp : p ∈ pairsOf l) :
    ∀ q ∈ (angTerm P i typ p.1 p.2).pulls, q.n ∈ l := by
  intro q hq
  obtain ⟨h1, h2⟩ := mem_pairsOf hp
  simp only [angTerm, List.mem_cons, List.not_mem_nil, or_false] at hq
  rcases hq with rfl | rfl
  · exact h1
  · exact h2

/-- The forces on the atoms of a configuration add up to zero: angular potentials. -/
theorem C54_ang_balance (b : Build) (P : AngPots ℝ) (ew sw : ℝ) (ci : Nat) (fv : FV ℝ) (f : Conf ℝ) (ts : List Node)
    (x : Nat → V3 ℝ) (hu : f.uf = true) (hm : Mutual f ts) (hw : ∀ n ∈ ts, 0 ≤ n.absforce) (k : Fin 3) :
    (ts.zipIdx.map fun p => reportedForce b (angConf b P ew sw ci (place f ts x) fv).1 f p.1.absforce
      (f.start + p.2) k).sum = 0 := by
  apply conservative_balance (res := fun c => (angConf b P ew sw ci c fv).1)
    (fun rf => ang_leaves b P ew sw ci fv (placeWith f ts rf) hu) (ang_force_sum P f ts x hm) hm _ hw k
  intro i a t ht
  simp only [angSite, List.mem_append, List.mem_map] at ht
  rcases ht with ⟨n, hn, rfl⟩ | ⟨p, hp, rfl⟩
  · exact ⟨rfl, pairTerm_pulls hn⟩
  · exact ⟨rfl, angTerm_pulls hp⟩

/-- The forces on the atoms of a configuration add up to zero: MEAM. -/
theorem C54_meam_balance (b : Build) (P : AngPots ℝ) (ew sw : ℝ) (ci : Nat) (fv : FV ℝ) (f : Conf ℝ) (ts : List Node)
    (x : Nat → V3 ℝ) (hu : f.uf = true) (hm : Mutual f ts) (hw : ∀ n ∈ ts, 0 ≤ n.absforce) (k : Fin 3) :
    (ts.zipIdx.map fun p => reportedForce b (meamConf b P ew sw ci (place f ts x) fv).1 f p.1.absforce
      (f.start + p.2) k).sum = 0 := by
  apply conservative_balance (res := fun c => (meamConf b P ew sw ci c fv).1)
    (fun rf => meam_leaves b P ew sw ci fv (placeWith f ts rf) hu) (meam_force_sum b P f ts x hm) hm _ hw k
  intro i a t ht
  simp only [meamSite, List.mem_append, List.mem_map, List.mem_singleton] at ht
  rcases ht with ⟨n, hn, rfl⟩ | rfl
  · exact ⟨rfl, pairTerm_pulls hn⟩
  · refine ⟨rfl, ?_⟩
    intro p hp
    simp only [embedTerm, chained, densTerms, List.mem_flatMap, List.mem_append, List.mem_map] at hp
    obtain ⟨t, ⟨n, hn, rfl⟩ | ⟨q, hq, rfl⟩, r, hr, rfl⟩ := hp
    · simp only [transTerm, List.mem_singleton] at hr
      rw [hr]; exact hn
    · exact angTerm_pulls hq r hr

/-- The stresses are minus the derivative of the energy with respect to strain, per volume: angular potentials. -/
theorem C54_ang_stress (b : Build) (P : AngPots ℝ) (ew sw : ℝ) (ci : Nat) (fv : FV ℝ) (f : Conf ℝ) (ts : List Node)
    (x : Nat → V3 ℝ) (hu : f.uf = true) (hb : b.stress = true) (hus : f.us = true) (hv : f.vol ≠ 0) (hne : ts ≠ [])
    (hs : AngSmooth P f ts x) (k : Fin 6) :
    HasDerivAt (fun e => reportedEnergy (fun c => (angConf b P ew sw ci c fv).1) ci
        (placeStrained f ts x (voigt k).2 (voigt k).1 e))
      (-reportedVirial (angConf b P ew sw ci (place f ts x) fv).1 ci f k) 0 :=
  conservative_stress (res := fun c => (angConf b P ew sw ci c fv).1)
    (fun rf => ang_leaves b P ew sw ci fv (placeWith f ts rf) hu) hne hb hus hv _ _ k
    (ang_stress_sum P (place f ts x) k) (ang_follows P f ts x hs _ (straining_path x _ _))

/-- The stresses are minus the derivative of the energy with respect to strain, per volume: MEAM. -/
theorem C54_meam_stress (b : Build) (P : AngPots ℝ) (ew sw : ℝ) (ci : Nat) (fv : FV ℝ) (f : Conf ℝ) (ts : List Node)
    (x : Nat → V3 ℝ) (hu : f.uf = true) (hb : b.stress = true) (hus : f.us = true) (hv : f.vol ≠ 0) (hne : ts ≠ [])
    (hs : MeamSmooth b P f ts x) (k : Fin 6) :
    HasDerivAt (fun e => reportedEnergy (fun c => (meamConf b P ew sw ci c fv).1) ci
        (placeStrained f ts x (voigt k).2 (voigt k).1 e))
      (-reportedVirial (meamConf b P ew sw ci (place f ts x) fv).1 ci f k) 0 :=
  conservative_stress (res := fun c => (meamConf b P ew sw ci c fv).1)
    (fun rf => meam_leaves b P ew sw ci fv (placeWith f ts rf) hu) hne hb hus hv _ _ k
    (meam_stress_sum b P (place f ts x) k) (meam_follows b P f ts x hs _ (straining_path x _ _))

/-- Embedding functions of MEAM: inside the tabulated range (with `APOT` also above 0.1) the slope is the derivative if
that holds for the tabulated function. -/
theorem C54_embed_inside (b : Build) (P : EamPots ℝ) (col : Nat) (y : ℝ) (h1 : P.beg col < y) (h2 : y < P.fin col)
    (h3 : 1 / 10 < y) (hd : HasDerivAt (P.val col) (P.grad col y) y) :
    HasDerivAt (fun y => (meamEmbed b P col y).value) (meamEmbed b P col y).grad y := by
  by_cases hr : b.rescale = true
  · have key : ∀ z, P.beg col < z → z < P.fin col → meamEmbed b P col z = ⟨z, P.val col z, P.grad col z, 0⟩ := by
      intro z z1 z2
      unfold meamEmbed
      simp only [if_pos hr, if_neg (not_lt.2 z1.le), if_neg (not_lt.2 z2.le)]
    rw [key y h1 h2]
    refine hd.congr_of_eventuallyEq ?_
    filter_upwards [lt_mem_nhds h1, gt_mem_nhds h2] with z z1 z2
    rw [key z z1 z2]
  · have e : meamEmbed b P col = embed b P col := by
      funext z
      unfold meamEmbed
      rw [if_neg hr]
    rw [e]
    exact C17_embed_inside b P col y h1 h2 h3 hd

/-- Without `RESCALE` the linear continuation on both sides has the right slope. -/
theorem C54_embed_outside (b : Build) (hb : b.rescale = false) (ha : b.apot = false) (P : EamPots ℝ) (col : Nat) (y : ℝ)
    (h0 : P.beg col ≤ P.fin col) (h : y < P.beg col ∨ P.fin col < y) :
    HasDerivAt (fun y => (meamEmbed b P col y).value) (meamEmbed b P col y).grad y := by
  have e : meamEmbed b P col = embed b P col := by
    funext z
    unfold meamEmbed
    rw [hb]
    rfl
  rw [e]
  exact C17_embed_outside b hb ha P col y h0 h

/-- Functions for the example: square functions with range 3, `cos²`, embedding function `y²`. -/
def anglePots : AngPots ℝ where
  fin := fun col => if col = 4 then 1000 else 3
  val := fun col r => if col = 4 ∨ col = 3 then r ^ 2 else (r - 3) ^ 2
  grad := fun col r => if col = 4 ∨ col = 3 then 2 * r else 2 * (r - 3)
  beg := fun _ => -1000
  step := fun _ => 1
  ana := fun _ y => (y ^ 2, 2 * y)
  paircol := 1
  ntypes := 3
  fcol := fun _ => 2
  gcol := fun _ => 3

theorem square_deriv (r : ℝ) : HasDerivAt (fun r : ℝ => r ^ 2) (2 * r) r := by
  refine ((hasDerivAt_id r).pow 2).congr_deriv ?_
  simp

theorem square_cut (r : ℝ) (h : r < 3) : CutSlope 3 (fun r : ℝ => (r - 3) ^ 2) (2 * (r - 3)) r := by
  unfold CutSlope
  rw [if_pos h]
  have := ((hasDerivAt_id r).sub_const 3).pow 2
  refine (this.congr_of_eventuallyEq ?_).congr_deriv (by simp)
  filter_upwards [gt_mem_nhds h] with z hz
  rw [if_pos hz]
  rfl

theorem triangle_cols : ∀ (j : Nat) (n : Node), triangle[j]? = some n → n.typ = 0 ∧ ∀ l ∈ n.links, l.col0 = 0 ∧ l.col1 = 0 := by
  intro j n hj
  match j, hj with
  | 0, hj =>
    simp only [triangle, List.getElem?_cons_zero, Option.some.injEq] at hj
    subst hj
    simp
  | 1, hj =>
    simp only [triangle, List.getElem?_cons_succ, List.getElem?_cons_zero, Option.some.injEq] at hj
    subst hj
    simp
  | 2, hj =>
    simp only [triangle, List.getElem?_cons_succ, List.getElem?_cons_zero, Option.some.injEq] at hj
    subst hj
    simp
  | j + 3, hj => simp [triangle] at hj

theorem angle_smooth : AngSmooth anglePots triangleConf triangle trianglePos := by
  intro j n hj l hl
  have h := triangle_dist j n hj l hl
  refine ⟨by linarith [h.1], ?_, ?_, ?_⟩
  · rw [((triangle_cols j n hj).2 l hl).1]
    exact square_cut _ (by linarith [h.2])
  · exact square_cut _ (by linarith [h.2])
  · intro l' _
    exact square_deriv _

/-- The molecule meets the hypotheses for angular potentials. -/
example : AngSmooth anglePots triangleConf triangle trianglePos ∧ Mutual triangleConf triangle ∧
    triangleConf.uf = true ∧ triangleConf.us = true ∧ triangleConf.vol ≠ 0 ∧ triangle ≠ [] :=
  ⟨angle_smooth, triangle_mutual, rfl, rfl, one_ne_zero, by simp [triangle]⟩

/-- And for MEAM (analytic embedding function). -/
example : MeamSmooth ⟨true, false, false, false, true, false⟩ anglePots triangleConf triangle trianglePos := by
  refine ⟨angle_smooth, ?_⟩
  intro j n hj
  obtain ⟨ht, hc⟩ := triangle_cols j n hj
  refine ⟨?_, ?_⟩
  · intro l hl
    have h := triangle_dist j n hj l hl
    rw [(hc l hl).2]
    exact square_cut _ (by linarith [h.2])
  · have e : ∀ y : ℝ, (meamEmbed ⟨true, false, false, false, true, false⟩ anglePots.toEamPots 4 y).value = y ^ 2 ∧
        (meamEmbed ⟨true, false, false, false, true, false⟩ anglePots.toEamPots 4 y).grad = 2 * y := by
      intro y
      unfold meamEmbed embed
      simp only [Bool.false_eq_true, if_false, if_true]
      by_cases h : y < anglePots.beg 4 ∨ anglePots.fin 4 < y ∨ y < 1 / 10
      · simp only [if_pos h]
        exact ⟨rfl, rfl⟩
      · simp only [if_neg h]
        simp [anglePots]
    rw [ht]
    show HasDerivAt (fun y => (meamEmbed _ anglePots.toEamPots 4 y).value) (meamEmbed _ anglePots.toEamPots 4 _).grad _
    simp only [e]
    exact square_deriv _

end Verif.Props
