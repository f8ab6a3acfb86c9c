/-
C61  Tersoff forces and stresses belong to the energy.

Energy, forces and stresses are taken from the force vector filled by `calc_forces` of `src/force_tersoff.c`, in both
variants (`TERSOFF` and `TERSOFFMOD`).  Positions are varied at fixed neighbour lists; strain deforms positions and
lattice vectors together.
-/
import Verif.Lemmas.TersoffMod
import Verif.Props.C53

namespace Verif.Props

open Verif.Force hiding Cell
open Verif.Neighbors Verif.Spec

/-- No two atoms coincide and no distance equals the cut-off radius. -/
def OffRadius (cut : Nat → ℝ) (f : Conf ℝ) (ts : List Node) (x : Nat → V3 ℝ) : Prop :=
  ∀ j n, ts[j]? = some n → ∀ l ∈ n.links,
    length (reach x (f.start + j) l) ≠ 0 ∧ length (reach x (f.start + j) l) ≠ cut l.col0

section
variable {P : Pots ℝ} {T : Nat → Neigh ℝ → List (Neigh ℝ) → Term ℝ}

theorem bond_force_sum (hT : ∀ i nj os, (T i nj os).own = i) (f : Conf ℝ) (ts : List Node) (x : Nat → V3 ℝ) (hm : Mutual f ts) :
    overAtoms (place f ts x) (bondForceSum P T) =
      fun a => sumForce (termsFrom (bondSite P T) f.start (place f ts x).atoms) a := by
  unfold bondForceSum
  rw [overAtoms_add, owner_sum true P f ts x hm, ← overAtoms_add]
  funext a
  unfold sumForce
  have h := overAtoms_terms (place f ts x) (bondSite P T) (fun t => pullForce t.own t.pulls)
  have h' : (fun t : Term ℝ => t.force a) = fun t => pullForce t.own t.pulls a := funext fun t => term_force t a
  rw [h', ← sum_apply_nat]
  have e : termsFrom (bondSite P T) f.start (place f ts x).atoms = termsFrom (bondSite P T) (place f ts x).start (place f ts x).atoms := rfl
  rw [e, ← h]
  refine congrFun ?_ a
  apply overAtoms_congr
  intro j at' _
  simp only [bondSite, List.map_append, List.sum_append, List.map_map, Function.comp_def, hT]
  rfl

theorem bond_follows (m : Motion) (s : Nat) (ts : List Node)
    (hP : ∀ j n, ts[j]? = some n → ∀ l ∈ n.links, length (m.path m.now (s + j) l) ≠ 0 ∧
      CutSlope (P.fin l.col0) (P.val l.col0) (P.grad l.col0 (length (m.path m.now (s + j) l))) (length (m.path m.now (s + j) l)))
    (hT : ∀ j n, ts[j]? = some n → ∀ l ∈ n.links, ∀ ls : List Link, (∀ l' ∈ ls, l' ∈ n.links) → HasDerivAt
      (fun t => (T (s + j) (placedAt (m.path t (s + j) l) l) (ls.map fun l' => placedAt (m.path t (s + j) l') l')).energy)
      ((T (s + j) (placedAt (m.path m.now (s + j) l) l) (ls.map fun l' => placedAt (m.path m.now (s + j) l') l')).rate m.speed) m.now) :
    Follows m (bondSite P T) s ts := by
  intro j n hj
  unfold bondSite
  simp only [sumEnergy_append, sumRate_append]
  refine HasDerivAt.add ?_ ?_
  · apply follow_map
    intro l hl
    obtain ⟨h0, h1⟩ := hP j n hj l hl
    exact follow_pair m true P _ l h0 h1
  · apply follow_others m (T (s + j))
    intro p hp
    obtain ⟨h1, h2⟩ := mem_othersOf hp
    exact hT j n hj p.1 h1 p.2 (by simpa using h2)

theorem bond_site (hT : ∀ i nj os, (T i nj os).own = i) (hp : ∀ i nj os, ∀ q ∈ (T i nj os).pulls, q.n = nj ∨ q.n ∈ os) :
    ∀ i a, ∀ t ∈ bondSite P T i a, t.own = i ∧ ∀ p ∈ t.pulls, p.n ∈ a.neigh := by
  intro i a t ht
  simp only [bondSite, List.mem_append, List.mem_map] at ht
  rcases ht with ⟨n, hn, rfl⟩ | ⟨p, hpp, rfl⟩
  · refine ⟨rfl, ?_⟩
    intro q hq
    simp only [pairTerm, List.mem_singleton] at hq
    rw [hq]; exact hn
  · refine ⟨hT _ _ _, ?_⟩
    intro q hq
    obtain ⟨h1, h2⟩ := mem_othersOf hpp
    rcases hp _ _ _ q hq with h | h
    · rw [h]; exact h1
    · simpa using h2 _ h

theorem bond_stress_sum (c : Conf ℝ) (k : Fin 6)
    (hT : ∀ j a, c.atoms[j]? = some a → ∀ p ∈ othersOf [] a.neigh, ∀ α β,
      (T (c.start + j) p.1 p.2).strain α β = (T (c.start + j) p.1 p.2).strain β α) :
    overAtoms c (bondStress P T) k = -sumStrain (termsFrom (bondSite P T) c.start c.atoms) (voigt k).2 (voigt k).1 := by
  have h := overAtoms_terms c (bondSite P T) (fun t => t.strain (voigt k).2 (voigt k).1)
  unfold sumStrain
  rw [← h]
  unfold overAtoms
  rw [sum_apply_fin, ← listSum_neg]
  congr 1
  apply List.map_congr_left
  intro p hp
  obtain ⟨p1, p2, p3⟩ := List.mem_zipIdx hp
  have hT' := hT (p.2 - c.start) p.1 (by rw [List.getElem?_eq_getElem (by omega)]; rw [← p3])
  rw [show c.start + (p.2 - c.start) = p.2 by omega] at hT'
  unfold bondStress bondSite
  simp only [Pi.neg_apply, Pi.add_apply, List.map_append, List.sum_append, List.map_map, sum_apply_fin]
  congr 2
  · congr 1
    apply List.map_congr_left
    intro n _
    exact plainVirial_apply _ k
  · congr 1
    apply List.map_congr_left
    intro q hq
    exact meanVirial_apply _ (hT' q hq) k

end

/-! ### Tersoff -/

theorem ters_leaves (b : Build) (p : TersPars ℝ) (ew sw : ℝ) (ci : Nat) (fv : FV ℝ) (c : Conf ℝ) (hu : c.uf = true) :
    Leaves b (fun c => (tersConf b realLib p ew sw ci c fv).1) ci (bondSite (tersPots realLib p) (tersTerm realLib p))
      (bondForceSum (tersPots realLib p) (tersTerm realLib p)) (bondStress (tersPots realLib p) (tersTerm realLib p)) c := by
  obtain ⟨h1, h2, h3⟩ := fullConf_spec b (tersAtom b realLib p c) _ _ _ (tersAtom_plus b realLib p c hu) ew sw ci c fv
  refine ⟨h1, h2 hu, ?_⟩
  intro hb hs k
  have := h3 hb hu hs k
  simp only [hb, hs, Bool.and_self, if_true] at this
  exact this

theorem tersTerm_own (p : TersPars ℝ) (i : Nat) (nj : Neigh ℝ) (os : List (Neigh ℝ)) : (tersTerm realLib p i nj os).own = i := by
  unfold tersTerm
  by_cases h : nj.r < p.S nj.col0 ∧ p.B nj.col0 ≠ 0
  · rw [if_pos h]; rfl
  · rw [if_neg h]

theorem bondTerm_pulls (i : Nat) (nj : Neigh ℝ) (os : List (Neigh ℝ)) (E : ℝ) (u : V3 ℝ) (ez : ℝ) (zj zk : Neigh ℝ → V3 ℝ) :
    ∀ q ∈ (bondTerm i nj os E u ez zj zk).pulls, q.n = nj ∨ q.n ∈ os := by
  intro q hq
  simp only [bondTerm, List.mem_cons, List.mem_map] at hq
  rcases hq with rfl | ⟨nk, hk, rfl⟩
  · exact Or.inl rfl
  · exact Or.inr hk

theorem tersTerm_pulls (p : TersPars ℝ) (i : Nat) (nj : Neigh ℝ) (os : List (Neigh ℝ)) :
    ∀ q ∈ (tersTerm realLib p i nj os).pulls, q.n = nj ∨ q.n ∈ os := by
  unfold tersTerm
  by_cases h : nj.r < p.S nj.col0 ∧ p.B nj.col0 ≠ 0
  · rw [if_pos h]; exact bondTerm_pulls _ _ _ _ _ _ _ _
  · rw [if_neg h]
    simp

theorem ters_pair_slope (p : TersPars ℝ) (col : Nat) {r : ℝ} (h : r ≠ p.S col) :
    CutSlope ((tersPots realLib p).fin col) ((tersPots realLib p).val col) ((tersPots realLib p).grad col r) r := by
  rcases lt_or_gt_of_ne h with h | h
  · apply cutSlope_inside _ h
    have hx := (((hasDerivAt_id r).const_mul (-p.lambda col)).exp).const_mul (p.A col)
    have hd := (hasDerivAt_tersF p col r).mul hx
    refine (hd.congr_of_eventuallyEq (Filter.Eventually.of_forall fun t => ?_)).congr_deriv ?_
    · simp only [tersPots, Pi.mul_apply, realLib, id]
      ring
    · simp only [tersPots, realLib, id]
      ring
  · exact cutSlope_outside h

theorem ters_follows (p : TersPars ℝ) (hp : ∀ col, TersOk p col) (f : Conf ℝ) (ts : List Node) (x : Nat → V3 ℝ)
    (hs : OffRadius p.S f ts x) (m : Motion) (hm : m.path m.now = reach x) :
    Follows m (bondSite (tersPots realLib p) (tersTerm realLib p)) f.start ts := by
  apply bond_follows
  · intro j n hj l hl
    obtain ⟨h0, h1⟩ := hs j n hj l hl
    rw [hm]
    exact ⟨h0, ters_pair_slope p _ h1⟩
  · intro j n hj l hl ls hls
    apply follow_ters m p hp
    · rw [hm]; exact hs j n hj l hl
    · intro l' hl'
      rw [hm]; exact hs j n hj l' (hls l' hl')

/-- The forces are minus the gradient of the energy. -/
theorem C61_forces (b : Build) (p : TersPars ℝ) (hp : ∀ col, TersOk p col) (ew sw : ℝ) (ci : Nat) (fv : FV ℝ) (f : Conf ℝ)
    (ts : List Node) (x : Nat → V3 ℝ) (hu : f.uf = true) (hm : Mutual f ts) (hs : OffRadius p.S f ts x) (j : Nat) (n : Node)
    (hj : ts[j]? = some n) (hw : 0 ≤ n.absforce) (k : Fin 3) :
    HasDerivAt (fun t => reportedEnergy (fun c => (tersConf b realLib p ew sw ci c fv).1) ci (place f ts (moved x (f.start + j) k t)))
      (-reportedForce b (tersConf b realLib p ew sw ci (place f ts x) fv).1 f n.absforce (f.start + j) k) (x (f.start + j) k) :=
  conservative_force (res := fun c => (tersConf b realLib p ew sw ci c fv).1)
    (fun rf => ters_leaves b p ew sw ci fv (placeWith f ts rf) hu) (bond_force_sum (tersTerm_own p) f ts x hm)
    (fun a k => ters_follows p hp f ts x hs _ (moving_path x a k)) j n hj hw k

/-- The forces on the atoms of a configuration add up to zero. -/
theorem C61_balance (b : Build) (p : TersPars ℝ) (ew sw : ℝ) (ci : Nat) (fv : FV ℝ) (f : Conf ℝ) (ts : List Node)
    (x : Nat → V3 ℝ) (hu : f.uf = true) (hm : Mutual f ts) (hw : ∀ n ∈ ts, 0 ≤ n.absforce) (k : Fin 3) :
    (ts.zipIdx.map fun q => reportedForce b (tersConf b realLib p ew sw ci (place f ts x) fv).1 f q.1.absforce
      (f.start + q.2) k).sum = 0 :=
  conservative_balance (res := fun c => (tersConf b realLib p ew sw ci c fv).1)
    (fun rf => ters_leaves b p ew sw ci fv (placeWith f ts rf) hu) (bond_force_sum (tersTerm_own p) f ts x hm) hm
    (bond_site (tersTerm_own p) (tersTerm_pulls p)) hw k

/-- The stresses are minus the derivative of the energy with respect to strain, per volume. -/
theorem C61_stress (b : Build) (p : TersPars ℝ) (hp : ∀ col, TersOk p col) (ew sw : ℝ) (ci : Nat) (fv : FV ℝ) (f : Conf ℝ)
    (ts : List Node) (x : Nat → V3 ℝ) (hu : f.uf = true) (hb : b.stress = true) (hus : f.us = true) (hv : f.vol ≠ 0) (hne : ts ≠ [])
    (hs : OffRadius p.S f ts x) (k : Fin 6) :
    HasDerivAt (fun e => reportedEnergy (fun c => (tersConf b realLib p ew sw ci c fv).1) ci
        (placeStrained f ts x (voigt k).2 (voigt k).1 e))
      (-reportedVirial (tersConf b realLib p ew sw ci (place f ts x) fv).1 ci f k) 0 :=
  conservative_stress (res := fun c => (tersConf b realLib p ew sw ci c fv).1)
    (fun rf => ters_leaves b p ew sw ci fv (placeWith f ts rf) hu) hne hb hus hv _ _ k
    (bond_stress_sum (place f ts x) k fun _ _ _ _ _ => tersTerm_sym p _ _ _) (ters_follows p hp f ts x hs _ (straining_path x _ _))

/-! ### Modified Tersoff -/

theorem mod_leaves (b : Build) (p : TersModPars ℝ) (ew sw : ℝ) (ci : Nat) (fv : FV ℝ) (c : Conf ℝ) (hu : c.uf = true) :
    Leaves b (fun c => (modConf b realLib p ew sw ci c fv).1) ci (bondSite (modPots realLib p) (modTerm realLib p))
      (bondForceSum (modPots realLib p) (modTerm realLib p)) (bondStress (modPots realLib p) (modTerm realLib p)) c := by
  obtain ⟨h1, h2, h3⟩ := fullConf_spec b (modAtom b realLib p c) _ _ _ (modAtom_plus b realLib p c hu) ew sw ci c fv
  refine ⟨h1, h2 hu, ?_⟩
  intro hb hs k
  have := h3 hb hu hs k
  simp only [hb, hs, Bool.and_self, if_true] at this
  exact this

theorem modTerm_own (p : TersModPars ℝ) (i : Nat) (nj : Neigh ℝ) (os : List (Neigh ℝ)) : (modTerm realLib p i nj os).own = i := by
  unfold modTerm
  by_cases h : nj.r < p.R2 nj.col0 ∧ p.B nj.col0 ≠ 0
  · rw [if_pos h]; rfl
  · rw [if_neg h]

theorem modTerm_pulls (p : TersModPars ℝ) (i : Nat) (nj : Neigh ℝ) (os : List (Neigh ℝ)) :
    ∀ q ∈ (modTerm realLib p i nj os).pulls, q.n = nj ∨ q.n ∈ os := by
  unfold modTerm
  by_cases h : nj.r < p.R2 nj.col0 ∧ p.B nj.col0 ≠ 0
  · rw [if_pos h]; exact bondTerm_pulls _ _ _ _ _ _ _ _
  · rw [if_neg h]
    simp

theorem mod_pair_slope (p : TersModPars ℝ) (col : Nat) {r : ℝ} (h : r ≠ p.R2 col) :
    CutSlope ((modPots realLib p).fin col) ((modPots realLib p).val col) ((modPots realLib p).grad col r) r := by
  rcases lt_or_gt_of_ne h with h | h
  · apply cutSlope_inside _ h
    have hx := (((hasDerivAt_id r).const_mul (-p.lambda col)).exp).const_mul (p.A col)
    have hd := (hasDerivAt_modF p col r).mul hx
    refine (hd.congr_of_eventuallyEq (Filter.Eventually.of_forall fun t => ?_)).congr_deriv ?_
    · simp only [modPots, Pi.mul_apply, realLib, id]
      ring
    · simp only [modPots, realLib, id]
      ring
  · exact cutSlope_outside h

theorem mod_follows (p : TersModPars ℝ) (hp : ∀ col, ModOk p col) (f : Conf ℝ) (ts : List Node) (x : Nat → V3 ℝ)
    (hs : OffRadius p.R2 f ts x) (m : Motion) (hm : m.path m.now = reach x) :
    Follows m (bondSite (modPots realLib p) (modTerm realLib p)) f.start ts := by
  apply bond_follows
  · intro j n hj l hl
    obtain ⟨h0, h1⟩ := hs j n hj l hl
    rw [hm]
    exact ⟨h0, mod_pair_slope p _ h1⟩
  · intro j n hj l hl ls hls
    apply follow_mod m p hp
    · rw [hm]; exact hs j n hj l hl
    · intro l' hl'
      rw [hm]; exact hs j n hj l' (hls l' hl')

/-- The forces are minus the gradient of the energy. -/
theorem C61_mod_forces (b : Build) (p : TersModPars ℝ) (hp : ∀ col, ModOk p col) (ew sw : ℝ) (ci : Nat) (fv : FV ℝ) (f : Conf ℝ)
    (ts : List Node) (x : Nat → V3 ℝ) (hu : f.uf = true) (hm : Mutual f ts) (hs : OffRadius p.R2 f ts x) (j : Nat) (n : Node)
    (hj : ts[j]? = some n) (hw : 0 ≤ n.absforce) (k : Fin 3) :
    HasDerivAt (fun t => reportedEnergy (fun c => (modConf b realLib p ew sw ci c fv).1) ci (place f ts (moved x (f.start + j) k t)))
      (-reportedForce b (modConf b realLib p ew sw ci (place f ts x) fv).1 f n.absforce (f.start + j) k) (x (f.start + j) k) :=
  conservative_force (res := fun c => (modConf b realLib p ew sw ci c fv).1)
    (fun rf => mod_leaves b p ew sw ci fv (placeWith f ts rf) hu) (bond_force_sum (modTerm_own p) f ts x hm)
    (fun a k => mod_follows p hp f ts x hs _ (moving_path x a k)) j n hj hw k

/-- The forces on the atoms of a configuration add up to zero. -/
theorem C61_mod_balance (b : Build) (p : TersModPars ℝ) (ew sw : ℝ) (ci : Nat) (fv : FV ℝ) (f : Conf ℝ) (ts : List Node)
    (x : Nat → V3 ℝ) (hu : f.uf = true) (hm : Mutual f ts) (hw : ∀ n ∈ ts, 0 ≤ n.absforce) (k : Fin 3) :
    (ts.zipIdx.map fun q => reportedForce b (modConf b realLib p ew sw ci (place f ts x) fv).1 f q.1.absforce
      (f.start + q.2) k).sum = 0 :=
  conservative_balance (res := fun c => (modConf b realLib p ew sw ci c fv).1)
    (fun rf => mod_leaves b p ew sw ci fv (placeWith f ts rf) hu) (bond_force_sum (modTerm_own p) f ts x hm) hm
    (bond_site (modTerm_own p) (modTerm_pulls p)) hw k

theorem mod_placed_sym (p : TersModPars ℝ) (f : Conf ℝ) (ts : List Node) (x : Nat → V3 ℝ) (hs : OffRadius p.R2 f ts x) :
    ∀ j a, (place f ts x).atoms[j]? = some a → ∀ q ∈ othersOf [] a.neigh, ∀ α β,
      (modTerm realLib p ((place f ts x).start + j) q.1 q.2).strain α β = (modTerm realLib p ((place f ts x).start + j) q.1 q.2).strain β α := by
  intro j a hj q hq
  rw [← placeWith_reach] at hj
  simp only [placeWith, placeWithFrom_getElem?, Option.map_eq_some_iff] at hj
  obtain ⟨n, hn, rfl⟩ := hj
  have key : ∀ m ∈ n.links.map (fun l => placedAt (reach x (f.start + j) l) l), m.r ≠ 0 ∧ ∀ c, m.dist c = m.distR c * m.r := by
    intro m hm
    simp only [List.mem_map] at hm
    obtain ⟨l, hl, rfl⟩ := hm
    exact ⟨(hs j n hn l hl).1, fun c => rfl⟩
  obtain ⟨h1, h2⟩ := mem_othersOf hq
  apply modTerm_sym
  · exact (key _ h1).2
  · exact (key _ h1).1
  · intro nk hk
    exact key nk (by simpa using h2 nk hk)

/-- The stresses are minus the derivative of the energy with respect to strain, per volume. -/
theorem C61_mod_stress (b : Build) (p : TersModPars ℝ) (hp : ∀ col, ModOk p col) (ew sw : ℝ) (ci : Nat) (fv : FV ℝ) (f : Conf ℝ)
    (ts : List Node) (x : Nat → V3 ℝ) (hu : f.uf = true) (hb : b.stress = true) (hus : f.us = true) (hv : f.vol ≠ 0) (hne : ts ≠ [])
    (hs : OffRadius p.R2 f ts x) (k : Fin 6) :
    HasDerivAt (fun e => reportedEnergy (fun c => (modConf b realLib p ew sw ci c fv).1) ci
        (placeStrained f ts x (voigt k).2 (voigt k).1 e))
      (-reportedVirial (modConf b realLib p ew sw ci (place f ts x) fv).1 ci f k) 0 :=
  conservative_stress (res := fun c => (modConf b realLib p ew sw ci c fv).1)
    (fun rf => mod_leaves b p ew sw ci fv (placeWith f ts rf) hu) hne hb hus hv _ _ k
    (bond_stress_sum (place f ts x) k (mod_placed_sym p f ts x hs)) (mod_follows p hp f ts x hs _ (straining_path x _ _))

/-- A Tersoff potential with cut-off between 3 and 4. -/
noncomputable def someTersoff : TersPars ℝ :=
  ⟨fun _ => 1000, fun _ => 300, fun _ => 2, fun _ => 1, fun _ => 1, fun _ => 1 / 2, fun _ => 4, fun _ => 2, fun _ => -1, fun _ => 4, fun _ => 3, fun _ => 1⟩

theorem triangle_off (cut : Nat → ℝ) (h : ∀ col, 2 < cut col) : OffRadius cut triangleConf triangle trianglePos := by
  intro j n hj l hl
  have := triangle_dist j n hj l hl
  have := h l.col0
  exact ⟨by linarith, by linarith⟩

/-- The molecule of C53 with a Tersoff potential meets the hypotheses. -/
example : (∀ col, TersOk someTersoff col) ∧ OffRadius someTersoff.S triangleConf triangle trianglePos ∧ Mutual triangleConf triangle := by
  refine ⟨fun col => ⟨?_, ?_, ?_, ?_, ?_⟩, triangle_off _ fun _ => ?_, triangle_mutual⟩ <;> norm_num [someTersoff]

/-- The silicon potential of Kumagai et al. (rounded) meets the conditions on the parameters. -/
example : ∀ col, ModOk ⟨fun _ => 3281, fun _ => 121, fun _ => 3, fun _ => 1, fun _ => 1, fun _ => 1 / 2, fun _ => 2, fun _ => 1,
    fun _ => 1 / 5, fun _ => 730418, fun _ => 1000000, fun _ => 1, fun _ => 26, fun _ => -9 / 25, fun _ => 27 / 10, fun _ => 33 / 10⟩ col := by
  intro col
  refine ⟨?_, ?_, ?_, ?_, ?_, 0, ?_⟩ <;> norm_num

end Verif.Props
