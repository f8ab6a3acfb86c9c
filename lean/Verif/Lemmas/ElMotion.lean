/-
Rate of change of the energies of charges and fixed dipoles.
-/
import Verif.Lemmas.HalfMotion
import Verif.Lemmas.ForceElstat

set_option linter.unusedSectionVars false

namespace Verif.Spec

open Verif.Force Verif.Props

/-- `φ` up to the cutoff, 0 beyond. -/
noncomputable def cutAt (cut : ℝ) (φ : ℝ → ℝ) (r : ℝ) : ℝ := if r < cut then φ r else 0

/-- At distance `r` the members of the tail, cut off, are what their names say. -/
structure TailSmooth (dip : Bool) (E : Elec ℝ) (r : ℝ) : Prop where
  fn : HasDerivAt (cutAt E.cut fun r => (E.tail r).fn) (r * cutAt E.cut (fun r => (E.tail r).grad) r) r
  grad : dip = true → HasDerivAt (cutAt E.cut fun r => (E.tail r).grad) (r * cutAt E.cut (fun r => (E.tail r).ggrad) r) r
  term : dip = true → ∀ b c : ℝ, HasDerivAt (fun r => (E.srTerm r b c).1) (r * (E.srTerm r b c).2) r

theorem hasDerivAt_bondDir (M : Motion) (b : Bond) (h0 : (b.now M).n.r ≠ 0) (k : Fin 3) :
    HasDerivAt (fun t => (b.entryAt (M.path t)).n.distR k)
      ((M.speed (b.now M).own (b.now M).n k - (b.now M).n.distR k * rdot M (b.now M)) / (b.now M).n.r) M.now := by
  have h1 := M.deriv b.own b.l k h0
  have h2 := hasDerivAt_bondR M b h0
  refine (h1.div h2 h0).congr_deriv ?_
  have hd : (b.now M).n.distR k = M.path M.now b.own b.l k / (b.now M).n.r := rfl
  have hr : (b.entryAt (M.path M.now)).n.r = (b.now M).n.r := rfl
  have hs : M.speed b.own (placedAt (M.path M.now b.own b.l) b.l) k = M.speed (b.now M).own (b.now M).n k := rfl
  rw [hd, hr, hs]
  field_simp

theorem hasDerivAt_dotDir (M : Motion) (b : Bond) (h0 : (b.now M).n.r ≠ 0) (m : V3 ℝ) :
    HasDerivAt (fun t => dot3 m (b.entryAt (M.path t)).n.distR)
      ((dot3 m (M.speed (b.now M).own (b.now M).n) - dot3 m (b.now M).n.distR * rdot M (b.now M)) / (b.now M).n.r) M.now := by
  have h := HasDerivAt.fun_sum (u := Finset.univ) (fun k (_ : k ∈ Finset.univ) => (hasDerivAt_bondDir M b h0 k).const_mul (m k))
  refine HasDerivAt.congr_deriv (f := fun t => dot3 m (b.entryAt (M.path t)).n.distR) h ?_
  simp only [dot3, Fin.sum_univ_three]
  field_simp
  ring

theorem hasDerivAt_dotVec (M : Motion) (b : Bond) (h0 : (b.now M).n.r ≠ 0) (m : V3 ℝ) :
    HasDerivAt (fun t => dot3 m (b.entryAt (M.path t)).n.dist) (dot3 m (M.speed (b.now M).own (b.now M).n)) M.now :=
  HasDerivAt.fun_sum (u := Finset.univ) (fun k (_ : k ∈ Finset.univ) => (hasDerivAt_bondVec M b h0 k).const_mul (m k))

theorem hasDerivAt_bondFn (M : Motion) (b : Bond) (h0 : (b.now M).n.r ≠ 0) {φ : ℝ → ℝ} {d : ℝ}
    (h : HasDerivAt φ d (b.now M).n.r) :
    HasDerivAt (fun t => φ (b.entryAt (M.path t)).n.r) (d * rdot M (b.now M)) M.now :=
  HasDerivAt.comp M.now (h₂ := φ) h (hasDerivAt_bondR M b h0)

/-- Two charges. -/
theorem rate_coulomb (M : Motion) (E : Elec ℝ) (bd : Bond) (dip : Bool) (h0 : (bd.now M).n.r ≠ 0)
    (hs : TailSmooth dip E (bd.now M).n.r) :
    HasDerivAt (fun t => coulombEnergy E (bd.entryAt (M.path t))) (entryRate M (coulombVec E) (bd.now M)) M.now := by
  have h1 := (hasDerivAt_bondFn M bd h0 hs.fn).const_mul (share (bd.now M) * (E.charge bd.otyp * E.charge bd.l.typ))
  refine (h1.congr_of_eventuallyEq (Filter.Eventually.of_forall fun t => ?_)).congr_deriv ?_
  · unfold coulombEnergy cutAt
    show (if (bd.entryAt (M.path t)).n.r < E.cut then share (bd.now M) * (E.charge bd.otyp * E.charge bd.l.typ *
      (E.tail (bd.entryAt (M.path t)).n.r).fn) else 0) = _
    simp only
    split
    · ring
    · ring
  · unfold entryRate coulombVec cutAt rdot
    have hd : ∀ k, (bd.now M).n.dist k = (bd.now M).n.distR k * (bd.now M).n.r := fun _ => rfl
    have e1 : (bd.now M).otyp = bd.otyp := rfl
    have e2 : (bd.now M).n.typ = bd.l.typ := rfl
    simp only [hd, Fin.sum_univ_three, e1, e2]
    split
    · ring
    · ring

/-- Charge and dipole. -/
theorem rate_chargeDipole (M : Motion) (E : Elec ℝ) (p : Nat → V3 ℝ) (bd : Bond) (h0 : (bd.now M).n.r ≠ 0)
    (hs : TailSmooth true E (bd.now M).n.r) :
    HasDerivAt (fun t => chargeDipole E p (bd.entryAt (M.path t))) (entryRate M (chargeDipoleVec E p) (bd.now M)) M.now := by
  set m := crossMoment E p (bd.now M) with hm
  have hdamp : HasDerivAt (fun r => 1 + (dampTerm E { (bd.now M).n with r := r }).1)
      ((bd.now M).n.r * (dampTerm E (bd.now M).n).2) (bd.now M).n.r := by
    unfold dampTerm
    by_cases hz : E.b bd.l.col0 = 0 ∨ E.c bd.l.col0 = 0
    · have hz' : E.b (bd.now M).n.col0 = 0 ∨ E.c (bd.now M).n.col0 = 0 := hz
      simp only [if_pos hz', mul_zero]
      exact hasDerivAt_const _ _
    · have hz' : ¬(E.b (bd.now M).n.col0 = 0 ∨ E.c (bd.now M).n.col0 = 0) := hz
      simp only [if_neg hz']
      exact (hs.term rfl _ _).const_add 1
  have h1 := hasDerivAt_bondFn M bd h0 (hs.grad rfl)
  have h2 := hasDerivAt_bondFn M bd h0 hdamp
  have h3 := (h1.mul h2).mul (hasDerivAt_dotVec M bd h0 m)
  refine (h3.congr_of_eventuallyEq (Filter.Eventually.of_forall fun t => ?_)).congr_deriv ?_
  · show (if (bd.entryAt (M.path t)).n.r < E.cut then coupling E (bd.entryAt (M.path t)).n *
      dot3 m (bd.entryAt (M.path t)).n.dist else 0) = _
    have e1 : dampTerm E (bd.entryAt (M.path t)).n = dampTerm E { (bd.now M).n with r := (bd.entryAt (M.path t)).n.r } := rfl
    unfold coupling
    rw [e1]
    simp only [cutAt, Pi.mul_apply]
    split
    · rfl
    · ring
  · have hd : ∀ k, (bd.now M).n.dist k = (bd.now M).n.distR k * (bd.now M).n.r := fun _ => rfl
    have e0 : dampTerm E { (bd.now M).n with r := (bd.now M).n.r } = dampTerm E (bd.now M).n := rfl
    have e1 : (bd.entryAt (M.path M.now)) = bd.now M := rfl
    unfold entryRate chargeDipoleVec
    rw [← hm, e1]
    simp only [e1, e0, cutAt, coupling, couplingSlope, Pi.mul_apply]
    by_cases hr : (bd.now M).n.r < E.cut
    · simp only [if_pos hr, rdot, dot3, Fin.sum_univ_three, hd]
      ring
    · simp only [if_neg hr]
      simp

/-- Two dipoles. -/
theorem rate_dipoleDipole (M : Motion) (E : Elec ℝ) (p : Nat → V3 ℝ) (bd : Bond) (h0 : (bd.now M).n.r ≠ 0)
    (hs : TailSmooth true E (bd.now M).n.r) :
    HasDerivAt (fun t => dipoleDipole E p (bd.entryAt (M.path t))) (entryRate M (dipoleDipoleVec E p) (bd.now M)) M.now := by
  set m := moment E p bd.otyp bd.own with hm
  set m' := moment E p bd.l.typ bd.l.nr with hm'
  have h1 := hasDerivAt_bondFn M bd h0 (hs.grad rfl)
  have h2 := ((hasDerivAt_dotDir M bd h0 m).mul (hasDerivAt_dotDir M bd h0 m')).const_mul 3
  have h3 := (h1.mul (h2.sub_const (dot3 m m'))).const_mul (share (bd.now M))
  refine (h3.congr_of_eventuallyEq (Filter.Eventually.of_forall fun t => ?_)).congr_deriv ?_
  · show (if (bd.entryAt (M.path t)).n.r < E.cut then share (bd.now M) * ((E.tail (bd.entryAt (M.path t)).n.r).grad *
      (3 * dot3 m (bd.entryAt (M.path t)).n.distR * dot3 m' (bd.entryAt (M.path t)).n.distR - dot3 m m')) else 0) = _
    simp only [cutAt, Pi.mul_apply]
    split
    · ring
    · ring
  · have hd : ∀ k, (bd.now M).n.dist k = (bd.now M).n.distR k * (bd.now M).n.r := fun _ => rfl
    have e1 : (bd.entryAt (M.path M.now)) = bd.now M := rfl
    have e2 : moment E p (bd.now M).otyp (bd.now M).own = m := rfl
    have e3 : moment E p (bd.now M).n.typ (bd.now M).n.nr = m' := rfl
    unfold entryRate dipoleDipoleVec
    rw [e1]
    simp only [e1, e2, e3, cutAt, Pi.mul_apply]
    by_cases hr : (bd.now M).n.r < E.cut
    · simp only [if_pos hr, rdot, dot3, Fin.sum_univ_three, hd]
      field_simp
      ring
    · simp only [if_neg hr]
      simp

/-- All entries. -/
theorem rate_elEntries (M : Motion) (dip : Bool) (E : Elec ℝ) (p : Nat → V3 ℝ) (f : Conf ℝ) (ts : List Node)
    (hs : ∀ b ∈ bondsFrom f.start ts, (b.now M).n.r ≠ 0 ∧ TailSmooth dip E (b.now M).n.r) :
    HasDerivAt (fun t => ((entries (placeWith f ts (M.path t))).map (elEntry dip E p)).sum)
      (totalRate M (elEntryVec dip E p) f ts) M.now := by
  unfold totalRate
  simp only [entries_placeWith, List.map_map]
  refine hasDerivAt_listSum (bondsFrom f.start ts) (fun b t => elEntry dip E p (b.entryAt (M.path t)))
    (fun b => entryRate M (elEntryVec dip E p) (b.now M)) M.now ?_
  intro b hb
  obtain ⟨h0, h1⟩ := hs b hb
  have hc := rate_coulomb M E b dip h0 h1
  cases dip with
  | false =>
    simp only [elEntry, Bool.false_eq_true, if_false, add_zero]
    refine hc.congr_deriv ?_
    simp [entryRate, elEntryVec]
  | true =>
    have h2 := hc.add ((rate_chargeDipole M E p b h0 h1).add (rate_dipoleDipole M E p b h0 h1))
    refine HasDerivAt.congr_deriv (f := fun t => elEntry true E p (b.entryAt (M.path t))) h2 ?_
    simp only [entryRate, elEntryVec, if_true, Pi.add_apply, Fin.sum_univ_three]
    ring

/-- The energy at fixed dipoles. -/
theorem rate_elTotal (M : Motion) (dip : Bool) (P : Pots ℝ) (E : Elec ℝ) (p : Nat → V3 ℝ) (f : Conf ℝ) (ts : List Node)
    (hp : ∀ b ∈ bondsFrom f.start ts, (b.now M).n.r ≠ 0 ∧ (b.now M).n.r ≠ P.fin b.l.col0 ∧
      ((b.now M).n.r < P.fin b.l.col0 → HasDerivAt (P.val b.l.col0) (P.grad b.l.col0 (b.now M).n.r) (b.now M).n.r))
    (hs : ∀ b ∈ bondsFrom f.start ts, TailSmooth dip E (b.now M).n.r) :
    HasDerivAt (fun t => elTotal dip P E p (placeWith f ts (M.path t))) (totalRate M (elVec dip P E p) f ts) M.now := by
  have h1 := rate_pair M P f ts hp
  have h2 := rate_elEntries M dip E p f ts (fun b hb => ⟨(hp b hb).1, hs b hb⟩)
  have hconst : ∀ rf rf' : Nat → Link → V3 ℝ, ∀ (us : List Node) (i j : Nat),
      ((placeWithFrom rf i us).zipIdx j).map (fun ak => atomEnergy dip E p ak.1 (f.start + ak.2)) =
      ((placeWithFrom rf' i us).zipIdx j).map (fun ak => atomEnergy dip E p ak.1 (f.start + ak.2)) := by
    intro rf rf' us
    induction us with
    | nil => intro i j; rfl
    | cons u us ih =>
      intro i j
      simp only [placeWithFrom, List.zipIdx_cons, List.map_cons, ih (i + 1) (j + 1)]
      rfl
  have h3 := (h1.add h2).add_const (((placeWith f ts (M.path M.now)).atoms.zipIdx.map fun ak =>
    atomEnergy dip E p ak.1 (f.start + ak.2)).sum)
  refine (h3.congr_of_eventuallyEq (Filter.Eventually.of_forall fun t => ?_)).congr_deriv ?_
  · unfold elTotal
    congr 1
    show ((placeWith f ts (M.path t)).atoms.zipIdx.map fun ak => atomEnergy dip E p ak.1 (f.start + ak.2)).sum = _
    congr 1
    exact hconst _ _ ts f.start 0
  · rw [← totalRate_add]
    rfl

end Verif.Spec
