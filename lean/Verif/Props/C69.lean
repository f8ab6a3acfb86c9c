/-
C69  Energy, forces and stresses of induced dipoles.

The build with `DIPOLE`.  Forces and stresses are the derivatives of the energy at fixed dipoles.  They would be the
derivatives of the energy with dipoles that follow the atoms if the energy were stationary at the self-consistent
dipoles; it is not, because the fields of the dipoles enter the dipoles with the wrong sign.
-/
import Verif.Props.C67
import Verif.Props.C68

set_option linter.unusedSectionVars false

namespace Verif.Props

open Verif.Force Verif.Spec Verif.Tails

section
variable {K : Type*} [Field K] [LinearOrder K] [IsStrictOrderedRing K]

/-- The energy is that of pair interactions, charges, charges and dipoles, dipoles, and self energies, with the dipoles the
iteration ends with. -/
theorem C69_energy (b : Build) (P : Pots K) (E : Elec K) (ew sw : K) (ci : Nat) (c : Conf K) (hh : HalfList c)
    (hal : Aligned c) (ht : TypesMatch c) (hq : PolarCharged E c) (s : ElState K) :
    let r := elConf b true P E ew sw ci c s
    r.1.fv.energy ci = elTotal true P E r.1.dip.pInd c / (c.atoms.length : K) - c.energy0 := by
  intro r
  obtain ⟨-, -, h, -⟩ := elConf_spec b true P E ew sw ci c hh hal (fun _ => ht) (fun _ => hq) s
  exact (congrFun h ci).trans (Function.update_self _ _ _)

/-- Contribution of a configuration to the objective. -/
theorem C69_error (b : Build) (P : Pots K) (E : Elec K) (ew sw : K) (ci : Nat) (c : Conf K) (hh : HalfList c)
    (hal : Aligned c) (ht : TypesMatch c) (hq : PolarCharged E c) (s : ElState K) :
    let r := elConf b true P E ew sw ci c s
    let D := elVec true P E r.1.dip.pInd
    r.2 = vecConfError b D D (elTotal true P E r.1.dip.pInd c) ew sw c := by
  intro r D
  obtain ⟨-, h2, -, -, -, h6⟩ := elConf_spec b true P E ew sw ci c hh hal (fun _ => ht) (fun _ => hq) s
  rw [show r.2 = _ from h6]
  exact conf_err_vec b D _ ew sw c _ h2

end

/-- Forces are minus the gradient of the energy at fixed dipoles. -/
theorem C69_force_partial (b : Build) (P : Pots ℝ) (E : Elec ℝ) (ew sw : ℝ) (ci : Nat) (s : ElState ℝ) (f : Conf ℝ)
    (ts : List Node) (x : Nat → V3 ℝ) (hu : f.uf = true) (hh : HalfList (place f ts x)) (ht : TypesMatch (place f ts x))
    (hq : PolarCharged E (place f ts x)) (hs : PairSmooth P f ts x) (he : ElSmooth true E f ts x)
    (hw : ∀ n ∈ ts, 0 ≤ n.absforce) (j : Nat) (n : Node) (hj : ts[j]? = some n) (k : Fin 3) :
    let r := elConf b true P E ew sw ci (place f ts x) s
    HasDerivAt (fun t => elTotal true P E r.1.dip.pInd (place f ts (moved x (f.start + j) k t)))
      (-reportedForce b r.1.fv f n.absforce (f.start + j) k) (x (f.start + j) k) := by
  intro r
  have hM := moving_now x (f.start + j) k
  have h := rate_elTotal (moving x (f.start + j) k) true P E r.1.dip.pInd f ts (pairSmooth_now hs hM) (elSmooth_now he hM)
  have hal : Aligned (place f ts x) := by rw [← placeWith_reach]; exact aligned_placeWith f ts _
  obtain ⟨-, p4, -⟩ := elConf_spec b true P E ew sw ci (place f ts x) hh hal (fun _ => ht) (fun _ => hq) s
  have hat : (place f ts x).atoms[j]? =
      some (⟨n.typ, n.links.map (placed x (f.start + j)), n.absforce, n.contrib⟩ : Atom ℝ) := by
    simp only [place, placeFrom_getElem?, hj, Option.map_some]
  have hF := p4 j _ hat
  have e1 : (place f ts x).uf = true := hu
  have e2 : (place f ts x).start = f.start := rfl
  have e3 : (place f ts x).force0 = f.force0 := rfl
  rw [if_pos e1, e2, e3] at hF
  refine (h.congr_of_eventuallyEq (Filter.Eventually.of_forall fun t => ?_)).congr_deriv ?_
  · show elTotal true P E _ (place f ts (moved x (f.start + j) k t)) = _
    rw [← placeWith_reach]
    rfl
  · rw [totalRate_moving]
    congr 1
    unfold reportedForce
    rw [show r.1.fv.force (f.start + j) = _ from hF]
    have : (1 / 10 + n.absforce : ℝ) ≠ 0 := by linarith [hw n (List.mem_of_getElem? hj)]
    unfold scaled
    by_cases hb : b.fweight = true
    · simp only [hb, Bool.and_self, if_true, forceEps, Pi.sub_apply]
      rw [div_mul_cancel₀ _ this, sub_add_cancel]
    · simp [hb, r]

/-- Stresses are the derivative of the energy with respect to the strain at fixed dipoles. -/
theorem C69_stress_partial (b : Build) (P : Pots ℝ) (E : Elec ℝ) (ew sw : ℝ) (ci : Nat) (s : ElState ℝ) (f : Conf ℝ)
    (ts : List Node) (x : Nat → V3 ℝ) (hb : b.stress = true) (hu : f.uf = true) (hus : f.us = true) (hv : f.vol ≠ 0)
    (hh : HalfList (place f ts x)) (ht : TypesMatch (place f ts x)) (hq : PolarCharged E (place f ts x))
    (hs : PairSmooth P f ts x) (he : ElSmooth true E f ts x) (k : Fin 6) :
    let r := elConf b true P E ew sw ci (place f ts x) s
    HasDerivAt (fun e => elTotal true P E r.1.dip.pInd (placeStrained f ts x (voigt k).2 (voigt k).1 e))
      (-reportedVirial r.1.fv ci f k) 0 := by
  intro r
  have hM := straining_now x (voigt k).2 (voigt k).1
  have h := rate_elTotal (straining x (voigt k).2 (voigt k).1) true P E r.1.dip.pInd f ts (pairSmooth_now hs hM)
    (elSmooth_now he hM)
  refine h.congr_deriv ?_
  have hal : Aligned (place f ts x) := by rw [← placeWith_reach]; exact aligned_placeWith f ts _
  obtain ⟨-, -, -, p4, -⟩ := elConf_spec b true P E ew sw ci (place f ts x) hh hal (fun _ => ht) (fun _ => hq) s
  rw [totalRate_straining]
  have e1 : (place f ts x).uf = f.uf := rfl
  have e2 : (place f ts x).us = f.us := rfl
  have e3 : (place f ts x).vol = f.vol := rfl
  have e4 : (place f ts x).stress0 = f.stress0 := rfl
  unfold reportedVirial
  rw [show r.1.fv.stress = _ from p4, if_pos hb, Function.update_self, e1, e2, hu, hus, e3, e4]
  simp only [Bool.and_self, if_true, sub_add_cancel]
  rw [div_mul_cancel₀ _ hv]
  unfold vecStress
  rw [neg_neg]
  congr 1
  apply List.map_congr_left
  intro e _
  ring

/-- The tails of the program meet the hypothesis at every distance except 0. -/
theorem C69_program_smooth (cut kappa : ℝ) (hc : cut ≠ 0) (q alpha b c : Nat → ℝ) (mix tol : ℝ) (P : Pots ℝ) (f : Conf ℝ)
    (ts : List Node) (x : Nat → V3 ℝ) (hs : PairSmooth P f ts x) :
    ElSmooth true (progElec true false cut kappa q alpha b c mix tol) f ts x :=
  fun e he => progElec_smooth true false (by simp) cut kappa hc q alpha b c mix tol e.n.r (hs e he).1

/-- The forces on the atoms of a configuration add up to zero. -/
theorem C69_balance (b : Build) (P : Pots ℝ) (E : Elec ℝ) (ew sw : ℝ) (ci : Nat) (s : ElState ℝ) (c : Conf ℝ)
    (hu : c.uf = true) (hh : HalfList c) (hal : Aligned c) (ht : TypesMatch c) (hq : PolarCharged E c)
    (hw : ∀ a ∈ c.atoms, 0 ≤ a.absforce) (k : Fin 3) :
    (c.atoms.zipIdx.map fun ak =>
      reportedForce b (elConf b true P E ew sw ci c s).1.fv c ak.1.absforce (c.start + ak.2) k).sum = 0 := by
  obtain ⟨-, p4, -⟩ := elConf_spec b true P E ew sw ci c hh hal (fun _ => ht) (fun _ => hq) s
  exact forces_balance b (elConf b true P E ew sw ci c s).1.fv _ c hu hh hw p4 k

/-! ### Derivative with respect to the dipoles -/

/-- Types of neighbours are those of the atoms. -/
def TypesAgree (c : Conf ℝ) : Prop :=
  ∀ e ∈ entries c, ∀ j a, c.atoms[j]? = some a → e.n.nr = c.start + j → a.typ = e.n.typ

theorem ownType {i : Nat} {as : List (Atom ℝ)} {e : Entry ℝ} (he : e ∈ entriesFrom i as) (j : Nat) (a : Atom ℝ)
    (ha : as[j]? = some a) (ho : e.own = i + j) : a.typ = e.otyp := by
  induction as generalizing i j with
  | nil => simp [entriesFrom] at he
  | cons a' as ih =>
    simp only [entriesFrom, List.mem_append, List.mem_map] at he
    rcases he with ⟨n, -, rfl⟩ | he
    · have : j = 0 := by simpa using ho
      subst this
      simp only [List.getElem?_cons_zero, Option.some.injEq] at ha
      rw [← ha]
    · cases j with
      | zero =>
        have := (entriesFrom_ge he).1
        omega
      | succ j =>
        rw [List.getElem?_cons_succ] at ha
        exact ih he j ha (by omega)

/-- A sum over the polarisable atoms of sums over entries as a sum over entries. -/
theorem polarSum_entries (E : Elec ℝ) (c : Conf ℝ) (hh : HalfList c) (hta : TypesAgree c) (A B : Entry ℝ → Nat → ℝ → ℝ) :
    polarSum E c (fun α i => ((entries c).map fun e => (if i = e.own then A e i α else 0) + if i = e.n.nr then B e i α else 0).sum)
      = ((entries c).map fun e => (if E.alpha e.otyp = 0 then 0 else A e e.own (E.alpha e.otyp)) +
        if E.alpha e.n.typ = 0 then 0 else B e e.n.nr (E.alpha e.n.typ)).sum := by
  unfold polarSum
  set d : Atom ℝ := ⟨0, [], 0, false⟩
  rw [sum_zipIdx c.atoms (fun a j => if E.alpha a.typ = 0 then 0 else ((entries c).map fun e =>
    (if c.start + j = e.own then A e (c.start + j) (E.alpha a.typ) else 0) +
      if c.start + j = e.n.nr then B e (c.start + j) (E.alpha a.typ) else 0).sum) 0 d]
  have h1 : ∀ i, (if E.alpha (c.atoms.getD i d).typ = 0 then 0 else ((entries c).map fun e =>
      (if c.start + (0 + i) = e.own then A e (c.start + (0 + i)) (E.alpha (c.atoms.getD i d).typ) else 0) +
      if c.start + (0 + i) = e.n.nr then B e (c.start + (0 + i)) (E.alpha (c.atoms.getD i d).typ) else 0).sum) =
      (1 : ℝ) * ((entries c).map fun e => (if c.start + i = e.own then (if E.alpha (c.atoms.getD i d).typ = 0 then 0 else
        A e (c.start + i) (E.alpha (c.atoms.getD i d).typ)) else 0) +
      if c.start + i = e.n.nr then (if E.alpha (c.atoms.getD i d).typ = 0 then 0 else
        B e (c.start + i) (E.alpha (c.atoms.getD i d).typ)) else 0).sum := by
    intro i
    rw [one_mul, Nat.zero_add]
    by_cases h : E.alpha (c.atoms.getD i d).typ = 0
    · simp only [if_pos h, ite_self, add_zero, List.map_const', List.sum_replicate, smul_zero]
    · simp only [if_neg h]
  simp only [h1]
  rw [sum_mul_listSum (Finset.range c.atoms.length) (entries c) (fun _ => (1 : ℝ)) (fun i e =>
    (if c.start + i = e.own then (if E.alpha (c.atoms.getD i d).typ = 0 then 0 else
        A e (c.start + i) (E.alpha (c.atoms.getD i d).typ)) else 0) +
      if c.start + i = e.n.nr then (if E.alpha (c.atoms.getD i d).typ = 0 then 0 else
        B e (c.start + i) (E.alpha (c.atoms.getD i d).typ)) else 0)]
  congr 1
  apply List.map_congr_left
  intro e he
  simp only [one_mul, Finset.sum_add_distrib]
  have r2 := hh e he
  have r1 := entriesFrom_ge he
  have key : ∀ (a : Nat) (t : Nat) (G : Nat → ℝ → ℝ), c.start ≤ a → a < c.start + c.atoms.length →
      (∀ j b, c.atoms[j]? = some b → a = c.start + j → b.typ = t) →
      ∑ i ∈ Finset.range c.atoms.length, (if c.start + i = a then (if E.alpha (c.atoms.getD i d).typ = 0 then 0 else
        G (c.start + i) (E.alpha (c.atoms.getD i d).typ)) else 0) = if E.alpha t = 0 then 0 else G a (E.alpha t) := by
    intro a t G ha1 ha2 hb
    rw [Finset.sum_eq_single (a - c.start)]
    · rw [if_pos (by omega)]
      have hlt : a - c.start < c.atoms.length := by omega
      have := hb (a - c.start) _ (List.getElem?_eq_getElem hlt) (by omega)
      rw [List.getD_eq_getElem?_getD, List.getElem?_eq_getElem hlt, Option.getD_some, this, show c.start + (a - c.start) = a by omega]
    · intro i _ hi
      rw [if_neg (by omega)]
    · intro h
      rw [Finset.mem_range] at h
      omega
  rw [key e.own e.otyp (A e) r1.1 r1.2 (fun j b hb ho => ownType he j b hb ho),
    key e.n.nr e.n.typ (B e) (by omega) (by omega) (hta e he)]

theorem polarSum_add (E : Elec ℝ) (c : Conf ℝ) (f g : ℝ → Nat → ℝ) :
    polarSum E c (fun α i => f α i + g α i) = polarSum E c f + polarSum E c g := by
  unfold polarSum
  rw [← List.sum_map_add]
  congr 1
  apply List.map_congr_left
  intro ak _
  split
  · rw [add_zero]
  · rfl

/-- What the derivative of the energy with respect to the dipole of atom `i` is, if its polarisability is `α`. -/
noncomputable def dipoleForce (E : Elec ℝ) (c : Conf ℝ) (p : Nat → V3 ℝ) (α : ℝ) (i : Nat) : V3 ℝ := fun k =>
  (p i k - shortMoment E c i k) / α - staticField E c i k + dipoleField E c p i k

theorem dot3_add_right (a b c : V3 ℝ) : dot3 a (b + c) = dot3 a b + dot3 a c := by
  simp only [dot3, Fin.sum_univ_three, Pi.add_apply]; ring

/-- Sum over entries of the interactions, varied. -/
theorem entry_variation (E : Elec ℝ) (hsr : ∀ r a b c, E.srValue r a b c = a * (E.srTerm r b c).1) (p u : Nat → V3 ℝ)
    (e : Entry ℝ) (hal : ∀ k, e.n.dist k = e.n.distR k * e.n.r) (hn : e.n.nr ≠ e.own) (t : ℝ) :
    chargeDipole E (fun i k => p i k + t * u i k) e + dipoleDipole E (fun i k => p i k + t * u i k) e =
    chargeDipole E p e + dipoleDipole E p e + t * (
      (if E.alpha e.otyp = 0 then 0 else dot3 (u e.own) fun k =>
        (if e.n.r < E.cut ∧ E.alpha e.otyp ≠ 0 ∧ E.alpha e.n.typ ≠ 0 then dipoleTerm (E.tail e.n.r).grad (p e.n.nr) e.n.distR k
          else 0) - (if e.n.r < E.cut then share e * ((E.tail e.n.r).grad * e.n.dist k * E.charge e.n.typ) else 0) -
        (if e.n.r < E.cut ∧ E.b e.n.col0 ≠ 0 ∧ E.c e.n.col0 ≠ 0 then (E.tail e.n.r).grad * e.n.r * e.n.distR k *
          (E.charge e.n.typ * E.srValue e.n.r (E.alpha e.otyp) (E.b e.n.col0) (E.c e.n.col0)) else 0) / E.alpha e.otyp) +
      if E.alpha e.n.typ = 0 then 0 else dot3 (u e.n.nr) fun k =>
        (if e.n.r < E.cut ∧ E.alpha e.otyp ≠ 0 ∧ E.alpha e.n.typ ≠ 0 then dipoleTerm (E.tail e.n.r).grad (p e.own) e.n.distR k
          else 0) + (if e.n.r < E.cut then share e * ((E.tail e.n.r).grad * e.n.dist k * E.charge e.otyp) else 0) +
        (if e.n.r < E.cut ∧ E.b e.n.col0 ≠ 0 ∧ E.c e.n.col0 ≠ 0 then (E.tail e.n.r).grad * e.n.r * e.n.distR k *
          (E.charge e.otyp * E.srValue e.n.r (E.alpha e.n.typ) (E.b e.n.col0) (E.c e.n.col0)) else 0) / E.alpha e.n.typ) +
    t ^ 2 * dipoleDipole E u e := by
  have hD : ∀ (q α : ℝ) (k : Fin 3), α ≠ 0 → (if E.b e.n.col0 ≠ 0 ∧ E.c e.n.col0 ≠ 0 then
      (E.tail e.n.r).grad * e.n.r * e.n.distR k * (q * (α * (E.srTerm e.n.r (E.b e.n.col0) (E.c e.n.col0)).1)) else 0) / α =
      (E.tail e.n.r).grad * e.n.dist k * q * (dampTerm E e.n).1 := by
    intro q α k hα
    unfold dampTerm
    rw [hal]
    by_cases h : E.b e.n.col0 ≠ 0 ∧ E.c e.n.col0 ≠ 0
    · have h' : ¬(E.b e.n.col0 = 0 ∨ E.c e.n.col0 = 0) := by tauto
      rw [if_pos h, if_neg h']
      field_simp
    · have h' : E.b e.n.col0 = 0 ∨ E.c e.n.col0 = 0 := by tauto
      rw [if_neg h, if_pos h']
      simp
  unfold chargeDipole dipoleDipole
  by_cases hr : e.n.r < E.cut
  · simp only [hr, true_and, if_true, hsr, share, if_neg hn, coupling]
    have hm : ∀ typ a, moment E (fun i k => p i k + t * u i k) typ a = fun k => moment E p typ a k + t * moment E u typ a k := by
      intro typ a
      unfold moment
      split
      · funext k; simp
      · rfl
    have hc : crossMoment E (fun i k => p i k + t * u i k) e = fun k => crossMoment E p e k + t * crossMoment E u e k := by
      funext k
      unfold crossMoment
      rw [hm, hm]
      ring
    rw [hm, hm, hc]
    unfold crossMoment
    generalize hg : (E.tail e.n.r).grad = g at *
    by_cases h1 : E.alpha e.otyp = 0
    · have m1 : ∀ w : Nat → V3 ℝ, moment E w e.otyp e.own = 0 := fun w => if_pos h1
      simp only [m1]
      by_cases h2 : E.alpha e.n.typ = 0
      · have m2 : ∀ w : Nat → V3 ℝ, moment E w e.n.typ e.n.nr = 0 := fun w => if_pos h2
        simp only [m2, h1, h2, if_true, dot3, Fin.sum_univ_three, Pi.zero_apply]
        ring
      · have m2 : ∀ w : Nat → V3 ℝ, moment E w e.n.typ e.n.nr = w e.n.nr := fun w => if_neg h2
        simp only [m2, h1, if_neg h2, hD _ _ _ h2, if_true, ne_eq, not_true_eq_false, false_and, if_false, dot3, Fin.sum_univ_three,
          Pi.zero_apply]
        ring
    · have m1 : ∀ w : Nat → V3 ℝ, moment E w e.otyp e.own = w e.own := fun w => if_neg h1
      simp only [m1]
      by_cases h2 : E.alpha e.n.typ = 0
      · have m2 : ∀ w : Nat → V3 ℝ, moment E w e.n.typ e.n.nr = 0 := fun w => if_pos h2
        simp only [m2, if_neg h1, hD _ _ _ h1, h2, if_true, ne_eq, not_true_eq_false, and_false, if_false, dot3, Fin.sum_univ_three,
          Pi.zero_apply]
        ring
      · have m2 : ∀ w : Nat → V3 ℝ, moment E w e.n.typ e.n.nr = w e.n.nr := fun w => if_neg h2
        have h12 : E.alpha e.otyp ≠ 0 ∧ E.alpha e.n.typ ≠ 0 := ⟨h1, h2⟩
        simp only [m2, if_neg h1, if_neg h2, if_pos h12, hD _ _ _ h1, hD _ _ _ h2, dipoleTerm, dot3, Fin.sum_univ_three]
        ring
  · simp only [hr, false_and, if_false]
    simp [dot3]

theorem dot3_listSum {ι : Type*} (v : V3 ℝ) (l : List ι) (X : ι → V3 ℝ) :
    dot3 v (fun k => (l.map fun e => X e k).sum) = (l.map fun e => dot3 v (X e)).sum := by
  induction l with
  | nil => simp [dot3]
  | cons e l ih =>
    rw [List.map_cons, List.sum_cons, ← ih]
    simp only [List.map_cons, List.sum_cons, dot3, Fin.sum_univ_three]
    ring

theorem dot3_ite (v : V3 ℝ) (q : Prop) [Decidable q] (w : V3 ℝ) : (if q then dot3 v w else 0) = dot3 v (if q then w else 0) := by
  split
  · rfl
  · simp [dot3]

/-- Derivative of the energy with respect to the dipoles at fixed positions, in an arbitrary direction `u`. -/
theorem C69_variation (P : Pots ℝ) (E : Elec ℝ) (hsr : ∀ r a b c, E.srValue r a b c = a * (E.srTerm r b c).1) (c : Conf ℝ)
    (hh : HalfList c) (hal : Aligned c) (hta : TypesAgree c) (hn : ∀ e ∈ entries c, e.n.nr ≠ e.own) (p u : Nat → V3 ℝ) :
    HasDerivAt (fun t : ℝ => elTotal true P E (fun i k => p i k + t * u i k) c)
      (polarSum E c fun α i => dot3 (u i) (dipoleForce E c p α i)) 0 := by
  -- the parts of the derivative that belong to one entry
  set A : Entry ℝ → Nat → ℝ → ℝ := fun e i α => dot3 (u i) fun k =>
    (if e.n.r < E.cut ∧ E.alpha e.otyp ≠ 0 ∧ E.alpha e.n.typ ≠ 0 then dipoleTerm (E.tail e.n.r).grad (p e.n.nr) e.n.distR k
      else 0) - (if e.n.r < E.cut then share e * ((E.tail e.n.r).grad * e.n.dist k * E.charge e.n.typ) else 0) -
    (if e.n.r < E.cut ∧ E.b e.n.col0 ≠ 0 ∧ E.c e.n.col0 ≠ 0 then if E.alpha e.otyp ≠ 0 then
      (E.tail e.n.r).grad * e.n.r * e.n.distR k *
      (E.charge e.n.typ * E.srValue e.n.r (E.alpha e.otyp) (E.b e.n.col0) (E.c e.n.col0)) else 0 else 0) / α with hA
  set B : Entry ℝ → Nat → ℝ → ℝ := fun e i α => dot3 (u i) fun k =>
    (if e.n.r < E.cut ∧ E.alpha e.otyp ≠ 0 ∧ E.alpha e.n.typ ≠ 0 then dipoleTerm (E.tail e.n.r).grad (p e.own) e.n.distR k
      else 0) + (if e.n.r < E.cut then share e * ((E.tail e.n.r).grad * e.n.dist k * E.charge e.otyp) else 0) +
    (if e.n.r < E.cut ∧ E.b e.n.col0 ≠ 0 ∧ E.c e.n.col0 ≠ 0 then if E.alpha e.n.typ ≠ 0 then
      (E.tail e.n.r).grad * e.n.r * e.n.distR k *
      (E.charge e.otyp * E.srValue e.n.r (E.alpha e.n.typ) (E.b e.n.col0) (E.c e.n.col0)) else 0 else 0) / α with hB
  have hent : ∀ t, ((entries c).map (elEntry true E fun i k => p i k + t * u i k)).sum =
      ((entries c).map (elEntry true E p)).sum + t * ((entries c).map fun e =>
        (if E.alpha e.otyp = 0 then 0 else A e e.own (E.alpha e.otyp)) +
        if E.alpha e.n.typ = 0 then 0 else B e e.n.nr (E.alpha e.n.typ)).sum +
      t ^ 2 * ((entries c).map (dipoleDipole E u)).sum := by
    intro t
    rw [← list_mul_sum, ← list_mul_sum, ← List.sum_map_add, ← List.sum_map_add]
    congr 1
    apply List.map_congr_left
    intro e he
    have hv := entry_variation E hsr p u e (hal e he) (hn e he) t
    simp only [elEntry, if_true]
    rw [hv, hA, hB]
    by_cases h1 : E.alpha e.otyp = 0 <;> by_cases h2 : E.alpha e.n.typ = 0 <;>
      simp only [h1, h2, ne_eq, not_true_eq_false, not_false_eq_true, if_true, if_false] <;> ring
  have hat : ∀ t, (c.atoms.zipIdx.map fun ak => atomEnergy true E (fun i k => p i k + t * u i k) ak.1 (c.start + ak.2)).sum =
      (c.atoms.zipIdx.map fun ak => atomEnergy true E p ak.1 (c.start + ak.2)).sum +
      t * polarSum E c (fun α i => dot3 (u i) (p i) / α) + t ^ 2 * polarSum E c (fun α i => dot3 (u i) (u i) / (2 * α)) := by
    intro t
    unfold polarSum
    rw [← list_mul_sum, ← list_mul_sum, ← List.sum_map_add, ← List.sum_map_add]
    congr 1
    apply List.map_congr_left
    intro ak _
    unfold atomEnergy
    by_cases h : E.alpha ak.1.typ = 0
    · simp [h]
    · simp only [h, ne_eq, not_false_eq_true, and_self, if_true, if_false, dot3, Fin.sum_univ_three]
      field_simp
      ring
  have hlin : polarSum E c (fun α i => dot3 (u i) (dipoleForce E c p α i)) =
      polarSum E c (fun α i => dot3 (u i) (p i) / α) + ((entries c).map fun e =>
        (if E.alpha e.otyp = 0 then 0 else A e e.own (E.alpha e.otyp)) +
        if E.alpha e.n.typ = 0 then 0 else B e e.n.nr (E.alpha e.n.typ)).sum := by
    rw [← polarSum_entries E c hh hta A B, ← polarSum_add]
    apply polarSum_congr
    intro j a _ _
    generalize E.alpha a.typ = α
    generalize c.start + j = i
    have h1 : dipoleForce E c p α i = fun k => p i k / α + ((entries c).map fun e =>
        (if i = e.own then
          (if e.n.r < E.cut ∧ E.alpha e.otyp ≠ 0 ∧ E.alpha e.n.typ ≠ 0 then
            dipoleTerm (E.tail e.n.r).grad (p e.n.nr) e.n.distR k else 0) -
          (if e.n.r < E.cut then share e * ((E.tail e.n.r).grad * e.n.dist k * E.charge e.n.typ) else 0) -
          (if e.n.r < E.cut ∧ E.b e.n.col0 ≠ 0 ∧ E.c e.n.col0 ≠ 0 then if E.alpha e.otyp ≠ 0 then
            (E.tail e.n.r).grad * e.n.r * e.n.distR k *
            (E.charge e.n.typ * E.srValue e.n.r (E.alpha e.otyp) (E.b e.n.col0) (E.c e.n.col0)) else 0 else 0) / α else 0) +
        (if i = e.n.nr then
          (if e.n.r < E.cut ∧ E.alpha e.otyp ≠ 0 ∧ E.alpha e.n.typ ≠ 0 then
            dipoleTerm (E.tail e.n.r).grad (p e.own) e.n.distR k else 0) +
          (if e.n.r < E.cut then share e * ((E.tail e.n.r).grad * e.n.dist k * E.charge e.otyp) else 0) +
          (if e.n.r < E.cut ∧ E.b e.n.col0 ≠ 0 ∧ E.c e.n.col0 ≠ 0 then if E.alpha e.n.typ ≠ 0 then
            (E.tail e.n.r).grad * e.n.r * e.n.distR k *
            (E.charge e.otyp * E.srValue e.n.r (E.alpha e.n.typ) (E.b e.n.col0) (E.c e.n.col0)) else 0 else 0) / α
          else 0)).sum := by
      funext k
      unfold dipoleForce staticField shortMoment dipoleField
      have hsum : ∀ (l : List (Entry ℝ)) (f1 f2 f3 g : Entry ℝ → ℝ) (x : ℝ), (∀ e ∈ l, g e = f3 e - f2 e - f1 e / α) →
          (x - (l.map f1).sum) / α - (l.map f2).sum + (l.map f3).sum = x / α + (l.map g).sum := by
        intro l f1 f2 f3 g x
        induction l generalizing x with
        | nil => intro _; simp
        | cons e l ih =>
          intro hg
          have := ih x fun e' he' => hg e' (List.mem_cons_of_mem _ he')
          simp only [List.map_cons, List.sum_cons]
          rw [hg e (by simp)]
          linear_combination this
      apply hsum
      intro e he
      have hne := hn e he
      by_cases h0 : e.n.r < E.cut
      swap
      · simp only [h0, false_and, if_false, ite_self, zero_div, sub_zero, add_zero]
      by_cases h2 : i = e.own
      · have h3 : ¬(i = e.n.nr) := fun h => hne (h.symm.trans h2)
        have hne' : ¬(e.own = e.n.nr) := fun h => hne h.symm
        simp only [h2, h0, hne', true_and, if_true, if_false, ne_eq]
        by_cases h4 : E.alpha e.otyp = 0 <;> by_cases h5 : E.alpha e.n.typ = 0 <;>
          by_cases h6 : ¬E.b e.n.col0 = 0 ∧ ¬E.c e.n.col0 = 0 <;>
          simp only [h4, h5, h6, not_true_eq_false, not_false_eq_true,
            true_and, and_true, false_and, and_false, if_true, if_false, and_self] <;> ring
      · by_cases h3 : i = e.n.nr
        · simp only [h2, h3, h0, hne, false_and, true_and, if_true, if_false, ne_eq, not_false_eq_true]
          by_cases h4 : E.alpha e.otyp = 0 <;> by_cases h5 : E.alpha e.n.typ = 0 <;>
            by_cases h6 : ¬E.b e.n.col0 = 0 ∧ ¬E.c e.n.col0 = 0 <;>
            simp only [h4, h5, h6, not_true_eq_false, not_false_eq_true,
              true_and, and_true, false_and, and_false, if_true, if_false, and_self] <;> ring
        · simp only [h2, h3, h0, false_and, if_true, if_false, sub_zero, add_zero, mul_zero, ite_self, zero_div]
    rw [h1]
    have h2 : ∀ (X : Entry ℝ → V3 ℝ), dot3 (u i) (fun k => p i k / α + ((entries c).map fun e => X e k).sum) =
        dot3 (u i) (p i) / α + ((entries c).map fun e => dot3 (u i) (X e)).sum := by
      intro X
      rw [← dot3_listSum]
      simp only [dot3, Fin.sum_univ_three]
      ring
    rw [h2 fun e k => _]
    congr 1
    congr 1
    apply List.map_congr_left
    intro e he
    have hne := hn e he
    rw [hA, hB]
    by_cases h3 : i = e.own
    · have h4 : ¬(i = e.n.nr) := fun h => hne (h.symm.trans h3)
      simp only [if_pos h3, if_neg h4, add_zero]
    · by_cases h4 : i = e.n.nr
      · simp only [if_neg h3, if_pos h4, zero_add]
      · simp only [if_neg h3, if_neg h4, add_zero, dot3, mul_zero, Finset.sum_const_zero]
  rw [hlin]
  have hform : (fun t : ℝ => elTotal true P E (fun i k => p i k + t * u i k) c) = fun t =>
      elTotal true P E p c + t * (polarSum E c (fun α i => dot3 (u i) (p i) / α) + ((entries c).map fun e =>
        (if E.alpha e.otyp = 0 then 0 else A e e.own (E.alpha e.otyp)) +
        if E.alpha e.n.typ = 0 then 0 else B e e.n.nr (E.alpha e.n.typ)).sum) +
      t ^ 2 * (polarSum E c (fun α i => dot3 (u i) (u i) / (2 * α)) + ((entries c).map (dipoleDipole E u)).sum) := by
    funext t
    unfold elTotal
    rw [hent t, hat t]
    ring
  rw [hform]
  generalize polarSum E c (fun α i => dot3 (u i) (p i) / α) + ((entries c).map fun e =>
        (if E.alpha e.otyp = 0 then 0 else A e e.own (E.alpha e.otyp)) +
        if E.alpha e.n.typ = 0 then 0 else B e e.n.nr (E.alpha e.n.typ)).sum = L
  have hd := (((hasDerivAt_id (0 : ℝ)).mul_const L).const_add (elTotal true P E p c)).add
    (((hasDerivAt_id (0 : ℝ)).pow 2).mul_const
      (polarSum E c (fun α i => dot3 (u i) (u i) / (2 * α)) + ((entries c).map (dipoleDipole E u)).sum))
  refine hd.congr_deriv ?_
  simp

/-- With dipoles that are self-consistent in the sense of the routine the derivative is twice the field of the dipoles:
such dipoles are not stationary. -/
theorem C69_self_consistent_derivative (P : Pots ℝ) (E : Elec ℝ) (hsr : ∀ r a b c, E.srValue r a b c = a * (E.srTerm r b c).1)
    (c : Conf ℝ) (hh : HalfList c) (hal : Aligned c) (hta : TypesAgree c) (hn : ∀ e ∈ entries c, e.n.nr ≠ e.own)
    (p u : Nat → V3 ℝ) (hp : ∀ j a, c.atoms[j]? = some a → E.alpha a.typ ≠ 0 → p (c.start + j) = fun k =>
      E.alpha a.typ * (staticField E c (c.start + j) k + dipoleField E c p (c.start + j) k) +
        shortMoment E c (c.start + j) k) :
    HasDerivAt (fun t : ℝ => elTotal true P E (fun i k => p i k + t * u i k) c)
      (polarSum E c fun _ i => 2 * dot3 (u i) (dipoleField E c p i)) 0 := by
  refine (C69_variation P E hsr c hh hal hta hn p u).congr_deriv ?_
  apply polarSum_congr
  intro j a ha hα
  have h : dipoleForce E c p (E.alpha a.typ) (c.start + j) = fun k => 2 * dipoleField E c p (c.start + j) k := by
    funext k
    unfold dipoleForce
    rw [congrFun (hp j a ha hα) k]
    field_simp
    ring
  rw [h]
  simp only [dot3, Fin.sum_univ_three]
  ring

/-- With the opposite sign of the field of the dipoles the self-consistent dipoles are stationary. -/
theorem C69_opposite_sign_stationary (P : Pots ℝ) (E : Elec ℝ) (hsr : ∀ r a b c, E.srValue r a b c = a * (E.srTerm r b c).1)
    (c : Conf ℝ) (hh : HalfList c) (hal : Aligned c) (hta : TypesAgree c) (hn : ∀ e ∈ entries c, e.n.nr ≠ e.own)
    (p u : Nat → V3 ℝ) (hp : ∀ j a, c.atoms[j]? = some a → E.alpha a.typ ≠ 0 → p (c.start + j) = fun k =>
      E.alpha a.typ * (staticField E c (c.start + j) k - dipoleField E c p (c.start + j) k) +
        shortMoment E c (c.start + j) k) :
    HasDerivAt (fun t : ℝ => elTotal true P E (fun i k => p i k + t * u i k) c) 0 0 := by
  refine (C69_variation P E hsr c hh hal hta hn p u).congr_deriv ?_
  have : polarSum E c (fun α i => dot3 (u i) (dipoleForce E c p α i)) = polarSum E c fun _ _ => 0 := by
    apply polarSum_congr
    intro j a ha hα
    have h : dipoleForce E c p (E.alpha a.typ) (c.start + j) = fun _ => 0 := by
      funext k
      unfold dipoleForce
      rw [congrFun (hp j a ha hα) k]
      field_simp
      ring
    rw [h]
    simp [dot3]
  rw [this]
  simp [polarSum]

/-! ### Dipoles that follow the atoms -/

/-- The field depends on the dipoles of the polarisable atoms of the configuration only. -/
theorem dipoleField_congr (E : Elec ℝ) (c : Conf ℝ) (hh : HalfList c) (hta : TypesAgree c) (p p' : Nat → V3 ℝ)
    (h : ∀ j a, c.atoms[j]? = some a → E.alpha a.typ ≠ 0 → p' (c.start + j) = p (c.start + j)) :
    dipoleField E c p' = dipoleField E c p := by
  funext i k
  unfold dipoleField
  congr 1
  apply List.map_congr_left
  intro e he
  by_cases hc : e.n.r < E.cut ∧ E.alpha e.otyp ≠ 0 ∧ E.alpha e.n.typ ≠ 0
  swap
  · rw [if_neg hc, if_neg hc]
  rw [if_pos hc, if_pos hc]
  have hlen : ∀ m, c.start ≤ m → m < c.start + c.atoms.length → ∃ j a, m = c.start + j ∧ c.atoms[j]? = some a := by
    intro m h1 h2
    have : m - c.start < c.atoms.length := by omega
    exact ⟨m - c.start, c.atoms[m - c.start], by omega, List.getElem?_eq_getElem this⟩
  have hge := (entriesFrom_ge he).1
  obtain ⟨l1, l2⟩ := hh e he
  obtain ⟨j, a, e1, e2⟩ := hlen e.own hge (by omega)
  obtain ⟨j', a', e3, e4⟩ := hlen e.n.nr (by omega) l2
  have o := h j a e2 (by rw [ownType he j a e2 e1]; exact hc.2.1)
  have n := h j' a' e4 (by rw [hta e he j' a' e4 e3]; exact hc.2.2)
  rw [← e1] at o
  rw [← e3] at n
  rw [o, n]

/-- Self-consistent fields are kept: the iteration ends in the first round with the self-consistent dipoles. -/
theorem C69_kept (b : Build) (P : Pots ℝ) (E : Elec ℝ) (hs : IsRoot E) (h0 : 0 < E.tol) (c : Conf ℝ) (hh : HalfList c)
    (hta : TypesAgree c) (p : Nat → V3 ℝ) (hp : ∀ j a, c.atoms[j]? = some a → E.alpha a.typ ≠ 0 → p (c.start + j) = fun k =>
      E.alpha a.typ * (staticField E c (c.start + j) k + dipoleField E c p (c.start + j) k) +
        shortMoment E c (c.start + j) k) (s : ElState ℝ)
    (he : ∀ j a, c.atoms[j]? = some a → E.alpha a.typ ≠ 0 → s.dip.eInd (c.start + j) = dipoleField E c p (c.start + j))
    (j : Nat) (a : Atom ℝ) (ha : c.atoms[j]? = some a) (hα : E.alpha a.typ ≠ 0) :
    (elDipoles b true P E c s).pInd (c.start + j) = p (c.start + j) := by
  set d := beforeRounds b P E c s with hd
  obtain ⟨-, -, -, r4⟩ := dipRound_spec E c true d
  have hP : ∀ j a, c.atoms[j]? = some a → E.alpha a.typ ≠ 0 → (dipRound E c true d).pInd (c.start + j) = p (c.start + j) := by
    intro j a ha hα
    have hlt : j < c.atoms.length := (List.getElem?_eq_some_iff.1 ha).1
    obtain ⟨f1, f2⟩ := elStart_fields b P E c s j hlt
    rw [(r4 j a ha hα).1, hp j a ha hα]
    funext k
    have g1 : d.eStat (c.start + j) = _ := f1
    have g2 : d.pSr (c.start + j) = _ := f2
    have g3 : d.eInd (c.start + j) = _ := he j a ha hα
    simp only [dipTotal, if_true]
    rw [g1, g2, g3, add_comm (dipoleField E c p (c.start + j) k)]
  have hF := dipoleField_congr E c hh hta p _ hP
  have hz : dipDiff E c (dipRound E c true d) = 0 := by
    have h1 : dipChange E (dipRound E c true d) c.atoms c.start 0 = 0 := by
      rw [dipChange_spec, zero_add]
      have := polarSum_congr E c (f := fun α i => ∑ k : Fin 3,
        (α * ((dipRound E c true d).eOld i k - (dipRound E c true d).eInd i k)) ^ 2) (g := fun _ _ => 0) (by
        intro j a ha hα
        have g3 : d.eInd (c.start + j) = _ := he j a ha hα
        rw [(r4 j a ha hα).2.1, (r4 j a ha hα).2.2, hF, g3]
        simp)
      refine (show _ = polarSum E c (fun α i => ∑ k : Fin 3,
        (α * ((dipRound E c true d).eOld i k - (dipRound E c true d).eInd i k)) ^ 2) from rfl).trans (this.trans ?_)
      simp [polarSum]
    unfold dipDiff
    rw [h1, zero_div]
    have := (hs 0 (le_refl _)).2
    simpa using this
  have hstop := dipIter_stop E c 51 0 d (Or.inl rfl) (lt_of_eq_of_lt hz h0)
  have : elDipoles b true P E c s = dipRound E c true d := by
    show dipSolve E c d = _
    unfold dipSolve
    exact congrArg (fun o => Option.getD o d) hstop
  rw [this]
  exact hP j a ha hα

/-- Two ions at distance `R`. -/
def ionAt (R : ℝ) : Conf ℝ :=
  { ionC with atoms := [⟨0, [⟨1, 1, R, ![R, 0, 0], ![1, 0, 0], 0, 0⟩], 0, true⟩, ⟨1, [], 0, true⟩] }

/-- Their self-consistent dipole. -/
noncomputable def ionMoment (R : ℝ) : ℝ := 5 / 32 * R / (R ^ 3 + 5 / 16)

/-- A state with the self-consistent field. -/
noncomputable def ionState (R : ℝ) : ElState ℝ :=
  ⟨⟨0, 0, 0, 0⟩, ⟨0, fun _ => ![-2 * ionMoment R / R ^ 3, 0, 0], 0, 0, 0⟩⟩

theorem ionAt_entries (R : ℝ) : entries (ionAt R) = [⟨0, 0, ⟨1, 1, R, ![R, 0, 0], ![1, 0, 0], 0, 0⟩⟩] := rfl

theorem ionAt_ok (R mix tol : ℝ) : HalfList (ionAt R) ∧ Aligned (ionAt R) ∧ TypesMatch (ionAt R) ∧ TypesAgree (ionAt R) ∧
    PolarCharged (ionE mix tol) (ionAt R) := by
  refine ⟨?_, ?_, ?_, ?_, ?_⟩ <;> intro e he <;> rw [ionAt_entries, List.mem_singleton] at he <;> subst he
  · simp [ionAt, ionC]
  · intro k; fin_cases k <;> simp
  · simp
  · intro j a ha hj
    have : j = 1 := by
      have h : (1 : Nat) = 0 + j := hj
      omega
    subst this
    have h : some (⟨1, [], 0, true⟩ : Atom ℝ) = some a := ha
    rw [← Option.some.inj h]
  · simp [ionE]

theorem ionAt_static (R : ℝ) (h0 : 0 < R) (h2 : R < 2) (mix tol : ℝ) (i : Nat) (hi : i < 2) :
    staticField (ionE mix tol) (ionAt R) i = ![1 / R ^ 2, 0, 0] ∧ shortMoment (ionE mix tol) (ionAt R) i = 0 := by
  constructor
  · funext k
    unfold staticField
    rw [ionAt_entries]
    have : i = 0 ∨ i = 1 := by omega
    rcases this with rfl | rfl <;> fin_cases k <;> simp [ionE, share, h2] <;> field_simp
  · funext k
    unfold shortMoment
    rw [ionAt_entries]
    simp [ionE]

theorem ionAt_field (R : ℝ) (h0 : 0 < R) (h2 : R < 2) (mix tol : ℝ) (p : Nat → V3 ℝ) (q : ℝ) (hp : ∀ i < 2, p i = ![q, 0, 0])
    (i : Nat) (hi : i < 2) : dipoleField (ionE mix tol) (ionAt R) p i = ![-2 * q / R ^ 3, 0, 0] := by
  funext k
  unfold dipoleField
  rw [ionAt_entries]
  have h0 := hp 0 (by omega)
  have h1 := hp 1 (by omega)
  have : i = 0 ∨ i = 1 := by omega
  rcases this with rfl | rfl <;> fin_cases k <;> simp [ionE, dipoleTerm, dot3, Fin.sum_univ_three, h0, h1, h2] <;> field_simp <;>
    ring

theorem ionAt_energy (R : ℝ) (h0 : 0 < R) (h2 : R < 2) (mix tol : ℝ) (p : Nat → V3 ℝ) (q : ℝ) (hp : ∀ i < 2, p i = ![q, 0, 0]) :
    elTotal true ⟨0, 0, 1, 0, 0⟩ (ionE mix tol) p (ionAt R) =
      -1 / R - 2 * q / R ^ 2 - 2 * q ^ 2 / R ^ 3 + 32 / 5 * q ^ 2 := by
  have p0 := hp 0 (by omega)
  have p1 := hp 1 (by omega)
  unfold elTotal totalPairEnergy
  rw [ionAt_entries]
  have hz : (ionAt R).atoms.zipIdx = [((⟨0, [⟨1, 1, R, ![R, 0, 0], ![1, 0, 0], 0, 0⟩], 0, true⟩ : Atom ℝ), 0),
    (⟨1, [], 0, true⟩, 1)] := rfl
  rw [hz]
  simp only [List.map_cons, List.map_nil, List.sum_cons, List.sum_nil, pairEnergy, elEntry, coulombEnergy, chargeDipole,
    dipoleDipole, coupling, crossMoment, moment, dampTerm, atomEnergy, share, dot3, Fin.sum_univ_three]
  have st : (ionAt R).start = 0 := rfl
  simp [ionE, p0, p1, st, h2]
  field_simp
  ring

theorem ion_kept (b : Build) (ew sw mix tol : ℝ) (ht : 0 < tol) (R : ℝ) (h0 : 0 < R) (h2 : R < 2) :
    ∀ i < 2, (elConf b true ⟨0, 0, 1, 0, 0⟩ (ionE mix tol) ew sw 0 (ionAt R) (ionState R)).1.dip.pInd i =
      ![ionMoment R, 0, 0] := by
  obtain ⟨hh, -, -, hta, -⟩ := ionAt_ok R mix tol
  have hz : ∀ j a, (ionAt R).atoms[j]? = some a → j < 2 := by
    intro j a h
    have : j < (ionAt R).atoms.length := (List.getElem?_eq_some_iff.1 h).1
    exact this
  have hF := ionAt_field R h0 h2 mix tol (fun _ => ![ionMoment R, 0, 0]) (ionMoment R) (fun _ _ => rfl)
  have hS := ionAt_static R h0 h2 mix tol
  have st : (ionAt R).start = 0 := rfl
  have hk := C69_kept b ⟨0, 0, 1, 0, 0⟩ (ionE mix tol) (ion_root mix tol) ht (ionAt R) hh hta (fun _ => ![ionMoment R, 0, 0]) (by
    intro j a ha _
    rw [st, Nat.zero_add]
    have hj := hz j a ha
    rw [(hS j hj).1, (hS j hj).2, hF j hj]
    have : (0 : ℝ) < R ^ 3 + 5 / 16 := by positivity
    funext k
    fin_cases k
    · simp only [ionE, ionMoment]
      simp
      field_simp
      ring
    · simp
    · simp) (ionState R) (by
    intro j a ha _
    rw [st, Nat.zero_add, hF j (hz j a ha)]
    rfl)
  intro i hi
  have : i = 0 ∨ i = 1 := by omega
  have hα : ∀ t, (ionE mix tol).alpha t ≠ 0 := fun t => by simp [ionE]
  rcases this with rfl | rfl
  · exact hk 0 _ rfl (hα _)
  · exact hk 1 _ rfl (hα _)

/-- The forces are not minus the gradient of the reported energy.  At every distance `R` of the two ions the dipoles are
exactly self-consistent; moving the second ion changes the reported energy at `R = 1` at a rate that is not minus the
reported force. -/
theorem C69_gradient_violated (b : Build) (ew sw mix tol : ℝ) (ht : 0 < tol) :
    let run := fun R => (elConf b true ⟨0, 0, 1, 0, 0⟩ (ionE mix tol) ew sw 0 (ionAt R) (ionState R)).1
    (∀ R, 0 < R → R < 2 → inconsistency (ionE mix tol) (ionAt R) (run R).dip.pInd = 0) ∧
    ∃ D, HasDerivAt (fun R => ((run R).fv.energy 0 + (ionAt R).energy0) * (ionAt R).atoms.length) D 1 ∧
      D ≠ -reportedForce b (run 1).fv (ionAt 1) 0 1 0 := by
  intro run
  have hk := ion_kept b ew sw mix tol ht
  constructor
  · intro R h0 h2
    unfold inconsistency
    rw [div_eq_zero_iff]
    left
    have : polarSum (ionE mix tol) (ionAt R) (fun α i => ∑ k : Fin 3, ((run R).dip.pInd i k -
        (α * (staticField (ionE mix tol) (ionAt R) i k + dipoleField (ionE mix tol) (ionAt R) (run R).dip.pInd i k) +
          shortMoment (ionE mix tol) (ionAt R) i k)) ^ 2) = polarSum (ionE mix tol) (ionAt R) fun _ _ => 0 := by
      apply polarSum_congr
      intro j a ha _
      have st : (ionAt R).start = 0 := rfl
      have hj : j < 2 := (List.getElem?_eq_some_iff.1 ha).1
      rw [st, Nat.zero_add, hk R h0 h2 j hj, ionAt_field R h0 h2 mix tol _ _ (hk R h0 h2) j hj,
        (ionAt_static R h0 h2 mix tol j hj).1, (ionAt_static R h0 h2 mix tol j hj).2]
      have : (0 : ℝ) < R ^ 3 + 5 / 16 := by positivity
      simp only [Fin.sum_univ_three, ionE, ionMoment]
      simp
      field_simp
      ring
    rw [this]
    simp [polarSum]
  · have hen : ∀ R, 0 < R → R < 2 → ((run R).fv.energy 0 + (ionAt R).energy0) * (ionAt R).atoms.length =
        -1 / R - 2 * ionMoment R / R ^ 2 - 2 * ionMoment R ^ 2 / R ^ 3 + 32 / 5 * ionMoment R ^ 2 := by
      intro R h0 h2
      obtain ⟨hh, hal, htm, -, hq⟩ := ionAt_ok R mix tol
      have := C69_energy b ⟨0, 0, 1, 0, 0⟩ (ionE mix tol) ew sw 0 (ionAt R) hh hal htm hq (ionState R)
      rw [show (run R).fv.energy 0 = _ from this, ionAt_energy R h0 h2 mix tol _ _ (hk R h0 h2)]
      have l : ((ionAt R).atoms.length : ℝ) = 2 := by simp [ionAt]
      rw [l]
      ring
    have hF : reportedForce b (run 1).fv (ionAt 1) 0 1 0 = -(1 + 4 * (5 / 42) + 6 * (5 / 42) ^ 2) := by
      obtain ⟨hh, hal, htm, -, hq⟩ := ionAt_ok 1 mix tol
      obtain ⟨-, h, -⟩ := elConf_spec b true ⟨0, 0, 1, 0, 0⟩ (ionE mix tol) ew sw 0 (ionAt 1) hh hal (fun _ => htm)
        (fun _ => hq) (ionState 1)
      have h1 := h 1 ⟨1, [], 0, true⟩ rfl
      have hu : (ionAt 1).uf = true := rfl
      have st : (ionAt 1).start = 0 := rfl
      have fz : (ionAt 1).force0 = 0 := rfl
      rw [if_pos hu, st, Nat.zero_add, fz] at h1
      unfold reportedForce
      rw [show (run 1).fv.force 1 = _ from h1, fz]
      have hv : vecForce (elVec true ⟨0, 0, 1, 0, 0⟩ (ionE mix tol) (run 1).dip.pInd) (ionAt 1) 1 0 =
          -(1 + 4 * (5 / 42) + 6 * (5 / 42) ^ 2) := by
        have p0 := hk 1 (by norm_num) (by norm_num) 0 (by omega)
        have p1 := hk 1 (by norm_num) (by norm_num) 1 (by omega)
        have hm : ionMoment 1 = 5 / 42 := by norm_num [ionMoment]
        rw [hm] at p0 p1
        unfold vecForce
        rw [ionAt_entries]
        have q0 : (run 1).dip.pInd 0 = _ := p0
        have q1 : (run 1).dip.pInd 1 = _ := p1
        simp only [List.map_cons, List.map_nil, List.sum_cons, List.sum_nil, elVec, elEntryVec, coulombVec, chargeDipoleVec,
          dipoleDipoleVec, coupling, couplingSlope, crossMoment, moment, dampTerm, share, dot3, Fin.sum_univ_three, along,
          pairSlope, Pi.add_apply, if_true, q0, q1]
        simp [ionE]
        norm_num
      have hv' : vecForce (elVec true ⟨0, 0, 1, 0, 0⟩ (ionE mix tol) (elConf b true ⟨0, 0, 1, 0, 0⟩ (ionE mix tol) ew sw 0
        (ionAt 1) (ionState 1)).1.dip.pInd) (ionAt 1) 1 0 = _ := hv
      unfold scaled
      by_cases hb : b.fweight = true
      · simp only [hb, Bool.and_self, if_true, forceEps, Pi.sub_apply, hv']
        simp
      · simp [hb, hv']
    have hq : HasDerivAt ionMoment (5 / 32 * (1 + 5 / 16 - 3) / (1 + 5 / 16) ^ 2) 1 := by
      have h1 : HasDerivAt (fun R : ℝ => 5 / 32 * R) (5 / 32) 1 := by simpa using (hasDerivAt_id (1 : ℝ)).const_mul (5 / 32)
      have h2 : HasDerivAt (fun R : ℝ => R ^ 3 + 5 / 16) 3 1 := by simpa using (hasDerivAt_pow 3 (1 : ℝ)).add_const (5 / 16)
      refine (h1.div h2 (by norm_num)).congr_deriv ?_
      norm_num
    have hm : ionMoment 1 = 5 / 42 := by norm_num [ionMoment]
    have d1 : HasDerivAt (fun R : ℝ => -1 / R) 1 1 :=
      ((hasDerivAt_const (1 : ℝ) (-1 : ℝ)).div (hasDerivAt_id (1 : ℝ)) (by norm_num)).congr_deriv (by norm_num)
    have d2 := ((hq.const_mul 2).div (hasDerivAt_pow 2 (1 : ℝ)) (by norm_num))
    have d3 := (((hq.pow 2).const_mul 2).div (hasDerivAt_pow 3 (1 : ℝ)) (by norm_num))
    have d4 := (hq.pow 2).const_mul (32 / 5)
    have hd := ((d1.sub d2).sub d3).add d4
    refine ⟨_, hd.congr_of_eventuallyEq ?_, ?_⟩
    · have : Set.Ioo (0 : ℝ) 2 ∈ nhds (1 : ℝ) := Ioo_mem_nhds (by norm_num) (by norm_num)
      filter_upwards [this] with R hR
      exact hen R hR.1 hR.2
    · simp only [hF, hm, Pi.pow_apply]
      norm_num

/-! ### Neutral polarisable atoms -/

/-- Bare Coulomb interaction; type 0 is neutral and has polarisability 1/1000, type 1 has charge 1 and no polarisability. -/
noncomputable def neutralE : Elec ℝ :=
  { ionE 0 (1 / 10 ^ 6) with cut := 10, charge := fun t => if t = 0 then 0 else 1, alpha := fun t => if t = 0 then 1 / 1000 else 0 }

/-- Two neutral atoms and an ion on a line; energies only. -/
def neutralC : Conf ℝ :=
  { ionC with
    uf := false
    atoms := [⟨0, [⟨1, 0, 1, ![1, 0, 0], ![1, 0, 0], 0, 0⟩, ⟨2, 1, 2, ![2, 0, 0], ![1, 0, 0], 0, 0⟩], 0, true⟩,
      ⟨0, [⟨2, 1, 1, ![1, 0, 0], ![1, 0, 0], 0, 0⟩], 0, true⟩, ⟨1, [], 0, true⟩] }

theorem neutral_entries : entries neutralC = [⟨0, 0, ⟨1, 0, 1, ![1, 0, 0], ![1, 0, 0], 0, 0⟩⟩,
    ⟨0, 0, ⟨2, 1, 2, ![2, 0, 0], ![1, 0, 0], 0, 0⟩⟩, ⟨1, 0, ⟨2, 1, 1, ![1, 0, 0], ![1, 0, 0], 0, 0⟩⟩] := rfl

/-- The dipoles of the two neutral atoms. -/
theorem neutral_dipoles (b : Build) (ew sw : ℝ) :
    let p := (elConf b true ⟨0, 0, 1, 0, 0⟩ neutralE ew sw 0 neutralC ionFresh).1.dip.pInd
    p 0 = ![-1 / 4000, 0, 0] ∧ p 1 = ![-1 / 1000, 0, 0] := by
  intro p
  set d := beforeRounds b ⟨0, 0, 1, 0, 0⟩ neutralE neutralC ionFresh with hd
  obtain ⟨-, -, -, r4⟩ := dipRound_spec neutralE neutralC true d
  have hα : neutralE.alpha 0 ≠ 0 := by simp [neutralE]
  have hα' : neutralE.alpha 0 = 1 / 1000 := by simp [neutralE]
  have st : neutralC.start = 0 := rfl
  have a0 := r4 0 ⟨0, [⟨1, 0, 1, ![1, 0, 0], ![1, 0, 0], 0, 0⟩, ⟨2, 1, 2, ![2, 0, 0], ![1, 0, 0], 0, 0⟩], 0, true⟩ rfl hα
  have a1 := r4 1 ⟨0, [⟨2, 1, 1, ![1, 0, 0], ![1, 0, 0], 0, 0⟩], 0, true⟩ rfl hα
  have f0 := elStart_fields b ⟨0, 0, 1, 0, 0⟩ neutralE neutralC ionFresh 0 (by simp [neutralC])
  have f1 := elStart_fields b ⟨0, 0, 1, 0, 0⟩ neutralE neutralC ionFresh 1 (by simp [neutralC])
  rw [st] at a0 a1 f0 f1
  have e0 : d.eStat 0 = ![-1 / 4, 0, 0] := by
    refine f0.1.trans ?_
    funext k
    unfold staticField
    rw [neutral_entries]
    fin_cases k <;> simp [neutralE, ionE, share] <;> norm_num
  have e1 : d.eStat 1 = ![-1, 0, 0] := by
    refine f1.1.trans ?_
    funext k
    unfold staticField
    rw [neutral_entries]
    fin_cases k <;> simp [neutralE, ionE, share]
  have s0 : d.pSr 0 = 0 := by
    refine f0.2.trans ?_
    funext k
    unfold shortMoment
    rw [neutral_entries]
    simp [neutralE, ionE]
  have s1 : d.pSr 1 = 0 := by
    refine f1.2.trans ?_
    funext k
    unfold shortMoment
    rw [neutral_entries]
    simp [neutralE, ionE]
  have z : ∀ i, d.eInd i = 0 := fun _ => rfl
  have p0 : (dipRound neutralE neutralC true d).pInd 0 = ![-1 / 4000, 0, 0] := by
    refine a0.1.trans ?_
    funext k
    simp only [dipTotal, if_true, e0, s0, z, hα', Nat.add_zero]
    fin_cases k <;> simp
    norm_num
  have p1 : (dipRound neutralE neutralC true d).pInd 1 = ![-1 / 1000, 0, 0] := by
    refine a1.1.trans ?_
    funext k
    simp only [dipTotal, if_true, e1, s1, z, hα', Nat.zero_add]
    fin_cases k <;> simp
    norm_num
  have g0 : (dipRound neutralE neutralC true d).eInd 0 = ![1 / 500, 0, 0] := by
    refine a0.2.2.trans ?_
    funext k
    unfold dipoleField
    rw [neutral_entries]
    generalize (dipRound neutralE neutralC true d).pInd = w at p1
    fin_cases k <;> simp [neutralE, ionE, dipoleTerm, dot3, Fin.sum_univ_three, p1]
    norm_num
  have g1 : (dipRound neutralE neutralC true d).eInd 1 = ![1 / 2000, 0, 0] := by
    refine a1.2.2.trans ?_
    funext k
    unfold dipoleField
    rw [neutral_entries]
    generalize (dipRound neutralE neutralC true d).pInd = w at p0
    fin_cases k <;> simp [neutralE, ionE, dipoleTerm, dot3, Fin.sum_univ_three, p0]
    norm_num
  have o0 : (dipRound neutralE neutralC true d).eOld 0 = 0 := a0.2.1
  have o1 : (dipRound neutralE neutralC true d).eOld 1 = 0 := a1.2.1
  have hlt : dipDiff neutralE neutralC (dipRound neutralE neutralC true d) < neutralE.tol := by
    unfold dipDiff
    rw [dipChange_spec]
    have l : (neutralC.atoms.length : ℝ) = 3 := by simp [neutralC]
    rw [l]
    show √_ < 1 / 10 ^ 6
    rw [Real.sqrt_lt' (by norm_num)]
    have hz : neutralC.atoms.zipIdx = [((⟨0, [⟨1, 0, 1, ![1, 0, 0], ![1, 0, 0], 0, 0⟩, ⟨2, 1, 2, ![2, 0, 0], ![1, 0, 0], 0, 0⟩], 0,
      true⟩ : Atom ℝ), 0), (⟨0, [⟨2, 1, 1, ![1, 0, 0], ![1, 0, 0], 0, 0⟩], 0, true⟩, 1), (⟨1, [], 0, true⟩, 2)] := rfl
    rw [hz]
    simp only [List.map_cons, List.map_nil, List.sum_cons, List.sum_nil, st, Nat.zero_add, g0, g1, o0, o1, Fin.sum_univ_three]
    simp [neutralE]
    norm_num
  have hsol : (elConf b true ⟨0, 0, 1, 0, 0⟩ neutralE ew sw 0 neutralC ionFresh).1.dip = dipRound neutralE neutralC true d := by
    show dipSolve neutralE neutralC d = _
    unfold dipSolve
    exact congrArg (fun o => Option.getD o d) (dipIter_stop neutralE neutralC 51 0 d (Or.inl rfl) hlt)
  refine ⟨?_, ?_⟩
  · show (elConf b true ⟨0, 0, 1, 0, 0⟩ neutralE ew sw 0 neutralC ionFresh).1.dip.pInd 0 = _
    rw [hsol, p0]
  · show (elConf b true ⟨0, 0, 1, 0, 0⟩ neutralE ew sw 0 neutralC ionFresh).1.dip.pInd 1 = _
    rw [hsol, p1]

/-- `PolarCharged` cannot be dropped: with polarisable atoms without charge the reported energy is not that of the dipoles,
because the projections of the dipoles are computed only next to charges. -/
theorem C69_neutral_violated (b : Build) (ew sw : ℝ) :
    let r := elConf b true ⟨0, 0, 1, 0, 0⟩ neutralE ew sw 0 neutralC ionFresh
    (HalfList neutralC ∧ Aligned neutralC ∧ TypesMatch neutralC) ∧
    r.1.fv.energy 0 ≠ elTotal true ⟨0, 0, 1, 0, 0⟩ neutralE r.1.dip.pInd neutralC / (neutralC.atoms.length : ℝ) -
      neutralC.energy0 := by
  intro r
  obtain ⟨p0, p1⟩ := neutral_dipoles b ew sw
  have hz : neutralC.atoms.zipIdx = [((⟨0, [⟨1, 0, 1, ![1, 0, 0], ![1, 0, 0], 0, 0⟩, ⟨2, 1, 2, ![2, 0, 0], ![1, 0, 0], 0, 0⟩], 0,
      true⟩ : Atom ℝ), 0), (⟨0, [⟨2, 1, 1, ![1, 0, 0], ![1, 0, 0], 0, 0⟩], 0, true⟩, 1), (⟨1, [], 0, true⟩, 2)] := rfl
  have st : neutralC.start = 0 := rfl
  refine ⟨⟨?_, ?_, ?_⟩, ?_⟩
  · intro e he
    rw [neutral_entries] at he
    fin_cases he <;> simp [neutralC, ionC]
  · intro e he k
    rw [neutral_entries] at he
    fin_cases he <;> fin_cases k <;> simp
  · intro e he
    rw [neutral_entries] at he
    fin_cases he <;> simp
  · have hT : ∀ w : Nat → V3 ℝ, w 0 = ![-1 / 4000, 0, 0] → w 1 = ![-1 / 1000, 0, 0] →
        elTotal true ⟨0, 0, 1, 0, 0⟩ neutralE w neutralC = -(17 / 32000) - 1 / 2000000 := by
      intro w q0 q1
      unfold elTotal totalPairEnergy
      rw [neutral_entries, hz]
      simp only [List.map_cons, List.map_nil, List.sum_cons, List.sum_nil, pairEnergy, elEntry, coulombEnergy, chargeDipole,
        dipoleDipole, coupling, crossMoment, moment, dampTerm, atomEnergy, share, dot3, Fin.sum_univ_three, st, Nat.zero_add, q0, q1]
      simp [neutralE, ionE, q0, q1]
      norm_num
    have hu : neutralC.uf = false := rfl
    have hS : (elStart b true ⟨0, 0, 1, 0, 0⟩ neutralE neutralC ionFresh).acc.energy = 0 := by
      unfold elStart
      rw [overNeigh_eq]
      rw [show entriesFrom neutralC.start neutralC.atoms = _ from neutral_entries]
      simp only [List.foldl_cons, List.foldl_nil, elNeigh2, pairNeigh, monoNeigh, hu]
      simp [neutralE, ionE, halfSelf]
    have hR : ∀ w : Nat → V3 ℝ, w 0 = ![-1 / 4000, 0, 0] → w 1 = ![-1 / 1000, 0, 0] →
        (elFinish b true neutralE ew sw neutralC w
          (elStart b true ⟨0, 0, 1, 0, 0⟩ neutralE neutralC ionFresh).acc).energy = (-(17 / 32000) + 1 / 4000000) / 3 := by
      intro w q0 q1
      revert hS
      generalize (elStart b true ⟨0, 0, 1, 0, 0⟩ neutralE neutralC ionFresh).acc = A
      intro hS
      unfold elFinish closeConf
      rw [overNeigh_eq]
      rw [show entriesFrom neutralC.start neutralC.atoms = _ from neutral_entries]
      simp only [List.foldl_cons, List.foldl_nil, elNeigh4, monoDip, dipMono, dipDip, elSums, hu]
      simp [neutralE, ionE, halfSelf, q0, q1, neutralC, elLoop5, elSelf, closeAtom, sprod, hS, ionC]
      norm_num
    intro h
    have h1 := hT _ p0 p1
    have h2 := hR _ p0 p1
    have h3 : r.1.fv.energy 0 = (elFinish b true neutralE ew sw neutralC r.1.dip.pInd
        (elStart b true ⟨0, 0, 1, 0, 0⟩ neutralE neutralC ionFresh).acc).energy := by
      show Function.update ionFresh.fv.energy 0 _ 0 = _
      rw [Function.update_self]
      rfl
    have l : (neutralC.atoms.length : ℝ) = 3 := by simp [neutralC]
    have z : neutralC.energy0 = 0 := rfl
    rw [h3, show (elFinish b true neutralE ew sw neutralC r.1.dip.pInd _).energy = _ from h2,
      show elTotal true ⟨0, 0, 1, 0, 0⟩ neutralE r.1.dip.pInd neutralC = _ from h1, l, z] at h
    norm_num at h

/-- Hypotheses of `C69_force_partial` and `C69_stress_partial`: two atoms, the tails of the program, all
types charged and polarisable. -/
example : gradConf.uf = true ∧ gradConf.us = true ∧ gradConf.vol ≠ 0 ∧ gradNodes ≠ [] ∧
    HalfList (place gradConf gradNodes gradPos) ∧
    PolarCharged (progElec true false 10 0.1 (fun t => if t = 0 then 1 else -1) (fun _ => 0.1) 1 1 0 0.1)
      (place gradConf gradNodes gradPos) ∧
    PairSmooth (gradPots 5).toPots gradConf gradNodes gradPos ∧
    ElSmooth true (progElec true false 10 0.1 (fun t => if t = 0 then 1 else -1) (fun _ => 0.1) 1 1 0 0.1) gradConf gradNodes
      gradPos :=
  ⟨rfl, rfl, one_ne_zero, by simp [gradNodes], grad_half, fun e _ _ _ => ⟨by
      simp only [progElec]; split <;> norm_num, by simp only [progElec]; split <;> norm_num⟩, grad_pair 5,
    C69_program_smooth 10 0.1 (by norm_num) _ _ _ _ 0 0.1 _ _ _ _ (grad_pair 5)⟩

/-- Hypotheses of `C69_variation`, `C69_self_consistent_derivative` and `C69_kept`: two ions with self-consistent dipoles. -/
example : (∀ r a b c, (ionE 0 1).srValue r a b c = a * ((ionE 0 1).srTerm r b c).1) ∧ HalfList (ionAt 1) ∧ Aligned (ionAt 1) ∧
    TypesAgree (ionAt 1) ∧ (∀ e ∈ entries (ionAt 1), e.n.nr ≠ e.own) ∧ PolarCharged (ionE 0 1) (ionAt 1) ∧
    ∀ j a, (ionAt 1).atoms[j]? = some a → (ionE 0 1).alpha a.typ ≠ 0 → (fun _ => ![5 / 42, 0, 0] : Nat → V3 ℝ) (0 + j) = fun k =>
      (ionE 0 1).alpha a.typ * (staticField (ionE 0 1) (ionAt 1) (0 + j) k +
        dipoleField (ionE 0 1) (ionAt 1) (fun _ => ![5 / 42, 0, 0]) (0 + j) k) + shortMoment (ionE 0 1) (ionAt 1) (0 + j) k := by
  obtain ⟨h1, h2, -, h3, h4⟩ := ionAt_ok 1 0 1
  refine ⟨by simp [ionE], h1, h2, h3, ?_, h4, ?_⟩
  · intro e he
    rw [ionAt_entries, List.mem_singleton] at he
    subst he
    simp
  · intro j a ha _
    have hj : j < 2 := (List.getElem?_eq_some_iff.1 ha).1
    rw [Nat.zero_add, ionAt_field 1 (by norm_num) (by norm_num) 0 1 _ (5 / 42) (fun _ _ => rfl) j hj,
      (ionAt_static 1 (by norm_num) (by norm_num) 0 1 j hj).1, (ionAt_static 1 (by norm_num) (by norm_num) 0 1 j hj).2]
    funext k
    fin_cases k <;> simp [ionE] <;> norm_num

end Verif.Props
