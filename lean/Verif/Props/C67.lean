/-
C67  Electrostatics of point charges: energy, forces, stresses, objective, neutrality.

The build without `DIPOLE`.  Energy, forces and stresses are read off the force vector; positions and strains are varied
at fixed neighbour lists as in C17 and C65.
-/
import Verif.Lemmas.ElMotion
import Verif.Props.C40
import Verif.Props.C42
import Verif.Props.C66

set_option linter.unusedSectionVars false

namespace Verif.Props

open Verif.Force Verif.Spec Verif.Tails

section
variable {K : Type*} [Field K] [LinearOrder K] [IsStrictOrderedRing K]

/-- Energy of a configuration: pair functions, interactions of the charges, self energies of the charges. -/
def coulombTotal (P : Pots K) (E : Elec K) (c : Conf K) : K :=
  totalPairEnergy P c + ((entries c).map (coulombEnergy E)).sum - E.selfCoef * (c.atoms.map fun a => E.charge a.typ ^ 2).sum

theorem elTotal_false (P : Pots K) (E : Elec K) (p : Nat → V3 K) (c : Conf K) :
    elTotal false P E p c = coulombTotal P E c := by
  unfold elTotal coulombTotal
  have h1 : elEntry false E p = coulombEnergy E := by funext e; simp [elEntry]
  have h2 : ∀ (as : List (Atom K)) (j : Nat), ((as.zipIdx j).map fun ak => atomEnergy false E p ak.1 (c.start + ak.2)).sum =
      -(E.selfCoef * (as.map fun a => E.charge a.typ ^ 2).sum) := by
    intro as
    induction as with
    | nil => intro j; simp
    | cons a as ih =>
      intro j
      rw [List.zipIdx_cons, List.map_cons, List.sum_cons, ih, List.map_cons, List.sum_cons]
      simp only [atomEnergy, Bool.false_eq_true, false_and, if_false]
      ring
  rw [h1, h2 c.atoms 0, sub_eq_add_neg]

/-- Derivative of the energy with respect to the vectors of the entries. -/
def coulombFull (P : Pots K) (E : Elec K) (e : Entry K) : V3 K := along (pairSlope P) e + coulombVec E e

theorem elVec_false (P : Pots K) (E : Elec K) (p : Nat → V3 K) : elVec false P E p = coulombFull P E := by
  funext e
  simp [elVec, elEntryVec, coulombFull]

/-- The energy of a configuration. -/
theorem C67_energy (b : Build) (P : Pots K) (E : Elec K) (ew sw : K) (ci : Nat) (c : Conf K) (hh : HalfList c)
    (hal : Aligned c) (s : ElState K) :
    (elConf b false P E ew sw ci c s).1.fv.energy ci = coulombTotal P E c / (c.atoms.length : K) - c.energy0 := by
  obtain ⟨-, -, h, -⟩ := elConf_spec b false P E ew sw ci c hh hal (by simp) (by simp) s
  rw [h, Function.update_self, elTotal_false]

/-- Contribution of a configuration to the objective from forces, energy and stresses with given derivatives. -/
theorem conf_err_vec (b : Build) (g : Entry K → V3 K) (T ew sw : K) (c : Conf K) (F : Nat → V3 K)
    (hF : ∀ k a, c.atoms[k]? = some a → F (c.start + k) =
      if c.uf then scaled b true a (vecForce g c (c.start + k) - c.force0 (c.start + k)) else 0) :
    (c.atoms.zipIdx.map fun ak => atomErr b c ak.1 (F (c.start + ak.2))).sum +
      c.weight * ew * (T / (c.atoms.length : K) - c.energy0) ^ 2 +
      (if b.stress && c.uf && c.us then ∑ k : Fin 6, c.weight * sw * (vecStress g c k / c.vol - c.stress0 k) ^ 2 else 0) =
      vecConfError b g g T ew sw c := by
  unfold vecConfError
  congr 1
  · congr 1
    by_cases hu : c.uf = true
    · rw [if_pos hu, ← list_mul_sum]
      congr 1
      apply List.map_congr_left
      intro ak hak
      have hk : c.atoms[ak.2]? = some ak.1 := List.mem_zipIdx_iff_getElem?.1 hak
      rw [hF _ _ hk, if_pos hu]
      have hsc : scaled b true ak.1 (vecForce g c (c.start + ak.2) - c.force0 (c.start + ak.2)) =
          fun k => (vecForce g c (c.start + ak.2) k - c.force0 (c.start + ak.2) k) / forceScale b ak.1 := by
        funext k
        unfold scaled forceScale
        by_cases h : b.fweight = true
        · simp [h, forceEps]
        · simp [h]
      rw [hsc]
      have hs : ∀ v : V3 K, sq3 v = ∑ k : Fin 3, v k ^ 2 := by
        intro v; simp only [sq3, Fin.sum_univ_three]; ring
      unfold atomErr
      cases hb : b.contrib <;> cases ha : ak.1.contrib <;> simp [hu, hs]
    · rw [if_neg hu]
      simp [atomErr, hu]
  · rw [Finset.mul_sum]
    simp only [Bool.and_eq_true, and_assoc]

theorem elObjective_value (b : Build) (dip : Bool) (P : Pots K) (E : Elec K) (ew sw w : K) (qs : List (Bound K))
    (eopp univ : List (Nat × K)) (confs : List (Conf K)) (err : Conf K → K) (v v' : ElVector K) (y : K)
    (he : ∀ ci c s, c ∈ confs → (elConf b dip P E ew sw ci c s).2 = err c)
    (hr : elObjective b dip P E ew sw w qs eopp univ confs v = .ok (v', y)) :
    y = (confs.map err).sum + totalPenalty w qs eopp univ := by
  have hl := confLoop_sum (elConf b dip P E ew sw) err confs he 0 (v.st, (0 : K))
  rw [zero_add] at hl
  unfold elObjective at hr
  cases hp : apotPunish w qs eopp univ v.par v.pot with
  | error e => simp [hp, bind, Except.bind] at hr
  | ok p =>
    simp only [hp, bind, Except.bind, Except.ok.injEq, Prod.mk.injEq] at hr
    rw [← hr.2, apotPunish_sum w qs eopp univ _ _ p hp, hl]

/-- The value returned by the routine: weighted squares of the deviations of forces, energies and stresses, and the
punishments. -/
theorem C67_objective (b : Build) (P : Pots K) (E : Elec K) (ew sw w : K) (qs : List (Bound K)) (eopp univ : List (Nat × K))
    (confs : List (Conf K)) (hh : ∀ c ∈ confs, HalfList c ∧ Aligned c) (v v' : ElVector K) (y : K)
    (hr : elObjective b false P E ew sw w qs eopp univ confs v = .ok (v', y)) :
    y = (confs.map fun c => vecConfError b (coulombFull P E) (coulombFull P E) (coulombTotal P E c) ew sw c).sum +
      totalPenalty w qs eopp univ := by
  refine elObjective_value b false P E ew sw w qs eopp univ confs _ v v' y ?_ hr
  intro ci c s hc
  obtain ⟨-, h2, -, -, -, h6⟩ := elConf_spec b false P E ew sw ci c (hh c hc).1 (hh c hc).2 (by simp) (by simp) s
  rw [elVec_false] at h2 h6
  rw [elTotal_false] at h6
  rw [h6]
  exact conf_err_vec b (coulombFull P E) (coulombTotal P E c) ew sw c _ h2

/-- The evaluation does not depend on what was computed before. -/
theorem C67_no_memory (b : Build) (P : Pots K) (E : Elec K) (ew sw : K) (ci : Nat) (c : Conf K) (hh : HalfList c)
    (hal : Aligned c) (s s' : ElState K) :
    (elConf b false P E ew sw ci c s).2 = (elConf b false P E ew sw ci c s').2 ∧
    (elConf b false P E ew sw ci c s).1.fv.energy ci = (elConf b false P E ew sw ci c s').1.fv.energy ci ∧
    (∀ k < c.atoms.length, (elConf b false P E ew sw ci c s).1.fv.force (c.start + k) =
      (elConf b false P E ew sw ci c s').1.fv.force (c.start + k)) ∧
    (b.stress = true → (elConf b false P E ew sw ci c s).1.fv.stress ci =
      (elConf b false P E ew sw ci c s').1.fv.stress ci) := by
  obtain ⟨-, a2, -, a4, -, a6⟩ := elConf_spec b false P E ew sw ci c hh hal (by simp) (by simp) s
  obtain ⟨-, b2, -, b4, -, b6⟩ := elConf_spec b false P E ew sw ci c hh hal (by simp) (by simp) s'
  rw [elVec_false] at a2 a4 a6 b2 b4 b6
  rw [elTotal_false] at a6 b6
  rw [a6, b6, conf_err_vec b _ _ ew sw c _ a2, conf_err_vec b _ _ ew sw c _ b2]
  refine ⟨rfl, ?_, ?_, ?_⟩
  · rw [C67_energy b P E ew sw ci c hh hal, C67_energy b P E ew sw ci c hh hal]
  · intro k hk
    rw [a2 k _ (List.getElem?_eq_getElem hk), b2 k _ (List.getElem?_eq_getElem hk)]
  · intro hb
    rw [a4, b4, if_pos hb, if_pos hb, Function.update_self, Function.update_self]

/-- A system with the composition given in the potential file is neutral; the charges of all types but the last are those
of the parameter vector. -/
theorem C67_neutral (ntypes : Nat) (hn : 0 < ntypes) (ratio x q : Nat → K) (h : elCharges ntypes ratio x = .ok q) :
    ∑ i ∈ Finset.range ntypes, ratio i * q i = 0 ∧ ∀ i, i < ntypes - 1 → q i = x i := by
  unfold elCharges at h
  by_cases h0 : ratio (ntypes - 1) = 0
  · simp [h0] at h
  · simp only [if_neg h0, Except.ok.injEq] at h
    subst h
    obtain ⟨m, rfl⟩ : ∃ m, ntypes = m + 1 := ⟨ntypes - 1, by omega⟩
    simp only [Nat.add_sub_cancel] at h0 ⊢
    constructor
    · rw [Finset.sum_range_succ, if_pos rfl, mul_div_cancel₀ _ h0, ← List.sum_toFinset _ List.nodup_range,
        List.toFinset_range, ← sub_eq_add_neg, sub_eq_zero]
      apply Finset.sum_congr rfl
      intro i hi
      rw [Finset.mem_range] at hi
      rw [if_neg (by omega)]
    · intro i hi
      rw [if_neg (by omega)]

/-- The last charge exists if the last type occurs in the composition; otherwise there is a division by zero. -/
theorem C67_last_charge (ntypes : Nat) (ratio x : Nat → K) :
    elCharges ntypes ratio x = .error .divZero ↔ ratio (ntypes - 1) = 0 := by
  unfold elCharges
  by_cases h0 : ratio (ntypes - 1) = 0
  · simp [h0]
  · simp [h0]

/-- A configuration whose numbers of atoms are `m` times the composition has total charge zero. -/
theorem C67_neutral_conf (ntypes : Nat) (hn : 0 < ntypes) (ratio x q : Nat → K) (h : elCharges ntypes ratio x = .ok q)
    (as : List (Atom K)) (m : K) (ht : ∀ a ∈ as, a.typ < ntypes)
    (hc : ∀ t < ntypes, ((as.countP fun a => a.typ = t : Nat) : K) = m * ratio t) : (as.map fun a => q a.typ).sum = 0 := by
  have h1 : ∀ as : List (Atom K), (∀ a ∈ as, a.typ < ntypes) → (as.map fun a => q a.typ).sum =
      ∑ t ∈ Finset.range ntypes, ((as.countP fun a => a.typ = t : Nat) : K) * q t := by
    intro as
    induction as with
    | nil => intro _; simp
    | cons a as ih =>
      intro hta
      rw [List.map_cons, List.sum_cons, ih fun a' ha' => hta a' (List.mem_cons_of_mem _ ha')]
      have h2 : ∀ t, (((a :: as).countP fun a => a.typ = t : Nat) : K) * q t =
          (if a.typ = t then q t else 0) + ((as.countP fun a => a.typ = t : Nat) : K) * q t := by
        intro t
        by_cases ha : a.typ = t
        · simp only [List.countP_cons, ha, decide_true, if_true]
          push_cast
          ring
        · simp only [List.countP_cons, ha, decide_false, Bool.false_eq_true, if_false, add_zero, zero_add]
      simp only [h2, Finset.sum_add_distrib]
      congr 1
      rw [Finset.sum_ite_eq, if_pos (Finset.mem_range.2 (hta a (by simp)))]
  rw [h1 as ht, ← mul_zero m, ← (C67_neutral ntypes hn ratio x q h).1, Finset.mul_sum]
  apply Finset.sum_congr rfl
  intro t htt
  rw [hc t (Finset.mem_range.1 htt)]
  ring

end

/-! ### Forces and stresses as derivatives -/

/-- The tail functions are what their names say at all distances of the configuration. -/
def ElSmooth (dip : Bool) (E : Elec ℝ) (f : Conf ℝ) (ts : List Node) (x : Nat → V3 ℝ) : Prop :=
  ∀ e ∈ entries (place f ts x), TailSmooth dip E e.n.r

theorem elSmooth_now {dip : Bool} {E : Elec ℝ} {f : Conf ℝ} {ts : List Node} {x : Nat → V3 ℝ} (h : ElSmooth dip E f ts x)
    {M : Motion} (hM : M.path M.now = reach x) : ∀ b ∈ bondsFrom f.start ts, TailSmooth dip E (b.now M).n.r := by
  intro b hb
  unfold Bond.now
  rw [hM]
  exact h (b.entry x) (by rw [entries_place]; exact List.mem_map_of_mem hb)

theorem rate_coulombTotal (M : Motion) (b : Build) (P : Pots ℝ) (E : Elec ℝ) (ew sw : ℝ) (ci : Nat) (s : ElState ℝ)
    (f : Conf ℝ) (ts : List Node) (x : Nat → V3 ℝ) (hM : M.path M.now = reach x) (hne : ts ≠ [])
    (hh : HalfList (place f ts x)) (hs : PairSmooth P f ts x) (he : ElSmooth false E f ts x) :
    HasDerivAt (fun t => reportedEnergy (fun c => (elConf b false P E ew sw ci c s).1.fv) ci (placeWith f ts (M.path t)))
      (totalRate M (coulombFull P E) f ts) M.now := by
  have hN : (ts.length : ℝ) ≠ 0 := by exact_mod_cast (List.length_pos_iff.2 hne).ne'
  have hpl := place_eq_placeWith f ts x hM
  have hh' : HalfList (placeWith f ts (M.path M.now)) := by rw [hpl]; exact hh
  have h1 := rate_elTotal M false P E 0 f ts (pairSmooth_now hs hM) (elSmooth_now he hM)
  rw [elVec_false] at h1
  refine h1.congr_of_eventuallyEq (Filter.Eventually.of_forall fun t => ?_)
  have p3 := C67_energy b P E ew sw ci (placeWith f ts (M.path t)) (halfList_placeWith hh') (aligned_placeWith f ts _) s
  unfold reportedEnergy
  simp only [p3]
  have hl : (placeWith f ts (M.path t)).atoms.length = ts.length := placeWithFrom_length _ ts f.start
  rw [hl]
  field_simp
  rw [sub_add_cancel, elTotal_false]

/-- Forces are minus the gradient of the energy. -/
theorem C67_force (b : Build) (P : Pots ℝ) (E : Elec ℝ) (ew sw : ℝ) (ci : Nat) (s : ElState ℝ) (f : Conf ℝ) (ts : List Node)
    (x : Nat → V3 ℝ) (hu : f.uf = true) (hh : HalfList (place f ts x)) (hs : PairSmooth P f ts x)
    (he : ElSmooth false E f ts x) (hw : ∀ n ∈ ts, 0 ≤ n.absforce) (j : Nat) (n : Node) (hj : ts[j]? = some n) (k : Fin 3) :
    HasDerivAt (fun t => reportedEnergy (fun c => (elConf b false P E ew sw ci c s).1.fv) ci
        (place f ts (moved x (f.start + j) k t)))
      (-reportedForce b (elConf b false P E ew sw ci (place f ts x) s).1.fv f n.absforce (f.start + j) k)
      (x (f.start + j) k) := by
  have hne : ts ≠ [] := by rintro rfl; simp at hj
  have h := rate_coulombTotal (moving x (f.start + j) k) b P E ew sw ci s f ts x (moving_now x _ k) hne hh hs he
  have hal : Aligned (place f ts x) := by rw [← placeWith_reach]; exact aligned_placeWith f ts _
  obtain ⟨-, p4, -⟩ := elConf_spec b false P E ew sw ci (place f ts x) hh hal (by simp) (by simp) s
  rw [elVec_false] at p4
  have hat : (place f ts x).atoms[j]? =
      some (⟨n.typ, n.links.map (placed x (f.start + j)), n.absforce, n.contrib⟩ : Atom ℝ) := by
    simp only [place, placeFrom_getElem?, hj, Option.map_some]
  have hF := p4 j _ hat
  have e1 : (place f ts x).uf = true := hu
  have e2 : (place f ts x).start = f.start := rfl
  have e3 : (place f ts x).force0 = f.force0 := rfl
  rw [if_pos e1, e2, e3] at hF
  refine (h.congr_of_eventuallyEq (Filter.Eventually.of_forall fun t => ?_)).congr_deriv ?_
  · show reportedEnergy _ ci (place f ts (moved x (f.start + j) k t)) = _
    rw [← placeWith_reach]
    rfl
  · rw [totalRate_moving]
    congr 1
    unfold reportedForce
    rw [hF]
    have : (1 / 10 + n.absforce : ℝ) ≠ 0 := by linarith [hw n (List.mem_of_getElem? hj)]
    unfold scaled
    by_cases hb : b.fweight = true
    · simp only [hb, Bool.and_self, if_true, forceEps, Pi.sub_apply]
      rw [div_mul_cancel₀ _ this, sub_add_cancel]
    · simp [hb]

/-- Stresses are the derivative of the energy with respect to the strain. -/
theorem C67_stress (b : Build) (P : Pots ℝ) (E : Elec ℝ) (ew sw : ℝ) (ci : Nat) (s : ElState ℝ) (f : Conf ℝ) (ts : List Node)
    (x : Nat → V3 ℝ) (hb : b.stress = true) (hu : f.uf = true) (hus : f.us = true) (hv : f.vol ≠ 0) (hne : ts ≠ [])
    (hh : HalfList (place f ts x)) (hs : PairSmooth P f ts x) (he : ElSmooth false E f ts x) (k : Fin 6) :
    HasDerivAt (fun e => reportedEnergy (fun c => (elConf b false P E ew sw ci c s).1.fv) ci
        (placeStrained f ts x (voigt k).2 (voigt k).1 e))
      (-reportedVirial (elConf b false P E ew sw ci (place f ts x) s).1.fv ci f k) 0 := by
  have h := rate_coulombTotal (straining x (voigt k).2 (voigt k).1) b P E ew sw ci s f ts x (straining_now x _ _) hne hh hs he
  refine h.congr_deriv ?_
  have hal : Aligned (place f ts x) := by rw [← placeWith_reach]; exact aligned_placeWith f ts _
  obtain ⟨-, -, -, p4, -⟩ := elConf_spec b false P E ew sw ci (place f ts x) hh hal (by simp) (by simp) s
  rw [elVec_false] at p4
  rw [totalRate_straining]
  have e1 : (place f ts x).uf = f.uf := rfl
  have e2 : (place f ts x).us = f.us := rfl
  have e3 : (place f ts x).vol = f.vol := rfl
  have e4 : (place f ts x).stress0 = f.stress0 := rfl
  unfold reportedVirial
  rw [p4, if_pos hb, Function.update_self, e1, e2, hu, hus, e3, e4]
  simp only [Bool.and_self, if_true, sub_add_cancel]
  rw [div_mul_cancel₀ _ hv]
  unfold vecStress
  rw [neg_neg]
  congr 1
  apply List.map_congr_left
  intro e _
  ring

/-- Forces of the form of `vecForce` add up to zero. -/
theorem forces_balance (b : Build) (v : FV ℝ) (g : Entry ℝ → V3 ℝ) (c : Conf ℝ) (hu : c.uf = true) (hh : HalfList c)
    (hw : ∀ a ∈ c.atoms, 0 ≤ a.absforce) (p4 : ∀ k a, c.atoms[k]? = some a → v.force (c.start + k) =
      if c.uf then scaled b true a (vecForce g c (c.start + k) - c.force0 (c.start + k)) else 0) (k : Fin 3) :
    (c.atoms.zipIdx.map fun ak => reportedForce b v c ak.1.absforce (c.start + ak.2) k).sum = 0 := by
  have h1 : (c.atoms.zipIdx.map fun ak => reportedForce b v c ak.1.absforce (c.start + ak.2) k) =
      c.atoms.zipIdx.map fun ak => vecForce g c (c.start + ak.2) k := by
    apply List.map_congr_left
    intro ak hak
    have hk : c.atoms[ak.2]? = some ak.1 := List.mem_zipIdx_iff_getElem?.1 hak
    unfold reportedForce
    rw [p4 _ _ hk, if_pos hu]
    have : (1 / 10 + ak.1.absforce : ℝ) ≠ 0 := by linarith [hw ak.1 (List.mem_of_getElem? hk)]
    unfold scaled
    by_cases hb : b.fweight = true
    · simp only [hb, Bool.and_self, if_true, forceEps, Pi.sub_apply]
      rw [div_mul_cancel₀ _ this, sub_add_cancel]
    · simp [hb]
  rw [h1, sum_zipIdx c.atoms (fun _ j => vecForce g c (c.start + j) k) 0 (⟨0, [], 0, false⟩ : Atom ℝ)]
  simp only [Nat.zero_add]
  unfold vecForce
  have hone := sum_mul_listSum (Finset.range c.atoms.length) (entries c) (fun _ => (1 : ℝ)) (fun j e =>
    (if c.start + j = e.own then g e k else 0) - (if c.start + j = e.n.nr then g e k else 0))
  simp only [one_mul] at hone
  rw [hone]
  apply List.sum_eq_zero
  intro y hy
  obtain ⟨e, he, rfl⟩ := List.mem_map.1 hy
  have r2 := hh e he
  have r1 := (entriesFrom_ge he).1
  rw [Finset.sum_sub_distrib, pick_one c.start _ e.own (fun _ => g e k) r1 (by omega),
    pick_one c.start _ e.n.nr (fun _ => g e k) (by omega) (by omega), sub_self]

/-- The forces on the atoms of a configuration add up to zero. -/
theorem C67_balance (b : Build) (P : Pots ℝ) (E : Elec ℝ) (ew sw : ℝ) (ci : Nat) (s : ElState ℝ) (c : Conf ℝ)
    (hu : c.uf = true) (hh : HalfList c) (hal : Aligned c) (hw : ∀ a ∈ c.atoms, 0 ≤ a.absforce) (k : Fin 3) :
    (c.atoms.zipIdx.map fun ak =>
      reportedForce b (elConf b false P E ew sw ci c s).1.fv c ak.1.absforce (c.start + ak.2) k).sum = 0 := by
  obtain ⟨-, p4, -⟩ := elConf_spec b false P E ew sw ci c hh hal (by simp) (by simp) s
  exact forces_balance b (elConf b false P E ew sw ci c s).1.fv _ c hu hh hw p4 k

/-! ### The tail functions of the program -/

/-- The parameters of the program: tails shifted (`elstat_shift`) or with `DSF` (`elstat_dsf`) at the cutoff. -/
noncomputable def progElec (dip dsf : Bool) (cut kappa : ℝ) (q alpha b c : Nat → ℝ) (mix tol : ℝ) : Elec ℝ where
  cut := cut
  charge := q
  alpha := alpha
  b := b
  c := c
  tail := fun r => if dsf then ⟨(elstatDsf dip cut r kappa).fn, (elstatDsf dip cut r kappa).grad,
      (elstatDsf dip cut r kappa).ggrad⟩
    else ⟨(elstatShift dip cut r kappa).fn, (elstatShift dip cut r kappa).grad, (elstatShift dip cut r kappa).ggrad⟩
  srValue := shortrangeValue
  srTerm := shortrangeTerm
  selfCoef := if dsf then dpEps * kappa / √Real.pi + ((elstatValue cut kappa).fn - (elstatValue cut kappa).grad * cut * cut) * 0.5
    else dpEps * kappa / √Real.pi
  mix := mix
  tol := tol
  sqrt := Real.sqrt

/-- Cutting off a function where value and slope vanish. -/
theorem hasDerivAt_cutAt {cut r : ℝ} {φ dφ : ℝ → ℝ} (h : HasDerivAt φ (dφ r) r) (h0 : φ cut = 0) (h1 : dφ cut = 0) :
    HasDerivAt (cutAt cut φ) (cutAt cut dφ r) r := by
  rcases lt_trichotomy r cut with hr | hr | hr
  · have e : cutAt cut dφ r = dφ r := if_pos hr
    rw [e]
    refine h.congr_of_eventuallyEq ?_
    filter_upwards [Iio_mem_nhds hr] with y hy
    exact if_pos hy
  · subst hr
    have e : cutAt r dφ r = 0 := if_neg (lt_irrefl _)
    rw [e]
    rw [h1] at h
    rw [hasDerivAt_iff_isLittleO] at h ⊢
    have hc : cutAt r φ r = 0 := if_neg (lt_irrefl _)
    rw [hc]
    rw [h0] at h
    refine Asymptotics.IsBigO.trans_isLittleO (Asymptotics.isBigO_of_le _ fun y => ?_) h
    simp only [smul_zero, sub_zero]
    unfold cutAt
    split
    · exact le_refl _
    · rw [norm_zero]
      exact norm_nonneg _
  · have e : cutAt cut dφ r = 0 := if_neg hr.not_gt
    rw [e]
    refine (hasDerivAt_const r (0 : ℝ)).congr_of_eventuallyEq ?_
    filter_upwards [Ioi_mem_nhds hr] with y hy
    exact if_neg (not_lt.2 (le_of_lt hy))

/-- At every distance except 0 the tails of the program are what their names say, also at the cutoff (`DSF` with dipoles is
excluded by the build script, C40). -/
theorem progElec_smooth (dip dsf : Bool) (hd : ¬(dip = true ∧ dsf = true)) (cut kappa : ℝ) (hc : cut ≠ 0)
    (q alpha b c : Nat → ℝ) (mix tol r : ℝ) (hr : r ≠ 0) :
    TailSmooth dip (progElec dip dsf cut kappa q alpha b c mix tol) r := by
  obtain ⟨⟨z1, z2, z3⟩, z4, z5, -⟩ := C40_cutoff dip cut kappa hc
  obtain ⟨f1, f2⟩ := C40_force dip cut r kappa hr
  have hm : ∀ φ : ℝ → ℝ, r * cutAt cut φ r = cutAt cut (fun r => r * φ r) r := by
    intro φ
    unfold cutAt
    split
    · rfl
    · rw [mul_zero]
  refine ⟨?_, ?_, ?_⟩
  · cases dsf with
    | false =>
      simp only [progElec, Bool.false_eq_true, if_false]
      rw [hm]
      exact hasDerivAt_cutAt f1 z1 (by rw [z2, mul_zero])
    | true =>
      simp only [progElec, if_true]
      rw [hm]
      exact hasDerivAt_cutAt f2 z4 (by rw [z5, mul_zero])
  · intro hdip
    subst hdip
    have hdsf : dsf = false := by simpa using hd
    subst hdsf
    simp only [progElec, Bool.false_eq_true, if_false]
    rw [hm]
    exact hasDerivAt_cutAt (C40_second cut r kappa hr) z2 (by rw [z3, mul_zero])
  · intro _ b' c'
    exact (C42_consistent r b' c' hr).1

/-- Forces of the program's own tails are minus the gradient; nothing is required of the distances but that they are not 0
and not ends of pair functions. -/
theorem C67_force_program (bd : Build) (P : Pots ℝ) (dsf : Bool) (cut kappa : ℝ) (hc : cut ≠ 0) (q alpha b c : Nat → ℝ)
    (mix tol ew sw : ℝ) (ci : Nat) (s : ElState ℝ) (f : Conf ℝ) (ts : List Node) (x : Nat → V3 ℝ) (hu : f.uf = true)
    (hh : HalfList (place f ts x)) (hs : PairSmooth P f ts x) (hw : ∀ n ∈ ts, 0 ≤ n.absforce) (j : Nat) (n : Node)
    (hj : ts[j]? = some n) (k : Fin 3) :
    let E := progElec false dsf cut kappa q alpha b c mix tol
    HasDerivAt (fun t => reportedEnergy (fun c => (elConf bd false P E ew sw ci c s).1.fv) ci
        (place f ts (moved x (f.start + j) k t)))
      (-reportedForce bd (elConf bd false P E ew sw ci (place f ts x) s).1.fv f n.absforce (f.start + j) k)
      (x (f.start + j) k) :=
  C67_force bd P _ ew sw ci s f ts x hu hh hs
    (fun e he => progElec_smooth false dsf (by simp) cut kappa hc q alpha b c mix tol e.n.r (hs e he).1) hw j n hj k

/-- Stresses likewise. -/
theorem C67_stress_program (bd : Build) (P : Pots ℝ) (dsf : Bool) (cut kappa : ℝ) (hc : cut ≠ 0) (q alpha b c : Nat → ℝ)
    (mix tol ew sw : ℝ) (ci : Nat) (s : ElState ℝ) (f : Conf ℝ) (ts : List Node) (x : Nat → V3 ℝ) (hb : bd.stress = true)
    (hu : f.uf = true) (hus : f.us = true) (hv : f.vol ≠ 0) (hne : ts ≠ []) (hh : HalfList (place f ts x))
    (hs : PairSmooth P f ts x) (k : Fin 6) :
    let E := progElec false dsf cut kappa q alpha b c mix tol
    HasDerivAt (fun e => reportedEnergy (fun c => (elConf bd false P E ew sw ci c s).1.fv) ci
        (placeStrained f ts x (voigt k).2 (voigt k).1 e))
      (-reportedVirial (elConf bd false P E ew sw ci (place f ts x) s).1.fv ci f k) 0 :=
  C67_stress bd P _ ew sw ci s f ts x hb hu hus hv hne hh hs
    (fun e he => progElec_smooth false dsf (by simp) cut kappa hc q alpha b c mix tol e.n.r (hs e he).1) k

/-- The tail less the bare Coulomb interaction tends to this number as the distance tends to 0. -/
theorem tail_limit (kappa A : ℝ) :
    Filter.Tendsto (fun r => (elstatValue r kappa).fn - dpEps / r + A) (nhdsWithin 0 {0}ᶜ)
      (nhds (-2 * (dpEps * kappa / √Real.pi) + A)) := by
  have h1 : HasDerivAt (fun r : ℝ => dpEps * erfc (kappa * r)) (-2 * (dpEps * kappa / √Real.pi)) 0 := by
    have h : HasDerivAt (fun r : ℝ => kappa * r) kappa 0 := by simpa using (hasDerivAt_id (0 : ℝ)).const_mul kappa
    have h2 : HasDerivAt (fun r => erfc (kappa * r)) (-(2 / √Real.pi) * Real.exp (-(kappa * 0) ^ 2) * kappa) 0 :=
      (erfc_hasDerivAt (kappa * 0)).comp 0 h
    refine (h2.const_mul dpEps).congr_deriv ?_
    simp
    ring
  rw [hasDerivAt_iff_tendsto_slope] at h1
  refine (h1.congr' ?_).add_const A
  filter_upwards [self_mem_nhdsWithin] with r hr
  have hr0 : r ≠ 0 := hr
  have he : erfc (kappa * 0) = 1 := by unfold erfc; simp
  rw [slope_def_field, he]
  unfold elstatValue
  simp only [sub_zero, mul_one]
  rw [sub_div]

/-- With `DSF` the self energy of a charge is half its interaction with itself without the bare Coulomb interaction: the
neutralising charge of the damped shifted force sum. -/
theorem C67_self_dsf (cut kappa : ℝ) (q alpha b c : Nat → ℝ) (mix tol : ℝ) (t : Nat) :
    let E := progElec false true cut kappa q alpha b c mix tol
    Filter.Tendsto (fun r => 1 / 2 * (E.charge t * E.charge t * ((E.tail r).fn - dpEps / r))) (nhdsWithin 0 {0}ᶜ)
      (nhds (-(E.selfCoef * E.charge t ^ 2))) := by
  intro E
  have h := tail_limit kappa (-(elstatValue cut kappa).fn + cut * (elstatValue cut kappa).grad * cut)
  have h0 : Filter.Tendsto (fun r : ℝ => r * (elstatValue cut kappa).grad * cut) (nhdsWithin 0 {0}ᶜ) (nhds 0) := by
    have : Continuous fun r : ℝ => r * (elstatValue cut kappa).grad * cut := by fun_prop
    have h := this.tendsto 0
    simp only [zero_mul] at h
    exact h.mono_left nhdsWithin_le_nhds
  have h2 := ((h.sub h0).const_mul (1 / 2 * (q t * q t)))
  refine (h2.congr fun r => ?_).trans (le_of_eq ?_)
  · simp only [E, progElec, if_true]
    unfold elstatDsf
    simp only [Bool.false_eq_true, if_false]
    ring
  · congr 1
    simp only [E, progElec, if_true]
    ring

/-- Without `DSF` the self energy lacks the part of the shift: it is larger than half the interaction of the charge with
itself by `q²` times this number. -/
theorem C67_self_shift (cut kappa : ℝ) (q alpha b c : Nat → ℝ) (mix tol : ℝ) (t : Nat) :
    let E := progElec false false cut kappa q alpha b c mix tol
    Filter.Tendsto (fun r => 1 / 2 * (E.charge t * E.charge t * ((E.tail r).fn - dpEps / r))) (nhdsWithin 0 {0}ᶜ)
      (nhds (-(E.selfCoef * E.charge t ^ 2) -
        E.charge t ^ 2 * ((elstatValue cut kappa).fn / 2 - cut ^ 2 * (elstatValue cut kappa).grad / 4))) := by
  intro E
  have h := tail_limit kappa (-(elstatValue cut kappa).fn + cut * cut * (elstatValue cut kappa).grad / 2)
  have h0 : Filter.Tendsto (fun r : ℝ => r * r * (elstatValue cut kappa).grad / 2) (nhdsWithin 0 {0}ᶜ) (nhds 0) := by
    have : Continuous fun r : ℝ => r * r * (elstatValue cut kappa).grad / 2 := by fun_prop
    have h := this.tendsto 0
    simp only [zero_mul, zero_div] at h
    exact h.mono_left nhdsWithin_le_nhds
  have h2 := ((h.sub h0).const_mul (1 / 2 * (q t * q t)))
  refine (h2.congr fun r => ?_).trans (le_of_eq ?_)
  · simp only [E, progElec, Bool.false_eq_true, if_false]
    unfold elstatShift
    simp only [Bool.false_eq_true, if_false]
    ring
  · congr 1
    simp only [E, progElec, Bool.false_eq_true, if_false]
    ring

/-! ### Examples -/

/-- The hypotheses are met (two atoms at distance 2; pair function of C17, program's tails with cutoff 10). -/
example (q : Nat → ℝ) : gradConf.uf = true ∧ gradConf.us = true ∧ gradConf.vol ≠ 0 ∧ gradNodes ≠ [] ∧
    HalfList (place gradConf gradNodes gradPos) ∧ PairSmooth (gradPots 5).toPots gradConf gradNodes gradPos ∧
    ElSmooth false (progElec false true 10 0.1 q q q q 0 0) gradConf gradNodes gradPos ∧
    Aligned (place gradConf gradNodes gradPos) :=
  ⟨rfl, rfl, one_ne_zero, by simp [gradNodes], grad_half, grad_pair 5,
    fun e he => progElec_smooth false true (by simp) 10 0.1 (by norm_num) q q q q 0 0 e.n.r (grad_pair 5 e he).1,
    by rw [← placeWith_reach]; exact aligned_placeWith _ _ _⟩

/-- Two parts of type 0 with charge 1 and one of type 1: the charge of type 1 is −2. -/
example : (elCharges 2 (fun t => if t = 0 then 2 else 1) (fun _ => (1 : ℚ))).toOption.map (· 1) = some (-2) ∧
    elCharges 2 (fun t => if t = 0 then 1 else 0) (fun _ => (1 : ℚ)) = .error .divZero :=
  ⟨by decide +kernel, (C67_last_charge _ _ _).2 rfl⟩

/-- Two atoms with charges 1 and −2 at distance 1, tail 1 up to distance 2, self energy coefficient 1: energy `−2 − 5`, for
two atoms `−7/2`. -/
example (b : Build) (s : ElState ℚ) :
    let E : Elec ℚ := ⟨2, fun t => if t = 0 then 1 else -2, 0, 0, 0, fun _ => ⟨1, 0, 0⟩, fun _ _ _ _ => 0, fun _ _ _ => 0,
      1, 0, 0, id⟩
    let P : Pots ℚ := ⟨fun _ => 0, fun _ => 0, fun _ => 1, fun _ _ => 0, fun _ _ => 0⟩
    let c : Conf ℚ := ⟨0, [⟨0, [⟨1, 1, 1, ![1, 0, 0], ![1, 0, 0], 0, 0⟩], 0, true⟩, ⟨1, [], 0, true⟩], true, true, 1, 1, 0, 0,
      0, 0, 0⟩
    (elConf b false P E 1 1 0 c s).1.fv.energy 0 = -7 / 2 := by
  intro E P c
  have hh : HalfList c := by unfold HalfList; decide +kernel
  have hal : Aligned c := by unfold Aligned; decide +kernel
  rw [C67_energy b P E 1 1 0 c hh hal s]
  decide +kernel

end Verif.Props
