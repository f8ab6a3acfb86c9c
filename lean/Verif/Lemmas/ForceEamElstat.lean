import Verif.Model.ForceEamElstat
import Verif.Lemmas.ForceElstat
import Verif.Lemmas.ForceEam

set_option linter.unusedSectionVars false

namespace Verif.Force

open Verif.Spec

section
variable {K : Type*} [Field K] [LinearOrder K] [IsStrictOrderedRing K]

/-- Energy added to the running sums. -/
def ElAcc.shift (t : ElAcc K) (x : K) : ElAcc K := { t with acc := { t.acc with energy := t.acc.energy + x } }

theorem ElAcc.shift_shift (t : ElAcc K) (x y : K) : (t.shift x).shift y = t.shift (x + y) := by
  simp only [ElAcc.shift, add_assoc]

theorem elNeigh2_shift (b : Build) (dip : Bool) (P : Pots K) (E : Elec K) (uf us : Bool) (i typ : Nat) (s : ElAcc K)
    (x : K) (n : Neigh K) :
    elNeigh2 b dip P E uf us i typ (s.shift x) n = (elNeigh2 b dip P E uf us i typ s n).shift x := by
  have h1 := elNeigh2_acc b dip P E uf us i typ (s.shift x) n
  have h2 := elNeigh2_acc b dip P E uf us i typ s n
  have e : ∀ u : ElAcc K, u = ⟨u.acc, u.eStat, u.pSr⟩ := fun _ => rfl
  rw [e (elNeigh2 b dip P E uf us i typ (s.shift x) n), h1]
  unfold ElAcc.shift
  rw [h2]
  simp only [elNeigh2, ElAcc.mk.injEq, Acc.mk.injEq, true_and, and_true]
  ring

theorem overNeigh_shift (b : Build) (dip : Bool) (P : Pots K) (E : Elec K) (uf us : Bool) (as : List (Atom K)) (i : Nat)
    (s : ElAcc K) (x : K) :
    overNeigh (elNeigh2 b dip P E uf us) as i (s.shift x) = (overNeigh (elNeigh2 b dip P E uf us) as i s).shift x := by
  rw [overNeigh_eq, overNeigh_eq]
  induction entriesFrom i as generalizing s with
  | nil => rfl
  | cons e l ih => rw [List.foldl_cons, List.foldl_cons, elNeigh2_shift, ih]

theorem foldl_eeNeigh2 (b : Build) (dip : Bool) (P : EamPots K) (E : Elec K) (uf us : Bool) (i typ : Nat)
    (l : List (Neigh K)) (s : EeAcc K) :
    l.foldl (eeNeigh2 b dip P E uf us i typ) s =
      { s with el := l.foldl (elNeigh2 b dip P.toPots E uf us i typ) s.el, rho := l.foldl (density P i typ) s.rho } := by
  induction l generalizing s with
  | nil => rfl
  | cons n l ih => rw [List.foldl_cons, ih]; rfl

theorem foldl_eamNeigh2_split (b : Build) (P : EamPots K) (c : Conf K) (i typ : Nat) (l : List (Neigh K)) (s : EamAcc K) :
    l.foldl (eamNeigh2 b P c i typ) s =
      { s with acc := l.foldl (pairNeigh b P.toPots c.uf c.us i) s.acc, rho := l.foldl (density P i typ) s.rho } := by
  induction l generalizing s with
  | nil => rfl
  | cons n l ih => rw [List.foldl_cons, ih]; rfl

/-- The second loop is that of the electrostatic routine and that of the EAM routine side by side. -/
theorem eeLoop2_split (b : Build) (dip : Bool) (P : EamPots K) (E : Elec K) (c : Conf K) (as : List (Atom K)) (i : Nat)
    (s : EeAcc K) (A : Acc K) :
    let q := eamLoop2 b.clamped P c as i ⟨A, s.rho, s.gradF, s.limit, s.rhoSum⟩
    eeLoop2 b dip P E c.uf c.us as i s =
      ⟨(overNeigh (elNeigh2 b dip P.toPots E c.uf c.us) as i s.el).shift
        (q.acc.energy - A.energy - ((entriesFrom i as).map (pairEnergy P.toPots)).sum),
       q.rho, q.gradF, q.limit, q.rhoSum⟩ := by
  induction as generalizing i s A with
  | nil => simp [eeLoop2, eamLoop2, overNeigh, entriesFrom, ElAcc.shift]
  | cons a as ih =>
    intro q
    simp only [eeLoop2]
    rw [foldl_eeNeigh2]
    set X := eamEmbed b.clamped P a i
      (a.neigh.foldl (eamNeigh2 b.clamped P c i a.typ) ⟨A, s.rho, s.gradF, s.limit, s.rhoSum⟩) with hX
    have hq : q = eamLoop2 b.clamped P c as (i + 1) X := rfl
    rw [foldl_eamNeigh2_split] at hX
    simp only [eamEmbed] at hX
    have hsc := foldl_scatters (pairNeigh_scatters b.clamped P.toPots c.uf c.us) i a.typ a.neigh A
    have hXe := congrArg (fun t => t.acc.energy) hX
    simp only [hsc] at hXe
    have h := ih (i + 1) (eeEmbed b P a i { s with
        el := a.neigh.foldl (elNeigh2 b dip P.toPots E c.uf c.us i a.typ) s.el
        rho := a.neigh.foldl (density P i a.typ) s.rho }) X.acc
    have hX2 : (⟨X.acc, (eeEmbed b P a i { s with
        el := a.neigh.foldl (elNeigh2 b dip P.toPots E c.uf c.us i a.typ) s.el
        rho := a.neigh.foldl (density P i a.typ) s.rho }).rho, (eeEmbed b P a i { s with
        el := a.neigh.foldl (elNeigh2 b dip P.toPots E c.uf c.us i a.typ) s.el
        rho := a.neigh.foldl (density P i a.typ) s.rho }).gradF, (eeEmbed b P a i { s with
        el := a.neigh.foldl (elNeigh2 b dip P.toPots E c.uf c.us i a.typ) s.el
        rho := a.neigh.foldl (density P i a.typ) s.rho }).limit, (eeEmbed b P a i { s with
        el := a.neigh.foldl (elNeigh2 b dip P.toPots E c.uf c.us i a.typ) s.el
        rho := a.neigh.foldl (density P i a.typ) s.rho }).rhoSum⟩ : EamAcc K) = X := by
      rw [hX]
      rfl
    rw [hX2, ← hq] at h
    simp only at h
    rw [h, hXe]
    simp only [eeEmbed]
    have hel : ∀ (t : ElAcc K) (x : K), (⟨⟨t.acc.force, t.acc.energy + x, t.acc.stress, t.acc.err⟩, t.eStat, t.pSr⟩ : ElAcc K) =
      t.shift x := fun _ _ => rfl
    simp only [hel, overNeigh_shift, ElAcc.shift_shift, overNeigh]
    congr 2
    simp only [entriesFrom, List.map_append, List.sum_append]
    ring

/-- Polarisable and unpolarisable types are not neighbours if they carry charges. -/
def SamePolar (E : Elec K) (c : Conf K) : Prop :=
  ∀ e ∈ entries c, E.charge e.n.typ ≠ 0 → (E.alpha e.otyp ≠ 0 ↔ E.alpha e.n.typ ≠ 0)

theorem eeNeigh4_eq (b : Build) (E : Elec K) (uf us : Bool) (p : Nat → V3 K) (e : Entry K) (s : DipAcc K)
    (h : E.charge e.n.typ ≠ 0 → (E.alpha e.otyp ≠ 0 ↔ E.alpha e.n.typ ≠ 0)) :
    eeNeigh4 b E uf us p e.own e.otyp s e.n = elNeigh4 b E uf us p e.own e.otyp s e.n := by
  have : (E.alpha e.n.typ ≠ 0 ∧ E.charge e.n.typ ≠ 0) = (E.alpha e.otyp ≠ 0 ∧ E.charge e.n.typ ≠ 0) := by
    apply propext
    constructor
    · intro h'; exact ⟨(h h'.2).2 h'.1, h'.2⟩
    · intro h'; exact ⟨(h h'.2).1 h'.1, h'.2⟩
  unfold eeNeigh4 elNeigh4
  simp only [this]

theorem overNeigh4_eq (b : Build) (E : Elec K) (c : Conf K) (h : SamePolar E c) (p : Nat → V3 K) (s : DipAcc K) :
    overNeigh (eeNeigh4 b E c.uf c.us p) c.atoms c.start s = overNeigh (elNeigh4 b E c.uf c.us p) c.atoms c.start s := by
  rw [overNeigh_eq, overNeigh_eq]
  apply List.foldl_ext
  intro s e he
  exact eeNeigh4_eq b E c.uf c.us p e s (h e he)

theorem eeLoop5_spec (dip : Bool) (E : Elec K) (p : Nat → V3 K) (as : List (Atom K)) (i : Nat) (s : Acc K) :
    eeLoop5 dip E p as i s =
      { s with energy := s.energy + (as.zipIdx.map fun ak => atomEnergy dip E p ak.1 (i + ak.2)).sum } := by
  induction as generalizing i s with
  | nil => simp [eeLoop5]
  | cons a as ih =>
    simp only [eeLoop5]
    rw [elSelf_acc, ih, List.zipIdx_cons, List.map_cons, List.sum_cons, ← add_assoc]
    simp only [Nat.add_zero]
    congr 3
    exact (zipIdx_shift as (fun a' x => atomEnergy dip E p a' x) i).symm

/-- The fourth loop does not depend on the energy so far. -/
theorem fourth_shift (b : Build) (E : Elec K) (c : Conf K) (p : Nat → V3 K) (hal : Aligned c) (ht : TypesMatch c)
    (hq : PolarCharged E c) (s : Acc K) (x : K) :
    (overNeigh (elNeigh4 b E c.uf c.us p) c.atoms c.start ⟨{ s with energy := s.energy + x }, 0, 0⟩).acc =
      let r := (overNeigh (elNeigh4 b E c.uf c.us p) c.atoms c.start ⟨s, 0, 0⟩).acc
      { r with energy := r.energy + x } := by
  have h := fun s : Acc K => foldl_acc (fun t : DipAcc K => t.acc)
      (fun s e => elNeigh4 b E c.uf c.us p e.own e.otyp s e.n)
      (gate c.uf fun e => chargeDipoleVec E p e + dipoleDipoleVec E p e) (fun e => chargeDipole E p e + dipoleDipole E p e)
      (vecStressOf b c.us (gate c.uf fun e => chargeDipoleVec E p e + dipoleDipoleVec E p e)) (entries c)
      (fun e he t => elNeigh4_acc b E c.uf c.us p e t (hal e he) (ht e he) (hq e he))
      ⟨s, 0, 0⟩
  rw [overNeigh_eq, overNeigh_eq]
  refine (h _).trans ?_
  have h2 := h s
  simp only at h2
  simp only [entries] at h2 ⊢
  rw [h2]
  simp only [Acc.mk.injEq, true_and, and_true]
  ring

/-- Derivative of the energy with respect to the vectors of the entries at fixed dipoles. -/
def eeVec (dip : Bool) (P : EamPots K) (E : Elec K) (p : Nat → V3 K) (gradF : Nat → K) (e : Entry K) : V3 K :=
  elVec dip P.toPots E p e + along (eamSlope P gradF) e

/-- Result for one configuration. -/
theorem eeConf_spec (b : Build) (dip : Bool) (P : EamPots K) (E : Elec K) (ew sw : K) (ci : Nat) (c : Conf K)
    (hh : HalfList c) (hcol : EamColumns P c) (hal : Aligned c) (ht : dip = true → TypesMatch c)
    (hq : dip = true → PolarCharged E c) (hp : dip = true → SamePolar E c) (s : EeState K) :
    let r := eeConf b dip P E ew sw ci c s
    let D := eeVec dip P E r.1.dip.pInd r.1.gradF
    let T := elTotal dip P.toPots E r.1.dip.pInd c + totalEmbedding b.clamped P c
    IsGradF b.clamped P c r.1.gradF ∧
    (∀ k a, c.atoms[k]? = some a → r.1.rho (c.start + k) = (embedAt b.clamped P c k a).rho) ∧
    (∀ x, (x < c.start ∨ c.start + c.atoms.length ≤ x) → r.1.fv.force x = s.fv.force x ∧ r.1.rho x = s.rho x ∧
      r.1.gradF x = s.gradF x) ∧
    (∀ k a, c.atoms[k]? = some a → r.1.fv.force (c.start + k) =
      if c.uf then scaled b true a (vecForce D c (c.start + k) - c.force0 (c.start + k)) else 0) ∧
    (r.1.fv.energy = Function.update s.fv.energy ci (T / (c.atoms.length : K) - c.energy0)) ∧
    (r.1.fv.stress = if b.stress then Function.update s.fv.stress ci
        (if c.uf && c.us then fun k => vecStress D c k / c.vol - c.stress0 k else 0)
      else s.fv.stress) ∧
    (r.1.fv.limit = Function.update s.fv.limit ci
        ((c.atoms.zipIdx.map fun ak => (embedAt b.clamped P c ak.2 ak.1).limit).sum - c.limit0)) ∧
    (r.2.1 = (c.atoms.zipIdx.map fun ak => atomErr b c ak.1 (r.1.fv.force (c.start + ak.2))).sum +
      c.weight * ew * (T / (c.atoms.length : K) - c.energy0) ^ 2 +
      (if b.stress && c.uf && c.us then ∑ k : Fin 6, c.weight * sw * (vecStress D c k / c.vol - c.stress0 k) ^ 2 else 0) +
      c.weight * ((c.atoms.zipIdx.map fun ak => (embedAt b.clamped P c ak.2 ak.1).limit).sum - c.limit0) ^ 2) ∧
    r.2.2 = (c.atoms.zipIdx.map fun ak => (embedAt b.clamped P c ak.2 ak.1).rho).sum := by
  intro r D T
  set rho0 : Nat → K := fun a => if c.start ≤ a ∧ a < c.start + c.atoms.length then 0 else s.rho a with hrho0
  set Z : Acc K := ⟨resetForces c s.fv.force, 0, 0, 0⟩ with hZ
  set q := eamLoop2 b.clamped P c c.atoms c.start ⟨Z, rho0, s.gradF, -c.limit0, 0⟩ with hqd
  set p := (eeDipoles b dip P E c s).pInd with hpd
  have hrp : r.1.dip.pInd = p := rfl
  obtain ⟨q1, -, -, -, q5, q6, q7, q8⟩ := eamLoop2_spec b.clamped P c c.atoms c.start ⟨Z, rho0, s.gradF, -c.limit0, 0⟩
    (fun e he => (hh e he).1) (fun e he => hcol e he)
  rw [← hqd] at q1 q5 q6 q7 q8
  simp only at q1 q5 q6 q7 q8
  have hdens : ∀ k, k < c.atoms.length →
      rho0 (c.start + k) + ((entriesFrom c.start c.atoms).map
        fun e => densityOn P e (c.start + k)).sum = totalDensity P c (c.start + k) := by
    intro k hk
    simp only [hrho0, show c.start ≤ c.start + k ∧ c.start + k < c.start + c.atoms.length by omega]
    simp [totalDensity, entries]
  have hemb : ∀ F : Embed K → K, (c.atoms.zipIdx.map fun ak => F (embed b.clamped P
      (P.paircol + P.ntypes + ak.1.typ) (rho0 (c.start + ak.2) + ((entriesFrom c.start c.atoms).map
        fun e => densityOn P e (c.start + ak.2)).sum))).sum =
      (c.atoms.zipIdx.map fun ak => F (embedAt b.clamped P c ak.2 ak.1)).sum := by
    intro F
    congr 1
    apply List.map_congr_left
    intro ak hak
    have hlt : ak.2 < c.atoms.length := by
      have := List.snd_lt_of_mem_zipIdx hak
      simpa using this
    rw [hdens _ hlt]
    rfl
  simp only [hemb (fun m => m.value)] at q1
  simp only [hemb (fun m => m.limit)] at q7
  simp only [hemb (fun m => m.rho)] at q8
  have hstart : eeStart b dip P E c s = ⟨(elStart b dip P.toPots E c ⟨s.fv, s.dip⟩).shift (totalEmbedding b.clamped P c),
      q.rho, q.gradF, q.limit, q.rhoSum⟩ := by
    unfold eeStart
    rw [eeLoop2_split b dip P E c c.atoms c.start _ Z]
    simp only
    rw [← hrho0, ← hqd, q1]
    congr 1
    unfold elStart
    congr 1
    unfold totalEmbedding
    rw [hZ]
    ring
  have hgf : r.1.gradF = q.gradF := by
    show (eeStart b dip P E c s).gradF = _
    rw [hstart]
  have hrho : r.1.rho = q.rho := by
    show (eeStart b dip P E c s).rho = _
    rw [hstart]
  have hlim : (eeStart b dip P E c s).limit =
      (c.atoms.zipIdx.map fun ak => (embedAt b.clamped P c ak.2 ak.1).limit).sum - c.limit0 := by
    rw [hstart]
    simp only
    rw [q7]
    ring
  -- sums before the sixth loop
  set A0 : Acc K := if dip then (overNeigh (eeNeigh4 b E c.uf c.us p) c.atoms c.start ⟨(eeStart b dip P E c s).el.acc, 0, 0⟩).acc
    else (eeStart b dip P E c s).el.acc with hA0
  have hA0' : A0 =
      ⟨fun a => resetForces c s.fv.force a + ((entries c).map (contr (gate c.uf (elVec dip P.toPots E p)) a)).sum,
       totalPairEnergy P.toPots c + ((entries c).map (elEntry dip E p)).sum + totalEmbedding b.clamped P c,
       ((entries c).map (vecStressOf b c.us (gate c.uf (elVec dip P.toPots E p)))).sum, 0⟩ := by
    have hb := elSums_before b dip P.toPots E c p hal ht hq ⟨s.fv, s.dip⟩
    rw [hA0, hstart]
    cases hd : dip with
    | false =>
      subst hd
      simp only [Bool.false_eq_true, if_false] at hb ⊢
      simp only [ElAcc.shift, hb]
    | true =>
      subst hd
      simp only [if_true] at hb ⊢
      rw [overNeigh4_eq b E c (hp rfl)]
      simp only [ElAcc.shift]
      rw [fourth_shift b E c p hal (ht rfl) (hq rfl), hb]
  set A1 : Acc K := eeLoop5 dip E p c.atoms c.start A0 with hA1
  have hA1' : A1 =
      ⟨fun a => resetForces c s.fv.force a + ((entries c).map (contr (gate c.uf (elVec dip P.toPots E p)) a)).sum, T,
       ((entries c).map (vecStressOf b c.us (gate c.uf (elVec dip P.toPots E p)))).sum, 0⟩ := by
    rw [hA1, eeLoop5_spec, hA0']
    simp only [Acc.mk.injEq, true_and, and_true, T, elTotal, hrp]
    ring
  set A : Acc K := if c.uf then forceLoop b c (fun i typ => eamNeigh3 b P c.us q.gradF i typ) c.atoms c.start A1 else A1 with hA
  have hAspec : A.energy = T ∧
      (A.stress = if c.uf && (b.stress && c.us) then fun k => vecStress D c k else 0) ∧
      (∀ x, (x < c.start ∨ c.start + c.atoms.length ≤ x) → A.force x = s.fv.force x) ∧
      (∀ k a, c.atoms[k]? = some a → A.force (c.start + k) =
        if c.uf then scaled b true a (vecForce D c (c.start + k) - c.force0 (c.start + k)) else 0) ∧
      A.err = (c.atoms.zipIdx.map fun ak => atomErr b c ak.1 (A.force (c.start + ak.2))).sum := by
    by_cases hu : c.uf = true
    · have hA' : A = forceLoop b c (fun i typ s n =>
          ⟨scatter s.force i n.nr (tmpOf true (eamSlope P q.gradF) ⟨i, typ, n⟩), s.energy + 0,
           s.stress + stressOf b true c.us (eamSlope P q.gradF) ⟨i, typ, n⟩, s.err⟩)
          c.atoms c.start A1 := by
        rw [hA, if_pos hu]
        apply forceLoop_congr
        intro e he s'
        exact eamNeigh3_eq b P c.us q.gradF e.own e.otyp s' e.n (hcol e he).1
      obtain ⟨w1, w2, w3, w4, w5⟩ := forceLoop_spec (b := b) (c := c)
        (tmp := tmpOf true (eamSlope P q.gradF)) (en := fun _ => 0)
        (st := stressOf b true c.us (eamSlope P q.gradF)) ⟨fun _ _ _ _ => rfl⟩
        c.atoms c.start A1 (fun e he => (hh e he).1)
      rw [← hA'] at w1 w2 w3 w4 w5
      have hg : gate c.uf (elVec dip P.toPots E p) = elVec dip P.toPots E p := by funext e; simp [gate, hu]
      have hfull : ∀ x, A1.force x + ((entriesFrom c.start c.atoms).map
          (contr (tmpOf true (eamSlope P q.gradF)) x)).sum = resetForces c s.fv.force x + vecForce D c x := by
        intro x
        rw [hA1', hg, tmpOf_along]
        simp only
        have e1 := sum_contr_vec (elVec dip P.toPots E p) c x
        have e2 := sum_contr_vec (along (eamSlope P q.gradF)) c x
        unfold entries at *
        rw [e1, e2, add_assoc, ← vecForce_add]
        simp only [D, hrp, hgf]
        rfl
      have hst : stressOf b true c.us (eamSlope P q.gradF) = vecStressOf b c.us (along (eamSlope P q.gradF)) := by
        funext e
        unfold stressOf vecStressOf
        rw [← virial_tmpOf, tmpOf_along]
        simp only [Bool.true_and]
      refine ⟨?_, ?_, ?_, ?_, ?_⟩
      · rw [w1, hA1']
        simp only [List.map_const', List.sum_replicate, smul_zero, add_zero]
      · rw [w2, hst, hA1', hg]
        simp only
        have e1 : ((entries c).map (vecStressOf b c.us (elVec dip P.toPots E p))).sum +
            ((entriesFrom c.start c.atoms).map (vecStressOf b c.us (along (eamSlope P q.gradF)))).sum =
            ((entries c).map (vecStressOf b c.us D)).sum := by
          show _ + ((entries c).map _).sum = _
          rw [← List.sum_map_add]
          congr 1
          apply List.map_congr_left
          intro e _
          rw [vecStressOf_add]
          simp only [D, hrp, hgf]
          rfl
        rw [e1, hu]
        by_cases hs : (b.stress && c.us) = true
        · simp only [hs, Bool.and_self, if_true]
          have e2 : vecStressOf b c.us D = fun e => -virial e.n.dist (D e) := by
            funext e
            simp [vecStressOf, hs]
          funext k
          rw [e2]
          exact sum_vecStress D c k
        · have e2 : vecStressOf b c.us D = fun _ => 0 := by
            funext e
            simp [vecStressOf, hs]
          rw [e2]
          simp [hs]
      · intro x hx
        rw [w3 x hx, hfull, vecForce_outside _ hh hx, add_zero]
        unfold resetForces
        rw [if_neg (by omega)]
      · intro k a hk
        have hlt : k < c.atoms.length := (List.getElem?_eq_some_iff.1 hk).1
        rw [w4 k a hk, hfull, hu, if_pos rfl]
        congr 1
        unfold resetForces
        rw [if_pos (by omega), hu]
        simp only [if_true]
        abel
      · rw [w5, hA1', zero_add]
    · have hA' : A = A1 := by rw [hA, if_neg hu]
      have hg : gate c.uf (elVec dip P.toPots E p) = fun _ => 0 := by funext e; simp [gate, hu]
      have hf : ∀ x, A1.force x = resetForces c s.fv.force x := by
        intro x
        rw [hA1', hg]
        simp only
        rw [List.sum_eq_zero, add_zero]
        intro y hy
        obtain ⟨e, -, rfl⟩ := List.mem_map.1 hy
        simp [contr]
      rw [hA']
      refine ⟨?_, ?_, ?_, ?_, ?_⟩
      · rw [hA1']
      · rw [hA1', hg]
        have e2 : vecStressOf b c.us (fun _ => (0 : V3 K)) = fun _ => 0 := by
          funext e
          simp [vecStressOf, virial_zero]
        simp [hu, e2]
      · intro x hx
        rw [hf]
        unfold resetForces
        rw [if_neg (by omega)]
      · intro k a hk
        have hlt : k < c.atoms.length := (List.getElem?_eq_some_iff.1 hk).1
        rw [hf, if_neg hu]
        unfold resetForces
        rw [if_pos (by omega), if_neg hu]
      · rw [hA1']
        simp [atomErr, hu]
  obtain ⟨a1, a2, a3, a4, a5⟩ := hAspec
  have hr : r = (⟨⟨(closeConf b ew sw c A).force, Function.update s.fv.energy ci (closeConf b ew sw c A).energy,
      if b.stress then Function.update s.fv.stress ci (closeConf b ew sw c A).stress else s.fv.stress,
      Function.update s.fv.limit ci (eeStart b dip P E c s).limit⟩, eeDipoles b dip P E c s,
      (eeStart b dip P E c s).rho, (eeStart b dip P E c s).gradF⟩,
      (closeConf b ew sw c A).err + c.weight * ((eeStart b dip P E c s).limit * (eeStart b dip P E c s).limit),
      (eeStart b dip P E c s).rhoSum) := by
    have : A = (if c.uf then forceLoop b c (fun i typ => eamNeigh3 b P c.us (eeStart b dip P E c s).gradF i typ) c.atoms
        c.start A1 else A1) := by rw [hA, hstart]
    rw [this]
    rfl
  have hforce : r.1.fv.force = A.force := by
    rw [hr]
    simp only [closeConf]
    split <;> rfl
  refine ⟨?_, ?_, ?_, ?_, ?_, ?_, ?_, ?_, ?_⟩
  · intro k a hk
    have hlt : k < c.atoms.length := (List.getElem?_eq_some_iff.1 hk).1
    rw [hgf, (q6 k a hk).2, hdens k hlt]
    rfl
  · intro k a hk
    have hlt : k < c.atoms.length := (List.getElem?_eq_some_iff.1 hk).1
    rw [hrho, (q6 k a hk).1, hdens k hlt]
    rfl
  · intro x hx
    refine ⟨by rw [hforce]; exact a3 x hx, ?_, ?_⟩
    · rw [hrho, (q5 x hx).1]
      simp only [hrho0]
      rw [if_neg (by omega), density_sum_eq_zero, add_zero]
      intro e he
      have h1 := hh e he
      have h2 := entriesFrom_ge he
      omega
    · rw [hgf, (q5 x hx).2]
  · intro k a hk
    rw [hforce]
    exact a4 k a hk
  · rw [hr]
    simp only [closeConf]
    split <;> simp only [a1]
  · rw [hr]
    simp only [closeConf]
    by_cases h1 : b.stress = true
    · by_cases h2 : c.uf = true
      · by_cases h3 : c.us = true
        · simp [h1, h2, h3, a2]
        · simp [h1, h2, h3, a2]
      · simp [h1, h2, a2]
    · simp [h1]
  · rw [hr]
    simp only [hlim]
  · rw [hforce, ← a5, hr]
    simp only [closeConf, hlim]
    by_cases h1 : (b.stress && c.uf && c.us) = true
    · have h2 : c.uf && (b.stress && c.us) := by
        simp only [Bool.and_eq_true] at h1 ⊢; tauto
      simp only [h1, if_true, a2, a1, h2, List.sum_ofFn, pow_two]
    · simp only [h1, a1, pow_two]
      simp
  · rw [hr]
    simp only
    rw [hstart]
    exact q8.trans (zero_add _)

end

end Verif.Force
