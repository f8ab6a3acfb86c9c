import Verif.Lemmas.ForceAdp

set_option linter.unusedSectionVars false

namespace Verif.Force

open Verif.Spec

variable {K : Type*} [Field K] [LinearOrder K] [IsStrictOrderedRing K]

/-- Stress of an entry with force vector `g e`. -/
def vecStressOf (b : Build) (us : Bool) (g : Entry K → V3 K) (e : Entry K) : Fin 6 → K :=
  if b.stress && us then -virial e.n.dist (g e) else 0

theorem applyForce_eq (b : Build) (us : Bool) (g : Entry K → V3 K) (i typ : Nat) (n : Neigh K) (s : Acc K) :
    applyForce b us i n (g ⟨i, typ, n⟩) s =
      ⟨scatter s.force i n.nr (g ⟨i, typ, n⟩), s.energy + 0, s.stress + vecStressOf b us g ⟨i, typ, n⟩, s.err⟩ := by
  simp only [applyForce, vecStressOf, add_zero, Acc.mk.injEq, true_and, and_true]
  by_cases h : (b.stress && us) = true
  · simp only [h, if_true, sub_eq_add_neg]
  · simp [h]

theorem virial_voigt (d v : V3 K) (k : Fin 6) : virial d v k = d (voigt k).1 * v (voigt k).2 := by
  fin_cases k <;> simp [virial, voigt]

theorem sumFn {α ι : Type*} (l : List α) (f : α → ι → K) (k : ι) : (l.map f).sum k = (l.map fun a => f a k).sum := by
  induction l with
  | nil => rfl
  | cons a l ih => simp only [List.map_cons, List.sum_cons, Pi.add_apply, ih]

theorem sum_vecStress (g : Entry K → V3 K) (c : Conf K) (k : Fin 6) :
    ((entriesFrom c.start c.atoms).map fun e => -virial e.n.dist (g e)).sum k = vecStress g c k := by
  rw [sumFn]
  unfold vecStress entries
  induction entriesFrom c.start c.atoms with
  | nil => simp
  | cons e l ih =>
    rw [List.map_cons, List.map_cons, List.sum_cons, List.sum_cons, ih, Pi.neg_apply, virial_voigt, neg_add]

theorem sum_contr_vec (g : Entry K → V3 K) (c : Conf K) (a : Nat) :
    ((entriesFrom c.start c.atoms).map (contr g a)).sum = vecForce g c a := by
  funext k
  rw [sumFn]
  unfold vecForce entries
  congr 1
  apply List.map_congr_left
  intro e _
  simp only [contr, Pi.sub_apply]
  by_cases h1 : a = e.own
  · by_cases h2 : a = e.n.nr
    · simp only [if_pos h1, if_pos h2]
    · simp only [if_pos h1, if_neg h2, Pi.zero_apply]
  · by_cases h2 : a = e.n.nr
    · simp only [if_neg h1, if_pos h2, Pi.zero_apply]
    · simp only [if_neg h1, if_neg h2, Pi.zero_apply]

theorem tmpOf_along (slope : Entry K → K) : tmpOf true slope = along slope := by
  funext e k
  simp only [tmpOf, along, if_true, mul_one_div]

theorem vecForce_add (g h : Entry K → V3 K) (c : Conf K) (a : Nat) :
    vecForce (fun e => g e + h e) c a = vecForce g c a + vecForce h c a := by
  funext k
  unfold vecForce
  rw [Pi.add_apply, ← List.sum_map_add]
  congr 1
  apply List.map_congr_left
  intro e _
  by_cases h1 : a = e.own
  · by_cases h2 : a = e.n.nr
    · simp only [if_pos h1, if_pos h2, Pi.add_apply]; ring
    · simp only [if_pos h1, if_neg h2, Pi.add_apply]; ring
  · by_cases h2 : a = e.n.nr
    · simp only [if_neg h1, if_pos h2, Pi.add_apply]; ring
    · simp only [if_neg h1, if_neg h2]; ring

theorem vecStress_add (g h : Entry K → V3 K) (c : Conf K) (k : Fin 6) :
    vecStress (fun e => g e + h e) c k = vecStress g c k + vecStress h c k := by
  unfold vecStress
  rw [← neg_add, ← List.sum_map_add]
  congr 2
  apply List.map_congr_left
  intro e _
  simp only [Pi.add_apply]
  ring

theorem vecForce_congr {g h : Entry K → V3 K} {c : Conf K} (hg : ∀ e ∈ entries c, e.n.nr ≠ e.own → g e = h e) (a : Nat) :
    vecForce g c a = vecForce h c a := by
  funext k
  unfold vecForce
  congr 1
  apply List.map_congr_left
  intro e he
  by_cases hs : e.n.nr = e.own
  · rw [hs]; simp
  · rw [hg e he hs]

theorem vecForce_outside (g : Entry K → V3 K) {c : Conf K} (hh : HalfList c) {a : Nat}
    (ha : a < c.start ∨ c.start + c.atoms.length ≤ a) : vecForce g c a = 0 := by
  rw [← sum_contr_vec]
  refine contr_sum_eq_zero _ _ _ ?_
  intro e he
  have h1 := hh e he
  have h2 := entriesFrom_ge he
  omega

/-- What the routine uses as derivative of the energy with respect to the vector of an entry. -/
def adpCode (P : EamPots K) (gradF : Nat → K) (mu : Nat → V3 K) (lam : Nat → Fin 3 → Fin 3 → K) (e : Entry K) : V3 K :=
  adpVec P gradF mu lam e - quadrupoleLost P lam e

theorem adpCode_force (P : EamPots K) (gradF : Nat → K) (mu : Nat → V3 K) (lam : Nat → Fin 3 → Fin 3 → K) (c : Conf K)
    (a : Nat) : vecForce (adpCode P gradF mu lam) c a = vecForce (adpVec P gradF mu lam) c a := by
  apply vecForce_congr
  intro e _ hs
  unfold adpCode
  have : quadrupoleLost P lam e = 0 := by
    funext k
    simp only [quadrupoleLost, if_neg hs, Pi.zero_apply]
  rw [this, sub_zero]

/-- Result for one configuration. -/
theorem adpConf_spec (b : Build) (P : EamPots K) (ew sw : K) (ci : Nat) (c : Conf K) (hh : HalfList c)
    (hcol : EamColumns P c) (hal : Aligned c) (s : AdpState K) :
    let r := adpConf b P ew sw ci c s
    let D := adpVec P r.1.gradF (totalDipole P c) (totalQuadrupole P c)
    let C := adpCode P r.1.gradF (totalDipole P c) (totalQuadrupole P c)
    let E := totalPairEnergy P.toPots c + totalEmbedding b P c + totalDistortion P c
    let L := (c.atoms.zipIdx.map fun ak => (embedAt b P c ak.2 ak.1).limit).sum - c.limit0
    IsGradF b P c r.1.gradF ∧
    (∀ k a, c.atoms[k]? = some a → r.1.rho (c.start + k) = (embedAt b P c k a).rho ∧
      r.1.mu (c.start + k) = totalDipole P c (c.start + k) ∧
      (∀ m, r.1.lam (c.start + k) m = totalQuadrupole P c (c.start + k) (voigt m).1 (voigt m).2) ∧
      r.1.nu (c.start + k) = ∑ m : Fin 3, totalQuadrupole P c (c.start + k) m m) ∧
    (∀ x, (x < c.start ∨ c.start + c.atoms.length ≤ x) → r.1.fv.force x = s.fv.force x ∧ r.1.rho x = s.rho x ∧
      r.1.gradF x = s.gradF x ∧ r.1.mu x = s.mu x ∧ r.1.lam x = s.lam x ∧ r.1.nu x = s.nu x) ∧
    (∀ k a, c.atoms[k]? = some a → r.1.fv.force (c.start + k) =
      if c.uf then scaled b true a (vecForce D c (c.start + k) - c.force0 (c.start + k)) else 0) ∧
    (r.1.fv.energy = Function.update s.fv.energy ci (E / (c.atoms.length : K) - c.energy0)) ∧
    (r.1.fv.stress = if b.stress then Function.update s.fv.stress ci
        (if c.uf && c.us then fun k => vecStress C c k / c.vol - c.stress0 k else 0)
      else s.fv.stress) ∧
    (r.1.fv.limit = Function.update s.fv.limit ci L) ∧
    (r.2.1 = (c.atoms.zipIdx.map fun ak => atomErr b c ak.1 (r.1.fv.force (c.start + ak.2))).sum +
      c.weight * ew * (E / (c.atoms.length : K) - c.energy0) ^ 2 +
      (if b.stress && c.uf && c.us then ∑ k : Fin 6, c.weight * sw * (vecStress C c k / c.vol - c.stress0 k) ^ 2 else 0) +
      c.weight * L ^ 2) ∧
    r.2.2 = (c.atoms.zipIdx.map fun ak => (embedAt b P c ak.2 ak.1).rho).sum := by
  intro r D C E L
  set inside : Nat → Prop := fun a => c.start ≤ a ∧ a < c.start + c.atoms.length with hin
  set rho0 : Nat → K := fun a => if c.start ≤ a ∧ a < c.start + c.atoms.length then 0 else s.rho a with hrho0
  set mu0 : Nat → V3 K := fun a => if c.start ≤ a ∧ a < c.start + c.atoms.length then 0 else s.mu a with hmu0
  set lam0 : Nat → Fin 6 → K := fun a => if c.start ≤ a ∧ a < c.start + c.atoms.length then 0 else s.lam a with hlam0
  set e0 : EamAcc K := ⟨⟨resetForces c s.fv.force, 0, 0, 0⟩, rho0, s.gradF, -c.limit0, 0⟩ with he0
  set u := eamLoop2 b P c c.atoms c.start e0 with hu
  obtain ⟨q1, q2, q3, q4, q5, q6, q7, q8⟩ := eamLoop2_spec b P c c.atoms c.start e0 (fun e he => (hh e he).1)
    (fun e he => hcol e he)
  rw [← hu] at q1 q2 q3 q4 q5 q6 q7 q8
  simp only [he0] at q1 q2 q3 q4 q5 q6 q7 q8
  set t := adpLoop2 b P c c.atoms c.start ⟨e0, mu0, lam0, s.nu⟩ with ht
  obtain ⟨w1, w2, w3, w4, w5⟩ := adpLoop2_spec b P c c.atoms c.start ⟨e0, mu0, lam0, s.nu⟩ (fun e he => (hh e he).1)
    (fun e he => hal e he)
  rw [← ht] at w1 w2 w3 w4 w5
  rw [← hu] at w1
  have hdens : ∀ k, k < c.atoms.length → rho0 (c.start + k) + ((entriesFrom c.start c.atoms).map
      fun e => densityOn P e (c.start + k)).sum = totalDensity P c (c.start + k) := by
    intro k hk
    simp only [hrho0, show c.start ≤ c.start + k ∧ c.start + k < c.start + c.atoms.length by omega]
    simp [totalDensity, entries]
  have hemb : ∀ F : Embed K → K, (c.atoms.zipIdx.map fun ak => F (embed b P
      (P.paircol + P.ntypes + ak.1.typ) (rho0 (c.start + ak.2) + ((entriesFrom c.start c.atoms).map
        fun e => densityOn P e (c.start + ak.2)).sum))).sum =
      (c.atoms.zipIdx.map fun ak => F (embedAt b P c ak.2 ak.1)).sum := by
    intro F
    congr 1
    apply List.map_congr_left
    intro ak hak
    have hlt : ak.2 < c.atoms.length := by
      have := List.snd_lt_of_mem_zipIdx hak
      simpa using this
    rw [hdens _ hlt]
    rfl
  simp only [hemb (fun m => m.value)] at q1
  simp only [hemb (fun m => m.limit)] at q7
  simp only [hemb (fun m => m.rho)] at q8
  have hmuIn : ∀ k, k < c.atoms.length → t.mu (c.start + k) = totalDipole P c (c.start + k) := by
    intro k hk
    funext m
    rw [w2]
    simp only [hmu0, show c.start ≤ c.start + k ∧ c.start + k < c.start + c.atoms.length by omega]
    simp [totalDipole, entries]
  have hlamIn : ∀ k, k < c.atoms.length → ∀ m, t.lam (c.start + k) m =
      totalQuadrupole P c (c.start + k) (voigt m).1 (voigt m).2 := by
    intro k hk m
    rw [w3]
    simp only [hlam0, show c.start ≤ c.start + k ∧ c.start + k < c.start + c.atoms.length by omega]
    simp [totalQuadrupole, entries]
  have hnuIn : ∀ k, k < c.atoms.length → t.nu (c.start + k) = totalQuadrupole P c (c.start + k) 0 0 +
      totalQuadrupole P c (c.start + k) 1 1 + totalQuadrupole P c (c.start + k) 2 2 := by
    intro k hk
    rw [w4 k hk, hlamIn k hk, hlamIn k hk, hlamIn k hk]
    rfl
  have hdis : ∑ j ∈ Finset.range c.atoms.length, adpEnergy (t.mu (c.start + j)) (t.lam (c.start + j)) =
      totalDistortion P c := by
    unfold totalDistortion
    apply Finset.sum_congr rfl
    intro j hj
    rw [Finset.mem_range] at hj
    rw [hmuIn j hj]
    exact adpEnergy_eq _ _ _ (hlamIn j hj) (totalQuadrupole_symm P c _)
  rw [hdis] at w1
  have hgfE : t.eam.gradF = u.gradF := by rw [w1]; rfl
  have hgf : r.1.gradF = u.gradF := hgfE
  have hrho : r.1.rho = u.rho := by
    show t.eam.rho = u.rho
    rw [w1]; rfl
  have hmu : r.1.mu = t.mu := rfl
  have hlam : r.1.lam = t.lam := rfl
  have hnu : r.1.nu = t.nu := rfl
  have hacc : t.eam.acc = { u.acc with energy := u.acc.energy + totalDistortion P c } := by rw [w1]; rfl
  have hlimE : t.eam.limit = L := by
    rw [w1]
    show u.limit = L
    rw [q7]
    simp only [L]
    ring
  have hsumE : t.eam.rhoSum = u.rhoSum := by rw [w1]; rfl
  set A : Acc K := if c.uf then forceLoop b c (fun i typ => adpNeigh3 b P c.us t i typ) c.atoms c.start t.eam.acc
    else t.eam.acc with hA
  have hAspec : A.energy = E ∧
      A.stress = (if c.uf && (b.stress && c.us) then fun k => vecStress C c k else 0) ∧
      (∀ x, (x < c.start ∨ c.start + c.atoms.length ≤ x) → A.force x = s.fv.force x) ∧
      (∀ k a, c.atoms[k]? = some a → A.force (c.start + k) =
        if c.uf then scaled b true a (vecForce D c (c.start + k) - c.force0 (c.start + k)) else 0) ∧
      A.err = (c.atoms.zipIdx.map fun ak => atomErr b c ak.1 (A.force (c.start + ak.2))).sum := by
    have henergy : t.eam.acc.energy = E := by
      rw [hacc]
      show u.acc.energy + totalDistortion P c = E
      rw [q1]
      simp [E, totalPairEnergy, entries, totalEmbedding]
    have hstress : t.eam.acc.stress = u.acc.stress := by rw [hacc]
    have hforce : t.eam.acc.force = u.acc.force := by rw [hacc]
    have herr : t.eam.acc.err = u.acc.err := by rw [hacc]
    by_cases huf : c.uf = true
    · set G : Entry K → V3 K := fun e => along (eamSlope P u.gradF) e + dipoleVec P (totalDipole P c) e +
        (quadrupoleVec P (totalQuadrupole P c) e - quadrupoleLost P (totalQuadrupole P c) e) with hG
      have hA' : A = forceLoop b c (fun i typ s n =>
          ⟨scatter s.force i n.nr (G ⟨i, typ, n⟩), s.energy + 0,
           s.stress + vecStressOf b c.us G ⟨i, typ, n⟩, s.err⟩) c.atoms c.start t.eam.acc := by
        rw [hA, if_pos huf]
        apply forceLoop_congr
        intro e he s'
        have h1 := hh e he
        have h2 := entriesFrom_ge he
        have ho : e.own = c.start + (e.own - c.start) := by omega
        have hn : e.n.nr = c.start + (e.n.nr - c.start) := by omega
        have so : Stores t.lam t.nu (totalQuadrupole P c) e.own := by
          rw [ho]
          exact ⟨hlamIn _ (by omega), hnuIn _ (by omega), totalQuadrupole_symm P c _⟩
        have sn : Stores t.lam t.nu (totalQuadrupole P c) e.n.nr := by
          rw [hn]
          exact ⟨hlamIn _ (by omega), hnuIn _ (by omega), totalQuadrupole_symm P c _⟩
        have mo : t.mu e.own = totalDipole P c e.own := by rw [ho]; exact hmuIn _ (by omega)
        have mn : t.mu e.n.nr = totalDipole P c e.n.nr := by rw [hn]; exact hmuIn _ (by omega)
        rw [adpNeigh3, eamNeigh3_applyForce b P c.us _ e.own e.otyp s' e.n (hcol e he).1,
          adpNeighU_applyForce b P c.us _ e.own e.otyp, adpNeighW_applyForce b P c.us _ _ _ e.own e.otyp _ _ so sn,
          applyForce_applyForce, applyForce_applyForce, hgfE]
        have hd : dipoleVec P t.mu ⟨e.own, e.otyp, e.n⟩ = dipoleVec P (totalDipole P c) ⟨e.own, e.otyp, e.n⟩ := by
          funext k
          simp only [dipoleVec, mo, mn]
        rw [hd, ← add_assoc]
        exact applyForce_eq b c.us G e.own e.otyp e.n s'
      obtain ⟨v1, v2, v3, v4, v5⟩ := forceLoop_spec (b := b) (c := c) (tmp := G) (en := fun _ => 0)
        (st := vecStressOf b c.us G) ⟨fun _ _ _ _ => rfl⟩ c.atoms c.start t.eam.acc (fun e he => (hh e he).1)
      rw [← hA'] at v1 v2 v3 v4 v5
      have hGC : (fun e => along (pairSlope P.toPots) e + G e) = C := by
        funext e k
        simp only [hG, C, adpCode, adpVec, hgf, along, Pi.add_apply, Pi.sub_apply]
        by_cases hs : e.n.nr = e.own
        · simp only [if_pos hs]; ring
        · simp only [if_neg hs]; ring
      have hfull : ∀ x, t.eam.acc.force x + ((entriesFrom c.start c.atoms).map (contr G x)).sum =
          resetForces c s.fv.force x + vecForce D c x := by
        intro x
        rw [hforce, q4, huf, tmpOf_along, sum_contr_vec, sum_contr_vec, add_assoc, ← vecForce_add, hGC]
        congr 1
        exact adpCode_force _ _ _ _ _ _
      refine ⟨?_, ?_, ?_, ?_, ?_⟩
      · rw [v1, henergy]
        simp
      · rw [v2, hstress, q2, huf]
        by_cases hs : (b.stress && c.us) = true
        · simp only [hs, Bool.and_self, if_true]
          have e1 : stressOf b true c.us (pairSlope P.toPots) = fun e => -virial e.n.dist (along (pairSlope P.toPots) e) := by
            funext e
            rw [← tmpOf_along, virial_tmpOf]
            simp [stressOf, hs]
          have e2 : vecStressOf b c.us G = fun e => -virial e.n.dist (G e) := by
            funext e
            simp [vecStressOf, hs]
          funext k
          rw [e1, e2, Pi.add_apply, Pi.add_apply, sum_vecStress, sum_vecStress, Pi.zero_apply, zero_add, ← vecStress_add,
            hGC]
        · have e1 : stressOf b true c.us (pairSlope P.toPots) = fun _ => 0 := by
            funext e
            simp [stressOf, hs]
          have e2 : vecStressOf b c.us G = fun _ => 0 := by
            funext e
            simp [vecStressOf, hs]
          rw [e1, e2]
          simp [hs]
      · intro x hx
        rw [v3 x hx, hfull, vecForce_outside _ hh hx, add_zero]
        unfold resetForces
        rw [if_neg (by omega)]
      · intro k a hk
        have hlt : k < c.atoms.length := (List.getElem?_eq_some_iff.1 hk).1
        rw [v4 k a hk, hfull, huf, if_pos rfl]
        congr 1
        unfold resetForces
        rw [if_pos (by omega), huf]
        simp only [if_true]
        abel
      · rw [v5, herr, q3, zero_add]
    · have hA' : A = t.eam.acc := by rw [hA, if_neg huf]
      have hf : ∀ x, t.eam.acc.force x = resetForces c s.fv.force x := by
        intro x
        rw [hforce, q4]
        have := sum_contr c.uf (pairSlope P.toPots) c x
        rw [if_neg huf] at this
        rw [this, add_zero]
      rw [hA']
      refine ⟨henergy, ?_, ?_, ?_, ?_⟩
      · rw [hstress, q2, sum_stressOf]
        simp [rawStress, huf]
      · intro x hx
        rw [hf]
        unfold resetForces
        rw [if_neg (by omega)]
      · intro k a hk
        have hlt : k < c.atoms.length := (List.getElem?_eq_some_iff.1 hk).1
        rw [hf, if_neg huf]
        unfold resetForces
        rw [if_pos (by omega), if_neg huf]
      · rw [herr, q3]
        simp [atomErr, huf]
  obtain ⟨a1, a2, a3, a4, a5⟩ := hAspec
  have hr : r = (⟨⟨(closeConf b ew sw c A).force, Function.update s.fv.energy ci (closeConf b ew sw c A).energy,
      if b.stress then Function.update s.fv.stress ci (closeConf b ew sw c A).stress else s.fv.stress,
      Function.update s.fv.limit ci t.eam.limit⟩, t.eam.rho, t.eam.gradF, t.mu, t.lam, t.nu⟩,
      (closeConf b ew sw c A).err + c.weight * (t.eam.limit * t.eam.limit), t.eam.rhoSum) := rfl
  have hforce : r.1.fv.force = A.force := by
    rw [hr]
    simp only [closeConf]
    split <;> rfl
  refine ⟨?_, ?_, ?_, ?_, ?_, ?_, ?_, ?_, ?_⟩
  · intro k a hk
    have hlt : k < c.atoms.length := (List.getElem?_eq_some_iff.1 hk).1
    rw [hgf, (q6 k a hk).2, hdens k hlt]
    rfl
  · intro k a hk
    have hlt : k < c.atoms.length := (List.getElem?_eq_some_iff.1 hk).1
    refine ⟨?_, ?_, ?_, ?_⟩
    · rw [hrho, (q6 k a hk).1, hdens k hlt]
      rfl
    · rw [hmu]; exact hmuIn k hlt
    · rw [hlam]; exact hlamIn k hlt
    · rw [hnu, hnuIn k hlt, Fin.sum_univ_three]
  · intro x hx
    have hne : ∀ e ∈ entriesFrom c.start c.atoms, x ≠ e.own ∧ x ≠ e.n.nr := by
      intro e he
      have h1 := hh e he
      have h2 := entriesFrom_ge he
      omega
    refine ⟨by rw [hforce]; exact a3 x hx, ?_, ?_, ?_, ?_, ?_⟩
    · rw [hrho, (q5 x hx).1]
      simp only [hrho0]
      rw [if_neg (by omega), density_sum_eq_zero _ _ _ hne, add_zero]
    · rw [hgf, (q5 x hx).2]
    · funext k
      rw [hmu, w2, hmu0]
      simp only
      rw [if_neg (by omega), List.sum_eq_zero, add_zero]
      intro y hy
      obtain ⟨e, he, rfl⟩ := List.mem_map.1 hy
      simp [dipoleOn, (hne e he).1, (hne e he).2]
    · funext k
      rw [hlam, w3, hlam0]
      simp only
      rw [if_neg (by omega), List.sum_eq_zero, add_zero]
      intro y hy
      obtain ⟨e, he, rfl⟩ := List.mem_map.1 hy
      simp [quadrupoleOn, (hne e he).1, (hne e he).2]
    · rw [hnu, w5 x hx]
  · intro k a hk
    rw [hforce]
    exact a4 k a hk
  · rw [hr]
    simp only [closeConf]
    split <;> simp only [a1]
  · rw [hr]
    simp only [closeConf]
    by_cases h1 : b.stress = true
    · by_cases h2 : c.uf = true
      · by_cases h3 : c.us = true
        · simp [h1, h2, h3, a2]
        · simp [h1, h2, h3, a2]
      · simp [h1, h2, a2]
    · simp [h1]
  · rw [hr, hlimE]
  · rw [hforce, ← a5, hr]
    simp only [closeConf, hlimE]
    by_cases h1 : (b.stress && c.uf && c.us) = true
    · have h2 : c.uf && (b.stress && c.us) := by
        simp only [Bool.and_eq_true] at h1 ⊢; tauto
      simp only [h1, if_true, a2, a1, h2, List.sum_ofFn, pow_two]
    · simp only [h1, a1, pow_two]
      simp
  · rw [hr]
    show t.eam.rhoSum = _
    rw [hsumE]
    exact q8.trans (zero_add _)

end Verif.Force
