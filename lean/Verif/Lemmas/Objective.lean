import Verif.Spec.Objective
import Verif.Lemmas.Gather
import Mathlib.Algebra.Order.BigOperators.Group.List
import Mathlib.Algebra.Order.BigOperators.Group.Finset

set_option linter.unusedSectionVars false

namespace Verif.Force

open Verif.Spec

variable {K : Type*} [Field K] [LinearOrder K] [IsStrictOrderedRing K]

theorem forceEps_eq : (forceEps : K) = 1 / 10 := rfl

theorem scaled_eq (b : Build) (slope : Entry K → K) (c : Conf K) (a : Atom K) (i : Nat) :
    scaled b true a (totalForce slope c i - c.force0 i) = deviation b slope c a i := by
  funext k
  unfold scaled deviation forceScale
  by_cases h : b.fweight = true
  · simp [h, forceEps]
  · simp [h]

theorem list_mul_sum {α : Type*} (l : List α) (w : K) (f : α → K) :
    (l.map fun a => w * f a).sum = w * (l.map f).sum := by
  induction l with
  | nil => simp
  | cons a l ih => simp only [List.map_cons, List.sum_cons, ih]; ring

theorem atomErr_sum (b : Build) (slope : Entry K → K) (c : Conf K) (force : Nat → V3 K)
    (hf : ∀ k a, c.atoms[k]? = some a → force (c.start + k) =
      if c.uf then scaled b true a (totalForce slope c (c.start + k) - c.force0 (c.start + k)) else 0) :
    (c.atoms.zipIdx.map fun ak => atomErr b c ak.1 (force (c.start + ak.2))).sum =
      if c.uf = true then c.weight * forceError b slope c else 0 := by
  by_cases hu : c.uf = true
  · rw [if_pos hu, forceError, ← list_mul_sum]
    congr 1
    apply List.map_congr_left
    intro ak hak
    have hk : c.atoms[ak.2]? = some ak.1 := List.mem_zipIdx_iff_getElem?.1 hak
    rw [hf _ _ hk, if_pos hu, scaled_eq]
    unfold atomErr
    have hs : ∀ v : V3 K, sq3 v = ∑ k : Fin 3, v k ^ 2 := by
      intro v; simp only [sq3, Fin.sum_univ_three]; ring
    cases hb : b.contrib <;> cases ha : ak.1.contrib <;> simp [hu, hs]
  · rw [if_neg hu]
    simp [atomErr, hu]

theorem pairConf_err (b : Build) (P : Pots K) (ew sw : K) (ci : Nat) (c : Conf K) (hh : HalfList c)
    (fv : FV K) :
    (pairConf b P ew sw ci c fv).2 = confError b (pairSlope P) (pairTotal P c) ew sw c := by
  obtain ⟨-, p2, -, -, -, p6⟩ := pairConf_spec b P ew sw ci c hh fv
  rw [p6, atomErr_sum b (pairSlope P) c _ p2]
  unfold confError energyDev stressDev pairTotal
  congr 1
  rw [Finset.mul_sum]
  simp only [Bool.and_eq_true, and_assoc]

theorem embGrad_isGradF (b : Build) (P : EamPots K) (c : Conf K) : IsGradF b P c (embGrad b P c) := by
  intro k a hk
  unfold embGrad
  rw [Nat.add_sub_cancel_left, hk]

theorem eamFullSlope_congr {b : Build} {P : EamPots K} {c : Conf K} (hh : HalfList c) {g : Nat → K}
    (h : IsGradF b P c g) : ∀ e ∈ entries c, fullSlope P g e = eamFullSlope b P c e :=
  fullSlope_congr hh h (embGrad_isGradF b P c)

theorem eamConf_err (b : Build) (P : EamPots K) (ew sw : K) (ci : Nat) (c : Conf K) (hh : HalfList c)
    (hc : EamColumns P c) (s : EamState K) :
    (eamConf b P ew sw ci c s).2 =
      (confError b (eamFullSlope b P c) (eamTotal b P c) ew sw c + limitError b P c,
       (c.atoms.zipIdx.map fun ak => (embedAt b P c ak.2 ak.1).rho).sum) := by
  obtain ⟨p0, -, -, p2, -, -, -, p6, p7⟩ := eamConf_spec b P ew sw ci c hh hc s
  have hcg := eamFullSlope_congr hh p0
  refine Prod.ext ?_ p7
  rw [p6, atomErr_sum b (eamFullSlope b P c) c _ (fun k a hk => by
    rw [p2 k a hk, totalForce_congr hcg])]
  unfold confError energyDev stressDev eamTotal limitError
  rw [totalStress_congr hcg, Finset.mul_sum]
  simp only [Bool.and_eq_true, and_assoc]

/-- Sum over the configurations. -/
theorem zipIdx_map_fst {α β : Type*} (l : List α) (n : Nat) (f : α → β) :
    (l.zipIdx n).map (fun ck => f ck.1) = l.map f := by
  induction l generalizing n with
  | nil => rfl
  | cons a l ih => simp [List.zipIdx_cons, ih]

theorem pairLoopConfs_err (b : Build) (P : Pots K) (ew sw : K) (confs : List (Conf K))
    (hh : ∀ c ∈ confs, HalfList c) (fv : FV K) :
    (confLoop (pairConf b P ew sw) confs 0 (fv, 0)).2 =
      (confs.map fun c => confError b (pairSlope P) (pairTotal P c) ew sw c).sum := by
  rw [confLoop_err (pairConf_local b P ew sw) confs 0 _
    (fun k c hk => hh c (List.mem_of_getElem? hk)), zero_add]
  rw [← zipIdx_map_fst confs 0]
  congr 1
  apply List.map_congr_left
  intro ck hck
  exact pairConf_err b P ew sw _ _ (hh _ (List.fst_mem_of_mem_zipIdx hck)) _

theorem eamLoopConfs_err (b : Build) (P : EamPots K) (ew sw : K) (confs : List (Conf K))
    (hh : ∀ c ∈ confs, HalfList c ∧ EamColumns P c) (s : EamState K) :
    (confLoop (eamConf b P ew sw) confs 0 (s, (0, 0))).2 =
      ((confs.map fun c => confError b (eamFullSlope b P c) (eamTotal b P c) ew sw c +
          limitError b P c).sum,
       (confs.map fun c => (c.atoms.zipIdx.map fun ak => (embedAt b P c ak.2 ak.1).rho).sum).sum) := by
  rw [confLoop_err (eamConf_local b P ew sw) confs 0 _
    (fun k c hk => hh c (List.mem_of_getElem? hk))]
  have h1 : ((confs.zipIdx 0).map fun ck =>
      (eamConf b P ew sw ck.2 ck.1 ⟨⟨0, 0, 0, 0⟩, 0, 0⟩).2) =
      confs.map fun c => (confError b (eamFullSlope b P c) (eamTotal b P c) ew sw c + limitError b P c,
       (c.atoms.zipIdx.map fun ak => (embedAt b P c ak.2 ak.1).rho).sum) := by
    rw [← zipIdx_map_fst confs 0]
    apply List.map_congr_left
    intro ck hck
    have := hh _ (List.fst_mem_of_mem_zipIdx hck)
    exact eamConf_err b P ew sw _ _ this.1 this.2 _
  rw [h1]
  have h2 : ∀ l : List (Conf K), ∀ f g : Conf K → K,
      ((0 : K), (0 : K)) + (l.map fun c => (f c, g c)).sum = ((l.map f).sum, (l.map g).sum) := by
    intro l f g
    have : ((0 : K), (0 : K)) = 0 := rfl
    rw [this, zero_add]
    induction l with
    | nil => rfl
    | cons c l ih => simp only [List.map_cons, List.sum_cons, ih]; rfl
  exact h2 _ _ _

theorem punishPars_sum (qs : List (Bound K)) (i : Nat) (s : Pun K) :
    (punishPars qs i s).sum = s.sum + (qs.map parPenalty).sum := by
  induction qs generalizing i s with
  | nil => simp [punishPars]
  | cons q qs ih =>
    simp only [punishPars, ih, List.map_cons, List.sum_cons, ← add_assoc]
    congr 1
    unfold punishPar parPenalty apotPunishConst
    split
    · simp only; ring
    · split
      · simp only; ring
      · simp

theorem punishEopp_sum (w : K) (l : List (Nat × K)) (s : Pun K) :
    (l.foldl (punishEopp w) s).sum = s.sum + (l.map (eoppPenalty w)).sum := by
  induction l generalizing s with
  | nil => simp
  | cons p l ih =>
    simp only [List.foldl_cons, ih, List.map_cons, List.sum_cons, ← add_assoc]
    congr 1
    unfold punishEopp eoppPenalty
    split
    · simp only; ring
    · simp

theorem punishUniversal_sum (w : K) (l : List (Nat × K)) (s r : Pun K)
    (h : l.foldlM (punishUniversal w) s = .ok r) :
    r.sum = s.sum + (l.map (universalPenalty w)).sum := by
  induction l generalizing s with
  | nil =>
    simp only [List.foldlM_nil, pure, Except.pure, Except.ok.injEq] at h
    subst h
    simp
  | cons p l ih =>
    rw [List.foldlM_cons] at h
    unfold punishUniversal at h
    by_cases hp : p.2 < 1 / 1000000
    · rw [if_pos hp] at h
      by_cases h0 : p.2 * p.2 = 0
      · simp [cdiv, h0, bind, Except.bind] at h
      · rw [cdiv_ok h0] at h
        simp only [bind, Except.bind] at h
        rw [ih _ h]
        simp only [List.map_cons, List.sum_cons, universalPenalty, hp, if_true, pow_two]
        ring
    · rw [if_neg hp] at h
      simp only [bind, Except.bind] at h
      rw [ih _ h]
      simp only [List.map_cons, List.sum_cons, universalPenalty, hp, if_false, zero_add]

theorem apotPunish_sum (w : K) (qs : List (Bound K)) (eopp univ : List (Nat × K)) (par pot : Nat → K)
    (r : Pun K) (h : apotPunish w qs eopp univ par pot = .ok r) :
    r.sum = totalPenalty w qs eopp univ := by
  unfold apotPunish at h
  rw [punishUniversal_sum w univ _ r h, punishEopp_sum, punishPars_sum]
  simp [totalPenalty]

theorem eamDummies_err (b : Build) (P : EamPots K) (dummy0 : Nat → K) (natoms : Nat) (confs : List (Conf K))
    (dummy : Nat → K) :
    (eamDummies b P dummy0 natoms (confs.map fun c => (c.atoms.zipIdx.map fun ak =>
      (embedAt b P c ak.2 ak.1).rho).sum).sum dummy).2 = gaugeError b P dummy0 natoms confs := by
  unfold eamDummies gaugeError
  by_cases h1 : b.noPunish = true
  · simp [h1]
  · have hr : ∀ f : Nat → K, ((List.range P.ntypes).map f).sum = ∑ g ∈ Finset.range P.ntypes, f g := by
      intro f
      rw [← List.sum_toFinset f List.nodup_range, List.toFinset_range]
    rw [if_neg h1, if_neg h1]
    simp only [hr, meanDensity]
    by_cases h2 : b.rescale = true
    · simp only [h2, if_true, dummySlope, dummyMean, dummyWeight]
      simp only [Bool.not_true, Bool.false_and, mul_zero, add_zero]
      rw [if_neg (by simp), mul_zero, add_zero]
      apply Finset.sum_congr rfl
      intro g _
      rw [pow_two, show ((1 : K) / 2) * (P.beg (P.paircol + P.ntypes + g) + P.fin (P.paircol + P.ntypes + g))
        = (P.beg (P.paircol + P.ntypes + g) + P.fin (P.paircol + P.ntypes + g)) / 2 by ring]
    · rw [if_neg h2]
      simp only [h2, dummySlope, dummyMean, dummyWeight]
      congr 1
      · apply Finset.sum_congr rfl
        intro g _
        rw [if_neg (by simp)]
        ring
      · by_cases h3 : 0 < (confs.map fun c => (c.atoms.zipIdx.map fun ak =>
          (embedAt b P c ak.2 ak.1).rho).sum).sum
        · rw [if_pos (by simpa [h2] using h3), if_pos h3, pow_two]
        · rw [if_neg (by simpa [h2] using h3), if_neg h3, mul_zero]

end Verif.Force
