import Verif.Lemmas.ForcePair
import Verif.Spec.ForceEam

set_option linter.unusedSectionVars false

namespace Verif.Force

open Verif.Spec

variable {K : Type*} [Field K] [LinearOrder K] [IsStrictOrderedRing K]

theorem addRho_apply (rho : Nat → K) (i : Nat) (v : K) (a : Nat) :
    addRho rho i v a = rho a + if a = i then v else 0 := by
  unfold addRho
  by_cases h : a = i
  · subst h; simp
  · simp [h]

theorem density_apply (P : EamPots K) (i typ : Nat) (rho : Nat → K) (n : Neigh K)
    (h1 : n.col1 = P.paircol + n.typ) (h2 : n.nr = i → n.typ = typ) (a : Nat) :
    density P i typ rho n a = rho a + densityOn P ⟨i, typ, n⟩ a := by
  unfold density densityOn
  by_cases ht : typ = n.typ
  · subst ht
    rw [if_pos rfl, h1]
    by_cases hr : n.r < P.fin (P.paircol + n.typ)
    · rw [if_pos hr]
      by_cases hs : n.nr = i
      · simp only [hs, if_true, addRho_apply, transfer, hr]
        simp
      · simp only [hs, if_false, addRho_apply, transfer, hr]
        by_cases ha : a = n.nr <;> by_cases hb : a = i <;> simp_all
    · simp [hr, transfer]
  · have hs : n.nr ≠ i := fun h => ht (h2 h).symm
    rw [if_neg ht, h1]
    simp only [transfer]
    by_cases hr : n.r < P.fin (P.paircol + n.typ)
    · by_cases hr' : n.r < P.fin (P.paircol + typ)
      · simp only [hr, hr', if_true, addRho_apply]
        by_cases ha : a = n.nr <;> by_cases hb : a = i <;> simp_all
      · simp only [hr, hr', if_true, if_false, addRho_apply]
        simp
    · by_cases hr' : n.r < P.fin (P.paircol + typ)
      · simp only [hr, hr', if_true, if_false, addRho_apply]
        by_cases ha : a = n.nr <;> by_cases hb : a = i <;> simp_all
      · simp [hr, hr']

theorem foldl_eamNeigh2 (b : Build) (P : EamPots K) (c : Conf K) (i typ : Nat) (l : List (Neigh K))
    (hl : ∀ n ∈ l, n.col1 = P.paircol + n.typ ∧ (n.nr = i → n.typ = typ)) (s : EamAcc K) :
    l.foldl (eamNeigh2 b P c i typ) s =
      ⟨l.foldl (pairNeigh b P.toPots c.uf c.us i) s.acc,
       fun a => s.rho a + ((l.map fun n => (⟨i, typ, n⟩ : Entry K)).map fun e => densityOn P e a).sum,
       s.gradF, s.limit, s.rhoSum⟩ := by
  induction l generalizing s with
  | nil => simp
  | cons n l ih =>
    rw [List.foldl_cons, ih (fun n hn => hl n (by simp [hn]))]
    have hn := hl n (by simp)
    simp only [eamNeigh2, List.foldl_cons, List.map_cons, List.sum_cons]
    congr 1
    funext a
    rw [density_apply P i typ s.rho n hn.1 hn.2, add_assoc]

theorem density_sum_eq_zero (P : EamPots K) (a : Nat) (l : List (Entry K))
    (h : ∀ e ∈ l, a ≠ e.own ∧ a ≠ e.n.nr) : (l.map fun e => densityOn P e a).sum = 0 := by
  induction l with
  | nil => rfl
  | cons e l ih =>
    have h1 := h e (by simp)
    rw [List.map_cons, List.sum_cons, ih (fun e he => h e (by simp [he]))]
    simp [densityOn, h1.1, h1.2]

/-- Second loop of the EAM routine. -/
theorem eamLoop2_spec (b : Build) (P : EamPots K) (c : Conf K) (as : List (Atom K)) (i : Nat)
    (s : EamAcc K) (hh : ∀ e ∈ entriesFrom i as, e.own ≤ e.n.nr)
    (hc : ∀ e ∈ entriesFrom i as, e.n.col1 = P.paircol + e.n.typ ∧
      (e.n.nr = e.own → e.n.typ = e.otyp)) :
    let r := eamLoop2 b P c as i s
    let dens := fun x => s.rho x + ((entriesFrom i as).map fun e => densityOn P e x).sum
    let emb := fun (ak : Atom K × Nat) =>
      embed b P (P.paircol + P.ntypes + ak.1.typ) (dens (i + ak.2))
    (r.acc.energy = s.acc.energy + ((entriesFrom i as).map (pairEnergy P.toPots)).sum +
      (as.zipIdx.map fun ak => (emb ak).value).sum) ∧
    (r.acc.stress = s.acc.stress +
      ((entriesFrom i as).map (stressOf b c.uf c.us (pairSlope P.toPots))).sum) ∧
    (r.acc.err = s.acc.err) ∧
    (∀ x, r.acc.force x = s.acc.force x +
      ((entriesFrom i as).map (contr (tmpOf c.uf (pairSlope P.toPots)) x)).sum) ∧
    (∀ x, (x < i ∨ i + as.length ≤ x) → r.rho x = dens x ∧ r.gradF x = s.gradF x) ∧
    (∀ k a, as[k]? = some a → r.rho (i + k) = (emb (a, k)).rho ∧ r.gradF (i + k) = (emb (a, k)).grad) ∧
    (r.limit = s.limit + (as.zipIdx.map fun ak => (emb ak).limit).sum) ∧
    (r.rhoSum = s.rhoSum + (as.zipIdx.map fun ak => (emb ak).rho).sum) := by
  induction as generalizing i s with
  | nil => simp [eamLoop2, entriesFrom]
  | cons a as ih =>
    have hh1 : ∀ e ∈ entriesFrom (i + 1) as, e.own ≤ e.n.nr := fun e he =>
      hh e (by simp [entriesFrom, he])
    have hc1 : ∀ e ∈ entriesFrom (i + 1) as, e.n.col1 = P.paircol + e.n.typ ∧
        (e.n.nr = e.own → e.n.typ = e.otyp) := fun e he => hc e (by simp [entriesFrom, he])
    have htail : ∀ x, x ≤ i → ((entriesFrom (i + 1) as).map fun e => densityOn P e x).sum = 0 := by
      intro x hx
      refine density_sum_eq_zero _ _ _ ?_
      intro e he
      have h1 := hh1 e he
      have h2 := entriesFrom_ge he
      omega
    have hhead : ∀ n ∈ a.neigh, n.col1 = P.paircol + n.typ ∧ (n.nr = i → n.typ = a.typ) := by
      intro n hn
      exact hc ⟨i, a.typ, n⟩ (by simp [entriesFrom, hn])
    have hsc := foldl_scatters (pairNeigh_scatters b P.toPots c.uf c.us) i a.typ a.neigh s.acc
    intro r dens emb
    have hr : r = eamLoop2 b P c as (i + 1) (eamEmbed b P a i
        (a.neigh.foldl (eamNeigh2 b P c i a.typ) s)) := rfl
    rw [foldl_eamNeigh2 b P c i a.typ a.neigh hhead s, hsc] at hr
    have hsplit : ∀ x, dens x = s.rho x +
        ((a.neigh.map fun n => (⟨i, a.typ, n⟩ : Entry K)).map fun e => densityOn P e x).sum +
        ((entriesFrom (i + 1) as).map fun e => densityOn P e x).sum := by
      intro x
      simp only [dens, entriesFrom, List.map_append, List.sum_append, add_assoc]
    obtain ⟨q1, q2, q3, q4, q5, q6, q7, q8⟩ := ih (i + 1) (eamEmbed b P a i
      ⟨⟨fun x => s.acc.force x + ((a.neigh.map fun n => (⟨i, a.typ, n⟩ : Entry K)).map
          (contr (tmpOf c.uf (pairSlope P.toPots)) x)).sum,
        s.acc.energy + ((a.neigh.map fun n => (⟨i, a.typ, n⟩ : Entry K)).map
          (pairEnergy P.toPots)).sum,
        s.acc.stress + ((a.neigh.map fun n => (⟨i, a.typ, n⟩ : Entry K)).map
          (stressOf b c.uf c.us (pairSlope P.toPots))).sum, s.acc.err⟩,
       fun x => s.rho x +
        ((a.neigh.map fun n => (⟨i, a.typ, n⟩ : Entry K)).map fun e => densityOn P e x).sum,
       s.gradF, s.limit, s.rhoSum⟩) hh1 hc1
    rw [← hr] at q1 q2 q3 q4 q5 q6 q7 q8
    simp only [eamEmbed] at q1 q2 q3 q4 q5 q6 q7 q8
    -- the density used for atom `i` is the complete one
    have hdi : s.rho i + ((a.neigh.map fun n => (⟨i, a.typ, n⟩ : Entry K)).map
        fun e => densityOn P e i).sum = dens i := by
      rw [hsplit, htail i (le_refl _), add_zero]
    rw [hdi] at q1 q5 q6 q7 q8
    -- densities of later atoms
    have hdx : ∀ x, x ≠ i → Function.update (fun x => s.rho x +
        ((a.neigh.map fun n => (⟨i, a.typ, n⟩ : Entry K)).map fun e => densityOn P e x).sum) i
          (embed b P (P.paircol + P.ntypes + a.typ) (dens i)).rho x +
        ((entriesFrom (i + 1) as).map fun e => densityOn P e x).sum = dens x := by
      intro x hx
      rw [Function.update_of_ne hx, hsplit]
    have hemb : (fun (ak : Atom K × Nat) => embed b P (P.paircol + P.ntypes + ak.1.typ)
        (Function.update (fun x => s.rho x +
        ((a.neigh.map fun n => (⟨i, a.typ, n⟩ : Entry K)).map fun e => densityOn P e x).sum) i
          (embed b P (P.paircol + P.ntypes + a.typ) (dens i)).rho (i + 1 + ak.2) +
        ((entriesFrom (i + 1) as).map fun e => densityOn P e (i + 1 + ak.2)).sum)) =
        fun ak => embed b P (P.paircol + P.ntypes + ak.1.typ) (dens (i + 1 + ak.2)) := by
      funext ak
      rw [hdx _ (by omega)]
    have hemb' := fun ak => congrFun hemb ak
    have hz : ∀ F : Embed K → K, ((a :: as).zipIdx.map fun ak => F (emb ak)).sum =
        F (embed b P (P.paircol + P.ntypes + a.typ) (dens i)) +
        (as.zipIdx.map fun ak => F (embed b P (P.paircol + P.ntypes + ak.1.typ)
          (dens (i + 1 + ak.2)))).sum := by
      intro F
      rw [List.zipIdx_cons, List.map_cons, List.sum_cons]
      congr 1
      rw [← zipIdx_shift as
        (fun a' x => F (embed b P (P.paircol + P.ntypes + a'.typ) (dens x))) i]
    simp only [hemb'] at q1 q6 q7 q8
    refine ⟨?_, ?_, ?_, ?_, ?_, ?_, ?_, ?_⟩
    · rw [q1, hz (fun m => m.value)]
      simp only [entriesFrom, List.map_append, List.sum_append]
      ring
    · rw [q2]
      simp only [entriesFrom, List.map_append, List.sum_append, add_assoc]
    · exact q3
    · intro x
      rw [q4]
      simp only [entriesFrom, List.map_append, List.sum_append, add_assoc]
    · intro x hx
      simp only [List.length_cons] at hx
      obtain ⟨h1, h2⟩ := q5 x (by omega)
      refine ⟨?_, ?_⟩
      · rw [h1]; exact hdx x (by omega)
      · rw [h2, Function.update_of_ne (by omega)]
    · intro k a' hk
      cases k with
      | zero =>
        simp only [List.getElem?_cons_zero, Option.some.injEq] at hk
        subst hk
        obtain ⟨h1, h2⟩ := q5 i (by omega)
        simp only [Nat.add_zero]
        refine ⟨?_, ?_⟩
        · rw [h1, Function.update_self, htail i (le_refl _), add_zero]
          rfl
        · rw [h2, Function.update_self]
          rfl
      | succ k =>
        rw [List.getElem?_cons_succ] at hk
        obtain ⟨h1, h2⟩ := q6 k a' hk
        rw [show i + (k + 1) = i + 1 + k by omega]
        refine ⟨?_, ?_⟩
        · rw [h1, hdx _ (by omega)]
          simp only [emb, show i + (k + 1) = i + 1 + k by omega]
        · rw [h2, hdx _ (by omega)]
          simp only [emb, show i + (k + 1) = i + 1 + k by omega]
    · rw [q7, hz (fun m => m.limit), add_assoc]
    · rw [q8, hz (fun m => m.rho), add_assoc]

theorem eamSlopeC_eq (P : EamPots K) (gradF : Nat → K) (i typ : Nat) (n : Neigh K)
    (h1 : n.col1 = P.paircol + n.typ) :
    eamSlopeC P gradF i typ n = eamSlope P gradF ⟨i, typ, n⟩ := by
  unfold eamSlopeC eamSlope transferSlope
  rw [h1]
  by_cases hr : n.r < P.fin (P.paircol + n.typ)
  · by_cases ht : typ = n.typ
    · subst ht; simp [hr]
    · simp [hr, ht]
  · by_cases hr' : n.r < P.fin (P.paircol + typ)
    · have ht : typ ≠ n.typ := by rintro rfl; exact hr hr'
      simp [hr, hr', ht]
    · simp [hr, hr']

/-- Third loop: entry contributions. -/
theorem eamNeigh3_eq (b : Build) (P : EamPots K) (us : Bool) (gradF : Nat → K) (i typ : Nat)
    (s : Acc K) (n : Neigh K) (h1 : n.col1 = P.paircol + n.typ) :
    eamNeigh3 b P us gradF i typ s n =
      ⟨scatter s.force i n.nr (tmpOf true (eamSlope P gradF) ⟨i, typ, n⟩), s.energy + 0,
       s.stress + stressOf b true us (eamSlope P gradF) ⟨i, typ, n⟩, s.err⟩ := by
  unfold eamNeigh3
  by_cases hr : n.r < P.fin n.col1 ∨ n.r < P.fin (P.paircol + typ)
  · rw [if_pos hr]
    have htmp : (fun k => n.distR k * (if n.nr = i then eamSlopeC P gradF i typ n * (1 / 2)
        else eamSlopeC P gradF i typ n)) = tmpOf true (eamSlope P gradF) ⟨i, typ, n⟩ := by
      funext k
      simp only [tmpOf, if_true, eamSlopeC_eq P gradF i typ n h1]
    simp only [htmp, add_zero]
    congr 1
    have hv := virial_tmpOf (eamSlope P gradF) ⟨i, typ, n⟩
    by_cases hs : (b.stress && us) = true
    · simp only [hs, if_true, stressOf, Bool.and_self]
      rw [← hv, sub_eq_add_neg]
    · simp [hs, stressOf]
  · rw [if_neg hr]
    have hz : eamSlope P gradF ⟨i, typ, n⟩ = 0 := by
      rw [← eamSlopeC_eq P gradF i typ n h1]
      unfold eamSlopeC
      rw [if_neg hr]
    have h0 : tmpOf true (eamSlope P gradF) ⟨i, typ, n⟩ = 0 := by funext k; simp [tmpOf, hz]
    have h1' : scatter s.force i n.nr (0 : V3 K) = s.force := by
      funext a; rw [scatter_apply]; simp
    have h2 : stressOf b true us (eamSlope P gradF) ⟨i, typ, n⟩ = 0 := by
      unfold stressOf
      split
      · funext k; simp [entryStress, hz]
      · rfl
    rw [h0, h1', h2]
    simp

/-- The loop depends on the body only through the entries. -/
theorem forceLoop_congr {b : Build} {c : Conf K} {body body' : Nat → Nat → Acc K → Neigh K → Acc K}
    (as : List (Atom K)) (i : Nat) (s : Acc K)
    (h : ∀ e ∈ entriesFrom i as, ∀ s, body e.own e.otyp s e.n = body' e.own e.otyp s e.n) :
    forceLoop b c body as i s = forceLoop b c body' as i s := by
  induction as generalizing i s with
  | nil => rfl
  | cons a as ih =>
    simp only [forceLoop]
    have : ∀ s, a.neigh.foldl (body i a.typ) s = a.neigh.foldl (body' i a.typ) s := by
      intro s
      apply List.foldl_ext
      intro s n hn
      exact h ⟨i, a.typ, n⟩ (by simp [entriesFrom, hn]) s
    rw [this]
    exact ih (i + 1) _ (fun e he s => h e (by simp [entriesFrom, he]) s)

/-- Sum of two slopes. -/
theorem totalForce_add (p q : Entry K → K) (c : Conf K) (a : Nat) :
    totalForce (fun e => p e + q e) c a = totalForce p c a + totalForce q c a := by
  unfold totalForce
  induction entries c with
  | nil => simp
  | cons e l ih =>
    simp only [List.map_cons, List.sum_cons, ih]
    have : forceOn (fun e => p e + q e) e a = forceOn p e a + forceOn q e a := by
      unfold forceOn
      split
      · simp
      · split
        · funext k; simp only [Pi.add_apply]; ring
        · split
          · funext k; simp only [Pi.add_apply]; ring
          · simp
    rw [this]
    abel

theorem totalStress_add (p q : Entry K → K) (c : Conf K) :
    totalStress (fun e => p e + q e) c = totalStress p c + totalStress q c := by
  unfold totalStress
  induction entries c with
  | nil => simp
  | cons e l ih =>
    simp only [List.map_cons, List.sum_cons, ih]
    have : entryStress (fun e => p e + q e) e = entryStress p e + entryStress q e := by
      funext k
      simp only [entryStress, Pi.add_apply]
      split <;> ring
    rw [this]
    abel

/-- Slopes of the embedding functions at the total densities. -/
def IsGradF (b : Build) (P : EamPots K) (c : Conf K) (gradF : Nat → K) : Prop :=
  ∀ k a, c.atoms[k]? = some a → gradF (c.start + k) = (embedAt b P c k a).grad

/-- Total slope of an entry: pair and EAM part. -/
def fullSlope (P : EamPots K) (gradF : Nat → K) (e : Entry K) : K :=
  pairSlope P.toPots e + eamSlope P gradF e

/-- Result for one configuration. -/
theorem eamConf_spec (b : Build) (P : EamPots K) (ew sw : K) (ci : Nat) (c : Conf K)
    (hh : HalfList c) (hcol : EamColumns P c) (s : EamState K) :
    let r := eamConf b P ew sw ci c s
    IsGradF b P c r.1.gradF ∧
    (∀ k a, c.atoms[k]? = some a → r.1.rho (c.start + k) = (embedAt b P c k a).rho) ∧
    (∀ x, (x < c.start ∨ c.start + c.atoms.length ≤ x) →
      r.1.fv.force x = s.fv.force x ∧ r.1.rho x = s.rho x ∧ r.1.gradF x = s.gradF x) ∧
    (∀ k a, c.atoms[k]? = some a → r.1.fv.force (c.start + k) =
      if c.uf then scaled b true a
        (totalForce (fullSlope P r.1.gradF) c (c.start + k) - c.force0 (c.start + k))
      else 0) ∧
    (r.1.fv.energy = Function.update s.fv.energy ci
      ((totalPairEnergy P.toPots c + totalEmbedding b P c) / (c.atoms.length : K) - c.energy0)) ∧
    (r.1.fv.stress = if b.stress then Function.update s.fv.stress ci
        (if c.uf && c.us then
          fun k => totalStress (fullSlope P r.1.gradF) c k / c.vol - c.stress0 k else 0)
      else s.fv.stress) ∧
    (r.1.fv.limit = if b.rescale then Function.update s.fv.limit ci
        ((c.atoms.zipIdx.map fun ak => (embedAt b P c ak.2 ak.1).limit).sum - c.limit0)
      else s.fv.limit) ∧
    (r.2.1 = (c.atoms.zipIdx.map fun ak => atomErr b c ak.1 (r.1.fv.force (c.start + ak.2))).sum +
      c.weight * ew * ((totalPairEnergy P.toPots c + totalEmbedding b P c) / (c.atoms.length : K)
        - c.energy0) ^ 2 +
      (if b.stress && c.uf && c.us then
        ∑ k : Fin 6, c.weight * sw *
          (totalStress (fullSlope P r.1.gradF) c k / c.vol - c.stress0 k) ^ 2
       else 0) +
      (if b.rescale then c.weight *
        ((c.atoms.zipIdx.map fun ak => (embedAt b P c ak.2 ak.1).limit).sum - c.limit0) ^ 2
       else 0)) ∧
    r.2.2 = (c.atoms.zipIdx.map fun ak => (embedAt b P c ak.2 ak.1).rho).sum := by
  intro r
  set rho0 : Nat → K := fun a =>
    if c.start ≤ a ∧ a < c.start + c.atoms.length then 0 else s.rho a with hrho0
  set lim0 : K := if b.rescale then -c.limit0 else 0 with hlim0
  set t := eamLoop2 b P c c.atoms c.start
    ⟨⟨resetForces c s.fv.force, 0, 0, 0⟩, rho0, s.gradF, lim0, 0⟩ with ht
  obtain ⟨q1, q2, q3, q4, q5, q6, q7, q8⟩ := eamLoop2_spec b P c c.atoms c.start
    ⟨⟨resetForces c s.fv.force, 0, 0, 0⟩, rho0, s.gradF, lim0, 0⟩
    (fun e he => (hh e he).1) (fun e he => hcol e he)
  rw [← ht] at q1 q2 q3 q4 q5 q6 q7 q8
  simp only at q1 q2 q3 q4 q5 q6 q7 q8
  have hdens : ∀ k, k < c.atoms.length →
      rho0 (c.start + k) + ((entriesFrom c.start c.atoms).map
        fun e => densityOn P e (c.start + k)).sum = totalDensity P c (c.start + k) := by
    intro k hk
    simp only [hrho0, show c.start ≤ c.start + k ∧ c.start + k < c.start + c.atoms.length by omega]
    simp [totalDensity, entries]
  have hemb : ∀ F : Embed K → K, (c.atoms.zipIdx.map fun ak => F (embed b P
      (P.paircol + P.ntypes + ak.1.typ) (rho0 (c.start + ak.2) + ((entriesFrom c.start c.atoms).map
        fun e => densityOn P e (c.start + ak.2)).sum))).sum =
      (c.atoms.zipIdx.map fun ak => F (embedAt b P c ak.2 ak.1)).sum := by
    intro F
    congr 1
    apply List.map_congr_left
    intro ak hak
    have hlt : ak.2 < c.atoms.length := by
      have := List.snd_lt_of_mem_zipIdx hak
      simpa using this
    rw [hdens _ hlt]
    rfl
  simp only [hemb (fun m => m.value)] at q1
  simp only [hemb (fun m => m.limit)] at q7
  simp only [hemb (fun m => m.rho)] at q8
  have hgf : r.1.gradF = t.gradF := rfl
  have hrho : r.1.rho = t.rho := rfl
  -- the third loop
  set A : Acc K := if c.uf then
      forceLoop b c (fun i typ => eamNeigh3 b P c.us t.gradF i typ) c.atoms c.start t.acc
    else t.acc with hA
  have hAspec : A.energy = totalPairEnergy P.toPots c + totalEmbedding b P c ∧
      A.stress = rawStress b (fullSlope P t.gradF) c ∧
      (∀ x, (x < c.start ∨ c.start + c.atoms.length ≤ x) → A.force x = s.fv.force x) ∧
      (∀ k a, c.atoms[k]? = some a → A.force (c.start + k) =
        if c.uf then scaled b true a
          (totalForce (fullSlope P t.gradF) c (c.start + k) - c.force0 (c.start + k)) else 0) ∧
      A.err = (c.atoms.zipIdx.map fun ak => atomErr b c ak.1 (A.force (c.start + ak.2))).sum := by
    by_cases hu : c.uf = true
    · have hA' : A = forceLoop b c (fun i typ s n =>
          ⟨scatter s.force i n.nr (tmpOf true (eamSlope P t.gradF) ⟨i, typ, n⟩), s.energy + 0,
           s.stress + stressOf b true c.us (eamSlope P t.gradF) ⟨i, typ, n⟩, s.err⟩)
          c.atoms c.start t.acc := by
        rw [hA, if_pos hu]
        apply forceLoop_congr
        intro e he s'
        exact eamNeigh3_eq b P c.us t.gradF e.own e.otyp s' e.n (hcol e he).1
      obtain ⟨w1, w2, w3, w4, w5⟩ := forceLoop_spec (b := b) (c := c)
        (tmp := tmpOf true (eamSlope P t.gradF)) (en := fun _ => 0)
        (st := stressOf b true c.us (eamSlope P t.gradF)) ⟨fun _ _ _ _ => rfl⟩
        c.atoms c.start t.acc (fun e he => (hh e he).1)
      rw [← hA'] at w1 w2 w3 w4 w5
      have hfull : ∀ x, t.acc.force x + ((entriesFrom c.start c.atoms).map
          (contr (tmpOf true (eamSlope P t.gradF)) x)).sum =
          resetForces c s.fv.force x + totalForce (fullSlope P t.gradF) c x := by
        intro x
        have h1 := sum_contr true (eamSlope P t.gradF) c x
        have h2 := sum_contr true (pairSlope P.toPots) c x
        rw [if_pos rfl] at h1 h2
        rw [h1, q4, hu, h2, add_assoc]
        congr 1
        exact (totalForce_add _ _ _ _).symm
      refine ⟨?_, ?_, ?_, ?_, ?_⟩
      · rw [w1, q1]
        simp [totalPairEnergy, entries, totalEmbedding]
      · rw [w2, q2, hu]
        have h1 := sum_stressOf b (eamSlope P t.gradF) c
        have h2 := sum_stressOf b (pairSlope P.toPots) c
        rw [hu] at h1 h2
        rw [h1, h2]
        simp only [rawStress, hu]
        split
        · rw [show fullSlope P t.gradF = fun e => pairSlope P.toPots e + eamSlope P t.gradF e from rfl,
            totalStress_add]
          simp
        · simp
      · intro x hx
        rw [w3 x hx, hfull, totalForce_outside _ hh hx, add_zero]
        unfold resetForces
        rw [if_neg (by omega)]
      · intro k a hk
        have hlt : k < c.atoms.length := (List.getElem?_eq_some_iff.1 hk).1
        rw [w4 k a hk, hfull, hu, if_pos rfl]
        congr 1
        unfold resetForces
        rw [if_pos (by omega), hu]
        simp only [if_true]
        abel
      · rw [w5, q3, zero_add]
    · have hA' : A = t.acc := by rw [hA, if_neg hu]
      have hf : ∀ x, t.acc.force x = resetForces c s.fv.force x := by
        intro x
        rw [q4]
        have := sum_contr c.uf (pairSlope P.toPots) c x
        rw [if_neg hu] at this
        rw [this, add_zero]
      rw [hA']
      refine ⟨?_, ?_, ?_, ?_, ?_⟩
      · rw [q1]
        simp [totalPairEnergy, entries, totalEmbedding]
      · rw [q2, sum_stressOf]
        simp [rawStress, hu]
      · intro x hx
        rw [hf]
        unfold resetForces
        rw [if_neg (by omega)]
      · intro k a hk
        have hlt : k < c.atoms.length := (List.getElem?_eq_some_iff.1 hk).1
        rw [hf, if_neg hu]
        unfold resetForces
        rw [if_pos (by omega), if_neg hu]
      · rw [q3]
        simp [atomErr, hu]
  obtain ⟨a1, a2, a3, a4, a5⟩ := hAspec
  have hforce : r.1.fv.force = A.force := by
    simp only [r, eamConf, closeConf]
    rw [← hrho0, ← hlim0, ← ht, ← hA]
    split <;> rfl
  have hlim : t.limit = (if b.rescale then (c.atoms.zipIdx.map
      fun ak => (embedAt b P c ak.2 ak.1).limit).sum - c.limit0 else t.limit) := by
    split
    · rename_i hb
      rw [q7, hlim0, if_pos hb]; ring
    · rfl
  refine ⟨?_, ?_, ?_, ?_, ?_, ?_, ?_, ?_, ?_⟩
  · intro k a hk
    have hlt : k < c.atoms.length := (List.getElem?_eq_some_iff.1 hk).1
    rw [hgf, (q6 k a hk).2, hdens k hlt]
    rfl
  · intro k a hk
    have hlt : k < c.atoms.length := (List.getElem?_eq_some_iff.1 hk).1
    rw [hrho, (q6 k a hk).1, hdens k hlt]
    rfl
  · intro x hx
    refine ⟨by rw [hforce]; exact a3 x hx, ?_, ?_⟩
    · rw [hrho, (q5 x hx).1]
      simp only [hrho0]
      rw [if_neg (by omega), density_sum_eq_zero, add_zero]
      intro e he
      have h1 := hh e he
      have h2 := entriesFrom_ge he
      omega
    · rw [hgf, (q5 x hx).2]
  · intro k a hk
    rw [hforce, hgf]
    exact a4 k a hk
  · simp only [r, eamConf, closeConf]
    rw [← hrho0, ← hlim0, ← ht, ← hA]
    split <;> simp only [a1]
  · simp only [hgf]
    simp only [r, eamConf, closeConf]
    rw [← hrho0, ← hlim0, ← ht, ← hA]
    by_cases h1 : b.stress = true
    · by_cases h2 : c.uf = true
      · by_cases h3 : c.us = true
        · simp [h1, h2, h3, a2, rawStress]
        · simp [h1, h2, h3, a2, rawStress]
      · simp [h1, h2, a2, rawStress]
    · simp [h1]
  · simp only [r, eamConf]
    rw [← hrho0, ← hlim0, ← ht]
    split
    · rename_i hb
      rw [hlim, if_pos hb]
    · rfl
  · rw [hforce, ← a5, hgf]
    simp only [r, eamConf, closeConf]
    rw [← hrho0, ← hlim0, ← ht, ← hA]
    have hl2 : b.rescale = true → t.limit = (c.atoms.zipIdx.map
      fun ak => (embedAt b P c ak.2 ak.1).limit).sum - c.limit0 := by
      intro hb; rw [hlim, if_pos hb]
    by_cases h1 : (b.stress && c.uf && c.us) = true
    · have h2 : c.uf && (b.stress && c.us) := by
        simp only [Bool.and_eq_true] at h1 ⊢; tauto
      by_cases hb : b.rescale = true
      · simp only [h1, if_true, a2, a1, rawStress, h2, List.sum_ofFn, pow_two, hb, hl2 hb]
      · simp only [h1, if_true, a2, a1, rawStress, h2, List.sum_ofFn, pow_two, hb]
        simp
    · by_cases hb : b.rescale = true
      · simp only [h1, a1, pow_two, hb, hl2 hb]
        simp
      · simp only [h1, a1, pow_two, hb]
        simp
  · exact q8.trans (zero_add _)

end Verif.Force
