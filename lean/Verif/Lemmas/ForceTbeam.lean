import Verif.Spec.ForceTbeam
import Verif.Lemmas.ForceEam

set_option linter.unusedSectionVars false

namespace Verif.Force

open Verif.Spec

variable {K : Type*} [Field K] [LinearOrder K] [IsStrictOrderedRing K]

/-- Energy and limit added to the running sums. -/
def EamAcc.shift (t : EamAcc K) (x y : K) : EamAcc K :=
  { t with acc := { t.acc with energy := t.acc.energy + x }, limit := t.limit + y }

theorem EamAcc.shift_shift (t : EamAcc K) (x y x' y' : K) : (t.shift x y).shift x' y' = t.shift (x + x') (y + y') := by
  simp only [EamAcc.shift, add_assoc]

theorem tbPairNeigh_shift (b : Build) (P : Pots K) (uf us : Bool) (i : Nat) (s : Acc K) (x : K) (n : Neigh K) :
    pairNeigh b P uf us i { s with energy := s.energy + x } n =
      { pairNeigh b P uf us i s n with energy := (pairNeigh b P uf us i s n).energy + x } := by
  have h1 := (pairNeigh_scatters b P uf us).eq i 0 { s with energy := s.energy + x } n
  have h2 := (pairNeigh_scatters b P uf us).eq i 0 s n
  simp only at h1 h2
  rw [h1, h2]
  simp only [Acc.mk.injEq, true_and, and_true]
  ring

theorem tbNeigh2_shift (b : Build) (P : EamPots K) (c : Conf K) (i typ : Nat) (s : EamAcc K) (x y : K) (n : Neigh K) :
    eamNeigh2 b P c i typ (s.shift x y) n = (eamNeigh2 b P c i typ s n).shift x y := by
  simp only [eamNeigh2, EamAcc.shift, tbPairNeigh_shift]

theorem tbFoldl_shift (b : Build) (P : EamPots K) (c : Conf K) (i typ : Nat) (l : List (Neigh K)) (s : EamAcc K)
    (x y : K) : l.foldl (eamNeigh2 b P c i typ) (s.shift x y) = (l.foldl (eamNeigh2 b P c i typ) s).shift x y := by
  induction l generalizing s with
  | nil => rfl
  | cons n l ih => rw [List.foldl_cons, List.foldl_cons, tbNeigh2_shift, ih]

theorem tbEmbed_shift (b : Build) (P : EamPots K) (a : Atom K) (i : Nat) (s : EamAcc K) (x y : K) :
    eamEmbed b P a i (s.shift x y) = (eamEmbed b P a i s).shift x y := by
  simp only [eamEmbed, EamAcc.shift, EamAcc.mk.injEq, Acc.mk.injEq, true_and, and_true]
  constructor <;> ring

theorem tbEamLoop2_shift (b : Build) (P : EamPots K) (c : Conf K) (as : List (Atom K)) (i : Nat) (s : EamAcc K) (x y : K) :
    eamLoop2 b P c as i (s.shift x y) = (eamLoop2 b P c as i s).shift x y := by
  induction as generalizing i s with
  | nil => rfl
  | cons a as ih =>
    simp only [eamLoop2]
    rw [tbFoldl_shift, tbEmbed_shift, ih]

/-- The atom with the columns of the second band. -/
def Atom.second (P : EamPots K) (a : Atom K) : Atom K := { a with neigh := a.neigh.map (Neigh.second P) }

/-- The configuration with the columns of the second band. -/
def Conf.second (P : EamPots K) (c : Conf K) : Conf K := { c with atoms := c.atoms.map (Atom.second P) }

/-- The entry with the columns of the second band. -/
def secondEntry (P : EamPots K) (e : Entry K) : Entry K := ⟨e.own, e.otyp, e.n.second P⟩

theorem entriesFrom_second (P : EamPots K) (as : List (Atom K)) (i : Nat) :
    entriesFrom i (as.map (Atom.second P)) = (entriesFrom i as).map (secondEntry P) := by
  induction as generalizing i with
  | nil => rfl
  | cons a as ih =>
    simp only [List.map_cons, entriesFrom, List.map_append, List.map_map, ih]
    congr 1
    simp only [Atom.second, List.map_map]
    rfl

theorem foldl_tbNeigh2 (b : Build) (P : EamPots K) (c : Conf K) (i typ : Nat) (l : List (Neigh K)) (s : TbAcc K) :
    l.foldl (tbNeigh2 b P c i typ) s =
      { s with eam := l.foldl (eamNeigh2 b P c i typ) s.eam
               rhoS := (l.map (Neigh.second P)).foldl (density P.second i typ) s.rhoS } := by
  induction l generalizing s with
  | nil => rfl
  | cons n l ih => rw [List.foldl_cons, ih]; rfl

theorem foldl_eamNeigh2_parts (b : Build) (P : EamPots K) (c : Conf K) (i typ : Nat) (l : List (Neigh K)) (s : EamAcc K) :
    l.foldl (eamNeigh2 b P c i typ) s =
      { s with acc := l.foldl (pairNeigh b P.toPots c.uf c.us i) s.acc, rho := l.foldl (density P i typ) s.rho } := by
  induction l generalizing s with
  | nil => rfl
  | cons n l ih => rw [List.foldl_cons, ih]; rfl

/-- The second loop is the loop of the EAM routine for both bands side by side. -/
theorem tbLoop2_split (b : Build) (P : EamPots K) (c : Conf K) (as : List (Atom K)) (i : Nat) (s : TbAcc K) (Z : Acc K)
    (l : K) :
    let q := eamLoop2 b P.second c (as.map (Atom.second P)) i ⟨Z, s.rhoS, s.gradS, l, s.rhoSumS⟩
    tbLoop2 b P c as i s =
      ⟨(eamLoop2 b P c as i s.eam).shift (q.acc.energy - Z.energy - ((entriesFrom i as).map (pairEnergy P.toPots)).sum)
        (q.limit - l), q.rho, q.gradF, q.rhoSum⟩ := by
  induction as generalizing i s Z l with
  | nil => simp [tbLoop2, eamLoop2, entriesFrom, EamAcc.shift]
  | cons a as ih =>
    intro q
    simp only [tbLoop2]
    rw [foldl_tbNeigh2]
    set X := eamEmbed b P.second (a.second P) i
      ((a.second P).neigh.foldl (eamNeigh2 b P.second c i a.typ) ⟨Z, s.rhoS, s.gradS, l, s.rhoSumS⟩) with hX
    have hq : q = eamLoop2 b P.second c (as.map (Atom.second P)) (i + 1) X := rfl
    rw [foldl_eamNeigh2_parts] at hX
    simp only [eamEmbed] at hX
    set m := embed b P.second (P.second.paircol + P.second.ntypes + (a.second P).typ)
      ((a.second P).neigh.foldl (density P.second i a.typ) s.rhoS i) with hm
    have hsc := foldl_scatters (pairNeigh_scatters b P.second.toPots c.uf c.us) i a.typ (a.second P).neigh Z
    have hXe : X.acc.energy = Z.energy + ((a.neigh.map fun n => (⟨i, a.typ, n⟩ : Entry K)).map
        (pairEnergy P.toPots)).sum + m.value := by
      have := congrArg (fun t => t.acc.energy) hX
      simp only [hsc] at this
      rw [this]
      simp only [Atom.second, List.map_map]
      rfl
    have hXl : X.limit = l + m.limit := congrArg (fun t => t.limit) hX
    set T := tbEmbed b P a i { s with
        eam := a.neigh.foldl (eamNeigh2 b P c i a.typ) s.eam
        rhoS := (a.neigh.map (Neigh.second P)).foldl (density P.second i a.typ) s.rhoS } with hT
    have hTe : T.eam = (eamEmbed b P a i (a.neigh.foldl (eamNeigh2 b P c i a.typ) s.eam)).shift m.value m.limit := rfl
    have h := ih (i + 1) T X.acc X.limit
    have hX2 : (⟨X.acc, T.rhoS, T.gradS, X.limit, T.rhoSumS⟩ : EamAcc K) = X := by
      rw [hX]
      rfl
    rw [hX2, ← hq] at h
    simp only at h
    rw [h, hTe, tbEamLoop2_shift, EamAcc.shift_shift, hXe, hXl]
    simp only [eamLoop2, entriesFrom, List.map_append, List.sum_append]
    congr 2 <;> ring

/-- Sums over the second loop of a configuration. -/
theorem tbLoop2_spec (b : Build) (P : EamPots K) (c : Conf K) (hh : HalfList c) (hcol : EamColumns P c) (A : Acc K)
    (rho rhoS gF gS : Nat → K) (l : K) (h0 : ∀ x, c.start ≤ x → x < c.start + c.atoms.length → rho x = 0 ∧ rhoS x = 0) :
    let t := tbLoop2 b P c c.atoms c.start ⟨⟨A, rho, gF, l, 0⟩, rhoS, gS, 0⟩
    t.eam.acc = ⟨fun x => A.force x + ((entries c).map (contr (tmpOf c.uf (pairSlope P.toPots)) x)).sum,
      A.energy + tbTotal b P c, A.stress + ((entries c).map (stressOf b c.uf c.us (pairSlope P.toPots))).sum, A.err⟩ ∧
    t.eam.limit = l + tbExcess b P c ∧
    IsGradF b P c t.eam.gradF ∧ IsGradF b P.second c t.gradS ∧
    (∀ k a, c.atoms[k]? = some a → t.eam.rho (c.start + k) = (embedAt b P c k a).rho ∧
      t.rhoS (c.start + k) = (embedAt b P.second c k a).rho) ∧
    (∀ x, (x < c.start ∨ c.start + c.atoms.length ≤ x) → t.eam.rho x = rho x ∧ t.eam.gradF x = gF x ∧ t.rhoS x = rhoS x ∧
      t.gradS x = gS x) ∧
    t.eam.rhoSum = (c.atoms.zipIdx.map fun ak => (embedAt b P c ak.2 ak.1).rho).sum ∧
    t.rhoSumS = (c.atoms.zipIdx.map fun ak => (embedAt b P.second c ak.2 ak.1).rho).sum := by
  intro t
  have ht : t = _ := tbLoop2_split b P c c.atoms c.start ⟨⟨A, rho, gF, l, 0⟩, rhoS, gS, 0⟩ A 0
  have key : ∀ (Q : EamPots K) (as : List (Atom K)) (r0 : Nat → K),
      (∀ x, ((entriesFrom c.start as).map fun e => densityOn Q e x).sum = totalDensity Q c x) →
      (∀ x, c.start ≤ x → x < c.start + c.atoms.length → r0 x = 0) → ∀ k, k < c.atoms.length →
      r0 (c.start + k) + ((entriesFrom c.start as).map fun e => densityOn Q e (c.start + k)).sum =
        totalDensity Q c (c.start + k) := by
    intro Q as r0 h1 h2 k hk
    rw [h2 _ (by omega) (by omega), h1, zero_add]
  have hS : ∀ x, ((entriesFrom c.start (c.atoms.map (Atom.second P))).map fun e => densityOn P.second e x).sum =
      totalDensity P.second c x := by
    intro x
    rw [entriesFrom_second, List.map_map]
    rfl
  have hF : ∀ x, ((entriesFrom c.start c.atoms).map fun e => densityOn P e x).sum = totalDensity P c x := fun _ => rfl
  have hdS := key P.second _ rhoS hS (fun x h1 h2 => (h0 x h1 h2).2)
  have hdF := key P _ rho hF (fun x h1 h2 => (h0 x h1 h2).1)
  obtain ⟨q1, q2, q3, q4, q5, q6, q7, q8⟩ := eamLoop2_spec b P c c.atoms c.start ⟨A, rho, gF, l, 0⟩
    (fun e he => (hh e he).1) (fun e he => hcol e he)
  obtain ⟨s1, -, -, -, s5, s6, s7, s8⟩ := eamLoop2_spec b P.second c (c.atoms.map (Atom.second P)) c.start
    ⟨A, rhoS, gS, 0, 0⟩
    (by
      intro e he
      rw [entriesFrom_second, List.mem_map] at he
      obtain ⟨e, he, rfl⟩ := he
      exact (hh e he).1)
    (by
      intro e he
      rw [entriesFrom_second, List.mem_map] at he
      obtain ⟨e, he, rfl⟩ := he
      exact ⟨rfl, (hcol e he).2⟩)
  set q := eamLoop2 b P c c.atoms c.start ⟨A, rho, gF, l, 0⟩ with hq
  set s := eamLoop2 b P.second c (c.atoms.map (Atom.second P)) c.start ⟨A, rhoS, gS, 0, 0⟩ with hs
  simp only at q1 q2 q3 q4 q5 q6 q7 q8 s1 s5 s6 s7 s8 ht
  have hemb : ∀ F : Embed K → K, (c.atoms.zipIdx.map fun ak => F (embed b P
      (P.paircol + P.ntypes + ak.1.typ) (rho (c.start + ak.2) + ((entriesFrom c.start c.atoms).map
        fun e => densityOn P e (c.start + ak.2)).sum))).sum =
      (c.atoms.zipIdx.map fun ak => F (embedAt b P c ak.2 ak.1)).sum := by
    intro F
    congr 1
    apply List.map_congr_left
    intro ak hak
    have hlt : ak.2 < c.atoms.length := by
      have := List.snd_lt_of_mem_zipIdx hak
      simpa using this
    rw [hdF _ hlt]
    rfl
  have hembS : ∀ F : Embed K → K, ((c.atoms.map (Atom.second P)).zipIdx.map fun ak => F (embed b P.second
      (P.second.paircol + P.second.ntypes + ak.1.typ) (rhoS (c.start + ak.2) +
        ((entriesFrom c.start (c.atoms.map (Atom.second P))).map fun e => densityOn P.second e (c.start + ak.2)).sum))).sum =
      (c.atoms.zipIdx.map fun ak => F (embedAt b P.second c ak.2 ak.1)).sum := by
    intro F
    rw [List.zipIdx_map, List.map_map]
    congr 1
    apply List.map_congr_left
    intro ak hak
    have hlt : ak.2 < c.atoms.length := by
      have := List.snd_lt_of_mem_zipIdx hak
      simpa using this
    simp only [Function.comp, Prod.map]
    rw [show id ak.2 = ak.2 from rfl, hdS _ hlt]
    rfl
  have hpS : ((entriesFrom c.start (c.atoms.map (Atom.second P))).map (pairEnergy P.second.toPots)).sum =
      totalPairEnergy P.toPots c := by
    rw [entriesFrom_second, List.map_map]
    rfl
  rw [hemb (fun m => m.value)] at q1
  rw [hemb (fun m => m.limit)] at q7
  rw [hemb (fun m => m.rho), zero_add] at q8
  rw [hembS (fun m => m.value), hpS] at s1
  rw [hembS (fun m => m.limit), zero_add] at s7
  rw [hembS (fun m => m.rho), zero_add] at s8
  have hzero : ∀ (Q : EamPots K) x, (x < c.start ∨ c.start + c.atoms.length ≤ x) → totalDensity Q c x = 0 := by
    intro Q x hx
    apply density_sum_eq_zero
    intro e he
    have h1 := hh e he
    have h2 := entriesFrom_ge he
    omega
  refine ⟨?_, ?_, ?_, ?_, ?_, ?_, ?_, ?_⟩
  · rw [ht]
    simp only [EamAcc.shift]
    have e0 : ∀ u : Acc K, u = ⟨u.force, u.energy, u.stress, u.err⟩ := fun _ => rfl
    simp only [Acc.mk.injEq]
    refine ⟨funext q4, ?_, q2, q3⟩
    rw [q1, s1]
    unfold tbTotal totalEmbedding
    simp only [totalPairEnergy, entries]
    ring
  · rw [ht]
    simp only [EamAcc.shift]
    rw [q7, s7]
    unfold tbExcess
    ring
  · intro k a hk
    rw [ht]
    have hlt : k < c.atoms.length := (List.getElem?_eq_some_iff.1 hk).1
    show q.gradF (c.start + k) = _
    rw [(q6 k a hk).2, hdF k hlt]
    rfl
  · intro k a hk
    rw [ht]
    have hlt : k < c.atoms.length := (List.getElem?_eq_some_iff.1 hk).1
    show s.gradF (c.start + k) = _
    rw [(s6 k (a.second P) (by rw [List.getElem?_map, hk]; rfl)).2, hdS k hlt]
    rfl
  · intro k a hk
    rw [ht]
    have hlt : k < c.atoms.length := (List.getElem?_eq_some_iff.1 hk).1
    constructor
    · show q.rho (c.start + k) = _
      rw [(q6 k a hk).1, hdF k hlt]
      rfl
    · show s.rho (c.start + k) = _
      rw [(s6 k (a.second P) (by rw [List.getElem?_map, hk]; rfl)).1, hdS k hlt]
      rfl
  · intro x hx
    rw [ht]
    have h1 := q5 x hx
    have h2 := s5 x (by rw [List.length_map]; exact hx)
    rw [hF, hzero P x hx, add_zero] at h1
    rw [hS, hzero P.second x hx, add_zero] at h2
    exact ⟨h1.1, h1.2, h2.1, h2.2⟩
  · rw [ht]
    exact q8
  · rw [ht]
    exact s8

/-- Slope of both bands as used in the third loop. -/
def tbBand (P : EamPots K) (gradF gradS : Nat → K) (e : Entry K) : K :=
  eamSlope P gradF e + if InReach P e then eamSlope P.second gradS e else 0

theorem tbSlopeC_eq (P : EamPots K) (gradF gradS : Nat → K) (i typ : Nat) (n : Neigh K) (h1 : n.col1 = P.paircol + n.typ) :
    tbSlopeC P gradF gradS i typ n = tbBand P gradF gradS ⟨i, typ, n⟩ := by
  have h2 := eamSlopeC_eq P gradF i typ n h1
  have h3 := eamSlopeC_eq P.second gradS i typ (n.second P) rfl
  have hi : InReach P ⟨i, typ, n⟩ ↔ n.r < P.fin n.col1 ∨ n.r < P.fin (P.paircol + typ) := by rw [h1]; rfl
  unfold tbSlopeC tbBand
  rw [h3]
  by_cases h : n.r < P.fin n.col1 ∨ n.r < P.fin (P.paircol + typ)
  · rw [if_pos h, if_pos (hi.2 h), h2]
    rfl
  · rw [if_neg h, if_neg (fun h' => h (hi.1 h')), ← h2]
    unfold eamSlopeC
    rw [if_neg h, add_zero]

/-- Third loop: entry contributions. -/
theorem tbNeigh3_eq (b : Build) (P : EamPots K) (us : Bool) (gradF gradS : Nat → K) (i typ : Nat)
    (s : Acc K) (n : Neigh K) (h1 : n.col1 = P.paircol + n.typ) :
    tbNeigh3 b P us gradF gradS i typ s n =
      ⟨scatter s.force i n.nr (tmpOf true (tbBand P gradF gradS) ⟨i, typ, n⟩), s.energy + 0,
       s.stress + stressOf b true us (tbBand P gradF gradS) ⟨i, typ, n⟩, s.err⟩ := by
  unfold tbNeigh3
  by_cases hr : n.r < P.fin n.col1 ∨ n.r < P.fin (P.paircol + typ)
  · rw [if_pos hr]
    have htmp : (fun k => n.distR k * (if n.nr = i then tbSlopeC P gradF gradS i typ n * (1 / 2)
        else tbSlopeC P gradF gradS i typ n)) = tmpOf true (tbBand P gradF gradS) ⟨i, typ, n⟩ := by
      funext k
      simp only [tmpOf, if_true, tbSlopeC_eq P gradF gradS i typ n h1]
    simp only [htmp, add_zero]
    congr 1
    have hv := virial_tmpOf (tbBand P gradF gradS) ⟨i, typ, n⟩
    by_cases hs : (b.stress && us) = true
    · simp only [hs, if_true, stressOf, Bool.and_self]
      rw [← hv, sub_eq_add_neg]
    · simp [hs, stressOf]
  · rw [if_neg hr]
    have hz : tbBand P gradF gradS ⟨i, typ, n⟩ = 0 := by
      rw [← tbSlopeC_eq P gradF gradS i typ n h1]
      unfold tbSlopeC
      rw [if_neg hr]
    have h0 : tmpOf true (tbBand P gradF gradS) ⟨i, typ, n⟩ = 0 := by funext k; simp [tmpOf, hz]
    have h1' : scatter s.force i n.nr (0 : V3 K) = s.force := by
      funext a; rw [scatter_apply]; simp
    have h2 : stressOf b true us (tbBand P gradF gradS) ⟨i, typ, n⟩ = 0 := by
      unfold stressOf
      split
      · funext k; simp [entryStress, hz]
      · rfl
    rw [h0, h1', h2]
    simp

theorem tbUsed_eq (P : EamPots K) (gradF gradS : Nat → K) :
    tbUsed P gradF gradS = fun e => pairSlope P.toPots e + tbBand P gradF gradS e := by
  funext e
  simp only [tbUsed, tbBand, add_assoc]

/-- Result for one configuration. -/
theorem tbConf_spec (b : Build) (P : EamPots K) (ew sw : K) (ci : Nat) (c : Conf K)
    (hh : HalfList c) (hcol : EamColumns P c) (s : TbState K) :
    let r := tbConf b P ew sw ci c s
    let D := tbUsed P r.1.gradF r.1.gradS
    (IsGradF b P c r.1.gradF ∧ IsGradF b P.second c r.1.gradS) ∧
    (∀ k a, c.atoms[k]? = some a → r.1.rho (c.start + k) = (embedAt b P c k a).rho ∧
      r.1.rhoS (c.start + k) = (embedAt b P.second c k a).rho) ∧
    (∀ x, (x < c.start ∨ c.start + c.atoms.length ≤ x) → r.1.fv.force x = s.fv.force x ∧ r.1.rho x = s.rho x ∧
      r.1.gradF x = s.gradF x ∧ r.1.rhoS x = s.rhoS x ∧ r.1.gradS x = s.gradS x) ∧
    (∀ k a, c.atoms[k]? = some a → r.1.fv.force (c.start + k) =
      if c.uf then scaled b true a (totalForce D c (c.start + k) - c.force0 (c.start + k)) else 0) ∧
    (r.1.fv.energy = Function.update s.fv.energy ci (tbTotal b P c / (c.atoms.length : K) - c.energy0)) ∧
    (r.1.fv.stress = if b.stress then Function.update s.fv.stress ci
        (if c.uf && c.us then fun k => totalStress D c k / c.vol - c.stress0 k else 0)
      else s.fv.stress) ∧
    (r.1.fv.limit = if b.rescale then Function.update s.fv.limit ci (tbExcess b P c - c.limit0) else s.fv.limit) ∧
    (r.2.1 = (c.atoms.zipIdx.map fun ak => atomErr b c ak.1 (r.1.fv.force (c.start + ak.2))).sum +
      c.weight * ew * (tbTotal b P c / (c.atoms.length : K) - c.energy0) ^ 2 +
      (if b.stress && c.uf && c.us then
        ∑ k : Fin 6, c.weight * sw * (totalStress D c k / c.vol - c.stress0 k) ^ 2 else 0) +
      (if b.rescale then c.weight * (tbExcess b P c - c.limit0) ^ 2 else 0)) ∧
    r.2.2.1 = (c.atoms.zipIdx.map fun ak => (embedAt b P c ak.2 ak.1).rho).sum ∧
    r.2.2.2 = (c.atoms.zipIdx.map fun ak => (embedAt b P.second c ak.2 ak.1).rho).sum := by
  intro r D
  set rho0 : Nat → K := fun a => if c.start ≤ a ∧ a < c.start + c.atoms.length then 0 else s.rho a with hrho0
  set rhoS0 : Nat → K := fun a => if c.start ≤ a ∧ a < c.start + c.atoms.length then 0 else s.rhoS a with hrhoS0
  set lim0 : K := if b.rescale then -c.limit0 else 0 with hlim0
  set t := tbLoop2 b P c c.atoms c.start
    ⟨⟨⟨resetForces c s.fv.force, 0, 0, 0⟩, rho0, s.gradF, lim0, 0⟩, rhoS0, s.gradS, 0⟩ with ht
  obtain ⟨q1, q2, q3, q4, q5, q6, q7, q8⟩ := tbLoop2_spec b P c hh hcol ⟨resetForces c s.fv.force, 0, 0, 0⟩ rho0 rhoS0
    s.gradF s.gradS lim0 (by
      intro x h1 h2
      simp only [hrho0, hrhoS0, if_pos (show c.start ≤ x ∧ x < c.start + c.atoms.length from ⟨h1, h2⟩), and_self])
  rw [← ht] at q1 q2 q3 q4 q5 q6 q7 q8
  have hD : D = tbUsed P t.eam.gradF t.gradS := rfl
  set A : Acc K := if c.uf then
      forceLoop b c (fun i typ => tbNeigh3 b P c.us t.eam.gradF t.gradS i typ) c.atoms c.start t.eam.acc
    else t.eam.acc with hA
  have hAspec : A.energy = tbTotal b P c ∧
      A.stress = rawStress b D c ∧
      (∀ x, (x < c.start ∨ c.start + c.atoms.length ≤ x) → A.force x = s.fv.force x) ∧
      (∀ k a, c.atoms[k]? = some a → A.force (c.start + k) =
        if c.uf then scaled b true a (totalForce D c (c.start + k) - c.force0 (c.start + k)) else 0) ∧
      A.err = (c.atoms.zipIdx.map fun ak => atomErr b c ak.1 (A.force (c.start + ak.2))).sum := by
    by_cases hu : c.uf = true
    · have hA' : A = forceLoop b c (fun i typ s n =>
          ⟨scatter s.force i n.nr (tmpOf true (tbBand P t.eam.gradF t.gradS) ⟨i, typ, n⟩), s.energy + 0,
           s.stress + stressOf b true c.us (tbBand P t.eam.gradF t.gradS) ⟨i, typ, n⟩, s.err⟩)
          c.atoms c.start t.eam.acc := by
        rw [hA, if_pos hu]
        apply forceLoop_congr
        intro e he s'
        exact tbNeigh3_eq b P c.us t.eam.gradF t.gradS e.own e.otyp s' e.n (hcol e he).1
      obtain ⟨w1, w2, w3, w4, w5⟩ := forceLoop_spec (b := b) (c := c)
        (tmp := tmpOf true (tbBand P t.eam.gradF t.gradS)) (en := fun _ => 0)
        (st := stressOf b true c.us (tbBand P t.eam.gradF t.gradS)) ⟨fun _ _ _ _ => rfl⟩
        c.atoms c.start t.eam.acc (fun e he => (hh e he).1)
      rw [← hA'] at w1 w2 w3 w4 w5
      have hfull : ∀ x, t.eam.acc.force x + ((entriesFrom c.start c.atoms).map
          (contr (tmpOf true (tbBand P t.eam.gradF t.gradS)) x)).sum =
          resetForces c s.fv.force x + totalForce D c x := by
        intro x
        have h1 := sum_contr true (tbBand P t.eam.gradF t.gradS) c x
        have h2 := sum_contr true (pairSlope P.toPots) c x
        rw [if_pos rfl] at h1 h2
        rw [h1, q1, hu]
        simp only
        rw [show entries c = entriesFrom c.start c.atoms from rfl, h2, add_assoc, hD, tbUsed_eq]
        congr 1
        exact (totalForce_add _ _ _ _).symm
      refine ⟨?_, ?_, ?_, ?_, ?_⟩
      · rw [w1, q1]
        simp
      · rw [w2, q1, hu]
        have h1 := sum_stressOf b (tbBand P t.eam.gradF t.gradS) c
        have h2 := sum_stressOf b (pairSlope P.toPots) c
        rw [hu] at h1 h2
        simp only
        rw [show entries c = entriesFrom c.start c.atoms from rfl, h1, h2]
        simp only [rawStress, hu]
        split
        · rw [hD, tbUsed_eq, totalStress_add]
          simp
        · simp
      · intro x hx
        rw [w3 x hx, hfull, totalForce_outside _ hh hx, add_zero]
        unfold resetForces
        rw [if_neg (by omega)]
      · intro k a hk
        have hlt : k < c.atoms.length := (List.getElem?_eq_some_iff.1 hk).1
        rw [w4 k a hk, hfull, hu, if_pos rfl]
        congr 1
        unfold resetForces
        rw [if_pos (by omega), hu]
        simp only [if_true]
        abel
      · rw [w5, q1, zero_add]
    · have hA' : A = t.eam.acc := by rw [hA, if_neg hu]
      have hf : ∀ x, t.eam.acc.force x = resetForces c s.fv.force x := by
        intro x
        rw [q1]
        simp only
        have := sum_contr c.uf (pairSlope P.toPots) c x
        rw [if_neg hu] at this
        rw [show entries c = entriesFrom c.start c.atoms from rfl, this, add_zero]
      rw [hA']
      refine ⟨?_, ?_, ?_, ?_, ?_⟩
      · rw [q1]
        simp
      · rw [q1]
        simp only
        rw [show entries c = entriesFrom c.start c.atoms from rfl, sum_stressOf]
        simp [rawStress, hu]
      · intro x hx
        rw [hf]
        unfold resetForces
        rw [if_neg (by omega)]
      · intro k a hk
        have hlt : k < c.atoms.length := (List.getElem?_eq_some_iff.1 hk).1
        rw [hf, if_neg hu]
        unfold resetForces
        rw [if_pos (by omega), if_neg hu]
      · rw [q1]
        simp [atomErr, hu]
  obtain ⟨a1, a2, a3, a4, a5⟩ := hAspec
  have hforce : r.1.fv.force = A.force := by
    simp only [r, tbConf, closeConf]
    rw [← hrho0, ← hrhoS0, ← hlim0, ← ht, ← hA]
    split <;> rfl
  have hl2 : b.rescale = true → t.eam.limit = tbExcess b P c - c.limit0 := by
    intro hb
    rw [q2, hlim0, if_pos hb]
    ring
  refine ⟨⟨q3, q4⟩, q5, ?_, ?_, ?_, ?_, ?_, ?_, q7, q8⟩
  · intro x hx
    obtain ⟨x1, x2, x3, x4⟩ := q6 x hx
    refine ⟨by rw [hforce]; exact a3 x hx, ?_, x2, ?_, x4⟩
    · show t.eam.rho x = _
      rw [x1]
      simp only [hrho0]
      rw [if_neg (by omega)]
    · show t.rhoS x = _
      rw [x3]
      simp only [hrhoS0]
      rw [if_neg (by omega)]
  · intro k a hk
    rw [hforce]
    exact a4 k a hk
  · simp only [r, tbConf, closeConf]
    rw [← hrho0, ← hrhoS0, ← hlim0, ← ht, ← hA]
    split <;> simp only [a1]
  · simp only [r, tbConf, closeConf]
    rw [← hrho0, ← hrhoS0, ← hlim0, ← ht, ← hA]
    by_cases h1 : b.stress = true
    · by_cases h2 : c.uf = true
      · by_cases h3 : c.us = true
        · simp [h1, h2, h3, a2, rawStress]
        · simp [h1, h2, h3, a2, rawStress]
      · simp [h1, h2, a2, rawStress]
    · simp [h1]
  · simp only [r, tbConf]
    rw [← hrho0, ← hrhoS0, ← hlim0, ← ht]
    split
    · rename_i hb
      rw [hl2 hb]
    · rfl
  · rw [hforce, ← a5]
    simp only [r, tbConf, closeConf]
    rw [← hrho0, ← hrhoS0, ← hlim0, ← ht, ← hA]
    by_cases h1 : (b.stress && c.uf && c.us) = true
    · have h2 : c.uf && (b.stress && c.us) := by
        simp only [Bool.and_eq_true] at h1 ⊢; tauto
      by_cases hb : b.rescale = true
      · simp only [h1, if_true, a2, a1, rawStress, h2, List.sum_ofFn, pow_two, hb, hl2 hb]
      · simp only [h1, if_true, a2, a1, rawStress, h2, List.sum_ofFn, pow_two, hb]
        simp
    · by_cases hb : b.rescale = true
      · simp only [h1, a1, pow_two, hb, hl2 hb]
        simp
      · simp only [h1, a1, pow_two, hb]
        simp

end Verif.Force
