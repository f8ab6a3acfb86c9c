import Verif.Spec.ForceElstat
import Verif.Lemmas.AdpConf
import Mathlib.Tactic.LinearCombination

set_option linter.unusedSectionVars false

namespace Verif.Force

open Verif.Spec

section loops
variable {K : Type*} [Field K] [LinearOrder K]

theorem overNeigh_eq {σ : Type*} (body : Nat → Nat → σ → Neigh K → σ) (as : List (Atom K)) (i : Nat) (s : σ) :
    overNeigh body as i s = (entriesFrom i as).foldl (fun s e => body e.own e.otyp s e.n) s := by
  induction as generalizing i s with
  | nil => rfl
  | cons a as ih =>
    simp only [overNeigh, entriesFrom, List.foldl_append, List.foldl_map]
    exact ih _ _

/-- A loop over entries which scatters forces and adds to energy and stress; `proj` are the running sums. -/
theorem foldl_acc {σ : Type*} (proj : σ → Acc K) (body : σ → Entry K → σ) (tmp : Entry K → V3 K) (en : Entry K → K)
    (st : Entry K → Fin 6 → K) (l : List (Entry K))
    (h : ∀ e ∈ l, ∀ s, proj (body s e) = ⟨scatter (proj s).force e.own e.n.nr (tmp e), (proj s).energy + en e,
      (proj s).stress + st e, (proj s).err⟩) (s : σ) :
    proj (l.foldl body s) = ⟨fun a => (proj s).force a + (l.map (contr tmp a)).sum, (proj s).energy + (l.map en).sum,
      (proj s).stress + (l.map st).sum, (proj s).err⟩ := by
  induction l generalizing s with
  | nil => simp
  | cons e l ih =>
    rw [List.foldl_cons, ih (fun e' he' => h e' (List.mem_cons_of_mem _ he')), h e (by simp)]
    simp only [List.map_cons, List.sum_cons, add_assoc]
    congr 1
    funext a
    rw [scatter_apply, add_assoc]
    rfl

/-- A component of the state which does not depend on the others. -/
theorem foldl_proj {σ τ : Type*} (proj : σ → τ) (body : σ → Entry K → σ) (g : τ → Entry K → τ) (l : List (Entry K))
    (h : ∀ e ∈ l, ∀ s, proj (body s e) = g (proj s) e) (s : σ) : proj (l.foldl body s) = l.foldl g (proj s) := by
  induction l generalizing s with
  | nil => rfl
  | cons e l ih =>
    rw [List.foldl_cons, List.foldl_cons, ih (fun e' he' => h e' (List.mem_cons_of_mem _ he')), h e (by simp)]

end loops

variable {K : Type*} [Field K] [LinearOrder K] [IsStrictOrderedRing K]

theorem sprod_eq (p q : V3 K) : sprod p q = dot3 p q := by
  simp only [sprod, dot3, Fin.sum_univ_three]

theorem halfSelf_share (i typ : Nat) (n : Neigh K) (v : K) : halfSelf i n v = share ⟨i, typ, n⟩ * v := by
  unfold halfSelf share
  by_cases h : n.nr = i
  · simp only [if_pos h]; ring
  · simp only [if_neg h]; ring

/-- A vector used if forces are computed. -/
def gate (uf : Bool) (g : Entry K → V3 K) (e : Entry K) : V3 K := if uf then g e else 0

/-- Adding an energy and, if forces are computed, scattering a force. -/
theorem addForce_eq (b : Build) (uf us : Bool) (g : Entry K → V3 K) (i typ : Nat) (n : Neigh K) (s : Acc K) (x : K) :
    (if uf then applyForce b us i n (g ⟨i, typ, n⟩) { s with energy := s.energy + x }
      else { s with energy := s.energy + x }) =
      ⟨scatter s.force i n.nr (gate uf g ⟨i, typ, n⟩), s.energy + x, s.stress + vecStressOf b us (gate uf g) ⟨i, typ, n⟩,
        s.err⟩ := by
  cases uf with
  | true =>
    simp only [if_true]
    rw [applyForce_eq]
    simp [gate, vecStressOf]
  | false =>
    have h1 : scatter s.force i n.nr (0 : V3 K) = s.force := by
      funext a; rw [scatter_apply]; simp
    have h2 : vecStressOf b us (gate false g) ⟨i, typ, n⟩ = 0 := by
      unfold vecStressOf gate
      split
      · simp [virial_zero]
      · rfl
    rw [h2]
    simp [gate, h1]

theorem gate_add (uf : Bool) (g h : Entry K → V3 K) (e : Entry K) :
    gate uf g e + gate uf h e = gate uf (fun e => g e + h e) e := by
  cases uf <;> simp [gate]

theorem vecStressOf_add (b : Build) (us : Bool) (g h : Entry K → V3 K) (e : Entry K) :
    vecStressOf b us g e + vecStressOf b us h e = vecStressOf b us (fun e => g e + h e) e := by
  unfold vecStressOf
  split
  · rw [virial_add, neg_add]
  · simp

/-- One step of `foldl_acc` after another. -/
theorem acc_trans (b : Build) (uf us : Bool) (g h : Entry K → V3 K) (e : Entry K) (s s' s'' : Acc K) (x y : K)
    (h1 : s' = ⟨scatter s.force e.own e.n.nr (gate uf g e), s.energy + x, s.stress + vecStressOf b us (gate uf g) e, s.err⟩)
    (h2 : s'' = ⟨scatter s'.force e.own e.n.nr (gate uf h e), s'.energy + y,
      s'.stress + vecStressOf b us (gate uf h) e, s'.err⟩) :
    s'' = ⟨scatter s.force e.own e.n.nr (gate uf (fun e => g e + h e) e), s.energy + (x + y),
      s.stress + vecStressOf b us (gate uf fun e => g e + h e) e, s.err⟩ := by
  subst h1
  subst h2
  simp only [scatter_add, gate_add, add_assoc, vecStressOf_add]

theorem scatter_zero (f : Nat → V3 K) (i nr : Nat) : scatter f i nr 0 = f := by
  funext a; rw [scatter_apply]; simp

/-- Nothing happens. -/
theorem acc_none (b : Build) (uf us : Bool) (g : Entry K → V3 K) (e : Entry K) (s : Acc K) (x : K) (hg : g e = 0)
    (hx : x = 0) :
    s = ⟨scatter s.force e.own e.n.nr (gate uf g e), s.energy + x, s.stress + vecStressOf b us (gate uf g) e, s.err⟩ := by
  have h1 : gate uf g e = 0 := by unfold gate; split <;> simp [hg]
  have h2 : vecStressOf b us (gate uf g) e = 0 := by
    unfold vecStressOf
    split
    · rw [h1, virial_zero, neg_zero]
    · rfl
  rw [h1, h2, hx, scatter_zero]
  simp

theorem pairNeigh_acc (b : Build) (P : Pots K) (uf us : Bool) (i typ : Nat) (s : Acc K) (n : Neigh K) :
    pairNeigh b P uf us i s n = ⟨scatter s.force i n.nr (gate uf (along (pairSlope P)) ⟨i, typ, n⟩),
      s.energy + pairEnergy P ⟨i, typ, n⟩, s.stress + vecStressOf b us (gate uf (along (pairSlope P))) ⟨i, typ, n⟩, s.err⟩ := by
  rw [(pairNeigh_scatters b P uf us).eq i typ s n]
  have h1 : tmpOf uf (pairSlope P) = gate uf (along (pairSlope P)) := by
    cases uf with
    | true => rw [tmpOf_along]; funext e; simp [gate]
    | false => funext e k; simp [gate, tmpOf]
  have h2 : stressOf b uf us (pairSlope P) = vecStressOf b us (gate uf (along (pairSlope P))) := by
    funext e
    cases uf with
    | true =>
      unfold stressOf vecStressOf
      rw [← virial_tmpOf, tmpOf_along]
      simp only [Bool.true_and]
      rfl
    | false =>
      unfold stressOf vecStressOf
      simp [gate, virial_zero]
  rw [h1, h2]

theorem monoNeigh_acc (b : Build) (E : Elec K) (uf us : Bool) (i typ : Nat) (s : Acc K) (n : Neigh K) :
    monoNeigh b E uf us i typ s n = ⟨scatter s.force i n.nr (gate uf (coulombVec E) ⟨i, typ, n⟩),
      s.energy + coulombEnergy E ⟨i, typ, n⟩, s.stress + vecStressOf b us (gate uf (coulombVec E)) ⟨i, typ, n⟩, s.err⟩ := by
  unfold monoNeigh
  by_cases h : n.r < E.cut ∧ (E.charge typ ≠ 0 ∨ E.charge n.typ ≠ 0)
  · rw [if_pos h]
    have e1 : halfSelf i n (E.charge typ * E.charge n.typ * (E.tail n.r).fn) = coulombEnergy E ⟨i, typ, n⟩ := by
      rw [halfSelf_share i typ]
      unfold coulombEnergy
      rw [if_pos h.1]
    have e2 : (fun k => n.dist k * halfSelf i n (E.charge typ * (E.charge n.typ * (E.tail n.r).grad))) =
        coulombVec E ⟨i, typ, n⟩ := by
      funext k
      rw [halfSelf_share i typ]
      unfold coulombVec
      rw [if_pos h.1]
      ring
    simp only [e1, e2]
    exact addForce_eq b uf us (coulombVec E) i typ n s _
  · rw [if_neg h]
    have hz : ¬ n.r < E.cut ∨ (E.charge typ = 0 ∧ E.charge n.typ = 0) := by tauto
    refine acc_none b uf us (coulombVec E) ⟨i, typ, n⟩ s _ ?_ ?_
    · funext k
      unfold coulombVec
      rcases hz with hz | hz
      · simp [hz]
      · simp [hz.1]
    · unfold coulombEnergy
      rcases hz with hz | hz
      · simp [hz]
      · simp [hz.1]

theorem elNeigh2_acc (b : Build) (dip : Bool) (P : Pots K) (E : Elec K) (uf us : Bool) (i typ : Nat) (s : ElAcc K)
    (n : Neigh K) :
    (elNeigh2 b dip P E uf us i typ s n).acc =
      ⟨scatter s.acc.force i n.nr (gate uf (fun e => along (pairSlope P) e + coulombVec E e) ⟨i, typ, n⟩),
       s.acc.energy + (pairEnergy P ⟨i, typ, n⟩ + coulombEnergy E ⟨i, typ, n⟩),
       s.acc.stress + vecStressOf b us (gate uf fun e => along (pairSlope P) e + coulombVec E e) ⟨i, typ, n⟩, s.acc.err⟩ :=
  acc_trans b uf us _ _ ⟨i, typ, n⟩ _ _ _ _ _ (pairNeigh_acc b P uf us i typ s.acc n)
    (monoNeigh_acc b E uf us i typ (pairNeigh b P uf us i s.acc n) n)

theorem elSums_eq (E : Elec K) (i typ : Nat) (n : Neigh K) :
    elSums E i n = (-(share ⟨i, typ, n⟩ * (E.tail n.r).grad) - (E.tail n.r).grad * (dampTerm E n).1,
      -(share ⟨i, typ, n⟩ * (E.tail n.r).ggrad) -
        ((E.tail n.r).ggrad * (dampTerm E n).1 + (E.tail n.r).grad * (dampTerm E n).2)) := by
  unfold elSums dampTerm
  by_cases h : E.b n.col0 ≠ 0 ∧ E.c n.col0 ≠ 0
  · have h' : ¬(E.b n.col0 = 0 ∨ E.c n.col0 = 0) := by tauto
    simp only [if_pos h, if_neg h', halfSelf_share i typ, Prod.mk.injEq]
    constructor <;> ring
  · have h' : E.b n.col0 = 0 ∨ E.c n.col0 = 0 := by tauto
    simp only [if_neg h, if_pos h', halfSelf_share i typ, Prod.mk.injEq]
    constructor <;> ring

theorem dot3_dist {n : Neigh K} (ha : ∀ k, n.dist k = n.distR k * n.r) (m : V3 K) :
    dot3 m n.dist = dot3 m n.distR * n.r := by
  simp only [dot3, Fin.sum_univ_three, ha]
  ring

theorem dot3_zero_left (m : V3 K) : dot3 0 m = 0 := by simp [dot3]

theorem dot3_zero_right (m : V3 K) : dot3 m 0 = 0 := by simp [dot3]

/-- Charge of the atom and dipole of the neighbour as the routine computes it. -/
def partA (E : Elec K) (p : Nat → V3 K) (e : Entry K) : K :=
  -((elSums E e.own e.n).1 * (E.charge e.otyp * dot3 (moment E p e.n.typ e.n.nr) e.n.dist))

def partAVec (E : Elec K) (p : Nat → V3 K) (e : Entry K) : V3 K := fun k =>
  -((elSums E e.own e.n).2 * (E.charge e.otyp * dot3 (moment E p e.n.typ e.n.nr) e.n.dist) * e.n.dist k +
    (elSums E e.own e.n).1 * (E.charge e.otyp * moment E p e.n.typ e.n.nr k))

/-- Dipole of the atom and charge of the neighbour. -/
def partB (E : Elec K) (p : Nat → V3 K) (e : Entry K) : K :=
  (elSums E e.own e.n).1 * (E.charge e.n.typ * dot3 (moment E p e.otyp e.own) e.n.dist)

def partBVec (E : Elec K) (p : Nat → V3 K) (e : Entry K) : V3 K := fun k =>
  (elSums E e.own e.n).2 * (E.charge e.n.typ * dot3 (moment E p e.otyp e.own) e.n.dist) * e.n.dist k +
    (elSums E e.own e.n).1 * (E.charge e.n.typ * moment E p e.otyp e.own k)

theorem stepA (b : Build) (E : Elec K) (uf us : Bool) (p : Nat → V3 K) (i typ : Nat) (s : DipAcc K) (n : Neigh K)
    (ha : ∀ k, n.dist k = n.distR k * n.r) :
    let s' := if E.charge typ ≠ 0 ∧ E.alpha n.typ ≠ 0 then monoDip b E uf us p i typ s n else s
    s'.acc = ⟨scatter s.acc.force i n.nr (gate uf (partAVec E p) ⟨i, typ, n⟩), s.acc.energy + partA E p ⟨i, typ, n⟩,
      s.acc.stress + vecStressOf b us (gate uf (partAVec E p)) ⟨i, typ, n⟩, s.acc.err⟩ ∧
    (E.charge typ ≠ 0 ∧ E.alpha n.typ ≠ 0 → s'.rpJ = dot3 (p n.nr) n.distR) := by
  intro s'
  by_cases h : E.charge typ ≠ 0 ∧ E.alpha n.typ ≠ 0
  · have hs : s' = monoDip b E uf us p i typ s n := if_pos h
    rw [hs]
    have hm : moment E p n.typ n.nr = p n.nr := if_neg h.2
    have hd := dot3_dist ha (p n.nr)
    refine ⟨?_, fun _ => sprod_eq _ _⟩
    rw [← addForce_eq b uf us (partAVec E p) i typ n s.acc (partA E p ⟨i, typ, n⟩)]
    unfold monoDip
    simp only [sprod_eq]
    have e1 : s.acc.energy - E.charge typ * dot3 (p n.nr) n.distR * (elSums E i n).1 * n.r =
        s.acc.energy + partA E p ⟨i, typ, n⟩ := by
      unfold partA
      simp only [hm, hd]
      ring
    have e2 : (fun k => -(n.distR k * (E.charge typ * dot3 (p n.nr) n.distR * (elSums E i n).2 * (n.r * n.r)) +
        p n.nr k * (E.charge typ * (elSums E i n).1))) = partAVec E p ⟨i, typ, n⟩ := by
      funext k
      unfold partAVec
      simp only [hm, hd, ha]
      ring
    rw [e1, e2]
  · have hs : s' = s := if_neg h
    rw [hs]
    refine ⟨?_, fun h' => absurd h' h⟩
    have hz : E.charge typ = 0 ∨ moment E p n.typ n.nr = 0 := by
      by_cases h1 : E.charge typ = 0
      · exact Or.inl h1
      · right
        have : E.alpha n.typ = 0 := by tauto
        exact if_pos this
    refine acc_none b uf us (partAVec E p) ⟨i, typ, n⟩ s.acc _ ?_ ?_
    · funext k
      unfold partAVec
      rcases hz with hz | hz
      · simp [hz]
      · simp [hz, dot3_zero_left]
    · unfold partA
      rcases hz with hz | hz
      · simp [hz]
      · simp [hz, dot3_zero_left]

theorem stepB (b : Build) (E : Elec K) (uf us : Bool) (p : Nat → V3 K) (i typ : Nat) (s : DipAcc K) (n : Neigh K)
    (ha : ∀ k, n.dist k = n.distR k * n.r) :
    let s' := if E.alpha typ ≠ 0 ∧ E.charge n.typ ≠ 0 then dipMono b E uf us p i s n else s
    s'.acc = ⟨scatter s.acc.force i n.nr (gate uf (partBVec E p) ⟨i, typ, n⟩), s.acc.energy + partB E p ⟨i, typ, n⟩,
      s.acc.stress + vecStressOf b us (gate uf (partBVec E p)) ⟨i, typ, n⟩, s.acc.err⟩ ∧
    (E.alpha typ ≠ 0 ∧ E.charge n.typ ≠ 0 → s'.rpI = dot3 (p i) n.distR) ∧ s'.rpJ = s.rpJ := by
  intro s'
  by_cases h : E.alpha typ ≠ 0 ∧ E.charge n.typ ≠ 0
  · have hs : s' = dipMono b E uf us p i s n := if_pos h
    rw [hs]
    have hm : moment E p typ i = p i := if_neg h.1
    have hd := dot3_dist ha (p i)
    refine ⟨?_, fun _ => sprod_eq _ _, rfl⟩
    rw [← addForce_eq b uf us (partBVec E p) i typ n s.acc (partB E p ⟨i, typ, n⟩)]
    unfold dipMono
    simp only [sprod_eq]
    have e1 : s.acc.energy + E.charge n.typ * dot3 (p i) n.distR * (elSums E i n).1 * n.r =
        s.acc.energy + partB E p ⟨i, typ, n⟩ := by
      unfold partB
      simp only [hm, hd]
      ring
    have e2 : (fun k => n.distR k * (E.charge n.typ * dot3 (p i) n.distR * (elSums E i n).2 * (n.r * n.r)) +
        p i k * (E.charge n.typ * (elSums E i n).1)) = partBVec E p ⟨i, typ, n⟩ := by
      funext k
      unfold partBVec
      simp only [hm, hd, ha]
      ring
    rw [e1, e2]
  · have hs : s' = s := if_neg h
    rw [hs]
    refine ⟨?_, fun h' => absurd h' h, rfl⟩
    have hz : E.charge n.typ = 0 ∨ moment E p typ i = 0 := by
      by_cases h1 : E.charge n.typ = 0
      · exact Or.inl h1
      · right
        have : E.alpha typ = 0 := by tauto
        exact if_pos this
    refine acc_none b uf us (partBVec E p) ⟨i, typ, n⟩ s.acc _ ?_ ?_
    · funext k
      unfold partBVec
      rcases hz with hz | hz
      · simp [hz]
      · simp [hz, dot3_zero_left]
    · unfold partB
      rcases hz with hz | hz
      · simp [hz]
      · simp [hz, dot3_zero_left]

theorem stepC (b : Build) (E : Elec K) (uf us : Bool) (p : Nat → V3 K) (i typ : Nat) (s : DipAcc K) (n : Neigh K)
    (ha : ∀ k, n.dist k = n.distR k * n.r) (hr : n.r < E.cut)
    (hI : E.alpha typ ≠ 0 ∧ E.alpha n.typ ≠ 0 → s.rpI = dot3 (p i) n.distR ∧ s.rpJ = dot3 (p n.nr) n.distR) :
    (if E.alpha typ ≠ 0 ∧ E.alpha n.typ ≠ 0 then dipDip b E uf us p i s n else s).acc =
      ⟨scatter s.acc.force i n.nr (gate uf (dipoleDipoleVec E p) ⟨i, typ, n⟩),
      s.acc.energy + dipoleDipole E p ⟨i, typ, n⟩,
      s.acc.stress + vecStressOf b us (gate uf (dipoleDipoleVec E p)) ⟨i, typ, n⟩, s.acc.err⟩ := by
  by_cases h : E.alpha typ ≠ 0 ∧ E.alpha n.typ ≠ 0
  · rw [if_pos h]
    have hm : moment E p typ i = p i := if_neg h.1
    have hm' : moment E p n.typ n.nr = p n.nr := if_neg h.2
    obtain ⟨h1, h2⟩ := hI h
    rw [← addForce_eq b uf us (dipoleDipoleVec E p) i typ n s.acc (dipoleDipole E p ⟨i, typ, n⟩)]
    unfold dipDip
    simp only [sprod_eq, h1, h2, halfSelf_share i typ]
    have e1 : s.acc.energy + -(3 * dot3 (p i) n.distR * dot3 (p n.nr) n.distR - dot3 (p i) (p n.nr)) *
        (share ⟨i, typ, n⟩ * -(E.tail n.r).grad) = s.acc.energy + dipoleDipole E p ⟨i, typ, n⟩ := by
      unfold dipoleDipole
      simp only [hm, hm', if_pos hr]
      ring
    have e2 : (fun k => -((3 * dot3 (p i) n.distR * dot3 (p n.nr) n.distR - dot3 (p i) (p n.nr)) *
          (share ⟨i, typ, n⟩ * -(E.tail n.r).ggrad) * n.dist k -
        3 * (share ⟨i, typ, n⟩ * -(E.tail n.r).grad) / (n.r * n.r) *
          (2 * dot3 (p i) n.distR * dot3 (p n.nr) n.distR * n.dist k - dot3 (p i) n.distR * n.r * p n.nr k -
            dot3 (p n.nr) n.distR * n.r * p i k))) = dipoleDipoleVec E p ⟨i, typ, n⟩ := by
      funext k
      unfold dipoleDipoleVec
      simp only [hm, hm', if_pos hr]
      rw [ha]
      by_cases h0 : n.r = 0
      · rw [h0]; simp
      · field_simp
        ring
    rw [e1, e2]
  · rw [if_neg h]
    have hz : moment E p typ i = 0 ∨ moment E p n.typ n.nr = 0 := by
      by_cases h1 : E.alpha typ = 0
      · exact Or.inl (if_pos h1)
      · right
        have : E.alpha n.typ = 0 := by tauto
        exact if_pos this
    refine acc_none b uf us (dipoleDipoleVec E p) ⟨i, typ, n⟩ s.acc _ ?_ ?_
    · funext k
      unfold dipoleDipoleVec
      rcases hz with hz | hz
      · simp [hz, dot3_zero_left]
      · simp [hz, dot3_zero_left, dot3_zero_right]
    · unfold dipoleDipole
      rcases hz with hz | hz
      · simp [hz, dot3_zero_left]
      · simp [hz, dot3_zero_left, dot3_zero_right]

/-- Both charge-dipole parts together. -/
theorem partAB (E : Elec K) (p : Nat → V3 K) (e : Entry K) (hr : e.n.r < E.cut) (ht : e.n.nr = e.own → e.n.typ = e.otyp) :
    partA E p e + partB E p e = chargeDipole E p e ∧
    (fun e => partAVec E p e + partBVec E p e) e = chargeDipoleVec E p e := by
  have hs := elSums_eq E e.own e.otyp e.n
  by_cases h : e.n.nr = e.own
  · have ht := ht h
    have hc : crossMoment E p e = 0 := by
      funext k
      simp only [crossMoment, ht, h, sub_self, Pi.zero_apply]
    constructor
    · simp only [partA, partB, chargeDipole, if_pos hr, hc, dot3_zero_left, ht, h]
      ring
    · funext k
      simp only [partAVec, partBVec, chargeDipoleVec, if_pos hr, hc, dot3_zero_left, ht, h, Pi.add_apply, Pi.zero_apply]
      ring
  · have hsh : share e = 1 := if_neg h
    have hd : dot3 (crossMoment E p e) e.n.dist = E.charge e.otyp * dot3 (moment E p e.n.typ e.n.nr) e.n.dist -
        E.charge e.n.typ * dot3 (moment E p e.otyp e.own) e.n.dist := by
      simp only [dot3, crossMoment, Fin.sum_univ_three]
      ring
    have hs1 : elSums E e.own e.n = (-coupling E e.n, -couplingSlope E e.n) := by
      rw [hs]
      have : share (⟨e.own, e.otyp, e.n⟩ : Entry K) = 1 := hsh
      rw [this]
      unfold coupling couplingSlope
      simp only [Prod.mk.injEq]
      constructor <;> ring
    constructor
    · simp only [partA, partB, chargeDipole, if_pos hr, hd, hs1]
      ring
    · funext k
      simp only [partAVec, partBVec, chargeDipoleVec, if_pos hr, hd, hs1, Pi.add_apply, crossMoment]
      ring

theorem acc_congr (b : Build) (uf us : Bool) {g h : Entry K → V3 K} {e : Entry K} (hg : g e = h e) {x y : K} (hx : x = y)
    (s : Acc K) :
    (⟨scatter s.force e.own e.n.nr (gate uf g e), s.energy + x, s.stress + vecStressOf b us (gate uf g) e, s.err⟩ : Acc K) =
    ⟨scatter s.force e.own e.n.nr (gate uf h e), s.energy + y, s.stress + vecStressOf b us (gate uf h) e, s.err⟩ := by
  have h1 : gate uf g e = gate uf h e := by unfold gate; rw [hg]
  have h2 : vecStressOf b us (gate uf g) e = vecStressOf b us (gate uf h) e := by unfold vecStressOf; rw [h1]
  rw [h1, h2, hx]

/-- One neighbour in the fourth loop. -/
theorem elNeigh4_acc (b : Build) (E : Elec K) (uf us : Bool) (p : Nat → V3 K) (e : Entry K) (s : DipAcc K)
    (ha : ∀ k, e.n.dist k = e.n.distR k * e.n.r) (ht : e.n.nr = e.own → e.n.typ = e.otyp)
    (hq : E.alpha e.otyp ≠ 0 → E.alpha e.n.typ ≠ 0 → E.charge e.otyp ≠ 0 ∧ E.charge e.n.typ ≠ 0) :
    (elNeigh4 b E uf us p e.own e.otyp s e.n).acc =
      ⟨scatter s.acc.force e.own e.n.nr (gate uf (fun e => chargeDipoleVec E p e + dipoleDipoleVec E p e) e),
       s.acc.energy + (chargeDipole E p e + dipoleDipole E p e),
       s.acc.stress + vecStressOf b us (gate uf fun e => chargeDipoleVec E p e + dipoleDipoleVec E p e) e, s.acc.err⟩ := by
  unfold elNeigh4
  by_cases h : e.n.r < E.cut ∧ (E.alpha e.otyp ≠ 0 ∨ E.alpha e.n.typ ≠ 0)
  · rw [if_pos h]
    obtain ⟨a1, a2⟩ := stepA b E uf us p e.own e.otyp s e.n ha
    generalize (if E.charge e.otyp ≠ 0 ∧ E.alpha e.n.typ ≠ 0 then monoDip b E uf us p e.own e.otyp s e.n else s) = s1 at a1 a2 ⊢
    obtain ⟨b1, b2, b3⟩ := stepB b E uf us p e.own e.otyp s1 e.n ha
    simp only
    generalize (if E.alpha e.otyp ≠ 0 ∧ E.charge e.n.typ ≠ 0 then dipMono b E uf us p e.own s1 e.n else s1) = s2 at b1 b2 b3 ⊢
    have c1 := stepC b E uf us p e.own e.otyp s2 e.n ha h.1 (by
      intro hh
      obtain ⟨q1, q2⟩ := hq hh.1 hh.2
      exact ⟨b2 ⟨hh.1, q2⟩, by rw [b3]; exact a2 ⟨q1, hh.2⟩⟩)
    have hab := acc_trans b uf us _ _ e _ _ _ _ _ a1 b1
    obtain ⟨z1, z2⟩ := partAB E p e h.1 ht
    rw [acc_congr b uf us (h := chargeDipoleVec E p) z2 z1 s.acc] at hab
    exact acc_trans b uf us _ _ e _ _ _ _ _ hab c1
  · rw [if_neg h]
    have hz : ¬ e.n.r < E.cut ∨ (moment E p e.otyp e.own = 0 ∧ moment E p e.n.typ e.n.nr = 0) := by
      by_cases hr : e.n.r < E.cut
      · right
        have : E.alpha e.otyp = 0 ∧ E.alpha e.n.typ = 0 := by tauto
        exact ⟨if_pos this.1, if_pos this.2⟩
      · exact Or.inl hr
    refine acc_none b uf us (fun e => chargeDipoleVec E p e + dipoleDipoleVec E p e) e s.acc _ ?_ ?_
    · funext k
      simp only [Pi.add_apply, chargeDipoleVec, dipoleDipoleVec]
      rcases hz with hz | hz
      · simp [hz]
      · simp [hz, dot3, crossMoment]
    · simp only [chargeDipole, dipoleDipole]
      rcases hz with hz | hz
      · simp [hz]
      · simp [hz, dot3, crossMoment]

/-! ### Fifth loop and the whole configuration -/

theorem elSelf_acc (dip : Bool) (E : Elec K) (p : Nat → V3 K) (a : Atom K) (i : Nat) (s : Acc K) :
    elSelf dip E p a i s = { s with energy := s.energy + atomEnergy dip E p a i } := by
  unfold elSelf atomEnergy
  by_cases h1 : E.charge a.typ = 0
  · by_cases h2 : dip = true ∧ E.alpha a.typ ≠ 0
    · simp only [h1, ne_eq, not_true_eq_false, if_false, if_pos h2, sprod_eq, Acc.mk.injEq, true_and, and_true]
      ring
    · simp only [h1, ne_eq, not_true_eq_false, if_false, if_neg h2]
      simp
  · by_cases h2 : dip = true ∧ E.alpha a.typ ≠ 0
    · simp only [ne_eq, h1, not_false_eq_true, if_true, if_pos h2, sprod_eq, Acc.mk.injEq, true_and, and_true]
      ring
    · simp only [ne_eq, h1, not_false_eq_true, if_true]
      simp only [if_neg (show ¬(dip = true ∧ ¬E.alpha a.typ = 0) from h2), Acc.mk.injEq, true_and, and_true]
      ring

theorem elLoop5_spec (b : Build) (dip : Bool) (E : Elec K) (c : Conf K) (p : Nat → V3 K) (as : List (Atom K)) (i : Nat)
    (s : Acc K) :
    let r := elLoop5 b dip E c p as i s
    r.energy = s.energy + (as.zipIdx.map fun ak => atomEnergy dip E p ak.1 (i + ak.2)).sum ∧ r.stress = s.stress ∧
    (∀ x, (x < i ∨ i + as.length ≤ x) → r.force x = s.force x) ∧
    (∀ k a, as[k]? = some a → r.force (i + k) = scaled b c.uf a (s.force (i + k))) ∧
    r.err = s.err + (as.zipIdx.map fun ak => atomErr b c ak.1 (r.force (i + ak.2))).sum := by
  induction as generalizing i s with
  | nil => simp [elLoop5]
  | cons a as ih =>
    simp only [elLoop5]
    rw [elSelf_acc]
    obtain ⟨c1, c2, c3⟩ := closeAtom_rest b c a i { s with energy := s.energy + atomEnergy dip E p a i }
    have c4 := closeAtom_force b c a i { s with energy := s.energy + atomEnergy dip E p a i }
    obtain ⟨q1, q2, q3, q4, q5⟩ := ih (i + 1) (closeAtom b c a i { s with energy := s.energy + atomEnergy dip E p a i })
    generalize elLoop5 b dip E c p as (i + 1) (closeAtom b c a i { s with energy := s.energy + atomEnergy dip E p a i }) = r
      at q1 q2 q3 q4 q5 ⊢
    have hi : r.force i = scaled b c.uf a (s.force i) := by
      rw [q3 i (by omega), c4, if_pos rfl]
    refine ⟨?_, ?_, ?_, ?_, ?_⟩
    · rw [q1, c1, List.zipIdx_cons, List.map_cons, List.sum_cons, ← add_assoc]
      simp only [Nat.add_zero]
      congr 2
      exact (zipIdx_shift as (fun a' x => atomEnergy dip E p a' x) i).symm
    · rw [q2, c2]
    · intro x hx
      simp only [List.length_cons] at hx
      rw [q3 x (by omega), c4, if_neg (by omega)]
    · intro k a' hk
      cases k with
      | zero =>
        simp only [List.getElem?_cons_zero, Option.some.injEq] at hk
        subst hk
        exact hi
      | succ k =>
        rw [List.getElem?_cons_succ] at hk
        have := q4 k a' hk
        rw [show i + 1 + k = i + (k + 1) by omega] at this
        rw [this, c4, if_neg (by omega)]
    · rw [q5, c3, List.zipIdx_cons, List.map_cons, List.sum_cons, ← add_assoc]
      simp only [Nat.add_zero, hi]
      congr 2
      exact (zipIdx_shift as (fun a' x => atomErr b c a' (r.force x)) i).symm

/-- Running sums before the closing, 273-799. -/
theorem elSums_before (b : Build) (dip : Bool) (P : Pots K) (E : Elec K) (c : Conf K) (p : Nat → V3 K) (hal : Aligned c)
    (ht : dip = true → TypesMatch c) (hq : dip = true → PolarCharged E c) (s : ElState K) :
    (if dip then (overNeigh (elNeigh4 b E c.uf c.us p) c.atoms c.start ⟨(elStart b dip P E c s).acc, 0, 0⟩).acc
      else (elStart b dip P E c s).acc) =
      ⟨fun a => resetForces c s.fv.force a + ((entries c).map (contr (gate c.uf (elVec dip P E p)) a)).sum,
       totalPairEnergy P c + ((entries c).map (elEntry dip E p)).sum,
       ((entries c).map (vecStressOf b c.us (gate c.uf (elVec dip P E p)))).sum, 0⟩ := by
  set z : Acc K := ⟨resetForces c s.fv.force, 0, 0, 0⟩ with hz
  set V1 : Entry K → V3 K := fun e => along (pairSlope P) e + coulombVec E e with hV1
  have h1 : (elStart b dip P E c s).acc =
      ⟨fun a => z.force a + ((entries c).map (contr (gate c.uf V1) a)).sum,
       z.energy + ((entries c).map fun e => pairEnergy P e + coulombEnergy E e).sum,
       z.stress + ((entries c).map (vecStressOf b c.us (gate c.uf V1))).sum, z.err⟩ := by
    unfold elStart
    rw [overNeigh_eq]
    exact foldl_acc (fun t : ElAcc K => t.acc) _ (gate c.uf V1) (fun e => pairEnergy P e + coulombEnergy E e)
      (vecStressOf b c.us (gate c.uf V1)) (entries c)
      (fun e _ t => elNeigh2_acc b dip P E c.uf c.us e.own e.otyp t e.n) _
  have hcsum : ∀ (g h : Entry K → V3 K) (a : Nat), ((entries c).map (contr g a)).sum + ((entries c).map (contr h a)).sum =
      ((entries c).map (contr (fun e => g e + h e) a)).sum := by
    intro g h a
    have e1 := sum_contr_vec g c a
    have e2 := sum_contr_vec h c a
    have e3 := sum_contr_vec (fun e => g e + h e) c a
    unfold entries
    rw [e1, e2, e3, vecForce_add]
  cases dip with
  | false =>
    simp only [Bool.false_eq_true, if_false]
    rw [h1]
    have hv : elVec false P E p = V1 := by
      funext e
      simp [elVec, elEntryVec, hV1]
    rw [hv]
    have he : ((entries c).map fun e => pairEnergy P e + coulombEnergy E e).sum =
        totalPairEnergy P c + ((entries c).map (elEntry false E p)).sum := by
      unfold totalPairEnergy
      rw [← List.sum_map_add]
      congr 1
      apply List.map_congr_left
      intro e _
      simp [elEntry]
    simp only [hz, he, zero_add]
  | true =>
    simp only [if_true]
    set V2 : Entry K → V3 K := fun e => chargeDipoleVec E p e + dipoleDipoleVec E p e with hV2
    have h2 := foldl_acc (fun t : DipAcc K => t.acc)
      (fun s e => elNeigh4 b E c.uf c.us p e.own e.otyp s e.n) (gate c.uf V2) (fun e => chargeDipole E p e + dipoleDipole E p e)
      (vecStressOf b c.us (gate c.uf V2)) (entries c)
      (fun e he t => elNeigh4_acc b E c.uf c.us p e t (hal e he) (ht rfl e he) (hq rfl e he))
      ⟨(elStart b true P E c s).acc, 0, 0⟩
    rw [overNeigh_eq]
    refine Eq.trans h2 ?_
    simp only [h1]
    have hv : elVec true P E p = fun e => V1 e + V2 e := by
      funext e
      simp only [elVec, elEntryVec, if_true, hV1, hV2, add_assoc]
    have hgate : gate c.uf (elVec true P E p) = fun e => gate c.uf V1 e + gate c.uf V2 e := by
      funext e
      rw [hv, gate_add]
    simp only [Acc.mk.injEq]
    refine ⟨?_, ?_, ?_, by simp [hz]⟩
    · funext a
      rw [hgate, ← hcsum, add_assoc]
    · rw [hz]
      simp only [zero_add]
      unfold totalPairEnergy
      rw [← List.sum_map_add, ← List.sum_map_add]
      congr 1
      apply List.map_congr_left
      intro e _
      simp only [elEntry, if_true]
      ring
    · rw [hz]
      simp only [zero_add]
      rw [← List.sum_map_add]
      congr 1
      apply List.map_congr_left
      intro e _
      rw [vecStressOf_add, hgate]

/-- Result for one configuration. -/
theorem elConf_spec (b : Build) (dip : Bool) (P : Pots K) (E : Elec K) (ew sw : K) (ci : Nat) (c : Conf K) (hh : HalfList c)
    (hal : Aligned c) (ht : dip = true → TypesMatch c) (hq : dip = true → PolarCharged E c) (s : ElState K) :
    let r := elConf b dip P E ew sw ci c s
    let D := elVec dip P E r.1.dip.pInd
    let T := elTotal dip P E r.1.dip.pInd c
    (∀ x, (x < c.start ∨ c.start + c.atoms.length ≤ x) → r.1.fv.force x = s.fv.force x) ∧
    (∀ k a, c.atoms[k]? = some a → r.1.fv.force (c.start + k) =
      if c.uf then scaled b true a (vecForce D c (c.start + k) - c.force0 (c.start + k)) else 0) ∧
    (r.1.fv.energy = Function.update s.fv.energy ci (T / (c.atoms.length : K) - c.energy0)) ∧
    (r.1.fv.stress = if b.stress then Function.update s.fv.stress ci
        (if c.uf && c.us then fun k => vecStress D c k / c.vol - c.stress0 k else 0)
      else s.fv.stress) ∧
    r.1.fv.limit = s.fv.limit ∧
    r.2 = (c.atoms.zipIdx.map fun ak => atomErr b c ak.1 (r.1.fv.force (c.start + ak.2))).sum +
      c.weight * ew * (T / (c.atoms.length : K) - c.energy0) ^ 2 +
      (if b.stress && c.uf && c.us then ∑ k : Fin 6, c.weight * sw * (vecStress D c k / c.vol - c.stress0 k) ^ 2 else 0) := by
  intro r D T
  set p := (elDipoles b dip P E c s).pInd with hp
  have hrp : r.1.dip.pInd = p := rfl
  set A0 : Acc K := if dip then (overNeigh (elNeigh4 b E c.uf c.us p) c.atoms c.start ⟨(elStart b dip P E c s).acc, 0, 0⟩).acc
    else (elStart b dip P E c s).acc with hA0
  have hb := elSums_before b dip P E c p hal ht hq s
  rw [← hA0] at hb
  set A := elLoop5 b dip E c p c.atoms c.start A0 with hA
  obtain ⟨q1, q2, q3, q4, q5⟩ := elLoop5_spec b dip E c p c.atoms c.start A0
  rw [← hA] at q1 q2 q3 q4 q5
  have hF0 : ∀ a, A0.force a = resetForces c s.fv.force a + if c.uf then vecForce D c a else 0 := by
    intro a
    rw [hb]
    simp only
    congr 1
    cases hu : c.uf with
    | true =>
      have : gate true (elVec dip P E p) = D := by funext e; simp only [gate, if_true, D, hrp]
      rw [this, if_pos rfl]
      exact sum_contr_vec D c a
    | false =>
      have : gate false (elVec dip P E p) = fun _ => 0 := by funext e; simp [gate]
      rw [this, if_neg (by decide)]
      apply List.sum_eq_zero
      intro y hy
      obtain ⟨e, -, rfl⟩ := List.mem_map.1 hy
      simp [contr]
  have a1 : A.energy = T := by
    rw [q1, hb]
    simp only [T, elTotal, hrp]
  have a2 : A.stress = if c.uf && (b.stress && c.us) then fun k => vecStress D c k else 0 := by
    rw [q2, hb]
    simp only
    cases hu : c.uf with
    | true =>
      have hg : gate true (elVec dip P E p) = D := by funext e; simp only [gate, if_true, D, hrp]
      rw [hg]
      by_cases hs : (b.stress && c.us) = true
      · simp only [hs, Bool.and_self, if_true]
        have e2 : vecStressOf b c.us D = fun e => -virial e.n.dist (D e) := by
          funext e
          simp [vecStressOf, hs]
        funext k
        rw [e2]
        exact sum_vecStress D c k
      · have e2 : vecStressOf b c.us D = fun _ => 0 := by
          funext e
          simp [vecStressOf, hs]
        rw [e2]
        simp [hs]
    | false =>
      have e2 : vecStressOf b c.us (gate false (elVec dip P E p)) = fun _ => 0 := by
        funext e
        simp [vecStressOf, gate, virial_zero]
      rw [e2]
      simp
  have a3 : ∀ x, (x < c.start ∨ c.start + c.atoms.length ≤ x) → A.force x = s.fv.force x := by
    intro x hx
    rw [q3 x hx, hF0, vecForce_outside _ hh hx]
    unfold resetForces
    rw [if_neg (by omega)]
    simp
  have a4 : ∀ k a, c.atoms[k]? = some a → A.force (c.start + k) =
      if c.uf then scaled b true a (vecForce D c (c.start + k) - c.force0 (c.start + k)) else 0 := by
    intro k a hk
    have hlt : k < c.atoms.length := (List.getElem?_eq_some_iff.1 hk).1
    rw [q4 k a hk, hF0]
    unfold resetForces
    rw [if_pos (by omega)]
    cases hu : c.uf with
    | true =>
      simp only [if_true]
      congr 1
      abel
    | false => simp [scaled]
  have a5 : A.err = (c.atoms.zipIdx.map fun ak => atomErr b c ak.1 (A.force (c.start + ak.2))).sum := by
    rw [q5, hb]
    simp
  have hr : r = (⟨⟨(closeConf b ew sw c A).force, Function.update s.fv.energy ci (closeConf b ew sw c A).energy,
      if b.stress then Function.update s.fv.stress ci (closeConf b ew sw c A).stress else s.fv.stress,
      s.fv.limit⟩, elDipoles b dip P E c s⟩, (closeConf b ew sw c A).err) := rfl
  have hforce : r.1.fv.force = A.force := by
    rw [hr]
    simp only [closeConf]
    split <;> rfl
  refine ⟨?_, ?_, ?_, ?_, ?_, ?_⟩
  · intro x hx
    rw [hforce]
    exact a3 x hx
  · intro k a hk
    rw [hforce]
    exact a4 k a hk
  · rw [hr]
    simp only [closeConf]
    split <;> simp only [a1]
  · rw [hr]
    simp only [closeConf]
    by_cases h1 : b.stress = true
    · by_cases h2 : c.uf = true
      · by_cases h3 : c.us = true
        · simp [h1, h2, h3, a2]
        · simp [h1, h2, h3, a2]
      · simp [h1, h2, a2]
    · simp [h1]
  · rw [hr]
  · rw [hforce, ← a5, hr]
    simp only [closeConf]
    by_cases h1 : (b.stress && c.uf && c.us) = true
    · have h2 : c.uf && (b.stress && c.us) := by
        simp only [Bool.and_eq_true] at h1 ⊢; tauto
      simp only [h1, if_true, a2, a1, h2, List.sum_ofFn, pow_two]
    · simp only [h1, a1, pow_two]
      simp

end Verif.Force
