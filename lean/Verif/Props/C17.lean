/-
C17  Forces are minus the gradient of the energy.

Positions are varied at fixed neighbour lists (`Spec/Gradient.lean`).  The energy of a configuration is taken from
the energy entry of the force vector (energy per atom minus reference energy), the force on an atom from its
force entries (force minus reference force, divided by the scale with `FWEIGHT`).
-/
import Verif.Lemmas.Gradient
import Verif.Lemmas.Supercell
import Verif.Props.C19

namespace Verif.Props

open Verif.Force hiding Cell
open Verif.Neighbors Verif.Spec

/-- Energy of the configuration as the pair routine computes it. -/
noncomputable def pairEnergyOf (b : Build) (P : Pots ℝ) (ew sw : ℝ) (ci : Nat) (fv : FV ℝ) (c : Conf ℝ) : ℝ :=
  ((pairConf b P ew sw ci c fv).1.energy ci + c.energy0) * c.atoms.length

/-- Energy of the configuration as the EAM routine computes it. -/
noncomputable def eamEnergyOf (b : Build) (P : EamPots ℝ) (ew sw : ℝ) (ci : Nat) (s : EamState ℝ) (c : Conf ℝ) : ℝ :=
  ((eamConf b P ew sw ci c s).1.fv.energy ci + c.energy0) * c.atoms.length

/-- No two atoms coincide, and no distance is exactly the range of the pair function. -/
def PairSmooth (P : Pots ℝ) (f : Conf ℝ) (ts : List Node) (x : Nat → V3 ℝ) : Prop :=
  ∀ e ∈ entries (place f ts x), e.n.r ≠ 0 ∧ e.n.r ≠ P.fin e.n.col0 ∧
    (e.n.r < P.fin e.n.col0 → HasDerivAt (P.val e.n.col0) (P.grad e.n.col0 e.n.r) e.n.r)

theorem forceOn_bond (slope : Entry ℝ → ℝ) (x : Nat → V3 ℝ) (a : Nat) (k : Fin 3) (b : Bond) :
    (forceOn slope (b.entry x) a k) = -(slope (b.entry x) * (sgn a b.own b.l.nr *
      (reach x b.own b.l k / length (reach x b.own b.l)))) := by
  have e1 : (b.entry x).own = b.own := rfl
  have e2 : (b.entry x).n.nr = b.l.nr := rfl
  have e3 : (b.entry x).n.distR k = reach x b.own b.l k / length (reach x b.own b.l) := rfl
  unfold forceOn sgn
  rw [e1, e2]
  by_cases h : b.own = b.l.nr
  · rw [if_pos h, h]
    simp
  · rw [if_neg h]
    by_cases ha : a = b.own
    · rw [if_pos ha, if_neg (by omega), if_pos ha.symm, ← e3]
      ring
    · rw [if_neg ha]
      by_cases hn : a = b.l.nr
      · rw [if_pos hn, if_pos hn.symm, if_neg (by omega), ← e3]
        ring
      · rw [if_neg hn, if_neg (by omega), if_neg (by omega)]
        simp

/-- Derivative of the pair energy of one entry. -/
theorem hasDerivAt_pair (P : Pots ℝ) (x : Nat → V3 ℝ) (a : Nat) (k : Fin 3) (b : Bond)
    (h0 : (b.entry x).n.r ≠ 0) (h1 : (b.entry x).n.r ≠ P.fin b.l.col0)
    (h2 : (b.entry x).n.r < P.fin b.l.col0 → HasDerivAt (P.val b.l.col0) (P.grad b.l.col0 (b.entry x).n.r) (b.entry x).n.r) :
    HasDerivAt (fun t => pairEnergy P (b.entry (moved x a k t)))
      (-forceOn (pairSlope P) (b.entry x) a k) (x a k) := by
  rw [forceOn_bond, neg_neg]
  have hr := hasDerivAt_dist x a k b.own b.l h0
  have e1 : ∀ y, (b.entry y).own = b.own := fun _ => rfl
  have e2 : ∀ y, (b.entry y).n.nr = b.l.nr := fun _ => rfl
  have e4 : ∀ y, (b.entry y).n.r = length (reach y b.own b.l) := fun _ => rfl
  have e5 : ∀ y, (b.entry y).n.col0 = b.l.col0 := fun _ => rfl
  rw [e4] at h1 h2
  have hc := hasDerivAt_cut (c := P.fin b.l.col0) (φ := P.val b.l.col0) (g := P.grad b.l.col0 (length (reach x b.own b.l))) hr
    (by rw [moved_self]; exact h1) (by rw [moved_self]; exact h2)
  rw [moved_self] at hc
  by_cases hself : b.l.nr = b.own
  · have hz : sgn a b.own b.l.nr = 0 := by unfold sgn; rw [hself]; ring
    rw [hz, zero_mul, mul_zero]
    rw [hz, zero_mul, mul_zero] at hc
    have := hc.div_const 2
    rw [zero_div] at this
    refine this.congr_of_eventuallyEq (Filter.Eventually.of_forall fun t => ?_)
    simp only [pairEnergy, e1, e2, e4, e5, if_pos hself]
    split <;> simp
  · refine (hc.congr_of_eventuallyEq (Filter.Eventually.of_forall fun t => ?_)).congr_deriv ?_
    · simp only [pairEnergy, e1, e2, e4, e5, if_neg hself]
    · simp only [pairSlope, e4, e5]

theorem totalForce_apply (slope : Entry ℝ → ℝ) (c : Conf ℝ) (a : Nat) (k : Fin 3) :
    totalForce slope c a k = ((entries c).map fun e => forceOn slope e a k).sum := by
  unfold totalForce
  generalize entries c = l
  induction l with
  | nil => rfl
  | cons e l ih => simp only [List.map_cons, List.sum_cons, Pi.add_apply, ih]

theorem hasDerivAt_totalPair (P : Pots ℝ) (f : Conf ℝ) (ts : List Node) (x : Nat → V3 ℝ) (a : Nat) (k : Fin 3)
    (hs : PairSmooth P f ts x) :
    HasDerivAt (fun t => totalPairEnergy P (place f ts (moved x a k t)))
      (-totalForce (pairSlope P) (place f ts x) a k) (x a k) := by
  unfold totalPairEnergy
  rw [totalForce_apply]
  simp only [entries_place, List.map_map]
  have := hasDerivAt_listSum (bondsFrom f.start ts) (fun b t => pairEnergy P (b.entry (moved x a k t)))
    (fun b => -forceOn (pairSlope P) (b.entry x) a k) (x a k) (by
      intro b hb
      obtain ⟨h0, h1, h2⟩ := hs (b.entry x) (by rw [entries_place]; exact List.mem_map_of_mem hb)
      exact hasDerivAt_pair P x a k b h0 h1 h2)
  refine this.congr_deriv ?_
  rw [listSum_neg]
  rfl

/-- Pair potentials. -/
theorem C17_pair (b : Build) (P : Pots ℝ) (ew sw : ℝ) (ci : Nat) (fv : FV ℝ) (f : Conf ℝ) (ts : List Node)
    (x : Nat → V3 ℝ) (hu : f.uf = true) (hh : HalfList (place f ts x)) (hs : PairSmooth P f ts x)
    (hw : ∀ n ∈ ts, 0 ≤ n.absforce)
    (j : Nat) (n : Node) (hj : ts[j]? = some n) (k : Fin 3) :
    HasDerivAt (fun t => pairEnergyOf b P ew sw ci fv (place f ts (moved x (f.start + j) k t)))
      (-((pairConf b P ew sw ci (place f ts x) fv).1.force (f.start + j) k *
          (if b.fweight then 1 / 10 + n.absforce else 1) + f.force0 (f.start + j) k))
      (x (f.start + j) k) := by
  have hN : (ts.length : ℝ) ≠ 0 := by
    have : 0 < ts.length := Nat.lt_of_le_of_lt (Nat.zero_le _) (List.getElem?_eq_some_iff.1 hj).1
    exact_mod_cast this.ne'
  have hE : ∀ t, pairEnergyOf b P ew sw ci fv (place f ts (moved x (f.start + j) k t)) =
      f.chem + totalPairEnergy P (place f ts (moved x (f.start + j) k t)) := by
    intro t
    obtain ⟨-, -, p3, -⟩ := pairConf_spec b P ew sw ci (place f ts (moved x (f.start + j) k t)) (halfList_place hh) fv
    unfold pairEnergyOf
    rw [p3, Function.update_self]
    simp only [place, placeFrom_length]
    field_simp
    ring
  have hF := (C19_pair b P ew sw ci (place f ts x) hh hu fv).1 j
    ⟨n.typ, n.links.map (placed x (f.start + j)), n.absforce, n.contrib⟩
    (by simp only [place, placeFrom_getElem?, hj, Option.map_some])
  have hF' := congrFun hF k
  simp only [deviation, forceScale, place] at hF'
  have hd := (hasDerivAt_totalPair P f ts x (f.start + j) k hs).const_add f.chem
  refine (hd.congr_of_eventuallyEq (Filter.Eventually.of_forall hE)).congr_deriv ?_
  have hmem : n ∈ ts := List.mem_of_getElem? hj
  have : (if b.fweight = true then 1 / 10 + n.absforce else 1 : ℝ) ≠ 0 := by
    by_cases h : b.fweight = true
    · rw [if_pos h]; linarith [hw n hmem]
    · rw [if_neg h]; exact one_ne_zero
  rw [show (pairConf b P ew sw ci (place f ts x) fv).1.force (f.start + j) k = _ from hF',
    div_mul_cancel₀ _ this]
  simp only [place]
  ring

/-- Distances are not exactly the range of a transfer function, and transfer functions are differentiable. -/
def TransferSmooth (P : EamPots ℝ) (f : Conf ℝ) (ts : List Node) (x : Nat → V3 ℝ) : Prop :=
  ∀ e ∈ entries (place f ts x), ∀ t ∈ [e.n.typ, e.otyp], e.n.r ≠ P.fin (P.paircol + t) ∧
    (e.n.r < P.fin (P.paircol + t) → HasDerivAt (P.val (P.paircol + t)) (P.grad (P.paircol + t) e.n.r) e.n.r)

/-- The slope used for the embedding function is the derivative of the value used, at the density of every
atom. -/
def EmbedSmooth (b : Build) (P : EamPots ℝ) (f : Conf ℝ) (ts : List Node) (x : Nat → V3 ℝ) : Prop :=
  ∀ j n, ts[j]? = some n →
    HasDerivAt (fun y => (embed b P (P.paircol + P.ntypes + n.typ) y).value)
      (embed b P (P.paircol + P.ntypes + n.typ) (totalDensity P (place f ts x) (f.start + j))).grad
      (totalDensity P (place f ts x) (f.start + j))

/-- Slope of the density at atom `i`. -/
noncomputable def densitySlope (P : EamPots ℝ) (i : Nat) (e : Entry ℝ) : ℝ :=
  (if i = e.own then transferSlope P e.n.typ e.n.r else 0) +
  (if i = e.n.nr ∧ e.n.nr ≠ e.own then transferSlope P e.otyp e.n.r else 0)

theorem hasDerivAt_density (P : EamPots ℝ) (f : Conf ℝ) (ts : List Node) (x : Nat → V3 ℝ) (a : Nat) (k : Fin 3)
    (h0 : ∀ e ∈ entries (place f ts x), e.n.r ≠ 0) (hs : TransferSmooth P f ts x) (i : Nat) :
    HasDerivAt (fun t => totalDensity P (place f ts (moved x a k t)) i)
      ((bondsFrom f.start ts).map fun b => densitySlope P i (b.entry x) * (sgn a b.own b.l.nr *
        (reach x b.own b.l k / length (reach x b.own b.l)))).sum (x a k) := by
  unfold totalDensity
  simp only [entries_place, List.map_map]
  refine hasDerivAt_listSum (bondsFrom f.start ts) (fun b t => densityOn P (b.entry (moved x a k t)) i) _ (x a k) ?_
  intro b hb
  have hm : b.entry x ∈ entries (place f ts x) := by rw [entries_place]; exact List.mem_map_of_mem hb
  have hr := hasDerivAt_dist x a k b.own b.l (h0 _ hm)
  have hone : ∀ t ∈ [b.l.typ, b.otyp], HasDerivAt (fun s => transfer P t (length (reach (moved x a k s) b.own b.l)))
      (transferSlope P t (length (reach x b.own b.l)) * (sgn a b.own b.l.nr *
        (reach x b.own b.l k / length (reach x b.own b.l)))) (x a k) := by
    intro t ht
    obtain ⟨h1, h2⟩ := hs _ hm t ht
    have hc := hasDerivAt_cut (c := P.fin (P.paircol + t)) (φ := P.val (P.paircol + t))
      (g := P.grad (P.paircol + t) (length (reach x b.own b.l))) hr
      (by rw [moved_self]; exact h1) (by rw [moved_self]; exact h2)
    rw [moved_self] at hc
    exact hc
  have e1 : ∀ y, (b.entry y).own = b.own := fun _ => rfl
  have e2 : ∀ y, (b.entry y).n.nr = b.l.nr := fun _ => rfl
  have e3 : ∀ y, (b.entry y).n.typ = b.l.typ := fun _ => rfl
  have e4 : ∀ y, (b.entry y).n.r = length (reach y b.own b.l) := fun _ => rfl
  have e5 : ∀ y, (b.entry y).otyp = b.otyp := fun _ => rfl
  simp only [densityOn, densitySlope, e1, e2, e3, e4, e5, add_mul]
  apply HasDerivAt.add
  · by_cases h : i = b.own
    · simp only [if_pos h]
      exact hone _ (by simp)
    · simp only [if_neg h, zero_mul]
      exact hasDerivAt_const _ _
  · by_cases h : i = b.l.nr ∧ b.l.nr ≠ b.own
    · simp only [if_pos h]
      exact hone _ (by simp)
    · simp only [if_neg h, zero_mul]
      exact hasDerivAt_const _ _

theorem hasDerivAt_embedding (b : Build) (P : EamPots ℝ) (f : Conf ℝ) (ts : List Node) (x : Nat → V3 ℝ) (a : Nat)
    (k : Fin 3) (h0 : ∀ e ∈ entries (place f ts x), e.n.r ≠ 0) (hs : TransferSmooth P f ts x)
    (hh : HalfList (place f ts x)) (G : Nat → ℝ)
    (he : ∀ j n, ts[j]? = some n →
      HasDerivAt (fun y => (embed b P (P.paircol + P.ntypes + n.typ) y).value) (G (f.start + j))
        (totalDensity P (place f ts x) (f.start + j))) :
    HasDerivAt (fun t => totalEmbedding b P (place f ts (moved x a k t)))
      (-totalForce (eamSlope P G) (place f ts x) a k) (x a k) := by
  have hsum : ∀ y, totalEmbedding b P (place f ts y) = ∑ i ∈ Finset.range ts.length,
      (embed b P (P.paircol + P.ntypes + (ts.getD i ⟨0, [], 0, false⟩).typ)
        (totalDensity P (place f ts y) (f.start + i))).value := by
    intro y
    unfold totalEmbedding embedAt
    rw [sum_zipIdx _ (fun (a : Atom ℝ) k => (embed b P (P.paircol + P.ntypes + a.typ)
      (totalDensity P (place f ts y) ((place f ts y).start + k))).value) 0 (⟨0, [], 0, false⟩ : Atom ℝ)]
    simp only [place, placeFrom_length, Nat.zero_add]
    apply Finset.sum_congr rfl
    intro i hi
    rw [Finset.mem_range] at hi
    have hi' := List.getElem?_eq_getElem hi
    rw [List.getD_eq_getElem?_getD, placeFrom_getElem?, List.getD_eq_getElem?_getD, hi']
    rfl
  simp only [hsum]
  have hd : HasDerivAt (fun t => ∑ i ∈ Finset.range ts.length,
      (embed b P (P.paircol + P.ntypes + (ts.getD i ⟨0, [], 0, false⟩).typ)
        (totalDensity P (place f ts (moved x a k t)) (f.start + i))).value)
      (∑ i ∈ Finset.range ts.length, G (f.start + i) *
        ((bondsFrom f.start ts).map fun b => densitySlope P (f.start + i) (b.entry x) * (sgn a b.own b.l.nr *
        (reach x b.own b.l k / length (reach x b.own b.l)))).sum) (x a k) := by
    apply HasDerivAt.fun_sum
    intro i hi
    rw [Finset.mem_range] at hi
    have hi' := List.getElem?_eq_getElem hi
    have hn : ts.getD i ⟨0, [], 0, false⟩ = ts[i] := by rw [List.getD_eq_getElem?_getD, hi']; rfl
    rw [hn]
    have h1 := hasDerivAt_density P f ts x a k h0 hs (f.start + i)
    have h2 := he i _ hi'
    rw [show totalDensity P (place f ts x) (f.start + i) =
      totalDensity P (place f ts (moved x a k (x a k))) (f.start + i) by rw [moved_self]] at h2
    have h3 := h2.comp (x a k) h1
    exact h3
  refine hd.congr_deriv ?_
  rw [totalForce_apply, entries_place, List.map_map, ← listSum_neg]
  rw [sum_mul_listSum]
  congr 1
  apply List.map_congr_left
  intro bd hb
  simp only [Function.comp]
  rw [forceOn_bond, neg_neg]
  have hm : bd.entry x ∈ entries (place f ts x) := by rw [entries_place]; exact List.mem_map_of_mem hb
  obtain ⟨b1, b2⟩ := hh _ hm
  have e0 : (place f ts x).start = f.start := rfl
  have e0' : (place f ts x).atoms.length = ts.length := placeFrom_length x ts f.start
  have hown : f.start ≤ bd.own := by
    have := mem_entriesFrom (s := f.start) (l := (place f ts x).atoms) (e := bd.entry x) hm
    obtain ⟨i, _, _, h2, _⟩ := this
    have : bd.own = f.start + i := h2
    omega
  have e1 : (bd.entry x).own = bd.own := rfl
  have e2 : (bd.entry x).n.nr = bd.l.nr := rfl
  have b1' : bd.own ≤ bd.l.nr := b1
  have b2' : bd.l.nr < f.start + ts.length := by rw [← e0']; exact b2
  by_cases hself : bd.l.nr = bd.own
  · have hz : sgn a bd.own bd.l.nr = 0 := by unfold sgn; rw [hself]; ring
    simp only [hz, zero_mul, mul_zero, Finset.sum_const_zero]
  · simp only [← mul_assoc]
    rw [← Finset.sum_mul, ← Finset.sum_mul]
    congr 2
    have hpick : ∀ (n : Nat) (v : ℝ), f.start ≤ n → n < f.start + ts.length →
        ∑ i ∈ Finset.range ts.length, G (f.start + i) * (if f.start + i = n then v else 0) = G n * v := by
      intro n v h1 h2
      rw [Finset.sum_eq_single (n - f.start)]
      · rw [show f.start + (n - f.start) = n by omega, if_pos rfl]
      · intro i _ hi
        rw [if_neg (by omega), mul_zero]
      · intro hn
        exact absurd (Finset.mem_range.2 (by omega)) hn
    have hsplit : ∀ i, densitySlope P (f.start + i) (bd.entry x) =
        (if f.start + i = bd.own then transferSlope P (bd.entry x).n.typ (bd.entry x).n.r else 0) +
        (if f.start + i = bd.l.nr then transferSlope P (bd.entry x).otyp (bd.entry x).n.r else 0) := by
      intro i
      unfold densitySlope
      have h : (f.start + i = (bd.entry x).n.nr ∧ (bd.entry x).n.nr ≠ (bd.entry x).own) ↔ f.start + i = bd.l.nr :=
        ⟨fun h => h.1, fun h => ⟨h, hself⟩⟩
      simp only [h]
      rfl
    simp only [hsplit, mul_add]
    rw [Finset.sum_add_distrib, hpick _ _ hown (by omega), hpick _ _ (by omega) (by omega)]
    unfold eamSlope
    rw [e1, e2]
    ring

/-- EAM potentials. -/
theorem C17_eam (b : Build) (P : EamPots ℝ) (ew sw : ℝ) (ci : Nat) (s : EamState ℝ) (f : Conf ℝ) (ts : List Node)
    (x : Nat → V3 ℝ) (hu : f.uf = true) (hh : HalfList (place f ts x)) (hc : EamColumns P (place f ts x))
    (hs : PairSmooth P.toPots f ts x) (ht : TransferSmooth P f ts x) (he : EmbedSmooth b P f ts x)
    (hw : ∀ n ∈ ts, 0 ≤ n.absforce) (j : Nat) (n : Node) (hj : ts[j]? = some n) (k : Fin 3) :
    HasDerivAt (fun t => eamEnergyOf b P ew sw ci s (place f ts (moved x (f.start + j) k t)))
      (-((eamConf b P ew sw ci (place f ts x) s).1.fv.force (f.start + j) k *
          (if b.fweight then 1 / 10 + n.absforce else 1) + f.force0 (f.start + j) k))
      (x (f.start + j) k) := by
  have hN : (ts.length : ℝ) ≠ 0 := by
    have : 0 < ts.length := Nat.lt_of_le_of_lt (Nat.zero_le _) (List.getElem?_eq_some_iff.1 hj).1
    exact_mod_cast this.ne'
  have hE : ∀ t, eamEnergyOf b P ew sw ci s (place f ts (moved x (f.start + j) k t)) =
      totalPairEnergy P.toPots (place f ts (moved x (f.start + j) k t)) +
      totalEmbedding b P (place f ts (moved x (f.start + j) k t)) := by
    intro t
    obtain ⟨-, -, -, -, p3, -⟩ := eamConf_spec b P ew sw ci (place f ts (moved x (f.start + j) k t))
      (halfList_place hh) (eamColumns_place hc) s
    unfold eamEnergyOf
    rw [p3, Function.update_self]
    simp only [place, placeFrom_length]
    field_simp
    ring
  obtain ⟨hC, -⟩ := C19_eam b P ew sw ci (place f ts x) hh hc s
  have hat : ∀ (i : Nat) (m : Node), ts[i]? = some m → (place f ts x).atoms[i]? =
      some (⟨m.typ, m.links.map (placed x (f.start + i)), m.absforce, m.contrib⟩ : Atom ℝ) := by
    intro i m hi
    simp only [place, placeFrom_getElem?, hi, Option.map_some]
  have hF := (hC j _ (hat j n hj)).2.2 hu
  have hF' := congrFun hF k
  have hd1 := hasDerivAt_totalPair P.toPots f ts x (f.start + j) k hs
  have hd2 := hasDerivAt_embedding b P f ts x (f.start + j) k (fun e he => (hs e he).1) ht hh
    (eamConf b P ew sw ci (place f ts x) s).1.gradF (fun i m hi => (he i m hi).congr_deriv (hC i _ (hat i m hi)).2.1.symm)
  refine ((hd1.add hd2).congr_of_eventuallyEq (Filter.Eventually.of_forall hE)).congr_deriv ?_
  have hmem : n ∈ ts := List.mem_of_getElem? hj
  have : (if b.fweight = true then 1 / 10 + n.absforce else 1 : ℝ) ≠ 0 := by
    by_cases h : b.fweight = true
    · rw [if_pos h]; linarith [hw n hmem]
    · rw [if_neg h]; exact one_ne_zero
  have hF2 : (eamConf b P ew sw ci (place f ts x) s).1.fv.force (f.start + j) k =
      (totalForce (fun e => pairSlope P.toPots e + eamSlope P (eamConf b P ew sw ci (place f ts x) s).1.gradF e)
        (place f ts x) (f.start + j) k - f.force0 (f.start + j) k) /
      (if b.fweight = true then 1 / 10 + n.absforce else 1) := hF'
  rw [hF2, div_mul_cancel₀ _ this]
  have hadd : totalForce (fun e => pairSlope P.toPots e + eamSlope P (eamConf b P ew sw ci (place f ts x) s).1.gradF e)
        (place f ts x) (f.start + j) k = totalForce (pairSlope P.toPots) (place f ts x) (f.start + j) k +
      totalForce (eamSlope P (eamConf b P ew sw ci (place f ts x) s).1.gradF) (place f ts x) (f.start + j) k := by
    simp only [totalForce_apply, ← List.sum_map_add]
    congr 1
    apply List.map_congr_left
    intro e _
    unfold forceOn
    split
    · simp
    · split
      · ring
      · split
        · ring
        · simp
  rw [hadd]
  ring

/-- Embedding functions: inside the tabulated range (with `APOT` and without `RESCALE` also above 0.1) the slope is
the derivative if that holds for the tabulated function. -/
theorem C17_embed_inside (b : Build) (P : EamPots ℝ) (col : Nat) (y : ℝ) (h1 : P.beg col < y) (h2 : y < P.fin col)
    (h3 : 1 / 10 < y) (hd : HasDerivAt (P.val col) (P.grad col y) y) :
    HasDerivAt (fun y => (embed b P col y).value) (embed b P col y).grad y := by
  have key : ∀ z, P.beg col < z → z < P.fin col → 1 / 10 < z → embed b P col z = ⟨z, P.val col z, P.grad col z, 0⟩ := by
    intro z z1 z2 z3
    unfold embed
    simp only [if_neg (not_lt.2 z1.le), if_neg (not_lt.2 z2.le), not_lt.2 z1.le, not_lt.2 z2.le, not_lt.2 z3.le,
      or_self, if_false, add_zero, ite_self]
  rw [key y h1 h2 h3]
  refine hd.congr_of_eventuallyEq ?_
  filter_upwards [lt_mem_nhds h1, gt_mem_nhds h2, lt_mem_nhds h3] with z z1 z2 z3
  rw [key z z1 z2 z3]

/-- Tabulated embedding functions without `RESCALE`: the linear continuation on both sides has the right slope. -/
theorem C17_embed_outside (b : Build) (hb : b.rescale = false) (ha : b.apot = false) (P : EamPots ℝ) (col : Nat) (y : ℝ)
    (h0 : P.beg col ≤ P.fin col) (h : y < P.beg col ∨ P.fin col < y) :
    HasDerivAt (fun y => (embed b P col y).value) (embed b P col y).grad y := by
  have lin : ∀ u v w : ℝ, HasDerivAt (fun z => u + (z - v) * w) w y := by
    intro u v w
    have := (((hasDerivAt_id y).sub_const v).mul_const w).const_add u
    simpa using this
  rcases h with h | h
  · have key : ∀ z, z < P.beg col → embed b P col z = ⟨z, P.val col (P.beg col) + (z - P.beg col) *
        P.grad col (P.beg col), P.grad col (P.beg col), 0⟩ := by
      intro z hz
      simp only [embed, hb, ha, Bool.false_eq_true, if_false, if_pos hz]
    rw [key y h]
    refine (lin (P.val col (P.beg col)) (P.beg col) (P.grad col (P.beg col))).congr_of_eventuallyEq ?_
    filter_upwards [gt_mem_nhds h] with z hz
    rw [key z hz]
  · have key : ∀ z, P.fin col < z → embed b P col z = ⟨z, P.val col (P.fin col - 1 / 2 * P.step col) +
        (z - P.fin col) * P.grad col (P.fin col - 1 / 2 * P.step col), P.grad col (P.fin col - 1 / 2 * P.step col), 0⟩ := by
      intro z hz
      simp only [embed, hb, ha, Bool.false_eq_true, if_false, if_neg (not_lt.2 (h0.trans hz.le)), if_pos hz]
    rw [key y h]
    refine (lin (P.val col (P.fin col - 1 / 2 * P.step col)) (P.fin col)
      (P.grad col (P.fin col - 1 / 2 * P.step col))).congr_of_eventuallyEq ?_
    filter_upwards [lt_mem_nhds h] with z hz
    rw [key z hz]

/-- The lists built by `init_neighbors` are of the form used here. -/
theorem C17_lists (cut : Cutoffs) (scale : Fin 3 → ℤ) (c : Cell) (f : Conf ℝ) (full : Bool)
    (h : Built full cut scale c f) :
    ∃ ts : List Node, place f ts (fun a => (c.site (a - c.start)).pos) = f := by
  have key : ∀ (l : List (Atom ℝ)) (s : Nat), (∀ i a, l[i]? = some a → neighbours full cut scale c (s + i) = .ok a.neigh) →
      ∃ ts : List Node, placeFrom (fun a => (c.site (a - c.start)).pos) (c.start + s) ts = l := by
    intro l
    induction l with
    | nil => intro s _; exact ⟨[], rfl⟩
    | cons a l ih =>
      intro s hl
      obtain ⟨ts, hts⟩ := ih (s + 1) (fun i b hb => by
        rw [show s + 1 + i = s + (i + 1) by omega]
        exact hl (i + 1) b (by simpa using hb))
      have h0 := hl 0 a rfl
      rw [Nat.add_zero] at h0
      have hm : ∃ ims : List Image, a.neigh = ims.map (entryOf c s) := by
        unfold neighbours at h0
        simp only at h0
        split at h0
        · cases h0
        · simp only [Except.ok.injEq] at h0
          exact ⟨_, h0.symm⟩
      obtain ⟨ims, hims⟩ := hm
      refine ⟨⟨a.typ, ims.map fun m => ⟨c.start + m.j, (c.site m.j).typ, ∑ k : Fin 3, (m.n k : ℝ) • c.box.edge k,
        PairIndex.pairCol c.ntypes (c.site s).typ (c.site m.j).typ, c.paircol + (c.site m.j).typ⟩,
        a.absforce, a.contrib⟩ :: ts, ?_⟩
      simp only [placeFrom, List.map_map]
      rw [show c.start + s + 1 = c.start + (s + 1) by omega, hts]
      congr 1
      cases a
      simp only [Atom.mk.injEq, true_and, and_true] at hims ⊢
      rw [hims]
      apply List.map_congr_left
      intro m _
      have hr : reach (fun a => (c.site (a - c.start)).pos) (c.start + s)
          ⟨c.start + m.j, (c.site m.j).typ, ∑ k : Fin 3, (m.n k : ℝ) • c.box.edge k,
            PairIndex.pairCol c.ntypes (c.site s).typ (c.site m.j).typ, c.paircol + (c.site m.j).typ⟩ = arrow c s m := by
        unfold reach arrow
        simp only [Nat.add_sub_cancel_left]
      simp only [Function.comp, placed, hr, entryOf, offset_eq_arrow, sqrt_sprod]
  obtain ⟨ts, hts⟩ := key f.atoms 0 (fun i a ha => by rw [Nat.zero_add]; exact h.lists i a ha)
  refine ⟨ts, ?_⟩
  rw [Nat.add_zero, ← h.start] at hts
  unfold place
  rw [← h.start, hts]

/-- Potentials for the examples: pair function `r ^ 2`, transfer function `r`, embedding function `y`, the latter
tabulated up to `top`. -/
noncomputable def gradPots (top : ℝ) : EamPots ℝ where
  fin := fun col => if col = 2 then top else 10
  beg := fun _ => 0
  step := fun _ => 1
  val := fun col r => if col = 0 then r ^ 2 else r
  grad := fun col r => if col = 0 then 2 * r else 1
  paircol := 1
  ntypes := 1
  ana := fun _ _ => (0, 0)

/-- Two atoms at distance 2. -/
def gradConf : Conf ℝ := ⟨0, [], true, true, 1, 1, 0, 0, 0, 0, 0⟩

def gradNodes : List Node := [⟨0, [⟨1, 0, 0, 0, 1⟩], 0, true⟩, ⟨0, [], 0, true⟩]

def gradPos : Nat → V3 ℝ := fun a => if a = 1 then ![2, 0, 0] else ![0, 0, 0]

theorem gradEntries : entries (place gradConf gradNodes gradPos) =
    [⟨0, 0, ⟨1, 0, 2, ![2, 0, 0], ![1, 0, 0], 0, 1⟩⟩] := by
  have hr : reach gradPos 0 ⟨1, 0, 0, 0, 1⟩ = ![2, 0, 0] := by
    funext k
    simp only [reach, gradPos, if_true, Pi.add_apply, Pi.sub_apply, Pi.zero_apply]
    fin_cases k <;> simp only [Fin.zero_eta, Fin.mk_one, Fin.reduceFinMk, Matrix.cons_val,
      if_neg (show (0 : ℕ) ≠ 1 by decide)] <;> norm_num
  have hl : length (![2, 0, 0] : V3 ℝ) = 2 := by
    unfold length
    rw [Fin.sum_univ_three]
    simp only [Matrix.cons_val]
    rw [show (2 : ℝ) ^ 2 + 0 ^ 2 + 0 ^ 2 = 2 ^ 2 by norm_num, Real.sqrt_sq (by norm_num)]
  rw [entries_place]
  simp only [gradNodes, gradConf, bondsFrom, List.map_cons, List.map_nil, List.append_nil, Bond.entry, placed, hr, hl]
  congr 3
  · funext k
    fin_cases k <;> simp only [Fin.zero_eta, Fin.mk_one, Fin.reduceFinMk, Matrix.cons_val] <;> norm_num
  · funext k
    fin_cases k <;> simp only [Fin.zero_eta, Fin.mk_one, Fin.reduceFinMk, Matrix.cons_val] <;> norm_num

theorem grad_half : HalfList (place gradConf gradNodes gradPos) := by
  intro e he
  rw [gradEntries] at he
  simp only [List.mem_singleton] at he
  subst he
  simp only [place, placeFrom_length]
  decide

theorem grad_cols (top : ℝ) : EamColumns (gradPots top) (place gradConf gradNodes gradPos) := by
  intro e he
  rw [gradEntries] at he
  simp only [List.mem_singleton] at he
  subst he
  simp [gradPots]

theorem grad_pair (top : ℝ) : PairSmooth (gradPots top).toPots gradConf gradNodes gradPos := by
  intro e he
  rw [gradEntries] at he
  simp only [List.mem_singleton] at he
  subst he
  simp only [gradPots, if_neg (show (0 : ℕ) ≠ 2 by decide), if_true]
  refine ⟨by norm_num, by norm_num, fun _ => ?_⟩
  simpa using hasDerivAt_pow 2 (2 : ℝ)

theorem grad_transfer (top : ℝ) : TransferSmooth (gradPots top) gradConf gradNodes gradPos := by
  intro e he t ht
  rw [gradEntries] at he
  simp only [List.mem_singleton] at he
  subst he
  have : t = 0 := by simpa using ht
  subst this
  simp only [gradPots, Nat.add_zero, if_neg (show (1 : ℕ) ≠ 2 by decide), if_neg (show (1 : ℕ) ≠ 0 by decide)]
  exact ⟨by norm_num, fun _ => hasDerivAt_id 2⟩

theorem grad_density (top : ℝ) (j : Nat) (n : Node) (h : gradNodes[j]? = some n) :
    n.typ = 0 ∧ n.absforce = 0 ∧ totalDensity (gradPots top) (place gradConf gradNodes gradPos) (gradConf.start + j) = 2 := by
  unfold totalDensity
  rw [gradEntries]
  match j, h with
  | 0, h =>
    simp only [gradNodes, List.getElem?_cons_zero, Option.some.injEq] at h
    subst h
    simp [densityOn, transfer, gradPots, gradConf]
    norm_num
  | 1, h =>
    simp only [gradNodes, List.getElem?_cons_succ, List.getElem?_cons_zero, Option.some.injEq] at h
    subst h
    simp [densityOn, transfer, gradPots, gradConf]
    norm_num

/-- The hypotheses of both theorems are met. -/
example (b : Build) : gradConf.uf = true ∧ HalfList (place gradConf gradNodes gradPos) ∧
    EamColumns (gradPots 5) (place gradConf gradNodes gradPos) ∧
    PairSmooth (gradPots 5).toPots gradConf gradNodes gradPos ∧ TransferSmooth (gradPots 5) gradConf gradNodes gradPos ∧
    EmbedSmooth b (gradPots 5) gradConf gradNodes gradPos ∧ (∀ n ∈ gradNodes, 0 ≤ n.absforce) := by
  refine ⟨rfl, grad_half, grad_cols 5, grad_pair 5, grad_transfer 5, ?_, ?_⟩
  · intro j n hj
    obtain ⟨h1, -, h2⟩ := grad_density 5 j n hj
    rw [h1, h2]
    apply C17_embed_inside
    · simp [gradPots]
    · simp [gradPots]; norm_num
    · norm_num
    · simp only [gradPots]
      exact hasDerivAt_id 2
  · intro n hn
    obtain ⟨j, hj⟩ := List.mem_iff_getElem?.1 hn
    rw [(grad_density 5 j n hj).2.1]

/-- With `RESCALE` and a density above the tabulated range (here 2 above 1) the energy uses the value at the end of
the range, but the forces use its slope there: all other hypotheses hold, and the force is not minus the
derivative. -/
theorem C17_rescale_violated (s : EamState ℝ) :
    let b : Build := ⟨false, false, false, true, false, false⟩
    let E := fun t => eamEnergyOf b (gradPots 1) 1 1 0 s (place gradConf gradNodes (moved gradPos 0 0 t))
    ∃ E', HasDerivAt E E' (gradPos 0 0) ∧
      E' ≠ -((eamConf b (gradPots 1) 1 1 0 (place gradConf gradNodes gradPos) s).1.fv.force 0 0) := by
  intro b E
  have hclamp : ∀ y, 1 < y → embed b (gradPots 1) 2 y = ⟨1, 1, 1, 1000 * ((y - 1) * (y - 1))⟩ := by
    intro y hy
    simp [embed, b, gradPots, hy, dummyWeight, not_lt.2 (zero_le_one' ℝ)]
    left
    norm_num
  have hE : ∀ t, E t = totalPairEnergy (gradPots 1).toPots (place gradConf gradNodes (moved gradPos 0 0 t)) +
      totalEmbedding b (gradPots 1) (place gradConf gradNodes (moved gradPos 0 0 t)) := by
    intro t
    obtain ⟨-, -, -, -, p3, -⟩ := eamConf_spec b (gradPots 1) 1 1 0 (place gradConf gradNodes (moved gradPos 0 0 t))
      (halfList_place grad_half) (eamColumns_place (grad_cols 1)) s
    simp only [E, eamEnergyOf]
    rw [p3, Function.update_self]
    simp only [place, placeFrom_length, gradNodes, List.length_cons, List.length_nil]
    push_cast
    ring
  have hd1 := hasDerivAt_totalPair (gradPots 1).toPots gradConf gradNodes gradPos 0 0 (grad_pair 1)
  have hd2 := hasDerivAt_embedding b (gradPots 1) gradConf gradNodes gradPos 0 0
    (fun e he => (grad_pair 1 e he).1) (grad_transfer 1) grad_half (fun _ => 0) (by
      intro j n hj
      obtain ⟨h1, -, h2⟩ := grad_density 1 j n hj
      rw [h1, h2]
      refine (hasDerivAt_const (2 : ℝ) (1 : ℝ)).congr_of_eventuallyEq ?_
      filter_upwards [lt_mem_nhds (show (1 : ℝ) < 2 by norm_num)] with y hy
      rw [show (gradPots 1).paircol + (gradPots 1).ntypes + 0 = 2 from rfl, hclamp y hy])
  refine ⟨_, (hd1.add hd2).congr_of_eventuallyEq (Filter.Eventually.of_forall hE), ?_⟩
  obtain ⟨hC, -⟩ := C19_eam b (gradPots 1) 1 1 0 (place gradConf gradNodes gradPos) grad_half (grad_cols 1) s
  have hat : ∀ (i : Nat) (m : Node), gradNodes[i]? = some m → (place gradConf gradNodes gradPos).atoms[i]? =
      some (⟨m.typ, m.links.map (placed gradPos (gradConf.start + i)), m.absforce, m.contrib⟩ : Atom ℝ) := by
    intro i m hi
    simp only [place, placeFrom_getElem?, hi, Option.map_some]
  have hg : ∀ i, i < 2 → (eamConf b (gradPots 1) 1 1 0 (place gradConf gradNodes gradPos) s).1.gradF i = 1 := by
    intro i hi
    have hi' : i < gradNodes.length := hi
    have hn := List.getElem?_eq_getElem hi'
    have h1 := (hC i _ (hat i _ hn)).2.1
    obtain ⟨h2, -, h3⟩ := grad_density 1 i _ hn
    have e0 : (place gradConf gradNodes gradPos).start = 0 := rfl
    have e1 : gradConf.start = 0 := rfl
    rw [e1, Nat.zero_add] at h3
    simp only [e0, Nat.zero_add, h2, h3] at h1
    rw [h1, show (gradPots 1).paircol + (gradPots 1).ntypes + 0 = 2 from rfl, hclamp 2 (by norm_num)]
  have hF := congrFun ((hC 0 _ (hat 0 _ rfl)).2.2 rfl) 0
  have e0 : (place gradConf gradNodes gradPos).start + 0 = 0 := rfl
  rw [e0] at hF
  rw [hF]
  simp only [deviation, forceScale, totalForce_apply, gradEntries, List.map_cons, List.map_nil, List.sum_cons,
    List.sum_nil, add_zero]
  simp only [forceOn, pairSlope, eamSlope, if_neg (show (0 : ℕ) ≠ 1 by decide), if_true, Matrix.cons_val,
    hg 0 (by decide), hg 1 (by decide), mul_zero, add_zero]
  have e3 : (place gradConf gradNodes gradPos).force0 0 0 = 0 := rfl
  rw [e3]
  simp [b, transferSlope, gradPots]
  norm_num

end Verif.Props
