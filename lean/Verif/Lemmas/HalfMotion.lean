/-
Half lists while atoms move or the cell is strained: rates of change of pair and embedding energies.
-/
import Verif.Lemmas.Motion
import Verif.Props.C17
import Verif.Spec.ForceAdp

set_option linter.unusedSectionVars false

namespace Verif.Spec

open Verif.Force Verif.Props

/-- The entry of a bond if the vectors are given by `rf`. -/
noncomputable def Bond.entryAt (rf : Nat → Link → V3 ℝ) (b : Bond) : Entry ℝ :=
  ⟨b.own, b.otyp, placedAt (rf b.own b.l) b.l⟩

theorem entriesFrom_placeWith (rf : Nat → Link → V3 ℝ) (ts : List Node) (s : Nat) :
    entriesFrom s (placeWithFrom rf s ts) = (bondsFrom s ts).map (Bond.entryAt rf) := by
  induction ts generalizing s with
  | nil => rfl
  | cons a ts ih =>
    simp only [placeWithFrom, entriesFrom, bondsFrom, List.map_append, List.map_map, ih]
    rfl

theorem entries_placeWith (f : Conf ℝ) (ts : List Node) (rf : Nat → Link → V3 ℝ) :
    entries (placeWith f ts rf) = (bondsFrom f.start ts).map (Bond.entryAt rf) := entriesFrom_placeWith rf ts f.start

theorem entryAt_reach (x : Nat → V3 ℝ) (b : Bond) : b.entryAt (reach x) = b.entry x := rfl

theorem halfList_placeWith {f : Conf ℝ} {ts : List Node} {rf rf' : Nat → Link → V3 ℝ}
    (h : HalfList (placeWith f ts rf)) : HalfList (placeWith f ts rf') := by
  intro e he
  rw [entries_placeWith, List.mem_map] at he
  obtain ⟨b, hb, rfl⟩ := he
  have := h (b.entryAt rf) (by rw [entries_placeWith]; exact List.mem_map_of_mem hb)
  simp only [Bond.entryAt, placedAt, placeWith, placeWithFrom_length] at this ⊢
  exact this

theorem eamColumns_placeWith {P : EamPots ℝ} {f : Conf ℝ} {ts : List Node} {rf rf' : Nat → Link → V3 ℝ}
    (h : EamColumns P (placeWith f ts rf)) : EamColumns P (placeWith f ts rf') := by
  intro e he
  rw [entries_placeWith, List.mem_map] at he
  obtain ⟨b, hb, rfl⟩ := he
  exact h (b.entryAt rf) (by rw [entries_placeWith]; exact List.mem_map_of_mem hb)

/-- The distance vector is the vector to the neighbour. -/
theorem placedAt_dist (v : V3 ℝ) (l : Link) (k : Fin 3) : (placedAt v l).dist k = v k := by
  simp only [placedAt]
  by_cases h : length v = 0
  · have h0 : ∑ k : Fin 3, v k ^ 2 = 0 := by
      have hn : 0 ≤ ∑ k : Fin 3, v k ^ 2 := Finset.sum_nonneg fun k _ => sq_nonneg _
      exact (Real.sqrt_eq_zero hn).1 h
    have := (Finset.sum_eq_zero_iff_of_nonneg (fun k _ => sq_nonneg (v k))).1 h0 k (Finset.mem_univ k)
    rw [h, mul_zero, pow_eq_zero_iff (by norm_num)] at *
    exact this.symm
  · exact div_mul_cancel₀ _ h

/-- Rate of change of the distance of an entry. -/
noncomputable def rdot (M : Motion) (e : Entry ℝ) : ℝ := ∑ k : Fin 3, e.n.distR k * M.speed e.own e.n k

/-- The entry of a bond at the present position. -/
noncomputable def Bond.now (M : Motion) (b : Bond) : Entry ℝ := b.entryAt (M.path M.now)

theorem hasDerivAt_bondR (M : Motion) (b : Bond) (h0 : (b.now M).n.r ≠ 0) :
    HasDerivAt (fun t => (b.entryAt (M.path t)).n.r) (rdot M (b.now M)) M.now :=
  hasDerivAt_length (fun k => M.deriv b.own b.l k h0) h0

theorem hasDerivAt_bondVec (M : Motion) (b : Bond) (h0 : (b.now M).n.r ≠ 0) (k : Fin 3) :
    HasDerivAt (fun t => (b.entryAt (M.path t)).n.dist k) (M.speed (b.now M).own (b.now M).n k) M.now := by
  have := M.deriv b.own b.l k h0
  refine this.congr_of_eventuallyEq (Filter.Eventually.of_forall fun t => ?_)
  exact placedAt_dist _ _ k

/-- A cut-off function of the distance. -/
theorem hasDerivAt_cutR (M : Motion) (b : Bond) (h0 : (b.now M).n.r ≠ 0) {c g : ℝ} {φ : ℝ → ℝ}
    (h1 : (b.now M).n.r ≠ c) (h2 : (b.now M).n.r < c → HasDerivAt φ g (b.now M).n.r) :
    HasDerivAt (fun t => if (b.entryAt (M.path t)).n.r < c then φ (b.entryAt (M.path t)).n.r else 0)
      ((if (b.now M).n.r < c then g else 0) * rdot M (b.now M)) M.now :=
  hasDerivAt_cut (c := c) (φ := φ) (g := g) (hasDerivAt_bondR M b h0) h1 h2

/-- Rate of change of an energy whose derivative with respect to the vector of entry `e` is `g e`. -/
noncomputable def entryRate (M : Motion) (g : Entry ℝ → V3 ℝ) (e : Entry ℝ) : ℝ :=
  ∑ k : Fin 3, g e k * M.speed e.own e.n k

noncomputable def totalRate (M : Motion) (g : Entry ℝ → V3 ℝ) (f : Conf ℝ) (ts : List Node) : ℝ :=
  ((bondsFrom f.start ts).map fun b => entryRate M g (b.now M)).sum

theorem totalRate_add (M : Motion) (g h : Entry ℝ → V3 ℝ) (f : Conf ℝ) (ts : List Node) :
    totalRate M (fun e => g e + h e) f ts = totalRate M g f ts + totalRate M h f ts := by
  unfold totalRate
  induction bondsFrom f.start ts with
  | nil => simp
  | cons b l ih =>
    simp only [List.map_cons, List.sum_cons, ih]
    simp only [entryRate, Pi.add_apply, add_mul, Finset.sum_add_distrib]
    ring

theorem entryRate_along (M : Motion) (slope : Entry ℝ → ℝ) (e : Entry ℝ) :
    entryRate M (along slope) e = (if e.n.nr = e.own then slope e / 2 else slope e) * rdot M e := by
  unfold entryRate along rdot
  rw [Finset.mul_sum]
  apply Finset.sum_congr rfl
  intro k _
  ring

/-- Pair energies. -/
theorem rate_pair (M : Motion) (P : Pots ℝ) (f : Conf ℝ) (ts : List Node)
    (hs : ∀ b ∈ bondsFrom f.start ts, (b.now M).n.r ≠ 0 ∧ (b.now M).n.r ≠ P.fin b.l.col0 ∧
      ((b.now M).n.r < P.fin b.l.col0 → HasDerivAt (P.val b.l.col0) (P.grad b.l.col0 (b.now M).n.r) (b.now M).n.r)) :
    HasDerivAt (fun t => totalPairEnergy P (placeWith f ts (M.path t)))
      (totalRate M (along (pairSlope P)) f ts) M.now := by
  unfold totalPairEnergy totalRate
  simp only [entries_placeWith, List.map_map]
  refine hasDerivAt_listSum (bondsFrom f.start ts) (fun b t => pairEnergy P (b.entryAt (M.path t)))
    (fun b => entryRate M (along (pairSlope P)) (b.now M)) M.now ?_
  intro b hb
  obtain ⟨h0, h1, h2⟩ := hs b hb
  have hc := hasDerivAt_cutR M b h0 h1 h2
  rw [entryRate_along]
  have e1 : ∀ t, pairEnergy P (b.entryAt (M.path t)) = (if b.l.nr = b.own then 1 / 2 else 1) *
      (if (b.entryAt (M.path t)).n.r < P.fin b.l.col0 then P.val b.l.col0 (b.entryAt (M.path t)).n.r else 0) := by
    intro t
    show (if (b.entryAt (M.path t)).n.r < P.fin b.l.col0 then
      (if b.l.nr = b.own then P.val b.l.col0 (b.entryAt (M.path t)).n.r / 2 else P.val b.l.col0 (b.entryAt (M.path t)).n.r)
      else 0) = _
    by_cases h : (b.entryAt (M.path t)).n.r < P.fin b.l.col0
    · by_cases hself : b.l.nr = b.own
      · simp only [if_pos h, if_pos hself]; ring
      · simp only [if_pos h, if_neg hself, one_mul]
    · simp only [if_neg h, mul_zero]
  simp only [e1]
  refine (hc.const_mul _).congr_deriv ?_
  have e2 : pairSlope P (b.now M) = if (b.now M).n.r < P.fin b.l.col0 then P.grad b.l.col0 (b.now M).n.r else 0 := rfl
  have e3 : ((b.now M).n.nr = (b.now M).own) = (b.l.nr = b.own) := rfl
  rw [e2]
  simp only [e3]
  by_cases hself : b.l.nr = b.own
  · simp only [if_pos hself]; ring
  · simp only [if_neg hself]; ring

/-- Densities. -/
theorem rate_density (M : Motion) (P : EamPots ℝ) (f : Conf ℝ) (ts : List Node)
    (hs : ∀ b ∈ bondsFrom f.start ts, (b.now M).n.r ≠ 0 ∧ ∀ t ∈ [b.l.typ, b.otyp], (b.now M).n.r ≠ P.fin (P.paircol + t) ∧
      ((b.now M).n.r < P.fin (P.paircol + t) →
        HasDerivAt (P.val (P.paircol + t)) (P.grad (P.paircol + t) (b.now M).n.r) (b.now M).n.r)) (i : Nat) :
    HasDerivAt (fun t => totalDensity P (placeWith f ts (M.path t)) i)
      ((bondsFrom f.start ts).map fun b => densitySlope P i (b.now M) * rdot M (b.now M)).sum M.now := by
  unfold totalDensity
  simp only [entries_placeWith, List.map_map]
  refine hasDerivAt_listSum (bondsFrom f.start ts) (fun b t => densityOn P (b.entryAt (M.path t)) i) _ M.now ?_
  intro b hb
  obtain ⟨h0, h1⟩ := hs b hb
  have hone : ∀ t ∈ [b.l.typ, b.otyp], HasDerivAt (fun s => transfer P t (b.entryAt (M.path s)).n.r)
      (transferSlope P t (b.now M).n.r * rdot M (b.now M)) M.now := by
    intro t ht
    exact hasDerivAt_cutR M b h0 (h1 t ht).1 (h1 t ht).2
  have e1 : ∀ y, (b.entryAt y).own = b.own := fun _ => rfl
  have e2 : ∀ y, (b.entryAt y).n.nr = b.l.nr := fun _ => rfl
  have e3 : ∀ y, (b.entryAt y).n.typ = b.l.typ := fun _ => rfl
  have e5 : ∀ y, (b.entryAt y).otyp = b.otyp := fun _ => rfl
  have n1 : (b.now M).own = b.own := rfl
  have n2 : (b.now M).n.nr = b.l.nr := rfl
  have n3 : (b.now M).n.typ = b.l.typ := rfl
  have n5 : (b.now M).otyp = b.otyp := rfl
  simp only [densityOn, densitySlope, e1, e2, e3, e5, n1, n2, n3, n5, add_mul]
  apply HasDerivAt.add
  · by_cases h : i = b.own
    · simp only [if_pos h]
      exact hone _ (by simp)
    · simp only [if_neg h, zero_mul]
      exact hasDerivAt_const _ _
  · by_cases h : i = b.l.nr ∧ b.l.nr ≠ b.own
    · simp only [if_pos h]
      exact hone _ (by simp)
    · simp only [if_neg h, zero_mul]
      exact hasDerivAt_const _ _

/-- Picking one atom out of a sum. -/
theorem pick_sum (start n a : Nat) (G : Nat → ℝ) (v : ℝ) (h1 : start ≤ a) (h2 : a < start + n) :
    ∑ i ∈ Finset.range n, G (start + i) * (if start + i = a then v else 0) = G a * v := by
  rw [Finset.sum_eq_single (a - start)]
  · rw [show start + (a - start) = a by omega, if_pos rfl]
  · intro i _ hi
    rw [if_neg (by omega), mul_zero]
  · intro hn
    exact absurd (Finset.mem_range.2 (by omega)) hn

theorem bond_range {f : Conf ℝ} {ts : List Node} {rf : Nat → Link → V3 ℝ} (hh : HalfList (placeWith f ts rf)) {b : Bond}
    (hb : b ∈ bondsFrom f.start ts) : f.start ≤ b.own ∧ b.own ≤ b.l.nr ∧ b.l.nr < f.start + ts.length := by
  have hm : b.entryAt rf ∈ entries (placeWith f ts rf) := by rw [entries_placeWith]; exact List.mem_map_of_mem hb
  obtain ⟨b1, b2⟩ := hh _ hm
  have hl : (placeWith f ts rf).atoms.length = ts.length := placeWithFrom_length rf ts f.start
  have hs : (placeWith f ts rf).start = f.start := rfl
  rw [hl, hs] at b2
  refine ⟨?_, b1, b2⟩
  exact (entriesFrom_ge (i := f.start) (as := (placeWith f ts rf).atoms) (e := b.entryAt rf) hm).1

theorem totalEmbedding_placeWith (b : Build) (P : EamPots ℝ) (f : Conf ℝ) (ts : List Node) (rf : Nat → Link → V3 ℝ) :
    totalEmbedding b P (placeWith f ts rf) = ∑ i ∈ Finset.range ts.length,
      (embed b P (P.paircol + P.ntypes + (ts.getD i ⟨0, [], 0, false⟩).typ)
        (totalDensity P (placeWith f ts rf) (f.start + i))).value := by
  unfold totalEmbedding embedAt
  rw [sum_zipIdx _ (fun (a : Atom ℝ) k => (embed b P (P.paircol + P.ntypes + a.typ)
    (totalDensity P (placeWith f ts rf) ((placeWith f ts rf).start + k))).value) 0 (⟨0, [], 0, false⟩ : Atom ℝ)]
  simp only [placeWith, placeWithFrom_length, Nat.zero_add]
  apply Finset.sum_congr rfl
  intro i hi
  rw [Finset.mem_range] at hi
  have hi' := List.getElem?_eq_getElem hi
  rw [List.getD_eq_getElem?_getD, placeWithFrom_getElem?, List.getD_eq_getElem?_getD, hi']
  rfl

/-- Embedding energies; an atom and its image have the same type. -/
theorem rate_embedding_self (M : Motion) (b : Build) (P : EamPots ℝ) (f : Conf ℝ) (ts : List Node)
    (hs : ∀ b ∈ bondsFrom f.start ts, (b.now M).n.r ≠ 0 ∧ ∀ t ∈ [b.l.typ, b.otyp], (b.now M).n.r ≠ P.fin (P.paircol + t) ∧
      ((b.now M).n.r < P.fin (P.paircol + t) →
        HasDerivAt (P.val (P.paircol + t)) (P.grad (P.paircol + t) (b.now M).n.r) (b.now M).n.r))
    (hh : HalfList (placeWith f ts (M.path M.now)))
    (hc : ∀ e ∈ entries (placeWith f ts (M.path M.now)), e.n.nr = e.own → e.n.typ = e.otyp) (G : Nat → ℝ)
    (he : ∀ j n, ts[j]? = some n →
      HasDerivAt (fun y => (embed b P (P.paircol + P.ntypes + n.typ) y).value) (G (f.start + j))
        (totalDensity P (placeWith f ts (M.path M.now)) (f.start + j))) :
    HasDerivAt (fun t => totalEmbedding b P (placeWith f ts (M.path t)))
      (totalRate M (along (eamSlope P G)) f ts) M.now := by
  simp only [totalEmbedding_placeWith]
  have hd : HasDerivAt (fun t => ∑ i ∈ Finset.range ts.length,
      (embed b P (P.paircol + P.ntypes + (ts.getD i ⟨0, [], 0, false⟩).typ)
        (totalDensity P (placeWith f ts (M.path t)) (f.start + i))).value)
      (∑ i ∈ Finset.range ts.length, G (f.start + i) *
        ((bondsFrom f.start ts).map fun b => densitySlope P (f.start + i) (b.now M) * rdot M (b.now M)).sum) M.now := by
    apply HasDerivAt.fun_sum
    intro i hi
    rw [Finset.mem_range] at hi
    have hi' := List.getElem?_eq_getElem hi
    have hn : ts.getD i ⟨0, [], 0, false⟩ = ts[i] := by rw [List.getD_eq_getElem?_getD, hi']; rfl
    rw [hn]
    have h1 := rate_density M P f ts hs (f.start + i)
    exact (he i _ hi').comp M.now h1
  refine hd.congr_deriv ?_
  rw [sum_mul_listSum]
  unfold totalRate
  congr 1
  apply List.map_congr_left
  intro bd hb
  obtain ⟨r1, r2, r3⟩ := bond_range hh hb
  rw [entryRate_along]
  simp only [← mul_assoc]
  rw [← Finset.sum_mul]
  congr 1
  have n1 : (bd.now M).own = bd.own := rfl
  have n2 : (bd.now M).n.nr = bd.l.nr := rfl
  by_cases hself : bd.l.nr = bd.own
  · have hsplit : ∀ i, densitySlope P (f.start + i) (bd.now M) =
        (if f.start + i = bd.own then transferSlope P (bd.now M).n.typ (bd.now M).n.r else 0) := by
      intro i
      unfold densitySlope
      rw [n1, n2, if_neg (c := f.start + i = bd.l.nr ∧ bd.l.nr ≠ bd.own) (by tauto), add_zero]
    simp only [hsplit]
    rw [pick_sum _ _ _ _ _ r1 (by omega), n1, n2, if_pos hself]
    have ht := hc (bd.now M) (by rw [entries_placeWith]; exact List.mem_map_of_mem hb) (by rw [n1, n2]; exact hself)
    unfold eamSlope
    rw [n1, n2, hself, ← ht]
    ring
  · have hsplit : ∀ i, densitySlope P (f.start + i) (bd.now M) =
        (if f.start + i = bd.own then transferSlope P (bd.now M).n.typ (bd.now M).n.r else 0) +
        (if f.start + i = bd.l.nr then transferSlope P (bd.now M).otyp (bd.now M).n.r else 0) := by
      intro i
      unfold densitySlope
      have h : (f.start + i = (bd.now M).n.nr ∧ (bd.now M).n.nr ≠ (bd.now M).own) ↔ f.start + i = bd.l.nr :=
        ⟨fun h => h.1, fun h => ⟨h, hself⟩⟩
      simp only [h]
      rfl
    simp only [hsplit, mul_add]
    rw [Finset.sum_add_distrib, pick_sum _ _ _ _ _ r1 (by omega), pick_sum _ _ _ _ _ (by omega) r3, n1, n2, if_neg hself]
    unfold eamSlope
    rw [n1, n2]
    ring

/-- Embedding energies. -/
theorem rate_embedding (M : Motion) (b : Build) (P : EamPots ℝ) (f : Conf ℝ) (ts : List Node)
    (hs : ∀ b ∈ bondsFrom f.start ts, (b.now M).n.r ≠ 0 ∧ ∀ t ∈ [b.l.typ, b.otyp], (b.now M).n.r ≠ P.fin (P.paircol + t) ∧
      ((b.now M).n.r < P.fin (P.paircol + t) →
        HasDerivAt (P.val (P.paircol + t)) (P.grad (P.paircol + t) (b.now M).n.r) (b.now M).n.r))
    (hh : HalfList (placeWith f ts (M.path M.now))) (hc : EamColumns P (placeWith f ts (M.path M.now))) (G : Nat → ℝ)
    (he : ∀ j n, ts[j]? = some n →
      HasDerivAt (fun y => (embed b P (P.paircol + P.ntypes + n.typ) y).value) (G (f.start + j))
        (totalDensity P (placeWith f ts (M.path M.now)) (f.start + j))) :
    HasDerivAt (fun t => totalEmbedding b P (placeWith f ts (M.path t)))
      (totalRate M (along (eamSlope P G)) f ts) M.now :=
  rate_embedding_self M b P f ts hs hh (fun e he => (hc e he).2) G he

/-! ### The two motions -/

theorem moving_now (x : Nat → V3 ℝ) (a : Nat) (k : Fin 3) :
    (moving x a k).path (moving x a k).now = reach x := by
  show reach (moved x a k (x a k)) = reach x
  rw [moved_self]

theorem straining_now (x : Nat → V3 ℝ) (α β : Fin 3) :
    (straining x α β).path (straining x α β).now = reach x := by
  funext i l c
  show strained 0 α β (reach x i l) c = _
  simp [strained]

theorem totalRate_moving (x : Nat → V3 ℝ) (a : Nat) (k : Fin 3) (g : Entry ℝ → V3 ℝ) (f : Conf ℝ) (ts : List Node) :
    totalRate (moving x a k) g f ts = -vecForce g (place f ts x) a k := by
  unfold totalRate vecForce
  rw [entries_place, List.map_map, ← listSum_neg]
  congr 1
  apply List.map_congr_left
  intro b _
  have hnow : b.now (moving x a k) = b.entry x := by
    unfold Bond.now
    rw [moving_now]
    rfl
  rw [hnow]
  simp only [Function.comp, entryRate]
  rw [Finset.sum_eq_single k]
  · show g (b.entry x) k * (if k = k then sgn a b.own b.l.nr else 0) = _
    rw [if_pos rfl]
    unfold sgn
    have e1 : (b.entry x).own = b.own := rfl
    have e2 : (b.entry x).n.nr = b.l.nr := rfl
    rw [e1, e2]
    simp only [eq_comm (a := a)]
    by_cases h1 : b.own = a <;> by_cases h2 : b.l.nr = a <;> simp [h1, h2]
  · intro m _ hm
    show g (b.entry x) m * (if m = k then sgn a b.own b.l.nr else 0) = 0
    rw [if_neg hm, mul_zero]
  · simp

theorem totalRate_straining (x : Nat → V3 ℝ) (α β : Fin 3) (g : Entry ℝ → V3 ℝ) (f : Conf ℝ) (ts : List Node) :
    totalRate (straining x α β) g f ts = ((entries (place f ts x)).map fun e => g e α * e.n.dist β).sum := by
  unfold totalRate
  rw [entries_place, List.map_map]
  congr 1
  apply List.map_congr_left
  intro b _
  have hnow : b.now (straining x α β) = b.entry x := by
    unfold Bond.now
    rw [straining_now]
    rfl
  rw [hnow]
  simp only [Function.comp, entryRate]
  rw [Finset.sum_eq_single α]
  · show g (b.entry x) α * (if α = α then (b.entry x).n.dist β else 0) = _
    rw [if_pos rfl]
  · intro m _ hm
    show g (b.entry x) m * (if m = α then (b.entry x).n.dist β else 0) = 0
    rw [if_neg hm, mul_zero]
  · simp

theorem totalStress_along (slope : Entry ℝ → ℝ) (c : Conf ℝ) (k : Fin 6) :
    totalStress slope c k = -((entries c).map fun e => along slope e (voigt k).2 * e.n.dist (voigt k).1).sum := by
  unfold totalStress
  rw [sum_apply_fin, ← listSum_neg]
  congr 1
  apply List.map_congr_left
  intro e _
  simp only [entryStress, along]
  ring

end Verif.Spec
