/-
Lemmas about the random number generator.
-/
import Verif.Model.Dsfmt
import Verif.Spec.Random
import Mathlib.Dynamics.PeriodicPts.Defs
import Mathlib.Dynamics.PeriodicPts.Lemmas
import Mathlib.Data.Finite.Prod
import Mathlib.Data.Fintype.EquivFin
import Mathlib.Data.Finite.Sigma
import Mathlib.Tactic.Ring
import Mathlib.Tactic.NormNum
import Mathlib.Tactic.Linarith
import Mathlib.Tactic.Positivity
import Mathlib.Data.Nat.Log

set_option linter.unusedSectionVars false

namespace Verif.Dsfmt

/-! ## Arrays -/

theorem rd_ok {n : Nat} {α : Type} (m : Arr n α) {i : Int} (h : 0 ≤ i ∧ i < n) :
    m.rd i = .ok (m ⟨i.toNat, by omega⟩) := by
  unfold Arr.rd
  rw [dif_pos h]

theorem wr_ok {n : Nat} {α : Type} (m : Arr n α) {i : Int} (h : 0 ≤ i ∧ i < n) (a : α) :
    m.wr i a = .ok (Function.update m ⟨i.toNat, by omega⟩ a) := by
  unfold Arr.wr
  rw [dif_pos h]

theorem bind_ok {α β : Type} (x : α) (f : α → Except Fault β) : ((.ok x : Except Fault α) >>= f) = f x := rfl

theorem foldlM_ok {α β : Type} (f : β → α → Except Fault β) (P : β → Prop) (l : List α)
    (h : ∀ x ∈ l, ∀ p, P p → ∃ q, f p x = .ok q ∧ P q) : ∀ p, P p → ∃ q, l.foldlM f p = .ok q ∧ P q := by
  induction l with
  | nil => intro p hp; exact ⟨p, rfl, hp⟩
  | cons x l ih =>
    intro p hp
    obtain ⟨q, hq, hP⟩ := h x (by simp) p hp
    obtain ⟨r, hr, hR⟩ := ih (fun y hy => h y (by simp [hy])) q hP
    refine ⟨r, ?_, hR⟩
    rw [List.foldlM_cons, hq]
    exact hr

theorem foldlM_back {α β : Type} (f : β → α → Except Fault β) (R : β → β → Prop) (l : List α)
    (h : ∀ x ∈ l, ∀ p q p' q', f p x = .ok p' → f q x = .ok q' → R p' q' → R p q) :
    ∀ p q p' q', l.foldlM f p = .ok p' → l.foldlM f q = .ok q' → R p' q' → R p q := by
  induction l with
  | nil =>
    intro p q p' q' hp hq hR
    cases hp; cases hq; exact hR
  | cons x l ih =>
    intro p q p' q' hp hq hR
    rw [List.foldlM_cons] at hp hq
    rcases hpx : f p x with e | p₁
    · rw [hpx] at hp; exact absurd hp (by intro h; cases h)
    rcases hqx : f q x with e | q₁
    · rw [hqx] at hq; exact absurd hq (by intro h; cases h)
    rw [hpx] at hp
    rw [hqx] at hq
    exact h x (by simp) _ _ _ _ hpx hqx (ih (fun y hy => h y (by simp [hy])) _ _ _ _ hp hq hR)

/-! ## Words -/

/-- The sign and exponent of a number in [1, 2). -/
def Norm (w : Word) : Prop := w >>> 52 = 0x3ff#64

theorem recursion_norm {t l msk : Word} (ht : Norm t) (hm : msk >>> 52 = 0) : Norm ((l >>> 12) ^^^ (l &&& msk) ^^^ t) := by
  unfold Norm at *
  rw [BitVec.ushiftRight_xor_distrib, BitVec.ushiftRight_xor_distrib, BitVec.ushiftRight_and_distrib, hm, ht]
  have : l >>> 12 >>> 52 = 0 := by
    rw [← BitVec.shiftRight_add]
    exact BitVec.ushiftRight_eq_zero (by decide)
  rw [this]
  simp

theorem norm_mask (w : Word) : Norm (w &&& lowMask ||| highConst) := by
  unfold Norm
  rw [BitVec.ushiftRight_or_distrib, BitVec.ushiftRight_and_distrib]
  have h1 : lowMask >>> 52 = 0 := by decide
  have h2 : highConst >>> 52 = 0x3ff#64 := by decide
  rw [h1, h2]
  simp

theorem norm_toNat {w : Word} (h : Norm w) : w.toNat / 2 ^ 52 = 1023 := by
  have := congrArg BitVec.toNat h
  rw [BitVec.toNat_ushiftRight, Nat.shiftRight_eq_div_pow] at this
  exact this

theorem decode_norm {w : Word} (h : Norm w) : decode w = some (1 + ((w.toNat % 2 ^ 52 : Nat) : ℚ) / 2 ^ 52) := by
  have h1 := norm_toNat h
  have h2 : w.toNat / 2 ^ 63 = 0 := by omega
  have h3 : w.toNat / 2 ^ 52 % 2 ^ 11 = 1023 := by omega
  unfold decode
  simp only [h2, h3, if_true]
  norm_num

/-- Exchange of the halves. -/
def rot (l : Word) : Word := (l >>> 32) ^^^ (l <<< 32)

theorem rot_rot (l : Word) : rot (rot l) = l := by
  unfold rot
  ext i hi
  simp only [BitVec.getElem_xor, BitVec.getElem_ushiftRight, BitVec.getElem_shiftLeft, BitVec.getLsbD_xor,
    BitVec.getLsbD_ushiftRight, BitVec.getLsbD_shiftLeft]
  by_cases h : i < 32
  · have h1 : 32 + i < 64 := by omega
    have h2 : ¬ 32 + i < 32 := by omega
    have h3 : 32 + (32 + i) ≥ 64 := by omega
    simp [h, h1, BitVec.getLsbD_of_ge l _ h3, ← BitVec.getLsbD_eq_getElem]
  · have h1 : i - 32 < 32 := by omega
    have h2 : 32 + (i - 32) = i := by omega
    have h3 : 32 + i ≥ 64 := by omega
    have h4 : 32 + (32 + i) ≥ 64 := by omega
    have h5 : ¬ 32 + i < 64 := by omega
    simp [h, h1, h2, h5, BitVec.getLsbD_of_ge l _ h4, BitVec.getLsbD_eq_getElem, hi]

theorem xor_cancel_right {a b c : Word} (h : a ^^^ c = b ^^^ c) : a = b := by
  have := congrArg (· ^^^ c) h
  simpa [BitVec.xor_assoc] using this

theorem xor_cancel_left {a b c : Word} (h : c ^^^ a = c ^^^ b) : a = b := by
  rw [BitVec.xor_comm c, BitVec.xor_comm c] at h
  exact xor_cancel_right h

/-- Entry and `lung` before a step can be found from what they are after it. -/
theorem recursion_inj {x x' y l l' : W} (h : recursion x y l = recursion x' y l') : x = x' ∧ l = l' := by
  obtain ⟨x0, x1⟩ := x
  obtain ⟨x0', x1'⟩ := x'
  obtain ⟨l0, l1⟩ := l
  obtain ⟨l0', l1'⟩ := l'
  simp only [recursion, Prod.mk.injEq, W.mk.injEq] at h
  obtain ⟨⟨h0, h1⟩, g0, g1⟩ := h
  rw [g0] at h0
  rw [g1] at h1
  have hx0 := xor_cancel_left h0
  have hx1 := xor_cancel_left h1
  subst hx0 hx1
  have k0 := xor_cancel_right g0
  have k1 := xor_cancel_right g1
  rw [BitVec.xor_assoc, BitVec.xor_assoc] at k0 k1
  have m0 := congrArg rot (xor_cancel_left k0)
  have m1 := congrArg rot (xor_cancel_left k1)
  have e0 : l1 = l1' := by rw [← rot_rot l1, ← rot_rot l1']; exact m0
  have e1 : l0 = l0' := by rw [← rot_rot l0, ← rot_rot l0']; exact m1
  exact ⟨rfl, by rw [e0, e1]⟩

/-! ## One round -/

theorem recAt_ok {a b : Int} (ha : 0 ≤ a ∧ a < (dN + 1 : Nat)) (hb : 0 ≤ b ∧ b < (dN + 1 : Nat)) (p : Mem × W) :
    recAt a b p = .ok (Function.update p.1 ⟨a.toNat, by omega⟩
      (recursion (p.1 ⟨a.toNat, by omega⟩) (p.1 ⟨b.toNat, by omega⟩) p.2).1,
      (recursion (p.1 ⟨a.toNat, by omega⟩) (p.1 ⟨b.toNat, by omega⟩) p.2).2) := by
  unfold recAt
  rw [rd_ok _ ha, rd_ok _ hb]
  show (do let m ← Arr.wr p.1 a _; return (m, _) : Except Fault (Mem × W)) = _
  rw [wr_ok _ ha]
  rfl

/-- Every word which is given out is a number in [1, 2). -/
def Good (m : Mem) : Prop := ∀ k : Fin (dN + 1), k.val < dN → Norm (m k).u0 ∧ Norm (m k).u1

theorem recAt_good {a b : Int} (ha : 0 ≤ a ∧ a < (dN + 1 : Nat)) (hb : 0 ≤ b ∧ b < (dN + 1 : Nat)) (p : Mem × W)
    (hp : Good p.1) : ∃ q, recAt a b p = .ok q ∧ Good q.1 := by
  refine ⟨_, recAt_ok ha hb p, ?_⟩
  intro k hk
  by_cases h : k = ⟨a.toNat, by omega⟩
  · have hk' := hk
    rw [h] at hk'
    simp only [h, Function.update_self]
    exact ⟨recursion_norm (hp _ hk').1 (by decide), recursion_norm (hp _ hk').2 (by decide)⟩
  · simp only [Function.update_of_ne h]
    exact hp k hk

theorem genAll_good (m : Mem) (hm : Good m) : ∃ m', genAll m = .ok m' ∧ Good m' := by
  unfold genAll
  rw [rd_ok m (i := (dN : Nat)) (by decide)]
  obtain ⟨p, hp, gp⟩ := recAt_good (a := 0) (b := (dPos1 : Nat)) (by decide) (by decide) (m, m ⟨dN, by decide⟩) hm
  obtain ⟨q, hq, gq⟩ := foldlM_ok (fun p (i : Nat) => recAt i (i + dPos1) p) (fun p => Good p.1) (List.range' 1 (dN - dPos1 - 1))
    (by
      intro i hi p hp
      rw [List.mem_range'_1] at hi
      exact recAt_good (by simp only [dN, dPos1] at *; omega) (by simp only [dN, dPos1] at *; omega) p hp) p gp
  obtain ⟨r, hr, gr⟩ := foldlM_ok (fun p (i : Nat) => recAt i ((i : Int) + dPos1 - dN) p) (fun p => Good p.1)
    (List.range' (dN - dPos1) dPos1)
    (by
      intro i hi p hp
      rw [List.mem_range'_1] at hi
      exact recAt_good (by simp only [dN, dPos1] at *; omega) (by simp only [dN, dPos1] at *; omega) p hp) q gq
  refine ⟨Function.update r.1 ⟨dN, by decide⟩ r.2, ?_, ?_⟩
  · rw [bind_ok]
    simp only [Nat.cast_ofNat] at hp
    erw [hp]
    rw [bind_ok, hq, bind_ok, hr, bind_ok]
    exact wr_ok r.1 (i := (dN : Nat)) (by decide) r.2
  · intro k hk
    have : k ≠ ⟨dN, by decide⟩ := by
      intro h
      rw [h] at hk
      exact absurd hk (lt_irrefl _)
    rw [Function.update_of_ne this]
    exact gr k hk

/-- Equal but for the last entry of the status, which a round sets at its end. -/
def Alike (p q : Mem × W) : Prop := p.2 = q.2 ∧ ∀ k : Fin (dN + 1), k.val < dN → p.1 k = q.1 k

theorem recAt_back {a b : Int} (ha : 0 ≤ a ∧ a < (dN : Nat)) (hb : 0 ≤ b ∧ b < (dN : Nat)) (hab : a ≠ b) {p q p' q' : Mem × W}
    (hp : recAt a b p = .ok p') (hq : recAt a b q = .ok q') (h : Alike p' q') : Alike p q := by
  have ha' : 0 ≤ a ∧ a < (dN + 1 : Nat) := by omega
  have hb' : 0 ≤ b ∧ b < (dN + 1 : Nat) := by omega
  rw [recAt_ok ha' hb'] at hp hq
  obtain rfl := Except.ok.inj hp
  obtain rfl := Except.ok.inj hq
  obtain ⟨h2, h1⟩ := h
  have hne : (⟨b.toNat, by omega⟩ : Fin (dN + 1)) ≠ ⟨a.toNat, by omega⟩ := by
    intro e
    have := Fin.mk.inj e
    omega
  have hbk := h1 ⟨b.toNat, by omega⟩ (by show b.toNat < dN; omega)
  simp only [Function.update_of_ne hne] at hbk
  have hak := h1 ⟨a.toNat, by omega⟩ (by show a.toNat < dN; omega)
  simp only [Function.update_self] at hak
  simp only at h2
  rw [hbk] at hak h2
  obtain ⟨ex, el⟩ := recursion_inj (Prod.ext hak h2)
  refine ⟨el, fun k hk => ?_⟩
  by_cases e : k = ⟨a.toNat, by omega⟩
  · rw [e]; exact ex
  · have := h1 k hk
    simpa only [Function.update_of_ne e] using this

theorem ok_bind {α β : Type} {x : Except Fault α} {f : α → Except Fault β} {y : β} (h : x >>= f = .ok y) :
    ∃ a, x = .ok a ∧ f a = .ok y := by
  rcases x with e | a
  · cases h
  · exact ⟨a, rfl, h⟩

theorem genAll_inj {m n r : Mem} (hm : genAll m = .ok r) (hn : genAll n = .ok r) : m = n := by
  unfold genAll at hm hn
  rw [rd_ok m (i := (dN : Nat)) (by decide)] at hm
  rw [rd_ok n (i := (dN : Nat)) (by decide)] at hn
  rw [bind_ok] at hm hn
  obtain ⟨p1, hp1, hm⟩ := ok_bind hm
  obtain ⟨p2, hp2, hm⟩ := ok_bind hm
  obtain ⟨p3, hp3, hm⟩ := ok_bind hm
  obtain ⟨q1, hq1, hn⟩ := ok_bind hn
  obtain ⟨q2, hq2, hn⟩ := ok_bind hn
  obtain ⟨q3, hq3, hn⟩ := ok_bind hn
  rw [wr_ok _ (i := (dN : Nat)) (by decide)] at hm hn
  have he := (Except.ok.inj hm).trans (Except.ok.inj hn).symm
  have h3 : Alike p3 q3 := by
    constructor
    · have := congrFun he ⟨dN, by decide⟩
      have e : (⟨(dN : Int).toNat, by decide⟩ : Fin (dN + 1)) = ⟨dN, by decide⟩ := rfl
      rw [e] at this
      simpa only [Function.update_self] using this
    · intro k hk
      have := congrFun he k
      have hk' : k ≠ ⟨(dN : Int).toNat, by decide⟩ := by
        intro e
        rw [e] at hk
        exact absurd hk (lt_irrefl _)
      rwa [Function.update_of_ne hk', Function.update_of_ne hk'] at this
  have h2 : Alike p2 q2 := by
    refine foldlM_back _ Alike _ ?_ _ _ _ _ hp3 hq3 h3
    intro i hi p q p' q' hp hq h
    rw [List.mem_range'_1] at hi
    simp only [dN, dPos1] at hi
    exact recAt_back (by simp only [dN]; omega) (by simp only [dN, dPos1]; omega) (by simp only [dN, dPos1]; omega) hp hq h
  have h1 : Alike p1 q1 := by
    refine foldlM_back _ Alike _ ?_ _ _ _ _ hp2 hq2 h2
    intro i hi p q p' q' hp hq h
    rw [List.mem_range'_1] at hi
    simp only [dN, dPos1] at hi
    exact recAt_back (by simp only [dN]; omega) (by simp only [dN, dPos1]; omega) (by simp only [dPos1]; omega) hp hq h
  have h0 := recAt_back (by decide) (by decide) (by decide) hp1 hq1 h1
  funext k
  by_cases hk : k.val < dN
  · exact h0.2 k hk
  · have e : k = ⟨(dN : Int).toNat, by decide⟩ := Fin.ext (by
      have := k.isLt
      show k.val = dN
      omega)
    rw [e]
    exact h0.1

/-! ## Drawing -/

theorem word64_ok (m : Mem) {k : Int} (h : 0 ≤ k ∧ k < (dN64 : Nat)) (hm : Good m) : ∃ w, word64 m k = .ok w ∧ Norm w := by
  have h' : 0 ≤ k / 2 ∧ k / 2 < (dN + 1 : Nat) := by simp only [dN64] at h; omega
  unfold word64
  rw [rd_ok m h', bind_ok]
  refine ⟨_, rfl, ?_⟩
  have g := hm ⟨(k / 2).toNat, by omega⟩ (by show (k / 2).toNat < dN; simp only [dN64] at h; omega)
  split
  · exact g.1
  · exact g.2

/-- The states between two draws. -/
def Ready (s : St) : Prop := Good s.status ∧ 1 ≤ s.idx ∧ s.idx ≤ (dN64 : Nat)

theorem close1open2_ok {s : St} (h : Ready s) : ∃ w s', close1open2 s = .ok (w, s') ∧ Norm w ∧ Ready s' := by
  obtain ⟨hg, h1, h2⟩ := h
  unfold close1open2
  by_cases hi : s.idx ≥ (dN64 : Nat)
  · obtain ⟨m, hm, gm⟩ := genAll_good s.status hg
    obtain ⟨w, hw, nw⟩ := word64_ok m (k := 0) (by decide) gm
    refine ⟨w, ⟨m, 1⟩, ?_, nw, gm, le_refl _, show (1 : Int) ≤ (dN64 : Nat) by decide⟩
    rw [if_pos hi, hm]
    simp only [bind_ok]
    rw [show (pure (⟨m, 0⟩ : St) : Except Fault St) = .ok ⟨m, 0⟩ from rfl]
    simp only [bind_ok]
    rw [hw]
    rfl
  · obtain ⟨w, hw, nw⟩ := word64_ok s.status (k := s.idx) (by omega) hg
    refine ⟨w, { s with idx := s.idx + 1 }, ?_, nw, hg, ?_, ?_⟩
    · rw [if_neg hi]
      simp only [bind_ok]
      rw [hw]
      rfl
    · show 1 ≤ s.idx + 1
      omega
    · show s.idx + 1 ≤ (dN64 : Nat)
      omega

theorem eqdist_ok {s : St} (h : Ready s) : ∃ (m : Nat) (s' : St), m < 2 ^ 52 ∧
    eqdist s = .ok (some ((m : ℚ) / 2 ^ 52), s') ∧ Ready s' := by
  obtain ⟨w, s', hs, nw, hr⟩ := close1open2_ok h
  refine ⟨w.toNat % 2 ^ 52, s', Nat.mod_lt _ (by decide), ?_, hr⟩
  unfold eqdist
  rw [hs, bind_ok]
  simp only [decode_norm nw, Option.map_some]
  rw [show (1 + ((w.toNat % 2 ^ 52 : Nat) : ℚ) / 2 ^ 52 - 1) = ((w.toNat % 2 ^ 52 : Nat) : ℚ) / 2 ^ 52 by ring]
  rfl

theorem discard_ok : ∀ (n : Nat) {s : St}, Ready s → ∃ s', discard n s = .ok s' ∧ Ready s'
  | 0, s, h => ⟨s, rfl, h⟩
  | n + 1, s, h => by
    obtain ⟨_, s₁, _, h₁, r₁⟩ := eqdist_ok h
    obtain ⟨s', h', r'⟩ := discard_ok n r₁
    refine ⟨s', ?_, r'⟩
    show (do let (_, s) ← eqdist s; discard n s) = _
    rw [h₁]
    exact h'

/-! ## The states come back -/

/-- The state after a draw does not depend on more than the state, and determines the state before. -/
theorem eqdist_inj {s t r : St} {x y : Option ℚ} (hs : Ready s) (ht : Ready t) (es : eqdist s = .ok (x, r))
    (et : eqdist t = .ok (y, r)) : s = t := by
  obtain ⟨ms, is⟩ := s
  obtain ⟨mt, it⟩ := t
  obtain ⟨hs0, hs1, hs2⟩ := hs
  obtain ⟨ht0, ht1, ht2⟩ := ht
  simp only at *
  have key : ∀ (m : Mem) (i : Int) (v : Option ℚ), Good m → 1 ≤ i → i ≤ (dN64 : Nat) → eqdist ⟨m, i⟩ = .ok (v, r) →
      (i < (dN64 : Nat) ∧ r = ⟨m, i + 1⟩) ∨ (i = (dN64 : Nat) ∧ ∃ m', genAll m = .ok m' ∧ r = ⟨m', 1⟩) := by
    intro m i v hg h1 h2 he
    unfold eqdist at he
    obtain ⟨⟨w, s'⟩, hc, he⟩ := ok_bind he
    have er : s' = r := (Prod.mk.inj (Except.ok.inj he)).2
    subst er
    unfold close1open2 at hc
    by_cases hi : i ≥ (dN64 : Nat)
    · right
      refine ⟨by omega, ?_⟩
      simp only [if_pos hi] at hc
      obtain ⟨m', hm, gm⟩ := genAll_good m hg
      rw [hm] at hc
      obtain ⟨u, hu, hc⟩ := ok_bind hc
      obtain rfl := Except.ok.inj hu
      obtain ⟨w', hw, hc⟩ := ok_bind hc
      exact ⟨m', hm, ((Prod.mk.inj (Except.ok.inj hc)).2).symm⟩
    · left
      refine ⟨by omega, ?_⟩
      simp only [if_neg hi, bind_ok] at hc
      obtain ⟨w', hw, hc⟩ := ok_bind hc
      exact ((Prod.mk.inj (Except.ok.inj hc)).2).symm
  rcases key ms is x hs0 hs1 hs2 es with ⟨hi, e⟩ | ⟨hi, m1, g1, e⟩ <;>
    rcases key mt it y ht0 ht1 ht2 et with ⟨hj, f⟩ | ⟨hj, m2, g2, f⟩
  · rw [e] at f
    obtain ⟨rfl, h⟩ := St.mk.inj f
    rw [show is = it by omega]
  · rw [e] at f
    have := (St.mk.inj f).2
    omega
  · rw [e] at f
    have := (St.mk.inj f).2
    omega
  · rw [e] at f
    have := (St.mk.inj f).1
    subst this
    rw [genAll_inj g1 g2, hi, hj]

theorem finite_word : Finite Word := Finite.of_injective (fun w : Word => w.toFin) (fun _ _ h => BitVec.toFin_inj.1 h)

theorem finite_w : Finite W := by
  have := finite_word
  exact Finite.of_injective (fun w : W => (w.u0, w.u1)) (by
    intro a b h
    obtain ⟨h0, h1⟩ := Prod.mk.inj h
    cases a; cases b
    simp only at h0 h1
    rw [h0, h1])

theorem finite_ready : Finite { s : St // Ready s } := by
  have := finite_w
  refine Finite.of_injective (fun s : { s : St // Ready s } => (s.1.status, (⟨s.1.idx.toNat, by
    have := s.2.2.2
    have h : s.1.idx.toNat ≤ dN64 := by omega
    omega⟩ : Fin (dN64 + 1)))) ?_
  intro a b h
  obtain ⟨h0, h1⟩ := Prod.mk.inj h
  have h2 := Fin.mk.inj h1
  obtain ⟨⟨m, i⟩, ha⟩ := a
  obtain ⟨⟨n, j⟩, hb⟩ := b
  have h3 := ha.2.1
  have h4 := hb.2.1
  simp only at h0 h2 h3 h4
  subst h0
  rw [Subtype.mk.injEq, St.mk.injEq]
  exact ⟨rfl, by omega⟩

/-- The draw as a function on states. -/
noncomputable def next (s : { s : St // Ready s }) : { s : St // Ready s } :=
  ⟨(eqdist_ok s.2).choose_spec.choose, (eqdist_ok s.2).choose_spec.choose_spec.2.2⟩

theorem next_spec (s : { s : St // Ready s }) : ∃ x, eqdist s.1 = .ok (x, (next s).1) :=
  ⟨_, (eqdist_ok s.2).choose_spec.choose_spec.2.1⟩

theorem next_inj : Function.Injective next := by
  intro a b h
  obtain ⟨x, hx⟩ := next_spec a
  obtain ⟨y, hy⟩ := next_spec b
  rw [h] at hx
  exact Subtype.ext (eqdist_inj a.2 b.2 hx hy)

theorem discard_next : ∀ (n : Nat) (s : { s : St // Ready s }), discard n s.1 = .ok ((next^[n]) s).1
  | 0, _ => rfl
  | n + 1, s => by
    obtain ⟨x, hx⟩ := next_spec s
    show (do let (_, s) ← eqdist s.1; discard n s) = _
    rw [hx, bind_ok]
    exact discard_next n (next s)

/-! ## Initialisation -/

theorem mod_in (k : Nat) : 0 ≤ ((k % iSize : Nat) : Int) ∧ ((k % iSize : Nat) : Int) < (iSize : Nat) := by
  have := Nat.mod_lt k (show 0 < iSize by decide)
  omega

theorem mix1_ok (add : BitVec 32) (p : Mem32 × Nat) (h : p.2 < iSize) : ∃ q, mix1 add p = .ok q ∧ q.2 < iSize := by
  obtain ⟨m, i⟩ := p
  have hi : 0 ≤ (i : Int) ∧ (i : Int) < (iSize : Nat) := by simp only at h; omega
  unfold mix1
  simp only [rd_ok _ hi, rd_ok _ (mod_in _), wr_ok _ hi, wr_ok _ (mod_in _), bind_ok]
  exact ⟨_, rfl, Nat.mod_lt _ (by decide)⟩

theorem mix2_ok (p : Mem32 × Nat) (h : p.2 < iSize) : ∃ q, mix2 p = .ok q ∧ q.2 < iSize := by
  obtain ⟨m, i⟩ := p
  have hi : 0 ≤ (i : Int) ∧ (i : Int) < (iSize : Nat) := by simp only at h; omega
  unfold mix2
  simp only [rd_ok _ hi, rd_ok _ (mod_in _), wr_ok _ hi, wr_ok _ (mod_in _), bind_ok]
  exact ⟨_, rfl, Nat.mod_lt _ (by decide)⟩

theorem mix0_ok (len : Nat) (m : Mem32) : ∃ m', mix0 len m = .ok m' := by
  have hi : 0 ≤ (0 : Int) ∧ (0 : Int) < (iSize : Nat) := by decide
  unfold mix0
  simp only [rd_ok _ hi, rd_ok _ (mod_in _), wr_ok _ hi, wr_ok _ (mod_in _), bind_ok]
  exact ⟨_, rfl⟩

theorem certify_ok (m : Mem) : ∃ m', certify m = .ok m' ∧ (∀ k : Fin (dN + 1), k.val < dN → m' k = m k) := by
  unfold certify
  rw [rd_ok m (i := (dN : Nat)) (by decide), bind_ok]
  simp only
  split
  · exact ⟨m, rfl, fun _ _ => rfl⟩
  · rw [wr_ok m (i := (dN : Nat)) (by decide)]
    refine ⟨_, rfl, fun k hk => ?_⟩
    rw [Function.update_of_ne]
    intro e
    rw [e] at hk
    exact absurd hk (lt_irrefl _)

theorem initialMask_good (m : Mem) : Good (initialMask m) := by
  intro k hk
  unfold initialMask
  rw [if_pos hk]
  exact ⟨norm_mask _, norm_mask _⟩

/-- What the seeding leaves behind. -/
theorem initByArray_ok (key : List (BitVec 32)) :
    ∃ m m', initByArray key = .ok ⟨m', (dN64 : Nat)⟩ ∧ certify (initialMask m) = .ok m' ∧ Ready ⟨m', (dN64 : Nat)⟩ := by
  unfold initByArray
  obtain ⟨m0, h0⟩ := mix0_ok key.length (fun _ => 0x8b8b8b8b#32)
  simp only [h0, bind_ok]
  obtain ⟨p1, h1, g1⟩ := foldlM_ok (fun p k => mix1 k p) (fun p => p.2 < iSize)
    (key.take ((if key.length + 1 > iSize then key.length + 1 else iSize) - 1)) (fun k _ p hp => mix1_ok k p hp) (m0, 1) (show 1 < iSize by decide)
  rw [h1]
  simp only [bind_ok]
  obtain ⟨p2, h2, g2⟩ := foldlM_ok (fun p (_ : Nat) => mix1 0 p) (fun p => p.2 < iSize)
    (List.range ((if key.length + 1 > iSize then key.length + 1 else iSize) - 1 - key.length)) (fun k _ p hp => mix1_ok 0 p hp) p1 g1
  rw [h2]
  simp only [bind_ok]
  obtain ⟨p3, h3, g3⟩ := foldlM_ok (fun p (_ : Nat) => mix2 p) (fun p => p.2 < iSize)
    (List.range iSize) (fun k _ p hp => mix2_ok p hp) p2 g2
  rw [h3]
  simp only [bind_ok]
  obtain ⟨m', hm, em⟩ := certify_ok (initialMask (assemble p3.1))
  rw [hm]
  refine ⟨assemble p3.1, m', rfl, hm, ?_, show (1 : Int) ≤ (dN64 : Nat) by decide, le_refl _⟩
  intro k hk
  show Norm (m' k).u0 ∧ Norm (m' k).u1
  rw [em k hk]
  exact initialMask_good _ k hk

theorem initRng_ok (rand : Fin arraySize → BitVec 32) : ∃ s, initRng rand = .ok s ∧ Ready s := by
  obtain ⟨m, m', h, _, r⟩ := initByArray_ok (List.ofFn rand)
  obtain ⟨s', h', r'⟩ := discard_ok 1000000 r
  refine ⟨s', ?_, r'⟩
  unfold initRng
  rw [h, bind_ok]
  exact h'

/-! ## Parity -/

/-- Sum modulo 2 of the first `n` of the bits `f`. -/
def par (f : Nat → Bool) : Nat → Bool
  | 0 => false
  | n + 1 => par f n ^^ f n

theorem par_add (f : Nat → Bool) (n : Nat) : ∀ m, par f (n + m) = (par f n ^^ par (fun i => f (i + n)) m)
  | 0 => by simp [par]
  | m + 1 => by
    show (par f (n + m) ^^ f (n + m)) = (par f n ^^ (par (fun i => f (i + n)) m ^^ f (m + n)))
    rw [par_add f n m, Bool.xor_assoc, Nat.add_comm m n]

theorem par_xor (f g : Nat → Bool) : ∀ n, par (fun i => f i ^^ g i) n = (par f n ^^ par g n)
  | 0 => rfl
  | n + 1 => by
    show (par (fun i => f i ^^ g i) n ^^ (f n ^^ g n)) = ((par f n ^^ f n) ^^ (par g n ^^ g n))
    rw [par_xor f g n]
    generalize par f n = a, par g n = b, f n = c, g n = d
    revert a b c d
    decide

theorem par_fold (f : Nat → Bool) (n : Nat) : par f (n + n) = par (fun i => f i ^^ f (i + n)) n := by
  rw [par_add, par_xor]

theorem filter_parity (p : Nat → Bool) : ∀ n, decide (((List.range n).filter p).length % 2 = 1) = par p n
  | 0 => rfl
  | n + 1 => by
    show _ = (par p n ^^ p n)
    rw [← filter_parity p n, List.range_succ, List.filter_append, List.length_append]
    cases h : p n
    · simp [h]
    · simp only [h, List.filter_cons, List.filter_nil, if_true, List.length_cons, List.length_nil, Bool.xor_true]
      by_cases h' : ((List.range n).filter p).length % 2 = 1
      · have : ¬ (((List.range n).filter p).length + 1) % 2 = 1 := by omega
        simp [h', this]
      · have : (((List.range n).filter p).length + 1) % 2 = 1 := by omega
        simp [h', this]

theorem shift_bits (x : Word) (k : Nat) : (fun i => (x ^^^ (x >>> k)).getLsbD i) = fun i => x.getLsbD i ^^ x.getLsbD (i + k) := by
  funext i
  rw [BitVec.getLsbD_xor, BitVec.getLsbD_ushiftRight, Nat.add_comm]

theorem fold6_bit (x : Word) : (fold6 x).getLsbD 0 = par (fun i => x.getLsbD i) 64 := by
  have h : ∀ (y : Word) (k : Nat), par (fun i => y.getLsbD i) (k + k) = par (fun i => (y ^^^ (y >>> k)).getLsbD i) k := by
    intro y k
    rw [par_fold, shift_bits]
  rw [h x 32, h _ 16, h _ 8, h _ 4, h _ 2, h _ 1]
  unfold fold6
  simp only [BitVec.getLsbD_and, show (1 : Word).getLsbD 0 = true by decide, Bool.and_true, par, Bool.false_xor]

theorem fold6_one (x : Word) : fold6 x = 1 ↔ par (fun i => x.getLsbD i) 64 = true := by
  rw [← fold6_bit]
  constructor
  · intro h; rw [h]; decide
  · intro h
    have hx : ∃ y, fold6 x = y &&& 1 := ⟨_, rfl⟩
    obtain ⟨y, hy⟩ := hx
    rw [hy] at h ⊢
    apply BitVec.eq_of_getLsbD_eq
    intro i hi
    rw [BitVec.getLsbD_and] at h ⊢
    by_cases h0 : i = 0
    · subst h0
      rw [h]
      decide
    · have : (1 : Word).getLsbD i = false := by
        rw [show (1 : Word) = 1#64 from rfl, BitVec.getLsbD_one]
        simp [h0]
      rw [this, Bool.and_false]

theorem bitCount_odd (a b : Word) :
    (Spec.bitCount a + Spec.bitCount b) % 2 = 1 ↔ par (fun i => (a ^^^ b).getLsbD i) 64 = true := by
  have e : (fun i => (a ^^^ b).getLsbD i) = fun i => a.getLsbD i ^^ b.getLsbD i := by
    funext i
    rw [BitVec.getLsbD_xor]
  rw [e, par_xor, ← filter_parity, ← filter_parity]
  change _ ↔ (decide (Spec.bitCount a % 2 = 1) ^^ decide (Spec.bitCount b % 2 = 1)) = true
  generalize Spec.bitCount a = x, Spec.bitCount b = y
  by_cases ha : x % 2 = 1 <;> by_cases hb : y % 2 = 1 <;> simp [ha, hb] <;> omega

theorem flip_bit (u : Word) : (u ^^^ 1 ^^^ fix2) &&& pcv2 = ((u ^^^ fix2) &&& pcv2) ^^^ 1 := by
  apply BitVec.eq_of_getLsbD_eq
  intro i hi
  simp only [BitVec.getLsbD_and, BitVec.getLsbD_xor]
  by_cases h : i = 0
  · subst h
    rw [show (1 : Word).getLsbD 0 = true by decide, show pcv2.getLsbD 0 = true by decide]
    generalize u.getLsbD 0 = a, fix2.getLsbD 0 = b
    revert a b
    decide
  · have h1 : (1 : Word).getLsbD i = false := by
      rw [show (1 : Word) = 1#64 from rfl, BitVec.getLsbD_one]
      simp [h]
    have h2 : pcv2.getLsbD i = false := h1
    rw [h1, h2]
    simp

theorem certify_parity {m m' : Mem} (hc : certify m = .ok m') :
    par (fun i => ((((m' ⟨dN, by decide⟩).u0 ^^^ fix1) &&& pcv1) ^^^ (((m' ⟨dN, by decide⟩).u1 ^^^ fix2) &&& pcv2)).getLsbD i)
      64 = true := by
  unfold certify at hc
  rw [rd_ok _ (i := (dN : Nat)) (by decide), bind_ok] at hc
  have e : (⟨(dN : Int).toNat, by decide⟩ : Fin (dN + 1)) = ⟨dN, by decide⟩ := rfl
  rw [e] at hc
  simp only at hc
  split at hc
  · next h1 =>
    obtain rfl := Except.ok.inj hc
    exact (fold6_one _).1 h1
  · next h1 =>
    rw [wr_ok _ (i := (dN : Nat)) (by decide)] at hc
    obtain rfl := Except.ok.inj hc
    rw [e, Function.update_self]
    rw [fold6_one] at h1
    generalize m ⟨dN, _⟩ = w at h1 ⊢
    simp only
    rw [flip_bit, ← BitVec.xor_assoc]
    have hf : (fun i => ((((w.u0 ^^^ fix1) &&& pcv1) ^^^ ((w.u1 ^^^ fix2) &&& pcv2)) ^^^ 1).getLsbD i)
        = fun i => ((((w.u0 ^^^ fix1) &&& pcv1) ^^^ ((w.u1 ^^^ fix2) &&& pcv2)).getLsbD i ^^ (1 : Word).getLsbD i) := by
      funext i
      rw [BitVec.getLsbD_xor]
    rw [hf, par_xor, show par (fun i => (1 : Word).getLsbD i) 64 = true by decide +kernel]
    simp only [Bool.not_eq_true] at h1
    rw [h1]
    rfl

/-! ## SSE2 -/

theorem rot_append (a b : BitVec 32) : rot (a ++ b) = (b ++ a : BitVec (32 + 32)) := by
  unfold rot
  apply BitVec.eq_of_getLsbD_eq
  intro i hi
  rw [BitVec.getLsbD_xor, BitVec.getLsbD_ushiftRight, BitVec.getLsbD_shiftLeft, BitVec.getLsbD_append, BitVec.getLsbD_append,
    BitVec.getLsbD_append]
  by_cases h : i < 32
  · have h2 : ¬ 32 + i < 32 := by omega
    have h3 : 32 + i - 32 = i := by omega
    simp [h, h2, h3]
  · have h1 : i - 32 < 32 := by omega
    have h2 : ¬ 32 + i < 32 := by omega
    have h3 : 32 + i - 32 = i := by omega
    have h4 : i ≥ 32 := by omega
    simp only [h, h1, h2, h3, decide_false, if_true, if_false, BitVec.getLsbD_of_ge a i h4, Bool.false_xor, Bool.not_false,
      Bool.and_true, hi, decide_true, Bool.true_and]

theorem halves (w : Word) : ((w >>> 32).setWidth 32 ++ w.setWidth 32 : BitVec (32 + 32)) = w := by
  apply BitVec.eq_of_getLsbD_eq
  intro i hi
  rw [BitVec.getLsbD_append]
  by_cases h : i < 32
  · simp [h]
  · have h1 : i - 32 < 32 := by omega
    have h2 : 32 + (i - 32) = i := by omega
    simp [h, h1, h2]

theorem words_lanes (w : W) : w.lanes.words = w := by
  obtain ⟨a, b⟩ := w
  simp only [W.lanes, Lanes.words]
  rw [halves, halves]

theorem words_lxor (r s : Lanes) : (lxor r s).words = ⟨r.words.u0 ^^^ s.words.u0, r.words.u1 ^^^ s.words.u1⟩ := by
  rw [W.mk.injEq]
  exact ⟨(BitVec.xor_append (w := 32) (v := 32)).symm, (BitVec.xor_append (w := 32) (v := 32)).symm⟩

theorem words_land (r s : Lanes) : (land r s).words = ⟨r.words.u0 &&& s.words.u0, r.words.u1 &&& s.words.u1⟩ := by
  rw [W.mk.injEq]
  exact ⟨(BitVec.and_append (w := 32) (v := 32)).symm, (BitVec.and_append (w := 32) (v := 32)).symm⟩

theorem words_shuffle (r : Lanes) : (shuffle r sseShuff).words = ⟨rot r.words.u1, rot r.words.u0⟩ := by
  simp only [Lanes.words, rot_append]
  rfl

theorem xor3 (p q r : Word) : p ^^^ q ^^^ r = p ^^^ r ^^^ q := by
  rw [BitVec.xor_assoc, BitVec.xor_comm q, ← BitVec.xor_assoc]

theorem xor4 (p q r s : Word) : (q ^^^ r) ^^^ (p ^^^ s) = p ^^^ q ^^^ r ^^^ s := by
  rw [← BitVec.xor_assoc, BitVec.xor_comm _ p, ← BitVec.xor_assoc]

theorem words_mask : sseMask.words = ⟨msk1, msk2⟩ := by decide +kernel

/-! ## Without seeding -/

theorem zero_recAt {a b : Int} (ha : 0 ≤ a ∧ a < (dN + 1 : Nat)) (hb : 0 ≤ b ∧ b < (dN + 1 : Nat)) (p : Mem × W)
    (hp : p = (zeroSt.status, ⟨0, 0⟩)) : ∃ q, recAt a b p = .ok q ∧ q = (zeroSt.status, ⟨0, 0⟩) := by
  refine ⟨_, recAt_ok ha hb p, ?_⟩
  subst hp
  have : recursion ⟨0, 0⟩ ⟨0, 0⟩ ⟨0, 0⟩ = (⟨0, 0⟩, ⟨0, 0⟩) := by decide +kernel
  simp only [zeroSt, this]
  rw [Function.update_eq_self_iff.2 rfl]

theorem zero_genAll : genAll zeroSt.status = .ok zeroSt.status := by
  unfold genAll
  rw [rd_ok zeroSt.status (i := (dN : Nat)) (by decide)]
  obtain ⟨p, hp, gp⟩ := zero_recAt (a := 0) (b := (dPos1 : Nat)) (by decide) (by decide) (zeroSt.status, ⟨0, 0⟩) rfl
  obtain ⟨q, hq, gq⟩ := foldlM_ok (fun p (i : Nat) => recAt i (i + dPos1) p) (fun p => p = (zeroSt.status, ⟨0, 0⟩))
    (List.range' 1 (dN - dPos1 - 1))
    (by
      intro i hi p hp
      rw [List.mem_range'_1] at hi
      exact zero_recAt (by simp only [dN, dPos1] at *; omega) (by simp only [dN, dPos1] at *; omega) p hp) p gp
  obtain ⟨r, hr, gr⟩ := foldlM_ok (fun p (i : Nat) => recAt i ((i : Int) + dPos1 - dN) p) (fun p => p = (zeroSt.status, ⟨0, 0⟩))
    (List.range' (dN - dPos1) dPos1)
    (by
      intro i hi p hp
      rw [List.mem_range'_1] at hi
      exact zero_recAt (by simp only [dN, dPos1] at *; omega) (by simp only [dN, dPos1] at *; omega) p hp) q gq
  rw [bind_ok]
  erw [hp]
  rw [bind_ok, hq, bind_ok, hr, bind_ok, wr_ok r.1 (i := (dN : Nat)) (by decide) r.2, gr]
  simp only [zeroSt]
  rw [Function.update_eq_self_iff.2 rfl]

theorem zero_eqdist {i : Int} (h0 : 0 ≤ i) : ∃ j : Int, 0 ≤ j ∧ eqdist ⟨zeroSt.status, i⟩ = .ok (some (-1), ⟨zeroSt.status, j⟩) := by
  have hd : (decode 0).map (· - 1) = some (-1) := by decide +kernel
  have hw : ∀ k : Int, 0 ≤ k → k < (dN64 : Nat) → word64 zeroSt.status k = .ok 0 := by
    intro k hk hk'
    unfold word64
    rw [rd_ok _ (by simp only [dN64] at hk'; omega), bind_ok]
    simp only [zeroSt, ite_self]
    rfl
  unfold eqdist close1open2
  by_cases hi : i ≥ (dN64 : Nat)
  · refine ⟨1, by decide, ?_⟩
    simp only [if_pos hi, zero_genAll, bind_ok]
    rw [show (pure (⟨zeroSt.status, 0⟩ : St) : Except Fault St) = .ok ⟨zeroSt.status, 0⟩ from rfl]
    simp only [bind_ok]
    rw [hw 0 (by decide) (by decide), bind_ok]
    rw [← hd]
    rfl
  · refine ⟨i + 1, by omega, ?_⟩
    simp only [if_neg hi, bind_ok]
    rw [hw i h0 (by omega), bind_ok]
    rw [← hd]
    rfl

/-! ## Choice of an index -/

theorem pred_exists {n : Nat} (h0 : 0 < n) (hn : n < 2 ^ 31) : ∃ m e : Int, |m| ≤ 2 ^ 53 ∧ -1074 ≤ e ∧ e ≤ 900 ∧
    ((m : ℚ) * 2 ^ e < n) ∧ ((n : ℚ) * (1 - 1 / 2 ^ 52) ≤ m * 2 ^ e) := by
  obtain ⟨k, hk1, hk2⟩ : ∃ k, 2 ^ k ≤ n ∧ n < 2 ^ (k + 1) := ⟨Nat.log 2 n, Nat.pow_log_le_self 2 (by omega),
    Nat.lt_pow_succ_log_self (by omega) n⟩
  have hk : k < 31 := (Nat.pow_lt_pow_iff_right (by omega : 1 < 2)).1 (lt_of_le_of_lt hk1 hn)
  have hp : (2 : ℚ) ^ (52 - k) * 2 ^ ((k : Int) - 52) = 1 := by
    rw [← zpow_natCast, ← zpow_add₀ (by norm_num)]
    have : (((52 - k : Nat) : Int) + ((k : Int) - 52)) = 0 := by omega
    rw [this, zpow_zero]
  have hpos : (0 : ℚ) < 2 ^ ((k : Int) - 52) := zpow_pos (by norm_num) _
  have hval : (((n : Int) * 2 ^ (52 - k) - 1 : Int) : ℚ) * 2 ^ ((k : Int) - 52) = n - 2 ^ ((k : Int) - 52) := by
    push_cast
    rw [sub_mul, mul_assoc, hp]
    ring
  refine ⟨(n : Int) * 2 ^ (52 - k) - 1, (k : Int) - 52, ?_, by omega, by omega, ?_, ?_⟩
  · have h1 : (n : Int) * 2 ^ (52 - k) ≤ 2 ^ (k + 1) * 2 ^ (52 - k) := by
      apply mul_le_mul_of_nonneg_right _ (by positivity)
      exact_mod_cast hk2.le
    rw [← pow_add, show k + 1 + (52 - k) = 53 by omega] at h1
    have h2 : (1 : Int) ≤ (n : Int) * 2 ^ (52 - k) := by
      have : 0 < n * 2 ^ (52 - k) := by positivity
      exact_mod_cast this
    rw [abs_of_nonneg (by omega)]
    omega
  · rw [hval]
    linarith
  · rw [hval]
    have hs : (2 : ℚ) ^ ((k : Int) - 52) = 2 ^ k / 2 ^ 52 := by
      rw [zpow_sub₀ (by norm_num)]
      norm_cast
    have : (2 : ℚ) ^ k ≤ n := by exact_mod_cast hk1
    have : (2 : ℚ) ^ k / 2 ^ 52 ≤ n / 2 ^ 52 := by
      apply div_le_div_of_nonneg_right this (by positivity)
    rw [hs]
    linarith [this, show (n : ℚ) * (1 - 1 / 2 ^ 52) = n - n / 2 ^ 52 by ring]

theorem index_ok {x : ℚ} (hx : Spec.UnitGrid x) {rd : ℚ → ℚ} (hr : Spec.Rounding rd) {n : Nat} (h0 : 0 < n) (hn : n < 2 ^ 31) :
    0 ≤ rd (x * n) ∧ rd (x * n) < n := by
  obtain ⟨m, hm, rfl⟩ := hx
  constructor
  · have := hr.exact 0 0 (by norm_num) (by norm_num) (by norm_num)
    simp only [Int.cast_zero, zero_mul] at this
    rw [← this]
    exact hr.mono (by positivity)
  · obtain ⟨a, e, h1, h2, h3, h4, h5⟩ := pred_exists h0 hn
    refine lt_of_le_of_lt ?_ h4
    rw [← hr.exact a e h1 h2 h3]
    apply hr.mono
    refine le_trans ?_ h5
    have hm' : (m : ℚ) ≤ 2 ^ 52 - 1 := by
      have : m ≤ 2 ^ 52 - 1 := by omega
      have h : ((m : Nat) : ℚ) ≤ ((2 ^ 52 - 1 : Nat) : ℚ) := by exact_mod_cast this
      norm_num at h ⊢
      exact h
    have : (m : ℚ) / 2 ^ 52 ≤ 1 - 1 / 2 ^ 52 := by
      rw [div_le_iff₀ (by positivity)]
      norm_num at hm' ⊢
      exact hm'
    rw [mul_comm]
    exact mul_le_mul_of_nonneg_left this (by positivity)

end Verif.Dsfmt
