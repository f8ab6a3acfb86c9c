import Verif.Model.Gather
import Verif.Lemmas.ForceEam

set_option linter.unusedSectionVars false

namespace Verif.Force

open Verif.Spec

variable {K : Type*} [Field K] [LinearOrder K]

/-- An evaluator of one configuration that writes its own cells only, and values that depend on
nothing but the configuration. -/
structure Local {σ τ ε : Type*} (get : τ → Cell → K) (good : Nat → σ → Prop)
    (own : Nat → σ → Cell → Prop) (one : Nat → σ → τ → τ × ε) (val : Nat → σ → Cell → K)
    (err : Nat → σ → ε) : Prop where
  own_eq : ∀ ci c s x, good ci c → own ci c x → get (one ci c s).1 x = val ci c x
  other : ∀ ci c s x, good ci c → ¬ own ci c x → get (one ci c s).1 x = get s x
  err_eq : ∀ ci c s, good ci c → (one ci c s).2 = err ci c

section
variable {σ τ ε : Type*} [AddMonoid ε] {get : τ → Cell → K} {good : Nat → σ → Prop}
  {own : Nat → σ → Cell → Prop} {one : Nat → σ → τ → τ × ε} {val : Nat → σ → Cell → K}
  {err : Nat → σ → ε}

theorem confLoop_err (h : Local get good own one val err) (cs : List σ) (ci : Nat) (s : τ × ε)
    (hg : ∀ k c, cs[k]? = some c → good (ci + k) c) :
    (confLoop one cs ci s).2 = s.2 + ((cs.zipIdx ci).map fun ck => err ck.2 ck.1).sum := by
  induction cs generalizing ci s with
  | nil => simp [confLoop]
  | cons c cs ih =>
    simp only [confLoop]
    rw [ih (ci + 1) _ (fun k c' hk => by
      have := hg (k + 1) c' (by simpa using hk)
      rwa [show ci + (k + 1) = ci + 1 + k by omega] at this)]
    rw [h.err_eq ci c s.1 (hg 0 c (by simp))]
    simp [List.zipIdx_cons, add_assoc]

theorem confLoop_other (h : Local get good own one val err) (cs : List σ) (ci : Nat) (s : τ × ε)
    (hg : ∀ k c, cs[k]? = some c → good (ci + k) c) (x : Cell)
    (hx : ∀ k c, cs[k]? = some c → ¬ own (ci + k) c x) :
    get (confLoop one cs ci s).1 x = get s.1 x := by
  induction cs generalizing ci s with
  | nil => rfl
  | cons c cs ih =>
    simp only [confLoop]
    rw [ih (ci + 1)]
    · exact h.other ci c s.1 x (hg 0 c (by simp)) (hx 0 c (by simp))
    · intro k c' hk
      have := hg (k + 1) c' (by simpa using hk)
      rwa [show ci + (k + 1) = ci + 1 + k by omega] at this
    · intro k c' hk
      have := hx (k + 1) c' (by simpa using hk)
      rwa [show ci + (k + 1) = ci + 1 + k by omega] at this

theorem confLoop_own (h : Local get good own one val err) (cs : List σ) (ci : Nat) (s : τ × ε)
    (hg : ∀ k c, cs[k]? = some c → good (ci + k) c) (x : Cell) (k : Nat) (c : σ)
    (hk : cs[k]? = some c) (hown : own (ci + k) c x)
    (hx : ∀ j c', cs[j]? = some c' → k < j → ¬ own (ci + j) c' x) :
    get (confLoop one cs ci s).1 x = val (ci + k) c x := by
  induction cs generalizing ci s k with
  | nil => simp at hk
  | cons c0 cs ih =>
    simp only [confLoop]
    have hg' : ∀ k c, cs[k]? = some c → good (ci + 1 + k) c := by
      intro k c' hk
      have := hg (k + 1) c' (by simpa using hk)
      rwa [show ci + (k + 1) = ci + 1 + k by omega] at this
    cases k with
    | zero =>
      simp only [List.getElem?_cons_zero, Option.some.injEq] at hk
      subst hk
      rw [confLoop_other h cs (ci + 1) _ hg' x]
      · exact h.own_eq ci c0 s.1 x (hg 0 c0 (by simp)) hown
      · intro j c' hj
        have := hx (j + 1) c' (by simpa using hj) (by omega)
        rwa [show ci + (j + 1) = ci + 1 + j by omega] at this
    | succ k =>
      rw [List.getElem?_cons_succ] at hk
      rw [show ci + (k + 1) = ci + 1 + k by omega] at hown ⊢
      refine ih (ci + 1) _ hg' k hk hown ?_
      intro j c' hj hlt
      have := hx (j + 1) c' (by simpa using hj) (by omega)
      rwa [show ci + (j + 1) = ci + 1 + j by omega] at this

end

/-- Cells of configuration number `ci`: forces of its atoms, its energy and stresses, with `eam` its
limiting constraint, densities and embedding slopes. -/
def ownCell (b : Build) (eam : Bool) (ci : Nat) (c : Conf K) : Cell → Prop
  | .force a _ => c.start ≤ a ∧ a < c.start + c.atoms.length
  | .energy j => j = ci
  | .stress j _ => b.stress = true ∧ j = ci
  | .limit j => b.rescale = true ∧ eam = true ∧ j = ci
  | .rho a => eam = true ∧ c.start ≤ a ∧ a < c.start + c.atoms.length
  | .gradF a => eam = true ∧ c.start ≤ a ∧ a < c.start + c.atoms.length

variable [IsStrictOrderedRing K]

theorem pairConf_local (b : Build) (P : Pots K) (ew sw : K) :
    Local FV.get (fun _ c => HalfList c) (ownCell b false) (pairConf b P ew sw)
      (fun ci c => (pairConf b P ew sw ci c ⟨0, 0, 0, 0⟩).1.get)
      (fun ci c => (pairConf b P ew sw ci c ⟨0, 0, 0, 0⟩).2) := by
  have hforce : ∀ ci c (s : FV K) a, HalfList c → c.start ≤ a → a < c.start + c.atoms.length →
      (pairConf b P ew sw ci c s).1.force a =
      (pairConf b P ew sw ci c ⟨0, 0, 0, 0⟩).1.force a := by
    intro ci c s a hh h1 h2
    obtain ⟨-, p2, -⟩ := pairConf_spec b P ew sw ci c hh s
    obtain ⟨-, q2, -⟩ := pairConf_spec b P ew sw ci c hh ⟨0, 0, 0, 0⟩
    have hk : c.atoms[a - c.start]? = some (c.atoms[a - c.start]'(by omega)) :=
      List.getElem?_eq_getElem (by omega)
    have e1 := p2 _ _ hk
    have e2 := q2 _ _ hk
    rw [show c.start + (a - c.start) = a by omega] at e1 e2
    rw [e1, e2]
  constructor
  · intro ci c s x hh hx
    obtain ⟨-, -, p3, p4, -⟩ := pairConf_spec b P ew sw ci c hh s
    obtain ⟨-, -, q3, q4, -⟩ := pairConf_spec b P ew sw ci c hh ⟨0, 0, 0, 0⟩
    cases x with
    | force a k => simp only [FV.get]; rw [hforce ci c s a hh hx.1 hx.2]
    | energy j =>
      simp only [ownCell] at hx
      subst hx
      simp only [FV.get]
      rw [p3, q3, Function.update_self, Function.update_self]
    | stress j k =>
      obtain ⟨hb, rfl⟩ := hx
      simp only [FV.get]
      rw [p4, q4]
      simp [hb]
    | limit j => simp [ownCell] at hx
    | rho a => rfl
    | gradF a => rfl
  · intro ci c s x hh hx
    obtain ⟨p1, -, p3, p4, p5, -⟩ := pairConf_spec b P ew sw ci c hh s
    cases x with
    | force a k =>
      simp only [ownCell, not_and_or, not_le, not_lt] at hx
      simp only [FV.get]
      rw [p1 a hx]
    | energy j =>
      simp only [ownCell] at hx
      simp only [FV.get]
      rw [p3, Function.update_of_ne hx]
    | stress j k =>
      simp only [ownCell, not_and] at hx
      simp only [FV.get]
      rw [p4]
      split
      · rename_i hb
        rw [Function.update_of_ne (hx hb)]
      · rfl
    | limit j => simp only [FV.get]; rw [p5]
    | rho a => rfl
    | gradF a => rfl
  · intro ci c s hh
    obtain ⟨-, -, -, -, -, p6⟩ := pairConf_spec b P ew sw ci c hh s
    obtain ⟨-, -, -, -, -, q6⟩ := pairConf_spec b P ew sw ci c hh ⟨0, 0, 0, 0⟩
    rw [p6, q6]
    congr 3
    apply List.map_congr_left
    intro ak hak
    have hlt := List.snd_lt_of_mem_zipIdx hak
    rw [hforce ci c s _ hh (by omega) (by omega)]

theorem totalForce_congr {p q : Entry K → K} {c : Conf K} (h : ∀ e ∈ entries c, p e = q e) (a : Nat) :
    totalForce p c a = totalForce q c a := by
  unfold totalForce
  congr 1
  apply List.map_congr_left
  intro e he
  unfold forceOn
  rw [h e he]

theorem totalStress_congr {p q : Entry K → K} {c : Conf K} (h : ∀ e ∈ entries c, p e = q e) :
    totalStress p c = totalStress q c := by
  unfold totalStress
  congr 1
  apply List.map_congr_left
  intro e he
  funext k
  unfold entryStress
  rw [h e he]

theorem IsGradF.unique {b : Build} {P : EamPots K} {c : Conf K} {g g' : Nat → K}
    (h : IsGradF b P c g) (h' : IsGradF b P c g') (a : Nat) (h1 : c.start ≤ a)
    (h2 : a < c.start + c.atoms.length) : g a = g' a := by
  have hk : c.atoms[a - c.start]? = some (c.atoms[a - c.start]'(by omega)) :=
    List.getElem?_eq_getElem (by omega)
  have e1 := h _ _ hk
  have e2 := h' _ _ hk
  rw [show c.start + (a - c.start) = a by omega] at e1 e2
  rw [e1, e2]

theorem fullSlope_congr {b : Build} {P : EamPots K} {c : Conf K} (hh : HalfList c) {g g' : Nat → K}
    (h : IsGradF b P c g) (h' : IsGradF b P c g') :
    ∀ e ∈ entries c, fullSlope P g e = fullSlope P g' e := by
  intro e he
  have h1 := hh e he
  have h2 := entriesFrom_ge he
  unfold fullSlope eamSlope
  rw [h.unique h' e.own (by omega) (by omega), h.unique h' e.n.nr (by omega) (by omega)]

theorem eamConf_local (b : Build) (P : EamPots K) (ew sw : K) :
    Local EamState.get (fun _ c => HalfList c ∧ EamColumns P c) (ownCell b true) (eamConf b P ew sw)
      (fun ci c => (eamConf b P ew sw ci c ⟨⟨0, 0, 0, 0⟩, 0, 0⟩).1.get)
      (fun ci c => (eamConf b P ew sw ci c ⟨⟨0, 0, 0, 0⟩, 0, 0⟩).2) := by
  have hforce : ∀ ci c (s : EamState K) a, HalfList c → EamColumns P c → c.start ≤ a →
      a < c.start + c.atoms.length →
      (eamConf b P ew sw ci c s).1.fv.force a =
      (eamConf b P ew sw ci c ⟨⟨0, 0, 0, 0⟩, 0, 0⟩).1.fv.force a := by
    intro ci c s a hh hc h1 h2
    obtain ⟨p0, -, -, p2, -⟩ := eamConf_spec b P ew sw ci c hh hc s
    obtain ⟨q0, -, -, q2, -⟩ := eamConf_spec b P ew sw ci c hh hc ⟨⟨0, 0, 0, 0⟩, 0, 0⟩
    have hk : c.atoms[a - c.start]? = some (c.atoms[a - c.start]'(by omega)) :=
      List.getElem?_eq_getElem (by omega)
    have e1 := p2 _ _ hk
    have e2 := q2 _ _ hk
    rw [show c.start + (a - c.start) = a by omega] at e1 e2
    rw [e1, e2, totalForce_congr (fullSlope_congr hh p0 q0)]
  constructor
  · rintro ci c s x ⟨hh, hc⟩ hx
    obtain ⟨p0, p1, -, -, p3, p4, p5, -⟩ := eamConf_spec b P ew sw ci c hh hc s
    obtain ⟨q0, q1, -, -, q3, q4, q5, -⟩ := eamConf_spec b P ew sw ci c hh hc ⟨⟨0, 0, 0, 0⟩, 0, 0⟩
    cases x with
    | force a k => simp only [EamState.get, FV.get]; rw [hforce ci c s a hh hc hx.1 hx.2]
    | energy j =>
      simp only [ownCell] at hx
      subst hx
      simp only [EamState.get, FV.get]
      rw [p3, q3, Function.update_self, Function.update_self]
    | stress j k =>
      obtain ⟨hb, rfl⟩ := hx
      simp only [EamState.get, FV.get]
      rw [p4, q4, totalStress_congr (fullSlope_congr hh p0 q0)]
      simp [hb]
    | limit j =>
      obtain ⟨hb, -, rfl⟩ := hx
      simp only [EamState.get, FV.get]
      rw [p5, q5]
      simp [hb]
    | rho a =>
      obtain ⟨-, h1, h2⟩ := hx
      have hk : c.atoms[a - c.start]? = some (c.atoms[a - c.start]'(by omega)) :=
        List.getElem?_eq_getElem (by omega)
      have e1 := p1 _ _ hk
      have e2 := q1 _ _ hk
      rw [show c.start + (a - c.start) = a by omega] at e1 e2
      simp only [EamState.get]
      rw [e1, e2]
    | gradF a =>
      obtain ⟨-, h1, h2⟩ := hx
      exact p0.unique q0 a h1 h2
  · rintro ci c s x ⟨hh, hc⟩ hx
    obtain ⟨-, -, p1, -, p3, p4, p5, -⟩ := eamConf_spec b P ew sw ci c hh hc s
    cases x with
    | force a k =>
      simp only [ownCell, not_and_or, not_le, not_lt] at hx
      simp only [EamState.get, FV.get]
      rw [(p1 a hx).1]
    | energy j =>
      simp only [ownCell] at hx
      simp only [EamState.get, FV.get]
      rw [p3, Function.update_of_ne hx]
    | stress j k =>
      simp only [ownCell, not_and] at hx
      simp only [EamState.get, FV.get]
      rw [p4]
      split
      · rename_i hb
        rw [Function.update_of_ne (hx hb)]
      · rfl
    | limit j =>
      simp only [ownCell, not_and] at hx
      simp only [EamState.get, FV.get]
      rw [p5]
      split
      · rename_i hb
        rw [Function.update_of_ne (by simpa using hx hb)]
      · rfl
    | rho a =>
      simp only [ownCell, true_and, not_and_or, not_le, not_lt] at hx
      exact (p1 a hx).2.1
    | gradF a =>
      simp only [ownCell, true_and, not_and_or, not_le, not_lt] at hx
      exact (p1 a hx).2.2
  · rintro ci c s ⟨hh, hc⟩
    obtain ⟨p0, -, -, -, -, -, -, p6, p7⟩ := eamConf_spec b P ew sw ci c hh hc s
    obtain ⟨q0, -, -, -, -, -, -, q6, q7⟩ := eamConf_spec b P ew sw ci c hh hc ⟨⟨0, 0, 0, 0⟩, 0, 0⟩
    refine Prod.ext ?_ (p7.trans q7.symm)
    rw [p6, q6, totalStress_congr (fullSlope_congr hh p0 q0)]
    congr 4
    apply List.map_congr_left
    intro ak hak
    have hlt := List.snd_lt_of_mem_zipIdx hak
    rw [hforce ci c s _ hh hc (by omega) (by omega)]

end Verif.Force
