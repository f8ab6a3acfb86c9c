/-
Loops of `Model/Ranges.lean` in closed form.
-/
import Verif.Model.Ranges
import Verif.Lemmas.PairIndex
import Mathlib.Tactic.Linarith
import Mathlib.Tactic.Positivity
import Mathlib.Tactic.NormNum
import Mathlib.Tactic.FieldSimp

set_option linter.unusedSectionVars false

namespace Verif.Ranges

open Verif.Splines Verif.PairIndex

variable {K : Type*} [Field K] [LinearOrder K] [IsStrictOrderedRing K]

/-- Column of a stored neighbour. -/
abbrev Stored.col (nt : Nat) (s : Stored K) : Nat := pairCol nt s.typ1 s.typ2

theorem mindist_append (nt : Nat) (l : List (Stored K)) (s : Stored K) :
    mindist nt (l ++ [s]) = Function.update (mindist nt l) (s.col nt) (lower (mindist nt l (s.col nt)) s.r) := by
  simp [mindist, List.foldl_append]

theorem mindist_none (nt : Nat) (l : List (Stored K)) (c : Nat) :
    mindist nt l c = none ↔ ∀ s ∈ l, s.col nt ≠ c := by
  induction l using List.reverseRecOn with
  | nil => simp [mindist]
  | append_singleton l x ih =>
    rw [mindist_append]
    by_cases hc : c = x.col nt
    · subst hc
      rw [Function.update_self]
      constructor
      · intro h
        cases hm : mindist nt l (x.col nt) <;> simp [lower, hm] at h
      · intro h
        exact absurd rfl (h x (by simp))
    · rw [Function.update_of_ne hc, ih]
      constructor
      · intro h s hs
        rcases List.mem_append.1 hs with hs | hs
        · exact h s hs
        · rw [List.mem_singleton] at hs; subst hs; exact fun e => hc e.symm
      · intro h s hs
        exact h s (List.mem_append_left _ hs)

theorem mindist_some (nt : Nat) (l : List (Stored K)) (c : Nat) (d : K) (h : mindist nt l c = some d) :
    (∃ s ∈ l, s.col nt = c ∧ s.r = d) ∧ ∀ s ∈ l, s.col nt = c → d ≤ s.r := by
  induction l using List.reverseRecOn generalizing d with
  | nil => simp [mindist] at h
  | append_singleton l x ih =>
    rw [mindist_append] at h
    by_cases hc : c = x.col nt
    · subst hc
      rw [Function.update_self] at h
      cases hm : mindist nt l (x.col nt) with
      | none =>
        simp only [hm, lower, Option.some.injEq] at h
        have hn := (mindist_none nt l (x.col nt)).1 hm
        refine ⟨⟨x, by simp, rfl, h⟩, ?_⟩
        intro s hs hsc
        rcases List.mem_append.1 hs with hs | hs
        · exact absurd hsc (hn s hs)
        · rw [List.mem_singleton] at hs; subst hs; exact h.symm.le
      | some m =>
        simp only [hm, lower, Option.some.injEq] at h
        obtain ⟨⟨s0, h0, h0c, h0r⟩, hmin⟩ := ih m hm
        by_cases hlt : m < x.r
        · rw [if_pos hlt] at h
          subst h
          refine ⟨⟨s0, List.mem_append_left _ h0, h0c, h0r⟩, ?_⟩
          intro s hs hsc
          rcases List.mem_append.1 hs with hs | hs
          · exact hmin s hs hsc
          · rw [List.mem_singleton] at hs; subst hs; exact hlt.le
        · rw [if_neg hlt] at h
          subst h
          refine ⟨⟨x, by simp, rfl, rfl⟩, ?_⟩
          intro s hs hsc
          rcases List.mem_append.1 hs with hs | hs
          · exact (not_lt.1 hlt).trans (hmin s hs hsc)
          · rw [List.mem_singleton] at hs; subst hs; exact le_rfl
    · rw [Function.update_of_ne hc] at h
      obtain ⟨⟨s0, h0, h0c, h0r⟩, hmin⟩ := ih d h
      refine ⟨⟨s0, List.mem_append_left _ h0, h0c, h0r⟩, ?_⟩
      intro s hs hsc
      rcases List.mem_append.1 hs with hs | hs
      · exact hmin s hs hsc
      · rw [List.mem_singleton] at hs; subst hs; exact absurd hsc.symm hc

theorem mem_typePairs {nt : Nat} {p : Nat × Nat} : p ∈ typePairs nt ↔ p.1 < nt ∧ p.2 < nt := by
  obtain ⟨i, j⟩ := p
  simp [typePairs]

/-- What is known after the pairs `L` have been treated. -/
structure Treated (nt : Nat) (md : Nat → Option K) (b : Bounds K) (L : List (Nat × Nat)) (s : Bounds K × Option K) :
    Prop where
  pair : ∀ p ∈ L, ∃ d, md (pairCol nt p.1 p.2) = some d ∧ s.1.beg (pairCol nt p.1 p.2) = d * (95 / 100) ∧
    s.1.rmin (p.1 * nt + p.2) = d ∧ ∃ m, s.2 = some m ∧ m ≤ d
  attained : ∀ m, s.2 = some m → ∃ p ∈ L, md (pairCol nt p.1 p.2) = some m
  rest : ∀ c, (∀ p ∈ L, pairCol nt p.1 p.2 ≠ c) → s.1.beg c = b.beg c
  fin : s.1.fin = b.fin

theorem lower_spec (m : Option K) (d : K) : ∃ e, lower m d = some e ∧ e ≤ d ∧ (∀ a, m = some a → e ≤ a) ∧
    (e = d ∨ m = some e) := by
  cases m with
  | none => exact ⟨d, rfl, le_rfl, by simp, Or.inl rfl⟩
  | some a =>
    by_cases h : a < d
    · exact ⟨a, by simp [lower, h], h.le, by simp, Or.inr rfl⟩
    · exact ⟨d, by simp [lower, h], le_rfl, by simpa using h, Or.inl rfl⟩

theorem key_inj {nt i j k l : Nat} (hj : j < nt) (hl : l < nt) (h : i * nt + j = k * nt + l) : i = k ∧ j = l := by
  have h0 : 0 < nt := by omega
  have e1 : (i * nt + j) / nt = i := by
    rw [Nat.add_comm, Nat.add_mul_div_right _ _ h0, Nat.div_eq_of_lt hj, Nat.zero_add]
  have e2 : (k * nt + l) / nt = k := by
    rw [Nat.add_comm, Nat.add_mul_div_right _ _ h0, Nat.div_eq_of_lt hl, Nat.zero_add]
  have : i = k := by rw [← e1, ← e2, h]
  subst this
  exact ⟨rfl, by omega⟩

theorem pairs_spec (nt : Nat) (md : Nat → Option K) (b : Bounds K) (L : List (Nat × Nat)) (hL : ∀ p ∈ L, p.2 < nt) :
    (L.foldlM (pairTurn nt md) (b, none) = none ↔ ∃ p ∈ L, md (pairCol nt p.1 p.2) = none) ∧
    ∀ s, L.foldlM (pairTurn nt md) (b, none) = some s → Treated nt md b L s := by
  induction L using List.reverseRecOn with
  | nil =>
    refine ⟨by simp [List.foldlM], ?_⟩
    intro s hs
    simp only [List.foldlM_nil, pure, Option.some.injEq] at hs
    subst hs
    exact ⟨by simp, by simp, fun _ _ => rfl, rfl⟩
  | append_singleton L x ih =>
    have hL' : ∀ p ∈ L, p.2 < nt := fun p hp => hL p (List.mem_append_left _ hp)
    have hx : x.2 < nt := hL x (by simp)
    obtain ⟨ih1, ih2⟩ := ih hL'
    rw [List.foldlM_append]
    cases hf : L.foldlM (pairTurn nt md) (b, none) with
    | none =>
      obtain ⟨p, hp, hpn⟩ := ih1.1 hf
      refine ⟨?_, by intro s hs; simp at hs⟩
      simp only [Option.bind_eq_bind, Option.bind_none, true_iff]
      exact ⟨p, List.mem_append_left _ hp, hpn⟩
    | some s =>
      have ht := ih2 s hf
      have hno : ¬ ∃ p ∈ L, md (pairCol nt p.1 p.2) = none := by
        intro hc
        have := ih1.2 hc
        rw [hf] at this
        simp at this
      simp only [Option.bind_eq_bind, Option.bind_some, List.foldlM_cons, List.foldlM_nil]
      cases hd : md (pairCol nt x.1 x.2) with
      | none =>
        refine ⟨?_, ?_⟩
        · simp only [pairTurn, hd, Option.bind_none, true_iff]
          exact ⟨x, by simp, hd⟩
        · intro t h; simp [pairTurn, hd] at h
      | some d =>
        refine ⟨?_, ?_⟩
        · simp only [pairTurn, hd, Option.bind_some, pure]
          constructor
          · intro h; cases h
          · rintro ⟨p, hp, hpn⟩
            rcases List.mem_append.1 hp with hp | hp
            · exact absurd ⟨p, hp, hpn⟩ hno
            · rw [List.mem_singleton] at hp; subst hp; rw [hd] at hpn; cases hpn
        · intro t h
          simp only [pairTurn, hd, Option.bind_some, pure, Option.some.injEq] at h
          subst h
          obtain ⟨e, he, hed, hle, hor⟩ := lower_spec s.2 d
          refine ⟨?_, ?_, ?_, ht.fin⟩
          · intro p hp
            rcases List.mem_append.1 hp with hp | hp
            · obtain ⟨dp, h1, h2, h3, m, h4, h5⟩ := ht.pair p hp
              refine ⟨dp, h1, ?_, ?_, e, he, (hle m h4).trans h5⟩
              · by_cases hk : pairCol nt p.1 p.2 = pairCol nt x.1 x.2
                · simp only [hk, Function.update_self]
                  rw [hk, hd] at h1
                  simp only [Option.some.injEq] at h1
                  rw [h1]
                · simp only [Function.update_of_ne hk]
                  exact h2
              · by_cases hk : p.1 * nt + p.2 = x.1 * nt + x.2
                · simp only [hk, Function.update_self]
                  obtain ⟨e1, e2⟩ := key_inj (hL' p hp) hx hk
                  rw [e1, e2, hd] at h1
                  simpa using h1
                · simp only [Function.update_of_ne hk]
                  exact h3
            · rw [List.mem_singleton] at hp
              subst hp
              exact ⟨d, hd, by simp, by simp, e, he, hed⟩
          · intro m hm
            simp only [he, Option.some.injEq] at hm
            subst hm
            rcases hor with h | h
            · exact ⟨x, by simp, by rw [hd, h]⟩
            · obtain ⟨p, hp, hpm⟩ := ht.attained _ h
              exact ⟨p, List.mem_append_left _ hp, hpm⟩
          · intro c hc
            have hne : c ≠ pairCol nt x.1 x.2 := fun hcx => hc x (by simp) hcx.symm
            simp only [Function.update_of_ne hne]
            exact ht.rest c fun p hp => hc p (List.mem_append_left _ hp)

theorem setBegin_spec (start cnt : Nat) (v : K) (b : Bounds K) :
    (∀ c, (setBegin start cnt v b).beg c = if start ≤ c ∧ c < start + cnt then v else b.beg c) ∧
    (setBegin start cnt v b).fin = b.fin ∧ (setBegin start cnt v b).rmin = b.rmin := by
  induction cnt with
  | zero =>
    refine ⟨fun c => ?_, rfl, rfl⟩
    rw [if_neg (by omega)]; rfl
  | succ n ih =>
    obtain ⟨h1, h2, h3⟩ := ih
    have hs : setBegin start (n + 1) v b =
        { setBegin start n v b with beg := Function.update (setBegin start n v b).beg (start + n) v } := by
      simp [setBegin, List.range_succ, List.foldl_append]
    rw [hs]
    refine ⟨fun c => ?_, h2, h3⟩
    by_cases hc : c = start + n
    · subst hc
      simp
    · simp only [Function.update_of_ne hc, h1]
      by_cases hin : start ≤ c ∧ c < start + n
      · rw [if_pos hin, if_pos (by omega)]
      · rw [if_neg hin, if_neg (by omega)]

theorem setBeginAdp_spec (nt : Nat) (v : K) (b : Bounds K) :
    (∀ c, (setBeginAdp nt v b).beg c =
      if pc nt + 2 * nt ≤ c ∧ c < 3 * pc nt + 2 * nt then v else b.beg c) ∧
    (setBeginAdp nt v b).fin = b.fin ∧ (setBeginAdp nt v b).rmin = b.rmin := by
  have key : ∀ n, n ≤ pc nt → ∀ t, t = (List.range n).foldl (fun (b : Bounds K) i =>
      let b := { b with beg := Function.update b.beg (pc nt + 2 * nt + i) v }
      { b with beg := Function.update b.beg (2 * pc nt + 2 * nt + i) v }) b →
      (∀ c, t.beg c = if (pc nt + 2 * nt ≤ c ∧ c < pc nt + 2 * nt + n) ∨
        (2 * pc nt + 2 * nt ≤ c ∧ c < 2 * pc nt + 2 * nt + n) then v else b.beg c) ∧ t.fin = b.fin ∧ t.rmin = b.rmin := by
    intro n
    induction n with
    | zero =>
      intro _ t ht
      subst ht
      refine ⟨fun c => ?_, rfl, rfl⟩
      rw [if_neg (by omega)]
    | succ n ih =>
      intro hn t ht
      obtain ⟨h1, h2, h3⟩ := ih (by omega) _ rfl
      rw [List.range_succ, List.foldl_append] at ht
      subst ht
      refine ⟨fun c => ?_, h2, h3⟩
      simp only [List.foldl_cons, List.foldl_nil]
      by_cases hc : c = 2 * pc nt + 2 * nt + n
      · subst hc
        rw [Function.update_self, if_pos (by omega)]
      · rw [Function.update_of_ne hc]
        by_cases hc2 : c = pc nt + 2 * nt + n
        · subst hc2
          rw [Function.update_self, if_pos (by omega)]
        · rw [Function.update_of_ne hc2, h1]
          by_cases hin : (pc nt + 2 * nt ≤ c ∧ c < pc nt + 2 * nt + n) ∨
            (2 * pc nt + 2 * nt ≤ c ∧ c < 2 * pc nt + 2 * nt + n)
          · rw [if_pos hin, if_pos (by omega)]
          · rw [if_neg hin, if_neg (by omega)]
  obtain ⟨h1, h2, h3⟩ := key (pc nt) le_rfl _ rfl
  refine ⟨fun c => ?_, h2, h3⟩
  rw [setBeginAdp, h1]
  by_cases hin : pc nt + 2 * nt ≤ c ∧ c < 3 * pc nt + 2 * nt
  · rw [if_pos hin, if_pos (by omega)]
  · rw [if_neg hin, if_neg (by omega)]

theorem setAngular_spec (start cnt : Nat) (lo hi : K) (b : Bounds K) :
    (∀ c, (setAngular start cnt lo hi b).beg c = if start ≤ c ∧ c < start + cnt then lo else b.beg c) ∧
    (∀ c, (setAngular start cnt lo hi b).fin c = if start ≤ c ∧ c < start + cnt then hi else b.fin c) ∧
    (setAngular start cnt lo hi b).rmin = b.rmin := by
  induction cnt with
  | zero =>
    refine ⟨fun c => ?_, fun c => ?_, rfl⟩ <;> (rw [if_neg (by omega)]; rfl)
  | succ n ih =>
    obtain ⟨h1, h2, h3⟩ := ih
    have hs : setAngular start (n + 1) lo hi b =
        { setAngular start n lo hi b with
          beg := Function.update (setAngular start n lo hi b).beg (start + n) lo
          fin := Function.update (setAngular start n lo hi b).fin (start + n) hi } := by
      simp [setAngular, List.range_succ, List.foldl_append]
    rw [hs]
    refine ⟨fun c => ?_, fun c => ?_, h3⟩
    · by_cases hc : c = start + n
      · subst hc; simp
      · simp only [Function.update_of_ne hc, h1]
        by_cases hin : start ≤ c ∧ c < start + n
        · rw [if_pos hin, if_pos (by omega)]
        · rw [if_neg hin, if_neg (by omega)]
    · by_cases hc : c = start + n
      · subst hc; simp
      · simp only [Function.update_of_ne hc, h2]
        by_cases hin : start ≤ c ∧ c < start + n
        · rw [if_pos hin, if_pos (by omega)]
        · rw [if_neg hin, if_neg (by omega)]

theorem layout_eq (i : Nat) : layout i + 2 = i * steps + (i + 1) * 2 := by
  induction i with
  | zero => rfl
  | succ i ih => simp only [layout, steps] at ih ⊢; omega

theorem column_eqDist (b : Bounds K) (d2 : Nat → K) (i : Nat) (h : b.beg i < b.fin i) : (column b d2 i).EqDist where
  knots := by simp [column, steps]
  range := h
  step_eq := by
    simp only [column, steps]
    push_cast
    congr 1
    ring
  invstep_eq := rfl

end Verif.Ranges
