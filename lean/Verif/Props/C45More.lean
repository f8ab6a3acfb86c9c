/-
C45  Rescaling: the factor, the linear term and the slopes of the pair functions.
-/
import Verif.Props.C45

set_option linter.unusedSectionVars false

namespace Verif.Props

open Verif.Force Verif.Rescale Verif.PairIndex

variable {K : Type*} [Field K] [LinearOrder K] [IsStrictOrderedRing K]

/-- State of the search for the extreme densities after the types below `n`. -/
theorem extreme_spec (big : K) (g : Range K) (n : Nat) (hg : ∀ t < n, |g.max t| < big ∧ |g.min t| < big) :
    let e := extreme big n g
    (∀ t < n, g.max t ≤ e.max ∧ e.min ≤ g.min t) ∧
    (0 < n → e.maxcol < n ∧ e.max = g.max e.maxcol ∧ e.mincol < n ∧ e.min = g.min e.mincol) ∧
    (n = 0 → e.max = -big ∧ e.min = big) := by
  induction n with
  | zero => exact ⟨fun t ht => by omega, fun h => by omega, fun _ => ⟨rfl, rfl⟩⟩
  | succ n ih =>
    obtain ⟨i1, i2, i3⟩ := ih fun t ht => hg t (by omega)
    intro e
    have he : e = (let d := extreme big n g
        let d := if g.max n > d.max then { d with max := g.max n, maxcol := n } else d
        if g.min n < d.min then { d with min := g.min n, mincol := n } else d) := by
      show extreme big (n + 1) g = _
      unfold extreme
      rw [List.range_succ, List.foldl_append]
      rfl
    have hb := hg n (by omega)
    have hm1 : -big < g.max n := (abs_lt.1 hb.1).1
    have hm2 : g.min n < big := (abs_lt.1 hb.2).2
    have hmax : e.max = max (extreme big n g).max (g.max n) ∧ e.maxcol = if g.max n > (extreme big n g).max then n else (extreme big n g).maxcol := by
      rw [he]
      by_cases h1 : g.max n > (extreme big n g).max
      · rw [max_eq_right h1.le, if_pos h1]
        simp only [if_pos h1]
        split <;> exact ⟨rfl, rfl⟩
      · rw [max_eq_left (not_lt.1 h1), if_neg h1]
        simp only [if_neg h1]
        split <;> exact ⟨rfl, rfl⟩
    have hmin : e.min = min (extreme big n g).min (g.min n) ∧ e.mincol = if g.min n < (extreme big n g).min then n else (extreme big n g).mincol := by
      rw [he]
      by_cases h1 : g.max n > (extreme big n g).max
      · simp only [if_pos h1]
        by_cases h2 : g.min n < (extreme big n g).min
        · rw [min_eq_right h2.le, if_pos h2, if_pos h2]; exact ⟨rfl, rfl⟩
        · rw [min_eq_left (not_lt.1 h2), if_neg h2, if_neg h2]; exact ⟨rfl, rfl⟩
      · simp only [if_neg h1]
        by_cases h2 : g.min n < (extreme big n g).min
        · rw [min_eq_right h2.le, if_pos h2, if_pos h2]; exact ⟨rfl, rfl⟩
        · rw [min_eq_left (not_lt.1 h2), if_neg h2, if_neg h2]; exact ⟨rfl, rfl⟩
    refine ⟨fun t ht => ?_, fun _ => ?_, fun h => by omega⟩
    · rw [hmax.1, hmin.1]
      rcases Nat.lt_succ_iff_lt_or_eq.1 ht with h | rfl
      · exact ⟨(i1 t h).1.trans (le_max_left _ _), (min_le_left _ _).trans (i1 t h).2⟩
      · exact ⟨le_max_right _ _, min_le_right _ _⟩
    · rw [hmax.1, hmax.2, hmin.1, hmin.2]
      have a1 : (if g.max n > (extreme big n g).max then n else (extreme big n g).maxcol) < n + 1 ∧
          max (extreme big n g).max (g.max n) = g.max (if g.max n > (extreme big n g).max then n else (extreme big n g).maxcol) := by
        by_cases h1 : g.max n > (extreme big n g).max
        · rw [if_pos h1]; exact ⟨by omega, max_eq_right h1.le⟩
        · rw [if_neg h1, max_eq_left (not_lt.1 h1)]
          rcases Nat.eq_zero_or_pos n with h0 | h0
          · exact absurd (by rw [(i3 h0).1]; exact hm1) h1
          · exact ⟨(i2 h0).1.trans (by omega), (i2 h0).2.1⟩
      have a2 : (if g.min n < (extreme big n g).min then n else (extreme big n g).mincol) < n + 1 ∧
          min (extreme big n g).min (g.min n) = g.min (if g.min n < (extreme big n g).min then n else (extreme big n g).mincol) := by
        by_cases h1 : g.min n < (extreme big n g).min
        · rw [if_pos h1]; exact ⟨by omega, min_eq_right h1.le⟩
        · rw [if_neg h1, min_eq_left (not_lt.1 h1)]
          rcases Nat.eq_zero_or_pos n with h0 | h0
          · exact absurd (by rw [(i3 h0).2]; exact hm2) h1
          · exact ⟨(i2 h0).2.2.1.trans (by omega), (i2 h0).2.2.2⟩
      exact ⟨a1.1, a1.2, a2.1, a2.2⟩

/-- **C45, the factor.** If the largest density is at least as far from zero as the smallest one, the end of the new range of its type is the
wanted number `upper`; otherwise that of the type with the smallest density, with the negative side turned to the positive. -/
theorem C45_factor (P : Pot K) (hn : 0 < P.ntypes) (big upper : K) (flag : Bool) (g : Range K)
    (hg : ∀ t < P.ntypes, |g.max t| < big ∧ |g.min t| < big) (ch : Choice K) (h : choose P big upper flag g = .ok ch) :
    ∃ p < P.ntypes, ∃ q < P.ntypes, (∀ t < P.ntypes, g.max t ≤ g.max p ∧ g.min q ≤ g.min t) ∧
      (ch.pos = true ↔ -g.min q ≤ g.max p) ∧
      (ch.pos = true → ch.a * (g.max p + 3 / 10 * (P.emb p).step) = upper) ∧
      (ch.pos = false → ch.a * (g.min q - 3 / 10 * (P.emb q).step) = upper) := by
  obtain ⟨e1, e2, -⟩ := extreme_spec big g P.ntypes hg
  obtain ⟨c1, c2, c3, c4⟩ := e2 hn
  refine ⟨_, c1, _, c3, fun t ht => ?_, ?_⟩
  · rw [← c2, ← c4]
    exact e1 t ht
  · unfold choose at h
    simp only [bind, Except.bind, pure, Except.pure, cdiv] at h
    rw [← c2, ← c4]
    by_cases hp : (extreme big P.ntypes g).max ≥ -(extreme big P.ntypes g).min
    · rw [if_pos (decide_eq_true hp)] at h
      split_ifs at h with h0
      simp only [Except.ok.injEq] at h
      rw [← h]
      refine ⟨⟨fun _ => hp, fun _ => decide_eq_true hp⟩, fun _ => ?_, fun hf => absurd (of_decide_eq_false hf) (not_not.2 hp)⟩
      simp only
      rw [c2] at *
      exact div_mul_cancel₀ _ h0
    · rw [if_neg (fun hh => hp (of_decide_eq_true hh))] at h
      split_ifs at h with h0
      simp only [Except.ok.injEq] at h
      rw [← h]
      refine ⟨⟨fun hf => absurd (of_decide_eq_true hf) hp, fun hh => absurd hh hp⟩, fun hf => absurd (of_decide_eq_true hf) hp, fun _ => ?_⟩
      simp only
      rw [c4] at *
      exact div_mul_cancel₀ _ h0

/-- **C45, the linear term.** The multiple of the density taken from an embedding function is its slope in the middle of the new range, before it is
taken away. -/
theorem C45_centre (I : Interp K) (P : Pot K) (c : Choice K) (P' : Pot K) (lam : Nat → K) (h : change I P c = .ok (P', lam)) (t : Nat)
    (ht : t < P.ntypes) : ∃ E : Tab K, E.n = (P'.emb t).n ∧ E.beg = (P'.emb t).beg ∧ E.fin = (P'.emb t).fin ∧
      (∀ j, E.x j = (P'.emb t).x j ∧ E.y j = (P'.emb t).y j + lam t * E.x j) ∧
      lam t = I.grad E (((P'.emb t).beg + (P'.emb t).fin) / 2) := by
  unfold change at h
  cases he : eachType P.ntypes (fun i => do
      let T ← resample I (P.emb i) (c.left i) (c.right i)
      scaleEmb c.pos c.a (c.left i) (c.right i) T) P.emb with
  | error e =>
    rw [he] at h
    simp [bind, Except.bind] at h
  | ok emb =>
    rw [he] at h
    simp only [bind, Except.bind, pure, Except.pure, Except.ok.injEq, Prod.mk.injEq] at h
    obtain ⟨h1, h2⟩ := h
    have hl : lam t = I.grad (emb t) (1 / 2 * ((emb t).beg + (emb t).fin)) := by
      rw [← h2]
      exact if_pos ht
    have hE : P'.emb t = gaugeEmb (lam t) (emb t) := by
      rw [← h1, ← h2]
      simp only [if_pos ht]
    refine ⟨emb t, by rw [hE]; rfl, by rw [hE]; rfl, by rw [hE]; rfl, fun j => ?_, ?_⟩
    · rw [hE]
      refine ⟨rfl, ?_⟩
      simp only [gaugeEmb]
      ring
    · rw [hE, hl]
      show _ = I.grad (emb t) (((emb t).beg + (emb t).fin) / 2)
      congr 1
      ring

/-- **C45, slopes of the pair functions**: those at the ends of the tables follow the values (`C45_tables`). -/
theorem C45_pair_slopes (I : Interp K) (P : Pot K) (c : Choice K) (P' : Pot K) (lam : Nat → K) (h : change I P c = .ok (P', lam)) (s t : Nat)
    (hst : s ≤ t) (ht : t < P.ntypes) :
    let T := P.pair (pairCol P.ntypes s t)
    let T' := P'.pair (pairCol P.ntypes s t)
    let D := fun x => lam s * (if x < (P'.rho t).fin then I.grad (P'.rho t) x else 0) + lam t * (if x < (P'.rho s).fin then I.grad (P'.rho s) x else 0)
    (T.gl < 10 ^ 29 → T'.gl = T.gl + D T.beg) ∧ (T.gr < 10 ^ 29 → T'.gr = T.gr + D T.fin) ∧
    (10 ^ 29 ≤ T.gl → T'.gl = T.gl) ∧ (10 ^ 29 ≤ T.gr → T'.gr = T.gr) := by
  intro T T' D
  obtain ⟨-, -, -, -, -, h4⟩ := change_spec I P c P' lam h
  have hT : T' = gaugePair I lam P'.rho s t T := h4 _ s t (typesOf_pairCol _ s t hst ht)
  have hD : ∀ x, pairTerm I.grad lam P'.rho s t x = D x := by
    intro x
    simp only [pairTerm, D]
    split_ifs <;> simp
  rw [hT]
  refine ⟨fun hl => ?_, fun hl => ?_, fun hl => ?_, fun hl => ?_⟩
  · simp only [gaugePair, if_pos hl, hD]
  · simp only [gaugePair, if_pos hl, hD]
  · simp only [gaugePair, if_neg (not_lt.2 hl)]
  · simp only [gaugePair, if_neg (not_lt.2 hl)]

/-- The choice of the example of C45 and its potential meet the hypotheses. -/
example : 0 < exGauge.ntypes ∧ (∀ t < exGauge.ntypes, |(ranges codeSpline exGauge (10 ^ 100) [exPair 1]).max t| < 10 ^ 100 ∧
      |(ranges codeSpline exGauge (10 ^ 100) [exPair 1]).min t| < 10 ^ 100) ∧
    change codeSpline exGauge exChoice = .ok (exNew.1, exNew.2) ∧ exNew.2 0 ≠ 0 ∧ (exGauge.pair (pairCol 1 0 0)).gr < 10 ^ 29 := by
  refine ⟨by decide +kernel, by decide +kernel, exNew_ok, by decide +kernel, by decide +kernel⟩

end Verif.Props
