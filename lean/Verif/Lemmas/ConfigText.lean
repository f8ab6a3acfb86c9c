import Verif.Model.ConfigText
import Verif.Lemmas.ConfigFile
import Mathlib.Tactic.Linarith

set_option linter.unusedSectionVars false

namespace Verif.Lemmas.ConfigText

open Verif.ConfigFile Verif.ConfigText

/-! Words -/

theorem tokens_nil : tokens [] = [] := by decide

theorem tokens_space {c : Char} (h : isSpace c = true) (t : List Char) : tokens (c :: t) = tokens t := by
  unfold tokens
  rw [List.splitOnP_cons_eq_if_modifyHead, if_pos h]
  simp

theorem tokens_skip (t : List Char) : tokens (skip t) = tokens t := by
  induction t with
  | nil => rfl
  | cons c t ih =>
    by_cases h : isSpace c = true
    · rw [tokens_space h]
      simpa [skip, List.dropWhile_cons, h] using ih
    · simp [skip, List.dropWhile_cons, h]

/-- The text ends or goes on with blank space. -/
def Ends (r : List Char) : Prop := ∀ c, r.head? = some c → isSpace c = true

theorem splitOnP_word (w : List Char) (h : ∀ c ∈ w, isSpace c = false) (r : List Char) :
    (w ++ r).splitOnP isSpace = (r.splitOnP isSpace).modifyHead (w ++ ·) := by
  induction w with
  | nil =>
    obtain ⟨a, b, hab⟩ := List.exists_cons_of_ne_nil (List.splitOnP_ne_nil isSpace r)
    rw [List.nil_append, hab]
    simp
  | cons c w ih =>
    have hc := h c (by simp)
    rw [List.cons_append, List.splitOnP_cons_eq_if_modifyHead, if_neg (by simp [hc]),
      ih fun d hd => h d (List.mem_cons_of_mem _ hd)]
    cases r.splitOnP isSpace <;> simp

theorem tokens_word {w : List Char} (h : ∀ c ∈ w, isSpace c = false) (hw : w ≠ []) {r : List Char} (hr : Ends r) :
    tokens (w ++ r) = w :: tokens r := by
  unfold tokens
  rw [splitOnP_word w h]
  cases r with
  | nil => simp [List.splitOnP_nil, hw]
  | cons c r =>
    have hc := hr c rfl
    rw [List.splitOnP_cons_eq_if_modifyHead, if_pos hc]
    simp [hw]

theorem word_append {w : List Char} (h : ∀ c ∈ w, isSpace c = false) {r : List Char} (hr : Ends r) : word (w ++ r) = w := by
  induction w with
  | nil =>
    cases r with
    | nil => rfl
    | cons c r => simp [word, hr c rfl]
  | cons c w ih =>
    have := ih fun d hd => h d (List.mem_cons_of_mem _ hd)
    simp only [word] at this
    simp [word, h c (by simp), this]

theorem word_spec (t : List Char) :
    ∃ r, t = word t ++ r ∧ (∀ c ∈ word t, isSpace c = false) ∧ Ends r := by
  induction t with
  | nil => exact ⟨[], rfl, by simp [word], by intro c h; cases h⟩
  | cons c t ih =>
    by_cases h : isSpace c = true
    · refine ⟨c :: t, by simp [word, h], by simp [word, h], ?_⟩
      intro d hd
      cases hd
      exact h
    · obtain ⟨r, h1, h2, h3⟩ := ih
      have hw : word (c :: t) = c :: word t := by simp [word, h]
      refine ⟨r, ?_, ?_, h3⟩
      · rw [hw, List.cons_append, ← h1]
      · rw [hw]
        intro d hd
        rcases List.mem_cons.1 hd with rfl | hd
        · simpa using h
        · exact h2 d hd

theorem skip_head (t : List Char) (c : Char) (h : (skip t).head? = some c) : isSpace c = false := by
  induction t with
  | nil => cases h
  | cons d t ih =>
    by_cases hd : isSpace d = true
    · apply ih
      simpa [skip, List.dropWhile_cons, hd] using h
    · simp [skip, List.dropWhile_cons, hd] at h
      subst h
      simpa using hd

theorem skip_skip (t : List Char) : skip (skip t) = skip t := by
  cases h : skip t with
  | nil => rfl
  | cons c u =>
    have := skip_head t c (by rw [h]; rfl)
    simp [skip, List.dropWhile_cons, this]

theorem skip_all {l : List Char} (h : l.all isSpace = true) (t : List Char) : skip (l ++ t) = skip t := by
  induction l with
  | nil => rfl
  | cons c l ih =>
    simp only [List.all_cons, Bool.and_eq_true] at h
    have := ih h.2
    simpa [skip, List.dropWhile_cons, h.1] using this

theorem skip_append {l : List Char} (h : ¬ l.all isSpace = true) (t : List Char) : skip (l ++ t) = skip l ++ t := by
  induction l with
  | nil => simp at h
  | cons c l ih =>
    by_cases hc : isSpace c = true
    · have := ih (by simpa [hc] using h)
      simpa [skip, List.dropWhile_cons, hc] using this
    · simp [skip, List.dropWhile_cons, hc]

theorem skip_ne_nil {l : List Char} (h : ¬ l.all isSpace = true) : skip l ≠ [] := by
  induction l with
  | nil => simp at h
  | cons c l ih =>
    by_cases hc : isSpace c = true
    · have := ih (by simpa [hc] using h)
      simpa [skip, List.dropWhile_cons, hc] using this
    · simp [skip, List.dropWhile_cons, hc]

/-- The first word of a text and what follows it. -/
theorem tokens_cases (t : List Char) : (skip t = [] ∧ tokens t = []) ∨
    ∃ w r, w ≠ [] ∧ (∀ c ∈ w, isSpace c = false) ∧ Ends r ∧ skip t = w ++ r ∧ tokens t = w :: tokens r := by
  rw [← tokens_skip t]
  cases h : skip t with
  | nil => exact .inl ⟨rfl, tokens_nil⟩
  | cons c u =>
    right
    have hc : isSpace c = false := skip_head t c (by rw [h]; rfl)
    obtain ⟨r, h1, h2, h3⟩ := word_spec (c :: u)
    have hw : word (c :: u) ≠ [] := by simp [word, hc]
    refine ⟨word (c :: u), r, hw, h2, h3, h1, ?_⟩
    conv => lhs; rw [h1]
    exact tokens_word h2 hw h3

theorem tokens_eq_nil {t : List Char} : tokens t = [] ↔ t.all isSpace = true := by
  constructor
  · intro h
    by_contra hc
    rcases tokens_cases t with ⟨h1, -⟩ | ⟨w, r, -, -, -, -, h2⟩
    · exact skip_ne_nil hc h1
    · rw [h] at h2
      cases h2
  · intro h
    rcases tokens_cases t with ⟨-, h1⟩ | ⟨w, r, hw, -, -, h2, -⟩
    · exact h1
    · have := skip_all h []
      rw [List.append_nil, h2] at this
      simp [skip] at this
      exact absurd this.1 hw

theorem skip_eq_nil {t : List Char} (h : skip t = []) : t.all isSpace = true := by
  by_contra hc
  exact skip_ne_nil hc h

/-! Conversions -/

section
variable {A : Type} (f : List Char → Option (A × Nat))

theorem convertNext_word {t w r : List Char} (h : skip t = w ++ r) (hw : ∀ c ∈ w, isSpace c = false) (hr : Ends r) :
    convertNext f t = match f w with
      | none => none
      | some (x, n) => some (x, w.drop n ++ r) := by
  unfold convertNext
  rw [h, word_append hw hr]
  cases f w with
  | none => rfl
  | some p =>
    simp only [Option.some.injEq, Prod.mk.injEq, true_and]
    rw [List.drop_append_of_le_length (Nat.min_le_right _ _)]
    congr 1
    by_cases hn : p.2 ≤ w.length
    · rw [Nat.min_eq_left hn]
    · rw [Nat.min_eq_right (by omega), List.drop_length, List.drop_eq_nil_of_le (by omega)]

theorem convertNext_full {t w r : List Char} (h : skip t = w ++ r) (hw : ∀ c ∈ w, isSpace c = false) (hr : Ends r) {x : A}
    (hx : f w = some (x, w.length)) : convertNext f t = some (x, r) := by
  rw [convertNext_word f h hw hr, hx]
  simp

theorem convertNext_congr {t u : List Char} (h : tokens t = tokens u) :
    (convertNext f t).map (fun p => (p.1, tokens p.2)) = (convertNext f u).map fun p => (p.1, tokens p.2) := by
  have key : ∀ (w r : List Char), (∀ c ∈ w, isSpace c = false) → Ends r → ∀ n,
      tokens (w.drop n ++ r) = if w.drop n = [] then tokens r else w.drop n :: tokens r := by
    intro w r hw hr n
    by_cases hd : w.drop n = []
    · simp [hd]
    · rw [if_neg hd]
      exact tokens_word (fun c hc => hw c (List.mem_of_mem_drop hc)) hd hr
  rcases tokens_cases t with ⟨h1, h2⟩ | ⟨w, r, hw, hs, he, h1, h2⟩ <;>
    rcases tokens_cases u with ⟨k1, k2⟩ | ⟨w', r', hw', hs', he', k1, k2⟩
  · unfold convertNext
    rw [h1, k1]
  · rw [h2, k2] at h; cases h
  · rw [h2, k2] at h; cases h
  · rw [h2, k2] at h
    obtain ⟨rfl, hr⟩ := List.cons.inj h
    rw [convertNext_word f h1 hs he, convertNext_word f k1 hs' he']
    cases f w with
    | none => rfl
    | some p =>
      simp only [Option.map_some, Option.some.injEq, Prod.mk.injEq, true_and]
      rw [key w r hs he, key w r' hs' he', hr]

end

/-! Lines -/

theorem getLine_line (l : List Char) (h : ∀ c ∈ l, c ≠ '\n') (t : List Char) (n : Nat) (hn : l.length < n) :
    getLine n (l ++ '\n' :: t) = (l ++ ['\n'], t, false) := by
  induction l generalizing n with
  | nil =>
    cases n with
    | zero => simp at hn
    | succ n => simp [getLine]
  | cons c l ih =>
    cases n with
    | zero => simp at hn
    | succ n =>
      have := ih (fun d hd => h d (List.mem_cons_of_mem _ hd)) n (by simpa using hn)
      simp [getLine, h c (by simp), this]

theorem chop_line (l : List Char) (h : ∀ c ∈ l, c ≠ '\n') : chop (l ++ ['\n']) = l := by
  unfold chop
  rw [List.takeWhile_append_of_pos (by intro c hc; simpa using h c hc)]
  simp

/-- The text made of lines. -/
def textOf (ls : List (List Char)) : List Char := ls.flatMap fun l => l ++ ['\n']

theorem textOf_cons (l : List Char) (ls : List (List Char)) : textOf (l :: ls) = l ++ '\n' :: textOf ls := by
  simp [textOf]

end Verif.Lemmas.ConfigText
