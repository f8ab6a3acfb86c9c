/-
C107  Keywords of KIM potential files: section `global` and keyword `KIM_CUTOFF`; reading of the files which the program writes.
-/
import Verif.Model.KimKeywords
import Verif.Lemmas.ConfigText
import Mathlib.Data.List.Forall2
import Mathlib.Data.List.Nodup
import Mathlib.Tactic.Linarith
import Mathlib.Tactic.NormNum

set_option linter.unusedSectionVars false

namespace Verif.Props

open Verif.KimKeywords
open Verif.ConfigText (tokens isSpace)

variable {K : Type} [Field K] [LinearOrder K]

/-- The four words of a global parameter. -/
abbrev Quad := List Char × List Char × List Char × List Char

/-- They stand in this order. -/
def Quad.list (q : Quad) : List (List Char) := [q.1, q.2.1, q.2.2.1, q.2.2.2]

/-- The global parameter which the four words stand for: limits in order, fixed if they are equal; if parameters are fitted and the limits
are given in order, the value is moved to the nearest number between them. -/
structure IsGlobal (num : List Char → Option K) (opt : Bool) (q : Quad) (g : Global K) : Prop where
  name : g.name = q.1
  values : ∃ v lo hi, num q.2.1 = some v ∧ num q.2.2.1 = some lo ∧ num q.2.2.2 = some hi ∧ g.lo = min lo hi ∧ g.hi = max lo hi ∧
    (g.invar = true ↔ lo = hi) ∧ g.value = if opt = true ∧ lo < hi then max lo (min v hi) else v

/-- The keyword. -/
def sectionKey : List Char := ['g', 'l', 'o', 'b', 'a', 'l']

/-- The words of the section: all behind the first word which begins with `global`, which is followed by the number. -/
def InSection (int : List Char → Option ℤ) (ws : List (List Char)) (n : ℤ) (rest : List (List Char)) : Prop :=
  ∃ pre w c, ws = pre ++ w :: c :: rest ∧ (∀ x ∈ pre, ¬ sectionKey <+: x) ∧ sectionKey <+: w ∧ int c = some n

/-! ### Pieces -/

theorem begins_iff {s w : List Char} : begins s w = true ↔ s <+: w := by
  unfold begins
  exact List.isPrefixOf_iff_prefix

theorem search_iff (ws r : List (List Char)) :
    search ws = some r ↔ ∃ pre w, ws = pre ++ w :: r ∧ (∀ x ∈ pre, ¬ globalWord <+: x) ∧ globalWord <+: w := by
  induction ws with
  | nil => simp [search]
  | cons a ws ih =>
    unfold search
    by_cases h : begins globalWord a = true
    · rw [if_pos h]
      have h' := begins_iff.1 h
      constructor
      · rintro ⟨rfl⟩
        exact ⟨[], a, rfl, by simp, h'⟩
      · rintro ⟨pre, w, e, hp, -⟩
        cases pre with
        | nil => cases e; rfl
        | cons b pre => cases e; exact absurd h' (hp a (by simp))
    · rw [if_neg h, ih]
      have h' : ¬ globalWord <+: a := fun hh => h (begins_iff.2 hh)
      constructor
      · rintro ⟨pre, w, rfl, hp, hw⟩
        refine ⟨a :: pre, w, rfl, ?_, hw⟩
        intro x hx
        rcases List.mem_cons.1 hx with rfl | hx
        · exact h'
        · exact hp x hx
      · rintro ⟨pre, w, e, hp, hw⟩
        cases pre with
        | nil => cases e; exact absurd hw h'
        | cons b pre =>
          cases e
          exact ⟨pre, w, rfl, fun x hx => hp x (by simp [hx]), hw⟩

theorem search_none {ws : List (List Char)} : search ws = none ↔ ∀ w ∈ ws, ¬ globalWord <+: w := by
  induction ws with
  | nil => simp [search]
  | cons a ws ih =>
    unfold search
    by_cases h : begins globalWord a = true
    · rw [if_pos h]
      simp [begins_iff.1 h]
    · rw [if_neg h, ih]
      have h' : ¬ globalWord <+: a := fun hh => h (begins_iff.2 hh)
      simp [h']

theorem refused_iff (w : List Char) : refused w = true ↔ 65 < (w.headD '\x00').toNat := by
  unfold refused
  simp only [Bool.or_eq_true, Bool.and_eq_true, decide_eq_true_eq]
  omega

theorem adjust_spec (num : List Char → Option K) (opt : Bool) (q : Quad) {v lo hi : K} (h1 : num q.2.1 = some v) (h2 : num q.2.2.1 = some lo)
    (h3 : num q.2.2.2 = some hi) : IsGlobal num opt q (adjust opt q.1 v lo hi) := by
  unfold adjust
  split
  · next h =>
    subst h
    exact ⟨rfl, v, lo, lo, h1, h2, h3, by simp, by simp, by simp, by simp⟩
  · next h =>
    split
    · next h' =>
      exact ⟨rfl, v, lo, hi, h1, h2, h3, (min_eq_right h'.le).symm, (max_eq_left h'.le).symm, by simp [h], by simp [not_lt.2 h'.le]⟩
    · next h' =>
      have hlt : lo < hi := lt_of_le_of_ne (not_lt.1 h') h
      have e1 := (min_eq_left hlt.le).symm
      have e2 := (max_eq_right hlt.le).symm
      split
      · next hv =>
        cases opt with
        | true =>
          refine ⟨rfl, v, lo, hi, h1, h2, h3, e1, e2, by simp [h], ?_⟩
          simp only [if_true, hlt, and_self]
          by_cases hl : v < lo
          · rw [if_pos hl, if_neg (not_lt.2 hlt.le), min_eq_left (hl.trans hlt).le, max_eq_left hl.le]
          · rw [if_neg hl]
            have hh : hi < v := hv.resolve_left hl
            rw [if_pos hh, min_eq_right hh.le, max_eq_right hlt.le]
        | false => exact ⟨rfl, v, lo, hi, h1, h2, h3, e1, e2, by simp [h], by simp⟩
      · next hv =>
        push Not at hv
        refine ⟨rfl, v, lo, hi, h1, h2, h3, e1, e2, by simp [h], ?_⟩
        rw [min_eq_left hv.2, max_eq_right hv.1, ite_self]

theorem isGlobal_unique {num : List Char → Option K} {opt : Bool} {q : Quad} {g g' : Global K} (h : IsGlobal num opt q g)
    (h' : IsGlobal num opt q g') : g = g' := by
  obtain ⟨n, v, lo, hi, a1, a2, a3, a4, a5, a6, a7⟩ := h
  obtain ⟨n', v', lo', hi', b1, b2, b3, b4, b5, b6, b7⟩ := h'
  obtain rfl : v = v' := Option.some.inj (a1.symm.trans b1)
  obtain rfl : lo = lo' := Option.some.inj (a2.symm.trans b2)
  obtain rfl : hi = hi' := Option.some.inj (a3.symm.trans b3)
  have hi : g.invar = g'.invar := by
    rw [Bool.eq_iff_iff, a6, b6]
  cases g; cases g'
  simp only at *
  subst n n' a4 a5 a7 b4 b5 b7 hi
  rfl

theorem readAll_iff (num : List Char → Option K) (opt : Bool) (n : ℕ) (old gs : List (Global K)) (ws : List (List Char)) :
    readAll num opt n old ws = .ok gs ↔ ∃ (quads : List Quad) (new : List (Global K)) (tail : List (List Char)), quads.length = n ∧
      ws = (quads.map Quad.list).flatten ++ tail ∧ List.Forall₂ (IsGlobal num opt) quads new ∧ gs = old ++ new ∧
      (∀ g ∈ new, (g.name.headD '\x00').toNat ≤ 65) ∧ (new.map (·.name)).Nodup ∧ ∀ g ∈ new, ∀ o ∈ old, o.name ≠ g.name := by
  induction n generalizing old ws with
  | zero =>
    unfold readAll
    constructor
    · rintro ⟨rfl⟩
      exact ⟨[], [], ws, rfl, rfl, .nil, by simp, by simp, by simp, by simp⟩
    · rintro ⟨quads, new, tail, h1, -, h3, rfl, -⟩
      obtain rfl := List.length_eq_zero_iff.1 h1
      cases h3
      simp
  | succ n ih =>
    have key : (∃ w a b c r, ws = w :: a :: b :: c :: r) ∨ readAll num opt (n + 1) old ws = .error .null ∧ ws.length < 4 := by
      match ws with
      | [] => exact Or.inr ⟨rfl, by simp⟩
      | [_] => exact Or.inr ⟨rfl, by simp⟩
      | [_, _] => exact Or.inr ⟨rfl, by simp⟩
      | [_, _, _] => exact Or.inr ⟨rfl, by simp⟩
      | w :: a :: b :: c :: r => exact Or.inl ⟨w, a, b, c, r, rfl⟩
    rcases key with ⟨w, a, b, c, r, rfl⟩ | ⟨he, hl⟩
    · unfold readAll
      constructor
      · intro h
        cases ha : num a with
        | none => rw [ha] at h; cases h
        | some v =>
        cases hb : num b with
        | none => rw [ha, hb] at h; cases h
        | some lo =>
        cases hc : num c with
        | none => rw [ha, hb, hc] at h; cases h
        | some hi =>
        rw [ha, hb, hc] at h
        simp only at h
        split at h
        · cases h
        · next hr =>
          split at h
          · cases h
          · next hd =>
            obtain ⟨quads, new, tail, h1, rfl, h3, h4, h5, h6, h7⟩ := (ih _ _).1 h
            have hq := adjust_spec num opt (w, a, b, c) ha hb hc
            have hn := hq.name
            simp only at hn
            refine ⟨(w, a, b, c) :: quads, adjust opt w v lo hi :: new, tail, by simp [h1], by simp [Quad.list], .cons hq h3,
              by simp [h4], ?_, ?_, ?_⟩
            · intro g hg
              rcases List.mem_cons.1 hg with rfl | hg
              · rw [hn]
                by_contra hh
                exact hr ((refused_iff w).2 (by omega))
              · exact h5 g hg
            · rw [List.map_cons, List.nodup_cons]
              refine ⟨?_, h6⟩
              intro hm
              obtain ⟨g, hg, e⟩ := List.mem_map.1 hm
              exact h7 g hg (adjust opt w v lo hi) (by simp) e.symm
            · intro g hg o ho e
              rcases List.mem_cons.1 hg with rfl | hg
              · apply hd
                rw [List.any_eq_true]
                exact ⟨o, ho, by simp [e, hn]⟩
              · exact h7 g hg o (by simp [ho]) e
      · rintro ⟨quads, new, tail, h1, h2, h3, h4, h5, h6, h7⟩
        cases quads with
        | nil => simp at h1
        | cons q quads =>
          obtain ⟨w', a', b', c'⟩ := q
          simp only [List.map_cons, Quad.list, List.flatten_cons, List.cons_append, List.nil_append, List.cons.injEq] at h2
          obtain ⟨rfl, rfl, rfl, rfl, rfl⟩ := h2
          cases h3 with
          | cons hq h3 =>
            next g new =>
            obtain ⟨v, lo, hi, e1, e2, e3, -⟩ := hq.values
            simp only at e1 e2 e3
            have hg : g = adjust opt w v lo hi := isGlobal_unique hq (adjust_spec num opt (w, a, b, c) e1 e2 e3)
            have hn := hq.name
            simp only at hn
            rw [e1, e2, e3]
            simp only
            rw [if_neg, if_neg]
            · rw [ih]
              refine ⟨quads, new, tail, by simpa using h1, rfl, h3, by rw [h4, hg]; simp, fun g hg => h5 g (by simp [hg]), ?_, ?_⟩
              · rw [List.map_cons, List.nodup_cons] at h6
                exact h6.2
              · intro g' hg' o ho e
                rcases List.mem_append.1 ho with ho | ho
                · exact h7 g' (by simp [hg']) o ho e
                · rw [List.mem_singleton] at ho
                  rw [List.map_cons, List.nodup_cons] at h6
                  apply h6.1
                  rw [hg, ← ho, e]
                  exact List.mem_map_of_mem hg'
            · rw [List.any_eq_true]
              rintro ⟨o, ho, e⟩
              refine h7 g (by simp) o ho ?_
              rw [hn]
              simpa using e
            · rw [refused_iff]
              have := h5 g (by simp)
              rw [hn] at this
              omega
    · rw [he]
      constructor
      · rintro ⟨⟩
      · rintro ⟨quads, new, tail, h1, rfl, -⟩
        cases quads with
        | nil => simp at h1
        | cons q quads =>
          simp only [List.map_cons, Quad.list, List.flatten_cons, List.length_append, List.length_cons, List.length_nil] at hl
          omega

/-- **Global parameters.** The section begins with the first word of the file which begins with `global`; reading succeeds if and only if
the number is positive, there are four words for every parameter, the first one beginning with a character not behind `A`, the others numbers, and the
names differ. The parameters are those of the specification above. -/
theorem C107_globals (num : List Char → Option K) (int : List Char → Option ℤ) (opt : Bool) (ws : List (List Char)) (gs : List (Global K)) :
    readGlobals num int opt ws = .ok (some gs) ↔ ∃ n rest quads tail, InSection int ws n rest ∧ 0 < n ∧ (quads.length : ℤ) = n ∧
      rest = (quads.map Quad.list).flatten ++ tail ∧ List.Forall₂ (IsGlobal num opt) quads gs ∧
      (∀ g ∈ gs, (g.name.headD '\x00').toNat ≤ 65) ∧ (gs.map (·.name)).Nodup := by
  unfold readGlobals InSection
  constructor
  · intro h
    split at h
    · cases h
    · cases h
    · next c r hs =>
      obtain ⟨pre, w, rfl, hp, hw⟩ := (search_iff _ _).1 hs
      split at h
      · cases h
      · next n hn =>
        split at h
        · cases h
        · next hpos =>
          split at h
          · cases h
          · next gs' hr =>
            cases h
            obtain ⟨quads, new, tail, h1, h2, h3, h4, h5, h6, -⟩ := (readAll_iff _ _ _ _ _ _).1 hr
            rw [List.nil_append] at h4
            subst h4
            exact ⟨n, r, quads, tail, ⟨pre, w, c, rfl, hp, hw, hn⟩, by omega, by omega, h2, h3, h5, h6⟩
  · rintro ⟨n, rest, quads, tail, ⟨pre, w, c, rfl, hp, hw, hn⟩, h1, h2, h3, h4, h5, h6⟩
    rw [(search_iff _ (c :: rest)).2 ⟨pre, w, rfl, hp, hw⟩]
    simp only [hn]
    rw [if_neg (by omega), (readAll_iff num opt n.toNat [] gs rest).2 ⟨quads, gs, tail, by omega, h3, h4, rfl, h5, h6, by simp⟩]

/-- There are no global parameters exactly if no word begins with `global`. -/
theorem C107_none (num : List Char → Option K) (int : List Char → Option ℤ) (opt : Bool) (ws : List (List Char)) :
    readGlobals num int opt ws = .ok none ↔ ∀ w ∈ ws, ¬ sectionKey <+: w := by
  rw [show sectionKey = globalWord from rfl, ← search_none]
  unfold readGlobals
  constructor
  · intro h
    split at h
    · next hs => exact hs
    · cases h
    · split at h
      · cases h
      · split at h
        · cases h
        · split at h <;> cases h
  · intro h
    rw [h]

/-- **Values within limits**, if they are given in order and parameters are fitted. -/
theorem C107_inside_partial {num : List Char → Option K} {q : Quad} {g : Global K} (h : IsGlobal num true q g) {lo hi : K}
    (hlo : num q.2.2.1 = some lo) (hhi : num q.2.2.2 = some hi) (hlt : lo < hi) : g.lo ≤ g.value ∧ g.value ≤ g.hi := by
  obtain ⟨-, v, lo', hi', h1, h2, h3, h4, h5, -, h7⟩ := h
  obtain rfl : lo = lo' := Option.some.inj (hlo.symm.trans h2)
  obtain rfl : hi = hi' := Option.some.inj (hhi.symm.trans h3)
  rw [h4, h5, h7, min_eq_left hlt.le, max_eq_right hlt.le, if_pos ⟨rfl, hlt⟩]
  exact ⟨le_max_left _ _, max_le hlt.le (min_le_right _ _)⟩

/-- **Limits in the wrong order: violated.** They are exchanged, but the value stays outside. -/
theorem C107_exchanged_violated {num : List Char → Option K} {opt : Bool} {q : Quad} {g : Global K} (h : IsGlobal num opt q g) {v lo hi : K}
    (hv : num q.2.1 = some v) (hlo : num q.2.2.1 = some lo) (hhi : num q.2.2.2 = some hi) (hlt : hi < lo) (hout : v < hi ∨ lo < v) :
    g.value < g.lo ∨ g.hi < g.value := by
  obtain ⟨-, v', lo', hi', h1, h2, h3, h4, h5, -, h7⟩ := h
  obtain rfl : v = v' := Option.some.inj (hv.symm.trans h1)
  obtain rfl : lo = lo' := Option.some.inj (hlo.symm.trans h2)
  obtain rfl : hi = hi' := Option.some.inj (hhi.symm.trans h3)
  rw [if_neg (by rintro ⟨-, h⟩; exact absurd h (not_lt.2 hlt.le))] at h7
  rw [h4, h5, h7, min_eq_right hlt.le, max_eq_left hlt.le]
  exact hout

/-- **Names: violated.** The message demands a letter at the beginning, but a name which begins with a letter other than `A` is never
accepted, -/
theorem C107_letter_violated {num : List Char → Option K} {int : List Char → Option ℤ} {opt : Bool} {ws : List (List Char)}
    {gs : List (Global K)} (h : readGlobals num int opt ws = .ok (some gs)) {g : Global K} (hg : g ∈ gs) {c : Char} {s : List Char}
    (hn : g.name = c :: s) (hc : c.isAlpha = true) : c = 'A' := by
  obtain ⟨-, -, -, -, -, -, -, -, -, h5, -⟩ := (C107_globals num int opt ws gs).1 h
  have h5 := h5 g hg
  rw [hn] at h5
  simp only [List.headD_cons] at h5
  have h65 : c.toNat = 65 := by
    simp only [Char.isAlpha, Char.isUpper, Char.isLower, Bool.or_eq_true, Bool.and_eq_true, decide_eq_true_eq, ge_iff_le, UInt32.le_iff_toNat_le] at hc
    have e : c.toNat = c.val.toNat := rfl
    rcases hc with hc | hc
    · have := hc.1
      have e2 : (65 : UInt32).toNat = 65 := by decide
      have : ('A' : Char).val.toNat ≤ c.val.toNat := this
      have e3 : ('A' : Char).val.toNat = 65 := by decide
      omega
    · have : ('a' : Char).val.toNat ≤ c.val.toNat := hc.1
      have e3 : ('a' : Char).val.toNat = 97 := by decide
      omega
  apply Char.ext
  apply UInt32.toNat_inj.1
  exact h65

/-- Names of numbers for the examples. -/
def twoNumbers (w : List Char) : Option ℚ := if w = ['0'] then some 0 else if w = ['1'] then some 1 else if w = ['5'] then some 5 else none

/-- The same for the number of parameters. -/
def oneInt (w : List Char) : Option ℤ := if w = ['1'] then some 1 else none

/-- and one which begins with a digit is. -/
theorem C107_digit_violated : readGlobals twoNumbers oneInt true [globalWord, ['1'], ['7', 'x'], ['5'], ['0'], ['1']] =
    .ok (some [⟨['7', 'x'], 1, 0, 1, false⟩]) := by decide +kernel

/-- **Words anywhere: violated.** A file without a section `global` is refused if the name of a parameter or a word of a comment begins
with `global` and no number follows. -/
theorem C107_anywhere_violated (num : List Char → Option K) (int : List Char → Option ℤ) (opt : Bool) {pre rest : List (List Char)}
    {w c : List Char} (hp : ∀ x ∈ pre, ¬ sectionKey <+: x) (hw : sectionKey <+: w) (hc : int c = none) :
    readGlobals num int opt (pre ++ w :: c :: rest) = .error .premature := by
  unfold readGlobals
  rw [(search_iff _ (c :: rest)).2 ⟨pre, w, rfl, hp, hw⟩]
  simp only [hc]

theorem readAll_short {num : List Char → Option K} {opt : Bool} {n : ℕ} {old : List (Global K)} {ws : List (List Char)} (h : ws.length < 4 * n) :
    ∃ e, readAll num opt n old ws = .error e ∧ (e = .null ∨ e = .letter ∨ e = .duplicate) := by
  induction n generalizing old ws with
  | zero => omega
  | succ n ih =>
    match ws with
    | [] => exact ⟨_, rfl, Or.inl rfl⟩
    | [_] => exact ⟨_, rfl, Or.inl rfl⟩
    | [_, _] => exact ⟨_, rfl, Or.inl rfl⟩
    | [_, _, _] => exact ⟨_, rfl, Or.inl rfl⟩
    | w :: a :: b :: c :: r =>
      unfold readAll
      split
      · split
        · exact ⟨_, rfl, Or.inr (Or.inl rfl)⟩
        · split
          · exact ⟨_, rfl, Or.inr (Or.inr rfl)⟩
          · refine ih ?_
            simp only [List.length_cons] at h
            omega
      · exact ⟨_, rfl, Or.inl rfl⟩

/-- **Too few parameters: violated.** Instead of printing the message "Not enough global parameters!" the program compares the string at
address 0, -/
theorem C107_short_violated (num : List Char → Option K) (int : List Char → Option ℤ) (opt : Bool) {pre rest : List (List Char)}
    {w c : List Char} (hp : ∀ x ∈ pre, ¬ sectionKey <+: x) (hw : sectionKey <+: w) {n : ℤ} (hc : int c = some n)
    (hs : (rest.length : ℤ) < 4 * n) :
    ∃ e, readGlobals num int opt (pre ++ w :: c :: rest) = .error e ∧ (e = .null ∨ e = .letter ∨ e = .duplicate) := by
  unfold readGlobals
  rw [(search_iff _ (c :: rest)).2 ⟨pre, w, rfl, hp, hw⟩]
  simp only [hc]
  rw [if_neg (by omega)]
  obtain ⟨e, he, h⟩ := readAll_short (num := num) (opt := opt) (n := n.toNat) (old := []) (ws := rest) (by omega)
  exact ⟨e, by rw [he], h⟩

/-- for example if all are missing. -/
theorem C107_missing_violated (num : List Char → Option K) (int : List Char → Option ℤ) (opt : Bool) {pre : List (List Char)}
    {w c : List Char} (hp : ∀ x ∈ pre, ¬ sectionKey <+: x) (hw : sectionKey <+: w) {n : ℤ} (hc : int c = some n) (hn : 0 < n) :
    readGlobals num int opt (pre ++ [w, c]) = .error .null := by
  unfold readGlobals
  rw [(search_iff _ [c]).2 ⟨pre, w, rfl, hp, hw⟩]
  simp only [hc]
  rw [if_neg (by omega)]
  obtain ⟨m, hm⟩ : ∃ m, n.toNat = m + 1 := ⟨n.toNat - 1, by omega⟩
  rw [hm]
  rfl

/-- **Global parameters have no effect: violated.** The parameter vector has an entry for each, but they are 0 whatever the file says. -/
theorem C107_effect_violated (npar : ℕ) (value : ℕ → K) {num : List Char → Option K} {int : List Char → Option ℤ} {opt : Bool}
    {ws : List (List Char)} {gs : List (Global K)} (_ : readGlobals num int opt ws = .ok (some gs)) :
    tableLen npar (some gs) = npar + gs.length ∧ ∀ j, table npar value (npar + j) = 0 := by
  refine ⟨rfl, fun j => ?_⟩
  unfold table
  rw [if_neg (by omega)]

/-! ### Cutoff -/

/-- Lines which the search passes over: empty ones, and those whose first word is not `KIM_CUTOFF…`. -/
def Passed (l : List Char) : Prop := l.length ≤ 1 ∨ ∃ w r, tokens l = w :: r ∧ ¬ cutoffWord <+: w

/-- A line with the keyword. -/
def HasKeyword (l : List Char) : Prop := 1 < l.length ∧ ∃ w r, tokens l = w :: r ∧ cutoffWord <+: w

theorem scan_some (w : List Char) (hw : ¬ cutoffWord <+: w) (b : List Char) (ls : List (List Char)) (res : List Char) :
    scan (some w) (some b) ls = .ok res ↔
      (∃ pre post, ls = pre ++ res :: post ∧ (∀ l ∈ pre, Passed l) ∧ HasKeyword res) ∨
      (∀ l ∈ ls, Passed l) ∧ res = ls.getLastD b := by
  induction ls generalizing w b with
  | nil =>
    simp [scan, eq_comm]
  | cons l ls ih =>
    have pass (hl : Passed l) : ((∃ pre post, ls = pre ++ res :: post ∧ (∀ l ∈ pre, Passed l) ∧ HasKeyword res) ∨
        (∀ l ∈ ls, Passed l) ∧ res = ls.getLastD l) ↔ ((∃ pre post, l :: ls = pre ++ res :: post ∧ (∀ l ∈ pre, Passed l) ∧ HasKeyword res) ∨
        (∀ x ∈ l :: ls, Passed x) ∧ res = (l :: ls).getLastD b) := by
      have hk : ¬ HasKeyword l := by
        rintro ⟨h1, x, r, e, hx⟩
        rcases hl with hl | ⟨x', r', e', hx'⟩
        · omega
        · rw [e] at e'; cases e'; exact hx' hx
      apply or_congr
      · constructor
        · rintro ⟨pre, post, rfl, hp, h⟩
          refine ⟨l :: pre, post, rfl, ?_, h⟩
          intro x hx
          rcases List.mem_cons.1 hx with rfl | hx
          · exact hl
          · exact hp x hx
        · rintro ⟨pre, post, e, hp, h⟩
          cases pre with
          | nil => cases e; exact absurd h hk
          | cons p pre => cases e; exact ⟨pre, post, rfl, fun x hx => hp x (by simp [hx]), h⟩
      · apply and_congr
        · simp [hl]
        · rw [List.getLastD_cons]
    unfold scan
    split
    · next h1 =>
      cases ht : tokens l with
      | nil =>
        simp only
        constructor
        · rintro ⟨⟩
        · rintro (⟨pre, post, e, hp, h⟩ | ⟨h, -⟩)
          · cases pre with
            | nil =>
              cases e
              obtain ⟨-, x, r, e, -⟩ := h
              rw [ht] at e; cases e
            | cons p pre =>
              cases e
              rcases hp l (by simp) with h | ⟨x, r, e, -⟩
              · omega
              · rw [ht] at e; cases e
          · rcases h l (by simp) with h | ⟨x, r, e, -⟩
            · omega
            · rw [ht] at e; cases e
      | cons x r =>
        simp only
        by_cases hx : begins cutoffWord x = true
        · rw [if_pos hx]
          have hx' := begins_iff.1 hx
          have hn : ¬ Passed l := by
            rintro (h | ⟨x', r', e, h⟩)
            · omega
            · rw [ht] at e; cases e; exact h hx'
          constructor
          · rintro ⟨⟩
            exact Or.inl ⟨[], ls, rfl, by simp, h1, x, r, ht, hx'⟩
          · rintro (⟨pre, post, e, hp, h⟩ | ⟨h, -⟩)
            · cases pre with
              | nil => cases e; rfl
              | cons p pre => cases e; exact absurd (hp l (by simp)) hn
            · exact absurd (h l (by simp)) hn
        · rw [if_neg hx]
          have hx' : ¬ cutoffWord <+: x := fun h => hx (begins_iff.2 h)
          rw [ih x hx']
          exact pass (Or.inr ⟨x, r, ht, hx'⟩)
    · next h1 =>
      simp only
      rw [if_neg (fun h => hw (begins_iff.1 h)), ih w hw]
      exact pass (Or.inl (by omega))

theorem first_token_prefix {s w : List Char} {r : List (List Char)} (h : tokens (cutoffWord ++ s) = w :: r) : cutoffWord <+: w := by
  have hs : ConfigText.skip (cutoffWord ++ s) = cutoffWord ++ s := rfl
  rcases Lemmas.ConfigText.tokens_cases (cutoffWord ++ s) with ⟨h1, -⟩ | ⟨w', t, -, -, ht, h2, h3⟩
  · rw [hs] at h1
    cases h1
  · rw [h] at h3
    cases h3
    rw [hs, List.append_eq_append_iff] at h2
    rcases h2 with ⟨a, h2, -⟩ | ⟨a, h2, rfl⟩
    · exact ⟨a, h2.symm⟩
    · cases a with
      | nil => rw [List.append_nil] at h2; rw [h2]
      | cons x a =>
        exfalso
        have hx : x ∈ cutoffWord := by rw [h2]; simp
        have hall : ∀ c ∈ cutoffWord, isSpace c = false := by decide
        have := hall x hx
        simp [Lemmas.ConfigText.Ends] at ht
        simp_all

/-- **The search**: it ends with the line `res`. -/
theorem scan_none (ls : List (List Char)) (res : List Char) :
    scan none none ls = .ok res ↔ (∀ l ∈ ls.head?, 1 < l.length) ∧ ls ≠ [] ∧
      ((∃ pre post, ls = pre ++ res :: post ∧ (∀ l ∈ pre, Passed l) ∧ HasKeyword res) ∨
        (∀ l ∈ ls, Passed l) ∧ res = ls.getLastD []) := by
  cases ls with
  | nil => simp [scan]
  | cons l ls =>
    by_cases h1 : 1 < l.length
    · have h2 : (∀ x ∈ (l :: ls).head?, 1 < x.length) ∧ l :: ls ≠ [] := by simp [h1]
      rw [← and_assoc]
      have hsame : scan none none (l :: ls) = scan (some []) (some []) (l :: ls) := by
        unfold scan
        rw [if_pos h1, if_pos h1]
      rw [hsame, scan_some [] (by decide)]
      constructor
      · exact fun h => ⟨h2, h⟩
      · exact fun h => h.2
    · have : scan none none (l :: ls) = .error .uninit := by
        unfold scan
        rw [if_neg h1]
      rw [this]
      constructor
      · rintro ⟨⟩
      · rintro ⟨h, -⟩
        exact absurd (h l (by simp)) h1

/-- **The cutoff parameter**: parameter `i` is marked if and only if the first line is not empty, and the first line whose first word begins
with `KIM_CUTOFF` is not indented and has the name of the parameter as second word, no line before it consisting of blank space only. -/
theorem C107_cutoff (names ls : List (List Char)) (i : ℕ) :
    readCutoff names ls = .ok (some i) ↔ (∀ l ∈ ls.head?, 1 < l.length) ∧ ∃ pre l post w n r, ls = pre ++ l :: post ∧ (∀ x ∈ pre, Passed x) ∧
      1 < l.length ∧ cutoffWord <+: l ∧ tokens l = w :: n :: r ∧ cutoffWord <+: w ∧ names[i]? = some n ∧ ∀ j < i, names[j]? ≠ some n := by
  have hidx : ∀ n, names.findIdx? (· == n) = some i ↔ names[i]? = some n ∧ ∀ j < i, names[j]? ≠ some n := by
    intro n
    rw [List.findIdx?_eq_some_iff_getElem]
    constructor
    · rintro ⟨h, h1, h2⟩
      refine ⟨by rw [List.getElem?_eq_getElem h]; simpa using h1, fun j hj e => ?_⟩
      obtain ⟨hj', e⟩ := List.getElem?_eq_some_iff.1 e
      have := h2 j hj
      simp [e] at this
    · rintro ⟨h1, h2⟩
      obtain ⟨h, e⟩ := List.getElem?_eq_some_iff.1 h1
      refine ⟨h, by simp [e], fun j hj => ?_⟩
      have := h2 j hj
      rw [List.getElem?_eq_getElem (by omega)] at this
      simpa using this
  have hend : ∀ b, (if begins cutoffWord b = true then (match tokens b with
      | _ :: n :: _ => (match names.findIdx? (· == n) with
        | some i => (.ok (some i) : Except KimKeywords.Fault (Option ℕ))
        | none => .error .unknown)
      | _ => .error .line) else .ok none) = .ok (some i) ↔
      cutoffWord <+: b ∧ ∃ w n r, tokens b = w :: n :: r ∧ names[i]? = some n ∧ ∀ j < i, names[j]? ≠ some n := by
    intro b
    by_cases hb : begins cutoffWord b = true
    · rw [if_pos hb]
      have hb' := begins_iff.1 hb
      match ht : tokens b with
      | [] => simp
      | [_] => simp
      | w :: n :: r =>
        simp only
        cases hf : names.findIdx? (· == n) with
        | none =>
          simp only
          constructor
          · rintro ⟨⟩
          · rintro ⟨-, w', n', r', e, h⟩
            cases e
            rw [(hidx n).2 h] at hf
            cases hf
        | some k =>
          simp only
          constructor
          · intro e
            cases e
            exact ⟨hb', w, n, r, rfl, (hidx n).1 hf⟩
          · rintro ⟨-, w', n', r', e, h⟩
            cases e
            rw [(hidx n).2 h] at hf
            cases hf
            rfl
    · rw [if_neg hb]
      constructor
      · intro h; cases h
      · rintro ⟨h, -⟩; exact absurd (begins_iff.2 h) hb
  unfold readCutoff
  constructor
  · intro h
    split at h
    · cases h
    · next b hb =>
      obtain ⟨h0, h1, h2⟩ := (scan_none ls b).1 hb
      obtain ⟨h3, w, n, r, ht, hi⟩ := (hend b).1 h
      refine ⟨h0, ?_⟩
      rcases h2 with ⟨pre, post, e, hp, hl, w', r', e', hw⟩ | ⟨hall, rfl⟩
      · rw [ht] at e'
        cases e'
        exact ⟨pre, b, post, w, n, r, e, hp, hl, h3, ht, hw, hi⟩
      · exfalso
        have hm : ls.getLastD [] ∈ ls := by
          cases ls with
          | nil => exact absurd rfl h1
          | cons a l =>
            rw [List.getLastD_cons]
            exact List.getLastD_mem_cons
        have hlen : 1 < (ls.getLastD []).length := lt_of_lt_of_le (by decide) h3.length_le
        rcases hall _ hm with h | ⟨w', r', e, hw⟩
        · omega
        · rw [ht] at e
          cases e
          apply hw
          obtain ⟨s, hs⟩ := h3
          have : tokens (cutoffWord ++ s) = w :: n :: r := by rw [hs]; exact ht
          exact first_token_prefix this
  · rintro ⟨h0, pre, l, post, w, n, r, e, hp, hl, h3, ht, hw, hi⟩
    have : scan none none ls = .ok l := by
      rw [scan_none]
      exact ⟨h0, by rw [e]; simp, Or.inl ⟨pre, post, e, hp, hl, w, _, ht, hw⟩⟩
    rw [this]
    exact (hend l).2 ⟨h3, w, n, r, ht, hi⟩

/-- **Indented keyword: violated.** If the first line with the keyword does not begin with it, it has no effect, and neither have later ones. -/
theorem C107_indent_violated (names : List (List Char)) {pre post : List (List Char)} {l : List Char}
    (h0 : ∀ x ∈ (pre ++ l :: post).head?, 1 < x.length) (hp : ∀ x ∈ pre, Passed x) (hl : HasKeyword l) (hi : ¬ cutoffWord <+: l) :
    readCutoff names (pre ++ l :: post) = .ok none := by
  unfold readCutoff
  rw [(scan_none _ l).2 ⟨h0, by simp, Or.inl ⟨pre, post, rfl, hp, hl⟩⟩]
  simp only
  rw [if_neg (fun h => hi (begins_iff.1 h))]

/-- **Second keyword: violated.** Lines behind the first one with the keyword are not read: a second cutoff parameter is not marked, nor is an
unknown name noticed. -/
theorem C107_second_violated (names : List (List Char)) {pre post post' : List (List Char)} {l : List Char}
    (h0 : ∀ x ∈ (pre ++ l :: post).head?, 1 < x.length) (hp : ∀ x ∈ pre, Passed x) (hl : HasKeyword l) :
    readCutoff names (pre ++ l :: post) = readCutoff names (pre ++ l :: post') := by
  have h0' : ∀ x ∈ (pre ++ l :: post').head?, 1 < x.length := by
    cases pre with
    | nil => exact h0
    | cons a pre => exact h0
  unfold readCutoff
  rw [(scan_none _ l).2 ⟨h0, by simp, Or.inl ⟨pre, post, rfl, hp, hl⟩⟩, (scan_none _ l).2 ⟨h0', by simp, Or.inl ⟨pre, post', rfl, hp, hl⟩⟩]

/-- **Files of the program: violated.** Reading the template which the program writes for this purpose, or the result of a fit, is undefined:
their first line after the header is empty. -/
theorem C107_template_undefined (names : List (List Char)) (cut : Option ℕ) (ps : List (List Char × List (List Char))) :
    readCutoff names (template ps) = .error .uninit ∧ readCutoff names (result cut ps) = .error .uninit := ⟨rfl, rfl⟩

theorem block_header {key name : List Char} (hk : key ≠ []) (hks : ∀ c ∈ key, isSpace c = false) (hn : name ≠ [])
    (hns : ∀ c ∈ name, isSpace c = false) : tokens (key ++ (' ' :: name ++ ['\n'])) = [key, name] := by
  rw [Lemmas.ConfigText.tokens_word hks hk (by intro c hc; cases hc; rfl), List.cons_append, Lemmas.ConfigText.tokens_space rfl,
    Lemmas.ConfigText.tokens_word hns hn (by intro c hc; cases hc; rfl)]
  rfl

theorem block_passed {name : List Char} (hn : name ≠ []) (hns : ∀ c ∈ name, isSpace c = false) {values : List (List Char)}
    (hv : ∀ l ∈ values, Passed l) (sep : Bool) : ∀ l ∈ block name false values sep, Passed l := by
  intro l hl
  unfold block at hl
  rcases List.mem_append.1 hl with hl | hl
  · rcases List.mem_cons.1 hl with rfl | hl
    · exact Or.inr ⟨"KIM_PARAM".toList, [name], block_header (key := "KIM_PARAM".toList) (by decide) (by decide) hn hns, by decide⟩
    · exact hv l hl
  · cases sep with
    | true =>
      simp only [if_true, List.mem_singleton] at hl
      subst hl
      exact Or.inl (by decide)
    | false => simp at hl

/-- Without that line, and if every line of values has a word, the result can be read, and the cutoff parameter of the fit is the one found
(the next fit has the same cutoff). -/
theorem C107_result_partial (cut : ℕ) (ps : List (List Char × List (List Char))) (hc : cut < ps.length)
    (hd : (ps.map Prod.fst).Nodup) (hw : ∀ p ∈ ps, p.1 ≠ [] ∧ ∀ c ∈ p.1, isSpace c = false)
    (hv : ∀ p ∈ ps, ∀ l ∈ p.2, Passed l) :
    readCutoff (ps.map Prod.fst) (result (some cut) ps).tail = .ok (some cut) := by
  rw [C107_cutoff]
  unfold result
  rw [List.tail_cons]
  set f : (List Char × List (List Char)) × ℕ → List (List Char) :=
    fun p => block p.1.1 (some cut == some p.2) p.1.2 (decide (p.2 + 1 ≠ ps.length)) with hf
  have hz : ps.zipIdx = ps.zipIdx.take cut ++ (ps[cut], cut) :: ps.zipIdx.drop (cut + 1) := by
    have h1 : cut < ps.zipIdx.length := by simpa using hc
    conv_lhs => rw [← List.take_append_drop cut ps.zipIdx, List.drop_eq_getElem_cons h1]
    simp
  constructor
  · intro l hl
    cases ps with
    | nil => simp at hc
    | cons p ps =>
      simp only [List.zipIdx_cons, List.map_cons, List.flatten_cons, hf, block, List.cons_append, List.head?_cons, Option.mem_def,
        Option.some.injEq] at hl
      subst hl
      simp
  · have hp := hw ps[cut] (List.getElem_mem hc)
    have hfc : f (ps[cut], cut) = (cutoffWord ++ (' ' :: ps[cut].1 ++ ['\n'])) :: (ps[cut].2 ++
        if decide (cut + 1 ≠ ps.length) = true then [['\n']] else []) := by
      simp [hf, block, cutoffWord]
    refine ⟨((ps.zipIdx.take cut).map f).flatten, cutoffWord ++ (' ' :: ps[cut].1 ++ ['\n']), (ps[cut].2 ++
        if decide (cut + 1 ≠ ps.length) = true then [['\n']] else []) ++ ((ps.zipIdx.drop (cut + 1)).map f).flatten, cutoffWord, ps[cut].1, [],
        ?_, ?_, ?_, ⟨_, rfl⟩, block_header (by decide) (by decide) hp.1 hp.2, List.prefix_rfl, ?_, ?_⟩
    · conv_lhs => rw [hz, List.map_append, List.map_cons, List.flatten_append, List.flatten_cons, hfc, List.cons_append]
    · intro x hx
      obtain ⟨b, hb, hx⟩ := List.mem_flatten.1 hx
      obtain ⟨z, hz, rfl⟩ := List.mem_map.1 hb
      obtain ⟨j, hj, e⟩ := List.mem_take_iff_getElem.1 hz
      rw [List.getElem_zipIdx] at e
      have hj1 : j < cut := by omega
      have hj2 : j < ps.length := by omega
      subst e
      have hne : (some cut == some (0 + j)) = false := by
        simp only [beq_eq_false_iff_ne, ne_eq, Option.some.injEq]
        omega
      simp only [hf, hne] at hx
      exact block_passed (hw _ (List.getElem_mem hj2)).1 (hw _ (List.getElem_mem hj2)).2 (hv _ (List.getElem_mem hj2)) _ x hx
    · simp [cutoffWord]
    · simp [List.getElem?_eq_getElem hc]
    · intro j hj e
      rw [List.getElem?_map, List.getElem?_eq_getElem (by omega), Option.map_some, Option.some.injEq] at e
      have := (List.Nodup.getElem_inj_iff hd (i := j) (j := cut) (hi := by simp; omega) (hj := by simpa using hc)).1 (by simpa using e)
      omega

/-! ### Examples -/

/-- A name. -/
def nameA : List Char := ['A', '0']

/-- `C107_globals`, `C107_effect_violated`, `C107_inside_partial`: a section with a parameter above its limits. -/
example : readGlobals twoNumbers oneInt true [['x'], globalWord, ['1'], nameA, ['5'], ['0'], ['1'], ['y']] =
    .ok (some [⟨nameA, 1, 0, 1, false⟩]) := by decide +kernel

example : readGlobals twoNumbers oneInt false [['x'], globalWord, ['1'], nameA, ['5'], ['0'], ['1'], ['y']] =
    .ok (some [⟨nameA, 5, 0, 1, false⟩]) := by decide +kernel

/-- `C107_none`. -/
example : readGlobals twoNumbers oneInt true [['x'], ['y']] = .ok none := by decide +kernel

/-- `C107_exchanged_violated`: limits 1 and 0, value 5. -/
example : readGlobals twoNumbers oneInt true [globalWord, ['1'], nameA, ['5'], ['1'], ['0']] =
    .ok (some [⟨nameA, 5, 0, 1, false⟩]) := by decide +kernel

/-- `C107_letter_violated`: a name in small letters. -/
example : readGlobals twoNumbers oneInt true [globalWord, ['1'], ['a'], ['5'], ['0'], ['1']] = .error .letter := by decide +kernel

/-- `C107_anywhere_violated`: a parameter called `globalShift` in a file without global parameters. -/
example : readGlobals twoNumbers oneInt true ["KIM_PARAM".toList, "globalShift".toList, "KIM".toList, ['0'], ['1']] = .error .premature := by
  decide +kernel

/-- `C107_short_violated`: one of four words missing; and a second parameter missing after one which is accepted. -/
example : readGlobals twoNumbers oneInt true [globalWord, ['1'], nameA, ['5'], ['0']] = .error .null := by decide +kernel

/-- A file with a cutoff parameter (the second of two). -/
def cutFile : List (List Char) :=
  [['#', '#', '\n'], ['\n'], "KIM_PARAM s\n".toList, "1 0 5\n".toList, ['\n'], "KIM_CUTOFF c\n".toList, "5 0 5\n".toList]

/-- `C107_cutoff`. -/
example : readCutoff [['s'], ['c']] cutFile = .ok (some 1) := by decide +kernel

/-- `C107_indent_violated`. -/
example : readCutoff [['s'], ['c']] (cutFile.map fun l => if l = "KIM_CUTOFF c\n".toList then ' ' :: l else l) = .ok none := by decide +kernel

/-- `C107_second_violated`. -/
example : readCutoff [['s'], ['c']] (cutFile ++ ["KIM_CUTOFF z\n".toList]) = .ok (some 1) := by decide +kernel

/-- `C107_result_partial`: a result with two parameters. -/
example : readCutoff [['s'], ['c']] (result (some 1) [(['s'], ["1 0 5\n".toList]), (['c'], ["5 0 5\n".toList])]).tail = .ok (some 1) := by
  decide +kernel

end Verif.Props
