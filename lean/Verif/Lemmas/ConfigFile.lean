import Verif.Spec.ConfigFile
import Mathlib.Tactic.Ring
import Mathlib.Tactic.FinCases
import Mathlib.Tactic.Linarith
import Mathlib.Data.List.GetD
import Mathlib.Data.List.Forall2
import Mathlib.LinearAlgebra.Matrix.Determinant.Basic

set_option linter.unusedSectionVars false

namespace Verif.Lemmas.ConfigFile

open Verif.Force (V3)
open Verif.ConfigFile Verif.Spec

variable {K : Type} [Field K] [LinearOrder K]

theorem scaled_eq (s : Settings K) (x : K) : scaled s x = x * s.scale := by
  unfold scaled
  by_cases h : s.scale = 1
  · simp [h]
  · rw [if_pos h]

/-! Atoms -/

theorem skipBlank_notBlank (ls : List (Line K)) : NotBlank (skipBlank ls) := by
  intro l hl
  induction ls with
  | nil => simp [skipBlank] at hl
  | cons a ls ih =>
    by_cases ha : a.blank = true
    · simp only [skipBlank, List.dropWhile_cons, ha, if_true] at hl
      exact ih hl
    · simp only [skipBlank, List.dropWhile_cons, ha] at hl
      simp at hl
      subst hl
      simpa using ha

theorem skipBlank_split (ls : List (Line K)) :
    ∃ bl, ls = bl ++ skipBlank ls ∧ bl.filter (fun l => !l.blank) = [] := by
  induction ls with
  | nil => exact ⟨[], by simp [skipBlank]⟩
  | cons a ls ih =>
    by_cases ha : a.blank = true
    · obtain ⟨bl, h1, h2⟩ := ih
      refine ⟨a :: bl, ?_, ?_⟩
      · have : skipBlank (a :: ls) = skipBlank ls := by simp [skipBlank, List.dropWhile_cons, ha]
        rw [this, List.cons_append, ← h1]
      · simp [List.filter_cons, ha, h2]
    · refine ⟨[], ?_, rfl⟩
      simp [skipBlank, List.dropWhile_cons, ha]

theorem skipBlank_append {bl : List (Line K)} (h : bl.filter (fun l => !l.blank) = []) (ls : List (Line K)) :
    skipBlank (bl ++ ls) = skipBlank ls := by
  induction bl with
  | nil => rfl
  | cons a bl ih =>
    by_cases ha : a.blank = true
    · simp only [List.filter_cons, ha, Bool.not_true] at h
      simp only [skipBlank, List.cons_append, List.dropWhile_cons, ha, if_true]
      exact ih (by simpa using h)
    · simp [List.filter_cons, ha] at h

theorem skipBlank_of_notBlank {ls : List (Line K)} (h : NotBlank ls) : skipBlank ls = ls := by
  cases ls with
  | nil => rfl
  | cons a ls =>
    have := h a rfl
    simp [skipBlank, List.dropWhile_cons, this]

theorem isAtom_iff (s : Settings K) (l : Line K) (raw : RawAtom K) (h : l.atom = some raw) (a : RawAtom K) :
    IsAtom s l a ↔ (¬ (raw.typ ≥ s.ntypes ∨ raw.typ < 0)) ∧ a = { raw with pos := fun k => scaled s (raw.pos k) } := by
  constructor
  · rintro ⟨raw', h', h0, h1, h2, h3, h4⟩
    rw [h] at h'
    obtain rfl := Option.some.inj h'
    refine ⟨by omega, ?_⟩
    cases a with
    | mk t p f =>
      simp only at h2 h3 h4
      subst h2 h3
      congr 1
      funext k
      rw [h4, scaled_eq]
  · rintro ⟨h1, rfl⟩
    refine ⟨raw, h, ?_, ?_, rfl, rfl, fun k => scaled_eq s _⟩ <;> simp only <;> omega

theorem readAtoms_iff (s : Settings K) (n : Nat) (ls rest : List (Line K)) (as : List (RawAtom K)) :
    readAtoms s n (skipBlank ls) = .ok (as, rest) ↔
      as.length = n ∧ NotBlank rest ∧
        ∃ table, ls = table ++ rest ∧ List.Forall₂ (IsAtom s) (table.filter fun l => !l.blank) as := by
  induction n generalizing ls as with
  | zero =>
    simp only [readAtoms, Except.ok.injEq, Prod.mk.injEq]
    constructor
    · rintro ⟨rfl, rfl⟩
      obtain ⟨bl, h1, h2⟩ := skipBlank_split ls
      exact ⟨rfl, skipBlank_notBlank ls, bl, h1, by rw [h2]; exact List.Forall₂.nil⟩
    · rintro ⟨h1, h2, table, h3, h4⟩
      obtain rfl := List.length_eq_zero_iff.1 h1
      refine ⟨rfl, ?_⟩
      have := List.forall₂_nil_right_iff.1 h4
      rw [h3, skipBlank_append this, skipBlank_of_notBlank h2]
  | succ n ih =>
    have idem : skipBlank (skipBlank ls) = skipBlank ls := skipBlank_of_notBlank (skipBlank_notBlank ls)
    obtain ⟨bl, h1, h2⟩ := skipBlank_split ls
    have nb := skipBlank_notBlank ls
    simp only [readAtoms, idem]
    generalize skipBlank ls = ls' at h1 nb
    subst h1
    cases ls' with
    | nil =>
      simp only [reduceCtorEq, false_iff]
      rintro ⟨hl, -, table, h3, h4⟩
      rw [List.append_nil] at h3
      subst h3
      rw [List.filter_append] at h2
      have := List.append_eq_nil_iff.1 h2
      rw [this.1] at h4
      have := List.forall₂_nil_left_iff.1 h4
      subst this
      simp at hl
    | cons l rest0 =>
      have hlb : l.blank = false := nb l rfl
      -- the table on the right contains the line `l`
      have key : (∃ table, bl ++ l :: rest0 = table ++ rest ∧
            List.Forall₂ (IsAtom s) (table.filter fun l => !l.blank) as ∧ as.length = n + 1) ↔
          ∃ a as', as = a :: as' ∧ as'.length = n ∧ IsAtom s l a ∧
            ∃ table, rest0 = table ++ rest ∧ List.Forall₂ (IsAtom s) (table.filter fun l => !l.blank) as' := by
        constructor
        · rintro ⟨table, h3, h4, h5⟩
          have hlen : bl.length < table.length := by
            by_contra hc
            have hsub : table <+: bl := by
              have e1 : table <+: bl ++ l :: rest0 := ⟨rest, h3.symm⟩
              exact List.prefix_of_prefix_length_le e1 (List.prefix_append _ _) (by omega)
            have : table.filter (fun l => !l.blank) = [] := by
              have := hsub.filter (fun l => !l.blank)
              rw [h2] at this
              exact List.prefix_nil.1 this
            rw [this] at h4
            have := List.forall₂_nil_left_iff.1 h4
            subst this
            simp at h5
          obtain ⟨t', ht'⟩ : bl <+: table :=
            List.prefix_of_prefix_length_le (List.prefix_append bl (l :: rest0)) ⟨rest, h3.symm⟩ (by omega)
          subst ht'
          rw [List.append_assoc] at h3
          have h3' := List.append_cancel_left h3
          cases t' with
          | nil => simp at hlen
          | cons x t' =>
            simp only [List.cons_append, List.cons.injEq] at h3'
            obtain ⟨rfl, h3'⟩ := h3'
            rw [List.filter_append, h2, List.nil_append, List.filter_cons, hlb] at h4
            simp only [Bool.not_false, if_true] at h4
            cases as with
            | nil => cases h4
            | cons a as' =>
              obtain ⟨h6, h7⟩ := List.forall₂_cons.1 h4
              exact ⟨a, as', rfl, by simpa using h5, h6, t', h3', h7⟩
        · rintro ⟨a, as', rfl, h5, h6, table, h3, h7⟩
          refine ⟨bl ++ l :: table, by rw [h3, List.append_assoc, List.cons_append], ?_, by simp [h5]⟩
          rw [List.filter_append, h2, List.nil_append, List.filter_cons, hlb]
          simp only [Bool.not_false, if_true]
          exact List.Forall₂.cons h6 h7
      have swap : (as.length = n + 1 ∧ NotBlank rest ∧ ∃ table, bl ++ l :: rest0 = table ++ rest ∧
            List.Forall₂ (IsAtom s) (table.filter fun l => !l.blank) as) ↔
          (NotBlank rest ∧ ∃ a as', as = a :: as' ∧ as'.length = n ∧ IsAtom s l a ∧
            ∃ table, rest0 = table ++ rest ∧ List.Forall₂ (IsAtom s) (table.filter fun l => !l.blank) as') := by
        rw [← key]
        constructor
        · rintro ⟨x, y, t, z, w⟩; exact ⟨y, t, z, w, x⟩
        · rintro ⟨y, t, z, w, x⟩; exact ⟨x, y, t, z, w⟩
      rw [swap]
      simp only
      cases ha : l.atom with
      | none =>
        simp only [reduceCtorEq, false_iff]
        rintro ⟨-, a, as', -, -, ⟨raw, hr, -⟩, -⟩
        rw [ha] at hr
        cases hr
      | some raw =>
        simp only
        by_cases ht : raw.typ ≥ s.ntypes ∨ raw.typ < 0
        · simp only [if_pos ht, reduceCtorEq, false_iff]
          rintro ⟨-, a, as', -, -, h6, -⟩
          exact ((isAtom_iff s l raw ha a).1 h6).1 ht
        · simp only [if_neg ht]
          have ih' := fun as' => ih rest0 as'
          cases hr : readAtoms s n (skipBlank rest0) with
          | error e =>
            simp only [reduceCtorEq, false_iff]
            rintro ⟨hb, a, as', -, h5, -, h7⟩
            have := (ih' as').2 ⟨h5, hb, h7⟩
            rw [hr] at this
            cases this
          | ok r =>
            obtain ⟨as1, rest1⟩ := r
            simp only [Except.ok.injEq, Prod.mk.injEq]
            constructor
            · rintro ⟨rfl, rfl⟩
              obtain ⟨h5, hb, h7⟩ := (ih rest0 as1).1 hr
              exact ⟨hb, _, as1, rfl, h5, (isAtom_iff s l raw ha _).2 ⟨ht, rfl⟩, h7⟩
            · rintro ⟨hb, a, as', rfl, h5, h6, h7⟩
              have := (ih' as').2 ⟨h5, hb, h7⟩
              rw [hr] at this
              simp only [Except.ok.injEq, Prod.mk.injEq] at this
              exact ⟨by rw [((isAtom_iff s l raw ha a).1 h6).2, this.1], this.2⟩

theorem readAtoms_skip (s : Settings K) (n : Nat) (ls : List (Line K)) :
    readAtoms s (n + 1) ls = readAtoms s (n + 1) (skipBlank ls) := by
  simp only [readAtoms, skipBlank_of_notBlank (skipBlank_notBlank ls)]

/-! Header -/

/-- The lines of the header one after the other. -/
def runLines (s : Settings K) (h : Header K) : List (Line K) → Except Err (Header K)
  | [] => .ok h
  | l :: ls => match headerLine s h l with
    | .error e => .error e
    | .ok h' => runLines s h' ls

theorem runLines_snoc (s : Settings K) (h : Header K) (ls : List (Line K)) (l : Line K) :
    runLines s h (ls ++ [l]) = match runLines s h ls with
      | .error e => .error e
      | .ok h' => headerLine s h' l := by
  induction ls generalizing h with
  | nil =>
    simp only [List.nil_append, runLines]
    cases headerLine s h l <;> rfl
  | cons a ls ih =>
    simp only [List.cons_append, runLines]
    cases headerLine s h a with
    | error e => rfl
    | ok h' => exact ih h'

theorem key_F (s : Settings K) : key s 'F' = .forces := by
  simp [key]

theorem headerLine_F (s : Settings K) (h : Header K) (l : Line K) (hl : l.c1 = 'F') : headerLine s h l = .ok h := by
  simp only [headerLine, hl, key_F]

theorem readHeader_iff (s : Settings K) (h h' : Header K) (ls rest : List (Line K)) :
    readHeader s h ls = .ok (h', rest) ↔
      ∃ hs l, ls = hs ++ l :: rest ∧ (∀ x ∈ hs, x.c1 ≠ 'F') ∧ l.c1 = 'F' ∧ runLines s h hs = .ok h' := by
  induction ls generalizing h with
  | nil => simp [readHeader]
  | cons a ls ih =>
    simp only [readHeader]
    by_cases ha : a.c1 = 'F'
    · simp only [headerLine_F s h a ha, if_pos ha, Except.ok.injEq, Prod.mk.injEq]
      constructor
      · rintro ⟨rfl, rfl⟩
        exact ⟨[], a, rfl, by simp, ha, rfl⟩
      · rintro ⟨hs, l, h1, h2, h3, h4⟩
        cases hs with
        | nil =>
          simp only [List.nil_append, List.cons.injEq] at h1
          simp only [runLines, Except.ok.injEq] at h4
          exact ⟨h4, h1.2⟩
        | cons x hs =>
          simp only [List.cons_append, List.cons.injEq] at h1
          exact absurd ha (by rw [h1.1]; exact h2 x (by simp))
    · simp only [if_neg ha]
      have hne : ∀ hs l, a :: ls = hs ++ l :: rest → l.c1 = 'F' → ∃ hs', hs = a :: hs' ∧ ls = hs' ++ l :: rest := by
        intro hs l h1 h3
        cases hs with
        | nil =>
          simp only [List.nil_append, List.cons.injEq] at h1
          exact absurd h3 (by rw [← h1.1]; exact ha)
        | cons x hs =>
          simp only [List.cons_append, List.cons.injEq] at h1
          exact ⟨hs, by rw [h1.1], h1.2⟩
      cases hh : headerLine s h a with
      | error e =>
        simp only [reduceCtorEq, false_iff]
        rintro ⟨hs, l, h1, h2, h3, h4⟩
        obtain ⟨hs', rfl, -⟩ := hne hs l h1 h3
        simp [runLines, hh] at h4
      | ok h1 =>
        simp only
        rw [ih h1]
        constructor
        · rintro ⟨hs, l, e1, e2, e3, e4⟩
          refine ⟨a :: hs, l, by rw [e1]; rfl, ?_, e3, by simp only [runLines, hh]; exact e4⟩
          intro x hx
          rcases List.mem_cons.1 hx with rfl | hx
          · exact ha
          · exact e2 x hx
        · rintro ⟨hs, l, e1, e2, e3, e4⟩
          obtain ⟨hs', rfl, e5⟩ := hne hs l e1 e3
          simp only [runLines, hh] at e4
          exact ⟨hs', l, e5, fun x hx => e2 x (List.mem_cons_of_mem _ hx), e3, e4⟩

theorem lastOf_snoc (p : Line K → Bool) (hs : List (Line K)) (l : Line K) :
    lastOf p (hs ++ [l]) = if p l = true then some l else lastOf p hs := by
  unfold lastOf
  rw [List.filter_append]
  by_cases h : p l = true
  · simp [List.filter_cons, h]
  · simp [List.filter_cons, h]

theorem lastOf_nil (p : Line K → Bool) : lastOf p ([] : List (Line K)) = none := rfl

theorem lastOf_some {p : Line K → Bool} {hs : List (Line K)} {l : Line K} (h : lastOf p hs = some l) : l ∈ hs ∧ p l = true := by
  have := List.mem_of_getLast? h
  exact List.mem_filter.1 this

theorem lastOf_none {p : Line K → Bool} {hs : List (Line K)} : lastOf p hs = none ↔ ∀ l ∈ hs, p l = false := by
  simp [lastOf, List.getLast?_eq_none_iff, List.filter_eq_nil_iff]

/-- The first numbers of a line as a scaled vector. -/
def vecOf (s : Settings K) (nums : List K) : V3 K := fun k => nums.getD k.1 0 * s.scale

def sphereOf (s : Settings K) (nums : List K) : V3 K × K := (vecOf s nums, nums.getD 3 0 * s.scale)

theorem readBoxVector_eq (s : Settings K) (nums : List K) :
    readBoxVector s nums = if 3 ≤ nums.length then .ok (vecOf s nums) else .error .box := by
  match nums with
  | [] => rfl
  | [_] => rfl
  | [_, _] => rfl
  | x :: y :: z :: r =>
    simp only [readBoxVector, List.length_cons, scaled_eq]
    rw [if_pos (by omega)]
    congr 1
    funext k
    fin_cases k <;> rfl

theorem readSphere_eq (s : Settings K) (nums : List K) :
    readSphere s nums = if 4 ≤ nums.length then .ok (sphereOf s nums) else .error .sphere := by
  match nums with
  | [] => rfl
  | [_] => rfl
  | [_, _] => rfl
  | [_, _, _] => rfl
  | x :: y :: z :: r :: t =>
    simp only [readSphere, List.length_cons, scaled_eq]
    rw [if_pos (by omega)]
    congr 1
    refine Prod.ext ?_ rfl
    funext k
    fin_cases k <;> rfl

/-- A line of the header has the numbers it needs. -/
structure LineOk (s : Settings K) (l : Line K) : Prop where
  edges : ∀ k, edgeItem k l = true → 3 ≤ l.nums.length
  energies : item 'e' 'E' l = true → l.nums ≠ []
  weights : item 'w' 'W' l = true → ∃ x, l.nums.head? = some x ∧ 0 ≤ x
  stresses : s.stress = true → item 's' 'S' l = true → 6 ≤ l.nums.length
  cboxes : s.contrib = true → ∀ k, cboxItem k l = true → 3 ≤ l.nums5.length
  spheres : s.contrib = true → contribItem 's' 'S' l = true → 4 ≤ l.nums5.length

def LinesOk (s : Settings K) (hs : List (Line K)) : Prop :=
  (∀ l ∈ hs, LineOk s l) ∧ (s.contrib = true → (hs.filter (cboxItem 0)).length ≤ 1)

/-- The header as determined by the last line of each kind. -/
def headerOf (s : Settings K) (hs : List (Line K)) : Header K where
  energy := ((lastOf (item 'e' 'E') hs).map fun l => l.nums.headD 0).getD 0
  weight := ((lastOf (item 'w' 'W') hs).map fun l => l.nums.headD 0).getD 1
  stress := ((lastOf (fun l => s.stress && item 's' 'S' l) hs).map fun l k => l.nums.getD k.1 0).getD 0
  haveEnergy := (lastOf (item 'e' 'E') hs).isSome
  haveStress := (lastOf (fun l => s.stress && item 's' 'S' l) hs).isSome
  edge := fun k => ((lastOf (edgeItem k) hs).map fun l => vecOf s l.nums).getD 0
  haveBox := fun k => (lastOf (edgeItem k) hs).isSome
  cbox := fun k => ((lastOf (fun l => s.contrib && cboxItem k l) hs).map fun l => vecOf s l.nums5).getD 0
  haveCbox := fun k => (lastOf (fun l => s.contrib && cboxItem k l) hs).isSome
  spheres := (hs.filter fun l => s.contrib && contribItem 's' 'S' l).map fun l => sphereOf s l.nums5

theorem headerOf_nil (s : Settings K) : headerOf s [] = emptyHeader := rfl

/-- The letter is the lower or the upper one. -/
def ch (lower upper c : Char) : Bool := c == lower || c == upper

def edgeCh : Fin 3 → Char → Bool := ![ch 'x' 'X', ch 'y' 'Y', ch 'z' 'Z']

theorem edgeItem_eq (j : Fin 3) (l : Line K) : edgeItem j l = edgeCh j l.c1 := by fin_cases j <;> rfl

theorem item_eq (a b : Char) (l : Line K) : item a b l = ch a b l.c1 := rfl

/-- What a letter of the header means. -/
theorem key_cases (s : Settings K) (c : Char) :
    (∃ k : Fin 3, key s c = .edge k ∧ (∀ j, edgeCh j c = decide (j = k)) ∧ ch 'e' 'E' c = false ∧ ch 'w' 'W' c = false ∧
      ch 's' 'S' c = false ∧ ch 'b' 'B' c = false) ∨
    (key s c = .contrib ∧ s.contrib = true ∧ (∀ j, edgeCh j c = false) ∧ ch 'e' 'E' c = false ∧ ch 'w' 'W' c = false ∧
      ch 's' 'S' c = false ∧ ch 'b' 'B' c = true) ∨
    (key s c = .energy ∧ (∀ j, edgeCh j c = false) ∧ ch 'e' 'E' c = true ∧ ch 'w' 'W' c = false ∧
      ch 's' 'S' c = false ∧ ch 'b' 'B' c = false) ∨
    (key s c = .weight ∧ (∀ j, edgeCh j c = false) ∧ ch 'e' 'E' c = false ∧ ch 'w' 'W' c = true ∧
      ch 's' 'S' c = false ∧ ch 'b' 'B' c = false) ∨
    (key s c = .stress ∧ s.stress = true ∧ (∀ j, edgeCh j c = false) ∧ ch 'e' 'E' c = false ∧ ch 'w' 'W' c = false ∧
      ch 's' 'S' c = true ∧ ch 'b' 'B' c = false) ∨
    ((key s c = .elements ∨ key s c = .forces ∨ key s c = .unknown) ∧ (∀ j, edgeCh j c = false) ∧
      ch 'e' 'E' c = false ∧ ch 'w' 'W' c = false ∧ (s.stress && ch 's' 'S' c) = false ∧
      (s.contrib && ch 'b' 'B' c) = false) := by
  by_cases h1 : c = 'x' ∨ c = 'X'
  · left
    refine ⟨0, by unfold key; rw [if_pos h1], ?_⟩
    rcases h1 with rfl | rfl <;> decide
  by_cases h2 : c = 'y' ∨ c = 'Y'
  · left
    refine ⟨1, by unfold key; rw [if_neg h1, if_pos h2], ?_⟩
    rcases h2 with rfl | rfl <;> decide
  by_cases h3 : c = 'z' ∨ c = 'Z'
  · left
    refine ⟨2, by unfold key; rw [if_neg h1, if_neg h2, if_pos h3], ?_⟩
    rcases h3 with rfl | rfl <;> decide
  right
  have he : ∀ j : Fin 3, edgeCh j c = false := by
    intro j
    rw [not_or] at h1 h2 h3
    fin_cases j
    · simp [edgeCh, ch, h1.1, h1.2]
    · simp [edgeCh, ch, h2.1, h2.2]
    · simp [edgeCh, ch, h3.1, h3.2]
  have hch : ∀ a b : Char, ch a b c = true ↔ (c = a ∨ c = b) := by
    intro a b
    simp [ch]
  have hchf : ∀ a b : Char, ¬ (c = a ∨ c = b) → ch a b c = false := by
    intro a b hab
    rw [← Bool.not_eq_true, hch]
    exact hab
  have dis : ∀ a b a' b' : Char, (c = a ∨ c = b) → a ≠ a' → a ≠ b' → b ≠ a' → b ≠ b' → ch a' b' c = false := by
    intro a b a' b' h e1 e2 e3 e4
    apply hchf
    rintro (rfl | rfl) <;> rcases h with rfl | rfl <;> contradiction
  unfold key
  rw [if_neg h1, if_neg h2, if_neg h3]
  by_cases h4 : s.contrib = true ∧ (c = 'b' ∨ c = 'B')
  · left
    rw [if_pos h4]
    exact ⟨rfl, h4.1, he, dis _ _ _ _ h4.2 (by decide) (by decide) (by decide) (by decide),
      dis _ _ _ _ h4.2 (by decide) (by decide) (by decide) (by decide),
      dis _ _ _ _ h4.2 (by decide) (by decide) (by decide) (by decide), (hch _ _).2 h4.2⟩
  right
  rw [if_neg h4]
  by_cases h5 : c = 'e' ∨ c = 'E'
  · left
    rw [if_pos h5]
    exact ⟨rfl, he, (hch _ _).2 h5, dis _ _ _ _ h5 (by decide) (by decide) (by decide) (by decide),
      dis _ _ _ _ h5 (by decide) (by decide) (by decide) (by decide),
      dis _ _ _ _ h5 (by decide) (by decide) (by decide) (by decide)⟩
  right
  rw [if_neg h5]
  by_cases h6 : c = 'w' ∨ c = 'W'
  · left
    rw [if_pos h6]
    exact ⟨rfl, he, hchf _ _ h5, (hch _ _).2 h6,
      dis _ _ _ _ h6 (by decide) (by decide) (by decide) (by decide),
      dis _ _ _ _ h6 (by decide) (by decide) (by decide) (by decide)⟩
  right
  rw [if_neg h6]
  have h4' : (s.contrib && ch 'b' 'B' c) = false := by
    rw [← Bool.not_eq_true, Bool.and_eq_true, hch]
    exact h4
  by_cases h7 : c = 'c' ∨ c = 'C'
  · right
    rw [if_pos h7]
    refine ⟨Or.inl rfl, he, hchf _ _ h5, hchf _ _ h6, ?_, h4'⟩
    rw [dis _ _ _ _ h7 (by decide) (by decide) (by decide) (by decide), Bool.and_false]
  rw [if_neg h7]
  by_cases h8 : s.stress = true ∧ (c = 's' ∨ c = 'S')
  · left
    rw [if_pos h8]
    exact ⟨rfl, h8.1, he, hchf _ _ h5, hchf _ _ h6, (hch _ _).2 h8.2,
      dis _ _ _ _ h8.2 (by decide) (by decide) (by decide) (by decide)⟩
  right
  rw [if_neg h8]
  have h8' : (s.stress && ch 's' 'S' c) = false := by
    rw [← Bool.not_eq_true, Bool.and_eq_true, hch]
    exact h8
  refine ⟨?_, he, hchf _ _ h5, hchf _ _ h6, h8', h4'⟩
  by_cases h9 : c = 'f' ∨ c = 'F'
  · rw [if_pos h9]; exact Or.inr (Or.inl rfl)
  · rw [if_neg h9]; exact Or.inr (Or.inr rfl)

def cboxCh : Fin 4 → Char → Bool := ![ch 'o' 'O', ch 'a' 'A', ch 'b' 'B', ch 'c' 'C']

theorem cboxItem_eq (j : Fin 4) (l : Line K) : cboxItem j l = (ch 'b' 'B' l.c1 && cboxCh j l.c3) := by fin_cases j <;> rfl

theorem contribItem_eq (a b : Char) (l : Line K) : contribItem a b l = (ch 'b' 'B' l.c1 && ch a b l.c3) := rfl

theorem part_cases (c : Char) :
    (∃ k : Fin 4, part c = .vec k ∧ (∀ j, cboxCh j c = decide (j = k)) ∧ ch 's' 'S' c = false) ∨
    (part c = .sphere ∧ (∀ j, cboxCh j c = false) ∧ ch 's' 'S' c = true) ∨
    (part c = .unknown ∧ (∀ j, cboxCh j c = false) ∧ ch 's' 'S' c = false) := by
  by_cases h1 : c = 'o' ∨ c = 'O'
  · left
    refine ⟨0, by unfold part; rw [if_pos h1], ?_⟩
    rcases h1 with rfl | rfl <;> decide
  by_cases h2 : c = 'a' ∨ c = 'A'
  · left
    refine ⟨1, by unfold part; rw [if_neg h1, if_pos h2], ?_⟩
    rcases h2 with rfl | rfl <;> decide
  by_cases h3 : c = 'b' ∨ c = 'B'
  · left
    refine ⟨2, by unfold part; rw [if_neg h1, if_neg h2, if_pos h3], ?_⟩
    rcases h3 with rfl | rfl <;> decide
  by_cases h4 : c = 'c' ∨ c = 'C'
  · left
    refine ⟨3, by unfold part; rw [if_neg h1, if_neg h2, if_neg h3, if_pos h4], ?_⟩
    rcases h4 with rfl | rfl <;> decide
  right
  by_cases h5 : c = 's' ∨ c = 'S'
  · left
    refine ⟨by unfold part; rw [if_neg h1, if_neg h2, if_neg h3, if_neg h4, if_pos h5], ?_⟩
    rcases h5 with rfl | rfl <;> decide
  right
  refine ⟨by unfold part; rw [if_neg h1, if_neg h2, if_neg h3, if_neg h4, if_neg h5], ?_, ?_⟩
  · intro j
    rw [not_or] at h1 h2 h3 h4
    fin_cases j
    · simp [cboxCh, ch, h1.1, h1.2]
    · simp [cboxCh, ch, h2.1, h2.2]
    · simp [cboxCh, ch, h3.1, h3.2]
    · simp [cboxCh, ch, h4.1, h4.2]
  · rw [not_or] at h5
    simp [ch, h5.1, h5.2]

/-- One more line. -/
theorem headerOf_snoc (s : Settings K) (hs : List (Line K)) (l : Line K) :
    headerOf s (hs ++ [l]) =
      { energy := if ch 'e' 'E' l.c1 = true then l.nums.headD 0 else (headerOf s hs).energy
        weight := if ch 'w' 'W' l.c1 = true then l.nums.headD 0 else (headerOf s hs).weight
        stress := if (s.stress && ch 's' 'S' l.c1) = true then fun k => l.nums.getD k.1 0 else (headerOf s hs).stress
        haveEnergy := if ch 'e' 'E' l.c1 = true then true else (headerOf s hs).haveEnergy
        haveStress := if (s.stress && ch 's' 'S' l.c1) = true then true else (headerOf s hs).haveStress
        edge := fun k => if edgeCh k l.c1 = true then vecOf s l.nums else (headerOf s hs).edge k
        haveBox := fun k => if edgeCh k l.c1 = true then true else (headerOf s hs).haveBox k
        cbox := fun k => if (s.contrib && (ch 'b' 'B' l.c1 && cboxCh k l.c3)) = true then vecOf s l.nums5 else (headerOf s hs).cbox k
        haveCbox := fun k => if (s.contrib && (ch 'b' 'B' l.c1 && cboxCh k l.c3)) = true then true else (headerOf s hs).haveCbox k
        spheres := (headerOf s hs).spheres ++
          if (s.contrib && (ch 'b' 'B' l.c1 && ch 's' 'S' l.c3)) = true then [sphereOf s l.nums5] else [] } := by
  unfold headerOf
  simp only [lastOf_snoc, item_eq, edgeItem_eq, cboxItem_eq, contribItem_eq, List.filter_append, List.map_append]
  congr 1
  · split_ifs with h <;> simp [h]
  · split_ifs with h <;> simp [h]
  · split_ifs with h <;> simp [h]
  · split_ifs with h <;> simp [h]
  · split_ifs with h <;> simp [h]
  · funext k; split_ifs with h <;> simp [h]
  · funext k; split_ifs with h <;> simp [h]
  · funext k; split_ifs with h <;> simp [h]
  · funext k; split_ifs with h <;> simp [h]
  · congr 1
    by_cases h : (s.contrib && (ch 'b' 'B' l.c1 && ch 's' 'S' l.c3)) = true
    · simp [h]
    · simp [h]

theorem lineOk_iff (s : Settings K) (l : Line K) : LineOk s l ↔
    (∀ k, edgeCh k l.c1 = true → 3 ≤ l.nums.length) ∧ (ch 'e' 'E' l.c1 = true → l.nums ≠ []) ∧
    (ch 'w' 'W' l.c1 = true → ∃ x, l.nums.head? = some x ∧ 0 ≤ x) ∧
    ((s.stress && ch 's' 'S' l.c1) = true → 6 ≤ l.nums.length) ∧
    (∀ k, (s.contrib && (ch 'b' 'B' l.c1 && cboxCh k l.c3)) = true → 3 ≤ l.nums5.length) ∧
    ((s.contrib && (ch 'b' 'B' l.c1 && ch 's' 'S' l.c3)) = true → 4 ≤ l.nums5.length) := by
  constructor
  · rintro ⟨h1, h2, h3, h4, h5, h6⟩
    refine ⟨fun k hk => h1 k (by rw [edgeItem_eq]; exact hk), h2, h3, ?_, ?_, ?_⟩
    · intro h
      rw [Bool.and_eq_true] at h
      exact h4 h.1 h.2
    · intro k h
      rw [Bool.and_eq_true] at h
      exact h5 h.1 k (by rw [cboxItem_eq]; exact h.2)
    · intro h
      rw [Bool.and_eq_true] at h
      exact h6 h.1 h.2
  · rintro ⟨h1, h2, h3, h4, h5, h6⟩
    refine ⟨fun k hk => h1 k (by rw [← edgeItem_eq]; exact hk), h2, h3, ?_, ?_, ?_⟩
    · intro ha hb
      exact h4 (by rw [Bool.and_eq_true]; exact ⟨ha, hb⟩)
    · intro ha k hb
      exact h5 k (by rw [Bool.and_eq_true, ← cboxItem_eq]; exact ⟨ha, hb⟩)
    · intro ha hb
      exact h6 (by rw [Bool.and_eq_true, ← contribItem_eq]; exact ⟨ha, hb⟩)

theorem linesOk_snoc (s : Settings K) (hs : List (Line K)) (l : Line K) : LinesOk s (hs ++ [l]) ↔
    LinesOk s hs ∧ LineOk s l ∧
      ((s.contrib && (ch 'b' 'B' l.c1 && cboxCh 0 l.c3)) = true → (headerOf s hs).haveCbox 0 = false) := by
  have hh : (s.contrib = true → ((headerOf s hs).haveCbox 0 = false ↔ (hs.filter (cboxItem 0)).length = 0)) := by
    intro hc
    simp only [headerOf, hc, Bool.true_and, Option.isSome_eq_false_iff, Option.isNone_iff_eq_none, lastOf_none,
      List.length_eq_zero_iff, List.filter_eq_nil_iff, Bool.not_eq_true]
  unfold LinesOk
  rw [List.filter_append, List.length_append]
  by_cases hc : s.contrib = true
  · have hf : (List.filter (cboxItem 0) [l]).length = if (ch 'b' 'B' l.c1 && cboxCh 0 l.c3) = true then 1 else 0 := by
      rw [List.filter_cons, cboxItem_eq]
      split_ifs <;> rfl
    simp only [hf, hc, Bool.true_and, forall_const, List.mem_append, List.mem_singleton, or_imp, forall_and, forall_eq,
      hh hc]
    by_cases hb : (ch 'b' 'B' l.c1 && cboxCh 0 l.c3) = true
    · simp only [hb, if_true, forall_const]
      constructor
      · rintro ⟨⟨h1, h2⟩, h3⟩
        exact ⟨⟨h1, by omega⟩, h2, by omega⟩
      · rintro ⟨⟨h1, h3⟩, h2, h4⟩
        exact ⟨⟨h1, h2⟩, by omega⟩
    · simp only [hb, Bool.false_eq_true, if_false, false_imp_iff, and_true, add_zero]
      constructor
      · rintro ⟨⟨h1, h2⟩, h3⟩
        exact ⟨⟨h1, h3⟩, h2⟩
      · rintro ⟨⟨h1, h3⟩, h2⟩
        exact ⟨⟨h1, h2⟩, h3⟩
  · simp only [hc, false_imp_iff, Bool.false_and, and_true, List.mem_append, List.mem_singleton, or_imp, forall_and, forall_eq]
    simp

theorem head_cases (nums : List K) : nums = [] ∨ ∃ x r, nums = x :: r := by
  cases nums with
  | nil => exact Or.inl rfl
  | cons x r => exact Or.inr ⟨x, r, rfl⟩

theorem six_cases (nums : List K) : nums.length < 6 ∨ ∃ a b c d e f r, nums = a :: b :: c :: d :: e :: f :: r := by
  match nums with
  | [] => simp
  | [_] => simp
  | [_, _] => simp
  | [_, _, _] => simp
  | [_, _, _, _] => simp
  | [_, _, _, _, _] => simp
  | a :: b :: c :: d :: e :: f :: r => exact Or.inr ⟨a, b, c, d, e, f, r, rfl⟩

theorem update_fin {n : Nat} {α : Type} (g : Fin n → α) (k : Fin n) (v : α) :
    Function.update g k v = fun j => if decide (j = k) = true then v else g j := by
  funext j
  by_cases h : j = k
  · subst h; simp
  · simp [h]

/-- The switch does what the table of the header says. -/
theorem headerLine_eq (s : Settings K) (hs : List (Line K)) (l : Line K) :
    (LineOk s l ∧ ((s.contrib && (ch 'b' 'B' l.c1 && cboxCh 0 l.c3)) = true → (headerOf s hs).haveCbox 0 = false) →
      headerLine s (headerOf s hs) l = .ok (headerOf s (hs ++ [l]))) ∧
    (¬ (LineOk s l ∧ ((s.contrib && (ch 'b' 'B' l.c1 && cboxCh 0 l.c3)) = true → (headerOf s hs).haveCbox 0 = false)) →
      ∃ e, headerLine s (headerOf s hs) l = .error e) := by
  rw [headerOf_snoc, lineOk_iff]
  generalize headerOf s hs = h
  rcases key_cases s l.c1 with ⟨k, hk, h1, h2, h3, h4, h5⟩ | ⟨hk, hc, h1, h2, h3, h4, h5⟩ | ⟨hk, h1, h2, h3, h4, h5⟩ |
    ⟨hk, h1, h2, h3, h4, h5⟩ | ⟨hk, hc, h1, h2, h3, h4, h5⟩ | ⟨hk, h1, h2, h3, h4, h5⟩
  · simp only [headerLine, hk, h1, h2, h3, h4, h5, readBoxVector_eq, Bool.and_false, Bool.false_and, Bool.false_eq_true,
      false_imp_iff, implies_true, and_true, if_false, List.append_nil, update_fin]
    by_cases hl : 3 ≤ l.nums.length
    · simp [hl]
    · simp [hl]
  · simp only [headerLine, hk, h1, h2, h3, h4, h5, hc, Bool.and_false, Bool.false_and, Bool.true_and, Bool.false_eq_true,
      false_imp_iff, implies_true, and_true, true_and, if_false, contribLine]
    rcases part_cases l.c3 with ⟨k, hp, p1, p2⟩ | ⟨hp, p1, p2⟩ | ⟨hp, p1, p2⟩
    · simp only [hp, p1, p2, readBoxVector_eq, Bool.false_eq_true, false_imp_iff, and_true, if_false, List.append_nil, update_fin]
      by_cases hd : k = 0 ∧ h.haveCbox 0 = true
      · obtain ⟨rfl, hd⟩ := hd
        simp [hd]
      · rw [if_neg hd]
        have hd' : (decide ((0 : Fin 4) = k) = true → h.haveCbox 0 = false) := by
          intro hk0
          have : (0 : Fin 4) = k := by simpa using hk0
          by_contra hcon
          exact hd ⟨this.symm, by simpa using hcon⟩
        by_cases hl : 3 ≤ l.nums5.length
        · rw [if_pos hl]
          exact ⟨fun _ => rfl, fun hh => absurd ⟨fun _ _ => hl, hd'⟩ hh⟩
        · simp only [hl, if_false]
          refine ⟨fun hh => absurd (hh.1 k (by simp)) id, fun _ => ⟨_, rfl⟩⟩
    · simp only [hp, p1, p2, readSphere_eq, Bool.false_eq_true, false_imp_iff, implies_true, if_false, true_and, and_true, if_true,
        forall_const]
      by_cases hl : 4 ≤ l.nums5.length
      · simp [hl]
      · simp [hl]
    · simp [hp, p1, p2]
  · simp only [headerLine, hk, h1, h2, h3, h4, h5, Bool.and_false, Bool.false_and, Bool.false_eq_true,
      false_imp_iff, implies_true, and_true, true_and, if_false, if_true, List.append_nil, forall_const]
    rcases head_cases l.nums with hl | ⟨x, r, hl⟩
    · simp [hl]
    · simp [hl]
  · simp only [headerLine, hk, h1, h2, h3, h4, h5, Bool.and_false, Bool.false_and, Bool.false_eq_true,
      false_imp_iff, implies_true, and_true, true_and, if_false, if_true, List.append_nil, forall_const]
    rcases head_cases l.nums with hl | ⟨x, r, hl⟩
    · simp [hl]
    · by_cases hx : x < 0
      · simp [hl, hx]
      · simp [hl, hx, not_lt.1 hx]
  · simp only [headerLine, hk, h1, h2, h3, h4, h5, hc, Bool.and_false, Bool.false_and, Bool.true_and, Bool.false_eq_true,
      false_imp_iff, implies_true, and_true, true_and, if_false, if_true, List.append_nil, forall_const]
    rcases six_cases l.nums with hl | ⟨a, b, c, d, e, f, r, hl⟩
    · refine ⟨fun hh => absurd hh (by omega), fun _ => ?_⟩
      match hn : l.nums with
      | [] => exact ⟨_, rfl⟩
      | [_] => exact ⟨_, rfl⟩
      | [_, _] => exact ⟨_, rfl⟩
      | [_, _, _] => exact ⟨_, rfl⟩
      | [_, _, _, _] => exact ⟨_, rfl⟩
      | [_, _, _, _, _] => exact ⟨_, rfl⟩
      | _ :: _ :: _ :: _ :: _ :: _ :: _ => rw [hn] at hl; simp at hl; omega
    · simp only [hl, List.length_cons]
      refine ⟨fun _ => ?_, fun hh => absurd (by omega) hh⟩
      congr 2
      funext k
      fin_cases k <;> rfl
  · have h5' : ∀ b : Bool, (s.contrib && (ch 'b' 'B' l.c1 && b)) = false := by
      intro b
      rw [← Bool.and_assoc, h5, Bool.false_and]
    simp only [h1, h2, h3, h4, h5', Bool.false_eq_true, false_imp_iff, implies_true, and_true, if_false,
      List.append_nil, not_true_eq_false, forall_const]
    rcases hk with hk | hk | hk <;> simp only [headerLine, hk]

theorem runLines_cases (s : Settings K) (hs : List (Line K)) :
    (LinesOk s hs → runLines s emptyHeader hs = .ok (headerOf s hs)) ∧
    (¬ LinesOk s hs → ∃ e, runLines s emptyHeader hs = .error e) := by
  induction hs using List.reverseRecOn with
  | nil => exact ⟨fun _ => rfl, fun h => absurd ⟨by simp, by simp⟩ h⟩
  | append_singleton hs l ih =>
    rw [linesOk_snoc, runLines_snoc]
    by_cases h : LinesOk s hs
    · rw [ih.1 h]
      simp only [h, true_and]
      exact headerLine_eq s hs l
    · obtain ⟨e, he⟩ := ih.2 h
      rw [he]
      exact ⟨fun hh => absurd hh.1 h, fun _ => ⟨e, rfl⟩⟩

theorem runLines_iff (s : Settings K) (hs : List (Line K)) (h : Header K) :
    runLines s emptyHeader hs = .ok h ↔ LinesOk s hs ∧ h = headerOf s hs := by
  by_cases hl : LinesOk s hs
  · rw [(runLines_cases s hs).1 hl]
    constructor
    · intro e
      exact ⟨hl, (Except.ok.inj e).symm⟩
    · rintro ⟨-, rfl⟩
      rfl
  · obtain ⟨e, he⟩ := (runLines_cases s hs).2 hl
    rw [he]
    constructor
    · intro hh
      cases hh
    · intro hh
      exact absurd hh.1 hl

theorem volume_eq (edge : Fin 3 → V3 K) :
    Neighbors.sprod (edge 0) (Neighbors.vecProd (edge 1) (edge 2)) = Matrix.det (Matrix.of edge) := by
  rw [Matrix.det_fin_three]
  simp only [Matrix.of_apply, Neighbors.sprod, Neighbors.vecProd, Matrix.cons_val_zero, Matrix.cons_val_one, Matrix.cons_val]
  ring

theorem checkHeader_iff (s : Settings K) (h : Header K) (v : K) : checkHeader s h = .ok v ↔
    h.haveEnergy = true ∧ (∀ k, h.haveBox k = true) ∧
    (s.contrib = true → (∀ k, h.haveCbox k = false) ∨ ∀ k, h.haveCbox k = true) ∧
    v = Matrix.det (Matrix.of h.edge) ∧ v ≠ 0 := by
  unfold checkHeader
  by_cases h1 : h.haveEnergy = false
  · simp [h1]
  rw [if_neg h1]
  by_cases h2 : ∀ k, h.haveBox k = true
  swap
  · rw [if_pos h2]
    simp only [reduceCtorEq, false_iff]
    exact fun hh => h2 hh.2.1
  rw [if_neg (not_not.2 h2)]
  by_cases h3 : s.contrib = true ∧ (∃ k, h.haveCbox k = true) ∧ ¬ ∀ k, h.haveCbox k = true
  · rw [if_pos h3]
    simp only [reduceCtorEq, false_iff]
    rintro ⟨-, -, hh, -⟩
    obtain ⟨hc, ⟨k, hk⟩, hn⟩ := h3
    rcases hh hc with hh | hh
    · rw [hh k] at hk; cases hk
    · exact hn hh
  rw [if_neg h3]
  have h3' : s.contrib = true → (∀ k, h.haveCbox k = false) ∨ ∀ k, h.haveCbox k = true := by
    intro hc
    by_contra hcon
    rw [not_or] at hcon
    apply h3
    refine ⟨hc, ?_, hcon.2⟩
    by_contra hne
    exact hcon.1 fun k => by
      by_contra hk
      exact hne ⟨k, by simpa using hk⟩
  simp only [Neighbors.makeBox, volume_eq]
  by_cases h4 : (0 : K) = Matrix.det (Matrix.of h.edge)
  · simp only [if_pos h4, reduceCtorEq, false_iff]
    rintro ⟨-, -, -, rfl, hv⟩
    exact hv h4.symm
  · simp only [if_neg h4, Except.ok.injEq]
    constructor
    · rintro rfl
      exact ⟨by simpa using h1, h2, h3', rfl, fun hh => h4 hh.symm⟩
    · rintro ⟨-, -, -, rfl, -⟩
      rfl

/-! The fields of the header in terms of the lines -/

section fields

variable (s : Settings K) (hs : List (Line K)) (ok : LinesOk s hs)
include ok

theorem energy_iff (x : K) : (∃ l, lastOf (item 'e' 'E') hs = some l ∧ l.nums.head? = some x) ↔
    (headerOf s hs).haveEnergy = true ∧ x = (headerOf s hs).energy := by
  simp only [headerOf]
  cases hl : lastOf (item 'e' 'E') hs with
  | none => simp
  | some l =>
    obtain ⟨hm, hp⟩ := lastOf_some hl
    have := (ok.1 l hm).energies hp
    rcases head_cases l.nums with h | ⟨y, r, h⟩
    · exact absurd h this
    · simp [h, eq_comm]

theorem weight_iff (x : K) : (match lastOf (item 'w' 'W') hs with
      | some l => l.nums.head? = some x
      | none => x = 1) ↔ x = (headerOf s hs).weight := by
  simp only [headerOf]
  cases hl : lastOf (item 'w' 'W') hs with
  | none => simp
  | some l =>
    obtain ⟨hm, hp⟩ := lastOf_some hl
    obtain ⟨y, hy, -⟩ := (ok.1 l hm).weights hp
    rcases head_cases l.nums with h | ⟨y, r, h⟩
    · simp [h] at hy
    · simp [h, eq_comm]

theorem stress_iff (us : Bool) (st : Fin 6 → K) :
    (match if s.stress then lastOf (item 's' 'S') hs else none with
      | some l => us = true ∧ ∀ k : Fin 6, l.nums[k.1]? = some (st k)
      | none => us = false ∧ st = 0) ↔ us = (headerOf s hs).haveStress ∧ st = (headerOf s hs).stress := by
  simp only [headerOf]
  by_cases hb : s.stress = true
  · simp only [hb, if_true, Bool.true_and]
    have e : lastOf (fun l : Line K => item 's' 'S' l) hs = lastOf (item 's' 'S') hs := rfl
    rw [e]
    cases hl : lastOf (item 's' 'S') hs with
    | none => simp
    | some l =>
      obtain ⟨hm, hp⟩ := lastOf_some hl
      have h6 := (ok.1 l hm).stresses hb hp
      simp only [Option.isSome_some, Option.map_some, Option.getD_some]
      refine and_congr_right fun _ => ?_
      constructor
      · intro hh
        funext k
        rw [List.getD_eq_getElem?_getD, hh k, Option.getD_some]
      · rintro rfl k
        show _ = some (l.nums.getD k.1 0)
        rw [List.getD_eq_getElem?_getD, List.getElem?_eq_getElem (by omega), Option.getD_some]
  · simp only [hb, if_false, Bool.false_and, Bool.false_eq_true]
    have e : lastOf (fun _ : Line K => false) hs = none := lastOf_none.2 fun _ _ => rfl
    rw [e]
    simp

theorem edge_iff (ed : Fin 3 → V3 K) : (∀ k, ∃ l, lastOf (edgeItem k) hs = some l ∧ IsVec s l.nums (ed k)) ↔
    (∀ k, (headerOf s hs).haveBox k = true) ∧ ed = (headerOf s hs).edge := by
  simp only [headerOf]
  constructor
  · intro hh
    refine ⟨fun k => ?_, ?_⟩
    · obtain ⟨l, hl, -⟩ := hh k
      rw [hl]; rfl
    · funext k
      obtain ⟨l, hl, -, hv⟩ := hh k
      rw [hl]
      funext j
      exact hv j
  · rintro ⟨h1, rfl⟩ k
    obtain ⟨l, hl⟩ := Option.isSome_iff_exists.1 (h1 k)
    obtain ⟨hm, hp⟩ := lastOf_some hl
    refine ⟨l, hl, (ok.1 l hm).edges k hp, fun j => ?_⟩
    show (Option.map (fun l => vecOf s l.nums) (lastOf (edgeItem k) hs)).getD 0 j = _
    rw [hl]
    rfl

theorem spheres_iff (sp : List (V3 K × K)) : List.Forall₂ (fun l p => IsSphere s l.nums5 p)
    (if s.contrib then hs.filter (contribItem 's' 'S') else []) sp ↔ sp = (headerOf s hs).spheres := by
  simp only [headerOf]
  by_cases hc : s.contrib = true
  · simp only [hc, if_true, Bool.true_and]
    have h4 : ∀ l ∈ hs.filter (contribItem 's' 'S'), 4 ≤ l.nums5.length := by
      intro l hl
      obtain ⟨hm, hp⟩ := List.mem_filter.1 hl
      exact (ok.1 l hm).spheres hc hp
    generalize hf : hs.filter (contribItem 's' 'S') = ls at h4
    clear hf
    induction ls generalizing sp with
    | nil => simp
    | cons l ls ih =>
      rw [List.forall₂_cons_left_iff, List.map_cons]
      constructor
      · rintro ⟨p, sp', ⟨-, h1, h2⟩, h3, rfl⟩
        rw [(ih sp' fun x hx => h4 x (List.mem_cons_of_mem _ hx)).1 h3]
        congr 1
        refine Prod.ext ?_ h2
        funext k
        exact h1 k
      · rintro rfl
        exact ⟨_, _, ⟨h4 l (by simp), fun k => rfl, rfl⟩,
          (ih _ fun x hx => h4 x (List.mem_cons_of_mem _ hx)).2 rfl, rfl⟩
  · simp [hc]

theorem cbox_iff (cb : Option (Fin 4 → V3 K)) :
    (match if s.contrib then cb else none with
      | some v => ∀ k, ∃ l, lastOf (cboxItem k) hs = some l ∧ IsVec s l.nums5 (v k)
      | none => cb = none ∧ (s.contrib = true → ∀ k, lastOf (cboxItem k) hs = none)) ↔
    (s.contrib = true → (∀ k, (headerOf s hs).haveCbox k = false) ∨ ∀ k, (headerOf s hs).haveCbox k = true) ∧
      cb = if (headerOf s hs).haveCbox 0 = true then some (headerOf s hs).cbox else none := by
  simp only [headerOf]
  by_cases hc : s.contrib = true
  · simp only [hc, if_true, Bool.true_and, forall_const]
    have e : ∀ k, lastOf (fun l : Line K => cboxItem k l) hs = lastOf (cboxItem k) hs := fun _ => rfl
    simp only [e]
    cases cb with
    | none =>
      simp only [true_and, Option.isSome_eq_false_iff, Option.isNone_iff_eq_none]
      constructor
      · intro hh
        exact ⟨Or.inl hh, by simp [hh 0]⟩
      · rintro ⟨h1 | h1, h2⟩
        · exact h1
        · rw [if_pos (h1 0)] at h2
          cases h2
    | some v =>
      simp only
      constructor
      · intro hh
        have hall : ∀ k, (lastOf (cboxItem k) hs).isSome = true := by
          intro k
          obtain ⟨l, hl, -⟩ := hh k
          rw [hl]; rfl
        refine ⟨Or.inr hall, ?_⟩
        rw [if_pos (hall 0)]
        congr 1
        funext k
        obtain ⟨l, hl, -, hv⟩ := hh k
        rw [hl]
        funext j
        exact hv j
      · rintro ⟨h1, h2⟩ k
        have h0 : (lastOf (cboxItem 0) hs).isSome = true := by
          by_contra hn
          rw [if_neg hn] at h2
          cases h2
        have hall : ∀ k, (lastOf (cboxItem k) hs).isSome = true := by
          rcases h1 with h1 | h1
          · rw [h1 0] at h0; cases h0
          · exact h1
        rw [if_pos h0] at h2
        obtain ⟨l, hl⟩ := Option.isSome_iff_exists.1 (hall k)
        obtain ⟨hm, hp⟩ := lastOf_some hl
        refine ⟨l, hl, (ok.1 l hm).cboxes hc k hp, fun j => ?_⟩
        rw [Option.some.inj h2]
        show (Option.map (fun l => vecOf s l.nums5) (lastOf (cboxItem k) hs)).getD 0 j = _
        rw [hl]
        rfl
  · have e : ∀ k, lastOf (fun l : Line K => s.contrib && cboxItem k l) hs = none :=
      fun k => lastOf_none.2 fun _ _ => by simp [hc]
    simp only [e]
    simp [hc]

end fields

theorem readConf_ok (s : Settings K) (l : Line K) (ls rest : List (Line K)) (c : Config K) :
    readConf s l ls = .ok (c, rest) ↔ ∃ n uf r h rest1 v as, l.ints = n :: uf :: r ∧ minAtoms s ≤ n ∧
      readHeader s emptyHeader ls = .ok (h, rest1) ∧ checkHeader s h = .ok v ∧ readAtoms s n.toNat rest1 = .ok (as, rest) ∧
      c = { useForce := uf ≠ 0, energy := h.energy, weight := h.weight, useStress := h.haveStress, stress := h.stress,
            edge := h.edge, volume := v, cbox := if h.haveCbox 0 = true then some h.cbox else none, spheres := h.spheres,
            atoms := as } := by
  unfold readConf
  constructor
  · intro hh
    split at hh
    · rename_i n uf r hi
      by_cases hn : n < minAtoms s
      · rw [if_pos hn] at hh; cases hh
      rw [if_neg hn] at hh
      split at hh
      · cases hh
      rename_i h rest1 h1
      split at hh
      · cases hh
      rename_i v h2
      split at hh
      · cases hh
      rename_i as rest' h3
      simp only [Except.ok.injEq, Prod.mk.injEq] at hh
      obtain ⟨rfl, rfl⟩ := hh
      exact ⟨n, uf, r, h, rest1, v, as, hi, not_lt.1 hn, h1, h2, h3, rfl⟩
    · cases hh
  · rintro ⟨n, uf, r, h, rest1, v, as, hi, hn, h1, h2, h3, rfl⟩
    simp only [hi, if_neg (not_lt.2 hn), h1, h2, h3]

theorem minAtoms_eq (s : Settings K) : minAtoms s = ((if s.threebody then 3 else 2 : Nat) : Int) := by
  unfold minAtoms
  by_cases h : s.threebody = true <;> simp [h]

theorem readConf_iff (s : Settings K) (before : List (Line K)) (l : Line K) (ls rest : List (Line K)) (c : Config K)
    (hb : ∀ x ∈ before, ¬ (x.c0 = '#' ∧ x.c1 = 'N')) (hl : l.c0 = '#' ∧ l.c1 = 'N') :
    readConf s l ls = .ok (c, rest) ↔ ∃ g : Piece K, g.before = before ∧ g.count = l ∧
      ls = g.header ++ g.last :: (g.table ++ rest) ∧ NotBlank rest ∧ WellFormed s g ∧ Describes s g c := by
  rw [readConf_ok]
  constructor
  · rintro ⟨n, uf, r, h, rest1, v, as, hi, hn, h1, h2, h3, rfl⟩
    obtain ⟨hs, last, e1, e2, e3, e4⟩ := (readHeader_iff s emptyHeader h ls rest1).1 h1
    obtain ⟨ok, rfl⟩ := (runLines_iff s hs h).1 e4
    obtain ⟨c1, c2, c3, c4, c5⟩ := (checkHeader_iff s _ v).1 h2
    have hn2 : 2 ≤ n := by
      rw [minAtoms_eq] at hn
      split_ifs at hn <;> omega
    obtain ⟨m, hm⟩ : ∃ m, n.toNat = m + 1 := ⟨n.toNat - 1, by omega⟩
    rw [hm, readAtoms_skip, ← hm, readAtoms_iff] at h3
    obtain ⟨a1, a2, table, a3, a4⟩ := h3
    refine ⟨⟨before, l, hs, last, table⟩, rfl, rfl, by rw [e1, a3], a2, ?_, ?_⟩
    · exact
        { before := hb, count := hl, header := e2, last := e3
          edges := fun l hl k => (ok.1 l hl).edges k
          energies := fun l hl => (ok.1 l hl).energies
          weights := fun l hl => (ok.1 l hl).weights
          stresses := fun h l hl => (ok.1 l hl).stresses h
          cboxes := fun h l hl => (ok.1 l hl).cboxes h
          origin := ok.2
          spheres := fun h l hl => (ok.1 l hl).spheres h }
    · exact
        { count := ⟨uf, r, by rw [hi, a1]; congr 1; omega, by simp⟩
          enough := by
            rw [minAtoms_eq] at hn
            show _ ≤ as.length
            rw [a1]
            omega
          energy := (energy_iff s hs ok _).2 ⟨c1, rfl⟩
          weight := (weight_iff s hs ok _).2 rfl
          stress := (stress_iff s hs ok _ _).2 ⟨rfl, rfl⟩
          edge := (edge_iff s hs ok _).2 ⟨c2, rfl⟩
          volume := c4
          solid := c5
          cbox := (cbox_iff s hs ok _).2 ⟨c3, rfl⟩
          spheres := (spheres_iff s hs ok _).2 rfl
          atoms := a4 }
  · rintro ⟨g, rfl, rfl, e1, e2, w, d⟩
    have ok : LinesOk s g.header := ⟨fun l hl =>
      { edges := fun k => w.edges l hl k
        energies := w.energies l hl
        weights := w.weights l hl
        stresses := fun h => w.stresses h l hl
        cboxes := fun h => w.cboxes h l hl
        spheres := fun h => w.spheres h l hl }, w.origin⟩
    obtain ⟨uf, r, d1, d2⟩ := d.count
    obtain ⟨f1, f2⟩ := (energy_iff s g.header ok _).1 d.energy
    have f3 := (weight_iff s g.header ok _).1 d.weight
    obtain ⟨f4, f5⟩ := (stress_iff s g.header ok _ _).1 d.stress
    obtain ⟨f6, f7⟩ := (edge_iff s g.header ok _).1 d.edge
    obtain ⟨f8, f9⟩ := (cbox_iff s g.header ok _).1 d.cbox
    have f10 := (spheres_iff s g.header ok _).1 d.spheres
    have den := d.enough
    refine ⟨c.atoms.length, uf, r, headerOf s g.header, g.table ++ rest, c.volume, c.atoms, d1, ?_, ?_, ?_, ?_, ?_⟩
    · rw [minAtoms_eq]
      exact_mod_cast den
    · exact (readHeader_iff s _ _ _ _).2 ⟨g.header, g.last, e1, w.header, w.last, (runLines_iff s _ _).2 ⟨ok, rfl⟩⟩
    · exact (checkHeader_iff s _ _).2 ⟨f1, f6, f8, by rw [d.volume, f7], d.solid⟩
    · obtain ⟨m, hm⟩ : ∃ m, c.atoms.length = m + 1 := ⟨c.atoms.length - 1, by split_ifs at den <;> omega⟩
      rw [Int.toNat_natCast, hm, readAtoms_skip, ← hm, readAtoms_iff]
      exact ⟨rfl, e2, g.table, rfl, d.atoms⟩
    · cases c with
      | mk a b cw d' e f g' h i j =>
        simp only at f2 f3 f4 f5 f7 f9 f10 d2
        subst f2 f3 f4 f5 f7 f10
        rw [← f9]
        congr 1
        by_cases hu : uf = 0
        · simp only [hu, ne_eq, not_true_eq_false, iff_false, decide_false] at d2 ⊢
          simpa using d2
        · simp only [hu, ne_eq, not_false_eq_true, iff_true, decide_true] at d2 ⊢
          exact d2

/-! Pieces -/

/-- The lines are those of pieces which describe the configurations. -/
def Cut (s : Settings K) (ls : List (Line K)) (cs : List (Config K)) : Prop :=
  ∃ gs : List (Piece K), gs ≠ [] ∧ ls = gs.flatMap Piece.lines ∧ (∀ g ∈ gs, WellFormed s g) ∧
    (∀ g ∈ gs.tail, NotBlank g.lines) ∧ List.Forall₂ (Describes s) gs cs

theorem isCount_iff (l : Line K) : isCount l = true ↔ l.c0 = '#' ∧ l.c1 = 'N' := by
  simp [isCount]

theorem cut_nil (s : Settings K) (cs : List (Config K)) : ¬ Cut s [] cs := by
  rintro ⟨gs, h1, h2, -⟩
  cases gs with
  | nil => exact h1 rfl
  | cons g gs => simp [Piece.lines] at h2

theorem cut_junk (s : Settings K) (l : Line K) (hl : ¬ (l.c0 = '#' ∧ l.c1 = 'N')) (rest : List (Line K)) (cs : List (Config K)) :
    Cut s (l :: rest) cs ↔ Cut s rest cs := by
  constructor
  · rintro ⟨gs, h1, h2, h3, h4, h5⟩
    cases gs with
    | nil => exact absurd rfl h1
    | cons g gs =>
      have wg := h3 g (by simp)
      cases hb : g.before with
      | nil =>
        rw [List.flatMap_cons, Piece.lines, hb, List.nil_append, List.cons_append] at h2
        exact absurd (by rw [(List.cons.inj h2).1]; exact wg.count) hl
      | cons x b =>
        rw [List.flatMap_cons, Piece.lines, hb, List.cons_append, List.cons_append] at h2
        obtain ⟨rfl, h2'⟩ := List.cons.inj h2
        rw [List.forall₂_cons_left_iff] at h5
        obtain ⟨c, cs', d, h5, rfl⟩ := h5
        refine ⟨{ g with before := b } :: gs, by simp, ?_, ?_, h4, ?_⟩
        · rw [h2']
          simp [Piece.lines, List.flatMap_cons]
        · intro g' hg'
          rcases List.mem_cons.1 hg' with rfl | hg'
          · exact { wg with before := fun y hy => wg.before y (by rw [hb]; exact List.mem_cons_of_mem _ hy) }
          · exact h3 g' (List.mem_cons_of_mem _ hg')
        · exact List.Forall₂.cons { d with } h5
  · rintro ⟨gs, h1, h2, h3, h4, h5⟩
    cases gs with
    | nil => exact absurd rfl h1
    | cons g gs =>
      have wg := h3 g (by simp)
      rw [List.forall₂_cons_left_iff] at h5
      obtain ⟨c, cs', d, h5, rfl⟩ := h5
      refine ⟨{ g with before := l :: g.before } :: gs, by simp, ?_, ?_, h4, ?_⟩
      · rw [h2]
        simp [Piece.lines, List.flatMap_cons]
      · intro g' hg'
        rcases List.mem_cons.1 hg' with rfl | hg'
        · refine { wg with before := fun y hy => ?_ }
          rcases List.mem_cons.1 hy with rfl | hy
          · exact hl
          · exact wg.before y hy
        · exact h3 g' (List.mem_cons_of_mem _ hg')
      · exact List.Forall₂.cons { d with } h5

theorem cut_count (s : Settings K) (l : Line K) (hl : l.c0 = '#' ∧ l.c1 = 'N') (ls : List (Line K)) (cs : List (Config K)) :
    Cut s (l :: ls) cs ↔ ∃ c rest, readConf s l ls = .ok (c, rest) ∧
      ((rest = [] ∧ cs = [c]) ∨ ∃ cs', cs = c :: cs' ∧ Cut s rest cs') := by
  constructor
  · rintro ⟨gs, h1, h2, h3, h4, h5⟩
    cases gs with
    | nil => exact absurd rfl h1
    | cons g gs =>
      have wg := h3 g (by simp)
      rw [List.forall₂_cons_left_iff] at h5
      obtain ⟨c, cs', d, h5, rfl⟩ := h5
      cases hb : g.before with
      | cons x b =>
        rw [List.flatMap_cons, Piece.lines, hb, List.cons_append, List.cons_append] at h2
        obtain ⟨rfl, h2⟩ := List.cons.inj h2
        exact absurd hl (wg.before l (by rw [hb]; simp))
      | nil =>
        rw [List.flatMap_cons, Piece.lines, hb, List.nil_append, List.cons_append] at h2
        obtain ⟨hc, h2⟩ := List.cons.inj h2
        have hnb : NotBlank (gs.flatMap Piece.lines) := by
          cases gs with
          | nil => intro x hx; simp at hx
          | cons g' gs =>
            intro x hx
            refine h4 g' (by simp) x ?_
            rw [List.flatMap_cons, List.head?_append] at hx
            cases hh : g'.lines.head? with
            | none => simp [Piece.lines] at hh
            | some y => rw [hh] at hx; exact hx
        refine ⟨c, gs.flatMap Piece.lines, ?_, ?_⟩
        · rw [readConf_iff s [] l ls _ c (by simp) hl]
          refine ⟨g, hb, hc.symm, ?_, hnb, wg, d⟩
          rw [h2, List.append_assoc, List.cons_append]
        · cases gs with
          | nil =>
            left
            rw [List.forall₂_nil_left_iff.1 h5]
            exact ⟨rfl, rfl⟩
          | cons g' gs =>
            right
            refine ⟨cs', rfl, g' :: gs, by simp, rfl, fun x hx => h3 x (List.mem_cons_of_mem _ hx), ?_, h5⟩
            intro x hx
            exact h4 x (List.mem_cons_of_mem _ hx)
  · rintro ⟨c, rest, h1, h2⟩
    rw [readConf_iff s [] l ls _ c (by simp) hl] at h1
    obtain ⟨g, e1, e2, e3, e4, w, d⟩ := h1
    have hlines : g.lines ++ rest = l :: ls := by
      rw [Piece.lines, e1, e2, e3]
      simp
    rcases h2 with ⟨rfl, rfl⟩ | ⟨cs', rfl, gs, f1, f2, f3, f4, f5⟩
    · refine ⟨[g], by simp, ?_, by simpa using w, by simp, List.Forall₂.cons d List.Forall₂.nil⟩
      simpa using hlines.symm
    · refine ⟨g :: gs, by simp, ?_, ?_, ?_, List.Forall₂.cons d f5⟩
      · rw [List.flatMap_cons, ← f2, hlines]
      · intro x hx
        rcases List.mem_cons.1 hx with rfl | hx
        · exact w
        · exact f3 x hx
      · intro x hx
        simp only [List.tail_cons] at hx
        cases gs with
        | nil => cases hx
        | cons g' gs =>
          rcases List.mem_cons.1 hx with rfl | hx
          · intro y hy
            refine e4 y ?_
            rw [f2, List.flatMap_cons, List.head?_append, hy]
            rfl
          · exact f4 x hx

theorem readConf_shorter (s : Settings K) (l : Line K) (ls rest : List (Line K)) (c : Config K) (hl : l.c0 = '#' ∧ l.c1 = 'N')
    (h : readConf s l ls = .ok (c, rest)) : rest.length < ls.length := by
  rw [readConf_iff s [] l ls _ c (by simp) hl] at h
  obtain ⟨g, -, -, e3, -⟩ := h
  rw [e3]
  simp only [List.length_append, List.length_cons]
  omega

theorem readConfs_iff (s : Settings K) (fuel : Nat) (ls : List (Line K)) (hf : ls.length < fuel) (cs : List (Config K)) :
    readConfs s fuel ls = .ok cs ↔ Cut s ls cs := by
  induction fuel generalizing ls cs with
  | zero => omega
  | succ fuel ih =>
    cases ls with
    | nil =>
      simp only [readConfs, reduceCtorEq, false_iff]
      exact cut_nil s cs
    | cons l ls =>
      simp only [List.length_cons] at hf
      simp only [readConfs]
      by_cases hl : isCount l = true
      · rw [if_pos hl]
        have hl' := (isCount_iff l).1 hl
        rw [cut_count s l hl']
        cases hr : readConf s l ls with
        | error e => simp
        | ok r =>
          obtain ⟨c, rest⟩ := r
          have hsh := readConf_shorter s l ls rest c hl' hr
          cases rest with
          | nil =>
            simp only [Except.ok.injEq]
            constructor
            · rintro rfl
              exact ⟨c, [], rfl, Or.inl ⟨rfl, rfl⟩⟩
            · rintro ⟨c', rest', e, h⟩
              simp only [Prod.mk.injEq] at e
              obtain ⟨rfl, rfl⟩ := e
              rcases h with ⟨-, rfl⟩ | ⟨cs', -, h⟩
              · rfl
              · exact absurd h (cut_nil s cs')
          | cons x rest =>
            simp only
            have ih' := fun cs' => ih (x :: rest) (by omega) cs'
            cases hq : readConfs s fuel (x :: rest) with
            | error e =>
              simp only [reduceCtorEq, false_iff]
              rintro ⟨c', rest', e1, h⟩
              simp only [Except.ok.injEq, Prod.mk.injEq] at e1
              obtain ⟨rfl, rfl⟩ := e1
              rcases h with ⟨h, -⟩ | ⟨cs', -, h⟩
              · cases h
              · rw [← ih' cs', hq] at h
                cases h
            | ok cs1 =>
              simp only [Except.ok.injEq]
              constructor
              · rintro rfl
                exact ⟨c, x :: rest, rfl, Or.inr ⟨cs1, rfl, (ih' cs1).1 hq⟩⟩
              · rintro ⟨c', rest', e1, h⟩
                simp only [Prod.mk.injEq] at e1
                obtain ⟨rfl, rfl⟩ := e1
                rcases h with ⟨h, -⟩ | ⟨cs', rfl, h⟩
                · cases h
                · rw [← ih' cs', hq] at h
                  rw [Except.ok.inj h]
      · rw [if_neg hl, ih ls (by omega) cs, cut_junk s l (fun h => hl ((isCount_iff l).2 h))]

theorem countMemory_iff (ls : List (Line K)) :
    (∃ p, countMemory ls = .ok p) ↔ ∀ l ∈ ls, l.c0 = '#' → l.c1 = 'N' → l.ints ≠ [] := by
  induction ls with
  | nil => simp [countMemory]
  | cons l ls ih =>
    simp only [countMemory, List.mem_cons, forall_eq_or_imp]
    by_cases hl : isCount l = true
    · rw [if_pos hl]
      have hl' := (isCount_iff l).1 hl
      simp only [hl'.1, hl'.2, forall_const]
      rw [← ih]
      cases hi : l.ints with
      | nil => simp
      | cons n r =>
        simp only [ne_eq, reduceCtorEq, not_false_eq_true, true_and]
        cases hc : countMemory ls with
        | error e => simp
        | ok p => simp
    · rw [if_neg hl, ih]
      constructor
      · intro h
        exact ⟨fun a b => absurd ((isCount_iff l).2 ⟨a, b⟩) hl, h⟩
      · exact fun h => h.2

/-- Sum of the numbers on the lines `#N`. -/
theorem countMemory_value (ls : List (Line K)) (p : Nat × Int) (h : countMemory ls = .ok p) :
    p.1 = (ls.filter isCount).length ∧ p.2 = ((ls.filter isCount).map fun l => l.ints.headD 0).sum := by
  induction ls generalizing p with
  | nil =>
    simp only [countMemory, Except.ok.injEq] at h
    subst h
    simp
  | cons l ls ih =>
    simp only [countMemory] at h
    by_cases hl : isCount l = true
    · rw [if_pos hl] at h
      cases hi : l.ints with
      | nil => simp [hi] at h
      | cons n r =>
        simp only [hi] at h
        cases hc : countMemory ls with
        | error e => simp [hc] at h
        | ok q =>
          simp only [hc, Except.ok.injEq] at h
          subst h
          obtain ⟨h1, h2⟩ := ih q hc
          simp only [List.filter_cons, hl, if_true, List.length_cons, List.map_cons, List.sum_cons, hi, List.headD_cons]
          exact ⟨by rw [h1], by rw [h2]; omega⟩
    · rw [if_neg hl] at h
      simp only [List.filter_cons, hl]
      exact ih p h

theorem foldl_max_spec (l : List (RawAtom K)) (m : Int) :
    m ≤ l.foldl (fun m a => max m a.typ) m ∧ (∀ a ∈ l, a.typ ≤ l.foldl (fun m a => max m a.typ) m) ∧
      (l.foldl (fun m a => max m a.typ) m = m ∨ ∃ a ∈ l, a.typ = l.foldl (fun m a => max m a.typ) m) := by
  induction l generalizing m with
  | nil => simp
  | cons a l ih =>
    simp only [List.foldl_cons]
    obtain ⟨h1, h2, h3⟩ := ih (max m a.typ)
    refine ⟨by omega, ?_, ?_⟩
    · intro x hx
      rcases List.mem_cons.1 hx with rfl | hx
      · omega
      · exact h2 x hx
    · rcases h3 with h3 | ⟨x, hx, h3⟩
      · rcases le_total m a.typ with hm | hm
        · right
          exact ⟨a, by simp, by rw [h3, max_eq_right hm]⟩
        · left
          rw [h3, max_eq_left hm]
      · exact Or.inr ⟨x, List.mem_cons_of_mem _ hx, h3⟩

theorem maxType_iff (n : Nat) (cs : List (Config K)) (hc : cs ≠ []) (ha : ∀ c ∈ cs, c.atoms ≠ [])
    (ht : ∀ c ∈ cs, ∀ a ∈ c.atoms, 0 ≤ a.typ ∧ a.typ < n) :
    ¬ (maxType cs + 1 < n) ↔ ∃ c ∈ cs, ∃ a ∈ c.atoms, a.typ + 1 = n := by
  obtain ⟨h1, h2, h3⟩ := foldl_max_spec (cs.flatMap fun c => c.atoms) (-1)
  have hmax : maxType cs = (cs.flatMap fun c => c.atoms).foldl (fun m a => max m a.typ) (-1) := rfl
  rw [← hmax] at h1 h2 h3
  have mem : ∀ a : RawAtom K, a ∈ (cs.flatMap fun c => c.atoms) ↔ ∃ c ∈ cs, a ∈ c.atoms := fun a => List.mem_flatMap
  constructor
  · intro h
    rcases h3 with h3 | ⟨a, hm, h3⟩
    · exfalso
      obtain ⟨c, hcs⟩ := List.exists_mem_of_ne_nil _ hc
      obtain ⟨a, has⟩ := List.exists_mem_of_ne_nil _ (ha c hcs)
      have := h2 a ((mem a).2 ⟨c, hcs, has⟩)
      have := (ht c hcs a has).1
      omega
    · obtain ⟨c, hcs, has⟩ := (mem a).1 hm
      have := ht c hcs a has
      exact ⟨c, hcs, a, has, by omega⟩
  · rintro ⟨c, hcs, a, has, h⟩ hlt
    have := h2 a ((mem a).2 ⟨c, hcs, has⟩)
    omega

end Verif.Lemmas.ConfigFile
