/-
C97: Configuration files are read as they are written, character by character.

`C97_read_partial`: files whose table of atoms has seven numbers in every line are read as C75 says.  `C97_layout`: the lines of the table
play no part, only the sequence of the words.  Hence files with missing or surplus columns are accepted and give wrong data.
-/
import Verif.Lemmas.ConfigText
import Verif.Props.C75
import Mathlib.Data.Nat.Digits.Defs
import Mathlib.Tactic.NormNum

set_option linter.unusedSectionVars false

namespace Verif.Props

open Verif.ConfigFile Verif.ConfigText Verif.Spec Verif.Lemmas.ConfigText
open Verif.Lemmas.ConfigFile (skipBlank_notBlank readAtoms_iff)

variable {K : Type} [Field K] [LinearOrder K]

/-- Lines which fit into the buffer. -/
def ShortLines (ls : List (List Char)) : Prop := ∀ l ∈ ls, (∀ c ∈ l, c ≠ '\n') ∧ l.length ≤ 1022

/-- Blank space at the beginning of lines only in front of atoms. -/
def FlushLines (S : Scan K) (ls : List (List Char)) : Prop :=
  ∀ l ∈ ls, l.all isSpace = true ∨ (atomOf S l).isSome = true ∨ ∀ c, l.head? = some c → isSpace c = false

/-! One atom -/

theorem convertNext_line {A : Type} (f : List Char → Option (A × Nat)) {r w : List Char} {ws : List (List Char)}
    (h : tokens r = w :: ws) {x : A} (hx : f w = some (x, w.length)) (T : List Char) :
    ∃ r', tokens r' = ws ∧ convertNext f (r ++ '\n' :: T) = some (x, r' ++ '\n' :: T) := by
  rcases tokens_cases r with ⟨-, h2⟩ | ⟨w', r', hw, hs, he, h1, h2⟩
  · rw [h2] at h; cases h
  · rw [h2] at h
    obtain ⟨rfl, hr⟩ := List.cons.inj h
    refine ⟨r', hr, ?_⟩
    have hn : ¬ r.all isSpace = true := by
      intro hc
      rw [tokens_eq_nil.2 hc] at h2
      cases h2
    apply convertNext_full f (w := w') _ hs _ hx
    · rw [skip_append hn, h1, List.append_assoc]
    · intro c hc
      cases r' with
      | nil => simp at hc; subst hc; decide
      | cons d r' => exact he c (by simpa using hc)

theorem convertNext_skip {A : Type} (f : List Char → Option (A × Nat)) {t u : List Char} (h : skip t = skip u) :
    convertNext f t = convertNext f u := by
  unfold convertNext
  rw [h]

theorem scanAtom_skip (S : Scan K) {t u : List Char} (h : skip t = skip u) : scanAtom S t = scanAtom S u := by
  unfold scanAtom
  rw [convertNext_skip intPrefix h]

theorem atomOf_some (S : Scan K) {l : List Char} {raw : RawAtom K} (h : atomOf S l = some raw) :
    ∃ w0 w1 w2 w3 w4 w5 w6 n x y z a b c, tokens l = [w0, w1, w2, w3, w4, w5, w6] ∧ intPrefix w0 = some (n, w0.length) ∧
      S w1 = some (x, w1.length) ∧ S w2 = some (y, w2.length) ∧ S w3 = some (z, w3.length) ∧ S w4 = some (a, w4.length) ∧
      S w5 = some (b, w5.length) ∧ S w6 = some (c, w6.length) ∧ raw = ⟨n, ![x, y, z], ![a, b, c]⟩ := by
  unfold atomOf at h
  split at h
  · rename_i w0 w1 w2 w3 w4 w5 w6 heq
    split at h
    · rename_i t n0 x n1 y n2 z n3 a n4 b n5 c n6 e0 e1 e2 e3 e4 e5 e6
      split at h
      · rename_i hn
        obtain ⟨rfl, rfl, rfl, rfl, rfl, rfl, rfl⟩ := hn
        exact ⟨w0, w1, w2, w3, w4, w5, w6, t, x, y, z, a, b, c, heq, e0, e1, e2, e3, e4, e5, e6, (Option.some.inj h).symm⟩
      · cases h
    · cases h
  · cases h

theorem scanAtom_line (S : Scan K) {l : List Char} {raw : RawAtom K} (h : atomOf S l = some raw) (T : List Char) :
    scanAtom S (l ++ '\n' :: T) = some (raw, skip T) := by
  obtain ⟨w0, w1, w2, w3, w4, w5, w6, n, x, y, z, a, b, c, ht, e0, e1, e2, e3, e4, e5, e6, rfl⟩ := atomOf_some S h
  obtain ⟨r0, k0, g0⟩ := convertNext_line intPrefix ht e0 T
  obtain ⟨r1, k1, g1⟩ := convertNext_line S k0 e1 T
  obtain ⟨r2, k2, g2⟩ := convertNext_line S k1 e2 T
  obtain ⟨r3, k3, g3⟩ := convertNext_line S k2 e3 T
  obtain ⟨r4, k4, g4⟩ := convertNext_line S k3 e4 T
  obtain ⟨r5, k5, g5⟩ := convertNext_line S k4 e5 T
  obtain ⟨r6, k6, g6⟩ := convertNext_line S k5 e6 T
  have hs : skip (r6 ++ '\n' :: T) = skip T := by
    rw [skip_all (tokens_eq_nil.1 k6)]
    simp [skip, isSpace]
  simp only [scanAtom, g0, g1, g2, g3, g4, g5, g6, hs]

/-! The table of the atoms -/

theorem skip_textOf_blank (S : Scan K) (ls : List (List Char)) :
    ∃ ls', ls' <:+ ls ∧ skipBlank (ls.map (lineOf S)) = ls'.map (lineOf S) ∧ skip (textOf ls) = skip (textOf ls') := by
  induction ls with
  | nil => exact ⟨[], List.suffix_refl _, rfl, rfl⟩
  | cons l ls ih =>
    by_cases h : l.all isSpace = true
    · obtain ⟨ls', h1, h2, h3⟩ := ih
      refine ⟨ls', h1.trans (List.suffix_cons l ls), ?_, ?_⟩
      · rw [← h2]
        have hb : (lineOf S l).blank = true := h
        simp [skipBlank, List.dropWhile_cons, hb]
      · rw [textOf_cons, skip_all h, ← h3]
        simp [skip, isSpace]
    · refine ⟨l :: ls, List.suffix_refl _, ?_, rfl⟩
      have hb : (lineOf S l).blank = false := by simpa [lineOf] using h
      simp [skipBlank, List.dropWhile_cons, hb]

theorem atomsText_lines (s : Settings K) (S : Scan K) (n : Nat) (ls : List (List Char)) (t : List Char)
    (ht : skip t = skip (textOf ls)) (as : List (RawAtom K)) (rest : List (Line K))
    (h : readAtoms s n (ls.map (lineOf S)) = .ok (as, rest)) :
    ∃ ls' t', ls' <:+ ls ∧ rest = ls'.map (lineOf S) ∧ atomsText s S n t = .ok (as, t') ∧ skip t' = skip (textOf ls') ∧
      (t = skip t ∨ 0 < n → t' = skip t') := by
  induction n generalizing ls t as with
  | zero =>
    simp only [readAtoms, Except.ok.injEq, Prod.mk.injEq] at h
    obtain ⟨rfl, rfl⟩ := h
    exact ⟨ls, t, List.suffix_refl _, rfl, rfl, ht, by simp⟩
  | succ n ih =>
    obtain ⟨ls1, h1, h2, h3⟩ := skip_textOf_blank S ls
    simp only [readAtoms, h2] at h
    cases ls1 with
    | nil => simp at h
    | cons l ls2 =>
      simp only [List.map_cons] at h
      cases ha : (lineOf S l).atom with
      | none => simp [ha] at h
      | some raw =>
        simp only [ha] at h
        have hsc : scanAtom S t = some (raw, skip (textOf ls2)) := by
          rw [scanAtom_skip S (ht.trans h3), textOf_cons]
          exact scanAtom_line S ha _
        by_cases htyp : raw.typ ≥ s.ntypes ∨ raw.typ < 0
        · simp [htyp] at h
        · rw [if_neg htyp] at h
          obtain ⟨ls3, h4, h5, h6⟩ := skip_textOf_blank S ls2
          rw [h5] at h
          cases hr : readAtoms s n (ls3.map (lineOf S)) with
          | error e => simp [hr] at h
          | ok r =>
            obtain ⟨as1, rest1⟩ := r
            simp only [hr, Except.ok.injEq, Prod.mk.injEq] at h
            obtain ⟨rfl, rfl⟩ := h
            obtain ⟨ls', t', k1, k2, k3, k4, k5⟩ := ih ls3 (skip (textOf ls2)) (by rw [skip_skip, h6]) as1 hr
            refine ⟨ls', t', k1.trans (h4.trans ((List.suffix_cons l ls2).trans h1)), k2, ?_, k4, ?_⟩
            · simp only [atomsText, hsc, if_neg htyp, k3]
            · intro _
              exact k5 (.inl (skip_skip _).symm)

/-! The header -/

theorem getLine_textOf {l : List Char} {ls : List (List Char)} (hs : ShortLines (l :: ls)) :
    getLine lineMax (textOf (l :: ls)) = (l ++ ['\n'], textOf ls, false) := by
  have := hs l (by simp)
  rw [textOf_cons]
  exact getLine_line l this.1 _ _ (by unfold lineMax; omega)

theorem headerText_lines (s : Settings K) (S : Scan K) (ls : List (List Char)) (hs : ShortLines ls) (fuel : Nat)
    (hf : ls.length < fuel) (h h' : Header K) (rest : List (Line K))
    (hr : readHeader s h (ls.map (lineOf S)) = .ok (h', rest)) :
    ∃ ls', ls' <:+ ls ∧ rest = ls'.map (lineOf S) ∧ headerText s S fuel h (textOf ls) = .ok (h', textOf ls') := by
  induction ls generalizing fuel h with
  | nil => simp [readHeader] at hr
  | cons l ls ih =>
    cases fuel with
    | zero => simp at hf
    | succ fuel =>
      have hl := hs l (by simp)
      simp only [List.map_cons, readHeader] at hr
      cases hh : headerLine s h (lineOf S l) with
      | error e => simp [hh] at hr
      | ok h1 =>
        simp only [hh] at hr
        have hc : chop (l ++ ['\n']) = l := chop_line l hl.1
        by_cases hF : (lineOf S l).c1 = 'F'
        · rw [if_pos hF] at hr
          simp only [Except.ok.injEq, Prod.mk.injEq] at hr
          obtain ⟨rfl, rfl⟩ := hr
          refine ⟨ls, List.suffix_cons l ls, rfl, ?_⟩
          simp only [headerText, getLine_textOf hs, hc, hh, if_pos hF, Bool.false_eq_true, if_false]
        · rw [if_neg hF] at hr
          obtain ⟨ls', k1, k2, k3⟩ := ih (fun x hx => hs x (List.mem_cons_of_mem _ hx)) fuel (by simpa using hf) h1 hr
          refine ⟨ls', k1.trans (List.suffix_cons l ls), k2, ?_⟩
          simp only [headerText, getLine_textOf hs, hc, hh, if_neg hF, Bool.false_eq_true, if_false, k3]

theorem confText_lines (s : Settings K) (S : Scan K) (l : Line K) (ls : List (List Char)) (hs : ShortLines ls)
    (c : Config K) (rest : List (Line K)) (h : readConf s l (ls.map (lineOf S)) = .ok (c, rest)) :
    ∃ ls', ls' <:+ ls ∧ rest = ls'.map (lineOf S) ∧ NotBlank rest ∧ confText s S l (textOf ls) = .ok (c, skip (textOf ls')) := by
  unfold readConf at h
  unfold confText
  split at h
  · rename_i n uf tl heq
    simp only [heq]
    by_cases hn : n < minAtoms s
    · simp [hn] at h
    · rw [if_neg hn] at h ⊢
      cases hh : readHeader s emptyHeader (ls.map (lineOf S)) with
      | error e => simp [hh] at h
      | ok r =>
        obtain ⟨h1, rest1⟩ := r
        simp only [hh] at h
        have hlen : ls.length < (textOf ls).length + 1 := by
          have : ls.length ≤ (textOf ls).length := by
            clear hs h hh
            induction ls with
            | nil => simp
            | cons l ls ih =>
              rw [textOf_cons]
              simp
              omega
          omega
        obtain ⟨ls1, k1, rfl, k3⟩ := headerText_lines s S ls hs _ hlen _ _ _ hh
        simp only [k3]
        cases hc : checkHeader s h1 with
        | error e => simp [hc] at h
        | ok vol =>
          simp only [hc] at h ⊢
          cases ha : readAtoms s n.toNat (ls1.map (lineOf S)) with
          | error e => simp [ha] at h
          | ok r =>
            obtain ⟨as, rest2⟩ := r
            simp only [ha, Except.ok.injEq, Prod.mk.injEq] at h
            obtain ⟨rfl, rfl⟩ := h
            obtain ⟨ls', t', j1, j2, j3, j4, j5⟩ := atomsText_lines s S n.toNat ls1 (textOf ls1) rfl as rest2 ha
            have hpos : 0 < n.toNat := by
              have : (2 : Int) ≤ minAtoms s := by unfold minAtoms; split <;> omega
              omega
            have hnb : NotBlank rest2 := by
              have hk : skipBlank (ls1.map (lineOf S)) = skipBlank (skipBlank (ls1.map (lineOf S))) :=
                (Verif.Lemmas.ConfigFile.skipBlank_of_notBlank (skipBlank_notBlank _)).symm
              have : readAtoms s n.toNat (skipBlank (ls1.map (lineOf S))) = .ok (as, rest2) := by
                rw [← ha]
                obtain ⟨m, hm⟩ : ∃ m, n.toNat = m + 1 := ⟨n.toNat - 1, by omega⟩
                rw [hm]
                simp only [readAtoms, ← hk]
              exact ((readAtoms_iff s _ _ _ _).1 this).2.1
            refine ⟨ls', j1.trans k1, j2, hnb, ?_⟩
            rw [j3, j5 (.inr hpos), j4]
  · simp at h

/-! The whole file -/

theorem memoryText_lines (S : Scan K) (ls : List (List Char)) (hs : ShortLines ls) (fuel : Nat) (hf : ls.length < fuel) :
    memoryText S fuel (textOf ls) = countMemory (ls.map (lineOf S)) := by
  induction ls generalizing fuel with
  | nil =>
    cases fuel with
    | zero => simp at hf
    | succ fuel => simp [memoryText, textOf, lineMax, getLine, countMemory]
  | cons l ls ih =>
    cases fuel with
    | zero => simp at hf
    | succ fuel =>
      have hc : chop (l ++ ['\n']) = l := chop_line l (hs l (by simp)).1
      have := ih (fun x hx => hs x (List.mem_cons_of_mem _ hx)) fuel (by simpa using hf)
      simp only [memoryText, getLine_textOf hs, hc, Bool.false_eq_true, if_false, List.map_cons, countMemory, this]
      by_cases hcnt : isCount (lineOf S l) = true
      · simp only [hcnt, if_true]
        cases (lineOf S l).ints with
        | nil => rfl
        | cons n tl =>
          simp only
          cases countMemory (ls.map (lineOf S)) <;> rfl
      · simp only [hcnt]
        rfl

theorem intPrefix_hash (w : List Char) : intPrefix ('#' :: w) = none := by
  have : sign ('#' :: w) = (false, 0) := rfl
  have hd : Char.isDigit '#' = false := by decide
  simp [intPrefix, this, hd]

theorem atom_not_count (S : Scan K) {l : List Char} (h : (atomOf S l).isSome = true) (l' : List Char) (r : List Char)
    (hl : skip l = l' ++ r) (hl' : l' ≠ []) : isCount (lineOf S l') = false := by
  obtain ⟨raw, hraw⟩ := Option.isSome_iff_exists.1 h
  obtain ⟨w0, w1, w2, w3, w4, w5, w6, n, x, y, z, a, b, c, ht, e0, -⟩ := atomOf_some S hraw
  rcases tokens_cases l with ⟨-, h2⟩ | ⟨w, r2, hw, hsp, he, h1, h2⟩
  · rw [h2] at ht; cases ht
  · rw [h2] at ht
    obtain ⟨rfl, -⟩ := List.cons.inj ht
    cases l' with
    | nil => exact absurd rfl hl'
    | cons d l' =>
      by_cases hd : d = '#'
      · subst hd
        cases w with
        | nil => exact absurd rfl hw
        | cons e w =>
          rw [h1] at hl
          simp only [List.cons_append, List.cons.injEq] at hl
          obtain ⟨rfl, -⟩ := hl
          rw [intPrefix_hash] at e0
          cases e0
      · simp [isCount, lineOf, hd]

theorem confsText_lines (s : Settings K) (S : Scan K) (fuel fuel' : Nat) (ls : List (List Char)) (hs : ShortLines ls)
    (hfl : FlushLines S ls) (hf : ls.length < fuel') (t : List Char)
    (ht : t = textOf ls ∨ (t = skip (textOf ls) ∧ NotBlank (ls.map (lineOf S)))) (cs : List (Config K))
    (h : readConfs s fuel (ls.map (lineOf S)) = .ok cs) : confsText s S fuel' t = .ok cs := by
  induction fuel generalizing fuel' ls t cs with
  | zero => simp [readConfs] at h
  | succ fuel ih =>
    cases ls with
    | nil => simp [readConfs] at h
    | cons l ls =>
      cases fuel' with
      | zero => simp at hf
      | succ fuel' =>
        have hl := hs l (by simp)
        have hs' : ShortLines ls := fun x hx => hs x (List.mem_cons_of_mem _ hx)
        have hfl' : FlushLines S ls := fun x hx => hfl x (List.mem_cons_of_mem _ hx)
        have hsub : ∀ ls', ls' <:+ ls → ShortLines ls' ∧ FlushLines S ls' ∧ ls'.length < fuel' := by
          intro ls' hsuf
          refine ⟨fun x hx => hs' x (hsuf.subset hx), fun x hx => hfl' x (hsuf.subset hx), ?_⟩
          have := hsuf.length_le
          simp at hf
          omega
        simp only [List.map_cons, readConfs] at h
        -- the line at the beginning of the text
        obtain ⟨l', hg, hl', hcount, hne⟩ : ∃ l', t = l' ++ '\n' :: textOf ls ∧ ((∀ c ∈ l', c ≠ '\n') ∧ l'.length ≤ 1022) ∧
            (l' = l ∨ (isCount (lineOf S l) = false ∧ isCount (lineOf S l') = false)) ∧ t ≠ [] := by
          rcases ht with rfl | ⟨rfl, hnb⟩
          · exact ⟨l, textOf_cons l ls, hl, .inl rfl, by rw [textOf_cons]; simp⟩
          · have hb : ¬ l.all isSpace = true := by
              have := hnb (lineOf S l) rfl
              simp only [lineOf] at this
              simp [this]
            rw [textOf_cons, skip_append hb]
            refine ⟨skip l, rfl, ⟨?_, ?_⟩, ?_, by simp⟩
            · intro c hc
              exact hl.1 c ((List.dropWhile_sublist _).subset hc)
            · exact le_trans (List.dropWhile_sublist _).length_le hl.2
            · rcases hfl l (by simp) with h1 | h1 | h1
              · exact absurd h1 hb
              · refine .inr ⟨?_, atom_not_count S h1 (skip l) [] (by simp) (skip_ne_nil hb)⟩
                cases l with
                | nil => simp at hb
                | cons d l =>
                  by_cases hd : d = '#'
                  · subst hd
                    exact atom_not_count S h1 _ [] (by simp [skip, isSpace]) (by simp)
                  · simp [isCount, lineOf, hd]
              · left
                cases l with
                | nil => rfl
                | cons d l =>
                  have := h1 d rfl
                  simp [skip, List.dropWhile_cons, this]
        have hget : getLine lineMax t = (l' ++ ['\n'], textOf ls, false) := by
          rw [hg]
          exact getLine_line l' hl'.1 _ _ (by unfold lineMax; omega)
        have hchop : chop (l' ++ ['\n']) = l' := chop_line l' hl'.1
        simp only [confsText, hget, hchop, if_neg hne]
        rcases hcount with rfl | ⟨hc1, hc2⟩
        · by_cases hc : isCount (lineOf S l') = true
          · rw [if_pos hc] at h ⊢
            cases hr : readConf s (lineOf S l') (ls.map (lineOf S)) with
            | error e => simp [hr] at h
            | ok r =>
              obtain ⟨c, rest⟩ := r
              obtain ⟨ls', k1, rfl, k3, k4⟩ := confText_lines s S _ ls hs' c rest hr
              simp only [hr] at h
              simp only [k4]
              cases ls' with
              | nil =>
                simp only [List.map_nil] at h
                have : skip (textOf []) = [] := rfl
                simpa [this] using h
              | cons x xs =>
                simp only [List.map_cons] at h
                have hx : ¬ x.all isSpace = true := by
                  have := k3 (lineOf S x) rfl
                  simp only [lineOf] at this
                  simp [this]
                have hne' : skip (textOf (x :: xs)) ≠ [] := by
                  rw [textOf_cons, skip_append hx]
                  simp
                cases hcs : readConfs s fuel (lineOf S x :: xs.map (lineOf S)) with
                | error e => simp [hcs] at h
                | ok cs' =>
                  simp only [hcs, Except.ok.injEq] at h
                  obtain ⟨a1, a2, a3⟩ := hsub _ k1
                  have := ih fuel' (x :: xs) a1 a2 a3 (skip (textOf (x :: xs))) (.inr ⟨rfl, k3⟩) cs' (by simpa using hcs)
                  revert this hne'
                  generalize skip (textOf (x :: xs)) = u
                  intro hne' this
                  cases u with
                  | nil => exact absurd rfl hne'
                  | cons d u => simp only [this, h]
          · rw [if_neg hc] at h ⊢
            obtain ⟨a1, a2, a3⟩ := hsub _ (List.suffix_refl ls)
            simpa using ih fuel' ls a1 a2 a3 _ (.inl rfl) cs h
        · rw [hc1] at h
          rw [hc2]
          simp only [Bool.false_eq_true, if_false] at h ⊢
          obtain ⟨a1, a2, a3⟩ := hsub _ (List.suffix_refl ls)
          exact ih fuel' ls a1 a2 a3 _ (.inl rfl) cs h

/-- A file whose lines describe configurations, with seven numbers for each atom in a line of its own, is read as these
configurations. -/
theorem C97_read_partial (s : Settings K) (S : Scan K) (ls : List (List Char)) (hs : ShortLines ls) (hfl : FlushLines S ls)
    (cs : List (Config K)) (h : FileDescribes s (ls.map (lineOf S)) cs) :
    readText s S (ls.flatMap fun l => l ++ ['\n']) = .ok cs := by
  have hr := (C75_read s _ cs).2 h
  show readText s S (textOf ls) = .ok cs
  have hlen : ls.length < (textOf ls).length + 1 := by
    have : ls.length ≤ (textOf ls).length := by
      clear hs h hr hfl
      induction ls with
      | nil => simp
      | cons l ls ih =>
        rw [textOf_cons]
        simp
        omega
    omega
  unfold readFile at hr
  unfold readText
  rw [memoryText_lines S ls hs _ hlen]
  cases hm : countMemory (ls.map (lineOf S)) with
  | error e => simp [hm] at hr
  | ok m =>
    simp only [hm] at hr
    cases hc : readConfs s ((ls.map (lineOf S)).length + 1) (ls.map (lineOf S)) with
    | error e =>
      rw [hc] at hr
      cases hr
    | ok cs' =>
      rw [hc] at hr
      simp only [confsText_lines s S _ _ ls hs hfl hlen _ (.inl rfl) cs' hc]
      exact hr

/-! Layout -/

theorem convertNext_same {A : Type} (f : List Char → Option (A × Nat)) {t u : List Char} (h : tokens t = tokens u) :
    (convertNext f t = none ∧ convertNext f u = none) ∨ ∃ x t' u', convertNext f t = some (x, t') ∧ convertNext f u = some (x, u') ∧
      tokens t' = tokens u' := by
  have := convertNext_congr f h
  cases ht : convertNext f t with
  | none =>
    cases hu : convertNext f u with
    | none => exact .inl ⟨rfl, rfl⟩
    | some q => simp [ht, hu] at this
  | some p =>
    cases hu : convertNext f u with
    | none => simp [ht, hu] at this
    | some q =>
      obtain ⟨x, t'⟩ := p
      obtain ⟨y, u'⟩ := q
      simp only [ht, hu, Option.map_some, Option.some.injEq, Prod.mk.injEq] at this
      obtain ⟨rfl, this⟩ := this
      exact .inr ⟨x, t', u', rfl, rfl, this⟩

theorem scanAtom_same (S : Scan K) {t u : List Char} (h : tokens t = tokens u) :
    (scanAtom S t = none ∧ scanAtom S u = none) ∨ ∃ a t' u', scanAtom S t = some (a, t') ∧ scanAtom S u = some (a, u') ∧
      tokens t' = tokens u' := by
  unfold scanAtom
  rcases convertNext_same intPrefix h with ⟨h1, h2⟩ | ⟨x0, t0, u0, h1, h2, h0⟩
  · simp [h1, h2]
  simp only [h1, h2]
  rcases convertNext_same S h0 with ⟨h1, h2⟩ | ⟨x1, t1, u1, h1, h2, h0⟩
  · simp [h1, h2]
  simp only [h1, h2]
  rcases convertNext_same S h0 with ⟨h1, h2⟩ | ⟨x2, t2, u2, h1, h2, h0⟩
  · simp [h1, h2]
  simp only [h1, h2]
  rcases convertNext_same S h0 with ⟨h1, h2⟩ | ⟨x3, t3, u3, h1, h2, h0⟩
  · simp [h1, h2]
  simp only [h1, h2]
  rcases convertNext_same S h0 with ⟨h1, h2⟩ | ⟨x4, t4, u4, h1, h2, h0⟩
  · simp [h1, h2]
  simp only [h1, h2]
  rcases convertNext_same S h0 with ⟨h1, h2⟩ | ⟨x5, t5, u5, h1, h2, h0⟩
  · simp [h1, h2]
  simp only [h1, h2]
  rcases convertNext_same S h0 with ⟨h1, h2⟩ | ⟨x6, t6, u6, h1, h2, h0⟩
  · simp [h1, h2]
  simp only [h1, h2]
  exact .inr ⟨_, _, _, rfl, rfl, by rw [tokens_skip, tokens_skip, h0]⟩

/-- Reading of the atoms depends on the sequence of words only: the same words distributed in another way over lines give the same atoms,
and leave the same words. -/
theorem C97_layout (s : Settings K) (S : Scan K) (n : Nat) (t u : List Char)
    (h : (t.splitOnP isSpace).filter (fun w => w ≠ []) = (u.splitOnP isSpace).filter fun w => w ≠ []) :
    (atomsText s S n t).map (fun r => (r.1, (r.2.splitOnP isSpace).filter fun w => w ≠ [])) =
      (atomsText s S n u).map fun r => (r.1, (r.2.splitOnP isSpace).filter fun w => w ≠ []) := by
  change tokens t = tokens u at h
  change (atomsText s S n t).map (fun r => (r.1, tokens r.2)) = (atomsText s S n u).map fun r => (r.1, tokens r.2)
  induction n generalizing t u with
  | zero => simp [atomsText, Except.map, h]
  | succ n ih =>
    rcases scanAtom_same S h with ⟨h1, h2⟩ | ⟨a, t', u', h1, h2, h0⟩
    · simp [atomsText, h1, h2]
    · simp only [atomsText, h1, h2]
      split
      · rfl
      · have := ih t' u' h0
        cases ht : atomsText s S n t' with
        | error e =>
          cases hu : atomsText s S n u' with
          | error e' => simpa [ht, hu, Except.map] using this
          | ok q => simp [ht, hu, Except.map] at this
        | ok p =>
          cases hu : atomsText s S n u' with
          | error e' => simp [ht, hu, Except.map] at this
          | ok q =>
            simp only [ht, hu, Except.map, Except.ok.injEq, Prod.mk.injEq] at this ⊢
            exact ⟨by rw [this.1], this.2⟩

/-! Numbers -/

theorem convertAll_words {A : Type} (f : List Char → Option (A × Nat)) (n : Nat) (t : List Char) (xs : List A)
    (h : List.Forall₂ (fun w x => f w = some (x, w.length)) (tokens t) xs) (hnil : f [] = none) :
    convertAll f n t = xs.take n := by
  induction n generalizing t xs with
  | zero => simp [convertAll]
  | succ n ih =>
    rcases tokens_cases t with ⟨h1, h2⟩ | ⟨w, r, hw, hs, he, h1, h2⟩
    · rw [h2] at h
      obtain rfl := List.forall₂_nil_left_iff.1 h
      have : convertNext f t = none := by
        unfold convertNext
        rw [h1]
        simp [word, hnil]
      simp [convertAll, this]
    · rw [h2] at h
      cases xs with
      | nil => cases h
      | cons x xs =>
        obtain ⟨hx, hxs⟩ := List.forall₂_cons.1 h
        simp [convertAll, convertNext_full f h1 hs he hx, ih r xs hxs]

/-- A header line whose words from the third character on are numbers has these numbers (the first six). -/
theorem C97_numbers (S : Scan K) (hS : S [] = none) (l : List Char) (xs : List K)
    (h : List.Forall₂ (fun w x => S w = some (x, w.length)) (((l.drop 3).splitOnP isSpace).filter fun w => w ≠ []) xs) :
    (lineOf S l).nums = xs.take 6 :=
  convertAll_words S 6 (l.drop 3) xs h hS

/-- The same for the lines of the contributing region, whose keys have two characters more. -/
theorem C97_numbers_region (S : Scan K) (hS : S [] = none) (l : List Char) (xs : List K)
    (h : List.Forall₂ (fun w x => S w = some (x, w.length)) (((l.drop 5).splitOnP isSpace).filter fun w => w ≠ []) xs) :
    (lineOf S l).nums5 = xs.take 6 :=
  convertAll_words S 6 (l.drop 5) xs h hS

/-- Number of atoms and switch of the forces in the first line of a configuration. -/
theorem C97_count (S : Scan K) (l : List Char) (xs : List Int)
    (h : List.Forall₂ (fun w x => intPrefix w = some (x, w.length)) (((l.drop 3).splitOnP isSpace).filter fun w => w ≠ []) xs) :
    (lineOf S l).ints = xs.take 2 :=
  convertAll_words intPrefix 2 (l.drop 3) xs h rfl

example : (lineOf (decimal : Scan ℚ) "#B_O 1.5 -2 3e1".toList).nums5 = [3 / 2, -2, 30] ∧
    (lineOf (decimal : Scan ℚ) "#N 12 1".toList).ints = [12, 1] := by decide +kernel

/-- The value of a row of digits. -/
theorem digitsValue_eq (w : List Char) : digitsValue w = Nat.ofDigits 10 ((w.map fun c => c.toNat - 48).reverse) := by
  unfold digitsValue
  have : ∀ (w : List Char) (n : Nat), w.foldl (fun n c => 10 * n + (c.toNat - 48)) n =
      n * 10 ^ w.length + Nat.ofDigits 10 ((w.map fun c => c.toNat - 48).reverse) := by
    intro w
    induction w with
    | nil => intro n; simp
    | cons c w ih =>
      intro n
      rw [List.foldl_cons, ih]
      simp only [List.map_cons, List.reverse_cons, Nat.ofDigits_append, List.length_reverse, List.length_map, Nat.ofDigits_singleton,
        List.length_cons, pow_succ]
      ring
  rw [this]
  simp

theorem takeWhile_digits {a : List Char} (ha : ∀ c ∈ a, c.isDigit = true) (r : List Char)
    (hr : ∀ c, r.head? = some c → c.isDigit = false) : (a ++ r).takeWhile Char.isDigit = a := by
  rw [List.takeWhile_append_of_pos (by simpa using ha)]
  cases r with
  | nil => simp
  | cons c r => simp [hr c rfl]

/-- A sign in front of a number: none, minus or plus. -/
def signText : Option Bool → List Char
  | none => []
  | some true => ['-']
  | some false => ['+']

/-- Whether the number is negative. -/
def isMinus (sg : Option Bool) : Bool := sg == some true

theorem sign_word (sg : Option Bool) (a r : List Char) (ha : ∀ c ∈ a, c.isDigit = true) (hne : a ≠ []) :
    sign (signText sg ++ (a ++ r)) = (isMinus sg, (signText sg).length) := by
  rcases sg with - | (- | -)
  · cases a with
    | nil => exact absurd rfl hne
    | cons c a =>
      have hc := ha c (by simp)
      have h1 : c ≠ '-' := by rintro rfl; revert hc; decide
      have h2 : c ≠ '+' := by rintro rfl; revert hc; decide
      simp only [sign, signText, List.nil_append, List.cons_append]
      split
      · rename_i heq; simp at heq; exact absurd heq.1 h1
      · rename_i heq; simp at heq; exact absurd heq.1 h2
      · rfl
  · rfl
  · rfl

/-- Whole numbers. -/
theorem C97_int (sg : Option Bool) (a : List Char) (ha : ∀ c ∈ a, c.isDigit = true) (hne : a ≠ []) :
    intPrefix (signText sg ++ a) =
      some ((if isMinus sg then -1 else 1) * ((Nat.ofDigits 10 ((a.map fun c => c.toNat - 48).reverse) : ℕ) : Int),
        (signText sg ++ a).length) := by
  have hs := sign_word sg a [] ha hne
  rw [List.append_nil] at hs
  have ht : a.takeWhile Char.isDigit = a := by
    have := takeWhile_digits ha [] (by simp)
    rwa [List.append_nil] at this
  simp only [intPrefix, hs, List.drop_left, ht, if_neg hne, digitsValue_eq, List.length_append]
  cases isMinus sg <;> simp

/-- Decimal fractions. -/
theorem C97_decimal (sg : Option Bool) (a b : List Char) (ha : ∀ c ∈ a, c.isDigit = true) (hb : ∀ c ∈ b, c.isDigit = true) (hne : a ≠ []) :
    (decimal : Scan K) (signText sg ++ (a ++ '.' :: b)) =
      some ((if isMinus sg then -1 else 1) * ((Nat.ofDigits 10 (((a ++ b).map fun c => c.toNat - 48).reverse) : ℕ) : K) / 10 ^ b.length,
        (signText sg ++ (a ++ '.' :: b)).length) := by
  have hs := sign_word sg a ('.' :: b) ha hne
  have ht : (a ++ '.' :: b).takeWhile Char.isDigit = a := takeWhile_digits ha _ (by intro c hc; simp at hc; subst hc; decide)
  have hb' : b.takeWhile Char.isDigit = b := by
    have := takeWhile_digits hb [] (by simp)
    rwa [List.append_nil] at this
  have hall : (signText sg ++ (a ++ '.' :: b)).drop ((signText sg).length + a.length + (1 + b.length)) = [] := by
    apply List.drop_eq_nil_of_le
    simp; omega
  simp only [decimal, hs, List.drop_left, ht, List.head?_cons, if_true, List.tail_cons, hb', hne, false_and, if_false, hall, digitsValue_eq]
  congr 2
  simp; omega

/-- Decimal fractions with an exponent. -/
theorem C97_exponent (sg se : Option Bool) (a b d : List Char) (e : Char) (ha : ∀ c ∈ a, c.isDigit = true) (hb : ∀ c ∈ b, c.isDigit = true)
    (hd : ∀ c ∈ d, c.isDigit = true) (hne : a ≠ []) (hde : d ≠ []) (he : e = 'e' ∨ e = 'E') :
    (decimal : Scan K) (signText sg ++ (a ++ '.' :: (b ++ e :: (signText se ++ d)))) =
      some ((if isMinus sg then -1 else 1) * ((Nat.ofDigits 10 (((a ++ b).map fun c => c.toNat - 48).reverse) : ℕ) : K) / 10 ^ b.length *
          (10 : K) ^ ((if isMinus se then -1 else 1) * ((Nat.ofDigits 10 ((d.map fun c => c.toNat - 48).reverse) : ℕ) : Int)),
        (signText sg ++ (a ++ '.' :: (b ++ e :: (signText se ++ d)))).length) := by
  have hs := sign_word sg a ('.' :: (b ++ e :: (signText se ++ d))) ha hne
  have hs' := sign_word se d [] hd hde
  rw [List.append_nil] at hs'
  have hed : e.isDigit = false := by rcases he with rfl | rfl <;> decide
  have ht : (a ++ '.' :: (b ++ e :: (signText se ++ d))).takeWhile Char.isDigit = a :=
    takeWhile_digits ha _ (by intro c hc; simp at hc; subst hc; decide)
  have hb' : (b ++ e :: (signText se ++ d)).takeWhile Char.isDigit = b :=
    takeWhile_digits hb _ (by intro c hc; simp at hc; subst hc; exact hed)
  have hd' : d.takeWhile Char.isDigit = d := by
    have := takeWhile_digits hd [] (by simp)
    rwa [List.append_nil] at this
  have hall : (signText sg ++ (a ++ '.' :: (b ++ e :: (signText se ++ d)))).drop ((signText sg).length + a.length + (1 + b.length)) =
      e :: (signText se ++ d) := by
    rw [show signText sg ++ (a ++ '.' :: (b ++ e :: (signText se ++ d))) = (signText sg ++ a ++ '.' :: b) ++ e :: (signText se ++ d) by simp]
    rw [show (signText sg).length + a.length + (1 + b.length) = (signText sg ++ a ++ '.' :: b).length by simp; omega]
    exact List.drop_left
  simp only [decimal, hs, List.drop_left, ht, List.head?_cons, if_true, List.tail_cons, hb', hne, false_and, if_false, hall, digitsValue_eq,
    hs', hd', he, true_and, if_pos hde, ne_eq, hde, not_false_eq_true]
  congr 2
  · cases isMinus se
    · simp only [Bool.false_eq_true, if_false, one_mul, zpow_natCast]
    · simp only [if_true, neg_mul, one_mul, zpow_neg, zpow_natCast, div_eq_mul_inv]
  · simp; omega

/-- Decimal numbers with signs and exponents in all notations. -/
example : (decimal : Scan ℚ) "+2.50E-1".toList = some (1 / 4, 8) ∧ (decimal : Scan ℚ) "-12.e+2".toList = some (-1200, 7) ∧
    intPrefix "+007".toList = some (7, 4) := by decide +kernel

/-! Examples -/

/-- Header of a configuration of two atoms. -/
def headText : String := "#N 2 1\n#X 3 0 0\n#Y 0 3.0 0\n#Z 0 0 3e0\n#E -1.5\n#F\n"

def plainSettings : Settings ℚ := ⟨true, true, false, 2, 1⟩

/-- Type and the six numbers of an atom. -/
def rowOf (a : RawAtom ℚ) : Int × List ℚ := (a.typ, [a.pos 0, a.pos 1, a.pos 2, a.force 0, a.force 1, a.force 2])

/-- The atoms of all configurations. -/
def tablesOf (t : String) : Option (List (List (Int × List ℚ))) :=
  (readText plainSettings decimal t.toList).toOption.map fun cs => cs.map fun c => c.atoms.map rowOf

/-- Whether the lines of a file describe configurations. -/
def describedText (ls : List String) : Bool :=
  (readFile plainSettings (ls.map fun l => lineOf decimal l.toList)).toOption.isSome

example : tablesOf (headText ++ " 0 0 0 0.5 1 2 3\n1 1 1.5 1 -4 5e-1 6\n") =
    some [[(0, [0, 0, 1 / 2, 1, 2, 3]), (1, [1, 3 / 2, 1, -4, 1 / 2, 6])]] := by decide +kernel

/-- The lines of this text. -/
def headLines : List String := ["#N 2 1", "#X 3 0 0", "#Y 0 3.0 0", "#Z 0 0 3e0", "#E -1.5", "#F"]

/-- The hypotheses of `C97_read_partial`: blank lines, atoms with blank space in front, more than one configuration. -/
def goodLines : List (List Char) :=
  (headLines ++ [" 0 0 0 0.5 1 2 3", "1 1 1.5 1 -4 5e-1 6", "", "  "] ++ headLines ++
    ["0 0 0 0.5 1 2 3", "", "\t1 1 1.5 1 -4 5e-1 6"]).map String.toList

example : ShortLines goodLines ∧ FlushLines (decimal : Scan ℚ) goodLines ∧
    ∃ cs, FileDescribes plainSettings (goodLines.map (lineOf decimal)) cs ∧ cs.length = 2 := by
  refine ⟨by unfold ShortLines; decide +kernel, ?_, ?_⟩
  · have : ∀ l ∈ goodLines, (l.all isSpace || (atomOf (decimal : Scan ℚ) l).isSome || l.head?.all fun c => !isSpace c) = true := by
      decide +kernel
    intro l hl
    have := this l hl
    rw [Bool.or_eq_true, Bool.or_eq_true, or_assoc] at this
    refine this.imp id (Or.imp id ?_)
    intro h c hc
    simpa [hc] using h
  · have h : ((readFile plainSettings (goodLines.map (lineOf decimal))).toOption.map fun cs => cs.length) = some 2 := by decide +kernel
    cases hr : readFile plainSettings (goodLines.map (lineOf decimal)) with
    | error e => rw [hr] at h; simp [Except.toOption] at h
    | ok cs =>
      rw [hr] at h
      exact ⟨cs, (C75_read _ _ _).1 hr, by simpa [Except.toOption] using h⟩

/-- The hypothesis of `C97_layout`: line breaks at other places. -/
example : tablesOf (headText ++ "0 0 0\n0.5 1\n2 3 1 1 1.5 1 -4 5e-1\n6") =
    some [[(0, [0, 0, 1 / 2, 1, 2, 3]), (1, [1, 3 / 2, 1, -4, 1 / 2, 6])]] := by decide +kernel

/-- A number missing in the line of the first atom, one too many in the line of the second: the file is accepted, and the type of the second
atom is taken as a force on the first one. -/
theorem C97_columns_violated :
    tablesOf (headText ++ "0 0 0 0.5 1 2\n1 1 1 1 1 -4 5 6\n") =
      some [[(0, [0, 0, 1 / 2, 1, 2, 1]), (1, [1, 1, 1, -4, 5, 6])]] ∧
    ¬ ∃ cs, FileDescribes plainSettings
      ((headLines ++ ["0 0 0 0.5 1 2", "1 1 1 1 1 -4 5 6"]).map fun l => lineOf decimal l.toList) cs := by
  refine ⟨by decide +kernel, ?_⟩
  rw [← C75_reject]
  have h : describedText (headLines ++ ["0 0 0 0.5 1 2", "1 1 1 1 1 -4 5 6"]) = false := by decide +kernel
  unfold describedText at h
  cases hr : readFile plainSettings ((headLines ++ ["0 0 0 0.5 1 2", "1 1 1 1 1 -4 5 6"]).map fun l => lineOf decimal l.toList) with
  | error e => exact ⟨e, rfl⟩
  | ok cs => rw [hr] at h; simp [Except.toOption] at h

/-- Types written with a decimal point: `%d` stops in front of the point, and all the following numbers are taken for the one before them.
The file is accepted if another configuration follows. -/
theorem C97_real_types_violated :
    tablesOf (headText ++ "0.0 1 2 2 0 0 0\n1.0 2 2 1 0 0 0\n" ++ headText ++ "0 0 0 0.5 1 2 3\n1 1 1 1 -4 5 6\n") =
      some [[(0, [0, 1, 2, 2, 0, 0]), (0, [1, 2, 2, 1, 0, 0])], [(0, [0, 0, 1 / 2, 1, 2, 3]), (1, [1, 1, 1, -4, 5, 6])]] ∧
    tablesOf (headText ++ "0.0 1 2 2 0 0 0\n1.0 2 2 1 0 0 0\n") = none := by decide +kernel

/-- A surplus number behind the last atom is ignored if another configuration follows and an error at the end of the file; a last line
without meaning is an error only if it ends with a line feed. -/
theorem C97_end_violated :
    (tablesOf (headText ++ "0 0 0 0.5 1 2 3\n1 1 1 1 -4 5 6 7\n" ++ headText ++ "0 0 0 0.5 1 2 3\n1 1 1 1 -4 5 6\n")).isSome = true ∧
    tablesOf (headText ++ "0 0 0 0.5 1 2 3\n1 1 1 1 -4 5 6 7\n") = none ∧
    (tablesOf (headText ++ "0 0 0 0.5 1 2 3\n1 1 1 1 -4 5 6\n# end")).isSome = true ∧
    tablesOf (headText ++ "0 0 0 0.5 1 2 3\n1 1 1 1 -4 5 6\n# end\n") = none := by decide +kernel

end Verif.Props
