/-
C37  The line reader removes carriage returns.
-/
import Verif.Model.LineReader

namespace Verif.Props

open Verif.LineReader

theorem cstr_append (s b : List Nat) (h : ∀ c ∈ s, c ≠ 0) : cstr (s ++ 0 :: b) = s := by
  unfold cstr
  induction s with
  | nil => simp
  | cons a s ih =>
    simp only [List.cons_append, List.takeWhile_cons]
    rw [if_pos (by simpa using h a (by simp)), ih fun c hc => h c (List.mem_cons_of_mem _ hc)]

theorem hasCrlf_append (s b : List Nat) (h : ∀ c ∈ s, c ≠ 0) :
    hasCrlf (s ++ 0 :: b) = true ↔ ∃ p q, s = p ++ cr :: lf :: q := by
  induction s with
  | nil =>
    simp only [List.nil_append]
    constructor
    · intro hc
      cases b <;> simp [hasCrlf] at hc
    · rintro ⟨p, q, e⟩
      simp at e
  | cons a s ih =>
    have ha : a ≠ 0 := h a (by simp)
    have ih := ih fun c hc => h c (List.mem_cons_of_mem _ hc)
    have hcons : hasCrlf (a :: (s ++ 0 :: b)) = true ↔ (a = cr ∧ ∃ s', s = lf :: s') ∨ hasCrlf (s ++ 0 :: b) = true := by
      cases s with
      | nil =>
        simp only [List.nil_append]
        rw [hasCrlf, if_neg ha]
        have : ¬(a = cr ∧ (0 : Nat) = lf) := fun h => by simp [lf] at h
        rw [if_neg this]
        simp
      | cons d s =>
        simp only [List.cons_append]
        rw [hasCrlf, if_neg ha]
        by_cases e : a = cr ∧ d = lf
        · rw [if_pos e]
          simp [e]
        · rw [if_neg e]
          constructor
          · exact Or.inr
          · rintro (⟨h1, s', h2⟩ | h)
            · simp only [List.cons.injEq] at h2
              exact absurd ⟨h1, h2.1⟩ e
            · exact h
    rw [List.cons_append, hcons, ih]
    constructor
    · rintro (⟨rfl, s', rfl⟩ | ⟨p, q, rfl⟩)
      · exact ⟨[], s', rfl⟩
      · exact ⟨a :: p, q, rfl⟩
    · rintro ⟨p, q, e⟩
      cases p with
      | nil =>
        simp only [List.nil_append, List.cons.injEq] at e
        exact Or.inl ⟨e.1, q, e.2⟩
      | cons p0 p =>
        simp only [List.cons_append, List.cons.injEq] at e
        exact Or.inr ⟨p, q, e.2⟩

/-- **C37, what holds.** For a line `s` without 0: if a carriage return is followed by a line feed, the string in the buffer
afterwards is the line without its carriage returns, followed by as many characters from the end of the line as carriage returns
were removed; otherwise the buffer is unchanged.  Missing for the full claim: the additional characters (`C37_tail_violated`),
and carriage returns not followed by a line feed (`C37_lone_violated`). -/
theorem C37_partial (s old : List Nat) (h : ∀ c ∈ s, c ≠ 0) :
    ((∃ p q, s = p ++ cr :: lf :: q) → cstr (convert (s ++ 0 :: old)) =
      s.filter (· ≠ cr) ++ s.drop (s.filter (· ≠ cr)).length) ∧
      ((¬∃ p q, s = p ++ cr :: lf :: q) → cstr (convert (s ++ 0 :: old)) = s) := by
  unfold convert
  simp only [cstr_append s old h]
  constructor
  · intro hc
    rw [if_pos ((hasCrlf_append s old h).2 hc), List.drop_append_of_le_length (List.length_filter_le _ _), ← List.append_assoc]
    apply cstr_append
    intro c hc
    rcases List.mem_append.1 hc with hc | hc
    · exact h c (List.mem_of_mem_filter hc)
    · exact h c (List.mem_of_mem_drop hc)
  · intro hc
    rw [if_neg (fun e => hc ((hasCrlf_append s old h).1 e)), cstr_append s old h]

theorem takeWhile_append_lf (s t : List Nat) (h : ∀ c ∈ s, c ≠ lf) : (s ++ lf :: t).takeWhile (· ≠ lf) = s := by
  induction s with
  | nil => simp
  | cons a s ih =>
    simp only [List.cons_append, List.takeWhile_cons]
    rw [if_pos (by simpa using h a (by simp)), ih fun c hc => h c (List.mem_cons_of_mem _ hc)]

/-- **C37, up to the line feed.** For a line ending in carriage return and line feed the buffer holds, up to the first line feed,
exactly the line's characters without the carriage returns. -/
theorem C37_line (s old : List Nat) (h0 : ∀ c ∈ s, c ≠ 0) (h : ∀ c ∈ s, c ≠ lf) :
    (cstr (convert (s ++ cr :: lf :: 0 :: old))).takeWhile (· ≠ lf) = s.filter (· ≠ cr) := by
  have h1 := (C37_partial (s ++ [cr, lf]) old (by
    intro c hc
    rcases List.mem_append.1 hc with hc | hc
    · exact h0 c hc
    · rcases List.mem_cons.1 hc with rfl | hc
      · decide
      · rw [List.mem_singleton.1 hc]; decide)).1 ⟨s, [], rfl⟩
  simp only [List.append_assoc, List.cons_append, List.nil_append] at h1
  rw [h1]
  have h2 : (s ++ [cr, lf]).filter (· ≠ cr) = s.filter (· ≠ cr) ++ [lf] := by
    rw [List.filter_append]
    rfl
  have h3 : (s ++ cr :: [lf]).filter (· ≠ cr) = s.filter (· ≠ cr) ++ [lf] := h2
  rw [h3, List.append_assoc]
  exact takeWhile_append_lf _ _ fun c hc => h c (List.mem_of_mem_filter hc)

/-- **C37, Unix lines.** A line without carriage returns is returned as it is. -/
theorem C37_unix (s old : List Nat) (h : ∀ c ∈ s, c ≠ 0 ∧ c ≠ cr) : cstr (convert (s ++ 0 :: old)) = s := by
  refine (C37_partial s old fun c hc => (h c hc).1).2 ?_
  rintro ⟨p, q, rfl⟩
  exact (h cr (by simp)).2 rfl

/-- **C37, splitting.** `fgets` neither loses nor invents characters, and a line feed occurs at most at the end of a line. -/
theorem C37_fgets (n : Nat) (f : List Nat) :
    (fgets n f).1 ++ (fgets n f).2 = f ∧ (fgets n f).1.length ≤ n ∧ ∀ c ∈ (fgets n f).1.dropLast, c ≠ lf := by
  induction n generalizing f with
  | zero => simp [fgets]
  | succ n ih =>
    cases f with
    | nil => simp [fgets]
    | cons c f =>
      unfold fgets
      split
      · simp
      · next hc =>
        obtain ⟨h1, h2, h3⟩ := ih f
        refine ⟨by simpa using h1, by simpa using h2, ?_⟩
        intro d hd
        cases hl : (fgets n f).1 with
        | nil => rw [hl] at hd; simp at hd
        | cons e l =>
          rw [hl] at hd h3
          rw [List.dropLast_cons_of_ne_nil (by simp)] at hd
          rcases List.mem_cons.1 hd with rfl | hd
          · exact hc
          · exact h3 d hd

example : (∀ c ∈ [97, 98], c ≠ 0) ∧ (∀ c ∈ [97, 98], c ≠ lf) ∧
    fgetsPotfit 1024 [] [97, 98, 13, 10, 99] = some ([97, 98, 10, 10, 0], [99]) := by decide

/-- **C37, line end: violated.** "abc\r\n" is read as "abc\n\n": the terminating 0 is not copied. -/
theorem C37_tail_violated : (fgetsPotfit 1024 [] [97, 98, 99, 13, 10]).map (fun r => cstr r.1) = some [97, 98, 99, 10, 10] ∧
    [97, 98, 99, 13, 10].filter (· ≠ cr) = [97, 98, 99, 10] := by decide

/-- **C37, lone carriage return: violated.** A carriage return which is not followed by a line feed is kept. -/
theorem C37_lone_violated : (fgetsPotfit 1024 [] [97, 13, 98, 10]).map (fun r => cstr r.1) = some [97, 13, 98, 10] ∧
    [97, 13, 98, 10].filter (· ≠ cr) = [97, 98, 10] := by decide

end Verif.Props
