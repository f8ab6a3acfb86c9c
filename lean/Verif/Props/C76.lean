/-
C76: Names of the elements in configuration files.

The lines `#C` of all configurations, and the names in the potential file, have to agree; the names used afterwards are those of the
lines.  The theorems hold for names of at most 14 characters which are not numbers; for others they fail.
-/
import Verif.Model.ConfigFile
import Mathlib.Data.List.GetD
import Mathlib.Tactic.Common

set_option linter.unusedSectionVars false

namespace Verif.Props

open Verif.ConfigFile

/-- Words of at most 14 characters; the word for type `i > 0` does not begin with the number `i`. -/
def PlainNames (n : Nat) (lines : List (List String)) : Prop :=
  ∀ ws ∈ lines, ∀ (i : Nat) (w : String), ws[i]? = some w → i < n → w.length ≤ 14 ∧ (0 < i → atoi w ≠ i)

/-- The words of all lines are those of one list of names, which are the ones of the potential file if there are any. -/
def Agree (n : Nat) (pot : Option (List String)) (lines : List (List String)) (names : List String) : Prop :=
  names.length = n ∧ (∀ p, pot = some p → names = p) ∧
    ∀ ws ∈ lines, ∀ (i : Nat) (w : String), ws[i]? = some w → i < n → names[i]? = some w

theorem digitsVal_eq (l : List Char) (n : Nat) (h : ∀ c ∈ l, c.isDigit = true) : digitsVal n l = Nat.ofDigitChars 10 l n := by
  induction l generalizing n with
  | nil => simp [digitsVal]
  | cons c l ih =>
    rw [digitsVal, if_pos (h c (by simp)), ih _ (fun x hx => h x (List.mem_cons_of_mem _ hx)), Nat.ofDigitChars_cons]
    rfl

theorem atoi_toString (i : Nat) : atoi (toString i) = i := by
  have hd : ∀ c ∈ Nat.toDigits 10 i, c.isDigit = true := fun c hc => Nat.isDigit_of_mem_toDigits (by omega) (by omega) hc
  have hv : digitsVal 0 (Nat.toDigits 10 i) = i := by
    rw [digitsVal_eq _ _ hd, Nat.ofDigitChars_toDigits (by omega) (by omega)]
  unfold atoi
  have hs : (toString i).toList = Nat.toDigits 10 i := Nat.toList_repr
  rw [hs]
  generalize Nat.toDigits 10 i = l at hd hv
  split
  · rename_i cs _
    have := hd '-' (by simp)
    simp [Char.isDigit] at this
  · rename_i cs _
    have := hd '+' (by simp)
    simp [Char.isDigit] at this
  · exact_mod_cast hv

/-- Names after number `fixed` are still the numbers. -/
structure Pending (n : Nat) (m : Names) : Prop where
  length : m.names.length = n
  fixed : m.fixed ≤ n
  rest : ∀ i, m.fixed ≤ i → i < n → m.names[i]? = some (toString i)

theorem clip_short {w : String} (h : w.length ≤ 14) : clip w = w := by
  unfold clip
  rw [if_neg (by omega)]

theorem pending_set {n : Nat} {m : Names} (h : Pending n m) (hi : m.fixed < n) (w : String) :
    Pending n ⟨m.names.set m.fixed w, m.fixed + 1⟩ := by
  refine ⟨by simp [h.length], hi, fun j hj hn => ?_⟩
  simp only at hj ⊢
  rw [List.getElem?_set_ne (by omega)]
  exact h.rest j (by omega) hn

theorem getElem?_set_fixed {n : Nat} {m : Names} (h : Pending n m) (hi : m.fixed < n) (w : String) :
    (m.names.set m.fixed w)[m.fixed]? = some w := by
  rw [List.getElem?_set_self (by rw [h.length]; exact hi)]

/-- What one line does. -/
structure Step (n : Nat) (m r : Names) (i : Nat) (ws : List String) : Prop where
  pending : Pending n r
  fixed : m.fixed ≤ r.fixed
  old : ∀ j, j < m.fixed → r.names[j]? = m.names[j]?
  new : ∀ j w, ws[j]? = some w → i + j < n → r.names[i + j]? = some w ∧ i + j < r.fixed
  only : ∀ j, m.fixed ≤ j → j < r.fixed → ∃ w, ws[j - i]? = some w ∧ i ≤ j

theorem step_cons {n : Nat} {m m1 r : Names} {i : Nat} {w : String} {ws : List String} (hm : m1.fixed = max m.fixed (i + 1))
    (hi : i ≤ m.fixed) (old : ∀ j, j < m.fixed → m1.names[j]? = m.names[j]?) (hw : m1.names[i]? = some w)
    (h : Step n m1 r (i + 1) ws) : Step n m r i (w :: ws) := by
  refine ⟨h.pending, ?_, ?_, ?_, ?_⟩
  · have := h.fixed
    omega
  · intro j hj
    rw [h.old j (by omega), old j hj]
  · intro j w' hj hn
    cases j with
    | zero =>
      simp only [List.getElem?_cons_zero, Option.some.injEq] at hj
      subst hj
      have := h.fixed
      refine ⟨?_, by omega⟩
      rw [h.old _ (by omega)]
      exact hw
    | succ j =>
      have := h.new j w' (by simpa using hj) (by omega)
      have e : i + 1 + j = i + (j + 1) := by omega
      rwa [e] at this
  · intro j h1 h2
    by_cases hj : j < m1.fixed
    · have : j = i := by omega
      subst this
      exact ⟨w, by simp, le_refl _⟩
    · obtain ⟨w', h3, h4⟩ := h.only j (by omega) h2
      refine ⟨w', ?_, by omega⟩
      have e : j - i = (j - (i + 1)) + 1 := by omega
      rw [e]
      simpa using h3

theorem setNames_step (n : Nat) (ws : List String) (m : Names) (h : Pending n m)
    (hp : ∀ j w, ws[j]? = some w → m.fixed + j < n → w.length ≤ 14) : Step n m (setNames m m.fixed ws) m.fixed ws := by
  induction ws generalizing m with
  | nil =>
    simp only [setNames]
    exact ⟨h, le_refl _, fun _ _ => rfl, by simp, fun j h1 h2 => by omega⟩
  | cons w ws ih =>
    simp only [setNames]
    by_cases hi : m.fixed < m.names.length
    · rw [if_pos hi]
      rw [h.length] at hi
      rw [clip_short (hp 0 w rfl (by omega))]
      have h1 := pending_set h hi w
      have := ih ⟨m.names.set m.fixed w, m.fixed + 1⟩ h1 (fun j w' hj hn => hp (j + 1) w' (by simpa using hj) (by
        simp only at hn; omega))
      refine step_cons (m1 := ⟨m.names.set m.fixed w, m.fixed + 1⟩) ?_ (le_refl _) ?_ ?_ this
      · simp
      · intro j hj
        exact List.getElem?_set_ne (by omega)
      · exact getElem?_set_fixed h hi w
    · rw [if_neg hi]
      rw [h.length] at hi
      refine ⟨h, le_refl _, fun _ _ => rfl, fun j w' _ hn => by omega, fun j h1 h2 => by omega⟩

theorem compareNames_step (n : Nat) (ws : List String) (m r : Names) (i : Nat) (h : Pending n m) (hi : i ≤ m.fixed) (h0 : 0 < m.fixed)
    (hp : ∀ j w, ws[j]? = some w → i + j < n → w.length ≤ 14 ∧ (0 < i + j → atoi w ≠ ((i + j : Nat) : Int)))
    (hr : compareNames m i ws = some r) : Step n m r i ws := by
  induction ws generalizing m i with
  | nil =>
    simp only [compareNames, Option.some.injEq] at hr
    subst hr
    exact ⟨h, le_refl _, fun _ _ => rfl, by simp, fun j h1 h2 => by omega⟩
  | cons w ws ih =>
    simp only [compareNames] at hr
    cases hg : m.names[i]? with
    | none =>
      simp only [hg, Option.some.injEq] at hr
      subst hr
      have := List.getElem?_eq_none_iff.1 hg
      rw [h.length] at this
      exact ⟨h, le_refl _, fun _ _ => rfl, fun j w' _ hn => by omega, fun j h1 h2 => by omega⟩
    | some name =>
      have hin : i < n := by
        rw [← h.length]
        exact (List.getElem?_eq_some_iff.1 hg).1
      have hp' : ∀ j w, ws[j]? = some w → i + 1 + j < n → w.length ≤ 14 ∧ (0 < i + 1 + j → atoi w ≠ ((i + 1 + j : Nat) : Int)) := by
        intro j w' hj hn
        have e : i + 1 + j = i + (j + 1) := by omega
        rw [e] at hn ⊢
        exact hp (j + 1) w' (by simpa using hj) hn
      simp only [hg] at hr
      have hpw := hp 0 w rfl (by omega)
      by_cases hw : w = name
      · subst hw
        simp only [ne_eq, not_true_eq_false, if_false] at hr
        by_cases hif : i < m.fixed
        · refine step_cons (m1 := m) (by omega) hi (fun _ _ => rfl) hg (ih m (i + 1) h (by omega) h0 hp' hr)
        · exfalso
          have : i = m.fixed := by omega
          subst this
          have hrest := h.rest m.fixed (le_refl _) hin
          rw [hg, Option.some.injEq] at hrest
          exact hpw.2 (by omega) (by rw [hrest, atoi_toString]; rfl)
      · simp only [ne_eq, hw, not_false_eq_true, if_true] at hr
        by_cases hc : atoi name = (i : Int) ∧ m.fixed ≤ i
        · rw [if_pos hc] at hr
          have : i = m.fixed := by omega
          subst this
          rw [clip_short hpw.1] at hr
          refine step_cons (m1 := ⟨m.names.set m.fixed w, m.fixed + 1⟩) (by simp) hi ?_ (getElem?_set_fixed h hin w)
            (ih _ _ (pending_set h hin w) (le_refl _) (by simp) hp' hr)
          intro j hj
          exact List.getElem?_set_ne (by omega)
        · rw [if_neg hc] at hr
          cases hr

theorem compareNames_accept (n : Nat) (ws : List String) (m : Names) (i : Nat) (h : Pending n m) (hi : i ≤ m.fixed) (h0 : 0 < m.fixed)
    (hp : ∀ j w, ws[j]? = some w → i + j < n → w.length ≤ 14 ∧ (0 < i + j → atoi w ≠ ((i + j : Nat) : Int)))
    (ha : ∀ j w, ws[j]? = some w → i + j < m.fixed → m.names[i + j]? = some w) : ∃ r, compareNames m i ws = some r := by
  induction ws generalizing m i with
  | nil => exact ⟨m, rfl⟩
  | cons w ws ih =>
    simp only [compareNames]
    have hp' : ∀ j w, ws[j]? = some w → i + 1 + j < n → w.length ≤ 14 ∧ (0 < i + 1 + j → atoi w ≠ ((i + 1 + j : Nat) : Int)) := by
      intro j w' hj hn
      have e : i + 1 + j = i + (j + 1) := by omega
      rw [e] at hn ⊢
      exact hp (j + 1) w' (by simpa using hj) hn
    have ha' : ∀ j w, ws[j]? = some w → i + 1 + j < m.fixed → m.names[i + 1 + j]? = some w := by
      intro j w' hj hn
      have e : i + 1 + j = i + (j + 1) := by omega
      rw [e] at hn ⊢
      exact ha (j + 1) w' (by simpa using hj) hn
    cases hg : m.names[i]? with
    | none => exact ⟨m, rfl⟩
    | some name =>
      have hin : i < n := by
        rw [← h.length]
        exact (List.getElem?_eq_some_iff.1 hg).1
      simp only
      have hpw := hp 0 w rfl (by omega)
      by_cases hif : i < m.fixed
      · have := ha 0 w rfl hif
        rw [Nat.add_zero, hg, Option.some.injEq] at this
        subst this
        simp only [ne_eq, not_true_eq_false, if_false]
        exact ih m (i + 1) h hif h0 hp' ha'
      · have : i = m.fixed := by omega
        subst this
        have hrest := h.rest m.fixed (le_refl _) hin
        rw [hg, Option.some.injEq] at hrest
        have hat : atoi name = (m.fixed : Int) := by rw [hrest, atoi_toString]
        have hw : w ≠ name := by
          rintro rfl
          exact hpw.2 (by omega) (by rw [hat]; rfl)
        simp only [ne_eq, hw, not_false_eq_true, if_true, hat, le_refl, and_self, clip_short hpw.1]
        refine ih _ _ (pending_set h hin w) (le_refl _) (by simp) hp' ?_
        intro j w' hj hn
        simp only at hn
        omega

theorem readElements_step (n : Nat) (ws : List String) (m r : Names) (h : Pending n m)
    (hp : ∀ j w, ws[j]? = some w → j < n → w.length ≤ 14 ∧ (0 < j → atoi w ≠ (j : Int)))
    (hr : readElements m ws = some r) : Step n m r 0 ws := by
  unfold readElements at hr
  by_cases h0 : m.fixed = 0
  · rw [if_pos h0, Option.some.injEq] at hr
    have := setNames_step n ws m h (fun j w hj hn => (hp j w hj (by omega)).1)
    rw [h0] at this
    rw [← hr]
    exact this
  · rw [if_neg h0] at hr
    exact compareNames_step n ws m r 0 h (Nat.zero_le _) (by omega) (fun j w hj hn => by
      rw [Nat.zero_add] at hn ⊢
      exact hp j w hj hn) hr

theorem readNames_spec (n : Nat) (lines : List (List String)) (hp : PlainNames n lines) (m r : Names) (h : Pending n m)
    (hr : readNames m lines = some r) :
    Pending n r ∧ m.fixed ≤ r.fixed ∧ (∀ j, j < m.fixed → r.names[j]? = m.names[j]?) ∧
      ∀ ws ∈ lines, ∀ j w, ws[j]? = some w → j < n → r.names[j]? = some w := by
  induction lines generalizing m with
  | nil =>
    simp only [readNames, List.foldlM_nil, pure, Option.some.injEq] at hr
    subst hr
    exact ⟨h, le_refl _, fun _ _ => rfl, by simp⟩
  | cons ws lines ih =>
    simp only [readNames, List.foldlM_cons, Option.bind_eq_bind] at hr
    obtain ⟨m1, h1, h2⟩ := Option.bind_eq_some_iff.1 hr
    have st := readElements_step n ws m m1 h (fun j w hj hn => hp ws (by simp) j w hj hn) h1
    obtain ⟨i1, i2, i3, i4⟩ := ih (fun x hx => hp x (List.mem_cons_of_mem _ hx)) m1 st.pending h2
    refine ⟨i1, le_trans st.fixed i2, ?_, ?_⟩
    · intro j hj
      rw [i3 j (lt_of_lt_of_le hj st.fixed), st.old j hj]
    · intro x hx j w hj hn
      rcases List.mem_cons.1 hx with rfl | hx
      · have := st.new j w hj (by omega)
        rw [Nat.zero_add] at this
        rw [i3 j this.2, this.1]
      · exact i4 x hx j w hj hn

theorem readNames_accept (n : Nat) (lines : List (List String)) (hp : PlainNames n lines) (m : Names) (h : Pending n m)
    (names : List String) (hold : ∀ j, j < m.fixed → m.names[j]? = names[j]?)
    (ha : ∀ ws ∈ lines, ∀ j w, ws[j]? = some w → j < n → names[j]? = some w) : ∃ r, readNames m lines = some r := by
  induction lines generalizing m with
  | nil => exact ⟨m, rfl⟩
  | cons ws lines ih =>
    have hpw : ∀ j w, ws[j]? = some w → j < n → w.length ≤ 14 ∧ (0 < j → atoi w ≠ (j : Int)) :=
      fun j w hj hn => hp ws (by simp) j w hj hn
    have : ∃ m1, readElements m ws = some m1 := by
      unfold readElements
      by_cases h0 : m.fixed = 0
      · rw [if_pos h0]
        exact ⟨_, rfl⟩
      · rw [if_neg h0]
        refine compareNames_accept n ws m 0 h (Nat.zero_le _) (by omega) (fun j w hj hn => ?_) (fun j w hj hf => ?_)
        · rw [Nat.zero_add] at hn ⊢
          exact hpw j w hj hn
        · rw [Nat.zero_add] at hf ⊢
          rw [hold j hf]
          exact ha ws (by simp) j w hj (lt_of_lt_of_le hf h.fixed)
    obtain ⟨m1, h1⟩ := this
    have st := readElements_step n ws m m1 h hpw h1
    obtain ⟨r, hr⟩ := ih (fun x hx => hp x (List.mem_cons_of_mem _ hx)) m1 st.pending (by
      intro j hj
      by_cases hjm : j < m.fixed
      · rw [st.old j hjm, hold j hjm]
      · obtain ⟨w, h3, -⟩ := st.only j (by omega) hj
        rw [Nat.sub_zero] at h3
        have hjn : j < n := lt_of_lt_of_le hj st.pending.fixed
        have := (st.new j w h3 (by omega)).1
        rw [Nat.zero_add] at this
        rw [this, ha ws (by simp) j w h3 hjn]) (fun x hx => ha x (List.mem_cons_of_mem _ hx))
    refine ⟨r, ?_⟩
    simp only [readNames, List.foldlM_cons, h1]
    exact hr

theorem startNames_pending (n : Nat) (pot : Option (List String)) (hpot : ∀ p, pot = some p → p.length = n) :
    Pending n (startNames n pot) := by
  cases pot with
  | some p => exact ⟨hpot p rfl, le_refl _, fun i h1 h2 => absurd h1 (by simp only [startNames]; omega)⟩
  | none =>
    refine ⟨by simp [startNames], by simp [startNames], fun i _ hi => ?_⟩
    simp [startNames, List.getElem?_range hi]

/-- Partial: after reading, the name of each type is the one given for it by every line `#C`, and by the potential file.
Missing: longer names and names that are numbers (`C76_overwritten_violated`). -/
theorem C76_names_partial (n : Nat) (pot : Option (List String)) (hpot : ∀ p, pot = some p → p.length = n)
    (lines : List (List String)) (hp : PlainNames n lines) (r : Names) (hr : readNames (startNames n pot) lines = some r) :
    Agree n pot lines r.names := by
  obtain ⟨h1, -, h3, h4⟩ := readNames_spec n lines hp _ r (startNames_pending n pot hpot) hr
  refine ⟨h1.length, ?_, h4⟩
  rintro p rfl
  have hl := hpot p rfl
  apply List.ext_getElem?
  intro j
  by_cases hj : j < n
  · exact h3 j hj
  · rw [List.getElem?_eq_none (by rw [h1.length]; omega), List.getElem?_eq_none (by omega)]

/-- Partial: the files accepted are those whose names agree.  Missing: longer names (`C76_long_violated`). -/
theorem C76_accept_partial (n : Nat) (pot : Option (List String)) (hpot : ∀ p, pot = some p → p.length = n)
    (lines : List (List String)) (hp : PlainNames n lines) :
    (∃ r, readNames (startNames n pot) lines = some r) ↔ ∃ names, Agree n pot lines names := by
  constructor
  · rintro ⟨r, hr⟩
    exact ⟨r.names, C76_names_partial n pot hpot lines hp r hr⟩
  · rintro ⟨names, -, h2, h3⟩
    refine readNames_accept n lines hp _ (startNames_pending n pot hpot) names ?_ h3
    intro j hj
    cases pot with
    | none => simp [startNames] at hj
    | some p => rw [h2 p rfl]; rfl

/-- Types not named by any line keep their number. -/
theorem C76_default_partial (n : Nat) (lines : List (List String)) (hp : PlainNames n lines) (r : Names)
    (hr : readNames (startNames n none) lines = some r) (i : Nat) (hi : i < n) (hl : ∀ ws ∈ lines, ws.length ≤ i) :
    r.names[i]? = some (toString i) := by
  have key : ∀ (lines : List (List String)) (m : Names), PlainNames n lines → Pending n m → m.fixed ≤ i →
      (∀ ws ∈ lines, ws.length ≤ i) → readNames m lines = some r → r.names[i]? = some (toString i) := by
    intro lines
    induction lines with
    | nil =>
      intro m _ h hf _ hr
      simp only [readNames, List.foldlM_nil, pure, Option.some.injEq] at hr
      subst hr
      exact h.rest i hf hi
    | cons ws lines ih =>
      intro m hp h hf hl hr
      simp only [readNames, List.foldlM_cons, Option.bind_eq_bind] at hr
      obtain ⟨m1, h1, h2⟩ := Option.bind_eq_some_iff.1 hr
      have st := readElements_step n ws m m1 h (fun j w hj hn => hp ws (by simp) j w hj hn) h1
      refine ih m1 (fun x hx => hp x (List.mem_cons_of_mem _ hx)) st.pending ?_ (fun x hx => hl x (List.mem_cons_of_mem _ hx)) h2
      by_contra hcon
      obtain ⟨w, h3, -⟩ := st.only i hf (by omega)
      have := (List.getElem?_eq_some_iff.1 h3).1
      have := hl ws (by simp)
      omega
  exact key lines _ hp (startNames_pending n none (by simp)) (Nat.zero_le _) hl hr

/-! Examples -/

example : PlainNames 3 [["Al"], [], ["Al", "Ni", "Co"]] := by
  unfold PlainNames
  intro ws hws i w hw hi
  have : i = 0 ∨ i = 1 ∨ i = 2 := by omega
  simp only [List.mem_cons, List.not_mem_nil, or_false] at hws
  rcases hws with rfl | rfl | rfl <;> rcases this with rfl | rfl | rfl <;> simp at hw <;> subst hw <;> decide +kernel

example : (readNames (startNames 3 none) [["Al"], [], ["Al", "Ni", "Co"]]).map (·.names) = some ["Al", "Ni", "Co"] := by
  decide +kernel

example : (readNames (startNames 2 none) [["Al", "Ni"], ["Ni", "Al"]]) = none := by decide +kernel
example : (readNames (startNames 2 (some ["Al", "Ni"])) [["Al", "Co"]]) = none := by decide +kernel

theorem setNames_get (ws : List String) (m : Names) (j : Nat) (k : Nat) (w : String) (hw : ws[k]? = some w)
    (hk : j + k < m.names.length) : (setNames m j ws).names[j + k]? = some (clip w) := by
  have keep : ∀ (ws : List String) (m : Names) (j i : Nat), i < j → (setNames m j ws).names[i]? = m.names[i]? := by
    intro ws
    induction ws with
    | nil => intro m j i _; rfl
    | cons w ws ih =>
      intro m j i hi
      simp only [setNames]
      split
      · rw [ih _ _ _ (by omega)]
        simp only
        rw [List.getElem?_set_ne (by omega)]
      · rfl
  induction ws generalizing m j k with
  | nil => simp at hw
  | cons w' ws ih =>
    simp only [setNames]
    rw [if_pos (by omega)]
    cases k with
    | zero =>
      simp only [List.getElem?_cons_zero, Option.some.injEq] at hw
      subst hw
      rw [keep _ _ _ _ (by omega)]
      simp only [Nat.add_zero]
      rw [List.getElem?_set_self (by omega)]
    | succ k =>
      rw [List.getElem?_cons_succ] at hw
      rw [show j + (k + 1) = j + 1 + k by omega]
      exact ih _ (j + 1) k hw (by simp only [List.length_set]; omega)

/-- After the first line the names are its words, cut to 14 characters; later words are ignored. -/
theorem C76_first_line (n : Nat) (ws : List String) :
    ∃ r, readNames (startNames n none) [ws] = some r ∧ r.names.length = n ∧ ∀ i w, ws[i]? = some w → i < n →
      ∃ name, r.names[i]? = some name ∧ name.toList = w.toList.take 14 := by
  have hlen : ∀ (ws : List String) (m : Names) (j : Nat), (setNames m j ws).names.length = m.names.length := by
    intro ws
    induction ws with
    | nil => intro m j; rfl
    | cons w ws ih =>
      intro m j
      simp only [setNames]
      split
      · rw [ih]; simp
      · rfl
  have h0 : (startNames n none).names.length = n := by simp [startNames]
  refine ⟨setNames (startNames n none) 0 ws, rfl, by rw [hlen, h0], fun i w hw hi => ⟨clip w, ?_, ?_⟩⟩
  · have := setNames_get ws (startNames n none) 0 i w hw (by omega)
    rwa [Nat.zero_add] at this
  · unfold clip
    split
    · rw [String.toList_ofList]
    · rename_i h
      rw [List.take_of_length_le (by rw [String.length_toList]; omega)]

example : (readNames (startNames 1 none) [["averylongname15", "Al"]]).map (·.names) = some ["averylongname1"] := by decide +kernel

/-- A name longer than 14 characters is cut off when it is stored, but not when it is compared: the same line in a second configuration
is an error. -/
theorem C76_long_violated :
    readNames (startNames 1 none) [["averylongname15"], ["averylongname15"]] = none ∧
    Agree 1 none [["averylongname15"], ["averylongname15"]] ["averylongname15"] := by
  refine ⟨by decide +kernel, rfl, by simp, ?_⟩
  intro ws hws i w hw hi
  obtain rfl : i = 0 := by omega
  simp only [List.mem_cons, List.not_mem_nil, or_false, or_self] at hws
  subst hws
  simpa using hw

/-- A name which is the number of the type can be replaced by a later line without an error. -/
theorem C76_overwritten_violated :
    (readNames (startNames 2 none) [["Al"], ["Al", "1"], ["Al", "Ni"]]).map (·.names) = some ["Al", "Ni"] := by decide +kernel

end Verif.Props
