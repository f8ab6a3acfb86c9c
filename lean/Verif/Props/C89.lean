/-
C89  Parameters of KIM models: file, table, model and output.
-/
import Verif.Lemmas.KimParams
import Mathlib.Tactic.Linarith
import Mathlib.Tactic.NormNum

set_option linter.unusedSectionVars false

namespace Verif.Props

open Verif.KimParams

section
variable {K : Type*} [Field K] [LinearOrder K]

/-- Number of the entries of all parameters before parameter `i`. -/
def kimPlace (ps : List (Param K)) (i : Nat) : Nat := ((ps.take i).map fun p => p.vals.extent).sum

/-- Value and limits written in a line: `default min max` or `value min max`. -/
def LineNumbers (def0 : K) (l : Line K) (x lo hi : K) : Prop :=
  (l.isDefault = true ∧ x = def0 ∧ ∃ rest, l.after = lo :: hi :: rest) ∨ (l.isDefault = false ∧ ∃ rest, l.nums = x :: lo :: hi :: rest)

theorem lineVals_ok {def0 x lo hi : K} {l : Line K} (h : lineVals def0 l = .ok (x, lo, hi)) : LineNumbers def0 l x lo hi := by
  unfold lineVals at h
  split at h
  · rename_i hd
    split at h
    · rename_i a b r hr
      simp only [Except.ok.injEq, Prod.mk.injEq] at h
      obtain ⟨rfl, rfl, rfl⟩ := h
      exact Or.inl ⟨hd, rfl, r, hr⟩
    · cases h
  · rename_i hd
    split at h
    · rename_i a b c r hr
      simp only [Except.ok.injEq, Prod.mk.injEq] at h
      obtain ⟨rfl, rfl, rfl⟩ := h
      exact Or.inr ⟨by simpa using hd, r, hr⟩
    · cases h

/-- An accepted file names the parameters of the model in their order and gives a line for each entry.  In the table an entry has the
value of its line, the limits in the right order around it, and is fixed exactly if they are equal; the cutoff is fixed.  Integers go
to the model. -/
theorem C89_table (ps : List (Param K)) (bs : List (Block K)) (st : State K) (h : readFile ps 0 0 bs (initial ps) = .ok st)
    (i : Nat) (p : Param K) (hp : ps[i]? = some p) :
    ∃ b, bs[i]? = some b ∧ b.name.toList <+: p.name.toList ∧ ∀ j < p.vals.extent, ∃ l, b.lines[j]? = some l ∧
      match p.vals with
      | .ints v => st.tab.invar (kimPlace ps i + j) = true ∧
          ((l.isDefault = true ∧ st.modelInt i j = v.getD j 0) ∨ (l.isDefault = false ∧ l.int = some (st.modelInt i j)))
      | .dbls v =>
        (b.cutoff = true → ∃ x rest, l.nums = x :: rest ∧ st.tab.value (kimPlace ps i + j) = x ∧ st.modelDbl i j = x ∧
          st.tab.invar (kimPlace ps i + j) = true) ∧
        (b.cutoff = false → l.head ≠ '!' → ∃ x lo hi, LineNumbers (v.getD j 0) l x lo hi ∧
          st.tab.value (kimPlace ps i + j) = x ∧ st.tab.pmin (kimPlace ps i + j) = min lo hi ∧
          st.tab.pmax (kimPlace ps i + j) = max lo hi ∧ (st.tab.invar (kimPlace ps i + j) = true ↔ lo = hi) ∧
          (lo ≠ hi → st.tab.pmin (kimPlace ps i + j) ≤ x ∧ x ≤ st.tab.pmax (kimPlace ps i + j))) := by
  obtain ⟨-, h2, -⟩ := readFile_ok h (initial_counted ps)
  obtain ⟨b, hb, hpre, hl⟩ := h2 i p hp
  refine ⟨b, hb, hpre, ?_⟩
  intro j hj
  obtain ⟨l, hlj, hok⟩ := hl j hj
  refine ⟨l, hlj, ?_⟩
  rw [show (0 : Nat) + (offset ps i + j) = kimPlace ps i + j by rw [Nat.zero_add]; rfl, Nat.zero_add] at hok
  obtain ⟨nm, vals, ic⟩ := p
  cases vals with
  | ints v =>
    simp only [LineOk] at hok ⊢
    obtain ⟨a1, a2, -, -, -, a3⟩ := hok
    refine ⟨a1, ?_⟩
    simp only [entry] at a2 a3
    rcases a3 with ⟨a3, a4⟩ | ⟨a3, a4, -⟩
    · refine Or.inl ⟨a3, ?_⟩
      rw [a2, a4]
      simp only [initial, initInt, hp]
    · refine Or.inr ⟨a3, ?_⟩
      rw [a2]
      exact a4
  | dbls v =>
    simp only [LineOk] at hok ⊢
    refine ⟨?_, ?_⟩
    · intro hc
      rw [if_pos hc] at hok
      obtain ⟨x, rest, hn, hd⟩ := hok
      simp only [entry, Entry.mk.injEq] at hd
      exact ⟨x, rest, hn, hd.1, hd.2.2.2.2.2.2, hd.2.2.2.1⟩
    · intro hc hh
      rw [if_neg (by simp [hc]), if_neg hh] at hok
      obtain ⟨x, lo, hi, hn, hd, hlim⟩ := hok
      simp only [entry, initial, Entry.mk.injEq] at hd
      obtain ⟨d1, d2, d3, d4, -⟩ := hd
      refine ⟨x, lo, hi, lineVals_ok hn, d1, d2, d3, ?_, ?_⟩
      · rw [d4]
        by_cases he : lo = hi
        · rw [if_pos he]
          exact ⟨fun _ => he, fun _ => rfl⟩
        · rw [if_neg he]
          exact ⟨fun hf => absurd hf (by simp), fun hf => absurd hf he⟩
      · intro he
        rw [d2, d3]
        exact hlim he

/-- The fitted parameters are the entries which are not fixed, in their order, and `idxlen` is their number. -/
theorem C89_fitted (ps : List (Param K)) (bs : List (Block K)) (st : State K) (h : readFile ps 0 0 bs (initial ps) = .ok st) :
    (fitted (total ps) st.tab).length = idxlen (total ps) st.tab ∧
    ∀ o, o ∈ fitted (total ps) st.tab ↔ o < total ps ∧ st.tab.invar o = false := by
  obtain ⟨h1, -, -⟩ := readFile_ok h (initial_counted ps)
  rw [Nat.zero_add] at h1
  refine ⟨?_, ?_⟩
  · unfold fitted idxlen
    rw [h1.count]
    have key : ∀ (l : List Nat) (f : Nat → Bool), (l.filter fun o => !f o).length + (l.filter fun o => f o).length = l.length := by
      intro l f
      induction l with
      | nil => rfl
      | cons a l ih =>
        by_cases ha : f a = true
        · simp [ha]
          omega
        · simp [ha]
          omega
    have := key (List.range (total ps)) st.tab.invar
    rw [List.length_range] at this
    omega
  · intro o
    unfold fitted
    simp [List.mem_filter, List.mem_range]

/-- An entry given as a global parameter (`!name`) is fitted with value and both limits zero. -/
theorem C89_global_violated (ps : List (Param K)) (bs : List (Block K)) (st : State K)
    (h : readFile ps 0 0 bs (initial ps) = .ok st) (i j : Nat) (p : Param K) (v : List K) (b : Block K) (l : Line K)
    (hp : ps[i]? = some p) (hv : p.vals = .dbls v) (hj : j < v.length) (hb : bs[i]? = some b) (hc : b.cutoff = false)
    (hl : b.lines[j]? = some l) (hh : l.head = '!') :
    kimPlace ps i + j ∈ fitted (total ps) st.tab ∧ st.tab.value (kimPlace ps i + j) = 0 ∧
    st.tab.pmin (kimPlace ps i + j) = 0 ∧ st.tab.pmax (kimPlace ps i + j) = 0 := by
  obtain ⟨-, h2, -⟩ := readFile_ok h (initial_counted ps)
  obtain ⟨b', hb', -, hl'⟩ := h2 i p hp
  rw [hb] at hb'
  cases hb'
  obtain ⟨l', hlj, hok⟩ := hl' j (by rw [hv]; exact hj)
  rw [hl] at hlj
  cases hlj
  rw [show (0 : Nat) + (offset ps i + j) = kimPlace ps i + j by rw [Nat.zero_add]; rfl, Nat.zero_add] at hok
  unfold LineOk at hok
  rw [hv] at hok
  simp only [hc, Bool.false_eq_true, if_false, hh, if_true] at hok
  simp only [entry, initial, Entry.mk.injEq, Pi.zero_apply] at hok
  obtain ⟨d1, d2, d3, d4, -⟩ := hok
  refine ⟨?_, d1, d2, d3⟩
  rw [(C89_fitted ps bs st h).2]
  refine ⟨?_, d4⟩
  obtain ⟨hil, hie⟩ := List.getElem?_eq_some_iff.1 hp
  have hsplit : ps = ps.take i ++ p :: ps.drop (i + 1) := by
    conv_lhs => rw [← List.take_append_drop i ps, List.drop_eq_getElem_cons hil, hie]
  have : total ps = kimPlace ps i + (p.vals.extent + total (ps.drop (i + 1))) := by
    conv_lhs => rw [hsplit]
    simp [total, kimPlace]
  rw [this, hv]
  show _ < kimPlace ps i + (v.length + _)
  omega

theorem updateDoubles_eq (xi : Nat → K) (i pos : Nat) (vs : List K) : ∀ (j : Nat) (m : Nat → Nat → K) (i' j' : Nat),
    updateDoubles xi i pos j vs m i' j' =
      if i' = i ∧ j ≤ j' ∧ j' < j + vs.length then (if xi (pos + j') ≠ vs.getD (j' - j) 0 then xi (pos + j') else m i' j') else m i' j' := by
  induction vs with
  | nil =>
    intro j m i' j'
    rw [if_neg (show ¬ (i' = i ∧ j ≤ j' ∧ j' < j + ([] : List K).length) by simp only [List.length_nil]; omega)]
    rfl
  | cons v vs ih =>
    intro j m i' j'
    simp only [updateDoubles]
    rw [ih]
    simp only [List.length_cons]
    have hm : ∀ a b, ¬ (a = i ∧ b = j) → (if xi (pos + j) ≠ v then set2 m i j (xi (pos + j)) else m) a b = m a b := by
      intro a b hab
      by_cases hx : xi (pos + j) ≠ v
      · rw [if_pos hx, set2_other _ _ hab]
      · rw [if_neg hx]
    by_cases hi : i' = i
    · subst hi
      rcases lt_trichotomy j' j with hlt | heq | hgt
      · rw [if_neg (show ¬ (i' = i' ∧ j + 1 ≤ j' ∧ j' < j + 1 + vs.length) by omega),
          if_neg (show ¬ (i' = i' ∧ j ≤ j' ∧ j' < j + (vs.length + 1)) by omega), hm i' j' (by omega)]
      · subst heq
        rw [if_neg (show ¬ (i' = i' ∧ j' + 1 ≤ j' ∧ j' < j' + 1 + vs.length) by omega),
          if_pos (show i' = i' ∧ j' ≤ j' ∧ j' < j' + (vs.length + 1) by omega)]
        simp only [Nat.sub_self, List.getD_cons_zero]
        by_cases hx : xi (pos + j') = v
        · simp [hx]
        · simp [hx, set2_self]
      · rw [hm i' j' (by omega)]
        have hs : (v :: vs).getD (j' - j) 0 = vs.getD (j' - (j + 1)) 0 := by
          rw [show j' - j = (j' - (j + 1)) + 1 by omega, List.getD_cons_succ]
        rw [hs]
        by_cases hin : j' < j + 1 + vs.length
        · rw [if_pos (show i' = i' ∧ j + 1 ≤ j' ∧ j' < j + 1 + vs.length by omega),
            if_pos (show i' = i' ∧ j ≤ j' ∧ j' < j + (vs.length + 1) by omega)]
        · rw [if_neg (show ¬ (i' = i' ∧ j + 1 ≤ j' ∧ j' < j + 1 + vs.length) by omega),
            if_neg (show ¬ (i' = i' ∧ j ≤ j' ∧ j' < j + (vs.length + 1)) by omega)]
    · rw [if_neg (show ¬ (i' = i ∧ j + 1 ≤ j' ∧ j' < j + 1 + vs.length) by tauto),
        if_neg (show ¬ (i' = i ∧ j ≤ j' ∧ j' < j + (vs.length + 1)) by tauto), hm i' j' (by tauto)]

theorem update_other (xi : Nat → K) (ps : List (Param K)) : ∀ (i pos : Nat) (m : Nat → Nat → K) (i' j' : Nat), i' < i →
    update xi ps i pos m i' j' = m i' j' := by
  induction ps with
  | nil => intro i pos m i' j' _; rfl
  | cons p ps ih =>
    intro i pos m i' j' hi
    obtain ⟨nm, vals, ic⟩ := p
    cases vals with
    | ints v =>
      simp only [update]
      exact ih _ _ _ _ _ (by omega)
    | dbls v =>
      simp only [update]
      rw [ih _ _ _ _ _ (by omega), updateDoubles_eq, if_neg (show ¬ (i' = i ∧ 0 ≤ j' ∧ j' < 0 + v.length) by omega)]

theorem update_eq (xi : Nat → K) (ps : List (Param K)) : ∀ (i pos : Nat) (m : Nat → Nat → K) (k : Nat) (p : Param K) (v : List K) (j : Nat),
    ps[k]? = some p → p.vals = .dbls v → (∀ q ∈ ps.take k, ∃ w, q.vals = .dbls w) → j < v.length →
    update xi ps i pos m (i + k) j =
      if xi (pos + (kimPlace ps k + j)) ≠ v.getD j 0 then xi (pos + (kimPlace ps k + j)) else m (i + k) j := by
  induction ps with
  | nil => intro i pos m k p v j h; simp at h
  | cons q ps ih =>
    intro i pos m k p v j hk hv hall hj
    cases k with
    | zero =>
      simp only [List.getElem?_cons_zero, Option.some.injEq] at hk
      subst hk
      simp only [update, hv]
      rw [update_other _ _ _ _ _ _ _ (by omega), Nat.add_zero, updateDoubles_eq, if_pos (show i = i ∧ 0 ≤ j ∧ j < 0 + v.length by omega)]
      simp [kimPlace]
    | succ k =>
      rw [List.getElem?_cons_succ] at hk
      obtain ⟨w, hw⟩ := hall q (by simp)
      simp only [update, hw]
      rw [show i + (k + 1) = i + 1 + k by omega, ih (i + 1) _ _ k p v j hk hv (fun r hr => hall r (by simp [hr])) hj]
      rw [updateDoubles_eq, if_neg (show ¬ (i + 1 + k = i ∧ 0 ≤ j ∧ j < 0 + w.length) by omega)]
      have : kimPlace (q :: ps) (k + 1) = w.length + kimPlace ps k := by
        simp [kimPlace, hw, Vals.extent]
      rw [this, show pos + w.length + (kimPlace ps k + j) = pos + (w.length + kimPlace ps k + j) by omega]

/-- Meant: before an evaluation each parameter of the model gets its own entry of the table. -/
def KimHanded (K : Type*) [Field K] [LinearOrder K] : Prop :=
  ∀ (ps : List (Param K)) (xi : Nat → K) (i : Nat) (p : Param K) (v : List K) (j : Nat), ps[i]? = some p → p.vals = .dbls v →
    j < v.length → update xi ps 0 0 (initDbl ps) i j = xi (kimPlace ps i + j)

/-- Parameters behind an integer parameter get entries of others. -/
theorem C89_handed_fails : ¬ KimHanded ℚ := by
  intro h
  have := h [⟨"n", .ints [2], false⟩, ⟨"a", .dbls [1], false⟩] (fun o => 10 * o) 1 ⟨"a", .dbls [1], false⟩ [1] 0 rfl rfl (by decide)
  revert this
  decide +kernel

/-- Parameters with no integer parameter before them get their own entries, if the model still holds the initial value wherever the
table does (C20 is about the other case). -/
theorem C89_handed_partial (ps : List (Param K)) (xi : Nat → K) (m : Nat → Nat → K) (i : Nat) (p : Param K) (v : List K) (j : Nat)
    (hp : ps[i]? = some p) (hv : p.vals = .dbls v) (hj : j < v.length) (hall : ∀ q ∈ ps.take i, ∃ w, q.vals = .dbls w)
    (hm : xi (kimPlace ps i + j) = v.getD j 0 → m i j = v.getD j 0) :
    update xi ps 0 0 m i j = xi (kimPlace ps i + j) := by
  have := update_eq xi ps 0 0 m i p v j hp hv hall hj
  rw [Nat.zero_add, Nat.zero_add] at this
  rw [this]
  by_cases hx : xi (kimPlace ps i + j) ≠ v.getD j 0
  · rw [if_pos hx]
  · rw [if_neg hx]
    push Not at hx
    rw [hx, hm hx]

/-- In particular in the first evaluation of the model as it was created. -/
theorem C89_first_partial (ps : List (Param K)) (xi : Nat → K) (i : Nat) (p : Param K) (v : List K) (j : Nat)
    (hp : ps[i]? = some p) (hv : p.vals = .dbls v) (hj : j < v.length) (hall : ∀ q ∈ ps.take i, ∃ w, q.vals = .dbls w) :
    update xi ps 0 0 (initDbl ps) i j = xi (kimPlace ps i + j) := by
  refine C89_handed_partial ps xi _ i p v j hp hv hj hall fun _ => ?_
  obtain ⟨name, vals, cut⟩ := p
  obtain rfl : vals = .dbls v := hv
  unfold initDbl
  rw [hp]

theorem write_get (rnd : K → K) (t : Table K) (ints : Nat → Nat → ℤ) (ps : List (Param K)) : ∀ (i pos k : Nat) (p : Param K),
    ps[k]? = some p → (write rnd t ints ps i pos)[k]? = some ⟨p.isCutoff, p.name, match p.vals with
      | .ints v => (List.range v.length).map fun j => outInt (ints (i + k) j)
      | .dbls v => v.zipIdx.map fun vj => outDouble rnd vj.1 (t.pmin (pos + kimPlace ps k + vj.2)) (t.pmax (pos + kimPlace ps k + vj.2))⟩ := by
  induction ps with
  | nil => intro i pos k p h; simp at h
  | cons q ps ih =>
    intro i pos k p hk
    cases k with
    | zero =>
      simp only [List.getElem?_cons_zero, Option.some.injEq] at hk
      subst hk
      obtain ⟨nm, vals, ic⟩ := q
      cases vals <;> simp [write, kimPlace]
    | succ k =>
      rw [List.getElem?_cons_succ] at hk
      simp only [write, List.getElem?_cons_succ]
      rw [ih (i + 1) (pos + q.vals.extent) k p hk]
      have : kimPlace (q :: ps) (k + 1) = q.vals.extent + kimPlace ps k := by
        simp [kimPlace]
      rw [this, show i + 1 + k = i + (k + 1) by omega, show pos + q.vals.extent + kimPlace ps k = pos + (q.vals.extent + kimPlace ps k) by omega]

/-- Meant: the potential file written at the end contains the values of the table. -/
def WritesFitted (K : Type*) [Field K] [LinearOrder K] : Prop :=
  ∀ (t : Table K) (ints : Nat → Nat → ℤ) (ps : List (Param K)) (i : Nat) (p : Param K) (v : List K) (j : Nat),
    ps[i]? = some p → p.vals = .dbls v → j < v.length →
    ∃ b l, (write id t ints ps 0 0)[i]? = some b ∧ b.lines[j]? = some l ∧ l.nums.head? = some (t.value (kimPlace ps i + j))

/-- The file contains the values the model had at the beginning, whatever was fitted; only the limits are those of the table. -/
theorem C89_written (rnd : K → K) (t : Table K) (ints : Nat → Nat → ℤ) (ps : List (Param K)) (i : Nat) (p : Param K) (v : List K) (j : Nat)
    (x : K) (hp : ps[i]? = some p) (hv : p.vals = .dbls v) (hx : v[j]? = some x) :
    ∃ b l, (write rnd t ints ps 0 0)[i]? = some b ∧ b.name = p.name ∧ b.cutoff = p.isCutoff ∧ b.lines[j]? = some l ∧
      l.nums = [rnd x, rnd (t.pmin (kimPlace ps i + j)), rnd (t.pmax (kimPlace ps i + j))] := by
  refine ⟨_, outDouble rnd x (t.pmin (kimPlace ps i + j)) (t.pmax (kimPlace ps i + j)), write_get rnd t ints ps 0 0 i p hp, rfl, rfl,
    ?_, ?_⟩
  · simp only [hv, List.getElem?_map, List.getElem?_zipIdx, hx, Option.map_some, Nat.zero_add]
  · rfl

theorem C89_written_fails : ¬ WritesFitted ℚ := by
  intro h
  obtain ⟨b, l, h1, h2, h3⟩ := h ⟨fun _ => 5, fun _ => 0, fun _ => 9, fun _ => false, 0⟩ (fun _ _ => 0) [⟨"a", .dbls [1], false⟩] 0
    ⟨"a", .dbls [1], false⟩ [1] 0 rfl rfl (by decide)
  obtain ⟨b', l', g1, -, -, g2, g3⟩ := C89_written (id : ℚ → ℚ) ⟨fun _ => 5, fun _ => 0, fun _ => 9, fun _ => false, 0⟩ (fun _ _ => 0)
    [⟨"a", .dbls [1], false⟩] 0 ⟨"a", .dbls [1], false⟩ [1] 0 1 rfl rfl rfl
  rw [g1] at h1
  cases h1
  rw [g2] at h2
  cases h2
  rw [g3] at h3
  simp at h3

theorem readLines_total {p : Param K} {cutoff : Bool} {i pos : Nat} : ∀ (n j : Nat) (ls : List (Line K)) (st : State K),
    (∀ k < n, ∃ l, ls[k]? = some l ∧ ∀ st, ∃ st', stepLine p cutoff i (j + k) (pos + (j + k)) l st = .ok st') →
    ∃ st', readLines p cutoff i pos n j ls st = .ok st' := by
  intro n
  induction n with
  | zero => intro j ls st _; exact ⟨st, rfl⟩
  | succ n ih =>
    intro j ls st h
    obtain ⟨l, hl, hst⟩ := h 0 (by omega)
    cases ls with
    | nil => simp at hl
    | cons l' ls =>
      simp only [List.getElem?_cons_zero, Option.some.injEq] at hl
      subst hl
      obtain ⟨st1, h1⟩ := hst st
      obtain ⟨st2, h2⟩ := ih (j + 1) ls st1 (by
        intro k hk
        obtain ⟨l2, hl2, hs2⟩ := h (k + 1) (by omega)
        rw [List.getElem?_cons_succ] at hl2
        refine ⟨l2, hl2, ?_⟩
        rw [show j + 1 + k = j + (k + 1) by omega]
        exact hs2)
      refine ⟨st2, ?_⟩
      simp only [readLines]
      rw [Nat.add_zero] at h1
      rw [h1]
      exact h2

theorem readFile_total : ∀ (ps : List (Param K)) (i pos : Nat) (bs : List (Block K)) (st : State K),
    (∀ (k : Nat) (p : Param K), ps[k]? = some p → ∃ b : Block K, bs[k]? = some b ∧ b.name = p.name ∧ ∀ j < p.vals.extent, ∃ l, b.lines[j]? = some l ∧
      ∀ (i o : Nat) (st : State K), ∃ st', stepLine p b.cutoff i j o l st = .ok st') →
    ∃ st', readFile ps i pos bs st = .ok st' := by
  intro ps
  induction ps with
  | nil => intro i pos bs st _; exact ⟨st, rfl⟩
  | cons p ps ih =>
    intro i pos bs st h
    obtain ⟨b, hb, hname, hl⟩ := h 0 p rfl
    cases bs with
    | nil => simp at hb
    | cons b' bs =>
      simp only [List.getElem?_cons_zero, Option.some.injEq] at hb
      subst hb
      obtain ⟨st1, h1⟩ := readLines_total (p := p) (cutoff := b'.cutoff) (i := i) (pos := pos) p.vals.extent 0 b'.lines st (by
        intro k hk
        obtain ⟨l, hl1, hl2⟩ := hl k hk
        refine ⟨l, hl1, ?_⟩
        intro st
        rw [Nat.zero_add]
        exact hl2 _ _ st)
      obtain ⟨st2, h2⟩ := ih (i + 1) (pos + p.vals.extent) bs st1 (by
        intro k q hq
        have := h (k + 1) q (by rw [List.getElem?_cons_succ]; exact hq)
        rw [List.getElem?_cons_succ] at this
        exact this)
      refine ⟨st2, ?_⟩
      simp only [readFile]
      have : readSingle p i pos b' st = .ok st1 := by
        unfold readSingle
        rw [if_neg (by rw [hname]; simp [List.isPrefixOf_iff_prefix]), h1]
      rw [this]
      exact h2

/-- Meant: a file written by the program is accepted by it. -/
def ReadsOwnFile (K : Type*) [Field K] [LinearOrder K] : Prop :=
  ∀ (ps : List (Param K)) (t : Table K), (∀ i p v, ps[i]? = some p → p.vals = .dbls v → ∀ j x, v[j]? = some x →
      t.pmin (kimPlace ps i + j) ≤ x ∧ x ≤ t.pmax (kimPlace ps i + j)) →
    ∃ st, readFile ps 0 0 (write id t (initInt ps) ps 0 0) (initial ps) = .ok st

/-- An integer beginning with 9 is rejected. -/
theorem C89_reread_fails : ¬ ReadsOwnFile ℚ := by
  intro h
  obtain ⟨st, hst⟩ := h [⟨"n", .ints [9], false⟩] ⟨0, 0, 0, fun _ => false, 0⟩ (by
    intro i p v hp hv
    cases i with
    | zero =>
      simp only [List.getElem?_cons_zero, Option.some.injEq] at hp
      subst hp
      cases hv
    | succ i => simp at hp)
  have : readFile ([⟨"n", .ints [9], false⟩] : List (Param ℚ)) 0 0 (write id ⟨0, 0, 0, fun _ => false, 0⟩ (initInt ([⟨"n", .ints [9], false⟩] : List (Param ℚ)))
    [⟨"n", .ints [9], false⟩] 0 0) (initial [⟨"n", .ints [9], false⟩]) = .error .line := by
    have e : (Int.repr 9).toList.head?.getD ' ' = '9' := by decide +kernel
    simp [readFile, write, readSingle, readLines, stepLine, stepInt, lineInt, outInt, initInt, Vals.extent, e]
  rw [this] at hst
  cases hst

/-- Other files are accepted, with the same limits and the same fitted parameters. -/
theorem C89_reread_partial (ps : List (Param K)) (t : Table K)
    (hd : ∀ i p v, ps[i]? = some p → p.vals = .dbls v → ∀ j x, v[j]? = some x →
      t.pmin (kimPlace ps i + j) ≤ x ∧ x ≤ t.pmax (kimPlace ps i + j))
    (hi : ∀ i p v, ps[i]? = some p → p.vals = .ints v → ∀ j < v.length,
      48 ≤ ((toString (initInt ps i j)).toList.headD ' ').toNat ∧ ((toString (initInt ps i j)).toList.headD ' ').toNat ≤ 56) :
    ∃ st, readFile ps 0 0 (write id t (initInt ps) ps 0 0) (initial ps) = .ok st ∧
      ∀ i p v, ps[i]? = some p → p.vals = .dbls v → p.isCutoff = false → ∀ j x, v[j]? = some x →
        st.tab.value (kimPlace ps i + j) = x ∧ st.tab.pmin (kimPlace ps i + j) = t.pmin (kimPlace ps i + j) ∧
        st.tab.pmax (kimPlace ps i + j) = t.pmax (kimPlace ps i + j) ∧
        (st.tab.invar (kimPlace ps i + j) = true ↔ t.pmin (kimPlace ps i + j) = t.pmax (kimPlace ps i + j)) := by
  obtain ⟨st, hst⟩ := readFile_total ps 0 0 (write id t (initInt ps) ps 0 0) (initial ps) (by
    intro k p hk
    refine ⟨_, write_get id t (initInt ps) ps 0 0 k p hk, rfl, ?_⟩
    intro j hj
    obtain ⟨nm, vals, ic⟩ := p
    cases vals with
    | ints v =>
      have hj' : j < v.length := hj
      refine ⟨outInt (initInt ps k j), ?_, ?_⟩
      · simp only [List.getElem?_map, List.getElem?_range hj', Option.map_some, Nat.zero_add]
      · intro i o st
        obtain ⟨h1, h2⟩ := hi k _ v hk rfl j hj'
        have hl : lineInt (K := K) (st.ints i j) (outInt (initInt ps k j)) = .ok (initInt ps k j) := by
          unfold lineInt outInt
          simp only [Bool.false_eq_true, if_false]
          have hne : (toString (initInt ps k j)).toList.headD ' ' ≠ '!' := by
            intro he
            rw [he] at h1
            revert h1
            decide
          rw [if_neg hne, if_neg (by push Not; omega)]
        exact ⟨_, by simp only [stepLine, stepInt]; rw [hl]⟩
    | dbls v =>
      have hj' : j < v.length := hj
      have hx : v[j]? = some v[j] := List.getElem?_eq_getElem hj'
      refine ⟨outDouble id v[j] (t.pmin (kimPlace ps k + j)) (t.pmax (kimPlace ps k + j)), ?_, ?_⟩
      · simp only [List.getElem?_map, List.getElem?_zipIdx, hx, Option.map_some, Nat.zero_add]
      · intro i o st
        obtain ⟨h1, h2⟩ := hd k _ v hk rfl j v[j] hx
        simp only [stepLine]
        by_cases hc : ic = true
        · rw [if_pos hc]
          exact ⟨_, rfl⟩
        · rw [if_neg hc]
          unfold stepDouble
          rw [if_neg (by simp [outDouble])]
          simp only [lineVals, outDouble, Bool.false_eq_true, if_false, id]
          unfold storeVals
          have hle : ¬ t.pmin (kimPlace ps k + j) > t.pmax (kimPlace ps k + j) := not_lt.2 (h1.trans h2)
          simp only [if_neg hle]
          rw [if_neg (by
            rintro ⟨-, hh | hh⟩
            · exact absurd h1 (not_le.2 hh)
            · exact absurd h2 (not_le.2 hh))]
          exact ⟨_, rfl⟩)
  refine ⟨st, hst, ?_⟩
  intro i p v hp hv hc j x hx
  obtain ⟨b, hb, -, hl⟩ := C89_table ps _ st hst i p hp
  obtain ⟨b', l', g1, -, g2, g3, g4⟩ := C89_written id t (initInt ps) ps i p v j x hp hv hx
  rw [g1] at hb
  cases hb
  have hj : j < p.vals.extent := by
    rw [hv]
    exact (List.getElem?_eq_some_iff.1 hx).1
  obtain ⟨l, hl1, hl2⟩ := hl j hj
  rw [g3] at hl1
  cases hl1
  rw [hv] at hl2
  have hw := write_get id t (initInt ps) ps 0 0 i p hp
  rw [g1, Option.some.injEq] at hw
  have hline : l' = outDouble id x (t.pmin (kimPlace ps i + j)) (t.pmax (kimPlace ps i + j)) := by
    rw [hw] at g3
    simp only [hv, List.getElem?_map, List.getElem?_zipIdx, hx, Option.map_some, Nat.zero_add, Option.some.injEq] at g3
    exact g3.symm
  obtain ⟨x', lo, hi', hn, e1, e2, e3, e4, -⟩ := hl2.2 (by rw [g2, hc]) (by rw [hline]; simp [outDouble])
  obtain ⟨h1, h2⟩ := hd i p v hp hv j x hx
  rcases hn with ⟨hf, -⟩ | ⟨-, rest, hn⟩
  · rw [hline] at hf
    simp [outDouble] at hf
  · rw [g4] at hn
    simp only [id, List.cons.injEq] at hn
    obtain ⟨rfl, rfl, rfl, -⟩ := hn
    refine ⟨e1, ?_, ?_, e4⟩
    · rw [e2, min_eq_left (h1.trans h2)]
    · rw [e3, max_eq_right (h1.trans h2)]

/-- All distances the model asks for are covered by neighbour lists of range `r`. -/
def Covered (r : K) (x : Reach K) : Prop := x.influence ≤ r ∧ ∀ c ∈ x.cutoffs, c ≤ r

theorem foldMax_le (l : List K) : ∀ (m : K), m ≤ l.foldl (fun m c => if c > m then c else m) m ∧
    ∀ c ∈ l, c ≤ l.foldl (fun m c => if c > m then c else m) m := by
  induction l with
  | nil => intro m; exact ⟨le_rfl, by simp⟩
  | cons a l ih =>
    intro m
    rw [List.foldl_cons]
    obtain ⟨h1, h2⟩ := ih (if a > m then a else m)
    have ha : a ≤ (if a > m then a else m) ∧ m ≤ (if a > m then a else m) := by
      by_cases h : a > m
      · rw [if_pos h]
        exact ⟨le_rfl, h.le⟩
      · rw [if_neg h]
        exact ⟨not_lt.1 h, le_rfl⟩
    refine ⟨ha.2.trans h1, ?_⟩
    intro c hc
    rcases List.mem_cons.1 hc with rfl | hc
    · exact ha.1.trans h1
    · exact h2 c hc

theorem checkReach_ok {old new r : Reach K} (h : checkReach old new = .ok r) :
    r = new ∧ new.influence ≤ old.influence ∧ ∀ (i : Nat) (a b : K), old.cutoffs[i]? = some a → new.cutoffs[i]? = some b → b ≤ a := by
  unfold checkReach at h
  split at h
  · cases h
  · rename_i h1
    split at h
    · cases h
    · split at h
      · cases h
      · rename_i h3
        simp only [Except.ok.injEq] at h
        refine ⟨h.symm, not_lt.1 h1, ?_⟩
        intro i a b ha hb
        simp only [Bool.not_eq_true, List.any_eq_false] at h3
        have hz : (a, b) ∈ old.cutoffs.zip new.cutoffs := by
          apply List.mem_of_getElem? (i := i)
          rw [List.getElem?_zip_eq_some]
          exact ⟨ha, hb⟩
        have := h3 (a, b) hz
        simpa using this

/-- As long as the evaluations do not stop, the lists cover all distances the model asks for. -/
theorem C89_cutoff_safe (reach : (Nat → Nat → K) → Reach K) (hlen : ∀ m m', (reach m).cutoffs.length = (reach m').cutoffs.length)
    (ps : List (Param K)) (bs : List (Block K)) (r : K) (st : State K) (h : readPot reach ps bs = .ok (r, st))
    (xis : List (Nat → K)) (e : Eval K)
    (he : xis.foldlM (fun s xi => evaluate reach ps xi s) ⟨st.modelDbl, reach (initDbl ps)⟩ = .ok e) :
    xis ≠ [] → Covered r (reach e.model) := by
  have h0 : Covered r (reach (initDbl ps)) := by
    unfold readPot at h
    split at h
    · cases h
    · rename_i r' hr'
      split at h
      · cases h
      · simp only [Except.ok.injEq, Prod.mk.injEq] at h
        unfold maxCutoff at hr'
        split at hr'
        · simp only [Except.ok.injEq] at hr'
          rw [← h.1, ← hr']
          exact foldMax_le _ _
        · cases hr'
  have key : ∀ (xis : List (Nat → K)) (s e : Eval K), (∃ m, s.old = reach m) → Covered r s.old →
      xis.foldlM (fun s xi => evaluate reach ps xi s) s = .ok e →
      (xis = [] ∧ e = s) ∨ (e.old = reach e.model ∧ Covered r e.old) := by
    intro xis
    induction xis with
    | nil =>
      intro s e _ _ hh
      simp only [List.foldlM_nil] at hh
      cases hh
      exact Or.inl ⟨rfl, rfl⟩
    | cons xi xis ih =>
      intro s e ⟨m, hm⟩ hc hh
      rw [List.foldlM_cons] at hh
      cases hev : evaluate reach ps xi s with
      | error f => rw [hev] at hh; cases hh
      | ok s1 =>
        rw [hev] at hh
        have hs1 : s1.old = reach s1.model ∧ Covered r s1.old := by
          unfold evaluate at hev
          split at hev
          · cases hev
          · rename_i q hq
            simp only [Except.ok.injEq] at hev
            subst hev
            obtain ⟨h1, h2, h3⟩ := checkReach_ok hq
            refine ⟨h1, ?_⟩
            simp only
            rw [h1]
            refine ⟨h2.trans hc.1, ?_⟩
            intro c hcm
            obtain ⟨k, hk⟩ := List.getElem?_of_mem hcm
            have hk' : k < s.old.cutoffs.length := by
              rw [hm, hlen m (update xi ps 0 0 s.model)]
              exact (List.getElem?_eq_some_iff.1 hk).1
            exact (h3 k _ c (List.getElem?_eq_getElem hk') hk).trans (hc.2 _ (List.getElem_mem hk'))
        rcases ih s1 e ⟨_, hs1.1⟩ hs1.2 hh with ⟨-, rfl⟩ | h2
        · exact Or.inr hs1
        · exact Or.inr h2
  intro hne
  rcases key xis _ e ⟨_, rfl⟩ h0 he with ⟨h1, -⟩ | ⟨h1, h2⟩
  · exact absurd h1 hne
  · rw [← h1]
    exact h2

/-- Meant: an evaluation stops only if the lists do not cover the distances of the model. -/
def StopsOnlyUncovered (K : Type*) [Field K] [LinearOrder K] : Prop :=
  ∀ (reach : (Nat → Nat → K) → Reach K) (ps : List (Param K)) (bs : List (Block K)) (r : K) (st : State K),
    readPot reach ps bs = .ok (r, st) → ∀ (xis : List (Nat → K)) (e : Eval K) (xi : Nat → K),
    xis.foldlM (fun s xi => evaluate reach ps xi s) ⟨st.modelDbl, reach (initDbl ps)⟩ = .ok e →
    evaluate reach ps xi e = .error .reach → ¬ Covered r (reach (update xi ps 0 0 e.model))

end

/-- A model with two parameters, the second of which is its cutoff. -/
def kimReach (m : Nat → Nat → ℚ) : Reach ℚ := ⟨m 1 0, [m 1 0], [true]⟩

def kimTwo : List (Param ℚ) := [⟨"epsilon", .dbls [1], false⟩, ⟨"cutoff", .dbls [3], false⟩]

def kimTwoFile : List (Block ℚ) := [⟨false, "epsilon", [⟨'1', false, none, [1, 0, 2], []⟩]⟩,
  ⟨false, "cutoff", [⟨'d', true, none, [], [1, 6]⟩]⟩]

/-- The hypotheses of `C89_table`, `C89_fitted` and `C89_cutoff_safe` are met: the file is accepted with both parameters fitted, and
an evaluation with a smaller cutoff goes through. -/
example : ∃ st, readPot kimReach kimTwo kimTwoFile = .ok (3, st) ∧ fitted 2 st.tab = [0, 1] ∧ st.tab.pmax 1 = 6 ∧
    (∃ e, [fun _ : Nat => (2 : ℚ)].foldlM (fun s xi => evaluate kimReach kimTwo xi s) ⟨st.modelDbl, kimReach (initDbl kimTwo)⟩ = .ok e) :=
  ⟨_, rfl, by decide +kernel, by decide +kernel, _, rfl⟩

/-- Whether the result is a stop because of the distances. -/
def stoppedReach : Except KimParams.Fault (Eval ℚ) → Bool
  | .error .reach => true
  | _ => false

theorem stoppedReach_eq {x : Except KimParams.Fault (Eval ℚ)} (h : stoppedReach x = true) : x = .error .reach := by
  unfold stoppedReach at h
  split at h
  · rfl
  · cases h

/-- A cutoff which decreases and then returns to 5/2 stops the program, though the lists reach up to 3. -/
theorem C89_cutoff_fails : ¬ StopsOnlyUncovered ℚ := by
  intro h
  refine h kimReach kimTwo kimTwoFile 3 _ rfl [fun _ => 2] _ (fun _ => 5 / 2) rfl (stoppedReach_eq ?_) ?_
  · decide +kernel
  unfold Covered
  decide +kernel

/-- The lists are built for the initial cutoff of the model: with a larger cutoff in the potential file the first evaluation
stops. -/
theorem C89_file_cutoff_violated :
    ∃ st, readPot (fun m => ⟨m 0 0, [m 0 0], [true]⟩) [⟨"cutoff", .dbls [3], true⟩] [⟨true, "cutoff", [⟨'4', false, none, [(4 : ℚ)], []⟩]⟩] =
      .ok (3, st) ∧
    evaluate (fun m => ⟨m 0 0, [m 0 0], [true]⟩) [⟨"cutoff", .dbls [3], true⟩] st.tab.value ⟨st.modelDbl, ⟨3, [3], [true]⟩⟩ = .error .reach := by
  refine ⟨_, rfl, stoppedReach_eq ?_⟩
  decide +kernel

/-- Only the first list is tested for neighbours of images. -/
theorem C89_ghost_violated : checkReach (⟨3, [3, 2], [true, true]⟩ : Reach ℚ) ⟨3, [3, 2], [true, false]⟩ = .ok ⟨3, [3, 2], [true, false]⟩ ∧
    maxCutoff (⟨3, [3, 2], [true, false]⟩ : Reach ℚ) = .error .ghost :=
  ⟨rfl, rfl⟩

/-- The hypotheses of `C89_handed_partial` are met by the first evaluation. -/
example : update (fun o => (7 + o : ℚ)) kimTwo 0 0 (initDbl kimTwo) 1 0 = 8 ∧ kimPlace kimTwo 1 + 0 = 1 :=
  ⟨by decide +kernel, rfl⟩

/-- A file with an integer, a fitted and a fixed parameter, written and read again. -/
example : ∃ st, readFile [⟨"n", .ints [4], false⟩, ⟨"a", .dbls [1, 2], false⟩] 0 0
    (write id ⟨0, fun o => if o = 1 then 0 else 2, fun _ => (2 : ℚ), fun _ => false, 0⟩ (fun _ _ => 4)
      [⟨"n", .ints [4], false⟩, ⟨"a", .dbls [1, 2], false⟩] 0 0) (initial [⟨"n", .ints [4], false⟩, ⟨"a", .dbls [1, 2], false⟩]) = .ok st ∧
    fitted 3 st.tab = [1] ∧ st.tab.pmax 1 = 2 := by
  refine ⟨_, rfl, ?_, ?_⟩ <;> decide +kernel

/-- A global parameter, as `C89_global_violated` describes it. -/
example : ∃ st, readFile [⟨"a", .dbls [(1 : ℚ)], false⟩] 0 0 [⟨false, "a", [⟨'!', false, none, [], []⟩]⟩] (initial [⟨"a", .dbls [1], false⟩]) =
    .ok st ∧ fitted 1 st.tab = [0] := by
  refine ⟨_, rfl, ?_⟩
  decide +kernel

end Verif.Props
