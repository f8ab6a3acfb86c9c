/-
Helper lemmas for the parameters of KIM models.
-/
import Verif.Model.KimParams
import Mathlib.Tactic.Ring

set_option linter.unusedSectionVars false

namespace Verif.KimParams

variable {K : Type*} [Field K] [LinearOrder K]

/-- Everything which belongs to number `o` of the table and entry `j` of parameter `i`. -/
structure Entry (K : Type*) where
  value : K
  pmin : K
  pmax : K
  invar : Bool
  int : ℤ
  modelInt : ℤ
  modelDbl : K

def entry (st : State K) (o i j : Nat) : Entry K :=
  ⟨st.tab.value o, st.tab.pmin o, st.tab.pmax o, st.tab.invar o, st.ints i j, st.modelInt i j, st.modelDbl i j⟩

/-- What a line does to an entry. -/
def LineOk (p : Param K) (cutoff : Bool) (j : Nat) (l : Line K) (c d : Entry K) : Prop :=
  match p.vals with
  | .ints _ => d.invar = true ∧ d.modelInt = d.int ∧ d.value = c.value ∧ d.pmin = c.pmin ∧ d.pmax = c.pmax ∧
      ((l.isDefault = true ∧ d.int = c.int) ∨ (l.isDefault = false ∧ l.int = some d.int ∧ 48 ≤ l.head.toNat ∧ l.head.toNat ≤ 56))
  | .dbls v =>
    if cutoff = true then ∃ x rest, l.nums = x :: rest ∧ d = ⟨x, x, x, true, c.int, c.modelInt, x⟩
    else if l.head = '!' then d = c
    else ∃ x lo hi, lineVals (v.getD j 0) l = .ok (x, lo, hi) ∧
      d = ⟨x, min lo hi, max lo hi, if lo = hi then true else c.invar, c.int, c.modelInt, c.modelDbl⟩ ∧ (lo ≠ hi → min lo hi ≤ x ∧ x ≤ max lo hi)

theorem set2_self {α : Type*} (f : Nat → Nat → α) (i j : Nat) (x : α) : set2 f i j x i j = x := by
  unfold set2
  rw [if_pos ⟨rfl, rfl⟩]

theorem set2_other {α : Type*} (f : Nat → Nat → α) {i j i' j' : Nat} (x : α) (h : ¬ (i' = i ∧ j' = j)) : set2 f i j x i' j' = f i' j' := by
  unfold set2
  rw [if_neg h]

/-- The number of fixed parameters is right for the first `q` entries, and no other entry is fixed. -/
structure Counted (st : State K) (q : Nat) : Prop where
  count : st.tab.ninvar = ((List.range q).filter fun o => st.tab.invar o).length
  rest : ∀ o, q ≤ o → st.tab.invar o = false

/-- One line changes one entry. -/
structure Touch (st st' : State K) (o i j : Nat) : Prop where
  tab : ∀ o', o' ≠ o → st'.tab.value o' = st.tab.value o' ∧ st'.tab.pmin o' = st.tab.pmin o' ∧ st'.tab.pmax o' = st.tab.pmax o' ∧
    st'.tab.invar o' = st.tab.invar o'
  model : ∀ i' j', ¬ (i' = i ∧ j' = j) → st'.ints i' j' = st.ints i' j' ∧ st'.modelInt i' j' = st.modelInt i' j' ∧
    st'.modelDbl i' j' = st.modelDbl i' j'
  count : (st'.tab.invar o = st.tab.invar o ∧ st'.tab.ninvar = st.tab.ninvar) ∨
    (st'.tab.invar o = true ∧ st'.tab.ninvar = st.tab.ninvar + 1)

theorem lineInt_ok {old v : ℤ} {l : Line K} (h : lineInt old l = .ok v) :
    (l.isDefault = true ∧ v = old) ∨ (l.isDefault = false ∧ l.int = some v ∧ 48 ≤ l.head.toNat ∧ l.head.toNat ≤ 56) := by
  unfold lineInt at h
  split at h
  · rename_i hd
    simp only [Except.ok.injEq] at h
    exact Or.inl ⟨hd, h.symm⟩
  · rename_i hd
    split at h
    · cases h
    · split at h
      · cases h
      · rename_i hh
        push Not at hh
        split at h
        · cases h
        · rename_i w hw
          simp only [Except.ok.injEq] at h
          refine Or.inr ⟨by simpa using hd, by rw [hw, h], by omega, by omega⟩

theorem stepLine_ok {p : Param K} {cutoff : Bool} {i j o : Nat} {l : Line K} {st st' : State K}
    (h : stepLine p cutoff i j o l st = .ok st') :
    LineOk p cutoff j l (entry st o i j) (entry st' o i j) ∧ Touch st st' o i j := by
  unfold stepLine at h
  unfold LineOk
  split at h
  · rename_i v hv
    unfold stepInt at h
    split at h
    · cases h
    · rename_i w hw
      simp only [Except.ok.injEq] at h
      subst h
      simp only [hv, entry, set2_self, Table.fix, Function.update_self]
      refine ⟨⟨trivial, trivial, trivial, trivial, trivial, ?_⟩, ?_, ?_, ?_⟩
      · rcases lineInt_ok hw with h | h
        · exact Or.inl h
        · exact Or.inr h
      · intro o' ho
        refine ⟨rfl, rfl, rfl, ?_⟩
        show Function.update st.tab.invar o true o' = _
        rw [Function.update_of_ne ho]
      · intro i' j' hij
        exact ⟨set2_other _ _ hij, set2_other _ _ hij, rfl⟩
      · exact Or.inr ⟨Function.update_self .., rfl⟩
  · rename_i v hv
    simp only [hv]
    by_cases hc : cutoff = true
    · rw [if_pos hc] at h
      rw [if_pos hc]
      unfold stepCutoff at h
      split at h
      · cases h
      · rename_i x rest hx
        simp only [Except.ok.injEq] at h
        subst h
        refine ⟨⟨x, rest, hx, ?_⟩, ?_, ?_, ?_⟩
        · simp only [entry, Table.put, Table.fix, Function.update_self, set2_self]
        · intro o' ho
          simp only [Table.put, Table.fix, Function.update_of_ne ho, and_self]
        · intro i' j' hij
          exact ⟨rfl, rfl, set2_other _ _ hij⟩
        · exact Or.inr ⟨Function.update_self .., rfl⟩
    · rw [if_neg hc] at h
      rw [if_neg hc]
      unfold stepDouble at h
      by_cases hh : l.head = '!'
      · rw [if_pos hh] at h
        rw [if_pos hh]
        simp only [Except.ok.injEq] at h
        subst h
        exact ⟨rfl, fun _ _ => ⟨rfl, rfl, rfl, rfl⟩, fun _ _ _ => ⟨rfl, rfl, rfl⟩, Or.inl ⟨rfl, rfl⟩⟩
      · rw [if_neg hh] at h
        rw [if_neg hh]
        split at h
        · cases h
        · rename_i x lo hi hx
          unfold storeVals at h
          have e1 : (if lo > hi then hi else lo) = min lo hi := by
            rcases lt_or_ge hi lo with hlt | hle
            · rw [if_pos hlt, min_eq_right hlt.le]
            · rw [if_neg (not_lt.2 hle), min_eq_left hle]
          have e2 : (if lo > hi then lo else hi) = max lo hi := by
            rcases lt_or_ge hi lo with hlt | hle
            · rw [if_pos hlt, max_eq_left hlt.le]
            · rw [if_neg (not_lt.2 hle), max_eq_right hle]
          have e3 : min lo hi = max lo hi ↔ lo = hi := inf_eq_sup
          simp only [e1, e2, e3] at h
          split at h
          · cases h
          · rename_i hb
            simp only [Except.ok.injEq] at h
            subst h
            refine ⟨⟨x, lo, hi, hx, ?_, ?_⟩, ?_, ?_, ?_⟩
            · by_cases heq : lo = hi
              · simp only [if_pos heq, entry, Table.put, Table.fix, Function.update_self]
              · simp only [if_neg heq, entry, Table.put, Function.update_self]
            · intro hne
              push Not at hb
              exact hb hne
            · intro o' ho
              by_cases heq : lo = hi
              · simp only [if_pos heq, Table.put, Table.fix, Function.update_of_ne ho, and_self]
              · simp only [if_neg heq, Table.put, Function.update_of_ne ho, and_self]
            · intro i' j' _
              exact ⟨rfl, rfl, rfl⟩
            · by_cases heq : lo = hi
              · simp only [if_pos heq]
                exact Or.inr ⟨Function.update_self .., rfl⟩
              · simp only [if_neg heq]
                exact Or.inl ⟨rfl, rfl⟩

theorem Counted.touch {st st' : State K} {o i j : Nat} (h : Counted st o) (t : Touch st st' o i j) : Counted st' (o + 1) := by
  have hf : ((List.range o).filter fun x => st'.tab.invar x) = ((List.range o).filter fun x => st.tab.invar x) := by
    apply List.filter_congr
    intro x hx
    rw [List.mem_range] at hx
    exact (t.tab x (by omega)).2.2.2
  refine ⟨?_, ?_⟩
  · rw [List.range_succ, List.filter_append, List.length_append, hf, ← h.count]
    rcases t.count with ⟨h1, h2⟩ | ⟨h1, h2⟩
    · rw [h2]
      rw [h.rest o le_rfl] at h1
      simp [h1]
    · rw [h2]
      simp [h1]
  · intro x hx
    rw [(t.tab x (by omega)).2.2.2]
    exact h.rest x (by omega)

/-- Several lines. -/
theorem readLines_ok {p : Param K} {cutoff : Bool} {i pos : Nat} : ∀ {n j : Nat} {ls : List (Line K)} {st st' : State K},
    readLines p cutoff i pos n j ls st = .ok st' → Counted st (pos + j) →
    Counted st' (pos + (j + n)) ∧
    (∀ k < n, ∃ l, ls[k]? = some l ∧
      LineOk p cutoff (j + k) l (entry st (pos + (j + k)) i (j + k)) (entry st' (pos + (j + k)) i (j + k))) ∧
    (∀ o, o < pos + j ∨ pos + (j + n) ≤ o → ∀ i' j', i' ≠ i ∨ j' < j ∨ j + n ≤ j' → entry st' o i' j' = entry st o i' j') := by
  intro n
  induction n with
  | zero =>
    intro j ls st st' h hc
    simp only [readLines, Except.ok.injEq] at h
    subst h
    exact ⟨hc, by omega, fun _ _ _ _ _ => rfl⟩
  | succ n ih =>
    intro j ls st st' h hc
    cases ls with
    | nil => simp only [readLines] at h; cases h
    | cons l ls =>
      simp only [readLines] at h
      split at h
      · cases h
      · rename_i st1 h1
        obtain ⟨hl, ht⟩ := stepLine_ok h1
        have hc1 : Counted st1 (pos + (j + 1)) := hc.touch ht
        obtain ⟨a1, a2, a3⟩ := ih h hc1
        have touch_entry : ∀ o i' j', o ≠ pos + j → ¬ (i' = i ∧ j' = j) → entry st1 o i' j' = entry st o i' j' := by
          intro o i' j' ho hij
          obtain ⟨b1, b2, b3, b4⟩ := ht.tab o ho
          obtain ⟨b5, b6, b7⟩ := ht.model i' j' hij
          unfold entry
          rw [b1, b2, b3, b4, b5, b6, b7]
        refine ⟨?_, ?_, ?_⟩
        · rw [show j + (n + 1) = j + 1 + n by omega]
          exact a1
        · intro k hk
          cases k with
          | zero =>
            refine ⟨l, rfl, ?_⟩
            rw [Nat.add_zero, a3 (pos + j) (by omega) i j (by omega)]
            exact hl
          | succ k =>
            obtain ⟨l', hl', hok⟩ := a2 k (by omega)
            refine ⟨l', by rw [List.getElem?_cons_succ]; exact hl', ?_⟩
            rw [show j + (k + 1) = j + 1 + k by omega]
            rw [touch_entry (pos + (j + 1 + k)) i (j + 1 + k) (by omega) (by omega)] at hok
            exact hok
        · intro o ho i' j' hij
          rw [a3 o (by omega) i' j' (by omega)]
          exact touch_entry o i' j' (by omega) (by omega)

/-- Number of the first entry of a parameter in the table. -/
def offset (ps : List (Param K)) (i : Nat) : Nat := total (ps.take i)

theorem offset_cons (p : Param K) (ps : List (Param K)) (i : Nat) : offset (p :: ps) (i + 1) = p.vals.extent + offset ps i := by
  simp [offset, total]

theorem offset_zero (ps : List (Param K)) : offset ps 0 = 0 := by
  simp [offset, total]

/-- The whole file. -/
theorem readFile_ok : ∀ {ps : List (Param K)} {i pos : Nat} {bs : List (Block K)} {st st' : State K},
    readFile ps i pos bs st = .ok st' → Counted st pos →
    Counted st' (pos + total ps) ∧
    (∀ k p, ps[k]? = some p → ∃ b, bs[k]? = some b ∧ b.name.toList <+: p.name.toList ∧ ∀ j < p.vals.extent, ∃ l, b.lines[j]? = some l ∧
      LineOk p b.cutoff j l (entry st (pos + (offset ps k + j)) (i + k) j) (entry st' (pos + (offset ps k + j)) (i + k) j)) ∧
    (∀ o, o < pos ∨ pos + total ps ≤ o → ∀ i' j', i' < i → entry st' o i' j' = entry st o i' j') := by
  intro ps
  induction ps with
  | nil =>
    intro i pos bs st st' h hc
    simp only [readFile, Except.ok.injEq] at h
    subst h
    exact ⟨by simpa [total] using hc, by simp, fun _ _ _ _ _ => rfl⟩
  | cons p ps ih =>
    intro i pos bs st st' h hc
    cases bs with
    | nil => simp only [readFile] at h; cases h
    | cons b bs =>
      simp only [readFile] at h
      split at h
      · cases h
      · rename_i st1 h1
        unfold readSingle at h1
        split at h1
        · cases h1
        · rename_i hpre
          simp only [Bool.not_eq_true, Bool.not_eq_false] at hpre
          obtain ⟨a1, a2, a3⟩ := readLines_ok h1 (by simpa using hc)
          simp only [Nat.zero_add] at a1 a2 a3
          obtain ⟨b1, b2, b3⟩ := ih h a1
          have htot : total (p :: ps) = p.vals.extent + total ps := by simp [total]
          refine ⟨?_, ?_, ?_⟩
          · rw [htot, ← Nat.add_assoc]
            exact b1
          · intro k q hq
            cases k with
            | zero =>
              simp only [List.getElem?_cons_zero, Option.some.injEq] at hq
              subst hq
              refine ⟨b, rfl, List.isPrefixOf_iff_prefix.1 hpre, ?_⟩
              intro j hj
              obtain ⟨l, hl, hok⟩ := a2 j hj
              refine ⟨l, hl, ?_⟩
              rw [offset_zero, Nat.zero_add, Nat.add_zero, b3 (pos + j) (by omega) i j (by omega)]
              exact hok
            | succ k =>
              rw [List.getElem?_cons_succ] at hq
              obtain ⟨b', hb', hp', hh⟩ := b2 k q hq
              refine ⟨b', by rw [List.getElem?_cons_succ]; exact hb', hp', ?_⟩
              intro j hj
              obtain ⟨l, hl, hok⟩ := hh j hj
              refine ⟨l, hl, ?_⟩
              rw [offset_cons, show pos + (p.vals.extent + offset ps k + j) = pos + p.vals.extent + (offset ps k + j) by omega,
                show i + (k + 1) = i + 1 + k by omega]
              rw [a3 _ (by omega) _ _ (by omega)] at hok
              exact hok
          · intro o ho i' j' hi
            rw [b3 o (by omega) i' j' (by omega)]
            exact a3 o (by omega) i' j' (by omega)

theorem initial_counted (ps : List (Param K)) : Counted (initial ps) 0 := ⟨rfl, fun _ _ => rfl⟩

end Verif.KimParams
