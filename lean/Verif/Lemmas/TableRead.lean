import Verif.Model.TableRead
import Mathlib.Data.List.Basic
import Mathlib.Data.List.Sort

namespace Verif.TableRead

/-- The flags tested for one column, position by position. -/
def flags (c : ColSpec) : List Bool :=
  (!c.invar && c.gradient >>> 1 != 0) :: (!c.invar && c.gradient % 2 != 0) ::
    (List.range c.nvals).map fun j =>
      (!c.invar && (c.keepLast || decide (j + 1 < c.nvals)) && !(c.skipFirst && j == 0))

theorem flags_length (c : ColSpec) : (flags c).length = c.nvals + 2 := by simp [flags]

/-- Positions of the set flags, counted from `l`. -/
def positions (l : Nat) : List Bool → List Nat
  | [] => []
  | b :: bs => (if b then [l] else []) ++ positions (l + 1) bs

theorem positions_append (l : Nat) (as bs : List Bool) :
    positions l (as ++ bs) = positions l as ++ positions (l + as.length) bs := by
  induction as generalizing l with
  | nil => simp [positions]
  | cons a as ih =>
    simp only [List.cons_append, positions, ih, List.append_assoc, List.length_cons]
    rw [show l + 1 + as.length = l + (as.length + 1) by omega]

theorem foldl_pushIf (bs : List Bool) (s : Nat × List Nat) :
    bs.foldl (fun s b => pushIf b s) s = (s.1 + bs.length, s.2 ++ positions s.1 bs) := by
  induction bs generalizing s with
  | nil => simp [positions]
  | cons b bs ih =>
    rw [List.foldl_cons, ih]
    cases b <;> simp [pushIf, positions] <;> omega

theorem readColumn_eq (s : Nat × List Nat) (c : ColSpec) :
    readColumn s c = (s.1 + (c.nvals + 2), s.2 ++ positions s.1 (flags c)) := by
  have h : readColumn s c = (flags c).foldl (fun s b => pushIf b s) s := by
    simp only [readColumn, flags, List.foldl_cons, List.foldl_map]
  rw [h, foldl_pushIf, flags_length]

/-- Start of the block of column `i` (its left slope entry). -/
def blockStart (cols : List ColSpec) (i : Nat) : Nat :=
  ((cols.take i).map fun c => c.nvals + 2).sum

theorem fold_eq (cols : List ColSpec) (s : Nat × List Nat) :
    cols.foldl readColumn s = (s.1 + (cols.map fun c => c.nvals + 2).sum,
      s.2 ++ positions s.1 (cols.flatMap flags)) := by
  induction cols generalizing s with
  | nil => simp [positions]
  | cons c cs ih =>
    rw [List.foldl_cons, ih, readColumn_eq]
    simp only [List.map_cons, List.sum_cons, List.flatMap_cons, positions_append, flags_length,
      List.append_assoc, Nat.add_assoc]

theorem idxList_eq (cols : List ColSpec) : idxList cols = positions 0 (cols.flatMap flags) := by
  unfold idxList; rw [fold_eq]; simp

theorem mem_positions {x l : Nat} {bs : List Bool} :
    x ∈ positions l bs ↔ l ≤ x ∧ bs[x - l]? = some true := by
  induction bs generalizing l with
  | nil => simp [positions]
  | cons b bs ih =>
    simp only [positions, List.mem_append, ih]
    by_cases h : x = l
    · subst h
      cases b <;> simp
    · have h1 : (x ∈ (if b = true then [l] else [])) = False := by
        cases b <;> simp [h]
      simp only [h1, false_or]
      constructor
      · rintro ⟨h2, h3⟩
        refine ⟨by omega, ?_⟩
        rw [show x - l = (x - (l + 1)) + 1 by omega, List.getElem?_cons_succ]
        exact h3
      · rintro ⟨h2, h3⟩
        refine ⟨by omega, ?_⟩
        rw [show x - l = (x - (l + 1)) + 1 by omega, List.getElem?_cons_succ] at h3
        exact h3

theorem positions_sorted (l : Nat) (bs : List Bool) :
    (positions l bs).Pairwise (· < ·) := by
  induction bs generalizing l with
  | nil => simp [positions]
  | cons b bs ih =>
    cases b
    · simpa [positions] using ih (l + 1)
    · simp only [positions, if_true, List.singleton_append, List.pairwise_cons]
      refine ⟨fun x hx => ?_, ih (l + 1)⟩
      have := (mem_positions.1 hx).1
      omega

/-- Entry of the concatenated flag list. -/
theorem flat_get (cols : List ColSpec) (x : Nat) :
    (cols.flatMap flags)[x]? = some true ↔
      ∃ i c, cols[i]? = some c ∧ blockStart cols i ≤ x ∧
        (flags c)[x - blockStart cols i]? = some true := by
  induction cols generalizing x with
  | nil => simp
  | cons d cs ih =>
    have hb : ∀ i, blockStart (d :: cs) (i + 1) = d.nvals + 2 + blockStart cs i := by
      intro i; simp [blockStart]
    have hb0 : blockStart (d :: cs) 0 = 0 := by simp [blockStart]
    rw [List.flatMap_cons]
    by_cases hx : x < (flags d).length
    · rw [List.getElem?_append_left hx]
      constructor
      · intro h
        exact ⟨0, d, rfl, by rw [hb0]; omega, by rw [hb0]; simpa using h⟩
      · rintro ⟨i, c, hc, h1, h2⟩
        cases i with
        | zero =>
          simp only [List.getElem?_cons_zero, Option.some.injEq] at hc
          subst hc
          rw [hb0] at h2
          simpa using h2
        | succ i =>
          rw [hb] at h1
          rw [flags_length] at hx
          omega
    · rw [List.getElem?_append_right (by omega), ih]
      rw [flags_length] at hx ⊢
      constructor
      · rintro ⟨i, c, hc, h1, h2⟩
        refine ⟨i + 1, c, by simpa using hc, by rw [hb]; omega, ?_⟩
        rw [hb, show x - (d.nvals + 2 + blockStart cs i) = x - (d.nvals + 2) - blockStart cs i by
          omega]
        exact h2
      · rintro ⟨i, c, hc, h1, h2⟩
        cases i with
        | zero =>
          simp only [List.getElem?_cons_zero, Option.some.injEq] at hc
          subst hc
          rw [hb0, Nat.sub_zero] at h2
          rw [List.getElem?_eq_none (by rw [flags_length]; omega)] at h2
          simp at h2
        | succ i =>
          rw [hb] at h1 h2
          refine ⟨i, c, by simpa using hc, by omega, ?_⟩
          rw [show x - (d.nvals + 2) - blockStart cs i = x - (d.nvals + 2 + blockStart cs i) by omega]
          exact h2

theorem layoutFrom_get (cols : List ColSpec) (prev : Option Nat) (i : Nat) (c : ColSpec)
    (h : cols[i]? = some c) (hn : ∀ c ∈ cols, 1 ≤ c.nvals) :
    (layoutFrom prev cols)[i]? = some
      (firstAfter prev + blockStart cols i,
       firstAfter prev + blockStart cols i + c.nvals - 1) := by
  induction cols generalizing prev i with
  | nil => simp at h
  | cons d cs ih =>
    cases i with
    | zero =>
      simp only [List.getElem?_cons_zero, Option.some.injEq] at h
      subst h
      simp [layoutFrom, blockStart]
    | succ i =>
      rw [List.getElem?_cons_succ] at h
      have hd := hn d (by simp)
      have := ih (some (firstAfter prev + d.nvals - 1)) i h
        (fun c hc => hn c (by simp [hc]))
      simp only [layoutFrom, List.getElem?_cons_succ]
      have e : firstAfter (some (firstAfter prev + d.nvals - 1)) = firstAfter prev + d.nvals + 2 := by
        simp only [firstAfter]; omega
      rw [this, e]
      have hb : blockStart (d :: cs) (i + 1) = d.nvals + 2 + blockStart cs i := by
        simp [blockStart]
      rw [hb]
      simp only [Option.some.injEq, Prod.mk.injEq]
      omega

theorem layoutFrom_length (cols : List ColSpec) (prev : Option Nat) :
    (layoutFrom prev cols).length = cols.length := by
  induction cols generalizing prev with
  | nil => rfl
  | cons c cs ih => simp [layoutFrom, ih]

end Verif.TableRead
