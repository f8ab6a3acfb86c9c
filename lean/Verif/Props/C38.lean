/-
C38  Look-ups in the element table are consistent.
-/
import Verif.Model.Elements

namespace Verif.Props

open Verif.Elements

/-- **C38, numbers.** Looking up the symbol and looking up the full name of any entry gives the number of that entry. -/
theorem C38_same_number : ∀ i, (h : i < table.length) →
    numberFromName table[i].1 = i + 1 ∧ numberFromName table[i].2.1 = i + 1 := by decide +kernel

theorem find_lt (name : String) (i : Nat) (h : find name = some i) : i < table.length := by
  unfold find at h
  split at h <;> exact (List.findIdx?_eq_some_iff_findIdx_eq.1 h).1

theorem table_length : table.length = 110 := by decide +kernel

/-- **C38, masses.** For every name, known or not, the mass by name is the mass by the number found for the name. -/
theorem C38_mass (name : String) : massFromName name = massFromNumber (numberFromName name) := by
  unfold massFromName massFromNumber numberFromName
  cases h : find name with
  | none => simp
  | some i =>
    have hi := find_lt name i h
    have hl := table_length
    simp only
    rw [if_neg (by omega)]
    congr 2
    omega

/-- **C38, unknown numbers.** Every number outside of the table has mass 0, and every other number the mass of its entry; in no
case something outside of the table is read. -/
theorem C38_range (num : Int) (h1 : -2 ^ 31 ≤ num) (h2 : num < 2 ^ 31) :
    (num < 1 ∨ 110 < num → massFromNumber num = some 0) ∧
      (∀ i, (h : i < table.length) → num = i + 1 → massFromNumber num = some table[i].2.2) ∧ massFromNumber num ≠ none := by
  have hl := table_length
  unfold massFromNumber
  refine ⟨fun h => ?_, fun i hi e => ?_, ?_⟩
  · rw [if_pos (by omega)]
  · rw [if_neg (by omega), show (num - 1).toNat = i by omega, List.getElem?_eq_getElem hi]
    rfl
  · split
    · simp
    · rw [List.getElem?_eq_getElem (by omega)]
      simp

/-- **C38, unknown names.** A name has number 0 exactly if it is neither a symbol of less than three characters nor a full name
of three or more characters; then its mass is 0. -/
theorem C38_unknown (name : String) :
    (numberFromName name = 0 ↔
      if name.utf8ByteSize < 3 then ∀ e ∈ table, e.2.1 ≠ name else ∀ e ∈ table, e.1 ≠ name) ∧
      (numberFromName name = 0 → massFromName name = some 0) := by
  unfold numberFromName massFromName
  constructor
  · cases h : find name with
    | none =>
      simp only [true_iff]
      unfold find at h
      split at h
      · next hs =>
        rw [if_pos hs]
        intro e he
        simpa using List.findIdx?_eq_none_iff.1 h e he
      · next hs =>
        rw [if_neg hs]
        intro e he
        simpa using List.findIdx?_eq_none_iff.1 h e he
    | some i =>
      refine ⟨fun h0 => by simp at h0, fun hall => ?_⟩
      exfalso
      revert hall
      unfold find at h
      split at h
      · next hs =>
        rw [if_pos hs]
        obtain ⟨hi, hp, _⟩ := List.findIdx?_eq_some_iff_getElem.1 h
        intro hall
        exact hall _ (List.getElem_mem hi) (by simpa using hp)
      · next hs =>
        rw [if_neg hs]
        obtain ⟨hi, hp, _⟩ := List.findIdx?_eq_some_iff_getElem.1 h
        intro hall
        exact hall _ (List.getElem_mem hi) (by simpa using hp)
  · cases find name with
    | none => exact fun _ => rfl
    | some i => intro h; simp at h

example : numberFromName "Fe" = 26 ∧ numberFromName "Iron" = 26 ∧ massFromName "Iron" = some 55847000 ∧
    massFromNumber 26 = some 55847000 ∧ massFromNumber (-1) = some 0 ∧ massFromNumber 111 = some 0 ∧
    numberFromName "iron" = 0 := by decide +kernel

end Verif.Props
