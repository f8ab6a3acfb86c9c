/-
Lemmas about the table of functions (C80).
-/
import Verif.Model.Catalogue

namespace Verif.Catalogue

theorem items_names_nodup (o : Options) : ((items o).map Fn.name).Nodup := by
  obtain ⟨a, b, c, d⟩ := o
  revert a b c d
  decide +kernel

theorem initTable_from (ntypes : Nat) (fs : List Fn) (t : List Entry)
    (h : (t.map Entry.name ++ fs.map Fn.name).Nodup) :
    fs.foldlM (fun t f => addPotential t f.name (f.nPar ntypes) f) t =
      some (t ++ fs.map fun f => ⟨f.name, f.nPar ntypes, f⟩) := by
  induction fs generalizing t with
  | nil => simp
  | cons f fs ih =>
    rw [List.foldlM_cons]
    have h1 : addPotential t f.name (f.nPar ntypes) f = some (t ++ [⟨f.name, f.nPar ntypes, f⟩]) := by
      unfold addPotential
      rw [if_neg]
      intro h2
      rw [List.any_eq_true] at h2
      obtain ⟨e, he, hn⟩ := h2
      have hn' : e.name = f.name := by simpa using hn
      have := (List.nodup_append.1 h).2.2 e.name (List.mem_map_of_mem he) f.name (by simp)
      exact this hn'
    rw [h1]
    show fs.foldlM _ (t ++ [_]) = _
    rw [ih]
    · simp
    · simpa using h

theorem find_name (ntypes : Nat) (fs : List Fn) (name : String) :
    ((fs.map fun f => (⟨f.name, f.nPar ntypes, f⟩ : Entry)).find? fun e => e.name == name) =
      (fs.find? fun f => f.name == name).map fun f => ⟨f.name, f.nPar ntypes, f⟩ := by
  rw [List.find?_map]
  rfl

end Verif.Catalogue
