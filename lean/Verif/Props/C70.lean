/-
C70: layout of the parameter vector of analytic potentials.
-/
import Verif.Lemmas.ApotLayout
import Mathlib.Data.Rat.Defs

set_option linter.unusedSectionVars false

namespace Verif.Props

open Verif.ApotLayout Verif.Spec

variable {K : Type*} [Zero K]

/-- The vector has `len` entries: the values of the parameters at their places, zero everywhere else. -/
theorem C70_table (f : File K) (hf : Fits f) (n : Nat) :
    entry f n = if n < len f then some (match (cells f)[n]? with | some (some (_, _, p)) => p.val | _ => 0) else none := by
  have hl := cells_length_le f hf
  have hb : (build f).table.length = (cells f).length := by rw [build_table, List.length_map]
  unfold entry table
  by_cases h : n < (cells f).length
  · have h2 : n < len f := by omega
    rw [if_pos h2, List.getElem?_append_left (by omega), build_table, List.getElem?_map, List.getElem?_eq_getElem h]
    simp only [Option.map_some, Option.some.injEq]
    generalize (cells f)[n] = c
    cases c <;> rfl
  · rw [List.getElem?_append_right (by omega), List.getElem?_replicate, List.getElem?_eq_none (l := cells f) (by omega), hb]
    by_cases h2 : n < len f
    · rw [if_pos h2, if_pos (by omega)]
    · rw [if_neg h2, if_neg (by omega)]

/-- Unless a chemical potential is fixed, the index lists name exactly the free parameters, each with its place. -/
theorem C70_index_partial (f : File K) (hc : ChemFree f.extra) (n i j : Nat) :
    (⟨n, i, j⟩ : Slot) ∈ (build f).idx ↔ ∃ v, (cells f)[n]? = some (some (i, j, ⟨v, false⟩)) := by
  rw [(build_holds f hc).idx, mem_slotsFrom]
  simp

/-- … in the order of the places, none twice. -/
theorem C70_index_order_partial (f : File K) (hc : ChemFree f.extra) : (build f).idx.Pairwise (·.pos < ·.pos) := by
  rw [(build_holds f hc).idx]
  exact slotsFrom_sorted _ _

/-- Later places belong to later potentials or to later parameters of the same potential. -/
def Later (c d : Cell K) : Prop :=
  ∀ i j p i' j' p', c = some (i, j, p) → d = some (i', j', p') → i < i' ∨ (i = i' ∧ j < j')

theorem zipIdx_increasing {α : Type*} (l : List α) (n : Nat) : (l.zipIdx n).Pairwise (·.2 < ·.2) := by
  have h : ((l.zipIdx n).map Prod.snd).Pairwise (· < ·) := by
    rw [List.zipIdx_map_snd]
    exact List.pairwise_lt_range'
  exact List.pairwise_map.1 h

theorem cellsOf_later (i : Nat) (frozen : Bool) (ps : List (Par K)) : (cellsOf i frozen ps).Pairwise Later := by
  unfold cellsOf
  rw [List.pairwise_map]
  refine (zipIdx_increasing ps 0).imp ?_
  intro a b hab i1 j1 p1 i2 j2 p2 h1 h2
  simp only [Option.some.injEq, Prod.mk.injEq] at h1 h2
  right
  omega

theorem cellsOf_pot {i : Nat} {frozen : Bool} {ps : List (Par K)} {i' j : Nat} {p : Par K}
    (h : some (i', j, p) ∈ cellsOf i frozen ps) : i' = i := by
  unfold cellsOf at h
  obtain ⟨a, -, ha⟩ := List.mem_map.1 h
  simp only [Option.some.injEq, Prod.mk.injEq] at ha
  exact ha.1.symm

theorem cells_later (f : File K) (h5 : ∀ d secs, f.extra = .elstat d secs → secs.length ≤ 5) : (cells f).Pairwise Later := by
  have hf : (cellsFns f.fns).Pairwise Later ∧ ∀ i j p, some (i, j, p) ∈ cellsFns f.fns → i < f.fns.length := by
    unfold cellsFns
    refine ⟨?_, ?_⟩
    · rw [List.pairwise_flatMap]
      refine ⟨fun a _ => ?_, (zipIdx_increasing f.fns 0).imp ?_⟩
      · rw [List.pairwise_append]
        refine ⟨?_, cellsOf_later _ _ _, ?_⟩
        · simp [Later]
        · intro x hx y _ i j p i' j' p' e1
          simp only [List.mem_cons, List.not_mem_nil, or_false, or_self] at hx
          rw [hx] at e1
          cases e1
      · intro a b hab x hx y hy i j p i' j' p' e1 e2
        subst e1 e2
        simp only [List.mem_append, List.mem_cons, reduceCtorEq, List.not_mem_nil, or_false, false_or] at hx hy
        rw [cellsOf_pot hx, cellsOf_pot hy]
        exact Or.inl hab
    · intro i j p hm
      obtain ⟨a, ha, hm⟩ := List.mem_flatMap.1 hm
      simp only [List.mem_append, List.mem_cons, reduceCtorEq, List.not_mem_nil, or_false, false_or] at hm
      rw [cellsOf_pot hm]
      have := List.mem_zipIdx_iff_getElem?.1 ha
      exact (List.getElem?_eq_some_iff.1 this).1
  have he : (cellsExtra f.fns.length f.extra).Pairwise Later ∧ ∀ i j p, some (i, j, p) ∈ cellsExtra f.fns.length f.extra →
      f.fns.length ≤ i ∧ i < globalPot f := by
    unfold cellsExtra globalPot
    cases hx : f.extra with
    | none => simp
    | chem ps =>
      refine ⟨cellsOf_later _ _ _, fun i j p hm => ?_⟩
      rw [cellsOf_pot hm]
      simp
    | elstat d secs =>
      refine ⟨?_, ?_⟩
      · simp only
        rw [List.pairwise_flatMap]
        refine ⟨fun a _ => cellsOf_later _ _ _, (zipIdx_increasing secs 0).imp ?_⟩
        intro a b hab x hx y hy i j p i' j' p' e1 e2
        subst e1 e2
        rw [cellsOf_pot hx, cellsOf_pot hy]
        left
        omega
      · intro i j p hm
        obtain ⟨a, ha, hm⟩ := List.mem_flatMap.1 hm
        have := (List.getElem?_eq_some_iff.1 (List.mem_zipIdx_iff_getElem?.1 ha)).1
        have h5 := h5 d secs hx
        rw [cellsOf_pot hm]
        simp only
        omega
  have hge : f.fns.length ≤ globalPot f := by
    unfold globalPot
    cases f.extra <;> simp
  unfold cells
  rw [List.pairwise_append, List.pairwise_append]
  refine ⟨⟨hf.1, he.1, ?_⟩, ?_, ?_⟩
  · intro x hx y hy i j p i' j' p' e1 e2
    subst e1 e2
    have := hf.2 _ _ _ hx
    have := (he.2 _ _ _ hy).1
    left
    omega
  · unfold cellsGlobals
    split_ifs
    · exact cellsOf_later _ _ _
    · exact List.Pairwise.nil
  · intro x hx y hy i j p i' j' p' e1 e2
    subst e1 e2
    unfold cellsGlobals at hy
    split_ifs at hy
    · rw [cellsOf_pot hy]
      left
      rcases List.mem_append.1 hx with hx | hx
      · have := hf.2 _ _ _ hx
        omega
      · exact (he.2 _ _ _ hx).2
    · cases hy

/-- No parameter is found at two places: potential and parameter number determine the place (there are at most five lists of
electrostatic parameters, and no chemical potential is fixed). -/
theorem C70_one_place_partial (f : File K) (hc : ChemFree f.extra) (h5 : ∀ d secs, f.extra = .elstat d secs → secs.length ≤ 5)
    (n n' i j : Nat) (h : (⟨n, i, j⟩ : Slot) ∈ (build f).idx) (h' : (⟨n', i, j⟩ : Slot) ∈ (build f).idx) : n = n' := by
  obtain ⟨v, hv⟩ := (C70_index_partial f hc n i j).1 h
  obtain ⟨v', hv'⟩ := (C70_index_partial f hc n' i j).1 h'
  have hp := List.pairwise_iff_getElem.1 (cells_later f h5)
  obtain ⟨l1, e1⟩ := List.getElem?_eq_some_iff.1 hv
  obtain ⟨l2, e2⟩ := List.getElem?_eq_some_iff.1 hv'
  rcases Nat.lt_trichotomy n n' with hlt | heq | hgt
  · have := hp n n' l1 l2 hlt i j _ i j _ e1 e2
    omega
  · exact heq
  · have := hp n' n l2 l1 hgt i j _ i j _ e2 e1
    omega

/-- The number of degrees of freedom is the length of the index lists, fixed chemical potentials or not. -/
theorem C70_idxlen (f : File K) (hf : Fits f) : idxlen f = (build f).idx.length := by
  unfold idxlen build
  have h0 := addFns_idxlen f.fns 0 (⟨[], 0, []⟩ : St K)
  have h1 : ((addExtra f.fns.length f.extra (addFns f.fns 0 ⟨[], 0, []⟩)).idx.length : Int) =
      (f.fns.map fun g => if !g.frozen then ((g.pars.length : Int) - nFixed g.pars) else 0).sum +
      (match f.extra with
      | .none => 0
      | .chem ps => (f.ntypes : Int) - nFixed ps
      | .elstat dipole secs => -((secs.map fun ps => (nFixed ps : Int)).sum) + f.ntypes +
          if dipole then (f.ntypes * (f.ntypes + 2) : Int) else 0) := by
    unfold Fits at hf
    cases hx : f.extra with
    | none => simpa [addExtra] using h0
    | chem ps =>
      rw [hx] at hf
      simp only [addExtra, addChem_idxlen, h0, hf.1]
      simp
    | elstat d secs =>
      rw [hx] at hf
      simp only [addExtra, addSecs_idxlen, h0, hf.2]
      cases d
      · simp
        ring
      · simp
        ring
  refine Eq.trans (congrArg (fun z : Int => z + if haveGlobals f then (f.globals.length : Int) - nFixed f.globals else 0) h1.symm) ?_
  cases hg : haveGlobals f
  · simp only [Bool.false_eq_true, if_false, add_zero]
  · simp only [if_true, addPars_idxlen, Bool.not_false]

/-- Chemical potentials are looked for where they are stored. -/
theorem C70_cp_start (f : File K) (hf : Fits f) (ps : List (Par K)) (hx : f.extra = .chem ps) (i : Nat) (hi : i < ps.length) :
    entry f (cpStart f + i) = some (ps[i]).val := by
  have he : f.ntypes * (f.ntypes + 1) / 2 * 2 = f.ntypes * (f.ntypes + 1) :=
    Nat.div_mul_cancel (even_iff_two_dvd.1 (Nat.even_mul_succ_self _))
  have h : cpStart f = lastEnd f.fns 0 := by
    unfold Fits at hf
    rw [hx] at hf
    simp only at hf
    unfold cpStart totalPar
    rw [lastEnd_sum, hf.2]
    omega
  rw [h]
  apply entry_tail
  unfold tailVals
  rw [hx, List.getElem?_append_left (by simpa using hi)]
  simp [hi]

/-- Global parameters are looked for where they are stored if there are neither electrostatic parameters nor fixed chemical
potentials. -/
theorem C70_globals_partial (f : File K) (hf : Fits f) (hc : ChemFree f.extra) (he : ∀ d secs, f.extra ≠ .elstat d secs)
    (hu : f.used = true) (i : Nat) (hi : i < f.globals.length) : entry f (globalIdx f + i) = some (f.globals[i]).val := by
  have hg : haveGlobals f = true := by
    unfold haveGlobals
    rw [hu]
    cases h : f.globals with
    | nil => rw [h] at hi; simp at hi
    | cons => rfl
  unfold Fits at hf
  unfold globalIdx
  cases hx : f.extra with
  | none =>
    rw [Nat.zero_add]
    apply entry_tail
    unfold tailVals
    rw [hx, hg]
    simp [hi]
  | chem ps =>
    rw [hx] at hf hc
    have h0 : nFixed ps = 0 := by
      unfold nFixed
      rw [List.length_eq_zero_iff, List.filter_eq_nil_iff]
      intro p hp
      simp [hc p hp]
    simp only [h0]
    rw [show f.ntypes - 0 + lastEnd f.fns 0 + i = lastEnd f.fns 0 + (f.ntypes + i) by omega]
    apply entry_tail
    unfold tailVals
    rw [hx, hg, ← hf.1, List.getElem?_append_right (by simp)]
    simp [hi]
  | elstat d secs => exact absurd hx (he d secs)

/-- Without global parameters, electrostatic parameters are looked for where they are stored. -/
theorem C70_elstat_partial (f : File K) (d : Bool) (secs : List (List (Par K))) (hx : f.extra = .elstat d secs)
    (hg : f.globals = []) (i : Nat) (hi : i < secs.flatten.length) : entry f (elStart f + i) = some (secs.flatten[i]).val := by
  have h : elStart f = lastEnd f.fns 0 := by
    unfold elStart totalPar
    rw [lastEnd_sum, hg]
    simp only [List.length_nil]
    omega
  rw [h]
  apply entry_tail
  unfold tailVals
  rw [hx, List.getElem?_append_left (by rw [List.length_map]; exact hi), List.getElem?_map, List.getElem?_eq_getElem hi]
  rfl

/-- With electrostatic parameters, every use of a global parameter takes an electrostatic parameter instead. -/
theorem C70_globals_violated (f : File K) (d : Bool) (secs : List (List (Par K))) (hx : f.extra = .elstat d secs) (i : Nat)
    (hi : i < secs.flatten.length) : entry f (globalIdx f + i) = some (secs.flatten[i]).val := by
  have h : globalIdx f = lastEnd f.fns 0 := by
    unfold globalIdx
    rw [hx]
    exact Nat.zero_add _
  rw [h]
  apply entry_tail
  unfold tailVals
  rw [hx, List.getElem?_append_left (by rw [List.length_map]; exact hi), List.getElem?_map, List.getElem?_eq_getElem hi]
  rfl

/-- With global parameters, every electrostatic parameter is taken from a place further on, by the number of global
parameters. -/
theorem C70_elstat_violated (f : File K) (d : Bool) (secs : List (List (Par K))) (hx : f.extra = .elstat d secs)
    (hu : f.used = true) (i : Nat) (hi : i < secs.flatten.length) :
    entry f (elStart f + i) = some ((secs.flatten ++ f.globals)[i + f.globals.length]'(by rw [List.length_append]; omega)).val := by
  have h : elStart f = lastEnd f.fns 0 + f.globals.length := by
    unfold elStart totalPar
    rw [lastEnd_sum]
    omega
  have ht : tailVals f = (secs.flatten ++ f.globals).map (·.val) := by
    unfold tailVals haveGlobals
    rw [hx, hu, List.map_append]
    cases hg : f.globals <;> simp
  rw [h, Nat.add_assoc]
  apply entry_tail
  rw [ht, List.getElem?_map, List.getElem?_eq_getElem (by rw [List.length_append]; omega)]
  simp only [Option.map_some, Nat.add_comm]

/-! Examples. -/

/-- One type: one potential with a fixed parameter, a free chemical potential, two global parameters. -/
def cpFile : File ℚ where
  ntypes := 1
  fns := [⟨false, [⟨1, false⟩, ⟨2, true⟩, ⟨3, false⟩]⟩]
  extra := .chem [⟨7, false⟩]
  globals := [⟨8, true⟩, ⟨9, false⟩]
  used := true

example : Fits cpFile ∧ ChemFree cpFile.extra := ⟨⟨rfl, rfl⟩, by simp [cpFile, ChemFree]⟩
example : table cpFile = [0, 0, 1, 2, 3, 7, 8, 9] := by decide +kernel
example : (build cpFile).idx = [⟨2, 0, 0⟩, ⟨4, 0, 2⟩, ⟨5, 1, 0⟩, ⟨7, 2, 1⟩] := by decide +kernel
example : entry cpFile (cpStart cpFile) = some 7 ∧ entry cpFile (globalIdx cpFile + 1) = some 9 := by decide +kernel

/-- Charges and kappa of two types, with global parameters. -/
def coulombFile (used : Bool) (gs : List (Par ℚ)) : File ℚ where
  ntypes := 2
  fns := [⟨false, [⟨1, false⟩]⟩, ⟨true, [⟨2, false⟩]⟩, ⟨false, [⟨3, true⟩]⟩]
  extra := .elstat false [[⟨5, false⟩], [⟨6, true⟩]]
  globals := gs
  used := used

example (u : Bool) (gs : List (Par ℚ)) : Fits (coulombFile u gs) := ⟨Nat.zero_lt_two, rfl⟩
example : entry (coulombFile false []) (elStart (coulombFile false [])) = some 5 := by decide +kernel
example (u : Bool) (gs : List (Par ℚ)) : ChemFree (coulombFile u gs).extra ∧
    ∀ d secs, (coulombFile u gs).extra = .elstat d secs → secs.length ≤ 5 := by
  refine ⟨trivial, ?_⟩
  rintro d secs h
  simp only [coulombFile, Extra.elstat.injEq] at h
  rw [← h.2]
  decide

/-- The charge is taken as the global parameter, kappa as the charge, and the global parameter as kappa. -/
theorem C70_mixed_up_violated :
    let f := coulombFile true [⟨8, false⟩]
    entry f (globalIdx f) = some 5 ∧ entry f (elStart f) = some 6 ∧ entry f (elStart f + 1) = some 8 := by decide +kernel

/-- Unused global parameters are not stored, but electrostatic parameters are still looked for further on: the charge is read
from an entry never written, kappa behind the end of the table. -/
theorem C70_unused_globals_violated :
    let f := coulombFile false [⟨8, false⟩, ⟨9, false⟩]
    (cells f).length ≤ elStart f ∧ entry f (elStart f + 1) = none := by decide +kernel

/-- Two types; the first chemical potential is fixed. -/
def fixedCp : File ℚ where
  ntypes := 2
  fns := [⟨false, [⟨1, false⟩]⟩, ⟨false, [⟨2, false⟩]⟩, ⟨false, [⟨3, false⟩]⟩]
  extra := .chem [⟨5, true⟩, ⟨6, false⟩]
  globals := [⟨8, true⟩, ⟨9, false⟩]
  used := true

/-- The index of the free chemical potential points at the fixed one, the index of the free global parameter at the fixed
one, and uses of the first global parameter take the second chemical potential. -/
theorem C70_fixed_chem_violated :
    Fits fixedCp ∧
    (⟨9, 3, 1⟩ : Slot) ∈ (build fixedCp).idx ∧ (cells fixedCp)[9]? = some (some (3, 0, ⟨5, true⟩)) ∧
    (⟨11, 4, 1⟩ : Slot) ∈ (build fixedCp).idx ∧ (cells fixedCp)[11]? = some (some (4, 0, ⟨8, true⟩)) ∧
    entry fixedCp (globalIdx fixedCp) = some 6 := by
  refine ⟨⟨rfl, rfl⟩, ?_⟩
  decide +kernel

end Verif.Props
