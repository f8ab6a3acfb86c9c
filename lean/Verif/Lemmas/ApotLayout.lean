/-
Loops of the reader for analytic potentials: table and index lists from the intended layout.
-/
import Verif.Spec.ApotLayout
import Mathlib.Data.List.Basic
import Mathlib.Tactic.Ring

set_option linter.unusedSectionVars false

namespace Verif.Spec

open Verif.ApotLayout

variable {K : Type*} [Zero K]

def cellVal (c : Cell K) : K := match c with | some (_, _, p) => p.val | none => 0

/-- Index entries of the free parameters among places `n, n+1, …`. -/
def slotsFrom : Nat → List (Cell K) → List Slot
  | _, [] => []
  | n, none :: cs => slotsFrom (n + 1) cs
  | n, some (i, j, p) :: cs => if p.fixed then slotsFrom (n + 1) cs else ⟨n, i, j⟩ :: slotsFrom (n + 1) cs

theorem slotsFrom_append (cs ds : List (Cell K)) (n : Nat) :
    slotsFrom n (cs ++ ds) = slotsFrom n cs ++ slotsFrom (n + cs.length) ds := by
  induction cs generalizing n with
  | nil => simp [slotsFrom]
  | cons c cs ih =>
    have h : n + (cs.length + 1) = n + 1 + cs.length := by omega
    cases c with
    | none => simp only [List.cons_append, slotsFrom, ih, List.length_cons, h]
    | some c =>
      obtain ⟨i, j, p⟩ := c
      simp only [List.cons_append, slotsFrom, ih, List.length_cons, h]
      split <;> simp

/-- Table and index lists hold exactly the places `cs`. -/
structure Holds (s : St K) (cs : List (Cell K)) : Prop where
  table : s.table = cs.map cellVal
  l : s.l = cs.length
  idx : s.idx = slotsFrom 0 cs

def cellsAt (i : Nat) (frozen : Bool) (ps : List (Par K)) (j : Nat) : List (Cell K) :=
  (ps.zipIdx j).map fun pj => some (i, pj.2, ⟨pj.1.val, frozen || pj.1.fixed⟩)

theorem addPars_holds (frozen : Bool) (i : Nat) (ps : List (Par K)) (j : Nat) (s : St K) (cs : List (Cell K)) (h : Holds s cs) :
    Holds (addPars frozen i ps j s) (cs ++ cellsAt i frozen ps j) := by
  induction ps generalizing j s cs with
  | nil => simpa [cellsAt, addPars] using h
  | cons p ps ih =>
    have h1 : Holds (K := K) ⟨s.table ++ [p.val], s.l + 1, if !frozen && !p.fixed then s.idx ++ [⟨s.l, i, j⟩] else s.idx⟩
        (cs ++ [some (i, j, ⟨p.val, frozen || p.fixed⟩)]) := by
      refine ⟨by simp [h.table, cellVal], by simp [h.l], ?_⟩
      rw [slotsFrom_append, ← h.idx, Nat.zero_add, ← h.l]
      cases frozen <;> cases hp : p.fixed <;> simp [slotsFrom]
    have h2 := ih (j + 1) _ _ h1
    rw [List.append_assoc] at h2
    simpa [addPars, cellsAt] using h2

theorem addFns_holds (fs : List (Fn K)) (i : Nat) (s : St K) (cs : List (Cell K)) (h : Holds s cs) :
    Holds (addFns fs i s) (cs ++ (fs.zipIdx i).flatMap fun fi => [none, none] ++ cellsOf fi.2 fi.1.frozen fi.1.pars) := by
  induction fs generalizing i s cs with
  | nil => simpa [addFns] using h
  | cons f fs ih =>
    have h1 : Holds (K := K) ⟨s.table ++ [0, 0], s.l + 2, s.idx⟩ (cs ++ [none, none]) := by
      refine ⟨by simp [h.table, cellVal], by simp [h.l], ?_⟩
      rw [slotsFrom_append, ← h.idx]
      simp [slotsFrom]
    have h2 := ih (i + 1) _ _ (addPars_holds f.frozen i f.pars 0 _ _ h1)
    simpa [addFns, cellsAt, cellsOf] using h2

theorem addSecs_holds (secs : List (List (Par K))) (n i : Nat) (s : St K) (cs : List (Cell K)) (h : Holds s cs) :
    Holds (addSecs secs (n + i) s) (cs ++ (secs.zipIdx i).flatMap fun si => cellsOf (n + si.2) false si.1) := by
  induction secs generalizing i s cs with
  | nil => simpa [addSecs] using h
  | cons ps secs ih =>
    have h2 := ih (i + 1) _ _ (addPars_holds false (n + i) ps 0 _ _ h)
    simpa [addSecs, cellsAt, cellsOf, Nat.add_assoc] using h2

theorem addChem_free (i : Nat) (ps : List (Par K)) (hf : ∀ p ∈ ps, p.fixed = false) (j : Nat) (s : St K) :
    addChem i ps j s = addPars false i ps j s := by
  induction ps generalizing j s with
  | nil => rfl
  | cons p ps ih =>
    have h1 := hf p (by simp)
    simp only [addChem, addPars, h1, Bool.not_false, Bool.and_self, if_true]
    exact ih (fun q hq => hf q (List.mem_cons_of_mem _ hq)) _ _

theorem addChem_table (i : Nat) (ps : List (Par K)) (j : Nat) (s : St K) :
    (addChem i ps j s).table = s.table ++ ps.map (·.val) := by
  induction ps generalizing j s with
  | nil => simp [addChem]
  | cons p ps ih =>
    simp only [addChem]
    rw [ih]
    cases p.fixed <;> simp

theorem addPars_table (frozen : Bool) (i : Nat) (ps : List (Par K)) (j : Nat) (s : St K) :
    (addPars frozen i ps j s).table = s.table ++ ps.map (·.val) := by
  induction ps generalizing j s with
  | nil => simp [addPars]
  | cons p ps ih => simp only [addPars, ih, List.append_assoc, List.map_cons, List.singleton_append]

theorem cellsOf_val (i : Nat) (frozen : Bool) (ps : List (Par K)) : (cellsOf i frozen ps).map cellVal = ps.map (·.val) := by
  unfold cellsOf
  rw [List.map_map]
  have : (fun pj : Par K × Nat => pj.1.val) = (fun p : Par K => p.val) ∘ Prod.fst := rfl
  show List.map (fun pj : Par K × Nat => pj.1.val) _ = _
  rw [this, ← List.map_map, List.zipIdx_map_fst]

theorem cellsOf_length (i : Nat) (frozen : Bool) (ps : List (Par K)) : (cellsOf i frozen ps).length = ps.length := by
  simp [cellsOf]

/-- After the loop over the potentials. -/
theorem fns_holds (f : File K) : Holds (addFns f.fns 0 ⟨[], 0, []⟩) (cellsFns f.fns) := by
  have := addFns_holds f.fns 0 (⟨[], 0, []⟩ : St K) [] ⟨rfl, rfl, rfl⟩
  simpa [cellsFns] using this

theorem haveGlobals_cells (f : File K) :
    cellsGlobals f = if haveGlobals f then cellsOf (globalPot f) false f.globals else [] := by
  unfold cellsGlobals haveGlobals
  cases hu : f.used
  · simp
  · cases hg : f.globals <;> simp [cellsOf]

/-- Unless a chemical potential is fixed, table and index lists are those of the intended layout. -/
theorem build_holds (f : File K) (hc : ChemFree f.extra) : Holds (build f) (cells f) := by
  have h0 := fns_holds f
  have h1 : Holds (addExtra f.fns.length f.extra (addFns f.fns 0 ⟨[], 0, []⟩)) (cellsFns f.fns ++ cellsExtra f.fns.length f.extra) := by
    cases hx : f.extra with
    | none => simpa [addExtra, cellsExtra] using h0
    | chem ps =>
      rw [hx] at hc
      simp only [addExtra, cellsExtra]
      rw [addChem_free _ _ hc]
      exact addPars_holds false f.fns.length ps 0 _ _ h0
    | elstat d secs =>
      simp only [addExtra, cellsExtra]
      have := addSecs_holds secs f.fns.length 0 _ _ h0
      simpa using this
  unfold build cells
  rw [haveGlobals_cells]
  cases haveGlobals f
  · simpa using h1
  · simpa [cellsAt, cellsOf] using addPars_holds false (globalPot f) f.globals 0 _ _ h1

/-- The table holds the values of the intended layout in any case. -/
theorem build_table (f : File K) : (build f).table = (cells f).map cellVal := by
  have h1 : (addExtra f.fns.length f.extra (addFns f.fns 0 ⟨[], 0, []⟩)).table =
      (cellsFns f.fns ++ cellsExtra f.fns.length f.extra).map cellVal := by
    have h0 := fns_holds f
    cases hx : f.extra with
    | none => simp [addExtra, cellsExtra, h0.table]
    | chem ps => simp only [addExtra, cellsExtra, addChem_table, h0.table, List.map_append, cellsOf_val]
    | elstat d secs =>
      have := (addSecs_holds secs f.fns.length 0 _ _ h0).table
      simpa [addExtra, cellsExtra] using this
  unfold build cells
  rw [haveGlobals_cells]
  cases haveGlobals f
  · simpa using h1
  · simp only [if_true, addPars_table, h1, List.map_append, cellsOf_val]

theorem lastEnd_eq (fs : List (Fn K)) (e i : Nat) :
    lastEnd fs e = e + ((fs.zipIdx i).flatMap fun fi => [none, none] ++ cellsOf fi.2 fi.1.frozen fi.1.pars).length := by
  induction fs generalizing e i with
  | nil => simp [lastEnd]
  | cons f fs ih =>
    rw [lastEnd, ih _ (i + 1)]
    simp only [List.zipIdx_cons, List.flatMap_cons, List.length_append, cellsOf_length, List.length_cons, List.length_nil]
    omega

theorem lastEnd_cells (f : File K) : lastEnd f.fns 0 = (cellsFns f.fns).length := by
  rw [lastEnd_eq f.fns 0 0, Nat.zero_add]
  rfl

theorem lastEnd_sum (fs : List (Fn K)) (e : Nat) : lastEnd fs e = e + 2 * fs.length + (fs.map fun g => g.pars.length).sum := by
  induction fs generalizing e with
  | nil => simp [lastEnd]
  | cons f fs ih =>
    rw [lastEnd, ih]
    simp only [List.length_cons, List.map_cons, List.sum_cons]
    omega

theorem cellsExtra_length (f : File K) (hf : Fits f) : (cellsExtra f.fns.length f.extra).length = match f.extra with
    | .none => 0
    | .chem _ => f.ntypes
    | .elstat dipole _ => f.ntypes + if dipole then f.ntypes * (f.ntypes + 2) else 0 := by
  unfold Fits at hf
  cases hx : f.extra with
  | none => simp [cellsExtra]
  | chem ps => rw [hx] at hf; simp [cellsExtra, cellsOf_length, hf.1]
  | elstat d secs =>
    rw [hx] at hf
    simp only at hf ⊢
    rw [← hf.2]
    simp only [cellsExtra]
    generalize f.fns.length = n
    have : ∀ i, ((secs.zipIdx i).flatMap fun si => cellsOf (n + si.2) false si.1).length = (secs.map List.length).sum := by
      clear hx hf
      induction secs with
      | nil => simp
      | cons s secs ih => intro i; simp [ih, cellsOf_length]
    exact this 0

theorem cellsGlobals_length (f : File K) : (cellsGlobals f).length = if haveGlobals f then f.globals.length else 0 := by
  rw [haveGlobals_cells]
  cases haveGlobals f <;> simp [cellsOf_length]

theorem cells_length_le (f : File K) (hf : Fits f) : (cells f).length ≤ len f := by
  unfold cells len
  rw [List.length_append, List.length_append, cellsGlobals_length, cellsExtra_length f hf, lastEnd_cells f]
  unfold Fits at hf
  cases hx : f.extra with
  | none => simp
  | chem ps => simp only; omega
  | elstat d secs => rw [hx] at hf; simp only at hf ⊢; omega

theorem mem_slotsFrom (cs : List (Cell K)) (b n i j : Nat) :
    (⟨n, i, j⟩ : Slot) ∈ slotsFrom b cs ↔ b ≤ n ∧ ∃ v, cs[n - b]? = some (some (i, j, ⟨v, false⟩)) := by
  induction cs generalizing b with
  | nil => simp [slotsFrom]
  | cons c cs ih =>
    have key : (b ≤ n ∧ ∃ v, (c :: cs)[n - b]? = some (some (i, j, ⟨v, false⟩))) ↔
        (n = b ∧ ∃ v, c = some (i, j, ⟨v, false⟩)) ∨ (b + 1 ≤ n ∧ ∃ v, cs[n - (b + 1)]? = some (some (i, j, ⟨v, false⟩))) := by
      rcases Nat.lt_trichotomy n b with h | h | h
      · constructor
        · rintro ⟨h1, _⟩; omega
        · rintro (⟨h1, _⟩ | ⟨h1, _⟩) <;> omega
      · subst h
        have hn : ¬ (n + 1 ≤ n) := by omega
        simp
      · have h1 : n - b = (n - (b + 1)) + 1 := by omega
        have h2 : ¬ (n = b) := by omega
        rw [h1, List.getElem?_cons_succ]
        simp only [h2, false_and, false_or]
        constructor
        · rintro ⟨_, h4⟩; exact ⟨by omega, h4⟩
        · rintro ⟨_, h4⟩; exact ⟨by omega, h4⟩
    rw [key]
    cases c with
    | none => simp only [slotsFrom, ih]; simp
    | some c =>
      obtain ⟨a, k, ⟨v, x⟩⟩ := c
      cases x
      · simp only [slotsFrom, Bool.false_eq_true, if_false, List.mem_cons, ih, Slot.mk.injEq, Option.some.injEq, Prod.mk.injEq,
          Par.mk.injEq, and_true]
        constructor
        · rintro (⟨h1, h2, h3⟩ | h)
          · exact Or.inl ⟨h1, v, h2.symm, h3.symm, rfl⟩
          · exact Or.inr h
        · rintro (⟨h1, w, h2, h3, _⟩ | h)
          · exact Or.inl ⟨h1, h2.symm, h3.symm⟩
          · exact Or.inr h
      · simp only [slotsFrom, if_true, ih]
        simp

theorem slotsFrom_pos (cs : List (Cell K)) (b : Nat) : ∀ s ∈ slotsFrom b cs, b ≤ s.pos := by
  rintro ⟨n, i, j⟩ hs
  exact ((mem_slotsFrom cs b n i j).1 hs).1

theorem slotsFrom_sorted (cs : List (Cell K)) (b : Nat) : (slotsFrom b cs).Pairwise (·.pos < ·.pos) := by
  induction cs generalizing b with
  | nil => simp [slotsFrom]
  | cons c cs ih =>
    cases c with
    | none => exact ih _
    | some c =>
      obtain ⟨a, k, p⟩ := c
      simp only [slotsFrom]
      split
      · exact ih _
      · exact List.pairwise_cons.2 ⟨fun s hs => slotsFrom_pos _ _ s hs, ih _⟩

theorem nFixed_cons (p : Par K) (ps : List (Par K)) : nFixed (p :: ps) = (if p.fixed then 1 else 0) + nFixed ps := by
  unfold nFixed
  cases h : p.fixed <;> simp [h, Nat.add_comm]

theorem addPars_idxlen (frozen : Bool) (i : Nat) (ps : List (Par K)) (j : Nat) (s : St K) :
    ((addPars frozen i ps j s).idx.length : Int) = s.idx.length + if !frozen then (ps.length : Int) - nFixed ps else 0 := by
  induction ps generalizing j s with
  | nil => simp [addPars, nFixed]
  | cons p ps ih =>
    rw [addPars, ih, nFixed_cons]
    cases frozen <;> cases h : p.fixed <;> simp <;> omega

theorem addChem_idxlen (i : Nat) (ps : List (Par K)) (j : Nat) (s : St K) :
    ((addChem i ps j s).idx.length : Int) = s.idx.length + ((ps.length : Int) - nFixed ps) := by
  induction ps generalizing j s with
  | nil => simp [addChem, nFixed]
  | cons p ps ih =>
    rw [addChem, ih, nFixed_cons]
    cases h : p.fixed <;> simp <;> omega

theorem addFns_idxlen (fs : List (Fn K)) (i : Nat) (s : St K) :
    ((addFns fs i s).idx.length : Int) =
      s.idx.length + (fs.map fun g => if !g.frozen then ((g.pars.length : Int) - nFixed g.pars) else 0).sum := by
  induction fs generalizing i s with
  | nil => simp [addFns]
  | cons f fs ih =>
    rw [addFns, ih, addPars_idxlen, List.map_cons, List.sum_cons]
    exact Int.add_assoc _ _ _

theorem addSecs_idxlen (secs : List (List (Par K))) (i : Nat) (s : St K) :
    ((addSecs secs i s).idx.length : Int) =
      s.idx.length + ((secs.map List.length).sum : Nat) - (secs.map fun ps => (nFixed ps : Int)).sum := by
  induction secs generalizing i s with
  | nil => simp [addSecs]
  | cons ps secs ih =>
    rw [addSecs, ih, addPars_idxlen, List.map_cons, List.map_cons, List.sum_cons, List.sum_cons]
    simp only [Bool.not_false, if_true]
    push_cast
    omega

theorem cellsSecs_val (secs : List (List (Par K))) (n i : Nat) :
    ((secs.zipIdx i).flatMap fun si => cellsOf (n + si.2) false si.1).map cellVal = secs.flatten.map (·.val) := by
  induction secs generalizing i with
  | nil => simp
  | cons s secs ih =>
    rw [List.zipIdx_cons, List.flatMap_cons, List.map_append, ih, cellsOf_val, List.flatten_cons, List.map_append]

/-- Values stored behind the potentials. -/
def tailVals (f : File K) : List K :=
  (match f.extra with
    | .none => []
    | .chem ps => ps.map (·.val)
    | .elstat _ secs => secs.flatten.map (·.val)) ++ if haveGlobals f then f.globals.map (·.val) else []

theorem build_tail (f : File K) : ∃ pre : List K, pre.length = lastEnd f.fns 0 ∧ (build f).table = pre ++ tailVals f := by
  refine ⟨(cellsFns f.fns).map cellVal, by rw [List.length_map, lastEnd_cells], ?_⟩
  rw [build_table]
  unfold cells tailVals
  rw [haveGlobals_cells, List.map_append, List.map_append, List.append_assoc]
  congr 2
  · cases hx : f.extra with
    | none => simp [cellsExtra]
    | chem ps => simp only [cellsExtra, cellsOf_val]
    | elstat d secs => simpa [cellsExtra] using cellsSecs_val secs f.fns.length 0
  · cases haveGlobals f <;> simp [cellsOf_val]

/-- Reading behind the potentials. -/
theorem entry_tail (f : File K) (j : Nat) (v : K) (h : (tailVals f)[j]? = some v) : entry f (lastEnd f.fns 0 + j) = some v := by
  obtain ⟨pre, hp, ht⟩ := build_tail f
  unfold entry table
  rw [ht, List.append_assoc, ← hp, List.getElem?_append_right (by omega), Nat.add_sub_cancel_left,
    List.getElem?_append_left (List.getElem?_eq_some_iff.1 h).1]
  exact h

end Verif.Spec
