/-
C75: Reading a configuration file gives the data of the file.

`C75_read` describes the outcome of the reader for every file: it succeeds exactly for the files which can be cut into pieces, each
of which describes a configuration (`Spec/ConfigFile.lean`), and returns these configurations.  The other theorems are about the
arrays made of them.
-/
import Verif.Lemmas.ConfigFile
import Verif.Spec.Parallel
import Mathlib.Data.Rat.Floor

set_option linter.unusedSectionVars false

namespace Verif.Props

open Verif.Force (V3)
open Verif.ConfigFile Verif.Spec Verif.Lemmas.ConfigFile

section
variable {K : Type} [Field K] [LinearOrder K]

/-- A file is accepted exactly if it describes configurations, and these are the result. -/
theorem C75_read (s : Settings K) (ls : List (Line K)) (cs : List (Config K)) :
    readFile s ls = .ok cs ↔ FileDescribes s ls cs := by
  have hcut : ∀ cs, Cut s ls cs → cs ≠ [] ∧ (∀ c ∈ cs, c.atoms ≠ []) ∧ ∀ c ∈ cs, ∀ a ∈ c.atoms, 0 ≤ a.typ ∧ a.typ < s.ntypes := by
    rintro cs ⟨gs, h1, -, -, -, h5⟩
    have hlen := h5.length_eq
    refine ⟨?_, ?_, ?_⟩
    · rintro rfl
      exact h1 (List.length_eq_zero_iff.1 hlen)
    · intro c hc hn
      obtain ⟨k, hk, rfl⟩ := List.mem_iff_getElem.1 hc
      have := (List.forall₂_iff_get.1 h5).2 k (by omega) hk
      have h := this.enough
      simp only [List.get_eq_getElem, hn, List.length_nil] at h
      split_ifs at h <;> omega
    · intro c hc a ha
      obtain ⟨k, hk, rfl⟩ := List.mem_iff_getElem.1 hc
      have hd := (List.forall₂_iff_get.1 h5).2 k (by omega) hk
      obtain ⟨m, hm, rfl⟩ := List.mem_iff_getElem.1 ha
      have hl := hd.atoms.length_eq
      obtain ⟨raw, -, h3, h4, -⟩ := (List.forall₂_iff_get.1 hd.atoms).2 m (by rw [hl]; exact hm) hm
      exact ⟨h3, h4⟩
  unfold readFile
  constructor
  · intro h
    split at h
    · cases h
    rename_i p hp
    split at h
    · cases h
    rename_i cs' hc
    have hcs := (readConfs_iff s _ ls (Nat.lt_succ_self _) cs').1 hc
    obtain ⟨h1, h2, h3⟩ := hcut cs' hcs
    by_cases ht : maxType cs' + 1 < s.ntypes
    · rw [if_pos ht] at h; cases h
    · rw [if_neg ht, Except.ok.injEq] at h
      subst h
      exact ⟨(countMemory_iff ls).1 ⟨p, hp⟩, hcs, (maxType_iff _ _ h1 h2 h3).1 ht⟩
  · rintro ⟨h1, h2, h3⟩
    obtain ⟨p, hp⟩ := (countMemory_iff ls).2 h1
    obtain ⟨e1, e2, e3⟩ := hcut cs h2
    rw [hp]
    simp only [(readConfs_iff s _ ls (Nat.lt_succ_self _) cs).2 h2, if_neg ((maxType_iff _ _ e1 e2 e3).2 h3)]

/-- Otherwise the program stops with an error. -/
theorem C75_reject (s : Settings K) (ls : List (Line K)) :
    (∃ e, readFile s ls = .error e) ↔ ¬ ∃ cs, FileDescribes s ls cs := by
  simp only [← C75_read]
  cases readFile s ls with
  | error e => simp
  | ok cs => simp

/-- A file does not describe two different lists of configurations. -/
theorem C75_unique (s : Settings K) (ls : List (Line K)) (cs cs' : List (Config K)) (h : FileDescribes s ls cs)
    (h' : FileDescribes s ls cs') : cs = cs' := by
  rw [← C75_read] at h h'
  rw [h] at h'
  exact Except.ok.inj h'

/-- What holds for every configuration of an accepted file: enough atoms, types in the range, a weight that is not negative, a volume
that is not zero, stresses only with `usestress`. -/
theorem C75_accepted [IsStrictOrderedRing K] (s : Settings K) (ls : List (Line K)) (cs : List (Config K))
    (h : readFile s ls = .ok cs) (c : Config K) (hc : c ∈ cs) :
    (if s.threebody then 3 else 2) ≤ c.atoms.length ∧ (∀ a ∈ c.atoms, 0 ≤ a.typ ∧ a.typ < s.ntypes) ∧ 0 ≤ c.weight ∧
      c.volume ≠ 0 ∧ (c.useStress = false → c.stress = 0) ∧ (s.stress = false → c.useStress = false) := by
  obtain ⟨gs, h1, h2, h3, h4, h5⟩ := ((C75_read s ls cs).1 h).pieces
  have hlen := h5.length_eq
  obtain ⟨k, hk, rfl⟩ := List.mem_iff_getElem.1 hc
  have hkg : k < gs.length := by omega
  have hd : Describes s gs[k] cs[k] := (List.forall₂_iff_get.1 h5).2 k hkg hk
  have hw : WellFormed s gs[k] := h3 _ (List.getElem_mem hkg)
  refine ⟨hd.enough, ?_, ?_, hd.solid, ?_, ?_⟩
  · intro a ha
    obtain ⟨m, hm, rfl⟩ := List.mem_iff_getElem.1 ha
    have hl := hd.atoms.length_eq
    obtain ⟨raw, -, h3, h4, -⟩ := (List.forall₂_iff_get.1 hd.atoms).2 m (by rw [hl]; exact hm) hm
    exact ⟨h3, h4⟩
  · have := hd.weight
    cases hl : lastOf (item 'w' 'W') gs[k].header with
    | none =>
      simp only [hl] at this
      rw [this]
      exact zero_le_one
    | some l =>
      simp only [hl] at this
      obtain ⟨hm, hp⟩ := lastOf_some hl
      obtain ⟨x, hx, h0⟩ := hw.weights l hm hp
      rw [this] at hx
      rw [Option.some.inj hx]
      exact h0
  · intro hu
    have := hd.stress
    split at this
    · rw [hu] at this
      cases this.1
    · exact this.2
  · intro hs
    have := hd.stress
    simp only [hs] at this
    exact this.1

/-! Numbers of atoms -/

theorem natoms_foldl (cs : List (Config K)) (n : Nat) :
    cs.foldl (fun n c => n + c.atoms.length) n = n + (cs.map fun c => c.atoms.length).sum := by
  induction cs generalizing n with
  | nil => simp
  | cons c cs ih => rw [List.foldl_cons, ih, List.map_cons, List.sum_cons]; omega

theorem natoms_eq (cs : List (Config K)) : natoms cs = (cs.map fun c => c.atoms.length).sum := by
  unfold natoms
  rw [natoms_foldl, Nat.zero_add]

theorem natoms_cons (c : Config K) (cs : List (Config K)) : natoms (c :: cs) = c.atoms.length + natoms cs := by
  rw [natoms_eq, natoms_eq, List.map_cons, List.sum_cons]

theorem naType_foldl (l : List (RawAtom K)) (t n : Nat) :
    l.foldl (fun n a => if a.typ = (t : Int) then n + 1 else n) n = n + (l.filter fun a => a.typ = (t : Int)).length := by
  induction l generalizing n with
  | nil => simp
  | cons a l ih =>
    rw [List.foldl_cons, ih, List.filter_cons]
    by_cases h : a.typ = (t : Int)
    · simp only [h, if_true, decide_true, List.length_cons]
      omega
    · simp [h]

theorem naTotal_foldl (cs : List (Config K)) (t n : Nat) :
    cs.foldl (fun n c => n + naType c t) n = n + (cs.map fun c => naType c t).sum := by
  induction cs generalizing n with
  | nil => simp
  | cons c cs ih => rw [List.foldl_cons, ih, List.map_cons, List.sum_cons]; omega

/-- The numbers of atoms of each type, of a configuration and altogether, and the number of all atoms. -/
theorem C75_counts (cs : List (Config K)) (t : Nat) :
    (∀ c : Config K, naType c t = (c.atoms.filter fun a => a.typ = (t : Int)).length) ∧
    naTotal cs t = ((cs.flatMap fun c => c.atoms).filter fun a => a.typ = (t : Int)).length ∧
    natoms cs = (cs.flatMap fun c => c.atoms).length := by
  have h1 : ∀ c : Config K, naType c t = (c.atoms.filter fun a => a.typ = (t : Int)).length := by
    intro c
    unfold naType
    rw [naType_foldl, Nat.zero_add]
  refine ⟨h1, ?_, ?_⟩
  · unfold naTotal
    rw [naTotal_foldl, Nat.zero_add]
    induction cs with
    | nil => rfl
    | cons c cs ih => rw [List.map_cons, List.sum_cons, List.flatMap_cons, List.filter_append, List.length_append, ih, h1]
  · rw [natoms_eq, List.length_flatMap]

/-! The vector of the reference data -/

theorem getElem?_flatMap_uniform {A B : Type} (n : Nat) (g : A → List B) (hg : ∀ x, (g x).length = n) (l : List A) (i k : Nat)
    (hk : k < n) : (l.flatMap g)[n * i + k]? = l[i]?.bind fun x => (g x)[k]? := by
  induction l generalizing i with
  | nil => simp
  | cons a l ih =>
    rw [List.flatMap_cons]
    cases i with
    | zero =>
      rw [List.getElem?_append_left (by rw [hg]; omega)]
      simp
    | succ i =>
      have hge : n ≤ n * (i + 1) + k := by nlinarith
      rw [List.getElem?_append_right (by rw [hg]; exact hge), hg]
      have : n * (i + 1) + k - n = n * i + k := by
        rw [Nat.mul_succ]
        omega
      rw [this, ih]
      simp

theorem length_flatMap_uniform {A B : Type} (n : Nat) (g : A → List B) (hg : ∀ x, (g x).length = n) (l : List A) :
    (l.flatMap g).length = n * l.length := by
  induction l with
  | nil => simp
  | cons a l ih => rw [List.flatMap_cons, List.length_append, hg, ih, List.length_cons, Nat.mul_succ]; omega

theorem getElem?_start (cs : List (Config K)) (i j : Nat) (c : Config K) (hc : cs[i]? = some c) (hj : j < c.atoms.length) :
    (cs.flatMap fun c => c.atoms)[cnfstart cs i + j]? = c.atoms[j]? := by
  induction cs generalizing i with
  | nil => simp at hc
  | cons d cs ih =>
    rw [List.flatMap_cons]
    cases i with
    | zero =>
      simp only [List.getElem?_cons_zero, Option.some.injEq] at hc
      subst hc
      have : cnfstart (d :: cs) 0 = 0 := rfl
      rw [this, Nat.zero_add, List.getElem?_append_left hj]
    | succ i =>
      have h0 : cnfstart (d :: cs) (i + 1) = d.atoms.length + cnfstart cs i := by
        unfold cnfstart
        rw [List.take_succ_cons, natoms_cons]
      rw [h0, List.getElem?_append_right (by omega)]
      have : d.atoms.length + cnfstart cs i + j - d.atoms.length = cnfstart cs i + j := by omega
      rw [this]
      exact ih i (by simpa using hc)

theorem forces_eq (cs : List (Config K)) :
    (cs.flatMap fun c => c.atoms.flatMap fun a => [a.force 0, a.force 1, a.force 2]) =
      (cs.flatMap fun c => c.atoms).flatMap fun a => [a.force 0, a.force 1, a.force 2] := by
  rw [List.flatMap_assoc]

theorem stress_length (c : Config K) : (if c.useStress = true then
      [c.stress 0, c.stress 1, c.stress 2, c.stress 3, c.stress 4, c.stress 5] else [0, 0, 0, 0, 0, 0]).length = 6 := by
  split_ifs <;> rfl

theorem written_length (s : Settings K) (cs : List (Config K)) :
    (written s cs).length = 3 * natoms cs + cs.length + if s.stress = true then 6 * cs.length else 0 := by
  unfold written
  rw [List.length_append, List.length_append, forces_eq, length_flatMap_uniform 3 _ (fun _ => rfl), List.length_map,
    ← (C75_counts cs 0).2.2]
  congr 1
  by_cases h : s.stress = true
  · rw [if_pos h, if_pos h, length_flatMap_uniform 6 _ stress_length]
  · rw [if_neg h, if_neg h]
    rfl

/-- Entries of the reference vector are where the force routines look for them (`Model/Sections.lean`): the forces on atom `j` of
configuration `i`, its energy, and its stresses (zero without stresses in the file). -/
theorem C75_reference (s : Settings K) (f : Sections.Flags) (z : Sections.Sizes) (hf : f.stress = s.stress)
    (cs : List (Config K)) (i : Nat) (c : Config K) (hc : cs[i]? = some c) :
    (∀ (j : Nat) (a : RawAtom K), c.atoms[j]? = some a → ∀ k : Fin 3,
      force0 s cs (Sections.index f (sizes cs z) (.force (cnfstart cs i + j) k.1)) = a.force k) ∧
    force0 s cs (Sections.index f (sizes cs z) (.energy i)) = c.energy ∧
    (s.stress = true → ∀ k : Fin 6, force0 s cs (Sections.index f (sizes cs z) (.stress i k.1)) =
      if c.useStress = true then c.stress k else 0) ∧
    force0 s cs (Sections.index f (sizes cs z) (.limit i)) = 0 ∧
    (∀ d, force0 s cs (Sections.index f (sizes cs z) (.dummy d)) = 0) := by
  have hi : i < cs.length := (List.getElem?_eq_some_iff.1 hc).1
  have hlf : ((cs.flatMap fun c => c.atoms).flatMap fun a => [a.force 0, a.force 1, a.force 2]).length = 3 * natoms cs := by
    rw [length_flatMap_uniform 3 _ (fun _ => rfl), ← (C75_counts cs 0).2.2]
  have hw := written_length s cs
  refine ⟨?_, ?_, ?_, ?_, ?_⟩
  · intro j a ha k
    have hj : j < c.atoms.length := (List.getElem?_eq_some_iff.1 ha).1
    have hs := getElem?_start cs i j c hc hj
    rw [ha] at hs
    have hlt : cnfstart cs i + j < natoms cs := by
      rw [(C75_counts cs 0).2.2]
      exact (List.getElem?_eq_some_iff.1 hs).1
    have hidx : Sections.index f (sizes cs z) (.force (cnfstart cs i + j) k.1) = 3 * (cnfstart cs i + j) + k.1 := rfl
    unfold force0 written
    rw [hidx, List.getD_eq_getElem?_getD, forces_eq, List.append_assoc, List.getElem?_append_left (by rw [hlf]; omega),
      getElem?_flatMap_uniform 3 _ (fun _ => rfl) _ _ _ k.2, hs]
    fin_cases k <;> rfl
  · have hidx : Sections.index f (sizes cs z) (.energy i) = 3 * natoms cs + i := rfl
    unfold force0 written
    rw [hidx, List.getD_eq_getElem?_getD, forces_eq, List.append_assoc, List.getElem?_append_right (by rw [hlf]; omega), hlf,
      Nat.add_sub_cancel_left, List.getElem?_append_left (by rw [List.length_map]; exact hi), List.getElem?_map, hc]
    rfl
  · intro hs k
    have hidx : Sections.index f (sizes cs z) (.stress i k.1) = 3 * natoms cs + cs.length + (6 * i + k.1) := by
      show 3 * natoms cs + cs.length + 6 * i + k.1 = _
      omega
    unfold force0 written
    rw [if_pos hs, hidx, List.getD_eq_getElem?_getD, forces_eq,
      List.getElem?_append_right (by rw [List.length_append, List.length_map, hlf]; omega), List.length_append, List.length_map,
      hlf, Nat.add_sub_cancel_left, getElem?_flatMap_uniform 6 _ stress_length _ _ _ k.2, hc]
    simp only [Option.bind_some]
    by_cases hu : c.useStress = true
    · simp only [if_pos hu]
      fin_cases k <;> rfl
    · simp only [if_neg hu]
      fin_cases k <;> rfl
  · unfold force0
    rw [List.getD_eq_default]
    rw [hw]
    simp only [Sections.index, Sections.limitP, Sections.stressP, Sections.energyP, sizes, hf]
    split_ifs <;> omega
  · intro d
    unfold force0
    rw [List.getD_eq_default]
    rw [hw]
    simp only [Sections.index, Sections.dummyP, Sections.limitP, Sections.stressP, Sections.energyP, sizes, hf]
    split_ifs <;> omega

/-- The vector has room for all of them. -/
theorem C75_room (s : Settings K) (f : Sections.Flags) (z : Sections.Sizes) (hf : f.stress = s.stress) (cs : List (Config K)) :
    (written s cs).length ≤ Sections.mdim f (sizes cs z) := by
  rw [written_length]
  simp only [Sections.mdim, sizes, hf]
  split_ifs <;> omega

/-! Memory -/

theorem flatMap_counts (s : Settings K) (gs : List (Piece K)) (cs : List (Config K)) (h3 : ∀ g ∈ gs, WellFormed s g)
    (h5 : List.Forall₂ (Describes s) gs cs) (hn : ∀ l ∈ gs.flatMap Piece.lines, isCount l = true → 0 ≤ l.ints.headD 0) :
    cs.length ≤ ((gs.flatMap Piece.lines).filter isCount).length ∧
    (natoms cs : Int) ≤ (((gs.flatMap Piece.lines).filter isCount).map fun l => l.ints.headD 0).sum := by
  have nonneg : ∀ l : List (Line K), (∀ x ∈ l, isCount x = true → 0 ≤ x.ints.headD 0) →
      0 ≤ ((l.filter isCount).map fun l => l.ints.headD 0).sum := by
    intro l hl
    apply List.sum_nonneg
    intro x hx
    obtain ⟨y, hy, rfl⟩ := List.mem_map.1 hx
    obtain ⟨h1, h2⟩ := List.mem_filter.1 hy
    exact hl y h1 h2
  induction h5 with
  | nil => simp [natoms]
  | @cons g c gs cs d h5 ih =>
    have w := h3 g (by simp)
    obtain ⟨i1, i2⟩ := ih (fun x hx => h3 x (List.mem_cons_of_mem _ hx)) (fun l hl => hn l (by
      rw [List.flatMap_cons]
      exact List.mem_append_right _ hl))
    obtain ⟨uf, r, hi, -⟩ := d.count
    have hcl : isCount g.count = true := (isCount_iff _).2 w.count
    have n1 := nonneg g.before fun x hx => hn x (by
      rw [List.flatMap_cons]
      exact List.mem_append_left _ (by rw [Piece.lines]; exact List.mem_append_left _ hx))
    have n2 := nonneg (g.header ++ g.last :: g.table) fun x hx => hn x (by
      rw [List.flatMap_cons]
      exact List.mem_append_left _ (by rw [Piece.lines]; exact List.mem_append_right _ (List.mem_cons_of_mem _ hx)))
    rw [List.flatMap_cons, List.filter_append, natoms_cons, List.map_append, List.sum_append, List.length_append]
    have e : g.lines.filter isCount = g.before.filter isCount ++ g.count :: (g.header ++ g.last :: g.table).filter isCount := by
      rw [Piece.lines, List.filter_append, List.filter_cons, if_pos hcl]
    rw [e, List.map_append, List.sum_append, List.map_cons, List.sum_cons, hi, List.headD_cons, List.length_append,
      List.length_cons, List.length_cons]
    constructor
    · omega
    · push_cast
      omega

/-- Partial: the arrays allocated before reading are large enough, if no line `#N` has a negative number of atoms.
Missing: such a line inside of a header is not rejected (`C75_memory_violated`). -/
theorem C75_memory_partial (s : Settings K) (ls : List (Line K)) (cs : List (Config K)) (h : readFile s ls = .ok cs)
    (hn : ∀ l ∈ ls, l.c0 = '#' → l.c1 = 'N' → 0 ≤ l.ints.headD 0) :
    ∃ nc na, countMemory ls = .ok (nc, na) ∧ cs.length ≤ nc ∧ (natoms cs : Int) ≤ na := by
  obtain ⟨h1, ⟨gs, -, rfl, h3, -, h5⟩, -⟩ := (C75_read s ls cs).1 h
  obtain ⟨p, hp⟩ := (countMemory_iff _).2 h1
  obtain ⟨e1, e2⟩ := countMemory_value _ p hp
  obtain ⟨f1, f2⟩ := flatMap_counts s gs cs h3 h5 fun l hl hc =>
    hn l hl ((isCount_iff l).1 hc).1 ((isCount_iff l).1 hc).2
  exact ⟨p.1, p.2, hp, by rw [e1]; exact f1, by rw [e2]; exact f2⟩

end

/-! The configurations as the force routines see them -/

/-- Atoms are numbered through, each configuration has the reference data and the weight of its piece of the file, and the
hypotheses of the theorems about the force routines hold. -/
theorem C75_confs (s : Settings ℝ) (f : Sections.Flags) (z : Sections.Sizes) (hf : f.stress = s.stress)
    (neigh : Nat → List (Force.Neigh ℝ)) (contrib : Nat → Bool) (chem : Nat → ℝ) (ls : List (Line ℝ)) (cs : List (Config ℝ))
    (h : readFile s ls = .ok cs) :
    Numbered (toConfs s f z neigh contrib chem cs) ∧
    ∀ (i : Nat) (c : Force.Conf ℝ), (toConfs s f z neigh contrib chem cs)[i]? = some c → ∃ d, cs[i]? = some d ∧
      c.atoms.length = d.atoms.length ∧ c.uf = d.useForce ∧ c.us = d.useStress ∧ c.weight = d.weight ∧ 0 ≤ c.weight ∧
      c.vol = d.volume ∧ c.vol ≠ 0 ∧ c.energy0 = d.energy ∧ c.limit0 = 0 ∧ (s.stress = true → c.stress0 = d.stress) ∧
      ∀ (j : Nat) (a : Force.Atom ℝ), c.atoms[j]? = some a → ∃ b, d.atoms[j]? = some b ∧ (a.typ : Int) = b.typ ∧ a.typ < s.ntypes ∧
        0 ≤ a.absforce ∧ a.absforce ^ 2 = b.force 0 ^ 2 + b.force 1 ^ 2 + b.force 2 ^ 2 ∧ c.force0 (c.start + j) = b.force := by
  have hget : ∀ i : Nat, (toConfs s f z neigh contrib chem cs)[i]? =
      cs[i]?.map fun d => toConf s f z neigh contrib chem cs i d := by
    intro i
    unfold toConfs
    rw [List.getElem?_map, List.getElem?_zipIdx]
    cases cs[i]? with
    | none => rfl
    | some d => simp
  have hlen : ∀ i d, (toConf s f z neigh contrib chem cs i d).atoms.length = d.atoms.length := by
    intro i d
    simp [toConf]
  constructor
  · intro k c hc
    rw [hget] at hc
    cases hk : cs[k]? with
    | none => rw [hk] at hc; cases hc
    | some d =>
      rw [hk, Option.map_some, Option.some.injEq] at hc
      subst hc
      show cnfstart cs k = _
      unfold cnfstart
      rw [natoms_eq]
      have hkl : k < cs.length := (List.getElem?_eq_some_iff.1 hk).1
      congr 1
      apply List.ext_getElem?
      intro m
      rw [List.getElem?_map, List.getElem?_map]
      by_cases hm : m < k
      · rw [List.getElem?_take_of_lt hm, List.getElem?_range hm]
        simp only [Option.map_some, inconf, hget]
        rw [List.getElem?_eq_getElem (show m < cs.length by omega)]
        simp only [Option.map_some, hlen]
      · rw [List.getElem?_eq_none (by rw [List.length_take]; omega), List.getElem?_eq_none (by rw [List.length_range]; omega)]
        rfl
  · intro i c hc
    rw [hget] at hc
    cases hk : cs[i]? with
    | none => rw [hk] at hc; cases hc
    | some d =>
      rw [hk, Option.map_some, Option.some.injEq] at hc
      subst hc
      obtain ⟨-, a2, a3, a4, a5, -⟩ := C75_accepted s ls cs h d (List.mem_of_getElem? hk)
      obtain ⟨r1, r2, r3, r4, -⟩ := C75_reference s f z hf cs i d hk
      refine ⟨d, rfl, hlen i d, rfl, rfl, rfl, a3, rfl, a4, r2, r4, ?_, ?_⟩
      · intro hs
        funext k
        show force0 s cs _ = _
        rw [r3 hs k]
        by_cases hu : d.useStress = true
        · rw [if_pos hu]
        · rw [if_neg hu, a5 (by simpa using hu)]
          rfl
      · intro j a ha
        have hj : j < d.atoms.length := by
          rw [← hlen i d]
          exact (List.getElem?_eq_some_iff.1 ha).1
        have hb := List.getElem?_eq_getElem hj
        have hm : d.atoms[j] ∈ d.atoms := List.getElem_mem hj
        have ht := a2 _ hm
        refine ⟨d.atoms[j], hb, ?_⟩
        have ha' : a = { typ := (d.atoms[j]).typ.toNat
                         neigh := neigh (cnfstart cs i + j)
                         absforce := Real.sqrt ((d.atoms[j]).force 0 * (d.atoms[j]).force 0 +
                           (d.atoms[j]).force 1 * (d.atoms[j]).force 1 + (d.atoms[j]).force 2 * (d.atoms[j]).force 2)
                         contrib := contrib (cnfstart cs i + j) } := by
          simp only [toConf, List.getElem?_map, List.getElem?_zipIdx, hb, Option.map_some, Option.some.injEq, Nat.zero_add] at ha
          exact ha.symm
        subst ha'
        have hnn : (0 : ℝ) ≤ (d.atoms[j]).force 0 * (d.atoms[j]).force 0 +
                           (d.atoms[j]).force 1 * (d.atoms[j]).force 1 + (d.atoms[j]).force 2 * (d.atoms[j]).force 2 := by
          nlinarith [mul_self_nonneg ((d.atoms[j]).force 0), mul_self_nonneg ((d.atoms[j]).force 1),
            mul_self_nonneg ((d.atoms[j]).force 2)]
        refine ⟨?_, ?_, Real.sqrt_nonneg _, ?_, ?_⟩
        · exact Int.toNat_of_nonneg ht.1
        · show (d.atoms[j]).typ.toNat < _
          omega
        · show Real.sqrt _ ^ 2 = _
          rw [Real.sq_sqrt hnn]
          ring
        · funext k
          exact r1 j _ hb k

/-! Examples -/

/-- Lines of a file. -/
def lineN (n uf : Int) : Line ℚ := ⟨'#', 'N', ' ', [n, uf], [], [], [], none, false⟩
def lineItem (c : Char) (nums : List ℚ) : Line ℚ := ⟨'#', c, ' ', [], nums, [], [], none, false⟩
def lineAtom (t : Int) (x y z fx fy fz : ℚ) : Line ℚ := ⟨'0', ' ', ' ', [], [], [], [], some ⟨t, ![x, y, z], ![fx, fy, fz]⟩, false⟩
def lineBlank : Line ℚ := ⟨' ', ' ', ' ', [], [], [], [], none, true⟩

def fileHead (e : ℚ) : List (Line ℚ) :=
  [lineItem 'X' [3, 0, 0], lineItem 'Y' [0, 3, 0], lineItem 'Z' [1, 0, 3], lineItem 'E' [e]]

def fileAtoms : List (Line ℚ) := [lineAtom 0 0 0 0 1 2 3, lineAtom 1 1 1 1 4 5 6]

def fileSettings : Settings ℚ := ⟨true, true, false, 2, 2⟩

/-- Two configurations, the second one with stresses, weight and blank lines. -/
def goodFile : List (Line ℚ) :=
  [lineItem '#' []] ++ lineN 2 1 :: (fileHead (-5) ++ lineItem 'F' [] :: fileAtoms) ++
  [lineBlank] ++ lineN 2 0 :: (fileHead (-7) ++ [lineItem 'W' [10], lineItem 's' [1, 2, 3, 4, 5, 6]] ++ lineItem 'F' [] :: fileAtoms) ++
  [lineBlank]

def energies (r : Except Err (List (Config ℚ))) : Option (List ℚ) := r.toOption.map fun cs => cs.map fun c => c.energy

/-- The hypothesis of the theorems above; the vector of the reference data. -/
example : (readFile fileSettings goodFile).toOption.map (fun cs => (written fileSettings cs, cs.map fun c => c.weight)) =
    some ([1, 2, 3, 4, 5, 6, 1, 2, 3, 4, 5, 6, -5, -7, 0, 0, 0, 0, 0, 0, 1, 2, 3, 4, 5, 6], [1, 10]) := by decide +kernel

example : (readFile fileSettings goodFile).toOption.map (fun cs => cs.map fun c => (c.volume, c.useForce, c.useStress)) =
    some [(216, true, false), (216, false, true)] := by decide +kernel

example : ∀ l ∈ goodFile, l.c0 = '#' → l.c1 = 'N' → 0 ≤ l.ints.headD 0 := by decide +kernel

/-- Rejected: no energy, two vectors only, wrong type, not enough atoms, missing type. -/
example : readFile fileSettings (lineN 2 1 :: ((fileHead 1).take 3 ++ lineItem 'F' [] :: fileAtoms)) |>.toOption.isNone := by
  decide +kernel
example : readFile fileSettings (lineN 2 1 :: ((fileHead 1).drop 1 ++ lineItem 'F' [] :: fileAtoms)) |>.toOption.isNone := by
  decide +kernel
example : readFile { fileSettings with ntypes := 1 } goodFile |>.toOption.isNone := by decide +kernel
example : readFile { fileSettings with threebody := true } goodFile |>.toOption.isNone := by decide +kernel
example : readFile { fileSettings with ntypes := 3 } goodFile |>.toOption.isNone := by decide +kernel

/-- A comment after the last configuration makes the file unreadable. -/
example : readFile fileSettings (goodFile ++ [lineItem '#' []]) |>.toOption.isNone := by decide +kernel

/-- `#f` is accepted by the `switch` but does not end the header: of two configurations, the first one ending its header with `#f`,
one configuration is read, with the energy of the second one. -/
theorem C75_lower_case_violated :
    energies (readFile fileSettings (lineN 2 1 :: (fileHead (-5) ++ lineItem 'f' [] :: fileAtoms) ++
      lineN 2 1 :: (fileHead (-7) ++ lineItem 'F' [] :: fileAtoms))) = some [-7] := by decide +kernel

/-- A line of the header which does not start with `#` is reported as ignored, but sets the energy. -/
theorem C75_ignored_line_violated :
    let l : Line ℚ := ⟨'1', 'e', ' ', [], [3], [], [], none, false⟩
    energies (readFile fileSettings (lineN 2 1 :: (fileHead (-5) ++ l :: lineItem 'F' [] :: fileAtoms))) = some [3] := by
  decide +kernel

/-- A negative number of atoms in a line `#N` within a header is not rejected and makes the array of the atoms too small. -/
theorem C75_memory_violated :
    let ls := lineN 2 1 :: (fileHead (-5) ++ lineN (-1) 1 :: lineItem 'F' [] :: fileAtoms)
    (readFile fileSettings ls).toOption.map natoms = some 2 ∧ (countMemory ls).toOption = some (2, 1) := by decide +kernel

end Verif.Props
