/-
C123  The file of local electron densities lists the densities of the last evaluation and their means.
-/
import Verif.Model.LocalDensity
import Verif.Lemmas.Errors
import Verif.Props.C98
import Verif.Props.C100

set_option linter.unusedSectionVars false

namespace Verif.Props

open Verif.Force Verif.Spec

variable {K : Type*} [Field K] [LinearOrder K] [IsStrictOrderedRing K]

/-! ### The file -/

/-- Number of atoms of a type. -/
def atomsOfType (confs : List (Conf K)) (t : Nat) : Nat :=
  (confs.map fun c => (c.atoms.filter fun a => a.typ = t).length).sum

/-- Sum of a quantity of the atoms over all atoms of a type; `D c j a` is that of atom `j` of configuration `c`. -/
def sumOfType (confs : List (Conf K)) (D : Conf K → Nat → Atom K → K) (t : Nat) : K :=
  (confs.map fun c => (c.atoms.zipIdx.map fun ak => if ak.1.typ = t then D c ak.2 ak.1 else 0).sum).sum

theorem totDens_from (rows : List (RhoRow K)) (tot : Nat → K) (t : Nat) :
    (rows.foldl (fun tot r => Function.update tot r.typ (tot r.typ + r.rho)) tot) t =
      tot t + (rows.map fun r => if r.typ = t then r.rho else 0).sum := by
  induction rows generalizing tot with
  | nil => simp
  | cons r rows ih =>
    rw [List.foldl_cons, ih, List.map_cons, List.sum_cons, ← add_assoc]
    congr 1
    by_cases h : r.typ = t
    · rw [if_pos h, ← h, Function.update_self]
    · rw [if_neg h, Function.update_of_ne (Ne.symm h), add_zero]

theorem totDens_eq (confs : List (Conf K)) (hn : Numbered confs) (rho : Nat → K) (D : Conf K → Nat → Atom K → K)
    (hD : ∀ (k : Nat) (c : Conf K), confs[k]? = some c → ∀ (j : Nat) (a : Atom K), c.atoms[j]? = some a → rho (c.start + j) = D c j a) (t : Nat) :
    totDens (rhoRows confs rho) t = sumOfType confs D t := by
  unfold totDens rhoRows sumOfType
  rw [totDens_from, zero_add, List.map_map]
  have := sum_atoms confs (fun i (_ : Nat) (a : Atom K) => if a.typ = t then rho i else 0) 0 0 (starts_numbered hn)
  refine this.trans ?_
  rw [sum_map_zipIdx confs]
  congr 1
  refine map_zipIdx_congr _ _ _ fun k c hk => ?_
  simp only
  congr 1
  refine map_zipIdx_congr _ _ _ fun j a hj => ?_
  simp only
  rw [hD k c hk j a hj]

theorem rhoRows_at (confs : List (Conf K)) (hn : Numbered confs) (rho : Nat → K) {k : Nat} {c : Conf K} (hk : confs[k]? = some c)
    {j : Nat} {a : Atom K} (hj : c.atoms[j]? = some a) :
    (rhoRows confs rho)[c.start + j]? = some ⟨c.start + j, a.typ, rho (c.start + j)⟩ := by
  unfold rhoRows
  rw [List.getElem?_map, List.getElem?_zipIdx, allAtoms_get hn hk hj]
  simp

theorem rhoRows_length (confs : List (Conf K)) (rho : Nat → K) :
    (rhoRows confs rho).length = (confs.map fun c => c.atoms.length).sum := by
  unfold rhoRows allAtoms
  rw [List.length_map, List.length_zipIdx]
  generalize 0 = k
  induction confs generalizing k with
  | nil => rfl
  | cons c cs ih => rw [atomsFrom, List.length_append, List.length_map, ih, List.map_cons, List.sum_cons]

/-- A value moved into the range `[lo, hi]`. -/
def moveInto (lo hi x : K) : K := max lo (min hi x)

theorem embed_rho (b : Build) (P : EamPots K) (col : Nat) (x : K) :
    (embed b P col x).rho = if b.rescale = true then moveInto (P.beg col) (P.fin col) x else x := by
  unfold embed moveInto
  by_cases hb : b.rescale = true
  · rw [if_pos hb, if_pos hb]
    simp only
    by_cases h1 : P.fin col < x
    · rw [if_pos h1, min_eq_left h1.le]
      by_cases h2 : P.fin col < P.beg col
      · rw [if_pos h2, max_eq_left h2.le]
      · rw [if_neg h2, max_eq_right (not_lt.1 h2)]
    · rw [if_neg h1, min_eq_right (not_lt.1 h1)]
      by_cases h2 : x < P.beg col
      · rw [if_pos h2, max_eq_left h2.le]
      · rw [if_neg h2, max_eq_right (not_lt.1 h2)]
  · rw [if_neg hb, if_neg hb]
    split
    · split <;> rfl
    · split
      · rfl
      · split <;> rfl

/-- The density which the file lists for atom `j` of a configuration: with `RESCALE` that at the end of the range of the embedding function
if the density is outside. -/
def listedDensity (b : Build) (P : EamPots K) (c : Conf K) (j : Nat) (a : Atom K) : K :=
  if b.rescale = true then
    moveInto (P.beg (P.paircol + P.ntypes + a.typ)) (P.fin (P.paircol + P.ntypes + a.typ)) (totalDensity P c (c.start + j))
  else totalDensity P c (c.start + j)

/-- **C123, lines and means.** After an evaluation with the EAM routine, whatever the state before, the file has one line for each atom, in the
order of the configurations, with number and type of the atom and its density in this evaluation (with `RESCALE` moved into the
range of the embedding function), and for every type with atoms the mean of these numbers. -/
theorem C123_file_partial (b : Build) (P : EamPots K) (ew sw w : K) (qs : List (Bound K)) (eopp univ : List (Nat × K)) (dummy0 : Nat → K)
    (natoms : Nat) (confs : List (Conf K)) (hn : Numbered confs) (hh : ∀ c ∈ confs, HalfList c ∧ EamColumns P c) (v v' : EamVec K) (y : K)
    (hr : eamObjective b P ew sw w qs eopp univ dummy0 natoms confs v = .ok (v', y)) :
    (rhoRows confs v'.st.rho).length = (confs.map fun c => c.atoms.length).sum ∧
    (∀ (k : Nat) (c : Conf K), confs[k]? = some c → ∀ (j : Nat) (a : Atom K), c.atoms[j]? = some a →
      (rhoRows confs v'.st.rho)[c.start + j]? = some ⟨c.start + j, a.typ, listedDensity b P c j a⟩) ∧
    ∀ t < P.ntypes, 0 < atomsOfType confs t →
      (rhoMeans P.ntypes (atomsOfType confs) (rhoRows confs v'.st.rho))[t]? =
        some (some (sumOfType confs (listedDensity b P) t / (atomsOfType confs t : K))) := by
  have hrho : ∀ (k : Nat) (c : Conf K), confs[k]? = some c → ∀ (j : Nat) (a : Atom K), c.atoms[j]? = some a → v'.st.rho (c.start + j) = listedDensity b P c j a := by
    intro k c hk j a hj
    rw [(eamVec_run hr).1, (eamRun_cells b P ew sw confs hn hh v.st k c hk).2.2.2.1 j a hj]
    unfold embedAt listedDensity
    rw [embed_rho]
  refine ⟨rhoRows_length confs _, ?_, ?_⟩
  · intro k c hk j a hj
    rw [rhoRows_at confs hn _ hk hj, hrho k c hk j a hj]
  · intro t ht h0
    unfold rhoMeans
    rw [List.getElem?_map, List.getElem?_range ht, Option.map_some, totDens_eq confs hn _ _ hrho]
    unfold shown
    rw [if_neg (Nat.cast_ne_zero.2 h0.ne')]

/-- **C123 in full without `RESCALE`**: the densities listed are the sums of the transfer functions of the neighbours. -/
theorem C123_densities (b : Build) (hb : b.rescale = false) (P : EamPots K) (c : Conf K) (j : Nat) (a : Atom K) :
    listedDensity b P c j a = totalDensity P c (c.start + j) := by
  unfold listedDensity
  rw [if_neg (by rw [hb]; exact Bool.false_ne_true)]

/-- With `RESCALE` so are those inside the range of the embedding function. -/
theorem C123_inside (b : Build) (P : EamPots K) (c : Conf K) (j : Nat) (a : Atom K)
    (h1 : P.beg (P.paircol + P.ntypes + a.typ) ≤ totalDensity P c (c.start + j))
    (h2 : totalDensity P c (c.start + j) ≤ P.fin (P.paircol + P.ntypes + a.typ)) :
    listedDensity b P c j a = totalDensity P c (c.start + j) := by
  unfold listedDensity moveInto
  rw [min_eq_right h2, max_eq_right h1, ite_self]

/-- **C123, crystals.** For configurations with the neighbour lists of the program the densities are those of the infinite crystals. -/
theorem C123_crystal (cut : Neighbors.Cutoffs) (hsym : ∀ s t, cut.rcut s t = cut.rcut t s) (b : Build) (hb : b.rescale = false) (P : EamPots ℝ)
    (ew sw w : ℝ) (qs : List (Bound ℝ)) (eopp univ : List (Nat × ℝ)) (dummy0 : Nat → ℝ) (natoms : Nat) (L : List (Neighbors.Cell × Conf ℝ))
    (hn : Numbered (L.map Prod.snd))
    (hL : ∀ x ∈ L, Prepared cut x.1 x.2 ∧ P.paircol = x.1.paircol ∧ TransferReach cut P x.1)
    (v v' : EamVec ℝ) (y : ℝ) (h : eamObjective b P ew sw w qs eopp univ dummy0 natoms (L.map Prod.snd) v = .ok (v', y)) :
    ∀ x ∈ L, ∀ i < x.1.sites.length,
      (rhoRows (L.map Prod.snd) v'.st.rho)[x.1.start + i]? =
        some ⟨x.1.start + i, (x.1.site i).typ, latticeDensity P x.1 i⟩ := by
  intro x hx i hi
  obtain ⟨edge, scale, hr, -, -, hf⟩ := (hL x hx).1.made
  have hh : ∀ g ∈ L.map Prod.snd, HalfList g ∧ EamColumns P g := by
    intro g hg
    obtain ⟨x, hx, rfl⟩ := List.mem_map.1 hg
    obtain ⟨edge, scale, -, -, -, hb⟩ := (hL x hx).1.made
    exact C23_half cut scale x.1 x.2 hb P (hL x hx).2.1
  obtain ⟨k, hk⟩ := List.mem_iff_getElem?.1 hx
  have hk' : (L.map Prod.snd)[k]? = some x.2 := by rw [List.getElem?_map, hk]; rfl
  have hi' : i < x.2.atoms.length := by rw [hf.count]; exact hi
  have hj : x.2.atoms[i]? = some x.2.atoms[i] := List.getElem?_eq_getElem hi'
  have := (C123_file_partial b P ew sw w qs eopp univ dummy0 natoms _ hn hh v v' y h).2.1 k x.2 hk' i _ hj
  rw [C123_densities b hb, hf.start, ← lattice_density hr hf hsym P (hL x hx).2.2 i hi, hf.typ i _ hj] at this
  exact this

open Verif.Cut in
/-- Hypotheses of `C123_crystal`, for the thin crystal and any values of the table. -/
example (d xi : ℕ → ℝ) (ana : ℕ → ℝ → ℝ × ℝ) : ∃ f, Numbered ([(thin, f)].map Prod.snd) ∧
    ∀ x ∈ [(thin, f)], Prepared (toCutoffs 1 (rcut .eam false 1 halfCols.fin 0 fun _ => 0)) x.1 x.2 ∧
      (tableEam .eqDist halfCols 1 ana xi d).paircol = x.1.paircol ∧
      TransferReach (toCutoffs 1 (rcut .eam false 1 halfCols.fin 0 fun _ => 0)) (tableEam .eqDist halfCols 1 ana xi d) x.1 := by
  obtain ⟨f, hf⟩ := thin_prepared .eam fun _ => 0
  refine ⟨f, ?_, ?_⟩
  · intro k c hk
    cases k with
    | zero =>
      obtain ⟨edge, scale, -, -, -, hstart, -⟩ := hf.made
      cases hk
      exact hstart
    | succ k => simp at hk
  · intro x hx
    obtain rfl := List.mem_singleton.1 hx
    refine ⟨hf, rfl, reach_transfer false 1 (tableEam .eqDist halfCols 1 ana xi d) 0 (fun _ => 0) thin rfl ?_⟩
    intro i hi
    obtain rfl : i = 0 := by have : i < 1 := hi; omega
    exact one_pos

/-- The example: densities 21, 4 and 0, means 21 and 2. -/
example : Numbered [exConf, exConf2] ∧ (∀ c ∈ [exConf, exConf2], HalfList c ∧ EamColumns exPots c) ∧
    (match eamObjective exBuild exPots 1 1 1 [] [] [] (fun _ => 0) 3 [exConf, exConf2] ⟨⟨⟨0, 0, 0, 0⟩, 7, 0⟩, 0, 0, 0⟩ with
     | .ok (v', _) => decide ((rhoRows [exConf, exConf2] v'.st.rho).map (fun r => (r.num, r.typ, r.rho)) = [(0, 0, 21), (1, 1, 4), (2, 1, 0)] ∧
        rhoMeans 2 (atomsOfType [exConf, exConf2]) (rhoRows [exConf, exConf2] v'.st.rho) = [some 21, some 2])
     | .error _ => false) = true := by
  refine ⟨exConfs_numbered, ?_, by decide +kernel⟩
  intro c hc
  simp only [List.mem_cons, List.not_mem_nil, or_false] at hc
  rcases hc with rfl | rfl
  · exact ⟨exConf_half, exConf_cols⟩
  · exact ⟨exConf2_half, exConf2_cols⟩

/-- **C123 is violated with `RESCALE`**: the file lists 10, the end of the range of the embedding function, for an atom with density 21. -/
theorem C123_rescale_violated : ∃ v' y r, eamObjective { exBuild with rescale := true } exPots 1 1 1 [] [] [] (fun _ => 0) 3
      [exConf, exConf2] ⟨⟨⟨0, 0, 0, 0⟩, 0, 0⟩, 0, 0, 0⟩ = .ok (v', y) ∧
    (rhoRows [exConf, exConf2] v'.st.rho)[0]? = some r ∧ r.rho = 10 ∧ totalDensity exPots exConf 0 = 21 :=
  ⟨_, _, _, rfl, rfl, by decide +kernel, by decide +kernel⟩

/-- **C123, types without atoms: violated.** Instead of a mean the quotient 0 / 0 is written. -/
theorem C123_absent_violated (P : EamPots K) (confs : List (Conf K)) (rows : List (RhoRow K)) (t : Nat) (ht : t < P.ntypes)
    (h0 : atomsOfType confs t = 0) : (rhoMeans P.ntypes (atomsOfType confs) rows)[t]? = some none := by
  unfold rhoMeans
  rw [List.getElem?_map, List.getElem?_range ht, Option.map_some, h0]
  unfold shown
  rw [if_pos Nat.cast_zero]

/-- The second configuration of the example has no atom of type 0. -/
example : 0 < exPots.ntypes ∧ atomsOfType [exConf2] 0 = 0 := by decide +kernel

end Verif.Props
