/-
C92  Data of the worker processes.
-/
import Verif.Lemmas.Workers
import Verif.Props.C02
import Verif.Model.Chempot
import Verif.Model.Splines
import Mathlib.Data.List.GetD
import Mathlib.Data.Rat.Defs
import Mathlib.Algebra.Order.Ring.Rat

set_option linter.unusedSectionVars false

namespace Verif.Props

open Verif.Workers

variable {K : Type} [DecidableEq K]

/-! ### What every process needs -/

/-- The sizes on rank 0. -/
structure Extents where
  mdim : Nat
  ntypes : Nat
  natoms : Nat
  nconf : Nat
  len : Nat
  ncols : Nat
  optLen : Nat
  number : Nat
  globals : Nat
  cp : Int
  haveGlob : Int
  nGlob : List Nat

/-- Global variables which hold one number. -/
def scalarNames (b : Build) : List String :=
  ["mdim", "ntypes", "natoms", "nconf", "paircol", "opt", "eweight", "sweight", "format_type", "calc.len", "calc.ncols"] ++
  (if b.coulomb then ["dp_cut"] else []) ++ (if b.dipole then ["dp_tol", "dp_mix"] else []) ++
  (if b.apot then ["enable_cp", "opt.len", "number", "cp_start", "have_globals", "global_idx", "globals"] ++
    (if b.coulomb then ["total_ne_par", "last_charge"] else []) else [])

/-- Arrays read by the force routines, with their lengths: data of the configurations, the sampled potentials and, for analytic
potentials, the parameters and the description of the functions. -/
def arrayNames (b : Build) (N : Extents) : List (String × Nat) :=
  [("inconf", N.nconf), ("cnfstart", N.nconf), ("force_0", N.mdim), ("conf_weight", N.nconf),
   ("calc.begin", N.ncols), ("calc.end", N.ncols), ("calc.step", N.ncols), ("calc.invstep", N.ncols), ("calc.first", N.ncols),
   ("calc.last", N.ncols), ("calc.table", N.len), ("calc.xcoord", N.len), ("calc.d2tab", N.len)] ++
  (if b.apot then
    [("opt.table", N.optLen), ("calc_list", N.optLen), ("n_par", N.number), ("apot.begin", N.number), ("apot.end", N.number),
     ("idxpot", N.number), ("smooth_pot", N.number), ("invar_pot", N.number), ("opt.first", N.number),
     ("rcut", N.ntypes * N.ntypes), ("rmin", N.ntypes * N.ntypes)] ++ (if b.coulomb then [("ratio", N.ntypes)] else [])
  else [])

/-- Memory of rank 0 after the input has been read: every variable and array is there, the arrays have at least the given lengths,
nothing is empty, and function names are terminated. -/
structure RootOk (b : Build) (R : Mem K) (N : Extents) : Prop where
  scalars : ∀ s ∈ scalarNames b, ∃ c, R (sc s) = some [c]
  arrays : ∀ p ∈ arrayNames b N, 0 < p.2 ∧ ∃ a, R (sc p.1) = some a ∧ p.2 ≤ a.length
  mdim : R (sc "mdim") = some [.int N.mdim]
  ntypes : R (sc "ntypes") = some [.int N.ntypes]
  nconf : R (sc "nconf") = some [.int N.nconf]
  len : R (sc "calc.len") = some [.int N.len]
  ncols : R (sc "calc.ncols") = some [.int N.ncols]
  posTypes : 0 < N.ntypes
  optLen : b.apot → R (sc "opt.len") = some [.int N.optLen]
  number : b.apot → R (sc "number") = some [.int N.number]
  globals : b.apot → R (sc "globals") = some [.int N.globals]
  cp : b.apot → R (sc "enable_cp") = some [.int N.cp]
  haveGlob : b.apot → R (sc "have_globals") = some [.int N.haveGlob]
  names : b.apot → ∀ i < N.number, ∃ a l, R ("names", [i]) = some a ∧ strlen a = some l
  types : b.apot → N.cp ≠ 0 → ∀ i < N.nconf + 1, ∃ a, R ("na_type", [i]) = some a ∧ N.ntypes ≤ a.length
  posGlob : b.apot → N.haveGlob ≠ 0 → 0 < N.globals
  nGlob : b.apot → N.haveGlob ≠ 0 → N.nGlob.length = N.globals ∧ R (sc "n_glob") = some (N.nGlob.map fun n => .int n)
  places : b.apot → N.haveGlob ≠ 0 → ∀ i < N.globals, ∀ j < N.nGlob.getD i 0,
    ∃ a, R ("global_idx", [i, j]) = some a ∧ 2 ≤ a.length

/-- The workers have the global variables, with any content. -/
def WorkersStarted (b : Build) (w : World K) : Prop :=
  ∀ s ∈ scalarNames b, ∀ r, 1 ≤ r → r < w.size → ∃ d, w.mem r (sc s) = some d ∧ d.length = 1

/-- Array `k` of process memory `m` holds the first `n` values of rank 0. -/
def SameAsRoot (R m : Mem K) (k : Key) (n : Nat) : Prop := ∃ a, R k = some a ∧ n ≤ a.length ∧ m k = some (a.take n)

/-- The names of the functions: the characters up to the terminating zero. -/
def SameName (R m : Mem K) (k : Key) : Prop := ∃ a l, R k = some a ∧ strlen a = some l ∧ m k = some (a.take (l + 1))

private def factsOf (ops : List Op) : List Fact := ops.filterMap opFact

private theorem mem_factsOf {ops : List Op} {f : Fact} : f ∈ factsOf ops ↔ ∃ o ∈ ops, opFact o = some f := by
  simp [factsOf, List.mem_filterMap]

private def startFacts (b : Build) : List Fact := (scalarNames b).map fun s => (sc s, .lit 1, false)

private theorem facts_after {R : Mem K} {w w' : World K} {F : List Fact} {ops : List Op} (h : Done R w w' F ops) :
    ∀ f ∈ factsOf ops ++ F, FactOk R w' f := by
  intro f hf
  rcases List.mem_append.mp hf with hf | hf
  · obtain ⟨o, ho, hof⟩ := mem_factsOf.mp hf
    exact h.new o ho f hof
  · exact h.old f hf

private theorem check1 (b : Build) : checkB (startFacts b) (basic b ++ calcpot) = true := by
  obtain ⟨x, y, z⟩ := b
  revert x y z
  decide +kernel

private theorem check2 (b : Build) (h : b.apot = true) :
    checkB (factsOf (basic b ++ calcpot) ++ startFacts b) (apotHead b) = true := by
  obtain ⟨x, y, z⟩ := b
  revert x y z
  decide +kernel

private def facts2 (b : Build) : List Fact := factsOf (apotHead b) ++ (factsOf (basic b ++ calcpot) ++ startFacts b)

private theorem check3 (b : Build) (h : b.apot = true) : checkB (facts2 b) (apotAlloc b) = true := by
  obtain ⟨x, y, z⟩ := b
  revert x y z
  decide +kernel

private def facts3 (b : Build) : List Fact := factsOf (apotAlloc b) ++ facts2 b

private theorem check4 (b : Build) (h : b.apot = true) : checkB (facts3 b) (apotSend b) = true := by
  obtain ⟨x, y, z⟩ := b
  revert x y z
  decide +kernel

private def facts4 (b : Build) : List Fact := factsOf (apotSend b) ++ facts3 b

private theorem check5 (b : Build) (h : b.apot = true) : checkB (facts4 b) parameters = true := by
  obtain ⟨x, y, z⟩ := b
  revert x y z
  decide +kernel

private def facts5 (b : Build) : List Fact := factsOf parameters ++ facts4 b

/-! Sizes of the fixed statements. -/

private def arrayCnts (b : Build) : List (String × Cnt) :=
  [("inconf", v "nconf"), ("cnfstart", v "nconf"), ("force_0", v "mdim"), ("conf_weight", v "nconf"),
   ("calc.begin", v "calc.ncols"), ("calc.end", v "calc.ncols"), ("calc.step", v "calc.ncols"), ("calc.invstep", v "calc.ncols"),
   ("calc.first", v "calc.ncols"), ("calc.last", v "calc.ncols"), ("calc.table", v "calc.len"), ("calc.xcoord", v "calc.len"),
   ("calc.d2tab", v "calc.len")] ++
  (if b.apot then
    [("opt.table", v "opt.len"), ("calc_list", v "opt.len"), ("n_par", v "number"), ("apot.begin", v "number"),
     ("apot.end", v "number"), ("idxpot", v "number"), ("smooth_pot", v "number"), ("invar_pot", v "number"),
     ("opt.first", v "number"), ("rcut", .mul (v "ntypes") (v "ntypes")), ("rmin", .mul (v "ntypes") (v "ntypes"))] ++
    (if b.coulomb then [("ratio", v "ntypes")] else [])
  else [])

private def Cnt.num (N : Extents) : Cnt → Nat
  | .lit n => n
  | .val k _ =>
    if k = sc "mdim" then N.mdim else if k = sc "ntypes" then N.ntypes else if k = sc "nconf" then N.nconf
    else if k = sc "calc.len" then N.len else if k = sc "calc.ncols" then N.ncols else if k = sc "opt.len" then N.optLen
    else if k = sc "number" then N.number else 0
  | .mul a b => Cnt.num N a * Cnt.num N b
  | .add a b => Cnt.num N a + Cnt.num N b

private theorem arrayNames_eq (b : Build) (N : Extents) :
    arrayNames b N = (arrayCnts b).map fun p => (p.1, Cnt.num N p.2) := by
  obtain ⟨x, y, z⟩ := b
  cases x <;> cases y <;> rfl

private def countsUsed (b : Build) : List Cnt :=
  [v "nconf", v "mdim", v "calc.ncols", v "calc.len"] ++
    (if b.apot then [v "opt.len", v "number", .mul (v "ntypes") (v "ntypes"), v "ntypes"] else [])

private theorem counts_used (b : Build) : ∀ p ∈ arrayCnts b, p.2 ∈ countsUsed b := by
  obtain ⟨x, y, z⟩ := b
  revert x y z
  decide +kernel

private theorem eval_v {R : Mem K} {s : String} {n : Nat} (h : R (sc s) = some [.int n]) : (v s).eval R = some n := by
  simp [v, Cnt.eval, intAt, h]

private theorem eval_num {b : Build} {R : Mem K} {N : Extents} (h : RootOk b R N) :
    ∀ p ∈ arrayCnts b, p.2.eval R = some (Cnt.num N p.2) := by
  intro p hp
  have hc := counts_used b p hp
  have e1 : (v "nconf").eval R = some (Cnt.num N (v "nconf")) := eval_v h.nconf
  have e2 : (v "mdim").eval R = some (Cnt.num N (v "mdim")) := eval_v h.mdim
  have e3 : (v "calc.ncols").eval R = some (Cnt.num N (v "calc.ncols")) := eval_v h.ncols
  have e4 : (v "calc.len").eval R = some (Cnt.num N (v "calc.len")) := eval_v h.len
  have e5 : (v "ntypes").eval R = some (Cnt.num N (v "ntypes")) := eval_v h.ntypes
  by_cases ha : b.apot = true
  · have e6 : (v "opt.len").eval R = some (Cnt.num N (v "opt.len")) := eval_v (h.optLen ha)
    have e7 : (v "number").eval R = some (Cnt.num N (v "number")) := eval_v (h.number ha)
    have e8 : (Cnt.mul (v "ntypes") (v "ntypes")).eval R = some (Cnt.num N (.mul (v "ntypes") (v "ntypes"))) := by
      simp only [Cnt.eval, e5, Cnt.num]
    simp only [countsUsed, ha, if_true, List.mem_append, List.mem_cons, List.not_mem_nil, or_false] at hc
    rcases hc with (h | h | h | h) | (h | h | h | h) <;> rw [h] <;> assumption
  · rw [Bool.not_eq_true] at ha
    simp only [countsUsed, ha, List.mem_append, List.mem_cons, List.not_mem_nil, or_false, Bool.false_eq_true, if_false] at hc
    rcases hc with h | h | h | h <;> rw [h] <;> assumption

private def listedB (b : Build) : Op → Bool
  | .alloc k e => decide (k.2 = []) && decide ((k.1, e) ∈ arrayCnts b)
  | .bcast k e => decide (k.2 = []) && (decide (e = .lit 1 ∧ k.1 ∈ scalarNames b) || decide ((k.1, e) ∈ arrayCnts b))
  | .str _ => false

private theorem sizeOk_of_listed {b : Build} {R : Mem K} {N : Extents} (h : RootOk b R N) {o : Op} (ho : listedB b o = true) :
    SizeOk R o := by
  have harr : ∀ s e, (s, e) ∈ arrayCnts b → 0 < Cnt.num N e ∧ e.eval R = some (Cnt.num N e) ∧
      ∃ a, R (sc s) = some a ∧ Cnt.num N e ≤ a.length := by
    intro s e hse
    obtain ⟨h1, a, h2, h3⟩ := h.arrays (s, Cnt.num N e) (by
      rw [arrayNames_eq]
      exact List.mem_map.mpr ⟨(s, e), hse, rfl⟩)
    exact ⟨h1, eval_num h (s, e) hse, a, h2, h3⟩
  match o with
  | .alloc (s, l) e =>
    simp only [listedB, Bool.and_eq_true, decide_eq_true_eq] at ho
    obtain ⟨h1, h2, -⟩ := harr s e ho.2
    exact ⟨_, h1, h2⟩
  | .bcast (s, l) e =>
    simp only [listedB, Bool.and_eq_true, Bool.or_eq_true, decide_eq_true_eq] at ho
    obtain ⟨hl, ⟨he, hs⟩ | hs⟩ := ho
    · obtain ⟨c, hc⟩ := h.scalars s hs
      subst he hl
      exact ⟨1, [c], rfl, hc, le_rfl⟩
    · obtain ⟨-, h2, a, h3, h4⟩ := harr s e hs
      subst hl
      exact ⟨_, a, h2, h3, h4⟩
  | .str k => simp [listedB] at ho

private theorem listed1 (b : Build) : ∀ o ∈ basic b ++ calcpot, listedB b o = true := by
  obtain ⟨x, y, z⟩ := b
  revert x y z
  decide +kernel

private theorem listed2 (b : Build) (h : b.apot = true) :
    ∀ o ∈ apotHead b ++ apotAlloc b ++ apotSend b ++ parameters, listedB b o = true := by
  obtain ⟨x, y, z⟩ := b
  revert x y z
  decide +kernel

private theorem plain4 (b : Build) : ∀ f ∈ facts4 b, f.1.2 = [] := by
  obtain ⟨x, y, z⟩ := b
  revert x y z
  decide +kernel

private theorem noGlob4 (b : Build) : ∀ f ∈ facts4 b, f.1 ≠ sc "n_glob" := by
  obtain ⟨x, y, z⟩ := b
  revert x y z
  decide +kernel

private theorem plainOps (b : Build) : ∀ o ∈ apotAlloc b ++ apotSend b ++ parameters, (target o).2 = [] ∧ target o ≠ sc "n_glob" := by
  obtain ⟨x, y, z⟩ := b
  revert x y z
  decide +kernel

private theorem scalarFact1 (b : Build) (h : b.apot = false) :
    ∀ s ∈ scalarNames b, (sc s, .lit 1, true) ∈ factsOf (basic b ++ calcpot) ++ startFacts b := by
  obtain ⟨x, y, z⟩ := b
  revert x y z
  decide +kernel

private theorem arrayFact1 (b : Build) (h : b.apot = false) :
    ∀ p ∈ arrayCnts b, (sc p.1, p.2, true) ∈ factsOf (basic b ++ calcpot) ++ startFacts b := by
  obtain ⟨x, y, z⟩ := b
  revert x y z
  decide +kernel

private theorem scalarFact5 (b : Build) (h : b.apot = true) : ∀ s ∈ scalarNames b, (sc s, .lit 1, true) ∈ facts5 b := by
  obtain ⟨x, y, z⟩ := b
  revert x y z
  decide +kernel

private theorem arrayFact5 (b : Build) (h : b.apot = true) : ∀ p ∈ arrayCnts b, (sc p.1, p.2, true) ∈ facts5 b := by
  obtain ⟨x, y, z⟩ := b
  revert x y z
  decide +kernel

private theorem scalarFact2 (b : Build) (h : b.apot = true) :
    ∀ s ∈ ["enable_cp", "nconf", "ntypes", "number"], (sc s, .lit 1, true) ∈ facts2 b := by
  obtain ⟨x, y, z⟩ := b
  revert x y z
  decide +kernel

private theorem scalarFact4 (b : Build) (h : b.apot = true) :
    ∀ s ∈ ["have_globals", "globals"], (sc s, .lit 1, true) ∈ facts4 b := by
  obtain ⟨x, y, z⟩ := b
  revert x y z
  decide +kernel

private theorem scalar_read {R : Mem K} {w : World K} (h0 : w.mem 0 = R) {s : String} (hf : FactOk R w (sc s, .lit 1, true))
    {c : Cell K} (hc : R (sc s) = some [c]) {r : Nat} (hr : r < w.size) : w.mem r (sc s) = some [c] := by
  by_cases h : r = 0
  · rw [h, h0, hc]
  · obtain ⟨n, hn, hx⟩ := hf
    obtain ⟨a, ha, -, hm⟩ := (hx r (by omega) hr).2 rfl
    simp only [Cnt.eval, Option.some.injEq] at hn
    simp only at ha hm
    rw [hc] at ha
    have := Option.some.inj ha
    subst this hn
    exact hm

/-! The loops. -/

private theorem phase_composition {b : Build} {R : Mem K} {N : Extents} (h : RootOk b R N) (hb : b.apot = true) {w : World K}
    (h0 : w.mem 0 = R) (hsz : 0 < w.size) (hF : ∀ f ∈ facts2 b, FactOk R w f) :
    ∃ w', phase apotComposition w = .ok w' ∧ w'.size = w.size ∧ w'.mem 0 = R ∧ (∀ f ∈ facts2 b, FactOk R w' f) ∧
      (N.cp ≠ 0 → ∀ i < N.nconf + 1, ∀ r, 1 ≤ r → r < w.size → SameAsRoot R (w'.mem r) ("na_type", [i]) N.ntypes) := by
  have hcp : ∀ r, r < w.size → w.mem r (sc "enable_cp") = some [.int N.cp] := fun r hr =>
    scalar_read h0 (hF _ (scalarFact2 b hb _ (by simp))) (h.cp hb) hr
  have hnc : ∀ r, r < w.size → w.mem r (sc "nconf") = some [.int N.nconf] := fun r hr =>
    scalar_read h0 (hF _ (scalarFact2 b hb _ (by simp))) h.nconf hr
  by_cases hz : N.cp = 0
  · rw [phase_run hsz (l := []) (fun r hr => by simp [apotComposition, intAt, hcp r hr, eval_v (hnc r hr), hz])]
    exact ⟨w, rfl, rfl, h0, hF, fun h => absurd hz h⟩
  · let L : List (Key × Cnt) := (List.range (N.nconf + 1)).map fun i => (("na_type", [i]), v "ntypes")
    have hl : ∀ r, r < w.size → apotComposition (w.mem r) =
        some (L.map (fun p => Op.alloc p.1 p.2) ++ L.map (fun p => Op.bcast p.1 p.2)) := by
      intro r hr
      simp [apotComposition, intAt, hcp r hr, eval_v (hnc r hr), hz, L, Function.comp_def]
    rw [phase_run hsz hl]
    have hnd : (L.map Prod.fst).Nodup := by
      simp only [L, List.map_map]
      exact List.Nodup.map (fun i j hij => by simpa using hij) List.nodup_range
    have hkn : Known R (facts2 b) (v "ntypes") := ⟨.lit 1, 1, scalarFact2 b hb _ (by simp), rfl, by omega⟩
    have hpl : ∀ f ∈ facts2 b, f.1.2 = [] := fun f hf => plain4 b f (by
      simp only [facts4, facts3, List.mem_append]
      exact Or.inr (Or.inr hf))
    have hmem : ∀ p ∈ L, ∃ i < N.nconf + 1, p = (("na_type", [i]), v "ntypes") := by
      intro p hp
      obtain ⟨i, hi, rfl⟩ := List.mem_map.mp hp
      exact ⟨i, List.mem_range.mp hi, rfl⟩
    have hsafe : Safe R (facts2 b) (L.map (fun p => Op.alloc p.1 p.2) ++ L.map (fun p => Op.bcast p.1 p.2)) := by
      apply safe_allocs L _ _ hnd
      · intro p hp
        obtain ⟨i, -, rfl⟩ := hmem p hp
        refine ⟨fun f hf he => ?_, hkn, N.ntypes, h.posTypes, eval_v h.ntypes⟩
        have := hpl f hf
        rw [he] at this
        cases this
      · intro G hG
        apply safe_bcasts L _ hnd
        intro p hp
        obtain ⟨i, hi, rfl⟩ := hmem p hp
        refine ⟨(hG _).mpr (Or.inr ⟨_, hp, rfl⟩), fun f hf he => ?_, hkn.mono fun f hf => (hG f).mpr (Or.inl hf), ?_⟩
        · rcases (hG f).mp hf with hf | ⟨q, -, rfl⟩
          · have := hpl f hf
            rw [he] at this
            cases this
          · rfl
        · obtain ⟨a, ha, hla⟩ := h.types hb hz i hi
          exact ⟨N.ntypes, a, eval_v h.ntypes, ha, hla⟩
    obtain ⟨w', hw', hd⟩ := run_safe _ _ w h0 hF hsafe
    refine ⟨w', hw', hd.size, hd.root, hd.old, fun _ i hi r h1 hr => ?_⟩
    obtain ⟨n, hn, hx⟩ := hd.new (.bcast ("na_type", [i]) (v "ntypes")) (by
      apply List.mem_append_right
      exact List.mem_map.mpr ⟨(("na_type", [i]), v "ntypes"), List.mem_map.mpr ⟨i, List.mem_range.mpr hi, rfl⟩, rfl⟩) _ rfl
    obtain ⟨a, ha, hla, hm⟩ := (hx r h1 (hd.size ▸ hr)).2 rfl
    simp only [eval_v h.ntypes, Option.some.injEq] at hn
    subst hn
    exact ⟨a, ha, hla, hm⟩

private theorem phase_names {b : Build} {R : Mem K} {N : Extents} (h : RootOk b R N) (hb : b.apot = true) {w : World K}
    (h0 : w.mem 0 = R) (hsz : 0 < w.size) (hF : ∀ f ∈ facts3 b, FactOk R w f) :
    ∃ w', phase apotNames w = .ok w' ∧ w'.size = w.size ∧ w'.mem 0 = R ∧ (∀ f ∈ facts3 b, FactOk R w' f) ∧
      (∀ i < N.number, ∀ r, 1 ≤ r → r < w.size → SameName R (w'.mem r) ("names", [i])) ∧
      ∀ k : Key, k.1 ≠ "names" → ∀ r, w'.mem r k = w.mem r k := by
  have hno : ∀ r, r < w.size → w.mem r (sc "number") = some [.int N.number] := fun r hr =>
    scalar_read h0 (hF _ (by
      simp only [facts3, List.mem_append]
      exact Or.inr (scalarFact2 b hb _ (by simp)))) (h.number hb) hr
  let L : List Key := (List.range N.number).map fun i => ("names", [i])
  have hl : ∀ r, r < w.size → apotNames (w.mem r) = some (L.map Op.str) := by
    intro r hr
    simp [apotNames, eval_v (hno r hr), L, Function.comp_def]
  rw [phase_run hsz hl]
  have hnd : L.Nodup := List.Nodup.map (fun i j hij => by simpa using hij) List.nodup_range
  have hpl : ∀ f ∈ facts3 b, f.1.2 = [] := fun f hf => plain4 b f (by
    simp only [facts4, List.mem_append]
    exact Or.inr hf)
  have hsafe : Safe R (facts3 b) (L.map Op.str) := by
    apply safe_strs L _ hnd
    intro k hk
    obtain ⟨i, hi, rfl⟩ := List.mem_map.mp hk
    refine ⟨fun f hf he => ?_, h.names hb i (List.mem_range.mp hi)⟩
    have := hpl f hf
    rw [he] at this
    cases this
  obtain ⟨w', hw', hd⟩ := run_safe _ _ w h0 hF hsafe
  refine ⟨w', hw', hd.size, hd.root, hd.old, fun i hi r h1 hr => ?_, fun k hk r => ?_⟩
  · exact hd.strs ("names", [i]) (List.mem_map.mpr ⟨_, List.mem_map.mpr ⟨i, List.mem_range.mpr hi, rfl⟩, rfl⟩) r h1 hr
  · apply hd.frame
    intro o ho he
    obtain ⟨q, hq, rfl⟩ := List.mem_map.mp ho
    obtain ⟨i, -, rfl⟩ := List.mem_map.mp hq
    exact hk (by rw [← he]; rfl)

private theorem globalPairs_eq {m : Mem K} {l : List Nat} (h : m (sc "n_glob") = some (l.map fun n => .int n)) :
    globalPairs m l.length = some ((List.range l.length).flatMap fun i => (List.range (l.getD i 0)).map fun j => (i, j)) := by
  have hev : ∀ i ∈ List.range l.length, (((Cnt.val (sc "n_glob") i).eval m).map fun c => (List.range c).map fun j => (i, j)) =
      some ((List.range (l.getD i 0)).map fun j => (i, j)) := by
    intro i hi
    have hi := List.mem_range.mp hi
    simp [Cnt.eval, intAt, h, hi]
  have hgen : ∀ (s : List Nat) (f : Nat → Option (List (Nat × Nat))) (g : Nat → List (Nat × Nat)),
      (∀ i ∈ s, f i = some (g i)) → s.mapM (m := Option) f = some (s.map g) := by
    intro s f g
    induction s with
    | nil => intro _; rfl
    | cons a t ih =>
      intro hs
      rw [List.mapM_cons, hs a List.mem_cons_self, ih fun i hi => hs i (List.mem_cons_of_mem _ hi)]
      rfl
  unfold globalPairs
  rw [hgen _ _ _ hev]
  rfl

private theorem phase_globals {b : Build} {R : Mem K} {N : Extents} (h : RootOk b R N) (hb : b.apot = true) {w : World K}
    (h0 : w.mem 0 = R) (hsz : 0 < w.size) (hF : ∀ f ∈ facts4 b, FactOk R w f)
    (hg : N.haveGlob ≠ 0 → ∀ i < N.globals, 0 < N.nGlob.getD i 0) :
    ∃ w', (phase apotGlobals w >>= phase apotPlaces) = .ok w' ∧ w'.size = w.size ∧ w'.mem 0 = R ∧
      (∀ f ∈ facts4 b, FactOk R w' f) ∧
      (N.haveGlob ≠ 0 → ∀ r, 1 ≤ r → r < w.size → SameAsRoot R (w'.mem r) (sc "n_glob") N.globals ∧
        ∀ i < N.globals, ∀ j < N.nGlob.getD i 0, SameAsRoot R (w'.mem r) ("global_idx", [i, j]) 2) ∧
      ∀ k : Key, k ≠ sc "n_glob" → k.1 ≠ "global_idx" → ∀ r, w'.mem r k = w.mem r k := by
  have hhg : ∀ r, r < w.size → w.mem r (sc "have_globals") = some [.int N.haveGlob] := fun r hr =>
    scalar_read h0 (hF _ (scalarFact4 b hb _ (by simp))) (h.haveGlob hb) hr
  have hgl : ∀ r, r < w.size → w.mem r (sc "globals") = some [.int N.globals] := fun r hr =>
    scalar_read h0 (hF _ (scalarFact4 b hb _ (by simp))) (h.globals hb) hr
  by_cases hz : N.haveGlob = 0
  · rw [phase_run hsz (l := []) (fun r hr => by simp [apotGlobals, intAt, hhg r hr, hz])]
    simp only [run, Except.bind, bind]
    rw [phase_run hsz (l := []) (fun r hr => by
      simp [apotPlaces, intAt, hhg r hr, hz, eval_v (hgl r hr)])]
    exact ⟨w, rfl, rfl, h0, hF, fun h => absurd hz h, fun _ _ _ _ => rfl⟩
  · obtain ⟨hlen, hng⟩ := h.nGlob hb hz
    have hpos := h.posGlob hb hz
    rw [phase_run hsz (l := [al "n_glob" (v "globals"), bc "n_glob" (v "globals")])
      (fun r hr => by simp [apotGlobals, intAt, hhg r hr, hz])]
    have hknG : Known R (facts4 b) (v "globals") := ⟨.lit 1, 1, scalarFact4 b hb _ (by simp), rfl, by omega⟩
    have hsafe : Safe R (facts4 b) [al "n_glob" (v "globals"), bc "n_glob" (v "globals")] := by
      refine ⟨noGlob4 b, hknG, ⟨N.globals, hpos, eval_v (h.globals hb)⟩, List.mem_cons_self, ?_,
        hknG.mono fun f hf => List.mem_cons_of_mem _ hf,
        ⟨N.globals, _, eval_v (h.globals hb), hng, by simp [hlen]⟩, trivial⟩
      intro f hf he
      rcases List.mem_cons.mp hf with rfl | hf
      · rfl
      · exact absurd he (noGlob4 b f hf)
    obtain ⟨w1, hw1, hd1⟩ := run_safe _ _ w h0 hF hsafe
    rw [hw1]
    simp only [bind, Except.bind]
    have hng1 : FactOk R w1 (sc "n_glob", v "globals", true) := hd1.new (bc "n_glob" (v "globals")) (by simp) _ rfl
    have hng2 : ∀ r, r < w1.size → w1.mem r (sc "n_glob") = some (N.nGlob.map fun n => .int n) := by
      intro r hr
      by_cases h0' : r = 0
      · rw [h0', hd1.root, hng]
      · obtain ⟨n, hn, hx⟩ := hng1
        obtain ⟨a, ha, -, hm⟩ := (hx r (by omega) hr).2 rfl
        simp only [eval_v (h.globals hb), Option.some.injEq] at hn
        simp only [hng, Option.some.injEq] at ha
        subst ha hn
        rw [hm, List.take_of_length_le (by simp [hlen])]
    have hhg1 : ∀ r, r < w1.size → w1.mem r (sc "have_globals") = some [.int N.haveGlob] := fun r hr =>
      scalar_read hd1.root (hd1.old _ (scalarFact4 b hb _ (by simp))) (h.haveGlob hb) hr
    have hgl1 : ∀ r, r < w1.size → w1.mem r (sc "globals") = some [.int N.globals] := fun r hr =>
      scalar_read hd1.root (hd1.old _ (scalarFact4 b hb _ (by simp))) (h.globals hb) hr
    let P : List (Nat × Nat) := (List.range N.globals).flatMap fun i => (List.range (N.nGlob.getD i 0)).map fun j => (i, j)
    let L1 : List (Key × Cnt) := (List.range N.globals).map fun i => (("global_idx", [i]), .val (sc "n_glob") i)
    let L2 : List (Key × Cnt) := P.map fun p => (("global_idx", [p.1, p.2]), .lit 2)
    have hP : ∀ i j, (i, j) ∈ P ↔ i < N.globals ∧ j < N.nGlob.getD i 0 := by
      intro i j
      simp only [P, List.mem_flatMap, List.mem_range, List.mem_map, Prod.mk.injEq]
      constructor
      · rintro ⟨a, ha, c, hc, rfl, rfl⟩
        exact ⟨ha, hc⟩
      · rintro ⟨hi, hj⟩
        exact ⟨i, hi, j, hj, rfl, rfl⟩
    have hPnd : P.Nodup := by
      rw [List.nodup_flatMap]
      refine ⟨fun i _ => List.Nodup.map (fun a c hac => by simpa using hac) List.nodup_range, ?_⟩
      apply List.Pairwise.imp _ (List.pairwise_lt_range (n := N.globals))
      intro i j hij p hp hq
      obtain ⟨a, -, rfl⟩ := List.mem_map.mp hp
      obtain ⟨c, -, hc⟩ := List.mem_map.mp hq
      have := congrArg Prod.fst hc
      simp at this
      omega
    have hl : ∀ r, r < w1.size → apotPlaces (w1.mem r) = some ((L1 ++ L2).map (fun p => Op.alloc p.1 p.2) ++
        L2.map (fun p => Op.bcast p.1 p.2)) := by
      intro r hr
      have hgp := globalPairs_eq (hng2 r hr)
      rw [hlen] at hgp
      simp [apotPlaces, intAt, hhg1 r hr, hz, eval_v (hgl1 r hr), hgp, L1, L2, P, Function.comp_def]
    rw [phase_run (by rw [hd1.size]; exact hsz) hl]
    let F1 : List Fact := (sc "n_glob", v "globals", true) :: facts4 b
    have hF1 : ∀ f ∈ F1, FactOk R w1 f := by
      intro f hf
      rcases List.mem_cons.mp hf with rfl | hf
      · exact hng1
      · exact hd1.old f hf
    have hpl : ∀ f ∈ F1, f.1.2 = [] := by
      intro f hf
      rcases List.mem_cons.mp hf with rfl | hf
      · rfl
      · exact plain4 b f hf
    have hnd2 : (L2.map Prod.fst).Nodup := by
      simp only [L2, List.map_map]
      exact List.Nodup.map (fun p q hpq => by
        simp only [Function.comp, Prod.mk.injEq, List.cons.injEq, and_true, true_and] at hpq
        exact Prod.ext hpq.1 hpq.2) hPnd
    have hnd : ((L1 ++ L2).map Prod.fst).Nodup := by
      rw [List.map_append, List.nodup_append]
      refine ⟨?_, hnd2, ?_⟩
      · simp only [L1, List.map_map]
        exact List.Nodup.map (fun i j hij => by simpa using hij) List.nodup_range
      · intro a ha c hc hac
        simp only [L1, L2, List.map_map, List.mem_map, Function.comp] at ha hc
        obtain ⟨i, -, rfl⟩ := ha
        obtain ⟨p, -, rfl⟩ := hc
        simp at hac
    have hsafe2 : Safe R F1 ((L1 ++ L2).map (fun p => Op.alloc p.1 p.2) ++ L2.map (fun p => Op.bcast p.1 p.2)) := by
      apply safe_allocs _ _ _ hnd
      · intro p hp
        rcases List.mem_append.mp hp with hp | hp
        · obtain ⟨i, hi, rfl⟩ := List.mem_map.mp hp
          have hi := List.mem_range.mp hi
          refine ⟨fun f hf he => ?_, ⟨v "globals", N.globals, List.mem_cons_self, eval_v (h.globals hb), hi⟩,
            N.nGlob.getD i 0, hg hz i hi, ?_⟩
          · have := hpl f hf
            rw [he] at this
            cases this
          · have hi' : i < N.nGlob.length := by omega
            simp [Cnt.eval, intAt, hng, hi']
        · obtain ⟨q, -, rfl⟩ := List.mem_map.mp hp
          refine ⟨fun f hf he => ?_, trivial, 2, by omega, rfl⟩
          have := hpl f hf
          rw [he] at this
          cases this
      · intro G hG
        apply safe_bcasts _ _ hnd2
        intro p hp
        obtain ⟨q, hq, rfl⟩ := List.mem_map.mp hp
        refine ⟨(hG _).mpr (Or.inr ⟨_, List.mem_append_right _ hp, rfl⟩), fun f hf he => ?_, trivial, ?_⟩
        · rcases (hG f).mp hf with hf | ⟨q', -, rfl⟩
          · have := hpl f hf
            rw [he] at this
            cases this
          · rfl
        · obtain ⟨hi, hj⟩ := (hP q.1 q.2).mp hq
          obtain ⟨a, ha, hla⟩ := h.places hb hz q.1 hi q.2 hj
          exact ⟨2, a, rfl, ha, hla⟩
    obtain ⟨w2, hw2, hd2⟩ := run_safe _ _ w1 hd1.root hF1 hsafe2
    refine ⟨w2, hw2, hd2.size.trans hd1.size, hd2.root, fun f hf => hd2.old f (List.mem_cons_of_mem _ hf), ?_, ?_⟩
    · intro _ r h1 hr
      refine ⟨?_, fun i hi j hj => ?_⟩
      · obtain ⟨n, hn, hx⟩ := hd2.old (sc "n_glob", v "globals", true) List.mem_cons_self
        obtain ⟨a, ha, hla, hm⟩ := (hx r h1 (by rw [hd2.size, hd1.size]; exact hr)).2 rfl
        simp only [eval_v (h.globals hb), Option.some.injEq] at hn
        subst hn
        exact ⟨a, ha, hla, hm⟩
      · obtain ⟨n, hn, hx⟩ := hd2.new (.bcast ("global_idx", [i, j]) (.lit 2)) (by
          apply List.mem_append_right
          exact List.mem_map.mpr ⟨(("global_idx", [i, j]), .lit 2), List.mem_map.mpr ⟨(i, j), (hP i j).mpr ⟨hi, hj⟩, rfl⟩, rfl⟩) _ rfl
        obtain ⟨a, ha, hla, hm⟩ := (hx r h1 (by rw [hd2.size, hd1.size]; exact hr)).2 rfl
        simp only [Cnt.eval, Option.some.injEq] at hn
        subst hn
        exact ⟨a, ha, hla, hm⟩
    · intro k hk1 hk2 r
      rw [hd2.frame k _ r, hd1.frame k _ r]
      · intro o ho he
        simp only [List.mem_cons, List.not_mem_nil, or_false] at ho
        rcases ho with rfl | rfl <;> exact hk1 he.symm
      · intro o ho he
        rcases List.mem_append.mp ho with ho | ho
        · obtain ⟨p, hp, rfl⟩ := List.mem_map.mp ho
          rcases List.mem_append.mp hp with hp | hp
          · obtain ⟨i, -, rfl⟩ := List.mem_map.mp hp
            exact hk2 (by rw [← he]; rfl)
          · obtain ⟨i, -, rfl⟩ := List.mem_map.mp hp
            exact hk2 (by rw [← he]; rfl)
        · obtain ⟨p, hp, rfl⟩ := List.mem_map.mp ho
          obtain ⟨i, -, rfl⟩ := List.mem_map.mp hp
          exact hk2 (by rw [← he]; rfl)

private theorem fact_same {b : Build} {R : Mem K} {N : Extents} (h : RootOk b R N) {w : World K} {F : List Fact}
    (hF : ∀ f ∈ F, FactOk R w f) (hs : ∀ s ∈ scalarNames b, (sc s, .lit 1, true) ∈ F)
    (ha : ∀ p ∈ arrayCnts b, (sc p.1, p.2, true) ∈ F) {r : Nat} (h1 : 1 ≤ r) (hr : r < w.size) :
    (∀ s ∈ scalarNames b, w.mem r (sc s) = R (sc s)) ∧
      ∀ p ∈ arrayNames b N, SameAsRoot R (w.mem r) (sc p.1) p.2 := by
  constructor
  · intro s hs'
    obtain ⟨c, hc⟩ := h.scalars s hs'
    obtain ⟨n, hn, hx⟩ := hF _ (hs s hs')
    obtain ⟨a, ha', -, hm⟩ := (hx r h1 hr).2 rfl
    simp only [Cnt.eval, Option.some.injEq] at hn
    simp only at ha' hm
    rw [hc] at ha'
    have := Option.some.inj ha'
    subst this hn
    rw [hm, hc]
    rfl
  · intro p hp
    rw [arrayNames_eq] at hp
    obtain ⟨q, hq, rfl⟩ := List.mem_map.mp hp
    obtain ⟨n, hn, hx⟩ := hF _ (ha q hq)
    obtain ⟨a, ha', hla, hm⟩ := (hx r h1 hr).2 rfl
    simp only [eval_num h q hq, Option.some.injEq] at hn
    subst hn
    exact ⟨a, ha', hla, hm⟩

/-- What every process has after the start. -/
structure WorkerHas (b : Build) (R m : Mem K) (N : Extents) : Prop where
  scalars : ∀ s ∈ scalarNames b, m (sc s) = R (sc s)
  arrays : ∀ p ∈ arrayNames b N, SameAsRoot R m (sc p.1) p.2
  names : b.apot → ∀ i < N.number, SameName R m ("names", [i])
  composition : b.apot → N.cp ≠ 0 → ∀ i < N.nconf + 1, SameAsRoot R m ("na_type", [i]) N.ntypes
  uses : b.apot → N.haveGlob ≠ 0 → SameAsRoot R m (sc "n_glob") N.globals
  places : b.apot → N.haveGlob ≠ 0 → ∀ i < N.globals, ∀ j < N.nGlob.getD i 0, SameAsRoot R m ("global_idx", [i, j]) 2

/-- **C92, tables.** Partial: an unused global parameter stops the run (`C92_unused_global`).  Whatever the workers' memories contain at the start: if rank 0 has read its input and every global parameter is
used, then all broadcasts of the start are matched (all processes take part, with equal counts, in buffers which are large enough) and
every process has the data of rank 0. -/
theorem C92_tables_partial {b : Build} {w : World K} {N : Extents} (hsz : 0 < w.size) (hroot : RootOk b (w.mem 0) N)
    (hwork : WorkersStarted b w) (hg : b.apot → N.haveGlob ≠ 0 → ∀ i < N.globals, 0 < N.nGlob.getD i 0) :
    ∃ w', tables b w = .ok w' ∧ w'.size = w.size ∧ w'.mem 0 = w.mem 0 ∧
      ∀ r, 1 ≤ r → r < w.size → WorkerHas b (w.mem 0) (w'.mem r) N := by
  generalize hR : w.mem 0 = R at *
  have hF0 : ∀ f ∈ startFacts b, FactOk R w f := by
    intro f hf
    obtain ⟨s, hs, rfl⟩ := List.mem_map.mp hf
    exact ⟨1, rfl, fun r h1 hr => ⟨fun _ => hwork s hs r h1 hr, fun h => by cases h⟩⟩
  obtain ⟨w1, hw1, hd1⟩ := run_safe _ _ w hR hF0 (safe_of_check _ _ (check1 b) fun o ho => sizeOk_of_listed hroot (listed1 b o ho))
  have hF1 := facts_after hd1
  unfold tables
  rw [hw1]
  simp only [bind, Except.bind]
  by_cases hb : b.apot = true
  · rw [if_pos hb]
    have hsize2 : ∀ o, o ∈ apotHead b ++ apotAlloc b ++ apotSend b ++ parameters → SizeOk R o := fun o ho =>
      sizeOk_of_listed hroot (listed2 b hb o ho)
    obtain ⟨w2, hw2, hd2⟩ := run_safe _ _ w1 hd1.root hF1 (safe_of_check _ _ (check2 b hb) fun o ho => hsize2 o (by simp [ho]))
    have hs2 : w2.size = w.size := hd2.size.trans hd1.size
    obtain ⟨w3, hw3, hs3, hr3, hf3, hc3⟩ := phase_composition hroot hb hd2.root (hs2 ▸ hsz) (facts_after hd2)
    obtain ⟨w4, hw4, hd4⟩ := run_safe _ _ w3 hr3 hf3 (safe_of_check _ _ (check3 b hb) fun o ho => hsize2 o (by simp [ho]))
    have hs4 : w4.size = w.size := hd4.size.trans (hs3.trans hs2)
    obtain ⟨w5, hw5, hs5, hr5, hf5, hn5, hfr5⟩ := phase_names hroot hb hd4.root (hs4 ▸ hsz) (facts_after hd4)
    obtain ⟨w6, hw6, hd6⟩ := run_safe _ _ w5 hr5 hf5 (safe_of_check _ _ (check4 b hb) fun o ho => hsize2 o (by simp [ho]))
    have hs6 : w6.size = w.size := hd6.size.trans (hs5.trans hs4)
    obtain ⟨w8, hw8, hs8, hr8, hf8, hg8, hfr8⟩ := phase_globals hroot hb hd6.root (hs6 ▸ hsz) (facts_after hd6) (hg hb)
    obtain ⟨w9, hw9, hd9⟩ := run_safe _ _ w8 hr8 hf8 (safe_of_check _ _ (check5 b hb) fun o ho => hsize2 o (by simp [ho]))
    have hs9 : w9.size = w.size := hd9.size.trans (hs8.trans hs6)
    have hrun : apot b w1 = .ok w9 := by
      unfold apot
      rw [hw2]
      simp only [bind, Except.bind] at hw8 ⊢
      rw [hw3]
      simp only
      rw [hw4]
      simp only
      rw [hw5]
      simp only
      rw [hw6]
      simp only
      cases hp : phase apotGlobals w6 with
      | error f => rw [hp] at hw8; simp at hw8
      | ok w7 =>
        rw [hp] at hw8
        simp only at hw8 ⊢
        rw [hw8]
        simp only
        exact hw9
    refine ⟨w9, hrun, hs9, hd9.root, fun r h1 hr => ?_⟩
    obtain ⟨hsc, har⟩ := fact_same hroot (F := facts5 b) (facts_after hd9) (scalarFact5 b hb) (arrayFact5 b hb) h1 (hs9 ▸ hr)
    have hkeep9 : ∀ k : Key, k.2 ≠ [] ∨ k = sc "n_glob" → w9.mem r k = w8.mem r k := by
      intro k hk
      apply hd9.frame
      intro o ho he
      have := plainOps b o (by simp [ho])
      rw [he] at this
      rcases hk with hk | hk
      · exact hk this.1
      · exact this.2 hk
    have hkeep6 : ∀ k : Key, k.2 ≠ [] → w6.mem r k = w5.mem r k := by
      intro k hk
      apply hd6.frame
      intro o ho he
      have := plainOps b o (by simp [ho])
      rw [he] at this
      exact hk this.1
    have hkeep4 : ∀ k : Key, k.2 ≠ [] → w4.mem r k = w3.mem r k := by
      intro k hk
      apply hd4.frame
      intro o ho he
      have := plainOps b o (by simp [ho])
      rw [he] at this
      exact hk this.1
    refine ⟨hsc, har, fun _ i hi => ?_, fun _ hz i hi => ?_, fun _ hz => ?_, fun _ hz i hi j hj => ?_⟩
    · obtain ⟨a, l, ha, hl, hm⟩ := hn5 i hi r h1 (hs4 ▸ hr)
      refine ⟨a, l, ha, hl, ?_⟩
      rw [hkeep9 _ (Or.inl (by simp)), hfr8 _ (by simp [sc]) (by simp), hkeep6 _ (by simp), hm]
    · obtain ⟨a, ha, hl, hm⟩ := hc3 hz i hi r h1 (hs2 ▸ hr)
      refine ⟨a, ha, hl, ?_⟩
      rw [hkeep9 _ (Or.inl (by simp)), hfr8 _ (by simp [sc]) (by simp), hkeep6 _ (by simp), hfr5 _ (by simp), hkeep4 _ (by simp), hm]
    · obtain ⟨a, ha, hl, hm⟩ := (hg8 hz r h1 (hs6 ▸ hr)).1
      exact ⟨a, ha, hl, by rw [hkeep9 _ (Or.inr rfl), hm]⟩
    · obtain ⟨a, ha, hl, hm⟩ := (hg8 hz r h1 (hs6 ▸ hr)).2 i hi j hj
      exact ⟨a, ha, hl, by rw [hkeep9 _ (Or.inl (by simp)), hm]⟩
  · rw [if_neg hb]
    have hb' : b.apot = false := by simpa using hb
    refine ⟨w1, rfl, hd1.size, hd1.root, fun r h1 hr => ?_⟩
    obtain ⟨hsc, har⟩ := fact_same hroot hF1 (scalarFact1 b hb') (arrayFact1 b hb') h1 (by rw [hd1.size]; exact hr)
    exact ⟨hsc, har, fun h => absurd h hb, fun h => absurd h hb, fun h => absurd h hb, fun h => absurd h hb⟩

/-! ### The structures -/

/-- Components of an atom which are computed in every force routine from scratch and are not sent. -/
def notSent : List String := ["rho_s", "gradF_s"]

/-- C92: in every build the three structures are described correctly to MPI: as many types as addresses, not more than the arrays
hold, every component with its own type and number of elements, no component twice; and every component which the structure has is
sent, except two intermediate quantities of the two-band EAM atoms. -/
theorem C92_structures (s : Shape) :
    describe (neighDecl s) (neighTypes s) (neighFields s) = .ok (neighFields s) ∧ (neighFields s).Nodup ∧
      (∀ p ∈ neighDecl s, p.1 ∈ neighFields s) ∧
    describe (angleDecl s) (angleTypes s) (angleFields s) = .ok (angleFields s) ∧ (angleFields s).Nodup ∧
      (∀ p ∈ angleDecl s, p.1 ∈ angleFields s) ∧
    describe (atomDecl s) (atomTypes s) (atomFields s) = .ok (atomFields s) ∧ (atomFields s).Nodup ∧
      (∀ p ∈ atomDecl s, p.1 ∉ notSent → p.1 ∈ atomFields s) := by
  obtain ⟨i, c, d, t⟩ := s
  cases i <;> (revert c d t; decide +kernel)

/-! ### Every process gets its configurations -/

/-- The entries `a, …, b - 1` of a list. -/
def part {A : Type} (l : List A) (a b : Nat) : List A := (l.take b).drop a

/-- Number of the first atom of configuration `c`. -/
def firstAtom (inconf : Nat → Nat) (c : Nat) : Nat := ((List.range c).map inconf).sum

/-- Two structures with the same components, `fields` being those which matter. -/
def SameOn (fields : List String) (x y : Rec K) : Prop := ∀ f ∈ fields, x f = y f

/-- Process with configurations `a, …, b - 1` has all their data. -/
structure ShareOk (s : Shape) (stress : Bool) (inconf : Nat → Nat) (inp : Input K) (a b : Nat) (sh : Share K) : Prop where
  vol : sh.vol = part inp.volume a b
  uf : sh.uf = part inp.useforce a b
  us : stress → sh.us = part inp.usestress a b
  atoms : List.Forall₂ (SameOn ((atomDecl s).map Prod.fst |>.filter (· ∉ notSent))) sh.atoms
    (part inp.atoms (firstAtom inconf a) (firstAtom inconf b))
  neigh : List.Forall₂ (List.Forall₂ (SameOn ((neighDecl s).map Prod.fst))) sh.neigh
    (part inp.neigh (firstAtom inconf a) (firstAtom inconf b))
  angles : s.three → List.Forall₂ (List.Forall₂ (SameOn ((angleDecl s).map Prod.fst))) sh.angles
    (part inp.angles (firstAtom inconf a) (firstAtom inconf b))

/-- The input on rank 0 is complete. -/
structure InputOk (s : Shape) (stress : Bool) (inconf : Nat → Nat) (nconf : Nat) (inp : Input K) : Prop where
  vol : inp.volume.length = nconf
  uf : inp.useforce.length = nconf
  us : stress → inp.usestress.length = nconf
  atoms : inp.atoms.length = firstAtom inconf nconf
  neigh : inp.neigh.length = firstAtom inconf nconf
  angles : s.three → inp.angles.length = firstAtom inconf nconf
  full : ∀ c < nconf, 0 < inconf c

private theorem firstAtom_eq (inconf : Nat → Nat) (c : Nat) : firstAtom inconf c = Mpi.cnfstart inconf c := by
  induction c with
  | zero => rfl
  | succ n ih =>
    rw [Mpi.cnfstart, ← ih, firstAtom, firstAtom, List.range_succ]
    simp

private theorem scatterv_part {A : Type} (l : List A) {a b : Nat} (hab : a < b) (hb : b ≤ l.length) :
    scatterv l a (b - a) = .ok (part l a b) := by
  unfold scatterv part
  rw [if_neg (by omega), if_pos (by omega), List.drop_take]

private theorem forall₂_imp {A B : Type} {R S : A → B → Prop} (h : ∀ a b, R a b → S a b) {l : List A} {m : List B}
    (hl : List.Forall₂ R l m) : List.Forall₂ S l m := List.Forall₂.imp (fun a b => h a b) hl

/-- C92: the configurations are cut into as many non-empty consecutive pieces as there are processes, and every process receives
volume and flags of its configurations and all components of their atoms, neighbours and angles - whatever its memory held before.
Partial: with MEAM, Stillinger-Weber and Tersoff every atom must have at least one angle (`C92_no_angles`). -/
theorem C92_share_partial (s : Shape) (stress : Bool) (inconf : Nat → Nat) {nconf size : Nat} (inp : Input K) (h1 : size ≠ 1)
    (h0 : 0 < size) (hn : size ≤ nconf) (hin : InputOk s stress inconf nconf inp)
    (hang : s.three → s.inter ≠ .ang → ∀ l ∈ inp.angles, l ≠ []) :
    ∃ cut : Nat → Nat, cut 0 = 0 ∧ cut size = nconf ∧ (∀ r < size, cut r < cut (r + 1)) ∧
      ∀ r < size, ∀ junk, ∃ sh, share s stress inconf nconf size r inp junk = .ok sh ∧
        ShareOk s stress inconf inp (cut r) (cut (r + 1)) sh := by
  refine ⟨Mpi.cdN nconf size, Mpi.cdN_zero h0, Mpi.cdN_end, fun r hr => Mpi.cdN_mono hr hn, fun r hr junk => ?_⟩
  have hlt := Mpi.cdN_mono (N := nconf) hr hn
  have hle : ∀ n, n ≤ size → Mpi.cdN nconf size n ≤ nconf := by
    intro n hnn
    have hstep : ∀ k, n + k ≤ size → Mpi.cdN nconf size n ≤ Mpi.cdN nconf size (n + k) := by
      intro k
      induction k with
      | zero => intro _; exact le_rfl
      | succ k ih =>
        intro hk
        have := Mpi.cdN_mono (N := nconf) (show n + k < size by omega) hn
        have := ih (by omega)
        rw [show n + (k + 1) = n + k + 1 by omega]
        omega
    have := hstep (size - n) (by omega)
    rw [show n + (size - n) = size by omega, Mpi.cdN_end] at this
    exact this
  have hb := hle (r + 1) (by omega)
  set a := Mpi.cdN nconf size r with ha
  set b := Mpi.cdN nconf size (r + 1) with hbdef
  have hA : Mpi.cnfstart inconf a < Mpi.cnfstart inconf b := by
    have hm := Mpi.cnfstart_mono inconf (show a + 1 ≤ b by omega)
    have hf := hin.full a (by omega)
    rw [Mpi.cnfstart] at hm
    omega
  have hB := Mpi.cnfstart_mono inconf hb
  obtain ⟨hnd, -, hnf, hgd, -, hgf, had, -, haf⟩ := C92_structures s
  unfold share
  rw [hnd]
  simp only [bind, Except.bind]
  have hg : describeAngles s = .ok (if s.three = true then angleFields s else []) := by
    unfold describeAngles
    split
    · exact hgd
    · rfl
  rw [hg]
  simp only
  rw [had]
  simp only
  unfold Mpi.distribute
  rw [if_neg h1, if_neg (show ¬ size > nconf by omega)]
  have hcd : ∀ i : Nat, (Mpi.confDist nconf size i).toNat = Mpi.cdN nconf size i := fun i => by
    rw [Mpi.confDist_eq]; rfl
  have hcdi : ∀ i : Nat, Mpi.confDist nconf size i = (Mpi.cdN nconf size i : Int) := fun i => by
    rw [Mpi.confDist_eq]; rfl
  have hlen : (if r + 1 < size then Mpi.confDist nconf size ((r + 1 : Nat) : Int) - Mpi.confDist nconf size r
      else (nconf : Int) - Mpi.confDist nconf size r).toNat = b - a := by
    split
    · rw [hcdi, hcdi]; omega
    · rw [hcdi]
      have hrs : r + 1 = size := by omega
      have : b = nconf := by rw [hbdef, hrs, Mpi.cdN_end]
      omega
  have halen : (if r + 1 < size then (Mpi.cnfstart inconf (Mpi.confDist nconf size ((r + 1 : Nat) : Int)).toNat : Int) -
        (Mpi.cnfstart inconf (Mpi.confDist nconf size r).toNat : Int)
      else (Mpi.cnfstart inconf nconf : Int) - (Mpi.cnfstart inconf (Mpi.confDist nconf size r).toNat : Int)).toNat =
        Mpi.cnfstart inconf b - Mpi.cnfstart inconf a := by
    split
    · rw [hcd, hcd, ← ha, ← hbdef]; omega
    · rw [hcd, ← ha]
      have hrs : r + 1 = size := by omega
      have : b = nconf := by rw [hbdef, hrs, Mpi.cdN_end]
      rw [this] at hA ⊢
      omega
  simp only [Nat.cast_add, Nat.cast_one] at hlen halen ⊢
  rw [hlen, halen, hcd, Int.toNat_natCast]
  rw [scatterv_part _ hlt (by rw [hin.vol]; exact hb), scatterv_part _ hlt (by rw [hin.uf]; exact hb)]
  simp only
  have hus : scatterStress stress inp.usestress a (b - a) = .ok (if stress = true then part inp.usestress a b else []) := by
    unfold scatterStress
    split
    · rename_i hst
      exact scatterv_part _ hlt (by rw [hin.us hst]; exact hb)
    · rfl
  rw [hus]
  simp only
  have hsum : Mpi.cnfstart inconf a + (Mpi.cnfstart inconf b - Mpi.cnfstart inconf a) = Mpi.cnfstart inconf b := by omega
  obtain ⟨ra, hra, hfa⟩ := sendAtoms_ok (atomFields s) (decide (r = 0)) (Mpi.cnfstart inconf a)
    (Mpi.cnfstart inconf b - Mpi.cnfstart inconf a) inp.atoms junk (by omega)
    (by rw [hin.atoms, firstAtom_eq]; omega)
  rw [hra]
  simp only
  obtain ⟨rn, hrn, hfn⟩ := listsLoop_ok (neighFields s) true (decide (r = 0)) (Mpi.cnfstart inconf a)
    (Mpi.cnfstart inconf b - Mpi.cnfstart inconf a) inp.neigh 0 (fun _ => [.blank]) (Or.inl rfl)
  rw [hrn]
  simp only
  have hatoms : List.Forall₂ (SameOn ((atomDecl s).map Prod.fst |>.filter (· ∉ notSent))) ra
      (part inp.atoms (firstAtom inconf a) (firstAtom inconf b)) := by
    rw [hsum] at hfa
    rw [firstAtom_eq, firstAtom_eq]
    refine forall₂_imp (fun x y hxy f hf => hxy f ?_) hfa
    obtain ⟨hf1, hf2⟩ := List.mem_filter.mp hf
    obtain ⟨p, hp, rfl⟩ := List.mem_map.mp hf1
    exact haf p hp (by simpa using hf2)
  have hneigh : List.Forall₂ (List.Forall₂ (SameOn ((neighDecl s).map Prod.fst))) rn
      (part inp.neigh (firstAtom inconf a) (firstAtom inconf b)) := by
    rw [Nat.sub_zero, Nat.sub_zero, hsum] at hfn
    rw [firstAtom_eq, firstAtom_eq]
    refine forall₂_imp (fun x y hxy => forall₂_imp (fun x y hxy f hf => hxy f ?_) hxy) hfn
    obtain ⟨p, hp, rfl⟩ := List.mem_map.mp hf
    exact hnf p hp
  by_cases h3 : s.three = true
  · obtain ⟨rg, hrg, hfg⟩ := listsLoop_ok (angleFields s) (decide (s.inter = .ang)) (decide (r = 0)) (Mpi.cnfstart inconf a)
      (Mpi.cnfstart inconf b - Mpi.cnfstart inconf a) inp.angles 0 (fun _ => [.blank]) (by
        by_cases hi : s.inter = .ang
        · exact Or.inl (by simp [hi])
        · exact Or.inr (hang h3 hi))
    simp only [sendAngles, h3, if_true]
    rw [hrg]
    refine ⟨_, rfl, ⟨rfl, rfl, fun hst => by simp [hst], hatoms, hneigh, fun _ => ?_⟩⟩
    rw [Nat.sub_zero, Nat.sub_zero, hsum] at hfg
    rw [firstAtom_eq, firstAtom_eq]
    refine forall₂_imp (fun x y hxy => forall₂_imp (fun x y hxy f hf => hxy f ?_) hxy) hfg
    obtain ⟨p, hp, rfl⟩ := List.mem_map.mp hf
    exact hgf p hp
  · unfold sendAngles
    rw [if_neg h3]
    exact ⟨_, rfl, ⟨rfl, rfl, fun hst => by simp [hst], hatoms, hneigh, fun h => absurd h h3⟩⟩

/-! ### A run with a global parameter -/

private def cells (n : Nat) : List (Cell ℚ) := List.replicate n (.dbl (7 / 2))

private def extents (uses : Nat) : Extents := ⟨5, 1, 2, 2, 3, 2, 4, 2, 1, 1, 1, [uses]⟩

/-- Rank 0 after reading the input: two functions, one global parameter which is used `uses` times, chemical potentials. -/
private def demoRoot (uses : Nat) : List (Key × List (Cell ℚ)) :=
  [(sc "mdim", [.int 5]), (sc "ntypes", [.int 1]), (sc "natoms", [.int 2]), (sc "nconf", [.int 2]), (sc "paircol", [.int 1]),
   (sc "opt", [.int 1]), (sc "eweight", [.dbl 100]), (sc "sweight", [.dbl 10]), (sc "format_type", [.int 0]),
   (sc "calc.len", [.int 3]), (sc "calc.ncols", [.int 2]), (sc "enable_cp", [.int 1]), (sc "opt.len", [.int 4]),
   (sc "number", [.int 2]), (sc "cp_start", [.int 3]), (sc "have_globals", [.int 1]), (sc "global_idx", [.int 4]),
   (sc "globals", [.int 1]),
   (sc "inconf", cells 2), (sc "cnfstart", cells 2), (sc "force_0", cells 5), (sc "conf_weight", cells 2),
   (sc "calc.begin", cells 2), (sc "calc.end", cells 2), (sc "calc.step", cells 2), (sc "calc.invstep", cells 2),
   (sc "calc.first", cells 2), (sc "calc.last", cells 2), (sc "calc.table", cells 3), (sc "calc.xcoord", cells 3),
   (sc "calc.d2tab", cells 3), (sc "opt.table", cells 4), (sc "calc_list", cells 4), (sc "n_par", cells 2),
   (sc "apot.begin", cells 2), (sc "apot.end", cells 2), (sc "idxpot", cells 4), (sc "smooth_pot", cells 2),
   (sc "invar_pot", cells 2), (sc "opt.first", cells 2), (sc "rcut", cells 1), (sc "rmin", cells 1),
   (("names", [0]), [.chr 'l', .chr 'j', .chr (Char.ofNat 0), .chr 'x']), (("names", [1]), [.chr 'm', .chr (Char.ofNat 0)]),
   (("na_type", [0]), [.int 1]), (("na_type", [1]), [.int 1]), (("na_type", [2]), [.int 2]),
   (sc "n_glob", [.int uses]), (("global_idx", [0, 0]), [.int 0, .int 1]), (("global_idx", [0, 1]), [.int 1, .int 0]),
   (sc "compnodes", [.int 1])]

private def demoBuild : Build := ⟨true, false, false⟩

/-- Three processes. -/
private def demoWorld (uses : Nat) : World ℚ :=
  ⟨3, fun r k => if r = 0 then (demoRoot uses).lookup k
    else if k ∈ (scalarNames demoBuild).map sc ∨ k = sc "compnodes" then some [.int 0] else none⟩

private theorem one_cell {A : Type} {o : Option (List A)} (h : o.map List.length = some 1) : ∃ c, o = some [c] := by
  cases o with
  | none => simp at h
  | some l =>
    simp only [Option.map_some, Option.some.injEq] at h
    obtain ⟨c, rfl⟩ := List.length_eq_one_iff.mp h
    exact ⟨c, rfl⟩

private def longB {A : Type} (o : Option (List A)) (n : Nat) : Bool :=
  match o with
  | none => false
  | some l => decide (n ≤ l.length)

private theorem long_enough {A : Type} {o : Option (List A)} {n : Nat} (h : longB o n = true) : ∃ a, o = some a ∧ n ≤ a.length := by
  cases o with
  | none => simp [longB] at h
  | some l => exact ⟨l, rfl, by simpa [longB] using h⟩

private theorem demo_root (uses : Nat) (hu : uses = 0 ∨ uses = 2) : RootOk demoBuild ((demoWorld uses).mem 0) (extents uses) := by
  have key : ∀ u, u = 0 ∨ u = 2 →
      (∀ s ∈ scalarNames demoBuild, (((demoWorld u).mem 0) (sc s)).map List.length = some 1) ∧
      (∀ p ∈ arrayNames demoBuild (extents u), 0 < p.2 ∧
        longB ((demoWorld u).mem 0 (sc p.1)) p.2 = true) ∧
      (∀ i < 2, (match (demoWorld u).mem 0 ("names", [i]) with | none => false | some a => (strlen a).isSome) = true) ∧
      (∀ i < 3, longB ((demoWorld u).mem 0 ("na_type", [i])) 1 = true) ∧
      (∀ j < u, longB ((demoWorld u).mem 0 ("global_idx", [0, j])) 2 = true) := by
    rintro u (rfl | rfl) <;> decide +kernel
  obtain ⟨h1, h2, h3, h4, h5⟩ := key uses hu
  refine ⟨fun s hs => one_cell (h1 s hs), fun p hp => ⟨(h2 p hp).1, long_enough (h2 p hp).2⟩, rfl, rfl, rfl, rfl, rfl, Nat.one_pos,
    fun _ => rfl, fun _ => rfl, fun _ => rfl, fun _ => rfl, fun _ => rfl, fun _ i hi => ?_, fun _ _ i hi => long_enough (h4 i hi),
    fun _ _ => Nat.one_pos, fun _ _ => ⟨rfl, rfl⟩, fun _ _ i hi j hj => ?_⟩
  · have h := h3 i hi
    cases ha : (demoWorld uses).mem 0 ("names", [i]) with
    | none => rw [ha] at h; simp at h
    | some a =>
      rw [ha] at h
      obtain ⟨l, hl⟩ := Option.isSome_iff_exists.mp h
      exact ⟨a, l, rfl, hl⟩
  · have hi0 : i = 0 := by
      have : i < 1 := hi
      omega
    subst hi0
    exact long_enough (h5 j hj)

private theorem demo_workers (uses : Nat) : WorkersStarted demoBuild (demoWorld uses) := by
  intro s hs r h1 _
  refine ⟨[.int 0], ?_, rfl⟩
  simp only [demoWorld]
  rw [if_neg (by omega), if_pos (Or.inl (List.mem_map.mpr ⟨s, hs, rfl⟩))]

/-- Rank 0 and two workers: after the start worker 2 has the parameters, the names and the places of the global parameter. -/
example : ∃ w', tables demoBuild (demoWorld 2) = .ok w' ∧ ∀ r, 1 ≤ r → r < 3 →
    WorkerHas demoBuild ((demoWorld 2).mem 0) (w'.mem r) (extents 2) := by
  obtain ⟨w', h, -, -, hw⟩ := C92_tables_partial (b := demoBuild) (w := demoWorld 2) (N := extents 2) (by decide)
    (demo_root 2 (Or.inr rfl)) (demo_workers 2) (fun _ _ i hi => by
      have : i < 1 := hi
      obtain rfl : i = 0 := by omega
      decide)
  exact ⟨w', h, hw⟩

/-- C92 is violated when a global parameter is declared but not used: rank 0 has complete data, but the run ends at the start because
every worker asks for no memory (`mpi_utils.c` 671-673, `memory.c` 70-78).  A run with one process goes on. -/
theorem C92_unused_global : ∃ (w : World ℚ) (b : Build) (N : Extents), RootOk b (w.mem 0) N ∧ WorkersStarted b w ∧ w.size = 3 ∧
    (∀ w', tables b w ≠ .ok w') ∧ ∃ w', tables b ⟨1, w.mem⟩ = .ok w' := by
  refine ⟨demoWorld 0, demoBuild, extents 0, demo_root 0 (Or.inl rfl), demo_workers 0, rfl, fun w' h => ?_, ?_⟩
  · have h2 : (match tables demoBuild (demoWorld 0) with | .error .empty => true | _ => false) = true := by decide +kernel
    rw [h] at h2
    cases h2
  · have h2 : (match tables demoBuild ⟨1, (demoWorld 0).mem⟩ with | .ok _ => true | _ => false) = true := by decide +kernel
    revert h2
    cases tables demoBuild ⟨1, (demoWorld 0).mem⟩ with
    | error f => intro h2; cases h2
    | ok w' => intro _; exact ⟨w', rfl⟩

/-! ### Data which is not sent -/

private theorem tables_frame {b : Build} {w w' : World K} (h : tables b w = .ok w') (r : Nat) :
    w'.mem r (sc "compnodes") = w.mem r (sc "compnodes") ∧ w'.mem r (sc "compnodelist") = w.mem r (sc "compnodelist") := by
  have hfix : ∀ b : Build, ∀ o ∈ basic b ++ calcpot ++ apotHead b ++ apotAlloc b ++ apotSend b ++ parameters,
      target o ≠ sc "compnodes" ∧ target o ≠ sc "compnodelist" := by
    rintro ⟨x, y, z⟩
    revert x y z
    decide +kernel
  have main : ∀ k : Key, k = sc "compnodes" ∨ k = sc "compnodelist" → w'.mem r k = w.mem r k := by
    intro k hk
    have hfix' : ∀ o ∈ basic b ++ calcpot ++ apotHead b ++ apotAlloc b ++ apotSend b ++ parameters, target o ≠ k := by
      intro o ho
      rcases hk with rfl | rfl
      · exact (hfix b o ho).1
      · exact (hfix b o ho).2
    have hname : ∀ (s : String) (l : List Nat), l ≠ [] → ((s, l) : Key) ≠ k := by
      rintro s l hl rfl
      rcases hk with hk | hk
      · exact hl (Prod.ext_iff.mp hk).2
      · exact hl (Prod.ext_iff.mp hk).2
    have hglob : sc "n_glob" ≠ k := by
      rcases hk with rfl | rfl <;> decide
    have hC : ∀ m l, apotComposition (K := K) m = some l → ∀ o ∈ l, target o ≠ k := by
      intro m l hl o ho
      unfold apotComposition at hl
      split at hl
      · split at hl
        · cases hl
          rcases List.mem_append.mp ho with ho | ho
          all_goals
            obtain ⟨i, -, rfl⟩ := List.mem_map.mp ho
            exact hname _ _ (by simp)
        · cases hl
          simp at ho
      · cases hl
    have hN : ∀ m l, apotNames (K := K) m = some l → ∀ o ∈ l, target o ≠ k := by
      intro m l hl o ho
      unfold apotNames at hl
      split at hl
      · cases hl
        obtain ⟨i, -, rfl⟩ := List.mem_map.mp ho
        exact hname _ _ (by simp)
      · cases hl
    have hG : ∀ m l, apotGlobals (K := K) m = some l → ∀ o ∈ l, target o ≠ k := by
      intro m l hl o ho
      unfold apotGlobals at hl
      split at hl
      · split at hl
        · cases hl
          simp only [List.mem_cons, List.not_mem_nil, or_false] at ho
          rcases ho with rfl | rfl <;> exact hglob
        · cases hl
          simp at ho
      · cases hl
    have hP : ∀ m l, apotPlaces (K := K) m = some l → ∀ o ∈ l, target o ≠ k := by
      intro m l hl o ho
      unfold apotPlaces at hl
      split at hl
      · split at hl
        · obtain ⟨ps, -, rfl⟩ := Option.map_eq_some_iff.mp hl
          simp only [List.mem_append, List.mem_map] at ho
          rcases ho with (⟨i, -, rfl⟩ | ⟨p, -, rfl⟩) | ⟨p, -, rfl⟩
          all_goals exact hname _ _ (by simp)
        · cases hl
          simp at ho
      · split at hl
        · cases hl
        · cases hl
          simp at ho
      · cases hl
    have hrun : ∀ (ops : List Op) (u u' : World K), run ops u = .ok u' → (∀ o ∈ ops, target o ≠ k) →
        u'.mem r k = u.mem r k := fun ops u u' hu ho => run_frame r ops u u' hu ho
    unfold tables at h
    cases hr1 : run (basic b ++ calcpot) w with
    | error f => rw [hr1] at h; cases h
    | ok w1 =>
    rw [hr1] at h
    simp only [bind, Except.bind] at h
    rw [← hrun _ _ _ hr1 fun o ho => hfix' o (by simp only [List.mem_append] at ho ⊢; tauto)]
    split at h
    · unfold apot at h
      cases hr2 : run (apotHead b) w1 with
      | error f => rw [hr2] at h; cases h
      | ok w2 =>
      rw [hr2] at h
      simp only [bind, Except.bind] at h
      cases hr3 : phase apotComposition w2 with
      | error f => rw [hr3] at h; cases h
      | ok w3 =>
      rw [hr3] at h
      simp only at h
      cases hr4 : run (apotAlloc b) w3 with
      | error f => rw [hr4] at h; cases h
      | ok w4 =>
      rw [hr4] at h
      simp only at h
      cases hr5 : phase apotNames w4 with
      | error f => rw [hr5] at h; cases h
      | ok w5 =>
      rw [hr5] at h
      simp only at h
      cases hr6 : run (apotSend b) w5 with
      | error f => rw [hr6] at h; cases h
      | ok w6 =>
      rw [hr6] at h
      simp only at h
      cases hr7 : phase apotGlobals w6 with
      | error f => rw [hr7] at h; cases h
      | ok w7 =>
      rw [hr7] at h
      simp only at h
      cases hr8 : phase apotPlaces w7 with
      | error f => rw [hr8] at h; cases h
      | ok w8 =>
      rw [hr8] at h
      simp only at h
      rw [hrun _ _ _ h fun o ho => hfix' o (by simp [ho]), phase_frame r hr8 hP, phase_frame r hr7 hG,
        hrun _ _ _ hr6 fun o ho => hfix' o (by simp [ho]), phase_frame r hr5 hN,
        hrun _ _ _ hr4 fun o ho => hfix' o (by simp [ho]), phase_frame r hr3 hC,
        hrun _ _ _ hr2 fun o ho => hfix' o (by simp [ho])]
    · cases h
      rfl
  exact ⟨main _ (Or.inl rfl), main _ (Or.inr rfl)⟩

/-- C92 is violated for chemical potentials with composition nodes: whatever is read on rank 0, the workers keep what they had, and
that is no node (`compnodes` is 0 at the start); and with the same parameters and the same composition the chemical potential with
nodes differs from the one without. -/
theorem C92_nodes_missing :
    (∀ (b : Build) (w w' : World ℚ), tables b w = .ok w' → ∀ r,
      w'.mem r (sc "compnodes") = w.mem r (sc "compnodes") ∧ w'.mem r (sc "compnodelist") = w.mem r (sc "compnodelist")) ∧
    ∃ (nodes values : List ℚ) (composition : List Nat) (x y : ℚ),
      Chempot.chem nodes values composition = .ok x ∧ Chempot.chem [] values composition = .ok y ∧ x ≠ y :=
  ⟨fun _ _ _ h r => tables_frame h r,
    ⟨[1 / 2], [0, 8, 1], [1, 1], 2, 8, by decide +kernel, by decide +kernel, by decide +kernel⟩⟩

/-! ### Atoms without angles -/

private def zeroRec : Rec ℚ := fun _ => [.dbl 0]

/-- Two configurations with one atom each; the second atom has one neighbour, hence no angle. -/
private def pairInput (second : List (Rec ℚ)) : Input ℚ :=
  ⟨[10, 20], [1, 1], [0, 1], [zeroRec, fun _ => [.dbl 1]], [[zeroRec, zeroRec], [zeroRec]], [[zeroRec], second]⟩

private theorem pairInput_ok (s : Shape) (second : List (Rec ℚ)) : InputOk s true (fun _ => 1) 2 (pairInput second) :=
  ⟨rfl, rfl, fun _ => rfl, rfl, rfl, fun _ => rfl, fun _ _ => by decide⟩

example : ∃ sh, share ⟨.meam, false, false, true⟩ true (fun _ => 1) 2 2 1 (pairInput [zeroRec]) zeroRec = .ok sh ∧
    sh.vol = [20] ∧ sh.us = [1] := by
  obtain ⟨cut, h0, h2, hm, hs⟩ := C92_share_partial ⟨.meam, false, false, true⟩ true (fun _ => 1) (nconf := 2) (size := 2)
    (pairInput [zeroRec]) (by decide) (by decide) (by decide) (pairInput_ok _ _) (fun _ _ l hl => by
      simp only [pairInput, List.mem_cons, List.not_mem_nil, or_false] at hl
      rcases hl with rfl | rfl <;> simp)
  obtain ⟨sh, h, hok⟩ := hs 1 (by decide) zeroRec
  have h01 := hm 0 (by decide)
  have h12 := hm 1 (by decide)
  rw [Nat.zero_add] at h01
  have h2' : cut (1 + 1) = 2 := h2
  have h1 : cut 1 = 1 := by omega
  refine ⟨sh, h, ?_, ?_⟩
  · rw [hok.vol, h1, h2']
    rfl
  · rw [hok.us rfl, h1, h2']
    rfl

/-- C92 is violated for MEAM, Stillinger-Weber and Tersoff potentials when an atom has no angle (fewer than two neighbours in reach):
the process which has this atom asks for no memory and the run ends (`mpi_utils.c` 841; the test 836-839 exists only for `ANG`). -/
theorem C92_no_angles : ∃ inp : Input ℚ, ∀ i, i = Inter.meam ∨ i = .stiweb ∨ i = .tersoff →
    InputOk ⟨i, false, false, false⟩ true (fun _ => 1) 2 inp ∧
    ∀ sh junk, share ⟨i, false, false, false⟩ true (fun _ => 1) 2 2 1 inp junk ≠ .ok sh := by
  refine ⟨pairInput [], fun i hi => ⟨pairInput_ok _ _, fun sh junk h => ?_⟩⟩
  have h2 : (match share ⟨i, false, false, false⟩ true (fun _ => 1) 2 2 1 (pairInput []) junk with
      | .error .empty => true | _ => false) = true := by
    rcases hi with rfl | rfl | rfl <;> rfl
  rw [h] at h2
  cases h2

/-! ### Tables after rescaling -/

/-- Outside the columns `c, …, c + n - 1` two arrays are equal. -/
def SameOutside {A : Type} (c n : Nat) (x y : List A) : Prop :=
  x.length = y.length ∧ ∀ i, i < c ∨ c + n ≤ i → x[i]? = y[i]?

/-- Rank 0 has rescaled: its table differs from that of a worker in the values, the knots and the range of the embedding functions. -/
structure Rescaled (paircol ntypes : Nat) (t0 t : Table K) : Prop where
  begin : SameOutside (paircol + ntypes) ntypes t0.begin t.begin
  stop : SameOutside (paircol + ntypes) ntypes t0.stop t.stop
  step : SameOutside (paircol + ntypes) ntypes t0.step t.step
  invstep : SameOutside (paircol + ntypes) ntypes t0.invstep t.invstep
  first : t0.first = t.first
  table : t0.table.length = t.table.length
  types : 0 < ntypes
  columns : paircol + 2 * ntypes ≤ t0.begin.length ∧ paircol + 2 * ntypes ≤ t0.stop.length ∧
    paircol + 2 * ntypes ≤ t0.step.length ∧ paircol + 2 * ntypes ≤ t0.invstep.length ∧ paircol + 2 * ntypes ≤ t0.first.length
  inside : ∀ f ∈ t0.first, f ≤ t0.table.length

private theorem sendPart_same {A : Type} {x y : List A} {c n : Nat} (h : SameOutside c n x y) (hl : c + n ≤ x.length) :
    sendPart x y c n = .ok x := by
  unfold sendPart
  rw [if_pos ⟨hl, h.1 ▸ hl⟩]
  congr 1
  refine List.ext_getElem? fun i => ?_
  have hyl := h.1
  rw [List.append_assoc]
  by_cases h1 : i < c
  · rw [List.getElem?_append_left (by rw [List.length_take]; omega), List.getElem?_take_of_lt h1, h.2 i (Or.inl h1)]
  · rw [List.getElem?_append_right (by rw [List.length_take]; omega), List.length_take, Nat.min_eq_left (by omega)]
    by_cases h2 : i < c + n
    · rw [List.getElem?_append_left (by rw [List.length_take, List.length_drop]; omega),
        List.getElem?_take_of_lt (by omega), List.getElem?_drop]
      congr 1
      omega
    · rw [List.getElem?_append_right (by rw [List.length_take, List.length_drop]; omega), List.length_take, List.length_drop,
        Nat.min_eq_left (by omega), List.getElem?_drop, ← h.2 _ (Or.inr (by omega))]
      congr 1
      omega

/-- C92: after a call with `flag == 2` a worker has the values and the ranges of rank 0; knots and last indices are its own. -/
theorem C92_resync {paircol ntypes : Nat} {t0 t : Table K} (h : Rescaled paircol ntypes t0 t) :
    resync paircol ntypes t0 t = .ok { t0 with xcoord := t.xcoord, last := t.last } := by
  obtain ⟨hc1, hc2, hc3, hc4, hc5⟩ := h.columns
  have htab : sendPart t0.table t.table 0 t0.table.length = .ok t0.table :=
    sendPart_same ⟨h.table, fun i hi => by
      rw [List.getElem?_eq_none (by omega), List.getElem?_eq_none (by have := h.table; omega)]⟩ (by omega)
  unfold resync potsync
  rw [htab]
  simp only [bind, Except.bind]
  rw [sendPart_same h.begin (by omega), sendPart_same h.stop (by omega), sendPart_same h.step (by omega),
    sendPart_same h.invstep (by omega), sendPart_same (x := t0.first) ⟨by rw [h.first], fun i _ => by rw [h.first]⟩ (by omega)]
  obtain ⟨f, hf⟩ : ∃ f, t0.first[paircol]? = some f := ⟨_, List.getElem?_eq_getElem (by have := h.types; omega)⟩
  simp only [hf, if_true]
  have hle := h.inside f (List.mem_of_getElem? hf)
  rw [sendPart_same (x := t0.table) ⟨rfl, fun i _ => rfl⟩ (by omega)]

/-- C92, partial: the worker's table is the table of rank 0, provided that the knots have not changed. -/
theorem C92_resync_partial {paircol ntypes : Nat} {t0 t : Table K} (h : Rescaled paircol ntypes t0 t) (hl : t0.last = t.last)
    (hx : t0.xcoord = t.xcoord) : resync paircol ntypes t0 t = .ok t0 := by
  rw [C92_resync h, ← hl, ← hx]

/-- The column of a table as the look-up routines see it (second derivatives zero). -/
def columnOf (t : Table ℚ) (c : Nat) : Splines.Column ℚ :=
  ⟨t.begin.getD c 0, t.stop.getD c 0, t.step.getD c 0, t.invstep.getD c 0, t.first.getD c 0, t.last.getD c 0,
    fun i => t.xcoord.getD i 0, fun _ => 0⟩

private def beforeScaling : Table ℚ :=
  ⟨[1, 1, 0], [2, 2, 1], [1, 1, 1], [1, 1, 1], [2, 6, 10], [3, 7, 11], [0, 0, 5, 0, 0, 0, 1, 0, 0, 0, 0, 4],
    [0, 0, 1, 2, 0, 0, 1, 2, 0, 0, 0, 1]⟩

/-- Densities doubled and the embedding function stretched by 2. -/
private def afterScaling : Table ℚ :=
  ⟨[1, 1, 0], [2, 2, 2], [1, 1, 2], [1, 1, 1 / 2], [2, 6, 10], [3, 7, 11], [0, 0, 5, 0, 0, 0, 2, 0, 0, 0, 0, 4],
    [0, 0, 1, 2, 0, 0, 1, 2, 0, 0, 0, 2]⟩

private theorem scaled : Rescaled 1 1 afterScaling beforeScaling :=
  have hs : ∀ (x y : List ℚ), x.length = 3 → y.length = 3 → x.take 2 = y.take 2 → SameOutside 2 1 x y := by
    intro x y hx hy h
    refine ⟨by omega, fun i hi => ?_⟩
    rcases hi with hi | hi
    · rw [← List.getElem?_take_of_lt hi, h, List.getElem?_take_of_lt hi]
    · rw [List.getElem?_eq_none (by omega), List.getElem?_eq_none (by omega)]
  ⟨hs _ _ rfl rfl rfl, hs _ _ rfl rfl rfl, hs _ _ rfl rfl rfl, hs _ _ rfl rfl rfl, rfl, rfl, by decide, by decide, by decide⟩

example : resync 1 1 afterScaling { beforeScaling with xcoord := afterScaling.xcoord } = .ok afterScaling :=
  C92_resync_partial ⟨scaled.begin, scaled.stop, scaled.step, scaled.invstep, scaled.first, scaled.table, scaled.types, scaled.columns,
    scaled.inside⟩ rfl rfl

/-- C92 is violated with potential format 4 and rescaling: `potsync` does not send the knots, so afterwards a worker evaluates the
embedding function with the old ones. -/
theorem C92_resync_knots : ∃ (t0 t t' : Table ℚ) (x y0 y : ℚ), Rescaled 1 1 t0 t ∧ t0.last = t.last ∧ resync 1 1 t0 t = .ok t' ∧
    Splines.splintNe (columnOf t0 2) (fun i => t0.table.getD i 0) x = .ok y0 ∧
    Splines.splintNe (columnOf t' 2) (fun i => t'.table.getD i 0) x = .ok y ∧ y ≠ y0 :=
  ⟨afterScaling, beforeScaling, { afterScaling with xcoord := beforeScaling.xcoord }, 3 / 2, 3, 6, scaled, rfl,
    C92_resync scaled, by decide +kernel, by decide +kernel, by decide +kernel⟩

end Verif.Props
