/-
C21  Periodic self-interaction is counted once.

`crystalPair` (`Spec/SelfCount.lean`) sums one half of the pair energy over all interaction vectors, without
neighbour lists.  Pair, EAM, MEAM and angular routines compute it, and hence give the same energy per atom for a
cell and for several such cells taken as one.  The Stillinger-Weber and Tersoff routines do not.
-/
import Verif.Lemmas.Supercell
import Verif.Props.C19
import Mathlib.Algebra.BigOperators.Field

namespace Verif.Props

open Verif.Force hiding Cell
open Verif.Neighbors Verif.Spec

/-- Pair potentials: energy entry of a configuration. -/
theorem C21_pair (edge : Fin 3 → V3 ℝ) (cut : Cutoffs) (scale : Fin 3 → ℤ) (c : Cell) (f : Conf ℝ)
    (hr : Ready edge cut scale c) (hf : Built false cut scale c f) (hsym : ∀ s t, cut.rcut s t = cut.rcut t s)
    (b : Build) (P : Pots ℝ) (ew sw : ℝ) (ci : Nat) (fv : FV ℝ) :
    (pairConf b P ew sw ci f fv).1.energy ci =
      (f.chem + crystalPair cut P c) / (c.sites.length : ℝ) - f.energy0 := by
  have hh := (C23_half cut scale c f hf ⟨P, c.paircol, c.ntypes, fun _ _ => (0, 0)⟩ rfl).1
  obtain ⟨-, -, p3, -⟩ := pairConf_spec b P ew sw ci f hh fv
  rw [p3, Function.update_self, half_pair hr hf hsym, hf.count]

/-- EAM potentials: the density of an atom is the sum of the transfer functions over all interaction vectors. -/
theorem C21_eam (edge : Fin 3 → V3 ℝ) (cut : Cutoffs) (scale : Fin 3 → ℤ) (c : Cell) (f : Conf ℝ)
    (hr : Ready edge cut scale c) (hf : Built false cut scale c f) (hsym : ∀ s t, cut.rcut s t = cut.rcut t s)
    (b : Build) (P : EamPots ℝ) (hp : P.paircol = c.paircol) (ew sw : ℝ) (ci : Nat) (s : EamState ℝ) :
    (eamConf b P ew sw ci f s).1.fv.energy ci =
      (crystalPair cut P.toPots c + ∑ i ∈ Finset.range c.sites.length,
        (embed b P (P.paircol + P.ntypes + (c.site i).typ) (around cut c i (transfer P))).value) /
      (c.sites.length : ℝ) - f.energy0 := by
  obtain ⟨hh, hc⟩ := C23_half cut scale c f hf P hp
  have := (C19_eam b P ew sw ci f hh hc s).2
  rw [this]
  unfold energyDev
  rw [half_pair hr hf hsym, hf.count]
  congr 3
  have key : ∀ (l : List (Atom ℝ)) (g : Atom ℝ → Nat → ℝ) (k : Nat),
      ((l.zipIdx k).map fun ak => g ak.1 ak.2).sum =
        ∑ i ∈ Finset.range l.length, g (l.getD i ⟨0, [], 0, false⟩) (k + i) := by
    intro l g
    induction l with
    | nil => intro k; simp
    | cons a l ih =>
      intro k
      rw [List.zipIdx_cons, List.map_cons, List.sum_cons, ih, List.length_cons, Finset.sum_range_succ', add_comm]
      congr 1
      apply Finset.sum_congr rfl
      intro i _
      rw [List.getD_cons_succ, show k + 1 + i = k + (i + 1) by omega]
  rw [key f.atoms (fun a k => (embed b P (P.paircol + P.ntypes + a.typ) (totalDensity P f (f.start + k))).value) 0,
    hf.count]
  apply Finset.sum_congr rfl
  intro i hi
  rw [Finset.mem_range] at hi
  have ha := List.getElem?_eq_getElem (hf.count ▸ hi : i < f.atoms.length)
  rw [getD_eq _ i _ ha, hf.typ i _ ha, hf.start, Nat.zero_add, half_density hr hf hsym P i hi]

/-- Angular and MEAM potentials (full lists): pair energy of a configuration. -/
theorem C21_full (edge : Fin 3 → V3 ℝ) (cut : Cutoffs) (scale : Fin 3 → ℤ) (c : Cell) (f : Conf ℝ)
    (hr : Ready edge cut scale c) (hf : Built true cut scale c f) (P : Pots ℝ) :
    energyLoop (halfEnergy P) f.atoms f.start 0 = crystalPair cut P c :=
  full_pair hr hf P

section
variable (d : Fin 3) (M : Nat) (hM : 0 < M) (edge : Fin 3 → V3 ℝ) (cut : Cutoffs) (scale scale' : Fin 3 → ℤ)
  (c : Cell) (box' : Box ℝ) (start' : Nat) (hr : Ready edge cut scale c)
  (hr' : Ready (superEdge d M edge) cut scale' (supercell d M edge box' start' c))
  (hsym : ∀ s t, cut.rcut s t = cut.rcut t s)
include hr hr'

theorem super_edges : c.box.edge = edge ∧ box'.edge = superEdge d M edge := by
  obtain ⟨v, h1⟩ := hr.box
  obtain ⟨v', h2⟩ := hr'.box
  exact ⟨(makeBox_dual h1).1, (makeBox_dual h2).1⟩

include hM hsym in
/-- Pair potentials: a cell and `M` such cells taken as one have the same energy per atom, whether atoms meet
their own images or not. -/
theorem C21_super_pair (f f' : Conf ℝ) (hf : Built false cut scale c f)
    (hf' : Built false cut scale' (supercell d M edge box' start' c) f') (h0 : f.chem = 0) (h0' : f'.chem = 0)
    (b b' : Build) (P : Pots ℝ) (ew ew' sw sw' : ℝ) (ci ci' : Nat) (fv fv' : FV ℝ) :
    (pairConf b' P ew' sw' ci' f' fv').1.energy ci' + f'.energy0 =
      (pairConf b P ew sw ci f fv).1.energy ci + f.energy0 := by
  obtain ⟨e1, e2⟩ := super_edges d M edge cut scale scale' c box' start' hr hr'
  rw [C21_pair _ cut scale c f hr hf hsym, C21_pair _ cut scale' _ f' hr' hf' hsym, crystal_super cut e1 e2,
    super_length, h0, h0']
  have hM' : (M : ℝ) ≠ 0 := by exact_mod_cast hM.ne'
  push_cast
  rw [zero_add, zero_add, mul_div_mul_left _ _ hM']
  ring

include hM hsym in
/-- EAM potentials: the same. -/
theorem C21_super_eam (f f' : Conf ℝ) (hf : Built false cut scale c f)
    (hf' : Built false cut scale' (supercell d M edge box' start' c) f')
    (b : Build) (P : EamPots ℝ) (hp : P.paircol = c.paircol) (ew ew' sw sw' : ℝ) (ci ci' : Nat)
    (s s' : EamState ℝ) :
    (eamConf b P ew' sw' ci' f' s').1.fv.energy ci' + f'.energy0 =
      (eamConf b P ew sw ci f s).1.fv.energy ci + f.energy0 := by
  obtain ⟨e1, e2⟩ := super_edges d M edge cut scale scale' c box' start' hr hr'
  rw [C21_eam _ cut scale c f hr hf hsym b P hp, C21_eam _ cut scale' _ f' hr' hf' hsym b P hp,
    crystal_super cut e1 e2, super_length]
  have hM' : (M : ℝ) ≠ 0 := by exact_mod_cast hM.ne'
  have : ∑ i ∈ Finset.range (M * c.sites.length), (embed b P (P.paircol + P.ntypes +
        ((supercell d M edge box' start' c).site i).typ)
        (around cut (supercell d M edge box' start' c) i (transfer P))).value =
      M * ∑ i ∈ Finset.range c.sites.length,
        (embed b P (P.paircol + P.ntypes + (c.site i).typ) (around cut c i (transfer P))).value := by
    rw [← sum_super M c.sites.length
      (fun i => (embed b P (P.paircol + P.ntypes + (c.site i).typ) (around cut c i (transfer P))).value)]
    apply Finset.sum_congr rfl
    intro I hI
    rw [Finset.mem_range] at hI
    rw [around_super cut e1 e2 hI, super_site hI]
  rw [this, ← mul_add]
  push_cast
  rw [mul_div_mul_left _ _ hM']
  ring

include hM in
/-- Angular and MEAM potentials: the same for the pair energy. -/
theorem C21_super_full (f f' : Conf ℝ) (hf : Built true cut scale c f)
    (hf' : Built true cut scale' (supercell d M edge box' start' c) f') (P : Pots ℝ) :
    energyLoop (halfEnergy P) f'.atoms f'.start 0 / (f'.atoms.length : ℝ) =
      energyLoop (halfEnergy P) f.atoms f.start 0 / (f.atoms.length : ℝ) := by
  obtain ⟨e1, e2⟩ := super_edges d M edge cut scale scale' c box' start' hr hr'
  rw [C21_full _ cut scale c f hr hf, C21_full _ cut scale' _ f' hr' hf', crystal_super cut e1 e2,
    hf.count, hf'.count, super_length]
  have hM' : (M : ℝ) ≠ 0 := by exact_mod_cast hM.ne'
  push_cast
  rw [mul_div_mul_left _ _ hM']

end

/-- Stillinger-Weber and Tersoff: energies are right if no atom meets its own image. -/
theorem C21_selfHalf_partial (edge : Fin 3 → V3 ℝ) (cut : Cutoffs) (scale : Fin 3 → ℤ) (c : Cell) (f : Conf ℝ)
    (hr : Ready edge cut scale c) (hf : Built true cut scale c f) (P : Pots ℝ)
    (hno : ∀ i < c.sites.length, ∀ m, Wanted true cut c i m → m.j ≠ i) :
    energyLoop (selfHalfEnergy P) f.atoms f.start 0 = crystalPair cut P c := by
  obtain ⟨H, h1, h2, h3⟩ := built_lists hr hf
  rw [energyLoop_selfHalf, zero_add]
  have := sum_built hf h3 (fun x => (if x.n.nr = x.own then 1 / 4 else 1 / 2) * cutPhi P x.n)
  unfold entries at this
  rw [this]
  unfold crystalPair
  apply Finset.sum_congr rfl
  intro i hi
  rw [Finset.mem_range] at hi
  rw [Lists.around_eq (⟨H, h1, h2⟩ : Lists cut c) hi, ← List.sum_map_mul_left]
  congr 1
  apply List.map_congr_left
  intro m hm
  have hne := hno i hi m ((h2 i hi m).1 hm)
  have hn : (entryOf c i m).nr = c.start + m.j := rfl
  rw [hn, if_neg (show ¬ c.start + m.j = c.start + i by omega), cutPhi_entry]

/-- Stillinger-Weber and Tersoff, one atom in the cell: half of the energy is missing, for every cell. -/
theorem C21_selfHalf_single (edge : Fin 3 → V3 ℝ) (cut : Cutoffs) (scale : Fin 3 → ℤ) (c : Cell) (f : Conf ℝ)
    (hr : Ready edge cut scale c) (hf : Built true cut scale c f) (P : Pots ℝ) (h1 : c.sites.length = 1) :
    energyLoop (selfHalfEnergy P) f.atoms f.start 0 = crystalPair cut P c / 2 := by
  obtain ⟨H, g1, g2, g3⟩ := built_lists hr hf
  rw [energyLoop_selfHalf, zero_add]
  have := sum_built hf g3 (fun x => (if x.n.nr = x.own then 1 / 4 else 1 / 2) * cutPhi P x.n)
  unfold entries at this
  rw [this]
  unfold crystalPair
  rw [Finset.sum_div]
  apply Finset.sum_congr rfl
  intro i hi
  rw [Finset.mem_range] at hi
  rw [Lists.around_eq (⟨H, g1, g2⟩ : Lists cut c) hi, mul_div_right_comm, ← List.sum_map_mul_left]
  congr 1
  apply List.map_congr_left
  intro m hm
  have hj := ((g2 i hi m).1 hm).1
  have hn : (entryOf c i m).nr = c.start + m.j := rfl
  rw [hn, if_pos (show c.start + m.j = c.start + i by omega), cutPhi_entry]
  norm_num

/-- Lists exist unless two atoms coincide. -/
theorem exists_built (edge : Fin 3 → V3 ℝ) (cut : Cutoffs) (scale : Fin 3 → ℤ) (c : Cell)
    (hr : Ready edge cut scale c) (h0 : 0 ≤ cut.rcutmax) (full : Bool)
    (hno : ∀ i < c.sites.length, ∀ m : Image, m.j < c.sites.length → ¬ (m.j = i ∧ m.n = 0) →
      length (arrow c i m) ≠ 0) :
    ∃ f : Conf ℝ, Built full cut scale c f ∧ f.chem = 0 := by
  have key : ∀ i : Nat, ∃ l, i < c.sites.length → neighbours full cut scale c i = .ok l := by
    intro i
    cases hl : neighbours full cut scale c i with
    | ok l => exact ⟨l, fun _ => rfl⟩
    | error e =>
      refine ⟨[], fun hi => ?_⟩
      exfalso
      have : e = .overlap := by
        unfold neighbours at hl
        simp only at hl
        split at hl
        · simpa using hl.symm
        · cases hl
      subst this
      obtain ⟨m, h1, -, h3, h4⟩ := (C23_overlap_iff edge cut scale c hr h0 full i hi).1 hl
      exact hno i hi m h1 h3 h4
  choose l hl using key
  refine ⟨⟨c.start, (List.range c.sites.length).map fun i => ⟨(c.site i).typ, l i, 0, true⟩, true, true, 1, 1, 0, 0,
    0, 0, 0⟩, ⟨rfl, by simp, ?_, ?_⟩, rfl⟩
  · intro i a ha
    rw [List.getElem?_map, Option.map_eq_some_iff] at ha
    obtain ⟨k, hk, rfl⟩ := ha
    rw [List.getElem?_eq_some_iff] at hk
    obtain ⟨h1, h2⟩ := hk
    rw [List.getElem_range] at h2
    rw [h2]
  · intro i a ha
    rw [List.getElem?_map, Option.map_eq_some_iff] at ha
    obtain ⟨k, hk, rfl⟩ := ha
    rw [List.getElem?_eq_some_iff] at hk
    obtain ⟨h1, h2⟩ := hk
    rw [List.getElem_range] at h2
    subst h2
    exact hl i (by simpa using h1)

/-- A box with right angles. -/
noncomputable def boxOf (x : ℝ) : Box ℝ := ⟨![![x, 0, 0], ![0, 10, 0], ![0, 0, 10]],
  ![![1 / x, 0, 0], ![0, 1 / 10, 0], ![0, 0, 1 / 10]]⟩

theorem boxOf_made (x : ℝ) (hx : 0 < x) :
    makeBox (![![x, 0, 0], ![0, 10, 0], ![0, 0, 10]] : Fin 3 → V3 ℝ) = .ok (boxOf x, x * 100) := by
  have hv : sprod ((![![x, 0, 0], ![0, 10, 0], ![0, 0, 10]] : Fin 3 → V3 ℝ) 0)
      (vecProd ((![![x, 0, 0], ![0, 10, 0], ![0, 0, 10]] : Fin 3 → V3 ℝ) 1)
        ((![![x, 0, 0], ![0, 10, 0], ![0, 0, 10]] : Fin 3 → V3 ℝ) 2)) = x * 100 := by
    simp only [sprod, vecProd, Matrix.cons_val]
    norm_num
  unfold makeBox
  simp only [hv]
  rw [if_neg (by positivity)]
  unfold boxOf
  congr 3
  funext i
  fin_cases i <;> funext k <;> fin_cases k <;> simp only [vecProd, Matrix.cons_val, Fin.zero_eta, Fin.mk_one,
    Fin.reduceFinMk] <;> field_simp <;> ring

theorem boxOf_scale (x : ℝ) (hx : 0 < x) (s : ℤ) (hs : ⌈(3 / 2 : ℝ) * (1 / x)⌉ = s) (hs' : s ≤ 30000) :
    cellScale (3 / 2) (boxOf x) = .ok ![s, 1, 1] := by
  have h0 : Real.sqrt (sprod ((boxOf x).dual 0) ((boxOf x).dual 0)) = 1 / x := by
    have : sprod ((boxOf x).dual 0) ((boxOf x).dual 0) = (1 / x) ^ 2 := by
      unfold sprod boxOf
      simp only [Matrix.cons_val]
      ring
    rw [this, Real.sqrt_sq (by positivity)]
  have h1 : Real.sqrt (sprod ((boxOf x).dual 1) ((boxOf x).dual 1)) = 1 / 10 := by
    have : sprod ((boxOf x).dual 1) ((boxOf x).dual 1) = (1 / 10) ^ 2 := by
      unfold sprod boxOf
      simp only [Matrix.cons_val]
      ring
    rw [this, Real.sqrt_sq (by norm_num)]
  have h2 : Real.sqrt (sprod ((boxOf x).dual 2) ((boxOf x).dual 2)) = 1 / 10 := by
    have : sprod ((boxOf x).dual 2) ((boxOf x).dual 2) = (1 / 10) ^ 2 := by
      unfold sprod boxOf
      simp only [Matrix.cons_val]
      ring
    rw [this, Real.sqrt_sq (by norm_num)]
  have hc : ⌈(3 / 2 : ℝ) * (1 / 10)⌉ = 1 := by
    rw [Int.ceil_eq_iff]
    norm_num
  unfold cellScale
  simp only [h0, h1, h2, hc, hs]
  rw [if_neg (by omega)]
  congr 1
  funext k
  match k with
  | 0 => exact hs.symm ▸ (by simp only [h0, hs, Matrix.cons_val])
  | 1 => simp only [h1, hc, Matrix.cons_val]
  | 2 => simp only [h2, hc, Matrix.cons_val]

/-- One atom in a thin cell with edges 1, 10, 10, cutoff 3/2: it meets its own image on both sides. -/
noncomputable def thin : Cell := ⟨boxOf 1, 0, [⟨0, 0⟩], 1, 1⟩

noncomputable def thinCut : Cutoffs := ⟨fun _ _ => 3 / 2, 3 / 2⟩

/-- Two such cells taken as one. -/
noncomputable def thin2 : Cell := supercell 0 2 (boxOf 1).edge (boxOf 2) 0 thin

theorem thin_ready : Ready (boxOf 1).edge thinCut ![2, 1, 1] thin := by
  refine ⟨⟨_, boxOf_made 1 one_pos⟩, boxOf_scale 1 one_pos 2 ?_ (by norm_num), fun _ _ => le_refl _, ?_⟩
  · rw [Int.ceil_eq_iff]; norm_num
  · intro i hi
    refine ⟨0, fun k => ⟨le_refl _, one_pos⟩, ?_⟩
    simp only [thin, List.length_singleton] at hi
    have : i = 0 := by omega
    subst this
    simp [thin, Cell.site]

theorem super_thin : superEdge 0 2 (boxOf 1).edge = (boxOf 2).edge := by
  have h10 : (1 : Fin 3) ≠ 0 := by decide
  have h20 : (2 : Fin 3) ≠ 0 := by decide
  funext i k
  simp only [superEdge, boxOf]
  fin_cases i <;> fin_cases k <;> simp only [Fin.zero_eta, Fin.mk_one, Fin.reduceFinMk, if_true, if_neg h10,
    if_neg h20, Pi.smul_apply, smul_eq_mul, Matrix.cons_val, mul_zero, mul_one, Nat.cast_ofNat]

theorem thin2_ready : Ready (superEdge 0 2 (boxOf 1).edge) thinCut ![1, 1, 1] thin2 := by
  rw [super_thin]
  refine ⟨⟨_, boxOf_made 2 two_pos⟩, boxOf_scale 2 two_pos 1 ?_ (by norm_num), fun _ _ => le_refl _, ?_⟩
  · rw [Int.ceil_eq_iff]; norm_num
  · intro i hi
    have hi2 : i < 2 * thin.sites.length := by rw [← super_length]; exact hi
    have hl : thin.sites.length = 1 := rfl
    unfold thin2
    rw [super_site hi2, hl, Nat.div_one, Nat.mod_one]
    have hp : (thin.site 0).pos = 0 := rfl
    rw [hl] at hi2
    refine ⟨![(i : ℝ) / 2, 0, 0], ?_, ?_⟩
    · intro k
      have : (i : ℝ) ≤ 1 := by exact_mod_cast (by omega : i ≤ 1)
      have h0 : (0 : ℝ) ≤ i := Nat.cast_nonneg i
      match k with
      | 0 => exact ⟨(by linarith : (0 : ℝ) ≤ (i : ℝ) / 2), (by linarith : (i : ℝ) / 2 < 1)⟩
      | 1 => exact ⟨le_refl _, one_pos⟩
      | 2 => exact ⟨le_refl _, one_pos⟩
    · funext k
      simp only [hp, Pi.zero_apply, zero_add, Fin.sum_univ_three, Pi.smul_apply, Pi.add_apply, smul_eq_mul, boxOf]
      fin_cases k <;> simp only [Fin.zero_eta, Fin.mk_one, Fin.reduceFinMk, Matrix.cons_val] <;> ring

/-- Interaction vectors of the thin cell. -/
theorem thin_arrow (i : Nat) (hi : i < 1) (m : Image) (hj : m.j < 1) :
    arrow thin i m = ![(m.n 0 : ℝ), (m.n 1 : ℝ) * 10, (m.n 2 : ℝ) * 10] := by
  have h0 : i = 0 := by omega
  have h1 : m.j = 0 := by omega
  have hp : (thin.site 0).pos = 0 := rfl
  have hb : thin.box = boxOf 1 := rfl
  funext k
  simp only [arrow, h0, h1, hp, hb, Fin.sum_univ_three, boxOf, Pi.add_apply, Pi.sub_apply, Pi.smul_apply,
    smul_eq_mul, Pi.zero_apply]
  fin_cases k <;> simp only [Fin.zero_eta, Fin.mk_one, Fin.reduceFinMk, Matrix.cons_val] <;> ring

theorem thin2_arrow (i : Nat) (hi : i < 2) (m : Image) (hj : m.j < 2) :
    arrow thin2 i m = ![(2 * m.n 0 + m.j - i : ℝ), (m.n 1 : ℝ) * 10, (m.n 2 : ℝ) * 10] := by
  have hl : thin.sites.length = 1 := rfl
  unfold thin2
  rw [arrow_fold (c := thin) (edge := (boxOf 1).edge) rfl super_thin.symm (by rw [hl]; omega) (by rw [hl]; omega)]
  rw [thin_arrow _ (by rw [hl]; exact Nat.mod_lt _ one_pos) _ (by simp only [fold, hl]; exact Nat.mod_lt _ one_pos)]
  simp only [fold, hl, Nat.div_one, if_true, if_neg (show (1 : Fin 3) ≠ 0 by decide),
    if_neg (show (2 : Fin 3) ≠ 0 by decide)]
  push_cast
  rfl

theorem length_three (x y z : ℝ) : length ![x, y, z] = Real.sqrt (x ^ 2 + y ^ 2 + z ^ 2) := by
  unfold length
  rw [Fin.sum_univ_three]
  rfl

theorem length_ne_zero (x y z : ℝ) (h : ¬ (x = 0 ∧ y = 0 ∧ z = 0)) : length ![x, y, z] ≠ 0 := by
  rw [length_three]
  intro he
  rw [Real.sqrt_eq_zero (by positivity)] at he
  apply h
  refine ⟨?_, ?_, ?_⟩ <;> nlinarith [sq_nonneg x, sq_nonneg y, sq_nonneg z]

theorem thin_built (full : Bool) : ∃ f : Conf ℝ, Built full thinCut ![2, 1, 1] thin f ∧ f.chem = 0 := by
  apply exists_built _ _ _ _ thin_ready (by norm_num [thinCut])
  intro i hi m hj hne
  rw [thin_arrow i hi m hj]
  apply length_ne_zero
  rintro ⟨h0, h1, h2⟩
  apply hne
  have hi' : i < 1 := hi
  have hj' : m.j < 1 := hj
  refine ⟨by omega, ?_⟩
  funext k
  match k with
  | 0 => exact_mod_cast h0
  | 1 => have : (m.n 1 : ℝ) = 0 := by linarith
         exact_mod_cast this
  | 2 => have : (m.n 2 : ℝ) = 0 := by linarith
         exact_mod_cast this

theorem thin2_built (full : Bool) : ∃ f : Conf ℝ, Built full thinCut ![1, 1, 1] thin2 f ∧ f.chem = 0 := by
  apply exists_built _ _ _ _ thin2_ready (by norm_num [thinCut])
  intro i hi m hj hne
  have hi' : i < 2 := hi
  have hj' : m.j < 2 := hj
  rw [thin2_arrow i hi' m hj']
  apply length_ne_zero
  rintro ⟨h0, h1, h2⟩
  apply hne
  have h0' : 2 * m.n 0 + m.j - i = 0 := by exact_mod_cast h0
  have hz : m.n 0 = 0 := by omega
  refine ⟨by omega, ?_⟩
  funext k
  match k with
  | 0 => exact hz
  | 1 => have : (m.n 1 : ℝ) = 0 := by linarith
         exact_mod_cast this
  | 2 => have : (m.n 2 : ℝ) = 0 := by linarith
         exact_mod_cast this

/-- The neighbouring cell in the short direction. -/
def nextCell : Fin 3 → ℤ := fun k => if k = 0 then 1 else 0

theorem thin_wanted : Wanted true thinCut thin 0 ⟨0, nextCell⟩ := by
  refine ⟨by decide, Or.inl rfl, fun h => absurd (congrFun h.2 0) (by decide), ?_⟩
  have h5 : thinCut.rcut (thin.site 0).typ (thin.site 0).typ = 3 / 2 := rfl
  have e0 : nextCell 0 = 1 := rfl
  have e1 : nextCell 1 = 0 := rfl
  have e2 : nextCell 2 = 0 := rfl
  rw [thin_arrow 0 one_pos _ one_pos, length_three, h5, Real.sqrt_le_left (by norm_num)]
  simp only [e0, e1, e2]
  norm_num

/-- The hypotheses of the supercell theorems are met by the thin cell, in which the atom meets its own images. -/
example : (∃ f f', Built false thinCut ![2, 1, 1] thin f ∧ f.chem = 0 ∧ Built false thinCut ![1, 1, 1] thin2 f' ∧ f'.chem = 0) ∧
    Ready (boxOf 1).edge thinCut ![2, 1, 1] thin ∧
    Ready (superEdge 0 2 (boxOf 1).edge) thinCut ![1, 1, 1] thin2 ∧ (∀ s t, thinCut.rcut s t = thinCut.rcut t s) ∧
    Wanted true thinCut thin 0 ⟨0, nextCell⟩ := by
  obtain ⟨f, h1, h2⟩ := thin_built false
  obtain ⟨f', h3, h4⟩ := thin2_built false
  exact ⟨⟨f, f', h1, h2, h3, h4⟩, thin_ready, thin2_ready, fun _ _ => rfl, thin_wanted⟩

/-- A pair function equal to 1. -/
def unitPots : Pots ℝ := ⟨fun _ => 2, fun _ => 0, fun _ => 1, fun _ _ => 1, fun _ _ => 0⟩

theorem thin_energy_ne : crystalPair thinCut unitPots thin ≠ 0 := by
  let L := readyLists thin_ready
  unfold crystalPair
  rw [show thin.sites.length = 1 from rfl, Finset.sum_range_one, L.around_eq (by decide)]
  have hm := (L.mem 0 (by decide) _).2 thin_wanted
  have h1 : ∀ m ∈ L.ims 0, phi unitPots thin.ntypes (thin.site 0).typ (thin.site m.j).typ (length (arrow thin 0 m)) = 1 := by
    intro m hm
    have h4 := ((L.mem 0 (by decide) m).1 hm).2.2.2
    unfold phi
    rw [if_pos]
    · rfl
    · have : (unitPots.fin (PairIndex.pairCol thin.ntypes (thin.site 0).typ (thin.site m.j).typ) : ℝ) = 2 := rfl
      rw [this]
      have h5 : thinCut.rcut (thin.site 0).typ (thin.site m.j).typ = 3 / 2 := rfl
      rw [h5] at h4
      linarith
  rw [List.map_congr_left h1]
  simp only [List.map_const', List.sum_replicate, nsmul_eq_mul, mul_one]
  have : 0 < (L.ims 0).length := List.length_pos_of_mem hm
  have : (0 : ℝ) < (L.ims 0).length := by exact_mod_cast this
  linarith

/-- Stillinger-Weber and Tersoff: the thin cell and two thin cells taken as one, both with the lists built by the
program, have different energies per atom. -/
theorem C21_selfHalf_violated : ∃ f f' : Conf ℝ, Built true thinCut ![2, 1, 1] thin f ∧
    Built true thinCut ![1, 1, 1] thin2 f' ∧
    energyLoop (selfHalfEnergy unitPots) f.atoms f.start 0 / (f.atoms.length : ℝ) ≠
      energyLoop (selfHalfEnergy unitPots) f'.atoms f'.start 0 / (f'.atoms.length : ℝ) := by
  obtain ⟨f, hf, -⟩ := thin_built true
  obtain ⟨f', hf', -⟩ := thin2_built true
  refine ⟨f, f', hf, hf', ?_⟩
  rw [C21_selfHalf_single _ _ _ _ f thin_ready hf _ rfl]
  rw [C21_selfHalf_partial _ _ _ _ f' thin2_ready hf']
  · rw [hf.count, hf'.count]
    unfold thin2
    rw [crystal_super (c := thin) (edge := (boxOf 1).edge) thinCut rfl super_thin.symm, super_length]
    have h1 : thin.sites.length = 1 := rfl
    rw [h1]
    push_cast
    intro h
    apply thin_energy_ne
    linarith
  · rintro i hi m ⟨h1, -, h3, h4⟩ he
    have hi' : i < 2 := hi
    have hm' : m.j < 2 := h1
    rw [thin2_arrow i hi' m hm', length_three] at h4
    have h5 : thinCut.rcut (thin2.site i).typ (thin2.site m.j).typ = 3 / 2 := rfl
    rw [h5, Real.sqrt_le_left (by norm_num), he] at h4
    apply h3
    refine ⟨he, ?_⟩
    have hz : ∀ n : ℤ, (4 : ℝ) * (n : ℝ) ^ 2 ≤ 9 / 4 → n = 0 := by
      intro n hn
      by_contra hne
      have : (1 : ℤ) ≤ n ^ 2 := by
        have := sq_nonneg n
        have : n ^ 2 ≠ 0 := pow_ne_zero 2 hne
        omega
      have : (1 : ℝ) ≤ (n : ℝ) ^ 2 := by exact_mod_cast this
      linarith
    funext k
    match k with
    | 0 => exact hz _ (by nlinarith [sq_nonneg ((m.n 1 : ℝ)), sq_nonneg ((m.n 2 : ℝ))])
    | 1 => exact hz _ (by nlinarith [sq_nonneg ((m.n 0 : ℝ)), sq_nonneg ((m.n 1 : ℝ)), sq_nonneg ((m.n 2 : ℝ))])
    | 2 => exact hz _ (by nlinarith [sq_nonneg ((m.n 0 : ℝ)), sq_nonneg ((m.n 1 : ℝ)), sq_nonneg ((m.n 2 : ℝ))])

end Verif.Props
