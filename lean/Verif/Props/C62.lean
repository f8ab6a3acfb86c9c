/-
C62  Export of Tersoff potentials to LAMMPS.
-/
import Verif.Model.LammpsTersoff
import Verif.Lemmas.PairIndex
import Verif.Props.C61

namespace Verif.Props

open Verif.PairIndex Verif.LammpsTersoff Verif.Force Verif.Spec

/-! ### Specification

The energy which LAMMPS assigns to an atom, from the documentation of `pair_style tersoff` and `pair_style tersoff/mod`.  Bond
`i j` takes its parameters from the line `i j j`, the influence of atom `k` on it from the line `i j k`. -/

noncomputable def lamCut (R D r : ℝ) : ℝ :=
  if r < R - D then 1 else if R + D < r then 0 else 1 / 2 - 1 / 2 * Real.sin (Real.pi / 2 * ((r - R) / D))

noncomputable def lamZeta (e : Nat → Nat → Nat → TersEntry ℝ) (ti : Nat) (nj : Neigh ℝ) (others : List (Neigh ℝ)) : ℝ :=
  (others.map fun nk =>
    let x := e ti nj.typ nk.typ
    lamCut x.R x.D nk.r * (x.gamma * (1 + x.c ^ 2 / x.d ^ 2 - x.c ^ 2 / (x.d ^ 2 + (cosine nj nk - x.costheta0) ^ 2))) *
      Real.exp (x.lambda3 ^ x.m * (nj.r - nk.r) ^ x.m)).sum

noncomputable def lamBond (e : Nat → Nat → Nat → TersEntry ℝ) (ti : Nat) (nj : Neigh ℝ) (others : List (Neigh ℝ)) : ℝ :=
  let x := e ti nj.typ nj.typ
  let b := (1 + x.beta ^ x.n * lamZeta e ti nj others ^ x.n) ^ (-1 / (2 * x.n))
  lamCut x.R x.D nj.r * (x.A * Real.exp (-x.lambda1 * nj.r) + b * (-x.B * Real.exp (-x.lambda2 * nj.r)))

/-- Half of the sum over all bonds of the atom. -/
noncomputable def lamSite (e : Nat → Nat → Nat → TersEntry ℝ) (a : Atom ℝ) : ℝ :=
  1 / 2 * ((othersOf [] a.neigh).map fun q => lamBond e a.typ q.1 q.2).sum

noncomputable def lamModCut (R D r : ℝ) : ℝ :=
  if r < R - D then 1
  else if R + D < r then 0
  else 1 / 2 - 9 / 16 * Real.sin (Real.pi / 2 * ((r - R) / D)) - 1 / 16 * Real.sin (3 * Real.pi / 2 * ((r - R) / D))

noncomputable def lamModZeta (e : Nat → Nat → Nat → ModEntry ℝ) (ti : Nat) (nj : Neigh ℝ) (others : List (Neigh ℝ)) : ℝ :=
  (others.map fun nk =>
    let x := e ti nj.typ nk.typ
    let go := x.c2 * (x.h - cosine nj nk) ^ 2 / (x.c3 + (x.h - cosine nj nk) ^ 2)
    let ga := 1 + x.c4 * Real.exp (-x.c5 * (x.h - cosine nj nk) ^ 2)
    lamModCut x.R x.D nk.r * (x.c1 + go * ga) * Real.exp (x.alpha * (nj.r - nk.r) ^ x.beta)).sum

noncomputable def lamModBond (e : Nat → Nat → Nat → ModEntry ℝ) (ti : Nat) (nj : Neigh ℝ) (others : List (Neigh ℝ)) : ℝ :=
  let x := e ti nj.typ nj.typ
  let b := (1 + lamModZeta e ti nj others ^ x.eta) ^ (-1 / (2 * x.n))
  lamModCut x.R x.D nj.r * (x.A * Real.exp (-x.lambda1 * nj.r) + b * (-x.B * Real.exp (-x.lambda2 * nj.r)))

noncomputable def lamModSite (e : Nat → Nat → Nat → ModEntry ℝ) (a : Atom ℝ) : ℝ :=
  1 / 2 * ((othersOf [] a.neigh).map fun q => lamModBond e a.typ q.1 q.2).sum

/-- Neighbours have the column of their pair of types and are not images of the atom itself (for those see C21). -/
def Typed (n i : Nat) (a : Atom ℝ) : Prop := ∀ m ∈ a.neigh, m.col0 = pairCol n a.typ m.typ ∧ m.nr ≠ i

/-! ### Lines -/

/-- There is exactly one line for every triple of types. -/
theorem C62_lines {α : Type*} (n : Nat) (e : Nat → Nat → Nat → α) :
    ((lines n e).map Prod.fst).Nodup ∧ ∀ i j k x, ((i, j, k), x) ∈ lines n e ↔ i < n ∧ j < n ∧ k < n ∧ x = e i j k := by
  constructor
  · have h : (lines n e).map Prod.fst = (List.range n).flatMap fun i => (List.range n).flatMap fun j => (List.range n).map fun k => (i, j, k) := by
      unfold lines
      simp only [List.map_flatMap, List.map_map, Function.comp_def]
    rw [h]
    have inner : ∀ i : Nat, ((List.range n).flatMap fun j => (List.range n).map fun k => (i, j, k)).Nodup := by
      intro i
      rw [List.nodup_flatMap]
      refine ⟨fun j _ => List.nodup_range.map (fun a b h => by simpa using h), ?_⟩
      refine List.nodup_range.imp ?_
      intro a b hab x h1 h2
      simp only [List.mem_map] at h1 h2
      obtain ⟨k, -, rfl⟩ := h1
      obtain ⟨k', -, h⟩ := h2
      simp only [Prod.mk.injEq] at h
      exact hab h.2.1.symm
    rw [List.nodup_flatMap]
    refine ⟨fun i _ => inner i, ?_⟩
    refine List.nodup_range.imp ?_
    intro a b hab x h1 h2
    simp only [List.mem_flatMap, List.mem_map] at h1 h2
    obtain ⟨j, -, k, -, rfl⟩ := h1
    obtain ⟨j', -, k', -, h⟩ := h2
    simp only [Prod.mk.injEq] at h
    exact hab h.1.symm
  · intro i j k x
    simp only [lines, List.mem_flatMap, List.mem_map, List.mem_range, Prod.mk.injEq]
    constructor
    · rintro ⟨a, ha, b, hb, c, hc, ⟨rfl, rfl, rfl⟩, rfl⟩
      exact ⟨ha, hb, hc, rfl⟩
    · rintro ⟨ha, hb, hc, rfl⟩
      exact ⟨i, ha, j, hb, k, hc, ⟨rfl, rfl, rfl⟩, rfl⟩

/-! ### Agreement -/

theorem othersOf_fst {α : Type*} (pre l : List α) : (othersOf pre l).map Prod.fst = l := by
  induction l generalizing pre with
  | nil => rfl
  | cons a l ih => simp only [othersOf, List.map_cons, ih]

theorem lamCut_eq (p : TersPars ℝ) (col : Nat) (h : p.R col < p.S col) (r : ℝ) :
    lamCut (1 / 2 * (p.S col + p.R col)) (1 / 2 * (p.S col - p.R col)) r = if r < p.S col then tersF realLib p col r else 0 := by
  have e1 : 1 / 2 * (p.S col + p.R col) - 1 / 2 * (p.S col - p.R col) = p.R col := by ring
  have e2 : 1 / 2 * (p.S col + p.R col) + 1 / 2 * (p.S col - p.R col) = p.S col := by ring
  unfold lamCut tersF
  rw [e1, e2]
  by_cases h1 : r < p.R col
  · rw [if_pos h1, if_pos (h1.trans h)]
    simp [h1]
  · have key : Real.sin (Real.pi / 2 * ((r - 1 / 2 * (p.S col + p.R col)) / (1 / 2 * (p.S col - p.R col)))) =
        -Real.cos (Real.pi / (p.S col - p.R col) * (r - p.R col)) := by
      have hd : p.S col - p.R col ≠ 0 := by linarith
      rw [show Real.pi / 2 * ((r - 1 / 2 * (p.S col + p.R col)) / (1 / 2 * (p.S col - p.R col))) =
        Real.pi / (p.S col - p.R col) * (r - p.R col) - Real.pi / 2 by field_simp; ring, Real.sin_sub_pi_div_two]
    rw [if_neg h1]
    by_cases h2 : r < p.S col
    · rw [if_neg (not_lt.2 h2.le), if_pos h2, key]
      simp only [if_neg h1, realLib]
      ring
    · rw [if_neg h2]
      by_cases h3 : p.S col < r
      · rw [if_pos h3]
      · rw [if_neg h3, key]
        have : r = p.S col := le_antisymm (not_lt.1 h3) (not_lt.1 h2)
        subst this
        have hd : p.S col - p.R col ≠ 0 := by linarith
        rw [div_mul_cancel₀ _ hd, Real.cos_pi]
        norm_num

theorem lamModCut_eq (p : TersModPars ℝ) (col : Nat) (h : p.R1 col < p.R2 col) (r : ℝ) :
    lamModCut (1 / 2 * (p.R1 col + p.R2 col)) (1 / 2 * (p.R2 col - p.R1 col)) r = if r < p.R2 col then modF realLib p col r else 0 := by
  have e1 : 1 / 2 * (p.R1 col + p.R2 col) - 1 / 2 * (p.R2 col - p.R1 col) = p.R1 col := by ring
  have e2 : 1 / 2 * (p.R1 col + p.R2 col) + 1 / 2 * (p.R2 col - p.R1 col) = p.R2 col := by ring
  unfold lamModCut modF
  rw [e1, e2]
  by_cases h1 : r < p.R1 col
  · rw [if_pos h1, if_pos (h1.trans h)]
    simp [h1]
  · have hd : p.R2 col - p.R1 col ≠ 0 := by linarith
    have key : Real.sin (Real.pi / 2 * ((r - 1 / 2 * (p.R1 col + p.R2 col)) / (1 / 2 * (p.R2 col - p.R1 col)))) =
        -Real.cos (Real.pi / (p.R2 col - p.R1 col) * (r - p.R1 col)) := by
      rw [show Real.pi / 2 * ((r - 1 / 2 * (p.R1 col + p.R2 col)) / (1 / 2 * (p.R2 col - p.R1 col))) =
        Real.pi / (p.R2 col - p.R1 col) * (r - p.R1 col) - Real.pi / 2 by field_simp; ring, Real.sin_sub_pi_div_two]
    have key3 : Real.sin (3 * Real.pi / 2 * ((r - 1 / 2 * (p.R1 col + p.R2 col)) / (1 / 2 * (p.R2 col - p.R1 col)))) =
        Real.cos (3 * (Real.pi / (p.R2 col - p.R1 col) * (r - p.R1 col))) := by
      rw [show 3 * Real.pi / 2 * ((r - 1 / 2 * (p.R1 col + p.R2 col)) / (1 / 2 * (p.R2 col - p.R1 col))) =
        3 * (Real.pi / (p.R2 col - p.R1 col) * (r - p.R1 col)) - Real.pi / 2 - Real.pi by field_simp; ring,
        Real.sin_sub_pi, Real.sin_sub_pi_div_two, neg_neg]
    rw [if_neg h1]
    by_cases h2 : r < p.R2 col
    · rw [if_neg (not_lt.2 h2.le), if_pos h2, key, key3]
      simp only [if_neg h1, realLib]
      ring
    · rw [if_neg h2]
      by_cases h3 : p.R2 col < r
      · rw [if_pos h3]
      · rw [if_neg h3, key, key3]
        have : r = p.R2 col := le_antisymm (not_lt.1 h3) (not_lt.1 h2)
        subst this
        rw [div_mul_cancel₀ _ hd, Real.cos_three_mul, Real.cos_pi]
        norm_num

/-- Energy of an atom in the fitted potential: pairs and bonds together. -/
theorem site_energy (P : Pots ℝ) (T : Nat → Neigh ℝ → List (Neigh ℝ) → Term ℝ) (i : Nat) (a : Atom ℝ) (hi : ∀ m ∈ a.neigh, m.nr ≠ i) :
    sumEnergy (bondSite P T i a) = ((othersOf [] a.neigh).map fun q => 1 / 2 * pairVal P q.1 + (T i q.1 q.2).energy).sum := by
  unfold bondSite sumEnergy
  rw [List.map_append, List.sum_append, List.map_map, List.map_map, sum_add_list]
  congr 1
  have e : ∀ q : List (Neigh ℝ × List (Neigh ℝ)), (q.map fun q => 1 / 2 * pairVal P q.1) = (q.map Prod.fst).map fun m => 1 / 2 * pairVal P m := by
    intro q; rw [List.map_map]; rfl
  rw [e, othersOf_fst]
  congr 1
  apply List.map_congr_left
  intro m hm
  simp only [Function.comp, pairTerm, selfWeight]
  simp [hi m hm]

/-- What is needed of the parameters of different columns. -/
structure Uniform (p : TersPars ℝ) (chi : Nat → ℝ) : Prop where
  chi : ∀ col, chi col = 1
  omega : ∀ col col', p.omega col = p.omega col'
  R : ∀ col col', p.R col = p.R col'
  S : ∀ col col', p.S col = p.S col'

theorem lamZeta_eq (p : TersPars ℝ) (chi : Nat → ℝ) (hp : ∀ col, TersOk p col) (hu : Uniform p chi) (n i : Nat) (a : Atom ℝ)
    (ha : Typed n i a) (nj : Neigh ℝ) (hj : nj ∈ a.neigh) (others : List (Neigh ℝ)) :
    lamZeta (entry p chi n) a.typ nj others = tersSum realLib p nj others := by
  unfold lamZeta tersSum
  congr 1
  apply List.map_congr_left
  intro nk _
  have hc := (ha nj hj).1
  simp only [entry, ← hc]
  rw [lamCut_eq p _ (hp _).range]
  unfold tersZ
  rw [hu.S nj.col0 nk.col0, hu.omega nj.col0 nk.col0]
  have e : tersF realLib p nj.col0 nk.r = tersF realLib p nk.col0 nk.r := by
    unfold tersF
    rw [hu.S nj.col0 nk.col0, hu.R nj.col0 nk.col0]
  rw [e]
  have e2 : Real.exp ((0 : ℝ) ^ (1 : ℝ) * (nj.r - nk.r) ^ (1 : ℝ)) = 1 := by
    rw [Real.zero_rpow one_ne_zero, zero_mul, Real.exp_zero]
  rw [e2, mul_one]
  have e3 : 1 + p.c nj.col0 ^ 2 / p.d nj.col0 ^ 2 - p.c nj.col0 ^ 2 / (p.d nj.col0 ^ 2 + (cosine nj nk - p.h nj.col0) ^ 2) =
      tersG p nj.col0 (cosine nj nk) := by
    unfold tersG
    simp only
    rw [mul_one_div, show p.d nj.col0 ^ 2 + (cosine nj nk - p.h nj.col0) ^ 2 =
      p.d nj.col0 * p.d nj.col0 + (p.h nj.col0 - cosine nj nk) * (p.h nj.col0 - cosine nj nk) by ring, sq, sq]
  rw [e3]
  by_cases h : nk.r < p.S nk.col0
  · rw [if_pos h, if_pos h]
    ring
  · rw [if_neg h, if_neg h, zero_mul]

theorem tersSum_nonneg (p : TersPars ℝ) (hp : ∀ col, TersOk p col) (nj : Neigh ℝ) (others : List (Neigh ℝ)) :
    0 ≤ tersSum realLib p nj others := by
  apply List.sum_nonneg
  intro x hx
  obtain ⟨y, -, rfl⟩ := List.mem_map.1 hx
  exact tersZ_nonneg p hp nj y

/-- Bond energy of the fitted potential with the pair part. -/
theorem ters_bond_energy (p : TersPars ℝ) (hp : ∀ col, TersOk p col) (i : Nat) (nj : Neigh ℝ) (others : List (Neigh ℝ)) :
    1 / 2 * pairVal (tersPots realLib p) nj + (tersTerm realLib p i nj others).energy =
      1 / 2 * ((if nj.r < p.S nj.col0 then tersF realLib p nj.col0 nj.r else 0) * (p.A nj.col0 * Real.exp (-p.lambda nj.col0 * nj.r) +
        (1 + p.gamma nj.col0 ^ p.n nj.col0 * tersSum realLib p nj others ^ p.n nj.col0) ^ (-1 / (2 * p.n nj.col0)) *
          (-p.B nj.col0 * Real.exp (-p.mu nj.col0 * nj.r)))) := by
  rw [← Real.mul_rpow (hp _).gamma.le (tersSum_nonneg p hp nj others)]
  unfold tersTerm
  by_cases h : nj.r < p.S nj.col0
  · have e1 : pairVal (tersPots realLib p) nj = tersF realLib p nj.col0 nj.r * p.A nj.col0 * Real.exp (-p.lambda nj.col0 * nj.r) := if_pos h
    rw [e1, if_pos h]
    by_cases hB : p.B nj.col0 = 0
    · rw [if_neg (by tauto), hB]
      ring
    · rw [if_pos ⟨h, hB⟩]
      simp only [bondTerm, tersE, realLib]
      ring
  · have e1 : pairVal (tersPots realLib p) nj = 0 := if_neg h
    rw [e1, if_neg h, if_neg (by tauto)]
    ring

/-- **C62 if the columns have common cut-offs and `omega`, and `chi` is 1**, as is always the case for one type of atoms: LAMMPS
assigns to every atom the energy `calc_forces` adds for it.  Missing for the full claim: different columns, see
`C62_chi_violated`, `C62_omega_violated` and `C62_cutoff_violated`. -/
theorem C62_partial (b : Build) (p : TersPars ℝ) (chi : Nat → ℝ) (hp : ∀ col, TersOk p col) (hu : Uniform p chi) (n i : Nat)
    (c : Conf ℝ) (hf : c.uf = true) (a : Atom ℝ) (ha : Typed n i a) (s : Acc ℝ) :
    (tersAtom b realLib p c i a s).energy = s.energy + lamSite (entry p chi n) a := by
  rw [tersAtom_plus b realLib p c hf]
  simp only [plus]
  rw [site_energy _ _ _ _ fun m hm => (ha m hm).2]
  congr 1
  unfold lamSite
  rw [← List.sum_map_mul_left]
  congr 1
  apply List.map_congr_left
  intro q hq
  obtain ⟨h1, -⟩ := mem_othersOf hq
  rw [ters_bond_energy p hp]
  unfold lamBond
  rw [lamZeta_eq p chi hp hu n i a ha q.1 h1]
  have hc := (ha q.1 h1).1
  simp only [entry, ← hc, hu.chi, mul_one]
  rw [lamCut_eq p _ (hp _).range]

/-! ### Disagreement -/

theorem site_one (e : Nat → Nat → Nat → TersEntry ℝ) (a : Atom ℝ) (nj : Neigh ℝ) (ha : a.neigh = [nj]) :
    lamSite e a = 1 / 2 * lamBond e a.typ nj [] := by
  unfold lamSite
  rw [ha]
  simp [othersOf]

/-- **C62 is violated if `chi` is not 1**: `chi` is part of the exported potential only.  An atom with one neighbour within the range
has different energies whenever the attractive part does not vanish. -/
theorem C62_chi_violated (b : Build) (p : TersPars ℝ) (chi : Nat → ℝ) (hp : ∀ col, TersOk p col) (n i : Nat) (c : Conf ℝ)
    (hf : c.uf = true) (a : Atom ℝ) (ha : Typed n i a) (nj : Neigh ℝ) (hn : a.neigh = [nj]) (hr : nj.r < p.S nj.col0)
    (hB : p.B nj.col0 ≠ 0) (hchi : chi nj.col0 ≠ 1) (s : Acc ℝ) :
    (tersAtom b realLib p c i a s).energy ≠ s.energy + lamSite (entry p chi n) a := by
  rw [tersAtom_plus b realLib p c hf]
  simp only [plus]
  rw [site_energy _ _ _ _ fun m hm => (ha m hm).2, site_one _ _ _ hn, hn]
  simp only [othersOf, List.map_cons, List.map_nil, List.sum_cons, List.sum_nil, add_zero, List.nil_append]
  rw [ters_bond_energy p hp]
  have hc := (ha nj (by rw [hn]; simp)).1
  unfold lamBond
  simp only [entry, ← hc, lamZeta, tersSum, List.map_nil, List.sum_nil]
  rw [lamCut_eq p _ (hp _).range, if_pos hr, Real.zero_rpow (hp _).n.ne', mul_zero, add_zero, Real.one_rpow, one_mul, one_mul]
  have h1 := tersF_pos p nj.col0 (hp _).range hr
  have h2 := Real.exp_pos (-p.mu nj.col0 * nj.r)
  intro h
  apply hchi
  have h3 : tersF realLib p nj.col0 nj.r * (p.B nj.col0 * Real.exp (-p.mu nj.col0 * nj.r)) * (chi nj.col0 - 1) = 0 := by linarith
  rcases mul_eq_zero.1 h3 with h4 | h4
  · exact absurd h4 (mul_ne_zero h1.ne' (mul_ne_zero hB h2.ne'))
  · linarith

/-- Bond orders of different `zeta` differ. -/
theorem bondOrder_inj {gamma n z z' : ℝ} (hg : 0 < gamma) (hn : 0 < n) (hz : 0 ≤ z) (hz' : 0 ≤ z')
    (h : (1 + gamma ^ n * z ^ n) ^ (-1 / (2 * n)) = (1 + gamma ^ n * z' ^ n) ^ (-1 / (2 * n))) : z = z' := by
  have hgn : 0 < gamma ^ n := Real.rpow_pos_of_pos hg n
  have h1 : 0 ≤ z ^ n := Real.rpow_nonneg hz n
  have h2 : 0 ≤ z' ^ n := Real.rpow_nonneg hz' n
  have h3 : -1 / (2 * n) ≠ 0 := by
    apply div_ne_zero (by norm_num)
    positivity
  have h4 := (Real.rpow_left_inj (by positivity) (by positivity) h3).1 h
  have h5 : z ^ n = z' ^ n := by
    have : gamma ^ n * z ^ n = gamma ^ n * z' ^ n := by linarith
    exact mul_left_cancel₀ hgn.ne' this
  exact (Real.rpow_left_inj hz hz' hn.ne').1 h5

/-- **C62 is violated if the columns have different `omega`**, with `chi = 1` and common cut-offs: the line `i j k` gets `omega` of
`i j` although the fitted potential takes that of `i k`.  Here the bond to the second neighbour is switched off. -/
theorem C62_omega_violated (b : Build) (p : TersPars ℝ) (chi : Nat → ℝ) (hp : ∀ col, TersOk p col) (hchi : ∀ col, chi col = 1)
    (hR : ∀ col col', p.R col = p.R col') (hS : ∀ col col', p.S col = p.S col') (n i : Nat) (c : Conf ℝ) (hf : c.uf = true)
    (a : Atom ℝ) (ha : Typed n i a) (nj nk : Neigh ℝ) (hn : a.neigh = [nj, nk]) (hr : nj.r < p.S nj.col0) (hr' : nk.r < p.S nk.col0)
    (hB : p.B nj.col0 ≠ 0) (hB' : p.B nk.col0 = 0) (ho : p.omega nj.col0 ≠ p.omega nk.col0) (s : Acc ℝ) :
    (tersAtom b realLib p c i a s).energy ≠ s.energy + lamSite (entry p chi n) a := by
  rw [tersAtom_plus b realLib p c hf]
  simp only [plus]
  rw [site_energy _ _ _ _ fun m hm => (ha m hm).2]
  unfold lamSite
  rw [hn]
  simp only [othersOf, List.map_cons, List.map_nil, List.sum_cons, List.sum_nil, add_zero, List.nil_append]
  rw [ters_bond_energy p hp, ters_bond_energy p hp]
  have hc := (ha nj (by rw [hn]; simp)).1
  have hc' := (ha nk (by rw [hn]; simp)).1
  have hz : lamZeta (entry p chi n) a.typ nj [nk] = p.omega nj.col0 * (tersF realLib p nk.col0 nk.r * tersG p nj.col0 (cosine nj nk)) := by
    have hu : Uniform { p with omega := fun _ => p.omega nj.col0 } chi := ⟨hchi, fun _ _ => rfl, hR, hS⟩
    have h1 := lamZeta_eq { p with omega := fun _ => p.omega nj.col0 } chi
      (fun col => ⟨(hp col).range, (hp col).gamma, (hp col).n, (hp col).d, (hp nj.col0).omega⟩) hu n i a ha nj (by rw [hn]; simp) [nk]
    have h2 : lamZeta (entry { p with omega := fun _ => p.omega nj.col0 } chi n) a.typ nj [nk] = lamZeta (entry p chi n) a.typ nj [nk] := by
      unfold lamZeta
      simp only [List.map_cons, List.map_nil, entry, ← hc]
    rw [← h2, h1]
    simp only [tersSum, List.map_cons, List.map_nil, List.sum_cons, List.sum_nil, add_zero]
    unfold tersZ
    rw [if_pos hr']
    have e1 : tersF realLib { p with omega := fun _ => p.omega nj.col0 } nk.col0 nk.r = tersF realLib p nk.col0 nk.r := rfl
    have e2 : tersG { p with omega := fun _ => p.omega nj.col0 } nj.col0 (cosine nj nk) = tersG p nj.col0 (cosine nj nk) := rfl
    rw [e1, e2]
    ring
  have hz' : tersSum realLib p nj [nk] = p.omega nk.col0 * (tersF realLib p nk.col0 nk.r * tersG p nj.col0 (cosine nj nk)) := by
    simp only [tersSum, List.map_cons, List.map_nil, List.sum_cons, List.sum_nil, add_zero]
    unfold tersZ
    rw [if_pos hr']
    ring
  have hp1 := tersF_pos p nk.col0 (hp _).range hr'
  have hp2 := tersG_pos p nj.col0 (hp _).d (cosine nj nk)
  have hp3 := (hp nj.col0).omega
  have hp4 := (hp nk.col0).omega
  have hne : lamZeta (entry p chi n) a.typ nj [nk] ≠ tersSum realLib p nj [nk] := by
    rw [hz, hz']
    intro h
    exact ho (mul_right_cancel₀ (mul_pos hp1 hp2).ne' h)
  have hz0 : 0 ≤ lamZeta (entry p chi n) a.typ nj [nk] := by rw [hz]; positivity
  have hz0' := tersSum_nonneg p hp nj [nk]
  have key := mt (bondOrder_inj (hp nj.col0).gamma (hp nj.col0).n hz0 hz0') hne
  have f1 := tersF_pos p nj.col0 (hp _).range hr
  have f2 := Real.exp_pos (-p.mu nj.col0 * nj.r)
  unfold lamBond
  simp only [entry, ← hc, ← hc', hchi, mul_one, hB', neg_zero, zero_mul, mul_zero, add_zero]
  rw [lamCut_eq p _ (hp _).range, lamCut_eq p _ (hp _).range, if_pos hr, if_pos hr']
  change _ ≠ s.energy + 1 / 2 * (_ * (_ + (1 + p.gamma nj.col0 ^ p.n nj.col0 * lamZeta (entry p chi n) a.typ nj [nk] ^ p.n nj.col0) ^ _ * _) + _)
  generalize (1 + p.gamma nj.col0 ^ p.n nj.col0 * lamZeta (entry p chi n) a.typ nj [nk] ^ p.n nj.col0) ^ (-1 / (2 * p.n nj.col0)) = x at key ⊢
  generalize (1 + p.gamma nj.col0 ^ p.n nj.col0 * tersSum realLib p nj [nk] ^ p.n nj.col0) ^ (-1 / (2 * p.n nj.col0)) = y at key ⊢
  intro h
  apply key
  have h3 : tersF realLib p nj.col0 nj.r * (p.B nj.col0 * Real.exp (-p.mu nj.col0 * nj.r)) * (x - y) = 0 := by linarith
  rcases mul_eq_zero.1 h3 with h4 | h4
  · exact absurd h4 (mul_ne_zero f1.ne' (mul_ne_zero hB f2.ne'))
  · linarith

/-- **C62 is violated if the columns have different cut-offs**, with `chi = 1` and common `omega`: the line `i j k` gets the cut-off of
`i j` although the fitted potential takes that of `i k`.  Here the second neighbour is out of its range, but in that of the first. -/
theorem C62_cutoff_violated (b : Build) (p : TersPars ℝ) (chi : Nat → ℝ) (hp : ∀ col, TersOk p col) (hchi : ∀ col, chi col = 1)
    (n i : Nat) (c : Conf ℝ) (hf : c.uf = true) (a : Atom ℝ) (ha : Typed n i a) (nj nk : Neigh ℝ) (hn : a.neigh = [nj, nk])
    (hr : nj.r < p.S nj.col0) (hr' : p.S nk.col0 ≤ nk.r) (hr'' : nk.r < p.S nj.col0) (hB : p.B nj.col0 ≠ 0) (s : Acc ℝ) :
    (tersAtom b realLib p c i a s).energy ≠ s.energy + lamSite (entry p chi n) a := by
  rw [tersAtom_plus b realLib p c hf]
  simp only [plus]
  rw [site_energy _ _ _ _ fun m hm => (ha m hm).2]
  unfold lamSite
  rw [hn]
  simp only [othersOf, List.map_cons, List.map_nil, List.sum_cons, List.sum_nil, add_zero, List.nil_append]
  rw [ters_bond_energy p hp, ters_bond_energy p hp]
  have hc := (ha nj (by rw [hn]; simp)).1
  have hc' := (ha nk (by rw [hn]; simp)).1
  have hz : 0 < lamZeta (entry p chi n) a.typ nj [nk] := by
    unfold lamZeta
    simp only [List.map_cons, List.map_nil, List.sum_cons, List.sum_nil, add_zero, entry, ← hc]
    rw [lamCut_eq p _ (hp _).range, if_pos hr'']
    have h1 := tersF_pos p nj.col0 (hp _).range hr''
    have h2 := tersG_pos p nj.col0 (hp _).d (cosine nj nk)
    have h3 := (hp nj.col0).omega
    have e3 : 1 + p.c nj.col0 ^ 2 / p.d nj.col0 ^ 2 - p.c nj.col0 ^ 2 / (p.d nj.col0 ^ 2 + (cosine nj nk - p.h nj.col0) ^ 2) =
        tersG p nj.col0 (cosine nj nk) := by
      unfold tersG
      simp only
      rw [mul_one_div, show p.d nj.col0 ^ 2 + (cosine nj nk - p.h nj.col0) ^ 2 =
        p.d nj.col0 * p.d nj.col0 + (p.h nj.col0 - cosine nj nk) * (p.h nj.col0 - cosine nj nk) by ring, sq, sq]
    rw [e3]
    have h4 := Real.exp_pos ((0 : ℝ) ^ (1 : ℝ) * (nj.r - nk.r) ^ (1 : ℝ))
    positivity
  have hz' : tersSum realLib p nj [nk] = 0 := by
    simp only [tersSum, List.map_cons, List.map_nil, List.sum_cons, List.sum_nil, add_zero]
    unfold tersZ
    rw [if_neg (not_lt.2 hr')]
  have hne : lamZeta (entry p chi n) a.typ nj [nk] ≠ tersSum realLib p nj [nk] := by
    rw [hz']
    exact hz.ne'
  have key := mt (bondOrder_inj (hp nj.col0).gamma (hp nj.col0).n hz.le hz'.ge) hne
  have f1 := tersF_pos p nj.col0 (hp _).range hr
  have f2 := Real.exp_pos (-p.mu nj.col0 * nj.r)
  unfold lamBond
  simp only [entry, ← hc, ← hc', hchi, mul_one]
  rw [lamCut_eq p _ (hp _).range, lamCut_eq p _ (hp _).range, if_pos hr, if_neg (not_lt.2 hr')]
  change _ ≠ s.energy + 1 / 2 * (_ * (_ + (1 + p.gamma nj.col0 ^ p.n nj.col0 * lamZeta (entry p chi n) a.typ nj [nk] ^ p.n nj.col0) ^ _ * _) + _)
  generalize (1 + p.gamma nj.col0 ^ p.n nj.col0 * lamZeta (entry p chi n) a.typ nj [nk] ^ p.n nj.col0) ^ (-1 / (2 * p.n nj.col0)) = x at key ⊢
  generalize (1 + p.gamma nj.col0 ^ p.n nj.col0 * tersSum realLib p nj [nk] ^ p.n nj.col0) ^ (-1 / (2 * p.n nj.col0)) = y at key ⊢
  intro h
  apply key
  have h3 : tersF realLib p nj.col0 nj.r * (p.B nj.col0 * Real.exp (-p.mu nj.col0 * nj.r)) * (x - y) = 0 := by linarith
  rcases mul_eq_zero.1 h3 with h4 | h4
  · exact absurd h4 (mul_ne_zero f1.ne' (mul_ne_zero hB f2.ne'))
  · linarith

/-! ### Modified Tersoff -/

/-- The lines written, if no `delta` vanishes. -/
noncomputable def modLine (p : TersModPars ℝ) (n i j _k : Nat) : ModEntry ℝ where
  beta := p.beta (pairCol n i j)
  alpha := p.alpha (pairCol n i j)
  h := p.h (pairCol n i j)
  eta := p.eta (pairCol n i j)
  betaTers := 1
  lambda2 := p.mu (pairCol n i j)
  B := p.B (pairCol n i j)
  R := 1 / 2 * (p.R1 (pairCol n i j) + p.R2 (pairCol n i j))
  D := 1 / 2 * (p.R2 (pairCol n i j) - p.R1 (pairCol n i j))
  lambda1 := p.lambda (pairCol n i j)
  A := p.A (pairCol n i j)
  n := 1 / (2 * p.delta (pairCol n i j))
  c1 := p.c1 (pairCol n i j)
  c2 := p.c2 (pairCol n i j)
  c3 := p.c3 (pairCol n i j)
  c4 := p.c4 (pairCol n i j)
  c5 := p.c5 (pairCol n i j)

theorem modEntry_ok (p : TersModPars ℝ) (n i j k : Nat) (hd : p.delta (pairCol n i j) ≠ 0) :
    modEntry p n i j k = .ok (modLine p n i j k) := by
  unfold modEntry
  simp only
  rw [cdiv_ok (by simpa using hd)]
  rfl

theorem mod_bond_energy (p : TersModPars ℝ) (i : Nat) (nj : Neigh ℝ) (others : List (Neigh ℝ)) :
    1 / 2 * pairVal (modPots realLib p) nj + (modTerm realLib p i nj others).energy =
      1 / 2 * ((if nj.r < p.R2 nj.col0 then modF realLib p nj.col0 nj.r else 0) * (p.A nj.col0 * Real.exp (-p.lambda nj.col0 * nj.r) +
        (1 + modSum realLib p nj others ^ p.eta nj.col0) ^ (-p.delta nj.col0) * (-p.B nj.col0 * Real.exp (-p.mu nj.col0 * nj.r)))) := by
  unfold modTerm
  by_cases h : nj.r < p.R2 nj.col0
  · have e1 : pairVal (modPots realLib p) nj = modF realLib p nj.col0 nj.r * p.A nj.col0 * Real.exp (-p.lambda nj.col0 * nj.r) := if_pos h
    rw [e1, if_pos h]
    by_cases hB : p.B nj.col0 = 0
    · rw [if_neg (by tauto), hB]
      ring
    · rw [if_pos ⟨h, hB⟩]
      simp only [bondTerm, modE, realLib]
      ring
  · have e1 : pairVal (modPots realLib p) nj = 0 := if_neg h
    rw [e1, if_neg h, if_neg (by tauto)]
    ring

theorem lamModZeta_line (p : TersModPars ℝ) (hp : ∀ col, ModOk p col) (n i : Nat) (a : Atom ℝ)
    (ha : Typed n i a) (nj : Neigh ℝ) (hj : nj ∈ a.neigh) (others : List (Neigh ℝ)) :
    lamModZeta (modLine p n) a.typ nj others = (others.map fun nk =>
      (if nk.r < p.R2 nj.col0 then modF realLib p nj.col0 nk.r else 0) * modG realLib p nj.col0 (cosine nj nk) * modExp realLib p nj nk).sum := by
  unfold lamModZeta
  congr 1
  apply List.map_congr_left
  intro nk _
  have hc := (ha nj hj).1
  simp only [modLine, ← hc]
  rw [lamModCut_eq p _ (hp _).range]
  congr 2
  unfold modG
  simp only [realLib]
  rw [show -p.c5 nj.col0 * (p.h nj.col0 - cosine nj nk) * (p.h nj.col0 - cosine nj nk) = -p.c5 nj.col0 * (p.h nj.col0 - cosine nj nk) ^ 2 by ring,
    show p.c3 nj.col0 + (p.h nj.col0 - cosine nj nk) * (p.h nj.col0 - cosine nj nk) = p.c3 nj.col0 + (p.h nj.col0 - cosine nj nk) ^ 2 by ring]
  ring

theorem lamModBond_line (p : TersModPars ℝ) (hp : ∀ col, ModOk p col) (hd : ∀ col, p.delta col ≠ 0) (n i : Nat) (a : Atom ℝ)
    (ha : Typed n i a) (nj : Neigh ℝ) (hj : nj ∈ a.neigh) (others : List (Neigh ℝ)) :
    lamModBond (modLine p n) a.typ nj others =
      (if nj.r < p.R2 nj.col0 then modF realLib p nj.col0 nj.r else 0) * (p.A nj.col0 * Real.exp (-p.lambda nj.col0 * nj.r) +
        (1 + lamModZeta (modLine p n) a.typ nj others ^ p.eta nj.col0) ^ (-p.delta nj.col0) * (-p.B nj.col0 * Real.exp (-p.mu nj.col0 * nj.r))) := by
  unfold lamModBond
  have hc := (ha nj hj).1
  generalize lamModZeta (modLine p n) a.typ nj others = z
  simp only [modLine, ← hc]
  have e : -1 / (2 * (1 / (2 * p.delta nj.col0))) = -p.delta nj.col0 := by
    have := hd nj.col0
    field_simp
  rw [lamModCut_eq p _ (hp _).range, e]

/-- **C62 for the modified potential if the columns have common cut-offs.**  Missing for the full claim: different cut-offs, see
`C62_mod_cutoff_violated`. -/
theorem C62_mod_partial (b : Build) (p : TersModPars ℝ) (hp : ∀ col, ModOk p col) (hd : ∀ col, p.delta col ≠ 0)
    (h1 : ∀ col col', p.R1 col = p.R1 col') (h2 : ∀ col col', p.R2 col = p.R2 col') (n i : Nat) (c : Conf ℝ) (hf : c.uf = true)
    (a : Atom ℝ) (ha : Typed n i a) (s : Acc ℝ) :
    (∀ j k, modEntry p n a.typ j k = .ok (modLine p n a.typ j k)) ∧
      (modAtom b realLib p c i a s).energy = s.energy + lamModSite (modLine p n) a := by
  refine ⟨fun j k => modEntry_ok p n a.typ j k (hd _), ?_⟩
  rw [modAtom_plus b realLib p c hf]
  simp only [plus]
  rw [site_energy _ _ _ _ fun m hm => (ha m hm).2]
  congr 1
  unfold lamModSite
  rw [← List.sum_map_mul_left]
  congr 1
  apply List.map_congr_left
  intro q hq
  obtain ⟨hq1, -⟩ := mem_othersOf hq
  rw [mod_bond_energy, lamModBond_line p hp hd n i a ha q.1 hq1]
  have hz : lamModZeta (modLine p n) a.typ q.1 q.2 = modSum realLib p q.1 q.2 := by
    rw [lamModZeta_line p hp n i a ha q.1 hq1]
    unfold modSum
    congr 1
    apply List.map_congr_left
    intro nk _
    unfold modZ
    rw [h2 q.1.col0 nk.col0]
    have e : modF realLib p q.1.col0 nk.r = modF realLib p nk.col0 nk.r := by
      unfold modF
      rw [h1 q.1.col0 nk.col0, h2 q.1.col0 nk.col0]
    rw [e]
    by_cases h : nk.r < p.R2 nk.col0
    · rw [if_pos h, if_pos h]
    · rw [if_neg h, if_neg h, zero_mul, zero_mul]
  rw [hz]

/-- **C62 is violated for the modified potential if the columns have different cut-offs.** -/
theorem C62_mod_cutoff_violated (b : Build) (p : TersModPars ℝ) (hp : ∀ col, ModOk p col) (hd : ∀ col, p.delta col ≠ 0)
    (n i : Nat) (c : Conf ℝ) (hf : c.uf = true) (a : Atom ℝ) (ha : Typed n i a) (nj nk : Neigh ℝ) (hn : a.neigh = [nj, nk])
    (he : p.eta nj.col0 ≠ 0) (hr : nj.r < p.R2 nj.col0) (hr' : p.R2 nk.col0 ≤ nk.r) (hr'' : nk.r < p.R2 nj.col0) (hB : p.B nj.col0 ≠ 0)
    (s : Acc ℝ) : (modAtom b realLib p c i a s).energy ≠ s.energy + lamModSite (modLine p n) a := by
  rw [modAtom_plus b realLib p c hf]
  simp only [plus]
  rw [site_energy _ _ _ _ fun m hm => (ha m hm).2]
  have mj : nj ∈ a.neigh := by rw [hn]; simp
  have mk : nk ∈ a.neigh := by rw [hn]; simp
  unfold lamModSite
  rw [hn]
  simp only [othersOf, List.map_cons, List.map_nil, List.sum_cons, List.sum_nil, add_zero, List.nil_append]
  rw [mod_bond_energy, mod_bond_energy, lamModBond_line p hp hd n i a ha nj mj, lamModBond_line p hp hd n i a ha nk mk, if_pos hr,
    if_neg (not_lt.2 hr')]
  have hz : 0 < lamModZeta (modLine p n) a.typ nj [nk] := by
    rw [lamModZeta_line p hp n i a ha nj mj]
    simp only [List.map_cons, List.map_nil, List.sum_cons, List.sum_nil, add_zero]
    rw [if_pos hr'']
    have h1 := modF_pos p nj.col0 (hp _).range hr''
    have h2 := modG_pos p nj.col0 (hp _) (cosine nj nk)
    have h3 : 0 < modExp realLib p nj nk := Real.exp_pos _
    positivity
  have hz' : modSum realLib p nj [nk] = 0 := by
    simp only [modSum, List.map_cons, List.map_nil, List.sum_cons, List.sum_nil, add_zero]
    unfold modZ
    rw [if_neg (not_lt.2 hr')]
  rw [hz', Real.zero_rpow he, add_zero, Real.one_rpow]
  have h1 : 0 < lamModZeta (modLine p n) a.typ nj [nk] ^ p.eta nj.col0 := Real.rpow_pos_of_pos hz _
  have key : (1 + lamModZeta (modLine p n) a.typ nj [nk] ^ p.eta nj.col0) ^ (-p.delta nj.col0) ≠ 1 := by
    intro h
    have h2 : (1 + lamModZeta (modLine p n) a.typ nj [nk] ^ p.eta nj.col0) ^ (-p.delta nj.col0) = (1 : ℝ) ^ (-p.delta nj.col0) := by
      rw [h, Real.one_rpow]
    have h3 := (Real.rpow_left_inj (by positivity) zero_le_one (neg_ne_zero.2 (hd _))).1 h2
    linarith
  generalize (1 + lamModZeta (modLine p n) a.typ nj [nk] ^ p.eta nj.col0) ^ (-p.delta nj.col0) = x at key ⊢
  have f1 := modF_pos p nj.col0 (hp _).range hr
  have f2 := Real.exp_pos (-p.mu nj.col0 * nj.r)
  intro h
  apply key
  have h3 : modF realLib p nj.col0 nj.r * (p.B nj.col0 * Real.exp (-p.mu nj.col0 * nj.r)) * (x - 1) = 0 := by linarith
  rcases mul_eq_zero.1 h3 with h4 | h4
  · exact absurd h4 (mul_ne_zero f1.ne' (mul_ne_zero hB f2.ne'))
  · linarith

/-! ### Examples -/

/-- An atom of type 0 between one of type 0 and one of type 1. -/
noncomputable def between : Atom ℝ :=
  ⟨0, [⟨1, 0, 2, ![2, 0, 0], ![1, 0, 0], 0, 0⟩, ⟨2, 1, 2, ![0, 2, 0], ![0, 1, 0], 1, 0⟩], 1, true⟩

/-- A potential with equal columns meets the hypotheses of the agreement. -/
example : (∀ col, TersOk someTersoff col) ∧ Uniform someTersoff (fun _ => 1) ∧ Typed 2 0 between := by
  refine ⟨fun col => ⟨?_, ?_, ?_, ?_, ?_⟩, ⟨fun _ => rfl, fun _ _ => rfl, fun _ _ => rfl, fun _ _ => rfl⟩, ?_⟩
  iterate 5 norm_num [someTersoff]
  intro m hm
  simp only [between, List.mem_cons, List.not_mem_nil, or_false] at hm
  rcases hm with rfl | rfl <;> exact ⟨rfl, by decide⟩

/-- One with a shorter range in column 1 meets those of the disagreement. -/
example : (∀ col, TersOk { someTersoff with R := fun c => if c = 1 then 1 else 3, S := fun c => if c = 1 then 3 / 2 else 4 } col) ∧
    (2 : ℝ) < 4 ∧ (3 / 2 : ℝ) ≤ 2 ∧ Typed 2 0 between := by
  refine ⟨fun col => ⟨?_, ?_, ?_, ?_, ?_⟩, by norm_num, by norm_num, ?_⟩
  · simp only
    by_cases h : col = 1 <;> simp [h] <;> norm_num
  iterate 4 norm_num [someTersoff]
  intro m hm
  simp only [between, List.mem_cons, List.not_mem_nil, or_false] at hm
  rcases hm with rfl | rfl <;> exact ⟨rfl, by decide⟩

end Verif.Props
