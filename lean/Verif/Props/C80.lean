/-
C80  The catalogue of analytic functions.

Names are found, each function reads the parameters it declares and no others, and its value is the one described in
`util/potfit/functions.py` except for five functions.
-/
import Verif.Spec.Catalogue
import Verif.Lemmas.Catalogue
import Verif.Model.StiwebFunctions
import Mathlib.Analysis.SpecialFunctions.Pow.Deriv
import Mathlib.Analysis.SpecialFunctions.Trigonometric.Deriv
import Mathlib.Analysis.SpecialFunctions.Trigonometric.InverseDeriv
import Mathlib.Analysis.SpecialFunctions.ExpDeriv
import Mathlib.Analysis.SpecialFunctions.Log.Deriv
import Mathlib.Analysis.SpecialFunctions.Sqrt
import Mathlib.Data.Sym.Card
import Mathlib.Tactic.IntervalCases
import Mathlib.Tactic.NormNum
import Mathlib.Tactic.Linarith
import Mathlib.Tactic.Ring
import Mathlib.Tactic.FieldSimp
import Mathlib.Tactic.FunProp

namespace Verif.Props

open Verif.Catalogue Verif.Spec

/-! ### The table -/

/-- In every build the table holds the functions of the list with their names and numbers of parameters; no name occurs twice. -/
theorem C80_table (o : Options) (ntypes : Nat) :
    initTable o ntypes = some ((items o).map fun f => ⟨f.name, f.nPar ntypes, f⟩) ∧ ((items o).map Fn.name).Nodup := by
  refine ⟨?_, items_names_nodup o⟩
  have := initTable_from ntypes (items o) [] (by simpa using items_names_nodup o)
  simpa [initTable] using this

/-- The number of parameters of `lambda` is the number of bond angles by type: the type of the atom in the middle and the two types,
in any order, of its neighbours. -/
theorem C80_lambda (ntypes : Nat) : Fn.nPar ntypes .lambda = Fintype.card (Fin ntypes × Sym2 (Fin ntypes)) := by
  rw [Fintype.card_prod, Sym2.card, Fintype.card_fin, Nat.choose_two_right, Nat.add_sub_cancel, mul_comm (ntypes + 1) ntypes]
  show ntypes * ntypes * (ntypes + 1) / 2 = _
  rw [mul_assoc, Nat.mul_div_assoc _ (Nat.even_mul_succ_self ntypes).two_dvd]

/-- A name stands for the function of that name, with the number of parameters declared for it; other names are refused. -/
theorem C80_lookup (o : Options) (ntypes : Nat) (t : List Entry) (ht : initTable o ntypes = some t) (name : String) :
    (∀ f ∈ items o, f.name = name → getNumParameters t name = f.nPar ntypes ∧ assignPointers t [name] = some [f]) ∧
    ((∀ f ∈ items o, f.name ≠ name) → getNumParameters t name = -1 ∧ assignPointers t [name] = none) := by
  rw [(C80_table o ntypes).1, Option.some.injEq] at ht
  subst ht
  unfold getNumParameters assignPointers
  simp only [find_name, List.mapM_cons, List.mapM_nil]
  constructor
  · intro f hf hn
    have : (items o).find? (fun f => f.name == name) = some f := by
      have hnd := items_names_nodup o
      generalize items o = l at hf hnd
      induction l with
      | nil => simp at hf
      | cons g l ih =>
        rw [List.find?_cons]
        by_cases hg : g.name = name
        · rw [show (g.name == name) = true by simpa using hg]
          rcases List.mem_cons.1 hf with rfl | hf'
          · rfl
          · exfalso
            rw [List.map_cons, List.nodup_cons] at hnd
            exact hnd.1 (by rw [hg, ← hn]; exact List.mem_map_of_mem hf')
        · rw [show (g.name == name) = false by simpa using hg]
          rcases List.mem_cons.1 hf with rfl | hf'
          · exact absurd hn hg
          · exact ih hf' (List.nodup_cons.1 (by simpa using hnd)).2
    rw [this]
    exact ⟨rfl, rfl⟩
  · intro h
    have : (items o).find? (fun f => f.name == name) = none := by
      rw [List.find?_eq_none]
      intro f hf
      simpa using h f hf
    rw [this]
    exact ⟨rfl, rfl⟩

/-- The pointers of a potential file are those of its names. -/
theorem C80_assigned (o : Options) (ntypes : Nat) (t : List Entry) (ht : initTable o ntypes = some t) (names : List String)
    (fs : List Fn) (h : assignPointers t names = some fs) :
    fs.map Fn.name = names ∧ (∀ f ∈ fs, f ∈ items o) ∧
      names.map (getNumParameters t) = fs.map fun f => (f.nPar ntypes : Int) := by
  induction names generalizing fs with
  | nil =>
    have : fs = [] := by
      simp [assignPointers] at h
      exact h
    subst this
    simp
  | cons n ns ih =>
    unfold assignPointers at h
    rw [List.mapM_cons] at h
    cases h1 : (t.find? fun e => e.name == n) with
    | none => simp [h1] at h
    | some e =>
      simp only [h1, Option.map_some, Option.bind_eq_bind, Option.bind_some] at h
      cases h2 : (ns.mapM fun name => (t.find? (fun e => e.name == name)).map Entry.fn) with
      | none => simp [h2] at h
      | some gs =>
        simp only [h2, Option.bind_some, Option.pure_def, Option.some.injEq] at h
        subst h
        obtain ⟨i1, i2, i3⟩ := ih gs h2
        have ht' := ht
        rw [(C80_table o ntypes).1, Option.some.injEq] at ht'
        have hmem := List.mem_of_find?_eq_some h1
        have hn : e.name = n := by simpa using List.find?_some h1
        rw [← ht', List.mem_map] at hmem
        obtain ⟨f, hf, rfl⟩ := hmem
        have hn' : f.name = n := hn
        have := ((C80_lookup o ntypes t ht n).1 f hf hn').1
        refine ⟨by simp [hn', i1], ?_, by simp [this, i3]⟩
        intro g hg
        rcases List.mem_cons.1 hg with rfl | hg
        · exact hf
        · exact i2 g hg

/-- Functions which only hold parameters of other routines do not compute a value; all others do. -/
theorem C80_pseudo (coulomb : Option ℝ) (f : Fn) (r : ℝ) (p : Nat → ℝ) :
    value coulomb f r p = none ↔ f = .lambda ∨ f = .tersoffPot ∨ f = .tersoffMix ∨ f = .tersoffModPot := by
  cases f <;> cases coulomb <;> simp [value]

/-! ### Parameters -/

/-- Parameters behind the declared ones (those of the next function) have no influence. -/
theorem C80_declared (coulomb : Option ℝ) (ntypes : Nat) (f : Fn) (r : ℝ) (p p' : Nat → ℝ)
    (h : ∀ j < f.nPar ntypes, p j = p' j) : value coulomb f r p = value coulomb f r p' := by
  cases f <;> first
    | rfl
    | (simp only [Fn.nPar] at h
       cases coulomb <;>
       (simp only [value, msPlain, buckPlain, Verif.Tails.eoppValue, Verif.Tails.eoppExpValue, Verif.Tails.csw2Value]
        try rw [h 0 (by decide)]
        try rw [h 1 (by decide)]
        try rw [h 2 (by decide)]
        try rw [h 3 (by decide)]
        try rw [h 4 (by decide)]
        try rw [h 5 (by decide)]
        try rw [h 6 (by decide)]
        try rw [h 7 (by decide)]
        try rw [h 8 (by decide)]
        try rw [h 9 (by decide)]
        try rw [h 10 (by decide)]
        try rw [h 11 (by decide)]))

/-! ### Formulas -/

/-- The number of parameters `makeapot` writes is the one the program reads, except for `gljm`. -/
theorem C80_numbers_partial (ntypes : Nat) (f : Fn) (d : Described) (h : described f = some d) (hf : f ≠ .gljm) :
    d.nPar = f.nPar ntypes := by
  cases f <;> simp [described] at h hf <;> subst h <;> rfl

/-- The value is the described one. -/
theorem C80_described_partial (f : Fn) (d : Described) (g : ℝ → (Nat → ℝ) → ℝ) (h : described f = some d) (hg : d.formula = some g)
    (hf : f ∉ [Fn.born, .strmm, .vpair, .bjs]) (x : ℝ) (hx : 0 < x) (p : Nat → ℝ) : value none f x p = some (g x p) := by
  have hx0 : x ≠ 0 := hx.ne'
  cases f <;> simp only [described, Option.some.injEq, reduceCtorEq] at h <;> subst h <;>
    simp only [Option.some.injEq, reduceCtorEq] at hg <;> subst hg <;>
    simp only [value, msPlain, buckPlain, Verif.Tails.eoppValue, Verif.Tails.eoppExpValue, Verif.Tails.csw2Value,
      Option.some.injEq] <;>
    first
    | rfl
    | ring1
    | (field_simp; done)
    | skip
  · have : Real.exp (-2 * p 1 * (x - p 2)) = Real.exp (-p 1 * (x - p 2)) ^ 2 := by
      rw [← Real.exp_nat_mul]
      congr 1
      push_cast
      ring
    rw [this]
    ring
  · simp at hf
  · rw [Real.div_rpow zero_le_one hx.le, Real.one_rpow]
    ring
  · simp at hf
  · simp at hf
  · simp at hf

/-- `ms_non_es` and `buck_non_es` are, with electrostatics, what `ms` and `buck` are without. -/
theorem C80_non_es (coulomb : Option ℝ) (x : ℝ) (p : Nat → ℝ) :
    value coulomb .msNonEs x p = value none .ms x p ∧ value coulomb .buckNonEs x p = value none .buck x p := ⟨rfl, rfl⟩

/-- Electrostatics changes no function but `ms` and `buck`. -/
theorem C80_coulomb (cut : ℝ) (f : Fn) (x : ℝ) (p : Nat → ℝ) (h : f ≠ .ms) (h' : f ≠ .buck) :
    value (some cut) f x p = value none f x p := by
  cases f <;> first | rfl | exact absurd rfl h | exact absurd rfl h'

/-- Parameters from a list. -/
def par (l : List ℝ) : Nat → ℝ := fun j => l.getD j 0

/-- `born`: the program reads `r_0` third, the tool writes it last. -/
theorem C80_born (x : ℝ) (p : Nat → ℝ) :
    ∃ d g, described .born = some d ∧ d.formula = some g ∧
      value none .born x p = some (g x (par [p 0, p 1, p 3, p 4, p 2])) := by
  refine ⟨_, _, rfl, rfl, ?_⟩
  simp only [value, par, List.getD_cons_zero, List.getD_cons_succ]
  rw [show x * x * (x * x) * (x * x) = x ^ 6 by ring, show x ^ 6 * (x * x) = x ^ 8 by ring]

theorem C80_born_violated : ∃ d g, described .born = some d ∧ d.formula = some g ∧
    value none .born 1 (par [0, 1, 0, 1, 0]) ≠ some (g 1 (par [0, 1, 0, 1, 0])) := by
  refine ⟨_, _, rfl, rfl, ?_⟩
  simp only [value, par, List.getD_cons_zero, List.getD_cons_succ]
  norm_num

/-- `bjs`: a linear term in the program, a constant in the description. -/
theorem C80_bjs_violated (x : ℝ) (p : Nat → ℝ) (hx : 0 < x) (h1 : x ≠ 1) (h2 : p 2 ≠ 0) :
    ∃ d g, described .bjs = some d ∧ d.formula = some g ∧ value none .bjs x p = some (g x p + p 2 * (x - 1)) ∧
      value none .bjs x p ≠ some (g x p) := by
  refine ⟨_, _, rfl, rfl, ?_⟩
  have : value none .bjs x p = some (p 0 * (1 - p 1 * Real.log x) * x ^ p 1 + p 2 + p 2 * (x - 1)) := by
    simp only [value, if_neg hx.ne']
    congr 1
    ring
  refine ⟨this, ?_⟩
  rw [this]
  intro h
  have h' := Option.some.inj h
  have : p 2 * (x - 1) = 0 := by linarith
  rcases mul_eq_zero.1 this with h3 | h3
  · exact h2 h3
  · exact h1 (by linarith)

/-- `strmm`: in the description the exponential is inside of the bracket. -/
theorem C80_strmm_violated (x : ℝ) (p : Nat → ℝ) (h2 : p 2 ≠ 0) (h3 : p 3 ≠ 0) (hx : x ≠ p 4) :
    ∃ d g, described .strmm = some d ∧ d.formula = some g ∧ value none .strmm x p ≠ some (g x p) := by
  refine ⟨_, _, rfl, rfl, ?_⟩
  simp only [value]
  intro h
  have h' := Option.some.inj h
  rw [show -p 1 * (x - p 4) / 2 = -p 1 / 2 * (x - p 4) by ring] at h'
  have h4 : p 2 * (Real.exp (-p 3 * (x - p 4)) - 1) = 0 := by linarith
  rcases mul_eq_zero.1 h4 with h5 | h5
  · exact h2 h5
  · have h6 : Real.exp (-p 3 * (x - p 4)) = 1 := by linarith
    rw [Real.exp_eq_one_iff] at h6
    rcases mul_eq_zero.1 h6 with h7 | h7
    · exact h3 (by linarith)
    · exact hx (by linarith)

/-- `vpair`: the dipole term of the first atom is not divided by the fourth power of the distance (nor is the description right: it
lacks the factor one half). -/
theorem C80_vpair (x : ℝ) (hx : 0 < x) (p : Nat → ℝ) :
    ∃ d g, described .vpair = some d ∧ d.formula = some g ∧
      value none .vpair x p = some (g x p + 14.4 * Real.exp (-x / p 6) *
        (1 / 2 * (p 4 * p 3 * p 3 + p 5 * p 2 * p 2) / x ^ 4 - 1 / 2 * (p 4 * p 3 * p 3) * (1 - 1 / x ^ 4))) := by
  refine ⟨_, _, rfl, rfl, ?_⟩
  simp only [value]
  congr 1
  generalize Real.exp (-x / p 6) = E
  generalize x ^ p 1 = X
  have := hx.ne'
  rw [show x * x * (x * x) = x ^ 4 by ring]
  generalize hy : 1 / x ^ 4 = y
  have hd : ∀ a : ℝ, a / x ^ 4 = a * y := by
    intro a
    rw [← hy]
    ring
  simp only [hd]
  ring

/-- As programmed the two atoms of a pair are not treated alike, and the first atom's term does not decay with the fourth power. -/
theorem C80_vpair_violated : value none .vpair 2 (par [0, 0, 0, 1, 1, 0, 1]) ≠ value none .vpair 2 (par [0, 0, 1, 0, 0, 1, 1]) := by
  simp only [value, par, List.getD_cons_zero, List.getD_cons_succ]
  intro h
  have h' := Option.some.inj h
  have he := Real.exp_pos (-2 / 1)
  norm_num at h'

/-- `gljm`: the tool writes eleven parameters, the program reads twelve. -/
theorem C80_gljm_violated (ntypes : Nat) : ∃ d, described .gljm = some d ∧ d.nPar < Fn.nPar ntypes .gljm := by
  refine ⟨_, rfl, ?_⟩
  simp [Fn.nPar]

/-! ### The functions of the Stillinger-Weber routine -/

/-- Tabulated and directly computed functions agree: the parameters in the order of the file. -/
theorem C80_stiweb (coulomb : Option ℝ) (s : Verif.Force.SwPars) (col : Nat) (r : ℝ) :
    value coulomb .stiweb2 r (par [s.A col, s.B col, s.p col, s.q col, s.delta col, s.a1 col]) = some (Verif.Force.swV2 s col r) ∧
    (r - s.a2 col < -(1 / 100) * s.gamma col →
      value coulomb .stiweb3 r (par [s.gamma col, s.a2 col]) = some (Verif.Force.swF3 s col r)) := by
  constructor
  · simp only [value, par, List.getD_cons_zero, List.getD_cons_succ, Verif.Force.swV2]
    congr 1
    rw [show s.delta col * (1 / (r - s.a1 col)) = s.delta col / (r - s.a1 col) by ring]
    ring
  · intro h
    simp only [value, par, List.getD_cons_zero, List.getD_cons_succ, Verif.Force.swF3, if_pos h]
    rw [show s.gamma col * (1 / (r - s.a2 col)) = s.gamma col / (r - s.a2 col) by ring]

/-! ### Meaning of the parameters -/

/-- Lennard-Jones: zero at `sigma`, depth `epsilon`, attained where `r^6 = 2 sigma^6`. -/
theorem C80_lj (r : ℝ) (hr : 0 < r) (p : Nat → ℝ) (h0 : 0 ≤ p 0) :
    ∃ v, value none .lj r p = some v ∧ -p 0 ≤ v ∧ (r = p 1 → v = 0) ∧ (r ^ 6 = 2 * p 1 ^ 6 → v = -p 0) := by
  refine ⟨_, rfl, ?_, ?_, ?_⟩
  · generalize p 1 * p 1 / (r * r) * (p 1 * p 1 / (r * r)) * (p 1 * p 1 / (r * r)) = x
    nlinarith [mul_nonneg h0 (sq_nonneg (2 * x - 1))]
  · intro h
    rw [← h, div_self (mul_pos hr hr).ne']
    ring
  · intro h
    have : p 1 * p 1 / (r * r) * (p 1 * p 1 / (r * r)) * (p 1 * p 1 / (r * r)) = 1 / 2 := by
      have h6 : r ^ 6 ≠ 0 := (pow_pos hr 6).ne'
      rw [show p 1 * p 1 / (r * r) * (p 1 * p 1 / (r * r)) * (p 1 * p 1 / (r * r)) = p 1 ^ 6 / r ^ 6 by field_simp]
      rw [div_eq_iff h6, h]
      ring
    rw [this]
    ring

/-- Morse: depth `p 0` at `p 2`, for each of the forms. -/
theorem C80_morse (r : ℝ) (p : Nat → ℝ) (h0 : 0 ≤ p 0) :
    (∃ v, value none .morse r p = some v ∧ -p 0 ≤ v ∧ (r = p 2 → v = -p 0)) ∧
    (∃ v, value none .ms r p = some v ∧ -p 0 ≤ v ∧ (r = p 2 → p 2 ≠ 0 → v = -p 0)) := by
  have key : ∀ a : ℝ, -p 0 ≤ p 0 * (Real.exp (a + a) - 2 * Real.exp a) := by
    intro a
    rw [Real.exp_add]
    nlinarith [mul_nonneg h0 (sq_nonneg (Real.exp a - 1))]
  constructor
  · refine ⟨_, rfl, ?_, ?_⟩
    · have := key (-p 1 * (r - p 2))
      rwa [show -p 1 * (r - p 2) + -p 1 * (r - p 2) = -2 * p 1 * (r - p 2) by ring] at this
    · intro h
      rw [h, sub_self, mul_zero, mul_zero, Real.exp_zero]
      ring
  · refine ⟨_, rfl, ?_, ?_⟩
    · have := key (p 1 * (1 - r / p 2) / 2)
      rwa [show p 1 * (1 - r / p 2) / 2 + p 1 * (1 - r / p 2) / 2 = p 1 * (1 - r / p 2) by ring] at this
    · intro h h2
      show p 0 * (Real.exp (p 1 * (1 - r / p 2)) - 2 * Real.exp (p 1 * (1 - r / p 2) / 2)) = -p 0
      rw [h, div_self h2, sub_self, mul_zero, zero_div, Real.exp_zero]
      ring

/-- Generalised Lennard-Jones: value `p 0 + p 4` and no slope at `p 3`. -/
theorem C80_genLj (p : Nat → ℝ) (h12 : p 1 ≠ p 2) (h3 : 0 < p 3) :
    ∃ v : ℝ → ℝ, (∀ r, value none .genLj r p = some (v r)) ∧ v (p 3) = p 0 + p 4 ∧ HasDerivAt v 0 (p 3) := by
  refine ⟨_, fun r => rfl, ?_, ?_⟩
  · have h : p 2 - p 1 ≠ 0 := sub_ne_zero.2 (Ne.symm h12)
    show p 0 / (p 2 - p 1) * (p 2 / (p 3 / p 3) ^ p 1 - p 1 / (p 3 / p 3) ^ p 2) + p 4 = p 0 + p 4
    rw [div_self h3.ne', Real.one_rpow, Real.one_rpow, div_one, div_one, div_mul_cancel₀ _ h]
  · have hq : HasDerivAt (fun r : ℝ => r / p 3) (1 / p 3) (p 3) := (hasDerivAt_id (p 3)).div_const (p 3)
    have h1 : p 3 / p 3 = 1 := div_self h3.ne'
    have hp : ∀ a : ℝ, HasDerivAt (fun r : ℝ => (r / p 3) ^ a) (a / p 3) (p 3) := by
      intro a
      have := hq.rpow_const (p := a) (Or.inl (by rw [h1]; norm_num))
      rw [h1, Real.one_rpow] at this
      convert this using 1
      ring
    have hne : ∀ a : ℝ, (p 3 / p 3) ^ a ≠ 0 := by
      intro a
      rw [h1, Real.one_rpow]
      norm_num
    have := ((((hasDerivAt_const (p 3) (p 2)).div (hp (p 1)) (hne _)).sub
      ((hasDerivAt_const (p 3) (p 1)).div (hp (p 2)) (hne _))).const_mul (p 0 / (p 2 - p 1))).add_const (p 4)
    refine this.congr_deriv ?_
    rw [h1, Real.one_rpow, Real.one_rpow]
    ring

/-- Embedding functions of the universal form: value `p 0 + p 3` and slope `p 3` at density 1. -/
theorem C80_universal (p : Nat → ℝ) (h12 : p 1 ≠ p 2) :
    ∃ v : ℝ → ℝ, (∀ r, value none .universal r p = some (v r)) ∧ v 1 = p 0 + p 3 ∧ HasDerivAt v (p 3) 1 := by
  have h : p 2 - p 1 ≠ 0 := sub_ne_zero.2 (Ne.symm h12)
  refine ⟨_, fun r => rfl, ?_, ?_⟩
  · show p 0 * (p 2 / (p 2 - p 1) * 1 ^ p 1 - p 1 / (p 2 - p 1) * 1 ^ p 2) + p 3 * 1 = p 0 + p 3
    rw [Real.one_rpow, Real.one_rpow]
    field_simp
  · have hp : ∀ a : ℝ, HasDerivAt (fun r : ℝ => r ^ a) a 1 := by
      intro a
      have := Real.hasDerivAt_rpow_const (x := 1) (p := a) (Or.inl one_ne_zero)
      rw [Real.one_rpow, mul_one] at this
      exact this
    have := ((((hp (p 1)).const_mul (p 2 / (p 2 - p 1))).sub ((hp (p 2)).const_mul (p 1 / (p 2 - p 1)))).const_mul (p 0)).add
      ((hasDerivAt_id (1 : ℝ)).const_mul (p 3))
    refine this.congr_deriv ?_
    ring

/-- The same for the form of Banerjea and Smith. -/
theorem C80_bjs (p : Nat → ℝ) :
    ∃ v : ℝ → ℝ, (∀ r, value none .bjs r p = some (v r)) ∧ v 0 = 0 ∧ v 1 = p 0 + p 2 ∧ HasDerivAt v (p 2) 1 := by
  refine ⟨_, fun r => rfl, ?_, ?_, ?_⟩
  · simp
  · simp
  · have hp : HasDerivAt (fun r : ℝ => r ^ p 1) (p 1) 1 := by
      have := Real.hasDerivAt_rpow_const (x := 1) (p := p 1) (Or.inl one_ne_zero)
      rw [Real.one_rpow, mul_one] at this
      exact this
    have hl : HasDerivAt Real.log 1 1 := by
      have := Real.hasDerivAt_log (x := 1) one_ne_zero
      rwa [inv_one] at this
    have h0 := ((((hl.const_mul (p 1)).const_sub 1).const_mul (p 0)).mul hp).add ((hasDerivAt_id (1 : ℝ)).const_mul (p 2))
    have h1 : HasDerivAt (fun r : ℝ => p 0 * (1 - p 1 * Real.log r) * r ^ p 1 + p 2 * r) (p 2) 1 := by
      refine h0.congr_deriv ?_
      rw [Real.log_one, Real.one_rpow]
      ring
    refine h1.congr_of_eventuallyEq ?_
    filter_upwards [isOpen_ne.mem_nhds (show (1 : ℝ) ≠ 0 from one_ne_zero)] with r hr
    exact if_neg hr

/-- The polynomial of fifth order: value, slope and curvature at density 1. -/
theorem C80_poly5 (p : Nat → ℝ) :
    ∃ v : ℝ → ℝ, (∀ r, value none .poly5 r p = some (v r)) ∧ v 1 = p 0 ∧ HasDerivAt v 0 1 ∧
      ∃ v' : ℝ → ℝ, (∀ r, HasDerivAt v (v' r) r) ∧ HasDerivAt v' (p 1) 1 := by
  refine ⟨_, fun r => rfl, ?_, ?_⟩
  · show p 0 + 0.5 * p 1 * ((1 - 1) * (1 - 1)) + p 2 * (1 - 1) * ((1 - 1) * (1 - 1)) +
      p 3 * ((1 - 1) * (1 - 1) * ((1 - 1) * (1 - 1))) + p 4 * ((1 - 1) * (1 - 1) * ((1 - 1) * (1 - 1))) * (1 - 1) = p 0
    ring
  · have hy : ∀ r : ℝ, HasDerivAt (fun r : ℝ => r - 1) 1 r := fun r => (hasDerivAt_id r).sub_const 1
    have hd : ∀ r : ℝ, HasDerivAt (fun r : ℝ => p 0 + 0.5 * p 1 * ((r - 1) * (r - 1)) + p 2 * (r - 1) * ((r - 1) * (r - 1)) +
        p 3 * ((r - 1) * (r - 1) * ((r - 1) * (r - 1))) + p 4 * ((r - 1) * (r - 1) * ((r - 1) * (r - 1))) * (r - 1))
        (p 1 * (r - 1) + 3 * p 2 * (r - 1) ^ 2 + 4 * p 3 * (r - 1) ^ 3 + 5 * p 4 * (r - 1) ^ 4) r := by
      intro r
      have h := (((((hy r).pow 2).const_mul (0.5 * p 1)).const_add (p 0)).add (((hy r).pow 3).const_mul (p 2))).add
        (((hy r).pow 4).const_mul (p 3)) |>.add (((hy r).pow 5).const_mul (p 4))
      have h' := h.congr_deriv (show _ = p 1 * (r - 1) + 3 * p 2 * (r - 1) ^ 2 + 4 * p 3 * (r - 1) ^ 3 + 5 * p 4 * (r - 1) ^ 4 by
        push_cast
        ring)
      refine h'.congr_of_eventuallyEq (Filter.Eventually.of_forall fun y => ?_)
      simp only [Pi.add_apply, Pi.pow_apply]
      ring
    refine ⟨?_, _, hd, ?_⟩
    · have := hd 1
      simpa using this
    · have h := ((((hy 1).const_mul (p 1)).add (((hy 1).pow 2).const_mul (3 * p 2))).add (((hy 1).pow 3).const_mul (4 * p 3))).add
        (((hy 1).pow 4).const_mul (5 * p 4))
      have h' := h.congr_deriv (show _ = p 1 by norm_num)
      exact h'

/-! ### Relations between functions -/

/-- The function a tail or a mixing term of which vanishes is the simpler one. -/
theorem C80_reduces (r : ℝ) (p : Nat → ℝ) :
    (p 6 = 0 → value none .meopp r p = value none .eopp r p) ∧
    (p 9 = 0 → value none .kawamuraMix r p = value none .kawamura r p) ∧
    (p 2 = 0 → value none .expPlus r p = value none .expDecay r p) ∧
    (p 2 = 0 → value none .mexpDecay r p = value none .expDecay r p) ∧
    (p 5 = 0 → value none .gljm r p = value none .genLj r p) ∧
    (p 3 = 0 → p 6 = 0 → value none .doubleMorse r p = value none .morse r p) ∧
    (p 2 = 0 → p 3 = 0 → value none .shengF r p = value none .power r p) := by
  refine ⟨?_, ?_, ?_, ?_, ?_, ?_, ?_⟩
  · intro h
    simp [value, Verif.Tails.eoppValue, h]
  · intro h
    simp [value, h]
  · intro h
    simp [value, h]
  · intro h
    simp [value, h]
  · intro h
    simp [value, h]
  · intro h h'
    simp [value, h, h']
  · intro h h'
    simp [value, h, h']

/-- `gljm` is the sum of `gen_lj` and a multiple of `mishin`, with the remaining parameters in order. -/
theorem C80_gljm (r : ℝ) (p : Nat → ℝ) :
    ∃ a b, value none .genLj r p = some a ∧ value none .mishin r (fun j => p (j + 6)) = some b ∧
      value none .gljm r p = some (a + p 5 * b) := by
  refine ⟨_, _, rfl, rfl, ?_⟩
  simp only [value]

/-- `power_decay` is `power` with the exponent negated. -/
theorem C80_decay (r : ℝ) (hr : 0 < r) (a n : ℝ) :
    value none .powerDecay r (par [a, n]) = value none .power r (par [a, -n]) := by
  simp only [value, par, List.getD_cons_zero, List.getD_cons_succ]
  rw [Real.rpow_neg hr.le]
  rfl

/-- `csw2` is `csw` written with amplitude and phase. -/
theorem C80_csw (r a k phi n : ℝ) :
    value none .csw2 r (par [a, k, phi, n]) = value none .csw r (par [a * Real.cos phi, -(a * Real.sin phi), k, n]) := by
  simp only [value, Verif.Tails.csw2Value, par, List.getD_cons_zero, List.getD_cons_succ]
  rw [Real.cos_add]
  congr 2
  ring

/-- The functions fitted to the Sheng potential are made of a Gaussian around the origin and a Gaussian resp. a Lorentzian around the
last parameter (its extremum, where it has the value `p 2` resp. `1 / p 2`), and beyond 1.45 of a Lennard-Jones function. -/
theorem C80_sheng (p : Nat → ℝ) :
    (∃ bump : ℝ → ℝ, (∀ r, value none .shengPhi1 r p = some (p 0 * Real.exp (-p 1 * r ^ 2) + bump r)) ∧ bump (p 4) = p 2 ∧
      (∀ d, bump (p 4 + d) = bump (p 4 - d)) ∧ ∀ d, bump (p 4 + d) = p 2 * Real.exp (-p 3 * d ^ 2)) ∧
    (∃ bump : ℝ → ℝ, (∀ r, value none .shengPhi2 r p = some (p 0 * Real.exp (-p 1 * r ^ 2) + bump r)) ∧ bump (p 3) = 1 / p 2 ∧
      (∀ d, bump (p 3 + d) = bump (p 3 - d)) ∧ (p 2 ≠ 0 → bump (p 3 + p 2) = bump (p 3) / 2)) ∧
    ∀ r, 1.45 < r → value none .shengRho r p = value none .lj r (fun j => p (j + 3)) := by
  refine ⟨⟨fun r => p 2 * Real.exp (-p 3 * (r - p 4) * (r - p 4)), ?_, ?_, ?_, ?_⟩,
    ⟨fun r => p 2 / (p 2 * p 2 + (r - p 3) * (r - p 3)), ?_, ?_, ?_, ?_⟩, ?_⟩
  · intro r
    simp only [value]
    rw [show -p 1 * r ^ 2 = -p 1 * r * r by ring]
  · simp
  · intro d
    show p 2 * Real.exp _ = p 2 * Real.exp _
    congr 2
    ring
  · intro d
    show p 2 * Real.exp _ = p 2 * Real.exp _
    congr 2
    ring
  · intro r
    simp only [value]
    rw [show -p 1 * r ^ 2 = -p 1 * r * r by ring]
  · by_cases h : p 2 = 0
    · simp [h]
    · show p 2 / (p 2 * p 2 + (p 3 - p 3) * (p 3 - p 3)) = _
      rw [sub_self, mul_zero, add_zero, div_mul_cancel_left₀ h, one_div]
  · intro d
    show p 2 / _ = p 2 / _
    congr 1
    ring
  · intro h
    show p 2 / (p 2 * p 2 + (p 3 + p 2 - p 3) * (p 3 + p 2 - p 3)) = p 2 / (p 2 * p 2 + (p 3 - p 3) * (p 3 - p 3)) / 2
    field_simp
    ring
  · intro r hr
    simp only [value, gt_iff_lt, if_pos hr]

/-- Lennard-Jones is the generalised form with exponents 6 and 12 and its minimum as length. -/
theorem C80_lj_genLj (r : ℝ) (hr : 0 < r) (eps sigma s : ℝ) (hs : 0 < s) (h : s ^ 6 = 2 * sigma ^ 6) :
    value none .genLj r (par [-eps, 6, 12, s, 0]) = value none .lj r (par [eps, sigma]) := by
  simp only [value, par, List.getD_cons_zero, List.getD_cons_succ]
  congr 1
  have e6 : (r / s) ^ (6 : ℝ) = (r / s) ^ 6 := by
    rw [← Real.rpow_natCast]
    norm_num
  have e12 : (r / s) ^ (12 : ℝ) = (r / s) ^ 12 := by
    rw [← Real.rpow_natCast]
    norm_num
  rw [e6, e12]
  have hr0 := hr.ne'
  have hs0 := hs.ne'
  have h12 : s ^ 12 = 4 * sigma ^ 12 := by
    calc s ^ 12 = (s ^ 6) ^ 2 := by ring
      _ = _ := by rw [h]; ring
  have e1 : (12 : ℝ) / (r / s) ^ 6 = 12 * (2 * sigma ^ 6) / r ^ 6 := by
    rw [← h, div_pow]
    field_simp
  have e2 : (6 : ℝ) / (r / s) ^ 12 = 6 * (4 * sigma ^ 12) / r ^ 12 := by
    rw [← h12, div_pow]
    field_simp
  rw [e1, e2]
  field_simp
  ring

/-! ### Smoothness -/

/-- Where a function is free of singularities. -/
def Regular (f : Fn) (r : ℝ) (p : Nat → ℝ) : Prop :=
  0 < r ∧ match f with
  | .softshell => p 0 ≠ 0
  | .meopp => p 6 < r
  | .acosharmonic => r < 1
  | .sqrt => p 1 ≠ 0
  | .mishin => p 3 < r
  | .genLj => 0 < p 3
  | .gljm => 0 < p 3 ∧ p 9 < r
  | .vas => r ≠ p 1
  | .stiweb3 => r ≠ p 1
  | .stiweb2 => r ≠ p 5
  | .shengPhi2 => p 2 ≠ 0
  | .shengRho => r ≠ 1.45
  | _ => True

/-- Every function is differentiable there. -/
theorem C80_smooth (f : Fn) (r : ℝ) (p : Nat → ℝ) (h : Regular f r p) (v : ℝ → ℝ) (hv : ∀ s, value none f s p = some (v s)) :
    DifferentiableAt ℝ v r := by
  obtain ⟨hr, h⟩ := h
  have hr0 : r ≠ 0 := hr.ne'
  have hpow : ∀ a : ℝ, r ^ a ≠ 0 := fun a => (Real.rpow_pos_of_pos hr a).ne'
  have hv' : v = fun s => (value none f s p).getD 0 := by
    funext s
    rw [hv]
    rfl
  rw [hv']
  clear hv hv'
  cases f <;> simp only [value, msPlain, buckPlain, Verif.Tails.eoppValue, Verif.Tails.eoppExpValue, Verif.Tails.csw2Value,
    Option.getD_some, Option.getD_none] <;> simp only at h <;>
    try fun_prop (disch := first | assumption | (simp only [ne_eq]; positivity) | simp_all)
  · have h1 : DifferentiableAt ℝ (fun s : ℝ => p 0 * (1 - p 1 * Real.log s) * s ^ p 1 + p 2 * s) r := by
      fun_prop (disch := assumption)
    refine h1.congr_of_eventuallyEq ?_
    filter_upwards [isOpen_ne.mem_nhds hr0] with s hs
    exact if_neg hs
  · have h1 : DifferentiableAt ℝ Real.arccos r := Real.differentiableAt_arccos.2 ⟨by linarith, by linarith⟩
    fun_prop
  · obtain ⟨h, h9⟩ := h
    have h0 : r / p 3 ≠ 0 := (div_pos hr h).ne'
    have h1 : ∀ a : ℝ, (r / p 3) ^ a ≠ 0 := fun a => (Real.rpow_pos_of_pos (div_pos hr h) a).ne'
    have h2 : ∀ a : ℝ, DifferentiableAt ℝ (fun s : ℝ => (s / p 3) ^ a) r := by
      intro a
      fun_prop (disch := assumption)
    have h3 := ((((differentiableAt_const (p 2)).div (h2 (p 1)) (h1 _)).sub
      ((differentiableAt_const (p 1)).div (h2 (p 2)) (h1 _))).const_mul (p 0 / (p 2 - p 1))).add_const (p 4)
    have h4 : r - p 9 ≠ 0 := (sub_pos.2 h9).ne'
    refine h3.add ?_
    fun_prop (disch := assumption)
  · have h1 : p 2 * p 2 + (r - p 3) * (r - p 3) ≠ 0 := by
      have := mul_self_pos.2 h
      have := mul_self_nonneg (r - p 3)
      positivity
    fun_prop (disch := assumption)
  · rcases lt_or_gt_of_ne h with h1 | h1
    · have h2 : DifferentiableAt ℝ (fun s : ℝ => p 0 * s ^ p 1 + p 2) r := by fun_prop (disch := assumption)
      refine h2.congr_of_eventuallyEq ?_
      filter_upwards [isOpen_Iio.mem_nhds h1] with s hs
      exact if_neg (not_lt.2 (le_of_lt hs))
    · have h2 : DifferentiableAt ℝ (fun s : ℝ => 4 * p 3 * (p 4 * p 4 / (s * s) * (p 4 * p 4 / (s * s)) * (p 4 * p 4 / (s * s))) *
          (p 4 * p 4 / (s * s) * (p 4 * p 4 / (s * s)) * (p 4 * p 4 / (s * s)) - 1)) r := by
        fun_prop (disch := simp [hr0])
      refine h2.congr_of_eventuallyEq ?_
      filter_upwards [isOpen_Ioi.mem_nhds h1] with s hs
      exact if_pos hs

/-- `sheng_rho` jumps at 1.45 unless the two pieces happen to meet there. -/
theorem C80_rho_violated (p : Nat → ℝ) (v : ℝ → ℝ) (hv : ∀ s, value none .shengRho s p = some (v s))
    (h : 4 * p 3 * (p 4 / 1.45) ^ 6 * ((p 4 / 1.45) ^ 6 - 1) ≠ p 0 * 1.45 ^ p 1 + p 2) : ¬ContinuousAt v 1.45 := by
  intro hc
  have hv' : v = fun s => (value none .shengRho s p).getD 0 := by
    funext s
    rw [hv]
    rfl
  have hval : v 1.45 = p 0 * 1.45 ^ p 1 + p 2 := by
    rw [hv']
    simp [value]
  have hg : ContinuousAt (fun s : ℝ => 4 * p 3 * (p 4 / s) ^ 6 * ((p 4 / s) ^ 6 - 1)) 1.45 := by
    fun_prop (disch := norm_num)
  have h1 : Filter.Tendsto v (nhdsWithin 1.45 (Set.Ioi 1.45)) (nhds (v 1.45)) := hc.mono_left nhdsWithin_le_nhds
  have h2 : Filter.Tendsto v (nhdsWithin 1.45 (Set.Ioi 1.45)) (nhds (4 * p 3 * (p 4 / 1.45) ^ 6 * ((p 4 / 1.45) ^ 6 - 1))) := by
    refine Filter.Tendsto.congr' ?_ (hg.mono_left nhdsWithin_le_nhds)
    filter_upwards [self_mem_nhdsWithin] with s hs
    have hs' : s > 1.45 := hs
    rw [hv']
    simp only [value, Option.getD_some, if_pos hs']
    rw [show p 4 * p 4 / (s * s) * (p 4 * p 4 / (s * s)) * (p 4 * p 4 / (s * s)) = (p 4 / s) ^ 6 by ring]
  exact h (by rw [← hval]; exact tendsto_nhds_unique h2 h1)

/-! ### Examples -/

example : initTable ⟨false, true, false, false⟩ 2 ≠ none := by
  rw [(C80_table _ _).1]
  simp

example : assignPointers ((items ⟨true, false, false, false⟩).map fun f => ⟨f.name, f.nPar 2, f⟩) ["buck", "ms_non_es", "eopp"] =
    some [.buck, .msNonEs, .eopp] := by decide +kernel

example : assignPointers ((items ⟨false, false, false, false⟩).map fun f => ⟨f.name, f.nPar 2, f⟩) ["ms_non_es"] = none := by
  decide +kernel

example : Regular .gljm 2 (par [1, 6, 12, 3, 0, 1, 1, 1, 0, 1, 2, 1]) := by
  simp [Regular, par]

example : Regular .meopp 3 (par [1, 6, 1, 3, 2, 0, 1]) := by
  simp [Regular, par]

example : (4 * par [1, 0, 1, 0, 2] 3 * (par [1, 0, 1, 0, 2] 4 / 1.45) ^ 6 * ((par [1, 0, 1, 0, 2] 4 / 1.45) ^ 6 - 1) : ℝ) ≠
    par [1, 0, 1, 0, 2] 0 * 1.45 ^ par [1, 0, 1, 0, 2] 1 + par [1, 0, 1, 0, 2] 2 := by
  norm_num [par]

example : described .poly5 ≠ none ∧ Fn.poly5 ∉ [Fn.born, .strmm, .vpair, .bjs] := by
  simp [described]

end Verif.Props
