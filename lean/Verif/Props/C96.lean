/-
C96  Neighbour lists reach as far as the potential.
-/
import Verif.Model.Cutoffs
import Verif.Props.C01
import Verif.Props.C14
import Verif.Props.C23

set_option linter.unusedSectionVars false

namespace Verif.Props

open Verif.PairIndex Verif.Cut

section Values

variable {K : Type*} [LinearOrder K]

/-! ### The loops -/

theorem inner_apply (n i : Nat) (g : Nat → Nat → K → K) (m : Nat) (f : Nat → K) (k : Nat) :
    (List.range m).foldl (fun f j => Function.update f (i * n + j) (g i j (f (i * n + j)))) f k =
      if i * n ≤ k ∧ k < i * n + m then g i (k - i * n) (f k) else f k := by
  induction m generalizing k with
  | zero => simp only [List.range_zero, List.foldl_nil]; rw [if_neg (by omega)]
  | succ m ih =>
    rw [List.range_succ, List.foldl_append, List.foldl_cons, List.foldl_nil]
    by_cases hk : k = i * n + m
    · subst hk
      rw [Function.update_self, ih, if_neg (by omega), if_pos (by omega), Nat.add_sub_cancel_left]
    · rw [Function.update_of_ne hk, ih]
      by_cases h : i * n ≤ k ∧ k < i * n + m
      · rw [if_pos h, if_pos (by omega)]
      · rw [if_neg h, if_neg (by omega)]

theorem overPairs_apply {n a b : Nat} (ha : a < n) (hb : b < n) (g : Nat → Nat → K → K) (f : Nat → K) :
    overPairs n g f (a * n + b) = g a b (f (a * n + b)) := by
  have key : ∀ m, (List.range m).foldl (fun f i => (List.range n).foldl (fun f j => Function.update f (i * n + j) (g i j (f (i * n + j)))) f) f
      (a * n + b) = if a < m then g a b (f (a * n + b)) else f (a * n + b) := by
    intro m
    induction m with
    | zero => simp
    | succ m ih =>
      rw [List.range_succ, List.foldl_append, List.foldl_cons, List.foldl_nil, inner_apply, ih]
      rcases Nat.lt_trichotomy a m with h | h | h
      · have : a * n + n ≤ m * n := by
          have := Nat.mul_le_mul_right n (show a + 1 ≤ m from h)
          rw [Nat.add_mul, Nat.one_mul] at this
          exact this
        rw [if_neg (by omega), if_pos h, if_pos (by omega)]
      · subst h
        rw [if_pos (by omega), if_neg (by omega), if_pos (by omega), Nat.add_sub_cancel_left]
      · have : m * n + n ≤ a * n := by
          have := Nat.mul_le_mul_right n (show m + 1 ≤ a from h)
          rw [Nat.add_mul, Nat.one_mul] at this
          exact this
        rw [if_neg (by omega), if_neg (by omega), if_neg (by omega)]
  rw [overPairs, key, if_pos ha]

/-! ### Cutoffs -/

/-- Functions whose ends are considered for the cutoff of a pair of types: pair function and the two transfer functions. -/
def considered (kind : Kind) (n a b : Nat) : List Nat :=
  pairCol n a b :: if kind = .eam ∨ kind = .tbeam ∨ kind = .adp ∨ kind = .meam then [n * (n + 1) / 2 + a, n * (n + 1) / 2 + b] else []

/-- **Cutoff of a pair of types**: the largest of the ends of pair function, transfer functions and electrostatics, whatever the memory held
before. -/
theorem C96_rcut (kind : Kind) (coulomb : Bool) (n : Nat) (stop : Nat → K) (dpCut : K) (before : Nat → K) (a b : Nat) (ha : a < n) (hb : b < n) :
    let r := rcut kind coulomb n stop dpCut before (a * n + b)
    (∀ c ∈ considered kind n a b, stop c ≤ r) ∧ (coulomb = true → dpCut ≤ r) ∧
      ((∃ c ∈ considered kind n a b, r = stop c) ∨ (coulomb = true ∧ r = dpCut)) := by
  have hd : kind.hasDensity = true ↔ (kind = .eam ∨ kind = .tbeam ∨ kind = .adp ∨ kind = .meam) := by cases kind <;> simp [Kind.hasDensity]
  simp only [rcut]
  unfold considered
  by_cases hk : kind.hasDensity = true
  · rw [if_pos (hd.1 hk)]
    simp only [hk, if_true]
    cases coulomb
    · simp only [Bool.false_eq_true, if_false, overPairs_apply ha hb]
      refine ⟨by simp, fun h => (by cases h), Or.inl ?_⟩
      rcases max_choice (max (stop (pairCol n a b)) (stop (n * (n + 1) / 2 + a))) (stop (n * (n + 1) / 2 + b)) with h | h
      · rcases max_choice (stop (pairCol n a b)) (stop (n * (n + 1) / 2 + a)) with h' | h'
        · exact ⟨_, List.mem_cons_self, by rw [h, h']⟩
        · exact ⟨n * (n + 1) / 2 + a, by simp, by rw [h, h']⟩
      · exact ⟨n * (n + 1) / 2 + b, by simp, h⟩
    · simp only [if_true, overPairs_apply ha hb]
      refine ⟨by simp, fun _ => le_max_right _ _, ?_⟩
      rcases max_choice (max (max (stop (pairCol n a b)) (stop (n * (n + 1) / 2 + a))) (stop (n * (n + 1) / 2 + b))) dpCut with h0 | h0
      · left
        rw [h0]
        rcases max_choice (max (stop (pairCol n a b)) (stop (n * (n + 1) / 2 + a))) (stop (n * (n + 1) / 2 + b)) with h | h
        · rcases max_choice (stop (pairCol n a b)) (stop (n * (n + 1) / 2 + a)) with h' | h'
          · exact ⟨_, List.mem_cons_self, by rw [h, h']⟩
          · exact ⟨n * (n + 1) / 2 + a, by simp, by rw [h, h']⟩
        · exact ⟨n * (n + 1) / 2 + b, by simp, h⟩
      · exact Or.inr ⟨trivial, h0⟩
  · rw [if_neg (fun h => hk (hd.2 h))]
    simp only [hk, if_false, Bool.false_eq_true]
    cases coulomb
    · simp only [Bool.false_eq_true, if_false, overPairs_apply ha hb]
      exact ⟨by simp, fun h => (by cases h), Or.inl ⟨_, List.mem_cons_self, rfl⟩⟩
    · simp only [if_true, overPairs_apply ha hb]
      refine ⟨by simp, fun _ => le_max_right _ _, ?_⟩
      rcases max_choice (stop (pairCol n a b)) dpCut with h | h
      · exact Or.inl ⟨_, List.mem_cons_self, h⟩
      · exact Or.inr ⟨trivial, h⟩

/-- The cutoff does not depend on the order of the types. -/
theorem C96_symmetric (kind : Kind) (coulomb : Bool) (n : Nat) (stop : Nat → K) (dpCut : K) (before : Nat → K) (a b : Nat)
    (ha : a < n) (hb : b < n) :
    rcut kind coulomb n stop dpCut before (a * n + b) = rcut kind coulomb n stop dpCut before (b * n + a) := by
  obtain ⟨p1, p2, p3⟩ := C96_rcut kind coulomb n stop dpCut before a b ha hb
  obtain ⟨q1, q2, q3⟩ := C96_rcut kind coulomb n stop dpCut before b a hb ha
  have hc : ∀ c, c ∈ considered kind n a b ↔ c ∈ considered kind n b a := by
    intro c
    unfold considered
    rw [C01_symmetric n a b]
    split
    · simp only [List.mem_cons, List.not_mem_nil, or_false]
      tauto
    · rfl
  apply le_antisymm
  · rcases p3 with ⟨c, hc', e⟩ | ⟨hk, e⟩
    · rw [e]; exact q1 c ((hc c).1 hc')
    · rw [e]; exact q2 hk
  · rcases q3 with ⟨c, hc', e⟩ | ⟨hk, e⟩
    · rw [e]; exact p1 c ((hc c).2 hc')
    · rw [e]; exact p2 hk

/-- **Smallest distance**: a distance above it lies behind the beginnings of pair function and transfer functions. -/
theorem C96_rmin (kind : Kind) (n : Nat) (start : Nat → K) (before : Nat → K) (a b : Nat) (ha : a < n) (hb : b < n) (r : K) :
    rmin kind n start before (a * n + b) < r ↔ ∀ c ∈ considered kind n a b, start c < r := by
  have hd : kind.hasDensity = true ↔ (kind = .eam ∨ kind = .tbeam ∨ kind = .adp ∨ kind = .meam) := by cases kind <;> simp [Kind.hasDensity]
  simp only [rmin]
  unfold considered
  by_cases hk : kind.hasDensity = true
  · rw [if_pos (hd.1 hk)]
    simp only [hk, if_true, overPairs_apply ha hb, max_lt_iff, List.mem_cons, List.not_mem_nil, or_false, forall_eq_or_imp, forall_eq]
    tauto
  · rw [if_neg (fun h => hk (hd.2 h))]
    simp only [hk, if_false, Bool.false_eq_true, overPairs_apply ha hb, List.mem_cons, List.not_mem_nil, or_false, forall_eq]

/-- KIM: the cutoff of the model for every pair. -/
theorem C96_kim (n : Nat) (stop0 : K) (before : Nat → K) (k : Nat) (hk : k < n * n) : kimRcut n stop0 before k = stop0 := by
  have key : ∀ m, k < m → (List.range m).foldl (fun f i => Function.update f i stop0) before k = stop0 := by
    intro m
    induction m with
    | zero => intro h; omega
    | succ m ih =>
      intro h
      rw [List.range_succ, List.foldl_append, List.foldl_cons, List.foldl_nil]
      by_cases hkm : k = m
      · rw [hkm, Function.update_self]
      · rw [Function.update_of_ne hkm]
        exact ih (by omega)
  exact key _ hk

theorem innerMax_spec (n i : Nat) (f : Nat → K) (m : Nat) (x : K) :
    (∀ j < m, f (i + n * j) ≤ (List.range m).foldl (fun x j => max x (f (i + n * j))) x) ∧
    x ≤ (List.range m).foldl (fun x j => max x (f (i + n * j))) x ∧
    ((List.range m).foldl (fun x j => max x (f (i + n * j))) x = x ∨ ∃ j < m, (List.range m).foldl (fun x j => max x (f (i + n * j))) x = f (i + n * j)) := by
  induction m with
  | zero => exact ⟨fun j hj => by omega, le_rfl, Or.inl rfl⟩
  | succ m ih =>
    rw [List.range_succ, List.foldl_append, List.foldl_cons, List.foldl_nil]
    obtain ⟨h1, h2, h3⟩ := ih
    refine ⟨fun j hj => ?_, h2.trans (le_max_left _ _), ?_⟩
    · rcases Nat.lt_succ_iff_lt_or_eq.1 hj with h | h
      · exact (h1 j h).trans (le_max_left _ _)
      · rw [h]; exact le_max_right _ _
    · rcases max_choice ((List.range m).foldl (fun x j => max x (f (i + n * j))) x) (f (i + n * m)) with h | h
      · rw [h]
        rcases h3 with h3 | ⟨j, hj, h3⟩
        · exact Or.inl h3
        · exact Or.inr ⟨j, by omega, h3⟩
      · exact Or.inr ⟨m, by omega, h⟩

/-- **Largest cutoff**: the largest of all cutoffs (and the value before, 0). -/
theorem C96_max (n : Nat) (f : Nat → K) (x : K) :
    (∀ a < n, ∀ b < n, f (a * n + b) ≤ rcutMax n f x) ∧ x ≤ rcutMax n f x ∧
      (rcutMax n f x = x ∨ ∃ a < n, ∃ b < n, rcutMax n f x = f (a * n + b)) := by
  have key : ∀ m, m ≤ n → ∀ y, y = (List.range m).foldl (fun m i => (List.range n).foldl (fun m j => max m (f (i + n * j))) m) x →
      (∀ i < m, ∀ j < n, f (i + n * j) ≤ y) ∧ x ≤ y ∧ (y = x ∨ ∃ i < m, ∃ j < n, y = f (i + n * j)) := by
    intro m
    induction m with
    | zero => intro _ y hy; subst hy; exact ⟨fun i hi => by omega, le_rfl, Or.inl rfl⟩
    | succ m ih =>
      intro hm y hy
      rw [List.range_succ, List.foldl_append, List.foldl_cons, List.foldl_nil] at hy
      obtain ⟨h1, h2, h3⟩ := ih (by omega) _ rfl
      obtain ⟨g1, g2, g3⟩ := innerMax_spec n m f n ((List.range m).foldl (fun m i => (List.range n).foldl (fun m j => max m (f (i + n * j))) m) x)
      rw [← hy] at g1 g2 g3
      refine ⟨fun i hi j hj => ?_, h2.trans g2, ?_⟩
      · rcases Nat.lt_succ_iff_lt_or_eq.1 hi with h | h
        · exact (h1 i h j hj).trans g2
        · rw [h]; exact g1 j hj
      · rcases g3 with g3 | ⟨j, hj, g3⟩
        · rw [g3]
          rcases h3 with h3 | ⟨i, hi, j, hj, h3⟩
          · exact Or.inl h3
          · exact Or.inr ⟨i, by omega, j, hj, h3⟩
        · exact Or.inr ⟨m, by omega, j, hj, g3⟩
  obtain ⟨h1, h2, h3⟩ := key n le_rfl _ rfl
  refine ⟨fun a ha b hb => ?_, h2, ?_⟩
  · have := h1 b hb a ha
    rw [Nat.mul_comm n a, Nat.add_comm] at this
    exact this
  · rcases h3 with h3 | ⟨i, hi, j, hj, h3⟩
    · exact Or.inl h3
    · refine Or.inr ⟨j, hj, i, hi, ?_⟩
      rw [Nat.mul_comm n j, Nat.add_comm] at h3
      exact h3

/-- **Smallest cutoff**: the smallest of all cutoffs (and the value before, 999.9). -/
theorem C96_min (n : Nat) (f : Nat → K) (x : K) :
    (∀ a < n, ∀ b < n, rcutMin n f x ≤ f (a * n + b)) ∧ rcutMin n f x ≤ x ∧
      (rcutMin n f x = x ∨ ∃ a < n, ∃ b < n, rcutMin n f x = f (a * n + b)) := by
  obtain ⟨h1, h2, h3⟩ := C96_max (K := Kᵒᵈ) n f x
  exact ⟨h1, h2, h3⟩

example : rcutMin 2 (fun k => ([5, 4, 4, 6] : List ℚ).getD k 0) (9999 / 10) = 4 := by decide +kernel

/-- Every function of the distance ends within the cutoff of the pair. -/
def Reaches (kind : Kind) (coulomb : Bool) (n : Nat) (stop : Nat → K) (dpCut : K) (before : Nat → K) : Prop :=
  ∀ a < n, ∀ b < n, ∀ c ∈ columns kind n a b, stop c ≤ rcut kind coulomb n stop dpCut before (a * n + b)

/-- **Reach.** For pair, EAM and Tersoff potentials, with and without electrostatics, no function ends behind the cutoff of the lists.  For the
others this holds if functions which are not considered end with the pair function.  Missing for the full claim: `C96_missing_violated`. -/
theorem C96_reach_partial (kind : Kind) (coulomb : Bool) (n : Nat) (stop : Nat → K) (dpCut : K) (before : Nat → K)
    (h : ∀ a < n, ∀ b < n, ∀ c ∈ columns kind n a b, c ∉ considered kind n a b → stop c ≤ stop (pairCol n a b)) :
    Reaches kind coulomb n stop dpCut before := by
  intro a ha b hb c hc
  obtain ⟨p1, -, -⟩ := C96_rcut kind coulomb n stop dpCut before a b ha hb
  by_cases hcc : c ∈ considered kind n a b
  · exact p1 c hcc
  · exact (h a ha b hb c hc hcc).trans (p1 _ List.mem_cons_self)

theorem C96_reach (kind : Kind) (hk : kind ∈ [Kind.pair, .eam, .tersoff, .tersoffmod]) (coulomb : Bool) (n : Nat) (stop : Nat → K) (dpCut : K)
    (before : Nat → K) : Reaches kind coulomb n stop dpCut before := by
  apply C96_reach_partial
  intro a ha b hb c hc hcc
  exfalso
  apply hcc
  simp only [List.mem_cons, List.not_mem_nil, or_false] at hk
  rcases hk with rfl | rfl | rfl | rfl
  · simpa [columns, considered] using hc
  · simp only [columns, considered, List.mem_cons, List.not_mem_nil, or_false, true_or, if_true] at hc ⊢
    tauto
  · simpa [columns, considered] using hc
  · simpa [columns, considered] using hc

end Values

open Verif.Neighbors Verif.Spec Verif.Force in
/-- **Neighbours.** If no function ends behind the cutoff, every image which one of the functions reaches has its entry in the neighbour list
(half lists: in that of the first of the two atoms), once; electrostatics likewise. -/
theorem C96_found (kind : Kind) (coulomb : Bool) (n : Nat) (stop : Nat → ℝ) (dpCut : ℝ) (before : Nat → ℝ)
    (hreach : Reaches kind coulomb n stop dpCut before) (edge : Fin 3 → V3 ℝ) (scale : Fin 3 → ℤ) (c : Cell)
    (hbox : ∃ vol, makeBox edge = .ok (c.box, vol))
    (hscale : cellScale (toCutoffs n (rcut kind coulomb n stop dpCut before)).rcutmax c.box = .ok scale)
    (hin : ∀ i < c.sites.length, InCell edge (c.site i).pos) (htyp : ∀ i < c.sites.length, (c.site i).typ < n)
    (full : Bool) (i : Nat) (hi : i < c.sites.length) (l : List (Neigh ℝ))
    (hl : neighbours full (toCutoffs n (rcut kind coulomb n stop dpCut before)) scale c i = .ok l) :
    ∃ ims : List Image, ims.Nodup ∧ l = ims.map (entryOf c i) ∧
      ∀ m : Image, m.j < c.sites.length → (full = true ∨ i ≤ m.j) → ¬ (m.j = i ∧ m.n = 0) →
        ((∃ f ∈ columns kind n (c.site i).typ (c.site m.j).typ, length (arrow c i m) < stop f) ∨ (coulomb = true ∧ length (arrow c i m) < dpCut)) →
        m ∈ ims := by
  have hmax := C96_max n (rcut kind coulomb n stop dpCut before) (0 : ℝ)
  have hr : Ready edge (toCutoffs n (rcut kind coulomb n stop dpCut before)) scale c := by
    refine ⟨hbox, hscale, ?_, hin⟩
    intro t₁ t₂
    simp only [toCutoffs]
    split
    · next h => exact hmax.1 t₁ h.1 t₂ h.2
    · exact hmax.2.1
  obtain ⟨ims, h1, h2, h3⟩ := C23_complete edge _ scale c hr full i hi l hl
  refine ⟨ims, h1, h3, fun m hm hh hne hf => ?_⟩
  rw [h2]
  refine ⟨hm, hh, hne, ?_⟩
  have hti := htyp i hi
  have htj := htyp m.j hm
  simp only [toCutoffs]
  rw [if_pos ⟨hti, htj⟩]
  rcases hf with ⟨f, hf, hlt⟩ | ⟨hc, hlt⟩
  · exact hlt.le.trans (hreach _ hti _ htj f hf)
  · exact hlt.le.trans ((C96_rcut kind coulomb n stop dpCut before _ _ hti htj).2.1 hc)

/-- Ends of the functions of one type of atoms: pair function and the two of the embedding end at 4, all others at 5. -/
def endsFour (kind : Kind) : Nat → ℝ := fun c => if c = 0 ∨ ((kind = .tbeam ∨ kind = .adp ∨ kind = .meam) ∧ c < 3) then 4 else 5

open Verif.Neighbors Verif.Spec Verif.Force in
/-- **Neighbours: violated.** The functions of the second band, of dipoles and quadrupoles, of MEAM, angular and Stillinger-Weber three-body
terms are not considered: a function may end at 5 while no list of any cell has a neighbour beyond 4. -/
theorem C96_missing_violated (kind : Kind) (hk : kind ∈ [Kind.tbeam, .adp, .meam, .ang, .stiweb]) (before : Nat → ℝ) :
    (∃ f ∈ columns kind 1 0 0, endsFour kind f = 5) ∧
    ∀ (edge : Fin 3 → V3 ℝ) (scale : Fin 3 → ℤ) (c : Cell) (full : Bool) (i : Nat) (l : List (Neigh ℝ)),
      Ready edge (toCutoffs 1 (rcut kind false 1 (endsFour kind) 0 before)) scale c → i < c.sites.length →
      neighbours full (toCutoffs 1 (rcut kind false 1 (endsFour kind) 0 before)) scale c i = .ok l → ∀ e ∈ l, e.r ≤ 4 := by
  constructor
  · simp only [List.mem_cons, List.not_mem_nil, or_false] at hk
    rcases hk with rfl | rfl | rfl | rfl | rfl
    · exact ⟨3, by simp [columns], by simp [endsFour]⟩
    · exact ⟨3, by simp [columns, pairCol], by simp [endsFour]⟩
    · exact ⟨3, by simp [columns, pairCol], by simp [endsFour]⟩
    · exact ⟨1, by simp [columns, pairCol], by simp [endsFour]⟩
    · exact ⟨1, by simp [columns, pairCol], by simp [endsFour]⟩
  · intro edge scale c full i l hr hi hl e he
    obtain ⟨ims, -, h2, h3⟩ := C23_complete edge _ scale c hr full i hi l hl
    rw [h3] at he
    obtain ⟨m, hm, rfl⟩ := List.mem_map.1 he
    obtain ⟨-, -, -, hw⟩ := (h2 m).1 hm
    have hlen : (entryOf c i m).r = length (arrow c i m) := by
      simp only [entryOf, offset_eq_arrow, sqrt_sprod]
    rw [hlen]
    refine hw.trans ?_
    simp only [toCutoffs]
    split
    · next h =>
      obtain ⟨e1, e2⟩ := h
      obtain ⟨-, -, h3⟩ := C96_rcut kind false 1 (endsFour kind) 0 before _ _ e1 e2
      rcases h3 with ⟨f, hf, e⟩ | ⟨hc, -⟩
      · rw [e]
        have e1' : (c.site i).typ = 0 := by omega
        have e2' : (c.site m.j).typ = 0 := by omega
        rw [e1', e2'] at hf
        simp only [List.mem_cons, List.not_mem_nil, or_false] at hk
        rcases hk with rfl | rfl | rfl | rfl | rfl <;> simp [considered, pairCol] at hf
        · rcases hf with rfl | rfl <;> simp [endsFour]
        · rcases hf with rfl | rfl <;> simp [endsFour]
        · rcases hf with rfl | rfl <;> simp [endsFour]
        · subst hf; simp [endsFour]
        · subst hf; simp [endsFour]
      · cases hc
    · norm_num

/-! ### Cutoff parameters -/

section Checks

variable {K : Type*} [LinearOrder K]

theorem firstComplaint_ok (tests : List (Bool × Complaint)) : firstComplaint tests = .ok () ↔ ∀ t ∈ tests, t.1 = false := by
  unfold firstComplaint
  cases h : tests.find? (·.1) with
  | none =>
    simp only [true_iff]
    intro t ht
    have := List.find?_eq_none.1 h t ht
    simpa using this
  | some p =>
    simp only [reduceCtorEq, false_iff]
    intro hall
    have h1 := List.find?_some h
    have h2 := hall p (List.mem_of_find?_eq_some h)
    rw [h2] at h1
    cases h1

/-- **Stillinger-Weber: what is accepted.** -/
theorem C96_stiweb_accepted (n : Nat) (t : Apot K) :
    checkStiweb n t = .ok () ↔ (∀ i < n * (n + 1) / 2, t.name i = "stiweb_2" ∧ t.name (n * (n + 1) / 2 + i) = "stiweb_3" ∧
      t.pmax i 5 ≤ t.stop i ∧ t.pmax (n * (n + 1) / 2 + i) 1 ≤ t.stop (n * (n + 1) / 2 + i)) ∧ t.name (2 * (n * (n + 1) / 2)) = "lambda" := by
  unfold checkStiweb
  rw [firstComplaint_ok]
  simp only [List.mem_append, List.mem_flatMap, List.mem_range, List.mem_cons, List.not_mem_nil, or_false]
  constructor
  · intro h
    refine ⟨fun i hi => ⟨?_, ?_, ?_, ?_⟩, ?_⟩
    · simpa using h (_, _) (Or.inl (Or.inl ⟨i, hi, Or.inl rfl⟩))
    · simpa using h (_, _) (Or.inl (Or.inl ⟨i, hi, Or.inr rfl⟩))
    · simpa using h (_, _) (Or.inr ⟨i, hi, Or.inl rfl⟩)
    · simpa using h (_, _) (Or.inr ⟨i, hi, Or.inr rfl⟩)
    · simpa using h (_, _) (Or.inl (Or.inr rfl))
  · rintro ⟨h, hl⟩ x ((⟨i, hi, rfl | rfl⟩ | rfl) | ⟨i, hi, rfl | rfl⟩)
    · simpa using (h i hi).1
    · simpa using (h i hi).2.1
    · simpa using hl
    · simpa using (h i hi).2.2.1
    · simpa using (h i hi).2.2.2

/-- **Tersoff: what is accepted.** -/
theorem C96_tersoff_accepted (n : Nat) (t : Apot K) :
    checkTersoff n t = .ok () ↔ (∀ i < n * (n + 1) / 2, t.name i = "tersoff_pot" ∧ t.pmin i 10 ≤ t.pmax i 9) ∧
      ∀ i < n * (n - 1) / 2, t.name (n * (n + 1) / 2 + i) = "tersoff_mix" := by
  unfold checkTersoff
  rw [firstComplaint_ok]
  simp only [List.mem_append, List.mem_map, List.mem_range]
  constructor
  · intro h
    refine ⟨fun i hi => ⟨?_, ?_⟩, fun i hi => ?_⟩
    · simpa using h (_, _) (Or.inl (Or.inl ⟨i, hi, rfl⟩))
    · simpa using h (_, _) (Or.inr ⟨i, hi, rfl⟩)
    · simpa using h (_, _) (Or.inl (Or.inr ⟨i, hi, rfl⟩))
  · rintro ⟨h, hl⟩ x ((⟨i, hi, rfl⟩ | ⟨i, hi, rfl⟩) | ⟨i, hi, rfl⟩)
    · simpa using (h i hi).1
    · simpa using hl i hi
    · simpa using (h i hi).2

/-- **Modified Tersoff: what is accepted.** -/
theorem C96_tersoffmod_accepted (n : Nat) (t : Apot K) :
    checkTersoffMod n t = .ok () ↔ ∀ i < n * (n + 1) / 2, t.name i = "tersoff_mod_pot" ∧ t.pmin i 14 ≤ t.pmax i 15 := by
  unfold checkTersoffMod
  rw [firstComplaint_ok]
  simp only [List.mem_append, List.mem_map, List.mem_range]
  constructor
  · intro h i hi
    refine ⟨?_, ?_⟩
    · simpa using h (_, _) (Or.inl ⟨i, hi, rfl⟩)
    · simpa using h (_, _) (Or.inr ⟨i, hi, rfl⟩)
  · rintro h x (⟨i, hi, rfl⟩ | ⟨i, hi, rfl⟩)
    · simpa using (h i hi).1
    · simpa using (h i hi).2

/-- The parameters lie within their bounds. -/
def WithinBounds (t : Apot K) (v : Nat → Nat → K) : Prop := ∀ i j, t.pmin i j ≤ v i j ∧ v i j ≤ t.pmax i j

/-- **Cutoff parameters of Stillinger-Weber.** For accepted potentials and parameters within their bounds the two-body terms do not reach behind
the neighbour lists; nor do the three-body terms if their cutoff is not behind that of the pair.  Missing for the full claim: other cutoffs
(`C96_stiweb_violated`) and fixed parameters outside of their bounds (`C96_fixed_violated`). -/
theorem C96_stiweb_partial (n : Nat) (t : Apot K) (h : checkStiweb n t = .ok ()) (v : Nat → Nat → K) (hv : WithinBounds t v) (coulomb : Bool)
    (dpCut : K) (before : Nat → K) (a b : Nat) (ha : a < n) (hb : b < n) :
    v (pairCol n a b) 5 ≤ rcut .stiweb coulomb n t.stop dpCut before (a * n + b) ∧
    (t.stop (n * (n + 1) / 2 + pairCol n a b) ≤ t.stop (pairCol n a b) →
      v (n * (n + 1) / 2 + pairCol n a b) 1 ≤ rcut .stiweb coulomb n t.stop dpCut before (a * n + b)) := by
  obtain ⟨h1, -⟩ := (C96_stiweb_accepted n t).1 h
  obtain ⟨-, -, h2, h3⟩ := h1 _ (C01_in_range ha hb)
  obtain ⟨p1, -, -⟩ := C96_rcut .stiweb coulomb n t.stop dpCut before a b ha hb
  have hp := p1 (pairCol n a b) List.mem_cons_self
  exact ⟨(hv _ _).2.trans (h2.trans hp), fun hs => (hv _ _).2.trans (h3.trans (hs.trans hp))⟩

/-- **Cutoff parameters of Tersoff.** For accepted potentials with proper bounds there are parameters with `R ≤ S`. -/
theorem C96_tersoff_partial (n : Nat) (t : Apot K) (h : checkTersoff n t = .ok ()) (hb : ∀ i j, t.pmin i j ≤ t.pmax i j) :
    ∃ v, WithinBounds t v ∧ ∀ i < n * (n + 1) / 2, v i 10 ≤ v i 9 := by
  obtain ⟨h1, -⟩ := (C96_tersoff_accepted n t).1 h
  refine ⟨fun i j => if j = 9 then t.pmax i j else t.pmin i j, fun i j => ?_, fun i hi => ?_⟩
  · simp only
    split
    · exact ⟨hb i j, le_rfl⟩
    · exact ⟨le_rfl, hb i j⟩
  · exact (h1 i hi).2

end Checks

/-- Stillinger-Weber potential for one type, cutoff 4 for the pair term and 5 for the three-body term. -/
def swFive : Apot ℚ where
  name i := if i = 0 then "stiweb_2" else if i = 1 then "stiweb_3" else "lambda"
  pmin _ _ := 0
  pmax i j := if i = 1 ∧ j = 1 then 5 else 4
  stop i := if i = 0 then 4 else 5

/-- **Three-body cutoff: violated.** Accepted, parameters within the bounds, but the three-body terms reach 5 while the lists end at 4. -/
theorem C96_stiweb_violated : ∃ v, checkStiweb 1 swFive = .ok () ∧ WithinBounds swFive v ∧
    rcut .stiweb false 1 swFive.stop 0 (fun _ => 0) 0 < v 1 1 := by
  refine ⟨swFive.pmax, ?_, fun i j => ⟨?_, le_rfl⟩, by decide +kernel⟩
  · rw [C96_stiweb_accepted]
    exact ⟨by decide +kernel, by decide +kernel⟩
  · simp only [swFive]
    split <;> norm_num

example : checkStiweb 1 swFive = .ok () ∧ WithinBounds swFive (fun _ _ => 3) ∧ rcut .stiweb false 1 swFive.stop 0 (fun _ => 0) 0 = 4 := by
  refine ⟨C96_stiweb_violated.choose_spec.1, fun i j => ?_, by decide +kernel⟩
  simp only [swFive]
  split <;> norm_num

/-- The potential before with bounds `0 0` for the parameter `a1`. -/
def swFixed : Apot ℚ := { swFive with pmax := fun i j => if i = 0 ∧ j = 5 then 0 else swFive.pmax i j }

/-- **Fixed parameters: violated.** A parameter with equal bounds is fixed at its value, wherever this is (C14); only the bound is tested.  A
two-body term with `a1 = 7` and bounds `0 0` is accepted though the lists end at 4. -/
theorem C96_fixed_violated : (Apot.checkBounds true (7 : ℚ) 0 0).value = 7 ∧ (Apot.checkBounds true (7 : ℚ) 0 0).pmax = swFixed.pmax 0 5 ∧
    checkStiweb 1 swFixed = .ok () ∧ rcut .stiweb false 1 swFixed.stop 0 (fun _ => 0) 0 < 7 := by
  refine ⟨by decide +kernel, by decide +kernel, ?_, by decide +kernel⟩
  rw [C96_stiweb_accepted]
  exact ⟨by decide +kernel, by decide +kernel⟩

/-- Tersoff potential for one type with cutoff 4 and bounds from 0 to 6 for `S`, 6 to 8 for `R`. -/
def tersoffSix : Apot ℚ where
  name _ := "tersoff_pot"
  pmin _ j := if j = 10 then 6 else 0
  pmax _ j := if j = 10 then 8 else 6
  stop _ := 4

/-- **Cutoff parameters of Tersoff: violated.** The cutoff `S` is not compared with that of the lists, and bounds which admit only `R = S`
(where the cutoff function divides by zero) are accepted. -/
theorem C96_tersoff_violated : checkTersoff 1 tersoffSix = .ok () ∧ (∃ v, WithinBounds tersoffSix v ∧
    rcut .tersoff false 1 tersoffSix.stop 0 (fun _ => 0) 0 < v 0 9) ∧ ∀ v, WithinBounds tersoffSix v → ¬ v 0 10 < v 0 9 := by
  refine ⟨?_, ⟨tersoffSix.pmax, fun i j => ⟨?_, le_rfl⟩, by decide +kernel⟩, fun v hv h => ?_⟩
  · rw [C96_tersoff_accepted]
    exact ⟨by decide +kernel, by decide +kernel⟩
  · simp only [tersoffSix]
    split <;> norm_num
  · have h1 := (hv 0 10).1
    have h2 := (hv 0 9).2
    simp only [tersoffSix] at h1 h2
    norm_num at h1 h2
    linarith

/-- Two types, EAM with electrostatics: the cutoff of the mixed pair is the largest of the ends 3 (pair), 5 and 4 (transfer), 9/2. -/
example : rcut .eam true 2 (fun c => if c = 3 then (5 : ℚ) else if c = 4 then 4 else 3) (9 / 2) (fun _ => 17) 1 = 5 ∧
    rcutMax 2 (rcut .eam true 2 (fun c => if c = 3 then (5 : ℚ) else if c = 4 then 4 else 3) (9 / 2) (fun _ => 17)) 0 = 5 ∧
    rcut .eam true 2 (fun c => if c = 3 then (5 : ℚ) else if c = 4 then 4 else 3) (9 / 2) (fun _ => 17) 3 = 9 / 2 := by decide +kernel

end Verif.Props
