import Verif.Lemmas.Bond
import Verif.Lemmas.StiwebFunctions
import Mathlib.Analysis.SpecialFunctions.Trigonometric.Deriv

namespace Verif.Spec

open Verif.Force

set_option linter.unusedSectionVars false

section
variable {K : Type*} [Field K] [LinearOrder K]

/-- Contribution of neighbour `nk` to `zeta`. -/
def tersZ (L : Lib K) (p : TersPars K) (nj nk : Neigh K) : K :=
  if nk.r < p.S nk.col0 then tersF L p nk.col0 nk.r * p.omega nk.col0 * tersG p nj.col0 (cosine nj nk) else 0

/-- Its derivatives. -/
def tersZj (L : Lib K) (p : TersPars K) (nj nk : Neigh K) : V3 K := fun c =>
  if nk.r < p.S nk.col0 then
    -(tersDg p nj.col0 (cosine nj nk) * tersF L p nk.col0 nk.r * p.omega nk.col0 * tersDcos nj nk c) else 0

def tersZk (L : Lib K) (p : TersPars K) (nj nk : Neigh K) : V3 K := fun c =>
  if nk.r < p.S nk.col0 then tersDzeta L p nj nk c else 0

def tersSum (L : Lib K) (p : TersPars K) (nj : Neigh K) (others : List (Neigh K)) : K := (others.map (tersZ L p nj)).sum

theorem tersInner_fold (L : Lib K) (p : TersPars K) (nj : Neigh K) (l : List (Neigh K)) (s : Zeta K) :
    l.foldl (tersInner L p nj) s = ⟨s.z + (l.map (tersZ L p nj)).sum, fun c => s.di c - (l.map fun nk => tersZk L p nj nk c).sum,
      fun c => s.dj c + (l.map fun nk => tersZj L p nj nk c).sum⟩ := by
  induction l generalizing s with
  | nil => simp
  | cons n l ih =>
    rw [List.foldl_cons, ih]
    unfold tersInner
    by_cases h : n.r < p.S n.col0
    · simp only [if_pos h, List.map_cons, List.sum_cons, tersZ, tersZj, tersZk, Zeta.mk.injEq]
      refine ⟨by ring, ?_, ?_⟩ <;> funext c <;> ring
    · simp only [if_neg h, List.map_cons, List.sum_cons, tersZ, tersZj, tersZk, zero_add]

/-- Derivative of the bond energy with respect to `zeta`. -/
def tersEz (L : Lib K) (p : TersPars K) (nj : Neigh K) (z : K) : K :=
  if z = 0 then 0
  else L.pow (1 + L.pow (p.gamma nj.col0 * z) (p.n nj.col0)) (-1 / (2 * p.n nj.col0)) * tersF L p nj.col0 nj.r *
    (1 / 2 * p.B nj.col0 * L.exp (-p.mu nj.col0 * nj.r)) * L.pow (p.gamma nj.col0 * z) (p.n nj.col0) /
    (2 * z * (1 + L.pow (p.gamma nj.col0 * z) (p.n nj.col0)))

/-- Energy of a bond. -/
def tersE (L : Lib K) (p : TersPars K) (nj : Neigh K) (z : K) : K :=
  tersF L p nj.col0 nj.r * (-L.pow (1 + L.pow (p.gamma nj.col0 * z) (p.n nj.col0)) (-1 / (2 * p.n nj.col0)) *
    (1 / 2 * p.B nj.col0 * L.exp (-p.mu nj.col0 * nj.r)))

/-- Derivative of the bond energy with respect to the distance, divided by the distance. -/
def tersEr (L : Lib K) (p : TersPars K) (nj : Neigh K) (z : K) : K :=
  (tersF L p nj.col0 nj.r * (1 / 2 * p.B nj.col0 * L.exp (-p.mu nj.col0 * nj.r)) * p.mu nj.col0 *
    L.pow (1 + L.pow (p.gamma nj.col0 * z) (p.n nj.col0)) (-1 / (2 * p.n nj.col0)) +
   tersDf L p nj.col0 nj.r * (-L.pow (1 + L.pow (p.gamma nj.col0 * z) (p.n nj.col0)) (-1 / (2 * p.n nj.col0)) *
    (1 / 2 * p.B nj.col0 * L.exp (-p.mu nj.col0 * nj.r)))) / nj.r

/-- Bond of an atom with neighbour `nj`. -/
def tersTerm (L : Lib K) (p : TersPars K) (i : Nat) (nj : Neigh K) (others : List (Neigh K)) : Term K :=
  if nj.r < p.S nj.col0 ∧ p.B nj.col0 ≠ 0 then
    bondTerm i nj others (tersE L p nj (tersSum L p nj others)) (fun c => tersEr L p nj (tersSum L p nj others) * nj.dist c)
      (tersEz L p nj (tersSum L p nj others)) (tersZj L p nj) (tersZk L p nj)
  else ⟨i, 0, []⟩

theorem tersBond_plus (b : Build) (L : Lib K) (p : TersPars K) (us : Bool) (i : Nat) (s : Acc K) (nj : Neigh K) (others : List (Neigh K)) :
    tersBond b L p us i s nj others = plus s (tersTerm L p i nj others).energy (pullForce i (tersTerm L p i nj others).pulls)
      (if b.stress && us then -meanVirial (tersTerm L p i nj others).pulls else 0) := by
  by_cases h1 : nj.r < p.S nj.col0
  · by_cases h2 : p.B nj.col0 = 0
    · unfold tersBond tersTerm
      rw [if_pos h1, if_pos h2, if_neg (by tauto)]
      simp [pullForce, meanVirial, plus_zero]
    · unfold tersBond tersTerm
      rw [if_pos h1, if_neg h2, if_pos ⟨h1, h2⟩]
      simp only [tersInner_fold, zero_add, zero_sub]
      rw [bondSpread_plus (E := tersE L p nj (tersSum L p nj others)) (u := fun c => tersEr L p nj (tersSum L p nj others) * nj.dist c)
        (zj := tersZj L p nj) (zk := tersZk L p nj)]
      · have e : -(if (others.map (tersZ L p nj)).sum = 0 then 0 else
            -L.pow (1 + L.pow (p.gamma nj.col0 * (others.map (tersZ L p nj)).sum) (p.n nj.col0)) (-1 / (2 * p.n nj.col0)) *
              tersF L p nj.col0 nj.r * (1 / 2 * p.B nj.col0 * L.exp (-p.mu nj.col0 * nj.r)) *
              L.pow (p.gamma nj.col0 * (others.map (tersZ L p nj)).sum) (p.n nj.col0) /
              (2 * (others.map (tersZ L p nj)).sum *
                (1 + L.pow (p.gamma nj.col0 * (others.map (tersZ L p nj)).sum) (p.n nj.col0)))) = tersEz L p nj (tersSum L p nj others) := by
          unfold tersEz tersSum
          by_cases hz : (others.map (tersZ L p nj)).sum = 0
          · rw [if_pos hz, if_pos hz, neg_zero]
          · rw [if_neg hz, if_neg hz]
            ring
        rw [e]
        simp only [plus, add_zero]
        rfl
      · intro nk _ c
        rfl
      · intro c
        rfl
      · intro c
        unfold tersEr tersSum
        ring
  · unfold tersBond tersTerm
    rw [if_neg h1, if_neg (by tauto)]
    simp [pullForce, meanVirial, plus_zero]

theorem tersAtom_plus [CharZero K] (b : Build) (L : Lib K) (p : TersPars K) (c : Conf K) (hu : c.uf = true) (i : Nat) (a : Atom K) (s : Acc K) :
    tersAtom b L p c i a s = plus s (sumEnergy (bondSite (tersPots L p) (tersTerm L p) i a)) (bondForceSum (tersPots L p) (tersTerm L p) i a)
      (if b.stress && c.us then bondStress (tersPots L p) (tersTerm L p) i a else 0) := by
  unfold tersAtom
  rw [hu]
  exact bondAtom_plus b (tersPots L p) (tersTerm L p) (tersBond b L p c.us) c.us (fun i s nj others => tersBond_plus b L p c.us i s nj others) i a s

end

/-- The functions of the C library taken as the real functions. -/
noncomputable def realLib : Lib ℝ := ⟨Real.exp, Real.cos, Real.sin, fun x y => x ^ y, Real.pi⟩

/-- Two functions with common value and slope at `a` glued together there. -/
theorem hasDerivAt_two {f g f' g' : ℝ → ℝ} {a : ℝ} (hf : ∀ x, HasDerivAt f (f' x) x) (hg : ∀ x, HasDerivAt g (g' x) x) (h0 : f a = g a)
    (h1 : f' a = g' a) (x : ℝ) :
    HasDerivAt (fun y => if y < a then f y else g y) (if x < a then f' x else g' x) x := by
  rcases lt_trichotomy x a with h | h | h
  · rw [if_pos h]
    refine (hf x).congr_of_eventuallyEq ?_
    filter_upwards [Iio_mem_nhds h] with y hy
    rw [if_pos (Set.mem_Iio.1 hy)]
  · subst h
    rw [if_neg (lt_irrefl _)]
    have e1 : HasDerivWithinAt (fun y => if y < x then f y else g y) (g' x) (Set.Iic x) x := by
      rw [← h1]
      refine (hf x).hasDerivWithinAt.congr ?_ ?_
      · intro y hy
        rcases lt_or_eq_of_le (Set.mem_Iic.1 hy) with h | h
        · simp only [if_pos h]
        · subst h
          simp only [lt_irrefl, if_false]
          exact h0.symm
      · simp only [lt_irrefl, if_false]
        exact h0.symm
    have e2 : HasDerivWithinAt (fun y => if y < x then f y else g y) (g' x) (Set.Ici x) x := by
      refine (hg x).hasDerivWithinAt.congr ?_ ?_
      · intro y hy
        simp only [if_neg (not_lt.2 (Set.mem_Ici.1 hy))]
      · simp only [lt_irrefl, if_false]
    have := e1.union e2
    rw [Set.Iic_union_Ici] at this
    exact hasDerivWithinAt_univ.1 this
  · rw [if_neg (not_lt.2 h.le)]
    refine (hg x).congr_of_eventuallyEq ?_
    filter_upwards [Ioi_mem_nhds h] with y hy
    rw [if_neg (not_lt.2 (le_of_lt hy))]

theorem hasDerivAt_tersF (p : TersPars ℝ) (col : Nat) (r : ℝ) : HasDerivAt (tersF realLib p col) (tersDf realLib p col r) r := by
  have hl : ∀ y : ℝ, HasDerivAt (fun y => realLib.pi / (p.S col - p.R col) * (y - p.R col)) (realLib.pi / (p.S col - p.R col)) y := by
    intro y
    have := ((hasDerivAt_id y).sub_const (p.R col)).const_mul (realLib.pi / (p.S col - p.R col))
    simpa using this
  have hg : ∀ y : ℝ, HasDerivAt (fun y => 1 / 2 * (1 + Real.cos (realLib.pi / (p.S col - p.R col) * (y - p.R col))))
      (-(1 / 2) * (realLib.pi / (p.S col - p.R col)) * Real.sin (realLib.pi / (p.S col - p.R col) * (y - p.R col))) y := by
    intro y
    refine (((hl y).cos.const_add 1).const_mul (1 / 2)).congr_deriv ?_
    ring
  exact hasDerivAt_two (f := fun _ => 1) (f' := fun _ => 0) (fun x => hasDerivAt_const x (1 : ℝ)) hg (by simp; norm_num) (by simp) r

theorem hasDerivAt_tersG (p : TersPars ℝ) (col : Nat) (hd : p.d col ≠ 0) (x : ℝ) : HasDerivAt (tersG p col) (-tersDg p col x) x := by
  have h1 : HasDerivAt (fun x => p.h col - x) (-1) x := by simpa using (hasDerivAt_id x).const_sub (p.h col)
  have hpos : p.d col * p.d col + (p.h col - x) * (p.h col - x) ≠ 0 := by
    have := mul_self_pos.2 hd
    have := mul_self_nonneg (p.h col - x)
    linarith
  have h2 := (((h1.mul h1).const_add (p.d col * p.d col)).fun_inv hpos)
  have h3 := ((h2.const_mul (p.c col * p.c col)).const_sub (1 + p.c col * p.c col / (p.d col * p.d col)))
  have e : tersG p col = fun x => 1 + p.c col * p.c col / (p.d col * p.d col) -
      p.c col * p.c col * (p.d col * p.d col + ((fun x => p.h col - x) * fun x => p.h col - x) x)⁻¹ := by
    funext y
    simp only [tersG, one_div, Pi.mul_apply]
  rw [e]
  refine h3.congr_deriv ?_
  unfold tersDg
  simp only [Pi.mul_apply]
  field_simp
  ring

/-- Dependence of the bond order on `zeta`. -/
noncomputable def bondOrder (gamma n z : ℝ) : ℝ := (1 + (gamma * z) ^ n) ^ (-1 / (2 * n))

theorem hasDerivAt_bondOrder (gamma n z : ℝ) (hg : 0 < gamma) (hn : 0 < n) (hz : 0 < z) :
    HasDerivAt (bondOrder gamma n) (-(bondOrder gamma n z * (gamma * z) ^ n / (2 * z * (1 + (gamma * z) ^ n)))) z := by
  have hgz : 0 < gamma * z := mul_pos hg hz
  have hp : 0 < (gamma * z) ^ n := Real.rpow_pos_of_pos hgz n
  have h1 : HasDerivAt (fun z => gamma * z) gamma z := by simpa using (hasDerivAt_id z).const_mul gamma
  have h2 := h1.rpow_const (p := n) (Or.inl hgz.ne')
  have h3 := (h2.const_add 1).rpow_const (p := -1 / (2 * n)) (Or.inl (by positivity))
  refine h3.congr_deriv ?_
  have e1 : (gamma * z) ^ (n - 1) = (gamma * z) ^ n / (gamma * z) := Real.rpow_sub_one hgz.ne' n
  have e2 : (1 + (gamma * z) ^ n) ^ (-1 / (2 * n) - 1) = (1 + (gamma * z) ^ n) ^ (-1 / (2 * n)) / (1 + (gamma * z) ^ n) :=
    Real.rpow_sub_one (by positivity) _
  rw [e1, e2]
  unfold bondOrder
  field_simp

theorem sum_hasDerivAt {α : Type*} (l : List α) (f : α → ℝ → ℝ) (f' : α → ℝ) (x : ℝ) (h : ∀ a ∈ l, HasDerivAt (f a) (f' a) x) :
    HasDerivAt (fun t => (l.map fun a => f a t).sum) (l.map f').sum x := by
  induction l with
  | nil => simpa using hasDerivAt_const x (0 : ℝ)
  | cons a l ih =>
    simp only [List.map_cons, List.sum_cons]
    exact (h a List.mem_cons_self).add (ih fun b hb => h b (List.mem_cons_of_mem _ hb))

/-- The cut-off function along a motion. -/
theorem hasDerivAt_cutF (m : Motion) (p : TersPars ℝ) (i : Nat) (l : Link) (h0 : length (m.path m.now i l) ≠ 0)
    (hS : length (m.path m.now i l) ≠ p.S l.col0) :
    HasDerivAt (fun t => if (placedAt (m.path t i l) l).r < p.S l.col0 then tersF realLib p l.col0 (placedAt (m.path t i l) l).r else 0)
      ((if length (m.path m.now i l) < p.S l.col0 then tersDf realLib p l.col0 (length (m.path m.now i l)) else 0) *
        ∑ k : Fin 3, (placedAt (m.path m.now i l) l).distR k * m.speed i (placedAt (m.path m.now i l) l) k) m.now := by
  have hP : CutSlope (p.S l.col0) (tersF realLib p l.col0) (tersDf realLib p l.col0 (length (m.path m.now i l))) (length (m.path m.now i l)) := by
    rcases lt_or_gt_of_ne hS with h | h
    · exact cutSlope_inside (hasDerivAt_tersF p l.col0 _) h
    · exact cutSlope_outside h
  have hP' : HasDerivAt (fun r => if r < p.S l.col0 then tersF realLib p l.col0 r else 0)
    (if length (m.path m.now i l) < p.S l.col0 then tersDf realLib p l.col0 (length (m.path m.now i l)) else 0)
    ((fun t => (placedAt (m.path t i l) l).r) m.now) := hP
  exact hP'.comp m.now (hasDerivAt_r m i l h0)

theorem hasDerivAt_tersZ (m : Motion) (p : TersPars ℝ) (i : Nat) (l l' : Link) (hd : p.d l.col0 ≠ 0)
    (h0 : length (m.path m.now i l) ≠ 0) (h0' : length (m.path m.now i l') ≠ 0) (hS : length (m.path m.now i l') ≠ p.S l'.col0) :
    HasDerivAt (fun t => tersZ realLib p (placedAt (m.path t i l) l) (placedAt (m.path t i l') l'))
      ((∑ c, tersZj realLib p (placedAt (m.path m.now i l) l) (placedAt (m.path m.now i l') l') c * m.speed i (placedAt (m.path m.now i l) l) c) +
       ∑ c, tersZk realLib p (placedAt (m.path m.now i l) l) (placedAt (m.path m.now i l') l') c * m.speed i (placedAt (m.path m.now i l') l') c)
      m.now := by
  have hf := hasDerivAt_cutF m p i l' h0' hS
  have hc := hasDerivAt_cosine m i l l' h0 h0'
  simp only at hc
  have hgc := HasDerivAt.comp m.now (h₂ := tersG p l.col0)
    (h := fun t => cosine (placedAt (m.path t i l) l) (placedAt (m.path t i l') l')) (hasDerivAt_tersG p l.col0 hd _) hc
  have h := (hf.mul_const (p.omega l'.col0)).mul hgc
  refine (h.congr_of_eventuallyEq (Filter.Eventually.of_forall fun t => ?_)).congr_deriv ?_
  · have c2 : (placedAt (m.path t i l') l').col0 = l'.col0 := rfl
    have c1 : (placedAt (m.path t i l) l).col0 = l.col0 := rfl
    simp only [tersZ, Pi.mul_apply, Function.comp, c1, c2]
    by_cases hb : (placedAt (m.path t i l') l').r < p.S l'.col0 <;> simp [hb]
  · have r1 : (placedAt (m.path m.now i l) l).r = length (m.path m.now i l) := rfl
    have r2 : (placedAt (m.path m.now i l') l').r = length (m.path m.now i l') := rfl
    have c1 : (placedAt (m.path m.now i l) l).col0 = l.col0 := rfl
    have c2 : (placedAt (m.path m.now i l') l').col0 = l'.col0 := rfl
    have e1 : ∀ c, (placedAt (m.path m.now i l) l).dist c =
      (placedAt (m.path m.now i l) l).distR c * length (m.path m.now i l) := fun c => rfl
    have e2 : ∀ c, (placedAt (m.path m.now i l') l').dist c =
      (placedAt (m.path m.now i l') l').distR c * length (m.path m.now i l') := fun c => rfl
    simp only [tersZj, tersZk, tersDzeta, tersDcos, tersDcosK, r1, r2, c1, c2, e1, e2, Fin.sum_univ_three, Function.comp]
    by_cases hb : length (m.path m.now i l') < p.S l'.col0
    · simp only [if_pos hb]
      field_simp
      ring
    · simp only [if_neg hb, zero_mul, add_zero]

theorem tersF_pos (p : TersPars ℝ) (col : Nat) (hRS : p.R col < p.S col) {r : ℝ} (hr : r < p.S col) : 0 < tersF realLib p col r := by
  unfold tersF
  by_cases h : r < p.R col
  · simp [h]
  · simp only [if_neg h]
    have h1 : 0 < p.S col - p.R col := by linarith
    have h2 : 0 ≤ r - p.R col := by linarith [not_lt.1 h]
    have h3 : Real.pi / (p.S col - p.R col) * (r - p.R col) < Real.pi := by
      rw [div_mul_eq_mul_div, div_lt_iff₀ h1]
      exact mul_lt_mul_of_pos_left (by linarith) Real.pi_pos
    have h4 : Real.cos Real.pi < Real.cos (Real.pi / (p.S col - p.R col) * (r - p.R col)) :=
      Real.cos_lt_cos_of_nonneg_of_le_pi (by have := Real.pi_pos; positivity) le_rfl h3
    rw [Real.cos_pi] at h4
    show 0 < 1 / 2 * (1 + Real.cos (Real.pi / (p.S col - p.R col) * (r - p.R col)))
    linarith

theorem tersG_pos (p : TersPars ℝ) (col : Nat) (hd : p.d col ≠ 0) (x : ℝ) : 0 < tersG p col x := by
  unfold tersG
  simp only
  have h1 : 0 < p.d col * p.d col := mul_self_pos.2 hd
  have h2 := mul_self_nonneg (p.h col - x)
  have h3 := mul_self_nonneg (p.c col)
  have h4 : p.c col * p.c col * (1 / (p.d col * p.d col + (p.h col - x) * (p.h col - x))) ≤ p.c col * p.c col / (p.d col * p.d col) := by
    rw [mul_one_div]
    exact div_le_div_of_nonneg_left h3 h1 (by linarith)
  linarith

theorem list_sum_pos {α : Type*} (l : List α) (f : α → ℝ) (h : ∀ a ∈ l, 0 ≤ f a) (a : α) (ha : a ∈ l) (hp : 0 < f a) :
    0 < (l.map f).sum := by
  induction l with
  | nil => simp at ha
  | cons b l ih =>
    have h0 : 0 ≤ (l.map f).sum := List.sum_nonneg (by
      intro x hx
      obtain ⟨y, hy, rfl⟩ := List.mem_map.1 hx
      exact h y (List.mem_cons_of_mem _ hy))
    simp only [List.map_cons, List.sum_cons]
    rcases List.mem_cons.1 ha with rfl | ha
    · linarith
    · have := ih (fun y hy => h y (List.mem_cons_of_mem _ hy)) ha
      have := h b List.mem_cons_self
      linarith

/-- Conditions on the parameters of a column. -/
structure TersOk (p : TersPars ℝ) (col : Nat) : Prop where
  range : p.R col < p.S col
  gamma : 0 < p.gamma col
  n : 0 < p.n col
  d : p.d col ≠ 0
  omega : 0 < p.omega col

theorem tersZ_nonneg (p : TersPars ℝ) (hp : ∀ col, TersOk p col) (nj nk : Neigh ℝ) : 0 ≤ tersZ realLib p nj nk := by
  unfold tersZ
  by_cases h : nk.r < p.S nk.col0
  · rw [if_pos h]
    have := tersF_pos p nk.col0 (hp _).range h
    have := tersG_pos p nj.col0 (hp _).d (cosine nj nk)
    have := (hp nk.col0).omega
    positivity
  · rw [if_neg h]

/-- The bond order along a motion. -/
theorem hasDerivAt_order (m : Motion) (p : TersPars ℝ) (hp : ∀ col, TersOk p col) (i : Nat) (l : Link) (ls : List Link)
    (h0 : length (m.path m.now i l) ≠ 0) (hs : ∀ l' ∈ ls, length (m.path m.now i l') ≠ 0 ∧ length (m.path m.now i l') ≠ p.S l'.col0) :
    let nj := placedAt (m.path m.now i l) l
    let others := ls.map fun l' => placedAt (m.path m.now i l') l'
    let z := tersSum realLib p nj others
    let z' := (others.map fun nk => (∑ c, tersZj realLib p nj nk c * m.speed i nj c) + ∑ c, tersZk realLib p nj nk c * m.speed i nk c).sum
    HasDerivAt (fun t => bondOrder (p.gamma l.col0) (p.n l.col0)
        (tersSum realLib p (placedAt (m.path t i l) l) (ls.map fun l' => placedAt (m.path t i l') l')))
      (if z = 0 then 0 else
        -(bondOrder (p.gamma l.col0) (p.n l.col0) z * (p.gamma l.col0 * z) ^ p.n l.col0 / (2 * z * (1 + (p.gamma l.col0 * z) ^ p.n l.col0))) * z')
      m.now := by
  intro nj others z z'
  by_cases hin : ∃ l' ∈ ls, length (m.path m.now i l') < p.S l'.col0
  · obtain ⟨l', hl', hlt⟩ := hin
    have hz : 0 < z := by
      show 0 < ((ls.map fun l' => placedAt (m.path m.now i l') l').map (tersZ realLib p nj)).sum
      rw [List.map_map]
      apply list_sum_pos ls _ (fun l'' _ => tersZ_nonneg p hp nj _) l' hl'
      simp only [Function.comp, tersZ]
      rw [if_pos (show (placedAt (m.path m.now i l') l').r < p.S (placedAt (m.path m.now i l') l').col0 from hlt)]
      have := tersF_pos p l'.col0 (hp _).range hlt
      have := tersG_pos p l.col0 (hp _).d (cosine nj (placedAt (m.path m.now i l') l'))
      have := (hp l'.col0).omega
      exact mul_pos (mul_pos (by assumption) (by assumption)) (by assumption)
    rw [if_neg hz.ne']
    have hsum : HasDerivAt (fun t => tersSum realLib p (placedAt (m.path t i l) l) (ls.map fun l' => placedAt (m.path t i l') l')) z' m.now := by
      have := sum_hasDerivAt ls (fun l' t => tersZ realLib p (placedAt (m.path t i l) l) (placedAt (m.path t i l') l')) _ m.now
        (fun l' hl' => hasDerivAt_tersZ m p i l l' (hp _).d h0 (hs l' hl').1 (hs l' hl').2)
      refine (this.congr_of_eventuallyEq (Filter.Eventually.of_forall fun t => ?_)).congr_deriv ?_
      · simp only [tersSum, List.map_map, Function.comp_def]
      · simp only [z', others, List.map_map, Function.comp_def, nj]
    exact (hasDerivAt_bondOrder (p.gamma l.col0) (p.n l.col0) z (hp _).gamma (hp _).n hz).comp m.now hsum
  · push Not at hin
    have hgt : ∀ l' ∈ ls, p.S l'.col0 < length (m.path m.now i l') := fun l' hl' => lt_of_le_of_ne (hin l' hl') (hs l' hl').2.symm
    have hz : z = 0 := by
      show ((ls.map fun l' => placedAt (m.path m.now i l') l').map (tersZ realLib p nj)).sum = 0
      rw [List.map_map]
      apply List.sum_eq_zero
      intro x hx
      obtain ⟨l', hl', rfl⟩ := List.mem_map.1 hx
      simp only [Function.comp, tersZ]
      rw [if_neg (show ¬ (placedAt (m.path m.now i l') l').r < p.S (placedAt (m.path m.now i l') l').col0 from not_lt.2 (hin l' hl'))]
    rw [if_pos hz]
    refine (hasDerivAt_const m.now (bondOrder (p.gamma l.col0) (p.n l.col0) 0)).congr_of_eventuallyEq ?_
    have hev : ∀ᶠ t in nhds m.now, ∀ l' ∈ ls, p.S l'.col0 < length (m.path t i l') := by
      clear hin hz z z' others
      induction ls with
      | nil => simp
      | cons l' ls ih =>
        have h1 := ih (fun x hx => hs x (List.mem_cons_of_mem _ hx)) (fun x hx => hgt x (List.mem_cons_of_mem _ hx))
        have h2 : ∀ᶠ t in nhds m.now, p.S l'.col0 < length (m.path t i l') :=
          (hasDerivAt_r m i l' (hs l' List.mem_cons_self).1).continuousAt.eventually (lt_mem_nhds (hgt l' List.mem_cons_self))
        filter_upwards [h1, h2] with t ht1 ht2
        intro x hx
        rcases List.mem_cons.1 hx with rfl | hx
        · exact ht2
        · exact ht1 x hx
    filter_upwards [hev] with t ht
    congr 1
    unfold tersSum
    rw [List.map_map]
    apply List.sum_eq_zero
    intro x hx
    obtain ⟨l', hl', rfl⟩ := List.mem_map.1 hx
    simp only [Function.comp, tersZ]
    rw [if_neg (show ¬ (placedAt (m.path t i l') l').r < p.S (placedAt (m.path t i l') l').col0 from not_lt.2 (ht l' hl').le)]

/-- Bonds of the Tersoff potential. -/
theorem follow_ters (m : Motion) (p : TersPars ℝ) (hp : ∀ col, TersOk p col) (i : Nat) (l : Link) (ls : List Link)
    (hl : length (m.path m.now i l) ≠ 0 ∧ length (m.path m.now i l) ≠ p.S l.col0)
    (hs : ∀ l' ∈ ls, length (m.path m.now i l') ≠ 0 ∧ length (m.path m.now i l') ≠ p.S l'.col0) :
    HasDerivAt (fun t => (tersTerm realLib p i (placedAt (m.path t i l) l) (ls.map fun l' => placedAt (m.path t i l') l')).energy)
      ((tersTerm realLib p i (placedAt (m.path m.now i l) l) (ls.map fun l' => placedAt (m.path m.now i l') l')).rate m.speed) m.now := by
  have c1 : ∀ t, (placedAt (m.path t i l) l).col0 = l.col0 := fun _ => rfl
  have r1 : (placedAt (m.path m.now i l) l).r = length (m.path m.now i l) := rfl
  have e1 : ∀ c, (placedAt (m.path m.now i l) l).dist c =
      (placedAt (m.path m.now i l) l).distR c * length (m.path m.now i l) := fun c => rfl
  by_cases hB : p.B l.col0 = 0
  · have e : ∀ t, tersTerm realLib p i (placedAt (m.path t i l) l) (ls.map fun l' => placedAt (m.path t i l') l') = ⟨i, 0, []⟩ := by
      intro t
      unfold tersTerm
      rw [if_neg]
      rw [c1]
      tauto
    simp only [e, Term.rate, List.map_nil, List.sum_nil]
    exact hasDerivAt_const _ _
  · have hf := hasDerivAt_cutF m p i l hl.1 hl.2
    have ho := hasDerivAt_order m p hp i l ls hl.1 hs
    simp only at ho
    have hr := hasDerivAt_r m i l hl.1
    have he := ((hr.const_mul (-p.mu l.col0)).exp).const_mul (1 / 2 * p.B l.col0)
    have h := hf.mul (ho.neg.mul he)
    refine (h.congr_of_eventuallyEq (Filter.Eventually.of_forall fun t => ?_)).congr_deriv ?_
    · simp only [Pi.mul_apply, Pi.neg_apply]
      by_cases hb : (placedAt (m.path t i l) l).r < p.S l.col0
      · have : tersTerm realLib p i (placedAt (m.path t i l) l) (ls.map fun l' => placedAt (m.path t i l') l') = _ :=
          if_pos (show (placedAt (m.path t i l) l).r < p.S (placedAt (m.path t i l) l).col0 ∧ p.B (placedAt (m.path t i l) l).col0 ≠ 0 from ⟨hb, hB⟩)
        rw [this, if_pos hb]
        rfl
      · have : tersTerm realLib p i (placedAt (m.path t i l) l) (ls.map fun l' => placedAt (m.path t i l') l') = _ :=
          if_neg (show ¬((placedAt (m.path t i l) l).r < p.S (placedAt (m.path t i l) l).col0 ∧ p.B (placedAt (m.path t i l) l).col0 ≠ 0) from
            fun h => hb h.1)
        rw [this, if_neg hb, zero_mul]
    · by_cases hb : length (m.path m.now i l) < p.S l.col0
      · have : tersTerm realLib p i (placedAt (m.path m.now i l) l) (ls.map fun l' => placedAt (m.path m.now i l') l') = _ :=
          if_pos (show (placedAt (m.path m.now i l) l).r < p.S (placedAt (m.path m.now i l) l).col0 ∧
            p.B (placedAt (m.path m.now i l) l).col0 ≠ 0 from ⟨hb, hB⟩)
        rw [this, bondTerm_rate]
        simp only [if_pos hb, r1, c1, Pi.mul_apply, Pi.neg_apply]
        generalize (List.map (fun nk => (∑ c, tersZj realLib p (placedAt (m.path m.now i l) l) nk c * m.speed i (placedAt (m.path m.now i l) l) c) +
          ∑ c, tersZk realLib p (placedAt (m.path m.now i l) l) nk c * m.speed i nk c) (ls.map fun l' => placedAt (m.path m.now i l') l')).sum = z'
        generalize tersSum realLib p (placedAt (m.path m.now i l) l) (ls.map fun l' => placedAt (m.path m.now i l') l') = z
        have hne := hl.1
        simp only [tersEr, tersEz, c1, r1, e1, bondOrder, realLib, Fin.sum_univ_three]
        by_cases hz : z = 0
        · simp only [if_pos hz]
          field_simp
          ring
        · simp only [if_neg hz]
          have e3 : ∀ c, tersF { exp := Real.exp, cos := Real.cos, sin := Real.sin, pow := fun x y => x ^ y, pi := Real.pi } p l.col0 c = tersF realLib p l.col0 c := fun _ => rfl
          field_simp
          ring
      · have : tersTerm realLib p i (placedAt (m.path m.now i l) l) (ls.map fun l' => placedAt (m.path m.now i l') l') = _ :=
          if_neg (show ¬((placedAt (m.path m.now i l) l).r < p.S (placedAt (m.path m.now i l) l).col0 ∧
            p.B (placedAt (m.path m.now i l) l).col0 ≠ 0) from fun h => hb h.1)
        rw [this]
        simp only [Term.rate, List.map_nil, List.sum_nil, if_neg hb, r1, zero_mul, add_zero]

theorem tersTerm_sym (p : TersPars ℝ) (i : Nat) (nj : Neigh ℝ) (others : List (Neigh ℝ)) (α β : Fin 3) :
    (tersTerm realLib p i nj others).strain α β = (tersTerm realLib p i nj others).strain β α := by
  unfold tersTerm
  by_cases h : nj.r < p.S nj.col0 ∧ p.B nj.col0 ≠ 0
  · rw [if_pos h]
    apply bondTerm_sym
    · intro α β; ring
    · intro nk _ α β
      simp only [tersZj, tersZk, tersDzeta, tersDcos, tersDcosK]
      by_cases hk : nk.r < p.S nk.col0
      · simp only [if_pos hk]; ring
      · simp only [if_neg hk, zero_mul, add_zero]
  · rw [if_neg h]
    simp [Term.strain]

end Verif.Spec
