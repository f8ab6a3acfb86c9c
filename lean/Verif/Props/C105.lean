import Verif.Model.PunishIndex
import Verif.Model.Catalogue
import Verif.Lemmas.Objective
import Mathlib.Tactic.Linarith
import Mathlib.Tactic.NormNum
import Mathlib.Tactic.Ring
import Mathlib.Tactic.Positivity
import Mathlib.Algebra.Order.BigOperators.Group.List

set_option linter.unusedSectionVars false

/-!
# C105 Punishments of analytic potentials

A parameter outside its bounds costs `10^7` times the squared distance from the bounds. Potentials of type `eopp` are to be punished for
`eta_1 < eta_2`, those of type `universal` for `m = n`. The theorems start from names of the potentials and the parameter vector.
-/

namespace Verif.Props

open Verif.Force Verif.Spec

variable {K : Type*} [Field K] [LinearOrder K] [IsStrictOrderedRing K]

/-- Distance of `v` from the interval from `lo` to `hi`. -/
def outside (lo hi v : K) : K := max (lo - v) (max (v - hi) 0)

/-- Numbers of the potentials whose name begins with `s`. -/
def withName (s : String) (names : List String) : List ℕ :=
  (List.range names.length).filter fun i => ∃ n, names[i]? = some n ∧ s.toList <+: n.toList

theorem startsAs_iff (s n : List Char) : startsAs s n = true ↔ s <+: n := by
  rw [startsAs, beq_iff_eq, List.prefix_iff_eq_take]
  exact eq_comm

/-- No name begins with both. -/
theorem not_both {n : List Char} (h : ['e', 'o', 'p', 'p'] <+: n) : ¬ ['u', 'n', 'i', 'v', 'e', 'r', 's', 'a', 'l'] <+: n := by
  obtain ⟨t, rfl⟩ := h
  rintro ⟨u, hu⟩
  simp at hu

theorem assign_foldl (l : List (List Char × ℕ)) (t : PunishIndex) :
    l.foldl assignPunish t = ⟨t.eopp ++ (l.filter fun x => startsAs ['e', 'o', 'p', 'p'] x.1).map Prod.snd,
      t.univ ++ (l.filter fun x => startsAs ['u', 'n', 'i', 'v', 'e', 'r', 's', 'a', 'l'] x.1).map Prod.snd⟩ := by
  induction l generalizing t with
  | nil => simp
  | cons a l ih =>
    rw [List.foldl_cons, ih]
    unfold assignPunish
    by_cases h1 : startsAs ['e', 'o', 'p', 'p'] a.1 = true
    · have h2 : ¬ startsAs ['u', 'n', 'i', 'v', 'e', 'r', 's', 'a', 'l'] a.1 = true := by
        rw [startsAs_iff] at h1 ⊢
        exact not_both h1
      simp [h1, h2]
    · by_cases h2 : startsAs ['u', 'n', 'i', 'v', 'e', 'r', 's', 'a', 'l'] a.1 = true
      · simp [h1, h2]
      · simp [h1, h2]

theorem filter_names (s : List Char) : ∀ (names : List (List Char)) (k : ℕ),
    ((names.zipIdx k).filter fun x => startsAs s x.1).map Prod.snd =
      (List.range' k names.length).filter fun i => decide (∃ n, names[i - k]? = some n ∧ s <+: n) := by
  intro names
  induction names with
  | nil => intro k; simp
  | cons a names ih =>
    intro k
    have hrest : (List.range' (k + 1) names.length).filter (fun i => decide (∃ n, (a :: names)[i - k]? = some n ∧ s <+: n)) =
        (List.range' (k + 1) names.length).filter fun i => decide (∃ n, names[i - (k + 1)]? = some n ∧ s <+: n) := by
      refine List.filter_congr fun i hi => ?_
      have := List.mem_range'_1.1 hi
      rw [show i - k = (i - (k + 1)) + 1 by omega, List.getElem?_cons_succ]
    rw [List.zipIdx_cons, List.length_cons, List.range'_succ, List.filter_cons, List.filter_cons, hrest, ← ih]
    have hk : decide (∃ n, (a :: names)[k - k]? = some n ∧ s <+: n) = startsAs s a := by
      rw [Bool.eq_iff_iff, decide_eq_true_iff, startsAs_iff]
      simp
    rw [hk]
    split <;> simp

/-- **Which potentials are punished**: those whose names begin with `eopp` and `universal`. -/
theorem C105_index (names : List String) :
    punishIndex (names.map String.toList) = ⟨withName "eopp" names, withName "universal" names⟩ := by
  have key : ∀ s : String, ((names.map String.toList).zipIdx.filter fun x => startsAs s.toList x.1).map Prod.snd = withName s names := by
    intro s
    rw [filter_names, List.length_map, ← List.range_eq_range']
    unfold withName
    refine List.filter_congr fun i _ => ?_
    rw [Bool.eq_iff_iff, decide_eq_true_iff, decide_eq_true_iff]
    rw [Nat.sub_zero, List.getElem?_map]
    constructor
    · rintro ⟨n, h1, h2⟩
      obtain ⟨m, h3, rfl⟩ := Option.map_eq_some_iff.1 h1
      exact ⟨m, h3, h2⟩
    · rintro ⟨n, h1, h2⟩
      exact ⟨_, by rw [h1]; rfl, h2⟩
  unfold punishIndex
  rw [assign_foldl]
  have h1 := key "eopp"
  have h2 := key "universal"
  rw [show "eopp".toList = ['e', 'o', 'p', 'p'] by decide] at h1
  rw [show "universal".toList = ['u', 'n', 'i', 'v', 'e', 'r', 's', 'a', 'l'] by decide] at h2
  rw [List.nil_append, List.nil_append, h1, h2]

/-- Of the functions of the program these are `eopp`, `eopp_exp` and `universal`, but not `meopp`. -/
theorem C105_functions (f : Catalogue.Fn) : ("eopp".toList <+: f.name.toList ↔ f = .eopp ∨ f = .eoppExp) ∧
    ("universal".toList <+: f.name.toList ↔ f = .universal) := by
  cases f <;> decide +kernel

theorem outside_nonneg (lo hi v : K) : 0 ≤ outside lo hi v := le_max_of_le_right (le_max_right _ _)

theorem outside_zero {lo hi v : K} : outside lo hi v = 0 ↔ lo ≤ v ∧ v ≤ hi := by
  constructor
  · intro h
    have h1 : lo - v ≤ outside lo hi v := le_max_left _ _
    have h2 : v - hi ≤ outside lo hi v := le_max_of_le_right (le_max_left _ _)
    constructor <;> linarith
  · rintro ⟨h1, h2⟩
    refine le_antisymm ?_ (outside_nonneg _ _ _)
    exact max_le (by linarith) (max_le (by linarith) le_rfl)

theorem parPenalty_outside {lo hi v : K} (h : lo ≤ hi) : parPenalty ⟨v, lo, hi⟩ = 10000000 * outside lo hi v ^ 2 := by
  unfold parPenalty outside
  simp only
  split_ifs with h1 h2
  · rw [max_eq_left (max_le (by linarith) (by linarith))]
  · rw [max_eq_right (le_max_of_le_left (by linarith)), max_eq_left (by linarith)]
  · rw [max_eq_right (a := v - hi) (by linarith), max_eq_right (by linarith)]
    ring

/-- The condition on `eopp`: `w (1 - (eta_2 - eta_1))^2` if `eta_1 < eta_2`. -/
def eoppTerm (w : K) (first : ℕ → ℕ) (x : ℕ → K) (p : ℕ) : K :=
  if x (first p + 1) < x (first p + 3) then w * (1 - (x (first p + 3) - x (first p + 1))) ^ 2 else 0

/-- The condition on `universal`: `w / (m - n)^2` if `m` and `n` are nearly the same. -/
def universalTerm (w : K) (first : ℕ → ℕ) (x : ℕ → K) (p : ℕ) : K :=
  if |x (first p + 1) - x (first p + 2)| < 1 / 1000000 then w / (x (first p + 1) - x (first p + 2)) ^ 2 else 0

/-- **The value.** -/
theorem C105_value {names : List String} {w : K} {first : ℕ → ℕ} {free : List (Free K)} (hfree : ∀ q ∈ free, q.lo ≤ q.hi) {x par pot : ℕ → K}
    {r : Pun K} (h : apotPunishAll w (punishIndex (names.map String.toList)) first free x par pot = .ok r) :
    r.sum = (free.map fun q => 10000000 * outside q.lo q.hi (x q.at_) ^ 2).sum +
      ((withName "eopp" names).map (eoppTerm w first x)).sum + ((withName "universal" names).map (universalTerm w first x)).sum := by
  rw [C105_index] at h
  rw [apotPunish_sum _ _ _ _ _ _ r h]
  unfold totalPenalty boundsAt eoppAt univAt
  rw [List.map_map, List.map_map, List.map_map]
  congr 1
  · congr 1
    · congr 1
      refine List.map_congr_left fun q hq => ?_
      exact parPenalty_outside (hfree q hq)
    · congr 1
      refine List.map_congr_left fun p _ => ?_
      simp only [Function.comp_apply, eoppPenalty, eoppTerm, sub_neg]
      refine if_congr Iff.rfl ?_ rfl
      ring
  · congr 1
    refine List.map_congr_left fun p _ => ?_
    simp only [Function.comp_apply, universalPenalty, universalTerm, sq_abs]
    rw [abs_sub_comm]
    refine if_congr Iff.rfl ?_ rfl
    ring

theorem pun_foldl_pars (qs : List (Bound K)) (hq : ∀ q ∈ qs, q.lo ≤ q.value ∧ q.value ≤ q.hi) (i : ℕ) (s : Pun K) : punishPars qs i s = s := by
  induction qs generalizing i s with
  | nil => rfl
  | cons q qs ih =>
    have h1 := hq q List.mem_cons_self
    rw [punishPars, ih fun q' h => hq q' (List.mem_cons_of_mem _ h)]
    unfold punishPar
    rw [if_neg (not_lt.2 h1.1), if_neg (not_lt.2 h1.2)]

/-- **No punishment without reason**: parameters within their bounds, `eta_1 ≥ eta_2`, `m` and `n` different by `10^-6` or more: the value is
zero, no entry of the residual vector is written. -/
theorem C105_none {names : List String} {w : K} {first : ℕ → ℕ} {free : List (Free K)} {x par pot : ℕ → K}
    (hb : ∀ q ∈ free, q.lo ≤ x q.at_ ∧ x q.at_ ≤ q.hi) (he : ∀ p ∈ withName "eopp" names, x (first p + 3) ≤ x (first p + 1))
    (hu : ∀ p ∈ withName "universal" names, 1 / 1000000 ≤ |x (first p + 1) - x (first p + 2)|) :
    apotPunishAll w (punishIndex (names.map String.toList)) first free x par pot = .ok ⟨par, pot, 0⟩ := by
  rw [C105_index]
  unfold apotPunishAll apotPunish
  rw [pun_foldl_pars _ (by
    intro q hq
    obtain ⟨f, hf, rfl⟩ := List.mem_map.1 hq
    exact hb f hf)]
  have h1 : (eoppAt ⟨withName "eopp" names, withName "universal" names⟩ first x).foldl (punishEopp w) ⟨par, pot, 0⟩ = ⟨par, pot, 0⟩ := by
    unfold eoppAt
    simp only
    generalize withName "eopp" names = l at he
    induction l with
    | nil => rfl
    | cons p l ih =>
      rw [List.map_cons, List.foldl_cons]
      have : punishEopp w (⟨par, pot, 0⟩ : Pun K) (p, x (first p + 1) - x (first p + 3)) = ⟨par, pot, 0⟩ := by
        unfold punishEopp
        rw [if_neg (not_lt.2 (sub_nonneg.2 (he p List.mem_cons_self)))]
      rw [this]
      exact ih fun q hq => he q (List.mem_cons_of_mem _ hq)
  rw [h1]
  unfold univAt
  simp only
  generalize withName "universal" names = l at hu
  induction l with
  | nil => rfl
  | cons p l ih =>
    rw [List.map_cons, List.foldlM_cons]
    have : punishUniversal w (⟨par, pot, 0⟩ : Pun K) (p, |x (first p + 2) - x (first p + 1)|) = .ok ⟨par, pot, 0⟩ := by
      unfold punishUniversal
      rw [if_neg (not_lt.2 (by rw [abs_sub_comm]; exact hu p List.mem_cons_self))]
    rw [this]
    exact ih fun q hq => hu q (List.mem_cons_of_mem _ hq)

theorem foldlM_universal (w : K) : ∀ (l : List (ℕ × K)) (s : Pun K),
    (∃ r, l.foldlM (punishUniversal w) s = .ok r) ↔ ∀ px ∈ l, px.2 < 1 / 1000000 → px.2 ≠ 0 := by
  intro l
  induction l with
  | nil => intro s; simp only [List.foldlM_nil, List.not_mem_nil, false_imp_iff, implies_true, iff_true]; exact ⟨s, rfl⟩
  | cons a l ih =>
    intro s
    rw [List.foldlM_cons, List.forall_mem_cons]
    unfold punishUniversal
    by_cases h1 : a.2 < 1 / 1000000
    · rw [if_pos h1]
      by_cases h0 : a.2 = 0
      · constructor
        · rintro ⟨r, hr⟩
          simp [cdiv, h0, bind, Except.bind] at hr
        · rintro ⟨h, -⟩
          exact absurd h0 (h h1)
      · have : cdiv w (a.2 * a.2) = .ok (w / (a.2 * a.2)) := by unfold cdiv; rw [if_neg (mul_self_ne_zero.2 h0)]
        rw [this]
        refine (ih _).trans ⟨fun h => ⟨fun _ => h0, h⟩, fun h => h.2⟩
    · rw [if_neg h1]
      refine (ih _).trans ⟨fun h => ⟨fun h2 => absurd h2 h1, h⟩, fun h => h.2⟩

/-- **When there is a value**: unless `m = n` for some potential of type `universal`. -/
theorem C105_defined {names : List String} {w : K} {first : ℕ → ℕ} {free : List (Free K)} {x par pot : ℕ → K} :
    (∃ r, apotPunishAll w (punishIndex (names.map String.toList)) first free x par pot = .ok r) ↔
      ∀ p ∈ withName "universal" names, x (first p + 1) ≠ x (first p + 2) := by
  rw [C105_index]
  unfold apotPunishAll apotPunish
  rw [foldlM_universal]
  unfold univAt
  simp only [List.mem_map]
  constructor
  · intro h p hp he
    refine h _ ⟨p, hp, rfl⟩ ?_ ?_
    · rw [he, sub_self, abs_zero]; norm_num
    · rw [he, sub_self, abs_zero]
  · rintro h px ⟨p, hp, rfl⟩ _ h0
    exact h p hp (sub_eq_zero.1 (abs_eq_zero.1 h0)).symm

theorem list_sum_zero {l : List K} (h : ∀ y ∈ l, 0 ≤ y) (h0 : l.sum = 0) : ∀ y ∈ l, y = 0 := by
  induction l with
  | nil => simp
  | cons a l ih =>
    rw [List.sum_cons] at h0
    have ha := h a List.mem_cons_self
    have hl : 0 ≤ l.sum := List.sum_nonneg fun y hy => h y (List.mem_cons_of_mem _ hy)
    intro y hy
    rcases List.mem_cons.1 hy with rfl | hy
    · linarith
    · exact ih (fun y hy => h y (List.mem_cons_of_mem _ hy)) (by linarith) y hy

theorem eoppTerm_nonneg {w : K} (hw : 0 ≤ w) (first : ℕ → ℕ) (x : ℕ → K) (p : ℕ) : 0 ≤ eoppTerm w first x p := by
  unfold eoppTerm
  split
  · exact mul_nonneg hw (sq_nonneg _)
  · exact le_rfl

theorem universalTerm_nonneg {w : K} (hw : 0 ≤ w) (first : ℕ → ℕ) (x : ℕ → K) (p : ℕ) : 0 ≤ universalTerm w first x p := by
  unfold universalTerm
  split
  · exact div_nonneg hw (sq_nonneg _)
  · exact le_rfl

/-- **Value zero.** The value is zero if and only if all free parameters are within their bounds, every potential of type `eopp` has
`eta_1 ≥ eta_2` *or* `eta_2 = eta_1 + 1`, and `m` and `n` differ by `10^-6` or more. (Full statement: without the second case for `eopp`;
refuted by `C105_eopp_violated`.) -/
theorem C105_zero_partial {names : List String} {w : K} (hw : 0 < w) {first : ℕ → ℕ} {free : List (Free K)} (hfree : ∀ q ∈ free, q.lo ≤ q.hi)
    {x par pot : ℕ → K} {r : Pun K} (h : apotPunishAll w (punishIndex (names.map String.toList)) first free x par pot = .ok r) :
    r.sum = 0 ↔ (∀ q ∈ free, q.lo ≤ x q.at_ ∧ x q.at_ ≤ q.hi) ∧
      (∀ p ∈ withName "eopp" names, x (first p + 3) ≤ x (first p + 1) ∨ x (first p + 3) = x (first p + 1) + 1) ∧
      ∀ p ∈ withName "universal" names, 1 / 1000000 ≤ |x (first p + 1) - x (first p + 2)| := by
  have hdef := C105_defined.1 ⟨r, h⟩
  rw [C105_value hfree h]
  have n1 : ∀ y ∈ free.map (fun q => 10000000 * outside q.lo q.hi (x q.at_) ^ 2), 0 ≤ y := by
    intro y hy
    obtain ⟨q, -, rfl⟩ := List.mem_map.1 hy
    exact mul_nonneg (by norm_num) (sq_nonneg _)
  have n2 : ∀ y ∈ (withName "eopp" names).map (eoppTerm w first x), 0 ≤ y := by
    intro y hy
    obtain ⟨q, -, rfl⟩ := List.mem_map.1 hy
    exact eoppTerm_nonneg hw.le _ _ _
  have n3 : ∀ y ∈ (withName "universal" names).map (universalTerm w first x), 0 ≤ y := by
    intro y hy
    obtain ⟨q, -, rfl⟩ := List.mem_map.1 hy
    exact universalTerm_nonneg hw.le _ _ _
  have e1 : ∀ p, eoppTerm w first x p = 0 ↔ x (first p + 3) ≤ x (first p + 1) ∨ x (first p + 3) = x (first p + 1) + 1 := by
    intro p
    unfold eoppTerm
    split_ifs with hlt
    · rw [mul_eq_zero, or_iff_right hw.ne', pow_eq_zero_iff two_ne_zero]
      constructor
      · intro h; right; linarith
      · rintro (h | h)
        · linarith
        · linarith
    · simp only [true_iff]
      exact Or.inl (not_lt.1 hlt)
  have e2 : ∀ p ∈ withName "universal" names, universalTerm w first x p = 0 ↔ 1 / 1000000 ≤ |x (first p + 1) - x (first p + 2)| := by
    intro p hp
    unfold universalTerm
    split_ifs with hlt
    · have : (x (first p + 1) - x (first p + 2)) ^ 2 ≠ 0 := pow_ne_zero _ (sub_ne_zero.2 (hdef p hp))
      rw [div_eq_zero_iff, or_iff_left this]
      exact ⟨fun h => absurd h hw.ne', fun h => absurd hlt (not_lt.2 h)⟩
    · simp only [true_iff]
      exact not_lt.1 hlt
  have s1 := List.sum_nonneg n1
  have s2 := List.sum_nonneg n2
  have s3 := List.sum_nonneg n3
  constructor
  · intro h0
    refine ⟨fun q hq => ?_, fun p hp => ?_, fun p hp => ?_⟩
    · have := list_sum_zero n1 (by linarith) _ (List.mem_map.2 ⟨q, hq, rfl⟩)
      rw [mul_eq_zero, or_iff_right (by norm_num), pow_eq_zero_iff two_ne_zero] at this
      exact outside_zero.1 this
    · exact (e1 p).1 (list_sum_zero n2 (by linarith) _ (List.mem_map.2 ⟨p, hp, rfl⟩))
    · exact (e2 p hp).1 (list_sum_zero n3 (by linarith) _ (List.mem_map.2 ⟨p, hp, rfl⟩))
  · rintro ⟨h1, h2, h3⟩
    rw [List.sum_eq_zero, List.sum_eq_zero, List.sum_eq_zero, add_zero, add_zero]
    · intro y hy
      obtain ⟨p, hp, rfl⟩ := List.mem_map.1 hy
      exact (e2 p hp).2 (h3 p hp)
    · intro y hy
      obtain ⟨p, hp, rfl⟩ := List.mem_map.1 hy
      exact (e1 p).2 (h2 p hp)
    · intro y hy
      obtain ⟨q, hq, rfl⟩ := List.mem_map.1 hy
      rw [outside_zero.2 (h1 q hq)]
      ring

/-- **Back to the bounds.** Without `eopp` and `universal` functions: if no parameter is farther from its bounds and one is nearer, the value
is smaller. -/
theorem C105_bounds {names : List String} {w : K} {first : ℕ → ℕ} {free : List (Free K)} (hfree : ∀ q ∈ free, q.lo ≤ q.hi) {x y par pot par' pot' : ℕ → K}
    (he : withName "eopp" names = []) (hu : withName "universal" names = []) {r r' : Pun K}
    (h : apotPunishAll w (punishIndex (names.map String.toList)) first free x par pot = .ok r)
    (h' : apotPunishAll w (punishIndex (names.map String.toList)) first free y par' pot' = .ok r')
    (hle : ∀ q ∈ free, outside q.lo q.hi (y q.at_) ≤ outside q.lo q.hi (x q.at_))
    (hlt : ∃ q ∈ free, outside q.lo q.hi (y q.at_) < outside q.lo q.hi (x q.at_)) : r'.sum < r.sum := by
  rw [C105_value hfree h, C105_value hfree h', he, hu]
  simp only [List.map_nil, List.sum_nil, add_zero]
  refine List.sum_lt_sum _ _ ?_ ?_
  · intro q hq
    have := pow_le_pow_left₀ (outside_nonneg q.lo q.hi (y q.at_)) (hle q hq) 2
    linarith
  · obtain ⟨q, hq, hlt⟩ := hlt
    refine ⟨q, hq, ?_⟩
    have := pow_lt_pow_left₀ hlt (outside_nonneg q.lo q.hi (y q.at_)) two_ne_zero
    linarith

/-! ### Where the code falls short -/

/-- An `eopp` potential with `eta_1 = 1` and given `eta_2`; all parameters may be chosen between -100 and 100. -/
def oscillator (eta : ℚ) (i : ℕ) : ℚ := if i = 5 then eta else 1
def oscillatorFree : List (Free ℚ) := (List.range 6).map fun i => ⟨2 + i, -100, 100⟩
def oscillatorPunish (name : String) (eta : ℚ) : Option ℚ :=
  match apotPunishAll (100 : ℚ) (punishIndex [name.toList]) (fun _ => 2) oscillatorFree (oscillator eta) 0 0 with
  | .ok r => some r.sum
  | .error _ => none

/-- With `eta_2 = eta_1 + 1` there is no punishment, although the condition is violated; between, a larger violation costs less; and
`eta_2` slightly above `eta_1` costs almost the whole weight, at `eta_2 = eta_1` nothing. -/
theorem C105_eopp_violated : oscillatorPunish "eopp" 2 = some 0 ∧ oscillatorPunish "eopp" (3 / 2) = some 25 ∧
    oscillatorPunish "eopp" (11 / 10) = some 81 ∧ oscillatorPunish "eopp" 1 = some 0 := by
  decide +kernel

/-- `eopp_exp` is punished too, although its `eta_1` is not an exponent; `meopp`, which has the two exponents, is not. -/
theorem C105_exp_violated : oscillatorPunish "eopp_exp" (11 / 10) = some 81 ∧ oscillatorPunish "meopp" (11 / 10) = some 0 := by
  decide +kernel

/-- **The punishment of `universal` is a jump**: below a difference of `10^-6` it is more than `10^12` times the weight, from there on zero. -/
theorem C105_jump_violated {w : K} (hw : 0 < w) (first : ℕ → ℕ) (x : ℕ → K) (p : ℕ) :
    universalTerm w first x p = 0 ∨ (|x (first p + 1) - x (first p + 2)| < 1 / 1000000 ∧
      (x (first p + 1) ≠ x (first p + 2) → 1000000000000 * w < universalTerm w first x p)) := by
  unfold universalTerm
  split_ifs with h
  · right
    refine ⟨h, fun hne => ?_⟩
    have h1 : 0 < |x (first p + 1) - x (first p + 2)| := abs_pos.2 (sub_ne_zero.2 hne)
    have h2 : (x (first p + 1) - x (first p + 2)) ^ 2 < (1 / 1000000) ^ 2 := by
      rw [← sq_abs]
      exact pow_lt_pow_left₀ h h1.le two_ne_zero
    have h3 : 0 < (x (first p + 1) - x (first p + 2)) ^ 2 := by rw [← sq_abs]; exact pow_pos h1 2
    rw [lt_div_iff₀ h3]
    calc 1000000000000 * w * (x (first p + 1) - x (first p + 2)) ^ 2 < 1000000000000 * w * (1 / 1000000) ^ 2 :=
          mul_lt_mul_of_pos_left h2 (by positivity)
      _ = w := by ring
  · exact Or.inl rfl

/-! ### Examples -/

/-- Names and positions: three potentials, of which number 0 and 2 are punished. -/
example : withName "eopp" ["eopp_sc", "lj", "universal"] = [0] ∧ withName "universal" ["eopp_sc", "lj", "universal"] = [2] := by
  decide +kernel

/-- Hypotheses of `C105_value`, `C105_zero_partial`: `eta_1 = 3 ≥ eta_2 = 2`, `m = 1`, `n = 2`, the first parameter outside of its bounds. -/
def mixedParams (i : ℕ) : ℚ := ([0, 0, 9, 3, 1, 2, 1, 1, 0, 0, 1, 1, 2, 1].getD i 0)
example : (match apotPunishAll (100 : ℚ) (punishIndex (["eopp", "universal"].map String.toList)) (fun p => if p = 0 then 2 else 10)
    [⟨2, 0, 8⟩, ⟨3, 0, 8⟩] mixedParams 0 0 with
    | .ok r => some (r.sum, r.par 0, r.par 1, r.pot 0)
    | .error _ => none) = some (10000000, 10000000, 0, 0) := by
  decide +kernel

/-- Hypotheses of `C105_bounds`: a Lennard-Jones function, one parameter above its bound. -/
example : ∃ r r', apotPunishAll (100 : ℚ) (punishIndex (["lj"].map String.toList)) (fun _ => 2) [⟨2, 0, 8⟩, ⟨3, 0, 8⟩] (fun i => i + 7) 0 0 = .ok r ∧
    apotPunishAll (100 : ℚ) (punishIndex (["lj"].map String.toList)) (fun _ => 2) [⟨2, 0, 8⟩, ⟨3, 0, 8⟩] (fun i => i + 6) 0 0 = .ok r' ∧
    withName "eopp" ["lj"] = [] ∧ withName "universal" ["lj"] = [] ∧
    outside (0 : ℚ) 8 8 ≤ outside 0 8 9 ∧ outside (0 : ℚ) 8 9 < outside 0 8 10 ∧ r'.sum < r.sum :=
  ⟨_, _, rfl, rfl, by decide +kernel, by decide +kernel, by decide +kernel, by decide +kernel, by decide +kernel⟩

end Verif.Props
