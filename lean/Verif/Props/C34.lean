/-
C34  Chemical potentials: sorted composition nodes and interpolation.
-/
import Verif.Model.Chempot
import Verif.Lemmas.DiffEvo
import Mathlib.Algebra.Order.BigOperators.Group.Finset
import Mathlib.Algebra.BigOperators.Group.List.Basic
import Mathlib.Tactic.FieldSimp
import Mathlib.Tactic.Ring

set_option linter.unusedSectionVars false

namespace Verif.Props

open Verif.Chempot
open Verif.DiffEvo (swapAt swapAt_length swapAt_perm swapAt_zip swapAt_eq swapAt_get)

variable {K : Type*} [Field K] [LinearOrder K] [IsStrictOrderedRing K]

/-! ### Sorting -/

/-- The node rows: node, value and bounds with the same number. -/
def cpRows (nt : Nat) (t : Tab K) : List (K × K × K × K) :=
  t.nodes.zip ((t.values.drop nt).zip ((t.pmin.drop nt).zip (t.pmax.drop nt)))

/-- The arrays have the sizes the program gives them. -/
structure Sized (nt : Nat) (t : Tab K) : Prop where
  values : t.values.length = nt + t.nodes.length
  pmin : t.pmin.length = nt + t.nodes.length
  pmax : t.pmax.length = nt + t.nodes.length

theorem swapAt_drop {α : Type*} (l : List α) (nt i j : Nat) (hi : nt + i < l.length) (hj : nt + j < l.length) :
    (swapAt l (nt + i) (nt + j)).drop nt = swapAt (l.drop nt) i j := by
  apply List.ext_getElem?
  intro k
  rw [List.getElem?_drop, swapAt_get hi hj, swapAt_get (by simp; omega) (by simp; omega)]
  simp only [List.getElem?_drop]
  by_cases h1 : k = j
  · subst h1; simp
  · by_cases h2 : k = i
    · subst h2
      rw [if_neg (by omega), if_pos rfl, if_neg h1, if_pos rfl]
    · rw [if_neg (by omega), if_neg (by omega), if_neg h1, if_neg h2]

theorem swapAt_take {α : Type*} (l : List α) (nt i j : Nat) (hi : nt + i < l.length) (hj : nt + j < l.length) :
    (swapAt l (nt + i) (nt + j)).take nt = l.take nt := by
  apply List.ext_getElem?
  intro k
  rw [List.getElem?_take, List.getElem?_take]
  split
  · rw [swapAt_get hi hj, if_neg (by omega), if_neg (by omega)]
  · rfl

/-- What sorting keeps. -/
structure Kept (nt : Nat) (t t' : Tab K) : Prop where
  sized : Sized nt t'
  len : t'.nodes.length = t.nodes.length
  rows : (cpRows nt t').Perm (cpRows nt t)
  pure : t'.values.take nt = t.values.take nt ∧ t'.pmin.take nt = t.pmin.take nt ∧ t'.pmax.take nt = t.pmax.take nt

theorem Kept.refl {nt : Nat} {t : Tab K} (h : Sized nt t) : Kept nt t t := ⟨h, rfl, List.Perm.refl _, rfl, rfl, rfl⟩

theorem Kept.trans {nt : Nat} {t u w : Tab K} (h : Kept nt t u) (h' : Kept nt u w) : Kept nt t w :=
  ⟨h'.sized, h'.len.trans h.len, h'.rows.trans h.rows, h'.pure.1.trans h.pure.1, h'.pure.2.1.trans h.pure.2.1,
    h'.pure.2.2.trans h.pure.2.2⟩

theorem kept_swap {nt : Nat} {t : Tab K} (h : Sized nt t) (i : Nat) (hi : i + 1 < t.nodes.length) :
    Kept nt t (swapChem nt t (nt + i) (nt + i + 1)) ∧
      (swapChem nt t (nt + i) (nt + i + 1)).nodes = swapAt t.nodes i (i + 1) := by
  have hs : swapChem nt t (nt + i) (nt + i + 1) = ⟨swapAt t.nodes i (i + 1), swapAt t.values (nt + i) (nt + (i + 1)),
      swapAt t.pmin (nt + i) (nt + (i + 1)), swapAt t.pmax (nt + i) (nt + (i + 1))⟩ := by
    unfold swapChem
    rw [if_pos (by omega), show nt + i - nt = i by omega, show nt + i + 1 - nt = i + 1 by omega, Nat.add_assoc]
  have hv := h.values
  have hl := h.pmin
  have hu := h.pmax
  rw [hs]
  refine ⟨⟨⟨?_, ?_, ?_⟩, ?_, ?_, ?_, ?_, ?_⟩, rfl⟩
  · simp [swapAt_length, hv]
  · simp [swapAt_length, hl]
  · simp [swapAt_length, hu]
  · simp [swapAt_length]
  · unfold cpRows
    simp only
    rw [swapAt_drop _ _ _ _ (by omega) (by omega), swapAt_drop _ _ _ _ (by omega) (by omega),
      swapAt_drop _ _ _ _ (by omega) (by omega), swapAt_zip (t.pmin.drop nt) _ (by simp; omega),
      swapAt_zip (t.values.drop nt) _ (by simp; omega), swapAt_zip t.nodes _ (by simp; omega)]
    exact swapAt_perm _ _ _
  · exact swapAt_take _ _ _ _ (by omega) (by omega)
  · exact swapAt_take _ _ _ _ (by omega) (by omega)
  · exact swapAt_take _ _ _ _ (by omega) (by omega)

/-- Number of pairs in the wrong order. -/
def inversions : List K → Nat
  | [] => 0
  | a :: l => (l.filter fun b => decide (b < a)).length + inversions l

theorem inversions_swap (pre post : List K) (a b : K) (h : b < a) :
    inversions (pre ++ b :: a :: post) + 1 = inversions (pre ++ a :: b :: post) := by
  induction pre with
  | nil =>
    simp only [List.nil_append, inversions, List.filter_cons, decide_eq_true_eq]
    rw [if_neg (not_lt.2 h.le), if_pos h]
    simp only [List.length_cons]
    omega
  | cons c pre ih =>
    simp only [List.cons_append, inversions]
    have : ((pre ++ b :: a :: post).filter fun x => decide (x < c)).length =
        ((pre ++ a :: b :: post).filter fun x => decide (x < c)).length := by
      simp only [List.filter_append, List.length_append, List.filter_cons]
      split <;> split <;> simp_all
    omega

theorem inversions_swapAt {l : List K} {i : Nat} {a b : K} (ha : l[i]? = some a) (hb : l[i + 1]? = some b) (h : a > b) :
    inversions (swapAt l i (i + 1)) + 1 = inversions l := by
  obtain ⟨hi, ha⟩ := List.getElem?_eq_some_iff.1 ha
  obtain ⟨hj, hb⟩ := List.getElem?_eq_some_iff.1 hb
  have hl : l = l.take i ++ a :: b :: l.drop (i + 2) := by
    conv_lhs => rw [← List.take_append_drop i l]
    rw [List.drop_eq_getElem_cons hi, List.drop_eq_getElem_cons hj, ha, hb]
  have hs : swapAt l i (i + 1) = l.take i ++ b :: a :: l.drop (i + 2) := by
    apply List.ext_getElem?
    intro k
    have hlen : (l.take i).length = i := by simp; omega
    rw [swapAt_get hi hj]
    by_cases h1 : k = i + 1
    · rw [if_pos h1, h1, List.getElem?_append_right (by omega), hlen, List.getElem?_eq_getElem hi, ha]
      simp
    · by_cases h2 : k = i
      · rw [if_neg h1, if_pos h2, h2, List.getElem?_append_right (by omega), hlen, List.getElem?_eq_getElem hj, hb]
        simp
      · rw [if_neg h1, if_neg h2]
        conv_lhs => rw [hl]
        by_cases h3 : k < i
        · rw [List.getElem?_append_left (by omega), List.getElem?_append_left (by omega)]
        · rw [List.getElem?_append_right (by omega), List.getElem?_append_right (by omega), hlen]
          obtain ⟨m, rfl⟩ : ∃ m, k = i + (m + 2) := ⟨k - i - 2, by omega⟩
          simp
  rw [hs, inversions_swap _ _ _ _ h, ← hl]

theorem pass_spec {nt : Nat} (n i : Nat) (t : Tab K) (sw : Bool) (h : Sized nt t) (hn : i + n + 1 ≤ t.nodes.length ∨ n = 0) :
    Kept nt t (pass nt n i t sw).1 ∧ inversions (pass nt n i t sw).1.nodes ≤ inversions t.nodes ∧
      ((pass nt n i t sw).2 = true → sw = true ∨ inversions (pass nt n i t sw).1.nodes < inversions t.nodes) ∧
      ((pass nt n i t sw).2 = false → (pass nt n i t sw).1 = t ∧
        ∀ k, i ≤ k → k < i + n → ∀ a ∈ t.nodes[k]?, ∀ b ∈ t.nodes[k + 1]?, a ≤ b) := by
  induction n generalizing i t sw with
  | zero => exact ⟨Kept.refl h, le_rfl, fun h => Or.inl h, fun _ => ⟨rfl, fun k _ _ => by omega⟩⟩
  | succ n ih =>
    have h1 : i + 1 < t.nodes.length := by omega
    have hp : pass nt (n + 1) i t sw = if t.nodes[i] > t.nodes[i + 1] then
        pass nt n (i + 1) (swapChem nt t (nt + i) (nt + i + 1)) true else pass nt n (i + 1) t sw := by
      rw [pass, List.getElem?_eq_getElem (by omega), List.getElem?_eq_getElem h1]
    rw [hp]
    split
    · next hgt =>
      obtain ⟨hk, hnod⟩ := kept_swap h i h1
      have hinv := inversions_swapAt (List.getElem?_eq_getElem (by omega)) (List.getElem?_eq_getElem h1) hgt
      rw [← hnod] at hinv
      obtain ⟨g1, g2, g3, g4⟩ := ih (i + 1) (swapChem nt t (nt + i) (nt + i + 1)) true hk.sized (by rw [hk.len]; omega)
      refine ⟨hk.trans g1, by omega, fun _ => Or.inr (by omega), fun hf => ?_⟩
      exfalso
      have : ∀ (n i : Nat) (t : Tab K), (pass nt n i t true).2 = true := by
        intro n
        induction n with
        | zero => exact fun _ _ => rfl
        | succ n ih =>
          intro i t
          unfold pass
          split
          · split <;> exact ih _ _
          · exact ih _ _
      rw [this] at hf
      cases hf
    · next hle =>
      obtain ⟨g1, g2, g3, g4⟩ := ih (i + 1) t sw h (by omega)
      refine ⟨g1, g2, g3, fun hf => ⟨(g4 hf).1, ?_⟩⟩
      intro k hk1 hk2 a ha b hb
      by_cases e : k = i
      · rw [e, List.getElem?_eq_getElem (by omega)] at ha
        rw [e, List.getElem?_eq_getElem h1] at hb
        cases ha
        cases hb
        exact not_lt.1 hle
      · exact (g4 hf).2 k (by omega) (by omega) a ha b hb

theorem sortLoop_spec {nt : Nat} (fuel : Nat) (t : Tab K) (h : Sized nt t) (hf : inversions t.nodes < fuel) :
    ∃ t', sortLoop nt fuel t = some t' ∧ Kept nt t t' ∧ t'.nodes.Pairwise (· ≤ ·) := by
  induction fuel generalizing t with
  | zero => omega
  | succ fuel ih =>
    obtain ⟨h1, h2, h3, h4⟩ := pass_spec (nt := nt) (t.nodes.length - 1) 0 t false h (by omega)
    unfold sortLoop
    simp only
    generalize pass nt (t.nodes.length - 1) 0 t false = r at h1 h2 h3 h4
    split
    · next hr =>
      have h5 : inversions r.1.nodes < inversions t.nodes := (h3 hr).resolve_left (by simp)
      obtain ⟨t', g1, g2, g3⟩ := ih r.1 h1.sized (by omega)
      exact ⟨t', g1, h1.trans g2, g3⟩
    · next hr =>
      obtain ⟨g1, g2⟩ := h4 (by simpa using hr)
      refine ⟨r.1, rfl, h1, ?_⟩
      rw [g1, ← List.isChain_iff_pairwise, List.isChain_iff_getElem]
      intro k hk
      exact g2 k (by omega) (by omega) _ (List.getElem?_eq_getElem (by omega)) _ (List.getElem?_eq_getElem hk)

/-- **C34, sorting.** The sort ends, the nodes are then in increasing order, every chemical potential and its bounds have moved
with their node, and the entries of the pure elements are untouched. -/
theorem C34_sorted (nt : Nat) (t : Tab K) (h : Sized nt t) :
    ∃ t', (∀ fuel, inversions t.nodes < fuel → sort nt fuel t = some t') ∧ t'.nodes.Pairwise (· ≤ ·) ∧
      (cpRows nt t').Perm (cpRows nt t) ∧ t'.values.take nt = t.values.take nt ∧ t'.pmin.take nt = t.pmin.take nt ∧
      t'.pmax.take nt = t.pmax.take nt ∧ Sized nt t' := by
  have hmono : ∀ (f g : Nat) (t u : Tab K), sortLoop nt f t = some u → f ≤ g → sortLoop nt g t = some u := by
    intro f
    induction f with
    | zero => intro g t u h; cases h
    | succ f ih =>
      intro g t u h hle
      obtain ⟨g, rfl⟩ : ∃ k, g = k + 1 := ⟨g - 1, by omega⟩
      unfold sortLoop at h ⊢
      simp only at h ⊢
      split at h
      · next hr =>
        rw [if_pos hr]
        exact ih g _ _ h (by omega)
      · next hr =>
        rw [if_neg hr]
        exact h
  by_cases h0 : t.nodes.length > 0
  · obtain ⟨t', h1, h2, h3⟩ := sortLoop_spec (inversions t.nodes + 1) t h (by omega)
    refine ⟨t', fun fuel hf => ?_, h3, h2.rows, h2.pure.1, h2.pure.2.1, h2.pure.2.2, h2.sized⟩
    unfold sort
    rw [if_pos h0]
    exact hmono _ _ _ _ h1 hf
  · refine ⟨t, fun fuel _ => by unfold sort; rw [if_neg h0], ?_, List.Perm.refl _, rfl, rfl, rfl, h⟩
    rw [List.length_eq_zero_iff.1 (by omega : t.nodes.length = 0)]
    exact List.Pairwise.nil

example : sort 2 10 (⟨[3 / 4, 1 / 4, 1 / 2], [10, 11, 3, 1, 2], [0, 0, 30, 10, 20], [9, 9, 33, 11, 22]⟩ : Tab ℚ) =
    some ⟨[1 / 4, 1 / 2, 3 / 4], [10, 11, 1, 2, 3], [0, 0, 10, 20, 30], [9, 9, 11, 22, 33]⟩ ∧
    inversions [(3 / 4 : ℚ), 1 / 4, 1 / 2] < 10 := by decide +kernel

/-! ### Interpolation -/

/-- Linear interpolation through a list of points: the first interval which ends at or after `x`. -/
def interpolate : List (K × K) → K → Option K
  | (x0, y0) :: (x1, y1) :: l, x =>
    if x ≤ x1 then some (y0 + (y1 - y0) * ((x - x0) / (x1 - x0))) else interpolate ((x1, y1) :: l) x
  | _, _ => none

/-- The points the claim speaks about: pure elements at 0 and 1, the nodes with their potentials between. -/
def cpPoints (nodes values : List K) : List (K × K) :=
  (0, values.getD 0 0) :: nodes.zip (values.drop 2) ++ [(1, values.getD 1 0)]

theorem search_spec (mem : Nat → K) (n : Nat) (x : K) (fuel i : Nat) (reads : List Nat) (hf : n < fuel + i) (hi : i ≤ n)
    (hm : ∀ k < i, mem k < x) :
    let r := search mem n x fuel i reads
    r.1 ≤ n ∧ (∀ k < r.1, mem k < x) ∧ (r.1 < n → x ≤ mem r.1) ∧
      (∀ k ∈ r.2, k ∈ reads ∨ k ≤ r.1) ∧ r.1 ∈ r.2 := by
  induction fuel generalizing i reads with
  | zero => omega
  | succ fuel ih =>
    unfold search
    split
    · next h =>
      obtain ⟨g1, g2, g3, g4, g5⟩ := ih (i + 1) (i :: reads) (by omega) (by omega) (by
        intro k hk
        by_cases e : k = i
        · rw [e]; exact h.1
        · exact hm k (by omega))
      refine ⟨g1, g2, g3, fun k hk => ?_, g5⟩
      rcases g4 k hk with g | g
      · rcases List.mem_cons.1 g with rfl | g
        · right
          by_contra hlt
          have : ∀ (fuel j : Nat) (rd : List Nat), j ≤ (search mem n x fuel j rd).1 := by
            intro fuel
            induction fuel with
            | zero => exact fun j _ => le_rfl
            | succ fuel ih =>
              intro j rd
              unfold search
              split
              · exact (Nat.le_succ j).trans (ih _ _)
              · exact le_rfl
          have := this fuel (k + 1) (k :: reads)
          omega
        · exact Or.inl g
      · exact Or.inr g
    · next h =>
      refine ⟨hi, hm, fun hlt => ?_, fun k hk => ?_, by simp⟩
      · by_contra hx
        exact h ⟨not_le.1 hx, hlt⟩
      · rcases List.mem_cons.1 hk with rfl | hk
        · exact Or.inr le_rfl
        · exact Or.inl hk

theorem interpolate_first {pts : List (K × K)} {x0 y0 x1 y1 x : K} (h : x ≤ x1) :
    interpolate ((x0, y0) :: (x1, y1) :: pts) x = some (y0 + (y1 - y0) * ((x - x0) / (x1 - x0))) := by
  rw [interpolate, if_pos h]

theorem interpolate_last (pts : List (K × K)) {a xl yl xr yr x : K} {b : K} (h : ∀ p ∈ pts, p.1 < x) (hl : xl < x) (hx : x ≤ xr) :
    interpolate ((a, b) :: pts ++ [(xl, yl), (xr, yr)]) x = some (yl + (yr - yl) * ((x - xl) / (xr - xl))) := by
  induction pts generalizing a b with
  | nil =>
    simp only [List.cons_append, List.nil_append]
    rw [interpolate, if_neg (not_le.2 hl), interpolate, if_pos hx]
  | cons p pts ih =>
    obtain ⟨p1, p2⟩ := p
    simp only [List.cons_append]
    rw [interpolate, if_neg (not_le.2 (h (p1, p2) (by simp)))]
    exact ih fun q hq => h q (List.mem_cons_of_mem _ hq)

/-- **C34, interpolation: what holds.** For a composition at or below the first node, or above the last node, the offset per atom
is the linear interpolation between the pure element and that node.  Missing: compositions between two nodes, where the code
takes the wrong entries (`C34_interior_violated`). -/
theorem C34_outer_partial (nodes values : List K) (x : K) (hlen : values.length = 2 + nodes.length) (hn : nodes ≠ [])
    (hx1 : x < 1) (hout : (∀ a ∈ nodes[0]?, x ≤ a) ∨ ∀ a ∈ nodes, a < x) :
    ∃ v r, perAtom 2 nodes values x = .ok (v, r) ∧ interpolate (cpPoints nodes values) x = some v := by
  have hpos : 0 < nodes.length := List.length_pos_iff.2 hn
  obtain ⟨v0, v1, vs, rfl⟩ : ∃ v0 v1 vs, values = v0 :: v1 :: vs := by
    match values, hlen with
    | a :: b :: l, _ => exact ⟨a, b, l, rfl⟩
    | [_], h => simp only [List.length_singleton] at h; omega
    | [], h => simp only [List.length_nil] at h; omega
  have hvs : vs.length = nodes.length := by simp only [List.length_cons] at hlen; omega
  have hs := search_spec (fun k => nodes.getD k 0) nodes.length x (nodes.length + 1) 0 [] (by omega) (by omega) (by simp)
  unfold perAtom
  simp only at hs ⊢
  generalize search (fun k => nodes.getD k 0) nodes.length x (nodes.length + 1) 0 [] = s at hs
  obtain ⟨i, reads⟩ := s
  obtain ⟨h1, h2, h3, -, -⟩ := hs
  simp only at h1 h2 h3 ⊢
  rcases hout with hlow | hhigh
  · obtain ⟨a, ns, rfl⟩ := List.exists_cons_of_ne_nil hn
    obtain ⟨w, ws, rfl⟩ := List.exists_cons_of_length_eq_add_one (by simpa using hvs : vs.length = ns.length + 1)
    have hxa : x ≤ a := hlow a (by simp)
    have hi : i = 0 := by
      by_contra hi
      have := h2 0 (by omega)
      simp only [List.getD_cons_zero] at this
      exact absurd hxa (not_le.2 this)
    subst hi
    refine ⟨v0 + (x - 0) * (w - v0) / (a - 0), reads, ?_, ?_⟩
    · simp
    · unfold cpPoints
      simp only [List.getD_cons_zero, List.drop_succ_cons, List.drop_zero, List.zip_cons_cons, List.cons_append]
      rw [interpolate_first hxa]
      congr 2
      ring
  · have hi : i = nodes.length := by
      by_contra hi
      have hlt : i < nodes.length := by omega
      have h4 := h3 hlt
      rw [List.getD_eq_getElem?_getD, List.getElem?_eq_getElem hlt, Option.getD_some] at h4
      exact absurd h4 (not_le.2 (hhigh _ (List.getElem_mem hlt)))
    subst hi
    obtain ⟨ns, a, rfl⟩ : ∃ ns a, nodes = ns ++ [a] := ⟨nodes.dropLast, nodes.getLast hn, (List.dropLast_append_getLast hn).symm⟩
    obtain ⟨ws, w, rfl⟩ : ∃ ws w, vs = ws ++ [w] := by
      have : vs ≠ [] := by rw [← List.length_pos_iff]; omega
      exact ⟨vs.dropLast, vs.getLast this, (List.dropLast_append_getLast this).symm⟩
    have hl2 : ws.length = ns.length := by simpa using hvs
    refine ⟨w + (x - a) * (v1 - w) / (1 - a), reads, ?_, ?_⟩
    · rw [if_neg (by omega), if_pos rfl]
      have e1 : (ns ++ [a]).getD ((ns ++ [a]).length - 1) 0 = a := by simp
      have e2 : (v0 :: v1 :: (ws ++ [w]))[2 + (ns ++ [a]).length - 1]? = some w := by
        simp only [List.length_append, List.length_singleton]
        rw [show 2 + (ns.length + 1) - 1 = ws.length + 1 + 1 by omega]
        simp
      have e3 : (v0 :: v1 :: (ws ++ [w]))[1]? = some v1 := by simp
      simp only [e1, e2, e3]
    · unfold cpPoints
      simp only [List.getD_cons_zero, List.getD_cons_succ, List.drop_succ_cons, List.drop_zero]
      rw [List.zip_append (by omega), List.zip_cons_cons, List.zip_nil_left]
      have ha : a < x := hhigh a (by simp)
      have := interpolate_last (ns.zip ws) (a := 0) (b := v0) (yl := w) (yr := v1) (xr := 1) (xl := a) (x := x)
        (fun p hp => hhigh _ (List.mem_append_left _ (List.of_mem_zip hp).1)) ha hx1.le
      simp only [List.cons_append, List.append_assoc, List.nil_append] at this ⊢
      rw [this]
      congr 2
      ring

example : perAtom 2 [1 / 4, 1 / 2] [0, 8, 1, 2] (1 / 8 : ℚ) = .ok (1 / 2, [0]) ∧
    perAtom 2 [1 / 4, 1 / 2] [0, 8, 1, 2] (3 / 4 : ℚ) = .ok (5, [2, 1, 0]) ∧
    interpolate (cpPoints [1 / 4, 1 / 2] [0, 8, 1, 2]) (3 / 4 : ℚ) = some 5 := by decide +kernel

/-- The offset of a configuration is the number of atoms times the offset per atom; pure compositions give the potential of the
element, and without nodes the offset is the sum over the atoms. -/
theorem C34_total (nodes values : List K) (p0 p1 : Nat) (v0 v1 : K) (vs : List K) (hv : values = v0 :: v1 :: vs)
    (h : 0 < p0 + p1) :
    (p0 = 0 ∨ p1 = 0 ∨ nodes = [] → chem nodes values [p0, p1] = .ok (p0 * v0 + p1 * v1)) ∧
      (0 < p0 → 0 < p1 → nodes ≠ [] → chem nodes values [p0, p1] =
        (perAtom 2 nodes values ((p1 : K) / ((p0 + p1 : Nat) : K))).map fun r => r.1 * ((p0 + p1 : Nat) : K)) := by
  have hne : ((p0 + p1 : Nat) : K) ≠ 0 := by exact_mod_cast (by omega : p0 + p1 ≠ 0)
  have hc : chem nodes values [p0, p1] = (chem2 2 nodes values p0 p1).map Prod.fst := rfl
  rw [hc]
  unfold chem2
  rw [if_neg (by omega)]
  simp only
  have e0 : (p1 : K) / ((p0 + p1 : Nat) : K) = 0 ↔ p1 = 0 := by
    rw [div_eq_zero_iff]
    constructor
    · rintro (h | h)
      · exact_mod_cast h
      · exact absurd h hne
    · rintro rfl
      exact Or.inl Nat.cast_zero
  have e1 : (p1 : K) / ((p0 + p1 : Nat) : K) = 1 ↔ p0 = 0 := by
    rw [div_eq_one_iff_eq hne]
    push_cast
    constructor
    · intro h
      have : (p0 : K) = 0 := by linarith
      exact_mod_cast this
    · rintro rfl
      simp
  refine ⟨fun hp => ?_, fun h0 h1 hn => ?_⟩
  · rw [if_pos (by rw [e0, e1, List.length_eq_zero_iff]; tauto), hv]
    rfl
  · rw [if_neg (by
      rw [e0, e1, List.length_eq_zero_iff]
      rintro (h | h | h)
      · omega
      · omega
      · exact hn h)]
    cases perAtom 2 nodes values ((p1 : K) / ((p0 + p1 : Nat) : K)) <;> rfl

example : chem [1 / 4, 1 / 2] [0, 8, 1, 2] [1, 3] = .ok (20 : ℚ) := by decide +kernel

/-- **C34, three or more element types.** The offset is the sum of the potentials of the atoms, and only entries of the list are
read. -/
theorem C34_multi (nodes values : List K) (ps : List Nat) (h : 3 ≤ ps.length) (hl : ps.length ≤ values.length) :
    chem nodes values ps = .ok ((List.zipWith (fun (p : Nat) (v : K) => (p : K) * v) ps values).sum) := by
  have hg : ∀ (ps : List Nat) (i : Nat) (acc : K), i + ps.length ≤ values.length → multi values ps i acc =
      .ok (acc + (List.zipWith (fun (p : Nat) (v : K) => (p : K) * v) ps (values.drop i)).sum) := by
    intro ps
    induction ps with
    | nil => intro i acc _; simp [multi]
    | cons p ps ih =>
      intro i acc hi
      simp only [List.length_cons] at hi
      have hlt : i < values.length := by omega
      unfold multi
      rw [List.getElem?_eq_getElem hlt]
      simp only
      rw [ih (i + 1) _ (by omega), List.drop_eq_getElem_cons hlt, List.zipWith_cons_cons, List.sum_cons, add_assoc]
  match ps, h with
  | a :: b :: c :: l, _ =>
    have := hg (a :: b :: c :: l) 0 0 (by omega)
    rw [List.drop_zero, zero_add] at this
    exact this

example : chem [] [1, 2, 5] [3, 2, 1] = .ok (12 : ℚ) := by decide +kernel

/-- **C34, between nodes: violated.** With two nodes the offset between them is not the interpolation of the nodes' values: at
3/8, half way between nodes of value 1 and 2, it is 9/2, since the value of the second pure element, 8, is used. -/
theorem C34_interior_violated :
    perAtom 2 [1 / 4, 1 / 2] [0, 8, 1, 2] (3 / 8 : ℚ) = .ok (9 / 2, [1, 0]) ∧
      interpolate (cpPoints [1 / 4, 1 / 2] [0, 8, 1, 2]) (3 / 8 : ℚ) = some (3 / 2) := by decide +kernel

/-- **C34, continuity: violated.** For the same nodes the offset per atom jumps at the first node: it is 1 there, but above 7 at
compositions arbitrarily close. -/
theorem C34_continuity_violated : perAtom 2 [1 / 4, 1 / 2] [0, 8, 1, 2] (1 / 4 : ℚ) = .ok (1, [0]) ∧
    ∀ δ : ℚ, 0 < δ → ∃ x, 1 / 4 < x ∧ x < 1 / 4 + δ ∧ ∃ v r, perAtom 2 [1 / 4, 1 / 2] [0, 8, 1, 2] x = .ok (v, r) ∧ 7 < v := by
  refine ⟨by decide +kernel, fun δ hδ => ?_⟩
  have h1 : 0 < min (δ / 2) (1 / 64) := lt_min (by linarith) (by norm_num)
  have h2 := min_le_left (δ / 2) (1 / 64)
  have h3 := min_le_right (δ / 2) (1 / 64)
  generalize min (δ / 2) (1 / 64) = e at h1 h2 h3
  refine ⟨1 / 4 + e, by linarith, by linarith, 8 + (1 / 4 + e - 1 / 4) * (1 - 8) / (1 / 2 - 1 / 4), [1, 0], ?_, ?_⟩
  swap
  · rw [show 8 + (1 / 4 + e - 1 / 4) * (1 - 8) / (1 / 2 - 1 / 4) = 8 - 28 * e by ring]
    linarith
  have hs : search (fun k => [(1 / 4 : ℚ), 1 / 2].getD k 0) 2 (1 / 4 + e) 3 0 [] = (1, [1, 0]) := by
    have a1 : (1 / 4 + e > 1 / 4 ∧ 0 < 2) := ⟨by linarith, by norm_num⟩
    have a2 : ¬(1 / 4 + e > 1 / 2 ∧ 1 < 2) := fun h => by linarith [h.1]
    unfold search
    simp only [List.getD_cons_zero]
    rw [if_pos a1]
    unfold search
    simp only [Nat.zero_add, List.getD_cons_succ, List.getD_cons_zero]
    rw [if_neg a2]
  unfold perAtom
  simp only [List.length_cons, List.length_nil, Nat.zero_add, Nat.reduceAdd, hs]
  simp

/-- **C34, reads: violated.** Above the last node the loop tests an entry behind the node list. -/
theorem C34_reads_violated : ∃ v r, perAtom 2 [1 / 4, 1 / 2] [0, 8, 1, 2] (3 / 4 : ℚ) = .ok (v, r) ∧
    [(1 / 4 : ℚ), 1 / 2].length ∈ r := ⟨5, [2, 1, 0], by decide +kernel, by decide⟩

end Verif.Props
