/-
C119  Parameter files for IMD: they contain the parameters of the fitted potential in the places for them.

`p c y` is parameter `y` of function `c` of the potential, `xi` the vector of parameters the force routines work with.  IMD expects the
values of pairs of types in the order 00, 01, .., 11, 12, .. and the three-body parameters of an atom `i` with neighbours `j`, `k`
by pair `j k` and for each of them by `i`.
-/
import Verif.Model.ImdParams
import Verif.Props.C49
import Verif.Props.C50
import Mathlib.Tactic.IntervalCases

namespace Verif.Props

open Verif.PairIndex Verif.Pointers Verif.Spec Verif.ImdParams

variable {α : Type*}

/-! ### Specification -/

/-- Function `c` has `m c` parameters, with the values `p c`, for all functions. -/
def HasParams (A : Apt α) (m : Nat → Nat) (p : Nat → Nat → α) : Prop :=
  A.values.length = A.number ∧ ∀ c < A.number, A.values[c]? = some ((List.range (m c)).map (p c))

/-- Place of the first parameter of function `c` in the vector of parameters: two entries in front of each function. -/
def paramFirst (m : Nat → Nat) : Nat → Nat
  | 0 => 2
  | c + 1 => paramFirst m c + m c + 2

/-- The functions and the vector have the same parameters. -/
def ParamsInXi (N : Nat) (m : Nat → Nat) (p : Nat → Nat → α) (xi : Nat → α) : Prop :=
  ∀ c < N, ∀ y < m c, p c y = xi (paramFirst m c + y)

/-- A line with a parameter of each pair of types. -/
def pairValues (n : Nat) (key : String) (f : Nat → α) : Line α := (key, (filePairs n).map fun s => f (pairCol n s.1 s.2))

/-- Numbers of parameters: 6 for pair functions, 2 for the radial functions, one for each atom with a pair of neighbours. -/
def swCounts (n c : Nat) : Nat :=
  if c < n * (n + 1) / 2 then 6 else if c < 2 * (n * (n + 1) / 2) then 2 else n * (n * (n + 1) / 2)

/-- 11 for pair functions, 2 for mixed pairs. -/
def tersCounts (n c : Nat) : Nat := if c < n * (n + 1) / 2 then 11 else 2

/-! ### Lines -/

theorem collect_ok {β : Type*} {f : β → Except Trouble α} {g : β → α} (l : List β) (h : ∀ x ∈ l, f x = .ok (g x)) :
    collect f l = .ok (l.map g) := by
  induction l with
  | nil => rfl
  | cons x l ih =>
    simp only [collect, h x List.mem_cons_self, ih fun y hy => h y (List.mem_cons_of_mem _ hy), List.map_cons]

theorem lines_ok (l : List (Line α)) : lines (l.map Except.ok) = .ok l := by
  unfold lines
  induction l with
  | nil => rfl
  | cons x l ih =>
    simp only [List.map_cons, collect, id, ih]

theorem item_ok {l : List α} {i : Nat} {x : α} (h : l[i]? = some x) : item l i = .ok x := by
  unfold item
  rw [h]

theorem param_ok {A : Apt α} {m : Nat → Nat} {p : Nat → Nat → α} (h : HasParams A m p) {c y : Nat} (hc : c < A.number) (hy : y < m c) :
    param A c y = .ok (p c y) := by
  unfold param
  rw [item_ok (h.2 c hc)]
  exact item_ok (by simp [hy])

theorem range_pairs (n : Nat) (f : Nat → α) : (List.range (paircol n)).map f = (filePairs n).map fun s => f (pairCol n s.1 s.2) := by
  rw [show paircol n = n * (n + 1) / 2 from rfl, ← C01_file_order n, List.map_map]
  rfl

theorem pairData_ok {A : Apt α} {m : Nat → Nat} {p : Nat → Nat → α} (h : HasParams A m p) (n : Nat) (key : String) (offset y : Nat)
    (hn : offset + paircol n ≤ A.number) (hm : ∀ i < paircol n, y < m (offset + i)) :
    pairData n A key offset y = .ok (pairValues n key fun i => p (offset + i) y) := by
  unfold pairData line
  rw [collect_ok (g := fun i => p (offset + i) y)]
  · unfold pairValues
    rw [range_pairs n fun i => p (offset + i) y]
  · intro i hi
    have hi := List.mem_range.1 hi
    exact param_ok h (by omega) (hm i hi)

/-! ### Stillinger-Weber -/

/-- **Stillinger-Weber.** What the file contains. -/
theorem C119_stiweb (n : Nat) (A : Apt α) (p : Nat → Nat → α) (hN : A.number = 2 * (n * (n + 1) / 2) + 1)
    (h : HasParams A (swCounts n) p) :
    swFile n A = .ok [
      pairValues n "stiweb_a" (p · 0), pairValues n "stiweb_b" (p · 1), pairValues n "stiweb_p" (p · 2),
      pairValues n "stiweb_q" (p · 3), pairValues n "stiweb_de" (p · 4), pairValues n "stiweb_a1" (p · 5),
      pairValues n "stiweb_ga" (fun c => p (n * (n + 1) / 2 + c) 0), pairValues n "stiweb_a2" (fun c => p (n * (n + 1) / 2 + c) 1),
      ("stiweb_la", (filePairs n).flatMap fun s => (List.range n).map fun i =>
        p (2 * (n * (n + 1) / 2)) (lambdaNumber n i s.1 s.2))] := by
  have hp : paircol n = n * (n + 1) / 2 := rfl
  have h0 : ∀ key y, y < 6 → pairData n A key 0 y = .ok (pairValues n key (p · y)) := by
    intro key y hy
    rw [pairData_ok h n key 0 y (by omega)]
    · simp only [Nat.zero_add]
    · intro i hi
      unfold swCounts
      rw [if_pos (by omega)]
      exact hy
  have h1 : ∀ key y, y < 2 → pairData n A key (paircol n) y = .ok (pairValues n key fun c => p (n * (n + 1) / 2 + c) y) := by
    intro key y hy
    refine pairData_ok h n key (paircol n) y (by omega) ?_
    intro i hi
    unfold swCounts
    rw [if_neg (by omega), if_pos (by omega)]
    exact hy
  have h2 : line "stiweb_la" (fun q => param A (A.number - 1) (q.2 * paircol n + q.1)) (lambdaOrder n) =
      .ok ("stiweb_la", (filePairs n).flatMap fun s => (List.range n).map fun i =>
        p (2 * (n * (n + 1) / 2)) (lambdaNumber n i s.1 s.2)) := by
    unfold line
    rw [collect_ok (g := fun q => p (2 * (n * (n + 1) / 2)) (q.2 * paircol n + q.1))]
    · unfold lambdaOrder
      rw [List.map_flatMap, hp, ← C01_file_order n, List.flatMap_map]
      simp only [List.map_map]
      rfl
    · intro q hq
      obtain ⟨j, hj, hq⟩ := List.mem_flatMap.1 hq
      obtain ⟨i, hi, rfl⟩ := List.mem_map.1 hq
      have hj := List.mem_range.1 hj
      have hi := List.mem_range.1 hi
      have e : A.number - 1 = 2 * (n * (n + 1) / 2) := by omega
      rw [e]
      refine param_ok h (by omega) ?_
      unfold swCounts
      rw [if_neg (by omega), if_neg (by omega), ← hp]
      calc i * paircol n + j < i * paircol n + paircol n := by omega
        _ = (i + 1) * paircol n := by ring
        _ ≤ n * paircol n := Nat.mul_le_mul_right _ hi
  unfold swFile
  rw [h0 _ 0 (by omega), h0 _ 1 (by omega), h0 _ 2 (by omega), h0 _ 3 (by omega), h0 _ 4 (by omega), h0 _ 5 (by omega),
    h1 _ 0 (by omega), h1 _ 1 (by omega), h2]
  exact lines_ok [_, _, _, _, _, _, _, _, _]

theorem first_const (m : Nat → Nat) (k : Nat) (c : Nat) (h : ∀ i < c, m i = k) : paramFirst m c = 2 + (k + 2) * c := by
  induction c with
  | zero => rfl
  | succ c ih => rw [paramFirst, ih fun i hi => h i (by omega), h c (by omega)]; ring

theorem first_add (m : Nat → Nat) (k : Nat) (b c : Nat) (h : ∀ i < c, m (b + i) = k) :
    paramFirst m (b + c) = paramFirst m b + (k + 2) * c := by
  induction c with
  | zero => rfl
  | succ c ih => rw [← Nat.add_assoc, paramFirst, ih fun i hi => h i (by omega), h c (by omega)]; ring

/-- These are the values the force routine reaches through its pointers. -/
theorem C119_stiweb_forces (n : Nat) (p : Nat → Nat → α) (xi : Nat → α)
    (h : ParamsInXi (2 * (n * (n + 1) / 2) + 1) (swCounts n) p xi) :
    (∀ c < n * (n + 1) / 2, ∀ y < 6, p c y = xi (pairPtr 6 c y)) ∧
    (∀ c < n * (n + 1) / 2, ∀ y < 2, p (n * (n + 1) / 2 + c) y = xi (radialPtr n c y)) ∧
    (∀ i < n, ∀ j < n, ∀ k < n, ∃ a, initLambda n i j k = some a ∧ p (2 * (n * (n + 1) / 2)) (lambdaNumber n i j k) = xi a) := by
  set P := n * (n + 1) / 2 with hP
  have e0 : ∀ c ≤ P, paramFirst (swCounts n) c = 2 + 8 * c := by
    intro c hc
    exact first_const _ 6 c fun i hi => by unfold swCounts; rw [if_pos (by omega)]
  have e1 : ∀ c ≤ P, paramFirst (swCounts n) (P + c) = 2 + 8 * P + 4 * c := by
    intro c hc
    rw [first_add _ 2 P c fun i hi => by unfold swCounts; rw [if_neg (by omega), if_pos (by omega)], e0 P le_rfl]
  refine ⟨?_, ?_, ?_⟩
  · intro c hc y hy
    rw [h c (by omega) y (by unfold swCounts; rw [if_pos hc]; exact hy), e0 c hc.le]
    unfold pairPtr
    rw [advance_eq]
  · intro c hc y hy
    rw [h (P + c) (by omega) y (by unfold swCounts; rw [if_neg (by omega), if_pos (by omega)]; exact hy), e1 c hc.le]
    unfold radialPtr
    rw [advance_eq, advance_eq]
    rfl
  · intro i hi j hj k hk
    refine ⟨_, C49_base n i j k hi hj hk, ?_⟩
    have hl : lambdaNumber n i j k < n * P := by
      have := C01_in_range hj hk
      unfold lambdaNumber
      calc i * P + pairCol n j k < i * P + P := by omega
        _ = (i + 1) * P := by ring
        _ ≤ n * P := Nat.mul_le_mul_right _ hi
    rw [h (2 * P) (by omega) _ (by unfold swCounts; rw [if_neg (by omega), if_neg (by omega)]; exact hl),
      show 2 * P = P + P by omega, e1 P le_rfl]
    rfl

/-! ### Tersoff -/

/-- **Tersoff.** What the file contains. -/
theorem C119_tersoff (n : Nat) (A : Apt α) (p : Nat → Nat → α) (hN : A.number = n * (n + 1) / 2 + n * (n - 1) / 2)
    (h : HasParams A (tersCounts n) p) :
    tersFile n A = .ok ([
      pairValues n "ters_a" (p · 0), pairValues n "ters_b" (p · 1), pairValues n "ters_la" (p · 2), pairValues n "ters_mu" (p · 3),
      pairValues n "ters_ga" (p · 4), pairValues n "ters_n" (p · 5), pairValues n "ters_c" (p · 6), pairValues n "ters_d" (p · 7),
      pairValues n "ters_h" (p · 8), pairValues n "ters_r_cut" (p · 9), pairValues n "ters_r0" (p · 10)] ++
      if 1 < n then [
        ("ters_chi", (List.range (n * (n - 1) / 2)).map fun i => p (n * (n + 1) / 2 + i) 0),
        ("ters_om", (List.range (n * (n - 1) / 2)).map fun i => p (n * (n + 1) / 2 + i) 1)]
      else []) := by
  have hp : paircol n = n * (n + 1) / 2 := rfl
  have h0 : ∀ key y, y < 11 → pairData n A key 0 y = .ok (pairValues n key (p · y)) := by
    intro key y hy
    rw [pairData_ok h n key 0 y (by omega)]
    · simp only [Nat.zero_add]
    · intro i hi
      unfold tersCounts
      rw [if_pos (by omega)]
      exact hy
  have h1 : ∀ key y, y < 2 → line key (fun i => param A (paircol n + i) y) (List.range (n * (n - 1) / 2)) =
      .ok (key, (List.range (n * (n - 1) / 2)).map fun i => p (n * (n + 1) / 2 + i) y) := by
    intro key y hy
    unfold line
    rw [collect_ok (g := fun i => p (n * (n + 1) / 2 + i) y)]
    intro i hi
    have hi := List.mem_range.1 hi
    refine param_ok h (by omega) ?_
    unfold tersCounts
    rw [if_neg (by omega)]
    exact hy
  unfold tersFile
  rw [h0 _ 0 (by omega), h0 _ 1 (by omega), h0 _ 2 (by omega), h0 _ 3 (by omega), h0 _ 4 (by omega), h0 _ 5 (by omega),
    h0 _ 6 (by omega), h0 _ 7 (by omega), h0 _ 8 (by omega), h0 _ 9 (by omega), h0 _ 10 (by omega), h1 _ 0 (by omega),
    h1 _ 1 (by omega)]
  by_cases hn : 1 < n
  · simp only [if_pos hn]
    exact lines_ok [_, _, _, _, _, _, _, _, _, _, _, _, _]
  · simp only [if_neg hn]
    exact lines_ok [_, _, _, _, _, _, _, _, _, _, _]

/-- The parameters of pairs are those the force routine reaches through its pointers. -/
theorem C119_tersoff_forces (n : Nat) (p : Nat → Nat → α) (xi : Nat → α)
    (h : ParamsInXi (n * (n + 1) / 2 + n * (n - 1) / 2) (tersCounts n) p xi) :
    ∀ c < n * (n + 1) / 2, ∀ y < 11, p c y = xi (pairPtr 11 c y) := by
  intro c hc y hy
  rw [h c (by omega) y (by unfold tersCounts; rw [if_pos hc]; exact hy),
    first_const _ 11 c fun i hi => by unfold tersCounts; rw [if_pos (by omega)]]
  unfold pairPtr
  rw [advance_eq]

/-- The parameters of mixed pairs, at most two types: written and used are the same, and 1 for equal types. -/
theorem C119_mixing_partial (p : Nat → Nat → α) (xi : Nat → α) (h : ParamsInXi 4 (tersCounts 2) p xi) :
    (mix 2 0 [])[pairCol 2 0 0]? = some (.one, .one) ∧ (mix 2 0 [])[pairCol 2 1 1]? = some (.one, .one) ∧
    ∃ a, (mix 2 0 [])[pairCol 2 0 1]? = some (.entry a, .entry (a + 1)) ∧ p 3 0 = xi a ∧ p 3 1 = xi (a + 1) := by
  have e : paramFirst (tersCounts 2) 3 = 41 := by decide
  refine ⟨by decide, by decide, 41, by decide, ?_, ?_⟩
  · rw [h 3 (by omega) 0 (by decide), e]
  · rw [h 3 (by omega) 1 (by decide), e]

/-- **Violated** for four types: the last number of the file belongs to the pair 23, for which the force routine uses 1. -/
theorem C119_mixing_violated (A : Apt α) (p : Nat → Nat → α) (hN : A.number = 16) (h : HasParams A (tersCounts 4) p) :
    (mix 4 0 [])[pairCol 4 2 3]? = some (.one, .one) ∧
    ∃ ls, tersFile 4 A = .ok ls ∧ ("ters_chi", [p 10 0, p 11 0, p 12 0, p 13 0, p 14 0, p 15 0]) ∈ ls := by
  refine ⟨by decide, _, C119_tersoff 4 A p hN h, ?_⟩
  simp [List.range_succ]

/-- **Modified Tersoff.** -/
theorem C119_modified (n : Nat) (A : Apt α) (p : Nat → Nat → α) (hN : A.number = n * (n + 1) / 2)
    (h : HasParams A (fun _ => 16) p) :
    tersModFile n A = .ok [
      pairValues n "ters_a" (p · 0), pairValues n "ters_b" (p · 1), pairValues n "ters_la" (p · 2), pairValues n "ters_mu" (p · 3),
      pairValues n "ters_eta" (p · 4), pairValues n "ters_delta" (p · 5), pairValues n "ters_alpha" (p · 6),
      pairValues n "ters_beta" (p · 7), pairValues n "ters_c1" (p · 8), pairValues n "ters_c2" (p · 9), pairValues n "ters_c3" (p · 10),
      pairValues n "ters_c4" (p · 11), pairValues n "ters_c5" (p · 12), pairValues n "ters_h" (p · 13), pairValues n "ters_r0" (p · 14),
      pairValues n "ters_r_cut" (p · 15)] ∧
    ∀ xi, ParamsInXi (n * (n + 1) / 2) (fun _ => 16) p xi → ∀ c < n * (n + 1) / 2, ∀ y < 16, p c y = xi (pairPtr 16 c y) := by
  have hp : paircol n = n * (n + 1) / 2 := rfl
  have h0 : ∀ key y, y < 16 → pairData n A key 0 y = .ok (pairValues n key (p · y)) := by
    intro key y hy
    rw [pairData_ok h n key 0 y (by omega)]
    · simp only [Nat.zero_add]
    · intro i _
      exact hy
  constructor
  · unfold tersModFile
    rw [h0 _ 0 (by omega), h0 _ 1 (by omega), h0 _ 2 (by omega), h0 _ 3 (by omega), h0 _ 4 (by omega), h0 _ 5 (by omega),
      h0 _ 6 (by omega), h0 _ 7 (by omega), h0 _ 8 (by omega), h0 _ 9 (by omega), h0 _ 10 (by omega), h0 _ 11 (by omega),
      h0 _ 12 (by omega), h0 _ 13 (by omega), h0 _ 14 (by omega), h0 _ 15 (by omega)]
    exact lines_ok [_, _, _, _, _, _, _, _, _, _, _, _, _, _, _, _]
  · intro xi hx c hc y hy
    rw [hx c hc y hy, first_const _ 16 c fun _ _ => rfl]
    unfold pairPtr
    rw [advance_eq]

/-! ### Electrostatics -/

/-- The arrays have the lengths they are allocated with. -/
structure ElecArrays (n : Nat) (A : Apt α) : Prop where
  charge : A.charge.length = n - 1
  alpha : A.alpha.length = n
  b : A.b.length = n * (n + 1) / 2
  c : A.c.length = n * (n + 1) / 2

theorem collect_all (l : List α) : collect (item l) (List.range l.length) = .ok l := by
  rcases l with _ | ⟨x, l⟩
  · rfl
  · have := collect_ok (f := item (x :: l)) (g := fun i => (x :: l).getD i x) (List.range (x :: l).length) (by
      intro i hi
      have hi := List.mem_range.1 hi
      apply item_ok
      rw [List.getD_eq_getElem?_getD, List.getElem?_eq_getElem hi]
      rfl)
    rw [this]
    congr 1
    apply List.ext_getElem
    · simp
    · intro i h1 h2
      simp only [List.getElem_map, List.getElem_range, List.getD_eq_getElem?_getD, List.getElem?_eq_getElem h2, Option.getD_some]

theorem lines_append (l l' : List (Line α)) (f : List (Except Trouble (Line α))) (hf : f = l'.map Except.ok) :
    lines (l.map Except.ok ++ f) = .ok (l ++ l') := by
  rw [hf, ← List.map_append]
  exact lines_ok _

/-- Lines behind the functions. -/
def elecTail (n : Nat) (dip : Bool) (cut e : α) (A : Apt α) : List (Line α) :=
  [("ew_rcut", [cut]), ("ew_kappa", [A.kappa]), ("r_cut", List.replicate (n * (n + 1) / 2) e)] ++
    if dip = true then [("dp_alpha", A.alpha), ("dp_b", A.b), ("dp_c", A.c)] else []

theorem elec_lines (n : Nat) (dip : Bool) (cut : α) (A : Apt α) (hA : ElecArrays n A) (e : α) (he : A.fin[0]? = some e)
    (fs : List (Line α)) (hf : functionLines A = .ok (fs.map Except.ok)) :
    elecFile n dip cut A = .ok ([("charge", A.charge ++ [A.lastCharge])] ++ fs ++ elecTail n dip cut e A) := by
  have h1 : chargeLine n A = .ok ("charge", A.charge ++ [A.lastCharge]) := by
    unfold chargeLine
    rw [← hA.charge, collect_all]
  have h2 : line "r_cut" (fun _ : Nat => item A.fin 0) (List.range (n * (n + 1) / 2)) =
      .ok ("r_cut", List.replicate (n * (n + 1) / 2) e) := by
    unfold line
    rw [collect_ok (g := fun _ => e) _ fun _ _ => item_ok he]
    simp [List.map_const']
  have h3 : ∀ key (l : List α) k, l.length = k → line key (item l) (List.range k) = .ok (key, l) := by
    rintro key l k rfl
    unfold line
    rw [collect_all]
  unfold elecFile elecTail
  rw [hf]
  simp only [h1, h2, h3 _ _ _ hA.alpha, h3 _ _ _ hA.b, h3 _ _ _ hA.c]
  rw [← lines_ok]
  congr 1
  by_cases hd : dip = true <;> simp [hd]

/-- **Electrostatics.** Charges, kappa, cutoff, polarisabilities and damping parameters are those of the potential, if the file is
written at all.  The lengths in `r_cut` are the end of the first function. -/
theorem C119_elstat (n : Nat) (dip : Bool) (cut : α) (A : Apt α) (hA : ElecArrays n A) (e : α) (he : A.fin[0]? = some e)
    (ls : List (Line α)) (h : elecFile n dip cut A = .ok ls) :
    ("charge", A.charge ++ [A.lastCharge]) ∈ ls ∧ ("ew_rcut", [cut]) ∈ ls ∧ ("ew_kappa", [A.kappa]) ∈ ls ∧
    ("r_cut", List.replicate (n * (n + 1) / 2) e) ∈ ls ∧
    (dip = true → ("dp_alpha", A.alpha) ∈ ls ∧ ("dp_b", A.b) ∈ ls ∧ ("dp_c", A.c) ∈ ls) := by
  have hsplit : ∀ (a b : List (Except Trouble (Line α))) (ls : List (Line α)), lines (a ++ b) = .ok ls →
      ∃ x y, lines a = .ok x ∧ lines b = .ok y ∧ ls = x ++ y := by
    intro a
    unfold lines
    induction a with
    | nil => intro b ls h; exact ⟨[], ls, rfl, h, rfl⟩
    | cons z a ih =>
      intro b ls h
      simp only [List.cons_append, collect, id] at h ⊢
      rcases z with e | z
      · simp at h
      · simp only at h ⊢
        rcases hc : collect id (a ++ b) with e | ys
        · simp [hc] at h
        · obtain ⟨x, y, h1, h2, h3⟩ := ih b ys hc
          simp only [hc, Except.ok.injEq] at h
          exact ⟨z :: x, y, by simp [h1], h2, by rw [← h, h3]; rfl⟩
  have h1 : chargeLine n A = .ok ("charge", A.charge ++ [A.lastCharge]) := by
    unfold chargeLine
    rw [← hA.charge, collect_all]
  have h2 : line "r_cut" (fun _ : Nat => item A.fin 0) (List.range (n * (n + 1) / 2)) =
      .ok ("r_cut", List.replicate (n * (n + 1) / 2) e) := by
    unfold line
    rw [collect_ok (g := fun _ => e) _ fun _ _ => item_ok he]
    simp [List.map_const']
  have h3 : ∀ key (l : List α) k, l.length = k → line key (item l) (List.range k) = .ok (key, l) := by
    rintro key l k rfl
    unfold line
    rw [collect_all]
  unfold elecFile at h
  rcases hf : functionLines A with e' | fs
  · simp [hf] at h
  simp only [hf, h1, h2, h3 _ _ _ hA.alpha, h3 _ _ _ hA.b, h3 _ _ _ hA.c] at h
  rw [List.append_assoc] at h
  obtain ⟨x, y, g1, g2, rfl⟩ := hsplit _ _ _ h
  obtain ⟨x1, x2, g3, -, rfl⟩ := hsplit _ _ _ g1
  have g2' : lines ((elecTail n dip cut e A).map Except.ok) = .ok y := by
    rw [← g2]
    congr 1
    unfold elecTail
    by_cases hd : dip = true <;> simp [hd]
  rw [lines_ok] at g2'
  obtain rfl : elecTail n dip cut e A = y := by simpa using g2'
  obtain rfl : [("charge", A.charge ++ [A.lastCharge])] = x1 := by
    have := lines_ok [("charge", A.charge ++ [A.lastCharge])]
    rw [List.map_cons, List.map_nil] at this
    rw [this] at g3
    simpa using g3
  refine ⟨by simp, by simp [elecTail], by simp [elecTail], by simp [elecTail], ?_⟩
  intro hd
  simp [elecTail, hd]

/-- All functions are Morse-Stretch (or Buckingham) functions: their parameters are in the file. -/
theorem C119_functions_partial (n : Nat) (dip : Bool) (cut : α) (A : Apt α) (hA : ElecArrays n A) (e : α) (he : A.fin[0]? = some e)
    (p : Nat → Nat → α) (h : HasParams A (fun _ => 3) p) (hN : 3 ≤ A.number) (ms : Bool)
    (hn : A.names = List.replicate A.number (if ms = true then "ms" else "buck")) :
    elecFile n dip cut A = .ok ([("charge", A.charge ++ [A.lastCharge])] ++
      (let all := fun y => (List.range A.number).map fun c => p c y
       if ms = true then [("ms_D", all 0), ("ms_gamma", all 1), ("ms_r0", all 2)]
       else [("buck_a", all 0), ("buck_sigma", all 1), ("buck_c", all 2)]) ++ elecTail n dip cut e A) := by
  have hi : ∀ i < 3, item A.names i = .ok (if ms = true then "ms" else "buck") := by
    intro i hi
    apply item_ok
    rw [hn, List.getElem?_replicate, if_pos (by omega)]
  have hd : ∀ key y, y < 3 → allData A key y = .ok (key, (List.range A.number).map fun c => p c y) := by
    intro key y hy
    unfold allData line
    rw [collect_ok (g := fun c => p c y)]
    intro c hc
    exact param_ok h (List.mem_range.1 hc) hy
  apply elec_lines n dip cut A hA e he
  unfold functionLines firstThree
  rw [hi 0 (by omega), hi 1 (by omega), hi 2 (by omega)]
  cases ms
  · simp [hd]
  · simp [hd]

/-- Neither the first three functions are all Morse-Stretch functions nor all Buckingham functions: no parameters of functions. -/
theorem C119_other (n : Nat) (dip : Bool) (cut : α) (A : Apt α) (hA : ElecArrays n A) (e : α) (he : A.fin[0]? = some e)
    (a b c : String) (rest : List String) (hn : A.names = a :: b :: c :: rest) (hms : ¬ (a = "ms" ∧ b = "ms" ∧ c = "ms"))
    (hbuck : ¬ (a = "buck" ∧ b = "buck" ∧ c = "buck")) :
    elecFile n dip cut A = .ok ([("charge", A.charge ++ [A.lastCharge])] ++ elecTail n dip cut e A) := by
  have h3 : ∀ s, ¬ (a = s ∧ b = s ∧ c = s) → firstThree A s = .ok false := by
    intro s hs
    unfold firstThree
    rw [hn]
    simp only [item, List.getElem?_cons_zero, List.getElem?_cons_succ]
    by_cases h1 : a = s
    · by_cases h2 : b = s
      · have h4 : c ≠ s := fun h4 => hs ⟨h1, h2, h4⟩
        simp [h1, h2, h4]
      · simp [h1, h2]
    · simp [h1]
  have := elec_lines n dip cut A hA e he [] (by unfold functionLines; rw [h3 _ hms, h3 _ hbuck]; rfl)
  simpa using this

/-- All functions end at the same distance: this is the length given for every pair. -/
theorem C119_cut_partial (n : Nat) (dip : Bool) (cut : α) (A : Apt α) (hA : ElecArrays n A) (hn : 1 ≤ n) (hp : n * (n + 1) / 2 ≤ A.fin.length)
    (e : α) (he : ∀ x ∈ A.fin, x = e) (ls : List (Line α)) (h : elecFile n dip cut A = .ok ls) :
    ("r_cut", A.fin.take (n * (n + 1) / 2)) ∈ ls := by
  have h1 : 1 ≤ n * (n + 1) / 2 := by
    have : 2 ≤ n * (n + 1) := by nlinarith
    omega
  have h0 : A.fin[0]? = some e := by
    rw [List.getElem?_eq_getElem (by omega)]
    exact congrArg some (he _ (List.getElem_mem _))
  have := (C119_elstat n dip cut A hA e h0 ls h).2.2.2.1
  rw [show A.fin.take (n * (n + 1) / 2) = List.replicate (n * (n + 1) / 2) e from
    List.eq_replicate_iff.2 ⟨by simp [hp], fun x hx => he x (List.mem_of_mem_take hx)⟩]
  exact this

/-! ### What is wrong with the file of the electrostatics -/

/-- One element with a Morse-Stretch function. -/
def loneApt : Apt ℤ := ⟨1, ["ms"], [[1, 2, 3]], [10], [], 0, 1, [1], [1], [1]⟩

/-- **Violated** for one type of atoms: the names of a second and a third function are read. -/
theorem C119_one_violated : ElecArrays 1 loneApt ∧ HasParams loneApt (fun _ => 3) (fun _ y => y + 1) ∧
    elecFile 1 true 8 loneApt = .error .outside := by
  refine ⟨⟨rfl, rfl, rfl, rfl⟩, ⟨rfl, fun c hc => ?_⟩, by decide⟩
  obtain rfl : c = 0 := by have : c < 1 := hc; omega
  rfl

/-- Two types; the functions end at 10, 9 and 8. -/
def endsApt : Apt ℤ := ⟨3, ["ms", "ms", "ms"], [[1, 2, 3], [4, 5, 6], [7, 8, 9]], [10, 9, 8], [1], -1, 1, [1, 1], [1, 1, 1], [1, 1, 1]⟩

/-- **Violated**: all pairs get the cutoff of the first. -/
theorem C119_cut_violated : ElecArrays 2 endsApt ∧
    elecFile 2 false 8 endsApt = .ok [("charge", [1, -1]), ("ms_D", [1, 4, 7]), ("ms_gamma", [2, 5, 8]), ("ms_r0", [3, 6, 9]),
      ("ew_rcut", [8]), ("ew_kappa", [1]), ("r_cut", [10, 10, 10])] ∧
    endsApt.fin = [10, 9, 8] :=
  ⟨⟨rfl, rfl, rfl, rfl⟩, by decide, rfl⟩

/-- Three types; the functions of the last three pairs are others. -/
def mixedApt (name : String) (v : List ℤ) : Apt ℤ :=
  ⟨6, ["ms", "ms", "ms", name, name, name], [[1, 2, 3], [1, 2, 3], [1, 2, 3], v, v, v], [10, 10, 10, 10, 10, 10], [1, -1], 0, 1,
    [1, 1, 1], [1, 1, 1, 1, 1, 1], [1, 1, 1, 1, 1, 1]⟩

/-- **Violated** for three types: only the names of the first three functions are looked at.  Parameters of Buckingham functions are
given as those of Morse-Stretch functions; with functions of two parameters the program reads behind the end of the array. -/
theorem C119_mixed_violated :
    (∃ ls, elecFile 3 false 8 (mixedApt "buck" [7, 8, 9]) = .ok ls ∧ ("ms_D", [1, 1, 1, 7, 7, 7]) ∈ ls) ∧
    elecFile 3 false 8 (mixedApt "lj" [7, 8]) = .error .outside :=
  ⟨⟨_, rfl, by decide⟩, by decide⟩

/-! ### Examples -/

/-- Hypotheses of `C119_stiweb` and `C119_stiweb_forces`: one type. -/
example : ∃ A : Apt ℕ, A.number = 2 * (1 * (1 + 1) / 2) + 1 ∧ HasParams A (swCounts 1) (fun c y => 10 * c + y) ∧
    swFile 1 A = .ok [("stiweb_a", [0]), ("stiweb_b", [1]), ("stiweb_p", [2]), ("stiweb_q", [3]), ("stiweb_de", [4]), ("stiweb_a1", [5]),
      ("stiweb_ga", [10]), ("stiweb_a2", [11]), ("stiweb_la", [20])] := by
  refine ⟨⟨3, ["stiweb_2", "stiweb_3", "lambda"], [[0, 1, 2, 3, 4, 5], [10, 11], [20]], [], [], 0, 0, [], [], []⟩, rfl, ⟨rfl, ?_⟩, by decide⟩
  intro c hc
  have hc : c < 3 := hc
  interval_cases c <;> rfl

/-- The order of lambda for two types: 000, 100, 001, 101, 011, 111. -/
example : (filePairs 2).flatMap (fun s => (List.range 2).map fun i => lambdaNumber 2 i s.1 s.2) = [0, 3, 1, 4, 2, 5] := by decide

/-- Hypotheses of `C119_mixing_violated`. -/
example : ∃ A : Apt ℕ, A.number = 16 ∧ HasParams A (tersCounts 4) (fun c y => 100 * c + y) := by
  refine ⟨⟨16, [], (List.range 16).map fun c => (List.range (tersCounts 4 c)).map fun y => 100 * c + y, [], [], 0, 0, [], [], []⟩, rfl,
    by simp, ?_⟩
  intro c hc
  have hc : c < 16 := hc
  simp [hc]

/-- Hypotheses of `C119_other`. -/
example : ElecArrays 2 { endsApt with names := ["ms", "buck", "ms"] } ∧ elecFile 2 false 8 { endsApt with names := ["ms", "buck", "ms"] } =
    .ok [("charge", [1, -1]), ("ew_rcut", [8]), ("ew_kappa", [1]), ("r_cut", [10, 10, 10])] := ⟨⟨rfl, rfl, rfl, rfl⟩, by decide⟩

/-- Hypotheses of `C119_functions_partial` and `C119_cut_partial`. -/
example : ElecArrays 2 { endsApt with fin := [10, 10, 10] } ∧ HasParams { endsApt with fin := [10, 10, 10] } (fun _ => 3)
    (fun c y => 3 * c + y + 1) ∧ endsApt.names = List.replicate 3 "ms" := by
  refine ⟨⟨rfl, rfl, rfl, rfl⟩, ⟨rfl, fun c hc => ?_⟩, rfl⟩
  have hc : c < 3 := hc
  interval_cases c <;> rfl

end Verif.Props
