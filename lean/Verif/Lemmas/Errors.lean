/-
Sums of the error report.
-/
import Verif.Model.Errors
import Verif.Spec.Residual
import Verif.Spec.Parallel
import Mathlib.Tactic.Ring
import Mathlib.Tactic.Linarith

set_option linter.unusedSectionVars false

namespace Verif.Force

open Verif.Spec

variable {K : Type*} [Field K] [LinearOrder K] [IsStrictOrderedRing K]

/-- A number read off a row, zero without row. -/
def valOr {β : Type*} (g : β → K) : Option β → K
  | some y => g y
  | none => 0

theorem sum_filterMap {α β : Type*} (l : List α) (f : α → Option β) (g : β → K) :
    ((l.filterMap f).map g).sum = (l.map fun i => valOr g (f i)).sum := by
  induction l with
  | nil => rfl
  | cons a l ih =>
    rw [List.map_cons, List.sum_cons, ← ih]
    cases h : f a with
    | none => rw [List.filterMap_cons_none h, valOr, zero_add]
    | some y => rw [List.filterMap_cons_some h, List.map_cons, List.sum_cons, valOr]

/-- A loop over `m n` entries with quotient and remainder is a double loop. -/
theorem sum_divmod (m : Nat) (n : Nat) (f : Nat → Nat → K) :
    ((List.range ((m + 1) * n)).map fun i => f (i / (m + 1)) (i % (m + 1))).sum =
      ((List.range n).map fun a => ((List.range (m + 1)).map fun x => f a x).sum).sum := by
  induction n with
  | zero => simp
  | succ n ih =>
    rw [Nat.mul_succ, List.range_add, List.map_append, List.sum_append, ih, List.range_succ (n := n), List.map_append, List.sum_append]
    congr 1
    rw [List.map_map, List.map_cons, List.map_nil, List.sum_cons, List.sum_nil, add_zero]
    congr 1
    refine List.map_congr_left fun x hx => ?_
    have hx := List.mem_range.1 hx
    show f (((m + 1) * n + x) / (m + 1)) (((m + 1) * n + x) % (m + 1)) = f n x
    rw [Nat.mul_add_div (Nat.succ_pos m), Nat.div_eq_of_lt hx, Nat.mul_add_mod, Nat.mod_eq_of_lt hx, Nat.add_zero]

theorem sum_range_three (f : Nat → K) : ((List.range 3).map f).sum = f 0 + f 1 + f 2 := by
  simp [List.range_succ, add_assoc]

theorem sum_range_six (f : Fin 6 → K) : ((List.range 6).map fun j => f (Fin.ofNat 6 j)).sum = ∑ x : Fin 6, f x := by
  rw [show List.range 6 = [0, 1, 2, 3, 4, 5] from rfl, Fin.sum_univ_six]
  simp only [List.map_cons, List.map_nil, List.sum_cons, List.sum_nil]
  simp only [show Fin.ofNat 6 0 = 0 from rfl, show Fin.ofNat 6 1 = 1 from rfl, show Fin.ofNat 6 2 = 2 from rfl,
    show Fin.ofNat 6 3 = 3 from rfl, show Fin.ofNat 6 4 = 4 from rfl, show Fin.ofNat 6 5 = 5 from rfl]
  ring

/-- Numbering of the atoms of a list of configurations starting with atom `off`. -/
def Starts (off : Nat) : List (Conf K) → Prop
  | [] => True
  | c :: cs => c.start = off ∧ Starts (off + c.atoms.length) cs

theorem starts_of (confs : List (Conf K)) : ∀ off, (∀ k c, confs[k]? = some c →
    c.start = off + ((List.range k).map (inconf confs)).sum) → Starts off confs := by
  induction confs with
  | nil => intro _ _; trivial
  | cons c cs ih =>
    intro off h
    refine ⟨by simpa using h 0 c rfl, ih _ fun k d hk => ?_⟩
    rw [h (k + 1) d hk, List.range_succ_eq_map, List.map_cons, List.sum_cons, List.map_map]
    show _ = off + c.atoms.length + _
    rw [Nat.add_assoc]
    rfl

theorem starts_numbered {confs : List (Conf K)} (h : Numbered confs) : Starts 0 confs :=
  starts_of confs 0 fun k c hk => by rw [Nat.zero_add]; exact h k c hk

/-- A sum over all atoms is a double sum over configurations and their atoms. -/
theorem sum_atoms {M : Type*} [AddCommMonoid M] (confs : List (Conf K)) (G : Nat → Nat → Atom K → M) : ∀ (k off : Nat), Starts off confs →
    (((atomsFrom confs k).zipIdx off).map fun x => G x.2 x.1.1 x.1.2).sum =
      ((confs.zipIdx k).map fun ck => (ck.1.atoms.zipIdx.map fun ak => G (ck.1.start + ak.2) ck.2 ak.1).sum).sum := by
  induction confs with
  | nil => intro k off _; rfl
  | cons c cs ih =>
    intro k off h
    rw [atomsFrom, List.zipIdx_append, List.map_append, List.sum_append, List.zipIdx_cons, List.map_cons, List.sum_cons]
    congr 1
    · rw [h.1, List.zipIdx_map, List.map_map]
      have : c.atoms.zipIdx off = (c.atoms.zipIdx).map fun ak => (ak.1, off + ak.2) := by
        have := List.zipIdx_eq_map_add (l := c.atoms) (i := off)
        rw [this]
      rw [this, List.map_map]
      rfl
    · rw [List.length_map]
      exact ih (k + 1) _ h.2

/-- Atom `j` of configuration `k` in the list of all atoms. -/
theorem atomsFrom_get (confs : List (Conf K)) : ∀ (n off : Nat), Starts off confs → ∀ (k : Nat) (c : Conf K), confs[k]? = some c →
    ∀ (j : Nat) (a : Atom K), c.atoms[j]? = some a → off ≤ c.start ∧ (atomsFrom confs n)[c.start - off + j]? = some (n + k, a) := by
  induction confs with
  | nil => intro n off _ k c hk; simp at hk
  | cons c' cs ih =>
    intro n off h k c hk j a hj
    cases k with
    | zero =>
      simp only [List.getElem?_cons_zero, Option.some.injEq] at hk
      subst hk
      refine ⟨h.1.ge, ?_⟩
      rw [h.1, Nat.sub_self, Nat.zero_add, atomsFrom,
        List.getElem?_append_left (by rw [List.length_map]; exact (List.getElem?_eq_some_iff.1 hj).1), List.getElem?_map, hj]
      rfl
    | succ k =>
      obtain ⟨h1, h2⟩ := ih (n + 1) _ h.2 k c hk j a hj
      refine ⟨by omega, ?_⟩
      rw [atomsFrom, List.getElem?_append_right (by rw [List.length_map]; omega), List.length_map,
        show c.start - off + j - c'.atoms.length = c.start - (off + c'.atoms.length) + j by omega, h2]
      congr 2
      omega

theorem allAtoms_get {confs : List (Conf K)} (hn : Numbered confs) {k : Nat} {c : Conf K} (hk : confs[k]? = some c) {j : Nat} {a : Atom K}
    (hj : c.atoms[j]? = some a) : (allAtoms confs)[c.start + j]? = some (k, a) := by
  have := (atomsFrom_get confs 0 0 (starts_numbered hn) k c hk j a hj).2
  rwa [Nat.sub_zero, Nat.zero_add] at this

theorem sum_zipIdx_get {α : Type*} (l : List α) (G : Nat → α → K) (G' : Nat → K) (h : ∀ i a, l[i]? = some a → G' i = G i a) :
    ((List.range l.length).map G').sum = (l.zipIdx.map fun x => G x.2 x.1).sum := by
  have e : List.range l.length = l.zipIdx.map Prod.snd := by rw [List.zipIdx_map_snd, List.range_eq_range']
  rw [e, List.map_map]
  congr 1
  refine List.map_congr_left fun x hx => ?_
  exact h x.2 x.1 (List.mem_zipIdx_iff_getElem?.1 hx)

/-- Row of atom `j` of configuration `k`. -/
theorem forceRow_eq (b : Build) {confs : List (Conf K)} (hn : Numbered confs) (v : FV K) {k : Nat} {c : Conf K} (hk : confs[k]? = some c)
    {j : Nat} {a : Atom K} (hj : c.atoms[j]? = some a) (x : Fin 3) :
    forceRow b confs v (3 * (c.start + j) + x.val) = some ⟨k,
      if b.contrib && !a.contrib then 0 else c.weight * (v.force (c.start + j) x * v.force (c.start + j) x),
      v.force (c.start + j) x * reportScale b a + c.force0 (c.start + j) x, c.force0 (c.start + j) x,
      shown (v.force (c.start + j) x) (c.force0 (c.start + j) x)⟩ := by
  unfold forceRow
  have e1 : (3 * (c.start + j) + x.val) / 3 = c.start + j := by have := x.isLt; omega
  have e2 : Fin.ofNat 3 ((3 * (c.start + j) + x.val) % 3) = x := by
    apply Fin.ext
    show (3 * (c.start + j) + x.val) % 3 % 3 = x.val
    have := x.isLt
    omega
  rw [e1, e2, allAtoms_get hn hk hj]
  simp only [hk]
  congr 2
  by_cases hb : b.fweight = true
  · rw [if_pos hb]
  · rw [if_neg hb, reportScale, if_neg hb, mul_one]

/-- The sum over the force file. -/
theorem forceSum_eq (b : Build) {confs : List (Conf K)} (hn : Numbered confs) (v : FV K) :
    forceSum b confs v = (confs.zipIdx.map fun ck => ck.1.weight * forceResidual b v ck.1).sum := by
  unfold forceSum forceRows
  rw [sum_filterMap]
  let F : Nat → Nat → K := fun i x => valOr ForceRow.sqr (forceRow b confs v (3 * i + x))
  have e0 : (fun i => valOr ForceRow.sqr (forceRow b confs v i)) = fun i => F (i / 3) (i % 3) := by
    funext i
    show _ = valOr ForceRow.sqr (forceRow b confs v (3 * (i / 3) + i % 3))
    rw [Nat.div_add_mod]
  rw [e0, sum_divmod 2]
  let W : Nat → K := fun k => match confs[k]? with | some c => c.weight | none => 0
  let G : Nat → Nat → Atom K → K := fun i k a => if b.contrib = true ∧ a.contrib = false then 0 else W k * ∑ x : Fin 3, v.force i x ^ 2
  have h1 : ((List.range (allAtoms confs).length).map fun a => ((List.range 3).map fun x => F a x).sum).sum =
      ((allAtoms confs).zipIdx.map fun x => G x.2 x.1.1 x.1.2).sum := by
    refine sum_zipIdx_get (allAtoms confs) (fun i ka => G i ka.1 ka.2) _ fun i ka hi => ?_
    obtain ⟨k, a⟩ := ka
    rw [sum_range_three]
    have hrow : ∀ x : Nat, x < 3 → F i x = if b.contrib = true ∧ a.contrib = false then 0
        else W k * v.force i (Fin.ofNat 3 x) ^ 2 := by
      intro x hx
      show (valOr ForceRow.sqr (forceRow b confs v (3 * i + x))) = _
      unfold forceRow
      rw [show (3 * i + x) / 3 = i by omega, show (3 * i + x) % 3 = x by omega, hi]
      simp only
      have hW : W k = match confs[k]? with | some c => c.weight | none => 0 := rfl
      rw [hW]
      cases confs[k]? with
      | none => simp [valOr]
      | some c =>
        simp only [valOr]
        by_cases hc : b.contrib = true ∧ a.contrib = false
        · rw [if_pos hc, if_pos (by simp [hc])]
        · rw [if_neg hc, if_neg (by simpa using hc), pow_two]
    rw [hrow 0 (by omega), hrow 1 (by omega), hrow 2 (by omega)]
    show _ = if b.contrib = true ∧ a.contrib = false then 0 else W k * ∑ x : Fin 3, v.force i x ^ 2
    rw [Fin.sum_univ_three]
    by_cases hc : b.contrib = true ∧ a.contrib = false
    · simp only [if_pos hc, add_zero]
    · simp only [if_neg hc]
      rw [show (Fin.ofNat 3 0 : Fin 3) = 0 from rfl, show (Fin.ofNat 3 1 : Fin 3) = 1 from rfl, show (Fin.ofNat 3 2 : Fin 3) = 2 from rfl]
      ring
  refine h1.trans ?_
  unfold allAtoms
  rw [sum_atoms confs G 0 0 (starts_numbered hn)]
  congr 1
  refine List.map_congr_left fun ck hck => ?_
  have hk : confs[ck.2]? = some ck.1 := List.mem_zipIdx_iff_getElem?.1 hck
  unfold forceResidual
  rw [← List.sum_map_mul_left]
  congr 1
  refine List.map_congr_left fun ak _ => ?_
  show (if b.contrib = true ∧ ak.1.contrib = false then 0 else (match confs[ck.2]? with | some c => c.weight | none => 0) * _) = _
  rw [hk]
  split <;> simp

theorem energySum_eq (ew : K) (confs : List (Conf K)) (v : FV K) :
    energySum ew confs v = (confs.zipIdx.map fun ck => ck.1.weight * ew * v.energy ck.2 ^ 2).sum := by
  unfold energySum energyRows
  by_cases he : ew = 0
  · rw [if_pos he, he]
    simp
  · rw [if_neg he, sum_filterMap]
    refine sum_zipIdx_get confs (fun k c => c.weight * ew * v.energy k ^ 2) _ fun i c hi => ?_
    simp only [energyRow, hi, valOr]
    ring

theorem stressSum_eq (b : Build) (sw : K) (confs : List (Conf K)) (v : FV K) :
    stressSum b sw confs v = (confs.zipIdx.map fun ck => if b.stress = true then
      ck.1.weight * sw * ∑ x : Fin 6, v.stress ck.2 x ^ 2 else 0).sum := by
  unfold stressSum stressRows
  by_cases hb : b.stress = true
  · by_cases hs : sw = 0
    · rw [if_neg (by simp [hs]), hs]
      simp
    · rw [if_pos (by simp [hb, hs]), sum_filterMap]
      let F : Nat → Nat → K := fun i x => valOr StressRow.sqr (stressRow sw confs v (6 * i + x))
      have e0 : (fun i => valOr StressRow.sqr (stressRow sw confs v i)) = fun i => F (i / 6) (i % 6) := by
        funext i
        show _ = valOr StressRow.sqr (stressRow sw confs v (6 * (i / 6) + i % 6))
        rw [Nat.div_add_mod]
      rw [e0, sum_divmod 5]
      simp only [if_pos hb]
      refine sum_zipIdx_get confs (fun k c => c.weight * sw * ∑ x : Fin 6, v.stress k x ^ 2) _ fun i c hi => ?_
      have hF : ∀ x ∈ List.range 6, F i x = c.weight * sw * v.stress i (Fin.ofNat 6 x) ^ 2 := by
        intro x hx
        have hx := List.mem_range.1 hx
        show (valOr StressRow.sqr (stressRow sw confs v (6 * i + x))) = _
        unfold stressRow
        rw [show (6 * i + x) / 6 = i by omega, show (6 * i + x) % 6 = x by omega, hi]
        simp only [valOr]
        ring
      show ((List.range 6).map fun x => F i x).sum = _
      rw [List.map_congr_left hF, ← sum_range_six, ← List.sum_map_mul_left]
  · rw [if_neg (by simp [hb])]
    simp [hb]

end Verif.Force
