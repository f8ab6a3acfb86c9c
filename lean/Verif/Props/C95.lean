/-
C95  Ensembles of potentials: start, eigenvalues, attempts and files.
-/
import Verif.Model.UqEnsemble
import Verif.Props.C47
import Verif.Props.C94

set_option linter.unusedSectionVars false

namespace Verif.Props

open Verif.Uq Verif.UqEnsemble

section Start

variable {K : Type*} [Field K] [LinearOrder K] [IsStrictOrderedRing K]

/-! ### Lower costs found while the Hessian is computed -/

/-- The lowest cost recorded after looking at the cost `c`. -/
def lowest (cost c best : K) : K := if c < cost ∧ c < best then c else best

theorem note_low (idx : Nat → Nat) (cost c : K) (s : State K) : (note idx cost c s).bestCost = lowest cost c s.bestCost := by
  unfold note lowest
  split <;> rfl

theorem lowest_le (cost c best : K) : lowest cost c best ≤ best := by
  unfold lowest
  split
  · next h => exact h.2.le
  · exact le_rfl

theorem lowest_eq {cost c best : K} (h : lowest cost c best = best) (hb : cost ≤ best) : cost ≤ c := by
  unfold lowest at h
  split at h
  · next h' => exact absurd h h'.2.ne
  · next h' =>
    by_contra hc
    exact h' ⟨not_le.1 hc, (not_le.1 hc).trans_le hb⟩

theorem diag_low {obj : (Nat → K) → K} {idx : Nat → Nat} {cost : K} {d x : Nat → K} {s s' : State K} {i : Nat} (hx : s.x = x)
    (h : diag obj idx cost d s i = .ok s') :
    s'.x = x ∧ s'.bestCost = lowest cost (obj (moved x (idx i) (idx i) (-(d i)) 0)) (lowest cost (obj (moved x (idx i) (idx i) (d i) 0)) s.bestCost) := by
  unfold diag at h
  have e1 : add x (idx i) (d i) = moved x (idx i) (idx i) (d i) 0 := by
    funext q; rw [add_apply, moved]; simp
  have e2 : add (moved x (idx i) (idx i) (d i) 0) (idx i) (-(2 * d i)) = moved x (idx i) (idx i) (-(d i)) 0 := by
    funext q; rw [add_apply, moved, moved]; split <;> ring
  have e3 : add (moved x (idx i) (idx i) (-(d i)) 0) (idx i) (d i) = x := by
    funext q; rw [add_apply, moved]; split <;> ring
  simp only [note_x, note_h, hx, e1, e2, e3, bind, Except.bind] at h
  cases hv : cdiv (obj (moved x (idx i) (idx i) (d i) 0) - 2 * cost + obj (moved x (idx i) (idx i) (-(d i)) 0)) (d i * d i) with
  | error e => rw [hv] at h; cases h
  | ok v =>
    rw [hv] at h
    simp only [pure, Except.pure, Except.ok.injEq] at h
    subst h
    exact ⟨rfl, by simp only [note_low]⟩

theorem offDiag_low {obj : (Nat → K) → K} {idx : Nat → Nat} {cost : K} {d x : Nat → K} {s s' : State K} {p : Nat × Nat} (hx : s.x = x)
    (h : offDiag obj idx cost d s p = .ok s') :
    s'.x = x ∧ s'.bestCost = lowest cost (obj (moved x (idx p.1) (idx p.2) (-(d p.1)) (d p.2)))
      (lowest cost (obj (moved x (idx p.1) (idx p.2) (d p.1) (-(d p.2)))) s.bestCost) := by
  obtain ⟨i, j⟩ := p
  unfold offDiag at h
  have e1 : add (add x (idx i) (d i)) (idx j) (d j) = moved x (idx i) (idx j) (d i) (d j) := by
    funext q; rw [add_apply, add_apply, moved]
  have e2 : add (moved x (idx i) (idx j) (d i) (d j)) (idx j) (-(2 * d j)) = moved x (idx i) (idx j) (d i) (-(d j)) := by
    funext q; rw [add_apply, moved, moved]; split_ifs <;> ring
  have e3 : add (add (moved x (idx i) (idx j) (d i) (-(d j))) (idx i) (-(2 * d i))) (idx j) (2 * d j)
      = moved x (idx i) (idx j) (-(d i)) (d j) := by
    funext q; rw [add_apply, add_apply, moved, moved]; split_ifs <;> ring
  have e4 : add (moved x (idx i) (idx j) (-(d i)) (d j)) (idx j) (-(2 * d j)) = moved x (idx i) (idx j) (-(d i)) (-(d j)) := by
    funext q; rw [add_apply, moved, moved]; split_ifs <;> ring
  have e5 : add (add (moved x (idx i) (idx j) (-(d i)) (-(d j))) (idx i) (d i)) (idx j) (d j) = x := by
    funext q; rw [add_apply, add_apply, moved]; split_ifs <;> ring
  simp only [note_x, note_h, hx, e1, e2, e3, e4, e5, bind, Except.bind] at h
  cases hv : cdiv (obj (moved x (idx i) (idx j) (d i) (d j)) + obj (moved x (idx i) (idx j) (-(d i)) (-(d j))) -
      obj (moved x (idx i) (idx j) (d i) (-(d j))) - obj (moved x (idx i) (idx j) (-(d i)) (d j))) (4 * d i * d j) with
  | error e => rw [hv] at h; cases h
  | ok v =>
    rw [hv] at h
    simp only [pure, Except.pure, Except.ok.injEq] at h
    subst h
    exact ⟨rfl, by simp only [note_low]⟩

theorem diagLoop_low {obj : (Nat → K) → K} {idx : Nat → Nat} {cost : K} {d x : Nat → K} (l : List Nat) {s s' : State K} (hx : s.x = x)
    (h : l.foldlM (diag obj idx cost d) s = .ok s') :
    s'.x = x ∧ s'.bestCost ≤ s.bestCost ∧ (s'.bestCost = s.bestCost → cost ≤ s.bestCost → ∀ i ∈ l,
      cost ≤ obj (moved x (idx i) (idx i) (d i) 0) ∧ cost ≤ obj (moved x (idx i) (idx i) (-(d i)) 0)) := by
  induction l generalizing s with
  | nil => cases h; exact ⟨hx, le_rfl, fun _ _ i hi => by simp at hi⟩
  | cons a l ih =>
    rw [List.foldlM_cons] at h
    cases h1 : diag obj idx cost d s a with
    | error e => rw [h1] at h; cases h
    | ok s1 =>
      rw [h1] at h
      obtain ⟨x1, b1⟩ := diag_low hx h1
      obtain ⟨x2, b2, b3⟩ := ih x1 h
      have l1 := lowest_le cost (obj (moved x (idx a) (idx a) (-(d a)) 0)) (lowest cost (obj (moved x (idx a) (idx a) (d a) 0)) s.bestCost)
      have l2 := lowest_le cost (obj (moved x (idx a) (idx a) (d a) 0)) s.bestCost
      refine ⟨x2, by rw [b1] at b2; exact b2.trans (l1.trans l2), fun he hc i hi => ?_⟩
      rw [b1] at b2 b3
      have m1 : lowest cost (obj (moved x (idx a) (idx a) (d a) 0)) s.bestCost = s.bestCost := by
        exact le_antisymm l2 (he.symm.le.trans (b2.trans l1))
      rw [m1] at l1 b2 b3
      have m2 : lowest cost (obj (moved x (idx a) (idx a) (-(d a)) 0)) s.bestCost = s.bestCost := by
        exact le_antisymm l1 (he.symm.le.trans b2)
      rw [m2] at b3
      rcases List.mem_cons.1 hi with rfl | hi
      · exact ⟨lowest_eq m1 hc, lowest_eq m2 hc⟩
      · exact b3 he hc i hi

theorem offDiagLoop_low {obj : (Nat → K) → K} {idx : Nat → Nat} {cost : K} {d x : Nat → K} (l : List (Nat × Nat)) {s s' : State K}
    (hx : s.x = x) (h : l.foldlM (offDiag obj idx cost d) s = .ok s') :
    s'.x = x ∧ s'.bestCost ≤ s.bestCost ∧ (s'.bestCost = s.bestCost → cost ≤ s.bestCost → ∀ p ∈ l,
      cost ≤ obj (moved x (idx p.1) (idx p.2) (d p.1) (-(d p.2))) ∧ cost ≤ obj (moved x (idx p.1) (idx p.2) (-(d p.1)) (d p.2))) := by
  induction l generalizing s with
  | nil => cases h; exact ⟨hx, le_rfl, fun _ _ i hi => by simp at hi⟩
  | cons a l ih =>
    rw [List.foldlM_cons] at h
    cases h1 : offDiag obj idx cost d s a with
    | error e => rw [h1] at h; cases h
    | ok s1 =>
      rw [h1] at h
      obtain ⟨x1, b1⟩ := offDiag_low hx h1
      obtain ⟨x2, b2, b3⟩ := ih x1 h
      have l1 := lowest_le cost (obj (moved x (idx a.1) (idx a.2) (-(d a.1)) (d a.2)))
        (lowest cost (obj (moved x (idx a.1) (idx a.2) (d a.1) (-(d a.2)))) s.bestCost)
      have l2 := lowest_le cost (obj (moved x (idx a.1) (idx a.2) (d a.1) (-(d a.2)))) s.bestCost
      refine ⟨x2, by rw [b1] at b2; exact b2.trans (l1.trans l2), fun he hc i hi => ?_⟩
      rw [b1] at b2 b3
      have m1 : lowest cost (obj (moved x (idx a.1) (idx a.2) (d a.1) (-(d a.2)))) s.bestCost = s.bestCost := by
        exact le_antisymm l2 (he.symm.le.trans (b2.trans l1))
      rw [m1] at l1 b2 b3
      have m2 : lowest cost (obj (moved x (idx a.1) (idx a.2) (-(d a.1)) (d a.2))) s.bestCost = s.bestCost := by
        exact le_antisymm l1 (he.symm.le.trans b2)
      rw [m2] at b3
      rcases List.mem_cons.1 hi with rfl | hi
      · exact ⟨lowest_eq m1 hc, lowest_eq m2 hc⟩
      · exact b3 he hc i hi

/-- The Hessian is kept only if none of the costs looked at is lower. -/
theorem calcHessian_low {obj : (Nat → K) → K} {n : Nat} {idx : Nat → Nat} {pert : Nat → K} {large : K} {x : Nat → K} {h0 : Nat → Nat → K}
    {cost : K} (hl : cost ≤ large) {r : Result K} (h : calcHessian obj n idx pert large x h0 cost = .ok r) (ha : r.again = false) :
    (∀ i < n, cost ≤ obj (moved x (idx i) (idx i) (Uq.dist idx x pert i) 0) ∧ cost ≤ obj (moved x (idx i) (idx i) (-(Uq.dist idx x pert i)) 0)) ∧
    (∀ i j, i < j → j < n → cost ≤ obj (moved x (idx i) (idx j) (Uq.dist idx x pert i) (-(Uq.dist idx x pert j))) ∧
      cost ≤ obj (moved x (idx i) (idx j) (-(Uq.dist idx x pert i)) (Uq.dist idx x pert j))) := by
  unfold calcHessian at h
  simp only [bind, Except.bind] at h
  cases h1 : (List.range n).foldlM (diag obj idx cost (Uq.dist idx x pert)) ⟨x, h0, fun _ => 0, large⟩ with
  | error e => rw [h1] at h; cases h
  | ok s1 =>
    rw [h1] at h
    simp only at h
    obtain ⟨x1, b1, c1⟩ := diagLoop_low (x := x) _ rfl h1
    cases h2 : (pairs n).foldlM (offDiag obj idx cost (Uq.dist idx x pert)) s1 with
    | error e => rw [h2] at h; cases h
    | ok s2 =>
      rw [h2] at h
      simp only at h
      obtain ⟨x2, b2, c2⟩ := offDiagLoop_low (x := x) _ x1 h2
      split at h
      · cases h; cases ha
      · next hb =>
        rw [not_not] at hb
        simp only at b1 c1
        have e1 : s1.bestCost = large := le_antisymm b1 (by rw [← hb]; exact b2)
        refine ⟨fun i hi => c1 e1 hl i (List.mem_range.2 hi), fun i j hij hj => ?_⟩
        exact c2 (hb.trans e1.symm) (by rw [e1]; exact hl) (i, j) ((mem_pairs n i j).2 ⟨hij, hj⟩)

/-! ### The steps -/

theorem pertOf_ne {c : K → K} {aim user p : K} {fuel : Nat} (hu : user ≠ 0) (h : UqBracket.pertOf c aim user fuel = .ok p) : p ≠ 0 := by
  by_cases hneg : user < 0
  · unfold UqBracket.pertOf at h
    rw [if_pos hneg] at h
    simp only [bind, Except.bind] at h
    cases h1 : UqBracket.bracketing c aim false fuel with
    | error e => rw [h1] at h; cases h
    | ok a =>
      rw [h1] at h
      cases h2 : UqBracket.bracketing c aim true fuel with
      | error e => rw [h2] at h; cases h
      | ok b =>
        rw [h2] at h
        simp only [Except.ok.injEq] at h
        obtain ⟨l1, -, p1, p2, -⟩ := C94_bracket c aim false fuel a h1
        obtain ⟨l2, -, q1, q2, -⟩ := C94_bracket c aim true fuel b h2
        have ha := p1.trans p2
        have hb := q1.trans q2
        rw [← h]
        split_ifs
        · exact one_ne_zero
        · exact ha.ne'
        · exact one_ne_zero
        · exact hb.ne'
  · rw [C94_user c aim user (not_lt.1 hneg)] at h
    cases h
    exact hu

theorem perts_ne {obj : (Nat → K) → K} {n : Nat} {idx : Nat → Nat} {x : Nat → K} {aim user : K} {fuel : Nat} (hu : user ≠ 0) {f : Nat → K}
    (h : perts obj n idx x aim user fuel = .ok f) : ∀ i < n, f i ≠ 0 := by
  have key : ∀ (l : List Nat) (f0 f : Nat → K),
      l.foldlM (pertStep obj idx x aim user fuel) f0 = .ok f → ∀ i, (i ∈ l ∨ f0 i ≠ 0) → f i ≠ 0 := by
    intro l
    induction l with
    | nil => intro f0 f h i hi; cases h; exact hi.resolve_left (by simp)
    | cons a l ih =>
      intro f0 f h i hi
      rw [List.foldlM_cons] at h
      unfold pertStep at h
      cases hp : UqBracket.pertOf (UqBracket.costOf obj idx x a) aim user fuel with
      | error e => rw [hp] at h; cases h
      | ok p =>
        rw [hp] at h
        change l.foldlM (pertStep obj idx x aim user fuel) (Uq.put f0 a p) = .ok f at h
        have hne := pertOf_ne hu hp
        refine ih _ f h i ?_
        by_cases hia : i = a
        · exact Or.inr (by simp [Uq.put, hia, hne])
        · rcases hi with hi | hi
          · exact Or.inl ((List.mem_cons.1 hi).resolve_left hia)
          · exact Or.inr (by simpa [Uq.put, hia] using hi)
  intro i hi
  exact key _ _ f h i (Or.inl (List.mem_range.2 hi))

/-! ### The start of the ensemble -/

/-- The points which are looked at: one parameter changed, or two in opposite directions. -/
def LookedAt (n : Nat) (idx : Nat → Nat) (x d y : Nat → K) : Prop :=
  (∃ i < n, y = moved x (idx i) (idx i) (d i) 0 ∨ y = moved x (idx i) (idx i) (-(d i)) 0) ∨
  (∃ i j, i < j ∧ j < n ∧ (y = moved x (idx i) (idx j) (d i) (-(d j)) ∨ y = moved x (idx i) (idx j) (-(d i)) (d j)))

/-- **Start.** When the Hessian is found, the ensemble starts with a potential whose free parameters only may have changed, with its own
cost, not worse than the potential of the fit; the Hessian consists of the second differences at this potential, and no changed potential
which was looked at is better.  Missing for the full claim: potentials with two parameters changed in the same direction are evaluated but
not looked at (`C95_overlooked_violated`). -/
theorem C95_start_partial (obj : (Nat → K) → K) (n : Nat) (idx : Nat → Nat) (temp user large : K) (hu : user ≠ 0) (fuel left : Nat)
    (x : Nat → K) (h : Nat → Nat → K) (hl : obj x ≤ large) (r : Result K)
    (hr : hessLoop obj n idx temp user large fuel left x h (obj x) = .ok r) :
    SameFixed n idx x r.x ∧ r.cost = obj r.x ∧ r.cost ≤ obj x ∧
    ∃ d : Nat → K, (∀ i < n, d i ≠ 0) ∧ (∀ i < n, r.h i i = diff1 obj idx r.x r.cost d i) ∧
      (∀ i j, i < j → j < n → r.h i j = diff2 obj idx r.x d i j ∧ r.h j i = diff2 obj idx r.x d i j) ∧
      ∀ y, LookedAt n idx r.x d y → r.cost ≤ obj y := by
  induction left generalizing x h with
  | zero => cases hr
  | succ left ih =>
    unfold hessLoop at hr
    cases ho : hessianOnce obj n idx temp user large fuel x h (obj x) with
    | error e => rw [ho] at hr; cases hr
    | ok q =>
      rw [ho] at hr
      simp only at hr
      unfold hessianOnce at ho
      cases hp : perts obj n idx x (UqBracket.costAim (obj x) temp n) user fuel with
      | error e => rw [hp] at ho; cases ho
      | ok p =>
        rw [hp] at ho
        simp only at ho
        have hne := perts_ne hu hp
        obtain ⟨q', g1, g2, g3, g4, g5⟩ := calcHessian_all obj n idx p large x h (obj x) hne
        rw [g1] at ho
        simp only [Except.ok.injEq] at ho
        subst ho
        by_cases ha : q'.again = true
        · rw [if_pos ha] at hr
          obtain ⟨c1, c2, c3⟩ := g5 ha
          rw [c3] at hr
          obtain ⟨i1, i2, i3, i4⟩ := ih q'.x q'.h (by rw [← c3]; exact c1.le.trans hl) hr
          exact ⟨fun q hq => (i1 q hq).trans (c2 q hq), i2, i3.trans (by rw [← c3]; exact c1.le), i4⟩
        · rw [if_neg ha] at hr
          cases hr
          rw [Bool.not_eq_true] at ha
          obtain ⟨c1, c2⟩ := g4 ha
          obtain ⟨l1, l2⟩ := calcHessian_low hl g1 ha
          rw [c1, c2]
          refine ⟨fun _ _ => rfl, rfl, le_rfl, Uq.dist idx x p, fun i hi => dist_ne idx x p i (hne i hi), g2, g3, ?_⟩
          rintro y (⟨i, hi, rfl | rfl⟩ | ⟨i, j, hij, hj, rfl | rfl⟩)
          · exact (l1 i hi).1
          · exact (l1 i hi).2
          · exact (l2 i j hij hj).1
          · exact (l2 i j hij hj).2

end Start

/-- **Overlooked potentials: violated.** At a saddle the potential with both parameters increased is better.  It is evaluated, but the
Hessian is kept and the ensemble starts from the worse one. -/
theorem C95_overlooked_violated : ∃ (obj : (Nat → ℚ) → ℚ) (x : Nat → ℚ) (r : Result ℚ),
    hessLoop obj 2 id 1 (1 / 10) 10000000000 5 10 x (fun _ _ => 0) (obj x) = .ok r ∧
      obj (moved r.x 0 1 (1 / 10) (1 / 10)) < r.cost := by
  refine ⟨fun y => 10 + (y 0 - 1) ^ 2 + (y 1 - 1) ^ 2 - 3 * (y 0 - 1) * (y 1 - 1), fun _ => 1, ?_⟩
  obtain ⟨r, h1, -, -, h2, -⟩ := calcHessian_all (fun y : Nat → ℚ => 10 + (y 0 - 1) ^ 2 + (y 1 - 1) ^ 2 - 3 * (y 0 - 1) * (y 1 - 1)) 2 id
    (put (put (fun _ => 0) 0 (1 / 10)) 1 (1 / 10)) 10000000000 (fun _ => 1) (fun _ _ => 0)
    ((fun y : Nat → ℚ => 10 + (y 0 - 1) ^ 2 + (y 1 - 1) ^ 2 - 3 * (y 0 - 1) * (y 1 - 1)) fun _ => 1)
    (by decide +kernel)
  have ha : r.again = false := by
    have : (match calcHessian (fun y : Nat → ℚ => 10 + (y 0 - 1) ^ 2 + (y 1 - 1) ^ 2 - 3 * (y 0 - 1) * (y 1 - 1)) 2 id
        (put (put (fun _ => 0) 0 (1 / 10)) 1 (1 / 10)) 10000000000 (fun _ => 1) (fun _ _ => 0)
        ((fun y : Nat → ℚ => 10 + (y 0 - 1) ^ 2 + (y 1 - 1) ^ 2 - 3 * (y 0 - 1) * (y 1 - 1)) fun _ => 1) with
      | .ok r => r.again | .error _ => true) = false := by decide +kernel
    rw [h1] at this
    exact this
  refine ⟨r, ?_, ?_⟩
  · unfold hessLoop hessianOnce
    have hp : perts (fun y : Nat → ℚ => 10 + (y 0 - 1) ^ 2 + (y 1 - 1) ^ 2 - 3 * (y 0 - 1) * (y 1 - 1)) 2 id (fun _ => 1)
        (UqBracket.costAim ((fun y : Nat → ℚ => 10 + (y 0 - 1) ^ 2 + (y 1 - 1) ^ 2 - 3 * (y 0 - 1) * (y 1 - 1)) fun _ => 1) 1 2) (1 / 10) 5 =
        .ok (put (put (fun _ => 0) 0 (1 / 10)) 1 (1 / 10)) := by
      unfold perts
      rw [show List.range 2 = [0, 1] from rfl]
      simp only [List.foldlM_cons, List.foldlM_nil, pertStep]
      rw [C94_user _ _ _ (by norm_num), C94_user _ _ _ (by norm_num)]
      rfl
    rw [hp]
    simp only
    rw [h1]
    simp only [ha, Bool.false_eq_true, if_false]
  · obtain ⟨e1, e2⟩ := h2 ha
    rw [e1, e2]
    decide +kernel

/-! ### Eigenvalues -/

section Eigen

variable {K : Type*} [Field K] [LinearOrder K] [IsStrictOrderedRing K]

theorem eigTurn_spec (L : Lapack K) (n : Nat) (b : Bool) (s : EigSt K) :
    (∀ e, eigTurn L n b s = .error e → e ≠ .running) ∧
    (∀ s', eigTurn L n b s = .ok s' → (b = true → s'.m = n) ∧ (b = false → s'.count = s.count + 1 ∧ (10 < s.count → s'.m = n))) := by
  have hsvd : ∀ t : EigSt K, (∀ e, svd L n t = .error e → e ≠ .running) ∧ (∀ s', svd L n t = .ok s' → s'.m = n ∧ s'.count = t.count) := by
    intro t
    unfold svd
    simp only
    split
    · exact ⟨fun e h => (by cases h), fun s' h => (by cases h; exact ⟨rfl, rfl⟩)⟩
    · exact ⟨fun e h => (by cases h; exact (by decide)), fun s' h => (by cases h)⟩
  have heig : (∀ e, eigenvectors L n s = .error e → e ≠ .running) ∧ (∀ s', eigenvectors L n s = .ok s' → s'.count = s.count) := by
    unfold eigenvectors
    simp only
    split_ifs
    · exact ⟨fun e h => (by cases h), fun s' h => (by cases h; rfl)⟩
    · exact ⟨fun e h => (by cases h), fun s' h => (by cases h; rfl)⟩
    · exact ⟨fun e h => (by cases h; exact (by decide)), fun s' h => (by cases h)⟩
  cases b with
  | true =>
    unfold eigTurn
    simp only [if_true]
    exact ⟨(hsvd s).1, fun s' h => ⟨fun _ => ((hsvd s).2 s' h).1, fun h => (by cases h)⟩⟩
  | false =>
    unfold eigTurn
    simp only [Bool.false_eq_true, if_false]
    cases h1 : eigenvectors L n s with
    | error e => exact ⟨fun e' h => (by cases h; exact heig.1 e h1), fun s' h => (by cases h)⟩
    | ok s1 =>
      simp only
      have hc := heig.2 s1 h1
      split
      · next hgt =>
        cases h2 : svd L n s1 with
        | error e => exact ⟨fun e' h => (by cases h; exact (hsvd s1).1 e h2), fun s' h => (by cases h)⟩
        | ok s2 =>
          simp only
          obtain ⟨g1, g2⟩ := (hsvd s1).2 s2 h2
          rw [if_neg (by rw [g1]; simp)]
          refine ⟨fun e h => (by cases h), fun s' h => ?_⟩
          cases h
          exact ⟨fun h => (by cases h), fun _ => ⟨by simp only; omega, fun _ => g1⟩⟩
      · next hgt =>
        refine ⟨fun e h => (by cases h), fun s' h => ?_⟩
        cases h
        exact ⟨fun h => (by cases h), fun _ => ⟨by simp only; omega, fun hs => (by omega)⟩⟩

theorem eigLoop_done (L : Lapack K) (n : Nat) (b : Bool) (fuel : Nat) (s : EigSt K) (h : s.m = n) : eigLoop L n b fuel s = .ok s := by
  cases fuel with
  | zero => rw [eigLoop, if_neg (by omega)]
  | succ f => rw [eigLoop, if_neg (by omega)]

theorem eigLoop_ends (L : Lapack K) (n : Nat) (b : Bool) (fuel : Nat) (s : EigSt K) (h : 12 ≤ s.count + fuel) (h0 : 1 ≤ fuel) :
    eigLoop L n b fuel s ≠ .error .running := by
  induction fuel generalizing s with
  | zero => omega
  | succ f ih =>
    rw [eigLoop]
    split
    · cases ht : eigTurn L n b s with
      | error e => intro he; cases he; exact (eigTurn_spec L n b s).1 _ ht rfl
      | ok s1 =>
        simp only
        obtain ⟨g1, g2⟩ := (eigTurn_spec L n b s).2 s1 ht
        cases b with
        | true => rw [eigLoop_done L n true f s1 (g1 rfl)]; intro he; cases he
        | false =>
          obtain ⟨g3, g4⟩ := g2 rfl
          by_cases hc : 10 < s.count
          · rw [eigLoop_done L n false f s1 (g4 hc)]; intro he; cases he
          · exact ih s1 (by omega) (by omega)
    · intro he; cases he

/-- **The search for eigenvalues ends** after at most twelve turns, whatever the library returns. -/
theorem C95_eigen_ends (L : Lapack K) (n : Nat) (useSvd : Bool) (fuel : Nat) (hf : 12 ≤ fuel) (h : Nat → Nat → K) (w0 : Nat → K)
    (v0 : Nat → Nat → K) : eigen L n useSvd fuel h w0 v0 ≠ .error .running :=
  eigLoop_ends L n useSvd fuel _ (by simp only; omega) (by omega)

/-- `v k` is an eigenvector of `a` with eigenvalue `w k`, for all `k`. -/
def Eigenpairs (n : Nat) (a : Nat → Nat → K) (w : Nat → K) (v : Nat → Nat → K) : Prop :=
  ∀ k < n, (∀ i < n, ∑ j ∈ Finset.range n, a i j * v k j = w k * v k i) ∧ ∃ i < n, v k i ≠ 0

/-- `v k` is a left singular vector of `a` with singular value `w k`, for all `k`. -/
def Singularpairs (n : Nat) (a : Nat → Nat → K) (w : Nat → K) (v : Nat → Nat → K) : Prop :=
  ∀ k < n, 0 ≤ w k ∧ (∀ i < n, ∑ j ∈ Finset.range n, (∑ l ∈ Finset.range n, a i l * a j l) * v k j = w k ^ 2 * v k i) ∧ ∃ i < n, v k i ≠ 0

/-- What is documented for the two library functions: with `info = 0` the values and vectors belong to the matrix given;
`dsyevx` reports `n` values when all are asked for, and `info` negative only for wrong arguments. -/
structure Documented (L : Lapack K) (n : Nat) : Prop where
  good : ∀ a, (L.syevx a).info = 0 → Eigenpairs n a (L.syevx a).w (L.syevx a).v
  all : ∀ a, (L.syevx a).m = n
  args : ∀ a, 0 ≤ (L.syevx a).info
  sing : ∀ a, (L.gesvd a).info = 0 → Singularpairs n a (L.gesvd a).w (L.gesvd a).v

/-- **Eigenvalues.** If the first decomposition of the Hessian converges, the walk uses eigenvectors and eigenvalues of the Hessian.
Missing for the full claim: later decompositions (`C95_eigen_violated`). -/
theorem C95_eigen_partial (L : Lapack K) (n : Nat) (hn : 0 < n) (hL : Documented L n) (fuel : Nat) (h : Nat → Nat → K) (w0 : Nat → K)
    (v0 : Nat → Nat → K) (hi : (L.syevx h).info = 0) :
    ∃ s, eigen L n false (fuel + 1) h w0 v0 = .ok s ∧ s.m = n ∧ Eigenpairs n h s.w s.v := by
  unfold eigen
  rw [eigLoop, if_pos (by simp only; omega)]
  unfold eigTurn eigenvectors
  simp only [Bool.false_eq_true, if_false, hi, if_true, gt_iff_lt, Nat.not_lt_zero]
  rw [eigLoop_done]
  · exact ⟨_, rfl, by simp only [hL.all], hL.good h hi⟩
  · simp only [hL.all]

/-- **Singular values.** With `use_svd` the walk uses singular vectors and values of the Hessian, or potfit stops with an error. -/
theorem C95_svd (L : Lapack K) (n : Nat) (hn : 0 < n) (hL : Documented L n) (fuel : Nat) (h : Nat → Nat → K) (w0 : Nat → K)
    (v0 : Nat → Nat → K) :
    (∃ s, eigen L n true (fuel + 1) h w0 v0 = .ok s ∧ s.m = n ∧ Singularpairs n h s.w s.v) ∨
      eigen L n true (fuel + 1) h w0 v0 = .error .svd := by
  unfold eigen
  rw [eigLoop, if_pos (by simp only; omega)]
  unfold eigTurn svd
  simp only [if_true]
  by_cases hi : (L.gesvd h).info = 0
  · left
    rw [if_pos hi]
    simp only
    rw [eigLoop_done]
    · exact ⟨_, rfl, rfl, hL.sing h hi⟩
    · rfl
  · right
    rw [if_neg hi]

end Eigen

/-- Diagonal matrix with entries 2 and 3. -/
def twoThree : Nat → Nat → ℚ := fun i j => if i = j then (if i = 0 then 2 else 3) else 0

/-- A library which converges only for the zero matrix, and which leaves the zero matrix behind. -/
def clearing : Lapack ℚ where
  syevx a := ⟨if a 0 0 = 0 ∧ a 0 1 = 0 ∧ a 1 0 = 0 ∧ a 1 1 = 0 then 0 else 1, 2, fun _ => 0, fun i j => if i = j then 1 else 0, fun _ _ => 0⟩
  gesvd _ := ⟨1, 2, fun _ => 0, fun i j => if i = j then 1 else 0, fun _ _ => 0⟩

theorem clearing_documented : Documented clearing 2 where
  good a h := by
    have h' : a 0 0 = 0 ∧ a 0 1 = 0 ∧ a 1 0 = 0 ∧ a 1 1 = 0 := by
      by_contra hc
      simp only [clearing, if_neg hc] at h
      cases h
    obtain ⟨a1, a2, a3, a4⟩ := h'
    intro k hk
    refine ⟨fun i hi => ?_, k, hk, by simp [clearing]⟩
    have : k = 0 ∨ k = 1 := by omega
    have : i = 0 ∨ i = 1 := by omega
    rcases ‹k = 0 ∨ k = 1› with rfl | rfl <;> rcases ‹i = 0 ∨ i = 1› with rfl | rfl <;> simp [Finset.sum_range_succ, clearing, a1, a2, a3, a4]
  all _ := rfl
  args a := by simp only [clearing]; split <;> decide
  sing a h := by simp [clearing] at h

/-- **Later decompositions: violated.** When the first decomposition does not converge, the second one gets the matrix left behind by the
first one.  Its values are accepted, but are not eigenvalues of the Hessian. -/
theorem C95_eigen_violated : ∃ (L : Lapack ℚ) (h : Nat → Nat → ℚ) (s : EigSt ℚ), Documented L 2 ∧ (∀ i j, h i j = h j i) ∧
    eigen L 2 false 12 h (fun _ => 0) (fun _ _ => 0) = .ok s ∧ ¬ Eigenpairs 2 h s.w s.v := by
  refine ⟨clearing, twoThree, ⟨2, 2, fun _ _ => 0, fun _ => 0, fun i j => if i = j then 1 else 0⟩, clearing_documented, ?_, ?_, ?_⟩
  · intro i j
    unfold twoThree
    by_cases hij : i = j
    · rw [hij]
    · rw [if_neg hij, if_neg (Ne.symm hij)]
  · rfl
  · intro hE
    have := (hE 0 (by decide)).1 0 (by decide)
    simp [Finset.sum_range_succ, twoThree] at this

/-- A library for diagonal matrices of size 2; others are not decomposed. -/
def diagonal2 : Lapack ℚ where
  syevx a := ⟨if a 0 1 = 0 ∧ a 1 0 = 0 then 0 else 1, 2, fun k => a k k, fun i j => if i = j then 1 else 0, fun _ _ => 0⟩
  gesvd _ := ⟨1, 2, fun _ => 0, fun i j => if i = j then 1 else 0, fun _ _ => 0⟩

theorem diagonal2_documented : Documented diagonal2 2 where
  good a h := by
    have h' : a 0 1 = 0 ∧ a 1 0 = 0 := by
      by_contra hc
      simp only [diagonal2, if_neg hc] at h
      cases h
    obtain ⟨a2, a3⟩ := h'
    intro k hk
    refine ⟨fun i hi => ?_, k, hk, by simp [diagonal2]⟩
    have : k = 0 ∨ k = 1 := by omega
    have : i = 0 ∨ i = 1 := by omega
    rcases ‹k = 0 ∨ k = 1› with rfl | rfl <;> rcases ‹i = 0 ∨ i = 1› with rfl | rfl <;> simp [Finset.sum_range_succ, diagonal2, a2, a3]
  all _ := rfl
  args a := by simp only [diagonal2]; split <;> decide
  sing a h := by simp [diagonal2] at h

example : ∃ s, eigen diagonal2 2 false 12 twoThree (fun _ => 0) (fun _ _ => 0) = .ok s ∧ s.m = (2 : Nat) ∧ Eigenpairs 2 twoThree s.w s.v :=
  C95_eigen_partial diagonal2 2 (by decide) diagonal2_documented 11 twoThree _ _ (by decide +kernel)

/-! ### Lines and files -/

section Rows

variable {K S : Type*} [Field K] [LinearOrder K] [IsStrictOrderedRing K]

/-- What a line shows of the table. -/
def asLine (e : Env K S) (r : Row K) : Line K := ⟨(List.range e.n).map fun i => r.table (e.idx i), r.cost, r.weight⟩

theorem rows_spec (e : Env K S) (every prefixLen fuel : Nat) (left : Nat) :
    ∀ (i attempts weight : Nat) (s : Walk K S) (ls : List (Row K)) (fs : List (Nat × (Nat → K))), s.cost = e.obj s.x →
      rows e every prefixLen fuel left i attempts weight s = .ok (ls, fs) →
      ls.length = left + 1 ∧ (∃ r0, ls.head? = some r0 ∧ r0.table = s.x ∧ r0.cost = s.cost) ∧ (∀ r ∈ ls, r.cost = e.obj r.table) ∧
      (∃ s', ensemble e fuel left weight s = some (ls.map (asLine e), s')) ∧
      (∀ j r, ls[j]? = some r → r.id = i + j ∧ r.attempts = attempts + ((ls.take (j + 1)).map (·.weight)).sum ∧
        r.prob = ((i + j : Nat) + 1 : K) / (r.attempts : K)) ∧
      fs = (ls.tail.filter fun r => decide (r.cost < e.cost0 ∨ (every ≠ 0 ∧ every ∣ r.id))).map (fun r => (r.id, r.table)) := by
  induction left with
  | zero =>
    intro i attempts weight s ls fs hc h
    rw [rows] at h
    cases h
    refine ⟨rfl, ⟨_, rfl, rfl, rfl⟩, by simp [hc], ⟨s, rfl⟩, ?_, rfl⟩
    intro j r hj
    cases j with
    | zero =>
      simp only [List.getElem?_cons_zero, Option.some.injEq] at hj
      subst hj
      simp
    | succ j => simp at hj
  | succ left ih =>
    intro i attempts weight s ls fs hc h
    rw [rows] at h
    cases hs : sample e fuel s with
    | none => rw [hs] at h; cases h
    | some q =>
      obtain ⟨k, s'⟩ := q
      rw [hs] at h
      simp only at h
      split at h
      · cases hr : rows e every prefixLen fuel left (i + 1) (attempts + k) k s' with
        | error x => rw [hr] at h; cases h
        | ok q =>
          obtain ⟨ls', fs'⟩ := q
          rw [hr] at h
          simp only [Except.ok.injEq, Prod.mk.injEq] at h
          obtain ⟨rfl, rfl⟩ := h
          obtain ⟨-, -, hc', -⟩ := trials_spec e s.x fuel 0 s k s' (fun _ _ => rfl) hs
          obtain ⟨a1, ⟨r0, a2, a2t, a2c⟩, a3, ⟨s'', a4⟩, a5, a6⟩ := ih (i + 1) (attempts + k) k s' ls' fs' hc' hr
          refine ⟨by simp [a1], ⟨_, rfl, rfl, rfl⟩, ?_, ⟨s'', ?_⟩, ?_, ?_⟩
          · intro r hr
            rcases List.mem_cons.1 hr with rfl | hr
            · exact hc
            · exact a3 r hr
          · rw [ensemble, hs]
            simp only
            rw [a4]
            rfl
          · intro j r hj
            cases j with
            | zero =>
              simp only [List.getElem?_cons_zero, Option.some.injEq] at hj
              subst hj
              simp
            | succ j =>
              simp only [List.getElem?_cons_succ] at hj
              obtain ⟨b1, b2, b3⟩ := a5 j r hj
              refine ⟨by omega, ?_, ?_⟩
              · rw [b2]; simp [List.take_succ_cons]; omega
              · rw [b3, show i + 1 + j = i + (j + 1) from by omega]
          · cases ls' with
            | nil => simp at a2
            | cons r1 ls1 =>
              simp only [List.head?_cons, Option.some.injEq] at a2
              subst a2
              have hid : r1.id = i + 1 := (a5 0 r1 rfl).1
              rw [List.tail_cons, List.filter_cons]
              rw [List.tail_cons] at a6
              have hw : writes e.cost0 every (i + 1) s'.cost = decide (r1.cost < e.cost0 ∨ (every ≠ 0 ∧ every ∣ r1.id)) := by
                unfold writes
                rw [hid, a2c]
                by_cases h1 : s'.cost < e.cost0 <;> by_cases h2 : every = 0 <;> simp [h1, h2, Nat.dvd_iff_mod_eq_zero]
              rw [hw]
              split
              · rw [List.map_cons, ← a6, hid, a2t]
              · exact a6
      · cases h

/-- **Lines.** The ensemble file has one line per accepted move and one for the start, numbered from 0; each line shows a table with its own
cost, and the lines are those of the walk (C47).  The attempts are the sum of the weights so far, and the acceptance is the number of
lines divided by the attempts. -/
theorem C95_lines (e : Env K S) (every prefixLen fuel moves : Nat) (s : Walk K S) (ls : List (Row K)) (fs : List (Nat × (Nat → K)))
    (hc : s.cost = e.obj s.x) (h : walk e every prefixLen fuel moves s = .ok (ls, fs)) :
    ls.length = moves + 1 ∧ (∀ r ∈ ls, r.cost = e.obj r.table) ∧ (∃ s', ensemble e fuel moves 1 s = some (ls.map (asLine e), s')) ∧
    (∃ r0, ls.head? = some r0 ∧ r0.table = s.x) ∧
    (∀ j r, ls[j]? = some r → r.id = j ∧ r.attempts = ((ls.take (j + 1)).map (·.weight)).sum ∧ r.prob = ((j : K) + 1) / (r.attempts : K)) := by
  obtain ⟨a1, ⟨r0, a2, a3, -⟩, a4, a5, a6, -⟩ := rows_spec e every prefixLen fuel moves 0 0 1 s ls fs hc h
  refine ⟨a1, a4, a5, ⟨r0, a2, a3⟩, fun j r hj => ?_⟩
  obtain ⟨b1, b2, b3⟩ := a6 j r hj
  exact ⟨by omega, by rw [b2]; omega, by simpa using b3⟩

/-- **Files.** A potential file is written for exactly those accepted moves which are better than the best fit or whose number is a
multiple of `write_ensemble`; file and line show the same table. -/
theorem C95_files (e : Env K S) (every prefixLen fuel moves : Nat) (s : Walk K S) (ls : List (Row K)) (fs : List (Nat × (Nat → K)))
    (hc : s.cost = e.obj s.x) (h : walk e every prefixLen fuel moves s = .ok (ls, fs)) :
    fs = (ls.tail.filter fun r => decide (r.cost < e.cost0 ∨ (every ≠ 0 ∧ every ∣ r.id))).map (fun r => (r.id, r.table)) :=
  (rows_spec e every prefixLen fuel moves 0 0 1 s ls fs hc h).2.2.2.2.2

theorem rows_last (e : Env K S) (every prefixLen fuel : Nat) (left : Nat) :
    ∀ (i attempts weight : Nat) (s : Walk K S) (ls : List (Row K)) (fs : List (Nat × (Nat → K))),
      rows e every prefixLen fuel (left + 1) i attempts weight s = .ok (ls, fs) →
      ∃ r1 r2, ls[left]? = some r1 ∧ ls[left + 1]? = some r2 ∧ 0 < r1.weight ∧ r2.attempts = r1.attempts + r1.weight := by
  induction left with
  | zero =>
    intro i attempts weight s ls fs h
    rw [rows] at h
    cases hs : sample e fuel s with
    | none => rw [hs] at h; cases h
    | some q =>
      obtain ⟨k, s'⟩ := q
      have hk := (trials_spec e s.x fuel 0 s k s' (fun _ _ => rfl) hs).1
      rw [hs] at h
      simp only [rows] at h
      split at h
      · cases h
        exact ⟨_, _, rfl, rfl, hk, rfl⟩
      · cases h
  | succ left ih =>
    intro i attempts weight s ls fs h
    rw [rows] at h
    cases hs : sample e fuel s with
    | none => rw [hs] at h; cases h
    | some q =>
      obtain ⟨k, s'⟩ := q
      rw [hs] at h
      simp only at h
      split at h
      · cases hr : rows e every prefixLen fuel (left + 1) (i + 1) (attempts + k) k s' with
        | error x => rw [hr] at h; cases h
        | ok q =>
          obtain ⟨ls', fs'⟩ := q
          rw [hr] at h
          cases h
          obtain ⟨r1, r2, h1, h2, h3⟩ := ih _ _ _ _ _ _ hr
          exact ⟨r1, r2, by simpa using h1, by simpa using h2, h3⟩
      · cases h

/-- **Attempts of the last line: violated.** In every run with at least one move the last line counts the trials of the line before a
second time: the attempts grow though no trial is made after the last accepted move. -/
theorem C95_last_violated (e : Env K S) (every prefixLen fuel moves : Nat) (s : Walk K S) (ls : List (Row K))
    (fs : List (Nat × (Nat → K))) (h : walk e every prefixLen fuel (moves + 1) s = .ok (ls, fs)) :
    ∃ r1 r2, ls[moves]? = some r1 ∧ ls[moves + 1]? = some r2 ∧ 0 < r1.weight ∧ r2.attempts = r1.attempts + r1.weight :=
  rows_last e every prefixLen fuel moves 0 0 1 s ls fs h

/-! ### Names of the files -/

theorem numLen_le (d k : Nat) (h : k < 10 ^ (d + 1)) : numLen k ≤ d + 1 := by
  induction d generalizing k with
  | zero => rw [numLen, dif_pos (by simpa using h)]
  | succ d ih =>
    rw [numLen]
    split
    · omega
    · have := ih (k / 10) (by rw [Nat.div_lt_iff_lt_mul (by decide)]; rw [pow_succ] at h; exact h)
      omega

theorem numLen_pos (k : Nat) : 1 ≤ numLen k := by
  rw [numLen]
  split <;> omega

theorem rows_name (e : Env K S) (every prefixLen fuel : Nat) (hp : prefixLen ≤ 230) (left : Nat) :
    ∀ (i attempts weight : Nat) (s : Walk K S), i + left < 10 ^ 10 →
      rows e every prefixLen fuel left i attempts weight s ≠ .error .name := by
  induction left with
  | zero => intro i attempts weight s _ h; rw [rows] at h; cases h
  | succ left ih =>
    intro i attempts weight s hi h
    rw [rows] at h
    cases hs : sample e fuel s with
    | none => rw [hs] at h; cases h
    | some q =>
      obtain ⟨k, s'⟩ := q
      rw [hs] at h
      simp only at h
      have hf : fitsName prefixLen (i + 1) = true := by
        have := numLen_le 9 (i + 1) (by norm_num at hi ⊢; omega)
        simp only [fitsName, decide_eq_true_eq]
        omega
      rw [if_pos hf] at h
      cases hr : rows e every prefixLen fuel left (i + 1) (attempts + k) k s' with
      | error x =>
        rw [hr] at h
        simp only [Except.error.injEq] at h
        subst h
        exact ih _ _ _ _ (by omega) hr
      | ok q => rw [hr] at h; cases h

/-- **Names.** With a prefix of at most 230 characters all names of files fit, for all numbers of moves an `int` can hold.
Missing for the full claim: longer prefixes (`C95_name_violated`). -/
theorem C95_name_partial (e : Env K S) (every prefixLen fuel moves : Nat) (s : Walk K S) (hp : prefixLen ≤ 230) (hm : moves ≤ 2147483647) :
    walk e every prefixLen fuel moves s ≠ .error .name :=
  rows_name e every prefixLen fuel hp moves 0 0 1 s (by norm_num; omega)

/-- **Names: violated.** With a prefix of 240 or more characters the first accepted move writes beyond the array for the name, even if no
file is wanted. -/
theorem C95_name_violated (e : Env K S) (every prefixLen fuel moves : Nat) (s : Walk K S) (hp : 240 ≤ prefixLen)
    (ha : (sample e fuel s).isSome = true) : walk e every prefixLen fuel (moves + 1) s = .error .name := by
  unfold walk
  rw [rows]
  cases hs : sample e fuel s with
  | none => rw [hs] at ha; cases ha
  | some q =>
    obtain ⟨k, s'⟩ := q
    simp only
    rw [if_neg]
    have := numLen_pos (0 + 1)
    simp only [fitsName, decide_eq_true_eq]
    omega

end Rows

/-- Moves by the numbers in the list, objective as in C47: moves accepted after three trials (cost 11), two trials (cost 8) and one (cost 7). -/
def ensWalk : Walk ℚ (List ℚ) := ⟨fun q => if q = 0 then 7 else 3, fun _ => -1, 16, [3, -7, -1, 5, -1, -1]⟩

/-- Lines and files of three moves, with every second potential written: numbers, costs, weights, attempts; files. -/
example : (match walk exEnv 2 6 10 3 ensWalk with
    | .ok (ls, fs) => (ls.map fun r => (r.id, r.cost, r.weight, r.attempts, r.prob), fs.map fun f => (f.1, f.2 2))
    | .error _ => ([], [])) =
    ([(0, 16, 3, 3, 1 / 3), (1, 11, 2, 5, 2 / 5), (2, 8, 1, 6, 3 / 6), (3, 7, 1, 7, 4 / 7)], [(2, 1)]) := by decide +kernel

example : (match walk exEnv 2 240 10 3 ensWalk with | .error .name => true | _ => false) = true := by
  rw [C95_name_violated exEnv 2 240 10 2 ensWalk (by decide) (by decide +kernel)]

/-- A parabola around 1: the Hessian found is its second derivative. -/
example : (match hessLoop (fun y : Nat → ℚ => 10 + (y 0 - 1) ^ 2) 1 id 1 (1 / 10) 10000000000 5 10 (fun _ => 1) (fun _ _ => 0) 10 with
    | .ok r => decide (r.h 0 0 = 2 ∧ r.cost = 10 ∧ r.x 0 = 1)
    | .error _ => false) = true := by decide +kernel

/-- Started beside the minimum: the Hessian is computed again at the better potential. -/
example : (match hessLoop (fun y : Nat → ℚ => 10 + (y 0 - 1) ^ 2) 1 id 1 (1 / 10) 10000000000 5 10 (fun _ => 5 / 4) (fun _ _ => 0)
      (10 + 1 / 16) with
    | .ok r => decide (r.h 0 0 = 2 ∧ r.cost < 10 + 1 / 16 ∧ r.x 0 < 5 / 4)
    | .error _ => false) = true := by decide +kernel

end Verif.Props
