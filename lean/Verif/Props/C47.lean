/-
C47  Monte-Carlo sampling keeps parameters and cost in step.
-/
import Verif.Props.C46

set_option linter.unusedSectionVars false

namespace Verif.Props

open Verif.Uq

variable {K S : Type*} [Field K] [LinearOrder K] [IsStrictOrderedRing K]

/-! ### Specification -/

/-- `y` is reached from `x` by a move along the directions `v`. -/
def MoveFrom (e : Env K S) (x y : Nat → K) : Prop :=
  SameFixed e.n e.idx x y ∧ ∃ lam : Nat → K, ∀ i < e.n, y (e.idx i) = x (e.idx i) + ∑ j ∈ Finset.range e.n, e.v j i * lam j

/-- A line of the ensemble shows the parameters of a table together with the cost of this table. -/
def InStep (e : Env K S) (x : Nat → K) (l : Line K) : Prop :=
  ∃ y, SameFixed e.n e.idx x y ∧ l.params = (List.range e.n).map (fun i => y (e.idx i)) ∧ l.cost = e.obj y

/-! ### Lemmas -/

theorem sameFixed_trans {n : Nat} {idx : Nat → Nat} {x y z : Nat → K} (h1 : SameFixed n idx x y) (h2 : SameFixed n idx y z) :
    SameFixed n idx x z := fun q hq => (h2 q hq).trans (h1 q hq)

theorem adds_apply (idx : Nat → Nat) (f : Nat → K) (l : List Nat) (x : Nat → K) (q : Nat) :
    l.foldl (fun x i => add x (idx i) (f i)) x q = x q + (l.map fun i => if q = idx i then f i else 0).sum := by
  induction l generalizing x with
  | nil => simp
  | cons i l ih =>
    rw [List.foldl_cons, ih, add_apply, List.map_cons, List.sum_cons, add_assoc]

theorem foldl_add (f : Nat → K) (n : Nat) : (List.range n).foldl (fun s j => s + f j) 0 = ∑ j ∈ Finset.range n, f j := by
  induction n with
  | zero => simp
  | succ n ih => rw [List.range_succ, List.foldl_append, ih, Finset.sum_range_succ]; rfl

theorem sum_map_range (f : Nat → K) (n : Nat) : ((List.range n).map f).sum = ∑ j ∈ Finset.range n, f j := by
  induction n with
  | zero => simp
  | succ n ih => rw [List.range_succ, List.map_append, List.sum_append, ih, Finset.sum_range_succ]; simp

theorem propose_move (e : Env K S) (hidx : ∀ a < e.n, ∀ b < e.n, e.idx a = e.idx b → a = b) (lam x : Nat → K) :
    MoveFrom e x (propose e lam x) := by
  unfold propose
  constructor
  · intro q hq
    rw [adds_apply, List.sum_eq_zero, add_zero]
    intro a ha
    obtain ⟨i, hi, rfl⟩ := List.mem_map.1 ha
    rw [if_neg fun h => hq i (List.mem_range.1 hi) h.symm]
  · refine ⟨lam, fun i hi => ?_⟩
    rw [adds_apply, sum_map_range]
    congr 1
    rw [Finset.sum_eq_single i]
    · rw [if_pos rfl, foldl_add]
    · intro b hb hbi
      rw [if_neg fun h => hbi (hidx b (Finset.mem_range.1 hb) i hi h.symm)]
    · intro h
      exact absurd (Finset.mem_range.2 hi) h

theorem propose_same (e : Env K S) (lam x : Nat → K) : SameFixed e.n e.idx x (propose e lam x) := by
  unfold propose
  intro q hq
  rw [adds_apply, List.sum_eq_zero, add_zero]
  intro a ha
  obtain ⟨i, hi, rfl⟩ := List.mem_map.1 ha
  rw [if_neg fun h => hq i (List.mem_range.1 hi) h.symm]

theorem mcMoves_cases (e : Env K S) (s : Walk K S) :
    ∃ lam, (mcMoves e s).2.x = propose e lam s.x ∧
      (((mcMoves e s).1 = true ∧ (mcMoves e s).2.cost = e.obj (mcMoves e s).2.x) ∨
       ((mcMoves e s).1 = false ∧ (mcMoves e s).2.cost = s.cost ∧ ¬(e.obj (mcMoves e s).2.x - s.cost < 0))) := by
  refine ⟨(lambdas e s.w s.g).2.1, ?_⟩
  unfold mcMoves
  simp only
  split
  · exact ⟨rfl, Or.inl ⟨rfl, rfl⟩⟩
  · rename_i h
    split
    · exact ⟨rfl, Or.inl ⟨rfl, rfl⟩⟩
    · exact ⟨rfl, Or.inr ⟨rfl, rfl, h⟩⟩

theorem restore_eq (e : Env K S) (x y : Nat → K) (h : SameFixed e.n e.idx x y) : restore e (fun i => x (e.idx i)) y = x := by
  unfold restore
  funext q
  have := puts_eq (K := K) e.idx (List.range e.n) (fun i => x (e.idx i)) y x (fun _ => rfl) q
  rw [this]
  split
  · rfl
  · rename_i hq
    exact h q fun i hi h' => hq ⟨i, List.mem_range.2 hi, h'⟩

/-- What is known of an accepted sample. -/
theorem trials_spec (e : Env K S) (x : Nat → K) (fuel : Nat) :
    ∀ (count : Nat) (s : Walk K S) (k : Nat) (s' : Walk K S), SameFixed e.n e.idx x s.x →
      trials e (fun i => x (e.idx i)) fuel count s = some (k, s') →
      count < k ∧ k ≤ count + fuel ∧ s'.cost = e.obj s'.x ∧ ∃ lam, s'.x = propose e lam x := by
  induction fuel with
  | zero => intro count s k s' _ h; simp [trials] at h
  | succ fuel ih =>
    intro count s k s' hx h
    rw [trials, restore_eq e x s.x hx] at h
    obtain ⟨lam, h1, h2⟩ := mcMoves_cases e { s with x := x }
    generalize hm : mcMoves e { s with x := x } = m at h h1 h2
    obtain ⟨b, s1⟩ := m
    simp only at h1 h2
    rcases h2 with ⟨rfl, h2⟩ | ⟨rfl, h2, -⟩
    · simp only [Option.some.injEq, Prod.mk.injEq] at h
      obtain ⟨rfl, rfl⟩ := h
      exact ⟨by omega, by omega, h2, lam, h1⟩
    · simp only at h
      obtain ⟨a1, a2, a3, a4⟩ := ih (count + 1) s1 k s' (h1 ▸ propose_same e lam x) h
      exact ⟨by omega, by omega, a3, a4⟩

/-- State of the random numbers after `k` normally distributed ones. -/
def drawn (e : Env K S) (g : S) : Nat → S
  | 0 => g
  | k + 1 => (e.normdist (drawn e g k)).2

theorem fixEig_other (e : Env K S) (w : Nat → K) (i j : Nat) (h : j ≠ i) : fixEig e w i j = w j := by
  have hp : ∀ (w : Nat → K) v, put w i v j = w j := fun w v => if_neg h
  unfold fixEig
  simp only [hp]
  have hi : ∀ (c : Prop) [Decidable c] (a b : Nat → K), (if c then a else b) j = if c then a j else b j := by
    intro c _ a b
    split <;> rfl
  simp only [hi, hp, ite_self]

theorem fixEig_self (e : Env K S) (he : 0 < e.eigMax) (w : Nat → K) (i : Nat) :
    e.eigMax ≤ fixEig e w i i ∧ (e.eigMax ≤ w i → fixEig e w i i = w i) := by
  unfold fixEig
  by_cases h0 : w i < 0
  · refine ⟨?_, fun h => absurd (he.trans_le h) (not_lt.2 h0.le)⟩
    simp only [h0, if_true]
    generalize put w i _ = w1
    split_ifs with h1
    · simp only [put, if_true]
      rw [abs_of_pos he]
    · simp only [put, if_true]
      exact (not_lt.1 h1).trans (le_abs_self _)
  · simp only [h0, if_false]
    split_ifs with h1
    · simp only [put, if_true]
      rw [abs_of_pos he]
      exact ⟨le_rfl, fun h => absurd h1 (not_lt.2 h)⟩
    · simp only [put, if_true]
      exact ⟨(not_lt.1 h1).trans (le_abs_self _), fun _ => abs_of_nonneg (not_lt.1 h0)⟩

/-- The first `m` steps of the loop over the eigenvalues. -/
def lambdasUpTo (e : Env K S) (w : Nat → K) (g : S) (m : Nat) : (Nat → K) × (Nat → K) × S :=
  (List.range m).foldl (fun x i =>
    (fixEig e x.1 i, put x.2.1 i (1 / e.sqrt (fixEig e x.1 i i) * (e.sqrt e.rescaling * (e.normdist x.2.2).1)), (e.normdist x.2.2).2))
    (w, fun _ => 0, g)

theorem lambdasUpTo_succ (e : Env K S) (w : Nat → K) (g : S) (m : Nat) : lambdasUpTo e w g (m + 1) =
    let x := lambdasUpTo e w g m
    (fixEig e x.1 m, put x.2.1 m (1 / e.sqrt (fixEig e x.1 m m) * (e.sqrt e.rescaling * (e.normdist x.2.2).1)), (e.normdist x.2.2).2) := by
  unfold lambdasUpTo
  rw [List.range_succ, List.foldl_append]
  rfl

theorem lambdasUpTo_spec (e : Env K S) (he : 0 < e.eigMax) (w : Nat → K) (g : S) (m : Nat) :
    (∀ i, m ≤ i → (lambdasUpTo e w g m).1 i = w i) ∧
    (∀ i < m, e.eigMax ≤ (lambdasUpTo e w g m).1 i ∧ (e.eigMax ≤ w i → (lambdasUpTo e w g m).1 i = w i)) ∧
    (∀ i < m, (lambdasUpTo e w g m).2.1 i = 1 / e.sqrt ((lambdasUpTo e w g m).1 i) * (e.sqrt e.rescaling * (e.normdist (drawn e g i)).1)) ∧
    (lambdasUpTo e w g m).2.2 = drawn e g m := by
  induction m with
  | zero => exact ⟨fun _ _ => rfl, fun i hi => by omega, fun i hi => by omega, rfl⟩
  | succ m ih =>
    obtain ⟨h1, h2, h3, h4⟩ := ih
    rw [lambdasUpTo_succ]
    generalize lambdasUpTo e w g m = r at h1 h2 h3 h4
    simp only
    refine ⟨fun i hi => ?_, fun i hi => ?_, fun i hi => ?_, ?_⟩
    · rw [fixEig_other e _ _ _ (by omega)]
      exact h1 i (by omega)
    · by_cases him : i = m
      · subst him
        have := fixEig_self e he r.1 i
        rw [h1 i le_rfl] at this
        exact this
      · rw [fixEig_other e _ _ _ him]
        exact h2 i (by omega)
    · by_cases him : i = m
      · subst him
        simp only [put, if_true, h4]
      · rw [fixEig_other e _ _ _ him]
        simp only [put, him, if_false]
        exact h3 i (by omega)
    · rw [h4]
      rfl

theorem lambdas_spec (e : Env K S) (he : 0 < e.eigMax) (w : Nat → K) (g : S) :
    (∀ i < e.n, e.eigMax ≤ (lambdas e w g).1 i ∧ (e.eigMax ≤ w i → (lambdas e w g).1 i = w i)) ∧
    (∀ i < e.n, (lambdas e w g).2.1 i = 1 / e.sqrt ((lambdas e w g).1 i) * (e.sqrt e.rescaling * (e.normdist (drawn e g i)).1)) ∧
    (lambdas e w g).2.2 = drawn e g e.n := by
  obtain ⟨-, h⟩ := lambdasUpTo_spec e he w g e.n
  exact h

/-! ### The property -/

section Step

/-- **C47, one move.** The table after a move is a proposal which starts at the table before. If the move is accepted, the cost is that of
the proposal; else the cost is the old one, and the proposal is not downhill. -/
theorem C47_move (e : Env K S) (hidx : ∀ a < e.n, ∀ b < e.n, e.idx a = e.idx b → a = b) (s : Walk K S) :
    MoveFrom e s.x (mcMoves e s).2.x ∧
      (((mcMoves e s).1 = true ∧ (mcMoves e s).2.cost = e.obj (mcMoves e s).2.x) ∨
       ((mcMoves e s).1 = false ∧ (mcMoves e s).2.cost = s.cost ∧ s.cost ≤ e.obj (mcMoves e s).2.x)) := by
  obtain ⟨lam, h1, h2⟩ := mcMoves_cases e s
  refine ⟨h1 ▸ propose_move e hidx lam s.x, ?_⟩
  rcases h2 with h2 | ⟨h2, h3, h4⟩
  · exact Or.inl h2
  · exact Or.inr ⟨h2, h3, by simpa using h4⟩

/-- **C47, downhill moves** are accepted. -/
theorem C47_downhill (e : Env K S) (s : Walk K S) (h : e.obj (mcMoves e s).2.x < s.cost) : (mcMoves e s).1 = true := by
  obtain ⟨lam, -, h2⟩ := mcMoves_cases e s
  rcases h2 with h2 | ⟨-, -, h4⟩
  · exact h2.1
  · exact absurd (sub_neg.2 h) h4

/-- **C47, acceptance of other moves.** A move which is not downhill is accepted just if the next uniformly distributed number is at most
`exp(-n Δ / (2 cost₀ T))`, with `Δ` the difference of the costs. -/
theorem C47_metropolis (e : Env K S) (he : 0 < e.eigMax) (s : Walk K S) (h : s.cost ≤ e.obj (mcMoves e s).2.x) :
    (mcMoves e s).1 = true ↔
      (e.eqdist (drawn e s.g e.n)).1 ≤ e.exp (-((e.n : K) * (e.obj (mcMoves e s).2.x - s.cost)) / (2 * e.cost0 * e.temp)) := by
  have hx : (mcMoves e s).2.x = propose e (lambdas e s.w s.g).2.1 s.x := by
    unfold mcMoves
    simp only
    split_ifs <;> rfl
  rw [hx] at h ⊢
  rw [← (lambdas_spec e he s.w s.g).2.2]
  unfold mcMoves
  simp only
  rw [if_neg (by simpa using h)]
  split
  · rename_i h1
    simpa using h1
  · rename_i h1
    simpa using h1

/-- **C47, proposals.** Parameter `i` moves by the sum over the eigenvectors `j` of `v j i` times `√R r_j / √w_j`, where `r_j` is a fresh
normally distributed number and `w_j` the eigenvalue, raised to at least `eig_max`. -/
theorem C47_proposal (e : Env K S) (hidx : ∀ a < e.n, ∀ b < e.n, e.idx a = e.idx b → a = b) (he : 0 < e.eigMax) (s : Walk K S) :
    (∀ i < e.n, (mcMoves e s).2.x (e.idx i) = s.x (e.idx i) +
      ∑ j ∈ Finset.range e.n, e.v j i * (e.sqrt e.rescaling * (e.normdist (drawn e s.g j)).1 / e.sqrt ((mcMoves e s).2.w j))) ∧
    (∀ j < e.n, e.eigMax ≤ (mcMoves e s).2.w j ∧ (e.eigMax ≤ s.w j → (mcMoves e s).2.w j = s.w j)) := by
  have hx : (mcMoves e s).2.x = propose e (lambdas e s.w s.g).2.1 s.x ∧ (mcMoves e s).2.w = (lambdas e s.w s.g).1 := by
    unfold mcMoves
    simp only
    split_ifs <;> exact ⟨rfl, rfl⟩
  obtain ⟨h1, h2, -⟩ := lambdas_spec e he s.w s.g
  rw [hx.1, hx.2]
  refine ⟨fun i hi => ?_, h1⟩
  unfold propose
  rw [adds_apply, sum_map_range]
  congr 1
  rw [Finset.sum_eq_single i]
  · rw [if_pos rfl, foldl_add]
    refine Finset.sum_congr rfl fun j hj => ?_
    rw [h2 j (Finset.mem_range.1 hj), one_div, div_eq_inv_mul]
  · intro b hb hbi
    rw [if_neg fun h => hbi (hidx b (Finset.mem_range.1 hb) i hi h.symm)]
  · intro h
    exact absurd (Finset.mem_range.2 hi) h

end Step

/-- **C47, samples.** When `generate_mc_sample` ends, the cost belongs to the parameters, these are a proposal which starts at the
parameters before the call (however many proposals have been rejected), and the weight is the number of proposals. -/
theorem C47_sample (e : Env K S) (hidx : ∀ a < e.n, ∀ b < e.n, e.idx a = e.idx b → a = b) (fuel : Nat) (s : Walk K S) (k : Nat)
    (s' : Walk K S) (h : sample e fuel s = some (k, s')) :
    s'.cost = e.obj s'.x ∧ MoveFrom e s.x s'.x ∧ 1 ≤ k ∧ k ≤ fuel := by
  obtain ⟨a1, a2, a3, lam, a4⟩ := trials_spec e s.x fuel 0 s k s' (fun _ _ => rfl) h
  exact ⟨a3, a4 ▸ propose_move e hidx lam s.x, by omega, by omega⟩

theorem ensemble_spec (e : Env K S) (fuel : Nat) (m : Nat) :
    ∀ (last : Nat) (s : Walk K S) (ls : List (Line K)) (s' : Walk K S), s.cost = e.obj s.x →
      ensemble e fuel m last s = some (ls, s') →
      ls.length = m + 1 ∧ SameFixed e.n e.idx s.x s'.x ∧ s'.cost = e.obj s'.x ∧ ∀ l ∈ ls, InStep e s.x l := by
  induction m with
  | zero =>
    intro last s ls s' hc h
    simp only [ensemble, Option.some.injEq, Prod.mk.injEq] at h
    obtain ⟨rfl, rfl⟩ := h
    refine ⟨rfl, fun _ _ => rfl, hc, fun l hl => ?_⟩
    rw [List.mem_singleton] at hl
    subst hl
    exact ⟨s.x, fun _ _ => rfl, rfl, hc⟩
  | succ m ih =>
    intro last s ls s' hc h
    rw [ensemble] at h
    cases hs : sample e fuel s with
    | none => simp [hs] at h
    | some r =>
      obtain ⟨k, s1⟩ := r
      simp only [hs] at h
      cases he : ensemble e fuel m k s1 with
      | none => simp [he] at h
      | some r =>
        obtain ⟨l1, s2⟩ := r
        simp only [he, Option.some.injEq, Prod.mk.injEq] at h
        obtain ⟨rfl, rfl⟩ := h
        obtain ⟨-, -, a3, lam, a4⟩ := trials_spec e s.x fuel 0 s k s1 (fun _ _ => rfl) hs
        have hsame : SameFixed e.n e.idx s.x s1.x := a4 ▸ propose_same e lam s.x
        obtain ⟨b1, b2, b3, b4⟩ := ih k s1 l1 s2 a3 he
        refine ⟨by simp [b1], sameFixed_trans hsame b2, b3, fun l hl => ?_⟩
        rcases List.mem_cons.1 hl with rfl | hl
        · exact ⟨s.x, fun _ _ => rfl, rfl, hc⟩
        · obtain ⟨y, c1, c2, c3⟩ := b4 l hl
          exact ⟨y, sameFixed_trans hsame c1, c2, c3⟩

/-- **C47, ensembles.** Every line of an ensemble of `m` moves shows parameters with their cost, if the walk starts with parameters and
their cost. -/
theorem C47_ensemble (e : Env K S) (fuel m last : Nat) (s : Walk K S) (ls : List (Line K)) (s' : Walk K S)
    (hc : s.cost = e.obj s.x) (h : ensemble e fuel m last s = some (ls, s')) :
    ls.length = m + 1 ∧ ∀ l ∈ ls, InStep e s.x l := by
  obtain ⟨h1, -, -, h4⟩ := ensemble_spec e fuel m last s ls s' hc h
  exact ⟨h1, h4⟩

/-- The last line shows the weight of the line before, not its own. -/
theorem C47_last_weight (e : Env K S) (fuel m last : Nat) (s : Walk K S) (ls : List (Line K)) (s' : Walk K S)
    (h : ensemble e fuel (m + 1) last s = some (ls, s')) :
    ∃ l1 l2, ls[m]? = some l1 ∧ ls[m + 1]? = some l2 ∧ l1.weight = l2.weight := by
  induction m generalizing last s ls s' with
  | zero =>
    rw [ensemble] at h
    cases hs : sample e fuel s with
    | none => simp [hs] at h
    | some r =>
      simp only [hs, ensemble, Option.some.injEq, Prod.mk.injEq] at h
      obtain ⟨rfl, rfl⟩ := h
      exact ⟨_, _, rfl, rfl, rfl⟩
  | succ m ih =>
    rw [ensemble] at h
    cases hs : sample e fuel s with
    | none => simp [hs] at h
    | some r =>
      simp only [hs] at h
      cases he : ensemble e fuel (m + 1) r.1 r.2 with
      | none => simp [he] at h
      | some r2 =>
        simp only [he, Option.some.injEq, Prod.mk.injEq] at h
        obtain ⟨rfl, rfl⟩ := h
        obtain ⟨l1, l2, h1, h2, h3⟩ := ih r.1 r.2 r2.1 r2.2 he
        exact ⟨l1, l2, by simpa using h1, by simpa using h2, h3⟩

/-- One free parameter at place 2, objective `x²`; "random" numbers 3, -4, 1, ... (normal) and 1/2 (uniform), `exp` replaced by 0. -/
def exEnv : Env ℚ (List ℚ) where
  obj x := x 2 ^ 2 + x 0
  exp _ := 0
  sqrt y := y
  normdist g := (g.headD 0, g.tail)
  eqdist g := (1 / 2, g)
  n := 1
  idx _ := 2
  rescaling := 1
  eigMax := 1
  temp := 1
  large := 1000000000000
  v _ _ := 1
  cost0 := 1

def exWalk : Walk ℚ (List ℚ) := ⟨fun q => if q = 0 then 7 else 1, fun _ => -1, 8, [3, -4, -1]⟩

/-- Two proposals are rejected, the third one is accepted; then no more. -/
example : (match sample exEnv 10 exWalk with
    | some (k, s) => decide (k = 3 ∧ s.x 2 = 0 ∧ s.cost = 7)
    | none => false) = true := by decide +kernel

example : ∃ k s, sample exEnv 10 exWalk = some (k, s) ∧ s.cost = exEnv.obj s.x := by
  cases h : sample exEnv 10 exWalk with
  | none =>
    have : (sample exEnv 10 exWalk).isSome = true := by decide +kernel
    rw [h] at this
    simp at this
  | some r => exact ⟨r.1, r.2, rfl, (C47_sample exEnv (fun a ha b hb _ => by simp [exEnv] at ha hb; omega) 10 exWalk r.1 r.2 h).1⟩

/-- After a rejected move the table is the proposal, with the old cost: only `generate_mc_sample` sets it back. -/
example : (mcMoves exEnv exWalk).1 = false ∧ (mcMoves exEnv exWalk).2.x 2 = 4 ∧ (mcMoves exEnv exWalk).2.cost = 8 := by decide +kernel

/-- The first proposal goes uphill and is compared with the uniformly distributed number 1/2. -/
example : (mcMoves exEnv exWalk).1 = true ↔ (1 / 2 : ℚ) ≤ 0 :=
  C47_metropolis exEnv (by decide +kernel) exWalk (by decide +kernel)

/-- The eigenvalue -1 is replaced by 1; the parameter moves from 1 by 3. -/
example : (mcMoves exEnv exWalk).2.w 0 = 1 ∧ (mcMoves exEnv exWalk).2.x 2 = exWalk.x 2 + 3 := by decide +kernel

end Verif.Props
