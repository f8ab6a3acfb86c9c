/-
C64  Sampled ranges of analytic potentials cover the distances and angles.

The theorems are about the end of `read_config` for analytic potentials: the columns are sampled from 0.95 of the
smallest distance on, and the slots stored for neighbours and angles evaluate the sampled functions at the distances
and cosines.
-/
import Verif.Lemmas.Ranges
import Verif.Props.C01
import Verif.Props.C12

set_option linter.unusedSectionVars false

namespace Verif.Props

open Verif.Ranges Verif.Splines Verif.PairIndex

variable {K : Type*} [Field K] [LinearOrder K] [IsStrictOrderedRing K]

/-- The neighbour joins an atom of type `i` and one of type `j`. -/
def Joins (s : Stored K) (i j : Nat) : Prop := (s.typ1 = i ∧ s.typ2 = j) ∨ (s.typ1 = j ∧ s.typ2 = i)

theorem joins_iff {nt : Nat} {s : Stored K} {i j : Nat} (h1 : s.typ1 < nt) (h2 : s.typ2 < nt) (hi : i < nt) (hj : j < nt) :
    Joins s i j ↔ pairCol nt s.typ1 s.typ2 = pairCol nt i j := by
  constructor
  · rintro (⟨rfl, rfl⟩ | ⟨rfl, rfl⟩)
    · rfl
    · exact C01_symmetric nt _ _
  · intro h
    exact C01_injective h1 h2 hi hj h

theorem assign_none {kind : Kind} {nt : Nat} {md : Nat → Option K} {b : Bounds K} :
    assign kind nt md b = none ↔ (typePairs nt).foldlM (pairTurn nt md) (b, none) = none := by
  unfold assign
  cases h : (typePairs nt).foldlM (pairTurn nt md) (b, none) with
  | none => simp
  | some s =>
    obtain ⟨b', m⟩ := s
    cases m <;> simp

/-- The program stops at this point exactly if some pair of types has no neighbours at all. -/
theorem C64_missing_pair (kind : Kind) (nt : Nat) (l : List (Stored K)) (b : Bounds K)
    (ht : ∀ s ∈ l, s.typ1 < nt ∧ s.typ2 < nt) :
    assign kind nt (mindist nt l) b = none ↔ ∃ i < nt, ∃ j < nt, ∀ s ∈ l, ¬ Joins s i j := by
  rw [assign_none, (pairs_spec nt (mindist nt l) b (typePairs nt) fun p hp => (mem_typePairs.1 hp).2).1]
  constructor
  · rintro ⟨p, hp, hn⟩
    obtain ⟨h1, h2⟩ := mem_typePairs.1 hp
    refine ⟨p.1, h1, p.2, h2, fun s hs hj => ?_⟩
    exact (mindist_none nt l _).1 hn s hs ((joins_iff (ht s hs).1 (ht s hs).2 h1 h2).1 hj)
  · rintro ⟨i, hi, j, hj, h⟩
    refine ⟨(i, j), mem_typePairs.2 ⟨hi, hj⟩, (mindist_none nt l _).2 fun s hs hc => ?_⟩
    exact h s hs ((joins_iff (ht s hs).1 (ht s hs).2 hi hj).2 hc)

/-- Bounds of the columns before reading: all 0 … 5. -/
def plainBounds : Bounds ℚ := ⟨fun _ => 0, fun _ => 5, fun _ => 0⟩

/-- Neighbours of two types: 0-0 at 3, 0-1 at 2 and 5/2, 1-1 at 4. -/
def someStored : List (Stored ℚ) := [⟨0, 1, 5 / 2⟩, ⟨0, 0, 3⟩, ⟨1, 0, 2⟩, ⟨1, 1, 4⟩]

example : (assign .eam 2 (mindist 2 someStored) plainBounds).isSome = true ∧
    assign .eam 2 (mindist 2 (someStored.take 3)) plainBounds = none := by
  refine ⟨by decide +kernel, ?_⟩
  rw [C64_missing_pair _ _ _ _ (by decide)]
  refine ⟨1, by decide, 1, by decide, ?_⟩
  intro s hs
  simp only [someStored, List.take, List.mem_cons, List.not_mem_nil, or_false] at hs
  rcases hs with rfl | rfl | rfl <;> simp [Joins]

/-- The parts of the result of `assign`. -/
theorem assign_parts {kind : Kind} {nt : Nat} {l : List (Stored K)} {b b' : Bounds K} (h0 : 0 < nt)
    (h : assign kind nt (mindist nt l) b = some b') :
    ∃ p m, Treated nt (mindist nt l) b (typePairs nt) (p, some m) ∧ b' = others kind nt (m * (95 / 100)) p := by
  have hp := (pairs_spec nt (mindist nt l) b (typePairs nt) fun p hp => (mem_typePairs.1 hp).2).2
  unfold assign at h
  cases hf : (typePairs nt).foldlM (pairTurn nt (mindist nt l)) (b, none) with
  | none => simp [hf] at h
  | some s =>
    have ht := hp s hf
    obtain ⟨p, m⟩ := s
    cases m with
    | none =>
      obtain ⟨_, _, _, _, m, hm, _⟩ := ht.pair (0, 0) (mem_typePairs.2 ⟨h0, h0⟩)
      simp at hm
    | some m =>
      simp only [hf, Option.some.injEq] at h
      exact ⟨p, m, ht, h.symm⟩

theorem pc_eq (nt : Nat) : pc nt = nt * (nt + 1) / 2 := rfl

/-- Lower end and upper end of the columns after the last blocks. -/
theorem others_beg (kind : Kind) (nt : Nat) (v : K) (b : Bounds K) :
    (others kind nt v b).rmin = b.rmin ∧
    (∀ c, c < pc nt → (others kind nt v b).beg c = b.beg c ∧ (others kind nt v b).fin c = b.fin c) ∧
    (∀ t1 < nt, ∀ t2 < nt, ∀ c ∈ columns kind nt t1 t2, c = pairCol nt t1 t2 ∨
      (others kind nt v b).beg c = v ∧ (others kind nt v b).fin c = b.fin c) := by
  have hcol : ∀ t1 < nt, ∀ t2 < nt, pairCol nt t1 t2 < pc nt := fun t1 h1 t2 h2 => C01_in_range h1 h2
  cases kind with
  | pair =>
    refine ⟨rfl, fun _ _ => ⟨rfl, rfl⟩, ?_⟩
    intro t1 _ t2 _ c hc
    simp only [columns, List.mem_singleton] at hc
    exact Or.inl hc
  | eam =>
    obtain ⟨h1, h2, h3⟩ := setBegin_spec (pc nt) nt v b
    refine ⟨h3, fun c hc => ⟨?_, congrFun h2 c⟩, ?_⟩
    · simp only [others]; rw [h1, if_neg (by omega)]
    · intro t1 ht1 t2 ht2 c hc
      simp only [columns, List.mem_cons, List.not_mem_nil, or_false] at hc
      rcases hc with rfl | rfl
      · exact Or.inl rfl
      · refine Or.inr ⟨?_, congrFun h2 _⟩
        simp only [others]; rw [h1, if_pos (by omega)]
  | tbeam =>
    obtain ⟨h1, h2, h3⟩ := setBegin_spec (pc nt) nt v b
    obtain ⟨g1, g2, g3⟩ := setBegin_spec (pc nt + 2 * nt) nt v (setBegin (pc nt) nt v b)
    refine ⟨g3.trans h3, fun c hc => ⟨?_, congrFun (g2.trans h2) c⟩, ?_⟩
    · simp only [others]; rw [g1, if_neg (by omega), h1, if_neg (by omega)]
    · intro t1 ht1 t2 ht2 c hc
      simp only [columns, List.mem_cons, List.not_mem_nil, or_false] at hc
      rcases hc with rfl | rfl | rfl
      · exact Or.inl rfl
      · refine Or.inr ⟨?_, congrFun (g2.trans h2) _⟩
        simp only [others]; rw [g1, if_neg (by omega), h1, if_pos (by omega)]
      · refine Or.inr ⟨?_, congrFun (g2.trans h2) _⟩
        simp only [others]; rw [g1, if_pos (by omega)]
  | adp =>
    obtain ⟨h1, h2, h3⟩ := setBegin_spec (pc nt) nt v b
    obtain ⟨g1, g2, g3⟩ := setBeginAdp_spec nt v (setBegin (pc nt) nt v b)
    refine ⟨g3.trans h3, fun c hc => ⟨?_, congrFun (g2.trans h2) c⟩, ?_⟩
    · simp only [others]; rw [g1, if_neg (by omega), h1, if_neg (by omega)]
    · intro t1 ht1 t2 ht2 c hc
      have := hcol t1 ht1 t2 ht2
      simp only [columns, List.mem_cons, List.not_mem_nil, or_false] at hc
      rcases hc with rfl | rfl | rfl | rfl
      · exact Or.inl rfl
      · refine Or.inr ⟨?_, congrFun (g2.trans h2) _⟩
        simp only [others]; rw [g1, if_neg (by omega), h1, if_pos (by omega)]
      · refine Or.inr ⟨?_, congrFun (g2.trans h2) _⟩
        simp only [others]; rw [g1, if_pos (by omega)]
      · refine Or.inr ⟨?_, congrFun (g2.trans h2) _⟩
        simp only [others]; rw [g1, if_pos (by omega)]
  | meam =>
    obtain ⟨h1, h2, h3⟩ := setBegin_spec (pc nt) nt v b
    obtain ⟨g1, g2, g3⟩ := setBegin_spec (pc nt + 2 * nt) (pc nt) v (setBegin (pc nt) nt v b)
    obtain ⟨f1, f2, f3⟩ := setAngular_spec (2 * pc nt + 2 * nt) nt (-(11 / 10)) (11 / 10)
      (setBegin (pc nt + 2 * nt) (pc nt) v (setBegin (pc nt) nt v b))
    have hfin := fun c => congrFun (g2.trans h2) c
    refine ⟨f3.trans (g3.trans h3), fun c hc => ⟨?_, ?_⟩, ?_⟩
    · simp only [others]; rw [f1, if_neg (by omega), g1, if_neg (by omega), h1, if_neg (by omega)]
    · simp only [others]; rw [f2, if_neg (by omega), hfin]
    · intro t1 ht1 t2 ht2 c hc
      have := hcol t1 ht1 t2 ht2
      simp only [columns, List.mem_cons, List.not_mem_nil, or_false] at hc
      rcases hc with rfl | rfl | rfl
      · exact Or.inl rfl
      · refine Or.inr ⟨?_, ?_⟩
        · simp only [others]; rw [f1, if_neg (by omega), g1, if_neg (by omega), h1, if_pos (by omega)]
        · simp only [others]; rw [f2, if_neg (by omega), hfin]
      · refine Or.inr ⟨?_, ?_⟩
        · simp only [others]; rw [f1, if_neg (by omega), g1, if_pos (by omega)]
        · simp only [others]; rw [f2, if_neg (by omega), hfin]
  | ang =>
    obtain ⟨h1, h2, h3⟩ := setBegin_spec (pc nt) (pc nt) v b
    obtain ⟨f1, f2, f3⟩ := setAngular_spec (2 * pc nt) nt (-1) 1 (setBegin (pc nt) (pc nt) v b)
    refine ⟨f3.trans h3, fun c hc => ⟨?_, ?_⟩, ?_⟩
    · simp only [others]; rw [f1, if_neg (by omega), h1, if_neg (by omega)]
    · simp only [others]; rw [f2, if_neg (by omega), h2]
    · intro t1 ht1 t2 ht2 c hc
      have := hcol t1 ht1 t2 ht2
      simp only [columns, List.mem_cons, List.not_mem_nil, or_false] at hc
      rcases hc with rfl | rfl
      · exact Or.inl rfl
      · refine Or.inr ⟨?_, ?_⟩
        · simp only [others]; rw [f1, if_neg (by omega), h1, if_pos (by omega)]
        · simp only [others]; rw [f2, if_neg (by omega), h2]

/-- `rmin` is the matrix of the smallest distances of neighbours of the two types. -/
theorem C64_rmin (kind : Kind) (nt : Nat) (l : List (Stored K)) (b b' : Bounds K)
    (ht : ∀ s ∈ l, s.typ1 < nt ∧ s.typ2 < nt) (h : assign kind nt (mindist nt l) b = some b') (i j : Nat)
    (hi : i < nt) (hj : j < nt) :
    (∃ s ∈ l, Joins s i j ∧ s.r = b'.rmin (i * nt + j)) ∧ ∀ s ∈ l, Joins s i j → b'.rmin (i * nt + j) ≤ s.r := by
  obtain ⟨p, m, hp, rfl⟩ := assign_parts (by omega) h
  obtain ⟨d, h1, _, h3, _⟩ := hp.pair (i, j) (mem_typePairs.2 ⟨hi, hj⟩)
  rw [(others_beg kind nt _ p).1, h3]
  obtain ⟨⟨s, hs, hc, hr⟩, hmin⟩ := mindist_some nt l _ d h1
  refine ⟨⟨s, hs, (joins_iff (ht s hs).1 (ht s hs).2 hi hj).2 hc, hr⟩, fun s hs hjn => hmin s hs ?_⟩
  exact (joins_iff (ht s hs).1 (ht s hs).2 hi hj).1 hjn

example : ∀ b', assign .eam 2 (mindist 2 someStored) plainBounds = some b' → b'.rmin 1 = 2 ∧ b'.rmin 2 = 2 := by
  decide +kernel

/-- Every column belonging to a stored neighbour begins at most at 0.95 of its distance; the upper ends of these columns
are those given before. -/
theorem C64_begin (kind : Kind) (nt : Nat) (l : List (Stored K)) (b b' : Bounds K)
    (ht : ∀ s ∈ l, s.typ1 < nt ∧ s.typ2 < nt) (h : assign kind nt (mindist nt l) b = some b') (s : Stored K) (hs : s ∈ l)
    (c : Nat) (hc : c ∈ columns kind nt s.typ1 s.typ2) :
    b'.beg c ≤ s.r * (95 / 100) ∧ b'.fin c = b.fin c := by
  obtain ⟨h1, h2⟩ := ht s hs
  obtain ⟨p, m, hp, rfl⟩ := assign_parts (by omega) h
  obtain ⟨d, g1, g2, _, m', g4, g5⟩ := hp.pair (s.typ1, s.typ2) (mem_typePairs.2 ⟨h1, h2⟩)
  obtain ⟨_, hmin⟩ := mindist_some nt l _ d g1
  have hd : d ≤ s.r := hmin s hs rfl
  simp only [Option.some.injEq] at g4
  subst g4
  obtain ⟨_, o2, o3⟩ := others_beg kind nt (m * (95 / 100)) p
  have hpc : pairCol nt s.typ1 s.typ2 < pc nt := C01_in_range h1 h2
  rcases o3 s.typ1 h1 s.typ2 h2 c hc with rfl | ⟨e1, e2⟩
  · rw [(o2 _ hpc).1, (o2 _ hpc).2, g2, hp.fin]
    exact ⟨by linarith, rfl⟩
  · rw [e1, e2, hp.fin]
    exact ⟨by linarith, rfl⟩

/-- Every column belonging to a stored neighbour begins at 0.95 of a distance occurring in the configurations, so that
distances are not sampled below that. -/
theorem C64_begin_attained (kind : Kind) (nt : Nat) (l : List (Stored K)) (b b' : Bounds K)
    (ht : ∀ s ∈ l, s.typ1 < nt ∧ s.typ2 < nt) (h : assign kind nt (mindist nt l) b = some b') (s : Stored K) (hs : s ∈ l)
    (c : Nat) (hc : c ∈ columns kind nt s.typ1 s.typ2) :
    ∃ t ∈ l, b'.beg c = t.r * (95 / 100) := by
  obtain ⟨h1, h2⟩ := ht s hs
  obtain ⟨p, m, hp, rfl⟩ := assign_parts (by omega) h
  obtain ⟨d, g1, g2, _⟩ := hp.pair (s.typ1, s.typ2) (mem_typePairs.2 ⟨h1, h2⟩)
  obtain ⟨_, o2, o3⟩ := others_beg kind nt (m * (95 / 100)) p
  have hpc : pairCol nt s.typ1 s.typ2 < pc nt := C01_in_range h1 h2
  rcases o3 s.typ1 h1 s.typ2 h2 c hc with rfl | ⟨e1, e2⟩
  · obtain ⟨⟨t, ht1, _, ht3⟩, _⟩ := mindist_some nt l _ d g1
    exact ⟨t, ht1, by rw [(o2 _ hpc).1, g2, ht3]⟩
  · obtain ⟨q, _, hq⟩ := hp.attained m rfl
    obtain ⟨⟨t, ht1, _, ht3⟩, _⟩ := mindist_some nt l _ m hq
    exact ⟨t, ht1, by rw [e1, ht3]⟩

example : ∀ b', assign .adp 2 (mindist 2 someStored) plainBounds = some b' →
    (List.range 11).map b'.beg = [57 / 20, 19 / 10, 19 / 5, 19 / 10, 19 / 10, 0, 0, 19 / 10, 19 / 10, 19 / 10, 19 / 10] := by
  decide +kernel

/-- After `update_slots` the triple stored for a neighbour and one of its columns (distance below the end of the column)
addresses an interval of that column, and evaluating through it gives the sampled function at the distance. -/
theorem C64_neighbour [FloorSemiring K] (kind : Kind) (nt : Nat) (l : List (Stored K)) (b b' : Bounds K)
    (ht : ∀ s ∈ l, s.typ1 < nt ∧ s.typ2 < nt) (h : assign kind nt (mindist nt l) b = some b') (s : Stored K) (hs : s ∈ l)
    (hr : 0 ≤ s.r) (c : Nat) (hc : c ∈ columns kind nt s.typ1 s.typ2) (hend : s.r < b.fin c) (d2 xi : Nat → K)
    (old : ℕ × K × K) :
    ∃ slot shift step, updateSlot (column b' d2 c) s.r old = some (slot, shift, step) ∧
      (column b' d2 c).first ≤ slot ∧ slot < (column b' d2 c).last ∧
      splintCombDir (column b' d2 c) xi slot shift step = splintCombEd (column b' d2 c) xi s.r := by
  obtain ⟨h1, h2⟩ := C64_begin kind nt l b b' ht h s hs c hc
  have hb : b'.beg c ≤ s.r := by linarith
  have hf : s.r < b'.fin c := by rw [h2]; exact hend
  have heq := column_eqDist b' d2 c (hb.trans_lt hf)
  obtain ⟨t, e1, e2⟩ := C12_update (column b' d2 c) heq s.r old hb hf
  obtain ⟨slot, shift, step, g1, g2, g3, _, g5, _⟩ := C12_equidistant (column b' d2 c) heq xi s.r hb hf.le
  rw [e2, Except.ok.injEq] at g1
  subst g1
  exact ⟨slot, shift, step, e1, g2, g3, g5 hf⟩

/-- The sampling points of a column are the arguments at which its entries are calculated: entry `first + j` belongs to
`begin + j*step`, the last one to `end`; different columns use different entries. -/
theorem C64_columns (b : Bounds K) (d2 : Nat → K) (i : Nat) :
    (∀ j < 500, (column b d2 i).xcoord ((column b d2 i).first + j) = b.beg i + j * ((b.fin i - b.beg i) / 499)) ∧
    (column b d2 i).xcoord (column b d2 i).last = b.fin i ∧
    (column b d2 i).last + 1 - (column b d2 i).first = 500 ∧
    ∀ k < i, (column b d2 k).last + 2 < (column b d2 i).first := by
  have hL := layout_eq
  refine ⟨?_, ?_, ?_, ?_⟩
  · intro j _
    simp only [column, hL, Nat.add_sub_cancel_left, steps]
    norm_num
  · simp only [column, hL, Nat.add_sub_cancel_left, steps]
    norm_num
    field_simp
    ring
  · simp only [column, steps]; omega
  · intro k hk
    have h1 := hL k
    have h2 := hL i
    have h3 : (k + 1) * 500 ≤ i * 500 := Nat.mul_le_mul_right _ hk
    simp only [column, steps] at h1 h2 ⊢
    omega

example : (column plainBounds (fun _ => 0) 1).first = 504 ∧ (column plainBounds (fun _ => 0) 1).xcoord 504 = 0 ∧
    (column plainBounds (fun _ => 0) 1).xcoord 1003 = 5 := by
  refine ⟨by decide +kernel, by decide +kernel, by decide +kernel⟩

/-- The cosine of the angle between two unit vectors lies between -1 and 1. -/
theorem cos_range (u v : Fin 3 → K) (hu : u 0 * u 0 + u 1 * u 1 + u 2 * u 2 = 1)
    (hv : v 0 * v 0 + v 1 * v 1 + v 2 * v 2 = 1) :
    -1 ≤ u 0 * v 0 + u 1 * v 1 + u 2 * v 2 ∧ u 0 * v 0 + u 1 * v 1 + u 2 * v 2 ≤ 1 := by
  constructor
  · nlinarith [sq_nonneg (u 0 + v 0), sq_nonneg (u 1 + v 1), sq_nonneg (u 2 + v 2)]
  · nlinarith [sq_nonneg (u 0 - v 0), sq_nonneg (u 1 - v 1), sq_nonneg (u 2 - v 2)]

theorem slotAt_update [FloorSemiring K] (c : Column K) (x : K) (old : ℕ × K × K) (h1 : c.beg ≤ x) (h2 : x < c.fin) :
    updateSlot c x old = some (slotAt c (x - c.beg)) := by
  have : ¬ x - c.beg < 0 := by intro hc; linarith
  simp [updateSlot, slotAt, toInt, h2, this]

theorem slotAt_spec [FloorSemiring K] (c : Column K) (heq : c.EqDist) (xi : Nat → K) (x : K) (h1 : c.beg ≤ x)
    (h2 : x < c.fin) :
    c.first ≤ (slotAt c (x - c.beg)).1 ∧ (slotAt c (x - c.beg)).1 < c.last ∧
    splintCombDir c xi (slotAt c (x - c.beg)).1 (slotAt c (x - c.beg)).2.1 (slotAt c (x - c.beg)).2.2 =
      splintCombEd c xi x := by
  obtain ⟨t, e1, e2⟩ := C12_update c heq x (0, 0, 0) h1 h2
  obtain ⟨slot, shift, step, g1, g2, g3, _, g5, _⟩ := C12_equidistant c heq xi x h1 h2.le
  rw [e2, Except.ok.injEq] at g1
  subst g1
  rw [slotAt_update c x _ h1 h2, Option.some.injEq] at e1
  rw [e1]
  exact ⟨g2, g3, g5 h2⟩

theorem meam_bounds {nt : Nat} {l : List (Stored K)} {b b' : Bounds K} (typ : Nat) (hty : typ < nt)
    (h : assign .meam nt (mindist nt l) b = some b') :
    b'.beg (gcol .meam nt typ) = -(11 / 10) ∧ b'.fin (gcol .meam nt typ) = 11 / 10 := by
  obtain ⟨p, m, _, rfl⟩ := assign_parts (by omega) h
  obtain ⟨f1, f2, _⟩ := setAngular_spec (2 * pc nt + 2 * nt) nt (-(11 / 10)) (11 / 10)
      (setBegin (pc nt + 2 * nt) (pc nt) (m * (95 / 100)) (setBegin (pc nt) nt (m * (95 / 100)) p))
  simp only [others, gcol]
  rw [f1, f2, if_pos (by omega), if_pos (by omega)]
  exact ⟨rfl, rfl⟩

theorem ang_bounds {nt : Nat} {l : List (Stored K)} {b b' : Bounds K} (typ : Nat) (hty : typ < nt)
    (h : assign .ang nt (mindist nt l) b = some b') :
    b'.beg (gcol .ang nt typ) = -1 ∧ b'.fin (gcol .ang nt typ) = 1 := by
  obtain ⟨p, m, _, rfl⟩ := assign_parts (by omega) h
  obtain ⟨f1, f2, _⟩ := setAngular_spec (2 * pc nt) nt (-1) 1 (setBegin (pc nt) (pc nt) (m * (95 / 100)) p)
  simp only [others, gcol]
  rw [f1, f2, if_pos (by omega), if_pos (by omega)]
  exact ⟨rfl, rfl⟩

/-- MEAM: for all angles, the triple stored for an angle addresses an interval of the column of `g` of the central atom,
and evaluating through it gives the sampled `g` and its slope at the cosine. -/
theorem C64_meam_angle [FloorSemiring K] (nt : Nat) (l : List (Stored K)) (b b' : Bounds K) (typ : Nat) (hty : typ < nt)
    (h : assign .meam nt (mindist nt l) b = some b') (cos : K) (h1 : -1 ≤ cos) (h2 : cos ≤ 1) (d2 xi : Nat → K) :
    ∃ slot shift step, meamSlot (column b' d2 (gcol .meam nt typ)) cos = (slot, shift, step) ∧
      (column b' d2 (gcol .meam nt typ)).first ≤ slot ∧ slot < (column b' d2 (gcol .meam nt typ)).last ∧
      splintCombDir (column b' d2 (gcol .meam nt typ)) xi slot shift step =
        splintCombEd (column b' d2 (gcol .meam nt typ)) xi cos := by
  obtain ⟨e1, e2⟩ := meam_bounds typ hty h
  have heq := column_eqDist b' d2 (gcol .meam nt typ) (by rw [e1, e2]; norm_num)
  have hb : (column b' d2 (gcol .meam nt typ)).beg = -(11 / 10) := e1
  have hf : (column b' d2 (gcol .meam nt typ)).fin = 11 / 10 := e2
  have hsl : meamSlot (column b' d2 (gcol .meam nt typ)) cos =
      slotAt (column b' d2 (gcol .meam nt typ)) (cos - (column b' d2 (gcol .meam nt typ)).beg) := by
    rw [meamSlot, hb, sub_neg_eq_add]
  rw [hsl]
  have := slotAt_spec (column b' d2 (gcol .meam nt typ)) heq xi cos (by rw [hb]; linarith) (by rw [hf]; linarith)
  exact ⟨_, _, _, rfl, this⟩

example : ∃ b', assign .meam 2 (mindist 2 someStored) plainBounds = some b' ∧
    meamSlot (column b' (fun _ => 0) (gcol .meam 2 1)) (1 : ℚ) = (11 * 502 + 2 + 476, 7 / 22, 11 / 2495) := by
  refine ⟨_, rfl, by decide +kernel⟩

/-- Angular potentials: the same for all angles but those with cosine 1. -/
theorem C64_ang_angle_partial [FloorSemiring K] (nt : Nat) (l : List (Stored K)) (b b' : Bounds K) (typ : Nat)
    (hty : typ < nt) (h : assign .ang nt (mindist nt l) b = some b') (cos : K) (h1 : -1 ≤ cos) (h2 : cos < 1)
    (d2 xi : Nat → K) :
    ∃ slot shift step, angSlot (column b' d2 (gcol .ang nt typ)) cos = (slot, shift, step) ∧
      (column b' d2 (gcol .ang nt typ)).first ≤ slot ∧ slot < (column b' d2 (gcol .ang nt typ)).last ∧
      splintCombDir (column b' d2 (gcol .ang nt typ)) xi slot shift step =
        splintCombEd (column b' d2 (gcol .ang nt typ)) xi cos := by
  obtain ⟨e1, e2⟩ := ang_bounds typ hty h
  have heq := column_eqDist b' d2 (gcol .ang nt typ) (by rw [e1, e2]; norm_num)
  have hb : (column b' d2 (gcol .ang nt typ)).beg = -1 := e1
  have hf : (column b' d2 (gcol .ang nt typ)).fin = 1 := e2
  have := slotAt_spec (column b' d2 (gcol .ang nt typ)) heq xi cos (by rw [hb]; linarith) (by rw [hf]; linarith)
  exact ⟨_, _, _, rfl, this⟩

/-- Angular potentials: for two neighbours in the same direction (cosine 1) the triple addresses the interval behind the
last sampling point, and the evaluation reads behind the column. -/
theorem C64_ang_angle_violated [FloorSemiring K] (nt : Nat) (l : List (Stored K)) (b b' : Bounds K) (typ : Nat)
    (hty : typ < nt) (h : assign .ang nt (mindist nt l) b = some b') (d2 xi : Nat → K) :
    ∃ slot shift step, angSlot (column b' d2 (gcol .ang nt typ)) 1 = (slot, shift, step) ∧
      slot = (column b' d2 (gcol .ang nt typ)).last ∧
      splintCombDir (column b' d2 (gcol .ang nt typ)) xi slot shift step = .error .outOfColumn := by
  obtain ⟨e1, e2⟩ := ang_bounds typ hty h
  have hsl : (angSlot (column b' d2 (gcol .ang nt typ)) 1).1 = (column b' d2 (gcol .ang nt typ)).last := by
    have hx : ((1 : K) - -1) * (1 / ((1 - -1) / (((500 : Nat) : K) - 1))) = ((499 : Nat) : K) := by
      push_cast; norm_num
    simp only [angSlot, slotAt, toInt, column, steps, e1, e2]
    rw [hx, Nat.floor_natCast]
    omega
  refine ⟨(angSlot (column b' d2 (gcol .ang nt typ)) 1).1, (angSlot (column b' d2 (gcol .ang nt typ)) 1).2.1,
    (angSlot (column b' d2 (gcol .ang nt typ)) 1).2.2, rfl, hsl, ?_⟩
  rw [hsl]
  have hle : (column b' d2 (gcol .ang nt typ)).first ≤ (column b' d2 (gcol .ang nt typ)).last := by
    simp [column, steps]
  unfold splintCombDir
  rw [Column.rd, if_pos ⟨hle, le_rfl⟩, Column.rd, if_pos ⟨hle, le_rfl⟩, Column.rd, if_neg (by omega)]
  rfl

example : ∃ b', assign .ang 2 (mindist 2 someStored) plainBounds = some b' ∧
    angSlot (column b' (fun _ => 0) (gcol .ang 2 1)) (1 : ℚ) = (7 * 502 + 2 + 499, 0, 2 / 499) := by
  refine ⟨_, rfl, by decide +kernel⟩

/-- Tabulated potentials: nothing is stored for the angles, and with the zeroed triple no column of `calc_pot` (they begin
at entry 2 or later) can be evaluated. -/
theorem C64_tabulated_violated (c : Column K) (h : 2 ≤ c.first) (xi : Nat → K) :
    splintCombDir c xi (blankAngle (K := K)).1 (blankAngle (K := K)).2.1 (blankAngle (K := K)).2.2 =
      .error .outOfColumn := by
  simp only [blankAngle, splintCombDir]
  rw [Column.rd, if_neg (by omega)]
  rfl

example : splintCombDir exampleColumn (fun k => k) 0 0 0 = .error .outOfColumn :=
  C64_tabulated_violated exampleColumn (by decide) _

end Verif.Props
