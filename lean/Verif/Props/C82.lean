/-
C82  Random numbers.
-/
import Verif.Lemmas.Dsfmt
import Verif.Spec.Random
import Mathlib.Tactic.Linarith
import Mathlib.Tactic.Positivity
import Mathlib.Algebra.Order.Floor.Defs
import Mathlib.Data.Rat.Floor
import Mathlib.Data.Nat.Log

set_option linter.unusedSectionVars false

namespace Verif.Props

open Verif.Dsfmt Verif.Spec

/-- **C82, range.** Whatever the C library delivers for the seed, every random number of the program is a multiple of 2⁻⁵² in [0, 1), and
no array is used outside of its range. -/
theorem C82_range (rand : Fin arraySize → BitVec 32) (n : Nat) :
    ∃ x : ℚ, stream rand n = .ok (some x) ∧ UnitGrid x ∧ 0 ≤ x ∧ x < 1 := by
  obtain ⟨s, hs, rs⟩ := initRng_ok rand
  obtain ⟨s', hs', rs'⟩ := discard_ok n rs
  obtain ⟨m, t, hm, ht, _⟩ := eqdist_ok rs'
  refine ⟨(m : ℚ) / 2 ^ 52, ?_, ⟨m, hm, rfl⟩, by positivity, ?_⟩
  · unfold stream
    rw [hs, bind_ok, hs', bind_ok, ht, bind_ok]
    rfl
  · rw [div_lt_one (by positivity)]
    exact_mod_cast hm

/-- All seeds are allowed: the 624 words delivered by the C library may even all be 0. -/
example : ∃ x : ℚ, stream (fun _ => 0) 5 = .ok (some x) ∧ UnitGrid x ∧ 0 ≤ x ∧ x < 1 := C82_range _ _

/-- The number is taken from the generator by its definition: a word with the exponent of [1, 2) gives its lowest 52 bits. -/
example : (decode 0x3ff8000000000000#64).map (· - 1) = some (1 / 2) := by decide +kernel

/-- **C82, period.** The sequence of random numbers is periodic from its first number on: no state is left for good. -/
theorem C82_periodic (rand : Fin arraySize → BitVec 32) : ∃ p, 0 < p ∧ ∀ n, stream rand (n + p) = stream rand n := by
  obtain ⟨s, hs, rs⟩ := initRng_ok rand
  have := finite_ready
  obtain ⟨p, hp, hper⟩ := Function.Injective.mem_periodicPts next_inj (⟨s, rs⟩ : { s : St // Ready s })
  refine ⟨p, hp, fun n => ?_⟩
  unfold stream
  rw [hs, bind_ok, bind_ok, discard_next (n + p) ⟨s, rs⟩, discard_next n ⟨s, rs⟩, Function.iterate_add_apply, hper.eq]

/-- **C82, certification of the period.** After seeding with any key the inner product over GF(2) of the last 128 bits of the state, moved
by the fixed point of the recursion, with the vector of period certification is 1, so that the state is not in the part where the
generator has a short period. -/
theorem C82_certified (key : List (BitVec 32)) (s : St) (h : initByArray key = .ok s) :
    (bitCount (((s.status ⟨dN, by decide⟩).u0 ^^^ fix1) &&& pcv1)
      + bitCount (((s.status ⟨dN, by decide⟩).u1 ^^^ fix2) &&& pcv2)) % 2 = 1 := by
  obtain ⟨m, m', hk, hc, _⟩ := initByArray_ok key
  rw [hk] at h
  obtain rfl := Except.ok.inj h
  exact (bitCount_odd _ _).2 (certify_parity hc)

/-- Seeding never fails, so that the theorem speaks about every key. -/
example (key : List (BitVec 32)) : ∃ s, initByArray key = .ok s := by
  obtain ⟨_, m', h, _⟩ := initByArray_ok key
  exact ⟨_, h⟩

/-- **C82, SSE2.** The variant of the recursion for SSE2 computes the same as the one in standard C. -/
theorem C82_sse2 (a b u : Lanes) :
    ((recursionSse a b u).1.words, (recursionSse a b u).2.words) = recursion a.words b.words u.words := by
  have hy : (recursionSse a b u).2.words = (recursion a.words b.words u.words).2 := by
    simp only [recursionSse, words_lxor, words_shuffle, slli, words_lanes, recursion, rot]
    exact congrArg₂ W.mk (xor4 _ _ _ _) (xor4 _ _ _ _)
  have hv : (recursionSse a b u).1.words = (recursion a.words b.words u.words).1 := by
    have h1 : (recursionSse a b u).1.words
        = ⟨((recursionSse a b u).2.words.u0 >>> dSr) ^^^ a.words.u0 ^^^ ((recursionSse a b u).2.words.u0 &&& msk1),
          ((recursionSse a b u).2.words.u1 >>> dSr) ^^^ a.words.u1 ^^^ ((recursionSse a b u).2.words.u1 &&& msk2)⟩ := by
      conv_lhs => unfold recursionSse
      simp only [words_lxor, words_land, words_mask, srli, words_lanes]
      simp only [recursionSse, words_lxor]
    rw [h1, hy]
    exact congrArg₂ W.mk (xor3 _ _ _) (xor3 _ _ _)
  rw [hy, hv]

/-- The words of a register and back. -/
example : recursionSse (W.lanes ⟨0x3ff123456789abcd#64, 0x3fffedcba9876543#64⟩) (W.lanes ⟨1, 2⟩) (W.lanes ⟨3, 4⟩)
    = (W.lanes (recursion ⟨0x3ff123456789abcd#64, 0x3fffedcba9876543#64⟩ ⟨1, 2⟩ ⟨3, 4⟩).1,
      W.lanes (recursion ⟨0x3ff123456789abcd#64, 0x3fffedcba9876543#64⟩ ⟨1, 2⟩ ⟨3, 4⟩).2) := by decide +kernel

/-- **C82, without seeding.** Without `init_rng` every number would be -1. -/
theorem C82_unseeded (n : Nat) : ∃ s, discard n zeroSt = .ok s ∧ ∃ s', eqdist s = .ok (some (-1), s') := by
  have h : ∀ (n : Nat) (i : Int), 0 ≤ i → ∃ j : Int, 0 ≤ j ∧ discard n ⟨zeroSt.status, i⟩ = .ok ⟨zeroSt.status, j⟩ := by
    intro n
    induction n with
    | zero => exact fun i hi => ⟨i, hi, rfl⟩
    | succ n ih =>
      intro i hi
      obtain ⟨j, hj, ej⟩ := zero_eqdist hi
      obtain ⟨k, hk, ek⟩ := ih j hj
      refine ⟨k, hk, ?_⟩
      show (do let (_, s) ← eqdist ⟨zeroSt.status, i⟩; discard n s) = _
      rw [ej]
      exact ek
  obtain ⟨j, hj, ej⟩ := h n 0 (by decide)
  obtain ⟨k, _, ek⟩ := zero_eqdist hj
  exact ⟨_, ej, _, ek⟩

/-- **C82, choice of an index.** A random number times a number `n` of things, computed in doubles with any rounding and cut to an integer,
is the index of one of the things: it is never `n` itself. -/
theorem C82_index (rand : Fin arraySize → BitVec 32) (k : Nat) (x : ℚ) (hx : stream rand k = .ok (some x)) (rd : ℚ → ℚ)
    (hr : Rounding rd) (n : Nat) (h0 : 0 < n) (hn : n < 2 ^ 31) : 0 ≤ ⌊rd (x * n)⌋ ∧ ⌊rd (x * n)⌋ < n := by
  obtain ⟨y, hy, gy, _⟩ := C82_range rand k
  rw [hx] at hy
  obtain rfl := Option.some.inj (Except.ok.inj hy)
  obtain ⟨h1, h2⟩ := index_ok gy hr h0 hn
  exact ⟨Int.floor_nonneg.2 h1, Int.floor_lt.2 (by exact_mod_cast h2)⟩

/-- Going up to the next multiple of 2⁻¹⁰⁷⁴ is a rounding. -/
example : Rounding (fun x => (⌈x * 2 ^ 1074⌉ : ℚ) / 2 ^ 1074) := by
  refine ⟨fun x y h => ?_, fun m e _ he _ => ?_⟩
  · apply div_le_div_of_nonneg_right _ (by positivity)
    exact_mod_cast Int.ceil_le_ceil (mul_le_mul_of_nonneg_right h (by positivity))
  · obtain ⟨k, hk⟩ := Int.eq_ofNat_of_zero_le (show 0 ≤ e + 1074 by omega)
    have h2 : ((2 : ℚ) ^ e) * 2 ^ 1074 = ((2 ^ k : Int) : ℚ) := by
      rw [← zpow_natCast (2 : ℚ) 1074, ← zpow_add₀ (by norm_num), show e + ((1074 : Nat) : Int) = (k : Int) by omega]
      push_cast
      exact zpow_natCast _ _
    show (⌈(m : ℚ) * 2 ^ e * 2 ^ 1074⌉ : ℚ) / 2 ^ 1074 = (m : ℚ) * 2 ^ e
    rw [div_eq_iff (by positivity), mul_assoc, h2, ← Int.cast_mul, Int.ceil_intCast]

/-- The largest number the generator can deliver. -/
example : UnitGrid (1 - 1 / 2 ^ 52) := ⟨2 ^ 52 - 1, by norm_num, by norm_num⟩

end Verif.Props
