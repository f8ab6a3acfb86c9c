/-
Random numbers (random.c, random_dsfmt.c, random_dsfmt.h).

A double is a 64-bit word, read as a number by the rules of IEEE 754 (`decode`); the only arithmetic on doubles, the subtraction of 1, is
exact for the words which occur, so that rational numbers are used for it. `rand()` of the C library is an arbitrary list of words.
-/
import Mathlib.Data.Rat.Defs
import Mathlib.Algebra.Order.Field.Rat
import Mathlib.Logic.Function.Basic

namespace Verif.Dsfmt

abbrev Word := BitVec 64

/-- What stops the generator: an array is used outside of its range. -/
inductive Fault where
  | outOfBounds
  deriving DecidableEq

/-! ## Constants (random_dsfmt.h 102-118, 739-786) -/

/-- DSFMT_N, `(19937 - 128) / 104 + 1` (line 112). -/
abbrev dN : Nat := (19937 - 128) / 104 + 1
/-- DSFMT_N64 (line 118). -/
abbrev dN64 : Nat := dN * 2
/-- DSFMT_POS1 (line 775). -/
abbrev dPos1 : Nat := 117
/-- DSFMT_SL1 (line 776). -/
abbrev dSl1 : Nat := 19
/-- DSFMT_SR (line 741). -/
abbrev dSr : Nat := 12
/-- DSFMT_MSK1, DSFMT_MSK2 (lines 777, 778). -/
abbrev msk1 : Word := 0x000ffafffffffb3f#64
abbrev msk2 : Word := 0x000ffdfffc90fffd#64
/-- DSFMT_MSK32_1 … DSFMT_MSK32_4 (lines 779-782). -/
abbrev msk32_1 : BitVec 32 := 0x000ffaff#32
abbrev msk32_2 : BitVec 32 := 0xfffffb3f#32
abbrev msk32_3 : BitVec 32 := 0x000ffdff#32
abbrev msk32_4 : BitVec 32 := 0xfc90fffd#32
/-- DSFMT_FIX1, DSFMT_FIX2 (lines 783, 784). -/
abbrev fix1 : Word := 0x90014964b32f4329#64
abbrev fix2 : Word := 0x3b8d12ac548a7c7a#64
/-- DSFMT_PCV1, DSFMT_PCV2 (lines 785, 786). -/
abbrev pcv1 : Word := 0x3d84e1ac0dc82880#64
abbrev pcv2 : Word := 0x0000000000000001#64
/-- DSFMT_LOW_MASK, DSFMT_HIGH_CONST (lines 739, 740). -/
abbrev lowMask : Word := 0x000FFFFFFFFFFFFF#64
abbrev highConst : Word := 0x3FF0000000000000#64

/-! ## State (random_dsfmt.h 196-217) -/

/-- `w128_t`, read as `u[0]`, `u[1]`. -/
structure W where
  u0 : Word
  u1 : Word
  deriving DecidableEq

/-- An array of `n` entries. -/
abbrev Arr (n : Nat) (α : Type) := Fin n → α

/-- Reading an entry. -/
def Arr.rd {n : Nat} {α : Type} (m : Arr n α) (i : Int) : Except Fault α :=
  if h : 0 ≤ i ∧ i < n then .ok (m ⟨i.toNat, by omega⟩) else .error .outOfBounds

/-- Writing an entry. -/
def Arr.wr {n : Nat} {α : Type} (m : Arr n α) (i : Int) (a : α) : Except Fault (Arr n α) :=
  if h : 0 ≤ i ∧ i < n then .ok (Function.update m ⟨i.toNat, by omega⟩ a) else .error .outOfBounds

/-- `dsfmt_t.status`. -/
abbrev Mem := Arr (dN + 1) W

/-- `dsfmt_t` (lines 213-216). -/
structure St where
  status : Mem
  idx : Int

/-! ## Recursion (random_dsfmt.c 98-197) -/

/-- `do_recursion`, standard C (lines 182-196): new entry and new `lung` from `a`, `b` and `lung`. -/
def recursion (a b lung : W) : W × W :=
  let l0 := (a.u0 <<< dSl1) ^^^ (lung.u1 >>> 32) ^^^ (lung.u1 <<< 32) ^^^ b.u0
  let l1 := (a.u1 <<< dSl1) ^^^ (lung.u0 >>> 32) ^^^ (lung.u0 <<< 32) ^^^ b.u1
  (⟨(l0 >>> dSr) ^^^ (l0 &&& msk1) ^^^ a.u0, (l1 >>> dSr) ^^^ (l1 &&& msk2) ^^^ a.u1⟩, ⟨l0, l1⟩)

/-- A register of SSE2 as four 32-bit lanes, lowest first. -/
structure Lanes where
  x0 : BitVec 32
  x1 : BitVec 32
  x2 : BitVec 32
  x3 : BitVec 32
  deriving DecidableEq

/-- The register seen as two 64-bit words (union W128_T, little endian). -/
def Lanes.words (r : Lanes) : W := ⟨r.x1 ++ r.x0, r.x3 ++ r.x2⟩

/-- A pair of 64-bit words seen as four 32-bit lanes. -/
def W.lanes (w : W) : Lanes :=
  ⟨w.u0.setWidth 32, (w.u0 >>> 32).setWidth 32, w.u1.setWidth 32, (w.u1 >>> 32).setWidth 32⟩

/-- `_mm_slli_epi64`, `_mm_srli_epi64`: shifts of both 64-bit halves. -/
def slli (r : Lanes) (k : Nat) : Lanes := W.lanes ⟨r.words.u0 <<< k, r.words.u1 <<< k⟩
def srli (r : Lanes) (k : Nat) : Lanes := W.lanes ⟨r.words.u0 >>> k, r.words.u1 >>> k⟩
/-- `_mm_xor_si128`, `_mm_and_si128`. -/
def lxor (r s : Lanes) : Lanes := ⟨r.x0 ^^^ s.x0, r.x1 ^^^ s.x1, r.x2 ^^^ s.x2, r.x3 ^^^ s.x3⟩
def land (r s : Lanes) : Lanes := ⟨r.x0 &&& s.x0, r.x1 &&& s.x1, r.x2 &&& s.x2, r.x3 &&& s.x3⟩
/-- Lane `k` modulo 4. -/
def Lanes.lane (r : Lanes) (k : Nat) : BitVec 32 :=
  if k % 4 = 0 then r.x0 else if k % 4 = 1 then r.x1 else if k % 4 = 2 then r.x2 else r.x3
/-- `_mm_shuffle_epi32`: two bits of the control byte per lane. -/
def shuffle (r : Lanes) (c : Nat) : Lanes := ⟨r.lane c, r.lane (c / 4), r.lane (c / 16), r.lane (c / 64)⟩
/-- SSE2_SHUFF (random_dsfmt.h 745). -/
abbrev sseShuff : Nat := 0x1b
/-- `sse2_param_mask`, set by `_mm_set_epi32`, highest lane first (lines 138-139). -/
def sseMask : Lanes := ⟨msk32_2, msk32_1, msk32_4, msk32_3⟩

/-- `do_recursion`, SSE2 (lines 153-173). -/
def recursionSse (a b u : Lanes) : Lanes × Lanes :=
  let x := a
  let z := slli x dSl1
  let y := shuffle u sseShuff
  let z := lxor z b
  let y := lxor y z
  let v := srli y dSr
  let w := land y sseMask
  let v := lxor v x
  let v := lxor v w
  (v, y)

/-- One call `do_recursion(&status[a], &status[a], &status[b], &lung)`. -/
def recAt (a b : Int) (p : Mem × W) : Except Fault (Mem × W) := do
  let x ← p.1.rd a
  let y ← p.1.rd b
  let m ← p.1.wr a (recursion x y p.2).1
  return (m, (recursion x y p.2).2)

/-- `dsfmt_gen_rand_all` (random_dsfmt.c 534-552). -/
def genAll (m : Mem) : Except Fault Mem := do
  let lung ← m.rd dN
  let p ← recAt 0 dPos1 (m, lung)
  let p ← (List.range' 1 (dN - dPos1 - 1)).foldlM (fun p (i : Nat) => recAt i (i + dPos1) p) p
  let p ← (List.range' (dN - dPos1) dPos1).foldlM (fun p (i : Nat) => recAt i ((i : Int) + dPos1 - dN) p) p
  p.1.wr dN p.2

/-- The status seen as an array of 64-bit words, `&status[0].u[0]` or `&status[0].d[0]`. -/
def word64 (m : Mem) (k : Int) : Except Fault Word := do
  let w ← m.rd (k / 2)
  return if k % 2 = 0 then w.u0 else w.u1

/-- `dsfmt_genrand_close1_open2` (random_dsfmt.h 315-326): the word which is returned as a double. -/
def close1open2 (s : St) : Except Fault (Word × St) := do
  let s ← if s.idx ≥ dN64 then (do return (⟨← genAll s.status, 0⟩ : St)) else .ok s
  let r ← word64 s.status s.idx
  return (r, { s with idx := s.idx + 1 })

/-- The number a 64-bit word stands for by IEEE 754, nothing for infinities and NaN. -/
def decode (w : Word) : Option ℚ :=
  let e : Nat := (w.toNat / 2 ^ 52) % 2 ^ 11
  let m : Nat := w.toNat % 2 ^ 52
  let sign : ℚ := if w.toNat / 2 ^ 63 = 0 then 1 else -1
  if e = 2047 then none
  else if e = 0 then some (sign * (m : ℚ) * (2 : ℚ) ^ (-1074 : Int))
  else some (sign * (1 + (m : ℚ) / 2 ^ 52) * (2 : ℚ) ^ ((e : Int) - 1023))

/-- `eqdist` (random.c 45) by `dsfmt_genrand_close_open` (random_dsfmt.h 360-363). -/
def eqdist (s : St) : Except Fault (Option ℚ × St) := do
  let (w, s) ← close1open2 s
  return ((decode w).map (· - 1), s)

/-! ## Initialisation (random_dsfmt.c 436-521, 683-760) -/

/-- `ini_func1`, `ini_func2` (lines 436-450). -/
def iniFunc1 (x : BitVec 32) : BitVec 32 := (x ^^^ (x >>> 27)) * 1664525#32
def iniFunc2 (x : BitVec 32) : BitVec 32 := (x ^^^ (x >>> 27)) * 1566083941#32

/-- `size`, `lag` and `mid` (lines 692, 699-708). -/
abbrev iSize : Nat := (dN + 1) * 4
def iLag : Nat := if iSize ≥ 623 then 11 else if iSize ≥ 68 then 7 else if iSize ≥ 39 then 5 else 3
def iMid : Nat := (iSize - iLag) / 2

/-- The status seen as an array of 32-bit words. -/
abbrev Mem32 := Arr iSize (BitVec 32)

/-- The body of the first two loops (lines 724-741): `add` is what is added to `r` besides `i`. -/
def mix1 (add : BitVec 32) (p : Mem32 × Nat) : Except Fault (Mem32 × Nat) := do
  let (m, i) := p
  let x ← m.rd i
  let y ← m.rd ↑((i + iMid) % iSize)
  let z ← m.rd ↑((i + iSize - 1) % iSize)
  let r := iniFunc1 (x ^^^ y ^^^ z)
  let m ← m.wr ↑((i + iMid) % iSize) (y + r)
  let r := r + (add + BitVec.ofNat 32 i)
  let t ← m.rd ↑((i + iMid + iLag) % iSize)
  let m ← m.wr ↑((i + iMid + iLag) % iSize) (t + r)
  let m ← m.wr i r
  return (m, (i + 1) % iSize)

/-- The body of the third loop (lines 742-750). -/
def mix2 (p : Mem32 × Nat) : Except Fault (Mem32 × Nat) := do
  let (m, i) := p
  let x ← m.rd i
  let y ← m.rd ↑((i + iMid) % iSize)
  let z ← m.rd ↑((i + iSize - 1) % iSize)
  let r := iniFunc2 (x + y + z)
  let m ← m.wr ↑((i + iMid) % iSize) (y ^^^ r)
  let r := r - BitVec.ofNat 32 i
  let t ← m.rd ↑((i + iMid + iLag) % iSize)
  let m ← m.wr ↑((i + iMid + iLag) % iSize) (t ^^^ r)
  let m ← m.wr i r
  return (m, (i + 1) % iSize)

/-- The lines before the loops (717-723). -/
def mix0 (len : Nat) (m : Mem32) : Except Fault Mem32 := do
  let x ← m.rd 0
  let y ← m.rd ↑(iMid % iSize)
  let z ← m.rd ↑((iSize - 1) % iSize)
  let r := iniFunc1 (x ^^^ y ^^^ z)
  let m ← m.wr ↑(iMid % iSize) (y + r)
  let r := r + BitVec.ofNat 32 len
  let t ← m.rd ↑((iMid + iLag) % iSize)
  let m ← m.wr ↑((iMid + iLag) % iSize) (t + r)
  m.wr 0 r

/-- 128-bit entry `k` of the status out of its four 32-bit words. -/
def assemble (m : Mem32) : Mem := fun k =>
  ⟨m ⟨4 * k + 1, by unfold iSize; omega⟩ ++ m ⟨4 * k, by unfold iSize; omega⟩,
    m ⟨4 * k + 3, by unfold iSize; omega⟩ ++ m ⟨4 * k + 2, by unfold iSize; omega⟩⟩

/-- `initial_mask` (lines 457-466): the first `2 * DSFMT_N` words. -/
def initialMask (m : Mem) : Mem := fun k =>
  if k.val < dN then ⟨(m k).u0 &&& lowMask ||| highConst, (m k).u1 &&& lowMask ||| highConst⟩ else m k

/-- The sum of the bits of `inner` modulo 2 as computed in lines 485-490. -/
def fold6 (x : Word) : Word :=
  let x := x ^^^ (x >>> 32)
  let x := x ^^^ (x >>> 16)
  let x := x ^^^ (x >>> 8)
  let x := x ^^^ (x >>> 4)
  let x := x ^^^ (x >>> 2)
  let x := x ^^^ (x >>> 1)
  x &&& 1

/-- `period_certification` (lines 472-512); DSFMT_PCV2 is odd. -/
def certify (m : Mem) : Except Fault Mem := do
  let w ← m.rd dN
  let inner := fold6 (((w.u0 ^^^ fix1) &&& pcv1) ^^^ ((w.u1 ^^^ fix2) &&& pcv2))
  if inner = 1 then return m
  else m.wr dN ⟨w.u0, w.u1 ^^^ 1⟩

/-- `dsfmt_chk_init_by_array` (lines 683-760) for the key `key`; the check of the Mersenne exponent compares the same constant. -/
def initByArray (key : List (BitVec 32)) : Except Fault St := do
  let m : Mem32 := fun _ => 0x8b8b8b8b#32
  let count := (if key.length + 1 > iSize then key.length + 1 else iSize) - 1
  let m ← mix0 key.length m
  let p ← (key.take count).foldlM (fun p k => mix1 k p) (m, 1)
  let p ← (List.range (count - key.length)).foldlM (fun p _ => mix1 0 p) p
  let p ← (List.range iSize).foldlM (fun p _ => mix2 p) p
  let m ← certify (initialMask (assemble p.1))
  return ⟨m, dN64⟩

/-- `n` numbers are drawn and thrown away. -/
def discard : Nat → St → Except Fault St
  | 0, s => .ok s
  | n + 1, s => do
    let (_, s) ← eqdist s
    discard n s

/-- ARRAY_SIZE (random.c 53). -/
abbrev arraySize : Nat := 624

/-- `init_rng` (random.c 55-71); `rand` are the 624 words delivered by the C library. -/
def initRng (rand : Fin arraySize → BitVec 32) : Except Fault St := do
  let s ← initByArray (List.ofFn rand)
  discard 1000000 s

/-- The number drawn after `n` others since the start of the program. -/
def stream (rand : Fin arraySize → BitVec 32) (n : Nat) : Except Fault (Option ℚ) := do
  let s ← initRng rand
  let s ← discard n s
  return (← eqdist s).1

/-- The state of the generator without `init_rng`: a global variable, filled with zeros (random.c 35). -/
def zeroSt : St := ⟨fun _ => ⟨0, 0⟩, 0⟩

end Verif.Dsfmt
