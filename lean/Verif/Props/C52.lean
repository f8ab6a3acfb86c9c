/-
C52  Tabulated potentials survive reading and writing.
-/
import Verif.Lemmas.PotFile
import Mathlib.Algebra.Order.Ring.Rat
import Mathlib.Algebra.Field.Rat
import Mathlib.Tactic.LinearCombination

namespace Verif.Props

open Verif.PotFile Verif.TableRead

set_option linter.unusedSectionVars false

variable {K : Type} [Field K] [LinearOrder K]

/-! ### Specification: a table as its author sees it -/

/-- One function: range, slopes, sampling points and values. -/
structure Column (K : Type) where
  beg : K
  fin : K
  g0 : K
  g1 : K
  xs : List K
  ys : List K

/-- The body of a file of format 3: first the ranges and numbers of points of all functions, then slopes and values. -/
def body3 (cols : List (Column K)) : List (Tok K) :=
  cols.flatMap (fun c => [.num c.beg, .num c.fin, .int c.ys.length]) ++
  cols.flatMap (fun c => [.num c.g0, .num c.g1] ++ c.ys.map .num)

/-- The body of a file of format 4: first the numbers of points, then slopes and pairs of abscissa and value. -/
def body4 (cols : List (Column K)) : List (Tok K) :=
  cols.flatMap (fun c => [.int c.ys.length]) ++
  cols.flatMap (fun c => [.num c.g0, .num c.g1] ++ (c.xs.zip c.ys).flatMap fun p => [.num p.1, .num p.2])

/-- The table holds the function `c` as its column `i`. -/
def Holds (s : State K) (i : Nat) (c : Column K) (xs : List K) : Prop :=
  s.beg[i]? = some c.beg ∧ s.fin[i]? = some c.fin ∧ s.step[i]? = some ((c.fin - c.beg) / ((c.ys.length : K) - 1)) ∧
  ∃ first, s.first[i]? = some (first + 2) ∧ s.last[i]? = some (first + 1 + c.ys.length) ∧
    s.table[first]? = some c.g0 ∧ s.table[first + 1]? = some c.g1 ∧
    (∀ j y, c.ys[j]? = some y → s.table[first + 2 + j]? = some y) ∧
    (∀ j x, xs[j]? = some x → s.xcoord[first + 2 + j]? = some x)

/-- Equidistant points. -/
def equidistant (c : Column K) : List K :=
  (List.range c.ys.length).map fun j : Nat => c.beg + (j : K) * ((c.fin - c.beg) / ((c.ys.length : K) - 1))

/-! ### Reading -/

theorem flatMap_get {α β : Type} (l : List α) (f : α → List β) (i k : Nat) (c : α) (y : β) (hc : l[i]? = some c)
    (hy : (f c)[k]? = some y) : (l.flatMap f)[((l.take i).map fun c => (f c).length).sum + k]? = some y := by
  induction l generalizing i with
  | nil => simp at hc
  | cons a l ih =>
    cases i with
    | zero =>
      simp only [List.getElem?_cons_zero, Option.some.injEq] at hc
      subst hc
      simp only [List.take_zero, List.map_nil, List.sum_nil, Nat.zero_add, List.flatMap_cons]
      have hk : k < (f a).length := (List.getElem?_eq_some_iff.1 hy).1
      rw [List.getElem?_append_left hk, hy]
    | succ i =>
      simp only [List.getElem?_cons_succ] at hc
      simp only [List.take_succ_cons, List.map_cons, List.sum_cons, List.flatMap_cons, Nat.add_assoc]
      rw [List.getElem?_append_right (by omega), Nat.add_sub_cancel_left]
      exact ih i hc

theorem readInfo3_cols (cols : List (Column K)) (rest : List (Tok K)) (h : ∀ c ∈ cols, (c.ys.length : K) - 1 ≠ 0) :
    readInfo3 cols.length (cols.flatMap (fun c => [Tok.num c.beg, .num c.fin, .int c.ys.length]) ++ rest) =
      .ok (cols.map fun c => (c.beg, c.fin, c.ys.length, (c.fin - c.beg) / ((c.ys.length : K) - 1)), rest) := by
  induction cols with
  | nil => rfl
  | cons c cols ih =>
    simp only [List.flatMap_cons, List.cons_append, List.nil_append, List.length_cons, readInfo3, bind, Except.bind, getNum, getInt]
    rw [if_neg (h c (by simp)), ih fun c hc => h c (by simp [hc])]
    rfl

theorem readData3_cols (ks : List (Kind K)) (cols : List (Column K)) (rest : List (Tok K)) (hl : ks.length = cols.length)
    (hg : ∀ (i : Nat) (k : Kind K) (c : Column K), ks[i]? = some k → cols[i]? = some c → k.gauge = true → c.beg ≤ 1 ∧ 1 ≤ c.fin) :
    readData3 true ks (cols.map fun c => (c.beg, c.fin, c.ys.length, (c.fin - c.beg) / ((c.ys.length : K) - 1)))
      (cols.flatMap (fun c => [Tok.num c.g0, .num c.g1] ++ c.ys.map .num) ++ rest) =
      .ok (cols.flatMap (fun c => c.g0 :: c.g1 :: c.ys), cols.flatMap (fun c => 0 :: 0 :: equidistant c)) := by
  induction cols generalizing ks with
  | nil =>
    cases ks with
    | nil => rfl
    | cons k ks => simp at hl
  | cons c cols ih =>
    cases ks with
    | nil => simp at hl
    | cons k ks =>
      simp only [List.length_cons, Nat.succ.injEq] at hl
      simp only [List.map_cons, readData3]
      rw [if_neg]
      · simp only [List.flatMap_cons, List.cons_append, List.nil_append, List.append_assoc, readSlopes, if_true, bind, Except.bind,
          getNum]
        rw [readVals_of]
        simp only
        have := ih ks hl fun i k c hk hc => hg (i + 1) k c (by simpa using hk) (by simpa using hc)
        simp only [List.cons_append, List.nil_append] at this
        rw [this]
        rfl
      · rintro ⟨h1, h2⟩
        have := hg 0 k c rfl rfl h1
        rcases h2 with h2 | h2
        · exact absurd this.1 (not_le.2 h2)
        · exact absurd this.2 (not_le.2 h2)

theorem layout_cols (cols : List (Column K)) (i : Nat) (c : Column K) (hc : cols[i]? = some c) (hn : ∀ c ∈ cols, 2 ≤ c.ys.length) :
    (layout (sized (cols.map fun c => c.ys.length)))[i]? =
      some (((cols.take i).map fun c => c.ys.length + 2).sum + 2,
        ((cols.take i).map fun c => c.ys.length + 2).sum + 1 + c.ys.length) := by
  have hb : blockStart (sized (cols.map fun c => c.ys.length)) i = ((cols.take i).map fun c => c.ys.length + 2).sum := by
    unfold blockStart sized
    rw [List.map_map, ← List.map_take, List.map_map]
    rfl
  have := layoutFrom_get (sized (cols.map fun c => c.ys.length)) none i ⟨c.ys.length, false, 0, false, false⟩
    (by simp [sized, hc]) (by
      intro d hd
      simp only [sized, List.map_map, List.mem_map, Function.comp_apply] at hd
      obtain ⟨c, hc, rfl⟩ := hd
      have := hn c hc
      simp only
      omega)
  rw [layout, this, hb]
  have h2 := hn c (List.mem_of_getElem? hc)
  simp only [firstAfter, Option.some.injEq, Prod.mk.injEq]
  omega

theorem length_sub_one_ne [IsStrictOrderedRing K] (n : Nat) (h : 2 ≤ n) : (n : K) - 1 ≠ 0 := by
  intro hc
  have h1 : (n : K) = 1 := by linear_combination hc
  have : n = 1 := by exact_mod_cast h1
  omega

theorem kinds3_length (v : Variant) (rescale : Bool) (n : Nat) (hv : v ≠ .ang) :
    (kinds3 (K := K) rescale v n).length = npots v n := by
  cases v <;> simp [kinds3, npots] at hv ⊢ <;> omega

/-- **C52, reading format 3.** For every header with lines `#F 3` and `#G` and every list of functions (two or more points, density 1
in the range of embedding functions unless compiled with RESCALE) the file is accepted and every number of the file is stored
where it belongs. Not so for ANG, see `C52_ang_violated`. -/
theorem C52_read3 [IsStrictOrderedRing K] (v : Variant) (hv : v ≠ .ang) (rescale : Bool) (name : String) (ntypes : Nat)
    (hdr : List HLine) (h : Head)
    (hh : readHeader name ntypes (npots v ntypes) hdr = .ok h) (hf : h.fmt = some (3, npots v ntypes)) (hgr : h.haveGradient = true)
    (cols : List (Column K)) (hl : cols.length = npots v ntypes) (hn : ∀ c ∈ cols, 2 ≤ c.ys.length)
    (hg : ∀ (i : Nat) (k : Kind K) (c : Column K), (kinds3 rescale v ntypes)[i]? = some k → cols[i]? = some c → k.gauge = true → c.beg ≤ 1 ∧ 1 ≤ c.fin) :
    ∃ s, readPot v rescale name ntypes ⟨hdr, body3 cols⟩ = .ok s ∧ s.format = 3 ∧ s.gradient = h.gradient ∧ s.invar = h.invar ∧
      s.elements = h.elements ∧ ∀ i c, cols[i]? = some c → Holds s i c (equidistant c) := by
  have h1 := readInfo3_cols cols (cols.flatMap (fun c => [Tok.num c.g0, .num c.g1] ++ c.ys.map .num))
    (fun c hc => length_sub_one_ne _ (hn c hc))
  have h2 := readData3_cols (kinds3 rescale v ntypes) cols [] (by rw [kinds3_length v rescale ntypes hv, hl]) hg
  rw [hl] at h1
  rw [List.append_nil] at h2
  unfold readPot body3
  simp only [bind, Except.bind, hh, hf, if_true]
  rw [h1]
  simp only [hgr]
  rw [h2]
  refine ⟨_, rfl, rfl, rfl, rfl, rfl, ?_⟩
  intro i c hc
  have hmem := List.mem_of_getElem? hc
  have hlay := layout_cols cols i c hc hn
  simp only [List.map_map]
  refine ⟨by simp [hc], by simp [hc], by simp [hc], ((cols.take i).map fun c => c.ys.length + 2).sum, ?_, ?_, ?_⟩
  · rw [List.getElem?_map]
    erw [hlay]
    rfl
  · rw [List.getElem?_map]
    erw [hlay]
    rfl
  · have key : ∀ k y, (c.g0 :: c.g1 :: c.ys)[k]? = some y →
        (pad (tableLen (sized (cols.map fun c => c.ys.length))) (cols.flatMap fun c => c.g0 :: c.g1 :: c.ys))[
          ((cols.take i).map fun c => c.ys.length + 2).sum + k]? = some y := by
      intro k y hy
      have := flatMap_get cols (fun c => c.g0 :: c.g1 :: c.ys) i k c y hc hy
      simp only [List.length_cons] at this
      unfold pad
      rw [List.getElem?_append_left (List.getElem?_eq_some_iff.1 this).1]
      exact this
    have keyx : ∀ k y, ((0 : K) :: 0 :: equidistant c)[k]? = some y →
        (pad (tableLen (sized (cols.map fun c => c.ys.length))) (cols.flatMap fun c => (0 : K) :: 0 :: equidistant c))[
          ((cols.take i).map fun c => c.ys.length + 2).sum + k]? = some y := by
      intro k y hy
      have := flatMap_get cols (fun c => (0 : K) :: 0 :: equidistant c) i k c y hc hy
      have e : (fun c : Column K => ((0 : K) :: 0 :: equidistant c).length) = fun c => c.ys.length + 2 := by
        funext c
        simp [equidistant]
      rw [e] at this
      unfold pad
      rw [List.getElem?_append_left (List.getElem?_eq_some_iff.1 this).1]
      exact this
    refine ⟨key 0 _ rfl, key 1 _ rfl, fun j y hy => ?_, fun j x hx => ?_⟩
    · have := key (2 + j) y (by rw [Nat.add_comm 2 j]; simpa using hy)
      rw [← Nat.add_assoc] at this
      exact this
    · have := keyx (2 + j) x (by rw [Nat.add_comm 2 j]; simpa using hx)
      rw [← Nat.add_assoc] at this
      exact this

theorem kinds4_length (v : Variant) (rescale : Bool) (n : Nat) (hv : v = .pair ∨ v = .eam ∨ v = .adp) :
    (kinds4 (K := K) rescale v n).length = npots v n := by
  rcases hv with rfl | rfl | rfl <;> simp [kinds4, npots] <;> omega

theorem head_zip (c : Column K) (x : K) (xs : List K) (y : K) (ys : List K) (hx : c.xs = x :: xs) (hy : c.ys = y :: ys) :
    (c.xs.zip c.ys).head? = some (x, y) := by
  rw [hx, hy]
  rfl

theorem readData4_cols [IsStrictOrderedRing K] (ks : List (Kind K)) (cols : List (Column K)) (rest : List (Tok K))
    (hl : ks.length = cols.length)
    (hn : ∀ c ∈ cols, 2 ≤ c.ys.length ∧ c.xs.length = c.ys.length ∧ c.xs.head? = some c.beg ∧ c.xs.getLast? = some c.fin ∧
      Incr none c.xs)
    (hg : ∀ (i : Nat) (k : Kind K) (c : Column K), ks[i]? = some k → cols[i]? = some c → k.gauge = true → c.beg ≤ 1 ∧ 1 ≤ c.fin) :
    readData4 true ks (cols.map fun c => c.ys.length)
      (cols.flatMap (fun c => [Tok.num c.g0, .num c.g1] ++ (c.xs.zip c.ys).flatMap fun p => [.num p.1, .num p.2]) ++ rest) =
      .ok (cols.flatMap (fun c => c.g0 :: c.g1 :: c.ys), cols.flatMap (fun c => 0 :: 0 :: c.xs),
        cols.map fun c => (c.beg, c.fin, (c.fin - c.beg) / ((c.ys.length : K) - 1))) := by
  induction cols generalizing ks with
  | nil =>
    cases ks with
    | nil => rfl
    | cons k ks => simp at hl
  | cons c cols ih =>
    cases ks with
    | nil => simp at hl
    | cons k ks =>
      simp only [List.length_cons, Nat.succ.injEq] at hl
      obtain ⟨n1, n2, n3, n4, n5⟩ := hn c (by simp)
      simp only [List.map_cons, readData4]
      simp only [List.flatMap_cons, List.cons_append, List.nil_append, List.append_assoc, readSlopes, if_true, bind, Except.bind,
          getNum]
      have hz1 : (c.xs.zip c.ys).map Prod.fst = c.xs := List.map_fst_zip (by omega)
      have hz2 : (c.xs.zip c.ys).map Prod.snd = c.ys := List.map_snd_zip (by omega)
      have hlen : (c.xs.zip c.ys).length = c.ys.length := by simp [n2]
      have hp := readPoints_of (c.xs.zip c.ys) none (cols.flatMap (fun c => Tok.num c.g0 :: .num c.g1 ::
        (c.xs.zip c.ys).flatMap fun p => [.num p.1, .num p.2]) ++ rest) (by rw [hz1]; exact n5)
      rw [hlen] at hp
      unfold pts at hp
      rw [hp]
      have hh : ∃ p, (c.xs.zip c.ys).head? = some p ∧ p.1 = c.beg := by
        have : ((c.xs.zip c.ys).map Prod.fst).head? = some c.beg := by rw [hz1, n3]
        rw [List.head?_map] at this
        cases hq : (c.xs.zip c.ys).head? with
        | none => simp [hq] at this
        | some p => exact ⟨p, rfl, by simpa [hq] using this⟩
      have hlast : ∃ p, (c.xs.zip c.ys).getLast? = some p ∧ p.1 = c.fin := by
        have : ((c.xs.zip c.ys).map Prod.fst).getLast? = some c.fin := by rw [hz1, n4]
        rw [List.getLast?_map] at this
        cases hq : (c.xs.zip c.ys).getLast? with
        | none => simp [hq] at this
        | some p => exact ⟨p, rfl, by simpa [hq] using this⟩
      obtain ⟨p, hp1, hp2⟩ := hh
      obtain ⟨q, hq1, hq2⟩ := hlast
      simp only [hp1, hq1, hp2, hq2]
      rw [if_neg, if_neg (length_sub_one_ne _ n1)]
      · have := ih ks hl (fun c hc => hn c (by simp [hc])) fun i k c hk hc => hg (i + 1) k c (by simpa using hk) (by simpa using hc)
        simp only [List.cons_append, List.nil_append] at this
        rw [this]
        simp only [hz1, hz2]
      · rintro ⟨h1, h2⟩
        have := hg 0 k c rfl rfl h1
        rcases h2 with h2 | h2
        · exact absurd this.1 (not_le.2 h2)
        · exact absurd this.2 (not_le.2 h2)

/-- **C52, reading format 4**, for pair potentials, EAM and ADP. Not so for TBEAM, MEAM and ANG, see below. -/
theorem C52_read4_partial [IsStrictOrderedRing K] (v : Variant) (hv : v = .pair ∨ v = .eam ∨ v = .adp) (rescale : Bool) (name : String)
    (ntypes : Nat) (hdr : List HLine) (h : Head)
    (hh : readHeader name ntypes (npots v ntypes) hdr = .ok h) (hf : h.fmt = some (4, npots v ntypes)) (hgr : h.haveGradient = true)
    (cols : List (Column K)) (hl : cols.length = npots v ntypes)
    (hn : ∀ c ∈ cols, 2 ≤ c.ys.length ∧ c.xs.length = c.ys.length ∧ c.xs.head? = some c.beg ∧ c.xs.getLast? = some c.fin ∧
      Incr none c.xs)
    (hg : ∀ (i : Nat) (k : Kind K) (c : Column K), (kinds4 rescale v ntypes)[i]? = some k → cols[i]? = some c → k.gauge = true → c.beg ≤ 1 ∧ 1 ≤ c.fin) :
    ∃ s, readPot v rescale name ntypes ⟨hdr, body4 cols⟩ = .ok s ∧ s.format = 4 ∧ s.gradient = h.gradient ∧ s.invar = h.invar ∧
      s.elements = h.elements ∧ ∀ i c, cols[i]? = some c → Holds s i c c.xs := by
  have h1 := readInfo4_of (cols.map fun c => c.ys.length) (cols.flatMap (fun c => [Tok.num c.g0, .num c.g1] ++
    (c.xs.zip c.ys).flatMap fun p => [.num p.1, .num p.2]))
  have h2 := readData4_cols (kinds4 rescale v ntypes) cols [] (by rw [kinds4_length v rescale ntypes hv, hl]) hn hg
  rw [List.length_map, hl, List.flatMap_map] at h1
  rw [List.append_nil] at h2
  unfold readPot body4
  simp only [bind, Except.bind, hh, hf]
  rw [if_neg (by decide), h1]
  simp only [hgr]
  rw [h2]
  refine ⟨_, rfl, rfl, rfl, rfl, rfl, ?_⟩
  intro i c hc
  have hmem := List.mem_of_getElem? hc
  have hlay := layout_cols cols i c hc (fun c hc => (hn c hc).1)
  have hpad : ∀ (f : Column K → K), (pad (npots v ntypes) (cols.map f))[i]? = some (f c) := by
    intro f
    unfold pad
    rw [List.getElem?_append_left (by rw [List.length_map]; exact (List.getElem?_eq_some_iff.1 hc).1)]
    simp [hc]
  simp only [List.map_map]
  refine ⟨hpad _, hpad _, hpad _, ((cols.take i).map fun c => c.ys.length + 2).sum, ?_, ?_, ?_⟩
  · rw [List.getElem?_map]
    erw [hlay]
    rfl
  · rw [List.getElem?_map]
    erw [hlay]
    rfl
  · have key : ∀ k y, (c.g0 :: c.g1 :: c.ys)[k]? = some y →
        (pad (tableLen (sized (cols.map fun c => c.ys.length))) (cols.flatMap fun c => c.g0 :: c.g1 :: c.ys))[
          ((cols.take i).map fun c => c.ys.length + 2).sum + k]? = some y := by
      intro k y hy
      have := flatMap_get cols (fun c => c.g0 :: c.g1 :: c.ys) i k c y hc hy
      simp only [List.length_cons] at this
      unfold pad
      rw [List.getElem?_append_left (List.getElem?_eq_some_iff.1 this).1]
      exact this
    have keyx : ∀ k y, ((0 : K) :: 0 :: c.xs)[k]? = some y →
        (pad (tableLen (sized (cols.map fun c => c.ys.length))) (cols.flatMap fun c => (0 : K) :: 0 :: c.xs))[
          ((cols.take i).map fun c => c.ys.length + 2).sum + k]? = some y := by
      intro k y hy
      have := flatMap_get cols (fun c => (0 : K) :: 0 :: c.xs) i k c y hc hy
      have e : ((cols.take i).map fun c : Column K => ((0 : K) :: 0 :: c.xs).length) = (cols.take i).map fun c => c.ys.length + 2 := by
        refine List.map_congr_left fun c hc => ?_
        simp [(hn c (List.mem_of_mem_take hc)).2.1]
      rw [e] at this
      unfold pad
      rw [List.getElem?_append_left (List.getElem?_eq_some_iff.1 this).1]
      exact this
    refine ⟨key 0 _ rfl, key 1 _ rfl, fun j y hy => ?_, fun j x hx => ?_⟩
    · have := key (2 + j) y (by rw [Nat.add_comm 2 j]; simpa using hy)
      rw [← Nat.add_assoc] at this
      exact this
    · have := keyx (2 + j) x (by rw [Nat.add_comm 2 j]; simpa using hx)
      rw [← Nat.add_assoc] at this
      exact this

/-! ### Writing and reading again -/

/-- **C52, writing and reading again.** Whatever file was read (line `#F` once, flags of `#I` zero or one), the file written by the
writer of the same format is accepted and gives the same state: table, slopes, points, ranges, free entries, header. -/
theorem C52_roundtrip (v : Variant) (rescale : Bool) (name : String) (ntypes : Nat) (f : File K) (s : State K)
    (hF : f.header.countP isF ≤ 1) (hI : ∀ l ∈ f.header, goodI l) (h : readPot v rescale name ntypes f = .ok s) :
    readPot v rescale name ntypes (if s.format = 3 then write3 name s else write4 name s) = .ok s := by
  unfold readPot at h
  simp only [bind, Except.bind] at h
  cases h1 : readHeader name ntypes (npots v ntypes) f.header with
  | error e => simp [h1] at h
  | ok hd =>
    simp only [h1] at h
    have hinv := foldlM_inv name ntypes (npots v ntypes) f.header ⟨none, none, [], [], false, false⟩ hd
      ⟨fun _ => ⟨rfl, rfl⟩, fun _ _ h => by simp at h⟩ hI (by simpa using hF) h1
    cases hfm : hd.fmt with
    | none => simp [hfm] at h
    | some p =>
      obtain ⟨fmt, n⟩ := p
      obtain ⟨b1, b2, b3, b4, b5, b6, b7⟩ := hinv.2 fmt n hfm
      simp only [hfm] at h
      by_cases h3 : fmt = 3
      · rw [if_pos h3] at h
        cases h4 : readInfo3 n f.body with
        | error e => simp [h4] at h
        | ok r4 =>
          obtain ⟨info, ts⟩ := r4
          simp only [h4] at h
          cases h5 : readData3 hd.haveGradient (kinds3 rescale v ntypes) info ts with
          | error e => simp [h5] at h
          | ok r5 =>
            obtain ⟨t, x⟩ := r5
            simp only [h5] at h
            have hs := Except.ok.inj h
            have hlen : ((layout (sized (info.map fun i => i.2.2.1))).map Prod.fst).length = n := by
              rw [layout_length, List.length_map, (readInfo3_write n f.body [] info ts h4).2.1]
            have hfirst : s.first.length = npots v ntypes := by
              rw [← hs]
              simp only
              rw [hlen, b1]
            have hheader := readHeader_write name ntypes (npots v ntypes) 3 (Or.inl rfl) s hfirst
              (by rw [← hs]; exact b3) (by rw [← hs]; exact b4) (by rw [← hs]; exact b5) (by rw [← hs]; exact b6)
              (by rw [← hs]; exact b7)
            have hbody : (write3 name s).body = info.flatMap info3 ++ toks3 (info.map fun i => i.2.2.1) s.table := by
              unfold write3
              simp only
              rw [← hs]
              simp only
              rw [layout_length]
              unfold layout
              rw [layout_lengths (info.map fun i => i.2.2.1) none fun i m =>
                [Tok.num ((info.map fun x => x.1).getD i 0), .num ((info.map fun x => x.2.1).getD i 0), .int m], layout_toks3]
              congr 1
              rw [List.length_map]
              have : ∀ i, [Tok.num ((info.map fun x => x.1).getD i 0), .num ((info.map fun x => x.2.1).getD i 0),
                  .int ((info.map fun i => i.2.2.1).getD i 0)] = info3 (info.getD i (0, 0, 0, 0)) := by
                intro i
                simp only [info3, List.getD_eq_getElem?_getD, List.getElem?_map]
                cases info[i]? <;> rfl
              simp only [this]
              exact range_flatMap_getD info _ info3
            have hformat : s.format = 3 := by rw [← hs]
            rw [if_pos hformat]
            unfold readPot
            simp only [bind, Except.bind, hbody]
            rw [show (write3 name s).header = writeHeader name 3 s from rfl, hheader]
            simp only [if_true]
            rw [← b1, (readInfo3_write n f.body _ info ts h4).1]
            simp only
            have htab : s.table = t ++ List.replicate (tableLen (sized (info.map fun i => i.2.2.1)) - t.length) 0 := by
              rw [← hs]
              rfl
            have := readData3_write hd.haveGradient (kinds3 rescale v ntypes) info ts [] t x
              (List.replicate (tableLen (sized (info.map fun i => i.2.2.1)) - t.length) 0) h5
            rw [List.append_nil, ← htab] at this
            rw [this]
            simp only
            rw [← hs]
      · rw [if_neg h3] at h
        have h40 : fmt = 4 := by tauto
        cases h4 : readInfo4 n f.body with
        | error e => simp [h4] at h
        | ok r4 =>
          obtain ⟨ns, ts⟩ := r4
          simp only [h4] at h
          cases h5 : readData4 hd.haveGradient (kinds4 rescale v ntypes) ns ts with
          | error e => simp [h5] at h
          | ok r5 =>
            obtain ⟨t, x, info⟩ := r5
            simp only [h5] at h
            have hs := Except.ok.inj h
            have hnl := (readInfo4_write n f.body [] ns ts h4).2
            have hlen : ((layout (sized ns)).map Prod.fst).length = n := by
              rw [layout_length, hnl]
            have hfirst : s.first.length = npots v ntypes := by
              rw [← hs]
              simp only
              rw [hlen, b1]
            have hheader := readHeader_write name ntypes (npots v ntypes) 4 (Or.inr rfl) s hfirst
              (by rw [← hs]; exact b3) (by rw [← hs]; exact b4) (by rw [← hs]; exact b5) (by rw [← hs]; exact b6)
              (by rw [← hs]; exact b7)
            have hbody : (write4 name s).body = ns.flatMap (fun m => [Tok.int m]) ++ toks4 ns s.table s.xcoord := by
              unfold write4
              simp only
              rw [← hs]
              simp only
              rw [layout_length]
              unfold layout
              rw [layout_lengths ns none fun i m => [Tok.int m], layout_toks4]
              congr 1
              exact range_flatMap_getD ns 0 fun m => [Tok.int m]
            have hformat : s.format = 4 := by rw [← hs]
            rw [if_neg (by rw [hformat]; decide)]
            unfold readPot
            simp only [bind, Except.bind, hbody]
            rw [show (write4 name s).header = writeHeader name 4 s from rfl, hheader]
            simp only
            rw [if_neg (by decide), ← b1, (readInfo4_write n f.body _ ns ts h4).1]
            simp only
            have htab : s.table = t ++ List.replicate (tableLen (sized ns) - t.length) 0 := by
              rw [← hs]
              rfl
            have hx : s.xcoord = x ++ List.replicate (tableLen (sized ns) - x.length) 0 := by
              rw [← hs]
              rfl
            have := readData4_write hd.haveGradient (kinds4 rescale v ntypes) ns ts [] t x
              (List.replicate (tableLen (sized ns) - t.length) 0) (List.replicate (tableLen (sized ns) - x.length) 0) info h5
            rw [List.append_nil, ← htab, ← hx] at this
            rw [this]
            simp only
            rw [← hs]

/-! ### Examples -/

/-- An EAM table for one type: pair function, transfer function and embedding function. -/
def eamFile : File ℚ :=
  ⟨[.F 3 3, .T "eam", .C ["Al"], .I [0, 1, 0], .G [2, 0, 3], .comment],
   body3 [⟨1, 5, 7, 0, [], [8, 9, 0]⟩, ⟨1, 5, 1, 0, [], [3, 0]⟩, ⟨0, 2, 4, 5, [], [0, 6]⟩]⟩

/-- The hypotheses of `C52_roundtrip` and `C52_read3` are met by this file. -/
example : ∃ s, readPot .eam false "eam" 1 eamFile = .ok s ∧
    Holds s 2 ⟨0, 2, 4, 5, [], [0, 6]⟩ [0, 2] ∧ readPot .eam false "eam" 1 (write3 "eam" s) = .ok s := by
  obtain ⟨s, h1, h2, -, -, -, h3⟩ := C52_read3 (K := ℚ) .eam (by decide) false "eam" 1 eamFile.header
    ⟨some (3, 3), some ["Al"], [2, 0, 3], [0, 1, 0], true, true⟩ rfl rfl rfl
    [⟨1, 5, 7, 0, [], [8, 9, 0]⟩, ⟨1, 5, 1, 0, [], [3, 0]⟩, ⟨0, 2, 4, 5, [], [0, 6]⟩] rfl (by decide) (by
      intro i k c hk hc hg
      match i with
      | 0 | 1 =>
        simp only [kinds3, paircol, List.replicate, List.cons_append, List.nil_append, List.getElem?_cons_zero,
          List.getElem?_cons_succ, Option.some.injEq] at hk
        subst hk
        simp [kPair] at hg
      | 2 =>
        simp only [List.getElem?_cons_zero, List.getElem?_cons_succ, Option.some.injEq] at hc
        subst hc
        decide +kernel
      | i + 3 => simp at hc)
  have h4 := h3 2 _ rfl
  have h5 := C52_roundtrip .eam false "eam" 1 _ s (by decide) (by
    intro l hl
    simp only [eamFile, List.mem_cons, List.not_mem_nil, or_false] at hl
    rcases hl with rfl | rfl | rfl | rfl | rfl | rfl <;> simp [goodI]) h1
  rw [if_pos h2] at h5
  have e : equidistant (⟨0, 2, 4, 5, [], [0, 6]⟩ : Column ℚ) = [0, 2] := by decide +kernel
  rw [e] at h4
  exact ⟨s, h1, h4, h5⟩

/-- A file of format 4 with pairs of abscissa and value. -/
example : (match readPot (K := ℚ) .pair false "pair" 1 ⟨[.F 4 1, .G [0]], body4 [⟨1, 5, 7, 0, [1, 2, 5], [8, 9, 0]⟩]⟩ with
    | .ok s => decide (s.table = [7, 0, 8, 9, 0]) && decide (s.xcoord = [0, 0, 1, 2, 5]) && decide (s.idx = [2, 3]) &&
        decide (s.step = [2])
    | .error _ => false) = true := by decide +kernel

/-! ### Where the claim fails -/

/-- **C52 is violated by ANG**, for which tables may be chosen: only the pair functions are read, the other functions are zero. -/
theorem C52_ang_violated :
    (match readPot (K := ℚ) .ang false "ang" 1 ⟨[.F 3 3, .G [0, 0, 0]],
        body3 [⟨1, 5, 7, 0, [], [8, 0]⟩, ⟨1, 5, 1, 0, [], [3, 0]⟩, ⟨-1, 1, 4, 5, [], [2, 6]⟩]⟩ with
    | .ok s => decide (s.table = [7, 0, 8, 0, 0, 0, 0, 0, 0, 0, 0, 0]) && decide (s.idx = [2])
    | .error _ => false) = true := by decide +kernel

/-- **C52 is violated by MEAM in format 4**: only the pair functions are read. -/
theorem C52_meam_violated :
    (match readPot (K := ℚ) .meam false "meam" 1 ⟨[.F 4 5, .G [0, 0, 0, 0, 0]],
        body4 (List.replicate 5 ⟨0, 5, 7, 0, [0, 5], [8, 0]⟩)⟩ with
    | .ok s => decide (s.table = [7, 0, 8, 0] ++ List.replicate 16 0) && decide (s.idx = [2])
    | .error _ => false) = true := by decide +kernel

/-- **C52 is violated by TBEAM in format 4**: with two types the last function is not read; with one type the third function, the
embedding function of the d band, is taken for a transfer function and its last point is fixed, which is free in format 3; with
four types more columns are read than there are. -/
theorem C52_tbeam_violated :
    (match readPot (K := ℚ) .tbeam true "tbeam" 2 ⟨[.F 4 11, .G (List.replicate 11 0)],
        body4 (List.replicate 11 ⟨0, 5, 7, 0, [0, 5], [8, 9]⟩)⟩ with
    | .ok s => decide (s.table.drop 40 = [0, 0, 0, 0])
    | .error _ => false) = true ∧
    (match readPot (K := ℚ) .tbeam true "tbeam" 1 ⟨[.F 4 5, .G (List.replicate 5 0)],
        body4 (List.replicate 5 ⟨0, 5, 7, 0, [0, 5], [8, 9]⟩)⟩ with
    | .ok s => decide (s.idx = [2, 6, 10, 14, 15, 18, 19])
    | .error _ => false) = true ∧
    (match readPot (K := ℚ) .tbeam true "tbeam" 1 ⟨[.F 3 5, .G (List.replicate 5 0)],
        body3 (List.replicate 5 ⟨0, 5, 7, 0, [0, 5], [8, 9]⟩)⟩ with
    | .ok s => decide (s.idx = [2, 6, 10, 11, 14, 18, 19])
    | .error _ => false) = true ∧
    (match readPot (K := ℚ) .tbeam true "tbeam" 4 ⟨[.F 4 26, .G (List.replicate 26 0)],
        body4 (List.replicate 26 ⟨0, 5, 7, 0, [0, 5], [8, 9]⟩)⟩ with
    | .ok _ => false
    | .error e => decide (e = .outOfRange)) = true := by decide +kernel

/-- **C52, flags other than 0 and 1: violated.** A function with flag 2 in line `#I` is not optimised, but `#I` is not written, so that
it is optimised after writing and reading. -/
theorem C52_invar_violated :
    (match readPot (K := ℚ) .pair false "pair" 1 ⟨[.F 3 1, .I [2], .G [0]], body3 [⟨1, 5, 7, 0, [], [8, 9, 0]⟩]⟩ with
    | .ok s => decide (s.idx = []) &&
        (match readPot (K := ℚ) .pair false "pair" 1 (write3 "pair" s) with
        | .ok s' => decide (s'.idx = [2, 3])
        | .error _ => false)
    | .error _ => false) = true := by decide +kernel

end Verif.Props
