/-
C44  Potentials are written in the format they were read in.
-/
import Verif.Props.C52
import Mathlib.Tactic.FieldSimp
import Mathlib.Tactic.Positivity

namespace Verif.Props

open Verif.PotFile Verif.TableRead

set_option linter.unusedSectionVars false

/-- The number of a format in the line `#F`. -/
def formatNumber : Format → Option Nat
  | .analytic => some 0
  | .eqDist => some 3
  | .nonEqDist => some 4
  | .kim => some 5
  | .unknown => none

/-- **C44 for all formats but one.** The number in the file is that of the format; with an unknown format the program ends. Missing for
the full claim: format 3, see `C44_violated`. -/
theorem C44_partial (f : Format) (h : f ≠ .eqDist) : formatInFile (dispatch f) = formatNumber f := by
  cases f <;> first | rfl | exact absurd rfl h

example : formatInFile (dispatch .kim) = some 5 := C44_partial .kim (by decide)

/-- **C44 is violated for equidistant tables**: the file has format 4. -/
theorem C44_violated : formatInFile (dispatch .eqDist) ≠ formatNumber .eqDist := by decide

section
variable {K : Type} [Field K] [LinearOrder K]

/-- Every state read from a file of format 3 is written as a file whose first line is `#F 4`. -/
theorem C44_violated_always (name : String) (s : State K) (h : s.format = 3) :
    ∃ f n, writePot name s = some f ∧ f.header.head? = some (.F 4 n) := by
  refine ⟨write4 name s, s.first.length, ?_, rfl⟩
  unfold writePot
  rw [if_pos h]
  rfl

/-- Every state read from a file of format 4 is written in this format. -/
theorem C44_nonEqDist (name : String) (s : State K) (h : s.format = 4) :
    writePot name s = some (write4 name s) ∧ (write4 name s).header.head? = some (.F 4 s.first.length) := by
  refine ⟨?_, rfl⟩
  unfold writePot
  rw [if_neg (by rw [h]; decide)]
  rfl

/-! ### What the file describes -/

theorem incr_equidistant [IsStrictOrderedRing K] (b s : K) (hs : 0 < s) (m : Nat) (k : Nat) (prev : Option K)
    (hp : ∀ p ∈ prev, p < b + (k : K) * s) :
    Incr prev ((List.range m).map fun j : Nat => b + ((k + j : Nat) : K) * s) := by
  induction m generalizing k prev with
  | zero => trivial
  | succ m ih =>
    rw [List.range_succ_eq_map, List.map_cons, List.map_map]
    refine ⟨by simpa using hp, ?_⟩
    have := ih (k + 1) (some (b + ((k + 0 : Nat) : K) * s)) (by
      intro p hp
      have hp' : b + ((k + 0 : Nat) : K) * s = p := by simpa using hp
      rw [← hp']
      push_cast
      nlinarith)
    have e : ((fun j : Nat => b + ((k + j : Nat) : K) * s) ∘ Nat.succ) = fun j : Nat => b + ((k + 1 + j : Nat) : K) * s := by
      funext j
      simp only [Function.comp_apply]
      rw [show k + Nat.succ j = k + 1 + j by omega]
    rw [e]
    exact this

/-- The words of format 4 written for data read in format 3. -/
theorem readData3_to4 [IsStrictOrderedRing K] (hg : Bool) (ks ks4 : List (Kind K)) (info : List (K × K × Nat × K))
    (ts rest : List (Tok K)) (t x t' x' : List K)
    (hk : ks.map Kind.gauge = ks4.map Kind.gauge) (hl : ks.length = info.length)
    (hi : ∀ i ∈ info, 2 ≤ i.2.2.1 ∧ i.1 < i.2.1 ∧ i.2.2.2 = (i.2.1 - i.1) / ((i.2.2.1 : K) - 1))
    (h : readData3 hg ks info ts = .ok (t, x)) :
    readData4 true ks4 (info.map fun i => i.2.2.1) (toks4 (info.map fun i => i.2.2.1) (t ++ t') (x ++ x') ++ rest) =
      .ok (t, x, info.map fun i => (i.1, i.2.1, i.2.2.2)) := by
  induction ks generalizing ks4 info ts t x with
  | nil =>
    cases ks4 with
    | cons k ks4 => simp at hk
    | nil =>
      have : info = [] := by
        cases info with
        | nil => rfl
        | cons a l => simp at hl
      subst this
      simp only [readData3] at h
      obtain ⟨rfl, rfl⟩ := Prod.mk.inj (Except.ok.inj h)
      rfl
  | cons k ks ih =>
    cases ks4 with
    | nil => simp at hk
    | cons k4 ks4 =>
      simp only [List.map_cons, List.cons.injEq] at hk
      cases info with
      | nil => simp at hl
      | cons i info =>
        obtain ⟨b, e, m, s⟩ := i
        obtain ⟨i1, i2, i3⟩ := hi (b, e, m, s) (by simp)
        simp only at i1 i2 i3
        simp only [readData3] at h
        by_cases hgauge : k.gauge ∧ (1 < b ∨ e < 1)
        · simp [hgauge] at h
        · rw [if_neg hgauge] at h
          simp only [bind, Except.bind] at h
          cases h1 : readSlopes hg k ts with
          | error e => simp [h1] at h
          | ok r1 =>
            obtain ⟨⟨g0, g1⟩, ts1⟩ := r1
            simp only [h1] at h
            cases h2 : readVals m ts1 with
            | error e => simp [h2] at h
            | ok r2 =>
              obtain ⟨ys, ts2⟩ := r2
              simp only [h2] at h
              cases h3 : readData3 hg ks info ts2 with
              | error e => simp [h3] at h
              | ok r3 =>
                obtain ⟨u, w⟩ := r3
                simp only [h3] at h
                obtain ⟨rfl, rfl⟩ := Prod.mk.inj (Except.ok.inj h)
                have hm := readVals_len m ts1 ts2 ys h2
                have hrec := ih ks4 info ts2 u w hk.2 (by simpa using hl) (fun i hi' => hi i (by simp [hi'])) h3
                -- the points of this column
                have hm1 : (m : K) - 1 ≠ 0 := length_sub_one_ne m i1
                have hmpos : 0 < (m : K) - 1 := by
                  have : (2 : K) ≤ (m : K) := by exact_mod_cast i1
                  linarith
                have hspos : 0 < s := by
                  rw [i3]
                  exact div_pos (by linarith) hmpos
                have hz1 : ((((List.range m).map fun j : Nat => b + (j : K) * s).zip ys).map Prod.fst) =
                    (List.range m).map fun j : Nat => b + (j : K) * s := List.map_fst_zip (by simp [hm])
                have hz2 : ((((List.range m).map fun j : Nat => b + (j : K) * s).zip ys).map Prod.snd) = ys :=
                  List.map_snd_zip (by simp [hm])
                have hzl : ((((List.range m).map fun j : Nat => b + (j : K) * s).zip ys)).length = m := by simp [hm]
                generalize hps : (((List.range m).map fun j : Nat => b + (j : K) * s).zip ys) = ps at hz1 hz2 hzl
                have hinc : Incr none (ps.map Prod.fst) := by
                  rw [hz1]
                  have := incr_equidistant b s hspos m 0 none (by simp)
                  simpa using this
                have hhead : ∃ p, ps.head? = some p ∧ p.1 = b := by
                  have h0 : (ps.map Prod.fst).head? = some b := by
                    rw [hz1]
                    obtain ⟨m', rfl⟩ : ∃ m', m = m' + 1 := ⟨m - 1, by omega⟩
                    rw [List.range_succ_eq_map]
                    simp
                  rw [List.head?_map] at h0
                  cases hq : ps.head? with
                  | none => simp [hq] at h0
                  | some p => exact ⟨p, rfl, by simpa [hq] using h0⟩
                have hlast : ∃ p, ps.getLast? = some p ∧ p.1 = e := by
                  have h0 : (ps.map Prod.fst).getLast? = some e := by
                    rw [hz1]
                    obtain ⟨m', rfl⟩ : ∃ m', m = m' + 1 := ⟨m - 1, by omega⟩
                    rw [List.range_succ]
                    simp only [List.map_append, List.map_cons, List.map_nil, List.getLast?_concat, Option.some.injEq]
                    rw [i3]
                    push_cast at hm1 ⊢
                    rw [add_sub_cancel_right] at hm1 ⊢
                    field_simp
                    ring
                  rw [List.getLast?_map] at h0
                  cases hq : ps.getLast? with
                  | none => simp [hq] at h0
                  | some p => exact ⟨p, rfl, by simpa [hq] using h0⟩
                obtain ⟨p, hp1, hp2⟩ := hhead
                obtain ⟨q, hq1, hq2⟩ := hlast
                simp only [List.map_cons, toks4, List.cons_append, List.append_assoc, List.getD_cons_zero, List.getD_cons_succ,
                  readData4]
                have hr := range_flatMap_pts ps (u ++ t') (w ++ x') g0 g1 0 0
                rw [hz1, hz2, hzl] at hr
                rw [hr]
                simp only [readSlopes, getNum, if_true, bind, Except.bind, List.nil_append, List.append_assoc]
                have hrp := readPoints_of ps none
                  (toks4 (info.map fun i => i.2.2.1) ((g0 :: g1 :: (ys ++ (u ++ t'))).drop (m + 2))
                    (((0 : K) :: 0 :: ((List.range m).map (fun j : Nat => b + (j : K) * s) ++ (w ++ x'))).drop (m + 2)) ++ rest) hinc
                rw [hzl] at hrp
                rw [hrp]
                simp only [hp1, hq1, hp2, hq2]
                rw [if_neg (by rw [← hk.1]; exact hgauge), if_neg hm1]
                have e1 : (g0 :: g1 :: (ys ++ (u ++ t'))).drop (m + 2) = u ++ t' := by
                  simp [List.drop_append, ← hm]
                have e2 : ((0 : K) :: 0 :: ((List.range m).map (fun j : Nat => b + (j : K) * s) ++ (w ++ x'))).drop (m + 2) = w ++ x' := by
                  simp [List.drop_append]
                rw [e1, e2, hrec]
                simp only [hz1, hz2]
                rw [i3]

theorem kinds_gauge (v : Variant) (hv : v = .pair ∨ v = .eam ∨ v = .adp) (rescale : Bool) (n : Nat) :
    (kinds3 (K := K) rescale v n).map Kind.gauge = (kinds4 (K := K) rescale v n).map Kind.gauge := by
  rcases hv with rfl | rfl | rfl <;> simp [kinds3, kinds4, kPair, kEmb, kQuad]

/-- **What is kept nevertheless.** For pair potentials, EAM and ADP a table of format 3 with increasing abscissae and at least two points
per function, written by `write_pot_table_potfit` and read again, has the same functions: ranges, points, values and slopes. For MEAM it
has not, see `C44_meam_violated`. -/
theorem C44_content_partial [IsStrictOrderedRing K] (v : Variant) (hv : v = .pair ∨ v = .eam ∨ v = .adp) (rescale : Bool)
    (name : String) (ntypes : Nat)
    (f : File K) (s : State K) (hF : f.header.countP isF ≤ 1) (hI : ∀ l ∈ f.header, goodI l)
    (h : readPot v rescale name ntypes f = .ok s) (h3 : s.format = 3)
    (hinc : ∀ (i : Nat) (b e : K), s.beg[i]? = some b → s.fin[i]? = some e → b < e)
    (hpts : ∀ i a b : Nat, s.first[i]? = some a → s.last[i]? = some b → a < b) :
    ∃ g s', writePot name s = some g ∧ readPot v rescale name ntypes g = .ok s' ∧ s'.format = 4 ∧
      s'.beg = s.beg ∧ s'.fin = s.fin ∧ s'.step = s.step ∧ s'.first = s.first ∧ s'.last = s.last ∧ s'.len = s.len ∧
      s'.table = s.table ∧ s'.xcoord = s.xcoord ∧ s'.gradient = s.gradient ∧ s'.invar = s.invar ∧ s'.elements = s.elements := by
  refine ⟨write4 name s, ?_⟩
  unfold readPot at h
  simp only [bind, Except.bind] at h
  cases h1 : readHeader name ntypes (npots v ntypes) f.header with
  | error e => simp [h1] at h
  | ok hd =>
    simp only [h1] at h
    have hinv := foldlM_inv name ntypes (npots v ntypes) f.header ⟨none, none, [], [], false, false⟩ hd
      ⟨fun _ => ⟨rfl, rfl⟩, fun _ _ h => by simp at h⟩ hI (by simpa using hF) h1
    cases hfm : hd.fmt with
    | none => simp [hfm] at h
    | some p =>
      obtain ⟨fmt, n⟩ := p
      obtain ⟨b1, b2, b3, b4, b5, b6, b7⟩ := hinv.2 fmt n hfm
      simp only [hfm] at h
      by_cases hf3 : fmt = 3
      · rw [if_pos hf3] at h
        cases h4 : readInfo3 n f.body with
        | error e => simp [h4] at h
        | ok r4 =>
          obtain ⟨info, ts⟩ := r4
          simp only [h4] at h
          cases h5 : readData3 hd.haveGradient (kinds3 rescale v ntypes) info ts with
          | error e => simp [h5] at h
          | ok r5 =>
            obtain ⟨t, x⟩ := r5
            simp only [h5] at h
            have hs := Except.ok.inj h
            obtain ⟨-, hil, hstep⟩ := readInfo3_write n f.body [] info ts h4
            have hlen : ((layout (sized (info.map fun i => i.2.2.1))).map Prod.fst).length = n := by
              rw [layout_length, List.length_map, hil]
            have hfirst : s.first.length = npots v ntypes := by
              rw [← hs]
              simp only
              rw [hlen, b1]
            have hheader := readHeader_write name ntypes (npots v ntypes) 4 (Or.inr rfl) s hfirst
              (by rw [← hs]; exact b3) (by rw [← hs]; exact b4) (by rw [← hs]; exact b5) (by rw [← hs]; exact b6)
              (by rw [← hs]; exact b7)
            have hbody : (write4 name s).body =
                (info.map fun i => i.2.2.1).flatMap (fun m => [Tok.int m]) ++ toks4 (info.map fun i => i.2.2.1) s.table s.xcoord := by
              unfold write4
              simp only
              rw [← hs]
              simp only
              rw [layout_length]
              unfold layout
              rw [layout_lengths (info.map fun i => i.2.2.1) none fun i m => [Tok.int m], layout_toks4]
              congr 1
              exact range_flatMap_getD (info.map fun i => i.2.2.1) 0 fun m => [Tok.int m]
            have hcols : ∀ i ∈ info, 2 ≤ i.2.2.1 ∧ i.1 < i.2.1 ∧ i.2.2.2 = (i.2.1 - i.1) / ((i.2.2.1 : K) - 1) := by
              intro i hi
              obtain ⟨k, hk⟩ := List.getElem?_of_mem hi
              refine ⟨?_, ?_, (hstep i hi).2⟩
              · have hll : ∀ (ns : List Nat) (prev : Option Nat) (k m : Nat), ns[k]? = some m →
                    ∃ a b, ((layoutFrom prev (sized ns)).map Prod.fst)[k]? = some a ∧
                      ((layoutFrom prev (sized ns)).map Prod.snd)[k]? = some b ∧ b + 1 = a + m := by
                  intro ns
                  induction ns with
                  | nil => intro prev k m hk; simp at hk
                  | cons n0 ns ih =>
                    intro prev k m hk
                    cases k with
                    | zero =>
                      simp only [List.getElem?_cons_zero, Option.some.injEq] at hk
                      subst hk
                      have := two_le_firstAfter prev
                      exact ⟨firstAfter prev, firstAfter prev + n0 - 1, rfl, rfl, by omega⟩
                    | succ k =>
                      simp only [List.getElem?_cons_succ] at hk
                      obtain ⟨a, b, a1, a2, a3⟩ := ih (some (firstAfter prev + n0 - 1)) k m hk
                      exact ⟨a, b, by simpa [sized, layoutFrom] using a1, by simpa [sized, layoutFrom] using a2, a3⟩
                obtain ⟨a, b, a1, a2, a3⟩ := hll (info.map fun i => i.2.2.1) none k i.2.2.1 (by simp [hk])
                have := hpts k a b (by rw [← hs]; exact a1) (by rw [← hs]; exact a2)
                omega
              · exact hinc k i.1 i.2.1 (by rw [← hs]; simp [hk]) (by rw [← hs]; simp [hk])
            have htab : s.table = t ++ List.replicate (tableLen (sized (info.map fun i => i.2.2.1)) - t.length) 0 := by
              rw [← hs]
              rfl
            have hx : s.xcoord = x ++ List.replicate (tableLen (sized (info.map fun i => i.2.2.1)) - x.length) 0 := by
              rw [← hs]
              rfl
            have hkl : (kinds3 (K := K) rescale v ntypes).length = info.length := by
              rw [kinds3_length v rescale ntypes (by rcases hv with rfl | rfl | rfl <;> decide), hil, b1]
            have hdata := readData3_to4 hd.haveGradient (kinds3 rescale v ntypes) (kinds4 rescale v ntypes) info ts [] t x
              (List.replicate (tableLen (sized (info.map fun i => i.2.2.1)) - t.length) 0)
              (List.replicate (tableLen (sized (info.map fun i => i.2.2.1)) - x.length) 0) (kinds_gauge v hv rescale ntypes) hkl hcols h5
            rw [List.append_nil, ← htab, ← hx] at hdata
            have hinfo := readInfo4_of (info.map fun i => i.2.2.1) (toks4 (info.map fun i => i.2.2.1) s.table s.xcoord)
            rw [List.length_map, hil, b1] at hinfo
            have hwrite : writePot name s = some (write4 name s) := by
              unfold writePot
              rw [if_pos h3]
              rfl
            have hpad : ∀ l : List K, l.length = npots v ntypes → pad (npots v ntypes) l = l := by
              intro l hl
              unfold pad
              rw [hl, Nat.sub_self]
              simp
            unfold readPot
            simp only [bind, Except.bind, hbody]
            rw [show (write4 name s).header = writeHeader name 4 s from rfl, hheader]
            simp only
            rw [if_neg (by decide), hinfo]
            simp only
            rw [hdata]
            refine ⟨_, hwrite, rfl, rfl, ?_, ?_, ?_, ?_, ?_, ?_, ?_, ?_, rfl, rfl, rfl⟩
            · rw [← hs]
              simp only [List.map_map]
              exact hpad _ (by rw [List.length_map, hil, b1])
            · rw [← hs]
              simp only [List.map_map]
              exact hpad _ (by rw [List.length_map, hil, b1])
            · rw [← hs]
              simp only [List.map_map]
              exact hpad _ (by rw [List.length_map, hil, b1])
            · rw [← hs]
            · rw [← hs]
            · rw [← hs]
            · rw [← hs]
            · rw [← hs]
      · rw [if_neg hf3] at h
        cases h4 : readInfo4 n f.body with
        | error e => simp [h4] at h
        | ok r4 =>
          obtain ⟨ns, ts⟩ := r4
          simp only [h4] at h
          cases h5 : readData4 hd.haveGradient (kinds4 rescale v ntypes) ns ts with
          | error e => simp [h5] at h
          | ok r5 =>
            obtain ⟨t, x, info⟩ := r5
            simp only [h5] at h
            have hs := Except.ok.inj h
            rw [← hs] at h3
            simp at h3

end

/-- The hypotheses are met by the file of `C52`; the file written has format 4. -/
example : (match readPot .eam false "eam" 1 eamFile with
    | .ok s => decide (s.format = 3) && decide (s.beg = [1, 1, 0]) && decide (s.fin = [5, 5, 2]) && decide (s.first = [2, 7, 11]) &&
        decide (s.last = [4, 8, 12]) &&
        (match writePot "eam" s with
        | some g => decide (g.header.head? = some (.F 4 3)) &&
            (match readPot .eam false "eam" 1 g with
            | .ok s' => decide (s'.table = s.table) && decide (s'.format = 4)
            | .error _ => false)
        | none => false)
    | .error _ => false) = true := by decide +kernel

/-- **C44 is violated with loss of data by MEAM**: a table of format 3 is written in format 4, of which only the pair functions are read
again. -/
theorem C44_meam_violated :
    (match readPot (K := ℚ) .meam false "meam" 1 ⟨[.F 3 5, .G [0, 0, 0, 0, 0]],
        body3 (List.replicate 5 ⟨0, 5, 7, 0, [], [8, 9]⟩)⟩ with
    | .ok s =>
        (match writePot "meam" s with
        | some g =>
            (match readPot (K := ℚ) .meam false "meam" 1 g with
            | .ok s' => decide (s.table = [7, 0, 8, 9, 7, 0, 8, 9, 7, 0, 8, 9, 7, 0, 8, 9, 7, 0, 8, 9]) &&
                decide (s'.table = [7, 0, 8, 9] ++ List.replicate 16 0)
            | .error _ => false)
        | none => false)
    | .error _ => false) = true := by decide +kernel

end Verif.Props
