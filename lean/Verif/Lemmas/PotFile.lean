import Verif.Model.PotFile
import Verif.Lemmas.TableRead
import Mathlib.Tactic.Linarith
import Mathlib.Tactic.Ring

namespace Verif.PotFile

open Verif.TableRead

set_option linter.unusedSectionVars false

variable {K : Type} [Field K] [LinearOrder K]

/-! ### Words of a column -/

/-- Words of the information block of format 3. -/
def info3 (i : K × K × Nat × K) : List (Tok K) := [.num i.1, .num i.2.1, .int i.2.2.1]

theorem readInfo3_write (n : Nat) (ts rest : List (Tok K)) (info : List (K × K × Nat × K)) (ts' : List (Tok K))
    (h : readInfo3 n ts = .ok (info, ts')) : readInfo3 n (info.flatMap info3 ++ rest) = .ok (info, rest) ∧ info.length = n ∧
      ∀ i ∈ info, (i.2.2.1 : K) - 1 ≠ 0 ∧ i.2.2.2 = (i.2.1 - i.1) / ((i.2.2.1 : K) - 1) := by
  induction n generalizing ts info ts' with
  | zero =>
    simp only [readInfo3] at h
    obtain ⟨rfl, rfl⟩ := Prod.mk.inj (Except.ok.inj h)
    exact ⟨rfl, rfl, fun i hi => absurd hi (by simp)⟩
  | succ n ih =>
    simp only [readInfo3, bind, Except.bind] at h
    cases h1 : getNum ts with
    | error e => simp [h1] at h
    | ok r1 =>
      obtain ⟨b, ts1⟩ := r1
      simp only [h1] at h
      cases h2 : getNum ts1 with
      | error e => simp [h2] at h
      | ok r2 =>
        obtain ⟨e, ts2⟩ := r2
        simp only [h2] at h
        cases h3 : getInt ts2 with
        | error e => simp [h3] at h
        | ok r3 =>
          obtain ⟨m, ts3⟩ := r3
          simp only [h3] at h
          by_cases hm : (m : K) - 1 = 0
          · simp [hm] at h
          · rw [if_neg hm] at h
            cases h4 : readInfo3 n ts3 with
            | error e => simp [h4] at h
            | ok r4 =>
              obtain ⟨l, ts4⟩ := r4
              simp only [h4] at h
              obtain ⟨rfl, rfl⟩ := Prod.mk.inj (Except.ok.inj h)
              obtain ⟨a1, a2, a3⟩ := ih ts3 l ts4 h4
              refine ⟨?_, by simp [a2], ?_⟩
              · simp only [List.flatMap_cons, info3, List.cons_append, List.nil_append, readInfo3, bind, Except.bind, getNum,
                  getInt]
                rw [if_neg hm]
                rw [a1]
              · intro i hi
                rcases List.mem_cons.1 hi with rfl | hi
                · exact ⟨hm, rfl⟩
                · exact a3 i hi

theorem readInfo4_write (n : Nat) (ts rest : List (Tok K)) (ns : List Nat) (ts' : List (Tok K))
    (h : readInfo4 n ts = .ok (ns, ts')) : readInfo4 n (ns.flatMap (fun m => [Tok.int m]) ++ rest) = .ok (ns, rest) ∧
      ns.length = n := by
  induction n generalizing ts ns ts' with
  | zero =>
    simp only [readInfo4] at h
    obtain ⟨rfl, rfl⟩ := Prod.mk.inj (Except.ok.inj h)
    exact ⟨rfl, rfl⟩
  | succ n ih =>
    simp only [readInfo4, bind, Except.bind] at h
    cases h3 : getInt ts with
    | error e => simp [h3] at h
    | ok r3 =>
      obtain ⟨m, ts3⟩ := r3
      simp only [h3] at h
      cases h4 : readInfo4 n ts3 with
      | error e => simp [h4] at h
      | ok r4 =>
        obtain ⟨l, ts4⟩ := r4
        simp only [h4] at h
        obtain ⟨rfl, rfl⟩ := Prod.mk.inj (Except.ok.inj h)
        obtain ⟨a1, a2⟩ := ih ts3 l ts4 h4
        refine ⟨?_, by simp [a2]⟩
        simp only [List.flatMap_cons, List.cons_append, List.nil_append, readInfo4, bind, Except.bind, getInt]
        have := a1
        rw [this]

theorem readInfo4_of (ns : List Nat) (rest : List (Tok K)) :
    readInfo4 ns.length (ns.flatMap (fun m => [Tok.int m]) ++ rest) = .ok (ns, rest) := by
  induction ns with
  | nil => rfl
  | cons m ns ih =>
    simp only [List.flatMap_cons, List.cons_append, List.nil_append, List.length_cons, readInfo4, bind, Except.bind, getInt]
    rw [ih]

theorem readVals_len (n : Nat) (ts ts' : List (Tok K)) (ys : List K) (h : readVals n ts = .ok (ys, ts')) : ys.length = n := by
  induction n generalizing ts ys ts' with
  | zero =>
    simp only [readVals] at h
    obtain ⟨rfl, rfl⟩ := Prod.mk.inj (Except.ok.inj h)
    rfl
  | succ n ih =>
    simp only [readVals, bind, Except.bind] at h
    cases h3 : getNum ts with
    | error e => simp [h3] at h
    | ok r3 =>
      obtain ⟨y, ts3⟩ := r3
      simp only [h3] at h
      cases h4 : readVals n ts3 with
      | error e => simp [h4] at h
      | ok r4 =>
        obtain ⟨l, ts4⟩ := r4
        simp only [h4] at h
        obtain ⟨rfl, rfl⟩ := Prod.mk.inj (Except.ok.inj h)
        simp [ih _ _ _ h4]

theorem readVals_of (ys : List K) (rest : List (Tok K)) : readVals ys.length (ys.map Tok.num ++ rest) = .ok (ys, rest) := by
  induction ys with
  | nil => rfl
  | cons y ys ih =>
    simp only [List.map_cons, List.cons_append, List.length_cons, readVals, bind, Except.bind, getNum]
    rw [ih]

/-- Abscissae in increasing order, all beyond `prev`. -/
def Incr : Option K → List K → Prop
  | _, [] => True
  | prev, x :: xs => (∀ p ∈ prev, p < x) ∧ Incr (some x) xs

theorem readPoints_len (n : Nat) (prev : Option K) (ts ts' : List (Tok K)) (ps : List (K × K))
    (h : readPoints n prev ts = .ok (ps, ts')) : ps.length = n ∧ Incr prev (ps.map Prod.fst) := by
  induction n generalizing ts ps ts' prev with
  | zero =>
    simp only [readPoints] at h
    obtain ⟨rfl, rfl⟩ := Prod.mk.inj (Except.ok.inj h)
    exact ⟨rfl, trivial⟩
  | succ n ih =>
    simp only [readPoints, bind, Except.bind] at h
    cases h3 : getNum ts with
    | error e => simp [h3] at h
    | ok r3 =>
      obtain ⟨x, ts3⟩ := r3
      simp only [h3] at h
      cases h5 : getNum ts3 with
      | error e => simp [h5] at h
      | ok r5 =>
        obtain ⟨y, ts5⟩ := r5
        simp only [h5] at h
        have hp : ∀ p ∈ prev, p < x := by
          intro p hp
          have hp' : prev = some p := hp
          subst hp'
          by_contra hc
          simp [notBeyond, not_lt.1 hc] at h
        have hfalse : notBeyond prev x = false := by
          cases prev with
          | none => rfl
          | some p => simpa [notBeyond] using hp p rfl
        rw [hfalse] at h
        simp only [Bool.false_eq_true, if_false] at h
        cases h4 : readPoints n (some x) ts5 with
        | error e => simp [h4] at h
        | ok r4 =>
          obtain ⟨l, ts4⟩ := r4
          simp only [h4] at h
          obtain ⟨rfl, rfl⟩ := Prod.mk.inj (Except.ok.inj h)
          have := ih _ _ _ _ h4
          exact ⟨by simp [this.1], hp, this.2⟩

/-- Words of the points of format 4. -/
def pts (ps : List (K × K)) : List (Tok K) := ps.flatMap fun p => [.num p.1, .num p.2]

theorem readPoints_of (ps : List (K × K)) (prev : Option K) (rest : List (Tok K)) (h : Incr prev (ps.map Prod.fst)) :
    readPoints ps.length prev (pts ps ++ rest) = .ok (ps, rest) := by
  induction ps generalizing prev with
  | nil => rfl
  | cons p ps ih =>
    obtain ⟨x, y⟩ := p
    obtain ⟨h1, h2⟩ := h
    simp only [pts, List.flatMap_cons, List.cons_append, List.nil_append, List.length_cons, readPoints, bind, Except.bind, getNum]
    have hfalse : notBeyond prev x = false := by
      cases prev with
      | none => rfl
      | some p => simpa [notBeyond] using h1 p rfl
    rw [hfalse]
    simp only [Bool.false_eq_true, if_false]
    have := ih (some x) h2
    simp only [pts] at this
    rw [this]

/-! ### The data -/

/-- Words of the data of format 3. -/
def toks3 : List Nat → List K → List (Tok K)
  | [], _ => []
  | m :: ns, t => ([.num (t.getD 0 0), .num (t.getD 1 0)] ++ (List.range m).map fun j => .num (t.getD (2 + j) 0)) ++
      toks3 ns (t.drop (m + 2))

/-- Words of the data of format 4. -/
def toks4 : List Nat → List K → List K → List (Tok K)
  | [], _, _ => []
  | m :: ns, t, x => ([.num (t.getD 0 0), .num (t.getD 1 0)] ++
      (List.range m).flatMap fun j => [.num (x.getD (2 + j) 0), .num (t.getD (2 + j) 0)]) ++
      toks4 ns (t.drop (m + 2)) (x.drop (m + 2))

theorem range_map_getD {α : Type} (ys t : List K) (f : K → α) (g0 g1 : K) :
    ((List.range ys.length).map fun j => f ((g0 :: g1 :: (ys ++ t)).getD (2 + j) 0)) = ys.map f := by
  apply List.ext_getElem
  · simp
  · intro i h1 h2
    simp only [List.length_map, List.length_range] at h1
    simp only [List.getElem_map, List.getElem_range]
    congr 1
    rw [Nat.add_comm 2 i, List.getD_cons_succ, List.getD_cons_succ, List.getD_append _ _ _ _ h1, List.getD_eq_getElem _ _ h1]

theorem range_flatMap_pts (ps : List (K × K)) (t x : List K) (g0 g1 z0 z1 : K) :
    ((List.range ps.length).flatMap fun j => [Tok.num ((z0 :: z1 :: (ps.map Prod.fst ++ x)).getD (2 + j) 0),
      Tok.num ((g0 :: g1 :: (ps.map Prod.snd ++ t)).getD (2 + j) 0)]) = pts ps := by
  have : (List.range ps.length).map (fun j => [Tok.num ((z0 :: z1 :: (ps.map Prod.fst ++ x)).getD (2 + j) 0),
      Tok.num ((g0 :: g1 :: (ps.map Prod.snd ++ t)).getD (2 + j) 0)]) = ps.map fun p => [Tok.num p.1, Tok.num p.2] := by
    apply List.ext_getElem
    · simp
    · intro i h1 h2
      simp only [List.length_map, List.length_range] at h1
      simp only [List.getElem_map, List.getElem_range]
      rw [Nat.add_comm 2 i, List.getD_cons_succ, List.getD_cons_succ, List.getD_append _ _ _ _ (by simpa using h1),
        List.getD_eq_getElem _ _ (by simpa using h1), List.getD_cons_succ, List.getD_cons_succ,
        List.getD_append _ _ _ _ (by simpa using h1), List.getD_eq_getElem _ _ (by simpa using h1)]
      simp
  unfold pts
  rw [List.flatMap, List.flatMap, this]

/-- What `readData3` returns, read from the words written for it. -/
theorem readData3_write (hg : Bool) (ks : List (Kind K)) (info : List (K × K × Nat × K)) (ts rest : List (Tok K)) (t x t' : List K)
    (h : readData3 hg ks info ts = .ok (t, x)) :
    readData3 true ks info (toks3 (info.map fun i => i.2.2.1) (t ++ t') ++ rest) = .ok (t, x) := by
  induction ks generalizing info ts t x with
  | nil =>
    simp only [readData3] at h ⊢
    exact h
  | cons k ks ih =>
    cases info with
    | nil => simp [readData3] at h
    | cons i info =>
      obtain ⟨b, e, m, s⟩ := i
      simp only [readData3] at h ⊢
      by_cases hgauge : k.gauge ∧ (1 < b ∨ e < 1)
      · simp [hgauge] at h
      · rw [if_neg hgauge] at h ⊢
        simp only [bind, Except.bind] at h ⊢
        cases h1 : readSlopes hg k ts with
        | error e => simp [h1] at h
        | ok r1 =>
          obtain ⟨⟨g0, g1⟩, ts1⟩ := r1
          simp only [h1] at h
          cases h2 : readVals m ts1 with
          | error e => simp [h2] at h
          | ok r2 =>
            obtain ⟨ys, ts2⟩ := r2
            simp only [h2] at h
            cases h3 : readData3 hg ks info ts2 with
            | error e => simp [h3] at h
            | ok r3 =>
              obtain ⟨u, w⟩ := r3
              simp only [h3] at h
              obtain ⟨rfl, rfl⟩ := Prod.mk.inj (Except.ok.inj h)
              have hm := readVals_len m ts1 ts2 ys h2
              subst hm
              simp only [List.map_cons, toks3, List.cons_append, List.append_assoc, List.getD_cons_zero, List.getD_cons_succ]
              rw [range_map_getD]
              simp only [readSlopes, getNum, if_true, bind, Except.bind, List.nil_append, List.append_assoc]
              rw [readVals_of]
              simp only
              have e : (g0 :: g1 :: (ys ++ (u ++ t'))).drop (ys.length + 2) = u ++ t' := by
                simp
              rw [e, ih info ts2 u w h3]

theorem readData4_write (hg : Bool) (ks : List (Kind K)) (ns : List Nat) (ts rest : List (Tok K)) (t x t' x' : List K)
    (i : List (K × K × K))
    (h : readData4 hg ks ns ts = .ok (t, x, i)) :
    readData4 true ks ns (toks4 ns (t ++ t') (x ++ x') ++ rest) = .ok (t, x, i) := by
  induction ks generalizing ns ts t x i with
  | nil =>
    simp only [readData4] at h ⊢
    exact h
  | cons k ks ih =>
    cases ns with
    | nil => simp [readData4] at h
    | cons m ns =>
      simp only [readData4] at h ⊢
      simp only [bind, Except.bind] at h ⊢
      cases h1 : readSlopes hg k ts with
      | error e => simp [h1] at h
      | ok r1 =>
        obtain ⟨⟨g0, g1⟩, ts1⟩ := r1
        simp only [h1] at h
        cases h2 : readPoints m none ts1 with
        | error e => simp [h2] at h
        | ok r2 =>
          obtain ⟨ps, ts2⟩ := r2
          simp only [h2] at h
          obtain ⟨hm, hinc⟩ := readPoints_len m none ts1 ts2 ps h2
          subst hm
          cases hh : ps.head? with
          | none => simp [hh] at h
          | some p =>
            cases hl : ps.getLast? with
            | none => simp [hh, hl] at h
            | some q =>
              simp only [hh, hl] at h
              by_cases hgauge : k.gauge ∧ (1 < p.1 ∨ q.1 < 1)
              · simp [hgauge] at h
              · rw [if_neg hgauge] at h
                by_cases hz : (ps.length : K) - 1 = 0
                · simp [hz] at h
                · rw [if_neg hz] at h
                  cases h3 : readData4 hg ks ns ts2 with
                  | error e => simp [h3] at h
                  | ok r3 =>
                    obtain ⟨u, w, i'⟩ := r3
                    simp only [h3] at h
                    obtain ⟨rfl, hr⟩ := Prod.mk.inj (Except.ok.inj h)
                    obtain ⟨rfl, rfl⟩ := Prod.mk.inj hr
                    simp only [toks4, List.cons_append, List.append_assoc, List.getD_cons_zero, List.getD_cons_succ]
                    rw [range_flatMap_pts]
                    simp only [readSlopes, getNum, if_true, bind, Except.bind, List.nil_append, List.append_assoc]
                    rw [readPoints_of _ _ _ hinc]
                    simp only [hh, hl]
                    rw [if_neg hgauge, if_neg hz]
                    have e1 : (g0 :: g1 :: (ps.map Prod.snd ++ (u ++ t'))).drop (ps.length + 2) = u ++ t' := by
                      simp [List.drop_append]
                    have e2 : ((0 : K) :: 0 :: (ps.map Prod.fst ++ (w ++ x'))).drop (ps.length + 2) = w ++ x' := by
                      simp [List.drop_append]
                    rw [e1, e2, ih ns ts2 u w i' h3]

/-! ### The layout -/

theorem range_flatMap_succ {α : Type} (n : Nat) (f : Nat → List α) :
    (List.range (n + 1)).flatMap f = f 0 ++ (List.range n).flatMap fun i => f (i + 1) := by
  rw [List.range_succ_eq_map, List.flatMap_cons, List.flatMap_map]

theorem firstAfter_next (prev : Option Nat) (m : Nat) :
    firstAfter (some (firstAfter prev + m - 1)) = firstAfter prev + (m + 2) := by
  cases prev with
  | none => simp only [firstAfter]; omega
  | some l => simp only [firstAfter]; omega

theorem two_le_firstAfter (prev : Option Nat) : 2 ≤ firstAfter prev := by
  cases prev <;> simp only [firstAfter] <;> omega

theorem layout_toks3 (ns : List Nat) (prev : Option Nat) (t : List K) :
    (List.range ns.length).flatMap (fun i =>
      [Tok.num (t.getD (((layoutFrom prev (sized ns)).map Prod.fst).getD i 0 - 2) 0),
       .num (t.getD (((layoutFrom prev (sized ns)).map Prod.fst).getD i 0 - 1) 0)] ++
      (List.range (((layoutFrom prev (sized ns)).map Prod.snd).getD i 0 + 1 -
        ((layoutFrom prev (sized ns)).map Prod.fst).getD i 0)).map fun j =>
          .num (t.getD (((layoutFrom prev (sized ns)).map Prod.fst).getD i 0 + j) 0)) =
    toks3 ns (t.drop (firstAfter prev - 2)) := by
  induction ns generalizing prev with
  | nil => rfl
  | cons m ns ih =>
    rw [List.length_cons, range_flatMap_succ]
    have h2 := two_le_firstAfter prev
    simp only [sized, List.map_cons, layoutFrom, List.getD_cons_zero, List.getD_cons_succ]
    have := ih (some (firstAfter prev + m - 1))
    simp only [sized] at this
    rw [this, firstAfter_next, toks3]
    have hd : ∀ k, (t.drop (firstAfter prev - 2)).getD k 0 = t.getD (firstAfter prev - 2 + k) 0 := by
      intro k
      simp only [List.getD_eq_getElem?_getD, List.getElem?_drop]
    simp only [hd, List.drop_drop]
    rw [show firstAfter prev + m - 1 + 1 - firstAfter prev = m by omega,
      show firstAfter prev - 2 + 0 = firstAfter prev - 2 by omega,
      show firstAfter prev - 2 + 1 = firstAfter prev - 1 by omega,
      show firstAfter prev - 2 + (m + 2) = firstAfter prev + (m + 2) - 2 by omega]
    congr 3
    funext j
    rw [show firstAfter prev - 2 + (2 + j) = firstAfter prev + j by omega]

theorem layout_toks4 (ns : List Nat) (prev : Option Nat) (t x : List K) :
    (List.range ns.length).flatMap (fun i =>
      [Tok.num (t.getD (((layoutFrom prev (sized ns)).map Prod.fst).getD i 0 - 2) 0),
       .num (t.getD (((layoutFrom prev (sized ns)).map Prod.fst).getD i 0 - 1) 0)] ++
      (List.range (((layoutFrom prev (sized ns)).map Prod.snd).getD i 0 + 1 -
        ((layoutFrom prev (sized ns)).map Prod.fst).getD i 0)).flatMap fun j =>
          [.num (x.getD (((layoutFrom prev (sized ns)).map Prod.fst).getD i 0 + j) 0),
           .num (t.getD (((layoutFrom prev (sized ns)).map Prod.fst).getD i 0 + j) 0)]) =
    toks4 ns (t.drop (firstAfter prev - 2)) (x.drop (firstAfter prev - 2)) := by
  induction ns generalizing prev with
  | nil => rfl
  | cons m ns ih =>
    rw [List.length_cons, range_flatMap_succ]
    have h2 := two_le_firstAfter prev
    simp only [sized, List.map_cons, layoutFrom, List.getD_cons_zero, List.getD_cons_succ]
    have := ih (some (firstAfter prev + m - 1))
    simp only [sized] at this
    rw [this, firstAfter_next, toks4]
    have hd : ∀ (l : List K) k, (l.drop (firstAfter prev - 2)).getD k 0 = l.getD (firstAfter prev - 2 + k) 0 := by
      intro l k
      simp only [List.getD_eq_getElem?_getD, List.getElem?_drop]
    simp only [hd, List.drop_drop]
    rw [show firstAfter prev + m - 1 + 1 - firstAfter prev = m by omega,
      show firstAfter prev - 2 + 0 = firstAfter prev - 2 by omega,
      show firstAfter prev - 2 + 1 = firstAfter prev - 1 by omega,
      show firstAfter prev - 2 + (m + 2) = firstAfter prev + (m + 2) - 2 by omega]
    congr 3
    funext j
    rw [show firstAfter prev - 2 + (2 + j) = firstAfter prev + j by omega]

theorem layout_lengths {α : Type} (ns : List Nat) (prev : Option Nat) (f : Nat → Nat → List α) :
    (List.range ns.length).flatMap (fun i => f i (((layoutFrom prev (sized ns)).map Prod.snd).getD i 0 + 1 -
        ((layoutFrom prev (sized ns)).map Prod.fst).getD i 0)) =
    (List.range ns.length).flatMap (fun i => f i (ns.getD i 0)) := by
  induction ns generalizing prev f with
  | nil => rfl
  | cons m ns ih =>
    rw [List.length_cons, range_flatMap_succ, range_flatMap_succ]
    have h2 := two_le_firstAfter prev
    simp only [sized, List.map_cons, layoutFrom, List.getD_cons_zero, List.getD_cons_succ]
    have := ih (some (firstAfter prev + m - 1)) (fun i => f (i + 1))
    simp only [sized] at this
    rw [this, show firstAfter prev + m - 1 + 1 - firstAfter prev = m by omega]

theorem range_flatMap_getD {α β : Type} (l : List β) (d : β) (f : β → List α) :
    (List.range l.length).flatMap (fun i => f (l.getD i d)) = l.flatMap f := by
  induction l with
  | nil => rfl
  | cons a l ih =>
    rw [List.length_cons, range_flatMap_succ]
    simp only [List.getD_cons_zero, List.getD_cons_succ, ih, List.flatMap_cons]

theorem layout_length (ns : List Nat) : ((layout (sized ns)).map Prod.fst).length = ns.length := by
  rw [List.length_map, layout, layoutFrom_length, sized, List.length_map]

/-- Length of the table. -/
theorem tableLen_sized (ns : List Nat) : tableLen (sized ns) = (ns.map (· + 2)).sum := by
  have key : ∀ (ns : List Nat) (prev : Option Nat) (m : Nat), ∀ c f l, (sized (m :: ns)).getLast? = some c →
      (layoutFrom prev (sized (m :: ns))).getLast? = some (f, l) →
      f + c.nvals = firstAfter prev - 2 + ((m :: ns).map (· + 2)).sum := by
    intro ns
    induction ns with
    | nil =>
      intro prev m c f l h1 h2
      simp only [sized, List.map_cons, List.map_nil, List.getLast?_singleton, Option.some.injEq, layoutFrom, Prod.mk.injEq] at h1 h2
      subst h1
      have := two_le_firstAfter prev
      simp only [List.map_cons, List.map_nil, List.sum_cons, List.sum_nil]
      omega
    | cons n ns ih =>
      intro prev m c f l h1 h2
      have h1' : (sized (n :: ns)).getLast? = some c := by
        simp only [sized, List.map_cons, List.getLast?_cons_cons] at h1 ⊢
        exact h1
      have h2' : (layoutFrom (some (firstAfter prev + m - 1)) (sized (n :: ns))).getLast? = some (f, l) := by
        simp only [sized, List.map_cons, layoutFrom, List.getLast?_cons_cons] at h2 ⊢
        exact h2
      have := ih _ n c f l h1' h2'
      rw [firstAfter_next] at this
      have h3 := two_le_firstAfter prev
      rw [this, List.map_cons (a := m), List.sum_cons]
      omega
  cases ns with
  | nil => rfl
  | cons m ns =>
    unfold tableLen layout
    have hl : (layoutFrom none (sized (m :: ns))).length = (m :: ns).length := by
      rw [layoutFrom_length, sized, List.length_map]
    cases h1 : (sized (m :: ns)).getLast? with
    | none => simp [sized] at h1
    | some c =>
      cases h2 : (layoutFrom none (sized (m :: ns))).getLast? with
      | none =>
        rw [List.getLast?_eq_none_iff] at h2
        rw [h2] at hl
        simp at hl
      | some p =>
        obtain ⟨f, l⟩ := p
        have := key ns none m c f l h1 h2
        simp only [firstAfter] at this
        simp only
        omega

/-! ### The header -/

/-- Is this the line `#F`? -/
def isF : HLine → Bool
  | .F _ _ => true
  | _ => false

/-- The line `#I` has zeros and ones only. -/
def goodI : HLine → Prop
  | .I l => ∀ x ∈ l, x ≤ 1
  | _ => True

/-- What holds while the header is read. -/
def HInv (ntypes np : Nat) (h : Head) : Prop :=
  (h.fmt = none → h.haveInvar = false ∧ h.elements = none) ∧
  (∀ fmt n, h.fmt = some (fmt, n) → n = np ∧ (fmt = 3 ∨ fmt = 4) ∧ h.gradient.length = np ∧ h.invar.length = np ∧
    h.haveInvar = h.invar.any (· == 1) ∧ (∀ x ∈ h.invar, x ≤ 1) ∧
    ∀ es, h.elements = some es → es.length = ntypes ∧ ∀ s ∈ es, s.toList.length ≤ 14)

theorem readLine_inv (name : String) (ntypes np : Nat) (h h' : Head) (l : HLine) (hi : HInv ntypes np h) (hg : goodI l)
    (hF : isF l = true → h.fmt = none) (hl : readLine name ntypes np h l = .ok h') :
    HInv ntypes np h' ∧ (h'.fmt = none ↔ h.fmt = none ∧ isF l = false) := by
  cases l with
  | F format n =>
    have hnone := hF rfl
    obtain ⟨e1, e2⟩ := hi.1 hnone
    simp only [readLine] at hl
    by_cases h1 : format ≠ 3 ∧ format ≠ 4
    · simp [h1] at hl
    · rw [if_neg h1] at hl
      by_cases h2 : n ≠ np
      · simp [h2] at hl
      · rw [if_neg h2] at hl
        have := Except.ok.inj hl
        subst this
        refine ⟨⟨fun h => by simp at h, ?_⟩, by simp [isF]⟩
        intro fmt m hm
        simp only [Option.some.injEq, Prod.mk.injEq] at hm
        refine ⟨by omega, by omega, by simp, by simp, ?_, ?_, ?_⟩
        · simp only [e1]
          symm
          rw [List.any_eq_false]
          intro x hx
          simp [List.eq_of_mem_replicate hx]
        · intro x hx
          simp only [List.eq_of_mem_replicate hx]
          omega
        · intro es hes
          simp [e2] at hes
  | T s =>
    simp only [readLine] at hl
    by_cases h1 : s = name
    · rw [if_pos h1] at hl
      have := Except.ok.inj hl
      subst this
      exact ⟨hi, by simp [isF]⟩
    · simp [h1] at hl
  | C names =>
    simp only [readLine] at hl
    by_cases h1 : h.fmt = none ∨ names.length < ntypes
    · simp [h1] at hl
    · rw [if_neg h1] at hl
      have := Except.ok.inj hl
      subst this
      push Not at h1
      refine ⟨⟨fun h => absurd h h1.1, ?_⟩, by simp [isF]⟩
      intro fmt m hm
      obtain ⟨a1, a2, a3, a4, a5, a6, -⟩ := hi.2 fmt m hm
      refine ⟨a1, a2, a3, a4, a5, a6, ?_⟩
      intro es hes
      simp only [Option.some.injEq] at hes
      subst hes
      refine ⟨by simp [h1.2], ?_⟩
      intro s hs
      obtain ⟨u, -, rfl⟩ := List.mem_map.1 hs
      simp only [String.toList_ofList, List.length_take]
      omega
  | I flags =>
    simp only [readLine] at hl
    by_cases h1 : h.fmt = none ∨ flags.length < np
    · simp [h1] at hl
    · rw [if_neg h1] at hl
      have := Except.ok.inj hl
      subst this
      push Not at h1
      refine ⟨⟨fun h => absurd h h1.1, ?_⟩, by simp [isF]⟩
      intro fmt m hm
      obtain ⟨a1, a2, a3, a4, a5, a6, a7⟩ := hi.2 fmt m hm
      exact ⟨a1, a2, a3, by simp [h1.2], rfl, fun x hx => hg x (List.mem_of_mem_take hx), a7⟩
  | G flags =>
    simp only [readLine] at hl
    by_cases h1 : h.fmt = none ∨ flags.length < np
    · simp [h1] at hl
    · rw [if_neg h1] at hl
      have := Except.ok.inj hl
      subst this
      push Not at h1
      refine ⟨⟨fun h => absurd h h1.1, ?_⟩, by simp [isF]⟩
      intro fmt m hm
      obtain ⟨a1, a2, a3, a4, a5, a6, a7⟩ := hi.2 fmt m hm
      exact ⟨a1, a2, by simp [h1.2], a4, a5, a6, a7⟩
  | comment =>
    simp only [readLine] at hl
    have := Except.ok.inj hl
    subst this
    exact ⟨hi, by simp [isF]⟩

theorem foldlM_inv (name : String) (ntypes np : Nat) (lines : List HLine) (h h' : Head) (hi : HInv ntypes np h)
    (hg : ∀ l ∈ lines, goodI l) (hF : lines.countP isF ≤ if h.fmt = none then 1 else 0)
    (hl : lines.foldlM (readLine name ntypes np) h = .ok h') : HInv ntypes np h' := by
  induction lines generalizing h with
  | nil =>
    simp only [List.foldlM_nil, pure, Except.pure] at hl
    rw [← Except.ok.inj hl]
    exact hi
  | cons l lines ih =>
    simp only [List.foldlM_cons, bind, Except.bind] at hl
    cases h1 : readLine name ntypes np h l with
    | error e => simp [h1] at hl
    | ok h2 =>
      simp only [h1] at hl
      rw [List.countP_cons] at hF
      have hF1 : isF l = true → h.fmt = none := by
        intro hl1
        by_contra hc
        simp [hl1, hc] at hF
      obtain ⟨i1, i2⟩ := readLine_inv name ntypes np h h2 l hi (hg l (by simp)) hF1 h1
      refine ih h2 i1 (fun l hl => hg l (by simp [hl])) ?_ hl
      by_cases hn : h.fmt = none
      · cases hb : isF l with
        | true =>
          rw [if_pos hn] at hF
          simp only [hb, if_true] at hF
          omega
        | false =>
          rw [if_pos (i2.2 ⟨hn, hb⟩)]
          rw [if_pos hn] at hF
          omega
      · rw [if_neg hn] at hF
        omega

theorem any_false_replicate (l : List Nat) (n : Nat) (hn : l.length = n) (h1 : ∀ x ∈ l, x ≤ 1) (h2 : l.any (· == 1) = false) :
    l = List.replicate n 0 := by
  refine List.eq_replicate_iff.2 ⟨hn, fun x hx => ?_⟩
  have h3 := List.any_eq_false.1 h2 x hx
  have h4 := h1 x hx
  simp only [beq_iff_eq] at h3
  omega

/-- Reading the header that was written. -/
theorem readHeader_write (name : String) (ntypes np fmt : Nat) (hfmt : fmt = 3 ∨ fmt = 4) (s : State K)
    (hf : s.first.length = np) (hg : s.gradient.length = np)
    (hi : s.invar.length = np) (hh : s.haveInvar = s.invar.any (· == 1)) (h1 : ∀ x ∈ s.invar, x ≤ 1)
    (he : ∀ es, s.elements = some es → es.length = ntypes ∧ ∀ s ∈ es, s.toList.length ≤ 14) :
    readHeader name ntypes np (writeHeader name fmt s) =
      .ok ⟨some (fmt, np), s.elements, s.gradient, s.invar, s.haveInvar, true⟩ := by
  have hF : ¬(fmt ≠ 3 ∧ fmt ≠ 4) := by omega
  have hnp : ¬(s.first.length ≠ np) := by omega
  unfold readHeader writeHeader
  have elem : ∀ es, s.elements = some es → (es.take ntypes).map (fun s => String.ofList (s.toList.take 14)) = es := by
    intro es hes
    obtain ⟨e1, e2⟩ := he es hes
    rw [List.take_of_length_le (by omega)]
    conv => rhs; rw [← List.map_id es]
    refine List.map_congr_left fun u hu => ?_
    rw [List.take_of_length_le (e2 u hu)]
    simp
  have htk : s.invar.take np = s.invar := List.take_of_length_le (by omega)
  have htg : s.gradient.take np = s.gradient := List.take_of_length_le (by omega)
  have h0 : s.haveInvar = false → s.invar = List.replicate np 0 := fun hb =>
    any_false_replicate s.invar np hi h1 (by rw [← hh, hb])
  have hone : s.haveInvar = true → 1 ∈ s.invar := by
    intro hb
    rw [hb] at hh
    obtain ⟨x, hx, hx1⟩ := List.any_eq_true.1 hh.symm
    simp only [beq_iff_eq] at hx1
    rwa [hx1] at hx
  cases hes : s.elements with
  | none =>
    cases hb : s.haveInvar with
    | true => simp [readLine, bind, Except.bind, pure, Except.pure, hF, hf, hg, hi, htk, htg, hone hb]
    | false => simp [readLine, bind, Except.bind, pure, Except.pure, hF, hf, hg, htg, h0 hb]
  | some es =>
    have e1 := elem es hes
    have e2 : ¬es.length < ntypes := by have := (he es hes).1; omega
    cases hb : s.haveInvar with
    | true =>
      simp only [readLine, bind, Except.bind, pure, Except.pure, hF, hf, hg, hi, htk, htg, List.cons_append, List.nil_append,
        List.foldlM_cons, List.foldlM_nil, if_false, if_true, e1, e2, reduceCtorEq, or_false, lt_irrefl, not_true_eq_false, ne_eq]
      rw [← hh, hb]
    | false =>
      simp only [readLine, bind, Except.bind, pure, Except.pure, hF, hf, hg, htg, List.cons_append, List.nil_append,
        List.foldlM_cons, List.foldlM_nil, if_false, if_true, e1, e2, reduceCtorEq, or_false, lt_irrefl, not_true_eq_false, ne_eq,
        Bool.false_eq_true, h0 hb]

end Verif.PotFile
