/-
C35  Semantics of the parameter file.

The specification describes a line by its words, and the result of reading by the lines as a whole; the code works with one buffer and
the position of `strtok` in it.
-/
import Verif.Model.Params
import Verif.Props.C37
import Mathlib.Data.Nat.Digits.Defs
import Mathlib.Data.List.TakeWhile
import Mathlib.Tactic.Linarith

namespace Verif.Props

open Verif.LineReader Verif.Params

/-! ### Specification -/

/-- The words of a line. -/
def words (l : List Nat) : List (List Nat) := (l.splitOnP isDelim).filter (· ≠ [])

/-- The keyword of a line, in lower case; blank lines and comments have none. -/
def keyword (l : List Nat) : Option (List Nat) :=
  match words l with
  | [] => none
  | w :: _ => if w.head? = some 35 then none else some (w.map lower)

/-- The second word. -/
def argument (l : List Nat) : Option (List Nat) := (words l)[1]?

/-- What is known about a keyword. -/
def kindOf (b : Build) (k : String) : Option Kind := ((table b).find? fun e => e.1 = k).map (·.2)

/-- The meaning of a word. -/
def value (strtod : List Nat → Dbl × Bool) (w : List Nat) : Kind → Option Val
  | .int _ _ => some (.int (toInt (strtol w).1))
  | .dbl _ _ => some (.dbl (strtod w).1)
  | .str => some (.str w)
  | .strFlag => some (.str w)
  | .kim =>
    if caseEqN 9 (codes "dump_file") w then some (.kim .dumpFile)
    else if caseEqN 4 (codes "dump") w then some (.kim .dump)
    else if caseEqN 11 (codes "use_default") w then some (.kim .useDefault)
    else none

/-- The value which a line gives to the variable of keyword `k`, if any. -/
def given (b : Build) (strtod : List Nat → Dbl × Bool) (k : String) (l : List Nat) : Option Val :=
  if keyword l = some (codes k) then
    match kindOf b k, argument l with
    | some κ, some w => value strtod w κ
    | _, _ => none
  else none

/-- Whether a line raises the flag of keyword `k`. -/
def raised (b : Build) (k : String) (l : List Nat) : Bool := decide (keyword l = some (codes k) ∧ kindOf b k = some .strFlag)

/-- Whether the argument is acceptable for the keyword. -/
def fits (strtod : List Nat → Dbl × Bool) : Kind → Option (List Nat) → Prop
  | .int lo hi, some w => ¬(toInt (strtol w).1 = 0 ∧ (strtol w).2 = true) ∧ lo ≤ toInt (strtol w).1 ∧ toInt (strtol w).1 ≤ hi
  | .int _ _, none => False
  | .dbl lo hi, some w =>
    ¬((strtod w).1 = .num 0 ∧ (strtod w).2 = true) ∧ ((strtod w).1 = .nan ∨ ∃ q, (strtod w).1 = .num q ∧ lo ≤ q ∧ q ≤ hi)
  | .dbl _ _, none => False
  | .str, _ => True
  | .strFlag, _ => True
  | .kim, a => a ≠ none

/-- A line the program does not stop at. -/
def Acceptable (b : Build) (strtod : List Nat → Dbl × Bool) (l : List Nat) : Prop :=
  ∀ k κ, keyword l = some (codes k) → kindOf b k = some κ → fits strtod κ (argument l)

/-- A file: lines, each ending in a line feed or carriage return and line feed, and what comes after the last line feed. -/
def fileOf (ls : List (List Nat × Bool)) (last : List Nat) : List Nat :=
  match ls with
  | [] => last
  | (l, crlf) :: ls => l ++ (if crlf then [cr, lf] else [lf]) ++ fileOf ls last

/-- Lines of at most 1021 characters without 0, line feed, carriage return. -/
def Plain (l : List Nat) : Prop := l.length ≤ 1021 ∧ ∀ c ∈ l, c ≠ 0 ∧ c ≠ lf ∧ c ≠ cr

/-- The lines of a file. -/
def linesOf (ls : List (List Nat × Bool)) (last : List Nat) : List (List Nat) := ls.map (·.1) ++ [last]

/-! ### Words -/

theorem words_sep (x y : List Nat) {c : Nat} (h : isDelim c = true) : words (x ++ c :: y) = words x ++ words y := by
  unfold words
  rw [List.splitOnP_append_cons x y h, List.filter_append]

theorem words_nil : words [] = [] := by decide

theorem words_dropWhile (l : List Nat) : words (l.dropWhile isDelim) = words l := by
  induction l with
  | nil => rfl
  | cons c l ih =>
    rw [List.dropWhile_cons]
    split
    · next h =>
      rw [ih]
      have := words_sep [] l h
      rw [words_nil] at this
      exact this.symm
    · rfl

theorem words_single (l : List Nat) (h : ∀ c ∈ l, isDelim c = false) (hn : l ≠ []) : words l = [l] := by
  unfold words
  rw [List.splitOnP_eq_singleton h]
  simp [hn]

/-- `strtok` returns the first word and leaves the others. -/
theorem strtok_words (l : List Nat) :
    match strtok l with
    | none => words l = []
    | some (t, r) => words l = t :: words r ∧ t ≠ [] := by
  have hd := words_dropWhile l
  have hhead : ∀ c t, l.dropWhile isDelim = c :: t → isDelim c = false := by
    intro c t h
    have := List.head?_dropWhile_not isDelim l
    rw [h] at this
    simpa using this
  unfold strtok
  generalize hg : l.dropWhile isDelim = d at hd
  rw [hg] at hhead
  cases d with
  | nil =>
    simp only
    rw [← hd, words_nil]
  | cons c t =>
    simp only
    have hc := hhead c t rfl
    rw [← hd]
    have hsplit : (c :: t).takeWhile (fun c => !isDelim c) ++ (c :: t).dropWhile (fun c => !isDelim c) = c :: t :=
      List.takeWhile_append_dropWhile
    have hw : ∀ x ∈ (c :: t).takeWhile (fun c => !isDelim c), isDelim x = false := by
      intro x hx
      simpa using List.all_eq_true.1 List.all_takeWhile x hx
    have hne : (c :: t).takeWhile (fun c => !isDelim c) ≠ [] := by
      rw [List.takeWhile_cons]
      simp [hc]
    refine ⟨?_, hne⟩
    cases hdd : (c :: t).dropWhile (fun c => !isDelim c) with
    | nil =>
      rw [hdd, List.append_nil] at hsplit
      rw [hsplit, List.drop_nil, words_nil]
      rw [hsplit] at hw hne
      exact words_single _ hw hne
    | cons s d =>
      have hs : isDelim s = true := by
        have := List.head?_dropWhile_not (fun c => !isDelim c) (c :: t)
        rw [hdd] at this
        simpa using this
      rw [hdd] at hsplit
      conv_lhs => rw [← hsplit]
      rw [words_sep _ _ hs, words_single _ hw hne]
      rfl

theorem strtok_argument (r : List Nat) : (strtok r).map (·.1) = (words r)[0]? := by
  have := strtok_words r
  cases h : strtok r with
  | none => rw [h] at this; simp only at this; rw [this]; rfl
  | some p =>
    obtain ⟨t, r'⟩ := p
    rw [h] at this
    simp only at this
    rw [this.1]
    rfl

/-! ### Keywords -/

theorem codes_inj {a b : String} (h : codes a = codes b) : a = b := by
  unfold codes at h
  have hinj : Function.Injective Char.toNat := fun x y e => Char.toNat_inj.1 e
  exact String.toList_inj.1 ((List.map_injective_iff.2 hinj) h)

/-- All keywords. -/
def allKeys : List String :=
  ["ntypes", "startpot", "endpot", "output_prefix", "imdpot", "plotfile", "imdpotsteps", "extend", "config", "opt", "flagfile",
    "write_pair", "plotpointfile", "tempfile", "seed", "eng_weight", "d_eps", "write_lammps", "lammpspotsteps", "cell_scale",
    "apot_punish", "plotmin", "enable_cp", "maxchfile", "dp_cut", "dp_tol", "dp_mix", "evo_threshold", "anneal_temp", "bindist_file",
    "stress_weight", "ensemblefile", "acc_rescaling", "acc_moves", "uq_temp", "use_svd", "hess_pert", "eig_max", "write_ensemble",
    "kim_model_name", "kim_model_params", "kim_model_output_directory", "kim_model_output_name"]

theorem table_keys (b : Build) (e : String × Kind) (he : e ∈ table b) : e.1 ∈ allKeys := by
  have h : ∀ l : List (String × Kind), (∀ e ∈ l, e.1 ∈ allKeys) ↔ l.all (fun e => decide (e.1 ∈ allKeys)) = true := by
    intro l
    rw [List.all_eq_true]
    simp
  revert e
  rw [h]
  unfold table
  simp only [List.all_append, Bool.and_eq_true]
  refine ⟨⟨⟨⟨⟨⟨⟨⟨by decide +kernel, ?_⟩, ?_⟩, ?_⟩, ?_⟩, ?_⟩, ?_⟩, ?_⟩, ?_⟩
  · cases b.apot <;> cases b.pair <;> decide +kernel
  · cases b.coulomb <;> decide +kernel
  · cases b.dipole <;> decide +kernel
  · cases b.evo <;> decide +kernel
  · cases b.bindist <;> decide +kernel
  · cases b.stress <;> decide +kernel
  · cases b.uq <;> decide +kernel
  · cases b.kim <;> decide +kernel

theorem allKeys_lower : ∀ k ∈ allKeys, (codes k).map lower = codes k := by decide +kernel

theorem find_congr {α : Type} {p q : α → Bool} {l : List α} (h : ∀ a ∈ l, p a = q a) : l.find? p = l.find? q := by
  induction l with
  | nil => rfl
  | cons a l ih =>
    rw [List.find?_cons, List.find?_cons, h a (by simp), ih fun x hx => h x (List.mem_cons_of_mem _ hx)]

theorem find_keyword (b : Build) (t : List Nat) :
    ((table b).find? fun e => caseEq t (codes e.1)) = (table b).find? fun e => t.map lower = codes e.1 := by
  apply find_congr
  intro e he
  unfold caseEq
  rw [allKeys_lower _ (table_keys b e he)]

/-! ### One line -/

theorem process_spec (b : Build) (strtod : List Nat → Dbl × Bool) (s : St) (l : List Nat) :
    (Acceptable b strtod l → process b strtod s l =
      .ok ⟨fun k => (given b strtod k l).or (s.val k), fun k => s.flag k || raised b k l⟩) ∧
    (¬Acceptable b strtod l → ∃ e, process b strtod s l = .error e) := by
  have hw := strtok_words l
  unfold process
  -- a line without keyword
  have hnone : keyword l = none → ∀ r : Except Stop St, r = Except.ok s → ((Acceptable b strtod l → r =
      .ok ⟨fun k => (given b strtod k l).or (s.val k), fun k => s.flag k || raised b k l⟩) ∧
    (¬Acceptable b strtod l → ∃ e, r = Except.error e)) := by
    intro hk r hr
    constructor
    · intro _
      rw [hr]
      have h1 : (fun k => (given b strtod k l).or (s.val k)) = s.val := by
        funext k
        simp [given, hk]
      have h2 : (fun k => s.flag k || raised b k l) = s.flag := by
        funext k
        simp [raised, hk]
      rw [h1, h2]
    · intro hn
      exact absurd (fun k κ h => by rw [hk] at h; cases h) hn
  cases hs : strtok l with
  | none =>
    rw [hs] at hw
    exact hnone (by simp only at hw; simp [keyword, hw]) _ rfl
  | some p =>
    obtain ⟨t, r⟩ := p
    rw [hs] at hw
    obtain ⟨hw, -⟩ := hw
    have harg : argument l = (strtok r).map (·.1) := by
      rw [strtok_argument, argument, hw]
      rfl
    simp only
    by_cases hc : t.head? = some 35
    · rw [if_pos hc]
      exact hnone (by simp [keyword, hw, hc]) _ rfl
    · rw [if_neg hc, find_keyword]
      have hk : keyword l = some (t.map lower) := by simp [keyword, hw, hc]
      have hkind : ∀ k, keyword l = some (codes k) →
          kindOf b k = ((table b).find? fun e => t.map lower = codes e.1).map (·.2) := by
        intro k h
        rw [hk, Option.some.injEq] at h
        unfold kindOf
        congr 1
        apply find_congr
        intro e _
        rw [h]
        simp only [decide_eq_decide]
        exact ⟨fun h => by rw [h], fun h => (codes_inj h).symm⟩
      cases hf : (table b).find? fun e => t.map lower = codes e.1 with
      | none =>
        simp only
        rw [hf] at hkind
        constructor
        · intro _
          have h1 : (fun k => (given b strtod k l).or (s.val k)) = s.val := by
            funext k
            unfold given
            split
            · next h => rw [hkind k h]; rfl
            · rfl
          have h2 : (fun k => s.flag k || raised b k l) = s.flag := by
            funext k
            unfold raised
            rw [show decide (keyword l = some (codes k) ∧ kindOf b k = some .strFlag) = false from
              decide_eq_false (fun h => by have := hkind k h.1; rw [h.2] at this; cases this)]
            simp
          rw [h1, h2]
        · intro hn
          exact absurd (fun k κ h1 h2 => by rw [hkind k h1] at h2; cases h2) hn
      | some e =>
        simp only
        rw [hf] at hkind
        have he : t.map lower = codes e.1 := by simpa using List.find?_some hf
        rw [he] at hk
        have hke : kindOf b e.1 = some e.2 := hkind e.1 hk
        have hiff : ∀ k, keyword l = some (codes k) ↔ k = e.1 := by
          intro k
          rw [hk, Option.some.injEq]
          exact ⟨fun h => (codes_inj h).symm, fun h => by rw [h]⟩
        have hacc : Acceptable b strtod l ↔ fits strtod e.2 (argument l) := by
          constructor
          · exact fun h => h _ _ hk hke
          · intro h k κ h1 h2
            rw [(hiff k).1 h1, hke] at h2
            cases h2
            exact h
        rw [hacc]
        have hgiven : ∀ k, given b strtod k l = if k = e.1 then (argument l).bind (fun w => value strtod w e.2) else none := by
          intro k
          unfold given
          by_cases h : k = e.1
          · rw [if_pos ((hiff k).2 h), if_pos h, h, hke]
            cases argument l <;> rfl
          · rw [if_neg (fun h2 => h ((hiff k).1 h2)), if_neg h]
        have hraised : ∀ k, raised b k l = decide (k = e.1 ∧ e.2 = .strFlag) := by
          intro k
          unfold raised
          rw [decide_eq_decide, hiff k]
          constructor
          · rintro ⟨h1, h2⟩
            rw [h1, hke] at h2
            exact ⟨h1, by simpa using h2⟩
          · rintro ⟨h1, h2⟩
            exact ⟨h1, by rw [h1, hke, h2]⟩
        simp only [hgiven, hraised]
        rw [harg]
        have hset : ∀ v, s.set e.1 v = ⟨fun k => (if k = e.1 then some v else none).or (s.val k), s.flag⟩ := by
          intro v
          unfold St.set
          congr 1
          funext k
          rw [Function.update_apply]
          split <;> rfl
        have hval : (fun k => (if k = e.1 then (none : Option Val) else none).or (s.val k)) = s.val := by
          funext k
          simp
        obtain ⟨key, κ⟩ := e
        simp only at *
        unfold assign
        cases κ with
        | int lo hi =>
          simp only [getInt, reduceCtorEq, and_false, decide_false, Bool.or_false]
          cases strtok r with
          | none =>
            simp only [Option.map_none, fits]
            exact ⟨False.elim, fun _ => ⟨_, rfl⟩⟩
          | some q =>
            simp only [Option.map_some, fits, Option.bind_some, value]
            constructor
            · rintro ⟨h1, h2, h3⟩
              rw [if_neg h1, if_neg (by omega), hset]
            · intro h
              split
              · exact ⟨_, rfl⟩
              · split
                · exact ⟨_, rfl⟩
                · next h1 h2 => exact absurd ⟨h1, by omega, by omega⟩ h
        | dbl lo hi =>
          simp only [getDbl, reduceCtorEq, and_false, decide_false, Bool.or_false]
          cases strtok r with
          | none =>
            simp only [Option.map_none, fits]
            exact ⟨False.elim, fun _ => ⟨_, rfl⟩⟩
          | some q =>
            simp only [Option.map_some, fits, Option.bind_some, value]
            have hb : ((strtod q.1).1.ltB lo || (strtod q.1).1.gtB hi) = true ↔
                ¬((strtod q.1).1 = .nan ∨ ∃ x, (strtod q.1).1 = .num x ∧ lo ≤ x ∧ x ≤ hi) := by
              cases (strtod q.1).1 with
              | nan => simp [Dbl.ltB, Dbl.gtB]
              | neg => simp [Dbl.ltB]
              | pos => simp [Dbl.ltB, Dbl.gtB]
              | num x =>
                simp only [Dbl.ltB, Dbl.gtB, Bool.or_eq_true, decide_eq_true_eq, reduceCtorEq, false_or, Dbl.num.injEq,
                  exists_eq_left', not_and_or, not_le]
            constructor
            · rintro ⟨h1, h2⟩
              rw [if_neg h1, if_neg (fun h => hb.1 h h2), hset]
            · intro h
              split
              · exact ⟨_, rfl⟩
              · split
                · exact ⟨_, rfl⟩
                · next h1 h2 =>
                  refine absurd ⟨h1, ?_⟩ h
                  by_contra h3
                  exact h2 (hb.2 h3)
        | str =>
          simp only [getStr, reduceCtorEq, and_false, decide_false, Bool.or_false]
          refine ⟨fun _ => ?_, fun h => absurd trivial h⟩
          cases strtok r with
          | none => simp only [Option.map_none, Option.bind_none]; rw [hval]
          | some q => simp only [Option.map_some, Option.bind_some, value]; rw [hset]
        | strFlag =>
          simp only [getStr, and_true]
          refine ⟨fun _ => ?_, fun h => absurd trivial h⟩
          have hfl : (fun k => s.flag k || decide (k = key)) = Function.update s.flag key true := by
            funext k
            rw [Function.update_apply]
            by_cases h : k = key <;> simp [h]
          rw [hfl]
          cases strtok r with
          | none => simp only [Option.map_none, Option.bind_none]; rw [hval]; rfl
          | some q => simp only [Option.map_some, Option.bind_some, value]; rw [hset]; rfl
        | kim =>
          simp only [getKim, reduceCtorEq, and_false, decide_false, Bool.or_false]
          cases strtok r with
          | none =>
            simp only [Option.map_none, fits]
            exact ⟨fun h => absurd rfl h, fun _ => ⟨_, rfl⟩⟩
          | some q =>
            simp only [Option.map_some, Option.bind_some, value, fits]
            refine ⟨fun _ => ?_, fun h => absurd (by simp) h⟩
            split
            · rw [hset]
            · split
              · rw [hset]
              · split
                · rw [hset]
                · rw [hval]

/-! ### All lines -/

/-- What the lines give, one after the other. -/
def after (b : Build) (strtod : List Nat → Dbl × Bool) (s : St) (ls : List (List Nat)) : St :=
  ⟨fun k => ((ls.filterMap (given b strtod k)).getLast?).or (s.val k), fun k => s.flag k || ls.any (raised b k)⟩

theorem after_cons (b : Build) (strtod : List Nat → Dbl × Bool) (s : St) (l : List Nat) (ls : List (List Nat)) :
    after b strtod ⟨fun k => (given b strtod k l).or (s.val k), fun k => s.flag k || raised b k l⟩ ls =
      after b strtod s (l :: ls) := by
  unfold after
  congr 1
  · funext k
    simp only [List.filterMap_cons]
    cases hg : given b strtod k l with
    | none => rfl
    | some v =>
      simp only [List.getLast?_cons]
      cases (ls.filterMap (given b strtod k)).getLast? <;> rfl
  · funext k
    simp [Bool.or_assoc]

theorem after_nil_eq (b : Build) (strtod : List Nat → Dbl × Bool) (s : St) (l : List Nat) :
    after b strtod s [l] = ⟨fun k => (given b strtod k l).or (s.val k), fun k => s.flag k || raised b k l⟩ := by
  rw [← after_cons]
  unfold after
  simp

/-- Reading a line of at most 1023 characters. -/
theorem fgets_line (n : Nat) (l rest : List Nat) (h : ∀ c ∈ l, c ≠ lf) (hn : l.length + 1 ≤ n) :
    fgets n (l ++ lf :: rest) = (l ++ [lf], rest) := by
  induction l generalizing n with
  | nil =>
    cases n with
    | zero => simp at hn
    | succ n => simp [fgets]
  | cons c l ih =>
    cases n with
    | zero => simp at hn
    | succ n =>
      rw [List.cons_append, fgets, if_neg (h c (by simp)), ih n (fun d hd => h d (List.mem_cons_of_mem _ hd))
        (by simp at hn ⊢; omega)]
      rfl

theorem fgets_last (n : Nat) (l : List Nat) (h : ∀ c ∈ l, c ≠ lf) (hn : l.length ≤ n) : fgets n l = (l, []) := by
  induction l generalizing n with
  | nil => cases n <;> rfl
  | cons c l ih =>
    cases n with
    | zero => simp at hn
    | succ n =>
      rw [fgets, if_neg (h c (by simp)), ih n (fun d hd => h d (List.mem_cons_of_mem _ hd)) (by simp at hn; omega)]

theorem process_words (b : Build) (strtod : List Nat → Dbl × Bool) (l l' : List Nat) (h : words l = words l') :
    (Acceptable b strtod l ↔ Acceptable b strtod l') ∧ (∀ k, given b strtod k l = given b strtod k l') ∧
      ∀ k, raised b k l = raised b k l' := by
  have h1 : keyword l = keyword l' := by unfold keyword; rw [h]
  have h2 : argument l = argument l' := by unfold argument; rw [h]
  refine ⟨?_, ?_, ?_⟩
  · unfold Acceptable
    rw [h1, h2]
  · intro k
    unfold given
    rw [h1, h2]
  · intro k
    unfold raised
    rw [h1]

/-- The string in the buffer has the words of the line. -/
theorem buffer_words (l old : List Nat) (crlf : Bool) (h : Plain l) :
    words (cstr (convert ((l ++ (if crlf then [cr, lf] else [lf])) ++ 0 :: old))) = words l := by
  have hl : words (l ++ [lf]) = words l := by
    rw [words_sep l [] (by decide), words_nil, List.append_nil]
  cases crlf with
  | false =>
    simp only [Bool.false_eq_true, if_false]
    rw [C37_unix]
    · exact hl
    · intro c hc
      rcases List.mem_append.1 hc with hc | hc
      · exact ⟨(h.2 c hc).1, (h.2 c hc).2.2⟩
      · rw [List.mem_singleton.1 hc]; decide
  | true =>
    simp only [if_true]
    rw [(C37_partial (l ++ [cr, lf]) old (by
      intro c hc
      rcases List.mem_append.1 hc with hc | hc
      · exact (h.2 c hc).1
      · rcases List.mem_cons.1 hc with rfl | hc
        · decide
        · rw [List.mem_singleton.1 hc]; decide)).1 ⟨l, [], rfl⟩]
    have hf : (l ++ [cr, lf]).filter (· ≠ cr) = l ++ [lf] := by
      rw [List.filter_append]
      congr 1
      exact List.filter_eq_self.2 fun c hc => by simpa using (h.2 c hc).2.2
    rw [hf]
    have hd : (l ++ [cr, lf]).drop (l ++ [lf]).length = [lf] := by
      simp
    rw [hd, words_sep (l ++ [lf]) [] (by decide), words_nil, List.append_nil, hl]

theorem loop_spec (b : Build) (strtod : List Nat → Dbl × Bool) (ls : List (List Nat × Bool)) (last : List Nat)
    (hls : ∀ l ∈ ls, Plain l.1) (hlast : Plain last) (n : Nat) (hn : (fileOf ls last).length ≤ n) (s : St) (old : List Nat) :
    ((∀ l ∈ linesOf ls last, Acceptable b strtod l) →
      loop b strtod n s old (fileOf ls last) = .ok (after b strtod s (linesOf ls last))) ∧
    ((¬∀ l ∈ linesOf ls last, Acceptable b strtod l) → ∃ e, loop b strtod n s old (fileOf ls last) = .error e) := by
  induction ls generalizing n s old with
  | nil =>
    simp only [fileOf, linesOf, List.map_nil, List.nil_append, List.mem_singleton, forall_eq] at *
    by_cases he : last = []
    · subst he
      have hloop : loop b strtod n s old [] = .ok s := by
        cases n with
        | zero => rfl
        | succ n => simp [loop, fgetsPotfit]
      rw [hloop]
      have h := process_spec b strtod s []
      have hp : process b strtod s [] = .ok s := rfl
      rw [hp] at h
      refine ⟨fun ha => ?_, fun ha => h.2 ha⟩
      rw [h.1 ha, after_nil_eq]
    · cases n with
      | zero =>
        simp only [Nat.le_zero, List.length_eq_zero_iff] at hn
        exact absurd hn he
      | succ n =>
        have hg : fgetsPotfit 1024 old last = some (convert (last ++ 0 :: old.drop (last.length + 1)), []) := by
          unfold fgetsPotfit
          rw [if_neg (by simp [he])]
          rw [fgets_last 1023 last (fun c hc => (hlast.2 c hc).2.1) (by have := hlast.1; omega)]
        have hc : cstr (convert (last ++ 0 :: old.drop (last.length + 1))) = last :=
          C37_unix last _ fun c hc => ⟨(hlast.2 c hc).1, (hlast.2 c hc).2.2⟩
        unfold loop
        rw [hg]
        simp only
        rw [hc]
        have h := process_spec b strtod s last
        have hend : ∀ s' buf, loop b strtod n s' buf [] = .ok s' := by
          intro s' buf
          cases n with
          | zero => rfl
          | succ n => simp [loop, fgetsPotfit]
        constructor
        · intro ha
          rw [h.1 ha]
          simp only
          rw [hend, after_nil_eq]
        · intro ha
          obtain ⟨e, he⟩ := h.2 ha
          rw [he]
          exact ⟨e, rfl⟩
  | cons x ls ih =>
    obtain ⟨l, crlf⟩ := x
    have hpl : Plain l := hls (l, crlf) (by simp)
    have ih := ih fun y hy => hls y (List.mem_cons_of_mem _ hy)
    simp only [fileOf] at hn ⊢
    have hlen : 1 ≤ (if crlf then [cr, lf] else [lf]).length := by cases crlf <;> simp
    cases n with
    | zero =>
      simp only [List.length_append] at hn
      omega
    | succ n =>
      have hn' : (fileOf ls last).length ≤ n := by
        simp only [List.length_append] at hn
        omega
      have hg : fgetsPotfit 1024 old (l ++ (if crlf then [cr, lf] else [lf]) ++ fileOf ls last) =
          some (convert ((l ++ (if crlf then [cr, lf] else [lf])) ++
            0 :: old.drop ((l ++ (if crlf then [cr, lf] else [lf])).length + 1)), fileOf ls last) := by
        have hfg : fgets 1023 (l ++ (if crlf then [cr, lf] else [lf]) ++ fileOf ls last) =
            (l ++ (if crlf then [cr, lf] else [lf]), fileOf ls last) := by
          cases crlf with
          | false =>
            simp only [Bool.false_eq_true, if_false, List.append_assoc, List.cons_append, List.nil_append]
            exact fgets_line 1023 l _ (fun c hc => (hpl.2 c hc).2.1) (by have := hpl.1; omega)
          | true =>
            simp only [if_true, List.append_assoc, List.cons_append, List.nil_append]
            have := fgets_line 1023 (l ++ [cr]) (fileOf ls last) (by
              intro c hc
              rcases List.mem_append.1 hc with hc | hc
              · exact (hpl.2 c hc).2.1
              · rw [List.mem_singleton.1 hc]; decide) (by have := hpl.1; simp; omega)
            simpa using this
        unfold fgetsPotfit
        rw [if_neg (by
          rintro (h | h)
          · have := congrArg List.length h
            simp only [List.length_append, List.length_nil] at this
            omega
          · omega)]
        rw [hfg]
      unfold loop
      rw [hg]
      simp only
      have hw := buffer_words l (old.drop ((l ++ (if crlf then [cr, lf] else [lf])).length + 1)) crlf hpl
      generalize cstr (convert ((l ++ (if crlf then [cr, lf] else [lf])) ++
            0 :: old.drop ((l ++ (if crlf then [cr, lf] else [lf])).length + 1))) = buf at hw
      generalize convert ((l ++ (if crlf then [cr, lf] else [lf])) ++
            0 :: old.drop ((l ++ (if crlf then [cr, lf] else [lf])).length + 1)) = full
      obtain ⟨w1, w2, w3⟩ := process_words b strtod buf l hw
      have h := process_spec b strtod s buf
      rw [w1] at h
      simp only [w2, w3] at h
      have hlines : linesOf ((l, crlf) :: ls) last = l :: linesOf ls last := rfl
      rw [hlines]
      simp only [List.mem_cons, forall_eq_or_imp]
      by_cases ha : Acceptable b strtod l
      · rw [h.1 ha]
        simp only
        have := ih n hn' ⟨fun k => (given b strtod k l).or (s.val k), fun k => s.flag k || raised b k l⟩ full
        rw [after_cons] at this
        constructor
        · exact fun hh => this.1 hh.2
        · exact fun hh => this.2 fun h2 => hh ⟨ha, h2⟩
      · obtain ⟨e, he⟩ := h.2 ha
        rw [he]
        exact ⟨fun hh => absurd hh.1 ha, fun _ => ⟨e, rfl⟩⟩

/-! ### The claim -/

/-- **C35, meaning of a file.** Whatever the build, the library's `strtod`, the state before and the garbage in the buffer: reading
stops with an error exactly if some line is not acceptable, and otherwise every variable has the value of the last line giving it
one, or its old value; a flag is set if some line sets it. Each line is taken by itself. -/
theorem C35_meaning (b : Build) (strtod : List Nat → Dbl × Bool) (s : St) (buffer : List Nat) (ls : List (List Nat × Bool))
    (last : List Nat) (hls : ∀ l ∈ ls, Plain l.1) (hlast : Plain last) :
    ((∀ l ∈ linesOf ls last, Acceptable b strtod l) →
      ∃ s', readParameterFile b strtod s buffer (fileOf ls last) = .ok s' ∧
        (∀ k, s'.val k = (((linesOf ls last).filterMap (given b strtod k)).getLast?).or (s.val k)) ∧
        ∀ k, s'.flag k = (s.flag k || (linesOf ls last).any (raised b k))) ∧
    ((¬∀ l ∈ linesOf ls last, Acceptable b strtod l) →
      ∃ e, readParameterFile b strtod s buffer (fileOf ls last) = .error e) := by
  have h := loop_spec b strtod ls last hls hlast _ (Nat.le_refl _) s buffer
  exact ⟨fun ha => ⟨_, h.1 ha, fun _ => rfl, fun _ => rfl⟩, h.2⟩

/-- Both runs stop with an error, or both end in the same state. -/
def SameResult (x y : Except Stop St) : Prop :=
  (∃ s, x = .ok s ∧ y = .ok s) ∨ ((∃ e, x = .error e) ∧ ∃ e, y = .error e)

theorem acceptable_iff (b : Build) (strtod : List Nat → Dbl × Bool) (L : List (List Nat)) :
    (∀ l ∈ L, Acceptable b strtod l) ↔ ∀ k κ, kindOf b k = some κ →
      ∀ a ∈ (L.filter fun l => keyword l = some (codes k)).map argument, fits strtod κ a := by
  constructor
  · intro h k κ hk a ha
    obtain ⟨l, hl, rfl⟩ := List.mem_map.1 ha
    rw [List.mem_filter] at hl
    exact h l hl.1 k κ (by simpa using hl.2) hk
  · intro h l hl k κ hkw hk
    exact h k κ hk _ (List.mem_map.2 ⟨l, List.mem_filter.2 ⟨hl, by simpa using hkw⟩, rfl⟩)

theorem given_filter (b : Build) (strtod : List Nat → Dbl × Bool) (k : String) (L : List (List Nat)) :
    L.filterMap (given b strtod k) = ((L.filter fun l => keyword l = some (codes k)).map argument).filterMap fun a =>
      match kindOf b k, a with
      | some κ, some w => value strtod w κ
      | _, _ => none := by
  induction L with
  | nil => rfl
  | cons l L ih =>
    rw [List.filterMap_cons, ih, List.filter_cons]
    unfold given
    by_cases h : keyword l = some (codes k)
    · rw [if_pos h]
      simp only [h, decide_true, if_true, List.map_cons, List.filterMap_cons]
    · rw [if_neg h]
      simp only [h, decide_false, Bool.false_eq_true, if_false]

theorem raised_filter (b : Build) (k : String) (L : List (List Nat)) :
    L.any (raised b k) = (decide (kindOf b k = some .strFlag) &&
      !((L.filter fun l => keyword l = some (codes k)).map argument).isEmpty) := by
  induction L with
  | nil => simp
  | cons l L ih =>
    rw [List.any_cons, ih, List.filter_cons]
    unfold raised
    by_cases h : keyword l = some (codes k)
    · simp [h]
      tauto
    · simp [h]

/-- **C35, equivalent files.** Two files have the same result if every keyword has the same arguments in the same order in both:
nothing else counts, neither blank lines and comments, nor the letter case of keywords, nor the order of lines with different
keywords, nor line ends, spacing and further words. -/
theorem C35_equiv (b : Build) (strtod : List Nat → Dbl × Bool) (s : St) (buf₁ buf₂ : List Nat)
    (ls₁ ls₂ : List (List Nat × Bool)) (last₁ last₂ : List Nat) (h₁ : ∀ l ∈ ls₁, Plain l.1) (h₂ : ∀ l ∈ ls₂, Plain l.1)
    (hl₁ : Plain last₁) (hl₂ : Plain last₂)
    (h : ∀ k, ((linesOf ls₁ last₁).filter fun l => keyword l = some k).map argument =
      ((linesOf ls₂ last₂).filter fun l => keyword l = some k).map argument) :
    SameResult (readParameterFile b strtod s buf₁ (fileOf ls₁ last₁)) (readParameterFile b strtod s buf₂ (fileOf ls₂ last₂)) := by
  have m₁ := loop_spec b strtod ls₁ last₁ h₁ hl₁ _ (Nat.le_refl _) s buf₁
  have m₂ := loop_spec b strtod ls₂ last₂ h₂ hl₂ _ (Nat.le_refl _) s buf₂
  have hacc : (∀ l ∈ linesOf ls₁ last₁, Acceptable b strtod l) ↔ ∀ l ∈ linesOf ls₂ last₂, Acceptable b strtod l := by
    rw [acceptable_iff, acceptable_iff]
    simp only [h]
  have haft : after b strtod s (linesOf ls₁ last₁) = after b strtod s (linesOf ls₂ last₂) := by
    unfold after
    simp only [given_filter, raised_filter, h]
  by_cases ha : ∀ l ∈ linesOf ls₁ last₁, Acceptable b strtod l
  · exact Or.inl ⟨_, m₁.1 ha, by rw [haft]; exact m₂.1 (hacc.1 ha)⟩
  · exact Or.inr ⟨m₁.2 ha, m₂.2 fun h2 => ha (hacc.2 h2)⟩

theorem linesOf_append (ls ms : List (List Nat × Bool)) (last : List Nat) :
    linesOf (ls ++ ms) last = ls.map (·.1) ++ linesOf ms last := by
  simp [linesOf]

/-- **C35, blank lines and comments** have no effect. -/
theorem C35_blank (b : Build) (strtod : List Nat → Dbl × Bool) (s : St) (buffer : List Nat) (ls ms : List (List Nat × Bool))
    (l last : List Nat) (crlf : Bool) (h₁ : ∀ x ∈ ls ++ (l, crlf) :: ms, Plain x.1) (hl : Plain last)
    (hb : ∀ c ∈ (l.dropWhile isDelim).head?, c = 35) :
    SameResult (readParameterFile b strtod s buffer (fileOf (ls ++ (l, crlf) :: ms) last))
      (readParameterFile b strtod s buffer (fileOf (ls ++ ms) last)) := by
  have hk : keyword l = none := by
    have hw := strtok_words l
    unfold keyword
    cases hs : strtok l with
    | none => rw [hs] at hw; simp only at hw; rw [hw]
    | some p =>
      obtain ⟨t, r⟩ := p
      rw [hs] at hw
      rw [hw.1]
      simp only
      rw [if_pos]
      unfold strtok at hs
      split at hs
      · cases hs
      · next c u hd =>
        have hc : c = 35 := hb c (by rw [hd]; rfl)
        cases hs
        rw [List.takeWhile_cons, hc]
        rfl
  apply C35_equiv b strtod s buffer buffer _ _ last last h₁ _ hl hl
  · intro k
    have : linesOf ((l, crlf) :: ms) last = l :: linesOf ms last := rfl
    rw [linesOf_append, linesOf_append, this, List.filter_append, List.filter_append, List.filter_cons, if_neg (by simp [hk])]
  · intro x hx
    apply h₁ x
    rcases List.mem_append.1 hx with hx | hx
    · exact List.mem_append_left _ hx
    · exact List.mem_append_right _ (List.mem_cons_of_mem _ hx)

/-- **C35, letter case.** Changing the case of letters in a keyword changes nothing. -/
theorem C35_case (b : Build) (strtod : List Nat → Dbl × Bool) (s : St) (buffer : List Nat) (ls ms : List (List Nat × Bool))
    (l l' last : List Nat) (crlf : Bool) (h₁ : ∀ x ∈ ls ++ (l, crlf) :: ms, Plain x.1) (hl' : Plain l') (hl : Plain last)
    (w w' : List Nat) (ws : List (List Nat)) (hw : words l = w :: ws) (hw' : words l' = w' :: ws)
    (hc : w.map lower = w'.map lower) :
    SameResult (readParameterFile b strtod s buffer (fileOf (ls ++ (l, crlf) :: ms) last))
      (readParameterFile b strtod s buffer (fileOf (ls ++ (l', crlf) :: ms) last)) := by
  have hlow : ∀ c, lower c = 35 ↔ c = 35 := by
    intro c
    unfold lower
    split <;> omega
  have hhead : w.head? = some 35 ↔ w'.head? = some 35 := by
    cases w with
    | nil =>
      cases w' with
      | nil => rfl
      | cons a w' => simp at hc
    | cons a w =>
      cases w' with
      | nil => simp at hc
      | cons a' w' =>
        simp only [List.map_cons, List.cons.injEq] at hc
        simp only [List.head?_cons, Option.some.injEq]
        rw [← hlow a, ← hlow a', hc.1]
  have hk : keyword l = keyword l' := by
    unfold keyword
    rw [hw, hw']
    simp only
    by_cases h : w.head? = some 35
    · rw [if_pos h, if_pos (hhead.1 h)]
    · rw [if_neg h, if_neg (fun h2 => h (hhead.2 h2)), hc]
  have ha : argument l = argument l' := by
    unfold argument
    rw [hw, hw']
    rfl
  apply C35_equiv b strtod s buffer buffer _ _ last last h₁ _ hl hl
  · intro k
    have h1 : linesOf ((l, crlf) :: ms) last = l :: linesOf ms last := rfl
    have h2 : linesOf ((l', crlf) :: ms) last = l' :: linesOf ms last := rfl
    rw [linesOf_append, linesOf_append, h1, h2, List.filter_append, List.filter_append, List.filter_cons, List.filter_cons, hk]
    split
    · simp [ha]
    · rfl
  · intro x hx
    rcases List.mem_append.1 hx with hx | hx
    · exact h₁ x (List.mem_append_left _ hx)
    · rcases List.mem_cons.1 hx with rfl | hx
      · exact hl'
      · exact h₁ x (List.mem_append_right _ (List.mem_cons_of_mem _ hx))

/-- **C35, order.** Neighbouring lines with different keywords can be exchanged. -/
theorem C35_order (b : Build) (strtod : List Nat → Dbl × Bool) (s : St) (buffer : List Nat) (ls ms : List (List Nat × Bool))
    (x y : List Nat × Bool) (last : List Nat) (h₁ : ∀ l ∈ ls ++ x :: y :: ms, Plain l.1) (hl : Plain last)
    (hne : keyword x.1 ≠ keyword y.1) :
    SameResult (readParameterFile b strtod s buffer (fileOf (ls ++ x :: y :: ms) last))
      (readParameterFile b strtod s buffer (fileOf (ls ++ y :: x :: ms) last)) := by
  apply C35_equiv b strtod s buffer buffer _ _ last last h₁ _ hl hl
  · intro k
    have h1 : linesOf (x :: y :: ms) last = x.1 :: y.1 :: linesOf ms last := rfl
    have h2 : linesOf (y :: x :: ms) last = y.1 :: x.1 :: linesOf ms last := rfl
    rw [linesOf_append, linesOf_append, h1, h2, List.filter_append, List.filter_append]
    congr 2
    simp only [List.filter_cons]
    by_cases hx : keyword x.1 = some k
    · rw [if_pos (by simpa using hx), if_neg (by simpa using fun h => hne (hx.trans h.symm))]
      rw [if_neg (by simpa using fun h => hne (hx.trans h.symm)), if_pos (by simpa using hx)]
    · rw [if_neg (by simpa using hx)]
      simp only [decide_eq_true_eq]
      rw [if_neg hx]
  · intro z hz
    apply h₁ z
    rcases List.mem_append.1 hz with hz | hz
    · exact List.mem_append_left _ hz
    · refine List.mem_append_right _ ?_
      rcases List.mem_cons.1 hz with rfl | hz
      · simp
      · rcases List.mem_cons.1 hz with rfl | hz
        · simp
        · exact List.mem_cons_of_mem _ (List.mem_cons_of_mem _ hz)

/-- **C35, the last assignment wins.** -/
theorem C35_last (b : Build) (strtod : List Nat → Dbl × Bool) (s s' : St) (buffer : List Nat) (ls : List (List Nat × Bool))
    (last : List Nat) (hls : ∀ l ∈ ls, Plain l.1) (hlast : Plain last)
    (hr : readParameterFile b strtod s buffer (fileOf ls last) = .ok s') (k : String) :
    (∀ pre l post v, linesOf ls last = pre ++ l :: post → given b strtod k l = some v →
      (∀ l' ∈ post, given b strtod k l' = none) → s'.val k = some v) ∧
    ((∀ l ∈ linesOf ls last, given b strtod k l = none) → s'.val k = s.val k) := by
  have m := loop_spec b strtod ls last hls hlast _ (Nat.le_refl _) s buffer
  have hs : s' = after b strtod s (linesOf ls last) := by
    by_cases ha : ∀ l ∈ linesOf ls last, Acceptable b strtod l
    · have := m.1 ha
      unfold readParameterFile at hr
      rw [hr] at this
      cases this
      rfl
    · obtain ⟨e, he⟩ := m.2 ha
      unfold readParameterFile at hr
      rw [hr] at he
      cases he
  rw [hs]
  constructor
  · intro pre l post v hl hv hpost
    unfold after
    simp only
    have : post.filterMap (given b strtod k) = [] := List.filterMap_eq_nil_iff.2 hpost
    rw [hl, List.filterMap_append, List.filterMap_cons, hv, this]
    simp
  · intro hn
    unfold after
    simp only
    rw [List.filterMap_eq_nil_iff.2 hn]
    rfl

/-- **C35, bounds, what holds.** After reading, an integer set by the file lies within the bounds, a floating-point number lies within
the bounds or is not a number. Missing for the full claim: the exclusion of "nan" (`C35_nan_violated`). -/
theorem C35_bounds_partial (b : Build) (strtod : List Nat → Dbl × Bool) (s s' : St) (buffer : List Nat)
    (ls : List (List Nat × Bool)) (last : List Nat) (hls : ∀ l ∈ ls, Plain l.1) (hlast : Plain last)
    (hr : readParameterFile b strtod s buffer (fileOf ls last) = .ok s') (k : String) :
    (∀ lo hi, kindOf b k = some (.int lo hi) → s'.val k = s.val k ∨ ∃ i, s'.val k = some (.int i) ∧ lo ≤ i ∧ i ≤ hi) ∧
    (∀ lo hi, kindOf b k = some (.dbl lo hi) → s'.val k = s.val k ∨ s'.val k = some (.dbl .nan) ∨
      ∃ q, s'.val k = some (.dbl (.num q)) ∧ lo ≤ q ∧ q ≤ hi) := by
  have m := loop_spec b strtod ls last hls hlast _ (Nat.le_refl _) s buffer
  have hs : (∀ l ∈ linesOf ls last, Acceptable b strtod l) ∧ s' = after b strtod s (linesOf ls last) := by
    by_cases ha : ∀ l ∈ linesOf ls last, Acceptable b strtod l
    · have := m.1 ha
      unfold readParameterFile at hr
      rw [hr] at this
      cases this
      exact ⟨ha, rfl⟩
    · obtain ⟨e, he⟩ := m.2 ha
      unfold readParameterFile at hr
      rw [hr] at he
      cases he
  obtain ⟨ha, rfl⟩ := hs
  have hval : (after b strtod s (linesOf ls last)).val k = s.val k ∨ ∃ l ∈ linesOf ls last, ∃ v, given b strtod k l = some v ∧
      (after b strtod s (linesOf ls last)).val k = some v := by
    unfold after
    simp only
    cases hg : ((linesOf ls last).filterMap (given b strtod k)).getLast? with
    | none => exact Or.inl rfl
    | some v =>
      obtain ⟨l, hl, hv⟩ := List.mem_filterMap.1 (List.mem_of_getLast? hg)
      exact Or.inr ⟨l, hl, v, hv, rfl⟩
  have hfit : ∀ l ∈ linesOf ls last, ∀ v κ, given b strtod k l = some v → kindOf b k = some κ →
      ∃ w, argument l = some w ∧ value strtod w κ = some v ∧ fits strtod κ (some w) := by
    intro l hl v κ hv hk
    unfold given at hv
    split at hv
    · next hkw =>
      have hf := ha l hl k κ hkw hk
      rw [hk] at hv
      cases harg : argument l with
      | none => rw [harg] at hv; cases hv
      | some w =>
        rw [harg] at hv hf
        exact ⟨w, rfl, hv, hf⟩
    · cases hv
  constructor
  · intro lo hi hk
    rcases hval with h | ⟨l, hl, v, hv, he⟩
    · exact Or.inl h
    · obtain ⟨w, -, h2, h3⟩ := hfit l hl v _ hv hk
      simp only [value, Option.some.injEq] at h2
      exact Or.inr ⟨_, by rw [he, ← h2], h3.2.1, h3.2.2⟩
  · intro lo hi hk
    rcases hval with h | ⟨l, hl, v, hv, he⟩
    · exact Or.inl h
    · obtain ⟨w, -, h2, h3⟩ := hfit l hl v _ hv hk
      simp only [value, Option.some.injEq] at h2
      rcases h3.2 with h4 | ⟨q, h4, h5⟩
      · exact Or.inr (Or.inl (by rw [he, ← h2, h4]))
      · exact Or.inr (Or.inr ⟨q, by rw [he, ← h2, h4], h5⟩)

/-! ### Numerals -/

theorem foldl_digits (ds : List Nat) (hd : ∀ d ∈ ds, d < 10) :
    (ds.reverse.map (· + 48)).foldl (fun (a : Int) (c : Nat) => 10 * a + ((c : Int) - 48)) 0 = (Nat.ofDigits 10 ds : Nat) := by
  induction ds with
  | nil => simp
  | cons d ds ih =>
    rw [List.reverse_cons, List.map_append, List.foldl_append, ih fun x hx => hd x (List.mem_cons_of_mem _ hx), Nat.ofDigits_cons]
    simp
    ring

/-- **C35, numerals.** A decimal numeral, possibly with a minus sign, within the range of `int` is read as its value. -/
theorem C35_decimal (n : Nat) (hn : 0 < n) (hmax : n ≤ 2147483647) :
    (toInt (strtol ((Nat.digits 10 n).reverse.map (· + 48))).1 = n ∧ (strtol ((Nat.digits 10 n).reverse.map (· + 48))).2 = false) ∧
    (toInt (strtol (45 :: (Nat.digits 10 n).reverse.map (· + 48))).1 = -n ∧
      (strtol (45 :: (Nat.digits 10 n).reverse.map (· + 48))).2 = false) := by
  have hd : ∀ d ∈ Nat.digits 10 n, d < 10 := fun d hd => Nat.digits_lt_base (by decide) hd
  have hf := foldl_digits (Nat.digits 10 n) hd
  rw [Nat.ofDigits_digits] at hf
  have hne : (Nat.digits 10 n).reverse.map (· + 48) ≠ [] := by
    simp [Nat.digits_ne_nil_iff_ne_zero]
    omega
  have hmem : ∀ c ∈ (Nat.digits 10 n).reverse.map (· + 48), 48 ≤ c ∧ c ≤ 57 := by
    intro c hc
    obtain ⟨d, h1, rfl⟩ := List.mem_map.1 hc
    have := hd d (List.mem_reverse.1 h1)
    omega
  generalize hw : (Nat.digits 10 n).reverse.map (· + 48) = w at hf hne hmem
  have htake : w.takeWhile isDigit = w := by
    apply List.takeWhile_eq_self_iff.2
    intro c hc
    have := hmem c hc
    simp [isDigit, this]
  obtain ⟨c, t, rfl⟩ := List.exists_cons_of_ne_nil hne
  have hc := hmem c (by simp)
  have hdrop : (c :: t).dropWhile isSpace = c :: t := by
    rw [List.dropWhile_cons, if_neg]
    simp [isSpace]
    omega
  have hdrop' : (45 :: c :: t).dropWhile isSpace = 45 :: c :: t := by
    rw [List.dropWhile_cons, if_neg]
    simp [isSpace]
  have hn' : (n : Int) ≤ 2147483647 := by exact_mod_cast hmax
  have hn0 : (0 : Int) < n := by exact_mod_cast hn
  constructor
  · have h1 : strtol (c :: t) = ((n : Int), false) := by
      unfold strtol
      simp only [hdrop, List.head?_cons, Option.some.injEq]
      have n1 : ¬c = 45 := by omega
      have n2 : ¬c = 43 := by omega
      simp only [n1, n2, or_self, if_false, htake, hf]
      simp only [List.isEmpty_cons, Prod.mk.injEq, and_true]
      omega
    rw [h1]
    refine ⟨?_, rfl⟩
    unfold toInt
    simp only
    omega
  · have h1 : strtol (45 :: c :: t) = (-(n : Int), false) := by
      unfold strtol
      simp only [hdrop', List.head?_cons, Option.some.injEq]
      simp only [true_or, if_true, List.drop_one, List.tail_cons, htake, hf]
      simp only [List.isEmpty_cons, Prod.mk.injEq, and_true]
      omega
    rw [h1]
    refine ⟨?_, rfl⟩
    unfold toInt
    simp only
    omega

/-! ### Examples and disagreements -/

def plainBuild : Build := ⟨false, true, false, false, false, false, false, false, true⟩

def blank : St := ⟨fun _ => none, fun _ => false⟩

/-- Reads "1.5" and "nan". -/
def demoStrtod (w : List Nat) : Dbl × Bool :=
  if w = codes "1.5" then (.num (3 / 2), false) else if w = codes "nan" then (.nan, false) else (.num 0, true)

/-- A file with Windows line ends, comments, repeated keywords in different case. -/
def demoFile : List (List Nat × Bool) :=
  [(codes "# a comment", true), (codes "NTypes 2 two elements", false), ([], false), (codes "  opt 1", true),
    (codes "eng_weight\t1.5", true), (codes "imdpot x.imd", false), (codes "ntypes 3", false)]

example : (∀ l ∈ demoFile, l.1.length ≤ 1021 ∧ ∀ c ∈ l.1, c ≠ 0 ∧ c ≠ lf ∧ c ≠ cr) ∧
    (match readParameterFile plainBuild demoStrtod blank [1, 2] (fileOf demoFile (codes "OPT 0")) with
      | .ok s => decide (s.val "ntypes" = some (.int 3) ∧ s.val "opt" = some (.int 0) ∧ s.val "eng_weight" = some (.dbl (.num (3 / 2))) ∧
        s.val "imdpot" = some (.str (codes "x.imd")) ∧ s.flag "imdpot" = true ∧ s.val "seed" = none)
      | .error _ => false) = true := by
  decide +kernel

/-- The hypotheses of `C35_order`, `C35_case`, `C35_blank` are met by lines of this file. -/
example : keyword (codes "NTypes 2") ≠ keyword (codes "  opt 1") ∧ keyword (codes "NTypes 2") = keyword (codes "ntypes 3") ∧
    words (codes "NTypes 2") = [codes "NTypes", codes "2"] ∧ words (codes " ntypes  2") = [codes "ntypes", codes "2"] ∧
    (codes "NTypes").map lower = (codes "ntypes").map lower ∧
    ((codes "  # x").dropWhile isDelim).head? = some 35 ∧ ((codes "   ").dropWhile isDelim).head? = none := by
  decide +kernel

/-- **C35, bounds: violated.** If `strtod` reads "nan" as not a number, the line "eng_weight nan" is accepted, although the documented
range is from 0 to the largest number. -/
theorem C35_nan_violated (strtod : List Nat → Dbl × Bool) (h : strtod (codes "nan") = (.nan, false)) (b : Build) :
    ∃ s, readParameterFile b strtod blank [] (fileOf [(codes "eng_weight nan", false)] []) = .ok s ∧
      s.val "eng_weight" = some (.dbl .nan) ∧ kindOf b "eng_weight" = some (.dbl 0 dblMax) := by
  have hk : kindOf b "eng_weight" = some (.dbl 0 dblMax) := rfl
  have hw : keyword (codes "eng_weight nan") = some (codes "eng_weight") := by decide +kernel
  have ha : argument (codes "eng_weight nan") = some (codes "nan") := by decide +kernel
  have hpl : Plain (codes "eng_weight nan") := by
    unfold Plain
    decide +kernel
  have he : keyword [] = none := by decide
  have m := C35_meaning b strtod blank [] [(codes "eng_weight nan", false)] [] (by simpa using hpl)
    ⟨by simp, by simp⟩
  have hl : linesOf [(codes "eng_weight nan", false)] [] = [codes "eng_weight nan", []] := rfl
  rw [hl] at m
  obtain ⟨s, h1, h2, -⟩ := m.1 (by
    intro l hl
    rcases List.mem_cons.1 hl with rfl | hl
    · intro k κ h1 h2
      rw [hw, Option.some.injEq] at h1
      rw [← codes_inj h1, hk] at h2
      cases h2
      rw [ha]
      simp only [fits, h]
      simp
    · rw [List.mem_singleton.1 hl]
      intro k κ h1
      rw [he] at h1
      cases h1)
  refine ⟨s, h1, ?_, hk⟩
  rw [h2 "eng_weight"]
  have g1 : given b strtod "eng_weight" (codes "eng_weight nan") = some (.dbl .nan) := by
    unfold given
    rw [if_pos hw, hk, ha]
    simp only [value, h]
  have g2 : given b strtod "eng_weight" [] = none := by
    unfold given
    rw [he]
    rfl
  rw [List.filterMap_cons, g1, List.filterMap_cons, g2]
  rfl

/-- **C35, bounds: numbers beyond `int`.** "opt 4294967297" is accepted, as 1. -/
theorem C35_wrap_violated :
    (match readParameterFile plainBuild demoStrtod blank [] (codes "opt 4294967297") with
      | .ok s => decide (s.val "opt" = some (.int 1))
      | .error _ => false) = true := by
  decide +kernel

/-- **C35, line by line: violated.** The part of a line behind its first 1023 characters is taken as another line: a comment can set
a variable. -/
theorem C35_long_violated :
    ∃ s, readParameterFile plainBuild demoStrtod blank [] (List.replicate 1023 35 ++ codes "opt 1") = .ok s ∧
      s.val "opt" = some (.int 1) := by
  have hg : ∀ n r, fgets n (List.replicate n 35 ++ r) = (List.replicate n 35, r) := by
    intro n r
    induction n with
    | zero => rfl
    | succ n ih =>
      rw [List.replicate_succ, List.cons_append, fgets, if_neg (by decide), ih]
  have h1 : fgetsPotfit 1024 [] (List.replicate 1023 35 ++ codes "opt 1") =
      some (convert (List.replicate 1023 35 ++ 0 :: []), codes "opt 1") := by
    unfold fgetsPotfit
    rw [if_neg (by
      rintro (h | h)
      · exact absurd (List.append_eq_nil_iff.1 h).2 (by decide +kernel)
      · omega)]
    have := hg 1023 (codes "opt 1")
    simp only [show (1024 : Nat) - 1 = 1023 from rfl, this, List.drop_nil]
  have h2 : cstr (convert (List.replicate 1023 35 ++ 0 :: [])) = List.replicate 1023 35 :=
    C37_unix _ _ fun c hc => by rw [(List.mem_replicate.1 hc).2]; decide
  have hlen : (List.replicate 1023 35 ++ codes "opt 1").length = 1026 + 2 := by
    rw [List.length_append, List.length_replicate]
    rfl
  have hp : process plainBuild demoStrtod blank (List.replicate 1023 35) = .ok blank := by
    unfold process
    have : strtok (List.replicate 1023 35) = some (List.replicate 1023 35, []) := by
      have hr : List.replicate 1023 35 = 35 :: List.replicate 1022 35 := rfl
      have hd : (List.replicate 1023 35).dropWhile isDelim = 35 :: List.replicate 1022 35 := by
        rw [hr, List.dropWhile_cons, if_neg (by decide)]
      have ht : (35 :: List.replicate 1022 35).takeWhile (fun c => !isDelim c) = 35 :: List.replicate 1022 35 :=
        List.takeWhile_eq_self_iff.2 fun c hc => by
          rw [← hr] at hc
          rw [(List.mem_replicate.1 hc).2]; decide
      have hdd : (35 :: List.replicate 1022 35).dropWhile (fun c => !isDelim c) = [] :=
        List.dropWhile_eq_nil_iff.2 fun c hc => by
          rw [← hr] at hc
          rw [(List.mem_replicate.1 hc).2]; decide
      unfold strtok
      rw [hd]
      simp only [ht, hdd]
      rfl
    rw [this]
    rfl
  unfold readParameterFile
  rw [hlen, loop, h1]
  simp only
  rw [h2, hp]
  simp only
  rw [loop]
  have h3 : ∀ old, ∃ old', fgetsPotfit 1024 old (codes "opt 1") = some (convert (codes "opt 1" ++ 0 :: old'), []) := by
    intro old
    refine ⟨old.drop 6, ?_⟩
    unfold fgetsPotfit
    have : fgets (1024 - 1) (codes "opt 1") = (codes "opt 1", []) := by decide +kernel
    rw [if_neg (by decide +kernel)]
    simp only [this]
    rfl
  obtain ⟨old', h4⟩ := h3 (convert (List.replicate 1023 35 ++ [0]))
  rw [h4]
  simp only
  rw [C37_unix _ _ (by decide +kernel)]
  have h5 : (match process plainBuild demoStrtod blank (codes "opt 1") with
      | .ok s => decide (s.val "opt" = some (.int 1))
      | .error _ => false) = true := by decide +kernel
  cases hq : process plainBuild demoStrtod blank (codes "opt 1") with
  | error e => rw [hq] at h5; cases h5
  | ok s =>
    rw [hq] at h5
    refine ⟨s, ?_, by simpa using h5⟩
    simp only
    rw [loop]
    rfl

/-- A missing value of `kim_model_params` leads to a comparison with the null pointer. -/
theorem C35_kim_violated :
    (match readParameterFile plainBuild demoStrtod blank [] (codes "kim_model_params") with
      | .error .ub => true
      | _ => false) = true := by
  decide +kernel

end Verif.Props
