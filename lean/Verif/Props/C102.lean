/-
C102  The processes of a parallel run end together.
-/
import Verif.Model.Protocol
import Mathlib.Tactic.SplitIfs
import Mathlib.Tactic.Push
import Mathlib.Data.List.Basic

namespace Verif.Props

open Verif.Protocol

/-- Nobody waits for ever: all processes end, with these exit codes (root first). -/
def EndTogether (c : Cfg) (f : Faults) (s : Script) (n : ℕ) (r : Code) (w : Code) : Prop :=
  run c f s n = .ended (r :: List.replicate n w)

/-- No process stops in evaluation `k`. -/
def NoStop (c : Cfg) (f : Faults) (n k : ℕ) : Prop := (c.apot = true → f.table k = false) ∧ ∀ p ≤ n, f.compute p k = false

/-- All processes stop in evaluation `k`. -/
def AllStop (c : Cfg) (f : Faults) (n k : ℕ) : Prop := (c.apot = true ∧ f.table k = true) ∨ ∀ p ≤ n, f.compute p k = true

theorem recvAll_replicate (c : Cfg) (f : Faults) (v : ℤ) (w : W) : ∀ (n p : ℕ),
    recvAll c f v p (List.replicate n w) = (List.range n).map fun i => w.recv c f (p + i) v
  | 0, _ => rfl
  | n + 1, p => by
    rw [List.replicate_succ, recvAll, recvAll_replicate c f v w n (p + 1), List.range_succ_eq_map]
    simp only [List.map_cons, List.map_map, Nat.add_zero, List.cons.injEq, true_and]
    apply List.map_congr_left
    intro i _
    simp only [Function.comp]
    congr 1
    omega

theorem map_const_range (w : W) (n : ℕ) : ((List.range n).map fun _ => w) = List.replicate n w := by
  rw [List.map_const', List.length_range]

/-- One call with all workers in the same place and going to the same place. -/
theorem exec_step (c : Cfg) (f : Faults) (code : Code) {s : Sig} {v : ℤ} {calls : List Call} {n : ℕ} {w w' : W}
    (hn : w.next c = some s) (hr : ∀ p, 1 ≤ p → p ≤ n → w.recv c f p v = w') :
    exec c f code ((s, v) :: calls) (List.replicate n w) = exec c f code calls (List.replicate n w') := by
  rw [exec, if_pos, recvAll_replicate]
  · congr 1
    rw [← map_const_range]
    apply List.map_congr_left
    intro i hi
    exact hr _ (by omega) (by have := List.mem_range.1 hi; omega)
  · rw [List.all_eq_true]
    intro x hx
    rw [List.eq_of_mem_replicate hx, hn]
    exact beq_self_eq_true _

/-- One call after which the places may differ. -/
theorem exec_spread (c : Cfg) (f : Faults) (code : Code) {s : Sig} {v : ℤ} {calls : List Call} {n : ℕ} {w : W} (hn : w.next c = some s) :
    exec c f code ((s, v) :: calls) (List.replicate n w) =
      exec c f code calls ((List.range n).map fun i => w.recv c f (1 + i) v) := by
  rw [exec, if_pos, recvAll_replicate]
  rw [List.all_eq_true]
  intro x hx
  rw [List.eq_of_mem_replicate hx, hn]
  exact beq_self_eq_true _

/-- A list of calls from a place which counts them down. -/
theorem exec_list (c : Cfg) (f : Faults) (code : Code) (mk : List Sig → W) (w' : W) (n : ℕ) (calls : List Call)
    (hn : ∀ l, (mk l).next c = l.head?)
    (hr : ∀ l p, (mk l).recv c f p 0 = if l.tail = [] then w' else mk l.tail) : ∀ l : List Sig, l ≠ [] →
    exec c f code (plain l ++ calls) (List.replicate n (mk l)) = exec c f code calls (List.replicate n w')
  | [], h => absurd rfl h
  | [s], _ => by
    refine exec_step c f code (s := s) ?_ ?_
    · rw [hn]; rfl
    · intro p _ _
      rw [hr]; rfl
  | s :: t :: l, _ => by
    rw [← exec_list c f code mk w' n calls hn hr (t :: l) (by simp)]
    refine exec_step c f code (s := s) ?_ ?_
    · rw [hn]; rfl
    · intro p _ _
      rw [hr]; rfl

/-- The same when the places differ afterwards. -/
theorem exec_list_spread (c : Cfg) (f : Faults) (code : Code) (mk : List Sig → W) (w' : ℕ → W) (n : ℕ) (calls : List Call)
    (hn : ∀ l, (mk l).next c = l.head?)
    (hr : ∀ l p, (mk l).recv c f p 0 = if l.tail = [] then w' p else mk l.tail) : ∀ l : List Sig, l ≠ [] →
    exec c f code (plain l ++ calls) (List.replicate n (mk l)) = exec c f code calls ((List.range n).map fun i => w' (1 + i))
  | [], h => absurd rfl h
  | [s], _ => by
    refine (exec_spread c f code (s := s) ?_).trans ?_
    · rw [hn]; rfl
    · congr 1
      apply List.map_congr_left
      intro i _
      rw [hr]; rfl
  | s :: t :: l, _ => by
    rw [← exec_list_spread c f code mk w' n calls hn hr (t :: l) (by simp)]
    refine exec_step c f code (s := s) ?_ ?_
    · rw [hn]; rfl
    · intro p _ _
      rw [hr]; rfl

theorem body_ne (c : Cfg) : c.body ≠ [] := by
  unfold Cfg.body
  simp

theorem body_head (c : Cfg) : c.body.head? = some (.reduce .dbl) := by
  unfold Cfg.body
  cases c.rhos with
  | zero => rfl
  | succ k => rw [List.replicate_succ]; rfl

theorem codesOf_gone (code : Code) : ∀ n : ℕ, codesOf (List.replicate n (.gone code)) = some (List.replicate n code)
  | 0 => rfl
  | n + 1 => by rw [List.replicate_succ, codesOf, codesOf_gone code n]; rfl

theorem exec_fin (c : Cfg) (f : Faults) (r w : Code) (n : ℕ) :
    exec c f r [(.finalize, 0)] (List.replicate n (.fin w)) = .ended (r :: List.replicate n w) := by
  rw [exec_step c f r (w' := .gone w) rfl (fun _ _ _ => rfl), exec, codesOf_gone]

theorem exec_stop_flag (c : Cfg) (f : Faults) (r : Code) (n k : ℕ) :
    exec c f r stop (List.replicate n (.flag k)) = .ended (r :: List.replicate n .success) := by
  unfold stop
  rw [exec_step c f r (w' := .fin .success) rfl (fun _ _ _ => rfl), exec_fin]

theorem exec_stop_err (c : Cfg) (f : Faults) (r : Code) (n : ℕ) :
    exec c f r stop (List.replicate n .err) = .ended (r :: List.replicate n .failure) := by
  unfold stop
  rw [exec_step c f r (w' := .fin .failure) rfl (fun _ _ _ => rfl), exec_fin]

/-- Flag, parameters and `potsync`: then every worker is in its loop over configurations. -/
theorem exec_start (c : Cfg) (f : Faults) (code : Code) (n k : ℕ) (flag : ℤ) (hf : flag ≠ 1) (ht : c.apot = true → f.table k = false)
    (calls : List Call) :
    exec c f code ([(flagSig, flag), (c.xiSig, 0)] ++ plain (c.syncCalls flag) ++ calls) (List.replicate n (.flag k)) =
      exec c f code calls ((List.range n).map fun i => compute c f (1 + i) k) := by
  rw [List.append_assoc, List.cons_append, List.cons_append, List.nil_append]
  rw [exec_step c f code (w' := .xi flag k) rfl (fun p _ _ => by simp only [W.recv]; rw [if_neg hf])]
  by_cases hs : c.syncCalls flag = []
  · rw [hs]
    rw [exec_spread c f code rfl]
    simp only [plain, List.map_nil, List.nil_append]
    congr 1
    apply List.map_congr_left
    intro i _
    simp only [W.recv, hs, if_true]
    by_cases ha : c.apot = true
    · rw [if_pos ha, if_neg (by rw [ht ha]; decide)]
    · rw [if_neg ha]
  · have ha : ¬ c.apot = true := by
      intro ha
      apply hs
      unfold Cfg.syncCalls
      rw [if_neg]
      rintro ⟨h, -⟩
      rw [ha] at h
      cases h
    rw [exec_step c f code (w' := .sync (c.syncCalls flag) k) rfl (fun p _ _ => by
      simp only [W.recv]; rw [if_neg ha, if_neg hs])]
    exact exec_list_spread c f code (fun l => .sync l k) (fun p => compute c f p k) n calls (fun _ => rfl) (fun _ _ => rfl) _ hs

/-- An evaluation in which nobody stops. -/
theorem exec_quiet (c : Cfg) (f : Faults) (code : Code) (n k : ℕ) (flag : ℤ) (hf : flag ≠ 1) (hq : NoStop c f n k) (calls : List Call) :
    exec c f code ((evalCalls c f k flag).1 ++ calls) (List.replicate n (.flag k)) =
      exec c f code calls (List.replicate n (.flag (k + 1))) := by
  have hev : (evalCalls c f k flag).1 = [(flagSig, flag), (c.xiSig, 0)] ++ plain (c.syncCalls flag) ++ plain c.body := by
    unfold evalCalls
    simp only
    rw [if_neg (by rintro ⟨h1, h2⟩; rw [hq.1 h1] at h2; cases h2), if_neg (by rw [hq.2 0 (Nat.zero_le _)]; decide)]
  rw [hev, List.append_assoc, exec_start c f code n k flag hf hq.1]
  have : ((List.range n).map fun i => compute c f (1 + i) k) = List.replicate n (.body c.body k) := by
    rw [← map_const_range]
    apply List.map_congr_left
    intro i hi
    unfold compute
    rw [if_neg]
    rw [hq.2 _ (by have := List.mem_range.1 hi; omega)]
    decide
  rw [this]
  exact exec_list c f code (fun l => .body l k) (.flag (k + 1)) n calls (fun _ => rfl) (fun _ _ => rfl) _ (body_ne c)

theorem evalCalls_quiet (c : Cfg) (f : Faults) (n k : ℕ) (flag : ℤ) (hq : NoStop c f n k) : (evalCalls c f k flag).2 = false := by
  unfold evalCalls
  simp only
  rw [if_neg (by rintro ⟨h1, h2⟩; rw [hq.1 h1] at h2; cases h2), if_neg (by rw [hq.2 0 (Nat.zero_le _)]; decide)]

theorem evals_quiet (c : Cfg) (f : Faults) (failed : Bool) (n k : ℕ) (flag : ℤ) (rest : List ℤ) (hq : NoStop c f n k) :
    evals c f failed k (flag :: rest) =
      ((evalCalls c f k flag).1 ++ (evals c f failed (k + 1) rest).1, (evals c f failed (k + 1) rest).2) := by
  have h := evalCalls_quiet c f n k flag hq
  rw [evals]
  split
  · next l hl => rw [hl] at h; cases h
  · next l hl => rw [hl]

/-- An evaluation in which all processes stop. -/
theorem evals_loud (c : Cfg) (f : Faults) (failed : Bool) (n k : ℕ) (flag : ℤ) (hf : flag ≠ 1) (rest : List ℤ) (hl : AllStop c f n k) :
    (evals c f failed k (flag :: rest)).2 = .failure ∧
      exec c f .failure (evals c f failed k (flag :: rest)).1 (List.replicate n (.flag k)) =
        .ended (.failure :: List.replicate n .failure) := by
  by_cases ht : c.apot = true ∧ f.table k = true
  · have he : evalCalls c f k flag = ([(flagSig, flag), (c.xiSig, 0)], true) := by
      unfold evalCalls
      simp only
      rw [if_pos ht]
    rw [evals, he]
    refine ⟨rfl, ?_⟩
    simp only [List.cons_append, List.nil_append]
    rw [exec_step c f _ (w' := .xi flag k) rfl (fun p _ _ => by simp only [W.recv]; rw [if_neg hf]),
      exec_step c f _ (w' := .err) rfl (fun p _ _ => by simp only [W.recv]; rw [if_pos ht.1, if_pos ht.2]), exec_stop_err]
  · have hc := hl.resolve_left ht
    have ht' : c.apot = true → f.table k = false := by
      intro ha
      cases h : f.table k
      · rfl
      · exact absurd ⟨ha, h⟩ ht
    have he : evalCalls c f k flag = ([(flagSig, flag), (c.xiSig, 0)] ++ plain (c.syncCalls flag), true) := by
      unfold evalCalls
      simp only
      rw [if_neg ht, if_pos (hc 0 (Nat.zero_le _))]
    rw [evals, he]
    refine ⟨rfl, ?_⟩
    simp only
    rw [exec_start c f _ n k flag hf ht']
    have : ((List.range n).map fun i => compute c f (1 + i) k) = List.replicate n .err := by
      rw [← map_const_range]
      apply List.map_congr_left
      intro i hi
      unfold compute
      rw [if_pos (hc _ (by have := List.mem_range.1 hi; omega))]
    rw [this, exec_stop_err]

/-- Nobody stops in any evaluation. -/
theorem evals_quiet_end (c : Cfg) (f : Faults) (failed : Bool) (n : ℕ) : ∀ (flags : List ℤ) (k : ℕ), (∀ x ∈ flags, x ≠ 1) →
    (∀ j < flags.length, NoStop c f n (k + j)) →
    exec c f (evals c f failed k flags).2 (evals c f failed k flags).1 (List.replicate n (.flag k)) =
      .ended ((if failed then .failure else .success) :: List.replicate n .success)
  | [], k, _, _ => by rw [evals, exec_stop_flag]
  | flag :: rest, k, hf, h => by
    have hq : NoStop c f n k := h 0 (by simp)
    rw [evals_quiet c f failed n k flag rest hq]
    simp only
    rw [exec_quiet c f _ n k flag (hf _ (by simp)) hq, evals_quiet_end c f failed n rest (k + 1) (fun x hx => hf x (by simp [hx]))]
    intro j hj
    have := h (j + 1) (by simpa using hj)
    rwa [show k + (j + 1) = k + 1 + j by omega] at this

/-- In every evaluation all processes stop or none, and they stop in one. -/
theorem evals_loud_end (c : Cfg) (f : Faults) (failed : Bool) (n : ℕ) : ∀ (flags : List ℤ) (k : ℕ), (∀ x ∈ flags, x ≠ 1) →
    (∀ j < flags.length, NoStop c f n (k + j) ∨ AllStop c f n (k + j)) → (∃ j < flags.length, ¬ NoStop c f n (k + j)) →
    exec c f (evals c f failed k flags).2 (evals c f failed k flags).1 (List.replicate n (.flag k)) =
      .ended (.failure :: List.replicate n .failure)
  | [], k, _, _, h => by
    obtain ⟨j, hj, -⟩ := h
    simp at hj
  | flag :: rest, k, hf, h, hl => by
    have h0 : NoStop c f n k ∨ AllStop c f n k := h 0 (by simp)
    by_cases hq : NoStop c f n k
    · rw [evals_quiet c f failed n k flag rest hq]
      simp only
      rw [exec_quiet c f _ n k flag (hf _ (by simp)) hq]
      refine evals_loud_end c f failed n rest (k + 1) (fun x hx => hf x (by simp [hx])) ?_ ?_
      · intro j hj
        have := h (j + 1) (by simpa using hj)
        rwa [show k + (j + 1) = k + 1 + j by omega] at this
      · obtain ⟨j, hj, hn⟩ := hl
        match j with
        | 0 => exact absurd hq hn
        | j + 1 =>
          refine ⟨j, by simpa using hj, ?_⟩
          rwa [show k + (j + 1) = k + 1 + j by omega] at hn
    · obtain ⟨e1, e2⟩ := evals_loud c f failed n k flag (hf _ (by simp)) rest (h0.resolve_left hq)
      rw [e1, e2]

theorem loud_not_quiet {c : Cfg} {f : Faults} {n k : ℕ} (hl : AllStop c f n k) : ¬ NoStop c f n k := by
  rintro ⟨h1, h2⟩
  rcases hl with ⟨ha, ht⟩ | hl
  · rw [h1 ha] at ht
    cases ht
  · have := h2 0 (Nat.zero_le _)
    rw [hl 0 (Nat.zero_le _)] at this
    cases this

/-- Up to the first evaluation. -/
theorem exec_setup (c : Cfg) (f : Faults) (code : Code) (n : ℕ) (calls : List Call) :
    exec c f code ((flagSig, 1) :: plain c.data ++ calls) (List.replicate n .init) =
      exec c f code calls (List.replicate n (afterData c)) := by
  rw [List.cons_append]
  by_cases hd : c.data = []
  · rw [hd]
    exact exec_step c f code rfl (fun p _ _ => by
      simp only [W.recv]
      rw [if_neg (by decide), if_pos hd])
  · rw [exec_step c f code (w' := .data c.data) rfl (fun p _ _ => by
      simp only [W.recv]
      rw [if_neg (by decide), if_neg hd])]
    exact exec_list c f code .data (afterData c) n calls (fun _ => rfl) (fun _ _ => rfl) _ hd

theorem afterData_ok {c : Cfg} (href : c.refused = false) : afterData c = if c.apot = true then .opt else .flag 0 := by
  unfold afterData
  rw [if_neg (by rw [href]; decide)]

/-- The calls of the root process when reading succeeded and the configurations are not refused. -/
theorem run_evals (c : Cfg) (f : Faults) (s : Script) (n : ℕ) (hr : s.reading = .ok) (href : c.refused = false)
    (hfirst : ¬ (c.apot = true ∧ f.first = true)) :
    run c f s n = exec c f (evals c f s.failed 0 s.flags).2 (evals c f s.failed 0 s.flags).1 (List.replicate n (.flag 0)) := by
  unfold run root
  rw [hr]
  simp only
  rw [if_neg (by rw [href]; decide), if_neg hfirst]
  simp only
  rw [List.append_assoc, exec_setup, afterData_ok href]
  by_cases ha : c.apot = true
  · rw [if_pos ha, if_pos ha, List.cons_append, List.nil_append]
    refine exec_step c f _ (w' := .flag 0) rfl (fun p _ _ => ?_)
    simp only [W.recv]
    rw [if_neg (fun h => hfirst ⟨ha, h⟩)]
  · rw [if_neg ha, if_neg ha, List.nil_append]

/-- **All processes end**, for every number of evaluations and processes, if nothing goes wrong while reading and in every
evaluation either all processes stop with an error or none. -/
theorem C102_end (c : Cfg) (f : Faults) (s : Script) (n : ℕ) (hr : s.reading = .ok) (href : c.refused = false)
    (hfirst : ¬ (c.apot = true ∧ f.first = true)) (hf : ∀ x ∈ s.flags, x ≠ 1)
    (h : ∀ k < s.flags.length, NoStop c f n k ∨ AllStop c f n k) :
    ((∀ k < s.flags.length, NoStop c f n k) → EndTogether c f s n (if s.failed then .failure else .success) .success) ∧
    ((∃ k < s.flags.length, AllStop c f n k) → EndTogether c f s n .failure .failure) := by
  unfold EndTogether
  rw [run_evals c f s n hr href hfirst]
  constructor
  · intro hq
    exact evals_quiet_end c f s.failed n s.flags 0 hf (by intro j hj; rw [Nat.zero_add]; exact hq j hj)
  · rintro ⟨k, hk, hl⟩
    refine evals_loud_end c f s.failed n s.flags 0 hf (by intro j hj; rw [Nat.zero_add]; exact h j hj) ⟨k, hk, ?_⟩
    rw [Nat.zero_add]
    exact loud_not_quiet hl

/-- Too few configurations, or a single process: all processes end with an error. -/
theorem C102_refused (c : Cfg) (f : Faults) (s : Script) (n : ℕ) (hr : s.reading = .ok) (href : c.refused = true) :
    EndTogether c f s n .failure .failure := by
  unfold EndTogether run root
  rw [hr]
  simp only
  rw [if_pos href, exec_setup]
  unfold afterData
  rw [if_pos href, exec_fin]

/-- An analytic potential which can not be evaluated at the beginning: all processes end with an error. -/
theorem C102_first (c : Cfg) (f : Faults) (s : Script) (n : ℕ) (hr : s.reading = .ok) (href : c.refused = false)
    (hfirst : c.apot = true ∧ f.first = true) : EndTogether c f s n .failure .failure := by
  unfold EndTogether run root
  rw [hr]
  simp only
  rw [if_neg (by rw [href]; decide), if_pos hfirst]
  simp only
  rw [List.append_assoc, exec_setup, afterData_ok href]
  rw [if_pos hfirst.1, if_pos hfirst.1, List.cons_append, List.nil_append,
    exec_step c f _ (w' := .err) rfl (fun p _ _ => by simp only [W.recv]; rw [if_pos hfirst.2]), exec_stop_err]

/-- `exit_potfit` while reading. -/
theorem C102_exit (c : Cfg) (f : Faults) (s : Script) (n : ℕ) (hr : s.reading = .exit) : EndTogether c f s n .success .success := by
  unfold EndTogether run root
  rw [hr]
  simp only
  rw [exec_step c f _ (w' := .fin .success) rfl (fun _ _ _ => rfl), exec_fin]

/-- **The claim fails for errors in input files**: `error` sends nothing while `init_done` is 0, so that the workers wait for ever. -/
theorem C102_reading_violated (c : Cfg) (f : Faults) (s : Script) (n : ℕ) (hr : s.reading = .error) :
    run c f s n = if n = 0 then .ended [.failure] else .stuck := by
  unfold run root
  rw [hr]
  simp only
  match n with
  | 0 => rfl
  | n + 1 =>
    rw [if_neg (by omega), List.replicate_succ, exec, codesOf]
    intro code h
    cases h

/-- The workers and the root process in an evaluation where some stop and some do not. -/
theorem exec_mixed (c : Cfg) (f : Faults) (code : Code) (n k : ℕ) (flag : ℤ) (hf : flag ≠ 1) (rest : List ℤ) (failed : Bool)
    (ht : c.apot = true → f.table k = false) (p q : ℕ) (hp : p ≤ n) (hq : q ≤ n) (hfp : f.compute p k = true)
    (hfq : f.compute q k = false) : exec c f code (evals c f failed k (flag :: rest)).1 (List.replicate n (.flag k)) = .stuck := by
  have hnt : ¬ (c.apot = true ∧ f.table k = true) := by
    rintro ⟨h1, h2⟩
    rw [ht h1] at h2
    cases h2
  have hmem : ∀ i, 0 < i → i ≤ n → compute c f i k ∈ (List.range n).map fun i => compute c f (1 + i) k := by
    intro i hi hin
    refine List.mem_map.2 ⟨i - 1, List.mem_range.2 (by omega), ?_⟩
    congr 1
    omega
  by_cases h0 : f.compute 0 k = true
  · have he : evalCalls c f k flag = ([(flagSig, flag), (c.xiSig, 0)] ++ plain (c.syncCalls flag), true) := by
      unfold evalCalls
      simp only
      rw [if_neg hnt, if_pos h0]
    rw [evals, he]
    simp only
    rw [exec_start c f code n k flag hf ht]
    unfold stop
    rw [exec, if_neg]
    intro hall
    have hq0 : 0 < q := by
      rcases Nat.eq_zero_or_pos q with rfl | h
      · rw [h0] at hfq; cases hfq
      · exact h
    have := (List.all_eq_true.1 hall) _ (hmem q hq0 hq)
    unfold compute at this
    rw [if_neg (by rw [hfq]; decide)] at this
    simp only [W.next, body_head] at this
    exact absurd this (by decide)
  · have he : evalCalls c f k flag = ([(flagSig, flag), (c.xiSig, 0)] ++ plain (c.syncCalls flag) ++ plain c.body, false) := by
      unfold evalCalls
      simp only
      rw [if_neg hnt, if_neg h0]
    rw [evals, he]
    simp only
    rw [List.append_assoc, exec_start c f code n k flag hf ht]
    have hb := body_head c
    match hbody : c.body with
    | [] => exact absurd hbody (body_ne c)
    | b :: bs =>
      rw [hbody] at hb
      obtain rfl : b = .reduce .dbl := Option.some.inj hb
      rw [show plain (.reduce .dbl :: bs) = (Sig.reduce .dbl, 0) :: plain bs from rfl, List.cons_append, exec, if_neg]
      intro hall
      have hp0 : 0 < p := by
        rcases Nat.eq_zero_or_pos p with rfl | h
        · exact absurd hfp h0
        · exact h
      have := (List.all_eq_true.1 hall) _ (hmem p hp0 hp)
      unfold compute at this
      rw [if_pos hfp] at this
      exact absurd this (by simp only [W.next]; decide)

/-- **The claim fails for an error of one process only** in an evaluation (all earlier ones passed): the run hangs, whichever
process stops. -/
theorem C102_single_violated (c : Cfg) (f : Faults) (s : Script) (n k p q : ℕ) (hr : s.reading = .ok) (href : c.refused = false)
    (hfirst : ¬ (c.apot = true ∧ f.first = true)) (hf : ∀ x ∈ s.flags, x ≠ 1) (hk : k < s.flags.length)
    (hbefore : ∀ j < k, NoStop c f n j) (ht : c.apot = true → f.table k = false) (hp : p ≤ n) (hq : q ≤ n)
    (hfp : f.compute p k = true) (hfq : f.compute q k = false) : run c f s n = .stuck := by
  rw [run_evals c f s n hr href hfirst]
  have key : ∀ (flags : List ℤ) (i : ℕ) (code : Code), (∀ x ∈ flags, x ≠ 1) → i ≤ k → k - i < flags.length →
      exec c f code (evals c f s.failed i flags).1 (List.replicate n (.flag i)) = .stuck := by
    intro flags
    induction flags with
    | nil => intro i code _ _ h; simp at h
    | cons flag rest ih =>
      intro i code hfl hik hlen
      rcases Nat.eq_or_lt_of_le hik with rfl | hlt
      · exact exec_mixed c f code n i flag (hfl _ (by simp)) rest s.failed ht p q hp hq hfp hfq
      · have hqi := hbefore i hlt
        rw [evals_quiet c f s.failed n i flag rest hqi]
        simp only
        rw [exec_quiet c f code n i flag (hfl _ (by simp)) hqi]
        exact ih (i + 1) code (fun x hx => hfl x (by simp [hx])) (by omega) (by simp at hlen; omega)
  exact key s.flags 0 _ hf (Nat.zero_le _) (by omega)

/-- **Exactly when the processes end together.** -/
theorem C102_partial (c : Cfg) (f : Faults) (s : Script) (n : ℕ) (hf : ∀ x ∈ s.flags, x ≠ 1) :
    run c f s n ≠ .stuck ↔ (s.reading = .error → n = 0) ∧
      (s.reading = .ok → c.refused = false → ¬ (c.apot = true ∧ f.first = true) →
        ∀ k < s.flags.length, (∀ j < k, NoStop c f n j) → NoStop c f n k ∨ AllStop c f n k) := by
  cases hr : s.reading with
  | error =>
    rw [C102_reading_violated c f s n hr]
    simp
  | exit =>
    have := C102_exit c f s n hr
    unfold EndTogether at this
    rw [this]
    simp
  | ok =>
    simp only [reduceCtorEq, false_imp_iff, true_and, forall_const]
    by_cases href : c.refused = true
    · have := C102_refused c f s n hr href
      unfold EndTogether at this
      rw [this]
      simp [href]
    have href : c.refused = false := by simpa using href
    by_cases hfirst : c.apot = true ∧ f.first = true
    · have := C102_first c f s n hr href hfirst
      unfold EndTogether at this
      rw [this]
      simp [hfirst]
    constructor
    · intro hne _ _ k hk hb
      by_contra hcon
      push Not at hcon
      obtain ⟨h1, h2⟩ := hcon
      have ht : c.apot = true → f.table k = false := by
        intro ha
        cases h : f.table k
        · rfl
        · exact absurd (Or.inl ⟨ha, h⟩) h2
      have hq : ∃ p ≤ n, f.compute p k = true := by
        by_contra hno
        push Not at hno
        exact h1 ⟨ht, fun p hp => by simpa using hno p hp⟩
      have hq' : ∃ q ≤ n, f.compute q k = false := by
        by_contra hno
        push Not at hno
        exact h2 (Or.inr fun p hp => by simpa using hno p hp)
      obtain ⟨p, hp, hfp⟩ := hq
      obtain ⟨q, hq, hfq⟩ := hq'
      exact hne (C102_single_violated c f s n k p q hr href hfirst hf hk hb ht hp hq hfp hfq)
    · intro h
      have h := h href hfirst
      rw [run_evals c f s n hr href hfirst]
      have key : ∀ (flags : List ℤ) (i : ℕ) (code : Code), (∀ x ∈ flags, x ≠ 1) → (∀ j < i, NoStop c f n j) →
          (∀ k < i + flags.length, (∀ j < k, NoStop c f n j) → NoStop c f n k ∨ AllStop c f n k) → code = (evals c f s.failed i flags).2 →
          exec c f code (evals c f s.failed i flags).1 (List.replicate n (.flag i)) ≠ .stuck := by
        intro flags
        induction flags with
        | nil =>
          intro i code _ _ _ _
          rw [evals, exec_stop_flag]
          simp
        | cons flag rest ih =>
          intro i code hfl hb hall hcode
          by_cases hqi : NoStop c f n i
          · rw [hcode, evals_quiet c f s.failed n i flag rest hqi]
            simp only
            rw [exec_quiet c f _ n i flag (hfl _ (by simp)) hqi]
            refine ih (i + 1) _ (fun x hx => hfl x (by simp [hx])) ?_ ?_ rfl
            · intro j hj
              rcases Nat.lt_succ_iff_lt_or_eq.1 hj with h | rfl
              · exact hb j h
              · exact hqi
            · intro k hk
              exact hall k (by simp; omega)
          · obtain ⟨e1, e2⟩ := evals_loud c f s.failed n i flag (hfl _ (by simp)) rest ((hall i (by simp) hb).resolve_left hqi)
            rw [hcode, e1, e2]
            simp
      exact key s.flags 0 _ hf (by intro j hj; omega) (by rw [Nat.zero_add]; exact h) rfl

/-! ### Examples -/

/-- EAM with tabulated potentials, stresses, limiting constraints; three data broadcasts. -/
def eamCfg : Cfg := ⟨[.bcast 1 .int, .bcast 30 .dbl, .scatter .int], false, false, 0, 30, [.bcast 1 .dbl, .bcast 10 .dbl], 1, true, true⟩

/-- The same for analytic potentials. -/
def apotCfg : Cfg := { eamCfg with apot := true, ndimtot := 7 }

/-- No errors. -/
def calm : Faults := ⟨false, fun _ => false, fun _ _ => false⟩

/-- Process 2 stops in evaluation 1. -/
def oneStops : Faults := ⟨false, fun _ => false, fun p k => p == 2 && k == 1⟩

/-- The potential can not be evaluated in evaluation 1. -/
def allStop : Faults := ⟨false, fun k => k == 1, fun _ _ => false⟩

example : (∀ k < 3, NoStop eamCfg calm 3 k) ∧ EndTogether eamCfg calm ⟨.ok, [0, 2, 0], false⟩ 3 .success .success :=
  ⟨fun _ _ => ⟨fun _ => rfl, fun _ _ => rfl⟩, by unfold EndTogether; decide⟩

example : AllStop apotCfg allStop 3 1 ∧ EndTogether apotCfg allStop ⟨.ok, [0, 0, 0], false⟩ 3 .failure .failure :=
  ⟨Or.inl ⟨rfl, rfl⟩, by unfold EndTogether; decide⟩

example : run eamCfg oneStops ⟨.ok, [0, 2, 0], false⟩ 3 = .stuck ∧ NoStop eamCfg oneStops 3 0 ∧
    oneStops.compute 2 1 = true ∧ oneStops.compute 0 1 = false :=
  ⟨by decide, ⟨fun _ => rfl, by decide⟩, rfl, rfl⟩

example : run eamCfg calm ⟨.error, [], false⟩ 3 = .stuck := by decide

example : EndTogether { eamCfg with refused := true } calm ⟨.ok, [], false⟩ 3 .failure .failure := by unfold EndTogether; decide

example : EndTogether apotCfg { calm with first := true } ⟨.ok, [0], false⟩ 3 .failure .failure := by unfold EndTogether; decide

example : EndTogether eamCfg calm ⟨.ok, [0, 0], true⟩ 3 .failure .success := by unfold EndTogether; decide

end Verif.Props
