/-
Lemmas about the start-up broadcasts (`Verif.Model.Workers`).
-/
import Verif.Model.Workers
import Mathlib.Data.List.Basic
import Mathlib.Data.List.Nodup
import Mathlib.Data.List.Forall2
import Mathlib.Tactic.Tauto
import Mathlib.Tactic.Set

set_option linter.unusedSectionVars false

namespace Verif.Workers

variable {K : Type} [DecidableEq K]

/-- What is known about an array on the workers: its length, and whether it holds the values of rank 0. -/
abbrev Fact := Key × Cnt × Bool

/-- All entries a count depends on are known to agree. -/
def Known (R : Mem K) (F : List Fact) : Cnt → Prop
  | .lit _ => True
  | .val k i => ∃ e n, (k, e, true) ∈ F ∧ e.eval R = some n ∧ i < n
  | .mul a b => Known R F a ∧ Known R F b
  | .add a b => Known R F a ∧ Known R F b

/-- Meaning of a fact. -/
def FactOk (R : Mem K) (w : World K) (f : Fact) : Prop :=
  ∃ n, f.2.1.eval R = some n ∧ ∀ r, 1 ≤ r → r < w.size →
    (f.2.2 = false → ∃ d, w.mem r f.1 = some d ∧ d.length = n) ∧
    (f.2.2 = true → ∃ a, R f.1 = some a ∧ n ≤ a.length ∧ w.mem r f.1 = some (a.take n))

/-- A sequence of statements which succeeds. -/
def Safe (R : Mem K) : List Fact → List Op → Prop
  | _, [] => True
  | F, .alloc k e :: t => (∀ f ∈ F, f.1 ≠ k) ∧ Known R F e ∧ (∃ n, 0 < n ∧ e.eval R = some n) ∧ Safe R ((k, e, false) :: F) t
  | F, .bcast k e :: t => (k, e, false) ∈ F ∧ (∀ f ∈ F, f.1 = k → f.2.2 = false) ∧ Known R F e ∧
      (∃ n a, e.eval R = some n ∧ R k = some a ∧ n ≤ a.length) ∧ Safe R ((k, e, true) :: F) t
  | F, .str k :: t => (∀ f ∈ F, f.1 ≠ k) ∧ ∃ a l, R k = some a ∧ strlen a = some l ∧ Safe R ((k, .lit (l + 1), true) :: F) t

/-- The facts after a statement. -/
def opFact : Op → Option Fact
  | .alloc k e => some (k, e, false)
  | .bcast k e => some (k, e, true)
  | .str _ => none

def target : Op → Key
  | .alloc k _ => k
  | .bcast k _ => k
  | .str k => k

theorem Known.mono {R : Mem K} {F G : List Fact} (h : ∀ f ∈ F, f ∈ G) : ∀ {e : Cnt}, Known R F e → Known R G e
  | .lit _, _ => trivial
  | .val _ _, ⟨e, n, hm, he, hi⟩ => ⟨e, n, h _ hm, he, hi⟩
  | .mul _ _, ⟨ha, hb⟩ => ⟨Known.mono h ha, Known.mono h hb⟩
  | .add _ _, ⟨ha, hb⟩ => ⟨Known.mono h ha, Known.mono h hb⟩

theorem eval_known {R : Mem K} {F : List Fact} {w : World K} (h0 : w.mem 0 = R) (hF : ∀ f ∈ F, FactOk R w f) {r : Nat}
    (hr : r < w.size) : ∀ {e : Cnt}, Known R F e → e.eval (w.mem r) = e.eval R
  | .lit _, _ => rfl
  | .val k i, ⟨e, n, hm, he, hi⟩ => by
    by_cases h : r = 0
    · rw [h, h0]
    obtain ⟨n', hn', hx⟩ := hF _ hm
    obtain ⟨a, ha, hl, hw⟩ := (hx r (by omega) hr).2 rfl
    simp only at hn' ha hw
    rw [he] at hn'
    have hn' := Option.some.inj hn'
    subst hn'
    simp only [Cnt.eval, intAt, hw, ha, List.getElem?_take_of_lt hi]
  | .mul a b, ⟨ha, hb⟩ => by simp only [Cnt.eval, eval_known h0 hF hr ha, eval_known h0 hF hr hb]
  | .add a b, ⟨ha, hb⟩ => by simp only [Cnt.eval, eval_known h0 hF hr ha, eval_known h0 hF hr hb]

/-- What a statement has achieved, in the terms of the workers' memories. -/
structure Done (R : Mem K) (w w' : World K) (F : List Fact) (ops : List Op) : Prop where
  size : w'.size = w.size
  root : w'.mem 0 = R
  old : ∀ f ∈ F, FactOk R w' f
  new : ∀ o ∈ ops, ∀ f, opFact o = some f → FactOk R w' f
  strs : ∀ k, Op.str k ∈ ops → ∀ r, 1 ≤ r → r < w.size →
    ∃ a l, R k = some a ∧ strlen a = some l ∧ w'.mem r k = some (a.take (l + 1))
  frame : ∀ k, (∀ o ∈ ops, target o ≠ k) → ∀ r, w'.mem r k = w.mem r k

theorem FactOk.frame {R : Mem K} {w w' : World K} {f : Fact} (h : FactOk R w f) (hs : w'.size = w.size)
    (hm : ∀ r, w'.mem r f.1 = w.mem r f.1) : FactOk R w' f := by
  obtain ⟨n, hn, hx⟩ := h
  refine ⟨n, hn, fun r h1 hr => ?_⟩
  rw [hm r]
  exact hx r h1 (hs ▸ hr)

theorem step_alloc {R : Mem K} {F : List Fact} {w : World K} {k : Key} {e : Cnt} (h0 : w.mem 0 = R)
    (hF : ∀ f ∈ F, FactOk R w f) (hk : ∀ f ∈ F, f.1 ≠ k) (he : Known R F e) {n : Nat} (hn : 0 < n) (hv : e.eval R = some n) :
    ∃ w', step w (.alloc k e) = .ok w' ∧ w'.size = w.size ∧ w'.mem 0 = R ∧ (∀ f ∈ (k, e, false) :: F, FactOk R w' f) ∧
      ∀ k', k' ≠ k → ∀ r, w'.mem r k' = w.mem r k' := by
  have hev : ∀ r, r < w.size → e.eval (w.mem r) = some n := fun r hr => (eval_known h0 hF hr he).trans hv
  have h1 : ¬ ∃ r, r < w.size ∧ 1 ≤ r ∧ e.eval (w.mem r) = none := by
    rintro ⟨r, hr, -, h⟩
    rw [hev r hr] at h
    cases h
  have h2 : ¬ ∃ r, r < w.size ∧ 1 ≤ r ∧ e.eval (w.mem r) = some 0 := by
    rintro ⟨r, hr, -, h⟩
    rw [hev r hr] at h
    have := Option.some.inj h
    omega
  have hst : step w (.alloc k e) = .ok ⟨w.size, (fun r => if r = 0 then w.mem 0 else put (w.mem r) k
      (List.replicate ((e.eval (w.mem r)).getD 0) .blank))⟩ := by
    simp only [step]
    rw [if_neg h1, if_neg h2]
  refine ⟨_, hst, rfl, ?_, ?_, ?_⟩
  · simp [h0]
  · have hfr : ∀ k', k' ≠ k → ∀ r, (if r = 0 then w.mem 0 else put (w.mem r) k
        (List.replicate ((e.eval (w.mem r)).getD 0) .blank)) k' = w.mem r k' := by
      intro k' hk' r
      by_cases h : r = 0
      · simp [h]
      · simp [h, put, hk']
    intro f hf
    rcases List.mem_cons.mp hf with rfl | hf
    · refine ⟨n, hv, fun r h1 hr => ⟨fun _ => ?_, fun h => by cases h⟩⟩
      have : ¬ r = 0 := by omega
      refine ⟨List.replicate n .blank, ?_, by simp⟩
      simp only [this, if_false, put, if_true, hev r hr, Option.getD_some]
    · exact (hF f hf).frame rfl (hfr f.1 (hk f hf))
  · intro k' hk' r
    by_cases h : r = 0
    · simp [h]
    · simp [h, put, hk']

theorem step_bcast {R : Mem K} {F : List Fact} {w : World K} {k : Key} {e : Cnt} (h0 : w.mem 0 = R)
    (hF : ∀ f ∈ F, FactOk R w f) (hroom : (k, e, false) ∈ F) (hk : ∀ f ∈ F, f.1 = k → f.2.2 = false) (he : Known R F e)
    {n : Nat} {a : List (Cell K)} (hv : e.eval R = some n) (ha : R k = some a) (hl : n ≤ a.length) :
    ∃ w', step w (.bcast k e) = .ok w' ∧ w'.size = w.size ∧ w'.mem 0 = R ∧ (∀ f ∈ (k, e, true) :: F, FactOk R w' f) ∧
      ∀ k', k' ≠ k → ∀ r, w'.mem r k' = w.mem r k' := by
  have hev : ∀ r, r < w.size → e.eval (w.mem r) = some n := fun r hr => (eval_known h0 hF hr he).trans hv
  have hr0 : ∀ r, 1 ≤ r → r < w.size → ∃ d, w.mem r k = some d ∧ d.length = n := by
    intro r h1 hr
    obtain ⟨n', hn', hx⟩ := hF _ hroom
    obtain ⟨d, hd, hdl⟩ := (hx r h1 hr).1 rfl
    simp only [hv] at hn'
    exact ⟨d, hd, by rw [hdl]; exact (Option.some.inj hn').symm⟩
  have hrm : n ≤ a.length ∧ ∀ r, r < w.size → 1 ≤ r → roomFor (w.mem r) k n = true := by
    refine ⟨hl, fun r hr h1 => ?_⟩
    obtain ⟨d, hd, hdl⟩ := hr0 r h1 hr
    simp [roomFor, hd, hdl]
  have hrec : ∀ r, 1 ≤ r → r < w.size → received (w.mem r) k (a.take n) = a.take n := by
    intro r h1 hr
    obtain ⟨d, hd, hdl⟩ := hr0 r h1 hr
    have hz : (a.take n).length = d.length := by rw [List.length_take, Nat.min_eq_left hl, hdl]
    simp only [received, hd, Option.getD_some, hz, List.drop_length, List.append_nil]
  have hst : step w (.bcast k e) = .ok ⟨w.size, (fun r => if r = 0 then w.mem 0 else put (w.mem r) k
      (received (w.mem r) k (a.take n)))⟩ := by
    simp only [step, h0, hv]
    rw [if_pos hev]
    simp only [ha]
    rw [if_pos hrm]
  have hfr : ∀ k', k' ≠ k → ∀ r, (if r = 0 then w.mem 0 else put (w.mem r) k (received (w.mem r) k (a.take n))) k' =
      w.mem r k' := by
    intro k' hk' r
    by_cases h : r = 0
    · simp [h]
    · simp [h, put, hk']
  refine ⟨_, hst, rfl, by simp [h0], ?_, hfr⟩
  intro f hf
  rcases List.mem_cons.mp hf with rfl | hf
  · refine ⟨n, hv, fun r h1 hr => ⟨fun h => (by cases h), fun _ => ⟨a, ha, hl, ?_⟩⟩⟩
    have : ¬ r = 0 := by omega
    simp only [this, if_false, put, if_true, hrec r h1 hr]
  · by_cases hfk : f.1 = k
    · obtain ⟨n', hn', hx⟩ := hF f hf
      refine ⟨n', hn', fun r h1 hr => ⟨fun hb => ?_, fun hb => ?_⟩⟩
      · obtain ⟨d, hd, hdl⟩ := (hx r h1 hr).1 hb
        obtain ⟨d', hd', hdl'⟩ := hr0 r h1 hr
        rw [hfk, hd'] at hd
        have hdd := Option.some.inj hd
        have : ¬ r = 0 := by omega
        refine ⟨a.take n, ?_, ?_⟩
        · simp only [this, if_false, put, hfk, if_true, hrec r h1 hr]
        · rw [List.length_take, Nat.min_eq_left hl, ← hdl', hdd, hdl]
      · rw [hk f hf hfk] at hb
        cases hb
    · exact (hF f hf).frame rfl (hfr f.1 hfk)

theorem step_str {R : Mem K} {F : List Fact} {w : World K} {k : Key} (h0 : w.mem 0 = R) (hF : ∀ f ∈ F, FactOk R w f)
    (hk : ∀ f ∈ F, f.1 ≠ k) {a : List (Cell K)} {l : Nat} (ha : R k = some a) (hl : strlen a = some l) :
    ∃ w', step w (.str k) = .ok w' ∧ w'.size = w.size ∧ w'.mem 0 = R ∧
      (∀ f ∈ (k, .lit (l + 1), true) :: F, FactOk R w' f) ∧ ∀ k', k' ≠ k → ∀ r, w'.mem r k' = w.mem r k' := by
  have hlen : l + 1 ≤ a.length := by
    have := List.findIdx?_eq_some_iff_findIdx_eq.mp hl
    omega
  have hfr : ∀ k', k' ≠ k → ∀ r, (if r = 0 then w.mem 0 else put (w.mem r) k (a.take (l + 1))) k' = w.mem r k' := by
    intro k' hk' r
    by_cases h : r = 0
    · simp [h]
    · simp [h, put, hk']
  refine ⟨{ w with mem := fun r => if r = 0 then w.mem 0 else put (w.mem r) k (a.take (l + 1)) }, by simp only [step, h0, ha, hl],
    rfl, by simp [h0], ?_, hfr⟩
  intro f hf
  rcases List.mem_cons.mp hf with rfl | hf
  · refine ⟨l + 1, rfl, fun r h1 hr => ⟨fun h => (by cases h), fun _ => ⟨a, ha, hlen, ?_⟩⟩⟩
    have : ¬ r = 0 := by omega
    simp [this, put]
  · exact (hF f hf).frame rfl (hfr f.1 (hk f hf))

/-- A safe sequence succeeds. -/
theorem run_safe {R : Mem K} : ∀ (ops : List Op) (F : List Fact) (w : World K), w.mem 0 = R → (∀ f ∈ F, FactOk R w f) →
    Safe R F ops → ∃ w', run ops w = .ok w' ∧ Done R w w' F ops
  | [], F, w, h0, hF, _ => ⟨w, rfl, ⟨rfl, h0, hF, by simp, by simp, by simp⟩⟩
  | .alloc k e :: t, F, w, h0, hF, hs => by
    obtain ⟨hk, he, ⟨n, hn, hv⟩, hs⟩ := hs
    obtain ⟨w1, hw1, hz, hr, hf, hfr⟩ := step_alloc h0 hF hk he hn hv
    obtain ⟨w2, hw2, hd⟩ := run_safe t _ w1 hr hf hs
    refine ⟨w2, by simp only [run, hw1, hw2], ⟨hd.size.trans hz, hd.root, fun f h => hd.old f (List.mem_cons_of_mem _ h), ?_, ?_, ?_⟩⟩
    · intro o ho f hof
      rcases List.mem_cons.mp ho with rfl | ho
      · simp only [opFact, Option.some.injEq] at hof
        exact hd.old f (hof ▸ List.mem_cons_self)
      · exact hd.new o ho f hof
    · intro k' hk' r h1 hr'
      rcases List.mem_cons.mp hk' with h | h
      · cases h
      · exact hd.strs k' h r h1 (hz ▸ hr')
    · intro k' hk' r
      rw [hd.frame k' (fun o ho => hk' o (List.mem_cons_of_mem _ ho)) r]
      exact hfr k' (fun h => hk' _ List.mem_cons_self h.symm) r
  | .bcast k e :: t, F, w, h0, hF, hs => by
    obtain ⟨hroom, hk, he, ⟨n, a, hv, ha, hl⟩, hs⟩ := hs
    obtain ⟨w1, hw1, hz, hr, hf, hfr⟩ := step_bcast h0 hF hroom hk he hv ha hl
    obtain ⟨w2, hw2, hd⟩ := run_safe t _ w1 hr hf hs
    refine ⟨w2, by simp only [run, hw1, hw2], ⟨hd.size.trans hz, hd.root, fun f h => hd.old f (List.mem_cons_of_mem _ h), ?_, ?_, ?_⟩⟩
    · intro o ho f hof
      rcases List.mem_cons.mp ho with rfl | ho
      · simp only [opFact, Option.some.injEq] at hof
        exact hd.old f (hof ▸ List.mem_cons_self)
      · exact hd.new o ho f hof
    · intro k' hk' r h1 hr'
      rcases List.mem_cons.mp hk' with h | h
      · cases h
      · exact hd.strs k' h r h1 (hz ▸ hr')
    · intro k' hk' r
      rw [hd.frame k' (fun o ho => hk' o (List.mem_cons_of_mem _ ho)) r]
      exact hfr k' (fun h => hk' _ List.mem_cons_self h.symm) r
  | .str k :: t, F, w, h0, hF, hs => by
    obtain ⟨hk, a, l, ha, hl, hs⟩ := hs
    obtain ⟨w1, hw1, hz, hr, hf, hfr⟩ := step_str h0 hF hk ha hl
    obtain ⟨w2, hw2, hd⟩ := run_safe t _ w1 hr hf hs
    refine ⟨w2, by simp only [run, hw1, hw2], ⟨hd.size.trans hz, hd.root, fun f h => hd.old f (List.mem_cons_of_mem _ h), ?_, ?_, ?_⟩⟩
    · intro o ho f hof
      rcases List.mem_cons.mp ho with rfl | ho
      · cases hof
      · exact hd.new o ho f hof
    · intro k' hk' r h1 hr'
      rcases List.mem_cons.mp hk' with h | h
      · have h := Op.str.inj h
        subst h
        obtain ⟨n, hn, hx⟩ := hd.old (k', .lit (l + 1), true) List.mem_cons_self
        obtain ⟨a', ha', -, hm⟩ := (hx r h1 (by rw [hd.size, hz]; exact hr')).2 rfl
        simp only [Cnt.eval, Option.some.injEq] at hn
        rw [ha] at ha'
        have := Option.some.inj ha'
        subst this
        subst hn
        exact ⟨a, l, ha, hl, hm⟩
      · exact hd.strs k' h r h1 (hz ▸ hr')
    · intro k' hk' r
      rw [hd.frame k' (fun o ho => hk' o (List.mem_cons_of_mem _ ho)) r]
      exact hfr k' (fun h => hk' _ List.mem_cons_self h.symm) r

/-- The processes agree on the statements if these depend only on agreed entries. -/
theorem phase_run {f : Mem K → Option (List Op)} {w : World K} {l : List Op} (hs : 0 < w.size)
    (h : ∀ r, r < w.size → f (w.mem r) = some l) : phase f w = run l w := by
  unfold phase
  rw [h 0 hs]
  simp only
  rw [if_pos h]

/-! ### A check for fixed sequences -/

def knownB (F : List Fact) : Cnt → Bool
  | .lit _ => true
  | .val k i => decide (i = 0) && decide ((k, .lit 1, true) ∈ F)
  | .mul a b => knownB F a && knownB F b
  | .add a b => knownB F a && knownB F b

def checkB : List Fact → List Op → Bool
  | _, [] => true
  | F, .alloc k e :: t => F.all (fun f => decide (f.1 ≠ k)) && knownB F e && checkB ((k, e, false) :: F) t
  | F, .bcast k e :: t => decide ((k, e, false) ∈ F) && F.all (fun f => decide (f.1 = k → f.2.2 = false)) && knownB F e &&
      checkB ((k, e, true) :: F) t
  | _, .str _ :: _ => false

/-- Sizes of the arrays of rank 0 which the statements need. -/
def SizeOk (R : Mem K) : Op → Prop
  | .alloc _ e => ∃ n, 0 < n ∧ e.eval R = some n
  | .bcast k e => ∃ n a, e.eval R = some n ∧ R k = some a ∧ n ≤ a.length
  | .str k => ∃ a l, R k = some a ∧ strlen a = some l

theorem known_of_knownB {R : Mem K} {F : List Fact} : ∀ {e : Cnt}, knownB F e = true → Known R F e
  | .lit _, _ => trivial
  | .val k i, h => by
    simp only [knownB, Bool.and_eq_true, decide_eq_true_eq] at h
    exact ⟨.lit 1, 1, h.2, rfl, by omega⟩
  | .mul _ _, h => by
    simp only [knownB, Bool.and_eq_true] at h
    exact ⟨known_of_knownB h.1, known_of_knownB h.2⟩
  | .add _ _, h => by
    simp only [knownB, Bool.and_eq_true] at h
    exact ⟨known_of_knownB h.1, known_of_knownB h.2⟩

theorem safe_of_check {R : Mem K} : ∀ (ops : List Op) (F : List Fact), checkB F ops = true → (∀ o ∈ ops, SizeOk R o) → Safe R F ops
  | [], _, _, _ => trivial
  | .alloc k e :: t, F, h, hs => by
    simp only [checkB, Bool.and_eq_true, List.all_eq_true, decide_eq_true_eq] at h
    exact ⟨h.1.1, known_of_knownB h.1.2, hs (.alloc k e) List.mem_cons_self,
      safe_of_check t _ h.2 fun o ho => hs o (List.mem_cons_of_mem _ ho)⟩
  | .bcast k e :: t, F, h, hs => by
    simp only [checkB, Bool.and_eq_true, List.all_eq_true, decide_eq_true_eq] at h
    exact ⟨h.1.1.1, h.1.1.2, known_of_knownB h.1.2, hs (.bcast k e) List.mem_cons_self,
      safe_of_check t _ h.2 fun o ho => hs o (List.mem_cons_of_mem _ ho)⟩
  | .str _ :: _, _, h, _ => by simp [checkB] at h

/-! ### Loops -/

theorem safe_allocs {R : Mem K} : ∀ (L : List (Key × Cnt)) (F : List Fact) (rest : List Op), (L.map Prod.fst).Nodup →
    (∀ p ∈ L, (∀ f ∈ F, f.1 ≠ p.1) ∧ Known R F p.2 ∧ ∃ n, 0 < n ∧ p.2.eval R = some n) →
    (∀ G, (∀ f, f ∈ G ↔ f ∈ F ∨ ∃ p ∈ L, f = (p.1, p.2, false)) → Safe R G rest) →
    Safe R F (L.map (fun p => Op.alloc p.1 p.2) ++ rest)
  | [], F, rest, _, _, h => h F (by simp)
  | p :: L, F, rest, hn, hp, h => by
    simp only [List.map_cons, List.nodup_cons] at hn
    obtain ⟨h1, h2, h3⟩ := hp p List.mem_cons_self
    refine ⟨h1, h2, h3, ?_⟩
    apply safe_allocs L _ rest hn.2
    · intro q hq
      obtain ⟨g1, g2, g3⟩ := hp q (List.mem_cons_of_mem _ hq)
      refine ⟨?_, g2.mono fun f hf => List.mem_cons_of_mem _ hf, g3⟩
      intro f hf
      rcases List.mem_cons.mp hf with rfl | hf
      · intro he
        exact hn.1 (List.mem_map.mpr ⟨q, hq, he.symm⟩)
      · exact g1 f hf
    · intro G hG
      apply h G
      intro f
      rw [hG f]
      simp only [List.mem_cons, exists_eq_or_imp]
      tauto

theorem safe_bcasts {R : Mem K} : ∀ (L : List (Key × Cnt)) (F : List Fact), (L.map Prod.fst).Nodup →
    (∀ p ∈ L, (p.1, p.2, false) ∈ F ∧ (∀ f ∈ F, f.1 = p.1 → f.2.2 = false) ∧ Known R F p.2 ∧
      ∃ n a, p.2.eval R = some n ∧ R p.1 = some a ∧ n ≤ a.length) →
    Safe R F (L.map (fun p => Op.bcast p.1 p.2))
  | [], _, _, _ => trivial
  | p :: L, F, hn, hp => by
    simp only [List.map_cons, List.nodup_cons] at hn
    obtain ⟨h1, h2, h3, h4⟩ := hp p List.mem_cons_self
    refine ⟨h1, h2, h3, h4, ?_⟩
    apply safe_bcasts L _ hn.2
    intro q hq
    obtain ⟨g1, g2, g3, g4⟩ := hp q (List.mem_cons_of_mem _ hq)
    refine ⟨List.mem_cons_of_mem _ g1, ?_, g3.mono fun f hf => List.mem_cons_of_mem _ hf, g4⟩
    intro f hf he
    rcases List.mem_cons.mp hf with rfl | hf
    · exact absurd (List.mem_map.mpr ⟨q, hq, he.symm⟩) hn.1
    · exact g2 f hf he

theorem safe_strs {R : Mem K} : ∀ (L : List Key) (F : List Fact), L.Nodup →
    (∀ k ∈ L, (∀ f ∈ F, f.1 ≠ k) ∧ ∃ a l, R k = some a ∧ strlen a = some l) → Safe R F (L.map Op.str)
  | [], _, _, _ => trivial
  | k :: L, F, hn, hp => by
    simp only [List.nodup_cons] at hn
    obtain ⟨h1, a, l, ha, hl⟩ := hp k List.mem_cons_self
    refine ⟨h1, a, l, ha, hl, ?_⟩
    apply safe_strs L _ hn.2
    intro q hq
    obtain ⟨g1, g2⟩ := hp q (List.mem_cons_of_mem _ hq)
    refine ⟨?_, g2⟩
    intro f hf
    rcases List.mem_cons.mp hf with rfl | hf
    · intro he
      exact hn.1 (by rw [show k = q from he]; exact hq)
    · exact g1 f hf

end Verif.Workers

namespace Verif.Workers

/-! ### Statements change only their target -/

variable {K : Type} [DecidableEq K]

theorem step_frame {w w' : World K} {o : Op} (h : step w o = .ok w') {k : Key} (hk : target o ≠ k) (r : Nat) :
    w'.mem r k = w.mem r k := by
  have hk' : ∀ m : Mem K, ∀ k0 a, k0 ≠ k → put m k0 a k = m k := by
    intro m k0 a h
    simp only [put]
    rw [if_neg fun h' => h (Eq.symm h')]
  have hite : ∀ (f : Nat → List (Cell K)) (k0 : Key), k0 ≠ k →
      (if r = 0 then w.mem 0 else put (w.mem r) k0 (f r)) k = w.mem r k := by
    intro f k0 hk0
    by_cases hr : r = 0
    · simp [hr]
    · rw [if_neg hr, hk' _ _ _ hk0]
  cases o with
  | alloc k0 e =>
    simp only [step] at h
    split at h
    · cases h
    · split at h
      · cases h
      · cases h
        exact hite (fun r => List.replicate ((e.eval (w.mem r)).getD 0) .blank) k0 hk
  | bcast k0 e =>
    simp only [step] at h
    split at h
    · cases h
    · split at h
      · split at h
        · cases h
        · rename_i a _
          split at h
          · cases h
            exact hite (fun r => received (w.mem r) k0 (a.take _)) k0 hk
          · cases h
      · cases h
  | str k0 =>
    simp only [step] at h
    split at h
    · cases h
    · rename_i a _
      split at h
      · cases h
      · cases h
        exact hite (fun _ => a.take _) k0 hk

theorem run_frame {k : Key} (r : Nat) : ∀ (ops : List Op) (w w' : World K), run ops w = .ok w' → (∀ o ∈ ops, target o ≠ k) →
    w'.mem r k = w.mem r k
  | [], w, w', h, _ => by
    simp only [run] at h
    cases h
    rfl
  | o :: t, w, w', h, hk => by
    simp only [run] at h
    cases hs : step w o with
    | error f => rw [hs] at h; cases h
    | ok w1 =>
      rw [hs] at h
      simp only at h
      rw [run_frame r t w1 w' h fun o ho => hk o (List.mem_cons_of_mem _ ho)]
      exact step_frame hs (hk o List.mem_cons_self) r

theorem phase_frame {f : Mem K → Option (List Op)} {k : Key} (r : Nat) {w w' : World K} (h : phase f w = .ok w')
    (hk : ∀ m l, f m = some l → ∀ o ∈ l, target o ≠ k) : w'.mem r k = w.mem r k := by
  unfold phase at h
  cases hf : f (w.mem 0) with
  | none => rw [hf] at h; cases h
  | some l =>
    rw [hf] at h
    simp only at h
    split at h
    · exact run_frame r l w w' h (hk _ l hf)
    · cases h

/-! ### Structures -/

/-- Equal in the given components. -/
def AgreeOn (fs : List String) (x y : Rec K) : Prop := ∀ f ∈ fs, x f = y f

theorem recv_agree (fs : List String) (a loc : Rec K) : AgreeOn fs (recv fs a loc) a := by
  intro f hf
  simp [recv, hf]

theorem local_agree (fs : List String) (root : Bool) (a loc : Rec K) :
    AgreeOn fs (if root then a else recv fs a loc) a := by
  cases root
  · exact recv_agree fs a loc
  · intro f _
    rfl

theorem atomsLoop_ok (fs : List String) (root : Bool) (first my : Nat) : ∀ (t : List (Rec K)) (i : Nat) (loc : Rec K)
    (own : List (Rec K)), own.length = my →
    ∃ res, atomsLoop fs root first my t i loc own = .ok res ∧ res.length = my ∧
      ∀ j x, j < my → res[j]? = some x →
        (∀ a, i ≤ first + j → t[first + j - i]? = some a → AgreeOn fs x a) ∧
        ((first + j < i ∨ i + t.length ≤ first + j) → own[j]? = some x)
  | [], i, loc, own, hl => by
    refine ⟨own, rfl, hl, fun j x _ hx => ⟨fun a _ ha => ?_, fun _ => hx⟩⟩
    simp at ha
  | a :: t, i, loc, own, hl => by
    simp only [atomsLoop]
    set loc' : Rec K := if root then a else recv fs a loc with hloc
    by_cases hm : first ≤ i ∧ i < first + my
    · rw [if_pos hm, if_pos (by omega)]
      obtain ⟨res, hres, hlen, hx⟩ := atomsLoop_ok fs root first my t (i + 1) loc' (own.set (i - first) loc') (by simpa using hl)
      refine ⟨res, hres, hlen, fun j x hj hjx => ⟨fun b hb hbt => ?_, fun hout => ?_⟩⟩
      · by_cases hij : first + j = i
        · have h1 := (hx j x hj hjx).2 (Or.inl (by omega))
          have h2 : i - first = j := by omega
          rw [h2, List.getElem?_set_self (by omega)] at h1
          have h3 : first + j - i = 0 := by omega
          rw [h3] at hbt
          simp only [List.getElem?_cons_zero, Option.some.injEq] at hbt
          rw [← Option.some.inj h1, ← hbt]
          exact local_agree fs root a loc
        · have h3 : first + j - i = (first + j - (i + 1)) + 1 := by omega
          rw [h3, List.getElem?_cons_succ] at hbt
          exact (hx j x hj hjx).1 b (by omega) hbt
      · have h1 := (hx j x hj hjx).2 (by simp only [List.length_cons] at hout; omega)
        rwa [List.getElem?_set_ne (by simp only [List.length_cons] at hout; omega)] at h1
    · rw [if_neg hm]
      obtain ⟨res, hres, hlen, hx⟩ := atomsLoop_ok fs root first my t (i + 1) loc' own hl
      refine ⟨res, hres, hlen, fun j x hj hjx => ⟨fun b hb hbt => ?_, fun hout => ?_⟩⟩
      · have h3 : first + j - i = (first + j - (i + 1)) + 1 := by omega
        rw [h3, List.getElem?_cons_succ] at hbt
        exact (hx j x hj hjx).1 b (by omega) hbt
      · exact (hx j x hj hjx).2 (by simp only [List.length_cons] at hout; omega)

theorem part_eq {A : Type} (l : List A) (a n : Nat) : (l.take (a + n)).drop a = (l.drop a).take n := by
  rw [List.drop_take]
  congr 1
  omega

theorem sendAtoms_ok (fs : List String) (root : Bool) (first my : Nat) (atoms : List (Rec K)) (junk : Rec K) (hmy : 0 < my)
    (hlen : first + my ≤ atoms.length) :
    ∃ res, sendAtoms fs root first my atoms junk = .ok res ∧
      List.Forall₂ (AgreeOn fs) res ((atoms.take (first + my)).drop first) := by
  obtain ⟨res, hres, hl, hx⟩ := atomsLoop_ok fs root first my atoms 0 junk (List.replicate my fun _ => []) (by simp)
  refine ⟨res, by simp only [sendAtoms]; rw [if_neg (by omega)]; exact hres, ?_⟩
  rw [List.forall₂_iff_get]
  have hl2 : ((atoms.take (first + my)).drop first).length = my := by
    rw [List.length_drop, List.length_take]
    omega
  refine ⟨by rw [hl, hl2], fun j h1 h2 => ?_⟩
  have hj : j < my := by omega
  refine (hx j (res.get ⟨j, h1⟩) hj (by simp [h1])).1 _ (by omega) ?_
  have hb : first + j < atoms.length := by omega
  simp [hb]

theorem entriesLoop_mine (fs : List String) (root : Bool) : ∀ (l : List (Rec K)) (j : Nat) (loc : Rec K) (own : List (Rec K)),
    own.length = j + l.length → ∃ loc' own', entriesLoop fs root true l j loc own = .ok (loc', own') ∧ own'.take j = own.take j ∧
      List.Forall₂ (AgreeOn fs) (own'.drop j) l
  | [], j, loc, own, hl => by
    refine ⟨loc, own, rfl, rfl, ?_⟩
    rw [List.drop_of_length_le (by simp at hl; omega)]
    exact .nil
  | a :: t, j, loc, own, hl => by
    simp only [entriesLoop]
    set loc1 : Rec K := if root then a else recv fs a loc with hloc
    simp only [List.length_cons] at hl
    rw [if_pos trivial, if_pos (by omega)]
    obtain ⟨loc', own', h1, h2, h3⟩ := entriesLoop_mine fs root t (j + 1) loc1 (own.set j loc1) (by simp; omega)
    have hlen : own'.length ≥ j + 1 := by
      have h4 := congrArg List.length h2
      simp only [List.length_take, List.length_set] at h4
      omega
    have hj : own'[j]? = some loc1 := by
      have h4 := congrArg (fun l => l[j]?) h2
      simp only [List.getElem?_take_of_lt (show j < j + 1 by omega)] at h4
      rw [h4, List.getElem?_set_self (by omega)]
    refine ⟨loc', own', h1, ?_, ?_⟩
    · have h4 := congrArg (List.take j) h2
      simp only [List.take_take, Nat.min_eq_left (show j ≤ j + 1 by omega)] at h4
      rw [h4, List.take_set_of_le (by omega)]
    · have h5 : own'.drop j = loc1 :: own'.drop (j + 1) := by
        rw [List.drop_eq_getElem_cons (by omega)]
        congr 1
        have h6 := List.getElem?_eq_some_iff.mp hj
        exact h6.2
      rw [h5]
      exact .cons (local_agree fs root a loc) h3

theorem entriesLoop_other (fs : List String) (root : Bool) : ∀ (l : List (Rec K)) (j : Nat) (loc : Rec K) (own : List (Rec K)),
    ∃ loc', entriesLoop fs root false l j loc own = .ok (loc', own)
  | [], _, loc, _ => ⟨loc, rfl⟩
  | a :: t, j, loc, own => by
    simp only [entriesLoop]
    exact entriesLoop_other fs root t (j + 1) _ own

theorem listsLoop_ok (fs : List String) (skip root : Bool) (first my : Nat) : ∀ (ls : List (List (Rec K))) (i : Nat) (loc : Rec K),
    (skip = true ∨ ∀ l ∈ ls, l ≠ []) →
    ∃ res, listsLoop fs skip root first my ls i loc = .ok res ∧
      List.Forall₂ (List.Forall₂ (AgreeOn fs)) res ((ls.take (first + my - i)).drop (first - i))
  | [], i, loc, _ => ⟨[], rfl, by simp⟩
  | l :: t, i, loc, hs => by
    have hs' : skip = true ∨ ∀ l ∈ t, l ≠ [] := hs.imp id fun h x hx => h x (List.mem_cons_of_mem _ hx)
    simp only [listsLoop]
    have hno : ¬ ((decide (first ≤ i ∧ i < first + my) = true) ∧ l.length = 0 ∧ ¬ skip = true) := by
      rintro ⟨-, h1, h2⟩
      rcases hs with hs | hs
      · exact h2 hs
      · exact hs l List.mem_cons_self (List.length_eq_zero_iff.mp h1)
    rw [if_neg hno]
    by_cases hm : first ≤ i ∧ i < first + my
    · simp only [hm, decide_true, and_self, if_true]
      obtain ⟨loc', own', h1, -, h3⟩ := entriesLoop_mine fs root l 0 loc (List.replicate l.length fun _ => []) (by simp)
      rw [h1]
      obtain ⟨res, hres, hall⟩ := listsLoop_ok fs skip root first my t (i + 1) loc' hs'
      simp only [hres]
      refine ⟨own' :: res, rfl, ?_⟩
      have e1 : first + my - i = (first + my - (i + 1)) + 1 := by omega
      have e2 : first - i = 0 := by omega
      have e3 : first - (i + 1) = 0 := by omega
      rw [e1, e2, List.take_succ_cons, List.drop_zero]
      rw [e3, List.drop_zero] at hall
      exact .cons (by simpa using h3) hall
    · simp only [hm, decide_false, Bool.false_eq_true, if_false]
      obtain ⟨loc', h1⟩ := entriesLoop_other fs root l 0 loc (List.replicate 0 fun _ => [])
      rw [h1]
      obtain ⟨res, hres, hall⟩ := listsLoop_ok fs skip root first my t (i + 1) loc' hs'
      simp only [hres]
      refine ⟨res, rfl, ?_⟩
      by_cases hlt : i < first
      · have e1 : first + my - i = (first + my - (i + 1)) + 1 := by omega
        have e2 : first - i = (first - (i + 1)) + 1 := by omega
        rw [e1, e2, List.take_succ_cons, List.drop_succ_cons]
        exact hall
      · have e1 : first + my - i = 0 := by omega
        have e2 : first + my - (i + 1) = 0 := by omega
        rw [e1, List.take_zero, List.drop_nil]
        rw [e2, List.take_zero, List.drop_nil] at hall
        exact hall

end Verif.Workers
