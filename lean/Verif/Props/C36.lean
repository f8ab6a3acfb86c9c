/-
C36  Every block obtained from the allocation wrapper is released exactly once at shutdown, a reallocated one only under its
final address.
-/
import Verif.Model.Memory
import Mathlib.Data.Finset.Dedup
import Mathlib.Data.List.Nodup
import Mathlib.Data.Finset.Lattice.Fold

namespace Verif.Props

open Verif.Memory

/-! ### The program using the wrapper, and what it owns

The specification keeps the blocks the program has got from the wrapper (`own`) and directly from the library (`raw`) as sets;
it does not look at the registry. -/

/-- What the program does: it may also use the library directly, as e.g. `src/diff_evo.c` does. -/
inductive Op
  /-- `Malloc(size)` -/
  | alloc (size : Nat)
  /-- `Realloc(p, size)` for `NULL` or a block got before -/
  | realloc (p : Addr) (size : Nat)
  /-- `malloc(size)` -/
  | rawAlloc (size : Nat)
  /-- `free(p)` for a block from `malloc` -/
  | rawFree (p : Addr)

/-- Memory, and the blocks the program holds. -/
structure World where
  mem : Mem
  own : Finset Addr
  raw : Finset Addr

/-- One step. The program is required to pass only addresses it holds: `ub` otherwise. -/
def Op.run (L : Libc) (w : World) : Op → Except Stop World
  | .alloc size => (L.Malloc w.mem size).map fun r => ⟨r.2, insert r.1 w.own, w.raw⟩
  | .realloc p size =>
    if p = 0 ∨ p ∈ w.own then (L.Realloc w.mem p size).map fun r => ⟨r.2, insert r.1 (w.own.erase p), w.raw⟩
    else .error .ub
  | .rawAlloc size => (L.rawMalloc w.mem size).map fun r => ⟨r.2, w.own, insert r.1 w.raw⟩
  | .rawFree p => if p ∈ w.raw then (Memory.rawFree w.mem p).map fun m => ⟨m, w.own, w.raw.erase p⟩ else .error .ub

/-- A program is a list of steps. -/
def runOps (L : Libc) : List Op → World → Except Stop World
  | [], w => .ok w
  | o :: os, w =>
    match o.run L w with
    | .error e => .error e
    | .ok w => runOps L os w

/-- At program start. -/
def World.init : World := ⟨Mem.init, ∅, ∅⟩

/-- Invariant: the registry lists the own blocks, each once; own blocks, other blocks and the registry's array are different
live blocks, and there are no others. -/
structure Inv (w : World) : Prop where
  nodup : w.mem.regs.Nodup
  regs : ∀ p, p ∈ w.mem.regs ↔ p ∈ w.own
  own0 : 0 ∉ w.own
  raw0 : 0 ∉ w.raw
  disj : ∀ p ∈ w.own, p ∉ w.raw
  arr : w.mem.arr ∉ w.own ∧ w.mem.arr ∉ w.raw
  live : ∀ p, p ∈ w.mem.live ↔ p ∈ w.own ∨ p ∈ w.raw ∨ (p ≠ 0 ∧ p = w.mem.arr)

theorem inv_init : Inv World.init :=
  ⟨List.nodup_nil, by simp [World.init, Mem.init], by simp [World.init], by simp [World.init], by simp [World.init],
    by simp [World.init], by simp [World.init, Mem.init]⟩

theorem rawMalloc_ok {L : Libc} (hL : L.Valid) {m m' : Mem} {size : Nat} {p : Addr} (h : L.rawMalloc m size = .ok (p, m')) :
    p ≠ 0 ∧ p ∉ m.live ∧ m'.live = insert p m.live ∧ m'.regs = m.regs ∧ m'.arr = m.arr := by
  unfold Libc.rawMalloc at h
  split at h
  · cases h
  · next q hq =>
    cases h
    exact ⟨(hL.malloc _ _ _ _ hq).1, (hL.malloc _ _ _ _ hq).2, rfl, rfl, rfl⟩

theorem rawRealloc_ok {L : Libc} (hL : L.Valid) {m m' : Mem} {size : Nat} {p q : Addr}
    (h : L.rawRealloc m p size = .ok (q, m')) (h0 : 0 ∉ m.live) :
    q ≠ 0 ∧ q ∉ m.live.erase p ∧ m'.live = insert q (m.live.erase p) ∧ m'.regs = m.regs ∧ m'.arr = m.arr ∧
      (p = 0 ∨ p ∈ m.live) := by
  unfold Libc.rawRealloc at h
  split at h
  · next hp =>
    obtain ⟨h1, h2, h3, h4, h5⟩ := rawMalloc_ok hL h
    have he : m.live.erase p = m.live := Finset.erase_eq_of_notMem (by rw [hp]; exact h0)
    rw [he]
    exact ⟨h1, h2, h3, h4, h5, Or.inl hp⟩
  · split at h
    · next hp =>
      split at h
      · cases h
      · next r hr =>
        cases h
        exact ⟨(hL.realloc _ _ _ _ _ hr).1, (hL.realloc _ _ _ _ _ hr).2, rfl, rfl, rfl, Or.inr hp⟩
    · cases h

theorem inv_zero {w : World} (h : Inv w) : 0 ∉ w.mem.live := by
  intro h0
  rcases (h.live 0).1 h0 with h1 | h1 | h1
  · exact h.own0 h1
  · exact h.raw0 h1
  · exact h1.1 rfl

theorem alloc_inv {L : Libc} (hL : L.Valid) {w : World} (h : Inv w) {size : Nat} {p : Addr} {m : Mem}
    (hr : L.Malloc w.mem size = .ok (p, m)) : Inv ⟨m, insert p w.own, w.raw⟩ := by
  unfold Libc.Malloc at hr
  split at hr
  · cases hr
  · split at hr
    · cases hr
    · next p' m1 h1 =>
      split at hr
      · cases hr
      · next a m2 h2 =>
        cases hr
        obtain ⟨a1, a2, a3, a4, a5⟩ := rawMalloc_ok hL h1
        have hz := inv_zero h
        obtain ⟨b1, b2, b3, b4, b5, b6⟩ := rawRealloc_ok hL h2 (by
          rw [a3]
          simp only [Finset.mem_insert, not_or]
          exact ⟨fun e => a1 e.symm, hz⟩)
        rw [a5] at b2 b3 b6
        rw [a3] at b2 b3 b6
        have hpo : p ∉ w.own := fun e => a2 ((h.live p).2 (Or.inl e))
        have hpr : p ∉ w.raw := fun e => a2 ((h.live p).2 (Or.inr (Or.inl e)))
        have hpa : p ≠ w.mem.arr := by
          intro e
          exact a2 ((h.live p).2 (Or.inr (Or.inr ⟨a1, e⟩)))
        have hmem : ∀ q, q ∈ (insert p w.mem.live).erase w.mem.arr ↔ q = p ∨ q ∈ w.own ∨ q ∈ w.raw := by
          intro q
          rw [Finset.mem_erase, Finset.mem_insert, h.live q]
          constructor
          · rintro ⟨hne, e | e | e | e⟩
            · exact Or.inl e
            · exact Or.inr (Or.inl e)
            · exact Or.inr (Or.inr e)
            · exact absurd e.2 hne
          · rintro (e | e | e)
            · exact ⟨fun e2 => hpa (e ▸ e2), Or.inl e⟩
            · exact ⟨fun e2 => h.arr.1 (e2 ▸ e), Or.inr (Or.inl e)⟩
            · exact ⟨fun e2 => h.arr.2 (e2 ▸ e), Or.inr (Or.inr (Or.inl e))⟩
        have ha := fun e => b2 ((hmem a).2 e)
        refine ⟨?_, ?_, ?_, h.raw0, ?_, ?_, ?_⟩
        · simp only [b4, a4]
          rw [List.nodup_append]
          refine ⟨h.nodup, by simp, ?_⟩
          intro x hx y hy e
          rw [List.mem_singleton.1 hy] at e
          exact hpo ((h.regs p).1 (e ▸ hx))
        · intro q
          simp only [b4, a4, List.mem_append, List.mem_singleton, Finset.mem_insert]
          rw [h.regs q]
          tauto
        · simp only [Finset.mem_insert, not_or]
          exact ⟨fun e => a1 e.symm, h.own0⟩
        · intro q hq
          rcases Finset.mem_insert.1 hq with e | e
          · rw [e]; exact hpr
          · exact h.disj q e
        · constructor
          · simp only [Finset.mem_insert, not_or]
            exact ⟨fun e => ha (Or.inl e), fun e => ha (Or.inr (Or.inl e))⟩
          · exact fun e => ha (Or.inr (Or.inr e))
        · intro q
          simp only [b3]
          rw [Finset.mem_insert, hmem q, Finset.mem_insert]
          constructor
          · rintro (e | e | e | e)
            · exact Or.inr (Or.inr ⟨e ▸ b1, e⟩)
            · exact Or.inl (Or.inl e)
            · exact Or.inl (Or.inr e)
            · exact Or.inr (Or.inl e)
          · rintro ((e | e) | e | e)
            · exact Or.inr (Or.inl e)
            · exact Or.inr (Or.inr (Or.inl e))
            · exact Or.inr (Or.inr (Or.inr e))
            · exact Or.inl e.2

theorem op_inv {L : Libc} (hL : L.Valid) {w w' : World} (h : Inv w) (o : Op) (hr : o.run L w = .ok w') : Inv w' := by
  have hmap : ∀ {α : Type} {x : Except Stop α} {f : α → World}, x.map f = .ok w' → ∃ a, x = .ok a ∧ f a = w' := by
    intro α x f hx
    cases x with
    | error e => cases hx
    | ok a => exact ⟨a, rfl, by cases hx; rfl⟩
  have hz := inv_zero h
  cases o with
  | alloc size =>
    obtain ⟨⟨p, m⟩, h1, rfl⟩ := hmap hr
    exact alloc_inv hL h h1
  | realloc p size =>
    simp only [Op.run] at hr
    split at hr
    · next hp =>
      obtain ⟨⟨q, m⟩, h1, rfl⟩ := hmap hr
      unfold Libc.Realloc at h1
      split at h1
      · cases h1
      · split at h1
        · next h0 =>
          have := alloc_inv hL h h1
          rwa [show w.own.erase p = w.own from Finset.erase_eq_of_notMem (by rw [h0]; exact h.own0)]
        · next h0 =>
          have hp : p ∈ w.own := hp.resolve_left h0
          split at h1
          · cases h1
          · next t m1 h2 =>
            cases h1
            obtain ⟨b1, b2, b3, b4, b5, -⟩ := rawRealloc_ok hL h2 hz
            have hmem : ∀ x, x ∈ w.mem.live.erase p ↔ x ∈ w.own.erase p ∨ x ∈ w.raw ∨ (x ≠ 0 ∧ x = w.mem.arr) := by
              intro x
              rw [Finset.mem_erase, Finset.mem_erase, h.live x]
              constructor
              · rintro ⟨hne, e | e | e⟩
                · exact Or.inl ⟨hne, e⟩
                · exact Or.inr (Or.inl e)
                · exact Or.inr (Or.inr e)
              · rintro (e | e | e)
                · exact ⟨e.1, Or.inl e.2⟩
                · exact ⟨fun e2 => h.disj p hp (e2 ▸ e), Or.inr (Or.inl e)⟩
                · exact ⟨fun e2 => h.arr.1 (by rw [← e.2, e2]; exact hp), Or.inr (Or.inr e)⟩
            have hq := fun e => b2 ((hmem q).2 e)
            have hqa : w.mem.arr ≠ q := by
              intro e
              exact hq (Or.inr (Or.inr ⟨b1, e.symm⟩))
            have hmr : ∀ x, x ∈ (w.mem.regs.map fun r => if p = r then q else r) ↔ x ∈ insert q (w.own.erase p) := by
              intro x
              rw [List.mem_map, Finset.mem_insert, Finset.mem_erase]
              constructor
              · rintro ⟨r, hr, e⟩
                split at e
                · exact Or.inl e.symm
                · next hne =>
                  exact Or.inr ⟨fun e2 => hne (e2 ▸ e.symm), (h.regs x).1 (e ▸ hr)⟩
              · rintro (e | e)
                · exact ⟨p, (h.regs p).2 hp, by rw [if_pos rfl, e]⟩
                · exact ⟨x, (h.regs x).2 e.2, by rw [if_neg fun e2 => e.1 e2.symm]⟩
            refine ⟨?_, ?_, ?_, h.raw0, ?_, ?_, ?_⟩
            · simp only [b4]
              refine (List.nodup_map_iff_inj_on h.nodup).2 ?_
              intro x hx y hy e
              have hin : ∀ z ∈ w.mem.regs, p ≠ z → z ≠ q := fun z hz hne e2 =>
                hq (Or.inl (Finset.mem_erase.2 ⟨fun e3 => hne (e3 ▸ e2.symm ▸ rfl), (h.regs q).1 (e2 ▸ hz)⟩))
              split at e
              · next h1 =>
                split at e
                · next h2 => rw [← h1, ← h2]
                · next h2 => exact absurd e.symm (hin y hy h2)
              · next h1 =>
                split at e
                · next h2 => exact absurd e (hin x hx h1)
                · exact e
            · intro x
              simp only [b4]
              exact hmr x
            · rw [Finset.mem_insert, Finset.mem_erase, not_or]
              exact ⟨fun e => b1 e.symm, fun e => h.own0 e.2⟩
            · intro x hx
              rcases Finset.mem_insert.1 hx with e | e
              · rw [e]
                exact fun e2 => hq (Or.inr (Or.inl e2))
              · exact h.disj x (Finset.mem_erase.1 e).2
            · simp only [b5]
              refine ⟨?_, h.arr.2⟩
              rw [Finset.mem_insert, Finset.mem_erase, not_or]
              exact ⟨hqa, fun e => h.arr.1 e.2⟩
            · intro x
              simp only [b3, b5]
              rw [Finset.mem_insert, hmem x, Finset.mem_insert]
              tauto
    · cases hr
  | rawAlloc size =>
    obtain ⟨⟨p, m⟩, h1, rfl⟩ := hmap hr
    obtain ⟨a1, a2, a3, a4, a5⟩ := rawMalloc_ok hL h1
    have hpo : p ∉ w.own := fun e => a2 ((h.live p).2 (Or.inl e))
    have hpa : w.mem.arr ≠ p := fun e => a2 ((h.live p).2 (Or.inr (Or.inr ⟨a1, e.symm⟩)))
    refine ⟨by simpa only [a4] using h.nodup, by simpa only [a4] using h.regs, h.own0, ?_, ?_, ?_, ?_⟩
    · simp only [Finset.mem_insert, not_or]
      exact ⟨fun e => a1 e.symm, h.raw0⟩
    · intro x hx
      simp only [Finset.mem_insert, not_or]
      exact ⟨fun e => hpo (e ▸ hx), h.disj x hx⟩
    · simp only [a5, Finset.mem_insert, not_or]
      exact ⟨h.arr.1, hpa, h.arr.2⟩
    · intro x
      simp only [a3, a5]
      rw [Finset.mem_insert, Finset.mem_insert, h.live x]
      tauto
  | rawFree p =>
    simp only [Op.run] at hr
    split at hr
    · next hp =>
      obtain ⟨m, h1, rfl⟩ := hmap hr
      unfold rawFree at h1
      have hp0 : p ≠ 0 := fun e => h.raw0 (e ▸ hp)
      rw [if_neg hp0, if_pos ((h.live p).2 (Or.inr (Or.inl hp)))] at h1
      cases h1
      refine ⟨h.nodup, h.regs, h.own0, fun e => h.raw0 (Finset.mem_erase.1 e).2,
        fun x hx e => h.disj x hx (Finset.mem_erase.1 e).2, ⟨h.arr.1, fun e => h.arr.2 (Finset.mem_erase.1 e).2⟩, ?_⟩
      intro x
      simp only
      rw [Finset.mem_erase, Finset.mem_erase, h.live x]
      constructor
      · rintro ⟨hne, e | e | e⟩
        · exact Or.inl e
        · exact Or.inr (Or.inl ⟨hne, e⟩)
        · exact Or.inr (Or.inr e)
      · rintro (e | e | e)
        · exact ⟨fun e2 => h.disj x e (e2 ▸ hp), Or.inl e⟩
        · exact ⟨e.1, Or.inr (Or.inl e.2)⟩
        · exact ⟨fun e2 => h.arr.2 (by rw [← e.2, e2]; exact hp), Or.inr (Or.inr e)⟩
    · cases hr

theorem runOps_inv {L : Libc} (hL : L.Valid) (os : List Op) {w w' : World} (h : Inv w) (hr : runOps L os w = .ok w') :
    Inv w' := by
  induction os generalizing w with
  | nil => cases hr; exact h
  | cons o os ih =>
    unfold runOps at hr
    split at hr
    · cases hr
    · next w1 h1 => exact ih (op_inv hL h o h1) hr

theorem freeList_ok (l : List Addr) (m : Mem) (hn : l.Nodup) (h0 : 0 ∉ l) (hl : ∀ p ∈ l, p ∈ m.live) :
    ∃ m', freeList l m = .ok m' ∧ (∀ p, p ∈ m'.live ↔ p ∈ m.live ∧ p ∉ l) ∧ m'.arr = m.arr := by
  induction l generalizing m with
  | nil => exact ⟨m, rfl, by simp, rfl⟩
  | cons a l ih =>
    have ha0 : a ≠ 0 := fun e => h0 (by simp [e])
    unfold freeList
    have hf : rawFree m a = .ok { m with live := m.live.erase a } := by
      unfold rawFree
      rw [if_neg ha0, if_pos (hl a (by simp))]
    rw [hf]
    obtain ⟨m', h1, h2, h3⟩ := ih { m with live := m.live.erase a } (List.nodup_cons.1 hn).2
      (fun e => h0 (List.mem_cons_of_mem _ e)) (fun p hp => Finset.mem_erase.2
        ⟨fun e => (List.nodup_cons.1 hn).1 (e ▸ hp), hl p (List.mem_cons_of_mem _ hp)⟩)
    refine ⟨m', h1, fun p => ?_, h3⟩
    rw [h2 p]
    simp only [Finset.mem_erase, List.mem_cons, not_or]
    tauto

/-- **C36.** Whatever the allocator does and whatever sequence of allocations, reallocations and releases of other blocks the
program performs: at shutdown every block the program holds from the wrapper is freed exactly once, under the address the program
got last; nothing is freed twice or without being live (this would be `ub`), the registry's own memory is freed too, and exactly
the blocks remain which the program got from the library directly. -/
theorem C36_released (L : Libc) (hL : L.Valid) (os : List Op) (w : World) (hr : runOps L os World.init = .ok w) :
    ∃ m, freeAll w.mem = .ok m ∧ m.live = w.raw ∧ w.mem.regs.Nodup ∧ w.mem.regs.toFinset = w.own := by
  have h := runOps_inv hL os inv_init hr
  obtain ⟨m, h1, h2, h3⟩ := freeList_ok w.mem.regs w.mem h.nodup (fun e => h.own0 ((h.regs 0).1 e))
    (fun p hp => (h.live p).2 (Or.inl ((h.regs p).1 hp)))
  unfold freeAll
  rw [h1]
  simp only
  have hraw : ∀ p, p ∈ m.live ↔ p ∈ w.raw ∨ (p ≠ 0 ∧ p = w.mem.arr) := by
    intro p
    rw [h2 p, h.live p, h.regs p]
    constructor
    · rintro ⟨e | e | e, hn⟩
      · exact absurd e hn
      · exact Or.inl e
      · exact Or.inr e
    · rintro (e | e)
      · exact ⟨Or.inr (Or.inl e), fun e2 => h.disj p e2 e⟩
      · exact ⟨Or.inr (Or.inr e), fun e2 => h.arr.1 (e.2 ▸ e2)⟩
  have hset : w.mem.regs.toFinset = w.own := by
    ext p
    rw [List.mem_toFinset, h.regs p]
  unfold rawFree
  rw [h3]
  split
  · next h0 =>
    refine ⟨m, rfl, ?_, h.nodup, hset⟩
    ext p
    rw [hraw p]
    constructor
    · rintro (e | e)
      · exact e
      · exact absurd (e.2.trans h0) e.1
    · exact Or.inl
  · next h0 =>
    rw [if_pos ((hraw _).2 (Or.inr ⟨h0, rfl⟩))]
    refine ⟨_, rfl, ?_, h.nodup, hset⟩
    ext p
    simp only
    rw [Finset.mem_erase, hraw p]
    constructor
    · rintro ⟨hne, e | e⟩
      · exact e
      · exact absurd e.2 hne
    · exact fun e => ⟨fun e2 => h.arr.2 (e2 ▸ e), Or.inl e⟩

/-- An allocator which returns the address behind the live blocks, uses addresses again after a release, and moves every
reallocated block. -/
def bump : Libc := ⟨fun _ live _ => some (live.sup id + 1), fun _ live _ _ => some (live.sup id + 1)⟩

theorem bump_valid : bump.Valid := by
  have h : ∀ live : Finset Addr, live.sup id + 1 ∉ live := by
    intro live hm
    have : live.sup id + 1 ≤ live.sup id := Finset.le_sup (f := id) hm
    exact Nat.not_succ_le_self _ this
  constructor
  · intro n live size p hp
    cases hp
    exact ⟨Nat.succ_ne_zero _, h live⟩
  · intro n live p size q hq
    cases hq
    exact ⟨Nat.succ_ne_zero _, fun e => h live (Finset.mem_erase.1 e).2⟩

/-- Two blocks, the first one reallocated twice, a block of the library in between, a reallocation of `NULL`. -/
def demo : List Op :=
  [.alloc 8, .alloc 8, .realloc 1 16, .rawAlloc 8, .rawAlloc 4, .realloc 5 32, .rawFree 6, .realloc 0 8]

/-- The sequence is possible, its blocks have moved, and what remains after the shutdown is the one block of the library. -/
example : (match runOps bump demo World.init with
    | .ok w => decide (w.mem.regs = [8, 3, 9] ∧ w.own = {8, 3, 9} ∧ w.raw = {7} ∧ w.mem.arr = 10) &&
      (match freeAll w.mem with | .ok m => decide (m.live = {7}) | .error _ => false)
    | .error _ => false) = true := by
  decide +kernel

end Verif.Props
