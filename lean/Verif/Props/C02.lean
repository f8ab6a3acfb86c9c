/-
C02  MPI work distribution covers every configuration exactly once.
-/
import Verif.Lemmas.Mpi
import Verif.Spec.Partition

namespace Verif.Props

open Verif.Mpi Verif.Spec

/-- Exactly the process counts `P ≠ 1`, `P ≤ N` are accepted. -/
theorem C02_accepts (inconf : Nat → Nat) (N P : Nat) :
    (distribute inconf N P).isSome ↔ P ≠ 1 ∧ P ≤ N := by
  unfold distribute
  by_cases h1 : P = 1
  · simp [h1]
  · by_cases h2 : P > N
    · rw [if_neg h1, if_pos h2]; simp; omega
    · rw [if_neg h1, if_neg h2]; simp [h1]; omega

example : (distribute (fun _ => 4) 5 3).isSome = true ∧ (distribute (fun _ => 4) 5 1).isSome = false
    ∧ (distribute (fun _ => 4) 5 6).isSome = false := by decide

private theorem dist_cases {inconf : Nat → Nat} {N P : Nat} {d : Dist}
    (h : distribute inconf N P = some d) :
    P ≤ N ∧ (∀ i, d.confDist i = (cdN N P i : Int)) ∧
    (∀ i, d.confLen i = if i + 1 < P then (cdN N P (i + 1) : Int) - cdN N P i
      else N - cdN N P i) ∧
    (∀ i, d.atomDist i = (cnfstart inconf (cdN N P i) : Int)) ∧
    (∀ i, d.atomLen i = if i + 1 < P then
      (cnfstart inconf (cdN N P (i + 1)) : Int) - cnfstart inconf (cdN N P i)
      else cnfstart inconf N - cnfstart inconf (cdN N P i)) := by
  unfold distribute at h
  by_cases h1 : P = 1
  · simp [h1] at h
  · by_cases h2 : P > N
    · rw [if_neg h1, if_pos h2] at h; simp at h
    · rw [if_neg h1, if_neg h2] at h
      simp only [Option.some.injEq] at h
      have hc : ∀ i : Nat, confDist N P i = (cdN N P i : Int) := fun i => confDist_eq N P i
      have hc' : ∀ i : Nat, confDist N P ((i : Int) + 1) = (cdN N P (i + 1) : Int) := by
        intro i
        have := hc (i + 1)
        push_cast at this
        exact this
      subst h
      refine ⟨by omega, ?_, ?_, ?_, ?_⟩ <;> intro i <;> simp [hc, hc']

/-- The configuration blocks are contiguous, disjoint, in rank order and cover `0, …, N-1`. -/
theorem C02_configurations {inconf : Nat → Nat} {N P : Nat} {d : Dist} (hP : 0 < P)
    (h : distribute inconf N P = some d) : IsPartition d.confDist d.confLen P N := by
  obtain ⟨hN, hd, hl, -, -⟩ := dist_cases h
  have hlen : ∀ i, i < P → d.confLen i = ((cdN N P (i + 1) - cdN N P i : Nat) : Int) := by
    intro i hi
    have hm := cdN_mono hi hN
    rw [hl]
    split
    · omega
    · have : i + 1 = P := by omega
      rw [this] at hm ⊢
      rw [cdN_end] at hm ⊢
      omega
  constructor
  · intro r hr
    rw [hd, hlen r hr]
    omega
  · have hb := (blocks_concat (cdN N P) P (fun i hi => (cdN_mono hi hN).le)).1
    rw [cdN_zero hP, cdN_end, Nat.sub_zero, ← List.range_eq_range'] at hb
    rw [← hb]
    unfold owned
    apply List.flatMap_congr
    intro r hr
    rw [List.mem_range] at hr
    rw [hd, hlen r hr]
    simp

example : (distribute (fun c => c + 1) 7 3).isSome = true ∧ (0 : Nat) < 3 := by decide

/-- No block is empty and block sizes differ by at most one. -/
theorem C02_balanced {inconf : Nat → Nat} {N P : Nat} {d : Dist}
    (h : distribute inconf N P = some d) {r s : Nat} (hr : r < P) (hs : s < P) :
    1 ≤ d.confLen r ∧ d.confLen r ≤ d.confLen s + 1 := by
  obtain ⟨hN, hd, hl, -, -⟩ := dist_cases h
  have hlen : ∀ i, i < P → d.confLen i = ((cdN N P (i + 1) - cdN N P i : Nat) : Int) := by
    intro i hi
    have hm := cdN_mono hi hN
    rw [hl]
    split
    · omega
    · have : i + 1 = P := by omega
      rw [this] at hm ⊢
      rw [cdN_end] at hm ⊢
      omega
  have h1 := cdN_succ hr hN
  have h2 := cdN_succ hs hN
  rw [hlen r hr, hlen s hs]
  omega

example : ∃ d, distribute (fun c => c + 1) 7 3 = some d ∧ d.confLen 0 = 2 ∧ d.confLen 2 = 3 :=
  ⟨_, rfl, by decide, by decide⟩

/-- The atom blocks are contiguous, disjoint, in rank order and cover all atoms. -/
theorem C02_atoms {inconf : Nat → Nat} {N P : Nat} {d : Dist} (hP : 0 < P)
    (h : distribute inconf N P = some d) :
    IsPartition d.atomDist d.atomLen P (((List.range N).map inconf).sum) := by
  obtain ⟨hN, -, -, hd, hl⟩ := dist_cases h
  have hsum : ∀ n, cnfstart inconf n = ((List.range n).map inconf).sum := by
    intro n
    induction n with
    | zero => rfl
    | succ n ih => rw [List.range_succ]; simp [cnfstart, ih]
  have hmono : ∀ i, i < P → cnfstart inconf (cdN N P i) ≤ cnfstart inconf (cdN N P (i + 1)) :=
    fun i hi => cnfstart_mono inconf (cdN_mono hi hN).le
  have hlen : ∀ i, i < P → d.atomLen i =
      ((cnfstart inconf (cdN N P (i + 1)) - cnfstart inconf (cdN N P i) : Nat) : Int) := by
    intro i hi
    have hm := hmono i hi
    rw [hl]
    split
    · omega
    · have : i + 1 = P := by omega
      rw [this] at hm ⊢
      rw [cdN_end] at hm ⊢
      omega
  constructor
  · intro r hr
    rw [hd, hlen r hr]
    omega
  · have hb := (blocks_concat (fun i => cnfstart inconf (cdN N P i)) P hmono).1
    simp only [cdN_zero hP, cdN_end] at hb
    rw [show cnfstart inconf 0 = 0 from rfl, Nat.sub_zero, ← List.range_eq_range'] at hb
    rw [← hsum, ← hb]
    unfold owned
    apply List.flatMap_congr
    intro r hr
    rw [List.mem_range] at hr
    rw [hd, hlen r hr]
    simp

/-- The atoms of a rank are the atoms of its configurations: its first atom is the first atom of
its first configuration and it has as many atoms as its configurations together. -/
theorem C02_atoms_belong {inconf : Nat → Nat} {N P : Nat} {d : Dist}
    (h : distribute inconf N P = some d) {r : Nat} (hr : r < P) :
    d.atomDist r = (((List.range (d.confDist r).toNat).map inconf).sum : Nat) ∧
    d.atomLen r =
      (((List.range' (d.confDist r).toNat (d.confLen r).toNat).map inconf).sum : Nat) := by
  obtain ⟨hN, hcd, hcl, hd, hl⟩ := dist_cases h
  have hsum : ∀ n, cnfstart inconf n = ((List.range n).map inconf).sum := by
    intro n
    induction n with
    | zero => rfl
    | succ n ih => rw [List.range_succ]; simp [cnfstart, ih]
  have hsplit : ∀ a b, a ≤ b → (cnfstart inconf b : Int) - cnfstart inconf a
      = (((List.range' a (b - a)).map inconf).sum : Nat) := by
    intro a b hab
    have e : List.range b = List.range a ++ List.range' a (b - a) := by
      rw [List.range_eq_range', List.range_eq_range']
      have := List.range'_append_1 (s := 0) (m := a) (n := b - a)
      rw [Nat.zero_add] at this
      rw [this, show a + (b - a) = b by omega]
    rw [hsum b, hsum a, e]
    simp
  have hm := cdN_mono hr hN
  constructor
  · rw [hd, hcd, hsum]; simp
  · rw [hl, hcl, hcd]
    split
    · rw [hsplit _ _ hm.le]; congr 3
      simp
    · have : r + 1 = P := by omega
      rw [this, cdN_end] at hm
      rw [hsplit _ _ hm.le]; congr 3
      simp

/-- Scattering loses nothing and duplicates nothing: the atoms kept by the ranks, rank after rank,
are the original atom list. -/
theorem C02_scatter {A : Type} {inconf : Nat → Nat} {N P : Nat} {d : Dist} (hP : 0 < P)
    (h : distribute inconf N P = some d) (atoms : List A)
    (hlen : atoms.length = ((List.range N).map inconf).sum) :
    (List.range P).flatMap (fun r => keptAtoms d r atoms) = atoms := by
  obtain ⟨hpos, hown⟩ := C02_atoms hP h
  have hk : ∀ r, r < P → keptAtoms d r atoms =
      (List.range' (d.atomDist r).toNat (d.atomLen r).toNat).flatMap
        fun i => (atoms[i]?).toList := by
    intro r hr
    have h1 := hpos r hr
    have e1 : d.atomDist r = ((d.atomDist r).toNat : Int) := by omega
    have e2 : d.atomLen r = ((d.atomLen r).toNat : Int) := by omega
    unfold keptAtoms
    rw [← range'_getElem?_toList]
    have := filter_interval (d.atomDist r).toNat (d.atomLen r).toNat atoms 0
    rw [← e1, ← e2] at this
    rw [this]
    simp
  have : (List.range P).flatMap (fun r => keptAtoms d r atoms)
      = (owned d.atomDist d.atomLen P).flatMap fun i => (atoms[i]?).toList := by
    unfold owned
    rw [List.flatMap_assoc]
    apply List.flatMap_congr
    intro r hr
    exact hk r (List.mem_range.1 hr)
  rw [this, hown, ← hlen, List.range_eq_range', ← range'_getElem?_toList]
  simp

example : ∃ d, distribute (fun c => c + 1) 3 2 = some d ∧
    keptAtoms d 0 ['a', 'b', 'c', 'd', 'e', 'f'] = ['a'] ∧
    keptAtoms d 1 ['a', 'b', 'c', 'd', 'e', 'f'] = ['b', 'c', 'd', 'e', 'f'] :=
  ⟨_, rfl, by decide, by decide⟩

end Verif.Props
