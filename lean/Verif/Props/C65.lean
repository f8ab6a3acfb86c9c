/-
C65  Stresses of pair and EAM potentials are the derivative of the energy with respect to the strain.

Neighbour lists and cell volume in the stress are fixed while all vectors to neighbours are strained
(`Spec/Motion.lean`).  Energy and stresses are read off the force vector.
-/
import Verif.Lemmas.HalfMotion

namespace Verif.Props

open Verif.Force Verif.Spec

theorem pairSmooth_now {P : Pots ℝ} {f : Conf ℝ} {ts : List Node} {x : Nat → V3 ℝ} (h : PairSmooth P f ts x) {M : Motion}
    (hM : M.path M.now = reach x) : ∀ b ∈ bondsFrom f.start ts, (b.now M).n.r ≠ 0 ∧ (b.now M).n.r ≠ P.fin b.l.col0 ∧
      ((b.now M).n.r < P.fin b.l.col0 → HasDerivAt (P.val b.l.col0) (P.grad b.l.col0 (b.now M).n.r) (b.now M).n.r) := by
  intro b hb
  have := h (b.entry x) (by rw [entries_place]; exact List.mem_map_of_mem hb)
  unfold Bond.now
  rw [hM]
  exact this

theorem transferSmooth_now {P : EamPots ℝ} {f : Conf ℝ} {ts : List Node} {x : Nat → V3 ℝ}
    (h0 : ∀ e ∈ entries (place f ts x), e.n.r ≠ 0) (h : TransferSmooth P f ts x) {M : Motion}
    (hM : M.path M.now = reach x) : ∀ b ∈ bondsFrom f.start ts, (b.now M).n.r ≠ 0 ∧
      ∀ t ∈ [b.l.typ, b.otyp], (b.now M).n.r ≠ P.fin (P.paircol + t) ∧
      ((b.now M).n.r < P.fin (P.paircol + t) →
        HasDerivAt (P.val (P.paircol + t)) (P.grad (P.paircol + t) (b.now M).n.r) (b.now M).n.r) := by
  intro b hb
  have hm : b.entry x ∈ entries (place f ts x) := by rw [entries_place]; exact List.mem_map_of_mem hb
  have h1 := h0 (b.entry x) hm
  have h2 := h (b.entry x) hm
  unfold Bond.now
  rw [hM]
  exact ⟨h1, h2⟩

theorem place_eq_placeWith (f : Conf ℝ) (ts : List Node) (x : Nat → V3 ℝ) {M : Motion} (hM : M.path M.now = reach x) :
    placeWith f ts (M.path M.now) = place f ts x := by
  rw [hM]
  exact placeWith_reach f ts x

theorem virial_along (slope : Entry ℝ → ℝ) (f : Conf ℝ) (ts : List Node) (x : Nat → V3 ℝ) (k : Fin 6) :
    totalRate (straining x (voigt k).2 (voigt k).1) (along slope) f ts = -totalStress slope (place f ts x) k := by
  rw [totalRate_straining, totalStress_along, neg_neg]

/-- Pair potentials. -/
theorem C65_pair (b : Build) (P : Pots ℝ) (ew sw : ℝ) (ci : Nat) (fv : FV ℝ) (f : Conf ℝ) (ts : List Node)
    (x : Nat → V3 ℝ) (hb : b.stress = true) (hu : f.uf = true) (hus : f.us = true) (hv : f.vol ≠ 0) (hne : ts ≠ [])
    (hh : HalfList (place f ts x)) (hs : PairSmooth P f ts x) (k : Fin 6) :
    HasDerivAt (fun e => reportedEnergy (fun c => (pairConf b P ew sw ci c fv).1) ci
        (placeStrained f ts x (voigt k).2 (voigt k).1 e))
      (-reportedVirial (pairConf b P ew sw ci (place f ts x) fv).1 ci f k) 0 := by
  have hM := straining_now x (voigt k).2 (voigt k).1
  have hN : (ts.length : ℝ) ≠ 0 := by exact_mod_cast (List.length_pos_iff.2 hne).ne'
  have hh' : HalfList (placeWith f ts ((straining x (voigt k).2 (voigt k).1).path 0)) := by
    rw [show (straining x (voigt k).2 (voigt k).1).path 0 = reach x from hM, placeWith_reach]; exact hh
  have hE : ∀ e, reportedEnergy (fun c => (pairConf b P ew sw ci c fv).1) ci
        (placeStrained f ts x (voigt k).2 (voigt k).1 e) =
      f.chem + totalPairEnergy P (placeWith f ts ((straining x (voigt k).2 (voigt k).1).path e)) := by
    intro e
    obtain ⟨-, -, p3, -⟩ := pairConf_spec b P ew sw ci (placeStrained f ts x (voigt k).2 (voigt k).1 e)
      (halfList_placeWith hh') fv
    unfold reportedEnergy
    simp only [p3, Function.update_self]
    have hl : (placeStrained f ts x (voigt k).2 (voigt k).1 e).atoms.length = ts.length := placeWithFrom_length _ ts f.start
    rw [hl]
    field_simp
    rw [sub_add_cancel]
    rfl
  have hd := (rate_pair (straining x (voigt k).2 (voigt k).1) P f ts (pairSmooth_now hs hM)).const_add f.chem
  refine (hd.congr_of_eventuallyEq (Filter.Eventually.of_forall hE)).congr_deriv ?_
  rw [virial_along]
  obtain ⟨-, -, -, p4, -⟩ := pairConf_spec b P ew sw ci (place f ts x) hh fv
  have e1 : (place f ts x).uf = f.uf := rfl
  have e2 : (place f ts x).us = f.us := rfl
  have e3 : (place f ts x).vol = f.vol := rfl
  have e4 : (place f ts x).stress0 = f.stress0 := rfl
  unfold reportedVirial
  rw [p4, if_pos hb, Function.update_self, e1, e2, hu, hus, e3, e4]
  simp only [Bool.and_self, if_true, sub_add_cancel]
  rw [div_mul_cancel₀ _ hv]

/-- EAM potentials. -/
theorem C65_eam (b : Build) (P : EamPots ℝ) (ew sw : ℝ) (ci : Nat) (s : EamState ℝ) (f : Conf ℝ) (ts : List Node)
    (x : Nat → V3 ℝ) (hb : b.stress = true) (hu : f.uf = true) (hus : f.us = true) (hv : f.vol ≠ 0) (hne : ts ≠ [])
    (hh : HalfList (place f ts x)) (hc : EamColumns P (place f ts x)) (hs : PairSmooth P.toPots f ts x)
    (ht : TransferSmooth P f ts x) (he : EmbedSmooth b P f ts x) (k : Fin 6) :
    HasDerivAt (fun e => reportedEnergy (fun c => (eamConf b P ew sw ci c s).1.fv) ci
        (placeStrained f ts x (voigt k).2 (voigt k).1 e))
      (-reportedVirial (eamConf b P ew sw ci (place f ts x) s).1.fv ci f k) 0 := by
  have hM := straining_now x (voigt k).2 (voigt k).1
  have hN : (ts.length : ℝ) ≠ 0 := by exact_mod_cast (List.length_pos_iff.2 hne).ne'
  have hpl := place_eq_placeWith f ts x hM
  have hh' : HalfList (placeWith f ts ((straining x (voigt k).2 (voigt k).1).path
    (straining x (voigt k).2 (voigt k).1).now)) := by rw [hpl]; exact hh
  have hc' : EamColumns P (placeWith f ts ((straining x (voigt k).2 (voigt k).1).path
    (straining x (voigt k).2 (voigt k).1).now)) := by rw [hpl]; exact hc
  have hE : ∀ e, reportedEnergy (fun c => (eamConf b P ew sw ci c s).1.fv) ci
        (placeStrained f ts x (voigt k).2 (voigt k).1 e) =
      totalPairEnergy P.toPots (placeWith f ts ((straining x (voigt k).2 (voigt k).1).path e)) +
      totalEmbedding b P (placeWith f ts ((straining x (voigt k).2 (voigt k).1).path e)) := by
    intro e
    obtain ⟨-, -, -, -, p3, -⟩ := eamConf_spec b P ew sw ci (placeStrained f ts x (voigt k).2 (voigt k).1 e)
      (halfList_placeWith hh') (eamColumns_placeWith hc') s
    unfold reportedEnergy
    simp only [p3, Function.update_self]
    have hl : (placeStrained f ts x (voigt k).2 (voigt k).1 e).atoms.length = ts.length := placeWithFrom_length _ ts f.start
    rw [hl]
    field_simp
    rw [sub_add_cancel]
    rfl
  obtain ⟨p1, -, -, -, -, p4, -⟩ := eamConf_spec b P ew sw ci (place f ts x) hh hc s
  have hat : ∀ (i : Nat) (m : Node), ts[i]? = some m → (place f ts x).atoms[i]? =
      some (⟨m.typ, m.links.map (placed x (f.start + i)), m.absforce, m.contrib⟩ : Atom ℝ) := by
    intro i m hi
    simp only [place, placeFrom_getElem?, hi, Option.map_some]
  have hd1 := rate_pair (straining x (voigt k).2 (voigt k).1) P.toPots f ts (pairSmooth_now hs hM)
  have hd2 := rate_embedding (straining x (voigt k).2 (voigt k).1) b P f ts
    (transferSmooth_now (fun e he => (hs e he).1) ht hM) hh' hc' (eamConf b P ew sw ci (place f ts x) s).1.gradF (by
      intro i m hi
      rw [hpl]
      exact (he i m hi).congr_deriv (p1 i _ (hat i m hi)).symm)
  refine ((hd1.add hd2).congr_of_eventuallyEq (Filter.Eventually.of_forall hE)).congr_deriv ?_
  rw [virial_along, virial_along]
  have e1 : (place f ts x).uf = f.uf := rfl
  have e2 : (place f ts x).us = f.us := rfl
  have e3 : (place f ts x).vol = f.vol := rfl
  have e4 : (place f ts x).stress0 = f.stress0 := rfl
  unfold reportedVirial
  rw [p4, if_pos hb, Function.update_self, e1, e2, hu, hus, e3, e4]
  simp only [Bool.and_self, if_true, sub_add_cancel]
  rw [div_mul_cancel₀ _ hv, ← neg_add]
  congr 1
  unfold totalStress
  rw [sum_apply_fin, sum_apply_fin, sum_apply_fin, ← List.sum_map_add]
  congr 1
  apply List.map_congr_left
  intro e _
  simp only [entryStress, fullSlope]
  by_cases h : e.n.nr = e.own
  · simp only [if_pos h]; ring
  · simp only [if_neg h]; ring

/-- The hypotheses of both theorems are met (two atoms at distance 2; see C17 for the potentials). -/
example (b : Build) (hb : b.stress = true) : b.stress = true ∧ gradConf.uf = true ∧ gradConf.us = true ∧
    gradConf.vol ≠ 0 ∧ gradNodes ≠ [] ∧ HalfList (place gradConf gradNodes gradPos) ∧
    EamColumns (gradPots 5) (place gradConf gradNodes gradPos) ∧
    PairSmooth (gradPots 5).toPots gradConf gradNodes gradPos ∧ TransferSmooth (gradPots 5) gradConf gradNodes gradPos ∧
    EmbedSmooth b (gradPots 5) gradConf gradNodes gradPos := by
  refine ⟨hb, rfl, rfl, one_ne_zero, by simp [gradNodes], grad_half, grad_cols 5, grad_pair 5, grad_transfer 5, ?_⟩
  intro j n hj
  obtain ⟨h1, -, h2⟩ := grad_density 5 j n hj
  rw [h1, h2]
  apply C17_embed_inside
  · simp [gradPots]
  · simp [gradPots]; norm_num
  · norm_num
  · simp only [gradPots]
    exact hasDerivAt_id 2

end Verif.Props
