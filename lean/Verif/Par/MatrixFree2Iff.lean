import Verif.Par.MatrixFree2

/-!
# When the second-order matrix-free product on several processes is right (C121)

`MatrixFreeSpatialJacobian::apply`, src/linalg/alinalg.cpp:142-233.
-/

namespace FVENS
namespace Par

open Msh FV Flux Ode Lin
open Finset (range)

section
variable {gm : Mesh} {s : FState} {dist : ℕ → ℕ} (hc : Conforming gm) (hn : gm.nconnface = 0) (ht : gm.nbtag ≤ 4) (h : topological gm = .ok s)
  (hz : NoZeroFace gm) (hall : AllRegistered gm s dist) {n : ℕ} (hd : ∀ g, g < gm.nelem → dist g < n)
  (hmono : ∀ i j, i < j → j < gm.nelem → dist i ≤ dist j) (P : Settings)
include hc hn ht h hz hall hd hmono

/-- C121, second order: the product is that of a single process exactly if what was left in the ghost blocks cancels for every cell. -/
theorem C121_second_order_iff {gs : GradScheme} {R : ReconScheme} (E0 : (ℕ → St) → Disc.Env) {E : (ℕ → ℕ → St) → ℕ → Disc.Env}
    {S : ℕ → Sub} {s' : ℕ → FState} (hS : ∀ r, restrict gm s dist r = .ok (S r)) (hs' : ∀ r, topological (S r).mesh = .ok (s' r))
    (hE : ∀ loc, Received gm s dist n gs R S (fun r => P.rank gm s dist n r (S r) (s' r)) (fun r => rankArray gm s dist n loc r (S r)) (E loc))
    {eps : ℝ} (he : eps ≠ 0) {u res x : ℕ → St} {mdt : ℕ → ℝ} {U Rs X : ℕ → ℕ → St} {M : ℕ → ℕ → ℝ}
    (hU : Represents gm s dist U u) (hR : Represents gm s dist Rs res) (hM : Represents gm s dist M mdt) (hX : Represents gm s dist X x) (gh : ℕ → ℕ → St)
    {pert : ℝ} (hp : pert = eps / Real.sqrt (∑ i ∈ range gm.nelem, ∑ v, x i v ^ 2)) (hx : ∃ i, i < gm.nelem ∧ x i ≠ 0)
    (hsw : ∃ o, (P.disc gm s 0).residual2 gs R (E0 (perturbed pert u x)) (perturbed pert u x) 0 = some o ∧
      ∀ k, k < (P.disc gm s 0).G.nface → (P.disc gm s 0).G.inner k → (P.disc gm s 0).SwapOk (o.uR k) (o.uL k)) :
    (∃ y Y, mfOne2 (P.disc gm s 0) gs R E0 eps u res mdt x = some y ∧ mfRanks2 P gm s dist n gs R E eps U Rs M gh X = some Y ∧ Represents gm s dist Y y) ↔
      ∀ g, g < gm.nelem → stray n S gh g = 0 := by
  obtain ⟨y, Y, h1, h2, h3⟩ := C121_second_order_partial hc hn ht h hz hall hd hmono P E0 hS hs' hE he hU hR hM hX gh hp hx hsw
  have hpne : pert ≠ 0 := by
    intro h0
    simp [mfOne2, ← hp, h0, show (P.disc gm s 0).G.m.nelem = gm.nelem from rfl] at h1
  constructor
  · rintro ⟨y', Y', e1, e2, e3⟩ g hgn
    rw [h1] at e1; cases e1
    rw [h2] at e2; cases e2
    obtain ⟨S', hS', hsub, -⟩ := restrict_spec hc hn ht h dist (dist g)
    rw [hS] at hS'; cases hS'
    obtain ⟨l, hl⟩ := List.mem_iff_getElem?.1 ((hsub.cells g).2 ⟨hgn, rfl⟩)
    funext v
    have f1 := h3 _ (hd g hgn) l g hl v
    rw [e3 _ _ (hS _) l g hl] at f1
    have : stray n S gh g v / pert = 0 := by linarith
    exact (div_eq_zero_iff.1 this).resolve_right hpne
  · intro hs
    refine ⟨y, Y, h1, h2, fun r S' hS' l g hl => ?_⟩
    rw [hS r] at hS'; cases hS'
    obtain ⟨S', hS'', hsub, -⟩ := restrict_spec hc hn ht h dist r
    rw [hS r] at hS''; cases hS''
    have hgn := (hsub.cells g).1 (List.mem_of_getElem? hl)
    funext v
    rw [h3 r (hgn.2 ▸ hd g hgn.1) l g hl v, hs g hgn.1, Pi.zero_apply, zero_div, sub_zero]

end

/-! ### The square cut by its diagonals, on two ranks -/

theorem stray_cross {s : FState} (hs : topological FV.Geo.cross = .ok s) {S : ℕ → Sub} (hS : ∀ r, restrict FV.Geo.cross s (fun i => i / 2) r = .ok (S r)) :
    (1 : ℝ) ≤ stray 2 S (fun _ _ _ => 1) 3 0 := by
  have hchk := halfCheck_true
  unfold halfCheck at hchk
  rw [hs] at hchk
  simp only [hS 0, decide_eq_true_eq] at hchk
  obtain ⟨c1, c2, c3⟩ := hchk
  have hnn : ∀ q ic, 0 ≤ (if rowCell (S q) ((S q).mesh.nelem + ic) = 3 then ygStart (S q) (fun _ _ => 1) ((S q).mesh.nelem + ic) else 0 : St) 0 := fun q ic => by
    split_ifs
    · unfold ygStart; split_ifs <;> norm_num
    · exact le_rfl
  unfold stray
  simp only [Finset.sum_apply]
  refine le_trans ?_ (Finset.single_le_sum (f := fun q => ∑ ic ∈ range (S q).mesh.nconnface,
    (if rowCell (S q) ((S q).mesh.nelem + ic) = 3 then ygStart (S q) (fun _ _ => 1) ((S q).mesh.nelem + ic) else 0 : St) 0)
    (fun q _ => Finset.sum_nonneg fun ic _ => hnn q ic) (Finset.mem_range.2 (show 0 < 2 by norm_num)))
  refine le_trans ?_ (Finset.single_le_sum (f := fun ic =>
    (if rowCell (S 0) ((S 0).mesh.nelem + ic) = 3 then ygStart (S 0) (fun _ _ => 1) ((S 0).mesh.nelem + ic) else 0 : St) 0)
    (fun ic _ => hnn 0 ic) (Finset.mem_range.2 (show 0 < (S 0).mesh.nconnface by omega)))
  have hrow : rowCell (S 0) ((S 0).mesh.nelem + 0) = 3 := by
    unfold rowCell; rw [if_neg (by omega), Nat.add_sub_cancel_left, c3]
  simp only [hrow, if_true]
  unfold ygStart
  rw [if_neg (by rw [c1, c2]; simp)]

/-- C121 refuted for the second-order discretisation: with Green-Gauss gradients and MUSCL on two ranks, ghost blocks that are not zero when made spoil the product; zero ones do not. -/
theorem C121_second_order_refuted (E1 : Disc.Env) {eps : ℝ} (he : 0 < eps) (res : ℕ → St) (mdt : ℕ → ℝ) : ∃ s, topological FV.Geo.cross = .ok s ∧ ∃ E,
    let right := fun gh => ∃ y Y, mfOne2 ((air1 (rest 1)).disc FV.Geo.cross s 0) .greenGauss .muscl (fun _ => E1) eps bump res mdt denser = some y ∧
      mfRanks2 (air1 (rest 1)) FV.Geo.cross s (fun i => i / 2) 2 .greenGauss .muscl E eps (split FV.Geo.cross s (fun i => i / 2) bump) (split FV.Geo.cross s (fun i => i / 2) res)
        (split FV.Geo.cross s (fun i => i / 2) mdt) gh (split FV.Geo.cross s (fun i => i / 2) denser) = some Y ∧ Represents FV.Geo.cross s (fun i => i / 2) Y y
    ¬ right (fun _ _ _ => 1) ∧ right fun _ _ => 0 := by
  obtain ⟨s, hs, -⟩ := FV.Geo.cross_topological
  have hne : FV.Geo.cross.nelem = 4 := by decide +kernel
  have hd : ∀ g, g < FV.Geo.cross.nelem → g / 2 < 2 := fun g hg => by omega
  have hmono : ∀ i j, i < j → j < FV.Geo.cross.nelem → i / 2 ≤ j / 2 := fun i j h _ => Nat.div_le_div_right h.le
  have hok : ((air1 (rest 1)).disc FV.Geo.cross s 0).G.Ok := ⟨cross_conforming, FV.Geo.cross_nozero, hs⟩
  choose S hS _ using fun r => restrict_spec cross_conforming rfl (by decide +kernel) hs (fun i => i / 2) r
  choose s' hs' using fun r => sub_topological cross_conforming rfl (by decide +kernel) hs (hS r)
  obtain ⟨E, hE⟩ := receivedAll_exists cross_conforming rfl (by decide +kernel) hs hd (cross_all hs _) hmono (air1 (rest 1)) .greenGauss .muscl (s' := s') hS fun _ => E1
  obtain ⟨o, ho⟩ := residual2_defined hok (fun k _ => rfl) (gs := .greenGauss) (R := .muscl) (show Disc.ReconOk .muscl from trivial)
    (fun h => by rcases h with h | ⟨K, h⟩ <;> cases h) E1 (perturbed (eps / Real.sqrt (∑ i ∈ range FV.Geo.cross.nelem, ∑ v, denser i v ^ 2)) bump denser) 0
  have key := fun gh => C121_second_order_iff cross_conforming rfl (by decide +kernel) hs FV.Geo.cross_nozero (cross_all hs _) hd hmono (air1 (rest 1))
    (fun _ => E1) hS hs' hE he.ne' (split_represents _ _ _ bump) (split_represents _ _ _ res) (split_represents _ _ _ mdt) (split_represents _ _ _ denser) gh rfl
    ⟨0, by omega, fun h0 => by have := congrFun h0 0; simp [denser] at this⟩ ⟨o, ho, fun k _ _ n _ v => llf_swap air _ _ n v⟩
  refine ⟨s, hs, E, fun hr => ?_, (key _).2 fun g _ => ?_⟩
  · have h3 := congrFun ((key _).1 hr 3 (by omega)) 0
    have hge := stray_cross hs hS
    rw [h3] at hge
    norm_num at hge
  · unfold stray
    refine Finset.sum_eq_zero fun q _ => Finset.sum_eq_zero fun ic _ => ?_
    rw [show ygStart (S q) (fun _ => 0) ((S q).mesh.nelem + ic) = 0 from ygStart_zero _ _]
    simp

end Par
end FVENS
