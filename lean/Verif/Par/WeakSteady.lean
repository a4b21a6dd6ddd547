import Verif.Par.AtRest
import Verif.Par.Positive
import Verif.Flux.Shock
import Verif.FV.Closed

/-!
# Fields of constant pieces that are steady (C109)

A field of cell values is a steady weak solution of the Euler equations if the flux of the gas is the same on both sides of every face. Which schemes keep such a field.
-/

namespace FVENS
namespace Par

open Msh FV Flux Ode Lin
open Finset (range sum_eq_zero sum_congr mem_range mem_filter)

section
variable {D : Disc} {u : ℕ → St}

/-- If each face of a cell carries the normal's components times vectors that belong to the cell, the fluxes cancel in the cell. -/
theorem fluxes_closed_at (h : D.G.Ok) {second : Bool} {u : ℕ → St} {g : ℕ → Gr} {uL uR ug : ℕ → St} {A B : St} {i : ℕ}
    (hf : ∀ k, k < D.G.nface → D.G.touches i k → ∀ v, D.faceFlux second u g uL uR ug k v = D.G.len k * D.G.nrm k 0 * A v + D.G.len k * D.G.nrm k 1 * B v)
    (r : ℕ → St) (hi : i < D.G.m.nelem) : D.fluxes second u g uL uR ug r i = r i := by
  unfold Disc.fluxes
  rw [assemble_eq]
  have hs : ∑ k ∈ range D.G.s.faces.length, contrib D.G.m.nelem (faceAt D.G.s.faces k) (D.faceFlux second u g uL uR ug k) i =
      - ∑ k ∈ (range D.G.nface).filter (D.G.touches i), D.G.sgn i k • D.faceFlux second u g uL uR ug k := by
    rw [Finset.sum_filter, ← Finset.sum_neg_distrib]
    refine sum_congr rfl fun k hk => ?_
    obtain ⟨k1, k2, k3, k4, k5⟩ := h.kind (mem_range.1 hk)
    unfold contrib Geo.touches Geo.sgn
    change (if (D.G.face k).right = i ∧ i < D.G.m.nelem then _ else _) - (if (D.G.face k).left = i then _ else _) = _
    by_cases e1 : (D.G.face k).left = i
    · have e2 : ¬ (D.G.face k).right = i := fun e => k2 (by rw [e1, e])
      simp [e1, e2]
    · by_cases e2 : (D.G.face k).right = i
      · simp [e1, e2, hi]
      · simp [e1, e2]
  rw [hs]
  have hz : ∑ k ∈ (range D.G.nface).filter (D.G.touches i), D.G.sgn i k • D.faceFlux second u g uL uR ug k = 0 := by
    funext v
    rw [Finset.sum_apply]
    have : ∀ k ∈ (range D.G.nface).filter (D.G.touches i), (D.G.sgn i k • D.faceFlux second u g uL uR ug k) v =
        D.G.sgn i k * (D.G.len k * D.G.nrm k 0) * A v + D.G.sgn i k * (D.G.len k * D.G.nrm k 1) * B v := fun k hk => by
      rw [Pi.smul_apply, hf k (mem_range.1 (mem_filter.1 hk).1) (mem_filter.1 hk).2, smul_eq_mul]; ring
    rw [sum_congr rfl this, Finset.sum_add_distrib, ← Finset.sum_mul, ← Finset.sum_mul, Geo.closed_touch h hi, Geo.closed_touch h hi]
    simp
  rw [hz]; simp

/-! ### Specification -/

/-- The cell values are a steady weak solution that the second law allows: on both sides of every face, the ghost state of the boundary condition being the other side of a boundary
face, the states are admissible, the fluxes through the face equal, and the gas does not expand abruptly. -/
structure WeakSteady (D : Disc) (u : ℕ → St) : Prop where
  left : ∀ k, k < D.G.nface → Adm D.gas (u (D.G.face k).left)
  right : ∀ k, k < D.G.nface → Adm D.gas (beyond D u k)
  flux : ∀ k, k < D.G.nface → D.gas.eulerFlux (u (D.G.face k).left) (D.G.nrm k) = D.gas.eulerFlux (beyond D u k) (D.G.nrm k)
  forward : ∀ k, k < D.G.nface → Forward D.gas (u (D.G.face k).left) (beyond D u k) (D.G.nrm k)

/-- C109: if the scheme gives, at every face, the common flux of both sides, the residual vanishes. -/
theorem steady_of_exact (h : D.G.Ok) (hv : D.viscous = false) (hb : D.BcOk)
    (hf : ∀ k, k < D.G.nface → D.gas.eulerFlux (u (D.G.face k).left) (D.G.nrm k) = D.gas.eulerFlux (beyond D u k) (D.G.nrm k))
    (hs : ∀ k, k < D.G.nface → D.scheme.flux D.gas (u (D.G.face k).left) (beyond D u k) (D.G.nrm k) = D.gas.eulerFlux (u (D.G.face k).left) (D.G.nrm k)) : IsSteady D u := by
  refine ⟨_, residual1_beyond hb u 0, fun i hi => ?_⟩
  refine fluxes_closed_at h (A := D.gas.eulerFlux (u i) ![1, 0]) (B := D.gas.eulerFlux (u i) ![0, 1]) (fun k hk ht v => ?_) 0 hi
  have key : D.scheme.flux D.gas (u (D.G.face k).left) (beyond D u k) (D.G.nrm k) = D.gas.eulerFlux (u i) (D.G.nrm k) := by
    rw [hs k hk]
    rcases ht with e | e
    · rw [e]
    · rw [hf k hk]
      have hk2 : ¬ k < D.G.m.nbface := fun hlt => by
        have := (h.kind hk).2.2.1 hlt
        omega
      unfold beyond
      rw [if_neg hk2, e]
  simp only [Disc.faceFlux, key, hv]
  rw [Disc.eulerFlux_dir]
  simp
  ring

/-- C109, meshes: HLLC keeps every steady weak solution that the second law allows, whatever shocks and contacts it has, on every mesh whose faces follow them. -/
theorem C109_hllc_steady (h : D.G.Ok) (hv : D.viscous = false) (hb : D.BcOk) (hg : 4 ≤ 3 * D.gas.g) (hs : D.scheme = .hllc) (hu : WeakSteady D u) : IsSteady D u :=
  steady_of_exact h hv hb hu.flux fun k hk => by
    rw [hs]
    exact (C109_hllc_exact hg (hu.left k hk) (hu.right k hk) (Disc.nrm_unit h hk) (hu.flux k hk)).2 (hu.forward k hk)

/-- C109, meshes: HLL does so if there are no contacts. -/
theorem C109_hll_steady (h : D.G.Ok) (hv : D.viscous = false) (hb : D.BcOk) (hs : D.scheme = .hll) (hu : WeakSteady D u)
    (hm : ∀ k, k < D.G.nface → u (D.G.face k).left = beyond D u k ∨ Gas.varsVn (u (D.G.face k).left) (D.G.nrm k) ≠ 0) : IsSteady D u :=
  steady_of_exact h hv hb hu.flux fun k hk => by
    rw [hs]
    exact (C109_hll_exact (hu.left k hk) (hu.right k hk) (Disc.nrm_unit h hk) (hu.flux k hk) (hm k hk)).2 (hu.forward k hk)

/-- C109, whole runs: explicit runs of any length, with any CFL numbers, never change such a field. -/
theorem C109_run (h : D.G.Ok) (hv : D.viscous = false) (hb : D.BcOk) (hg : 4 ≤ 3 * D.gas.g) (hs : D.scheme = .hllc) (hu : WeakSteady D u) (k : Kind) (cf : Conf) (n : ℕ) :
    (∃ s, traj k (single D) cf u n = some s ∧ s.u = u) ∧ hist k (single D) cf u n = some 0 :=
  C95_stays (C109_hllc_steady h hv hb hg hs hu) k cf n

end

/-! ### A shock between two cells -/

/-- The shock stands between the two squares; gas enters and leaves through the other faces with the state of the cell. -/
theorem pair_weak {s : FState} (hf : s.faces = [⟨0, 2, 0, 1⟩, ⟨1, 3, 1, 2⟩, ⟨1, 4, 2, 5⟩, ⟨1, 5, 5, 4⟩, ⟨0, 6, 4, 3⟩, ⟨0, 7, 3, 0⟩,
    ⟨0, 1, 1, 4⟩]) (sch : Scheme) (w : ℝ) : WeakSteady ((airOut sch).disc pair s 0) (two (shockA w) (shockB w)) := by
  set D := (airOut sch).disc pair s 0 with hD
  set u := two (shockA w) (shockB w) with hu
  have ha : ∀ j, Adm air (u j) := fun j => by
    rw [hu]; unfold two; split_ifs
    · exact shockA_adm w
    · exact shockB_adm w
  have hn : D.G.nface = 7 := by show s.faces.length = 7; rw [hf]; rfl
  have hbd : ∀ k, k < 6 → beyond D u k = u (D.G.face k).left := fun k hk => by
    unfold beyond
    rw [show D.G.m.nbface = 6 from rfl, if_pos hk]
    rfl
  have h6 : beyond D u 6 = shockB w := by
    unfold beyond
    rw [show D.G.m.nbface = 6 from rfl, if_neg (by omega)]
    show two (shockA w) (shockB w) (faceAt s.faces 6).right = _
    rw [hf]; rfl
  have l6 : u (D.G.face 6).left = shockA w := by
    show two (shockA w) (shockB w) (faceAt s.faces 6).left = _
    rw [hf]; rfl
  have n6 : D.G.nrm 6 = ![1, 0] := by
    show fNrm (pair.coords (faceAt s.faces 6).n0) (pair.coords (faceAt s.faces 6).n1) = _
    rw [hf]
    show fNrm (pair.coords 1) (pair.coords 4) = _
    have hl : fLen (pair.coords 1) (pair.coords 4) = 1 := by norm_num [fLen, pair]
    unfold fNrm
    rw [hl]
    norm_num [pair]
  have hJ := shock_jump w
  refine ⟨fun k _ => ha _, fun k hk => ?_, fun k hk => ?_, fun k hk => ?_⟩
  all_goals
    rw [hn] at hk
    rcases (show k < 6 ∨ k = 6 by omega) with e | e
  · rw [hbd k e]; exact ha _
  · rw [e, h6]; exact shockB_adm w
  · rw [hbd k e]
  · rw [e, h6, l6, n6]; exact hJ.flux
  · rw [hbd k e]; exact ⟨fun _ => le_rfl, fun _ => le_rfl⟩
  · rw [e, h6, l6, n6]
    exact ⟨fun _ => hJ.forward_iff.1 (shock_supersonic w), fun k2 => absurd k2 (not_lt.2 hJ.pos.le)⟩

/-- HLLC and HLL keep the shock for ever, also with a velocity along it. -/
example : ∃ s, topological pair = .ok s ∧ ∀ (w : ℝ) (k : Kind) (cf : Conf) (n : ℕ),
    (∃ l, traj k (single ((airOut .hllc).disc pair s 0)) cf (two (shockA w) (shockB w)) n = some l ∧ l.u = two (shockA w) (shockB w)) ∧
    hist k (single ((airOut .hllc).disc pair s 0)) cf (two (shockA w) (shockB w)) n = some 0 := by
  obtain ⟨s, hs, hf⟩ := pair_topological
  exact ⟨s, hs, fun w k cf n => C109_run (D := (airOut .hllc).disc pair s 0) ⟨pair_conforming, pair_nozero, hs⟩ rfl (fun _ _ => rfl)
    (by show 4 ≤ 3 * air.g; norm_num [air]) rfl (pair_weak hf .hllc w) k cf n⟩

/-- C109, runs of the others: the first explicit step of LLF, van Leer, AUSM and Roe, and of AUSM+ if there is a velocity along the shock, changes the gas in front of the shock. -/
theorem C109_smeared : ∃ s, topological pair = .ok s ∧ ∀ (sch : Scheme) (w : ℝ),
    (single ((airOut sch).disc pair s 0)).upd 1 (two (shockA w) (shockB w)) 0 = shockA w ↔ sch = .hll ∨ sch = .hllc ∨ (sch = .ausmPlus ∧ w = 0) := by
  obtain ⟨s, hs, hf⟩ := pair_topological
  refine ⟨s, hs, fun sch w => ?_⟩
  rw [pair_step hs hf sch (shockA_adm w) (shockB_adm w)]
  have hc := (shockA_adm w).c_pos
  have hpos : 0 < 1 / (2 * (|Gas.vel (shockA w) 0| + cSide air (shockA w)) + 2 * (|Gas.vel (shockA w) 1| + cSide air (shockA w))) := by positivity
  have h1 := C109_shock (shock_jump w) (shock_supersonic w) sch
  have hw : Gas.vel (shockA w) 0 * (![1, 0] : V2) 1 - Gas.vel (shockA w) 1 * (![1, 0] : V2) 0 = 0 ↔ w = 0 := by simp [Gas.vel, shockA]
  rw [hw] at h1
  rw [← h1, sub_eq_self, smul_eq_zero, sub_eq_zero]
  exact ⟨fun h => h.resolve_left hpos.ne', Or.inr⟩

end Par
end FVENS
