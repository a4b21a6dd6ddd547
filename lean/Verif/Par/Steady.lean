import Verif.Par.Explicit
import Verif.Ode.Rk

/-!
# Steady states and reported convergence (C95)

The explicit solver on one process with the first-order discretisation (`single`): when an update leaves the state unchanged, what the reported norm
says about the residual, and what the reported outcome says about the state.
-/

namespace FVENS
namespace Par

open Msh FV Flux Ode
open Finset (range sum_eq_zero sum_congr)

/-! ### Specification -/

/-- The flow does not change: the discretisation gives a residual and it vanishes in every cell. -/
def IsSteady (D : Disc) (u : ℕ → St) : Prop := ∃ o, D.residual1 u 0 = some o ∧ ∀ i, i < D.G.m.nelem → o.res i = 0

section
variable {D : Disc} {u : ℕ → St}

theorem single_upd {o : Disc.Out} (ho : D.residual1 u 0 = some o) (cfl : ℝ) : (single D).upd cfl u = euler D cfl o o.res u := by
  simp only [single, ho]

/-- C95: with admissible states, positive areas and a CFL number other than zero an explicit update leaves the state unchanged exactly where the residual
vanishes in every cell. -/
theorem C95_explicit_iff (h : D.G.Ok) (hD : D.GasOk) (hb : D.BcOk) (hu : ∀ i, i < D.G.rows → Adm D.gas (u i)) (har : ∀ i, i < D.G.m.nelem → 0 < D.G.ar i)
    {cfl : ℝ} (hc : cfl ≠ 0) : (single D).upd cfl u = u ↔ IsSteady D u := by
  obtain ⟨o, ho⟩ : ∃ o, D.residual1 u 0 = some o := ⟨_, by unfold Disc.residual1; rw [if_pos hb]⟩
  have hL : ∀ k, k < D.G.nface → Adm D.gas (o.uL k) := fun k hk => by
    unfold Disc.residual1 at ho; rw [if_pos hb] at ho; cases ho
    exact hu _ (by have := (h.kind hk).1; unfold Geo.rows; omega)
  have hR : ∀ k, k < D.G.nface → D.G.inner k → Adm D.gas (o.uR k) := fun k hk hi => by
    unfold Disc.residual1 at ho; rw [if_pos hb] at ho; cases ho
    have h4 := (h.kind hk).2.2.2.1.1 hi
    have hnb : ¬ k < D.G.m.nbface := fun hlt => by have := hi.1; omega
    dsimp only
    rw [if_neg hnb]
    exact hu _ (by unfold Geo.rows; omega)
  rw [single_upd ho]
  constructor
  · intro he
    refine ⟨o, ho, fun i hi => ?_⟩
    have h1 := congrFun he i
    have h2 := (Disc.C51_positive_bounded h hD hL hR hi (har i hi)).1
    funext v
    have h3 := congrFun h1 v
    simp only [euler, if_pos hi] at h3
    have h4 : cfl * D.timestep o.uL o.uR i * 1 / D.G.ar i * o.res i v = 0 := by linarith
    have h5 : cfl * D.timestep o.uL o.uR i * 1 / D.G.ar i ≠ 0 := by
      have := (har i hi).ne'; have := h2.ne'
      positivity
    exact (mul_eq_zero.1 h4).resolve_left h5
  · rintro ⟨o', ho', hz⟩
    rw [ho] at ho'; cases ho'
    funext i
    unfold euler
    split_ifs with hi
    · funext v; rw [hz i hi]; simp
    · rfl

/-- A steady state has norm zero, for any areas. -/
theorem IsSteady.norm (hs : IsSteady D u) : (single D).norm u = some 0 := by
  obtain ⟨o, ho, hz⟩ := hs
  have he : energy D o.res = 0 := sum_eq_zero fun i hi => by rw [hz i (Finset.mem_range.1 hi)]; simp
  simp [single, ho, he, rootOf]

theorem IsSteady.upd (hs : IsSteady D u) (cfl : ℝ) : (single D).upd cfl u = u := by
  obtain ⟨o, ho, hz⟩ := hs
  rw [single_upd ho]
  funext i
  unfold euler
  split_ifs with hi
  · funext v; rw [hz i hi]; simp
  · rfl

/-- C95: what a norm of zero says, for positive areas: the energy residual vanishes in every cell, and nothing about mass and momentum. -/
theorem C95_norm_zero_iff (har : ∀ i, i < D.G.m.nelem → 0 < D.G.ar i) :
    (single D).norm u = some 0 ↔ ∃ o, D.residual1 u 0 = some o ∧ ∀ i, i < D.G.m.nelem → o.res i 3 = 0 := by
  have hnn : ∀ r : ℕ → St, ∀ i ∈ range D.G.m.nelem, 0 ≤ r i 3 * r i 3 * D.G.ar i := fun r i hi =>
    mul_nonneg (mul_self_nonneg _) (har i (Finset.mem_range.1 hi)).le
  constructor
  · intro h
    obtain ⟨o, ho, h⟩ := Option.bind_eq_some_iff.1 h
    refine ⟨o, ho, fun i hi => ?_⟩
    have he : 0 ≤ energy D o.res := Finset.sum_nonneg (hnn _)
    simp only [rootOf, if_pos he, Option.some.injEq] at h
    have h0 : energy D o.res = 0 := (Real.sqrt_eq_zero he).1 h
    have := (Finset.sum_eq_zero_iff_of_nonneg (hnn _)).1 h0 i (Finset.mem_range.2 hi)
    exact mul_self_eq_zero.1 ((mul_eq_zero.1 this).resolve_right (har i hi).ne')
  · rintro ⟨o, ho, hz⟩
    have he : energy D o.res = 0 := sum_eq_zero fun i hi => by rw [hz i (Finset.mem_range.1 hi)]; simp
    simp [single, ho, he, rootOf]

/-- C95: a run begun in a steady state stays there for as many iterations as are made, with all norms zero. -/
theorem C95_stays (hs : IsSteady D u) (k : Kind) (c : Conf) (n : ℕ) :
    (∃ s, traj k (single D) c u n = some s ∧ s.u = u) ∧ hist k (single D) c u n = some 0 := by
  have h : ∃ s, traj k (single D) c u n = some s ∧ s.u = u := by
    induction n with
    | zero => exact ⟨_, rfl, rfl⟩
    | succ n ih =>
      obtain ⟨s, h1, h2⟩ := ih
      refine ⟨_, by simp only [traj, h1, Option.bind_some, body, h2, hs.norm]; rfl, ?_⟩
      exact hs.upd _
  obtain ⟨s, h1, h2⟩ := h
  exact ⟨⟨s, h1, h2⟩, by simp only [hist, h1, Option.bind_some, h2, hs.norm]⟩

/-- C95: on any mesh whose boundary is all far field the uniform flow is steady, so the explicit solver reports convergence after one iteration, with the state unchanged
(`C95_stays`). The implicit solver, whatever its linear solver returns, reports a numerical error. -/
theorem C95_free_stream (h : D.G.Ok) {c : St} (hc : Adm D.gas c) (hbc : ∀ k, k < D.G.m.nbface → D.bc (D.tag k) = some (.farfield c))
    (hu : ∀ i, i < D.G.rows → u i = c) : IsSteady D u ∧ ∀ cf : Conf, 0 ≤ cf.tol → cf.tol < 1 → 1 < cf.maxiter →
      Solve forwardEuler (single D) cf u 1 .ok ∧ ∀ P : Prob (ℕ → St), P.norm = (single D).norm → Solve backwardEuler P cf u 1 .numErr := by
  have hs : IsSteady D u := by
    obtain ⟨o, h1, h2⟩ := Disc.C43_first_order h hc hbc hu 0
    exact ⟨o, h1, fun i hi => h2 i hi⟩
  refine ⟨hs, fun cf h1 h2 h3 => ⟨(C56_zero_residual_refuted h1 h2 h3 hs.norm).2.1, fun P hP => ?_⟩⟩
  exact (C56_zero_residual_refuted h1 h2 h3 (by rw [hP]; exact hs.norm)).1

end

/-- C95 for the Runge-Kutta loops of every order: a step of non-zero size leaves the state unchanged exactly where the right-hand side vanishes. -/
theorem C95_rk_iff {V : Type} [AddCommGroup V] [Module ℝ V] {q : ℤ} (hq : q = 1 ∨ q = 2 ∨ q = 3) (f : V → V) {h : ℝ} (hh : h ≠ 0) (u : V) :
    rkStep q f h u = some u ↔ f u = 0 := by
  rw [C58_step hq, Option.some.injEq, sub_eq_self, smul_eq_zero]
  have : kappa q * h ≠ 0 := mul_ne_zero (by unfold kappa; split_ifs <;> norm_num) hh
  tauto

/-! ### Cases -/

theorem llf_rest_energy (a b : ℝ) (n : V2) : llf air (rest a) (rest b) n 3 = 0 := by
  have q3 : ∀ a b c d : ℝ, (![a, b, c, d] : St) 3 = d := fun _ _ _ _ => rfl
  simp [llf, Gas.eulerFlux, Gas.dirFlux, rest, dot, mom, q3]

theorem rest_shape (i : ℕ) : ∃ a, bump i = rest a := by
  unfold bump; split_ifs <;> exact ⟨_, rfl⟩

/-- The full claim, that a run reported as converged has come near a steady state, fails. The square's four triangles hold gas at rest of equal energy, with density 2 in cell 1
and 1 elsewhere; all data are admissible. The energy residual is zero everywhere, so the explicit solver reports convergence after one iteration for every
tolerance below one, every iteration limit above one and all CFL numbers. Mass flows into cell 0, and each further explicit update would change the state. -/
theorem C95_converged_refuted : ∃ s, Conforming FV.Geo.cross ∧ topological FV.Geo.cross = .ok s ∧
    let D := (air1 (rest 1)).disc FV.Geo.cross s 0
    D.G.Ok ∧ D.BcOk ∧ (∀ i, Adm D.gas (bump i)) ∧ (∀ i, i < D.G.m.nelem → 0 < D.G.ar i) ∧
      (∀ cf : Conf, 0 ≤ cf.tol → cf.tol < 1 → 1 < cf.maxiter → Solve forwardEuler (single D) cf bump 1 .ok) ∧
      (∃ o, D.residual1 bump 0 = some o ∧ 0 < o.res 0 0) ∧ ∀ cfl, cfl ≠ 0 → (single D).upd cfl bump ≠ bump := by
  obtain ⟨s, hs, hf⟩ := FV.Geo.cross_topological
  have hne : FV.Geo.cross.nelem = 4 := by decide +kernel
  have hok : ((air1 (rest 1)).disc FV.Geo.cross s 0).G.Ok := ⟨cross_conforming, FV.Geo.cross_nozero, hs⟩
  have hb : ((air1 (rest 1)).disc FV.Geo.cross s 0).BcOk := fun k _ => rfl
  have har : ∀ i, i < ((air1 (rest 1)).disc FV.Geo.cross s 0).G.m.nelem → 0 < ((air1 (rest 1)).disc FV.Geo.cross s 0).G.ar i := fun i hi => by
    rw [cross_area (by rw [← hne]; exact hi)]; norm_num
  have hgas : ((air1 (rest 1)).disc FV.Geo.cross s 0).GasOk := ⟨by norm_num [air1, Settings.disc, air], by norm_num [air1, Settings.disc, air],
    by norm_num [air1, Settings.disc, air], by norm_num [air1, Settings.disc, air]⟩
  obtain ⟨o, ho, hpos, -⟩ := cross_interleaved hs hf 0
  have hnorm : (single ((air1 (rest 1)).disc FV.Geo.cross s 0)).norm bump = some 0 := by
    rw [C95_norm_zero_iff har]
    refine ⟨o, ho, fun i _ => ?_⟩
    unfold Disc.residual1 at ho
    rw [if_pos hb] at ho
    cases ho
    dsimp only [Disc.fluxes]
    rw [assemble_eq, Pi.add_apply, Finset.sum_apply, Pi.zero_apply, Pi.zero_apply, zero_add]
    refine sum_eq_zero fun k _ => ?_
    have hz : ∀ Φ : St, Φ 3 = 0 → ∀ f, contrib ((air1 (rest 1)).disc FV.Geo.cross s 0).G.m.nelem f Φ i 3 = 0 := fun Φ h f => by
      unfold contrib; split_ifs <;> simp [h]
    refine hz _ ?_ _
    obtain ⟨a, ha⟩ := rest_shape (((air1 (rest 1)).disc FV.Geo.cross s 0).G.face k).left
    obtain ⟨b, hb'⟩ : ∃ b, (if k < ((air1 (rest 1)).disc FV.Geo.cross s 0).G.m.nbface then ((air1 (rest 1)).disc FV.Geo.cross s 0).bstate k
        (bump (((air1 (rest 1)).disc FV.Geo.cross s 0).G.face k).left) else bump (((air1 (rest 1)).disc FV.Geo.cross s 0).G.face k).right) = rest b := by
      split_ifs
      · exact ⟨1, rfl⟩
      · exact rest_shape _
    rw [ha] at hb'
    simp only [Disc.faceFlux, ha, hb']
    rw [show ((air1 (rest 1)).disc FV.Geo.cross s 0).scheme.flux ((air1 (rest 1)).disc FV.Geo.cross s 0).gas (rest a) (rest b)
      (((air1 (rest 1)).disc FV.Geo.cross s 0).G.nrm k) 3 = 0 from llf_rest_energy a b _, show ((air1 (rest 1)).disc FV.Geo.cross s 0).viscous = false from rfl]
    simp
  refine ⟨s, cross_conforming, hs, hok, hb, bump_adm, har, fun cf h1 h2 h3 => (C56_zero_residual_refuted h1 h2 h3 hnorm).2.1, ⟨o, ho, hpos⟩, fun cfl hc he => ?_⟩
  obtain ⟨o', ho', hz⟩ := (C95_explicit_iff hok hgas hb (fun i _ => bump_adm i) har hc).1 he
  rw [ho] at ho'; cases ho'
  have := congrFun (hz 0 (by show 0 < FV.Geo.cross.nelem; omega)) 0
  rw [this] at hpos
  exact lt_irrefl _ hpos

/-- The square in a uniform stream: steady, so a run of any length leaves it unchanged; and an explicit update of the flow with the dense cell does change it. -/
example : ∃ s, topological FV.Geo.cross = .ok s ∧ IsSteady ((air1 (rest 1)).disc FV.Geo.cross s 0) (fun _ => rest 1) ∧
    ¬ IsSteady ((air1 (rest 1)).disc FV.Geo.cross s 0) bump := by
  obtain ⟨s, hs, hf⟩ := FV.Geo.cross_topological
  refine ⟨s, hs, (C95_free_stream (D := (air1 (rest 1)).disc FV.Geo.cross s 0) ⟨cross_conforming, FV.Geo.cross_nozero, hs⟩ (rest_adm one_pos) (fun _ _ => rfl) (fun _ _ => rfl)).1, ?_⟩
  rintro ⟨o', ho', hz⟩
  obtain ⟨o, ho, hpos, -⟩ := cross_interleaved hs hf 0
  rw [ho] at ho'; cases ho'
  have := congrFun (hz 0 (by show 0 < FV.Geo.cross.nelem; decide +kernel)) 0
  rw [this] at hpos
  exact lt_irrefl _ hpos

/-- Third order, on `du/dt = u² - u`: steps of any size stay at one and leave two. -/
example {h : ℝ} (hh : h ≠ 0) : rkStep 3 (fun x : ℝ => x ^ 2 - x) h 1 = some 1 ∧ rkStep 3 (fun x : ℝ => x ^ 2 - x) h 2 ≠ some 2 :=
  ⟨(C95_rk_iff (by decide) _ hh _).2 (by norm_num), fun e => by have := (C95_rk_iff (by decide) _ hh _).1 e; norm_num at this⟩

end Par
end FVENS
