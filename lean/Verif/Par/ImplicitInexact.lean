import Verif.Par.ChartSecond
import Verif.Par.ImplicitNewton

/-!
# Implicit steady solver: iterative linear solvers and second-order residuals (C96)

`C96_steady_iff` takes the linear solver to be exact and the residual to be of first order. Here the linear solver stops when a measure of the linear residual has fallen below a
relative or an absolute tolerance, as PETSc's KSP does (outside /repo), and the evaluation of the residual is arbitrary. The measure may depend on the matrix: KSP measures
preconditioned residuals by default.
-/

namespace FVENS
namespace Par

open Msh FV FV.Disc Flux Ode Lin
open Finset (range sum_eq_zero sum_congr)

/-! ### Specification: stopping criterion of a linear solver -/

/-- A measure of residuals of systems with `N` block rows: it is zero for the zero residual only. -/
structure Gauge (N : ℕ) (nrm : (ℕ × ℕ → Blk (Fin 4)) → (ℕ → St) → ℝ) : Prop where
  nonneg : ∀ A r, 0 ≤ nrm A r
  zero_iff : ∀ A r, Regular N A → (nrm A r = 0 ↔ ∀ i, i < N → r i = 0)

/-- The linear solver returns once the residual of the system is at most `rtol` times the right-hand side or at most `atol`. -/
def Stops (N : ℕ) (nrm : (ℕ × ℕ → Blk (Fin 4)) → (ℕ → St) → ℝ) (rtol atol : ℝ) (ksp : (ℕ × ℕ → Blk (Fin 4)) → (ℕ → St) → ℕ → St) : Prop :=
  ∀ A b, Regular N A → nrm A (fun i => b i - mulRow N A (ksp A b) i) ≤ max (rtol * nrm A b) atol

/-- Exact solvers meet every tolerance. -/
theorem Exact.stops {N : ℕ} {ksp : (ℕ × ℕ → Blk (Fin 4)) → (ℕ → St) → ℕ → St} (h : Exact N ksp) {nrm : (ℕ × ℕ → Blk (Fin 4)) → (ℕ → St) → ℝ} (hn : Gauge N nrm) {rtol atol : ℝ}
    (ha : 0 ≤ atol) : Stops N nrm rtol atol ksp := fun A b hA => by
  rw [(hn.zero_iff A _ hA).2 fun i hi => by rw [h A b hA i hi, sub_self]]
  exact le_max_of_le_right ha

/-! ### Fixed points -/

section fixed
variable {D : Disc} {J : St → St → V2 → FJ} {ev : (ℕ → St) → Option Disc.Out} {u : ℕ → St} {o : Disc.Out} {cfl : ℝ} {relax : St → St → ℝ}
  {ksp : (ℕ × ℕ → Blk (Fin 4)) → (ℕ → St) → ℕ → St}

/-- With relaxation factors other than zero the state is unchanged exactly where the linear solver returns zero. -/
theorem upd_fixed_iff (ho : ev u = some o) (hr : ∀ du i, i < D.G.m.nelem → relax du (u i) ≠ 0) :
    (solverI D ev J relax ksp).upd cfl u = u ↔ ∀ q, q < D.G.m.nelem → ksp (sysOne D J u o cfl) o.res q = 0 := by
  have he : (solverI D ev J relax ksp).upd cfl u = relaxed D.G.m.nelem relax (ksp (sysOne D J u o cfl) o.res) u := by simp only [solverI, ho]
  rw [he]
  constructor
  · intro hu q hq
    have h1 := congrFun hu q
    simp only [relaxed, if_pos hq] at h1
    funext v
    have h2 : relax (ksp (sysOne D J u o cfl) o.res q) (u q) * ksp (sysOne D J u o cfl) o.res q v = 0 := by
      have := congrFun h1 v
      linarith
    exact (mul_eq_zero.1 h2).resolve_left (hr _ q hq)
  · intro hz
    funext i
    unfold relaxed
    split_ifs with hi
    · rw [hz i hi]; simp
    · rfl

variable {nrm : (ℕ × ℕ → Blk (Fin 4)) → (ℕ → St) → ℝ} {rtol atol : ℝ}

/-- C96 with an iterative linear solver, for every evaluation of the residual: where an iteration leaves the state unchanged, the residual is at most the absolute tolerance of the
linear solver — whatever the relative tolerance, if it is below one. -/
theorem C96_inexact_bound (ho : ev u = some o) (hr : ∀ du i, i < D.G.m.nelem → relax du (u i) ≠ 0) (hn : Gauge D.G.m.nelem nrm) (h1 : rtol < 1)
    (hk : Stops D.G.m.nelem nrm rtol atol ksp) (hreg : Regular D.G.m.nelem (sysOne D J u o cfl)) (ha : 0 ≤ atol) (hu : (solverI D ev J relax ksp).upd cfl u = u) :
    nrm (sysOne D J u o cfl) o.res ≤ atol := by
  have hz := (upd_fixed_iff ho hr).1 hu
  have h2 := hk _ o.res hreg
  have h3 : (fun i => o.res i - mulRow D.G.m.nelem (sysOne D J u o cfl) (ksp (sysOne D J u o cfl) o.res) i) = o.res := by
    funext i
    rw [mulRow_congr (B := sysOne D J u o cfl) (y := fun _ => 0) (fun _ _ => rfl) hz, mulRow_zero, sub_zero]
  rw [h3] at h2
  rcases le_max_iff.1 h2 with h2 | h2
  · have h4 := hn.nonneg (sysOne D J u o cfl) o.res
    refine le_trans ?_ ha
    nlinarith
  · exact h2

/-- C96 with an iterative linear solver that has a relative tolerance below one and no absolute one, for every evaluation of the residual: an iteration leaves the state unchanged
exactly where the residual vanishes. -/
theorem C96_inexact_steady_iff (ho : ev u = some o) (hr : ∀ du i, i < D.G.m.nelem → relax du (u i) ≠ 0) (hn : Gauge D.G.m.nelem nrm) (h1 : rtol < 1)
    (hk : Stops D.G.m.nelem nrm rtol 0 ksp) (hreg : Regular D.G.m.nelem (sysOne D J u o cfl)) :
    (solverI D ev J relax ksp).upd cfl u = u ↔ ∀ i, i < D.G.m.nelem → o.res i = 0 := by
  constructor
  · intro hu
    exact (hn.zero_iff _ _ hreg).1 (le_antisymm (C96_inexact_bound ho hr hn h1 hk hreg le_rfl hu) (hn.nonneg _ _))
  · intro hz
    refine (upd_fixed_iff ho hr).2 (hreg _ fun i hi => ?_)
    have h2 := hk _ o.res hreg
    rw [(hn.zero_iff _ _ hreg).2 hz, mul_zero, max_self] at h2
    have h3 := (hn.zero_iff _ _ hreg).1 (le_antisymm h2 (hn.nonneg _ _)) i hi
    rw [hz i hi, zero_sub] at h3
    exact neg_eq_zero.1 h3

/-- C96 for the second-order discretisation: though the matrix is that of the first-order one, with a linear solver as before the states left unchanged are those where the
second-order residual vanishes. -/
theorem C96_second_order_steady_iff {gs : GradScheme} {R : ReconScheme} {E : (ℕ → St) → Disc.Env} (ho : D.residual2 gs R (E u) u 0 = some o)
    (hr : ∀ du i, i < D.G.m.nelem → relax du (u i) ≠ 0) (hn : Gauge D.G.m.nelem nrm) (h1 : rtol < 1) (hk : Stops D.G.m.nelem nrm rtol 0 ksp)
    (hreg : Regular D.G.m.nelem (sysOne D J u o cfl)) :
    (solverI D (fun w => D.residual2 gs R (E w) w 0) J relax ksp).upd cfl u = u ↔ ∀ i, i < D.G.m.nelem → o.res i = 0 :=
  C96_inexact_steady_iff (ev := fun w => D.residual2 gs R (E w) w 0) ho hr hn h1 hk hreg

/-- A relative tolerance of one is too much: the solver that returns zero meets it in every measure, and no state changes. `KSPSolve` returns normally after its last iteration too,
and the code does not ask whether it has converged (src/ode/aodesolver.cpp:483-493). -/
theorem C96_inexact_sharp (D : Disc) (J : St → St → V2 → FJ) (ev : (ℕ → St) → Option Disc.Out) (relax : St → St → ℝ) (nrm : (ℕ × ℕ → Blk (Fin 4)) → (ℕ → St) → ℝ) :
    ∃ ksp, Stops D.G.m.nelem nrm 1 0 ksp ∧ ∀ cfl u, (solverI D ev J relax ksp).upd cfl u = u := by
  refine ⟨fun _ _ _ => 0, fun A b _ => ?_, fun cfl u => ?_⟩
  · have : (fun i => b i - mulRow D.G.m.nelem A (fun _ => 0) i) = b := by funext i; rw [mulRow_zero, sub_zero]
    rw [this, one_mul]
    exact le_max_left _ _
  · cases ho : ev u with
    | none => simp only [solverI, ho]
    | some o =>
      simp only [solverI, ho]
      funext i v
      simp [relaxed]

end fixed

/-! ### Backward Euler steps -/

section step
variable {D : Disc} {J : St → St → V2 → FJ} {ev : (ℕ → St) → Option Disc.Out} {u : ℕ → St} {o : Disc.Out} {cfl : ℝ}
  {ksp : (ℕ × ℕ → Blk (Fin 4)) → (ℕ → St) → ℕ → St} {nrm : (ℕ × ℕ → Blk (Fin 4)) → (ℕ → St) → ℝ} {rtol atol : ℝ}

/-- C96 with any evaluation of the residual and an iterative linear solver, where the face fluxes have the face blocks as derivatives: an implicit iteration without
under-relaxation is a backward Euler step, with the residual replaced by its value at the old states plus the derivative of the first-order residual along the step, up to a defect
that meets the tolerances of the linear solver. -/
theorem C96_defect_correction (h : D.G.Ok) (hnc : D.G.m.nconnface = 0) (hok : D.BcOk)
    (hb : ∀ k, k < D.G.m.nbface → ∀ v,
      HasGrad (fun a => D.flux2 k a (D.bstate k a) v) (-(D.blkBoundary J (D.bjac k) k (u (D.G.face k).left) v)) (u (D.G.face k).left))
    (hi : ∀ k, k < D.G.nface → D.G.m.nbface ≤ k → IsJoint (D.flux2 k)
      (D.blkInterior J k (u (D.G.face k).left) (u (D.G.face k).right)) (u (D.G.face k).left) (u (D.G.face k).right))
    (hk : Stops D.G.m.nelem nrm rtol atol ksp) (ho : ev u = some o) (hreg : Regular D.G.m.nelem (sysOne D J u o cfl)) {u' : ℕ → St}
    (hu' : (solverI D ev J (fun _ _ => 1) ksp).upd cfl u = u') {res : (ℕ → St) → ℕ → St} (hres : ∀ w, ∃ o, D.residual1 w 0 = some o ∧ o.res = res w) :
    ∃ e : ℕ → St, nrm (sysOne D J u o cfl) e ≤ max (rtol * nrm (sysOne D J u o cfl) o.res) atol ∧ ∀ i, i < D.G.m.nelem → ∀ v,
      ∃ d, HasDerivAt (fun t => res (fun j w => u j w + t * (u' j w - u j w)) i v) d 0 ∧
        D.G.ar i / (cfl * D.timestep o.uL o.uR i) * (u' i v - u i v) = o.res i v + d - e i v := by
  refine ⟨_, hk _ o.res hreg, fun i hin v => ⟨_, C96_product h hnc hok hb hi (fun j w => u' j w - u j w) hres hin v, ?_⟩⟩
  have hd : ∀ q, q < D.G.m.nelem → ksp (sysOne D J u o cfl) o.res q = fun w => u' q w - u q w := fun q hq => by
    funext w
    rw [← hu']
    simp only [solverI, ho, relaxed, if_pos hq]
    ring
  rw [Pi.sub_apply, mulRow_congr (B := sysOne D J u o cfl) (fun _ _ => rfl) hd, sysOne_mulRow _ hin]
  ring

/-- C96 for AUSM, Roe and HLLC on a single process with first- or second-order residuals and an iterative linear solver, under the hypotheses of `C96_newton_schemes`. -/
theorem C96_defect_correction_schemes (h : D.G.Ok) (hnc : D.G.m.nconnface = 0) (hv : D.viscous = true → D.constVisc = true) (hu : ∀ i, i < D.G.m.nelem → Adm D.gas (u i))
    (hb : ∀ k, k < D.G.m.nbface → ∃ o, D.bc (D.tag k) = some o ∧ BdSmooth D.gas D.scheme (u (D.G.face k).left) (D.G.nrm k) o)
    (hi : ∀ k, k < D.G.nface → D.G.m.nbface ≤ k → Smooth D.gas (u (D.G.face k).left) (u (D.G.face k).right) (D.G.nrm k) D.scheme)
    (hk : Stops D.G.m.nelem nrm rtol atol ksp) (ho : ev u = some o) (hreg : Regular D.G.m.nelem (sysOne D (exactJac D.gas D.scheme) u o cfl)) {u' : ℕ → St}
    (hu' : (solverI D ev (exactJac D.gas D.scheme) (fun _ _ => 1) ksp).upd cfl u = u')
    {res : (ℕ → St) → ℕ → St} (hres : ∀ w, ∃ o, D.residual1 w 0 = some o ∧ o.res = res w) :
    ∃ e : ℕ → St, nrm (sysOne D (exactJac D.gas D.scheme) u o cfl) e ≤ max (rtol * nrm (sysOne D (exactJac D.gas D.scheme) u o cfl) o.res) atol ∧
      ∀ i, i < D.G.m.nelem → ∀ v, ∃ d, HasDerivAt (fun t => res (fun j w => u j w + t * (u' j w - u j w)) i v) d 0 ∧
        D.G.ar i / (cfl * D.timestep o.uL o.uR i) * (u' i v - u i v) = o.res i v + d - e i v := by
  have hvo : ∀ {a : St}, Adm D.gas a → D.ViscOk a := fun ha hv' => ⟨ha.rho', fun hc' => by simp [hv hv'] at hc'⟩
  have hL : ∀ k, k < D.G.nface → Adm D.gas (u (D.G.face k).left) := fun k hk => hu _ (h.kind hk).1
  refine C96_defect_correction h hnc (fun k hk => by obtain ⟨o, ho, -⟩ := hb k hk; rw [ho]; rfl) ?_ ?_ hk ho hreg hu' hres
  · intro k hk v
    have hk' : k < D.G.nface := bnd_lt h hk
    obtain ⟨o, ho, hS⟩ := hb k hk
    have hn := nrm_unit h hk'
    obtain ⟨g, e1, e2, e3⟩ := C50_boundary_flux (hL k hk') hn hS
    have eg : ∀ a, D.bstate k a = o.ghost D.gas a (D.G.nrm k) := fun a => by simp [bstate, ho]
    have ej : D.bjac k = g := by simp [bjac, ho, e1]
    refine C50_boundary_exact D k ?_ ?_ (hvo (hL k hk')) (hvo (by rw [eg]; exact bdSmooth_adm (hL k hk') hn hS)) v
    · simp only [eg, ej]; exact e2
    · simp only [eg, ej]; exact e3
  · intro k hk hk'
    have hR : Adm D.gas (u (D.G.face k).right) := hu _ (by have := (h.kind hk).2.2.2.2 hk'; omega)
    exact flux2_joint D k (smooth_joint (hL k hk) hR _ (hi k hk hk')) (hvo (hL k hk)) (hvo hR)

end step

/-! ### Concrete cases -/

/-- Sum of absolute values. -/
noncomputable def sumAbs (N : ℕ) : (ℕ × ℕ → Blk (Fin 4)) → (ℕ → St) → ℝ := fun _ r => ∑ i ∈ range N, ∑ v, |r i v|

theorem sumAbs_gauge (N : ℕ) : Gauge N (sumAbs N) where
  nonneg := fun A r => Finset.sum_nonneg fun i _ => Finset.sum_nonneg fun v _ => abs_nonneg _
  zero_iff := fun A r _ => by
    unfold sumAbs
    rw [Finset.sum_eq_zero_iff_of_nonneg fun i _ => Finset.sum_nonneg fun v _ => abs_nonneg _]
    refine ⟨fun h i hi => funext fun v => ?_, fun h i hi => ?_⟩
    · have := (Finset.sum_eq_zero_iff_of_nonneg fun v _ => abs_nonneg _).1 (h i (Finset.mem_range.2 hi)) v (Finset.mem_univ _)
      exact abs_eq_zero.1 this
    · rw [h i (Finset.mem_range.1 hi)]; simp

/-- The square cut by its diagonals, a gas at rest that is denser in one cell, a linear solver that reduces the residual to a tenth: at small CFL numbers an iteration changes the
state; with the second-order discretisation none started in the far field does. -/
example (junk : ℕ → Gr) (old : Bool × ℕ → St) : ∃ s, topological FV.Geo.cross = .ok s ∧ (∃ ksp, Stops 4 (sumAbs 4) (1 / 10) 0 ksp) ∧ ∀ ksp, Stops 4 (sumAbs 4) (1 / 10) 0 ksp →
    ∃ c0, 0 < c0 ∧ ∀ cfl, 0 < cfl → cfl ≤ c0 →
    (implicit ((air1 (rest 1)).disc FV.Geo.cross s 0) (llfJac air) (fun _ _ => 1) ksp).upd cfl bump ≠ bump ∧
    (solverI ((air1 (rest 1)).disc FV.Geo.cross s 0) (fun w => ((air1 (rest 1)).disc FV.Geo.cross s 0).residual2 .zero .linear ⟨fun _ => rest 1, fun _ => 0, junk, old⟩ w 0)
      (llfJac air) (fun _ _ => 1) ksp).upd cfl
      (fun _ => rest 1) = fun _ => rest 1 := by
  obtain ⟨s, hs, hf⟩ := FV.Geo.cross_topological
  refine ⟨s, hs, ?_, fun ksp hk => ?_⟩
  · obtain ⟨ksp, h⟩ := exact_exists 4
    exact ⟨ksp, h.stops (sumAbs_gauge 4) le_rfl⟩
  set D := (air1 (rest 1)).disc FV.Geo.cross s 0 with hD
  have hok : D.G.Ok := ⟨cross_conforming, FV.Geo.cross_nozero, hs⟩
  have hb : D.BcOk := fun k _ => rfl
  have hne : D.G.m.nelem = 4 := by show FV.Geo.cross.nelem = 4; decide +kernel
  have har : ∀ i, i < D.G.m.nelem → 0 < D.G.ar i := fun i hi => by rw [hD, cross_area (by omega)]; norm_num
  obtain ⟨c1, h1, r1⟩ := regular_small (u := bump) hok (air1_gasOk s) hb (fun i _ => bump_adm i) har (llfJac air)
  obtain ⟨o2, ho2, hz2, -⟩ := Disc.C43_second_order (D := D) (gs := .zero) (R := .linear) (u := fun _ => rest 1) (E := ⟨fun _ => rest 1, fun _ => 0, junk, old⟩) hok (rest_adm one_pos)
    (fun _ _ => rfl) trivial trivial (fun h => by rcases h with h | ⟨K, h⟩ <;> cases h) (fun _ _ => rfl) (fun _ _ _ _ => rfl) (fun _ _ => rfl) 0
  have hg : D.gas.g ≠ 1 := by show air.g ≠ 1; norm_num [air]
  have hst : ∀ k, k < D.G.nface → o2.uL k = rest 1 ∧ (D.G.inner k → o2.uR k = rest 1) := fun k hk =>
    zero_linear_states (D := D) (u := fun _ => rest 1) hok hg (fun i _ => (rest_adm one_pos).rho.ne') ho2 hk
  obtain ⟨c2, C, h2, r2⟩ := C96_small_cfl D (llfJac air) (fun _ => rest 1) o2 har fun i hi =>
    (Disc.C51_positive_bounded hok (air1_gasOk s) (fun k hk => by rw [(hst k hk).1]; exact rest_adm one_pos) (fun k hk hin => by rw [(hst k hk).2 hin]; exact rest_adm one_pos) hi (har i hi)).1
  have hk' : Stops D.G.m.nelem (sumAbs D.G.m.nelem) (1 / 10) 0 ksp := by rw [hne]; exact hk
  refine ⟨min c1 c2, lt_min h1 h2, fun cfl hc hc' => ⟨fun e => ?_, ?_⟩⟩
  · obtain ⟨o, ho, hpos, -⟩ := cross_interleaved hs hf 0
    rw [← solverI_first] at e
    have := congrFun ((C96_inexact_steady_iff (D := D) (ev := fun w => D.residual1 w 0) (nrm := sumAbs D.G.m.nelem) ho (fun _ _ _ => one_ne_zero) (sumAbs_gauge _) (by norm_num) hk' (r1 cfl hc (hc'.trans (min_le_left _ _)) o ho)).1 e 0
      (by rw [hne]; norm_num)) 0
    rw [this] at hpos
    exact lt_irrefl _ hpos
  · exact (C96_second_order_steady_iff (D := D) (nrm := sumAbs D.G.m.nelem) (E := fun _ => ⟨fun _ => rest 1, fun _ => 0, junk, old⟩) ho2 (fun _ _ _ => one_ne_zero) (sumAbs_gauge _) (by norm_num) hk' (r2 cfl hc (hc'.trans (min_le_right _ _))).1).2 hz2

/-- Two squares of gas moving obliquely between walls: hypotheses of `C96_defect_correction_schemes` are met at all small enough CFL numbers by any linear solver that reduces the
residual to a tenth, with second-order residuals. -/
example (junk gg : ℕ → Gr) (old : Bool × ℕ → St) (ex : ℕ → St) : ∃ s, topological pair = .ok s ∧ ∀ ksp, Stops 2 (sumAbs 2) (1 / 10) 0 ksp → ∃ (o : Disc.Out) (c0 : ℝ), 0 < c0 ∧
    (airWalls.disc pair s 0).residual2 .zero .linear ⟨ex, gg, junk, old⟩ (fun _ => uEx) 0 = some o ∧
    ∀ cfl, 0 < cfl → cfl ≤ c0 → ∃ (res : (ℕ → St) → ℕ → St) (dt : ℕ → ℝ) (u' e : ℕ → St),
    (solverI (airWalls.disc pair s 0) (fun w => (airWalls.disc pair s 0).residual2 .zero .linear ⟨ex, gg, junk, old⟩ w 0) (ausmJac air) (fun _ _ => 1) ksp).upd cfl (fun _ => uEx) = u' ∧
    (∀ w, ∃ o, (airWalls.disc pair s 0).residual1 w 0 = some o ∧ o.res = res w) ∧ ∑ i ∈ range 2, ∑ v, |e i v| ≤ 1 / 10 * ∑ i ∈ range 2, ∑ v, |o.res i v| ∧
    ∀ i, i < 2 → ∀ v, ∃ d, HasDerivAt (fun t => res (fun j w => uEx w + t * (u' j w - uEx w)) i v) d 0 ∧
      1 / (cfl * dt i) * (u' i v - uEx v) = o.res i v + d - e i v := by
  obtain ⟨s, hs, hf⟩ := pair_topological
  refine ⟨s, hs, fun ksp hk => ?_⟩
  set D := airWalls.disc pair s 0 with hD
  have hok : D.G.Ok := ⟨pair_conforming, pair_nozero, hs⟩
  have hbc0 : ∀ t, D.bc t = if t = 1 then some .slip else some (.adiabatic 0) := fun _ => rfl
  have hbc : ∀ k, k < D.G.m.nbface → ∃ o, D.bc (D.tag k) = some o ∧ BdSmooth D.gas D.scheme uEx (D.G.nrm k) o := fun k _ => by
    by_cases ht : D.tag k = 1
    · exact ⟨.slip, by rw [hbc0, if_pos ht], Or.inl rfl⟩
    · exact ⟨.adiabatic 0, by rw [hbc0, if_neg ht], Or.inl ⟨rfl, Or.inl rfl⟩⟩
  have hb : D.BcOk := fun k hk => by obtain ⟨o, ho, -⟩ := hbc k hk; rw [ho]; rfl
  have har : ∀ i, i < 2 → D.G.ar i = 1 := fun i hi => pair_area hi
  have har' : ∀ i, i < D.G.m.nelem → 0 < D.G.ar i := fun i hi => by rw [har i hi]; norm_num
  have hg : D.GasOk := ⟨by norm_num [hD, airWalls, Settings.disc, air], by norm_num [hD, airWalls, Settings.disc, air], by norm_num [hD, airWalls, Settings.disc, air],
    by norm_num [hD, airWalls, Settings.disc, air]⟩
  obtain ⟨o, ho⟩ := residual2_defined (D := D) hok hb (gs := .zero) (R := .linear) (show Disc.ReconOk .linear from trivial) (fun h => by rcases h with h | ⟨K, h⟩ <;> cases h)
    ⟨ex, gg, junk, old⟩ (fun _ => uEx) 0
  have hg1 : D.gas.g ≠ 1 := by show air.g ≠ 1; norm_num [air]
  have hst : ∀ k, k < D.G.nface → o.uL k = uEx ∧ (D.G.inner k → o.uR k = uEx) := fun k hk =>
    zero_linear_states (D := D) (u := fun _ => uEx) hok hg1 (fun i _ => uEx_adm.rho.ne') ho hk
  obtain ⟨c0, C, hc0, hreg⟩ := C96_small_cfl D (ausmJac air) (fun _ => uEx) o har' fun i hi =>
    (Disc.C51_positive_bounded hok hg (fun k hk => by rw [(hst k hk).1]; exact uEx_adm) (fun k hk hin => by rw [(hst k hk).2 hin]; exact uEx_adm) hi (har' i hi)).1
  refine ⟨o, c0, hc0, ho, fun cfl hc hc' => ?_⟩
  have hres : ∀ w, ∃ o, D.residual1 w 0 = some o := fun w => ⟨_, by unfold Disc.residual1; rw [if_pos hb]⟩
  choose o1 ho1 using hres
  have hin : ∀ k, k < D.G.nface → D.G.m.nbface ≤ k → Smooth D.gas uEx uEx (D.G.nrm k) D.scheme := fun k hk hk' => by
    obtain rfl : k = 6 := by
      have h1 : D.G.nface = 7 := by show s.faces.length = 7; rw [hf]; rfl
      have h2 : D.G.m.nbface = 6 := rfl
      omega
    change machHalf air uEx uEx (D.G.nrm 6) ≠ 0
    unfold machHalf
    rw [(ausm_split_sum _ 0 0 0 0).1]
    refine div_ne_zero ?_ uEx_adm.c_pos.ne'
    have e : D.G.nrm 6 = ![1, 0] := by
      have h6 : D.G.face 6 = ⟨0, 1, 1, 4⟩ := by show faceAt s.faces 6 = _; rw [hf]; rfl
      unfold Geo.nrm fNrm
      rw [h6]
      norm_num [fLen, pair, hD, Settings.disc]
    rw [e]
    norm_num [Gas.varsVn, dot, Gas.vel, uEx]
  obtain ⟨e, he, h2⟩ := C96_defect_correction_schemes (D := D) (ev := fun w => D.residual2 .zero .linear ⟨ex, gg, junk, old⟩ w 0) (nrm := sumAbs 2) (u := fun _ => uEx) hok rfl (fun _ => rfl)
    (fun _ _ => uEx_adm) hbc hin hk ho (hreg cfl hc hc').1 rfl (fun w => ⟨o1 w, ho1 w, rfl⟩)
  refine ⟨fun w => (o1 w).res, fun i => D.timestep o.uL o.uR i, _, e, rfl, fun w => ⟨o1 w, ho1 w, rfl⟩, ?_, fun i hi v => ?_⟩
  · rw [max_eq_left (mul_nonneg (by norm_num) ((sumAbs_gauge 2).nonneg _ _))] at he
    exact he
  · have := h2 i hi v
    rw [har i hi] at this
    exact this

end Par
end FVENS
