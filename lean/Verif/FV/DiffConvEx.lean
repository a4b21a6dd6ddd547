import Verif.FV.DiffConv
import Mathlib.Analysis.SpecificLimits.Basic

/-!
# Convergence of the diffusion solver: meshes of convex cells, and the sharp limit on rectangles (C102)
-/

namespace FVENS
namespace FV
namespace Diff

open Msh Finset Ode

/-! ### Error and residual -/

section error
variable {D : Diff 1} {gs : GradScheme}

/-- C102: the distance to the steady state is at most a constant (of the mesh and the diffusivity) times the residual norm on which the solvers stop. -/
theorem C102_error (hG : D.G.Ok) (hn : D.G.m.nconnface = 0) (hp : D.Plain gs) (hs : D.FixedSource) (hw : ∀ k, k < D.G.nface → 0 < D.wt k)
    (hr : ∀ i, i < D.G.m.nelem → Reaches D.G i) (har : ∀ i, i < D.G.m.nelem → 0 < D.G.ar i) :
    ∃ K, 0 < K ∧ ∀ us, D.Steady gs us → ∀ u r, (D.solver gs).norm u = some r → ∀ i, i < D.G.m.nelem → |u i 0 - us i 0| ≤ K * r := by
  obtain ⟨B, h1, -⟩ := residual_inverse hG hn hp hs hw hr
  let Bc := LinearMap.toContinuousLinearMap B
  let M := 1 + ∑ j ∈ range D.G.m.nelem, 1 / √(D.G.ar j)
  have hM0 : ∀ j ∈ range D.G.m.nelem, 0 ≤ 1 / √(D.G.ar j) := fun j _ => by positivity
  have hM : 0 < M := add_pos_of_pos_of_nonneg one_pos (sum_nonneg hM0)
  refine ⟨(‖Bc‖ + 1) * M, by positivity, fun us hus u r hur i hi => ?_⟩
  obtain ⟨r', e1, e2⟩ := norm_defined (D := D) gs har u
  rw [hur] at e1
  cases e1
  have hr0 : 0 ≤ r := (D.solver gs).nonneg _ _ hur
  have hy : ‖fun j : Fin D.G.m.nelem => D.residual gs (fun _ => 0) us 0 j 0 - D.residual gs (fun _ => 0) u 0 j 0‖ ≤ M * r := by
    rw [pi_norm_le_iff_of_nonneg (by positivity)]
    intro j
    rw [hus j j.2, zero_sub, norm_neg, Real.norm_eq_abs]
    have ha := har j j.2
    have h2 : D.G.ar j * D.residual gs (fun _ => 0) u 0 j 0 ^ 2 ≤ r ^ 2 := by
      rw [e2]
      exact single_le_sum (f := fun l => D.G.ar l * D.residual gs (fun _ => 0) u 0 l 0 ^ 2)
        (fun l hl => mul_nonneg (har l (mem_range.1 hl)).le (pow_two_nonneg _)) (mem_range.2 j.2)
    have h3 : √(D.G.ar j) * |D.residual gs (fun _ => 0) u 0 j 0| ≤ r := by
      refine le_of_sq_le_sq ?_ hr0
      rw [mul_pow, Real.sq_sqrt ha.le, sq_abs]
      exact h2
    have hsq : 0 < √(D.G.ar j) := Real.sqrt_pos.2 ha
    have h4 : |D.residual gs (fun _ => 0) u 0 j 0| ≤ 1 / √(D.G.ar j) * r := by
      rw [div_mul_eq_mul_div, one_mul, le_div_iff₀ hsq]
      linarith
    refine h4.trans (mul_le_mul_of_nonneg_right ?_ hr0)
    have := single_le_sum hM0 (mem_range.2 j.2)
    show _ ≤ 1 + ∑ j ∈ range D.G.m.nelem, 1 / √(D.G.ar j)
    linarith
  have h5 := congrFun (h1 u us) ⟨i, hi⟩
  have h6 := norm_le_pi_norm (Bc fun j : Fin D.G.m.nelem => D.residual gs (fun _ => 0) us 0 j 0 - D.residual gs (fun _ => 0) u 0 j 0) ⟨i, hi⟩
  have h7 := Bc.le_opNorm fun j : Fin D.G.m.nelem => D.residual gs (fun _ => 0) us 0 j 0 - D.residual gs (fun _ => 0) u 0 j 0
  have h8 : |u i 0 - us i 0| = ‖Bc (fun j : Fin D.G.m.nelem => D.residual gs (fun _ => 0) us 0 j 0 - D.residual gs (fun _ => 0) u 0 j 0) ⟨i, hi⟩‖ := by
    rw [Real.norm_eq_abs]
    exact congrArg _ h5
  rw [h8]
  have h9 := mul_le_mul_of_nonneg_left hy (norm_nonneg Bc)
  have h10 : 0 ≤ M * r := by positivity
  nlinarith

end error

/-! ### Meshes of convex cells -/

section mesh
variable {m : Mesh} {s : FState} {nu bval : ℝ} {source : (Fin 2 → ℝ) → (Fin 1 → ℝ) → Fin 1 → ℝ} {gs : GradScheme}

/-- C102, implicit solver, whole meshes: on every conforming mesh of convex cells (counterclockwise nodes), for every source depending on position only, there is exactly one steady
state. Implicit runs with exact linear solves tend to it from every initial state, for all positive CFL numbers, and end with the tolerance met if enough iterations are allowed. -/
theorem C102_implicit_converges (hc : Conforming m) (hn : m.nconnface = 0) (hz : NoZeroFace m) (ht : topological m = .ok s) (hx : ∀ i, i < m.nelem → ConvexCell m i) (hnu : 0 < nu)
    (hp : (onMesh m s nu bval source).Plain gs) (hs : ∀ x w w', source x w = source x w') :
    ∃ us : ℕ → Fin 1 → ℝ, (∀ w, (onMesh m s nu bval source).Steady gs w ↔ ∀ i, i < m.nelem → w i 0 = us i 0) ∧
      ∀ upd, (onMesh m s nu bval source).Solves gs upd → ∀ c : Conf, 0 < c.cflinit → c.cflinit ≤ c.cflfin → ∀ u,
        (∃ t : ℕ → Mem (ℕ → Fin 1 → ℝ), (∀ n, traj backwardEuler ((onMesh m s nu bval source).solverI gs upd) c u n = some (t n)) ∧
          ∀ i, i < m.nelem → Filter.Tendsto (fun n => (t n).u i 0) Filter.atTop (nhds (us i 0))) ∧
        (0 < c.tol → c.tol < 1 → ¬ (onMesh m s nu bval source).Steady gs u →
          ∃ M : ℤ, ∀ N, M ≤ N → ∃ n, Solve backwardEuler ((onMesh m s nu bval source).solverI gs upd) { c with maxiter := N } u n .ok) := by
  set D := onMesh m s nu bval source with hD
  have hG : D.G.Ok := ⟨hc, hz, ht⟩
  obtain ⟨hw, har⟩ := C101_convex (bval := bval) (source := source) hc hn hz ht hx hnu
  have hw' : ∀ k, k < D.G.nface → 0 ≤ D.wt k := fun k hk => (hw k hk).le
  have hr : ∀ i, i < D.G.m.nelem → Reaches D.G i := fun i hi => C102_reaches hG hn (fun j hj => by
    have h1 : 0 < (area m j).getD 0 := har j hj
    cases e : area m j with
    | none => rw [e] at h1; exact absurd h1 (lt_irrefl _)
    | some A => rw [e] at h1; exact ⟨A, h1, e⟩) hi
  obtain ⟨us, hus, huniq⟩ := C102_steady hG hn hp hs hw hr
  refine ⟨us, huniq, fun upd hupd c h0 hcc u => ⟨?_, fun htol htol1 hnst => ?_⟩⟩
  · obtain ⟨a, ha, hdec⟩ := implicit_decrease (gs := gs) hG hn hp hw' hnu har hs h0 hcc
    have hdef : ∀ u, ∃ r, (D.solverI gs upd).norm u = some r := fun u => (norm_defined gs har u).imp fun r h => h.1
    have hV : ∀ u : ℕ → Fin 1 → ℝ, 0 ≤ D.dissip fun i => u i 0 - us i 0 := fun u => dissip_nonneg hw' _
    obtain ⟨t, h1, r, h2, h3⟩ := norms_vanish (kd := backwardEuler) (P := D.solverI gs upd) (c := c) (V := fun u => D.dissip fun i => u i 0 - us i 0) (a := a) hV ha hdef
      (fun prev ratio u r hr => by
        obtain ⟨e1, e2⟩ := C54_exp_bounds hcc prev ratio backwardEuler.up backwardEuler.down
        refine hdec us hus _ e1 e2 u _ r (hupd _ _ ?_) hr
        have hone : D.blk = fun k => (1 : ℝ) • D.blk k := by funext k; rw [one_smul]
        rw [hone]
        exact implicit_solvable hG hn hw' zero_le_one (fun i hi => div_pos (har i hi) (mul_pos (lt_of_lt_of_le h0 e1) (D.C53_timestep hG hnu hi).2.2)) u) u
    exact ⟨t, h1, fun i hi => values_converge hG hn hp hs hw hr har hus h2 h3 hi⟩
  · obtain ⟨a, ha, hrun⟩ := C102_implicit_run (gs := gs) hG hn hp hw' hnu har hs h0 hcc
    obtain ⟨r0, e1, e2⟩ := norm_defined (D := D) gs har u
    have hr0 : 0 ≤ r0 := (D.solver gs).nonneg _ _ e1
    have hpos : 0 < r0 := by
      refine lt_of_le_of_ne hr0 fun h => hnst fun i hi => ?_
      rw [← h] at e2
      have h5 := (sum_eq_zero_iff_of_nonneg fun l hl => mul_nonneg (har l (mem_range.1 hl)).le (pow_two_nonneg _)).1 (e2.symm.trans (by norm_num)) i (mem_range.2 hi)
      exact pow_eq_zero_iff (two_ne_zero) |>.1 ((mul_eq_zero.1 h5).resolve_left (har i hi).ne')
    obtain ⟨M, hM⟩ := exists_nat_gt (D.dissip (fun i => u i 0 - us i 0) / (a * (c.tol * r0) ^ 2))
    refine ⟨M + 1, fun N hN => ?_⟩
    have hA : 0 < a * (c.tol * r0) ^ 2 := by positivity
    obtain ⟨n, h6, -⟩ := hrun upd hupd { c with maxiter := N } le_rfl hcc le_rfl htol htol1 us hus u r0 e1 hpos (by
      rw [div_lt_iff₀ hA] at hM
      refine hM.trans_le ?_
      have h7 : ((M : ℤ) : ℝ) ≤ N - 1 := by
        have h8 : ((M + 1 : ℤ) : ℝ) ≤ N := by exact_mod_cast hN
        push_cast at h8 ⊢
        linarith
      rw [mul_comm]
      exact mul_le_mul_of_nonneg_left (by exact_mod_cast h7) hA.le)
    exact ⟨n, h6⟩

/-- C102, explicit solver, whole meshes: likewise where CFL number times time step times conductances over area, those of boundary faces counted half, is below 1 in all cells. -/
theorem C102_explicit_converges (hc : Conforming m) (hn : m.nconnface = 0) (hz : NoZeroFace m) (ht : topological m = .ok s) (hx : ∀ i, i < m.nelem → ConvexCell m i) (hnu : 0 < nu)
    (hp : (onMesh m s nu bval source).Plain gs) (hs : ∀ x w w', source x w = source x w') {cfl : ℝ} (h0 : 0 < cfl)
    (hθ : ∀ i, i < m.nelem → cfl * (onMesh m s nu bval source).timestep i / (onMesh m s nu bval source).G.ar i *
      ((onMesh m s nu bval source).load i - (onMesh m s nu bval source).bload i / 2) < 1) :
    ∃ us : ℕ → Fin 1 → ℝ, (∀ w, (onMesh m s nu bval source).Steady gs w ↔ ∀ i, i < m.nelem → w i 0 = us i 0) ∧ ∀ c : Conf, c.cflinit = cfl → ∀ u,
        (∃ t : ℕ → Mem (ℕ → Fin 1 → ℝ), (∀ n, traj forwardEuler ((onMesh m s nu bval source).solver gs) c u n = some (t n)) ∧
          ∀ i, i < m.nelem → Filter.Tendsto (fun n => (t n).u i 0) Filter.atTop (nhds (us i 0))) ∧
        (0 < c.tol → c.tol < 1 → ¬ (onMesh m s nu bval source).Steady gs u →
          ∃ M : ℤ, ∀ N, M ≤ N → ∃ n, Solve forwardEuler ((onMesh m s nu bval source).solver gs) { c with maxiter := N } u n .ok) := by
  set D := onMesh m s nu bval source with hD
  have hG : D.G.Ok := ⟨hc, hz, ht⟩
  obtain ⟨hw, har⟩ := C101_convex (bval := bval) (source := source) hc hn hz ht hx hnu
  have hw' : ∀ k, k < D.G.nface → 0 ≤ D.wt k := fun k hk => (hw k hk).le
  have hr : ∀ i, i < D.G.m.nelem → Reaches D.G i := fun i hi => C102_reaches hG hn (fun j hj => by
    have h1 : 0 < (area m j).getD 0 := har j hj
    cases e : area m j with
    | none => rw [e] at h1; exact absurd h1 (lt_irrefl _)
    | some A => rw [e] at h1; exact ⟨A, h1, e⟩) hi
  obtain ⟨us, hus, huniq⟩ := C102_steady hG hn hp hs hw hr
  obtain ⟨θ, hθ1, hθ2⟩ : ∃ θ, θ < 1 ∧ ∀ i, i < D.G.m.nelem → cfl * D.timestep i / D.G.ar i * (D.load i - D.bload i / 2) ≤ θ := by
    have : ∀ N, N ≤ m.nelem → ∃ θ, θ < 1 ∧ ∀ i, i < N → cfl * D.timestep i / D.G.ar i * (D.load i - D.bload i / 2) ≤ θ := fun N => by
      induction N with
      | zero => exact fun _ => ⟨0, one_pos, fun i hi => by omega⟩
      | succ N ih =>
        intro hN
        obtain ⟨θ, h1, h2⟩ := ih (by omega)
        refine ⟨max θ _, max_lt h1 (hθ N (by omega)), fun i hi => ?_⟩
        rcases Nat.lt_succ_iff_lt_or_eq.1 hi with h | rfl
        · exact (h2 i h).trans (le_max_left _ _)
        · exact le_max_right _ _
    exact this _ le_rfl
  refine ⟨us, huniq, fun c hcfl u => ⟨?_, fun htol htol1 hnst => ?_⟩⟩
  · obtain ⟨a, ha, hdec⟩ := explicit_decrease (gs := gs) hG hn hp hw' hnu har hs h0 hθ1 hθ2
    have hdef : ∀ u, ∃ r, (D.solver gs).norm u = some r := fun u => (norm_defined gs har u).imp fun r h => h.1
    have hV : ∀ u : ℕ → Fin 1 → ℝ, 0 ≤ D.dissip fun i => u i 0 - us i 0 := fun u => dissip_nonneg hw' _
    obtain ⟨t, h1, r, h2, h3⟩ := norms_vanish (kd := forwardEuler) (P := D.solver gs) (c := c) (V := fun u => D.dissip fun i => u i 0 - us i 0) (a := a) hV ha hdef
      (fun prev ratio u r hr => by
        have e : forwardEuler.used c (expRamp c.cflinit c.cflfin prev ratio forwardEuler.up forwardEuler.down) = cfl := hcfl
        rw [e]
        exact hdec us hus u r hr) u
    exact ⟨t, h1, fun i hi => values_converge hG hn hp hs hw hr har hus h2 h3 hi⟩
  · obtain ⟨a, ha, hrun⟩ := C102_explicit_run (gs := gs) hG hn hp hw' hnu har hs h0 hθ1 hθ2
    obtain ⟨r0, e1, e2⟩ := norm_defined (D := D) gs har u
    have hr0 : 0 ≤ r0 := (D.solver gs).nonneg _ _ e1
    have hpos : 0 < r0 := by
      refine lt_of_le_of_ne hr0 fun h => hnst fun i hi => ?_
      rw [← h] at e2
      have h5 := (sum_eq_zero_iff_of_nonneg fun l hl => mul_nonneg (har l (mem_range.1 hl)).le (pow_two_nonneg _)).1 (e2.symm.trans (by norm_num)) i (mem_range.2 hi)
      exact pow_eq_zero_iff (two_ne_zero) |>.1 ((mul_eq_zero.1 h5).resolve_left (har i hi).ne')
    obtain ⟨M, hM⟩ := exists_nat_gt (D.dissip (fun i => u i 0 - us i 0) / (a * (c.tol * r0) ^ 2))
    refine ⟨M + 1, fun N hN => ?_⟩
    have hA : 0 < a * (c.tol * r0) ^ 2 := by positivity
    obtain ⟨n, h6, -⟩ := hrun { c with maxiter := N } hcfl htol htol1 us hus u r0 e1 hpos (by
      rw [div_lt_iff₀ hA] at hM
      refine hM.trans_le ?_
      have h7 : ((M : ℤ) : ℝ) ≤ N - 1 := by
        have h8 : ((M + 1 : ℤ) : ℝ) ≤ N := by exact_mod_cast hN
        push_cast at h8 ⊢
        linarith
      rw [mul_comm]
      exact mul_le_mul_of_nonneg_left (by exact_mod_cast h7) hA.le)
    exact ⟨n, h6⟩

end mesh

/-! ### The limit for explicit runs is sharp on rectangles -/

section rect
variable {a : ℝ} {s : FState} {nu bval : ℝ}

/-- C102, exact: in a rectangle of width at least its height 1, explicit runs from a value other than the boundary value tend to the boundary value exactly if the hypothesis of
`C102_explicit_converges` holds, that is, the CFL number times `2 (a² + 1)` is below 1. -/
theorem C102_explicit_sharp (ha : 1 ≤ a) (hs : ∀ a, topological (rect a) = .ok s) (hf : s.faces = [⟨0, 1, 0, 1⟩, ⟨0, 2, 1, 2⟩, ⟨0, 3, 2, 3⟩, ⟨0, 4, 3, 0⟩])
    (he : ∀ f, f < 4 → s.elemface 0 f = some f) (hnu : 0 < nu) (gs : GradScheme) {c : Conf} (hcfl : 0 < c.cflinit) {u : ℕ → Fin 1 → ℝ} (hu : u 0 0 ≠ bval) :
    (c.cflinit * (inRect a s nu bval).timestep 0 / (inRect a s nu bval).G.ar 0 * ((inRect a s nu bval).load 0 - (inRect a s nu bval).bload 0 / 2) = 2 * c.cflinit * (a ^ 2 + 1)) ∧
    ∃ t : ℕ → Mem (ℕ → Fin 1 → ℝ), (∀ n, traj forwardEuler ((inRect a s nu bval).solver gs) c u n = some (t n)) ∧
      (Filter.Tendsto (fun n => (t n).u 0 0) Filter.atTop (nhds bval) ↔ 2 * c.cflinit * (a ^ 2 + 1) < 1) := by
  obtain ⟨har, hdt, hl, hb, -⟩ := inRect_values (nu := nu) (bval := bval) ha hf he
  have ha0 : 0 < a := by linarith
  refine ⟨by rw [har, hdt, hl, hb]; field_simp; ring, ?_⟩
  choose t h1 h2 using inRect_traj (bval := bval) ha hs hf he hnu gs c u
  refine ⟨t, h1, ?_⟩
  have e : (fun n => (t n).u 0 0) = fun n => (1 - 4 * c.cflinit * (a ^ 2 + 1)) ^ n * (u 0 0 - bval) + bval := by
    funext n; rw [← h2 n]; ring
  have hd : u 0 0 - bval ≠ 0 := sub_ne_zero.2 hu
  have hlt : 1 - 4 * c.cflinit * (a ^ 2 + 1) < 1 := by
    have : 0 < 4 * c.cflinit * (a ^ 2 + 1) := by positivity
    linarith
  rw [e]
  constructor
  · intro h
    have h3 : Filter.Tendsto (fun n : ℕ => (1 - 4 * c.cflinit * (a ^ 2 + 1)) ^ n) Filter.atTop (nhds 0) := by
      have := ((h.sub_const bval).div_const (u 0 0 - bval))
      simp only [add_sub_cancel_right, sub_self, zero_div] at this
      refine this.congr fun n => by field_simp
    have h4 := (tendsto_pow_atTop_nhds_zero_iff).1 h3
    have := (abs_lt.1 h4).1
    linarith
  · intro h
    have h3 : |1 - 4 * c.cflinit * (a ^ 2 + 1)| < 1 := abs_lt.2 ⟨by linarith, hlt⟩
    have := ((tendsto_pow_atTop_nhds_zero_of_abs_lt_one h3).mul_const (u 0 0 - bval)).add_const bval
    simpa using this

/-- C102: no CFL number is small enough for all meshes: at each there is a rectangle in which explicit runs from anywhere but the boundary value do not tend to it. -/
theorem C102_no_cfl_refuted (hnu : 0 < nu) (bval : ℝ) (gs : GradScheme) {c : Conf} (hcfl : 0 < c.cflinit) :
    ∃ a s, 1 ≤ a ∧ topological (rect a) = .ok s ∧ ∀ u : ℕ → Fin 1 → ℝ, u 0 0 ≠ bval → ∃ t : ℕ → Mem (ℕ → Fin 1 → ℝ),
      (∀ n, traj forwardEuler ((inRect a s nu bval).solver gs) c u n = some (t n)) ∧ ¬ Filter.Tendsto (fun n => (t n).u 0 0) Filter.atTop (nhds bval) := by
  obtain ⟨s, hs, hf, he⟩ := rect_topological
  have h1 : 1 ≤ 1 + 1 / c.cflinit := by
    have : 0 < 1 / c.cflinit := by positivity
    linarith
  refine ⟨1 + 1 / c.cflinit, s, h1, hs _, fun u hu => ?_⟩
  obtain ⟨-, t, h2, h3⟩ := C102_explicit_sharp (nu := nu) (bval := bval) h1 hs hf he hnu gs hcfl hu
  refine ⟨t, h2, fun h => ?_⟩
  have h4 := h3.1 h
  have h5 : c.cflinit * (1 + 1 / c.cflinit) = c.cflinit + 1 := by field_simp
  have h6 : 1 ≤ c.cflinit * (1 + 1 / c.cflinit) ^ 2 := by
    rw [pow_two, ← mul_assoc, h5]
    nlinarith
  nlinarith

end rect

/-! ### Examples -/

/-- Exact linear solvers exist. -/
theorem solves_exists (D : Diff 1) (gs : GradScheme) : ∃ upd, D.Solves gs upd := by
  classical
  refine ⟨fun cfl u => if h : ∃ u', D.Implicit gs D.blk cfl u u' then h.choose else u, fun cfl u h => ?_⟩
  have e : (if h : ∃ u', D.Implicit gs D.blk cfl u u' then h.choose else u) = h.choose := dif_pos h
  show D.Implicit gs D.blk cfl u (if h : ∃ u', D.Implicit gs D.blk cfl u u' then h.choose else u)
  rw [e]
  exact h.choose_spec

theorem pair_convex {i : ℕ} (hi : i < Par.pair.nelem) : ConvexCell Par.pair i := by
  have hi : i < 2 := hi
  refine ⟨Or.inr rfl, fun f g hf hg => ?_⟩
  have hf : f < 4 := hf
  have hg : g < 4 := hg
  obtain rfl | rfl : i = 0 ∨ i = 1 := by omega
  all_goals
    obtain rfl | rfl | rfl | rfl : f = 0 ∨ f = 1 ∨ f = 2 ∨ f = 3 := by omega
    all_goals
      obtain rfl | rfl | rfl | rfl : g = 0 ∨ g = 1 ∨ g = 2 ∨ g = 3 := by omega
      all_goals norm_num [triArea, Par.pair]

/-- Heating of two cells with a source of one over the two cells, cold boundary: implicit runs from zero with CFL numbers 100 to 10000 tend to a non-zero steady state and end with
the tolerance met, for any exact linear solver, and there is one. -/
example : ∃ s, topological Par.pair = .ok s ∧ ∃ upd, (onMesh Par.pair s 1 0 fun _ _ _ => 1).Solves .zero upd ∧ ∃ us : ℕ → Fin 1 → ℝ, ¬ (us 0 0 = 0 ∧ us 1 0 = 0) ∧
    (∃ t : ℕ → Mem (ℕ → Fin 1 → ℝ), (∀ n, traj backwardEuler ((onMesh Par.pair s 1 0 fun _ _ _ => 1).solverI .zero upd) ⟨1 / 1000000, 100, 100, 10000⟩ (fun _ _ => 0) n = some (t n)) ∧
      ∀ i, i < 2 → Filter.Tendsto (fun n => (t n).u i 0) Filter.atTop (nhds (us i 0))) ∧
    ∃ M : ℤ, ∀ N, M ≤ N → ∃ n, Solve backwardEuler ((onMesh Par.pair s 1 0 fun _ _ _ => 1).solverI .zero upd) ⟨1 / 1000000, N, 100, 10000⟩ (fun _ _ => 0) n .ok := by
  obtain ⟨s, hs, hf⟩ := Par.pair_topological
  obtain ⟨upd, hupd⟩ := solves_exists (onMesh Par.pair s 1 0 fun _ _ _ => 1) .zero
  obtain ⟨us, h1, h2⟩ := C102_implicit_converges (nu := 1) (bval := 0) (source := fun _ _ _ => 1) (gs := .zero) Par.pair_conforming rfl Par.pair_nozero hs (fun i hi => pair_convex hi)
    one_pos (Or.inl rfl) (fun _ _ _ => rfl)
  have hw := C101_convex (nu := 1) (bval := 0) (source := fun _ _ (_ : Fin 1) => (1 : ℝ)) Par.pair_conforming rfl Par.pair_nozero hs (fun i hi => pair_convex hi) one_pos
  have hok : (onMesh Par.pair s 1 0 fun _ _ (_ : Fin 1) => 1).G.Ok := ⟨Par.pair_conforming, Par.pair_nozero, hs⟩
  have hns : ¬ (onMesh Par.pair s 1 0 fun _ _ (_ : Fin 1) => 1).Steady .zero fun _ _ => 0 := fun h => by
    have h3 := h 0 (by show 0 < 2; omega)
    rw [residual_split hok (Or.inl rfl) _ (show 0 < 2 by omega), sum_eq_zero fun k hk => by
      unfold nb; rw [if_neg (mem_filter.1 hk).2]; split_ifs <;> simp] at h3
    have h4 : (onMesh Par.pair s 1 0 fun _ _ (_ : Fin 1) => 1).bval = 0 := rfl
    have h5 : (onMesh Par.pair s 1 0 fun _ _ (_ : Fin 1) => 1).source ((onMesh Par.pair s 1 0 fun _ _ (_ : Fin 1) => 1).G.rc 0) (fun _ => 0) 0 = 1 := rfl
    rw [h4, h5] at h3
    have := hw.2 0 (by show 0 < 2; omega)
    linarith
  obtain ⟨h6, h7⟩ := h2 upd hupd ⟨1 / 1000000, 100, 100, 10000⟩ (by norm_num) (by norm_num) fun _ _ => 0
  refine ⟨s, hs, upd, hupd, us, fun h => hns ((h1 _).2 fun i hi => ?_), h6, h7 (by norm_num) (by norm_num) hns⟩
  have hi : i < 2 := hi
  obtain rfl | rfl : i = 0 ∨ i = 1 := by omega
  · exact h.1.symm
  · exact h.2.symm

/-- The explicit solver on the square: CFL number 0.24 is small enough for convergence, 0.25 is not. -/
example : ∃ s, topological (rect 1) = .ok s ∧ ∀ c : Conf, ∀ u : ℕ → Fin 1 → ℝ, u 0 0 ≠ 5 →
    (c.cflinit = 6 / 25 → ∃ t : ℕ → Mem (ℕ → Fin 1 → ℝ), (∀ n, traj forwardEuler ((inRect 1 s 2 5).solver .greenGauss) c u n = some (t n)) ∧
      Filter.Tendsto (fun n => (t n).u 0 0) Filter.atTop (nhds 5)) ∧
    (c.cflinit = 1 / 4 → ∃ t : ℕ → Mem (ℕ → Fin 1 → ℝ), (∀ n, traj forwardEuler ((inRect 1 s 2 5).solver .greenGauss) c u n = some (t n)) ∧
      ¬ Filter.Tendsto (fun n => (t n).u 0 0) Filter.atTop (nhds 5)) := by
  obtain ⟨s, hs, hf, he⟩ := rect_topological
  refine ⟨s, hs 1, fun c u hu => ⟨fun hc => ?_, fun hc => ?_⟩⟩
  · obtain ⟨-, t, h1, h2⟩ := C102_explicit_sharp (nu := 2) (bval := 5) le_rfl hs hf he two_pos .greenGauss (c := c) (by rw [hc]; norm_num) hu
    exact ⟨t, h1, h2.2 (by rw [hc]; norm_num)⟩
  · obtain ⟨-, t, h1, h2⟩ := C102_explicit_sharp (nu := 2) (bval := 5) le_rfl hs hf he two_pos .greenGauss (c := c) (by rw [hc]; norm_num) hu
    exact ⟨t, h1, fun h => by have := h2.1 h; rw [hc] at this; norm_num at this⟩

/-- The hypothesis of `C102_explicit_converges` holds for some CFL number on the two cells. -/
example : ∃ s, topological Par.pair = .ok s ∧ ∃ cfl, 0 < cfl ∧ ∃ us : ℕ → Fin 1 → ℝ, ∀ c : Conf, c.cflinit = cfl → ∀ u,
    ∃ t : ℕ → Mem (ℕ → Fin 1 → ℝ), (∀ n, traj forwardEuler ((onMesh Par.pair s 1 0 fun x _ _ => x 0).solver .zero) c u n = some (t n)) ∧
      ∀ i, i < 2 → Filter.Tendsto (fun n => (t n).u i 0) Filter.atTop (nhds (us i 0)) := by
  obtain ⟨s, hs, hf⟩ := Par.pair_topological
  refine ⟨s, hs, ?_⟩
  have hw := C101_convex (nu := 1) (bval := 0) (source := fun x _ (_ : Fin 1) => (x 0 : ℝ)) Par.pair_conforming rfl Par.pair_nozero hs (fun i hi => pair_convex hi) one_pos
  set D := onMesh Par.pair s 1 0 (fun x _ (_ : Fin 1) => (x 0 : ℝ)) with hD
  have hok : D.G.Ok := ⟨Par.pair_conforming, Par.pair_nozero, hs⟩
  have hnu : 0 < D.nu := one_pos
  have hcell : ∀ i, i < D.G.m.nelem → 0 < D.timestep i / D.G.ar i := fun i hi => div_pos (D.C53_timestep hok hnu hi).2.2 (hw.2 i hi)
  have hload : ∀ i, 0 ≤ D.load i := fun i => sum_nonneg fun k hk => (hw.1 k (mem_range.1 (mem_filter.1 hk).1)).le
  have hbl : ∀ i, 0 ≤ D.bload i := bload_nonneg fun k hk => (hw.1 k hk).le
  have h2 := mul_nonneg (hcell 0 (by show 0 < 2; omega)).le (hload 0)
  have h3 := mul_nonneg (hcell 1 (by show 1 < 2; omega)).le (hload 1)
  have hpos : 0 < 1 / (1 + D.timestep 0 / D.G.ar 0 * D.load 0 + D.timestep 1 / D.G.ar 1 * D.load 1) := by positivity
  obtain ⟨us, -, h⟩ := C102_explicit_converges (nu := 1) (bval := 0) (source := fun x _ _ => x 0) (gs := .zero) Par.pair_conforming rfl Par.pair_nozero hs (fun i hi => pair_convex hi)
    one_pos (Or.inl rfl) (fun _ _ _ => rfl) hpos fun i hi => by
      have e : 1 / (1 + D.timestep 0 / D.G.ar 0 * D.load 0 + D.timestep 1 / D.G.ar 1 * D.load 1) * D.timestep i / D.G.ar i * (D.load i - D.bload i / 2) =
          (D.timestep i / D.G.ar i * (D.load i - D.bload i / 2)) / (1 + D.timestep 0 / D.G.ar 0 * D.load 0 + D.timestep 1 / D.G.ar 1 * D.load 1) := by ring
      rw [← hD, e, div_lt_one (by positivity)]
      have h4 : D.timestep i / D.G.ar i * (D.load i - D.bload i / 2) ≤ D.timestep i / D.G.ar i * D.load i :=
        mul_le_mul_of_nonneg_left (by have := hbl i; linarith) (hcell i hi).le
      have hi : i < 2 := hi
      obtain rfl | rfl : i = 0 ∨ i = 1 := by omega
      · linarith
      · linarith
  exact ⟨_, hpos, us, fun c hc u => (h c hc u).1⟩

end Diff
end FV
end FVENS
