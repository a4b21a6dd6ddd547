import Verif.FV.DiffMaxEx
import Mathlib.Topology.Algebra.InfiniteSum.Real
import Mathlib.Analysis.Normed.Module.FiniteDimension

/-!
# Convergence of the diffusion solver (C102)

Steady runs of src/ode/aodesolver.cpp on `DiffusionMA<1>` on one process end with the tolerance met: implicit ones at any CFL numbers although the matrix is not the derivative of
the residual (C53), explicit ones under a condition on the CFL number. Thin-layer gradient (gradient scheme "NONE"), or any gradient scheme where lines of centres are orthogonal
to the faces.
-/

namespace FVENS

namespace Ode

/-! ### Decreasing measures -/

variable {S : Type} {P : Prob S} {c : Conf} {kd : Kind} {V : S → ℝ} {a : ℝ}

/-- A non-negative measure of the state that each iteration lowers by at least a multiple of the squared norm bounds the sum of the squared norms. -/
theorem lyapunov (hdef : ∀ u, ∃ r, P.norm u = some r)
    (hstep : ∀ prev ratio u r, P.norm u = some r → V (P.upd (kd.used c (expRamp c.cflinit c.cflfin prev ratio kd.up kd.down)) u) ≤ V u - a * r ^ 2) (u : S) :
    ∃ r : ℕ → ℝ, (∀ n, Hist kd P c u n r) ∧ ∀ n, ∃ t, traj kd P c u n = some t ∧ P.norm t.u = some (r n) ∧ V t.u + a * ∑ j ∈ Finset.range n, r j ^ 2 ≤ V u := by
  have htr : ∀ n, ∃ t, traj kd P c u n = some t := fun n => by
    induction n with
    | zero => exact ⟨_, rfl⟩
    | succ n ih =>
      obtain ⟨t, ht⟩ := ih
      obtain ⟨r, hr⟩ := hdef t.u
      exact ⟨_, by rw [traj, ht, Option.bind_some, body, hr]⟩
  choose t ht using htr
  choose r hr using fun n => hdef (t n).u
  have hh : ∀ n, hist kd P c u n = some (r n) := fun n => by unfold hist; rw [ht, Option.bind_some, hr]
  refine ⟨r, fun n j _ => hh j, fun n => ⟨t n, ht n, hr n, ?_⟩⟩
  induction n with
  | zero => have := ht 0; simp only [traj, Option.some.injEq] at this; rw [← this]; simp [init]
  | succ n ih =>
    have h1 := ht (n + 1)
    rw [traj, ht n, Option.bind_some, body, hr n] at h1
    have h1 := Option.some.inj h1
    have := hstep (t n).cfl ((t n).resiold / (t n).resi) (t n).u (r n) (hr n)
    rw [← h1, Finset.sum_range_succ]
    dsimp only
    linarith

/-- With enough iterations allowed for the decrease of the measure, the solvers end with the tolerance met. -/
theorem converges (hkd : kd = forwardEuler ∨ kd = backwardEuler) (hV : ∀ u, 0 ≤ V u) (ha : 0 < a) (hdef : ∀ u, ∃ r, P.norm u = some r)
    (hstep : ∀ prev ratio u r, P.norm u = some r → V (P.upd (kd.used c (expRamp c.cflinit c.cflfin prev ratio kd.up kd.down)) u) ≤ V u - a * r ^ 2)
    (ht : 0 < c.tol) (ht1 : c.tol < 1) {u : S} {r0 : ℝ} (hr0 : P.norm u = some r0) (hpos : 0 < r0) (hm : V u < a * (c.tol * r0) ^ 2 * (c.maxiter - 1)) :
    ∃ n : ℕ, Solve kd P c u n .ok ∧ a * (c.tol * r0) ^ 2 * (n - 1) ≤ V u := by
  obtain ⟨r, hr, hb⟩ := lyapunov (kd := kd) (c := c) hdef hstep u
  have hA : 0 < a * (c.tol * r0) ^ 2 := by positivity
  have hm1 : 1 < c.maxiter := by
    have h1 : 0 < a * (c.tol * r0) ^ 2 * (c.maxiter - 1) := lt_of_le_of_lt (hV u) hm
    have h2 : (0 : ℝ) < c.maxiter - 1 := (pos_iff_pos_of_mul_pos h1).1 hA
    have h3 : ((1 : ℤ) : ℝ) < c.maxiter := by push_cast; linarith
    exact_mod_cast h3
  have hh0 : hist kd P c u 0 = some r0 := by simp only [hist, traj, Option.bind_some, init]; exact hr0
  have hz : ∀ q : ℕ → ℝ, ∀ n, 0 < n → Hist kd P c u n q → (∀ j < n, q j = r j) ∧ q 0 = r0 := fun q n hn hq => by
    refine ⟨fun j hj => ?_, ?_⟩
    · have h1 := hq j hj
      rw [hr n j hj] at h1
      exact (Option.some.inj h1).symm
    · have h1 := hq 0 hn
      rw [hh0] at h1
      exact (Option.some.inj h1).symm
  have hsum : ∀ n, (∀ j < n, ¬ r j ≤ c.tol * r0) → a * (c.tol * r0) ^ 2 * n ≤ V u := fun n hj => by
    obtain ⟨t, -, -, h3⟩ := hb n
    have h4 : (n : ℝ) * (c.tol * r0) ^ 2 ≤ ∑ j ∈ Finset.range n, r j ^ 2 := by
      have := Finset.card_nsmul_le_sum (Finset.range n) (fun j => r j ^ 2) ((c.tol * r0) ^ 2) fun j hjn => by
        have := not_le.1 (hj j (Finset.mem_range.1 hjn))
        exact pow_le_pow_left₀ (by positivity) this.le 2
      simpa using this
    have h5 := mul_le_mul_of_nonneg_left h4 ha.le
    have := hV t.u
    nlinarith
  have key : ∀ z n out, Ends kd P c u z n out → out = .ok ∧ a * (c.tol * r0) ^ 2 * (n - 1) ≤ V u := by
    intro z n out he
    cases he with
    | @met n q h1 h2 h3 h4 h5 =>
      obtain ⟨e1, e2⟩ := hz q (n + 1) (by omega) h2
      refine ⟨rfl, ?_⟩
      have := hsum n fun j hj h => h3 j hj (by unfold Met; rw [e1 j (by omega), e2]; exact h)
      push_cast
      linarith
    | @zero q h1 h2 h3 =>
      have := (hz q 1 (by omega) h2).2
      linarith
    | @blowup n q h1 h2 h3 h4 => rw [hr (n + 1) n (by omega)] at h4; cases h4
    | @exhausted n q h1 h2 h3 =>
      exfalso
      obtain ⟨e1, e2⟩ := hz q (n + 1) (by omega) h2
      have := hsum n fun j hj h => h3 j hj (by unfold Met; rw [e1 j (by omega), e2]; exact h)
      rw [← h1] at hm
      push_cast at hm
      linarith
  obtain ⟨n, out, hsol⟩ := (C56_terminates kd P c u).1
  have ho := C56_outcome P ht.le ht1 (by omega) u n out
  rcases hkd with rfl | rfl
  · obtain ⟨rfl, h2⟩ := key _ _ _ (ho.1.1 hsol)
    exact ⟨n, hsol, h2⟩
  · obtain ⟨rfl, h2⟩ := key _ _ _ (ho.2.1 hsol)
    exact ⟨n, hsol, h2⟩

/-- Norms of an iteration that is not stopped tend to zero. -/
theorem norms_vanish (hV : ∀ u, 0 ≤ V u) (ha : 0 < a) (hdef : ∀ u, ∃ r, P.norm u = some r)
    (hstep : ∀ prev ratio u r, P.norm u = some r → V (P.upd (kd.used c (expRamp c.cflinit c.cflfin prev ratio kd.up kd.down)) u) ≤ V u - a * r ^ 2) (u : S) :
    ∃ t : ℕ → Mem S, (∀ n, traj kd P c u n = some (t n)) ∧ ∃ r : ℕ → ℝ, (∀ n, P.norm (t n).u = some (r n)) ∧ Filter.Tendsto r Filter.atTop (nhds 0) := by
  obtain ⟨r, -, hb⟩ := lyapunov (kd := kd) (c := c) hdef hstep u
  choose t h1 h2 h3 using hb
  refine ⟨t, h1, r, h2, ?_⟩
  have hs : Summable fun n => r n ^ 2 := summable_of_sum_range_le (c := V u / a) (fun n => pow_two_nonneg _) fun n => by
    rw [le_div_iff₀ ha]
    have := h3 n
    have := hV (t n).u
    linarith
  have h4 := hs.tendsto_atTop_zero
  have h5 : Filter.Tendsto (fun n => Real.sqrt (r n ^ 2)) Filter.atTop (nhds 0) := by
    have := (Real.continuous_sqrt.tendsto 0).comp h4
    rwa [Real.sqrt_zero] at this
  refine h5.congr fun n => Real.sqrt_sq (P.nonneg _ _ (h2 n))

end Ode

namespace FV

open Msh Finset Ode

namespace Diff

/-! ### Model -/

/-- Implicit solver for one variable, src/ode/aodesolver.cpp:363-638 with `DiffusionMA<1>`: the update is a function giving a solution of the linear system where there is one
(`Solves`). -/
noncomputable def solverI (D : Diff 1) (gs : GradScheme) (upd : ℝ → (ℕ → Fin 1 → ℝ) → ℕ → Fin 1 → ℝ) : Prob (ℕ → Fin 1 → ℝ) :=
  { D.solver gs with upd := upd }

/-- The linear systems are solved exactly, src/ode/aodesolver.cpp:484. -/
def Solves (D : Diff 1) (gs : GradScheme) (upd : ℝ → (ℕ → Fin 1 → ℝ) → ℕ → Fin 1 → ℝ) : Prop :=
  ∀ cfl u, (∃ u', D.Implicit gs D.blk cfl u u') → D.Implicit gs D.blk cfl u (upd cfl u)

/-! ### Specification -/

/-- Squared jumps across inner faces, weighted with the conductances. -/
noncomputable def jumps (D : Diff 1) (f : ℕ → ℝ) : ℝ :=
  ∑ k ∈ (range D.G.nface).filter (fun k => ¬ k < D.G.m.nbface), D.wt k * (f (D.G.face k).right - f (D.G.face k).left) ^ 2

/-- Dissipation of a distribution that vanishes at the boundary. -/
noncomputable def dissip (D : Diff 1) (f : ℕ → ℝ) : ℝ := ∑ i ∈ range D.G.m.nelem, D.bload i * f i ^ 2 + D.jumps f

/-- A state with zero residual. -/
def Steady (D : Diff 1) (gs : GradScheme) (u : ℕ → Fin 1 → ℝ) : Prop := ∀ i, i < D.G.m.nelem → D.residual gs (fun _ => 0) u 0 i 0 = 0

/-- Sources depend on position only. -/
def FixedSource (D : Diff 1) : Prop := ∀ x w w', D.source x w = D.source x w'

section lemmas
variable {D : Diff 1}

theorem bload_nonneg (hw : ∀ k, k < D.G.nface → 0 ≤ D.wt k) (i : ℕ) : 0 ≤ D.bload i :=
  sum_nonneg fun k hk => hw k (mem_range.1 (mem_filter.1 (mem_filter.1 hk).1).1)

theorem jumps_nonneg (hw : ∀ k, k < D.G.nface → 0 ≤ D.wt k) (f : ℕ → ℝ) : 0 ≤ D.jumps f :=
  sum_nonneg fun k hk => mul_nonneg (hw k (mem_range.1 (mem_filter.1 hk).1)) (pow_two_nonneg _)

theorem dissip_nonneg (hw : ∀ k, k < D.G.nface → 0 ≤ D.wt k) (f : ℕ → ℝ) : 0 ≤ D.dissip f :=
  add_nonneg (sum_nonneg fun i _ => mul_nonneg (bload_nonneg hw i) (pow_two_nonneg _)) (jumps_nonneg hw f)

/-- Conductances of the inner faces. -/
theorem load_split (i : ℕ) : D.load i = D.bload i + ∑ k ∈ (D.facesOf i).filter (fun k => ¬ k < D.G.m.nbface), D.wt k :=
  (sum_filter_add_sum_filter_not (D.facesOf i) (fun k => k < D.G.m.nbface) D.wt).symm

theorem residual_split (hG : D.G.Ok) {gs : GradScheme} (hp : D.Plain gs) (u : ℕ → Fin 1 → ℝ) {i : ℕ} (hi : i < D.G.m.nelem) :
    D.residual gs (fun _ => 0) u 0 i 0 = D.bload i * (D.bval - u i 0) +
      ∑ k ∈ (D.facesOf i).filter (fun k => ¬ k < D.G.m.nbface), D.wt k * (D.nb u i k 0 - u i 0) + D.source (D.G.rc i) (u i) 0 * D.G.ar i := by
  rw [residual_cell hG hp u hi 0, ← sum_filter_add_sum_filter_not (D.facesOf i) (fun k => k < D.G.m.nbface)]
  rw [sum_congr (g := fun k => D.wt k * (D.bval - u i 0)) rfl (fun k hk => by unfold nb; rw [if_pos (mem_filter.1 hk).2]), ← sum_mul]
  rfl

theorem nb_sub {u w : ℕ → Fin 1 → ℝ} {i k : ℕ} (hk : ¬ k < D.G.m.nbface) : D.nb (fun q c => u q c - w q c) i k 0 = D.nb u i k 0 - D.nb w i k 0 := by
  unfold nb
  rw [if_neg hk, if_neg hk, if_neg hk]
  split_ifs <;> rfl

/-- Difference of two residuals. -/
theorem residual_sub (hG : D.G.Ok) {gs : GradScheme} (hp : D.Plain gs) (hs : D.FixedSource) (u w : ℕ → Fin 1 → ℝ) {i : ℕ} (hi : i < D.G.m.nelem) :
    D.residual gs (fun _ => 0) u 0 i 0 - D.residual gs (fun _ => 0) w 0 i 0 = -(D.bload i * (u i 0 - w i 0)) +
      ∑ k ∈ (D.facesOf i).filter (fun k => ¬ k < D.G.m.nbface), D.wt k * (D.nb (fun q c => u q c - w q c) i k 0 - (u i 0 - w i 0)) := by
  rw [residual_split hG hp u hi, residual_split hG hp w hi, hs _ (u i) (w i)]
  have : ∑ k ∈ (D.facesOf i).filter (fun k => ¬ k < D.G.m.nbface), D.wt k * (D.nb (fun q c => u q c - w q c) i k 0 - (u i 0 - w i 0)) =
      ∑ k ∈ (D.facesOf i).filter (fun k => ¬ k < D.G.m.nbface), D.wt k * (D.nb u i k 0 - u i 0) -
      ∑ k ∈ (D.facesOf i).filter (fun k => ¬ k < D.G.m.nbface), D.wt k * (D.nb w i k 0 - w i 0) := by
    rw [← sum_sub_distrib]
    exact sum_congr rfl fun k hk => by rw [nb_sub (mem_filter.1 hk).2]; ring
  rw [this]
  ring

/-- Weak form. -/
theorem residual_weak (hG : D.G.Ok) (hn : D.G.m.nconnface = 0) {gs : GradScheme} (hp : D.Plain gs) (hs : D.FixedSource) (u w : ℕ → Fin 1 → ℝ) (s : ℕ → ℝ) :
    ∑ i ∈ range D.G.m.nelem, s i * (D.residual gs (fun _ => 0) u 0 i 0 - D.residual gs (fun _ => 0) w 0 i 0) =
      -(∑ i ∈ range D.G.m.nelem, D.bload i * (s i * (u i 0 - w i 0)) + ∑ k ∈ (range D.G.nface).filter (fun k => ¬ k < D.G.m.nbface),
        D.wt k * ((s (D.G.face k).right - s (D.G.face k).left) *
          ((u (D.G.face k).right 0 - w (D.G.face k).right 0) - (u (D.G.face k).left 0 - w (D.G.face k).left 0)))) := by
  have key := by_parts hG hn s (fun q c => u q c - w q c) 0
  rw [neg_add, ← key, ← sum_neg_distrib, ← sum_add_distrib]
  exact sum_congr rfl fun i hi => by rw [residual_sub hG hp hs u w (mem_range.1 hi)]; ring

/-- Change of the dissipation of the distance to a steady state. -/
theorem dissip_step (hG : D.G.Ok) (hn : D.G.m.nconnface = 0) {gs : GradScheme} (hp : D.Plain gs) (hs : D.FixedSource) {us : ℕ → Fin 1 → ℝ} (hus : D.Steady gs us)
    (u u' : ℕ → Fin 1 → ℝ) :
    D.dissip (fun i => u' i 0 - us i 0) = D.dissip (fun i => u i 0 - us i 0) -
      2 * ∑ i ∈ range D.G.m.nelem, (u' i 0 - u i 0) * D.residual gs (fun _ => 0) u 0 i 0 + D.dissip (fun i => u' i 0 - u i 0) := by
  have key := residual_weak hG hn hp hs u us fun i => u' i 0 - u i 0
  rw [sum_congr (g := fun i => (u' i 0 - u i 0) * D.residual gs (fun _ => 0) u 0 i 0) rfl fun i hi => by rw [hus i (mem_range.1 hi), sub_zero]] at key
  rw [key]
  unfold dissip jumps
  have e1 : ∑ i ∈ range D.G.m.nelem, D.bload i * (u' i 0 - us i 0) ^ 2 = ∑ i ∈ range D.G.m.nelem, D.bload i * (u i 0 - us i 0) ^ 2 +
      2 * ∑ i ∈ range D.G.m.nelem, D.bload i * ((u' i 0 - u i 0) * (u i 0 - us i 0)) + ∑ i ∈ range D.G.m.nelem, D.bload i * (u' i 0 - u i 0) ^ 2 := by
    rw [mul_sum, ← sum_add_distrib, ← sum_add_distrib]
    exact sum_congr rfl fun i _ => by ring
  have e2 : ∀ T : Finset ℕ, ∑ k ∈ T, D.wt k * ((u' (D.G.face k).right 0 - us (D.G.face k).right 0) - (u' (D.G.face k).left 0 - us (D.G.face k).left 0)) ^ 2 =
      ∑ k ∈ T, D.wt k * ((u (D.G.face k).right 0 - us (D.G.face k).right 0) - (u (D.G.face k).left 0 - us (D.G.face k).left 0)) ^ 2 +
      2 * ∑ k ∈ T, D.wt k * (((u' (D.G.face k).right 0 - u (D.G.face k).right 0) - (u' (D.G.face k).left 0 - u (D.G.face k).left 0)) *
          ((u (D.G.face k).right 0 - us (D.G.face k).right 0) - (u (D.G.face k).left 0 - us (D.G.face k).left 0))) +
      ∑ k ∈ T, D.wt k * ((u' (D.G.face k).right 0 - u (D.G.face k).right 0) - (u' (D.G.face k).left 0 - u (D.G.face k).left 0)) ^ 2 := fun T => by
    rw [mul_sum, ← sum_add_distrib, ← sum_add_distrib]
    exact sum_congr rfl fun i _ => by ring
  rw [e1, e2]
  ring

/-- Jumps are at most what a doubled sum of squares allows. -/
theorem jumps_le (hG : D.G.Ok) (hn : D.G.m.nconnface = 0) (hw : ∀ k, k < D.G.nface → 0 ≤ D.wt k) (f : ℕ → ℝ) :
    D.jumps f ≤ 2 * ∑ i ∈ range D.G.m.nelem, (D.load i - D.bload i) * f i ^ 2 := by
  have e1 : ∀ i ∈ range D.G.m.nelem, (D.load i - D.bload i) * f i ^ 2 = ∑ k ∈ (range D.G.nface).filter (fun k => ¬ k < D.G.m.nbface),
      ((if i = (D.G.face k).left then D.wt k * f i ^ 2 else 0) + if i = (D.G.face k).right then D.wt k * f i ^ 2 else 0) := by
    intro i _
    rw [load_split, add_sub_cancel_left, sum_mul]
    have : (D.facesOf i).filter (fun k => ¬ k < D.G.m.nbface) =
        ((range D.G.nface).filter (fun k => ¬ k < D.G.m.nbface)).filter (fun k => (D.G.face k).left = i ∨ (D.G.face k).right = i) := by
      unfold facesOf; rw [filter_filter, filter_filter]; congr 1; funext k; rw [and_comm]
    rw [this, sum_filter]
    refine sum_congr rfl fun k hk => ?_
    have h2 := (hG.kind (mem_range.1 (mem_filter.1 hk).1)).2.1
    by_cases hl : (D.G.face k).left = i
    · have hr : (D.G.face k).right ≠ i := fun e => h2 (hl.trans e.symm)
      simp [hl, Ne.symm hr]
    · by_cases hr : (D.G.face k).right = i
      · simp [hr, Ne.symm hl]
      · simp [hl, hr, Ne.symm hl, Ne.symm hr]
  rw [sum_congr rfl e1, sum_comm, mul_sum]
  refine sum_le_sum fun k hk => ?_
  obtain ⟨hk1, hkb⟩ := mem_filter.1 hk
  have hk1 := mem_range.1 hk1
  rw [sum_add_distrib, sum_ite_eq', sum_ite_eq', if_pos (mem_range.2 (hG.kind hk1).1), if_pos (mem_range.2 (inner_right hG hn hk1 hkb))]
  nlinarith [mul_nonneg (hw k hk1) (pow_two_nonneg (f (D.G.face k).right + f (D.G.face k).left))]

/-- Residual in terms of an implicit step from it. -/
theorem implicit_res (hG : D.G.Ok) (hn : D.G.m.nconnface = 0) {gs : GradScheme} (hp : D.Plain gs) {cfl : ℝ} {u u' : ℕ → Fin 1 → ℝ}
    (h : D.Implicit gs D.blk cfl u u') {i : ℕ} (hi : i < D.G.m.nelem) :
    D.residual gs (fun _ => 0) u 0 i 0 = (D.G.ar i / (cfl * D.timestep i) + D.bload i / 2) * (u' i 0 - u i 0) -
      ∑ k ∈ (D.facesOf i).filter (fun k => ¬ k < D.G.m.nbface), D.wt k * (D.nb (fun q c => u' q c - u q c) i k 0 - (u' i 0 - u i 0)) := by
  have hone : D.blk = fun k => (1 : ℝ) • D.blk k := by funext k; rw [one_smul]
  rw [hone] at h
  have e := implicit_split hG hn hp h hi 0
  have e2 := residual_split hG hp u hi
  have : ∑ k ∈ (D.facesOf i).filter (fun k => ¬ k < D.G.m.nbface), D.wt k * (D.nb (fun q c => u' q c - u q c) i k 0 - (u' i 0 - u i 0)) =
      ∑ k ∈ (D.facesOf i).filter (fun k => ¬ k < D.G.m.nbface), D.wt k * (D.nb u' i k 0 - u' i 0) -
      ∑ k ∈ (D.facesOf i).filter (fun k => ¬ k < D.G.m.nbface), D.wt k * (D.nb u i k 0 - u i 0) := by
    rw [← sum_sub_distrib]
    exact sum_congr rfl fun k hk => by rw [nb_sub (mem_filter.1 hk).2]; ring
  rw [this, e2]
  linarith

theorem norm_defined (gs : GradScheme) (har : ∀ i, i < D.G.m.nelem → 0 < D.G.ar i) (u : ℕ → Fin 1 → ℝ) :
    ∃ r, (D.solver gs).norm u = some r ∧ r ^ 2 = ∑ l ∈ range D.G.m.nelem, D.G.ar l * D.residual gs (fun _ => 0) u 0 l 0 ^ 2 := by
  have h0 : 0 ≤ ∑ l ∈ range D.G.m.nelem, D.residual gs (fun _ => 0) u 0 l 0 * D.residual gs (fun _ => 0) u 0 l 0 * D.G.ar l :=
    sum_nonneg fun l hl => mul_nonneg (mul_self_nonneg _) (har l (mem_range.1 hl)).le
  refine ⟨_, by simp only [solver, Par.rootOf]; rw [if_pos h0], ?_⟩
  rw [Real.sq_sqrt h0]
  exact sum_congr rfl fun l _ => by ring

end lemmas

/-! ### One iteration -/

section step
variable {D : Diff 1} {gs : GradScheme} {us : ℕ → Fin 1 → ℝ}

/-- C102, exact: an implicit step with the code's matrix, at any CFL number, lowers the dissipation of the distance to each steady state by the squared increments, weighted with
twice the area over the time step, and the dissipation of the increments at inner faces. -/
theorem C102_implicit_step (hG : D.G.Ok) (hn : D.G.m.nconnface = 0) (hp : D.Plain gs) (hs : D.FixedSource) (hus : D.Steady gs us) {cfl : ℝ} {u u' : ℕ → Fin 1 → ℝ}
    (h : D.Implicit gs D.blk cfl u u') :
    D.dissip (fun i => u' i 0 - us i 0) = D.dissip (fun i => u i 0 - us i 0) -
      2 * ∑ i ∈ range D.G.m.nelem, D.G.ar i / (cfl * D.timestep i) * (u' i 0 - u i 0) ^ 2 - D.jumps (fun i => u' i 0 - u i 0) := by
  rw [dissip_step hG hn hp hs hus u u']
  have key := by_parts hG hn (fun i => u' i 0 - u i 0) (fun q c => u' q c - u q c) 0
  have e1 : ∑ i ∈ range D.G.m.nelem, (u' i 0 - u i 0) * D.residual gs (fun _ => 0) u 0 i 0 =
      ∑ i ∈ range D.G.m.nelem, D.G.ar i / (cfl * D.timestep i) * (u' i 0 - u i 0) ^ 2 + 1 / 2 * ∑ i ∈ range D.G.m.nelem, D.bload i * (u' i 0 - u i 0) ^ 2 -
      ∑ i ∈ range D.G.m.nelem, (u' i 0 - u i 0) * ∑ k ∈ (D.facesOf i).filter (fun k => ¬ k < D.G.m.nbface),
        D.wt k * (D.nb (fun q c => u' q c - u q c) i k 0 - (u' i 0 - u i 0)) := by
    rw [mul_sum, ← sum_add_distrib, ← sum_sub_distrib]
    exact sum_congr rfl fun i hi => by rw [implicit_res hG hn hp h (mem_range.1 hi)]; ring
  rw [e1, key]
  unfold dissip jumps
  have e2 : ∀ T : Finset ℕ, ∑ k ∈ T, D.wt k * (((u' (D.G.face k).right 0 - u (D.G.face k).right 0) - (u' (D.G.face k).left 0 - u (D.G.face k).left 0)) *
      ((u' (D.G.face k).right 0 - u (D.G.face k).right 0) - (u' (D.G.face k).left 0 - u (D.G.face k).left 0))) =
      ∑ k ∈ T, D.wt k * ((u' (D.G.face k).right 0 - u (D.G.face k).right 0) - (u' (D.G.face k).left 0 - u (D.G.face k).left 0)) ^ 2 := fun T =>
    sum_congr rfl fun k _ => by ring
  rw [e2]
  ring

/-- C102: an explicit step lowers the dissipation of the distance to each steady state if CFL number times time step times conductances over area, those of boundary faces counted
half, is below 1 in all cells. -/
theorem C102_explicit_step (hG : D.G.Ok) (hn : D.G.m.nconnface = 0) (hp : D.Plain gs) (hw : ∀ k, k < D.G.nface → 0 ≤ D.wt k) (hs : D.FixedSource) (hus : D.Steady gs us)
    {cfl θ : ℝ} (hθ : ∀ i, i < D.G.m.nelem → cfl * D.timestep i / D.G.ar i * (D.load i - D.bload i / 2) ≤ θ)
    (hd : ∀ i, i < D.G.m.nelem → 0 ≤ cfl * D.timestep i / D.G.ar i) (u : ℕ → Fin 1 → ℝ) :
    D.dissip (fun i => D.explicit gs cfl u i 0 - us i 0) ≤ D.dissip (fun i => u i 0 - us i 0) -
      2 * (1 - θ) * ∑ i ∈ range D.G.m.nelem, cfl * D.timestep i / D.G.ar i * D.residual gs (fun _ => 0) u 0 i 0 ^ 2 := by
  rw [dissip_step hG hn hp hs hus u]
  have ex : ∀ i, i < D.G.m.nelem → D.explicit gs cfl u i 0 - u i 0 = cfl * D.timestep i / D.G.ar i * D.residual gs (fun _ => 0) u 0 i 0 := fun i hi => by
    unfold explicit
    rw [if_pos hi]
    ring
  have e1 : ∑ i ∈ range D.G.m.nelem, (D.explicit gs cfl u i 0 - u i 0) * D.residual gs (fun _ => 0) u 0 i 0 =
      ∑ i ∈ range D.G.m.nelem, cfl * D.timestep i / D.G.ar i * D.residual gs (fun _ => 0) u 0 i 0 ^ 2 :=
    sum_congr rfl fun i hi => by rw [ex i (mem_range.1 hi)]; ring
  have e2 : D.dissip (fun i => D.explicit gs cfl u i 0 - u i 0) ≤ 2 * θ * ∑ i ∈ range D.G.m.nelem, cfl * D.timestep i / D.G.ar i * D.residual gs (fun _ => 0) u 0 i 0 ^ 2 := by
    unfold dissip
    refine (add_le_add_right (jumps_le hG hn hw _) _).trans ?_
    rw [mul_sum, ← sum_add_distrib, mul_sum]
    refine sum_le_sum fun i hi => ?_
    have hi := mem_range.1 hi
    simp only [ex i hi]
    have h1 := mul_le_mul_of_nonneg_right (hθ i hi) (mul_nonneg (hd i hi) (pow_two_nonneg (D.residual gs (fun _ => 0) u 0 i 0)))
    nlinarith
  rw [e1]
  linarith

theorem explicit_decrease (hG : D.G.Ok) (hn : D.G.m.nconnface = 0) (hp : D.Plain gs) (hw : ∀ k, k < D.G.nface → 0 ≤ D.wt k) (hnu : 0 < D.nu)
    (har : ∀ i, i < D.G.m.nelem → 0 < D.G.ar i) (hs : D.FixedSource) {cfl θ : ℝ} (h0 : 0 < cfl) (hθ1 : θ < 1)
    (hθ : ∀ i, i < D.G.m.nelem → cfl * D.timestep i / D.G.ar i * (D.load i - D.bload i / 2) ≤ θ) :
    ∃ a, 0 < a ∧ ∀ us, D.Steady gs us → ∀ u r, (D.solver gs).norm u = some r →
      D.dissip (fun i => D.explicit gs cfl u i 0 - us i 0) ≤ D.dissip (fun i => u i 0 - us i 0) - a * r ^ 2 := by
  have hd : ∀ i, i < D.G.m.nelem → 0 < cfl * D.timestep i / D.G.ar i := fun i hi => div_pos (mul_pos h0 (D.C53_timestep hG hnu hi).2.2) (har i hi)
  obtain ⟨β, hβ, hb⟩ : ∃ β, 0 < β ∧ ∀ i, i < D.G.m.nelem → β * D.G.ar i ≤ cfl * D.timestep i / D.G.ar i := by
    have : ∀ N, N ≤ D.G.m.nelem → ∃ β, 0 < β ∧ ∀ i, i < N → β * D.G.ar i ≤ cfl * D.timestep i / D.G.ar i := fun N => by
      induction N with
      | zero => exact fun _ => ⟨1, one_pos, fun i hi => by omega⟩
      | succ N ih =>
        intro hN
        obtain ⟨β, h1, h2⟩ := ih (by omega)
        have h3 := hd N (by omega)
        have h4 := har N (by omega)
        refine ⟨min β (cfl * D.timestep N / D.G.ar N / D.G.ar N), lt_min h1 (div_pos h3 h4), fun i hi => ?_⟩
        rcases Nat.lt_succ_iff_lt_or_eq.1 hi with h | rfl
        · exact (mul_le_mul_of_nonneg_right (min_le_left _ _) (har i (by omega)).le).trans (h2 i h)
        · refine (mul_le_mul_of_nonneg_right (min_le_right _ _) h4.le).trans ?_
          rw [div_mul_cancel₀ _ h4.ne']
    exact this _ le_rfl
  refine ⟨2 * (1 - θ) * β, mul_pos (by linarith) hβ, fun us hus u r hr => ?_⟩
  refine (C102_explicit_step hG hn hp hw hs hus hθ (fun i hi => (hd i hi).le) u).trans ?_
  obtain ⟨r', h1, h2⟩ := norm_defined (D := D) gs har u
  rw [hr] at h1
  cases h1
  rw [h2]
  have h3 : β * ∑ l ∈ range D.G.m.nelem, D.G.ar l * D.residual gs (fun _ => 0) u 0 l 0 ^ 2 ≤
      ∑ i ∈ range D.G.m.nelem, cfl * D.timestep i / D.G.ar i * D.residual gs (fun _ => 0) u 0 i 0 ^ 2 := by
    rw [mul_sum]
    refine sum_le_sum fun i hi => ?_
    rw [← mul_assoc]
    exact mul_le_mul_of_nonneg_right (hb i (mem_range.1 hi)) (pow_two_nonneg _)
  have := mul_le_mul_of_nonneg_left h3 (show 0 ≤ 2 * (1 - θ) by linarith)
  linarith

theorem implicit_decrease (hG : D.G.Ok) (hn : D.G.m.nconnface = 0) (hp : D.Plain gs) (hw : ∀ k, k < D.G.nface → 0 ≤ D.wt k) (hnu : 0 < D.nu)
    (har : ∀ i, i < D.G.m.nelem → 0 < D.G.ar i) (hs : D.FixedSource) {lo hi : ℝ} (h0 : 0 < lo) (hlh : lo ≤ hi) :
    ∃ a, 0 < a ∧ ∀ us, D.Steady gs us → ∀ cfl, lo ≤ cfl → cfl ≤ hi → ∀ u u' r, D.Implicit gs D.blk cfl u u' → (D.solver gs).norm u = some r →
      D.dissip (fun i => u' i 0 - us i 0) ≤ D.dissip (fun i => u i 0 - us i 0) - a * r ^ 2 := by
  have hdt : ∀ i, i < D.G.m.nelem → 0 < D.timestep i := fun i hi => (D.C53_timestep hG hnu hi).2.2
  have hload : ∀ i, 0 ≤ D.load i := fun i => sum_nonneg fun k hk => hw k (mem_range.1 (mem_filter.1 hk).1)
  have hin : ∀ i, 0 ≤ ∑ k ∈ (D.facesOf i).filter (fun k => ¬ k < D.G.m.nbface), D.wt k := fun i =>
    sum_nonneg fun k hk => hw k (mem_range.1 (mem_filter.1 (mem_filter.1 hk).1).1)
  obtain ⟨μ, hμ, hb⟩ : ∃ μ, 0 < μ ∧ ∀ i, i < D.G.m.nelem → μ ≤ D.G.ar i / (hi * D.timestep i) := by
    have : ∀ N, N ≤ D.G.m.nelem → ∃ μ, 0 < μ ∧ ∀ i, i < N → μ ≤ D.G.ar i / (hi * D.timestep i) := fun N => by
      induction N with
      | zero => exact fun _ => ⟨1, one_pos, fun i hi => by omega⟩
      | succ N ih =>
        intro hN
        obtain ⟨μ, h1, h2⟩ := ih (by omega)
        refine ⟨min μ (D.G.ar N / (hi * D.timestep N)), lt_min h1 (div_pos (har N (by omega)) (mul_pos (by linarith) (hdt N (by omega)))), fun i hi => ?_⟩
        rcases Nat.lt_succ_iff_lt_or_eq.1 hi with h | rfl
        · exact (min_le_left _ _).trans (h2 i h)
        · exact min_le_right _ _
    exact this _ le_rfl
  set Q : ℕ → ℝ := fun i => D.G.ar i / (lo * D.timestep i) + 3 * D.load i with hQ
  set C : ℝ := ∑ i ∈ range D.G.m.nelem, D.G.ar i * Q i ^ 2 with hC
  have hC0 : 0 ≤ C := sum_nonneg fun i hi => mul_nonneg (har i (mem_range.1 hi)).le (pow_two_nonneg _)
  refine ⟨2 * μ / (1 + C), by positivity, fun us hus cfl hc1 hc2 u u' r h hr => ?_⟩
  rw [C102_implicit_step hG hn hp hs hus h]
  have hcfl : 0 < cfl := lt_of_lt_of_le h0 hc1
  set X : ℝ := ∑ j ∈ range D.G.m.nelem, (u' j 0 - u j 0) ^ 2 with hX
  have hX0 : 0 ≤ X := sum_nonneg fun _ _ => pow_two_nonneg _
  have hx : ∀ j, j < D.G.m.nelem → |u' j 0 - u j 0| ≤ √X := fun j hj =>
    Real.abs_le_sqrt (single_le_sum (f := fun j => (u' j 0 - u j 0) ^ 2) (fun _ _ => pow_two_nonneg _) (mem_range.2 hj))
  have hm : μ * X ≤ ∑ i ∈ range D.G.m.nelem, D.G.ar i / (cfl * D.timestep i) * (u' i 0 - u i 0) ^ 2 := by
    rw [hX, mul_sum]
    refine sum_le_sum fun i hi => mul_le_mul_of_nonneg_right ((hb i (mem_range.1 hi)).trans ?_) (pow_two_nonneg _)
    exact div_le_div_of_nonneg_left (har i (mem_range.1 hi)).le (mul_pos hcfl (hdt i (mem_range.1 hi))) (mul_le_mul_of_nonneg_right hc2 (hdt i (mem_range.1 hi)).le)
  have hres : ∀ i, i < D.G.m.nelem → D.residual gs (fun _ => 0) u 0 i 0 ^ 2 ≤ Q i ^ 2 * X := fun i hi => by
    have hm1 : 0 < D.G.ar i / (cfl * D.timestep i) := div_pos (har i hi) (mul_pos hcfl (hdt i hi))
    have hm2 : D.G.ar i / (cfl * D.timestep i) ≤ D.G.ar i / (lo * D.timestep i) :=
      div_le_div_of_nonneg_left (har i hi).le (mul_pos h0 (hdt i hi)) (mul_le_mul_of_nonneg_right hc1 (hdt i hi).le)
    have hbl := bload_nonneg hw i
    have hls := load_split (D := D) i
    have hsx := Real.sqrt_nonneg X
    have a1 : |D.residual gs (fun _ => 0) u 0 i 0| ≤ Q i * √X := by
      rw [implicit_res hG hn hp h hi]
      refine (abs_sub _ _).trans ?_
      have b1 : |(D.G.ar i / (cfl * D.timestep i) + D.bload i / 2) * (u' i 0 - u i 0)| ≤ (D.G.ar i / (lo * D.timestep i) + D.bload i / 2) * √X := by
        rw [abs_mul, abs_of_nonneg (by linarith)]
        exact mul_le_mul (by linarith) (hx i hi) (abs_nonneg _) (by linarith)
      have b2 : |∑ k ∈ (D.facesOf i).filter (fun k => ¬ k < D.G.m.nbface), D.wt k * (D.nb (fun q c => u' q c - u q c) i k 0 - (u' i 0 - u i 0))| ≤
          (∑ k ∈ (D.facesOf i).filter (fun k => ¬ k < D.G.m.nbface), D.wt k) * (2 * √X) := by
        refine (abs_sum_le_sum_abs _ _).trans ?_
        rw [sum_mul]
        refine sum_le_sum fun k hk => ?_
        obtain ⟨hk1, hkb⟩ := mem_filter.1 hk
        have hkn := mem_range.1 (mem_filter.1 hk1).1
        rw [abs_mul, abs_of_nonneg (hw k hkn)]
        refine mul_le_mul_of_nonneg_left ((abs_sub _ _).trans ?_) (hw k hkn)
        have : |D.nb (fun q c => u' q c - u q c) i k 0| ≤ √X := by
          unfold nb
          rw [if_neg hkb]
          split_ifs
          · exact hx _ (inner_right hG hn hkn hkb)
          · exact hx _ (hG.kind hkn).1
        have := hx i hi
        linarith
      have hin' := hin i
      have e : Q i * √X = (D.G.ar i / (lo * D.timestep i) + D.bload i / 2) * √X + (∑ k ∈ (D.facesOf i).filter (fun k => ¬ k < D.G.m.nbface), D.wt k) * (2 * √X) +
          (5 / 2 * D.bload i + ∑ k ∈ (D.facesOf i).filter (fun k => ¬ k < D.G.m.nbface), D.wt k) * √X := by
        rw [hQ]; dsimp only; rw [hls]; ring
      have : 0 ≤ (5 / 2 * D.bload i + ∑ k ∈ (D.facesOf i).filter (fun k => ¬ k < D.G.m.nbface), D.wt k) * √X := mul_nonneg (by linarith) hsx
      linarith
    have := pow_le_pow_left₀ (abs_nonneg _) a1 2
    rwa [sq_abs, mul_pow, Real.sq_sqrt hX0] at this
  obtain ⟨r', h1, h2⟩ := norm_defined (D := D) gs har u
  rw [hr] at h1
  cases h1
  have h3 : r ^ 2 ≤ C * X := by
    rw [h2, hC, sum_mul]
    refine sum_le_sum fun i hi => ?_
    rw [mul_assoc]
    exact mul_le_mul_of_nonneg_left (hres i (mem_range.1 hi)) (har i (mem_range.1 hi)).le
  have h4 : 2 * μ / (1 + C) * r ^ 2 ≤ 2 * (μ * X) := by
    rw [div_mul_eq_mul_div, div_le_iff₀ (by linarith)]
    have := mul_le_mul_of_nonneg_left h3 hμ.le
    have := mul_nonneg hμ.le hX0
    nlinarith
  have := jumps_nonneg hw fun i => u' i 0 - u i 0
  linarith

/-! ### Whole runs -/

/-- C102, implicit runs: on every mesh with positive areas and non-negative conductances, for every source depending on position only and every range of positive CFL numbers there
is a positive `a` such that, for all configurations in this range with tolerance in (0,1) and all initial states with non-zero residual: if there is a steady state `us` and
more than `1 + dissip (u - us) / (a (tol r0)²)` iterations are allowed, the run ends with the tolerance met, after at most that many iterations. -/
theorem C102_implicit_run (hG : D.G.Ok) (hn : D.G.m.nconnface = 0) (hp : D.Plain gs) (hw : ∀ k, k < D.G.nface → 0 ≤ D.wt k) (hnu : 0 < D.nu)
    (har : ∀ i, i < D.G.m.nelem → 0 < D.G.ar i) (hs : D.FixedSource) {lo hi : ℝ} (h0 : 0 < lo) (hlh : lo ≤ hi) :
    ∃ a, 0 < a ∧ ∀ upd, D.Solves gs upd → ∀ c : Conf, lo ≤ c.cflinit → c.cflinit ≤ c.cflfin → c.cflfin ≤ hi → 0 < c.tol → c.tol < 1 →
      ∀ us, D.Steady gs us → ∀ u r0, (D.solverI gs upd).norm u = some r0 → 0 < r0 →
        D.dissip (fun i => u i 0 - us i 0) < a * (c.tol * r0) ^ 2 * (c.maxiter - 1) →
        ∃ n : ℕ, Solve backwardEuler (D.solverI gs upd) c u n .ok ∧ a * (c.tol * r0) ^ 2 * (n - 1) ≤ D.dissip (fun i => u i 0 - us i 0) := by
  obtain ⟨a, ha, hdec⟩ := implicit_decrease hG hn hp hw hnu har hs h0 hlh
  refine ⟨a, ha, fun upd hupd c hc1 hc2 hc3 ht ht1 us hus u r0 hr0 hpos hm => ?_⟩
  have hdef : ∀ u, ∃ r, (D.solverI gs upd).norm u = some r := fun u => (norm_defined gs har u).imp fun r h => h.1
  have hV : ∀ u : ℕ → Fin 1 → ℝ, 0 ≤ D.dissip fun i => u i 0 - us i 0 := fun u => dissip_nonneg hw _
  refine converges (kd := backwardEuler) (P := D.solverI gs upd) (c := c) (V := fun u => D.dissip fun i => u i 0 - us i 0) (a := a) (Or.inr rfl) hV ha hdef ?_ ht ht1 hr0 hpos hm
  intro prev ratio u r hr
  obtain ⟨e1, e2⟩ := C54_exp_bounds hc2 prev ratio backwardEuler.up backwardEuler.down
  refine hdec us hus _ (hc1.trans e1) (e2.trans hc3) u _ r (hupd _ _ ?_) hr
  have hone : D.blk = fun k => (1 : ℝ) • D.blk k := by funext k; rw [one_smul]
  rw [hone]
  refine implicit_solvable hG hn hw zero_le_one (fun i hi => div_pos (har i hi) (mul_pos ?_ (D.C53_timestep hG hnu hi).2.2)) u
  exact lt_of_lt_of_le h0 (hc1.trans e1)

/-- C102, explicit runs: likewise, if CFL number times time step times conductances over area, those of boundary faces counted half, is at most some `θ < 1` in all cells. -/
theorem C102_explicit_run (hG : D.G.Ok) (hn : D.G.m.nconnface = 0) (hp : D.Plain gs) (hw : ∀ k, k < D.G.nface → 0 ≤ D.wt k) (hnu : 0 < D.nu)
    (har : ∀ i, i < D.G.m.nelem → 0 < D.G.ar i) (hs : D.FixedSource) {cfl θ : ℝ} (h0 : 0 < cfl) (hθ1 : θ < 1)
    (hθ : ∀ i, i < D.G.m.nelem → cfl * D.timestep i / D.G.ar i * (D.load i - D.bload i / 2) ≤ θ) :
    ∃ a, 0 < a ∧ ∀ c : Conf, c.cflinit = cfl → 0 < c.tol → c.tol < 1 → ∀ us, D.Steady gs us → ∀ u r0, (D.solver gs).norm u = some r0 → 0 < r0 →
        D.dissip (fun i => u i 0 - us i 0) < a * (c.tol * r0) ^ 2 * (c.maxiter - 1) →
        ∃ n : ℕ, Solve forwardEuler (D.solver gs) c u n .ok ∧ a * (c.tol * r0) ^ 2 * (n - 1) ≤ D.dissip (fun i => u i 0 - us i 0) := by
  obtain ⟨a, ha, hdec⟩ := explicit_decrease hG hn hp hw hnu har hs h0 hθ1 hθ
  refine ⟨a, ha, fun c hc ht ht1 us hus u r0 hr0 hpos hm => ?_⟩
  have hdef : ∀ u, ∃ r, (D.solver gs).norm u = some r := fun u => (norm_defined gs har u).imp fun r h => h.1
  have hV : ∀ u : ℕ → Fin 1 → ℝ, 0 ≤ D.dissip fun i => u i 0 - us i 0 := fun u => dissip_nonneg hw _
  refine converges (kd := forwardEuler) (P := D.solver gs) (c := c) (V := fun u => D.dissip fun i => u i 0 - us i 0) (a := a) (Or.inl rfl) hV ha hdef ?_ ht ht1 hr0 hpos hm
  intro prev ratio u r hr
  have e : forwardEuler.used c (expRamp c.cflinit c.cflfin prev ratio forwardEuler.up forwardEuler.down) = cfl := hc
  rw [e]
  exact hdec us hus u r hr

end step

/-! ### Steady states -/

/-- Specification: two cells share a face. -/
def Adj (G : Geo) (i j : ℕ) : Prop :=
  ∃ k, k < G.nface ∧ ¬ k < G.m.nbface ∧ (((G.face k).left = i ∧ (G.face k).right = j) ∨ ((G.face k).left = j ∧ (G.face k).right = i))

/-- Specification: a chain of cells leads to a boundary face. -/
def Reaches (G : Geo) (i : ℕ) : Prop := ∃ k, k < G.m.nbface ∧ Relation.ReflTransGen (Adj G) i (G.face k).left

/-- C102: on meshes with positive areas every cell is connected to a boundary face. -/
theorem C102_reaches {G : Geo} (hG : G.Ok) (hn : G.m.nconnface = 0) (hx : ∀ i, i < G.m.nelem → ∃ A, 0 < A ∧ area G.m i = some A) {i : ℕ} (hi : i < G.m.nelem) : Reaches G i := by
  classical
  by_contra hno
  have ha : ∀ j, j < G.m.nelem → ∃ A, 0 < A ∧ (G.s.faces.map (signed (xn G.m) j)).sum = 2 * A := fun j hj => by
    obtain ⟨A, h1, h2⟩ := hx j hj
    have h34 : G.m.nnode j = 3 ∨ G.m.nnode j = 4 := by
      by_contra h
      rw [not_or] at h
      rw [C23_unset_iff.2 h] at h2
      cases h2
    obtain ⟨A', h3, h4⟩ := C23_divergence hG.conf hG.nz hG.topo hj h34
    rw [h2] at h3
    cases h3
    exact ⟨A, h1, h4⟩
  have h0 : ∑ j ∈ (range G.m.nelem).filter (fun j => ¬ Reaches G j), (G.s.faces.map (signed (xn G.m) j)).sum = 0 := by
    have : ∀ L : List Face, (∀ F ∈ L, ∃ k, k < G.nface ∧ G.face k = F) →
        ∑ j ∈ (range G.m.nelem).filter (fun j => ¬ Reaches G j), (L.map (signed (xn G.m) j)).sum = 0 := by
      intro L
      induction L with
      | nil => intro _; simp
      | cons F L ih =>
        intro hL
        simp only [List.map_cons, List.sum_cons]
        rw [sum_add_distrib, ih fun F hF => hL F (List.mem_cons_of_mem _ hF), add_zero]
        obtain ⟨k, hk, rfl⟩ := hL F (List.mem_cons_self ..)
        unfold signed
        rw [sum_sub_distrib, sum_ite_eq, sum_ite_eq]
        have hl := (hG.kind hk).1
        by_cases hb : k < G.m.nbface
        · have h1 : Reaches G (G.face k).left := ⟨k, hb, .refl⟩
          have h2 : ¬ (G.face k).right < G.m.nelem := by
            have := (hG.kind hk).2.2.1 hb
            omega
          rw [if_neg (by simp [h1]), if_neg (by simp [h2]), sub_zero]
        · have hr : (G.face k).right < G.m.nelem := by
            have := (hG.kind hk).2.2.2.2 (by omega)
            omega
          have : Reaches G (G.face k).left ↔ Reaches G (G.face k).right :=
            ⟨fun ⟨q, h1, h2⟩ => ⟨q, h1, .head ⟨k, hk, hb, .inr ⟨rfl, rfl⟩⟩ h2⟩, fun ⟨q, h1, h2⟩ => ⟨q, h1, .head ⟨k, hk, hb, .inl ⟨rfl, rfl⟩⟩ h2⟩⟩
          simp only [mem_filter, mem_range, hl, hr, true_and, this, sub_self]
    refine this _ fun F hF => ?_
    obtain ⟨k, hk, rfl⟩ := List.mem_iff_getElem.1 hF
    refine ⟨k, hk, ?_⟩
    have := faceAt_get hk
    rw [List.getElem?_eq_getElem hk] at this
    exact (Option.some.inj this).symm
  have h1 : 0 < ∑ j ∈ (range G.m.nelem).filter (fun j => ¬ Reaches G j), (G.s.faces.map (signed (xn G.m) j)).sum := by
    refine sum_pos (fun j hj => ?_) ⟨i, mem_filter.2 ⟨mem_range.2 hi, hno⟩⟩
    obtain ⟨A, h1, h2⟩ := ha j (mem_range.1 (mem_filter.1 hj).1)
    rw [h2]
    linarith
  linarith

section steady
variable {D : Diff 1} {gs : GradScheme}

/-- Only zero has no dissipation. -/
theorem dissip_zero (hw : ∀ k, k < D.G.nface → 0 < D.wt k) (hr : ∀ i, i < D.G.m.nelem → Reaches D.G i) (hG : D.G.Ok) (hn : D.G.m.nconnface = 0) {f : ℕ → ℝ} (h : D.dissip f = 0) {i : ℕ}
    (hi : i < D.G.m.nelem) : f i = 0 := by
  have hw' : ∀ k, k < D.G.nface → 0 ≤ D.wt k := fun k hk => (hw k hk).le
  have hb0 : ∀ i ∈ range D.G.m.nelem, 0 ≤ D.bload i * f i ^ 2 := fun i _ => mul_nonneg (bload_nonneg hw' i) (pow_two_nonneg _)
  have hj := jumps_nonneg hw' f
  have hs := sum_nonneg hb0
  unfold dissip at h
  have h1 : ∑ i ∈ range D.G.m.nelem, D.bload i * f i ^ 2 = 0 := by linarith
  have h2 : D.jumps f = 0 := by linarith
  have h3 := (sum_eq_zero_iff_of_nonneg hb0).1 h1
  have h4 := (sum_eq_zero_iff_of_nonneg fun k hk => mul_nonneg (hw' k (mem_range.1 (mem_filter.1 hk).1)) (pow_two_nonneg _)).1 h2
  have hadj : ∀ a b, Adj D.G a b → f a = f b := fun a b ⟨k, hk, hb, h⟩ => by
    have := h4 k (mem_filter.2 ⟨mem_range.2 hk, hb⟩)
    have := pow_eq_zero_iff (two_ne_zero) |>.1 ((mul_eq_zero.1 this).resolve_left (hw k hk).ne')
    rcases h with ⟨rfl, rfl⟩ | ⟨rfl, rfl⟩ <;> linarith
  obtain ⟨k, hk, hch⟩ := hr i hi
  have hkn : k < D.G.nface := by rw [hG.nface_eq]; omega
  have hchain : ∀ a b, Relation.ReflTransGen (Adj D.G) a b → f a = f b := fun a b h => by
    induction h with
    | refl => rfl
    | tail _ h ih => exact ih.trans (hadj _ _ h)
  have e : f i = f (D.G.face k).left := hchain _ _ hch
  have hl := (hG.kind hkn).1
  have hbl : 0 < D.bload (D.G.face k).left := by
    refine lt_of_lt_of_le (hw k hkn) (single_le_sum (f := D.wt) (fun q hq => hw' q (mem_range.1 (mem_filter.1 (mem_filter.1 hq).1).1)) ?_)
    exact mem_filter.2 ⟨mem_filter.2 ⟨mem_range.2 hkn, .inl rfl⟩, hk⟩
  have := h3 _ (mem_range.2 hl)
  rw [e]
  exact pow_eq_zero_iff (two_ne_zero) |>.1 ((mul_eq_zero.1 this).resolve_left hbl.ne')

/-- Matrix of the residual: distance from a state to change of the residual, and back. -/
theorem residual_inverse (hG : D.G.Ok) (hn : D.G.m.nconnface = 0) (hp : D.Plain gs) (hs : D.FixedSource) (hw : ∀ k, k < D.G.nface → 0 < D.wt k)
    (hr : ∀ i, i < D.G.m.nelem → Reaches D.G i) : ∃ B : (Fin D.G.m.nelem → ℝ) →ₗ[ℝ] (Fin D.G.m.nelem → ℝ),
      (∀ u w : ℕ → Fin 1 → ℝ, (fun i : Fin D.G.m.nelem => u i 0 - w i 0) =
        B fun i => D.residual gs (fun _ => 0) w 0 i 0 - D.residual gs (fun _ => 0) u 0 i 0) ∧
      ∀ w : ℕ → Fin 1 → ℝ, ∀ y : Fin D.G.m.nelem → ℝ, ∃ u : ℕ → Fin 1 → ℝ, ∀ i : Fin D.G.m.nelem, D.residual gs (fun _ => 0) w 0 i 0 - D.residual gs (fun _ => 0) u 0 i 0 = y i := by
  let N := D.G.m.nelem
  let ext : (Fin N → ℝ) → ℕ → Fin 1 → ℝ := fun y q _ => if hq : q < N then y ⟨q, hq⟩ else 0
  have hext : ∀ (y : Fin N → ℝ) (q : ℕ) (hq : q < N), ext y q 0 = y ⟨q, hq⟩ := fun y q hq => dif_pos hq
  have hadd : ∀ y z q, ext (y + z) q 0 = ext y q 0 + ext z q 0 := fun y z q => by
    by_cases hq : q < N
    · rw [hext _ q hq, hext _ q hq, hext _ q hq]; rfl
    · simp [ext, hq]
  have hsmul : ∀ (a : ℝ) y q, ext (a • y) q 0 = a * ext y q 0 := fun a y q => by
    by_cases hq : q < N
    · rw [hext _ q hq, hext _ q hq]; rfl
    · simp [ext, hq]
  have hnbadd : ∀ y z i k, k ∈ (D.facesOf i).filter (fun k => ¬ k < D.G.m.nbface) → D.nb (ext (y + z)) i k 0 = D.nb (ext y) i k 0 + D.nb (ext z) i k 0 := fun y z i k hk => by
    unfold nb
    rw [if_neg (mem_filter.1 hk).2, if_neg (mem_filter.1 hk).2, if_neg (mem_filter.1 hk).2]
    split_ifs <;> exact hadd _ _ _
  have hnbsmul : ∀ (a : ℝ) y i k, k ∈ (D.facesOf i).filter (fun k => ¬ k < D.G.m.nbface) → D.nb (ext (a • y)) i k 0 = a * D.nb (ext y) i k 0 := fun a y i k hk => by
    unfold nb
    rw [if_neg (mem_filter.1 hk).2, if_neg (mem_filter.1 hk).2]
    split_ifs <;> exact hsmul _ _ _
  let A : (Fin N → ℝ) →ₗ[ℝ] (Fin N → ℝ) :=
    { toFun := fun y i => D.bload i * ext y i 0 - ∑ k ∈ (D.facesOf i).filter (fun k => ¬ k < D.G.m.nbface), D.wt k * (D.nb (ext y) i k 0 - ext y i 0)
      map_add' := fun y z => by
        funext i
        simp only [Pi.add_apply]
        rw [sum_congr (g := fun k => D.wt k * (D.nb (ext y) i k 0 - ext y i 0) + D.wt k * (D.nb (ext z) i k 0 - ext z i 0)) rfl
          (fun k hk => by rw [hnbadd y z i k hk, hadd]; ring), sum_add_distrib, hadd]
        ring
      map_smul' := fun a y => by
        funext i
        simp only [Pi.smul_apply, smul_eq_mul, RingHom.id_apply]
        rw [sum_congr (g := fun k => a * (D.wt k * (D.nb (ext y) i k 0 - ext y i 0))) rfl
          (fun k hk => by rw [hnbsmul a y i k hk, hsmul]; ring), ← mul_sum, hsmul]
        ring }
  have hA : ∀ u w : ℕ → Fin 1 → ℝ, A (fun i : Fin N => u i 0 - w i 0) = fun i : Fin N => D.residual gs (fun _ => 0) w 0 i 0 - D.residual gs (fun _ => 0) u 0 i 0 := fun u w => by
    funext i
    have e := residual_sub hG hp hs u w i.2
    have e2 : A (fun i : Fin N => u i 0 - w i 0) i = D.bload i * (u i 0 - w i 0) -
        ∑ k ∈ (D.facesOf i).filter (fun k => ¬ k < D.G.m.nbface), D.wt k * (D.nb (fun q c => u q c - w q c) i k 0 - (u i 0 - w i 0)) := by
      show D.bload i * ext (fun i : Fin N => u i 0 - w i 0) i 0 - ∑ k ∈ (D.facesOf i).filter (fun k => ¬ k < D.G.m.nbface),
        D.wt k * (D.nb (ext (fun i : Fin N => u i 0 - w i 0)) i k 0 - ext (fun i : Fin N => u i 0 - w i 0) i 0) = _
      have hd : ∀ q, q < N → ext (fun i : Fin N => u i 0 - w i 0) q 0 = u q 0 - w q 0 := fun q hq => hext (fun i : Fin N => u i 0 - w i 0) q hq
      rw [hd i i.2]
      refine congrArg _ (sum_congr rfl fun k hk => ?_)
      have hkn := mem_range.1 (mem_filter.1 (mem_filter.1 hk).1).1
      have hkb := (mem_filter.1 hk).2
      unfold nb
      rw [if_neg hkb, if_neg hkb]
      split_ifs
      · rw [hd _ (inner_right hG hn hkn hkb)]
      · rw [hd _ (hG.kind hkn).1]
    rw [e2]
    linarith
  have hinj : LinearMap.ker A = ⊥ := by
    rw [LinearMap.ker_eq_bot']
    intro y hy
    have h1 : ∀ i, i < N → D.residual gs (fun _ => 0) (ext y) 0 i 0 - D.residual gs (fun _ => 0) (fun _ _ => 0) 0 i 0 = 0 := fun i hi => by
      have h2 := congrFun (hA (ext y) fun _ _ => 0) ⟨i, hi⟩
      have h3 : (fun i : Fin N => ext y i 0 - 0) = y := by funext i; rw [sub_zero, hext y i i.2]
      rw [h3, hy] at h2
      simp only [Pi.zero_apply] at h2
      linarith
    have h4 := residual_weak hG hn hp hs (ext y) (fun _ _ => 0) fun i => ext y i 0
    rw [sum_eq_zero fun i hi => by rw [h1 i (mem_range.1 hi), mul_zero]] at h4
    have h5 : D.dissip (fun i => ext y i 0) = 0 := by
      unfold dissip jumps
      rw [sum_congr (g := fun i => D.bload i * (ext y i 0 * (ext y i 0 - 0))) rfl (fun i _ => by ring),
        sum_congr (s₁ := (range D.G.nface).filter _) (g := fun k => D.wt k * ((ext y (D.G.face k).right 0 - ext y (D.G.face k).left 0) *
          ((ext y (D.G.face k).right 0 - 0) - (ext y (D.G.face k).left 0 - 0)))) rfl (fun k _ => by ring)]
      linarith
    funext i
    have := dissip_zero hw hr hG hn h5 i.2
    rw [← hext y i i.2]
    exact this
  obtain ⟨B, hB⟩ := LinearMap.exists_leftInverse_of_injective A hinj
  have hBA : ∀ y, B (A y) = y := fun y => LinearMap.congr_fun hB y
  refine ⟨B, fun u w => ?_, fun w y => ?_⟩
  · rw [← hA u w, hBA]
  · obtain ⟨z, hz⟩ := LinearMap.injective_iff_surjective.1 (LinearMap.ker_eq_bot.1 hinj) y
    refine ⟨fun q c => w q c + ext z q c, fun i => ?_⟩
    have h := congrFun (hA (fun q c => w q c + ext z q c) w) i
    have e : (fun i : Fin N => (fun q c => w q c + ext z q c) (i : ℕ) 0 - w i 0) = z := by
      funext i
      show w i 0 + ext z i 0 - w i 0 = z i
      rw [hext z i i.2]
      ring
    rw [e, hz] at h
    exact h.symm

/-- C102: if all conductances are positive and every cell is connected to the boundary, every source depending on position only has exactly one steady state. -/
theorem C102_steady (hG : D.G.Ok) (hn : D.G.m.nconnface = 0) (hp : D.Plain gs) (hs : D.FixedSource) (hw : ∀ k, k < D.G.nface → 0 < D.wt k)
    (hr : ∀ i, i < D.G.m.nelem → Reaches D.G i) : ∃ us, D.Steady gs us ∧ ∀ w, D.Steady gs w ↔ ∀ i, i < D.G.m.nelem → w i 0 = us i 0 := by
  obtain ⟨B, h1, h2⟩ := residual_inverse hG hn hp hs hw hr
  obtain ⟨us, hus⟩ := h2 (fun _ _ => 0) fun i => D.residual gs (fun _ => 0) (fun _ _ => 0) 0 i 0
  have hst : D.Steady gs us := fun i hi => by have := hus ⟨i, hi⟩; simp only at this; linarith
  refine ⟨us, hst, fun w => ⟨fun hw i hi => ?_, fun h i hi => ?_⟩⟩
  · have := congrFun (h1 w us) ⟨i, hi⟩
    have e : (fun i : Fin D.G.m.nelem => D.residual gs (fun _ => 0) us 0 i 0 - D.residual gs (fun _ => 0) w 0 i 0) = 0 := by
      funext j
      rw [hst j j.2, hw j j.2, sub_zero]; rfl
    rw [e, map_zero] at this
    simp only [Pi.zero_apply] at this
    linarith
  · have e := residual_sub hG hp hs w us hi
    rw [hst i hi, sub_zero, h i hi, sub_self, mul_zero, neg_zero, zero_add] at e
    rw [e]
    refine sum_eq_zero fun k hk => ?_
    have hkn := mem_range.1 (mem_filter.1 (mem_filter.1 hk).1).1
    have hkb := (mem_filter.1 hk).2
    unfold nb
    rw [if_neg hkb]
    split_ifs
    · have := h _ (inner_right hG hn hkn hkb)
      simp only [this]; ring
    · have := h _ (hG.kind hkn).1
      simp only [this]; ring

/-- Values tend to the steady state if the residual norms tend to zero. -/
theorem values_converge (hG : D.G.Ok) (hn : D.G.m.nconnface = 0) (hp : D.Plain gs) (hs : D.FixedSource) (hw : ∀ k, k < D.G.nface → 0 < D.wt k)
    (hr : ∀ i, i < D.G.m.nelem → Reaches D.G i) (har : ∀ i, i < D.G.m.nelem → 0 < D.G.ar i) {us : ℕ → Fin 1 → ℝ} (hus : D.Steady gs us) {x : ℕ → ℕ → Fin 1 → ℝ} {r : ℕ → ℝ}
    (h : ∀ n, (D.solver gs).norm (x n) = some (r n)) (h0 : Filter.Tendsto r Filter.atTop (nhds 0)) {i : ℕ} (hi : i < D.G.m.nelem) :
    Filter.Tendsto (fun n => x n i 0) Filter.atTop (nhds (us i 0)) := by
  obtain ⟨B, h1, -⟩ := residual_inverse hG hn hp hs hw hr
  have hres : ∀ j, j < D.G.m.nelem → Filter.Tendsto (fun n => D.residual gs (fun _ => 0) (x n) 0 j 0) Filter.atTop (nhds 0) := fun j hj => by
    have hb : ∀ n, |D.residual gs (fun _ => 0) (x n) 0 j 0| ≤ √(r n ^ 2 / D.G.ar j) := fun n => by
      obtain ⟨r', e1, e2⟩ := norm_defined gs har (x n)
      rw [h n] at e1
      cases e1
      refine Real.abs_le_sqrt ?_
      rw [le_div_iff₀ (har j hj), e2, mul_comm]
      exact single_le_sum (f := fun l => D.G.ar l * D.residual gs (fun _ => 0) (x n) 0 l 0 ^ 2)
        (fun l hl => mul_nonneg (har l (mem_range.1 hl)).le (pow_two_nonneg _)) (mem_range.2 hj)
    have hz : Filter.Tendsto (fun n => √(r n ^ 2 / D.G.ar j)) Filter.atTop (nhds 0) := by
      have := ((h0.pow 2).div_const (D.G.ar j)).sqrt
      simpa using this
    exact squeeze_zero_norm hb hz
  have hvec : Filter.Tendsto (fun n => fun j : Fin D.G.m.nelem => D.residual gs (fun _ => 0) us 0 j 0 - D.residual gs (fun _ => 0) (x n) 0 j 0) Filter.atTop (nhds 0) := by
    rw [tendsto_pi_nhds]
    intro j
    have := (hres j j.2).neg
    simp only [hus j j.2, zero_sub]
    simpa using this
  have hB := (LinearMap.continuous_of_finiteDimensional B).tendsto 0 |>.comp hvec
  rw [map_zero, tendsto_pi_nhds] at hB
  have hB := hB ⟨i, hi⟩
  have e : (fun n => (B ∘ fun n => fun j : Fin D.G.m.nelem => D.residual gs (fun _ => 0) us 0 j 0 - D.residual gs (fun _ => 0) (x n) 0 j 0) n ⟨i, hi⟩) = fun n => x n i 0 - us i 0 := by
    funext n
    have := congrFun (h1 (x n) us) ⟨i, hi⟩
    exact this.symm
  rw [e] at hB
  have := hB.add_const (us i 0)
  simpa using this

end steady

end Diff
end FV
end FVENS
