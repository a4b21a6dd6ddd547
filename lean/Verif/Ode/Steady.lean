import Verif.Ode.Ramp

/-!
# Steady-state solvers: loop, stopping and reporting (C56), CFL number used (C57)

The spatial residual, the linear solver and the state vector are abstract: a problem gives the residual norm of a state
(`none` when it is not a finite number) and the state after an update with a given CFL number. Not modelled: timing data, output,
`CHKERRQ` returns of PETSc errors, the linear iteration count, AMG options, and the aliased buffers of `MPI_Allreduce` in
src/ode/aodesolver.cpp:528.
-/

namespace FVENS
namespace Ode

/-- A floating-point quotient of finite non-negative numbers: a number, infinity, or not-a-number. -/
inductive FDiv
  | num (x : ℝ)
  | inf
  | nan

/-- `a/b` for finite `a, b ≥ 0` in IEEE arithmetic, without rounding. -/
noncomputable def fdiv (a b : ℝ) : FDiv := if b = 0 then (if a = 0 then .nan else .inf) else .num (a / b)

/-- Comparison `q > t`; false for not-a-number. -/
def FDiv.gt : FDiv → ℝ → Prop
  | .num x, t => x > t
  | .inf, _ => True
  | .nan, _ => False

/-- Comparison `q <= t`; false for not-a-number. -/
def FDiv.le : FDiv → ℝ → Prop
  | .num x, t => x ≤ t
  | .inf, _ => False
  | .nan, _ => False

/-- The part of `SteadySolverConfig` used by the loops, src/ode/aodesolver.hpp. -/
structure Conf where
  tol : ℝ
  maxiter : ℤ
  cflinit : ℝ
  cflfin : ℝ

/-- What the solvers see of the spatial discretisation and the linear solver. `norm` is the square root of the sum of squares of the energy
residual times the area (src/ode/aodesolver.cpp:214-230, 516-530). -/
structure Prob (S : Type) where
  norm : S → Option ℝ
  nonneg : ∀ u r, norm u = some r → 0 ≤ r
  upd : ℝ → S → S

/-- Local variables of the loops, src/ode/aodesolver.cpp:158-170, 402-405; `log` collects for each iteration the CFL number written to the
convergence history and the one handed to the update. -/
structure Mem (S : Type) where
  u : S
  step : ℕ
  resi : ℝ
  resiold : ℝ
  initres : ℝ
  cfl : ℝ
  log : List (ℝ × ℝ)

/-- How a solve ends: nothing to do, normal return with `converged` set, `Tolerance_error`, `Numerical_error`, undefined behaviour. -/
inductive Out
  | nothing
  | ok
  | tolErr
  | numErr
  | ub
  deriving DecidableEq

/-- What differs between the two solvers. -/
structure Kind where
  up : ℝ
  down : ℝ
  cfl0 : Conf → ℝ
  used : Conf → ℝ → ℝ
  finish : {S : Type} → Conf → Mem S → Prop → Out

open Classical in
/-- Explicit solver: initial CFL src/ode/aodesolver.cpp:170, ramp parameters :194, CFL of the update :208, end :262-268. With no iteration
done the unset `convstep` is printed (:260), which is undefined. -/
noncomputable def forwardEuler : Kind where
  up := 0.3
  down := 0.25
  cfl0 := fun c => c.cflinit
  used := fun c _ => c.cflinit
  finish := fun c s _ => if s.step = 0 then .ub else if (s.step : ℤ) = c.maxiter then .tolErr else .ok

open Classical in
/-- Implicit solver: initial CFL src/ode/aodesolver.cpp:402, ramp parameters :462, CFL handed to the pseudo-time term :467, end :618-632. With no
iteration done the conversion of 0/0 to an integer (:565) is undefined. -/
noncomputable def backwardEuler : Kind where
  up := 0.25
  down := 0.3
  cfl0 := fun _ => 0
  used := fun _ cfl => cfl
  finish := fun c s met => if s.step = 0 then .ub else
    if (s.step : ℤ) < c.maxiter ∧ met then .ok else if (s.step : ℤ) ≥ c.maxiter then .tolErr else .numErr

variable {S : Type}

/-- Loop condition, src/ode/aodesolver.cpp:177, 419. -/
def cond (c : Conf) (s : Mem S) : Prop := (fdiv s.resi s.initres).gt c.tol ∧ (s.step : ℤ) < c.maxiter

/-- Loop body, src/ode/aodesolver.cpp:178-252, 420-559; `none` is the exception for a residual norm that is not finite. The ratio of residual
norms is a real quotient: inside the loop the divisor is positive (`resi_pos`). -/
noncomputable def body (k : Kind) (P : Prob S) (c : Conf) (s : Mem S) : Option (Mem S) :=
  let cfl := expRamp c.cflinit c.cflfin s.cfl (s.resiold / s.resi) k.up k.down
  let used := k.used c cfl
  match P.norm s.u with
  | none => none
  | some r => some
      { u := P.upd used s.u, step := s.step + 1, resi := r, resiold := s.resi,
        initres := if s.step = 0 then r else s.initres, cfl := cfl, log := s.log ++ [(cfl, used)] }

/-- Initial values, src/ode/aodesolver.cpp:158-170, 402-405. -/
noncomputable def init (k : Kind) (c : Conf) (u : S) : Mem S :=
  { u := u, step := 0, resi := 1, resiold := 1, initres := 1, cfl := k.cfl0 c, log := [] }

/-- Execution of a while loop from a state with a number of executions of the body begun, to the final state or an exception. -/
inductive Loop {σ : Type} (cond : σ → Prop) (body : σ → Option σ) : σ → ℕ → Option σ → Prop
  | done {s} : ¬ cond s → Loop cond body s 0 (some s)
  | step {s s' n o} : cond s → body s = some s' → Loop cond body s' n o → Loop cond body s (n + 1) o
  | throws {s} : cond s → body s = none → Loop cond body s 1 none

/-- `solve`, src/ode/aodesolver.cpp:135-282, 363-638: outcome and the number of iterations begun. -/
def Solve (k : Kind) (P : Prob S) (c : Conf) (u : S) (n : ℕ) (out : Out) : Prop :=
  if c.maxiter ≤ 0 then n = 0 ∧ out = .nothing
  else ∃ o, Loop (cond c) (body k P c) (init k c u) n o ∧
    out = match o with
      | none => .numErr
      | some s => k.finish c s ((fdiv s.resi s.initres).le c.tol)

/-! ## Specification -/

/-- States visited when the iteration is not stopped. -/
noncomputable def traj (k : Kind) (P : Prob S) (c : Conf) (u : S) : ℕ → Option (Mem S)
  | 0 => some (init k c u)
  | n + 1 => (traj k P c u n).bind (body k P c)

/-- Residual norm found in iteration `n`. -/
noncomputable def hist (k : Kind) (P : Prob S) (c : Conf) (u : S) (n : ℕ) : Option ℝ := (traj k P c u n).bind fun s => P.norm s.u

/-- The tolerance is met: the norm has dropped to the given fraction of the first. -/
def Met (c : Conf) (r0 r : ℝ) : Prop := r ≤ c.tol * r0

/-- The first `n` norms are the finite numbers `r`. -/
def Hist (k : Kind) (P : Prob S) (c : Conf) (u : S) (n : ℕ) (r : ℕ → ℝ) : Prop := ∀ j < n, hist k P c u j = some (r j)

/-! ## Loop lemmas -/

theorem Loop.det {σ : Type} {cd : σ → Prop} {bd : σ → Option σ} {s : σ} {n m : ℕ} {o p : Option σ} (h : Loop cd bd s n o) (h' : Loop cd bd s m p) :
    n = m ∧ o = p := by
  induction h generalizing m p with
  | done h1 =>
    cases h' with
    | done _ => exact ⟨rfl, rfl⟩
    | step h2 => exact absurd h2 h1
    | throws h2 => exact absurd h2 h1
  | step h1 h2 _ ih =>
    cases h' with
    | done h3 => exact absurd h1 h3
    | step _ h3 h4 =>
      rw [h2] at h3; cases h3
      obtain ⟨rfl, rfl⟩ := ih h4
      exact ⟨rfl, rfl⟩
    | throws _ h3 => rw [h2] at h3; cases h3
  | throws h1 h2 =>
    cases h' with
    | done h3 => exact absurd h1 h3
    | step _ h3 => rw [h2] at h3; cases h3
    | throws => exact ⟨rfl, rfl⟩

theorem traj_step {k : Kind} {P : Prob S} {c : Conf} {u : S} {n : ℕ} {s : Mem S} (h : traj k P c u n = some s) : s.step = n ∧ s.log.length = n := by
  induction n generalizing s with
  | zero => simp only [traj, Option.some.injEq] at h; subst h; simp [init]
  | succ n ih =>
    simp only [traj, Option.bind_eq_some_iff] at h
    obtain ⟨s', h1, h2⟩ := h
    have := ih h1
    unfold body at h2
    split at h2
    · cases h2
    · cases h2; simp [this]

theorem traj_succ {k : Kind} {P : Prob S} {c : Conf} {u : S} {n : ℕ} {s : Mem S} (h : traj k P c u (n + 1) = some s) :
    hist k P c u n = some s.resi ∧ hist k P c u 0 = some s.initres := by
  induction n generalizing s with
  | zero =>
    simp only [traj, Option.bind_some] at h
    unfold body at h
    split at h
    · cases h
    · rename_i r hr
      cases h
      have : hist k P c u 0 = some r := by simp [hist, traj, hr]
      exact ⟨this, by simpa [init] using this⟩
  | succ n ih =>
    obtain ⟨s', h1, h2⟩ := Option.bind_eq_some_iff.1 (show (traj k P c u (n + 1)).bind (body k P c) = some s from h)
    have h3 := ih h1
    have h4 := (traj_step h1).1
    unfold body at h2
    split at h2
    · cases h2
    · rename_i r hr
      cases h2
      refine ⟨by simp [hist, h1, hr], ?_⟩
      simpa [h4] using h3.2

theorem traj_of_hist {k : Kind} {P : Prob S} {c : Conf} {u : S} {n : ℕ} {r : ℝ} (h : hist k P c u n = some r) :
    ∃ s s', traj k P c u n = some s ∧ body k P c s = some s' ∧ traj k P c u (n + 1) = some s' ∧ s'.resi = r := by
  obtain ⟨s, h1, h2⟩ := Option.bind_eq_some_iff.1 h
  have hb : ∃ s', body k P c s = some s' ∧ s'.resi = r := by unfold body; rw [h2]; exact ⟨_, rfl, rfl⟩
  obtain ⟨s', h3, h4⟩ := hb
  exact ⟨s, s', h1, h3, by simp [traj, h1, h3], h4⟩

theorem hist_nonneg {k : Kind} {P : Prob S} {c : Conf} {u : S} {n : ℕ} {r : ℝ} (h : hist k P c u n = some r) : 0 ≤ r := by
  obtain ⟨s, _, h2⟩ := Option.bind_eq_some_iff.1 h
  exact P.nonneg _ _ h2

/-- Executing the loop follows the trajectory. -/
theorem loop_prefix {k : Kind} {P : Prob S} {c : Conf} {u : S} {n m : ℕ} {s : Mem S} {o : Option (Mem S)} (hs : traj k P c u n = some s)
    (hc : ∀ j < n, ∀ t, traj k P c u j = some t → cond c t) (h : Loop (cond c) (body k P c) s m o) :
    Loop (cond c) (body k P c) (init k c u) (n + m) o := by
  induction n generalizing s m with
  | zero => simp only [traj, Option.some.injEq] at hs; subst hs; simpa using h
  | succ n ih =>
    obtain ⟨s', h1, h2⟩ := Option.bind_eq_some_iff.1 (show (traj k P c u n).bind (body k P c) = some s from hs)
    have := ih h1 (fun j hj => hc j (by omega)) (Loop.step (hc n (by omega) s' h1) h2 h)
    rwa [show n + 1 + m = n + (m + 1) by omega]

/-- What a finished execution of the loop says about the trajectory. -/
theorem loop_inv {k : Kind} {P : Prob S} {c : Conf} {u : S} {m : ℕ} {s : Mem S} {o : Option (Mem S)} (h : Loop (cond c) (body k P c) s m o) :
    ∀ n, traj k P c u n = some s → (∀ j, n ≤ j → j < n + m → ∃ t, traj k P c u j = some t ∧ cond c t) ∧
      match o with
      | some t => traj k P c u (n + m) = some t ∧ ¬ cond c t
      | none => 0 < m ∧ ∃ t, traj k P c u (n + m - 1) = some t ∧ body k P c t = none := by
  induction h with
  | done h1 => exact fun n hn => ⟨fun j h2 h3 => by omega, hn, h1⟩
  | @step s s' m o h1 h2 h3 ih =>
    intro n hn
    have hn' : traj k P c u (n + 1) = some s' := by simp [traj, hn, h2]
    obtain ⟨g1, g2⟩ := ih (n + 1) hn'
    refine ⟨fun j h4 h5 => ?_, ?_⟩
    · rcases Nat.eq_or_lt_of_le h4 with h | h
      · exact ⟨s, h ▸ hn, h1⟩
      · exact g1 j h (by omega)
    · cases o with
      | some t => rwa [show n + (m + 1) = n + 1 + m by omega]
      | none =>
        refine ⟨by omega, ?_⟩
        rw [show n + (m + 1) - 1 = n + 1 + m - 1 by omega]
        exact g2.2
  | @throws s h1 h2 =>
    exact fun n hn => ⟨fun j h3 h4 => ⟨s, by rw [show j = n by omega]; exact hn, h1⟩, by omega, s, by simpa using hn, h2⟩

/-! ## Condition in terms of the history -/

theorem cond_zero {k : Kind} {c : Conf} {u : S} (ht : c.tol < 1) (hm : 0 < c.maxiter) : cond c (init k c u) := by
  refine ⟨?_, by simpa [init] using hm⟩
  simp [init, fdiv, FDiv.gt, ht]

theorem gt_iff {a b t : ℝ} (h : 0 < b ∨ a = 0) (hb : 0 ≤ b) : (fdiv a b).gt t ↔ ¬ a ≤ t * b := by
  unfold fdiv
  rcases hb.eq_or_lt with h0 | h0
  · subst h0
    have ha : a = 0 := h.resolve_left (lt_irrefl _)
    simp [ha, FDiv.gt]
  · rw [if_neg h0.ne']
    simp only [FDiv.gt, gt_iff_lt, not_le, lt_div_iff₀ h0]

/-- Inside the loop the residual norm is positive, so the quotient handed to the ramp is a number. -/
theorem resi_pos {k : Kind} {P : Prob S} {c : Conf} {u : S} (ht : 0 ≤ c.tol) {n : ℕ} {s : Mem S} (h : traj k P c u n = some s) (hc : cond c s) : 0 < s.resi := by
  cases n with
  | zero => simp only [traj, Option.some.injEq] at h; subst h; simp [init]
  | succ n =>
    have h1 := hist_nonneg (traj_succ h).1
    refine lt_of_le_of_ne h1 fun h0 => ?_
    have := hc.1
    unfold fdiv at this
    rw [← h0] at this
    split at this
    · simp [FDiv.gt] at this
    · simp only [zero_div, FDiv.gt, gt_iff_lt] at this; linarith

/-- Continuation test after iteration `n` of a run in which all earlier tests said to continue. -/
theorem cond_succ {k : Kind} {P : Prob S} {c : Conf} {u : S} {n : ℕ} {s : Mem S} {r : ℕ → ℝ} (h : traj k P c u (n + 1) = some s)
    (hr : Hist k P c u (n + 1) r) (hprev : ∀ j < n, ¬ Met c (r 0) (r j)) :
    (cond c s ↔ ¬ Met c (r 0) (r n) ∧ ((n + 1 : ℕ) : ℤ) < c.maxiter) ∧ s.resi = r n ∧ s.initres = r 0 := by
  have h1 := traj_succ h
  have e1 : s.resi = r n := by have := h1.1; rw [hr n (by omega)] at this; exact (Option.some.inj this).symm
  have e2 : s.initres = r 0 := by have := h1.2; rw [hr 0 (by omega)] at this; exact (Option.some.inj this).symm
  refine ⟨?_, e1, e2⟩
  have h0 : 0 ≤ r 0 := hist_nonneg (hr 0 (by omega))
  have hor : 0 < r 0 ∨ r n = 0 := by
    rcases h0.eq_or_lt with h2 | h2
    · right
      cases n with
      | zero => exact h2.symm
      | succ n =>
        exfalso
        apply hprev 0 (by omega)
        unfold Met
        rw [← h2]; simp
    · exact .inl h2
  unfold cond Met
  rw [e1, e2, gt_iff hor h0, (traj_step h).1]

/-! ## C56 -/

/-- C56: every solve ends, in exactly one way, after beginning at most the maximum number of iterations. -/
theorem C56_terminates (k : Kind) (P : Prob S) (c : Conf) (u : S) :
    (∃ n out, Solve k P c u n out) ∧ ∀ n out, Solve k P c u n out → (n : ℤ) ≤ max c.maxiter 0 ∧ ∀ n' out', Solve k P c u n' out' → n' = n ∧ out' = out := by
  by_cases hm : c.maxiter ≤ 0
  · simp only [Solve, if_pos hm]
    refine ⟨⟨0, .nothing, rfl, rfl⟩, ?_⟩
    rintro n out ⟨rfl, rfl⟩
    exact ⟨by simp, fun n' out' h => h⟩
  simp only [Solve, if_neg hm]
  push Not at hm
  refine ⟨?_, ?_⟩
  · have key : ∀ (m : ℕ) (s : Mem S), c.maxiter ≤ s.step + m → ∃ n o, Loop (cond c) (body k P c) s n o := by
      intro m
      induction m with
      | zero => exact fun s hs => ⟨0, _, .done fun h => by have := h.2; push_cast at hs; omega⟩
      | succ m ih =>
        intro s hs
        by_cases hc : cond c s
        · cases hb : body k P c s with
          | none => exact ⟨1, _, .throws hc hb⟩
          | some s' =>
            have hst : s'.step = s.step + 1 := by
              unfold body at hb
              split at hb
              · cases hb
              · cases hb; rfl
            obtain ⟨n, o, h⟩ := ih s' (by rw [hst]; push_cast; push_cast at hs; omega)
            exact ⟨n + 1, o, .step hc hb h⟩
        · exact ⟨0, _, .done hc⟩
    obtain ⟨n, o, h⟩ := key c.maxiter.toNat (init k c u) (by simp [init])
    exact ⟨n, _, o, h, rfl⟩
  · rintro n out ⟨o, h, rfl⟩
    refine ⟨?_, ?_⟩
    · rw [max_eq_left hm.le]
      rcases Nat.eq_zero_or_pos n with h0 | h0
      · subst h0; simpa using hm.le
      · obtain ⟨t, ht, hc⟩ := (loop_inv h 0 rfl).1 (n - 1) (by omega) (by omega)
        have h1 := hc.2
        rw [(traj_step ht).1] at h1
        omega
    · rintro n' out' ⟨o', h', rfl⟩
      obtain ⟨rfl, rfl⟩ := h.det h'
      exact ⟨rfl, rfl⟩

/-- How a history of residual norms is to be reported by a solver that calls a zero initial residual `z`: ends of the three kinds after `n`
iterations. -/
inductive Ends (k : Kind) (P : Prob S) (c : Conf) (u : S) (z : Out) : ℕ → Out → Prop
  /-- The tolerance is met for the first time, before the last iteration allowed. -/
  | met {n r} : ((n + 1 : ℕ) : ℤ) < c.maxiter → Hist k P c u (n + 1) r → (∀ j < n, ¬ Met c (r 0) (r j)) → Met c (r 0) (r n) → 0 < r 0 → Ends k P c u z (n + 1) .ok
  /-- The first residual norm is zero. -/
  | zero {r} : 1 < c.maxiter → Hist k P c u 1 r → r 0 = 0 → Ends k P c u z 1 z
  /-- A norm that is not finite. -/
  | blowup {n r} : ((n + 1 : ℕ) : ℤ) ≤ c.maxiter → Hist k P c u n r → (∀ j < n, ¬ Met c (r 0) (r j)) → hist k P c u n = none → Ends k P c u z (n + 1) .numErr
  /-- The last iteration is done and the tolerance was not met before it. -/
  | exhausted {n r} : ((n + 1 : ℕ) : ℤ) = c.maxiter → Hist k P c u (n + 1) r → (∀ j < n, ¬ Met c (r 0) (r j)) → Ends k P c u z (n + 1) .tolErr

theorem prefix_cond {k : Kind} {P : Prob S} {c : Conf} {u : S} (ht1 : c.tol < 1) (hm : 0 < c.maxiter) {n : ℕ} {r : ℕ → ℝ} (hr : Hist k P c u n r)
    (hn : (n : ℤ) < c.maxiter) (hp : ∀ j < n, ¬ Met c (r 0) (r j)) : ∀ j ≤ n, ∀ t, traj k P c u j = some t → cond c t := by
  intro j hj t hj'
  cases j with
  | zero => simp only [traj, Option.some.injEq] at hj'; subst hj'; exact cond_zero ht1 hm
  | succ j => exact (cond_succ hj' (fun i hi => hr i (by omega)) (fun i hi => hp i (by omega))).1.2 ⟨hp j (by omega), by push_cast; omega⟩

theorem ends_of_loop {k : Kind} {P : Prob S} {c : Conf} {u : S} (ht1 : c.tol < 1) (hm : 0 < c.maxiter) {m : ℕ} {o : Option (Mem S)}
    (h : Loop (cond c) (body k P c) (init k c u) m o) :
    ∃ n r, m = n + 1 ∧ Hist k P c u n r ∧ (∀ j < n, ¬ Met c (r 0) (r j)) ∧ ((n + 1 : ℕ) : ℤ) ≤ c.maxiter ∧
      match o with
      | none => hist k P c u n = none
      | some s => traj k P c u (n + 1) = some s ∧ Hist k P c u (n + 1) r ∧ s.step = n + 1 ∧ s.resi = r n ∧ s.initres = r 0 ∧
          (Met c (r 0) (r n) ∨ ((n + 1 : ℕ) : ℤ) = c.maxiter) := by
  obtain ⟨h1, h2⟩ := loop_inv h 0 rfl
  have hm0 : m ≠ 0 := by
    rintro rfl
    cases h with
    | done hc => exact hc (cond_zero ht1 hm)
  obtain ⟨n, rfl⟩ := Nat.exists_eq_succ_of_ne_zero hm0
  simp only [Nat.zero_le, zero_add, true_imp_iff, Nat.succ_eq_add_one] at h1 h2
  have hf : ∀ j < n, ∃ x, hist k P c u j = some x := fun j hj => by
    obtain ⟨t, ht', _⟩ := h1 (j + 1) (by omega)
    exact ⟨_, (traj_succ ht').1⟩
  have hcm : ((n + 1 : ℕ) : ℤ) ≤ c.maxiter := by
    obtain ⟨t, ht', hc⟩ := h1 n (by omega)
    have := hc.2
    rw [(traj_step ht').1] at this
    push_cast; omega
  have hnot : ∀ (r : ℕ → ℝ), Hist k P c u n r → ∀ j < n, ¬ Met c (r 0) (r j) := by
    intro r hr j
    induction j using Nat.strong_induction_on with
    | _ j ih =>
      intro hj
      obtain ⟨t, ht', hc⟩ := h1 (j + 1) (by omega)
      exact ((cond_succ ht' (fun i hi => hr i (by omega)) (fun i hi => ih i hi (by omega))).1.1 hc).1
  cases o with
  | none =>
    obtain ⟨_, t, h3, h4⟩ := h2
    choose! r hr using hf
    refine ⟨n, r, rfl, hr, hnot r hr, hcm, ?_⟩
    rw [Nat.add_sub_cancel] at h3
    simp only [hist, h3, Option.bind_some]
    unfold body at h4
    split at h4
    · assumption
    · cases h4
  | some s =>
    have hf' : ∀ j < n + 1, ∃ x, hist k P c u j = some x := fun j hj => by
      rcases Nat.lt_succ_iff_lt_or_eq.1 hj with h | h
      · exact hf j h
      · subst h; exact ⟨_, (traj_succ h2.1).1⟩
    choose! r hr using hf'
    have hr' : Hist k P c u n r := fun j hj => hr j (by omega)
    obtain ⟨g1, g2, g3⟩ := cond_succ h2.1 hr (hnot r hr')
    refine ⟨n, r, rfl, hr', hnot r hr', hcm, h2.1, hr, (traj_step h2.1).1, g2, g3, ?_⟩
    by_contra hcon
    push Not at hcon
    exact h2.2 (g1.2 ⟨hcon.1, lt_of_le_of_ne hcm hcon.2⟩)

theorem le_iff {a b t : ℝ} (hb : 0 < b) : (fdiv a b).le t ↔ a ≤ t * b := by
  unfold fdiv
  rw [if_neg hb.ne']
  simp only [FDiv.le, div_le_iff₀ hb]

theorem not_le_zero {a t : ℝ} : ¬ (fdiv a 0).le t := by
  unfold fdiv
  rw [if_pos rfl]
  split_ifs <;> simp [FDiv.le]

theorem loop_of_hist {k : Kind} {P : Prob S} {c : Conf} {u : S} (ht1 : c.tol < 1) (hm : 0 < c.maxiter) {n : ℕ} {r : ℕ → ℝ}
    (hr : Hist k P c u (n + 1) r) (hn : ((n + 1 : ℕ) : ℤ) ≤ c.maxiter) (hp : ∀ j < n, ¬ Met c (r 0) (r j))
    (hstop : Met c (r 0) (r n) ∨ ((n + 1 : ℕ) : ℤ) = c.maxiter) :
    ∃ s, Loop (cond c) (body k P c) (init k c u) (n + 1) (some s) ∧ s.step = n + 1 ∧ s.resi = r n ∧ s.initres = r 0 := by
  obtain ⟨_, s, _, _, h3, _⟩ := traj_of_hist (hr n (by omega))
  obtain ⟨g1, g2, g3⟩ := cond_succ h3 hr hp
  have hc : ¬ cond c s := fun h => by
    rcases hstop with h' | h'
    · exact (g1.1 h).1 h'
    · have := (g1.1 h).2; omega
  have := loop_prefix (m := 0) h3 (fun j hj => prefix_cond ht1 hm (fun i hi => hr i (by omega)) (by push_cast at hn; omega) hp j (by omega)) (.done hc)
  exact ⟨s, this, (traj_step h3).1, g2, g3⟩

/-- C56: exactly how the solvers report, for a tolerance in [0,1): the explicit solver calls a zero initial residual converged, the implicit one
calls it blown up. -/
theorem C56_outcome (P : Prob S) {c : Conf} (_ht : 0 ≤ c.tol) (ht1 : c.tol < 1) (hm : 0 < c.maxiter) (u : S) (n : ℕ) (out : Out) :
    (Solve forwardEuler P c u n out ↔ Ends forwardEuler P c u .ok n out) ∧
    (Solve backwardEuler P c u n out ↔ Ends backwardEuler P c u .numErr n out) := by
  have fwd : ∀ (k : Kind) (z : Out), (∀ s : Mem S, s.step ≠ 0 → (s.step : ℤ) = c.maxiter → ∀ p, k.finish c s p = .tolErr) →
      (∀ s : Mem S, s.step ≠ 0 → (s.step : ℤ) < c.maxiter → 0 < s.initres → (fdiv s.resi s.initres).le c.tol →
        k.finish c s ((fdiv s.resi s.initres).le c.tol) = .ok) →
      (∀ s : Mem S, s.step ≠ 0 → (s.step : ℤ) < c.maxiter → s.initres = 0 → k.finish c s ((fdiv s.resi s.initres).le c.tol) = z) →
      (Solve k P c u n out ↔ Ends k P c u z n out) := by
    intro k z f1 f2 f3
    constructor
    · intro h
      unfold Solve at h
      rw [if_neg (not_le.2 hm)] at h
      obtain ⟨o, h, rfl⟩ := h
      obtain ⟨N, r, rfl, hr, hp, hN, g⟩ := ends_of_loop ht1 hm h
      cases o with
      | none => exact .blowup hN hr hp g
      | some s =>
        obtain ⟨_, hr', hs, e1, e2, g⟩ := g
        dsimp only
        rcases hN.eq_or_lt with h' | h'
        · rw [f1 s (by omega) (by rw [hs]; exact h')]
          exact .exhausted h' hr' hp
        · have hmet := g.resolve_right (by omega)
          have h0 : 0 ≤ r 0 := hist_nonneg (hr' 0 (by omega))
          rcases h0.eq_or_lt with h00 | h00
          · rw [f3 s (by omega) (by rw [hs]; exact h') (by rw [e2, h00])]
            have hN0 : N = 0 := by
              by_contra hne
              exact hp 0 (by omega) (by unfold Met; rw [← h00]; simp)
            subst hN0
            exact .zero (by simpa using h') hr' h00.symm
          · rw [f2 s (by omega) (by rw [hs]; exact h') (by rw [e2]; exact h00) (by rw [e2, le_iff h00, e1]; exact hmet)]
            exact .met h' hr' hp hmet h00
    · intro h
      unfold Solve
      rw [if_neg (not_le.2 hm)]
      cases h with
      | met h1 hr hp hmet h0 =>
        obtain ⟨s, hl, hs, e1, e2⟩ := loop_of_hist ht1 hm hr h1.le hp (.inl hmet)
        exact ⟨_, hl, (f2 s (by omega) (by rw [hs]; exact h1) (by rw [e2]; exact h0) (by rw [e2, le_iff h0, e1]; exact hmet)).symm⟩
      | zero h1 hr h0 =>
        obtain ⟨s, hl, hs, e1, e2⟩ := loop_of_hist (n := 0) ht1 hm hr (by simpa using h1.le) (fun j hj => by omega) (.inl (by unfold Met; rw [h0]; simp))
        exact ⟨_, hl, (f3 s (by omega) (by rw [hs]; simpa using h1) (by rw [e2, h0])).symm⟩
      | blowup h1 hr hp hn =>
        rename_i N r
        have : ∃ s, traj k P c u N = some s := by
          cases N with
          | zero => exact ⟨_, rfl⟩
          | succ N => obtain ⟨_, s, _, _, h3, _⟩ := traj_of_hist (hr N (by omega)); exact ⟨s, h3⟩
        obtain ⟨s, hs⟩ := this
        have hb : body k P c s = none := by
          simp only [hist, hs, Option.bind_some] at hn
          unfold body
          rw [hn]
        have hc := prefix_cond ht1 hm hr (by push_cast at h1; omega) hp
        exact ⟨none, loop_prefix hs (fun j hj => hc j hj.le) (.throws (hc N le_rfl s hs) hb), rfl⟩
      | exhausted h1 hr hp =>
        obtain ⟨s, hl, hs, e1, e2⟩ := loop_of_hist ht1 hm hr h1.le hp (.inr h1)
        exact ⟨_, hl, (f1 s (by omega) (by rw [hs]; exact h1) _).symm⟩
  constructor
  · apply fwd
    · intro s h1 h2 p; simp [forwardEuler, h1, h2]
    · intro s h1 h2 _ _; simp [forwardEuler, h1, h2.ne]
    · intro s h1 h2 _; simp [forwardEuler, h1, h2.ne]
  · apply fwd
    · intro s h1 h2 p; simp [backwardEuler, h1, h2]
    · intro s h1 h2 _ h3; simp [backwardEuler, h1, h2, h3]
    · intro s h1 h2 h3
      rw [h3]
      simp [backwardEuler, h1, h2, not_le_zero]

/-- C56: success is reported only if the last residual norm met the tolerance, by both solvers. -/
theorem C56_success (P : Prob S) {c : Conf} (ht : 0 ≤ c.tol) (ht1 : c.tol < 1) (hm : 0 < c.maxiter) {k : Kind} (hk : k = forwardEuler ∨ k = backwardEuler) {u : S} {n : ℕ}
    (h : Solve k P c u n .ok) : 1 ≤ n ∧ (n : ℤ) < c.maxiter ∧ ∃ r0 r, hist k P c u 0 = some r0 ∧ hist k P c u (n - 1) = some r ∧ Met c r0 r := by
  have he : ∃ z, Ends k P c u z n .ok := by
    rcases hk with rfl | rfl
    · exact ⟨_, (C56_outcome P ht ht1 hm u n .ok).1.1 h⟩
    · exact ⟨_, (C56_outcome P ht ht1 hm u n .ok).2.1 h⟩
  obtain ⟨z, he⟩ := he
  generalize ho : Out.ok = out at he
  cases he with
  | @met n r h1 hr hp hmet h0 => exact ⟨by omega, h1, r 0, r n, hr 0 (by omega), hr n (by omega), hmet⟩
  | @zero r h1 hr h0 => exact ⟨le_rfl, by simpa using h1, r 0, r 0, hr 0 (by omega), hr 0 (by omega), by unfold Met; rw [h0]; simp⟩
  | blowup => cases ho
  | exhausted => cases ho

/-- C56: `Tolerance_error` is thrown only when all iterations were done and the tolerance was not met before the last one. Missing for the full claim:
the last iteration itself, see `C56_last_iteration_refuted`. -/
theorem C56_failure_partial (P : Prob S) {c : Conf} (ht : 0 ≤ c.tol) (ht1 : c.tol < 1) (hm : 0 < c.maxiter) {k : Kind} (hk : k = forwardEuler ∨ k = backwardEuler) {u : S} {n : ℕ}
    (h : Solve k P c u n .tolErr) : (n : ℤ) = c.maxiter ∧ ∃ r0, hist k P c u 0 = some r0 ∧ ∀ j, j + 1 < n → ∃ r, hist k P c u j = some r ∧ ¬ Met c r0 r := by
  have he : ∃ z, z ≠ Out.tolErr ∧ Ends k P c u z n .tolErr := by
    rcases hk with rfl | rfl
    · exact ⟨_, by simp, (C56_outcome P ht ht1 hm u n .tolErr).1.1 h⟩
    · exact ⟨_, by simp, (C56_outcome P ht ht1 hm u n .tolErr).2.1 h⟩
  obtain ⟨z, hz, he⟩ := he
  generalize ho : Out.tolErr = out at he
  cases he with
  | met => cases ho
  | zero => exact absurd ho.symm hz
  | blowup => cases ho
  | @exhausted n r h1 hr hp => exact ⟨h1, r 0, hr 0 (by omega), fun j hj => ⟨r j, hr j (by omega), hp j (by omega)⟩⟩

/-! ### Concrete runs -/

/-- Halving: the state is the residual norm, each update halves it. -/
noncomputable def halving : Prob ℝ where
  norm := fun u => some |u|
  nonneg := fun u r h => by cases h; exact abs_nonneg u
  upd := fun _ u => u / 2

theorem halving_traj (k : Kind) (c : Conf) (n : ℕ) : ∃ s, traj k halving c 1 n = some s ∧ s.u = (1 / 2) ^ n := by
  induction n with
  | zero => exact ⟨_, rfl, by simp [init]⟩
  | succ n ih =>
    obtain ⟨s, h1, h2⟩ := ih
    refine ⟨_, by simp only [traj, h1, Option.bind_some]; rfl, ?_⟩
    simp only [halving, h2]; ring

theorem halving_hist (k : Kind) (c : Conf) (n : ℕ) : hist k halving c 1 n = some ((1 / 2) ^ n) := by
  obtain ⟨s, h1, h2⟩ := halving_traj k c n
  unfold hist
  rw [h1, Option.bind_some]
  show some |s.u| = _
  rw [h2, abs_of_pos (by positivity)]

/-- Concrete case: tolerance 0.3 and ten iterations: both solvers stop after three and report success. -/
example (k : Kind) (hk : k = forwardEuler ∨ k = backwardEuler) : Solve k halving ⟨0.3, 10, 1, 10⟩ 1 3 .ok := by
  have h : ∀ z, Ends k halving ⟨0.3, 10, 1, 10⟩ 1 z 3 .ok := fun z => by
    refine .met (n := 2) (r := fun n => (1 / 2) ^ n) (by norm_num) (fun j _ => halving_hist k _ j) (fun j hj => ?_) (by norm_num [Met]) (by norm_num)
    rcases (by omega : j = 0 ∨ j = 1) with rfl | rfl <;> norm_num [Met]
  rcases hk with rfl | rfl
  · exact (C56_outcome halving (by norm_num) (by norm_num) (by norm_num) 1 3 .ok).1.2 (h _)
  · exact (C56_outcome halving (by norm_num) (by norm_num) (by norm_num) 1 3 .ok).2.2 (h _)

/-- C56 fails: with three iterations allowed the tolerance is met in the third, but failure to converge is reported. -/
theorem C56_last_iteration_refuted (k : Kind) (hk : k = forwardEuler ∨ k = backwardEuler) :
    ∃ (P : Prob ℝ) (c : Conf) (u : ℝ) (r0 r : ℝ), 0 < c.tol ∧ c.tol < 1 ∧ c.maxiter = 3 ∧ Solve k P c u 3 .tolErr ∧
      hist k P c u 0 = some r0 ∧ hist k P c u 2 = some r ∧ Met c r0 r := by
  refine ⟨halving, ⟨0.3, 3, 1, 10⟩, 1, 1, 1 / 4, by norm_num, by norm_num, rfl, ?_, by simpa using halving_hist k _ 0, by rw [halving_hist]; norm_num, by norm_num [Met]⟩
  have h : ∀ z, Ends k halving ⟨0.3, 3, 1, 10⟩ 1 z 3 .tolErr := fun z => by
    refine .exhausted (n := 2) (r := fun n => (1 / 2) ^ n) (by norm_num) (fun j _ => halving_hist k _ j) (fun j hj => ?_)
    rcases (by omega : j = 0 ∨ j = 1) with rfl | rfl <;> norm_num [Met]
  rcases hk with rfl | rfl
  · exact (C56_outcome halving (by norm_num) (by norm_num) (by norm_num) 1 3 _).1.2 (h _)
  · exact (C56_outcome halving (by norm_num) (by norm_num) (by norm_num) 1 3 _).2.2 (h _)

/-- C56 fails: started from an exact solution (for instance the free stream, `C47`), the implicit solver reports that it blew up. -/
theorem C56_zero_residual_refuted {P : Prob S} {c : Conf} (ht : 0 ≤ c.tol) (ht1 : c.tol < 1) (hm : 1 < c.maxiter) {u : S} (h0 : P.norm u = some 0) :
    Solve backwardEuler P c u 1 .numErr ∧ Solve forwardEuler P c u 1 .ok ∧ ∃ r, hist backwardEuler P c u 0 = some r ∧ Met c r r := by
  have hh : ∀ k, Hist k P c u 1 fun _ => 0 := fun k j hj => by
    obtain rfl : j = 0 := by omega
    simp [hist, traj, init, h0]
  refine ⟨(C56_outcome P ht ht1 (by omega) u 1 _).2.2 (.zero hm (hh _) rfl), (C56_outcome P ht ht1 (by omega) u 1 _).1.2 (.zero hm (hh _) rfl), 0, hh _ 0 (by omega), ?_⟩
  simp [Met]

example : halving.norm 0 = some 0 ∧ (1 : ℤ) < 100 := by simp [halving]

/-- C56: with a tolerance of one or more no iteration is done, and the end of both solvers is undefined. -/
theorem C56_tolerance_one (P : Prob S) {c : Conf} (ht : 1 ≤ c.tol) (hm : 0 < c.maxiter) {k : Kind} (hk : k = forwardEuler ∨ k = backwardEuler) (u : S) : Solve k P c u 0 .ub := by
  unfold Solve
  rw [if_neg (not_le.2 hm)]
  refine ⟨_, .done (s := init k c u) fun h => ?_, ?_⟩
  · have := h.1
    simp only [init, fdiv, one_ne_zero, if_false, div_one, FDiv.gt] at this
    linarith
  · rcases hk with rfl | rfl <;> simp [forwardEuler, backwardEuler, init]

/-! ## C57 -/

/-- CFL number reported and CFL number used in iteration `n`. -/
def LogEntry (k : Kind) (P : Prob S) (c : Conf) (u : S) (n : ℕ) (reported used : ℝ) : Prop :=
  ∃ s, traj k P c u (n + 1) = some s ∧ s.log[n]? = some (reported, used) ∧ s.cfl = reported

theorem log_last {k : Kind} {P : Prob S} {c : Conf} {u : S} {n : ℕ} {s : Mem S} (h : traj k P c u (n + 1) = some s) :
    s.log[n]? = some (s.cfl, k.used c s.cfl) := by
  obtain ⟨s', h1, h2⟩ := Option.bind_eq_some_iff.1 (show (traj k P c u n).bind (body k P c) = some s from h)
  have h3 := (traj_step h1).2
  unfold body at h2
  split at h2
  · cases h2
  · cases h2
    dsimp only
    rw [List.getElem?_append_right (by omega), h3]
    simp

/-- C57: the implicit solver uses the CFL number it reports. -/
theorem C57_implicit {P : Prob S} {c : Conf} {u : S} {n : ℕ} {a b : ℝ} (h : LogEntry backwardEuler P c u n a b) : a = b := by
  obtain ⟨s, h1, h2, h3⟩ := h
  rw [log_last h1] at h2
  simp only [Option.some.injEq, Prod.mk.injEq, backwardEuler] at h2
  rw [← h2.1, ← h2.2]

/-- C57 (partial): the explicit solver always uses the initial CFL number; this is what it reports if the ramp is switched off by equal limits. Missing for the full claim: any other value of the ramp, see `C57_refuted`. -/
theorem C57_explicit_partial {P : Prob S} {c : Conf} {u : S} {n : ℕ} {a b : ℝ} (h : LogEntry forwardEuler P c u n a b) :
    b = c.cflinit ∧ (c.cflinit = c.cflfin → a = b) := by
  obtain ⟨s, h1, h2, h3⟩ := h
  have hl := log_last h1
  rw [hl] at h2
  simp only [Option.some.injEq, Prod.mk.injEq, forwardEuler] at h2
  refine ⟨h2.2.symm, fun hc => ?_⟩
  obtain ⟨s', g1, g2⟩ := Option.bind_eq_some_iff.1 (show (traj forwardEuler P c u n).bind (body forwardEuler P c) = some s from h1)
  have hcfl : ∃ x y, s.cfl = expRamp c.cflinit c.cflfin x y forwardEuler.up forwardEuler.down := by
    unfold body at g2
    split at g2
    · cases g2
    · cases g2; exact ⟨_, _, rfl⟩
  obtain ⟨x, y, hxy⟩ := hcfl
  have hb := C54_exp_bounds hc.le x y forwardEuler.up forwardEuler.down
  rw [← h2.1, ← h2.2, hxy]
  linarith [hb.1, hb.2]

/-- C57 fails: with a residual that halves, the third iteration reports a larger CFL number than it uses. -/
theorem C57_refuted : ∃ (P : Prob ℝ) (c : Conf) (u a b : ℝ), 0 < c.cflinit ∧ c.cflinit < c.cflfin ∧ LogEntry forwardEuler P c u 2 a b ∧ b < a := by
  refine ⟨halving, ⟨0.01, 100, 1, 10⟩, 1, ?_⟩
  obtain ⟨s3, h3, -⟩ := halving_traj forwardEuler ⟨0.01, 100, 1, 10⟩ 3
  have ramp1 : ∀ up down : ℝ, expRamp 1 10 1 1 up down = 1 := fun up down => by unfold expRamp; norm_num
  have e : s3.cfl = expRamp 1 10 1 2 0.3 0.25 := by
    have := h3
    simp only [traj, body, halving, init, forwardEuler, Option.bind_some, Option.some.injEq] at this
    rw [← this]
    norm_num [ramp1]
  refine ⟨s3.cfl, 1, by norm_num, by norm_num, ⟨s3, h3, ?_, rfl⟩, ?_⟩
  · rw [log_last h3]; rfl
  · rw [e]
    have h2 : (1 : ℝ) < 2 ^ (0.3 : ℝ) := Real.one_lt_rpow (by norm_num) (by norm_num)
    unfold expRamp
    simp only [gt_iff_lt, show (1 : ℝ) < 2 by norm_num, if_true, one_mul]
    split_ifs <;> linarith

end Ode
end FVENS
