import Verif.Ode.Steady
import Mathlib.Analysis.Calculus.Deriv.Mul
import Mathlib.Analysis.Calculus.Deriv.Add
import Mathlib.Analysis.Normed.Module.Basic

/-!
# Explicit Runge-Kutta time integration (C58)

The state is an element of a real vector space (cells times variables). `f u` is the residual divided by the cell areas, that is the right-hand side of
`du/dt = f u` (the explicit steady solver adds it, src/ode/aodesolver.cpp:208). Not modelled: output and timing, PETSc error returns; the parallel run (no
ghost exchange and no reduction of the time step happen, so this is the behaviour of one process).
-/

namespace FVENS
namespace Ode

/-- `initialize_TVDRK_Coeffs`, src/ode/aodesolver.cpp:45-67: rows of three coefficients. `none` where the table is left unset (order above 3) or cannot be
allocated (negative order). -/
noncomputable def tvdrk (order : ℤ) : Option (List (ℝ × ℝ × ℝ)) :=
  if order = 0 then some []
  else if order = 1 then some [(1.0, 0.0, 1.0)]
  else if order = 2 then some [(1.0, 0.0, 1.0), (0.5, 0.5, 0.5)]
  else if order = 3 then some [(1.0, 0.0, 1.0), (0.75, 0.25, 0.25), (0.3333333333333333, 0.6666666666666667, 0.6666666666666667)]
  else none

variable {V : Type} [AddCommGroup V] [Module ℝ V]

/-- Stages of one step, src/ode/aodesolver.cpp:710-745; the residual is that of `uvec`, which the stages do not change. -/
noncomputable def stages (f : V → V) (h : ℝ) (u : V) (rows : List (ℝ × ℝ × ℝ)) : V :=
  rows.foldl (fun us c => c.1 • u + c.2.1 • us - (c.2.2 * h) • f u) u

/-- One time step of size `h`; `none` is undefined behaviour. -/
noncomputable def rkStep (order : ℤ) (f : V → V) (h : ℝ) (u : V) : Option V := (tvdrk order).map (stages f h u)

/-- State of the time loop: solution, physical time. -/
structure TMem (V : Type) where
  u : V
  time : ℝ

/-- Time loop condition, src/ode/aodesolver.cpp:706. -/
def tcond {V : Type} (finaltime : ℝ) (s : TMem V) : Prop := s.time ≤ finaltime - 1e-12

/-- Time step, src/ode/aodesolver.cpp:707-758: `dtmin` is the smallest local time step (positive), read in the first stage only, so it stays zero without
stages. `none` for undefined coefficients. The exception for a time step that is not finite is not modelled: `dtmin` is a number. -/
noncomputable def tbody (order : ℤ) (f : V → V) (dtm : V → ℝ) (cfl : ℝ) (s : TMem V) : Option (TMem V) :=
  let dtmin := if 0 < order then dtm s.u else 0
  (rkStep order f (dtmin * cfl) s.u).map fun u => ⟨u, s.time + dtmin * cfl⟩

/-! ## Specification -/

/-- Taylor polynomial of the solution of `du/dt = L u` after time `h`. -/
noncomputable def taylor (q : ℕ) (L : V →ₗ[ℝ] V) (h : ℝ) (u : V) : V := ∑ k ∈ Finset.range (q + 1), (h ^ k / (k.factorial : ℝ)) • (L ^ k) u

/-- The three-coefficient scheme as published: every stage evaluates the right-hand side at the stage value. -/
noncomputable def published (f : V → V) (h : ℝ) (u : V) (rows : List (ℝ × ℝ × ℝ)) : V :=
  rows.foldl (fun us c => c.1 • u + c.2.1 • us + (c.2.2 * h) • f us) u

/-! ## C58 -/

/-- The factor that multiplies the residual in one step. -/
noncomputable def kappa (order : ℤ) : ℝ := if order = 3 then 1.5 * 0.6666666666666667 else 1

theorem tvdrk1 : tvdrk 1 = some [(1, 0, 1)] := by norm_num [tvdrk]
theorem tvdrk2 : tvdrk 2 = some [(1, 0, 1), (1/2, 1/2, 1/2)] := by norm_num [tvdrk]
theorem tvdrk3 : tvdrk 3 = some [(1, 0, 1), (3/4, 1/4, 1/4), (3333333333333333/10000000000000000, 6666666666666667/10000000000000000, 6666666666666667/10000000000000000)] := by
  norm_num [tvdrk]

/-- C58: what a step does, for every right-hand side: all orders reduce to one Euler step with the sign reversed. -/
theorem C58_step {q : ℤ} (hq : q = 1 ∨ q = 2 ∨ q = 3) (f : V → V) (h : ℝ) (u : V) : rkStep q f h u = some (u - (kappa q * h) • f u) := by
  rcases hq with rfl | rfl | rfl <;>
  · simp only [rkStep, tvdrk1, tvdrk2, tvdrk3, Option.map_some, stages, List.foldl_cons, List.foldl_nil, kappa]
    congr 1
    norm_num
    try module

/-- C58 fails for each order: already on `du/dt = u` a step of any positive size is not the Taylor polynomial, and the solution decreases where it should grow. -/
theorem C58_refuted {q : ℤ} (hq : q = 1 ∨ q = 2 ∨ q = 3) {h : ℝ} (hh : 0 < h) :
    ∃ v, rkStep q (fun x : ℝ => x) h 1 = some v ∧ v < 1 ∧ 1 < taylor q.toNat (LinearMap.id : ℝ →ₗ[ℝ] ℝ) h 1 := by
  refine ⟨_, C58_step hq _ h 1, ?_, ?_⟩
  · rcases hq with rfl | rfl | rfl <;> norm_num [kappa] <;> linarith
  · have hid : ∀ k, (LinearMap.id ^ k : ℝ →ₗ[ℝ] ℝ) = LinearMap.id := fun k => by
      rw [show (LinearMap.id : ℝ →ₗ[ℝ] ℝ) = 1 from rfl, one_pow]
    rcases hq with rfl | rfl | rfl <;>
    · norm_num [taylor, Finset.sum_range_succ, hid, show Int.toNat 1 = 1 from rfl, show Int.toNat 2 = 2 from rfl, show Int.toNat 3 = 3 from rfl, Nat.factorial]
      first | done | linarith | nlinarith [pow_pos hh 2, pow_pos hh 3]

/-- C58: exactly when orders one and two are consistent at all: the step has the right first-order term only at steady states. -/
theorem C58_consistent_iff {W : Type} [NormedAddCommGroup W] [NormedSpace ℝ W] {q : ℤ} (hq : q = 1 ∨ q = 2) (f : W → W) (u : W) :
    (∃ Φ : ℝ → W, (∀ h, rkStep q f h u = some (Φ h)) ∧ HasDerivAt Φ (f u) 0) ↔ f u = 0 := by
  have hk : kappa q = 1 := by rcases hq with rfl | rfl <;> norm_num [kappa]
  have hs : ∀ h, rkStep q f h u = some (u - h • f u) := fun h => by
    rw [C58_step (by omega) f h u, hk, one_mul]
  have hd : HasDerivAt (fun h : ℝ => u - h • f u) (-f u) 0 := by
    have := ((hasDerivAt_id (0 : ℝ)).smul_const (f u)).const_sub u
    simpa using this
  constructor
  · rintro ⟨Φ, h1, h2⟩
    have : Φ = fun h : ℝ => u - h • f u := funext fun h => by
      have := h1 h
      rw [hs h] at this
      exact (Option.some.inj this).symm
    rw [this] at h2
    have he := h2.unique hd
    have h3 : (2 : ℝ) • f u = 0 := by rw [two_smul]; nth_rewrite 2 [he]; exact add_neg_cancel _
    exact (smul_eq_zero.1 h3).resolve_left (by norm_num)
  · intro h0
    exact ⟨_, hs, by rw [h0] at hd ⊢; simpa using hd⟩

/-- C58 (partial): the coefficient table is right: every row is a convex combination, and evaluating the right-hand side at the stages as published gives the
Taylor polynomial of the nominal order for linear right-hand sides, for order three up to the rounding of the decimals. Missing for the full claim: the loop
does not evaluate it there, and subtracts it (`C58_step`, `C58_refuted`). -/
theorem C58_table_partial (L : V →ₗ[ℝ] V) (h : ℝ) (u : V) :
    (∀ q rows, tvdrk q = some rows → ∀ c ∈ rows, 0 ≤ c.1 ∧ 0 ≤ c.2.1 ∧ 0 ≤ c.2.2 ∧ c.1 + c.2.1 = 1 ∧ (c.2.2 = c.2.1 ∨ c = rows.headI)) ∧
    (tvdrk 1).map (published L h u) = some (taylor 1 L h u) ∧ (tvdrk 2).map (published L h u) = some (taylor 2 L h u) ∧
    (tvdrk 3).map (published L h u) = some (taylor 3 L h u + ((0.6666666666666667 - 2 / 3 : ℝ) • ((3 / 2 * h) • L u + (3 / 4 * h ^ 2) • L (L u) + (1 / 4 * h ^ 3) • L (L (L u))))) := by
  have p2 : ∀ v, (L ^ 2) v = L (L v) := fun v => by simp [pow_two]
  have p3 : ∀ v, (L ^ 3) v = L (L (L v)) := fun v => by simp [pow_succ]
  refine ⟨?_, ?_, ?_, ?_⟩
  · intro q rows hq c hc
    unfold tvdrk at hq
    split_ifs at hq <;> simp only [Option.some.injEq] at hq <;> subst hq <;> simp only [List.mem_cons, List.not_mem_nil, or_false] at hc
    · subst hc; norm_num
    · rcases hc with rfl | rfl <;> norm_num
    · rcases hc with rfl | rfl | rfl <;> norm_num
  all_goals
    simp only [tvdrk1, tvdrk2, tvdrk3, Option.map_some, published, List.foldl_cons, List.foldl_nil, taylor, Finset.sum_range_succ, Finset.sum_range_zero]
    congr 1
    simp only [map_add, map_smul, pow_zero, pow_one, p2, p3, Module.End.one_apply, Nat.factorial]
    norm_num
    try module

/-- Concrete case of the table: a rotation in the plane. -/
example : (tvdrk 2).map (published (Matrix.toLin' (!![0, 1; -1, 0] : Matrix (Fin 2) (Fin 2) ℝ)) (1/10) ![1, 0]) = some ![199/200, -1/10] := by
  rw [(C58_table_partial _ _ _).2.2.1]
  simp only [taylor, Finset.sum_range_succ, Finset.sum_range_zero]
  congr 1
  ext i
  fin_cases i <;> norm_num [pow_two, Nat.factorial, Matrix.toLin'_apply, Matrix.vecHead, Matrix.vecTail]

/-! ### Time loop -/

/-- C58: if the loop ends it has passed the final time less 1e-12, by less than the last time step; the end time itself is not hit. -/
theorem C58_end_time {q : ℤ} {f : V → V} {dtm : V → ℝ} {cfl T : ℝ} {s : TMem V} {n : ℕ} {t : TMem V}
    (h : Loop (tcond T) (tbody q f dtm cfl) s n (some t)) : T - 1e-12 < t.time ∧ (0 < n → ∃ v, t.time ≤ T - 1e-12 + (if 0 < q then dtm v else 0) * cfl) := by
  generalize ho : some t = o at h
  induction h with
  | done h1 =>
    cases ho
    exact ⟨not_le.1 h1, fun h => absurd h (lt_irrefl _)⟩
  | @step s s' n o h1 h2 h3 ih =>
    obtain ⟨g1, g2⟩ := ih ho
    refine ⟨g1, fun _ => ?_⟩
    rcases Nat.eq_zero_or_pos n with h0 | h0
    · subst h0
      cases h3
      cases ho
      unfold tbody at h2
      dsimp only at h2
      obtain ⟨v, _, h5⟩ := Option.map_eq_some_iff.1 h2
      refine ⟨s.u, ?_⟩
      rw [← h5]
      have : s.time ≤ T - 1e-12 := h1
      linarith
    · exact g2 h0
  | throws => cases ho

/-- C58: with a local time step bounded away from zero the loop ends, for the available orders. -/
theorem C58_time_loop_ends {q : ℤ} (hq : q = 1 ∨ q = 2 ∨ q = 3) (f : V → V) {dtm : V → ℝ} {cfl d : ℝ} (hd : 0 < d) (hdt : ∀ u, d ≤ dtm u) (hc : 0 < cfl) (T : ℝ) (s : TMem V) :
    ∃ n t, Loop (tcond T) (tbody q f dtm cfl) s n (some t) := by
  have key : ∀ (m : ℕ) (s : TMem V), T < s.time + m * (d * cfl) → ∃ n t, Loop (tcond T) (tbody q f dtm cfl) s n (some t) := by
    intro m
    induction m with
    | zero =>
      intro s hs
      refine ⟨0, s, .done fun h => ?_⟩
      have : s.time ≤ T - 1e-12 := h
      norm_num at this hs
      linarith
    | succ m ih =>
      intro s hs
      by_cases hcond : tcond T s
      · have hb : ∃ s', tbody q f dtm cfl s = some s' ∧ s'.time = s.time + dtm s.u * cfl := by
          unfold tbody
          dsimp only
          rw [C58_step hq, if_pos (by omega)]
          exact ⟨_, rfl, rfl⟩
        obtain ⟨s', h1, h2⟩ := hb
        obtain ⟨n, t, h3⟩ := ih s' (by
          rw [h2]
          have := mul_le_mul_of_nonneg_right (hdt s.u) hc.le
          push_cast at hs
          linarith)
        exact ⟨n + 1, t, .step hcond h1 h3⟩
      · exact ⟨0, s, .done hcond⟩
  obtain ⟨m, hm⟩ := exists_nat_gt ((T - s.time) / (d * cfl))
  refine key m s ?_
  rw [div_lt_iff₀ (mul_pos hd hc)] at hm
  linarith

/-- C58: order zero is accepted and never ends. -/
theorem C58_order_zero_diverges (f : V → V) (dtm : V → ℝ) (cfl : ℝ) {T : ℝ} {s : TMem V} (h : s.time ≤ T - 1e-12) (n : ℕ) (o : Option (TMem V)) :
    ¬ Loop (tcond T) (tbody 0 f dtm cfl) s n o := by
  intro hl
  have hb : ∀ s : TMem V, tbody 0 f dtm cfl s = some s := fun s => by
    simp [tbody, rkStep, tvdrk, stages]
  induction hl with
  | done h1 => exact h1 h
  | step h1 h2 _ ih =>
    rw [hb] at h2
    cases h2
    exact ih h
  | throws _ h2 => rw [hb] at h2; cases h2

/-- Concrete case: from time 0 to 1 with steps of one half, order 2. -/
example : (∃ n t, Loop (tcond 1) (tbody 2 (fun x : ℝ => x) (fun _ => 1) (1/2)) ⟨1, 0⟩ n (some t)) ∧ ((⟨1, 0⟩ : TMem ℝ).time ≤ 1 - 1e-12) :=
  ⟨C58_time_loop_ends (by norm_num) _ one_pos (fun _ => le_rfl) (by norm_num) _ _, by norm_num⟩

end Ode
end FVENS
