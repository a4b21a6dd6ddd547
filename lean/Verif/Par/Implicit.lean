import Verif.Par.Steady
import Verif.Par.Matrix
import Verif.Lin.Matrix
import Mathlib.LinearAlgebra.FiniteDimensional.Basic

/-!
# Implicit steady solver (C96)

`SteadyBackwardEulerSolver` with the first-order discretisation and an assembled matrix. The linear solver (PETSc's KSP, outside /repo) is an unknown function of matrix
and right-hand side; theorems that need it assume that it solves systems with a regular matrix exactly. The matrix-free variant is not modelled here (see C60).
-/

namespace FVENS
namespace Par

open Msh FV Flux Ode Lin
open Finset (range sum_eq_zero sum_congr)

/-! ### Specification: systems of block equations -/

/-- Block row `i` of a matrix with `N` block columns times a vector. -/
noncomputable def mulRow (N : ℕ) (A : ℕ × ℕ → Blk (Fin 4)) (x : ℕ → St) (i : ℕ) : St := fun v => ∑ q ∈ range N, ∑ c, A (i, q) v c * x q c

/-- Only the zero vector is mapped to zero. -/
def Regular (N : ℕ) (A : ℕ × ℕ → Blk (Fin 4)) : Prop := ∀ x : ℕ → St, (∀ i, i < N → mulRow N A x i = 0) → ∀ i, i < N → x i = 0

/-- A linear solver that solves every system with a regular matrix of `N` block rows. -/
def Exact (N : ℕ) (ksp : (ℕ × ℕ → Blk (Fin 4)) → (ℕ → St) → ℕ → St) : Prop :=
  ∀ A b, Regular N A → ∀ i, i < N → mulRow N A (ksp A b) i = b i

/-! ### Model -/

/-- What one process has added to a block when the system matrix is complete: `assemble_jacobian` on a zeroed matrix (src/ode/aodesolver.cpp:455-456), then the pseudo-time
term with the time steps of the residual evaluation (450, 467). `gcol` are the row and column numbers of `assemble_jacobian`, `glob` those of the pseudo-time loop. -/
noncomputable def sysPart (D : Disc) (J : St → St → V2 → FJ) (gcol : ℕ → Option ℕ) (glob : ℕ → ℕ) (u : ℕ → St) (o : Disc.Out) (cfl : ℝ) (x : ℕ × ℕ) : Blk (Fin 4) :=
  D.jacSum J gcol u x + ∑ l ∈ range D.G.m.nelem, amtAt x (pseudoUpds glob (pseudoDt D.G.ar (D.timestep o.uL o.uR) cfl) l)

/-- System matrix of a single process. -/
noncomputable def sysOne (D : Disc) (J : St → St → V2 → FJ) (u : ℕ → St) (o : Disc.Out) (cfl : ℝ) : ℕ × ℕ → Blk (Fin 4) := sysPart D J (oneCol D.G.m) id u o cfl

/-- Update of the cells of one process, src/ode/aodesolver.cpp:505-510: `relax` is `getLocalRelaxationFactor`, `1` for `FullUpdate` (src/ode/nonlinearrelaxation.hpp) and
`Ode.relaxFactor` for `FlowSimpleUpdate`. -/
noncomputable def relaxed (N : ℕ) (relax : St → St → ℝ) (du u : ℕ → St) : ℕ → St := fun l =>
  if l < N then fun v => u l v + relax (du l) (u l) * du l v else u l

open Classical in
/-- One iteration of the implicit solver on one process, src/ode/aodesolver.cpp:420-530: residual from zero, system matrix, linear solve, relaxed update, norm of the residual.
No norm where the discretisation gives no residual or a boundary condition has no Jacobian. -/
noncomputable def implicit (D : Disc) (J : St → St → V2 → FJ) (relax : St → St → ℝ) (ksp : (ℕ × ℕ → Blk (Fin 4)) → (ℕ → St) → ℕ → St) : Prob (ℕ → St) where
  norm := fun u => if D.BcJOk then (single D).norm u else none
  nonneg := fun u r h => by
    split_ifs at h
    exact (single D).nonneg u r h
  upd := fun cfl u => match D.residual1 u 0 with
    | some o => relaxed D.G.m.nelem relax (ksp (sysOne D J u o cfl) o.res) u
    | none => u

/-! ### Linear algebra -/

section lin
variable {N : ℕ} {A B : ℕ × ℕ → Blk (Fin 4)}

theorem mulRow_congr {x y : ℕ → St} {i j : ℕ} (hA : ∀ q, q < N → A (i, q) = B (j, q)) (h : ∀ q, q < N → x q = y q) : mulRow N A x i = mulRow N B y j := by
  funext v
  unfold mulRow
  refine sum_congr rfl fun q hq => sum_congr rfl fun c _ => ?_
  rw [hA q (Finset.mem_range.1 hq), h q (Finset.mem_range.1 hq)]

theorem mulRow_sub (x y : ℕ → St) (i : ℕ) : mulRow N A (fun q => x q - y q) i = mulRow N A x i - mulRow N A y i := by
  funext v
  simp only [mulRow, Pi.sub_apply, mul_sub, Finset.sum_sub_distrib]

theorem Regular.unique (h : Regular N A) {x y : ℕ → St} (e : ∀ i, i < N → mulRow N A x i = mulRow N A y i) {i : ℕ} (hi : i < N) : x i = y i := by
  have := h (fun q => x q - y q) (fun j hj => by rw [mulRow_sub, e j hj, sub_self]) i hi
  exact sub_eq_zero.1 this

theorem Regular.congr (h : Regular N A) (e : ∀ i q, i < N → q < N → A (i, q) = B (i, q)) : Regular N B := fun x hx =>
  h x fun i hi => by rw [← hx i hi]; exact mulRow_congr (fun q hq => e i q hi hq) fun _ _ => rfl

/-- A regular system has a solution for every right-hand side. -/
theorem Regular.solvable (h : Regular N A) (b : ℕ → St) : ∃ x, ∀ i, i < N → mulRow N A x i = b i := by
  let ext : (Fin N → St) → ℕ → St := fun y q => if hq : q < N then y ⟨q, hq⟩ else 0
  have hext : ∀ (y : Fin N → St) (q : ℕ) (hq : q < N), ext y q = y ⟨q, hq⟩ := fun y q hq => dif_pos hq
  let f : (Fin N → St) →ₗ[ℝ] (Fin N → St) :=
    { toFun := fun y i => mulRow N A (ext y) i
      map_add' := fun y z => by
        funext i v
        simp only [mulRow, Pi.add_apply, ← Finset.sum_add_distrib]
        refine sum_congr rfl fun q hq => sum_congr rfl fun c _ => ?_
        rw [hext _ q (Finset.mem_range.1 hq), hext _ q (Finset.mem_range.1 hq), hext _ q (Finset.mem_range.1 hq), Pi.add_apply, Pi.add_apply, mul_add]
      map_smul' := fun a y => by
        funext i v
        simp only [mulRow, Pi.smul_apply, smul_eq_mul, RingHom.id_apply, Finset.mul_sum]
        refine sum_congr rfl fun q hq => sum_congr rfl fun c _ => ?_
        rw [hext _ q (Finset.mem_range.1 hq), hext _ q (Finset.mem_range.1 hq), Pi.smul_apply, Pi.smul_apply, smul_eq_mul]
        ring }
  have hinj : Function.Injective f := by
    rw [← LinearMap.ker_eq_bot, LinearMap.ker_eq_bot']
    intro y hy
    funext i
    have := h (ext y) (fun j hj => congrFun hy ⟨j, hj⟩) i i.2
    rwa [hext y i i.2] at this
  obtain ⟨y, hy⟩ := LinearMap.injective_iff_surjective.1 hinj fun i => b i
  exact ⟨ext y, fun i hi => congrFun hy ⟨i, hi⟩⟩

/-- There is an exact linear solver. -/
theorem exact_exists (N : ℕ) : ∃ ksp, Exact N ksp := by
  classical
  refine ⟨fun A b => if h : Regular N A then (h.solvable b).choose else 0, fun A b h i hi => ?_⟩
  simp only [dif_pos h]
  exact (h.solvable b).choose_spec i hi

theorem mulRow_zero (i : ℕ) : mulRow N A (fun _ => 0) i = 0 := by
  funext v; simp [mulRow]

end lin

/-! ### The system matrix -/

section matrix
variable {D : Disc} {J : St → St → V2 → FJ} {u : ℕ → St} {o : Disc.Out} {cfl : ℝ}

/-- C96: whatever the numbers of threads and the schedules of the two loops, the blocks that a process adds are those of `sysPart`. -/
theorem C96_schedule (h : D.G.Ok) {gcol : ℕ → Option ℕ} {glob : ℕ → ℕ} {nt nt' : ℕ} {A1 A : ℕ × ℕ → Blk (Fin 4)}
    (h1 : D.AssembleFlow J gcol u nt (fun _ => 0) A1)
    (h2 : ParLoop nt' A1 (List.range D.G.m.nelem) (pseudoUpds glob (pseudoDt D.G.ar (D.timestep o.uL o.uR) cfl)) A) (x : ℕ × ℕ) :
    A x = sysPart D J gcol glob u o cfl x := by
  rw [parLoop_det h2 (fun k _ y hy hya => by
    simp only [pseudoUpds, List.mem_singleton] at hy
    rw [hy] at hya; cases hya), Disc.assembleFlow_eq h h1, zero_add, sysPart, ← List.sum_toFinset _ List.nodup_range, List.toFinset_range]

theorem amtAt_pseudo (glob : ℕ → ℕ) (d : ℕ → ℝ) (l : ℕ) (x : ℕ × ℕ) : amtAt x (pseudoUpds (nv := 4) glob d l) =
    if (glob l, glob l) = x then (fun i j => d l * (if i = j then 1 else 0) : Blk (Fin 4)) else 0 := by
  simp [amtAt, pseudoUpds]

/-- Product with the system matrix of a single process: the Jacobian's product plus area over time step times the vector. -/
theorem sysOne_mulRow (x : ℕ → St) {i : ℕ} (hi : i < D.G.m.nelem) (v : Fin 4) : mulRow D.G.m.nelem (sysOne D J u o cfl) x i v =
    mulRow D.G.m.nelem (D.jacSum J (oneCol D.G.m) u) x i v + D.G.ar i / (cfl * D.timestep o.uL o.uR i) * x i v := by
  have hps : ∀ q, (∑ l ∈ range D.G.m.nelem, amtAt (i, q) (pseudoUpds (nv := 4) id (pseudoDt D.G.ar (D.timestep o.uL o.uR) cfl) l)) =
      if q = i then (fun a b => pseudoDt D.G.ar (D.timestep o.uL o.uR) cfl i * (if a = b then 1 else 0) : Blk (Fin 4)) else 0 := fun q => by
    rw [Finset.sum_eq_single i]
    · rw [amtAt_pseudo]
      by_cases hq : q = i
      · rw [if_pos hq, if_pos (by rw [hq]; rfl)]
      · rw [if_neg hq, if_neg (by rintro e; exact hq (Prod.mk.inj e).2.symm)]
    · intro l _ hne
      rw [amtAt_pseudo, if_neg (by rintro e; exact hne (Prod.mk.inj e).1)]
    · exact fun hc => absurd (Finset.mem_range.2 hi) hc
  unfold mulRow sysOne sysPart
  simp only [hps, Pi.add_apply, add_mul, Finset.sum_add_distrib]
  congr 1
  rw [Finset.sum_eq_single i]
  · simp only [if_true]
    rw [Finset.sum_eq_single v]
    · simp [pseudoDt]
    · intro b _ hne
      rw [if_neg (Ne.symm hne)]; ring
    · simp
  · intro q _ hne
    rw [if_neg hne]; simp
  · exact fun hc => absurd (Finset.mem_range.2 hi) hc

/-! ### Fixed points -/

/-- C96: with a regular system matrix, an exact linear solver and relaxation factors other than zero, an implicit update leaves the state unchanged exactly where the residual
vanishes in every cell. -/
theorem C96_steady_iff (hb : D.BcOk) {relax : St → St → ℝ} (hr : ∀ du i, i < D.G.m.nelem → relax du (u i) ≠ 0)
    {ksp : (ℕ × ℕ → Blk (Fin 4)) → (ℕ → St) → ℕ → St} (hk : Exact D.G.m.nelem ksp)
    (hreg : ∀ o, D.residual1 u 0 = some o → Regular D.G.m.nelem (sysOne D J u o cfl)) : (implicit D J relax ksp).upd cfl u = u ↔ IsSteady D u := by
  obtain ⟨o, ho⟩ : ∃ o, D.residual1 u 0 = some o := ⟨_, by unfold Disc.residual1; rw [if_pos hb]⟩
  have hR := hreg o ho
  have hx := hk _ o.res hR
  have he : (implicit D J relax ksp).upd cfl u = relaxed D.G.m.nelem relax (ksp (sysOne D J u o cfl) o.res) u := by simp only [implicit, ho]
  rw [he]
  constructor
  · intro hu
    refine ⟨o, ho, fun i hi => ?_⟩
    have hz : ∀ q, q < D.G.m.nelem → ksp (sysOne D J u o cfl) o.res q = 0 := fun q hq => by
      have h1 := congrFun hu q
      simp only [relaxed, if_pos hq] at h1
      funext v
      have h2 : relax (ksp (sysOne D J u o cfl) o.res q) (u q) * ksp (sysOne D J u o cfl) o.res q v = 0 := by
        have := congrFun h1 v
        linarith
      exact (mul_eq_zero.1 h2).resolve_left (hr _ q hq)
    rw [← hx i hi, mulRow_congr (B := sysOne D J u o cfl) (y := fun _ => 0) (fun _ _ => rfl) hz, mulRow_zero]
  · rintro ⟨o', ho', hz⟩
    rw [ho] at ho'; cases ho'
    have h0 := hR _ fun i hi => (hx i hi).trans (hz i hi)
    funext i
    unfold relaxed
    split_ifs with hi
    · rw [h0 i hi]; simp
    · rfl

/-! ### Small CFL numbers -/

theorem exists_pos_le (n : ℕ) {f : ℕ → ℝ} (h : ∀ i, i < n → 0 < f i) : ∃ c, 0 < c ∧ ∀ i, i < n → c ≤ f i := by
  induction n with
  | zero => exact ⟨1, one_pos, fun i hi => absurd hi (Nat.not_lt_zero i)⟩
  | succ n ih =>
    obtain ⟨c, h1, h2⟩ := ih fun i hi => h i (by omega)
    refine ⟨min c (f n), lt_min h1 (h n (by omega)), fun i hi => ?_⟩
    rcases Nat.lt_succ_iff_lt_or_eq.1 hi with h3 | rfl
    · exact (min_le_left _ _).trans (h2 i h3)
    · exact min_le_right _ _

theorem exists_bound (N : ℕ) (x : ℕ → St) : ∃ m, 0 ≤ m ∧ (∀ i, i < N → ∀ v, |x i v| ≤ m) ∧ (m = 0 ∨ ∃ i, i < N ∧ ∃ v, |x i v| = m) := by
  induction N with
  | zero => exact ⟨0, le_rfl, fun i hi => absurd hi (Nat.not_lt_zero i), .inl rfl⟩
  | succ N ih =>
    obtain ⟨m, h0, h1, h2⟩ := ih
    obtain ⟨v, hv⟩ : ∃ v, ∀ w, |x N w| ≤ |x N v| := Finite.exists_max fun w => |x N w|
    by_cases hm : |x N v| ≤ m
    · refine ⟨m, h0, fun i hi w => ?_, h2.imp id fun ⟨i, hi, w, e⟩ => ⟨i, by omega, w, e⟩⟩
      rcases Nat.lt_succ_iff_lt_or_eq.1 hi with h3 | rfl
      · exact h1 i h3 w
      · exact (hv w).trans hm
    · refine ⟨|x N v|, abs_nonneg _, fun i hi w => ?_, .inr ⟨N, by omega, v, rfl⟩⟩
      rcases Nat.lt_succ_iff_lt_or_eq.1 hi with h3 | rfl
      · exact (h1 i h3 w).trans (not_le.1 hm).le
      · exact hv w

theorem mulRow_bound (N : ℕ) (A : ℕ × ℕ → Blk (Fin 4)) : ∃ M, 0 ≤ M ∧ ∀ (x : ℕ → St) (m : ℝ), (∀ i, i < N → ∀ v, |x i v| ≤ m) → 0 ≤ m →
    ∀ i, i < N → ∀ v, |mulRow N A x i v| ≤ M * m := by
  refine ⟨∑ i ∈ range N, ∑ v, ∑ q ∈ range N, ∑ c, |A (i, q) v c|, by positivity, fun x m hx hm i hi v => ?_⟩
  have h1 : |mulRow N A x i v| ≤ (∑ q ∈ range N, ∑ c, |A (i, q) v c|) * m := by
    unfold mulRow
    rw [Finset.sum_mul]
    refine (Finset.abs_sum_le_sum_abs _ _).trans (Finset.sum_le_sum fun q hq => ?_)
    rw [Finset.sum_mul]
    refine (Finset.abs_sum_le_sum_abs _ _).trans (Finset.sum_le_sum fun c _ => ?_)
    rw [abs_mul]
    exact mul_le_mul_of_nonneg_left (hx q (Finset.mem_range.1 hq) c) (abs_nonneg _)
  refine h1.trans (mul_le_mul_of_nonneg_right ?_ hm)
  refine le_trans (Finset.single_le_sum (f := fun v => ∑ q ∈ range N, ∑ c, |A (i, q) v c|) (fun w _ => by positivity) (Finset.mem_univ v)) ?_
  exact Finset.single_le_sum (f := fun i => ∑ v, ∑ q ∈ range N, ∑ c, |A (i, q) v c|) (fun w _ => by positivity) (Finset.mem_range.2 hi)

/-- C96: for positive areas and time steps and any Jacobian routine, right or wrong: at all small enough CFL numbers the system matrix is regular, and its solution is the
explicit update up to an error of the order of the square of the CFL number. -/
theorem C96_small_cfl (D : Disc) (J : St → St → V2 → FJ) (u : ℕ → St) (o : Disc.Out) (har : ∀ i, i < D.G.m.nelem → 0 < D.G.ar i)
    (hdt : ∀ i, i < D.G.m.nelem → 0 < D.timestep o.uL o.uR i) :
    ∃ c0 C, 0 < c0 ∧ ∀ cfl, 0 < cfl → cfl ≤ c0 → Regular D.G.m.nelem (sysOne D J u o cfl) ∧
      ∀ du, (∀ i, i < D.G.m.nelem → mulRow D.G.m.nelem (sysOne D J u o cfl) du i = o.res i) →
        ∀ i, i < D.G.m.nelem → ∀ v, |du i v - cfl * D.timestep o.uL o.uR i / D.G.ar i * o.res i v| ≤ C * cfl ^ 2 := by
  obtain ⟨M, hM, hbound⟩ := mulRow_bound D.G.m.nelem (D.jacSum J (oneCol D.G.m) u)
  obtain ⟨d, hd, hle⟩ := exists_pos_le D.G.m.nelem (f := fun i => D.G.ar i / D.timestep o.uL o.uR i) fun i hi => div_pos (har i hi) (hdt i hi)
  obtain ⟨R, hR, hres, -⟩ := exists_bound D.G.m.nelem o.res
  have key : ∀ cfl, 0 < cfl → ∀ x : ℕ → St, ∀ i, i < D.G.m.nelem → ∀ v, x i v = cfl * D.timestep o.uL o.uR i / D.G.ar i *
      (mulRow D.G.m.nelem (sysOne D J u o cfl) x i v - mulRow D.G.m.nelem (D.jacSum J (oneCol D.G.m) u) x i v) := fun cfl hc x i hi v => by
    rw [sysOne_mulRow x hi v]
    have := (har i hi).ne'; have := (hdt i hi).ne'; have := hc.ne'
    field_simp
    ring
  have hfac : ∀ cfl, 0 < cfl → ∀ i, i < D.G.m.nelem → 0 ≤ cfl * D.timestep o.uL o.uR i / D.G.ar i ∧ cfl * D.timestep o.uL o.uR i / D.G.ar i ≤ cfl / d := fun cfl hc i hi => by
    have h1 := har i hi; have h2 := hdt i hi
    refine ⟨by positivity, ?_⟩
    rw [mul_div_assoc, div_eq_mul_inv cfl d]
    refine mul_le_mul_of_nonneg_left ?_ hc.le
    rw [← one_div, div_le_div_iff₀ h1 hd]
    have := hle i hi
    rw [le_div_iff₀ h2] at this
    linarith
  refine ⟨d / (2 * (M + 1)), 2 * M * R / d ^ 2, by positivity, fun cfl hc hc0 => ?_⟩
  have hcM : cfl / d * M ≤ 1 / 2 := by
    rw [le_div_iff₀ (by positivity)] at hc0
    rw [div_mul_eq_mul_div, div_le_iff₀ hd]
    nlinarith
  constructor
  · intro x hx
    obtain ⟨m, h0, h1, h2⟩ := exists_bound D.G.m.nelem x
    have hm0 : m = 0 := by
      rcases h2 with h2 | ⟨i, hi, v, e⟩
      · exact h2
      · have h3 := key cfl hc x i hi v
        rw [hx i hi, Pi.zero_apply, zero_sub] at h3
        have h4 := hbound x m h1 h0 i hi v
        have h5 : m ≤ cfl / d * (M * m) := by
          rw [← e]; nth_rewrite 1 [h3]
          rw [abs_mul, abs_neg, abs_of_nonneg (hfac cfl hc i hi).1, e]
          exact mul_le_mul (hfac cfl hc i hi).2 h4 (abs_nonneg _) (by positivity)
        nlinarith
    intro i hi
    funext v
    have := h1 i hi v
    rw [hm0] at this
    exact abs_eq_zero.1 (le_antisymm this (abs_nonneg _))
  · intro du hdu i hi v
    obtain ⟨m, h0, h1, h2⟩ := exists_bound D.G.m.nelem du
    have hm : m ≤ 2 * (cfl / d * R) := by
      rcases h2 with h2 | ⟨j, hj, w, e⟩
      · rw [h2]; positivity
      · have h3 := key cfl hc du j hj w
        rw [hdu j hj] at h3
        have h4 := hbound du m h1 h0 j hj w
        have h5 : m ≤ cfl / d * (R + M * m) := by
          rw [← e]; nth_rewrite 1 [h3]
          rw [abs_mul, abs_of_nonneg (hfac cfl hc j hj).1, e]
          refine mul_le_mul (hfac cfl hc j hj).2 ?_ (abs_nonneg _) (by positivity)
          exact (abs_sub _ _).trans (add_le_add (hres j hj w) h4)
        nlinarith
    have h3 := key cfl hc du i hi v
    rw [hdu i hi] at h3
    have h4 : du i v - cfl * D.timestep o.uL o.uR i / D.G.ar i * o.res i v =
        -(cfl * D.timestep o.uL o.uR i / D.G.ar i * mulRow D.G.m.nelem (D.jacSum J (oneCol D.G.m) u) du i v) := by
      nth_rewrite 1 [h3]; ring
    rw [h4, abs_neg, abs_mul, abs_of_nonneg (hfac cfl hc i hi).1]
    calc _ ≤ cfl / d * (M * m) := mul_le_mul (hfac cfl hc i hi).2 (hbound du m h1 h0 i hi v) (abs_nonneg _) (by positivity)
      _ ≤ cfl / d * (M * (2 * (cfl / d * R))) := by gcongr
      _ = 2 * M * R / d ^ 2 * cfl ^ 2 := by ring

/-- From admissible states the system matrix is regular at all small enough CFL numbers. -/
theorem regular_small (h : D.G.Ok) (hD : Disc.GasOk D) (hb : D.BcOk) (hu : ∀ i, i < D.G.m.nelem → Adm D.gas (u i))
    (har : ∀ i, i < D.G.m.nelem → 0 < D.G.ar i) (J : St → St → V2 → FJ) :
    ∃ c0, 0 < c0 ∧ ∀ cfl, 0 < cfl → cfl ≤ c0 → ∀ o, D.residual1 u 0 = some o → Regular D.G.m.nelem (sysOne D J u o cfl) := by
  obtain ⟨o, ho, hL, hR⟩ : ∃ o, D.residual1 u 0 = some o ∧ (∀ k, o.uL k = u (D.G.face k).left) ∧ ∀ k, D.G.m.nbface ≤ k → o.uR k = u (D.G.face k).right :=
    ⟨_, by unfold Disc.residual1; rw [if_pos hb], fun _ => rfl, fun k hk => by dsimp only; rw [if_neg (not_lt.2 hk)]⟩
  obtain ⟨c0, C, hc, hr⟩ := C96_small_cfl D J u o har fun i hi => (Disc.C51_positive_bounded h hD (fun k hk => by rw [hL]; exact hu _ (h.kind hk).1)
    (fun k hk hin => by rw [hR k hin.1]; exact hu _ ((h.kind hk).2.2.2.1.1 hin)) hi (har i hi)).1
  refine ⟨c0, hc, fun cfl h1 h2 o ho' => ?_⟩
  rw [ho] at ho'
  cases ho'
  exact (hr cfl h1 h2).1

end matrix

/-! ### Concrete cases -/

theorem air1_gasOk (s : FState) : Disc.GasOk ((air1 (rest 1)).disc FV.Geo.cross s 0) :=
  ⟨by norm_num [air1, Settings.disc, air], by norm_num [air1, Settings.disc, air], by norm_num [air1, Settings.disc, air], by norm_num [air1, Settings.disc, air]⟩

/-- The square cut by its diagonals, a gas at rest that is denser in one cell: at small CFL numbers an implicit iteration of the code with the relaxation of `FlowSimpleUpdate`
changes the state, but none started in the far field. -/
example : ∃ s, topological FV.Geo.cross = .ok s ∧ ∀ ksp, Exact 4 ksp → ∃ c0, 0 < c0 ∧ ∀ cfl, 0 < cfl → cfl ≤ c0 →
    (implicit ((air1 (rest 1)).disc FV.Geo.cross s 0) (llfJac air) (relaxFactor air (1 / 2)) ksp).upd cfl bump ≠ bump ∧
    (implicit ((air1 (rest 1)).disc FV.Geo.cross s 0) (llfJac air) (relaxFactor air (1 / 2)) ksp).upd cfl (fun _ => rest 1) = fun _ => rest 1 := by
  obtain ⟨s, hs, hf⟩ := FV.Geo.cross_topological
  refine ⟨s, hs, fun ksp hk => ?_⟩
  set D := (air1 (rest 1)).disc FV.Geo.cross s 0 with hD
  have hok : D.G.Ok := ⟨cross_conforming, FV.Geo.cross_nozero, hs⟩
  have hb : D.BcOk := fun k _ => rfl
  have hne : D.G.m.nelem = 4 := by show FV.Geo.cross.nelem = 4; decide +kernel
  have har : ∀ i, i < D.G.m.nelem → 0 < D.G.ar i := fun i hi => by rw [hD, cross_area (by omega)]; norm_num
  have hr : ∀ (u : ℕ → St), ∀ du i, i < D.G.m.nelem → relaxFactor air (1 / 2) du (u i) ≠ 0 := fun u du i _ => by
    unfold relaxFactor
    dsimp only
    split_ifs with hlt
    · intro e; linarith
    · norm_num
  obtain ⟨c1, h1, r1⟩ := regular_small (u := bump) hok (air1_gasOk s) hb (fun i _ => bump_adm i) har (llfJac air)
  obtain ⟨c2, h2, r2⟩ := regular_small (u := fun _ => rest 1) hok (air1_gasOk s) hb (fun i _ => rest_adm one_pos) har (llfJac air)
  rw [← hne] at hk
  refine ⟨min c1 c2, lt_min h1 h2, fun cfl hc hc' => ⟨fun e => ?_, ?_⟩⟩
  · obtain ⟨o', ho', hz⟩ := (C96_steady_iff hb (hr bump) hk (r1 cfl hc (hc'.trans (min_le_left _ _)))).1 e
    obtain ⟨o, ho, hpos, -⟩ := cross_interleaved hs hf 0
    rw [ho] at ho'; cases ho'
    have := congrFun (hz 0 (by rw [hne]; norm_num)) 0
    rw [this] at hpos
    exact lt_irrefl _ hpos
  · exact (C96_steady_iff hb (hr fun _ => rest 1) hk (r2 cfl hc (hc'.trans (min_le_right _ _)))).2
      (C95_free_stream (D := D) hok (rest_adm one_pos) (fun _ _ => rfl) (fun _ _ => rfl)).1

end Par
end FVENS
