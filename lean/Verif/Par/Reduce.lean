import Verif.Par.ImplicitRun

/-!
# Global sums and their buffers (C120)

`MPI_Allreduce` reads one buffer and writes another. MPI says what it does only if the two do not overlap (MPI 3.1, 2.3 and 5.9.6; there is a special argument for reduction in place). Here an
implementation is anything that does what MPI says where MPI says it; the results of the code are computed with an arbitrary one.
-/

namespace FVENS
namespace Par

open Ode

/-- Memory of each of `n` processes. -/
abbrev Store (n : ℕ) := Fin n → ℕ → ℝ

/-- An implementation of `MPI_Allreduce(send, recv, count, …, MPI_SUM, …)`, called alike by all processes: memory afterwards. -/
abbrev Reduce (n : ℕ) := ℕ → ℕ → ℕ → Store n → Store n

/-- `a` is in the buffer of `count` numbers at `x`. -/
def InBuf (x count a : ℕ) : Prop := x ≤ a ∧ a < x + count

/-- What MPI says: if the buffers do not overlap the receive buffer of every process gets the sums, and nothing else changes. -/
def Conforms {n : ℕ} (A : Reduce n) : Prop := ∀ x y count m, (∀ a, ¬ (InBuf x count a ∧ InBuf y count a)) →
  ∀ r, (∀ i, i < count → A x y count m r (y + i) = ∑ q, m q (x + i)) ∧ ∀ a, ¬ InBuf y count a → A x y count m r a = m r a

/-- An implementation that also allows the two buffers to be the same; MPI does not ask for this. -/
def AllowsSame {n : ℕ} (A : Reduce n) : Prop := ∀ x count m r i, i < count → A x x count m r (x + i) = ∑ q, m q (x + i)

section code
variable {n : ℕ} (A : Reduce n)

/-- Sum of the explicit solver, src/ode/aodesolver.cpp:226-227: `locresenergy` at address 0, `glres` at address 1. -/
def sumDistinct (e : Fin n → ℝ) (r : Fin n) : ℝ := A 0 1 1 (fun q a => if a = 0 then e q else 0) r 1

/-- `mpi_all_reduce`, src/utilities/mpiutils.cpp:15-18, of an array of `count` numbers at address 0. -/
def mpiAllReduce (count : ℕ) (v : Fin n → ℕ → ℝ) (r : Fin n) (i : ℕ) : ℝ := A 0 0 count v r i

/-- Sum of the implicit solver, src/ode/aodesolver.cpp:528: `resnorm2` at address 0. -/
def sumSame (e : Fin n → ℝ) (r : Fin n) : ℝ := A 0 0 1 (fun q _ => e q) r 0

/-- Residual norm of the explicit solver on process `r`, src/ode/aodesolver.cpp:227-230. -/
noncomputable def explicitNorm (e : Fin n → ℝ) (r : Fin n) : Option ℝ := rootOf (sumDistinct A e r)

/-- Residual norm of the implicit solver on process `r`, src/ode/aodesolver.cpp:528-532. -/
noncomputable def implicitNorm (e : Fin n → ℝ) (r : Fin n) : Option ℝ := rootOf (sumSame A e r)

/-- Lift, pressure drag and friction drag on process `r` from the sums `(Cl, Cdp, Cdf, area)` of each process, src/spatial/flow_spatial.cpp:302-307. -/
noncomputable def coefficients (f : Fin n → Fin 4 → ℝ) (r : Fin n) : Fin 3 → ℝ :=
  let g := mpiAllReduce A 4 (fun q i => if h : i < 4 then f q ⟨i, h⟩ else 0) r
  fun i => g i / g 3

/-- Entropy error on process `r` from the sums over the cells of each process, src/spatial/aoutput.cpp:50-51. -/
noncomputable def entropyError (e : Fin n → ℝ) (r : Fin n) : ℝ := Real.sqrt (mpiAllReduce A 1 (fun q _ => e q) r 0)

end code

/-- A straightforward implementation: clear the receive buffer, then add the contributions of all processes to it. -/
noncomputable def clearAdd (n : ℕ) : Reduce n := fun x y count m r a =>
  open Classical in
  let z : Store n := fun q b => if InBuf y count b then 0 else m q b
  if InBuf y count a then 0 + ∑ q, z q (x + (a - y)) else m r a

/-- An implementation that copies the send buffer first. -/
noncomputable def copyAdd (n : ℕ) : Reduce n := fun x y count m r a =>
  open Classical in
  if InBuf y count a then ∑ q, m q (x + (a - y)) else m r a

theorem clearAdd_conforms (n : ℕ) : Conforms (clearAdd n) := by
  intro x y count m hxy r
  refine ⟨fun i hi => ?_, fun a ha => ?_⟩
  · have hin : InBuf y count (y + i) := ⟨by omega, by omega⟩
    have hno : ¬ InBuf y count (x + i) := fun h => hxy _ ⟨⟨by omega, by omega⟩, h⟩
    simp [clearAdd, hin, hno]
  · simp [clearAdd, ha]

theorem copyAdd_conforms (n : ℕ) : Conforms (copyAdd n) ∧ AllowsSame (copyAdd n) := by
  refine ⟨fun x y count m _ r => ⟨fun i hi => ?_, fun a ha => ?_⟩, fun x count m r i hi => ?_⟩
  · have hin : InBuf y count (y + i) := ⟨by omega, by omega⟩
    simp [copyAdd, hin]
  · simp [copyAdd, ha]
  · have hin : InBuf x count (x + i) := ⟨by omega, by omega⟩
    simp [copyAdd, hin]

section props
variable {n : ℕ} {A : Reduce n}

/-- C120 for the explicit solver: with every conforming implementation every process gets the norm of the residuals of all. -/
theorem C120_explicit (hA : Conforms A) (e : Fin n → ℝ) (r : Fin n) : explicitNorm A e r = rootOf (∑ q, e q) := by
  unfold explicitNorm sumDistinct
  have := (hA 0 1 1 (fun q a => if a = 0 then e q else 0) (fun a h => by
    have h1 := h.1.2; have h2 := h.2.1; omega) r).1 0 (by omega)
  simp only [add_zero, if_true] at this
  rw [this]

/-- C120 for the sums over one buffer: the implicit solver's norm, force coefficients and entropy error are those of all processes together, if the implementation allows the buffers to be the
same. Missing for the full claim: the other implementations, for which it fails (`C120_refuted`). -/
theorem C120_same_partial (hA : AllowsSame A) (r : Fin n) :
    (∀ e : Fin n → ℝ, implicitNorm A e r = rootOf (∑ q, e q)) ∧
    (∀ f : Fin n → Fin 4 → ℝ, ∀ i : Fin 3, coefficients A f r i = (∑ q, f q i.castSucc) / ∑ q, f q 3) ∧
    ∀ e : Fin n → ℝ, entropyError A e r = Real.sqrt (∑ q, e q) := by
  refine ⟨fun e => ?_, fun f i => ?_, fun e => ?_⟩
  · have := hA 0 1 (fun q _ => e q) r 0 (by omega)
    simp only [add_zero] at this
    rw [implicitNorm, sumSame, this]
  · have key : ∀ j : Fin 4, A 0 0 4 (fun q i => if h : i < 4 then f q ⟨i, h⟩ else 0) r j = ∑ q, f q j := fun j => by
      have := hA 0 4 (fun q i => if h : i < 4 then f q ⟨i, h⟩ else 0) r j j.2
      simp only [zero_add, j.2, dif_pos] at this
      exact this
    simp only [coefficients, mpiAllReduce]
    have k1 := key i.castSucc
    have k3 := key 3
    rw [Fin.val_castSucc] at k1
    rw [show ((3 : Fin 4) : ℕ) = 3 from rfl] at k3
    rw [k1, k3]
  · have := hA 0 1 (fun q _ => e q) r 0 (by omega)
    simp only [add_zero] at this
    rw [entropyError, mpiAllReduce, this]

/-- C120, exact condition for the implicit solver's norm: it is right for all residuals exactly if the implementation sums in place a single number as well (up to sums that are both negative). -/
theorem C120_implicit_iff : (∀ (e : Fin n → ℝ) r, implicitNorm A e r = rootOf (∑ q, e q)) ↔
    ∀ (e : Fin n → ℝ) r, sumSame A e r = ∑ q, e q ∨ (sumSame A e r < 0 ∧ ∑ q, e q < 0) := by
  refine forall_congr' fun e => forall_congr' fun r => ?_
  unfold implicitNorm rootOf
  split_ifs with h1 h2 h2
  · rw [Option.some.injEq, Real.sqrt_inj h1 h2]
    exact ⟨.inl, fun h => h.resolve_right fun h => absurd h1 (not_le.2 h.1)⟩
  · simp only [false_iff]
    rintro (h | h)
    · exact h2 (h ▸ h1)
    · exact absurd h1 (not_le.2 h.1)
  · simp only [false_iff]
    rintro (h | h)
    · exact h1 (h ▸ h2)
    · exact absurd h2 (not_le.2 h.2)
  · exact ⟨fun _ => .inr ⟨not_le.1 h1, not_le.1 h2⟩, fun _ => rfl⟩

end props

/-- The implicit solver's loop with an implementation of the global sum: `e u` are the parts of the residual norm of the processes at the solution `u`. -/
noncomputable def reducedProb {n : ℕ} {S : Type} (A : Reduce n) (r : Fin n) (e : S → Fin n → ℝ) (upd : ℝ → S → S) : Prob S where
  norm := fun u => implicitNorm A (e u) r
  nonneg := fun _ _ h => rootOf_nonneg h
  upd := upd

/-- C120, refuted: there is a conforming implementation with which, on any number of processes and whatever their residuals, the implicit solver's norm and the entropy error are zero, and with
which the solver therefore stops after the first iteration of every run that allows more than one, with any tolerance at all. -/
theorem C120_refuted (n : ℕ) : ∃ A : Reduce n, Conforms A ∧ ∀ r : Fin n, (∀ e : Fin n → ℝ, implicitNorm A e r = some 0 ∧ entropyError A e r = 0) ∧
    ∀ {S : Type} (e : S → Fin n → ℝ) (upd : ℝ → S → S) (c : Conf) (u : S), c.tol < 1 → 1 < c.maxiter →
      ∃ m, Loop (Ode.cond c) (body backwardEuler (reducedProb A r e upd) c) (init backwardEuler c u) 1 (some m) ∧ m.step = 1 ∧ m.resi = 0 := by
  have h0 : ∀ (e : Fin n → ℝ) (r : Fin n), clearAdd n 0 0 1 (fun q _ => e q) r 0 = 0 := fun e r => by
    have hin : InBuf 0 1 0 := ⟨le_rfl, by omega⟩
    simp [clearAdd, hin]
  have hn : ∀ (e : Fin n → ℝ) (r : Fin n), implicitNorm (clearAdd n) e r = some 0 := fun e r => by
    rw [implicitNorm, sumSame, h0]
    simp [rootOf]
  refine ⟨clearAdd n, clearAdd_conforms n, fun r => ⟨fun e => ⟨hn e r, by rw [entropyError, mpiAllReduce, h0, Real.sqrt_zero]⟩, fun {S} e upd c u htol hmax => ?_⟩⟩
  obtain ⟨m, hm⟩ : ∃ m, body backwardEuler (reducedProb (clearAdd n) r e upd) c (init backwardEuler c u) = some m := by
    simp [body, reducedProb, hn]
  have hm' : m.step = 1 ∧ m.resi = 0 ∧ m.initres = 0 := by
    simp only [body, reducedProb, hn, init, Option.some.injEq] at hm
    subst hm
    exact ⟨rfl, rfl, rfl⟩
  refine ⟨m, .step ⟨?_, ?_⟩ hm (.done fun h => ?_), hm'.1, hm'.2.1⟩
  · show (fdiv 1 1).gt c.tol
    simp only [fdiv, one_ne_zero, if_false, FDiv.gt, div_one]
    exact htol
  · show ((0 : ℕ) : ℤ) < c.maxiter
    push_cast; omega
  · have := h.1
    rw [hm'.2.1, hm'.2.2] at this
    simp [fdiv, FDiv.gt] at this

/-- Hypotheses of `C120_explicit` and `C120_same_partial` are met by `copyAdd`; three processes with parts 1, 4, 4 of the squared norm get the norm 3. -/
example (r : Fin 3) : explicitNorm (copyAdd 3) ![1, 4, 4] r = some 3 ∧ implicitNorm (copyAdd 3) ![1, 4, 4] r = some 3 ∧ explicitNorm (clearAdd 3) ![1, 4, 4] r = some 3 ∧
    implicitNorm (clearAdd 3) ![1, 4, 4] r ≠ some 3 := by
  have e : rootOf (∑ q, (![1, 4, 4] : Fin 3 → ℝ) q) = some 3 := by
    have : (∑ q, (![1, 4, 4] : Fin 3 → ℝ) q) = 3 ^ 2 := by simp [Fin.sum_univ_three]; norm_num
    rw [this, rootOf, if_pos (by positivity), Real.sqrt_sq (by norm_num)]
  refine ⟨by rw [C120_explicit (copyAdd_conforms 3).1, e], by rw [(C120_same_partial (copyAdd_conforms 3).2 r).1, e], by rw [C120_explicit (clearAdd_conforms 3), e], ?_⟩
  have hin : InBuf 0 1 0 := ⟨le_rfl, by omega⟩
  simp [implicitNorm, sumSame, clearAdd, hin, rootOf]

/-- Force coefficients of two processes, the second without walls. -/
example (r : Fin 2) : coefficients (copyAdd 2) ![![1, 2, 3, 4], 0] r = ![1 / 4, 1 / 2, 3 / 4] := by
  funext i
  rw [(C120_same_partial (copyAdd_conforms 2).2 r).2.1]
  have h3 : (![1, 2, 3, 4] : Fin 4 → ℝ) 3 = 4 := rfl
  fin_cases i <;> norm_num [Fin.sum_univ_two, h3]

end Par
end FVENS
