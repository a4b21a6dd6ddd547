import Verif.Mesh.Conform
import Verif.Phys.Props
import Verif.FV.Grad
import Mathlib.Algebra.BigOperators.Fin

/-!
# Nodal output values (model of `FlowOutput::postprocess_point`, `scalar_postprocess_point`)

The sums run over the cells of the calling process.
-/

namespace FVENS
namespace Out
open Msh

/-- The arrays `up` and `areasum`, src/spatial/aoutput.cpp:105-108. -/
@[ext] structure Acc where
  up : ℕ → St
  area : ℕ → ℝ

/-- Innermost loop over the variables, src/spatial/aoutput.cpp:118-122: both arrays are increased in every pass. -/
noncomputable def addVars (p : ℕ) (u : St) (ar : ℝ) (a : Acc) : Acc :=
  (List.finRange 4).foldl (fun a v =>
    ⟨upd a.up p (Function.update (a.up p) v (a.up p v + u v * ar)), upd a.area p (a.area p + ar)⟩) a

/-- Accumulation loops, src/spatial/aoutput.cpp:105-108, 115-123. -/
noncomputable def nodalSums (m : Mesh) (ar : ℕ → ℝ) (u : ℕ → St) : Acc :=
  forLt m.nelem ⟨fun _ _ => 0, fun _ => 0⟩ fun i a =>
    forLt (m.nnode i) a fun j a => addVars (m.inpoel i j) (u i) (ar i) a

/-- Nodal state after the division, src/spatial/aoutput.cpp:125-127. -/
noncomputable def nodal (m : Mesh) (ar : ℕ → ℝ) (u : ℕ → St) (p : ℕ) : St := fun v =>
  (nodalSums m ar u).up p v / (nodalSums m ar u).area p

/-- Row of the output arrays `scalars`, `velocities` for a node, src/spatial/aoutput.cpp:101-103. -/
structure Row where
  density : ℝ
  mach : ℝ
  pressure : ℝ
  temperature : ℝ
  velocity : V2

/-- Output values of a state, src/spatial/aoutput.cpp:129-141. -/
noncomputable def rowOf (g : Gas) (u : St) : Row where
  density := u 0
  mach := √(dot ![u 1 / u 0, u 2 / u 0] ![u 1 / u 0, u 2 / u 0]) / g.soundSpeedC u
  pressure := g.pressure u
  temperature := g.temperatureC u
  velocity := ![u 1 / u 0, u 2 / u 0]

/-- `postprocess_point`, src/spatial/aoutput.cpp:97-148. -/
noncomputable def postPoint (g : Gas) (m : Mesh) (ar : ℕ → ℝ) (u : ℕ → St) (p : ℕ) : Row := rowOf g (nodal m ar u p)

/-- Accumulation of `scalar_postprocess_point` for one variable, src/spatial/diffusion.cpp:347-365. The array is viewed with four
values per cell though it has one: cell `i` reads entry `4 i` of `len` entries; reading outside is undefined (`none`). -/
noncomputable def scalarSums (m : Mesh) (ar : ℕ → ℝ) (len : ℕ) (x : ℕ → ℝ) : Option ((ℕ → ℝ) × (ℕ → ℝ)) :=
  (List.range m.nelem).foldlM (fun a i =>
    (List.range (m.nnode i)).foldlM (fun a j =>
      if 4 * i < len then some (upd a.1 (m.inpoel i j) (a.1 (m.inpoel i j) + x (4 * i) * ar i), upd a.2 (m.inpoel i j) (a.2 (m.inpoel i j) + ar i))
      else none) a) ((fun _ => 0), fun _ => 0)

/-- `scalar_postprocess_point<1>`, src/spatial/diffusion.cpp:341-373. -/
noncomputable def scalarPoint (m : Mesh) (ar : ℕ → ℝ) (len : ℕ) (x : ℕ → ℝ) : Option (ℕ → ℝ) :=
  (scalarSums m ar len x).map fun a p => a.1 p / a.2 p

/-! ### Specification -/

/-- Cells having the node `p`. -/
noncomputable def around (m : Mesh) (p : ℕ) : Finset ℕ :=
  open Classical in (Finset.range m.nelem).filter fun i => ∃ j, j < m.nnode i ∧ m.inpoel i j = p

/-- Area-weighted average over the surrounding cells. -/
noncomputable def average (m : Mesh) (ar : ℕ → ℝ) (u : ℕ → St) (p : ℕ) : St := fun v =>
  (∑ i ∈ around m p, ar i * u i v) / ∑ i ∈ around m p, ar i

/-! ### Proofs -/

theorem addVars_eq (p : ℕ) (u : St) (ar : ℝ) (a : Acc) :
    addVars p u ar a = ⟨upd a.up p (fun v => a.up p v + u v * ar), upd a.area p (a.area p + 4 * ar)⟩ := by
  have h : List.finRange 4 = [0, 1, 2, 3] := rfl
  unfold addVars
  rw [h]
  simp only [List.foldl_cons, List.foldl_nil]
  ext q
  · by_cases hq : q = p
    · subst hq
      rename_i v
      fin_cases v <;> simp [upd, Function.update]
    · simp [upd, hq]
  · by_cases hq : q = p
    · subst hq; simp [upd]; ring
    · simp [upd, hq]

/-- Contribution of one cell to a node's sum. -/
noncomputable def once (m : Mesh) (i p : ℕ) (x : ℝ) : ℝ := open Classical in if ∃ j, j < m.nnode i ∧ m.inpoel i j = p then x else 0

theorem hits_once {m : Mesh} (hm : Lin m) {i : ℕ} (hi : i < m.nelem) (p : ℕ) (x : ℝ) :
    ∑ j ∈ Finset.range (m.nnode i), (if m.inpoel i j = p then x else 0) = once m i p x := by
  unfold once
  by_cases h : ∃ j, j < m.nnode i ∧ m.inpoel i j = p
  · obtain ⟨j, hj, hp⟩ := h
    rw [if_pos ⟨j, hj, hp⟩, Finset.sum_eq_single j]
    · rw [if_pos hp]
    · intro k hk hne
      rw [if_neg]
      intro hkp
      exact hne (hm.inj i hi k j (Finset.mem_range.1 hk) hj (hkp.trans hp.symm))
    · intro hn; exact absurd (Finset.mem_range.2 hj) hn
  · rw [if_neg h]
    apply Finset.sum_eq_zero
    intro j hj
    rw [if_neg]
    intro hp
    exact h ⟨j, Finset.mem_range.1 hj, hp⟩

theorem cell_sums (m : Mesh) (i n : ℕ) (u : St) (ar : ℝ) (a : Acc) (p : ℕ) (v : Fin 4) :
    (forLt n a fun j a => addVars (m.inpoel i j) u ar a).up p v =
      a.up p v + ∑ j ∈ Finset.range n, (if m.inpoel i j = p then u v * ar else 0) ∧
    (forLt n a fun j a => addVars (m.inpoel i j) u ar a).area p =
      a.area p + ∑ j ∈ Finset.range n, (if m.inpoel i j = p then 4 * ar else 0) := by
  induction n with
  | zero => simp [forLt_zero]
  | succ n ih =>
    rw [forLt_succ, addVars_eq, Finset.sum_range_succ, Finset.sum_range_succ]
    by_cases h : m.inpoel i n = p
    · simp only [h]
      rw [upd_same, upd_same, ih.1, ih.2, if_pos trivial, if_pos trivial]
      exact ⟨by ring, by ring⟩
    · simp only []
      rw [upd_ne _ _ (Ne.symm h), upd_ne _ _ (Ne.symm h), ih.1, ih.2, if_neg h, if_neg h]
      exact ⟨by ring, by ring⟩

theorem sum_once (m : Mesh) (p : ℕ) (x : ℕ → ℝ) :
    ∑ i ∈ Finset.range m.nelem, once m i p (x i) = ∑ i ∈ around m p, x i := by
  unfold around once
  rw [Finset.sum_filter]

theorem nodalSums_eq {m : Mesh} (hm : Lin m) (ar : ℕ → ℝ) (u : ℕ → St) (p : ℕ) (v : Fin 4) :
    (nodalSums m ar u).up p v = ∑ i ∈ around m p, ar i * u i v ∧
    (nodalSums m ar u).area p = 4 * ∑ i ∈ around m p, ar i := by
  have key : ∀ n, n ≤ m.nelem → 
      (forLt n (⟨fun _ _ => 0, fun _ => 0⟩ : Acc) fun i a => forLt (m.nnode i) a fun j a => addVars (m.inpoel i j) (u i) (ar i) a).up p v
        = ∑ i ∈ Finset.range n, once m i p (ar i * u i v) ∧
      (forLt n (⟨fun _ _ => 0, fun _ => 0⟩ : Acc) fun i a => forLt (m.nnode i) a fun j a => addVars (m.inpoel i j) (u i) (ar i) a).area p
        = ∑ i ∈ Finset.range n, once m i p (4 * ar i) := by
    intro n
    induction n with
    | zero => intro _; simp [forLt_zero]
    | succ n ih =>
      intro hn
      obtain ⟨h1, h2⟩ := ih (by omega)
      rw [forLt_succ, (cell_sums m n _ _ _ _ p v).1, (cell_sums m n _ _ _ _ p v).2, h1, h2, Finset.sum_range_succ, Finset.sum_range_succ,
        hits_once hm (by omega), hits_once hm (by omega), mul_comm (u n v)]
      exact ⟨rfl, rfl⟩
  obtain ⟨h1, h2⟩ := key m.nelem le_rfl
  constructor
  · rw [nodalSums, h1, sum_once m p (fun i => ar i * u i v)]
  · rw [nodalSums, h2, sum_once m p (fun i => 4 * ar i), Finset.mul_sum]

/-- C67: the nodal state computed is a quarter of the area-weighted average of the surrounding cells, at every node and for every field
(the sum of the areas is increased once per variable). -/
theorem C67_quarter {m : Mesh} (hm : Lin m) (ar : ℕ → ℝ) (u : ℕ → St) (p : ℕ) (v : Fin 4) :
    nodal m ar u p v = average m ar u p v / 4 := by
  unfold nodal average
  rw [(nodalSums_eq hm ar u p v).1, (nodalSums_eq hm ar u p v).2, div_div, mul_comm (4 : ℝ)]

/-- C67 (part): the written velocity, Mach number and temperature are those of the averaged state, at every node where the average has a
nonzero density; density and pressure are a quarter. Missing: the right density and pressure (`C67_refuted`). -/
theorem C67_row_partial (g : Gas) {m : Mesh} (hm : Lin m) (ar : ℕ → ℝ) (u : ℕ → St) (p : ℕ) (h0 : average m ar u p 0 ≠ 0) :
    (postPoint g m ar u p).velocity = (rowOf g (average m ar u p)).velocity ∧
    (postPoint g m ar u p).mach = (rowOf g (average m ar u p)).mach ∧
    (postPoint g m ar u p).temperature = (rowOf g (average m ar u p)).temperature ∧
    (postPoint g m ar u p).density = (rowOf g (average m ar u p)).density / 4 ∧
    (postPoint g m ar u p).pressure = (rowOf g (average m ar u p)).pressure / 4 := by
  have hq : nodal m ar u p = fun v => average m ar u p v / 4 := funext fun v => C67_quarter hm ar u p v
  have hp : g.pressure (fun v => average m ar u p v / 4) = g.pressure (average m ar u p) / 4 := by
    unfold Gas.pressure Gas.pressureOfInternal mom dot
    simp only [Matrix.cons_val_zero, Matrix.cons_val_one]
    field_simp
  have h1 : ∀ v, average m ar u p v / 4 / (average m ar u p 0 / 4) = average m ar u p v / average m ar u p 0 := by
    intro v; field_simp
  unfold postPoint rowOf
  rw [hq]
  simp only [h1, hp, Gas.soundSpeedC, Gas.temperatureC, Gas.soundSpeed, Gas.temperature, true_and, and_true]
  constructor
  · congr 2; field_simp
  · congr 3; field_simp

theorem around_mem {m : Mesh} {i p : ℕ} : i ∈ around m p ↔ i < m.nelem ∧ ∃ j, j < m.nnode i ∧ m.inpoel i j = p := by
  unfold around; simp

/-- C67: for a field constant in space the quarter of it is written, wherever cells surround the node (with positive areas). -/
theorem C67_constant {m : Mesh} (hm : Lin m) {ar : ℕ → ℝ} (har : ∀ i, i < m.nelem → 0 < ar i) (c : St) {p : ℕ} (hp : (around m p).Nonempty) :
    average m ar (fun _ => c) p = c ∧ nodal m ar (fun _ => c) p = fun v => c v / 4 := by
  have hs : 0 < ∑ i ∈ around m p, ar i := Finset.sum_pos (fun i hi => har i (around_mem.1 hi).1) hp
  have h1 : average m ar (fun _ => c) p = c := by
    funext v
    unfold average
    rw [← Finset.sum_mul]
    field_simp
  exact ⟨h1, funext fun v => by rw [C67_quarter hm, h1]⟩

/-- C67 is refuted: on every mesh with positive cell areas, at every node of a cell and for every spatially constant field of nonzero
density, the written density is not that of the field. -/
theorem C67_refuted (g : Gas) {m : Mesh} (hm : Lin m) {ar : ℕ → ℝ} (har : ∀ i, i < m.nelem → 0 < ar i) {c : St} (hc : c 0 ≠ 0)
    {p : ℕ} (hp : (around m p).Nonempty) :
    (postPoint g m ar (fun _ => c) p).density ≠ (average m ar (fun _ => c) p) 0 := by
  obtain ⟨h1, h2⟩ := C67_constant hm har c hp
  show nodal m ar (fun _ => c) p 0 ≠ _
  rw [h1, h2]
  intro h
  apply hc
  linarith [h]

/-- The refutation applies: hybrid mesh, node 1, which has two cells; density 1 is written as 1/4. -/
example (g : Gas) : (postPoint g exMesh (fun _ => 1) (fun _ => ![1, 0, 0, 5]) 1).density = 1 / 4 := by
  have hne : (around exMesh 1).Nonempty := ⟨0, around_mem.2 ⟨by decide, 1, by decide, by decide⟩⟩
  have := (C67_constant exMesh_lin (ar := fun _ => 1) (fun _ _ => one_pos) ![1, 0, 0, 5] hne).2
  show nodal exMesh (fun _ => 1) (fun _ => ![1, 0, 0, 5]) 1 0 = 1 / 4
  rw [this]; simp

/-! ### The scalar version -/

theorem foldlM_none_of {α β : Type*} (f : β → α → Option β) (l : List α) (b : β) {x : α} (hx : x ∈ l) (h : ∀ b, f b x = none) :
    l.foldlM f b = none := by
  induction l generalizing b with
  | nil => simp at hx
  | cons y l ih =>
    rw [List.foldlM_cons]
    rcases List.mem_cons.1 hx with rfl | hx
    · rw [h]; rfl
    · cases hy : f b y with
      | none => rfl
      | some b' => exact ih b' hx

theorem foldlM_some_of {α β : Type*} (f : β → α → Option β) (g : β → α → β) (l : List α) (b : β) (h : ∀ x ∈ l, ∀ b, f b x = some (g b x)) :
    l.foldlM f b = some (l.foldl g b) := by
  induction l generalizing b with
  | nil => rfl
  | cons y l ih =>
    rw [List.foldlM_cons, h y (by simp), List.foldl_cons]
    exact ih _ fun x hx b => h x (by simp [hx]) b

/-- C67: nodal output of a scalar (diffusion) solution has defined behaviour on no mesh but those of at most one cell; the solution has one
value per cell, but the array is read as if it had four. -/
theorem C67_scalar_defined_iff {m : Mesh} (hm : Lin m) (ar x : ℕ → ℝ) :
    (scalarPoint m ar m.nelem x).isSome = true ↔ m.nelem ≤ 1 := by
  unfold scalarPoint
  rw [Option.isSome_map]
  constructor
  · intro h
    by_contra hn
    have hl : m.nelem - 1 ∈ List.range m.nelem := List.mem_range.2 (by omega)
    rw [scalarSums, foldlM_none_of _ _ _ hl] at h
    · simp at h
    · intro b
      have h3 := hm.three (m.nelem - 1) (by omega)
      exact foldlM_none_of _ _ _ (List.mem_range.2 (show 0 < m.nnode (m.nelem - 1) by omega)) fun b => if_neg (by omega)
  · intro h
    rw [scalarSums, foldlM_some_of (g := fun a i => (List.range (m.nnode i)).foldl (fun a j =>
      (upd a.1 (m.inpoel i j) (a.1 (m.inpoel i j) + x (4 * i) * ar i), upd a.2 (m.inpoel i j) (a.2 (m.inpoel i j) + ar i))) a)]
    · rfl
    · intro i hi b
      have := List.mem_range.1 hi
      exact foldlM_some_of _ _ _ _ fun j _ b => if_pos (by omega)

/-- Two cells: undefined. -/
theorem C67_scalar_refuted (x : ℕ → ℝ) : scalarPoint exMesh (fun _ => 1) exMesh.nelem x = none := by
  have := (C67_scalar_defined_iff exMesh_lin (fun _ => 1) x).not.2 (by decide)
  simpa using this

/-- One triangle, where `C67_scalar_defined_iff` has its defined case. -/
example : ∃ m : Mesh, Lin m ∧ m.nelem = 1 ∧ m.npoin = 3 :=
  ⟨{ exMesh with nelem := 1, npoin := 3, nnode := fun _ => 3, nfael := fun _ => 3, inpoel := fun _ j => j },
    ⟨fun _ _ => rfl, fun _ _ => le_rfl, fun _ _ _ hj => hj, fun _ _ _ _ _ _ h => h⟩, rfl, rfl⟩

end Out
end FVENS
