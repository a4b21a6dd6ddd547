import Verif.Phys.Props
import Mathlib.Algebra.BigOperators.Group.List.Basic

/-!
# Entropy error and mesh size reported for a solution (C80)
-/

namespace FVENS
namespace Out

/-- What the loop sees of a cell: its state and area. -/
structure CellRec where
  u : St
  area : ℝ

/-- Contribution of a cell, src/spatial/aoutput.cpp:46-47. -/
noncomputable def entropyTerm (G : Gas) (sinf : ℝ) (c : CellRec) : ℝ :=
  let e := (G.entropy c.u - sinf) / sinf
  e * e * c.area

/-- `compute_entropy_cell`, src/spatial/aoutput.cpp:28-67. `ranks` lists the processes, each with its threads, each with the cells
it visits in order; the thread sums of the OpenMP reduction and then the process sums are added (sums in exact arithmetic). -/
noncomputable def entropyError (G : Gas) (aoa : ℝ) (ranks : List (List (List CellRec))) : ℝ :=
  let sinf := G.entropy (G.freestream aoa)
  √((ranks.map fun threads => (threads.map fun cells => cells.foldl (fun e c => e + entropyTerm G sinf c) 0).sum).sum)

/-- Mesh size returned by `run_output` on a process, src/utilities/casesolvers.cpp:96: it has `nelem` cells. -/
noncomputable def meshSize (nelem : ℕ) : ℝ := 1 / (nelem : ℝ) ^ ((1 : ℝ) / 2)

/-! ### C80 -/

/-- C80: two states have the same entropy exactly if pressures and densities are related as along an isentrope. -/
theorem C80_isentropic_iff (G : Gas) {u v : St} (hu : 0 < u 0) (hv : 0 < v 0) (hp : 0 < G.pressure u) :
    G.entropy v = G.entropy u ↔ G.pressure v / G.pressure u = (v 0 / u 0) ^ G.g := by
  unfold Gas.entropy
  have h1 := Real.rpow_pos_of_pos hu G.g
  have h2 := Real.rpow_pos_of_pos hv G.g
  rw [Real.div_rpow hv.le hu.le, div_eq_div_iff h2.ne' h1.ne', div_eq_div_iff hp.ne' h1.ne']
  constructor <;> intro h <;> linarith

/-- Relative deviation of a cell from the isentrope through the free stream (specification): `γ M² p / ρ^γ - 1`. -/
noncomputable def deviation (G : Gas) (u : St) : ℝ := G.g * G.Minf ^ 2 * G.pressure u / u 0 ^ G.g - 1

theorem entropy_freestream (G : Gas) (hg : 1 < G.g) (hM : 0 < G.Minf) (aoa : ℝ) :
    G.entropy (G.freestream aoa) = 1 / (G.g * G.Minf ^ 2) := by
  obtain ⟨h0, -, -, hp, -⟩ := C06_freestream G hg hM aoa
  unfold Gas.entropy
  rw [h0, hp, Real.one_rpow, div_one]

/-- C80: the reported error is the area-weighted L2 norm of the deviation over all cells of all processes, whatever the order in
which processes and threads visit them. -/
theorem C80_norm (G : Gas) (hg : 1 < G.g) (hM : 0 < G.Minf) (aoa : ℝ) (ranks : List (List (List CellRec))) {cells : List CellRec}
    (h : (ranks.map List.flatten).flatten.Perm cells) :
    entropyError G aoa ranks = √((cells.map fun c => deviation G c.u ^ 2 * c.area).sum) := by
  have hg0 : 0 < G.g := by linarith
  have hterm : ∀ c : CellRec, entropyTerm G (G.entropy (G.freestream aoa)) c = deviation G c.u ^ 2 * c.area := by
    intro c
    rw [entropy_freestream G hg hM]
    unfold entropyTerm deviation Gas.entropy
    field_simp
  have hfold : ∀ (l : List CellRec) (e : ℝ), l.foldl (fun e c => e + entropyTerm G (G.entropy (G.freestream aoa)) c) e =
      e + (l.map fun c => deviation G c.u ^ 2 * c.area).sum := by
    intro l
    induction l with
    | nil => intro e; simp
    | cons c l ih => intro e; rw [List.foldl_cons, ih, hterm]; simp; ring
  unfold entropyError
  simp only [hfold, zero_add]
  congr 1
  rw [← (h.map _).sum_eq]
  clear h
  have hthr : ∀ r : List (List CellRec), (r.map fun l => (l.map fun c => deviation G c.u ^ 2 * c.area).sum).sum =
      (r.flatten.map fun c => deviation G c.u ^ 2 * c.area).sum := by
    intro r
    induction r with
    | nil => simp
    | cons l r ih => simp [ih]
  simp only [hthr]
  induction ranks with
  | nil => simp
  | cons r rs ih =>
    rw [List.map_cons, List.sum_cons, ih, List.map_cons, List.flatten_cons, List.map_append, List.sum_append]

/-- C80: the error vanishes exactly if every cell is on the isentrope of the free stream. -/
theorem C80_zero_iff (G : Gas) (hg : 1 < G.g) (hM : 0 < G.Minf) (aoa : ℝ) (ranks : List (List (List CellRec)))
    (ha : ∀ c ∈ (ranks.map List.flatten).flatten, 0 < c.area ∧ 0 < c.u 0) :
    entropyError G aoa ranks = 0 ↔ ∀ c ∈ (ranks.map List.flatten).flatten, G.pressure c.u = c.u 0 ^ G.g / (G.g * G.Minf ^ 2) := by
  have hg0 : 0 < G.g := by linarith
  rw [C80_norm G hg hM aoa ranks (List.Perm.refl _)]
  have hnn : ∀ x ∈ ((ranks.map List.flatten).flatten.map fun c => deviation G c.u ^ 2 * c.area), 0 ≤ x := by
    intro x hx
    obtain ⟨c, hc, rfl⟩ := List.mem_map.1 hx
    have := (ha c hc).1
    positivity
  rw [Real.sqrt_eq_zero (List.sum_nonneg hnn)]
  have hdev : ∀ c ∈ (ranks.map List.flatten).flatten, deviation G c.u ^ 2 * c.area = 0 ↔ G.pressure c.u = c.u 0 ^ G.g / (G.g * G.Minf ^ 2) := by
    intro c hc
    obtain ⟨h1, h2⟩ := ha c hc
    have h3 := Real.rpow_pos_of_pos h2 G.g
    rw [mul_eq_zero_iff_right h1.ne', sq_eq_zero_iff, deviation, sub_eq_zero, div_eq_one_iff_eq h3.ne', eq_div_iff (by positivity)]
    constructor <;> intro h <;> linarith
  constructor
  · intro h c hc
    refine (hdev c hc).1 (List.all_zero_of_le_zero_le_of_sum_eq_zero hnn h (List.mem_map.2 ⟨c, hc, rfl⟩))
  · intro h
    refine List.sum_eq_zero fun x hx => ?_
    obtain ⟨c, hc, rfl⟩ := List.mem_map.1 hx
    exact (hdev c hc).2 (h c hc)

/-- Free stream in two cells of one process and a cell compressed isentropically on another: no error. -/
example : entropyError air 0 [[[⟨air.freestream 0, 1⟩], [⟨air.freestream 0, 2⟩]], [[⟨![2, 0, 0, 2 ^ air.g / (air.g * air.Minf ^ 2) / (air.g - 1)], 3⟩]]] = 0 := by
  have hg : (1 : ℝ) < air.g := by norm_num [air]
  have hM : (0 : ℝ) < air.Minf := by norm_num [air]
  obtain ⟨h0, -, -, hp, -⟩ := C06_freestream air hg hM 0
  refine (C80_zero_iff air hg hM 0 _ ?_).2 ?_
  · intro c hc
    simp only [List.map_cons, List.map_nil, List.flatten_cons, List.flatten_nil, List.append_nil, List.mem_append, List.mem_cons, List.not_mem_nil, or_false] at hc
    rcases hc with (rfl | rfl) | rfl
    · exact ⟨one_pos, by show 0 < air.freestream 0 0; rw [h0]; exact one_pos⟩
    · exact ⟨two_pos, by show 0 < air.freestream 0 0; rw [h0]; exact one_pos⟩
    · exact ⟨by norm_num, by simp⟩
  · intro c hc
    simp only [List.map_cons, List.map_nil, List.flatten_cons, List.flatten_nil, List.append_nil, List.mem_append, List.mem_cons, List.not_mem_nil, or_false] at hc
    rcases hc with (rfl | rfl) | rfl
    · show air.pressure (air.freestream 0) = air.freestream 0 0 ^ air.g / _
      rw [hp, h0, Real.one_rpow]
    · show air.pressure (air.freestream 0) = air.freestream 0 0 ^ air.g / _
      rw [hp, h0, Real.one_rpow]
    · have : air.g - 1 ≠ 0 := by linarith
      simp only [Gas.pressure, Gas.pressureOfInternal, dot, mom, Matrix.cons_val]
      field_simp
      ring

/-- The error is not always zero: gas of density one at twice the free-stream pressure. -/
example : entropyError air 0 [[[⟨![1, 0, 0, 2 / (air.g * air.Minf ^ 2) / (air.g - 1)], 4⟩]]] = 2 := by
  have hg : (1 : ℝ) < air.g := by norm_num [air]
  have hM : (0 : ℝ) < air.Minf := by norm_num [air]
  rw [C80_norm air hg hM 0 _ (List.Perm.refl _)]
  have : deviation air ![1, 0, 0, 2 / (air.g * air.Minf ^ 2) / (air.g - 1)] = 1 := by
    simp only [deviation, Gas.pressure, Gas.pressureOfInternal, dot, mom, Matrix.cons_val, Real.one_rpow, air]
    norm_num
  simp only [List.map_cons, List.map_nil, List.flatten_cons, List.flatten_nil, List.append_nil, List.sum_cons, List.sum_nil, this]
  rw [show ((1 : ℝ) ^ 2 * 4 + 0) = 2 ^ 2 by norm_num, Real.sqrt_sq two_pos.le]

/-- C80: the mesh size a process reports is that of the whole mesh exactly if it has all the cells. -/
theorem C80_mesh_size_iff {n N : ℕ} (hn : 0 < n) (hN : 0 < N) : meshSize n = meshSize N ↔ n = N := by
  unfold meshSize
  have h1 : (0 : ℝ) < n := by exact_mod_cast hn
  have h2 : (0 : ℝ) < N := by exact_mod_cast hN
  rw [← Real.sqrt_eq_rpow, ← Real.sqrt_eq_rpow, div_eq_div_iff (Real.sqrt_pos.2 h1).ne' (Real.sqrt_pos.2 h2).ne', one_mul, one_mul,
    Real.sqrt_inj h2.le h1.le]
  exact ⟨fun h => (by exact_mod_cast h.symm), fun h => by rw [h]⟩

/-- C80 refuted for the mesh size: with four cells on two processes each process reports the size of a mesh of two cells. -/
theorem C80_mesh_size_refuted : meshSize 2 ≠ meshSize 4 := fun h => by
  have := (C80_mesh_size_iff two_pos four_pos).1 h
  omega

end Out
end FVENS
