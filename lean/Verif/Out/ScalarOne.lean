import Verif.Out.Nodal

/-!
Values of the nodal output of a scalar solution where it is defined. Code: `scalar_postprocess_point`, src/spatial/diffusion.cpp:341-373.
-/

namespace FVENS
namespace Out
open Msh

theorem scalarSums_one {m : Mesh} (h1 : m.nelem = 1) (ar x : ℕ → ℝ) {len : ℕ} (hl : 0 < len) :
    ∃ a, scalarSums m ar len x = some a ∧
      ∀ p, a.1 p = x 0 * a.2 p ∧ a.2 p = (((List.range (m.nnode 0)).filter fun j => m.inpoel 0 j = p).length : ℝ) * ar 0 := by
  have key : ∀ n, ∃ a : (ℕ → ℝ) × (ℕ → ℝ), (List.range n).foldlM (fun (a : (ℕ → ℝ) × (ℕ → ℝ)) j =>
      if 4 * 0 < len then some (upd a.1 (m.inpoel 0 j) (a.1 (m.inpoel 0 j) + x (4 * 0) * ar 0), upd a.2 (m.inpoel 0 j) (a.2 (m.inpoel 0 j) + ar 0))
      else none) ((fun _ => 0), fun _ => 0) = some a ∧
      ∀ p, a.1 p = x 0 * a.2 p ∧ a.2 p = (((List.range n).filter fun j => m.inpoel 0 j = p).length : ℝ) * ar 0 := by
    intro n
    induction n with
    | zero => exact ⟨_, rfl, fun p => by simp⟩
    | succ n ih =>
      obtain ⟨a, ha, hp⟩ := ih
      refine ⟨_, by rw [List.range_succ, List.foldlM_append, ha]; simp [hl]; rfl, fun p => ?_⟩
      have h := hp p
      by_cases he : m.inpoel 0 n = p
      · subst he
        refine ⟨?_, ?_⟩
        · simp only [upd, if_true]; rw [h.1]; ring
        · simp only [upd, if_true]; rw [h.2, List.range_succ]; simp; ring
      · refine ⟨?_, ?_⟩
        · simp only [upd, if_neg (Ne.symm he)]; exact h.1
        · simp only [upd, if_neg (Ne.symm he)]; rw [h.2, List.range_succ]; simp [he]
  obtain ⟨a, ha, hp⟩ := key (m.nnode 0)
  refine ⟨a, ?_, hp⟩
  rw [scalarSums, h1]
  show (List.range 1).foldlM _ _ = _
  simp only [List.range_succ, List.range_zero, List.nil_append, List.foldlM_cons, List.foldlM_nil]
  rw [ha]; rfl

/-- C67: in the only case in which the nodal output of a scalar solution is defined, every point of the cell gets the value of the cell. -/
theorem C67_scalar_one_cell {m : Mesh} (h1 : m.nelem = 1) {ar : ℕ → ℝ} (har : ar 0 ≠ 0) (x : ℕ → ℝ) :
    ∃ f, scalarPoint m ar m.nelem x = some f ∧ ∀ j, j < m.nnode 0 → f (m.inpoel 0 j) = x 0 := by
  obtain ⟨a, ha, hp⟩ := scalarSums_one h1 ar x (len := m.nelem) (by omega)
  refine ⟨_, by rw [scalarPoint, ha]; rfl, fun j hj => ?_⟩
  have h := hp (m.inpoel 0 j)
  have hc : (((List.range (m.nnode 0)).filter fun i => m.inpoel 0 i = m.inpoel 0 j).length : ℝ) ≠ 0 := by
    have : 0 < ((List.range (m.nnode 0)).filter fun i => m.inpoel 0 i = m.inpoel 0 j).length :=
      List.length_pos_of_mem (a := j) (by simp [hj])
    exact_mod_cast this.ne'
  have h0 : a.2 (m.inpoel 0 j) ≠ 0 := by rw [h.2]; exact mul_ne_zero hc har
  show a.1 (m.inpoel 0 j) / a.2 (m.inpoel 0 j) = x 0
  rw [h.1, mul_div_assoc, div_self h0, mul_one]

/-- One triangle of area 2 with the value 5: each of its points gets 5. -/
example : ∃ f, scalarPoint { exMesh with nelem := 1, npoin := 3, nnode := fun _ => 3, nfael := fun _ => 3, inpoel := fun _ j => j }
    (fun _ => 2) 1 (fun _ => 5) = some f ∧ f 0 = 5 ∧ f 1 = 5 ∧ f 2 = 5 := by
  obtain ⟨f, hf, h⟩ := C67_scalar_one_cell
    (m := { exMesh with nelem := 1, npoin := 3, nnode := fun _ => 3, nfael := fun _ => 3, inpoel := fun _ j => j }) rfl
    (ar := fun _ => 2) (by norm_num) (fun _ => 5)
  exact ⟨f, hf, h 0 (by show 0 < 3; decide), h 1 (by show 1 < 3; decide), h 2 (by show 2 < 3; decide)⟩

end Out
end FVENS
