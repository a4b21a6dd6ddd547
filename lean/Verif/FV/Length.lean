import Verif.FV.ReconMesh

/-! The length by which the Venkatakrishnan limiter measures a cell (src/spatial/limitedlinearreconstruction.cpp:188-203) is that of its longest edge. -/

namespace FVENS
namespace FV

open Msh

variable {G : Geo} {i : ℕ}

/-- Length of the edge of cell `i` that begins at its node `f`: to the next node, from the last one back to the first. -/
noncomputable def edgeLen (G : Geo) (i f : ℕ) : ℝ :=
  let x := G.m.coords (G.m.inpoel i f)
  let y := G.m.coords (G.m.inpoel i (if f + 1 < G.m.nnode i then f + 1 else 0))
  √((x 0 - y 0) ^ 2 + (x 1 - y 1) ^ 2)

theorem runMax {d : ℕ → ℝ} (hd : ∀ f, 0 ≤ d f) (n : ℕ) :
    (∀ f < n, d f ≤ forLt n 0 fun f c => if c < d f then d f else c) ∧ (0 ≤ forLt n (0 : ℝ) fun f c => if c < d f then d f else c) ∧
    ((forLt n (0 : ℝ) fun f c => if c < d f then d f else c) = 0 ∨ ∃ f < n, (forLt n 0 fun f c => if c < d f then d f else c) = d f) := by
  induction n with
  | zero => exact ⟨fun f hf => by omega, le_rfl, .inl rfl⟩
  | succ n ih =>
    obtain ⟨h1, h3, h2⟩ := ih
    rw [forLt_succ]
    generalize (forLt n (0 : ℝ) fun f c => if c < d f then d f else c) = c at *
    split_ifs with h
    · refine ⟨fun f hf => ?_, hd n, .inr ⟨n, by omega, rfl⟩⟩
      rcases Nat.lt_succ_iff_lt_or_eq.1 hf with g | rfl
      · exact le_trans (h1 f g) h.le
      · exact le_rfl
    · refine ⟨fun f hf => ?_, h3, ?_⟩
      · rcases Nat.lt_succ_iff_lt_or_eq.1 hf with g | rfl
        · exact h1 f g
        · exact not_lt.1 h
      · rcases h2 with e | ⟨f, hf, e⟩
        · exact .inl e
        · exact .inr ⟨f, by omega, e⟩

/-- C47: the length in the Venkatakrishnan limiter is that of the longest edge of the cell, the closing edge included. -/
theorem C47_length (hn : 0 < G.m.nnode i) : (∀ f < G.m.nnode i, edgeLen G i f ≤ G.clength i) ∧ ∃ f < G.m.nnode i, G.clength i = edgeLen G i f := by
  set d : ℕ → ℝ := fun f => (G.m.coords (G.m.inpoel i f) 0 - G.m.coords (G.m.inpoel i ((f + 1) % G.m.nnode i)) 0) ^ 2 +
    (G.m.coords (G.m.inpoel i f) 1 - G.m.coords (G.m.inpoel i ((f + 1) % G.m.nnode i)) 1) ^ 2 with hd
  have hd0 : ∀ f, 0 ≤ d f := fun f => by positivity
  have e : ∀ f < G.m.nnode i, edgeLen G i f = √(d f) := fun f hf => by
    unfold edgeLen
    rw [hd]
    dsimp only
    by_cases h : f + 1 < G.m.nnode i
    · rw [if_pos h, Nat.mod_eq_of_lt h]
    · rw [if_neg h, show f + 1 = G.m.nnode i by omega, Nat.mod_self]
  have ec : G.clength i = √(forLt (G.m.nnode i) (0 : ℝ) fun f c => if c < d f then d f else c) := rfl
  obtain ⟨h1, h2, h3⟩ := runMax hd0 (G.m.nnode i)
  refine ⟨fun f hf => ?_, ?_⟩
  · rw [e f hf, ec]; exact Real.sqrt_le_sqrt (h1 f hf)
  · rcases h3 with h | ⟨f, hf, h⟩
    · refine ⟨0, hn, ?_⟩
      have := h1 0 hn
      rw [h] at this
      rw [e 0 hn, ec, h, le_antisymm this (hd0 0)]
    · exact ⟨f, hf, by rw [e f hf, ec, h]⟩

/-- Concrete case: in the triangle of the example mesh the longest edge is not the closing one and has length √2. -/
example : exGeo.clength 1 = √2 := by
  obtain ⟨h1, f, hf, e⟩ := C47_length (G := exGeo) (i := 1) (by show 0 < 3; omega)
  have l0 : edgeLen exGeo 1 0 = 1 := by norm_num [edgeLen, exGeo, exPart, exMesh]
  have l1 : edgeLen exGeo 1 1 = √2 := by norm_num [edgeLen, exGeo, exPart, exMesh]
  have l2 : edgeLen exGeo 1 2 = 1 := by norm_num [edgeLen, exGeo, exPart, exMesh]
  have h2 : (1 : ℝ) ≤ √2 := Real.one_le_sqrt.2 (by norm_num)
  refine le_antisymm ?_ (l1 ▸ h1 1 (by show 1 < 3; omega))
  rw [e]
  rcases (by have : f < 3 := hf
             omega : f = 0 ∨ f = 1 ∨ f = 2) with rfl | rfl | rfl
  · rw [l0]; exact h2
  · rw [l1]
  · rw [l2]; exact h2

end FV
end FVENS
