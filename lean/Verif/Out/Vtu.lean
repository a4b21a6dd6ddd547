import Verif.Mesh.Esup
import Verif.Mesh.Esuel

/-!
# Connectivity in VTU files (model of the writers of `src/spatial/aoutput.cpp`)

The three `DataArray`s below `<Cells>` are lists of numbers; the XML text around them and the formatting of
numbers are not modelled.
-/

namespace FVENS
namespace Out
open Msh

/-- The three arrays below `<Cells>`. -/
structure Cells where
  connectivity : List ℕ
  offsets : List ℕ
  types : List ℕ

/-- Connectivity loop, src/spatial/aoutput.cpp:377-394, 503-520, 580-586. -/
def vtuConn (m : Mesh) : List ℕ :=
  forLt m.nelem [] fun i out => forLt (m.nnode i) out fun j out => out ++ [m.inpoel i j]

/-- Offsets with the running total `totalcells`, src/spatial/aoutput.cpp:397-401, 523-527. -/
def vtuOffsets (m : Mesh) : List ℕ :=
  (forLt m.nelem ((0 : ℕ), ([] : List ℕ)) fun i s => (s.1 + m.nnode i, s.2 ++ [s.1 + m.nnode i])).2

/-- Offsets of the mesh writer, src/spatial/aoutput.cpp:589-590. -/
def vtuOffsetsMesh (m : Mesh) : List ℕ := forLt m.nelem [] fun i out => out ++ [m.nnode i * (i + 1)]

/-- `elemcode`, src/spatial/aoutput.cpp:405-413, 531-539. -/
def elemcode (n : ℕ) : ℕ := if n = 4 then 9 else if n = 6 then 22 else if n = 8 then 23 else if n = 9 then 28 else 5

/-- `elemcode` of the mesh writer, src/spatial/aoutput.cpp:595-603. -/
def elemcodeMesh (n : ℕ) : ℕ := if n = 4 then 9 else if n = 6 then 22 else if n = 8 then 23 else if n = 9 then 23 else 5

/-- Types loop, src/spatial/aoutput.cpp:404-415, 530-541, 593-605. -/
def vtuTypes (m : Mesh) (code : ℕ → ℕ) : List ℕ := forLt m.nelem [] fun i out => out ++ [code (m.nnode i)]

/-- `writeScalarsVectorToVtu_CellData`, `writeScalarsVectorToVtu_PointData`, src/spatial/aoutput.cpp:374-417, 500-543. -/
def writeData (m : Mesh) : Cells := ⟨vtuConn m, vtuOffsets m, vtuTypes m elemcode⟩

/-- `writeMeshToVtu`, src/spatial/aoutput.cpp:577-607. -/
def writeMesh (m : Mesh) : Cells := ⟨vtuConn m, vtuOffsetsMesh m, vtuTypes m elemcodeMesh⟩

/-! ### Specification: the file format -/

/-- Number of nodes of the VTK cell types used (VTK file formats: triangle, quadrilateral, quadratic triangle, quadratic quadrilateral,
biquadratic quadrilateral). -/
def vtkNodes : ℕ → Option ℕ
  | 5 => some 3 | 9 => some 4 | 22 => some 6 | 23 => some 8 | 28 => some 9 | _ => none

/-- Cutting the connectivity at the offsets: a cell's nodes lie between the previous offset and its own. -/
def cut (conn : List ℕ) : ℕ → List ℕ → List (List ℕ)
  | _, [] => []
  | a, o :: os => (conn.take o).drop a :: cut conn o os

/-- The cells a reader of the format gets: type and nodes. -/
def decode (c : Cells) : List (ℕ × List ℕ) := c.types.zip (cut c.connectivity 0 c.offsets)

/-- Nodes of a cell, in order. -/
def nodesOf (m : Mesh) (i : ℕ) : List ℕ := (List.range (m.nnode i)).map (m.inpoel i)

/-- Number of nodes of the first `n` cells. -/
def before (m : Mesh) (n : ℕ) : ℕ := ∑ i ∈ Finset.range n, m.nnode i

/-- `r` is the mesh: same number of cells, each with its nodes and a VTK type having that number of nodes. -/
def Faithful (m : Mesh) (r : List (ℕ × List ℕ)) : Prop :=
  r.length = m.nelem ∧ ∀ i (h : i < r.length), r[i].2 = nodesOf m i ∧ vtkNodes r[i].1 = some (m.nnode i)

/-! ### Proofs -/

theorem forLt_snoc {α : Type*} (n : ℕ) (l : List α) (f : ℕ → α) :
    (forLt n l fun i out => out ++ [f i]) = l ++ (List.range n).map f := by
  induction n with
  | zero => simp [forLt_zero]
  | succ n ih => rw [forLt_succ, ih, List.range_succ]; simp

theorem vtuConn_eq (m : Mesh) : vtuConn m = (List.range m.nelem).flatMap (nodesOf m) := by
  unfold vtuConn
  simp only [forLt_snoc]
  generalize m.nelem = n
  induction n with
  | zero => simp [forLt_zero]
  | succ n ih => rw [forLt_succ, ih, List.range_succ]; simp [nodesOf]

theorem vtuOffsets_eq (m : Mesh) : vtuOffsets m = (List.range m.nelem).map fun i => before m (i + 1) := by
  have key : ∀ n, (forLt n ((0 : ℕ), ([] : List ℕ)) fun i s => (s.1 + m.nnode i, s.2 ++ [s.1 + m.nnode i])) =
      (before m n, (List.range n).map fun i => before m (i + 1)) := by
    intro n
    induction n with
    | zero => simp [forLt_zero, before]
    | succ n ih =>
      rw [forLt_succ, ih, List.range_succ]
      simp [before, Finset.sum_range_succ]
  unfold vtuOffsets
  rw [key]

/-- C68: the offsets written with solution data are the cumulative node counts, for any mixture of cells. -/
theorem C68_offsets (m : Mesh) : (vtuOffsets m).length = m.nelem ∧
    ∀ i (h : i < (vtuOffsets m).length), (vtuOffsets m)[i] = ∑ k ∈ Finset.range (i + 1), m.nnode k := by
  rw [vtuOffsets_eq]
  exact ⟨by simp, fun i h => by simp [before]⟩

theorem conn_split (m : Mesh) {n i : ℕ} (hi : i < n) :
    (((List.range n).flatMap (nodesOf m)).take (before m (i + 1))).drop (before m i) = nodesOf m i := by
  have hlen : ∀ k, ((List.range k).flatMap (nodesOf m)).length = before m k := by
    intro k
    induction k with
    | zero => simp [before]
    | succ k ih => rw [List.range_succ, List.flatMap_append, List.length_append, ih, before, before, Finset.sum_range_succ]; simp [nodesOf]
  have hpre : ∀ k, k ≤ n → ∃ t, (List.range n).flatMap (nodesOf m) = (List.range k).flatMap (nodesOf m) ++ t := by
    intro k hk
    refine ⟨((List.range n).drop k).flatMap (nodesOf m), ?_⟩
    rw [← List.flatMap_append]
    congr 1
    have := List.take_append_drop k (List.range n)
    rw [List.take_range, Nat.min_eq_left hk] at this
    exact this.symm
  obtain ⟨t, ht⟩ := hpre (i + 1) hi
  rw [ht, ← hlen (i + 1), List.take_left', List.range_succ, List.flatMap_append, List.flatMap_cons, List.flatMap_nil, List.append_nil,
    ← hlen i, List.drop_left']
  · rfl
  · rfl

theorem cut_length (conn : List ℕ) (a : ℕ) (os : List ℕ) : (cut conn a os).length = os.length := by
  induction os generalizing a with
  | nil => rfl
  | cons o os ih => simp [cut, ih]

theorem cut_get (conn : List ℕ) (a : ℕ) (os : List ℕ) (i : ℕ) (h : i < (cut conn a os).length) :
    (cut conn a os)[i] = (conn.take ((a :: os).getD (i + 1) 0)).drop ((a :: os).getD i 0) := by
  induction os generalizing a i with
  | nil => simp [cut] at h
  | cons o os ih =>
    cases i with
    | zero => simp [cut]
    | succ i =>
      have := ih o i (by simpa [cut] using h)
      simpa [cut] using this

theorem vtuTypes_eq (m : Mesh) (code : ℕ → ℕ) : vtuTypes m code = (List.range m.nelem).map fun i => code (m.nnode i) := by
  unfold vtuTypes; rw [forLt_snoc]; simp

/-- What a reader gets from connectivity cut at arbitrary offsets. -/
theorem decode_get (m : Mesh) (code : ℕ → ℕ) (os : List ℕ) (hl : os.length = m.nelem) :
    (decode ⟨vtuConn m, os, vtuTypes m code⟩).length = m.nelem ∧
    ∀ i (h : i < (decode ⟨vtuConn m, os, vtuTypes m code⟩).length), (decode ⟨vtuConn m, os, vtuTypes m code⟩)[i] =
      (code (m.nnode i), ((vtuConn m).take ((0 :: os).getD (i + 1) 0)).drop ((0 :: os).getD i 0)) := by
  have h1 : (decode ⟨vtuConn m, os, vtuTypes m code⟩).length = m.nelem := by
    simp [decode, cut_length, hl, vtuTypes_eq]
  refine ⟨h1, fun i h => ?_⟩
  simp only [decode, List.getElem_zip, cut_get]
  congr 1
  simp [vtuTypes_eq]

theorem code_ok {n : ℕ} (h : n = 3 ∨ n = 4 ∨ n = 6 ∨ n = 8 ∨ n = 9) : vtkNodes (elemcode n) = some n := by
  rcases h with rfl | rfl | rfl | rfl | rfl <;> rfl

theorem getD_offsets (m : Mesh) {i : ℕ} (hi : i ≤ m.nelem) :
    (0 :: (List.range m.nelem).map fun i => before m (i + 1)).getD i 0 = before m i := by
  cases i with
  | zero => simp [before]
  | succ i =>
    have : i < m.nelem := by omega
    simp [List.getD_eq_getElem?_getD, this]

/-- C68: a reader of the file written with solution data gets exactly the mesh's cells, for any mixture of the five cell types. -/
theorem C68_roundtrip (m : Mesh) (ht : ∀ i, i < m.nelem → m.nnode i = 3 ∨ m.nnode i = 4 ∨ m.nnode i = 6 ∨ m.nnode i = 8 ∨ m.nnode i = 9) :
    Faithful m (decode (writeData m)) := by
  obtain ⟨h1, h2⟩ := decode_get m elemcode (vtuOffsets m) (C68_offsets m).1
  refine ⟨h1, fun i h => ?_⟩
  have hi : i < m.nelem := by rw [← h1]; exact h
  have h3 : (decode (writeData m))[i] = _ := h2 i h
  rw [h3]
  refine ⟨?_, code_ok (ht i hi)⟩
  show List.drop _ _ = _
  rw [vtuOffsets_eq, getD_offsets m (by omega), getD_offsets m (by omega), vtuConn_eq, conn_split m hi]

/-- C68: the offsets of the mesh writer are the cumulative node counts exactly when all cells have the same number of nodes. -/
theorem C68_mesh_offsets_iff (m : Mesh) : vtuOffsetsMesh m = vtuOffsets m ↔ ∀ i, i < m.nelem → m.nnode i = m.nnode 0 := by
  have he : vtuOffsetsMesh m = (List.range m.nelem).map fun i => m.nnode i * (i + 1) := by
    unfold vtuOffsetsMesh; rw [forLt_snoc]; simp
  rw [he, vtuOffsets_eq, List.map_inj_left]
  constructor
  · intro h i
    induction i with
    | zero => intro _; rfl
    | succ i ih =>
      intro hi
      have h1 := h i (List.mem_range.2 (by omega))
      have h2 := h (i + 1) (List.mem_range.2 hi)
      rw [before, Finset.sum_range_succ, ← before, ← h1] at h2
      rw [← ih (by omega)]
      have : m.nnode (i + 1) * (i + 1) = m.nnode i * (i + 1) := by linarith
      exact Nat.eq_of_mul_eq_mul_right (by omega) this
  · intro h i hi
    rw [before, Finset.sum_congr rfl fun k hk => h k (by have := List.mem_range.1 hi; have := Finset.mem_range.1 hk; omega),
      Finset.sum_const, h i (List.mem_range.1 hi)]
    simp [mul_comm]

/-- C68 (part): meshes of one cell type (not the nine-node one) are written faithfully by the mesh writer. Missing: hybrid meshes and
nine-node cells, for which it is false (`C68_refuted`, `C68_nine_refuted`). -/
theorem C68_mesh_partial (m : Mesh) {n : ℕ} (hn : n = 3 ∨ n = 4 ∨ n = 6 ∨ n = 8) (ht : ∀ i, i < m.nelem → m.nnode i = n) :
    Faithful m (decode (writeMesh m)) := by
  have hE : writeMesh m = writeData m := by
    have h1 : vtuOffsetsMesh m = vtuOffsets m := (C68_mesh_offsets_iff m).2 fun i hi => by rw [ht i hi, ht 0 (by omega)]
    have h2 : vtuTypes m elemcodeMesh = vtuTypes m elemcode := by
      rw [vtuTypes_eq, vtuTypes_eq, List.map_inj_left]
      intro i hi
      rw [ht i (List.mem_range.1 hi)]
      rcases hn with rfl | rfl | rfl | rfl <;> rfl
    rw [writeMesh, writeData, h1, h2]
  rw [hE]
  exact C68_roundtrip m fun i hi => by rw [ht i hi]; tauto

/-- C68 is refuted for the mesh writer: a square followed by a triangle is read back with the wrong nodes for the triangle. -/
theorem C68_refuted : ¬ Faithful exMesh (decode (writeMesh exMesh)) ∧
    (decode (writeMesh exMesh)).getD 1 (0, []) = (5, [1, 4]) ∧ nodesOf exMesh 1 = [1, 4, 2] := by
  have hd : decode (writeMesh exMesh) = [(9, [0, 1, 2, 3]), (5, [1, 4])] := by decide +kernel
  have hn : nodesOf exMesh 1 = [1, 4, 2] := by decide +kernel
  refine ⟨fun h => ?_, by rw [hd]; rfl, hn⟩
  have := (h.2 1 (by rw [hd]; decide)).1
  simp [hd, hn] at this

/-- C68 is refuted for nine-node cells: every mesh having one is written by the mesh writer with a type of eight nodes. -/
theorem C68_nine_refuted (m : Mesh) {i : ℕ} (hi : i < m.nelem) (h9 : m.nnode i = 9) : ¬ Faithful m (decode (writeMesh m)) := by
  intro h
  obtain ⟨h1, h2⟩ := decode_get m elemcodeMesh (vtuOffsetsMesh m) (by unfold vtuOffsetsMesh; rw [forLt_snoc]; simp)
  have h3 := (h.2 i (by rw [h.1]; exact hi)).2
  have h4 := h2 i (by rw [h1]; exact hi)
  simp only [writeMesh] at h3
  rw [h4, h9] at h3
  exact absurd (show vtkNodes (elemcodeMesh 9) = some 9 from h3) (by decide)

/-- The round-trip theorem applies to the hybrid mesh. -/
example : Faithful exMesh (decode (writeData exMesh)) ∧ (writeData exMesh).offsets = [4, 7] := by
  refine ⟨C68_roundtrip exMesh ?_, by decide +kernel⟩
  show ∀ i, i < 2 → _
  intro i _
  show (if i = 0 then 4 else 3) = 3 ∨ _
  by_cases h : i = 0
  · right; left; show (if i = 0 then 4 else 3) = 4; rw [if_pos h]
  · left; rw [if_neg h]

/-- Meshes of one cell type exist. -/
example : Faithful { exMesh with nnode := fun _ => 3 } (decode (writeMesh { exMesh with nnode := fun _ => 3 })) :=
  C68_mesh_partial _ (Or.inl rfl) fun _ _ => rfl

/-- A mesh with a nine-node cell. -/
example : ¬ Faithful { exMesh with nnode := fun _ => 9 } (decode (writeMesh { exMesh with nnode := fun _ => 9 })) :=
  C68_nine_refuted _ (i := 0) (by decide) rfl

end Out
end FVENS
