import Verif.Mesh.Bpoints
import Verif.Mesh.Check
import Verif.Mesh.Compare
import Verif.Mesh.Conform
import Verif.Mesh.Geom
import Verif.Mesh.Gmsh
import Verif.Mesh.Host
import Verif.Mesh.Levels
import Verif.Mesh.LineGraph
import Verif.Mesh.Order
import Verif.Mesh.Psup
import Verif.Mesh.Renumber
import Verif.Mesh.Su2
import Verif.Mesh.Sub
import Verif.Par.Layout

/-!
Concrete cases of the theorems on meshes (`Mesh/*`). `exMesh` is a square with a triangle attached, `cross` a square cut
by its diagonals into four triangles.
-/

namespace FVENS.Cases

open FVENS Msh

/-- Connectivity of `cross`. -/
noncomputable def crossS : FState := FV.Geo.cross_topological.choose
theorem crossS_ok : topological FV.Geo.cross = .ok crossS := FV.Geo.cross_topological.choose_spec.1
theorem cross_c : Conforming FV.Geo.cross := Par.cross_conforming
theorem cross_tags : FV.Geo.cross.nbtag ≤ 4 := by decide +kernel

/-! ## C22, C23, C24: the edge from (0,0) to (3,4) -/

theorem edge_ne : (![0, 0] : Fin 2 → ℝ) ≠ ![3, 4] := fun e => by have := congrFun e 0; norm_num at this

example := C22_unit edge_ne
example := C22_outward (c := ![-4, 3]) edge_ne
example := C24_face_error (rc := ![-1, 2]) edge_ne
example := C23_divergence cross_c FV.Geo.cross_nozero crossS_ok (i := 2) (by decide +kernel) (Or.inl (by decide +kernel))
example := C23_total cross_c FV.Geo.cross_nozero crossS_ok

/-! ## C25, C26 -/

example := C25_lists_exact exMesh_lin.nodesOk
example := C25_membership exMesh_lin.nodesOk (v := 1) (by show 1 < 5; decide)
example := C25_strictly_increasing exMesh_lin.nodesOk (fun i hi j k hj hk => exMesh_lin.inj i hi j k hj hk) (v := 1) (by show 1 < 5; decide)

theorem ex_glued : Glued exMesh (0, 1) (1, 2) :=
  ⟨⟨by show 0 < 2; decide, by show 1 < 4; decide⟩, ⟨by show 1 < 2; decide, by show 2 < 3; decide⟩, by decide, by decide⟩
theorem ex_esuel : esuel exMesh (esup exMesh) 0 1 = some 1 :=
  (C26_adjacency_exact exMesh_lin exMesh_manifold 0 1 1).2 ⟨2, ex_glued⟩

example := C26_sound exMesh_lin ex_esuel
example := C26_complete exMesh_lin ex_glued
example := C26_symmetric exMesh_lin exMesh_manifold ex_esuel

/-! ## C27, C71 -/

example := C27_ranges cross_c.lin cross_c.bfOk crossS_ok
example := C27_interior cross_c.lin cross_c.manifold cross_c.bfOk crossS_ok
example := C27_interior_once cross_c.lin cross_c.manifold cross_c.bfOk crossS_ok Par.cross_glued01 (by decide)
example := C71_elemface cross_c crossS_ok (x := (0, 1)) ⟨by decide +kernel, by decide +kernel⟩
/-- face 4 lies between cells 0 and 1 -/
example : crossS.esuel 0 1 = some 1 := by
  have hf := FV.Geo.cross_topological.choose_spec.2
  exact (C71_neighbour cross_c crossS_ok (x := (0, 1)) (k := 4) (F := ⟨0, 1, 1, 4⟩) ⟨by decide +kernel, by decide +kernel⟩
    (by show (FV.Geo.cross_topological.choose).faces[4]? = _; rw [hf]; rfl) ⟨by decide +kernel, Or.inl rfl⟩).1 rfl

/-! ## C28, C29: the reversed boundary face of `exMesh` -/

/-- the diagonal of the square is no edge -/
example : bfaceHost exMesh (esup exMesh) 0 2 = .ub := by
  rw [C28_ub_iff exMesh_lin (by show 0 < 5; decide) (by show 2 < 5; decide)]
  have h0 : ∀ i, HasBoth exMesh 0 2 i → i = 0 := by
    rintro i ⟨⟨hi, j, hj, e⟩, -⟩
    have hi : i < 2 := hi
    rcases (show i = 0 ∨ i = 1 by omega) with rfl | rfl
    · rfl
    · exact absurd e ((by decide : ∀ j < 3, exMesh.inpoel 1 j ≠ 0) j hj)
  refine ⟨fun i j hi hj => (h0 i hi).trans (h0 j hj).symm, fun i f hi hf => ?_⟩
  obtain rfl := h0 i hi
  exact (by decide : ∀ f < 4, edge exMesh (0, f) ≠ s(0, 2)) f hf

theorem exBf : BfOk exMesh := by
  intro k hk
  exact (by decide : ∀ k < 5, exMesh.bface k 0 < 5 ∧ exMesh.bface k 1 < 5) k hk

example : ∃ m', correctOrientation exMesh = .ok m' ∧ correctOrientation m' = .ok m' ∧
    ∀ k < 5, s(m'.bface k 0, m'.bface k 1) = s(exMesh.bface k 0, exMesh.bface k 1) := by
  have : ∃ m', correctOrientation exMesh = .ok m' := by
    rw [correctOrientation, exMesh_hosts]; exact ⟨_, rfl⟩
  obtain ⟨m', h⟩ := this
  exact ⟨m', h, C29_idempotent exMesh_lin exBf h, (C29_oriented exMesh_lin exBf h).2.1⟩

/-! ## C30, C31 -/

theorem swapPerm : IsPerm exMesh.nelem (fun i => 1 - i) :=
  ⟨fun i hi => by have hi : i < 2 := hi; show 1 - i < 2; omega, fun i j hi hj e => by
    have hi : i < 2 := hi
    have hj : j < 2 := hj
    have e : 1 - i = 1 - j := e
    omega⟩

example := C30_geometry exMesh (fun i => 1 - i) (i := 0) (by show 0 < 2; decide)
example : Glued (reorderCells exMesh (fun i => 1 - i)) (1, 1) (0, 2) :=
  (C30_adjacency swapPerm (by show 1 < 2; decide) (by show 0 < 2; decide)).2 ex_glued
example := C31_disabled perEx 2 (-1) (fun i => 100 + i) (by simp)

/-! ## C32, C72, C84, C85 -/

example : readGmsh (writeGmsh { exMesh with nelem := 0 }) = none := C32_no_cells_refuted _ rfl (by show 1 ≤ 21; decide)
example := C72_node_numbers_refuted (hdr := [[], [], [], []]) rfl
example (w1 w2 : Tok) (rest : List Tok) := C72_order_refuted w1 w2 rest (hdr := [[], [], [], []]) rfl
example (rest : List Su2.STok) := Su2.C84_name_throws Su2.square Su2.plain_ok (by simp [Su2.square]) (by simp [Su2.square]) (by simp [Su2.square])
  (n := 2) (by decide) (before := []) (after := []) (by simp) (by simp) "wall" 2 rest
example := Bpt.C85_boundary_points exMesh (fun k j hk hj => by
  exact (by decide : ∀ k < 5, ∀ j < 2, exMesh.bface k j < 5) k hk j hj) (fun _ _ => 0)

/-! ## C33 -/

theorem ex34 : ∀ i, i < exMesh.nelem → exMesh.nnode i = 3 ∨ exMesh.nnode i = 4 := by
  intro i hi
  have hi : i < 2 := hi
  rcases (show i = 0 ∨ i = 1 by omega) with rfl | rfl
  · exact Or.inr rfl
  · exact Or.inl rfl

example := C33_exact exMesh_lin ex34 (p := 1) (by show 1 < 5; decide)
example := C33_symmetric exMesh_lin ex34 (p := 1) (q := 4) (by show 1 < 5; decide) (by show 4 < 5; decide)

/-! ## C34 -/

theorem exGraph_symm : ∀ i j, i < exGraph.nelem → j < exGraph.nelem → exGraph.Adj i j → exGraph.Adj j i := by
  have : ∀ i, i < 5 → ∀ j, j < 5 → (∃ f, f < 3 ∧ exGraph.esuel i f = j) → ∃ f, f < 3 ∧ exGraph.esuel j f = i := by decide
  exact fun i j hi hj h => this i hi j hj h

example := C34_levels exGraph exGraph_symm (by decide)
example := C34_cover exGraph exGraph_symm (by decide) (c := 3) (by decide)
example : levelSchedule ⟨0, fun _ => 3, fun _ _ => 0⟩ = [0, 0] := C34_empty _ rfl

theorem opp_levels : ∃ s, topological oppMesh = .ok s ∧ meshLevelSchedule oppMesh s = some [0, 2, 4] := by
  rw [topological, faceConnectivity, opp_hosts]
  exact ⟨_, rfl, by decide +kernel⟩

example : [0, 2, 4].IsChain (IsLevel oppMesh) ∧
    ∀ L : List ℕ, L.head? = some 0 → L.getLast? = some oppMesh.nelem → L.IsChain (IsLevel oppMesh) → L = [0, 2, 4] := by
  obtain ⟨s, hs, he⟩ := opp_levels
  obtain ⟨L, h1, h2, h3, h4⟩ := C34_mesh_levels (by decide +kernel : Check oppMesh).conforming hs (by decide +kernel)
  obtain rfl : [0, 2, 4] = L := Option.some.inj (he.symm.trans h1)
  exact ⟨h4, fun L' a b c => C34_mesh_unique a h2 b h3 c h4⟩

/-! ## C35, C86: a row of four cells; the first three form a line -/

theorem exW_ok : WOk 4 exW := by
  intro c hc x hx
  have : c = 0 ∨ c = 1 ∨ c = 2 ∨ c = 3 := by omega
  rcases this with rfl | rfl | rfl | rfl <;> simp [exW] at hx <;> (try rcases hx with rfl | rfl) <;> simp_all

theorem exLc_good : GoodLines 4 exW 2 exLc := by
  refine ⟨by simp [exLc], ?_, ?_, by simp [exLc], ?_⟩
  · simp [exLc]
  · have h42 : (2 : ℝ) < 4 := by norm_num
    simp [exLc, exW, h42]
  · intro c k
    simp only [exLc]
    constructor
    · intro h
      split at h
      · rename_i hc
        obtain rfl := Option.some.inj h
        exact ⟨_, rfl, by simp; omega⟩
      · cases h
    · rintro ⟨L, hL, hc⟩
      cases k with
      | zero => simp at hL; subst hL; simp at hc; rw [if_pos hc]
      | succ k => simp at hL

example : ∃ lc, findLines 4 exW 2 [0, 3] = some lc ∧ GoodLines 4 exW 2 lc := by
  obtain ⟨lc, h⟩ := C35_total 2 exW_ok (bel := [0, 3]) (fun c hc => by
    have : c = 0 ∨ c = 1 ∨ c = 2 ∨ c = 3 := by omega
    rcases this with rfl | rfl | rfl | rfl <;> simp [exW]) (by simp)
  exact ⟨lc, h, C35_lines exW_ok (by simp) h⟩
example : (lineOrdering 4 exLc).Perm (List.range 4) := C35_line_permutation exLc_good
/-- the point before the line -/
theorem ord_perm : [1, 0].Perm (List.range (exLc.lines.length + (pointList 4 exLc).length)) := by decide
example : (hybridOrdering 4 exLc [1, 0]).Perm (List.range 4) := C35_hybrid_permutation exLc_good ord_perm
example : [0, 1, 2] <:+: lineOrdering 4 exLc ∧ [0, 1, 2] <:+: hybridOrdering 4 exLc [1, 0] := C35_contiguous ord_perm (by simp [exLc])
example : IsPerm 4 fun i => [3, 0, 2, 1].getD i 0 := C35_isPerm (by decide)

/-- two cells at distance 2 -/
def twoCells : CellGraph := ⟨2, fun _ => 2, fun c f => if f = 0 then 1 - c else 5⟩
/-- their weights -/
noncomputable def twoW : Weights := fun c => [(1 - c, 1)]

theorem twoW_ok : IsWeights twoCells (fun c d => if d = 0 then 2 * (c : ℝ) else 0) twoW := by
  intro i hi
  have hi : i < 2 := hi
  have hr : rawWeights twoCells (fun c d => if d = 0 then 2 * (c : ℝ) else 0) i = [(1 - i, 1 / 2)] := by
    have h4 : (2 : ℝ) ^ 2 = 4 := by norm_num
    have h2 : √(4 : ℝ) = 2 := by rw [← h4]; exact Real.sqrt_sq (by norm_num)
    rcases (show i = 0 ∨ i = 1 by omega) with rfl | rfl <;>
      simp [rawWeights, twoCells, List.range_succ, h4, h2]
  rw [hr]
  have hm : minWeight [(1 - i, (1 / 2 : ℝ))] = 1 / 2 := by
    simp [minWeight]; norm_num
  rw [hm]
  refine ⟨?_, by simp [twoW]⟩
  simp [twoW]

example : findLines 2 twoW (1 / 2) [0] = some ⟨upd (upd (fun _ => none) 0 (some 0)) 1 (some 0), [[0, 1]]⟩ ∧ [0, 1].IsChain twoCells.Adj := by
  have h : findLines 2 twoW (1 / 2) [0] = some ⟨upd (upd (fun _ => none) 0 (some 0)) 1 (some 0), [[0, 1]]⟩ := by
    have h12 : (1 / 2 : ℝ) < 1 := by norm_num
    simp [findLines, lineBody, lineFrom, twoW, upd, inv_lt_one₀]
    try norm_num
  exact ⟨h, C35_lines_adjacent twoW_ok (thr := 1 / 2) (bel := [0]) (by simp [twoCells]) h (by simp)⟩

/-- four cells in a row with centres at -3, 0, 1 and 4; the line runs between the two that are close to each other -/
def fourCells : CellGraph := ⟨4, fun _ => 2, fun c f => match c, f with
  | 0, 0 => 1 | 0, 1 => 3 | 1, 0 => 0 | 1, 1 => 2 | 2, 0 => 1 | 3, 0 => 0 | _, _ => 9⟩
/-- their centres -/
noncomputable def fourAt : ℕ → Fin 2 → ℝ := fun c d => if d = 1 then (if c = 0 then 0 else if c = 1 then 1 else if c = 2 then 4 else -3) else 0
/-- their weights -/
noncomputable def fourW : Weights := fun c => match c with
  | 0 => [(1, 3), (3, 1)] | 1 => [(0, 3), (2, 1)] | 2 => [(1, 1)] | 3 => [(0, 1)] | _ => []

theorem fourW_ok : IsWeights fourCells fourAt fourW := by
  have s3 : √((1 - 4 : ℝ) ^ 2) = 3 := by rw [show (1 - 4 : ℝ) ^ 2 = 3 ^ 2 by norm_num]; exact Real.sqrt_sq (by norm_num)
  have s3' : √((4 - 1 : ℝ) ^ 2) = 3 := by rw [show (4 - 1 : ℝ) ^ 2 = 3 ^ 2 by norm_num]; exact Real.sqrt_sq (by norm_num)
  have s9 : √((3 : ℝ) ^ 2) = 3 := Real.sqrt_sq (by norm_num)
  have r0 : rawWeights fourCells fourAt 0 = [(1, 1), (3, 1 / 3)] := by
    simp only [rawWeights, fourCells, List.range_succ, fourAt]; simp [s9]
  have r1 : rawWeights fourCells fourAt 1 = [(0, 1), (2, 1 / 3)] := by
    simp only [rawWeights, fourCells, List.range_succ, fourAt]; simp [s3]
  have r2 : rawWeights fourCells fourAt 2 = [(1, 1 / 3)] := by
    simp only [rawWeights, fourCells, List.range_succ, fourAt]; simp [s3']
  have r3 : rawWeights fourCells fourAt 3 = [(0, 1 / 3)] := by
    simp only [rawWeights, fourCells, List.range_succ, fourAt]; simp [s9]
  intro i hi
  have hi : i < 4 := hi
  interval_cases i
  · rw [r0]; norm_num [minWeight, fourW]
  · rw [r1]; norm_num [minWeight, fourW]
  · rw [r2]; norm_num [minWeight, fourW]
  · rw [r3]; norm_num [minWeight, fourW]

example : [1, 0].IsChain fun c d => ∃ e, e < 4 ∧ fourCells.Adj c e ∧ 2 * euclid (fourAt c) (fourAt d) < euclid (fourAt c) (fourAt e) := by
  have h23 : (2 : ℝ) < 3 := by norm_num
  have h : findLines 4 fourW 2 [1] = some ⟨upd (upd (fun _ => none) 1 (some 0)) 0 (some 0), [[1, 0]]⟩ := by
    simp [findLines, lineBody, lineFrom, fourW, upd, h23]
  have hd : ∀ i, i < 4 → ∀ j, j < 4 → fourCells.Adj i j → 1e-20 ≤ euclid (fourAt i) (fourAt j) := by
    have : ∀ i, i < 4 → ∀ j, j < 4 → (∃ f < 2, fourCells.esuel i f = j) → i ≠ j := by decide
    intro i hi j hj hij
    have hne := this i hi j hj hij
    refine Real.le_sqrt_of_sq_le ?_
    interval_cases i <;> interval_cases j <;> simp [fourAt] at hne ⊢ <;> norm_num
  exact C35_anisotropy fourW_ok (fun i j hi hj => hd i hi j hj) (thr := 2) (bel := [1]) (by simp [fourCells]) h (by simp)

theorem row_graph : linePointGraph exRow exLc = some [[0, 0, 0, 0, 0, 1], [1, 0]] := by decide

example := C86_blocks exLc_good
example := C86_entries (g := exRow) exLc_good row_graph
example := C86_inside (g := exRow) exLc_good row_graph (a := 0) (b := 1) rfl (by simp)
example : 0 ∈ [1, 0] := C86_symmetric (g := exRow) exLc_good (by
    have : ∀ c < 4, ∀ d < 4, (∃ f < 3, exRow.esuel c f = d) → ∃ f < 3, exRow.esuel d f = c := by decide
    exact fun c d hc hd h => this c hc d hd h) row_graph (a := 0) (b := 1) rfl rfl (by simp)
/-- four triangles around a point, with strong coupling to the next one around it -/
example : ∃ lc G, findLines FV.Geo.cross.nelem (fun c => [((c + 1) % 4, 4)]) 2 [0, 1, 2, 3] = some lc ∧
    linePointGraph (meshGraph FV.Geo.cross crossS) lc = some G := by
  have hn : FV.Geo.cross.nelem = 4 := by decide +kernel
  have hw : WOk FV.Geo.cross.nelem (fun c => [((c + 1) % 4, 4)]) := by
    intro c _ x hx
    simp only [List.mem_singleton] at hx
    rw [hx, hn]
    exact Nat.mod_lt _ (by omega)
  obtain ⟨lc, hlc⟩ := C35_total 2 hw (bel := [0, 1, 2, 3]) (fun c _ => by simp) (by rw [hn]; simp)
  obtain ⟨G, hG, -⟩ := C86_mesh cross_c crossS_ok hw (by rw [hn]; simp) hlc
  exact ⟨lc, G, hlc, hG⟩

/-! ## C37, C38, C79: `cross` on two processes -/

/-- the subdomain of rank 0 -/
noncomputable def crossSub : Sub := (C37_extraction cross_c rfl cross_tags crossS_ok (fun i => i / 2) 0).choose
theorem crossSub_ok : restrict FV.Geo.cross crossS (fun i => i / 2) 0 = .ok crossSub :=
  (C37_extraction cross_c rfl cross_tags crossS_ok (fun i => i / 2) 0).choose_spec.1
theorem crossSub_is : IsSub FV.Geo.cross (fun i => i / 2) 0 crossSub :=
  (C37_extraction cross_c rfl cross_tags crossS_ok (fun i => i / 2) 0).choose_spec.2

example := C37_coordinates cross_c rfl cross_tags crossS_ok (fun i => i / 2) 0 crossSub_ok (l := 0) (by
  rw [crossSub_is.nelem]
  exact List.length_pos_of_mem ((crossSub_is.cells 1).2 ⟨by decide +kernel, rfl⟩))
example := C38_sound cross_c rfl cross_tags crossS_ok (fun i => i / 2) 0 crossSub_ok

/-- every interface face ends at the inner point 4 -/
theorem cross_inner4 (g f : ℕ) (h : Interface FV.Geo.cross (fun i => i / 2) g f) :
    ∃ p ∈ edge FV.Geo.cross (g, f), ¬ PtOnB FV.Geo.cross (fun i => i / 2) 0 p := by
  obtain ⟨j, k, hg, -⟩ := h
  refine ⟨4, ?_, Par.cross_inner _ 0⟩
  have h0 : ∀ g < 4, ∀ j < 4, ∀ k < 3, g ≠ j → edge FV.Geo.cross (g, 0) ≠ edge FV.Geo.cross (j, k) := by decide +kernel
  have h1 : ∀ g < 4, ∀ f < 3, f ≠ 0 → FV.Geo.cross.inpoel g f = 4 ∨ FV.Geo.cross.inpoel g ((f + 1) % 3) = 4 := by decide +kernel
  have n3 : ∀ g < 4, FV.Geo.cross.nnode g = 3 := by decide +kernel
  have hgi : g < 4 := hg.1.1
  have hji : j < 4 := hg.2.1.1
  have hf : f < 3 := by have := hg.1.2; simpa [n3 g hgi] using this
  have hk : k < 3 := by have := hg.2.1.2; simpa [n3 j hji] using this
  rw [edge, Sym2.mem_iff]
  have f0 : f ≠ 0 := by
    rintro rfl
    exact h0 g hgi j hji k hk hg.2.2.1 hg.2.2.2
  rcases h1 g hgi f hf f0 with e | e
  · exact Or.inl e.symm
  · right
    show 4 = FV.Geo.cross.inpoel g ((f + 1) % FV.Geo.cross.nnode g)
    rw [n3 g hgi, e]

/-- the face between cells 1 and 2 is registered by rank 0 -/
example : ∃ l ic, ic < crossSub.mesh.nconnface ∧ connKey crossSub.mesh ic = (l, 1) := by
  have hgl : Glued FV.Geo.cross (1, 1) (2, 2) :=
    ⟨⟨by decide +kernel, by decide +kernel⟩, ⟨by decide +kernel, by decide +kernel⟩, by decide, by decide +kernel⟩
  have hi : Interface FV.Geo.cross (fun i => i / 2) 1 1 := ⟨2, 2, hgl, by decide⟩
  obtain ⟨l, hl⟩ := List.mem_iff_getElem?.1 ((crossSub_is.cells 1).2 ⟨by decide +kernel, rfl⟩)
  obtain ⟨ic, h1, h2⟩ := (C38_registered_iff cross_c rfl cross_tags crossS_ok (fun i => i / 2) 0 crossSub_ok hl hi).2 (cross_inner4 1 1 hi)
  exact ⟨l, ic, h1, h2⟩

example := C79_check (eps := 0) cross_c rfl cross_tags crossS_ok 0 le_rfl
example := C79_refuted (eps := 0) le_rfl

/-! ## C78 -/

example := C78_refuted (eps := 0) le_rfl
example := C78_partial (C78_refuted (eps := 0) le_rfl).2.2.1
example (eps : ℝ) : compareMeshes eps FV.Geo.cross { FV.Geo.cross with npoin := 4 } = none :=
  C78_smaller_refuted (Or.inl (by decide +kernel))
example : Agree (1 / 2) FV.Geo.cross FV.Geo.cross := by
  refine C78_sound (C78_complete ⟨rfl, rfl, rfl, fun _ _ => rfl, fun _ _ => rfl, fun _ _ _ _ => rfl, fun _ _ => ⟨rfl, rfl⟩, fun _ _ _ _ => rfl, ?_⟩ le_rfl)
  intro p _ d
  simp

end FVENS.Cases
