import Verif.FV.DiffMax
import Verif.Par.Positive

/-!
# Maximum principle of the diffusion solver: meshes of convex cells, and rectangles (C101)
-/

namespace FVENS
namespace FV

open Msh Finset Ode

/-- Specification: a triangle or quadrilateral with counterclockwise nodes, all other nodes to the left of each side. -/
def ConvexCell (m : Mesh) (i : ℕ) : Prop :=
  (m.nnode i = 3 ∨ m.nnode i = 4) ∧ ∀ f g, f < m.nnode i → g < m.nnode i → g ≠ f → g ≠ (f + 1) % m.nnode i →
    0 < triArea (m.coords (m.inpoel i f)) (m.coords (m.inpoel i ((f + 1) % m.nnode i))) (m.coords (m.inpoel i g))

/-- The centre of a convex cell lies inside each of its sides. -/
theorem ConvexCell.inside {m : Mesh} {i f : ℕ} (h : ConvexCell m i) (hf : f < m.nnode i) :
    0 < ((nodeA m i f 0 + nodeB m i f 0) / 2 - centre m i 0) * (nodeB m i f 1 - nodeA m i f 1) -
      ((nodeA m i f 1 + nodeB m i f 1) / 2 - centre m i 1) * (nodeB m i f 0 - nodeA m i f 0) := by
  obtain ⟨hn | hn, hc⟩ := h
  · have hce : ∀ d, centre m i d = (m.coords (m.inpoel i 0) d + m.coords (m.inpoel i 1) d + m.coords (m.inpoel i 2) d) / 3 := fun d => by
      unfold centre; rw [hn]; simp [forLt_succ, forLt_zero]
    rw [hn] at hf
    unfold nodeA nodeB
    simp only [hce]
    obtain rfl | rfl | rfl : f = 0 ∨ f = 1 ∨ f = 2 := by omega
    · have := hc 0 2 (by omega) (by omega) (by omega) (by rw [hn]; omega)
      rw [hn] at this ⊢
      norm_num [triArea] at this ⊢
      linarith
    · have := hc 1 0 (by omega) (by omega) (by omega) (by rw [hn]; omega)
      rw [hn] at this ⊢
      norm_num [triArea] at this ⊢
      linarith
    · have := hc 2 1 (by omega) (by omega) (by omega) (by rw [hn]; omega)
      rw [hn] at this ⊢
      norm_num [triArea] at this ⊢
      linarith
  · have hce : ∀ d, centre m i d = (m.coords (m.inpoel i 0) d + m.coords (m.inpoel i 1) d + m.coords (m.inpoel i 2) d + m.coords (m.inpoel i 3) d) / 4 := fun d => by
      unfold centre; rw [hn]; simp [forLt_succ, forLt_zero]
    rw [hn] at hf
    unfold nodeA nodeB
    simp only [hce]
    obtain rfl | rfl | rfl | rfl : f = 0 ∨ f = 1 ∨ f = 2 ∨ f = 3 := by omega
    · have h1 := hc 0 2 (by omega) (by omega) (by omega) (by rw [hn]; omega)
      have h2 := hc 0 3 (by omega) (by omega) (by omega) (by rw [hn]; omega)
      rw [hn] at h1 h2 ⊢
      norm_num [triArea] at h1 h2 ⊢
      linarith
    · have h1 := hc 1 0 (by omega) (by omega) (by omega) (by rw [hn]; omega)
      have h2 := hc 1 3 (by omega) (by omega) (by omega) (by rw [hn]; omega)
      rw [hn] at h1 h2 ⊢
      norm_num [triArea] at h1 h2 ⊢
      linarith
    · have h1 := hc 2 0 (by omega) (by omega) (by omega) (by rw [hn]; omega)
      have h2 := hc 2 1 (by omega) (by omega) (by omega) (by rw [hn]; omega)
      rw [hn] at h1 h2 ⊢
      norm_num [triArea] at h1 h2 ⊢
      linarith
    · have h1 := hc 3 1 (by omega) (by omega) (by omega) (by rw [hn]; omega)
      have h2 := hc 3 2 (by omega) (by omega) (by omega) (by rw [hn]; omega)
      rw [hn] at h1 h2 ⊢
      norm_num [triArea] at h1 h2 ⊢
      linarith

/-- Local faces of the cells on the two sides of a face. -/
theorem Geo.Ok.nodes {G : Geo} (h : G.Ok) (hn : G.m.nconnface = 0) {k : ℕ} (hk : k < G.nface) :
    (∃ f, f < G.m.nnode (G.face k).left ∧ G.m.coords (G.face k).n0 = nodeA G.m (G.face k).left f ∧ G.m.coords (G.face k).n1 = nodeB G.m (G.face k).left f) ∧
    (¬ k < G.m.nbface → ∃ g, g < G.m.nnode (G.face k).right ∧ G.m.coords (G.face k).n1 = nodeA G.m (G.face k).right g ∧
      G.m.coords (G.face k).n0 = nodeB G.m (G.face k).right g) := by
  have hget : G.s.faces[k]? = some (G.face k) := faceAt_get hk
  by_cases hb : k < G.m.nbface
  · refine ⟨?_, fun h => absurd hb h⟩
    obtain ⟨i, f, hi, hf, ha⟩ := Disc.bnd_across h.conf hb
    obtain ⟨k', hk', -, hs⟩ := side_exists h (i := i) (f := f) ⟨hi, hf⟩ ha
    obtain ⟨rfl, -, e⟩ := hs
    rw [e]
    exact ⟨f, hf, rfl, rfl⟩
  · have hin : G.inner k := by
      rw [h.nface_eq, hn] at hk
      exact ⟨by omega, by omega⟩
    have : G.face k ∈ (G.s.faces.drop G.m.nbface).take (ninface G.m (esuel G.m (esup G.m))) := by
      rw [List.mem_iff_getElem?]
      refine ⟨k - G.m.nbface, ?_⟩
      have := hin.1; have := hin.2
      rw [List.getElem?_take_of_lt (by unfold Geo.ni at this; omega), List.getElem?_drop, Nat.add_sub_cancel' hin.1]
      exact hget
    obtain ⟨f, g, j, i, hgl, hij, he⟩ := (C27_interior h.conf.lin h.conf.manifold h.conf.bfOk h.topo _).1 this
    rw [he]
    refine ⟨⟨f, hgl.1.2, rfl, rfl⟩, fun _ => ⟨g, hgl.2.1.2, ?_, ?_⟩⟩
    · unfold nodeA; rw [h.conf.opposite _ _ hgl]
    · unfold nodeB
      have := h.conf.opposite _ _ hgl.symm
      simp only at this
      rw [this]

namespace Diff

/-- `DiffusionMA` object on the mesh of a single process: centres and areas of src/mesh/mesh.cpp:294-327, ghost centres of src/spatial/aspatial.cpp:104-117. -/
noncomputable def onMesh {nv : ℕ} (m : Mesh) (s : FState) (nu bval : ℝ) (source : (Fin 2 → ℝ) → (Fin nv → ℝ) → Fin nv → ℝ) : Diff nv where
  G := { m := m, s := s, rc := centre m
         rcbp := fun k => ghostMid (m.coords (faceAt s.faces k).n0) (m.coords (faceAt s.faces k).n1) (centre m (faceAt s.faces k).left)
         ar := fun i => (area m i).getD 0 }
  nu := nu
  bval := bval
  source := source

variable {nv : ℕ} {m : Mesh} {s : FState} {nu bval : ℝ} {source : (Fin 2 → ℝ) → (Fin nv → ℝ) → Fin nv → ℝ}

/-- C101: on meshes of convex cells with counterclockwise nodes all conductances and areas are positive. -/
theorem C101_convex (hc : Conforming m) (hn : m.nconnface = 0) (hz : NoZeroFace m) (ht : topological m = .ok s) (hx : ∀ i, i < m.nelem → ConvexCell m i) (hnu : 0 < nu) :
    (∀ k, k < (onMesh m s nu bval source).G.nface → 0 < (onMesh m s nu bval source).wt k) ∧ ∀ i, i < m.nelem → 0 < (onMesh m s nu bval source).G.ar i := by
  set D := onMesh m s nu bval source with hD
  have hG : D.G.Ok := ⟨hc, hz, ht⟩
  refine ⟨fun k hk => ?_, fun i hi => ?_⟩
  · have hlen : 0 < D.G.len k := Disc.len_pos (D := { Disc.exDisc with G := D.G }) hG hk
    obtain ⟨⟨f, hf, e0, e1⟩, hR⟩ := hG.nodes hn hk
    have hl := (hG.kind hk).1
    have h1 := (hx _ hl).inside hf
    change D.G.m.coords (D.G.face k).n0 = nodeA m _ f at e0
    change D.G.m.coords (D.G.face k).n1 = nodeB m _ f at e1
    rw [← e0, ← e1] at h1
    have hS : 0 < (D.G.xr k 0 - D.G.xl k 0) * D.G.nrm k 0 + (D.G.xr k 1 - D.G.xl k 1) * D.G.nrm k 1 := by
      have hnr : D.G.nrm k 0 = (D.G.m.coords (D.G.face k).n1 1 - D.G.m.coords (D.G.face k).n0 1) / D.G.len k ∧
          D.G.nrm k 1 = (-1 * (D.G.m.coords (D.G.face k).n1 0 - D.G.m.coords (D.G.face k).n0 0)) / D.G.len k := ⟨rfl, rfl⟩
      rw [hnr.1, hnr.2]
      have hxl : D.G.xl k = centre m (D.G.face k).left := rfl
      have key : 0 < (D.G.xr k 0 - D.G.xl k 0) * (D.G.m.coords (D.G.face k).n1 1 - D.G.m.coords (D.G.face k).n0 1) +
          (D.G.xr k 1 - D.G.xl k 1) * (-1 * (D.G.m.coords (D.G.face k).n1 0 - D.G.m.coords (D.G.face k).n0 0)) := by
        by_cases hb : k < D.G.m.nbface
        · have hxr : ∀ d, D.G.xr k d = 2 * ((0 + D.G.m.coords (D.G.face k).n0 d + D.G.m.coords (D.G.face k).n1 d) / 2) - centre m (D.G.face k).left d := fun d => by
            unfold Geo.xr; rw [if_pos hb]; rfl
          rw [hxr, hxr, hxl]
          linarith
        · obtain ⟨g, hg, r0, r1⟩ := hR hb
          have hr : (D.G.face k).right < m.nelem := inner_right hG hn hk hb
          have h2 := (hx _ hr).inside hg
          change D.G.m.coords (D.G.face k).n1 = nodeA m _ g at r0
          change D.G.m.coords (D.G.face k).n0 = nodeB m _ g at r1
          rw [← r0, ← r1] at h2
          have hxr : D.G.xr k = centre m (D.G.face k).right := by unfold Geo.xr; rw [if_neg hb]; rfl
          rw [hxr, hxl]
          linarith
      have e : ∀ a b c d l : ℝ, a * (b / l) + c * (d / l) = (a * b + c * d) / l := fun a b c d l => by ring
      rw [e]
      exact div_pos key hlen
    have hd : 0 < (D.G.xr k 0 - D.G.xl k 0) ^ 2 + (D.G.xr k 1 - D.G.xl k 1) ^ 2 := by
      by_contra hle
      have h0 : D.G.xr k 0 - D.G.xl k 0 = 0 := by nlinarith [pow_two_nonneg (D.G.xr k 0 - D.G.xl k 0), pow_two_nonneg (D.G.xr k 1 - D.G.xl k 1)]
      have h1 : D.G.xr k 1 - D.G.xl k 1 = 0 := by nlinarith [pow_two_nonneg (D.G.xr k 0 - D.G.xl k 0), pow_two_nonneg (D.G.xr k 1 - D.G.xl k 1)]
      rw [h0, h1] at hS
      simp at hS
    have hnu' : 0 < D.nu := hnu
    unfold wt
    split_ifs <;> positivity
  · show 0 < (area m i).getD 0
    obtain ⟨h3 | h4, h⟩ := hx i hi
    · have := h 0 2 (by omega) (by omega) (by omega) (by rw [h3]; omega)
      rw [h3] at this
      simpa [area, h3] using this
    · have h1 := h 0 2 (by omega) (by omega) (by omega) (by rw [h4]; omega)
      have h2 := h 3 2 (by omega) (by omega) (by omega) (by rw [h4]; omega)
      rw [h4] at h1 h2
      have e : triArea (m.coords (m.inpoel i 3)) (m.coords (m.inpoel i 0)) (m.coords (m.inpoel i 2)) =
          triArea (m.coords (m.inpoel i 0)) (m.coords (m.inpoel i 2)) (m.coords (m.inpoel i 3)) := by unfold triArea; ring
      have h2' : 0 < triArea (m.coords (m.inpoel i 3)) (m.coords (m.inpoel i 0)) (m.coords (m.inpoel i 2)) := h2
      rw [e] at h2'
      have h1' : 0 < triArea (m.coords (m.inpoel i 0)) (m.coords (m.inpoel i 1)) (m.coords (m.inpoel i 2)) := h1
      simp only [area, h4]
      norm_num
      linarith

/-! ### A single rectangle -/

/-- Mesh of one quadrilateral (0, 1, 2, 3) with boundary faces in order; all nodes at the origin. -/
noncomputable def rect0 : Mesh where
  npoin := 4
  nelem := 1
  nbface := 4
  nconnface := 0
  nbtag := 1
  ndtag := 1
  nnode := fun _ => 4
  nfael := fun _ => 4
  inpoel := fun _ j => j
  bface := fun k j => (k + j) % 4
  btag := fun _ _ => 1
  volRegions := fun i _ => i
  connface := fun _ _ => 0
  coords := fun _ _ => 0

/-- Rectangle of width `a` and height 1. -/
noncomputable def rect (a : ℝ) : Mesh := { rect0 with coords := fun i => if i = 0 then ![0, 0] else if i = 1 then ![a, 0] else if i = 2 then ![a, 1] else ![0, 1] }

theorem rect_conforming (a : ℝ) : Conforming (rect a) := by
  have h := (by decide +kernel : Check rect0).conforming
  have hl : Lin (rect a) := by cases h.lin; constructor <;> assumption
  exact ⟨hl, h.manifold, h.opposite, h.bf, h.bfDistinct, h.cf, h.cfDistinct, h.cfNotGlued, h.cfNotBf, h.cover⟩

theorem rect0_hosts : bfaceHosts rect0 (esup rect0) = .ok [(0, 0), (0, 1), (0, 2), (0, 3)] := by decide +kernel

theorem rect_topological : ∃ s, (∀ a, topological (rect a) = .ok s) ∧ s.faces = [⟨0, 1, 0, 1⟩, ⟨0, 2, 1, 2⟩, ⟨0, 3, 2, 3⟩, ⟨0, 4, 3, 0⟩] ∧
    ∀ f, f < 4 → s.elemface 0 f = some f := by
  have h : ∃ s, topological rect0 = .ok s ∧ s.faces = [⟨0, 1, 0, 1⟩, ⟨0, 2, 1, 2⟩, ⟨0, 3, 2, 3⟩, ⟨0, 4, 3, 0⟩] ∧ ∀ f, f < 4 → s.elemface 0 f = some f := by
    rw [topological, faceConnectivity, rect0_hosts]
    exact ⟨_, rfl, by decide +kernel, by decide +kernel⟩
  obtain ⟨s, h1, h2⟩ := h
  exact ⟨s, fun a => h1, h2⟩

theorem rect_nozero {a : ℝ} (ha : 0 < a) : NoZeroFace (rect a) := by
  rintro ⟨i, f⟩ ⟨hi, hf⟩
  have hf : f < 4 := hf
  obtain rfl | rfl | rfl | rfl : f = 0 ∨ f = 1 ∨ f = 2 ∨ f = 3 := by omega
  all_goals
    intro e
    have e0 := congrFun e 0
    have e1 := congrFun e 1
    simp [rect, rect0, ha.ne, ha.ne'] at e0 e1

theorem rect_convex {a : ℝ} (ha : 0 < a) {i : ℕ} : ConvexCell (rect a) i := by
  refine ⟨Or.inr rfl, fun f g hf hg => ?_⟩
  have hf : f < 4 := hf
  have hg : g < 4 := hg
  show g ≠ f → g ≠ (f + 1) % 4 → 0 < triArea ((rect a).coords f) ((rect a).coords ((f + 1) % 4)) ((rect a).coords g)
  obtain rfl | rfl | rfl | rfl : f = 0 ∨ f = 1 ∨ f = 2 ∨ f = 3 := by omega
  all_goals
    obtain rfl | rfl | rfl | rfl : g = 0 ∨ g = 1 ∨ g = 2 ∨ g = 3 := by omega
    all_goals
      norm_num [triArea, rect, ha]

/-- Diffusion without source in the rectangle. -/
noncomputable def inRect (a : ℝ) (s : FState) (nu bval : ℝ) : Diff 1 := onMesh (rect a) s nu bval fun _ _ => 0

section rect
variable {a : ℝ} {s : FState} {nu bval : ℝ}

theorem inRect_ok (ha : 0 < a) (hs : ∀ a, topological (rect a) = .ok s) : (inRect a s nu bval).G.Ok := ⟨rect_conforming a, rect_nozero ha, hs a⟩

theorem inRect_faces (hf : s.faces = [⟨0, 1, 0, 1⟩, ⟨0, 2, 1, 2⟩, ⟨0, 3, 2, 3⟩, ⟨0, 4, 3, 0⟩]) :
    (inRect a s nu bval).facesOf 0 = {0, 1, 2, 3} ∧ (inRect a s nu bval).G.face 0 = ⟨0, 1, 0, 1⟩ ∧ (inRect a s nu bval).G.face 1 = ⟨0, 2, 1, 2⟩ ∧
      (inRect a s nu bval).G.face 2 = ⟨0, 3, 2, 3⟩ ∧ (inRect a s nu bval).G.face 3 = ⟨0, 4, 3, 0⟩ := by
  have e : ∀ k, (inRect a s nu bval).G.face k = faceAt s.faces k := fun k => rfl
  have hn : (inRect a s nu bval).G.nface = 4 := by show s.faces.length = 4; rw [hf]; rfl
  refine ⟨?_, ?_, ?_, ?_, ?_⟩
  · unfold facesOf
    rw [hn]
    simp only [e, hf]
    decide
  all_goals rw [e, hf]; rfl

theorem inRect_len (ha : 0 < a) (hf : s.faces = [⟨0, 1, 0, 1⟩, ⟨0, 2, 1, 2⟩, ⟨0, 3, 2, 3⟩, ⟨0, 4, 3, 0⟩]) :
    (inRect a s nu bval).G.len 0 = a ∧ (inRect a s nu bval).G.len 1 = 1 ∧ (inRect a s nu bval).G.len 2 = a ∧ (inRect a s nu bval).G.len 3 = 1 := by
  obtain ⟨-, f0, f1, f2, f3⟩ := inRect_faces (a := a) (nu := nu) (bval := bval) hf
  have hm : (inRect a s nu bval).G.m = rect a := rfl
  unfold Geo.len fLen
  rw [f0, f1, f2, f3, hm]
  norm_num [rect, ha.le]

/-- Areas, time step and conductances of the rectangle. -/
theorem inRect_values (ha : 1 ≤ a) (hf : s.faces = [⟨0, 1, 0, 1⟩, ⟨0, 2, 1, 2⟩, ⟨0, 3, 2, 3⟩, ⟨0, 4, 3, 0⟩]) (he : ∀ f, f < 4 → s.elemface 0 f = some f) :
    (inRect a s nu bval).G.ar 0 = a ∧ (inRect a s nu bval).timestep 0 = a * a / nu ∧ (inRect a s nu bval).load 0 = 4 * nu * (a + 1 / a) ∧
      (inRect a s nu bval).bload 0 = 4 * nu * (a + 1 / a) ∧ (inRect a s nu bval).Orth := by
  have ha0 : 0 < a := by linarith
  obtain ⟨hF, f0, f1, f2, f3⟩ := inRect_faces (a := a) (nu := nu) (bval := bval) hf
  obtain ⟨l0, l1, l2, l3⟩ := inRect_len (nu := nu) (bval := bval) ha0 hf
  have hm : (inRect a s nu bval).G.m = rect a := rfl
  have hc : centre (rect a) 0 = ![a / 2, 1 / 2] := by
    funext d
    unfold centre
    show (forLt 4 _ _) / ((4 : ℕ) : ℝ) = _
    fin_cases d
    · norm_num [forLt_succ, forLt_zero, rect, rect0]; ring
    · norm_num [forLt_succ, forLt_zero, rect, rect0]
  have hxl : ∀ k, k < 4 → (inRect a s nu bval).G.xl k = ![a / 2, 1 / 2] := fun k hk => by
    rw [← hc]
    unfold Geo.xl
    obtain rfl | rfl | rfl | rfl : k = 0 ∨ k = 1 ∨ k = 2 ∨ k = 3 := by omega
    · rw [f0]; rfl
    · rw [f1]; rfl
    · rw [f2]; rfl
    · rw [f3]; rfl
  have hxr : ∀ k, k < 4 → (inRect a s nu bval).G.xr k = ghostMid ((rect a).coords ((inRect a s nu bval).G.face k).n0) ((rect a).coords ((inRect a s nu bval).G.face k).n1) ![a / 2, 1 / 2] := fun k hk => by
    rw [← hc]
    unfold Geo.xr
    rw [if_pos (show k < (inRect a s nu bval).G.m.nbface from hk)]
    obtain rfl | rfl | rfl | rfl : k = 0 ∨ k = 1 ∨ k = 2 ∨ k = 3 := by omega
    · show ghostMid ((rect a).coords ((inRect a s nu bval).G.face 0).n0) ((rect a).coords ((inRect a s nu bval).G.face 0).n1) (centre (rect a) ((inRect a s nu bval).G.face 0).left) = _
      rw [f0]
    · show ghostMid ((rect a).coords ((inRect a s nu bval).G.face 1).n0) ((rect a).coords ((inRect a s nu bval).G.face 1).n1) (centre (rect a) ((inRect a s nu bval).G.face 1).left) = _
      rw [f1]
    · show ghostMid ((rect a).coords ((inRect a s nu bval).G.face 2).n0) ((rect a).coords ((inRect a s nu bval).G.face 2).n1) (centre (rect a) ((inRect a s nu bval).G.face 2).left) = _
      rw [f2]
    · show ghostMid ((rect a).coords ((inRect a s nu bval).G.face 3).n0) ((rect a).coords ((inRect a s nu bval).G.face 3).n1) (centre (rect a) ((inRect a s nu bval).G.face 3).left) = _
      rw [f3]
  have x0 : (inRect a s nu bval).G.xr 0 = ![a / 2, -1 / 2] := by
    rw [hxr 0 (by omega), f0]; funext d; fin_cases d <;> norm_num [ghostMid, rect]; ring
  have x1 : (inRect a s nu bval).G.xr 1 = ![3 * a / 2, 1 / 2] := by
    rw [hxr 1 (by omega), f1]; funext d; fin_cases d <;> norm_num [ghostMid, rect]; ring
  have x2 : (inRect a s nu bval).G.xr 2 = ![a / 2, 3 / 2] := by
    rw [hxr 2 (by omega), f2]; funext d; fin_cases d <;> norm_num [ghostMid, rect]; ring
  have x3 : (inRect a s nu bval).G.xr 3 = ![-a / 2, 1 / 2] := by
    rw [hxr 3 (by omega), f3]; funext d; fin_cases d <;> norm_num [ghostMid, rect]; ring
  have n0 : (inRect a s nu bval).G.nrm 0 = ![0, -1] := by
    have : (inRect a s nu bval).G.nrm 0 = ![((rect a).coords ((inRect a s nu bval).G.face 0).n1 1 - (rect a).coords ((inRect a s nu bval).G.face 0).n0 1) / (inRect a s nu bval).G.len 0,
      (-1 * ((rect a).coords ((inRect a s nu bval).G.face 0).n1 0 - (rect a).coords ((inRect a s nu bval).G.face 0).n0 0)) / (inRect a s nu bval).G.len 0] := rfl
    rw [this, l0, f0]; norm_num [rect]; field_simp
  have n1 : (inRect a s nu bval).G.nrm 1 = ![1, 0] := by
    have : (inRect a s nu bval).G.nrm 1 = ![((rect a).coords ((inRect a s nu bval).G.face 1).n1 1 - (rect a).coords ((inRect a s nu bval).G.face 1).n0 1) / (inRect a s nu bval).G.len 1,
      (-1 * ((rect a).coords ((inRect a s nu bval).G.face 1).n1 0 - (rect a).coords ((inRect a s nu bval).G.face 1).n0 0)) / (inRect a s nu bval).G.len 1] := rfl
    rw [this, l1, f1]; norm_num [rect]
  have n2 : (inRect a s nu bval).G.nrm 2 = ![0, 1] := by
    have : (inRect a s nu bval).G.nrm 2 = ![((rect a).coords ((inRect a s nu bval).G.face 2).n1 1 - (rect a).coords ((inRect a s nu bval).G.face 2).n0 1) / (inRect a s nu bval).G.len 2,
      (-1 * ((rect a).coords ((inRect a s nu bval).G.face 2).n1 0 - (rect a).coords ((inRect a s nu bval).G.face 2).n0 0)) / (inRect a s nu bval).G.len 2] := rfl
    rw [this, l2, f2]; norm_num [rect, ha0.ne']
  have n3 : (inRect a s nu bval).G.nrm 3 = ![-1, 0] := by
    have : (inRect a s nu bval).G.nrm 3 = ![((rect a).coords ((inRect a s nu bval).G.face 3).n1 1 - (rect a).coords ((inRect a s nu bval).G.face 3).n0 1) / (inRect a s nu bval).G.len 3,
      (-1 * ((rect a).coords ((inRect a s nu bval).G.face 3).n1 0 - (rect a).coords ((inRect a s nu bval).G.face 3).n0 0)) / (inRect a s nu bval).G.len 3] := rfl
    rw [this, l3, f3]; norm_num [rect]
  have hnu : (inRect a s nu bval).nu = nu := rfl
  have hb : ∀ k, k < 4 → k < (inRect a s nu bval).G.m.nbface := fun k hk => hk
  have w0 : (inRect a s nu bval).wt 0 = 2 * nu * a := by
    unfold wt; rw [if_pos (hb 0 (by omega)), hnu, l0, x0, n0, hxl 0 (by omega)]; norm_num; ring
  have w1 : (inRect a s nu bval).wt 1 = 2 * nu / a := by
    unfold wt; rw [if_pos (hb 1 (by omega)), hnu, l1, x1, n1, hxl 1 (by omega)]; norm_num; field_simp; ring
  have w2 : (inRect a s nu bval).wt 2 = 2 * nu * a := by
    unfold wt; rw [if_pos (hb 2 (by omega)), hnu, l2, x2, n2, hxl 2 (by omega)]; norm_num; ring
  have w3 : (inRect a s nu bval).wt 3 = 2 * nu / a := by
    unfold wt; rw [if_pos (hb 3 (by omega)), hnu, l3, x3, n3, hxl 3 (by omega)]; norm_num; field_simp; ring
  have hsum : ∑ k ∈ ({0, 1, 2, 3} : Finset ℕ), (inRect a s nu bval).wt k = 4 * nu * (a + 1 / a) := by
    rw [sum_insert (by decide), sum_insert (by decide), sum_insert (by decide), sum_singleton, w0, w1, w2, w3]
    field_simp; ring
  refine ⟨?_, ?_, ?_, ?_, ?_⟩
  · show (area (rect a) 0).getD 0 = a
    have : (rect a).nnode 0 = 4 := rfl
    norm_num [area, this, triArea, rect, rect0]
    ring
  · have hh : (inRect a s nu bval).h 0 = a := by
      have hstep : ∀ f, f < 4 → ((inRect a s nu bval).G.s.elemface 0 f).getD 0 = f := fun f hf => by
        show (s.elemface 0 f).getD 0 = f; rw [he f hf]; rfl
      have : (inRect a s nu bval).h 0 = forLt 4 0 fun f h => if h < (inRect a s nu bval).G.len (((inRect a s nu bval).G.s.elemface 0 f).getD 0)
        then (inRect a s nu bval).G.len (((inRect a s nu bval).G.s.elemface 0 f).getD 0) else h := rfl
      rw [this]
      simp only [forLt_succ, forLt_zero, hstep 0 (by omega), hstep 1 (by omega), hstep 2 (by omega), hstep 3 (by omega), l0, l1, l2, l3, if_pos ha0]
      rw [if_neg (not_lt.2 ha), if_neg (lt_irrefl a), if_neg (not_lt.2 ha)]
    unfold timestep; rw [hh, hnu]
  · unfold load; rw [hF, hsum]
  · unfold bload
    rw [hF, filter_true_of_mem fun k hk => hb k (by simp only [mem_insert, mem_singleton] at hk; omega), hsum]
  · intro k hk j
    have hk : k < 4 := by
      have hn : (inRect a s nu bval).G.nface = 4 := by show s.faces.length = 4; rw [hf]; rfl
      omega
    have hab : √(a * a) = a := Real.sqrt_mul_self ha0.le
    obtain rfl | rfl | rfl | rfl : k = 0 ∨ k = 1 ∨ k = 2 ∨ k = 3 := by omega
    · rw [hxl _ hk, x0, n0]; unfold cdir cdist
      fin_cases j <;> norm_num
    · rw [hxl _ hk, x1, n1]; unfold cdir cdist
      have e : 3 * a / 2 - a / 2 = a := by ring
      fin_cases j <;> simp [e, hab, ha0.ne']
    · rw [hxl _ hk, x2, n2]; unfold cdir cdist
      fin_cases j <;> norm_num
    · rw [hxl _ hk, x3, n3]; unfold cdir cdist
      have e : -a / 2 - a / 2 = -a := by ring
      fin_cases j <;> simp [e, hab, ha0.ne']

theorem inRect_residual (ha : 1 ≤ a) (hs : ∀ a, topological (rect a) = .ok s) (hf : s.faces = [⟨0, 1, 0, 1⟩, ⟨0, 2, 1, 2⟩, ⟨0, 3, 2, 3⟩, ⟨0, 4, 3, 0⟩])
    (he : ∀ f, f < 4 → s.elemface 0 f = some f) (gs : GradScheme) (u : ℕ → Fin 1 → ℝ) :
    (inRect a s nu bval).residual gs (fun _ => 0) u 0 0 0 = 4 * nu * (a + 1 / a) * (bval - u 0 0) := by
  obtain ⟨-, -, hl, -, ho⟩ := inRect_values (nu := nu) (bval := bval) ha hf he
  have hok : (inRect a s nu bval).G.Ok := inRect_ok (by linarith) hs
  rw [residual_cell hok (Or.inr ho) u (show 0 < (inRect a s nu bval).G.m.nelem from Nat.one_pos) 0, ← hl, load, sum_mul]
  have e : ((inRect a s nu bval).source ((inRect a s nu bval).G.rc 0) (u 0) 0 : ℝ) = 0 := rfl
  rw [e, zero_mul, add_zero]
  refine sum_congr rfl fun k hk => ?_
  have hk4 : k < 4 := by
    rw [(inRect_faces (a := a) (nu := nu) (bval := bval) hf).1] at hk
    simp only [mem_insert, mem_singleton] at hk; omega
  unfold nb
  rw [if_pos (show k < (inRect a s nu bval).G.m.nbface from hk4)]
  rfl

/-- The distance from the boundary value after an explicit step. -/
theorem inRect_explicit (ha : 1 ≤ a) (hnu : 0 < nu) (hs : ∀ a, topological (rect a) = .ok s) (hf : s.faces = [⟨0, 1, 0, 1⟩, ⟨0, 2, 1, 2⟩, ⟨0, 3, 2, 3⟩, ⟨0, 4, 3, 0⟩])
    (he : ∀ f, f < 4 → s.elemface 0 f = some f) (gs : GradScheme) (cfl : ℝ) (u : ℕ → Fin 1 → ℝ) :
    (inRect a s nu bval).explicit gs cfl u 0 0 - bval = (1 - 4 * cfl * (a ^ 2 + 1)) * (u 0 0 - bval) := by
  obtain ⟨har, ht, -, -, -⟩ := inRect_values (nu := nu) (bval := bval) ha hf he
  have ha0 : 0 < a := by linarith
  unfold explicit
  rw [if_pos (show 0 < (inRect a s nu bval).G.m.nelem from Nat.one_pos)]
  rw [inRect_residual ha hs hf he, har, ht]
  field_simp
  ring

theorem inRect_norm (ha : 1 ≤ a) (hs : ∀ a, topological (rect a) = .ok s) (hf : s.faces = [⟨0, 1, 0, 1⟩, ⟨0, 2, 1, 2⟩, ⟨0, 3, 2, 3⟩, ⟨0, 4, 3, 0⟩])
    (he : ∀ f, f < 4 → s.elemface 0 f = some f) (hnu : 0 < nu) (gs : GradScheme) (u : ℕ → Fin 1 → ℝ) :
    ((inRect a s nu bval).solver gs).norm u = some (4 * nu * (a + 1 / a) * √a * |u 0 0 - bval|) := by
  obtain ⟨har, -, -, -, -⟩ := inRect_values (nu := nu) (bval := bval) ha hf he
  have ha0 : 0 < a := by linarith
  show Par.rootOf (∑ l ∈ range 1, _) = _
  rw [sum_range_one, inRect_residual ha hs hf he, har]
  have e : 4 * nu * (a + 1 / a) * (bval - u 0 0) * (4 * nu * (a + 1 / a) * (bval - u 0 0)) * a = (4 * nu * (a + 1 / a) * √a * |u 0 0 - bval|) ^ 2 := by
    rw [mul_pow, mul_pow, sq_abs, Real.sq_sqrt ha0.le]; ring
  rw [e, Par.rootOf, if_pos (by positivity), Real.sqrt_sq (by positivity)]

theorem inRect_traj (ha : 1 ≤ a) (hs : ∀ a, topological (rect a) = .ok s) (hf : s.faces = [⟨0, 1, 0, 1⟩, ⟨0, 2, 1, 2⟩, ⟨0, 3, 2, 3⟩, ⟨0, 4, 3, 0⟩])
    (he : ∀ f, f < 4 → s.elemface 0 f = some f) (hnu : 0 < nu) (gs : GradScheme) (c : Conf) (u : ℕ → Fin 1 → ℝ) (n : ℕ) :
    ∃ t, traj forwardEuler ((inRect a s nu bval).solver gs) c u n = some t ∧ t.u 0 0 - bval = (1 - 4 * c.cflinit * (a ^ 2 + 1)) ^ n * (u 0 0 - bval) := by
  induction n with
  | zero => exact ⟨_, rfl, by simp [init]⟩
  | succ n ih =>
    obtain ⟨t, h1, h2⟩ := ih
    have hn := inRect_norm (bval := bval) ha hs hf he hnu gs t.u
    refine ⟨_, by rw [traj, h1, Option.bind_some, body, hn], ?_⟩
    show (inRect a s nu bval).explicit gs c.cflinit t.u 0 0 - bval = _
    rw [inRect_explicit ha hnu hs hf he, h2, pow_succ]
    ring

/-- The distance from the boundary value after an implicit step with boundary blocks `κ` times those of the code. -/
theorem inRect_implicit (ha : 1 ≤ a) (hnu : 0 < nu) (hs : ∀ a, topological (rect a) = .ok s) (hf : s.faces = [⟨0, 1, 0, 1⟩, ⟨0, 2, 1, 2⟩, ⟨0, 3, 2, 3⟩, ⟨0, 4, 3, 0⟩])
    (he : ∀ f, f < 4 → s.elemface 0 f = some f) {gs : GradScheme} {κ cfl : ℝ} (hc : 0 < cfl) {u u' : ℕ → Fin 1 → ℝ}
    (h : (inRect a s nu bval).Implicit gs (fun k => κ • (inRect a s nu bval).blk k) cfl u u') :
    (1 + κ * (2 * cfl * (a ^ 2 + 1))) * (u' 0 0 - bval) = (1 - (2 - κ) * (2 * cfl * (a ^ 2 + 1))) * (u 0 0 - bval) := by
  obtain ⟨har, ht, hl, hb, ho⟩ := inRect_values (nu := nu) (bval := bval) ha hf he
  have ha0 : 0 < a := by linarith
  have hok : (inRect a s nu bval).G.Ok := inRect_ok ha0 hs
  have e := implicit_split hok rfl (Or.inr ho) h (show 0 < (inRect a s nu bval).G.m.nelem from Nat.one_pos) 0
  rw [har, ht, hb, (inRect_faces (a := a) (nu := nu) (bval := bval) hf).1, filter_false_of_mem, sum_empty] at e
  · have e0 : ((inRect a s nu bval).source ((inRect a s nu bval).G.rc 0) (u 0) 0 : ℝ) = 0 := rfl
    have e1 : (inRect a s nu bval).bval = bval := rfl
    rw [e0, e1] at e
    field_simp at e
    refine mul_left_cancel₀ (mul_ne_zero two_ne_zero hnu.ne') ?_
    linear_combination e
  · intro k hk
    simp only [mem_insert, mem_singleton] at hk
    exact not_not.2 (show k < 4 by omega)

end rect

/-! ### Refutations -/

/-- C101 is false of the explicit solver at every CFL number, because time steps are taken from the longest face of a cell and its diffusivity, and areas play no part: at any
positive CFL number there is a rectangle on which each iteration moves the solution to the other side of the boundary value and at least twice as far away. The run fails after
the maximum number of iterations for any tolerance below 1. -/
theorem C101_no_cfl_refuted {cfl nu bval : ℝ} (hc : 0 < cfl) (hnu : 0 < nu) : ∃ a s, 0 < a ∧ topological (rect a) = .ok s ∧ (inRect a s nu bval).G.Ok ∧ (inRect a s nu bval).NoSource ∧
    ∀ (gs : GradScheme) (u : ℕ → Fin 1 → ℝ), u 0 0 ≠ bval →
      (2 * |u 0 0 - bval| ≤ |(inRect a s nu bval).explicit gs cfl u 0 0 - bval| ∧ ((inRect a s nu bval).explicit gs cfl u 0 0 - bval) * (u 0 0 - bval) < 0) ∧
      ∀ (tol : ℝ) (maxiter : ℕ) (cflfin : ℝ), 0 ≤ tol → tol < 1 → 0 < maxiter →
        (∀ n, ∃ t, traj forwardEuler ((inRect a s nu bval).solver gs) ⟨tol, maxiter, cfl, cflfin⟩ u n = some t ∧ 2 ^ n * |u 0 0 - bval| ≤ |t.u 0 0 - bval|) ∧
        ∀ n out, Solve forwardEuler ((inRect a s nu bval).solver gs) ⟨tol, maxiter, cfl, cflfin⟩ u n out ↔ n = maxiter ∧ out = .tolErr := by
  obtain ⟨s, hs, hf, he⟩ := rect_topological
  let a : ℝ := max 1 (1 / cfl)
  have ha : 1 ≤ a := le_max_left _ _
  have hL : 3 ≤ 4 * cfl * (a ^ 2 + 1) := by
    have h1 : 1 / cfl ≤ a := le_max_right _ _
    have h2 : 1 ≤ cfl * a := by rw [div_le_iff₀ hc] at h1; linarith
    have h3 : cfl * a ≤ cfl * a ^ 2 := by nlinarith [mul_nonneg hc.le (by linarith : (0 : ℝ) ≤ a)]
    nlinarith
  have hg : 2 ≤ |1 - 4 * cfl * (a ^ 2 + 1)| := by rw [le_abs]; right; linarith
  have hgn : ∀ n, (2 : ℝ) ^ n ≤ |1 - 4 * cfl * (a ^ 2 + 1)| ^ n := fun n => pow_le_pow_left₀ (by norm_num) hg n
  refine ⟨a, s, by linarith, hs a, inRect_ok (by linarith) hs, fun _ _ => rfl, fun gs u hu => ⟨?_, fun tol maxiter cflfin ht0 ht1 hm => ⟨fun n => ?_, fun n out => ?_⟩⟩⟩
  · rw [inRect_explicit ha hnu hs hf he, abs_mul]
    refine ⟨mul_le_mul_of_nonneg_right hg (abs_nonneg _), ?_⟩
    rw [mul_assoc]
    exact mul_neg_of_neg_of_pos (by linarith) (mul_self_pos.2 (sub_ne_zero.2 hu))
  · obtain ⟨t, h1, h2⟩ := inRect_traj (bval := bval) ha hs hf he hnu gs ⟨tol, maxiter, cfl, cflfin⟩ u n
    refine ⟨t, h1, ?_⟩
    rw [h2, abs_mul, abs_pow]
    exact mul_le_mul_of_nonneg_right (hgn n) (abs_nonneg _)
  · have hend : Solve forwardEuler ((inRect a s nu bval).solver gs) ⟨tol, maxiter, cfl, cflfin⟩ u maxiter .tolErr := by
      refine (C56_outcome _ ht0 ht1 (by simpa using hm) u _ _).1.2 ?_
      obtain ⟨m, rfl⟩ : ∃ m, maxiter = m + 1 := ⟨maxiter - 1, by omega⟩
      refine .exhausted (n := m) (r := fun n => 4 * nu * (a + 1 / a) * √a * (|1 - 4 * cfl * (a ^ 2 + 1)| ^ n * |u 0 0 - bval|)) rfl (fun j _ => ?_) (fun j _ => ?_)
      · obtain ⟨t, h1, h2⟩ := inRect_traj (bval := bval) ha hs hf he hnu gs ⟨tol, ((m + 1 : ℕ) : ℤ), cfl, cflfin⟩ u j
        rw [hist, h1, Option.bind_some, inRect_norm ha hs hf he hnu, h2, abs_mul, abs_pow]
      · unfold Met
        have h1 : (1 : ℝ) ≤ |1 - 4 * cfl * (a ^ 2 + 1)| ^ j := one_le_pow₀ (by linarith)
        have h2 : 0 < |u 0 0 - bval| := abs_pos.2 (sub_ne_zero.2 hu)
        have ha0 : 0 < a := by linarith
        have h3 : 0 < 4 * nu * (a + 1 / a) * √a := by positivity
        simp only [pow_zero, one_mul, not_le]
        nlinarith [mul_pos h3 h2, mul_le_mul_of_nonneg_left h1 (mul_pos h3 h2).le]
    constructor
    · intro h
      exact ((C56_terminates _ _ _ _).2 _ _ hend).2 _ _ h
    · rintro ⟨rfl, rfl⟩
      exact hend

/-- C101 is false of the implicit solver with the code's matrix: on the unit square, without source and with an exact linear solver, a step at a CFL number above a quarter moves
every solution to the other side of the boundary value, by a factor that tends to -1 as the CFL number grows. With the blocks at boundary faces doubled (their correct
value, `C53_jacobian_boundary_refuted`) the factor is positive and tends to 0. -/
theorem C101_implicit_refuted {cfl nu bval : ℝ} (hc : 1 / 4 < cfl) (hnu : 0 < nu) : ∃ s, topological (rect 1) = .ok s ∧ (inRect 1 s nu bval).G.Ok ∧ (inRect 1 s nu bval).NoSource ∧
    ∀ (gs : GradScheme) (u : ℕ → Fin 1 → ℝ), u 0 0 ≠ bval →
      (∃ u', (inRect 1 s nu bval).Implicit gs (inRect 1 s nu bval).blk cfl u u') ∧
      (∀ u', (inRect 1 s nu bval).Implicit gs (inRect 1 s nu bval).blk cfl u u' →
        u' 0 0 - bval = -((4 * cfl - 1) / (4 * cfl + 1)) * (u 0 0 - bval) ∧ (u' 0 0 - bval) * (u 0 0 - bval) < 0) ∧
      ∀ u', (inRect 1 s nu bval).Implicit gs (fun k => (2 : ℝ) • (inRect 1 s nu bval).blk k) cfl u u' → u' 0 0 - bval = 1 / (8 * cfl + 1) * (u 0 0 - bval) := by
  obtain ⟨s, hs, hf, he⟩ := rect_topological
  have hok : (inRect 1 s nu bval).G.Ok := inRect_ok one_pos hs
  obtain ⟨har, ht, hl, hb, ho⟩ := inRect_values (nu := nu) (bval := bval) le_rfl hf he
  have hw := C101_convex (nu := nu) (bval := bval) (source := fun _ _ => (0 : Fin 1 → ℝ)) (rect_conforming 1) rfl (rect_nozero one_pos) (hs 1) (fun i _ => rect_convex one_pos) hnu
  refine ⟨s, hs 1, hok, fun _ _ => rfl, fun gs u hu => ⟨?_, fun u' h => ?_, fun u' h => ?_⟩⟩
  · have := implicit_solvable (D := inRect 1 s nu bval) (gs := gs) (κ := 1) (cfl := cfl) hok rfl (fun k hk => (hw.1 k hk).le) (by norm_num) (fun i hi => ?_) u
    · simpa only [one_smul] using this
    · obtain rfl : i = 0 := by have : i < 1 := hi
                               omega
      rw [har, ht]
      have : 0 < cfl := by linarith
      positivity
  · have e := inRect_implicit (κ := 1) le_rfl hnu hs hf he (by linarith) (show (inRect 1 s nu bval).Implicit gs (fun k => (1 : ℝ) • (inRect 1 s nu bval).blk k) cfl u u' by
      simpa only [one_smul] using h)
    have e1 : u' 0 0 - bval = -((4 * cfl - 1) / (4 * cfl + 1)) * (u 0 0 - bval) := by
      have : (4 * cfl + 1) ≠ 0 := by linarith
      field_simp
      linear_combination e
    refine ⟨e1, ?_⟩
    rw [e1, mul_assoc]
    exact mul_neg_of_neg_of_pos (neg_neg_of_pos (div_pos (by linarith) (by linarith))) (mul_self_pos.2 (sub_ne_zero.2 hu))
  · have e := inRect_implicit le_rfl hnu hs hf he (by linarith) h
    have : (8 * cfl + 1) ≠ 0 := by linarith
    field_simp
    linear_combination e

/-! ### Concrete cases -/

/-- On the unit square, with the CFL number 1/8 the bounds are kept by explicit steps; with anything larger they are not. -/
example : ∃ s, topological (rect 1) = .ok s ∧ ∀ gs cfl, 0 ≤ cfl →
    ((∀ a b u, (inRect 1 s 2 5).Within a b u → (inRect 1 s 2 5).Within a b ((inRect 1 s 2 5).explicit gs cfl u)) ↔ cfl ≤ 1 / 8) := by
  obtain ⟨s, hs, hf, he⟩ := rect_topological
  refine ⟨s, hs 1, fun gs cfl h0 => ?_⟩
  have hok : (inRect 1 s 2 5).G.Ok := inRect_ok one_pos hs
  obtain ⟨har, ht, hl, hb, ho⟩ := inRect_values (nu := 2) (bval := 5) le_rfl hf he
  have hw := C101_convex (nu := 2) (bval := 5) (source := fun _ _ => (0 : Fin 1 → ℝ)) (rect_conforming 1) rfl (rect_nozero one_pos) (hs 1) (fun i _ => rect_convex one_pos) two_pos
  rw [C101_step_iff hok (Or.inr ho) (fun k hk => (hw.1 k hk).le) (by show (0 : ℝ) < 2; norm_num) hw.2 (fun _ _ => rfl) h0]
  constructor
  · intro h
    have := h 0 Nat.one_pos
    rw [har, ht, hl] at this
    norm_num at this
    linarith
  · intro h i hi
    obtain rfl : i = 0 := by have : i < 1 := hi
                             omega
    rw [har, ht, hl]
    norm_num
    linarith

/-- Two unit squares: conductances are positive, steps at small CFL numbers keep all bounds, implicit steps exist and the measure does not grow, and the steady state is the boundary value. -/
example : ∃ s, topological Par.pair = .ok s ∧ (∃ c0, 0 < c0 ∧ ∀ cfl, 0 ≤ cfl → cfl ≤ c0 → ∀ u, (onMesh Par.pair s 1 0 (fun _ _ => (0 : Fin 1 → ℝ))).Within (-1) 1 u →
      (onMesh Par.pair s 1 0 (fun _ _ => (0 : Fin 1 → ℝ))).Within (-1) 1 ((onMesh Par.pair s 1 0 (fun _ _ => (0 : Fin 1 → ℝ))).explicit .zero cfl u)) ∧
    (∀ cfl, 0 < cfl → ∀ u, ∃ u', (onMesh Par.pair s 1 0 (fun _ _ => (0 : Fin 1 → ℝ))).Implicit .zero (onMesh Par.pair s 1 0 (fun _ _ => (0 : Fin 1 → ℝ))).blk cfl u u' ∧
      (onMesh Par.pair s 1 0 (fun _ _ => (0 : Fin 1 → ℝ))).measure cfl u' 0 ≤ (onMesh Par.pair s 1 0 (fun _ _ => (0 : Fin 1 → ℝ))).measure cfl u 0) ∧
    ∀ u, (∀ i, i < 2 → (onMesh Par.pair s 1 0 (fun _ _ => (0 : Fin 1 → ℝ))).residual .zero (fun _ => 0) u 0 i 0 = 0) → u 0 0 = 0 ∧ u 1 0 = 0 := by
  obtain ⟨s, hs, hf⟩ := Par.pair_topological
  refine ⟨s, hs, ?_⟩
  have hx : ∀ i, i < Par.pair.nelem → ConvexCell Par.pair i := fun i hi => by
    have hi : i < 2 := hi
    refine ⟨Or.inr rfl, fun f g hf hg => ?_⟩
    have hf : f < 4 := hf
    have hg : g < 4 := hg
    obtain rfl | rfl : i = 0 ∨ i = 1 := by omega
    all_goals
      obtain rfl | rfl | rfl | rfl : f = 0 ∨ f = 1 ∨ f = 2 ∨ f = 3 := by omega
      all_goals
        obtain rfl | rfl | rfl | rfl : g = 0 ∨ g = 1 ∨ g = 2 ∨ g = 3 := by omega
        all_goals norm_num [triArea, Par.pair]
  have hw := C101_convex (nu := 1) (bval := 0) (source := fun _ _ => (0 : Fin 1 → ℝ)) Par.pair_conforming rfl Par.pair_nozero hs hx one_pos
  set D := onMesh Par.pair s 1 0 (fun _ _ => (0 : Fin 1 → ℝ)) with hD
  have hok : D.G.Ok := ⟨Par.pair_conforming, Par.pair_nozero, hs⟩
  have hnu : 0 < D.nu := one_pos
  have hcell : ∀ i, i < D.G.m.nelem → 0 < D.timestep i / D.G.ar i := fun i hi => div_pos (D.C53_timestep hok hnu hi).2.2 (hw.2 i hi)
  have hload : ∀ i, 0 ≤ D.load i := fun i => sum_nonneg fun k hk => (hw.1 k (mem_range.1 (mem_filter.1 hk).1)).le
  have hnf : D.G.nface = 7 := by show s.faces.length = 7; rw [hf]; rfl
  have hface : ∀ k, D.G.face k = faceAt s.faces k := fun k => rfl
  refine ⟨⟨1 / (1 + D.timestep 0 / D.G.ar 0 * D.load 0 + D.timestep 1 / D.G.ar 1 * D.load 1), ?_, fun cfl h0 h1 u hu => ?_⟩, fun cfl hc u => ?_, fun u h => ⟨?_, ?_⟩⟩
  · have h2 := mul_nonneg (hcell 0 (by show 0 < 2; omega)).le (hload 0)
    have h3 := mul_nonneg (hcell 1 (by show 1 < 2; omega)).le (hload 1)
    positivity
  · refine (C101_step_iff hok (Or.inl rfl) (fun k hk => (hw.1 k hk).le) hnu hw.2 (fun _ _ => rfl) h0).2 (fun i hi => ?_) _ _ u hu
    have h2 := mul_nonneg (hcell 0 (by show 0 < 2; omega)).le (hload 0)
    have h3 := mul_nonneg (hcell 1 (by show 1 < 2; omega)).le (hload 1)
    rw [le_div_iff₀ (by positivity)] at h1
    have e : cfl * D.timestep i / D.G.ar i * D.load i = cfl * (D.timestep i / D.G.ar i * D.load i) := by ring
    rw [e]
    have hi : i < 2 := hi
    obtain rfl | rfl : i = 0 ∨ i = 1 := by omega
    · nlinarith [mul_nonneg h0 h3]
    · nlinarith [mul_nonneg h0 h2]
  · obtain ⟨u', hu'⟩ := implicit_solvable (D := D) (gs := .zero) (κ := 1) (cfl := cfl) hok rfl (fun k hk => (hw.1 k hk).le) (by norm_num) (fun i hi =>
      div_pos (hw.2 i hi) (mul_pos hc (D.C53_timestep hok hnu hi).2.2)) u
    have hu'' : D.Implicit .zero D.blk cfl u u' := by simpa only [one_smul] using hu'
    exact ⟨u', hu'', (C101_implicit_measure hok rfl (Or.inl rfl) (fun k hk => (hw.1 k hk).le) (fun _ _ => rfl) hu'' 0).2⟩
  · have := C101_steady hok rfl (Or.inl rfl) (fun k hk => (hw.1 k hk).le) (fun _ _ => rfl) (v := 0) h (k := 0) (by omega) (hw.1 0 (by show 0 < D.G.nface; omega))
    rw [hface, hf] at this
    exact this
  · have := C101_steady hok rfl (Or.inl rfl) (fun k hk => (hw.1 k hk).le) (fun _ _ => rfl) (v := 0) h (k := 1) (by omega) (hw.1 1 (by show 1 < D.G.nface; omega))
    rw [hface, hf] at this
    exact this

end Diff
end FV
end FVENS
