import Verif.Par.Distributed

/-!
# The check of interface faces (C119)

`checkConnFaces` is meant to tell whether the global face numbers stored with a subdomain are consistent. It is offered with the partitioner; its only call, an assertion in
`constructMesh` (src/mesh/ameshutils.cpp:150), is commented out.
-/

namespace FVENS
namespace Par

open Msh

/-- `checkConnFaces`, src/mesh/meshpartitioning.cpp:333-347, for the subdomain `S` with face structure `s'`; `s` is the face structure of the global mesh. Interface faces begin at
`connBFaceStart`, src/mesh/mesh.cpp:739. Faces that do not exist read as zero; they do not occur (`C119_iff`). -/
def checkConnFaces (s : FState) (S : Sub) (s' : FState) : Bool :=
  (List.range S.mesh.nconnface).all fun ic =>
    S.cells.getD (FV.faceAt s'.faces (S.mesh.nbface + ninface S.mesh (esuel S.mesh (esup S.mesh)) + ic)).left 0 == (FV.faceAt s.faces (S.mesh.connface ic 4)).left

/-- Left cell of the face between two cells: the one with the smaller number. -/
theorem left_of_glued {m : Mesh} {s : FState} (hc : Conforming m) (h : topological m = .ok s) {g f j k e : ℕ} (hgl : Glued m (g, f) (j, k)) (he : s.elemface g f = some e) :
    (FV.faceAt s.faces e).left = min g j := by
  have key : ∀ {i f j k : ℕ}, Glued m (i, f) (j, k) → i < j → s.elemface i f = some e → (FV.faceAt s.faces e).left = i := by
    intro i f j k hgl hij he
    obtain ⟨q, ⟨-, -, hq⟩, -⟩ := C27_interior_once hc.lin hc.manifold hc.bfOk h hgl hij
    have := ((C71_elemface hc h hgl.1).2 q).2 ⟨_, hq, rfl, .inl rfl⟩
    rw [he, Option.some.injEq] at this
    subst this
    rw [FV.faceAt, List.getD_eq_getElem?_getD, hq]; rfl
  rcases lt_or_gt_of_ne (show g ≠ j from hgl.2.2.1) with hlt | hlt
  · rw [key hgl hlt he, min_eq_left hlt.le]
  · rw [key hgl.symm hlt (elemface_glued hc h hgl he), min_eq_right hlt.le]

theorem sub_bfOk {gm : Mesh} {dist : ℕ → ℕ} {r : ℕ} {S : Sub} (hS : IsSub gm dist r S) : BfOk S.mesh := by
  obtain ⟨B, -, -, b3, b4⟩ := hS.bfaces
  intro k hk
  have hBk : B[k]? = some (B[k]'(by omega)) := List.getElem?_eq_getElem (by omega)
  obtain ⟨p0, p1, -⟩ := b4 k _ hBk
  exact ⟨by rw [hS.npoin]; exact (List.getElem?_eq_some_iff.1 p0).1, by rw [hS.npoin]; exact (List.getElem?_eq_some_iff.1 p1).1⟩

section
variable {gm : Mesh} {s : FState} (hc : Conforming gm) (hn : gm.nconnface = 0) (ht : gm.nbtag ≤ 4) (h : topological gm = .ok s) {dist : ℕ → ℕ} {r : ℕ} {S : Sub}
  (hr : restrict gm s dist r = .ok S) {s' : FState} (hs : topological S.mesh = .ok s')
include hc hn ht h hr hs

/-- C119, exact: the check accepts a subdomain of a conforming mesh exactly if in each of its interface records the own cell has a smaller number in the global mesh than the cell of the other
rank. -/
theorem C119_iff : checkConnFaces s S s' = true ↔ ∀ ic, ic < S.mesh.nconnface → ∃ g, S.cells[S.mesh.connface ic 0]? = some g ∧ g < S.mesh.connface ic 3 := by
  obtain ⟨S', hS', hsub, hcon, -⟩ := restrict_spec hc hn ht h dist r
  rw [hr] at hS'; cases hS'
  unfold checkConnFaces
  rw [List.all_eq_true]
  have key : ∀ ic, ic < S.mesh.nconnface → ((S.cells.getD (FV.faceAt s'.faces (S.mesh.nbface + ninface S.mesh (esuel S.mesh (esup S.mesh)) + ic)).left 0 ==
      (FV.faceAt s.faces (S.mesh.connface ic 4)).left) = true ↔ ∃ g, S.cells[S.mesh.connface ic 0]? = some g ∧ g < S.mesh.connface ic 3) := by
    intro ic hic
    obtain ⟨g, j, k, hg, hgl, hd, -, h3, h4⟩ := hcon.row ic hic
    have hf := (C27_ranges (hsub.lin hc.lin) (sub_bfOk hsub) hs).2.2 ic hic
    rw [show (FV.faceAt s'.faces (S.mesh.nbface + ninface S.mesh (esuel S.mesh (esup S.mesh)) + ic)).left = S.mesh.connface ic 0 by
      rw [FV.faceAt, List.getD_eq_getElem?_getD, hf]; rfl, left_of_glued hc h hgl h4, List.getD_eq_getElem?_getD, hg, h3]
    simp only [Option.getD_some, beq_iff_eq, Option.some.injEq, exists_eq_left']
    have hne : g ≠ j := hgl.2.2.1
    omega
  exact ⟨fun ha ic hic => (key ic hic).1 (ha ic (List.mem_range.2 hic)), fun ha ic hic => (key ic (List.mem_range.1 hic)).2 (ha ic (List.mem_range.1 hic))⟩

/-- C119 where it holds: a rank whose neighbours across all interface faces have larger numbers, for instance the first of several ranks with ascending ranges of cells, and every rank without
interface faces. Missing for the full claim: the other ranks, whose records are just as correct (`C38_sound`) and which the check rejects (`C119_rejects`). -/
theorem C119_accepts_partial (hlow : ∀ g f j k, Glued gm (g, f) (j, k) → dist g = r → dist j ≠ r → g < j) : checkConnFaces s S s' = true := by
  obtain ⟨S', hS', hsub, hcon, -⟩ := restrict_spec hc hn ht h dist r
  rw [hr] at hS'; cases hS'
  refine (C119_iff hc hn ht h hr hs).2 fun ic hic => ?_
  obtain ⟨g, j, k, hg, hgl, hd, -, h3, -⟩ := hcon.row ic hic
  have hgd := ((hsub.cells g).1 (List.mem_of_getElem? hg)).2
  exact ⟨g, hg, by rw [h3]; exact hlow _ _ _ _ hgl hgd (by rw [← hgd]; exact hd)⟩

end

/-- C119 fails for every conforming mesh and every assignment that cuts a face: if the face was registered by both ranks, one of the two correct subdomains is rejected. -/
theorem C119_rejects {gm : Mesh} {s : FState} (hc : Conforming gm) (hn : gm.nconnface = 0) (ht : gm.nbtag ≤ 4) (h : topological gm = .ok s) {dist : ℕ → ℕ} (hall : AllRegistered gm s dist)
    {g f j k : ℕ} (hgl : Glued gm (g, f) (j, k)) (hd : dist g ≠ dist j) (hlt : j < g) :
    ∃ S s', restrict gm s dist (dist g) = .ok S ∧ ConnOk gm s dist S ∧ topological S.mesh = .ok s' ∧ checkConnFaces s S s' = false := by
  obtain ⟨S, l, ic, hS, hl, hic, hkey, -, h3⟩ := (hall g f j k hgl hd).1
  obtain ⟨s', hs⟩ := sub_topological hc hn ht h hS
  refine ⟨S, s', hS, C38_sound hc hn ht h dist _ hS, hs, ?_⟩
  rw [← Bool.not_eq_true]
  intro ha
  obtain ⟨g', hg', hlt'⟩ := (C119_iff hc hn ht h hS hs).1 ha ic hic
  have h0 : S.mesh.connface ic 0 = l := congrArg Prod.fst hkey
  rw [h0, hl, Option.some.injEq] at hg'
  omega

/-- C119, refuted: four triangles on two ranks. Rank 0 passes the check, rank 1 does not, though the records of both are correct. -/
theorem C119_refuted : ∃ (s : FState) (S : ℕ → Sub) (s' : ℕ → FState), topological FV.Geo.cross = .ok s ∧
    (∀ r, restrict FV.Geo.cross s (fun i => i / 2) r = .ok (S r) ∧ topological (S r).mesh = .ok (s' r) ∧ ConnOk FV.Geo.cross s (fun i => i / 2) (S r) ∧ Conforming (S r).mesh) ∧
      checkConnFaces s (S 0) (s' 0) = true ∧ checkConnFaces s (S 1) (s' 1) = false := by
  obtain ⟨s, hs, -⟩ := FV.Geo.cross_topological
  have hne : FV.Geo.cross.nelem = 4 := by decide +kernel
  have hS := fun r => C37_extraction cross_conforming rfl (by decide +kernel) hs (fun i => i / 2) r
  choose S hS hS' using hS
  choose s' hs' using fun r => sub_topological cross_conforming rfl (by decide +kernel) hs (hS r)
  have hall := cross_all hs (fun i => i / 2)
  refine ⟨s, S, s', hs, fun r => ⟨hS r, hs' r, C38_sound cross_conforming rfl (by decide +kernel) hs _ _ (hS r),
    (C38_conforming_iff cross_conforming rfl (by decide +kernel) hs _ _ (hS r)).2 fun g f hg hi => ?_⟩, ?_, ?_⟩
  · rw [← hg]
    exact (C38_all_iff cross_conforming rfl (by decide +kernel) hs _).1 hall g f hi
  · refine C119_accepts_partial cross_conforming rfl (by decide +kernel) hs (hS 0) (hs' 0) fun g f j k hgl h1 h2 => ?_
    have : j < 4 := by rw [← hne]; exact hgl.2.1.1
    omega
  · have hgl : Glued FV.Geo.cross (2, 2) (1, 1) := ⟨⟨by decide +kernel, by decide +kernel⟩, ⟨by decide +kernel, by decide +kernel⟩, by decide, by decide +kernel⟩
    obtain ⟨S1, s1, a, -, b, c⟩ := C119_rejects cross_conforming rfl (by decide +kernel) hs hall hgl (by decide) (by decide)
    have e1 : S1 = S 1 := by
      have := (hS 1).symm.trans a
      injection this with this; exact this.symm
    subst e1
    have e2 : s1 = s' 1 := by
      have := (hs' 1).symm.trans b
      injection this with this; exact this.symm
    rw [← e2]; exact c

end Par
end FVENS
