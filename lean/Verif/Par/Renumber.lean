import Verif.Par.Distributed
import Verif.Mesh.Renumber

/-!
# Renumbering of cells and the residual (C77)

`preprocessMesh` (src/mesh/ameshutils.cpp:37-100) permutes the cells of the mesh before the discretisation is set up. The residual must follow the
cells. On several ranks the permutation is applied to the extracted mesh, whose interface records are left as they are.
-/

namespace FVENS
namespace Par

open Msh FV Flux

section perm
variable {m : Mesh} {perm : ℕ → ℕ} {s : FState}

theorem _root_.FVENS.Msh.IsPerm.surj {n : ℕ} (hp : IsPerm n perm) {j : ℕ} (hj : j < n) : ∃ i, i < n ∧ perm i = j := by
  have h1 : Set.MapsTo perm (Finset.range n) (Finset.range n) := fun i hi => by simpa using hp.lt i (by simpa using hi)
  have h2 : Set.InjOn perm (Finset.range n) := fun i hi j hj e => hp.inj i j (by simpa using hi) (by simpa using hj) e
  obtain ⟨i, hi, he⟩ := Finset.surjOn_of_injOn_of_card_le perm h1 h2 le_rfl (by simpa using hj : j ∈ (Finset.range n : Set ℕ))
  exact ⟨i, by simpa using hi, he⟩

theorem reorder_isFace (hp : IsPerm m.nelem perm) {i f : ℕ} (hi : i < m.nelem) :
    IsFace (reorderCells m perm) (i, f) ↔ IsFace m (perm i, f) := by
  obtain ⟨h1, -, -⟩ := (C30_connectivity_partial m perm).1 i hi
  have hn : (reorderCells m perm).nelem = m.nelem := rfl
  simp only [IsFace, h1, hn, hi, hp.lt i hi, true_and]

theorem reorder_edge {i : ℕ} (hi : i < m.nelem) (f : ℕ) : edge (reorderCells m perm) (i, f) = edge m (perm i, f) := by
  obtain ⟨h1, -, h3⟩ := (C30_connectivity_partial m perm).1 i hi
  simp only [edge, h1, h3]

theorem reorder_lin (hp : IsPerm m.nelem perm) (h : Lin m) : Lin (reorderCells m perm) := by
  have hc := (C30_connectivity_partial m perm).1
  have hn : (reorderCells m perm).nelem = m.nelem := rfl
  refine ⟨fun i hi => ?_, fun i hi => ?_, fun i hi j hj => ?_, fun i hi j k hj hk e => ?_⟩
  all_goals
    obtain ⟨h1, h2, h3⟩ := hc i hi
    have hi' := hp.lt i hi
  · rw [h1, h2]; exact h.nf _ hi'
  · rw [h1]; exact h.three _ hi'
  · rw [h3]; exact h.lt _ hi' j (h1 ▸ hj)
  · rw [h3, h3] at e; exact h.inj _ hi' j k (h1 ▸ hj) (h1 ▸ hk) e

theorem reorder_glued (hp : IsPerm m.nelem perm) {x y : ℕ × ℕ} (h : Glued (reorderCells m perm) x y) :
    Glued m (perm x.1, x.2) (perm y.1, y.2) := (C30_adjacency hp h.1.1 h.2.1.1).1 h

/-- The requirements that do not involve interface records follow the cells. -/
theorem reorder_conforming (hp : IsPerm m.nelem perm) (hc : Conforming m)
    (hcf : ∀ ic, ic < m.nconnface → m.connface ic 0 < m.nelem ∧ ∃ jc, jc < m.nconnface ∧ connKey m jc = (perm (m.connface ic 0), m.connface ic 1))
    (hcs : ∀ jc, jc < m.nconnface → ∃ ic, ic < m.nconnface ∧ connKey m jc = (perm (m.connface ic 0), m.connface ic 1)) :
    Conforming (reorderCells m perm) := by
  have hcn := (C30_connectivity_partial m perm).1
  refine ⟨reorder_lin hp hc.lin, fun x y z h1 h2 => ?_, fun x y hg => ?_, fun k hk => ?_, fun k l hk hl e => hc.bfDistinct k l hk hl e,
    fun ic hic => ?_, fun ic jc hic hjc e => hc.cfDistinct ic jc hic hjc e, fun ic hic y hy => ?_, fun ic k hic hk e => ?_, fun x hx => ?_⟩
  · have e := hc.manifold _ _ _ (reorder_glued hp h1) (reorder_glued hp h2)
    obtain ⟨e1, e2⟩ := Prod.mk.injEq _ _ _ _ ▸ e
    exact Prod.ext (hp.inj _ _ h1.2.1.1 h2.2.1.1 e1) e2
  · obtain ⟨p1, p2, p3⟩ := hcn x.1 hg.1.1
    obtain ⟨q1, q2, q3⟩ := hcn y.1 hg.2.1.1
    rw [q3, p3, p1]
    exact hc.opposite _ _ (reorder_glued hp hg)
  · obtain ⟨⟨c, f⟩, hx, e0, e1⟩ := hc.bf k hk
    obtain ⟨i, hi, rfl⟩ := hp.surj hx.1
    obtain ⟨p1, p2, p3⟩ := hcn i hi
    exact ⟨(i, f), (reorder_isFace hp hi).2 hx, by rw [p3]; exact e0, by rw [p3, p1]; exact e1⟩
  · obtain ⟨hi, jc, hjc, e⟩ := hcf ic hic
    exact (reorder_isFace hp hi).2 (e ▸ hc.cf jc hjc)
  · obtain ⟨hi, jc, hjc, e⟩ := hcf ic hic
    exact hc.cfNotGlued jc hjc _ (e ▸ reorder_glued hp hy)
  · obtain ⟨hi, jc, hjc, e'⟩ := hcf ic hic
    refine hc.cfNotBf jc k hjc hk ?_
    rw [e', ← reorder_edge hi]; exact e
  · obtain ⟨i, f⟩ := x
    have hi : i < m.nelem := hx.1
    rcases hc.cover _ ((reorder_isFace hp hi).1 hx) with ⟨⟨c, g⟩, hg⟩ | ⟨k, hk, e⟩ | ⟨jc, hjc, e⟩
    · obtain ⟨j, hj, rfl⟩ := hp.surj hg.2.1.1
      exact Or.inl ⟨(j, g), (C30_adjacency hp hi hj).2 hg⟩
    · exact Or.inr (Or.inl ⟨k, hk, (reorder_edge hi f).trans e⟩)
    · obtain ⟨ic, hic, e'⟩ := hcs jc hjc
      rw [e, Prod.mk.injEq] at e'
      exact Or.inr (Or.inr ⟨ic, hic, Prod.ext (hp.inj _ _ (hcf ic hic).1 hi e'.1.symm) e'.2.symm⟩)

/-- The renumbered mesh is a copy of the original, if there are no interface records. -/
theorem reorder_copy (hp : IsPerm m.nelem perm) (hn : m.nconnface = 0) : Copy m (reorderCells m perm) perm id := by
  have hcn := (C30_connectivity_partial m perm).1
  refine ⟨hp.lt, fun i hi => (hcn i hi).1, fun i hi j _ => ?_, fun i f j g hg => (C30_adjacency hp hg.1.1 hg.2.1.1).1 hg, fun i hi f hf k hk => ?_,
    fun ic hic => absurd (show ic < m.nconnface from hic) (by omega)⟩
  · rw [(hcn i hi).2.2]; rfl
  · obtain ⟨hkb, e0, e1⟩ := hk
    obtain ⟨p1, p2, p3⟩ := hcn i hi
    simp only [p1, p3] at e0 e1
    exact ⟨hkb, e0, e1⟩

theorem reorder_hasBoth (hp : IsPerm m.nelem perm) {i : ℕ} (hi : i < m.nelem) (p q : ℕ) :
    HasBoth (reorderCells m perm) p q i ↔ HasBoth m p q (perm i) := by
  obtain ⟨p1, -, p3⟩ := (C30_connectivity_partial m perm).1 i hi
  have hn : (reorderCells m perm).nelem = m.nelem := rfl
  simp only [HasBoth, HasVertex, p1, p3, hn, hi, hp.lt i hi]

/-- The second topology computation succeeds. -/
theorem reorder_topological (hp : IsPerm m.nelem perm) (hc : Conforming m) (h : topological m = .ok s) :
    ∃ s', topological (reorderCells m perm) = .ok s' := by
  have hm := reorder_lin hp hc.lin
  have key : ∀ k, k < m.nbface → ∃ x, bfaceHost (reorderCells m perm) (esup (reorderCells m perm)) (m.bface k 0) (m.bface k 1) = .ok x := by
    intro k hk
    obtain ⟨⟨c, f⟩, hx, e0, e1⟩ := hc.bf k hk
    obtain ⟨i, hi, rfl⟩ := hp.surj hx.1
    obtain ⟨e, hu, -⟩ := (C27_ranges hc.lin hc.bfOk h).2.1 k hk
    have hed : edge m (perm i, f) = s(m.bface k 0, m.bface k 1) := by rw [e0, e1]; rfl
    have hxe := (hu _).1 (hasBoth_of_edge hc.lin hx hed)
    obtain ⟨b0, b1⟩ := hc.bfOk k hk
    refine ⟨(i, f), (C28_ok_iff hm b0 b1 i f).2 ⟨fun j => ⟨fun hj => ?_, fun hj => ?_⟩, ?_, ?_⟩⟩
    · have hj' : j < m.nelem := hj.1.1
      exact hp.inj _ _ hj' hi (((hu _).1 ((reorder_hasBoth hp hj' _ _).1 hj)).trans hxe.symm)
    · rw [hj, reorder_hasBoth hp hi, hu]; exact hxe
    · rw [((C30_connectivity_partial m perm).1 i hi).1]; exact hx.2
    · rw [reorder_edge hi]; exact hed
  choose! x hx using key
  refine topological_of_hosts (hosts := (List.range m.nbface).map x) ((mapRes_ok _ _ _).2 ⟨by simp; rfl, fun k h1 h2 => ?_⟩)
  rw [List.getElem_range, List.getElem_map, List.getElem_range]
  have h1' : k < (List.range m.nbface).length := h1
  exact hx k (by simpa using h1')

theorem reorder_noZero (hp : IsPerm m.nelem perm) (hz : NoZeroFace m) : NoZeroFace (reorderCells m perm) := by
  rintro ⟨i, f⟩ hx
  have hi : i < m.nelem := hx.1
  obtain ⟨p1, -, p3⟩ := (C30_connectivity_partial m perm).1 i hi
  have := hz _ ((reorder_isFace hp hi).1 hx)
  simp only [p1, p3]
  exact this

theorem reorder_disc (hp : IsPerm m.nelem perm) (hc : Conforming m) (hn : m.nconnface = 0) (hz : NoZeroFace m) (h : topological m = .ok s)
    {s' : FState} (hs' : topological (reorderCells m perm) = .ok s') (P : Settings) :
    (P.disc m s 0).G.Ok ∧ (P.disc (reorderCells m perm) s' 0).G.Ok ∧ DiscCopy (P.disc m s 0) (P.disc (reorderCells m perm) s' 0) perm id := by
  have h1 : (P.disc m s 0).G.Ok := ⟨hc, hz, h⟩
  have hc' := reorder_conforming hp hc (fun ic hic => absurd hic (by omega)) (fun ic hic => absurd hic (by omega))
  have h2 : (P.disc (reorderCells m perm) s' 0).G.Ok := ⟨hc', reorder_noZero hp hz, hs'⟩
  exact ⟨h1, h2, disc_copy P h1 h2 (reorder_copy hp hn) (fun _ _ => rfl) fun ic hic => absurd (show ic < m.nconnface from hic) (by omega)⟩

/-- C77, first order: for every conforming mesh on one rank, every permutation of its cells, all settings and all admissible states the renumbered
mesh can be set up and its residual follows the cells. Missing for the full claim: several ranks, where it fails (`C77_refuted`). -/
theorem C77_first_order_partial (hp : IsPerm m.nelem perm) (hc : Conforming m) (hn : m.nconnface = 0) (hz : NoZeroFace m)
    (h : topological m = .ok s) (P : Settings) (hb : (P.disc m s 0).BcOk) (hg : 4 ≤ 3 * P.gas.g)
    {w : ℕ → St} (hw : ∀ i, i < m.nelem → Adm P.gas (w i)) (res res' : ℕ → St) :
    ∃ s' o o', topological (reorderCells m perm) = .ok s' ∧ (P.disc m s 0).residual1 w res = some o ∧
      (P.disc (reorderCells m perm) s' 0).residual1 (fun i => w (perm i)) res' = some o' ∧
      ∀ i, i < m.nelem → o'.res i - res' i = o.res (perm i) - res (perm i) := by
  obtain ⟨s', hs'⟩ := reorder_topological hp hc h
  obtain ⟨h1, h2, h3⟩ := reorder_disc hp hc hn hz h hs' P
  have hsw : ∀ i j, i < m.nelem → j < m.nelem → (P.disc m s 0).SwapOk (w i) (w j) := fun i j hi hj =>
    Disc.swapOk_of_adm _ hg (hw i hi) (hw j hj)
  obtain ⟨o, o', e1, e2, e3⟩ := Disc.C75_first_order h1 h2 h3 hb (u := w) (u' := fun i => w (perm i)) (fun _ _ => rfl) hsw res res'
  exact ⟨s', o, o', hs', e1, e2, e3⟩

/-- C77, second order, for every gradient scheme and reconstruction; `hres`: the original residual is computed. -/
theorem C77_second_order_partial (hp : IsPerm m.nelem perm) (hc : Conforming m) (hn : m.nconnface = 0) (hz : NoZeroFace m)
    (h : topological m = .ok s) (P : Settings) {gs : GradScheme} {R : ReconScheme} {E : Disc.Env} {w : ℕ → St} {res : ℕ → St} {o : Disc.Out}
    (hres : (P.disc m s 0).residual2 gs R E w res = some o)
    (hsw : ∀ k, k < (P.disc m s 0).G.nface → (P.disc m s 0).G.inner k → (P.disc m s 0).SwapOk (o.uR k) (o.uL k))
    (E' : Disc.Env) (res' : ℕ → St) :
    ∃ s' o', topological (reorderCells m perm) = .ok s' ∧
      (P.disc (reorderCells m perm) s' 0).residual2 gs R E' (fun i => w (perm i)) res' = some o' ∧
      ∀ i, i < m.nelem → o'.res i - res' i = o.res (perm i) - res (perm i) := by
  obtain ⟨s', hs'⟩ := reorder_topological hp hc h
  obtain ⟨h1, h2, h3⟩ := reorder_disc hp hc hn hz h hs' P
  have hb : (P.disc m s 0).BcOk := (Disc.residual2_some.1 hres).1
  have hno : (P.disc (reorderCells m perm) s' 0).G.m.nconnface = 0 := hn
  obtain ⟨o', e2, e3⟩ := Disc.C75_second_order (E' := E') (r' := res') h1 h2 h3 (u' := fun i => w (perm i)) (fun _ _ => rfl) hb
    (fun i a b => absurd b (by omega)) hres (fun ic hic => absurd hic (by omega)) hsw
  exact ⟨s', o', hs', e2, e3⟩

/-- C77: on a mesh with interface records the result of renumbering is conforming exactly if the permutation maps the recorded local faces among
themselves. -/
theorem C77_iff (hp : IsPerm m.nelem perm) (hc : Conforming m) : Conforming (reorderCells m perm) ↔
    ∀ ic, ic < m.nconnface → ∃ jc, jc < m.nconnface ∧ connKey m jc = (perm (m.connface ic 0), m.connface ic 1) := by
  constructor
  · intro h ic hic
    have hf := h.cf ic hic
    have hi : m.connface ic 0 < m.nelem := hf.1
    have hf' := (reorder_isFace hp hi).1 hf
    rcases hc.cover _ hf' with ⟨⟨c, g⟩, hg⟩ | ⟨k, hk, e⟩ | h
    · obtain ⟨j, hj, rfl⟩ := hp.surj hg.2.1.1
      exact absurd ((C30_adjacency hp hi hj).2 hg) (h.cfNotGlued ic hic _)
    · exact absurd ((reorder_edge hi _).trans e) (h.cfNotBf ic k hic hk)
    · exact h
  · intro h
    have hlt : ∀ ic, ic < m.nconnface → m.connface ic 0 < m.nelem := fun ic hic => (hc.cf ic hic).1
    refine reorder_conforming hp hc (fun ic hic => ⟨hlt ic hic, h ic hic⟩) ?_
    choose! t ht1 ht2 using h
    have hpt : IsPerm m.nconnface t := ⟨ht1, fun i j hi hj e => by
      have := (ht2 i hi).symm.trans (e ▸ ht2 j hj)
      rw [Prod.mk.injEq] at this
      exact hc.cfDistinct i j hi hj (Prod.ext (hp.inj _ _ (hlt i hi) (hlt j hj) this.1) this.2)⟩
    intro jc hjc
    obtain ⟨ic, hic, e⟩ := hpt.surj hjc
    exact ⟨ic, hic, e ▸ ht2 ic hic⟩

end perm

/-! ### Examples -/

theorem swap_isPerm {n a b : ℕ} (ha : a < n) (hb : b < n) : IsPerm n (Equiv.swap a b) :=
  ⟨fun i hi => by rw [Equiv.swap_apply_def]; split_ifs <;> omega, fun i j _ _ e => (Equiv.swap a b).injective e⟩

/-- Hypotheses of `C77_first_order_partial` are met by the square cut by its diagonals with cells 0 and 2 swapped, for all admissible states. -/
example (c : St) (w : ℕ → St) (hw : ∀ i, i < 4 → Adm air (w i)) (res res' : ℕ → St) :
    ∃ s s' o o', topological FV.Geo.cross = .ok s ∧ topological (reorderCells FV.Geo.cross (Equiv.swap 0 2)) = .ok s' ∧
      ((air1 c).disc FV.Geo.cross s 0).residual1 w res = some o ∧
      ((air1 c).disc (reorderCells FV.Geo.cross (Equiv.swap 0 2)) s' 0).residual1 (fun i => w (Equiv.swap 0 2 i)) res' = some o' ∧
      o'.res 0 - res' 0 = o.res 2 - res 2 := by
  obtain ⟨s, hs, -⟩ := FV.Geo.cross_topological
  have hne : FV.Geo.cross.nelem = 4 := by decide +kernel
  obtain ⟨s', o, o', h1, h2, h3, h4⟩ := C77_first_order_partial (swap_isPerm (a := 0) (b := 2) (by omega) (by omega)) cross_conforming rfl
    FV.Geo.cross_nozero hs (air1 c) (fun k _ => rfl) (by norm_num [air1, air]) (fun i hi => hw i (hne ▸ hi)) res res'
  have := h4 0 (by omega)
  rw [Equiv.swap_apply_left] at this
  exact ⟨s, s', o, o', hs, h1, h2, h3, this⟩

/-- Hypotheses of `C77_second_order_partial` are met by any state, with least-squares gradients and WENO. -/
example (c : St) (w : ℕ → St) (E E' : Disc.Env) (res res' : ℕ → St) :
    ∃ s s' o o', topological FV.Geo.cross = .ok s ∧ topological (reorderCells FV.Geo.cross (Equiv.swap 0 2)) = .ok s' ∧
      ((air1 c).disc FV.Geo.cross s 0).residual2 .wls (.weno 1000) E w res = some o ∧
      ((air1 c).disc (reorderCells FV.Geo.cross (Equiv.swap 0 2)) s' 0).residual2 .wls (.weno 1000) E' (fun i => w (Equiv.swap 0 2 i)) res' = some o' ∧
      o'.res 0 - res' 0 = o.res 2 - res 2 := by
  obtain ⟨s, hs, -⟩ := FV.Geo.cross_topological
  have hne : FV.Geo.cross.nelem = 4 := by decide +kernel
  have hok : ((air1 c).disc FV.Geo.cross s 0).G.Ok := ⟨cross_conforming, FV.Geo.cross_nozero, hs⟩
  obtain ⟨o, hsome⟩ := residual2_defined hok (fun k _ => rfl) (gs := .wls) (R := .weno 1000) (show (0 : ℝ) < 1000 by norm_num)
    (fun h => by rcases h with h | ⟨K, h⟩ <;> cases h) E w res
  obtain ⟨s', o', h1, h2, h3⟩ := C77_second_order_partial (swap_isPerm (a := 0) (b := 2) (by omega) (by omega)) cross_conforming rfl
    FV.Geo.cross_nozero hs (air1 c) hsome (fun k _ _ n _ v => llf_swap air _ _ n v) E' res'
  have := h3 0 (by omega)
  rw [Equiv.swap_apply_left] at this
  exact ⟨s, s', o, o', hs, h1, hsome, h2, this⟩

/-- C77 fails on several ranks. With triangles 0, 1 of the square on rank 0, its extracted mesh is conforming; after swapping the two cells the interface
record of one cell names the face between the two. -/
theorem C77_refuted : ∃ s, topological FV.Geo.cross = .ok s ∧ ∃ S perm, restrict FV.Geo.cross s (fun i => i / 2) 0 = .ok S ∧
    Conforming S.mesh ∧ IsPerm S.mesh.nelem perm ∧ ¬ Conforming (reorderCells S.mesh perm) ∧
    ∃ ic, ic < S.mesh.nconnface ∧ ∃ y, Glued (reorderCells S.mesh perm) (connKey (reorderCells S.mesh perm) ic) y := by
  obtain ⟨s, hs, -⟩ := FV.Geo.cross_topological
  have hgl : Glued FV.Geo.cross (1, 1) (2, 2) :=
    ⟨⟨by decide +kernel, by decide +kernel⟩, ⟨by decide +kernel, by decide +kernel⟩, by decide, by decide +kernel⟩
  obtain ⟨S, l1, ic, hS, h2, h3, h4⟩ := cross_registered hs (fun i => i / 2) hgl (by decide)
  obtain ⟨S', hS', hsub, -⟩ := restrict_spec cross_conforming rfl (by decide +kernel) hs (fun i => i / 2) 0
  rw [hS] at hS'; cases hS'
  obtain ⟨l0, h0, hl0⟩ := hsub.of_cell (g := 0) (by decide +kernel) rfl
  have hP : ((air1 0).disc S.mesh (sub_topological cross_conforming rfl (by decide +kernel) hs hS).choose 0).G.Ok :=
    rank_ok cross_conforming rfl (by decide +kernel) hs FV.Geo.cross_nozero (cross_all hs _) (air1 0) hS
      (sub_topological cross_conforming rfl (by decide +kernel) hs hS).choose_spec
  have hc : Conforming S.mesh := hP.conf
  have hlt1 : l1 < S.mesh.nelem := by rw [hsub.nelem]; exact (List.getElem?_eq_some_iff.1 h2).1
  have hlt0 : l0 < S.mesh.nelem := h0
  have hp := swap_isPerm hlt0 hlt1
  have hg : Glued S.mesh (l0, 1) (l1, 2) := (hsub.glued cross_conforming.lin hl0 h2).2 cross_glued01
  have hgr : Glued (reorderCells S.mesh (Equiv.swap l0 l1)) (connKey (reorderCells S.mesh (Equiv.swap l0 l1)) ic) (l0, 2) := by
    show Glued _ (connKey S.mesh ic) _
    rw [h4, C30_adjacency hp hlt1 hlt0, Equiv.swap_apply_left, Equiv.swap_apply_right]
    exact hg
  exact ⟨s, hs, S, _, hS, hc, hp, fun h => h.cfNotGlued ic h3 _ hgr, ic, h3, _, hgr⟩

end Par
end FVENS
