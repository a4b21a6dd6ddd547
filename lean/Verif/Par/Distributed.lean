import Verif.Par.Layout
import Verif.FV.Copy2
import Verif.FV.CopyStep

/-!
# Residual on several ranks (C76)

Each rank extracts its cells, sets up its own discretisation object and computes the residual of its cells from its own states, the ghost
blocks it received and the exchanged face states. The result is compared with the residual of one process that holds the whole mesh.
-/

namespace FVENS
namespace Par

open Msh FV Flux

/-! ### Model -/

/-- Global cell meant by a row of a rank's cell arrays: own cells, then one ghost per interface face; src/mesh/meshpartitioning.cpp:84-98,
200-222, src/mesh/mesh.cpp:764-772. -/
def rowCell (S : Sub) (i : ℕ) : ℕ := if i < S.mesh.nelem then S.cells.getD i 0 else S.mesh.connface (i - S.mesh.nelem) 3

/-- Settings of the discretisation, the same on all ranks. -/
structure Settings where
  gas : Gas
  scheme : Scheme
  viscous : Bool
  constVisc : Bool
  bc : ℤ → Option BC.Obj

/-- Discretisation object set up on a mesh, with the received centres of the ghost cells: src/spatial/aspatial.cpp:36-78, 104-117,
src/mesh/mesh.cpp:294-327; tags as in src/spatial/flow_spatial.cpp:76-92. An unset area is 0. -/
noncomputable def Settings.disc (P : Settings) (m : Mesh) (s : FState) (ghost : ℕ → V2) : Disc where
  G := { m := m, s := s, rc := fun i => if i < m.nelem then centre m i else ghost (i - m.nelem)
         rcbp := fun k => ghostMid (m.coords (faceAt s.faces k).n0) (m.coords (faceAt s.faces k).n1) (centre m (faceAt s.faces k).left)
         ar := fun i => (area m i).getD 0 }
  gas := P.gas
  scheme := P.scheme
  viscous := P.viscous
  constVisc := P.constVisc
  bc := P.bc
  tag := fun k => (m.btag k 0 : ℤ)

/-- Cell centres computed by each rank for its own cells, src/spatial/aspatial.cpp:41-47, 84-97. -/
noncomputable def localCentres (gm : Mesh) (s : FState) (dist : ℕ → ℕ) (q l : ℕ) : V2 :=
  match restrict gm s dist q with
  | .ok S => centre S.mesh l
  | _ => 0

/-- Local array of rank `r`: own blocks followed by the ghost blocks received, src/linalg/alinalg.cpp:17-29. -/
noncomputable def rankArray {V : Type*} [Zero V] (gm : Mesh) (s : FState) (dist : ℕ → ℕ) (n : ℕ) (loc : ℕ → ℕ → V) (r : ℕ) (S : Sub) (i : ℕ) : V :=
  if i < S.mesh.nelem then loc r i else (ghostAfter gm s dist n loc r (i - S.mesh.nelem)).getD 0

/-- Discretisation object of rank `r`. -/
noncomputable def Settings.rank (P : Settings) (gm : Mesh) (s : FState) (dist : ℕ → ℕ) (n r : ℕ) (S : Sub) (s' : FState) : Disc :=
  P.disc S.mesh s' fun ic => (ghostAfter gm s dist n (localCentres gm s dist) r ic).getD 0

/-! ### Subdomains are copies of the global mesh -/

section part
variable {gm : Mesh} {s : FState} {dist : ℕ → ℕ}

theorem rowCell_own {S : Sub} {l g : ℕ} (hsub : S.mesh.nelem = S.cells.length) (hl : S.cells[l]? = some g) : rowCell S l = g := by
  obtain ⟨hlt, he⟩ := List.getElem?_eq_some_iff.1 hl
  rw [rowCell, if_pos (by omega), List.getD_eq_getElem?_getD, hl, Option.getD_some]

/-- C76: the mesh extracted for a rank is a copy of the global mesh. -/
theorem sub_copy (hc : Conforming gm) (hn : gm.nconnface = 0) (ht : gm.nbtag ≤ 4) (h : topological gm = .ok s) {r : ℕ} {S : Sub}
    (hS : restrict gm s dist r = .ok S) :
    ∃ τ, Copy gm S.mesh (rowCell S) τ ∧ ∀ k, k < S.mesh.nbface → ∀ t, S.mesh.btag k t = gm.btag (τ k) t := by
  obtain ⟨S', hS', hsub, hcon, -⟩ := restrict_spec hc hn ht h dist r
  rw [hS] at hS'; cases hS'
  obtain ⟨B, b1, b2, b3, b4⟩ := hsub.bfaces
  have hB : ∀ k, k < S.mesh.nbface → B[k]? = some (B.getD k 0) := fun k hk => by
    rw [List.getD_eq_getElem?_getD, List.getElem?_eq_getElem (by omega)]; rfl
  have hrow : ∀ i, i < S.mesh.nelem → S.cells[i]? = some (rowCell S i) := fun i hi => by
    obtain ⟨g, hg, -⟩ := hsub.cell hi
    rw [hg, rowCell_own hsub.nelem hg]
  have hlt : ∀ i, i < S.mesh.nelem → rowCell S i < gm.nelem := fun i hi => ((hsub.cells _).1 (List.mem_of_getElem? (hrow i hi))).1
  refine ⟨fun k => B.getD k 0, ⟨hlt, fun i hi => (hsub.nnode i _ (hrow i hi)).1, fun i hi j hj => ?_, fun i f j g hg => ?_,
    fun i hi f hf k hk => ?_, fun ic hic => ?_⟩, fun k hk t => (b4 k _ (hB k hk)).2.2 t⟩
  · rw [(hsub.nnode i _ (hrow i hi)).1] at hj
    exact hsub.coords _ _ (hsub.inpoel i _ (hrow i hi) j hj)
  · exact (hsub.glued hc.lin (hrow i hg.1.1) (hrow j hg.2.1.1)).1 hg
  · obtain ⟨hkb, e0, e1⟩ := hk
    simp only at e0 e1
    have hm := (b2 _).1 (List.mem_of_getElem? (hB k hkb))
    obtain ⟨p0, p1, -⟩ := b4 k _ (hB k hkb)
    have hnn := (hsub.nnode i _ (hrow i hi)).1
    have hi' := hlt i hi
    rw [e0, hsub.inpoel i _ (hrow i hi) f (hnn ▸ hf), Option.some.injEq] at p0
    rw [e1, hnn, hsub.inpoel i _ (hrow i hi) _ (hc.lin.next_lt hi' f), Option.some.injEq] at p1
    exact ⟨hm.1, p0.symm, p1.symm⟩
  · obtain ⟨g, j, k, r1, r2, -, -, r5, -⟩ := hcon.row ic hic
    have e1 : rowCell S (S.mesh.connface ic 0) = g := rowCell_own hsub.nelem r1
    have e2 : rowCell S (S.mesh.nelem + ic) = j := by
      rw [rowCell, if_neg (by omega), Nat.add_sub_cancel_left, r5]
    rw [e1, e2, rowOther, if_pos r2.2.1.1]
    exact ⟨k, r2⟩

/-- Topology of a rank's mesh is set up without failure. -/
theorem sub_topological (hc : Conforming gm) (hn : gm.nconnface = 0) (ht : gm.nbtag ≤ 4) (h : topological gm = .ok s) {r : ℕ} {S : Sub}
    (hS : restrict gm s dist r = .ok S) : ∃ s', topological S.mesh = .ok s' := by
  obtain ⟨S', hS', hsub, hcon, -⟩ := restrict_spec hc hn ht h dist r
  rw [hS] at hS'; cases hS'
  obtain ⟨B, b1, b2, b3, b4⟩ := hsub.bfaces
  have hm := hsub.lin hc.lin
  have key : ∀ k, k < S.mesh.nbface → ∃ x, bfaceHost S.mesh (esup S.mesh) (S.mesh.bface k 0) (S.mesh.bface k 1) = .ok x := by
    intro k hk
    have hBk : B[k]? = some (B[k]'(by omega)) := List.getElem?_eq_getElem (by omega)
    obtain ⟨p0, p1, -⟩ := b4 k _ hBk
    obtain ⟨hkg, x, hx, he, hdx⟩ := (b2 _).1 (List.mem_of_getElem? hBk)
    obtain ⟨e, hu, -⟩ := (C27_ranges hc.lin hc.bfOk h).2.1 _ hkg
    have hxe := (hu _).1 (hasBoth_of_edge hc.lin hx he)
    obtain ⟨l, hl, hlx⟩ := hsub.of_cell hx.1 hdx
    have hlt0 : S.mesh.bface k 0 < S.mesh.npoin := by rw [hsub.npoin]; exact (List.getElem?_eq_some_iff.1 p0).1
    have hlt1 : S.mesh.bface k 1 < S.mesh.npoin := by rw [hsub.npoin]; exact (List.getElem?_eq_some_iff.1 p1).1
    have hedge : edge S.mesh (l, x.2) = s(S.mesh.bface k 0, S.mesh.bface k 1) := by
      obtain ⟨a, b, a', b', e1, e2, e3, e4, -⟩ := hsub.edge hc.lin hlx hx.2
      have he' : s(a', b') = s(gm.bface (B[k]'(by omega)) 0, gm.bface (B[k]'(by omega)) 1) := e2.symm.trans he
      rw [e1]
      rw [Sym2.eq_iff] at he' ⊢
      rcases he' with ⟨q1, q2⟩ | ⟨q1, q2⟩
      · rw [q1] at e3; rw [q2] at e4
        exact Or.inl ⟨hsub.point_inj e3 p0, hsub.point_inj e4 p1⟩
      · rw [q1] at e3; rw [q2] at e4
        exact Or.inr ⟨hsub.point_inj e3 p1, hsub.point_inj e4 p0⟩
    have hif : IsFace S.mesh (l, x.2) := (hsub.isFace hlx).2 hx
    refine ⟨(l, x.2), (C28_ok_iff hm hlt0 hlt1 l x.2).2 ⟨fun j => ⟨fun hj => ?_, fun hj => ?_⟩, hif.2, hedge⟩⟩
    · obtain ⟨g, hg, -⟩ := hsub.cell hj.1.1
      have hnn := (hsub.nnode j g hg).1
      have hgb : HasBoth gm (gm.bface (B[k]'(by omega)) 0) (gm.bface (B[k]'(by omega)) 1) g := by
        have hgm := ((hsub.cells g).1 (List.mem_of_getElem? hg)).1
        obtain ⟨⟨-, a, ha, ha'⟩, ⟨-, b, hb, hb'⟩⟩ := hj
        have q1 := hsub.inpoel j g hg a (hnn ▸ ha)
        have q2 := hsub.inpoel j g hg b (hnn ▸ hb)
        rw [ha', p0, Option.some.injEq] at q1
        rw [hb', p1, Option.some.injEq] at q2
        exact ⟨⟨hgm, a, hnn ▸ ha, q1.symm⟩, ⟨hgm, b, hnn ▸ hb, q2.symm⟩⟩
      have := ((hu g).1 hgb).trans hxe.symm
      rw [this] at hg
      exact hsub.cell_inj hg hlx
    · rw [hj]; exact hasBoth_of_edge hm hif hedge
  choose! x hx using key
  refine topological_of_hosts (hosts := (List.range S.mesh.nbface).map x) ((mapRes_ok _ _ _).2 ⟨by simp, fun k h1 h2 => ?_⟩)
  rw [List.getElem_range, List.getElem_map, List.getElem_range]
  exact hx k (by simpa using h1)

/-- Ghost blocks hold the values of the cells they stand for where positions agree with cell numbers. -/
theorem ghostAfter_row {V : Type*} (hc : Conforming gm) (hn : gm.nconnface = 0) (ht : gm.nbtag ≤ 4) (h : topological gm = .ok s)
    {n : ℕ} (hd : ∀ g, g < gm.nelem → dist g < n) {loc : ℕ → ℕ → V} {w : ℕ → V} (hw : Represents gm s dist loc w)
    {r : ℕ} {S : Sub} (hS : restrict gm s dist r = .ok S) {ic : ℕ} (hic : ic < S.mesh.nconnface)
    (hpos : position gm.nelem dist (S.mesh.connface ic 3) = S.mesh.connface ic 3) :
    ghostAfter gm s dist n loc r ic = some (w (S.mesh.connface ic 3)) := by
  obtain ⟨S', hS', -, hcon, -⟩ := restrict_spec hc hn ht h dist r
  rw [hS] at hS'; cases hS'
  obtain ⟨g, j, k, r1, r2, -, -, r5, -⟩ := hcon.row ic hic
  simp only [ghostAfter, hS, if_pos hic]
  rw [r5] at hpos ⊢
  have := blockAt_position hc hn ht h hd hw (g := j) r2.2.1.1
  rw [hpos] at this; exact this

/-- The local array of a rank holds, in every row, the value of the cell the row stands for. -/
theorem rankArray_row {V : Type*} [Zero V] (hc : Conforming gm) (hn : gm.nconnface = 0) (ht : gm.nbtag ≤ 4) (h : topological gm = .ok s)
    {n : ℕ} (hd : ∀ g, g < gm.nelem → dist g < n) {loc : ℕ → ℕ → V} {w : ℕ → V} (hw : Represents gm s dist loc w)
    {r : ℕ} {S : Sub} (hS : restrict gm s dist r = .ok S)
    (hpos : ∀ ic, ic < S.mesh.nconnface → position gm.nelem dist (S.mesh.connface ic 3) = S.mesh.connface ic 3)
    {i : ℕ} (hi : i < S.mesh.nelem + S.mesh.nconnface) : rankArray gm s dist n loc r S i = w (rowCell S i) := by
  obtain ⟨S', hS', hsub, -⟩ := restrict_spec hc hn ht h dist r
  rw [hS] at hS'; cases hS'
  unfold rankArray
  split_ifs with hlt
  · obtain ⟨g, hg, -⟩ := hsub.cell hlt
    rw [rowCell_own hsub.nelem hg]
    exact hw r S hS i g hg
  · rw [ghostAfter_row hc hn ht h hd hw hS (ic := i - S.mesh.nelem) (by omega) (hpos _ (by omega)), Option.getD_some, rowCell, if_neg hlt]

theorem centre_copy {m m' : Mesh} {σ τ : ℕ → ℕ} (hc : Copy m m' σ τ) {i : ℕ} (hi : i < m'.nelem) : centre m' i = centre m (σ i) := by
  have key : ∀ (d : Fin 2) k, k ≤ m'.nnode i → (forLt k 0 fun j s => s + m'.coords (m'.inpoel i j) d) =
      forLt k 0 fun j s => s + m.coords (m.inpoel (σ i) j) d := by
    intro d k
    induction k with
    | zero => intro _; rfl
    | succ k ih =>
      intro hk
      rw [forLt_succ, forLt_succ, ih (by omega), hc.xy i hi k (by omega)]
  funext d
  unfold centre
  rw [key d _ le_rfl, hc.nnode i hi]

theorem area_copy {m m' : Mesh} {σ τ : ℕ → ℕ} (hc : Copy m m' σ τ) {i : ℕ} (hi : i < m'.nelem) : area m' i = area m (σ i) := by
  unfold area
  simp only
  rw [← hc.nnode i hi]
  split_ifs with h3 h4
  · rw [hc.xy i hi 0 (by omega), hc.xy i hi 1 (by omega), hc.xy i hi 2 (by omega)]
  · rw [hc.xy i hi 0 (by omega), hc.xy i hi 1 (by omega), hc.xy i hi 2 (by omega), hc.xy i hi 3 (by omega)]
  · rfl

theorem localCentres_represents (hc : Conforming gm) (hn : gm.nconnface = 0) (ht : gm.nbtag ≤ 4) (h : topological gm = .ok s) :
    Represents gm s dist (localCentres gm s dist) (centre gm) := by
  intro r S hS l g hl
  obtain ⟨S', hS', hsub, -⟩ := restrict_spec hc hn ht h dist r
  rw [hS] at hS'; cases hS'
  obtain ⟨τ, hcp, -⟩ := sub_copy hc hn ht h hS
  simp only [localCentres, hS]
  rw [centre_copy hcp (by rw [hsub.nelem]; exact (List.getElem?_eq_some_iff.1 hl).1), rowCell_own hsub.nelem hl]

/-- The discretisation of a copy is a copy of the discretisation. -/
theorem disc_copy {m m' : Mesh} {s s' : FState} {σ τ : ℕ → ℕ} (P : Settings) {ghost ghost' : ℕ → V2} (h : (P.disc m s ghost).G.Ok)
    (h' : (P.disc m' s' ghost').G.Ok) (hcp : Copy m m' σ τ) (htag : ∀ k, k < m'.nbface → m'.btag k 0 = m.btag (τ k) 0)
    (hgh : ∀ ic, ic < m'.nconnface → ghost' ic = (P.disc m s ghost).G.rc (σ (m'.nelem + ic))) :
    DiscCopy (P.disc m s ghost) (P.disc m' s' ghost') σ τ := by
  refine ⟨⟨hcp, fun i hi => ?_, fun k hk => ?_, fun i hi => ?_⟩, rfl, rfl, rfl, rfl, rfl, fun k hk => ?_⟩
  · show (if i < m'.nelem then centre m' i else ghost' (i - m'.nelem)) = _
    split_ifs with hlt
    · show _ = if σ i < m.nelem then centre m (σ i) else _
      rw [if_pos (hcp.cell i hlt), centre_copy hcp hlt]
    · have hi : i < m'.nelem + m'.nconnface := hi
      rw [hgh _ (by omega)]; congr 2; omega
  · obtain ⟨c, f, hci, hcf, hco⟩ := Disc.bnd_across h'.conf hk
    have hco' := hcp.across c hci f hcf _ hco
    obtain ⟨k1, -, -, hs'⟩ := side_exists h' ⟨hci, hcf⟩ hco
    obtain ⟨k2, -, -, hs⟩ := side_exists h (i := σ c) (f := f) ⟨hcp.cell c hci, by
      show f < m.nnode (σ c)
      rw [← hcp.nnode c hci]; exact hcf⟩ hco'
    obtain ⟨rfl, -, e'⟩ := hs'
    obtain ⟨rfl, hτ, e⟩ := hs
    change faceAt s'.faces k1 = _ at e'
    change faceAt s.faces (τ k1) = _ at e
    show ghostMid _ _ _ = ghostMid _ _ _
    rw [e, e']
    obtain ⟨n1, n2⟩ := hcp.nodes h'.conf.lin hci hcf
    unfold nodeA at n1
    unfold nodeB at n2
    change ghostMid (m'.coords (m'.inpoel c f)) (m'.coords (m'.inpoel c ((f + 1) % m'.nnode c))) (centre m' c) =
      ghostMid (m.coords (m.inpoel (σ c) f)) (m.coords (m.inpoel (σ c) ((f + 1) % m.nnode (σ c)))) (centre m (σ c))
    rw [n1, n2, centre_copy hcp hci]
  · show (area m' i).getD 0 = _
    rw [area_copy hcp hi]; rfl
  · show ((m'.btag k 0 : ℕ) : ℤ) = (m.btag (τ k) 0 : ℕ)
    rw [htag k hk]

/-- The mesh of a rank meets the requirements of the discretisation if its interface faces are registered. -/
theorem rank_ok (hc : Conforming gm) (hn : gm.nconnface = 0) (ht : gm.nbtag ≤ 4) (h : topological gm = .ok s) (hz : NoZeroFace gm)
    (hall : AllRegistered gm s dist) (P : Settings) {ghost : ℕ → V2} {r : ℕ} {S : Sub} (hS : restrict gm s dist r = .ok S) {s' : FState}
    (hs' : topological S.mesh = .ok s') : (P.disc S.mesh s' ghost).G.Ok := by
  obtain ⟨τ, hcp, -⟩ := sub_copy hc hn ht h hS
  have hconf : Conforming S.mesh := (C38_conforming_iff hc hn ht h dist r hS).2 fun g f hg hif => by
    have := (C38_all_iff hc hn ht h dist).1 hall g f hif
    rw [hg] at this; exact this
  refine ⟨hconf, ?_, hs'⟩
  rintro ⟨i, f⟩ ⟨hi, hf⟩
  have hi : i < S.mesh.nelem := hi
  have hf : f < S.mesh.nnode i := hf
  have e1 := hcp.xy i hi f hf
  have e2 := hcp.xy i hi _ (hconf.lin.next_lt hi f)
  have := hz (rowCell S i, f) ⟨hcp.cell i hi, by rw [← hcp.nnode i hi]; exact hf⟩
  simp only at this ⊢
  show S.mesh.coords (S.mesh.inpoel i f) ≠ S.mesh.coords (S.mesh.inpoel i ((f + 1) % S.mesh.nnode i))
  rw [e1, e2, hcp.nnode i hi]
  exact this

/-- All facts about a rank at once. -/
theorem rank_copy (hc : Conforming gm) (hn : gm.nconnface = 0) (ht : gm.nbtag ≤ 4) (h : topological gm = .ok s) (hz : NoZeroFace gm)
    (hall : AllRegistered gm s dist) {n : ℕ} (hd : ∀ g, g < gm.nelem → dist g < n) (P : Settings) {r : ℕ} {S : Sub}
    (hS : restrict gm s dist r = .ok S)
    (hpos : ∀ ic, ic < S.mesh.nconnface → position gm.nelem dist (S.mesh.connface ic 3) = S.mesh.connface ic 3)
    {s' : FState} (hs' : topological S.mesh = .ok s') :
    (P.rank gm s dist n r S s').G.Ok ∧ ∃ τ, DiscCopy (P.disc gm s 0) (P.rank gm s dist n r S s') (rowCell S) τ := by
  obtain ⟨τ, hcp, htag⟩ := sub_copy hc hn ht h hS
  have hok := rank_ok hc hn ht h hz hall P (ghost := fun ic => (ghostAfter gm s dist n (localCentres gm s dist) r ic).getD 0) hS hs'
  obtain ⟨S', hS', -, hcon, -⟩ := restrict_spec hc hn ht h dist r
  rw [hS] at hS'; cases hS'
  refine ⟨hok, τ, disc_copy P ⟨hc, hz, h⟩ hok hcp (fun k hk => htag k hk 0) fun ic hic => ?_⟩
  obtain ⟨g, j, k, r1, r2, -, -, r5, -⟩ := hcon.row ic hic
  rw [ghostAfter_row hc hn ht h hd (localCentres_represents hc hn ht h) hS hic (hpos ic hic), Option.getD_some]
  have e2 : rowCell S (S.mesh.nelem + ic) = S.mesh.connface ic 3 := by
    rw [rowCell, if_neg (by omega), Nat.add_sub_cancel_left]
  show _ = if rowCell S (S.mesh.nelem + ic) < gm.nelem then _ else _
  rw [e2, r5, if_pos r2.2.1.1]

/-- C76, first order: for every conforming mesh, every assignment of cells to `n` ranks that is non-decreasing along the cell numbering and
registers all interface faces, all settings and all admissible states: every rank computes a residual, and the residual of each of its cells
is that computed by a single process. Missing for the full claim: the other assignments, for which it fails (`C76_refuted`). -/
theorem C76_first_order_partial (hc : Conforming gm) (hn : gm.nconnface = 0) (ht : gm.nbtag ≤ 4) (h : topological gm = .ok s)
    (hz : NoZeroFace gm) (hall : AllRegistered gm s dist) {n : ℕ} (hd : ∀ g, g < gm.nelem → dist g < n)
    (hmono : ∀ i j, i < j → j < gm.nelem → dist i ≤ dist j) (P : Settings) (hb : (P.disc gm s 0).BcOk) (hg : 4 ≤ 3 * P.gas.g)
    {w : ℕ → St} (hw : ∀ i, i < gm.nelem → Adm P.gas (w i)) {loc : ℕ → ℕ → St} (hl : Represents gm s dist loc w) (res : ℕ → St) :
    ∃ o, (P.disc gm s 0).residual1 w res = some o ∧
      ∀ r, ∃ S s', restrict gm s dist r = .ok S ∧ topological S.mesh = .ok s' ∧ ∀ res' : ℕ → St,
        ∃ o', (P.rank gm s dist n r S s').residual1 (rankArray gm s dist n loc r S) res' = some o' ∧
          ∀ l g : ℕ, S.cells[l]? = some g → o'.res l - res' l = o.res g - res g := by
  have hsw : ∀ i j, i < gm.nelem → j < gm.nelem → (P.disc gm s 0).SwapOk (w i) (w j) := fun i j hi hj =>
    Disc.swapOk_of_adm _ hg (hw i hi) (hw j hj)
  obtain ⟨o, ho⟩ : ∃ o, (P.disc gm s 0).residual1 w res = some o := ⟨_, by unfold Disc.residual1; rw [if_pos hb]⟩
  refine ⟨o, ho, fun r => ?_⟩
  obtain ⟨S, hS, -⟩ := restrict_spec hc hn ht h dist r
  obtain ⟨s', hs'⟩ := sub_topological hc hn ht h hS
  refine ⟨S, s', hS, hs', fun res' => ?_⟩
  have hpos : ∀ ic, ic < S.mesh.nconnface → position gm.nelem dist (S.mesh.connface ic 3) = S.mesh.connface ic 3 := fun ic hic => by
    obtain ⟨S', hS', -, hcon, -⟩ := restrict_spec hc hn ht h dist r
    rw [hS] at hS'; cases hS'
    obtain ⟨g, j, k, r1, r2, -, -, r5, -⟩ := hcon.row ic hic
    rw [r5]; exact position_id_iff.2 hmono j r2.2.1.1
  obtain ⟨hok, τ, hcp⟩ := rank_copy hc hn ht h hz hall hd P hS hpos hs'
  have hu : ∀ i, i < S.mesh.nelem + S.mesh.nconnface → rankArray gm s dist n loc r S i = w (rowCell S i) :=
    fun i hi => rankArray_row hc hn ht h hd hl hS hpos hi
  have hD : (P.disc gm s 0).G.Ok := ⟨hc, hz, h⟩
  have key := Disc.C75_first_order hD hok hcp hb (u := w) (u' := rankArray gm s dist n loc r S) hu hsw res res'
  obtain ⟨o2, o', h1, h2, h3⟩ := key
  rw [ho, Option.some.injEq] at h1
  refine ⟨o', h2, fun l g hlg => ?_⟩
  obtain ⟨S', hS', hsub, -⟩ := restrict_spec hc hn ht h dist r
  rw [hS] at hS'; cases hS'
  have := h3 l (by show l < S.mesh.nelem; rw [hsub.nelem]; exact (List.getElem?_eq_some_iff.1 hlg).1)
  rw [rowCell_own hsub.nelem hlg] at this
  rw [this, ← h1]

/-- What the ranks have received when the second-order residual is computed. `D` are the discretisations of the ranks, `u` their
arrays; ghost rows of the gradients come from a ghost update of the gradients computed by the owners (src/spatial/flow_spatial.cpp:704-716),
right states of interface faces from an exchange of left states (744-757) in an execution `c` of the exchange protocol. -/
structure Received (gm : Mesh) (s : FState) (dist : ℕ → ℕ) (n : ℕ) (gs : GradScheme) (R : ReconScheme) (S : ℕ → Sub) (D : ℕ → Disc)
    (u : ℕ → ℕ → St) (E : ℕ → Disc.Env) : Prop where
  gg : ∀ r, r < n → ∀ ic, ic < (S r).mesh.nconnface →
    ghostAfter gm s dist n (fun q l => (D q).grads2 gs (E q) (u q) l) r ic = some ((E r).gg ((S r).mesh.nelem + ic))
  exch : ∃ (Q : Setup St) (c : Config (List ℕ ⊕ List St)) (t : ℕ), Q.n = n ∧ Q.tab = subTab gm s dist ∧
    (∀ q, Q.fstart q = (S q).mesh.nbface + (D q).G.ni) ∧
    (∀ q a, (D q).rec2 gs R (E q) (u q) = some a → ∀ t ib k, Q.left q t ib k = (D q).gas.consOfPrim (a (true, k))) ∧
    Reach Q.prog c ∧ 1 ≤ t ∧ ∀ r, r < n → Completed c r t ∧ ∃ right, Q.after c r t right = some (E r).exch

/-- Cells whose faces have the same states on the cell's side have the same time step. -/
theorem time_steps_own {D D' : Disc} {σ τ : ℕ → ℕ} (h : D.G.Ok) (h' : D'.G.Ok) (hc : DiscCopy D D' σ τ) {o o' : Disc.Out}
    (hown : ∀ i, i < D'.G.m.nelem → ∀ f, f < D'.G.m.nnode i → ∀ p, Across D'.G.m (i, f) p →
      ∀ k k', k < D.G.nface → k' < D'.G.nface → Side D'.G i f p k' → Side D.G (σ i) f (p.img D.G.m D'.G.m σ τ) k → o'.own D' i k' = o.own D (σ i) k)
    {i : ℕ} (hi : i < D'.G.m.nelem) : D'.timestep o'.uL o'.uR i = D.timestep o.uL o.uR (σ i) := by
  obtain ⟨p, hp⟩ := Geo.exists_sides h' hi
  have hσ := hc.geo.mesh.cell i hi
  have hn := hc.geo.mesh.nnode i hi
  choose! κ' h1' _ h2' using fun f (hf : f < D'.G.m.nnode i) => side_exists h' (i := i) (f := f) ⟨hi, hf⟩ (hp f hf)
  choose! κ h1 _ h2 using fun f (hf : f < D'.G.m.nnode i) => side_exists h (i := σ i) (f := f) ⟨hσ, hn ▸ hf⟩ (hc.geo.mesh.across i hi f hf _ (hp f hf))
  refine Disc.C75_time_steps h h' hc hi hp (fo := fun f => o.own D (σ i) (κ f)) (fun f hf k hk hs => ?_) (fun f hf k hk hs => ?_)
  · have := hown i hi f hf _ (hp f hf) (κ f) k (h1 f hf) hk hs (h2 f hf)
    rw [← this]
    unfold Disc.Out.own
    exact ⟨fun e => by rw [if_pos e], fun e => by rw [if_neg e]⟩
  · have e1 := hown i hi f hf _ (hp f hf) (κ f) (κ' f) (h1 f hf) (h1' f hf) (h2' f hf) (h2 f hf)
    have e2 := hown i hi f hf _ (hp f hf) k (κ' f) hk (h1' f hf) (h2' f hf) hs
    rw [← e1, e2]
    unfold Disc.Out.own
    exact ⟨fun e => by rw [if_pos e], fun e => by rw [if_neg e]⟩

/-- C76, second order: as the first-order statement, for every gradient scheme and reconstruction; the received data come from ghost updates and from any
completed exchange, under any interleaving of the ranks; the local time steps agree too. `hres`: the single process does compute a residual. Missing for the
full claim: other assignments of cells to ranks. -/
theorem C76_second_order_partial (hc : Conforming gm) (hn : gm.nconnface = 0) (ht : gm.nbtag ≤ 4) (h : topological gm = .ok s)
    (hz : NoZeroFace gm) (hall : AllRegistered gm s dist) {n : ℕ} (hd : ∀ g, g < gm.nelem → dist g < n)
    (hmono : ∀ i j, i < j → j < gm.nelem → dist i ≤ dist j) (P : Settings) {gs : GradScheme} {R : ReconScheme} {E0 : Disc.Env}
    {w : ℕ → St} {loc : ℕ → ℕ → St} (hl : Represents gm s dist loc w) {res : ℕ → St} {o : Disc.Out}
    (hres : (P.disc gm s 0).residual2 gs R E0 w res = some o)
    (hsw : ∀ k, k < (P.disc gm s 0).G.nface → (P.disc gm s 0).G.inner k → (P.disc gm s 0).SwapOk (o.uR k) (o.uL k))
    {S : ℕ → Sub} {s' : ℕ → FState} (hS : ∀ r, restrict gm s dist r = .ok (S r)) (hs' : ∀ r, topological (S r).mesh = .ok (s' r)) {E : ℕ → Disc.Env}
    (hE : Received gm s dist n gs R S (fun r => P.rank gm s dist n r (S r) (s' r)) (fun r => rankArray gm s dist n loc r (S r)) E)
    {r : ℕ} (hr : r < n) (res' : ℕ → St) :
    ∃ o', (P.rank gm s dist n r (S r) (s' r)).residual2 gs R (E r) (rankArray gm s dist n loc r (S r)) res' = some o' ∧
      ∀ l g : ℕ, (S r).cells[l]? = some g → o'.res l - res' l = o.res g - res g ∧
        (P.rank gm s dist n r (S r) (s' r)).timestep o'.uL o'.uR l = (P.disc gm s 0).timestep o.uL o.uR g := by
  have hD : (P.disc gm s 0).G.Ok := ⟨hc, hz, h⟩
  have hb : (P.disc gm s 0).BcOk := (Disc.residual2_some.1 hres).1
  have hspec : ∀ r, IsSub gm dist r (S r) ∧ ConnOk gm s dist (S r) := fun r => by
    obtain ⟨S', hS', hsub, hcon, -⟩ := restrict_spec hc hn ht h dist r
    rw [hS r] at hS'; cases hS'
    exact ⟨hsub, hcon⟩
  have hpos : ∀ r ic, ic < (S r).mesh.nconnface → position gm.nelem dist ((S r).mesh.connface ic 3) = (S r).mesh.connface ic 3 := by
    intro r ic hic
    obtain ⟨g, j, k, r1, r2, -, -, r5, -⟩ := (hspec r).2.row ic hic
    rw [r5]; exact position_id_iff.2 hmono j r2.2.1.1
  have hu : ∀ r i, i < (S r).mesh.nelem + (S r).mesh.nconnface → rankArray gm s dist n loc r (S r) i = w (rowCell (S r) i) :=
    fun r i hi => rankArray_row hc hn ht h hd hl (hS r) (hpos r) hi
  have hcopy := fun r => rank_copy hc hn ht h hz hall hd P (hS r) (hpos r) (hs' r)
  have hlt : ∀ r l g, (S r).cells[l]? = some g → l < (S r).mesh.nelem := fun r l g hg => by
    rw [(hspec r).1.nelem]; exact (List.getElem?_eq_some_iff.1 hg).1
  have hrow : ∀ r ic, rowCell (S r) ((S r).mesh.nelem + ic) = (S r).mesh.connface ic 3 := fun r ic => by
    rw [rowCell, if_neg (by omega), Nat.add_sub_cancel_left]
  -- received gradients
  have hgr : Represents gm s dist (fun q l => (P.rank gm s dist n q (S q) (s' q)).grads2 gs (E q) (rankArray gm s dist n loc q (S q)) l)
      ((P.disc gm s 0).grads2 gs E0 w) := by
    intro q S' hq l g hlg
    rw [hS q] at hq; cases hq
    obtain ⟨hok, τ, hcp⟩ := hcopy q
    have := Disc.grads_copy (gs := gs) (old := E0.gg) (old' := (E q).gg) hD hok hcp (hu q) (hlt q l g hlg)
    rw [rowCell_own (hspec q).1.nelem hlg] at this
    exact this
  have hgg : ∀ q, q < n → ∀ i, (S q).mesh.nelem ≤ i → i < (S q).mesh.nelem + (S q).mesh.nconnface →
      (E q).gg i = (P.disc gm s 0).grads2 gs E0 w (rowCell (S q) i) := by
    intro q hq i h1 h2
    have a := hE.gg q hq (i - (S q).mesh.nelem) (by omega)
    have b := ghostAfter_row hc hn ht h hd hgr (hS q) (ic := i - (S q).mesh.nelem) (by omega) (hpos q _ (by omega))
    rw [a, Option.some.injEq] at b
    rw [show (S q).mesh.nelem + (i - (S q).mesh.nelem) = i by omega] at b
    rw [b, ← hrow, show (S q).mesh.nelem + (i - (S q).mesh.nelem) = i by omega]
  -- face states of all ranks
  have hface := fun q (hq : q < n) => Disc.C75_face_states (E' := E q) (r' := res') hD (hcopy q).1 (hcopy q).2.choose_spec (hu q) hb
    (fun _ _ => hgg q hq) hres
  obtain ⟨hok, τ, hcp⟩ := hcopy r
  obtain ⟨Q, c, t, q1, q2, q3, q4, q5, q6, q7⟩ := hE.exch
  obtain ⟨hdone, right, hafter⟩ := q7 r hr
  have key := Disc.C75_second_order (E' := E r) (r' := res') hD hok hcp (hu r) hb (hgg r hr) hres (fun ic hic k hk hside => ?_) hsw
  · obtain ⟨o', h1, h2⟩ := key
    refine ⟨o', h1, fun l g hlg => ?_⟩
    have := h2 l (hlt r l g hlg)
    rw [rowCell_own (hspec r).1.nelem hlg] at this
    refine ⟨this, ?_⟩
    obtain ⟨o2, h3, h4⟩ := Disc.C75_face_states (E' := E r) (r' := res') hD hok hcp (hu r) hb (fun _ _ => hgg r hr) hres
    rw [h1] at h3; cases h3
    have := time_steps_own hD hok hcp h4 (hlt r l g hlg)
    rw [rowCell_own (hspec r).1.nelem hlg] at this
    exact this
  · change ic < (S r).mesh.nconnface at hic
    change Side (P.disc gm s 0).G (rowCell (S r) ((S r).mesh.connface ic 0)) ((S r).mesh.connface ic 1)
      (rowOther gm (rowCell (S r) ((S r).mesh.nelem + ic))) k at hside
    obtain ⟨g, j, k2, r1, r2, r3, -, r5, -⟩ := (hspec r).2.row ic hic
    have hgr : dist g = r := (((hspec r).1.cells g).1 (List.mem_of_getElem? r1)).2
    rw [rowCell_own (hspec r).1.nelem r1, hrow, r5, rowOther, if_pos r2.2.1.1] at hside
    have hjn : dist j < n := hd j r2.2.1.1
    obtain ⟨right', Sg, Sj, lg, lj, ic', jc, e1, e2, e3, e4, e5, e6, e7, e8, e9, e10⟩ :=
      C40_exchange_partial hc hn ht h hall (P := Q) (by rw [q1]; exact hd) q2 q5 r2 r3.symm q6 (by rw [hgr]; exact hdone) right
    rw [hgr] at e1 e2 e10
    rw [hafter, Option.some.injEq] at e1
    rw [hS r] at e2; cases e2
    rw [hS (dist j)] at e6; cases e6
    have hl0 : lg = (S r).mesh.connface ic 0 := (hspec r).1.cell_inj e3 r1
    have hcc : ic' = ic := (hspec r).2.distinct ic' ic e4 hic (by rw [e5, hl0]; rfl)
    rw [hcc, ← e1, q3, q3] at e10
    obtain ⟨oj, ho1, ho2⟩ := hface (dist j) hjn
    obtain ⟨-, aj, hrec, hL, -, -⟩ := Disc.residual2_some.1 ho1
    rw [q4 (dist j) aj hrec, ← hL] at e10
    change (E r).exch ((S r).mesh.nbface + (P.rank gm s dist n r (S r) (s' r)).G.ni + ic) = _
    rw [e10, show rowCell (S r) ((P.rank gm s dist n r (S r) (s' r)).G.m.connface ic 0) = g from rowCell_own (hspec r).1.nelem r1,
      hside.far_own o r2.2.2.1]
    -- the other rank's own face state
    have hljn := hlt (dist j) lj j e7
    obtain ⟨hok2, -⟩ := hcopy (dist j)
    have hk2 : k2 < (S (dist j)).mesh.nnode lj := by rw [((hspec (dist j)).1.nnode lj j e7).1]; exact r2.2.1.2
    have hacr : Across (P.rank gm s dist n (dist j) (S (dist j)) (s' (dist j))).G.m (lj, k2) (.conn jc) := ⟨e8, e9⟩
    obtain ⟨kk, hk1, -, hsd⟩ := side_exists hok2 (i := lj) (f := k2) ⟨hljn, hk2⟩ hacr
    have hrowj : (S (dist j)).mesh.connface jc 3 = g := by
      obtain ⟨g3, j3, k3, s1, s2, -, -, s5, -⟩ := (hspec (dist j)).2.row jc e8
      rw [show (S (dist j)).mesh.connface jc 0 = lj from congrArg Prod.fst e9, e7, Option.some.injEq] at s1
      subst s1
      rw [show (S (dist j)).mesh.connface jc 1 = k2 from congrArg Prod.snd e9] at s2
      have := hc.manifold _ _ _ r2.symm s2
      rw [Prod.mk.injEq] at this
      rw [s5, ← this.1]
    have := ho2 lj hljn k2 hk2 _ hacr k kk hk hk1 hsd (by
      show Side _ (rowCell (S (dist j)) lj) k2 (rowOther gm (rowCell (S (dist j)) ((S (dist j)).mesh.nelem + jc))) k
      rw [rowCell_own (hspec (dist j)).1.nelem e7, hrow, hrowj, rowOther, if_pos r2.1.1]
      exact hside.flip hc r2)
    rw [rowCell_own (hspec (dist j)).1.nelem e7] at this
    rw [← this]
    obtain ⟨rfl, -, hfc⟩ := hsd
    unfold Disc.Out.own
    rw [hfc, if_pos rfl]
    rfl

/-- Ghost blocks depend on owned blocks only. -/
theorem ghostAfter_congr {V : Type*} {n : ℕ} {loc loc' : ℕ → ℕ → V} (he : ∀ q l, l < localSize gm s dist q → loc q l = loc' q l) (r ic : ℕ) :
    ghostAfter gm s dist n loc r ic = ghostAfter gm s dist n loc' r ic := by
  unfold ghostAfter
  split
  · congr 1
    unfold blockAt
    cases hf : (List.range n).find? fun q => offset gm s dist q ≤ _ ∧ _ < offset gm s dist (q + 1) with
    | none => rfl
    | some q =>
      have := List.find?_some hf
      simp only [decide_eq_true_eq] at this
      simp only [Option.map_some]
      rw [he q _ (by
        have h2 : offset gm s dist (q + 1) = offset gm s dist q + localSize gm s dist q := by rw [offset, Finset.sum_range_succ, ← offset]
        omega)]
  · rfl

/-- The premise of `C76_second_order_partial` on received data can be met on every mesh and for all states: the ghost updates deliver the owners'
gradients and the exchange can run to completion; `E0` are arbitrary previous contents of the arrays. -/
theorem received_exists (hc : Conforming gm) (hn : gm.nconnface = 0) (ht : gm.nbtag ≤ 4) (h : topological gm = .ok s)
    (hall : AllRegistered gm s dist) {n : ℕ} (hd : ∀ g, g < gm.nelem → dist g < n)
    (hmono : ∀ i j, i < j → j < gm.nelem → dist i ≤ dist j) (gs : GradScheme) (R : ReconScheme) (S : ℕ → Sub)
    (hS : ∀ r, restrict gm s dist r = .ok (S r)) (D : ℕ → Disc) (hDm : ∀ q, (D q).G.m = (S q).mesh) (u : ℕ → ℕ → St) (E0 : ℕ → Disc.Env) :
    ∃ E, Received gm s dist n gs R S D u E ∧ ∀ r, (E r).old = (E0 r).old ∧ (E r).gold = (E0 r).gold := by
  let E1 : ℕ → Disc.Env := fun r => { E0 r with
    gg := fun i => (ghostAfter gm s dist n (fun q l => (D q).grads2 gs (E0 q) (u q) l) r (i - (S r).mesh.nelem)).getD 0 }
  have hsz : ∀ q, localSize gm s dist q = (S q).mesh.nelem := fun q => by simp only [localSize, hS q]
  let left : ℕ → ℕ → (ℕ → ℕ → Option (List ℕ ⊕ List St)) → ℕ → St := fun q _ _ k =>
    match (D q).rec2 gs R (E1 q) (u q) with
    | some a => (D q).gas.consOfPrim (a (true, k))
    | none => 0
  let Q : Setup St := ⟨n, subTab gm s dist, fun q => (S q).mesh.nbface + (D q).G.ni, 2, left⟩
  have hsym := C40_tables hc hn ht h hall hd
  obtain ⟨c, hc1, hc2⟩ := C40_completes (S := Q) hsym
  have hcomp : ∀ r, r < n → Completed c r 1 := fun r hr => by
    obtain ⟨-, e2, e3⟩ := hc2 r hr
    change 2 ≤ _ at e3
    rcases lt_or_eq_of_le (show 1 ≤ (c.rank r).phase by omega) with h | h
    · exact Or.inl h
    · exact Or.inr ⟨h, e2⟩
  have hright : ∀ r, ∃ right', r < n → Q.after c r 1 (E0 r).exch = some right' := fun r => by
    by_cases hr : r < n
    · obtain ⟨right', e, -⟩ := C40_exchange (S := Q) hsym hc1 le_rfl (hcomp r hr) (E0 r).exch
      exact ⟨right', fun _ => e⟩
    · exact ⟨fun _ => 0, fun h => absurd h hr⟩
  choose right hright using hright
  have hrow : ∀ {V : Type} [Zero V] (loc : ℕ → ℕ → V) (w : ℕ → V) r ic, Represents gm s dist loc w → ic < (S r).mesh.nconnface →
      ∃ x, ghostAfter gm s dist n loc r ic = some x := fun loc w r ic hw hic => by
    obtain ⟨S', hS', -, hcon, -⟩ := restrict_spec hc hn ht h dist r
    rw [hS r] at hS'; cases hS'
    obtain ⟨g, j, k, r1, r2, -, -, r5, -⟩ := hcon.row ic hic
    exact ⟨_, ghostAfter_row hc hn ht h hd hw (hS r) hic (by rw [r5]; exact position_id_iff.2 hmono j r2.2.1.1)⟩
  refine ⟨fun r => { E1 r with exch := right r }, ⟨fun r hr ic hic => ?_, Q, c, 1, rfl, rfl, fun _ => rfl, fun q a ha t ib k => ?_, hc1, le_rfl,
    fun r hr => ⟨hcomp r hr, _, hright r hr⟩⟩, fun r => ⟨rfl, rfl⟩⟩
  · have e : ghostAfter gm s dist n (fun q l => (D q).grads2 gs ({ E1 q with exch := right q }) (u q) l) r ic =
        ghostAfter gm s dist n (fun q l => (D q).grads2 gs (E0 q) (u q) l) r ic :=
      ghostAfter_congr (fun q l hl => by
        rw [hsz, ← hDm] at hl
        simp only [Disc.grads2, Disc.gradients, if_pos hl]) r ic
    rw [e]
    obtain ⟨x, hx⟩ := hrow (fun q l => (D q).grads2 gs (E0 q) (u q) l)
      (fun g => (D (dist g)).grads2 gs (E0 (dist g)) (u (dist g)) ((S (dist g)).cells.idxOf g)) r ic (by
        intro q S' hq l g hlg
        rw [hS q] at hq; cases hq
        obtain ⟨S', hS', hsub, -⟩ := restrict_spec hc hn ht h dist q
        rw [hS q] at hS'; cases hS'
        have hq := ((hsub.cells g).1 (List.mem_of_getElem? hlg)).2
        show (D q).grads2 gs (E0 q) (u q) l = (D (dist g)).grads2 gs (E0 (dist g)) (u (dist g)) ((S (dist g)).cells.idxOf g)
        rw [hq]
        congr 1
        have hmem := List.mem_of_getElem? hlg
        exact hsub.cell_inj hlg (by rw [List.getElem?_eq_getElem (List.idxOf_lt_length_of_mem hmem), List.getElem_idxOf])) hic
    rw [hx, Option.some.injEq]
    show x = (ghostAfter gm s dist n (fun q l => (D q).grads2 gs (E0 q) (u q) l) r ((S r).mesh.nelem + ic - (S r).mesh.nelem)).getD 0
    rw [Nat.add_sub_cancel_left, hx, Option.getD_some]
  · have ha : (D q).rec2 gs R (E1 q) (u q) = some a := ha
    show left q t ib k = _
    simp only [left, ha]

end part

/-! ### Examples: the square cut by its diagonals, on two ranks -/

theorem llf_swap (G : Gas) (a b : St) (n : V2) (i : Fin 4) : llf G b a (-n) i = - llf G a b n i := by
  have e : llfEig (Gas.varsVn b (-n)) (cSide G b) (Gas.varsVn a (-n)) (cSide G a) = llfEig (Gas.varsVn a n) (cSide G a) (Gas.varsVn b n) (cSide G b) := by
    simp only [llfEig, varsVn_neg, abs_neg]; split_ifs <;> linarith
  unfold llf
  simp only [e]
  have f : ∀ w : St, G.eulerFlux w (-n) i = -G.eulerFlux w n i := fun w => by
    fin_cases i <;> simp [Gas.eulerFlux, Gas.dirFlux, dot, mom] <;> ring
  rw [f, f]; ring

/-- The second-order residual is defined if the reconstruction does not read beyond the arrays. -/
theorem residual2_defined {D : Disc} (hok : D.G.Ok) (hb : D.BcOk) {gs : GradScheme} {R : ReconScheme} (hR : Disc.ReconOk R)
    (hlim : (R = .barthJespersen ∨ ∃ K, R = .venkatakrishnan K) → D.G.m.nbface = 0) (E : Disc.Env) (u res : ℕ → St) :
    ∃ o, D.residual2 gs R E u res = some o := by
  obtain ⟨a, ha⟩ : ∃ a, D.rec2 gs R E u = some a := by
    unfold Disc.rec2 Disc.recon
    simp only
    rw [if_pos fun v => Disc.recon1_isSome hok hR hlim _ _ _ _]
    exact ⟨_, rfl⟩
  let uL : ℕ → St := fun k => D.gas.consOfPrim (a (true, k))
  let uR : ℕ → St := fun k => if k < D.G.m.nbface then D.bstate k (uL k) else if D.G.inner k then D.gas.consOfPrim (a (false, k)) else E.exch k
  exact ⟨⟨uL, uR, D.fluxes true u (D.grads2 gs E u) uL uR (fun k => D.bstate k (u (D.G.face k).left)) res⟩,
    Disc.residual2_some.2 ⟨hb, a, ha, fun _ => rfl, fun _ => rfl, rfl⟩⟩

/-- Air, far-field boundaries at state `c`. -/
noncomputable def air1 (c : St) : Settings := ⟨air, .llf, false, false, fun _ => some (.farfield c)⟩

set_option synthInstance.maxSize 1000 in
theorem cross_all {s : FState} (h : topological FV.Geo.cross = .ok s) (dist : ℕ → ℕ) : AllRegistered FV.Geo.cross s dist := by
  rw [C38_all_iff cross_conforming rfl (by decide +kernel) h]
  rintro g f ⟨j, k, hgl, -⟩
  have hin : ∀ g < 4, ∀ f < 3, ∀ j < 4, ∀ k < 3, g ≠ j → edge FV.Geo.cross (g, f) = edge FV.Geo.cross (j, k) →
      (4 = FV.Geo.cross.inpoel g f ∨ 4 = FV.Geo.cross.inpoel g ((f + 1) % 3)) := by decide +kernel
  exact ⟨4, mem_edge.2 (hin g hgl.1.1 f hgl.1.2 j hgl.2.1.1 k hgl.2.1.2 hgl.2.2.1 hgl.2.2.2), cross_inner dist _⟩

/-- Local blocks of the ranks holding the field `w`. -/
noncomputable def split {V : Type*} (gm : Mesh) (s : FState) (dist : ℕ → ℕ) (w : ℕ → V) (q l : ℕ) : V :=
  match restrict gm s dist q with
  | .ok S => w (S.cells.getD l 0)
  | _ => w 0

theorem split_represents {V : Type*} (gm : Mesh) (s : FState) (dist : ℕ → ℕ) (w : ℕ → V) : Represents gm s dist (split gm s dist w) w := by
  intro q S hq l g hlg
  simp only [split, hq, List.getD_eq_getElem?_getD, hlg, Option.getD_some]

/-- Hypotheses of `C76_first_order_partial` are met by cells 0, 1 on rank 0 and 2, 3 on rank 1, for all admissible states. -/
example (c : St) (w : ℕ → St) (hw : ∀ i, i < 4 → Adm air (w i)) (res : ℕ → St) : ∃ s, topological FV.Geo.cross = .ok s ∧
    ∃ o, ((air1 c).disc FV.Geo.cross s 0).residual1 w res = some o ∧
      ∀ r, ∃ S s', restrict FV.Geo.cross s (fun i => i / 2) r = .ok S ∧ topological S.mesh = .ok s' ∧ ∀ res' : ℕ → St,
        ∃ o', ((air1 c).rank FV.Geo.cross s (fun i => i / 2) 2 r S s').residual1
            (rankArray FV.Geo.cross s (fun i => i / 2) 2 (split FV.Geo.cross s (fun i => i / 2) w) r S) res' = some o' ∧
          ∀ l g : ℕ, S.cells[l]? = some g → o'.res l - res' l = o.res g - res g := by
  obtain ⟨s, hs, -⟩ := FV.Geo.cross_topological
  have hne : FV.Geo.cross.nelem = 4 := by decide +kernel
  exact ⟨s, hs, C76_first_order_partial cross_conforming rfl (by decide +kernel) hs FV.Geo.cross_nozero (cross_all hs _)
    (fun g hg => by show g / 2 < 2; omega) (fun i j h _ => Nat.div_le_div_right h.le) (air1 c) (fun k _ => rfl)
    (by norm_num [air1, air]) (fun i hi => hw i (hne ▸ hi)) (split_represents _ _ _ w) res⟩

/-- Hypotheses of `C76_second_order_partial` are met by any state, with Green-Gauss gradients and MUSCL. -/
example (c : St) (w : ℕ → St) (E0 : Disc.Env) (res : ℕ → St) : ∃ s, topological FV.Geo.cross = .ok s ∧
    ∃ o, ((air1 c).disc FV.Geo.cross s 0).residual2 .greenGauss .muscl E0 w res = some o ∧
      ∃ (S : ℕ → Sub) (s' : ℕ → FState) (E : ℕ → Disc.Env), ∀ r, r < 2 → ∀ res' : ℕ → St,
        ∃ o', ((air1 c).rank FV.Geo.cross s (fun i => i / 2) 2 r (S r) (s' r)).residual2 .greenGauss .muscl (E r)
            (rankArray FV.Geo.cross s (fun i => i / 2) 2 (split FV.Geo.cross s (fun i => i / 2) w) r (S r)) res' = some o' ∧
          ∀ l g : ℕ, (S r).cells[l]? = some g → o'.res l - res' l = o.res g - res g ∧
        ((air1 c).rank FV.Geo.cross s (fun i => i / 2) 2 r (S r) (s' r)).timestep o'.uL o'.uR l = ((air1 c).disc FV.Geo.cross s 0).timestep o.uL o.uR g := by
  obtain ⟨s, hs, -⟩ := FV.Geo.cross_topological
  have hne : FV.Geo.cross.nelem = 4 := by decide +kernel
  have hok : ((air1 c).disc FV.Geo.cross s 0).G.Ok := ⟨cross_conforming, FV.Geo.cross_nozero, hs⟩
  obtain ⟨o, hsome⟩ := residual2_defined hok (fun k _ => rfl) (gs := .greenGauss) (R := .muscl) (show Disc.ReconOk .muscl from trivial)
    (fun h => by rcases h with h | ⟨K, h⟩ <;> cases h) E0 w res
  have hSx : ∀ r, ∃ S s', restrict FV.Geo.cross s (fun i => i / 2) r = .ok S ∧ topological S.mesh = .ok s' := fun r => by
    obtain ⟨S, hS, -⟩ := restrict_spec cross_conforming rfl (by decide +kernel) hs (fun i => i / 2) r
    obtain ⟨s', hs'⟩ := sub_topological cross_conforming rfl (by decide +kernel) hs hS
    exact ⟨S, s', hS, hs'⟩
  choose S s' hS hs' using hSx
  have hd : ∀ g, g < FV.Geo.cross.nelem → g / 2 < 2 := fun g hg => by omega
  have hmono : ∀ i j, i < j → j < FV.Geo.cross.nelem → i / 2 ≤ j / 2 := fun i j h _ => Nat.div_le_div_right h.le
  obtain ⟨E, hE, -⟩ := received_exists cross_conforming rfl (by decide +kernel) hs (cross_all hs _) hd hmono .greenGauss .muscl S hS
    (fun r => (air1 c).rank FV.Geo.cross s (fun i => i / 2) 2 r (S r) (s' r)) (fun _ => rfl)
    (fun r => rankArray FV.Geo.cross s (fun i => i / 2) 2 (split FV.Geo.cross s (fun i => i / 2) w) r (S r)) (fun _ => E0)
  refine ⟨s, hs, o, hsome, S, s', E, fun r hr res' => ?_⟩
  exact C76_second_order_partial cross_conforming rfl (by decide +kernel) hs FV.Geo.cross_nozero (cross_all hs _) hd hmono (air1 c)
    (split_represents _ _ _ w) hsome (fun k _ _ n _ v => llf_swap air _ _ n v) hS hs' hE hr res'

/-- Gas at rest with density `rho`. -/
def rest (rho : ℝ) : St := ![rho, 0, 0, 1]

theorem rest_adm {rho : ℝ} (h : 0 < rho) : Adm air (rest rho) := by
  refine ⟨by norm_num [air], h, ?_⟩
  simp [Gas.pressure, Gas.pressureOfInternal, rest, air, mom, dot]
  norm_num

/-- Gas at rest with density 2 in cell 1 and 1 elsewhere. -/
noncomputable def bump (i : ℕ) : St := if i = 1 then rest 2 else rest 1

theorem bump_adm (i : ℕ) : Adm air (bump i) := by
  unfold bump
  split_ifs
  · exact rest_adm (by norm_num)
  · exact rest_adm (by norm_num)

/-- The square's triangles 0 and 2 on rank 0, 1 and 3 on rank 1: rank 0 leaves the residual of cell 0 unchanged, the single process adds a mass flux. -/
theorem cross_interleaved {s : FState} (hs : topological FV.Geo.cross = .ok s)
    (hf : s.faces = [⟨0, 4, 0, 1⟩, ⟨1, 5, 1, 2⟩, ⟨2, 6, 2, 3⟩, ⟨3, 7, 3, 0⟩, ⟨0, 1, 1, 4⟩, ⟨0, 3, 4, 0⟩, ⟨1, 2, 2, 4⟩, ⟨2, 3, 3, 4⟩]) (res : ℕ → St) :
    ∃ o, ((air1 (rest 1)).disc FV.Geo.cross s 0).residual1 bump res = some o ∧ res 0 0 < o.res 0 0 ∧
        ∃ S s', restrict FV.Geo.cross s (fun i => i % 2) 0 = .ok S ∧ topological S.mesh = .ok s' ∧ (∃ l : ℕ, S.cells[l]? = some 0) ∧
          ∀ res' : ℕ → St, ∃ o', ((air1 (rest 1)).rank FV.Geo.cross s (fun i => i % 2) 2 0 S s').residual1
              (rankArray FV.Geo.cross s (fun i => i % 2) 2 (split FV.Geo.cross s (fun i => i % 2) bump) 0 S) res' = some o' ∧
            ∀ l, l < S.mesh.nelem → o'.res l = res' l := by
  have hne : FV.Geo.cross.nelem = 4 := by decide +kernel
  let w : ℕ → St := bump
  have hrep := split_represents FV.Geo.cross s (fun i => i % 2) w
  have hok : ((air1 (rest 1)).disc FV.Geo.cross s 0).G.Ok := ⟨cross_conforming, FV.Geo.cross_nozero, hs⟩
  have hb : ((air1 (rest 1)).disc FV.Geo.cross s 0).BcOk := fun k _ => rfl
  refine ⟨_, by unfold Disc.residual1; rw [if_pos hb], ?_, ?_⟩
  · -- the single process
    have hl4 : 0 < ((air1 (rest 1)).disc FV.Geo.cross s 0).G.len 4 := Disc.len_pos hok (by
      show 4 < s.faces.length
      rw [hf]; decide)
    have hm : ∀ (a b : ℝ) (n : V2), llf air (rest a) (rest b) n 0 =
        - (1 / 2) * llfEig (Gas.varsVn (rest a) n) (cSide air (rest a)) (Gas.varsVn (rest b) n) (cSide air (rest b)) * (b - a) := fun a b n => by
      simp [llf, Gas.eulerFlux, Gas.dirFlux, rest, dot, mom]; ring
    have hsum : ∀ Φ : ℕ → St, assemble FV.Geo.cross.nelem s.faces Φ res 0 0 = res 0 0 - Φ 0 0 - Φ 4 0 - Φ 5 0 := fun Φ => by
      rw [assemble_eq, hf, hne]
      simp [Finset.sum_range_succ, contrib, faceAt]
      ring
    simp only [Disc.fluxes]
    rw [show ((air1 (rest 1)).disc FV.Geo.cross s 0).G.m.nelem = FV.Geo.cross.nelem from rfl,
      show ((air1 (rest 1)).disc FV.Geo.cross s 0).G.s.faces = s.faces from rfl, hsum]
    have hE : 0 < llfEig (Gas.varsVn (rest 1) (((air1 (rest 1)).disc FV.Geo.cross s 0).G.nrm 4)) (cSide air (rest 1))
        (Gas.varsVn (rest 2) (((air1 (rest 1)).disc FV.Geo.cross s 0).G.nrm 4)) (cSide air (rest 2)) := by
      have hv : ∀ (a : ℝ) (n : V2), Gas.varsVn (rest a) n = 0 := fun a n => by simp [Gas.varsVn, Gas.vel, rest, dot]
      have hc : ∀ a : ℝ, 0 < a → 0 < cSide air (rest a) := fun a ha => by
        unfold cSide Gas.soundSpeed
        refine Real.sqrt_pos.2 ?_
        rw [varsP_eq (rest_adm ha).rho']
        have h1 := (rest_adm ha).p
        have h2 : 0 < rest a 0 := ha
        have h3 : 0 < air.g := by norm_num [air]
        positivity
      simp only [llfEig, hv, abs_zero, zero_add]
      split_ifs
      · exact hc 1 one_pos
      · exact hc 2 two_pos
    have f0 : faceAt s.faces 0 = ⟨0, 4, 0, 1⟩ := by rw [hf]; rfl
    have f4 : faceAt s.faces 4 = ⟨0, 1, 1, 4⟩ := by rw [hf]; rfl
    have f5 : faceAt s.faces 5 = ⟨0, 3, 4, 0⟩ := by rw [hf]; rfl
    have w0 : bump 0 = rest 1 := rfl
    have w1 : bump 1 = rest 2 := rfl
    have w3 : bump 3 = rest 1 := rfl
    have b0 : (0 : ℕ) < FV.Geo.cross.nbface := by decide +kernel
    have b4 : ¬ (4 : ℕ) < FV.Geo.cross.nbface := by decide +kernel
    have b5 : ¬ (5 : ℕ) < FV.Geo.cross.nbface := by decide +kernel
    generalize hD : ((air1 (rest 1)).disc FV.Geo.cross s 0) = D at hE hl4 ⊢
    have d0 : D.viscous = false := by rw [← hD]; rfl
    have d1 : D.scheme = .llf := by rw [← hD]; rfl
    have d2 : D.gas = air := by rw [← hD]; rfl
    have d3 : ∀ k, D.bc (D.tag k) = some (.farfield (rest 1)) := fun k => by rw [← hD]; rfl
    have d4 : ∀ k, D.G.face k = faceAt s.faces k := fun k => by rw [← hD]; rfl
    have d5 : D.G.m.nbface = FV.Geo.cross.nbface := by rw [← hD]; rfl
    simp only [Disc.faceFlux, Disc.bstate, BC.Obj.ghost, BC.farfield, d0, d1, d2, d3, d4, d5, f0, f4, f5, w0, w1, w3, if_pos b0, if_neg b4, if_neg b5,
      Scheme.flux, Bool.false_eq_true, if_false, add_zero, hm]
    have := mul_pos hE hl4
    linarith
  · obtain ⟨S, hS, hsub, hcon, -⟩ := restrict_spec cross_conforming rfl (by decide +kernel) hs (fun i => i % 2) 0
    obtain ⟨s', hs'⟩ := sub_topological cross_conforming rfl (by decide +kernel) hs hS
    refine ⟨S, s', hS, hs', List.mem_iff_getElem?.1 ((hsub.cells 0).2 ⟨by omega, rfl⟩), fun res' => ?_⟩
    have hok' : ((air1 (rest 1)).rank FV.Geo.cross s (fun i => i % 2) 2 0 S s').G.Ok :=
      rank_ok cross_conforming rfl (by decide +kernel) hs FV.Geo.cross_nozero (cross_all hs _) _ hS hs'
    have hu : ∀ i, i < ((air1 (rest 1)).rank FV.Geo.cross s (fun i => i % 2) 2 0 S s').G.rows →
        rankArray FV.Geo.cross s (fun i => i % 2) 2 (split FV.Geo.cross s (fun i => i % 2) w) 0 S i = rest 1 := by
      intro i hi
      have hi : i < S.mesh.nelem + S.mesh.nconnface := hi
      rw [rankArray]
      split_ifs with hin
      · obtain ⟨g, hg, -⟩ := hsub.cell hin
        rw [hrep 0 S hS i g hg]
        have : g % 2 = 0 := ((hsub.cells g).1 (List.mem_of_getElem? hg)).2
        exact if_neg (by omega)
      · obtain ⟨g, j, k, r1, r2, r3, -⟩ := hcon.row (i - S.mesh.nelem) (by omega)
        obtain ⟨j', e1, e2, e3⟩ := C74_holds cross_conforming rfl (by decide +kernel) hs (n := 2)
          (fun g _ => Nat.mod_lt _ (by decide)) hrep hS (by omega) rfl r1 r2
        rw [e3, Option.getD_some]
        refine if_neg fun h => ?_
        rw [h, hne, show position 4 (fun i => i % 2) 1 = 2 by decide] at e2
        have : g % 2 = 0 := ((hsub.cells g).1 (List.mem_of_getElem? r1)).2
        have : j % 2 ≠ g % 2 := r3
        omega
    obtain ⟨o', h1, h2⟩ := Disc.C43_first_order hok' (rest_adm one_pos) (fun k _ => rfl) hu res'
    exact ⟨o', h1, fun l hl => h2 l hl⟩

/-- C76 fails for other assignments of cells to ranks. The square's triangles 0 and 2 are on rank 0, 1 and 3 on rank 1; all interface faces are
registered and all states are admissible. The gas is at rest with density 2 in cell 1 and 1 elsewhere. Rank 0 leaves the residual of cell 0
unchanged, the single process adds a mass flux. -/
theorem C76_refuted : ∃ s, Conforming FV.Geo.cross ∧ topological FV.Geo.cross = .ok s ∧ AllRegistered FV.Geo.cross s (fun i => i % 2) ∧
    ∃ (P : Settings) (w : ℕ → St) (loc : ℕ → ℕ → St), (∀ i, Adm P.gas (w i)) ∧ Represents FV.Geo.cross s (fun i => i % 2) loc w ∧
      (P.disc FV.Geo.cross s 0).BcOk ∧ ∀ res : ℕ → St, ∃ o, (P.disc FV.Geo.cross s 0).residual1 w res = some o ∧
        res 0 0 < o.res 0 0 ∧
        ∃ S s', restrict FV.Geo.cross s (fun i => i % 2) 0 = .ok S ∧ topological S.mesh = .ok s' ∧ (∃ l : ℕ, S.cells[l]? = some 0) ∧
          ∀ res' : ℕ → St, ∃ o', (P.rank FV.Geo.cross s (fun i => i % 2) 2 0 S s').residual1
              (rankArray FV.Geo.cross s (fun i => i % 2) 2 loc 0 S) res' = some o' ∧
            ∀ l : ℕ, S.cells[l]? = some 0 → o'.res l = res' l := by
  obtain ⟨s, hs, hf⟩ := FV.Geo.cross_topological
  refine ⟨s, cross_conforming, hs, cross_all hs _, air1 (rest 1), bump, _, bump_adm, split_represents _ _ _ _, fun k _ => rfl, fun res => ?_⟩
  obtain ⟨o, h1, h2, S, s', h3, h4, h5, h6⟩ := cross_interleaved hs hf res
  refine ⟨o, h1, h2, S, s', h3, h4, h5, fun res' => ?_⟩
  obtain ⟨o', k1, k2⟩ := h6 res'
  refine ⟨o', k1, fun l hl => k2 l ?_⟩
  obtain ⟨S', hS', hsub, -⟩ := restrict_spec cross_conforming rfl (by decide +kernel) hs (fun i => i % 2) 0
  rw [h3] at hS'; cases hS'
  rw [hsub.nelem]; exact (List.getElem?_eq_some_iff.1 hl).1

end Par
end FVENS
