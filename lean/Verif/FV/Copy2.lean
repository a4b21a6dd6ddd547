import Verif.FV.Copy

/-!
# Reconstruction and second-order residual of copies (C75)
-/

namespace FVENS
namespace FV

open Msh Finset Flux

/-- Index under which the cell arrays, neighbour lists and face lists know what lies across a face. -/
def Other.idx (m : Mesh) : Other → ℕ
  | .bnd k => m.nelem + m.nconnface + k
  | .cell j => j
  | .conn ic => m.nelem + ic

namespace Geo
variable {G G' : Geo} {σ τ : ℕ → ℕ}

/-- The neighbour recorded for a local face, and the number of its face. -/
theorem side_tables_of (hc : Conforming G.m) (ht : topological G.m = .ok G.s) {i f : ℕ} (hi : i < G.m.nelem) (hf : f < G.m.nnode i) {o : Other} (ho : Across G.m (i, f) o) :
    G.s.esuel i f = some (o.idx G.m) ∧ G.cface i f < G.nface ∧ Side G i f o (G.cface i f) := by
  obtain ⟨k, hk, hek, hs⟩ := side_of_across hc ht ⟨hi, hf⟩ ho
  have hck : G.cface i f = k := by unfold cface; rw [hek]; rfl
  have hget : G.s.faces[k]? = some (G.face k) := faceAt_get hk
  obtain ⟨F, hF, hon⟩ := ((C71_elemface hc ht (x := (i, f)) ⟨hi, hf⟩).2 k).1 hek
  rw [hget] at hF; cases hF
  obtain ⟨n1, n2⟩ := C71_neighbour hc ht (x := (i, f)) ⟨hi, hf⟩ hget hon
  rw [hck]
  refine ⟨?_, hk, hs⟩
  cases o with
  | bnd kb => obtain ⟨-, -, e⟩ := hs; rw [e] at n1; exact n1 rfl
  | conn ic => obtain ⟨-, -, e⟩ := hs; rw [e] at n1; exact n1 rfl
  | cell j =>
    obtain ⟨hin, ⟨-, e⟩ | ⟨hji, e⟩⟩ := hs
    · rw [e] at n1; exact n1 rfl
    · rw [e] at n2; exact n2 rfl

theorem side_tables (h : G.Ok) {i f : ℕ} (hi : i < G.m.nelem) (hf : f < G.m.nnode i) {o : Other} (ho : Across G.m (i, f) o) :
    G.s.esuel i f = some (o.idx G.m) ∧ G.cface i f < G.nface ∧ Side G i f o (G.cface i f) := side_tables_of h.conf h.topo hi hf ho

/-- Midpoint of the face of a side. -/
theorem Side.mid {i f k : ℕ} {o : Other} (hs : Side G i f o k) : G.mid k = fMid (nodeA G.m i f) (nodeB G.m i f) := by
  unfold Geo.mid
  rcases hs.left_or with ⟨-, hn0, hn1⟩ | ⟨-, -, -, hn1, hn0⟩
  · rw [hn0, hn1]; rfl
  · rw [hn0, hn1, fMid_swap]; rfl

/-- Neighbours of copied cells: ghosts of boundary faces, or corresponding rows. -/
theorem nbr_copy (h : G.Ok) (h' : G'.Ok) (hc : GeoCopy G G' σ τ) {i f : ℕ} (hi : i < G'.m.nelem) (hf : f < G'.m.nnode i) :
    ((G'.s.esuel i f).getD 0 ≥ G'.rows ∧ (G.s.esuel (σ i) f).getD 0 ≥ G.rows) ∨
    ((G'.s.esuel i f).getD 0 < G'.rows ∧ (G.s.esuel (σ i) f).getD 0 < G.rows ∧
      (G.s.esuel (σ i) f).getD 0 = σ ((G'.s.esuel i f).getD 0)) := by
  obtain ⟨o, ho⟩ := exists_across h'.conf h'.topo (x := (i, f)) ⟨hi, hf⟩
  have ho' := hc.mesh.across i hi f hf o ho
  have hσ := hc.mesh.cell i hi
  have hn := hc.mesh.nnode i hi
  obtain ⟨e', -⟩ := side_tables h' hi hf ho
  obtain ⟨e, -⟩ := side_tables h hσ (hn ▸ hf) ho'
  rw [e, e']
  simp only [Option.getD_some]
  have hrow : ∀ r, Across G.m (σ i, f) (rowOther G.m r) → (rowOther G.m r).idx G.m = r ∧ r < G.rows := by
    intro r hr
    unfold rowOther at *
    split_ifs at * with hlt
    · exact ⟨rfl, by unfold rows; omega⟩
    · have : r - G.m.nelem < G.m.nconnface := hr.1
      refine ⟨?_, by unfold rows; omega⟩
      show G.m.nelem + (r - G.m.nelem) = r
      omega
  cases o with
  | bnd k =>
    left
    show G'.m.nelem + G'.m.nconnface + k ≥ G'.rows ∧ G.m.nelem + G.m.nconnface + τ k ≥ G.rows
    unfold rows; omega
  | cell j =>
    right
    obtain ⟨g, hg⟩ := ho
    obtain ⟨e1, e2⟩ := hrow _ ho'
    have hj : j < G'.m.nelem := hg.2.1.1
    refine ⟨?_, ?_, e1⟩
    · show j < G'.rows; unfold rows; omega
    · show (rowOther G.m (σ j)).idx G.m < _; rw [e1]; exact e2
  | conn ic =>
    right
    obtain ⟨e1, e2⟩ := hrow _ ho'
    have hj := ho.1
    refine ⟨?_, ?_, e1⟩
    · show G'.m.nelem + ic < G'.rows; unfold rows; omega
    · show (rowOther G.m (σ (G'.m.nelem + ic))).idx G.m < _; rw [e1]; exact e2

theorem foldl_range_congr {β : Type*} (n : ℕ) {F F' : β → ℕ → β} (h : ∀ f, f < n → ∀ b, F b f = F' b f) (b : β) :
    (List.range n).foldl F b = (List.range n).foldl F' b := by
  refine List.foldl_ext _ _ _ fun b f hf => h f (List.mem_range.1 hf) b

section
variable (h : G.Ok) (h' : G'.Ok) (hc : GeoCopy G G' σ τ) {i : ℕ} (hi : i < G'.m.nelem)
include h h' hc hi

theorem rd_nbr {α : Type*} {f : ℕ} (hf : f < G'.m.nnode i) {a a' : ℕ → α} (ha : ∀ j, j < G'.m.nelem + G'.m.nconnface → a' j = a (σ j)) :
    rd G'.rows a' ((G'.s.esuel i f).getD 0) = rd G.rows a ((G.s.esuel (σ i) f).getD 0) := by
  unfold rd
  rcases nbr_copy h h' hc hi hf with ⟨h1, h2⟩ | ⟨h1, h2, h3⟩
  · rw [if_neg (by omega), if_neg (by omega)]
  · rw [if_pos h1, if_pos h2, ha _ h1, h3]

omit h h' in
theorem rd_self {α : Type*} {a a' : ℕ → α} (ha : a' i = a (σ i)) : rd G'.rows a' i = rd G.rows a (σ i) := by
  have := hc.mesh.cell i hi
  unfold rd rows
  rw [if_pos (by omega), if_pos (by omega), ha]

theorem nfael_copy : G'.m.nfael i = G'.m.nnode i ∧ G.m.nfael (σ i) = G'.m.nnode i := by
  rw [h'.conf.lin.nf i hi, h.conf.lin.nf _ (hc.mesh.cell i hi), hc.mesh.nnode i hi]; exact ⟨rfl, rfl⟩

theorem duRange_copy {u u' : ℕ → ℝ} (hu : ∀ j, j < G'.m.nelem + G'.m.nconnface → u' j = u (σ j)) :
    duRange G'.rows u' i (G'.nbrs i) = duRange G.rows u (σ i) (G.nbrs (σ i)) := by
  obtain ⟨n1, n2⟩ := nfael_copy h h' hc hi
  unfold duRange nbrs
  rw [List.foldl_map, List.foldl_map, n1, n2]
  refine foldl_range_congr _ (fun f hf b => ?_) _
  rw [rd_nbr h h' hc hi hf hu, rd_self hc hi (a := u) (a' := u') (hu i (by omega))]

theorem wenoGrad_copy (lam : ℝ) {g g' : ℕ → Fin 2 → ℝ} (hg : ∀ j, j < G'.m.nelem + G'.m.nconnface → g' j = g (σ j)) :
    wenoGrad lam G'.rows g' i (G'.nbrs i) = wenoGrad lam G.rows g (σ i) (G.nbrs (σ i)) := by
  obtain ⟨n1, n2⟩ := nfael_copy h h' hc hi
  simp only [wenoGrad, nbrs]
  rw [List.foldl_map, List.foldl_map, n1, n2, rd_self hc hi (a := g) (a' := g') (hg i (by omega))]
  congr 1
  refine foldl_range_congr _ (fun f hf b => ?_) _
  rw [rd_nbr h h' hc hi hf hg]
  rcases nbr_copy h h' hc hi hf with ⟨h1, h2⟩ | ⟨h1, h2, h3⟩
  · simp only [h1, h2, if_true]
  · simp only [show ¬ (G'.s.esuel i f).getD 0 ≥ G'.rows from by omega, show ¬ (G.s.esuel (σ i) f).getD 0 ≥ G.rows from by omega, if_false]

theorem diffs_copy {u u' : ℕ → ℝ} {g g' : ℕ → Fin 2 → ℝ} (hu : u' i = u (σ i)) (hg : g' i = g (σ i)) :
    G'.diffs u' g' G'.mid i = G.diffs u g G.mid (σ i) := by
  obtain ⟨n1, n2⟩ := nfael_copy h h' hc hi
  unfold diffs
  rw [n1, n2]
  refine List.map_congr_left fun f hf => ?_
  have hf := List.mem_range.1 hf
  have hn := hc.mesh.nnode i hi
  obtain ⟨o, ho⟩ := exists_across h'.conf h'.topo (x := (i, f)) ⟨hi, hf⟩
  have ho' := hc.mesh.across i hi f hf o ho
  obtain ⟨-, -, s'⟩ := side_tables h' hi hf ho
  obtain ⟨-, -, s⟩ := side_tables h (hc.mesh.cell i hi) (hn ▸ hf) ho'
  obtain ⟨m1, m2⟩ := hc.mesh.nodes h'.conf.lin hi hf
  rw [Side.mid s', Side.mid s, m1, m2, hu, hg, hc.rc i (by omega)]

omit h in
theorem clength_copy : G'.clength i = G.clength (σ i) := by
  unfold clength
  rw [← hc.mesh.nnode i hi]
  congr 1
  have key : ∀ n, n ≤ G'.m.nnode i → forLt n (0 : ℝ) (fun f c =>
      let x := G'.m.coords (G'.m.inpoel i f)
      let y := G'.m.coords (G'.m.inpoel i ((f + 1) % G'.m.nnode i))
      let llen := (x 0 - y 0) ^ 2 + (x 1 - y 1) ^ 2
      if c < llen then llen else c) = forLt n (0 : ℝ) (fun f c =>
      let x := G.m.coords (G.m.inpoel (σ i) f)
      let y := G.m.coords (G.m.inpoel (σ i) ((f + 1) % G'.m.nnode i))
      let llen := (x 0 - y 0) ^ 2 + (x 1 - y 1) ^ 2
      if c < llen then llen else c) := by
    intro n
    induction n with
    | zero => intro _; rfl
    | succ n ih =>
      intro hn
      rw [forLt_succ, forLt_succ, ih (by omega), hc.mesh.xy i hi n (by omega), hc.mesh.xy i hi _ (h'.conf.lin.next_lt hi n)]
  exact key _ le_rfl

end

/-! ### Value on the cell's own side of a face -/

end Geo

namespace Disc
variable {D D' : Disc} {σ τ : ℕ → ℕ}

/-- Reconstructed value on the side of cell `i` at its local face `f`, with `ux` and `xx` value and centre across. -/
noncomputable def ownRec (D : Disc) (R : ReconScheme) (u : ℕ → ℝ) (g : ℕ → Fin 2 → ℝ) (i f : ℕ) (ux : ℝ) (xx : Fin 2 → ℝ) : ℝ :=
  let G := D.G
  let p := fMid (nodeA G.m i f) (nodeB G.m i f)
  match R with
  | .linear => linExt (u i) (g i) 1 p (G.rc i)
  | .muscl =>
    let d := Geo.biasedDiff (G.rc i) xx (u i) ux (g i)
    Geo.musclL (u i) ux d (vanAlbada d (ux - u i))
  | .weno lam => linExt (u i) ((wenoGrad lam G.rows g i (G.nbrs i)).getD 0) 1 p (G.rc i)
  | .barthJespersen =>
    let q := (duRange G.rows u i (G.nbrs i)).getD (0, 0)
    linExt (u i) (g i) (bjLim q.1 q.2 (G.diffs u g G.mid i)) p (G.rc i)
  | .venkatakrishnan K =>
    let q := (duRange G.rows u i (G.nbrs i)).getD (0, 0)
    linExt (u i) (g i) (venkLim ((K * G.clength i) ^ 3) q.1 q.2 (G.diffs u g G.mid i)) p (G.rc i)

theorem vanAlbada_neg (a b : ℝ) : vanAlbada (-a) (-b) = vanAlbada a b := by
  unfold vanAlbada
  simp only [mul_neg, neg_mul, neg_neg]

theorem muscl_swap (ui uj : ℝ) (xi xj : Fin 2 → ℝ) (gj : Fin 2 → ℝ) :
    Geo.musclR ui uj (Geo.biasedDiff xi xj ui uj gj) (vanAlbada (Geo.biasedDiff xi xj ui uj gj) (uj - ui)) =
    Geo.musclL uj ui (Geo.biasedDiff xj xi uj ui gj) (vanAlbada (Geo.biasedDiff xj xi uj ui gj) (ui - uj)) := by
  have e : Geo.biasedDiff xj xi uj ui gj = - Geo.biasedDiff xi xj ui uj gj := by unfold Geo.biasedDiff; ring
  rw [e, show ui - uj = -(uj - ui) by ring, vanAlbada_neg]
  unfold Geo.musclR Geo.musclL; ring

/-- All schemes compute the value on a cell's side from the cell and what it sees. -/
theorem recon1_side (h : D.G.Ok) {R : ReconScheme} {u ug : ℕ → ℝ} {g : ℕ → Fin 2 → ℝ} {a b : Bool × ℕ → ℝ} (hb : D.recon1 R u ug g a = some b)
    {i f k : ℕ} {o : Other} (hk : k < D.G.nface) (hs : Side D.G i f o k) :
    ((D.G.face k).left = i → b (true, k) = D.ownRec R u g i f (o.val D.G.m u ug) (o.val D.G.m D.G.rc D.G.rcbp)) ∧
    ((D.G.face k).left ≠ i → b (false, k) = D.ownRec R u g i f (o.val D.G.m u ug) (o.val D.G.m D.G.rc D.G.rcbp)) := by
  obtain ⟨k1, k2, k3, k4, k5⟩ := h.kind hk
  have hmid := Geo.Side.mid hs
  have hLr : (D.G.face k).left < D.G.rows := by unfold Geo.rows; omega
  have hcell : ∀ val : ℕ → ℕ → ℝ, ((D.G.face k).left = i → D.G.cellWrite val a (true, k) = val i k) ∧
      ((D.G.face k).left ≠ i → D.G.cellWrite val a (false, k) = val i k) := by
    intro val
    obtain ⟨w1, w2, -⟩ := Geo.cellWrite_spec h val a hk
    refine ⟨fun hl => by rw [w1, hl], fun hl => ?_⟩
    rcases hs.left_or with ⟨hl', -⟩ | ⟨-, hr, hin, -⟩
    · exact absurd hl' hl
    · rw [w2 hin, hr]
  cases R with
  | linear =>
    simp only [recon1, faceArr] at hb
    split_ifs at hb
    rw [← Option.some.inj hb]
    simp only [hk, if_true, Bool.false_eq_true, if_false, ownRec]
    rcases hs.left_or with ⟨hl, -⟩ | ⟨⟨j, hoj, hl, hj⟩, hr, hin, -⟩
    · refine ⟨fun _ => ?_, fun hn => absurd hl hn⟩
      by_cases hin : D.G.inner k
      · have hRr : (D.G.face k).right < D.G.rows := by have := k4.1 hin; unfold Geo.rows; omega
        simp [Geo.linearFace, rd, hLr, hRr, hin]
        rw [hl, hmid]
      · simp [Geo.linearFace, rd, hLr, hin]
        rw [hl, hmid]
    · have hRr : (D.G.face k).right < D.G.rows := by have := k4.1 hin; unfold Geo.rows; omega
      refine ⟨fun hn => absurd (hl.symm.trans hn) hj, fun _ => ?_⟩
      simp [Geo.linearFace, rd, hLr, hRr, hin]
      rw [hr, hmid]
  | muscl =>
    simp only [recon1, faceArr] at hb
    split_ifs at hb
    rw [← Option.some.inj hb]
    simp only [hk, if_true, Bool.false_eq_true, if_false, ownRec]
    rcases hs.left_or with ⟨hl, -⟩ | ⟨⟨j, hoj, hl, hj⟩, hr, hin, -⟩
    · refine ⟨fun _ => ?_, fun hn => absurd hl hn⟩
      have e1 := hs.right_val hl u ug
      have e2 := hs.right_val hl D.G.rc D.G.rcbp
      by_cases hbd : k < D.G.m.nbface
      · rw [if_pos hbd] at e1 e2
        simp [Geo.musclFace, rd, hLr, hbd]
        rw [hl, e1, e2]
      · rw [if_neg hbd] at e1 e2
        have hRr : (D.G.face k).right < D.G.rows := k5 (by omega)
        simp [Geo.musclFace, rd, hLr, hRr, hbd]
        rw [hl, e1, e2]
    · have hRr : (D.G.face k).right < D.G.rows := by have := k4.1 hin; unfold Geo.rows; omega
      have hbd : ¬ k < D.G.m.nbface := by have := hin.1; omega
      refine ⟨fun hn => absurd (hl.symm.trans hn) hj, fun _ => ?_⟩
      simp [Geo.musclFace, rd, hLr, hRr, hbd]
      rw [hr, hl, hoj]
      exact muscl_swap (u j) (u i) (D.G.rc j) (D.G.rc i) (g i)
  | weno lam =>
    simp only [recon1, Geo.weno] at hb
    split_ifs at hb
    rw [← Option.some.inj hb]
    obtain ⟨c1, c2⟩ := hcell (fun i k => linExt (u i) ((wenoGrad lam D.G.rows g i (D.G.nbrs i)).getD 0) 1 (D.G.mid k) (D.G.rc i))
    simp only [ownRec, ← hmid]
    exact ⟨c1, c2⟩
  | barthJespersen =>
    simp only [recon1, Geo.barthJespersen] at hb
    split_ifs at hb
    rw [← Option.some.inj hb]
    obtain ⟨c1, c2⟩ := hcell (fun i k =>
      let p := (duRange D.G.rows u i (D.G.nbrs i)).getD (0, 0)
      linExt (u i) (g i) (bjLim p.1 p.2 (D.G.diffs u g D.G.mid i)) (D.G.mid k) (D.G.rc i))
    simp only [ownRec, ← hmid]
    exact ⟨c1, c2⟩
  | venkatakrishnan K =>
    simp only [recon1, Geo.venkatakrishnan] at hb
    split_ifs at hb
    rw [← Option.some.inj hb]
    obtain ⟨c1, c2⟩ := hcell (fun i k =>
      let p := (duRange D.G.rows u i (D.G.nbrs i)).getD (0, 0)
      linExt (u i) (g i) (venkLim ((K * D.G.clength i) ^ 3) p.1 p.2 (D.G.diffs u g D.G.mid i)) (D.G.mid k) (D.G.rc i))
    simp only [ownRec, ← hmid]
    exact ⟨c1, c2⟩

/-- Values on the own side agree for copies; ghost rows of the gradients matter for WENO only. -/
theorem ownRec_copy (h : D.G.Ok) (h' : D'.G.Ok) (hc : DiscCopy D D' σ τ) (R : ReconScheme) {u u' : ℕ → ℝ} {g g' : ℕ → Fin 2 → ℝ}
    (hu : ∀ i, i < D'.G.m.nelem + D'.G.m.nconnface → u' i = u (σ i)) (hg : ∀ i, i < D'.G.m.nelem → g' i = g (σ i))
    (hw : ∀ lam, R = .weno lam → ∀ i, i < D'.G.m.nelem + D'.G.m.nconnface → g' i = g (σ i))
    {i f : ℕ} (hi : i < D'.G.m.nelem) (hf : f < D'.G.m.nnode i) (ux : ℝ) (xx : Fin 2 → ℝ) :
    D'.ownRec R u' g' i f ux xx = D.ownRec R u g (σ i) f ux xx := by
  obtain ⟨n1, n2⟩ := hc.geo.mesh.nodes h'.conf.lin hi hf
  have hui := hu i (by omega)
  have hgi := hg i hi
  have hri := hc.geo.rc i (by omega)
  cases R with
  | linear => simp only [ownRec, n1, n2, hui, hgi, hri]
  | muscl => simp only [ownRec, hui, hgi, hri]
  | weno lam => simp only [ownRec, n1, n2, hui, hri, Geo.wenoGrad_copy h h' hc.geo hi lam (hw lam rfl)]
  | barthJespersen =>
    simp only [ownRec, n1, n2, hui, hgi, hri, Geo.duRange_copy h h' hc.geo hi hu, Geo.diffs_copy h h' hc.geo hi hui hgi]
  | venkatakrishnan K =>
    simp only [ownRec, n1, n2, hui, hgi, hri, Geo.duRange_copy h h' hc.geo hi hu, Geo.diffs_copy h h' hc.geo hi hui hgi,
      Geo.clength_copy h' hc.geo hi]

/-- A copy is reconstructed without reading beyond the arrays if the original is. -/
theorem recon1_copy_isSome (h : D.G.Ok) (h' : D'.G.Ok) (hc : DiscCopy D D' σ τ) (R : ReconScheme) {u u' ug ug' : ℕ → ℝ} {g g' : ℕ → Fin 2 → ℝ}
    {a a' : Bool × ℕ → ℝ} (hu : ∀ i, i < D'.G.m.nelem + D'.G.m.nconnface → u' i = u (σ i))
    (hw : ∀ lam, R = .weno lam → ∀ i, i < D'.G.m.nelem + D'.G.m.nconnface → g' i = g (σ i))
    (hs : (D.recon1 R u ug g a).isSome = true) : (D'.recon1 R u' ug' g' a').isSome = true := by
  cases R with
  | linear => exact recon1_isSome h' (R := .linear) trivial (by simp) _ _ _ _
  | muscl => exact recon1_isSome h' (R := .muscl) trivial (by simp) _ _ _ _
  | weno lam =>
    simp only [recon1, Geo.weno] at hs ⊢
    split_ifs at hs with hd
    · rw [if_pos fun i hi => ?_]
      · rfl
      · rw [Geo.wenoGrad_copy h h' hc.geo hi lam (hw lam rfl)]; exact hd _ (hc.geo.mesh.cell i hi)
    · cases hs
  | barthJespersen =>
    simp only [recon1, Geo.barthJespersen] at hs ⊢
    split_ifs at hs with hd
    · rw [if_pos fun i hi => ?_]
      · rfl
      · rw [Geo.duRange_copy h h' hc.geo hi hu]; exact hd _ (hc.geo.mesh.cell i hi)
    · cases hs
  | venkatakrishnan K =>
    simp only [recon1, Geo.venkatakrishnan] at hs ⊢
    split_ifs at hs with hd
    · rw [if_pos fun i hi => ?_]
      · rfl
      · rw [Geo.duRange_copy h h' hc.geo hi hu]; exact hd _ (hc.geo.mesh.cell i hi)
    · cases hs

/-- Face state on the side of cell `i`. -/
def Out.own (D : Disc) (o : Out) (i k : ℕ) : St := if (D.G.face k).left = i then o.uL k else o.uR k
/-- Face state on the other side. -/
def Out.far (D : Disc) (o : Out) (i k : ℕ) : St := if (D.G.face k).left = i then o.uR k else o.uL k

/-- Gradients the second-order residual computes, with ghost rows as received. -/
noncomputable def grads2 (D : Disc) (gs : GradScheme) (E : Env) (u : ℕ → St) : ℕ → Gr :=
  D.gradients gs (fun i => D.gas.primOfCons (u i)) (fun k => D.gas.primOfCons (D.bstate k (u (D.G.face k).left))) E.gg

/-- Gradients used by the reconstruction, src/spatial/flow_spatial.cpp:702-723. -/
noncomputable def recGrads (D : Disc) (gs : GradScheme) (R : ReconScheme) (E : Env) (u : ℕ → St) : ℕ → Gr :=
  match R with
  | .weno _ => D.grads2 gs E u
  | _ => D.gradients gs (fun i => D.gas.primOfCons (u i)) (fun k => D.gas.primOfCons (D.bstate k (u (D.G.face k).left))) E.gold

/-- The reconstruction call of the second-order residual, src/spatial/flow_spatial.cpp:657-723. -/
noncomputable def rec2 (D : Disc) (gs : GradScheme) (R : ReconScheme) (E : Env) (u : ℕ → St) : Option (Bool × ℕ → St) :=
  D.recon R (fun i => D.gas.primOfCons (u i)) (fun k => D.gas.primOfCons (D.bstate k (u (D.G.face k).left))) (D.recGrads gs R E u)
    fun x => if x.2 < D.G.m.nbface then (if x.1 then u (D.G.face x.2).left else D.gas.primOfCons (D.bstate x.2 (u (D.G.face x.2).left)))
      else E.old x

open Classical in
/-- The second-order residual in terms of its parts. -/
theorem residual2_some {gs : GradScheme} {R : ReconScheme} {E : Env} {u r : ℕ → St} {o : Out} :
    D.residual2 gs R E u r = some o ↔ D.BcOk ∧ ∃ a, D.rec2 gs R E u = some a ∧ (∀ k, o.uL k = D.gas.consOfPrim (a (true, k))) ∧
      (∀ k, o.uR k = if k < D.G.m.nbface then D.bstate k (o.uL k) else if D.G.inner k then D.gas.consOfPrim (a (false, k)) else E.exch k) ∧
      o.res = D.fluxes true u (D.grads2 gs E u) o.uL o.uR (fun k => D.bstate k (u (D.G.face k).left)) r := by
  have e : D.residual2 gs R E u r = if D.BcOk then (D.rec2 gs R E u).map fun a =>
      let uL : ℕ → St := fun k => D.gas.consOfPrim (a (true, k))
      let uR : ℕ → St := fun k => if k < D.G.m.nbface then D.bstate k (uL k)
        else if D.G.inner k then D.gas.consOfPrim (a (false, k)) else E.exch k
      ⟨uL, uR, D.fluxes true u (D.grads2 gs E u) uL uR (fun k => D.bstate k (u (D.G.face k).left)) r⟩ else none := by
    unfold residual2 rec2 recGrads grads2
    cases R <;> rfl
  rw [e]
  split_ifs with hb
  · simp only [Option.map_eq_some_iff, hb, true_and]
    refine exists_congr fun a => and_congr_right fun _ => ?_
    constructor
    · rintro rfl; exact ⟨fun _ => rfl, fun _ => rfl, rfl⟩
    · rintro ⟨h1, h2, h3⟩
      obtain ⟨oL, oR, oS⟩ := o
      simp only at h1 h2 h3
      obtain rfl : oL = _ := funext h1
      obtain rfl : oR = _ := funext h2
      rw [h3]
  · simp [hb]

theorem SwapOk.symm {a b : St} (h : D.SwapOk a b) : D.SwapOk b a := by
  intro n hn v
  have := h (-n) (by simpa using hn) v
  rw [neg_neg] at this
  rw [this, neg_neg]

/-- The same face seen from the other cell. -/
theorem _root_.FVENS.FV.Side.flip {G : Geo} (hc : Conforming G.m) {i f j g k : ℕ} (hg : Glued G.m (i, f) (j, g)) (hs : Side G i f (.cell j) k) :
    Side G j g (.cell i) k := by
  have e0 := hc.opposite _ _ hg
  have e1 := hc.opposite _ _ hg.symm
  simp only at e0 e1
  obtain ⟨hin, ⟨hl, e⟩ | ⟨hl, e⟩⟩ := hs
  · exact ⟨hin, Or.inr ⟨hl, by rw [e, ← e1, e0]⟩⟩
  · exact ⟨hin, Or.inl ⟨hl, by rw [e, ← e1, e0]⟩⟩

/-- The state across is the neighbour's own. -/
theorem _root_.FVENS.FV.Side.far_own {i f j k : ℕ} (hs : Side D.G i f (.cell j) k) (o : Out) (hij : i ≠ j) : o.far D i k = o.own D j k := by
  unfold Out.far Out.own
  obtain ⟨hin, ⟨hl, e⟩ | ⟨hl, e⟩⟩ := hs
  · rw [e, if_pos rfl, if_neg hij]
  · rw [e, if_neg (by simp only; omega), if_pos rfl]

/-- Boundary faces and their cells correspond. -/
theorem bface_copy (h : D.G.Ok) (h' : D'.G.Ok) (hc : DiscCopy D D' σ τ) {k : ℕ} (hk : k < D'.G.m.nbface) :
    τ k < D.G.m.nbface ∧ (D.G.face (τ k)).left = σ (D'.G.face k).left ∧ (D'.G.face k).left < D'.G.m.nelem := by
  obtain ⟨c, f, hci, hcf, hco⟩ := bnd_across h'.conf hk
  have hco' := hc.geo.mesh.across c hci f hcf _ hco
  obtain ⟨k1, -, -, hs'⟩ := side_exists h' ⟨hci, hcf⟩ hco
  obtain ⟨k2, -, -, hs⟩ := side_exists h (i := σ c) (f := f) ⟨hc.geo.mesh.cell c hci, by rw [← hc.geo.mesh.nnode c hci]; exact hcf⟩ hco'
  obtain ⟨rfl, -, e'⟩ := hs'
  obtain ⟨rfl, hτ, e⟩ := hs
  rw [e, e']; exact ⟨hτ, rfl, hci⟩

section second
variable (h : D.G.Ok) (h' : D'.G.Ok) (hc : DiscCopy D D' σ τ) {gs : GradScheme} {R : ReconScheme} {E E' : Env} {u u' : ℕ → St}
  (hu : ∀ i, i < D'.G.m.nelem + D'.G.m.nconnface → u' i = u (σ i))
include h h' hc hu

/-- C75: gradients of the cells of a copy. -/
theorem grads_copy {old old' : ℕ → Gr} {i : ℕ} (hi : i < D'.G.m.nelem) :
    D'.gradients gs (fun i => D'.gas.primOfCons (u' i)) (fun k => D'.gas.primOfCons (D'.bstate k (u' (D'.G.face k).left))) old' i =
    D.gradients gs (fun i => D.gas.primOfCons (u i)) (fun k => D.gas.primOfCons (D.bstate k (u (D.G.face k).left))) old (σ i) := by
  have hσ := hc.geo.mesh.cell i hi
  have hup : ∀ j, j < D'.G.m.nelem + D'.G.m.nconnface → D'.gas.primOfCons (u' j) = D.gas.primOfCons (u (σ j)) := fun j hj => by
    rw [hu j hj, hc.gas]
  have hug : ∀ k, k < D'.G.m.nbface → D'.gas.primOfCons (D'.bstate k (u' (D'.G.face k).left)) =
      D.gas.primOfCons (D.bstate (τ k) (u (D.G.face (τ k)).left)) := fun k hk => by
    obtain ⟨-, e, hlt⟩ := bface_copy h h' hc hk
    rw [DiscCopy.bstate h h' hc hk, hc.gas, e, hu _ (by omega)]
  obtain ⟨g1, g2⟩ := Geo.C75_gradients (u := fun i => D.gas.primOfCons (u i)) (u' := fun i => D'.gas.primOfCons (u' i))
    (ug := fun k => D.gas.primOfCons (D.bstate k (u (D.G.face k).left)))
    (ug' := fun k => D'.gas.primOfCons (D'.bstate k (u' (D'.G.face k).left))) h h' hc.geo hup hug hi
  unfold gradients
  rw [if_pos hi, if_pos hσ]
  cases gs with
  | zero => rfl
  | greenGauss => exact g1
  | wls => exact g2

/-- C75, second order, face states: if the received ghost gradients are those of the cells they stand for (needed for WENO only), a copy is
reconstructed whenever the original is, and the face state on the side of every cell is that of the original. -/
theorem C75_face_states (hb : D.BcOk)
    (hgg : ∀ lam, R = .weno lam → ∀ i, D'.G.m.nelem ≤ i → i < D'.G.m.nelem + D'.G.m.nconnface → E'.gg i = D.grads2 gs E u (σ i))
    {r r' : ℕ → St} {o : Out} (hres : D.residual2 gs R E u r = some o) :
    ∃ o', D'.residual2 gs R E' u' r' = some o' ∧ ∀ i, i < D'.G.m.nelem → ∀ f, f < D'.G.m.nnode i → ∀ p, Across D'.G.m (i, f) p →
      ∀ k k', k < D.G.nface → k' < D'.G.nface → Side D'.G i f p k' → Side D.G (σ i) f (p.img D.G.m D'.G.m σ τ) k →
        o'.own D' i k' = o.own D (σ i) k := by
  obtain ⟨-, b, hrec, hL, hR, -⟩ := residual2_some.1 hres
  have hb' := DiscCopy.bcOk h' hc hb
  have hup : ∀ v j, j < D'.G.m.nelem + D'.G.m.nconnface → D'.gas.primOfCons (u' j) v = D.gas.primOfCons (u (σ j)) v := fun v j hj => by
    rw [hu j hj, hc.gas]
  have hug : ∀ v k, k < D'.G.m.nbface → D'.gas.primOfCons (D'.bstate k (u' (D'.G.face k).left)) v =
      D.gas.primOfCons (D.bstate (τ k) (u (D.G.face (τ k)).left)) v := fun v k hk => by
    obtain ⟨-, e, hlt⟩ := bface_copy h h' hc hk
    rw [DiscCopy.bstate h h' hc hk, hc.gas, e, hu _ (by omega)]
  have hg : ∀ i, i < D'.G.m.nelem → D'.recGrads gs R E' u' i = D.recGrads gs R E u (σ i) := fun i hi => by
    cases R <;> exact grads_copy h h' hc hu hi
  have hw : ∀ lam, R = .weno lam → ∀ i, i < D'.G.m.nelem + D'.G.m.nconnface → D'.recGrads gs R E' u' i = D.recGrads gs R E u (σ i) :=
    fun lam hR i hi => by
    by_cases hlt : i < D'.G.m.nelem
    · exact hg i hlt
    · subst hR
      show D'.gradients gs _ _ E'.gg i = _
      unfold gradients
      rw [if_neg hlt]
      exact hgg lam rfl i (by omega) hi
  unfold rec2 recon at hrec
  simp only at hrec
  split_ifs at hrec with hall
  rw [Option.some.injEq] at hrec
  have hrec' : ∃ b', D'.rec2 gs R E' u' = some b' := by
    unfold rec2 recon
    exact ⟨_, if_pos fun v => recon1_copy_isSome h h' hc R (hup v) (fun lam hR i hi => by funext d; rw [hw lam hR i hi]) (hall v)⟩
  obtain ⟨b', hb2⟩ := hrec'
  refine ⟨⟨fun k => D'.gas.consOfPrim (b' (true, k)), fun k => if k < D'.G.m.nbface then D'.bstate k (D'.gas.consOfPrim (b' (true, k)))
      else if D'.G.inner k then D'.gas.consOfPrim (b' (false, k)) else E'.exch k,
      D'.fluxes true u' (D'.grads2 gs E' u') (fun k => D'.gas.consOfPrim (b' (true, k))) (fun k => if k < D'.G.m.nbface then
        D'.bstate k (D'.gas.consOfPrim (b' (true, k))) else if D'.G.inner k then D'.gas.consOfPrim (b' (false, k)) else E'.exch k)
        (fun k => D'.bstate k (u' (D'.G.face k).left)) r'⟩,
    residual2_some.2 ⟨hb', b', hb2, fun _ => rfl, fun _ => rfl, rfl⟩, ?_⟩
  unfold rec2 recon at hb2
  simp only at hb2
  split_ifs at hb2 with hall'
  rw [Option.some.injEq] at hb2
  intro i hi f hf p hp k k' hk hk' hs' hs
  -- value of each variable on the own side
  have hv : ∀ v, (if (D'.G.face k').left = i then b' (true, k') v else b' (false, k') v) =
      if (D.G.face k).left = σ i then b (true, k) v else b (false, k) v := by
    intro v
    obtain ⟨c, hcv⟩ := Option.isSome_iff_exists.1 (hall v)
    obtain ⟨c', hcv'⟩ := Option.isSome_iff_exists.1 (hall' v)
    have e1 : ∀ x, b x v = c x := fun x => by rw [← hrec]; simp only; rw [hcv]; rfl
    have e2 : ∀ x, b' x v = c' x := fun x => by rw [← hb2]; simp only; rw [hcv']; rfl
    obtain ⟨r1, r2⟩ := recon1_side h hcv hk hs
    obtain ⟨q1, q2⟩ := recon1_side h' hcv' hk' hs'
    rw [e1, e1, e2, e2]
    have := ownRec_copy (D := D) (D' := D') h h' hc R (u := fun i => D.gas.primOfCons (u i) v) (u' := fun i => D'.gas.primOfCons (u' i) v)
      (g := fun i d => D.recGrads gs R E u i d v) (g' := fun i d => D'.recGrads gs R E' u' i d v) (hup v)
      (fun i hi => by funext d; rw [hg i hi]) (fun lam hR i hi => by funext d; rw [hw lam hR i hi]) hi hf
      (p.val D'.G.m (fun i => D'.gas.primOfCons (u' i) v) (fun k => D'.gas.primOfCons (D'.bstate k (u' (D'.G.face k).left)) v))
      (p.val D'.G.m D'.G.rc D'.G.rcbp)
    rw [Other.img_val (m := D.G.m) (σ := σ) (τ := τ) (u := fun i => D.gas.primOfCons (u i) v)
        (ug := fun k => D.gas.primOfCons (D.bstate k (u (D.G.face k).left)) v) hp (hup v) (hug v),
      Other.img_val (m := D.G.m) (σ := σ) (τ := τ) hp hc.geo.rc hc.geo.rcbp] at this q1 q2
    rw [this] at q1 q2
    by_cases hl' : (D'.G.face k').left = i <;> by_cases hl : (D.G.face k).left = σ i
    · rw [if_pos hl', if_pos hl, q1 hl', r1 hl]
    · rw [if_pos hl', if_neg hl, q1 hl', r2 hl]
    · rw [if_neg hl', if_pos hl, q2 hl', r1 hl]
    · rw [if_neg hl', if_neg hl, q2 hl', r2 hl]
  unfold Out.own
  have hin' : (D'.G.face k').left ≠ i → ¬ k' < D'.G.m.nbface ∧ D'.G.inner k' := fun hl => by
    rcases hs'.left_or with ⟨hl', -⟩ | ⟨-, -, hin, -⟩
    · exact absurd hl' hl
    · exact ⟨by have := hin.1; omega, hin⟩
  have hin : (D.G.face k).left ≠ σ i → ¬ k < D.G.m.nbface ∧ D.G.inner k := fun hl => by
    rcases hs.left_or with ⟨hl', -⟩ | ⟨-, -, hin, -⟩
    · exact absurd hl' hl
    · exact ⟨by have := hin.1; omega, hin⟩
  have key : (if (D'.G.face k').left = i then b' (true, k') else b' (false, k')) =
      if (D.G.face k).left = σ i then b (true, k) else b (false, k) := by
    funext v
    have := hv v
    split_ifs at this ⊢ <;> exact this
  have hA : (if (D'.G.face k').left = i then D'.gas.consOfPrim (b' (true, k')) else
      if k' < D'.G.m.nbface then D'.bstate k' (D'.gas.consOfPrim (b' (true, k'))) else if D'.G.inner k' then D'.gas.consOfPrim (b' (false, k'))
      else E'.exch k') = D'.gas.consOfPrim (if (D'.G.face k').left = i then b' (true, k') else b' (false, k')) := by
    split_ifs with hl h1 h2
    · rfl
    · exact absurd h1 (hin' hl).1
    · rfl
    · exact absurd (hin' hl).2 h2
  have hB : (if (D.G.face k).left = σ i then o.uL k else o.uR k) =
      D.gas.consOfPrim (if (D.G.face k).left = σ i then b (true, k) else b (false, k)) := by
    rw [hL, hR]
    split_ifs with hl h1 h2
    · rfl
    · exact absurd h1 (hin hl).1
    · rfl
    · exact absurd (hin hl).2 h2
  rw [hB, ← key, ← hc.gas]
  exact hA

/-- C75, second order: with the exchanged face states and ghost gradients those of the cells they stand for, the residual of a cell of a copy is
that of the original cell, for every reconstruction and gradient scheme. -/
theorem C75_second_order (hb : D.BcOk)
    (hgg : ∀ i, D'.G.m.nelem ≤ i → i < D'.G.m.nelem + D'.G.m.nconnface → E'.gg i = D.grads2 gs E u (σ i))
    {r r' : ℕ → St} {o : Out} (hres : D.residual2 gs R E u r = some o)
    (hex : ∀ ic, ic < D'.G.m.nconnface → ∀ k, k < D.G.nface →
      Side D.G (σ (D'.G.m.connface ic 0)) (D'.G.m.connface ic 1) (rowOther D.G.m (σ (D'.G.m.nelem + ic))) k →
      E'.exch (D'.G.m.nbface + D'.G.ni + ic) = o.far D (σ (D'.G.m.connface ic 0)) k)
    (hsw : ∀ k, k < D.G.nface → D.G.inner k → D.SwapOk (o.uR k) (o.uL k)) :
    ∃ o', D'.residual2 gs R E' u' r' = some o' ∧ ∀ i, i < D'.G.m.nelem → o'.res i - r' i = o.res (σ i) - r (σ i) := by
  obtain ⟨o', hres', hown⟩ := C75_face_states (R := R) (r' := r') h h' hc hu hb (fun _ _ => hgg) hres
  refine ⟨o', hres', fun i hi => ?_⟩
  have hm := hc.geo.mesh
  obtain ⟨-, b, hrec, hL, hR, hS⟩ := residual2_some.1 hres
  obtain ⟨-, b', hrec', hL', hR', hS'⟩ := residual2_some.1 hres'
  -- states across
  have hfar : ∀ f, f < D'.G.m.nnode i → ∀ p, Across D'.G.m (i, f) p → ∀ k k', k < D.G.nface → k' < D'.G.nface → Side D'.G i f p k' →
      Side D.G (σ i) f (p.img D.G.m D'.G.m σ τ) k → o'.far D' i k' = o.far D (σ i) k := by
    intro f hf p hp k k' hk hk' hs' hs
    cases p with
    | bnd kb =>
      have ho := hown i hi f hf _ hp k k' hk hk' hs' hs
      obtain ⟨rfl, hkb, e'⟩ := hs'
      obtain ⟨rfl, hkτ, e⟩ := hs
      have l' : (D'.G.face k').left = i := by rw [e']
      have l : (D.G.face (τ k')).left = σ i := by rw [e]
      unfold Out.far
      unfold Out.own at ho
      rw [if_pos l', if_pos l] at ho ⊢
      rw [hR, hR', if_pos hkb, if_pos hkτ, ho, DiscCopy.bstate h h' hc hkb]
    | cell j =>
      obtain ⟨g, hg⟩ := hp
      have hG := hm.glued i f j g hg
      change Side D.G (σ i) f (rowOther D.G.m (σ j)) k at hs
      rw [rowOther, if_pos (hm.cell j hg.2.1.1)] at hs
      have ho := hown j hg.2.1.1 g hg.2.1.2 (.cell i) ⟨f, hg.symm⟩ k k' hk hk' (hs'.flip h'.conf hg) (by
        show Side D.G (σ j) g (rowOther D.G.m (σ i)) k
        rw [rowOther, if_pos (hm.cell i hi)]
        exact hs.flip h.conf hG)
      rw [hs'.far_own o' hg.2.2.1, hs.far_own o hG.2.2.1]
      exact ho
    | conn ic =>
      obtain ⟨hic, hkey⟩ := hp
      obtain ⟨rfl, -, e'⟩ := hs'
      have e0 : D'.G.m.connface ic 0 = i := congrArg Prod.fst hkey
      have e1 : D'.G.m.connface ic 1 = f := congrArg Prod.snd hkey
      have := hex ic hic k hk (by rw [e0, e1]; exact hs)
      rw [e0] at this
      rw [← this]
      unfold Out.far
      rw [e', if_pos rfl, hR', if_neg (by omega), if_neg (by rintro ⟨h1, h2⟩; omega)]
  obtain ⟨p, hp⟩ := Geo.exists_sides h' hi
  have hn := hm.nnode i hi
  choose! κ hκ1 _ hκ2 using fun f (hf : f < D'.G.m.nnode i) =>
    side_exists h (i := σ i) (f := f) ⟨hm.cell i hi, hn ▸ hf⟩ (hm.across i hi f hf _ (hp f hf))
  choose! κ' hκ1' _ hκ2' using fun f (hf : f < D'.G.m.nnode i) => side_exists h' (i := i) (f := f) ⟨hi, hf⟩ (hp f hf)
  rw [hS, hS']
  refine fluxes_copy h h' hc hu (fun k hk => ?_) (fun j hj => ?_) hi hp (fo := fun f => o.own D (σ i) (κ f)) (fx := fun f => o.far D (σ i) (κ f))
    (fun f hf k hk hs => ?_) (fun f hf k hk hs => ?_) (fun f hf k hk hin hs hl => ?_) hsw r r'
  · obtain ⟨-, e, hlt⟩ := bface_copy h h' hc hk
    rw [DiscCopy.bstate h h' hc hk, e, hu _ (by omega)]
  · by_cases hlt : j < D'.G.m.nelem
    · exact grads_copy h h' hc hu hlt
    · unfold grads2 gradients
      rw [if_neg hlt]
      exact hgg j (by omega) hj
  · have a := hown i hi f hf _ (hp f hf) (κ f) k (hκ1 f hf) hk hs (hκ2 f hf)
    have b := hfar f hf _ (hp f hf) (κ f) k (hκ1 f hf) hk hs (hκ2 f hf)
    unfold Out.own at a; unfold Out.far at b
    refine ⟨fun hl => ?_, fun hl => ?_⟩
    · rw [if_pos hl] at a b; exact ⟨a, b⟩
    · rw [if_neg hl] at a b; exact ⟨a, b⟩
  · have a := hown i hi f hf _ (hp f hf) k (κ' f) hk (hκ1' f hf) (hκ2' f hf) hs
    have b := hfar f hf _ (hp f hf) k (κ' f) hk (hκ1' f hf) (hκ2' f hf) hs
    have a2 := hown i hi f hf _ (hp f hf) (κ f) (κ' f) (hκ1 f hf) (hκ1' f hf) (hκ2' f hf) (hκ2 f hf)
    have b2 := hfar f hf _ (hp f hf) (κ f) (κ' f) (hκ1 f hf) (hκ1' f hf) (hκ2' f hf) (hκ2 f hf)
    have a3 := a.symm.trans a2
    have b3 := b.symm.trans b2
    clear a b a2 b2
    conv at a3 => lhs; unfold Out.own
    conv at b3 => lhs; unfold Out.far
    refine ⟨fun hl => ?_, fun hl => ?_⟩
    · rw [if_pos hl] at a3 b3; exact ⟨a3, b3⟩
    · rw [if_neg hl] at a3 b3; exact ⟨a3, b3⟩
  · have a := hown i hi f hf _ (hp f hf) (κ f) k (hκ1 f hf) hk hs (hκ2 f hf)
    have b := hfar f hf _ (hp f hf) (κ f) k (hκ1 f hf) hk hs (hκ2 f hf)
    unfold Out.own at a; unfold Out.far at b
    rw [if_neg hl] at a b
    rw [a, b]
    refine hc.swapOk ?_
    have hin2 : D.G.inner (κ f) := by
      have := hκ2 f hf
      rcases hs.left_or with ⟨hl', -⟩ | ⟨⟨j, hoj, -, -⟩, -⟩
      · exact absurd hl' hl
      · have hpf := hp f hf
        rw [hoj] at this hpf
        obtain ⟨g, hg⟩ := hpf
        change Side D.G (σ i) f (rowOther D.G.m (σ j)) _ at this
        rw [rowOther, if_pos (hm.cell j hg.2.1.1)] at this
        exact this.1
    have := hsw _ (hκ1 f hf) hin2
    split_ifs
    · exact this.symm
    · exact this

end second
end Disc
end FV
end FVENS
