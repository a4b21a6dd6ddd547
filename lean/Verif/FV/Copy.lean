import Verif.FV.CellForm

/-!
# The same cells in another mesh (C75)

`Copy m m' σ τ`: every cell `i` of `m'` is the cell `σ i` of `m` with the same nodes in the same order and the same surroundings. The
partitioned meshes are copies of the global mesh (file `Par/Distributed.lean`), renumbered meshes are copies of the original. Fluxes,
gradients and residuals of copies agree.
-/

namespace FVENS
namespace FV

open Msh Finset Flux

/-- A row of the cell arrays as what lies across a face. -/
def rowOther (m : Mesh) (r : ℕ) : Other := if r < m.nelem then .cell r else .conn (r - m.nelem)

theorem rowOther_val {V : Type*} (m : Mesh) (u ug : ℕ → V) (r : ℕ) : (rowOther m r).val m u ug = u r := by
  unfold rowOther
  split_ifs with h
  · rfl
  · show u (m.nelem + (r - m.nelem)) = u r
    congr 1; omega

theorem rowOther_own {V : Type*} (m : Mesh) (g : ℕ → V) (i r : ℕ) : (rowOther m r).own m g i = g r := by
  unfold rowOther
  split_ifs with h
  · rfl
  · show g (m.nelem + (r - m.nelem)) = g r
    congr 1; omega

/-- Image of what lies across a face. -/
def Other.img (m m' : Mesh) (σ τ : ℕ → ℕ) : Other → Other
  | .bnd k => .bnd (τ k)
  | .cell j => rowOther m (σ j)
  | .conn ic => rowOther m (σ (m'.nelem + ic))

/-- Every cell of `m'` is a cell of `m` with the same surroundings. `σ` maps rows of the cell arrays (cells, then interface
ghosts), `τ` maps boundary faces. -/
structure Copy (m m' : Mesh) (σ τ : ℕ → ℕ) : Prop where
  cell : ∀ i, i < m'.nelem → σ i < m.nelem
  nnode : ∀ i, i < m'.nelem → m'.nnode i = m.nnode (σ i)
  xy : ∀ i, i < m'.nelem → ∀ j, j < m'.nnode i → m'.coords (m'.inpoel i j) = m.coords (m.inpoel (σ i) j)
  glued : ∀ i f j g, Glued m' (i, f) (j, g) → Glued m (σ i, f) (σ j, g)
  bnd : ∀ i, i < m'.nelem → ∀ f, f < m'.nnode i → ∀ k, Across m' (i, f) (.bnd k) → Across m (σ i, f) (.bnd (τ k))
  conn : ∀ ic, ic < m'.nconnface → Across m (σ (m'.connface ic 0), m'.connface ic 1) (rowOther m (σ (m'.nelem + ic)))

/-- What lies across a face of a copy is the copy of what lies across the face of the original. -/
theorem Copy.across {m m' : Mesh} {σ τ : ℕ → ℕ} (h : Copy m m' σ τ) (i : ℕ) (hi : i < m'.nelem) (f : ℕ) (hf : f < m'.nnode i) (o : Other)
    (ho : Across m' (i, f) o) : Across m (σ i, f) (o.img m m' σ τ) := by
  cases o with
  | bnd k => exact h.bnd i hi f hf k ho
  | cell j =>
    obtain ⟨g, hg⟩ := ho
    show Across m _ (rowOther m (σ j))
    rw [rowOther, if_pos (h.cell j hg.2.1.1)]
    exact ⟨g, h.glued i f j g hg⟩
  | conn ic =>
    obtain ⟨hic, hk⟩ := ho
    have := h.conn ic hic
    rw [show m'.connface ic 0 = i from congrArg Prod.fst hk, show m'.connface ic 1 = f from congrArg Prod.snd hk] at this
    exact this

theorem Other.img_val {V : Type*} {m m' : Mesh} {σ τ : ℕ → ℕ} {u ug u' ug' : ℕ → V} {x : ℕ × ℕ} {o : Other} (ho : Across m' x o)
    (hu : ∀ i, i < m'.nelem + m'.nconnface → u' i = u (σ i)) (hug : ∀ k, k < m'.nbface → ug' k = ug (τ k)) :
    o.val m' u' ug' = (o.img m m' σ τ).val m u ug := by
  cases o with
  | bnd k => exact hug k ho.1
  | cell j =>
    obtain ⟨g, hg⟩ := ho
    show u' j = (rowOther m (σ j)).val m u ug
    rw [rowOther_val, hu j (by have := hg.2.1.1; simp only at this; omega)]
  | conn ic =>
    show u' (m'.nelem + ic) = (rowOther m (σ (m'.nelem + ic))).val m u ug
    have := ho.1
    rw [rowOther_val, hu _ (by omega)]

theorem Other.img_own {V : Type*} {m m' : Mesh} {σ τ : ℕ → ℕ} {g g' : ℕ → V} {x : ℕ × ℕ} {o : Other} (ho : Across m' x o)
    (hg : ∀ i, i < m'.nelem + m'.nconnface → g' i = g (σ i)) {i : ℕ} (hi : i < m'.nelem) :
    o.own m' g' i = (o.img m m' σ τ).own m g (σ i) := by
  cases o with
  | bnd k => exact hg i (by omega)
  | cell j =>
    obtain ⟨f, hf⟩ := ho
    show g' j = (rowOther m (σ j)).own m g (σ i)
    rw [rowOther_own, hg j (by have := hf.2.1.1; simp only at this; omega)]
  | conn ic =>
    show g' (m'.nelem + ic) = (rowOther m (σ (m'.nelem + ic))).own m g (σ i)
    have := ho.1
    rw [rowOther_own, hg _ (by omega)]

/-- The geometry of a copy is that of the original. -/
structure GeoCopy (G G' : Geo) (σ τ : ℕ → ℕ) : Prop where
  mesh : Copy G.m G'.m σ τ
  rc : ∀ i, i < G'.m.nelem + G'.m.nconnface → G'.rc i = G.rc (σ i)
  rcbp : ∀ k, k < G'.m.nbface → G'.rcbp k = G.rcbp (τ k)
  ar : ∀ i, i < G'.m.nelem → G'.ar i = G.ar (σ i)

theorem Copy.nodes {m m' : Mesh} {σ τ : ℕ → ℕ} (hc : Copy m m' σ τ) (hm : Lin m') {i f : ℕ} (hi : i < m'.nelem) (hf : f < m'.nnode i) :
    nodeA m' i f = nodeA m (σ i) f ∧ nodeB m' i f = nodeB m (σ i) f := by
  refine ⟨hc.xy i hi f hf, ?_⟩
  unfold nodeB
  rw [hc.xy i hi _ (hm.next_lt hi f), hc.nnode i hi]

namespace Geo
variable {G G' : Geo} {σ τ : ℕ → ℕ} {nv : ℕ}

/-! ### Gradients seen from a cell -/

theorem fMid_swap (a b : Fin 2 → ℝ) : fMid b a = fMid a b := by
  funext d; simp only [fMid]; ring

/-- Face value times length from one side. -/
noncomputable def utSide (uo ux : Fin nv → ℝ) (xo xx a b : Fin 2 → ℝ) (j : Fin nv) : ℝ :=
  (uo j * invDist xo (fMid a b) + ux j * invDist xx (fMid a b)) / (invDist xo (fMid a b) + invDist xx (fMid a b)) * fLen a b

theorem utSide_swap (uo ux : Fin nv → ℝ) (xo xx a b : Fin 2 → ℝ) (j : Fin nv) : utSide ux uo xx xo b a j = utSide uo ux xo xx a b j := by
  unfold utSide
  rw [fMid_swap, fLen_swap, add_comm (ux j * _), add_comm (invDist xx _)]

theorem greenGauss_cell (h : G.Ok) {i : ℕ} (hi : i < G.m.nelem) {o : ℕ → Other} (ho : ∀ f, f < G.m.nnode i → Across G.m (i, f) (o f))
    (u ug : ℕ → Fin nv → ℝ) : G.greenGauss u ug i = ∑ f ∈ range (G.m.nnode i), fun d j =>
      (utSide (u i) ((o f).val G.m u ug) (G.rc i) ((o f).val G.m G.rc G.rcbp) (nodeA G.m i f) (nodeB G.m i f) j *
        fNrm (nodeA G.m i f) (nodeB G.m i f) d) * (1 / G.ar i) := by
  unfold greenGauss
  have := accum_touch h (G.ggL u ug) (G.ggR u ug) hi
  refine this.trans (sum_sides h hi ho fun f hf k hk hs => ?_)
  funext d j
  rcases hs.left_or with ⟨hl, hn0, hn1⟩ | ⟨⟨j', hoj, hl, hj⟩, hr, hin, hn1, hn0⟩
  · have e1 : G.ur u ug k = (o f).val G.m u ug := hs.right_val hl u ug
    have e2 : G.xr k = (o f).val G.m G.rc G.rcbp := hs.right_val hl G.rc G.rcbp
    have e4 : G.xl k = G.rc i := by unfold xl; rw [hl]
    rw [if_pos hl]
    simp only [ggL, ut, mid, len, nrm, e1, e2, e4, hl, hn0, hn1]
    rfl
  · have hne : (G.face k).left ≠ i := by rw [hl]; exact hj
    have hnb : ¬ k < G.m.nbface := by have := hin.1; omega
    have e1 : G.ur u ug k = u i := by unfold ur; rw [if_neg hnb, hr]
    have e2 : G.xr k = G.rc i := by unfold xr; rw [if_neg hnb, hr]
    have e4 : G.xl k = G.rc j' := by unfold xl; rw [hl]
    rw [if_neg hne]
    have e5 : G.ut u ug k j = utSide (u j') (u i) (G.rc j') (G.rc i) (nodeB G.m i f) (nodeA G.m i f) j := by
      simp only [ut, mid, len, e1, e2, e4, hl, hn0, hn1]; rfl
    have e6 : G.nrm k d = - fNrm (nodeA G.m i f) (nodeB G.m i f) d := by
      unfold nrm; rw [hn0, hn1]; exact congrFun (C22_opposite (nodeA G.m i f) (nodeB G.m i f)).1 d
    simp only [ggR, e5, e6, hr, hoj]
    rw [utSide_swap]
    show _ = (utSide (u i) (u j') (G.rc i) (G.rc j') (nodeA G.m i f) (nodeB G.m i f) j * _) * _
    ring

/-- Weight and direction of a side. -/
noncomputable def w2Side (xo xx : Fin 2 → ℝ) : ℝ :=
  1 / (0 + (xo 0 - xx 0) * (xo 0 - xx 0) + (xo 1 - xx 1) * (xo 1 - xx 1))

theorem lsMat_cell (h : G.Ok) {i : ℕ} (hi : i < G.m.nelem) {o : ℕ → Other} (ho : ∀ f, f < G.m.nnode i → Across G.m (i, f) (o f)) :
    G.lsMat i = ∑ f ∈ range (G.m.nnode i), Matrix.of fun a b => w2Side (G.rc i) ((o f).val G.m G.rc G.rcbp) *
      (G.rc i a - (o f).val G.m G.rc G.rcbp a) * (G.rc i b - (o f).val G.m G.rc G.rcbp b) := by
  unfold lsMat
  refine (accum_touch h _ _ hi).trans (sum_sides h hi ho fun f hf k hk hs => ?_)
  rw [ite_self]
  ext a b
  rcases hs.left_or with ⟨hl, hn0, hn1⟩ | ⟨⟨j', hoj, hl, hj⟩, hr, hin, hn1, hn0⟩
  · have e2 : G.xr k = (o f).val G.m G.rc G.rcbp := hs.right_val hl G.rc G.rcbp
    have e4 : G.xl k = G.rc i := by unfold xl; rw [hl]
    simp only [w2, dr, e2, e4, w2Side, Matrix.of_apply]
  · have hnb : ¬ k < G.m.nbface := by have := hin.1; omega
    have e2 : G.xr k = G.rc i := by unfold xr; rw [if_neg hnb, hr]
    have e4 : G.xl k = G.rc j' := by unfold xl; rw [hl]
    simp only [w2, dr, e2, e4, w2Side, Matrix.of_apply, hoj, Other.val]
    have : ∀ p q : ℝ, (p - q) * (p - q) = (q - p) * (q - p) := fun p q => by ring
    rw [this (G.rc j' 0), this (G.rc j' 1)]; ring

theorem lsRhs_cell (h : G.Ok) {i : ℕ} (hi : i < G.m.nelem) {o : ℕ → Other} (ho : ∀ f, f < G.m.nnode i → Across G.m (i, f) (o f))
    (u ug : ℕ → Fin nv → ℝ) :
    G.lsRhs u ug i = ∑ f ∈ range (G.m.nnode i), Matrix.of fun a j => w2Side (G.rc i) ((o f).val G.m G.rc G.rcbp) *
      (G.rc i a - (o f).val G.m G.rc G.rcbp a) * (u i j - (o f).val G.m u ug j) := by
  unfold lsRhs
  refine (accum_touch h _ _ hi).trans (sum_sides h hi ho fun f hf k hk hs => ?_)
  rw [ite_self]
  ext a j
  rcases hs.left_or with ⟨hl, hn0, hn1⟩ | ⟨⟨j', hoj, hl, hj⟩, hr, hin, hn1, hn0⟩
  · have e1 : G.ur u ug k = (o f).val G.m u ug := hs.right_val hl u ug
    have e2 : G.xr k = (o f).val G.m G.rc G.rcbp := hs.right_val hl G.rc G.rcbp
    have e4 : G.xl k = G.rc i := by unfold xl; rw [hl]
    simp only [w2, dr, e1, e2, e4, hl, w2Side, Matrix.of_apply]
  · have hnb : ¬ k < G.m.nbface := by have := hin.1; omega
    have e1 : G.ur u ug k = u i := by unfold ur; rw [if_neg hnb, hr]
    have e2 : G.xr k = G.rc i := by unfold xr; rw [if_neg hnb, hr]
    have e4 : G.xl k = G.rc j' := by unfold xl; rw [hl]
    simp only [w2, dr, e1, e2, e4, hl, w2Side, Matrix.of_apply, hoj, Other.val]
    have : ∀ p q : ℝ, (p - q) * (p - q) = (q - p) * (q - p) := fun p q => by ring
    rw [this (G.rc j' 0), this (G.rc j' 1)]; ring

/-! ### Gradients of copies -/

theorem exists_sides (h : G.Ok) {i : ℕ} (hi : i < G.m.nelem) : ∃ o : ℕ → Other, ∀ f, f < G.m.nnode i → Across G.m (i, f) (o f) := by
  have : ∀ f, ∃ o, f < G.m.nnode i → Across G.m (i, f) o := fun f => by
    by_cases hf : f < G.m.nnode i
    · obtain ⟨o, ho⟩ := exists_across h.conf h.topo (x := (i, f)) ⟨hi, hf⟩
      exact ⟨o, fun _ => ho⟩
    · exact ⟨.bnd 0, fun h => absurd h hf⟩
  choose o ho using this
  exact ⟨o, ho⟩

/-- C75: gradients of copies agree, for both schemes: Green–Gauss and least squares. -/
theorem C75_gradients (h : G.Ok) (h' : G'.Ok) (hc : GeoCopy G G' σ τ) {u ug u' ug' : ℕ → Fin nv → ℝ}
    (hu : ∀ i, i < G'.m.nelem + G'.m.nconnface → u' i = u (σ i)) (hug : ∀ k, k < G'.m.nbface → ug' k = ug (τ k))
    {i : ℕ} (hi : i < G'.m.nelem) :
    G'.greenGauss u' ug' i = G.greenGauss u ug (σ i) ∧ G'.wls u' ug' i = G.wls u ug (σ i) := by
  obtain ⟨o', ho'⟩ := exists_sides h' hi
  have hσ := hc.mesh.cell i hi
  have hn := hc.mesh.nnode i hi
  have ho : ∀ f, f < G.m.nnode (σ i) → Across G.m (σ i, f) ((o' f).img G.m G'.m σ τ) := fun f hf =>
    hc.mesh.across i hi f (hn ▸ hf) _ (ho' f (hn ▸ hf))
  have hx : ∀ f, f < G'.m.nnode i → (o' f).val G'.m G'.rc G'.rcbp = ((o' f).img G.m G'.m σ τ).val G.m G.rc G.rcbp := fun f hf =>
    Other.img_val (ho' f hf) hc.rc hc.rcbp
  have hv : ∀ f, f < G'.m.nnode i → (o' f).val G'.m u' ug' = ((o' f).img G.m G'.m σ τ).val G.m u ug := fun f hf =>
    Other.img_val (ho' f hf) hu hug
  have hui := hu i (by omega)
  have hri := hc.rc i (by omega)
  constructor
  · rw [greenGauss_cell h' hi ho', greenGauss_cell h hσ ho, ← hn]
    refine sum_congr rfl fun f hf => ?_
    have hf := mem_range.1 hf
    obtain ⟨n1, n2⟩ := hc.mesh.nodes h'.conf.lin hi hf
    rw [hx f hf, hv f hf, hui, hri, hc.ar i hi, n1, n2]
  · unfold wls
    congr 1
    · congr 1
      rw [lsMat_cell h' hi ho', lsMat_cell h hσ ho, ← hn]
      refine sum_congr rfl fun f hf => ?_
      have hf := mem_range.1 hf
      rw [hx f hf, hri]
    · rw [lsRhs_cell h' hi ho', lsRhs_cell h hσ ho, ← hn]
      refine sum_congr rfl fun f hf => ?_
      have hf := mem_range.1 hf
      rw [hx f hf, hv f hf, hui, hri]

end Geo

/-! ### Residuals of copies -/

/-- The discretisation of a copy: same gas, schemes and boundary conditions, geometry and boundary tags copied. -/
structure DiscCopy (D D' : Disc) (σ τ : ℕ → ℕ) : Prop where
  geo : GeoCopy D.G D'.G σ τ
  gas : D'.gas = D.gas
  scheme : D'.scheme = D.scheme
  viscous : D'.viscous = D.viscous
  constVisc : D'.constVisc = D.constVisc
  bc : D'.bc = D.bc
  tag : ∀ k, k < D'.G.m.nbface → D'.tag k = D.tag (τ k)

namespace Disc
variable {D D' : Disc} {σ τ : ℕ → ℕ}

/-- Every boundary face lies across a local face of a cell. -/
theorem bnd_across {m : Mesh} (hc : Conforming m) {k : ℕ} (hk : k < m.nbface) :
    ∃ i f, i < m.nelem ∧ f < m.nnode i ∧ Across m (i, f) (.bnd k) := by
  obtain ⟨x, hx, h0, h1⟩ := hc.bf k hk
  exact ⟨x.1, x.2, hx.1, hx.2, hk, h0, h1⟩

theorem _root_.FVENS.FV.DiscCopy.bcOk (h' : D'.G.Ok) (hc : DiscCopy D D' σ τ) (hb : D.BcOk) : D'.BcOk := by
  intro k hk
  obtain ⟨i, f, hi, hf, ho⟩ := bnd_across h'.conf hk
  have := hc.geo.mesh.across i hi f hf _ ho
  rw [hc.bc, hc.tag k hk]
  exact hb (τ k) this.1

/-- Boundary state at a side: the same condition at the same normal. -/
theorem _root_.FVENS.FV.DiscCopy.bstate (h : D.G.Ok) (h' : D'.G.Ok) (hc : DiscCopy D D' σ τ) {k : ℕ} (hk : k < D'.G.m.nbface) :
    D'.bstate k = D.bstate (τ k) := by
  obtain ⟨i, f, hi, hf, ho⟩ := bnd_across h'.conf hk
  have ho' := hc.geo.mesh.across i hi f hf _ ho
  have hσ := hc.geo.mesh.cell i hi
  have hn := hc.geo.mesh.nnode i hi
  obtain ⟨k1, -, -, hs'⟩ := side_exists h' ⟨hi, hf⟩ ho
  obtain ⟨k2, -, -, hs⟩ := side_exists h (i := σ i) (f := f) ⟨hσ, by rw [← hn]; exact hf⟩ ho'
  obtain ⟨rfl, -, e'⟩ := hs'
  obtain ⟨rfl, -, e⟩ := hs
  obtain ⟨n1, n2⟩ := hc.geo.mesh.nodes h'.conf.lin hi hf
  have hnrm : D'.G.nrm k1 = D.G.nrm (τ k1) := by
    unfold Geo.nrm
    rw [e, e']
    show fNrm (nodeA D'.G.m i f) (nodeB D'.G.m i f) = fNrm (nodeA D.G.m (σ i) f) (nodeB D.G.m (σ i) f)
    rw [n1, n2]
  funext ins
  unfold Disc.bstate
  rw [hc.bc, hc.tag k1 hk, hnrm, hc.gas]

theorem _root_.FVENS.FV.DiscCopy.sideFlux (hc : DiscCopy D D' σ τ) : D'.sideFlux = D.sideFlux := by
  funext second co cx go gx fo fx xo xx a b v
  unfold Disc.sideFlux
  rw [hc.gas, hc.scheme, hc.viscous, hc.constVisc]

theorem _root_.FVENS.FV.DiscCopy.swapOk (hc : DiscCopy D D' σ τ) {a b : St} (h : D.SwapOk a b) : D'.SwapOk a b := by
  unfold SwapOk at *
  rw [hc.gas, hc.scheme]; exact h

/-- Fluxes of copies agree if face states agree side by side. `fo'`/`fx'` are the states on the cell's side and across. -/
theorem fluxes_copy (h : D.G.Ok) (h' : D'.G.Ok) (hc : DiscCopy D D' σ τ) {second : Bool} {u u' : ℕ → St} {g g' : ℕ → Gr}
    {uL uR ug uL' uR' ug' : ℕ → St}
    (hu : ∀ i, i < D'.G.m.nelem + D'.G.m.nconnface → u' i = u (σ i)) (hug : ∀ k, k < D'.G.m.nbface → ug' k = ug (τ k))
    (hg : ∀ i, i < D'.G.m.nelem + D'.G.m.nconnface → g' i = g (σ i)) {i : ℕ} (hi : i < D'.G.m.nelem) {o' : ℕ → Other}
    (ho' : ∀ f, f < D'.G.m.nnode i → Across D'.G.m (i, f) (o' f)) {fo fx : ℕ → St}
    (hf' : ∀ f, f < D'.G.m.nnode i → ∀ k, k < D'.G.nface → Side D'.G i f (o' f) k →
      ((D'.G.face k).left = i → uL' k = fo f ∧ uR' k = fx f) ∧ ((D'.G.face k).left ≠ i → uR' k = fo f ∧ uL' k = fx f))
    (hf : ∀ f, f < D'.G.m.nnode i → ∀ k, k < D.G.nface → Side D.G (σ i) f ((o' f).img D.G.m D'.G.m σ τ) k →
      ((D.G.face k).left = σ i → uL k = fo f ∧ uR k = fx f) ∧ ((D.G.face k).left ≠ σ i → uR k = fo f ∧ uL k = fx f))
    (hsw' : ∀ f, f < D'.G.m.nnode i → ∀ k, k < D'.G.nface → D'.G.inner k → Side D'.G i f (o' f) k → (D'.G.face k).left ≠ i →
      D'.SwapOk (uR' k) (uL' k))
    (hsw : ∀ k, k < D.G.nface → D.G.inner k → D.SwapOk (uR k) (uL k)) (r r' : ℕ → St) :
    D'.fluxes second u' g' uL' uR' ug' r' i - r' i = D.fluxes second u g uL uR ug r (σ i) - r (σ i) := by
  have hσ := hc.geo.mesh.cell i hi
  have hn := hc.geo.mesh.nnode i hi
  have ho : ∀ f, f < D.G.m.nnode (σ i) → Across D.G.m (σ i, f) ((o' f).img D.G.m D'.G.m σ τ) := fun f hf =>
    hc.geo.mesh.across i hi f (hn ▸ hf) _ (ho' f (hn ▸ hf))
  rw [fluxes_cell h' hi ho' hf' hsw', fluxes_cell h hσ ho (fun f hfn => hf f (hn ▸ hfn)) (fun _ _ k hk hin _ _ => hsw k hk hin), sub_sub_cancel_left, sub_sub_cancel_left, ← hn]
  congr 1
  refine sum_congr rfl fun f hfn => ?_
  have hfn := mem_range.1 hfn
  obtain ⟨n1, n2⟩ := hc.geo.mesh.nodes h'.conf.lin hi hfn
  rw [hc.sideFlux, n1, n2, hu i (by omega), hg i (by omega), hc.geo.rc i (by omega),
    Other.img_val (ho' f hfn) hu hug, Other.img_own (ho' f hfn) hg hi, Other.img_val (ho' f hfn) hc.geo.rc hc.geo.rcbp]

/-- C75, first order: the residual of a cell of a copy is that of the original cell. -/
theorem C75_first_order (h : D.G.Ok) (h' : D'.G.Ok) (hc : DiscCopy D D' σ τ) (hb : D.BcOk) {u u' : ℕ → St}
    (hu : ∀ i, i < D'.G.m.nelem + D'.G.m.nconnface → u' i = u (σ i))
    (hsw : ∀ i j, i < D.G.m.nelem → j < D.G.m.nelem → D.SwapOk (u i) (u j)) (r r' : ℕ → St) :
    ∃ o o', D.residual1 u r = some o ∧ D'.residual1 u' r' = some o' ∧
      ∀ i, i < D'.G.m.nelem → o'.res i - r' i = o.res (σ i) - r (σ i) := by
  have hb' := DiscCopy.bcOk h' hc hb
  refine ⟨_, _, by unfold residual1; rw [if_pos hb], by unfold residual1; rw [if_pos hb'], fun i hi => ?_⟩
  obtain ⟨o', ho'⟩ := Geo.exists_sides h' hi
  have hσ := hc.geo.mesh.cell i hi
  -- state across a side: boundary state of the cell's own state, or the value of the row
  have hR : ∀ (E : Disc) (hE : E.G.Ok) (w : ℕ → St) (c f k : ℕ) (o : Other), k < E.G.nface → Side E.G c f o k →
      ((E.G.face k).left = c → w (E.G.face k).left = w c ∧
        (if k < E.G.m.nbface then E.bstate k (w (E.G.face k).left) else w (E.G.face k).right) =
          o.val E.G.m w (fun k => E.bstate k (w c))) ∧
      ((E.G.face k).left ≠ c →
        (if k < E.G.m.nbface then E.bstate k (w (E.G.face k).left) else w (E.G.face k).right) = w c ∧
          w (E.G.face k).left = o.val E.G.m w (fun k => E.bstate k (w c))) := by
    intro E hE w c f k o hk hs
    refine ⟨fun hl => ⟨by rw [hl], ?_⟩, fun hl => ?_⟩
    · rw [hl]; exact hs.right_val hl w (fun k => E.bstate k (w c))
    · rcases hs.left_or with ⟨hl', -⟩ | ⟨⟨j, hoj, hl', hj⟩, hr, hin, -⟩
      · exact absurd hl' hl
      · rw [if_neg (by have := hin.1; omega), hr, hoj, hl']; exact ⟨rfl, rfl⟩
  have hinner : ∀ (E : Disc) (hE : E.G.Ok) (w : ℕ → St), (∀ i j, i < E.G.m.nelem → j < E.G.m.nelem → E.SwapOk (w i) (w j)) → ∀ k, k < E.G.nface → E.G.inner k →
      E.SwapOk (if k < E.G.m.nbface then E.bstate k (w (E.G.face k).left) else w (E.G.face k).right) (w (E.G.face k).left) := by
    intro E hE w hw k hk hin
    obtain ⟨k1, k2, k3, k4, k5⟩ := hE.kind hk
    rw [if_neg (by have := hin.1; omega)]
    exact hw _ _ (k4.1 hin) k1
  refine fluxes_copy h h' hc hu (fun k hk => ?_) (fun _ _ => rfl) hi ho' (fun f hf k hk hs => hR D' h' u' i f k (o' f) hk hs)
    (fun f hf k hk hs => ?_) (fun _ _ k hk hin _ _ => ?_) (fun k hk hin => hinner D h u hsw k hk hin) r r'
  · -- ghost states of boundary faces
    simp only [hk, if_true]
    obtain ⟨c, f, hci, hcf, hco⟩ := bnd_across h'.conf hk
    have hco' := hc.geo.mesh.across c hci f hcf _ hco
    have hσc := hc.geo.mesh.cell c hci
    obtain ⟨k1, -, -, hs'⟩ := side_exists h' ⟨hci, hcf⟩ hco
    obtain ⟨k2, -, -, hs⟩ := side_exists h (i := σ c) (f := f) ⟨hσc, by rw [← hc.geo.mesh.nnode c hci]; exact hcf⟩ hco'
    obtain ⟨rfl, -, e'⟩ := hs'
    obtain ⟨rfl, hτ, e⟩ := hs
    rw [if_pos hτ, DiscCopy.bstate h h' hc hk, e, e']
    simp only
    rw [hu c (by omega)]
  · have := hR D h u (σ i) f k ((o' f).img D.G.m D'.G.m σ τ) hk hs
    rw [hu i (by omega)]
    have hv : (o' f).val D'.G.m u' (fun k => D'.bstate k (u' i)) =
        ((o' f).img D.G.m D'.G.m σ τ).val D.G.m u (fun k => D.bstate k (u (σ i))) :=
      Other.img_val (ho' f hf) hu (fun k hk => by rw [DiscCopy.bstate h h' hc hk, hu i (by omega)])
    rw [← hu i (by omega), hv, hu i (by omega)]
    exact this
  · refine hinner D' h' u' (fun i j hi hj => ?_) k hk hin
    rw [hu i (by omega), hu j (by omega)]
    exact hc.swapOk (hsw _ _ (hc.geo.mesh.cell i hi) (hc.geo.mesh.cell j hj))

end Disc
end FV
end FVENS
