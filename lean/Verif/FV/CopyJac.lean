import Verif.FV.Copy
import Verif.FV.Jacobian
import Verif.Flux.Mirror

/-!
# Rows of the Jacobian matrix seen from a cell (C82)

As for the residual (`CellForm`, `Copy`): a block row of the assembled matrix is a sum over the local faces of its cell, which depends neither on the numbering of
faces nor on the direction in which a face is stored, provided the blocks of a face change places when its sides do.
-/

namespace FVENS

namespace BC

/-- Virtual call `computeGhostStateAndJacobian` on a constructed object, src/spatial/abc.cpp:96-458. `none`: the subsonic inflow ends the process
(src/spatial/abc.cpp:178-185). -/
noncomputable def Obj.ghostJ (G : Gas) : Obj → Option (St → V2 → GJ)
  | .slip => some FVENS.BC.slipJ
  | .farfield ui => some (FVENS.BC.farfieldJ ui)
  | .inOut ui => some (FVENS.BC.inOutJ G ui)
  | .inflow _ _ => none
  | .extrapolation => some FVENS.BC.extrapolationJ
  | .adiabatic tv => some (FVENS.BC.adiabaticJ tv)
  | .isothermal tv tw => some (FVENS.BC.isothermalJ G tv tw)

end BC

namespace FV

open Msh Finset Flux

/-- The viscous blocks change places with the sides, for both viscosity laws. -/
theorem viscousJac_swap (G : Gas) (cv : Bool) (n xl xr : V2) (ul ur : St) :
    viscousJac G cv (fun d => -n d) xr xl ur ul = ((viscousJac G cv n xl xr ul ur).2, (viscousJac G cv n xl xr ul ur).1) := by
  have hg : thinGrad xr xl (G.prim2OfCons ur) (G.prim2OfCons ul) = thinGrad xl xr (G.prim2OfCons ul) (G.prim2OfCons ur) := by
    funext j i; unfold thinGrad; rw [cdist_comm, cdir_comm]; ring
  have hl : dThinL xr xl (G.dPrim2 ur) = dThinR xl xr (G.dPrim2 ur) := by
    funext j i k; unfold dThinL dThinR; rw [cdist_comm, cdir_comm]; ring
  have hr : dThinR xr xl (G.dPrim2 ul) = dThinL xl xr (G.dPrim2 ul) := by
    funext j i k; unfold dThinL dThinR; rw [cdist_comm, cdir_comm]; ring
  have hmu : faceMu G cv ur ul = faceMu G cv ul ur := by unfold faceMu; rw [add_comm]
  unfold viscousJac
  rw [hg, hl, hr]
  generalize thinGrad xl xr (G.prim2OfCons ul) (G.prim2OfCons ur) = g
  generalize dThinL xl xr (G.dPrim2 ul) = dl
  generalize dThinR xl xr (G.dPrim2 ur) = dr
  unfold viscJac
  simp only [hmu, add_comm (ur _ / ur 0)]
  refine Prod.ext ?_ ?_
  · funext i k; fin_cases i <;> simp <;> ring
  · funext i k; fin_cases i <;> simp <;> ring

namespace Disc
variable {D : Disc}

/-- The blocks of a side: `co`, `cx` states, `xo`, `xx` centres of the cell and of what is across; `a`, `b` nodes in the cell's order. -/
noncomputable def sideBlk (D : Disc) (J : St → St → V2 → FJ) (co cx : St) (xo xx a b : Fin 2 → ℝ) : FJ :=
  let j := J co cx (fNrm a b)
  let v := viscousJac D.gas D.constVisc (fNrm a b) xo xx co cx
  ⟨fun p q => (j.dfdl p q + if D.viscous then v.1 p q else 0) * fLen a b, fun p q => (j.dfdr p q + if D.viscous then v.2 p q else 0) * fLen a b⟩

/-- The block of a boundary side. -/
noncomputable def bndBlk (D : Disc) (J : St → St → V2 → FJ) (g : St → V2 → BC.GJ) (co : St) (xo xx a b : Fin 2 → ℝ) : Blk (Fin 4) :=
  let gj := g co (fNrm a b)
  let j := J co gj.gs (fNrm a b)
  let v := viscousJac D.gas D.constVisc (fNrm a b) xo xx co gj.gs
  fun p q => fLen a b * ((j.dfdl p q + if D.viscous then v.1 p q else 0) - ∑ c, (j.dfdr p c + if D.viscous then v.2 p c else 0) * gj.dgs c q)

theorem blkInterior_eq (D : Disc) (J : St → St → V2 → FJ) (k : ℕ) (ul ur : St) : D.blkInterior J k ul ur =
    D.sideBlk J ul ur (D.G.xl k) (D.G.xr k) (D.G.m.coords (D.G.face k).n0) (D.G.m.coords (D.G.face k).n1) := rfl

theorem blkBoundary_eq (D : Disc) (J : St → St → V2 → FJ) (g : St → V2 → BC.GJ) (k : ℕ) (ul : St) : D.blkBoundary J g k ul =
    D.bndBlk J g ul (D.G.xl k) (D.G.xr k) (D.G.m.coords (D.G.face k).n0) (D.G.m.coords (D.G.face k).n1) := rfl

theorem sideBlk_swap (D : Disc) {J : St → St → V2 → FJ} {co cx : St} (xo xx : Fin 2 → ℝ) {a b : Fin 2 → ℝ} (hm : Mirror J co cx (fNrm a b)) :
    D.sideBlk J cx co xx xo b a = (D.sideBlk J co cx xo xx a b).swap := by
  obtain ⟨e1, e2⟩ := C22_opposite a b
  change J cx co (fun d => -fNrm a b d) = _ at hm
  simp only [sideBlk, FJ.swap, e1, e2, hm, viscousJac_swap]

/-- Jacobian routine of the boundary condition at a face, src/spatial/flow_spatial.cpp:850-856. -/
noncomputable def bjac (D : Disc) (k : ℕ) : St → V2 → BC.GJ :=
  ((D.bc (D.tag k)).bind (BC.Obj.ghostJ D.gas)).getD fun _ _ => ⟨0, 0⟩

/-- Every boundary face has a condition with a Jacobian routine. -/
def BcJOk (D : Disc) : Prop := ∀ k, k < D.G.m.nbface → ∃ o, D.bc (D.tag k) = some o ∧ (o.ghostJ D.gas).isSome

/-- `assemble_jacobian`, src/spatial/aspatial.cpp:242-340, for the flow discretisation, on `nt` threads. -/
def AssembleFlow (D : Disc) (J : St → St → V2 → FJ) (gcol : ℕ → Option ℕ) (u : ℕ → St) (nt : ℕ) (A0 A : ℕ × ℕ → Blk (Fin 4)) : Prop :=
  AssembleJac D.G gcol (fun k => D.blkBoundary J (D.bjac k) k (u (D.G.face k).left))
    (fun k => (D.blkInterior J k (u (D.G.face k).left) (u (D.G.face k).right)).dfdl)
    (fun k => (D.blkInterior J k (u (D.G.face k).left) (u (D.G.face k).right)).dfdr) nt A0 A

/-- What one call adds to a block. -/
noncomputable def jacSum (D : Disc) (J : St → St → V2 → FJ) (gcol : ℕ → Option ℕ) (u : ℕ → St) (x : ℕ × ℕ) : Blk (Fin 4) :=
  ∑ k ∈ range D.G.nface, amtAt x (jacUpds D.G gcol (fun k => D.blkBoundary J (D.bjac k) k (u (D.G.face k).left))
    (fun k => (D.blkInterior J k (u (D.G.face k).left) (u (D.G.face k).right)).dfdl)
    (fun k => (D.blkInterior J k (u (D.G.face k).left) (u (D.G.face k).right)).dfdr) k)

theorem assembleFlow_eq (h : D.G.Ok) {J : St → St → V2 → FJ} {gcol : ℕ → Option ℕ} {u : ℕ → St} {nt : ℕ} {A0 A : ℕ × ℕ → Blk (Fin 4)}
    (hA : D.AssembleFlow J gcol u nt A0 A) (x : ℕ × ℕ) : A x = A0 x + D.jacSum J gcol u x := C50_schedule h hA x

/-- Blocks of a side in the row of its cell: `gi` number of the cell, `gx` that of what is across. -/
noncomputable def sideRow (D : Disc) (J : St → St → V2 → FJ) (gcol : ℕ → Option ℕ) (u : ℕ → St) (i f : ℕ) (gc : ℕ) (o : Other) : Blk (Fin 4) :=
  let a := nodeA D.G.m i f
  let b := nodeB D.G.m i f
  match o with
  | .bnd k => if gcol i = some gc then -D.bndBlk J (D.bjac k) (u i) (D.G.rc i) (D.G.rcbp k) a b else 0
  | .cell j => (if gcol j = some gc then (D.sideBlk J (u i) (u j) (D.G.rc i) (D.G.rc j) a b).dfdr else 0) +
      if gcol i = some gc then -(D.sideBlk J (u i) (u j) (D.G.rc i) (D.G.rc j) a b).dfdl else 0
  | .conn ic => (if gcol (D.G.m.nelem + ic) = some gc then
        (D.sideBlk J (u i) (u (D.G.m.nelem + ic)) (D.G.rc i) (D.G.rc (D.G.m.nelem + ic)) a b).dfdr else 0) +
      if gcol i = some gc then -(D.sideBlk J (u i) (u (D.G.m.nelem + ic)) (D.G.rc i) (D.G.rc (D.G.m.nelem + ic)) a b).dfdl else 0

/-- A block row as a sum over the sides of its cell. -/
theorem jac_cell (h : D.G.Ok) {gcol : ℕ → Option ℕ} (hN : IsNumbering D.G gcol) {J : St → St → V2 → FJ} {u : ℕ → St} {i gi gc : ℕ}
    (hi : i < D.G.m.nelem) (hgi : gcol i = some gi) {o : ℕ → Other} (ho : ∀ f, f < D.G.m.nnode i → Across D.G.m (i, f) (o f))
    (hm : ∀ f j, f < D.G.m.nnode i → o f = .cell j → Mirror J (u i) (u j) (fNrm (nodeA D.G.m i f) (nodeB D.G.m i f))) :
    D.jacSum J gcol u (gi, gc) = ∑ f ∈ range (D.G.m.nnode i), D.sideRow J gcol u i f gc (o f) := by
  have hrow : ∀ j, j < D.G.m.nelem → (gcol j = some gi ↔ j = i) := fun j hj =>
    ⟨fun e => hN.inj j i hj hi (by rw [e, hgi]), fun e => by rw [e, hgi]⟩
  unfold jacSum
  rw [← sum_filter_of_ne (p := D.G.touches i)]
  · refine sum_sides h hi ho fun f hfn k hk hs => ?_
    obtain ⟨k1, k2, k3, k4, k5⟩ := h.kind hk
    unfold jacUpds
    generalize hof : o f = of at hs
    cases of with
    | bnd kb =>
      obtain ⟨rfl, hkb, e⟩ := hs
      have hl : (D.G.face k).left = i := by rw [e]
      simp only [hkb, if_true, amtAt_ent, hl, hgi, true_and, sideRow]
      rw [blkBoundary_eq, show D.G.xl k = D.G.rc i by unfold Geo.xl; rw [hl], show D.G.xr k = D.G.rcbp k by unfold Geo.xr; rw [if_pos hkb], e]
      rfl
    | conn ic =>
      obtain ⟨rfl, hic, e⟩ := hs
      have hl : (D.G.face (D.G.m.nbface + D.G.ni + ic)).left = i := by rw [e]
      have hr : (D.G.face (D.G.m.nbface + D.G.ni + ic)).right = D.G.m.nelem + ic := by rw [e]
      have hnb : ¬ D.G.m.nbface + D.G.ni + ic < D.G.m.nbface := by omega
      have hin : ¬ D.G.inner (D.G.m.nbface + D.G.ni + ic) := fun hin => by have := k4.1 hin; omega
      simp only [hnb, hin, if_false, amtAt_append, amtAt_ent, hl, hr, hgi, true_and, sideRow]
      rw [blkInterior_eq, show D.G.xl (D.G.m.nbface + D.G.ni + ic) = D.G.rc i by unfold Geo.xl; rw [hl],
        show D.G.xr (D.G.m.nbface + D.G.ni + ic) = D.G.rc (D.G.m.nelem + ic) by unfold Geo.xr; rw [if_neg hnb, hr], e]
      rfl
    | cell j =>
      obtain ⟨hin, ⟨hij, e⟩ | ⟨hij, e⟩⟩ := hs
      · have hl : (D.G.face k).left = i := by rw [e]
        have hr : (D.G.face k).right = j := by rw [e]
        have hj : j < D.G.m.nelem := by rw [← hr]; exact k4.1 hin
        have hnb : ¬ k < D.G.m.nbface := by have := hin.1; omega
        have hne : ¬ gcol j = some gi := by rw [hrow j hj]; omega
        simp only [hnb, hin, if_false, if_true, amtAt_append, amtAt_ent, hl, hr, hgi, true_and, hne, false_and, zero_add, add_zero, sideRow]
        rw [blkInterior_eq, show D.G.xl k = D.G.rc i by unfold Geo.xl; rw [hl], show D.G.xr k = D.G.rc j by unfold Geo.xr; rw [if_neg hnb, hr], e]
        rfl
      · have hl : (D.G.face k).left = j := by rw [e]
        have hr : (D.G.face k).right = i := by rw [e]
        have hj : j < D.G.m.nelem := by rw [← hl]; exact k1
        have hnb : ¬ k < D.G.m.nbface := by have := hin.1; omega
        have hne : ¬ gcol j = some gi := by rw [hrow j hj]; omega
        simp only [hnb, hin, if_false, if_true, amtAt_append, amtAt_ent, hl, hr, hgi, true_and, hne, false_and, zero_add, add_zero, sideRow]
        have hsw := sideBlk_swap D (D.G.rc i) (D.G.rc j) (hm f j hfn hof)
        rw [blkInterior_eq, show D.G.xl k = D.G.rc j by unfold Geo.xl; rw [hl], show D.G.xr k = D.G.rc i by unfold Geo.xr; rw [if_neg hnb, hr], e]
        change (if _ then (D.sideBlk J (u j) (u i) (D.G.rc j) (D.G.rc i) (nodeB D.G.m i f) (nodeA D.G.m i f)).dfdl else 0) +
          (if _ then -(D.sideBlk J (u j) (u i) (D.G.rc j) (D.G.rc i) (nodeB D.G.m i f) (nodeA D.G.m i f)).dfdr else 0) = _
        rw [hsw]; rfl
  · intro k hk hne
    by_contra ht
    apply hne
    obtain ⟨k1, k2, k3, k4, k5⟩ := h.kind (mem_range.1 hk)
    have hL : ¬ gcol (D.G.face k).left = some gi := by
      rw [hrow _ k1]; intro e; exact ht (Or.inl e)
    unfold jacUpds
    by_cases hb : k < D.G.m.nbface
    · simp only [hb, if_true, amtAt_ent, hL, false_and, if_false]
    · by_cases hin : D.G.inner k
      · have hR : ¬ gcol (D.G.face k).right = some gi := by
          rw [hrow _ (k4.1 hin)]; intro e; exact ht (Or.inr e)
        simp only [hb, hin, if_true, if_false, amtAt_append, amtAt_ent, hL, hR, false_and, add_zero]
      · simp only [hb, hin, if_false, amtAt_append, amtAt_ent, hL, false_and, add_zero]

/-- Blocks outside the rows of a mesh's own cells are left alone. -/
theorem jac_other_row (h : D.G.Ok) {gcol : ℕ → Option ℕ} {J : St → St → V2 → FJ} {u : ℕ → St} {gi gc : ℕ}
    (hgi : ∀ i, i < D.G.m.nelem → gcol i ≠ some gi) : D.jacSum J gcol u (gi, gc) = 0 := by
  refine sum_eq_zero fun k hk => ?_
  obtain ⟨k1, k2, k3, k4, k5⟩ := h.kind (mem_range.1 hk)
  have hL := hgi _ k1
  unfold jacUpds
  by_cases hb : k < D.G.m.nbface
  · simp only [hb, if_true, amtAt_ent, hL, false_and, if_false]
  · by_cases hin : D.G.inner k
    · have hR := hgi _ (k4.1 hin)
      simp only [hb, hin, if_true, if_false, amtAt_append, amtAt_ent, hL, hR, false_and, add_zero]
    · simp only [hb, hin, if_false, amtAt_append, amtAt_ent, hL, false_and, add_zero]

variable {D' : Disc} {σ τ : ℕ → ℕ}

theorem _root_.FVENS.FV.DiscCopy.sideBlk (hc : DiscCopy D D' σ τ) : D'.sideBlk = D.sideBlk := by
  funext J co cx xo xx a b
  unfold Disc.sideBlk
  rw [hc.gas, hc.viscous, hc.constVisc]

theorem _root_.FVENS.FV.DiscCopy.bndBlk (hc : DiscCopy D D' σ τ) : D'.bndBlk = D.bndBlk := by
  funext J g co xo xx a b
  unfold Disc.bndBlk
  rw [hc.gas, hc.viscous, hc.constVisc]

theorem _root_.FVENS.FV.DiscCopy.bjac (hc : DiscCopy D D' σ τ) {k : ℕ} (hk : k < D'.G.m.nbface) : D'.bjac k = D.bjac (τ k) := by
  unfold Disc.bjac
  rw [hc.bc, hc.tag k hk, hc.gas]

/-- Rows of copies agree if rows of the cell arrays that stand for the same cell have the same number. -/
theorem jac_copy (h : D.G.Ok) (h' : D'.G.Ok) (hc : DiscCopy D D' σ τ) {gcol gcol' : ℕ → Option ℕ} (hN : IsNumbering D.G gcol)
    (hN' : IsNumbering D'.G gcol') (hg : ∀ i, i < D'.G.m.nelem + D'.G.m.nconnface → gcol' i = gcol (σ i)) {J : St → St → V2 → FJ} {u u' : ℕ → St}
    (hu : ∀ i, i < D'.G.m.nelem + D'.G.m.nconnface → u' i = u (σ i))
    (hm : ∀ i j f, i < D.G.m.nelem → j < D.G.m.nelem → f < D.G.m.nnode i → Across D.G.m (i, f) (.cell j) →
      Mirror J (u i) (u j) (fNrm (nodeA D.G.m i f) (nodeB D.G.m i f)))
    {i gi : ℕ} (hi : i < D'.G.m.nelem) (hgi : gcol' i = some gi) (gc : ℕ) : D'.jacSum J gcol' u' (gi, gc) = D.jacSum J gcol u (gi, gc) := by
  obtain ⟨o', ho'⟩ := Geo.exists_sides h' hi
  have hσ := hc.geo.mesh.cell i hi
  have hn := hc.geo.mesh.nnode i hi
  have ho : ∀ f, f < D.G.m.nnode (σ i) → Across D.G.m (σ i, f) ((o' f).img D.G.m D'.G.m σ τ) := fun f hf =>
    hc.geo.mesh.across i hi f (hn ▸ hf) _ (ho' f (hn ▸ hf))
  have hcellj : ∀ f j, f < D'.G.m.nnode i → o' f = .cell j → j < D'.G.m.nelem := fun f j hf e => by
    have := ho' f hf; rw [e] at this; obtain ⟨g, hg⟩ := this; exact hg.2.1.1
  have hm1 : ∀ f j, f < D'.G.m.nnode i → o' f = .cell j → Mirror J (u' i) (u' j) (fNrm (nodeA D'.G.m i f) (nodeB D'.G.m i f)) := by
    intro f j hf e
    have hof := ho' f hf
    rw [e] at hof
    have hj := hcellj f j hf e
    obtain ⟨n1, n2⟩ := hc.geo.mesh.nodes h'.conf.lin hi hf
    have h2 := hc.geo.mesh.across i hi f hf _ hof
    simp only [Other.img] at h2
    rw [rowOther, if_pos (hc.geo.mesh.cell j hj)] at h2
    rw [hu i (by omega), hu j (by omega), n1, n2]
    exact hm (σ i) (σ j) f hσ (hc.geo.mesh.cell j hj) (hn ▸ hf) h2
  have hm2 : ∀ f j, f < D.G.m.nnode (σ i) → (o' f).img D.G.m D'.G.m σ τ = .cell j →
      Mirror J (u (σ i)) (u j) (fNrm (nodeA D.G.m (σ i) f) (nodeB D.G.m (σ i) f)) := by
    intro f j hf e
    have h2 := ho f hf
    rw [e] at h2
    obtain ⟨g, hg'⟩ := h2
    exact hm (σ i) j f hσ hg'.2.1.1 hf ⟨g, hg'⟩
  rw [jac_cell h' hN' hi hgi ho' hm1, jac_cell h hN hσ (by rw [← hg i (by omega), hgi]) ho hm2, ← hn]
  · refine sum_congr rfl fun f hf => ?_
    have hf := mem_range.1 hf
    obtain ⟨n1, n2⟩ := hc.geo.mesh.nodes h'.conf.lin hi hf
    have hof := ho' f hf
    have hrow : ∀ r, r < D'.G.m.nelem + D'.G.m.nconnface →
        (if gcol' r = some gc then (D'.sideBlk J (u' i) (u' r) (D'.G.rc i) (D'.G.rc r) (nodeA D'.G.m i f) (nodeB D'.G.m i f)).dfdr else 0) +
          (if gcol' i = some gc then -(D'.sideBlk J (u' i) (u' r) (D'.G.rc i) (D'.G.rc r) (nodeA D'.G.m i f) (nodeB D'.G.m i f)).dfdl else 0) =
        D.sideRow J gcol u (σ i) f gc (rowOther D.G.m (σ r)) := by
      intro r hr
      rw [hg r hr, hg i (by omega), hu r hr, hu i (by omega), hc.geo.rc r hr, hc.geo.rc i (by omega), n1, n2, hc.sideBlk]
      unfold rowOther
      by_cases hlt : σ r < D.G.m.nelem
      · rw [if_pos hlt]; rfl
      · rw [if_neg hlt]; simp only [sideRow, show D.G.m.nelem + (σ r - D.G.m.nelem) = σ r by omega]
    generalize o' f = of at hof
    cases of with
    | bnd k =>
      simp only [sideRow, Other.img]
      rw [hg i (by omega), hu i (by omega), hc.geo.rc i (by omega), hc.geo.rcbp k hof.1, n1, n2, hc.bndBlk, hc.bjac hof.1]
    | cell j =>
      obtain ⟨g, hg'⟩ := hof
      exact hrow j (by have := hg'.2.1.1; simp only at this; omega)
    | conn ic =>
      have := hof.1
      exact hrow (D'.G.m.nelem + ic) (by omega)
end Disc
end FV
end FVENS
