import Verif.FV.Copy

/-!
# Local time steps of copies (C75)

The time step of a cell depends on the cell's own face states, its area and its faces only.
-/

namespace FVENS
namespace FV
namespace Disc

open Finset Msh Flux
variable {D D' : Disc} {σ τ : ℕ → ℕ}

/-- Wave speed of a side with nodes `a`, `b`, times its length (specification side of `specRad`). -/
noncomputable def sideSpec (D : Disc) (u : St) (a b : Fin 2 → ℝ) (ar : ℝ) : ℝ :=
  (|dot (mom u) (fNrm a b) / u 0| + D.gas.soundSpeedC u) * fLen a b +
    if D.viscous then
      max (4 / (3 * u 0)) (D.gas.g / u 0) * (if D.constVisc then D.gas.constViscosity else D.gas.viscosityC u) / D.gas.Pr * fLen a b * fLen a b / ar
    else 0

theorem sideSpec_swap (u : St) (a b : Fin 2 → ℝ) (ar : ℝ) : D.sideSpec u b a ar = D.sideSpec u a b ar := by
  unfold sideSpec
  rw [show fNrm b a = -fNrm a b from (C22_opposite a b).1, fLen_swap]
  have : |dot (mom u) (-fNrm a b) / u 0| = |dot (mom u) (fNrm a b) / u 0| := by
    rw [show dot (mom u) (-fNrm a b) = -dot (mom u) (fNrm a b) by simp [dot]; ring, neg_div, abs_neg]
  rw [this]

/-- The accumulated wave speeds of a cell, as a sum over its local faces. -/
theorem integ_cell (h : D.G.Ok) {uL uR : ℕ → St} {i : ℕ} (hi : i < D.G.m.nelem) {o : ℕ → Other}
    (ho : ∀ f, f < D.G.m.nnode i → Across D.G.m (i, f) (o f)) {fo : ℕ → St}
    (hf : ∀ f, f < D.G.m.nnode i → ∀ k, k < D.G.nface → Side D.G i f (o f) k →
      ((D.G.face k).left = i → uL k = fo f) ∧ ((D.G.face k).left ≠ i → uR k = fo f)) :
    D.integ uL uR i = ∑ f ∈ range (D.G.m.nnode i), D.sideSpec (fo f) (nodeA D.G.m i f) (nodeB D.G.m i f) (D.G.ar i) := by
  rw [C51_integral h uL uR hi]
  refine sum_sides h hi ho fun f hfn k hk hs => ?_
  obtain ⟨f1, f2⟩ := hf f hfn k hk hs
  have hspec : ∀ u, D.specRad u k (D.G.ar i) = D.sideSpec u (D.G.m.coords (D.G.face k).n0) (D.G.m.coords (D.G.face k).n1) (D.G.ar i) :=
    fun _ => rfl
  unfold sideRad
  rw [hspec]
  rcases hs.left_or with ⟨hl, hn0, hn1⟩ | ⟨⟨j, hoj, hl, hj⟩, hr, hin, hn1, hn0⟩
  · rw [if_pos hl, f1 hl, hn0, hn1]; rfl
  · have hne : (D.G.face k).left ≠ i := by rw [hl]; exact hj
    rw [if_neg hne, f2 hne, hn0, hn1, sideSpec_swap]; rfl

/-- C75: the time step of a cell of a copy is that of the original cell if the cell's own face states agree. -/
theorem C75_time_steps (h : D.G.Ok) (h' : D'.G.Ok) (hc : DiscCopy D D' σ τ) {uL uR uL' uR' : ℕ → St} {i : ℕ} (hi : i < D'.G.m.nelem)
    {o' : ℕ → Other} (ho' : ∀ f, f < D'.G.m.nnode i → Across D'.G.m (i, f) (o' f)) {fo : ℕ → St}
    (hf' : ∀ f, f < D'.G.m.nnode i → ∀ k, k < D'.G.nface → Side D'.G i f (o' f) k →
      ((D'.G.face k).left = i → uL' k = fo f) ∧ ((D'.G.face k).left ≠ i → uR' k = fo f))
    (hf : ∀ f, f < D'.G.m.nnode i → ∀ k, k < D.G.nface → Side D.G (σ i) f ((o' f).img D.G.m D'.G.m σ τ) k →
      ((D.G.face k).left = σ i → uL k = fo f) ∧ ((D.G.face k).left ≠ σ i → uR k = fo f)) :
    D'.timestep uL' uR' i = D.timestep uL uR (σ i) := by
  have hσ := hc.geo.mesh.cell i hi
  have hn := hc.geo.mesh.nnode i hi
  have ho : ∀ f, f < D.G.m.nnode (σ i) → Across D.G.m (σ i, f) ((o' f).img D.G.m D'.G.m σ τ) := fun f hf =>
    hc.geo.mesh.across i hi f (hn ▸ hf) _ (ho' f (hn ▸ hf))
  unfold timestep
  rw [integ_cell h' hi ho' hf', integ_cell h hσ ho (fun f hfn => hf f (hn ▸ hfn)), hc.geo.ar i hi, ← hn]
  congr 1
  refine sum_congr rfl fun f hfn => ?_
  obtain ⟨n1, n2⟩ := hc.geo.mesh.nodes h'.conf.lin hi (mem_range.1 hfn)
  rw [n1, n2]
  unfold sideSpec
  rw [hc.gas, hc.viscous, hc.constVisc]

/-- C75, first order: time steps of copies agree. -/
theorem C75_first_order_time_steps (h : D.G.Ok) (h' : D'.G.Ok) (hc : DiscCopy D D' σ τ) {u u' : ℕ → St}
    (hu : ∀ i, i < D'.G.m.nelem → u' i = u (σ i)) {r r' : ℕ → St} {o o' : Out} (ho : D.residual1 u r = some o) (ho' : D'.residual1 u' r' = some o')
    {i : ℕ} (hi : i < D'.G.m.nelem) : D'.timestep o'.uL o'.uR i = D.timestep o.uL o.uR (σ i) := by
  have hfo : ∀ (E : Disc) (w q : ℕ → St) (oo : Out), E.residual1 w q = some oo → ∀ (c f k : ℕ) (x : Other), Side E.G c f x k →
      ((E.G.face k).left = c → oo.uL k = w c) ∧ ((E.G.face k).left ≠ c → oo.uR k = w c) := by
    intro E w q oo hoo c f k x hs
    unfold residual1 at hoo
    split_ifs at hoo
    cases hoo
    refine ⟨fun hl => by simp only; rw [hl], fun hl => ?_⟩
    rcases hs.left_or with ⟨hl', -⟩ | ⟨-, hr, hin, -⟩
    · exact absurd hl' hl
    · simp only; rw [if_neg (by have := hin.1; omega), hr]
  obtain ⟨x, hx⟩ := Geo.exists_sides h' hi
  refine C75_time_steps h h' hc hi hx (fo := fun _ => u (σ i)) (fun f hf k hk hs => ?_) (fun f hf k hk hs => hfo D u r o ho _ _ _ _ hs)
  rw [← hu i hi]
  exact hfo D' u' r' o' ho' _ _ _ _ hs

end Disc
end FV
end FVENS
