import Verif.FV.CopyStep
import Verif.FV.Copy2
import Verif.FV.SimilarRun
import Verif.Flux.Reflect
import Verif.Par.Positive

/-!
# Mirror images of meshes; slip walls as symmetry planes (C100)

First-order inviscid discretisation. `Mirrored` says that a discretisation is the mirror image of another (cells keep the positive orientation, so that the order of
their nodes is reversed); a discretisation that is its own mirror image is symmetric. `Half` says that a discretisation covers one half of a symmetric one and has slip
walls where it has been cut.
-/

namespace FVENS

open Msh Finset Flux

/-! ### Geometry -/

namespace Reflection
variable (M : Reflection)

theorem pt_sub (a b : V2) (d : Fin 2) : M.pt b d - M.pt a d = refV M.c M.s (fun d => b d - a d) d := by
  fin_cases d <;> simp [pt, refV] <;> ring

theorem fLen_pt (a b : V2) : fLen (M.pt a) (M.pt b) = fLen a b := by
  unfold fLen
  rw [pt_sub, pt_sub, refV_0, refV_1]
  congr 1
  linear_combination ((b 1 - a 1) ^ 2 + (-1 * (b 0 - a 0)) ^ 2) * M.unit

/-- The outward normal of a mirrored face, whose nodes come in the opposite order. -/
theorem fNrm_pt (a b : V2) : fNrm (M.pt b) (M.pt a) = M.dir (fNrm a b) := by
  unfold fNrm
  rw [fLen_pt, fLen_swap, pt_sub, pt_sub, refV_0, refV_1]
  funext d; fin_cases d <;> simp [dir, refV] <;> ring

/-- A face on the axis. -/
theorem dir_fixed {a b : V2} (ha : M.pt a = a) (hb : M.pt b = b) : M.dir (fNrm a b) = - fNrm a b := by
  rw [← fNrm_pt, ha, hb]
  exact (C22_opposite a b).1

end Reflection

namespace FV
namespace Disc
variable {D D' : Disc} {M : Reflection} {σ ρ τ : ℕ → ℕ} {π : ℕ → ℕ → ℕ}

/-- State behind a side of a cell. -/
noncomputable def seen (D : Disc) (u : ℕ → St) (i : ℕ) (o : Other) : St := o.val D.G.m u fun k => D.bstate k (u i)

/-- First-order inviscid residual and time step of a cell, from its own state and what it sees. -/
theorem first_cell (h : D.G.Ok) (hv : D.viscous = false) {u r : ℕ → St} {o : Out}
    (hsw : ∀ i j, i < D.G.m.nelem → j < D.G.m.nelem → D.SwapOk (u i) (u j)) (ho : D.residual1 u r = some o) {i : ℕ} (hi : i < D.G.m.nelem) {x : ℕ → Other}
    (hx : ∀ f, f < D.G.m.nnode i → Across D.G.m (i, f) (x f)) :
    (o.res i = r i - ∑ f ∈ range (D.G.m.nnode i), fun v => D.scheme.flux D.gas (u i) (D.seen u i (x f)) (fNrm (nodeA D.G.m i f) (nodeB D.G.m i f)) v *
      fLen (nodeA D.G.m i f) (nodeB D.G.m i f)) ∧
    D.timestep o.uL o.uR i = D.G.ar i / ∑ f ∈ range (D.G.m.nnode i),
      (|dot (mom (u i)) (fNrm (nodeA D.G.m i f) (nodeB D.G.m i f)) / u i 0| + D.gas.soundSpeedC (u i)) * fLen (nodeA D.G.m i f) (nodeB D.G.m i f) := by
  unfold residual1 at ho
  split_ifs at ho with hb
  cases ho
  have hR : ∀ f, f < D.G.m.nnode i → ∀ k, k < D.G.nface → Side D.G i f (x f) k →
      ((D.G.face k).left = i → u (D.G.face k).left = u i ∧
        (if k < D.G.m.nbface then D.bstate k (u (D.G.face k).left) else u (D.G.face k).right) = D.seen u i (x f)) ∧
      ((D.G.face k).left ≠ i →
        (if k < D.G.m.nbface then D.bstate k (u (D.G.face k).left) else u (D.G.face k).right) = u i ∧ u (D.G.face k).left = D.seen u i (x f)) := by
    intro f _ k hk hs
    refine ⟨fun hl => ⟨by rw [hl], ?_⟩, fun hl => ?_⟩
    · rw [hl]; exact hs.right_val hl u (fun k => D.bstate k (u i))
    · rcases hs.left_or with ⟨hl', -⟩ | ⟨⟨j, hoj, hl', hj⟩, hr, hin, -⟩
      · exact absurd hl' hl
      · rw [if_neg (by have := hin.1; omega), hr, hoj, hl']; exact ⟨rfl, rfl⟩
  constructor
  · dsimp only
    rw [fluxes_cell h hi hx hR (fun f hf k hk hin hs hl => ?_)]
    · congr 1
      refine sum_congr rfl fun f hf => ?_
      funext v
      unfold sideFlux
      rw [hv]; simp
    · obtain ⟨k1, k2, k3, k4, k5⟩ := h.kind hk
      rw [if_neg (by have := hin.1; omega)]
      exact hsw _ _ (k4.1 hin) k1
  · unfold timestep
    rw [integ_cell h hi hx (fo := fun _ => u i) (fun f hf k hk hs => ⟨fun hl => ((hR f hf k hk hs).1 hl).1, fun hl => ((hR f hf k hk hs).2 hl).1⟩)]
    congr 1
    refine sum_congr rfl fun f hf => ?_
    unfold sideSpec
    rw [hv]; simp

theorem side_nrm {i f k : ℕ} (hs : Side D.G i f (.bnd k) k) : D.G.nrm k = fNrm (nodeA D.G.m i f) (nodeB D.G.m i f) := by
  obtain ⟨-, -, e⟩ := hs
  unfold Geo.nrm nodeA nodeB
  rw [e]

theorem bstate_across (h : D.G.Ok) {i f k : ℕ} (hi : i < D.G.m.nelem) (hf : f < D.G.m.nnode i) (hx : Across D.G.m (i, f) (.bnd k)) {o : BC.Obj} (ho : D.bc (D.tag k) = some o) (w : St) :
    D.bstate k w = o.ghost D.gas w (fNrm (nodeA D.G.m i f) (nodeB D.G.m i f)) := by
  obtain ⟨k', -, -, hs⟩ := side_exists h ⟨hi, hf⟩ hx
  obtain rfl : k' = k := hs.1
  unfold bstate
  rw [ho]
  simp only
  rw [side_nrm hs]

/-- A local face has one thing across. -/
theorem across_unique (h : D.G.Ok) {i f : ℕ} (hi : i < D.G.m.nelem) (hf : f < D.G.m.nnode i) {o o' : Other} (ho : Across D.G.m (i, f) o)
    (ho' : Across D.G.m (i, f) o') : o = o' := by
  have e1 := (Geo.side_tables_of h.conf h.topo hi hf ho).1
  have e2 := (Geo.side_tables_of h.conf h.topo hi hf ho').1
  have e : o.idx D.G.m = o'.idx D.G.m := Option.some.inj (e1.symm.trans e2)
  have hc : ∀ {j}, Across D.G.m (i, f) (.cell j) → j < D.G.m.nelem := fun ⟨g, hg⟩ => hg.2.1.1
  cases o <;> cases o' <;> simp only [Other.idx] at e
  · congr 1; omega
  · have := hc ho'; omega
  · have := ho'.1; omega
  · have := hc ho; omega
  · rw [e]
  · have := hc ho; omega
  · have := ho.1; omega
  · have := hc ho'; omega
  · congr 1; omega

/-! ### Mirror images -/

/-- `D'` is the mirror image of `D`: cell `i` of `D'` is the image of cell `ρ i` of `D`, its local face `f` that of local face `π i f` traversed the other way,
boundary face `k` that of `τ k`. -/
structure Mirrored (M : Reflection) (D D' : Disc) (ρ τ : ℕ → ℕ) (π : ℕ → ℕ → ℕ) : Prop where
  conn : D.G.m.nconnface = 0
  conn' : D'.G.m.nconnface = 0
  cell : ∀ i, i < D'.G.m.nelem → ρ i < D.G.m.nelem
  nnode : ∀ i, i < D'.G.m.nelem → D'.G.m.nnode i = D.G.m.nnode (ρ i)
  side : ∀ i, i < D'.G.m.nelem → ∀ f, f < D'.G.m.nnode i → π i f < D'.G.m.nnode i
  inj : ∀ i, i < D'.G.m.nelem → ∀ f, f < D'.G.m.nnode i → ∀ g, g < D'.G.m.nnode i → π i f = π i g → f = g
  first : ∀ i, i < D'.G.m.nelem → ∀ f, f < D'.G.m.nnode i → nodeA D'.G.m i f = M.pt (nodeB D.G.m (ρ i) (π i f))
  last : ∀ i, i < D'.G.m.nelem → ∀ f, f < D'.G.m.nnode i → nodeB D'.G.m i f = M.pt (nodeA D.G.m (ρ i) (π i f))
  nbr : ∀ i, i < D'.G.m.nelem → ∀ f, f < D'.G.m.nnode i → ∀ j, Across D'.G.m (i, f) (.cell j) → Across D.G.m (ρ i, π i f) (.cell (ρ j))
  bnd : ∀ i, i < D'.G.m.nelem → ∀ f, f < D'.G.m.nnode i → ∀ k, Across D'.G.m (i, f) (.bnd k) → Across D.G.m (ρ i, π i f) (.bnd (τ k))
  bc : ∀ k, k < D'.G.m.nbface → D'.bc (D'.tag k) = (D.bc (D.tag (τ k))).map M.obj
  gas : D'.gas = D.gas
  scheme : D'.scheme = D.scheme
  inviscid : D.viscous = false
  inviscid' : D'.viscous = false
  ar : ∀ i, i < D'.G.m.nelem → D'.G.ar i = D.G.ar (ρ i)

/-- Image of what a cell sees. -/
def Other.refl (ρ τ : ℕ → ℕ) : Other → Other
  | .bnd k => .bnd (τ k)
  | .cell j => .cell (ρ j)
  | .conn ic => .conn ic

theorem Mirrored.across (hm : Mirrored M D D' ρ τ π) {i f : ℕ} (hi : i < D'.G.m.nelem) (hf : f < D'.G.m.nnode i) {o : Other} (ho : Across D'.G.m (i, f) o) :
    Across D.G.m (ρ i, π i f) (Other.refl ρ τ o) := by
  cases o with
  | bnd k => exact hm.bnd i hi f hf k ho
  | cell j => exact hm.nbr i hi f hf j ho
  | conn ic => exact absurd ho.1 (by rw [hm.conn']; omega)

theorem Mirrored.bcOk (h' : D'.G.Ok) (hm : Mirrored M D D' ρ τ π) (hb : D.BcOk) : D'.BcOk := by
  intro k hk
  obtain ⟨c, f, hc, hf, hx⟩ := bnd_across h'.conf hk
  have := hm.bnd c hc f hf k hx
  rw [hm.bc k hk, Option.isSome_map]
  exact hb _ this.1

/-- The mirror image sees the mirror images. -/
theorem Mirrored.seen (h : D.G.Ok) (h' : D'.G.Ok) (hm : Mirrored M D D' ρ τ π) (hb : D.BcOk) {u u' : ℕ → St} (hu : ∀ i, i < D'.G.m.nelem → u' i = M.st (u (ρ i)))
    {i f : ℕ} (hi : i < D'.G.m.nelem) (hf : f < D'.G.m.nnode i) {o : Other} (ho : Across D'.G.m (i, f) o) :
    D'.seen u' i o = M.st (D.seen u (ρ i) (Other.refl ρ τ o)) := by
  cases o with
  | cell j =>
    obtain ⟨g, hg⟩ := ho
    exact hu j hg.2.1.1
  | conn ic => exact absurd ho.1 (by rw [hm.conn']; omega)
  | bnd k =>
    have hk := hm.bnd i hi f hf k ho
    have hn := hm.nnode i hi
    obtain ⟨b, hbk⟩ := Option.isSome_iff_exists.1 (hb (τ k) hk.1)
    show D'.bstate k (u' i) = M.st (D.bstate (τ k) (u (ρ i)))
    rw [bstate_across h' hi hf ho (o := M.obj b) (by rw [hm.bc k ho.1, hbk]; rfl), bstate_across h (hm.cell i hi) (by rw [← hn]; exact hm.side i hi f hf) hk hbk, hm.gas,
      hm.first i hi f hf, hm.last i hi f hf, M.fNrm_pt, hu i hi, BC.C100_ghost]

theorem Mirrored.swapOk (hm : Mirrored M D D' ρ τ π) {a b : St} (hs : D.SwapOk a b) : D'.SwapOk (M.st a) (M.st b) := by
  intro n hn v
  rw [hm.scheme, hm.gas]
  have hinv : ∀ n : V2, refV M.c M.s (refV M.c M.s n) = n := fun n => by
    have h := M.unit
    funext i; fin_cases i
    · simp [refV]; linear_combination n 0 * h
    · simp [refV]; linear_combination n 1 * h
  set q := refV M.c M.s n with hq
  have hq1 : q 0 * q 0 + q 1 * q 1 = 1 := by
    rw [← hn]; exact dot_ref M.unit n n
  have hneg : -n = refV M.c M.s (-q) := by
    rw [← hinv n, ← hq]; funext i; fin_cases i <;> simp [refV] <;> ring
  have hn' : n = refV M.c M.s q := (hinv n).symm
  have e1 := C100_reflection D.gas b a (-q) M.c M.s M.unit D.scheme
  have e2 := C100_reflection D.gas a b q M.c M.s M.unit D.scheme
  have e3 : D.scheme.flux D.gas b a (-q) = - D.scheme.flux D.gas a b q := funext fun v => hs q hq1 v
  rw [hneg]
  conv_rhs => rw [hn']
  unfold Reflection.st
  rw [e1, e2, e3]
  fin_cases v <;> simp [refS] <;> ring

/-- C100, first order, inviscid: residuals of mirrored states on the mirrored mesh are the mirrored residuals, time steps are the same. -/
theorem C100_mirrored (h : D.G.Ok) (h' : D'.G.Ok) (hm : Mirrored M D D' ρ τ π) (hb : D.BcOk) {u u' : ℕ → St} (hu : ∀ i, i < D'.G.m.nelem → u' i = M.st (u (ρ i)))
    (hsw : ∀ i j, i < D.G.m.nelem → j < D.G.m.nelem → D.SwapOk (u i) (u j)) {r r' : ℕ → St} (hr : ∀ i, i < D'.G.m.nelem → r' i = M.st (r (ρ i))) :
    ∃ o o', D.residual1 u r = some o ∧ D'.residual1 u' r' = some o' ∧
      ∀ i, i < D'.G.m.nelem → o'.res i = M.st (o.res (ρ i)) ∧ D'.timestep o'.uL o'.uR i = D.timestep o.uL o.uR (ρ i) := by
  have hb' := hm.bcOk h' hb
  obtain ⟨o, ho⟩ : ∃ o, D.residual1 u r = some o := ⟨_, by unfold residual1; rw [if_pos hb]⟩
  obtain ⟨o', ho'⟩ : ∃ o', D'.residual1 u' r' = some o' := ⟨_, by unfold residual1; rw [if_pos hb']⟩
  refine ⟨o, o', ho, ho', fun i hi => ?_⟩
  have hn := hm.nnode i hi
  have hρ := hm.cell i hi
  obtain ⟨x', hx'⟩ := Geo.exists_sides h' hi
  obtain ⟨x, hx⟩ := Geo.exists_sides h hρ
  have hsw' : ∀ i j, i < D'.G.m.nelem → j < D'.G.m.nelem → D'.SwapOk (u' i) (u' j) := fun i j hi hj => by
    rw [hu i hi, hu j hj]; exact hm.swapOk (hsw _ _ (hm.cell i hi) (hm.cell j hj))
  obtain ⟨e1, e2⟩ := first_cell h hm.inviscid hsw ho hρ hx
  obtain ⟨e1', e2'⟩ := first_cell h' hm.inviscid' hsw' ho' hi hx'
  have hbij : ∀ {V : Type} [AddCommMonoid V] (F : ℕ → V), ∑ f ∈ range (D'.G.m.nnode i), F (π i f) = ∑ f ∈ range (D.G.m.nnode (ρ i)), F f := by
    intro V _ F
    rw [← hn]
    have hmaps : Set.MapsTo (π i) (range (D'.G.m.nnode i)) (range (D'.G.m.nnode i)) := fun f hf => by
      simp only [coe_range, Set.mem_Iio] at hf ⊢; exact hm.side i hi f hf
    have hinj : Set.InjOn (π i) (range (D'.G.m.nnode i)) := fun f hf g hg e => by
      simp only [coe_range, Set.mem_Iio] at hf hg; exact hm.inj i hi f hf g hg e
    refine sum_nbij (π i) (fun f hf => by exact_mod_cast hmaps (by exact_mod_cast hf)) hinj (surjOn_of_injOn_of_card_le _ hmaps hinj le_rfl) fun _ _ => rfl
  have hseen : ∀ f, f < D'.G.m.nnode i → D'.seen u' i (x' f) = M.st (D.seen u (ρ i) (x (π i f))) := fun f hf => by
    rw [hm.seen h h' hb hu hi hf (hx' f hf)]
    rw [across_unique h hρ (hm.side i hi f hf |>.trans_eq hn) (hm.across hi hf (hx' f hf)) (hx _ (hm.side i hi f hf |>.trans_eq hn))]
  constructor
  · rw [e1', e1, hr i hi, ← hbij]
    have e : ∀ (a b : St), M.st (a - b) = M.st a - M.st b := fun a b => by
      funext v; fin_cases v <;> simp [Reflection.st, refS] <;> ring
    have es : ∀ (S : Finset ℕ) (F : ℕ → St), M.st (∑ f ∈ S, F f) = ∑ f ∈ S, M.st (F f) := fun S F => by
      funext v; fin_cases v <;> simp [Reflection.st, refS, sum_add_distrib, mul_sum]
    rw [e, es]
    congr 1
    refine sum_congr rfl fun f hf => ?_
    have hf := mem_range.1 hf
    rw [hm.scheme, hm.gas, hseen f hf, hu i hi, hm.first i hi f hf, hm.last i hi f hf, M.fNrm_pt, M.fLen_pt, fLen_swap]
    have := C100_reflection D.gas (u (ρ i)) (D.seen u (ρ i) (x (π i f))) (fNrm (nodeA D.G.m (ρ i) (π i f)) (nodeB D.G.m (ρ i) (π i f))) M.c M.s M.unit D.scheme
    unfold Reflection.st Reflection.dir
    rw [this]
    funext v; fin_cases v <;> simp [refS] <;> ring
  · rw [e2', e2, hm.ar i hi, ← hbij]
    congr 1
    refine sum_congr rfl fun f hf => ?_
    have hf := mem_range.1 hf
    rw [hm.gas, hu i hi, hm.first i hi f hf, hm.last i hi f hf, M.fNrm_pt, M.fLen_pt, fLen_swap]
    unfold Reflection.st Reflection.dir
    rw [BC.sound_ref M.unit, mom_ref, dot_ref M.unit, refS_0]

end Disc
end FV
end FVENS
