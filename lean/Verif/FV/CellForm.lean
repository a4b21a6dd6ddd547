import Verif.FV.Residual
import Verif.Flux.Order

/-!
# Residual seen from a cell

The loops of the discretisation run over faces. Here their result for one cell is written as a sum over the local faces of
the cell, each side described by what the cell sees through it: a boundary face, another cell, or an interface face. This
form does not depend on the numbering of cells and faces nor on the direction in which a face is stored.
-/

namespace FVENS
namespace FV

open Msh Finset Flux

/-- What lies across a local face: a physical boundary face, a cell, or an interface record. -/
inductive Other
  | bnd (k : ℕ)
  | cell (j : ℕ)
  | conn (ic : ℕ)

/-- Specification: `o` lies across the local face `x` of the mesh. -/
def Across (m : Mesh) (x : ℕ × ℕ) : Other → Prop
  | .bnd k => k < m.nbface ∧ m.bface k 0 = m.inpoel x.1 x.2 ∧ m.bface k 1 = m.inpoel x.1 ((x.2 + 1) % m.nnode x.1)
  | .cell j => ∃ g, Glued m x (j, g)
  | .conn ic => ic < m.nconnface ∧ connKey m ic = x

/-- Value across a face: `ug` for boundary faces, `u` for cells and (behind the cells) interface ghosts. -/
def Other.val {V : Type*} (m : Mesh) (u ug : ℕ → V) : Other → V
  | .bnd k => ug k
  | .cell j => u j
  | .conn ic => u (m.nelem + ic)

/-- Value across a face, the cell's own at boundary faces. -/
def Other.own {V : Type*} (m : Mesh) (g : ℕ → V) (i : ℕ) : Other → V
  | .bnd _ => g i
  | .cell j => g j
  | .conn ic => g (m.nelem + ic)

/-- Face `k` of the face list is local face `f` of cell `i`, with `o` across. -/
def Side (G : Geo) (i f : ℕ) (o : Other) (k : ℕ) : Prop :=
  match o with
  | .bnd kb => k = kb ∧ kb < G.m.nbface ∧
      G.face k = ⟨i, G.m.nelem + G.m.nconnface + kb, G.m.inpoel i f, G.m.inpoel i ((f + 1) % G.m.nnode i)⟩
  | .cell j => G.inner k ∧ ((i < j ∧ G.face k = ⟨i, j, G.m.inpoel i f, G.m.inpoel i ((f + 1) % G.m.nnode i)⟩) ∨
      (j < i ∧ G.face k = ⟨j, i, G.m.inpoel i ((f + 1) % G.m.nnode i), G.m.inpoel i f⟩))
  | .conn ic => k = G.m.nbface + G.ni + ic ∧ ic < G.m.nconnface ∧
      G.face k = ⟨i, G.m.nelem + ic, G.m.inpoel i f, G.m.inpoel i ((f + 1) % G.m.nnode i)⟩

variable {G : Geo}

/-- An edge carrying a boundary face belongs to one cell only. -/
theorem bnd_unique {m : Mesh} {s : FState} (hc : Conforming m) (h : topological m = .ok s) {x y : ℕ × ℕ} (hx : IsFace m x) (hy : IsFace m y)
    {k : ℕ} (hk : k < m.nbface) (he : edge m x = s(m.bface k 0, m.bface k 1)) (he' : edge m y = s(m.bface k 0, m.bface k 1)) : x = y := by
  obtain ⟨-, h2, -⟩ := C27_ranges hc.lin hc.bfOk h
  obtain ⟨e, hu, -⟩ := h2 k hk
  have h1 := (hu _).1 (hasBoth_of_edge hc.lin hx he)
  have h2 := (hu _).1 (hasBoth_of_edge hc.lin hy he')
  exact eq_of_edge hc.lin hx hy (h1.trans h2.symm) (he.trans he'.symm)

/-- Something lies across every local face. -/
theorem exists_across {m : Mesh} {s : FState} (hc : Conforming m) (h : topological m = .ok s) {x : ℕ × ℕ} (hx : IsFace m x) :
    ∃ o, Across m x o := by
  rcases hc.cover x hx with ⟨y, hy⟩ | ⟨k, hk, he⟩ | ⟨ic, hic, he⟩
  · exact ⟨.cell y.1, y.2, hy⟩
  · refine ⟨.bnd k, hk, ?_⟩
    obtain ⟨y, hy, h0, h1⟩ := hc.bf k hk
    have hey : edge m y = s(m.bface k 0, m.bface k 1) := by rw [h0, h1]; rfl
    rw [bnd_unique hc h hx hy hk he hey]; exact ⟨h0, h1⟩
  · exact ⟨.conn ic, hic, he⟩

/-- The face of the list that belongs to a side. -/
theorem side_of_across (hc : Conforming G.m) (ht : topological G.m = .ok G.s) {i f : ℕ} (hx : IsFace G.m (i, f)) {o : Other} (ho : Across G.m (i, f) o) :
    ∃ k, k < G.nface ∧ G.s.elemface i f = some k ∧ Side G i f o k := by
  obtain ⟨h1, h2, h3⟩ := C27_ranges hc.lin hc.bfOk ht
  have hon : ∀ k F, G.s.faces[k]? = some F → OnFace G.m (i, f) F → k < G.nface ∧ G.s.elemface i f = some k ∧ G.face k = F := by
    intro k F hF ho
    have hlt := (List.getElem?_eq_some_iff.1 hF).1
    refine ⟨hlt, ((C71_elemface hc ht hx).2 k).2 ⟨F, hF, ho⟩, ?_⟩
    have := faceAt_get hlt
    rw [hF, Option.some.injEq] at this
    exact this.symm
  cases o with
  | bnd k =>
    obtain ⟨hk, e0, e1⟩ := ho
    obtain ⟨e, hu, hF⟩ := h2 k hk
    have he : edge G.m (i, f) = s(G.m.bface k 0, G.m.bface k 1) := by rw [e0, e1]; rfl
    have hei := (hu i).1 (hasBoth_of_edge hc.lin hx he)
    rw [← hei, e0, e1] at hF
    obtain ⟨a1, a2, a3⟩ := hon k _ hF ⟨rfl, Or.inl rfl⟩
    exact ⟨k, a1, a2, rfl, hk, a3⟩
  | cell j =>
    obtain ⟨g, hg⟩ := ho
    rcases Nat.lt_or_gt_of_ne hg.2.2.1 with hij | hij
    · obtain ⟨k, ⟨b1, b2, b3⟩, -⟩ := C27_interior_once hc.lin hc.manifold hc.bfOk ht hg hij
      obtain ⟨a1, a2, a3⟩ := hon k _ b3 ⟨rfl, Or.inl rfl⟩
      exact ⟨k, a1, a2, ⟨b1, b2⟩, Or.inl ⟨hij, a3⟩⟩
    · obtain ⟨k, ⟨b1, b2, b3⟩, -⟩ := C27_interior_once hc.lin hc.manifold hc.bfOk ht hg.symm hij
      have e0 := hc.opposite _ _ hg
      have e1 := hc.opposite _ _ hg.symm
      simp only at e0 e1
      rw [e0, ← e1] at b3
      obtain ⟨a1, a2, a3⟩ := hon k _ b3 ⟨Sym2.eq_swap, Or.inr rfl⟩
      exact ⟨k, a1, a2, ⟨b1, b2⟩, Or.inr ⟨hij, a3⟩⟩
  | conn ic =>
    obtain ⟨hic, hkey⟩ := ho
    have hF := h3 ic hic
    rw [show G.m.connface ic 0 = i from congrArg Prod.fst hkey, show G.m.connface ic 1 = f from congrArg Prod.snd hkey,
      Nat.mod_eq_of_lt hx.2] at hF
    obtain ⟨a1, a2, a3⟩ := hon _ _ hF ⟨rfl, Or.inl rfl⟩
    exact ⟨_, a1, a2, rfl, hic, a3⟩

theorem side_exists (h : G.Ok) {i f : ℕ} (hx : IsFace G.m (i, f)) {o : Other} (ho : Across G.m (i, f) o) :
    ∃ k, k < G.nface ∧ G.s.elemface i f = some k ∧ Side G i f o k := side_of_across h.conf h.topo hx ho

/-- Sums over the faces touching a cell, as sums over its local faces. -/
theorem sum_sides {A : Type*} [AddCommGroup A] (h : G.Ok) {i : ℕ} (hi : i < G.m.nelem) {o : ℕ → Other}
    (ho : ∀ f, f < G.m.nnode i → Across G.m (i, f) (o f)) {φ ψ : ℕ → A}
    (hφ : ∀ f, f < G.m.nnode i → ∀ k, k < G.nface → Side G i f (o f) k → φ k = ψ f) :
    ∑ k ∈ (range G.nface).filter (G.touches i), φ k = ∑ f ∈ range (G.m.nnode i), ψ f := by
  have key := C41_cell h.conf h.topo (fun k => if (G.face k).left = i then - φ k else φ k) (fun _ => 0) hi
  rw [assemble_eq, zero_add, zero_sub] at key
  have e1 : ∑ k ∈ range G.s.faces.length, contrib G.m.nelem (faceAt G.s.faces k) (if (G.face k).left = i then - φ k else φ k) i =
      ∑ k ∈ (range G.nface).filter (G.touches i), φ k := by
    rw [sum_filter]
    refine sum_congr rfl fun k hk => ?_
    obtain ⟨k1, k2, -⟩ := h.kind (mem_range.1 hk)
    unfold contrib Geo.touches
    change (if (G.face k).right = i ∧ i < G.m.nelem then _ else _) - (if (G.face k).left = i then _ else _) = _
    by_cases e1 : (G.face k).left = i
    · have e2 : ¬ (G.face k).right = i := fun e => k2 (by rw [e1, e])
      simp [e1, e2]
    · by_cases e2 : (G.face k).right = i
      · simp [e1, e2, hi]
      · simp [e1, e2]
  rw [e1] at key
  rw [key, ← sum_neg_distrib]
  refine sum_congr rfl fun f hf => ?_
  have hf := mem_range.1 hf
  obtain ⟨k, hk, hek, hs⟩ := side_exists h ⟨hi, hf⟩ (ho f hf)
  rw [hek, ← hφ f hf k hk hs]
  simp only
  change -(if (G.face k).left = i then _ else _) = _
  split_ifs <;> simp

/-- Left or right of the face of a side. -/
theorem Side.left_or {i f k : ℕ} {o : Other} (hs : Side G i f o k) :
    ((G.face k).left = i ∧ (G.face k).n0 = G.m.inpoel i f ∧ (G.face k).n1 = G.m.inpoel i ((f + 1) % G.m.nnode i)) ∨
    ((∃ j, o = .cell j ∧ (G.face k).left = j ∧ j ≠ i) ∧ (G.face k).right = i ∧ G.inner k ∧
      (G.face k).n1 = G.m.inpoel i f ∧ (G.face k).n0 = G.m.inpoel i ((f + 1) % G.m.nnode i)) := by
  cases o with
  | bnd kb => obtain ⟨-, -, e⟩ := hs; rw [e]; exact Or.inl ⟨rfl, rfl, rfl⟩
  | conn ic => obtain ⟨-, -, e⟩ := hs; rw [e]; exact Or.inl ⟨rfl, rfl, rfl⟩
  | cell j =>
    obtain ⟨hin, ⟨-, e⟩ | ⟨hji, e⟩⟩ := hs
    · rw [e]; exact Or.inl ⟨rfl, rfl, rfl⟩
    · rw [e]; exact Or.inr ⟨⟨j, rfl, rfl, by omega⟩, rfl, hin, rfl, rfl⟩

/-- Values on the far side of the face of a side, seen from the left cell. -/
theorem Side.right_val {V : Type*} {i f k : ℕ} {o : Other} (hs : Side G i f o k) (hl : (G.face k).left = i) (u ug : ℕ → V) :
    (if k < G.m.nbface then ug k else u (G.face k).right) = o.val G.m u ug := by
  cases o with
  | bnd kb => obtain ⟨rfl, hk, e⟩ := hs; rw [if_pos hk]; rfl
  | conn ic => obtain ⟨rfl, -, e⟩ := hs; rw [if_neg (by omega), e]; rfl
  | cell j =>
    obtain ⟨hin, ⟨-, e⟩ | ⟨hji, e⟩⟩ := hs
    · rw [if_neg (by have := hin.1; omega), e]; rfl
    · rw [e] at hl; simp only at hl; omega

theorem Side.right_own {V : Type*} {i f k : ℕ} {o : Other} (hs : Side G i f o k) (hl : (G.face k).left = i) (g : ℕ → V) :
    (if k < G.m.nbface then g i else g (G.face k).right) = o.own G.m g i := by
  cases o with
  | bnd kb => obtain ⟨rfl, hk, e⟩ := hs; rw [if_pos hk]; rfl
  | conn ic => obtain ⟨rfl, -, e⟩ := hs; rw [if_neg (by omega), e]; rfl
  | cell j =>
    obtain ⟨hin, ⟨-, e⟩ | ⟨hji, e⟩⟩ := hs
    · rw [if_neg (by have := hin.1; omega), e]; rfl
    · rw [e] at hl; simp only at hl; omega

/-- Coordinates of the two nodes of a local face, in the cell's order. -/
noncomputable def nodeA (m : Mesh) (i f : ℕ) : Fin 2 → ℝ := m.coords (m.inpoel i f)
noncomputable def nodeB (m : Mesh) (i f : ℕ) : Fin 2 → ℝ := m.coords (m.inpoel i ((f + 1) % m.nnode i))

namespace Disc
variable {D : Disc}

/-- Flux out of a cell through one of its sides: `co`, `cx` cell states, `go`, `gx` cell gradients, `fo`, `fx` face states and `xo`, `xx`
centres of the cell and of what is across; `a`, `b` nodes of the face in the cell's order. -/
noncomputable def sideFlux (D : Disc) (second : Bool) (co cx : St) (go gx : Gr) (fo fx : St) (xo xx a b : Fin 2 → ℝ) : St := fun v =>
  D.scheme.flux D.gas fo fx (fNrm a b) v * fLen a b +
    if D.viscous then viscousFlux D.gas second D.constVisc (fNrm a b) xo xx co cx go gx fo fx v * fLen a b else 0

/-- The inviscid flux between two states changes sign with the sides (see C16). -/
def SwapOk (D : Disc) (a b : St) : Prop :=
  ∀ n : V2, n 0 * n 0 + n 1 * n 1 = 1 → ∀ v, D.scheme.flux D.gas b a (-n) v = - D.scheme.flux D.gas a b n v

theorem swapOk_of_adm (D : Disc) (hg : 4 ≤ 3 * D.gas.g) {a b : St} (ha : Adm D.gas a) (hb : Adm D.gas b) : D.SwapOk a b :=
  fun n hn v => C16_conservative D.gas a b n hg ha hb hn D.scheme v

theorem fNrm_unit {a b : Fin 2 → ℝ} (h : a ≠ b) : fNrm a b 0 * fNrm a b 0 + fNrm a b 1 * fNrm a b 1 = 1 := by
  have hp := fLen_pos h
  have hs := fLen_sq a b
  simp only [fNrm, Matrix.cons_val_zero, Matrix.cons_val_one]
  field_simp
  nlinarith

/-- The side flux changes sign with the sides. -/
theorem sideFlux_swap (D : Disc) (second : Bool) (co cx : St) (go gx : Gr) {fo fx : St} (xo xx : Fin 2 → ℝ) {a b : Fin 2 → ℝ} (hab : a ≠ b)
    (hs : D.SwapOk fo fx) :
    D.sideFlux second cx co gx go fx fo xx xo b a = - D.sideFlux second co cx go gx fo fx xo xx a b := by
  obtain ⟨e1, e2⟩ := C22_opposite a b
  funext v
  simp only [sideFlux, Pi.neg_apply]
  rw [e1, e2, C52_opposite]
  have := hs (fNrm a b) (fNrm_unit hab) v
  change D.scheme.flux D.gas fx fo (fun d => - fNrm a b d) v = _ at this
  rw [this]
  split_ifs
  · simp only [Pi.neg_apply]; ring
  · ring

/-- A face flux is the side flux of its left cell. -/
theorem faceFlux_eq (D : Disc) (second : Bool) (u : ℕ → St) (g : ℕ → Gr) (uL uR ug : ℕ → St) (k : ℕ) :
    D.faceFlux second u g uL uR ug k = D.sideFlux second (u (D.G.face k).left) (D.G.ur u ug k) (g (D.G.face k).left)
      (if k < D.G.m.nbface then g (D.G.face k).left else g (D.G.face k).right) (uL k) (uR k) (D.G.xl k) (D.G.xr k)
      (D.G.m.coords (D.G.face k).n0) (D.G.m.coords (D.G.face k).n1) := rfl

/-- The accumulated fluxes of a cell are the sum of its side fluxes. -/
theorem fluxes_cell (h : D.G.Ok) {second : Bool} {u : ℕ → St} {g : ℕ → Gr} {uL uR ug : ℕ → St} {i : ℕ} (hi : i < D.G.m.nelem) {o : ℕ → Other}
    (ho : ∀ f, f < D.G.m.nnode i → Across D.G.m (i, f) (o f)) {fo fx : ℕ → St}
    (hf : ∀ f, f < D.G.m.nnode i → ∀ k, k < D.G.nface → Side D.G i f (o f) k →
      ((D.G.face k).left = i → uL k = fo f ∧ uR k = fx f) ∧ ((D.G.face k).left ≠ i → uR k = fo f ∧ uL k = fx f))
    (hsw : ∀ f, f < D.G.m.nnode i → ∀ k, k < D.G.nface → D.G.inner k → Side D.G i f (o f) k → (D.G.face k).left ≠ i → D.SwapOk (uR k) (uL k))
    (r : ℕ → St) :
    D.fluxes second u g uL uR ug r i = r i - ∑ f ∈ range (D.G.m.nnode i),
      D.sideFlux second (u i) ((o f).val D.G.m u ug) (g i) ((o f).own D.G.m g i) (fo f) (fx f) (D.G.rc i) ((o f).val D.G.m D.G.rc D.G.rcbp)
        (nodeA D.G.m i f) (nodeB D.G.m i f) := by
  unfold fluxes
  rw [assemble_eq, sub_eq_add_neg, ← sum_neg_distrib]
  congr 1
  have e1 : ∑ k ∈ range D.G.s.faces.length, contrib D.G.m.nelem (faceAt D.G.s.faces k) (D.faceFlux second u g uL uR ug k) i =
      ∑ k ∈ (range D.G.nface).filter (D.G.touches i), if (D.G.face k).left = i then - D.faceFlux second u g uL uR ug k
        else D.faceFlux second u g uL uR ug k := by
    rw [sum_filter]
    refine sum_congr rfl fun k hk => ?_
    obtain ⟨k1, k2, -⟩ := h.kind (mem_range.1 hk)
    unfold contrib Geo.touches
    change (if (D.G.face k).right = i ∧ i < D.G.m.nelem then _ else _) - (if (D.G.face k).left = i then _ else _) = _
    by_cases e1 : (D.G.face k).left = i
    · have e2 : ¬ (D.G.face k).right = i := fun e => k2 (by rw [e1, e])
      simp [e1, e2]
    · by_cases e2 : (D.G.face k).right = i
      · simp [e1, e2, hi]
      · simp [e1, e2]
  rw [e1]
  refine sum_sides h hi ho fun f hfn k hk hs => ?_
  obtain ⟨f1, f2⟩ := hf f hfn k hk hs
  rw [faceFlux_eq]
  rcases hs.left_or with ⟨hl, hn0, hn1⟩ | ⟨⟨j, hoj, hl, hj⟩, hr, hin, hn1, hn0⟩
  · obtain ⟨g1, g2⟩ := f1 hl
    rw [if_pos hl, g1, g2, hl, hn0, hn1]
    have e1 : D.G.ur u ug k = (o f).val D.G.m u ug := hs.right_val hl u ug
    have e2 : D.G.xr k = (o f).val D.G.m D.G.rc D.G.rcbp := hs.right_val hl D.G.rc D.G.rcbp
    have e3 := hs.right_own hl g
    have e4 : D.G.xl k = D.G.rc i := by unfold Geo.xl; rw [hl]
    rw [e1, e2, e3, e4]; rfl
  · have hne : (D.G.face k).left ≠ i := by rw [hl]; exact hj
    obtain ⟨g1, g2⟩ := f2 hne
    have hsk := hsw f hfn k hk hin hs hne
    rw [g1, g2] at hsk
    have hnb : ¬ k < D.G.m.nbface := by have := hin.1; omega
    have e1 : D.G.ur u ug k = u i := by unfold Geo.ur; rw [if_neg hnb, hr]
    have e2 : D.G.xr k = D.G.rc i := by unfold Geo.xr; rw [if_neg hnb, hr]
    have e4 : D.G.xl k = D.G.rc j := by unfold Geo.xl; rw [hl]
    rw [if_neg hne, if_neg hnb, g1, g2, e1, e2, e4, hl, hr, hn0, hn1, hoj]
    exact sideFlux_swap D second (u i) (u j) (g i) (g j) (D.G.rc i) (D.G.rc j) (h.nz (i, f) ⟨hi, hfn⟩) hsk

end Disc
end FV
end FVENS
