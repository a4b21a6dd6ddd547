import Verif.Par.Partition
import Verif.FV.Race
import Mathlib.Algebra.BigOperators.Intervals
import Mathlib.Data.Finset.Card

/-!
# Ghosted vectors on partitioned meshes (C74)

PETSc numbers the blocks of a distributed vector contiguously: rank 0's blocks, then rank 1's, and so on. The ghost
blocks of a vector are named by positions in that numbering. FVENS passes, as position of the ghost block of an
interface face, the number that the cell across the face has in the global mesh.
-/

namespace FVENS
namespace Par

open Msh

/-! ### Model -/

/-- Number of cells of a rank: the local size given to `VecCreateGhostBlock`, src/linalg/alinalg.cpp:23-24. -/
noncomputable def localSize (gm : Mesh) (s : FState) (dist : ℕ → ℕ) (r : ℕ) : ℕ :=
  match restrict gm s dist r with
  | .ok S => S.mesh.nelem
  | _ => 0

/-- First position owned by a rank, in PETSc's layout of a vector with given local sizes (`PetscLayoutSetUp`; outside
/repo, part of the trusted base). -/
noncomputable def offset (gm : Mesh) (s : FState) (dist : ℕ → ℕ) (r : ℕ) : ℕ := ∑ q ∈ Finset.range r, localSize gm s dist q

/-- The block at a position of a vector whose owned blocks on rank `q` are `loc q 0, loc q 1, …`; `n` ranks. -/
noncomputable def blockAt {V : Type*} (gm : Mesh) (s : FState) (dist : ℕ → ℕ) (n : ℕ) (loc : ℕ → ℕ → V) (p : ℕ) : Option V :=
  ((List.range n).find? fun q => offset gm s dist q ≤ p ∧ p < offset gm s dist (q + 1)).map
    fun q => loc q (p - offset gm s dist q)

/-- Ghost block `ic` of rank `r`, if it has one, after `VecGhostUpdateBegin/End(…, INSERT_VALUES, SCATTER_FORWARD)`: src/linalg/alinalg.cpp:17-29
with the positions of src/mesh/mesh.cpp:764-772. -/
noncomputable def ghostAfter {V : Type*} (gm : Mesh) (s : FState) (dist : ℕ → ℕ) (n : ℕ) (loc : ℕ → ℕ → V) (r ic : ℕ) : Option V :=
  match restrict gm s dist r with
  | .ok S => if ic < S.mesh.nconnface then blockAt gm s dist n loc (S.mesh.connface ic 3) else none
  | _ => none

/-! ### Specification -/

/-- The owned blocks of a distributed vector that represents the cell data `w`: rank `r`'s local cell `l` has the value of the global
cell it stands for. -/
def Represents {V : Type*} (gm : Mesh) (s : FState) (dist : ℕ → ℕ) (loc : ℕ → ℕ → V) (w : ℕ → V) : Prop :=
  ∀ r S, restrict gm s dist r = .ok S → ∀ l g : ℕ, S.cells[l]? = some g → loc r l = w g

/-- Position of a cell in the distributed vector: all cells of lower ranks come first, then the cells of its own rank with
smaller number. -/
def position (nelem : ℕ) (dist : ℕ → ℕ) (j : ℕ) : ℕ :=
  ((Finset.range nelem).filter fun c => dist c < dist j ∨ (dist c = dist j ∧ c < j)).card

/-! ### Positions -/

theorem position_inj {nelem : ℕ} {dist : ℕ → ℕ} {i j : ℕ} (hi : i < nelem) (hj : j < nelem)
    (h : position nelem dist i = position nelem dist j) : i = j := by
  have key : ∀ i j, i < nelem → dist i < dist j ∨ (dist i = dist j ∧ i < j) → position nelem dist i < position nelem dist j := by
    intro i j hi hij
    refine Finset.card_lt_card (Finset.ssubset_iff_of_subset ?_ |>.2 ⟨i, ?_, ?_⟩)
    · intro c hc
      rw [Finset.mem_filter] at hc ⊢
      exact ⟨hc.1, by omega⟩
    · rw [Finset.mem_filter, Finset.mem_range]; exact ⟨hi, hij⟩
    · rw [Finset.mem_filter]; omega
  by_contra hne
  rcases lt_trichotomy (dist i) (dist j) with h1 | h1 | h1
  · have := key i j hi (Or.inl h1); omega
  · rcases Nat.lt_or_gt_of_ne hne with h2 | h2
    · have := key i j hi (Or.inr ⟨h1, h2⟩); omega
    · have := key j i hj (Or.inr ⟨h1.symm, h2⟩); omega
  · have := key j i hj (Or.inl h1); omega

/-- Cells keep their number in the distributed vector exactly if the ranks are non-decreasing along the cell numbering. -/
theorem position_id_iff {nelem : ℕ} {dist : ℕ → ℕ} :
    (∀ j, j < nelem → position nelem dist j = j) ↔ ∀ i j, i < j → j < nelem → dist i ≤ dist j := by
  constructor
  · intro h i j hij hj
    by_contra hlt
    have h1 : position nelem dist j < position nelem dist i := by
      refine Finset.card_lt_card (Finset.ssubset_iff_of_subset ?_ |>.2 ⟨j, ?_, ?_⟩)
      · intro c hc
        rw [Finset.mem_filter] at hc ⊢
        exact ⟨hc.1, by omega⟩
      · rw [Finset.mem_filter, Finset.mem_range]; exact ⟨hj, by omega⟩
      · rw [Finset.mem_filter]; omega
    rw [h i (by omega), h j hj] at h1
    omega
  · intro h j hj
    have : (Finset.range nelem).filter (fun c => dist c < dist j ∨ (dist c = dist j ∧ c < j)) = Finset.range j := by
      ext c
      rw [Finset.mem_filter, Finset.mem_range, Finset.mem_range]
      constructor
      · rintro ⟨h1, h2⟩
        by_contra h3
        rcases Nat.lt_or_ge j c with h4 | h4
        · have := h j c h4 h1; omega
        · obtain rfl : c = j := by omega
          omega
      · intro hc
        have := h c j hc hj
        exact ⟨by omega, by omega⟩
    rw [position, this, Finset.card_range]

section part
variable {gm : Mesh} {s : FState} {dist : ℕ → ℕ}

/-- Number of cells of a rank, counted in the global mesh. -/
theorem localSize_eq (hc : Conforming gm) (hn : gm.nconnface = 0) (ht : gm.nbtag ≤ 4) (h : topological gm = .ok s) (r : ℕ) :
    localSize gm s dist r = ((Finset.range gm.nelem).filter fun c => dist c = r).card := by
  obtain ⟨S, hS, hsub, -⟩ := restrict_spec hc hn ht h dist r
  simp only [localSize, hS]
  have hnd : S.cells.Nodup := hsub.cellsAsc.imp (fun h => Nat.ne_of_lt h)
  have : (Finset.range gm.nelem).filter (fun c => dist c = r) = S.cells.toFinset := by
    ext c
    rw [Finset.mem_filter, Finset.mem_range, List.mem_toFinset, hsub.cells]
  rw [this, List.toFinset_card_of_nodup hnd, hsub.nelem]

theorem offset_eq (hc : Conforming gm) (hn : gm.nconnface = 0) (ht : gm.nbtag ≤ 4) (h : topological gm = .ok s) (r : ℕ) :
    offset gm s dist r = ((Finset.range gm.nelem).filter fun c => dist c < r).card := by
  induction r with
  | zero => simp [offset]
  | succ r ih =>
    rw [offset, Finset.sum_range_succ, ← offset, ih, localSize_eq hc hn ht h, ← Finset.card_union_of_disjoint]
    · congr 1
      ext c
      rw [Finset.mem_union, Finset.mem_filter, Finset.mem_filter, Finset.mem_filter]
      have : dist c < r + 1 ↔ dist c < r ∨ dist c = r := by omega
      rw [this, and_or_left]
    · rw [Finset.disjoint_filter]
      intro c _ h1; omega

theorem offset_mono (r q : ℕ) (hrq : r ≤ q) : offset gm s dist r ≤ offset gm s dist q :=
  Finset.sum_le_sum_of_subset_of_nonneg (Finset.range_subset_range.2 hrq) (fun _ _ _ => Nat.zero_le _)

/-- Local index of a cell of an ascending list: the number of smaller members. -/
theorem index_asc {L : List ℕ} (hL : L.Pairwise (· < ·)) {l g : ℕ} (hl : L[l]? = some g) :
    (L.toFinset.filter fun c => c < g).card = l := by
  obtain ⟨hlt, he⟩ := List.getElem?_eq_some_iff.1 hl
  have hnd : L.Nodup := hL.imp (fun h => Nat.ne_of_lt h)
  have : L.toFinset.filter (fun c => c < g) = (L.take l).toFinset := by
    ext c
    rw [Finset.mem_filter, List.mem_toFinset, List.mem_toFinset, List.mem_take_iff_getElem, List.mem_iff_getElem]
    rw [List.pairwise_iff_getElem] at hL
    constructor
    · rintro ⟨⟨k, hk, rfl⟩, hcg⟩
      refine ⟨k, ?_, rfl⟩
      by_contra hge
      rcases Nat.lt_or_ge l k with h1 | h1
      · have := hL l k hlt hk h1; omega
      · have : k = l := by omega
        subst this; omega
    · rintro ⟨k, hk, rfl⟩
      exact ⟨⟨k, by omega, rfl⟩, by rw [← he]; exact hL k l (by omega) hlt (by omega)⟩
  rw [this, List.toFinset_card_of_nodup (hnd.sublist (List.take_sublist _ _)), List.length_take, Nat.min_eq_left hlt.le]

/-- A cell of rank `r` with local index `l` has position `offset r + l`. -/
theorem position_eq (hc : Conforming gm) (hn : gm.nconnface = 0) (ht : gm.nbtag ≤ 4) (h : topological gm = .ok s)
    {r : ℕ} {S : Sub} (hS : restrict gm s dist r = .ok S) {l g : ℕ} (hl : S.cells[l]? = some g) :
    position gm.nelem dist g = offset gm s dist r + l := by
  obtain ⟨S', hS', hsub, -⟩ := restrict_spec hc hn ht h dist r
  rw [hS] at hS'; cases hS'
  have hg := (hsub.cells g).1 (List.mem_of_getElem? hl)
  rw [offset_eq hc hn ht h, ← index_asc hsub.cellsAsc hl, position, ← Finset.card_union_of_disjoint]
  · congr 1
    ext c
    rw [Finset.mem_union, Finset.mem_filter, Finset.mem_filter, Finset.mem_filter, List.mem_toFinset, hsub.cells, Finset.mem_range, hg.2]
    tauto
  · rw [Finset.disjoint_left]
    intro c h1 h2
    rw [Finset.mem_filter] at h1 h2
    rw [List.mem_toFinset, hsub.cells] at h2
    omega

/-- The block at the position of a cell is the cell's value. -/
theorem blockAt_position {V : Type*} (hc : Conforming gm) (hn : gm.nconnface = 0) (ht : gm.nbtag ≤ 4) (h : topological gm = .ok s)
    {n : ℕ} (hd : ∀ g, g < gm.nelem → dist g < n) {loc : ℕ → ℕ → V} {w : ℕ → V} (hw : Represents gm s dist loc w)
    {g : ℕ} (hg : g < gm.nelem) : blockAt gm s dist n loc (position gm.nelem dist g) = some (w g) := by
  obtain ⟨S, hS, hsub, -⟩ := restrict_spec hc hn ht h dist (dist g)
  obtain ⟨l, hlt, he⟩ := List.mem_iff_getElem.1 ((hsub.cells g).2 ⟨hg, rfl⟩)
  have hl : S.cells[l]? = some g := by rw [List.getElem?_eq_getElem hlt, he]
  have hsz : localSize gm s dist (dist g) = S.cells.length := by simp only [localSize, hS]; exact hsub.nelem
  rw [position_eq hc hn ht h hS hl, blockAt]
  have hin : offset gm s dist (dist g + 1) = offset gm s dist (dist g) + S.cells.length := by
    rw [offset, Finset.sum_range_succ, ← offset, hsz]
  have hf : (List.range n).find? (fun q => offset gm s dist q ≤ offset gm s dist (dist g) + l ∧
      offset gm s dist (dist g) + l < offset gm s dist (q + 1)) = some (dist g) := by
    rw [List.find?_range_eq_some]
    refine ⟨?_, hd g hg |> List.mem_range.2, ?_⟩
    · simp only [decide_eq_true_eq]; omega
    · intro q hq
      simp only [Bool.not_eq_true', decide_eq_false_iff_not, not_and, not_lt]
      intro _
      have := offset_mono (gm := gm) (s := s) (dist := dist) (q + 1) (dist g) (by omega)
      omega
  rw [hf, Option.map_some, Nat.add_sub_cancel_left, hw _ S hS l g hl]

/-- Every position below the number of cells is that of a cell. -/
theorem position_surj {p : ℕ} (hp : p < gm.nelem) : ∃ g, g < gm.nelem ∧ position gm.nelem dist g = p := by
  have hmaps : ∀ g ∈ Finset.range gm.nelem, position gm.nelem dist g ∈ Finset.range gm.nelem := by
    intro g hg
    rw [Finset.mem_range] at hg ⊢
    calc position gm.nelem dist g < (Finset.range gm.nelem).card := by
          refine Finset.card_lt_card (Finset.ssubset_iff_of_subset (Finset.filter_subset _ _) |>.2 ⟨g, Finset.mem_range.2 hg, ?_⟩)
          rw [Finset.mem_filter]; omega
      _ = gm.nelem := Finset.card_range _
  have := Finset.surj_on_of_inj_on_of_card_le (s := Finset.range gm.nelem) (t := Finset.range gm.nelem)
    (fun g _ => position gm.nelem dist g) hmaps
    (fun i j hi hj he => position_inj (Finset.mem_range.1 hi) (Finset.mem_range.1 hj) he) le_rfl p (Finset.mem_range.2 hp)
  obtain ⟨g, hg, he⟩ := this
  exact ⟨g, Finset.mem_range.1 hg, he.symm⟩

/-! ### C74 -/

/-- C74: what a ghost block really holds. For every conforming mesh, every assignment of cells to ranks, every rank and every interface
face of it, the ghost block of the face holds the value of the cell whose *position* is the number of the
cell across the face. -/
theorem C74_holds {V : Type*} (hc : Conforming gm) (hn : gm.nconnface = 0) (ht : gm.nbtag ≤ 4) (h : topological gm = .ok s)
    {n : ℕ} (hd : ∀ g, g < gm.nelem → dist g < n) {loc : ℕ → ℕ → V} {w : ℕ → V} (hw : Represents gm s dist loc w)
    {r : ℕ} {S : Sub} (hS : restrict gm s dist r = .ok S) {ic : ℕ} (hic : ic < S.mesh.nconnface)
    {l f g j k : ℕ} (hkey : connKey S.mesh ic = (l, f)) (hl : S.cells[l]? = some g) (hgl : Glued gm (g, f) (j, k)) :
    ∃ j', j' < gm.nelem ∧ position gm.nelem dist j' = j ∧ ghostAfter gm s dist n loc r ic = some (w j') := by
  obtain ⟨S', hS', -, hcon, -⟩ := restrict_spec hc hn ht h dist r
  rw [hS] at hS'; cases hS'
  obtain ⟨g', j', k', r1, r2, -, -, r5, -⟩ := hcon.row ic hic
  rw [show S.mesh.connface ic 0 = l from congrArg Prod.fst hkey, hl, Option.some.injEq] at r1
  subst r1
  rw [show S.mesh.connface ic 1 = f from congrArg Prod.snd hkey] at r2
  have := hc.manifold _ _ _ hgl r2
  rw [Prod.mk.injEq] at this
  obtain ⟨rfl, rfl⟩ := this
  obtain ⟨p, hp, he⟩ := position_surj (gm := gm) (dist := dist) hgl.2.1.1
  refine ⟨p, hp, he, ?_⟩
  simp only [ghostAfter, hS, r5, if_pos hic]
  have he : position gm.nelem dist p = j := he
  rw [← he]
  exact blockAt_position hc hn ht h hd hw hp

/-- C74, exact condition: the ghost block of an interface face holds the value of the cell across the face, for all cell data, if
and only if that cell's position in the distributed vector equals its number in the global mesh. -/
theorem C74_iff (hc : Conforming gm) (hn : gm.nconnface = 0) (ht : gm.nbtag ≤ 4) (h : topological gm = .ok s)
    {n : ℕ} (hd : ∀ g, g < gm.nelem → dist g < n)
    {r : ℕ} {S : Sub} (hS : restrict gm s dist r = .ok S) {ic : ℕ} (hic : ic < S.mesh.nconnface)
    {l f g j k : ℕ} (hkey : connKey S.mesh ic = (l, f)) (hl : S.cells[l]? = some g) (hgl : Glued gm (g, f) (j, k)) :
    (∀ (loc : ℕ → ℕ → ℝ) (w : ℕ → ℝ), Represents gm s dist loc w → ghostAfter gm s dist n loc r ic = some (w j)) ↔
      position gm.nelem dist j = j := by
  constructor
  · intro hall
    let loc : ℕ → ℕ → ℝ := fun r l => match restrict gm s dist r with
      | .ok S => (S.cells[l]?.getD 0 : ℕ)
      | _ => 0
    have hw : Represents gm s dist loc (fun g => (g : ℝ)) := by
      intro r S hS l g hl
      simp only [loc, hS, hl, Option.getD_some]
    obtain ⟨j', h1, h2, h3⟩ := C74_holds hc hn ht h hd hw hS hic hkey hl hgl
    rw [hall loc _ hw, Option.some.injEq, Nat.cast_inj] at h3
    rw [h3]; exact h3 ▸ h2
  · intro hp loc w hw
    obtain ⟨j', h1, h2, h3⟩ := C74_holds hc hn ht h hd hw hS hic hkey hl hgl
    rw [h3, position_inj h1 hgl.2.1.1 (h2.trans hp.symm)]

/-- C74 for partitions whose ranks do not decrease along the cell numbering. Missing for the full claim: all other partitions, for which
it fails for some cell (`C74_refuted`). -/
theorem C74_partial {V : Type*} (hc : Conforming gm) (hn : gm.nconnface = 0) (ht : gm.nbtag ≤ 4) (h : topological gm = .ok s)
    {n : ℕ} (hd : ∀ g, g < gm.nelem → dist g < n) (hmono : ∀ i j, i < j → j < gm.nelem → dist i ≤ dist j)
    {loc : ℕ → ℕ → V} {w : ℕ → V} (hw : Represents gm s dist loc w)
    {r : ℕ} {S : Sub} (hS : restrict gm s dist r = .ok S) {ic : ℕ} (hic : ic < S.mesh.nconnface)
    {l f g j k : ℕ} (hkey : connKey S.mesh ic = (l, f)) (hl : S.cells[l]? = some g) (hgl : Glued gm (g, f) (j, k)) :
    ghostAfter gm s dist n loc r ic = some (w j) := by
  obtain ⟨j', h1, h2, h3⟩ := C74_holds hc hn ht h hd hw hS hic hkey hl hgl
  rw [h3, position_inj h1 hgl.2.1.1 (h2.trans (position_id_iff.2 hmono j hgl.2.1.1).symm)]

/-- C74 for the trivial partitioner, src/mesh/meshpartitioning.cpp:15-22, 354-367. -/
theorem C74_trivial {V : Type*} (hc : Conforming gm) (hn : gm.nconnface = 0) (ht : gm.nbtag ≤ 4) (h : topological gm = .ok s)
    {n : ℕ} (hr : 0 < n) (hd : trivialPartition gm.nelem n = .ok dist)
    {loc : ℕ → ℕ → V} {w : ℕ → V} (hw : Represents gm s dist loc w)
    {r : ℕ} {S : Sub} (hS : restrict gm s dist r = .ok S) {ic : ℕ} (hic : ic < S.mesh.nconnface)
    {l f g j k : ℕ} (hkey : connKey S.mesh ic = (l, f)) (hl : S.cells[l]? = some g) (hgl : Glued gm (g, f) (j, k)) :
    ghostAfter gm s dist n loc r ic = some (w j) := by
  have hv := fun i hi => trivial_values hr hd (i := i) hi
  refine C74_partial hc hn ht h (fun g hg => ?_) (fun i j hij hj => ?_) hw hS hic hkey hl hgl
  · rw [(hv g hg).2]; omega
  · rw [(hv i (by omega)).2, (hv j hj).2]
    have : i / (gm.nelem / n) ≤ j / (gm.nelem / n) := Nat.div_le_div_right hij.le
    omega

/-! Examples: the square cut by its diagonals, on two ranks. -/

theorem cross_conforming : Conforming FV.Geo.cross := (by decide +kernel : Check FV.Geo.cross).conforming

theorem cross_glued01 : Glued FV.Geo.cross (0, 1) (1, 2) :=
  ⟨⟨by decide +kernel, by decide +kernel⟩, ⟨by decide +kernel, by decide +kernel⟩, by decide, by decide +kernel⟩

/-- The centre point is on no rank's boundary. -/
theorem cross_inner (dist : ℕ → ℕ) (r : ℕ) : ¬ PtOnB FV.Geo.cross dist r 4 := by
  rintro ⟨k, ⟨hk, -⟩, hp⟩
  have : ∀ k < FV.Geo.cross.nbface, 4 ≠ FV.Geo.cross.bface k 0 ∧ 4 ≠ FV.Geo.cross.bface k 1 := by decide +kernel
  rcases hp with hp | hp
  · exact (this k hk).1 hp
  · exact (this k hk).2 hp

set_option synthInstance.maxSize 1000 in
/-- Every assignment of the four triangles to ranks registers all interface faces. -/
theorem cross_registered {s : FState} (h : topological FV.Geo.cross = .ok s) (dist : ℕ → ℕ) {g f j k : ℕ}
    (hgl : Glued FV.Geo.cross (g, f) (j, k)) (hne : dist j ≠ dist g) :
    ∃ S l ic, restrict FV.Geo.cross s dist (dist g) = .ok S ∧ S.cells[l]? = some g ∧ ic < S.mesh.nconnface ∧ connKey S.mesh ic = (l, f) := by
  obtain ⟨S, hS, hsub, -, hreg⟩ := restrict_spec cross_conforming rfl (by decide +kernel) h dist (dist g)
  obtain ⟨l, hlt, he⟩ := List.mem_iff_getElem.1 ((hsub.cells g).2 ⟨hgl.1.1, rfl⟩)
  have hl : S.cells[l]? = some g := by rw [List.getElem?_eq_getElem hlt, he]
  have hin : ∀ g < 4, ∀ f < 3, ∀ j < 4, ∀ k < 3, g ≠ j → edge FV.Geo.cross (g, f) = edge FV.Geo.cross (j, k) →
      (4 = FV.Geo.cross.inpoel g f ∨ 4 = FV.Geo.cross.inpoel g ((f + 1) % 3)) := by decide +kernel
  obtain ⟨ic, h1, h2⟩ := (hreg l f g hl).2 ⟨⟨j, k, hgl, hne⟩, 4,
    mem_edge.2 (hin g hgl.1.1 f hgl.1.2 j hgl.2.1.1 k hgl.2.1.2 hgl.2.2.1 hgl.2.2.2), cross_inner dist _⟩
  exact ⟨S, l, ic, hS, hl, h1, h2⟩

/-- Cells 0, 1 on rank 0 and 2, 3 on rank 1: the ghost block of the face between cells 1 and 2 holds the value of cell 2. -/
example : ∃ s, topological FV.Geo.cross = .ok s ∧ ∃ S l ic, restrict FV.Geo.cross s (fun i => i / 2) 0 = .ok S ∧ S.cells[l]? = some 1 ∧
    ic < S.mesh.nconnface ∧ connKey S.mesh ic = (l, 1) ∧
    ∀ (loc : ℕ → ℕ → ℝ) (w : ℕ → ℝ), Represents FV.Geo.cross s (fun i => i / 2) loc w →
      ghostAfter FV.Geo.cross s (fun i => i / 2) 2 loc 0 ic = some (w 2) := by
  obtain ⟨s, hs, -⟩ := FV.Geo.cross_topological
  have hgl : Glued FV.Geo.cross (1, 1) (2, 2) :=
    ⟨⟨by decide +kernel, by decide +kernel⟩, ⟨by decide +kernel, by decide +kernel⟩, by decide, by decide +kernel⟩
  obtain ⟨S, l, ic, h1, h2, h3, h4⟩ := cross_registered hs (fun i => i / 2) hgl (by decide)
  have hne : FV.Geo.cross.nelem = 4 := by decide +kernel
  exact ⟨s, hs, S, l, ic, h1, h2, h3, h4, fun loc w hw => C74_partial cross_conforming rfl (by decide +kernel) hs
    (fun g hg => by show g / 2 < 2; omega) (fun i j h _ => Nat.div_le_div_right h.le) hw h1 h3 h4 h2 hgl⟩

/-- C74 fails for partitions not sorted by rank. Of the square's four triangles, let 0 and 2 be on rank 0 and 1 and 3 on rank 1.
The ghost block of the face between cells 0 and 1 on rank 0 then holds the value of cell 2, which is rank 0's own. -/
theorem C74_refuted : ∃ s, Conforming FV.Geo.cross ∧ topological FV.Geo.cross = .ok s ∧ Glued FV.Geo.cross (0, 1) (1, 2) ∧
    ∃ S l ic, restrict FV.Geo.cross s (fun i => i % 2) 0 = .ok S ∧ S.cells[l]? = some 0 ∧ ic < S.mesh.nconnface ∧
      connKey S.mesh ic = (l, 1) ∧
      ∀ {V : Type} (loc : ℕ → ℕ → V) (w : ℕ → V), Represents FV.Geo.cross s (fun i => i % 2) loc w →
        ghostAfter FV.Geo.cross s (fun i => i % 2) 2 loc 0 ic = some (w 2) := by
  obtain ⟨s, hs, -⟩ := FV.Geo.cross_topological
  obtain ⟨S, l, ic, h1, h2, h3, h4⟩ := cross_registered hs (fun i => i % 2) cross_glued01 (by decide)
  have hne : FV.Geo.cross.nelem = 4 := by decide +kernel
  refine ⟨s, cross_conforming, hs, cross_glued01, S, l, ic, h1, h2, h3, h4, fun {V} loc w hw => ?_⟩
  obtain ⟨j', e1, e2, e3⟩ := C74_holds cross_conforming rfl (by decide +kernel) hs (n := 2)
    (fun g _ => Nat.mod_lt _ (by decide)) hw h1 h3 h4 h2 cross_glued01
  have h2 : position FV.Geo.cross.nelem (fun i => i % 2) 2 = 1 := by rw [hne]; decide
  rw [e3, position_inj e1 (by omega) (e2.trans h2.symm)]

end part
end Par
end FVENS
