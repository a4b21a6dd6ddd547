import Verif.Par.Distributed
import Verif.FV.CopyJac

/-!
# Jacobian matrix on several ranks (C82)

Each rank adds the blocks of its faces, naming rows and columns by global cell numbers. PETSc sends entries of rows owned by other ranks to their
owners and adds them up (`MatAssemblyBegin/End`; outside /repo). The result is compared with the matrix of one process that holds the whole mesh.
-/

namespace FVENS
namespace Par

open Msh FV Flux Finset

/-! ### Model -/

/-- Row and column numbers used by a rank, src/spatial/aspatial.cpp:267-268, 283-286, 316-318: global cell numbers. -/
def rankCol (S : Sub) : ℕ → Option ℕ := numbering S.mesh true fun l => S.cells.getD l 0

/-- Row and column numbers used by a single process. -/
def oneCol (gm : Mesh) : ℕ → Option ℕ := numbering gm false id

/-- `n` ranks have assembled: rank `r` contributed the entries `Ar r`, on `nt r` threads; the assembled matrix is the sum of the contributions. -/
def AssembledOn (P : Settings) (gm : Mesh) (s : FState) (dist : ℕ → ℕ) (n : ℕ) (J : St → St → V2 → FJ) (loc : ℕ → ℕ → St) (nt : ℕ → ℕ)
    (S : ℕ → Sub) (s' : ℕ → FState) (Ar : ℕ → ℕ × ℕ → Blk (Fin 4)) (A : ℕ × ℕ → Blk (Fin 4)) : Prop :=
  (∀ r, r < n → (P.rank gm s dist n r (S r) (s' r)).AssembleFlow J (rankCol (S r)) (rankArray gm s dist n loc r (S r)) (nt r) (fun _ => 0) (Ar r)) ∧
    ∀ x, A x = ∑ r ∈ range n, Ar r x

/-- Block row `p` of the product of a matrix with a distributed vector: PETSc multiplies columns with the blocks at equal positions. -/
noncomputable def matMult (gm : Mesh) (s : FState) (dist : ℕ → ℕ) (n : ℕ) (A : ℕ × ℕ → Blk (Fin 4)) (loc : ℕ → ℕ → St) (p : ℕ) : St :=
  fun v => ∑ q ∈ range gm.nelem, ∑ c, A (p, q) v c * ((blockAt gm s dist n loc q).getD 0) c

section part
variable {gm : Mesh} {s : FState} {dist : ℕ → ℕ}

theorem rankCol_row {S : Sub} {i : ℕ} : rankCol S i = some (rowCell S i) := by
  unfold rankCol numbering rowCell
  split_ifs <;> first | rfl | simp_all

theorem oneCol_row {i : ℕ} (hi : i < gm.nelem) : oneCol gm i = some i := by
  unfold oneCol numbering
  rw [if_pos hi]; rfl

/-- The numbers a rank uses tell its rows apart. -/
theorem rankCol_numbering (hc : Conforming gm) (hn : gm.nconnface = 0) (ht : gm.nbtag ≤ 4) (h : topological gm = .ok s) {r : ℕ} {S : Sub}
    (hS : restrict gm s dist r = .ok S) {G : Geo} (hG : G.Ok) (hm : G.m = S.mesh) : IsNumbering G (rankCol S) := by
  obtain ⟨S', hS', hsub, hcon, -⟩ := restrict_spec hc hn ht h dist r
  rw [hS] at hS'; cases hS'
  have hget : ∀ i, i < S.mesh.nelem → S.cells[i]? = some (S.cells.getD i 0) := fun i hi => by
    rw [List.getD_eq_getElem?_getD, List.getElem?_eq_getElem (by rw [← hsub.nelem]; exact hi)]; rfl
  unfold rankCol
  rw [← hm]
  refine numbering_isNumbering hG true _ fun _ => ⟨fun i j hi hj e => ?_, fun i c hi hic e => ?_⟩
  · rw [hm] at hi hj
    have := hget i hi
    rw [e] at this
    exact hsub.cell_inj this (hget j hj)
  · rw [hm] at hi hic e
    obtain ⟨g, j, k, r1, r2, r3, -, r5, -⟩ := hcon.row c hic
    have h1 := ((hsub.cells g).1 (List.mem_of_getElem? r1)).2
    have h2 := ((hsub.cells _).1 (List.mem_of_getElem? (hget i hi))).2
    rw [e, r5] at h2
    exact r3 (h2.trans h1.symm)

/-- C82: whatever the assignment of cells to ranks, a rank adds only to rows of its own cells. -/
theorem C82_own_rows (hc : Conforming gm) (hn : gm.nconnface = 0) (ht : gm.nbtag ≤ 4) (h : topological gm = .ok s) (hz : NoZeroFace gm)
    (hall : AllRegistered gm s dist) (P : Settings) {n r : ℕ} {S : Sub} {s' : FState} (hS : restrict gm s dist r = .ok S) (hs' : topological S.mesh = .ok s')
    {J : St → St → V2 → FJ} {u : ℕ → St} {nt : ℕ} {A : ℕ × ℕ → Blk (Fin 4)}
    (hA : (P.rank gm s dist n r S s').AssembleFlow J (rankCol S) u nt (fun _ => 0) A) {gi : ℕ} (hgi : dist gi ≠ r) (gc : ℕ) : A (gi, gc) = 0 := by
  obtain ⟨S', hS', hsub, -, -⟩ := restrict_spec hc hn ht h dist r
  rw [hS] at hS'; cases hS'
  have hok : (P.rank gm s dist n r S s').G.Ok := rank_ok hc hn ht h hz hall P hS hs'
  rw [Disc.assembleFlow_eq hok hA, zero_add]
  refine Disc.jac_other_row hok fun i hi e => ?_
  obtain ⟨g, hg, -⟩ := hsub.cell (show i < S.mesh.nelem from hi)
  rw [rankCol_row, Option.some.injEq, rowCell_own hsub.nelem hg] at e
  rw [e] at hg
  exact hgi ((hsub.cells gi).1 (List.mem_of_getElem? hg)).2

/-- C82: for every conforming mesh, every assignment of cells to `n` ranks that is non-decreasing along the cell numbering and registers all
interface faces, all settings and all states at which the Jacobian routine treats the sides of interior faces alike: under any schedule of threads on any rank, every block
of the distributed matrix is that of a single process. Missing for the full claim: the other assignments (`C82_refuted`) and states (C83). -/
theorem C82_blocks_partial (hc : Conforming gm) (hn : gm.nconnface = 0) (ht : gm.nbtag ≤ 4) (h : topological gm = .ok s)
    (hz : NoZeroFace gm) (hall : AllRegistered gm s dist) {n : ℕ} (hd : ∀ g, g < gm.nelem → dist g < n)
    (hmono : ∀ i j, i < j → j < gm.nelem → dist i ≤ dist j) (P : Settings) {J : St → St → V2 → FJ} {w : ℕ → St}
    (hJ : ∀ i j f, i < gm.nelem → j < gm.nelem → f < gm.nnode i → Across gm (i, f) (.cell j) →
      Mirror J (w i) (w j) (fNrm (nodeA gm i f) (nodeB gm i f)))
    {loc : ℕ → ℕ → St} (hl : Represents gm s dist loc w) {S : ℕ → Sub} {s' : ℕ → FState} (hS : ∀ r, restrict gm s dist r = .ok (S r))
    (hs' : ∀ r, topological (S r).mesh = .ok (s' r)) {nt : ℕ → ℕ} {Ar : ℕ → ℕ × ℕ → Blk (Fin 4)} {A : ℕ × ℕ → Blk (Fin 4)}
    (hA : AssembledOn P gm s dist n J loc nt S s' Ar A) {nt1 : ℕ} {A1 : ℕ × ℕ → Blk (Fin 4)}
    (hA1 : (P.disc gm s 0).AssembleFlow J (oneCol gm) w nt1 (fun _ => 0) A1) {gi : ℕ} (hgi : gi < gm.nelem) (gc : ℕ) : A (gi, gc) = A1 (gi, gc) := by
  have hD : (P.disc gm s 0).G.Ok := ⟨hc, hz, h⟩
  have hr := hd gi hgi
  obtain ⟨S', hS', hsub, hcon, -⟩ := restrict_spec hc hn ht h dist (dist gi)
  rw [hS] at hS'; cases hS'
  rw [hA.2, sum_eq_single (dist gi) (fun r hr hne => C82_own_rows hc hn ht h hz hall P (hS r) (hs' r) (hA.1 r (mem_range.1 hr)) hne.symm gc)
    (fun hni => absurd (mem_range.2 hr) hni)]
  have hpos : ∀ ic, ic < (S (dist gi)).mesh.nconnface → position gm.nelem dist ((S (dist gi)).mesh.connface ic 3) = (S (dist gi)).mesh.connface ic 3 := fun ic hic => by
    obtain ⟨g, j, k, r1, r2, -, -, r5, -⟩ := hcon.row ic hic
    rw [r5]; exact position_id_iff.2 hmono j r2.2.1.1
  obtain ⟨hok, τ, hcp⟩ := rank_copy hc hn ht h hz hall hd P (hS (dist gi)) hpos (hs' (dist gi))
  have hu : ∀ i, i < (S (dist gi)).mesh.nelem + (S (dist gi)).mesh.nconnface → rankArray gm s dist n loc (dist gi) (S (dist gi)) i = w (rowCell (S (dist gi)) i) :=
    fun i hi => rankArray_row hc hn ht h hd hl (hS (dist gi)) hpos hi
  rw [Disc.assembleFlow_eq hok (hA.1 _ hr), Disc.assembleFlow_eq hD hA1, zero_add, zero_add]
  obtain ⟨l, hl', hlx⟩ := hsub.of_cell hgi rfl
  have hlt : l < (S (dist gi)).mesh.nelem := by rw [hsub.nelem]; exact (List.getElem?_eq_some_iff.1 hlx).1
  refine Disc.jac_copy hD hok hcp (numbering_isNumbering hD false id fun h => by cases h) (rankCol_numbering hc hn ht h (hS _) hok rfl)
    (fun i hi => ?_) hu hJ hlt (by rw [rankCol_row, rowCell_own hsub.nelem hlx]) gc
  rw [rankCol_row]
  refine (oneCol_row ?_).symm
  have hi : i < (S (dist gi)).mesh.nelem + (S (dist gi)).mesh.nconnface := hi
  by_cases hlt : i < (S (dist gi)).mesh.nelem
  · exact hcp.geo.mesh.cell i hlt
  · obtain ⟨g, j, k, r1, r2, -, -, r5, -⟩ := hcon.row (i - (S (dist gi)).mesh.nelem) (by omega)
    rw [rowCell, if_neg hlt, r5]; exact r2.2.1.1

/-- C82: so the product with a vector distributed the same way is, in each cell, that of the single process. -/
theorem C82_product_partial (hc : Conforming gm) (hn : gm.nconnface = 0) (ht : gm.nbtag ≤ 4) (h : topological gm = .ok s)
    (hz : NoZeroFace gm) (hall : AllRegistered gm s dist) {n : ℕ} (hd : ∀ g, g < gm.nelem → dist g < n)
    (hmono : ∀ i j, i < j → j < gm.nelem → dist i ≤ dist j) (P : Settings) {J : St → St → V2 → FJ} {w : ℕ → St}
    (hJ : ∀ i j f, i < gm.nelem → j < gm.nelem → f < gm.nnode i → Across gm (i, f) (.cell j) →
      Mirror J (w i) (w j) (fNrm (nodeA gm i f) (nodeB gm i f)))
    {loc : ℕ → ℕ → St} (hl : Represents gm s dist loc w) {S : ℕ → Sub} {s' : ℕ → FState} (hS : ∀ r, restrict gm s dist r = .ok (S r))
    (hs' : ∀ r, topological (S r).mesh = .ok (s' r)) {nt : ℕ → ℕ} {Ar : ℕ → ℕ × ℕ → Blk (Fin 4)} {A : ℕ × ℕ → Blk (Fin 4)}
    (hA : AssembledOn P gm s dist n J loc nt S s' Ar A) {nt1 : ℕ} {A1 : ℕ × ℕ → Blk (Fin 4)}
    (hA1 : (P.disc gm s 0).AssembleFlow J (oneCol gm) w nt1 (fun _ => 0) A1) {x : ℕ → St} {lx : ℕ → ℕ → St} (hx : Represents gm s dist lx x)
    {gi r l : ℕ} (hgi : gi < gm.nelem) (hrl : (S r).cells[l]? = some gi) (v : Fin 4) :
    matMult gm s dist n A lx (offset gm s dist r + l) v = ∑ q ∈ range gm.nelem, ∑ c, A1 (gi, q) v c * x q c := by
  have hp : offset gm s dist r + l = gi := by
    have e := position_eq hc hn ht h (hS r) hrl
    rw [← e]; exact position_id_iff.2 hmono gi hgi
  rw [hp]
  unfold matMult
  refine sum_congr rfl fun q hq => sum_congr rfl fun c _ => ?_
  have hq := mem_range.1 hq
  have hb := blockAt_position hc hn ht h hd hx hq
  rw [position_id_iff.2 hmono q hq] at hb
  rw [C82_blocks_partial hc hn ht h hz hall hd hmono P hJ hl hS hs' hA hA1 hgi q, hb, Option.getD_some]

end part

/-! ### Cases -/

/-- Ranks do assemble something, for any number of threads. -/
theorem assembledOn_exists (P : Settings) (gm : Mesh) (s : FState) (dist : ℕ → ℕ) (n : ℕ) (J : St → St → V2 → FJ) (loc : ℕ → ℕ → St) {nt : ℕ → ℕ}
    (hnt : ∀ r, 0 < nt r) (S : ℕ → Sub) (s' : ℕ → FState) : ∃ Ar A, AssembledOn P gm s dist n J loc nt S s' Ar A := by
  choose Ar hAr using fun r => assembleJac_exists (G := (P.rank gm s dist n r (S r) (s' r)).G) (gcol := rankCol (S r))
    (Lb := fun k => (P.rank gm s dist n r (S r) (s' r)).blkBoundary J ((P.rank gm s dist n r (S r) (s' r)).bjac k) k
      (rankArray gm s dist n loc r (S r) ((P.rank gm s dist n r (S r) (s' r)).G.face k).left))
    (L := fun k => ((P.rank gm s dist n r (S r) (s' r)).blkInterior J k (rankArray gm s dist n loc r (S r) ((P.rank gm s dist n r (S r) (s' r)).G.face k).left)
      (rankArray gm s dist n loc r (S r) ((P.rank gm s dist n r (S r) (s' r)).G.face k).right)).dfdl)
    (U := fun k => ((P.rank gm s dist n r (S r) (s' r)).blkInterior J k (rankArray gm s dist n loc r (S r) ((P.rank gm s dist n r (S r) (s' r)).G.face k).left)
      (rankArray gm s dist n loc r (S r) ((P.rank gm s dist n r (S r) (s' r)).G.face k).right)).dfdr) (hnt r) (fun _ => 0)
  exact ⟨Ar, fun x => ∑ r ∈ range n, Ar r x, fun r _ => hAr r, fun _ => rfl⟩

/-- Square cut by its diagonals, cells 0, 1 on rank 0 and 2, 3 on rank 1, any states, local Lax-Friedrichs Jacobian; each rank uses three
threads, the single process two. -/
example (c : St) (w : ℕ → St) : ∃ s, topological FV.Geo.cross = .ok s ∧ ∃ (S : ℕ → Sub) (s' : ℕ → FState) (Ar : ℕ → ℕ × ℕ → Blk (Fin 4)) (A : ℕ × ℕ → Blk (Fin 4)),
    AssembledOn (air1 c) FV.Geo.cross s (fun i => i / 2) 2 (llfJac air) (split FV.Geo.cross s (fun i => i / 2) w) (fun _ => 3) S s' Ar A ∧
    ∀ A1, ((air1 c).disc FV.Geo.cross s 0).AssembleFlow (llfJac air) (oneCol FV.Geo.cross) w 2 (fun _ => 0) A1 →
      ∀ gi gc, gi < 4 → A (gi, gc) = A1 (gi, gc) := by
  obtain ⟨s, hs, -⟩ := FV.Geo.cross_topological
  have hne : FV.Geo.cross.nelem = 4 := by decide +kernel
  choose S hS _ using fun r => restrict_spec cross_conforming rfl (by decide +kernel) hs (fun i => i / 2) r
  choose s' hs' using fun r => sub_topological cross_conforming rfl (by decide +kernel) hs (hS r)
  obtain ⟨Ar, A, hA⟩ := assembledOn_exists (air1 c) FV.Geo.cross s (fun i => i / 2) 2 (llfJac air) (split FV.Geo.cross s (fun i => i / 2) w)
    (nt := fun _ => 3) (fun _ => by decide) S s'
  exact ⟨s, hs, S, s', Ar, A, hA, fun A1 hA1 gi gc hgi => C82_blocks_partial cross_conforming rfl (by decide +kernel) hs FV.Geo.cross_nozero (cross_all hs _)
    (fun g hg => by show g / 2 < 2; omega) (fun i j h _ => Nat.div_le_div_right h.le) (air1 c) (fun _ _ _ _ _ _ _ => C83_llf air _ _ _)
    (split_represents _ _ _ w) hS hs' hA hA1 (by omega) gc⟩

theorem cross_glued03 : Glued FV.Geo.cross (0, 2) (3, 1) :=
  ⟨⟨by decide +kernel, by decide +kernel⟩, ⟨by decide +kernel, by decide +kernel⟩, by decide, by decide +kernel⟩

theorem cross_apart (f f' : ℕ) : ¬ Glued FV.Geo.cross (0, f) (2, f') := by
  rintro ⟨h1, h2, -, h4⟩
  have : ∀ f < 3, ∀ f' < 3, edge FV.Geo.cross (0, f) ≠ edge FV.Geo.cross (2, f') := by decide +kernel
  exact this f h1.2 f' h2.2 h4

/-- C82 fails for other assignments of cells to ranks. The square's triangles 0 and 2 are on rank 0, 1 and 3 on rank 1; the gas is uniform and at rest,
the Jacobian is the local Lax-Friedrichs one. The vector `x` is one in the density of cell 1 and zero elsewhere. The single process finds that it changes the mass
balance of cell 0, a neighbour of cell 1; the distributed product is zero in that cell's position. -/
theorem C82_refuted : ∃ s, Conforming FV.Geo.cross ∧ topological FV.Geo.cross = .ok s ∧ AllRegistered FV.Geo.cross s (fun i => i % 2) ∧
    ∃ (P : Settings) (w x : ℕ → St) (loc lx : ℕ → ℕ → St), (∀ i, Adm P.gas (w i)) ∧ Represents FV.Geo.cross s (fun i => i % 2) loc w ∧
      Represents FV.Geo.cross s (fun i => i % 2) lx x ∧ (P.disc FV.Geo.cross s 0).BcJOk ∧
      ∃ (S : ℕ → Sub) (s' : ℕ → FState), (∀ r, restrict FV.Geo.cross s (fun i => i % 2) r = .ok (S r)) ∧ (∀ r, topological (S r).mesh = .ok (s' r)) ∧
        (S 0).cells[0]? = some 0 ∧
        (∀ nt Ar A, AssembledOn P FV.Geo.cross s (fun i => i % 2) 2 (llfJac P.gas) loc nt S s' Ar A →
          matMult FV.Geo.cross s (fun i => i % 2) 2 A lx (offset FV.Geo.cross s (fun i => i % 2) 0 + 0) 0 = 0) ∧
        ∀ nt1 A1, (P.disc FV.Geo.cross s 0).AssembleFlow (llfJac P.gas) (oneCol FV.Geo.cross) w nt1 (fun _ => 0) A1 →
          ∑ q ∈ range FV.Geo.cross.nelem, ∑ c, A1 (0, q) 0 c * x q c < 0 := by
  obtain ⟨s, hs, hf⟩ := FV.Geo.cross_topological
  have hne : FV.Geo.cross.nelem = 4 := by decide +kernel
  have ht : FV.Geo.cross.nbtag ≤ 4 := by decide +kernel
  let x : ℕ → St := fun i => if i = 1 then Pi.single 0 1 else 0
  have hrep := split_represents FV.Geo.cross s (fun i => i % 2) (fun _ => rest 1)
  have hrepx := split_represents FV.Geo.cross s (fun i => i % 2) x
  have hd : ∀ g, g < FV.Geo.cross.nelem → (fun i => i % 2) g < 2 := fun g _ => Nat.mod_lt _ (by decide)
  choose S hS hsub hcon _ using fun r => restrict_spec cross_conforming rfl ht hs (fun i => i % 2) r
  choose s' hs' using fun r => sub_topological cross_conforming rfl ht hs (hS r)
  obtain ⟨l, hlt, hl⟩ := (hsub 0).of_cell (g := 0) (by omega) rfl
  have hp0 := position_eq cross_conforming rfl ht hs (hS 0) hl
  have ho0 : offset FV.Geo.cross s (fun i => i % 2) 0 = 0 := rfl
  rw [hne, show position 4 (fun i => i % 2) 0 = 0 by decide, ho0] at hp0
  obtain rfl : l = 0 := by omega
  have hok : ((air1 (rest 1)).disc FV.Geo.cross s 0).G.Ok := ⟨cross_conforming, FV.Geo.cross_nozero, hs⟩
  refine ⟨s, cross_conforming, hs, cross_all hs _, air1 (rest 1), fun _ => rest 1, x, _, _, fun _ => rest_adm one_pos, hrep, hrepx,
    fun k _ => ⟨_, rfl, rfl⟩, S, s', hS, hs', hl, fun nt Ar A hA => ?_, fun nt1 A1 hA1 => ?_⟩
  · have hb : ∀ g, g < 4 → blockAt FV.Geo.cross s (fun i => i % 2) 2 (split FV.Geo.cross s (fun i => i % 2) x) (position 4 (fun i => i % 2) g) = some (x g) :=
      fun g hg => hne ▸ blockAt_position cross_conforming rfl ht hs hd hrepx (hne ▸ hg)
    have b0 := hb 0 (by decide)
    have b1 := hb 2 (by decide)
    have b2 := hb 1 (by decide)
    have b3 := hb 3 (by decide)
    rw [show position 4 (fun i => i % 2) 0 = 0 by decide] at b0
    rw [show position 4 (fun i => i % 2) 2 = 1 by decide] at b1
    rw [show position 4 (fun i => i % 2) 1 = 2 by decide] at b2
    rw [show position 4 (fun i => i % 2) 3 = 3 by decide] at b3
    have hA02 : A (0, 2) = 0 := by
      rw [hA.2, sum_range_succ, sum_range_one,
        C82_own_rows cross_conforming rfl ht hs FV.Geo.cross_nozero (cross_all hs _) _ (hS 1) (hs' 1) (hA.1 1 (by decide)) (gi := 0) (by decide), add_zero]
      have hok' : ((air1 (rest 1)).rank FV.Geo.cross s (fun i => i % 2) 2 0 (S 0) (s' 0)).G.Ok :=
        rank_ok cross_conforming rfl ht hs FV.Geo.cross_nozero (cross_all hs _) _ (hS 0) (hs' 0)
      have h0 : 0 < ((air1 (rest 1)).rank FV.Geo.cross s (fun i => i % 2) 2 0 (S 0) (s' 0)).G.m.nelem := by
        show 0 < (S 0).mesh.nelem
        rw [(hsub 0).nelem]; exact (List.getElem?_eq_some_iff.1 hl).1
      have hr0 : rowCell (S 0) 0 = 0 := rowCell_own (hsub 0).nelem hl
      obtain ⟨o, ho⟩ := Geo.exists_sides hok' h0
      rw [Disc.assembleFlow_eq hok' (hA.1 0 (by decide)), zero_add, Disc.jac_cell hok' (rankCol_numbering cross_conforming rfl ht hs (hS 0) hok' rfl) h0
        (rankCol_row.trans (by rw [hr0])) ho (fun _ _ _ _ => C83_llf _ _ _ _)]
      refine sum_eq_zero fun f hfn => ?_
      have hof := ho f (mem_range.1 hfn)
      have hi0 : ¬ rankCol (S 0) 0 = some 2 := by rw [rankCol_row, hr0]; decide
      generalize o f = of at hof
      cases of with
      | bnd k => simp only [Disc.sideRow, if_neg hi0]
      | cell j =>
        obtain ⟨g, hg⟩ := hof
        obtain ⟨gj, hgj, -⟩ := (hsub 0).cell (show j < (S 0).mesh.nelem from hg.2.1.1)
        have hj : ¬ rankCol (S 0) j = some 2 := by
          rw [rankCol_row, rowCell_own (hsub 0).nelem hgj, Option.some.injEq]
          rintro rfl
          exact cross_apart f g (((hsub 0).glued cross_conforming.lin hl hgj).1 hg)
        simp only [Disc.sideRow, if_neg hi0, if_neg hj, add_zero]
      | conn ic =>
        obtain ⟨g, j, k, r1, r2, r3, -, r5, -⟩ := (hcon 0).row ic hof.1
        have hj : ¬ rankCol (S 0) ((S 0).mesh.nelem + ic) = some 2 := by
          rw [rankCol_row, rowCell, if_neg (by omega), show (S 0).mesh.nelem + ic - (S 0).mesh.nelem = ic by omega, r5, Option.some.injEq]
          rintro rfl
          have : g % 2 = 0 := (((hsub 0).cells g).1 (List.mem_of_getElem? r1)).2
          have r3 : 2 % 2 ≠ g % 2 := r3
          omega
        have hj' : ¬ rankCol (S 0) (((air1 (rest 1)).rank FV.Geo.cross s (fun i => i % 2) 2 0 (S 0) (s' 0)).G.m.nelem + ic) = some 2 := hj
        simp only [Disc.sideRow, if_neg hi0, if_neg hj', add_zero]
    rw [ho0]
    unfold matMult
    rw [hne]
    simp [sum_range_succ, b0, b1, b2, b3, x, hA02]
  · have h1 : ∑ q ∈ range FV.Geo.cross.nelem, ∑ c, A1 (0, q) 0 c * x q c = A1 (0, 1) 0 0 := by
      rw [hne]
      simp [sum_range_succ, x, Fin.sum_univ_four]
    rw [h1, Disc.assembleFlow_eq hok hA1]
    let o : ℕ → Other := fun f => if f = 0 then .bnd 0 else if f = 1 then .cell 1 else .cell 3
    have hnn : FV.Geo.cross.nnode 0 = 3 := by decide +kernel
    have ho : ∀ f, f < ((air1 (rest 1)).disc FV.Geo.cross s 0).G.m.nnode 0 → Across ((air1 (rest 1)).disc FV.Geo.cross s 0).G.m (0, f) (o f) := by
      intro f hf
      have hf : f < FV.Geo.cross.nnode 0 := hf
      rw [hnn] at hf
      obtain rfl | rfl | rfl : f = 0 ∨ f = 1 ∨ f = 2 := by omega
      · exact (by decide +kernel : (0 : ℕ) < FV.Geo.cross.nbface ∧ FV.Geo.cross.bface 0 0 = FV.Geo.cross.inpoel 0 0 ∧
          FV.Geo.cross.bface 0 1 = FV.Geo.cross.inpoel 0 ((0 + 1) % FV.Geo.cross.nnode 0))
      · exact ⟨2, cross_glued01⟩
      · exact ⟨1, cross_glued03⟩
    have c0 : oneCol FV.Geo.cross 0 = some 0 := oneCol_row (by omega)
    have c1 : oneCol FV.Geo.cross 1 = some 1 := oneCol_row (by omega)
    have c3 : oneCol FV.Geo.cross 3 = some 3 := oneCol_row (by omega)
    have hN : IsNumbering ((air1 (rest 1)).disc FV.Geo.cross s 0).G (oneCol FV.Geo.cross) := numbering_isNumbering hok false id fun h => by cases h
    rw [Disc.jac_cell hok hN (show 0 < FV.Geo.cross.nelem by omega) c0 ho
      (fun _ _ _ _ => C83_llf _ _ _ _), show ((air1 (rest 1)).disc FV.Geo.cross s 0).G.m.nnode 0 = 3 from hnn]
    have hlen : 0 < fLen (nodeA FV.Geo.cross 0 1) (nodeB FV.Geo.cross 0 1) := fLen_pos (FV.Geo.cross_nozero (0, 1) cross_glued01.1)
    have hv : ∀ n : V2, Gas.varsVn (rest 1) n = 0 := fun n => by simp [Gas.varsVn, Gas.vel, rest, dot]
    have hcs : 0 < cSide air (rest 1) := by
      unfold cSide Gas.soundSpeed
      refine Real.sqrt_pos.2 ?_
      rw [varsP_eq (rest_adm one_pos).rho']
      have h1 := (rest_adm one_pos).p
      have h2 : (0 : ℝ) < rest 1 0 := one_pos
      have h3 : 0 < air.g := by norm_num [air]
      positivity
    have hd0 : ∀ n : V2, air.dEulerFlux (rest 1) n 0 0 = 0 := fun n => rfl
    have e : ∀ n : V2, (llfJac air (rest 1) (rest 1) n).dfdr 0 0 = -(1 / 2) * cSide air (rest 1) := fun n => by
      simp only [llfJac, llfEigJ_eq, llfEig, hv, hd0, abs_zero, zero_add, if_true]; split_ifs <;> ring
    have key : (∑ f ∈ range 3, ((air1 (rest 1)).disc FV.Geo.cross s 0).sideRow (llfJac air) (oneCol FV.Geo.cross) (fun _ => rest 1) 0 f 1 (o f)) 0 0 =
        (llfJac air (rest 1) (rest 1) (fNrm (nodeA FV.Geo.cross 0 1) (nodeB FV.Geo.cross 0 1))).dfdr 0 0 * fLen (nodeA FV.Geo.cross 0 1) (nodeB FV.Geo.cross 0 1) := by
      have hvis : ((air1 (rest 1)).disc FV.Geo.cross s 0).viscous = false := rfl
      have hm : ((air1 (rest 1)).disc FV.Geo.cross s 0).G.m = FV.Geo.cross := rfl
      simp [sum_range_succ, o, Disc.sideRow, c0, c1, c3, Disc.sideBlk, hvis, hm]
    have := mul_pos hcs hlen
    rw [Pi.add_apply, Pi.add_apply, show (air1 (rest 1)).gas = air from rfl, key, e]
    simp only [Pi.zero_apply]
    linarith

end Par
end FVENS
