import Verif.Mesh.Part

/-!
# Extraction of subdomains (C37) and partition-interface faces (C38)
-/

namespace FVENS
namespace Msh

/-! ### Model -/

/-- Local arrays while `extractInpoel` runs. -/
structure CellState where
  n : ℕ
  l2g : ℕ → ℕ
  inpoel : ℕ → ℕ → ℕ
  vol : ℕ → ℕ → ℕ
  nnode : ℕ → ℕ
  nfael : ℕ → ℕ

/-- `extractInpoel`, src/mesh/meshpartitioning.cpp:160-181. Rows are copied whole. -/
def extractCells (gm : Mesh) (dist : ℕ → ℕ) (rank : ℕ) : CellState :=
  forLt gm.nelem ⟨0, fun _ => 0, fun _ _ => 0, fun _ _ => 0, fun _ => 0, fun _ => 0⟩ fun iel s =>
    if dist iel = rank then
      ⟨s.n + 1, upd s.l2g s.n iel, upd s.inpoel s.n (gm.inpoel iel), upd s.vol s.n (gm.volRegions iel),
        upd s.nnode s.n (gm.nnode iel), upd s.nfael s.n (gm.nfael iel)⟩
    else s

/-- Collection of the needed points, src/mesh/meshpartitioning.cpp:189-193. -/
def collectPoints (c : CellState) : List ℕ :=
  forLt c.n [] fun iel l => forLt (c.nnode iel) l fun j l => l ++ [c.inpoel iel j]

/-- `std::unique` with `erase`, src/mesh/meshpartitioning.cpp:197-198: one element of every run of equal ones. -/
def uniq : List ℕ → List ℕ
  | [] => []
  | [a] => [a]
  | a :: b :: l => if a = b then uniq (b :: l) else a :: uniq (b :: l)

/-- The sorted list of global indices of local points, src/mesh/meshpartitioning.cpp:189-198. -/
def localPoints (c : CellState) : List ℕ := uniq (sortNat (collectPoints c))

/-- The map from global to local point indices, src/mesh/meshpartitioning.cpp:204-207. -/
def pointMap (pts : List ℕ) : ℕ → Option ℕ :=
  forLt pts.length (fun _ => none) fun i mp => upd mp (pts.getD i 0) (some i)

/-- Copy of the coordinates, src/mesh/meshpartitioning.cpp:209-219. The loop always advances `globpointer`; once
`locpointer` has reached the end nothing more is written. -/
noncomputable def copyCoords (gm : Mesh) (pts : List ℕ) : ℕ → Fin 2 → ℝ :=
  (forLt gm.npoin ((fun _ _ => (0 : ℝ)), 0) fun g (s : (ℕ → Fin 2 → ℝ) × ℕ) =>
    if s.2 < pts.length ∧ g = pts.getD s.2 0 then (upd s.1 s.2 (gm.coords g), s.2 + 1) else s).1

/-- Conversion of `inpoel`, src/mesh/meshpartitioning.cpp:67-69; `map::at` throws for a missing key. -/
def convertInpoel (c : CellState) (g2l : ℕ → Option ℕ) : BC.Res (ℕ → ℕ → ℕ) :=
  if (List.range c.n).all fun i => (List.range (c.nnode i)).all fun j => (g2l (c.inpoel i j)).isSome then
    .ok fun i j => if i < c.n ∧ j < c.nnode i then (g2l (c.inpoel i j)).getD 0 else c.inpoel i j
  else .throws

/-- One local boundary face: nodes and tags. -/
structure BRow where
  n0 : ℕ
  n1 : ℕ
  tags : ℕ → ℕ

/-- Loop of `extractbfaces`, src/mesh/meshpartitioning.cpp:233-268; `none` if `map::at` throws. The faces of the
global mesh begin with the boundary faces (`phyBFaceStart = 0`, src/mesh/mesh.cpp:752). -/
def extractBfaces (gm : Mesh) (s : FState) (dist : ℕ → ℕ) (rank : ℕ) (g2l : ℕ → Option ℕ) : Option (List BRow) :=
  forLt gm.nbface (some []) fun iface o => o.bind fun l =>
    match s.faces[iface]? with
    | none => none
    | some F =>
      if dist F.left = rank then
        (g2l (gm.bface iface 0)).bind fun a => (g2l (gm.bface iface 1)).bind fun b =>
          some (l ++ [⟨a, b, gm.btag iface⟩])
      else some l

/-- `markLocalPhysicalBoundaryPoints`, src/mesh/meshpartitioning.cpp:277-290. -/
def markBounPoints (lm : Mesh) : ℕ → Bool :=
  forLt lm.nbface (fun _ => false) fun i b => forLt 2 b fun k b => upd b (lm.bface i k) true

/-- `getConnectivityFaceEIndices`, src/mesh/meshpartitioning.cpp:292-331, as one list in the order in which
src/mesh/meshpartitioning.cpp:99-104 traverses it. -/
def connFaces (lm : Mesh) (e : ℕ → ℕ → Option ℕ) (isB : ℕ → Bool) : List (ℕ × ℕ) :=
  forLt lm.nelem [] fun iel l => forLt (lm.nfael iel) l fun f l =>
    if e iel f = none ∧ (isB (faceNodeI lm iel f 0) = false ∨ isB (faceNodeI lm iel f 1) = false) then l ++ [(iel, f)]
    else l

/-- The face of the global cell whose points are all among those of the local face,
src/mesh/meshpartitioning.cpp:120-143. -/
def matchFace (gm lm : Mesh) (pts : List ℕ) (glind iel f : ℕ) : Option ℕ :=
  (List.range (gm.nfael glind)).find? fun jgf =>
    (List.range 2).all fun k => (List.range 2).any fun k' =>
      decide (pts.getD (faceNodeI lm iel f k') 0 = faceNodeI gm glind jgf k)

/-- One row of `connface`, src/mesh/meshpartitioning.cpp:105-154. Reading `elemdist` at a negative or too large index
is undefined behaviour. -/
def connRow (gm lm : Mesh) (s : FState) (dist : ℕ → ℕ) (cells pts : List ℕ) (x : ℕ × ℕ) : BC.Res (ℕ → ℕ) :=
  let glind := cells.getD x.1 0
  match matchFace gm lm pts glind x.1 x.2 with
  | none => .throws
  | some jgf =>
    match s.esuel glind jgf with
    | none => .ub
    | some j =>
      if j < gm.nelem then
        .ok fun c => if c = 0 then x.1 else if c = 1 then x.2 else if c = 2 then dist j else if c = 3 then j
          else (s.elemface glind x.2).getD 0
      else .ub

/-- All rows of `connface`, src/mesh/meshpartitioning.cpp:98-154. -/
def connRows (gm lm : Mesh) (s : FState) (dist : ℕ → ℕ) (cells pts : List ℕ) : List (ℕ × ℕ) → BC.Res (List (ℕ → ℕ))
  | [] => .ok []
  | x :: l =>
    match connRow gm lm s dist cells pts x with
    | .throws => .throws
    | .ub => .ub
    | .ok r =>
      match connRows gm lm s dist cells pts l with
      | .throws => .throws
      | .ub => .ub
      | .ok rs => .ok (r :: rs)

/-- The subdomain mesh with the local-to-global maps (`globalElemIndex`, `pointLoc2Glob`). -/
structure Sub where
  mesh : Mesh
  cells : List ℕ
  points : List ℕ

/-- The local mesh before interface faces are added. -/
noncomputable def subBase (gm : Mesh) (c : CellState) (pts : List ℕ) (inp : ℕ → ℕ → ℕ) (bf : List BRow) : Mesh where
  npoin := pts.length
  nelem := c.n
  nbface := bf.length
  nconnface := 0
  nbtag := gm.nbtag
  ndtag := gm.ndtag
  nnode := c.nnode
  nfael := c.nfael
  inpoel := inp
  bface := fun i k => match bf[i]? with
    | none => 0
    | some r => if k = 0 then r.n0 else r.n1
  btag := fun i k => match bf[i]? with
    | none => 0
    | some r => r.tags k
  volRegions := c.vol
  connface := fun _ _ => 0
  coords := copyCoords gm pts

/-- `restrictMeshToPartitions`, src/mesh/meshpartitioning.cpp:24-158, for the given rank. `s` is the topology of the global
mesh. The record for one boundary face has room for four tags (src/mesh/meshpartitioning.cpp:230, 260-261). -/
noncomputable def restrict (gm : Mesh) (s : FState) (dist : ℕ → ℕ) (rank : ℕ) : BC.Res Sub :=
  let c := extractCells gm dist rank
  let pts := localPoints c
  let g2l := pointMap pts
  match convertInpoel c g2l with
  | .throws => .throws
  | .ub => .ub
  | .ok inp =>
    match extractBfaces gm s dist rank g2l with
    | none => .throws
    | some bf =>
      if 4 < gm.nbtag ∧ bf ≠ [] then .ub
      else
        let lm := subBase gm c pts inp bf
        let cells := (List.range c.n).map c.l2g
        match connRows gm lm s dist cells pts (connFaces lm (esuel lm (esup lm)) (markBounPoints lm)) with
        | .throws => .throws
        | .ub => .ub
        | .ok rows =>
          .ok ⟨{ lm with nconnface := rows.length, connface := fun i => rows.getD i (fun _ => 0) }, cells, pts⟩

/-! ### Cells -/

/-- The cells of a rank in ascending order. -/
def cellsOf (gm : Mesh) (dist : ℕ → ℕ) (rank : ℕ) : List ℕ := (List.range gm.nelem).filter fun i => dist i = rank

theorem extractCells_eq (gm : Mesh) (dist : ℕ → ℕ) (rank : ℕ) :
    let c := extractCells gm dist rank
    let L := cellsOf gm dist rank
    c.n = L.length ∧ Holds c.l2g L ∧ Holds c.inpoel (L.map gm.inpoel) ∧ Holds c.vol (L.map gm.volRegions) ∧
      Holds c.nnode (L.map gm.nnode) ∧ Holds c.nfael (L.map gm.nfael) := by
  unfold extractCells cellsOf
  induction gm.nelem with
  | zero => simp [forLt_zero, Holds]
  | succ n ih =>
    simp only [forLt_succ, List.range_succ, List.filter_append]
    simp only at ih
    generalize (forLt n _ _ : CellState) = c at ih ⊢
    obtain ⟨h1, h2, h3, h4, h5, h6⟩ := ih
    by_cases h : dist n = rank
    · rw [if_pos h]
      simp only [h, decide_true, List.filter_cons_of_pos, List.filter_nil, List.map_append, List.map_cons, List.map_nil]
      refine ⟨by simp [h1], ?_, ?_, ?_, ?_, ?_⟩
      · rw [h1]; exact h2.push _
      · have := h3.push (gm.inpoel n); rw [List.length_map] at this; rw [h1]; exact this
      · have := h4.push (gm.volRegions n); rw [List.length_map] at this; rw [h1]; exact this
      · have := h5.push (gm.nnode n); rw [List.length_map] at this; rw [h1]; exact this
      · have := h6.push (gm.nfael n); rw [List.length_map] at this; rw [h1]; exact this
    · rw [if_neg h]
      simp [h]
      exact ⟨h1, h2, h3, h4, h5, h6⟩

/-! ### Points -/

theorem mem_uniq (l : List ℕ) (x : ℕ) : x ∈ uniq l ↔ x ∈ l := by
  induction l using uniq.induct with
  | case1 => simp [uniq]
  | case2 a => simp [uniq]
  | case3 b l ih => rw [uniq, if_pos rfl, ih]; simp
  | case4 a b l h ih => rw [uniq, if_neg h, List.mem_cons, ih, List.mem_cons (a := x) (b := a)]

theorem uniq_pairwise (l : List ℕ) (h : l.Pairwise (· ≤ ·)) : (uniq l).Pairwise (· < ·) := by
  induction l using uniq.induct with
  | case1 => simp [uniq]
  | case2 a => simp [uniq]
  | case3 b l ih => rw [uniq, if_pos rfl]; exact ih h.of_cons
  | case4 a b l e ih =>
    rw [uniq, if_neg e, List.pairwise_cons]
    refine ⟨fun x hx => ?_, ih h.of_cons⟩
    rw [mem_uniq] at hx
    rw [List.pairwise_cons] at h
    have hab := h.1 b (by simp)
    rcases List.mem_cons.1 hx with rfl | hx
    · omega
    · have := (List.pairwise_cons.1 h.2).1 x hx; omega

theorem localPoints_pairwise (c : CellState) : (localPoints c).Pairwise (· < ·) :=
  uniq_pairwise _ (List.pairwise_insertionSort _ _)

theorem mem_localPoints (c : CellState) (p : ℕ) :
    p ∈ localPoints c ↔ ∃ i j, i < c.n ∧ j < c.nnode i ∧ c.inpoel i j = p := by
  unfold localPoints sortNat
  rw [mem_uniq, List.mem_insertionSort]
  unfold collectPoints
  rw [forLt_forLt]
  have : ∀ (P : List (ℕ × ℕ)) (l : List ℕ), p ∈ P.foldl (fun l x => l ++ [c.inpoel x.1 x.2]) l ↔
      p ∈ l ∨ ∃ x ∈ P, c.inpoel x.1 x.2 = p := by
    intro P
    induction P with
    | nil => simp
    | cons x P ih => intro l; rw [List.foldl_cons, ih]; simp [or_assoc, eq_comm]
  rw [this]
  simp only [List.not_mem_nil, false_or, mem_pairs]
  constructor
  · rintro ⟨x, ⟨h1, h2⟩, h3⟩; exact ⟨x.1, x.2, h1, h2, h3⟩
  · rintro ⟨i, j, h1, h2, h3⟩; exact ⟨(i, j), ⟨h1, h2⟩, h3⟩

theorem pointMap_eq {pts : List ℕ} (hp : pts.Pairwise (· < ·)) (p i : ℕ) :
    pointMap pts p = some i ↔ pts[i]? = some p := by
  unfold pointMap
  have key : ∀ n, n ≤ pts.length →
      ((forLt n (fun _ => none) fun i mp => upd mp (pts.getD i 0) (some i) : ℕ → Option ℕ) p = some i ↔
        i < n ∧ pts[i]? = some p) := by
    intro n
    induction n with
    | zero => intro _; simp [forLt_zero]
    | succ n ih =>
      intro hn
      have hg : pts.getD n 0 = pts[n] := by simp [List.getD, List.getElem?_eq_getElem (show n < pts.length by omega)]
      rw [forLt_succ, hg]
      have hinj : ∀ a (ha : a < n) , pts[a]'(by omega) < pts[n] := fun a ha =>
        List.pairwise_iff_getElem.1 hp a n (by omega) (by omega) ha
      by_cases h : p = pts[n]
      · subst h
        rw [upd_same, Option.some.injEq]
        constructor
        · rintro rfl; exact ⟨by omega, List.getElem?_eq_getElem _⟩
        · rintro ⟨h1, h2⟩
          rcases Nat.lt_succ_iff_lt_or_eq.1 h1 with h | h
          · rw [List.getElem?_eq_getElem (by omega), Option.some.injEq] at h2
            have := hinj i h; omega
          · exact h.symm
      · rw [upd_ne _ _ h, ih (by omega)]
        constructor
        · rintro ⟨h1, h2⟩; exact ⟨by omega, h2⟩
        · rintro ⟨h1, h2⟩
          refine ⟨?_, h2⟩
          rcases Nat.lt_succ_iff_lt_or_eq.1 h1 with h' | h'
          · exact h'
          · subst h'; rw [List.getElem?_eq_getElem (by omega), Option.some.injEq] at h2; exact absurd h2.symm h
  rw [key pts.length le_rfl]
  constructor
  · exact fun h => h.2
  · intro h; exact ⟨(List.getElem?_eq_some_iff.1 h).1, h⟩

theorem copyCoords_eq (gm : Mesh) {pts : List ℕ} (hp : pts.Pairwise (· < ·)) (hlt : ∀ p ∈ pts, p < gm.npoin) {i p : ℕ}
    (h : pts[i]? = some p) : copyCoords gm pts i = gm.coords p := by
  unfold copyCoords
  have key : ∀ n, n ≤ gm.npoin →
      let s : (ℕ → Fin 2 → ℝ) × ℕ := forLt n ((fun _ _ => (0 : ℝ)), 0) fun g s =>
        if s.2 < pts.length ∧ g = pts.getD s.2 0 then (upd s.1 s.2 (gm.coords g), s.2 + 1) else s
      s.2 ≤ pts.length ∧ (∀ a (ha : a < pts.length), a < s.2 ↔ pts[a] < n) ∧
        ∀ a (ha : a < pts.length), a < s.2 → s.1 a = gm.coords pts[a] := by
    intro n
    induction n with
    | zero => intro _; simp [forLt_zero]
    | succ n ih =>
      intro hn
      have ih := ih (by omega)
      simp only [forLt_succ]
      simp only at ih
      generalize (forLt n _ _ : (ℕ → Fin 2 → ℝ) × ℕ) = s at ih ⊢
      obtain ⟨h1, h2, h3⟩ := ih
      have hmono : ∀ a b (ha : a < pts.length) (hb : b < pts.length), a < b → pts[a] < pts[b] := fun a b ha hb hab =>
        List.pairwise_iff_getElem.1 hp a b ha hb hab
      by_cases hc : s.2 < pts.length ∧ n = pts.getD s.2 0
      · rw [if_pos hc]
        obtain ⟨hc1, hc2⟩ := hc
        have hg : n = pts[s.2] := by simpa [List.getD, List.getElem?_eq_getElem hc1] using hc2
        refine ⟨hc1, fun a ha => ?_, fun a ha hlt => ?_⟩
        · constructor
          · intro hlt'
            rcases Nat.lt_succ_iff_lt_or_eq.1 hlt' with h' | h'
            · have := (h2 a ha).1 h'; omega
            · subst h'; omega
          · intro hlt'
            by_contra hge
            have := hmono s.2 a hc1 ha (by simp at hge; omega)
            omega
        · by_cases ha' : a = s.2
          · subst ha'; simp only [upd_same]; exact congrArg gm.coords hg
          · simp only at hlt ⊢
            rw [upd_ne _ _ ha']; exact h3 a ha (by omega)
      · rw [if_neg hc]
        refine ⟨h1, fun a ha => ?_, h3⟩
        rw [h2 a ha]
        constructor
        · intro h'; omega
        · intro h'
          by_contra hge
          have hn' : pts[a] = n := by omega
          have has : a = s.2 := by
            rcases lt_trichotomy a s.2 with h'' | h'' | h''
            · have := (h2 a ha).1 h''; omega
            · exact h''
            · have hs : s.2 < pts.length := by omega
              have h4 := hmono s.2 a hs ha h''
              have := (h2 s.2 hs).2 (by omega); omega
          subst has
          exact hc ⟨ha, by simp [List.getD, List.getElem?_eq_getElem ha, hn']⟩
  obtain ⟨hi, rfl⟩ := List.getElem?_eq_some_iff.1 h
  obtain ⟨_, h2, h3⟩ := key gm.npoin le_rfl
  exact h3 i hi ((h2 i hi).2 (hlt _ (List.getElem_mem hi)))

/-! ### C37 -/

/-- Boundary face `k` belongs to a cell of the rank. -/
def BfOn (gm : Mesh) (dist : ℕ → ℕ) (rank k : ℕ) : Prop :=
  k < gm.nbface ∧ ∃ x, IsFace gm x ∧ edge gm x = s(gm.bface k 0, gm.bface k 1) ∧ dist x.1 = rank

/-- What a subdomain must be, in terms of the global mesh: the cells of the rank in ascending order with node
counts and region tags; exactly the points of these cells in ascending order with their coordinates; cell vertices are
the same points; and exactly the boundary faces of its cells, in order, with their points and tags. -/
structure IsSub (gm : Mesh) (dist : ℕ → ℕ) (rank : ℕ) (S : Sub) : Prop where
  cellsAsc : S.cells.Pairwise (· < ·)
  cells : ∀ i, i ∈ S.cells ↔ i < gm.nelem ∧ dist i = rank
  nelem : S.mesh.nelem = S.cells.length
  pointsAsc : S.points.Pairwise (· < ·)
  points : ∀ p, p ∈ S.points ↔ ∃ i j, i < gm.nelem ∧ dist i = rank ∧ j < gm.nnode i ∧ gm.inpoel i j = p
  npoin : S.mesh.npoin = S.points.length
  nnode : ∀ l g, S.cells[l]? = some g → S.mesh.nnode l = gm.nnode g ∧ S.mesh.nfael l = gm.nfael g
  region : ∀ l g, S.cells[l]? = some g → ∀ k, S.mesh.volRegions l k = gm.volRegions g k
  inpoel : ∀ l g, S.cells[l]? = some g → ∀ j, j < gm.nnode g → S.points[S.mesh.inpoel l j]? = some (gm.inpoel g j)
  coords : ∀ q p, S.points[q]? = some p → S.mesh.coords q = gm.coords p
  tagCounts : S.mesh.nbtag = gm.nbtag ∧ S.mesh.ndtag = gm.ndtag
  bfaces : ∃ B : List ℕ, B.Pairwise (· < ·) ∧ (∀ k, k ∈ B ↔ BfOn gm dist rank k) ∧ S.mesh.nbface = B.length ∧
    ∀ l k, B[l]? = some k → S.points[S.mesh.bface l 0]? = some (gm.bface k 0) ∧
      S.points[S.mesh.bface l 1]? = some (gm.bface k 1) ∧ ∀ t, S.mesh.btag l t = gm.btag k t

theorem mem_edge {m : Mesh} {x : ℕ × ℕ} {p : ℕ} :
    p ∈ edge m x ↔ p = m.inpoel x.1 x.2 ∨ p = m.inpoel x.1 ((x.2 + 1) % m.nnode x.1) := Sym2.mem_iff

theorem hasBoth_of_edge {m : Mesh} (hm : Lin m) {x : ℕ × ℕ} (hx : IsFace m x) {p q : ℕ} (h : edge m x = s(p, q)) :
    HasBoth m p q x.1 := by
  have hp : p ∈ edge m x := by rw [h]; simp
  have hq : q ∈ edge m x := by rw [h]; simp
  have hn := hm.next_lt hx.1 x.2
  rw [mem_edge] at hp hq
  refine ⟨?_, ?_⟩
  · rcases hp with rfl | rfl
    · exact ⟨hx.1, _, hx.2, rfl⟩
    · exact ⟨hx.1, _, hn, rfl⟩
  · rcases hq with rfl | rfl
    · exact ⟨hx.1, _, hx.2, rfl⟩
    · exact ⟨hx.1, _, hn, rfl⟩

theorem left_iff {gm : Mesh} (hc : Conforming gm) {s : FState} (h : topological gm = .ok s) {k : ℕ} (hk : k < gm.nbface)
    (dist : ℕ → ℕ) (rank : ℕ) : ∃ F, s.faces[k]? = some F ∧ (dist F.left = rank ↔ BfOn gm dist rank k) := by
  obtain ⟨e, he, hF⟩ := (C27_ranges hc.lin hc.bfOk h).2.1 k hk
  refine ⟨_, hF, ?_⟩
  constructor
  · intro hd
    obtain ⟨x, hx, h0, h1⟩ := hc.bf k hk
    have hxe : edge gm x = s(gm.bface k 0, gm.bface k 1) := by rw [h0, h1]; rfl
    have := (he x.1).1 (hasBoth_of_edge hc.lin hx hxe)
    exact ⟨hk, x, hx, hxe, by rw [this]; exact hd⟩
  · rintro ⟨_, x, hx, hxe, hd⟩
    have := (he x.1).1 (hasBoth_of_edge hc.lin hx hxe)
    rw [← this]; exact hd

theorem extractBfaces_eq {gm : Mesh} (hc : Conforming gm) {s : FState} (h : topological gm = .ok s) (dist : ℕ → ℕ) (rank : ℕ)
    {pts : List ℕ} (hp : pts.Pairwise (· < ·)) (hpts : ∀ p, p ∈ pts ↔ ∃ i j, i < gm.nelem ∧ dist i = rank ∧ j < gm.nnode i ∧ gm.inpoel i j = p) :
    ∃ (bf : List BRow) (B : List ℕ), extractBfaces gm s dist rank (pointMap pts) = some bf ∧ B.Pairwise (· < ·) ∧ (∀ k, k ∈ B ↔ BfOn gm dist rank k) ∧
      bf.length = B.length ∧ ∀ l k : ℕ, B[l]? = some k → ∃ r : BRow, bf[l]? = some r ∧ pts[r.n0]? = some (gm.bface k 0) ∧
        pts[r.n1]? = some (gm.bface k 1) ∧ r.tags = gm.btag k := by
  unfold extractBfaces
  have key : ∀ n, n ≤ gm.nbface → ∃ (bf : List BRow) (B : List ℕ), (forLt n (some []) fun iface o => o.bind fun l =>
    match s.faces[iface]? with
    | none => none
    | some F =>
      if dist F.left = rank then
        (pointMap pts (gm.bface iface 0)).bind fun a => (pointMap pts (gm.bface iface 1)).bind fun b =>
          some (l ++ [⟨a, b, gm.btag iface⟩])
      else some l : Option (List BRow)) = some bf ∧ B.Pairwise (· < ·) ∧ (∀ k, k ∈ B ↔ k < n ∧ BfOn gm dist rank k) ∧
      bf.length = B.length ∧ ∀ l k : ℕ, B[l]? = some k → ∃ r : BRow, bf[l]? = some r ∧ pts[r.n0]? = some (gm.bface k 0) ∧
        pts[r.n1]? = some (gm.bface k 1) ∧ r.tags = gm.btag k := by
    intro n
    induction n with
    | zero => intro _; exact ⟨[], [], rfl, by simp, by simp, rfl, by simp⟩
    | succ n ih =>
      intro hn
      obtain ⟨bf, B, h1, h2, h3, h4, h5⟩ := ih (by omega)
      rw [forLt_succ, h1]
      obtain ⟨F, hF, hiff⟩ := left_iff hc h (show n < gm.nbface by omega) dist rank
      simp only [Option.bind_some, hF]
      by_cases hd : dist F.left = rank
      · rw [if_pos hd]
        have hon := hiff.1 hd
        obtain ⟨_, x, hx, hxe, hdx⟩ := hon
        obtain ⟨⟨_, a, ha, ha'⟩, ⟨_, b, hb, hb'⟩⟩ := hasBoth_of_edge hc.lin hx hxe
        obtain ⟨i, hi, hi'⟩ := List.getElem_of_mem ((hpts (gm.bface n 0)).2 ⟨x.1, a, hx.1, hdx, ha, ha'⟩)
        obtain ⟨j, hj, hj'⟩ := List.getElem_of_mem ((hpts (gm.bface n 1)).2 ⟨x.1, b, hx.1, hdx, hb, hb'⟩)
        have ei : pts[i]? = some (gm.bface n 0) := by rw [List.getElem?_eq_getElem hi, hi']
        have ej : pts[j]? = some (gm.bface n 1) := by rw [List.getElem?_eq_getElem hj, hj']
        rw [(pointMap_eq hp _ i).2 ei, (pointMap_eq hp _ j).2 ej]
        refine ⟨bf ++ [⟨i, j, gm.btag n⟩], B ++ [n], rfl, ?_, ?_, by simp [h4], ?_⟩
        · rw [List.pairwise_append]
          refine ⟨h2, by simp, ?_⟩
          intro a ha b hb
          rw [List.mem_singleton] at hb
          have := ((h3 a).1 ha).1; omega
        · intro k
          rw [List.mem_append, h3, List.mem_singleton]
          constructor
          · rintro (⟨h6, h7⟩ | rfl)
            · exact ⟨by omega, h7⟩
            · exact ⟨by omega, hiff.1 hd⟩
          · rintro ⟨h6, h7⟩
            rcases Nat.lt_succ_iff_lt_or_eq.1 h6 with h8 | h8
            · exact Or.inl ⟨h8, h7⟩
            · exact Or.inr h8
        · intro l k hlk
          rcases lt_trichotomy l B.length with hl | hl | hl
          · rw [List.getElem?_append_left hl] at hlk
            rw [List.getElem?_append_left (by omega)]
            exact h5 l k hlk
          · subst hl
            rw [List.getElem?_append_right le_rfl] at hlk
            simp at hlk
            subst hlk
            rw [List.getElem?_append_right (by omega)]
            exact ⟨⟨i, j, gm.btag n⟩, by simp [h4], ei, ej, rfl⟩
          · rw [List.getElem?_eq_none (by simp; omega)] at hlk; cases hlk
      · rw [if_neg hd]
        refine ⟨bf, B, rfl, h2, fun k => ?_, h4, h5⟩
        rw [h3]
        constructor
        · rintro ⟨h6, h7⟩; exact ⟨by omega, h7⟩
        · rintro ⟨h6, h7⟩
          refine ⟨?_, h7⟩
          rcases Nat.lt_succ_iff_lt_or_eq.1 h6 with h8 | h8
          · exact h8
          · subst h8; exact absurd (hiff.2 h7) hd
  obtain ⟨bf, B, h1, h2, h3, h4, h5⟩ := key gm.nbface le_rfl
  exact ⟨bf, B, h1, h2, fun k => by rw [h3]; exact ⟨fun h => h.2, fun h => ⟨h.1, h⟩⟩, h4, h5⟩

theorem holds_get? {α : Type*} {st : ℕ → α} {β : Type*} {L : List β} {f : β → α} (h : Holds st (L.map f)) {l : ℕ} {g : β}
    (hl : L[l]? = some g) : st l = f g := by
  obtain ⟨hlt, rfl⟩ := List.getElem?_eq_some_iff.1 hl
  rw [h l (by simpa using hlt)]; simp

/-- Everything before the interface faces succeeds and is as specified. -/
theorem base_spec {gm : Mesh} (hc : Conforming gm) {s : FState} (h : topological gm = .ok s) (dist : ℕ → ℕ) (rank : ℕ) :
    ∃ inp bf, convertInpoel (extractCells gm dist rank) (pointMap (localPoints (extractCells gm dist rank))) = .ok inp ∧
      extractBfaces gm s dist rank (pointMap (localPoints (extractCells gm dist rank))) = some bf ∧
      ∀ nc cf, IsSub gm dist rank ⟨{ subBase gm (extractCells gm dist rank) (localPoints (extractCells gm dist rank)) inp bf with
        nconnface := nc, connface := cf }, (List.range (extractCells gm dist rank).n).map (extractCells gm dist rank).l2g,
        localPoints (extractCells gm dist rank)⟩ := by
  obtain ⟨h1, h2, h3, h4, h5, h6⟩ := extractCells_eq gm dist rank
  have hpp := localPoints_pairwise (extractCells gm dist rank)
  have hmemL := mem_localPoints (extractCells gm dist rank)
  generalize extractCells gm dist rank = c at *
  have hcells : (List.range c.n).map c.l2g = cellsOf gm dist rank := by
    apply List.ext_getElem (by simp [h1])
    intro k ha hb
    simp [h2 k hb]
  have hmemC : ∀ i, i ∈ cellsOf gm dist rank ↔ i < gm.nelem ∧ dist i = rank := by simp [cellsOf]
  have hnn : ∀ l g, (cellsOf gm dist rank)[l]? = some g → c.nnode l = gm.nnode g := fun l g hl => holds_get? h5 hl
  have hin : ∀ l g, (cellsOf gm dist rank)[l]? = some g → c.inpoel l = gm.inpoel g := fun l g hl => holds_get? h3 hl
  have hpts : ∀ p, p ∈ localPoints c ↔ ∃ i j, i < gm.nelem ∧ dist i = rank ∧ j < gm.nnode i ∧ gm.inpoel i j = p := by
    intro p
    rw [hmemL]
    constructor
    · rintro ⟨i, j, hi, hj, rfl⟩
      have hl : (cellsOf gm dist rank)[i]? = some ((cellsOf gm dist rank)[i]'(by omega)) := List.getElem?_eq_getElem _
      have hm := (hmemC _).1 (List.getElem_mem (l := cellsOf gm dist rank) (n := i) (by omega))
      exact ⟨_, j, hm.1, hm.2, by rw [← hnn _ _ hl]; exact hj, by rw [← hin _ _ hl]⟩
    · rintro ⟨g, j, hg, hd, hj, rfl⟩
      obtain ⟨i, hi, rfl⟩ := List.getElem_of_mem ((hmemC g).2 ⟨hg, hd⟩)
      have hl : (cellsOf gm dist rank)[i]? = some ((cellsOf gm dist rank)[i]'(by omega)) := List.getElem?_eq_getElem _
      exact ⟨i, j, by omega, by rw [hnn _ _ hl]; exact hj, by rw [hin _ _ hl]⟩
  obtain ⟨bf, B, b1, b2, b3, b4, b5⟩ := extractBfaces_eq hc h dist rank hpp hpts
  have hall : ((List.range c.n).all fun i => (List.range (c.nnode i)).all fun j => (pointMap (localPoints c) (c.inpoel i j)).isSome) = true := by
    simp only [List.all_eq_true, List.mem_range]
    intro i hi j hj
    obtain ⟨q, hq, hq'⟩ := List.getElem_of_mem ((hmemL (c.inpoel i j)).2 ⟨i, j, hi, hj, rfl⟩)
    rw [(pointMap_eq hpp _ q).2 (by rw [List.getElem?_eq_getElem hq, hq'])]; rfl
  refine ⟨_, bf, by unfold convertInpoel; rw [if_pos hall], b1, fun nc cf => ?_⟩
  rw [hcells]
  constructor
  · exact List.pairwise_lt_range.filter _
  · exact hmemC
  · exact h1
  · exact hpp
  · exact hpts
  · rfl
  · exact fun l g hl => ⟨hnn l g hl, holds_get? h6 hl⟩
  · intro l g hl k
    show c.vol l k = _
    rw [holds_get? h4 hl]
  · intro l g hl j hj
    have hlt : l < c.n := by rw [h1]; exact (List.getElem?_eq_some_iff.1 hl).1
    show (localPoints c)[if l < c.n ∧ j < c.nnode l then _ else _]? = _
    rw [if_pos ⟨hlt, by rw [hnn l g hl]; exact hj⟩]
    obtain ⟨q, hq, hq'⟩ := List.getElem_of_mem ((hmemL (c.inpoel l j)).2 ⟨l, j, hlt, by rw [hnn l g hl]; exact hj, rfl⟩)
    have e : (localPoints c)[q]? = some (c.inpoel l j) := by rw [List.getElem?_eq_getElem hq, hq']
    rw [(pointMap_eq hpp _ q).2 e, Option.getD_some, e, hin l g hl]
  · intro q p hqp
    refine copyCoords_eq gm hpp ?_ hqp
    intro p hp
    obtain ⟨i, j, hi, _, hj, rfl⟩ := (hpts p).1 hp
    exact hc.lin.lt i hi j hj
  · exact ⟨rfl, rfl⟩
  · refine ⟨B, b2, b3, b4, fun l k hlk => ?_⟩
    obtain ⟨r, hr, h7, h8, h9⟩ := b5 l k hlk
    have e0 : (subBase gm c (localPoints c) (fun i j => if i < c.n ∧ j < c.nnode i then (pointMap (localPoints c) (c.inpoel i j)).getD 0 else c.inpoel i j) bf).bface l 0 = r.n0 := by
      simp [subBase, hr]
    have e1 : (subBase gm c (localPoints c) (fun i j => if i < c.n ∧ j < c.nnode i then (pointMap (localPoints c) (c.inpoel i j)).getD 0 else c.inpoel i j) bf).bface l 1 = r.n1 := by
      simp [subBase, hr]
    refine ⟨by rw [← h7]; congr 1, by rw [← h8]; congr 1, fun t => ?_⟩
    show (match bf[l]? with | none => 0 | some r => r.tags t) = _
    rw [hr, ← h9]

/-! ### Faces of the subdomain -/

section local_faces
variable {gm : Mesh} {dist : ℕ → ℕ} {rank : ℕ} {S : Sub}

theorem IsSub.cell (h : IsSub gm dist rank S) {l : ℕ} (hl : l < S.mesh.nelem) :
    ∃ g, S.cells[l]? = some g ∧ g < gm.nelem ∧ dist g = rank := by
  have hlt : l < S.cells.length := by rw [← h.nelem]; exact hl
  have := (h.cells _).1 (List.getElem_mem hlt)
  exact ⟨_, List.getElem?_eq_getElem hlt, this.1, this.2⟩

theorem IsSub.of_cell (h : IsSub gm dist rank S) {g : ℕ} (hg : g < gm.nelem) (hd : dist g = rank) :
    ∃ l, l < S.mesh.nelem ∧ S.cells[l]? = some g := by
  obtain ⟨l, hl, rfl⟩ := List.getElem_of_mem ((h.cells g).2 ⟨hg, hd⟩)
  exact ⟨l, by rw [h.nelem]; exact hl, List.getElem?_eq_getElem hl⟩

theorem IsSub.cell_inj (h : IsSub gm dist rank S) {l l' g : ℕ} (h1 : S.cells[l]? = some g) (h2 : S.cells[l']? = some g) :
    l = l' := by
  obtain ⟨a, ha⟩ := List.getElem?_eq_some_iff.1 h1
  obtain ⟨b, hb⟩ := List.getElem?_eq_some_iff.1 h2
  have hp := List.pairwise_iff_getElem.1 h.cellsAsc
  rcases lt_trichotomy l l' with hlt | he | hlt
  · have := hp l l' a b hlt; omega
  · exact he
  · have := hp l' l b a hlt; omega

theorem IsSub.point_inj (h : IsSub gm dist rank S) {l l' g : ℕ} (h1 : S.points[l]? = some g) (h2 : S.points[l']? = some g) :
    l = l' := by
  obtain ⟨a, ha⟩ := List.getElem?_eq_some_iff.1 h1
  obtain ⟨b, hb⟩ := List.getElem?_eq_some_iff.1 h2
  have hp := List.pairwise_iff_getElem.1 h.pointsAsc
  rcases lt_trichotomy l l' with hlt | he | hlt
  · have := hp l l' a b hlt; omega
  · exact he
  · have := hp l' l b a hlt; omega

theorem IsSub.lin (h : IsSub gm dist rank S) (hm : Lin gm) : Lin S.mesh where
  nf := fun l hl => by
    obtain ⟨g, hg, hlt, _⟩ := h.cell hl
    rw [(h.nnode l g hg).1, (h.nnode l g hg).2, hm.nf g hlt]
  three := fun l hl => by
    obtain ⟨g, hg, hlt, _⟩ := h.cell hl
    rw [(h.nnode l g hg).1]; exact hm.three g hlt
  lt := fun l hl j hj => by
    obtain ⟨g, hg, hlt, _⟩ := h.cell hl
    rw [(h.nnode l g hg).1] at hj
    rw [h.npoin]; exact (List.getElem?_eq_some_iff.1 (h.inpoel l g hg j hj)).1
  inj := fun l hl j k hj hk he => by
    obtain ⟨g, hg, hlt, _⟩ := h.cell hl
    rw [(h.nnode l g hg).1] at hj hk
    have h1 := h.inpoel l g hg j hj
    have h2 := h.inpoel l g hg k hk
    rw [he, h2] at h1
    exact hm.inj g hlt j k hj hk (Option.some.inj h1).symm

/-- The edge of a local face, in global point numbers. -/
theorem IsSub.edge (h : IsSub gm dist rank S) (hm : Lin gm) {l f g : ℕ} (hg : S.cells[l]? = some g) (hf : f < gm.nnode g) :
    ∃ a b a' b', Msh.edge S.mesh (l, f) = s(a, b) ∧ Msh.edge gm (g, f) = s(a', b') ∧ S.points[a]? = some a' ∧ S.points[b]? = some b' ∧
      a = faceNodeI S.mesh l f 0 ∧ b = faceNodeI S.mesh l f 1 ∧ a' = faceNodeI gm g f 0 ∧ b' = faceNodeI gm g f 1 := by
  have hlt := ((h.cells g).1 (List.mem_of_getElem? hg)).1
  have hn := (h.nnode l g hg).1
  have hmod : f % gm.nnode g = f := Nat.mod_eq_of_lt hf
  refine ⟨_, _, _, _, rfl, rfl, h.inpoel l g hg f hf, ?_, ?_, ?_, ?_, ?_⟩
  · simp only [hn]; exact h.inpoel l g hg _ (hm.next_lt hlt f)
  all_goals simp [faceNodeI, hn, hmod]

theorem IsSub.edge_eq (h : IsSub gm dist rank S) (hm : Lin gm) {l f g l' f' g' : ℕ} (hg : S.cells[l]? = some g)
    (hf : f < gm.nnode g) (hg' : S.cells[l']? = some g') (hf' : f' < gm.nnode g') :
    Msh.edge S.mesh (l, f) = Msh.edge S.mesh (l', f') ↔ Msh.edge gm (g, f) = Msh.edge gm (g', f') := by
  obtain ⟨a, b, a', b', h1, h2, h3, h4, -⟩ := h.edge hm hg hf
  obtain ⟨c, d, c', d', k1, k2, k3, k4, -⟩ := h.edge hm hg' hf'
  rw [h1, h2, k1, k2, Sym2.eq_iff, Sym2.eq_iff]
  have key : ∀ {x y x' y' : ℕ}, S.points[x]? = some x' → S.points[y]? = some y' → (x = y ↔ x' = y') := by
    intro x y x' y' hx hy
    constructor
    · rintro rfl; rw [hx] at hy; exact Option.some.inj hy
    · rintro rfl; exact h.point_inj hx hy
  rw [key h3 k3, key h4 k4, key h3 k4, key h4 k3]

theorem IsSub.isFace (h : IsSub gm dist rank S) {l f g : ℕ} (hg : S.cells[l]? = some g) :
    IsFace S.mesh (l, f) ↔ IsFace gm (g, f) := by
  have hlt := ((h.cells g).1 (List.mem_of_getElem? hg)).1
  have hl : l < S.mesh.nelem := by rw [h.nelem]; exact (List.getElem?_eq_some_iff.1 hg).1
  simp only [IsFace, (h.nnode l g hg).1]
  exact ⟨fun h => ⟨hlt, h.2⟩, fun h => ⟨hl, h.2⟩⟩

/-- Two local faces coincide exactly if the global ones do. -/
theorem IsSub.glued (h : IsSub gm dist rank S) (hm : Lin gm) {l f g l' f' g' : ℕ} (hg : S.cells[l]? = some g)
    (hg' : S.cells[l']? = some g') : Glued S.mesh (l, f) (l', f') ↔ Glued gm (g, f) (g', f') := by
  have hne : l ≠ l' ↔ g ≠ g' := by
    refine not_congr ⟨?_, ?_⟩
    · rintro rfl; rw [hg] at hg'; exact Option.some.inj hg'
    · rintro rfl; exact h.cell_inj hg hg'
  constructor
  · rintro ⟨h1, h2, h3, h4⟩
    have i1 := (h.isFace hg).1 h1
    have i2 := (h.isFace hg').1 h2
    exact ⟨i1, i2, hne.1 h3, (h.edge_eq hm hg i1.2 hg' i2.2).1 h4⟩
  · rintro ⟨h1, h2, h3, h4⟩
    exact ⟨(h.isFace hg).2 h1, (h.isFace hg').2 h2, hne.2 h3, (h.edge_eq hm hg h1.2 hg' h2.2).2 h4⟩

theorem IsSub.manifold (h : IsSub gm dist rank S) (hm : Lin gm) (hM : Manifold gm) : Manifold S.mesh := by
  rintro ⟨l, f⟩ ⟨a, b⟩ ⟨c, d⟩ h1 h2
  obtain ⟨g, hg, -⟩ := h.cell h1.1.1
  obtain ⟨g1, hg1, -⟩ := h.cell h1.2.1.1
  obtain ⟨g2, hg2, -⟩ := h.cell h2.2.1.1
  have := hM _ _ _ ((h.glued hm hg hg1).1 h1) ((h.glued hm hg hg2).1 h2)
  rw [Prod.mk.injEq] at this
  obtain ⟨rfl, rfl⟩ := this
  rw [show a = c from h.cell_inj hg1 hg2]

theorem IsSub.esuel_none (h : IsSub gm dist rank S) (hm : Lin gm) (hM : Manifold gm) {l f g : ℕ} (hg : S.cells[l]? = some g) :
    esuel S.mesh (esup S.mesh) l f = none ↔ ∀ j k, Glued gm (g, f) (j, k) → dist j ≠ rank := by
  have hC := fun l' => C26_adjacency_exact (h.lin hm) (h.manifold hm hM) l f l'
  constructor
  · intro hn j k hgl hd
    obtain ⟨l', hl', hg'⟩ := h.of_cell hgl.2.1.1 hd
    have := (hC l').2 ⟨k, (h.glued hm hg hg').2 hgl⟩
    rw [hn] at this; cases this
  · intro hall
    cases he : esuel S.mesh (esup S.mesh) l f with
    | none => rfl
    | some l' =>
      obtain ⟨k, hk⟩ := (hC l').1 he
      obtain ⟨g', hg', _, hd⟩ := h.cell hk.2.1.1
      exact absurd hd (hall g' k ((h.glued hm hg hg').1 hk))

end local_faces

/-! ### Interface faces -/

theorem forLt_two {σ : Type*} (st : σ) (b : ℕ → σ → σ) : forLt 2 st b = b 1 (b 0 st) := rfl

theorem markBounPoints_eq (lm : Mesh) (q : ℕ) :
    markBounPoints lm q = true ↔ ∃ i, i < lm.nbface ∧ (q = lm.bface i 0 ∨ q = lm.bface i 1) := by
  unfold markBounPoints
  induction lm.nbface with
  | zero => simp [forLt_zero]
  | succ n ih =>
    rw [forLt_succ, forLt_two]
    generalize (forLt n (fun _ => false) _ : ℕ → Bool) = st at ih ⊢
    constructor
    · intro h
      by_cases h1 : q = lm.bface n 1
      · exact ⟨n, by omega, Or.inr h1⟩
      by_cases h0 : q = lm.bface n 0
      · exact ⟨n, by omega, Or.inl h0⟩
      rw [upd_ne _ _ (by simpa using h1), upd_ne _ _ h0] at h
      obtain ⟨i, hi, h⟩ := ih.1 h
      exact ⟨i, by omega, h⟩
    · rintro ⟨i, hi, h⟩
      by_cases h1 : q = lm.bface n 1
      · rw [h1]; exact upd_same _ _ _
      rw [upd_ne _ _ (by simpa using h1)]
      by_cases h0 : q = lm.bface n 0
      · rw [h0]; exact upd_same _ _ _
      rw [upd_ne _ _ h0]
      refine ih.2 ⟨i, ?_, h⟩
      rcases Nat.lt_succ_iff_lt_or_eq.1 hi with h' | h'
      · exact h'
      · subst h'; exact absurd h (by simp [h0, h1])

theorem connFaces_eq (lm : Mesh) (e : ℕ → ℕ → Option ℕ) (isB : ℕ → Bool) :
    connFaces lm e isB = (pairs lm.nelem lm.nfael).filter fun x =>
      e x.1 x.2 = none ∧ (isB (faceNodeI lm x.1 x.2 0) = false ∨ isB (faceNodeI lm x.1 x.2 1) = false) := by
  unfold connFaces
  rw [forLt_forLt]
  have : ∀ (P : List (ℕ × ℕ)) (l : List (ℕ × ℕ)), P.foldl (fun l x =>
      if e x.1 x.2 = none ∧ (isB (faceNodeI lm x.1 x.2 0) = false ∨ isB (faceNodeI lm x.1 x.2 1) = false)
      then l ++ [(x.1, x.2)] else l) l = l ++ P.filter fun x =>
      e x.1 x.2 = none ∧ (isB (faceNodeI lm x.1 x.2 0) = false ∨ isB (faceNodeI lm x.1 x.2 1) = false) := by
    intro P
    induction P with
    | nil => simp
    | cons x P ih =>
      intro l
      rw [List.foldl_cons, ih]
      split_ifs with h
      · rw [List.filter_cons_of_pos (by simpa using h)]; simp
      · rw [List.filter_cons_of_neg (by simpa using h)]
  rw [this]; rfl

theorem connRows_ok {gm lm : Mesh} {s : FState} {dist : ℕ → ℕ} {cells pts : List ℕ} {l : List (ℕ × ℕ)}
    {r : ℕ × ℕ → ℕ → ℕ} (h : ∀ x ∈ l, connRow gm lm s dist cells pts x = .ok (r x)) :
    connRows gm lm s dist cells pts l = .ok (l.map r) := by
  induction l with
  | nil => rfl
  | cons x l ih =>
    rw [connRows, h x (by simp), ih (fun y hy => h y (by simp [hy]))]; rfl

/-- The point `p` of the global mesh is on a boundary face of the rank. -/
def PtOnB (gm : Mesh) (dist : ℕ → ℕ) (rank p : ℕ) : Prop :=
  ∃ k, BfOn gm dist rank k ∧ (p = gm.bface k 0 ∨ p = gm.bface k 1)

/-- Face `f` of cell `g` is shared with a cell of another rank. -/
def Interface (gm : Mesh) (dist : ℕ → ℕ) (g f : ℕ) : Prop := ∃ j k, Glued gm (g, f) (j, k) ∧ dist j ≠ dist g

section conn
variable {gm : Mesh} {dist : ℕ → ℕ} {rank : ℕ} {S : Sub}

theorem IsSub.marked (h : IsSub gm dist rank S) {q p : ℕ} (hq : S.points[q]? = some p) :
    markBounPoints S.mesh q = true ↔ PtOnB gm dist rank p := by
  obtain ⟨B, b1, b2, b3, b4⟩ := h.bfaces
  rw [markBounPoints_eq]
  constructor
  · rintro ⟨i, hi, hor⟩
    have hB : B[i]? = some (B[i]'(by omega)) := List.getElem?_eq_getElem _
    obtain ⟨h0, h1, _⟩ := b4 _ _ hB
    refine ⟨_, (b2 _).1 (List.mem_of_getElem? hB), ?_⟩
    rcases hor with rfl | rfl
    · rw [hq] at h0; exact Or.inl (Option.some.inj h0)
    · rw [hq] at h1; exact Or.inr (Option.some.inj h1)
  · rintro ⟨k, hk, hor⟩
    obtain ⟨i, hi, rfl⟩ := List.getElem_of_mem ((b2 k).2 hk)
    obtain ⟨h0, h1, _⟩ := b4 _ _ (List.getElem?_eq_getElem hi)
    refine ⟨i, by omega, ?_⟩
    rcases hor with rfl | rfl
    · exact Or.inl (h.point_inj hq h0)
    · exact Or.inr (h.point_inj hq h1)

theorem IsSub.mem_conn (h : IsSub gm dist rank S) (hc : Conforming gm) (hn : gm.nconnface = 0) {l f g : ℕ}
    (hg : S.cells[l]? = some g) :
    (l, f) ∈ connFaces S.mesh (esuel S.mesh (esup S.mesh)) (markBounPoints S.mesh) ↔
      Interface gm dist g f ∧ ∃ p ∈ Msh.edge gm (g, f), ¬ PtOnB gm dist rank p := by
  have hm := hc.lin
  obtain ⟨hglt, hgd⟩ := (h.cells g).1 (List.mem_of_getElem? hg)
  have hl : l < S.mesh.nelem := by rw [h.nelem]; exact (List.getElem?_eq_some_iff.1 hg).1
  rw [connFaces_eq, List.mem_filter, mem_pairs]
  simp only [decide_eq_true_eq]
  rw [h.esuel_none hm hc.manifold hg, (h.nnode l g hg).2, hm.nf g hglt]
  by_cases hf : f < gm.nnode g
  · obtain ⟨a, b, a', b', e1, e2, e3, e4, ea, eb, -⟩ := h.edge hm hg hf
    rw [← ea, ← eb, ← Bool.not_eq_true, ← Bool.not_eq_true, h.marked e3, h.marked e4, e2]
    simp only [Sym2.mem_iff, exists_eq_or_imp, exists_eq_left]
    constructor
    · rintro ⟨_, hnl, hor⟩
      refine ⟨?_, hor⟩
      rcases hc.cover (g, f) ⟨hglt, hf⟩ with ⟨⟨j, k⟩, hy⟩ | ⟨k, hk, he⟩ | ⟨ic, hic, _⟩
      · exact ⟨j, k, hy, by rw [hgd]; exact hnl j k hy⟩
      · exfalso
        have hon : BfOn gm dist rank k := ⟨hk, (g, f), ⟨hglt, hf⟩, he, hgd⟩
        rw [e2, Sym2.eq_iff] at he
        have ha : PtOnB gm dist rank a' := ⟨k, hon, by rcases he with he | he <;> simp [he.1]⟩
        have hb : PtOnB gm dist rank b' := ⟨k, hon, by rcases he with he | he <;> simp [he.2]⟩
        exact hor.elim (fun h => h ha) (fun h => h hb)
      · omega
    · rintro ⟨⟨j, k, hgl, hd⟩, hor⟩
      refine ⟨⟨hl, hf⟩, fun j' k' hgl' => ?_, hor⟩
      have := hc.manifold _ _ _ hgl hgl'
      rw [Prod.mk.injEq] at this
      rw [← this.1, ← hgd]; exact hd
  · constructor
    · rintro ⟨⟨_, h2⟩, _⟩; exact absurd h2 hf
    · rintro ⟨⟨j, k, hgl, _⟩, _⟩; exact absurd hgl.1.2 hf

theorem IsSub.matchFace (h : IsSub gm dist rank S) (hm : Lin gm) {l f g : ℕ} (hg : S.cells[l]? = some g) (hf : f < gm.nnode g) :
    Msh.matchFace gm S.mesh S.points g l f = some f := by
  obtain ⟨hglt, hgd⟩ := (h.cells g).1 (List.mem_of_getElem? hg)
  obtain ⟨a, b, a', b', e1, e2, e3, e4, ea, eb, ea', eb'⟩ := h.edge hm hg hf
  have hpred : ∀ j, j < gm.nnode g → (((List.range 2).all fun k => (List.range 2).any fun k' =>
      decide (S.points.getD (faceNodeI S.mesh l f k') 0 = faceNodeI gm g j k)) = true ↔ j = f) := by
    intro j hj
    have ga : S.points.getD (faceNodeI S.mesh l f 0) 0 = a' := by simp [List.getD, ← ea, e3]
    have gb : S.points.getD (faceNodeI S.mesh l f 1) 0 = b' := by simp [List.getD, ← eb, e4]
    simp only [show List.range 2 = [0, 1] from rfl, List.all_cons, List.any_cons, List.all_nil, List.any_nil, ga, gb,
      Bool.or_false, Bool.and_true, Bool.and_eq_true, Bool.or_eq_true, decide_eq_true_eq]
    obtain ⟨c, d, c', d', k1, k2, k3, k4, kc, kd, kc', kd'⟩ := h.edge hm hg hj
    rw [← kc', ← kd']
    constructor
    · rintro ⟨h0, h1⟩
      have hne : c' ≠ d' := by
        rw [kc', kd']
        simp only [faceNodeI, Nat.add_zero]
        rw [Nat.mod_eq_of_lt hj]
        intro he
        exact hm.next_ne hglt hj (hm.inj g hglt _ _ hj (hm.next_lt hglt j) he).symm
      have hedge : Msh.edge gm (g, j) = Msh.edge gm (g, f) := by
        rw [k2, e2, Sym2.eq_iff]
        rcases h0 with h0 | h0 <;> rcases h1 with h1 | h1
        · exact absurd (h0.symm.trans h1) hne
        · exact Or.inl ⟨h0.symm, h1.symm⟩
        · exact Or.inr ⟨h0.symm, h1.symm⟩
        · exact absurd (h0.symm.trans h1) hne
      have := eq_of_edge hm (x := (g, j)) (y := (g, f)) ⟨hglt, hj⟩ ⟨hglt, hf⟩ rfl hedge
      exact (Prod.mk.inj this).2
    · rintro rfl
      rw [kc', kd', ← ea', ← eb']
      exact ⟨Or.inl rfl, Or.inr rfl⟩
  unfold Msh.matchFace
  rw [hm.nf g hglt]
  cases hfd : (List.range (gm.nnode g)).find? _ with
  | none =>
    rw [List.find?_eq_none] at hfd
    exact absurd ((hpred f hf).2 rfl) (hfd f (by simpa using hf))
  | some j =>
    have h1 := List.find?_some hfd
    have h2 := List.mem_of_find?_eq_some hfd
    rw [(hpred j (by simpa using h2)).1 h1]

end conn

/-- What the interface records must say about the faces registered in `R`: each names a face of a local cell shared
with another rank and carries the rank, the global cell and the global face number on the other side. -/
structure ConnOk (gm : Mesh) (s : FState) (dist : ℕ → ℕ) (S : Sub) : Prop where
  distinct : ∀ ic jc, ic < S.mesh.nconnface → jc < S.mesh.nconnface → connKey S.mesh ic = connKey S.mesh jc → ic = jc
  row : ∀ ic, ic < S.mesh.nconnface → ∃ g j k, S.cells[S.mesh.connface ic 0]? = some g ∧
    Glued gm (g, S.mesh.connface ic 1) (j, k) ∧ dist j ≠ dist g ∧ S.mesh.connface ic 2 = dist j ∧ S.mesh.connface ic 3 = j ∧
    s.elemface g (S.mesh.connface ic 1) = some (S.mesh.connface ic 4)

/-- Extraction of a subdomain of a conforming global mesh succeeds; the result is as specified, and the faces
registered as interface faces are characterised exactly. -/
theorem restrict_spec {gm : Mesh} (hc : Conforming gm) (hn : gm.nconnface = 0) (ht : gm.nbtag ≤ 4) {s : FState}
    (h : topological gm = .ok s) (dist : ℕ → ℕ) (rank : ℕ) :
    ∃ S, restrict gm s dist rank = .ok S ∧ IsSub gm dist rank S ∧ ConnOk gm s dist S ∧
      ∀ l f g, S.cells[l]? = some g → ((∃ ic, ic < S.mesh.nconnface ∧ connKey S.mesh ic = (l, f)) ↔
        Interface gm dist g f ∧ ∃ p ∈ edge gm (g, f), ¬ PtOnB gm dist rank p) := by
  have hm := hc.lin
  obtain ⟨inp, bf, h1, h2, h3⟩ := base_spec hc h dist rank
  set c := extractCells gm dist rank with hcdef
  set pts := localPoints c with hpts
  set cells := (List.range c.n).map c.l2g with hcells
  set lm := subBase gm c pts inp bf with hlm
  have hS : IsSub gm dist rank ⟨lm, cells, pts⟩ := h3 0 (fun _ _ => 0)
  set L := connFaces lm (esuel lm (esup lm)) (markBounPoints lm) with hL
  have hmem : ∀ l f g, cells[l]? = some g → ((l, f) ∈ L ↔
      Interface gm dist g f ∧ ∃ p ∈ edge gm (g, f), ¬ PtOnB gm dist rank p) :=
    fun l f g hg => hS.mem_conn hc hn hg
  have hLlt : ∀ x ∈ L, x.1 < c.n := by
    intro x hx
    rw [hL, connFaces_eq, List.mem_filter, mem_pairs] at hx
    exact hx.1.1
  have hinfo : ∀ x ∈ L, ∃ g j k, cells[x.1]? = some g ∧ Glued gm (g, x.2) (j, k) ∧ dist j ≠ dist g ∧
      ∃ e, s.elemface g x.2 = some e ∧ connRow gm lm s dist cells pts x =
        .ok fun c => if c = 0 then x.1 else if c = 1 then x.2 else if c = 2 then dist j else if c = 3 then j else e := by
    rintro ⟨l, f⟩ hx
    obtain ⟨g, hg, hglt, hgd⟩ := hS.cell (show l < lm.nelem from hLlt _ hx)
    have hg' : cells[l]? = some g := hg
    obtain ⟨⟨j, k, hgl, hd⟩, -⟩ := (hmem l f g hg).1 hx
    obtain ⟨e, he⟩ := (C71_elemface hc h hgl.1).1
    refine ⟨g, j, k, hg, hgl, hd, e, he, ?_⟩
    have hr := (realNbr_topological hc h (g, f) j).2 ⟨k, hgl⟩
    have hes : s.esuel g f = some j ∧ j < gm.nelem := by
      unfold realNbr at hr
      cases he : s.esuel g f with
      | none => rw [he] at hr; cases hr
      | some j' =>
        rw [he] at hr
        simp only at hr
        split_ifs at hr with hlt
        rw [Option.some.injEq] at hr
        subst hr; exact ⟨rfl, hlt⟩
    have hmf : matchFace gm lm pts g l f = some f := hS.matchFace hm hg hgl.1.2
    have hgd : cells.getD l 0 = g := by simp [List.getD, hg']
    simp only at he
    simp only [connRow, hgd, hmf, hes.1, if_pos hes.2, he, Option.getD_some]
  choose! G J K hG hgl hd E hE hrow using hinfo
  have hrows := connRows_ok hrow
  set R : ℕ × ℕ → ℕ → ℕ := fun x c =>
    if c = 0 then x.1 else if c = 1 then x.2 else if c = 2 then dist (J x) else if c = 3 then J x else E x with hR
  refine ⟨⟨{ lm with nconnface := (L.map R).length, connface := fun i => (L.map R).getD i (fun _ => 0) }, cells, pts⟩,
    ?_, h3 _ _, ?_, ?_⟩
  · simp only [restrict, ← hcdef, ← hpts, h1, h2]
    rw [if_neg (by omega)]
    simp only [← hlm, ← hcells, ← hL, hrows]
  · have hkey : ∀ ic (hic : ic < L.length), connKey { lm with
        nconnface := (L.map R).length, connface := fun i => (L.map R).getD i (fun _ => 0) } ic = L[ic] := by
      intro ic hic
      simp [connKey, List.getD, hic, hR]
    constructor
    · intro ic jc hic hjc he
      simp only [List.length_map] at hic hjc
      rw [hkey ic hic, hkey jc hjc] at he
      have hnd : L.Nodup := by rw [hL, connFaces_eq]; exact (pairs_nodup _ _).filter _
      exact (List.Nodup.getElem_inj_iff hnd).1 he
    · intro ic hic
      simp only [List.length_map] at hic
      have hx := List.getElem_mem hic
      refine ⟨G L[ic], J L[ic], K L[ic], ?_, ?_, hd _ hx, ?_, ?_, ?_⟩
      · simpa [List.getD, hic, hR] using hG _ hx
      · simpa [List.getD, hic, hR] using hgl _ hx
      · simp [List.getD, hic, hR]
      · simp [List.getD, hic, hR]
      · simpa [List.getD, hic, hR] using hE _ hx
  · intro l f g hg
    rw [← hmem l f g hg, List.mem_iff_getElem]
    simp only [List.length_map]
    constructor
    · rintro ⟨ic, hic, he⟩
      exact ⟨ic, hic, by rw [← he]; simp [connKey, List.getD, hic, hR]⟩
    · rintro ⟨ic, hic, he⟩
      exact ⟨ic, hic, by rw [← he]; simp [connKey, List.getD, hic, hR]⟩

/-- C37: extraction of any rank's subdomain from a conforming global mesh, for any assignment of cells to ranks, succeeds
and gives exactly the cells of the rank with their tags, exactly their points with the coordinates, and exactly
their boundary faces. -/
theorem C37_extraction {gm : Mesh} (hc : Conforming gm) (hn : gm.nconnface = 0) (ht : gm.nbtag ≤ 4) {s : FState}
    (h : topological gm = .ok s) (dist : ℕ → ℕ) (rank : ℕ) :
    ∃ S, restrict gm s dist rank = .ok S ∧ IsSub gm dist rank S := by
  obtain ⟨S, h1, h2, -⟩ := restrict_spec hc hn ht h dist rank
  exact ⟨S, h1, h2⟩

/-- C37: every vertex of a local cell has the coordinates of the global cell's vertex. -/
theorem C37_coordinates {gm : Mesh} (hc : Conforming gm) (hn : gm.nconnface = 0) (ht : gm.nbtag ≤ 4) {s : FState}
    (h : topological gm = .ok s) (dist : ℕ → ℕ) (rank : ℕ) {S : Sub} (hr : restrict gm s dist rank = .ok S)
    {l : ℕ} (hl : l < S.mesh.nelem) :
    ∃ g, g < gm.nelem ∧ dist g = rank ∧ S.mesh.nnode l = gm.nnode g ∧
      ∀ j, j < gm.nnode g → S.mesh.coords (S.mesh.inpoel l j) = gm.coords (gm.inpoel g j) := by
  obtain ⟨S', h1, h2, -⟩ := restrict_spec hc hn ht h dist rank
  rw [hr] at h1; cases h1
  obtain ⟨g, hg, hlt, hd⟩ := h2.cell hl
  exact ⟨g, hlt, hd, (h2.nnode l g hg).1, fun j hj => h2.coords _ _ (h2.inpoel l g hg j hj)⟩

/-! ### C38 -/

/-- C38: every registered interface face is a face shared with another rank, registered once, and its record
names the other rank, the other cell and the face number of the global mesh. -/
theorem C38_sound {gm : Mesh} (hc : Conforming gm) (hn : gm.nconnface = 0) (ht : gm.nbtag ≤ 4) {s : FState}
    (h : topological gm = .ok s) (dist : ℕ → ℕ) (rank : ℕ) {S : Sub} (hr : restrict gm s dist rank = .ok S) :
    ConnOk gm s dist S := by
  obtain ⟨S', h1, h2, h3, -⟩ := restrict_spec hc hn ht h dist rank
  rw [hr] at h1; cases h1
  exact h3

/-- C38: a face shared with another rank is registered exactly if one of its end points is not on a physical boundary
face of this rank. -/
theorem C38_registered_iff {gm : Mesh} (hc : Conforming gm) (hn : gm.nconnface = 0) (ht : gm.nbtag ≤ 4) {s : FState}
    (h : topological gm = .ok s) (dist : ℕ → ℕ) (rank : ℕ) {S : Sub} (hr : restrict gm s dist rank = .ok S)
    {l f g : ℕ} (hg : S.cells[l]? = some g) (hif : Interface gm dist g f) :
    (∃ ic, ic < S.mesh.nconnface ∧ connKey S.mesh ic = (l, f)) ↔ ∃ p ∈ edge gm (g, f), ¬ PtOnB gm dist rank p := by
  obtain ⟨S', h1, h2, h3, h4⟩ := restrict_spec hc hn ht h dist rank
  rw [hr] at h1; cases h1
  rw [h4 l f g hg]
  exact ⟨fun h => h.2, fun h => ⟨hif, h⟩⟩

/-- Some rank holds a record for face `f` of its cell `g`, naming cell `j` of another rank. -/
def RegisteredAs (gm : Mesh) (s : FState) (dist : ℕ → ℕ) (g f j : ℕ) : Prop :=
  ∃ S l ic, restrict gm s dist (dist g) = .ok S ∧ S.cells[l]? = some g ∧ ic < S.mesh.nconnface ∧ connKey S.mesh ic = (l, f) ∧
    S.mesh.connface ic 2 = dist j ∧ S.mesh.connface ic 3 = j

/-- The full statement of C38 for one global mesh and assignment: every face between two ranks is registered on both. -/
def AllRegistered (gm : Mesh) (s : FState) (dist : ℕ → ℕ) : Prop :=
  ∀ g f j k, Glued gm (g, f) (j, k) → dist g ≠ dist j →
    RegisteredAs gm s dist g f j ∧ RegisteredAs gm s dist j k g

theorem registered_iff {gm : Mesh} (hc : Conforming gm) (hn : gm.nconnface = 0) (ht : gm.nbtag ≤ 4) {s : FState}
    (h : topological gm = .ok s) (dist : ℕ → ℕ) {g f j k : ℕ} (hgl : Glued gm (g, f) (j, k)) (hd : dist g ≠ dist j) :
    RegisteredAs gm s dist g f j ↔ ∃ p ∈ edge gm (g, f), ¬ PtOnB gm dist (dist g) p := by
  obtain ⟨S, h1, h2, h3, h4⟩ := restrict_spec hc hn ht h dist (dist g)
  have hif : Interface gm dist g f := ⟨j, k, hgl, fun h => hd h.symm⟩
  constructor
  · rintro ⟨S', l, ic, hr, hg, hic, hk, _⟩
    rw [hr] at h1; cases h1
    exact ((h4 l f g hg).1 ⟨ic, hic, hk⟩).2
  · intro hp
    obtain ⟨l, hl, hg⟩ := h2.of_cell hgl.1.1 rfl
    obtain ⟨ic, hic, hk⟩ := (h4 l f g hg).2 ⟨hif, hp⟩
    obtain ⟨g', j', k', r1, r2, r3, r4, r5, r6⟩ := h3.row ic hic
    have hk1 : S.mesh.connface ic 0 = l := congrArg Prod.fst hk
    have hk2 : S.mesh.connface ic 1 = f := congrArg Prod.snd hk
    rw [hk1, hg, Option.some.injEq] at r1
    subst r1
    rw [hk2] at r2
    have := hc.manifold _ _ _ hgl r2
    rw [Prod.mk.injEq] at this
    obtain ⟨rfl, rfl⟩ := this
    exact ⟨S, l, ic, h1, hg, hic, hk, r4, r5⟩

/-- C38, exact condition: all faces between ranks are registered on both sides if and only if no such face has, on one
of the two ranks, both end points on physical boundary faces of that rank. -/
theorem C38_all_iff {gm : Mesh} (hc : Conforming gm) (hn : gm.nconnface = 0) (ht : gm.nbtag ≤ 4) {s : FState}
    (h : topological gm = .ok s) (dist : ℕ → ℕ) :
    AllRegistered gm s dist ↔ ∀ g f, Interface gm dist g f → ∃ p ∈ edge gm (g, f), ¬ PtOnB gm dist (dist g) p := by
  constructor
  · rintro ha g f ⟨j, k, hgl, hd⟩
    exact (registered_iff hc hn ht h dist hgl (fun e => hd e.symm)).1 (ha g f j k hgl (fun e => hd e.symm)).1
  · intro ha g f j k hgl hd
    exact ⟨(registered_iff hc hn ht h dist hgl hd).2 (ha g f ⟨j, k, hgl, fun e => hd e.symm⟩),
      (registered_iff hc hn ht h dist hgl.symm hd.symm).2 (ha j k ⟨g, f, hgl.symm, hd⟩)⟩

/-- C38 on partitions where every face between ranks has an end point off the rank's physical boundary: registered on both
ranks with the other's identity. Missing for the full claim: the other partitions, for which it is false
(`C38_refuted`). -/
theorem C38_registered_partial {gm : Mesh} (hc : Conforming gm) (hn : gm.nconnface = 0) (ht : gm.nbtag ≤ 4) {s : FState}
    (h : topological gm = .ok s) (dist : ℕ → ℕ)
    (hoff : ∀ g f, Interface gm dist g f → ∃ p ∈ edge gm (g, f), ¬ PtOnB gm dist (dist g) p)
    {g f j k : ℕ} (hgl : Glued gm (g, f) (j, k)) (hd : dist g ≠ dist j) :
    RegisteredAs gm s dist g f j ∧ RegisteredAs gm s dist j k g :=
  (C38_all_iff hc hn ht h dist).2 hoff g f j k hgl hd

/-- C38: the extracted subdomain is a conforming mesh, so that its own pre-processing is well-defined, exactly if none
of the rank's interface faces was missed. -/
theorem C38_conforming_iff {gm : Mesh} (hc : Conforming gm) (hn : gm.nconnface = 0) (ht : gm.nbtag ≤ 4) {s : FState}
    (h : topological gm = .ok s) (dist : ℕ → ℕ) (rank : ℕ) {S : Sub} (hr : restrict gm s dist rank = .ok S) :
    Conforming S.mesh ↔
      ∀ g f, dist g = rank → Interface gm dist g f → ∃ p ∈ edge gm (g, f), ¬ PtOnB gm dist rank p := by
  obtain ⟨S', h1, hS, h3, h4⟩ := restrict_spec hc hn ht h dist rank
  rw [hr] at h1; cases h1
  have hm := hc.lin
  obtain ⟨B, b1, b2, b3, b4⟩ := hS.bfaces
  -- edges of local boundary faces
  have hbe : ∀ i, i < S.mesh.nbface → ∃ k, B[i]? = some k ∧ BfOn gm dist rank k := fun i hi =>
    ⟨_, List.getElem?_eq_getElem (by omega), (b2 _).1 (List.getElem_mem _)⟩
  have hpt : ∀ {x y x' y' : ℕ}, S.points[x]? = some x' → S.points[y]? = some y' → (x = y ↔ x' = y') := by
    intro x y x' y' hx hy
    constructor
    · rintro rfl; rw [hx] at hy; exact Option.some.inj hy
    · rintro rfl; exact hS.point_inj hx hy
  have hedge : ∀ l f g i k, S.cells[l]? = some g → f < gm.nnode g → B[i]? = some k →
      (edge S.mesh (l, f) = s(S.mesh.bface i 0, S.mesh.bface i 1) ↔ edge gm (g, f) = s(gm.bface k 0, gm.bface k 1)) := by
    intro l f g i k hg hf hk
    obtain ⟨a, b, a', b', e1, e2, e3, e4, -⟩ := hS.edge hm hg hf
    obtain ⟨k0, k1, -⟩ := b4 i k hk
    rw [e1, e2, Sym2.eq_iff, Sym2.eq_iff, hpt e3 k0, hpt e4 k1, hpt e3 k1, hpt e4 k0]
  have hrowkey : ∀ ic, ic < S.mesh.nconnface → ∃ g, S.cells[(connKey S.mesh ic).1]? = some g ∧
      Interface gm dist g (connKey S.mesh ic).2 := by
    intro ic hic
    obtain ⟨g, j, k, r1, r2, r3, -⟩ := h3.row ic hic
    exact ⟨g, r1, j, k, r2, r3⟩
  constructor
  · intro hC g f hd hif
    obtain ⟨j, k, hgl, hjd⟩ := hif
    obtain ⟨l, hl, hg⟩ := hS.of_cell hgl.1.1 hd
    rcases hC.cover (l, f) ((hS.isFace hg).2 hgl.1) with ⟨⟨l', f'⟩, hy⟩ | ⟨i, hi, he⟩ | ⟨ic, hic, hk⟩
    · obtain ⟨g', hg', _, hd'⟩ := hS.cell hy.2.1.1
      have := hc.manifold _ _ _ hgl ((hS.glued hm hg hg').1 hy)
      rw [Prod.mk.injEq] at this
      exact absurd (by rw [this.1, hd', hd]) hjd
    · obtain ⟨k', hk', hon⟩ := hbe i hi
      have he' := (hedge l f g i k' hg hgl.1.2 hk').1 he
      obtain ⟨e, hu, -⟩ := (C27_ranges hm hc.bfOk h).2.1 k' hon.1
      have e1 := (hu g).1 (hasBoth_of_edge hm (x := (g, f)) hgl.1 he')
      have e2 := (hu j).1 (hasBoth_of_edge hm (x := (j, k)) hgl.2.1 (hgl.2.2.2.symm.trans he'))
      exact absurd (e1.trans e2.symm) hgl.2.2.1
    · exact ((h4 l f g hg).1 ⟨ic, hic, hk⟩).2
  · intro hall
    refine ⟨hS.lin hm, hS.manifold hm hc.manifold, ?_, ?_, ?_, ?_, h3.distinct, ?_, ?_, ?_⟩
    · rintro ⟨l, f⟩ ⟨l', f'⟩ hgl
      obtain ⟨g, hg, hglt, _⟩ := hS.cell hgl.1.1
      obtain ⟨g', hg', _, _⟩ := hS.cell hgl.2.1.1
      have hgl' := (hS.glued hm hg hg').1 hgl
      have := hc.opposite _ _ hgl'
      simp only [(hS.nnode l g hg).1] at this ⊢
      exact (hpt (hS.inpoel _ _ hg' _ hgl'.2.1.2) (hS.inpoel _ _ hg _ (hm.next_lt hglt f))).2 this
    · intro i hi
      obtain ⟨k, hk, hon⟩ := hbe i hi
      obtain ⟨x', hx', hxe', hd'⟩ := hon.2
      obtain ⟨x, hx, x0, x1⟩ := hc.bf k hon.1
      obtain ⟨e, hu, -⟩ := (C27_ranges hm hc.bfOk h).2.1 k hon.1
      have e1 := (hu x'.1).1 (hasBoth_of_edge hm hx' hxe')
      have e2 := (hu x.1).1 (hasBoth_of_edge hm hx (by rw [x0, x1]; rfl))
      obtain ⟨l, hl, hg⟩ := hS.of_cell hx.1 (by rw [e2, ← e1]; exact hd')
      obtain ⟨k0, k1, -⟩ := b4 i k hk
      refine ⟨(l, x.2), (hS.isFace hg).2 hx, ?_, ?_⟩
      · exact (hpt k0 (hS.inpoel _ _ hg _ hx.2)).2 x0
      · simp only [(hS.nnode l _ hg).1]
        exact (hpt k1 (hS.inpoel _ _ hg _ (hm.next_lt hx.1 _))).2 x1
    · intro i i' hi hi' he
      obtain ⟨k, hk, hon⟩ := hbe i hi
      obtain ⟨k', hk', hon'⟩ := hbe i' hi'
      obtain ⟨k0, k1, -⟩ := b4 i k hk
      obtain ⟨m0, m1, -⟩ := b4 i' k' hk'
      rw [Sym2.eq_iff, hpt k0 m0, hpt k1 m1, hpt k0 m1, hpt k1 m0, ← Sym2.eq_iff] at he
      obtain rfl := hc.bfDistinct k k' hon.1 hon'.1 he
      obtain ⟨p1, q1⟩ := List.getElem?_eq_some_iff.1 hk
      obtain ⟨p2, q2⟩ := List.getElem?_eq_some_iff.1 hk'
      exact (List.Nodup.getElem_inj_iff (b1.imp (fun h => Nat.ne_of_lt h))).1 (q1.trans q2.symm)
    · intro ic hic
      obtain ⟨g, hg, j, k, hgl, -⟩ := hrowkey ic hic
      exact (hS.isFace hg).2 hgl.1
    · rintro ic hic ⟨l', f'⟩ hgl
      obtain ⟨g, hg, j, k, hgl', hd⟩ := hrowkey ic hic
      obtain ⟨g', hg', _, hd'⟩ := hS.cell hgl.2.1.1
      have := hc.manifold _ _ _ hgl' ((hS.glued hm hg hg').1 hgl)
      rw [Prod.mk.injEq] at this
      have hdg := ((hS.cells g).1 (List.mem_of_getElem? hg)).2
      exact hd (by rw [this.1, hd', hdg])
    · intro ic i hic hi he
      obtain ⟨g, hg, j, k, hgl', hd⟩ := hrowkey ic hic
      obtain ⟨k', hk', hon⟩ := hbe i hi
      have he' := (hedge _ _ g i k' hg hgl'.1.2 hk').1 he
      obtain ⟨e, hu, -⟩ := (C27_ranges hm hc.bfOk h).2.1 k' hon.1
      have e1 := (hu g).1 (hasBoth_of_edge hm hgl'.1 he')
      have e2 := (hu j).1 (hasBoth_of_edge hm hgl'.2.1 (hgl'.2.2.2.symm.trans he'))
      exact absurd (e1.trans e2.symm) hgl'.2.2.1
    · rintro ⟨l, f⟩ hlf
      obtain ⟨g, hg, _, hdg⟩ := hS.cell hlf.1
      have hgf := (hS.isFace hg).1 hlf
      rcases hc.cover (g, f) hgf with ⟨⟨j, k⟩, hy⟩ | ⟨k, hk, he⟩ | ⟨ic, hic, _⟩
      · by_cases hd : dist j = rank
        · obtain ⟨l', hl', hg'⟩ := hS.of_cell hy.2.1.1 hd
          exact Or.inl ⟨(l', k), (hS.glued hm hg hg').2 hy⟩
        · have hif : Interface gm dist g f := ⟨j, k, hy, by rw [hdg]; exact hd⟩
          exact Or.inr (Or.inr ((h4 l f g hg).2 ⟨hif, hall g f hdg hif⟩))
      · obtain ⟨i, hi, hik⟩ := List.getElem_of_mem ((b2 k).2 ⟨hk, (g, f), hgf, he, hdg⟩)
        refine Or.inr (Or.inl ⟨i, by omega, (hedge l f g i k hg hgf.2 (by rw [List.getElem?_eq_getElem hi, hik])).2 he⟩)
      · omega

end Msh
end FVENS
