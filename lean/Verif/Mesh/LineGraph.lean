import Verif.Mesh.Order
import Verif.Mesh.Levels
import Verif.FV.Race

/-!
Graph of lines and points (C86): `createLinePointGraph` in src/mesh/meshordering.cpp:301-402 sets up the sparse
matrix whose vertices are the lines and the cells outside all lines. PETSc computes the vertex ordering from it, so
what matters is which entries are set. Every set value is 1.0 and inserted, hence the matrix is determined by the set
of its entries.

Not modelled: the preallocation (new entries are allowed), PETSc error codes.
-/

namespace FVENS
namespace Msh

/-- `cellsToPtsMap` as assigned, src/mesh/meshordering.cpp:275-282: the loop over the cells appends to the list of
points and notes the index of what was appended. -/
def ptsMap (nelem : ℕ) (lc : LineConfig) : List ℕ × (ℕ → Option ℕ) :=
  forLt nelem ([], fun _ => none) fun i s =>
    if (lc.celline i).isNone then (s.1 ++ [i], upd s.2 i (some s.1.length)) else s

/-- Column of the neighbour `nbr`, src/mesh/meshordering.cpp:329-335 and 380-388. `none`: the assertion fails (without
assertions: column `nlines - 1` of the matrix is used). -/
def nbrColumn (nelem : ℕ) (lc : LineConfig) (nbr : ℕ) : Option ℕ :=
  match lc.celline nbr with
  | some l => some l
  | none => ((ptsMap nelem lc).2 nbr).map (· + lc.lines.length)

/-- Columns set on behalf of one cell, src/mesh/meshordering.cpp:323-336 and 373-394. -/
def cellColumns (g : CellGraph) (lc : LineConfig) (cell : ℕ) : Option (List ℕ) :=
  (((List.range (g.nfael cell)).map (g.esuel cell)).filter fun n => decide (n < g.nelem)).mapM (nbrColumn g.nelem lc)

/-- Row of a line, src/mesh/meshordering.cpp:316-355: the diagonal, then the columns collected over the cells of
the line. -/
def lineRow (g : CellGraph) (lc : LineConfig) (k : ℕ) : Option (List ℕ) :=
  ((lc.lines.getD k []).mapM (cellColumns g lc)).map fun cols => k :: cols.flatten

/-- Row of a point, src/mesh/meshordering.cpp:361-395. -/
def pointRow (g : CellGraph) (lc : LineConfig) (k : ℕ) : Option (List ℕ) :=
  (cellColumns g lc ((ptsMap g.nelem lc).1.getD k 0)).map fun cols => (k + lc.lines.length) :: cols

/-- `createLinePointGraph`, src/mesh/meshordering.cpp:301-402: for each row the columns set in it. -/
def linePointGraph (g : CellGraph) (lc : LineConfig) : Option (List (List ℕ)) := do
  let a ← (List.range lc.lines.length).mapM (lineRow g lc)
  let b ← (List.range (ptsMap g.nelem lc).1.length).mapM (pointRow g lc)
  some (a ++ b)

/-! #### Specification -/

/-- The blocks of cells which the graph is about: the lines, then the single cells outside all lines. -/
def blocks (nelem : ℕ) (lines : List (List ℕ)) : List (List ℕ) :=
  lines ++ ((List.range nelem).filter fun c => decide (∀ L ∈ lines, c ∉ L)).map fun c => [c]

/-- Some cell of block `a` has a face in common with some cell of block `b`. -/
def Touch (g : CellGraph) (B : List (List ℕ)) (a b : ℕ) : Prop :=
  ∃ c d, c ∈ B.getD a [] ∧ d ∈ B.getD b [] ∧ g.Adj c d

/-! #### Proofs -/

theorem ptsMap_succ (n : ℕ) (lc : LineConfig) : ptsMap (n + 1) lc =
    if (lc.celline n).isNone then ((ptsMap n lc).1 ++ [n], upd (ptsMap n lc).2 n (some (ptsMap n lc).1.length))
    else ptsMap n lc := by
  unfold ptsMap; rw [forLt_succ]

theorem ptsMap_fst (nelem : ℕ) (lc : LineConfig) : (ptsMap nelem lc).1 = pointList nelem lc := by
  unfold pointList
  induction nelem with
  | zero => rfl
  | succ n ih =>
    rw [ptsMap_succ, List.range_succ, List.filter_append]
    cases h : lc.celline n <;> simp [h, ih]

theorem ptsMap_lt (nelem : ℕ) (lc : LineConfig) : ∀ c ∈ (ptsMap nelem lc).1, c < nelem := by
  intro c hc
  rw [ptsMap_fst] at hc
  exact List.mem_range.1 (List.mem_filter.1 hc).1

/-- The index map inverts the list of points. -/
theorem ptsMap_iff (nelem : ℕ) (lc : LineConfig) (c k : ℕ) :
    (ptsMap nelem lc).2 c = some k ↔ (ptsMap nelem lc).1[k]? = some c := by
  induction nelem with
  | zero => simp [ptsMap, forLt_zero]
  | succ n ih =>
    have hlt := ptsMap_lt n lc
    rw [ptsMap_succ]
    by_cases h : (lc.celline n).isNone
    · rw [if_pos h]
      simp only [upd]
      by_cases hc : c = n
      · subst hc
        simp only [if_true, Option.some.injEq]
        rw [List.getElem?_append]
        split
        · rename_i hk
          constructor
          · intro e; omega
          · intro e
            exact absurd (hlt c (List.mem_of_getElem? e)) (by omega)
        · rename_i hk
          constructor
          · intro e; subst e; simp
          · intro e
            have := (List.getElem?_eq_some_iff.1 e).1
            simp at this
            omega
      · rw [if_neg hc, ih, List.getElem?_append]
        split
        · rfl
        · rename_i hk
          rw [List.getElem?_eq_none (by omega)]
          constructor
          · intro e; cases e
          · intro e
            have := List.mem_of_getElem? e
            simp at this
            exact absurd this hc
    · rw [if_neg h]; exact ih

theorem mapM_some_iff {α β : Type} (f : α → Option β) (l : List α) (r : List β) :
    l.mapM f = some r ↔ l.map f = r.map some := by
  induction l generalizing r with
  | nil => cases r <;> simp
  | cons a l ih =>
    rw [List.mapM_cons]
    cases r with
    | nil => cases h : f a <;> cases h2 : l.mapM f <;> simp
    | cons b r =>
      cases h : f a with
      | none => simp [h]
      | some x =>
        simp only [List.map_cons, h, List.cons.injEq, Option.some.injEq, Option.pure_def, Option.bind_eq_bind, Option.bind_some,
          Option.bind_eq_some_iff]
        constructor
        · rintro ⟨y, hy, rfl, rfl⟩
          exact ⟨rfl, (ih y).1 hy⟩
        · rintro ⟨rfl, h2⟩
          exact ⟨r, (ih r).2 h2, rfl, rfl⟩

theorem mapM_total {α β : Type} {f : α → Option β} {l : List α} (h : ∀ a ∈ l, (f a).isSome) :
    ∃ r, l.mapM f = some r := by
  induction l with
  | nil => exact ⟨[], rfl⟩
  | cons a l ih =>
    obtain ⟨r, hr⟩ := ih fun a ha => h a (by simp [ha])
    obtain ⟨b, hb⟩ := Option.isSome_iff_exists.1 (h a (by simp))
    exact ⟨b :: r, by simp [List.mapM_cons, hb, hr]⟩

theorem mapM_mem_iff {α β : Type} {f : α → Option β} {l : List α} {r : List β} (h : l.mapM f = some r) (b : β) :
    b ∈ r ↔ ∃ a ∈ l, f a = some b := by
  have h' := (mapM_some_iff f l r).1 h
  have : some b ∈ r.map some ↔ b ∈ r := by simp
  rw [← this, ← h']
  simp

theorem mapM_get {α β : Type} {f : α → Option β} {l : List α} {r : List β} (h : l.mapM f = some r) (k : ℕ) :
    (l[k]?).map f = (r[k]?).map some := by
  have h' := (mapM_some_iff f l r).1 h
  have := congrArg (fun m => m[k]?) h'
  simpa using this

variable {nelem : ℕ} {la : Weights} {thr : ℝ} {lc : LineConfig}

theorem celline_none_iff (hg : GoodLines nelem la thr lc) (c : ℕ) : lc.celline c = none ↔ ∀ L ∈ lc.lines, c ∉ L := by
  rw [← Option.not_isSome_iff_eq_none, ← flatten_mem_iff hg, List.mem_flatten]
  push Not
  rfl

theorem blocks_eq (hg : GoodLines nelem la thr lc) :
    blocks nelem lc.lines = lc.lines ++ (ptsMap nelem lc).1.map fun c => [c] := by
  unfold blocks
  rw [ptsMap_fst, pointList]
  congr 2
  apply List.filter_congr
  intro c _
  have := celline_none_iff hg c
  by_cases h : lc.celline c = none
  · simp only [h, Option.isNone_none, decide_eq_true_eq]; exact this.1 h
  · have h2 : ¬ ∀ L ∈ lc.lines, c ∉ L := fun hh => h (this.2 hh)
    rw [decide_eq_false h2]
    cases hh : lc.celline c
    · exact absurd hh h
    · rfl

/-- The column used for a cell is the number of its block. -/
theorem nbrColumn_iff (hg : GoodLines nelem la thr lc) (c b : ℕ) :
    nbrColumn nelem lc c = some b ↔ ∃ K, (blocks nelem lc.lines)[b]? = some K ∧ c ∈ K := by
  rw [blocks_eq hg]
  unfold nbrColumn
  cases hc : lc.celline c with
  | some l =>
    simp only [Option.some.injEq]
    obtain ⟨L, hL, hcL⟩ := (hg.map c l).1 hc
    constructor
    · rintro rfl
      exact ⟨L, by rw [List.getElem?_append_left (List.getElem?_eq_some_iff.1 hL).1]; exact hL, hcL⟩
    · rintro ⟨K, hK, hcK⟩
      rw [List.getElem?_append] at hK
      split at hK
      · have := (hg.map c b).2 ⟨K, hK, hcK⟩
        rw [hc] at this
        exact Option.some.inj this
      · have hm := List.mem_of_getElem? hK
        rw [List.mem_map] at hm
        obtain ⟨d, hd, rfl⟩ := hm
        simp only [List.mem_singleton] at hcK
        subst hcK
        rw [ptsMap_fst] at hd
        have := (List.mem_filter.1 hd).2
        rw [hc] at this
        cases this
  | none =>
    simp only
    have hno := (celline_none_iff hg c).1 hc
    constructor
    · intro h
      rw [Option.map_eq_some_iff] at h
      obtain ⟨k, hk, rfl⟩ := h
      rw [ptsMap_iff] at hk
      refine ⟨[c], ?_, by simp⟩
      rw [List.getElem?_append_right (by omega)]
      simp [hk]
    · rintro ⟨K, hK, hcK⟩
      rw [List.getElem?_append] at hK
      split at hK
      · exact absurd hcK (hno K (List.mem_of_getElem? hK))
      · rename_i hb
        rw [List.getElem?_map, Option.map_eq_some_iff] at hK
        obtain ⟨d, hd, rfl⟩ := hK
        simp only [List.mem_singleton] at hcK
        subst hcK
        rw [Option.map_eq_some_iff]
        exact ⟨b - lc.lines.length, (ptsMap_iff _ _ _ _).2 hd, by omega⟩

theorem nbrColumn_total (lc : LineConfig) {c : ℕ} (hc : c < nelem) : (nbrColumn nelem lc c).isSome := by
  unfold nbrColumn
  cases h : lc.celline c with
  | some l => rfl
  | none =>
    simp only [Option.isSome_map]
    have : c ∈ (ptsMap nelem lc).1 := by
      rw [ptsMap_fst]; exact List.mem_filter.2 ⟨List.mem_range.2 hc, by simp [h]⟩
    obtain ⟨k, hk⟩ := List.mem_iff_getElem?.1 this
    rw [(ptsMap_iff nelem lc c k).2 hk]; rfl

theorem cellColumns_total (g : CellGraph) (lc : LineConfig) (c : ℕ) : (cellColumns g lc c).isSome := by
  unfold cellColumns
  obtain ⟨r, hr⟩ := mapM_total (f := nbrColumn g.nelem lc)
    (l := ((List.range (g.nfael c)).map (g.esuel c)).filter fun n => decide (n < g.nelem)) fun a ha =>
      nbrColumn_total lc (of_decide_eq_true (List.mem_filter.1 ha).2)
  rw [hr]; rfl

theorem cellColumns_mem {g : CellGraph} (hg : GoodLines g.nelem la thr lc) {c : ℕ} {cols : List ℕ}
    (h : cellColumns g lc c = some cols) (b : ℕ) :
    b ∈ cols ↔ ∃ d, d ∈ (blocks g.nelem lc.lines).getD b [] ∧ g.Adj c d := by
  unfold cellColumns at h
  rw [mapM_mem_iff h]
  constructor
  · rintro ⟨d, hd, hb⟩
    obtain ⟨K, hK, hdK⟩ := (nbrColumn_iff hg d b).1 hb
    obtain ⟨f, hf, rfl⟩ := List.mem_map.1 (List.mem_filter.1 hd).1
    exact ⟨_, by simpa [List.getD_eq_getElem?_getD, hK] using hdK, f, List.mem_range.1 hf, rfl⟩
  · rintro ⟨d, hd, f, hf, rfl⟩
    rw [List.getD_eq_getElem?_getD] at hd
    cases hK : (blocks g.nelem lc.lines)[b]? with
    | none => simp [hK] at hd
    | some K =>
      rw [hK, Option.getD_some] at hd
      refine ⟨_, List.mem_filter.2 ⟨List.mem_map.2 ⟨f, List.mem_range.2 hf, rfl⟩, ?_⟩, (nbrColumn_iff hg _ b).2 ⟨K, hK, hd⟩⟩
      rw [blocks_eq hg] at hK
      have hm := List.mem_of_getElem? hK
      rw [List.mem_append] at hm
      rcases hm with hm | hm
      · exact decide_eq_true (hg.lt K hm _ hd)
      · obtain ⟨e, he, rfl⟩ := List.mem_map.1 hm
        simp only [List.mem_singleton] at hd
        rw [hd]
        exact decide_eq_true (ptsMap_lt _ _ _ he)

theorem lineRow_total (g : CellGraph) (lc : LineConfig) (k : ℕ) : (lineRow g lc k).isSome := by
  unfold lineRow
  obtain ⟨r, hr⟩ := mapM_total (f := cellColumns g lc) (l := lc.lines.getD k []) fun a _ => cellColumns_total g lc a
  rw [hr]; rfl

theorem pointRow_total (g : CellGraph) (lc : LineConfig) (k : ℕ) : (pointRow g lc k).isSome := by
  unfold pointRow
  rw [Option.isSome_map]
  exact cellColumns_total _ _ _

/-- C86: the construction goes through for every set of lines: the map from cells to points is defined wherever it
is read. -/
theorem C86_defined (g : CellGraph) (lc : LineConfig) : ∃ G, linePointGraph g lc = some G := by
  unfold linePointGraph
  obtain ⟨a, ha⟩ := mapM_total (f := lineRow g lc) (l := List.range lc.lines.length) fun k _ => lineRow_total g lc k
  obtain ⟨b, hb⟩ := mapM_total (f := pointRow g lc) (l := List.range (ptsMap g.nelem lc).1.length) fun k _ =>
    pointRow_total g lc k
  exact ⟨a ++ b, by simp [ha, hb]⟩

/-- C86: the graph has one row per line and one per cell outside the lines, and the entry `(a, b)` is set exactly if
`a = b` or the two blocks of cells touch. -/
theorem C86_entries {g : CellGraph} (hg : GoodLines g.nelem la thr lc) {G : List (List ℕ)}
    (h : linePointGraph g lc = some G) : G.length = (blocks g.nelem lc.lines).length ∧
      ∀ a R, G[a]? = some R → ∀ b, b ∈ R ↔ b = a ∨ Touch g (blocks g.nelem lc.lines) a b := by
  unfold linePointGraph at h
  simp only [Option.bind_eq_bind, Option.bind_eq_some_iff, Option.some.injEq] at h
  obtain ⟨A, hA, B, hB, rfl⟩ := h
  have lA : A.length = lc.lines.length := by
    have := congrArg List.length ((mapM_some_iff _ _ _).1 hA); simpa using this.symm
  have lB : B.length = (ptsMap g.nelem lc).1.length := by
    have := congrArg List.length ((mapM_some_iff _ _ _).1 hB); simpa using this.symm
  refine ⟨by rw [blocks_eq hg]; simp [lA, lB], fun a R hR b => ?_⟩
  rw [List.getElem?_append] at hR
  split at hR
  · rename_i ha
    have hk := mapM_get hA a
    rw [hR, List.getElem?_range (by omega)] at hk
    simp only [Option.map_some, Option.some.injEq] at hk
    unfold lineRow at hk
    rw [Option.map_eq_some_iff] at hk
    obtain ⟨cols, hcols, rfl⟩ := hk
    have hbl : (blocks g.nelem lc.lines).getD a [] = lc.lines.getD a [] := by
      rw [blocks_eq hg, List.getD_eq_getElem?_getD, List.getElem?_append_left (by omega), List.getD_eq_getElem?_getD]
    rw [List.mem_cons, List.mem_flatten]
    unfold Touch
    rw [hbl]
    refine or_congr Iff.rfl ⟨?_, ?_⟩
    · rintro ⟨cs, hcs, hb⟩
      obtain ⟨c, hc, he⟩ := (mapM_mem_iff hcols cs).1 hcs
      obtain ⟨d, hd, had⟩ := (cellColumns_mem hg he b).1 hb
      exact ⟨c, d, hc, hd, had⟩
    · rintro ⟨c, d, hc, hd, had⟩
      obtain ⟨cs, hcs⟩ := Option.isSome_iff_exists.1 (cellColumns_total g lc c)
      exact ⟨cs, (mapM_mem_iff hcols cs).2 ⟨c, hc, hcs⟩, (cellColumns_mem hg hcs b).2 ⟨d, hd, had⟩⟩
  · rename_i ha
    have hlt := (List.getElem?_eq_some_iff.1 hR).1
    have hk := mapM_get hB (a - A.length)
    rw [hR, List.getElem?_range (by omega)] at hk
    simp only [Option.map_some, Option.some.injEq] at hk
    unfold pointRow at hk
    rw [Option.map_eq_some_iff] at hk
    obtain ⟨cols, hcols, rfl⟩ := hk
    have hbl : (blocks g.nelem lc.lines).getD a [] = [(ptsMap g.nelem lc).1.getD (a - A.length) 0] := by
      rw [blocks_eq hg, List.getD_eq_getElem?_getD, List.getElem?_append_right (by omega), ← lA, List.getElem?_map,
        List.getD_eq_getElem?_getD, List.getElem?_eq_getElem (by omega)]
      rfl
    rw [List.mem_cons]
    unfold Touch
    rw [hbl, cellColumns_mem hg hcols]
    have e : a - A.length + lc.lines.length = a := by omega
    rw [e]
    simp

/-- C86: the graph is symmetric if the neighbour table is, as it is after topological processing (C26). -/
theorem C86_symmetric {g : CellGraph} (hg : GoodLines g.nelem la thr lc)
    (hs : ∀ c d, c < g.nelem → d < g.nelem → g.Adj c d → g.Adj d c) {G : List (List ℕ)}
    (h : linePointGraph g lc = some G) {a b : ℕ} {Ra Rb : List ℕ} (ha : G[a]? = some Ra) (hb : G[b]? = some Rb)
    (hab : b ∈ Ra) : a ∈ Rb := by
  obtain ⟨_, he⟩ := C86_entries hg h
  rw [he b Rb hb]
  rcases (he a Ra ha b).1 hab with rfl | ⟨c, d, hc, hd, had⟩
  · exact .inl rfl
  · have hlt : ∀ k c, c ∈ (blocks g.nelem lc.lines).getD k [] → c < g.nelem := by
      intro k c hc
      rw [List.getD_eq_getElem?_getD] at hc
      cases hK : (blocks g.nelem lc.lines)[k]? with
      | none => simp [hK] at hc
      | some K =>
        rw [hK, Option.getD_some] at hc
        rw [blocks_eq hg] at hK
        rcases List.mem_append.1 (List.mem_of_getElem? hK) with hm | hm
        · exact hg.lt K hm _ hc
        · obtain ⟨e, he, rfl⟩ := List.mem_map.1 hm
          simp only [List.mem_singleton] at hc
          rw [hc]
          exact ptsMap_lt _ _ _ he
    exact .inr ⟨d, c, hd, hc, hs c d (hlt a c hc) (hlt b d hd) had⟩

/-- C86: columns exist: every set entry lies inside the matrix. -/
theorem C86_inside {g : CellGraph} (hg : GoodLines g.nelem la thr lc) {G : List (List ℕ)}
    (h : linePointGraph g lc = some G) {a b : ℕ} {R : List ℕ} (ha : G[a]? = some R) (hb : b ∈ R) : b < G.length := by
  obtain ⟨hl, he⟩ := C86_entries hg h
  rcases (he a R ha b).1 hb with rfl | ⟨c, d, hc, hd, had⟩
  · exact (List.getElem?_eq_some_iff.1 ha).1
  · rw [hl]
    by_contra hlt
    rw [List.getD_eq_getElem?_getD, List.getElem?_eq_none (by omega)] at hd
    simp at hd

/-- C86: every cell belongs to exactly one block. -/
theorem C86_blocks (hg : GoodLines nelem la thr lc) : (blocks nelem lc.lines).flatten.Perm (List.range nelem) := by
  rw [blocks_eq hg, List.flatten_append, ptsMap_fst, ← List.flatMap_def, List.flatMap_singleton']
  exact C35_line_permutation hg

/-- The neighbour table left by topological processing, as read by `gesuel` and `gnfael`
(src/mesh/mesh.hpp); the entries of existing faces are always present (`esuel_spec`). -/
def meshGraph (m : Mesh) (s : FState) : CellGraph := ⟨m.nelem, m.nfael, fun i f => (s.esuel i f).getD m.nelem⟩

theorem meshGraph_adj {m : Mesh} {s : FState} (hc : Conforming m) (h : topological m = .ok s) {i j : ℕ}
    (hi : i < m.nelem) (hj : j < m.nelem) : (meshGraph m s).Adj i j ↔ Adj m i j := by
  constructor
  · rintro ⟨f, hf, e⟩
    have hf' : f < m.nnode i := by
      have : f < m.nfael i := hf
      rw [hc.lin.nf i hi] at this; exact this
    obtain ⟨k, hk, hs⟩ := esuel_spec hc h (i := i) (f := f) ⟨hi, hf'⟩
    have e' : (s.esuel i f).getD m.nelem = j := e
    rw [hk, Option.getD_some] at e'
    obtain ⟨g, hg⟩ := (hs j hj).1 e'
    exact ⟨f, g, hg⟩
  · rintro ⟨f, g, hg⟩
    obtain ⟨k, hk, hs⟩ := esuel_spec hc h hg.1
    refine ⟨f, ?_, ?_⟩
    · show f < m.nfael i
      rw [hc.lin.nf i hi]; exact hg.1.2
    · show (s.esuel i f).getD m.nelem = j
      rw [hk, Option.getD_some]
      exact (hs j hj).2 ⟨g, hg⟩

/-- C86 for meshes: on every mesh accepted by topological processing, and for lines found with any weights and
threshold, entry `(a, b)` of the graph is set exactly if `a = b` or a cell of block `a` shares a face with a cell of
block `b`; and so is entry `(b, a)`. -/
theorem C86_mesh {m : Mesh} {s : FState} (hc : Conforming m) (h : topological m = .ok s) {bel : List ℕ}
    (hw : WOk m.nelem la) (hb : ∀ b ∈ bel, b < m.nelem) (hf : findLines m.nelem la thr bel = some lc) :
    ∃ G, linePointGraph (meshGraph m s) lc = some G ∧ G.length = (blocks m.nelem lc.lines).length ∧
      ∀ a b, a < G.length → b < G.length →
        ((b ∈ G.getD a [] ↔ b = a ∨ ∃ c d, c ∈ (blocks m.nelem lc.lines).getD a [] ∧
          d ∈ (blocks m.nelem lc.lines).getD b [] ∧ Adj m c d) ∧ (b ∈ G.getD a [] ↔ a ∈ G.getD b [])) := by
  have hg : GoodLines (meshGraph m s).nelem la thr lc := C35_lines hw hb hf
  obtain ⟨G, hG⟩ := C86_defined (meshGraph m s) lc
  obtain ⟨hl, he⟩ := C86_entries hg hG
  have hlt : ∀ k c, c ∈ (blocks m.nelem lc.lines).getD k [] → c < m.nelem := by
    intro k c hcm
    rw [List.getD_eq_getElem?_getD] at hcm
    cases hK : (blocks m.nelem lc.lines)[k]? with
    | none => simp [hK] at hcm
    | some K =>
      rw [hK, Option.getD_some] at hcm
      have : c ∈ (blocks m.nelem lc.lines).flatten := List.mem_flatten.2 ⟨K, List.mem_of_getElem? hK, hcm⟩
      exact List.mem_range.1 ((C86_blocks hg).mem_iff.1 this)
  have key : ∀ a b, a < G.length → (b ∈ G.getD a [] ↔ b = a ∨ ∃ c d, c ∈ (blocks m.nelem lc.lines).getD a [] ∧
      d ∈ (blocks m.nelem lc.lines).getD b [] ∧ Adj m c d) := by
    intro a b ha
    rw [List.getD_eq_getElem?_getD, List.getElem?_eq_getElem ha, Option.getD_some,
      he a _ (List.getElem?_eq_getElem ha) b]
    refine or_congr Iff.rfl ⟨?_, ?_⟩
    · rintro ⟨c, d, h1, h2, h3⟩
      exact ⟨c, d, h1, h2, (meshGraph_adj hc h (hlt _ _ h1) (hlt _ _ h2)).1 h3⟩
    · rintro ⟨c, d, h1, h2, h3⟩
      exact ⟨c, d, h1, h2, (meshGraph_adj hc h (hlt _ _ h1) (hlt _ _ h2)).2 h3⟩
  refine ⟨G, hG, hl, fun a b ha hb' => ⟨key a b ha, ?_⟩⟩
  rw [key a b ha, key b a hb']
  constructor
  · rintro (h1 | ⟨c, d, h1, h2, h3⟩)
    · exact .inl h1.symm
    · exact .inr ⟨d, c, h2, h1, h3.symm⟩
  · rintro (h1 | ⟨c, d, h1, h2, h3⟩)
    · exact .inl h1.symm
    · exact .inr ⟨d, c, h2, h1, h3.symm⟩

/-- The row of four cells from `exW` above with its ghosts: the line 0-1-2 touches the point 3. -/
def exRow : CellGraph := ⟨4, fun _ => 3, fun c f => match f with
  | 0 => if c = 0 then 4 else c - 1
  | 1 => if c = 3 then 5 else c + 1
  | _ => 6⟩

/-- The lines found for `exW`. -/
def exLc : LineConfig := ⟨fun c => if c = 0 ∨ c = 1 ∨ c = 2 then some 0 else none, [[0, 1, 2]]⟩

example : linePointGraph exRow exLc = some [[0, 0, 0, 0, 0, 1], [1, 0]] := by decide

example : GoodLines exRow.nelem exW 2 exLc ∧ ∀ c d, c < exRow.nelem → d < exRow.nelem → exRow.Adj c d → exRow.Adj d c := by
  constructor
  · refine ⟨by simp [exLc], ?_, ?_, by simp [exLc], ?_⟩
    · simp [exLc, exRow]
    · have h42 : (2 : ℝ) < 4 := by norm_num
      simp [exLc, exW, h42]
    · intro c k
      simp only [exLc]
      constructor
      · intro h
        split at h
        · rename_i hc
          obtain rfl := Option.some.inj h
          exact ⟨_, rfl, by simp; omega⟩
        · cases h
      · rintro ⟨L, hL, hc⟩
        cases k with
        | zero => simp at hL; subst hL; simp at hc; rw [if_pos hc]
        | succ k => simp at hL
  · have : ∀ c < 4, ∀ d < 4, (∃ f < 3, exRow.esuel c f = d) → ∃ f < 3, exRow.esuel d f = c := by decide
    exact fun c d hc hd h => this c hc d hd h

/-- Four triangles around a point, with strong coupling to the next one around it. -/
example : ∃ s lc, Conforming FV.Geo.cross ∧ topological FV.Geo.cross = .ok s ∧ WOk FV.Geo.cross.nelem (fun c => [((c + 1) % 4, 4)]) ∧
    findLines FV.Geo.cross.nelem (fun c => [((c + 1) % 4, 4)]) 2 [0, 1, 2, 3] = some lc := by
  have hn : FV.Geo.cross.nelem = 4 := by decide +kernel
  have hw : WOk FV.Geo.cross.nelem (fun c => [((c + 1) % 4, 4)]) := by
    intro c _ x hx
    simp only [List.mem_singleton] at hx
    rw [hx, hn]
    exact Nat.mod_lt _ (by omega)
  obtain ⟨lc, hlc⟩ := C35_total 2 hw (bel := [0, 1, 2, 3]) (fun c _ => by simp) (by rw [hn]; simp)
  exact ⟨FV.Geo.cross_topological.choose, lc, (by decide +kernel : Check FV.Geo.cross).conforming,
    FV.Geo.cross_topological.choose_spec.1, hw, hlc⟩

end Msh
end FVENS
