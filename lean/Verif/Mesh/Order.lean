import Verif.Mesh.Renumber
import Mathlib.Data.List.Chain
import Mathlib.Data.List.Infix

/-!
# Level scheduling (C34) and line orderings (C35)
-/

namespace FVENS
namespace Msh

/-! ### C34: level schedule -/

/-- State of `levelSchedule`: the list of level starts and the marks. -/
structure LevState where
  levels : List ℕ
  marked : ℕ → Bool

/-- The cell-neighbour table after topological pre-processing: `esuel i f` for `f < nfael i`; numbers from
`nelem` on are ghosts. -/
structure CellGraph where
  nelem : ℕ
  nfael : ℕ → ℕ
  esuel : ℕ → ℕ → ℕ

/-- Marking of the neighbours, src/mesh/ameshutils.cpp:172-180. -/
def markCell (g : CellGraph) (i : ℕ) (mk : ℕ → Bool) : ℕ → Bool :=
  forLt (g.nfael i) (upd mk i true) fun f mk => if g.esuel i f < g.nelem then upd mk (g.esuel i f) true else mk

/-- Body of the while loop, src/mesh/ameshutils.cpp:169-191. -/
def levelBody (g : CellGraph) (i : ℕ) (s : LevState) : LevState :=
  let mk := markCell g i s.marked
  if mk (i + 1) then ⟨s.levels ++ [i + 1], fun _ => false⟩ else ⟨s.levels, mk⟩

/-- `levelSchedule`, src/mesh/ameshutils.cpp:158-196. -/
def levelSchedule (g : CellGraph) : List ℕ :=
  (forLt (g.nelem - 1) ⟨[0], fun _ => false⟩ (levelBody g)).levels ++ [g.nelem]

/-- Cell `j` is recorded as neighbour of `i`. -/
def CellGraph.Adj (g : CellGraph) (i j : ℕ) : Prop := ∃ f, f < g.nfael i ∧ g.esuel i f = j

theorem markCell_iff (g : CellGraph) (i : ℕ) (mk : ℕ → Bool) {c : ℕ} (hc : c < g.nelem) :
    markCell g i mk c = true ↔ mk c = true ∨ c = i ∨ g.Adj i c := by
  have : ∀ n, (forLt n (upd mk i true) fun f mk => if g.esuel i f < g.nelem then upd mk (g.esuel i f) true else mk) c = true ↔
      mk c = true ∨ c = i ∨ ∃ f, f < n ∧ g.esuel i f = c := by
    intro n
    induction n with
    | zero =>
      by_cases h : c = i
      · subst h; simp [forLt_zero, upd_same]
      · simp [forLt_zero, upd_ne _ _ h, h]
    | succ n ih =>
      rw [forLt_succ]
      have hs : (∃ f, f < n + 1 ∧ g.esuel i f = c) ↔ (∃ f, f < n ∧ g.esuel i f = c) ∨ g.esuel i n = c := by
        constructor
        · rintro ⟨f, hf, h⟩
          rcases Nat.lt_succ_iff_lt_or_eq.1 hf with h' | rfl
          · exact Or.inl ⟨f, h', h⟩
          · exact Or.inr h
        · rintro (⟨f, hf, h⟩ | h)
          · exact ⟨f, by omega, h⟩
          · exact ⟨n, by omega, h⟩
      rw [hs]
      by_cases hlt : g.esuel i n < g.nelem
      · simp only [hlt, if_true]
        by_cases h : c = g.esuel i n
        · subst h; simp [upd_same]
        · rw [upd_ne _ _ h, ih]
          have : ¬ g.esuel i n = c := fun h' => h h'.symm
          simp [this]
      · simp only [hlt, if_false]
        rw [ih]
        have : ¬ g.esuel i n = c := fun h' => hlt (by rw [h']; exact hc)
        simp [this]
  unfold markCell
  rw [this, CellGraph.Adj]

/-- A range of cells without neighbouring pairs. -/
def Independent (g : CellGraph) (a b : ℕ) : Prop := ∀ i j, a ≤ i → i < b → a ≤ j → j < b → i ≠ j → ¬ g.Adj i j

/-- What consecutive entries of the schedule must satisfy: a nonempty independent range, which cannot be
extended by the next cell. -/
def LevelStep (g : CellGraph) (a b : ℕ) : Prop :=
  a < b ∧ Independent g a b ∧ (b < g.nelem → ∃ i, a ≤ i ∧ i < b ∧ g.Adj i b)

theorem levels_inv (g : CellGraph) (hsym : ∀ i j, i < g.nelem → j < g.nelem → g.Adj i j → g.Adj j i) :
    ∀ n, n < g.nelem → ∃ pre s,
      (forLt n ⟨[0], fun _ => false⟩ (levelBody g)).levels = pre ++ [s] ∧ s ≤ n ∧
      (pre ++ [s]).head? = some 0 ∧ (pre ++ [s]).IsChain (LevelStep g) ∧ Independent g s (n + 1) ∧
      (∀ c, c < g.nelem → ((forLt n ⟨[0], fun _ => false⟩ (levelBody g)).marked c = true ↔
        ∃ i, s ≤ i ∧ i < n ∧ (c = i ∨ g.Adj i c))) := by
  intro n
  induction n with
  | zero =>
    intro _
    refine ⟨[], 0, rfl, le_rfl, rfl, by simp, fun i j _ _ _ _ _ => by omega, fun c _ => ?_⟩
    simp [forLt_zero]
  | succ n ih =>
    intro hn
    obtain ⟨pre, s, h1, h2, h3, h4, h5, h6⟩ := ih (by omega)
    rw [forLt_succ]
    generalize (forLt n (⟨[0], fun _ => false⟩ : LevState) (levelBody g) : LevState) = t at h1 h6
    have hmk := markCell_iff g n t.marked hn
    rw [h6 (n + 1) hn] at hmk
    have hmk' : markCell g n t.marked (n + 1) = true ↔ ∃ i, s ≤ i ∧ i < n + 1 ∧ g.Adj i (n + 1) := by
      rw [hmk]
      constructor
      · rintro (⟨i, a, b, c | c⟩ | c | c)
        · omega
        · exact ⟨i, a, by omega, c⟩
        · omega
        · exact ⟨n, h2, by omega, c⟩
      · rintro ⟨i, a, b, c⟩
        rcases Nat.lt_succ_iff_lt_or_eq.1 b with h | rfl
        · exact Or.inl ⟨i, a, h, Or.inr c⟩
        · exact Or.inr (Or.inr c)
    unfold levelBody
    simp only
    by_cases hm : markCell g n t.marked (n + 1) = true
    · rw [if_pos hm]
      obtain ⟨i, a, b, c⟩ := hmk'.1 hm
      refine ⟨pre ++ [s], n + 1, by rw [h1], le_rfl, ?_, ?_, fun i j _ _ _ _ _ => by omega, fun c _ => ?_⟩
      · cases pre <;> simpa using h3
      · rw [List.isChain_append]
        refine ⟨h4, by simp, fun x hx y hy => ?_⟩
        simp only [List.getLast?_append, List.getLast?_singleton, Option.some_or, Option.mem_def, Option.some.injEq] at hx
        simp only [List.head?_cons, Option.mem_def, Option.some.injEq] at hy
        subst hx hy
        exact ⟨by omega, h5, fun _ => ⟨i, a, b, c⟩⟩
      · simp only [Bool.false_eq_true, false_iff]
        rintro ⟨i, a, b, _⟩; omega
    · rw [if_neg hm]
      refine ⟨pre, s, h1, by omega, h3, h4, ?_, fun c hc => ?_⟩
      · intro i j hi hi' hj hj' hij hadj
        have hno : ∀ i, s ≤ i → i < n + 1 → ¬ g.Adj i (n + 1) := fun i a b c => hm (hmk'.2 ⟨i, a, b, c⟩)
        by_cases hj1 : j = n + 1
        · subst hj1; exact hno i hi (by omega) hadj
        · by_cases hi1 : i = n + 1
          · subst hi1; exact hno j hj (by omega) (hsym _ _ hn (by omega) hadj)
          · exact h5 i j hi (by omega) hj (by omega) hij hadj
      · rw [markCell_iff g n t.marked hc, h6 c hc]
        constructor
        · rintro (⟨i, a, b, h⟩ | h | h)
          · exact ⟨i, a, by omega, h⟩
          · exact ⟨n, h2, by omega, Or.inl h⟩
          · exact ⟨n, h2, by omega, Or.inr h⟩
        · rintro ⟨i, a, b, h⟩
          rcases Nat.lt_succ_iff_lt_or_eq.1 b with h' | rfl
          · exact Or.inl ⟨i, a, h', h⟩
          · exact Or.inr h

/-- C34: for every nonempty mesh with symmetric adjacency the schedule starts with cell 0, ends with the number
of cells, and consecutive entries delimit nonempty ranges of mutually non-adjacent cells; each level is maximal:
the first cell of the next level is adjacent to one of its cells. -/
theorem C34_levels (g : CellGraph) (hsym : ∀ i j, i < g.nelem → j < g.nelem → g.Adj i j → g.Adj j i)
    (hne : 0 < g.nelem) : (levelSchedule g).head? = some 0 ∧ (levelSchedule g).getLast? = some g.nelem ∧
      (levelSchedule g).IsChain (LevelStep g) := by
  obtain ⟨pre, s, h1, h2, h3, h4, h5, _⟩ := levels_inv g hsym (g.nelem - 1) (by omega)
  unfold levelSchedule
  rw [h1]
  refine ⟨by cases pre <;> simpa using h3, by simp, ?_⟩
  rw [List.isChain_append]
  refine ⟨h4, by simp, fun x hx y hy => ?_⟩
  simp only [List.getLast?_append, List.getLast?_singleton, Option.some_or, Option.mem_def, Option.some.injEq] at hx
  simp only [List.head?_cons, Option.mem_def, Option.some.injEq] at hy
  subst hx hy
  rw [show g.nelem - 1 + 1 = g.nelem by omega] at h5
  exact ⟨by omega, h5, fun h => absurd h (lt_irrefl _)⟩

/-- Consecutive ranges of an increasing list from `a` to `b` cover everything in between. -/
theorem chain_cover : ∀ (l : List ℕ) (a b : ℕ), l.head? = some a → l.getLast? = some b → ∀ c, a ≤ c → c < b →
    ∃ k, ∃ (h : k + 1 < l.length), l[k] ≤ c ∧ c < l[k + 1] := by
  intro l
  induction l with
  | nil => intro a b h; simp at h
  | cons x l ih =>
    intro a b ha hb c hac hcb
    obtain rfl : x = a := by simpa using ha
    cases l with
    | nil =>
      obtain rfl : x = b := by simpa using hb
      omega
    | cons y l =>
      by_cases hy : c < y
      · exact ⟨0, by simp, hac, hy⟩
      · obtain ⟨k, hk, h1, h2⟩ := ih y b rfl (by simpa using hb) c (by omega) hcb
        exact ⟨k + 1, by simpa using hk, h1, h2⟩

/-- C34: every cell is in exactly one level. -/
theorem C34_cover (g : CellGraph) (hsym : ∀ i j, i < g.nelem → j < g.nelem → g.Adj i j → g.Adj j i)
    (hne : 0 < g.nelem) {c : ℕ} (hc : c < g.nelem) :
    ∃! k, ∃ (h : k + 1 < (levelSchedule g).length), (levelSchedule g)[k] ≤ c ∧ c < (levelSchedule g)[k + 1] := by
  obtain ⟨h1, h2, h3⟩ := C34_levels g hsym hne
  obtain ⟨k, hk, hk1, hk2⟩ := chain_cover _ 0 g.nelem h1 h2 c (by omega) hc
  refine ⟨k, ⟨hk, hk1, hk2⟩, ?_⟩
  rintro k' ⟨hk', a, b⟩
  have hp : (levelSchedule g).Pairwise (· < ·) := by
    rw [← List.isChain_iff_pairwise]
    exact h3.imp fun a b h => h.1
  have hmono := List.pairwise_iff_getElem.1 hp
  rcases Nat.lt_trichotomy k' k with h | h | h
  · rcases Nat.eq_or_lt_of_le h with h | h
    · simp only [Nat.succ_eq_add_one] at h; subst h; omega
    · have := hmono (k' + 1) k hk' (by omega) h; omega
  · exact h
  · rcases Nat.eq_or_lt_of_le h with h | h
    · simp only [Nat.succ_eq_add_one] at h; subst h; omega
    · have := hmono (k + 1) k' hk (by omega) h; omega

/-- C34: the empty mesh has one empty level. -/
theorem C34_empty (g : CellGraph) (h : g.nelem = 0) : levelSchedule g = [0, 0] := by
  simp [levelSchedule, h, forLt_zero]

/-- Five cells `0-2`, `1-3`, `2-3`, `3-4`. -/
def exGraph : CellGraph := ⟨5, fun _ => 3, fun i f => match i, f with
  | 0, 0 => 2 | 1, 0 => 3 | 2, 0 => 0 | 2, 1 => 3 | 3, 0 => 1 | 3, 1 => 2 | 3, 2 => 4 | 4, 0 => 3 | _, _ => 9⟩

/-- Hypotheses and result for the example: levels `{0,1}`, `{2}`, `{3}`, `{4}`. -/
example : levelSchedule exGraph = [0, 2, 3, 4, 5] ∧
    ∀ i j, i < exGraph.nelem → j < exGraph.nelem → exGraph.Adj i j → exGraph.Adj j i := by
  refine ⟨by decide, ?_⟩
  have : ∀ i, i < 5 → ∀ j, j < 5 → (∃ f, f < 3 ∧ exGraph.esuel i f = j) → ∃ f, f < 3 ∧ exGraph.esuel j f = i := by decide
  exact fun i j hi hj h => this i hi j hj h

/-- Without symmetry of the adjacency the claim fails: cell 1 lists cell 0 but not conversely. -/
example : levelSchedule ⟨2, fun _ => 1, fun i _ => if i = 1 then 0 else 9⟩ = [0, 2] := by decide

/-! ### C35: lines -/

/-- Neighbours of each cell with weights, in order of decreasing weight (`LocalAnisotropies`,
src/mesh/meshordering.cpp:131-140): `(m.gesuel(c, faceIdx(c,j)), aniso(c,j))` for `j < nRealNbrs[c]`. -/
abbrev Weights := ℕ → List (ℕ × ℝ)

/-- Weights of one cell before sorting and scaling, src/mesh/meshordering.cpp:167-187: the real neighbours and the
inverse distances of the cell centres. -/
noncomputable def rawWeights (g : CellGraph) (cc : ℕ → Fin 2 → ℝ) (i : ℕ) : List (ℕ × ℝ) :=
  ((List.range (g.nfael i)).filter fun f => decide (g.esuel i f < g.nelem)).map fun f =>
    (g.esuel i f, 1 / √((cc i 0 - cc (g.esuel i f) 0) ^ 2 + (cc i 1 - cc (g.esuel i f) 1) ^ 2))

/-- `minw`, src/mesh/meshordering.cpp:165, 183-184. -/
noncomputable def minWeight (l : List (ℕ × ℝ)) : ℝ := l.foldl (fun w x => if x.2 < w then x.2 else w) 1e20

/-- `computeWeights`, src/mesh/meshordering.cpp:142-205: `la` is a possible result. The order among equal weights is
unspecified (`std::sort`). -/
def IsWeights (g : CellGraph) (cc : ℕ → Fin 2 → ℝ) (la : Weights) : Prop :=
  ∀ i, i < g.nelem → (la i).Perm ((rawWeights g cc i).map fun x => (x.1, x.2 / minWeight (rawWeights g cc i))) ∧
    (la i).Pairwise fun a b => b.2 ≤ a.2

/-- The while loop of `findLines`, src/mesh/meshordering.cpp:231-254. `none`: reading the uninitialised first weight
of a cell without real neighbours, or not ended within the given number of rounds. -/
noncomputable def lineFrom (la : Weights) (thr : ℝ) (nl : ℕ) :
    ℕ → ℕ → (ℕ → Option ℕ) → List ℕ → Option ((ℕ → Option ℕ) × List ℕ)
  | 0, _, _, _ => none
  | fuel + 1, cur, cl, L =>
    match la cur with
    | [] => none
    | (_, w0) :: _ =>
      if thr < w0 then
        match (la cur).find? fun x => decide (upd cl cur (some nl) x.1 = none) && decide (thr < x.2) with
        | none => some (upd cl cur (some nl), L ++ [cur])
        | some x => lineFrom la thr nl fuel x.1 (upd cl cur (some nl)) (L ++ [cur])
      else some (cl, L)

/-- `LineConfig`, src/mesh/details_lineordering.hpp. -/
structure LineConfig where
  celline : ℕ → Option ℕ
  lines : List (List ℕ)

/-- Body of the loop over boundary faces, src/mesh/meshordering.cpp:215-261. -/
noncomputable def lineBody (la : Weights) (thr : ℝ) (fuel belem : ℕ) (lc : LineConfig) : Option LineConfig :=
  if (lc.celline belem).isSome then some lc
  else (lineFrom la thr lc.lines.length fuel belem lc.celline []).map fun r =>
    if 1 < r.2.length then ⟨r.1, lc.lines ++ [r.2]⟩
    else if r.2.length = 1 then ⟨upd r.1 (r.2.headD 0) none, lc.lines⟩
    else ⟨r.1, lc.lines⟩

/-- `findLines`, src/mesh/meshordering.cpp:207-264; `bel` are the interior cells of the boundary faces. The inner
loop is given `nelem + 1` rounds, which is enough (`C35_total`). -/
noncomputable def findLines (nelem : ℕ) (la : Weights) (thr : ℝ) (bel : List ℕ) : Option LineConfig :=
  bel.foldl (fun s b => s.bind (lineBody la thr (nelem + 1) b)) (some ⟨fun _ => none, []⟩)

/-- The permutation of `lineReorder`, src/mesh/meshordering.cpp:37-54. -/
def lineOrdering (nelem : ℕ) (lc : LineConfig) : List ℕ :=
  lc.lines.flatten ++ (List.range nelem).filter fun c => (lc.celline c).isNone

/-- A vertex of the line-point graph, src/mesh/details_lineordering.hpp. -/
structure GVert where
  isline : Bool
  idx : ℕ

/-- `createLinePointGraphVertices`, src/mesh/meshordering.cpp:266-299: vertices. -/
def graphVerts (nlines npoints : ℕ) : List GVert :=
  (List.range nlines).map (fun i => ⟨true, i⟩) ++ (List.range npoints).map fun i => ⟨false, i⟩

/-- `pointList`, src/mesh/meshordering.cpp:276-282. -/
def pointList (nelem : ℕ) (lc : LineConfig) : List ℕ := (List.range nelem).filter fun c => (lc.celline c).isNone

/-- Cells of a graph vertex, src/mesh/meshordering.cpp:112-124. -/
def vertCells (nelem : ℕ) (lc : LineConfig) (v : GVert) : List ℕ :=
  if v.isline then lc.lines.getD v.idx [] else [(pointList nelem lc).getD v.idx 0]

/-- `getHybridLineOrdering`, src/mesh/meshordering.cpp:68-129, with the ordering `ord` of the graph vertices computed
by PETSc. -/
def hybridOrdering (nelem : ℕ) (lc : LineConfig) (ord : List ℕ) : List ℕ :=
  let gv := graphVerts lc.lines.length (pointList nelem lc).length
  (ord.map fun k => gv.getD k ⟨false, 0⟩).flatMap (vertCells nelem lc)

/-! #### Specification -/

/-- Lines as promised: at least two cells each, existing cells, consecutive cells adjacent with a weight above the
threshold, no cell twice, and the cell-to-line map consistent. -/
structure GoodLines (nelem : ℕ) (la : Weights) (thr : ℝ) (lc : LineConfig) : Prop where
  len : ∀ L ∈ lc.lines, 2 ≤ L.length
  lt : ∀ L ∈ lc.lines, ∀ c ∈ L, c < nelem
  chain : ∀ L ∈ lc.lines, L.IsChain fun a b => ∃ w, (b, w) ∈ la a ∧ thr < w
  nodup : lc.lines.flatten.Nodup
  map : ∀ c k, lc.celline c = some k ↔ ∃ L, lc.lines[k]? = some L ∧ c ∈ L

/-- The lists of weights mention existing cells only. -/
def WOk (nelem : ℕ) (la : Weights) : Prop := ∀ c, c < nelem → ∀ x ∈ la c, x.1 < nelem

/-- State of a line under construction. -/
structure LineInv (nelem : ℕ) (la : Weights) (thr : ℝ) (cl0 : ℕ → Option ℕ) (nl : ℕ) (cl : ℕ → Option ℕ)
    (L : List ℕ) : Prop where
  nodup : L.Nodup
  lt : ∀ c ∈ L, c < nelem
  free : ∀ c ∈ L, cl0 c = none
  chain : L.IsChain fun a b => ∃ w, (b, w) ∈ la a ∧ thr < w
  map : ∀ c, cl c = if c ∈ L then some nl else cl0 c

theorem LineInv.snoc {nelem : ℕ} {la : Weights} {thr : ℝ} {cl0 cl : ℕ → Option ℕ} {nl : ℕ} {L : List ℕ}
    (h : LineInv nelem la thr cl0 nl cl L) {cur : ℕ} (hc : cur < nelem) (hfree : cl cur = none)
    (hlink : ∀ a ∈ L.getLast?, ∃ w, (cur, w) ∈ la a ∧ thr < w) :
    LineInv nelem la thr cl0 nl (upd cl cur (some nl)) (L ++ [cur]) := by
  have hn : cur ∉ L ∧ cl0 cur = none := by
    have := h.map cur
    rw [hfree] at this
    by_cases hm : cur ∈ L
    · rw [if_pos hm] at this; cases this
    · rw [if_neg hm] at this; exact ⟨hm, this.symm⟩
  refine ⟨?_, ?_, ?_, ?_, ?_⟩
  · rw [List.nodup_append]
    refine ⟨h.nodup, by simp, fun a ha b hb => ?_⟩
    rw [List.mem_singleton] at hb; subst hb
    rintro rfl; exact hn.1 ha
  · intro c hc'
    rcases List.mem_append.1 hc' with h' | h'
    · exact h.lt c h'
    · rw [List.mem_singleton] at h'; subst h'; exact hc
  · intro c hc'
    rcases List.mem_append.1 hc' with h' | h'
    · exact h.free c h'
    · rw [List.mem_singleton] at h'; subst h'; exact hn.2
  · rw [List.isChain_append]
    refine ⟨h.chain, by simp, fun x hx y hy => ?_⟩
    simp only [List.head?_cons, Option.mem_def, Option.some.injEq] at hy
    subst hy
    exact hlink x hx
  · intro c
    by_cases hcc : c = cur
    · subst hcc; simp [upd_same]
    · rw [upd_ne _ _ hcc, h.map]; simp [hcc]

theorem lineFrom_inv {nelem : ℕ} {la : Weights} {thr : ℝ} {cl0 : ℕ → Option ℕ} {nl : ℕ} (hw : WOk nelem la) :
    ∀ (fuel cur : ℕ) (cl : ℕ → Option ℕ) (L : List ℕ), LineInv nelem la thr cl0 nl cl L → cur < nelem → cl cur = none →
      (∀ a ∈ L.getLast?, ∃ w, (cur, w) ∈ la a ∧ thr < w) →
      ∀ r, lineFrom la thr nl fuel cur cl L = some r → LineInv nelem la thr cl0 nl r.1 r.2 := by
  intro fuel
  induction fuel with
  | zero => intro cur cl L _ _ _ _ r h; simp [lineFrom] at h
  | succ fuel ih =>
    intro cur cl L hi hc hf hl r h
    unfold lineFrom at h
    cases hla : la cur with
    | nil => rw [hla] at h; simp at h
    | cons x0 xs =>
      rw [hla] at h
      obtain ⟨x0c, w0⟩ := x0
      simp only at h
      have hsn := hi.snoc hc hf hl
      by_cases hw0 : thr < w0
      · rw [if_pos hw0] at h
        rw [← hla] at h
        cases hfi : (la cur).find? (fun x => decide (upd cl cur (some nl) x.1 = none) && decide (thr < x.2)) with
        | none => rw [hfi] at h; simp only [Option.some.injEq] at h; subst h; exact hsn
        | some x =>
          rw [hfi] at h
          simp only at h
          have hx := List.find?_some hfi
          have hxm := List.mem_of_find?_eq_some hfi
          simp only [Bool.and_eq_true, decide_eq_true_eq] at hx
          refine ih x.1 _ _ hsn (hw cur hc x hxm) hx.1 ?_ r h
          intro a ha
          simp only [List.getLast?_append, List.getLast?_singleton, Option.some_or, Option.mem_def, Option.some.injEq] at ha
          subst ha
          exact ⟨x.2, hxm, hx.2⟩
      · rw [if_neg hw0] at h
        simp only [Option.some.injEq] at h; subst h; exact hi

theorem lineFrom_total {nelem : ℕ} {la : Weights} {thr : ℝ} {cl0 : ℕ → Option ℕ} {nl : ℕ} (hw : WOk nelem la)
    (hne : ∀ c, c < nelem → la c ≠ []) :
    ∀ (fuel cur : ℕ) (cl : ℕ → Option ℕ) (L : List ℕ), LineInv nelem la thr cl0 nl cl L → cur < nelem → cl cur = none →
      (∀ a ∈ L.getLast?, ∃ w, (cur, w) ∈ la a ∧ thr < w) → nelem < fuel + L.length →
      ∃ r, lineFrom la thr nl fuel cur cl L = some r := by
  intro fuel
  induction fuel with
  | zero =>
    intro cur cl L hi _ _ _ hlen
    have : L.length ≤ nelem := by
      have := (hi.nodup.subperm (l₂ := List.range nelem) (fun c hc => List.mem_range.2 (hi.lt c hc))).length_le
      simpa using this
    omega
  | succ fuel ih =>
    intro cur cl L hi hc hf hl hlen
    unfold lineFrom
    cases hla : la cur with
    | nil => exact absurd hla (hne cur hc)
    | cons x0 xs =>
      obtain ⟨x0c, w0⟩ := x0
      simp only
      have hsn := hi.snoc hc hf hl
      by_cases hw0 : thr < w0
      · rw [if_pos hw0, ← hla]
        cases hfi : (la cur).find? (fun x => decide (upd cl cur (some nl) x.1 = none) && decide (thr < x.2)) with
        | none => exact ⟨_, rfl⟩
        | some x =>
          have hx := List.find?_some hfi
          have hxm := List.mem_of_find?_eq_some hfi
          simp only [Bool.and_eq_true, decide_eq_true_eq] at hx
          refine ih x.1 _ _ hsn (hw cur hc x hxm) hx.1 ?_ (by simp; omega)
          intro a ha
          simp only [List.getLast?_append, List.getLast?_singleton, Option.some_or, Option.mem_def, Option.some.injEq] at ha
          subst ha
          exact ⟨x.2, hxm, hx.2⟩
      · rw [if_neg hw0]; exact ⟨_, rfl⟩

theorem lineBody_good {nelem : ℕ} {la : Weights} {thr : ℝ} {fuel b : ℕ} {lc lc' : LineConfig} (hw : WOk nelem la)
    (hb : b < nelem) (hg : GoodLines nelem la thr lc) (h : lineBody la thr fuel b lc = some lc') :
    GoodLines nelem la thr lc' := by
  unfold lineBody at h
  by_cases hs : (lc.celline b).isSome
  · rw [if_pos hs] at h; simp only [Option.some.injEq] at h; subst h; exact hg
  · rw [if_neg hs] at h
    rw [Option.map_eq_some_iff] at h
    obtain ⟨⟨cl, L⟩, hr, h⟩ := h
    have h0 : LineInv nelem la thr lc.celline lc.lines.length lc.celline [] :=
      ⟨by simp, by simp, by simp, by simp, by simp⟩
    have hi := lineFrom_inv hw fuel b lc.celline [] h0 hb (by simpa using hs) (by simp) _ hr
    simp only at h hi
    by_cases h1 : 1 < L.length
    · rw [if_pos h1] at h
      subst h
      refine ⟨?_, ?_, ?_, ?_, ?_⟩
      · intro M hM
        rcases List.mem_append.1 hM with h' | h'
        · exact hg.len M h'
        · rw [List.mem_singleton] at h'; subst h'; exact h1
      · intro M hM
        rcases List.mem_append.1 hM with h' | h'
        · exact hg.lt M h'
        · rw [List.mem_singleton] at h'; subst h'; exact hi.lt
      · intro M hM
        rcases List.mem_append.1 hM with h' | h'
        · exact hg.chain M h'
        · rw [List.mem_singleton] at h'; subst h'; exact hi.chain
      · rw [List.flatten_append, List.nodup_append]
        refine ⟨hg.nodup, by simpa using hi.nodup, fun a ha c hc => ?_⟩
        rintro rfl
        simp only [List.flatten_cons, List.flatten_nil, List.append_nil] at hc
        obtain ⟨M, hM, haM⟩ := List.mem_flatten.1 ha
        obtain ⟨k, hk⟩ := List.mem_iff_getElem?.1 hM
        have := (hg.map a k).2 ⟨M, hk, haM⟩
        rw [hi.free a hc] at this
        cases this
      · intro c k
        simp only
        rw [hi.map]
        by_cases hc : c ∈ L
        · rw [if_pos hc]
          constructor
          · intro h; obtain rfl := Option.some.inj h
            exact ⟨L, by simp, hc⟩
          · rintro ⟨M, hM, hcM⟩
            rcases Nat.lt_or_ge k lc.lines.length with hk | hk
            · rw [List.getElem?_append_left hk] at hM
              have := (hg.map c k).2 ⟨M, hM, hcM⟩
              rw [hi.free c hc] at this; cases this
            · rw [List.getElem?_append_right hk] at hM
              have : k - lc.lines.length = 0 := by
                by_contra hne
                rw [List.getElem?_eq_none (by simp; omega)] at hM; cases hM
              have : lc.lines.length = k := by omega
              rw [this]
        · rw [if_neg hc, hg.map]
          constructor
          · rintro ⟨M, hM, hcM⟩
            refine ⟨M, ?_, hcM⟩
            rw [List.getElem?_append_left (List.getElem?_eq_some_iff.1 hM).1, hM]
          · rintro ⟨M, hM, hcM⟩
            rcases Nat.lt_or_ge k lc.lines.length with hk | hk
            · rw [List.getElem?_append_left hk] at hM; exact ⟨M, hM, hcM⟩
            · rw [List.getElem?_append_right hk] at hM
              have := List.mem_of_getElem? hM
              rw [List.mem_singleton] at this
              subst this; exact absurd hcM hc
    · rw [if_neg h1] at h
      have hmap : lc'.lines = lc.lines ∧ lc'.celline = lc.celline := by
        by_cases h2 : L.length = 1
        · rw [if_pos h2] at h
          subst h
          obtain ⟨a, rfl⟩ := List.length_eq_one_iff.1 h2
          refine ⟨rfl, funext fun c => ?_⟩
          simp only [List.headD_cons]
          by_cases hc : c = a
          · subst hc; rw [upd_same, hi.free c (by simp)]
          · rw [upd_ne _ _ hc, hi.map, if_neg (by simpa using hc)]
        · rw [if_neg h2] at h
          subst h
          have : L = [] := by
            apply List.eq_nil_of_length_eq_zero; omega
          subst this
          exact ⟨rfl, funext fun c => by have := hi.map c; simpa using this⟩
      exact ⟨by rw [hmap.1]; exact hg.len, by rw [hmap.1]; exact hg.lt, by rw [hmap.1]; exact hg.chain,
        by rw [hmap.1]; exact hg.nodup, by rw [hmap.1, hmap.2]; exact hg.map⟩

/-- C35: whenever `findLines` delivers, its lines are disjoint chains of adjacent cells with weights above the
threshold, of length at least two, and the cell-to-line map is exact. -/
theorem C35_lines {nelem : ℕ} {la : Weights} {thr : ℝ} {bel : List ℕ} {lc : LineConfig} (hw : WOk nelem la)
    (hb : ∀ b ∈ bel, b < nelem) (h : findLines nelem la thr bel = some lc) : GoodLines nelem la thr lc := by
  unfold findLines at h
  induction bel using List.reverseRecOn generalizing lc with
  | nil =>
    simp only [List.foldl_nil, Option.some.injEq] at h
    subst h
    exact ⟨by simp, by simp, by simp, by simp, by simp⟩
  | append_singleton bel b ih =>
    rw [List.foldl_append, List.foldl_cons, List.foldl_nil, Option.bind_eq_some_iff] at h
    obtain ⟨lc0, h0, h1⟩ := h
    exact lineBody_good hw (hb b (by simp)) (ih (fun b hb' => hb b (by simp [hb'])) h0) h1

/-- C35: if every cell has a real neighbour, `findLines` ends for every threshold and list of boundary cells. -/
theorem C35_total {nelem : ℕ} {la : Weights} (thr : ℝ) {bel : List ℕ} (hw : WOk nelem la)
    (hne : ∀ c, c < nelem → la c ≠ []) (hb : ∀ b ∈ bel, b < nelem) : ∃ lc, findLines nelem la thr bel = some lc := by
  unfold findLines
  induction bel using List.reverseRecOn with
  | nil => exact ⟨_, rfl⟩
  | append_singleton bel b ih =>
    obtain ⟨lc0, h0⟩ := ih fun b hb' => hb b (by simp [hb'])
    rw [List.foldl_append, List.foldl_cons, List.foldl_nil, h0, Option.bind_some]
    unfold lineBody
    by_cases hs : (lc0.celline b).isSome
    · rw [if_pos hs]; exact ⟨_, rfl⟩
    · rw [if_neg hs]
      obtain ⟨r, hr⟩ := lineFrom_total (cl0 := lc0.celline) (nl := lc0.lines.length) (thr := thr) hw hne (nelem + 1) b
        lc0.celline [] ⟨by simp, by simp, by simp, by simp, by simp⟩ (hb b (by simp)) (by simpa using hs) (by simp) (by simp)
      rw [hr]; exact ⟨_, rfl⟩

/-- C35 fails for a boundary cell without real neighbours: an uninitialised weight is read. -/
theorem C35_isolated_refuted : ∃ (la : Weights) (bel : List ℕ), WOk 1 la ∧ (∀ b ∈ bel, b < 1) ∧
    ∀ thr, findLines 1 la thr bel = none :=
  ⟨fun _ => [], [0], fun c _ x hx => by simp at hx, by simp, fun thr => rfl⟩

theorem flatten_mem_iff {nelem : ℕ} {la : Weights} {thr : ℝ} {lc : LineConfig} (hg : GoodLines nelem la thr lc) (c : ℕ) :
    c ∈ lc.lines.flatten ↔ (lc.celline c).isSome := by
  rw [Option.isSome_iff_exists]
  constructor
  · intro h
    obtain ⟨M, hM, hc⟩ := List.mem_flatten.1 h
    obtain ⟨k, hk⟩ := List.mem_iff_getElem?.1 hM
    exact ⟨k, (hg.map c k).2 ⟨M, hk, hc⟩⟩
  · rintro ⟨k, hk⟩
    obtain ⟨M, hM, hc⟩ := (hg.map c k).1 hk
    exact List.mem_flatten.2 ⟨M, List.mem_of_getElem? hM, hc⟩

/-- C35: the line ordering visits every cell exactly once. -/
theorem C35_line_permutation {nelem : ℕ} {la : Weights} {thr : ℝ} {lc : LineConfig} (hg : GoodLines nelem la thr lc) :
    (lineOrdering nelem lc).Perm (List.range nelem) := by
  rw [List.perm_ext_iff_of_nodup]
  · intro c
    unfold lineOrdering
    rw [List.mem_append, flatten_mem_iff hg, List.mem_filter, List.mem_range]
    constructor
    · rintro (h | ⟨h, _⟩)
      · rw [← flatten_mem_iff hg] at h
        obtain ⟨M, hM, hc⟩ := List.mem_flatten.1 h
        exact hg.lt M hM c hc
      · exact h
    · intro h
      cases hc : lc.celline c <;> simp [h]
  · unfold lineOrdering
    rw [List.nodup_append]
    refine ⟨hg.nodup, List.nodup_range.filter _, fun a ha b hb => ?_⟩
    rintro rfl
    rw [flatten_mem_iff hg] at ha
    have := (List.mem_filter.1 hb).2
    cases h : lc.celline a <;> simp_all
  · exact List.nodup_range

/-- C35: for every ordering of the graph vertices, the hybrid ordering visits every cell exactly once. -/
theorem C35_hybrid_permutation {nelem : ℕ} {la : Weights} {thr : ℝ} {lc : LineConfig} (hg : GoodLines nelem la thr lc)
    {ord : List ℕ} (ho : ord.Perm (List.range (lc.lines.length + (pointList nelem lc).length))) :
    (hybridOrdering nelem lc ord).Perm (List.range nelem) := by
  refine List.Perm.trans ?_ (C35_line_permutation hg)
  unfold hybridOrdering
  simp only
  have hid : (List.range (lc.lines.length + (pointList nelem lc).length)).map (fun k =>
      (graphVerts lc.lines.length (pointList nelem lc).length).getD k ⟨false, 0⟩) =
      graphVerts lc.lines.length (pointList nelem lc).length := by
    apply List.ext_getElem
    · simp [graphVerts]
    · intro k h1 h2
      simp [List.getD_eq_getElem?_getD, List.getElem?_eq_getElem h2]
  have hp := ho.map fun k => (graphVerts lc.lines.length (pointList nelem lc).length).getD k ⟨false, 0⟩
  rw [hid] at hp
  refine (hp.flatMap_right _).trans ?_
  unfold graphVerts lineOrdering
  rw [List.flatMap_append]
  apply List.Perm.of_eq
  congr 1
  · rw [List.flatMap_def, List.map_map]
    congr 1
    apply List.ext_getElem
    · simp
    · intro k h1 h2
      simp [vertCells, List.getD_eq_getElem?_getD, List.getElem?_eq_getElem h2]
  · rw [List.flatMap_def, List.map_map]
    have : ((List.range (pointList nelem lc).length).map (vertCells nelem lc ∘ fun i => ⟨false, i⟩)) =
        (pointList nelem lc).map fun c => [c] := by
      apply List.ext_getElem
      · simp
      · intro k h1 h2
        simp only [List.length_map] at h2
        simp [vertCells, List.getD_eq_getElem?_getD, List.getElem?_eq_getElem h2]
    rw [this, ← List.flatMap_def, List.flatMap_singleton']
    rfl

/-- C35: each line's cells are consecutive and in order in both orderings. -/
theorem C35_contiguous {nelem : ℕ} {lc : LineConfig} {ord : List ℕ}
    (ho : ord.Perm (List.range (lc.lines.length + (pointList nelem lc).length))) {L : List ℕ} (hL : L ∈ lc.lines) :
    L <:+: lineOrdering nelem lc ∧ L <:+: hybridOrdering nelem lc ord := by
  constructor
  · exact (List.infix_of_mem_flatten hL).trans (List.prefix_append _ _).isInfix
  · unfold hybridOrdering
    simp only
    rw [List.flatMap_def]
    apply List.infix_of_mem_flatten
    obtain ⟨k, hk⟩ := List.mem_iff_getElem?.1 hL
    have hkl := (List.getElem?_eq_some_iff.1 hk).1
    rw [List.map_map, List.mem_map]
    refine ⟨k, ho.mem_iff.2 (List.mem_range.2 (by omega)), ?_⟩
    have : (graphVerts lc.lines.length (pointList nelem lc).length)[k]? = some ⟨true, k⟩ := by
      unfold graphVerts
      rw [List.getElem?_append_left (by simpa using hkl)]
      simp [hkl]
    simp [this, vertCells, List.getD_eq_getElem?_getD, hk]

/-- C35: hence both orderings are permutations in the sense of `reorder_cells` (C30). -/
theorem C35_isPerm {nelem : ℕ} {l : List ℕ} (h : l.Perm (List.range nelem)) : IsPerm nelem fun i => l.getD i 0 := by
  have hlen : l.length = nelem := by simpa using h.length_eq
  have hnd : l.Nodup := h.nodup_iff.2 List.nodup_range
  constructor
  · intro i hi
    have hi' : i < l.length := by omega
    simp only [List.getD_eq_getElem?_getD, List.getElem?_eq_getElem hi', Option.getD_some]
    exact List.mem_range.1 (h.mem_iff.1 (List.getElem_mem hi'))
  · intro i j hi hj heq
    have hi' : i < l.length := by omega
    have hj' : j < l.length := by omega
    simp only [List.getD_eq_getElem?_getD, List.getElem?_eq_getElem hi', List.getElem?_eq_getElem hj', Option.getD_some] at heq
    exact (hnd.getElem_inj_iff).1 heq

/-- The weights computed from a mesh refer to existing, adjacent cells. -/
theorem isWeights_ok {g : CellGraph} {cc : ℕ → Fin 2 → ℝ} {la : Weights} (h : IsWeights g cc la) :
    WOk g.nelem la ∧ ∀ c, c < g.nelem → ∀ x ∈ la c, g.Adj c x.1 := by
  have key : ∀ c, c < g.nelem → ∀ x ∈ la c, x.1 < g.nelem ∧ g.Adj c x.1 := by
    intro c hc x hx
    have := (h c hc).1.mem_iff.1 hx
    simp only [rawWeights, List.map_map, List.mem_map, List.mem_filter, List.mem_range, decide_eq_true_eq,
      Function.comp_apply] at this
    obtain ⟨f, ⟨hf, hlt⟩, rfl⟩ := this
    exact ⟨hlt, f, hf, rfl⟩
  exact ⟨fun c hc x hx => (key c hc x hx).1, fun c hc x hx => (key c hc x hx).2⟩

/-- C35 for meshes: with the weights computed from any mesh, consecutive cells of a line are neighbours. -/
theorem C35_lines_adjacent {g : CellGraph} {cc : ℕ → Fin 2 → ℝ} {la : Weights} (h : IsWeights g cc la) {thr : ℝ}
    {bel : List ℕ} {lc : LineConfig} (hb : ∀ b ∈ bel, b < g.nelem) (hf : findLines g.nelem la thr bel = some lc)
    {L : List ℕ} (hL : L ∈ lc.lines) : L.IsChain g.Adj := by
  obtain ⟨hw, ha⟩ := isWeights_ok h
  have hg := C35_lines hw hb hf
  have hc := hg.chain L hL
  have hlt := hg.lt L hL
  rw [List.isChain_iff_getElem] at hc ⊢
  intro i hi
  obtain ⟨w, hw, _⟩ := hc i hi
  exact ha _ (hlt _ (List.getElem_mem (by omega))) _ hw

theorem minWeight_attained {l : List (ℕ × ℝ)} (hl : l ≠ []) (h : ∀ x ∈ l, x.2 ≤ 1e20) : ∃ x ∈ l, minWeight l = x.2 := by
  have key : ∀ (l : List (ℕ × ℝ)) (a : ℝ), (l.foldl (fun w x => if x.2 < w then x.2 else w) a = a ∧ ∀ x ∈ l, a ≤ x.2) ∨
      ∃ x ∈ l, l.foldl (fun w x => if x.2 < w then x.2 else w) a = x.2 := by
    intro l
    induction l with
    | nil => intro a; exact .inl ⟨rfl, by simp⟩
    | cons y l ih =>
      intro a
      rw [List.foldl_cons]
      rcases ih (if y.2 < a then y.2 else a) with ⟨h1, h2⟩ | ⟨x, hx, h1⟩
      · by_cases hy : y.2 < a
        · rw [if_pos hy] at h1
          exact .inr ⟨y, by simp, by rw [if_pos hy]; exact h1⟩
        · rw [if_neg hy] at h1 h2
          refine .inl ⟨by rw [if_neg hy]; exact h1, fun x hx => ?_⟩
          rcases List.mem_cons.1 hx with rfl | hx
          · exact not_lt.1 hy
          · exact h2 x hx
      · exact .inr ⟨x, by simp [hx], h1⟩
  rcases key l 1e20 with ⟨h1, h2⟩ | h1
  · obtain ⟨x, hx⟩ := List.exists_mem_of_ne_nil l hl
    exact ⟨x, hx, h1.trans (le_antisymm (h2 x hx) (h x hx))⟩
  · exact h1

/-- Distance of two points. -/
noncomputable def euclid (x y : Fin 2 → ℝ) : ℝ := √((x 0 - y 0) ^ 2 + (x 1 - y 1) ^ 2)

/-- C35, what lines mean: where a line goes on from a cell to the next, the cell has a neighbour whose centre is more than the threshold times as far away as that of the next cell. (Centres of
neighbours that are less than `1e-20` apart are excluded, because the search for the largest distance starts there.) -/
theorem C35_anisotropy {g : CellGraph} {cc : ℕ → Fin 2 → ℝ} {la : Weights} (h : IsWeights g cc la) (hsep : ∀ i j, i < g.nelem → j < g.nelem → g.Adj i j → 1e-20 ≤ euclid (cc i) (cc j))
    {thr : ℝ} {bel : List ℕ} {lc : LineConfig} (hb : ∀ b ∈ bel, b < g.nelem) (hf : findLines g.nelem la thr bel = some lc) {L : List ℕ} (hL : L ∈ lc.lines) :
    L.IsChain fun c d => ∃ e, e < g.nelem ∧ g.Adj c e ∧ thr * euclid (cc c) (cc d) < euclid (cc c) (cc e) := by
  have hg := C35_lines (isWeights_ok h).1 hb hf
  have hc := hg.chain L hL
  have hlt := hg.lt L hL
  rw [List.isChain_iff_getElem] at hc ⊢
  intro i hi
  obtain ⟨w, hw, hthr⟩ := hc i hi
  have hci : L[i] < g.nelem := hlt _ (List.getElem_mem (by omega))
  generalize L[i] = c at *
  generalize L[i + 1] = d at *
  have hmem : ∀ x ∈ rawWeights g cc c, x.1 < g.nelem ∧ g.Adj c x.1 ∧ x.2 = 1 / euclid (cc c) (cc x.1) := by
    intro x hx
    simp only [rawWeights, List.mem_map, List.mem_filter, List.mem_range, decide_eq_true_eq] at hx
    obtain ⟨f, ⟨hf, hlt⟩, rfl⟩ := hx
    exact ⟨hlt, ⟨f, hf, rfl⟩, rfl⟩
  have hx := (h c hci).1.mem_iff.1 hw
  obtain ⟨x, hx, hxe⟩ := List.mem_map.1 hx
  have hx1 : x.1 = d := congrArg Prod.fst hxe
  have hx2 : x.2 / minWeight (rawWeights g cc c) = w := congrArg Prod.snd hxe
  obtain ⟨y, hy, hmin⟩ := minWeight_attained (l := rawWeights g cc c) (List.ne_nil_of_mem hx) fun z hz => by
    obtain ⟨z1, z2, z3⟩ := hmem z hz
    have := hsep c z.1 hci z1 z2
    rw [z3, div_le_iff₀ (by linarith [show (0 : ℝ) < 1e-20 by norm_num])]
    have e : (1 : ℝ) = 1e20 * 1e-20 := by norm_num
    nlinarith [show (0 : ℝ) < 1e20 by norm_num]
  obtain ⟨x3, x4, x5⟩ := hmem x hx
  obtain ⟨y3, y4, y5⟩ := hmem y hy
  rw [hx1] at x3 x4 x5
  have px := hsep c d hci x3 x4
  have py := hsep c y.1 hci y3 y4
  have p0 : (0 : ℝ) < 1e-20 := by norm_num
  refine ⟨y.1, y3, y4, ?_⟩
  rw [hmin, x5, y5] at hx2
  rw [← hx2] at hthr
  have : 1 / euclid (cc c) (cc d) / (1 / euclid (cc c) (cc y.1)) = euclid (cc c) (cc y.1) / euclid (cc c) (cc d) := by
    field_simp
  rw [this, lt_div_iff₀ (by linarith)] at hthr
  exact hthr

/-- Three cells in a row with strong coupling 0-1-2, and a fourth weakly coupled to cell 2. -/
noncomputable def exW : Weights := fun c => match c with
  | 0 => [(1, 4)] | 1 => [(0, 4), (2, 4)] | 2 => [(1, 4), (3, 1)] | 3 => [(2, 1)] | _ => []

/-- Starting from boundary cells 0 and 3 with threshold 2 one line is found, and cell 3 stays a point. -/
example : findLines 4 exW 2 [0, 3] = some ⟨fun c => if c = 0 ∨ c = 1 ∨ c = 2 then some 0 else none, [[0, 1, 2]]⟩ ∧
    WOk 4 exW ∧ ∀ c, c < 4 → exW c ≠ [] := by
  refine ⟨?_, ?_, ?_⟩
  · have h42 : (2 : ℝ) < 4 := by norm_num
    have h21 : ¬ (2 : ℝ) < 1 := by norm_num
    have s2 : lineFrom exW 2 0 3 2 (upd (upd (fun _ => none) 0 (some 0)) 1 (some 0)) [0, 1] =
        some (upd (upd (upd (fun _ => none) 0 (some 0)) 1 (some 0)) 2 (some 0), [0, 1, 2]) := by
      simp [lineFrom, exW, h42, h21, upd]
    have s1 : lineFrom exW 2 0 4 1 (upd (fun _ => none) 0 (some 0)) [0] =
        some (upd (upd (upd (fun _ => none) 0 (some 0)) 1 (some 0)) 2 (some 0), [0, 1, 2]) := by
      rw [← s2]
      conv_lhs => unfold lineFrom
      simp [exW, h42, upd]
    have s0 : lineFrom exW 2 0 5 0 (fun _ => none) [] =
        some (upd (upd (upd (fun _ => none) 0 (some 0)) 1 (some 0)) 2 (some 0), [0, 1, 2]) := by
      rw [← s1]
      conv_lhs => unfold lineFrom
      simp [exW, h42, upd]
    have s3 : ∀ cl, lineFrom exW 2 1 5 3 cl [] = some (cl, []) := by
      intro cl
      unfold lineFrom
      simp [exW, h21]
    have hcl : upd (upd (upd (fun _ => none) 0 (some 0)) 1 (some 0)) 2 (some 0) =
        fun c => if c = 0 ∨ c = 1 ∨ c = 2 then some 0 else none := by
      funext c
      by_cases h0 : c = 0 <;> by_cases h1 : c = 1 <;> by_cases h2 : c = 2 <;> simp [h0, h1, h2, upd]
    simp [findLines, lineBody, s0, s3, hcl]
  · intro c hc x hx
    have : c = 0 ∨ c = 1 ∨ c = 2 ∨ c = 3 := by omega
    rcases this with rfl | rfl | rfl | rfl <;> simp [exW] at hx <;> (try rcases hx with rfl | rfl) <;> simp_all
  · intro c hc
    have : c = 0 ∨ c = 1 ∨ c = 2 ∨ c = 3 := by omega
    rcases this with rfl | rfl | rfl | rfl <;> simp [exW]

end Msh
end FVENS
