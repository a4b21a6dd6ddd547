import Verif.Mesh.Sub
import Verif.FV.Race

/-!
# Comparison of meshes (C78) and the subdomain of a single rank (C79)
-/

namespace FVENS
namespace Msh

/-! ### Model -/

/-- The eight answers, src/mesh/ameshutils.hpp:33-43: numbers of cells, points and boundary faces, vertices per cell,
faces per cell, cell vertices, boundary faces, coordinates. -/
structure CmpFlags where
  nelem : Bool
  npoin : Bool
  nbface : Bool
  nnode : Bool
  nfael : Bool
  inpoel : Bool
  bface : Bool
  coords : Bool
deriving DecidableEq

/-- Loop over the cells, src/mesh/ameshutils.cpp:210-225, from the given cells on. The first two `break`s leave this loop, the
third only the loop over the vertices. Reading a cell the second mesh does not have is undefined. -/
def cmpCells (m1 m2 : Mesh) : List ℕ → CmpFlags → Option CmpFlags
  | [], f => some f
  | i :: l, f =>
    if m2.nelem ≤ i then none
    else if m1.nnode i ≠ m2.nnode i then some { f with nnode := false }
    else if m1.nfael i ≠ m2.nfael i then some { f with nfael := false }
    else cmpCells m1 m2 l
      (if (List.range (m1.nnode i)).any fun j => decide (m1.inpoel i j ≠ m2.inpoel i j) then { f with inpoel := false } else f)

open Classical in
/-- Loop over the points, src/mesh/ameshutils.cpp:226-233. -/
noncomputable def cmpPoints (eps : ℝ) (m1 m2 : Mesh) : List ℕ → CmpFlags → Option CmpFlags
  | [], f => some f
  | i :: l, f =>
    if m2.npoin ≤ i then none
    else cmpPoints eps m1 m2 l (if ∃ j : Fin 2, eps < |m1.coords i j - m2.coords i j| then { f with coords := false } else f)

/-- Column `j` of the boundary face array: two points, then the tags (src/mesh/mesh.hpp:339-345). -/
def bfaceCol (m : Mesh) (i j : ℕ) : ℕ := if j < 2 then m.bface i j else m.btag i (j - 2)

/-- Comparison of one boundary face, src/mesh/ameshutils.cpp:236-240. A column the second mesh does not have is out of range
(an assertion failure in debug builds, src/utilities/aarray2d.hpp:131-137). -/
def cmpRow (m1 m2 : Mesh) (i : ℕ) : List ℕ → CmpFlags → Option CmpFlags
  | [], f => some f
  | j :: l, f =>
    if 2 + m2.nbtag ≤ j then none
    else if bfaceCol m1 i j ≠ bfaceCol m2 i j then some { f with bface := false }
    else cmpRow m1 m2 i l f

/-- Loop over the boundary faces, src/mesh/ameshutils.cpp:235-240. -/
def cmpBfaces (m1 m2 : Mesh) : List ℕ → CmpFlags → Option CmpFlags
  | [], f => some f
  | i :: l, f =>
    if m2.nbface ≤ i then none
    else (cmpRow m1 m2 i (List.range (2 + m1.nbtag)) f).bind (cmpBfaces m1 m2 l)

/-- `compareMeshes`, src/mesh/ameshutils.cpp:198-243. `eps` is the machine epsilon. -/
noncomputable def compareMeshes (eps : ℝ) (m1 m2 : Mesh) : Option CmpFlags :=
  (cmpCells m1 m2 (List.range m1.nelem) ⟨decide (m1.nelem = m2.nelem), decide (m1.npoin = m2.npoin),
    decide (m1.nbface = m2.nbface), true, true, true, true, true⟩).bind fun f =>
  (cmpPoints eps m1 m2 (List.range m1.npoin) f).bind fun f => cmpBfaces m1 m2 (List.range m1.nbface) f

/-! ### Specification -/

/-- All answers are "equal". -/
def allEqual : CmpFlags := ⟨true, true, true, true, true, true, true, true⟩

/-- Two meshes agree: same sizes, the same cells with the same vertices, the same boundary faces with the same tags, and
coordinates differing by no more than `eps`. -/
structure Agree (eps : ℝ) (m1 m2 : Mesh) : Prop where
  nelem : m1.nelem = m2.nelem
  npoin : m1.npoin = m2.npoin
  nbface : m1.nbface = m2.nbface
  nnode : ∀ i, i < m1.nelem → m1.nnode i = m2.nnode i
  nfael : ∀ i, i < m1.nelem → m1.nfael i = m2.nfael i
  inpoel : ∀ i, i < m1.nelem → ∀ j, j < m1.nnode i → m1.inpoel i j = m2.inpoel i j
  bface : ∀ k, k < m1.nbface → m1.bface k 0 = m2.bface k 0 ∧ m1.bface k 1 = m2.bface k 1
  btag : ∀ k, k < m1.nbface → ∀ t, t < m1.nbtag → m1.btag k t = m2.btag k t
  coords : ∀ p, p < m1.npoin → ∀ d : Fin 2, |m1.coords p d - m2.coords p d| ≤ eps

/-! ### The loops -/

variable {m1 m2 : Mesh} {eps : ℝ}

theorem cmpCells_spec (l : List ℕ) (f : CmpFlags) {r : CmpFlags} (h : cmpCells m1 m2 l f = some r) :
    r.nelem = f.nelem ∧ r.npoin = f.npoin ∧ r.nbface = f.nbface ∧ r.bface = f.bface ∧ r.coords = f.coords ∧
    ((r.nnode = true ∧ r.nfael = true ∧ r.inpoel = true) ↔ (f.nnode = true ∧ f.nfael = true ∧ f.inpoel = true) ∧
      ∀ i ∈ l, m1.nnode i = m2.nnode i ∧ m1.nfael i = m2.nfael i ∧ ∀ j, j < m1.nnode i → m1.inpoel i j = m2.inpoel i j) := by
  induction l generalizing f with
  | nil => simp only [cmpCells, Option.some.injEq] at h; subst h; simp
  | cons i l ih =>
    rw [cmpCells] at h
    split at h
    · simp at h
    · split at h
      · rename_i hne
        simp only [Option.some.injEq] at h; subst h
        refine ⟨rfl, rfl, rfl, rfl, rfl, ?_⟩
        simp [hne]
      · split at h
        · rename_i hne
          simp only [Option.some.injEq] at h; subst h
          refine ⟨rfl, rfl, rfl, rfl, rfl, ?_⟩
          simp [hne]
        · rename_i h1 h2
          have e1 : m1.nnode i = m2.nnode i := not_not.1 h1
          have e2 : m1.nfael i = m2.nfael i := not_not.1 h2
          obtain ⟨a1, a2, a3, a4, a5, a6⟩ := ih _ h
          by_cases ha : ((List.range (m1.nnode i)).any fun j => decide (m1.inpoel i j ≠ m2.inpoel i j)) = true
          · rw [if_pos ha] at a1 a2 a3 a4 a5 a6
            refine ⟨a1, a2, a3, a4, a5, ?_⟩
            rw [a6]
            simp only [List.any_eq_true, List.mem_range, decide_eq_true_eq] at ha
            obtain ⟨j, hj, hne⟩ := ha
            simp only [Bool.false_eq_true, and_false, false_and, List.mem_cons, forall_eq_or_imp, false_iff, not_and]
            intro _ h3
            exact absurd (h3.2.2 j hj) hne
          · rw [if_neg ha] at a1 a2 a3 a4 a5 a6
            refine ⟨a1, a2, a3, a4, a5, ?_⟩
            rw [a6]
            simp only [List.any_eq_true, List.mem_range, decide_eq_true_eq, not_exists, not_and, not_not] at ha
            simp only [List.mem_cons, forall_eq_or_imp]
            exact and_congr_right fun _ => ⟨fun h => ⟨⟨e1, e2, ha⟩, h⟩, fun h => h.2⟩

theorem cmpCells_some (l : List ℕ) (f : CmpFlags) (h : ∀ i ∈ l, i < m2.nelem) : ∃ r, cmpCells m1 m2 l f = some r := by
  induction l generalizing f with
  | nil => exact ⟨f, rfl⟩
  | cons i l ih =>
    rw [cmpCells, if_neg (by have := h i (by simp); omega)]
    split
    · exact ⟨_, rfl⟩
    · split
      · exact ⟨_, rfl⟩
      · exact ih _ fun i hi => h i (by simp [hi])

theorem cmpPoints_spec (l : List ℕ) (f : CmpFlags) {r : CmpFlags} (h : cmpPoints eps m1 m2 l f = some r) :
    r.nelem = f.nelem ∧ r.npoin = f.npoin ∧ r.nbface = f.nbface ∧ r.nnode = f.nnode ∧ r.nfael = f.nfael ∧ r.inpoel = f.inpoel ∧
    r.bface = f.bface ∧ (r.coords = true ↔ f.coords = true ∧ ∀ i ∈ l, ∀ j : Fin 2, |m1.coords i j - m2.coords i j| ≤ eps) := by
  induction l generalizing f with
  | nil => simp only [cmpPoints, Option.some.injEq] at h; subst h; simp
  | cons i l ih =>
    rw [cmpPoints] at h
    split at h
    · simp at h
    · obtain ⟨a1, a2, a3, a4, a5, a6, a7, a8⟩ := ih _ h
      by_cases ha : ∃ j : Fin 2, eps < |m1.coords i j - m2.coords i j|
      · rw [if_pos ha] at a1 a2 a3 a4 a5 a6 a7 a8
        refine ⟨a1, a2, a3, a4, a5, a6, a7, ?_⟩
        rw [a8]
        obtain ⟨j, hj⟩ := ha
        simp only [Bool.false_eq_true, false_and, List.mem_cons, forall_eq_or_imp, false_iff, not_and]
        intro _ h3
        exact absurd (h3 j) (not_le.2 hj)
      · rw [if_neg ha] at a1 a2 a3 a4 a5 a6 a7 a8
        refine ⟨a1, a2, a3, a4, a5, a6, a7, ?_⟩
        rw [a8]
        push Not at ha
        simp only [List.mem_cons, forall_eq_or_imp]
        exact and_congr_right fun _ => ⟨fun h => ⟨ha, h⟩, fun h => h.2⟩

theorem cmpPoints_some_iff (l : List ℕ) (f : CmpFlags) : (∃ r, cmpPoints eps m1 m2 l f = some r) ↔ ∀ i ∈ l, i < m2.npoin := by
  induction l generalizing f with
  | nil => simp [cmpPoints]
  | cons i l ih =>
    rw [cmpPoints]
    by_cases hi : m2.npoin ≤ i
    · rw [if_pos hi]
      simp only [reduceCtorEq, exists_false, List.mem_cons, forall_eq_or_imp, false_iff, not_and]
      intro h; omega
    · rw [if_neg hi, ih]
      simp only [List.mem_cons, forall_eq_or_imp]
      exact ⟨fun h => ⟨by omega, h⟩, fun h => h.2⟩

theorem cmpRow_spec (i : ℕ) (l : List ℕ) (f : CmpFlags) {r : CmpFlags} (h : cmpRow m1 m2 i l f = some r) :
    r.nelem = f.nelem ∧ r.npoin = f.npoin ∧ r.nbface = f.nbface ∧ r.nnode = f.nnode ∧ r.nfael = f.nfael ∧ r.inpoel = f.inpoel ∧
    r.coords = f.coords ∧ (r.bface = true ↔ f.bface = true ∧ ∀ j ∈ l, bfaceCol m1 i j = bfaceCol m2 i j) := by
  induction l generalizing f with
  | nil => simp only [cmpRow, Option.some.injEq] at h; subst h; simp
  | cons j l ih =>
    rw [cmpRow] at h
    split at h
    · simp at h
    · split at h
      · rename_i hne
        simp only [Option.some.injEq] at h; subst h
        refine ⟨rfl, rfl, rfl, rfl, rfl, rfl, rfl, ?_⟩
        simp [hne]
      · rename_i he
        obtain ⟨a1, a2, a3, a4, a5, a6, a7, a8⟩ := ih _ h
        refine ⟨a1, a2, a3, a4, a5, a6, a7, ?_⟩
        rw [a8]
        simp only [List.mem_cons, forall_eq_or_imp]
        exact and_congr_right fun _ => ⟨fun h => ⟨not_not.1 he, h⟩, fun h => h.2⟩

theorem cmpRow_some (i : ℕ) (l : List ℕ) (f : CmpFlags) (h : ∀ j ∈ l, j < 2 + m2.nbtag) : ∃ r, cmpRow m1 m2 i l f = some r := by
  induction l generalizing f with
  | nil => exact ⟨f, rfl⟩
  | cons j l ih =>
    rw [cmpRow, if_neg (by have := h j (by simp); omega)]
    split
    · exact ⟨_, rfl⟩
    · exact ih _ fun i hi => h i (by simp [hi])

theorem cmpBfaces_spec (l : List ℕ) (f : CmpFlags) {r : CmpFlags} (h : cmpBfaces m1 m2 l f = some r) :
    r.nelem = f.nelem ∧ r.npoin = f.npoin ∧ r.nbface = f.nbface ∧ r.nnode = f.nnode ∧ r.nfael = f.nfael ∧ r.inpoel = f.inpoel ∧
    r.coords = f.coords ∧ (r.bface = true ↔ f.bface = true ∧ ∀ i ∈ l, ∀ j, j < 2 + m1.nbtag → bfaceCol m1 i j = bfaceCol m2 i j) := by
  induction l generalizing f with
  | nil => simp only [cmpBfaces, Option.some.injEq] at h; subst h; simp
  | cons i l ih =>
    rw [cmpBfaces] at h
    split at h
    · simp at h
    · rw [Option.bind_eq_some_iff] at h
      obtain ⟨f', h1, h2⟩ := h
      obtain ⟨b1, b2, b3, b4, b5, b6, b7, b8⟩ := cmpRow_spec i _ f h1
      obtain ⟨a1, a2, a3, a4, a5, a6, a7, a8⟩ := ih _ h2
      refine ⟨a1.trans b1, a2.trans b2, a3.trans b3, a4.trans b4, a5.trans b5, a6.trans b6, a7.trans b7, ?_⟩
      rw [a8, b8]
      simp only [List.mem_cons, forall_eq_or_imp, List.mem_range, and_assoc]

theorem cmpBfaces_some (l : List ℕ) (f : CmpFlags) (h : ∀ j ∈ l, j < m2.nbface) (ht : m1.nbtag ≤ m2.nbtag) :
    ∃ r, cmpBfaces m1 m2 l f = some r := by
  induction l generalizing f with
  | nil => exact ⟨f, rfl⟩
  | cons i l ih =>
    rw [cmpBfaces, if_neg (by have := h i (by simp); omega)]
    obtain ⟨r, hr⟩ := cmpRow_some (m1 := m1) (m2 := m2) i (List.range (2 + m1.nbtag)) f (by
      intro j hj; rw [List.mem_range] at hj; omega)
    rw [hr]
    exact ih _ fun i hi => h i (by simp [hi])

/-! ### C78 -/

/-- What a returned set of answers says. -/
theorem compare_spec {r : CmpFlags} (h : compareMeshes eps m1 m2 = some r) :
    (r.nelem = true ↔ m1.nelem = m2.nelem) ∧ (r.npoin = true ↔ m1.npoin = m2.npoin) ∧ (r.nbface = true ↔ m1.nbface = m2.nbface) ∧
    ((r.nnode = true ∧ r.nfael = true ∧ r.inpoel = true) ↔ ∀ i, i < m1.nelem →
      m1.nnode i = m2.nnode i ∧ m1.nfael i = m2.nfael i ∧ ∀ j, j < m1.nnode i → m1.inpoel i j = m2.inpoel i j) ∧
    (r.bface = true ↔ ∀ k, k < m1.nbface → ∀ j, j < 2 + m1.nbtag → bfaceCol m1 k j = bfaceCol m2 k j) ∧
    (r.coords = true ↔ ∀ p, p < m1.npoin → ∀ d : Fin 2, |m1.coords p d - m2.coords p d| ≤ eps) := by
  unfold compareMeshes at h
  rw [Option.bind_eq_some_iff] at h
  obtain ⟨f1, h1, h⟩ := h
  rw [Option.bind_eq_some_iff] at h
  obtain ⟨f2, h2, h3⟩ := h
  obtain ⟨a1, a2, a3, a4, a5, a6⟩ := cmpCells_spec _ _ h1
  obtain ⟨b1, b2, b3, b4, b5, b6, b7, b8⟩ := cmpPoints_spec _ _ h2
  obtain ⟨c1, c2, c3, c4, c5, c6, c7, c8⟩ := cmpBfaces_spec _ _ h3
  refine ⟨?_, ?_, ?_, ?_, ?_, ?_⟩
  · rw [c1, b1, a1, decide_eq_true_iff]
  · rw [c2, b2, a2, decide_eq_true_iff]
  · rw [c3, b3, a3, decide_eq_true_iff]
  · rw [c4, b4, c5, b5, c6, b6, a6]; simp
  · rw [c8, b7, a4]; simp
  · rw [c7, b8, a5]; simp

theorem bfaceCol_iff (k : ℕ) : (∀ j, j < 2 + m1.nbtag → bfaceCol m1 k j = bfaceCol m2 k j) ↔
    (m1.bface k 0 = m2.bface k 0 ∧ m1.bface k 1 = m2.bface k 1) ∧ ∀ t, t < m1.nbtag → m1.btag k t = m2.btag k t := by
  constructor
  · intro h
    refine ⟨⟨by simpa [bfaceCol] using h 0 (by omega), by simpa [bfaceCol] using h 1 (by omega)⟩, fun t ht => ?_⟩
    have := h (t + 2) (by omega)
    unfold bfaceCol at this
    rw [if_neg (by omega), if_neg (by omega)] at this
    simpa using this
  · rintro ⟨⟨h0, h1⟩, h2⟩ j hj
    unfold bfaceCol
    by_cases hj2 : j < 2
    · rw [if_pos hj2, if_pos hj2]
      rcases Nat.lt_succ_iff_lt_or_eq.1 hj2 with h | rfl
      · obtain rfl : j = 0 := by omega
        exact h0
      · exact h1
    · rw [if_neg hj2, if_neg hj2]; exact h2 _ (by omega)

/-- C78: if every answer is "equal" the meshes agree. -/
theorem C78_sound (h : compareMeshes eps m1 m2 = some allEqual) : Agree eps m1 m2 := by
  obtain ⟨h1, h2, h3, h4, h5, h6⟩ := compare_spec h
  have c := h4.1 ⟨rfl, rfl, rfl⟩
  have b := fun k hk => (bfaceCol_iff (m1 := m1) (m2 := m2) k).1 (h5.1 rfl k hk)
  exact ⟨h1.1 rfl, h2.1 rfl, h3.1 rfl, fun i hi => (c i hi).1, fun i hi => (c i hi).2.1, fun i hi => (c i hi).2.2,
    fun k hk => (b k hk).1, fun k hk => (b k hk).2, h6.1 rfl⟩

/-- C78: meshes that agree (and have no fewer tags in the second) are found equal. -/
theorem C78_complete (h : Agree eps m1 m2) (ht : m1.nbtag ≤ m2.nbtag) : compareMeshes eps m1 m2 = some allEqual := by
  have hex : ∃ r, compareMeshes eps m1 m2 = some r := by
    unfold compareMeshes
    obtain ⟨f1, h1⟩ := cmpCells_some (m1 := m1) (m2 := m2) (List.range m1.nelem) _ (by
      intro i hi; rw [List.mem_range] at hi; rw [← h.nelem]; exact hi)
    rw [h1, Option.bind_some]
    obtain ⟨f2, h2⟩ := (cmpPoints_some_iff (eps := eps) (m1 := m1) (m2 := m2) (List.range m1.npoin) f1).2 (by
      intro i hi; rw [List.mem_range] at hi; rw [← h.npoin]; exact hi)
    rw [h2, Option.bind_some]
    exact cmpBfaces_some _ _ (by intro i hi; rw [List.mem_range] at hi; rw [← h.nbface]; exact hi) ht
  obtain ⟨r, hr⟩ := hex
  obtain ⟨h1, h2, h3, h4, h5, h6⟩ := compare_spec hr
  obtain ⟨c1, c2, c3⟩ := h4.2 fun i hi => ⟨h.nnode i hi, h.nfael i hi, h.inpoel i hi⟩
  rw [hr, Option.some.injEq]
  have e5 := h5.2 fun k hk => (bfaceCol_iff k).2 ⟨h.bface k hk, h.btag k hk⟩
  have e1 := h1.2 h.nelem
  have e2 := h2.2 h.npoin
  have e3 := h3.2 h.nbface
  have e6 := h6.2 h.coords
  cases r
  simp only at *
  subst c1 c2 c3 e1 e2 e3 e5 e6
  rfl

/-- C78, the part of the documented answers that holds: the three sizes, the boundary faces and the coordinates are each
answered correctly, and the answers on cells are correct taken together. Missing: the answers on cells one by one
(`C78_refuted`) and any answer when the second mesh is the smaller (`C78_smaller_refuted`). -/
theorem C78_partial {r : CmpFlags} (h : compareMeshes eps m1 m2 = some r) :
    (r.nelem = true ↔ m1.nelem = m2.nelem) ∧ (r.npoin = true ↔ m1.npoin = m2.npoin) ∧ (r.nbface = true ↔ m1.nbface = m2.nbface) ∧
    ((r.nnode = true ∧ r.nfael = true ∧ r.inpoel = true) ↔ ∀ i, i < m1.nelem →
      m1.nnode i = m2.nnode i ∧ m1.nfael i = m2.nfael i ∧ ∀ j, j < m1.nnode i → m1.inpoel i j = m2.inpoel i j) ∧
    (r.bface = true ↔ ∀ k, k < m1.nbface → (m1.bface k 0 = m2.bface k 0 ∧ m1.bface k 1 = m2.bface k 1) ∧
      ∀ t, t < m1.nbtag → m1.btag k t = m2.btag k t) ∧
    (r.coords = true ↔ ∀ p, p < m1.npoin → ∀ d : Fin 2, |m1.coords p d - m2.coords p d| ≤ eps) := by
  obtain ⟨h1, h2, h3, h4, h5, h6⟩ := compare_spec h
  refine ⟨h1, h2, h3, h4, h5.trans ?_, h6⟩
  exact forall_congr' fun k => imp_congr_right fun _ => bfaceCol_iff k

/-- C78: with fewer points or boundary faces in the second mesh nothing is answered: the loops run to the counts of the
first mesh and read behind the end of the second. -/
theorem C78_smaller_refuted (h : m2.npoin < m1.npoin ∨ m2.nbface < m1.nbface) : compareMeshes eps m1 m2 = none := by
  unfold compareMeshes
  cases h1 : cmpCells m1 m2 (List.range m1.nelem) _ with
  | none => rfl
  | some f1 =>
    rw [Option.bind_some]
    cases h2 : cmpPoints eps m1 m2 (List.range m1.npoin) f1 with
    | none => rfl
    | some f2 =>
      rw [Option.bind_some]
      have hp := (cmpPoints_some_iff _ _).1 ⟨f2, h2⟩
      have hb : m2.nbface < m1.nbface := by
        refine h.resolve_left fun hlt => ?_
        have := hp m2.npoin (List.mem_range.2 hlt)
        omega
      have key : ∀ (l : List ℕ) (f : CmpFlags), m2.nbface ∈ l → cmpBfaces m1 m2 l f = none := by
        intro l
        induction l with
        | nil => intro f h; simp at h
        | cons i l ih =>
          intro f h
          rw [cmpBfaces]
          by_cases hi : m2.nbface ≤ i
          · rw [if_pos hi]
          · rw [if_neg hi]
            cases cmpRow m1 m2 i (List.range (2 + m1.nbtag)) f with
            | none => rfl
            | some f' =>
              rw [Option.bind_some]
              exact ih f' ((List.mem_cons.1 h).resolve_left (by omega))
      exact key _ _ (List.mem_range.2 hb)

theorem cmpPoints_same (l : List ℕ) (f : CmpFlags) (he : 0 ≤ eps) (hl : ∀ i ∈ l, i < m2.npoin) (hx : m1.coords = m2.coords) :
    cmpPoints eps m1 m2 l f = some f := by
  induction l with
  | nil => rfl
  | cons i l ih =>
    rw [cmpPoints, if_neg (by have := hl i (by simp); omega), if_neg ?_]
    · exact ih fun i hi => hl i (by simp [hi])
    · rw [hx]; simpa using he

/-! Three cells: the unit square, with a triangle above and one below. In the second list the first two cells are exchanged and
the third starts at another vertex. -/

/-- Square, triangle above, triangle below. -/
noncomputable def houseA : Mesh where
  npoin := 6
  nelem := 3
  nbface := 6
  nconnface := 0
  nbtag := 1
  ndtag := 1
  nnode := fun i => if i = 0 then 4 else 3
  nfael := fun i => if i = 0 then 4 else 3
  inpoel := fun i j => (([[0, 1, 2, 3], [3, 2, 4], [1, 0, 5]] : List (List ℕ)).getD i []).getD j 0
  bface := fun i j => (([[1, 2], [3, 0], [2, 4], [4, 3], [0, 5], [5, 1]] : List (List ℕ)).getD i []).getD j 0
  btag := fun _ _ => 2
  volRegions := fun _ _ => 1
  connface := fun _ _ => 0
  coords := fun v => if v = 0 then ![0, 0] else if v = 1 then ![1, 0] else if v = 2 then ![1, 1]
    else if v = 3 then ![0, 1] else if v = 4 then ![1 / 2, 2] else ![1 / 2, -1]

/-- The same cells in another order. -/
noncomputable def houseB : Mesh :=
  { houseA with
    nnode := fun i => if i = 1 then 4 else 3
    nfael := fun i => if i = 1 then 4 else 3
    inpoel := fun i j => (([[3, 2, 4], [0, 1, 2, 3], [0, 5, 1]] : List (List ℕ)).getD i []).getD j 0 }

/-- C78 refuted for the single answers: vertex lists and faces per cell are reported equal though they differ, because
the loop stops at the first cell with another number of vertices. -/
theorem C78_refuted (he : 0 ≤ eps) : Conforming houseA ∧ Conforming houseB ∧
    compareMeshes eps houseA houseB = some { allEqual with nnode := false } ∧
    houseA.nfael 0 ≠ houseB.nfael 0 ∧ houseA.nnode 2 = houseB.nnode 2 ∧ houseA.inpoel 2 0 ≠ houseB.inpoel 2 0 := by
  refine ⟨(by decide +kernel : Check houseA).conforming, (by decide +kernel : Check houseB).conforming, ?_, by decide, by decide, by decide⟩
  unfold compareMeshes
  have h1 : cmpCells houseA houseB (List.range houseA.nelem) ⟨decide (houseA.nelem = houseB.nelem), decide (houseA.npoin = houseB.npoin),
    decide (houseA.nbface = houseB.nbface), true, true, true, true, true⟩ = some { allEqual with nnode := false } := by decide +kernel
  rw [h1, Option.bind_some, cmpPoints_same (m1 := houseA) (m2 := houseB) (List.range houseA.npoin) _ he (fun i hi => List.mem_range.1 hi) rfl, Option.bind_some]
  decide +kernel

/-- A mesh and a copy with coordinates moved by half of `eps` are found equal. -/
example (he : 0 < eps) : compareMeshes eps houseA { houseA with coords := fun p d => houseA.coords p d + eps / 2 } = some allEqual := by
  refine C78_complete ⟨rfl, rfl, rfl, fun _ _ => rfl, fun _ _ => rfl, fun _ _ _ _ => rfl, fun _ _ => ⟨rfl, rfl⟩, fun _ _ _ _ => rfl, ?_⟩ le_rfl
  intro p _ d
  show |houseA.coords p d - (houseA.coords p d + eps / 2)| ≤ eps
  rw [sub_add_cancel_left, abs_neg, abs_of_pos (by linarith)]; linarith

/-! ### C79: the subdomain of a single rank -/

/-- Every point is a vertex of some cell. -/
def AllUsed (m : Mesh) : Prop := ∀ p, p < m.npoin → ∃ i j, i < m.nelem ∧ j < m.nnode i ∧ m.inpoel i j = p

theorem asc_eq_range {l : List ℕ} {n : ℕ} (h : l.Pairwise (· < ·)) (hm : ∀ x, x ∈ l ↔ x < n) : l = List.range n := by
  have hp : l.Perm (List.range n) := by
    rw [List.perm_ext_iff_of_nodup (h.imp fun h => Nat.ne_of_lt h) List.nodup_range]
    intro x; rw [hm, List.mem_range]
  refine hp.eq_of_pairwise (fun a b _ _ h1 h2 => absurd h1 (Nat.lt_asymm h2)) h List.pairwise_lt_range

/-- C79: on one rank, if every point belongs to a cell, the mesh handed out by the partitioner is the mesh that was
read: the same numbering, faces, tags and coordinates, no interface faces, and the identity as global numbering. -/
theorem C79_identity {gm : Mesh} (hc : Conforming gm) (hn : gm.nconnface = 0) (ht : gm.nbtag ≤ 4) {s : FState}
    (h : topological gm = .ok s) (rank : ℕ) (hu : AllUsed gm) :
    ∃ S, restrict gm s (fun _ => rank) rank = .ok S ∧ Agree 0 gm S.mesh ∧ S.mesh.nbtag = gm.nbtag ∧ S.mesh.nconnface = 0 ∧
      S.cells = List.range gm.nelem ∧ S.points = List.range gm.npoin := by
  obtain ⟨S, hS, hsub, hconn, hreg⟩ := restrict_spec hc hn ht h (fun _ => rank) rank
  have hcells : S.cells = List.range gm.nelem := asc_eq_range hsub.cellsAsc fun x => by rw [hsub.cells]; simp
  have hpoints : S.points = List.range gm.npoin := by
    refine asc_eq_range hsub.pointsAsc fun p => ?_
    rw [hsub.points]
    constructor
    · rintro ⟨i, j, hi, -, hj, rfl⟩; exact hc.lin.lt i hi j hj
    · intro hp
      obtain ⟨i, j, hi, hj, e⟩ := hu p hp
      exact ⟨i, j, hi, rfl, hj, e⟩
  have hcl : ∀ i, i < gm.nelem → S.cells[i]? = some i := by
    intro i hi; rw [hcells]; simp [hi]
  have hpt : ∀ q p : ℕ, S.points[q]? = some p → q = p := by
    intro q p hq
    rw [hpoints] at hq
    obtain ⟨hlt, e⟩ := List.getElem?_eq_some_iff.1 hq
    simpa using e
  obtain ⟨B, hB1, hB2, hB3, hB4⟩ := hsub.bfaces
  have hB : B = List.range gm.nbface := by
    refine asc_eq_range hB1 fun k => ?_
    rw [hB2]
    constructor
    · exact fun hk => hk.1
    · intro hk
      obtain ⟨x, hx, h0, h1⟩ := hc.bf k hk
      exact ⟨hk, x, hx, by rw [h0, h1]; rfl, rfl⟩
  have hbl : ∀ k, k < gm.nbface → B[k]? = some k := by
    intro i hi; rw [hB]; simp [hi]
  have hne : gm.nelem = S.mesh.nelem := by rw [hsub.nelem, hcells, List.length_range]
  have hno : S.mesh.nconnface = 0 := by
    by_contra hpos
    obtain ⟨g, j, k, -, -, hd, -⟩ := hconn.row 0 (Nat.pos_of_ne_zero hpos)
    exact hd rfl
  refine ⟨S, hS, ⟨hne, ?_, ?_, ?_, ?_, ?_, ?_, ?_, ?_⟩, hsub.tagCounts.1, hno, hcells, hpoints⟩
  · rw [hsub.npoin, hpoints, List.length_range]
  · rw [hB3, hB, List.length_range]
  · exact fun i hi => (hsub.nnode i i (hcl i hi)).1.symm
  · exact fun i hi => (hsub.nnode i i (hcl i hi)).2.symm
  · exact fun i hi j hj => (hpt _ _ (hsub.inpoel i i (hcl i hi) j hj)).symm
  · exact fun k hk => ⟨(hpt _ _ (hB4 k k (hbl k hk)).1).symm, (hpt _ _ (hB4 k k (hbl k hk)).2.1).symm⟩
  · exact fun k hk t _ => ((hB4 k k (hbl k hk)).2.2 t).symm
  · intro p hp d
    rw [hsub.coords p p (by rw [hpoints]; simp [hp])]
    simp

/-- C79: the check made by debug builds on one rank succeeds if every point belongs to a cell, and otherwise is undefined
(the partitioner drops unused points and the comparison reads behind the end of the smaller point list). -/
theorem C79_check {gm : Mesh} (hc : Conforming gm) (hn : gm.nconnface = 0) (ht : gm.nbtag ≤ 4) {s : FState}
    (h : topological gm = .ok s) (rank : ℕ) (he : 0 ≤ eps) :
    ∃ S, restrict gm s (fun _ => rank) rank = .ok S ∧ (AllUsed gm → compareMeshes eps gm S.mesh = some allEqual) ∧
      (¬ AllUsed gm → compareMeshes eps gm S.mesh = none) := by
  by_cases hu : AllUsed gm
  · obtain ⟨S, h1, h2, h3, -⟩ := C79_identity hc hn ht h rank hu
    refine ⟨S, h1, fun _ => C78_complete ?_ h3.ge, fun hno => absurd hu hno⟩
    exact { h2 with coords := fun p hp d => (h2.coords p hp d).trans he }
  · obtain ⟨S, hS, hsub, -, -⟩ := restrict_spec hc hn ht h (fun _ => rank) rank
    refine ⟨S, hS, fun h => absurd h hu, fun _ => C78_smaller_refuted (Or.inl ?_)⟩
    unfold AllUsed at hu
    push Not at hu
    obtain ⟨p, hp, hno⟩ := hu
    have hnd : S.points.Nodup := hsub.pointsAsc.imp fun h => Nat.ne_of_lt h
    rw [hsub.npoin, ← List.toFinset_card_of_nodup hnd, ← Finset.card_range gm.npoin]
    refine Finset.card_lt_card ⟨fun q hq => ?_, fun hall => ?_⟩
    · rw [List.mem_toFinset, hsub.points] at hq
      obtain ⟨i, j, hi, -, hj, rfl⟩ := hq
      exact Finset.mem_range.2 (hc.lin.lt i hi j hj)
    · have := hall (Finset.mem_range.2 hp)
      rw [List.mem_toFinset, hsub.points] at this
      obtain ⟨i, j, hi, -, hj, e⟩ := this
      exact hno i j hi hj e

theorem cross_allUsed : AllUsed FV.Geo.cross := by
  show ∀ p, p < 5 → ∃ i j, i < 4 ∧ j < 3 ∧ FV.Geo.cross.inpoel i j = p
  have : ∀ p < 5, ∃ i < 4, ∃ j < 3, FV.Geo.cross.inpoel i j = p := by decide +kernel
  intro p hp
  obtain ⟨i, hi, j, hj, e⟩ := this p hp
  exact ⟨i, j, hi, hj, e⟩

/-- The square cut by its diagonals, on rank 0 of one. -/
example : ∃ s S, topological FV.Geo.cross = .ok s ∧ restrict FV.Geo.cross s (fun _ => 0) 0 = .ok S ∧ Agree 0 FV.Geo.cross S.mesh ∧
    compareMeshes (1 / 2) FV.Geo.cross S.mesh = some allEqual := by
  obtain ⟨s, hs, -⟩ := FV.Geo.cross_topological
  have hc : Conforming FV.Geo.cross := (by decide +kernel : Check FV.Geo.cross).conforming
  obtain ⟨S, h1, h2, h3, -⟩ := C79_identity hc rfl (by decide +kernel) hs 0 cross_allUsed
  refine ⟨s, S, hs, h1, h2, C78_complete ?_ h3.ge⟩
  exact { h2 with coords := fun p hp d => (h2.coords p hp d).trans (by norm_num) }

/-- The same mesh with one more point, not used by any cell (the file readers accept such points). -/
noncomputable def crossPlus : Mesh := { FV.Geo.cross with npoin := 6 }

theorem crossPlus_hosts : bfaceHosts crossPlus (esup crossPlus) = .ok [(0, 0), (1, 0), (2, 0), (3, 0)] := by decide +kernel

/-- C79 refuted for files with unused points: the check of debug builds is undefined. -/
theorem C79_refuted (he : 0 ≤ eps) : Conforming crossPlus ∧ ∃ s S, topological crossPlus = .ok s ∧ restrict crossPlus s (fun _ => 0) 0 = .ok S ∧
    compareMeshes eps crossPlus S.mesh = none := by
  have hc : Conforming crossPlus := (by decide +kernel : Check crossPlus).conforming
  refine ⟨hc, ?_⟩
  obtain ⟨s, hs⟩ : ∃ s, topological crossPlus = .ok s := by
    rw [topological, faceConnectivity, crossPlus_hosts]; exact ⟨_, rfl⟩
  obtain ⟨S, h1, -, h3⟩ := C79_check hc rfl (by decide +kernel) hs 0 he
  refine ⟨s, S, hs, h1, h3 fun hu => ?_⟩
  obtain ⟨i, j, hi, hj, e⟩ := hu 5 (by decide)
  have : ∀ i < 4, ∀ j < 3, crossPlus.inpoel i j ≠ 5 := by decide +kernel
  exact this i hi j hj e

end Msh
end FVENS
