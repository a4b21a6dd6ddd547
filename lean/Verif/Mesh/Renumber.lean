import Verif.Mesh.Geom

/-!
# Cell renumbering (C30) and periodic pairing (C31)
-/

namespace FVENS
namespace Msh

/-! ### C30 -/

/-- `perm` is a permutation of the cell numbers; new cell `i` is old cell `perm i`. -/
structure IsPerm (n : ℕ) (perm : ℕ → ℕ) : Prop where
  lt : ∀ i, i < n → perm i < n
  inj : ∀ i j, i < n → j < n → perm i = perm j → i = j

/-- Specification: `m'` is `m` with renumbered cells: all per-cell data (vertices, counts and region tags)
follow the cell, everything else is the same. -/
def Renumbered (m m' : Mesh) (perm : ℕ → ℕ) : Prop :=
  m'.npoin = m.npoin ∧ m'.nelem = m.nelem ∧ m'.coords = m.coords ∧ m'.bface = m.bface ∧ m'.btag = m.btag ∧
  (∀ i, i < m.nelem → m'.nnode i = m.nnode (perm i) ∧ m'.nfael i = m.nfael (perm i) ∧
    (∀ j, m'.inpoel i j = m.inpoel (perm i) j)) ∧
  ∀ i, i < m.nelem → ∀ t, m'.volRegions i t = m.volRegions (perm i) t

/-- C30 (part): vertices, vertex counts and face counts follow the cell; nothing else changes. Missing: the
region tags, see `C30_refuted`. -/
theorem C30_connectivity_partial (m : Mesh) (perm : ℕ → ℕ) :
    (∀ i, i < m.nelem → (reorderCells m perm).nnode i = m.nnode (perm i) ∧
      (reorderCells m perm).nfael i = m.nfael (perm i) ∧
      ∀ j, (reorderCells m perm).inpoel i j = m.inpoel (perm i) j) ∧
    reorderCells m perm = { m with nnode := (reorderCells m perm).nnode, nfael := (reorderCells m perm).nfael,
                                   inpoel := (reorderCells m perm).inpoel } := by
  refine ⟨fun i hi => ?_, rfl⟩
  simp [reorderCells, hi]

/-- C30: the geometry follows the cells: areas and centres of the renumbered mesh are those of the original
cells. -/
theorem C30_geometry (m : Mesh) (perm : ℕ → ℕ) {i : ℕ} (hi : i < m.nelem) :
    area (reorderCells m perm) i = area m (perm i) ∧ centre (reorderCells m perm) i = centre m (perm i) := by
  obtain ⟨h, _⟩ := C30_connectivity_partial m perm
  obtain ⟨h1, h2, h3⟩ := h i hi
  have hco : (reorderCells m perm).coords = m.coords := rfl
  constructor
  · unfold area; simp only [h1, h3, hco]
  · unfold centre; simp only [h1, h3, hco]

/-- C30: adjacency follows the cells: two local faces coincide in the renumbered mesh iff the corresponding
local faces of the original cells coincide; and the renumbered mesh is again well formed and manifold. -/
theorem C30_adjacency {m : Mesh} {perm : ℕ → ℕ} (hp : IsPerm m.nelem perm) {i f j g : ℕ}
    (hi : i < m.nelem) (hj : j < m.nelem) :
    Glued (reorderCells m perm) (i, f) (j, g) ↔ Glued m (perm i, f) (perm j, g) := by
  obtain ⟨h, _⟩ := C30_connectivity_partial m perm
  obtain ⟨h1, _, h3⟩ := h i hi
  obtain ⟨k1, _, k3⟩ := h j hj
  have hn : (reorderCells m perm).nelem = m.nelem := rfl
  unfold Glued IsFace edge
  simp only [h1, h3, k1, k3, hn, hi, hj, hp.lt i hi, hp.lt j hj, true_and]
  constructor
  · rintro ⟨a, b, c, d⟩; exact ⟨a, b, fun e => c (hp.inj i j hi hj e), d⟩
  · rintro ⟨a, b, c, d⟩; exact ⟨a, b, fun e => c (by rw [e]), d⟩

/-- C30: the reordered mesh is a pure renumbering exactly if the region tags are invariant under the
permutation. -/
theorem C30_iff (m : Mesh) (perm : ℕ → ℕ) : Renumbered m (reorderCells m perm) perm ↔
    ∀ i, i < m.nelem → ∀ t, m.volRegions i t = m.volRegions (perm i) t := by
  obtain ⟨h, _⟩ := C30_connectivity_partial m perm
  exact ⟨fun hr => hr.2.2.2.2.2.2, fun hv => ⟨rfl, rfl, rfl, rfl, rfl, h, hv⟩⟩

/-- C30 fails: swapping the two cells of the hybrid mesh leaves the region tags behind. -/
theorem C30_refuted : ∃ (m : Mesh) (perm : ℕ → ℕ), Lin m ∧ IsPerm m.nelem perm ∧
    ¬ Renumbered m (reorderCells m perm) perm := by
  refine ⟨exMesh, fun i => 1 - i, exMesh_lin, ⟨?_, ?_⟩, ?_⟩
  · intro i hi
    have hi : i < 2 := hi
    show 1 - i < 2; omega
  · intro i j hi hj h
    have hi : i < 2 := hi
    have hj : j < 2 := hj
    have h : 1 - i = 1 - j := h
    omega
  · rw [C30_iff]
    intro h
    exact absurd (h 0 (by show 0 < 2; decide) 0) (by decide)

/-! ### C31 -/

/-- Data of the boundary faces used by `compute_periodic_map`: number of faces, first tag, coordinate of the
face centre along the comparison axis, and interior cell. -/
structure PerIn where
  n : ℕ
  tag : ℕ → ℤ
  c : ℕ → ℝ
  left : ℕ → ℕ

/-- `periodicmap` and column 1 of `intfac` restricted to boundary faces. -/
structure PerState where
  map : ℕ → Option ℕ
  right : ℕ → ℕ

/-- The face a face is paired with by the search, src/mesh/mesh.cpp:400-421. -/
noncomputable def perFind (p : PerIn) (bcm : ℤ) (i : ℕ) : Option ℕ :=
  ((List.range p.n).drop (i + 1)).find? fun j => decide (p.tag j = bcm) && decide (|p.c i - p.c j| ≤ 1e-8)

/-- Body of the loop over boundary faces, src/mesh/mesh.cpp:389-422. -/
noncomputable def perBody (p : PerIn) (bcm : ℤ) (i : ℕ) (s : PerState) : PerState :=
  if p.tag i = bcm then
    if (s.map i).isSome then s
    else match perFind p bcm i with
      | none => s
      | some j => ⟨upd (upd s.map i (some j)) j (some i), upd (upd s.right i (p.left j)) j (p.left i)⟩
  else s

/-- `compute_periodic_map`, src/mesh/mesh.cpp:367-424 (messages omitted). -/
noncomputable def periodicMap (p : PerIn) (bcm axis : ℤ) (right : ℕ → ℕ) : PerState :=
  if bcm < 0 then ⟨fun _ => none, right⟩
  else if axis < 0 then ⟨fun _ => none, right⟩
  else forLt p.n ⟨fun _ => none, right⟩ fun i s => perBody p bcm i s

/-- Two different periodic faces at the same position. -/
def Close (p : PerIn) (bcm : ℤ) (i j : ℕ) : Prop :=
  i < p.n ∧ j < p.n ∧ i ≠ j ∧ p.tag i = bcm ∧ p.tag j = bcm ∧ |p.c i - p.c j| ≤ 1e-8

theorem Close.symm {p : PerIn} {bcm : ℤ} {i j : ℕ} (h : Close p bcm i j) : Close p bcm j i :=
  ⟨h.2.1, h.1, h.2.2.1.symm, h.2.2.2.2.1, h.2.2.2.1, by rw [abs_sub_comm]; exact h.2.2.2.2.2⟩

theorem perFind_some {p : PerIn} {bcm : ℤ} {i j : ℕ} (h : perFind p bcm i = some j) :
    i < j ∧ j < p.n ∧ p.tag j = bcm ∧ |p.c i - p.c j| ≤ 1e-8 := by
  have h1 := List.find?_some h
  have h2 := List.mem_of_find?_eq_some h
  simp only [Bool.and_eq_true, decide_eq_true_eq] at h1
  obtain ⟨k, hk, hkj⟩ := List.mem_iff_getElem.1 h2
  simp only [List.getElem_drop, List.getElem_range] at hkj
  simp only [List.length_drop, List.length_range] at hk
  exact ⟨by omega, by omega, h1⟩

theorem perFind_none {p : PerIn} {bcm : ℤ} {i : ℕ} (h : perFind p bcm i = none) {j : ℕ} (hij : i < j)
    (hj : j < p.n) : ¬ (p.tag j = bcm ∧ |p.c i - p.c j| ≤ 1e-8) := by
  unfold perFind at h
  rw [List.find?_eq_none] at h
  have hmem : j ∈ (List.range p.n).drop (i + 1) := by
    rw [List.mem_iff_getElem]
    exact ⟨j - (i + 1), by simp; omega, by simp; omega⟩
  have := h j hmem
  simpa using this

/-- C31 (part): if every periodic face has at most one partner at its position, then exactly the faces with a
partner are mapped, the mapping is symmetric, and the ghost cell of each mapped face is the interior cell of its
partner, and vice versa; other faces keep their ghost cell. Missing: without the uniqueness assumption the
pairing need not be symmetric, see `C31_refuted`. -/
theorem C31_symmetric_partial {p : PerIn} {bcm axis : ℤ} (hb : 0 ≤ bcm) (ha : 0 ≤ axis) (right : ℕ → ℕ)
    (hu : ∀ i j k, Close p bcm i j → Close p bcm i k → j = k) :
    let s := periodicMap p bcm axis right
    (∀ i j, s.map i = some j ↔ Close p bcm i j) ∧
    (∀ i j, Close p bcm i j → s.right i = p.left j ∧ s.right j = p.left i) ∧
    (∀ i, (∀ j, ¬ Close p bcm i j) → s.right i = right i) := by
  have key : ∀ n, n ≤ p.n → let s := forLt n ⟨fun _ => none, right⟩ fun i s => perBody p bcm i s
      (∀ i j, s.map i = some j ↔ (Close p bcm i j ∧ (i < n ∨ j < n))) ∧
      (∀ i j, Close p bcm i j → (i < n ∨ j < n) → s.right i = p.left j) ∧
      (∀ i, (∀ j, ¬ (Close p bcm i j ∧ (i < n ∨ j < n))) → s.right i = right i) := by
    intro n
    induction n with
    | zero =>
      intro _
      refine ⟨fun i j => by simp [forLt_zero], fun i j _ h => by omega, fun i _ => rfl⟩
    | succ n ih =>
      intro hn
      obtain ⟨h1, h2, h3⟩ := ih (by omega)
      simp only [forLt_succ]
      generalize (forLt n ⟨fun _ => none, right⟩ fun i s => perBody p bcm i s : PerState) = s at h1 h2 h3
      -- a face `n` without partner above it, or already mapped: nothing changes
      have same : (∀ j, Close p bcm n j → j < n) →
          (∀ i j, s.map i = some j ↔ (Close p bcm i j ∧ (i < n + 1 ∨ j < n + 1))) ∧
          (∀ i j, Close p bcm i j → (i < n + 1 ∨ j < n + 1) → s.right i = p.left j) ∧
          (∀ i, (∀ j, ¬ (Close p bcm i j ∧ (i < n + 1 ∨ j < n + 1))) → s.right i = right i) := by
        intro hno
        have heq : ∀ i j, (Close p bcm i j ∧ (i < n + 1 ∨ j < n + 1)) ↔ (Close p bcm i j ∧ (i < n ∨ j < n)) := by
          intro i j
          constructor
          · rintro ⟨hc, h⟩
            refine ⟨hc, ?_⟩
            rcases Nat.lt_trichotomy i n with hi | rfl | hi
            · exact Or.inl hi
            · exact Or.inr (hno j hc)
            · rcases Nat.lt_trichotomy j n with hj | rfl | hj
              · exact Or.inr hj
              · exact Or.inl (hno i hc.symm)
              · omega
          · rintro ⟨hc, h⟩; exact ⟨hc, by omega⟩
        refine ⟨fun i j => by rw [heq]; exact h1 i j, fun i j hc h => ?_, fun i hi => h3 i fun j hj => hi j ((heq i j).2 hj)⟩
        exact h2 i j hc ((heq i j).1 ⟨hc, h⟩).2
      unfold perBody
      by_cases ht : p.tag n = bcm
      · rw [if_pos ht]
        by_cases hm : (s.map n).isSome
        · rw [if_pos hm]
          obtain ⟨j, hj⟩ := Option.isSome_iff_exists.1 hm
          obtain ⟨hc, hlt⟩ := (h1 n j).1 hj
          exact same fun k hk => by rw [hu n k j hk hc]; omega
        · rw [if_neg hm]
          have hnl : ∀ j, Close p bcm n j → ¬ j < n := by
            intro j hc hj
            exact hm (by rw [(h1 n j).2 ⟨hc, Or.inr hj⟩]; rfl)
          cases hf : perFind p bcm n with
          | none =>
            refine same fun j hc => ?_
            by_contra hj
            exact perFind_none hf (lt_of_le_of_ne (by omega) hc.2.2.1) hc.2.1 ⟨hc.2.2.2.2.1, hc.2.2.2.2.2⟩
          | some j =>
            obtain ⟨hnj, hjn, htj, hd⟩ := perFind_some hf
            have hc : Close p bcm n j := ⟨by omega, hjn, by omega, ht, htj, hd⟩
            have hcs := hc.symm
            simp only
            refine ⟨fun i k => ?_, fun i k hik h => ?_, fun i hi => ?_⟩
            · by_cases hij : i = j
              · subst hij
                rw [upd_same]
                constructor
                · intro h; obtain rfl : n = k := by simpa using h
                  exact ⟨hcs, Or.inr (by omega)⟩
                · rintro ⟨h, _⟩; rw [hu i k n h hcs]
              · rw [upd_ne _ _ hij]
                by_cases hin : i = n
                · subst hin
                  rw [upd_same]
                  constructor
                  · intro h; obtain rfl : j = k := by simpa using h
                    exact ⟨hc, Or.inl (by omega)⟩
                  · rintro ⟨h, _⟩; rw [hu i k j h hc]
                · rw [upd_ne _ _ hin, h1]
                  constructor
                  · rintro ⟨h, h'⟩; exact ⟨h, by omega⟩
                  · rintro ⟨h, h'⟩
                    refine ⟨h, ?_⟩
                    have : k ≠ n := fun hk => hij (hu n i j (hk ▸ h.symm) hc)
                    omega
            · by_cases hij : i = j
              · subst hij; rw [upd_same, hu i k n hik hcs]
              · rw [upd_ne _ _ hij]
                by_cases hin : i = n
                · subst hin; rw [upd_same, hu i k j hik hc]
                · rw [upd_ne _ _ hin]
                  have : k ≠ n := fun hk => hij (hu n i j (hk ▸ hik.symm) hc)
                  exact h2 i k hik (by omega)
            · have hij : i ≠ j := by rintro rfl; exact hi n ⟨hcs, Or.inr (by omega)⟩
              have hin : i ≠ n := by rintro rfl; exact hi j ⟨hc, Or.inl (by omega)⟩
              rw [upd_ne _ _ hij, upd_ne _ _ hin]
              exact h3 i fun k hk => hi k ⟨hk.1, by omega⟩
      · rw [if_neg ht]
        exact same fun j hc => absurd hc.2.2.2.1 ht
  have hs : periodicMap p bcm axis right = forLt p.n ⟨fun _ => none, right⟩ fun i s => perBody p bcm i s := by
    unfold periodicMap; rw [if_neg (not_lt.2 hb), if_neg (not_lt.2 ha)]
  simp only [hs]
  obtain ⟨h1, h2, h3⟩ := key p.n le_rfl
  refine ⟨fun i j => ?_, fun i j hc => ⟨h2 i j hc (Or.inl hc.1), h2 j i hc.symm (Or.inl hc.2.1)⟩, fun i hi => h3 i fun j hj => hi j hj.1⟩
  rw [h1]
  exact ⟨fun h => h.1, fun h => ⟨h, Or.inl h.1⟩⟩

/-- C31: with a negative marker or axis nothing is changed. -/
theorem C31_disabled (p : PerIn) (bcm axis : ℤ) (right : ℕ → ℕ) (h : bcm < 0 ∨ axis < 0) :
    periodicMap p bcm axis right = ⟨fun _ => none, right⟩ := by
  unfold periodicMap
  by_cases hb : bcm < 0
  · rw [if_pos hb]
  · rw [if_neg hb, if_pos (h.resolve_left hb)]

/-- Four periodic faces, two pairs. -/
noncomputable def perEx : PerIn := ⟨4, fun _ => 2, fun i => if i = 0 ∨ i = 3 then 0 else 1, fun i => 10 + i⟩

/-- The hypotheses of `C31_symmetric_partial` hold for it, and faces 0 and 3 are paired. -/
example : ((periodicMap perEx 2 0 (fun i => 100 + i)).map 0 = some 3) ∧
    (periodicMap perEx 2 0 (fun i => 100 + i)).right 3 = 10 := by
  have hcl : ∀ i j, Close perEx 2 i j → ((i = 0 ∨ i = 3) ↔ (j = 0 ∨ j = 3)) := by
    rintro i j ⟨_, _, _, _, _, h⟩
    simp only [perEx] at h
    by_cases h1 : i = 0 ∨ i = 3 <;> by_cases h2 : j = 0 ∨ j = 3 <;> simp [h1, h2] at h ⊢ <;> norm_num at h
  have hu : ∀ i j k, Close perEx 2 i j → Close perEx 2 i k → j = k := by
    intro i j k h1 h2
    have a1 := hcl i j h1
    have a2 := hcl i k h2
    obtain ⟨b1, b2, b3, _⟩ := h1
    obtain ⟨c1, c2, c3, _⟩ := h2
    have b1 : i < 4 := b1
    have b2 : j < 4 := b2
    have c2 : k < 4 := c2
    omega
  have hc : Close perEx 2 0 3 := ⟨by show 0 < 4; decide, by show 3 < 4; decide, by decide, rfl, rfl, by simp only [perEx]; norm_num⟩
  obtain ⟨h1, h2, _⟩ := C31_symmetric_partial (p := perEx) (bcm := 2) (axis := 0) (by decide) (by decide) (fun i => 100 + i) hu
  exact ⟨(h1 0 3).2 hc, (h2 0 3 hc).2⟩

/-- Three periodic faces at positions `0`, `1.6e-8`, `0.8e-8`: the third is within the tolerance of both
others. -/
noncomputable def perBad : PerIn := ⟨3, fun _ => 2, fun i => if i = 0 then 0 else if i = 1 then 1.6e-8 else 0.8e-8, fun i => 10 + i⟩

/-- C31 fails in general: the already paired third face is paired again, so that face 0's ghost is the interior
cell of face 2 but face 2's ghost is the interior cell of face 1. -/
theorem C31_refuted : ∃ (p : PerIn) (right : ℕ → ℕ), (periodicMap p 2 0 right).map 0 = some 2 ∧
    (periodicMap p 2 0 right).map 2 = some 1 ∧ (periodicMap p 2 0 right).right 0 = p.left 2 ∧
    (periodicMap p 2 0 right).right 2 = p.left 1 ∧ p.left 1 ≠ p.left 0 := by
  have f0 : perFind perBad 2 0 = some 2 := by
    have h1 : ¬ (|perBad.c 0 - perBad.c 1| ≤ 1e-8) := by
      simp only [perBad]; norm_num [abs_le]
    have h2 : |perBad.c 0 - perBad.c 2| ≤ 1e-8 := by
      simp only [perBad]; norm_num [abs_le]
    have ht : ∀ j, perBad.tag j = 2 := fun _ => rfl
    simp only [perFind, show (List.range perBad.n).drop (0 + 1) = [1, 2] from rfl, List.find?_cons, ht, h1, h2]
    simp
  have f1 : perFind perBad 2 1 = some 2 := by
    have h2 : |perBad.c 1 - perBad.c 2| ≤ 1e-8 := by
      simp only [perBad]; norm_num [abs_le]
    have ht : ∀ j, perBad.tag j = 2 := fun _ => rfl
    simp only [perFind, show (List.range perBad.n).drop (1 + 1) = [2] from rfl, List.find?_cons, ht, h2]
    simp
  have hs : periodicMap perBad 2 0 (fun i => 100 + i) =
      ⟨upd (upd (upd (upd (fun _ => none) 0 (some 2)) 2 (some 0)) 1 (some 2)) 2 (some 1),
       upd (upd (upd (upd (fun i => 100 + i) 0 12) 2 10) 1 12) 2 11⟩ := by
    have ht : ∀ j, perBad.tag j = 2 := fun _ => rfl
    unfold periodicMap
    rw [if_neg (by decide), if_neg (by decide), show perBad.n = 3 from rfl, forLt_succ, forLt_succ, forLt_succ, forLt_zero]
    have b0 : perBody perBad 2 0 ⟨fun _ => none, fun i => 100 + i⟩ =
        ⟨upd (upd (fun _ => none) 0 (some 2)) 2 (some 0), upd (upd (fun i => 100 + i) 0 12) 2 10⟩ := by
      unfold perBody; rw [if_pos (ht 0), f0]; rfl
    rw [b0]
    have b1 : perBody perBad 2 1 ⟨upd (upd (fun _ => none) 0 (some 2)) 2 (some 0), upd (upd (fun i => 100 + i) 0 12) 2 10⟩ =
       ⟨upd (upd (upd (upd (fun _ => none) 0 (some 2)) 2 (some 0)) 1 (some 2)) 2 (some 1),
       upd (upd (upd (upd (fun i => 100 + i) 0 12) 2 10) 1 12) 2 11⟩ := by
      unfold perBody; rw [if_pos (ht 1), f1]; rfl
    rw [b1]
    unfold perBody; rw [if_pos (ht 2)]; rfl
  refine ⟨perBad, fun i => 100 + i, ?_⟩
  rw [hs]
  exact ⟨rfl, rfl, rfl, rfl, by decide⟩

end Msh
end FVENS
