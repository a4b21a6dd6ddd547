import Verif.Mesh.Check

/-!
# Boundary points (C85)

`compute_boundary_points` numbers the points of the boundary and notes for each the boundary faces that end and begin there.
-/

namespace FVENS
namespace Msh
namespace Bpt

/-- State of the second loop of `compute_boundary_points`, src/mesh/mesh.cpp:128-145: `pts` column 0 of `bpointsb` up to `bp`, `col i j` its column `2 - j` (-1 is `none`),
`fb` is `bfacebp`, `vis` is `lpoin`. -/
structure BP where
  pts : List ℕ
  col : ℕ → ℕ → Option ℕ
  fb : ℕ → ℕ → ℕ
  vis : ℕ → Bool

/-- Number of boundary points, src/mesh/mesh.cpp:114-123. -/
def nbpoin (m : Mesh) : ℕ :=
  let flag : ℕ → ℕ := forLt m.nbface (fun _ => 0) fun k f => forLt 2 f fun j f => upd f (m.bface k j) 1
  forLt m.npoin 0 fun p n => n + flag p

/-- Search, src/mesh/mesh.cpp:159-164, 181-186. -/
def search (pts : List ℕ) (p : ℕ) : Option ℕ := forLt pts.length none fun i r => if pts[i]? = some p then some i else r

/-- Visit of node `j` of face `k`, src/mesh/mesh.cpp:147-169 for `j = 0`, 171-191 for `j = 1`. `none`: access out of bounds (row `nb` or beyond, row -1, or a point
number that is none). -/
def visit (m : Mesh) (nb : ℕ) (b : BP) (k j : ℕ) : Option BP :=
  let p := m.bface k j
  if p < m.npoin then
    if b.vis p then
      (search b.pts p).map fun i => { b with col := fun i' j' => if i' = i ∧ j' = j then some k else b.col i' j', fb := fun k' j' => if k' = k ∧ j' = j then i else b.fb k' j' }
    else if b.pts.length < nb then
      let i := b.pts.length
      some { pts := b.pts ++ [p], col := fun i' j' => if i' = i ∧ j' = j then some k else b.col i' j',
             fb := fun k' j' => if k' = k ∧ j' = j then i else b.fb k' j', vis := upd b.vis p true }
    else none
  else none

/-- The first `t` visits; pass `k` of the loop over faces makes visits `2 k` and `2 k + 1`. `junk` is what `bfacebp.resize` leaves. -/
def visits (m : Mesh) (nb : ℕ) (junk : ℕ → ℕ → ℕ) : ℕ → Option BP
  | 0 => some ⟨[], fun _ _ => none, junk, fun _ => false⟩
  | t + 1 => (visits m nb junk t).bind fun b => visit m nb b (t / 2) (t % 2)

/-- `compute_boundary_points`, src/mesh/mesh.cpp:107-193. -/
def boundaryPoints (m : Mesh) (junk : ℕ → ℕ → ℕ) : Option BP := visits m (nbpoin m) junk (2 * m.nbface)

/-! ### Specification -/

/-- Points of boundary faces. -/
def OnB (m : Mesh) (p : ℕ) : Prop := ∃ k, k < m.nbface ∧ ∃ j, j < 2 ∧ m.bface k j = p

/-! ### Proofs -/

/-- Point of a visit. -/
def pt (m : Mesh) (t : ℕ) : ℕ := m.bface (t / 2) (t % 2)

theorem idx_inj {l : List ℕ} (h : l.Nodup) {i j p : ℕ} (hi : l[i]? = some p) (hj : l[j]? = some p) : i = j := by
  obtain ⟨h1, e1⟩ := List.getElem?_eq_some_iff.1 hi
  obtain ⟨h2, e2⟩ := List.getElem?_eq_some_iff.1 hj
  exact (List.Nodup.getElem_inj_iff h).1 (e1.trans e2.symm)

theorem search_spec {pts : List ℕ} (hn : pts.Nodup) {i p : ℕ} (hi : pts[i]? = some p) : search pts p = some i := by
  have hlt := (List.getElem?_eq_some_iff.1 hi).1
  have key : ∀ n, n ≤ pts.length → (forLt n none fun i r => if pts[i]? = some p then some i else r) = if i < n then some i else none := by
    intro n
    induction n with
    | zero => intro _; simp [forLt]
    | succ n ih =>
      intro hnl
      rw [forLt_succ, ih (by omega)]
      by_cases e : n = i
      · subst e; simp [hi]
      · have : pts[n]? ≠ some p := fun h => e (idx_inj hn h hi)
        rw [if_neg this]
        by_cases h1 : i < n
        · rw [if_pos h1, if_pos (by omega)]
        · rw [if_neg h1, if_neg (by omega)]
  rw [search, key _ le_rfl, if_pos hlt]

structure Inv (m : Mesh) (t : ℕ) (b : BP) : Prop where
  nodup : b.pts.Nodup
  mem : ∀ p, p ∈ b.pts ↔ ∃ s, s < t ∧ pt m s = p
  vis : ∀ p, b.vis p = true ↔ p ∈ b.pts
  fb : ∀ k j, j < 2 → 2 * k + j < t → b.pts[b.fb k j]? = some (m.bface k j)
  col : ∀ i j p, j < 2 → b.pts[i]? = some p → ∀ k, b.col i j = some k ↔
    (2 * k + j < t ∧ m.bface k j = p ∧ ∀ k', 2 * k' + j < t → m.bface k' j = p → k' ≤ k)
  out : ∀ i j, b.pts.length ≤ i → b.col i j = none

theorem flag_eq (m : Mesh) (n : ℕ) : (forLt n (fun _ => 0) fun k f => forLt 2 f fun j f => upd f (m.bface k j) 1 : ℕ → ℕ) =
    fun p => if ∃ s, s < 2 * n ∧ pt m s = p then 1 else 0 := by
  induction n with
  | zero => funext p; simp [forLt]
  | succ n ih =>
    rw [forLt_succ, ih]
    funext p
    simp only [forLt_succ, forLt_zero, upd]
    have e0 : pt m (2 * n) = m.bface n 0 := by unfold pt; congr 1 <;> omega
    have e1 : pt m (2 * n + 1) = m.bface n 1 := by unfold pt; congr 1 <;> omega
    have hs : (∃ s, s < 2 * (n + 1) ∧ pt m s = p) ↔ (∃ s, s < 2 * n ∧ pt m s = p) ∨ m.bface n 0 = p ∨ m.bface n 1 = p := by
      constructor
      · rintro ⟨s, h1, h2⟩
        rcases Nat.lt_or_ge s (2 * n) with h | h
        · exact Or.inl ⟨s, h, h2⟩
        · obtain rfl | rfl : s = 2 * n ∨ s = 2 * n + 1 := by omega
          · exact Or.inr (Or.inl (e0 ▸ h2))
          · exact Or.inr (Or.inr (e1 ▸ h2))
      · rintro (⟨s, h1, h2⟩ | h | h)
        · exact ⟨s, by omega, h2⟩
        · exact ⟨2 * n, by omega, e0.trans h⟩
        · exact ⟨2 * n + 1, by omega, e1.trans h⟩
    simp only [hs]
    by_cases h1 : p = m.bface n 1
    · simp [h1]
    · by_cases h0 : p = m.bface n 0
      · simp [h0]
      · simp [h0, h1, Ne.symm h0, Ne.symm h1]

theorem nbpoin_eq (m : Mesh) : nbpoin m = ((List.range m.npoin).filter fun p => decide (∃ s, s < 2 * m.nbface ∧ pt m s = p)).length := by
  unfold nbpoin
  simp only [flag_eq]
  generalize m.npoin = n
  induction n with
  | zero => rfl
  | succ n ih =>
    rw [forLt_succ, ih, List.range_succ, List.filter_append, List.length_append]
    congr 1
    by_cases h : ∃ s, s < 2 * m.nbface ∧ pt m s = n <;> simp [h]

/-- Distinct visited points are at most as many as boundary points. -/
theorem length_le {m : Mesh} (hb : ∀ k j, k < m.nbface → j < 2 → m.bface k j < m.npoin) {t : ℕ} (ht : t ≤ 2 * m.nbface) {b : BP} (h : Inv m t b) :
    b.pts.length ≤ nbpoin m := by
  rw [nbpoin_eq]
  refine (List.subperm_of_subset h.nodup fun p hp => ?_).length_le
  obtain ⟨s, h1, h2⟩ := (h.mem p).1 hp
  simp only [List.mem_filter, List.mem_range, decide_eq_true_eq]
  exact ⟨h2 ▸ hb _ _ (by omega) (Nat.mod_lt _ (by decide)), s, by omega, h2⟩

theorem inv_visits {m : Mesh} (hb : ∀ k j, k < m.nbface → j < 2 → m.bface k j < m.npoin) (junk : ℕ → ℕ → ℕ) (t : ℕ) (ht : t ≤ 2 * m.nbface) :
    ∃ b, visits m (nbpoin m) junk t = some b ∧ Inv m t b := by
  induction t with
  | zero =>
    refine ⟨_, rfl, ?_⟩
    constructor <;> simp
  | succ t ih =>
    obtain ⟨b, h1, h⟩ := ih (by omega)
    obtain ⟨k, hk⟩ : ∃ k, k = t / 2 := ⟨_, rfl⟩
    obtain ⟨j, hj⟩ : ∃ j, j = t % 2 := ⟨_, rfl⟩
    have hj2 : j < 2 := by omega
    have htk : t = 2 * k + j := by omega
    have hp := hb k j (by omega) hj2
    have hpt : pt m t = m.bface k j := by unfold pt; rw [hk, hj]
    have hmem : ∀ p, (∃ s, s < t + 1 ∧ pt m s = p) ↔ (∃ s, s < t ∧ pt m s = p) ∨ m.bface k j = p := fun p => by
      constructor
      · rintro ⟨s, a, c⟩
        rcases Nat.lt_or_ge s t with hs | hs
        · exact Or.inl ⟨s, hs, c⟩
        · obtain rfl : s = t := by omega
          exact Or.inr (hpt ▸ c)
      · rintro (⟨s, a, c⟩ | c)
        · exact ⟨s, by omega, c⟩
        · exact ⟨t, by omega, hpt.trans c⟩
    have hnew : ∀ k' j', j' < 2 → (2 * k' + j' < t + 1 ↔ 2 * k' + j' < t ∨ (k' = k ∧ j' = j)) := fun k' j' h' => by omega
    -- columns of the row of the visited point
    have hcol : ∀ (pts' : List ℕ) (i : ℕ), pts'.Nodup → pts'[i]? = some (m.bface k j) →
        (∀ i' j' p, j' < 2 → pts'[i']? = some p → ∀ k', b.col i' j' = some k' ↔
          (2 * k' + j' < t ∧ m.bface k' j' = p ∧ ∀ k'', 2 * k'' + j' < t → m.bface k'' j' = p → k'' ≤ k')) →
        ∀ i' j' p, j' < 2 → pts'[i']? = some p → ∀ k', (if i' = i ∧ j' = j then some k else b.col i' j') = some k' ↔
          (2 * k' + j' < t + 1 ∧ m.bface k' j' = p ∧ ∀ k'', 2 * k'' + j' < t + 1 → m.bface k'' j' = p → k'' ≤ k') := by
      intro pts' i hn hi hold i' j' p hj' hip k'
      by_cases hc : i' = i ∧ j' = j
      · obtain ⟨rfl, rfl⟩ := hc
        rw [if_pos ⟨rfl, rfl⟩, Option.some.injEq]
        have hpp : m.bface k j' = p := Option.some.inj (hi.symm.trans hip)
        constructor
        · rintro rfl
          exact ⟨by omega, hpp, fun k'' h1 _ => by omega⟩
        · rintro ⟨a, -, c⟩
          have := c k (by omega) hpp
          omega
      · rw [if_neg hc, hold i' j' p hj' hip k']
        have hne : ∀ k'', m.bface k'' j' = p → (2 * k'' + j' < t + 1 ↔ 2 * k'' + j' < t) := fun k'' e => by
          rw [hnew k'' j' hj']
          constructor
          · rintro (h | ⟨rfl, rfl⟩)
            · exact h
            · exact absurd ⟨idx_inj hn hip (hi.trans (by rw [e])), rfl⟩ hc
          · exact Or.inl
        constructor
        · rintro ⟨a, c, d⟩
          exact ⟨by omega, c, fun k'' h1 h2 => d k'' ((hne k'' h2).1 h1) h2⟩
        · rintro ⟨a, c, d⟩
          exact ⟨(hne k' c).1 a, c, fun k'' h1 h2 => d k'' (by omega) h2⟩
    simp only [visits, h1, Option.bind_some, visit, ← hk, ← hj, if_pos hp]
    by_cases hv : b.vis (m.bface k j) = true
    · obtain ⟨i, hi⟩ := List.mem_iff_getElem?.1 ((h.vis _).1 hv)
      rw [if_pos hv, search_spec h.nodup hi]
      refine ⟨_, rfl, h.nodup, fun p => ?_, h.vis, fun k' j' hj' hlt => ?_, hcol _ i h.nodup hi h.col, fun i' j' hle => ?_⟩
      · rw [hmem, ← h.mem]
        refine ⟨Or.inl, ?_⟩
        rintro (h' | rfl)
        · exact h'
        · exact (h.vis _).1 hv
      · by_cases hc : k' = k ∧ j' = j
        · obtain ⟨rfl, rfl⟩ := hc
          simp only [and_self, if_true]; exact hi
        · simp only [if_neg hc]
          exact h.fb k' j' hj' (((hnew k' j' hj').1 hlt).resolve_right hc)
      · have := (List.getElem?_eq_some_iff.1 hi).1
        have hle : b.pts.length ≤ i' := hle
        show (if i' = i ∧ j' = j then some k else b.col i' j') = none
        rw [if_neg (by rintro ⟨rfl, -⟩; omega)]
        exact h.out i' j' hle
    · have hnm : m.bface k j ∉ b.pts := fun hm => hv ((h.vis _).2 hm)
      have hnd : (b.pts ++ [m.bface k j]).Nodup := List.nodup_append.2 ⟨h.nodup, by simp, by simp; rintro a ha rfl; exact hnm ha⟩
      have hlt : b.pts.length < nbpoin m := by
        have hsub : (b.pts ++ [m.bface k j]).length ≤ nbpoin m := by
          rw [nbpoin_eq]
          refine (List.subperm_of_subset hnd fun p hp' => ?_).length_le
          have : ∃ s, s < t + 1 ∧ pt m s = p := by
            rw [hmem, ← h.mem]
            simpa [eq_comm] using hp'
          obtain ⟨s, g1, g2⟩ := this
          simp only [List.mem_filter, List.mem_range, decide_eq_true_eq]
          exact ⟨g2 ▸ hb _ _ (by omega) (Nat.mod_lt _ (by decide)), s, by omega, g2⟩
        simpa using hsub
      rw [if_neg hv, if_pos hlt]
      have hlast : (b.pts ++ [m.bface k j])[b.pts.length]? = some (m.bface k j) := by simp
      refine ⟨_, rfl, hnd, fun p => ?_, fun p => ?_, fun k' j' hj' hl => ?_, hcol _ _ hnd hlast fun i' j' p hj' hip k' => ?_, fun i' j' hle => ?_⟩
      · rw [hmem, ← h.mem]; simp [eq_comm]
      · by_cases e : p = m.bface k j
        · subst e; simp
        · show upd b.vis _ true p = true ↔ p ∈ b.pts ++ [_]
          rw [upd_ne _ _ e, h.vis]; simp [e]
      · by_cases hc : k' = k ∧ j' = j
        · obtain ⟨rfl, rfl⟩ := hc
          simp only [and_self, if_true]; exact hlast
        · simp only [if_neg hc]
          have := h.fb k' j' hj' (((hnew k' j' hj').1 hl).resolve_right hc)
          rw [List.getElem?_append_left (List.getElem?_eq_some_iff.1 this).1]; exact this
      · by_cases hil : i' < b.pts.length
        · rw [List.getElem?_append_left hil] at hip
          exact h.col i' j' p hj' hip k'
        · rw [h.out i' j' (by omega)]
          have hi' : i' = b.pts.length := by
            have := (List.getElem?_eq_some_iff.1 hip).1
            simp at this; omega
          subst hi'
          rw [hlast, Option.some.injEq] at hip
          subst hip
          refine ⟨fun e => by simp at e, fun e => absurd ((h.mem _).2 ⟨2 * k' + j', e.1, ?_⟩) hnm⟩
          unfold pt
          rw [← e.2.1]; congr 1 <;> omega
      · have hle : b.pts.length + 1 ≤ i' := by simpa using hle
        simp only [show ¬ (i' = b.pts.length ∧ j' = j) by omega, if_false]
        exact h.out i' j' (by omega)

/-- C85: for every mesh whose boundary faces name existing points, no access is out of bounds; every boundary point has exactly one number, below the number of
boundary points; `bfacebp` gives the numbers of a face's nodes; and for each boundary point the last column is the last face that
begins there and the second the last that ends there, -1 if there is none. -/
theorem C85_boundary_points (m : Mesh) (hb : ∀ k j, k < m.nbface → j < 2 → m.bface k j < m.npoin) (junk : ℕ → ℕ → ℕ) :
    ∃ b, boundaryPoints m junk = some b ∧ b.pts.Nodup ∧ b.pts.length = nbpoin m ∧ (∀ p, p ∈ b.pts ↔ OnB m p) ∧
      (∀ k j, k < m.nbface → j < 2 → b.pts[b.fb k j]? = some (m.bface k j)) ∧
      ∀ i j p, j < 2 → b.pts[i]? = some p →
        (∀ k, b.col i j = some k ↔ k < m.nbface ∧ m.bface k j = p ∧ ∀ k', k' < m.nbface → m.bface k' j = p → k' ≤ k) ∧
        (b.col i j = none ↔ ∀ k, k < m.nbface → m.bface k j ≠ p) := by
  obtain ⟨b, h1, h⟩ := inv_visits hb junk (2 * m.nbface) le_rfl
  have hon : ∀ p, (∃ s, s < 2 * m.nbface ∧ pt m s = p) ↔ OnB m p := fun p => by
    constructor
    · rintro ⟨s, a, c⟩; exact ⟨s / 2, by omega, s % 2, Nat.mod_lt _ (by decide), c⟩
    · rintro ⟨k, hk, j, hj, c⟩
      refine ⟨2 * k + j, by omega, ?_⟩
      unfold pt; rw [← c]; congr 1 <;> omega
  have hcol : ∀ i j p, j < 2 → b.pts[i]? = some p → ∀ k, b.col i j = some k ↔ k < m.nbface ∧ m.bface k j = p ∧ ∀ k', k' < m.nbface → m.bface k' j = p → k' ≤ k :=
    fun i j p hj hip k => by
      have e : ∀ k', 2 * k' + j < 2 * m.nbface ↔ k' < m.nbface := fun k' => by omega
      rw [h.col i j p hj hip k]; simp only [e]
  refine ⟨b, h1, h.nodup, ?_, fun p => (h.mem p).trans (hon p), fun k j hk hj => h.fb k j hj (by omega), fun i j p hj hip => ⟨hcol i j p hj hip, ?_, ?_⟩⟩
  · refine le_antisymm (length_le hb le_rfl h) ?_
    rw [nbpoin_eq]
    refine (List.subperm_of_subset (List.nodup_range.filter _) fun p hp => ?_).length_le
    simp only [List.mem_filter, decide_eq_true_eq] at hp
    exact (h.mem p).2 hp.2
  · intro e k hk hkp
    have hfin : ∃ k, k < m.nbface ∧ m.bface k j = p ∧ ∀ k', k' < m.nbface → m.bface k' j = p → k' ≤ k := by
      have hne : ((Finset.range m.nbface).filter fun k => m.bface k j = p).Nonempty := ⟨k, by simp [hk, hkp]⟩
      obtain ⟨q, hq1, hq2⟩ := Finset.exists_max_image _ id hne
      simp only [Finset.mem_filter, Finset.mem_range] at hq1 hq2
      exact ⟨q, hq1.1, hq1.2, fun k' a c => hq2 k' ⟨a, c⟩⟩
    obtain ⟨q, hq⟩ := hfin
    rw [(hcol i j p hj hip q).2 hq] at e
    cases e
  · intro hno
    cases e : b.col i j with
    | none => rfl
    | some k =>
      obtain ⟨a, c, -⟩ := (hcol i j p hj hip k).1 e
      exact absurd c (hno k a)

/-- C85: on boundaries that are simple closed curves (at every point one face begins and one ends) the two columns are the faces before and after the point. -/
theorem C85_simple (m : Mesh) (hb : ∀ k j, k < m.nbface → j < 2 → m.bface k j < m.npoin)
    (hs : ∀ j, j < 2 → ∀ k k', k < m.nbface → k' < m.nbface → m.bface k j = m.bface k' j → k = k') (junk : ℕ → ℕ → ℕ) :
    ∃ b, boundaryPoints m junk = some b ∧ ∀ k j, k < m.nbface → j < 2 → b.col (b.fb k j) j = some k := by
  obtain ⟨b, h1, -, -, -, h2, h3⟩ := C85_boundary_points m hb junk
  refine ⟨b, h1, fun k j hk hj => ((h3 _ j _ hj (h2 k j hk hj)).1 k).2 ⟨hk, rfl, fun k' hk' e => (hs j hj k' k hk' hk e).le⟩⟩

/-- A triangle, whose boundary faces are listed out of order. -/
noncomputable def tri : Mesh := triMesh 3 [(0, 1, 2)] [(2, 0, 8), (0, 1, 7), (1, 2, 7)] fun _ _ => 0

example : ∃ b, boundaryPoints tri (fun _ _ => 9) = some b ∧ ∀ k j, k < 3 → j < 2 → b.col (b.fb k j) j = some k :=
  C85_simple tri (fun k j hk hj => (by decide +kernel : ∀ k < 3, ∀ j < 2, tri.bface k j < 3) k hk j hj)
    (fun j hj k k' hk hk' => (by decide +kernel : ∀ j < 2, ∀ k < 3, ∀ k' < 3, tri.bface k j = tri.bface k' j → k = k') j hj k hk k' hk') _

/-- Numbers in the order of the first visit: points 2, 0, 1. -/
example : ∃ b, boundaryPoints tri (fun _ _ => 9) = some b ∧ b.pts = [2, 0, 1] := by
  have : (boundaryPoints tri (fun _ _ => 9)).map (·.pts) = some [2, 0, 1] := by decide +kernel
  obtain ⟨b, h1, h2⟩ := Option.map_eq_some_iff.1 this
  exact ⟨b, h1, h2⟩

end Bpt
end Msh
end FVENS
