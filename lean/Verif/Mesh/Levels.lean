import Verif.FV.Copy2

/-!
# Level scheduling of the cells (C34)

`levelSchedule` splits the cells, in their present order, into consecutive groups. The specification is that no two
cells of a group share a face, and that no group could have been continued by one more cell.
-/

namespace FVENS
namespace Msh

variable (m : Mesh) (s : FState)

/-- Marking of the neighbours of a cell, src/mesh/ameshutils.cpp:174-179. The comparison is of signed integers: a
missing neighbour (−1) passes it and the write is out of range, hence `none`. -/
def meshLevelMark (icell : ℕ) (marked : ℕ → Bool) : Option (ℕ → Bool) :=
  forLt (m.nfael icell) (some marked) fun iface o => o.bind fun mk =>
    match s.esuel icell iface with
    | none => none
    | some j => if j < m.nelem then some (upd mk j true) else some mk

/-- One pass of the loop, src/mesh/ameshutils.cpp:168-189. -/
def meshLevelBody (icell : ℕ) (st : List ℕ × (ℕ → Bool)) : Option (List ℕ × (ℕ → Bool)) :=
  (meshLevelMark m s icell (upd st.2 icell true)).map fun mk =>
    if mk (icell + 1) then (st.1 ++ [icell + 1], fun _ => false) else (st.1, mk)

/-- `levelSchedule`, src/mesh/ameshutils.cpp:158-194. `nelem() - 1` is signed in the code: for an empty mesh it is
negative and, as here, the loop does not run. -/
def meshLevelSchedule : Option (List ℕ) :=
  (forLt (m.nelem - 1) (some ([0], fun _ => false)) fun icell o => o.bind (meshLevelBody m s icell)).map
    fun st => st.1 ++ [m.nelem]

/-- Specification: two cells share a face. -/
def Adj (i j : ℕ) : Prop := ∃ f g, Glued m (i, f) (j, g)

/-- Specification: the cells from `a` up to, not including, `b` form a level. -/
structure IsLevel (a b : ℕ) : Prop where
  /-- A level is not empty. -/
  lt : a < b
  le : b ≤ m.nelem
  /-- No two of its cells share a face. -/
  indep : ∀ i j, a ≤ i → i < b → a ≤ j → j < b → ¬ Adj m i j
  /-- It ends only because the next cell shares a face with one of its own. -/
  maximal : b < m.nelem → ∃ i, a ≤ i ∧ i < b ∧ Adj m i b

variable {m s}

theorem Adj.symm {i j : ℕ} (h : Adj m i j) : Adj m j i := by
  obtain ⟨f, g, h⟩ := h; exact ⟨g, f, h.symm⟩

theorem not_adj_self (i : ℕ) : ¬ Adj m i i := by rintro ⟨f, g, h⟩; exact h.2.2.1 rfl

/-- Recorded neighbours: always present, and below `nelem` exactly for the cells across the face. -/
theorem esuel_spec (hc : Conforming m) (h : topological m = .ok s) {i f : ℕ} (hx : IsFace m (i, f)) :
    ∃ j, s.esuel i f = some j ∧ ∀ c, c < m.nelem → (j = c ↔ ∃ g, Glued m (i, f) (c, g)) := by
  obtain ⟨o, ho⟩ := FV.exists_across hc h hx
  have hidx : s.esuel i f = some (o.idx m) :=
    (FV.Geo.side_tables_of (G := ⟨m, s, fun _ _ => 0, fun _ _ => 0, fun _ => 0⟩) hc h hx.1 hx.2 ho).1
  refine ⟨_, hidx, fun c hcn => ?_⟩
  cases o with
  | cell j =>
    obtain ⟨g, hg⟩ := ho
    refine ⟨fun e => ⟨g, by rw [← e]; exact hg⟩, fun ⟨g', hg'⟩ => ?_⟩
    exact congrArg Prod.fst (hc.manifold _ _ _ hg hg')
  | bnd k =>
    obtain ⟨hk, e0, e1⟩ := ho
    refine ⟨fun e => ?_, fun ⟨g, hg⟩ => ?_⟩
    · simp only [FV.Other.idx] at e; omega
    · have he : edge m (i, f) = s(m.bface k 0, m.bface k 1) := by rw [e0, e1]; rfl
      exact absurd (congrArg Prod.fst (FV.bnd_unique hc h hx hg.2.1 hk he (hg.2.2.2 ▸ he))) hg.2.2.1
  | conn ic =>
    obtain ⟨hic, hkey⟩ := ho
    refine ⟨fun e => ?_, fun ⟨g, hg⟩ => ?_⟩
    · simp only [FV.Other.idx] at e; omega
    · exact absurd (hkey ▸ hg) (hc.cfNotGlued ic hic (c, g))

/-- Marks after the neighbour loop. -/
theorem meshLevelMark_spec (hc : Conforming m) (h : topological m = .ok s) {i : ℕ} (hi : i < m.nelem) (mk : ℕ → Bool) :
    ∃ mk', meshLevelMark m s i mk = some mk' ∧ ∀ c, c < m.nelem → (mk' c = true ↔ mk c = true ∨ Adj m i c) := by
  have key : ∀ n, n ≤ m.nnode i → ∃ mk', (forLt n (some mk) fun iface o => o.bind fun mk =>
      match s.esuel i iface with
      | none => none
      | some j => if j < m.nelem then some (upd mk j true) else some mk) = some mk' ∧
      ∀ c, c < m.nelem → (mk' c = true ↔ mk c = true ∨ ∃ f g, f < n ∧ Glued m (i, f) (c, g)) := by
    intro n
    induction n with
    | zero => intro _; exact ⟨mk, rfl, fun c _ => by simp⟩
    | succ n ih =>
      intro hn
      obtain ⟨mk', e, hmk⟩ := ih (by omega)
      obtain ⟨j, hj, hjs⟩ := esuel_spec hc h (i := i) (f := n) ⟨hi, by show n < m.nnode i; omega⟩
      rw [forLt_succ, e]
      simp only [Option.bind_some, hj]
      have split : ∀ c, (∃ f g, f < n + 1 ∧ Glued m (i, f) (c, g)) ↔ (∃ f g, f < n ∧ Glued m (i, f) (c, g)) ∨ ∃ g, Glued m (i, n) (c, g) := by
        intro c
        constructor
        · rintro ⟨f, g, hf, hg⟩
          rcases Nat.lt_succ_iff_lt_or_eq.1 hf with hf | rfl
          · exact Or.inl ⟨f, g, hf, hg⟩
          · exact Or.inr ⟨g, hg⟩
        · rintro (⟨f, g, hf, hg⟩ | ⟨g, hg⟩)
          · exact ⟨f, g, by omega, hg⟩
          · exact ⟨n, g, by omega, hg⟩
      by_cases hlt : j < m.nelem
      · refine ⟨upd mk' j true, by rw [if_pos hlt], fun c hcn => ?_⟩
        rw [split, ← or_assoc, ← hmk c hcn, ← hjs c hcn]
        unfold upd
        by_cases hcj : c = j
        · simp [hcj]
        · rw [if_neg hcj]; exact ⟨Or.inl, fun h => h.resolve_right fun e => hcj e.symm⟩
      · refine ⟨mk', by rw [if_neg hlt], fun c hcn => ?_⟩
        rw [split, ← or_assoc, ← hmk c hcn, ← hjs c hcn]
        exact ⟨Or.inl, fun h => h.resolve_right fun e => by omega⟩
  obtain ⟨mk', e, hmk⟩ := key (m.nnode i) le_rfl
  refine ⟨mk', by unfold meshLevelMark; rw [hc.lin.nf i hi]; exact e, fun c hcn => ?_⟩
  rw [hmk c hcn]
  refine or_congr_right ⟨fun ⟨f, g, _, hg⟩ => ⟨f, g, hg⟩, fun ⟨f, g, hg⟩ => ⟨f, g, hg.1.2, hg⟩⟩

/-- State of the loop before cell `n`: the level being built starts at `a`. -/
structure LevelInv (m : Mesh) (n : ℕ) (st : List ℕ × (ℕ → Bool)) (a : ℕ) : Prop where
  le : a ≤ n
  head : st.1.head? = some 0
  last : st.1.getLast? = some a
  chain : st.1.IsChain (IsLevel m)
  indep : ∀ i j, a ≤ i → i ≤ n → a ≤ j → j ≤ n → ¬ Adj m i j
  mark : ∀ c, c < m.nelem → (st.2 c = true ↔ ∃ i, a ≤ i ∧ i < n ∧ (c = i ∨ Adj m i c))

theorem level_loop (hc : Conforming m) (h : topological m = .ok s) : ∀ n, n + 1 ≤ m.nelem →
    ∃ st a, (forLt n (some ([0], fun _ => false)) fun icell o => o.bind (meshLevelBody m s icell)) = some st ∧
      LevelInv m n st a := by
  intro n
  induction n with
  | zero =>
    intro _
    refine ⟨_, 0, rfl, le_rfl, rfl, rfl, by simp, ?_, ?_⟩
    · intro i j _ hi _ hj
      obtain rfl : i = 0 := by omega
      obtain rfl : j = 0 := by omega
      exact not_adj_self 0
    · intro c _; simp
  | succ n ih =>
    intro hn
    obtain ⟨st, a, e, inv⟩ := ih (by omega)
    rw [forLt_succ, e, Option.bind_some]
    obtain ⟨mk, hmk, hs⟩ := meshLevelMark_spec hc h (i := n) (by omega) (upd st.2 n true)
    have hs' : ∀ c, c < m.nelem → (mk c = true ↔ ∃ i, a ≤ i ∧ i < n + 1 ∧ (c = i ∨ Adj m i c)) := by
      intro c hcn
      rw [hs c hcn]
      unfold upd
      constructor
      · rintro (h1 | h1)
        · by_cases hcn' : c = n
          · exact ⟨n, inv.le, by omega, Or.inl hcn'⟩
          · rw [if_neg hcn'] at h1
            obtain ⟨i, h2, h3, h4⟩ := (inv.mark c hcn).1 h1
            exact ⟨i, h2, by omega, h4⟩
        · exact ⟨n, inv.le, by omega, Or.inr h1⟩
      · rintro ⟨i, h2, h3, h4⟩
        by_cases hin : i = n
        · subst hin
          rcases h4 with h4 | h4
          · left; rw [if_pos h4]
          · exact Or.inr h4
        · left
          by_cases hcn' : c = n
          · rw [if_pos hcn']
          · rw [if_neg hcn']; exact (inv.mark c hcn).2 ⟨i, h2, by omega, h4⟩
    have hnext : mk (n + 1) = true ↔ ∃ i, a ≤ i ∧ i < n + 1 ∧ Adj m i (n + 1) := by
      rw [hs' (n + 1) (by omega)]
      constructor
      · rintro ⟨i, h2, h3, h4⟩; exact ⟨i, h2, h3, h4.resolve_left (by omega)⟩
      · rintro ⟨i, h2, h3, h4⟩; exact ⟨i, h2, h3, Or.inr h4⟩
    unfold meshLevelBody
    rw [hmk, Option.map_some]
    have hal := inv.le
    by_cases hm : mk (n + 1) = true
    · rw [if_pos hm]
      refine ⟨_, n + 1, rfl, le_rfl, ?_, by simp, ?_, ?_, ?_⟩
      · have := inv.head
        cases hl : st.1 with
        | nil => rw [hl] at this; simp at this
        | cons b l => rw [hl] at this; simpa using this
      · rw [List.isChain_append]
        refine ⟨inv.chain, by simp, ?_⟩
        intro x hx y hy
        rw [inv.last] at hx
        simp only [Option.mem_def, Option.some.injEq, List.head?_cons] at hx hy
        subst hx; subst hy
        exact ⟨by omega, by omega, fun i j h1 h2 h3 h4 => inv.indep i j h1 (by omega) h3 (by omega), fun _ => hnext.1 hm⟩
      · intro i j h1 h2 h3 h4
        obtain rfl : i = n + 1 := by omega
        obtain rfl : j = n + 1 := by omega
        exact not_adj_self _
      · intro c hcn
        simp only [Bool.false_eq_true, false_iff]
        rintro ⟨i, h1, h2, -⟩; omega
    · rw [if_neg hm]
      refine ⟨_, a, rfl, by omega, inv.head, inv.last, inv.chain, ?_, hs'⟩
      have hno : ∀ i, a ≤ i → i ≤ n + 1 → ¬ Adj m i (n + 1) := by
        intro i h1 h2 hadj
        rcases Nat.lt_or_ge i (n + 1) with hi | hi
        · exact hm (hnext.2 ⟨i, h1, hi, hadj⟩)
        · obtain rfl : i = n + 1 := by omega
          exact not_adj_self _ hadj
      intro i j h1 h2 h3 h4 hadj
      rcases Nat.lt_or_ge j (n + 1) with hj | hj
      · rcases Nat.lt_or_ge i (n + 1) with hi | hi
        · exact inv.indep i j h1 (by omega) h3 (by omega) hadj
        · obtain rfl : i = n + 1 := by omega
          exact hno j h3 h4 hadj.symm
      · obtain rfl : j = n + 1 := by omega
        exact hno i h1 h2 hadj

/-- C34: on a pre-processed conforming mesh the level schedule starts at cell 0, ends at the number of cells, and any
two consecutive entries enclose a level. -/
theorem C34_mesh_levels (hc : Conforming m) (h : topological m = .ok s) (hpos : 0 < m.nelem) :
    ∃ L, meshLevelSchedule m s = some L ∧ L.head? = some 0 ∧ L.getLast? = some m.nelem ∧ L.IsChain (IsLevel m) := by
  obtain ⟨st, a, e, inv⟩ := level_loop hc h (m.nelem - 1) (by omega)
  have hal := inv.le
  refine ⟨st.1 ++ [m.nelem], by unfold meshLevelSchedule; rw [e]; rfl, ?_, by simp, ?_⟩
  · have := inv.head
    cases hl : st.1 with
    | nil => rw [hl] at this; simp at this
    | cons b l => rw [hl] at this; simpa using this
  · rw [List.isChain_append]
    refine ⟨inv.chain, by simp, ?_⟩
    intro x hx y hy
    rw [inv.last] at hx
    simp only [Option.mem_def, Option.some.injEq, List.head?_cons] at hx hy
    subst hx; subst hy
    exact ⟨by omega, le_rfl, fun i j h1 h2 h3 h4 => inv.indep i j h1 (by omega) h3 (by omega), fun h => by omega⟩

/-- C34: the specification has one solution only, so the schedule is determined by the cell order and the sharing of
faces, not by the orientation or listing of faces. -/
theorem C34_mesh_unique {L L' : List ℕ} (h0 : L.head? = some 0) (h0' : L'.head? = some 0)
    (hl : L.getLast? = some m.nelem) (hl' : L'.getLast? = some m.nelem)
    (hL : L.IsChain (IsLevel m)) (hL' : L'.IsChain (IsLevel m)) : L = L' := by
  have key : ∀ (L L' : List ℕ) (a : ℕ), L.head? = some a → L'.head? = some a → L.getLast? = some m.nelem →
      L'.getLast? = some m.nelem → L.IsChain (IsLevel m) → L'.IsChain (IsLevel m) → L = L' := by
    intro L
    induction L with
    | nil => intro _ _ h; simp at h
    | cons x t ih =>
      intro L' a h1 h2 h3 h4 h5 h6
      cases L' with
      | nil => simp at h2
      | cons x' t' =>
        simp only [List.head?_cons, Option.some.injEq] at h1 h2
        subst h1; subst h2
        have last_ge : ∀ (t : List ℕ) (a : ℕ), (a :: t).IsChain (IsLevel m) → (a :: t).getLast? = some m.nelem → t ≠ [] → a < m.nelem := by
          intro t a hc hg hne
          cases t with
          | nil => exact absurd rfl hne
          | cons b t => have := (List.isChain_cons_cons.1 hc).1; exact lt_of_lt_of_le this.lt this.le
        cases t with
        | nil =>
          cases t' with
          | nil => rfl
          | cons b t' =>
            have := last_ge _ _ h6 h4 (by simp)
            simp at h3; omega
        | cons b t =>
          cases t' with
          | nil =>
            have := last_ge _ _ h5 h3 (by simp)
            simp at h4; omega
          | cons b' t' =>
            obtain ⟨r1, r2⟩ := List.isChain_cons_cons.1 h5
            obtain ⟨r1', r2'⟩ := List.isChain_cons_cons.1 h6
            have hbb : b = b' := by
              rcases Nat.lt_trichotomy b b' with hlt | he | hlt
              · obtain ⟨i, i1, i2, i3⟩ := r1.maximal (lt_of_lt_of_le hlt r1'.le)
                exact absurd i3 (r1'.indep i b i1 (by omega) (by have := r1.lt; omega) hlt)
              · exact he
              · obtain ⟨i, i1, i2, i3⟩ := r1'.maximal (lt_of_lt_of_le hlt r1.le)
                exact absurd i3 (r1.indep i b' i1 (by omega) (by have := r1'.lt; omega) hlt)
            subst hbb
            have := ih (b :: t') b rfl rfl (by simpa using h3) (by simpa using h4) r2 r2'
            rw [this]
  exact key L L' 0 h0 h0' hl hl' hL hL'

/-- C34: the schedule is undefined exactly if some cell other than the last has a local face without neighbour. -/
theorem C34_undefined_iff (m : Mesh) (s : FState) : meshLevelSchedule m s = none ↔
    ∃ i f, i < m.nelem - 1 ∧ f < m.nfael i ∧ s.esuel i f = none := by
  have hmark : ∀ i mk, meshLevelMark m s i mk = none ↔ ∃ f, f < m.nfael i ∧ s.esuel i f = none := by
    intro i mk
    unfold meshLevelMark
    induction m.nfael i with
    | zero => simp [forLt_zero]
    | succ n ih =>
      rw [forLt_succ]
      have hsp : (∃ f, f < n + 1 ∧ s.esuel i f = none) ↔ (∃ f, f < n ∧ s.esuel i f = none) ∨ s.esuel i n = none := by
        constructor
        · rintro ⟨f, hf, e⟩
          rcases Nat.lt_succ_iff_lt_or_eq.1 hf with hf | rfl
          · exact Or.inl ⟨f, hf, e⟩
          · exact Or.inr e
        · rintro (⟨f, hf, e⟩ | e)
          · exact ⟨f, by omega, e⟩
          · exact ⟨n, by omega, e⟩
      rw [hsp, ← ih]
      generalize (forLt n (some mk) _ : Option (ℕ → Bool)) = r
      cases r with
      | none => simp
      | some r =>
        simp only [Option.bind_some, reduceCtorEq, false_or]
        cases s.esuel i n with
        | none => simp
        | some j => simp only [reduceCtorEq, iff_false]; split <;> simp
  unfold meshLevelSchedule
  rw [Option.map_eq_none_iff]
  generalize m.nelem - 1 = N
  induction N with
  | zero => simp [forLt_zero]
  | succ n ih =>
    rw [forLt_succ]
    have hsp : (∃ i f, i < n + 1 ∧ f < m.nfael i ∧ s.esuel i f = none) ↔
        (∃ i f, i < n ∧ f < m.nfael i ∧ s.esuel i f = none) ∨ ∃ f, f < m.nfael n ∧ s.esuel n f = none := by
      constructor
      · rintro ⟨i, f, hi, e⟩
        rcases Nat.lt_succ_iff_lt_or_eq.1 hi with hi | rfl
        · exact Or.inl ⟨i, f, hi, e⟩
        · exact Or.inr ⟨f, e⟩
      · rintro (⟨i, f, hi, e⟩ | ⟨f, e⟩)
        · exact ⟨i, f, by omega, e⟩
        · exact ⟨n, f, by omega, e⟩
    refine Iff.trans ?_ ((or_congr_left ih).trans hsp.symm)
    generalize (forLt n (some ([0], fun _ => false)) _ : Option (List ℕ × (ℕ → Bool))) = r
    cases r with
    | none => simp
    | some r =>
      simp only [Option.bind_some, reduceCtorEq, false_or]
      unfold meshLevelBody
      rw [Option.map_eq_none_iff, hmark]

/-! A square cut by its diagonals, opposite triangles numbered consecutively: two levels of two cells. -/

/-- Four triangles around point 4, opposite ones next to each other in the list. -/
noncomputable def oppMesh : Mesh :=
  triMesh 5 [(0, 1, 4), (2, 3, 4), (1, 2, 4), (3, 0, 4)] [(0, 1, 1), (1, 2, 1), (2, 3, 1), (3, 0, 1)] fun _ _ => 0

theorem opp_hosts : bfaceHosts oppMesh (esup oppMesh) = .ok [(0, 0), (2, 0), (1, 0), (3, 0)] := by decide +kernel

example : Conforming oppMesh ∧ 0 < oppMesh.nelem ∧
    ∃ s, topological oppMesh = .ok s ∧ meshLevelSchedule oppMesh s = some [0, 2, 4] := by
  refine ⟨(by decide +kernel : Check oppMesh).conforming, by decide +kernel, ?_⟩
  rw [topological, faceConnectivity, opp_hosts]
  exact ⟨_, rfl, by decide +kernel⟩

/-- Before the faces are built the neighbour table has holes at the boundary and the call is undefined. -/
example : meshLevelSchedule oppMesh ⟨esuel oppMesh (esup oppMesh), fun _ _ => none, []⟩ = none := by decide +kernel

end Msh
end FVENS
