import Verif.Par.Explicit
import Verif.Par.Renumber
import Verif.Mesh.Compare

/-!
# From the mesh file to the meshes of the ranks (C90)

`constructMesh`: orientation of boundary faces, topology, trivial partition, extraction, then reordering by `-mesh_reorder` and topology on each rank.
-/

namespace FVENS
namespace Par

open Msh FV Flux Ode
open Finset (range)

/-! ### Model -/

/-- `boost::split` at one character: empty parts are kept. src/mesh/ameshutils.cpp:71-72, src/mesh/meshreaders.cpp:40-41. -/
def splitAt (c : Char) : List Char → List (List Char)
  | [] => [[]]
  | x :: xs => if x = c then [] :: splitAt c xs
    else match splitAt c xs with
      | [] => [[x]]
      | h :: t => (x :: h) :: t

/-- Whether `readMesh` reads an SU2 file: the last part of the path between dots; src/mesh/meshreaders.cpp:35-46. -/
def isSu2 (path : List Char) : Bool := (splitAt '.' path).getLastD [] == "su2".toList

/-- What `-mesh_reorder` asks for. -/
inductive Request
  | keep
  | line (thr : ℝ)
  | hybrid (thr : ℝ) (second : List Char)
  | petsc (name : List Char)

/-- Decisions of `preprocessMesh`, src/mesh/ameshutils.cpp:43-101: `opt` is the value of `-mesh_reorder`, `thr` that of `-mesh_anisotropy_threshold`. Values are taken as
given; PETSc cuts them off at a length of `PETSCOPTION_STR_LEN`. -/
def request (opt : Option (List Char)) (thr : Option ℝ) : BC.Res Request :=
  match opt with
  | none => .ok .keep
  | some s =>
    if s = "line".toList then
      match thr with
      | none => .throws
      | some t => .ok (.line t)
    else if "line".toList <:+: s then
      match splitAt '_' s with
      | [_, b] => match thr with
        | none => .throws
        | some t => .ok (.hybrid t b)
      | _ => .throws
    else if s = "natural".toList then .ok .keep
    else .ok (.petsc s)

/-- `preprocessMesh` of one rank after the decisions above, src/mesh/ameshutils.cpp:43-108, and `reorderMeshPetsc`, 245-290: the permutation comes from `findLines`
(C35) or PETSc and is a parameter; `none` is an error code or an exception. -/
def preprocess (ordering : Mesh → FState → Request → Option (ℕ → ℕ)) (m : Mesh) (q : Request) : BC.Res (Mesh × FState) :=
  match q with
  | .keep => match topological m with
    | .ok s => .ok (m, s)
    | .throws => .throws
    | .ub => .ub
  | q => match topological m with
    | .ok s => match ordering m s q with
      | none => .throws
      | some perm => match topological (reorderCells m perm) with
        | .ok s' => .ok (reorderCells m perm, s')
        | .throws => .throws
        | .ub => .ub
    | .throws => .throws
    | .ub => .ub

/-- What a rank holds at the end: the extracted subdomain (with the lists of global cells and points), the mesh after reordering and its topology. -/
structure Local where
  sub : Sub
  mesh : Mesh
  topo : FState

/-- `constructMesh` on rank `r` of `n`, src/mesh/ameshutils.cpp:110-160. `fm` is the mesh as read. -/
noncomputable def construct (ordering : Mesh → FState → Request → Option (ℕ → ℕ)) (opt : Option (List Char)) (thr : Option ℝ) (n r : ℕ) (fm : Mesh) : BC.Res Local :=
  match correctOrientation fm with
  | .throws => .throws
  | .ub => .ub
  | .ok gm => match topological gm with
    | .throws => .throws
    | .ub => .ub
    | .ok s => match trivialPartition gm.nelem n with
      | .throws => .throws
      | .ub => .ub
      | .ok dist => match restrict gm s dist r with
        | .throws => .throws
        | .ub => .ub
        | .ok S => match request opt thr with
          | .throws => .throws
          | .ub => .ub
          | .ok q => match preprocess ordering S.mesh q with
            | .throws => .throws
            | .ub => .ub
            | .ok (m, s') => .ok ⟨S, m, s'⟩

/-! ### Option strings -/

theorem splitAt_ne (c : Char) (s : List Char) : splitAt c s ≠ [] := by
  cases s with
  | nil => simp [splitAt]
  | cons x xs =>
    simp only [splitAt]
    split_ifs
    · simp
    · split <;> simp

/-- Parts of a string: none contains the separator, and joined by it they give the string. -/
def Parts (c : Char) (s : List Char) (l : List (List Char)) : Prop := l ≠ [] ∧ (∀ p ∈ l, c ∉ p) ∧ [c].intercalate l = s

theorem parts_split (c : Char) (s : List Char) : Parts c s (splitAt c s) := by
  induction s with
  | nil => exact ⟨by simp [splitAt], by simp [splitAt], by simp [splitAt, List.intercalate]⟩
  | cons x xs ih =>
    obtain ⟨i1, i2, i3⟩ := ih
    simp only [splitAt]
    by_cases hx : x = c
    · rw [if_pos hx]
      refine ⟨by simp, ?_, ?_⟩
      · intro p hp
        rcases List.mem_cons.1 hp with rfl | hp
        · simp
        · exact i2 p hp
      · obtain ⟨h, t, e⟩ := List.exists_cons_of_ne_nil i1
        rw [e] at i3 ⊢
        rw [← i3, ← hx]
        simp [List.intercalate, List.intersperse]
    · rw [if_neg hx]
      obtain ⟨h, t, e⟩ := List.exists_cons_of_ne_nil i1
      rw [e] at i2 i3 ⊢
      refine ⟨by simp, ?_, ?_⟩
      · intro p hp
        rcases List.mem_cons.1 hp with rfl | hp
        · have := i2 h (by simp)
          simp only [List.mem_cons, not_or]
          exact ⟨fun e => hx e.symm, this⟩
        · exact i2 p (by simp [hp])
      · rw [← i3]
        cases t <;> simp [List.intercalate, List.intersperse]

theorem parts_unique {c : Char} : ∀ {l l' : List (List Char)} {s : List Char}, Parts c s l → Parts c s l' → l = l' := by
  have key : ∀ (a b : List Char) (u v : List Char), c ∉ a → c ∉ b → a ++ c :: u = b ++ c :: v → a = b ∧ u = v := by
    intro a
    induction a with
    | nil =>
      intro b u v _ hb e
      cases b with
      | nil => simpa using e
      | cons y b => simp only [List.nil_append, List.cons_append, List.cons.injEq] at e; exact absurd (by simp [e.1]) hb
    | cons x a ih =>
      intro b u v ha hb e
      cases b with
      | nil => simp only [List.nil_append, List.cons_append, List.cons.injEq] at e; exact absurd (by simp [e.1]) ha
      | cons y b =>
        simp only [List.cons_append, List.cons.injEq] at e
        obtain ⟨h1, h2⟩ := ih b u v (fun h => ha (by simp [h])) (fun h => hb (by simp [h])) e.2
        exact ⟨by rw [e.1, h1], h2⟩
  have cons2 : ∀ (a b : List Char) (t : List (List Char)), [c].intercalate (a :: b :: t) = a ++ c :: [c].intercalate (b :: t) := fun a b t => by
    simp [List.intercalate, List.intersperse]
  intro l
  induction l with
  | nil => intro l' s h _; exact absurd rfl h.1
  | cons a t ih =>
    intro l' s h h'
    obtain ⟨b, t', rfl⟩ := List.exists_cons_of_ne_nil h'.1
    have ha := h.2.1 a (by simp)
    have hb := h'.2.1 b (by simp)
    cases t with
    | nil =>
      have e1 : a = s := by have := h.2.2; simpa [List.intercalate] using this
      cases t' with
      | nil =>
        have e2 : b = s := by have := h'.2.2; simpa [List.intercalate] using this
        rw [e1, e2]
      | cons b2 t2 =>
        have := h'.2.2
        rw [cons2, ← e1] at this
        exact absurd (by rw [← this]; simp) ha
    | cons a2 t1 =>
      cases t' with
      | nil =>
        have e2 : b = s := by have := h'.2.2; simpa [List.intercalate] using this
        have := h.2.2
        rw [cons2, ← e2] at this
        exact absurd (by rw [← this]; simp) hb
      | cons b2 t2 =>
        have e := h.2.2.trans h'.2.2.symm
        rw [cons2, cons2] at e
        obtain ⟨k1, k2⟩ := key a b _ _ ha hb e
        have := ih (l' := b2 :: t2) (s := [c].intercalate (a2 :: t1)) ⟨by simp, fun p hp => h.2.1 p (by simp [List.mem_cons.1 hp]), rfl⟩
          ⟨by simp, fun p hp => h'.2.1 p (by simp [List.mem_cons.1 hp]), k2.symm⟩
        rw [k1, this]

theorem splitAt_eq_iff (c : Char) (s : List Char) (l : List (List Char)) : splitAt c s = l ↔ Parts c s l :=
  ⟨fun h => h ▸ parts_split c s, fun h => parts_unique (parts_split c s) h⟩

/-- C90: a file is read as SU2 exactly if its name ends in `.su2`, or is `su2`. -/
theorem C90_format (path : List Char) : isSu2 path = true ↔ path = "su2".toList ∨ ∃ a, path = a ++ ".su2".toList := by
  have hdot : '.' ∉ "su2".toList := by decide
  have cons2 : ∀ (t : List (List Char)) (b : List Char), t ≠ [] → ['.'].intercalate (t ++ [b]) = ['.'].intercalate t ++ '.' :: b := by
    intro t
    induction t with
    | nil => intro b h; exact absurd rfl h
    | cons a t ih =>
      intro b _
      cases t with
      | nil => simp [List.intercalate, List.intersperse]
      | cons a2 t =>
        have := ih b (by simp)
        simp only [List.cons_append, List.intercalate, List.intersperse, List.flatten_cons] at this ⊢
        simp only [this, List.append_assoc, List.cons_append, List.nil_append]
  unfold isSu2
  rw [beq_iff_eq]
  constructor
  · intro h
    obtain ⟨h1, -, h3⟩ := parts_split '.' path
    rw [List.getLastD_eq_getLast?, List.getLast?_eq_some_getLast h1, Option.getD_some] at h
    have e := List.dropLast_append_getLast h1
    rw [h] at e
    rw [← h3, ← e]
    by_cases hd : (splitAt '.' path).dropLast = []
    · left; rw [hd]; simp [List.intercalate]
    · right; exact ⟨_, by rw [cons2 _ _ hd]; rfl⟩
  · rintro (rfl | ⟨a, rfl⟩)
    · decide
    · have : splitAt '.' (a ++ ".su2".toList) = splitAt '.' a ++ ["su2".toList] := by
        rw [splitAt_eq_iff]
        obtain ⟨h1, h2, h3⟩ := parts_split '.' a
        refine ⟨by simp, fun p hp => ?_, ?_⟩
        · rcases List.mem_append.1 hp with hp | hp
          · exact h2 p hp
          · rw [List.mem_singleton.1 hp]; exact hdot
        · rw [cons2 _ _ h1, h3]; rfl
      rw [this]; simp

theorem line_infix {a b : List Char} : "line".toList <:+: a ++ '_' :: b ↔ "line".toList <:+: a ∨ "line".toList <:+: b := by
  constructor
  · rintro ⟨u, v, e⟩
    have hu : '_' ∉ "line".toList := by decide
    rw [List.append_assoc, List.append_eq_append_iff] at e
    rcases e with ⟨x, rfl, e⟩ | ⟨x, rfl, e⟩
    · -- the word starts in `a`
      rw [List.append_eq_append_iff] at e
      rcases e with ⟨y, rfl, -⟩ | ⟨y, e1, e2⟩
      · exact Or.inl ⟨u, y, by simp⟩
      · cases y with
        | nil => rw [List.append_nil] at e1; exact Or.inl ⟨u, [], by rw [e1]; simp⟩
        | cons c y =>
          rw [List.cons_append, List.cons.injEq] at e2
          exact absurd (by rw [e1, ← e2.1]; simp) hu
    · cases x with
      | nil =>
        rw [List.nil_append] at e
        have : ("line".toList ++ v).head? = some '_' := by rw [← e]; rfl
        exact absurd this (by simp)
      | cons c x =>
        rw [List.cons_append, List.cons.injEq] at e
        exact Or.inr ⟨x, v, by rw [e.2]; simp⟩
  · rintro (⟨u, v, e⟩ | ⟨u, v, e⟩)
    · exact ⟨u, v ++ '_' :: b, by rw [← e]; simp⟩
    · exact ⟨a ++ '_' :: u, v, by rw [← e]; simp⟩

/-- C90: the lines are combined with another ordering exactly if the option consists of two words joined by an underscore, of which either contains `line`, and the
threshold is given; the second word names the ordering. -/
theorem C90_hybrid_iff (s : List Char) (thr : Option ℝ) (t : ℝ) (b : List Char) : request (some s) thr = .ok (.hybrid t b) ↔
    thr = some t ∧ ∃ a, s = a ++ '_' :: b ∧ '_' ∉ a ∧ '_' ∉ b ∧ ("line".toList <:+: a ∨ "line".toList <:+: b) := by
  have hsp : ∀ a, splitAt '_' s = [a, b] ↔ '_' ∉ a ∧ '_' ∉ b ∧ s = a ++ '_' :: b := fun a => by
    rw [splitAt_eq_iff]
    simp only [Parts, ne_eq, List.cons_ne_nil, not_false_eq_true, true_and, List.mem_cons, List.not_mem_nil, or_false, forall_eq_or_imp, forall_eq, and_assoc,
      List.intercalate, List.intersperse, List.flatten_cons, List.flatten_nil, List.append_nil, List.cons_append, List.nil_append]
    constructor
    · rintro ⟨h1, h2, h3⟩; exact ⟨h1, h2, h3.symm⟩
    · rintro ⟨h1, h2, h3⟩; exact ⟨h1, h2, h3.symm⟩
  constructor
  · intro h
    simp only [request] at h
    split_ifs at h with h1 h2 h3
    · cases thr <;> simp at h
    · split at h
      · rename_i a b' hs
        cases thr with
        | none => simp at h
        | some t' =>
          simp only [BC.Res.ok.injEq, Request.hybrid.injEq] at h
          obtain ⟨rfl, rfl⟩ := h
          obtain ⟨k1, k2, k3⟩ := (hsp a).1 hs
          exact ⟨rfl, a, k3, k1, k2, by rw [k3] at h2; exact line_infix.1 h2⟩
      · cases h
    · cases h
    · cases h
  · rintro ⟨rfl, a, e, h1, h2, h3⟩
    have hs := (hsp a).2 ⟨h1, h2, e⟩
    have hne : s ≠ "line".toList := fun h => by
      have : '_' ∈ "line".toList := by rw [← h, e]; simp
      exact absurd this (by decide)
    simp only [request]
    rw [if_neg hne, if_pos (by rw [e]; exact line_infix.2 h3), hs]

/-- Words in the other order are accepted too: `rcm_line` asks for an ordering of the graph called `line`. -/
example : request (some "rcm_line".toList) (some 10) = .ok (.hybrid 10 "line".toList) :=
  (C90_hybrid_iff _ _ _ _).2 ⟨rfl, "rcm".toList, by decide, by decide, by decide, by decide⟩

/-- C90: requests with the word `line` that are neither `line` itself nor two words are refused, and so are those without a threshold. -/
theorem C90_request_throws_iff (opt : Option (List Char)) (thr : Option ℝ) : request opt thr = .throws ↔
    ∃ s, opt = some s ∧ "line".toList <:+: s ∧ ((thr = none ∨ s ≠ "line".toList ∧ s.count '_' ≠ 1)) := by
  have hcount : ∀ (l : List (List Char)) (s : List Char), Parts '_' s l → s.count '_' + 1 = l.length := by
    intro l
    induction l with
    | nil => intro s h; exact absurd rfl h.1
    | cons a t ih =>
      intro s h
      have ha : a.count '_' = 0 := List.count_eq_zero.2 (h.2.1 a (by simp))
      cases t with
      | nil =>
        have e1 : a = s := by have := h.2.2; simpa [List.intercalate] using this
        rw [← e1, ha]; rfl
      | cons b t =>
        have := ih _ ⟨by simp, fun p hp => h.2.1 p (by simp [List.mem_cons.1 hp]), rfl⟩
        have e : s = a ++ '_' :: ['_'].intercalate (b :: t) := by rw [← h.2.2]; simp [List.intercalate, List.intersperse]
        rw [e, List.count_append, ha, List.count_cons_self, List.length_cons, ← this]; omega
  cases opt with
  | none => simp [request]
  | some s =>
    simp only [request, Option.some.injEq, exists_eq_left']
    have hc := hcount _ s (parts_split '_' s)
    by_cases h1 : s = "line".toList
    · rw [if_pos h1]
      cases thr <;> simp [h1]
    · rw [if_neg h1]
      by_cases h2 : "line".toList <:+: s
      · rw [if_pos h2]
        simp only [h2, h1, ne_eq, not_false_eq_true, true_and]
        split
        · rename_i a b hs
          rw [hs] at hc
          have : s.count '_' = 1 := by simpa using hc
          cases thr <;> simp [this]
        · rename_i hno
          simp only [true_iff]
          right
          intro h
          rw [h] at hc
          have : ∃ a b, splitAt '_' s = [a, b] := by
            match hs : splitAt '_' s with
            | [] => rw [hs] at hc; simp at hc
            | [a] => rw [hs] at hc; simp at hc
            | [a, b] => exact ⟨a, b, rfl⟩
            | a :: b :: d :: t => rw [hs] at hc; simp at hc
          obtain ⟨a, b, e⟩ := this
          exact hno a b e
      · rw [if_neg h2]
        simp only [h2, false_and, iff_false]
        split_ifs <;> simp

/-! ### Construction -/

/-- What the pipeline needs of the mesh in the file: cells with distinct vertices, at most two at an edge, in opposite directions; each boundary face, in either direction, is
an edge of a cell and the only cell that has both its end points; no boundary face twice; every edge belongs to two cells or to a boundary face; no edge of length zero. -/
structure Raw (m : Mesh) : Prop where
  lin : Lin m
  manifold : Manifold m
  opposite : ∀ x y, Glued m x y → m.inpoel y.1 y.2 = m.inpoel x.1 ((x.2 + 1) % m.nnode x.1)
  hosted : ∀ k, k < m.nbface → ∃ x, IsFace m x ∧ edge m x = s(m.bface k 0, m.bface k 1) ∧ ∀ i, HasBoth m (m.bface k 0) (m.bface k 1) i → i = x.1
  bfDistinct : ∀ k l, k < m.nbface → l < m.nbface → s(m.bface k 0, m.bface k 1) = s(m.bface l 0, m.bface l 1) → k = l
  cover : ∀ x, IsFace m x → (∃ y, Glued m x y) ∨ ∃ k, k < m.nbface ∧ edge m x = s(m.bface k 0, m.bface k 1)
  whole : m.nconnface = 0
  tags : m.nbtag ≤ 4
  length : NoZeroFace m

section raw
variable {fm : Mesh}

theorem Raw.host (hr : Raw fm) {k : ℕ} (hk : k < fm.nbface) : (fm.bface k 0 < fm.npoin ∧ fm.bface k 1 < fm.npoin) ∧
    ∃ x, bfaceHost fm (esup fm) (fm.bface k 0) (fm.bface k 1) = .ok x := by
  obtain ⟨x, hx, he, hu⟩ := hr.hosted k hk
  have h0 := hr.lin.lt _ hx.1 _ hx.2
  have h1 := hr.lin.lt _ hx.1 _ (hr.lin.next_lt hx.1 x.2)
  have hb : fm.bface k 0 < fm.npoin ∧ fm.bface k 1 < fm.npoin := by
    rcases Sym2.eq_iff.1 (show s(fm.inpoel x.1 x.2, fm.inpoel x.1 ((x.2 + 1) % fm.nnode x.1)) = s(fm.bface k 0, fm.bface k 1) from he) with ⟨a, b⟩ | ⟨a, b⟩
    · rw [← a, ← b]; exact ⟨h0, h1⟩
    · rw [← a, ← b]; exact ⟨h1, h0⟩
  refine ⟨hb, x, (C28_ok_iff hr.lin hb.1 hb.2 x.1 x.2).2 ⟨fun i => ⟨hu i, fun e => e ▸ hasBoth_of_edge hr.lin hx he⟩, hx.2, he⟩⟩

/-- C90: the boundary faces of the file are directed, and the topology computed, without failure; the result is a conforming mesh with the file's cells, points, boundary faces and
tags. -/
theorem C90_oriented (hr : Raw fm) : ∃ gm s, correctOrientation fm = .ok gm ∧ topological gm = .ok s ∧ Conforming gm ∧ gm = { fm with bface := gm.bface } ∧
    ∀ k, k < fm.nbface → s(gm.bface k 0, gm.bface k 1) = s(fm.bface k 0, fm.bface k 1) := by
  have hbf : BfOk fm := fun k hk => (hr.host hk).1
  have key : ∀ k, k < fm.nbface → ∃ x, bfaceHost fm (esup fm) (fm.bface k 0) (fm.bface k 1) = .ok x := fun k hk => (hr.host hk).2
  choose! x hx using key
  have hh : bfaceHosts fm (esup fm) = .ok ((List.range fm.nbface).map x) := (mapRes_ok _ _ _).2 ⟨by simp, fun k h1 h2 => by
    rw [List.getElem_range, List.getElem_map, List.getElem_range]
    exact hx k (by simpa using h1)⟩
  obtain ⟨gm, hgm⟩ : ∃ gm, correctOrientation fm = .ok gm := by
    unfold correctOrientation
    rw [hh]
    exact ⟨_, rfl⟩
  obtain ⟨o1, o2, o3⟩ := C29_oriented hr.lin hbf hgm
  have hid := C29_idempotent hr.lin hbf hgm
  have htop : ∃ s, topological gm = .ok s := by
    unfold correctOrientation at hid
    cases hq : bfaceHosts gm (esup gm) with
    | throws => rw [hq] at hid; cases hid
    | ub => rw [hq] at hid; cases hid
    | ok hosts => exact topological_of_hosts hq
  obtain ⟨s, hs⟩ := htop
  refine ⟨gm, s, hgm, hs, ?_, o3, o2⟩
  generalize gm.bface = b at o1 o2 o3
  subst o3
  refine ⟨⟨hr.lin.nf, hr.lin.three, hr.lin.lt, hr.lin.inj⟩, hr.manifold, hr.opposite, fun k hk => ?_, fun k l hk hl e => ?_,
    fun ic hic => absurd (show ic < fm.nconnface from hic) (by rw [hr.whole]; omega), fun ic jc hic => absurd (show ic < fm.nconnface from hic) (by rw [hr.whole]; omega),
    fun ic hic => absurd (show ic < fm.nconnface from hic) (by rw [hr.whole]; omega), fun ic k hic => absurd (show ic < fm.nconnface from hic) (by rw [hr.whole]; omega),
    fun x hx => ?_⟩
  · obtain ⟨e, f, he, hf, -, b0, b1⟩ := o1 k hk
    exact ⟨(e, f), ⟨he, hf⟩, b0, b1⟩
  · exact hr.bfDistinct k l hk hl ((o2 k hk).symm.trans (Eq.trans e (o2 l hl)))
  · rcases hr.cover x hx with h | ⟨k, hk, e⟩
    · exact Or.inl h
    · exact Or.inr (Or.inl ⟨k, hk, Eq.trans e (o2 k hk).symm⟩)

theorem glued_oriented {gm : Mesh} (h4 : gm = { fm with bface := gm.bface }) (x y : ℕ × ℕ) : Glued gm x y ↔ Glued fm x y := by
  rw [h4]; exact Iff.rfl

/-- Which points a rank has on the boundary does not depend on the direction of boundary faces. -/
theorem ptOnB_oriented {gm : Mesh} (h4 : gm = { fm with bface := gm.bface }) (h5 : ∀ k, k < fm.nbface → s(gm.bface k 0, gm.bface k 1) = s(fm.bface k 0, fm.bface k 1))
    {dist : ℕ → ℕ} {r p : ℕ} : PtOnB gm dist r p ↔ PtOnB fm dist r p := by
  have e1 : ∀ (b : Mesh) (k : ℕ), p = b.bface k 0 ∨ p = b.bface k 1 ↔ p ∈ s(b.bface k 0, b.bface k 1) := fun b k => by rw [Sym2.mem_iff]
  have hb : gm.nbface = fm.nbface := by rw [h4]
  have hf : ∀ x, IsFace gm x ↔ IsFace fm x := fun x => by rw [h4]; exact Iff.rfl
  have he : ∀ x, edge gm x = edge fm x := fun x => by rw [h4]; rfl
  unfold PtOnB BfOn
  simp only [e1, hb, hf, he]
  constructor
  · rintro ⟨k, ⟨hk, x, hx, hex, hdx⟩, hpk⟩
    rw [h5 k hk] at hex hpk
    exact ⟨k, ⟨hk, x, hx, hex, hdx⟩, hpk⟩
  · rintro ⟨k, ⟨hk, x, hx, hex, hdx⟩, hpk⟩
    rw [← h5 k hk] at hex hpk
    exact ⟨k, ⟨hk, x, hx, hex, hdx⟩, hpk⟩

/-- C90: with more ranks than cells every rank stops with an exception. -/
theorem C90_too_many_ranks (hr : Raw fm) {n : ℕ} (hn : fm.nelem < n) (ordering : Mesh → FState → Request → Option (ℕ → ℕ)) (opt : Option (List Char)) (thr : Option ℝ) (r : ℕ) :
    construct ordering opt thr n r fm = .throws := by
  obtain ⟨gm, s, h1, h2, -, h4, -⟩ := C90_oriented hr
  have hne : gm.nelem = fm.nelem := by rw [h4]
  have := (C36_trivial gm.nelem n (by omega)).1.2 (by rw [hne]; exact hn)
  simp only [construct, h1, h2, this]

/-- What the ranks must hold of the file's mesh: each cell exactly once, with its vertices' coordinates and region tags; as many boundary faces as the file; and on each rank a
conforming mesh with its topology. -/
structure Split (fm : Mesh) (n : ℕ) (L : ℕ → Local) : Prop where
  once : ∀ i, i < fm.nelem → ∃! x : ℕ × ℕ, x.1 < n ∧ x.2 < (L x.1).mesh.nelem ∧ (L x.1).sub.cells[x.2]? = some i
  cells : ∀ r, r < n → ∀ l, l < (L r).mesh.nelem → ∃ i, i < fm.nelem ∧ (L r).sub.cells[l]? = some i ∧ (L r).mesh.nnode l = fm.nnode i ∧
    (∀ j, j < fm.nnode i → (L r).mesh.coords ((L r).mesh.inpoel l j) = fm.coords (fm.inpoel i j)) ∧ (∀ t, (L r).mesh.volRegions l t = fm.volRegions i t) ∧
    area (L r).mesh l = area fm i
  bfaces : ∑ r ∈ range n, (L r).mesh.nbface = fm.nbface
  ok : ∀ r, r < n → Conforming (L r).mesh ∧ NoZeroFace (L r).mesh ∧ topological (L r).mesh = .ok (L r).topo

/-- Consequences for totals: number of cells and area. -/
theorem Split.totals {n : ℕ} {L : ℕ → Local} (h : Split fm n L) :
    ∑ r ∈ range n, (L r).mesh.nelem = fm.nelem ∧
      ∑ r ∈ range n, ∑ l ∈ range (L r).mesh.nelem, (area (L r).mesh l).getD 0 = ∑ i ∈ range fm.nelem, (area fm i).getD 0 := by
  have key : ∀ {M : Type} [AddCommMonoid M] (F : ℕ → M), ∑ r ∈ range n, ∑ l ∈ range (L r).mesh.nelem, F ((L r).sub.cells.getD l 0) = ∑ i ∈ range fm.nelem, F i := by
    intro M _ F
    rw [Finset.sum_sigma']
    refine Finset.sum_bij (fun x _ => (L x.1).sub.cells.getD x.2 0) (fun x hx => ?_) (fun x hx y hy e => ?_) (fun i hi => ?_) (fun _ _ => rfl)
    · obtain ⟨h1, h2⟩ := Finset.mem_sigma.1 hx
      obtain ⟨i, hi, hc, -⟩ := h.cells x.1 (Finset.mem_range.1 h1) x.2 (Finset.mem_range.1 h2)
      rw [List.getD_eq_getElem?_getD, hc]
      exact Finset.mem_range.2 hi
    · obtain ⟨h1, h2⟩ := Finset.mem_sigma.1 hx
      obtain ⟨k1, k2⟩ := Finset.mem_sigma.1 hy
      obtain ⟨i, hi, hc, -⟩ := h.cells x.1 (Finset.mem_range.1 h1) x.2 (Finset.mem_range.1 h2)
      obtain ⟨j, hj, hc', -⟩ := h.cells y.1 (Finset.mem_range.1 k1) y.2 (Finset.mem_range.1 k2)
      rw [List.getD_eq_getElem?_getD, List.getD_eq_getElem?_getD, hc, hc'] at e
      have e : i = j := e
      subst e
      have := (h.once i hi).unique (y₁ := (x.1, x.2)) (y₂ := (y.1, y.2)) ⟨Finset.mem_range.1 h1, Finset.mem_range.1 h2, hc⟩ ⟨Finset.mem_range.1 k1, Finset.mem_range.1 k2, hc'⟩
      rw [Prod.mk.injEq] at this
      exact Sigma.ext this.1 (heq_of_eq this.2)
    · obtain ⟨⟨r, l⟩, ⟨h1, h2, h3⟩, -⟩ := h.once i (Finset.mem_range.1 hi)
      exact ⟨⟨r, l⟩, Finset.mem_sigma.2 ⟨Finset.mem_range.2 h1, Finset.mem_range.2 h2⟩, by rw [List.getD_eq_getElem?_getD, h3]; rfl⟩
  refine ⟨?_, ?_⟩
  · have := key (M := ℕ) fun _ => 1
    simpa using this
  · rw [← key]
    refine Finset.sum_congr rfl fun r hr => Finset.sum_congr rfl fun l hl => ?_
    obtain ⟨i, hi, hc, -, -, -, ha⟩ := h.cells r (Finset.mem_range.1 hr) l (Finset.mem_range.1 hl)
    rw [ha, List.getD_eq_getElem?_getD, hc]; rfl

/-- C90, no reordering: on any number of ranks up to the number of cells construction succeeds on every rank, and if each face between ranks has an end point off the boundary
faces of its rank, the ranks hold the file's mesh. Missing for the full claim: faces between ranks with both ends on the boundary (`C90_refuted`), reordering on several ranks
(`C90_reordering_refuted`). -/
theorem C90_split_partial (hr : Raw fm) {n : ℕ} (hn0 : 0 < n) (ordering : Mesh → FState → Request → Option (ℕ → ℕ)) {opt : Option (List Char)}
    {thr : Option ℝ} (hq : request opt thr = .ok .keep) {dist : ℕ → ℕ} (hd : trivialPartition fm.nelem n = .ok dist) :
    ∃ L : ℕ → Local, (∀ r, construct ordering opt thr n r fm = .ok (L r)) ∧
      ((∀ g f, Interface fm dist g f → ∃ p ∈ edge fm (g, f), ¬ PtOnB fm dist (dist g) p) → Split fm n L) := by
  obtain ⟨gm, s, h1, h2, hc, h4, h5⟩ := C90_oriented hr
  have hnc : gm.nconnface = 0 := by rw [h4]; exact hr.whole
  have ht : gm.nbtag ≤ 4 := by rw [h4]; exact hr.tags
  have hdg : trivialPartition gm.nelem n = .ok dist := by rw [h4]; exact hd
  have hS : ∀ r, ∃ S s', restrict gm s dist r = .ok S ∧ topological S.mesh = .ok s' := fun r => by
    obtain ⟨S, hS, -⟩ := restrict_spec hc hnc ht h2 dist r
    obtain ⟨s', hs'⟩ := sub_topological hc hnc ht h2 hS
    exact ⟨S, s', hS, hs'⟩
  choose S s' hS hs' using hS
  refine ⟨fun r => ⟨S r, (S r).mesh, s' r⟩, fun r => ?_, fun hoff => ?_⟩
  · simp only [construct, h1, h2, hdg, hS r, hq, preprocess, hs' r]
  have hz : NoZeroFace gm := by rw [h4]; exact hr.length
  have hedge : ∀ k, k < gm.nbface → s(gm.bface k 0, gm.bface k 1) = s(fm.bface k 0, fm.bface k 1) := fun k hk => h5 k (by rw [h4] at hk; exact hk)
  have hboth : ∀ k, k < gm.nbface → ∃ e, e < gm.nelem ∧ ∀ x, IsFace gm x → edge gm x = s(gm.bface k 0, gm.bface k 1) → x.1 = e := fun k hk => by
    obtain ⟨e, hu, -⟩ := (C27_ranges hc.lin hc.bfOk h2).2.1 k hk
    refine ⟨e, ((hu e).2 rfl).1.1, fun x hx he => (hu _).1 (hasBoth_of_edge hc.lin hx he)⟩
  have hbface : gm.nbface = fm.nbface := by rw [h4]
  have hlt : ∀ g, g < gm.nelem → dist g < n := fun g hg => by
    rw [(trivial_values hn0 hdg hg).2]; omega
  -- criterion on the oriented mesh
  have hall : AllRegistered gm s dist := (C38_all_iff hc hnc ht h2 dist).2 fun g f hif => by
    have hif' : Interface fm dist g f := by rw [h4] at hif; exact hif
    obtain ⟨p, hp, hnp⟩ := hoff g f hif'
    exact ⟨p, by rw [h4]; exact hp, by rw [ptOnB_oriented h4 h5]; exact hnp⟩
  have hspec : ∀ r, IsSub gm dist r (S r) := fun r => by
    obtain ⟨S', hS', hsub, -⟩ := restrict_spec hc hnc ht h2 dist r
    rw [hS r] at hS'; cases hS'
    exact hsub
  have hnel : gm.nelem = fm.nelem := by rw [h4]
  refine ⟨fun i hi => ?_, fun r _ l hl => ?_, ?_, fun r _ => ?_⟩
  · obtain ⟨l, hl, hli⟩ := (hspec (dist i)).of_cell (g := i) (hnel ▸ hi) rfl
    refine ⟨(dist i, l), ⟨hlt i (hnel ▸ hi), hl, hli⟩, ?_⟩
    rintro ⟨r, l'⟩ ⟨-, -, hr3⟩
    have hmem := ((hspec r).cells i).1 (List.mem_of_getElem? hr3)
    obtain rfl : dist i = r := hmem.2
    have hr3 : (S (dist i)).cells[l']? = some i := hr3
    rw [(hspec _).cell_inj hr3 hli]
  · obtain ⟨g, hg, -⟩ := (hspec r).cell hl
    have hmem := ((hspec r).cells g).1 (List.mem_of_getElem? hg)
    obtain ⟨τ, hcp, -⟩ := sub_copy hc hnc ht h2 (hS r)
    have hrow : rowCell (S r) l = g := by
      unfold rowCell
      have hl : l < (S r).mesh.nelem := hl
      simp [hl, List.getD_eq_getElem?_getD, hg]
    refine ⟨g, hnel ▸ hmem.1, hg, ?_, fun j hj => ?_, fun t => ?_, ?_⟩
    · rw [((hspec r).nnode l g hg).1, h4]
    · have hj' : j < gm.nnode g := by rw [h4]; exact hj
      rw [(hspec r).coords _ _ ((hspec r).inpoel l g hg j hj'), h4]
    · rw [(hspec r).region l g hg, h4]
    · rw [area_copy hcp hl, hrow, h4]; rfl
  · have hB : ∀ r, ∃ B : List ℕ, B.Nodup ∧ (∀ k, k ∈ B ↔ BfOn gm dist r k) ∧ (S r).mesh.nbface = B.length := fun r => by
      obtain ⟨B, b1, b2, b3, -⟩ := (hspec r).bfaces
      exact ⟨B, b1.imp (fun h => Nat.ne_of_lt h), b2, b3⟩
    choose B b1 b2 b3 using hB
    choose! e he1 he2 using hboth
    have hcard : ∀ r, (S r).mesh.nbface = ((range gm.nbface).filter fun k => dist (e k) = r).card := fun r => by
      rw [b3 r, ← List.toFinset_card_of_nodup (b1 r)]
      congr 1
      ext k
      rw [List.mem_toFinset, b2, Finset.mem_filter, Finset.mem_range]
      constructor
      · rintro ⟨hk, x, hx, hex, hdx⟩
        exact ⟨hk, by rw [← he2 k hk x hx hex]; exact hdx⟩
      · rintro ⟨hk, hdk⟩
        obtain ⟨x, hx, x0, x1⟩ := hc.bf k hk
        have hex : edge gm x = s(gm.bface k 0, gm.bface k 1) := by rw [x0, x1]; rfl
        exact ⟨hk, x, hx, hex, by rw [he2 k hk x hx hex]; exact hdk⟩
    show ∑ r ∈ range n, (S r).mesh.nbface = fm.nbface
    rw [Finset.sum_congr rfl fun r _ => hcard r, ← Finset.card_eq_sum_card_fiberwise (f := fun k => dist (e k)) (s := range gm.nbface) (t := range n), Finset.card_range, hbface]
    intro k hk
    have hk : k ∈ range gm.nbface := hk
    exact Finset.mem_coe.2 (Finset.mem_range.2 (hlt _ (he1 k (Finset.mem_range.1 hk))))
  · have := rank_ok hc hnc ht h2 hz hall (air1 0) (ghost := 0) (hS r) (hs' r)
    exact ⟨this.conf, this.2, hs' r⟩

/-- C90, with reordering on a single rank: for every ordering that gives a permutation of the cells construction succeeds and the result is the file's mesh with cell `l`
number `perm l` of the file. -/
theorem C90_one_rank_partial (hr : Raw fm) (hne : 0 < fm.nelem) {ordering : Mesh → FState → Request → Option (ℕ → ℕ)} {opt : Option (List Char)} {thr : Option ℝ} {q : Request}
    (hq : request opt thr = .ok q) (hk : q ≠ .keep)
    (hperm : ∀ m s, m.nelem = fm.nelem → ∃ perm, ordering m s q = some perm ∧ IsPerm fm.nelem perm) :
    ∃ L perm, construct ordering opt thr 1 0 fm = .ok L ∧ IsPerm fm.nelem perm ∧ Conforming L.mesh ∧ NoZeroFace L.mesh ∧ topological L.mesh = .ok L.topo ∧
      L.mesh.nelem = fm.nelem ∧ L.mesh.nbface = fm.nbface ∧ L.mesh.nconnface = 0 ∧
      ∀ l, l < fm.nelem → L.mesh.nnode l = fm.nnode (perm l) ∧ area L.mesh l = area fm (perm l) ∧
        ∀ j, j < fm.nnode (perm l) → L.mesh.coords (L.mesh.inpoel l j) = fm.coords (fm.inpoel (perm l) j) := by
  obtain ⟨dist, hd, hdlt, -, -⟩ := (C36_trivial fm.nelem 1 one_pos).2 hne
  have hd0 : ∀ g, g < fm.nelem → dist g = 0 := fun g hg => by have := hdlt g hg; omega
  -- construction without reordering
  obtain ⟨L, hL, hsplit⟩ := C90_split_partial hr one_pos ordering (opt := none) (thr := thr) rfl hd
  have hsp := hsplit fun g f ⟨j, k, hg, hdj⟩ => absurd ((hd0 j hg.2.1.1).trans (hd0 g hg.1.1).symm) hdj
  obtain ⟨hconf, hz, htop⟩ := hsp.ok 0 one_pos
  have hnel : (L 0).mesh.nelem = fm.nelem := by have := hsp.totals.1; simpa using this
  have hnbf : (L 0).mesh.nbface = fm.nbface := by have := hsp.bfaces; simpa using this
  obtain ⟨gm, s, h1, h2, hc, h4, h5⟩ := C90_oriented hr
  have hnc : gm.nconnface = 0 := by rw [h4]; exact hr.whole
  have ht : gm.nbtag ≤ 4 := by rw [h4]; exact hr.tags
  have hdg : trivialPartition gm.nelem 1 = .ok dist := by rw [h4]; exact hd
  obtain ⟨S, hS, hsub, hcon, -⟩ := restrict_spec hc hnc ht h2 dist 0
  obtain ⟨s', hs'⟩ := sub_topological hc hnc ht h2 hS
  have hL0 : L 0 = ⟨S, S.mesh, s'⟩ := by
    have := hL 0
    simp only [construct, h1, h2, hdg, hS, request, preprocess, hs'] at this
    exact (BC.Res.ok.inj this).symm
  have hncS : S.mesh.nconnface = 0 := by
    by_contra h0
    obtain ⟨g, j, k, r1, r2, r3, -⟩ := hcon.row 0 (by omega)
    have e : gm.nelem = fm.nelem := by rw [h4]
    exact r3 ((hd0 j (e ▸ r2.2.1.1)).trans (hd0 g (e ▸ r2.1.1)).symm)
  rw [hL0] at hconf hz htop hnel hnbf
  obtain ⟨perm, hp1, hp2⟩ := hperm S.mesh s' hnel
  have hp2' : IsPerm S.mesh.nelem perm := by rw [show S.mesh.nelem = fm.nelem from hnel]; exact hp2
  obtain ⟨s2, hs2⟩ := reorder_topological hp2' hconf hs'
  have hcells : ∀ l, l < fm.nelem → S.cells[l]? = some l := by
    have hlen : S.cells.length = fm.nelem := hsub.nelem.symm.trans hnel
    have : S.cells = List.range gm.nelem := asc_eq_range hsub.cellsAsc fun i => by
      rw [hsub.cells i]
      refine ⟨fun h => h.1, fun h => ⟨h, hd0 i (by rw [h4] at h; exact h)⟩⟩
    intro l hl
    rw [this, List.getElem?_range (by rw [h4]; exact hl)]
  refine ⟨⟨S, reorderCells S.mesh perm, s2⟩, perm, ?_, hp2, ?_, reorder_noZero hp2' hz, hs2, hnel, hnbf, hncS, fun l hl => ?_⟩
  · cases q with
    | keep => exact absurd rfl hk
    | line t => simp only [construct, h1, h2, hdg, hS, hq, preprocess, hs', hp1, hs2]
    | hybrid t b => simp only [construct, h1, h2, hdg, hS, hq, preprocess, hs', hp1, hs2]
    | petsc b => simp only [construct, h1, h2, hdg, hS, hq, preprocess, hs', hp1, hs2]
  · exact (C77_iff hp2' hconf).2 fun ic hic => absurd (show ic < S.mesh.nconnface from hic) (by omega)
  · have hlS : l < S.mesh.nelem := by rw [show S.mesh.nelem = fm.nelem from hnel]; exact hl
    obtain ⟨c1, -, c3⟩ := (C30_connectivity_partial S.mesh perm).1 l hlS
    have hg := C30_geometry S.mesh perm hlS
    obtain ⟨i, hi, hci, k1, k2, -, k4⟩ := hsp.cells 0 one_pos (perm l) (by rw [hL0]; exact hp2'.lt l hlS)
    rw [hL0] at hci k1 k2 k4
    have : perm l = i := by
      have := hcells (perm l) (hp2.lt l hl)
      exact Option.some.inj (this.symm.trans hci)
    subst this
    refine ⟨c1.trans k1, hg.1.trans k4, fun j hj => ?_⟩
    have := k2 j hj
    rw [c3]
    exact this

end raw

/-! ### Examples -/

/-- A conforming mesh whose topology was computed is a proper file. -/
theorem raw_of_conforming {m : Mesh} {s : FState} (hc : Conforming m) (h : topological m = .ok s) (hn : m.nconnface = 0) (ht : m.nbtag ≤ 4) (hz : NoZeroFace m) : Raw m := by
  refine ⟨hc.lin, hc.manifold, hc.opposite, fun k hk => ?_, hc.bfDistinct, fun x hx => ?_, hn, ht, hz⟩
  · obtain ⟨e, hu, -⟩ := (C27_ranges hc.lin hc.bfOk h).2.1 k hk
    obtain ⟨x, hx, x0, x1⟩ := hc.bf k hk
    have hex : edge m x = s(m.bface k 0, m.bface k 1) := by rw [x0, x1]; rfl
    exact ⟨x, hx, hex, fun i hi => ((hu i).1 hi).trans ((hu _).1 (hasBoth_of_edge hc.lin hx hex)).symm⟩
  · rcases hc.cover x hx with h | h | ⟨ic, hic, -⟩
    · exact Or.inl h
    · exact Or.inr h
    · omega

theorem rcm_request : request (some "rcm".toList) none = .ok (.petsc "rcm".toList) := by
  simp only [request]
  rw [if_neg (by decide), if_neg (by decide), if_neg (by decide)]

theorem cross_raw : Raw FV.Geo.cross := by
  obtain ⟨s, hs, -⟩ := FV.Geo.cross_topological
  exact raw_of_conforming cross_conforming hs rfl (by decide +kernel) FV.Geo.cross_nozero

/-- The square cut by its diagonals on two ranks meets the hypotheses of `C90_split_partial`. -/
example (ordering : Mesh → FState → Request → Option (ℕ → ℕ)) : ∃ L : ℕ → Local, (∀ r, construct ordering none none 2 r FV.Geo.cross = .ok (L r)) ∧ Split FV.Geo.cross 2 L := by
  have hne : FV.Geo.cross.nelem = 4 := by decide +kernel
  obtain ⟨s, hs, -⟩ := FV.Geo.cross_topological
  obtain ⟨dist, hd, -⟩ := (C36_trivial FV.Geo.cross.nelem 2 (by omega)).2 (by omega)
  obtain ⟨L, h1, h2⟩ := C90_split_partial cross_raw (n := 2) (by omega) ordering (opt := none) (thr := none) rfl hd
  exact ⟨L, h1, h2 ((C38_all_iff cross_conforming rfl (by decide +kernel) hs dist).1 (cross_all hs dist))⟩

/-- It also meets those of `C90_one_rank_partial`, with reversed numbering. -/
example : ∃ L, construct (fun m _ _ => some fun i => m.nelem - 1 - i) (some "rcm".toList) none 1 0 FV.Geo.cross = .ok L ∧ Conforming L.mesh := by
  have hne : FV.Geo.cross.nelem = 4 := by decide +kernel
  obtain ⟨L, perm, h1, -, h3, -⟩ := C90_one_rank_partial cross_raw (by omega) (ordering := fun m _ _ => some fun i => m.nelem - 1 - i)
    (opt := some "rcm".toList) (thr := none) (q := .petsc "rcm".toList) rcm_request (by simp)
    (fun m s hm => ⟨_, rfl, fun i hi => by omega, fun i j hi hj e => by omega⟩)
  exact ⟨L, h1, h3⟩

theorem sq_nozero : NoZeroFace sq := by
  rintro ⟨i, f⟩ ⟨hi, hf⟩ h
  have key : ∀ i, i < 2 → ∀ f, f < 3 → (sq.inpoel i f, sq.inpoel i ((f + 1) % 3)) ∈ [(0, 1), (1, 2), (2, 0), (0, 2), (2, 3), (3, 0)] := by decide +kernel
  have hi : i < 2 := hi
  have hn : sq.nnode i = 3 := rfl
  have hf : f < 3 := hf
  have := key i hi f hf
  simp only [hn] at h
  generalize sq.inpoel i f = a at *
  generalize sq.inpoel i ((f + 1) % 3) = b at *
  have hx := congrFun h 0
  have hy := congrFun h 1
  have hco : ∀ p k, sq.coords p k = if k = 0 then (if p = 1 ∨ p = 2 then 1 else 0) else (if 2 ≤ p then 1 else 0) := fun _ _ => rfl
  rw [hco, hco] at hx hy
  simp only [List.mem_cons, Prod.mk.injEq, List.not_mem_nil, or_false] at this
  rcases this with ⟨rfl, rfl⟩ | ⟨rfl, rfl⟩ | ⟨rfl, rfl⟩ | ⟨rfl, rfl⟩ | ⟨rfl, rfl⟩ | ⟨rfl, rfl⟩ <;> simp at hx hy

set_option synthInstance.maxSize 1000 in
theorem sq_shared : ∀ g < 2, ∀ f < 3, ∀ j < 2, ∀ k < 3, g ≠ j → edge sq (g, f) = edge sq (j, k) → (g = 0 ∧ f = 2) ∨ (g = 1 ∧ f = 0) := by
  decide +kernel

/-- C90 fails for coarse meshes: the square cut into two triangles is a proper file; on two ranks, without any reordering, construction succeeds but the meshes of both ranks miss the
face between them. -/
theorem C90_refuted (ordering : Mesh → FState → Request → Option (ℕ → ℕ)) : Raw sq ∧ ∃ L : ℕ → Local,
    (∀ r, construct ordering none none 2 r sq = .ok (L r)) ∧ ∀ r, r < 2 → (L r).mesh.nconnface = 0 ∧ ¬ Conforming (L r).mesh := by
  obtain ⟨hc, -, d, s, hd, hs, hgl, hne, hn1, hn2', -⟩ := C38_refuted
  have ht : sq.nbtag ≤ 4 := by decide +kernel
  have hraw := raw_of_conforming hc hs rfl ht sq_nozero
  have hn2 : sq.nelem = 2 := by decide +kernel
  obtain ⟨L, hL, -⟩ := C90_split_partial hraw (n := 2) (by omega) ordering (opt := none) (thr := none) rfl hd
  refine ⟨hraw, L, hL, fun r hr => ?_⟩
  obtain ⟨gm, s2, h1, h2, hc2, h4, h5⟩ := C90_oriented hraw
  have hnc : gm.nconnface = 0 := by rw [h4]; rfl
  have ht2 : gm.nbtag ≤ 4 := by rw [h4]; exact ht
  have hdg : trivialPartition gm.nelem 2 = .ok d := by rw [h4]; exact hd
  obtain ⟨S, hS, hsub, hcon, hreg⟩ := restrict_spec hc2 hnc ht2 h2 d r
  obtain ⟨s', hs'⟩ := sub_topological hc2 hnc ht2 h2 hS
  have hLr : L r = ⟨S, S.mesh, s'⟩ := by
    have := hL r
    simp only [construct, h1, h2, hdg, hS, request, preprocess, hs'] at this
    exact (BC.Res.ok.inj this).symm
  have hpt := fun r p => ptOnB_oriented (dist := d) h4 h5 (r := r) (p := p)
  have hed : ∀ x, edge gm x = edge sq x := fun x => by rw [h4]; rfl
  have hif : ∀ g f, Interface gm d g f → d g = r → ∀ p ∈ edge gm (g, f), PtOnB gm d r p := by
    rintro g f ⟨j, k, hg, -⟩ hdg p hp
    have hg' : Glued sq (g, f) (j, k) := by rw [h4] at hg; exact hg
    rw [hed] at hp
    rw [hpt]
    rcases sq_shared g hg'.1.1 f hg'.1.2 j hg'.2.1.1 k hg'.2.1.2 hg'.2.2.1 hg'.2.2.2 with ⟨rfl, rfl⟩ | ⟨rfl, rfl⟩
    · rw [registered_iff hc rfl ht hs d hgl hne] at hn1
      push Not at hn1
      rw [← hdg]; exact hn1 p hp
    · rw [registered_iff hc rfl ht hs d hgl.symm hne.symm] at hn2'
      push Not at hn2'
      rw [← hdg]; exact hn2' p hp
  rw [hLr]
  refine ⟨?_, fun hconf => ?_⟩
  · show S.mesh.nconnface = 0
    by_contra h0
    obtain ⟨g, j, k, r1, r2, r3, -⟩ := hcon.row 0 (by omega)
    obtain ⟨hi, p, hp, hnp⟩ := (hreg _ _ g r1).1 ⟨0, by omega, rfl⟩
    exact hnp (hif _ _ hi ((hsub.cells g).1 (List.mem_of_getElem? r1)).2 p hp)
  · have hv : r = d 0 ∨ r = d 1 := by
      obtain ⟨q1, q2⟩ := (C36_trivial sq.nelem 2 (by omega)).2 (by omega)
      have v := fun i hi => (trivial_values (nelem := sq.nelem) (by omega : 0 < 2) hd (i := i) hi).2
      have v0 := v 0 (by omega)
      have v1 := v 1 (by omega)
      rw [hn2] at v0 v1
      simp at v0 v1
      omega
    have hgl2 : Glued gm (0, 2) (1, 0) := (glued_oriented h4 _ _).2 hgl
    have hx := (C38_conforming_iff hc2 hnc ht2 h2 d r hS).1 hconf
    rcases hv with hv | hv
    · obtain ⟨p, hp, hnp⟩ := hx 0 2 hv.symm ⟨1, 0, hgl2, hne.symm⟩
      exact hnp (hif 0 2 ⟨1, 0, hgl2, hne.symm⟩ hv.symm p hp)
    · obtain ⟨p, hp, hnp⟩ := hx 1 0 hv.symm ⟨0, 2, hgl2.symm, hne⟩
      exact hnp (hif 1 0 ⟨0, 2, hgl2.symm, hne⟩ hv.symm p hp)

/-- C90 fails with reordering on several ranks: the square cut by its diagonals on two ranks; swapping the two cells of rank 0 leaves its interface records behind, and construction
succeeds with a mesh that is not conforming. -/
theorem C90_reordering_refuted : Raw FV.Geo.cross ∧ ∃ ordering : Mesh → FState → Request → Option (ℕ → ℕ),
    (∀ m s q, m.nelem = 2 → ∃ perm, ordering m s q = some perm ∧ IsPerm m.nelem perm) ∧
    ∃ L, construct ordering (some "rcm".toList) none 2 0 FV.Geo.cross = .ok L ∧ L.mesh.nelem = 2 ∧ ¬ Conforming L.mesh := by
  have hne4 : FV.Geo.cross.nelem = 4 := by decide +kernel
  have hraw := cross_raw
  refine ⟨hraw, fun _ _ _ => some (Equiv.swap 0 1), fun m s q hm => ⟨_, rfl, swap_isPerm (by omega) (by omega)⟩, ?_⟩
  obtain ⟨dist, hd, -⟩ := (C36_trivial FV.Geo.cross.nelem 2 (by omega)).2 (by omega)
  have v : ∀ i, i < 4 → dist i = i / 2 := fun i hi => by
    rw [(trivial_values (by omega : 0 < 2) hd (hne4 ▸ hi)).2, hne4]
    rcases (by omega : i = 0 ∨ i = 1 ∨ i = 2 ∨ i = 3) with rfl | rfl | rfl | rfl <;> rfl
  obtain ⟨gm, s, h1, h2, hc, h4, h5⟩ := C90_oriented hraw
  have hnc : gm.nconnface = 0 := by rw [h4]; rfl
  have ht0 : FV.Geo.cross.nbtag ≤ 4 := by decide +kernel
  have ht : gm.nbtag ≤ 4 := by rw [h4]; exact ht0
  have hdg : trivialPartition gm.nelem 2 = .ok dist := by rw [h4]; exact hd
  have hne : gm.nelem = 4 := by rw [h4]; exact hne4
  obtain ⟨S, hS, hsub, hcon, hreg⟩ := restrict_spec hc hnc ht h2 dist 0
  obtain ⟨s', hs'⟩ := sub_topological hc hnc ht h2 hS
  -- rank 0 has cells 0 and 1
  have hcells : S.cells = [0, 1] := by
    have : S.cells = List.range 2 := asc_eq_range hsub.cellsAsc fun i => by
      rw [hsub.cells i, hne]
      constructor
      · rintro ⟨a, b⟩; rw [v i a] at b; omega
      · intro a; exact ⟨by omega, by rw [v i (by omega)]; omega⟩
    rw [this]; rfl
  have hn2 : S.mesh.nelem = 2 := by rw [hsub.nelem, hcells]; rfl
  -- its mesh is conforming
  obtain ⟨s0, hs0, -⟩ := FV.Geo.cross_topological
  have hoff := (C38_all_iff cross_conforming rfl (by decide +kernel) hs0 dist).1 (cross_all hs0 dist)
  have hoff' : ∀ g f, Interface gm dist g f → ∃ p ∈ edge gm (g, f), ¬ PtOnB gm dist (dist g) p := fun g f hif => by
    obtain ⟨p, hp, hnp⟩ := hoff g f (by rw [h4] at hif; exact hif)
    exact ⟨p, by rw [h4]; exact hp, by rw [ptOnB_oriented h4 h5]; exact hnp⟩
  have hconf : Conforming S.mesh := (C38_conforming_iff hc hnc ht h2 dist 0 hS).2 fun g f hg hif => by
    have := hoff' g f hif; rw [hg] at this; exact this
  have hp : IsPerm S.mesh.nelem (Equiv.swap 0 1) := swap_isPerm (by omega) (by omega)
  obtain ⟨s2, hs2⟩ := reorder_topological hp hconf hs'
  have hreq : request (some "rcm".toList) none = .ok (.petsc "rcm".toList) := rcm_request
  refine ⟨⟨S, reorderCells S.mesh (Equiv.swap 0 1), s2⟩, by simp only [construct, h1, h2, hdg, hS, hreq, preprocess, hs', hs2], hn2, fun hno => ?_⟩
  -- face 1 of cell 1 is registered, face 1 of cell 0 is shared with cell 1
  have hgl : Glued gm (1, 1) (2, 2) := by
    refine (glued_oriented h4 _ _).2 ?_
    exact ⟨⟨by decide +kernel, by decide +kernel⟩, ⟨by decide +kernel, by decide +kernel⟩, by decide, by decide +kernel⟩
  have hgl01 : Glued gm (0, 1) (1, 2) := (glued_oriented h4 _ _).2 cross_glued01
  have hif : Interface gm dist 1 1 := ⟨2, 2, hgl, by rw [v 2 (by omega), v 1 (by omega)]; decide⟩
  have hpt := hoff' 1 1 hif
  rw [v 1 (by omega)] at hpt
  have c1 : S.cells[1]? = some 1 := by rw [hcells]; rfl
  have c0 : S.cells[0]? = some 0 := by rw [hcells]; rfl
  obtain ⟨ic, hic, hkey⟩ := (hreg 1 1 1 c1).2 ⟨hif, hpt⟩
  obtain ⟨jc, hjc, hjk⟩ := (C77_iff hp hconf).1 hno ic hic
  have e0 : S.mesh.connface ic 0 = 1 := congrArg Prod.fst hkey
  have e1 : S.mesh.connface ic 1 = 1 := congrArg Prod.snd hkey
  rw [e0, e1, Equiv.swap_apply_right] at hjk
  have := hconf.cfNotGlued jc hjc (1, 2)
  rw [hjk] at this
  exact this ((hsub.glued hc.lin c0 c1).2 hgl01)

end Par
end FVENS
