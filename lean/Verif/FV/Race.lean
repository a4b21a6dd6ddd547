import Verif.FV.Grad

/-!
# Green–Gauss gradients in parallel (C44)

The four work-sharing loops of `GreenGaussGradients::compute_gradients`, src/spatial/agradientschemes.cpp:73-213, with the barrier at the end of
each. Updates in the interior loop are atomic, those in the boundary and connectivity loops are not.
-/

namespace FVENS
namespace FV

open Msh Finset

section loops
variable {L A : Type*} [DecidableEq L] [AddCommGroup A]

/-- Possible results of a work-sharing loop on `n` threads: any distribution of the iterations, any interleaving. -/
def ParLoop (n : ℕ) (mem : L → A) (ks : List ℕ) (body : ℕ → List (Upd L A)) (mem' : L → A) : Prop :=
  ∃ assign : ℕ → ℕ, (∀ k ∈ ks, assign k < n) ∧ ∃ c, TReach mem (loopProg ks assign body) c ∧ Finished c ∧ c.mem = mem'

theorem parLoop_exists {n : ℕ} (hn : 0 < n) (mem : L → A) (ks : List ℕ) (body : ℕ → List (Upd L A)) :
    ∃ mem', ParLoop n mem ks body mem' ∧ ∀ l, mem' l = mem l + (ks.map fun k => amtAt l (body k)).sum := by
  have hlt : ∀ k ∈ ks, (fun _ => 0 : ℕ → ℕ) k < n := fun _ _ => hn
  obtain ⟨c, h1, h2, h3⟩ := run_all n _ (TReach.start (mem := mem) (prog := loopProg ks (fun _ => 0) body)) (fun _ => rfl)
    (fun t ht => loopProg_nil hlt body t ht)
  refine ⟨c.mem, ⟨fun _ => 0, hlt, c, h1, h2, rfl⟩, fun l => ?_⟩
  rw [h3, sum_loopProg l ks _ hlt]

/-- Without races the result is determined. -/
theorem parLoop_det {n : ℕ} {mem mem' : L → A} {ks : List ℕ} {body : ℕ → List (Upd L A)} (h : ParLoop n mem ks body mem')
    (hrf : ∀ k ∈ ks, ∀ u ∈ body k, u.atomic = false → ∀ k' ∈ ks, k' ≠ k → ∀ u' ∈ body k', u'.loc ≠ u.loc) (l : L) :
    mem' l = mem l + (ks.map fun k => amtAt l (body k)).sum := by
  obtain ⟨assign, hlt, c, h1, h2, rfl⟩ := h
  rw [C42_race_free (fun t ht => loopProg_nil hlt body t ht) ?_ h1 h2 l, sum_loopProg l ks _ hlt]
  intro t u hu hua t' hne u' hu'
  simp only [loopProg, List.mem_flatMap, List.mem_filter, decide_eq_true_eq] at hu hu'
  obtain ⟨k, ⟨hk, rfl⟩, hu⟩ := hu
  obtain ⟨k', ⟨hk', rfl⟩, hu'⟩ := hu'
  exact hrf k hk u hu hua k' hk' (fun e => hne (by rw [e])) u' hu'

/-- A race loses a contribution. -/
theorem parLoop_lost {n : ℕ} (hn : 2 ≤ n) (mem : L → A) {ks : List ℕ} {body : ℕ → List (Upd L A)} {k k' : ℕ} (hk : k ∈ ks) (hk' : k' ∈ ks)
    (hne : k ≠ k') {u u' : Upd L A} (hu : u ∈ body k) (hu' : u' ∈ body k') (ha : u.atomic = false) (ha' : u'.atomic = false)
    (hl : u.loc = u'.loc) :
    ∃ mem', ParLoop n mem ks body mem' ∧ mem' u.loc = mem u.loc + (ks.map fun k => amtAt u.loc (body k)).sum - u'.amt := by
  let assign : ℕ → ℕ := fun x => if x = k' then 1 else 0
  have hlt : ∀ x ∈ ks, assign x < n := fun x _ => by simp only [assign]; split_ifs <;> omega
  have m1 : u ∈ loopProg ks assign body 0 := by
    simp only [loopProg, List.mem_flatMap, List.mem_filter, decide_eq_true_eq]
    exact ⟨k, ⟨hk, by simp [assign, hne]⟩, hu⟩
  have m2 : u' ∈ loopProg ks assign body 1 := by
    simp only [loopProg, List.mem_flatMap, List.mem_filter, decide_eq_true_eq]
    exact ⟨k', ⟨hk', by simp [assign]⟩, hu'⟩
  obtain ⟨c, h1, h2, h3⟩ := C42_lost_update (mem := mem) (fun t ht => loopProg_nil hlt body t ht) (by decide : (0 : ℕ) ≠ 1) m1 m2 ha ha' hl
  exact ⟨c.mem, ⟨assign, hlt, c, h1, h2, rfl⟩, by rw [h3, sum_loopProg _ ks _ hlt]⟩

end loops

namespace Geo
variable {nv : ℕ}

/-- Body of the boundary and connectivity loops: no atomics, src/spatial/agradientschemes.cpp:110-117, 202-210. -/
noncomputable def bodyB (G : Geo) (u ug : ℕ → Fin nv → ℝ) (k : ℕ) : List (Upd (ℕ × Fin 2 × Fin nv) ℝ) :=
  (List.finRange nv).flatMap fun j => (List.finRange 2).map fun d => ⟨((G.face k).left, d, j), G.ggL u ug k d j, false⟩

/-- Body of the interior loop: atomics, src/spatial/agradientschemes.cpp:154-173. -/
noncomputable def bodyI (G : Geo) (u ug : ℕ → Fin nv → ℝ) (k : ℕ) : List (Upd (ℕ × Fin 2 × Fin nv) ℝ) :=
  (List.finRange nv).flatMap fun j => (List.finRange 2).flatMap fun d =>
    [⟨((G.face k).left, d, j), G.ggL u ug k d j, true⟩, ⟨((G.face k).right, d, j), G.ggR u ug k d j, true⟩]

/-- Possible results of `GreenGaussGradients::compute_gradients` on `n` threads. (The first loop, 73-79, only writes zeros, each to its
own location.) -/
def GreenGaussPar (G : Geo) (n : ℕ) (u ug : ℕ → Fin nv → ℝ) (g : ℕ × Fin 2 × Fin nv → ℝ) : Prop :=
  ∃ m1 m2, ParLoop n (fun _ => 0) (List.range G.m.nbface) (G.bodyB u ug) m1 ∧
    ParLoop n m1 (List.range' G.m.nbface G.ni) (G.bodyI u ug) m2 ∧
    ParLoop n m2 (List.range' (G.m.nbface + G.ni) G.m.nconnface) (G.bodyB u ug) g

theorem sum_finRange {n : ℕ} (f : Fin n → ℝ) : ((List.finRange n).map f).sum = ∑ i, f i := (Fin.sum_univ_def f).symm

theorem amtAt_flat {L A ι : Type*} [DecidableEq L] [AddCommGroup A] (l : L) (ks : List ι) (body : ι → List (Upd L A)) :
    amtAt l (ks.flatMap body) = (ks.map fun k => amtAt l (body k)).sum := by
  induction ks with
  | nil => rfl
  | cons k ks ih => simp only [List.flatMap_cons, List.map_cons, List.sum_cons, ← ih]; simp [amtAt]

variable {G : Geo} {u ug : ℕ → Fin nv → ℝ}

theorem amtAt_bodyB (k i : ℕ) (d : Fin 2) (j : Fin nv) :
    amtAt (i, d, j) (G.bodyB u ug k) = if (G.face k).left = i then G.ggL u ug k d j else 0 := by
  unfold bodyB
  rw [amtAt_flat, sum_finRange]
  by_cases h : (G.face k).left = i
  · simp only [amtAt, List.map_map, Function.comp_def, sum_finRange, Prod.mk.injEq, h, true_and, if_true]
    rw [Finset.sum_eq_single j (fun j' _ hj => by simp [hj]) (by simp), Finset.sum_eq_single d (fun d' _ hd => by simp [hd]) (by simp)]
    simp
  · simp only [amtAt, List.map_map, Function.comp_def, sum_finRange, Prod.mk.injEq, h, false_and, if_false, sum_const_zero]

theorem amtAt_bodyI (k i : ℕ) (d : Fin 2) (j : Fin nv) :
    amtAt (i, d, j) (G.bodyI u ug k) = (if (G.face k).left = i then G.ggL u ug k d j else 0) +
      (if (G.face k).right = i then G.ggR u ug k d j else 0) := by
  unfold bodyI
  rw [amtAt_flat, sum_finRange]
  have e : ∀ (j' : Fin nv) (d' : Fin 2), amtAt (i, d, j)
      [(⟨((G.face k).left, d', j'), G.ggL u ug k d' j', true⟩ : Upd (ℕ × Fin 2 × Fin nv) ℝ), ⟨((G.face k).right, d', j'), G.ggR u ug k d' j', true⟩] =
      if d' = d ∧ j' = j then (if (G.face k).left = i then G.ggL u ug k d' j' else 0) +
      (if (G.face k).right = i then G.ggR u ug k d' j' else 0) else 0 := by
    intro j' d'
    simp only [amtAt, List.map_cons, List.map_nil, List.sum_cons, List.sum_nil, add_zero, Prod.mk.injEq]
    by_cases h : d' = d ∧ j' = j
    · simp [h]
    · simp [h]
  simp only [amtAt_flat, sum_finRange, e]
  rw [Finset.sum_eq_single j (fun j' _ hj => by simp [hj]) (by simp), Finset.sum_eq_single d (fun d' _ hd => by simp [hd]) (by simp)]
  simp

/-- The sequential gradients as sums over the three loops. -/
theorem greenGauss_loops (h : G.Ok) (u ug : ℕ → Fin nv → ℝ) (i : ℕ) (d : Fin 2) (j : Fin nv) :
    G.greenGauss u ug i d j = 0 + ((List.range G.m.nbface).map fun k => amtAt (i, d, j) (G.bodyB u ug k)).sum +
      ((List.range' G.m.nbface G.ni).map fun k => amtAt (i, d, j) (G.bodyI u ug k)).sum +
      ((List.range' (G.m.nbface + G.ni) G.m.nconnface).map fun k => amtAt (i, d, j) (G.bodyB u ug k)).sum := by
  obtain ⟨hl, _, _⟩ := C27_ranges h.conf.lin h.conf.bfOk h.topo
  have key : ∀ k, ((if (G.face k).left = i then G.ggL u ug k else 0) +
      (if G.inner k ∧ (G.face k).right = i then G.ggR u ug k else 0)) d j =
      if G.inner k then amtAt (i, d, j) (G.bodyI u ug k) else amtAt (i, d, j) (G.bodyB u ug k) := by
    intro k
    rw [amtAt_bodyB, amtAt_bodyI]
    by_cases h1 : G.inner k
    · simp only [h1, true_and, if_true, Pi.add_apply]; split_ifs <;> simp
    · simp only [h1, false_and, if_false, Pi.add_apply, Pi.zero_apply, add_zero]; split_ifs <;> simp
  unfold greenGauss
  rw [show (fun (_ : ℕ) (_ : Fin 2) (_ : Fin nv) => (0 : ℝ)) = fun _ => 0 from rfl, accum_eq, zero_add, Finset.sum_apply, Finset.sum_apply]
  refine Eq.trans (Finset.sum_congr rfl fun k _ => key k) ?_
  have hlist : ∀ (f : ℕ → ℝ) (n : ℕ), ∑ k ∈ range n, f k = ((List.range n).map f).sum := fun f n => rfl
  rw [hlist, hl, zero_add]
  have hsplit : List.range (G.m.nbface + G.ni + G.m.nconnface) =
      List.range G.m.nbface ++ List.range' G.m.nbface G.ni ++ List.range' (G.m.nbface + G.ni) G.m.nconnface := by
    rw [List.range_eq_range', List.range_eq_range', List.append_assoc]
    have h1 := List.range'_append (s := G.m.nbface) (m := G.ni) (n := G.m.nconnface) (step := 1)
    rw [Nat.one_mul] at h1
    rw [h1]
    have h2 := List.range'_append (s := 0) (m := G.m.nbface) (n := G.ni + G.m.nconnface) (step := 1)
    rw [Nat.one_mul, Nat.zero_add] at h2
    rw [h2, Nat.add_assoc]
  have hsp' := hsplit
  unfold ni at hsp'
  rw [hsp', List.map_append, List.map_append, List.sum_append, List.sum_append]
  congr 1
  · congr 1
    · refine congrArg List.sum (List.map_congr_left fun k hk => if_neg ?_)
      have := List.mem_range.1 hk
      unfold inner; omega
    · refine congrArg List.sum (List.map_congr_left fun k hk => if_pos ?_)
      obtain ⟨x, hx, rfl⟩ := List.mem_range'.1 hk
      unfold inner ni; omega
  · refine congrArg List.sum (List.map_congr_left fun k hk => if_neg ?_)
    obtain ⟨x, hx, rfl⟩ := List.mem_range'.1 hk
    unfold inner ni; omega

theorem loc_bodyB {k : ℕ} {x : Upd (ℕ × Fin 2 × Fin nv) ℝ} (hx : x ∈ G.bodyB u ug k) : x.loc.1 = (G.face k).left := by
  simp only [bodyB, List.mem_flatMap, List.mem_map] at hx
  obtain ⟨j, _, d, _, rfl⟩ := hx
  rfl

/-- Faces of a range have different left cells. -/
def DistinctLeft (G : Geo) (ks : List ℕ) : Prop := ∀ k ∈ ks, ∀ k' ∈ ks, k' ≠ k → (G.face k').left ≠ (G.face k).left

/-- C44, positive part: if no cell has two physical boundary faces and none has two connectivity faces, every parallel
execution computes the sequential gradients. -/
theorem C44_partial (h : G.Ok) {n : ℕ} (hb : G.DistinctLeft (List.range G.m.nbface))
    (hc : G.DistinctLeft (List.range' (G.m.nbface + G.ni) G.m.nconnface)) {g : ℕ × Fin 2 × Fin nv → ℝ}
    (hg : G.GreenGaussPar n u ug g) (i : ℕ) (d : Fin 2) (j : Fin nv) : g (i, d, j) = G.greenGauss u ug i d j := by
  obtain ⟨m1, m2, p1, p2, p3⟩ := hg
  have hB : ∀ ks, G.DistinctLeft ks → ∀ k ∈ ks, ∀ x ∈ G.bodyB u ug k, x.atomic = false → ∀ k' ∈ ks, k' ≠ k → ∀ x' ∈ G.bodyB u ug k', x'.loc ≠ x.loc :=
    fun ks hks k hk x hx _ k' hk' hne x' hx' e => hks k hk k' hk' hne (by rw [← loc_bodyB hx, ← loc_bodyB hx', e])
  have hI : ∀ k ∈ List.range' G.m.nbface G.ni, ∀ x ∈ G.bodyI u ug k, x.atomic = false →
      ∀ k' ∈ List.range' G.m.nbface G.ni, k' ≠ k → ∀ x' ∈ G.bodyI u ug k', x'.loc ≠ x.loc := by
    intro k _ x hx ha
    simp only [bodyI, List.mem_flatMap, List.mem_cons, List.not_mem_nil, or_false] at hx
    obtain ⟨j, _, d, _, rfl | rfl⟩ := hx <;> simp at ha
  rw [parLoop_det p3 (hB _ hc), parLoop_det p2 hI, parLoop_det p1 (hB _ hb), greenGauss_loops h]

theorem exists_nrm_ne (h : G.Ok) {k : ℕ} (hk : k < G.nface) : 0 < G.len k ∧ ∃ d, G.nrm k d ≠ 0 := by
  have hne : G.m.coords (G.face k).n0 ≠ G.m.coords (G.face k).n1 := by
    obtain ⟨⟨f, hf, he⟩, _⟩ := face_local h.conf h.topo (faceAt_mem (faces := G.s.faces) hk)
    have := h.nz _ hf
    unfold edge at he
    rcases Sym2.eq_iff.1 he with ⟨e0, e1⟩ | ⟨e0, e1⟩
    · change _ = (G.face k).n0 at e0; change _ = (G.face k).n1 at e1
      rw [← e0, ← e1]; exact this
    · change _ = (G.face k).n1 at e0; change _ = (G.face k).n0 at e1
      rw [← e0, ← e1]; exact this.symm
  refine ⟨fLen_pos hne, ?_⟩
  by_contra hz
  push Not at hz
  have := C22_unit hne
  unfold nrm at hz
  rw [hz 0, hz 1] at this
  norm_num at this

/-- C44 fails: whenever a cell has two physical boundary faces or two connectivity faces and there are at least two
threads, some execution gives other gradients than the sequential program, already for constant data. Together with
`C44_partial` this is the exact condition. -/
theorem C44_exact (h : G.Ok) (ho : G.OffMid) (ha : ∀ i, i < G.m.nelem → G.ar i ≠ 0) {n : ℕ} (hn : 2 ≤ n) (hnv : 0 < nv) :
    (∀ (u ug : ℕ → Fin nv → ℝ) (g : ℕ × Fin 2 × Fin nv → ℝ), G.GreenGaussPar n u ug g → ∀ i d j, g (i, d, j) = G.greenGauss u ug i d j) ↔
    G.DistinctLeft (List.range G.m.nbface) ∧ G.DistinctLeft (List.range' (G.m.nbface + G.ni) G.m.nconnface) := by
  refine ⟨fun hall => ?_, fun hd u ug g hg i d j => C44_partial h hd.1 hd.2 hg i d j⟩
  obtain ⟨hlen, _, _⟩ := C27_ranges h.conf.lin h.conf.bfOk h.topo
  have hlen : G.nface = G.m.nbface + G.ni + G.m.nconnface := hlen
  let one : ℕ → Fin nv → ℝ := fun _ _ => 1
  let j0 : Fin nv := ⟨0, hnv⟩
  have hamt : ∀ k, k < G.nface → ∃ d, G.ggL one one k d j0 ≠ 0 := fun k hk => by
    obtain ⟨hp, d, hd⟩ := exists_nrm_ne h hk
    obtain ⟨t, _, _, e⟩ := ut_convex ho hk one one j0
    have hur : G.ur one one k j0 = 1 := by unfold ur; split_ifs <;> rfl
    rw [hur] at e
    refine ⟨d, ?_⟩
    have e' : G.ut one one k j0 = G.len k := by rw [e]; simp [one]
    unfold ggL
    rw [e']
    exact mul_ne_zero (mul_ne_zero hp.ne' hd) (one_div_ne_zero (ha _ (h.kind hk).1))
  have hmem : ∀ k d, (⟨((G.face k).left, d, j0), G.ggL one one k d j0, false⟩ : Upd (ℕ × Fin 2 × Fin nv) ℝ) ∈ G.bodyB one one k := by
    intro k d
    simp only [bodyB, List.mem_flatMap, List.mem_map]
    exact ⟨j0, List.mem_finRange _, d, List.mem_finRange _, rfl⟩
  constructor
  · intro k hk k' hk' hne he
    obtain ⟨d, hd⟩ := hamt k' (by have := List.mem_range.1 hk'; omega)
    obtain ⟨m1, p1, e1⟩ := parLoop_lost hn (fun _ => 0) hk hk' hne.symm (hmem k d) (hmem k' d) rfl rfl (by simp only [he])
    obtain ⟨m2, p2, e2⟩ := parLoop_exists (by omega : 0 < n) m1 (List.range' G.m.nbface G.ni) (G.bodyI one one)
    obtain ⟨m3, p3, e3⟩ := parLoop_exists (by omega : 0 < n) m2 (List.range' (G.m.nbface + G.ni) G.m.nconnface) (G.bodyB one one)
    have := hall one one m3 ⟨m1, m2, p1, p2, p3⟩ (G.face k).left d j0
    simp only at e1
    rw [e3, e2, e1, greenGauss_loops h] at this
    apply hd
    linarith
  · intro k hk k' hk' hne he
    obtain ⟨d, hd⟩ := hamt k' (by obtain ⟨x, hx, rfl⟩ := List.mem_range'.1 hk'; omega)
    obtain ⟨m1, p1, e1⟩ := parLoop_exists (by omega : 0 < n) (fun _ => 0) (List.range G.m.nbface) (G.bodyB one one)
    obtain ⟨m2, p2, e2⟩ := parLoop_exists (by omega : 0 < n) m1 (List.range' G.m.nbface G.ni) (G.bodyI one one)
    obtain ⟨m3, p3, e3⟩ := parLoop_lost hn m2 hk hk' hne.symm (hmem k d) (hmem k' d) rfl rfl (by simp only [he])
    have := hall one one m3 ⟨m1, m2, p1, p2, p3⟩ (G.face k).left d j0
    simp only at e3
    rw [e3, e2, e1, greenGauss_loops h] at this
    apply hd
    linarith

/-- C44 refuted: on the mesh of a quadrilateral and a triangle, whose quadrilateral has three boundary faces, two threads can compute
wrong gradients of a constant field. -/
theorem C44_refuted : ¬ ∀ (u ug : ℕ → Fin 4 → ℝ) (g : ℕ × Fin 2 × Fin 4 → ℝ), exGeo.GreenGaussPar 2 u ug g →
    ∀ i d j, g (i, d, j) = exGeo.greenGauss u ug i d j := by
  rw [C44_exact exGeo_ok exGeo_offMid (fun i _ => by simp only [exGeo]; split_ifs <;> norm_num) le_rfl (by norm_num)]
  rintro ⟨h, _⟩
  obtain ⟨_, f0, _, f2, _⟩ := exGeo_face
  refine h 0 (List.mem_range.2 (by show 0 < 4; decide)) 2 (List.mem_range.2 (by show 2 < 4; decide)) (by decide) ?_
  rw [f0, f2]

/-! A mesh meeting the hypotheses of `C44_partial`: a square cut into four triangles by its diagonals. -/

/-- Square with centre point 4. -/
noncomputable def cross : Mesh :=
  triMesh 5 [(0, 1, 4), (1, 2, 4), (2, 3, 4), (3, 0, 4)] [(0, 1, 1), (1, 2, 1), (2, 3, 1), (3, 0, 1)] fun i k =>
    if i = 4 then 1 / 2 else if k = 0 then (if i = 1 ∨ i = 2 then 1 else 0) else (if 2 ≤ i then 1 else 0)

theorem cross_hosts : bfaceHosts cross (esup cross) = .ok [(0, 0), (1, 0), (2, 0), (3, 0)] := by decide +kernel

theorem cross_topological : ∃ s, topological cross = .ok s ∧ s.faces = [⟨0, 4, 0, 1⟩, ⟨1, 5, 1, 2⟩, ⟨2, 6, 2, 3⟩, ⟨3, 7, 3, 0⟩,
    ⟨0, 1, 1, 4⟩, ⟨0, 3, 4, 0⟩, ⟨1, 2, 2, 4⟩, ⟨2, 3, 3, 4⟩] := by
  rw [topological, faceConnectivity, cross_hosts]
  exact ⟨_, rfl, by decide +kernel⟩

theorem cross_nozero : NoZeroFace cross := by
  rintro ⟨i, f⟩ ⟨hi, hf⟩
  have hi : i < 4 := hi
  have hf : f < 3 := hf
  obtain rfl | rfl | rfl | rfl : i = 0 ∨ i = 1 ∨ i = 2 ∨ i = 3 := by omega
  all_goals
    obtain rfl | rfl | rfl : f = 0 ∨ f = 1 ∨ f = 2 := by omega
    all_goals
      intro e
      have e0 := congrFun e 0
      have e1 := congrFun e 1
      simp [cross, triMesh] at e0 e1

/-- Only the topology matters for `C44_partial`. -/
noncomputable def crossGeo : Geo where
  m := cross
  s := cross_topological.choose
  rc := centre cross
  rcbp := fun _ => 0
  ar := fun _ => 1 / 4

theorem crossGeo_ok : crossGeo.Ok :=
  ⟨(by decide +kernel : Check cross).conforming, cross_nozero, cross_topological.choose_spec.1⟩

example (u ug : ℕ → Fin 4 → ℝ) (g : ℕ × Fin 2 × Fin 4 → ℝ) (hg : crossGeo.GreenGaussPar 8 u ug g) (i : ℕ) (d : Fin 2) (j : Fin 4) :
    g (i, d, j) = crossGeo.greenGauss u ug i d j := by
  have hf : crossGeo.s.faces = _ := cross_topological.choose_spec.2
  refine C44_partial crossGeo_ok ?_ ?_ hg i d j
  · intro k hk k' hk' hne
    have hk : k < 4 := List.mem_range.1 hk
    have hk' : k' < 4 := List.mem_range.1 hk'
    simp only [face, hf]
    have : ∀ k < 4, ∀ k' < 4, k' ≠ k → (faceAt [⟨0, 4, 0, 1⟩, ⟨1, 5, 1, 2⟩, ⟨2, 6, 2, 3⟩, ⟨3, 7, 3, 0⟩,
      ⟨0, 1, 1, 4⟩, ⟨0, 3, 4, 0⟩, ⟨1, 2, 2, 4⟩, ⟨2, 3, 3, 4⟩] k').left ≠ (faceAt [⟨0, 4, 0, 1⟩, ⟨1, 5, 1, 2⟩, ⟨2, 6, 2, 3⟩, ⟨3, 7, 3, 0⟩,
      ⟨0, 1, 1, 4⟩, ⟨0, 3, 4, 0⟩, ⟨1, 2, 2, 4⟩, ⟨2, 3, 3, 4⟩] k).left := by decide
    exact this k hk k' hk' hne
  · intro k hk
    have : crossGeo.m.nconnface = 0 := rfl
    rw [this] at hk
    simp at hk

/-- Such results exist, for instance on 8 threads. -/
example (u ug : ℕ → Fin 4 → ℝ) : ∃ g, crossGeo.GreenGaussPar 8 u ug g := by
  obtain ⟨m1, h1, _⟩ := parLoop_exists (by decide : 0 < 8) (fun _ => (0 : ℝ)) (List.range crossGeo.m.nbface) (crossGeo.bodyB u ug)
  obtain ⟨m2, h2, _⟩ := parLoop_exists (by decide : 0 < 8) m1 (List.range' crossGeo.m.nbface crossGeo.ni) (crossGeo.bodyI u ug)
  obtain ⟨m3, h3, _⟩ := parLoop_exists (by decide : 0 < 8) m2
    (List.range' (crossGeo.m.nbface + crossGeo.ni) crossGeo.m.nconnface) (crossGeo.bodyB u ug)
  exact ⟨m3, m1, m2, h1, h2, h3⟩

end Geo

/-- Executions of the parallel assembly exist for every distribution of the faces (hypotheses of `C42_assembly`). -/
example (flux r : ℕ → Fin 4 → ℝ) : ∃ c : Mach (ℕ × Fin 4) ℝ, TReach (fun x => r x.1 x.2)
    (loopProg (List.range 6) (fun k => k % 3) fun k => fluxUpds 2 (faceAt exGeo.s.faces k) (flux k)) c ∧ Finished c ∧
    ∀ i j, c.mem (i, j) = assemble 2 exGeo.s.faces flux r i j := by
  have hlt : ∀ k ∈ List.range 6, (fun k => k % 3) k < 3 := fun k _ => Nat.mod_lt _ (by decide)
  obtain ⟨c, h1, h2, _⟩ := run_all 3 _ (TReach.start (mem := fun x : ℕ × Fin 4 => r x.1 x.2)
    (prog := loopProg (List.range 6) (fun k => k % 3) fun k => fluxUpds 2 (faceAt exGeo.s.faces k) (flux k))) (fun _ => rfl)
    (fun t ht => loopProg_nil hlt _ t ht)
  have h6 : exGeo.s.faces.length = 6 := exGeo_face.1
  refine ⟨c, h1, h2, fun i j => C42_assembly (n := 3) flux r (fun k => k % 3) (fun k _ => Nat.mod_lt _ (by decide)) ?_ h2 i j⟩
  rw [h6]; exact h1

/-- Two threads adding 1 each to the same location without protection may end with 1 instead of 2 (hypotheses of `C42_lost_update`). -/
example : ∃ c : Mach Unit ℤ, TReach (fun _ => 0) (fun t => if t < 2 then [⟨(), 1, false⟩] else []) c ∧ Finished c ∧ c.mem () = 1 := by
  obtain ⟨c, h1, h2, h3⟩ := C42_lost_update (L := Unit) (A := ℤ) (mem := fun _ => 0) (prog := fun t => if t < 2 then [⟨(), 1, false⟩] else [])
    (n := 2) (fun t ht => if_neg (by omega)) (t := 0) (t' := 1) (by decide) (u := ⟨(), 1, false⟩) (u' := ⟨(), 1, false⟩) (by simp) (by simp) rfl rfl rfl
  exact ⟨c, h1, h2, by rw [h3]; rfl⟩

end FV
end FVENS
