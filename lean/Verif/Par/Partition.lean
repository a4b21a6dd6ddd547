import Verif.Par.Trace

/-!
# Interface exchange on partitioned meshes (C40)

Connects the interface tables used by the exchange with those written by the partitioner.
-/

namespace FVENS
namespace Par

open Msh

section shared
variable {m : Mesh} {s : FState}

/-- Two local faces that carry the same global face number are the same or lie on each other. -/
theorem elemface_eq (hc : Conforming m) (h : topological m = .ok s) {x y : ℕ × ℕ} (hx : IsFace m x) (hy : IsFace m y) {e : ℕ}
    (hex : s.elemface x.1 x.2 = some e) (hey : s.elemface y.1 y.2 = some e) : x = y ∨ Glued m x y := by
  obtain ⟨F, hF, hFx, _⟩ := ((C71_elemface hc h hx).2 e).1 hex
  obtain ⟨F', hF', hFy, _⟩ := ((C71_elemface hc h hy).2 e).1 hey
  rw [hF] at hF'; cases hF'
  have he : edge m x = edge m y := hFx.symm.trans hFy
  by_cases h1 : x.1 = y.1
  · exact Or.inl (eq_of_edge hc.lin hx hy h1 he)
  · exact Or.inr ⟨hx, hy, h1, he⟩

/-- The two sides of a face carry the same number. -/
theorem elemface_glued (hc : Conforming m) (h : topological m = .ok s) {x y : ℕ × ℕ} (hg : Glued m x y) {e : ℕ}
    (hex : s.elemface x.1 x.2 = some e) : s.elemface y.1 y.2 = some e := by
  obtain ⟨F, hF, hFx⟩ := ((C71_elemface hc h hg.1).2 e).1 hex
  refine ((C71_elemface hc h hg.2.1).2 e).2 ⟨F, hF, ?_⟩
  have hn := C71_neighbour hc h hg.1 hF hFx
  have hr := (realNbr_topological hc h x y.1).2 ⟨y.2, hg⟩
  have hes : s.esuel x.1 x.2 = some y.1 := by
    unfold realNbr at hr
    cases he : s.esuel x.1 x.2 with
    | none => rw [he] at hr; cases hr
    | some j =>
      rw [he] at hr
      simp only at hr
      split_ifs at hr with hlt
      rw [Option.some.injEq] at hr
      rw [hr]
  refine ⟨hFx.1.trans hg.2.2.2, ?_⟩
  rcases hFx.2 with h1 | h1
  · right; have := hn.1 h1; rw [hes] at this; exact (Option.some.inj this).symm
  · left; have := hn.2 h1; rw [hes] at this; exact (Option.some.inj this).symm

end shared

/-- The interface table of a rank's subdomain: columns 2 and 4 of its `connface`, src/mesh/meshpartitioning.cpp:200-222 as
read by src/linalg/tracevector.cpp:45, 122. -/
noncomputable def subTab (gm : Mesh) (s : FState) (dist : ℕ → ℕ) (r : ℕ) : Tab :=
  match restrict gm s dist r with
  | .ok S => (List.range S.mesh.nconnface).map fun ic => (S.mesh.connface ic 2, S.mesh.connface ic 4)
  | _ => []

section part
variable {gm : Mesh} {s : FState} {dist : ℕ → ℕ}

theorem subTab_get {r : ℕ} {S : Sub} (hr : restrict gm s dist r = .ok S) {ic : ℕ} {x : ℕ × ℕ} :
    (subTab gm s dist r)[ic]? = some x ↔ ic < S.mesh.nconnface ∧ x = (S.mesh.connface ic 2, S.mesh.connface ic 4) := by
  simp only [subTab, hr, List.getElem?_map, Option.map_eq_some_iff, List.getElem?_eq_some_iff, List.length_range, List.getElem_range]
  constructor
  · rintro ⟨a, ⟨h1, rfl⟩, rfl⟩; exact ⟨h1, rfl⟩
  · rintro ⟨h1, rfl⟩; exact ⟨ic, ⟨h1, rfl⟩, rfl⟩

/-- Contents of a row of the interface table. -/
theorem subTab_row (hc : Conforming gm) (hn : gm.nconnface = 0) (ht : gm.nbtag ≤ 4) (h : topological gm = .ok s)
    {r : ℕ} {S : Sub} (hr : restrict gm s dist r = .ok S) {ic q e : ℕ} (hic : (subTab gm s dist r)[ic]? = some (q, e)) :
    ∃ g f j k, ic < S.mesh.nconnface ∧ S.cells[S.mesh.connface ic 0]? = some g ∧ f = S.mesh.connface ic 1 ∧ Glued gm (g, f) (j, k) ∧ dist g = r ∧ dist j = q ∧
      dist j ≠ dist g ∧ s.elemface g f = some e := by
  obtain ⟨h1, h2⟩ := (subTab_get hr).1 hic
  obtain ⟨S', hS, hsub, hcon, -⟩ := restrict_spec hc hn ht h dist r
  rw [hr] at hS; cases hS
  obtain ⟨g, j, k, r1, r2, r3, r4, r5, r6⟩ := hcon.row ic h1
  rw [Prod.mk.injEq] at h2
  refine ⟨g, _, j, k, h1, r1, rfl, r2, ?_, by rw [h2.1, r4], r3, by rw [h2.2]; exact r6⟩
  have hlt : S.mesh.connface ic 0 < S.mesh.nelem := by
    rw [hsub.nelem]; exact (List.getElem?_eq_some_iff.1 r1).1
  obtain ⟨g', hg', -, hd⟩ := hsub.cell hlt
  rw [r1, Option.some.injEq] at hg'
  rw [hg']; exact hd

/-- C40: if the partitioner has registered every interface face, the ranks' tables agree. -/
theorem C40_tables (hc : Conforming gm) (hn : gm.nconnface = 0) (ht : gm.nbtag ≤ 4) (h : topological gm = .ok s)
    (hall : AllRegistered gm s dist) {n : ℕ} (hd : ∀ g, g < gm.nelem → dist g < n) : SymTab n (subTab gm s dist) := by
  have hS : ∀ r, ∃ S, restrict gm s dist r = .ok S := fun r => by
    obtain ⟨S, h1, _⟩ := restrict_spec hc hn ht h dist r; exact ⟨S, h1⟩
  have hget : ∀ r x, x ∈ subTab gm s dist r → ∃ ic, (subTab gm s dist r)[ic]? = some x := fun r x hx => by
    obtain ⟨ic, h1, h2⟩ := List.mem_iff_getElem.1 hx
    exact ⟨ic, by rw [List.getElem?_eq_getElem h1, h2]⟩
  refine ⟨?_, ?_, ?_, ?_⟩
  · intro r
    obtain ⟨S, hr⟩ := hS r
    rw [List.nodup_iff_injective_getElem]
    rintro ⟨ic, hi⟩ ⟨jc, hj⟩ he
    simp only at he
    have e1 : (subTab gm s dist r)[ic]? = some ((subTab gm s dist r)[ic]) := List.getElem?_eq_getElem hi
    have e2 : (subTab gm s dist r)[jc]? = some ((subTab gm s dist r)[ic]) := by rw [List.getElem?_eq_getElem hj, he]
    obtain ⟨g, f, j, k, a1, a2, a3, a4, a5, a6, a7, a8⟩ := subTab_row hc hn ht h hr (q := _) (e := _) e1
    obtain ⟨g', f', j', k', b1, b2, b3, b4, b5, b6, b7, b8⟩ := subTab_row hc hn ht h hr (q := _) (e := _) e2
    have hxy : (g, f) = (g', f') := by
      rcases elemface_eq hc h a4.1 b4.1 a8 b8 with h1 | h1
      · exact h1
      · have := hc.manifold _ _ _ a4 h1
        rw [Prod.mk.injEq] at this
        rw [this.1, b5, a5] at a7; exact absurd rfl a7
    rw [Prod.mk.injEq] at hxy
    obtain ⟨S', hS', hsub, hcon, -⟩ := restrict_spec hc hn ht h dist r
    rw [hr] at hS'; cases hS'
    have : ic = jc := by
      refine hcon.distinct ic jc a1 b1 (Prod.ext ?_ ?_)
      · rw [← hxy.1] at b2
        exact hsub.cell_inj a2 b2
      · show S.mesh.connface ic 1 = S.mesh.connface jc 1
        rw [← a3, ← b3, hxy.2]
    exact Fin.ext this
  · intro r e hm
    obtain ⟨ic, hic⟩ := hget r _ hm
    obtain ⟨S, hr⟩ := hS r
    obtain ⟨g, f, j, k, a1, a2, a3, a4, a5, a6, a7, a8⟩ := subTab_row hc hn ht h hr hic
    exact a7 (a6.trans a5.symm)
  · intro r q e hm
    obtain ⟨ic, hic⟩ := hget r _ hm
    obtain ⟨S, hr⟩ := hS r
    obtain ⟨g, f, j, k, a1, a2, a3, a4, a5, a6, a7, a8⟩ := subTab_row hc hn ht h hr hic
    obtain ⟨S', l, jc, b1, b2, b3, b4, b5, b6⟩ := (hall j k g f a4.symm a7).1
    rw [a6] at b1
    have hrow : (subTab gm s dist q)[jc]? = some (S'.mesh.connface jc 2, S'.mesh.connface jc 4) := (subTab_get b1).2 ⟨b3, rfl⟩
    obtain ⟨g', f', j', k', c1, c2, c3, c4, c5, c6, c7, c8⟩ := subTab_row hc hn ht h b1 hrow
    have hl : S'.mesh.connface jc 0 = l := congrArg Prod.fst b4
    have hf : S'.mesh.connface jc 1 = k := congrArg Prod.snd b4
    rw [hl, b2, Option.some.injEq] at c2
    rw [hf] at c3
    subst c2 c3
    have := elemface_glued hc h a4 a8
    rw [c8, Option.some.injEq] at this
    rw [this, b5, a5] at hrow
    exact List.mem_of_getElem? hrow
  · intro r q e hm
    obtain ⟨ic, hic⟩ := hget r _ hm
    obtain ⟨S, hr⟩ := hS r
    obtain ⟨g, f, j, k, a1, a2, a3, a4, a5, a6, a7, a8⟩ := subTab_row hc hn ht h hr hic
    rw [← a6]; exact hd j a4.2.1.1

/-- C40 for partitioned meshes: for every conforming mesh, every assignment of cells to ranks for which all interface
faces are registered, all left values and every interleaving: after a completed exchange, the right value of
the interface face `f` of global cell `g` on its rank is the left value on the rank of the cell `j` glued to it, at that
rank's interface face for the same side `k` of `j`. Missing for the full claim: partitions with unregistered interface
faces, for which it fails (`C40_refuted`). -/
theorem C40_exchange_partial {V : Type*} (hc : Conforming gm) (hn : gm.nconnface = 0) (ht : gm.nbtag ≤ 4)
    (h : topological gm = .ok s) (hall : AllRegistered gm s dist) {P : Setup V} (hd : ∀ g, g < gm.nelem → dist g < P.n)
    (hP : P.tab = subTab gm s dist) {c : Config (List ℕ ⊕ List V)} (hcr : Reach P.prog c)
    {g f j k : ℕ} (hgl : Glued gm (g, f) (j, k)) (hne : dist g ≠ dist j) {t : ℕ} (h1 : 1 ≤ t) (hdone : Completed c (dist g) t)
    (right : ℕ → V) :
    ∃ right' Sg Sj lg lj ic jc, P.after c (dist g) t right = some right' ∧
      restrict gm s dist (dist g) = .ok Sg ∧ Sg.cells[lg]? = some g ∧ ic < Sg.mesh.nconnface ∧ connKey Sg.mesh ic = (lg, f) ∧
      restrict gm s dist (dist j) = .ok Sj ∧ Sj.cells[lj]? = some j ∧ jc < Sj.mesh.nconnface ∧ connKey Sj.mesh jc = (lj, k) ∧
      right' (P.fstart (dist g) + ic) = P.left (dist j) t (before t (c.rank (dist j)).inbox) (P.fstart (dist j) + jc) := by
  have hsym := C40_tables hc hn ht h hall hd
  rw [← hP] at hsym
  obtain ⟨right', e1, e2, -⟩ := C40_exchange hsym hcr h1 hdone right
  obtain ⟨⟨Sg, lg, ic, b1, b2, b3, b4, b5, b6⟩, -⟩ := hall g f j k hgl hne
  obtain ⟨⟨Sj, lj, jc, d1, d2, d3, d4, d5, d6⟩, -⟩ := hall j k g f hgl.symm hne.symm
  have hrow : (subTab gm s dist (dist g))[ic]? = some (Sg.mesh.connface ic 2, Sg.mesh.connface ic 4) :=
    (subTab_get b1).2 ⟨b3, rfl⟩
  have hrow' : (subTab gm s dist (dist j))[jc]? = some (Sj.mesh.connface jc 2, Sj.mesh.connface jc 4) :=
    (subTab_get d1).2 ⟨d3, rfl⟩
  obtain ⟨g', f', j', k', c1, c2, c3, c4, c5, c6, c7, c8⟩ := subTab_row hc hn ht h b1 hrow
  rw [show Sg.mesh.connface ic 0 = lg from congrArg Prod.fst b4, b2, Option.some.injEq] at c2
  rw [show Sg.mesh.connface ic 1 = f from congrArg Prod.snd b4] at c3
  subst c2 c3
  obtain ⟨g'', f'', j'', k'', c1', c2', c3', c4', c5', c6', c7', c8'⟩ := subTab_row hc hn ht h d1 hrow'
  rw [show Sj.mesh.connface jc 0 = lj from congrArg Prod.fst d4, d2, Option.some.injEq] at c2'
  rw [show Sj.mesh.connface jc 1 = k from congrArg Prod.snd d4] at c3'
  subst c2' c3'
  have hee := elemface_glued hc h hgl c8
  rw [c8', Option.some.injEq] at hee
  rw [hP] at e2
  obtain ⟨jc', i1, i2⟩ := e2 ic _ _ (by rw [hrow])
  rw [b5] at i1 i2
  rw [d5, hee] at hrow'
  have hjj : jc' = jc := by
    have hnd := hsym.nodup (dist j)
    rw [hP] at hnd
    obtain ⟨p1, p2⟩ := List.getElem?_eq_some_iff.1 i1
    obtain ⟨q1, q2⟩ := List.getElem?_eq_some_iff.1 hrow'
    exact (List.Nodup.getElem_inj_iff hnd).1 (p2.trans q2.symm)
  rw [hjj] at i2
  exact ⟨right', Sg, Sj, lg, lj, ic, jc, e1, b1, b2, b3, b4, d1, d2, d3, d4, i2⟩

set_option synthInstance.maxSize 1000 in
/-- The fan split into cells {0,1} and {2,3}: all interface faces are registered. -/
theorem fan_allRegistered {s : FState} (hs : topological fan = .ok s) : AllRegistered fan s (fun i => i / 2) := by
  have hc := fan_check.conforming
  rw [C38_all_iff hc rfl (by decide +kernel) hs]
  rintro g f ⟨j, k, hg, hd⟩
  have h : ∀ g < 4, ∀ f < 3, ∀ j < 4, ∀ k < 3, (g = j ∨ edge fan (g, f) ≠ edge fan (j, k) ∨ j / 2 = g / 2) ∨
      (3 = fan.inpoel g f ∨ 3 = fan.inpoel g ((f + 1) % 3)) := by decide +kernel
  have h' : ∀ g < 4, ¬ PtOnBb fan (fun i => i / 2) (g / 2) 3 := by decide +kernel
  have := (h g hg.1.1 f hg.1.2 j hg.2.1.1 k hg.2.1.2).resolve_left
    (by rintro (h | h | h); exacts [hg.2.2.1 h, h hg.2.2.2, hd h])
  exact ⟨3, mem_edge.2 this, by rw [ptOnB_iff]; exact h' g hg.1.1⟩

/-- The hypotheses of `C40_exchange_partial` hold for the fan on two ranks, and an execution completing two
exchanges exists. -/
example (left : ℕ → ℕ → (ℕ → ℕ → Option (List ℕ ⊕ List ℝ)) → ℕ → ℝ) : ∃ s, topological fan = .ok s ∧ ∃ P : Setup ℝ, P.tab = subTab fan s (fun i => i / 2) ∧
    P.left = left ∧ ∃ c, Reach P.prog c ∧ Completed c 0 2 ∧ Completed c 1 2 ∧ Glued fan (1, 1) (2, 2) := by
  obtain ⟨s, hs⟩ := fan_topological
  have hsym := C40_tables fan_check.conforming rfl (by decide +kernel) hs (fan_allRegistered hs) (n := 2) (fun g hg => by
    have : fan.nelem = 4 := by decide +kernel
    show g / 2 < 2
    omega)
  refine ⟨s, hs, ⟨2, subTab fan s (fun i => i / 2), fun _ => 4, 3, left⟩, rfl, rfl, ?_⟩
  obtain ⟨c, h1, h2⟩ := C40_completes (S := ⟨2, subTab fan s (fun i => i / 2), fun _ => 4, 3, left⟩) hsym
  have hcomp : ∀ r, r < 2 → Completed c r 2 := fun r hr => by
    obtain ⟨-, e2, e3⟩ := h2 r hr
    change 3 ≤ _ at e3
    rcases lt_or_eq_of_le (show 2 ≤ (c.rank r).phase by omega) with h | h
    · exact Or.inl h
    · exact Or.inr ⟨h, e2⟩
  exact ⟨c, h1, hcomp 0 (by decide), hcomp 1 (by decide),
    ⟨⟨by decide +kernel, by decide +kernel⟩, ⟨by decide +kernel, by decide +kernel⟩, by decide, by decide +kernel⟩⟩

/-- C40 fails on some partitions: for the fan with one cell per rank, rank 1 lists rank 0 as a neighbour but not
conversely, so rank 1 waits for ever; no schedule lets it finish even the index exchange. -/
theorem C40_refuted : ∃ s, topological fan = .ok s ∧ Conforming fan ∧ Glued fan (0, 2) (1, 0) ∧
    ∀ {V : Type} (P : Setup V), P.tab = subTab fan s id → ∀ c, Reach P.prog c → ¬ Done P.prog c 1 ∧ (c.rank 1).inbox 0 0 = none := by
  obtain ⟨hc, hn, s, hs, hgl, hno, hyes⟩ := C38_one_sided_refuted
  refine ⟨s, hs, hc, hgl, fun {V} P hP c hcr => ?_⟩
  have ht : fan.nbtag ≤ 4 := by decide +kernel
  have hnb : 1 ∉ P.prog.nb 0 := by
    intro hm
    obtain ⟨e, he⟩ := mem_nbdRanks.1 hm
    rw [hP] at he
    obtain ⟨ic, i1, i2⟩ := List.mem_iff_getElem.1 he
    obtain ⟨S, hr, -⟩ := restrict_spec hc hn ht hs id 0
    have hic : (subTab fan s id 0)[ic]? = some (1, e) := by rw [List.getElem?_eq_getElem i1, i2]
    obtain ⟨g, f, j, k, a1, a2, a3, a4, a5, a6, a7, a8⟩ := subTab_row hc hn ht hs hr hic
    simp only [id] at a5 a6
    subst a5 a6
    have hf : ∀ f < fan.nnode 0, ∀ k < fan.nnode 1, edge fan (0, f) = edge fan (1, k) → f = 2 := by decide +kernel
    have hf2 := hf f a4.1.2 k a4.2.1.2 a4.2.2.2
    subst hf2
    obtain ⟨b1, b2⟩ := (subTab_get hr).1 hic
    rw [Prod.mk.injEq] at b2
    obtain ⟨S', hS', hsub, hcon, -⟩ := restrict_spec hc hn ht hs id 0
    rw [hr] at hS'; cases hS'
    obtain ⟨g', j', k', r1, r2, r3, r4, r5, r6⟩ := hcon.row ic b1
    rw [a2, Option.some.injEq] at r1
    have hj' : j' = 1 := by rw [← b2.1] at r4; exact r4.symm
    exact hno ⟨S, _, ic, hr, a2, b1, Prod.ext rfl a3.symm, b2.1.symm, by rw [r5, hj']⟩
  have hmem : 0 ∈ P.prog.nb 1 := by
    obtain ⟨S, l, ic, b1, b2, b3, b4, b5, b6⟩ := hyes
    refine mem_nbdRanks.2 ⟨S.mesh.connface ic 4, ?_⟩
    rw [hP]
    have : (subTab fan s id 1)[ic]? = some (S.mesh.connface ic 2, S.mesh.connface ic 4) := (subTab_get b1).2 ⟨b3, rfl⟩
    rw [b5] at this
    exact List.mem_of_getElem? this
  exact ⟨one_sided_blocks hmem hnb hcr, (no_message hnb hcr).2.2 0⟩

end part

end Par
end FVENS
