import Verif.Par.AsyncSecond

/-!
# Processes that end because a boundary condition is missing (C118)

`compute_residual` takes the boundary condition of a face's tag by `bcs.at`, src/spatial/flow_spatial.cpp:85-93, which throws if there is none. Which tags occur depends on the process: each
sees only the boundary faces of its own cells. The evaluation is the first thing in an iteration of a steady solver, src/ode/aodesolver.cpp:189, 450, and its loop over boundary faces comes
before all communication, src/spatial/flow_spatial.cpp:672-676, 752-803.
-/

namespace FVENS
namespace Par

open Msh FV Flux Ode
open Finset (range)

/-! ### Model -/

namespace Iter
variable {n : ℕ} {L X : Type} [Inhabited X] (I : Iter n L X) (k : Kind) (c : Conf) (ok : Fin n → L → Prop)

open Classical in
/-- Program of a process whose evaluations end by an exception unless `ok`: src/ode/aodesolver.cpp:177-253, 419-559. -/
noncomputable def actB (r : Fin n) : Pst L → Act (Pst L) (X × ℝ)
  | .at 0 m l => if Ode.cond c m ∧ ¬ ok r m.u then .loc (.ended none) else I.act k c r (.at 0 m l)
  | x => I.act k c r x

/-- The processes. -/
noncomputable def worldB : World n (Pst L) (X × ℝ) := ⟨I.actB k c ok, (I.world k c).reply⟩

end Iter

section world
variable (P : Settings) (gm : Mesh) (s : FState) (dist : ℕ → ℕ) (n : ℕ)

/-- All boundary faces of rank `r` have a boundary condition. -/
def RankBc (r : ℕ) : Prop := ∃ x, rankDisc P gm s dist n r = some x ∧ x.2.BcOk

end world

/-! ### Proofs -/

theorem evalHeld_isSome (P : Settings) (gm : Mesh) (s : FState) (dist : ℕ → ℕ) (n r : ℕ) (arr : ℕ → St) :
    (evalHeld P gm s dist n r arr).isSome ↔ RankBc P gm s dist n r := by
  unfold evalHeld RankBc
  cases rankDisc P gm s dist n r with
  | none => simp
  | some x =>
    simp only [Option.bind_some, Option.isSome_map, Option.some.injEq, exists_eq_left']
    unfold Disc.residual1
    split_ifs with h <;> simp [h]

namespace Iter
variable {n : ℕ} {L X : Type} [Inhabited X] {I : Iter n L X} {k : Kind} {c : Conf} {ok : Fin n → L → Prop}

/-- Where all can evaluate the processes are those of `Verif.Par.Async`. -/
theorem worldB_all (h : ∀ r l, ok r l) : I.worldB k c ok = I.world k c := by
  have : I.actB k c ok = I.act k c := by
    funext r x
    match x with
    | .at 0 m l => rw [actB, if_neg fun h' => h'.2 (h r _)]
    | .at (j + 1) m l => rfl
    | .ended o => rfl
  rw [worldB, this]
  rfl

variable {M : Mem (Fin n → L)}

theorem worldB_act (p : Fin n) (x : Pst L) : (I.worldB k c ok).act p x = I.actB k c ok p x := rfl

theorem actB_start (hc : Ode.cond c M) (r : Fin n) (h : ok r (M.u r)) : I.actB k c ok r (.at 0 (view M r) (M.u r)) = .loc (.at 1 (view M r) (M.u r)) := by
  have hcv : Ode.cond c (view M r) := hc
  rw [actB, if_neg fun h' => h'.2 h]
  simp only [act, hcv, if_true]
  rfl

theorem actB_throws (hc : Ode.cond c M) (r : Fin n) (h : ¬ ok r (M.u r)) : I.actB k c ok r (.at 0 (view M r) (M.u r)) = .loc (.ended none) := by
  rw [actB, if_pos ⟨hc, h⟩]

/-- C118 fails when a boundary condition is missing for a face of one process and none for the faces of another: the first ends, and every execution comes to a point where the second waits
for it for ever. -/
theorem C118_missing_hangs (hc : Ode.cond c M) {r q : Fin n} (hr : ok r (M.u r)) (hq : ¬ ok q (M.u q)) : (I.worldB k c ok).Hangs fun p => .at 0 (view M p) (M.u p) := by
  classical
  let b : Fin n → Pst L := fun p => if ok p (M.u p) then .at 1 (view M p) (M.u p) else .ended none
  have hno : ∀ p l, I.actB k c ok p (b p) ≠ .loc l := fun p l => by
    simp only [b]
    split_ifs
    · simp only [actB, act]
      split_ifs <;> simp
    · simp [actB, act]
  refine World.runs_of_own (b := b) (d := fun _ => 1) (fun p => .step (l1 := b p) ?_ .refl) hno (World.runs_of_stuck ?_ fun he => ?_)
  · rw [worldB_act]
    by_cases h : ok p (M.u p)
    · rw [actB_start hc p h]; simp [b, h]
    · rw [actB_throws hc p h]; simp [b, h]
  · rintro ⟨t, ht⟩
    cases ht with
    | loc hl => exact hno _ _ hl
    | coll v f hv =>
      have : I.actB k c ok q (b q) = _ := hv q
      simp [b, hq, actB, act] at this
  · have : I.actB k c ok r (b r) = .halt := he r
    simp only [b, hr, if_true, actB, act] at this
    split_ifs at this

/-- If for every process a condition is missing all end by the exception. -/
theorem C118_missing_all (hn : 0 < n) (hc : Ode.cond c M) (h : ∀ r, ¬ ok r (M.u r)) : (I.worldB k c ok).Fine (fun t => ∀ r, t r = .ended none) fun p => .at 0 (view M p) (M.u p) :=
  World.runs_of_own (b := fun _ => .ended none) (d := fun _ => 1) (fun p => .step (l1 := .ended none) ((worldB_act p _).trans (actB_throws hc p (h p))) .refl)
    (fun p l => by show I.actB k c ok p (.ended none) ≠ _; simp [actB, act]) (World.fine_of_ended hn (fun r => rfl) fun r => rfl)

/-- C118, exact condition: the processes of a run that has work to do all end, whatever their order, exactly if all of them have all conditions they need or none of them has. -/
theorem C118_missing_iff (hn : 0 < n) (hind : ∀ a b J q, I.energy q (I.run a J I.p q) = I.energy q (I.run b J I.p q)) (hst : ∀ r l l', ok r l → ok r l') {J : Fin n → L}
    (hc : Ode.cond c (init k c J)) :
    (I.worldB k c ok).Fine (fun _ => True) (fun p => .at 0 (init k c (J p)) (J p)) ↔ (∀ r, ok r (J r)) ∨ ∀ r, ¬ ok r (J r) := by
  have e : (fun p => Pst.at 0 (init k c (J p)) (J p)) = fun p => .at 0 (view (init k c J) p) ((init k c J).u p) := rfl
  rw [e]
  constructor
  · intro hf
    by_contra hno
    push Not at hno
    obtain ⟨⟨q, hq⟩, r, hr⟩ := hno
    obtain ⟨t, t1, t2, t3, -⟩ := World.Runs.ends hf
    exact World.Hangs.never hn (C118_missing_hangs (I := I) (k := k) hc hr hq) t1 t3
  · rintro (h | h)
    · rw [worldB_all fun r l => hst r _ l (h r)]
      obtain ⟨N, o, hl⟩ := loop_total k I.lock c J
      exact (C118_lockstep hn hind hl).mono fun _ _ => trivial
    · exact (C118_missing_all hn hc h).mono fun _ _ => trivial

end Iter

theorem explicit_ind (P : Settings) (gm : Mesh) (s : FState) (dist : ℕ → ℕ) (n : ℕ) (a b : ℝ) (J : Fin n → Hold) (q : Fin n) :
    (explicitIter P gm s dist n).energy q ((explicitIter P gm s dist n).run a J (explicitIter P gm s dist n).p q) =
      (explicitIter P gm s dist n).energy q ((explicitIter P gm s dist n).run b J (explicitIter P gm s dist n).p q) := rfl

section mesh
variable {gm : Mesh} {s : FState} {dist : ℕ → ℕ} (hcf : Conforming gm) (hcn : gm.nconnface = 0) (ht : gm.nbtag ≤ 4) (h : topological gm = .ok s)
include hcf hcn ht h

/-- A rank has all conditions it needs if every boundary face of the global mesh which belongs to one of its cells has one. -/
theorem rankBc_iff (P : Settings) (n r : ℕ) : RankBc P gm s dist n r ↔ ∀ k, BfOn gm dist r k → (P.bc (gm.btag k 0 : ℤ)).isSome := by
  obtain ⟨S, hS, hsub, -⟩ := restrict_spec hcf hcn ht h dist r
  obtain ⟨s', hs'⟩ := sub_topological hcf hcn ht h hS
  obtain ⟨B, -, hB, hlen, hrow⟩ := hsub.bfaces
  have e : RankBc P gm s dist n r ↔ ∀ l, l < B.length → (P.bc (S.mesh.btag l 0 : ℤ)).isSome := by
    unfold RankBc rankDisc
    simp only [hS, hs', Option.some.injEq, exists_eq_left']
    rw [← hlen]
    rfl
  rw [e]
  constructor
  · intro hl k hk
    obtain ⟨l, hlt, hlk⟩ := List.getElem_of_mem ((hB k).2 hk)
    have := (hrow l k (by rw [List.getElem?_eq_getElem hlt, hlk])).2.2 0
    rw [← this]
    exact hl l hlt
  · intro hk l hlt
    rw [(hrow l _ (List.getElem?_eq_getElem hlt)).2.2 0]
    exact hk _ ((hB _).1 (List.getElem_mem hlt))

/-- C118 and missing boundary conditions: the processes of a steady solver that has work to do (`I` any of the four solvers) all end, in whatever order they proceed, exactly if no boundary
face lacks a condition or every process has a boundary face that lacks one. -/
theorem C118_missing_conditions {n : ℕ} (hn : 0 < n) (hd : ∀ g, g < gm.nelem → dist g < n) (P : Settings) {L X : Type} [Inhabited X] (I : Iter n L X)
    (hind : ∀ a b J q, I.energy q (I.run a J I.p q) = I.energy q (I.run b J I.p q)) {ok : Fin n → L → Prop} (hok : ∀ r l, ok r l ↔ RankBc P gm s dist n r) (k : Kind) {c : Conf}
    (htol : c.tol < 1) (hmax : 0 < c.maxiter) (J : Fin n → L) :
    (I.worldB k c ok).Fine (fun _ => True) (fun p => .at 0 (init k c (J p)) (J p)) ↔
      (∀ f, f < gm.nbface → (P.bc (gm.btag f 0 : ℤ)).isSome) ∨ ∀ r, r < n → ∃ f, BfOn gm dist r f ∧ P.bc (gm.btag f 0 : ℤ) = none := by
  have hc : Ode.cond c (init k c J) := by
    refine ⟨?_, ?_⟩
    · simp [init, fdiv, FDiv.gt, htol]
    · simpa [init] using hmax
  rw [Iter.C118_missing_iff hn hind (fun r l l' h => (hok r l').2 ((hok r l).1 h)) hc]
  simp only [hok, rankBc_iff hcf hcn ht h P n]
  refine or_congr ⟨fun hall f hf => ?_, fun hall r f hf => hall f hf.1⟩ ⟨fun hall r hr => ?_, fun hall r hno => ?_⟩
  · obtain ⟨x, hx, h0, h1⟩ := hcf.bf f hf
    exact hall ⟨dist x.1, hd _ hx.1⟩ f ⟨hf, x, hx, by rw [h0, h1]; rfl, rfl⟩
  · have := hall ⟨r, hr⟩
    push Not at this
    obtain ⟨f, hf, hno⟩ := this
    exact ⟨f, hf, by simpa using hno⟩
  · obtain ⟨f, hf, he⟩ := hall r r.2
    have := hno f hf
    rw [he] at this
    cases this

end mesh

/-! ### Concrete case -/

/-- The square of `FV.Geo.cross` with tag 1 on two sides and tag 2 on the others. -/
noncomputable def twoTags : Mesh :=
  triMesh 5 [(0, 1, 4), (1, 2, 4), (2, 3, 4), (3, 0, 4)] [(0, 1, 1), (1, 2, 1), (2, 3, 2), (3, 0, 2)] fun i k =>
    if i = 4 then 1 / 2 else if k = 0 then (if i = 1 ∨ i = 2 then 1 else 0) else (if 2 ≤ i then 1 else 0)

theorem twoTags_conforming : Conforming twoTags := (by decide +kernel : Check twoTags).conforming

theorem twoTags_hosts : bfaceHosts twoTags (esup twoTags) = .ok [(0, 0), (1, 0), (2, 0), (3, 0)] := by decide +kernel

theorem twoTags_topological : ∃ s, topological twoTags = .ok s := by
  rw [topological, faceConnectivity, twoTags_hosts]
  exact ⟨_, rfl⟩

/-- Settings with a far field for tag 1 only. -/
noncomputable def onlyOne : Settings := ⟨air, .llf, false, false, fun t => if t = 1 then some (.farfield (rest 1)) else none⟩

/-- C118 refuted: four triangles on two processes, with a boundary condition missing for the two sides that belong to the second process. Whatever the initial states, the second process
ends by an exception, and every execution of the explicit solver comes to a point where the first waits for it for ever. On one process, or with the
triangles dealt out so that each process has such a side, all end by the exception. -/
theorem C118_missing_refuted {c : Conf} (htol : c.tol < 1) (hmax : 0 < c.maxiter) : ∃ s, topological twoTags = .ok s ∧
    (∀ J : Fin 2 → Hold, ((explicitIter onlyOne twoTags s (fun i => i / 2) 2).worldB forwardEuler c fun r l => (evalHeld onlyOne twoTags s (fun i => i / 2) 2 r l.arr).isSome).Hangs
      fun p => .at 0 (init forwardEuler c (J p)) (J p)) ∧
    (∀ J : Fin 1 → Hold, ((explicitIter onlyOne twoTags s (fun _ => 0) 1).worldB forwardEuler c fun r l => (evalHeld onlyOne twoTags s (fun _ => 0) 1 r l.arr).isSome).Fine
      (fun t => ∀ r, t r = .ended none) fun p => .at 0 (init forwardEuler c (J p)) (J p)) ∧
    ∀ J : Fin 2 → Hold, ((explicitIter onlyOne twoTags s (fun i => i % 2) 2).worldB forwardEuler c fun r l => (evalHeld onlyOne twoTags s (fun i => i % 2) 2 r l.arr).isSome).Fine
      (fun t => ∀ r, t r = .ended none) fun p => .at 0 (init forwardEuler c (J p)) (J p) := by
  obtain ⟨s, hs⟩ := twoTags_topological
  have hb : twoTags.nbtag ≤ 4 := by decide +kernel
  have hc : ∀ {n : ℕ} (J : Fin n → Hold), Ode.cond c (init forwardEuler c J) := fun J => by
    refine ⟨?_, ?_⟩
    · simp [init, fdiv, FDiv.gt, htol]
    · simpa [init] using hmax
  have hbf' : ∀ i, i < 4 → (i < twoTags.nelem ∧ 0 < twoTags.nnode i) ∧ edge twoTags (i, 0) = s(twoTags.bface i 0, twoTags.bface i 1) := by decide +kernel
  have hbf : ∀ i, i < 4 → IsFace twoTags (i, 0) ∧ edge twoTags (i, 0) = s(twoTags.bface i 0, twoTags.bface i 1) := hbf'
  have hne : twoTags.nbface = 4 := by decide +kernel
  have htag : twoTags.btag 0 0 = 1 ∧ twoTags.btag 1 0 = 1 ∧ twoTags.btag 2 0 = 2 ∧ twoTags.btag 3 0 = 2 := by decide +kernel
  have hhost : ∀ k, k < 4 → ∀ i, i < 4 → ∀ f, f < 3 → edge twoTags (i, f) = s(twoTags.bface k 0, twoTags.bface k 1) → i = k := by decide +kernel
  have hface : ∀ x, IsFace twoTags x → x.1 < 4 ∧ x.2 < 3 := fun x hx => ⟨hx.1, hx.2⟩
  refine ⟨s, hs, fun J => ?_, fun J => ?_, fun J => ?_⟩
  · refine Iter.C118_missing_hangs (M := init forwardEuler c J) (hc J) (r := 0) (q := 1) ?_ ?_
    · rw [evalHeld_isSome, rankBc_iff twoTags_conforming rfl hb hs]
      rintro k ⟨hk, x, hx, he, hd⟩
      have hd : x.1 / 2 = 0 := hd
      have hxk := hhost k (hne ▸ hk) x.1 (hface x hx).1 x.2 (hface x hx).2 he
      obtain rfl | rfl : k = 0 ∨ k = 1 := by omega
      · rw [htag.1]; rfl
      · rw [htag.2.1]; rfl
    · rw [evalHeld_isSome, rankBc_iff twoTags_conforming rfl hb hs]
      intro hno
      have := hno 2 ⟨by omega, (2, 0), (hbf 2 (by omega)).1, (hbf 2 (by omega)).2, rfl⟩
      rw [htag.2.2.1] at this
      cases this
  · refine Iter.C118_missing_all (M := init forwardEuler c J) (by omega) (hc J) fun r => ?_
    rw [evalHeld_isSome, rankBc_iff twoTags_conforming rfl hb hs]
    intro hno
    have := hno 2 ⟨by omega, (2, 0), (hbf 2 (by omega)).1, (hbf 2 (by omega)).2, by show 0 = (r : ℕ); have := r.2; omega⟩
    rw [htag.2.2.1] at this
    cases this
  · refine Iter.C118_missing_all (M := init forwardEuler c J) (by omega) (hc J) fun r => ?_
    rw [evalHeld_isSome, rankBc_iff twoTags_conforming rfl hb hs]
    intro hno
    obtain hr | hr : (r : ℕ) = 0 ∨ (r : ℕ) = 1 := by have := r.2; omega
    · have := hno 2 ⟨by omega, (2, 0), (hbf 2 (by omega)).1, (hbf 2 (by omega)).2, hr.symm⟩
      rw [htag.2.2.1] at this
      cases this
    · have := hno 3 ⟨by omega, (3, 0), (hbf 3 (by omega)).1, (hbf 3 (by omega)).2, hr.symm⟩
      rw [htag.2.2.2] at this
      cases this

/-- Hypotheses of `C118_missing_conditions` are met by the explicit solver: with far fields on all sides all processes end. -/
example {c : Conf} (htol : c.tol < 1) (hmax : 0 < c.maxiter) : ∃ s, topological twoTags = .ok s ∧ ∀ J : Fin 2 → Hold,
    ((explicitIter (air1 (rest 1)) twoTags s (fun i => i / 2) 2).worldB forwardEuler c fun r l => (evalHeld (air1 (rest 1)) twoTags s (fun i => i / 2) 2 r l.arr).isSome).Fine
      (fun _ => True) fun p => .at 0 (init forwardEuler c (J p)) (J p) := by
  obtain ⟨s, hs⟩ := twoTags_topological
  refine ⟨s, hs, fun J => (C118_missing_conditions twoTags_conforming rfl (by decide +kernel) hs (by omega) (fun g hg => ?_) (air1 (rest 1))
    (explicitIter (air1 (rest 1)) twoTags s (fun i => i / 2) 2) (explicit_ind (air1 (rest 1)) twoTags s (fun i => i / 2) 2) (fun r l => evalHeld_isSome (air1 (rest 1)) twoTags s (fun i => i / 2) 2 r l.arr) forwardEuler htol hmax J).2
    (.inl fun _ _ => rfl)⟩
  have hne : twoTags.nelem = 4 := by decide +kernel
  show g / 2 < 2
  omega

end Par
end FVENS
