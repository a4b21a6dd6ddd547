import Verif.Par.Async
import Verif.Par.ImplicitRun
import Verif.Par.Unsteady

/-!
# The steady solvers on processes running at their own pace (C118)

The two steady solvers as programs of processes (`Iter`), and their executions against the loops `several` and `implicits`, in which all processes work in step.
-/

namespace FVENS
namespace Par

open Msh FV Flux Ode
open Finset (range)

/-- What a process holds: solution with the ghost blocks last received, residual, update. -/
structure Hold where
  arr : ℕ → St
  res : ℕ → St
  du : ℕ → St

section world
variable (P : Settings) (gm : Mesh) (s : FState) (dist : ℕ → ℕ) (n : ℕ)

/-- Discretisation of rank `r`. -/
noncomputable def rankDisc (r : ℕ) : Option (Sub × Disc) :=
  match restrict gm s dist r with
  | .ok S => match topological S.mesh with
    | .ok s' => some (S, P.rank gm s dist n r S s')
    | _ => none
  | _ => none

/-- Evaluation by rank `r` of what it holds, src/ode/aodesolver.cpp:179-189, 421-450. -/
noncomputable def evalHeld (r : ℕ) (arr : ℕ → St) : Option (Disc × Disc.Out) := (rankDisc P gm s dist n r).bind fun x => (x.2.residual1 arr 0).map fun o => (x.2, o)

/-- Arrays of all processes; those of numbers that are not processes are empty. -/
def allOf {V : Type} [Zero V] (v : Fin n → ℕ → V) : ℕ → ℕ → V := fun r => if h : r < n then v ⟨r, h⟩ else 0

/-- What rank `r` has after a forward ghost update of arrays `v`. -/
noncomputable def fwdGot (v : Fin n → ℕ → St) (r : Fin n) : ℕ → St := match rankDisc P gm s dist n r with
  | some (S, _) => rankArray gm s dist n (allOf n v) r S
  | none => 0

/-- Residual of what rank `r` holds. -/
noncomputable def resHeld (r : ℕ) (l : Hold) : ℕ → St := match evalHeld P gm s dist n r l.arr with
  | some (_, o) => o.res
  | none => 0

/-- Energy residual of rank `r`. -/
noncomputable def energyHeld (r : ℕ) (l : Hold) : ℝ := match rankDisc P gm s dist n r with
  | some (_, D) => energy D l.res
  | none => 0

/-- Iteration of the explicit solver, src/ode/aodesolver.cpp:177-253, first-order discretisation (whose evaluation involves no other process): 0: ghost blocks of the residual are added to
their owners (191-192); 1: the solution is updated and its ghost blocks are sent (194-212, 247). Where a boundary condition is missing an evaluation ends the process; not modelled here. -/
noncomputable def explicitIter : Iter n Hold (ℕ → St) where
  p := 2
  send := fun j r a l => match j with
    | 0 => resHeld P gm s dist n r l
    | _ + 1 => match evalHeld P gm s dist n r l.arr with
      | some (D, o) => euler D a o l.res l.arr
      | none => l.arr
  exch := fun j v r => match j with
    | 0 => ghostAdd gm s dist n (allOf n v) r
    | _ + 1 => fwdGot P gm s dist n v r
  recv := fun j _ _ l x => match j with
    | 0 => { l with res := x }
    | _ + 1 => { l with arr := x }
  energy := fun r l => energyHeld P gm s dist n r l

/-- Blocks rank `r` adds to the matrix from what it holds. -/
noncomputable def sysHeld (J : St → St → V2 → FJ) (r : ℕ) (l : Hold) (a : ℝ) (x : ℕ × ℕ) : Blk (Fin 4) :=
  match rankDisc P gm s dist n r with
  | some (S, D) => match D.residual1 l.arr 0 with
    | some o => sysPart D J (rankCol S) (fun l => S.cells.getD l 0) l.arr o a x
    | none => 0
  | none => 0

/-- Iteration of the implicit solver, src/ode/aodesolver.cpp:419-559: 0: ghost blocks of the residual are added to their owners (454, 469); 1: the matrix is assembled and the system solved
(471-483); 2: the solution is updated and its ghost blocks are sent (495-514, 558). -/
noncomputable def implicitIter (J : St → St → V2 → FJ) (relax : St → St → ℝ) (ksp : (ℕ × ℕ → Blk (Fin 4)) → (ℕ → ℕ → St) → ℕ → ℕ → St) :
    Iter n Hold ((ℕ → St) × (ℕ × ℕ → Blk (Fin 4))) where
  p := 3
  send := fun j r a l => match j with
    | 0 => (resHeld P gm s dist n r l, 0)
    | 1 => (l.res, sysHeld P gm s dist n J r l a)
    | _ + 2 => (match rankDisc P gm s dist n r with
      | some (_, D) => relaxed D.G.m.nelem relax l.du l.arr
      | none => l.arr, 0)
  exch := fun j v r => match j with
    | 0 => (ghostAdd gm s dist n (allOf n fun q => (v q).1) r, 0)
    | 1 => (ksp (fun x => ∑ q, (v q).2 x) (allOf n fun q => (v q).1) r, 0)
    | _ + 2 => (fwdGot P gm s dist n (fun q => (v q).1) r, 0)
  recv := fun j _ _ l x => match j with
    | 0 => { l with res := x.1 }
    | 1 => { l with du := x.1 }
    | _ + 2 => { l with arr := x.1 }
  energy := fun r l => energyHeld P gm s dist n r l

/-- The processes hold the distributed solution `loc`, with ghost blocks up to date. -/
def Holds (loc : ℕ → ℕ → St) (J : Fin n → Hold) : Prop := ∀ (r : Fin n) S, restrict gm s dist r = .ok S → (J r).arr = rankArray gm s dist n loc r S

end world

section lemmas
variable {P : Settings} {gm : Mesh} {s : FState} {dist : ℕ → ℕ} {n : ℕ}

theorem allOf_of {V : Type} [Zero V] {v : Fin n → ℕ → V} {f : ℕ → ℕ → V} (h : ∀ r : Fin n, v r = f r) {q : ℕ} (hq : q < n) : allOf n v q = f q := by
  simp only [allOf, hq, dif_pos, h]

theorem ghostAdd_ranks {f g : ℕ → ℕ → St} (h : ∀ q, q < n → f q = g q) {r : ℕ} (hr : r < n) : ghostAdd gm s dist n f r = ghostAdd gm s dist n g r := by
  funext l
  unfold ghostAdd
  rw [h r hr]
  congr 1
  refine Finset.sum_congr rfl fun q hq => ?_
  rw [h q (Finset.mem_range.1 hq)]

theorem rankDisc_size {r : ℕ} {S : Sub} {D : Disc} (h : rankDisc P gm s dist n r = some (S, D)) : restrict gm s dist r = .ok S ∧ D.G.m = S.mesh ∧ localSize gm s dist r = S.mesh.nelem := by
  unfold rankDisc at h
  split at h
  · rename_i S' hS
    split at h
    · cases h
      exact ⟨hS, rfl, by simp only [localSize, hS]⟩
    · cases h
  · cases h

theorem blockAt_ranks {V : Type} {f g : ℕ → ℕ → V} (h : ∀ q, q < n → ∀ l, l < localSize gm s dist q → f q l = g q l) (p : ℕ) : blockAt gm s dist n f p = blockAt gm s dist n g p := by
  unfold blockAt
  cases hf : (List.range n).find? fun q => offset gm s dist q ≤ p ∧ p < offset gm s dist (q + 1) with
  | none => rfl
  | some q =>
    have h1 := List.find?_some hf
    have h2 := List.mem_range.1 (List.mem_of_find?_eq_some hf)
    simp only [decide_eq_true_eq] at h1
    rw [Option.map_some, Option.map_some, h q h2]
    have : offset gm s dist (q + 1) = offset gm s dist q + localSize gm s dist q := Finset.sum_range_succ _ _
    omega

theorem rankArray_ranks {f g : ℕ → ℕ → St} (h : ∀ q, q < n → ∀ l, l < localSize gm s dist q → f q l = g q l) {r : ℕ} (hr : r < n) {S : Sub} (hS : restrict gm s dist r = .ok S) :
    rankArray gm s dist n f r S = rankArray gm s dist n g r S := by
  funext i
  unfold rankArray
  split_ifs with hi
  · exact h r hr i (by simp only [localSize, hS]; exact hi)
  · simp only [ghostAfter, hS, blockAt_ranks h]

/-- A process evaluates what `several` says it evaluates. -/
theorem evalHeld_eq {loc : ℕ → ℕ → St} {J : Fin n → Hold} (h : Holds gm s dist n loc J) (r : Fin n) : evalHeld P gm s dist n r (J r).arr = rankEval P gm s dist n loc r := by
  unfold evalHeld rankEval rankDisc
  cases hS : restrict gm s dist r with
  | ok S =>
    simp only
    cases hs : topological S.mesh with
    | ok s' => simp only [Option.bind_some, h r S hS]
    | _ => rfl
  | _ => rfl

theorem rankDisc_of_eval {r : ℕ} {arr : ℕ → St} {D : Disc} {o : Disc.Out} (h : evalHeld P gm s dist n r arr = some (D, o)) : ∃ S, rankDisc P gm s dist n r = some (S, D) ∧ D.residual1 arr 0 = some o := by
  obtain ⟨⟨S, D'⟩, h1, h2⟩ := Option.bind_eq_some_iff.1 h
  obtain ⟨o', h3, h4⟩ := Option.map_eq_some_iff.1 h2
  cases h4
  exact ⟨S, h1, h3⟩

theorem resHeld_eq {loc : ℕ → ℕ → St} {J : Fin n → Hold} (h : Holds gm s dist n loc J) (r : Fin n) : resHeld P gm s dist n r (J r) = rankRes P gm s dist n loc r := by
  unfold resHeld rankRes
  rw [evalHeld_eq h]
  cases rankEval P gm s dist n loc r <;> rfl

/-- Residuals after the reverse ghost update. -/
theorem summed_eq {loc : ℕ → ℕ → St} {J : Fin n → Hold} (h : Holds gm s dist n loc J) (r : Fin n) :
    ghostAdd gm s dist n (allOf n fun q => resHeld P gm s dist n q (J q)) r = ghostAdd gm s dist n (rankRes P gm s dist n loc) r :=
  ghostAdd_ranks (fun _ hq => allOf_of (fun q => resHeld_eq h q) hq) r.2

/-- The forward ghost update hands out the distributed solution. -/
theorem holds_received {f : ℕ → ℕ → St} {v : Fin n → ℕ → St} {J : Fin n → Hold} (hd : ∀ r : Fin n, (rankDisc P gm s dist n r).isSome)
    (h : ∀ (r : Fin n) l, l < localSize gm s dist r → v r l = f r l) (hJ : ∀ r, (J r).arr = fwdGot P gm s dist n v r) : Holds gm s dist n f J := by
  intro r S hS
  obtain ⟨⟨S', D⟩, hD⟩ := Option.isSome_iff_exists.1 (hd r)
  have := (rankDisc_size hD).1
  rw [hS] at this; cases this
  rw [hJ]
  simp only [fwdGot, hD]
  refine rankArray_ranks (fun q hq l hl => ?_) r.2 hS
  simp only [allOf, hq, dif_pos]
  exact h ⟨q, hq⟩ l hl

theorem sum_energy {loc : ℕ → ℕ → St} (he : ∀ r, r < n → (rankEval P gm s dist n loc r).isSome) {J : Fin n → Hold} (h : Holds gm s dist n loc J) {K : Fin n → Hold}
    (hK : ∀ r, (K r).res = ghostAdd gm s dist n (rankRes P gm s dist n loc) r) : rootOf (∑ q : Fin n, energyHeld P gm s dist n q (K q)) = (several P gm s dist n).norm loc := by
  simp only [several]
  rw [if_pos he, Finset.sum_range]
  congr 1
  refine Finset.sum_congr rfl fun q _ => ?_
  obtain ⟨⟨D, o⟩, hD⟩ := Option.isSome_iff_exists.1 (he q q.2)
  obtain ⟨S, h1, -⟩ := rankDisc_of_eval ((evalHeld_eq h q).trans hD)
  simp only [hD, energyHeld, h1, hK]

end lemmas

section runs
variable {P : Settings} {gm : Mesh} {s : FState} {dist : ℕ → ℕ} {n : ℕ}

/-- How processes end a run whose loop, all processes in step, ends with `o`: all by the exception, or all with the loop's control variables and the solution at their cells. -/
def EndAs (gm : Mesh) (s : FState) (dist : ℕ → ℕ) (n : ℕ) (o : Option (Mem (ℕ → ℕ → St))) (t : Fin n → Pst Hold) : Prop :=
  match o with
  | none => ∀ r, t r = .ended none
  | some m => ∀ r, ∃ m', t r = .ended (some m') ∧ m'.step = m.step ∧ m'.resi = m.resi ∧ m'.resiold = m.resiold ∧ m'.initres = m.initres ∧ m'.cfl = m.cfl ∧ m'.log = m.log ∧
      ∀ l, l < localSize gm s dist r → m'.u.arr l = m.u r l

theorem endAs_of {X : Type} [Inhabited X] (hn : 0 < n) {I : Iter n Hold X} {k : Kind} {c : Conf} (hind : ∀ a b J q, I.energy q (I.run a J I.p q) = I.energy q (I.run b J I.p q))
    {Q : Prob (ℕ → ℕ → St)} {good : (ℕ → ℕ → St) → Prop} (hnorm : ∀ u J, good u → Holds gm s dist n u J → I.lock.norm J = Q.norm u)
    (hupd : ∀ a u J, good u → Holds gm s dist n u J → Holds gm s dist n (Q.upd a u) (I.lock.upd a J)) (hdef : ∀ r : Fin n, ∃ S, restrict gm s dist r = .ok S)
    (hgood : ∀ u, good u) {loc : ℕ → ℕ → St} {J : Fin n → Hold} (hJ : Holds gm s dist n loc J) {N : ℕ} {o : Option (Mem (ℕ → ℕ → St))}
    (h : Loop (Ode.cond c) (body k Q c) (init k c loc) N o) : (I.world k c).Fine (EndAs gm s dist n o) fun r => .at 0 (init k c (J r)) (J r) := by
  obtain ⟨o', l1, l2, l3⟩ := loop_sim (R := fun u (J : Fin n → Hold) => Holds gm s dist n u J) (P' := I.lock) (good := good) hnorm hupd h (m' := init k c J)
    ⟨hJ, rfl, rfl, rfl, rfl, rfl, rfl⟩ fun _ _ t _ => hgood t.u
  refine (Iter.C118_lockstep hn hind l1).mono fun t ht => ?_
  cases o with
  | none =>
    rw [l2 rfl] at ht
    exact ht
  | some m =>
    obtain ⟨m', rfl, hs⟩ := l3 m rfl
    intro r
    refine ⟨view m' r, ht r, hs.step, hs.resi, hs.resiold, hs.initres, hs.cfl, hs.log, fun l hl => ?_⟩
    obtain ⟨S, hS⟩ := hdef r
    show (m'.u r).arr l = _
    rw [hs.u r S hS, rankArray, if_pos (by simpa only [localSize, hS] using hl)]

theorem rank_defined (he : ∀ loc r, r < n → (rankEval P gm s dist n loc r).isSome) (r : Fin n) : (rankDisc P gm s dist n r).isSome ∧ ∃ S, restrict gm s dist r = .ok S := by
  have := he 0 r r.2
  unfold rankEval at this
  unfold rankDisc
  cases hS : restrict gm s dist r with
  | ok S =>
    simp only [hS] at this ⊢
    cases hs : topological S.mesh with
    | ok s' => exact ⟨rfl, S, rfl⟩
    | _ => simp [hs] at this
  | _ => simp [hS] at this

/-- C118, explicit solver: for every number of processes, mesh, assignment of cells to processes, settings with which the processes can evaluate, configuration and initial state. However fast
the processes proceed relative to each other, none waits for ever, every execution ends, and all processes end as the loop of all in step does. -/
theorem C118_explicit (hn : 0 < n) (he : ∀ loc r, r < n → (rankEval P gm s dist n loc r).isSome) {c : Conf} {loc : ℕ → ℕ → St} {J : Fin n → Hold} (hJ : Holds gm s dist n loc J) :
    (∃ N o, Loop (Ode.cond c) (body forwardEuler (several P gm s dist n) c) (init forwardEuler c loc) N o) ∧
    ∀ N o, Loop (Ode.cond c) (body forwardEuler (several P gm s dist n) c) (init forwardEuler c loc) N o →
      ((explicitIter P gm s dist n).world forwardEuler c).Fine (EndAs gm s dist n o) fun r => .at 0 (init forwardEuler c (J r)) (J r) := by
  refine ⟨loop_total forwardEuler (several P gm s dist n) c loc, fun N o hl => ?_⟩
  refine endAs_of hn (fun _ _ _ _ => rfl) (good := fun _ => True) (fun u K _ hK => ?_) (fun a u K _ hK => ?_) (fun r => (rank_defined he r).2) (fun _ => trivial) hJ hl
  · exact sum_energy (he u) hK fun r => summed_eq hK r
  · refine holds_received (P := P) (v := fun q => (explicitIter P gm s dist n).send 1 q a ((explicitIter P gm s dist n).run a K 1 q)) (fun r => (rank_defined he r).1) (fun r l hl => ?_) fun r => rfl
    obtain ⟨⟨D, o⟩, hD⟩ := Option.isSome_iff_exists.1 (he u r r.2)
    have hD' := (evalHeld_eq hK r).trans hD
    obtain ⟨S, h1, -⟩ := rankDisc_of_eval hD'
    obtain ⟨h2, h3, h4⟩ := rankDisc_size h1
    have e1 : (explicitIter P gm s dist n).send 1 r a ((explicitIter P gm s dist n).run a K 1 r) =
        euler D a o (ghostAdd gm s dist n (rankRes P gm s dist n u) r) (K r).arr := by
      rw [← summed_eq hK r]
      show (match evalHeld P gm s dist n r (K r).arr with
        | some (D, o) => euler D a o (ghostAdd gm s dist n (allOf n fun q => resHeld P gm s dist n q (K q)) r) (K r).arr
        | none => (K r).arr) = _
      rw [hD']
    have hlm : l < S.mesh.nelem := h4 ▸ hl
    rw [e1]
    simp only [several, hD, euler, h3, if_pos hlm]
    rw [hK r S h2, rankArray, if_pos hlm]

/-- C118, implicit solver: the same for every flux Jacobian, relaxation and linear solver, whether its solutions are exact or not. -/
theorem C118_implicit (hn : 0 < n) (he : ∀ loc r, r < n → (rankEval P gm s dist n loc r).isSome) (hj : ∀ r, r < n → rankJOk P gm s dist n r) (J : St → St → V2 → FJ) (relax : St → St → ℝ)
    {ksp : (ℕ × ℕ → Blk (Fin 4)) → (ℕ → ℕ → St) → ℕ → ℕ → St} (hk : ∀ A b b', (∀ q, q < n → b q = b' q) → ∀ r, r < n → ksp A b r = ksp A b' r) {c : Conf} {loc : ℕ → ℕ → St}
    {K : Fin n → Hold} (hK : Holds gm s dist n loc K) :
    (∃ N o, Loop (Ode.cond c) (body backwardEuler (implicits P gm s dist n J relax ksp) c) (init backwardEuler c loc) N o) ∧
    ∀ N o, Loop (Ode.cond c) (body backwardEuler (implicits P gm s dist n J relax ksp) c) (init backwardEuler c loc) N o →
      ((implicitIter P gm s dist n J relax ksp).world backwardEuler c).Fine (EndAs gm s dist n o) fun r => .at 0 (init backwardEuler c (K r)) (K r) := by
  refine ⟨loop_total backwardEuler (implicits P gm s dist n J relax ksp) c loc, fun N o hl => ?_⟩
  have hind : ∀ a b K q, (implicitIter P gm s dist n J relax ksp).energy q ((implicitIter P gm s dist n J relax ksp).run a K 3 q) =
      (implicitIter P gm s dist n J relax ksp).energy q ((implicitIter P gm s dist n J relax ksp).run b K 3 q) := fun a b K q => by
    have h1 : ∀ a, ((implicitIter P gm s dist n J relax ksp).run a K 3 q).res = ghostAdd gm s dist n (allOf n fun q => resHeld P gm s dist n q (K q)) q := fun a => rfl
    have h2 : ∀ l l' : Hold, l.res = l'.res → energyHeld P gm s dist n q l = energyHeld P gm s dist n q l' := fun l l' h => by unfold energyHeld; rw [h]
    exact h2 _ _ ((h1 a).trans (h1 b).symm)
  refine endAs_of hn hind (good := fun _ => True) (fun u K _ hK => ?_) (fun a u K _ hK => ?_) (fun r => (rank_defined he r).2) (fun _ => trivial) hK hl
  · simp only [implicits]
    rw [if_pos hj]
    exact sum_energy (he u) hK fun r => summed_eq hK r
  · set I := implicitIter P gm s dist n J relax ksp with hI
    refine holds_received (P := P) (v := fun q => (I.send 2 q a (I.run a K 2 q)).1) (fun r => (rank_defined he r).1) (fun r l hl => ?_) fun r => rfl
    obtain ⟨⟨D, o⟩, hD⟩ := Option.isSome_iff_exists.1 (he u r r.2)
    obtain ⟨S, h1, -⟩ := rankDisc_of_eval ((evalHeld_eq hK r).trans hD)
    obtain ⟨h2, h3, h4⟩ := rankDisc_size h1
    have hlm : l < S.mesh.nelem := h4 ▸ hl
    have hsys : ∀ q : Fin n, sysHeld P gm s dist n J q (I.run a K 1 q) a = rankSys P gm s dist n J u a q := fun q => by
      funext x
      have harr : (I.run a K 1 q).arr = (K q).arr := rfl
      unfold sysHeld rankSys rankDisc
      rw [harr]
      cases hS : restrict gm s dist q with
      | ok S =>
        simp only
        cases hs : topological S.mesh with
        | ok s' =>
          simp only [hK q S hS]
          cases (P.rank gm s dist n q S s').residual1 (rankArray gm s dist n u q S) 0 <;> rfl
        | _ => rfl
      | _ => rfl
    have hres : ∀ q : Fin n, (I.run a K 1 q).res = ghostAdd gm s dist n (rankRes P gm s dist n u) q := fun q => summed_eq hK q
    have hdu : (I.run a K 2 r).du = ksp (sysAll P gm s dist n J u a) (ghostAdd gm s dist n (rankRes P gm s dist n u)) r := by
      have e : (I.run a K 2 r).du = ksp (fun x => ∑ q : Fin n, sysHeld P gm s dist n J q (I.run a K 1 q) a x) (allOf n fun q => (I.run a K 1 q).res) r := rfl
      rw [e, hk _ _ (ghostAdd gm s dist n (rankRes P gm s dist n u)) (fun q hq => allOf_of (fun q => hres q) hq) r r.2]
      congr 1
      funext x
      simp only [hsys]
      rw [sysAll, Finset.sum_range]
    have e1 : (I.send 2 r a (I.run a K 2 r)).1 = relaxed D.G.m.nelem relax (I.run a K 2 r).du (K r).arr := by
      show (match rankDisc P gm s dist n r with
        | some (_, D) => relaxed D.G.m.nelem relax (I.run a K 2 r).du (K r).arr
        | none => (K r).arr) = _
      rw [h1]
    rw [e1, hdu]
    simp only [implicits, hD, relaxed, h3, if_pos hlm]
    rw [hK r S h2, rankArray, if_pos hlm]

/-- Ranks of a conforming mesh whose boundary conditions are complete can evaluate. -/
theorem rank_evals (hc : Conforming gm) (hcn : gm.nconnface = 0) (ht : gm.nbtag ≤ 4) (h : topological gm = .ok s) (hz : NoZeroFace gm) (hall : AllRegistered gm s dist)
    (hd : ∀ g, g < gm.nelem → dist g < n) (hmono : ∀ i j, i < j → j < gm.nelem → dist i ≤ dist j) (P : Settings) :
    ((P.disc gm s 0).BcOk → ∀ loc r, r < n → (rankEval P gm s dist n loc r).isSome) ∧ ((P.disc gm s 0).BcJOk → ∀ r, r < n → rankJOk P gm s dist n r) := by
  have key : ∀ r, ∃ S s', restrict gm s dist r = .ok S ∧ topological S.mesh = .ok s' ∧ (P.rank gm s dist n r S s').G.Ok ∧
      ∃ τ, DiscCopy (P.disc gm s 0) (P.rank gm s dist n r S s') (rowCell S) τ := fun r => by
    obtain ⟨S, hS, -, hcon, -⟩ := restrict_spec hc hcn ht h dist r
    obtain ⟨s', hs'⟩ := sub_topological hc hcn ht h hS
    have hpos : ∀ ic, ic < S.mesh.nconnface → position gm.nelem dist (S.mesh.connface ic 3) = S.mesh.connface ic 3 := fun ic hic => by
      obtain ⟨g, j, k, r1, r2, -, -, r5, -⟩ := hcon.row ic hic
      rw [r5]; exact position_id_iff.2 hmono j r2.2.1.1
    obtain ⟨hok, τ, hcp⟩ := rank_copy hc hcn ht h hz hall hd P hS hpos hs'
    exact ⟨S, s', hS, hs', hok, τ, hcp⟩
  refine ⟨fun hb loc r _ => ?_, fun hb r _ => ?_⟩
  · obtain ⟨S, s', hS, hs', hok, τ, hcp⟩ := key r
    simp only [rankEval, hS, hs']
    unfold Disc.residual1
    rw [if_pos (hcp.bcOk hok hb)]
    rfl
  · obtain ⟨S, s', hS, hs', hok, τ, hcp⟩ := key r
    simp only [rankJOk, hS, hs']
    exact bcJOk_copy hok hcp hb

/-- How processes end as a single process with the whole mesh does whose loop ends with `o`: with its control variables, and its solution at their cells. -/
def EndAsOne (gm : Mesh) (s : FState) (dist : ℕ → ℕ) (n : ℕ) (o : Option (Mem (ℕ → St))) (t : Fin n → Pst Hold) : Prop :=
  match o with
  | none => ∀ r, t r = .ended none
  | some m => ∀ r, ∃ m', t r = .ended (some m') ∧ m'.step = m.step ∧ m'.resi = m.resi ∧ m'.initres = m.initres ∧ m'.log = m.log ∧
      ∀ S, restrict gm s dist r = .ok S → ∀ l g : ℕ, S.cells[l]? = some g → m'.u.arr l = m.u g

/-- C118 and C88 together: processes running at their own pace end as the single process does: with its exception, or with its number of iterations, norms and CFL numbers and its solution at
their cells. Missing for the full claim: assignments of cells that are not in the order of cell numbers (`C88_refuted`). -/
theorem C118_single_partial (hc : Conforming gm) (hcn : gm.nconnface = 0) (ht : gm.nbtag ≤ 4) (h : topological gm = .ok s) (hz : NoZeroFace gm) (hall : AllRegistered gm s dist)
    (hd : ∀ g, g < gm.nelem → dist g < n) (hmono : ∀ i j, i < j → j < gm.nelem → dist i ≤ dist j) (P : Settings) (hb : (P.disc gm s 0).BcOk) (hg : 4 ≤ 3 * P.gas.g) (hn : 0 < n)
    {w : ℕ → St} {loc : ℕ → ℕ → St} (hl : Represents gm s dist loc w) {J : Fin n → Hold} (hJ : Holds gm s dist n loc J) {c : Conf} {k : ℕ} {o : Option (Mem (ℕ → St))}
    (hrun : Loop (Ode.cond c) (body forwardEuler (single (P.disc gm s 0)) c) (init forwardEuler c w) k o)
    (hadm : ∀ j, j < k → ∀ m, traj forwardEuler (single (P.disc gm s 0)) c w j = some m → ∀ i, i < gm.nelem → Adm P.gas (m.u i)) :
    ((explicitIter P gm s dist n).world forwardEuler c).Fine (EndAsOne gm s dist n o) fun r => .at 0 (init forwardEuler c (J r)) (J r) := by
  obtain ⟨o', l1, l2, l3⟩ := loop_sim (R := fun (u : ℕ → St) (u' : ℕ → ℕ → St) => Represents gm s dist u' u) (good := fun u => ∀ i, i < gm.nelem → Adm P.gas (u i))
    (fun u u' hgd hR => (C88_iteration_partial hc hcn ht h hz hall hd hmono P hb hg hgd hR 0).1)
    (fun a u u' hgd hR => (C88_iteration_partial hc hcn ht h hz hall hd hmono P hb hg hgd hR a).2) hrun (m' := init forwardEuler c loc)
    ⟨hl, rfl, rfl, rfl, rfl, rfl, rfl⟩ (fun j hj t ht => hadm j hj t (by rw [traj_iterate]; exact ht))
  refine ((C118_explicit hn ((rank_evals hc hcn ht h hz hall hd hmono P).1 hb) hJ).2 k o' l1).mono fun t hend => ?_
  cases o with
  | none =>
    rw [l2 rfl] at hend
    exact hend
  | some m =>
    obtain ⟨m', rfl, hs⟩ := l3 m rfl
    intro r
    obtain ⟨x, x1, x2, x3, x4, x5, x6, x7, x8⟩ := hend r
    refine ⟨x, x1, x2.trans hs.step, x3.trans hs.resi, x5.trans hs.initres, x7.trans hs.log, fun S hS l g hlg => ?_⟩
    rw [x8 l (by simp only [localSize, hS]; exact (cells_lt hc hcn ht h hS hlg).1)]
    exact hs.u r S hS l g hlg

end runs

/-! ### The square cut by its diagonals, on two ranks -/

/-- What the ranks hold of a distributed solution. -/
noncomputable def heldOf (gm : Mesh) (s : FState) (dist : ℕ → ℕ) (n : ℕ) (loc : ℕ → ℕ → St) (r : Fin n) : Hold :=
  ⟨match restrict gm s dist r with
    | .ok S => rankArray gm s dist n loc r S
    | _ => 0, 0, 0⟩

theorem holds_heldOf (gm : Mesh) (s : FState) (dist : ℕ → ℕ) (n : ℕ) (loc : ℕ → ℕ → St) : Holds gm s dist n loc (heldOf gm s dist n loc) := fun r S hS => by
  simp only [heldOf, hS]

/-- Hypotheses of `C118_explicit` and `C118_implicit` are met: four triangles on two ranks, gas at rest that is denser in one cell, every configuration; a linear solver that gives back the
right-hand side. -/
example (c : Conf) (relax : St → St → ℝ) : ∃ s, topological FV.Geo.cross = .ok s ∧
    (∃ N o, Loop (Ode.cond c) (body forwardEuler (several (air1 (rest 1)) FV.Geo.cross s (fun i => i / 2) 2) c) (init forwardEuler c (split FV.Geo.cross s (fun i => i / 2) bump)) N o) ∧
    ∃ N o, Loop (Ode.cond c) (body backwardEuler (implicits (air1 (rest 1)) FV.Geo.cross s (fun i => i / 2) 2 (llfJac air) relax fun _ b => b) c)
      (init backwardEuler c (split FV.Geo.cross s (fun i => i / 2) bump)) N o := by
  obtain ⟨s, hs, -⟩ := FV.Geo.cross_topological
  have hne : FV.Geo.cross.nelem = 4 := by decide +kernel
  have hev := rank_evals (n := 2) cross_conforming rfl (by decide +kernel) hs FV.Geo.cross_nozero (cross_all hs _) (dist := fun i => i / 2)
    (fun g hg => by show g / 2 < 2; omega) (fun i j h _ => Nat.div_le_div_right h.le) (air1 (rest 1))
  exact ⟨s, hs, (C118_explicit two_pos (hev.1 fun k _ => rfl) (holds_heldOf _ _ _ _ _)).1,
    (C118_implicit two_pos (hev.1 fun k _ => rfl) (hev.2 fun k _ => ⟨_, rfl, rfl⟩) (llfJac air) relax (fun _ _ _ h r hr => h r hr) (holds_heldOf _ _ _ _ _)).1⟩

/-- Hypotheses of `C118_single_partial` are met, and it applies to every configuration that allows at most one iteration. -/
example {tol c0 c1 : ℝ} : ∃ s, topological FV.Geo.cross = .ok s ∧ ∃ k o, Loop (Ode.cond ⟨tol, 1, c0, c1⟩) (body forwardEuler (single ((air1 (rest 1)).disc FV.Geo.cross s 0)) ⟨tol, 1, c0, c1⟩)
      (init forwardEuler ⟨tol, 1, c0, c1⟩ bump) k o ∧
    ((explicitIter (air1 (rest 1)) FV.Geo.cross s (fun i => i / 2) 2).world forwardEuler ⟨tol, 1, c0, c1⟩).Fine (EndAsOne FV.Geo.cross s (fun i => i / 2) 2 o)
      fun r => .at 0 (init forwardEuler ⟨tol, 1, c0, c1⟩ (heldOf FV.Geo.cross s (fun i => i / 2) 2 (split FV.Geo.cross s (fun i => i / 2) bump) r))
        (heldOf FV.Geo.cross s (fun i => i / 2) 2 (split FV.Geo.cross s (fun i => i / 2) bump) r) := by
  obtain ⟨s, hs, -⟩ := FV.Geo.cross_topological
  have hne : FV.Geo.cross.nelem = 4 := by decide +kernel
  obtain ⟨⟨k, out, hrun⟩, hbound⟩ := C56_terminates forwardEuler (single ((air1 (rest 1)).disc FV.Geo.cross s 0)) ⟨tol, 1, c0, c1⟩ bump
  have hk : k ≤ 1 := by
    have := (hbound k out hrun).1
    simp at this
    exact this
  rw [Solve, if_neg (by norm_num)] at hrun
  obtain ⟨o, hloop, -⟩ := hrun
  refine ⟨s, hs, k, o, hloop, C118_single_partial cross_conforming rfl (by decide +kernel) hs FV.Geo.cross_nozero (cross_all hs _)
    (fun g hg => by show g / 2 < 2; omega) (fun i j h _ => Nat.div_le_div_right h.le) (air1 (rest 1)) (fun k _ => rfl)
    (by norm_num [air1, air]) two_pos (split_represents _ _ _ bump) (holds_heldOf _ _ _ _ _) hloop fun j hj m hm i hi => ?_⟩
  obtain rfl : j = 0 := by omega
  cases hm
  exact bump_adm i

end Par
end FVENS
