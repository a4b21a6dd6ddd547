import Verif.Par.AsyncRun
import Verif.Par.SecondOrder

/-!
# The second-order steady solvers on processes running at their own pace (C118)

Evaluating the second-order residual takes two more exchanges: ghost rows of the gradients, and states at interface faces (src/spatial/flow_spatial.cpp:710-788). A process keeps what it
received, and the previous contents of its arrays, which the next evaluation may read.
-/

namespace FVENS
namespace Par

open Msh FV Flux Ode
open Finset (range)

/-- What a process holds with the second-order discretisation: in addition, what the other processes provided and the contents of the arrays kept between evaluations (`gradvec`, `uface`). -/
structure Hold2 extends Hold where
  env : Disc.Env

section world
variable (P : Settings) (gm : Mesh) (s : FState) (dist : ℕ → ℕ) (n : ℕ) (gs : GradScheme) (R : ReconScheme)

/-- First interface face of rank `r`, src/mesh/mesh.cpp:739. -/
noncomputable def connStart (r : ℕ) : ℕ := match rankDisc P gm s dist n r with
  | some (S, D) => S.mesh.nbface + D.G.ni
  | none => 0

/-- States at the interface faces of rank `r` after an exchange of the left states `v`, src/linalg/tracevector.cpp:214-330: each comes from the process named in the interface record, from that
process' interface face with the same global number. -/
noncomputable def facesGot (v : Fin n → ℕ → St) (r : ℕ) (k : ℕ) : St :=
  if connStart P gm s dist n r ≤ k then
    match (subTab gm s dist r)[k - connStart P gm s dist n r]? with
    | some (q, g) => allOf n v q (connStart P gm s dist n q + (subTab gm s dist q).idxOf (r, g))
    | none => 0
  else 0

/-- Ghost rows of the gradients of rank `r` after a forward ghost update, src/spatial/flow_spatial.cpp:711-717, 725-729, 784-787. -/
noncomputable def gradsGot (v : Fin n → ℕ → Gr) (r : ℕ) (i : ℕ) : Gr := (ghostAfter gm s dist n (allOf n v) r (i - localSize gm s dist r)).getD 0

/-- Gradients computed by rank `r`, src/spatial/flow_spatial.cpp:702-707. -/
noncomputable def gradsHeld (r : ℕ) (l : Hold2) : ℕ → Gr := match rankDisc P gm s dist n r with
  | some (_, D) => D.grads2 gs l.env l.arr
  | none => 0

/-- Left states rank `r` sends, src/spatial/flow_spatial.cpp:719-738. -/
noncomputable def leftHeld (r : ℕ) (l : Hold2) : ℕ → St := match rankDisc P gm s dist n r with
  | some (_, D) => match D.rec2 gs R l.env l.arr with
    | some a => fun k => D.gas.consOfPrim (a (true, k))
    | none => 0
  | none => 0

/-- Evaluation by rank `r` of what it holds, src/ode/aodesolver.cpp:179-189, 421-450. -/
noncomputable def evalHeld2 (r : ℕ) (l : Hold2) : Option (Disc × Disc.Out) :=
  (rankDisc P gm s dist n r).bind fun x => (x.2.residual2 gs R l.env l.arr 0).map fun o => (x.2, o)

/-- Residual of what rank `r` holds. -/
noncomputable def resHeld2 (r : ℕ) (l : Hold2) : ℕ → St := match evalHeld2 P gm s dist n gs R r l with
  | some (_, o) => o.res
  | none => 0

/-- Data after the update of the solution: the arrays kept between evaluations have the contents the evaluation left. -/
noncomputable def kept (r : ℕ) (l : Hold2) (x : ℕ → St) : Hold2 :=
  { l with
    arr := x
    env := { l.env with
      gold := l.env.gg
      old := match evalHeld2 P gm s dist n gs R r l with
        | some (_, o) => fun x => if x.1 then o.uL x.2 else o.uR x.2
        | none => l.env.old } }

/-- Iteration of the explicit solver with the second-order discretisation, src/ode/aodesolver.cpp:177-253 and src/spatial/flow_spatial.cpp:700-816: 0: ghost rows of the gradients; 1: states at
interface faces; 2: ghost blocks of the residual are added to their owners; 3: the solution is updated and its ghost blocks are sent. Exchange 0 ends after exchange 1 unless reconstruction is by
WENO; what is exchanged is the same. Where a boundary condition is missing an evaluation ends the process; not modelled here. -/
noncomputable def explicit2Iter : Iter n Hold2 ((ℕ → St) × (ℕ → Gr)) where
  p := 4
  send := fun j r a l => match j with
    | 0 => (0, gradsHeld P gm s dist n gs r l)
    | 1 => (leftHeld P gm s dist n gs R r l, 0)
    | 2 => (resHeld2 P gm s dist n gs R r l, 0)
    | _ + 3 => (match evalHeld2 P gm s dist n gs R r l with
      | some (D, o) => euler D a o l.res l.arr
      | none => l.arr, 0)
  exch := fun j v r => match j with
    | 0 => (0, gradsGot gm s dist n (fun q => (v q).2) r)
    | 1 => (facesGot P gm s dist n (fun q => (v q).1) r, 0)
    | 2 => (ghostAdd gm s dist n (allOf n fun q => (v q).1) r, 0)
    | _ + 3 => (fwdGot P gm s dist n (fun q => (v q).1) r, 0)
  recv := fun j r _ l x => match j with
    | 0 => { l with env := { l.env with gg := x.2 } }
    | 1 => { l with env := { l.env with exch := x.1 } }
    | 2 => { l with res := x.1 }
    | _ + 3 => kept P gm s dist n gs R r l x.1
  energy := fun r l => energyHeld P gm s dist n r l.toHold

/-- Blocks rank `r` adds to the matrix from what it holds. -/
noncomputable def sysHeld2 (J : St → St → V2 → FJ) (r : ℕ) (l : Hold2) (a : ℝ) (x : ℕ × ℕ) : Blk (Fin 4) :=
  match rankDisc P gm s dist n r with
  | some (S, D) => match D.residual2 gs R l.env l.arr 0 with
    | some o => sysPart D J (rankCol S) (fun l => S.cells.getD l 0) l.arr o a x
    | none => 0
  | none => 0

/-- Iteration of the implicit solver with the second-order discretisation, src/ode/aodesolver.cpp:419-559 and src/spatial/flow_spatial.cpp:700-816: 0 to 2 as in `explicit2Iter`; 3: the matrix is
assembled and the system solved; 4: the solution is updated and its ghost blocks are sent. -/
noncomputable def implicit2Iter (J : St → St → V2 → FJ) (relax : St → St → ℝ) (ksp : (ℕ × ℕ → Blk (Fin 4)) → (ℕ → ℕ → St) → ℕ → ℕ → St) :
    Iter n Hold2 ((ℕ → St) × (ℕ → Gr) × (ℕ × ℕ → Blk (Fin 4))) where
  p := 5
  send := fun j r a l => match j with
    | 0 => (0, gradsHeld P gm s dist n gs r l, 0)
    | 1 => (leftHeld P gm s dist n gs R r l, 0, 0)
    | 2 => (resHeld2 P gm s dist n gs R r l, 0, 0)
    | 3 => (l.res, 0, sysHeld2 P gm s dist n gs R J r l a)
    | _ + 4 => (match rankDisc P gm s dist n r with
      | some (_, D) => relaxed D.G.m.nelem relax l.du l.arr
      | none => l.arr, 0, 0)
  exch := fun j v r => match j with
    | 0 => (0, gradsGot gm s dist n (fun q => (v q).2.1) r, 0)
    | 1 => (facesGot P gm s dist n (fun q => (v q).1) r, 0, 0)
    | 2 => (ghostAdd gm s dist n (allOf n fun q => (v q).1) r, 0, 0)
    | 3 => (ksp (fun x => ∑ q, (v q).2.2 x) (allOf n fun q => (v q).1) r, 0, 0)
    | _ + 4 => (fwdGot P gm s dist n (fun q => (v q).1) r, 0, 0)
  recv := fun j r _ l x => match j with
    | 0 => { l with env := { l.env with gg := x.2.1 } }
    | 1 => { l with env := { l.env with exch := x.1 } }
    | 2 => { l with res := x.1 }
    | 3 => { l with du := x.1 }
    | _ + 4 => kept P gm s dist n gs R r l x.1
  energy := fun r l => energyHeld P gm s dist n r l.toHold

/-- The processes hold the distributed solution `loc`, with ghost blocks up to date; whatever their other arrays contain. -/
def Holds2 (loc : ℕ → ℕ → St) (J : Fin n → Hold2) : Prop := Holds gm s dist n loc fun r => (J r).toHold

/-- What rank `r` holds after the exchanges of an evaluation. -/
noncomputable def evalEnv (J : Fin n → Hold2) (r : Fin n) : Disc.Env :=
  let gg := gradsGot gm s dist n (fun q => gradsHeld P gm s dist n gs q (J q))
  { (J r).env with
    gg := gg r
    exch := facesGot P gm s dist n (fun q => leftHeld P gm s dist n gs R q { J q with env := { (J q).env with gg := gg q } }) r }

/-- The same for all numbers; those that are not processes have received nothing. -/
noncomputable def evalEnvs (J : Fin n → Hold2) (r : ℕ) : Disc.Env := if h : r < n then evalEnv P gm s dist n gs R J ⟨r, h⟩ else ⟨0, 0, 0, 0⟩

end world

section lemmas
variable {P : Settings} {gm : Mesh} {s : FState} {dist : ℕ → ℕ} {n : ℕ}

/-- The exchange of face states as one operation is what every execution of the message protocol amounts to: for all interface tables that agree between ranks, all left states and every
interleaving of sends and deliveries, once rank `r` has completed an exchange its interface faces have the states `facesGot`. -/
theorem C118_faces (hsym : SymTab n (subTab gm s dist)) {Q : Setup St} (hQn : Q.n = n) (hQt : Q.tab = subTab gm s dist) (hQf : ∀ q, q < n → Q.fstart q = connStart P gm s dist n q)
    {v : Fin n → ℕ → St} (hQl : ∀ (q : Fin n) t ib k, Q.left q t ib k = v q k) {c : Config (List ℕ ⊕ List St)} (hc : Reach Q.prog c) {t : ℕ} (ht : 1 ≤ t) {r : ℕ} (hr : r < n)
    (hdone : Completed c r t) (right : ℕ → St) :
    ∃ right', Q.after c r t right = some right' ∧ ∀ k, right' k = if ∃ ic, ic < (subTab gm s dist r).length ∧ k = connStart P gm s dist n r + ic then facesGot P gm s dist n v r k else right k := by
  obtain ⟨right', h1, h2, h3⟩ := C40_exchange (S := Q) (by rw [hQn, hQt]; exact hsym) hc ht hdone right
  refine ⟨right', h1, fun k => ?_⟩
  split_ifs with hk
  · obtain ⟨ic, hic, rfl⟩ := hk
    obtain ⟨x, hx⟩ : ∃ x, (subTab gm s dist r)[ic]? = some x := ⟨_, List.getElem?_eq_getElem hic⟩
    obtain ⟨q, g⟩ := x
    obtain ⟨jc, hj, e⟩ := h2 ic q g (by rw [hQt]; exact hx)
    have hq : q < n := hsym.lt r q g (List.mem_of_getElem? hx)
    rw [hQt] at hj
    obtain ⟨hjl, hje⟩ := List.getElem?_eq_some_iff.1 hj
    have hidx : (subTab gm s dist q).idxOf (r, g) = jc := by rw [← hje]; exact (hsym.nodup q).idxOf_getElem jc hjl
    rw [hQf r hr, hQf q hq, hQl ⟨q, hq⟩] at e
    rw [e, facesGot, if_pos (Nat.le_add_right _ _), Nat.add_sub_cancel_left, hx]
    simp only [hidx, allOf, hq, dif_pos]
  · refine h3 k fun ic hic e => hk ⟨ic, by rw [← hQt]; exact hic, by rw [e, hQf r hr]⟩

section evaluation
variable (hc : Conforming gm) (hcn : gm.nconnface = 0) (ht : gm.nbtag ≤ 4) (h : topological gm = .ok s) (hall : AllRegistered gm s dist) (hd : ∀ g, g < gm.nelem → dist g < n)
  (hmono : ∀ i j, i < j → j < gm.nelem → dist i ≤ dist j) {gs : GradScheme} {R : ReconScheme} {S : ℕ → Sub} {s' : ℕ → FState} (hS : ∀ r, restrict gm s dist r = .ok (S r))
  (hs' : ∀ r, topological (S r).mesh = .ok (s' r))
include hS hs'

theorem rankDisc_eq (r : ℕ) : rankDisc P gm s dist n r = some (S r, P.rank gm s dist n r (S r) (s' r)) := by
  simp only [rankDisc, hS r, hs' r]

include hc hcn ht h hall hd hmono

/-- The exchanges provide what an evaluation is to receive. -/
theorem received_evalEnv {loc : ℕ → ℕ → St} {J : Fin n → Hold2} (hJ : Holds2 gm s dist n loc J) :
    Received gm s dist n gs R S (fun r => P.rank gm s dist n r (S r) (s' r)) (fun r => rankArray gm s dist n loc r (S r)) (evalEnvs P gm s dist n gs R J) := by
  have hdisc := fun r => rankDisc_eq (P := P) (n := n) hS hs' r
  have hsz : ∀ q, localSize gm s dist q = (S q).mesh.nelem := fun q => by simp only [localSize, hS q]
  have harr : ∀ r : Fin n, (J r).arr = rankArray gm s dist n loc r (S r) := fun r => hJ r (S r) (hS r)
  set E : ℕ → Disc.Env := evalEnvs P gm s dist n gs R J with hE
  have hEr : ∀ r : Fin n, E r = evalEnv P gm s dist n gs R J r := fun r => by simp only [hE, evalEnvs, r.2, dif_pos]
  refine ⟨fun r hr ic hic => ?_, ?_⟩
  · obtain ⟨w, hw⟩ := represents_some hc hcn ht h (dist := dist) fun q l => (P.rank gm s dist n q (S q) (s' q)).grads2 gs (E q) (rankArray gm s dist n loc q (S q)) l
    obtain ⟨S', hS', -, hcon, -⟩ := restrict_spec hc hcn ht h dist r
    rw [hS r] at hS'; cases hS'
    obtain ⟨g, j, k, r1, r2, -, -, r5, -⟩ := hcon.row ic hic
    have hx := ghostAfter_row hc hcn ht h hd hw (hS r) hic (by rw [r5]; exact position_id_iff.2 hmono j r2.2.1.1)
    have e : ghostAfter gm s dist n (allOf n fun q => gradsHeld P gm s dist n gs q (J q)) r ic =
        ghostAfter gm s dist n (fun q l => (P.rank gm s dist n q (S q) (s' q)).grads2 gs (E q) (rankArray gm s dist n loc q (S q)) l) r ic := by
      simp only [ghostAfter, hS r, if_pos hic]
      refine blockAt_ranks (fun q hq l hl => ?_) _
      rw [hsz] at hl
      have hl : l < (P.rank gm s dist n q (S q) (s' q)).G.m.nelem := hl
      simp only [allOf, hq, dif_pos, gradsHeld, hdisc, harr ⟨q, hq⟩, Disc.grads2, Disc.gradients, if_pos hl]
    rw [hx, Option.some.injEq, hEr ⟨r, hr⟩]
    show _ = gradsGot gm s dist n (fun q => gradsHeld P gm s dist n gs q (J q)) r ((S r).mesh.nelem + ic)
    rw [gradsGot, hsz, Nat.add_sub_cancel_left, e, hx, Option.getD_some]
  · let left : ℕ → ℕ → (ℕ → ℕ → Option (List ℕ ⊕ List St)) → ℕ → St := fun q _ _ k =>
      match (P.rank gm s dist n q (S q) (s' q)).rec2 gs R (E q) (rankArray gm s dist n loc q (S q)) with
      | some a => (P.rank gm s dist n q (S q) (s' q)).gas.consOfPrim (a (true, k))
      | none => 0
    let Q : Setup St := ⟨n, subTab gm s dist, fun q => (S q).mesh.nbface + (P.rank gm s dist n q (S q) (s' q)).G.ni, 2, left⟩
    have hsym := C40_tables hc hcn ht h hall hd
    obtain ⟨c, hc1, hc2⟩ := C40_completes (S := Q) hsym
    have hcomp : ∀ r, r < n → Completed c r 1 := fun r hr => by
      obtain ⟨-, e2, e3⟩ := hc2 r hr
      change 2 ≤ _ at e3
      rcases lt_or_eq_of_le (show 1 ≤ (c.rank r).phase by omega) with h | h
      · exact Or.inl h
      · exact Or.inr ⟨h, e2⟩
    have hstart : ∀ q, connStart P gm s dist n q = (S q).mesh.nbface + (P.rank gm s dist n q (S q) (s' q)).G.ni := fun q => by simp only [connStart, hdisc]
    refine ⟨Q, c, 1, rfl, rfl, fun _ => rfl, fun q a ha t ib k => ?_, hc1, le_rfl, fun r hr => ⟨hcomp r hr, (E r).exch, ?_⟩⟩
    · show left q t ib k = _
      simp only [left]
      rw [ha]
    · have hleft : ∀ (q : Fin n) t ib k, Q.left q t ib k =
          leftHeld P gm s dist n gs R q { J q with env := { (J q).env with gg := gradsGot gm s dist n (fun q => gradsHeld P gm s dist n gs q (J q)) q } } k := fun q t ib k => by
        show left q t ib k = _
        have e : ∀ D : Disc, D.rec2 gs R (E q) (rankArray gm s dist n loc q (S q)) =
            D.rec2 gs R { (J q).env with gg := gradsGot gm s dist n (fun q => gradsHeld P gm s dist n gs q (J q)) q } (J q).arr := fun D => by
          rw [hEr q, harr q]; rfl
        simp only [left, leftHeld, hdisc]
        rw [e]
        cases (P.rank gm s dist n q (S q) (s' q)).rec2 gs R { (J q).env with gg := gradsGot gm s dist n (fun q => gradsHeld P gm s dist n gs q (J q)) q } (J q).arr <;> rfl
      obtain ⟨right', e1, e2⟩ := C118_faces (P := P) hsym (Q := Q) rfl rfl (fun q _ => (hstart q).symm) hleft hc1 le_rfl hr (hcomp r hr) (E r).exch
      rw [e1, Option.some.injEq]
      funext k
      rw [e2, hEr ⟨r, hr⟩]
      split_ifs <;> rfl

omit hc hcn ht h hall hd hmono in
/-- A process that has received what it needs evaluates what `rankEval2` says it evaluates. -/
theorem evalHeld2_eq {loc : ℕ → ℕ → St} {E : ℕ → Disc.Env} {r : ℕ} {l : Hold2} (ha : l.arr = rankArray gm s dist n loc r (S r)) (he : l.env = E r) :
    evalHeld2 P gm s dist n gs R r l = rankEval2 P gm s dist n gs R (fun _ => E) loc r := by
  unfold evalHeld2
  rw [rankDisc_eq hS hs']
  simp only [Option.bind_some, rankEval2, hS r, hs' r, ha, he]

omit hc hcn ht h hall hd hmono in
theorem sum_energy2 {loc : ℕ → ℕ → St} {E : (ℕ → ℕ → St) → ℕ → Disc.Env} (he : ∀ r, r < n → (rankEval2 P gm s dist n gs R E loc r).isSome) {K : Fin n → Hold}
    (hK : ∀ r, (K r).res = ghostAdd gm s dist n (evRes (rankEval2 P gm s dist n gs R E) loc) r) :
    rootOf (∑ q : Fin n, energyHeld P gm s dist n q (K q)) = (solvers gm s dist n (rankEval2 P gm s dist n gs R E)).norm loc := by
  simp only [solvers]
  rw [if_pos he, Finset.sum_range]
  congr 1
  refine Finset.sum_congr rfl fun q _ => ?_
  obtain ⟨⟨D, o⟩, hD⟩ := Option.isSome_iff_exists.1 (he q q.2)
  have hD' := hD
  simp only [rankEval2, hS, hs', Option.map_eq_some_iff] at hD'
  obtain ⟨o', -, e⟩ := hD'
  rw [hD]
  simp only [energyHeld, rankDisc_eq hS hs', hK, (Prod.mk.inj e).1]

variable {loc : ℕ → ℕ → St} {J : Fin n → Hold2} (hJ : Holds2 gm s dist n loc J)

include hJ
omit hc hcn ht h hall hd hmono in
theorem eval_run {r : Fin n} {l : Hold2} (ha : l.arr = (J r).arr) (he : l.env = evalEnv P gm s dist n gs R J r) :
    evalHeld2 P gm s dist n gs R r l = rankEval2 P gm s dist n gs R (fun _ => evalEnvs P gm s dist n gs R J) loc r :=
  evalHeld2_eq hS hs' (ha.trans (hJ r (S r) (hS r))) (by simp only [he, evalEnvs, r.2, dif_pos])

omit hc hcn ht h hall hd hmono in
/-- Residuals after the reverse ghost update. -/
theorem summed_run {l : Fin n → Hold2} (ha : ∀ q, (l q).arr = (J q).arr) (he : ∀ q, (l q).env = evalEnv P gm s dist n gs R J q) (r : Fin n) :
    ghostAdd gm s dist n (allOf n fun q => resHeld2 P gm s dist n gs R q (l q)) r = ghostAdd gm s dist n (evRes (rankEval2 P gm s dist n gs R fun _ => evalEnvs P gm s dist n gs R J) loc) r :=
  ghostAdd_ranks (fun _ hq => allOf_of (fun q => by
    unfold resHeld2 evRes
    rw [eval_run hS hs' hJ (ha q) (he q)]
    cases rankEval2 P gm s dist n gs R (fun _ => evalEnvs P gm s dist n gs R J) loc q <;> rfl) hq) r.2

omit hc hcn ht h hall hd hmono in
/-- One explicit iteration of the processes in step. -/
theorem explicit2_lock (he : ∀ r, r < n → (rankEval2 P gm s dist n gs R (fun _ => evalEnvs P gm s dist n gs R J) loc r).isSome) :
    (explicit2Iter P gm s dist n gs R).lock.norm J = (solvers gm s dist n (rankEval2 P gm s dist n gs R fun _ => evalEnvs P gm s dist n gs R J)).norm loc ∧
    ∀ a, Holds2 gm s dist n ((solvers gm s dist n (rankEval2 P gm s dist n gs R fun _ => evalEnvs P gm s dist n gs R J)).upd a loc) ((explicit2Iter P gm s dist n gs R).lock.upd a J) := by
  set I := explicit2Iter P gm s dist n gs R with hI
  have hsum : ∀ a r, (I.run a J 3 r).res = ghostAdd gm s dist n (evRes (rankEval2 P gm s dist n gs R fun _ => evalEnvs P gm s dist n gs R J) loc) r := fun a r =>
    summed_run hS hs' hJ (l := fun q => I.run a J 2 q) (fun _ => rfl) (fun _ => rfl) r
  refine ⟨sum_energy2 hS hs' he fun r => hsum 0 r, fun a => ?_⟩
  refine holds_received (P := P) (v := fun q => (I.send 3 q a (I.run a J 3 q)).1) (fun r => by rw [rankDisc_eq hS hs']; rfl) (fun r l hl => ?_) fun r => rfl
  obtain ⟨⟨D, o⟩, hD⟩ := Option.isSome_iff_exists.1 (he r r.2)
  have hD' := hD
  simp only [rankEval2, hS, hs', Option.map_eq_some_iff] at hD'
  obtain ⟨o', -, e⟩ := hD'
  have hm : D.G.m = (S r).mesh := by rw [← (Prod.mk.inj e).1]; rfl
  have hlm : l < (S r).mesh.nelem := by simpa only [localSize, hS] using hl
  have e1 : (I.send 3 r a (I.run a J 3 r)).1 = euler D a o (I.run a J 3 r).res (J r).arr := by
    show (match evalHeld2 P gm s dist n gs R r (I.run a J 3 r) with
      | some (D, o) => euler D a o (I.run a J 3 r).res (J r).arr
      | none => (J r).arr) = _
    rw [eval_run hS hs' hJ (l := I.run a J 3 r) rfl rfl, hD]
  rw [e1, hsum]
  simp only [solvers, hD, euler, hm, if_pos hlm]
  rw [show (J r).arr = rankArray gm s dist n loc r (S r) from hJ r (S r) (hS r), rankArray, if_pos hlm]

omit hc hcn ht h hall hd hmono in
/-- One implicit iteration of the processes in step. -/
theorem implicit2_lock (he : ∀ r, r < n → (rankEval2 P gm s dist n gs R (fun _ => evalEnvs P gm s dist n gs R J) loc r).isSome) (hj : ∀ r, r < n → rankJOk P gm s dist n r)
    (JF : St → St → V2 → FJ) (relax : St → St → ℝ) {ksp : (ℕ × ℕ → Blk (Fin 4)) → (ℕ → ℕ → St) → ℕ → ℕ → St}
    (hk : ∀ A b b', (∀ q, q < n → b q = b' q) → ∀ r, r < n → ksp A b r = ksp A b' r) :
    (implicit2Iter P gm s dist n gs R JF relax ksp).lock.norm J = (solversI P gm s dist n (rankEval2 P gm s dist n gs R fun _ => evalEnvs P gm s dist n gs R J) JF relax ksp).norm loc ∧
    ∀ a, Holds2 gm s dist n ((solversI P gm s dist n (rankEval2 P gm s dist n gs R fun _ => evalEnvs P gm s dist n gs R J) JF relax ksp).upd a loc)
      ((implicit2Iter P gm s dist n gs R JF relax ksp).lock.upd a J) := by
  set I := implicit2Iter P gm s dist n gs R JF relax ksp with hI
  set ev := rankEval2 P gm s dist n gs R fun _ => evalEnvs P gm s dist n gs R J with hev
  have hsum : ∀ a r, (I.run a J 3 r).res = ghostAdd gm s dist n (evRes ev loc) r := fun a r =>
    summed_run hS hs' hJ (l := fun q => I.run a J 2 q) (fun _ => rfl) (fun _ => rfl) r
  constructor
  · simp only [solversI]
    rw [if_pos hj]
    exact sum_energy2 hS hs' he (K := fun q => (I.run 0 J 5 q).toHold) fun r => hsum 0 r
  · intro a
    refine holds_received (P := P) (v := fun q => (I.send 4 q a (I.run a J 4 q)).1) (fun r => by rw [rankDisc_eq hS hs']; rfl) (fun r l hl => ?_) fun r => rfl
    obtain ⟨⟨D, o⟩, hD⟩ := Option.isSome_iff_exists.1 (he r r.2)
    have hm : D = P.rank gm s dist n r (S r) (s' r) := by
      have hD' := hD
      simp only [hev, rankEval2, hS, hs', Option.map_eq_some_iff] at hD'
      obtain ⟨o', -, e⟩ := hD'
      exact (Prod.mk.inj e).1.symm
    have hlm : l < (S r).mesh.nelem := by simpa only [localSize, hS] using hl
    have hsys : ∀ q : Fin n, sysHeld2 P gm s dist n gs R JF q (I.run a J 3 q) a = evSys P gm s dist n ev JF loc a q := fun q => by
      funext x
      have harr : (I.run a J 3 q).arr = rankArray gm s dist n loc q (S q) := hJ q (S q) (hS q)
      have henv : (I.run a J 3 q).env = evalEnvs P gm s dist n gs R J q := by
        simp only [evalEnvs, q.2, dif_pos]; rfl
      simp only [sysHeld2, evSys, rankDisc_eq hS hs', hS, hs', hev, rankEval2, harr, henv]
      cases (P.rank gm s dist n q (S q) (s' q)).residual2 gs R (evalEnvs P gm s dist n gs R J q) (rankArray gm s dist n loc q (S q)) 0 <;> rfl
    have hdu : (I.run a J 4 r).du = ksp (evSysAll P gm s dist n ev JF loc a) (ghostAdd gm s dist n (evRes ev loc)) r := by
      have e : (I.run a J 4 r).du = ksp (fun x => ∑ q : Fin n, sysHeld2 P gm s dist n gs R JF q (I.run a J 3 q) a x) (allOf n fun q => (I.run a J 3 q).res) r := rfl
      rw [e, hk _ _ (ghostAdd gm s dist n (evRes ev loc)) (fun q hq => allOf_of (fun q => hsum a q) hq) r r.2]
      congr 1
      funext x
      simp only [hsys]
      rw [evSysAll, Finset.sum_range]
    have e1 : (I.send 4 r a (I.run a J 4 r)).1 = relaxed (S r).mesh.nelem relax (I.run a J 4 r).du (J r).arr := by
      show (match rankDisc P gm s dist n r with
        | some (_, D) => relaxed D.G.m.nelem relax (I.run a J 4 r).du (J r).arr
        | none => (J r).arr) = _
      rw [rankDisc_eq hS hs']
      rfl
    rw [e1, hdu]
    have hD2 : D.G.m = (S r).mesh := by rw [hm]; rfl
    simp only [solversI, hD, relaxed, hD2, if_pos hlm]
    rw [show (J r).arr = rankArray gm s dist n loc r (S r) from hJ r (S r) (hS r), rankArray, if_pos hlm]

end evaluation

end lemmas

section runs
variable {P : Settings} {gm : Mesh} {s : FState} {dist : ℕ → ℕ} {n : ℕ} {gs : GradScheme} {R : ReconScheme}

/-- C118, explicit solver with the second-order discretisation: for every number of processes, mesh, assignment of cells, settings, gradient scheme, reconstruction, configuration and contents of
the processes' arrays: however fast the processes proceed relative to each other, none waits for ever, every execution ends, and it ends as the loop of all in step does. -/
theorem C118_second_explicit (hn : 0 < n) (c : Conf) (J : Fin n → Hold2) :
    (∃ N o, Loop (Ode.cond c) (body forwardEuler (explicit2Iter P gm s dist n gs R).lock c) (init forwardEuler c J) N o) ∧
    ∀ N o, Loop (Ode.cond c) (body forwardEuler (explicit2Iter P gm s dist n gs R).lock c) (init forwardEuler c J) N o →
      ((explicit2Iter P gm s dist n gs R).world forwardEuler c).Fine (fun t => ∀ r, t r = .ended (o.map fun m => view m r)) fun r => .at 0 (init forwardEuler c (J r)) (J r) :=
  ⟨loop_total _ _ _ _, fun _ _ hl => Iter.C118_lockstep hn (fun _ _ _ _ => rfl) hl⟩

/-- C118, implicit solver with the second-order discretisation: the same for every flux Jacobian, relaxation and linear solver. -/
theorem C118_second_implicit (hn : 0 < n) (JF : St → St → V2 → FJ) (relax : St → St → ℝ) (ksp : (ℕ × ℕ → Blk (Fin 4)) → (ℕ → ℕ → St) → ℕ → ℕ → St) (c : Conf) (J : Fin n → Hold2) :
    (∃ N o, Loop (Ode.cond c) (body backwardEuler (implicit2Iter P gm s dist n gs R JF relax ksp).lock c) (init backwardEuler c J) N o) ∧
    ∀ N o, Loop (Ode.cond c) (body backwardEuler (implicit2Iter P gm s dist n gs R JF relax ksp).lock c) (init backwardEuler c J) N o →
      ((implicit2Iter P gm s dist n gs R JF relax ksp).world backwardEuler c).Fine (fun t => ∀ r, t r = .ended (o.map fun m => view m r)) fun r => .at 0 (init backwardEuler c (J r)) (J r) := by
  refine ⟨loop_total _ _ _ _, fun _ _ hl => Iter.C118_lockstep hn (fun a b K q => ?_) hl⟩
  have h1 : ∀ a, ((implicit2Iter P gm s dist n gs R JF relax ksp).run a K 5 q).res =
      ghostAdd gm s dist n (allOf n fun q => resHeld2 P gm s dist n gs R q ((implicit2Iter P gm s dist n gs R JF relax ksp).run 0 K 2 q)) q := fun a => rfl
  have h2 : ∀ l l' : Hold, l.res = l'.res → energyHeld P gm s dist n q l = energyHeld P gm s dist n q l' := fun l l' h => by unfold energyHeld; rw [h]
  exact h2 _ _ ((h1 a).trans (h1 b).symm)

/-- How processes end as a single process with the whole mesh does whose loop ends with `o`. -/
def EndAsOne2 (gm : Mesh) (s : FState) (dist : ℕ → ℕ) (n : ℕ) (o : Option (Mem (ℕ → St))) (t : Fin n → Pst Hold2) : Prop :=
  match o with
  | none => ∀ r, t r = .ended none
  | some m => ∀ r, ∃ m', t r = .ended (some m') ∧ m'.step = m.step ∧ m'.resi = m.resi ∧ m'.initres = m.initres ∧ m'.log = m.log ∧
      ∀ S, restrict gm s dist r = .ok S → ∀ l g : ℕ, S.cells[l]? = some g → m'.u.arr l = m.u g

theorem endAsOne2_of (hc : Conforming gm) (hcn : gm.nconnface = 0) (ht : gm.nbtag ≤ 4) (h : topological gm = .ok s) {M' : Mem (Fin n → Hold2)} {m : Mem (ℕ → St)}
    (hs : Same (fun (u : ℕ → St) (J : Fin n → Hold2) => ∃ loc, Represents gm s dist loc u ∧ Holds2 gm s dist n loc J) m M') {t : Fin n → Pst Hold2}
    (hend : ∀ r, t r = .ended (some (view M' r))) : EndAsOne2 gm s dist n (some m) t := by
  intro r
  refine ⟨view M' r, hend r, hs.step, hs.resi, hs.initres, hs.log, fun S hS l g hlg => ?_⟩
  obtain ⟨loc, h1, h2⟩ := hs.u
  show (M'.u r).arr l = _
  rw [show (M'.u r).arr = rankArray gm s dist n loc r S from h2 r S hS, rankArray, if_pos (cells_lt hc hcn ht h hS hlg).1]
  exact h1 r S hS l g hlg

section single
variable (hc : Conforming gm) (hcn : gm.nconnface = 0) (ht : gm.nbtag ≤ 4) (h : topological gm = .ok s) (hz : NoZeroFace gm) (hall : AllRegistered gm s dist)
  (hd : ∀ g, g < gm.nelem → dist g < n) (hmono : ∀ i j, i < j → j < gm.nelem → dist i ≤ dist j) (P : Settings) (hn : 0 < n)
include hc hcn ht h hz hall hd hmono hn

/-- C118 and C88 together, second order (any gradient scheme and reconstruction, inviscid or viscous): processes running at their own pace, with any previous contents of their arrays, end as
the single process does: with its exception, or with its number of iterations, norms and CFL numbers and its solution at their cells. Missing for the full claim: assignments of cells that are not
in the order of cell numbers (`C88_refuted`). -/
theorem C118_second_single_partial (E0 : (ℕ → St) → Disc.Env) {w : ℕ → St} {loc : ℕ → ℕ → St} (hl : Represents gm s dist loc w) {J : Fin n → Hold2} (hJ : Holds2 gm s dist n loc J)
    {c : Conf} {k : ℕ} {o : Option (Mem (ℕ → St))}
    (hrun : Loop (Ode.cond c) (body forwardEuler (solver (P.disc gm s 0) fun u => (P.disc gm s 0).residual2 gs R (E0 u) u 0) c) (init forwardEuler c w) k o)
    (hgood : ∀ j, j < k → ∀ m, traj forwardEuler (solver (P.disc gm s 0) fun u => (P.disc gm s 0).residual2 gs R (E0 u) u 0) c w j = some m →
      ∃ o, (P.disc gm s 0).residual2 gs R (E0 m.u) m.u 0 = some o ∧
        ∀ k, k < (P.disc gm s 0).G.nface → (P.disc gm s 0).G.inner k → (P.disc gm s 0).SwapOk (o.uR k) (o.uL k)) :
    ((explicit2Iter P gm s dist n gs R).world forwardEuler c).Fine (EndAsOne2 gm s dist n o) fun r => .at 0 (init forwardEuler c (J r)) (J r) := by
  choose S hS _ using fun r => restrict_spec hc hcn ht h dist r
  choose s' hs' using fun r => sub_topological hc hcn ht h (hS r)
  have key : ∀ u J, (∃ o, (P.disc gm s 0).residual2 gs R (E0 u) u 0 = some o ∧
      ∀ k, k < (P.disc gm s 0).G.nface → (P.disc gm s 0).G.inner k → (P.disc gm s 0).SwapOk (o.uR k) (o.uL k)) →
      (∃ loc, Represents gm s dist loc u ∧ Holds2 gm s dist n loc J) → ∃ loc, Represents gm s dist loc u ∧ Holds2 gm s dist n loc J ∧
        Agree (P.disc gm s 0) gm s dist n (fun u => (P.disc gm s 0).residual2 gs R (E0 u) u 0) (rankEval2 P gm s dist n gs R fun _ => evalEnvs P gm s dist n gs R J) u loc ∧
        ∀ r, r < n → (rankEval2 P gm s dist n gs R (fun _ => evalEnvs P gm s dist n gs R J) loc r).isSome := by
    rintro u J hgd ⟨loc, h1, h2⟩
    have ha := agree_second hc hcn ht h hd hz hall hmono P (E0 := E0) h1 hS hs' (E := fun _ => evalEnvs P gm s dist n gs R J)
      (received_evalEnv hc hcn ht h hall hd hmono hS hs' h2) hgd
    refine ⟨loc, h1, h2, ha, fun r hr => ?_⟩
    obtain ⟨_, -, hr'⟩ := ha
    obtain ⟨_, D, o', -, e, -⟩ := hr' r hr
    rw [e]; rfl
  obtain ⟨o', l1, l2, l3⟩ := loop_sim (R := fun (u : ℕ → St) (J : Fin n → Hold2) => ∃ loc, Represents gm s dist loc u ∧ Holds2 gm s dist n loc J)
    (P' := (explicit2Iter P gm s dist n gs R).lock)
    (good := fun u => ∃ o, (P.disc gm s 0).residual2 gs R (E0 u) u 0 = some o ∧
      ∀ k, k < (P.disc gm s 0).G.nface → (P.disc gm s 0).G.inner k → (P.disc gm s 0).SwapOk (o.uR k) (o.uL k))
    (fun u J hgd hR => by
      obtain ⟨loc, h1, h2, h3, h4⟩ := key u J hgd hR
      rw [(explicit2_lock hS hs' h2 h4).1]
      exact (agree_iteration hc hcn ht h hd rfl h3 h1 0).1)
    (fun a u J hgd hR => by
      obtain ⟨loc, h1, h2, h3, h4⟩ := key u J hgd hR
      exact ⟨_, (agree_iteration hc hcn ht h hd rfl h3 h1 a).2, (explicit2_lock hS hs' h2 h4).2 a⟩)
    hrun (m' := init forwardEuler c J) ⟨⟨loc, hl, hJ⟩, rfl, rfl, rfl, rfl, rfl, rfl⟩ (fun j hj t ht => hgood j hj t (by rw [traj_iterate]; exact ht))
  refine ((C118_second_explicit hn c J).2 k o' l1).mono fun t hend => ?_
  cases o with
  | none =>
    rw [l2 rfl] at hend
    exact hend
  | some m =>
    obtain ⟨m', rfl, hs⟩ := l3 m rfl
    exact endAsOne2_of hc hcn ht h hs hend

/-- C118 and C96 together, second order: the same for the implicit solver with exact linear solvers, where the single process' system matrices are regular. Missing for the full claim:
assignments of cells that are not in the order of cell numbers (`C82_refuted`, `C88_refuted`), inexact linear solvers. -/
theorem C118_second_implicit_single_partial (hbj : (P.disc gm s 0).BcJOk) (E0 : (ℕ → St) → Disc.Env) {JF : St → St → V2 → FJ} (relax : St → St → ℝ)
    {ksp : (ℕ × ℕ → Blk (Fin 4)) → (ℕ → St) → ℕ → St} (hk : Exact gm.nelem ksp) {ksp' : (ℕ × ℕ → Blk (Fin 4)) → (ℕ → ℕ → St) → ℕ → ℕ → St} (hk' : ExactOn gm s dist n ksp')
    (hloc : ∀ A b b', (∀ q, q < n → b q = b' q) → ∀ r, r < n → ksp' A b r = ksp' A b' r)
    {w : ℕ → St} {loc : ℕ → ℕ → St} (hl : Represents gm s dist loc w) {J : Fin n → Hold2} (hJ : Holds2 gm s dist n loc J) {c : Conf} {k : ℕ} {o : Option (Mem (ℕ → St))}
    (hrun : Loop (Ode.cond c) (body backwardEuler (solverI (P.disc gm s 0) (fun u => (P.disc gm s 0).residual2 gs R (E0 u) u 0) JF relax ksp) c) (init backwardEuler c w) k o)
    (hgood : ∀ j, j < k → ∀ m, traj backwardEuler (solverI (P.disc gm s 0) (fun u => (P.disc gm s 0).residual2 gs R (E0 u) u 0) JF relax ksp) c w j = some m →
      (∀ i j f, i < gm.nelem → j < gm.nelem → f < gm.nnode i → Across gm (i, f) (.cell j) → Mirror JF (m.u i) (m.u j) (fNrm (nodeA gm i f) (nodeB gm i f))) ∧
      ∃ o, (P.disc gm s 0).residual2 gs R (E0 m.u) m.u 0 = some o ∧
        (∀ k, k < (P.disc gm s 0).G.nface → (P.disc gm s 0).G.inner k → (P.disc gm s 0).SwapOk (o.uR k) (o.uL k)) ∧
        Regular gm.nelem (sysOne (P.disc gm s 0) JF m.u o (nextCfl backwardEuler c m))) :
    ((implicit2Iter P gm s dist n gs R JF relax ksp').world backwardEuler c).Fine (EndAsOne2 gm s dist n o) fun r => .at 0 (init backwardEuler c (J r)) (J r) := by
  choose S hS _ using fun r => restrict_spec hc hcn ht h dist r
  choose s' hs' using fun r => sub_topological hc hcn ht h (hS r)
  have hj := fun r hr => (rank_evals (n := n) hc hcn ht h hz hall hd hmono P).2 hbj r hr
  have key : ∀ u J, (∃ o, (P.disc gm s 0).residual2 gs R (E0 u) u 0 = some o ∧
      ∀ k, k < (P.disc gm s 0).G.nface → (P.disc gm s 0).G.inner k → (P.disc gm s 0).SwapOk (o.uR k) (o.uL k)) →
      (∃ loc, Represents gm s dist loc u ∧ Holds2 gm s dist n loc J) → ∃ loc, Represents gm s dist loc u ∧ Holds2 gm s dist n loc J ∧
        Agree (P.disc gm s 0) gm s dist n (fun u => (P.disc gm s 0).residual2 gs R (E0 u) u 0) (rankEval2 P gm s dist n gs R fun _ => evalEnvs P gm s dist n gs R J) u loc ∧
        ∀ r, r < n → (rankEval2 P gm s dist n gs R (fun _ => evalEnvs P gm s dist n gs R J) loc r).isSome := by
    rintro u J hgd ⟨loc, h1, h2⟩
    have ha := agree_second hc hcn ht h hd hz hall hmono P (E0 := E0) h1 hS hs' (E := fun _ => evalEnvs P gm s dist n gs R J)
      (received_evalEnv hc hcn ht h hall hd hmono hS hs' h2) hgd
    refine ⟨loc, h1, h2, ha, fun r hr => ?_⟩
    obtain ⟨_, -, hr'⟩ := ha
    obtain ⟨_, D, o', -, e, -⟩ := hr' r hr
    rw [e]; rfl
  have hDr : ∀ (E : (ℕ → ℕ → St) → ℕ → Disc.Env) loc r T t, restrict gm s dist r = .ok T → topological T.mesh = .ok t → ∀ D o,
      rankEval2 P gm s dist n gs R E loc r = some (D, o) → D = P.rank gm s dist n r T t := by
    intro E loc r T t h1 h2 D o h3
    simp only [rankEval2, h1, h2, Option.map_eq_some_iff] at h3
    obtain ⟨a, -, h4⟩ := h3
    exact (Prod.mk.inj h4).1.symm
  obtain ⟨o', l1, l2, l3⟩ := loop_sim_cfl (R := fun (u : ℕ → St) (J : Fin n → Hold2) => ∃ loc, Represents gm s dist loc u ∧ Holds2 gm s dist n loc J)
    (P' := (implicit2Iter P gm s dist n gs R JF relax ksp').lock)
    (good := fun m =>
      (∀ i j f, i < gm.nelem → j < gm.nelem → f < gm.nnode i → Across gm (i, f) (.cell j) → Mirror JF (m.u i) (m.u j) (fNrm (nodeA gm i f) (nodeB gm i f))) ∧
      ∃ o, (P.disc gm s 0).residual2 gs R (E0 m.u) m.u 0 = some o ∧
        (∀ k, k < (P.disc gm s 0).G.nface → (P.disc gm s 0).G.inner k → (P.disc gm s 0).SwapOk (o.uR k) (o.uL k)) ∧
        Regular gm.nelem (sysOne (P.disc gm s 0) JF m.u o (nextCfl backwardEuler c m)))
    (fun m J hgd hR => by
      obtain ⟨g1, o, g2, g3, g4⟩ := hgd
      obtain ⟨loc, h1, h2, h3, h4⟩ := key m.u J ⟨o, g2, g3⟩ hR
      rw [(implicit2_lock hS hs' h2 h4 hj JF relax hloc).1]
      exact (agree_implicit hc hcn ht h hd hz hall hmono P h3 (hDr _ loc) hbj g1 h1 relax hk hk').1)
    (fun m J hgd hR => by
      obtain ⟨g1, o, g2, g3, g4⟩ := hgd
      obtain ⟨loc, h1, h2, h3, h4⟩ := key m.u J ⟨o, g2, g3⟩ hR
      refine ⟨_, (agree_implicit hc hcn ht h hd hz hall hmono P h3 (hDr _ loc) hbj g1 h1 relax hk hk').2 _ fun o' ho' => ?_,
        (implicit2_lock hS hs' h2 h4 hj JF relax hloc).2 _⟩
      rw [g2] at ho'; cases ho'
      exact g4)
    hrun (m' := init backwardEuler c J) ⟨⟨loc, hl, hJ⟩, rfl, rfl, rfl, rfl, rfl, rfl⟩ (fun j hj t ht => hgood j hj t (by rw [traj_iterate]; exact ht))
  refine ((C118_second_implicit hn JF relax ksp' c J).2 k o' l1).mono fun t hend => ?_
  cases o with
  | none =>
    rw [l2 rfl] at hend
    exact hend
  | some m =>
    obtain ⟨m', rfl, hs⟩ := l3 m rfl
    exact endAsOne2_of hc hcn ht h hs hend

/-- C118 and C96 together, first order: processes running the implicit solver at their own pace end as the single process does, with exact linear solvers and where the single process' system
matrices are regular. Missing for the full claim: assignments of cells that are not in the order of cell numbers (`C82_refuted`, `C88_refuted`), inexact linear solvers. -/
theorem C118_implicit_single_partial (hb : (P.disc gm s 0).BcOk) (hg : 4 ≤ 3 * P.gas.g) (hbj : (P.disc gm s 0).BcJOk) {JF : St → St → V2 → FJ} (relax : St → St → ℝ)
    {ksp : (ℕ × ℕ → Blk (Fin 4)) → (ℕ → St) → ℕ → St} (hk : Exact gm.nelem ksp) {ksp' : (ℕ × ℕ → Blk (Fin 4)) → (ℕ → ℕ → St) → ℕ → ℕ → St} (hk' : ExactOn gm s dist n ksp')
    (hloc : ∀ A b b', (∀ q, q < n → b q = b' q) → ∀ r, r < n → ksp' A b r = ksp' A b' r)
    {w : ℕ → St} {loc : ℕ → ℕ → St} (hl : Represents gm s dist loc w) {J : Fin n → Hold} (hJ : Holds gm s dist n loc J) {c : Conf} {k : ℕ} {o : Option (Mem (ℕ → St))}
    (hrun : Loop (Ode.cond c) (body backwardEuler (implicit (P.disc gm s 0) JF relax ksp) c) (init backwardEuler c w) k o)
    (hgood : ∀ j, j < k → ∀ m, traj backwardEuler (implicit (P.disc gm s 0) JF relax ksp) c w j = some m → (∀ i, i < gm.nelem → Adm P.gas (m.u i)) ∧
      (∀ i j f, i < gm.nelem → j < gm.nelem → f < gm.nnode i → Across gm (i, f) (.cell j) → Mirror JF (m.u i) (m.u j) (fNrm (nodeA gm i f) (nodeB gm i f))) ∧
      ∀ o, (P.disc gm s 0).residual1 m.u 0 = some o → Regular gm.nelem (sysOne (P.disc gm s 0) JF m.u o (nextCfl backwardEuler c m))) :
    ((implicitIter P gm s dist n JF relax ksp').world backwardEuler c).Fine (EndAsOne gm s dist n o) fun r => .at 0 (init backwardEuler c (J r)) (J r) := by
  obtain ⟨o', l1, l2, l3⟩ := loop_sim_cfl (R := fun (u : ℕ → St) (u' : ℕ → ℕ → St) => Represents gm s dist u' u)
    (good := fun m => (∀ i, i < gm.nelem → Adm P.gas (m.u i)) ∧
      (∀ i j f, i < gm.nelem → j < gm.nelem → f < gm.nnode i → Across gm (i, f) (.cell j) → Mirror JF (m.u i) (m.u j) (fNrm (nodeA gm i f) (nodeB gm i f))) ∧
      ∀ o, (P.disc gm s 0).residual1 m.u 0 = some o → Regular gm.nelem (sysOne (P.disc gm s 0) JF m.u o (nextCfl backwardEuler c m)))
    (fun m u' hgd hR => (C96_iteration_partial hc hcn ht h hz hall hd hmono P hb hg hbj hgd.1 hgd.2.1 hR relax hk hk').1)
    (fun m u' hgd hR => (C96_iteration_partial hc hcn ht h hz hall hd hmono P hb hg hbj hgd.1 hgd.2.1 hR relax hk hk').2 _ hgd.2.2) hrun (m' := init backwardEuler c loc)
    ⟨hl, rfl, rfl, rfl, rfl, rfl, rfl⟩ (fun j hj t ht => hgood j hj t (by rw [traj_iterate]; exact ht))
  have hev := rank_evals (n := n) hc hcn ht h hz hall hd hmono P
  refine ((C118_implicit hn (hev.1 hb) (hev.2 hbj) JF relax hloc hJ).2 k o' l1).mono fun t hend => ?_
  cases o with
  | none =>
    rw [l2 rfl] at hend
    exact hend
  | some m =>
    obtain ⟨m', rfl, hs⟩ := l3 m rfl
    intro r
    obtain ⟨x, x1, x2, x3, x4, x5, x6, x7, x8⟩ := hend r
    refine ⟨x, x1, x2.trans hs.step, x3.trans hs.resi, x5.trans hs.initres, x7.trans hs.log, fun S hS l g hlg => ?_⟩
    rw [x8 l (by simp only [localSize, hS]; exact (cells_lt hc hcn ht h hS hlg).1)]
    exact hs.u r S hS l g hlg

end single
end runs

/-! ### The square cut by its diagonals, on two ranks -/

/-- What the ranks hold of a distributed solution; the other arrays contain `E`. -/
noncomputable def heldOf2 (gm : Mesh) (s : FState) (dist : ℕ → ℕ) (n : ℕ) (loc : ℕ → ℕ → St) (E : Disc.Env) (r : Fin n) : Hold2 := ⟨heldOf gm s dist n loc r, E⟩

theorem holds_heldOf2 (gm : Mesh) (s : FState) (dist : ℕ → ℕ) (n : ℕ) (loc : ℕ → ℕ → St) (E : Disc.Env) : Holds2 gm s dist n loc (heldOf2 gm s dist n loc E) := holds_heldOf gm s dist n loc

/-- Linear solvers that do not look at blocks of processes that do not exist. -/
theorem exactOn_local {gm : Mesh} {s : FState} {dist : ℕ → ℕ} {n : ℕ} {ksp : (ℕ × ℕ → Blk (Fin 4)) → (ℕ → ℕ → St) → ℕ → ℕ → St} (h : ExactOn gm s dist n ksp) :
    ∃ ksp', ExactOn gm s dist n ksp' ∧ ∀ A b b', (∀ q, q < n → b q = b' q) → ∀ r, r < n → ksp' A b r = ksp' A b' r := by
  refine ⟨fun A b => ksp A fun q => if q < n then b q else 0, fun A b hA p hp => ?_, fun A b b' hb r _ => ?_⟩
  · rw [h A _ hA p hp]
    congr 1
    exact blockAt_ranks (fun q hq l _ => by rw [if_pos hq]) p
  · have e : (fun q => if q < n then b q else 0) = fun q => if q < n then b' q else 0 := by
      funext q
      split_ifs with hq
      · exact hb q hq
      · rfl
    simp only [e]

/-- Hypotheses of `C118_faces` are met: cells 0, 1 on rank 0 and 2, 3 on rank 1, any left states. -/
example (v : Fin 2 → ℕ → St) (right : ℕ → St) : ∃ s, topological FV.Geo.cross = .ok s ∧
    ∃ (Q : Setup St) (c : Config (List ℕ ⊕ List St)) (right' : ℕ → St), Reach Q.prog c ∧ Q.after c 1 1 right = some right' ∧ 0 < (subTab FV.Geo.cross s (fun i => i / 2) 1).length ∧
      right' (connStart (air1 (rest 1)) FV.Geo.cross s (fun i => i / 2) 2 1) =
        facesGot (air1 (rest 1)) FV.Geo.cross s (fun i => i / 2) 2 v 1 (connStart (air1 (rest 1)) FV.Geo.cross s (fun i => i / 2) 2 1) := by
  obtain ⟨s, hs, -⟩ := FV.Geo.cross_topological
  have hne : FV.Geo.cross.nelem = 4 := by decide +kernel
  have hsym := C40_tables (n := 2) cross_conforming rfl (by decide +kernel) hs (cross_all hs fun i => i / 2) (fun g hg => by show g / 2 < 2; omega)
  let Q : Setup St := ⟨2, subTab FV.Geo.cross s (fun i => i / 2), connStart (air1 (rest 1)) FV.Geo.cross s (fun i => i / 2) 2, 2, fun q _ _ k => allOf 2 v q k⟩
  obtain ⟨c, hc1, hc2⟩ := C40_completes (S := Q) hsym
  have hcomp : Completed c 1 1 := by
    obtain ⟨-, e2, e3⟩ := hc2 1 (show 1 < 2 by decide)
    change 2 ≤ _ at e3
    rcases lt_or_eq_of_le (show 1 ≤ (c.rank 1).phase by omega) with h | h
    · exact Or.inl h
    · exact Or.inr ⟨h, e2⟩
  have hlen : 0 < (subTab FV.Geo.cross s (fun i => i / 2) 1).length := by
    have hgl : Glued FV.Geo.cross (2, 2) (1, 1) := ⟨⟨by decide +kernel, by decide +kernel⟩, ⟨by decide +kernel, by decide +kernel⟩, by decide, by decide +kernel⟩
    obtain ⟨S, l, ic, hS, -, hic, -⟩ := (cross_all hs (fun i => i / 2) 2 2 1 1 hgl (by decide)).1
    change restrict FV.Geo.cross s (fun i => i / 2) 1 = .ok S at hS
    simp only [subTab, hS, List.length_map, List.length_range]
    omega
  obtain ⟨right', e1, e2⟩ := C118_faces (P := air1 (rest 1)) hsym (Q := Q) rfl rfl (fun _ _ => rfl) (v := v) 
    (fun q t ib k => by show allOf 2 v q k = _; simp only [allOf, q.2, dif_pos])
    hc1 le_rfl (by decide) hcomp right
  refine ⟨s, hs, Q, c, right', hc1, e1, hlen, ?_⟩
  rw [e2, if_pos ⟨0, hlen, rfl⟩]

/-- `C118_second_explicit` and `C118_second_implicit` apply to every configuration: gas at rest that is denser in one cell, MUSCL with Green-Gauss gradients. -/
example (c : Conf) (E : Disc.Env) (relax : St → St → ℝ) : ∃ s, topological FV.Geo.cross = .ok s ∧
    (∃ o : Option (Mem (Fin 2 → Hold2)), ((explicit2Iter (air1 (rest 1)) FV.Geo.cross s (fun i => i / 2) 2 .greenGauss .muscl).world forwardEuler c).Fine (fun t => ∀ r, t r = .ended (o.map fun m => view m r))
      fun r => .at 0 (init forwardEuler c (heldOf2 FV.Geo.cross s (fun i => i / 2) 2 (split FV.Geo.cross s (fun i => i / 2) bump) E r))
        (heldOf2 FV.Geo.cross s (fun i => i / 2) 2 (split FV.Geo.cross s (fun i => i / 2) bump) E r)) ∧
    ∃ o : Option (Mem (Fin 2 → Hold2)), ((implicit2Iter (air1 (rest 1)) FV.Geo.cross s (fun i => i / 2) 2 .greenGauss .muscl (llfJac air) relax fun _ b => b).world backwardEuler c).Fine
      (fun t => ∀ r, t r = .ended (o.map fun m => view m r))
      fun r => .at 0 (init backwardEuler c (heldOf2 FV.Geo.cross s (fun i => i / 2) 2 (split FV.Geo.cross s (fun i => i / 2) bump) E r))
        (heldOf2 FV.Geo.cross s (fun i => i / 2) 2 (split FV.Geo.cross s (fun i => i / 2) bump) E r) := by
  obtain ⟨s, hs, -⟩ := FV.Geo.cross_topological
  obtain ⟨⟨N, o, h1⟩, h2⟩ := C118_second_explicit (P := air1 (rest 1)) (gm := FV.Geo.cross) (s := s) (dist := fun i => i / 2) (gs := .greenGauss) (R := .muscl) two_pos c
    (heldOf2 FV.Geo.cross s (fun i => i / 2) 2 (split FV.Geo.cross s (fun i => i / 2) bump) E)
  obtain ⟨⟨N', o', h1'⟩, h2'⟩ := C118_second_implicit (P := air1 (rest 1)) (gm := FV.Geo.cross) (s := s) (dist := fun i => i / 2) (gs := .greenGauss) (R := .muscl) two_pos
    (llfJac air) relax (fun _ b => b) c (heldOf2 FV.Geo.cross s (fun i => i / 2) 2 (split FV.Geo.cross s (fun i => i / 2) bump) E)
  exact ⟨s, hs, ⟨o, h2 N o h1⟩, o', h2' N' o' h1'⟩

/-- Hypotheses of `C118_second_single_partial` are met: MUSCL with Green-Gauss gradients, every configuration that allows at most one iteration. -/
example {tol c0 c1 : ℝ} (E1 : Disc.Env) : ∃ s, topological FV.Geo.cross = .ok s ∧ ∃ k o,
    Loop (Ode.cond ⟨tol, 1, c0, c1⟩) (body forwardEuler (solver ((air1 (rest 1)).disc FV.Geo.cross s 0) fun u => ((air1 (rest 1)).disc FV.Geo.cross s 0).residual2 .greenGauss .muscl E1 u 0)
      ⟨tol, 1, c0, c1⟩) (init forwardEuler ⟨tol, 1, c0, c1⟩ bump) k o ∧
    ((explicit2Iter (air1 (rest 1)) FV.Geo.cross s (fun i => i / 2) 2 .greenGauss .muscl).world forwardEuler ⟨tol, 1, c0, c1⟩).Fine (EndAsOne2 FV.Geo.cross s (fun i => i / 2) 2 o)
      fun r => .at 0 (init forwardEuler ⟨tol, 1, c0, c1⟩ (heldOf2 FV.Geo.cross s (fun i => i / 2) 2 (split FV.Geo.cross s (fun i => i / 2) bump) E1 r))
        (heldOf2 FV.Geo.cross s (fun i => i / 2) 2 (split FV.Geo.cross s (fun i => i / 2) bump) E1 r) := by
  obtain ⟨s, hs, -⟩ := FV.Geo.cross_topological
  have hne : FV.Geo.cross.nelem = 4 := by decide +kernel
  have hok : ((air1 (rest 1)).disc FV.Geo.cross s 0).G.Ok := ⟨cross_conforming, FV.Geo.cross_nozero, hs⟩
  obtain ⟨o, ho⟩ := residual2_defined hok (fun k _ => rfl) (gs := .greenGauss) (R := .muscl) (show Disc.ReconOk .muscl from trivial)
    (fun h => by rcases h with h | ⟨K, h⟩ <;> cases h) E1 bump 0
  obtain ⟨⟨k, out, hrun⟩, hbound⟩ := C56_terminates forwardEuler
    (solver ((air1 (rest 1)).disc FV.Geo.cross s 0) fun u => ((air1 (rest 1)).disc FV.Geo.cross s 0).residual2 .greenGauss .muscl E1 u 0) ⟨tol, 1, c0, c1⟩ bump
  have hk : k ≤ 1 := by
    have := (hbound k out hrun).1
    simp at this
    exact this
  rw [Solve, if_neg (by norm_num)] at hrun
  obtain ⟨o', hloop, -⟩ := hrun
  refine ⟨s, hs, k, o', hloop, C118_second_single_partial cross_conforming rfl (by decide +kernel) hs FV.Geo.cross_nozero (cross_all hs _)
    (fun g hg => by show g / 2 < 2; omega) (fun i j h _ => Nat.div_le_div_right h.le) (air1 (rest 1)) two_pos (fun _ => E1) (split_represents _ _ _ bump) (holds_heldOf2 _ _ _ _ _ E1) hloop
    fun j hj m hm => ?_⟩
  obtain rfl : j = 0 := by omega
  cases hm
  exact ⟨o, ho, fun k _ _ n _ v => llf_swap air _ _ n v⟩

/-- Hypotheses of `C118_second_implicit_single_partial` are met: linear reconstruction, small CFL number, any relaxation, an exact linear solver, at most one iteration. -/
example (E1 : Disc.Env) (relax : St → St → ℝ) : ∃ s, topological FV.Geo.cross = .ok s ∧ ∃ ksp ksp' c0, 0 < c0 ∧ ExactOn FV.Geo.cross s (fun i => i / 2) 2 ksp' ∧ ∃ k o,
    Loop (Ode.cond ⟨1 / 2, 1, c0, c0⟩) (body backwardEuler (solverI ((air1 (rest 1)).disc FV.Geo.cross s 0)
      (fun u => ((air1 (rest 1)).disc FV.Geo.cross s 0).residual2 .zero .linear E1 u 0) (llfJac air) relax ksp) ⟨1 / 2, 1, c0, c0⟩) (init backwardEuler ⟨1 / 2, 1, c0, c0⟩ bump) k o ∧
    ((implicit2Iter (air1 (rest 1)) FV.Geo.cross s (fun i => i / 2) 2 .zero .linear (llfJac air) relax ksp').world backwardEuler ⟨1 / 2, 1, c0, c0⟩).Fine
      (EndAsOne2 FV.Geo.cross s (fun i => i / 2) 2 o)
      fun r => .at 0 (init backwardEuler ⟨1 / 2, 1, c0, c0⟩ (heldOf2 FV.Geo.cross s (fun i => i / 2) 2 (split FV.Geo.cross s (fun i => i / 2) bump) E1 r))
        (heldOf2 FV.Geo.cross s (fun i => i / 2) 2 (split FV.Geo.cross s (fun i => i / 2) bump) E1 r) := by
  obtain ⟨s, hs, -⟩ := FV.Geo.cross_topological
  have hne : FV.Geo.cross.nelem = 4 := by decide +kernel
  have hd : ∀ g, g < FV.Geo.cross.nelem → g / 2 < 2 := fun g hg => by omega
  have hmono : ∀ i j, i < j → j < FV.Geo.cross.nelem → i / 2 ≤ j / 2 := fun i j h _ => Nat.div_le_div_right h.le
  have hok : ((air1 (rest 1)).disc FV.Geo.cross s 0).G.Ok := ⟨cross_conforming, FV.Geo.cross_nozero, hs⟩
  have hbj : ((air1 (rest 1)).disc FV.Geo.cross s 0).BcJOk := fun k _ => ⟨_, rfl, rfl⟩
  have har : ∀ i, i < FV.Geo.cross.nelem → 0 < ((air1 (rest 1)).disc FV.Geo.cross s 0).G.ar i := fun i hi => by rw [cross_area (by omega)]; norm_num
  obtain ⟨o, ho⟩ := residual2_defined hok (fun k _ => rfl) (gs := .zero) (R := .linear) (show Disc.ReconOk .linear from trivial)
    (fun h => by rcases h with h | ⟨K, h⟩ <;> cases h) E1 bump 0
  have hst : ∀ k, k < ((air1 (rest 1)).disc FV.Geo.cross s 0).G.nface → o.uL k = bump (((air1 (rest 1)).disc FV.Geo.cross s 0).G.face k).left ∧
      (((air1 (rest 1)).disc FV.Geo.cross s 0).G.inner k → o.uR k = bump (((air1 (rest 1)).disc FV.Geo.cross s 0).G.face k).right) := fun k hk =>
    zero_linear_states hok (by norm_num [air1, air, Settings.disc]) (fun i _ => (bump_adm i).rho.ne') ho hk
  obtain ⟨c0, C, hc0, hreg⟩ := C96_small_cfl ((air1 (rest 1)).disc FV.Geo.cross s 0) (llfJac air) bump o har fun i hi =>
    (Disc.C51_positive_bounded hok (air1_gasOk s) (fun k hk => by rw [(hst k hk).1]; exact bump_adm _) (fun k hk hin => by rw [(hst k hk).2 hin]; exact bump_adm _) hi (har i hi)).1
  obtain ⟨ksp, hk⟩ := exact_exists 4
  rw [← hne] at hk
  obtain ⟨ksp1, hk1⟩ := exactOn_exists (n := 2) cross_conforming rfl (by decide +kernel) hs hd hmono
  obtain ⟨ksp', hk', hloc⟩ := exactOn_local hk1
  obtain ⟨⟨k, out, hrun⟩, hbound⟩ := C56_terminates backwardEuler (solverI ((air1 (rest 1)).disc FV.Geo.cross s 0)
    (fun u => ((air1 (rest 1)).disc FV.Geo.cross s 0).residual2 .zero .linear E1 u 0) (llfJac air) relax ksp) ⟨1 / 2, 1, c0, c0⟩ bump
  have hk1 : k ≤ 1 := by
    have := (hbound k out hrun).1
    simp at this
    exact this
  rw [Solve, if_neg (by norm_num)] at hrun
  obtain ⟨o', hloop, -⟩ := hrun
  refine ⟨s, hs, ksp, ksp', c0, hc0, hk', k, o', hloop, C118_second_implicit_single_partial cross_conforming rfl (by decide +kernel) hs FV.Geo.cross_nozero (cross_all hs _) hd hmono
    (air1 (rest 1)) two_pos hbj (fun _ => E1) relax hk hk' hloc (split_represents _ _ _ bump) (holds_heldOf2 _ _ _ _ _ E1) hloop fun j hj m hm => ?_⟩
  obtain rfl : j = 0 := by omega
  cases hm
  refine ⟨fun i j f _ _ _ _ => C83_llf _ _ _ _, o, ho, fun k _ _ n _ v => llf_swap air _ _ n v, ?_⟩
  have e : nextCfl backwardEuler ⟨1 / 2, 1, c0, c0⟩ (init backwardEuler ⟨1 / 2, 1, c0, c0⟩ bump) = c0 := by
    have hr : ∀ a b c d e : ℝ, expRamp a a b c d e = a := fun a b c d e => by
      unfold expRamp
      dsimp only
      generalize (if c > 1 then b * c ^ d else b * c ^ e) = y
      split_ifs with h1 h2
      · rfl
      · rfl
      · linarith
    exact hr _ _ _ _ _
  rw [e]
  exact (hreg c0 hc0 le_rfl).1

/-- Hypotheses of `C118_implicit_single_partial` are met: small CFL number, any relaxation, an exact linear solver, at most one iteration. -/
example (relax : St → St → ℝ) : ∃ s, topological FV.Geo.cross = .ok s ∧ ∃ ksp ksp' c0, 0 < c0 ∧ ExactOn FV.Geo.cross s (fun i => i / 2) 2 ksp' ∧ ∃ k o,
    Loop (Ode.cond ⟨1 / 2, 1, c0, c0⟩) (body backwardEuler (implicit ((air1 (rest 1)).disc FV.Geo.cross s 0) (llfJac air) relax ksp) ⟨1 / 2, 1, c0, c0⟩)
      (init backwardEuler ⟨1 / 2, 1, c0, c0⟩ bump) k o ∧
    ((implicitIter (air1 (rest 1)) FV.Geo.cross s (fun i => i / 2) 2 (llfJac air) relax ksp').world backwardEuler ⟨1 / 2, 1, c0, c0⟩).Fine (EndAsOne FV.Geo.cross s (fun i => i / 2) 2 o)
      fun r => .at 0 (init backwardEuler ⟨1 / 2, 1, c0, c0⟩ (heldOf FV.Geo.cross s (fun i => i / 2) 2 (split FV.Geo.cross s (fun i => i / 2) bump) r))
        (heldOf FV.Geo.cross s (fun i => i / 2) 2 (split FV.Geo.cross s (fun i => i / 2) bump) r) := by
  obtain ⟨s, hs, -⟩ := FV.Geo.cross_topological
  have hne : FV.Geo.cross.nelem = 4 := by decide +kernel
  have hd : ∀ g, g < FV.Geo.cross.nelem → g / 2 < 2 := fun g hg => by omega
  have hmono : ∀ i j, i < j → j < FV.Geo.cross.nelem → i / 2 ≤ j / 2 := fun i j h _ => Nat.div_le_div_right h.le
  have hok : ((air1 (rest 1)).disc FV.Geo.cross s 0).G.Ok := ⟨cross_conforming, FV.Geo.cross_nozero, hs⟩
  have hb : ((air1 (rest 1)).disc FV.Geo.cross s 0).BcOk := fun k _ => rfl
  have hbj : ((air1 (rest 1)).disc FV.Geo.cross s 0).BcJOk := fun k _ => ⟨_, rfl, rfl⟩
  have har : ∀ i, i < FV.Geo.cross.nelem → 0 < ((air1 (rest 1)).disc FV.Geo.cross s 0).G.ar i := fun i hi => by rw [cross_area (by omega)]; norm_num
  obtain ⟨c0, hc0, hreg⟩ := regular_small (u := bump) hok (air1_gasOk s) hb (fun i _ => bump_adm i) har (llfJac air)
  obtain ⟨ksp, hk⟩ := exact_exists 4
  rw [← hne] at hk
  obtain ⟨ksp1, hk1⟩ := exactOn_exists (n := 2) cross_conforming rfl (by decide +kernel) hs hd hmono
  obtain ⟨ksp', hk', hloc⟩ := exactOn_local hk1
  obtain ⟨⟨k, out, hrun⟩, hbound⟩ := C56_terminates backwardEuler (implicit ((air1 (rest 1)).disc FV.Geo.cross s 0) (llfJac air) relax ksp) ⟨1 / 2, 1, c0, c0⟩ bump
  have hk1 : k ≤ 1 := by
    have := (hbound k out hrun).1
    simp at this
    exact this
  rw [Solve, if_neg (by norm_num)] at hrun
  obtain ⟨o', hloop, -⟩ := hrun
  refine ⟨s, hs, ksp, ksp', c0, hc0, hk', k, o', hloop, C118_implicit_single_partial cross_conforming rfl (by decide +kernel) hs FV.Geo.cross_nozero (cross_all hs _) hd hmono
    (air1 (rest 1)) two_pos hb (by norm_num [air1, air]) hbj relax hk hk' hloc (split_represents _ _ _ bump) (holds_heldOf _ _ _ _ _) hloop fun j hj m hm => ?_⟩
  obtain rfl : j = 0 := by omega
  cases hm
  refine ⟨fun i _ => bump_adm i, fun i j f _ _ _ _ => C83_llf _ _ _ _, fun o ho => ?_⟩
  have e : nextCfl backwardEuler ⟨1 / 2, 1, c0, c0⟩ (init backwardEuler ⟨1 / 2, 1, c0, c0⟩ bump) = c0 := by
    have hr : ∀ a b c d e : ℝ, expRamp a a b c d e = a := fun a b c d e => by
      unfold expRamp
      dsimp only
      generalize (if c > 1 then b * c ^ d else b * c ^ e) = y
      split_ifs with h1 h2
      · rfl
      · rfl
      · linarith
    exact hr _ _ _ _ _
  rw [e]
  exact hreg c0 hc0 le_rfl o ho

end Par
end FVENS
