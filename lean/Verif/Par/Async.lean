import Verif.Par.Explicit

/-!
# Processes running at their own pace (C118)

Each process has its own program point and its own copies of the control variables of the loop, and takes its own decisions. Processes meet only in operations in which all take part:
ghost updates of vectors, matrix assembly and linear solve, global sums. Such an operation completes when all processes have entered the same one; a process that waits
in an operation which another never enters waits for ever.

Simplifications: an exchange of ghost values is completed for all processes at once, although a process waits only for its neighbours (removed in `Verif.Par.AsyncNb`); beginning and end of
an exchange are one operation, which gives processes fewer ways to proceed than they have.
-/

namespace FVENS
namespace Par

open Msh FV Flux Ode

/-! ### Semantics -/

/-- What a process does next: computes on its own, enters operation `c` with contribution `v` and goes on with what it receives, or has ended. -/
inductive Act (L V : Type)
  | loc (l : L)
  | coll (c : ℕ) (v : V) (k : V → L)
  | halt

/-- Programs of `n` processes, and what operation `c` hands to each process from the contributions of all. -/
structure World (n : ℕ) (L V : Type) where
  act : Fin n → L → Act L V
  reply : ℕ → (Fin n → V) → Fin n → V

namespace World
variable {n : ℕ} {L V : Type} (W : World n L V)

/-- One step of an execution: some process computes on its own, or an operation completes which all have entered. -/
inductive Step : (Fin n → L) → (Fin n → L) → Prop
  | loc {s r l} : W.act r (s r) = .loc l → Step s (Function.update s r l)
  | coll {s c} (v : Fin n → V) (k : Fin n → V → L) : (∀ r, W.act r (s r) = .coll c (v r) (k r)) → Step s (fun r => k r (W.reply c v r))

/-- All processes have ended. -/
def Ended (s : Fin n → L) : Prop := ∀ r, W.act r (s r) = .halt

/-- Every execution from `s` is finite, and where it cannot be continued `Q` holds. -/
inductive Runs (Q : (Fin n → L) → Prop) : (Fin n → L) → Prop
  | mk {s} : ((¬ ∃ s', W.Step s s') → Q s) → (∀ s', W.Step s s' → Runs Q s') → Runs Q s

/-- Every execution from `s` ends with all processes having ended, and `Q` then holds. -/
def Fine (Q : (Fin n → L) → Prop) (s : Fin n → L) : Prop := W.Runs (fun t => W.Ended t ∧ Q t) s

/-- Every execution from `s` comes to a point where a process waits for ever. -/
def Hangs (s : Fin n → L) : Prop := W.Runs (fun t => ¬ W.Ended t) s

variable {W}

theorem Runs.reach {Q : (Fin n → L) → Prop} {s t : Fin n → L} (h : W.Runs Q s) (hr : Relation.ReflTransGen W.Step s t) : (¬ ∃ t', W.Step t t') → Q t := by
  have : W.Runs Q t := by
    induction hr with
    | refl => exact h
    | tail _ hs ih => cases ih with | mk _ h2 => exact h2 _ hs
  cases this with | mk h1 _ => exact h1

/-- What `Runs` means for infinite executions: there are none. -/
theorem Runs.finite {Q : (Fin n → L) → Prop} {s : Fin n → L} (h : W.Runs Q s) : ¬ ∃ f : ℕ → Fin n → L, f 0 = s ∧ ∀ i, W.Step (f i) (f (i + 1)) := by
  induction h with
  | mk _ _ ih =>
    rintro ⟨f, h0, hf⟩
    subst h0
    exact ih (f 1) (hf 0) ⟨fun i => f (i + 1), rfl, fun i => hf (i + 1)⟩

theorem Runs.ends {Q : (Fin n → L) → Prop} {s : Fin n → L} (h : W.Runs Q s) : ∃ t, Relation.ReflTransGen W.Step s t ∧ (¬ ∃ t', W.Step t t') ∧ Q t := by
  induction h with
  | @mk s h1 _ ih =>
    by_cases he : ∃ s', W.Step s s'
    · obtain ⟨s', hs⟩ := he
      obtain ⟨t, t1, t2, t3⟩ := ih s' hs
      exact ⟨t, .head hs t1, t2, t3⟩
    · exact ⟨s, .refl, he, h1 he⟩

theorem Ended.stuck (hn : 0 < n) {t : Fin n → L} (h : W.Ended t) : ¬ ∃ t', W.Step t t' := by
  rintro ⟨t', hst⟩
  cases hst with
  | loc hl => rw [h] at hl; cases hl
  | coll v k h' => have := h ⟨0, hn⟩; rw [h'] at this; cases this

/-- What `Fine` means for finite executions: as long as not all processes have ended some can proceed, and once all have ended `Q` holds. -/
theorem Fine.reach (hn : 0 < n) {Q : (Fin n → L) → Prop} {s t : Fin n → L} (h : W.Fine Q s) (hr : Relation.ReflTransGen W.Step s t) :
    (W.Ended t → Q t) ∧ (¬ W.Ended t → ∃ t', W.Step t t') :=
  ⟨fun he => (Runs.reach h hr (he.stuck hn)).2, fun he => by
    by_contra hc
    exact he (Runs.reach h hr hc).1⟩

/-- What `Hangs` means: no execution ends. -/
theorem Hangs.never (hn : 0 < n) {s t : Fin n → L} (h : W.Hangs s) (hr : Relation.ReflTransGen W.Step s t) : ¬ W.Ended t :=
  fun he => Runs.reach h hr (he.stuck hn) he

theorem Runs.mono {Q Q' : (Fin n → L) → Prop} {s : Fin n → L} (h : W.Runs Q s) (hq : ∀ t, Q t → Q' t) : W.Runs Q' s := by
  induction h with
  | mk h1 _ ih => exact .mk (fun he => hq _ (h1 he)) ih

theorem Fine.mono {Q Q' : (Fin n → L) → Prop} {s : Fin n → L} (h : W.Fine Q s) (hq : ∀ t, Q t → Q' t) : W.Fine Q' s :=
  Runs.mono h fun _ ht => ⟨ht.1, hq _ ht.2⟩

/-- Process `r` gets from one state to another by so many steps on its own. -/
inductive Own (W : World n L V) (r : Fin n) : ℕ → L → L → Prop
  | refl {l} : Own W r 0 l l
  | step {d l l1 l2} : W.act r l = .loc l1 → Own W r d l1 l2 → Own W r (d + 1) l l2

/-- Processes that work on their own up to the same state `b` of all, where none can work on its own: it is enough to consider `b`. -/
theorem runs_of_own {Q : (Fin n → L) → Prop} {g b : Fin n → L} {d : Fin n → ℕ} (hb : ∀ r, W.Own r (d r) (g r) (b r)) (hs : ∀ r l, W.act r (b r) ≠ .loc l)
    (h : W.Runs Q b) : W.Runs Q g := by
  have key : ∀ D (g : Fin n → L) (d : Fin n → ℕ), ∑ r, d r = D → (∀ r, W.Own r (d r) (g r) (b r)) → W.Runs Q g := by
    intro D
    induction D with
    | zero =>
      intro g d hd hb
      have : g = b := by
        funext r
        have h0 : d r = 0 := by
          have := Finset.single_le_sum (f := d) (fun i _ => Nat.zero_le _) (Finset.mem_univ r)
          omega
        have hown := hb r
        rw [h0] at hown
        generalize g r = x at hown
        generalize b r = y at hown
        cases hown; rfl
      rw [this]; exact h
    | succ D ih =>
      intro g d hd hb
      obtain ⟨r0, hr0⟩ : ∃ r, d r ≠ 0 := by
        by_contra hc
        push Not at hc
        simp [hc] at hd
      have hloc : ∀ r, d r ≠ 0 → ∃ l, W.act r (g r) = .loc l := fun r hr => by
        have hown := hb r
        generalize g r = x at hown
        generalize b r = y at hown
        generalize d r = z at hown hr
        cases hown with
        | refl => exact absurd rfl hr
        | step h1 _ => exact ⟨_, h1⟩
      obtain ⟨l0, hl0⟩ := hloc r0 hr0
      refine .mk (fun he => absurd ⟨_, .loc hl0⟩ he) fun s' hst => ?_
      · cases hst with
        | @loc r l hl =>
          have hown := hb r
          generalize hdr : d r = dr at hown
          generalize hbr : b r = br at hown
          generalize hgr : g r = gr at hown hl
          cases hown with
          | refl => exact absurd (by rw [hbr]; exact hl) (hs r l)
          | @step d' _ l1 _ h1 h2 =>
            rw [hl] at h1
            cases h1
            refine ih _ (Function.update d r d') ?_ fun q => ?_
            · have e : ∑ q, Function.update d r d' q = ∑ q, d q - 1 := by
                rw [← Finset.add_sum_erase _ _ (Finset.mem_univ r), ← Finset.add_sum_erase _ d (Finset.mem_univ r), Function.update_self, hdr,
                  Finset.sum_congr rfl fun q hq => Function.update_of_ne (Finset.ne_of_mem_erase hq) d' d,
                  Nat.add_right_comm d' 1]
                rfl
              omega
            · by_cases hq : q = r
              · subst hq; rw [Function.update_self, Function.update_self, hbr]; exact h2
              · rw [Function.update_of_ne hq, Function.update_of_ne hq]; exact hb q
        | coll v k hv => have := hv r0; rw [hl0] at this; cases this
  exact key _ g d rfl hb

/-- Processes that have all entered the same operation. -/
theorem runs_of_coll (hn : 0 < n) {Q : (Fin n → L) → Prop} {s : Fin n → L} {c : ℕ} {v : Fin n → V} {k : Fin n → V → L} (h : ∀ r, W.act r (s r) = .coll c (v r) (k r))
    (hq : W.Runs Q fun r => k r (W.reply c v r)) : W.Runs Q s := by
  refine .mk (fun he => absurd ⟨_, .coll v k h⟩ he) fun s' hst => ?_
  · cases hst with
    | loc hl => rw [h] at hl; cases hl
    | coll v' k' h' =>
      have e : ∀ r, c = _ ∧ v r = v' r ∧ k r = k' r := fun r => by
        have := (h r).symm.trans (h' r)
        injection this with e1 e2 e3
        exact ⟨e1, e2, e3⟩
      obtain rfl : v = v' := funext fun r => (e r).2.1
      obtain rfl : k = k' := funext fun r => (e r).2.2
      obtain rfl := (e ⟨0, hn⟩).1
      exact hq

theorem runs_of_stuck {Q : (Fin n → L) → Prop} {s : Fin n → L} (h : ¬ ∃ s', W.Step s s') (hq : Q s) : W.Runs Q s :=
  .mk (fun _ => hq) fun s' hst => absurd ⟨s', hst⟩ h

/-- Processes that have all ended. -/
theorem fine_of_ended (hn : 0 < n) {Q : (Fin n → L) → Prop} {s : Fin n → L} (h : W.Ended s) (hq : Q s) : W.Fine Q s := runs_of_stuck (h.stuck hn) ⟨h, hq⟩

end World

/-! ### Iterations of a steady solver -/

/-- An iteration as the processes see it: exchanges `0, …, p-1`, each with what a process contributes (from its data and the CFL number), what the operation hands out, and what the process
makes of it; then the sum over all processes of their parts of the residual norm. -/
structure Iter (n : ℕ) (L X : Type) where
  p : ℕ
  send : ℕ → Fin n → ℝ → L → X
  exch : ℕ → (Fin n → X) → Fin n → X
  recv : ℕ → Fin n → ℝ → L → X → L
  energy : Fin n → L → ℝ

/-- A process: before the test of the loop, before operation `pc - 1` of an iteration, or at its end (with the loop's variables, or by an exception). -/
inductive Pst (L : Type)
  | at (pc : ℕ) (m : Mem L) (l : L)
  | ended (o : Option (Mem L))

namespace Iter
variable {n : ℕ} {L X : Type} [Inhabited X] (I : Iter n L X) (k : Kind) (c : Conf)

/-- CFL number handed to the update, src/ode/aodesolver.cpp:194, 208, 462, 467. -/
noncomputable def cflOf (m : Mem L) : ℝ := k.used c (expRamp c.cflinit c.cflfin m.cfl (m.resiold / m.resi) k.up k.down)

/-- Variables of the loop after an iteration, src/ode/aodesolver.cpp:229-241, 529-545. -/
noncomputable def next (m : Mem L) (l : L) (ρ : ℝ) : Mem L :=
  { u := l, step := m.step + 1, resi := ρ, resiold := m.resi, initres := if m.step = 0 then ρ else m.initres,
    cfl := expRamp c.cflinit c.cflfin m.cfl (m.resiold / m.resi) k.up k.down,
    log := m.log ++ [(expRamp c.cflinit c.cflfin m.cfl (m.resiold / m.resi) k.up k.down, cflOf k c m)] }

open Classical in
/-- Program of a process: src/ode/aodesolver.cpp:177-253, 419-559. -/
noncomputable def act (r : Fin n) : Pst L → Act (Pst L) (X × ℝ)
  | .at 0 m _ => .loc (if Ode.cond c m then .at 1 m m.u else .ended (some m))
  | .at (j + 1) m l =>
      if j < I.p then .coll j (I.send j r (cflOf k c m) l, 0) fun x => .at (j + 2) m (I.recv j r (cflOf k c m) l x.1)
      else .coll I.p (default, I.energy r l) fun x => match rootOf x.2 with
        | none => .ended none
        | some ρ => .at 0 (next k c m l ρ) l
  | .ended _ => .halt

/-- The processes; the global sum is src/ode/aodesolver.cpp:227, 528. -/
noncomputable def world : World n (Pst L) (X × ℝ) where
  act := I.act k c
  reply := fun j v r => if j < I.p then (I.exch j (fun q => (v q).1) r, 0) else (default, ∑ q, (v q).2)

/-- Data of all processes after `j` exchanges of an iteration, all working in step. -/
def run (a : ℝ) (J : Fin n → L) : ℕ → Fin n → L
  | 0 => J
  | j + 1 => fun r => I.recv j r a (run a J j r) (I.exch j (fun q => I.send j q a (run a J j q)) r)

/-- The same iteration of all processes working in step, as one program. -/
noncomputable def lock : Prob (Fin n → L) where
  norm := fun J => rootOf (∑ q, I.energy q (I.run 0 J I.p q))
  nonneg := fun _ _ h => rootOf_nonneg h
  upd := fun a J => I.run a J I.p

end Iter

/-- The loop's variables as process `r` sees them. -/
def view {n : ℕ} {L : Type} (m : Mem (Fin n → L)) (r : Fin n) : Mem L := { m with u := m.u r }

namespace Iter
variable {n : ℕ} {L X : Type} [Inhabited X] {I : Iter n L X} {k : Kind} {c : Conf}

/-- C118: processes running at their own pace. Whatever the order in which they proceed, no process waits for ever, every execution ends, and it ends for every process as the loop of all
processes in step does: with the same exception, or with the same values of the control variables and its part of the data. -/
theorem C118_lockstep (hn : 0 < n) (hind : ∀ a b J q, I.energy q (I.run a J I.p q) = I.energy q (I.run b J I.p q)) {M : Mem (Fin n → L)} {N : ℕ} {o : Option (Mem (Fin n → L))}
    (h : Loop (Ode.cond c) (body k I.lock c) M N o) :
    (I.world k c).Fine (fun t => ∀ r, t r = .ended (o.map fun m => view m r)) fun r => .at 0 (view M r) (M.u r) := by
  have hbody : ∀ {M : Mem (Fin n → L)} {Q : (Fin n → Pst L) → Prop}, Ode.cond c M →
      (∀ ρ, I.lock.norm M.u = some ρ → ∀ M1, body k I.lock c M = some M1 → (I.world k c).Fine Q fun r => .at 0 (view M1 r) (M1.u r)) →
      (I.lock.norm M.u = none → (I.world k c).Fine Q fun _ => .ended none) → (I.world k c).Fine Q fun r => .at 0 (view M r) (M.u r) := by
    intro M Q hc h1 h2
    set a := cflOf k c M with ha
    have hcv : ∀ r, Ode.cond c (view M r) := fun r => hc
    have hav : ∀ r, cflOf k c (view M r) = a := fun r => rfl
    refine World.runs_of_own (b := fun r => .at 1 (view M r) (M.u r)) (d := fun _ => 1) (fun r => .step (l1 := .at 1 (view M r) (M.u r)) ?_ .refl) (fun r l => ?_) ?_
    · show I.act k c r (.at 0 (view M r) (M.u r)) = _
      simp only [act, hcv r, if_true]
      rfl
    · show I.act k c r (.at 1 (view M r) (M.u r)) ≠ _
      simp only [act]
      split_ifs <;> simp
    · have hend : (I.world k c).Fine Q fun r => .at (I.p + 1) (view M r) (I.run a M.u I.p r) := by
        refine World.runs_of_coll hn (c := I.p) (v := fun r => (default, I.energy r (I.run a M.u I.p r)))
          (k := fun r x => match rootOf x.2 with
            | none => .ended none
            | some ρ => .at 0 (next k c (view M r) (I.run a M.u I.p r) ρ) (I.run a M.u I.p r)) (fun r => ?_) ?_
        · show I.act k c r (.at (I.p + 1) (view M r) (I.run a M.u I.p r)) = _
          simp only [act, lt_irrefl, if_false]
        · have hsum : ∀ r, ((I.world k c).reply I.p (fun r => (default, I.energy r (I.run a M.u I.p r))) r).2 = ∑ q, I.energy q (I.run 0 M.u I.p q) := fun r => by
            simp only [world, lt_irrefl, if_false]
            exact Finset.sum_congr rfl fun q _ => hind a 0 M.u q
          simp only [hsum]
          cases hr : rootOf (∑ q, I.energy q (I.run 0 M.u I.p q)) with
          | none => exact h2 hr
          | some ρ =>
            refine h1 ρ hr (next k c M (I.run a M.u I.p) ρ) ?_
            have : I.lock.norm M.u = some ρ := hr
            simp only [body, this]
            rfl
      have hall : ∀ i, i ≤ I.p → (I.world k c).Fine Q fun r => .at (I.p - i + 1) (view M r) (I.run a M.u (I.p - i) r) := by
        intro i
        induction i with
        | zero => intro _; exact hend
        | succ i ih =>
          intro hi
          have hlt : I.p - (i + 1) < I.p := by omega
          have hs : I.p - i = I.p - (i + 1) + 1 := by omega
          have ih := ih (by omega)
          rw [hs] at ih
          refine World.runs_of_coll hn (c := I.p - (i + 1)) (v := fun r => (I.send (I.p - (i + 1)) r a (I.run a M.u (I.p - (i + 1)) r), 0))
            (k := fun r x => .at (I.p - (i + 1) + 2) (view M r) (I.recv (I.p - (i + 1)) r a (I.run a M.u (I.p - (i + 1)) r) x.1)) (fun r => ?_) ?_
          · show I.act k c r (.at (I.p - (i + 1) + 1) (view M r) _) = _
            simp only [act, hlt, if_true, hav]
          · simp only [world, hlt, if_true]
            exact ih
      have := hall I.p le_rfl
      simp only [Nat.sub_self, zero_add, run] at this
      exact this
  induction h with
  | @done M h1 =>
    refine World.runs_of_own (b := fun r => .ended (some (view M r))) (d := fun _ => 1) (fun r => .step (l1 := .ended (some (view M r))) ?_ .refl) (fun r l => by
      show I.act k c r (.ended (some (view M r))) ≠ _; simp [act]) (World.fine_of_ended hn (fun r => rfl) fun r => rfl)
    show I.act k c r (.at 0 (view M r) (M.u r)) = _
    have : ¬ Ode.cond c (view M r) := h1
    simp only [act, this, if_false]
  | @step M M1 N o h1 h2 h3 ih =>
    refine hbody h1 (fun ρ _ M1' hM => ?_) fun hno => ?_
    · rw [h2] at hM; cases hM; exact ih
    · simp only [body, hno] at h2; cases h2
  | @throws M h1 h2 =>
    refine hbody h1 (fun ρ _ M1' hM => ?_) fun hno => World.fine_of_ended hn (fun r => rfl) fun r => rfl
    rw [h2] at hM; cases hM

end Iter

theorem loop_total {S : Type} (k : Kind) (Q : Prob S) (c : Conf) (loc : S) : ∃ N o, Loop (Ode.cond c) (body k Q c) (init k c loc) N o := by
  by_cases hm : c.maxiter ≤ 0
  · refine ⟨0, _, .done fun h => ?_⟩
    have := h.2
    simp only [init, Nat.cast_zero] at this
    omega
  · obtain ⟨N, out, h⟩ := (C56_terminates k Q c loc).1
    rw [Solve, if_neg hm] at h
    obtain ⟨o, h, -⟩ := h
    exact ⟨N, o, h⟩

/-- Two processes with a number each: they exchange their numbers, the residual of each is the difference, and each moves towards the other by the CFL number times its residual. -/
noncomputable def meet : Iter 2 (ℝ × ℝ) ℝ where
  p := 1
  send := fun _ _ _ l => l.1
  exch := fun _ v r => v (1 - r)
  recv := fun _ _ a l x => (l.1 + a * (x - l.1), x - l.1)
  energy := fun _ l => l.2 ^ 2

/-- The hypotheses of `C118_lockstep` are met: whatever the configuration the two processes end as the loop in step does, and with numbers 0 and 1, one iteration of the explicit solver
and CFL number 1/4 both end with the norm √2 and numbers 1/4 and 3/4. -/
example (k : Kind) (c : Conf) (u : Fin 2 → ℝ × ℝ) : ∃ N o, Loop (Ode.cond c) (body k meet.lock c) (init k c u) N o ∧
    (meet.world k c).Fine (fun t => ∀ r, t r = .ended (o.map fun m => view m r)) fun r => .at 0 (init k c (u r)) (u r) := by
  obtain ⟨N, o, h⟩ := loop_total k meet.lock c u
  exact ⟨N, o, h, Iter.C118_lockstep (by omega) (fun a b J q => rfl) h⟩

example : (meet.world forwardEuler ⟨1 / 2, 1, 1 / 4, 1 / 4⟩).Fine
    (fun t => (∃ m, t 0 = .ended (some m) ∧ m.u.1 = 1 / 4 ∧ m.resi = √2) ∧ ∃ m, t 1 = .ended (some m) ∧ m.u.1 = 3 / 4 ∧ m.resi = √2)
    fun r => .at 0 (init forwardEuler ⟨1 / 2, 1, 1 / 4, 1 / 4⟩ ((r.val : ℝ), 0)) ((r.val : ℝ), 0) := by
  set c : Conf := ⟨1 / 2, 1, 1 / 4, 1 / 4⟩ with hc
  set u : Fin 2 → ℝ × ℝ := fun r => ((r.val : ℝ), 0) with hu
  have hnorm : meet.lock.norm u = some (√2) := by
    simp [Iter.lock, Iter.run, meet, Fin.sum_univ_two, rootOf, hu]
    norm_num
  obtain ⟨m1, h1⟩ : ∃ m1, body forwardEuler meet.lock c (init forwardEuler c u) = some m1 := by simp [body, init, hnorm]
  have e1 : m1.step = 1 ∧ m1.u = meet.lock.upd (1 / 4) u ∧ m1.resi = √2 := by
    simp only [body, init, hnorm, Option.some.injEq] at h1
    subst h1
    exact ⟨rfl, rfl, rfl⟩
  have hl : Loop (Ode.cond c) (body forwardEuler meet.lock c) (init forwardEuler c u) 1 (some m1) := by
    refine .step ⟨?_, ?_⟩ h1 (.done fun h => ?_)
    · simp [init, fdiv, FDiv.gt, hc]; norm_num
    · simp [init, hc]
    · have := h.2; rw [e1.1] at this; simp [hc] at this
  refine World.Fine.mono (Iter.C118_lockstep (M := init forwardEuler c u) (by omega) (fun a b J q => rfl) hl) fun t ht =>
    ⟨⟨_, ht 0, ?_, e1.2.2⟩, ⟨_, ht 1, ?_, e1.2.2⟩⟩
  · show (m1.u 0).1 = _
    rw [e1.2.1]; simp [Iter.lock, Iter.run, meet, hu]
  · show (m1.u 1).1 = _
    rw [e1.2.1]; simp [Iter.lock, Iter.run, meet, hu]; norm_num

end Par
end FVENS
