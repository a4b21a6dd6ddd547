import Verif.Par.AsyncNb

/-!
# Exchanges that begin before they end (C118)

The code begins most exchanges some time before it ends them: `VecGhostUpdateBegin` and `VecGhostUpdateEnd`, src/ode/aodesolver.cpp:191-192, 212-247, 454-469, 514-558,
src/spatial/flow_spatial.cpp:713-715, 727-786; `updateSharedFacesBegin` and `updateSharedFacesEnd`, :738-782. In between a process computes on its own, or takes part in a global sum
(src/ode/aodesolver.cpp:227, 529). What it contributes is available to others from the beginning on; here, from any moment at which it is determined.
-/

namespace FVENS
namespace Par

open Msh FV Flux Ode

namespace World
variable {n : ℕ} {L V : Type} (W : World n L V)

/-- What process `q` in state `l` will contribute to its operation after the next `j`, whatever it receives in these. -/
inductive Will (q : Fin n) : L → ℕ → ℕ × V → Prop
  | here {l c v k} : W.act q l = .coll c v k → Will q l 0 (c, v)
  | own {l l' j y} : W.act q l = .loc l' → Will q l' j y → Will q l j y
  | over {l c v k j y} : W.act q l = .coll c v k → (∀ a, Will q (k a) j y) → Will q l (j + 1) y

/-- What `q` has contributed, or will contribute in any case, to its operation number `i`. -/
def Promised (q : Fin n) (x : L × List (ℕ × V)) (i : ℕ) (y : ℕ × V) : Prop :=
  (i < x.2.length ∧ x.2[i]? = some y) ∨ (x.2.length ≤ i ∧ W.Will q x.1 (i - x.2.length) y)

/-- One step of one process: it computes on its own, or leaves an operation once the contributions of those it waits for are available. `E q x i y`: in state `x` the contribution `y` of
process `q` to operation number `i` is available. -/
inductive EStep (nb : ℕ → Fin n → Fin n → Prop) (E : Fin n → L × List (ℕ × V) → ℕ → ℕ × V → Prop) : (Fin n → L × List (ℕ × V)) → (Fin n → L × List (ℕ × V)) → Prop
  | loc {s r l} : W.act r (s r).1 = .loc l → EStep nb E s (Function.update s r (l, (s r).2))
  | coll {s r c v k} (w : Fin n → V) : W.act r (s r).1 = .coll c v k → (∀ q, q = r ∨ nb c r q → E q (s q) (s r).2.length (c, w q)) →
      EStep nb E s (Function.update s r (k (W.reply c w r), (s r).2 ++ [(c, v)]))

/-- Every execution from `s` is finite, and where it cannot be continued all processes have ended and `Q` holds. -/
inductive EFine (nb : ℕ → Fin n → Fin n → Prop) (E : Fin n → L × List (ℕ × V) → ℕ → ℕ × V → Prop) (Q : (Fin n → L) → Prop) : (Fin n → L × List (ℕ × V)) → Prop
  | mk {s} : ((¬ ∃ s', W.EStep nb E s s') → W.Ended (fun r => (s r).1) ∧ Q fun r => (s r).1) → (∀ s', W.EStep nb E s s' → EFine nb E Q s') → EFine nb E Q s

/-- When contributions may become available: at the latest when the process has entered the operation, at the earliest when they are determined. -/
structure Timely (E : Fin n → L × List (ℕ × V) → ℕ → ℕ × V → Prop) : Prop where
  latest : ∀ q x i y, W.posted q x i = some y → E q x i y
  earliest : ∀ q x i y, E q x i y → W.Promised q x i y

variable {W}

/-- What `EFine` means for finite executions. -/
theorem EFine.reach {nb : ℕ → Fin n → Fin n → Prop} {E : Fin n → L × List (ℕ × V) → ℕ → ℕ × V → Prop} {Q : (Fin n → L) → Prop} {s t : Fin n → L × List (ℕ × V)} (h : W.EFine nb E Q s)
    (hr : Relation.ReflTransGen (W.EStep nb E) s t) :
    ((W.Ended fun r => (t r).1) → Q fun r => (t r).1) ∧ ((¬ W.Ended fun r => (t r).1) → ∃ t', W.EStep nb E t t') := by
  have : W.EFine nb E Q t := by
    induction hr with
    | refl => exact h
    | tail _ hs ih => cases ih with | mk _ h2 => exact h2 _ hs
  cases this with
  | mk h1 _ =>
    refine ⟨fun he => (h1 ?_).2, fun he => by
      by_contra hc
      exact he (h1 hc).1⟩
    rintro ⟨t', hst⟩
    cases hst with
    | @loc r l hl => have := he r; simp only at this; rw [this] at hl; cases hl
    | @coll r c v k w hl _ => have := he r; simp only at this; rw [this] at hl; cases hl

/-- What `EFine` means for infinite executions: there are none. -/
theorem EFine.finite {nb : ℕ → Fin n → Fin n → Prop} {E : Fin n → L × List (ℕ × V) → ℕ → ℕ × V → Prop} {Q : (Fin n → L) → Prop} {s : Fin n → L × List (ℕ × V)} (h : W.EFine nb E Q s) :
    ¬ ∃ f : ℕ → Fin n → L × List (ℕ × V), f 0 = s ∧ ∀ i, W.EStep nb E (f i) (f (i + 1)) := by
  induction h with
  | mk _ _ ih =>
    rintro ⟨f, h0, hf⟩
    subst h0
    exact ih (f 1) (hf 0) ⟨fun i => f (i + 1), rfl, fun i => hf (i + 1)⟩

theorem posted_promised {q : Fin n} {x : L × List (ℕ × V)} {i : ℕ} {y : ℕ × V} (h : W.posted q x i = some y) : W.Promised q x i y := by
  unfold posted at h
  split_ifs at h with h1 h2
  · exact .inl ⟨h1, h⟩
  · subst h2
    refine .inr ⟨le_rfl, ?_⟩
    rw [Nat.sub_self]
    cases ha : W.act q x.1 with
    | loc l => rw [ha] at h; cases h
    | halt => rw [ha] at h; cases h
    | coll c v k => rw [ha] at h; cases h; exact .here ha

section plan
variable {Q : (Fin n → L) → Prop} {p : W.Plan Q} {nb : ℕ → Fin n → Fin n → Prop} {E : Fin n → L × List (ℕ × V) → ℕ → ℕ × V → Prop}

theorem Plan.will_eq {q : Fin n} {l : L} {j : ℕ} {y : ℕ × V} (hy : W.Will q l j y) : ∀ {x : L × List (ℕ × V)} {i e : ℕ}, x.1 = l → p.At q x i e →
    i + j < p.N ∧ y = (p.c (i + j), p.v (i + j) q) := by
  induction hy with
  | @here l c v k ha =>
    intro x i e hx h
    refine Plan.posted_eq h ?_
    have hlen : x.2.length = i := by rw [h.2.2, List.length_map, List.length_range]
    simp [posted, hlen, hx, ha]
  | @own l l' j y ha _ ih =>
    intro x i e hx h
    subst hx
    obtain ⟨e', -, h'⟩ := Plan.step_own h ha
    exact ih rfl h'
  | @over l c v k j y ha _ ih =>
    intro x i e hx h
    subst hx
    obtain ⟨h1, h2, h3⟩ := h
    obtain ⟨-, hb⟩ := h2.blocked fun l' hl => by rw [ha] at hl; cases hl
    rcases lt_or_eq_of_le h1 with hi | rfl
    · have e1 := p.coll i hi q
      rw [← hb, ha] at e1
      injection e1 with e1 e2 e3
      have := ih (W.reply (p.c i) (p.v i) q) (x := (p.g (i + 1) q, x.2 ++ [(c, v)])) (i := i + 1) (e := p.d (i + 1) q) (by rw [e3]; exact p.next i hi q) ⟨hi, p.own _ hi q, by
        show x.2 ++ [(c, v)] = _
        rw [List.range_succ, List.map_append, ← h3, e1, e2]
        rfl⟩
      rwa [show i + 1 + j = i + (j + 1) by omega] at this
    · have := p.halt q
      rw [← hb, ha] at this; cases this

theorem Plan.promised_eq {q : Fin n} {x : L × List (ℕ × V)} {i e j : ℕ} (h : p.At q x i e) {y : ℕ × V} (hy : W.Promised q x j y) : j < p.N ∧ y = (p.c j, p.v j q) := by
  rcases hy with ⟨h1, h2⟩ | ⟨h1, h2⟩
  · exact Plan.posted_eq h (by unfold posted; rw [if_pos h1]; exact h2)
  · have hlen : x.2.length = i := by rw [h.2.2, List.length_map, List.length_range]
    have := Plan.will_eq h2 rfl h
    rw [hlen] at h1 this
    rwa [show i + (j - i) = j by omega] at this

theorem Plan.estep_coll (hE : W.Timely E) (hloc : W.Local nb) {s : Fin n → L × List (ℕ × V)} {i e : Fin n → ℕ} (h : ∀ r, p.At r (s r) (i r) (e r)) {r : Fin n} {c : ℕ} {v : V} {k : V → L}
    {w : Fin n → V} (ha : W.act r (s r).1 = .coll c v k) (hw : ∀ q, q = r ∨ nb c r q → E q (s q) (s r).2.length (c, w q)) :
    e r = 0 ∧ i r < p.N ∧ p.At r (k (W.reply c w r), (s r).2 ++ [(c, v)]) (i r + 1) (p.d (i r + 1) r) := by
  have hlen : ∀ q, (s q).2.length = i q := fun q => by rw [(h q).2.2, List.length_map, List.length_range]
  rw [hlen r] at hw
  have hi := (Plan.promised_eq (h r) (hE.earliest _ _ _ _ (hw r (.inl rfl)))).1
  obtain ⟨h1, h2, h3⟩ := h r
  obtain ⟨he, hb⟩ := h2.blocked fun l' hl => by rw [ha] at hl; cases hl
  have e1 := p.coll (i r) hi r
  rw [← hb, ha] at e1
  injection e1 with e1 e2 e3
  have hrep : W.reply c w r = W.reply (p.c (i r)) (p.v (i r)) r := by
    rw [← e1]
    exact hloc c _ _ r fun q hq => (Prod.mk.inj (Plan.promised_eq (h q) (hE.earliest _ _ _ _ (hw q hq))).2).2
  refine ⟨he, hi, hi, ?_, ?_⟩
  · show W.Own r _ (k (W.reply c w r)) _
    rw [hrep, e3, ← p.next (i r) hi r]
    exact p.own _ hi r
  · show (s r).2 ++ [(c, v)] = _
    rw [List.range_succ, List.map_append, ← h3, e1, e2]
    rfl

theorem efine_of_plan (hE : W.Timely E) (hloc : W.Local nb) (M : ℕ) : ∀ (s : Fin n → L × List (ℕ × V)) (i e : Fin n → ℕ), (∀ r, p.At r (s r) (i r) (e r)) →
    ∑ r, p.left r (i r) (e r) = M → W.EFine nb E Q s := by
  classical
  induction M using Nat.strong_induction_on with
  | _ M ih =>
    intro s i e h hM
    have hlt : ∀ (r : Fin n) (i' e' : ℕ), p.left r i' e' < p.left r (i r) (e r) →
        ∑ q, p.left q (Function.update i r i' q) (Function.update e r e' q) < M := fun r i' e' hl => by
      rw [← hM]
      refine Finset.sum_lt_sum (fun q _ => ?_) ⟨r, Finset.mem_univ r, by rwa [Function.update_self, Function.update_self]⟩
      by_cases hq : q = r
      · subst hq; rw [Function.update_self, Function.update_self]; exact hl.le
      · rw [Function.update_of_ne hq, Function.update_of_ne hq]
    have hat : ∀ (r : Fin n) (x : L × List (ℕ × V)) (i' e' : ℕ), p.At r x i' e' → ∀ q, p.At q (Function.update s r x q) (Function.update i r i' q) (Function.update e r e' q) :=
      fun r x i' e' hx q => by
        by_cases hq : q = r
        · subst hq; rw [Function.update_self, Function.update_self, Function.update_self]; exact hx
        · rw [Function.update_of_ne hq, Function.update_of_ne hq, Function.update_of_ne hq]; exact h q
    refine .mk (fun hst => ?_) fun s' hs => ?_
    · have hstuck : ¬ ∃ s', W.NStep nb s s' := by
        rintro ⟨s', hs⟩
        cases hs with
        | loc hl => exact hst ⟨_, .loc hl⟩
        | coll w ha hw => exact hst ⟨_, .coll w ha fun q hq => hE.latest _ _ _ _ (hw q hq)⟩
      cases nfine_of_plan hloc M s i e h hM with
      | mk h1 _ => exact h1 hstuck
    · cases hs with
      | @loc r l hl =>
        obtain ⟨e', h1, h2⟩ := Plan.step_own (h r) hl
        exact ih _ (hlt r (i r) e' (by unfold Plan.left; omega)) _ _ _ (hat r _ _ _ h2) rfl
      | @coll r c v k w ha hw =>
        obtain ⟨h1, h2, h3⟩ := Plan.estep_coll hE hloc h ha hw
        refine ih _ (hlt r (i r + 1) _ ?_) _ _ _ (hat r _ _ _ h3) rfl
        unfold Plan.left
        rw [Finset.sum_eq_sum_Ico_succ_bot h2]
        omega

/-- C118 with exchanges that begin before they end: if all executions in which operations complete for all at once end with all processes ended and `Q`, so do all executions in which a process
leaves an operation as soon as the contributions it needs are available, and these are available from any moment between their being determined and the process entering the operation. -/
theorem C118_early [Inhabited V] (hE : W.Timely E) (hloc : W.Local nb) {s : Fin n → L} (h : W.Fine Q s) : W.EFine nb E Q fun r => (s r, []) := by
  obtain ⟨p, hp⟩ := plan_of_fine h
  refine efine_of_plan (p := p) hE hloc _ _ (fun _ => 0) (p.d 0) (fun r => ⟨Nat.zero_le _, ?_, rfl⟩) rfl
  have := p.own 0 (Nat.zero_le _) r
  rwa [hp] at this

end plan

/-- The earliest moments. -/
theorem timely_promised : W.Timely W.Promised := ⟨fun _ _ _ _ => posted_promised, fun _ _ _ _ h => h⟩

end World

section solvers
variable {P : Settings} {gm : Mesh} {s : FState} {dist : ℕ → ℕ} {n : ℕ} {gs : GradScheme} {R : ReconScheme}

/-- C118, beginning and end of exchanges: the four steady solvers with processes that wait in exchanges only for those with cells next to their own, whose contributions are available from any
moment between their being determined and the end of the exchange. What holds at the end of all executions in which exchanges complete for all at once holds at the end of all these, and
no process waits for ever. -/
theorem C118_begin_partial (hc : Conforming gm) (hcn : gm.nconnface = 0) (ht : gm.nbtag ≤ 4) (h : topological gm = .ok s) (hmono : ∀ i j, i < j → j < gm.nelem → dist i ≤ dist j)
    (k : Kind) (c : Conf) :
    (∀ E, ((explicitIter P gm s dist n).world k c).Timely E → ∀ Q J, ((explicitIter P gm s dist n).world k c).Fine Q J →
      ((explicitIter P gm s dist n).world k c).EFine (waits gm dist n fun j => 2 ≤ j) E Q fun r => (J r, [])) ∧
    (∀ JF relax ksp E, ((implicitIter P gm s dist n JF relax ksp).world k c).Timely E → ∀ Q J, ((implicitIter P gm s dist n JF relax ksp).world k c).Fine Q J →
      ((implicitIter P gm s dist n JF relax ksp).world k c).EFine (waits gm dist n fun j => j = 1 ∨ 3 ≤ j) E Q fun r => (J r, [])) ∧
    (∀ E, ((explicit2Iter P gm s dist n gs R).world k c).Timely E → ∀ Q J, ((explicit2Iter P gm s dist n gs R).world k c).Fine Q J →
      ((explicit2Iter P gm s dist n gs R).world k c).EFine (waits gm dist n fun j => 4 ≤ j) E Q fun r => (J r, [])) ∧
    (∀ JF relax ksp E, ((implicit2Iter P gm s dist n gs R JF relax ksp).world k c).Timely E → ∀ Q J, ((implicit2Iter P gm s dist n gs R JF relax ksp).world k c).Fine Q J →
      ((implicit2Iter P gm s dist n gs R JF relax ksp).world k c).EFine (waits gm dist n fun j => j = 3 ∨ 5 ≤ j) E Q fun r => (J r, [])) := by
  obtain ⟨l1, l2, l3, l4⟩ := waits_local (P := P) (n := n) (gs := gs) (R := R) hc hcn ht h hmono k c
  exact ⟨fun E hE Q J hf => World.C118_early hE l1 hf, fun JF relax ksp E hE Q J hf => World.C118_early hE (l2 JF relax ksp) hf, fun E hE Q J hf => World.C118_early hE l3 hf,
    fun JF relax ksp E hE Q J hf => World.C118_early hE (l4 JF relax ksp) hf⟩

end solvers

/-! ### Examples -/

/-- The third process of `chain` has not entered the operation, but its contribution is determined: the second can leave, which it could not do otherwise. -/
example : (¬ ∃ w : Fin 3 → ℕ, ∀ q, q = (1 : Fin 3) ∨ ((1 : Fin 3) = 1 ∨ q = 1) → chain.posted q ((fun r : Fin 3 => if r = 2 then (some 1, 7) else (some 0, 5)) q, []) 0 = some (0, w q)) ∧
    ∃ s', chain.EStep (fun _ r q => r = 1 ∨ q = 1) chain.Promised (fun r => (if r = 2 then (some 1, 7) else (some 0, 5), [])) s' ∧ (s' 1).1 = (none, 17) := by
  refine ⟨?_, _, .coll (r := 1) (c := 0) (v := 5) (k := fun y => (none, y)) (fun q => if q = 2 then 7 else 5) rfl fun q _ => ?_, ?_⟩
  · rintro ⟨w, hw⟩
    have := hw 2 (.inr (.inl rfl))
    simp [World.posted, chain] at this
  · refine .inr ⟨le_rfl, ?_⟩
    by_cases hq : q = 2
    · subst hq; exact .own rfl (.here (k := fun y => (none, y)) rfl)
    · simp only [hq, if_false]; exact .here (k := fun y => (none, y)) rfl
  · simp [chain]

/-- Two processes exchange their numbers, then add other numbers they have; that of the second operation is determined before the first. -/
def both : World 2 (ℕ × ℕ × ℕ) ℕ where
  act := fun _ x => match x.1 with
    | 0 => .coll 0 x.2.1 fun y => (1, y, x.2.2)
    | 1 => .coll 1 x.2.2 fun y => (2, x.2.1, y)
    | _ => .halt
  reply := fun c v r => if c = 0 then v (1 - r) else v 0 + v 1

example (q : Fin 2) (a b : ℕ) : both.Promised q ((0, a, b), []) 0 (0, a) ∧ both.Promised q ((0, a, b), []) 1 (1, b) :=
  ⟨.inr ⟨le_rfl, .here (k := fun y => (1, y, b)) rfl⟩, .inr ⟨by simp, .over (k := fun y => (1, y, b)) rfl fun y => .here (k := fun z => (2, y, z)) rfl⟩⟩

/-- Hypotheses of `C118_early` are met: all executions of `both`, contributions being available as early as can be, end with the numbers exchanged and added. -/
example (a b a' b' : ℕ) : both.EFine (fun _ _ _ => True) both.Promised (fun t => t 0 = (2, a', b + b') ∧ t 1 = (2, a, b + b')) fun r => (if r = 0 then (0, a, b) else (0, a', b'), []) := by
  refine World.C118_early World.timely_promised (fun c v v' r hv => by rw [show v = v' from funext fun q => hv q (.inr trivial)]) ?_
  refine World.runs_of_coll (by omega) (c := 0) (v := fun r => if r = 0 then a else a') (k := fun r y => (1, y, if r = 0 then b else b')) (fun r => by by_cases hr : r = 0 <;> simp [both, hr])
    (World.runs_of_coll (by omega) (c := 1) (v := fun r => if r = 0 then b else b') (k := fun r y => (2, if r = 0 then a' else a, y)) (fun r => by fin_cases r <;> simp [both])
      (World.fine_of_ended (by omega) (fun r => rfl) (by simp [both])))

/-- Hypotheses of `C118_begin_partial` are met: four triangles on two ranks, whatever the configuration, contributions being available as early as can be. -/
example (c : Conf) : ∃ s, topological FV.Geo.cross = .ok s ∧ ∃ N o, Loop (Ode.cond c) (body forwardEuler (several (air1 (rest 1)) FV.Geo.cross s (fun i => i / 2) 2) c)
      (init forwardEuler c (split FV.Geo.cross s (fun i => i / 2) bump)) N o ∧
    ((explicitIter (air1 (rest 1)) FV.Geo.cross s (fun i => i / 2) 2).world forwardEuler c).EFine (waits FV.Geo.cross (fun i => i / 2) 2 fun j => 2 ≤ j)
      ((explicitIter (air1 (rest 1)) FV.Geo.cross s (fun i => i / 2) 2).world forwardEuler c).Promised (EndAs FV.Geo.cross s (fun i => i / 2) 2 o)
      fun r => (.at 0 (init forwardEuler c (heldOf FV.Geo.cross s (fun i => i / 2) 2 (split FV.Geo.cross s (fun i => i / 2) bump) r))
        (heldOf FV.Geo.cross s (fun i => i / 2) 2 (split FV.Geo.cross s (fun i => i / 2) bump) r), []) := by
  obtain ⟨s, hs, -⟩ := FV.Geo.cross_topological
  have hne : FV.Geo.cross.nelem = 4 := by decide +kernel
  have hev := rank_evals (n := 2) cross_conforming rfl (by decide +kernel) hs FV.Geo.cross_nozero (cross_all hs _) (dist := fun i => i / 2)
    (fun g hg => by show g / 2 < 2; omega) (fun i j h _ => Nat.div_le_div_right h.le) (air1 (rest 1))
  obtain ⟨⟨N, o, h1⟩, h2⟩ := C118_explicit two_pos (hev.1 fun k _ => rfl) (c := c) (holds_heldOf FV.Geo.cross s (fun i => i / 2) 2 (split FV.Geo.cross s (fun i => i / 2) bump))
  exact ⟨s, hs, N, o, h1, (C118_begin_partial (gs := .wls) (R := .linear) cross_conforming rfl (by decide +kernel) hs (fun i j h _ => Nat.div_le_div_right h.le) forwardEuler c).1 _
    World.timely_promised _ _ (h2 N o h1)⟩

end Par
end FVENS
