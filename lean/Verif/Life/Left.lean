import Verif.Life.Eval

/-! # Which objects the pieces of a case leave behind -/

namespace FVENS.Life

theorem fate_ite (o : Obj) (b : Bool) (x : Prop) [Decidable x] (t t' : List Ev) : fate o b (if x then t else t') = if x then fate o b t else fate o b t' := by
  split_ifs <;> rfl

theorem prog_ite_fst (x : Prop) [Decidable x] (p q : Prog) : (if x then p else q).1 = if x then p.1 else q.1 := by split_ifs <;> rfl

theorem makeSpace_ok (p : Phase) (o2 : Bool) (c : Cfg) (h : c.BcsOk) : makeSpace p o2 c =
    ([Ev.make ⟨p, .space⟩, .make ⟨p, .centres⟩, .use ⟨p, .centres⟩, .make ⟨p, .flux⟩, .make ⟨p, .fluxGas⟩, .make ⟨p, .grads⟩, .make ⟨p, .lim⟩] ++
      ((List.range' 0 c.bcs.length).map fun j => Ev.make ⟨p, .bc j⟩) ++ ([.make ⟨p, .jflux⟩, .make ⟨p, .jfluxGas⟩] ++ if o2 then [.make ⟨p, .gradvec⟩] else []), none) := by
  simp [makeSpace, bcMake_ok p c.bcs 0 h, tell, andThen]

theorem makeSpace_bad (p : Phase) (o2 : Bool) (c : Cfg) (h : ¬ c.BcsOk) : ∃ k, k < c.bcs.length ∧ makeSpace p o2 c =
    ([Ev.make ⟨p, .space⟩, .make ⟨p, .centres⟩, .use ⟨p, .centres⟩, .make ⟨p, .flux⟩, .make ⟨p, .fluxGas⟩, .make ⟨p, .grads⟩, .make ⟨p, .lim⟩] ++
      (((List.range' 0 k).map fun j => Ev.make ⟨p, .bc j⟩) ++ [.use ⟨p, .centres⟩, .free ⟨p, .centres⟩, .free ⟨p, .space⟩]), some .other) := by
  obtain ⟨k, hk, hm⟩ := bcMake_bad p c.bcs 0 h
  exact ⟨k, hk, by simp [makeSpace, hm, tell, andThen, raise]⟩

/-- The parts of a finished discretisation. -/
def partOf (o2 : Bool) (c : Cfg) : Kind → Bool
  | .space | .centres | .flux | .fluxGas | .grads | .lim | .jflux | .jfluxGas => true
  | .bc i => i < c.bcs.length
  | .gradvec => o2
  | _ => false

open Classical in
/-- What remains of a discretisation after its destruction. -/
noncomputable def restOf (c : Cfg) : Kind → Bool
  | .jflux | .jfluxGas => true
  | .bc i => i < c.bcs.length && !decide (c.Last i)
  | _ => false

theorem fate_makeSpace (p : Phase) (o2 : Bool) (c : Cfg) (h : c.BcsOk) (k : Kind) : fate ⟨p, k⟩ false (makeSpace p o2 c).1 = some (partOf o2 c k) := by
  rw [makeSpace_ok p o2 c h]
  cases k <;> simp [fate_append, fate, fate_ite, fate_makes, fate_bcMakes, partOf] <;> cases o2 <;> simp

theorem fate_freeSpace (p : Phase) (o2 : Bool) (c : Cfg) (k : Kind) : fate ⟨p, k⟩ (partOf o2 c k) (freeSpace p o2 c) = some (restOf c k) := by
  by_cases hk : ∃ i, k = .bc i
  · obtain ⟨i, rfl⟩ := hk
    have := fate_bcFree p i c (decide (i < c.bcs.length)) (fun h => by simpa using h.lt)
    simp [freeSpace, fate_append, fate, fate_ite, partOf, restOf, this]
  · have hk' : ∀ i, (⟨p, k⟩ : Obj) ≠ ⟨p, .bc i⟩ := fun i h => hk ⟨i, by simpa using h⟩
    simp only [freeSpace, fate_append, fate_onBcs_free p c hk']
    cases k <;> simp [fate, fate_ite, partOf, restOf] at hk ⊢ <;> cases o2 <;> simp [fate]

theorem fate_otherPhase {p p' : Phase} (hp : p' ≠ p) (k : Kind) (b : Bool) (o2 : Bool) (c : Cfg) :
    fate ⟨p, k⟩ b (freeSpace p' o2 c) = some b ∧ fate ⟨p, k⟩ b (makeLhs p' c) = some b ∧ fate ⟨p, k⟩ b (freeLhs p' c) = some b ∧
    fate ⟨p, k⟩ b (residual p' o2 c) = some b ∧ fate ⟨p, k⟩ b (makeVecs p' c) = some b ∧ fate ⟨p, k⟩ b (freeVecs p' c) = some b ∧ fate ⟨p, k⟩ b (viewers p' c) = some b ∧
    fate ⟨p, k⟩ b (step p' o2 c) = some b := by
  have hb : ∀ i, (⟨p, k⟩ : Obj) ≠ ⟨p', .bc i⟩ := fun i h => hp (by simpa using (congrArg Obj.phase h).symm)
  refine ⟨?_, ?_, ?_, ?_, ?_, ?_, ?_, ?_⟩ <;>
    simp [freeSpace, makeLhs, freeLhs, residual, makeVecs, freeVecs, viewers, step, fate_append, fate, fate_ite, hp, fate_onBcs_free p' c hb, fate_onBcs_use p' c hb]

theorem fate_residual (p : Phase) (o2 : Bool) (c : Cfg) (k : Kind) : fate ⟨p, k⟩ (partOf o2 c k) (residual p o2 c) = some (partOf o2 c k) := by
  by_cases hk : ∃ i, k = .bc i
  · obtain ⟨i, rfl⟩ := hk
    have := fate_bcUse p i c (decide (i < c.bcs.length)) (fun h => by simpa using h.lt)
    simp [residual, fate_append, fate, fate_ite, partOf, this]
  · have hk' : ∀ i, (⟨p, k⟩ : Obj) ≠ ⟨p, .bc i⟩ := fun i h => hk ⟨i, by simpa using h⟩
    simp only [residual, fate_append, fate_onBcs_use p c hk']
    cases k <;> simp [fate, fate_ite, partOf] at hk ⊢ <;> cases o2 <;> simp [fate]

/-- What exists during the iterations of a solve. -/
def inLoop (o2 : Bool) (c : Cfg) : Kind → Bool
  | .M | .ksp | .time | .r | .dt => true
  | .A | .ctx => c.mf
  | .upd | .du => c.implicit
  | k => partOf o2 c k

/-- What exists before a solve. -/
def ready (o2 : Bool) (c : Cfg) : Kind → Bool
  | .M | .ksp | .time => true
  | .A | .ctx => c.mf
  | .upd => c.implicit
  | k => partOf o2 c k

theorem fate_residual_loop (p : Phase) (o2 : Bool) (c : Cfg) (k : Kind) : fate ⟨p, k⟩ (inLoop o2 c k) (residual p o2 c) = some (inLoop o2 c k) := by
  cases k with
  | M | ksp | time | r | dt | A | ctx | upd | du =>
    simp [residual, fate_append, fate, fate_ite, fate_onBcs_use]
  | _ => exact fate_residual p o2 c _

theorem fate_step (p : Phase) (o2 : Bool) (c : Cfg) (k : Kind) : fate ⟨p, k⟩ (inLoop o2 c k) (step p o2 c) = some (inLoop o2 c k) := by
  simp only [step, fate_append, fate_ite]
  have h1 : fate ⟨p, k⟩ (inLoop o2 c k) [Ev.use ⟨p, .time⟩] = some (inLoop o2 c k) := by cases k <;> simp [fate, inLoop]
  have h2 : fate ⟨p, k⟩ (inLoop o2 c k) [Ev.use ⟨p, .r⟩, .use ⟨p, .dt⟩] = some (inLoop o2 c k) := by cases k <;> simp [fate, inLoop]
  rw [h1]
  simp only [Option.bind_some, fate_residual_loop, h2]
  cases hi : c.implicit
  · simp [fate]
  · have h3 : fate ⟨p, k⟩ (inLoop o2 c k) [Ev.use ⟨p, .jflux⟩, .use ⟨p, .jfluxGas⟩, .use ⟨p, .M⟩, .use ⟨p, .ksp⟩, .use ⟨p, .du⟩, .use ⟨p, .upd⟩] = some (inLoop o2 c k) := by
      cases k <;> simp [fate, inLoop, partOf, hi]
    simp only [if_true, h3, Option.bind_some]
    cases hm : c.mf
    · simp [fate]
    · have h4 : fate ⟨p, k⟩ (inLoop o2 c k) [Ev.use ⟨p, .A⟩, .use ⟨p, .ctx⟩] = some (inLoop o2 c k) := by
        cases k <;> simp [fate, inLoop, partOf, hm]
      simp only [if_true, h4, Option.bind_some, fate_residual_loop, h2]

theorem fate_makeVecs (p : Phase) (o2 : Bool) (c : Cfg) (k : Kind) : fate ⟨p, k⟩ (ready o2 c k) (makeVecs p c) = some (inLoop o2 c k) := by
  simp only [makeVecs, fate_append, fate_ite]
  cases hi : c.implicit <;> cases hm : c.mf <;> cases k <;> simp [fate, inLoop, ready, partOf, hi, hm]

theorem fate_freeVecs (p : Phase) (o2 : Bool) (c : Cfg) (k : Kind) : fate ⟨p, k⟩ (inLoop o2 c k) (freeVecs p c) = some (ready o2 c k) := by
  simp only [freeVecs, fate_append, fate_ite]
  cases hi : c.implicit <;> cases k <;> simp [fate, inLoop, ready, partOf, hi]

theorem fate_viewers (p : Phase) (o2 : Bool) (c : Cfg) (k : Kind) : fate ⟨p, k⟩ (inLoop o2 c k) (viewers p c) = some (inLoop o2 c k) := by
  unfold viewers
  split_ifs with h
  · simp only [Bool.and_eq_true] at h
    cases k <;> simp [fate, inLoop, partOf, h.1.1]
  · rfl

/-- After a solve: as before if it ends well or has nothing to do, else its vectors are left. -/
def after (o2 : Bool) (c : Cfg) (e : End) (k : Kind) : Bool :=
  match e with
  | .nothing | .conv => ready o2 c k
  | _ => inLoop o2 c k

theorem fate_time (p : Phase) (o2 : Bool) (c : Cfg) (k : Kind) : fate ⟨p, k⟩ (ready o2 c k) [Ev.use ⟨p, .time⟩] = some (ready o2 c k) := by
  cases k <;> simp [fate, ready]

theorem fate_solve (p : Phase) (o2 : Bool) (c : Cfg) (s : Course) (k : Kind) : fate ⟨p, k⟩ (ready o2 c k) (solve p o2 c s).1 = some (after o2 c s.fin k) := by
  rcases s with ⟨e, n⟩
  have hs := fate_steps (fate_step p o2 c k) n
  cases e <;>
    simp only [solve, tell, raise, andThen, fate_append, fate_time, Option.bind_some, fate_makeVecs, hs, fate_viewers, fate_freeVecs, after, List.append_nil]

theorem fate_makeLhs (p : Phase) (o2 : Bool) (c : Cfg) (k : Kind) : fate ⟨p, k⟩ (partOf o2 c k) (makeLhs p c) =
    some (match k with | .M | .ksp => true | .A | .ctx => c.mf | k => partOf o2 c k) := by
  simp only [makeLhs, fate_append, fate_ite]
  cases hm : c.mf <;> cases k <;> simp [fate, partOf]

end FVENS.Life
