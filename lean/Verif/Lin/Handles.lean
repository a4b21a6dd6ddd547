import Mathlib.Data.List.Basic
import Mathlib.Logic.Function.Basic
import Mathlib.Tactic.Common

/-!
# Access handles for PETSc vectors (C62)

Programs are sequences of operations on any number of handles: construction, attaching a vector, releasing, destruction, copying. PETSc is a trace of calls. An
exception leaves the program free to go on with any operation, in particular with destructions.
-/

namespace FVENS
namespace Lin

/-- PETSc calls: `VecGhostGetLocalForm`, `VecGetArray`/`VecGetArrayRead`, `VecRestoreArray`/`VecRestoreArrayRead`, `VecGhostRestoreLocalForm`. Vectors are numbers. -/
inductive Ev
  | getForm (v : ℕ)
  | getArr (v : ℕ)
  | relArr (v : ℕ)
  | relForm (v : ℕ)
  deriving DecidableEq

/-- How PETSc answers an attempt to attach: all calls succeed, the local form fails (ghosted handles only), or the array fails. -/
inductive Acq
  | ok
  | noForm
  | noArr
  deriving DecidableEq

/-- Members of a handle, src/linalg/petscutils.hpp:24-27, 43-46, 62-66, 81-85: `vec`, and whether `sdata` is non-null (then it is the array of `vec`). -/
structure HState where
  vec : Option ℕ
  sdata : Bool

/-- Live handles and the PETSc calls made by each. -/
structure World where
  h : ℕ → Option HState
  tr : ℕ → List Ev

/-- Operations of a program. -/
inductive Op
  | create (i : ℕ)
  | createWith (i v : ℕ) (r : Acq)
  | setVec (i v : ℕ) (r : Acq)
  | restore (i : ℕ)
  | destroy (i : ℕ)
  | copy (i j : ℕ)

/-- Calls made by an attempt to attach; successful ones only. src/linalg/petscutils.cpp:40, 90, 141-143, 191-193. -/
def acqEvs (ghost : Bool) (v : ℕ) (r : Acq) : List Ev :=
  match ghost, r with
  | false, .ok => [.getArr v]
  | false, _ => []
  | true, .ok => [.getForm v, .getArr v]
  | true, .noArr => [.getForm v]
  | true, .noForm => []

/-- Calls made by `restore`, src/linalg/petscutils.cpp:48-58, 98-108, 151-165, 201-215. A call on something that
was never acquired is recorded too; its error is only printed. -/
def relEvs (ghost : Bool) (v : ℕ) : List Ev := if ghost then [.relArr v, .relForm v] else [.relArr v]

/-- `restore` on a live handle. -/
def World.restore (w : World) (ghost : Bool) (i : ℕ) (s : HState) : World :=
  match s.vec with
  | some v => ⟨Function.update w.h i (some ⟨none, false⟩), Function.update w.tr i (w.tr i ++ relEvs ghost v)⟩
  | none => ⟨Function.update w.h i (some ⟨none, false⟩), w.tr⟩

/-- One operation; `none` for a program that names a dead handle or creates a live one again. `ghost` tells plain from ghosted handles.
Constructors src/linalg/petscutils.cpp:17-27, 68-77, 118-128, 169-178; `setVec` :35-46, 85-96, 136-149, 186-199; destructors :29-33, 79-83, 130-134, 180-184.
The destructor of the base class of a ghosted handle finds `vec` null and does nothing.
When `setVec` throws, `vec` stays set. When the constructor of a ghosted handle throws, the destructor of its base class runs and releases an array of `vec`
(:29-33, 79-83 by way of :127, 177); a plain handle disappears. Copies are made by the implicit copy constructor, since the classes declare none. -/
def step (ghost : Bool) (w : World) : Op → Option World
  | .create i => if (w.h i).isSome then none else some ⟨Function.update w.h i (some ⟨none, false⟩), w.tr⟩
  | .createWith i v r =>
      if (w.h i).isSome then none
      else if r = .ok then some ⟨Function.update w.h i (some ⟨some v, true⟩), Function.update w.tr i (w.tr i ++ acqEvs ghost v r)⟩
      else some ⟨w.h, Function.update w.tr i (w.tr i ++ acqEvs ghost v r ++ if ghost then [.relArr v] else [])⟩
  | .setVec i v r =>
      match w.h i with
      | none => none
      | some s =>
        if s.vec.isSome then some w
        else some ⟨Function.update w.h i (some ⟨some v, decide (r = .ok)⟩), Function.update w.tr i (w.tr i ++ acqEvs ghost v r)⟩
  | .restore i =>
      match w.h i with
      | none => none
      | some s => some (w.restore ghost i s)
  | .destroy i =>
      match w.h i with
      | none => none
      | some s => let w' := w.restore ghost i s; some ⟨Function.update w'.h i none, w'.tr⟩
  | .copy i j =>
      match w.h i with
      | none => none
      | some s => if (w.h j).isSome then none else some ⟨Function.update w.h j (some s), w.tr⟩

/-- A program. -/
def run (ghost : Bool) (w : World) : List Op → Option World
  | [] => some w
  | o :: os => (step ghost w o).bind fun w' => run ghost w' os

def empty : World := ⟨fun _ => none, fun _ => []⟩

/-- `getArray`, src/linalg/petscutils.cpp:60-64, 110-114: the vector whose array is returned. -/
def World.getArray (w : World) (i : ℕ) : Option ℕ := (w.h i).bind fun s => if s.sdata then s.vec else none

/-! ## Specification: the protocol of PETSc -/

/-- What a user of PETSc holds. -/
inductive Phase
  | idle
  | form (v : ℕ)
  | full (v : ℕ)
  | closing (v : ℕ)
  deriving DecidableEq

/-- The calls that are allowed: everything acquired is released once, in reverse order. -/
def protocol (ghost : Bool) : Phase → Ev → Option Phase
  | .idle, .getForm v => if ghost then some (.form v) else none
  | .idle, .getArr v => if ghost then none else some (.full v)
  | .form v, .getArr v' => if v = v' then some (.full v) else none
  | .full v, .relArr v' => if v = v' then some (if ghost then .closing v else .idle) else none
  | .closing v, .relForm v' => if v = v' then some .idle else none
  | _, _ => none

def follow (ghost : Bool) (p : Phase) (tr : List Ev) : Option Phase := tr.foldlM (protocol ghost) p

/-- Attaching always succeeds and there are no copies. -/
def Clean : Op → Prop
  | .createWith _ _ r => r = .ok
  | .setVec _ _ r => r = .ok
  | .copy _ _ => False
  | _ => True

/-- Phase in which a handle should be. -/
def phaseOf : Option HState → Phase
  | some ⟨some v, _⟩ => .full v
  | _ => .idle

structure Inv (ghost : Bool) (w : World) : Prop where
  tr : ∀ i, follow ghost .idle (w.tr i) = some (phaseOf (w.h i))
  acc : ∀ i s, w.h i = some s → s.sdata = s.vec.isSome

theorem follow_append (ghost : Bool) (p : Phase) (a b : List Ev) : follow ghost p (a ++ b) = (follow ghost p a).bind fun q => follow ghost q b := by
  unfold follow; rw [List.foldlM_append]; rfl

theorem follow_acq (ghost : Bool) (v : ℕ) : follow ghost .idle (acqEvs ghost v .ok) = some (.full v) := by
  cases ghost <;> simp [follow, acqEvs, protocol, List.foldlM]

theorem follow_rel (ghost : Bool) (v : ℕ) : follow ghost (.full v) (relEvs ghost v) = some .idle := by
  cases ghost <;> simp [follow, relEvs, protocol, List.foldlM]

theorem inv_restore {ghost : Bool} {w : World} (hw : Inv ghost w) {i : ℕ} {s : HState} (hs : w.h i = some s) : Inv ghost (w.restore ghost i s) := by
  unfold World.restore
  rcases hv : s.vec with _ | v
  · refine ⟨fun k => ?_, fun k t hk => ?_⟩
    · by_cases h : k = i
      · subst h
        have := hw.tr k
        rw [hs] at this
        simp only [Function.update_self, this]
        cases s; simp only at hv; subst hv; rfl
      · simp only [Function.update_of_ne h]; exact hw.tr k
    · by_cases h : k = i
      · subst h; simp only [Function.update_self] at hk; cases hk; rfl
      · simp only [Function.update_of_ne h] at hk; exact hw.acc k t hk
  · refine ⟨fun k => ?_, fun k t hk => ?_⟩
    · by_cases h : k = i
      · subst h
        have := hw.tr k
        rw [hs] at this
        have hp : phaseOf (some s) = .full v := by cases s; simp only at hv; subst hv; rfl
        simp only [Function.update_self, follow_append, this, hp, Option.bind_some, follow_rel]
        rfl
      · simp only [Function.update_of_ne h]; exact hw.tr k
    · by_cases h : k = i
      · subst h; simp only [Function.update_self] at hk; cases hk; rfl
      · simp only [Function.update_of_ne h] at hk; exact hw.acc k t hk

theorem inv_step {ghost : Bool} {w w' : World} (hw : Inv ghost w) {o : Op} (ho : Clean o) (h : step ghost w o = some w') : Inv ghost w' := by
  cases o with
  | create i =>
    simp only [step] at h
    split_ifs at h with hi
    cases h
    have hn : w.h i = none := by simpa using hi
    refine ⟨fun k => ?_, fun k t hk => ?_⟩
    · by_cases hk : k = i
      · subst hk
        have := hw.tr k
        rw [hn] at this
        simp only [Function.update_self, this]; rfl
      · simp only [Function.update_of_ne hk]; exact hw.tr k
    · by_cases hk' : k = i
      · subst hk'; simp only [Function.update_self] at hk; cases hk; rfl
      · simp only [Function.update_of_ne hk'] at hk; exact hw.acc k t hk
  | createWith i v r =>
    have hr : r = .ok := ho
    subst hr
    simp only [step, if_true] at h
    split_ifs at h with hi
    cases h
    have hn : w.h i = none := by simpa using hi
    refine ⟨fun k => ?_, fun k t hk => ?_⟩
    · by_cases hk : k = i
      · subst hk
        have := hw.tr k
        rw [hn] at this
        simp only [Function.update_self, follow_append, this, Option.bind_some, phaseOf, follow_acq]
      · simp only [Function.update_of_ne hk]; exact hw.tr k
    · by_cases hk' : k = i
      · subst hk'; simp only [Function.update_self] at hk; cases hk; rfl
      · simp only [Function.update_of_ne hk'] at hk; exact hw.acc k t hk
  | setVec i v r =>
    have hr : r = .ok := ho
    subst hr
    simp only [step] at h
    split at h
    · cases h
    · rename_i s hs
      split_ifs at h with hv
      · cases h; exact hw
      · cases h
        have hv : s.vec = none := by simpa using hv
        have hp : phaseOf (some s) = .idle := by cases s; simp only at hv; subst hv; rfl
        refine ⟨fun k => ?_, fun k t hk => ?_⟩
        · by_cases hk : k = i
          · subst hk
            have := hw.tr k
            rw [hs, hp] at this
            simp only [Function.update_self, follow_append, this, Option.bind_some, follow_acq, phaseOf]
          · simp only [Function.update_of_ne hk]; exact hw.tr k
        · by_cases hk' : k = i
          · subst hk'; simp only [Function.update_self] at hk; cases hk; rfl
          · simp only [Function.update_of_ne hk'] at hk; exact hw.acc k t hk
  | restore i =>
    simp only [step] at h
    split at h
    · cases h
    · rename_i s hs
      cases h
      exact inv_restore hw hs
  | destroy i =>
    simp only [step] at h
    split at h
    · cases h
    · rename_i s hs
      cases h
      have hr := inv_restore hw hs
      have hi : (w.restore ghost i s).h i = some ⟨none, false⟩ := by
        unfold World.restore
        split <;> simp
      refine ⟨fun k => ?_, fun k t hk => ?_⟩
      · by_cases hk : k = i
        · subst hk
          have := hr.tr k
          rw [hi] at this
          simp only [Function.update_self, this]; rfl
        · simp only [Function.update_of_ne hk]; exact hr.tr k
      · by_cases hk' : k = i
        · subst hk'; simp only [Function.update_self] at hk; cases hk
        · simp only [Function.update_of_ne hk'] at hk; exact hr.acc k t hk
  | copy i j => exact absurd ho id

/-- C62 (partial): in every program in which attaching succeeds and handles are not copied, the PETSc calls of each handle follow the protocol at all times; what a
handle gives access to is what it has acquired and not yet released, and when it is destroyed, at any point, everything is released. Missing for the full claim:
failing PETSc calls and copies, see `C62_failed_acquire_refuted` and `C62_copy_refuted`. -/
theorem C62_balanced_partial (ghost : Bool) (os : List Op) (hos : ∀ o ∈ os, Clean o) (w : World) (h : run ghost empty os = some w) (i : ℕ) :
    (∃ p, follow ghost .idle (w.tr i) = some p ∧ (∀ v, w.getArray i = some v ↔ p = .full v) ∧ (w.h i = none → p = .idle)) := by
  have key : ∀ (os : List Op) (w0 : World), Inv ghost w0 → (∀ o ∈ os, Clean o) → run ghost w0 os = some w → Inv ghost w := by
    intro os
    induction os with
    | nil => intro w0 h0 _ hr; simp only [run, Option.some.injEq] at hr; exact hr ▸ h0
    | cons o os ih =>
      intro w0 h0 hc hr
      obtain ⟨w1, h1, h2⟩ := Option.bind_eq_some_iff.1 hr
      exact ih w1 (inv_step h0 (hc o (by simp)) h1) (fun o' ho' => hc o' (by simp [ho'])) h2
  have hI := key os empty ⟨fun _ => rfl, fun _ _ h => by cases h⟩ hos h
  refine ⟨_, hI.tr i, fun v => ?_, fun hn => by rw [hn]; rfl⟩
  unfold World.getArray
  rcases hh : w.h i with _ | s
  · simp [phaseOf]
  · have := hI.acc i s hh
    obtain ⟨vec, sdata⟩ := s
    rcases vec with _ | x
    · simp_all [phaseOf]
    · simp_all [phaseOf]

/-- C62: attaching a second vector to a handle that holds one is refused without effect. -/
theorem C62_second_vector (ghost : Bool) (w : World) (i v : ℕ) (r : Acq) {s : HState} (hs : w.h i = some s) (hv : s.vec.isSome = true) :
    step ghost w (.setVec i v r) = some w := by
  simp [step, hs, hv]

/-- Concrete case: a ghosted handle used twice, with a second one alive in between, and destroyed while holding. -/
example : ∃ w, run true empty [.createWith 0 5 .ok, .create 1, .setVec 1 6 .ok, .restore 0, .setVec 0 6 .ok, .destroy 0, .destroy 1] = some w ∧
    w.tr 0 = [.getForm 5, .getArr 5, .relArr 5, .relForm 5, .getForm 6, .getArr 6, .relArr 6, .relForm 6] ∧ w.tr 1 = [.getForm 6, .getArr 6, .relArr 6, .relForm 6] := by
  refine ⟨_, rfl, rfl, rfl⟩

/-- C62 fails if PETSc refuses the array: the handle still releases it on destruction, and in the constructor of a ghosted handle the local form is never released. -/
theorem C62_failed_acquire_refuted :
    (∃ w, run false empty [.create 0, .setVec 0 5 .noArr, .destroy 0] = some w ∧ w.tr 0 = [.relArr 5] ∧ follow false .idle (w.tr 0) = none) ∧
    (∃ w, run true empty [.createWith 0 5 .noArr] = some w ∧ w.tr 0 = [.getForm 5, .relArr 5] ∧ follow true .idle (w.tr 0) = none) := by
  exact ⟨⟨_, rfl, rfl, rfl⟩, ⟨_, rfl, rfl, rfl⟩⟩

/-- C62 fails if a handle is copied, which the compiler allows: the array is released by both, and the original remains accessible after the first release. -/
theorem C62_copy_refuted : ∃ w w', run false empty [.createWith 0 5 .ok, .copy 0 1, .destroy 1] = some w ∧ w.tr 0 = [.getArr 5] ∧ w.tr 1 = [.relArr 5] ∧
    w.getArray 0 = some 5 ∧ run false w [.destroy 0] = some w' ∧ w'.tr 0 ++ w'.tr 1 = [.getArr 5, .relArr 5, .relArr 5] := by
  exact ⟨_, _, rfl, rfl, rfl, rfl, rfl, rfl⟩

end Lin
end FVENS
