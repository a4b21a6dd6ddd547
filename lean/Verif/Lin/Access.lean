import Verif.Lin.Handles

/-!
Which array a handle gives access to, in programs in which attaching may fail. Code: src/linalg/petscutils.cpp.
-/

namespace FVENS
namespace Lin

/-- No copies are made; anything may fail. -/
def NoCopy : Op → Prop
  | .copy _ _ => False
  | _ => True

/-- A handle that gives an array has just acquired it. -/
def Backed (w : World) : Prop := ∀ i v, w.getArray i = some v → ∃ l, w.tr i = l ++ [.getArr v]

theorem Backed.other {w : World} (h : Backed w) {h' : ℕ → Option HState} {t' : ℕ → List Ev} {i : ℕ}
    (hh : ∀ j, j ≠ i → h' j = w.h j) (ht : ∀ j, j ≠ i → t' j = w.tr j)
    (hi : ∀ v, (World.mk h' t').getArray i = some v → ∃ l, t' i = l ++ [.getArr v]) : Backed ⟨h', t'⟩ := by
  intro j v hj
  by_cases e : j = i
  · subst e; exact hi v hj
  · show ∃ l, t' j = l ++ _
    rw [ht j e]
    refine h j v ?_
    simpa [World.getArray, hh j e] using hj

theorem acqEvs_ok (ghost : Bool) (v : ℕ) : ∃ l, acqEvs ghost v .ok = l ++ [.getArr v] := by
  cases ghost
  · exact ⟨[], rfl⟩
  · exact ⟨[.getForm v], rfl⟩

theorem Backed.restore {w : World} (h : Backed w) (ghost : Bool) (i : ℕ) (s : HState) : Backed (w.restore ghost i s) := by
  unfold World.restore
  cases s.vec with
  | none => exact h.other (i := i) (fun j e => by simp [e]) (fun j e => rfl) (fun v hv => by simp [World.getArray] at hv)
  | some v => exact h.other (i := i) (fun j e => by simp [e]) (fun j e => by simp [e]) (fun v hv => by simp [World.getArray] at hv)

theorem Backed.step {ghost : Bool} {w w' : World} (h : Backed w) {o : Op} (hc : NoCopy o) (hs : step ghost w o = some w') : Backed w' := by
  cases o with
  | create i =>
    simp only [Lin.step] at hs
    split at hs
    · cases hs
    · cases hs
      exact h.other (i := i) (fun j e => by simp [e]) (fun j e => rfl) (fun v hv => by simp [World.getArray] at hv)
  | createWith i v r =>
    simp only [Lin.step] at hs
    split at hs
    · cases hs
    · rename_i hn
      split at hs
      · rename_i hr
        subst hr
        cases hs
        refine h.other (i := i) (fun j e => by simp [e]) (fun j e => by simp [e]) (fun v' hv => ?_)
        simp [World.getArray] at hv
        subst hv
        obtain ⟨l, hl⟩ := acqEvs_ok ghost v
        exact ⟨w.tr i ++ l, by simp [hl]⟩
      · cases hs
        refine h.other (i := i) (fun j e => rfl) (fun j e => by simp [e]) (fun v' hv => ?_)
        have : w.h i = none := by simpa using hn
        simp [World.getArray, this] at hv
  | setVec i v r =>
    simp only [Lin.step] at hs
    split at hs
    · cases hs
    · split at hs
      · cases hs; exact h
      · cases hs
        refine h.other (i := i) (fun j e => by simp [e]) (fun j e => by simp [e]) (fun v' hv => ?_)
        simp [World.getArray] at hv
        obtain ⟨hr, hv⟩ := hv
        subst hr; subst hv
        obtain ⟨l, hl⟩ := acqEvs_ok ghost v
        exact ⟨w.tr i ++ l, by simp [hl]⟩
  | restore i =>
    simp only [Lin.step] at hs
    split at hs
    · cases hs
    · cases hs; exact h.restore ghost i _
  | destroy i =>
    simp only [Lin.step] at hs
    split at hs
    · cases hs
    · rename_i s _
      cases hs
      refine (h.restore ghost i s).other (i := i) (fun j e => by simp [e]) (fun j e => rfl) (fun v' hv => ?_)
      simp [World.getArray] at hv
  | copy i j => exact absurd hc id

theorem Backed.run {ghost : Bool} {w w' : World} (h : Backed w) (os : List Op) (hc : ∀ o ∈ os, NoCopy o) (hs : run ghost w os = some w') :
    Backed w' := by
  induction os generalizing w with
  | nil => cases hs; exact h
  | cons o os ih =>
    simp only [Lin.run] at hs
    cases e : Lin.step ghost w o with
    | none => simp [e] at hs
    | some w1 =>
      simp only [e, Option.bind_some] at hs
      exact ih (h.step (hc o (by simp)) e) (fun o ho => hc o (by simp [ho])) hs

/-- C62: in every program without copies, whatever attempts to attach fail, a handle that gives an array has acquired it by its last call to
PETSc; so it gives none after an attempt that failed and none after a release. -/
theorem C62_access {ghost : Bool} {os : List Op} {w : World} (hc : ∀ o ∈ os, NoCopy o) (hs : run ghost empty os = some w) {i v : ℕ}
    (h : w.getArray i = some v) : ∃ l, w.tr i = l ++ [.getArr v] :=
  Backed.run (w := empty) (fun i v h => by simp [World.getArray, empty] at h) os hc hs i v h

/-- C62: an attempt to attach that fails leaves the handle without an array. -/
theorem C62_failed_no_access {ghost : Bool} {w w' : World} {i v : ℕ} {r : Acq} (hr : r ≠ .ok) (hn : w.getArray i = none)
    (hs : step ghost w (.setVec i v r) = some w') : w'.getArray i = none := by
  simp only [step] at hs
  split at hs
  · cases hs
  · split at hs
    · cases hs; exact hn
    · cases hs; simp [World.getArray, hr]

/-- A ghosted handle: the array of vector 7 is refused, the handle is released and attached to vector 8. -/
example : ∃ w, run true empty [.create 0, .setVec 0 7 .noArr, .restore 0, .setVec 0 8 .ok] = some w ∧ w.getArray 0 = some 8 ∧
    w.tr 0 = [.getForm 7, .relArr 7, .relForm 7, .getForm 8, .getArr 8] := ⟨_, rfl, rfl, rfl⟩

/-- Before the release there is no array. -/
example : ∃ w w', run true empty [.create 0] = some w ∧ w.getArray 0 = none ∧ step true w (.setVec 0 7 .noArr) = some w' ∧ w'.getArray 0 = none :=
  ⟨_, _, rfl, rfl, rfl, rfl⟩

end Lin
end FVENS
