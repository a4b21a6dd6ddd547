import Mathlib.Data.List.Induction
import Verif.Life.Model

/-! # Following one object through a list of events -/

namespace FVENS.Life

/-- What becomes of one object, present at first or not: present or not in the end; nothing if it was created while present, or used or destroyed while absent. -/
def fate (o : Obj) : Bool → List Ev → Option Bool
  | b, [] => some b
  | b, .make o' :: t => if o' = o then (if b then none else fate o true t) else fate o b t
  | b, .use o' :: t => if o' = o then (if b then fate o true t else none) else fate o b t
  | b, .free o' :: t => if o' = o then (if b then fate o false t else none) else fate o b t

theorem fate_append (o : Obj) (t t' : List Ev) : ∀ b, fate o b (t ++ t') = (fate o b t).bind fun b' => fate o b' t' := by
  induction t with
  | nil => intro b; rfl
  | cons e t ih =>
    intro b
    cases e <;> simp only [List.cons_append, fate] <;> split_ifs <;> simp [ih]

theorem Live.append {t : List Ev} {o : Obj} (h : Live t o) (e : Ev) (he : e ≠ .free o) : Live (t ++ [e]) o := by
  obtain ⟨a, b, rfl, hb⟩ := h
  exact ⟨a, b ++ [e], by simp, by simpa [hb] using fun h => he h.symm⟩

theorem Live.of_append {t : List Ev} {o : Obj} {e : Ev} (h : Live (t ++ [e]) o) (he : e ≠ .make o) : Live t o ∧ e ≠ .free o := by
  obtain ⟨a, b, hab, hb⟩ := h
  rcases List.eq_nil_or_concat b with rfl | ⟨b', x, rfl⟩
  · exfalso
    have := congrArg List.getLast? hab
    simp at this
    exact he this
  · have h2 : t ++ [e] = (a ++ Ev.make o :: b') ++ [x] := by simpa using hab
    obtain ⟨h3, h4⟩ := List.append_inj' h2 rfl
    simp at h4
    subst h4
    refine ⟨⟨a, b', h3, fun h => hb (by simp [h])⟩, ?_⟩
    rintro rfl
    exact hb (by simp)

theorem live_make (t : List Ev) (o : Obj) : Live (t ++ [.make o]) o := ⟨t, [], rfl, by simp⟩

theorem not_live_free (t : List Ev) (o : Obj) : ¬ Live (t ++ [.free o]) o := fun h => (h.of_append (by simp)).2 rfl

theorem not_live_nil (o : Obj) : ¬ Live [] o := by rintro ⟨a, b, h, -⟩; simp at h

/-- Following the object tells whether it exists. -/
theorem fate_live (o : Obj) (t : List Ev) : ∀ b, fate o false t = some b → (b = true ↔ Live t o) := by
  induction t using List.reverseRecOn with
  | nil => intro b h; simp [fate] at h; subst h; simp [not_live_nil]
  | append_singleton t e ih =>
    intro b h
    rw [fate_append] at h
    cases hb : fate o false t with
    | none => simp [hb] at h
    | some b' =>
      rw [hb] at h
      have hi := ih b' hb
      cases e with
      | make o' =>
        by_cases hoo : o' = o
        · subst hoo
          cases b' <;> simp [fate] at h
          subst h; simp [live_make]
        · simp [fate, hoo] at h; subst h
          rw [hi]
          exact ⟨fun h => h.append _ (by simp), fun h => (h.of_append (by simp [hoo])).1⟩
      | use o' =>
        have hb2 : b' = b := by
          by_cases hoo : o' = o
          · subst hoo
            cases b' <;> simp [fate] at h
            subst h; rfl
          · simpa [fate, hoo] using h
        subst hb2
        rw [hi]
        exact ⟨fun h => h.append _ (by simp), fun h => (h.of_append (by simp)).1⟩
      | free o' =>
        by_cases hoo : o' = o
        · subst hoo
          cases b' <;> simp [fate] at h
          subst h; simp [not_live_free]
        · simp [fate, hoo] at h; subst h
          rw [hi]
          exact ⟨fun h => h.append _ (by simp [hoo]), fun h => (h.of_append (by simp)).1⟩

/-- If every object can be followed to the end the events are safe. -/
theorem safe_of_fate {t : List Ev} (h : ∀ o, (fate o false t).isSome) : Safe t := by
  have key : ∀ a e b o, t = a ++ e :: b → ∃ x, fate o false a = some x ∧ (fate o x (e :: b)).isSome := by
    intro a e b o hab
    have h1 := h o
    rw [hab, fate_append] at h1
    cases hx : fate o false a with
    | none => simp [hx] at h1
    | some x => exact ⟨x, rfl, by simpa [hx] using h1⟩
  refine ⟨fun a b o hab => ?_, fun a b o hab => ?_, fun a b o hab => ?_⟩ <;> obtain ⟨x, hx, h2⟩ := key a _ b o hab <;> have h3 := fate_live o a x hx <;>
    cases x <;> simp [fate] at h2 <;> simpa using h3

theorem fate_live_iff {o : Obj} {t : List Ev} {b : Bool} (h : fate o false t = some b) : Live t o ↔ b = true := (fate_live o t b h).symm

/-- Events on other objects do not matter. -/
theorem fate_other {o : Obj} {t : List Ev} (h : Ev.make o ∉ t ∧ Ev.use o ∉ t ∧ Ev.free o ∉ t) (b : Bool) : fate o b t = some b := by
  induction t with
  | nil => rfl
  | cons e t ih =>
    simp only [List.mem_cons, not_or] at h
    obtain ⟨⟨h1, h2⟩, ⟨h3, h4⟩, h5, h6⟩ := h
    cases e with
    | make o' => simp only [fate, show o' ≠ o from fun h => h1 (by rw [h]), if_false, ih ⟨h2, h4, h6⟩]
    | use o' => simp only [fate, show o' ≠ o from fun h => h3 (by rw [h]), if_false, ih ⟨h2, h4, h6⟩]
    | free o' => simp only [fate, show o' ≠ o from fun h => h5 (by rw [h]), if_false, ih ⟨h2, h4, h6⟩]

/-- Uses keep a present object. -/
theorem fate_uses {o : Obj} {t : List Ev} (h : Ev.make o ∉ t ∧ Ev.free o ∉ t) : fate o true t = some true := by
  induction t with
  | nil => rfl
  | cons e t ih =>
    simp only [List.mem_cons, not_or] at h
    obtain ⟨⟨h1, h2⟩, h5, h6⟩ := h
    cases e with
    | make o' => simp only [fate, show o' ≠ o from fun h => h1 (by rw [h]), if_false, ih ⟨h2, h6⟩]
    | use o' => simp only [fate, ih ⟨h2, h6⟩, if_true, ite_self]
    | free o' => simp only [fate, show o' ≠ o from fun h => h5 (by rw [h]), if_false, ih ⟨h2, h6⟩]

end FVENS.Life
