import Verif.Life.Fate

/-! # What becomes of the objects in the pieces of a case -/

namespace FVENS.Life

/-- All configured boundary conditions are of an implemented type. -/
def Cfg.BcsOk (c : Cfg) : Prop := ∀ b ∈ c.bcs, b.2 = true

/-- The boundary condition of entry `i` is the last one configured for its tag. -/
def Cfg.Last (c : Cfg) (i : ℕ) : Prop := ∃ l b l', c.bcs = l ++ b :: l' ∧ l.length = i ∧ ∀ e ∈ l', e.1 ≠ b.1

theorem bcMake_ok (p : Phase) (l : List (ℤ × Bool)) : ∀ i, (∀ b ∈ l, b.2 = true) →
    bcMake p i l = ((List.range' i l.length).map fun j => Ev.make ⟨p, .bc j⟩, none) := by
  induction l with
  | nil => intro i _; rfl
  | cons b l ih =>
    intro i h
    have hb : b.2 = true := h b (by simp)
    simp [bcMake, hb, ih (i + 1) (fun e he => h e (by simp [he])), andThen, tell, List.range'_succ]

theorem bcMake_bad (p : Phase) (l : List (ℤ × Bool)) : ∀ i, (¬ ∀ b ∈ l, b.2 = true) →
    ∃ k, k < l.length ∧ bcMake p i l = ((List.range' i k).map fun j => Ev.make ⟨p, .bc j⟩, some .other) := by
  induction l with
  | nil => intro i h; simp at h
  | cons b l ih =>
    intro i h
    cases hb : b.2 with
    | false => exact ⟨0, by simp, by simp [bcMake, hb, raise]⟩
    | true =>
      obtain ⟨k, hk, hm⟩ := ih (i + 1) (fun h' => h fun e he => by
        rcases List.mem_cons.1 he with rfl | he
        · exact hb
        · exact h' e he)
      exact ⟨k + 1, by simpa using hk, by simp [bcMake, hb, hm, andThen, tell, List.range'_succ]⟩

theorem fate_makes (p : Phase) (j : ℕ) (n : ℕ) : ∀ i, fate ⟨p, .bc j⟩ false ((List.range' i n).map fun j => Ev.make ⟨p, .bc j⟩) = some (decide (i ≤ j ∧ j < i + n)) := by
  induction n with
  | zero => intro i; simp [fate]
  | succ n ih =>
    intro i
    rw [List.range'_succ, List.map_cons]
    by_cases h : i = j
    · subst h
      simp only [fate, if_true]
      rw [if_neg (by simp), fate_uses ⟨?_, ?_⟩]
      · simp
      · simp; omega
      · simp
    · simp only [fate, Obj.mk.injEq, Kind.bc.injEq, true_and, h, if_false, ih]
      congr 1
      rw [decide_eq_decide]
      omega

/-- The map returned by the loop over the boundary conditions. -/
theorem mem_bcMap (t : ℤ) (v : ℕ) (l : List (ℤ × Bool)) : ∀ i m, (t, v) ∈ bcMap i l m ↔
    ((t, v) ∈ m ∧ ∀ e ∈ l, e.1 ≠ t) ∨ ∃ l₁ b l₂, l = l₁ ++ b :: l₂ ∧ v = i + l₁.length ∧ b.1 = t ∧ ∀ e ∈ l₂, e.1 ≠ t := by
  induction l with
  | nil => intro i m; simp [bcMap]
  | cons b l ih =>
    intro i m
    rw [bcMap, ih]
    constructor
    · rintro (⟨h, hl⟩ | ⟨l₁, b', l₂, rfl, hv, hb, hl⟩)
      · simp only [put, List.mem_append, List.mem_filter, List.mem_singleton, Prod.mk.injEq] at h
        rcases h with ⟨h, ht⟩ | ⟨rfl, rfl⟩
        · refine Or.inl ⟨h, fun e he => ?_⟩
          rcases List.mem_cons.1 he with rfl | he
          · exact fun h => absurd h.symm (by simpa using ht)
          · exact hl e he
        · exact Or.inr ⟨[], b, l, rfl, by simp, rfl, hl⟩
      · exact Or.inr ⟨b :: l₁, b', l₂, rfl, by simp [hv]; omega, hb, hl⟩
    · rintro (⟨h, hl⟩ | ⟨l₁, b', l₂, hl, hv, hb, h2⟩)
      · refine Or.inl ⟨?_, fun e he => hl e (by simp [he])⟩
        simp only [put, List.mem_append, List.mem_filter]
        exact Or.inl ⟨h, by simpa using fun h : t = b.1 => hl b (by simp) h.symm⟩
      · cases l₁ with
        | nil =>
          simp only [List.nil_append, List.cons.injEq] at hl
          obtain ⟨rfl, rfl⟩ := hl
          exact Or.inl ⟨by simp [put, hb, hv], h2⟩
        | cons x l₁ =>
          simp only [List.cons_append, List.cons.injEq] at hl
          obtain ⟨rfl, rfl⟩ := hl
          exact Or.inr ⟨l₁, b', l₂, rfl, by simp [hv]; omega, hb, h2⟩

theorem bcMap_nodup (l : List (ℤ × Bool)) : ∀ i m, (m.map Prod.snd).Nodup → (∀ e ∈ m, e.2 < i) → ((bcMap i l m).map Prod.snd).Nodup := by
  induction l with
  | nil => intro i m h _; exact h
  | cons b l ih =>
    intro i m h hi
    refine ih (i + 1) _ ?_ ?_
    · rw [put, List.map_append, List.nodup_append]
      refine ⟨List.Nodup.sublist (List.Sublist.map _ List.filter_sublist) h, by simp, ?_⟩
      intro x hx y hy
      simp only [List.mem_map, List.mem_filter, List.map_cons, List.map_nil, List.mem_singleton] at hx hy
      obtain ⟨e, ⟨he, -⟩, rfl⟩ := hx
      have := hi e he
      omega
    · intro e he
      simp only [put, List.mem_append, List.mem_filter, List.mem_singleton] at he
      rcases he with ⟨he, -⟩ | rfl
      · exact Nat.lt_succ_of_lt (hi e he)
      · simp

/-- The boundary conditions in the map of a discretisation. -/
def Cfg.vals (c : Cfg) : List ℕ := (bcMap 0 c.bcs []).map Prod.snd

theorem Cfg.vals_nodup (c : Cfg) : c.vals.Nodup := bcMap_nodup _ _ _ (by simp) (by simp)

theorem Cfg.mem_vals (c : Cfg) (i : ℕ) : i ∈ c.vals ↔ c.Last i := by
  simp only [vals, List.mem_map, Prod.exists, exists_eq_right, mem_bcMap, List.not_mem_nil, false_and, false_or, Nat.zero_add]
  constructor
  · rintro ⟨t, l, b, b', l', hl, rfl, rfl, h⟩
    exact ⟨l, (b, b'), l', hl, rfl, h⟩
  · rintro ⟨l, b, l', hl, rfl, h⟩
    exact ⟨b.1, l, b.1, b.2, l', hl, rfl, rfl, h⟩

theorem Cfg.Last.lt {c : Cfg} {i : ℕ} (h : c.Last i) : i < c.bcs.length := by
  obtain ⟨l, b, l', hl, rfl, -⟩ := h
  rw [hl]; simp

theorem onBcs_eq (p : Phase) (f : Obj → Ev) (c : Cfg) : onBcs p f c = c.vals.map fun i => f ⟨p, .bc i⟩ := by
  simp [onBcs, Cfg.vals, List.map_map, Function.comp_def]

theorem fate_frees (p : Phase) (j : ℕ) (l : List ℕ) (hl : l.Nodup) (hj : j ∈ l) : fate ⟨p, .bc j⟩ true (l.map fun i => Ev.free ⟨p, .bc i⟩) = some false := by
  induction l with
  | nil => simp at hj
  | cons i l ih =>
    simp only [List.nodup_cons] at hl
    rw [List.map_cons]
    by_cases h : i = j
    · subst h
      simp only [fate, if_true]
      exact fate_other ⟨by simp, by simp, by simpa using hl.1⟩ _
    · simp only [fate, Obj.mk.injEq, Kind.bc.injEq, true_and, h, if_false]
      exact ih hl.2 ((List.mem_cons.1 hj).resolve_left (fun h' => h h'.symm))

open Classical in
theorem fate_bcFree (p : Phase) (j : ℕ) (c : Cfg) (b : Bool) (h : c.Last j → b = true) :
    fate ⟨p, .bc j⟩ b (onBcs p .free c) = some (b && !decide (c.Last j)) := by
  rw [onBcs_eq]
  by_cases hj : c.Last j
  · rw [h hj, fate_frees p j _ c.vals_nodup ((c.mem_vals j).2 hj)]
    simp [hj]
  · rw [fate_other ⟨by simp, by simp, by simpa using fun h => hj ((c.mem_vals j).1 h)⟩]
    simp [hj]

theorem fate_bcUse (p : Phase) (j : ℕ) (c : Cfg) (b : Bool) (h : c.Last j → b = true) : fate ⟨p, .bc j⟩ b (onBcs p .use c) = some b := by
  rw [onBcs_eq]
  by_cases hj : c.Last j
  · rw [h hj]
    exact fate_uses ⟨by simp, by simp⟩
  · exact fate_other ⟨by simp, by simpa using fun h => hj ((c.mem_vals j).1 h), by simp⟩ _

theorem fate_onBcs_use {o : Obj} (p : Phase) (c : Cfg) (h : ∀ i, o ≠ ⟨p, .bc i⟩) (b : Bool) : fate o b (onBcs p .use c) = some b := by
  rw [onBcs_eq]
  exact fate_other ⟨by simp, by simpa using fun i _ => (h i).symm, by simp⟩ _

theorem fate_onBcs_free {o : Obj} (p : Phase) (c : Cfg) (h : ∀ i, o ≠ ⟨p, .bc i⟩) (b : Bool) : fate o b (onBcs p .free c) = some b := by
  rw [onBcs_eq]
  exact fate_other ⟨by simp, by simp, by simpa using fun i _ => (h i).symm⟩ _

theorem fate_bcMakes {o : Obj} (p : Phase) (i n : ℕ) (h : ∀ i, o ≠ ⟨p, .bc i⟩) (b : Bool) : fate o b ((List.range' i n).map fun j => Ev.make ⟨p, .bc j⟩) = some b :=
  fate_other ⟨by simpa using fun i _ _ => (h i).symm, by simp, by simp⟩ _

theorem fate_steps {o : Obj} {p : Phase} {o2 : Bool} {c : Cfg} {b : Bool} (h : fate o b (step p o2 c) = some b) (n : ℕ) : fate o b (steps p o2 c n) = some b := by
  induction n with
  | zero => rfl
  | succ n ih => rw [steps, fate_append, h, Option.bind_some, ih]

end FVENS.Life
