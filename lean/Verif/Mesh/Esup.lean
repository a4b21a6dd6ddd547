import Verif.Mesh.Model
import Mathlib.Algebra.BigOperators.Intervals
import Mathlib.Data.List.Count
import Mathlib.Tactic.Linarith

/-!
# Cells around points (C25)
-/

namespace FVENS
namespace Msh

open Finset (sum_range_succ)

/-! ### Loops -/

theorem forLt_zero {σ : Type*} (s : σ) (b : ℕ → σ → σ) : forLt 0 s b = s := rfl

theorem forLt_succ {σ : Type*} (n : ℕ) (s : σ) (b : ℕ → σ → σ) :
    forLt (n + 1) s b = b n (forLt n s b) := by
  simp [forLt, List.range_succ]

theorem forLt_congr {σ : Type*} {n : ℕ} {s : σ} {b b' : ℕ → σ → σ}
    (h : ∀ i, i < n → ∀ s, b i s = b' i s) : forLt n s b = forLt n s b' := by
  induction n with
  | zero => rfl
  | succ n ih => rw [forLt_succ, forLt_succ, ih (fun i hi s => h i (by omega) s), h n (by omega)]

/-- Invariant rule for counting loops. -/
theorem forLt_inv {σ : Type*} {n : ℕ} {s : σ} {b : ℕ → σ → σ} (I : ℕ → σ → Prop)
    (h0 : I 0 s) (hs : ∀ i s, i < n → I i s → I (i + 1) (b i s)) : I n (forLt n s b) := by
  induction n with
  | zero => exact h0
  | succ n ih => rw [forLt_succ]; exact hs n _ (by omega) (ih (fun i s hi => hs i s (by omega)))

/-- All pairs (cell, local face/vertex) in the order of the double loops. -/
def pairs (n : ℕ) (k : ℕ → ℕ) : List (ℕ × ℕ) :=
  (List.range n).flatMap fun i => (List.range (k i)).map fun j => (i, j)

theorem forLt_forLt {σ : Type*} (n : ℕ) (k : ℕ → ℕ) (s : σ) (b : ℕ → ℕ → σ → σ) :
    (forLt n s fun i s => forLt (k i) s fun j s => b i j s)
      = (pairs n k).foldl (fun s x => b x.1 x.2 s) s := by
  simp [forLt, pairs, List.foldl_flatMap, List.foldl_map]

theorem mem_pairs {n : ℕ} {k : ℕ → ℕ} {x : ℕ × ℕ} : x ∈ pairs n k ↔ x.1 < n ∧ x.2 < k x.1 := by
  rcases x with ⟨i, j⟩
  simp [pairs]

theorem pairs_nodup (n : ℕ) (k : ℕ → ℕ) : (pairs n k).Nodup := by
  unfold pairs
  rw [List.nodup_flatMap]
  refine ⟨fun i _ => (List.nodup_range).map (fun a b h => by simpa using h), ?_⟩
  refine List.Nodup.pairwise_of_forall_ne List.nodup_range ?_
  intro a _ b _ hab x hx hy
  simp at hx hy
  obtain ⟨_, _, rfl⟩ := hx
  obtain ⟨_, _, h⟩ := hy
  simp at h; exact hab h.1.symm

theorem pairs_succ (n : ℕ) (k : ℕ → ℕ) :
    pairs (n + 1) k = pairs n k ++ (List.range (k n)).map (fun j => (n, j)) := by
  simp [pairs, List.range_succ]

/-! ### Arrays -/

@[simp] theorem upd_same {α : Type*} (f : ℕ → α) (i : ℕ) (v : α) : upd f i v i = v := by simp [upd]

theorem upd_ne {α : Type*} (f : ℕ → α) {i a : ℕ} (v : α) (h : a ≠ i) : upd f i v a = f a := by
  simp [upd, h]

/-! ### The counting sort -/

/-- Number of pairs whose key is `v`. -/
def cnt (P : List (ℕ × ℕ)) (v : ℕ) : ℕ := P.countP (fun x => x.1 = v)

/-- Values stored under key `v`, in order. -/
def vals (P : List (ℕ × ℕ)) (v : ℕ) : List ℕ := (P.filter (fun x => x.1 = v)).map Prod.snd

theorem vals_length (P : List (ℕ × ℕ)) (v : ℕ) : (vals P v).length = cnt P v := by
  simp [vals, cnt, List.countP_eq_length_filter]

theorem cnt_append (P Q : List (ℕ × ℕ)) (v : ℕ) : cnt (P ++ Q) v = cnt P v + cnt Q v := by
  simp [cnt]

theorem vals_append (P Q : List (ℕ × ℕ)) (v : ℕ) : vals (P ++ Q) v = vals P v ++ vals Q v := by
  simp [vals]

theorem cnt_single (k i v : ℕ) : cnt [(k, i)] v = if k = v then 1 else 0 := by
  simp [cnt, List.countP_cons]

theorem vals_single (k i v : ℕ) : vals [(k, i)] v = if k = v then [i] else [] := by
  by_cases h : k = v <;> simp [vals, h]

theorem count_fold (P : List (ℕ × ℕ)) :
    ∀ v, (P.foldl (fun p x => upd p (x.1 + 1) (p (x.1 + 1) + 1)) (fun _ => 0)) v
      = if v = 0 then 0 else cnt P (v - 1) := by
  induction P using List.reverseRecOn with
  | nil => intro v; simp [cnt]
  | append_singleton P x ih =>
    intro v
    rw [List.foldl_append]
    simp only [List.foldl_cons, List.foldl_nil, upd, ih, cnt_append]
    rcases x with ⟨k, i⟩
    rw [cnt_single]
    rcases v with _ | v
    · simp
    · by_cases h : v = k
      · subst h; simp
      · have : ¬ k = v := fun h' => h h'.symm
        simp [h, this]

/-- Start of the block of key `v`. -/
def start (P : List (ℕ × ℕ)) (v : ℕ) : ℕ := ∑ w ∈ Finset.range v, cnt P w

theorem start_succ (P : List (ℕ × ℕ)) (v : ℕ) : start P (v + 1) = start P v + cnt P v := by
  simp [start, sum_range_succ]

theorem start_mono (P : List (ℕ × ℕ)) {v w : ℕ} (h : v ≤ w) : start P v ≤ start P w := by
  induction h with
  | refl => exact le_rfl
  | step h ih => rw [start_succ]; omega

theorem cumulate_spec (P : List (ℕ × ℕ)) (n : ℕ) (p : ℕ → ℕ)
    (hp : ∀ v, p v = if v = 0 then 0 else cnt P (v - 1)) :
    ∀ v, v ≤ n → cumulate n p v = start P v := by
  have key : ∀ k, k ≤ n → ∀ v, (forLt k p fun i p => upd p (i + 1) (p (i + 1) + p i)) v
      = if v ≤ k then start P v else p v := by
    intro k hk
    induction k with
    | zero => intro v; rw [forLt_zero]; by_cases h : v = 0 <;> simp [h, hp, start]
    | succ k ih =>
      intro v
      rw [forLt_succ]
      simp only [upd, ih (by omega)]
      by_cases h : v = k + 1
      · subst h
        simp [hp, start_succ]; omega
      · rw [if_neg h]
        by_cases h2 : v ≤ k
        · rw [if_pos h2, if_pos (by omega)]
        · rw [if_neg h2, if_neg (by omega)]
  intro v hv
  rw [cumulate, key n le_rfl, if_pos hv]

/-- The blocks of different keys do not overlap. -/
theorem slot_inj {P : List (ℕ × ℕ)} {v w k l : ℕ} (hk : k < cnt P v) (hl : l < cnt P w)
    (h : start P v + k = start P w + l) : v = w ∧ k = l := by
  rcases lt_trichotomy v w with hvw | hvw | hvw
  · have := start_mono P (show v + 1 ≤ w from hvw); rw [start_succ] at this; omega
  · subst hvw; exact ⟨rfl, by omega⟩
  · have := start_mono P (show w + 1 ≤ v from hvw); rw [start_succ] at this; omega

theorem fill_spec (L : List (ℕ × ℕ)) (n : ℕ) (p : ℕ → ℕ) (hp : ∀ v, v ≤ n → p v = start L v)
    (P : List (ℕ × ℕ)) : ∀ Q, L = P ++ Q → (∀ x ∈ L, x.1 < n) →
    let s := P.foldl (fun s x => csrPush s x.1 x.2) ⟨fun _ => 0, p⟩
    (∀ v, v ≤ n → s.ptr v = start L v + cnt P v) ∧
    ∀ v, v < n → ∀ k (hk : k < (vals P v).length), s.val (start L v + k) = (vals P v)[k] := by
  induction P using List.reverseRecOn with
  | nil => intro Q _ _; simp [cnt, vals]; exact fun v hv => hp v hv
  | append_singleton P x ih =>
    intro Q hL hb
    obtain ⟨hptr, hval⟩ := ih ([x] ++ Q) (by simp [hL]) hb
    rcases x with ⟨key, i⟩
    have hkey : key < n := hb (key, i) (by simp [hL])
    rw [List.foldl_append]
    simp only [List.foldl_cons, List.foldl_nil]
    generalize P.foldl (fun s x => csrPush s x.1 x.2) ⟨fun _ => 0, p⟩ = s at hptr hval ⊢
    simp only [csrPush]
    have hlt : cnt P key < cnt L key := by
      rw [hL, cnt_append, cnt_append, cnt_single]; simp; omega
    refine ⟨?_, ?_⟩
    · intro v hv
      by_cases h : v = key
      · subst h
        simp [cnt_append, cnt_single, hptr v hv]; omega
      · have : ¬ key = v := fun h' => h h'.symm
        rw [upd_ne _ _ h, hptr v hv, cnt_append, cnt_single]; simp [this]
    · intro v hv k hk
      have hk' : k < cnt L v := by
        rw [vals_length] at hk
        rw [hL, cnt_append]; omega
      rw [hptr key (by omega)]
      by_cases h : start L v + k = start L key + cnt P key
      · obtain ⟨rfl, rfl⟩ := slot_inj hk' hlt h
        simp [vals_append, vals_single, ← vals_length]
      · rw [upd_ne _ _ h]
        have hk2 : k < (vals P v).length := by
          by_contra hc
          rw [vals_append, List.length_append, vals_single] at hk
          by_cases hv2 : key = v
          · subst hv2
            simp at hk
            have : k = (vals P key).length := by omega
            exact h (by rw [this, vals_length])
          · simp [hv2] at hk; omega
        rw [hval v hv k hk2]
        simp [vals_append, hk2]

theorem shiftBack_spec (n : ℕ) (p : ℕ → ℕ) :
    ∀ v, v ≤ n → shiftBack n p v = if v = 0 then 0 else p (v - 1) := by
  have key : ∀ k, ∀ (p : ℕ → ℕ) v,
      ((List.range k).reverse.foldl (fun p i => upd p (i + 1) (p i)) p) v
        = if 0 < v ∧ v ≤ k then p (v - 1) else p v := by
    intro k
    induction k with
    | zero => intro p v; simp; intro h; omega
    | succ k ih =>
      intro p v
      rw [List.range_succ, List.reverse_append]
      simp only [List.reverse_cons, List.reverse_nil, List.nil_append, List.foldl_append,
        List.foldl_cons, List.foldl_nil, ih]
      by_cases h1 : 0 < v ∧ v ≤ k
      · rw [if_pos h1, if_pos ⟨h1.1, by omega⟩, upd_ne _ _ (by omega)]
      · rw [if_neg h1]
        by_cases h2 : v = k + 1
        · subst h2; simp
        · rw [upd_ne _ _ h2, if_neg (by omega)]
  intro v hv
  rw [shiftBack]
  by_cases h : v = 0
  · subst h; simp
  · rw [upd_ne _ _ h, key, if_pos ⟨by omega, hv⟩, if_neg h]

/-- The list of (vertex, cell) pairs of the double loop. -/
def incid (m : Mesh) : List (ℕ × ℕ) := (pairs m.nelem m.nfael).map fun x => (m.inpoel x.1 x.2, x.1)

/-- Every vertex of a cell is a valid point number. -/
def NodesOk (m : Mesh) : Prop := ∀ i, i < m.nelem → ∀ j, j < m.nfael i → m.inpoel i j < m.npoin

theorem incid_lt {m : Mesh} (h : NodesOk m) : ∀ x ∈ incid m, x.1 < m.npoin := by
  intro x hx
  simp only [incid, List.mem_map] at hx
  obtain ⟨⟨i, j⟩, hij, rfl⟩ := hx
  rw [mem_pairs] at hij
  exact h i hij.1 j hij.2

theorem esupCount_spec (m : Mesh) : ∀ v, esupCount m v = if v = 0 then 0 else cnt (incid m) (v - 1) := by
  intro v
  rw [← count_fold, esupCount, forLt_forLt, incid, List.foldl_map]

theorem esup_spec {m : Mesh} (h : NodesOk m) :
    (∀ v, v ≤ m.npoin → (esup m).ptr v = start (incid m) v) ∧
    ∀ v, v < m.npoin → (esup m).list v = vals (incid m) v := by
  have hfill : esupFill m (cumulate m.npoin (esupCount m)) =
      (incid m).foldl (fun s x => csrPush s x.1 x.2) ⟨fun _ => 0, cumulate m.npoin (esupCount m)⟩ := by
    rw [esupFill, forLt_forLt, incid, List.foldl_map]
  obtain ⟨hptr, hval⟩ := fill_spec (incid m) m.npoin _
    (cumulate_spec (incid m) m.npoin _ (esupCount_spec m)) (incid m) [] (by simp) (incid_lt h)
  rw [← hfill] at hptr hval
  have hp : ∀ v, v ≤ m.npoin → (esup m).ptr v = start (incid m) v := by
    intro v hv
    show shiftBack m.npoin _ v = _
    rw [shiftBack_spec _ _ v hv]
    rcases v with _ | v
    · simp [start]
    · simp only [Nat.add_eq_zero_iff, one_ne_zero, and_false, if_false, Nat.add_sub_cancel]
      rw [hptr v (by omega), start_succ]
  refine ⟨hp, fun v hv => ?_⟩
  unfold Csr.list
  rw [hp v (by omega), hp (v + 1) (by omega), start_succ]
  apply List.ext_getElem
  · simp [vals_length]
  · intro k h1 h2
    simp only [List.getElem_map, List.getElem_range]
    exact hval v hv k h2

/-! ### Specification and C25 -/

/-- The cells having `v` as a vertex, in increasing order, once per occurrence: independent of the
array manipulations. -/
def cellsAround (m : Mesh) (v : ℕ) : List ℕ :=
  (List.range m.nelem).flatMap fun i =>
    List.replicate (((List.range (m.nfael i)).map (m.inpoel i)).count v) i

theorem vals_incid (m : Mesh) (v : ℕ) : vals (incid m) v = cellsAround m v := by
  unfold vals incid cellsAround pairs
  rw [List.map_flatMap, List.filter_flatMap, List.map_flatMap]
  congr 1
  funext i
  rw [List.map_map, List.filter_map, List.map_map]
  rw [List.eq_replicate_iff]
  constructor
  · rw [List.length_map, List.count, List.countP_map, List.countP_eq_length_filter]
    congr 2
  · intro b hb
    simp only [List.mem_map] at hb
    obtain ⟨_, _, rfl⟩ := hb
    rfl

/-- C25: the stored list of each point is exactly the cells around it (in increasing order, once per
occurrence), and the lists are laid out consecutively without overlap from `0` to the total number. -/
theorem C25_lists_exact {m : Mesh} (h : NodesOk m) :
    (∀ v, v < m.npoin → (esup m).list v = cellsAround m v) ∧
    (esup m).ptr 0 = 0 ∧
    (∀ v, v < m.npoin → (esup m).ptr (v + 1) = (esup m).ptr v + (cellsAround m v).length) := by
  obtain ⟨hp, hl⟩ := esup_spec h
  refine ⟨fun v hv => by rw [hl v hv, vals_incid], by rw [hp 0 (by omega)]; rfl, fun v hv => ?_⟩
  rw [hp v (by omega), hp (v + 1) (by omega), start_succ, ← vals_incid, vals_length]

/-- C25: membership form: a cell is in the list of a point iff the point is one of its vertices. -/
theorem C25_membership {m : Mesh} (h : NodesOk m) {v : ℕ} (hv : v < m.npoin) (i : ℕ) :
    i ∈ (esup m).list v ↔ i < m.nelem ∧ ∃ j, j < m.nfael i ∧ m.inpoel i j = v := by
  rw [(C25_lists_exact h).1 v hv]
  simp only [cellsAround, List.mem_flatMap, List.mem_range, List.mem_replicate]
  constructor
  · rintro ⟨i', hi', hc, rfl⟩
    refine ⟨hi', ?_⟩
    have : v ∈ (List.range (m.nfael i)).map (m.inpoel i) := List.count_pos_iff.1 (by omega)
    simpa using this
  · rintro ⟨hi, j, hj, hv⟩
    refine ⟨i, hi, ?_, rfl⟩
    have : v ∈ (List.range (m.nfael i)).map (m.inpoel i) := by simp; exact ⟨j, hj, hv⟩
    have := List.count_pos_iff.2 this
    omega

/-- C25: if the vertices of each cell are distinct, every list is strictly increasing (no cell twice). -/
theorem C25_strictly_increasing {m : Mesh} (h : NodesOk m)
    (hd : ∀ i, i < m.nelem → ∀ j k, j < m.nfael i → k < m.nfael i → m.inpoel i j = m.inpoel i k → j = k)
    {v : ℕ} (hv : v < m.npoin) : ((esup m).list v).Pairwise (· < ·) := by
  rw [(C25_lists_exact h).1 v hv, cellsAround, List.pairwise_flatMap]
  constructor
  · intro i hi
    have hi' : i < m.nelem := by simpa using hi
    have hc : ((List.range (m.nfael i)).map (m.inpoel i)).count v ≤ 1 := by
      apply List.nodup_iff_count_le_one.1
      refine List.Nodup.map_on ?_ List.nodup_range
      intro a ha b hb hab
      simp at ha hb
      exact hd i hi' a b ha hb hab
    generalize ((List.range (m.nfael i)).map (m.inpoel i)).count v = c at hc
    obtain rfl | rfl : c = 0 ∨ c = 1 := by omega
    · simp
    · simp
  · refine List.Pairwise.imp ?_ List.pairwise_lt_range
    intro a b hab x hx y hy
    simp only [List.mem_replicate] at hx hy
    omega

end Msh
end FVENS
