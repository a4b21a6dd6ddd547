import Mathlib.Data.List.Basic
import Mathlib.Tactic.Linarith
import Mathlib.Tactic.Ring

/-!
# Text form of dense arrays (C107)

Arrays of integers. A text stream is the list of numbers in it; after a failed extraction every further one fails and leaves its variable alone. Numbers are in the range of `fint`, a 32-bit `int`.
-/

namespace FVENS
namespace ArrText

/-- `Array2d<fint>`, src/utilities/aarray2d.hpp:45-48, with its row-major contents; cells may be indeterminate. -/
structure Arr where
  nr : ℤ
  nc : ℤ
  val : ℕ → Option ℤ

/-- Input stream: numbers left, and whether it is still good. -/
structure In where
  left : List ℤ
  good : Bool

/-- `infile >> x` for a variable with the value `old`. -/
def In.get {α : Type} (s : In) (f : ℤ → α) (old : α) : In × α :=
  match s.good, s.left with
  | true, t :: r => (⟨r, true⟩, f t)
  | true, [] => (⟨[], false⟩, old)
  | false, l => (⟨l, false⟩, old)

/-- Loop of extractions into `n` cells from the cell `k` on. -/
def readCells (k : ℕ) : ℕ → In × (ℕ → Option ℤ) → In × (ℕ → Option ℤ)
  | 0, r => r
  | n + 1, r =>
    let q := r.1.get some (r.2 k)
    readCells (k + 1) n (q.1, fun a => if a = k then q.2 else r.2 a)

/-- `fprint`, src/utilities/aarray2d.cpp:96-107; printing an indeterminate cell is undefined (`none`). The line ends are left out. -/
def fprint (a : Arr) : Option (List ℤ) := (List.range (a.nr.toNat * a.nc.toNat)).mapM a.val

/-- `fread`, src/utilities/aarray2d.cpp:109-119. `none`: overflow or a negative number of cells. New cells are indeterminate. With two negative dimensions nothing is read. -/
def fread (s : In) (a : Arr) : Option (In × Arr) :=
  let q := s.get id a.nr
  let q' := q.1.get id a.nc
  if 0 ≤ q.2 * q'.2 ∧ q.2 * q'.2 < 2 ^ 31 then
    let r := readCells 0 (q.2.toNat * q'.2.toNat) (q'.1, fun _ => none)
    some (r.1, ⟨q.2, q'.2, r.2⟩)
  else none

/-! ### Specification -/

/-- An array with proper dimensions and contents. -/
structure Proper (a : Arr) : Prop where
  nr : 0 ≤ a.nr
  nc : 0 ≤ a.nc
  fits : a.nr * a.nc < 2 ^ 31
  full : ∀ k, k < a.nr.toNat * a.nc.toNat → (a.val k).isSome

/-- Equal as arrays: same dimensions and same contents. -/
def Same (a b : Arr) : Prop := a.nr = b.nr ∧ a.nc = b.nc ∧ ∀ k, k < a.nr.toNat * a.nc.toNat → a.val k = b.val k

/-! ### Lemmas -/

theorem mapM_some {f : ℕ → Option ℤ} : ∀ n, (∀ k, k < n → (f k).isSome) → ∃ l, (List.range n).mapM f = some l ∧ l.length = n ∧ ∀ k, k < n → l[k]? = f k := fun n => by
  induction n with
  | zero => exact fun _ => ⟨[], rfl, rfl, fun k hk => by omega⟩
  | succ n ih =>
    intro h
    obtain ⟨l, h1, h2, h3⟩ := ih fun k hk => h k (by omega)
    obtain ⟨x, hx⟩ := Option.isSome_iff_exists.1 (h n (by omega))
    refine ⟨l ++ [x], ?_, by simp [h2], fun k hk => ?_⟩
    · rw [List.range_succ, List.mapM_append, h1]
      simp only [List.mapM_cons, List.mapM_nil, hx]
      rfl
    · rcases Nat.lt_succ_iff_lt_or_eq.1 hk with hk | rfl
      · rw [List.getElem?_append_left (by omega)]; exact h3 k hk
      · rw [List.getElem?_append_right (by omega), h2, hx]; simp

/-- The loop reads as many numbers as there are; the other cells keep their values. -/
theorem readCells_spec : ∀ (n k : ℕ) (l : List ℤ) (v : ℕ → Option ℤ), (readCells k n (⟨l, true⟩, v)).2 = fun a => if k ≤ a ∧ a < k + n ∧ a - k < l.length then l[a - k]? else v a := by
  intro n
  have bad : ∀ n k l v, (readCells k n (⟨l, false⟩, v)).2 = v := fun n => by
    induction n with
    | zero => intros; rfl
    | succ n ih =>
      intro k l v
      simp only [readCells, In.get, ih]
      funext a; split_ifs with h <;> simp [*]
  induction n with
  | zero => intro k l v; funext a; rw [if_neg (by omega)]; rfl
  | succ n ih =>
    intro k l v
    cases l with
    | nil =>
      simp only [readCells, In.get, bad]
      funext a; split_ifs with h <;> simp_all
    | cons t r =>
      simp only [readCells, In.get, ih]
      funext a
      by_cases h0 : a = k
      · subst h0; simp
      · by_cases h1 : k ≤ a
        · obtain ⟨d, rfl⟩ : ∃ d, a = k + 1 + d := ⟨a - (k + 1), by omega⟩
          have e1 : k + 1 + d - (k + 1) = d := by omega
          have e2 : k + 1 + d - k = d + 1 := by omega
          simp only [e1, e2, List.length_cons, List.getElem?_cons_succ, if_neg h0]
          split_ifs <;> first | rfl | omega
        · rw [if_neg (by omega), if_neg h0, if_neg (by omega)]

theorem readCells_rest : ∀ (n k : ℕ) (l r : List ℤ) (v : ℕ → Option ℤ), l.length = n → (readCells k n (⟨l ++ r, true⟩, v)).1 = ⟨r, true⟩ := fun n => by
  induction n with
  | zero => intro k l r v h; obtain rfl := List.length_eq_zero_iff.1 h; rfl
  | succ n ih =>
    intro k l r v h
    cases l with
    | nil => cases h
    | cons t l => simp only [readCells, In.get, List.cons_append]; exact ih _ l r _ (by simpa using h)

/-! ### Properties -/

/-- C107 (partial): from the dimensions followed by what `fprint` writes, `fread` restores the array, whatever the array read into was before, and leaves the rest of the stream. -/
theorem C107_with_dimensions_partial {a : Arr} (ha : Proper a) (b : Arr) (rest : List ℤ) : ∃ l a', fprint a = some l ∧ fread ⟨a.nr :: a.nc :: (l ++ rest), true⟩ b = some (⟨rest, true⟩, a') ∧ Same a a' := by
  obtain ⟨l, h1, h2, h3⟩ := mapM_some _ ha.full
  refine ⟨l, ⟨a.nr, a.nc, (readCells 0 (a.nr.toNat * a.nc.toNat) (⟨l ++ rest, true⟩, fun _ => none)).2⟩, h1, ?_, rfl, rfl, fun k hk => ?_⟩
  · have hc : 0 ≤ a.nr * a.nc ∧ a.nr * a.nc < 2 ^ 31 := ⟨mul_nonneg ha.nr ha.nc, ha.fits⟩
    refine (if_pos hc : fread ⟨a.nr :: a.nc :: (l ++ rest), true⟩ b = _).trans ?_
    show some ((readCells 0 (a.nr.toNat * a.nc.toNat) (⟨l ++ rest, true⟩, fun _ => none)).1, _) = _
    rw [readCells_rest _ _ _ _ _ h2]
    rfl
  · rw [readCells_spec]
    simp only [Nat.zero_le, true_and, Nat.zero_add, Nat.sub_zero]
    rw [if_pos ⟨hk, by rw [List.length_append]; omega⟩, List.getElem?_append_left (by omega), h3 k hk]

/-- C107 fails for every array with contents: `fprint` does not write the dimensions that `fread` expects, so that reading back what was written never gives the array, whatever it is read into. -/
theorem C107_round_trip_refuted {a : Arr} (ha : Proper a) (hne : 0 < a.nr * a.nc) (b : Arr) : ∃ l, fprint a = some l ∧ ∀ s a', fread ⟨l, true⟩ b = some (s, a') → ¬ Same a a' := by
  obtain ⟨l, h1, h2, h3⟩ := mapM_some _ ha.full
  refine ⟨l, h1, fun s a' hr hs => ?_⟩
  have hn : 0 < a.nr.toNat * a.nc.toNat := by
    have e : ((a.nr.toNat * a.nc.toNat : ℕ) : ℤ) = a.nr * a.nc := by push_cast [Int.toNat_of_nonneg ha.nr, Int.toNat_of_nonneg ha.nc]; rfl
    omega
  -- the last cell is not read
  have hlast : a'.val (a.nr.toNat * a.nc.toNat - 1) = none := by
    obtain ⟨e1, e2, -⟩ := hs
    unfold fread at hr
    dsimp only at hr
    split_ifs at hr with hc
    simp only [Option.some.injEq, Prod.mk.injEq] at hr
    obtain ⟨-, rfl⟩ := hr
    simp only at e1 e2 ⊢
    rw [← e1, ← e2]
    match l, h2 with
    | [], h2 => rw [List.length_nil] at h2; omega
    | [t], h2 =>
      simp only [In.get]
      generalize a.nr.toNat * a.nc.toNat = n at h2
      simp only [List.length_singleton] at h2
      subst h2
      rfl
    | t :: t' :: r, h2 =>
      simp only [In.get]
      rw [readCells_spec]
      simp only [List.length_cons] at h2
      exact if_neg fun h => by omega
  have := hs.2.2 (a.nr.toNat * a.nc.toNat - 1) (by omega)
  rw [hlast] at this
  have h4 := ha.full (a.nr.toNat * a.nc.toNat - 1) (by omega)
  rw [this] at h4
  cases h4

/-- Concrete case: the row 2 1 7 is read back as a column of two cells, 7 and an indeterminate one. -/
example : ∃ l s a', fprint ⟨1, 3, fun k => [2, 1, 7][k]?⟩ = some l ∧ fread ⟨l, true⟩ ⟨0, 0, fun _ => none⟩ = some (s, a') ∧ a'.nr = 2 ∧ a'.nc = 1 ∧ a'.val 0 = some 7 ∧ a'.val 1 = none :=
  ⟨_, _, _, rfl, rfl, rfl, rfl, rfl, rfl⟩

/-- The row meets the hypotheses. -/
example : Proper ⟨1, 3, fun k => [2, 1, 7][k]?⟩ := ⟨by norm_num, by norm_num, by norm_num, fun k hk => by
  have : k = 0 ∨ k = 1 ∨ k = 2 := by
    have : (1 : ℤ).toNat * (3 : ℤ).toNat = 3 := rfl
    simp only [this] at hk; omega
  rcases this with rfl | rfl | rfl <;> rfl⟩

theorem readCells_bad : ∀ (n k : ℕ) (l : List ℤ) (v : ℕ → Option ℤ), readCells k n (⟨l, false⟩, v) = (⟨l, false⟩, v) := fun n => by
  induction n with
  | zero => intro k l v; rfl
  | succ n ih =>
    intro k l v
    rw [readCells]
    have : (fun a => if a = k then ((⟨l, false⟩ : In).get some (v k)).2 else v a) = v := by
      funext a
      by_cases h : a = k <;> simp [h, In.get]
    simp only [this]
    exact ih (k + 1) l v

/-- C107, nothing to read: from a stream which has failed before or is at its end, `fread` keeps the dimensions of the array, in their places, and loses its contents: every cell is
indeterminate. -/
theorem C107_nothing_to_read {b : Arr} (hb : Proper b) (s : In) (hs : s.good = false ∨ s.left = []) :
    ∃ s' b', fread s b = some (s', b') ∧ s'.good = false ∧ b'.nr = b.nr ∧ b'.nc = b.nc ∧ ∀ k, b'.val k = none := by
  have hc : 0 ≤ b.nr * b.nc ∧ b.nr * b.nc < 2 ^ 31 := ⟨mul_nonneg hb.nr hb.nc, hb.fits⟩
  obtain ⟨l, h1, h2⟩ : ∃ l, s.get id b.nr = (⟨l, false⟩, b.nr) ∧ (⟨l, false⟩ : In).get id b.nc = (⟨l, false⟩, b.nc) := by
    rcases s with ⟨l, g⟩
    rcases hs with h | h <;> simp only at h <;> subst h
    · exact ⟨l, rfl, rfl⟩
    · exact ⟨[], by cases g <;> rfl, rfl⟩
  refine ⟨⟨l, false⟩, ⟨b.nr, b.nc, fun _ => none⟩, ?_, rfl, rfl, rfl, fun _ => rfl⟩
  simp only [fread, h1, h2]
  rw [if_pos hc, readCells_bad]

/-- Concrete case: the row 2 1 7 and an empty stream. -/
example : ∃ s' b', fread ⟨[], true⟩ ⟨1, 3, fun k => [2, 1, 7][k]?⟩ = some (s', b') ∧ s'.good = false ∧ b'.nr = 1 ∧ b'.nc = 3 ∧ ∀ k, b'.val k = none :=
  C107_nothing_to_read (b := ⟨1, 3, fun k => [2, 1, 7][k]?⟩) ⟨by norm_num, by norm_num, by norm_num, fun k hk => by
    have : k = 0 ∨ k = 1 ∨ k = 2 := by
      have : (1 : ℤ).toNat * (3 : ℤ).toNat = 3 := rfl
      simp only [this] at hk; omega
    rcases this with rfl | rfl | rfl <;> rfl⟩ _ (Or.inr rfl)

end ArrText
end FVENS
