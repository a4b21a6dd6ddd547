import Verif.BC.Model

/-!
# The option database (model of `src/utilities/aoptionparser.cpp`)

PETSc's database maps option names to optional values; what `PetscOptionsGet…` do with it is taken from
PETSc's documentation and source.  Conversion of text to numbers is an abstract function.  Not modelled:
`parse_cmd_options` (Boost), the messages printed, case-insensitivity of names.
-/

namespace FVENS
namespace Ctl
namespace Petsc

/-- PETSc's options database: `none` if the name was not given, `some none` if it was given without a value. -/
abbrev Db := String → Option (Option String)

/-- An entry of an integer array: a number, or a range such as `3-7`, standing for several numbers. -/
inductive Entry
  | one (v : ℤ)
  | range (l : List ℤ)

/-- Conversion of values by PETSc (`PetscOptionsStringToInt` and so on); `none` is an error code. -/
structure Conv where
  toInt : String → Option ℤ
  toReal : String → Option ℝ
  toBool : String → Option Bool
  /-- `PetscTokenCreate(svalue, ',')`, and the meaning of each token. -/
  toEntries : String → List (Option Entry)

/-- Arguments changed by a `PetscOptionsGet…` call (output, `set`); `none` is a non-zero error code. -/
abbrev Got (α : Type) := Option (α × Bool)

/-- `PetscOptionsGetInt`, `PetscOptionsGetReal`: an option without value counts as not set, and then the output keeps its value. -/
def getNum {α : Type} (conv : String → Option α) (d : Db) (name : String) (out : α) : Got α :=
  match d name with
  | some (some s) => (conv s).map fun v => (v, true)
  | _ => some (out, false)

/-- `PetscOptionsGetBool`: an option without value is true. -/
def getBool (C : Conv) (d : Db) (name : String) (out : Bool) : Got Bool :=
  match d name with
  | none => some (out, false)
  | some none => some (true, true)
  | some (some s) => (C.toBool s).map fun v => (v, true)

/-- `PetscOptionsGetString` with a buffer length `len`: at most `len - 1` characters and a terminator are stored. -/
def getString (d : Db) (name : String) (len : ℕ) : List Char × Bool :=
  match d name with
  | none => ([], false)
  | some none => ([], true)
  | some (some s) => (s.toList.take (len - 1), true)

/-- Loop of `PetscOptionsGetIntArray`: stops silently when the array is full, an error if a range does not fit. -/
def arrLoop (nmax : ℕ) : List (Option Entry) → List ℤ → Option (List ℤ)
  | [], acc => some acc
  | e :: es, acc =>
    if acc.length < nmax then
      match e with
      | none => none
      | some (.one v) => arrLoop nmax es (acc ++ [v])
      | some (.range l) => if acc.length + l.length ≤ nmax then arrLoop nmax es (acc ++ l) else none
    else some acc

/-- `PetscOptionsGetIntArray`. -/
def getIntArray (C : Conv) (d : Db) (name : String) (nmax : ℕ) : Got (List ℤ) :=
  match d name with
  | some (some s) => (arrLoop nmax (C.toEntries s) []).map fun l => (l, true)
  | _ => some ([], false)

/-! ### The functions of the code -/

open BC (Res)

/-- `parsePetscCmd_isDefined`, src/utilities/aoptionparser.cpp:39-49 (`PetscOptionsHasName`). -/
def isDefined (d : Db) (name : String) : Bool := (d name).isSome

/-- `parsePetscCmd_int`, src/utilities/aoptionparser.cpp:54-63. -/
def parseInt (C : Conv) (d : Db) (name : String) : Res ℤ :=
  match getNum C.toInt d name 0 with
  | none => .throws
  | some (v, set) => if !set then .throws else .ok v

/-- `parseOptionalPetscCmd_real`, src/utilities/aoptionparser.cpp:68-80. -/
noncomputable def parseReal (C : Conv) (d : Db) (name : String) (defval : ℝ) : Res ℝ :=
  match getNum C.toReal d name 0 with
  | none => .throws
  | some (v, set) => if !set then .ok defval else .ok v

/-- `parsePetscCmd_bool`, src/utilities/aoptionparser.cpp:82-91. -/
def parseBool (C : Conv) (d : Db) (name : String) : Res Bool :=
  match getBool C d name false with
  | none => .throws
  | some (v, set) => if !set then .throws else .ok v

/-- `parseOptionalPetscCmd_bool`, src/utilities/aoptionparser.cpp:93-104. -/
def parseOptBool (C : Conv) (d : Db) (name : String) : Res Bool :=
  match getBool C d name false with
  | none => .throws
  | some (v, set) => if set then .ok v else .ok false

/-- `parsePetscCmd_string`, src/utilities/aoptionparser.cpp:106-119.  Second component: number of buffers allocated and not
deleted when the function is left. -/
def parseString (d : Db) (name : String) (len : ℕ) : Res (List Char) × ℕ :=
  let live := 1
  match getString d name len with
  | (tt, set) => if !set then (.throws, live) else (.ok tt, live - 1)

/-- `parsePetscCmd_intArray`, src/utilities/aoptionparser.cpp:124-137.  `&arr[0]` of an empty vector is undefined. -/
def parseInts (C : Conv) (d : Db) (name : String) (maxlen : ℕ) : Res (List ℤ) :=
  if maxlen = 0 then .ub
  else match getIntArray C d name maxlen with
    | none => .throws
    | some (l, set) => if !set then .throws else .ok l

/-- `parseOptionalPetscCmd_intArray`, src/utilities/aoptionparser.cpp:139-157. -/
def parseOptInts (C : Conv) (d : Db) (name : String) (maxlen : ℕ) : Res (List ℤ) :=
  if maxlen = 0 then .ub
  else match getIntArray C d name maxlen with
    | none => .throws
    | some (l, set) => if !set then .ok [] else .ok l

/-- The part of the loop of `SteadyBackwardEulerSolver::solve` which decides about the interpolation of the multigrid
preconditioner, src/ode/aodesolver.cpp:400, 430-448: whether `PCGAMGSetReuseInterpolation` gets `PETSC_FALSE` in the steps
`step, step + 1, …`; `flag` is `tocomputeamginterpolation`. -/
def amgLoop (list : List ℤ) : ℕ → ℕ → Bool → List Bool
  | 0, _, _ => []
  | n + 1, step, flag =>
    let flag := if ((step : ℤ) + 1) ∈ list then true else flag
    if flag then true :: amgLoop list n (step + 1) false else false :: amgLoop list n (step + 1) flag

/-- Steps in which the interpolation is computed anew, `n` steps, src/ode/aodesolver.cpp:396-448. -/
def amgRun (C : Conv) (d : Db) (n : ℕ) : Res (List Bool) :=
  match parseOptInts C d "-amg_recompute_interpolation" 3 with
  | .ok l => .ok (amgLoop l n 0 false)
  | .throws => .throws
  | .ub => .ub

/-! ## Specification -/

/-- The user gave the option with a value that converts to `v`. -/
def Given {α : Type} (conv : String → Option α) (d : Db) (name : String) (v : α) : Prop :=
  ∃ s, d name = some (some s) ∧ conv s = some v

/-- The user gave the option with a value that makes no sense. -/
def Malformed {α : Type} (conv : String → Option α) (d : Db) (name : String) : Prop :=
  ∃ s, d name = some (some s) ∧ conv s = none

/-- No value was given. -/
def NoValue (d : Db) (name : String) : Prop := d name = none ∨ d name = some none

/-- The user listed the plain numbers `l`. -/
def Listed (C : Conv) (d : Db) (name : String) (l : List ℤ) : Prop :=
  ∃ s, d name = some (some s) ∧ C.toEntries s = l.map fun v => some (.one v)

/-! ## C117: theorems -/

/-- C117: a mandatory integer is returned exactly if it was given; anything else is an exception. -/
theorem C117_int (C : Conv) (d : Db) (name : String) :
    (∀ v, parseInt C d name = .ok v ↔ Given C.toInt d name v) ∧
    (parseInt C d name = .throws ↔ NoValue d name ∨ Malformed C.toInt d name) := by
  unfold parseInt getNum Given Malformed NoValue
  rcases h : d name with _ | _ | s
  · simp
  · simp
  · rcases hc : C.toInt s with _ | v <;> simp [hc]

/-- C117: an optional real number has the given value, or the default if no value was given; a malformed value is an
exception. -/
theorem C117_real (C : Conv) (d : Db) (name : String) (defval : ℝ) :
    (∀ v, Given C.toReal d name v → parseReal C d name defval = .ok v) ∧
    (NoValue d name → parseReal C d name defval = .ok defval) ∧
    (Malformed C.toReal d name → parseReal C d name defval = .throws) := by
  unfold parseReal getNum Given Malformed NoValue
  refine ⟨?_, ?_, ?_⟩
  · rintro v ⟨s, h, hc⟩; simp [h, hc]
  · rintro (h | h) <;> simp [h]
  · rintro ⟨s, h, hc⟩; simp [h, hc]

/-- C117: switches.  A switch given alone is on; a mandatory one must be given; an optional one is off if not given. -/
theorem C117_bool (C : Conv) (d : Db) (name : String) :
    (d name = none → parseBool C d name = .throws ∧ parseOptBool C d name = .ok false) ∧
    (d name = some none → parseBool C d name = .ok true ∧ parseOptBool C d name = .ok true) ∧
    (∀ v, Given C.toBool d name v → parseBool C d name = .ok v ∧ parseOptBool C d name = .ok v) ∧
    (Malformed C.toBool d name → parseBool C d name = .throws ∧ parseOptBool C d name = .throws) := by
  unfold parseBool parseOptBool getBool Given Malformed
  refine ⟨?_, ?_, ?_, ?_⟩
  · intro h; simp [h]
  · intro h; simp [h]
  · rintro v ⟨s, h, hc⟩; simp [h, hc]
  · rintro ⟨s, h, hc⟩; simp [h, hc]

/-- C117: the matrix-free solver is chosen (src/utilities/casesolvers.cpp:205) as the switch says, exactly unless the user
switches it off explicitly or gives a value that makes no sense. -/
theorem C117_matrixFree_iff (C : Conv) (d : Db) (name : String) :
    parseOptBool C d name = .ok (isDefined d name) ↔
      ¬ Given C.toBool d name false ∧ ¬ Malformed C.toBool d name := by
  unfold parseOptBool getBool Given Malformed isDefined
  rcases h : d name with _ | _ | s
  · simp
  · simp
  · rcases hc : C.toBool s with _ | v
    · simp [hc]
    · cases v <;> simp [hc]

/-- C117: a string is returned up to the length of the buffer less one; the whole string exactly if it is shorter than
the buffer.  (The first part is what the code does, the second what the caller wants.) -/
theorem C117_string_iff (d : Db) (name : String) (len : ℕ) (s : String) (h : d name = some (some s)) (hl : 0 < len) :
    (parseString d name len).1 = .ok s.toList ↔ s.length < len := by
  have hs : s.toList.length = s.length := rfl
  simp only [parseString, getString, h]
  simp [List.take_eq_self_iff]
  omega

/-- C117: the string returned is a prefix of the one given, never longer than the buffer allows together with its terminator. -/
theorem C117_string_prefix (d : Db) (name : String) (len : ℕ) (hl : 0 < len) {t : List Char}
    (h : (parseString d name len).1 = .ok t) :
    t.length + 1 ≤ len ∧ (d name = some none ∧ t = [] ∨ ∃ s, d name = some (some s) ∧ t <+: s.toList) := by
  unfold parseString getString at h
  rcases hd : d name with _ | _ | s
  · simp [hd] at h
  · simp [hd] at h
    subst h
    exact ⟨hl, .inl ⟨rfl, rfl⟩⟩
  · simp [hd] at h
    subst h
    refine ⟨?_, .inr ⟨s, rfl, List.take_prefix _ _⟩⟩
    simp only [List.length_take]
    omega

/-- C117: the buffer is deleted exactly if the option was given. -/
theorem C117_buffer_iff (d : Db) (name : String) (len : ℕ) : (parseString d name len).2 = 0 ↔ d name ≠ none := by
  unfold parseString getString
  rcases hd : d name with _ | _ | s <;> simp

theorem arrLoop_one (nmax : ℕ) (l acc : List ℤ) (h : acc.length ≤ nmax) :
    arrLoop nmax (l.map fun v => some (.one v)) acc = some ((acc ++ l).take nmax) := by
  induction l generalizing acc with
  | nil => simp [arrLoop, List.take_of_length_le h]
  | cons v l ih =>
    simp only [List.map_cons, arrLoop]
    split_ifs with hlt
    · rw [ih _ (by simp; omega)]; simp
    · have he : acc.length = nmax := by omega
      rw [List.take_append, List.take_of_length_le (by omega), he]; simp

theorem arrLoop_length (nmax : ℕ) (es : List (Option Entry)) (acc l : List ℤ) (h : acc.length ≤ nmax)
    (hl : arrLoop nmax es acc = some l) : l.length ≤ nmax := by
  induction es generalizing acc with
  | nil => simp [arrLoop] at hl; subst hl; exact h
  | cons e es ih =>
    simp only [arrLoop] at hl
    split_ifs at hl with hlt
    · rcases e with _ | _ | r
      · simp at hl
      · exact ih _ (by simp; omega) hl
      · simp only at hl
        split_ifs at hl with hr
        exact ih _ (by simpa using hr) hl
    · simp at hl; subst hl; exact h

/-- C117: the optional array never exceeds the length asked for, and is empty if no value was given. -/
theorem C117_ints_length (C : Conv) (d : Db) (name : String) (maxlen : ℕ) (hm : 0 < maxlen) :
    (∀ l, parseOptInts C d name maxlen = .ok l → l.length ≤ maxlen) ∧
    (NoValue d name → parseOptInts C d name maxlen = .ok [] ∧ parseInts C d name maxlen = .throws) ∧
    parseOptInts C d name maxlen ≠ .ub := by
  have hm' : maxlen ≠ 0 := by omega
  unfold parseOptInts parseInts getIntArray NoValue
  rcases hd : d name with _ | _ | s
  · simp [hm']
  · simp [hm']
  · rcases ha : arrLoop maxlen (C.toEntries s) [] with _ | l
    · simp [hm', ha]
    · have := arrLoop_length maxlen _ [] l (by simp) ha
      simp [hm', ha, this]

/-- C117: of plain numbers as many are returned as asked for; all of them exactly if there are not more. -/
theorem C117_ints_iff (C : Conv) (d : Db) (name : String) (maxlen : ℕ) (hm : 0 < maxlen) (l : List ℤ)
    (h : Listed C d name l) :
    parseOptInts C d name maxlen = .ok (l.take maxlen) ∧ parseInts C d name maxlen = .ok (l.take maxlen) ∧
    (parseOptInts C d name maxlen = .ok l ↔ l.length ≤ maxlen) := by
  have hm' : maxlen ≠ 0 := by omega
  obtain ⟨s, hd, he⟩ := h
  have ho : parseOptInts C d name maxlen = .ok (l.take maxlen) := by
    simp [parseOptInts, getIntArray, hd, he, hm', arrLoop_one]
  refine ⟨ho, by simp [parseInts, getIntArray, hd, he, hm', arrLoop_one], ?_⟩
  rw [ho]
  simp [List.take_eq_self_iff]

theorem amgLoop_eq (l : List ℤ) (n step : ℕ) :
    amgLoop l n step false = (List.range n).map fun k => decide (((step + k : ℕ) : ℤ) + 1 ∈ l) := by
  induction n generalizing step with
  | zero => rfl
  | succ n ih =>
    rw [List.range_succ_eq_map]
    by_cases h : (step : ℤ) + 1 ∈ l
    · simp [amgLoop, h, ih]
      intro a _
      rw [show (step : ℤ) + 1 + a + 1 = step + (a + 1) + 1 by ring]
    · simp [amgLoop, h, ih]
      intro a _
      rw [show (step : ℤ) + 1 + a + 1 = step + (a + 1) + 1 by ring]

/-- C117: the interpolation operators of the multigrid preconditioner are computed anew in iteration `k` (counted from 1)
exactly if `k` is among the first three numbers listed. -/
theorem C117_amg (C : Conv) (d : Db) (n : ℕ) (l : List ℤ) (h : Listed C d "-amg_recompute_interpolation" l) :
    ∃ r, amgRun C d n = .ok r ∧ r.length = n ∧
      ∀ k (hk : k < r.length), r[k] = true ↔ ((k : ℤ) + 1) ∈ l.take 3 := by
  refine ⟨_, by simp [amgRun, (C117_ints_iff C d _ 3 (by norm_num) l h).1]; rfl, ?_, ?_⟩
  · simp [amgLoop_eq]
  · intro k hk
    simp [amgLoop_eq]

/-- C117: without the option they are never computed anew. -/
theorem C117_amg_off (C : Conv) (d : Db) (n : ℕ) (h : NoValue d "-amg_recompute_interpolation") :
    amgRun C d n = .ok (List.replicate n false) := by
  have := ((C117_ints_length C d "-amg_recompute_interpolation" 3 (by norm_num)).2.1 h).1
  simp [amgRun, this, amgLoop_eq]

/-! ### What goes wrong, and concrete cases -/

/-- A conversion for examples: decimal numbers, `true` and `false`. -/
def plain : Conv where
  toInt := String.toInt?
  toReal := fun s => s.toInt?.map fun z => (z : ℝ)
  toBool := fun s => if s = "true" then some true else if s = "false" then some false else none
  toEntries := fun s => if s = "1,5,10,20" then [1, 5, 10, 20].map (fun v => some (.one v)) else [none]

/-- A database for examples. -/
def db : Db := fun name =>
  if name = "-matrix_free_jacobian" then some (some "false")
  else if name = "-amg_recompute_interpolation" then some (some "1,5,10,20")
  else if name = "-file" then some (some "abcdefgh")
  else if name = "-verbose" then some none
  else none

/-- C117 refuted: `-matrix_free_jacobian false` selects the matrix-free solver. -/
theorem C117_matrixFree_refuted :
    Given plain.toBool db "-matrix_free_jacobian" false ∧ isDefined db "-matrix_free_jacobian" = true :=
  ⟨⟨"false", by decide, by decide⟩, by decide⟩

/-- C117 refuted: a value of eight characters read with length eight loses its last character, although the buffer
allocated has room for it. -/
theorem C117_string_refuted :
    db "-file" = some (some "abcdefgh") ∧ (parseString db "-file" 8).1 = .ok "abcdefg".toList := by
  refine ⟨by decide, ?_⟩
  decide

/-- C117 refuted: if a mandatory string is missing the buffer stays allocated. -/
theorem C117_buffer_refuted (len : ℕ) : parseString db "-absent" len = (.throws, 1) := by
  have : db "-absent" = none := by decide
  simp [parseString, getString, this]

/-- C117 refuted: a fourth iteration listed for the interpolation is forgotten silently. -/
theorem C117_amg_refuted :
    Listed plain db "-amg_recompute_interpolation" [1, 5, 10, 20] ∧
    ∃ r, amgRun plain db 25 = .ok r ∧ r[19]? = some false := by
  have h : Listed plain db "-amg_recompute_interpolation" [1, 5, 10, 20] :=
    ⟨"1,5,10,20", by decide, by simp [plain]⟩
  refine ⟨h, ?_⟩
  obtain ⟨r, hr, hl, hk⟩ := C117_amg plain db 25 _ h
  refine ⟨r, hr, ?_⟩
  have h19 : 19 < r.length := by omega
  have := hk 19 h19
  rw [List.getElem?_eq_getElem h19]
  have hf : ¬ (r[19] = true) := by rw [this]; decide
  simpa using hf

example : parseOptBool plain db "-verbose" = .ok true := ((C117_bool plain db "-verbose").2.1 (by decide)).2
example : parseReal plain db "-verbose" 3 = .ok 3 := (C117_real plain db "-verbose" 3).2.1 (.inr (by decide))
example : parseInt plain db "-verbose" = .throws := (C117_int plain db "-verbose").2.2 (.inl (.inr (by decide)))
example : parseOptBool plain db "-verbose" = .ok (isDefined db "-verbose") :=
  (C117_matrixFree_iff plain db "-verbose").2
    ⟨fun ⟨_, h, _⟩ => absurd h (by simp [db]), fun ⟨_, h, _⟩ => absurd h (by simp [db])⟩
example : (parseString db "-file" 9).1 = .ok "abcdefgh".toList :=
  (C117_string_iff db "-file" 9 "abcdefgh" (by decide) (by norm_num)).2 (by decide)
example : "abcdefg".toList.length + 1 ≤ 8 :=
  (C117_string_prefix db "-file" 8 (by norm_num) (C117_string_refuted).2).1
example : (parseString db "-file" 9).2 = 0 := (C117_buffer_iff db "-file" 9).2 (by decide)
example : parseOptInts plain db "-amg_recompute_interpolation" 4 = .ok [1, 5, 10, 20] :=
  ((C117_ints_iff plain db "-amg_recompute_interpolation" 4 (by norm_num) _ C117_amg_refuted.1).2.2).2 (by simp)
example : parseOptInts plain db "-absent" 3 = .ok [] :=
  ((C117_ints_length plain db "-absent" 3 (by norm_num)).2.1 (.inl (by decide))).1
example : ∃ r, amgRun plain db 6 = .ok r ∧ r[4]? = some true := by
  obtain ⟨r, hr, hl, hk⟩ := C117_amg plain db 6 _ C117_amg_refuted.1
  have h4 : 4 < r.length := by omega
  exact ⟨r, hr, by rw [List.getElem?_eq_getElem h4, (hk 4 h4).2 (by decide)]⟩
example : amgRun plain (fun _ => none) 2 = .ok [false, false] := C117_amg_off plain _ 2 (.inl rfl)

end Petsc
end Ctl
end FVENS
