import Verif.Reflect2.TypeByName

/-!
# C158: the ids of goroutines, and storage by id

Models of gls/goid.go (the offset found at the start, and `GoID`) and of the functions of gls/gls.go 25-52 and 101-103 that are given an id,
for any id.  The machine has 64 bits and is little-endian.
-/

namespace Verif.Gls.GoId

open Verif.Reflect2.TypeByName

/-! ### Model -/

/-- A field of a struct, as gls/goid.go 16-17 looks at it. -/
structure Field where
  name : Bytes
  offset : Nat
  deriving DecidableEq

/-- `init`, gls/goid.go 11-18: the offset, or `none` for a panic: by `TypeByName` if there is no such struct (so that line 13 is never true),
or at line 17 because `FieldByName` has returned nil (reflect2/unsafe_struct.go 37-43).  `fieldsOf` are the fields of a struct. -/
def initOffset (types : Types) (fieldsOf : Ty → List Field) : Option Nat :=
  match typeByName types (asc "runtime.g") with
  | .panic => none
  | .type t => ((fieldsOf t).find? fun f => f.name = asc "goid").map Field.offset

/-- The number in the `n` bytes from an address, the lowest first (gls/goid.go 23-24). -/
def load (mem : Nat → UInt8) : Nat → Nat → Nat
  | 0, _ => 0
  | n + 1, a => (mem a).toNat + 256 * load mem n (a + 1)

/-- `GoID`, gls/goid.go 21-25: the `int64` at `getg() + goidOffset`. -/
def goID (mem : Nat → UInt8) (g offset : Nat) : Int := Int.bmod (load mem 8 ((g + offset) % 2 ^ 64)) (2 ^ 64)

/-- `globalMaps`, gls/gls.go 10: shards by index, each from ids to maps (by reference; `none` inside is the nil map). -/
abbrev Shards := Nat → Int → Option (Option Nat)

/-- Calls of the functions that change them (gls/gls.go 25-39). -/
inductive Op where
  /-- `ResetGls`, gls/gls.go 25-31. -/
  | reset (id : Int) (m : Option Nat)
  /-- `DeleteGls`, gls/gls.go 33-39. -/
  | delete (id : Int)
  deriving DecidableEq

/-- `globalLocks[goid % shardsCount]`, gls/gls.go 26-27, 34-35 and 42-43: the index, or `none` for the panic if it is negative.  The
remainder has the sign of the id. -/
def shardIndex (id : Int) : Option Nat := if id.tmod 16 < 0 then none else some (id.tmod 16).toNat

/-- One call, gls/gls.go 25-39; `none` is a panic. -/
def call (s : Shards) : Op → Option Shards
  | .reset id m => (shardIndex id).map fun k => fun i j => if i = k ∧ j = id then some m else s i j
  | .delete id => (shardIndex id).map fun k => fun i j => if i = k ∧ j = id then none else s i j

/-- `GetGls`, gls/gls.go 41-52; the outer `none` is a panic, the inner one nil. -/
def getGls (s : Shards) (id : Int) : Option (Option Nat) :=
  (shardIndex id).map fun k =>
    match s k id with
    | some m => m
    | none => none

/-- `IsGlsEnabled`, gls/gls.go 101-103; `none` is a panic. -/
def isGlsEnabled (s : Shards) (id : Int) : Option Bool := (getGls s id).map Option.isSome

/-- A history of calls, gls/gls.go 25-39; a caller that panics has changed nothing. -/
def run (s : Shards) : List Op → Shards
  | [] => s
  | o :: os =>
    match call s o with
    | some t => run t os
    | none => run s os

/-- The start, gls/gls.go 16-23. -/
def start : Shards := fun _ _ => none

/-! ### Specification -/

/-- Memory has the number `n` in the 8 bytes at `a`. -/
def Holds (mem : Nat → UInt8) (a n : Nat) : Prop := ∀ i < 8, (mem (a + i)).toNat = n / 256 ^ i % 256

/-- The map a user expects for an id: the one given last, unless deleted since. -/
def expected (id : Int) : List Op → Option Nat → Option Nat
  | [], m => m
  | .reset j m :: os, old => expected id os (if j = id then m else old)
  | .delete j :: os, old => expected id os (if j = id then none else old)

/-! ### Proofs -/

theorem load_holds (mem : Nat → UInt8) (k a n : Nat) (h : ∀ i < k, (mem (a + i)).toNat = n / 256 ^ i % 256) : load mem k a = n % 256 ^ k := by
  induction k generalizing a n with
  | zero => simp [load, Nat.mod_one]
  | succ k ih =>
    rw [load, ih (a + 1) (n / 256)]
    · have h0 := h 0 (by omega)
      simp only [Nat.add_zero, Nat.pow_zero, Nat.div_one] at h0
      rw [h0, Nat.pow_succ, Nat.mul_comm (256 ^ k) 256, Nat.mod_mul]
    · intro i hi
      rw [show a + 1 + i = a + (i + 1) by omega, h (i + 1) (by omega), Nat.pow_succ, Nat.mul_comm (256 ^ i) 256, Nat.div_div_eq_div_mul]

/-- C158, part: in a program in which the struct `runtime.g` is that of the runtime, and has `goid`, the offset is found, and `GoID` is the
number the runtime keeps there; so goroutines with different numbers get different ids.  Missing: programs with another struct of that
name (`another_runtime`); programs without it do not start (`no_g`, `no_goid`). -/
theorem goid_partial {ver : Bytes} (hv : Recent ver) (links : List Ty) (hl : Linked links (asc "runtime") (asc "runtime.g"))
    (hu : ∀ p, Linked links p (asc "runtime.g") → p = asc "runtime") (fieldsOf : Ty → List Field) (off : Nat)
    (hf : ⟨asc "goid", off⟩ ∈ fieldsOf (.struct (asc "runtime") (asc "runtime.g")))
    (hone : ∀ f ∈ fieldsOf (.struct (asc "runtime") (asc "runtime.g")), f.name = asc "goid" → f.offset = off) :
    ∃ o, initOffset (init ver links) fieldsOf = some o ∧
      (∀ mem g n, n < 2 ^ 63 → g + off + 8 ≤ 2 ^ 64 → Holds mem (g + off) n → goID mem g o = n) ∧
      ∀ mem g g' n n', n < 2 ^ 63 → n' < 2 ^ 63 → g + off + 8 ≤ 2 ^ 64 → g' + off + 8 ≤ 2 ^ 64 → Holds mem (g + off) n → Holds mem (g' + off) n' →
        n ≠ n' → goID mem g o ≠ goID mem g' o := by
  have key : ∀ mem g n, n < 2 ^ 63 → g + off + 8 ≤ 2 ^ 64 → Holds mem (g + off) n → goID mem g off = n := by
    intro mem g n hn hg hm
    unfold goID
    rw [Nat.mod_eq_of_lt (by omega), load_holds mem 8 _ n hm, Nat.mod_eq_of_lt (show n < 256 ^ 8 by omega)]
    rw [Int.bmod_eq_of_le (by omega) (by omega)]
  refine ⟨off, ?_, key, ?_⟩
  · unfold initOffset
    rw [by_name_partial hv links _ _ hl hu]
    show ((fieldsOf _).find? _).map _ = _
    cases hfind : (fieldsOf (.struct (asc "runtime") (asc "runtime.g"))).find? (fun f => decide (f.name = asc "goid")) with
    | none =>
      have := List.find?_eq_none.mp hfind _ hf
      simp at this
    | some f =>
      have h1 := List.find?_some hfind
      have h2 := List.mem_of_find?_eq_some hfind
      rw [Option.map_some, hone f h2 (by simpa using h1)]
  · intro mem g g' n n' hn hn' hg hg' hm hm' hne he
    rw [key mem g n hn hg hm, key mem g' n' hn' hg' hm'] at he
    omega

/-- Without the struct the program panics when it starts. -/
theorem no_g {ver : Bytes} (hv : Recent ver) (links : List Ty) (fieldsOf : Ty → List Field) (h : ∀ p, ¬ Linked links p (asc "runtime.g")) :
    initOffset (init ver links) fieldsOf = none := by
  unfold initOffset
  rw [unknown_panics hv links _ h]

/-- And also if the struct has no field `goid`. -/
theorem no_goid (types : Types) (fieldsOf : Ty → List Field) (h : ∀ t, ∀ f ∈ fieldsOf t, f.name ≠ asc "goid") : initOffset types fieldsOf = none := by
  unfold initOffset
  cases typeByName types (asc "runtime.g") with
  | panic => rfl
  | type t =>
    show ((fieldsOf t).find? _).map _ = none
    rw [List.find?_eq_none.mpr (fun f hf => by simpa using h t f hf)]
    rfl

/-- The layouts of the next two cases: `goid` is at 152 in the runtime's struct, at 0 in that of another package called runtime. -/
def layouts (t : Ty) : List Field :=
  if t = .struct (asc "runtime") (asc "runtime.g") then [⟨asc "stack", 0⟩, ⟨asc "goid", 152⟩] else [⟨asc "goid", 0⟩]

/-- Two goroutines, with the numbers 18 and 613, at 1000 and 2000. -/
def memory (a : Nat) : UInt8 := if a = 1152 then 18 else if a = 2152 then 101 else if a = 2153 then 2 else 0

theorem memory_holds : Holds memory (1000 + 152) 18 ∧ Holds memory (2000 + 152) 613 := by
  unfold Holds; decide +kernel

/-- C158 fails: with another package called runtime that has a struct g, the ids are read at the place of its field, and the two goroutines
have one id. -/
theorem another_runtime {ver : Bytes} (hv : Recent ver) (links : List Ty) (p : Bytes) (hp : p ≠ asc "runtime") :
    ∃ o, initOffset (init ver (links ++ [.ptr (.struct (asc "runtime") (asc "runtime.g")), .ptr (.struct p (asc "runtime.g"))])) layouts = some o ∧
      Holds memory (1000 + 152) 18 ∧ Holds memory (2000 + 152) 613 ∧ goID memory 1000 o = 0 ∧ goID memory 2000 o = 0 := by
  refine ⟨0, ?_, memory_holds.1, memory_holds.2, by decide +kernel, by decide +kernel⟩
  unfold initOffset
  rw [shadowed hv]
  show ((layouts (.struct p (asc "runtime.g"))).find? _).map _ = _
  rw [layouts, if_neg (by simpa using hp)]
  rfl

example : Recent (asc "go1.10") ∧ Linked [.ptr (.struct (asc "runtime") (asc "runtime.g"))] (asc "runtime") (asc "runtime.g") ∧
    initOffset (init (asc "go1.10") [.ptr (.struct (asc "runtime") (asc "runtime.g"))]) layouts = some 152 ∧
    goID memory 1000 152 = 18 ∧ goID memory 2000 152 = 613 := by
  refine ⟨?_, by unfold Linked; decide, by decide +kernel, by decide +kernel, by decide +kernel⟩
  unfold Recent; decide

theorem shard_some (id : Int) (h : 0 ≤ id ∨ 16 ∣ id) : ∃ k, shardIndex id = some k := by
  unfold shardIndex
  rw [if_neg]
  · exact ⟨_, rfl⟩
  · rcases h with h | h
    · exact Int.not_lt.mpr (Int.tmod_nonneg _ h)
    · rw [Int.tmod_eq_zero_of_dvd h]; decide

theorem run_at (ops : List Op) (s : Shards) (id : Int) (k : Nat) (hk : shardIndex id = some k) :
    (run s ops k id).join = expected id ops (s k id).join := by
  induction ops generalizing s with
  | nil => rfl
  | cons o ops ih =>
    rw [run]
    cases o with
    | reset j m =>
      rw [expected]
      by_cases hj : j = id
      · subst hj
        rw [call, hk, if_pos rfl]
        show (run _ ops k j).join = _
        rw [ih]
        simp
      · rw [if_neg hj, call]
        cases hs : shardIndex j with
        | none => exact ih s
        | some i =>
          show (run _ ops k id).join = _
          rw [ih]
          have : ¬ (k = i ∧ id = j) := fun h => hj h.2.symm
          simp only [this, if_false]
    | delete j =>
      rw [expected]
      by_cases hj : j = id
      · subst hj
        rw [call, hk, if_pos rfl]
        show (run _ ops k j).join = _
        rw [ih]
        simp
      · rw [if_neg hj, call]
        cases hs : shardIndex j with
        | none => exact ih s
        | some i =>
          show (run _ ops k id).join = _
          rw [ih]
          have : ¬ (k = i ∧ id = j) := fun h => hj h.2.symm
          simp only [this, if_false]

/-- C158, part: for an id that is not negative `GetGls` returns the map given with the last `ResetGls`, unless it was deleted since, and
`IsGlsEnabled` tells whether there is one, whatever was done with other ids.  Missing: negative ids (`negative_panics`). -/
theorem by_id_partial (ops : List Op) (id : Int) (h : 0 ≤ id ∨ 16 ∣ id) :
    getGls (run start ops) id = some (expected id ops none) ∧ isGlsEnabled (run start ops) id = some (expected id ops none).isSome := by
  obtain ⟨k, hk⟩ := shard_some id h
  have h1 : getGls (run start ops) id = some (expected id ops none) := by
    rw [getGls, hk]
    have := run_at ops start id k hk
    show some _ = _
    congr 1
    rw [show (start k id).join = none from rfl] at this
    rw [← this]
    cases hr : run start ops k id <;> simp [hr]
  exact ⟨h1, by rw [isGlsEnabled, h1]; rfl⟩

/-- C158 fails: for negative ids that are no multiples of 16 every function panics, even the question whether there is storage. -/
theorem negative_panics (s : Shards) (id : Int) (hneg : id < 0) (h : ¬ 16 ∣ id) (m : Option Nat) :
    getGls s id = none ∧ isGlsEnabled s id = none ∧ call s (.reset id m) = none ∧ call s (.delete id) = none := by
  have : shardIndex id = none := by
    unfold shardIndex
    rw [if_pos]
    have h1 : id.tmod 16 ≠ 0 := fun h0 => h (Int.dvd_of_tmod_eq_zero h0)
    have h2 : id.tmod 16 ≤ 0 := by
      have := Int.tmod_nonneg 16 (show 0 ≤ -id by omega)
      rw [Int.neg_tmod] at this
      omega
    omega
  simp [getGls, isGlsEnabled, call, this]

example : getGls (run start [.reset 5 (some 1), .reset 21 (some 2), .reset (-5) (some 4), .reset (-16) (some 3), .delete 21]) 5 = some (some 1) ∧
    getGls (run start [.reset 5 (some 1), .reset 21 (some 2), .delete 21]) 21 = some none ∧
    isGlsEnabled (run start [.reset (-16) (some 3)]) (-16) = some true ∧ isGlsEnabled (run start [.reset 7 none]) 7 = some false := by
  decide +kernel

end Verif.Gls.GoId
