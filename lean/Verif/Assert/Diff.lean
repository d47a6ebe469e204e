import Verif.Spew.Same
import Verif.Difflib.Unified

/-!
# assert: what a failed `Equal` says about the difference

`Equal` and `EqualValues` of two structs, maps, slices or arrays end their message with a diff
(/repo/test/testify/assert/assertions.go 1181-1224): both values are dumped by go-spew, and the dumps compared
line by line by go-difflib.  The models of the two are put together here.
-/

namespace Verif.Assert.Diff

open Verif.Spew (Val Env Types Kind sdump typeName IsPtr NoStar AllTyped Plainly Same Tame Quotes)
open Verif.Difflib (unifiedDiff splitLines patch patchHunks linesOf IsLine readRangeLine)

/-! ## Model -/

/-- `spewConfig`, assertions.go 1242-1247: an indent of one blank, no addresses, no capacities; the other fields of
`ConfigState` are zero.  `W` is the world around: what is in memory, what methods do.  Simplification: `SortKeys`
is left to the order in which `W` gives the entries of a map (Verif.Spew.Sort is about that). -/
def spewConfig (W : Env) : Env :=
  { W with indent := asc " ", maxDepth := 0, disableMethods := false, disableAddresses := true, disableCapacities := true,
           continueOnMethod := false }

/-- `typeAndKind`, assertions.go 1181-1190: of a pointer the type and the kind of what it points to; no kind stands for
that of a pointer.  Simplifications: a type is known by its text, `Γ` knowing the kinds; the text of the type of a
pointer is a star and that of the type it points to (no named pointer types). -/
def typeAndKind (Γ : Types) : Val → Bytes × Option Kind
  | .ptr ty _ => (ty.tail, if ty.tail.head? = some 42 then none else some (Γ.kind ty.tail))
  | v => (typeName v, some (Γ.kind (typeName v)))

/-- The kinds of assertions.go 1206; slices have two in `Γ`, since a slice or array of bytes is dumped in another way. -/
def hasDiff : Option Kind → Bool
  | some .struct | some .map | some .seq | some .bytes | some .array => true
  | _ => false

/-- `diff`, assertions.go 1194-1224; `n` bounds how deep the dumps go, `none` if that does not suffice (or if a line is
a format outside the model of `fmt.Sprintf`).  A value `none` is nil. -/
def diffText (Γ : Types) (W : Env) (n : Nat) : Option Val → Option Val → Option Bytes
  | some e, some a =>
    let (et, ek) := typeAndKind Γ e
    let (at_, _) := typeAndKind Γ a
    if et ≠ at_ then some []
    else if hasDiff ek = false then some []
    else
      (sdump (spewConfig W) n (some e)).bind fun x =>
      (sdump (spewConfig W) n (some a)).bind fun y =>
      (unifiedDiff ⟨splitLines x, asc "Expected", [], splitLines y, asc "Actual", [], [], 1⟩).map fun d =>
        asc "\n\nDiff:\n" ++ d
  | _, _ => some []

/-- The failure text of `Equal`, assertions.go 312-315, for what `formatUnequalValues` gives for the values. -/
def notEqual (expected actual diff : Bytes) : Bytes :=
  asc "Not equal: \nexpected: " ++ expected ++ asc "\nactual  : " ++ actual ++ diff

/-! ## Specification -/

/-- The types that are made of parts. -/
def OfParts (Γ : Types) (T : Bytes) : Prop :=
  Γ.kind T = .struct ∨ Γ.kind T = .map ∨ Γ.kind T = .seq ∨ Γ.kind T = .bytes ∨ Γ.kind T = .array

/-- `v` is of the type `T`, made of parts, or a pointer to that. -/
inductive Composite (Γ : Types) : Val → Bytes → Prop where
  | value {v T} : ¬IsPtr v → typeName v = T → OfParts Γ T → Composite Γ v T
  | ptr {T a} : NoStar T → OfParts Γ T → Composite Γ (.ptr (42 :: T) a) T

/-- Pointers, and only they, have types with a star in front. -/
def Starred (v : Val) : Prop := IsPtr v ↔ (typeName v).head? = some 42

/-! ## Proofs -/

theorem hasDiff_iff {Γ : Types} {T : Bytes} : hasDiff (some (Γ.kind T)) = true ↔ OfParts Γ T := by
  unfold OfParts
  cases Γ.kind T <;> simp [hasDiff]

theorem typeAndKind_value (Γ : Types) {v : Val} (h : ¬IsPtr v) : typeAndKind Γ v = (typeName v, some (Γ.kind (typeName v))) := by
  cases v <;> first | rfl | exact absurd trivial h

theorem composite_kind {Γ : Types} {v : Val} {T : Bytes} (h : Composite Γ v T) :
    typeAndKind Γ v = (T, some (Γ.kind T)) ∧ hasDiff (some (Γ.kind T)) = true := by
  cases h with
  | value h1 h2 h3 => subst h2; exact ⟨typeAndKind_value Γ h1, hasDiff_iff.mpr h3⟩
  | ptr h1 h2 =>
    refine ⟨?_, hasDiff_iff.mpr h2⟩
    show (T, if T.head? = some 42 then none else some (Γ.kind T)) = _
    rw [if_neg h1]

/-- The kind found is that of the type found. -/
theorem kind_of_type (Γ : Types) {v : Val} (hs : Starred v) {T : Bytes} {k : Option Kind} (h : typeAndKind Γ v = (T, k)) (hk : hasDiff k = true) :
    Composite Γ v T := by
  by_cases hp : IsPtr v
  · cases v with
    | ptr ty a =>
      have h42 := hs.mp trivial
      simp only [typeName] at h42
      cases ty with
      | nil => simp at h42
      | cons c ty =>
        have hc : c = 42 := by simpa using h42
        subst hc
        have h : (ty, if ty.head? = some 42 then none else some (Γ.kind ty)) = (T, k) := h
        rw [Prod.mk.injEq] at h
        obtain ⟨rfl, hk'⟩ := h
        by_cases h0 : ty.head? = some 42
        · rw [if_pos h0] at hk'; subst hk'; simp [hasDiff] at hk
        · rw [if_neg h0] at hk'; subst hk'
          exact .ptr h0 (hasDiff_iff.mp hk)
    | _ => exact absurd hp (by simp [IsPtr])
  · rw [typeAndKind_value Γ hp] at h
    injection h with h1 h2
    subst h2
    rw [h1] at hk
    exact .value hp h1 (hasDiff_iff.mp hk)

/-- A value of the same type, or a pointer to such, is composite as well. -/
theorem same_type_composite (Γ : Types) {v w : Val} (hs : Starred w) {T : Bytes} (hv : Composite Γ v T) (hT : NoStar T) (h : (typeAndKind Γ w).1 = T) :
    Composite Γ w T := by
  by_cases hp : IsPtr w
  · cases w with
    | ptr ty a =>
      have h42 := hs.mp trivial
      simp only [typeName] at h42
      cases ty with
      | nil => simp at h42
      | cons c ty =>
        have hc : c = 42 := by simpa using h42
        subst hc
        simp only [typeAndKind, List.tail_cons] at h
        subst h
        exact .ptr hT (hasDiff_iff.mp (composite_kind hv).2)
    | _ => exact absurd hp (by simp [IsPtr])
  · rw [typeAndKind_value Γ hp] at h
    exact .value hp h (hasDiff_iff.mp (composite_kind hv).2)

/-- A patch without removed and added lines changes nothing. -/
theorem patchHunks_same (A : List Bytes) : ∀ (ls : List Bytes) (i : Nat) (n m : Nat) (B : List Bytes), i ≤ A.length →
    (∀ l ∈ ls, l.head? ≠ some 45 ∧ l.head? ≠ some 43) → patchHunks A ls i (A.take i) n m = some B → B = A
  | [], i, n, m, B, hi, hl, h => by
    rw [patchHunks] at h
    split at h
    · injection h with h; rw [← h]; exact List.take_append_drop i A
    · cases h
  | l :: ls, i, n, m, B, hi, hl, h => by
    have hl' := fun l' h' => hl l' (List.mem_cons_of_mem _ h')
    rw [patchHunks] at h
    split at h
    · cases hr : readRangeLine l with
      | none => rw [hr] at h; cases h
      | some r =>
        obtain ⟨i1, n', j1, m'⟩ := r
        rw [hr] at h
        simp only [Option.bind_some] at h
        split at h
        · rename_i hc
          have e : A.take i ++ Verif.Difflib.slice A i i1 = A.take i1 := by
            unfold Verif.Difflib.slice
            rw [show i1 = i + (i1 - i) by omega, List.take_add]
            simp
          rw [e] at h
          exact patchHunks_same A ls i1 n' m' B hc.2.1 hl' h
        · cases h
    · split at h
      · split at h
        · rename_i hc
          obtain ⟨-, -, hc⟩ := hc
          have hlt : i < A.length := (List.getElem?_eq_some_iff.mp hc).1
          have e : A.take i ++ [l.tail] = A.take (i + 1) := by
            rw [List.take_add_one, hc]; rfl
          rw [e] at h
          exact patchHunks_same A ls (i + 1) (n - 1) (m - 1) B hlt hl' h
        · cases h
      · have hh := hl l (by simp)
        rw [if_neg hh.1, if_neg hh.2] at h
        cases h

/-- A diff that changes something has a line that is removed or added. -/
theorem patch_changes {A B : List Bytes} {text : Bytes} (h : patch A text = some B) (hne : A ≠ B) :
    ∃ l ∈ (linesOf text).drop 2, l.head? = some 45 ∨ l.head? = some 43 := by
  unfold patch at h
  split at h
  · injection h with h; exact absurd h hne
  · rename_i h1 h2 ls he
    split at h
    · rw [he]
      by_cases hx : ∃ l ∈ ls, l.head? = some 45 ∨ l.head? = some 43
      · exact hx
      · refine absurd (patchHunks_same A ls 0 0 0 B (Nat.zero_le _) (fun l hl => ?_) (by simpa using h)) (Ne.symm hne)
        exact ⟨fun h => hx ⟨l, hl, .inl h⟩, fun h => hx ⟨l, hl, .inr h⟩⟩
    · cases h
  · cases h

theorem diffText_eq {Γ : Types} {W : Env} {e a : Val} {T : Bytes} (he : Composite Γ e T) (ha : Composite Γ a T) (n : Nat) :
    diffText Γ W n (some e) (some a) =
      (sdump (spewConfig W) n (some e)).bind fun x => (sdump (spewConfig W) n (some a)).bind fun y =>
        (unifiedDiff ⟨splitLines x, asc "Expected", [], splitLines y, asc "Actual", [], [], 1⟩).map fun d => asc "\n\nDiff:\n" ++ d := by
  obtain ⟨e1, e2⟩ := composite_kind he
  obtain ⟨a1, -⟩ := composite_kind ha
  unfold diffText
  simp only [e1, a1, ne_eq, not_true_eq_false, if_false, e2, Bool.true_eq_false]

theorem sdump_mono {E : Env} {m n : Nat} (h : m ≤ n) {v : Val} {x : Bytes} (hx : sdump E m (some v) = some x) : sdump E n (some v) = some x := by
  simp only [sdump, Option.map_eq_some_iff] at hx ⊢
  obtain ⟨s, hs, e⟩ := hx
  exact ⟨s, Verif.Spew.dump_mono' h _ _ _ hs, e⟩

/-! ## C159 -/

/-- **C159, where it holds**: for two values of the same type made of parts, or pointers to such, the message has a diff:
reading it and applying it to the lines of the dump of what was expected, checking every line it keeps or removes, gives
the lines of the dump of the actual value.  What is missing: dumps with percent signs (`percent_garbled`), and
values whose dumps do not end (`circular_never_ends`). -/
theorem diff_explains_partial {Γ : Types} {W : Env} {e a : Val} {T : Bytes} (he : Composite Γ e T) (ha : Composite Γ a T)
    (te : Tame (spewConfig W) e) (ta : Tame (spewConfig W) a) :
    ∃ N x y, (∀ n, N ≤ n → sdump (spewConfig W) n (some e) = some x ∧ sdump (spewConfig W) n (some a) = some y) ∧
      (37 ∉ x → 37 ∉ y → ∃ text A B, (∀ n, N ≤ n → diffText Γ W n (some e) (some a) = some (asc "\n\nDiff:\n" ++ text)) ∧
        (A.flatten = x ++ asc "\n" ∧ ∀ l ∈ A, IsLine l) ∧ (B.flatten = y ++ asc "\n" ∧ ∀ l ∈ B, IsLine l) ∧ patch A text = some B) := by
  obtain ⟨n1, x, hx⟩ := Verif.Spew.sdump_ends_partial te
  obtain ⟨n2, y, hy⟩ := Verif.Spew.sdump_ends_partial ta
  have hd : ∀ n, max n1 n2 ≤ n → sdump (spewConfig W) n (some e) = some x ∧ sdump (spewConfig W) n (some a) = some y :=
    fun n hn => ⟨sdump_mono (by omega) hx, sdump_mono (by omega) hy⟩
  refine ⟨max n1 n2, x, y, hd, fun px py => ?_⟩
  obtain ⟨text, h1, h2⟩ := Verif.Difflib.text_diff_partial x y px py 1
  refine ⟨text, splitLines x, splitLines y, fun n hn => ?_, Verif.Difflib.split_lines x, Verif.Difflib.split_lines y, h2⟩
  rw [diffText_eq he ha, (hd n hn).1, (hd n hn).2]
  simp only [Option.bind_some, h1, Option.map_some]

/-- **C159, where it holds**: if the two values do not agree in types, lengths, numbers, texts, bytes, names and parts, the diff
has a line that is removed or added.  What is missing: as for C107, pointers shown as `(<nil>)` or `(<already shown>)`,
values with methods (`nothing_shown`). -/
theorem difference_shown_partial {Γ : Types} {W : Env} {e a : Val} {T : Bytes} (he : Composite Γ e T) (ha : Composite Γ a T)
    (hq : Quotes W.quote) (hm : ∀ v, Verif.Spew.methText (spewConfig W) v = ([], false))
    (te : AllTyped Γ (spewConfig W) e) (ta : AllTyped Γ (spewConfig W) a) (hne : ¬Same (spewConfig W) e a)
    {n : Nat} {x y : Bytes} (hx : sdump (spewConfig W) n (some e) = some x) (hy : sdump (spewConfig W) n (some a) = some y)
    (px : 37 ∉ x) (py : 37 ∉ y) :
    ∃ text, diffText Γ W n (some e) (some a) = some (asc "\n\nDiff:\n" ++ text) ∧
      ∃ l ∈ (linesOf text).drop 2, l.head? = some 45 ∨ l.head? = some 43 := by
  have hP : Plainly (spewConfig W) := ⟨by
    intro c hc
    have : c = 32 := by simpa [spewConfig, asc] using hc
    exact .inl this, rfl, rfl, rfl, hm, hq⟩
  obtain ⟨text, h1, h2⟩ := Verif.Difflib.text_diff_partial x y px py 1
  refine ⟨text, ?_, patch_changes h2 fun h => hne ?_⟩
  · rw [diffText_eq he ha, hx, hy]
    simp only [Option.bind_some, h1, Option.map_some]
  · have e1 := (Verif.Difflib.split_lines x).1
    rw [h, (Verif.Difflib.split_lines y).1] at e1
    have e2 : x = y := (List.append_cancel_right e1).symm
    subst e2
    exact Verif.Spew.same_dump_same_value_partial hP te ta hx hy

/-- **C159**: there is no diff if one of the values is nil, or if they are not both of the same type made of parts or
pointers to it. -/
theorem no_diff {Γ : Types} {W : Env} (n : Nat) {e a : Option Val} (hs : ∀ v, e = some v ∨ a = some v → Starred v)
    (h : ∀ v w T, e = some v → a = some w → Composite Γ v T → ¬Composite Γ w T) :
    diffText Γ W n e a = some [] := by
  cases e with
  | none => rfl
  | some v =>
    cases a with
    | none => rfl
    | some w =>
      have sv := hs v (.inl rfl)
      have sw := hs w (.inr rfl)
      unfold diffText
      simp only
      by_cases ht : (typeAndKind Γ v).1 = (typeAndKind Γ w).1
      · by_cases hk : hasDiff (typeAndKind Γ v).2 = true
        · have hv := kind_of_type Γ sv (T := (typeAndKind Γ v).1) (k := (typeAndKind Γ v).2) rfl hk
          have hT : NoStar (typeAndKind Γ v).1 := by
            generalize (typeAndKind Γ v).1 = T at hv
            cases hv with
            | value h1 h2 => subst h2; exact fun h => h1 (sv.mpr h)
            | ptr h1 _ => exact h1
          exact absurd (same_type_composite Γ sw hv hT ht.symm) (h v w _ rfl rfl hv)
        · rw [if_neg (by simpa using ht), if_pos (by simpa using hk)]
      · rw [if_pos (by simpa using ht)]

/-- The diff ends the message. -/
theorem message_ends (expected actual diff : Bytes) : ∃ p, notEqual expected actual diff = p ++ diff ∧ asc "Not equal: \n" <+: p :=
  ⟨_, rfl, by simp [asc]⟩

/-! ## Where it fails -/

/-- Kinds for the examples. -/
def kinds : Types := ⟨fun ty =>
  if ty = asc "string" then .str else if ty = asc "int" then .num else if ty.take 2 = asc "[]" then .seq else .struct, fun _ => [asc "X"]⟩

/-- Memory in which the slice at `i` has `f i` as elements. -/
def slices (f : Nat → List Val) : Env := Env.sample (fun _ => .slice (asc "[]int") 0 0) f (fun _ => [])

/-- **C159 fails**: lines with percent signs are taken for formats: that `[]string{"100%"}` was expected and the actual
value was `[]string{"50%"}` is shown as texts that neither of them has. -/
theorem percent_garbled :
    diffText kinds (slices fun i => [.str (asc "string") (if i = 1 then asc "100%" else asc "50%")]) 9
      (some (.slice (asc "[]string") 1 1)) (some (.slice (asc "[]string") 2 1)) =
    some (asc "\n\nDiff:\n--- Expected\n+++ Actual\n@@ -1,3 +1,3 @@\n ([]string) (len=1) {\n- (string) (len=4) \"100%!\"(MISSING)\n+ (string) (len=3) \"50%!\"(MISSING)\n }\n") := by
  decide +kernel

/-- **C159 fails**: a nil `*[]int` and a pointer to a nil `[]int` are not equal; the message has the heading of a diff, and nothing
under it. -/
theorem nothing_shown :
    diffText kinds (slices fun _ => []) 9 (some (.ptr (asc "*[]int") 0)) (some (.ptr (asc "*[]int") 1)) = some (asc "\n\nDiff:\n") := by
  decide +kernel

/-- **C159 fails**: with a slice that has itself as an element (`s := []interface{}{nil}; s[0] = s`), which `Equal` can compare,
the message is never done. -/
theorem circular_never_ends (Γ : Types) {W : Env} {a cap : Nat} {x v : Val} (hk : Γ.kind (asc "[]interface {}") = .seq) (ha : a ≠ 0)
    (hm : ∀ v, Verif.Spew.methText (spewConfig W) v = ([], false)) (hx : x ∈ W.elems a)
    (hu : Verif.Spew.unpack x = .slice (asc "[]interface {}") a cap) (hv : Composite Γ v (asc "[]interface {}")) (n : Nat) :
    diffText Γ W n (some (.slice (asc "[]interface {}") a cap)) (some v) = none := by
  rw [diffText_eq (.value (by simp [IsPtr]) rfl (.inr (.inr (.inl hk)))) hv]
  rw [Verif.Spew.slice_circle_hangs (E := spewConfig W) rfl ha (by rw [hm]) hx hu n]
  rfl

/-! ## Concrete cases -/

/-- A struct with another number. -/
example : diffText kinds (slices fun _ => []) 9 (some (.struct (asc "main.P") [(asc "X", .num (asc "int") (asc "1"))]))
    (some (.struct (asc "main.P") [(asc "X", .num (asc "int") (asc "2"))])) =
    some (asc "\n\nDiff:\n--- Expected\n+++ Actual\n@@ -1,3 +1,3 @@\n (main.P) {\n- X: (int) 1\n+ X: (int) 2\n }\n") := by
  decide +kernel

/-- A struct with a number, for an example. -/
def point (t : Bytes) : Val := .struct (asc "main.P") [(asc "X", .num (asc "int") t)]

/-- A world without pointers, with the quotation of Verif.Spew.Same. -/
def world : Env := { slices fun _ => [] with quote := Verif.Spew.tally }

theorem point_composite (t : Bytes) : Composite kinds (point t) (asc "main.P") :=
  .value (by simp [point, IsPtr]) rfl (.inl (by decide))

theorem point_reach {E : Env} {t : Bytes} {w : Val} (h : Verif.Spew.Reach E (point t) w) : w = point t ∨ w = .num (asc "int") t := by
  induction h with
  | refl => exact .inl rfl
  | part _ hp ih =>
    rcases ih with rfl | rfl
    · simp only [point, Verif.Spew.Part, Verif.Spew.parts, List.map_cons, List.map_nil, Verif.Spew.unpack, List.mem_singleton] at hp
      exact .inr hp
    · simp [Verif.Spew.Part, Verif.Spew.parts] at hp
  | target _ ht ih =>
    obtain ⟨ty, b, hb, -, -⟩ := ht
    rcases ih with rfl | rfl <;> cases hb

theorem point_typed {E : Env} {t : Bytes} (ht : Verif.Spew.Plain t) : AllTyped kinds E (point t) := by
  intro w hw
  rcases point_reach hw with rfl | rfl
  · exact ⟨by simp [Verif.Spew.Balanced, point, typeName, asc], fun _ => by simp [NoStar, point, typeName, asc], by decide, rfl⟩
  · exact ⟨by simp [Verif.Spew.Balanced, typeName, asc], fun _ => by simp [NoStar, typeName, asc], by decide, ht⟩

theorem point_tame {E : Env} {t : Bytes} : Tame E (point t) where
  parts := by
    have h1 : Acc (Verif.Spew.Part E) (.num (asc "int") t) := ⟨_, fun w hw => by simp [Verif.Spew.Part, Verif.Spew.parts] at hw⟩
    intro w hw
    rcases point_reach hw with rfl | rfl
    · refine ⟨_, fun w hw => ?_⟩
      simp only [point, Verif.Spew.Part, Verif.Spew.parts, List.map_cons, List.map_nil, Verif.Spew.unpack, List.mem_singleton] at hw
      subst hw; exact h1
    · exact h1
  chains := by
    intro w hw
    refine ⟨_, fun u hu => ?_⟩
    obtain ⟨ty, b, hb, -, -⟩ := hu
    rcases point_reach hw with rfl | rfl <;> cases hb
  finite := ⟨∅, fun ty a h => by rcases point_reach h with h | h <;> cases h⟩

/-- Two points that differ: all hypotheses of `diff_explains_partial` and `difference_shown_partial` hold. -/
example : (Composite kinds (point (asc "1")) (asc "main.P") ∧ Composite kinds (point (asc "2")) (asc "main.P")) ∧
    (Tame (spewConfig world) (point (asc "1")) ∧ Tame (spewConfig world) (point (asc "2"))) ∧
    (Quotes world.quote ∧ ∀ v, Verif.Spew.methText (spewConfig world) v = ([], false)) ∧
    (AllTyped kinds (spewConfig world) (point (asc "1")) ∧ AllTyped kinds (spewConfig world) (point (asc "2"))) ∧
    ¬Same (spewConfig world) (point (asc "1")) (point (asc "2")) ∧
    sdump (spewConfig world) 9 (some (point (asc "1"))) = some (asc "(main.P) {\n X: (int) 1\n}\n") ∧
    sdump (spewConfig world) 9 (some (point (asc "2"))) = some (asc "(main.P) {\n X: (int) 2\n}\n") := by
  refine ⟨⟨point_composite _, point_composite _⟩, ⟨point_tame, point_tame⟩, ⟨Verif.Spew.tally_quotes, fun v => by cases v <;> rfl⟩,
    ⟨point_typed (by simp [Verif.Spew.Plain, asc]), point_typed (by simp [Verif.Spew.Plain, asc])⟩, fun h => ?_, by decide +kernel, by decide +kernel⟩
  have hl : ∀ {v chain ty a}, ¬IsPtr v → ¬Verif.Spew.Leads (spewConfig world) v chain (.ptr ty a) := by
    intro v chain ty a hv h
    cases h <;> exact hv trivial
  cases h with
  | struct h =>
    cases h with
    | cons _ h _ =>
      generalize e1 : Verif.Spew.unpack (Val.num (asc "int") (asc "1")) = u at h
      generalize e2 : Verif.Spew.unpack (Val.num (asc "int") (asc "2")) = w at h
      simp only [Verif.Spew.unpack] at e1 e2
      subst e1
      cases h with
      | num => simp [asc] at e2
      | ptr h => exact h
      | ptrNil h => exact h
      | ptrShown h => exact hl id h
  | ptr h => exact h
  | ptrNil h => exact h
  | ptrShown h => exact hl id h

/-- A struct and a pointer to one have the same type for `diff`; texts and numbers have no diff, nor have values of different types. -/
example : diffText kinds { slices (fun _ => []) with at_ := fun _ => point (asc "1") } 9 (some (point (asc "1"))) (some (.ptr (asc "*main.P") 1)) =
      some (asc "\n\nDiff:\n" ++ asc "--- Expected\n+++ Actual\n@@ -1,4 +1,4 @@\n-(main.P) {\n+(*main.P)({\n  X: (int) 1\n-}\n+})\n \n") ∧
    diffText kinds (slices fun _ => []) 9 (some (.str (asc "string") (asc "a\nb"))) (some (.str (asc "string") (asc "a\nc"))) = some [] ∧
    diffText kinds (slices fun _ => []) 9 (some (point (asc "1"))) (some (.struct (asc "main.Q") [])) = some [] ∧
    diffText kinds (slices fun _ => []) 9 none (some (point (asc "1"))) = some [] := by
  exact ⟨by decide +kernel, by decide +kernel, by decide +kernel, rfl⟩

/-- A slice with itself as its only element, and an empty one. -/
example (n : Nat) : diffText kinds (slices fun i => if i = 1 then [.iface (asc "interface {}") (.slice (asc "[]interface {}") 1 1)] else []) n
    (some (.slice (asc "[]interface {}") 1 1)) (some (.slice (asc "[]interface {}") 2 0)) = none :=
  circular_never_ends kinds (by decide) (by decide) (fun v => by cases v <;> rfl) (List.mem_singleton.mpr rfl) rfl
    (.value (by simp [IsPtr]) rfl (.inr (.inr (.inl (by decide))))) n

end Verif.Assert.Diff
