import Verif.Basic
import Mathlib.Data.List.Perm.Subperm

/-!
# C59: comparing JSON documents with placeholders

Model of test/must/json.go and test/should/json.go.  Documents are as `json.Unmarshal` leaves them.  Placeholders as keys
(`variables.sub`, test/must/json.go 60-71 and 102-110) are not modelled here (see Verif.Test.JsonKeys): meeting one is an outcome of its own.
-/

namespace Verif.JsonEqual

/-! ### Model -/

mutual
/-- A decoded document, test/must/json.go 15-16 and 32-33.  Numbers are any values with a decidable equality; integers stand
for them.  The order of the members of an object is the order in which `MapKeys`, 98, gives the keys. -/
inductive Doc
  | null
  | bool (b : Bool)
  | num (n : Int)
  | str (s : Bytes)
  | arr (l : Items)
  | obj (m : Members)
/-- The elements of a `[]interface{}`, test/must/json.go 141-145. -/
inductive Items
  | nil
  | cons (d : Doc) (r : Items)
/-- The entries of a `map[string]interface{}`, test/must/json.go 96-99. -/
inductive Members
  | nil
  | cons (k : Bytes) (d : Doc) (r : Members)
end

/-- Element of an array, `Index`, test/must/json.go 145 and 149. -/
def Items.at : Items → Nat → Option Doc
  | .nil, _ => none
  | .cons d _, 0 => some d
  | .cons _ r, i + 1 => r.at i

/-- Entry of a map, `MapIndex`, test/must/json.go 111, 121 and 131. -/
def Members.get : Members → Bytes → Option Doc
  | .nil, _ => none
  | .cons k d r, x => if x = k then some d else r.get x

/-- `SetMapIndex`, test/must/json.go 118 and 126. -/
def Members.set : Members → Bytes → Doc → Members
  | .nil, x, v => .cons x v .nil
  | .cons k d r, x, v => if x = k then .cons k v r else .cons k d (r.set x v)

/-- The keys of a map, `MapKeys`, test/must/json.go 98. -/
def Members.keys : Members → List Bytes
  | .nil => []
  | .cons k _ r => k :: r.keys

mutual
/-- `reflect.DeepEqual` on decoded documents, as used by `assert.Equal` through test/testify/assert/assertions.go 39-55. -/
def deepEqual : Doc → Doc → Bool
  | .null, .null => true
  | .bool a, .bool b => a == b
  | .num a, .num b => a == b
  | .str a, .str b => a == b
  | .arr x, .arr y => deepItems x y
  | .obj x, .obj y => x.keys.length == y.keys.length && deepMembers x y
  | _, _ => false
/-- `reflect.DeepEqual` on slices, see `deepEqual`; called at test/testify/assert/assertions.go 53. -/
def deepItems : Items → Items → Bool
  | .nil, .nil => true
  | .cons u x, .cons v y => deepEqual u v && deepItems x y
  | _, _ => false
/-- `reflect.DeepEqual` on maps of one length, see `deepEqual`; called at test/testify/assert/assertions.go 53. -/
def deepMembers : Members → Members → Bool
  | .nil, _ => true
  | .cons k u x, y => (match y.get k with | none => false | some v => deepEqual u v) && deepMembers x y
end

/-- How a comparison can end: it goes on, it panics, the test is failed (`t.Fatal`), or it meets a placeholder as a key,
which is not modelled, test/must/json.go 102-110. -/
inductive Res (α : Type)
  | ok (a : α)
  | panic
  | fatal
  | keyVar

/-- Going on after a step of test/must/json.go 90-152. -/
def Res.bind {α β : Type} : Res α → (α → Res β) → Res β
  | .ok a, f => f a
  | .panic, _ => .panic
  | .fatal, _ => .fatal
  | .keyVar, _ => .keyVar

/-- `variables`, test/must/json.go 53-58; without placeholders as keys there are no `subs`. -/
abbrev Vars := List (Bytes × Doc)

/-- The name of a placeholder, test/must/json.go 102 and 125. -/
def isVar (s : Bytes) : Bool := s.head? == some 123 && s.getLast? == some 125

/-- "{ANYTHING}", test/must/json.go 117. -/
def anything : Bytes := asc "{ANYTHING}"

/-- `variables.bind`, test/must/json.go 73-88, without `subs`; `Equal` is test/must/equal.go 10-22. -/
def bind (vars : Vars) (x : Bytes) (v : Doc) : Res Vars :=
  match vars.lookup x with
  | none => .ok ((x, v) :: vars)
  | some w => if deepEqual w v then .ok vars else .fatal

/-- One turn of the loop over the keys, test/must/json.go 99-136.  `sub` is the call of `substituteVars`, 135. -/
def memberStep (sub : Doc → Res (Vars × Doc × Doc)) (vars : Vars) (k : Bytes) (e : Doc) (a : Members) :
    Res (Vars × Doc × Members) :=
  if isVar k then .keyVar
  else match e with
    | .null => .panic
    | .str s =>
      if s = anything then .ok (vars, e, a.set k (.str anything))
      else match a.get k with
        | none => .ok (vars, e, a)
        | some v =>
          if isVar s then (bind vars s v).bind fun vars => .ok (vars, v, a)
          else (sub v).bind fun (vars, e, v) => .ok (vars, e, a.set k v)
    | _ => match a.get k with
      | none => .ok (vars, e, a)
      | some v => (sub v).bind fun (vars, e, v) => .ok (vars, e, a.set k v)

mutual
/-- `substituteVars`, test/must/json.go 90-152; the maps changed in place are results here.  The type of the nil value has no
kind, 91. -/
def subst : Vars → Doc → Doc → Res (Vars × Doc × Doc)
  | _, .null, _ => .panic
  | vars, .obj e, .obj a => (substMembers vars e a).bind fun (vars, e, a) => .ok (vars, .obj e, .obj a)
  | vars, .arr e, .arr a => (substItems vars e a).bind fun (vars, e, a) => .ok (vars, .arr e, .arr a)
  | vars, e, a => .ok (vars, e, a)
/-- The loop over the keys, test/must/json.go 99-136. -/
def substMembers : Vars → Members → Members → Res (Vars × Members × Members)
  | vars, .nil, a => .ok (vars, .nil, a)
  | vars, .cons k e r, a =>
    (memberStep (fun v => subst vars e v) vars k e a).bind fun (vars, e, a) =>
      (substMembers vars r a).bind fun (vars, r, a) => .ok (vars, .cons k e r, a)
/-- The loop over the elements, test/must/json.go 144-150; `Index` panics beyond the end. -/
def substItems : Vars → Items → Items → Res (Vars × Items × Items)
  | vars, .nil, a => .ok (vars, .nil, a)
  | _, .cons _ _, .nil => .panic
  | vars, .cons e r, .cons v s =>
    (subst vars e v).bind fun (vars, e, v) =>
      (substItems vars r s).bind fun (vars, r, s) => .ok (vars, .cons e r, .cons v s)
end

/-- What a check can do (test/must/json.go 12-51). -/
inductive Outcome
  | accepted
  | failed
  | panicked
  | unmodelled
  deriving DecidableEq

/-- `must.JsonEqual` on decoded documents, test/must/json.go 39-51. -/
def jsonEqual (e a : Doc) : Outcome :=
  match subst [] e a with
  | .ok (_, e, a) => if deepEqual e a then .accepted else .failed
  | .panic => .panicked
  | .fatal => .failed
  | .keyVar => .unmodelled

mutual
/-- `maskAnything`, test/should/json.go 52-70, giving the changed actual document. -/
def mask : Doc → Doc → Res Doc
  | .null, _ => .panic
  | .obj e, .obj a => (maskMembers e a).bind fun a => .ok (.obj a)
  | _, a => .ok a
/-- The loop over the keys, test/should/json.go 61-68; `Interface` panics when the key is not there, 67. -/
def maskMembers : Members → Members → Res Members
  | .nil, a => .ok a
  | .cons k e r, a =>
    match e with
    | .str s =>
      if s = asc "ANYTHING" then maskMembers r (a.set k (.str s))
      else match a.get k with
        | none => .panic
        | some _ => maskMembers r a
    | e => match a.get k with
      | none => .panic
      | some v => (mask e v).bind fun v => maskMembers r (a.set k v)
end

/-- `should.JsonEqual` on decoded documents, test/should/json.go 38-50. -/
def shouldJsonEqual (e a : Doc) : Outcome :=
  match mask e a with
  | .ok a => if deepEqual e a then .accepted else .failed
  | .panic => .panicked
  | .fatal => .failed
  | .keyVar => .unmodelled

/-- The argument `actual`, test/must/json.go 22-31: a string or bytes, with what decoding them gives, or another value, with
what encoding it gives. -/
inductive Actual
  | text (decoded : Option Doc)
  | value (encoded : Option Bytes)

/-- `must.JsonEqual`, test/must/json.go 12-51, and `should.JsonEqual`, test/should/json.go 11-50, which differ in how they
compare.  For other values than strings and bytes `err.Error()` is called whether there is an error or not, 29. -/
def check (compare : Doc → Doc → Outcome) (expected : Option Doc) (actual : Actual) : Outcome :=
  match expected with
  | none => .failed
  | some e =>
    match actual with
    | .text none => .failed
    | .text (some a) => compare e a
    | .value none => .failed
    | .value (some _) => .panicked

/-! ### Specification -/

/-- Documents that are the same, whatever the order of the members. -/
inductive Same : Doc → Doc → Prop
  | null : Same .null .null
  | bool (b : Bool) : Same (.bool b) (.bool b)
  | num (n : Int) : Same (.num n) (.num n)
  | str (s : Bytes) : Same (.str s) (.str s)
  | arr (x y : Items) : (∀ i, (x.at i).isSome = (y.at i).isSome) →
      (∀ i u v, x.at i = some u → y.at i = some v → Same u v) → Same (.arr x) (.arr y)
  | obj (x y : Members) : (∀ k, (x.get k).isSome = (y.get k).isSome) →
      (∀ k u v, x.get k = some u → y.get k = some v → Same u v) → Same (.obj x) (.obj y)

/-- A placeholder for any value. -/
def IsAny (d : Doc) : Prop := d = .str (asc "{ANYTHING}")

/-- A named placeholder. -/
def IsName (d : Doc) (x : Bytes) : Prop := d = .str x ∧ x ≠ asc "{ANYTHING}" ∧ ∃ w, x = 123 :: w ++ [125]

/-- A document matches a template when the named placeholders stand for the values `σ`.  Only values of members are
placeholders; the member of a placeholder for any value may be missing. -/
inductive Matches (σ : Bytes → Doc) : Doc → Doc → Prop
  | null : Matches σ .null .null
  | bool (b : Bool) : Matches σ (.bool b) (.bool b)
  | num (n : Int) : Matches σ (.num n) (.num n)
  | str (s : Bytes) : Matches σ (.str s) (.str s)
  | arr (x y : Items) : (∀ i, (x.at i).isSome = (y.at i).isSome) →
      (∀ i u v, x.at i = some u → y.at i = some v → Matches σ u v) → Matches σ (.arr x) (.arr y)
  | obj (x y : Members) :
      (∀ k u, x.get k = some u → ¬ IsAny u → (y.get k).isSome) →
      (∀ k, (y.get k).isSome → (x.get k).isSome) →
      (∀ k u s v, x.get k = some u → y.get k = some v → IsName u s → Same (σ s) v) →
      (∀ k u v, x.get k = some u → y.get k = some v → ¬ IsAny u → (¬ ∃ s, IsName u s) → Matches σ u v) →
      Matches σ (.obj x) (.obj y)

mutual
/-- A Go map has no key twice. -/
def Doc.WF : Doc → Prop
  | .arr l => l.WF
  | .obj m => m.WF
  | _ => True
def Items.WF : Items → Prop
  | .nil => True
  | .cons d r => d.WF ∧ r.WF
def Members.WF : Members → Prop
  | .nil => True
  | .cons k d r => r.get k = none ∧ d.WF ∧ r.WF
end

mutual
/-- No value of a member looks like a placeholder. -/
def Doc.Literal : Doc → Prop
  | .arr l => l.Literal
  | .obj m => m.Literal
  | _ => True
def Items.Literal : Items → Prop
  | .nil => True
  | .cons d r => d.Literal ∧ r.Literal
def Members.Literal : Members → Prop
  | .nil => True
  | .cons _ d r => (¬ IsAny d ∧ ¬ ∃ s, IsName d s) ∧ d.Literal ∧ r.Literal
end

/-- A document matches a template of `should.JsonEqual`: the members of (nested) objects that are "ANYTHING" in the template
may be anything, the rest is the same. -/
inductive Masked : Doc → Doc → Prop
  | same (x y : Doc) : (∀ m, x ≠ .obj m) → Same x y → Masked x y
  | obj (x y : Members) :
      (∀ k u, x.get k = some u → u ≠ .str (asc "ANYTHING") → (y.get k).isSome) →
      (∀ k, (y.get k).isSome → (x.get k).isSome) →
      (∀ k u v, x.get k = some u → y.get k = some v → u ≠ .str (asc "ANYTHING") → Masked u v) →
      Masked (.obj x) (.obj y)

mutual
/-- No null as the document or as a member of an object reached through members. -/
def Doc.NoNull : Doc → Prop
  | .null => False
  | .obj m => m.NoNull
  | _ => True
def Members.NoNull : Members → Prop
  | .nil => True
  | .cons _ d r => d.NoNull ∧ r.NoNull
end

mutual
/-- No null anywhere and no key that looks like a placeholder. -/
def Doc.Plain : Doc → Prop
  | .null => False
  | .arr l => l.Plain
  | .obj m => m.Plain
  | _ => True
def Items.Plain : Items → Prop
  | .nil => True
  | .cons d r => d.Plain ∧ r.Plain
def Members.Plain : Members → Prop
  | .nil => True
  | .cons k d r => isVar k = false ∧ d.Plain ∧ r.Plain
end

/-! ### Same documents -/

mutual
theorem same_refl : ∀ d : Doc, Same d d
  | .null => .null
  | .bool b => .bool b
  | .num n => .num n
  | .str s => .str s
  | .arr l => .arr l l (fun _ => rfl) (fun i u v hu hv => by
      rw [hu] at hv; injection hv with hv; subst hv; exact items_refl l i u hu)
  | .obj m => .obj m m (fun _ => rfl) (fun k u v hu hv => by
      rw [hu] at hv; injection hv with hv; subst hv; exact members_refl m k u hu)
theorem items_refl : ∀ (l : Items) (i : Nat) (u : Doc), l.at i = some u → Same u u
  | .nil, i, u, h => by simp [Items.at] at h
  | .cons d r, 0, u, h => by
      simp only [Items.at] at h; injection h with h; subst h; exact same_refl d
  | .cons d r, i + 1, u, h => by
      simp only [Items.at] at h; exact items_refl r i u h
theorem members_refl : ∀ (m : Members) (k : Bytes) (u : Doc), m.get k = some u → Same u u
  | .nil, k, u, h => by simp [Members.get] at h
  | .cons x d r, k, u, h => by
      simp only [Members.get] at h
      split at h
      · injection h with h; subst h; exact same_refl d
      · exact members_refl r k u h
end

theorem same_symm {x y : Doc} (h : Same x y) : Same y x := by
  induction h with
  | null => exact .null
  | bool b => exact .bool b
  | num n => exact .num n
  | str s => exact .str s
  | arr x y h1 _ ih => exact .arr y x (fun i => (h1 i).symm) (fun i u v hu hv => ih i v u hv hu)
  | obj x y h1 _ ih => exact .obj y x (fun k => (h1 k).symm) (fun k u v hu hv => ih k v u hv hu)

theorem same_trans {x y z : Doc} (h : Same x y) (h' : Same y z) : Same x z := by
  induction h generalizing z with
  | null => exact h'
  | bool b => exact h'
  | num n => exact h'
  | str s => exact h'
  | arr x y h1 _ ih =>
    cases h' with
    | arr _ z g1 g2 =>
      refine .arr x z (fun i => (h1 i).trans (g1 i)) ?_
      intro i u w hu hw
      have hy := h1 i
      rw [hu] at hy
      obtain ⟨v, hv⟩ := Option.isSome_iff_exists.mp hy.symm
      exact ih i u v hu hv (g2 i v w hv hw)
  | obj x y h1 _ ih =>
    cases h' with
    | obj _ z g1 g2 =>
      refine .obj x z (fun k => (h1 k).trans (g1 k)) ?_
      intro k u w hu hw
      have hy := h1 k
      rw [hu] at hy
      obtain ⟨v, hv⟩ := Option.isSome_iff_exists.mp hy.symm
      exact ih k u v hu hv (g2 k v w hv hw)

theorem mem_keys (m : Members) (k : Bytes) : k ∈ m.keys ↔ (m.get k).isSome := by
  match m with
  | .nil => simp [Members.keys, Members.get]
  | .cons x d r =>
    simp only [Members.keys, Members.get, List.mem_cons]
    by_cases h : k = x
    · simp [h]
    · simp [h, mem_keys r k]

theorem nodup_keys (m : Members) (h : m.WF) : m.keys.Nodup := by
  match m with
  | .nil => simp [Members.keys]
  | .cons x d r =>
    simp only [Members.WF] at h
    simp only [Members.keys, List.nodup_cons]
    exact ⟨by rw [mem_keys, h.1]; simp, nodup_keys r h.2.2⟩

theorem isSome_eq_of {a b : Option Doc} (h : a.isSome ↔ b.isSome) : a.isSome = b.isSome := by
  cases a <;> cases b <;> simp_all

theorem get_wf (m : Members) (h : m.WF) (k : Bytes) (v : Doc) (hv : m.get k = some v) : v.WF := by
  match m with
  | .nil => simp [Members.get] at hv
  | .cons x d r =>
    simp only [Members.WF] at h
    simp only [Members.get] at hv
    split at hv
    · injection hv with hv; subst hv; exact h.2.1
    · exact get_wf r h.2.2 k v hv

mutual
theorem deep_iff : ∀ (x y : Doc), x.WF → y.WF → (deepEqual x y = true ↔ Same x y)
  | .null, y, _, _ => by
    cases y <;> simp only [deepEqual] <;> constructor <;> intro h <;> first | exact .null | trivial
  | .bool a, y, _, _ => by
    cases y <;> simp only [deepEqual, beq_iff_eq] <;> constructor <;> intro h <;>
      first | (subst h; exact .bool _) | (cases h; done) | (cases h; rfl)
  | .num a, y, _, _ => by
    cases y <;> simp only [deepEqual, beq_iff_eq] <;> constructor <;> intro h <;>
      first | (subst h; exact .num _) | (cases h; done) | (cases h; rfl)
  | .str a, y, _, _ => by
    cases y <;> simp only [deepEqual, beq_iff_eq] <;> constructor <;> intro h <;>
      first | (subst h; exact .str _) | (cases h; done) | (cases h; rfl)
  | .arr x, y, hx, hy => by
    cases y with
    | arr y =>
      simp only [deepEqual]
      rw [items_iff x y hx hy]
      constructor
      · intro h; exact .arr x y h.1 h.2
      · intro h; cases h with | arr _ _ h1 h2 => exact ⟨h1, h2⟩
    | _ => simp only [deepEqual]; constructor <;> intro h <;> cases h
  | .obj x, y, hx, hy => by
    cases y with
    | obj y =>
      simp only [deepEqual, Bool.and_eq_true, beq_iff_eq]
      rw [members_iff x y hx hy]
      constructor
      · rintro ⟨hl, h⟩
        have hsub : x.keys ⊆ y.keys := by
          intro k hk
          rw [mem_keys] at hk ⊢
          obtain ⟨u, hu⟩ := Option.isSome_iff_exists.mp hk
          obtain ⟨v, hv, _⟩ := h k u hu
          rw [hv]; rfl
        have hperm := (List.subperm_of_subset (nodup_keys x hx) hsub).perm_of_length_le (by omega)
        refine .obj x y (fun k => isSome_eq_of ?_) ?_
        · rw [← mem_keys, ← mem_keys]; exact hperm.mem_iff
        · intro k u v hu hv
          obtain ⟨v', hv', hs⟩ := h k u hu
          rw [hv] at hv'; injection hv' with e; subst e; exact hs
      · intro h
        cases h with
        | obj _ _ h1 h2 =>
          refine ⟨?_, ?_⟩
          · have : x.keys.Perm y.keys := by
              rw [List.perm_ext_iff_of_nodup (nodup_keys x hx) (nodup_keys y hy)]
              intro k; rw [mem_keys, mem_keys, h1 k]
            exact this.length_eq
          · intro k u hu
            have := h1 k
            rw [hu] at this
            obtain ⟨v, hv⟩ := Option.isSome_iff_exists.mp this.symm
            exact ⟨v, hv, h2 k u v hu hv⟩
    | _ => simp only [deepEqual]; constructor <;> intro h <;> cases h
theorem items_iff : ∀ (x y : Items), x.WF → y.WF → (deepItems x y = true ↔
    (∀ i, (x.at i).isSome = (y.at i).isSome) ∧ ∀ i u v, x.at i = some u → y.at i = some v → Same u v)
  | .nil, .nil, _, _ => by simp [deepItems, Items.at]
  | .nil, .cons v y, _, _ => by
    simp only [deepItems, Bool.false_eq_true, false_iff]
    intro h; simpa [Items.at] using h.1 0
  | .cons u x, .nil, _, _ => by
    simp only [deepItems, Bool.false_eq_true, false_iff]
    intro h; simpa [Items.at] using h.1 0
  | .cons u x, .cons v y, hx, hy => by
    simp only [deepItems, Bool.and_eq_true]
    simp only [Items.WF] at hx hy
    rw [deep_iff u v hx.1 hy.1, items_iff x y hx.2 hy.2]
    constructor
    · rintro ⟨h1, h2, h3⟩
      refine ⟨?_, ?_⟩
      · intro i; cases i with
        | zero => rfl
        | succ i => exact h2 i
      · intro i a b ha hb
        cases i with
        | zero =>
          simp only [Items.at] at ha hb
          injection ha with ha; injection hb with hb; subst ha; subst hb; exact h1
        | succ i => exact h3 i a b ha hb
    · rintro ⟨h1, h2⟩
      exact ⟨h2 0 u v rfl rfl, fun i => h1 (i + 1), fun i => h2 (i + 1)⟩
theorem members_iff : ∀ (x y : Members), x.WF → y.WF → (deepMembers x y = true ↔
    ∀ k u, x.get k = some u → ∃ v, y.get k = some v ∧ Same u v)
  | .nil, y, _, _ => by simp [deepMembers, Members.get]
  | .cons k u x, y, hx, hy => by
    simp only [deepMembers, Bool.and_eq_true]
    simp only [Members.WF] at hx
    rw [members_iff x y hx.2.2 hy]
    constructor
    · rintro ⟨h1, h2⟩ k' u' h
      simp only [Members.get] at h
      split at h
      · rename_i hk
        subst hk
        injection h with h
        subst h
        cases hg : y.get k' with
        | none => rw [hg] at h1; cases h1
        | some v =>
          rw [hg] at h1
          exact ⟨v, rfl, (deep_iff u v hx.2.1 (get_wf y hy k' v hg)).mp h1⟩
      · exact h2 k' u' h
    · intro h
      refine ⟨?_, ?_⟩
      · obtain ⟨v, hv, hs⟩ := h k u (by simp [Members.get])
        rw [hv]
        exact (deep_iff u v hx.2.1 (get_wf y hy k v hv)).mpr hs
      · intro k' u' h'
        refine h k' u' ?_
        simp only [Members.get]
        rw [if_neg (by rintro rfl; rw [hx.1] at h'; cases h')]
        exact h'
end

/-! ### Substitution -/

theorem isVar_iff (s : Bytes) : isVar s = true ↔ ∃ w, s = 123 :: w ++ [125] := by
  simp only [isVar, Bool.and_eq_true, beq_iff_eq]
  constructor
  · rintro ⟨h1, h2⟩
    cases s with
    | nil => simp at h1
    | cons c s =>
      simp only [List.head?_cons, Option.some.injEq] at h1
      subst h1
      rcases List.eq_nil_or_concat s with rfl | ⟨w, b, rfl⟩
      · simp at h2
      · refine ⟨w, ?_⟩
        have : ((123 : UInt8) :: (w ++ [b])).getLast? = some b := by
          rw [← List.cons_append, List.getLast?_append]; rfl
        rw [List.concat_eq_append, this] at h2
        injection h2 with h2
        subst h2
        simp
  · rintro ⟨w, rfl⟩
    refine ⟨rfl, ?_⟩
    rw [List.getLast?_append]; rfl

theorem isName_iff (d : Doc) (x : Bytes) : IsName d x ↔ d = .str x ∧ x ≠ anything ∧ isVar x = true := by
  simp only [IsName, isVar_iff, anything]

theorem bind_ok {α β : Type} {r : Res α} {f : α → Res β} {b : β} (h : r.bind f = .ok b) :
    ∃ a, r = .ok a ∧ f a = .ok b := by
  cases r with
  | ok a => exact ⟨a, rfl, h⟩
  | panic => cases h
  | fatal => cases h
  | keyVar => cases h

theorem get_set (m : Members) (k x : Bytes) (v : Doc) : (m.set k v).get x = if x = k then some v else m.get x := by
  match m with
  | .nil => simp [Members.set, Members.get]
  | .cons y d r =>
    simp only [Members.set]
    split
    · rename_i h
      subst h
      simp only [Members.get]
      split <;> rfl
    · rename_i h
      simp only [Members.get, get_set r k x v]
      split
      · rename_i h1
        rw [if_neg (by rintro rfl; exact h h1)]
      · rfl

theorem set_wf (m : Members) (h : m.WF) (k : Bytes) (v : Doc) (hv : v.WF) : (m.set k v).WF := by
  match m with
  | .nil => simp [Members.set, Members.WF, Members.get, hv]
  | .cons y d r =>
    simp only [Members.WF] at h
    simp only [Members.set]
    split
    · simp only [Members.WF]; exact ⟨h.1, hv, h.2.2⟩
    · rename_i hn
      simp only [Members.WF]
      refine ⟨?_, h.2.1, set_wf r h.2.2 k v hv⟩
      rw [get_set, if_neg (fun e => hn e.symm)]; exact h.1

/-- The ways a turn of the loop over the keys can go on. -/
theorem memberStep_cases {sub : Doc → Res (Vars × Doc × Doc)} {V V1 : Vars} {k : Bytes} {e e1 : Doc} {a a1 : Members}
    (h : memberStep sub V k e a = .ok (V1, e1, a1)) :
    (IsAny e ∧ V1 = V ∧ e1 = e ∧ a1 = a.set k (.str anything)) ∨
    (¬ IsAny e ∧ a.get k = none ∧ V1 = V ∧ e1 = e ∧ a1 = a) ∨
    (∃ s v, IsName e s ∧ a.get k = some v ∧ bind V s v = .ok V1 ∧ e1 = v ∧ a1 = a) ∨
    (∃ v v1, ¬ IsAny e ∧ (¬ ∃ s, IsName e s) ∧ a.get k = some v ∧ sub v = .ok (V1, e1, v1) ∧ a1 = a.set k v1) := by
  have hother : ∀ e : Doc, (∀ s, e ≠ .str s) → (match a.get k with
        | none => Res.ok (V, e, a)
        | some v => (sub v).bind fun (vars, e, v) => Res.ok (vars, e, a.set k v)) = Res.ok (V1, e1, a1) →
      (¬ IsAny e ∧ a.get k = none ∧ V1 = V ∧ e1 = e ∧ a1 = a) ∨
      (∃ v v1, ¬ IsAny e ∧ (¬ ∃ s, IsName e s) ∧ a.get k = some v ∧ sub v = .ok (V1, e1, v1) ∧ a1 = a.set k v1) := by
    intro e he h
    have h1 : ¬ IsAny e := fun h => he _ h
    have h2 : ¬ ∃ s, IsName e s := fun ⟨s, h, _⟩ => he _ h
    cases hg : a.get k with
    | none => rw [hg] at h; injection h with h; injection h with ha h; injection h with hb hc
              exact .inl ⟨h1, rfl, ha.symm, hb.symm, hc.symm⟩
    | some v =>
      rw [hg] at h
      obtain ⟨⟨V2, e2, v2⟩, hs, h⟩ := bind_ok h
      injection h with h; injection h with ha h; injection h with hb hc
      subst ha; subst hb; subst hc
      exact .inr ⟨v, v2, h1, h2, rfl, hs, rfl⟩
  unfold memberStep at h
  by_cases hk : isVar k = true
  · rw [if_pos hk] at h; cases h
  · rw [if_neg hk] at h
    cases e with
    | null => cases h
    | str s =>
      simp only at h
      split at h
      · rename_i hs
        injection h with h; injection h with ha h; injection h with hb hc
        subst hs; subst ha; subst hb; subst hc
        exact .inl ⟨rfl, rfl, rfl, rfl⟩
      · rename_i hs
        have hna : ¬ IsAny (.str s) := by intro h; injection h with h; exact hs h
        cases hg : a.get k with
        | none =>
          rw [hg] at h; injection h with h; injection h with ha h; injection h with hb hc
          exact .inr (.inl ⟨hna, rfl, ha.symm, hb.symm, hc.symm⟩)
        | some v =>
          rw [hg] at h
          simp only at h
          split at h
          · rename_i hv
            obtain ⟨V2, hb, h⟩ := bind_ok h
            injection h with h; injection h with ha h; injection h with hb' hc
            subst ha; subst hb'; subst hc
            exact .inr (.inr (.inl ⟨s, v, (isName_iff _ _).mpr ⟨rfl, hs, hv⟩, rfl, hb, rfl, rfl⟩))
          · rename_i hv
            obtain ⟨⟨V2, e2, v2⟩, hsub, h⟩ := bind_ok h
            injection h with h; injection h with ha h; injection h with hb hc
            subst ha; subst hb; subst hc
            refine .inr (.inr (.inr ⟨v, v2, hna, ?_, rfl, hsub, rfl⟩))
            rintro ⟨x, hx⟩
            rw [isName_iff] at hx
            injection hx.1 with h; subst h
            exact hv hx.2.2
    | bool b => rcases hother _ (by simp) h with h | h; exact .inr (.inl h); exact .inr (.inr (.inr h))
    | num n => rcases hother _ (by simp) h with h | h; exact .inr (.inl h); exact .inr (.inr (.inr h))
    | arr l => rcases hother _ (by simp) h with h | h; exact .inr (.inl h); exact .inr (.inr (.inr h))
    | obj m => rcases hother _ (by simp) h with h | h; exact .inr (.inl h); exact .inr (.inr (.inr h))

/-- The ways a comparison of two documents can go on. -/
theorem subst_cases {V V1 : Vars} {e a e1 a1 : Doc} (h : subst V e a = .ok (V1, e1, a1)) :
    (∃ x y x1 y1, e = .obj x ∧ a = .obj y ∧ e1 = .obj x1 ∧ a1 = .obj y1 ∧ substMembers V x y = .ok (V1, x1, y1)) ∨
    (∃ x y x1 y1, e = .arr x ∧ a = .arr y ∧ e1 = .arr x1 ∧ a1 = .arr y1 ∧ substItems V x y = .ok (V1, x1, y1)) ∨
    ((∀ x y, e = .obj x → a ≠ .obj y) ∧ (∀ x y, e = .arr x → a ≠ .arr y) ∧ V1 = V ∧ e1 = e ∧ a1 = a) := by
  cases e with
  | null => simp [subst] at h
  | obj x =>
    cases a with
    | obj y =>
      simp only [subst] at h
      obtain ⟨⟨V2, x1, y1⟩, hs, h⟩ := bind_ok h
      injection h with h; injection h with ha h; injection h with hb hc
      subst ha
      exact .inl ⟨x, y, x1, y1, rfl, rfl, hb.symm, hc.symm, hs⟩
    | _ =>
      simp only [subst] at h
      injection h with h; injection h with ha h; injection h with hb hc
      exact .inr (.inr ⟨(by intro _ _ _ h; cases h), (by intro _ _ h; cases h), ha.symm, hb.symm, hc.symm⟩)
  | arr x =>
    cases a with
    | arr y =>
      simp only [subst] at h
      obtain ⟨⟨V2, x1, y1⟩, hs, h⟩ := bind_ok h
      injection h with h; injection h with ha h; injection h with hb hc
      subst ha
      exact .inr (.inl ⟨x, y, x1, y1, rfl, rfl, hb.symm, hc.symm, hs⟩)
    | _ =>
      simp only [subst] at h
      injection h with h; injection h with ha h; injection h with hb hc
      exact .inr (.inr ⟨(by intro _ _ h; cases h), (by intro _ _ _ h; cases h), ha.symm, hb.symm, hc.symm⟩)
  | _ =>
    simp only [subst] at h
    injection h with h; injection h with ha h; injection h with hb hc
    exact .inr (.inr ⟨(by intro _ _ h; cases h), (by intro _ _ h; cases h), ha.symm, hb.symm, hc.symm⟩)

theorem substMembers_cons {V V2 : Vars} {k : Bytes} {e : Doc} {r a x2 a2 : Members}
    (h : substMembers V (.cons k e r) a = .ok (V2, x2, a2)) :
    ∃ V1 e1 a1 r2, memberStep (fun v => subst V e v) V k e a = .ok (V1, e1, a1) ∧
      substMembers V1 r a1 = .ok (V2, r2, a2) ∧ x2 = .cons k e1 r2 := by
  simp only [substMembers] at h
  obtain ⟨⟨V1, e1, a1⟩, h1, h⟩ := bind_ok h
  obtain ⟨⟨V3, r2, a3⟩, h2, h⟩ := bind_ok h
  injection h with h; injection h with ha h; injection h with hb hc
  subst ha; subst hc
  exact ⟨V1, e1, a1, r2, h1, h2, hb.symm⟩

theorem substItems_cons {V V2 : Vars} {e : Doc} {r a x2 a2 : Items}
    (h : substItems V (.cons e r) a = .ok (V2, x2, a2)) :
    ∃ v s V1 e1 v1 r2 s2, a = .cons v s ∧ subst V e v = .ok (V1, e1, v1) ∧
      substItems V1 r s = .ok (V2, r2, s2) ∧ x2 = .cons e1 r2 ∧ a2 = .cons v1 s2 := by
  cases a with
  | nil => simp [substItems] at h
  | cons v s =>
    simp only [substItems] at h
    obtain ⟨⟨V1, e1, v1⟩, h1, h⟩ := bind_ok h
    obtain ⟨⟨V3, r2, s2⟩, h2, h⟩ := bind_ok h
    injection h with h; injection h with ha h; injection h with hb hc
    subst ha
    exact ⟨v, s, V1, e1, v1, r2, s2, rfl, h1, h2, hb.symm, hc.symm⟩

/-- The values kept for the placeholders. -/
def VarsWF (V : Vars) : Prop := ∀ x v, V.lookup x = some v → v.WF

theorem bind_wf {V V1 : Vars} {s : Bytes} {v : Doc} (hV : VarsWF V) (hv : v.WF) (h : bind V s v = .ok V1) : VarsWF V1 := by
  simp only [bind] at h
  split at h
  · injection h with h; subst h
    intro x w hw
    rw [List.lookup_cons] at hw
    split at hw
    · injection hw with hw; subst hw; exact hv
    · exact hV x w hw
  · split at h
    · injection h with h; subst h; exact hV
    · cases h

mutual
theorem subst_wf : ∀ (e : Doc) (V V1 : Vars) (a e1 a1 : Doc), VarsWF V → e.WF → a.WF →
    subst V e a = .ok (V1, e1, a1) → VarsWF V1 ∧ e1.WF ∧ a1.WF
  | .obj x, V, V1, a, e1, a1, hV, he, ha, h => by
    rcases subst_cases h with ⟨x', y, x1, y1, hx, rfl, rfl, rfl, h⟩ | ⟨x', y, x1, y1, hx, _⟩ | ⟨_, _, rfl, rfl, rfl⟩
    · injection hx with hx; subst hx
      have := members_wf x V V1 y x1 y1 hV he ha h
      exact ⟨this.1, this.2.1, this.2.2.1⟩
    · cases hx
    · exact ⟨hV, he, ha⟩
  | .arr x, V, V1, a, e1, a1, hV, he, ha, h => by
    rcases subst_cases h with ⟨x', y, x1, y1, hx, _⟩ | ⟨x', y, x1, y1, hx, rfl, rfl, rfl, h⟩ | ⟨_, _, rfl, rfl, rfl⟩
    · cases hx
    · injection hx with hx; subst hx
      exact items_wf x V V1 y x1 y1 hV he ha h
    · exact ⟨hV, he, ha⟩
  | .null, V, V1, a, e1, a1, hV, he, ha, h => by simp [subst] at h
  | .bool b, V, V1, a, e1, a1, hV, he, ha, h => by
    simp only [subst] at h; cases h; exact ⟨hV, he, ha⟩
  | .num b, V, V1, a, e1, a1, hV, he, ha, h => by
    simp only [subst] at h; cases h; exact ⟨hV, he, ha⟩
  | .str b, V, V1, a, e1, a1, hV, he, ha, h => by
    simp only [subst] at h; cases h; exact ⟨hV, he, ha⟩
theorem members_wf : ∀ (x : Members) (V V1 : Vars) (a x1 a1 : Members), VarsWF V → x.WF → a.WF →
    substMembers V x a = .ok (V1, x1, a1) → VarsWF V1 ∧ x1.WF ∧ a1.WF ∧
      (∀ k, (x1.get k).isSome = (x.get k).isSome) ∧ (∀ k, x.get k = none → a1.get k = a.get k)
  | .nil, V, V1, a, x1, a1, hV, hx, ha, h => by
    simp only [substMembers] at h; cases h; exact ⟨hV, hx, ha, fun _ => rfl, fun _ _ => rfl⟩
  | .cons k e r, V, V2, a, x2, a2, hV, hx, ha, h => by
    obtain ⟨V1, e1, a1, r2, h1, h2, rfl⟩ := substMembers_cons h
    simp only [Members.WF] at hx
    have key : VarsWF V1 ∧ e1.WF ∧ a1.WF ∧ ∀ y, y ≠ k → a1.get y = a.get y := by
      rcases memberStep_cases h1 with ⟨_, rfl, rfl, rfl⟩ | ⟨_, _, rfl, rfl, rfl⟩ | ⟨s, v, _, hv, hb, rfl, rfl⟩ |
        ⟨v, v1, _, _, hv, hs, rfl⟩
      · exact ⟨hV, hx.2.1, set_wf a ha k _ (by simp [Doc.WF]), fun y hy => by rw [get_set, if_neg hy]⟩
      · exact ⟨hV, hx.2.1, ha, fun _ _ => rfl⟩
      · have := get_wf a1 ha k e1 hv
        exact ⟨bind_wf hV this hb, this, ha, fun _ _ => rfl⟩
      · have := subst_wf e V V1 v e1 v1 hV hx.2.1 (get_wf a ha k v hv) hs
        exact ⟨this.1, this.2.1, set_wf a ha k v1 this.2.2, fun y hy => by rw [get_set, if_neg hy]⟩
    obtain ⟨kV, ke, ka, kg⟩ := key
    obtain ⟨iV, ir, ia, ik, ig⟩ := members_wf r V1 V2 a1 r2 a2 kV hx.2.2 ka h2
    refine ⟨iV, ?_, ia, ?_, ?_⟩
    · simp only [Members.WF]
      refine ⟨?_, ke, ir⟩
      have := ik k
      rw [hx.1] at this
      cases hg : r2.get k with
      | none => rfl
      | some _ => rw [hg] at this; cases this
    · intro y
      simp only [Members.get]
      split
      · rfl
      · exact ik y
    · intro y hy
      simp only [Members.get] at hy
      split at hy
      · cases hy
      · rename_i hne
        rw [ig y hy, kg y hne]
theorem items_wf : ∀ (x : Items) (V V1 : Vars) (a x1 a1 : Items), VarsWF V → x.WF → a.WF →
    substItems V x a = .ok (V1, x1, a1) → VarsWF V1 ∧ x1.WF ∧ a1.WF
  | .nil, V, V1, a, x1, a1, hV, hx, ha, h => by
    simp only [substItems] at h; cases h; exact ⟨hV, hx, ha⟩
  | .cons e r, V, V2, a, x2, a2, hV, hx, ha, h => by
    obtain ⟨v, s, V1, e1, v1, r2, s2, rfl, h1, h2, rfl, rfl⟩ := substItems_cons h
    simp only [Items.WF] at hx ha ⊢
    obtain ⟨i1, i2, i3⟩ := subst_wf e V V1 v e1 v1 hV hx.1 ha.1 h1
    obtain ⟨j1, j2, j3⟩ := items_wf r V1 V2 s r2 s2 i1 hx.2 ha.2 h2
    exact ⟨j1, ⟨i2, j2⟩, ⟨i3, j3⟩⟩
end

/-- The placeholders bound so far stand for the values `σ`. -/
def Agrees (σ : Bytes → Doc) (V : Vars) : Prop := ∀ x v, V.lookup x = some v → Same v (σ x)

theorem bind_agrees {σ : Bytes → Doc} {V V1 : Vars} {s : Bytes} {v : Doc} (hV : VarsWF V) (hv : v.WF)
    (h : bind V s v = .ok V1) (hA : Agrees σ V1) : Agrees σ V ∧ Same (σ s) v := by
  simp only [bind] at h
  split at h
  · rename_i hl
    injection h with h; subst h
    refine ⟨?_, ?_⟩
    · intro x w hw
      refine hA x w ?_
      rw [List.lookup_cons]
      split
      · rename_i he
        have he : x = s := by simpa using he
        subst he; rw [hl] at hw; cases hw
      · exact hw
    · exact same_symm (hA s v (by simp))
  · rename_i w hl
    split at h
    · rename_i hd
      injection h with h; subst h
      exact ⟨hA, same_symm (same_trans (same_symm ((deep_iff w v (hV s w hl) hv).mp hd)) (hA s w hl))⟩
    · cases h

/-- Binding a placeholder to the value it stands for goes on. -/
theorem agrees_bind {σ : Bytes → Doc} {V : Vars} {s : Bytes} {v : Doc} (hV : VarsWF V) (hv : v.WF)
    (hA : Agrees σ V) (hs : Same (σ s) v) : ∃ V1, bind V s v = .ok V1 ∧ Agrees σ V1 := by
  simp only [bind]
  cases hl : V.lookup s with
  | none =>
    refine ⟨_, rfl, ?_⟩
    intro x w hw
    rw [List.lookup_cons] at hw
    split at hw
    · rename_i he
      have he : x = s := by simpa using he
      subst he; injection hw with hw; subst hw; exact same_symm hs
    · exact hA x w hw
  | some w =>
    have : deepEqual w v = true := (deep_iff w v (hV s w hl) hv).mpr (same_trans (hA s w hl) hs)
    simp only [this, if_true]
    exact ⟨V, rfl, hA⟩

/-- What a member of a template asks of the document. -/
def MemberMatches (σ : Bytes → Doc) (e : Doc) (v : Option Doc) : Prop :=
  IsAny e ∨ ∃ w, v = some w ∧ ¬ IsAny e ∧ (∀ s, IsName e s → Same (σ s) w) ∧ ((¬ ∃ s, IsName e s) → Matches σ e w)

theorem matches_obj (σ : Bytes → Doc) (x y : Members) : Matches σ (.obj x) (.obj y) ↔
    (∀ k, (y.get k).isSome → (x.get k).isSome) ∧ ∀ k e, x.get k = some e → MemberMatches σ e (y.get k) := by
  constructor
  · intro h
    cases h with
    | obj _ _ h1 h2 h3 h4 =>
      refine ⟨h2, ?_⟩
      intro k e he
      by_cases ha : IsAny e
      · exact .inl ha
      · obtain ⟨w, hw⟩ := Option.isSome_iff_exists.mp (h1 k e he ha)
        exact .inr ⟨w, hw, ha, fun s hs => h3 k e s w he hw hs, fun hn => h4 k e w he hw ha hn⟩
  · rintro ⟨h2, h⟩
    refine .obj x y ?_ h2 ?_ ?_
    · intro k u hu ha
      rcases h k u hu with h | ⟨w, hw, _⟩
      · exact absurd h ha
      · rw [hw]; rfl
    · intro k u s v hu hv hn
      rcases h k u hu with h | ⟨w, hw, _, h, _⟩
      · exfalso
        obtain ⟨rfl, hs, _⟩ := hn
        injection h with h
        exact hs h
      · rw [hv] at hw; injection hw with hw; subst hw; exact h s hn
    · intro k u v hu hv ha hn
      rcases h k u hu with h | ⟨w, hw, _, _, h⟩
      · exact absurd h ha
      · rw [hv] at hw; injection hw with hw; subst hw; exact h hn

mutual
/-- What is accepted matches. -/
theorem subst_sound (σ : Bytes → Doc) : ∀ (e : Doc) (V V1 : Vars) (a e1 a1 : Doc), VarsWF V → e.WF → a.WF →
    subst V e a = .ok (V1, e1, a1) → Same e1 a1 → Agrees σ V1 → Agrees σ V ∧ Matches σ e a
  | .obj x, V, V1, a, e1, a1, hV, he, ha, h, hs, hA => by
    rcases subst_cases h with ⟨x', y, x1, y1, hx, rfl, rfl, rfl, h⟩ | ⟨x', y, x1, y1, hx, _⟩ | ⟨hn, _, rfl, rfl, rfl⟩
    · injection hx with hx; subst hx
      cases hs with
      | obj _ _ g1 g2 =>
        have hwf := members_wf x V V1 y x1 y1 hV he ha h
        have := members_sound σ x V V1 y x1 y1 hV he ha h (by
          intro k u hu
          have := g1 k
          rw [hu] at this
          obtain ⟨w, hw⟩ := Option.isSome_iff_exists.mp this.symm
          exact ⟨w, hw, g2 k u w hu hw⟩) hA
        refine ⟨this.1, (matches_obj σ x y).mpr ⟨?_, this.2⟩⟩
        intro k hk
        cases hx : x.get k with
        | some _ => rfl
        | none =>
          exfalso
          have h1 := hwf.2.2.2.2 k hx
          have h2 := hwf.2.2.2.1 k
          rw [hx, g1 k, h1] at h2
          rw [h2] at hk
          cases hk
    · cases hx
    · cases hs with | obj _ y _ _ => exact absurd rfl (hn x y rfl)
  | .arr x, V, V1, a, e1, a1, hV, he, ha, h, hs, hA => by
    rcases subst_cases h with ⟨x', y, x1, y1, hx, _⟩ | ⟨x', y, x1, y1, hx, rfl, rfl, rfl, h⟩ | ⟨_, hn, rfl, rfl, rfl⟩
    · cases hx
    · injection hx with hx; subst hx
      cases hs with
      | arr _ _ g1 g2 =>
        have := items_sound σ x V V1 y x1 y1 hV he ha h g1 g2 hA
        exact ⟨this.1, .arr x y this.2.1 this.2.2⟩
    · cases hs with | arr _ y _ _ => exact absurd rfl (hn x y rfl)
  | .null, V, V1, a, e1, a1, hV, he, ha, h, hs, hA => by simp [subst] at h
  | .bool b, V, V1, a, e1, a1, hV, he, ha, h, hs, hA => by
    simp only [subst] at h; cases h; cases hs; exact ⟨hA, .bool b⟩
  | .num b, V, V1, a, e1, a1, hV, he, ha, h, hs, hA => by
    simp only [subst] at h; cases h; cases hs; exact ⟨hA, .num b⟩
  | .str b, V, V1, a, e1, a1, hV, he, ha, h, hs, hA => by
    simp only [subst] at h; cases h; cases hs; exact ⟨hA, .str b⟩
theorem members_sound (σ : Bytes → Doc) : ∀ (x : Members) (V V1 : Vars) (a x1 a1 : Members), VarsWF V → x.WF → a.WF →
    substMembers V x a = .ok (V1, x1, a1) → (∀ k u, x1.get k = some u → ∃ w, a1.get k = some w ∧ Same u w) →
    Agrees σ V1 → Agrees σ V ∧ ∀ k e, x.get k = some e → MemberMatches σ e (a.get k)
  | .nil, V, V1, a, x1, a1, hV, hx, ha, h, hs, hA => by
    simp only [substMembers] at h; cases h
    exact ⟨hA, by intro k e h; simp [Members.get] at h⟩
  | .cons k e r, V, V2, a, x2, a2, hV, hx, ha, h, hs, hA => by
    obtain ⟨V1, e1, a1, r2, h1, h2, rfl⟩ := substMembers_cons h
    simp only [Members.WF] at hx
    have key : VarsWF V1 ∧ a1.WF ∧ ∀ y, y ≠ k → a1.get y = a.get y := by
      rcases memberStep_cases h1 with ⟨_, rfl, rfl, rfl⟩ | ⟨_, _, rfl, rfl, rfl⟩ | ⟨s, v, _, hv, hb, rfl, rfl⟩ |
        ⟨v, v1, _, _, hv, hs, rfl⟩
      · exact ⟨hV, set_wf a ha k _ (by simp [Doc.WF]), fun y hy => by rw [get_set, if_neg hy]⟩
      · exact ⟨hV, ha, fun _ _ => rfl⟩
      · exact ⟨bind_wf hV (get_wf a1 ha k e1 hv) hb, ha, fun _ _ => rfl⟩
      · have := subst_wf e V V1 v e1 v1 hV hx.2.1 (get_wf a ha k v hv) hs
        exact ⟨this.1, set_wf a ha k v1 this.2.2, fun y hy => by rw [get_set, if_neg hy]⟩
    obtain ⟨kV, ka, kg⟩ := key
    have hwf := members_wf r V1 V2 a1 r2 a2 kV hx.2.2 ka h2
    have hr2 : r2.get k = none := by
      have := hwf.2.2.2.1 k
      rw [hx.1] at this
      cases hg : r2.get k with
      | none => rfl
      | some _ => rw [hg] at this; cases this
    obtain ⟨iA, im⟩ := members_sound σ r V1 V2 a1 r2 a2 kV hx.2.2 ka h2 (by
      intro y u hu
      refine hs y u ?_
      simp only [Members.get]
      rw [if_neg (by rintro rfl; rw [hr2] at hu; cases hu)]
      exact hu) hA
    obtain ⟨w, hw, hsame⟩ := hs k e1 (by simp [Members.get])
    rw [hwf.2.2.2.2 k hx.1] at hw
    have hhead : Agrees σ V ∧ MemberMatches σ e (a.get k) := by
      rcases memberStep_cases h1 with ⟨hany, rfl, rfl, rfl⟩ | ⟨_, hno, rfl, rfl, rfl⟩ | ⟨s, v, hn, hv, hb, rfl, rfl⟩ |
        ⟨v, v1, hna, hnn, hv, hsub, rfl⟩
      · exact ⟨iA, .inl hany⟩
      · rw [hno] at hw; cases hw
      · obtain ⟨hA', hsv⟩ := bind_agrees hV (get_wf a1 ha k e1 hv) hb iA
        refine ⟨hA', .inr ⟨e1, hv, ?_, ?_, fun hc => absurd ⟨s, hn⟩ hc⟩⟩
        · intro hany
          obtain ⟨rfl, hs, _⟩ := hn
          injection hany with h
          exact hs h
        · intro s' hn'
          have : s' = s := by
            have := hn.1; rw [hn'.1] at this; injection this
          subst this; exact hsv
      · rw [get_set, if_pos rfl] at hw
        injection hw with hw; subst hw
        obtain ⟨hA', hm⟩ := subst_sound σ e V V1 v e1 v1 hV hx.2.1 (get_wf a ha k v hv) hsub hsame iA
        exact ⟨hA', .inr ⟨v, hv, hna, fun s hs => absurd ⟨s, hs⟩ hnn, fun _ => hm⟩⟩
    refine ⟨hhead.1, ?_⟩
    intro y u hu
    simp only [Members.get] at hu
    split at hu
    · rename_i hy
      subst hy; injection hu with hu; subst hu
      exact hhead.2
    · rename_i hy
      rw [← kg y hy]; exact im y u hu
theorem items_sound (σ : Bytes → Doc) : ∀ (x : Items) (V V1 : Vars) (a x1 a1 : Items), VarsWF V → x.WF → a.WF →
    substItems V x a = .ok (V1, x1, a1) → (∀ i, (x1.at i).isSome = (a1.at i).isSome) →
    (∀ i u v, x1.at i = some u → a1.at i = some v → Same u v) → Agrees σ V1 →
    Agrees σ V ∧ (∀ i, (x.at i).isSome = (a.at i).isSome) ∧
      ∀ i u v, x.at i = some u → a.at i = some v → Matches σ u v
  | .nil, V, V1, a, x1, a1, hV, hx, ha, h, h1, h2, hA => by
    simp only [substItems] at h; cases h
    exact ⟨hA, h1, by intro i u v h; simp [Items.at] at h⟩
  | .cons e r, V, V2, a, x2, a2, hV, hx, ha, h, h1, h2, hA => by
    obtain ⟨v, s, V1, e1, v1, r2, s2, rfl, g1, g2, rfl, rfl⟩ := substItems_cons h
    simp only [Items.WF] at hx ha
    have hwf := subst_wf e V V1 v e1 v1 hV hx.1 ha.1 g1
    obtain ⟨iA, i1, i2⟩ := items_sound σ r V1 V2 s r2 s2 hwf.1 hx.2 ha.2 g2 (fun i => h1 (i + 1))
      (fun i => h2 (i + 1)) hA
    obtain ⟨jA, jm⟩ := subst_sound σ e V V1 v e1 v1 hV hx.1 ha.1 g1 (h2 0 e1 v1 rfl rfl) iA
    refine ⟨jA, ?_, ?_⟩
    · intro i; cases i with
      | zero => rfl
      | succ i => exact i1 i
    · intro i u w hu hw
      cases i with
      | zero =>
        simp only [Items.at] at hu hw
        injection hu with hu; injection hw with hw; subst hu; subst hw; exact jm
      | succ i => exact i2 i u w hu hw
end

theorem step_any (sub : Doc → Res (Vars × Doc × Doc)) (V : Vars) (k : Bytes) (e : Doc) (a : Members)
    (hk : isVar k = false) (he : IsAny e) : memberStep sub V k e a = .ok (V, e, a.set k (.str anything)) := by
  obtain rfl := he
  unfold memberStep
  rw [if_neg (by rw [hk]; decide)]
  simp only
  rw [if_pos (by rfl)]

theorem step_name (sub : Doc → Res (Vars × Doc × Doc)) (V V1 : Vars) (k s : Bytes) (e v : Doc) (a : Members)
    (hk : isVar k = false) (he : IsName e s) (hv : a.get k = some v) (hb : bind V s v = .ok V1) :
    memberStep sub V k e a = .ok (V1, v, a) := by
  rw [isName_iff] at he
  obtain ⟨rfl, h1, h2⟩ := he
  unfold memberStep
  rw [if_neg (by rw [hk]; decide)]
  simp only
  rw [if_neg h1, hv]
  simp only
  rw [if_pos h2, hb]
  rfl

theorem step_other (sub : Doc → Res (Vars × Doc × Doc)) (V V1 : Vars) (k : Bytes) (e e1 v v1 : Doc) (a : Members)
    (hk : isVar k = false) (hp : e.Plain) (he : ¬ IsAny e) (hn : ¬ ∃ s, IsName e s) (hv : a.get k = some v)
    (hs : sub v = .ok (V1, e1, v1)) : memberStep sub V k e a = .ok (V1, e1, a.set k v1) := by
  unfold memberStep
  rw [if_neg (by rw [hk]; decide)]
  cases e with
  | null => exact absurd hp (by simp [Doc.Plain])
  | str s =>
    simp only
    have h1 : s ≠ anything := by rintro rfl; exact he rfl
    rw [if_neg h1, hv]
    simp only
    rw [if_neg (by intro h; exact hn ⟨s, (isName_iff _ _).mpr ⟨rfl, h1, h⟩⟩), hs]
    rfl
  | bool b => simp only [hv, hs, Res.bind]
  | num b => simp only [hv, hs, Res.bind]
  | arr b => simp only [hv, hs, Res.bind]
  | obj b => simp only [hv, hs, Res.bind]

mutual
/-- What matches is accepted. -/
theorem subst_complete (σ : Bytes → Doc) : ∀ (e : Doc) (V : Vars) (a : Doc), VarsWF V → e.WF → a.WF → e.Plain →
    Agrees σ V → Matches σ e a → ∃ V1 e1 a1, subst V e a = .ok (V1, e1, a1) ∧ Agrees σ V1 ∧ Same e1 a1
  | .obj x, V, a, hV, he, ha, hp, hA, hm => by
    cases a with
    | obj y =>
      rw [matches_obj] at hm
      obtain ⟨V1, x1, a1, h, h1, h2⟩ := members_complete σ x V y hV he ha hp hA hm.2
      refine ⟨V1, .obj x1, .obj a1, by simp [subst, h, Res.bind], h1, ?_⟩
      have hwf := members_wf x V V1 y x1 a1 hV he ha h
      refine .obj x1 a1 ?_ ?_
      · intro k
        apply isSome_eq_of
        constructor
        · intro hk
          obtain ⟨u, hu⟩ := Option.isSome_iff_exists.mp hk
          obtain ⟨w, hw, _⟩ := h2 k u hu
          rw [hw]; rfl
        · intro hk
          rw [hwf.2.2.2.1 k]
          cases hx : x.get k with
          | some _ => rfl
          | none =>
            rw [hwf.2.2.2.2 k hx] at hk
            have := hm.1 k hk
            rw [hx] at this; exact this
      · intro k u v hu hv
        obtain ⟨w, hw, hs⟩ := h2 k u hu
        rw [hv] at hw; injection hw with hw; subst hw; exact hs
    | _ => cases hm
  | .arr x, V, a, hV, he, ha, hp, hA, hm => by
    cases a with
    | arr y =>
      cases hm with
      | arr _ _ m1 m2 =>
        obtain ⟨V1, x1, a1, h, h1, h2, h3⟩ := items_complete σ x V y hV he ha hp hA m1 m2
        exact ⟨V1, .arr x1, .arr a1, by simp [subst, h, Res.bind], h1, .arr x1 a1 h2 h3⟩
    | _ => cases hm
  | .null, V, a, hV, he, ha, hp, hA, hm => absurd hp (by simp [Doc.Plain])
  | .bool b, V, a, hV, he, ha, hp, hA, hm => by
    cases hm; exact ⟨V, _, _, by simp only [subst], hA, .bool b⟩
  | .num b, V, a, hV, he, ha, hp, hA, hm => by
    cases hm; exact ⟨V, _, _, by simp only [subst], hA, .num b⟩
  | .str b, V, a, hV, he, ha, hp, hA, hm => by
    cases hm; exact ⟨V, _, _, by simp only [subst], hA, .str b⟩
theorem members_complete (σ : Bytes → Doc) : ∀ (x : Members) (V : Vars) (a : Members), VarsWF V → x.WF → a.WF → x.Plain →
    Agrees σ V → (∀ k e, x.get k = some e → MemberMatches σ e (a.get k)) →
    ∃ V1 x1 a1, substMembers V x a = .ok (V1, x1, a1) ∧ Agrees σ V1 ∧
      ∀ k u, x1.get k = some u → ∃ w, a1.get k = some w ∧ Same u w
  | .nil, V, a, hV, hx, ha, hp, hA, hm =>
    ⟨V, .nil, a, by simp only [substMembers], hA, by intro k u h; simp [Members.get] at h⟩
  | .cons k e r, V, a, hV, hx, ha, hp, hA, hm => by
    simp only [Members.WF] at hx
    simp only [Members.Plain] at hp
    have key : ∃ V1 e1 a1 w, memberStep (fun v => subst V e v) V k e a = .ok (V1, e1, a1) ∧ Agrees σ V1 ∧ VarsWF V1 ∧
        a1.WF ∧ (∀ y, y ≠ k → a1.get y = a.get y) ∧ a1.get k = some w ∧ Same e1 w := by
      rcases hm k e (by simp [Members.get]) with hany | ⟨v, hv, hna, hname, hother⟩
      · refine ⟨V, e, a.set k (.str anything), .str anything, step_any _ V k e a hp.1 hany, hA, hV,
          set_wf a ha k _ (by simp [Doc.WF]), ?_, ?_, ?_⟩
        · intro y hy; rw [get_set, if_neg hy]
        · rw [get_set, if_pos rfl]
        · obtain rfl := hany; exact .str _
      · have hvw := get_wf a ha k v hv
        by_cases hn : ∃ s, IsName e s
        · obtain ⟨s, hs⟩ := hn
          obtain ⟨V1, hb, hA1⟩ := agrees_bind hV hvw hA (hname s hs)
          exact ⟨V1, v, a, v, step_name _ V V1 k s e v a hp.1 hs hv hb, hA1, bind_wf hV hvw hb, ha, fun _ _ => rfl, hv,
            same_refl v⟩
        · obtain ⟨V1, e1, v1, h, hA1, hs⟩ := subst_complete σ e V v hV hx.2.1 hvw hp.2.1 hA (hother hn)
          have hwf := subst_wf e V V1 v e1 v1 hV hx.2.1 hvw h
          refine ⟨V1, e1, a.set k v1, v1, step_other _ V V1 k e e1 v v1 a hp.1 hp.2.1 hna hn hv h, hA1, hwf.1,
            set_wf a ha k v1 hwf.2.2, ?_, ?_, hs⟩
          · intro y hy; rw [get_set, if_neg hy]
          · rw [get_set, if_pos rfl]
    obtain ⟨V1, e1, a1, w, h1, hA1, hV1, ha1, hg, hw, hs⟩ := key
    obtain ⟨V2, r2, a2, h2, hA2, hs2⟩ := members_complete σ r V1 a1 hV1 hx.2.2 ha1 hp.2.2 hA1 (by
      intro y u hu
      have hy : y ≠ k := by rintro rfl; rw [hx.1] at hu; cases hu
      rw [hg y hy]
      refine hm y u ?_
      simp only [Members.get]
      rw [if_neg hy]
      exact hu)
    refine ⟨V2, .cons k e1 r2, a2, by simp [substMembers, h1, h2, Res.bind], hA2, ?_⟩
    intro y u hu
    simp only [Members.get] at hu
    split at hu
    · rename_i hy
      subst hy
      injection hu with hu; subst hu
      exact ⟨w, by rw [(members_wf r V1 V2 a1 r2 a2 hV1 hx.2.2 ha1 h2).2.2.2.2 y hx.1]; exact hw, hs⟩
    · exact hs2 y u hu
theorem items_complete (σ : Bytes → Doc) : ∀ (x : Items) (V : Vars) (a : Items), VarsWF V → x.WF → a.WF → x.Plain →
    Agrees σ V → (∀ i, (x.at i).isSome = (a.at i).isSome) →
    (∀ i u v, x.at i = some u → a.at i = some v → Matches σ u v) →
    ∃ V1 x1 a1, substItems V x a = .ok (V1, x1, a1) ∧ Agrees σ V1 ∧ (∀ i, (x1.at i).isSome = (a1.at i).isSome) ∧
      ∀ i u v, x1.at i = some u → a1.at i = some v → Same u v
  | .nil, V, a, hV, hx, ha, hp, hA, h1, h2 =>
    ⟨V, .nil, a, by simp only [substItems], hA, h1, by intro i u v h; simp [Items.at] at h⟩
  | .cons e r, V, a, hV, hx, ha, hp, hA, h1, h2 => by
    cases a with
    | nil => simpa [Items.at] using h1 0
    | cons v s =>
      simp only [Items.WF] at hx ha
      simp only [Items.Plain] at hp
      obtain ⟨V1, e1, v1, g1, hA1, hs1⟩ := subst_complete σ e V v hV hx.1 ha.1 hp.1 hA (h2 0 e v rfl rfl)
      have hwf := subst_wf e V V1 v e1 v1 hV hx.1 ha.1 g1
      obtain ⟨V2, r2, s2, g2, hA2, j1, j2⟩ := items_complete σ r V1 s hwf.1 hx.2 ha.2 hp.2 hA1 (fun i => h1 (i + 1))
        (fun i => h2 (i + 1))
      refine ⟨V2, .cons e1 r2, .cons v1 s2, by simp [substItems, g1, g2, Res.bind], hA2, ?_, ?_⟩
      · intro i; cases i with
        | zero => rfl
        | succ i => exact j1 i
      · intro i u w hu hw
        cases i with
        | zero =>
          simp only [Items.at] at hu hw
          injection hu with hu; injection hw with hw; subst hu; subst hw; exact hs1
        | succ i => exact j2 i u w hu hw
end

/-- What `must.JsonEqual` accepts matches the template for some values of the placeholders, whatever the order in which the
members are visited. -/
theorem accepted_matches (e a : Doc) (he : e.WF) (ha : a.WF) (h : jsonEqual e a = .accepted) : ∃ σ, Matches σ e a := by
  simp only [jsonEqual] at h
  split at h
  · rename_i V e1 a1 hs
    split at h
    · rename_i hd
      have hV : VarsWF [] := by intro x v h; cases h
      obtain ⟨w1, w2, w3⟩ := subst_wf e [] V a e1 a1 hV he ha hs
      refine ⟨fun x => (V.lookup x).getD .null, ?_⟩
      refine (subst_sound _ e [] V a e1 a1 hV he ha hs ((deep_iff e1 a1 w2 w3).mp hd) ?_).2
      intro x v hx
      simp only [hx, Option.getD_some]
      exact same_refl v
    · cases h
  all_goals cases h

/-- C59 (partly): without nulls and placeholders as keys in the template, `must.JsonEqual` accepts exactly the documents that
match it for some values of the placeholders, whatever the order in which the members are visited. -/
theorem accepts_matching_partial (e a : Doc) (he : e.WF) (ha : a.WF) (hp : e.Plain) :
    jsonEqual e a = .accepted ↔ ∃ σ, Matches σ e a := by
  constructor
  · exact accepted_matches e a he ha
  · rintro ⟨σ, hm⟩
    have hV : VarsWF [] := by intro x v h; cases h
    obtain ⟨V, e1, a1, hs, _, hsame⟩ := subst_complete σ e [] a hV he ha hp (by intro x v h; cases h) hm
    obtain ⟨w1, w2, w3⟩ := subst_wf e [] V a e1 a1 hV he ha hs
    simp only [jsonEqual, hs]
    rw [if_pos ((deep_iff e1 a1 w2 w3).mpr hsame)]

theorem literal_get (m : Members) (h : m.Literal) (k : Bytes) (u : Doc) (hu : m.get k = some u) :
    ¬ IsAny u ∧ (¬ ∃ s, IsName u s) ∧ u.Literal := by
  match m with
  | .nil => simp [Members.get] at hu
  | .cons x d r =>
    simp only [Members.Literal] at h
    simp only [Members.get] at hu
    split at hu
    · injection hu with hu; subst hu; exact ⟨h.1.1, h.1.2, h.2.1⟩
    · exact literal_get r h.2.2 k u hu

theorem literal_at (l : Items) (h : l.Literal) (i : Nat) (u : Doc) (hu : l.at i = some u) : u.Literal := by
  match l, i with
  | .nil, _ => simp [Items.at] at hu
  | .cons d r, 0 =>
    simp only [Items.Literal] at h
    simp only [Items.at] at hu
    injection hu with hu; subst hu; exact h.1
  | .cons d r, i + 1 =>
    simp only [Items.Literal] at h
    exact literal_at r h.2 i u hu

/-- A template without placeholders is matched by the same document only. -/
theorem matches_literal (σ : Bytes → Doc) (e a : Doc) (hl : e.Literal) : Matches σ e a ↔ Same e a := by
  constructor
  · intro h
    induction h with
    | null => exact .null
    | bool b => exact .bool b
    | num n => exact .num n
    | str s => exact .str s
    | arr x y h1 _ ih => exact .arr x y h1 (fun i u v hu hv => ih i u v hu hv (literal_at x hl i u hu))
    | obj x y h1 h2 _ _ ih =>
      refine .obj x y (fun k => isSome_eq_of ⟨?_, h2 k⟩) ?_
      · intro hk
        obtain ⟨u, hu⟩ := Option.isSome_iff_exists.mp hk
        exact h1 k u hu (literal_get x hl k u hu).1
      · intro k u v hu hv
        have := literal_get x hl k u hu
        exact ih k u v hu hv this.1 this.2.1 this.2.2
  · intro h
    induction h with
    | null => exact .null
    | bool b => exact .bool b
    | num n => exact .num n
    | str s => exact .str s
    | arr x y h1 _ ih => exact .arr x y h1 (fun i u v hu hv => ih i u v hu hv (literal_at x hl i u hu))
    | obj x y h1 _ ih =>
      refine .obj x y ?_ ?_ ?_ ?_
      · intro k u hu _; rw [← h1 k, hu]; rfl
      · intro k hk; rw [h1 k]; exact hk
      · intro k u s v hu _ hn; exact absurd ⟨s, hn⟩ (literal_get x hl k u hu).2.1
      · intro k u v hu hv _ _; exact ih k u v hu hv (literal_get x hl k u hu).2.2

/-- C59 (partly): without nulls and placeholders in the template, `must.JsonEqual` accepts exactly the same document,
whatever the order of the members. -/
theorem accepts_same_partial (e a : Doc) (he : e.WF) (ha : a.WF) (hp : e.Plain) (hl : e.Literal) :
    jsonEqual e a = .accepted ↔ Same e a := by
  rw [accepts_matching_partial e a he ha hp]
  constructor
  · rintro ⟨σ, h⟩; exact (matches_literal σ e a hl).mp h
  · intro h; exact ⟨fun _ => .null, (matches_literal _ e a hl).mpr h⟩

/-! ### `should.JsonEqual` -/

theorem noNull_get (m : Members) (h : m.NoNull) (k : Bytes) (u : Doc) (hu : m.get k = some u) : u.NoNull := by
  match m with
  | .nil => simp [Members.get] at hu
  | .cons x d r =>
    simp only [Members.NoNull] at h
    simp only [Members.get] at hu
    split at hu
    · injection hu with hu; subst hu; exact h.1
    · exact noNull_get r h.2 k u hu

/-- One turn of the loop of `maskAnything`. -/
theorem mask_turn (k : Bytes) (e : Doc) (r a a2 : Members) (h : maskMembers (.cons k e r) a = .ok a2) :
    (e = .str (asc "ANYTHING") ∧ maskMembers r (a.set k e) = .ok a2) ∨
    (e ≠ .str (asc "ANYTHING") ∧ ∃ v v1, a.get k = some v ∧ mask e v = .ok v1 ∧ maskMembers r (a.set k v1) = .ok a2) ∨
    ((∃ s, e = .str s) ∧ e ≠ .str (asc "ANYTHING") ∧ ∃ v, a.get k = some v ∧ maskMembers r a = .ok a2) := by
  cases e with
  | str s =>
    simp only [maskMembers] at h
    split at h
    · rename_i hs
      subst hs
      exact .inl ⟨rfl, h⟩
    · rename_i hs
      cases hg : a.get k with
      | none => rw [hg] at h; cases h
      | some v =>
        rw [hg] at h
        exact .inr (.inr ⟨⟨s, rfl⟩, (by intro h; injection h with h; exact hs h), v, rfl, h⟩)
  | _ =>
    simp only [maskMembers] at h
    cases hg : a.get k with
    | none => rw [hg] at h; cases h
    | some v =>
      rw [hg] at h
      obtain ⟨v1, h1, h2⟩ := bind_ok h
      exact .inr (.inl ⟨(by intro h; cases h), v, v1, rfl, h1, h2⟩)

mutual
theorem mask_wf : ∀ (e a a1 : Doc), a.WF → mask e a = .ok a1 → a1.WF
  | .obj x, a, a1, ha, h => by
    cases a with
    | obj y =>
      simp only [mask] at h
      obtain ⟨y1, h1, h2⟩ := bind_ok h
      injection h2 with h2; subst h2
      exact (maskMembers_wf x y y1 ha h1).1
    | _ => simp only [mask] at h; cases h; exact ha
  | .null, a, a1, ha, h => by simp [mask] at h
  | .bool _, a, a1, ha, h => by simp only [mask] at h; cases h; exact ha
  | .num _, a, a1, ha, h => by simp only [mask] at h; cases h; exact ha
  | .str _, a, a1, ha, h => by simp only [mask] at h; cases h; exact ha
  | .arr _, a, a1, ha, h => by simp only [mask] at h; cases h; exact ha
theorem maskMembers_wf : ∀ (x a a1 : Members), a.WF → maskMembers x a = .ok a1 →
    a1.WF ∧ ∀ k, x.get k = none → a1.get k = a.get k
  | .nil, a, a1, ha, h => by simp only [maskMembers] at h; cases h; exact ⟨ha, fun _ _ => rfl⟩
  | .cons k e r, a, a2, ha, h => by
    have fin : ∀ a', a'.WF → (∀ y, y ≠ k → a'.get y = a.get y) → maskMembers r a' = .ok a2 →
        a2.WF ∧ ∀ y, (Members.cons k e r).get y = none → a2.get y = a.get y := by
      intro a' ha' hg h
      obtain ⟨i1, i2⟩ := maskMembers_wf r a' a2 ha' h
      refine ⟨i1, ?_⟩
      intro y hy
      simp only [Members.get] at hy
      split at hy
      · cases hy
      · rename_i hne; rw [i2 y hy, hg y hne]
    rcases mask_turn k e r a a2 h with ⟨rfl, h⟩ | ⟨_, v, v1, hv, hm, h⟩ | ⟨_, _, v, _, h⟩
    · exact fin _ (set_wf a ha k _ (by simp [Doc.WF])) (fun y hy => by rw [get_set, if_neg hy]) h
    · exact fin _ (set_wf a ha k _ (mask_wf e v v1 (get_wf a ha k v hv) hm)) (fun y hy => by rw [get_set, if_neg hy]) h
    · exact fin _ ha (fun _ _ => rfl) h
end

/-- What a member of a template of `should.JsonEqual` asks of the document. -/
def MemberMasked (e : Doc) (v : Option Doc) : Prop :=
  e = .str (asc "ANYTHING") ∨ ∃ w, v = some w ∧ e ≠ .str (asc "ANYTHING") ∧ Masked e w

theorem masked_obj (x y : Members) : Masked (.obj x) (.obj y) ↔
    (∀ k, (y.get k).isSome → (x.get k).isSome) ∧ ∀ k e, x.get k = some e → MemberMasked e (y.get k) := by
  constructor
  · intro h
    cases h with
    | same _ _ hn _ => exact absurd rfl (hn x)
    | obj _ _ h1 h2 h3 =>
      refine ⟨h2, ?_⟩
      intro k e he
      by_cases ha : e = .str (asc "ANYTHING")
      · exact .inl ha
      · obtain ⟨w, hw⟩ := Option.isSome_iff_exists.mp (h1 k e he ha)
        exact .inr ⟨w, hw, ha, h3 k e w he hw ha⟩
  · rintro ⟨h2, h⟩
    refine .obj x y ?_ h2 ?_
    · intro k u hu ha
      rcases h k u hu with h | ⟨w, hw, _⟩
      · exact absurd h ha
      · rw [hw]; rfl
    · intro k u v hu hv ha
      rcases h k u hu with h | ⟨w, hw, _, h⟩
      · exact absurd h ha
      · rw [hv] at hw; injection hw with hw; subst hw; exact h

theorem mask_other (e a : Doc) (hn : ∀ m, e ≠ .obj m) (h0 : e ≠ .null) : mask e a = .ok a := by
  cases e with
  | obj m => exact absurd rfl (hn m)
  | null => exact absurd rfl h0
  | _ => simp only [mask]

theorem mask_obj_other (x : Members) (a : Doc) (hn : ∀ m, a ≠ .obj m) : mask (.obj x) a = .ok a := by
  cases a with
  | obj m => exact absurd rfl (hn m)
  | _ => simp only [mask]

mutual
theorem mask_sound : ∀ (e a a1 : Doc), e.WF → a.WF → mask e a = .ok a1 → Same e a1 → Masked e a
  | .obj x, a, a1, he, ha, h, hs => by
    cases a with
    | obj y =>
      simp only [mask] at h
      obtain ⟨y1, h1, h2⟩ := bind_ok h
      injection h2 with h2; subst h2
      cases hs with
      | obj _ _ g1 g2 =>
        rw [masked_obj]
        refine ⟨?_, maskMembers_sound x y y1 he ha h1 ?_⟩
        · intro k hk
          cases hx : x.get k with
          | some _ => rfl
          | none =>
            exfalso
            rw [← (maskMembers_wf x y y1 ha h1).2 k hx, ← g1 k, hx] at hk
            cases hk
        · intro k u hu
          have := g1 k
          rw [hu] at this
          obtain ⟨w, hw⟩ := Option.isSome_iff_exists.mp this.symm
          exact ⟨w, hw, g2 k u w hu hw⟩
    | _ => simp only [mask] at h; cases h; cases hs
  | .null, a, a1, he, ha, h, hs => by simp [mask] at h
  | .bool _, a, a1, he, ha, h, hs => by
    simp only [mask] at h; cases h; exact .same _ _ (by intro m h; cases h) hs
  | .num _, a, a1, he, ha, h, hs => by
    simp only [mask] at h; cases h; exact .same _ _ (by intro m h; cases h) hs
  | .str _, a, a1, he, ha, h, hs => by
    simp only [mask] at h; cases h; exact .same _ _ (by intro m h; cases h) hs
  | .arr _, a, a1, he, ha, h, hs => by
    simp only [mask] at h; cases h; exact .same _ _ (by intro m h; cases h) hs
theorem maskMembers_sound : ∀ (x a a1 : Members), x.WF → a.WF → maskMembers x a = .ok a1 →
    (∀ k u, x.get k = some u → ∃ w, a1.get k = some w ∧ Same u w) →
    ∀ k e, x.get k = some e → MemberMasked e (a.get k)
  | .nil, a, a1, hx, ha, h, hs => by intro k e h; simp [Members.get] at h
  | .cons k e r, a, a2, hx, ha, h, hs => by
    simp only [Members.WF] at hx
    obtain ⟨w, hw, hsame⟩ := hs k e (by simp [Members.get])
    have hrest : ∀ y u, r.get y = some u → ∃ w, a2.get y = some w ∧ Same u w := by
      intro y u hu
      refine hs y u ?_
      simp only [Members.get]
      rw [if_neg (by rintro rfl; rw [hx.1] at hu; cases hu)]
      exact hu
    have fin : ∀ a', a'.WF → (∀ y, y ≠ k → a'.get y = a.get y) → maskMembers r a' = .ok a2 →
        (a'.get k = some w → MemberMasked e (a.get k)) →
        ∀ y u, (Members.cons k e r).get y = some u → MemberMasked u (a.get y) := by
      intro a' ha' hg h hh y u hu
      have := (maskMembers_wf r a' a2 ha' h).2 k hx.1
      simp only [Members.get] at hu
      split at hu
      · rename_i hy
        subst hy
        injection hu with hu; subst hu
        exact hh (by rw [← this]; exact hw)
      · rename_i hy
        rw [← hg y hy]
        exact maskMembers_sound r a' a2 hx.2.2 ha' h hrest y u hu
    rcases mask_turn k e r a a2 h with ⟨rfl, h⟩ | ⟨hne, v, v1, hv, hm, h⟩ | ⟨⟨s, rfl⟩, hne, v, hv, h⟩
    · exact fin _ (set_wf a ha k _ (by simp [Doc.WF])) (fun y hy => by rw [get_set, if_neg hy]) h (fun _ => .inl rfl)
    · refine fin _ (set_wf a ha k _ (mask_wf e v v1 (get_wf a ha k v hv) hm)) (fun y hy => by rw [get_set, if_neg hy]) h ?_
      intro hk
      rw [get_set, if_pos rfl] at hk
      injection hk with hk; subst hk
      exact .inr ⟨v, hv, hne, mask_sound e v v1 hx.2.1 (get_wf a ha k v hv) hm hsame⟩
    · refine fin _ ha (fun _ _ => rfl) h ?_
      intro hk
      exact .inr ⟨w, hk, hne, .same _ _ (by intro m h; cases h) hsame⟩
end

mutual
theorem mask_complete : ∀ (e a : Doc), e.WF → a.WF → e.NoNull → Masked e a → ∃ a1, mask e a = .ok a1 ∧ Same e a1
  | .obj x, a, he, ha, hn, hm => by
    cases a with
    | obj y =>
      rw [masked_obj] at hm
      obtain ⟨y1, h, hs⟩ := maskMembers_complete x y he ha hn hm.2
      refine ⟨.obj y1, by simp [mask, h, Res.bind], ?_⟩
      refine .obj x y1 (fun k => isSome_eq_of ⟨?_, ?_⟩) ?_
      · intro hk
        obtain ⟨u, hu⟩ := Option.isSome_iff_exists.mp hk
        obtain ⟨w, hw, _⟩ := hs k u hu
        rw [hw]; rfl
      · intro hk
        cases hx : x.get k with
        | some _ => rfl
        | none =>
          rw [(maskMembers_wf x y y1 ha h).2 k hx] at hk
          have := hm.1 k hk
          rw [hx] at this; exact this
      · intro k u v hu hv
        obtain ⟨w, hw, hs⟩ := hs k u hu
        rw [hv] at hw; injection hw with hw; subst hw; exact hs
    | _ =>
      cases hm with
      | same _ _ hn _ => exact absurd rfl (hn x)
  | .null, a, he, ha, hn, hm => absurd hn (by simp [Doc.NoNull])
  | .bool _, a, he, ha, hn, hm => by cases hm with | same _ _ _ hs => exact ⟨a, by simp only [mask], hs⟩
  | .num _, a, he, ha, hn, hm => by cases hm with | same _ _ _ hs => exact ⟨a, by simp only [mask], hs⟩
  | .str _, a, he, ha, hn, hm => by cases hm with | same _ _ _ hs => exact ⟨a, by simp only [mask], hs⟩
  | .arr _, a, he, ha, hn, hm => by cases hm with | same _ _ _ hs => exact ⟨a, by simp only [mask], hs⟩
theorem maskMembers_complete : ∀ (x a : Members), x.WF → a.WF → x.NoNull →
    (∀ k e, x.get k = some e → MemberMasked e (a.get k)) →
    ∃ a1, maskMembers x a = .ok a1 ∧ ∀ k u, x.get k = some u → ∃ w, a1.get k = some w ∧ Same u w
  | .nil, a, hx, ha, hn, hm => ⟨a, by simp only [maskMembers], by intro k u h; simp [Members.get] at h⟩
  | .cons k e r, a, hx, ha, hn, hm => by
    simp only [Members.WF] at hx
    simp only [Members.NoNull] at hn
    have fin : ∀ a' w, a'.WF → (∀ y, y ≠ k → a'.get y = a.get y) → a'.get k = some w → Same e w →
        ∃ a1, maskMembers r a' = .ok a1 ∧
          ∀ y u, (Members.cons k e r).get y = some u → ∃ w, a1.get y = some w ∧ Same u w := by
      intro a' w ha' hg hw hs
      obtain ⟨a1, h, i⟩ := maskMembers_complete r a' hx.2.2 ha' hn.2 (by
        intro y u hu
        have hy : y ≠ k := by rintro rfl; rw [hx.1] at hu; cases hu
        rw [hg y hy]
        refine hm y u ?_
        simp only [Members.get]
        rw [if_neg hy]
        exact hu)
      refine ⟨a1, h, ?_⟩
      intro y u hu
      simp only [Members.get] at hu
      split at hu
      · rename_i hy
        subst hy
        injection hu with hu; subst hu
        exact ⟨w, by rw [(maskMembers_wf r a' a1 ha' h).2 y hx.1]; exact hw, hs⟩
      · exact i y u hu
    rcases hm k e (by simp [Members.get]) with rfl | ⟨v, hv, hne, hmv⟩
    · obtain ⟨a1, h, i⟩ := fin (a.set k (.str (asc "ANYTHING"))) (.str (asc "ANYTHING"))
        (set_wf a ha k _ (by simp [Doc.WF])) (fun y hy => by rw [get_set, if_neg hy]) (by rw [get_set, if_pos rfl])
        (.str _)
      exact ⟨a1, by simpa [maskMembers] using h, i⟩
    · obtain ⟨v1, h1, hs1⟩ := mask_complete e v hx.2.1 (get_wf a ha k v hv) hn.1 hmv
      have hwf := mask_wf e v v1 (get_wf a ha k v hv) h1
      obtain ⟨a1, h, i⟩ := fin (a.set k v1) v1
        (set_wf a ha k _ hwf) (fun y hy => by rw [get_set, if_neg hy]) (by rw [get_set, if_pos rfl]) hs1
      cases e with
      | str s =>
        have hs : s ≠ asc "ANYTHING" := by rintro rfl; exact hne rfl
        have : v1 = v := by simp only [mask] at h1; cases h1; rfl
        subst this
        obtain ⟨a1, h, i⟩ := fin a v1 ha (fun _ _ => rfl) hv hs1
        exact ⟨a1, by simp only [maskMembers]; rw [if_neg hs, hv]; exact h, i⟩
      | _ => exact ⟨a1, by simp only [maskMembers, hv, h1, Res.bind]; exact h, i⟩
end

/-- C59 (partly): without nulls as members in the template, `should.JsonEqual` accepts exactly the documents that are the same
but for the members that are "ANYTHING" in the template. -/
theorem should_accepts_partial (e a : Doc) (he : e.WF) (ha : a.WF) (hn : e.NoNull) :
    shouldJsonEqual e a = .accepted ↔ Masked e a := by
  constructor
  · intro h
    simp only [shouldJsonEqual] at h
    split at h
    · rename_i a1 hm
      split at h
      · rename_i hd
        exact mask_sound e a a1 he ha hm ((deep_iff e a1 he (mask_wf e a a1 ha hm)).mp hd)
      · cases h
    all_goals cases h
  · intro h
    obtain ⟨a1, hm, hs⟩ := mask_complete e a he ha hn h
    simp only [shouldJsonEqual, hm]
    rw [if_pos ((deep_iff e a1 he (mask_wf e a a1 ha hm)).mpr hs)]

/-! ### What is not so -/

/-- The full statement of C59 is false: a document with a null in it is not accepted as equal to itself. -/
theorem null_panics : Same .null .null ∧ jsonEqual .null .null = .panicked ∧ shouldJsonEqual .null .null = .panicked ∧
    jsonEqual (.obj (.cons (asc "a") .null .nil)) (.obj (.cons (asc "a") .null .nil)) = .panicked ∧
    jsonEqual (.arr (.cons .null .nil)) (.arr (.cons .null .nil)) = .panicked :=
  ⟨.null, rfl, rfl, rfl, rfl⟩

/-- A shorter array is a panic, not a failed check. -/
theorem shorter_panics : jsonEqual (.arr (.cons (.num 1) .nil)) (.arr .nil) = .panicked := rfl

/-- A placeholder in an array is not one. -/
theorem array_placeholder (v : Doc) (ha : v.WF) :
    jsonEqual (.arr (.cons (.str (asc "{ANYTHING}")) .nil)) (.arr (.cons v .nil)) = .accepted ↔
      v = .str (asc "{ANYTHING}") := by
  rw [accepts_same_partial _ _ (by simp [Doc.WF, Items.WF]) (by simp [Doc.WF, Items.WF, ha])
    (by simp [Doc.Plain, Items.Plain]) (by simp [Doc.Literal, Items.Literal])]
  constructor
  · intro h
    cases h with
    | arr _ _ _ h2 =>
      have := h2 0 _ _ rfl rfl
      cases this; rfl
  · rintro rfl
    exact same_refl _

/-- A member that is missing is accepted for `{ANYTHING}`. -/
theorem missing_is_anything :
    jsonEqual (.obj (.cons (asc "a") (.str (asc "{ANYTHING}")) .nil)) (.obj .nil) = .accepted := by decide

/-- A value that is neither a string nor bytes is never accepted: when it can be encoded, the check panics. -/
theorem value_never_accepted (compare : Doc → Doc → Outcome) (e : Option Doc) (v : Option Bytes) :
    check compare e (.value v) ≠ .accepted ∧ (e.isSome → v.isSome → check compare e (.value v) = .panicked) := by
  cases e <;> cases v <;> simp [check]

/-- For texts the comparison decides. -/
theorem text_compared (compare : Doc → Doc → Outcome) (e a : Option Doc) :
    check compare e (.text a) = .accepted ↔ ∃ x y, e = some x ∧ a = some y ∧ compare x y = .accepted := by
  cases e <;> cases a <;> simp [check]

/-! ### Cases -/

/-- A template with all kinds of placeholders and nesting. -/
def template : Doc :=
  .obj (.cons (asc "id") (.str (asc "{ID}")) (.cons (asc "at") (.str (asc "{ANYTHING}"))
    (.cons (asc "items") (.arr (.cons (.obj (.cons (asc "of") (.str (asc "{ID}")) .nil)) .nil)) .nil)))

/-- A document with the members in another order. -/
def document (ofId : Int) : Doc :=
  .obj (.cons (asc "items") (.arr (.cons (.obj (.cons (asc "of") (.num ofId) .nil)) .nil))
    (.cons (asc "at") (.bool true) (.cons (asc "id") (.num 7) .nil)))

example : template.WF ∧ template.Plain ∧ (document 7).WF := by
  simp [template, document, Doc.WF, Items.WF, Members.WF, Members.get, Doc.Plain, Items.Plain, Members.Plain]
  decide

example : jsonEqual template (document 7) = .accepted := by decide
example : jsonEqual template (document 8) = .failed := by decide

/-- Equal occurrences: matches for one value. -/
example : ∃ σ, Matches σ template (document 7) :=
  accepted_matches _ _ (by simp [template, Doc.WF, Items.WF, Members.WF, Members.get]; decide)
    (by simp [document, Doc.WF, Items.WF, Members.WF, Members.get]; decide) (by decide)

/-- No placeholders, other order of members. -/
example : jsonEqual (.obj (.cons [97] (.num 1) (.cons [98] (.num 2) .nil)))
    (.obj (.cons [98] (.num 2) (.cons [97] (.num 1) .nil))) = .accepted := by decide

example : shouldJsonEqual (.obj (.cons [97] (.str (asc "ANYTHING")) (.cons [98] (.num 2) .nil)))
    (.obj (.cons [98] (.num 2) (.cons [97] (.num 1) .nil))) = .accepted := by decide
example : shouldJsonEqual (.obj (.cons [97] (.str (asc "ANYTHING")) (.cons [98] (.num 2) .nil)))
    (.obj (.cons [98] (.num 3) (.cons [97] (.num 1) .nil))) = .failed := by decide
/-- A missing member is a panic of `should.JsonEqual`. -/
example : shouldJsonEqual (.obj (.cons [97] (.num 1) .nil)) (.obj .nil) = .panicked := by decide

end Verif.JsonEqual
