import Verif.Assert.Delta
import Verif.Test.JsonEqual
import Mathlib.Data.Rat.Encodable

/-!
# C128: `JSONEq`

Model of `JSONEq`, test/testify/assert/assertions.go 1164-1179.  What `json.Unmarshal` makes of the two texts is modelled from their
syntax trees on: numbers become `float64` and the last of several members with one name stays.
-/

namespace Verif.JsonEq

open Verif.Assert
open Verif.JsonEqual (Doc Items Members deepEqual)

/-! ### Model -/

mutual
/-- The syntax tree of a JSON text, assertions.go 1170 and 1174, numbers with their exact value. -/
inductive Tree
  | null
  | bool (b : Bool)
  | num (q : ℚ)
  | str (s : Bytes)
  | arr (l : Trees)
  | obj (m : Fields)
/-- The elements of an array, see `Tree`, assertions.go 1170. -/
inductive Trees
  | nil
  | cons (t : Tree) (r : Trees)
/-- The members of an object, in the order of the text, see `Tree`, assertions.go 1170. -/
inductive Fields
  | nil
  | cons (k : Bytes) (t : Tree) (r : Fields)
end

/-- A number for each value of a `float64`, since `Doc` has integers (for assertions.go 1170). -/
def code (q : ℚ) : Int := Encodable.encode q

mutual
/-- `json.Unmarshal` into an `interface{}`, assertions.go 1170 and 1174; `none` is its error for a number that is too large. -/
def decode : Tree → Option Doc
  | .null => some .null
  | .bool b => some (.bool b)
  | .num q =>
    match rnd q with
    | .fin f => some (.num (code f))
    | _ => none
  | .str s => some (.str s)
  | .arr l => (decodeL l).map .arr
  | .obj m => (decodeM m .nil).map .obj
/-- The elements of an array, see `decode` (assertions.go 1170). -/
def decodeL : Trees → Option Items
  | .nil => some .nil
  | .cons t r =>
    match decode t, decodeL r with
    | some d, some l => some (.cons d l)
    | _, _ => none
/-- The members of an object, each set in the map, see `decode` (assertions.go 1170). -/
def decodeM : Fields → Members → Option Members
  | .nil, m => some m
  | .cons k t r, m =>
    match decode t with
    | some d => decodeM r (m.set k d)
    | none => none
end

/-- `JSONEq`, assertions.go 1167-1179; `parse` gives the syntax tree of a text that is JSON. -/
def jsonEq (msgOk : Bool) (parse : Bytes → Option Tree) (expected actual : Bytes) : Outcome :=
  match (parse expected).bind decode with
  | none => fail msgOk
  | some x =>
    match (parse actual).bind decode with
    | none => fail msgOk
    | some y => if deepEqual x y then .ret true false else fail msgOk

/-! ### Specification -/

/-- The last member with a name. -/
def Fields.last : Fields → Bytes → Option Tree
  | .nil, _ => none
  | .cons k t r, x =>
    match r.last x with
    | some u => some u
    | none => if x = k then some t else none

/-- The element of an array at an index. -/
def Trees.at : Trees → Nat → Option Tree
  | .nil, _ => none
  | .cons t _, 0 => some t
  | .cons _ r, i + 1 => r.at i

/-- Texts with the same meaning: numbers have the same value, members may have any order, and the last of those with one name counts. -/
inductive Same : Tree → Tree → Prop
  | null : Same .null .null
  | bool (b : Bool) : Same (.bool b) (.bool b)
  | num (q : ℚ) : Same (.num q) (.num q)
  | str (s : Bytes) : Same (.str s) (.str s)
  | arr (x y : Trees) : (∀ i, (x.at i).isSome = (y.at i).isSome) →
      (∀ i u v, x.at i = some u → y.at i = some v → Same u v) → Same (.arr x) (.arr y)
  | obj (x y : Fields) : (∀ k, (x.last k).isSome = (y.last k).isSome) →
      (∀ k u v, x.last k = some u → y.last k = some v → Same u v) → Same (.obj x) (.obj y)

mutual
/-- All numbers satisfy `P`. -/
def Tree.All (P : ℚ → Prop) : Tree → Prop
  | .num q => P q
  | .arr l => l.All P
  | .obj m => m.All P
  | _ => True
def Trees.All (P : ℚ → Prop) : Trees → Prop
  | .nil => True
  | .cons t r => t.All P ∧ r.All P
def Fields.All (P : ℚ → Prop) : Fields → Prop
  | .nil => True
  | .cons _ t r => t.All P ∧ r.All P
end

/-- A number within the range of `float64`. -/
def InRange (q : ℚ) : Prop := ∃ f, rnd q = .fin f

/-! ### Proofs -/

theorem code_inj {p q : ℚ} (h : code p = code q) : p = q := by
  unfold code at h
  exact Encodable.encode_injective (by exact_mod_cast h)

theorem decodeM_get : ∀ (m : Fields) (acc d : Members), decodeM m acc = some d → ∀ k,
    (∀ t, m.last k = some t → ∃ u, decode t = some u ∧ d.get k = some u) ∧ (m.last k = none → d.get k = acc.get k)
  | .nil, acc, d, h, k => by
    rw [decodeM] at h
    cases h
    exact ⟨fun t ht => by simp [Fields.last] at ht, fun _ => rfl⟩
  | .cons x t r, acc, d, h, k => by
    rw [decodeM] at h
    cases ht : decode t with
    | none => rw [ht] at h; cases h
    | some u =>
      rw [ht] at h
      simp only at h
      obtain ⟨h1, h2⟩ := decodeM_get r _ d h k
      rw [Fields.last]
      cases hl : r.last k with
      | some v =>
        refine ⟨fun t' ht' => ?_, fun hn => by simp at hn⟩
        simp only [Option.some.injEq] at ht'
        subst ht'
        exact h1 v hl
      | none =>
        simp only
        have h3 := h2 hl
        rw [JsonEqual.get_set] at h3
        by_cases hk : k = x
        · rw [if_pos hk]
          rw [if_pos hk] at h3
          refine ⟨fun t' ht' => ?_, fun hn => by cases hn⟩
          cases ht'
          exact ⟨u, ht, h3⟩
        · rw [if_neg hk]
          rw [if_neg hk] at h3
          exact ⟨fun t' ht' => (by cases ht'), fun _ => h3⟩

theorem decodeL_at : ∀ (l : Trees) (d : Items), decodeL l = some d → ∀ i,
    (∀ t, l.at i = some t → ∃ u, decode t = some u ∧ d.at i = some u) ∧ (l.at i = none → d.at i = none)
  | .nil, d, h, i => by
    rw [decodeL] at h
    cases h
    exact ⟨fun t ht => by simp [Trees.at] at ht, fun _ => rfl⟩
  | .cons t r, d, h, i => by
    rw [decodeL] at h
    cases ht : decode t with
    | none => rw [ht] at h; cases h
    | some u =>
      cases hr : decodeL r with
      | none => rw [ht, hr] at h; cases h
      | some l =>
        rw [ht, hr] at h
        cases h
        cases i with
        | zero =>
          refine ⟨fun t' ht' => ?_, fun hn => by simp [Trees.at] at hn⟩
          simp only [Trees.at, Option.some.injEq] at ht'
          subst ht'
          exact ⟨u, ht, rfl⟩
        | succ i => exact decodeL_at r l hr i

mutual
theorem decode_wf : ∀ (t : Tree) (d : Doc), decode t = some d → d.WF
  | .null, d, h => by rw [decode] at h; cases h; trivial
  | .bool b, d, h => by rw [decode] at h; cases h; trivial
  | .num q, d, h => by
    rw [decode] at h
    cases hr : rnd q <;> rw [hr] at h <;> cases h
    trivial
  | .str s, d, h => by rw [decode] at h; cases h; trivial
  | .arr l, d, h => by
    rw [decode] at h
    cases hl : decodeL l with
    | none => rw [hl] at h; cases h
    | some x => rw [hl] at h; cases h; exact decodeL_wf l x hl
  | .obj m, d, h => by
    rw [decode] at h
    cases hl : decodeM m .nil with
    | none => rw [hl] at h; cases h
    | some x => rw [hl] at h; cases h; exact decodeM_wf m .nil x trivial hl
theorem decodeL_wf : ∀ (l : Trees) (d : Items), decodeL l = some d → d.WF
  | .nil, d, h => by rw [decodeL] at h; cases h; trivial
  | .cons t r, d, h => by
    rw [decodeL] at h
    cases ht : decode t with
    | none => rw [ht] at h; cases h
    | some u =>
      cases hr : decodeL r with
      | none => rw [ht, hr] at h; cases h
      | some l => rw [ht, hr] at h; cases h; exact ⟨decode_wf t u ht, decodeL_wf r l hr⟩
theorem decodeM_wf : ∀ (m : Fields) (acc d : Members), acc.WF → decodeM m acc = some d → d.WF
  | .nil, acc, d, ha, h => by rw [decodeM] at h; cases h; exact ha
  | .cons k t r, acc, d, ha, h => by
    rw [decodeM] at h
    cases ht : decode t with
    | none => rw [ht] at h; cases h
    | some u => rw [ht] at h; exact decodeM_wf r _ d (JsonEqual.set_wf acc ha k u (decode_wf t u ht)) h
end

mutual
theorem decode_some : ∀ (t : Tree), t.All InRange → ∃ d, decode t = some d
  | .null, _ => ⟨_, by rw [decode]⟩
  | .bool b, _ => ⟨_, by rw [decode]⟩
  | .num q, ⟨f, h⟩ => ⟨.num (code f), by rw [decode, h]⟩
  | .str s, _ => ⟨_, by rw [decode]⟩
  | .arr l, h => by
    obtain ⟨d, hd⟩ := decodeL_some l h
    exact ⟨.arr d, by rw [decode, hd]; rfl⟩
  | .obj m, h => by
    obtain ⟨d, hd⟩ := decodeM_some m .nil h
    exact ⟨.obj d, by rw [decode, hd]; rfl⟩
theorem decodeL_some : ∀ (l : Trees), l.All InRange → ∃ d, decodeL l = some d
  | .nil, _ => ⟨_, by rw [decodeL]⟩
  | .cons t r, ⟨h1, h2⟩ => by
    obtain ⟨d, hd⟩ := decode_some t h1
    obtain ⟨e, he⟩ := decodeL_some r h2
    exact ⟨.cons d e, by rw [decodeL, hd, he]⟩
theorem decodeM_some : ∀ (m : Fields) (acc : Members), m.All InRange → ∃ d, decodeM m acc = some d
  | .nil, acc, _ => ⟨acc, by rw [decodeM]⟩
  | .cons k t r, acc, ⟨h1, h2⟩ => by
    obtain ⟨d, hd⟩ := decode_some t h1
    obtain ⟨e, he⟩ := decodeM_some r (acc.set k d) h2
    exact ⟨e, by rw [decodeM, hd]; exact he⟩
end

mutual
theorem decode_range : ∀ (t : Tree) (d : Doc), decode t = some d → t.All InRange
  | .null, _, _ => trivial
  | .bool _, _, _ => trivial
  | .num q, d, h => by
    rw [decode] at h
    cases hr : rnd q with
    | fin f => exact ⟨f, hr⟩
    | inf s => rw [hr] at h; cases h
    | nan => rw [hr] at h; cases h
  | .str _, _, _ => trivial
  | .arr l, d, h => by
    rw [decode] at h
    cases hl : decodeL l with
    | none => rw [hl] at h; cases h
    | some x => exact decodeL_range l x hl
  | .obj m, d, h => by
    rw [decode] at h
    cases hl : decodeM m .nil with
    | none => rw [hl] at h; cases h
    | some x => exact decodeM_range m .nil x hl
theorem decodeL_range : ∀ (l : Trees) (d : Items), decodeL l = some d → l.All InRange
  | .nil, _, _ => trivial
  | .cons t r, d, h => by
    rw [decodeL] at h
    cases ht : decode t with
    | none => rw [ht] at h; cases h
    | some u =>
      cases hr : decodeL r with
      | none => rw [ht, hr] at h; cases h
      | some l => exact ⟨decode_range t u ht, decodeL_range r l hr⟩
theorem decodeM_range : ∀ (m : Fields) (acc d : Members), decodeM m acc = some d → m.All InRange
  | .nil, _, _, _ => trivial
  | .cons k t r, acc, d, h => by
    rw [decodeM] at h
    cases ht : decode t with
    | none => rw [ht] at h; cases h
    | some u => rw [ht] at h; exact ⟨decode_range t u ht, decodeM_range r _ d h⟩
end

theorem all_last {P : ℚ → Prop} : ∀ (m : Fields), m.All P → ∀ k t, m.last k = some t → t.All P ∧ sizeOf t < sizeOf m
  | .nil, _, k, t, h => by simp [Fields.last] at h
  | .cons x u r, ⟨h1, h2⟩, k, t, h => by
    rw [Fields.last] at h
    cases hl : r.last k with
    | some v =>
      rw [hl] at h
      simp only [Option.some.injEq] at h
      subst h
      obtain ⟨g1, g2⟩ := all_last r h2 k v hl
      exact ⟨g1, by simp only [Fields.cons.sizeOf_spec]; omega⟩
    | none =>
      rw [hl] at h
      simp only at h
      by_cases hk : k = x
      · rw [if_pos hk] at h
        cases h
        exact ⟨h1, by simp only [Fields.cons.sizeOf_spec]; omega⟩
      · rw [if_neg hk] at h; cases h

theorem all_at {P : ℚ → Prop} : ∀ (l : Trees), l.All P → ∀ i t, l.at i = some t → t.All P ∧ sizeOf t < sizeOf l
  | .nil, _, i, t, h => by simp [Trees.at] at h
  | .cons u r, ⟨h1, _⟩, 0, t, h => by
    simp only [Trees.at, Option.some.injEq] at h
    subst h
    exact ⟨h1, by simp only [Trees.cons.sizeOf_spec]; omega⟩
  | .cons u r, ⟨_, h2⟩, i + 1, t, h => by
    obtain ⟨g1, g2⟩ := all_at r h2 i t h
    exact ⟨g1, by simp only [Trees.cons.sizeOf_spec]; omega⟩

theorem decode_obj {m : Fields} {d : Doc} (h : decode (.obj m) = some d) : ∃ x, decodeM m .nil = some x ∧ d = .obj x := by
  rw [decode] at h
  cases hl : decodeM m .nil with
  | none => rw [hl] at h; cases h
  | some x => rw [hl] at h; cases h; exact ⟨x, rfl, rfl⟩

theorem decode_arr {m : Trees} {d : Doc} (h : decode (.arr m) = some d) : ∃ x, decodeL m = some x ∧ d = .arr x := by
  rw [decode] at h
  cases hl : decodeL m with
  | none => rw [hl] at h; cases h
  | some x => rw [hl] at h; cases h; exact ⟨x, rfl, rfl⟩

theorem last_get {m : Fields} {x : Members} (h : decodeM m .nil = some x) (k : Bytes) : (m.last k).isSome = (x.get k).isSome := by
  obtain ⟨h1, h2⟩ := decodeM_get m .nil x h k
  cases hl : m.last k with
  | none => rw [h2 hl]; rfl
  | some t => obtain ⟨u, _, hu⟩ := h1 t hl; rw [hu]; rfl

theorem at_at {m : Trees} {x : Items} (h : decodeL m = some x) (i : Nat) : (m.at i).isSome = (x.at i).isSome := by
  obtain ⟨h1, h2⟩ := decodeL_at m x h i
  cases hl : m.at i with
  | none => rw [h2 hl]; rfl
  | some t => obtain ⟨u, _, hu⟩ := h1 t hl; rw [hu]; rfl

theorem same_decode {s t : Tree} (h : Same s t) : ∀ d e, decode s = some d → decode t = some e → JsonEqual.Same d e := by
  induction h with
  | null => intro d e hd he; rw [decode] at hd he; cases hd; cases he; exact .null
  | bool b => intro d e hd he; rw [decode] at hd he; cases hd; cases he; exact .bool b
  | num q => intro d e hd he; rw [hd] at he; cases he; exact JsonEqual.same_refl d
  | str b => intro d e hd he; rw [decode] at hd he; cases hd; cases he; exact .str b
  | arr x y h1 _ ih =>
    intro d e hd he
    obtain ⟨dx, hx, rfl⟩ := decode_arr hd
    obtain ⟨dy, hy, rfl⟩ := decode_arr he
    refine .arr dx dy (fun i => by rw [← at_at hx, ← at_at hy]; exact h1 i) (fun i u v hu hv => ?_)
    obtain ⟨s, hs⟩ := Option.isSome_iff_exists.mp (by rw [at_at hx i, hu]; rfl)
    obtain ⟨t, ht⟩ := Option.isSome_iff_exists.mp (by rw [at_at hy i, hv]; rfl)
    obtain ⟨u', g1, g2⟩ := (decodeL_at x dx hx i).1 s hs
    obtain ⟨v', g3, g4⟩ := (decodeL_at y dy hy i).1 t ht
    rw [hu] at g2; cases g2
    rw [hv] at g4; cases g4
    exact ih i s t hs ht _ _ g1 g3
  | obj x y h1 _ ih =>
    intro d e hd he
    obtain ⟨dx, hx, rfl⟩ := decode_obj hd
    obtain ⟨dy, hy, rfl⟩ := decode_obj he
    refine .obj dx dy (fun i => by rw [← last_get hx, ← last_get hy]; exact h1 i) (fun i u v hu hv => ?_)
    obtain ⟨s, hs⟩ := Option.isSome_iff_exists.mp (by rw [last_get hx i, hu]; rfl)
    obtain ⟨t, ht⟩ := Option.isSome_iff_exists.mp (by rw [last_get hy i, hv]; rfl)
    obtain ⟨u', g1, g2⟩ := (decodeM_get x .nil dx hx i).1 s hs
    obtain ⟨v', g3, g4⟩ := (decodeM_get y .nil dy hy i).1 t ht
    rw [hu] at g2; cases g2
    rw [hv] at g4; cases g4
    exact ih i s t hs ht _ _ g1 g3

theorem decode_num {q : ℚ} {d : Doc} (h : decode (.num q) = some d) (hq : IsFloat q) : d = .num (code q) := by
  rw [decode] at h
  unfold IsFloat at hq
  rw [hq] at h
  cases h; rfl

theorem decode_same : ∀ (s t : Tree) (d e : Doc), decode s = some d → decode t = some e → s.All IsFloat → t.All IsFloat →
    JsonEqual.Same d e → Same s t := by
  intro s
  induction hn : sizeOf s using Nat.strongRecOn generalizing s with
  | ind n ih =>
    subst hn
    intro t d e hd he hs ht hde
    cases s with
    | null =>
      rw [decode] at hd; cases hd
      cases hde
      cases t with
      | null => exact .null
      | num q => have := decode_num he ht; cases this
      | bool b => rw [decode] at he; cases he
      | str b => rw [decode] at he; cases he
      | arr l => obtain ⟨_, _, h⟩ := decode_arr he; cases h
      | obj l => obtain ⟨_, _, h⟩ := decode_obj he; cases h
    | bool b =>
      rw [decode] at hd; cases hd
      cases hde
      cases t with
      | null => rw [decode] at he; cases he
      | num q => have := decode_num he ht; cases this
      | bool b => rw [decode] at he; cases he; exact .bool _
      | str b => rw [decode] at he; cases he
      | arr l => obtain ⟨_, _, h⟩ := decode_arr he; cases h
      | obj l => obtain ⟨_, _, h⟩ := decode_obj he; cases h
    | num p =>
      have := decode_num hd hs
      subst this
      cases hde
      cases t with
      | null => rw [decode] at he; cases he
      | num q =>
        have := decode_num he ht
        simp only [Doc.num.injEq] at this
        rw [code_inj this]
        exact .num q
      | bool b => rw [decode] at he; cases he
      | str b => rw [decode] at he; cases he
      | arr l => obtain ⟨_, _, h⟩ := decode_arr he; cases h
      | obj l => obtain ⟨_, _, h⟩ := decode_obj he; cases h
    | str b =>
      rw [decode] at hd; cases hd
      cases hde
      cases t with
      | null => rw [decode] at he; cases he
      | num q => have := decode_num he ht; cases this
      | bool b => rw [decode] at he; cases he
      | str b => rw [decode] at he; cases he; exact .str _
      | arr l => obtain ⟨_, _, h⟩ := decode_arr he; cases h
      | obj l => obtain ⟨_, _, h⟩ := decode_obj he; cases h
    | arr x =>
      obtain ⟨dx, hx, rfl⟩ := decode_arr hd
      cases hde with
      | arr _ dy h1 h2 =>
        cases t with
        | null => rw [decode] at he; cases he
        | num q => have := decode_num he ht; cases this
        | bool b => rw [decode] at he; cases he
        | str b => rw [decode] at he; cases he
        | obj l => obtain ⟨_, _, h⟩ := decode_obj he; cases h
        | arr y =>
          obtain ⟨dy', hy, h⟩ := decode_arr he
          cases h
          refine .arr x y (fun i => by rw [at_at hx, at_at hy]; exact h1 i) (fun i u v hu hv => ?_)
          obtain ⟨u', g1, g2⟩ := (decodeL_at x dx hx i).1 u hu
          obtain ⟨v', g3, g4⟩ := (decodeL_at y dy hy i).1 v hv
          obtain ⟨a1, a2⟩ := all_at x hs i u hu
          obtain ⟨b1, _⟩ := all_at y ht i v hv
          exact ih _ (by simp only [Tree.arr.sizeOf_spec]; omega) u rfl v u' v' g1 g3 a1 b1 (h2 i u' v' g2 g4)
    | obj x =>
      obtain ⟨dx, hx, rfl⟩ := decode_obj hd
      cases hde with
      | obj _ dy h1 h2 =>
        cases t with
        | null => rw [decode] at he; cases he
        | num q => have := decode_num he ht; cases this
        | bool b => rw [decode] at he; cases he
        | str b => rw [decode] at he; cases he
        | arr l => obtain ⟨_, _, h⟩ := decode_arr he; cases h
        | obj y =>
          obtain ⟨dy', hy, h⟩ := decode_obj he
          cases h
          refine .obj x y (fun i => by rw [last_get hx, last_get hy]; exact h1 i) (fun i u v hu hv => ?_)
          obtain ⟨u', g1, g2⟩ := (decodeM_get x .nil dx hx i).1 u hu
          obtain ⟨v', g3, g4⟩ := (decodeM_get y .nil dy hy i).1 v hv
          obtain ⟨a1, a2⟩ := all_last x hs i u hu
          obtain ⟨b1, _⟩ := all_last y ht i v hv
          exact ih _ (by simp only [Tree.obj.sizeOf_spec]; omega) u rfl v u' v' g1 g3 a1 b1 (h2 i u' v' g2 g4)

/-- C128: texts with the same meaning pass, if their numbers are within the range of `float64`. -/
theorem jsonEq_same (parse : Bytes → Option Tree) (e a : Bytes) (s t : Tree) (he : parse e = some s) (ha : parse a = some t)
    (hs : s.All InRange) (ht : t.All InRange) (h : Same s t) : jsonEq true parse e a = .ret true false := by
  obtain ⟨d, hd⟩ := decode_some s hs
  obtain ⟨d', hd'⟩ := decode_some t ht
  unfold jsonEq
  simp only [he, ha, Option.bind_some, hd, hd']
  rw [if_pos ((JsonEqual.deep_iff d d' (decode_wf s d hd) (decode_wf t d' hd')).mpr (same_decode h d d' hd hd'))]

theorem isFloat_inRange (q : ℚ) (h : IsFloat q) : InRange q := ⟨q, h⟩

mutual
theorem all_mono {P Q : ℚ → Prop} (h : ∀ q, P q → Q q) : ∀ t : Tree, t.All P → t.All Q
  | .null, _ => trivial
  | .bool _, _ => trivial
  | .num q, hp => h q hp
  | .str _, _ => trivial
  | .arr l, hp => allL_mono h l hp
  | .obj m, hp => allM_mono h m hp
theorem allL_mono {P Q : ℚ → Prop} (h : ∀ q, P q → Q q) : ∀ t : Trees, t.All P → t.All Q
  | .nil, _ => trivial
  | .cons t r, ⟨h1, h2⟩ => ⟨all_mono h t h1, allL_mono h r h2⟩
theorem allM_mono {P Q : ℚ → Prop} (h : ∀ q, P q → Q q) : ∀ t : Fields, t.All P → t.All Q
  | .nil, _ => trivial
  | .cons _ t r, ⟨h1, h2⟩ => ⟨all_mono h t h1, allM_mono h r h2⟩
end

/-- C128, part: texts whose numbers a `float64` can hold pass exactly if they have the same meaning.  Missing: other numbers, see
`rounded_passes` and `too_large_fails`. -/
theorem jsonEq_partial (parse : Bytes → Option Tree) (e a : Bytes) (s t : Tree) (he : parse e = some s) (ha : parse a = some t)
    (hs : s.All IsFloat) (ht : t.All IsFloat) :
    (jsonEq true parse e a = .ret true false ↔ Same s t) ∧ (¬ Same s t → jsonEq true parse e a = .ret false true) := by
  obtain ⟨d, hd⟩ := decode_some s (all_mono isFloat_inRange s hs)
  obtain ⟨d', hd'⟩ := decode_some t (all_mono isFloat_inRange t ht)
  have hdeep := JsonEqual.deep_iff d d' (decode_wf s d hd) (decode_wf t d' hd')
  have hiff : JsonEqual.Same d d' ↔ Same s t := ⟨decode_same s t d d' hd hd' hs ht, fun h => same_decode h d d' hd hd'⟩
  unfold jsonEq
  simp only [he, ha, Option.bind_some, hd, hd']
  by_cases h : Same s t
  · rw [if_pos (hdeep.mpr (hiff.mpr h))]
    exact ⟨⟨fun _ => h, fun _ => rfl⟩, fun h' => absurd h h'⟩
  · rw [if_neg (fun g => h (hiff.mp (hdeep.mp g)))]
    exact ⟨⟨fun g => by simp [fail] at g, fun g => absurd g h⟩, fun _ => by simp [fail]⟩

/-- C128: a text that is not JSON fails, on either side. -/
theorem invalid_fails (parse : Bytes → Option Tree) (e a : Bytes) (h : parse e = none ∨ parse a = none) :
    jsonEq true parse e a = .ret false true := by
  unfold jsonEq
  rcases h with h | h
  · simp [h, fail]
  · rw [h]
    cases (parse e).bind decode with
    | none => simp [fail]
    | some x => simp [fail]

/-! ### Disagreements and a concrete case -/

/-- C128 fails: numbers that differ pass if they are rounded to one, 9007199254740993 and 9007199254740992. -/
theorem rounded_passes (parse : Bytes → Option Tree) (e a : Bytes) (he : parse e = some (.num (2 ^ 53 + 1 : ℤ))) (ha : parse a = some (.num (2 ^ 53 : ℤ))) :
    jsonEq true parse e a = .ret true false ∧ ¬ Same (.num (2 ^ 53 + 1 : ℤ)) (.num (2 ^ 53 : ℤ)) := by
  have h2 : rnd ((2 ^ 53 : ℤ) : ℚ) = .fin (2 ^ 53) := by
    have := isFloat_int (2 ^ 53) (by norm_num)
    unfold IsFloat at this
    rw [this]
    norm_num
  refine ⟨?_, ?_⟩
  · unfold jsonEq
    simp only [he, ha, Option.bind_some, decode, rnd_odd, h2]
    rw [if_pos]
    simp [JsonEqual.deepEqual]
  · intro h
    generalize hx : ((2 ^ 53 + 1 : ℤ) : ℚ) = x at h
    generalize hy : ((2 ^ 53 : ℤ) : ℚ) = y at h
    have : x = y := by cases h; rfl
    rw [← hx, ← hy] at this
    norm_num at this

theorem rnd_large (q : ℚ) (h : 2 ^ (1024 : ℕ) ≤ q) : rnd q = .inf (q < 0) := by
  have hl : Int.log 2 |(2 ^ (1024 : ℕ) : ℚ)| = 1024 := by
    rw [abs_of_pos (by positivity)]
    have h1 := Int.log_zpow (R := ℚ) (b := 2) (by norm_num) 1024
    rw [show ((2 : ℕ) : ℚ) = 2 by norm_num] at h1
    rw [← zpow_natCast]
    exact h1
  have hu : ulpExp (2 ^ (1024 : ℕ)) = 972 := by unfold ulpExp; rw [hl]; decide
  have hm : magn (2 ^ (1024 : ℕ)) = 2 ^ (1024 : ℕ) := by
    rw [magn_mul (2 ^ (1024 : ℕ)) (2 ^ 52)]
    · exact abs_of_pos (by positivity)
    · rw [hu, abs_of_pos (by positivity)]
      rw [show ((2 ^ 52 : ℤ) : ℚ) = 2 ^ (52 : ℤ) by norm_num, ← zpow_add₀ (by norm_num), ← zpow_natCast]
      rfl
  have hge := magn_mono (by positivity) h
  rw [hm] at hge
  unfold rnd
  rw [if_neg (not_lt.mpr hge)]

/-- C128 fails: a text with a number beyond the range of `float64` does not pass against itself, 1e400. -/
theorem too_large_fails (parse : Bytes → Option Tree) (e : Bytes) (he : parse e = some (.num (10 ^ 400))) :
    jsonEq true parse e e = .ret false true ∧ Same (.num (10 ^ 400)) (.num (10 ^ 400)) := by
  refine ⟨?_, .num _⟩
  have h : rnd (10 ^ 400) = .inf (((10 : ℚ) ^ 400) < 0) := rnd_large _ (by exact_mod_cast (by decide +kernel : (2 : ℕ) ^ 1024 ≤ 10 ^ 400))
  unfold jsonEq
  simp only [he, Option.bind_some, decode, h]
  simp [fail]

/-- A parser of two texts. -/
def sampleParse (s : Bytes) : Option Tree :=
  if s = asc "{\"a\":1,\"b\":[2],\"a\":3}" then
    some (.obj (.cons (asc "a") (.num (1 : ℤ)) (.cons (asc "b") (.arr (.cons (.num (2 : ℤ)) .nil)) (.cons (asc "a") (.num (3 : ℤ)) .nil))))
  else if s = asc "{\"b\":[2],\"a\":3}" then some (.obj (.cons (asc "b") (.arr (.cons (.num (2 : ℤ)) .nil)) (.cons (asc "a") (.num (3 : ℤ)) .nil)))
  else none

example : jsonEq true sampleParse (asc "{\"a\":1,\"b\":[2],\"a\":3}") (asc "{\"b\":[2],\"a\":3}") = .ret true false := by
  have f : ∀ n : ℤ, |n| ≤ 2 ^ 53 → IsFloat n := isFloat_int
  refine ((jsonEq_partial sampleParse _ _ _ _ (if_pos rfl) (by rw [sampleParse, if_neg (by decide), if_pos rfl]) ?_ ?_).1).mpr ?_
  · exact ⟨f 1 (by norm_num), ⟨f 2 (by norm_num), trivial⟩, f 3 (by norm_num), trivial⟩
  · exact ⟨⟨f 2 (by norm_num), trivial⟩, f 3 (by norm_num), trivial⟩
  · refine .obj _ _ (fun k => ?_) (fun k u v hu hv => ?_)
    · simp only [Fields.last]
      by_cases h1 : k = asc "a"
      · subst h1; simp [asc]
      · by_cases h2 : k = asc "b"
        · subst h2; simp [asc]
        · simp [h1, h2]
    · simp only [Fields.last] at hu hv
      by_cases h1 : k = asc "a"
      · subst h1
        rw [if_pos rfl] at hu hv
        cases hu; cases hv
        exact .num _
      · rw [if_neg h1] at hu hv
        by_cases h2 : k = asc "b"
        · subst h2
          rw [if_pos rfl] at hu hv
          cases hu; cases hv
          refine .arr _ _ (fun _ => rfl) (fun i u v hu hv => ?_)
          rw [hu] at hv; cases hv
          cases i with
          | zero => cases hu; exact .num _
          | succ i => simp [Trees.at] at hu
        · rw [if_neg h2] at hu
          simp [h1] at hu

end Verif.JsonEq
