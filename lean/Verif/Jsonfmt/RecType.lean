import Verif.Basic

/-!
# C65: building an encoder for a recursive type

Types as nodes of a graph (a named Go type can refer to itself), and the recursion of
`encoderOf` over it.  The encoder cache is only consulted and filled by `EncoderOf`
(encoder.go:65-77), never inside `encoderOf`, so it plays no role for the recursion.
-/

namespace Verif.Jsonfmt.RecType

/-- A field of a struct type: `hidden` is `getFieldName(cfg, field) == ""`
(encoder.go:242-264), `ty` its type. -/
structure Field where
  hidden : Bool
  ty : Nat

/-- The shape of a Go type as far as `encoderOf` looks at it; types are numbered (encoder.go:103-176). -/
inductive Node where
  /-- everything handled without recursion: encoder.go:104-147, 172-175 -/
  | leaf
  /-- encoder.go:148-151 -/
  | ptr (elem : Nat)
  /-- encoder.go:152-158 -/
  | slice (elem : Nat)
  /-- encoder.go:159-165 -/
  | array (elem : Nat)
  /-- encoder.go:166-168 -/
  | struct (fields : List Field)
  /-- encoder.go:169-171 -/
  | map (key elem : Nat)

/-- `encoderOf`, msgfmt/jsonfmt/encoder.go:103-176 with `encoderOfMap` 186-206 and
`encoderOfStruct` 216-240, reduced to its recursion: `true` when the call returns
within call depth `fuel`.  Simplification: the encoder built is dropped (it is modelled in
`ValModel`), and so is the cache of map key encoders (encoder.go:79-88), which only
holds keys whose construction has finished; map keys are therefore taken as first
seen. -/
def returns (types : Nat → Node) : Nat → Nat → Bool
  | 0, _ => false
  | fuel + 1, t =>
    match types t with
    | .leaf => true
    | .ptr e => returns types fuel e
    | .slice e => returns types fuel e
    | .array e => returns types fuel e
    | .struct fs => fs.all fun f => f.hidden || returns types fuel f.ty
    | .map k e => returns types fuel k && returns types fuel e

/-- Specification: type `b` contains type `a` directly, through something that is
shown in the output. -/
inductive Contains (types : Nat → Node) : Nat → Nat → Prop where
  | ptr {a b} : types b = .ptr a → Contains types a b
  | slice {a b} : types b = .slice a → Contains types a b
  | array {a b} : types b = .array a → Contains types a b
  | field {a b fs f} : types b = .struct fs → f ∈ fs → f.hidden = false → f.ty = a →
      Contains types a b
  | key {a b e} : types b = .map a e → Contains types a b
  | elem {a b k} : types b = .map k a → Contains types a b

theorem returns_mono (types : Nat → Node) (n : Nat) : ∀ m t, n ≤ m →
    returns types n t = true → returns types m t = true := by
  induction n with
  | zero => intro m t _ h; simp [returns] at h
  | succ n ih =>
    intro m t hm h
    obtain ⟨m', rfl⟩ : ∃ m', m = m' + 1 := ⟨m - 1, by omega⟩
    have hm' : n ≤ m' := by omega
    simp only [returns] at h ⊢
    split at h
    · rfl
    · exact ih _ _ hm' h
    · exact ih _ _ hm' h
    · exact ih _ _ hm' h
    · rw [List.all_eq_true] at h ⊢
      intro f hf
      have := h f hf
      cases hh : f.hidden
      · simp only [hh, Bool.false_or] at this ⊢; exact ih _ _ hm' this
      · simp
    · rw [Bool.and_eq_true] at h ⊢
      exact ⟨ih _ _ hm' h.1, ih _ _ hm' h.2⟩

/-- A struct's fields are finitely many, so one depth serves all of them. -/
theorem fields_bound (types : Nat → Node) : ∀ fs : List Field,
    (∀ f ∈ fs, f.hidden = false → ∃ n, returns types n f.ty = true) →
    ∃ n, (fs.all fun f => f.hidden || returns types n f.ty) = true := by
  intro fs
  induction fs with
  | nil => intro _; exact ⟨0, rfl⟩
  | cons f fs ih =>
    intro h
    obtain ⟨n, hn⟩ := ih (fun g hg => h g (List.mem_cons_of_mem _ hg))
    have hone : ∃ k, (f.hidden || returns types k f.ty) = true := by
      cases hh : f.hidden with
      | true => exact ⟨0, rfl⟩
      | false =>
        obtain ⟨k, hk⟩ := h f (List.mem_cons_self ..) hh
        exact ⟨k, by simpa using hk⟩
    obtain ⟨k, hk⟩ := hone
    refine ⟨max n k, ?_⟩
    rw [List.all_cons, Bool.and_eq_true]
    constructor
    · cases hh : f.hidden with
      | true => rfl
      | false =>
        rw [hh, Bool.false_or] at hk
        rw [Bool.false_or]
        exact returns_mono types k _ _ (by omega) hk
    · rw [List.all_eq_true] at hn ⊢
      intro g hg
      have := hn g hg
      cases hh : g.hidden with
      | true => rfl
      | false =>
        rw [hh, Bool.false_or] at this
        rw [Bool.false_or]
        exact returns_mono types n _ _ (by omega) this

/-- C65 (partial): the encoder of a type can be built exactly when its shown parts are
nested to a finite depth, i.e. the type is not recursive.  Missing: recursive types,
where it is false (`recursive_type_never_returns`). -/
theorem encoderOf_returns_iff_partial (types : Nat → Node) (t : Nat) :
    (∃ n, returns types n t = true) ↔ Acc (Contains types) t := by
  constructor
  · rintro ⟨n, hn⟩
    induction n generalizing t with
    | zero => simp [returns] at hn
    | succ n ih =>
      constructor
      intro a ha
      apply ih
      simp only [returns] at hn
      cases ha with
      | ptr h => rw [h] at hn; exact hn
      | slice h => rw [h] at hn; exact hn
      | array h => rw [h] at hn; exact hn
      | field h hf hh he =>
        rw [h] at hn
        have := List.all_eq_true.mp hn _ hf
        rw [hh, Bool.false_or, he] at this
        exact this
      | key h => rw [h] at hn; exact (Bool.and_eq_true_iff.mp hn).1
      | elem h => rw [h] at hn; exact (Bool.and_eq_true_iff.mp hn).2
  · intro hacc
    induction hacc with
    | intro t _ ih =>
      cases h : types t with
      | leaf => exact ⟨1, by simp [returns, h]⟩
      | ptr e => obtain ⟨n, hn⟩ := ih e (.ptr h); exact ⟨n + 1, by simp [returns, h, hn]⟩
      | slice e => obtain ⟨n, hn⟩ := ih e (.slice h); exact ⟨n + 1, by simp [returns, h, hn]⟩
      | array e => obtain ⟨n, hn⟩ := ih e (.array h); exact ⟨n + 1, by simp [returns, h, hn]⟩
      | struct fs =>
        obtain ⟨n, hn⟩ := fields_bound types fs (fun f hf hh => ih f.ty (.field h hf hh rfl))
        exact ⟨n + 1, by simp only [returns, h]; exact hn⟩
      | map k e =>
        obtain ⟨n, hn⟩ := ih k (.key h)
        obtain ⟨m, hm⟩ := ih e (.elem h)
        refine ⟨max n m + 1, ?_⟩
        simp only [returns, h, Bool.and_eq_true]
        exact ⟨returns_mono types n _ _ (by omega) hn, returns_mono types m _ _ (by omega) hm⟩

/-- C65, negation: no type that contains itself through shown parts ever gets an
encoder, whatever the call depth. -/
theorem recursive_type_never_returns (types : Nat → Node) (t : Nat)
    (h : Relation.TransGen (Contains types) t t) (n : Nat) : returns types n t = false := by
  cases hr : returns types n t with
  | false => rfl
  | true =>
    exfalso
    have hacc : Acc (Relation.TransGen (Contains types)) t :=
      Acc.transGen ((encoderOf_returns_iff_partial types t).mp ⟨n, hr⟩)
    have irr : ∀ x, Acc (Relation.TransGen (Contains types)) x →
        ¬ Relation.TransGen (Contains types) x x := by
      intro x hx
      induction hx with
      | intro x _ ih => exact fun hxx => ih x hxx hxx
    exact irr t hacc h

/-- `type Node struct { Value int; Next *Node }`: 0 is `Node`, 1 is `*Node`, 2 is `int`. -/
def linkedList : Nat → Node
  | 0 => .struct [⟨false, 2⟩, ⟨false, 1⟩]
  | 1 => .ptr 0
  | _ => .leaf

/-- The linked list type meets the hypothesis of `recursive_type_never_returns`. -/
example : Relation.TransGen (Contains linkedList) 0 0 :=
  .trans (.single (.ptr rfl)) (.single (.field (f := ⟨false, 1⟩) rfl (by simp) rfl rfl))

/-- The same type with the pointer in a hidden field does get an encoder. -/
example : returns (fun | 0 => .struct [⟨false, 2⟩, ⟨true, 1⟩] | 1 => .ptr 0 | _ => .leaf) 2 0 = true := by
  decide +kernel

end Verif.Jsonfmt.RecType
