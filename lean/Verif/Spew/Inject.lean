import Verif.Spew.Text
import Verif.Spew.Blob

/-!
# go-spew: a dump determines what it shows

`assert.Equal` explains a failure by the difference of two dumps
(/repo/test/testify/assert/assertions.go 1210-1221).  That helps only if different values have different
dumps.
-/

namespace Verif.Spew

/-! ## Specification: values with types -/

/-- The kinds a type can have, as far as pictures tell. -/
inductive Kind where
  | bool | num | str | word | iface | seq | array | bytes | map | struct
deriving DecidableEq

/-- What the text of a type determines: its kind, and the names of the fields of a struct. -/
structure Types where
  kind : Bytes → Kind
  fields : Bytes → List Bytes

/-- Splits at the first closing parenthesis that was not opened, `n` being open. -/
def closing : Nat → Bytes → Option (Bytes × Bytes)
  | _, [] => none
  | n, c :: s =>
    if c = 41 then
      match n with
      | 0 => some ([], s)
      | n + 1 => (closing n s).map fun p => (c :: p.1, p.2)
    else if c = 40 then (closing (n + 1) s).map fun p => (c :: p.1, p.2)
    else (closing n s).map fun p => (c :: p.1, p.2)

/-- The parentheses of a type are balanced: `n` open ones are closed by it, and every one opened in it. -/
def Balanced : Nat → Bytes → Prop
  | n, [] => n = 0
  | n, c :: s => if c = 41 then n ≠ 0 ∧ Balanced (n - 1) s else if c = 40 then Balanced (n + 1) s else Balanced n s

/-- The text of a number has none of the characters that mean something to the layout. -/
def Plain (t : Bytes) : Prop := ∀ c ∈ t, c ≠ 10 ∧ c ≠ 44 ∧ c ≠ 58 ∧ c ≠ 41 ∧ c ≠ 40 ∧ c ≠ 60

/-- The type is not that of a pointer. -/
def NoStar (ty : Bytes) : Prop := ty.head? ≠ some 42

/-- What `strconv.Quote` is: a text in quotes whose end can be told. -/
def Quotes (q : Bytes → Bytes) : Prop :=
  (∀ s, (q s).head? = some 34) ∧ ∀ s t x y, q s ++ x = q t ++ y → s = t ∧ x = y

/-- The configuration `spewConfig` of assertions.go 1242-1247, with an indent of blanks; and no methods. -/
structure Plainly (E : Env) : Prop where
  indent : Blank E.indent
  maxDepth : E.maxDepth = 0
  addresses : E.disableAddresses = true
  capacities : E.disableCapacities = true
  methods : ∀ v, methText E v = ([], false)
  quote : Quotes E.quote

/-- A value is shown as `<nil>` without being a pointer or an interface. -/
def ShownNil : Val → Prop
  | .slice _ a _ => a = 0
  | .map _ a => a = 0
  | .blob _ isNil _ _ => isNil = true
  | .word _ n _ _ => n = 0
  | _ => False

/-- A value agrees with its type; and, the restriction, no pointer leads to a nil slice, map, channel,
function or zero `uintptr`. -/
def Typed (Γ : Types) (E : Env) (v : Val) : Prop :=
  Balanced 0 (typeName v) ∧ (¬IsPtr v → NoStar (typeName v)) ∧
  match v with
  | .invalid => False
  | .bool ty _ => Γ.kind ty = .bool
  | .num ty t => Γ.kind ty = .num ∧ Plain t
  | .str ty _ => Γ.kind ty = .str
  | .word ty n _ _ => Γ.kind ty = .word ∧ n < 2 ^ 64
  | .nilIface ty => Γ.kind ty = .iface
  | .iface _ _ => False
  | .ptr _ a => a ≠ 0 → ¬ShownNil (unpack (E.at_ a))
  | .slice ty _ _ => Γ.kind ty = .seq
  | .blob ty _ _ _ => Γ.kind ty = .bytes
  | .array ty _ => Γ.kind ty = .array
  | .map ty _ => Γ.kind ty = .map
  | .struct ty fs => Γ.kind ty = .struct ∧ fs.map Prod.fst = Γ.fields ty

mutual
  /-- A picture without addresses and capacities, which the configuration leaves out. -/
  def erase : Tree → Tree
    | .leaf h l => .leaf { h with cap := 0 } l
    | .group h ks => .group { h with cap := 0 } (eraseKids ks)
    | .ptr name _ t => .ptr name [] (erase t)
    | .ptrNil name _ => .ptrNil name []
    | .ptrShown name _ => .ptrShown name []
  /-- The same for parts. -/
  def eraseKids : Kids → Kids
    | .nil => .nil
    | .elem t ks => .elem (erase t) (eraseKids ks)
    | .entry k v ks => .entry (erase k) (erase v) (eraseKids ks)
    | .field name t ks => .field name (erase t) (eraseKids ks)
end

/-! ## Pictures that agree with the types -/

/-- The parts a picture must have. -/
inductive Shape where
  | elems (n : Nat)
  | entries (n : Nat)
  | fields (names : List Bytes)

/-- The type and kind of contents. -/
def LeafFits (Γ : Types) (h : Head) : Leaf → Prop
  | .bool _ => Γ.kind h.ty = .bool ∧ h.len = 0
  | .num t => Γ.kind h.ty = .num ∧ h.len = 0 ∧ Plain t
  | .str _ => Γ.kind h.ty = .str
  | .word n => Γ.kind h.ty = .word ∧ n < 2 ^ 64
  | .nil => Γ.kind h.ty = .iface ∨ Γ.kind h.ty = .seq ∨ Γ.kind h.ty = .map ∨ Γ.kind h.ty = .bytes
  | .bytes s => Γ.kind h.ty = .bytes ∧ h.len = s.length
  | .handled => False
  | .tooDeep => False
  | .nothing => False

/-- The parts that a type and a length call for. -/
def shapeOf (Γ : Types) (h : Head) : Option Shape :=
  match Γ.kind h.ty with
  | .seq => some (.elems h.len)
  | .array => some (.elems h.len)
  | .map => some (.entries h.len)
  | .struct => some (.fields (Γ.fields h.ty))
  | _ => none

/-- The type of a picture that is no pointer. -/
def tyOf : Tree → Option Bytes
  | .leaf h _ => some h.ty
  | .group h _ => some h.ty
  | _ => none

/-- The picture is not `<nil>`. -/
def NotNil : Tree → Prop
  | .leaf _ .nil => False
  | .leaf _ (.word n) => n ≠ 0
  | _ => True

mutual
  /-- A picture that agrees with the types. -/
  def Fits (Γ : Types) : Tree → Prop
    | .leaf h l => (Balanced 0 h.ty ∧ h.note = []) ∧ LeafFits Γ h l
    | .group h ks => (Balanced 0 h.ty ∧ h.note = []) ∧ ∃ sh, shapeOf Γ h = some sh ∧ KidsFit Γ sh ks
    | .ptr name _ t => Balanced 0 name ∧ (∃ k ty, name = rep (asc "*") k ++ ty ∧ tyOf t = some ty ∧ NoStar ty) ∧ NotNil t ∧ Fits Γ t
    | .ptrNil name _ => Balanced 0 name
    | .ptrShown name _ => Balanced 0 name
  /-- Parts that agree with the types. -/
  def KidsFit (Γ : Types) : Shape → Kids → Prop
    | .elems n, .nil => n = 0
    | .elems n, .elem t ks => n ≠ 0 ∧ Fits Γ t ∧ KidsFit Γ (.elems (n - 1)) ks
    | .entries n, .nil => n = 0
    | .entries n, .entry k v ks => n ≠ 0 ∧ Fits Γ k ∧ Fits Γ v ∧ KidsFit Γ (.entries (n - 1)) ks
    | .fields names, .nil => names = []
    | .fields names, .field name t ks => names.head? = some name ∧ Fits Γ t ∧ KidsFit Γ (.fields names.tail) ks
    | _, _ => False
end

/-- What can follow a value in a dump. -/
def Term (x : Bytes) : Prop := ∀ c, x.head? = some c → c = 10 ∨ c = 44 ∨ c = 58 ∨ c = 41

/-! ### Reading the pieces -/

theorem closing_balanced : ∀ (ty : Bytes) (n : Nat) (x : Bytes), Balanced n ty → closing n (ty ++ 41 :: x) = some (ty, x) := by
  intro ty
  induction ty with
  | nil =>
    intro n x h
    simp only [Balanced] at h
    subst h
    simp [closing]
  | cons c ty ih =>
    intro n x h
    simp only [Balanced] at h
    simp only [List.cons_append]
    unfold closing
    split
    · rename_i hc
      rw [if_pos hc] at h
      obtain ⟨n, rfl⟩ : ∃ m, n = m + 1 := ⟨n - 1, by omega⟩
      simp only
      rw [ih n x (by simpa using h.2)]; rfl
    · rename_i hc
      rw [if_neg hc] at h
      split
      · rename_i hc2
        rw [if_pos hc2] at h
        rw [ih _ x h]; rfl
      · rename_i hc2
        rw [if_neg hc2] at h
        rw [ih _ x h]; rfl

theorem balanced_inj {s t x y : Bytes} (hs : Balanced 0 s) (ht : Balanced 0 t) (h : s ++ 41 :: x = t ++ 41 :: y) :
    s = t ∧ x = y := by
  have h1 := closing_balanced s 0 x hs
  have h2 := closing_balanced t 0 y ht
  rw [h, h2] at h1
  simp only [Option.some.injEq, Prod.mk.injEq] at h1
  exact ⟨h1.1.symm, h1.2.symm⟩

theorem span_inj {p : UInt8 → Bool} {s t x y : Bytes} (hs : ∀ c ∈ s, p c = true) (ht : ∀ c ∈ t, p c = true)
    (hx : ∀ c, x.head? = some c → p c = false) (hy : ∀ c, y.head? = some c → p c = false) (h : s ++ x = t ++ y) : s = t ∧ x = y := by
  have h1 := Difflib.span_append p s x hs hx
  have h2 := Difflib.span_append p t y ht hy
  rw [h] at h1
  exact ⟨h1.1.symm.trans h2.1, h1.2.symm.trans h2.2⟩

/-- Not one of the characters that end a value. -/
def inner (c : UInt8) : Bool := !(c == 10 || c == 44 || c == 58 || c == 41)

theorem Term.inner {x : Bytes} (h : Term x) : ∀ c, x.head? = some c → inner c = false := by
  intro c hc
  rcases h c hc with rfl | rfl | rfl | rfl <;> rfl

theorem Plain.inner {t : Bytes} (h : Plain t) : ∀ c ∈ t, inner c = true := by
  intro c hc
  obtain ⟨h1, h2, h3, h4, -, -⟩ := h c hc
  simp [Spew.inner, h1, h2, h3, h4]

theorem hexDigitValue_some {c : UInt8} {d : Nat} (h : hexDigitValue c = some d) : inner c = true := by
  unfold hexDigitValue at h
  by_cases h1 : 48 ≤ c ∧ c ≤ 57
  · have : c ≠ 10 ∧ c ≠ 44 ∧ c ≠ 58 ∧ c ≠ 41 := by
      refine ⟨?_, ?_, ?_, ?_⟩ <;> (rintro rfl; exact absurd h1 (by decide))
    simp [Spew.inner, this.1, this.2.1, this.2.2.1, this.2.2.2]
  · rw [if_neg h1] at h
    by_cases h2 : 97 ≤ c ∧ c ≤ 102
    · have : c ≠ 10 ∧ c ≠ 44 ∧ c ≠ 58 ∧ c ≠ 41 := by
        refine ⟨?_, ?_, ?_, ?_⟩ <;> (rintro rfl; exact absurd h2 (by decide))
      simp [Spew.inner, this.1, this.2.1, this.2.2.1, this.2.2.2]
    · rw [if_neg h2] at h; cases h

theorem hexValue_inner : ∀ (t : Bytes) (a n : Nat), hexValue a t = some n → ∀ c ∈ t, inner c = true := by
  intro t
  induction t with
  | nil => intro a n _ c hc; cases hc
  | cons d t ih =>
    intro a n h c hc
    simp only [hexValue] at h
    split at h
    · cases h
    · rename_i e he
      rcases List.mem_cons.1 hc with rfl | hc
      · exact hexDigitValue_some he
      · exact ih _ _ h c hc

theorem hexText_spec {n : Nat} (h : n < 2 ^ 64) : printHexPtr n = some (hexText n) ∧ (∀ c ∈ hexText n, inner c = true) ∧
    ∃ c, (hexText n).head? = some c ∧ c = if n = 0 then 60 else 48 := by
  by_cases h0 : n = 0
  · subst h0
    exact ⟨rfl, by decide, 60, rfl, rfl⟩
  · obtain ⟨t, ht, it, -⟩ := printHexPtr_exact h0 h
    have e : hexText n = asc "0x" ++ t := by simp [hexText, ht]
    refine ⟨by rw [e]; exact ht, ?_, 48, by rw [e]; rfl, by rw [if_neg h0]⟩
    rw [e]
    intro c hc
    rcases List.mem_append.1 hc with hc | hc
    · have h2 : ∀ c ∈ asc "0x", inner c = true := by decide
      exact h2 c hc
    · exact hexValue_inner t 0 n it.1 c hc

/-- Something that does not begin with a parenthesis. -/
def NoParen (x : Bytes) : Prop := x.head? ≠ some 40

theorem headText_eq_len {E : Env} (hE : Plainly E) {h : Head} (hn : h.note = []) :
    headText E h = if h.len = 0 then [] else 40 :: (asc "len=" ++ (Difflib.decimal h.len ++ asc ") ")) := by
  unfold headText
  by_cases h0 : h.len = 0
  · simp [h0, hE.capacities, hn]
  · simp [h0, hE.capacities, hn, asc]

theorem headText_inj {E : Env} (hE : Plainly E) {h k : Head} {x y : Bytes} (hn : h.note = []) (kn : k.note = [])
    (hx : NoParen x) (hy : NoParen y) (e : headText E h ++ x = headText E k ++ y) : h.len = k.len ∧ x = y := by
  rw [headText_eq_len hE hn, headText_eq_len hE kn] at e
  by_cases h0 : h.len = 0
  · by_cases k0 : k.len = 0
    · simp only [h0, k0, if_true, List.nil_append] at e
      exact ⟨by rw [h0, k0], e⟩
    · rw [if_pos h0, if_neg k0] at e
      exact absurd (by rw [show x = [] ++ x from rfl, e]; rfl) hx
  · by_cases k0 : k.len = 0
    · rw [if_neg h0, if_pos k0] at e
      exact absurd (by rw [show y = [] ++ y from rfl, ← e]; rfl) hy
    · rw [if_neg h0, if_neg k0] at e
      simp only [List.cons_append, List.cons.injEq, true_and, List.append_assoc] at e
      have e := List.append_cancel_left e
      have nd : ∀ z : Bytes, Difflib.NoDigit (asc ") " ++ z) := by
        intro z c hc
        have : c = 41 := by
          have e : (asc ") " ++ z).head? = some 41 := rfl
          rw [e] at hc
          exact (Option.some.inj hc).symm
        subst this; decide
      have h1 := Difflib.readNum_decimal h.len _ (nd x)
      have h2 := Difflib.readNum_decimal k.len _ (nd y)
      rw [e, h2] at h1
      simp only [Option.some.injEq, Prod.mk.injEq] at h1
      exact ⟨h1.1.symm, (List.append_cancel_left h1.2).symm⟩

theorem star_inj : ∀ (m n : Nat) (s t : Bytes), NoStar s → NoStar t → rep (asc "*") m ++ s = rep (asc "*") n ++ t → s = t := by
  intro m
  induction m with
  | zero =>
    intro n s t hs ht h
    cases n with
    | zero => simpa [rep] using h
    | succ n =>
      exfalso
      apply hs
      have : s = rep (asc "*") (n + 1) ++ t := by simpa [rep] using h
      rw [this]; rfl
  | succ m ih =>
    intro n s t hs ht h
    cases n with
    | zero =>
      exfalso
      apply ht
      have : t = rep (asc "*") (m + 1) ++ s := by simpa [rep] using h.symm
      rw [this]; rfl
    | succ n =>
      refine ih n s t hs ht ?_
      simpa [rep, List.replicate_succ, asc] using h

/-! ### Reading a picture -/

/-- The first character of contents. -/
theorem contents_head {Γ : Types} {E : Env} (hE : Plainly E) {D : Nat} {t : Tree} {ty : Bytes} (ht : tyOf t = some ty) (hf : Fits Γ t)
    {x : Bytes} (hx : Term x) : NoParen (contents E D t ++ x) ∧ (NotNil t → (contents E D t ++ x).head? ≠ some 60) := by
  have hx40 : x.head? ≠ some 40 := fun h => by rcases hx _ h with h | h | h | h <;> exact absurd h (by decide)
  have hx60 : x.head? ≠ some 60 := fun h => by rcases hx _ h with h | h | h | h <;> exact absurd h (by decide)
  cases t with
  | leaf h l =>
    cases l with
    | bool b => cases b <;> exact ⟨by simp [NoParen, contents, leafText, asc], fun _ => by simp [contents, leafText, asc]⟩
    | num t =>
      have hp : Plain t := by
        simp only [Fits, LeafFits] at hf; exact hf.2.2.2
      cases t with
      | nil => exact ⟨hx40, fun _ => hx60⟩
      | cons c t =>
        obtain ⟨-, -, -, -, h5, h6⟩ := hp c (by simp)
        exact ⟨by simpa [NoParen, contents, leafText] using h5, fun _ => by simpa [contents, leafText] using h6⟩
    | str s =>
      have := hE.quote.1 s
      cases hq : E.quote s with
      | nil => rw [hq] at this; cases this
      | cons c q =>
        rw [hq] at this
        simp only [List.head?_cons, Option.some.injEq] at this
        subst this
        exact ⟨by simp [NoParen, contents, leafText, hq], fun _ => by simp [contents, leafText, hq]⟩
    | word n =>
      have hn : n < 2 ^ 64 := by simp only [Fits, LeafFits] at hf; exact hf.2.2
      obtain ⟨-, -, c, hc, hcn⟩ := hexText_spec hn
      have : (contents E D (.leaf h (.word n)) ++ x).head? = some c := by
        simp only [contents, leafText, List.head?_append, hc, Option.some_or]
      unfold NoParen
      rw [this]
      refine ⟨?_, fun hnn => ?_⟩
      · rw [hcn]; split <;> simp
      · simp only [NotNil] at hnn
        rw [hcn, if_neg hnn]; simp
    | nil => exact ⟨by simp [NoParen, contents, leafText, asc], fun h => absurd h (by simp [NotNil])⟩
    | bytes s => exact ⟨by simp [NoParen, contents, leafText, asc], fun _ => by simp [contents, leafText, asc]⟩
    | handled => exact absurd hf.2 (by simp [LeafFits])
    | tooDeep => exact absurd hf.2 (by simp [LeafFits])
    | nothing => exact absurd hf.2 (by simp [LeafFits])
  | group h ks => exact ⟨by simp [NoParen, contents, asc], fun _ => by simp [contents, asc]⟩
  | _ => cases ht

theorem Term.lf (x : Bytes) : Term (asc "\n" ++ x) := by
  intro c hc
  have : c = 10 := by
    have e : (asc "\n" ++ x).head? = some 10 := rfl
    rw [e] at hc; exact (Option.some.inj hc).symm
  exact .inl this

theorem Term.comma (x : Bytes) : Term (asc ",\n" ++ x) := by
  intro c hc
  have : c = 44 := by
    have e : (asc ",\n" ++ x).head? = some 44 := rfl
    rw [e] at hc; exact (Option.some.inj hc).symm
  exact .inr (.inl this)

theorem Term.colon (x : Bytes) : Term (asc ": " ++ x) := by
  intro c hc
  have : c = 58 := by
    have e : (asc ": " ++ x).head? = some 58 := rfl
    rw [e] at hc; exact (Option.some.inj hc).symm
  exact .inr (.inr (.inl this))

theorem Term.paren (x : Bytes) : Term (asc ")" ++ x) := by
  intro c hc
  have : c = 41 := by
    have e : (asc ")" ++ x).head? = some 41 := rfl
    rw [e] at hc; exact (Option.some.inj hc).symm
  exact .inr (.inr (.inr this))

theorem Term.sep (ks : Kids) (x : Bytes) : Term (sep ks ++ x) := by
  cases ks
  · exact .lf x
  all_goals exact .comma x

theorem head_of_fits {Γ : Types} {t : Tree} {ty : Bytes} (ht : tyOf t = some ty) (hf : Fits Γ t) :
    ∃ h, HasHead h t ∧ h.ty = ty ∧ h.note = [] ∧ Balanced 0 ty := by
  cases t with
  | leaf h l =>
    simp only [tyOf, Option.some.injEq] at ht
    subst ht
    exact ⟨h, rfl, rfl, hf.1.2, hf.1.1⟩
  | group h ks =>
    simp only [tyOf, Option.some.injEq] at ht
    subst ht
    exact ⟨h, rfl, rfl, hf.1.2, hf.1.1⟩
  | _ => cases ht

theorem addrText_nil {E : Env} (hE : Plainly E) (chain : List Nat) : addrText E chain = [] := by
  simp [addrText, hE.addresses]

/-- A picture begins with a type in parentheses, and then a blank or another parenthesis. -/
theorem full_open {Γ : Types} {E : Env} (hE : Plainly E) {D : Nat} {t : Tree} (hf : Fits Γ t) (x : Bytes) :
    (∃ ty h, tyOf t = some ty ∧ HasHead h t ∧ h.ty = ty ∧ h.note = [] ∧ Balanced 0 ty ∧
      typeText t ++ body E D t ++ x = 40 :: (ty ++ 41 :: 32 :: (headText E h ++ (contents E D t ++ x)))) ∨
    (∃ name, Balanced 0 name ∧ ((∃ ch u, t = .ptr name ch u ∧
        typeText t ++ body E D t ++ x = 40 :: (name ++ 41 :: 40 :: (body E D u ++ (asc ")" ++ x)))) ∨
      (∃ ch, t = .ptrNil name ch ∧ typeText t ++ body E D t ++ x = 40 :: (name ++ 41 :: 40 :: (asc "<nil>)" ++ x))) ∨
      (∃ ch, t = .ptrShown name ch ∧ typeText t ++ body E D t ++ x = 40 :: (name ++ 41 :: 40 :: (asc "<already shown>)" ++ x))))) := by
  cases t with
  | leaf h l =>
    left
    refine ⟨h.ty, h, rfl, rfl, rfl, hf.1.2, hf.1.1, ?_⟩
    obtain ⟨e1, e2⟩ := body_head (E := E) (D := D) (h := h) (t := .leaf h l) rfl
    rw [e1, e2]; simp [asc]
  | group h ks =>
    left
    refine ⟨h.ty, h, rfl, rfl, rfl, hf.1.2, hf.1.1, ?_⟩
    obtain ⟨e1, e2⟩ := body_head (E := E) (D := D) (h := h) (t := .group h ks) rfl
    rw [e1, e2]; simp [asc]
  | ptr name ch u =>
    right
    exact ⟨name, hf.1, .inl ⟨ch, u, rfl, by simp [typeText, body, addrText_nil hE, asc]⟩⟩
  | ptrNil name ch =>
    right
    exact ⟨name, hf, .inr (.inl ⟨ch, rfl, by simp [typeText, body, addrText_nil hE, asc]⟩)⟩
  | ptrShown name ch =>
    right
    exact ⟨name, hf, .inr (.inr ⟨ch, rfl, by simp [typeText, body, addrText_nil hE, asc]⟩)⟩

/-- Lengths that agree make heads that agree but for the capacity. -/
theorem head_ext {h k : Head} (h1 : h.ty = k.ty) (h2 : h.len = k.len) (h3 : h.note = k.note) :
    ({ h with cap := 0 } : Head) = { k with cap := 0 } := by
  cases h; cases k; simp_all

theorem leaf_inj {Γ : Types} {E : Env} (hE : Plainly E) {D : Nat} {h k : Head} {l m : Leaf} (hl : LeafFits Γ h l) (hm : LeafFits Γ k m)
    (hty : h.ty = k.ty) (hlen : h.len = k.len) {x y : Bytes} (hx : Term x) (hy : Term y)
    (e : leafText E D l ++ x = leafText E D m ++ y) : l = m ∧ x = y := by
  cases l with
  | bool b =>
    cases m with
    | bool c =>
      cases b <;> cases c <;> simp_all [leafText, asc]
    | _ => simp_all [LeafFits]
  | num s =>
    cases m with
    | num t =>
      obtain ⟨h1, h2⟩ := span_inj hl.2.2.inner hm.2.2.inner hx.inner hy.inner e
      exact ⟨by rw [h1], h2⟩
    | _ => simp_all [LeafFits]
  | str s =>
    cases m with
    | str t =>
      obtain ⟨h1, h2⟩ := hE.quote.2 s t x y e
      exact ⟨by rw [h1], h2⟩
    | _ => simp_all [LeafFits]
  | word s =>
    cases m with
    | word t =>
      obtain ⟨p1, i1, -⟩ := hexText_spec hl.2
      obtain ⟨p2, i2, -⟩ := hexText_spec hm.2
      obtain ⟨h1, h2⟩ := span_inj i1 i2 hx.inner hy.inner e
      have : s = t := printHexPtr_injective hl.2 hm.2 (by rw [p1, p2, h1])
      exact ⟨by rw [this], h2⟩
    | _ => simp_all [LeafFits]
  | nil =>
    cases m with
    | nil => exact ⟨rfl, List.append_cancel_left e⟩
    | bytes t => simp [leafText, asc] at e
    | _ => simp_all [LeafFits]
  | bytes s =>
    cases m with
    | bytes t =>
      simp only [leafText, List.append_assoc] at e
      obtain ⟨h1, h2⟩ := blobText_inj hE.indent (by rw [← hl.2, ← hm.2, hlen]) (List.append_cancel_left e)
      exact ⟨by rw [h1], List.append_cancel_left (List.append_cancel_left h2)⟩
    | nil => simp [leafText, asc] at e
    | _ => simp_all [LeafFits]
  | _ => exact absurd hl (by simp [LeafFits])

/-- Kids of the same shape end together. -/
theorem sep_eq {Γ : Types} {sh : Shape} {ks ls : Kids} (h : KidsFit Γ sh ks) (k : KidsFit Γ sh ls) : sep ks = sep ls := by
  cases sh <;> cases ks <;> cases ls <;> simp_all [KidsFit, sep]

/-- Behind a pointer to something there is no angle. -/
theorem body_not_angle {Γ : Types} {E : Env} (hE : Plainly E) {D : Nat} {name : Bytes} {ch : List Nat} {t : Tree}
    (ht : Fits Γ (.ptr name ch t)) {x : Bytes} (z : Bytes) : body E D t ++ (asc ")" ++ x) ≠ 60 :: z := by
  intro e
  obtain ⟨-, ⟨k, ty, -, hty, -⟩, hn, hf⟩ := ht
  obtain ⟨h, hh, -, hnote, -⟩ := head_of_fits hty hf
  rw [(body_head (E := E) (D := D) hh).1, headText_eq_len hE hnote, List.append_assoc] at e
  have hc := (contents_head hE (D := D) hty hf (.paren x)).2 hn
  by_cases h0 : h.len = 0
  · rw [if_pos h0, List.nil_append] at e
    rw [e] at hc
    exact hc rfl
  · rw [if_neg h0] at e
    exact absurd (List.cons.inj e).1 (by decide)

/-- Two pictures with the same text, the first of which is no pointer: the heads agree, and the contents are left. -/
theorem heads_inj {Γ : Types} {E : Env} (hE : Plainly E) {D : Nat} {t u : Tree} {h : Head} {x y : Bytes} (hh : HasHead h t)
    (ht : Fits Γ t) (hu : Fits Γ u) (hx : Term x) (hy : Term y)
    (e : typeText t ++ body E D t ++ x = typeText u ++ body E D u ++ y) :
    ∃ k, HasHead k u ∧ h.ty = k.ty ∧ h.len = k.len ∧ h.note = k.note ∧ contents E D t ++ x = contents E D u ++ y := by
  have hty : tyOf t = some h.ty := by
    cases t with
    | leaf h' l => cases hh; rfl
    | group h' ks => cases hh; rfl
    | _ => exact absurd hh (by simp [HasHead])
  obtain ⟨h2, hh2, -, hnote, hb⟩ := head_of_fits hty ht
  have : h2 = h := by
    cases t with
    | leaf h' l => cases hh; cases hh2; rfl
    | group h' ks => cases hh; cases hh2; rfl
    | _ => exact absurd hh (by simp [HasHead])
  subst this
  have et : typeText t ++ body E D t ++ x = 40 :: (h2.ty ++ 41 :: 32 :: (headText E h2 ++ (contents E D t ++ x))) := by
    obtain ⟨e1, e2⟩ := body_head (E := E) (D := D) hh
    rw [e1, e2]; simp [asc]
  rcases full_open hE (D := D) hu y with ⟨ty, k, hk1, hk, hkt, hkn, hbk, eu⟩ | ⟨name', hb', ⟨ch', u', rfl, eu⟩ | ⟨ch', rfl, eu⟩ | ⟨ch', rfl, eu⟩⟩
  · rw [et, eu] at e
    obtain ⟨h1, e⟩ := balanced_inj hb hbk (List.cons.inj e).2
    have e := (List.cons.inj e).2
    obtain ⟨h3, h4⟩ := headText_inj hE hnote hkn (contents_head hE hty ht hx).1 (contents_head hE hk1 hu hy).1 e
    exact ⟨k, hk, by rw [h1, hkt], h3, by rw [hnote, hkn], h4⟩
  all_goals
    rw [et, eu] at e
    have := (balanced_inj hb hb' (List.cons.inj e).2).2
    exact absurd (List.cons.inj this).1 (by decide)

mutual
  theorem full_inj {Γ : Types} {E : Env} (hE : Plainly E) (D : Nat) : ∀ (t u : Tree) (x y : Bytes), Fits Γ t → Fits Γ u → Term x → Term y →
      typeText t ++ body E D t ++ x = typeText u ++ body E D u ++ y → erase t = erase u ∧ x = y
    | .leaf h l, u, x, y, ht, hu, hx, hy, e => by
      obtain ⟨k, hk, h1, h2, h3, e⟩ := heads_inj hE (h := h) (t := .leaf h l) rfl ht hu hx hy e
      cases u with
      | leaf k' m =>
        cases hk
        obtain ⟨rfl, hxy⟩ := leaf_inj hE ht.2 hu.2 h1 h2 hx hy e
        exact ⟨by simp only [erase]; rw [head_ext h1 h2 h3], hxy⟩
      | group k' ks =>
        cases hk
        exfalso
        obtain ⟨-, hl⟩ := ht
        obtain ⟨-, sh, hsh, -⟩ := hu
        rw [shapeOf, ← h1] at hsh
        cases l with
        | nil => simp [contents, leafText, asc] at e
        | _ => simp_all [LeafFits]
      | _ => exact absurd hk (by simp [HasHead])
    | .group h ks, u, x, y, ht, hu, hx, hy, e => by
      obtain ⟨k, hk, h1, h2, h3, e⟩ := heads_inj hE (h := h) (t := .group h ks) rfl ht hu hx hy e
      cases u with
      | leaf k' m =>
        cases hk
        exfalso
        obtain ⟨-, hl⟩ := hu
        obtain ⟨-, sh, hsh, -⟩ := ht
        rw [shapeOf, h1] at hsh
        cases m with
        | nil => simp [contents, leafText, asc] at e
        | _ => simp_all [LeafFits]
      | group k' ls =>
        cases hk
        obtain ⟨-, sh, hsh, hks⟩ := ht
        obtain ⟨-, sh', hsh', hls⟩ := hu
        have : sh = sh' := by
          unfold shapeOf at hsh hsh'
          rw [h1, h2] at hsh
          rw [hsh'] at hsh
          exact (Option.some.inj hsh).symm
        subst this
        simp only [contents, List.append_assoc] at e
        obtain ⟨e1, e2⟩ := kids_inj hE (D + 1) ks ls sh _ _ hks hls (List.append_cancel_left e)
        exact ⟨by simp only [erase]; rw [head_ext h1 h2 h3, e1], List.append_cancel_left (List.append_cancel_left e2)⟩
      | _ => exact absurd hk (by simp [HasHead])
    | .ptr name ch t, u, x, y, ht, hu, hx, hy, e => by
      rcases full_open hE (D := D) hu y with ⟨ty, h, -, -, -, -, hb, eu⟩ | ⟨name', hb, ⟨ch', u', rfl, eu⟩ | ⟨ch', rfl, eu⟩ | ⟨ch', rfl, eu⟩⟩
      · have et : typeText (.ptr name ch t) ++ body E D (.ptr name ch t) ++ x = 40 :: (name ++ 41 :: 40 :: (body E D t ++ (asc ")" ++ x))) := by
          simp [typeText, body, addrText_nil hE, asc]
        rw [et, eu] at e
        have := (balanced_inj ht.1 hb (List.cons.inj e).2).2
        exact absurd (List.cons.inj this).1 (by decide)
      · have et : typeText (.ptr name ch t) ++ body E D (.ptr name ch t) ++ x = 40 :: (name ++ 41 :: 40 :: (body E D t ++ (asc ")" ++ x))) := by
          simp [typeText, body, addrText_nil hE, asc]
        rw [et, eu] at e
        obtain ⟨hn, e⟩ := balanced_inj ht.1 hb (List.cons.inj e).2
        have e := (List.cons.inj e).2
        obtain ⟨k, ty, hk, hty, hns⟩ := ht.2.1
        obtain ⟨k', ty', hk', hty', hns'⟩ := hu.2.1
        have hte : ty = ty' := star_inj k k' ty ty' hns hns' (by rw [← hk, ← hk', hn])
        subst hte
        have e2 : typeText t ++ body E D t ++ (asc ")" ++ x) = typeText u' ++ body E D u' ++ (asc ")" ++ y) := by
          have h1 := (body_head (E := E) (D := D) (head_of_fits hty ht.2.2.2).choose_spec.1).2
          have h2 := (body_head (E := E) (D := D) (head_of_fits hty' hu.2.2.2).choose_spec.1).2
          rw [(head_of_fits hty ht.2.2.2).choose_spec.2.1] at h1
          rw [(head_of_fits hty' hu.2.2.2).choose_spec.2.1] at h2
          rw [h1, h2, List.append_assoc, e, List.append_assoc _ (body E D u')]
        obtain ⟨h1, h2⟩ := full_inj hE D t u' _ _ ht.2.2.2 hu.2.2.2 (.paren x) (.paren y) e2
        exact ⟨by simp only [erase]; rw [h1, hn], List.append_cancel_left h2⟩
      · have et : typeText (.ptr name ch t) ++ body E D (.ptr name ch t) ++ x = 40 :: (name ++ 41 :: 40 :: (body E D t ++ (asc ")" ++ x))) := by
          simp [typeText, body, addrText_nil hE, asc]
        rw [et, eu] at e
        obtain ⟨hn, e⟩ := balanced_inj ht.1 hb (List.cons.inj e).2
        have e := (List.cons.inj e).2
        exact absurd e (body_not_angle hE ht (asc "nil>)" ++ y))
      · have et : typeText (.ptr name ch t) ++ body E D (.ptr name ch t) ++ x = 40 :: (name ++ 41 :: 40 :: (body E D t ++ (asc ")" ++ x))) := by
          simp [typeText, body, addrText_nil hE, asc]
        rw [et, eu] at e
        obtain ⟨hn, e⟩ := balanced_inj ht.1 hb (List.cons.inj e).2
        have e := (List.cons.inj e).2
        exact absurd e (body_not_angle hE ht (asc "already shown>)" ++ y))
    | .ptrNil name ch, u, x, y, ht, hu, hx, hy, e => by
      have et : typeText (.ptrNil name ch) ++ body E D (.ptrNil name ch) ++ x = 40 :: (name ++ 41 :: 40 :: (asc "<nil>)" ++ x)) := by
        simp [typeText, body, addrText_nil hE, asc]
      rcases full_open hE (D := D) hu y with ⟨ty, h, -, -, -, -, hb, eu⟩ | ⟨name', hb, ⟨ch', u', rfl, eu⟩ | ⟨ch', rfl, eu⟩ | ⟨ch', rfl, eu⟩⟩
      · rw [et, eu] at e
        have := (balanced_inj ht hb (List.cons.inj e).2).2
        exact absurd (List.cons.inj this).1 (by decide)
      · rw [et, eu] at e
        obtain ⟨hn, e⟩ := balanced_inj ht hb (List.cons.inj e).2
        have e := (List.cons.inj e).2
        exact absurd e.symm (body_not_angle hE hu (asc "nil>)" ++ x))
      · rw [et, eu] at e
        obtain ⟨hn, e⟩ := balanced_inj ht hb (List.cons.inj e).2
        have e := (List.cons.inj e).2
        exact ⟨by simp [erase, hn], List.append_cancel_left e⟩
      · rw [et, eu] at e
        obtain ⟨hn, e⟩ := balanced_inj ht hb (List.cons.inj e).2
        simp [asc] at e
    | .ptrShown name ch, u, x, y, ht, hu, hx, hy, e => by
      have et : typeText (.ptrShown name ch) ++ body E D (.ptrShown name ch) ++ x = 40 :: (name ++ 41 :: 40 :: (asc "<already shown>)" ++ x)) := by
        simp [typeText, body, addrText_nil hE, asc]
      rcases full_open hE (D := D) hu y with ⟨ty, h, -, -, -, -, hb, eu⟩ | ⟨name', hb, ⟨ch', u', rfl, eu⟩ | ⟨ch', rfl, eu⟩ | ⟨ch', rfl, eu⟩⟩
      · rw [et, eu] at e
        have := (balanced_inj ht hb (List.cons.inj e).2).2
        exact absurd (List.cons.inj this).1 (by decide)
      · rw [et, eu] at e
        obtain ⟨hn, e⟩ := balanced_inj ht hb (List.cons.inj e).2
        have e := (List.cons.inj e).2
        exact absurd e.symm (body_not_angle hE hu (asc "already shown>)" ++ x))
      · rw [et, eu] at e
        obtain ⟨hn, e⟩ := balanced_inj ht hb (List.cons.inj e).2
        simp [asc] at e
      · rw [et, eu] at e
        obtain ⟨hn, e⟩ := balanced_inj ht hb (List.cons.inj e).2
        have e := (List.cons.inj e).2
        exact ⟨by simp [erase, hn], List.append_cancel_left e⟩
  theorem kids_inj {Γ : Types} {E : Env} (hE : Plainly E) (D : Nat) : ∀ (ks ls : Kids) (sh : Shape) (x y : Bytes), KidsFit Γ sh ks → KidsFit Γ sh ls →
      kidsText E D ks ++ x = kidsText E D ls ++ y → eraseKids ks = eraseKids ls ∧ x = y
    | .nil, ls, sh, x, y, hk, hl, e => by
      have : ls = .nil := by cases sh <;> cases ls <;> simp_all [KidsFit]
      subst this
      exact ⟨rfl, by simpa [kidsText] using e⟩
    | .elem t ks, ls, sh, x, y, hk, hl, e => by
      cases sh with
      | elems n =>
        cases ls with
        | elem u ls =>
          simp only [kidsText, List.append_assoc] at e
          have e := List.append_cancel_left e
          obtain ⟨h1, e⟩ := full_inj hE D t u _ _ hk.2.1 hl.2.1 (.sep ks _) (.sep ls _) (by simpa using e)
          rw [sep_eq hk.2.2 hl.2.2] at e
          obtain ⟨h2, h3⟩ := kids_inj hE D ks ls _ x y hk.2.2 hl.2.2 (List.append_cancel_left e)
          exact ⟨by simp only [eraseKids]; rw [h1, h2], h3⟩
        | nil => exact absurd hl hk.1
        | _ => exact absurd hl (by simp [KidsFit])
      | _ => exact absurd hk (by simp [KidsFit])
    | .entry k v ks, ls, sh, x, y, hk, hl, e => by
      cases sh with
      | entries n =>
        cases ls with
        | entry k' v' ls =>
          simp only [kidsText, List.append_assoc] at e
          have e := List.append_cancel_left e
          obtain ⟨h1, e⟩ := full_inj hE D k k' _ _ hk.2.1 hl.2.1 (.colon _) (.colon _) (by simpa using e)
          have e := List.append_cancel_left e
          obtain ⟨h2, e⟩ := full_inj hE D v v' _ _ hk.2.2.1 hl.2.2.1 (.sep ks _) (.sep ls _) (by simpa using e)
          rw [sep_eq hk.2.2.2 hl.2.2.2] at e
          obtain ⟨h3, h4⟩ := kids_inj hE D ks ls _ x y hk.2.2.2 hl.2.2.2 (List.append_cancel_left e)
          exact ⟨by simp only [eraseKids]; rw [h1, h2, h3], h4⟩
        | nil => exact absurd hl hk.1
        | _ => exact absurd hl (by simp [KidsFit])
      | _ => exact absurd hk (by simp [KidsFit])
    | .field name t ks, ls, sh, x, y, hk, hl, e => by
      cases sh with
      | fields names =>
        cases ls with
        | field name' u ls =>
          simp only [kidsText, List.append_assoc] at e
          have hn : name = name' := by
            have := hk.1.symm.trans hl.1
            exact Option.some.inj this
          subst hn
          have e := List.append_cancel_left (List.append_cancel_left (List.append_cancel_left e))
          obtain ⟨h1, e⟩ := full_inj hE D t u _ _ hk.2.1 hl.2.1 (.sep ks _) (.sep ls _) (by simpa using e)
          rw [sep_eq hk.2.2 hl.2.2] at e
          obtain ⟨h2, h3⟩ := kids_inj hE D ks ls _ x y hk.2.2 hl.2.2 (List.append_cancel_left e)
          exact ⟨by simp only [eraseKids]; rw [h1, h2], h3⟩
        | nil =>
          simp only [KidsFit] at hl hk
          rw [hl] at hk
          exact absurd hk.1 (by simp)
        | _ => exact absurd hl (by simp [KidsFit])
      | _ => exact absurd hk (by simp [KidsFit])
end

end Verif.Spew
