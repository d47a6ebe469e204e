import Verif.Parse.ExprModel
import Verif.Parse.Props

/-!
# C09: the sample calculator computes the conventional value
-/

namespace Verif.Parse

/-! ### Specification: the grammar and its value -/

/-- An integer literal. -/
structure Num where
  neg : Bool
  digits : Bytes

/-- Literals that denote an int64. -/
def Num.ok (n : Num) : Prop :=
  n.digits ≠ [] ∧ (∀ c ∈ n.digits, isDigit c = true) ∧
    -2 ^ 63 ≤ signedOf n.neg (natOfDigits 0 n.digits) ∧ signedOf n.neg (natOfDigits 0 n.digits) < 2 ^ 63

def Num.text (n : Num) : Bytes := signText n.neg ++ n.digits
def Num.value (n : Num) : Int := signedOf n.neg (natOfDigits 0 n.digits)

/-- A product of literals. -/
structure Product where
  first : Num
  rest : List Num

def factorsText : List Num → Bytes
  | [] => []
  | n :: ns => [42] ++ n.text ++ factorsText ns
def factorsValue : Int → List Num → Int
  | v, [] => v
  | v, n :: ns => factorsValue (v * n.value) ns

def Product.text (p : Product) : Bytes := p.first.text ++ factorsText p.rest
def Product.value (p : Product) : Int := factorsValue p.first.value p.rest
def Product.ok (p : Product) : Prop := p.first.ok ∧ ∀ n ∈ p.rest, n.ok

/-- A sum of products; `true` subtracts. -/
structure Sum where
  first : Product
  rest : List (Bool × Product)

def termsText : List (Bool × Product) → Bytes
  | [] => []
  | (m, p) :: ts => [if m then 45 else 43] ++ p.text ++ termsText ts
def termsValue : Int → List (Bool × Product) → Int
  | v, [] => v
  | v, (m, p) :: ts => termsValue (if m then v - p.value else v + p.value) ts

def Sum.text (e : Sum) : Bytes := e.first.text ++ termsText e.rest
def Sum.value (e : Sum) : Int := termsValue e.first.value e.rest
def Sum.ok (e : Sum) : Prop := e.first.ok ∧ ∀ t ∈ e.rest, t.2.ok

/-- What may follow an expression: the end or a byte that is neither a digit nor an
operator. -/
def endsExpr (tail : Bytes) : Prop := ∀ c ∈ tail.head?, isDigit c = false ∧ c ≠ 43 ∧ c ≠ 45 ∧ c ≠ 42

/-! ### Steps -/

/-- The input `r` with `io.EOF` recorded exactly if it is used up. -/
def inputAt (r : Bytes) : Input := ⟨r, if r = [] then some .eof else none⟩

theorem inputAt_ne {r : Bytes} (h : r ≠ []) : inputAt r = ⟨r, none⟩ := by simp [inputAt, h]

theorem advance_inputAt {r : Bytes} (n : Nat) : Input.advance ⟨r, none⟩ n = inputAt (r.drop n) := by
  simp [Input.advance, inputAt]

theorem num_ne (n : Num) (h : n.ok) (tail : Bytes) : n.text ++ tail ≠ [] := by
  have := h.1; simp [Num.text, this]

theorem ofInt_eq (v : Int64) (z : Int) (h : v.toInt = z) : v = Int64.ofInt z := by
  rw [← h, Int64.ofInt_toInt]

theorem num_step {s : Source} {n : Num} (hn : n.ok) {tail : Bytes} (ht : ∀ c ∈ tail.head?, isDigit c = false)
    (h : Sim True s (inputAt (n.text ++ tail))) :
    ∃ s', readInt64 s = .ok (Int64.ofInt n.value, s') ∧ Sim True s' (inputAt tail) := by
  obtain ⟨hne, hd, hr⟩ := hn
  rw [inputAt_ne (num_ne n ⟨hne, hd, hr⟩ tail)] at h
  obtain ⟨neg, ds⟩ := n
  simp only [Num.text, Num.value] at *
  have hlt : natOfDigits 0 ds < 2 ^ 64 := by
    unfold signedOf at hr; cases neg <;> simp at hr <;> omega
  obtain ⟨h1, h2, h3, h4⟩ := signed_input neg ds tail hne hd ht hlt
  obtain ⟨s', e1, e2⟩ := readInt64_sim h h1 h2
  unfold Input.int64 at e1 e2
  rw [h4] at e1 e2
  have hv : (UInt64.ofNat (natOfDigits 0 ds)).toNat = natOfDigits 0 ds := by
    rw [UInt64.toNat_ofNat', Nat.mod_eq_of_lt hlt]
  cases neg with
  | false =>
    have hh : ¬ (signText false ++ ds ++ tail).head? = some 45 := fun hx => by simpa using h3.mp hx
    simp only [signedOf, Bool.false_eq_true, if_false] at hr
    have hle : ¬ UInt64.ofNat (natOfDigits 0 ds) > 9223372036854775807 := by
      show ¬ (9223372036854775807 : UInt64) < _
      rw [UInt64.lt_iff_toNat_lt, hv]
      have e : (9223372036854775807 : UInt64).toNat = 9223372036854775807 := rfl
      omega
    simp only [hh, hle, if_false] at e1 e2
    refine ⟨s', ?_, ?_⟩
    · rw [e1, ofInt_eq (UInt64.toInt64 _) (natOfDigits 0 ds) ?_]
      · simp [signedOf]
      rw [toInt_of_u64, hv]
      exact Int.bmod_eq_of_le (by omega) (by omega)
    · rwa [advance_inputAt, List.drop_left] at e2
  | true =>
    have hh : (signText true ++ ds ++ tail).head? = some 45 := h3.mpr rfl
    simp only [signedOf, if_true] at hr
    have hle : ¬ UInt64.ofNat (natOfDigits 0 ds) > 9223372036854775808 := by
      show ¬ (9223372036854775808 : UInt64) < _
      rw [UInt64.lt_iff_toNat_lt, hv]
      have e : (9223372036854775808 : UInt64).toNat = 9223372036854775808 := rfl
      omega
    simp only [hh, hle, if_false, if_true] at e1 e2
    refine ⟨s', ?_, ?_⟩
    · rw [e1]; congr 2
      apply ofInt_eq
      rw [Int64.toInt_neg, toInt_of_u64, hv]
      simp only [signedOf, if_true]
      rw [Int.bmod_neg_bmod]
      exact Int.bmod_eq_of_le (by omega) (by omega)
    · rwa [advance_inputAt, List.drop_left] at e2

theorem op_step {s : Source} {c : UInt8} {r : Bytes} (h : Sim True s (inputAt (c :: r))) :
    s.err = none ∧ s.peek1 = .ok c ∧ ∃ s', s.consumeN 1 = .ok s' ∧ Sim True s' (inputAt r) := by
  rw [inputAt_ne (by simp)] at h
  refine ⟨h.strictErr trivial, ?_, ?_⟩
  · obtain ⟨c', t, t', hc, ha⟩ := sim_head h (by simp)
    simp only [List.cons.injEq] at ha
    rw [← ha.1] at hc
    simp [Source.peek1, hc]
  · obtain ⟨s', e, hs⟩ := consumeN_sim h 1 (by simp)
    rw [advance_inputAt] at hs
    exact ⟨s', e, by simpa using hs⟩

/-- Bytes at which a loop running at precedence `p` returns. -/
def stopsAt (p : Nat) (tail : Bytes) : Prop := ∀ c ∈ tail.head?, ∀ t q, infixToken c = some (t, q) → q ≤ p

theorem loop_stop {s : Source} {tail : Bytes} (p : Nat) (h : Sim True s (inputAt tail)) (hs : stopsAt p tail)
    (fuel : Nat) (left : Int64) : exprLoop (fuel + 1) s p left = .ok (left, s) := by
  simp only [exprLoop]
  cases tail with
  | nil =>
    have : s.err = some .eof := by rw [h.strictErr trivial]; rfl
    simp [this]
  | cons c t =>
    obtain ⟨h1, h2, -⟩ := op_step h
    simp only [h1, h2, Option.isSome_none, Bool.false_eq_true, if_false]
    cases hi : infixToken c with
    | none => rfl
    | some x =>
      obtain ⟨tok, q⟩ := x
      have := hs c (by simp) tok q hi
      simp only
      rw [if_pos this]

theorem loop_op {s : Source} {c : UInt8} {r : Bytes} {tok : InfixTok} {q p : Nat}
    (h : Sim True s (inputAt (c :: r))) (hi : infixToken c = some (tok, q)) (hp : p < q) (fuel : Nat)
    (left : Int64) : ∃ s1, Sim True s1 (inputAt r) ∧ ∀ right s2, exprParse fuel s1 tok.rightPrec = .ok (right, s2) →
      exprLoop (fuel + 1) s p left = exprLoop fuel s2 p (tok.apply left right) := by
  obtain ⟨h1, h2, s1, h3, h4⟩ := op_step h
  refine ⟨s1, h4, ?_⟩
  intro right s2 he
  rw [exprLoop]
  simp only [h1, h2, hi, h3, he, Option.isSome_none, Bool.false_eq_true, if_false]
  rw [if_neg (by omega)]

theorem factors_loop (p : Nat) (hp : p < 4) : ∀ (ns : List Num) {s : Source} {tail : Bytes} (z : Int),
    (∀ n ∈ ns, n.ok) → (∀ c ∈ tail.head?, isDigit c = false) →
    Sim True s (inputAt (factorsText ns ++ tail)) →
    ∃ s', Sim True s' (inputAt tail) ∧ ∀ fuel, 2 ≤ fuel →
      exprLoop (fuel + ns.length) s p (Int64.ofInt z) = exprLoop fuel s' p (Int64.ofInt (factorsValue z ns)) := by
  intro ns
  induction ns with
  | nil => intro s tail z _ _ h; exact ⟨s, h, fun _ _ => rfl⟩
  | cons n ns ih =>
    intro s tail z hok ht h
    simp only [factorsText, List.cons_append, List.nil_append, List.append_assoc] at h
    have hop := fun fuel => loop_op (p := p) h (tok := .multiply) (q := 4) rfl (by omega) fuel (Int64.ofInt z)
    -- the source after the operator is the same whatever the fuel
    obtain ⟨-, -, s1, hc1, hs1⟩ := op_step h
    have hnd : ∀ c ∈ (factorsText ns ++ tail).head?, isDigit c = false := by
      cases ns with
      | nil => simpa [factorsText] using ht
      | cons m ms => intro c hc; simp [factorsText] at hc; subst hc; decide
    obtain ⟨s2, e2, hs2⟩ := num_step (hok n (by simp)) hnd hs1
    obtain ⟨s3, hs3, hl⟩ := ih (z * n.value) (fun m hm => hok m (by simp [hm])) ht hs2
    refine ⟨s3, hs3, ?_⟩
    intro fuel hf
    have hstop : stopsAt 4 (factorsText ns ++ tail) := by
      intro c _ t q hq
      unfold infixToken at hq
      split at hq
      · simp at hq; omega
      · split at hq
        · simp at hq; omega
        · split at hq
          · simp at hq; omega
          · simp at hq
    have hparse : exprParse (fuel + ns.length) s1 4 = .ok (Int64.ofInt n.value, s2) := by
      obtain ⟨k, hk⟩ : ∃ k, fuel + ns.length = k + 1 + 1 := ⟨fuel + ns.length - 2, by omega⟩
      rw [hk, exprParse]
      simp only [e2]
      exact loop_stop 4 hs2 hstop k _
    obtain ⟨h1, h2, -⟩ := op_step h
    rw [show fuel + (n :: ns).length = (fuel + ns.length) + 1 by simp; omega, exprLoop]
    simp only [h1, h2, show infixToken 42 = some (.multiply, 4) from rfl, hc1, InfixTok.rightPrec, hparse,
      Option.isSome_none, Bool.false_eq_true, if_false]
    rw [if_neg (by omega)]
    show exprLoop _ s2 p (Int64.ofInt z * Int64.ofInt n.value) = _
    rw [← Int64.ofInt_mul]
    exact hl fuel hf

theorem factors_length (ns : List Num) : ns.length ≤ (factorsText ns).length := by
  induction ns with
  | nil => simp
  | cons n ns ih => simp [factorsText]; omega

theorem product_parse {p : Product} {s : Source} {tail : Bytes} (hok : p.ok)
    (ht : ∀ c ∈ tail.head?, isDigit c = false) (hstop : stopsAt 3 tail)
    (h : Sim True s (inputAt (p.text ++ tail))) :
    ∃ s', Sim True s' (inputAt tail) ∧ ∀ fuel, p.text.length + 4 ≤ fuel →
      exprParse fuel s 3 = .ok (Int64.ofInt p.value, s') := by
  simp only [Product.text, List.append_assoc] at h
  have hnd : ∀ c ∈ (factorsText p.rest ++ tail).head?, isDigit c = false := by
    cases hp : p.rest with
    | nil => simpa [factorsText] using ht
    | cons m ms => intro c hc; simp [factorsText] at hc; subst hc; decide
  obtain ⟨s1, e1, hs1⟩ := num_step hok.1 hnd h
  obtain ⟨s2, hs2, hl⟩ := factors_loop 3 (by omega) p.rest p.first.value hok.2 ht hs1
  refine ⟨s2, hs2, ?_⟩
  intro fuel hf
  have hlen := factors_length p.rest
  simp only [Product.text, List.length_append] at hf
  obtain ⟨k, hk⟩ : ∃ k, fuel = (k + 1 + 1 + p.rest.length) + 1 := ⟨fuel - p.rest.length - 3, by omega⟩
  rw [hk, exprParse]
  simp only [e1]
  rw [hl (k + 1 + 1) (by omega)]
  exact loop_stop 3 hs2 hstop _ _

theorem terms_loop : ∀ (ts : List (Bool × Product)) {s : Source} {tail : Bytes} (z : Int),
    (∀ t ∈ ts, t.2.ok) → endsExpr tail → Sim True s (inputAt (termsText ts ++ tail)) →
    ∃ s', Sim True s' (inputAt tail) ∧ ∀ fuel, (termsText ts).length + 4 ≤ fuel →
      exprLoop fuel s 0 (Int64.ofInt z) = .ok (Int64.ofInt (termsValue z ts), s') := by
  intro ts
  induction ts with
  | nil =>
    intro s tail z _ ht h
    refine ⟨s, h, ?_⟩
    intro fuel hf
    obtain ⟨k, rfl⟩ : ∃ k, fuel = k + 1 := ⟨fuel - 1, by omega⟩
    refine loop_stop 0 h ?_ k _
    intro c hc t q hq
    obtain ⟨-, h1, h2, h3⟩ := ht c hc
    simp [infixToken, h1, h2, h3] at hq
  | cons t ts ih =>
    intro s tail z hok ht h
    obtain ⟨m, p⟩ := t
    simp only [termsText, List.cons_append, List.nil_append, List.append_assoc] at h
    obtain ⟨h1, h2, s1, hc1, hs1⟩ := op_step h
    have hhead : ∀ c ∈ (termsText ts ++ tail).head?, isDigit c = false ∧ c ≠ 42 := by
      cases ts with
      | nil => intro c hc; have := ht c (by simpa [termsText] using hc); exact ⟨this.1, this.2.2.2⟩
      | cons t' ts' =>
        intro c hc; simp [termsText] at hc; subst hc
        split <;> decide
    have hstop : stopsAt 3 (termsText ts ++ tail) := by
      intro c hc t q hq
      have := (hhead c hc).2
      unfold infixToken at hq
      split at hq
      · simp at hq; omega
      · split at hq
        · simp at hq; omega
        · simp at hq
    obtain ⟨s2, hs2, hp⟩ := product_parse (hok (m, p) (by simp)) (fun c hc => (hhead c hc).1) hstop hs1
    obtain ⟨s3, hs3, hl⟩ := ih (if m then z - p.value else z + p.value) (fun t ht => hok t (by simp [ht])) ht hs2
    refine ⟨s3, hs3, ?_⟩
    intro fuel hf
    simp only [termsText, List.length_append, List.length_cons, List.length_nil] at hf
    obtain ⟨k, rfl⟩ : ∃ k, fuel = k + 1 := ⟨fuel - 1, by omega⟩
    have hpp := hp k (by simp only; omega)
    have hll := hl k (by omega)
    rw [exprLoop]
    cases m with
    | false =>
      simp only [h1, h2, Bool.false_eq_true, if_false, show infixToken 43 = some (.plus, 3) from rfl, hc1,
        InfixTok.rightPrec, hpp, Option.isSome_none] at hll ⊢
      rw [if_neg (by omega)]
      show exprLoop k s2 0 (Int64.ofInt z + Int64.ofInt p.value) = _
      rw [← Int64.ofInt_add]
      exact hll
    | true =>
      simp only [h1, h2, if_true, Bool.false_eq_true, if_false, show infixToken 45 = some (.minus, 3) from rfl, hc1,
        InfixTok.rightPrec, hpp, Option.isSome_none] at hll ⊢
      rw [if_neg (by omega)]
      show exprLoop k s2 0 (Int64.ofInt z - Int64.ofInt p.value) = _
      rw [← Int64.ofInt_sub]
      exact hll

/-- C09: for every expression built from int64 literals with `+`, `-`, `*`, however its
text is cut into chunks and whatever follows it, `expr.Parse(src, 0)` returns the
conventional value (products first, left to right) in 64-bit arithmetic, and leaves
the source just after the expression. -/
theorem expr_value {s : Source} {e : Sum} {tail : Bytes} (hok : e.ok) (ht : endsExpr tail)
    (h : Reached True s (e.text ++ tail)) :
    ∃ s', exprRun s = .ok (Int64.ofInt e.value, s') ∧ LeftAt s' tail := by
  obtain ⟨hsim, hne⟩ := reached_sim h
  have hleft : s.bytesLeft = (e.text ++ tail).length := bytesLeft_sim hsim
  rw [← inputAt_ne hne] at hsim
  simp only [Sum.text, Product.text, List.append_assoc] at hsim
  have hhead : ∀ c ∈ (termsText e.rest ++ tail).head?, isDigit c = false := by
    cases hr : e.rest with
    | nil => intro c hc; exact (ht c (by simpa [termsText] using hc)).1
    | cons t' ts' =>
      intro c hc; simp [termsText] at hc; subst hc
      split <;> decide
  have hnd : ∀ c ∈ (factorsText e.first.rest ++ (termsText e.rest ++ tail)).head?, isDigit c = false := by
    cases hp : e.first.rest with
    | nil => simpa [factorsText] using hhead
    | cons m ms => intro c hc; simp [factorsText] at hc; subst hc; decide
  obtain ⟨s1, e1, hs1⟩ := num_step hok.1.1 hnd hsim
  obtain ⟨s2, hs2, hl⟩ := factors_loop 0 (by omega) e.first.rest e.first.first.value hok.1.2 hhead hs1
  obtain ⟨s3, hs3, hl2⟩ := terms_loop e.rest (factorsValue e.first.first.value e.first.rest) hok.2 ht hs2
  refine ⟨s3, ?_, sim_delivers hs3, hs3.strictErr trivial⟩
  have hlen := factors_length e.first.rest
  have hnum : 1 ≤ e.first.first.text.length := by
    have := hok.1.1.1
    cases hd : e.first.first.digits with
    | nil => exact absurd hd this
    | cons c t => simp [Num.text, hd]; omega
  rw [exprRun, hleft]
  simp only [Sum.text, Product.text, List.length_append]
  obtain ⟨k, hk1, hk2⟩ : ∃ k, e.first.first.text.length + (factorsText e.first.rest).length +
      (termsText e.rest).length + tail.length + 4 = (k + e.first.rest.length) + 1 ∧
      (termsText e.rest).length + 4 ≤ k :=
    ⟨e.first.first.text.length + (factorsText e.first.rest).length +
      (termsText e.rest).length + tail.length + 3 - e.first.rest.length, by omega, by omega⟩
  rw [hk1, exprParse]
  simp only [e1]
  rw [hl k (by omega), hl2 k hk2]
  rfl

/-- C09 through `parse.String`: the value and no error. -/
theorem expr_string {e : Sum} {tail : Bytes} (hok : e.ok) (ht : endsExpr tail) :
    exprString (e.text ++ tail) = .ok (some (Int64.ofInt e.value), none) := by
  have hne : e.text ++ tail ≠ [] := by
    have := hok.1.1.1
    simp [Sum.text, Product.text, Num.text, this]
  obtain ⟨s', h1, -, h2⟩ := expr_value hok ht (Reached.string (strict := True) _ hne)
  simp only [exprString, h1, h2]
  by_cases hx : tail = []
  · simp [hx]
  · simp [hx]

/-- `7-2*-3+4`. -/
def sampleExpr : Sum :=
  ⟨⟨⟨false, asc "7"⟩, []⟩, [(true, ⟨⟨false, asc "2"⟩, [⟨true, asc "3"⟩]⟩), (false, ⟨⟨false, asc "4"⟩, []⟩)]⟩

example : sampleExpr.text = asc "7-2*-3+4" ∧ sampleExpr.value = 17 := by decide
example : sampleExpr.ok := by
  simp only [Sum.ok, Product.ok, Num.ok, sampleExpr, List.mem_cons, List.not_mem_nil, or_false, forall_eq_or_imp,
    forall_eq, false_implies, implies_true, and_true]
  decide +kernel
example : (exprRun (newSourceString (asc "7-2*-3+4 "))).map (·.1) = .ok 17 := by rfl

/-- An operator without right operand panics (index out of range in `read.Int`). -/
theorem expr_dangling_panics : exprString (asc "1+") = .error .panic := by rfl

end Verif.Parse
