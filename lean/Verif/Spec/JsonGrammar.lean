import Verif.Spec.Json

/-!
# Specification: the JSON grammar (RFC 8259)

A relation between texts and values with all of the RFC's freedom: white space around tokens and
exponents in numbers.  (`\u` escapes of surrogates are left out.)  `parse_sound` ties the parser
of `Verif.Spec.Json` to it.
-/

namespace Verif.Spec

/-- White space, RFC 8259 section 2. -/
def Ws (w : Bytes) : Prop := ∀ c ∈ w, c = 32 ∨ c = 9 ∨ c = 10 ∨ c = 13

/-- Digits. -/
def Digits (t : Bytes) : Prop := t ≠ [] ∧ ∀ c ∈ t, isDigit c = true

/-- The integer part of a number: no leading zeros. -/
def IntPart (t : Bytes) : Prop := Digits t ∧ (t.head? = some 48 → t = [48])

/-- An exponent and its value, RFC 8259 section 6. -/
inductive IsExp : Bytes → Int → Prop where
  | none : IsExp [] 0
  | plain (e : UInt8) (d : Bytes) : e = 101 ∨ e = 69 → Digits d → IsExp (e :: d) (decimalValue d)
  | plus (e : UInt8) (d : Bytes) : e = 101 ∨ e = 69 → Digits d → IsExp (e :: 43 :: d) (decimalValue d)
  | minus (e : UInt8) (d : Bytes) : e = 101 ∨ e = 69 → Digits d → IsExp (e :: 45 :: d) (-(decimalValue d : Int))

/-- `m` divided by ten to the `k`, times ten to the `e`. -/
def scaled (m : Int) (k : Nat) (e : Int) : Rat :=
  mkRat (m * 10 ^ e.toNat) (10 ^ (k + (-e).toNat))

/-- A number without sign, RFC 8259 section 6: digits, decimals, exponent. -/
inductive IsUnsigned : Bytes → Nat → Nat → Int → Prop where
  | int (ip x : Bytes) (e : Int) : IntPart ip → IsExp x e → IsUnsigned (ip ++ x) (decimalValue ip) 0 e
  | frac (ip fr x : Bytes) (e : Int) : IntPart ip → Digits fr → IsExp x e →
      IsUnsigned (ip ++ 46 :: fr ++ x) (decimalValue (ip ++ fr)) fr.length e

mutual
/-- A value without white space around it. -/
inductive IsValue : Bytes → Json → Prop where
  | null : IsValue [110, 117, 108, 108] .null
  | true : IsValue [116, 114, 117, 101] (.bool Bool.true)
  | false : IsValue [102, 97, 108, 115, 101] (.bool Bool.false)
  | num (t : Bytes) (m k : Nat) (e : Int) : IsUnsigned t m k e → IsValue t (.num (scaled m k e))
  | neg (t : Bytes) (m k : Nat) (e : Int) : IsUnsigned t m k e → IsValue (45 :: t) (.num (scaled (-(m : Int)) k e))
  | str (t v : Bytes) : parseJsonString t = some (v, []) → IsValue t (.str v)
  | arrNil (w : Bytes) : Ws w → IsValue (91 :: w ++ [93]) (.arr [])
  | arr (x : Bytes) (js : List Json) : IsElems x js → IsValue (91 :: x ++ [93]) (.arr js)
  | objNil (w : Bytes) : Ws w → IsValue (123 :: w ++ [125]) (.obj [])
  | obj (x : Bytes) (kvs : List (Bytes × Json)) : IsMembers x kvs → IsValue (123 :: x ++ [125]) (.obj kvs)

/-- Elements separated by commas. -/
inductive IsElems : Bytes → List Json → Prop where
  | one (w t w' : Bytes) (j : Json) : Ws w → IsValue t j → Ws w' → IsElems (w ++ t ++ w') [j]
  | more (w t w' x : Bytes) (j : Json) (js : List Json) : Ws w → IsValue t j → Ws w' → IsElems x js →
      IsElems (w ++ t ++ w' ++ 44 :: x) (j :: js)

/-- Members separated by commas. -/
inductive IsMembers : Bytes → List (Bytes × Json) → Prop where
  | one (w k w1 w2 t w' v : Bytes) (j : Json) : Ws w → parseJsonString k = some (v, []) → Ws w1 → Ws w2 → IsValue t j → Ws w' →
      IsMembers (w ++ k ++ w1 ++ 58 :: (w2 ++ t ++ w')) [(v, j)]
  | more (w k w1 w2 t w' v x : Bytes) (j : Json) (kvs : List (Bytes × Json)) : Ws w → parseJsonString k = some (v, []) → Ws w1 →
      Ws w2 → IsValue t j → Ws w' → IsMembers x kvs →
      IsMembers (w ++ k ++ w1 ++ 58 :: (w2 ++ t ++ w' ++ 44 :: x)) ((v, j) :: kvs)
end

/-- A JSON text, RFC 8259 section 2. -/
def IsJson (s : Bytes) (j : Json) : Prop := ∃ w t w', Ws w ∧ IsValue t j ∧ Ws w' ∧ s = w ++ t ++ w'

theorem ws_nil : Ws [] := fun _ h => absurd h (List.not_mem_nil)

/-! ### The parser is sound -/

theorem parseStringBody_prefix (s : Bytes) : ∀ v r, parseStringBody s = some (v, r) →
    ∃ t, s = t ++ r ∧ parseStringBody t = some (v, []) := by
  induction s using parseStringBody.induct with
  | case1 => intro v r h; simp [parseStringBody] at h
  | case2 r0 =>
    intro v r h
    simp only [parseStringBody, Option.some.injEq, Prod.mk.injEq] at h
    exact ⟨[34], by simp [h.2], by simp [parseStringBody, h.1]⟩
  | case3 a b c d r0 hx => intro v r h; simp [parseStringBody, hx] at h
  | case4 a b c d r0 n hx hsc hn ih => intro v r h; simp [parseStringBody, hx, hsc, hn] at h
  | case5 a b c d r0 n hx hsc v' r' hn ih =>
    intro v r h
    simp only [parseStringBody, hx, hsc, if_true, hn, Option.some.injEq, Prod.mk.injEq] at h
    obtain ⟨t, ht, hp⟩ := ih _ _ hn
    refine ⟨92 :: 117 :: a :: b :: c :: d :: t, by simp [ht, h.2], ?_⟩
    simp [parseStringBody, hx, hsc, hp, h.1]
  | case6 a b c d r0 n hx hsc => intro v r h; simp [parseStringBody, hx, hsc] at h
  | case7 e r0 hne hx =>
    intro v r h
    rw [parseStringBody] at h
    · simp [hx] at h
    · exact hne
  | case8 e r0 hne x hx hn ih =>
    intro v r h
    rw [parseStringBody] at h
    · simp [hx, hn] at h
    · exact hne
  | case9 e r0 hne x hx v' r' hn ih =>
    intro v r h
    rw [parseStringBody] at h
    · simp only [hx, hn, Option.some.injEq, Prod.mk.injEq] at h
      obtain ⟨t, ht, hp⟩ := ih _ _ hn
      refine ⟨92 :: e :: t, by simp [ht, h.2], ?_⟩
      have he : e ≠ 117 := by
        intro he
        subst he
        simp [simpleEscape] at hx
      rw [parseStringBody]
      · simp [hx, hp, h.1]
      · intro a b c d r' he'
        exact absurd he' he
    · exact hne
  | case10 c r0 h34 h1 h2 hlt => intro v r h; rw [parseStringBody] at h; simp [hlt] at h; all_goals assumption
  | case11 c r0 h34 h1 h2 hlt hn ih =>
    intro v r h
    rw [parseStringBody] at h
    · simp [hn] at h
    all_goals assumption
  | case12 c r0 h34 h1 h2 hlt v' r' hn ih =>
    intro v r h
    rw [parseStringBody] at h
    · rw [if_neg hlt] at h
      simp only [hn, Option.some.injEq, Prod.mk.injEq] at h
      obtain ⟨t, ht, hp⟩ := ih _ _ hn
      refine ⟨c :: t, by simp [ht, h.2], ?_⟩
      rw [parseStringBody]
      · rw [if_neg hlt]
        simp [hp, h.1]
      · exact h34
      · intro a b c' d r' h92
        exact absurd h92 (fun h => hlt (Or.inr h))
      · intro e r' h92
        exact absurd h92 (fun h => hlt (Or.inr h))
    all_goals assumption

theorem parseJsonString_prefix (s v r : Bytes) (h : parseJsonString s = some (v, r)) :
    ∃ t, s = t ++ r ∧ parseJsonString t = some (v, []) := by
  unfold parseJsonString at h
  split at h
  · obtain ⟨t, ht, hp⟩ := parseStringBody_prefix _ _ _ h
    exact ⟨34 :: t, by simp [ht], by simpa [parseJsonString] using hp⟩
  · cases h

theorem digits_takeWhile (s : Bytes) : ∀ c ∈ s.takeWhile isDigit, isDigit c = true := by
  induction s with
  | nil => simp
  | cons x s ih =>
    rw [List.takeWhile_cons]
    split
    · rename_i hx
      intro c hc
      rcases List.mem_cons.mp hc with h | h
      · rw [h]; exact hx
      · exact ih c h
    · simp

theorem parseUnsigned_sound (s r : Bytes) (m k : Nat) (h : parseUnsigned s = some ((m, k), r)) :
    ∃ t, s = t ++ r ∧ IsUnsigned t m k 0 := by
  unfold parseUnsigned at h
  simp only at h
  split at h
  · cases h
  · rename_i hip
    rw [not_or] at hip
    change s.takeWhile isDigit ≠ [] ∧ ¬ ((s.takeWhile isDigit).head? = some 48 ∧ s.takeWhile isDigit ≠ [48]) at hip
    have hint : IntPart (s.takeWhile isDigit) := by
      refine ⟨⟨hip.1, digits_takeWhile s⟩, ?_⟩
      intro h48
      exact Classical.byContradiction fun hne => hip.2 ⟨h48, hne⟩
    split at h
    · rename_i r' hr
      change s.dropWhile isDigit = _ at hr
      split at h
      · cases h
      · rename_i hfr
        change ¬ r'.takeWhile isDigit = [] at hfr
        change some ((decimalValue (s.takeWhile isDigit ++ r'.takeWhile isDigit), (r'.takeWhile isDigit).length), r'.dropWhile isDigit) = _ at h
        simp only [Option.some.injEq, Prod.mk.injEq] at h
        obtain ⟨⟨hm, hk⟩, hr'⟩ := h
        refine ⟨s.takeWhile isDigit ++ 46 :: r'.takeWhile isDigit ++ [], ?_, ?_⟩
        · rw [← hr']
          conv => lhs; rw [← List.takeWhile_append_dropWhile (p := isDigit) (l := s), hr,
            ← List.takeWhile_append_dropWhile (p := isDigit) (l := r')]
          simp
        · rw [← hm, ← hk]
          exact .frac _ _ _ _ hint ⟨hfr, digits_takeWhile r'⟩ .none
    · change some ((decimalValue (s.takeWhile isDigit), 0), s.dropWhile isDigit) = _ at h
      simp only [Option.some.injEq, Prod.mk.injEq] at h
      obtain ⟨⟨hm, hk⟩, hr'⟩ := h
      refine ⟨s.takeWhile isDigit ++ [], ?_, ?_⟩
      · rw [← hr']
        simp [List.takeWhile_append_dropWhile]
      · rw [← hm, ← hk]
        exact .int _ _ _ hint .none

theorem parseNumber_sound (s r : Bytes) (j : Json) (h : parseNumber s = some (j, r)) :
    ∃ t, s = t ++ r ∧ IsValue t j := by
  have hsc : ∀ (z : Int) (k : Nat), scaled z k 0 = mkRat z (10 ^ k) := by intro z k; simp [scaled]
  unfold parseNumber at h
  split at h
  · split at h
    · rename_i m e r0 hu
      simp only [Option.some.injEq, Prod.mk.injEq] at h
      obtain ⟨t, ht, hu⟩ := parseUnsigned_sound _ _ _ _ hu
      refine ⟨45 :: t, by simp [ht, h.2], ?_⟩
      rw [← h.1, ← hsc]
      exact .neg _ _ _ _ hu
    · cases h
  · split at h
    · rename_i m e r0 hu
      simp only [Option.some.injEq, Prod.mk.injEq] at h
      obtain ⟨t, ht, hu⟩ := parseUnsigned_sound _ _ _ _ hu
      refine ⟨t, by simp [ht, h.2], ?_⟩
      rw [← h.1, ← hsc]
      exact .num _ _ _ _ hu
    · cases h

theorem parse_sound_all (f : Nat) :
    (∀ s j r, parseValue f s = some (j, r) → ∃ t, s = t ++ r ∧ IsValue t j) ∧
    (∀ s js r, parseElems f s = some (js, r) → ∃ x, s = x ++ 93 :: r ∧ IsElems x js) ∧
    (∀ s kvs r, parseMembers f s = some (kvs, r) → ∃ x, s = x ++ 125 :: r ∧ IsMembers x kvs) := by
  induction f with
  | zero => exact ⟨by simp [parseValue], by simp [parseElems], by simp [parseMembers]⟩
  | succ f ih =>
    obtain ⟨ihv, ihe, ihm⟩ := ih
    refine ⟨?_, ?_, ?_⟩
    · intro s j r h
      rw [parseValue.eq_def] at h
      simp only at h
      split at h
      · simp only [Option.some.injEq, Prod.mk.injEq] at h
        obtain ⟨rfl, rfl⟩ := h
        exact ⟨_, rfl, .null⟩
      · simp only [Option.some.injEq, Prod.mk.injEq] at h
        obtain ⟨rfl, rfl⟩ := h
        exact ⟨_, rfl, .true⟩
      · simp only [Option.some.injEq, Prod.mk.injEq] at h
        obtain ⟨rfl, rfl⟩ := h
        exact ⟨_, rfl, .false⟩
      · split at h
        · rename_i r0 v r' hp
          simp only [Option.some.injEq, Prod.mk.injEq] at h
          obtain ⟨rfl, rfl⟩ := h
          obtain ⟨t, ht, hp⟩ := parseStringBody_prefix _ _ _ hp
          exact ⟨34 :: t, by simp [ht], .str _ _ (by simpa [parseJsonString] using hp)⟩
        · cases h
      · simp only [Option.some.injEq, Prod.mk.injEq] at h
        obtain ⟨rfl, rfl⟩ := h
        exact ⟨_, rfl, .arrNil [] ws_nil⟩
      · split at h
        · rename_i vs r' hp
          simp only [Option.some.injEq, Prod.mk.injEq] at h
          obtain ⟨rfl, rfl⟩ := h
          obtain ⟨x, hx, he⟩ := ihe _ _ _ hp
          exact ⟨91 :: x ++ [93], by simp [hx], .arr _ _ he⟩
        · cases h
      · simp only [Option.some.injEq, Prod.mk.injEq] at h
        obtain ⟨rfl, rfl⟩ := h
        exact ⟨_, rfl, .objNil [] ws_nil⟩
      · split at h
        · rename_i vs r' hp
          simp only [Option.some.injEq, Prod.mk.injEq] at h
          obtain ⟨rfl, rfl⟩ := h
          obtain ⟨x, hx, he⟩ := ihm _ _ _ hp
          exact ⟨123 :: x ++ [125], by simp [hx], .obj _ _ he⟩
        · cases h
      · exact parseNumber_sound _ _ _ h
    · intro s js r h
      rw [parseElems] at h
      split at h
      · rename_i v r0 hv
        split at h
        · rename_i vs r' hp
          simp only [Option.some.injEq, Prod.mk.injEq] at h
          obtain ⟨rfl, rfl⟩ := h
          obtain ⟨t, ht, hj⟩ := ihv _ _ _ hv
          obtain ⟨x, hx, he⟩ := ihe _ _ _ hp
          exact ⟨[] ++ t ++ [] ++ 44 :: x, by simp [ht, hx], .more _ _ _ _ _ _ ws_nil hj ws_nil he⟩
        · cases h
      · rename_i v r0 hv
        simp only [Option.some.injEq, Prod.mk.injEq] at h
        obtain ⟨rfl, rfl⟩ := h
        obtain ⟨t, ht, hj⟩ := ihv _ _ _ hv
        exact ⟨[] ++ t ++ [], by simp [ht], .one _ _ _ _ ws_nil hj ws_nil⟩
      · cases h
    · intro s kvs r h
      rw [parseMembers] at h
      split at h
      · rename_i k r0 hk
        obtain ⟨kt, hkt, hkp⟩ := parseJsonString_prefix _ _ _ hk
        split at h
        · rename_i v r1 hv
          split at h
          · rename_i vs r' hp
            simp only [Option.some.injEq, Prod.mk.injEq] at h
            obtain ⟨rfl, rfl⟩ := h
            obtain ⟨t, ht, hj⟩ := ihv _ _ _ hv
            obtain ⟨x, hx, he⟩ := ihm _ _ _ hp
            exact ⟨[] ++ kt ++ [] ++ 58 :: ([] ++ t ++ [] ++ 44 :: x), by simp [hkt, ht, hx],
              .more _ _ _ _ _ _ _ _ _ _ ws_nil hkp ws_nil ws_nil hj ws_nil he⟩
          · cases h
        · rename_i v r1 hv
          simp only [Option.some.injEq, Prod.mk.injEq] at h
          obtain ⟨rfl, rfl⟩ := h
          obtain ⟨t, ht, hj⟩ := ihv _ _ _ hv
          exact ⟨[] ++ kt ++ [] ++ 58 :: ([] ++ t ++ []), by simp [hkt, ht],
            .one _ _ _ _ _ _ _ _ ws_nil hkp ws_nil ws_nil hj ws_nil⟩
        · cases h
      · cases h

/-- What the parser reads is JSON by the grammar of the RFC, with that value. -/
theorem parse_sound (s : Bytes) (j : Json) (h : parseDocument s = some j) : IsJson s j := by
  unfold parseDocument at h
  split at h
  · rename_i j' hp
    injection h with h
    subst h
    obtain ⟨t, ht, hv⟩ := (parse_sound_all _).1 _ _ _ hp
    exact ⟨[], t, [], ws_nil, hv, ws_nil, by simpa using ht⟩
  · cases h

/-! ### Brackets -/

/-- Where a reader of a text is: outside strings, inside, or just after a backslash inside. -/
inductive Pos where
  | out
  | str
  | esc
  deriving DecidableEq, Repr

/-- One byte: the position and the number of unclosed square brackets outside strings. -/
def scan1 (p : Pos × Int) (c : UInt8) : Pos × Int :=
  match p.1 with
  | .out => if c = 34 then (.str, p.2) else if c = 91 then (.out, p.2 + 1) else if c = 93 then (.out, p.2 - 1) else p
  | .str => if c = 34 then (.out, p.2) else if c = 92 then (.esc, p.2) else p
  | .esc => (.str, p.2)

/-- A text. -/
def scan (p : Pos × Int) (s : Bytes) : Pos × Int := s.foldl scan1 p

theorem scan_append (p : Pos × Int) (s t : Bytes) : scan p (s ++ t) = scan (scan p s) t := List.foldl_append ..

theorem scan_cons (p : Pos × Int) (c : UInt8) (t : Bytes) : scan p (c :: t) = scan (scan1 p c) t := rfl

/-- Bytes that are neither quotes nor square brackets do not matter outside strings. -/
theorem scan_plain (d : Int) (s : Bytes) (h : ∀ c ∈ s, c ≠ 34 ∧ c ≠ 91 ∧ c ≠ 93) : scan (.out, d) s = (.out, d) := by
  induction s with
  | nil => rfl
  | cons c s ih =>
    have hc := h c (List.mem_cons_self ..)
    rw [scan_cons]
    have : scan1 (.out, d) c = (.out, d) := by simp [scan1, hc.1, hc.2.1, hc.2.2]
    rw [this]
    exact ih fun c hc => h c (List.mem_cons_of_mem _ hc)

theorem hexVal_plain (c : UInt8) (n : Nat) (h : hexVal c = some n) : c ≠ 34 ∧ c ≠ 92 := by
  constructor
  · intro hc; subst hc; rw [show hexVal 34 = none from by decide] at h; cases h
  · intro hc; subst hc; rw [show hexVal 92 = none from by decide] at h; cases h

theorem hex4_plain (a b c d : UInt8) (n : Nat) (h : hex4 a b c d = some n) :
    (a ≠ 34 ∧ a ≠ 92) ∧ (b ≠ 34 ∧ b ≠ 92) ∧ (c ≠ 34 ∧ c ≠ 92) ∧ (d ≠ 34 ∧ d ≠ 92) := by
  unfold hex4 at h
  cases ha : hexVal a with
  | none => simp [ha] at h
  | some a' =>
    cases hb : hexVal b with
    | none => simp [ha, hb] at h
    | some b' =>
      cases hc : hexVal c with
      | none => simp [ha, hb, hc] at h
      | some c' =>
        cases hd : hexVal d with
        | none => simp [ha, hb, hc, hd] at h
        | some d' => exact ⟨hexVal_plain _ _ ha, hexVal_plain _ _ hb, hexVal_plain _ _ hc, hexVal_plain _ _ hd⟩

theorem scan_str1 (d : Int) (c : UInt8) (h : c ≠ 34 ∧ c ≠ 92) : scan1 (.str, d) c = (.str, d) := by
  simp [scan1, h.1, h.2]

theorem scan_string (d : Int) (s : Bytes) : ∀ v, parseStringBody s = some (v, []) → scan (.str, d) s = (.out, d) := by
  induction s using parseStringBody.induct with
  | case1 => intro v h; simp [parseStringBody] at h
  | case2 r0 =>
    intro v h
    simp only [parseStringBody, Option.some.injEq, Prod.mk.injEq] at h
    rw [h.2]; rfl
  | case3 a b c d r0 hx => intro v h; simp [parseStringBody, hx] at h
  | case4 a b c d r0 n hx hsc hn ih => intro v h; simp [parseStringBody, hx, hsc, hn] at h
  | case5 a b c d' r0 n hx hsc v' r' hn ih =>
    intro v h
    simp only [parseStringBody, hx, hsc, if_true, hn, Option.some.injEq, Prod.mk.injEq] at h
    obtain ⟨ha, hb, hc, hd⟩ := hex4_plain _ _ _ _ _ hx
    rw [h.2] at hn
    simp only [scan_cons]
    have h1 : scan1 (.str, d) 92 = (.esc, d) := rfl
    have h2 : scan1 (.esc, d) 117 = (.str, d) := rfl
    rw [h1, h2, scan_str1 d a ha, scan_str1 d b hb, scan_str1 d c hc, scan_str1 d d' hd]
    exact ih _ hn
  | case6 a b c d r0 n hx hsc => intro v h; simp [parseStringBody, hx, hsc] at h
  | case7 e r0 hne hx =>
    intro v h
    rw [parseStringBody] at h
    · simp [hx] at h
    · exact hne
  | case8 e r0 hne x hx hn ih =>
    intro v h
    rw [parseStringBody] at h
    · simp [hx, hn] at h
    · exact hne
  | case9 e r0 hne x hx v' r' hn ih =>
    intro v h
    rw [parseStringBody] at h
    · simp only [hx, hn, Option.some.injEq, Prod.mk.injEq] at h
      rw [h.2] at hn
      simp only [scan_cons]
      exact ih _ hn
    · exact hne
  | case10 c r0 h34 h1 h2 hlt => intro v h; rw [parseStringBody] at h; simp [hlt] at h; all_goals assumption
  | case11 c r0 h34 h1 h2 hlt hn ih =>
    intro v h
    rw [parseStringBody] at h
    · simp [hn] at h
    all_goals assumption
  | case12 c r0 h34 h1 h2 hlt v' r' hn ih =>
    intro v h
    rw [parseStringBody] at h
    · rw [if_neg hlt] at h
      simp only [hn, Option.some.injEq, Prod.mk.injEq] at h
      rw [h.2] at hn
      rw [scan_cons, scan_str1 d c ⟨h34, fun h => hlt (Or.inr h)⟩]
      exact ih _ hn
    all_goals assumption

theorem scan_token (d : Int) (t v : Bytes) (h : parseJsonString t = some (v, [])) : scan (.out, d) t = (.out, d) := by
  unfold parseJsonString at h
  split at h
  · exact scan_string d _ _ h
  · cases h

theorem scan_ws (d : Int) (w : Bytes) (h : Ws w) : scan (.out, d) w = (.out, d) := by
  apply scan_plain
  intro c hc
  rcases h c hc with h | h | h | h <;> subst h <;> decide

theorem scan_digits (d : Int) (t : Bytes) (h : ∀ c ∈ t, isDigit c = true) : scan (.out, d) t = (.out, d) := by
  apply scan_plain
  intro c hc
  have := h c hc
  refine ⟨?_, ?_, ?_⟩ <;> (intro he; subst he; revert this; decide)

theorem scan_exp (d : Int) (t : Bytes) (e : Int) (h : IsExp t e) : scan (.out, d) t = (.out, d) := by
  have hc : ∀ c : UInt8, c = 101 ∨ c = 69 → scan1 (.out, d) c = (.out, d) := by
    intro c h; rcases h with h | h <;> subst h <;> rfl
  have hp : scan1 (.out, d) 43 = (.out, d) := rfl
  have hm : scan1 (.out, d) 45 = (.out, d) := rfl
  cases h with
  | none => rfl
  | plain e d' he hd => rw [scan_cons, hc e he]; exact scan_digits d _ hd.2
  | plus e d' he hd => rw [scan_cons, scan_cons, hc e he, hp]; exact scan_digits d _ hd.2
  | minus e d' he hd => rw [scan_cons, scan_cons, hc e he, hm]; exact scan_digits d _ hd.2

theorem scan_unsigned (d : Int) (t : Bytes) (m k : Nat) (e : Int) (h : IsUnsigned t m k e) : scan (.out, d) t = (.out, d) := by
  cases h with
  | int ip x e hi hx => rw [scan_append, scan_digits d ip hi.1.2, scan_exp d x e hx]
  | frac ip fr x e hi hf hx =>
    rw [scan_append, scan_append, scan_digits d ip hi.1.2, scan_cons]
    have : scan1 (.out, d) 46 = (.out, d) := rfl
    rw [this, scan_digits d fr hf.2, scan_exp d x e hx]

theorem scan_open (d : Int) : scan1 (.out, d) 91 = (.out, d + 1) := rfl
theorem scan_close (d : Int) : scan (.out, d + 1) [93] = (.out, d) := by
  simp [scan, scan1]
theorem scan_lbrace (d : Int) : scan1 (.out, d) 123 = (.out, d) := rfl
theorem scan_rbrace (d : Int) : scan (.out, d) [125] = (.out, d) := rfl
theorem scan_comma (d : Int) : scan1 (.out, d) 44 = (.out, d) := rfl
theorem scan_colon (d : Int) : scan1 (.out, d) 58 = (.out, d) := rfl

theorem scan_value {t : Bytes} {j : Json} (h : IsValue t j) : ∀ d, scan (.out, d) t = (.out, d) := by
  refine IsValue.rec (motive_1 := fun t _ _ => ∀ d, scan (.out, d) t = (.out, d))
    (motive_2 := fun t _ _ => ∀ d, scan (.out, d) t = (.out, d))
    (motive_3 := fun t _ _ => ∀ d, scan (.out, d) t = (.out, d)) ?_ ?_ ?_ ?_ ?_ ?_ ?_ ?_ ?_ ?_ ?_ ?_ ?_ ?_ h
  · intro d; rfl
  · intro d; rfl
  · intro d; rfl
  · intro t m k e h d; exact scan_unsigned d t m k e h
  · intro t m k e h d
    rw [scan_cons]
    have : scan1 (.out, d) 45 = (.out, d) := rfl
    rw [this]; exact scan_unsigned d t m k e h
  · intro t v h d; exact scan_token d t v h
  · intro w hw d
    rw [List.cons_append, scan_cons, scan_open, scan_append, scan_ws _ w hw, scan_close]
  · intro x js _ ih d
    rw [List.cons_append, scan_cons, scan_open, scan_append, ih, scan_close]
  · intro w hw d
    rw [List.cons_append, scan_cons, scan_lbrace, scan_append, scan_ws _ w hw, scan_rbrace]
  · intro x js _ ih d
    rw [List.cons_append, scan_cons, scan_lbrace, scan_append, ih, scan_rbrace]
  · intro w t w' j hw _ hw' ih d
    rw [scan_append, scan_append, scan_ws d w hw, ih, scan_ws d w' hw']
  · intro w t w' x j js hw _ hw' _ ih ih' d
    rw [scan_append, scan_append, scan_append, scan_ws d w hw, ih, scan_ws d w' hw', scan_cons, scan_comma, ih']
  · intro w k w1 w2 t w' v j hw hk h1 h2 _ hw' ih d
    rw [scan_append, scan_append, scan_append, scan_ws d w hw, scan_token d k v hk, scan_ws d w1 h1, scan_cons, scan_colon,
      scan_append, scan_append, scan_ws d w2 h2, ih, scan_ws d w' hw']
  · intro w k w1 w2 t w' v x j kvs hw hk h1 h2 _ hw' _ ih ih' d
    rw [scan_append, scan_append, scan_append, scan_ws d w hw, scan_token d k v hk, scan_ws d w1 h1, scan_cons, scan_colon,
      scan_append, scan_append, scan_append, scan_ws d w2 h2, ih, scan_ws d w' hw', scan_cons, scan_comma, ih']

/-- In a JSON text as many square brackets are closed as are opened. -/
theorem json_balanced (s : Bytes) (j : Json) (h : IsJson s j) (d : Int) : scan (.out, d) s = (.out, d) := by
  obtain ⟨w, t, w', hw, ht, hw', rfl⟩ := h
  rw [scan_append, scan_append, scan_ws d w hw, scan_value ht, scan_ws d w' hw']

end Verif.Spec
