import Verif.Basic

/-!
# C172: closing and the caller's list of properties

`Close` and `CloseAll` (closer.go) take properties as `...interface{}` and append to them.  A caller that hands over a slice of its own
(`plz.Close(r, properties...)`) shares the array of the slice with them.  Model: the array of the caller, and where the variable `properties`
of the callee points.  Simplification: resources do not use the caller's array themselves, so that only the results of closing them matter.
-/

namespace Verif.CloserArgs

/-! ### Model -/

/-- An element of `properties`: one the caller gave, the key "err", or an error, closer.go:34, 48. -/
inductive Elem where
  | given (n : Nat)
  | errKey
  | err (e : Nat)
  deriving DecidableEq

/-- The variable `properties` of closer.go:29, 41: the first `len` elements of the caller's array, or an array of its own after `append` had to make
one. -/
inductive Var where
  | shared (len : Nat)
  | own (elems : List Elem)
  deriving DecidableEq

/-- The caller's array up to the capacity of the slice it gave, and the variable (closer.go:29, 41). -/
structure State where
  caller : List Elem
  var : Var
  deriving DecidableEq

/-- The elements of `properties`, as handed to countlog, closer.go:35, 49, 56. -/
def State.view (s : State) : List Elem :=
  match s.var with
  | .shared len => s.caller.take len
  | .own elems => elems

/-- `properties = append(properties, "err", err)`, closer.go:34, 48: in place if the capacity suffices. -/
def State.append (s : State) (e : Nat) : State :=
  match s.var with
  | .shared len =>
    if len + 2 ≤ s.caller.length then
      ⟨s.caller.take len ++ [.errKey, .err e] ++ s.caller.drop (len + 2), .shared (len + 2)⟩
    else ⟨s.caller, .own (s.caller.take len ++ [.errKey, .err e])⟩
  | .own elems => ⟨s.caller, .own (elems ++ [.errKey, .err e])⟩

/-- What is logged: level and properties, closer.go:35, 49, 56. -/
inductive Event where
  | error (properties : List Elem)
  | debug (properties : List Elem)
  deriving DecidableEq

/-- The loop of `CloseAll`, closer.go:43-52, for what the resources return. -/
def closeLoop : List (Option Nat) → State → List Event → State × List Event
  | [], s, log => (s, log)
  | none :: rs, s, log => closeLoop rs s log
  | some e :: rs, s, log => closeLoop rs (s.append e) (log ++ [.error (s.append e).view])

/-- `CloseAll`, closer.go:41-59, called with the first `len` elements of the array. -/
def closeAll (rs : List (Option Nat)) (caller : List Elem) (len : Nat) : List Elem × List Event :=
  let r := closeLoop rs ⟨caller, .shared len⟩ []
  if rs.filterMap id = [] ∧ r.1.view.length > 0 then (r.1.caller, r.2 ++ [.debug r.1.view]) else (r.1.caller, r.2)

/-- `Close`, closer.go:29-39. -/
def close (r : Option Nat) (caller : List Elem) (len : Nat) : List Elem × List Event :=
  match r with
  | none => (caller, [])
  | some e => let s := State.append ⟨caller, .shared len⟩ e; (s.caller, [.error s.view])

/-! ### Proofs -/

theorem own_caller (rs : List (Option Nat)) : ∀ (caller elems : List Elem) (log : List Event),
    (closeLoop rs ⟨caller, .own elems⟩ log).1.caller = caller := by
  induction rs with
  | nil => intros; rfl
  | cons r rs ih =>
    intro caller elems log
    cases r with
    | none => rw [closeLoop]; exact ih ..
    | some e => rw [closeLoop, State.append]; exact ih ..

theorem append_get (caller : List Elem) (len e i : Nat) (h : len + 2 ≤ caller.length) :
    (caller.take len ++ [Elem.errKey, .err e] ++ caller.drop (len + 2))[i]? =
      if i = len then some .errKey else if i = len + 1 then some (.err e) else caller[i]? := by
  have hl : (caller.take len).length = len := by rw [List.length_take]; omega
  by_cases h1 : i < len
  · rw [if_neg (by omega), if_neg (by omega), List.append_assoc, List.getElem?_append_left (by omega), List.getElem?_take_of_lt h1]
  · rw [List.append_assoc, List.getElem?_append_right (by omega), hl]
    by_cases h2 : i = len
    · subst h2; simp
    · by_cases h3 : i = len + 1
      · subst h3; simp
      · rw [if_neg h2, if_neg h3, List.getElem?_append_right (by simp; omega), List.getElem?_drop]
        congr 1
        simp only [List.length_cons, List.length_nil]
        omega

/-- What the array holds at an index after the errors have been appended to its first `len` elements: pairs as far as they fit. -/
def after (caller : List Elem) (len : Nat) (errs : List Nat) (i : Nat) : Option Elem :=
  if i < len ∨ 2 * min errs.length ((caller.length - len) / 2) ≤ i - len then caller[i]?
  else if (i - len) % 2 = 0 then some .errKey else (errs[(i - len) / 2]?).map .err

theorem loop_caller (rs : List (Option Nat)) : ∀ (caller : List Elem) (len : Nat) (log : List Event), len ≤ caller.length →
    (closeLoop rs ⟨caller, .shared len⟩ log).1.caller.length = caller.length ∧
    ∀ i, (closeLoop rs ⟨caller, .shared len⟩ log).1.caller[i]? = after caller len (rs.filterMap id) i := by
  induction rs with
  | nil =>
    intro caller len log h
    refine ⟨rfl, fun i => ?_⟩
    simp [closeLoop, after]
  | cons r rs ih =>
    intro caller len log h
    cases r with
    | none =>
      rw [closeLoop]
      simpa using ih caller len log h
    | some e =>
      rw [closeLoop]
      have hf : (some e :: rs).filterMap id = e :: rs.filterMap id := rfl
      rw [hf]
      by_cases hc : len + 2 ≤ caller.length
      · have ha : State.append ⟨caller, .shared len⟩ e =
            ⟨caller.take len ++ [.errKey, .err e] ++ caller.drop (len + 2), .shared (len + 2)⟩ := by
          simp only [State.append]
          rw [if_pos hc]
        rw [ha]
        have hl : (caller.take len ++ [Elem.errKey, .err e] ++ caller.drop (len + 2)).length = caller.length := by
          simp only [List.length_append, List.length_take, List.length_cons, List.length_nil, List.length_drop]
          omega
        obtain ⟨h1, h2⟩ := ih (caller.take len ++ [.errKey, .err e] ++ caller.drop (len + 2)) (len + 2)
          (log ++ [.error (State.view ⟨caller.take len ++ [.errKey, .err e] ++ caller.drop (len + 2), .shared (len + 2)⟩)]) (by omega)
        refine ⟨h1.trans hl, fun i => ?_⟩
        rw [h2 i]
        unfold after
        rw [hl, append_get caller len e i hc]
        simp only [List.length_cons]
        by_cases i1 : i < len
        · rw [if_pos (by omega), if_neg (by omega), if_neg (by omega), if_pos (by omega)]
        · by_cases i2 : i = len
          · subst i2
            rw [if_pos (by omega), if_pos rfl, if_neg (by omega), if_pos (by omega)]
          · by_cases i3 : i = len + 1
            · subst i3
              rw [if_pos (by omega), if_neg (by omega), if_pos rfl, if_neg (by omega), if_neg (by omega)]
              have : (len + 1 - len) / 2 = 0 := by omega
              rw [this]
              rfl
            · rw [if_neg i2, if_neg i3]
              have hd : (i - len) / 2 = (i - (len + 2)) / 2 + 1 := by omega
              have hm : (i - len) % 2 = (i - (len + 2)) % 2 := by omega
              rw [hm, hd, List.getElem?_cons_succ]
              by_cases hx : 2 * min (rs.filterMap id).length ((caller.length - (len + 2)) / 2) ≤ i - (len + 2)
              · rw [if_pos (.inr hx), if_pos (by omega)]
              · have c1 : ¬ (i < len + 2 ∨ 2 * min (rs.filterMap id).length ((caller.length - (len + 2)) / 2) ≤ i - (len + 2)) := by omega
                have c2 : ¬ (i < len ∨ 2 * min ((rs.filterMap id).length + 1) ((caller.length - len) / 2) ≤ i - len) := by omega
                rw [if_neg c1, if_neg c2]
      · have ha : State.append ⟨caller, .shared len⟩ e = ⟨caller, .own (caller.take len ++ [.errKey, .err e])⟩ := by
          simp only [State.append]
          rw [if_neg hc]
        rw [ha, own_caller]
        refine ⟨rfl, fun i => ?_⟩
        unfold after
        rw [if_pos (by omega)]

theorem closeAll_caller (rs : List (Option Nat)) (caller : List Elem) (len : Nat) :
    (closeAll rs caller len).1 = (closeLoop rs ⟨caller, .shared len⟩ []).1.caller := by
  simp only [closeAll]
  split <;> rfl

/-- C172: what `CloseAll` does to the array of the caller, exactly: the elements given stay, and each of the errors is written with its key behind them, one
after the other, as long as two elements are left up to the capacity. -/
theorem closeAll_array (rs : List (Option Nat)) (caller : List Elem) (len : Nat) (h : len ≤ caller.length) :
    (closeAll rs caller len).1.length = caller.length ∧
    ∀ i, (closeAll rs caller len).1[i]? = after caller len (rs.filterMap id) i := by
  rw [closeAll_caller]
  exact loop_caller rs caller len [] h

/-- C172, partial: the elements the caller gave are never changed; nothing of the array is if all resources close, or if there is no room for two
elements behind them, as when the properties are listed in the call. -/
theorem caller_kept_partial (rs : List (Option Nat)) (caller : List Elem) (len : Nat) (h : len ≤ caller.length) :
    (closeAll rs caller len).1.take len = caller.take len ∧
    ((∀ r ∈ rs, r = none) ∨ caller.length < len + 2 → (closeAll rs caller len).1 = caller) := by
  obtain ⟨_, h2⟩ := closeAll_array rs caller len h
  constructor
  · apply List.ext_getElem?
    intro i
    by_cases hi : i < len
    · rw [List.getElem?_take_of_lt hi, List.getElem?_take_of_lt hi, h2 i, after, if_pos (.inl hi)]
    · rw [List.getElem?_take_eq_none (by omega), List.getElem?_take_eq_none (by omega)]
  · intro hx
    apply List.ext_getElem?
    intro i
    rw [h2 i, after, if_pos]
    rcases hx with hx | hx
    · have : rs.filterMap id = [] := by
        rw [List.filterMap_eq_nil_iff]
        intro a ha
        rw [hx a ha]
        rfl
      rw [this]
      right; simp
    · right
      have : (caller.length - len) / 2 = 0 := by omega
      rw [this]; simp

/-- C172 fails: if a resource does not close and the slice has room for two more elements, `Close` overwrites them. -/
theorem close_overwrites (e : Nat) (given rest : List Elem) (x y : Elem) :
    close (some e) (given ++ x :: y :: rest) given.length =
      (given ++ .errKey :: .err e :: rest, [.error (given ++ [.errKey, .err e])]) := by
  have hl : given.length + 2 ≤ (given ++ x :: y :: rest).length := by simp
  simp only [close, State.append]
  rw [if_pos hl]
  have h1 : given.take (given.length + 2) = given := List.take_of_length_le (Nat.le_add_right _ _)
  have h2 : given.drop (given.length + 2) = [] := List.drop_of_length_le (Nat.le_add_right _ _)
  simp [State.view, List.take_append, List.drop_append, h1, h2]

/-- C172, partial: a `Close` that succeeds, or of a slice without room, leaves the array alone. -/
theorem close_kept_partial (r : Option Nat) (caller : List Elem) (len : Nat) (h : r = none ∨ caller.length < len + 2) :
    (close r caller len).1 = caller := by
  cases r with
  | none => rfl
  | some e =>
    rcases h with h | h
    · cases h
    · simp only [close, State.append]
      rw [if_neg (by omega)]

/-- C172 fails: an event that a sink keeps is changed by the next `Close` that is given the same slice: the properties logged first, which are the first elements of
the same array, then tell the second error. -/
theorem kept_event_changes (e1 e2 : Nat) (given rest : List Elem) (x y : Elem) :
    let one := close (some e1) (given ++ x :: y :: rest) given.length
    let two := close (some e2) one.1 given.length
    one.2 = [.error (one.1.take (given.length + 2))] ∧ one.1.take (given.length + 2) = given ++ [.errKey, .err e1] ∧
    two.1.take (given.length + 2) = given ++ [.errKey, .err e2] := by
  intro one two
  have h1 : one = _ := close_overwrites e1 given rest x y
  have h2 : two = (given ++ .errKey :: .err e2 :: rest, [.error (given ++ [.errKey, .err e2])]) := by
    show close (some e2) one.1 given.length = _
    rw [h1]
    exact close_overwrites e2 given rest .errKey (.err e1)
  have ht : ∀ e, (given ++ Elem.errKey :: .err e :: rest).take (given.length + 2) = given ++ [.errKey, .err e] := by
    intro e; simp [List.take_append, List.take_of_length_le (Nat.le_add_right given.length 2)]
  rw [h1, h2]
  exact ⟨by rw [ht], ht e1, ht e2⟩

theorem append_view (s : State) (e : Nat) (h : ∀ len, s.var = .shared len → len ≤ s.caller.length) :
    (s.append e).view = s.view ++ [.errKey, .err e] ∧ ∀ len, (s.append e).var = .shared len → len ≤ (s.append e).caller.length := by
  obtain ⟨caller, var⟩ := s
  cases var with
  | own elems => exact ⟨rfl, fun len hl => by simp [State.append] at hl⟩
  | shared len =>
    have hl := h len rfl
    simp only at hl
    simp only [State.append]
    by_cases hc : len + 2 ≤ caller.length
    · rw [if_pos hc]
      have ht : (caller.take len).length = len := by rw [List.length_take]; omega
      refine ⟨?_, fun l hl' => ?_⟩
      · simp only [State.view]
        rw [List.take_append_of_le_length (by simp; omega), List.take_of_length_le (by simp; omega)]
      · simp only [Var.shared.injEq] at hl'
        simp only [List.length_append, List.length_take, List.length_cons, List.length_nil, List.length_drop]
        omega
    · rw [if_neg hc]
      exact ⟨rfl, fun l hl' => by simp at hl'⟩

/-- The pairs of key and value appended for some errors. -/
def pairs (errs : List Nat) : List Elem := errs.flatMap fun e => [.errKey, .err e]

theorem loop_log (rs : List (Option Nat)) : ∀ (s : State) (log : List Event), (∀ len, s.var = .shared len → len ≤ s.caller.length) →
    (closeLoop rs s log).2 = log ++ (List.range (rs.filterMap id).length).map fun k =>
      Event.error (s.view ++ pairs ((rs.filterMap id).take (k + 1))) := by
  induction rs with
  | nil => intro s log _; simp [closeLoop]
  | cons r rs ih =>
    intro s log h
    cases r with
    | none => rw [closeLoop]; simpa using ih s log h
    | some e =>
      obtain ⟨hv, hn⟩ := append_view s e h
      rw [closeLoop, ih _ _ hn, hv]
      have hf : (some e :: rs).filterMap id = e :: rs.filterMap id := rfl
      rw [hf]
      simp [List.range_succ_eq_map, List.map_map, Function.comp_def, pairs]

/-- C75, where the properties are a slice of the caller, with or without room: at the time of logging each event has the properties given and the
errors so far, whatever lay behind the slice. -/
theorem closeAll_events (rs : List (Option Nat)) (caller : List Elem) (len : Nat) (h : len ≤ caller.length) (hf : rs.filterMap id ≠ []) :
    (closeAll rs caller len).2 = (List.range (rs.filterMap id).length).map fun k =>
      Event.error (caller.take len ++ pairs ((rs.filterMap id).take (k + 1))) := by
  unfold closeAll
  simp only
  rw [if_neg (fun h => hf h.1), loop_log rs ⟨caller, .shared len⟩ [] (by intro l hl; cases hl; exact h)]
  rfl

/-! ### Cases -/

/-- Two of five elements given; the second and the third resource fail: one pair fits, and the second pair goes to a new array. -/
example : closeAll [none, some 7, some 8] [.given 1, .given 2, .given 3, .given 4, .given 5] 2 =
    ([.given 1, .given 2, .errKey, .err 7, .given 5],
      [.error [.given 1, .given 2, .errKey, .err 7], .error [.given 1, .given 2, .errKey, .err 7, .errKey, .err 8]]) := by decide
example : [none, some 7, some 8].filterMap id ≠ ([] : List Nat) := by decide
/-- All close: a debug event, and nothing changes. -/
example : closeAll [none, none] [.given 1, .given 2, .given 3, .given 4] 2 =
    ([.given 1, .given 2, .given 3, .given 4], [.debug [.given 1, .given 2]]) := by decide
example : (close (some 7) [.given 1, .given 2] 2).1 = [.given 1, .given 2] := close_kept_partial _ _ _ (.inr (by decide))

end Verif.CloserArgs
