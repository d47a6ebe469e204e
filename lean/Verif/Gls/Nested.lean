import Verif.Gls.Gls

/-!
# C145: functions with storage that are called and not started as goroutines

Model of calls of functions made by `WithGls` and `WithEmptyGls` (gls/gls.go 54-83) on the goroutine that made them: programs of one goroutine, with `Get`, `Set`,
panics and such calls in one another.
-/

namespace Verif.Gls.Nested

variable {K V : Type} [DecidableEq K]

/-! ### Model -/

/-- What a goroutine does: `Get` and `Set` (gls.go 85-99), a panic, and a call `WithGls(body)()` (with `true`, gls.go 54-73) or `WithEmptyGls(body)()` (gls.go 75-83). -/
inductive Prog (K V : Type) where
  | done
  | get (k : K) (rest : Prog K V)
  | set (k : K) (v : V) (rest : Prog K V)
  | panic
  | call (inherit : Bool) (body rest : Prog K V)

/-- What `Get` has returned so far (gls.go 85-91), whether the goroutine panics, and the state. -/
structure Out (K V : Type) where
  got : List (Option V)
  panics : Bool
  st : St K V

/-- A program on goroutine `g`.  The operations are those of `Verif.Gls.step` (gls.go 25-99).  `DeleteGls` is deferred (gls.go 70 and 80), and so
runs when the body panics, too; `Set` without storage panics (gls.go 95-97).  Simplification: no other goroutine runs in between; what those do to the storage of this one is in
C45. -/
def exec (copy : V → V) (g : Nat) : Prog K V → St K V → Out K V
  | .done, s => ⟨[], false, s⟩
  | .panic, s => ⟨[], true, s⟩
  | .get k rest, s =>
    let r := exec copy g rest s
    { r with got := Gls.get s g k :: r.got }
  | .set k v rest, s => if isGlsEnabled s g then exec copy g rest (step copy s (.set g k v)) else ⟨[], true, s⟩
  | .call inherit body rest, s =>
    let made := step copy s (if inherit then .wrap g else .wrapEmpty)
    let b := exec copy g body (step copy made (.enter g s.wrapped.length))
    let left := step copy b.st (.leave g)
    if b.panics then ⟨b.got, true, left⟩
    else
      let r := exec copy g rest left
      { r with got := b.got ++ r.got }

/-! ### Specification -/

/-- What a caller expects: a body has storage of its own, and afterwards the storage of the caller is as it was. -/
def expected (copy : V → V) : Prog K V → Option (GoMap K V) → List (Option V) × Bool × Option (GoMap K V)
  | .done, m => ([], false, m)
  | .panic, m => ([], true, m)
  | .get k rest, m =>
    let r := expected copy rest m
    ((m.bind (· k)) :: r.1, r.2)
  | .set k v rest, m =>
    match m with
    | none => ([], true, none)
    | some m => expected copy rest (some fun k' => if k' = k then some v else m k')
  | .call inherit body rest, m =>
    let b := expected copy body (some fun k => if inherit then (m.bind (· k)).map copy else none)
    if b.2.1 then (b.1, true, m)
    else
      let r := expected copy rest m
      (b.1 ++ r.1, r.2)

/-- Programs that call such functions only where there is no storage: `inside` tells whether there is. -/
def Flat : Bool → Prog K V → Prop
  | _, .done => True
  | _, .panic => True
  | i, .get _ rest => Flat i rest
  | i, .set _ _ rest => Flat i rest
  | i, .call _ body rest => i = false ∧ Flat true body ∧ Flat i rest

/-! ### Proofs -/

omit [DecidableEq K] in
theorem enabled_iff {s : St K V} {g : Nat} {m : Option (GoMap K V)} (h : (getGls s g).map s.heap = m) : isGlsEnabled s g = m.isSome := by
  subst h; cases hg : getGls s g <;> simp [isGlsEnabled, hg]

omit [DecidableEq K] in
theorem get_eq {s : St K V} {g : Nat} {m : Option (GoMap K V)} (h : (getGls s g).map s.heap = m) (k : K) : Gls.get s g k = m.bind (· k) := by
  subst h; cases hg : getGls s g <;> simp [Gls.get, hg]

/-- A body begins with what was inherited. -/
theorem begin (copy : V → V) (g : Nat) (s : St K V) (inherit : Bool) (m : Option (GoMap K V)) (h : (getGls s g).map s.heap = m) :
    let s' := step copy (step copy s (if inherit then .wrap g else .wrapEmpty)) (.enter g s.wrapped.length)
    (getGls s' g).map s'.heap = some fun k => if inherit then (m.bind (· k)).map copy else none := by
  subst h
  cases inherit with
  | true =>
    simp only [if_true, step, List.getElem?_append_right (Nat.le_refl _), Nat.sub_self, List.getElem?_cons_zero]
    rw [getGls_put, if_pos rfl]
    simp only [Option.map_some, if_true]
    congr 1
    cases getGls s g <;> rfl
  | false =>
    simp only [Bool.false_eq_true, if_false, step, List.getElem?_append_right (Nat.le_refl _), Nat.sub_self, List.getElem?_cons_zero]
    rw [getGls_put, if_pos rfl]
    simp

theorem after_leave (copy : V → V) (s : St K V) (g : Nat) : getGls (step copy s (.leave g)) g = none := by
  show getGls { shards := put s.shards g none, heap := s.heap, next := s.next, wrapped := s.wrapped } g = none
  rw [getGls_put, if_pos rfl]

theorem after_set (copy : V → V) (s : St K V) (g : Nat) (k : K) (v : V) (m : GoMap K V) (h : (getGls s g).map s.heap = some m) :
    (getGls (step copy s (.set g k v)) g).map (step copy s (.set g k v)).heap = some fun k' => if k' = k then some v else m k' := by
  cases hg : getGls s g with
  | none => rw [hg] at h; cases h
  | some r =>
    rw [hg] at h
    injection h with h
    have e : step copy s (.set g k v) = { s with heap := fun r' => if r' = r then assign (s.heap r) k v else s.heap r' } := by simp only [step, hg]
    rw [e]
    show (getGls s g).map _ = _
    rw [hg]
    simp only [Option.map_some, if_true, h]
    rfl

/-- Within a body without such calls, or outside of all bodies. -/
theorem flat (copy : V → V) (g : Nat) : ∀ (p : Prog K V) (s : St K V) (m : Option (GoMap K V)), (getGls s g).map s.heap = m → Flat m.isSome p →
    (exec copy g p s).got = (expected copy p m).1 ∧ (exec copy g p s).panics = (expected copy p m).2.1 ∧
      (getGls (exec copy g p s).st g).map (exec copy g p s).st.heap = (expected copy p m).2.2
  | .done, _, _, h, _ => ⟨rfl, rfl, h⟩
  | .panic, _, _, h, _ => ⟨rfl, rfl, h⟩
  | .get k rest, s, m, h, hf => by
    obtain ⟨h1, h2, h3⟩ := flat copy g rest s m h hf
    refine ⟨?_, h2, h3⟩
    show Gls.get s g k :: (exec copy g rest s).got = _ :: (expected copy rest m).1
    rw [h1, get_eq h]
  | .set k v rest, s, none, h, hf => by
    have he : isGlsEnabled s g = false := enabled_iff h
    have e : exec copy g (.set k v rest) s = ⟨[], true, s⟩ := by simp only [exec, he]; rfl
    rw [e]
    exact ⟨rfl, rfl, h⟩
  | .set k v rest, s, some m, h, hf => by
    have he : isGlsEnabled s g = true := enabled_iff h
    have e : exec copy g (.set k v rest) s = exec copy g rest (step copy s (.set g k v)) := by simp only [exec, he, if_true]
    rw [e]
    exact flat copy g rest _ (some _) (after_set copy s g k v m h) hf
  | .call inherit body rest, s, m, h, hf => by
    obtain ⟨hi, hb, hr⟩ := hf
    obtain ⟨b1, b2, _⟩ := flat copy g body _ _ (begin copy g s inherit m h) hb
    have hm : m = none := by cases m with
      | none => rfl
      | some m => cases hi
    have hl := after_leave copy (exec copy g body (step copy (step copy s (if inherit then .wrap g else .wrapEmpty)) (.enter g s.wrapped.length))).st g
    generalize hB : exec copy g body (step copy (step copy s (if inherit then .wrap g else .wrapEmpty)) (.enter g s.wrapped.length)) = b at *
    have hl' : (getGls (step copy b.st (.leave g)) g).map (step copy b.st (.leave g)).heap = m := by rw [hl, hm]; rfl
    obtain ⟨r1, r2, r3⟩ := flat copy g rest _ m hl' hr
    have e : exec copy g (.call inherit body rest) s = if b.panics then ⟨b.got, true, step copy b.st (.leave g)⟩
        else { exec copy g rest (step copy b.st (.leave g)) with got := b.got ++ (exec copy g rest (step copy b.st (.leave g))).got } := by
      rw [← hB]; rfl
    rw [e]
    simp only [expected]
    rw [← b2]
    by_cases hp : b.panics = true
    · rw [if_pos hp, if_pos hp]
      exact ⟨b1, rfl, hl'⟩
    · rw [if_neg hp, if_neg hp]
      refine ⟨?_, r2, r3⟩
      show b.got ++ _ = _ ++ _
      rw [b1, r1]

/-- C145, for programs that call such functions only where there is no storage: all bodies have storage of their own, and a goroutine that panics or not ends
without any. -/
theorem called_partial (copy : V → V) (g : Nat) (s : St K V) (p : Prog K V) (h : getGls s g = none) (hf : Flat false p) :
    (exec copy g p s).got = (expected copy p none).1 ∧ (exec copy g p s).panics = (expected copy p none).2.1 ∧ getGls (exec copy g p s).st g = none := by
  have h0 : (getGls s g).map s.heap = none := by rw [h]; rfl
  obtain ⟨h1, h2, h3⟩ := flat copy g p s none h0 hf
  refine ⟨h1, h2, ?_⟩
  have : ∀ (p : Prog K V), (expected copy p none).2.2 = none := by
    intro p
    induction p with
    | done => rfl
    | panic => rfl
    | get k rest ih => exact ih
    | set k v rest ih => rfl
    | call i body rest ihb ihr =>
      simp only [expected]
      by_cases hp : (expected copy body (some fun k => if i then ((none : Option (GoMap K V)).bind (· k)).map copy else none)).2.1 = true
      · rw [if_pos hp]
      · rw [if_neg hp]; exact ihr
  rw [this p] at h3
  exact Option.map_eq_none_iff.mp h3

/-- C145 is false in general: whatever storage the caller has, and whatever the body does, once such a function returned or panicked the caller has none: its next
`Get` gives nothing, and its next `Set` panics. -/
theorem storage_gone (copy : V → V) (g : Nat) (s : St K V) (i : Bool) (body : Prog K V) (k : K) (v : V) :
    getGls (exec copy g (.call i body .done) s).st g = none ∧
    ((exec copy g (.call i body .done) s).panics = false →
      (exec copy g (.call i body (.get k .done)) s).got = (exec copy g (.call i body .done) s).got ++ [none] ∧
      (exec copy g (.call i body (.set k v .done)) s).panics = true) := by
  simp only [exec]
  generalize exec copy g body (step copy (step copy s (if i then .wrap g else .wrapEmpty)) (.enter g s.wrapped.length)) = b
  have hl := after_leave copy b.st g
  by_cases hp : b.panics = true
  · simp only [hp, if_true]
    exact ⟨hl, fun h => by cases h⟩
  · simp only [hp, if_false, Bool.false_eq_true]
    refine ⟨hl, fun _ => ⟨?_, ?_⟩⟩
    · simp [Gls.get, hl]
    · simp [isGlsEnabled, hl]

/-! ### Cases -/

/-- A handler that sets a user, calls a function with storage of its own, and asks for the user. -/
def handler : Prog Nat Nat := .call false (.set 1 7 (.call true (.get 1 (.set 1 8 .done)) (.get 1 .done))) .done

/-- What is expected is that the user is still known; it is not. -/
theorem user_lost : (expected id handler none).1 = [some 7, some 7] ∧ (exec id 5 handler start).got = [some 7, none] := by decide

/-- One after the other, the second with a panic. -/
def twice : Prog Nat Nat := .get 1 (.call false (.set 1 7 (.get 1 .done)) (.call true (.get 1 (.set 2 3 .panic)) .done))

example : Flat false twice ∧ getGls (start : St Nat Nat) 5 = none ∧ (expected id twice none).1 = [none, some 7, none] ∧ (expected id twice none).2.1 = true := by
  refine ⟨⟨rfl, trivial, rfl, trivial, trivial⟩, rfl, by decide, by decide⟩

example : (exec id 5 (.call true (.set 1 2 .done) .done) (exec id 5 (.set 1 4 .done) (step id start (.reset 5 fun _ => none))).st : Out Nat Nat).panics = false := by
  decide

end Verif.Gls.Nested
