import Verif.Basic

/-!
# C85: one `Type` object per type

Model of `frozenConfig.TypeOf` and `Type2` (reflect2/reflect2.go:143-161) called by any number of goroutines.  Each access to
the `concurrent.Map` is one step (it is linearizable: C47), as is `wrapType`, which makes a new object.
-/

namespace Verif.Reflect2.Cache

/-! ### Model -/

/-- A `Type` object: which one it is (its address) and the type it was made for (reflect2.go:163-205). -/
structure Obj where
  id : Nat
  rtype : Nat
  deriving DecidableEq

/-- Where a call of `TypeOf` or `Type2` for a type stands, reflect2.go:143-161. -/
inductive Pc where
  /-- called; `typeOf` calls look into the cache once more than `Type2` calls, at 145 -/
  | start (typeOf : Bool) (r : Nat)
  /-- nothing was found at 154 -/
  | missed (r : Nat)
  /-- `wrapType` has returned, 158 -/
  | wrapped (r : Nat) (o : Obj)
  /-- returned -/
  | done (r : Nat) (o : Obj)

/-- The cache, the calls by number, and the number of objects made so far (reflect2.go:131-134). -/
structure St where
  cache : Nat → Option Obj
  pcs : List Pc
  made : Nat

/-- At first: nothing cached and nothing called (`Config.Froze`, reflect2.go:136-141). -/
def init : St := ⟨fun _ => none, [], 0⟩

/-- What can happen: a new call, or call `i` goes on (reflect2.go:143-161). -/
inductive Ev where
  | call (typeOf : Bool) (r : Nat)
  | go (i : Nat)

/-- The next step of a call, with the cache and the counter: reflect2.go:145-149 and 154-160. -/
def stepPc (s : St) : Pc → Option (Pc × (Nat → Option Obj) × Nat)
  | .start b r =>
    match s.cache r with
    | some o => some (.done r o, s.cache, s.made)
    | none => if b then some (.start false r, s.cache, s.made) else some (.missed r, s.cache, s.made)
  | .missed r => some (.wrapped r ⟨s.made, r⟩, s.cache, s.made + 1)
  | .wrapped r o => some (.done r o, fun r' => if r' = r then some o else s.cache r', s.made)
  | .done _ _ => none

/-- One event (the calls of `TypeOf` and `Type2`, reflect2.go:143-161). -/
def step (s : St) : Ev → Option St
  | .call b r => some { s with pcs := s.pcs ++ [.start b r] }
  | .go i =>
    match s.pcs[i]? with
    | none => none
    | some pc => (stepPc s pc).map fun x => ⟨x.2.1, s.pcs.set i x.1, x.2.2⟩

/-- Events one after another (reflect2.go:143-161). -/
def run (s : St) : List Ev → Option St
  | [] => some s
  | e :: es => (step s e).bind fun s' => run s' es

/-! ### Specification -/

/-- Call `i` was for the type `r` and returned `o`. -/
def Returned (s : St) (i r : Nat) (o : Obj) : Prop := s.pcs[i]? = some (.done r o)

/-- No call for the type is between looking it up and storing it. -/
def Quiet (s : St) (r : Nat) : Prop := ∀ pc ∈ s.pcs, pc ≠ .missed r ∧ ∀ o, pc ≠ .wrapped r o

/-! ### Proofs -/

/-- The objects a call holds. -/
def holds : Pc → Option (Nat × Obj)
  | .start _ _ => none
  | .missed _ => none
  | .wrapped r o => some (r, o)
  | .done r o => some (r, o)

/-- Every object about is for the type it is filed under, and was made. -/
structure Inv (s : St) : Prop where
  cache : ∀ r o, s.cache r = some o → o.rtype = r ∧ o.id < s.made
  pcs : ∀ pc ∈ s.pcs, ∀ r o, holds pc = some (r, o) → o.rtype = r ∧ o.id < s.made

theorem mem_set {α : Type} (l : List α) (i : Nat) (x y : α) (h : y ∈ l.set i x) : y = x ∨ y ∈ l := by
  rcases List.mem_or_eq_of_mem_set h with h | h
  · exact .inr h
  · exact .inl h

theorem inv_step (s s' : St) (e : Ev) (h : Inv s) (hs : step s e = some s') : Inv s' := by
  cases e with
  | call b r =>
    cases hs
    refine ⟨h.cache, ?_⟩
    intro pc hp r' o ho
    rcases List.mem_append.mp hp with hp | hp
    · exact h.pcs pc hp r' o ho
    · rw [List.mem_singleton] at hp; subst hp; cases ho
  | go i =>
    simp only [step] at hs
    cases hpc : s.pcs[i]? with
    | none => rw [hpc] at hs; cases hs
    | some pc =>
      rw [hpc] at hs
      have hmem := List.mem_of_getElem? hpc
      cases pc with
      | start b r =>
        simp only [stepPc] at hs
        cases hc : s.cache r with
        | some o =>
          rw [hc] at hs
          cases hs
          refine ⟨h.cache, ?_⟩
          intro pc hp r' o' ho
          rcases mem_set _ _ _ _ hp with rfl | hp
          · cases ho; exact h.cache r o hc
          · exact h.pcs pc hp r' o' ho
        | none =>
          rw [hc] at hs
          cases b <;> cases hs <;> refine ⟨h.cache, ?_⟩ <;> intro pc hp r' o' ho <;>
            rcases mem_set _ _ _ _ hp with rfl | hp
          · cases ho
          · exact h.pcs pc hp r' o' ho
          · cases ho
          · exact h.pcs pc hp r' o' ho
      | missed r =>
        cases hs
        refine ⟨fun r' o ho => ⟨(h.cache r' o ho).1, Nat.lt_succ_of_lt (h.cache r' o ho).2⟩, ?_⟩
        intro pc hp r' o' ho
        rcases mem_set _ _ _ _ hp with rfl | hp
        · cases ho; exact ⟨rfl, Nat.lt_succ_self _⟩
        · exact ⟨(h.pcs pc hp r' o' ho).1, Nat.lt_succ_of_lt (h.pcs pc hp r' o' ho).2⟩
      | wrapped r o =>
        cases hs
        refine ⟨?_, ?_⟩
        · intro r' o' ho
          simp only at ho
          split at ho
          · rename_i e
            cases ho
            rw [e]
            exact h.pcs _ hmem r o rfl
          · exact h.cache r' o' ho
        · intro pc hp r' o' ho
          rcases mem_set _ _ _ _ hp with rfl | hp
          · cases ho; exact h.pcs _ hmem r o rfl
          · exact h.pcs pc hp r' o' ho
      | done r o => cases hs

theorem inv_run : ∀ (es : List Ev) (s s' : St), Inv s → run s es = some s' → Inv s' := by
  intro es
  induction es with
  | nil => intro s s' h hr; cases hr; exact h
  | cons e es ih =>
    intro s s' h hr
    rw [run] at hr
    cases hs : step s e with
    | none => rw [hs] at hr; cases hr
    | some s1 => rw [hs] at hr; exact ih s1 s' (inv_step s s1 e h hs) hr

theorem inv_init : Inv init := ⟨(fun _ _ h => nomatch h), (fun _ h => nomatch h)⟩

/-- C85: in all interleavings what `TypeOf` and `Type2` return describes the type asked for. -/
theorem typeOf_describes (es : List Ev) (s : St) (h : run init es = some s) (i r : Nat) (o : Obj) (hr : Returned s i r o) :
    o.rtype = r :=
  ((inv_run es init s inv_init h).pcs _ (List.mem_of_getElem? hr) r o rfl).1

/-- Once a type is in the cache with no call for it under way, the entry stays and later calls return it. -/
structure Fixed (n r : Nat) (o : Obj) (s : St) : Prop where
  cache : s.cache r = some o
  quiet : Quiet s r
  later : ∀ i, n ≤ i → ∀ o', Returned s i r o' → o' = o

theorem fixed_step (n r : Nat) (o : Obj) (s s' : St) (e : Ev) (hn : n ≤ s.pcs.length) (h : Fixed n r o s) (hs : step s e = some s') :
    Fixed n r o s' ∧ n ≤ s'.pcs.length := by
  cases e with
  | call b r' =>
    cases hs
    refine ⟨⟨h.cache, ?_, ?_⟩, by rw [List.length_append]; omega⟩
    · intro pc hp
      rcases List.mem_append.mp hp with hp | hp
      · exact h.quiet pc hp
      · rw [List.mem_singleton] at hp; subst hp; exact ⟨nofun, nofun⟩
    · intro i hi o' hr
      unfold Returned at hr
      simp only [List.getElem?_append] at hr
      split at hr
      · exact h.later i hi o' hr
      · rw [List.getElem?_singleton] at hr
        split at hr <;> cases hr
  | go i =>
    simp only [step] at hs
    cases hpc : s.pcs[i]? with
    | none => rw [hpc] at hs; cases hs
    | some pc =>
      rw [hpc] at hs
      have hmem := List.mem_of_getElem? hpc
      have hi : i < s.pcs.length := (List.getElem?_eq_some_iff.mp hpc).1
      have hq := h.quiet pc hmem
      -- the new program counter is quiet, and an object returned for `r` is the cached one
      have key : ∀ x, stepPc s pc = some x → (x.1 ≠ .missed r ∧ ∀ o', x.1 ≠ .wrapped r o') ∧ x.2.1 r = some o ∧
          ∀ o', x.1 = .done r o' → o' = o := by
        intro x hx
        cases pc with
        | start b r' =>
          simp only [stepPc] at hx
          cases hc : s.cache r' with
          | some o1 =>
            rw [hc] at hx
            cases hx
            refine ⟨⟨nofun, nofun⟩, h.cache, ?_⟩
            intro o' e
            cases e
            rw [h.cache] at hc
            cases hc; rfl
          | none =>
            have hne : r' ≠ r := by rintro rfl; rw [h.cache] at hc; cases hc
            rw [hc] at hx
            cases b <;> cases hx
            · refine ⟨⟨fun e => ?_, nofun⟩, h.cache, nofun⟩
              cases e; exact hne rfl
            · exact ⟨⟨nofun, nofun⟩, h.cache, nofun⟩
        | missed r' =>
          cases hx
          refine ⟨⟨nofun, fun o' e => ?_⟩, h.cache, nofun⟩
          cases e
          exact hq.1 rfl
        | wrapped r' o1 =>
          have hne : r' ≠ r := by rintro rfl; exact hq.2 o1 rfl
          cases hx
          refine ⟨⟨nofun, nofun⟩, ?_, ?_⟩
          · simp only
            rw [if_neg (Ne.symm hne)]
            exact h.cache
          · intro o' e
            cases e
            exact absurd rfl hne
        | done r' o1 => cases hx
      cases hx : stepPc s pc with
      | none => simp only [hx] at hs; cases hs
      | some x =>
        simp only [hx] at hs
        cases hs
        obtain ⟨k1, k2, k3⟩ := key x hx
        refine ⟨⟨k2, ?_, ?_⟩, by rw [List.length_set]; exact hn⟩
        · intro pc' hp
          rcases mem_set _ _ _ _ hp with rfl | hp
          · exact k1
          · exact h.quiet pc' hp
        · intro j hj o' hr
          unfold Returned at hr
          simp only at hr
          rw [List.getElem?_set] at hr
          split at hr
          · exact k3 o' (by injection hr)
          · exact h.later j hj o' hr

theorem fixed_run (n r : Nat) (o : Obj) : ∀ (es : List Ev) (s s' : St), n ≤ s.pcs.length → Fixed n r o s → run s es = some s' →
    Fixed n r o s' := by
  intro es
  induction es with
  | nil => intro s s' _ h hr; cases hr; exact h
  | cons e es ih =>
    intro s s' hn h hr
    rw [run] at hr
    cases hs : step s e with
    | none => rw [hs] at hr; cases hr
    | some s1 =>
      rw [hs] at hr
      obtain ⟨h1, hn1⟩ := fixed_step n r o s s1 e hn h hs
      exact ih s1 s' hn1 h1 hr

/-- What has returned stays returned. -/
theorem returned_run : ∀ (es : List Ev) (s s' : St), run s es = some s' → ∀ i r o, Returned s i r o → Returned s' i r o := by
  intro es
  induction es with
  | nil => intro s s' hr; cases hr; exact fun _ _ _ h => h
  | cons e es ih =>
    intro s s' hr i r o h
    rw [run] at hr
    cases hs : step s e with
    | none => rw [hs] at hr; cases hr
    | some s1 =>
      rw [hs] at hr
      refine ih s1 s' hr i r o ?_
      unfold Returned at h ⊢
      cases e with
      | call b r' =>
        cases hs
        simp only
        rw [List.getElem?_append_left (List.getElem?_eq_some_iff.mp h).1]
        exact h
      | go j =>
        simp only [step] at hs
        cases hpc : s.pcs[j]? with
        | none => rw [hpc] at hs; cases hs
        | some pc =>
          rw [hpc] at hs
          cases hx : stepPc s pc with
          | none => simp only [hx] at hs; cases hs
          | some x =>
            simp only [hx] at hs
            cases hs
            simp only
            rw [List.getElem?_set]
            split
            · rename_i e
              subst e
              rw [hpc] at h
              cases h
              cases hx
            · exact h

/-- The cache has an object for a type once any call for it has returned. -/
theorem cached_of_returned : ∀ (es : List Ev) (s s' : St), (∀ i r o, Returned s i r o → (s.cache r).isSome) → run s es = some s' →
    ∀ i r o, Returned s' i r o → (s'.cache r).isSome := by
  intro es
  induction es with
  | nil => intro s s' h hr; cases hr; exact h
  | cons e es ih =>
    intro s s' h hr
    rw [run] at hr
    cases hs : step s e with
    | none => rw [hs] at hr; cases hr
    | some s1 =>
      rw [hs] at hr
      refine ih s1 s' ?_ hr
      intro i r o hret
      unfold Returned at hret
      cases e with
      | call b r' =>
        cases hs
        simp only [List.getElem?_append] at hret
        split at hret
        · exact h i r o hret
        · rw [List.getElem?_singleton] at hret
          split at hret <;> cases hret
      | go j =>
        simp only [step] at hs
        cases hpc : s.pcs[j]? with
        | none => rw [hpc] at hs; cases hs
        | some pc =>
          rw [hpc] at hs
          -- the cache only grows
          have key : ∀ x, stepPc s pc = some x → (∀ r, (s.cache r).isSome → (x.2.1 r).isSome) ∧
              ∀ r o, x.1 = .done r o → (x.2.1 r).isSome := by
            intro x hx
            cases pc with
            | start b r' =>
              simp only [stepPc] at hx
              cases hc : s.cache r' with
              | some o1 =>
                rw [hc] at hx
                cases hx
                refine ⟨fun _ h => h, fun r o e => ?_⟩
                cases e
                simp [hc]
              | none =>
                rw [hc] at hx
                cases b <;> cases hx <;> exact ⟨fun _ h => h, nofun⟩
            | missed r' => cases hx; exact ⟨fun _ h => h, nofun⟩
            | wrapped r' o1 =>
              cases hx
              refine ⟨fun r h => ?_, fun r o e => ?_⟩
              · simp only
                split
                · rfl
                · exact h
              · cases e; simp
            | done r' o1 => cases hx
          cases hx : stepPc s pc with
          | none => simp only [hx] at hs; cases hs
          | some x =>
            simp only [hx] at hs
            cases hs
            obtain ⟨k1, k2⟩ := key x hx
            simp only at hret ⊢
            rw [List.getElem?_set] at hret
            split at hret
            · split at hret
              · exact k2 r o (by injection hret)
              · cases hret
            · exact k1 r (h i r o hret)

/-- C85, partial: once a call for a type has returned and no call for it is under way, all calls made later return one and the
same object, in all interleavings.  Missing: that it is the object returned before, and calls at the same time (`different_objects`). -/
theorem typeOf_same_partial (es es' : List Ev) (s s' : St) (h : run init es = some s) (r i0 : Nat) (o0 : Obj)
    (hret : Returned s i0 r o0) (hq : Quiet s r) (h' : run s es' = some s') (i j : Nat) (hi : s.pcs.length ≤ i) (hj : s.pcs.length ≤ j)
    (o1 o2 : Obj) (h1 : Returned s' i r o1) (h2 : Returned s' j r o2) : o1 = o2 := by
  have hc := cached_of_returned es init s (fun i r o h => by simp [Returned, init] at h) h i0 r o0 hret
  obtain ⟨o, ho⟩ := Option.isSome_iff_exists.mp hc
  have hf : Fixed s.pcs.length r o s := by
    refine ⟨ho, hq, ?_⟩
    intro i hi o' hr
    unfold Returned at hr
    rw [List.getElem?_eq_none hi] at hr
    cases hr
  have := fixed_run _ r o es' s s' (Nat.le_refl _) hf h'
  rw [this.later i hi o1 h1, this.later j hj o2 h2]

/-- C85, partial: if the first call for a type runs alone, all later calls return the object it returned, in all
interleavings. -/
theorem typeOf_alone_partial (b : Bool) (es : List Ev) (s : St) (h : run init es = some s) (r : Nat) (hc : s.cache r = none)
    (hq : Quiet s r) : ∃ es1 s1 o, run s (.call b r :: es1) = some s1 ∧ (∀ e ∈ es1, e = .go s.pcs.length) ∧
      Returned s1 s.pcs.length r o ∧ ∀ es2 s2, run s1 es2 = some s2 → ∀ i, s.pcs.length ≤ i → ∀ o', Returned s2 i r o' → o' = o := by
  have _ := h
  let n := s.pcs.length
  let o : Obj := ⟨s.made, r⟩
  let s1 : St := ⟨fun r' => if r' = r then some o else s.cache r', s.pcs ++ [.done r o], s.made + 1⟩
  have tail : ∀ (x : Pc) (c : Nat → Option Obj) (m : Nat), (⟨c, (s.pcs ++ [x]).set n (.start false r), m⟩ : St) = ⟨c, s.pcs ++ [.start false r], m⟩ := by
    intro x c m
    simp [n]
  have goes : run ⟨s.cache, s.pcs ++ [.start false r], s.made⟩ [.go n, .go n, .go n] = some s1 := by
    simp [run, step, stepPc, hc, n, s1, o]
  have hf : Fixed n r o s1 := by
    refine ⟨by simp [s1], ?_, ?_⟩
    · intro pc hp
      rcases List.mem_append.mp hp with hp | hp
      · exact hq pc hp
      · rw [List.mem_singleton] at hp; subst hp; exact ⟨nofun, nofun⟩
    · intro i hi o' hr
      unfold Returned at hr
      simp only [s1] at hr
      rw [List.getElem?_append_right hi, List.getElem?_singleton] at hr
      split at hr
      · cases hr; rfl
      · cases hr
  have rest : ∀ es2 s2, run s1 es2 = some s2 → ∀ i, n ≤ i → ∀ o', Returned s2 i r o' → o' = o := by
    intro es2 s2 hr
    exact (fixed_run n r o es2 s1 s2 (by simp [s1, n]) hf hr).later
  have ret : Returned s1 n r o := by
    simp [Returned, s1, n]
  cases b with
  | false =>
    refine ⟨[.go n, .go n, .go n], s1, o, ?_, by simp [n], ret, rest⟩
    rw [run]
    exact goes
  | true =>
    refine ⟨[.go n, .go n, .go n, .go n], s1, o, ?_, by simp [n], ret, rest⟩
    rw [run]
    simp only [step, Option.bind_some]
    rw [run]
    simp only [step, n, List.getElem?_concat_length, stepPc, hc, if_true, Option.map_some, Option.bind_some]
    rw [tail]
    exact goes

/-- C85 fails: two goroutines asking for the same type at the same time can be given different objects; later calls return the
second. -/
theorem different_objects : ∃ es s, run init es = some s ∧ Returned s 0 5 ⟨0, 5⟩ ∧ Returned s 1 5 ⟨1, 5⟩ ∧ Returned s 2 5 ⟨1, 5⟩ :=
  ⟨[.call false 5, .call false 5, .go 0, .go 1, .go 0, .go 1, .go 0, .go 1, .call true 5, .go 2], _, rfl, rfl, rfl, rfl⟩

end Verif.Reflect2.Cache
