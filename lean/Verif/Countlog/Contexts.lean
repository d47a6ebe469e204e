import Verif.Countlog.Formats
import Mathlib.Data.List.Nodup
import Mathlib.Tactic.ByContra

/-!
# C123: properties of a context

Model of `Ctx`, `Context.Value` and `Context.Add`, countlog/context.go 9-35 and 132-135, and of `AddLogContext` and
`GetLogContext`, countlog/spi/context.go 5-24.
-/

namespace Verif.Countlog.Contexts

open Verif Verif.Msgfmt

/-! ### Model -/

/-- Keys of `context.WithValue`: ints, and keys of other types numbered (countlog/spi/context.go 5, a key of type int). -/
inductive Key where
  | int (n : Int)
  | other (n : Nat)
  deriving DecidableEq

/-- `LogContextKey`, countlog/spi/context.go 5. -/
def logContextKey : Key := .int 1010010001

/-- What a context holds under a key: nothing, a `*spi.LogContext` (its number on the heap), or something else
(countlog/context.go 27-35). -/
inductive Val where
  | nil
  | log (ptr : Nat)
  | other (n : Nat)
  deriving DecidableEq

/-- Contexts (countlog/context.go 17-21).  `derived` stands for what the package context makes of a parent, with a key and a value as
`WithValue` does or without as `WithCancel` does; `wrapped` is a `*Context`, with the address of its log context. -/
inductive Ctx where
  | background
  | derived (parent : Ctx) (entry : Option (Key × Val))
  | wrapped (parent : Ctx) (log : Nat)
  deriving DecidableEq

/-- `Value`, countlog/context.go 27-35; of the package context, that of `valueCtx`. -/
def Ctx.value (key : Key) : Ctx → Val
  | .background => .nil
  | .derived parent none => parent.value key
  | .derived parent (some (k, v)) => if k = key then v else parent.value key
  | .wrapped parent log => if key = logContextKey then .log log else parent.value key

/-- `GetLogContext`, countlog/spi/context.go 21-24: the address, `none` for nil. -/
def getLogContext (c : Ctx) : Option Nat :=
  match c.value logContextKey with
  | .log p => some p
  | _ => none

/-- The variables of a program and the log contexts on the heap, by address: their `Properties` (countlog/spi/context.go 7-10). -/
structure State where
  vars : List Ctx
  heap : List (List Arg)

/-- At the beginning there is `context.Background()` only (variable 0; countlog/context.go 9). -/
def State.init : State := ⟨[.background], []⟩

/-- What programs do with contexts, variables by number (countlog/context.go 9 and 132, countlog/spi/context.go 12). -/
inductive Op where
  /-- a new variable by `context.WithValue` or `context.WithCancel` -/
  | derive (parent : Nat) (entry : Option (Key × Nat))
  /-- a new variable by `Ctx` -/
  | ctx (parent : Nat)
  /-- `Context.Add` -/
  | add (c : Nat) (key : Bytes) (value : Arg)
  /-- `AddLogContext` -/
  | addLog (c : Nat) (key : Bytes) (value : Arg)

/-- Appending a key and a value to the properties of a log context, countlog/context.go 133-134 and countlog/spi/context.go 17-18. -/
def push (heap : List (List Arg)) (p : Nat) (key : Bytes) (value : Arg) : List (List Arg) :=
  heap.modify p fun kv => kv ++ [.str key] ++ [value]

/-- One operation; `none` for what is not a Go program: an unknown variable, or `Add` on what is not a `*Context`
(countlog/context.go 9-15 and 132-135, countlog/spi/context.go 12-19). -/
def step (s : State) : Op → Option State
  | .derive i entry =>
    match s.vars[i]? with
    | none => none
    | some c => some { s with vars := s.vars ++ [.derived c (entry.map fun e => (e.1, Val.other e.2))] }
  | .ctx i =>
    match s.vars[i]? with
    | none => none
    | some (.wrapped parent log) => some { s with vars := s.vars ++ [.wrapped parent log] }
    | some c => some ⟨s.vars ++ [.wrapped c s.heap.length], s.heap ++ [[]]⟩
  | .add i key value =>
    match s.vars[i]? with
    | some (.wrapped _ log) => some { s with heap := push s.heap log key value }
    | _ => none
  | .addLog i key value =>
    match s.vars[i]? with
    | none => none
    | some c =>
      match getLogContext c with
      | none => some s
      | some p => some { s with heap := push s.heap p key value }

/-- A program (countlog/context.go 9-35). -/
def run : State → List Op → Option State
  | s, [] => some s
  | s, op :: ops =>
    match step s op with
    | none => none
    | some s => run s ops

/-- `GetLogContext(v).Properties` for the variable `i`, countlog/spi/context.go 21-24 as used in countlog/output/hrf/ctx.go 13;
`none` without a log context. -/
def State.properties (s : State) (i : Nat) : Option (List Arg) :=
  match s.vars[i]? with
  | none => none
  | some c => (getLogContext c).map fun p => s.heap.getD p []

/-! ### Specification -/

/-- What is noted about a variable: whether it is the result of `Ctx`, and the first variable that stood for its log context. -/
structure Origin where
  isCtx : Bool
  root : Option Nat

/-- Notes about a program: where each variable comes from, and what was added to which root, latest last. -/
structure Notes where
  vars : List Origin
  added : List (Nat × Bytes × Arg)

/-- The notes after one more operation. -/
def Notes.next (n : Notes) : Op → Notes
  | .derive i _ => { n with vars := n.vars ++ [⟨false, (n.vars[i]?).bind Origin.root⟩] }
  | .ctx i =>
    match n.vars[i]? with
    | some ⟨true, r⟩ => { n with vars := n.vars ++ [⟨true, r⟩] }
    | _ => { n with vars := n.vars ++ [⟨true, some n.vars.length⟩] }
  | .add i key value | .addLog i key value =>
    match (n.vars[i]?).bind Origin.root with
    | none => n
    | some r => { n with added := n.added ++ [(r, key, value)] }

/-- The notes on a program. -/
def notes (ops : List Op) : Notes := ops.foldl Notes.next ⟨[⟨false, none⟩], []⟩

/-- The properties added to a root. -/
def Notes.addedTo (n : Notes) (r : Nat) : List Arg :=
  (n.added.filter fun a => a.1 = r).flatMap fun a => [.str a.2.1, a.2.2]

/-- Nobody uses the key of the package for their own values. -/
def KeyFree (ops : List Op) : Prop := ∀ op ∈ ops, ∀ i k v, op = .derive i (some (k, v)) → k ≠ logContextKey

/-- Two lists in one order or another, as two goroutines append: each keeps its own order. -/
inductive Merge {α : Type} : List α → List α → List α → Prop
  | nil : Merge [] [] []
  | left (a : α) (l m out : List α) : Merge l m out → Merge (a :: l) m (a :: out)
  | right (b : α) (l m out : List α) : Merge l m out → Merge l (b :: m) (b :: out)

/-! ### Proofs -/

/-- How the state and the notes belong together: the addresses of log contexts and their roots. -/
structure Sim (s : State) (n : Notes) (pos : List Nat) : Prop where
  vars : s.vars.length = n.vars.length
  heap : s.heap.length = pos.length
  nodup : pos.Nodup
  bound : ∀ p ∈ pos, p < n.vars.length
  origin : ∀ (i : Nat) (c : Ctx) (o : Origin), s.vars[i]? = some c → n.vars[i]? = some o →
    (o.isCtx = true ↔ ∃ p l, c = .wrapped p l) ∧
      ((getLogContext c = none ∧ o.root = none) ∨ ∃ p r, getLogContext c = some p ∧ pos[p]? = some r ∧ o.root = some r)
  content : ∀ (p r : Nat), pos[p]? = some r → s.heap[p]? = some (n.addedTo r)
  fresh : ∀ a ∈ n.added, a.1 ∈ pos

theorem sim_init : Sim State.init ⟨[⟨false, none⟩], []⟩ [] where
  vars := rfl
  heap := rfl
  nodup := List.nodup_nil
  bound := by simp
  origin := by
    intro i c o hc ho
    rcases i with _ | i
    · simp only [State.init, List.getElem?_cons_zero, Option.some.injEq] at hc ho
      subst hc ho
      exact ⟨by simp, Or.inl ⟨rfl, rfl⟩⟩
    · simp [State.init] at hc
  content := by simp
  fresh := by simp

theorem get_append {α : Type} (l : List α) (a x : α) (i : Nat) (h : (l ++ [a])[i]? = some x) :
    (i < l.length ∧ l[i]? = some x) ∨ (i = l.length ∧ x = a) := by
  rcases Nat.lt_trichotomy i l.length with hi | hi | hi
  · rw [List.getElem?_append_left hi] at h
    exact Or.inl ⟨hi, h⟩
  · subst hi
    rw [List.getElem?_append_right (Nat.le_refl _), Nat.sub_self] at h
    simp only [List.getElem?_cons_zero, Option.some.injEq] at h
    exact Or.inr ⟨rfl, h.symm⟩
  · rw [List.getElem?_eq_none (by simp; omega)] at h
    cases h

theorem sim_push {s : State} {n : Notes} {pos : List Nat} (h : Sim s n pos) (p r : Nat) (hp : pos[p]? = some r) (key : Bytes) (value : Arg) :
    Sim { s with heap := push s.heap p key value } { n with added := n.added ++ [(r, key, value)] } pos where
  vars := h.vars
  heap := by simp [push, h.heap]
  nodup := h.nodup
  bound := h.bound
  origin := h.origin
  content := by
    intro q t hq
    have h1 := h.content q t hq
    have hadd : Notes.addedTo { n with added := n.added ++ [(r, key, value)] } t =
        n.addedTo t ++ if r = t then [.str key, value] else [] := by
      simp only [Notes.addedTo, List.filter_append, List.flatMap_append]
      congr 1
      by_cases hrt : r = t <;> simp [hrt]
    rw [hadd]
    simp only [push]
    rw [List.getElem?_modify, h1]
    by_cases hqp : p = q
    · subst hqp
      rw [hp] at hq
      cases hq
      simp
    · have hrt : r ≠ t := by
        intro hrt
        subst hrt
        have hpl := (List.getElem?_eq_some_iff.mp hp)
        have hql := (List.getElem?_eq_some_iff.mp hq)
        obtain ⟨hpl, hp2⟩ := hpl
        obtain ⟨hql, hq2⟩ := hql
        exact hqp ((List.Nodup.getElem_inj_iff h.nodup).mp (hp2.trans hq2.symm))
      simp [hqp, hrt]
  fresh := by
    intro a ha
    simp only [List.mem_append, List.mem_singleton] at ha
    rcases ha with ha | rfl
    · exact h.fresh a ha
    · exact List.mem_of_getElem? hp

theorem sim_var {s : State} {n : Notes} {pos : List Nat} (h : Sim s n pos) (i : Nat) (c : Ctx) (hi : s.vars[i]? = some c) :
    ∃ o, n.vars[i]? = some o := by
  have := (List.getElem?_eq_some_iff.mp hi).1
  exact ⟨n.vars[i]'(h.vars ▸ this), List.getElem?_eq_getElem _⟩

/-- A new variable with the log context of an old one, or none. -/
theorem sim_new {s : State} {n : Notes} {pos : List Nat} (h : Sim s n pos) (c : Ctx) (o : Origin)
    (h1 : o.isCtx = true ↔ ∃ p l, c = .wrapped p l)
    (h2 : (getLogContext c = none ∧ o.root = none) ∨ ∃ p r, getLogContext c = some p ∧ pos[p]? = some r ∧ o.root = some r) :
    Sim { s with vars := s.vars ++ [c] } { n with vars := n.vars ++ [o] } pos where
  vars := by simp [h.vars]
  heap := h.heap
  nodup := h.nodup
  bound := by intro p hp; have := h.bound p hp; simp; omega
  origin := by
    intro j c' o' hc ho
    rcases get_append _ _ _ _ hc with ⟨hj, hc⟩ | ⟨hj, rfl⟩
    · rcases get_append _ _ _ _ ho with ⟨_, ho⟩ | ⟨hj2, _⟩
      · exact h.origin j c' o' hc ho
      · have := h.vars; omega
    · rcases get_append _ _ _ _ ho with ⟨hj2, _⟩ | ⟨_, rfl⟩
      · have := h.vars; omega
      · exact ⟨h1, h2⟩
  content := h.content
  fresh := h.fresh

theorem getLog_derived (c : Ctx) (e : Option (Key × Nat)) (he : ∀ k v, e = some (k, v) → k ≠ logContextKey) :
    getLogContext (.derived c (e.map fun e => (e.1, Val.other e.2))) = getLogContext c := by
  cases e with
  | none => rfl
  | some e =>
    obtain ⟨k, v⟩ := e
    simp only [getLogContext, Option.map, Ctx.value]
    rw [if_neg (he k v rfl)]

theorem getLog_wrapped (c : Ctx) (l : Nat) : getLogContext (.wrapped c l) = some l := by
  simp [getLogContext, Ctx.value]

theorem sim_step {s t : State} {n : Notes} {pos : List Nat} (h : Sim s n pos) (op : Op)
    (hk : ∀ i k v, op = .derive i (some (k, v)) → k ≠ logContextKey) (hs : step s op = some t) : ∃ pos, Sim t (n.next op) pos := by
  cases op with
  | derive i e =>
    simp only [step] at hs
    cases hc : s.vars[i]? with
    | none => rw [hc] at hs; cases hs
    | some c =>
      rw [hc] at hs
      simp only [Option.some.injEq] at hs
      subst hs
      obtain ⟨o, ho⟩ := sim_var h i c hc
      refine ⟨pos, ?_⟩
      simp only [Notes.next, ho, Option.bind_some]
      refine sim_new h _ _ (by simp) ?_
      rw [getLog_derived c e (fun k v he => hk i k v (by rw [he]))]
      exact (h.origin i c o hc ho).2
  | ctx i =>
    simp only [step] at hs
    cases hc : s.vars[i]? with
    | none => rw [hc] at hs; cases hs
    | some c =>
      obtain ⟨o, ho⟩ := sim_var h i c hc
      obtain ⟨h1, h2⟩ := h.origin i c o hc ho
      by_cases hw : ∃ p l, c = .wrapped p l
      · obtain ⟨p, l, rfl⟩ := hw
        rw [hc] at hs
        simp only [Option.some.injEq] at hs
        subst hs
        obtain ⟨b, r⟩ := o
        have hb : b = true := h1.mpr ⟨p, l, rfl⟩
        subst hb
        refine ⟨pos, ?_⟩
        simp only [Notes.next, ho]
        exact sim_new h _ _ (by simp) h2
      · have hb : o.isCtx = false := by
          by_contra hb
          exact hw (h1.mp (by simpa using hb))
        have ht : t = ⟨s.vars ++ [.wrapped c s.heap.length], s.heap ++ [[]]⟩ := by
          rw [hc] at hs
          cases c with
          | wrapped p l => exact absurd ⟨p, l, rfl⟩ hw
          | background => simpa using hs.symm
          | derived p e => simpa using hs.symm
        have hn : n.next (.ctx i) = { n with vars := n.vars ++ [⟨true, some n.vars.length⟩] } := by
          obtain ⟨b, r⟩ := o
          simp only at hb
          subst hb
          simp only [Notes.next, ho]
        rw [ht, hn]
        have hfresh : n.vars.length ∉ pos := fun hm => Nat.lt_irrefl _ (h.bound _ hm)
        have hsub : ∀ (p r : Nat), pos[p]? = some r → (pos ++ [n.vars.length])[p]? = some r := by
          intro p r hp
          rw [List.getElem?_append_left (List.getElem?_eq_some_iff.mp hp).1]
          exact hp
        refine ⟨pos ++ [n.vars.length], ?_⟩
        exact {
          vars := by simp [h.vars]
          heap := by simp [h.heap]
          nodup := by
            rw [List.nodup_append]
            refine ⟨h.nodup, by simp, ?_⟩
            intro a ha b hb'
            simp only [List.mem_singleton] at hb'
            subst hb'
            intro hab
            subst hab
            exact hfresh ha
          bound := by
            intro p hp
            simp only [List.mem_append, List.mem_singleton] at hp
            simp only [List.length_append, List.length_singleton]
            rcases hp with hp | rfl
            · have := h.bound p hp; omega
            · omega
          origin := by
            intro j c' o' hc' ho'
            rcases get_append _ _ _ _ hc' with ⟨hj, hc'⟩ | ⟨hj, rfl⟩
            · rcases get_append _ _ _ _ ho' with ⟨_, ho'⟩ | ⟨hj2, _⟩
              · obtain ⟨g1, g2⟩ := h.origin j c' o' hc' ho'
                refine ⟨g1, ?_⟩
                rcases g2 with g2 | ⟨p, r, g2, g3, g4⟩
                · exact Or.inl g2
                · exact Or.inr ⟨p, r, g2, hsub p r g3, g4⟩
              · have := h.vars; omega
            · rcases get_append _ _ _ _ ho' with ⟨hj2, _⟩ | ⟨_, rfl⟩
              · have := h.vars; omega
              · refine ⟨by simp, Or.inr ⟨s.heap.length, n.vars.length, getLog_wrapped _ _, ?_, rfl⟩⟩
                rw [h.heap, List.getElem?_append_right (Nat.le_refl _), Nat.sub_self]
                rfl
          content := by
            intro p r hp
            rcases get_append _ _ _ _ hp with ⟨hpl, hp⟩ | ⟨hpl, rfl⟩
            · simp only
              rw [List.getElem?_append_left (h.heap ▸ hpl)]
              exact h.content p r hp
            · simp only
              rw [List.getElem?_append_right (by rw [h.heap]; omega), h.heap, hpl, Nat.sub_self]
              simp only [List.getElem?_cons_zero, Option.some.injEq, Notes.addedTo]
              rw [List.filter_eq_nil_iff.mpr]
              · rfl
              · intro a ha
                have := h.fresh a ha
                simp only [decide_eq_true_eq]
                intro hab
                rw [hab] at this
                exact hfresh this
          fresh := by
            intro a ha
            exact List.mem_append_left _ (h.fresh a ha) }
  | add i key value =>
    simp only [step] at hs
    cases hc : s.vars[i]? with
    | none => rw [hc] at hs; cases hs
    | some c =>
      rw [hc] at hs
      obtain ⟨o, ho⟩ := sim_var h i c hc
      cases c with
      | background => cases hs
      | derived p e => cases hs
      | wrapped p l =>
        simp only [Option.some.injEq] at hs
        subst hs
        obtain ⟨h1, h2⟩ := h.origin i _ o hc ho
        rw [getLog_wrapped] at h2
        rcases h2 with ⟨h2, _⟩ | ⟨q, r, h2, h3, h4⟩
        · cases h2
        · cases h2
          refine ⟨pos, ?_⟩
          simp only [Notes.next, ho, Option.bind_some, h4]
          exact sim_push h _ r h3 key value
  | addLog i key value =>
    simp only [step] at hs
    cases hc : s.vars[i]? with
    | none => rw [hc] at hs; cases hs
    | some c =>
      rw [hc] at hs
      simp only at hs
      obtain ⟨o, ho⟩ := sim_var h i c hc
      obtain ⟨h1, h2⟩ := h.origin i _ o hc ho
      rcases h2 with ⟨h2, h3⟩ | ⟨q, r, h2, h3, h4⟩
      · rw [h2] at hs
        simp only [Option.some.injEq] at hs
        subst hs
        refine ⟨pos, ?_⟩
        simp only [Notes.next, ho, Option.bind_some, h3]
        exact h
      · rw [h2] at hs
        simp only [Option.some.injEq] at hs
        subst hs
        refine ⟨pos, ?_⟩
        simp only [Notes.next, ho, Option.bind_some, h4]
        exact sim_push h _ r h3 key value

theorem sim_run (ops : List Op) : ∀ (s t : State) (n : Notes) (pos : List Nat), Sim s n pos → KeyFree ops → run s ops = some t →
    ∃ pos, Sim t (ops.foldl Notes.next n) pos := by
  induction ops with
  | nil =>
    intro s t n pos h _ hr
    simp only [run, Option.some.injEq] at hr
    subst hr
    exact ⟨pos, h⟩
  | cons op ops ih =>
    intro s t n pos h hk hr
    simp only [run] at hr
    cases hs : step s op with
    | none => rw [hs] at hr; cases hr
    | some s1 =>
      rw [hs] at hr
      obtain ⟨pos1, h1⟩ := sim_step h op (fun i k v ho => hk op (by simp) i k v ho) hs
      exact ih s1 t _ pos1 h1 (fun op' ho => hk op' (by simp [ho])) hr

/-- C123, partial: in every program, the properties seen through a variable are those added, through whatever variable, to the log context
made by the same call of `Ctx`, in order, each as a name and a value; what is added where there is none is dropped. -/
theorem properties_exactly_partial (ops : List Op) (hk : KeyFree ops) (s : State) (hr : run State.init ops = some s) (i : Nat) (o : Origin)
    (ho : (notes ops).vars[i]? = some o) : s.properties i = o.root.map (notes ops).addedTo := by
  obtain ⟨pos, h⟩ := sim_run ops State.init s _ [] sim_init hk hr
  have hl := (List.getElem?_eq_some_iff.mp ho).1
  have hc : s.vars[i]? = some (s.vars[i]'(h.vars ▸ hl)) := List.getElem?_eq_getElem _
  obtain ⟨_, h2⟩ := h.origin i _ o hc ho
  unfold State.properties
  rw [hc]
  simp only
  rcases h2 with ⟨h2, h3⟩ | ⟨p, r, h2, h3, h4⟩
  · rw [h2, h3]; rfl
  · rw [h2, h4]
    simp only [Option.map_some, Option.some.injEq]
    rw [List.getD_eq_getElem?_getD, h.content p r h3]
    rfl

theorem run_append (a b : List Op) : ∀ s, run s (a ++ b) = (run s a).bind fun s => run s b := by
  induction a with
  | nil => intro s; rfl
  | cons op a ih =>
    intro s
    simp only [List.cons_append, run]
    cases step s op with
    | none => rfl
    | some s1 => exact ih s1

theorem notes_append (a b : List Op) : notes (a ++ b) = b.foldl Notes.next (notes a) := by
  simp [notes, List.foldl_append]

theorem next_var (op : Op) (n : Notes) (i : Nat) (o : Origin) (h : n.vars[i]? = some o) : (n.next op).vars[i]? = some o := by
  have hl := (List.getElem?_eq_some_iff.mp h).1
  cases op with
  | derive j e => simp only [Notes.next]; rw [List.getElem?_append_left hl]; exact h
  | ctx j =>
    simp only [Notes.next]
    split <;> (simp only; rw [List.getElem?_append_left hl]; exact h)
  | add j k v => simp only [Notes.next]; split <;> exact h
  | addLog j k v => simp only [Notes.next]; split <;> exact h

theorem fold_var (ops : List Op) : ∀ (n : Notes) (i : Nat) (o : Origin), n.vars[i]? = some o →
    (ops.foldl Notes.next n).vars[i]? = some o := by
  induction ops with
  | nil => intro n i o h; exact h
  | cons op ops ih => intro n i o h; exact ih _ i o (next_var op n i o h)

theorem next_grows (op : Op) (n : Notes) (r : Nat) : ∃ more, (n.next op).addedTo r = n.addedTo r ++ more := by
  have key : ∀ (a : Nat × Bytes × Arg), ∃ more, Notes.addedTo { n with added := n.added ++ [a] } r = n.addedTo r ++ more := by
    intro a
    exact ⟨([a].filter fun a => a.1 = r).flatMap fun a => [.str a.2.1, a.2.2], by
      simp only [Notes.addedTo, List.filter_append, List.flatMap_append]⟩
  cases op with
  | derive j e => exact ⟨[], by simp [Notes.next, Notes.addedTo]⟩
  | ctx j => simp only [Notes.next]; split <;> exact ⟨[], by simp [Notes.addedTo]⟩
  | add j k v => simp only [Notes.next]; split; exact ⟨[], by simp⟩; exact key _
  | addLog j k v => simp only [Notes.next]; split; exact ⟨[], by simp⟩; exact key _

theorem fold_grows (ops : List Op) : ∀ (n : Notes) (r : Nat), ∃ more, (ops.foldl Notes.next n).addedTo r = n.addedTo r ++ more := by
  induction ops with
  | nil => intro n r; exact ⟨[], by simp⟩
  | cons op ops ih =>
    intro n r
    obtain ⟨m1, h1⟩ := next_grows op n r
    obtain ⟨m2, h2⟩ := ih (n.next op) r
    exact ⟨m1 ++ m2, by rw [List.foldl_cons, h2, h1, List.append_assoc]⟩

theorem keyFree_left {a b : List Op} (h : KeyFree (a ++ b)) : KeyFree a := fun op ho => h op (by simp [ho])

/-- The notes know every variable. -/
theorem known (ops : List Op) (hk : KeyFree ops) (s : State) (hr : run State.init ops = some s) (i : Nat) (kv : List Arg)
    (h : s.properties i = some kv) : ∃ o, (notes ops).vars[i]? = some o := by
  obtain ⟨pos, hsim⟩ := sim_run ops State.init s _ [] sim_init hk hr
  unfold State.properties at h
  cases hc : s.vars[i]? with
  | none => rw [hc] at h; cases h
  | some c => exact sim_var hsim i c hc

/-- C123, partial: nothing added is ever lost or changed, whatever the program does later. -/
theorem properties_kept_partial (ops more : List Op) (hk : KeyFree (ops ++ more)) (s t : State) (hs : run State.init ops = some s)
    (ht : run State.init (ops ++ more) = some t) (i : Nat) (kv : List Arg) (h : s.properties i = some kv) :
    ∃ rest, t.properties i = some (kv ++ rest) := by
  obtain ⟨o, ho⟩ := known ops (keyFree_left hk) s hs i kv h
  have h1 := properties_exactly_partial ops (keyFree_left hk) s hs i o ho
  have h2 := properties_exactly_partial (ops ++ more) hk t ht i o (by rw [notes_append]; exact fold_var more _ i o ho)
  rw [h1] at h
  cases hr : o.root with
  | none => rw [hr] at h; cases h
  | some r =>
    rw [hr] at h h2
    simp only [Option.map_some, Option.some.injEq] at h h2
    obtain ⟨rest, hg⟩ := fold_grows more (notes ops) r
    refine ⟨rest, ?_⟩
    rw [h2, notes_append, hg, h]

/-- C123, partial: a context made from another by the package context always shows the same properties, those added before and those
added later, through either. -/
theorem derived_shows_same_partial (ops more : List Op) (i : Nat) (e : Option (Key × Nat)) (hk : KeyFree (ops ++ .derive i e :: more)) (t : State)
    (ht : run State.init (ops ++ .derive i e :: more) = some t) :
    t.properties (notes ops).vars.length = t.properties i := by
  have hv : ∃ o, (notes ops).vars[i]? = some o := by
    rw [run_append] at ht
    cases hs : run State.init ops with
    | none => rw [hs] at ht; cases ht
    | some s =>
      rw [hs] at ht
      simp only [Option.bind_some, run, step] at ht
      cases hc : s.vars[i]? with
      | none => rw [hc] at ht; cases ht
      | some c =>
        obtain ⟨pos, hsim⟩ := sim_run ops State.init s _ [] sim_init (keyFree_left hk) hs
        exact sim_var hsim i c hc
  obtain ⟨o, ho⟩ := hv
  have h1 : (notes (ops ++ .derive i e :: more)).vars[i]? = some o := by
    rw [notes_append]; exact fold_var _ _ i o ho
  have h2 : (notes (ops ++ .derive i e :: more)).vars[(notes ops).vars.length]? = some ⟨false, o.root⟩ := by
    rw [notes_append, List.foldl_cons]
    refine fold_var more _ _ _ ?_
    simp [Notes.next, ho]
  rw [properties_exactly_partial _ hk t ht i o h1, properties_exactly_partial _ hk t ht _ _ h2]

/-- C123, partial: what is added through a context is shown by it from then on, last. -/
theorem add_shows_partial (ops : List Op) (hk : KeyFree ops) (s t : State) (hs : run State.init ops = some s) (i : Nat) (key : Bytes) (value : Arg)
    (ht : step s (.add i key value) = some t) : ∃ kv, s.properties i = some kv ∧ t.properties i = some (kv ++ [.str key, value]) := by
  obtain ⟨pos, h⟩ := sim_run ops State.init s _ [] sim_init hk hs
  simp only [step] at ht
  cases hc : s.vars[i]? with
  | none => rw [hc] at ht; cases ht
  | some c =>
    rw [hc] at ht
    cases c with
    | background => cases ht
    | derived p e => cases ht
    | wrapped p l =>
      simp only [Option.some.injEq] at ht
      subst ht
      obtain ⟨o, ho⟩ := sim_var h i _ hc
      obtain ⟨_, h2⟩ := h.origin i _ o hc ho
      rw [getLog_wrapped] at h2
      rcases h2 with ⟨h2, _⟩ | ⟨q, r, h2, h3, h4⟩
      · cases h2
      · cases h2
        refine ⟨(notes ops).addedTo r, ?_, ?_⟩
        · simp only [State.properties, hc, getLog_wrapped, Option.map_some, List.getD_eq_getElem?_getD, h.content _ r h3]
          rfl
        · simp only [State.properties, hc, getLog_wrapped, Option.map_some, List.getD_eq_getElem?_getD, push,
            List.getElem?_modify, h.content _ r h3]
          simp [notes]

/-! ### Disagreements and a concrete case -/

/-- C123 fails for `Ctx` of a derived context: it starts without properties, although the context it is made from has some. -/
theorem rewrapped_shows_nothing : ∃ s, run State.init
    [.ctx 0, .add 1 (asc "traceId") (.str (asc "x")), .derive 1 none, .ctx 2] = some s ∧
      s.properties 2 = some [.str (asc "traceId"), .str (asc "x")] ∧ s.properties 3 = some [] :=
  ⟨_, rfl, rfl, rfl⟩

/-- C123 fails for the context it was made from: it shows what is added to the derived one. -/
theorem added_below_shows_above : ∃ s, run State.init
    [.ctx 0, .derive 1 none, .addLog 2 (asc "userId") (.str (asc "111"))] = some s ∧
      s.properties 1 = some [.str (asc "userId"), .str (asc "111")] :=
  ⟨_, rfl, rfl⟩

/-- `AddLogContext` on a context never given to `Ctx` adds nothing, and later `Ctx` does not see it. -/
theorem added_before_ctx_lost : ∃ s, run State.init
    [.addLog 0 (asc "userId") (.str (asc "111")), .ctx 0] = some s ∧ s.properties 0 = none ∧ s.properties 1 = some [] :=
  ⟨_, rfl, rfl, rfl⟩

/-- The key of the package is a plain int, and a value of somebody else under it hides the properties. -/
theorem int_key_hides : ∃ s, run State.init
    [.ctx 0, .add 1 (asc "a") .nil, .derive 1 (some (.int 1010010001, 7))] = some s ∧
      s.properties 1 = some [.str (asc "a"), .nil] ∧ s.properties 2 = none :=
  ⟨_, rfl, rfl, rfl⟩

/-- Two goroutines that add to one context: `Add` appends twice without a lock (each append taken as one step here), so names and values
may not alternate, and making the entry panics. -/
theorem concurrent_adds_panic : ∃ kv, Merge [.str (asc "a"), .other 1 (asc "1")] [Arg.str (asc "b"), .other 1 (asc "2")] kv ∧
    ∀ cache, ∃ r, ctxParts cache (some kv) = r ∧ ∃ b, r.1 = .error b := by
  refine ⟨[.str (asc "a"), .str (asc "b"), .other 1 (asc "1"), .other 1 (asc "2")],
    .left _ _ _ _ (.right _ _ _ _ (.left _ _ _ _ (.right _ _ _ _ .nil))), fun cache => ⟨_, rfl, ?_⟩⟩
  simp only [ctxParts, propParts]
  split
  · exact ⟨_, rfl⟩
  · exact ⟨_, rfl⟩

/-- A program as in examples/context_logging: the properties are those added, through the context and one derived from it. -/
def traced : List Op :=
  [.ctx 0, .add 1 (asc "traceId") (.str (asc "x")), .derive 1 (some (.other 3, 8)), .addLog 2 (asc "userId") (.str (asc "111")), .ctx 0,
   .add 3 (asc "job") (.str (asc "2"))]

example : ∃ s, run State.init traced = some s ∧ s.properties 2 = some [.str (asc "traceId"), .str (asc "x"), .str (asc "userId"), .str (asc "111")] ∧
    s.properties 3 = some [.str (asc "job"), .str (asc "2")] ∧ KeyFree traced ∧ (notes traced).vars[2]? = some ⟨false, some 1⟩ := by
  refine ⟨_, rfl, rfl, rfl, ?_, rfl⟩
  intro op ho i k v he
  simp only [traced, List.mem_cons, List.not_mem_nil, or_false] at ho
  rcases ho with rfl | rfl | rfl | rfl | rfl | rfl <;> first | (cases he; decide) | cases he

end Verif.Countlog.Contexts
