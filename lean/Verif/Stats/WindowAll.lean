import Verif.Stats.WindowProps

/-!
# C28: the same with events counted wherever they went, and exports that find everything

`conservation` (WindowProps) adds up the 16 shards.  Here events and points are counted
without looking at the shard they say they were on, so that an event kept outside the 16
shards would be lost.
-/

namespace Verif.Stats.All
open Verif.Stats

/-- Calls of `Handle` for events with key `k` that have returned. -/
def handledAll (k : Key) : List Ev → Nat
  | [] => 0
  | .handled _ l :: tr => (if l = k then 1 else 0) + handledAll k tr
  | _ :: tr => handledAll k tr

/-- Sum of the values of the points with key `k` the collector has got. -/
def collectedAll (k : Key) : List Ev → Nat
  | [] => 0
  | .collected _ l v :: tr => (if l = k then v else 0) + collectedAll k tr
  | _ :: tr => collectedAll k tr

/-- The shard a goroutine works on. -/
def _root_.Verif.Stats.Thread.shard : Thread → Option Nat
  | .wait i _ => some i
  | .locked i _ => some i
  | .read i _ _ => some i
  | .written i _ => some i
  | .badWait i => some i
  | .badLocked i => some i
  | .expIn i _ => some i
  | .expRead i _ _ _ => some i
  | .expZeroed i _ _ _ => some i
  | _ => none

def _root_.Verif.Stats.Ev.shard : Ev → Option Nat
  | .handled i _ => some i
  | .collected i _ _ => some i
  | _ => none

/-- Everybody is on one of the 16 shards. -/
def Inside (s : State) : Prop := ∀ t i, (s.threads t).shard = some i → i < 16

theorem inside_upd {s : State} (h : Inside s) (t : Nat) (th : Thread) (ht : ∀ i, th.shard = some i → i < 16) (u i : Nat)
    (hu : (upd s.threads t th u).shard = some i) : i < 16 := by
  by_cases hut : u = t
  · subst hut; rw [upd_same] at hu; exact ht i hu
  · rw [upd_ne _ _ hut] at hu; exact h u i hu

theorem step_inside (s : State) (h : Inside s) (a : Action) :
    Inside (step s a).1 ∧ ∀ e, (step s a).2 = some e → ∀ i, e.shard = some i → i < 16 := by
  have stay : Inside s ∧ ∀ e, (none : Option Ev) = some e → ∀ i, e.shard = some i → i < 16 := ⟨h, by simp⟩
  have same : ∀ t i, (s.threads t).shard = some i → i < 16 := h
  cases a with
  | count t g key =>
    simp only [step]
    split
    · exact ⟨fun u i hu => inside_upd h t _ (by simp [Thread.shard]; omega) u i hu, by simp⟩
    · exact stay
  | countBad t g =>
    simp only [step]
    split
    · exact ⟨fun u i hu => inside_upd h t _ (by simp [Thread.shard]; omega) u i hu, by simp⟩
    · exact stay
  | «export» t =>
    simp only [step]
    split
    · exact ⟨fun u i hu => inside_upd h t _ (by simp [Thread.shard]) u i hu, by simp⟩
    · exact stay
  | go t order =>
    have ht := same t
    simp only [step]
    unfold go
    cases hth : s.threads t with
    | expWait i =>
      by_cases hi : 16 ≤ i
      · simp only [hi, if_true]
        exact ⟨fun u j hu => inside_upd h t _ (by simp [Thread.shard]) u j hu, by simp [Ev.shard]⟩
      · simp only [hi, if_false]
        cases s.lock i with
        | none =>
          simp only
          split
          · exact ⟨fun u j hu => inside_upd h t _ (by simp [Thread.shard]; omega) u j hu, by simp⟩
          · exact stay
        | some x => exact stay
    | expIn i todo =>
      rw [hth] at ht
      cases todo with
      | nil => exact ⟨fun u j hu => inside_upd h t _ (by simp [Thread.shard]) u j hu, by simp⟩
      | cons key todo =>
        exact ⟨fun u j hu => inside_upd h t _ (by simpa [Thread.shard] using ht) u j hu, by simp⟩
    | idle => exact stay
    | wait i key =>
      rw [hth] at ht
      simp only
      cases s.lock i with
      | none => exact ⟨fun u j hu => inside_upd h t _ (by simpa [Thread.shard] using ht) u j hu, by simp⟩
      | some x => exact stay
    | locked i key =>
      rw [hth] at ht
      simp only
      cases (s.map i).lookup key with
      | none => exact ⟨fun u j hu => inside_upd h t _ (by simpa [Thread.shard] using ht) u j hu, by simp⟩
      | some x => exact ⟨fun u j hu => inside_upd h t _ (by simpa [Thread.shard] using ht) u j hu, by simp⟩
    | read i key v =>
      rw [hth] at ht
      exact ⟨fun u j hu => inside_upd h t _ (by simpa [Thread.shard] using ht) u j hu, by simp⟩
    | written i key =>
      rw [hth] at ht
      exact ⟨fun u j hu => inside_upd h t _ (by simp [Thread.shard]) u j hu, by simpa [Thread.shard, Ev.shard] using ht⟩
    | badWait i =>
      rw [hth] at ht
      simp only
      cases s.lock i with
      | none => exact ⟨fun u j hu => inside_upd h t _ (by simpa [Thread.shard] using ht) u j hu, by simp⟩
      | some x => exact stay
    | badLocked i =>
      exact ⟨fun u j hu => inside_upd h t _ (by simp [Thread.shard]) u j hu, by simp [Ev.shard]⟩
    | expRead i key v todo =>
      rw [hth] at ht
      exact ⟨fun u j hu => inside_upd h t _ (by simpa [Thread.shard] using ht) u j hu, by simp⟩
    | expZeroed i key v todo =>
      rw [hth] at ht
      exact ⟨fun u j hu => inside_upd h t _ (by simpa [Thread.shard] using ht) u j hu,
        by simpa [Thread.shard, Ev.shard] using ht⟩

theorem run_inside : ∀ (as : List Action) (s : State), Inside s → ∀ e ∈ trace s as, ∀ i, e.shard = some i → i < 16 := by
  intro as
  induction as with
  | nil => intro s _ e he; simp [trace] at he
  | cons a as ih =>
    intro s hs e he
    simp only [trace, List.mem_append, Option.mem_toList] at he
    rcases he with he | he
    · exact (step_inside s hs a).2 e he
    · exact ih _ (step_inside s hs a).1 e he

/-- Of the sixteen shards, one is this one. -/
theorem overShards_one (i v : Nat) (hi : i < 16) : overShards (fun j => if i = j then v else 0) = v := by
  have : i = 0 ∨ i = 1 ∨ i = 2 ∨ i = 3 ∨ i = 4 ∨ i = 5 ∨ i = 6 ∨ i = 7 ∨ i = 8 ∨ i = 9 ∨ i = 10 ∨ i = 11 ∨ i = 12 ∨
      i = 13 ∨ i = 14 ∨ i = 15 := by omega
  rcases this with h | h | h | h | h | h | h | h | h | h | h | h | h | h | h | h <;> subst h <;>
    simp [overShards, List.range_succ]

theorem overShards_zero : overShards (fun _ => 0) = 0 := by decide

theorem handledOn_cons (i : Nat) (k : Key) (e : Ev) (tr : List Ev) :
    handledOn i k (e :: tr) = (if e = .handled i k then 1 else 0) + handledOn i k tr := by
  unfold handledOn
  rw [List.countP_cons]
  by_cases h : e = .handled i k <;> simp [h]; omega

theorem handled_eq (k : Key) : ∀ tr : List Ev, (∀ e ∈ tr, ∀ i, e.shard = some i → i < 16) →
    handled k tr = handledAll k tr := by
  intro tr
  induction tr with
  | nil => intro _; exact overShards_zero
  | cons e tr ih =>
    intro h
    have hh : handled k (e :: tr) = overShards (fun i => if e = .handled i k then 1 else 0) + handled k tr := by
      unfold handled
      rw [← overShards_add]
      congr 1
      funext i
      exact handledOn_cons i k e tr
    rw [hh, ih (fun e' he' => h e' (List.mem_cons_of_mem _ he'))]
    have he := h e (List.mem_cons_self ..)
    cases e with
    | handled i l =>
      have hi : i < 16 := he i rfl
      simp only [handledAll, Ev.handled.injEq]
      by_cases hl : l = k
      · simp only [hl, and_true, if_true]; rw [overShards_one i 1 hi]
      · simp only [hl, and_false, if_false]; rw [overShards_zero]
    | panicked i => simp only [handledAll, reduceCtorEq, if_false]; rw [overShards_zero]; omega
    | collected i l v => simp only [handledAll, reduceCtorEq, if_false]; rw [overShards_zero]; omega
    | exported t => simp only [handledAll, reduceCtorEq, if_false]; rw [overShards_zero]; omega

theorem collected_eq (k : Key) : ∀ tr : List Ev, (∀ e ∈ tr, ∀ i, e.shard = some i → i < 16) →
    collected k tr = collectedAll k tr := by
  intro tr
  induction tr with
  | nil => intro _; exact overShards_zero
  | cons e tr ih =>
    intro h
    have ih' := ih (fun e' he' => h e' (List.mem_cons_of_mem _ he'))
    have he := h e (List.mem_cons_self ..)
    cases e with
    | collected i l v =>
      have hi : i < 16 := he i rfl
      have hh : collected k (.collected i l v :: tr) =
          overShards (fun j => if i = j ∧ l = k then v else 0) + collected k tr := by
        unfold collected
        rw [← overShards_add]
        rfl
      rw [hh, ih', collectedAll]
      by_cases hl : l = k
      · simp only [hl, and_true, if_true]; rw [overShards_one i v hi]
      · simp only [hl, and_false, if_false]; rw [overShards_zero]
    | panicked i => exact ih'
    | handled i l => exact ih'
    | exported t => exact ih'

/-- C28: whenever no call is inside a critical section, the values all points with this key
had together, and what is pending, are exactly the number of calls of `Handle` with this key
that have returned. -/
theorem conservation_all (as : List Action) (k : Key) (hq : ∀ t, ((after State.init as).threads t).holds = none) :
    collectedAll k (trace State.init as) + pending (after State.init as) k = handledAll k (trace State.init as) := by
  have h := run_inside as State.init (by intro t i h; simp [State.init, Thread.shard] at h)
  rw [← collected_eq k _ h, ← handled_eq k _ h]
  exact conservation_quiescent as k hq

/-! ### An export finds everything -/

/-- Nothing is pending on the shards before `i`. -/
def Swept (s : State) (i : Nat) : Prop := ∀ j, j < i → ∀ k, pendingOn s j k = 0

/-- How far the exporting goroutine `t` has come. -/
def Export (s : State) (t : Nat) : Prop :=
  match s.threads t with
  | .idle => Swept s 16
  | .expWait i => Swept s i
  | .expIn i todo => Swept s i ∧ ∀ k, k ∉ todo → pendingOn s i k = 0
  | .expRead i key _ todo => Swept s i ∧ ∀ k, k ≠ key → k ∉ todo → pendingOn s i k = 0
  | .expZeroed i _ _ todo => Swept s i ∧ ∀ k, k ∉ todo → pendingOn s i k = 0
  | _ => False

theorem lookup_absent : ∀ (m : List (Key × Nat)) (k : Key), k ∉ m.map Prod.fst → m.lookup k = none := by
  intro m
  induction m with
  | nil => intro k _; rfl
  | cons p m ih =>
    intro k hk
    simp only [List.map_cons, List.mem_cons, not_or] at hk
    have : (k == p.1) = false := by simpa using hk.1
    rw [List.lookup_cons, this]
    exact ih k hk.2

theorem go_export (s : State) (t : Nat) (h : Export s t) (order : List Key) : Export (go s t order).1 t := by
  have stay := h
  unfold Export at h
  unfold go
  cases hth : s.threads t with
  | idle => exact stay
  | wait i key => rw [hth] at h; exact h.elim
  | locked i key => rw [hth] at h; exact h.elim
  | read i key v => rw [hth] at h; exact h.elim
  | written i key => rw [hth] at h; exact h.elim
  | badWait i => rw [hth] at h; exact h.elim
  | badLocked i => rw [hth] at h; exact h.elim
  | expWait i =>
    rw [hth] at h
    simp only at h ⊢
    by_cases hi : 16 ≤ i
    · simp only [hi, if_true, Export, upd_same]
      exact fun j hj k => h j (by omega) k
    · simp only [hi, if_false]
      cases s.lock i with
      | some x => exact stay
      | none =>
        simp only
        by_cases ho : order.isPerm ((s.map i).map Prod.fst)
        · simp only [ho, if_true, Export, upd_same]
          refine ⟨h, fun k hk => ?_⟩
          have hp := List.isPerm_iff.1 ho
          have : k ∉ (s.map i).map Prod.fst := fun hm => hk (hp.mem_iff.2 hm)
          show ((s.map i).lookup k).getD 0 = 0
          rw [lookup_absent _ _ this]; rfl
        · simp only [ho]
          exact stay
  | expIn i todo =>
    rw [hth] at h
    cases todo with
    | nil =>
      simp only [Export, upd_same]
      intro j hj k
      by_cases hji : j = i
      · subst hji; exact h.2 k (by simp)
      · exact h.1 j (by omega) k
    | cons key todo =>
      simp only [Export, upd_same]
      exact ⟨h.1, fun k hk hk' => h.2 k (by simp [hk, hk'])⟩
  | expRead i key v todo =>
    rw [hth] at h
    simp only [Export, upd_same]
    refine ⟨fun j hj k => ?_, fun k hk => ?_⟩
    · show ((updMap s.map i key 0 j).lookup k).getD 0 = 0
      unfold updMap
      rw [upd_ne _ _ (by omega)]
      exact h.1 j hj k
    · show ((updMap s.map i key 0 i).lookup k).getD 0 = 0
      unfold updMap
      rw [upd_same, lookup_mset]
      by_cases hkk : k = key
      · simp [hkk]
      · simp only [hkk, if_false]; exact h.2 k hkk hk
  | expZeroed i key v todo =>
    rw [hth] at h
    simp only [Export, upd_same]
    exact h

theorem go_idle (s : State) (t : Nat) (order : List Key) (e : Ev) (h : (go s t order).2 = some e) (he : e = .exported t) :
    (go s t order).1.threads t = .idle := by
  unfold go at h ⊢
  cases hth : s.threads t with
  | expWait i =>
    simp only [hth] at h ⊢
    by_cases hi : 16 ≤ i
    · simp [hi, upd_same]
    · simp only [hi, if_false] at h ⊢
      cases hl : s.lock i with
      | some x => simp [hl] at h
      | none =>
        simp only [hl] at h
        split at h <;> simp at h
  | expIn i todo => cases todo <;> simp [hth] at h
  | idle => simp [hth] at h
  | wait i key => simp only [hth] at h; split at h <;> simp at h
  | locked i key => simp only [hth] at h; split at h <;> simp at h
  | read i key v => simp [hth] at h
  | written i key => simp [hth] at h; subst h; simp at he
  | badWait i => simp only [hth] at h; split at h <;> simp at h
  | badLocked i => simp [hth] at h; subst h; simp at he
  | expRead i key v todo => simp [hth] at h
  | expZeroed i key v todo => simp [hth] at h; subst h; simp at he

theorem alone (t : Nat) : ∀ (os : List (List Key)) (s : State), Export s t →
    (.exported t ∈ trace s (os.map (.go t)) ∨ s.threads t = .idle) → (after s (os.map (.go t))).threads t = .idle ∧
      Swept (after s (os.map (.go t))) 16 := by
  intro os
  induction os with
  | nil =>
    intro s h hd
    rcases hd with hd | hd
    · simp [trace] at hd
    · unfold Export at h; rw [hd] at h; exact ⟨hd, h⟩
  | cons o os ih =>
    intro s h hd
    simp only [List.map_cons, after, trace, List.mem_append, Option.mem_toList] at hd ⊢
    refine ih _ (go_export s t h o) ?_
    rcases hd with (hd | hd) | hd
    · exact Or.inr (go_idle s t o _ hd rfl)
    · exact Or.inl hd
    · refine Or.inr ?_
      show (go s t o).1.threads t = .idle
      unfold go
      rw [hd]
      exact hd

/-- What other goroutines do is not touched. -/
theorem go_others (s : State) (t u : Nat) (order : List Key) (h : u ≠ t) : (go s t order).1.threads u = s.threads u := by
  unfold go
  cases s.threads t with
  | expIn i todo => cases todo <;> simp [upd_ne _ _ h]
  | _ => simp only <;> (repeat' split) <;> simp [upd_ne _ _ h]

theorem go_not_handled (s : State) (t : Nat) (h : Export s t) (order : List Key) (k : Key) :
    handledAll k (go s t order).2.toList = 0 := by
  unfold Export at h
  unfold go
  cases hth : s.threads t with
  | expIn i todo => cases todo <;> simp [handledAll]
  | wait i key => rw [hth] at h; exact h.elim
  | locked i key => rw [hth] at h; exact h.elim
  | read i key v => rw [hth] at h; exact h.elim
  | written i key => rw [hth] at h; exact h.elim
  | badWait i => rw [hth] at h; exact h.elim
  | badLocked i => rw [hth] at h; exact h.elim
  | _ => simp only <;> (repeat' split) <;> simp [handledAll]

theorem handledAll_append (k : Key) (a b : List Ev) : handledAll k (a ++ b) = handledAll k a + handledAll k b := by
  induction a with
  | nil => simp [handledAll]
  | cons e a ih => cases e <;> simp [handledAll, ih]; omega

theorem collectedAll_append (k : Key) (a b : List Ev) : collectedAll k (a ++ b) = collectedAll k a + collectedAll k b := by
  induction a with
  | nil => simp [collectedAll]
  | cons e a ih => cases e <;> simp [collectedAll, ih]; omega

theorem run_trace_append : ∀ (as bs : List Action) (s : State), trace s (as ++ bs) = trace s as ++ trace (after s as) bs := by
  intro as
  induction as with
  | nil => intro bs s; rfl
  | cons a as ih => intro bs s; simp only [List.cons_append, trace, after, ih, List.append_assoc]

theorem run_after_append : ∀ (as bs : List Action) (s : State), after s (as ++ bs) = after (after s as) bs := by
  intro as
  induction as with
  | nil => intro bs s; rfl
  | cons a as ih => intro bs s; simp only [List.cons_append, after, ih]

theorem alone_others (t u : Nat) (h : u ≠ t) : ∀ (os : List (List Key)) (s : State),
    (after s (os.map (.go t))).threads u = s.threads u := by
  intro os
  induction os with
  | nil => intro s; rfl
  | cons o os ih =>
    intro s
    simp only [List.map_cons, after]
    rw [ih]
    exact go_others s t u o h

theorem alone_not_handled (t : Nat) (k : Key) : ∀ (os : List (List Key)) (s : State), Export s t →
    handledAll k (trace s (os.map (.go t))) = 0 := by
  intro os
  induction os with
  | nil => intro s _; rfl
  | cons o os ih =>
    intro s h
    simp only [List.map_cons, trace]
    have h1 := go_not_handled s t h o k
    have h2 := ih _ (go_export s t h o)
    rw [handledAll_append]
    simp only [step]
    omega

/-- C28: an export with nobody else at work leaves nothing pending: whatever had been
handled before, and only that, has been collected when it returns. -/
theorem export_collects_all (as : List Action) (t : Nat) (hidle : ∀ u, (after State.init as).threads u = .idle)
    (os : List (List Key)) (hdone : .exported t ∈ trace (after State.init as) (.export t :: os.map (.go t))) (k : Key) :
    collectedAll k (trace State.init as) + collectedAll k (trace (after State.init as) (.export t :: os.map (.go t))) =
      handledAll k (trace State.init as) := by
  have e1 : step (after State.init as) (.export t) =
      ({ after State.init as with threads := upd (after State.init as).threads t (.expWait 0) }, none) := by
    simp only [step]; rw [hidle t]
  have hx : Export (step (after State.init as) (.export t)).1 t := by
    rw [e1]; simp only [Export, upd_same]
    intro j hj; omega
  have hd : .exported t ∈ trace (step (after State.init as) (.export t)).1 (os.map (.go t)) := by
    simp only [trace, List.mem_append, Option.mem_toList] at hdone
    rcases hdone with hdone | hdone
    · rw [e1] at hdone; simp at hdone
    · exact hdone
  obtain ⟨h1, h2⟩ := alone t os _ hx (Or.inl hd)
  have ha : after State.init (as ++ .export t :: os.map (.go t)) =
      after (step (after State.init as) (.export t)).1 (os.map (.go t)) := by rw [run_after_append]; rfl
  have hc := conservation_all (as ++ .export t :: os.map (.go t)) k (by
    rw [ha]
    intro u
    by_cases hu : u = t
    · subst hu; rw [h1]; rfl
    · rw [alone_others t u hu, e1]
      show (upd (after State.init as).threads t _ u).holds = none
      rw [upd_ne _ _ hu, hidle u]; rfl)
  rw [run_trace_append, collectedAll_append, handledAll_append, ha] at hc
  have hp : pending (after (step (after State.init as) (.export t)).1 (os.map (.go t))) k = 0 := by
    unfold pending overShards
    have : (List.range 16).map (fun i => pendingOn (after (step (after State.init as) (.export t)).1 (os.map (.go t))) i k) =
        (List.range 16).map (fun _ => 0) := by
      apply List.map_congr_left
      intro i hi
      exact h2 i (List.mem_range.1 hi) k
    rw [this]; rfl
  have hn : handledAll k (trace (after State.init as) (.export t :: os.map (.go t))) = 0 := by
    simp only [trace]
    rw [handledAll_append, alone_not_handled t k os _ hx, e1]; rfl
  rw [hp, hn] at hc
  omega

/-- Two events on two shards, then an export alone. -/
def twoThenExport : List Action :=
  [.count 1 5 [asc "k", asc "a"], .go 1 [], .go 1 [], .go 1 [], .go 1 [],
   .count 2 32 [asc "k", asc "a"], .go 2 [], .go 2 [], .go 2 [], .go 2 []]

example : handledAll [asc "k", asc "a"] (trace State.init twoThenExport) = 2 ∧
    .exported 3 ∈ trace (after State.init twoThenExport) (.export 3 :: ([[[asc "k", asc "a"]]] ++ List.replicate 12 [] ++
      [[[asc "k", asc "a"]]] ++ List.replicate 30 []).map (.go 3)) := by decide +kernel

example (u : Nat) : (after State.init twoThenExport).threads u = .idle := by
  by_cases h1 : u = 1
  · subst h1; decide
  by_cases h2 : u = 2
  · subst h2; decide
  · simp [after, twoThenExport, step, go, State.init, upd, updMap, mset, h1, h2]

end Verif.Stats.All
