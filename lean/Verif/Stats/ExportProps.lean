import Verif.Stats.WindowProps

/-!
# C74: an export reports everything handled before it began
-/

namespace Verif.Stats

/-- Where the export of a goroutine has got to: `H` has been collected from the shards and
keys it has left behind. -/
def Progress (H : Nat → Key → Nat) (tr : List Ev) : Thread → Prop
  | .expWait i => ∀ j k, j < i → H j k ≤ collectedOn j k tr
  | .expIn i todo => (∀ j k, j < i → H j k ≤ collectedOn j k tr) ∧ ∀ k, k ∉ todo → H i k ≤ collectedOn i k tr
  | .expRead i key _ todo => (∀ j k, j < i → H j k ≤ collectedOn j k tr) ∧
      ∀ k, k ∉ key :: todo → H i k ≤ collectedOn i k tr
  | .expZeroed i key v todo => (∀ j k, j < i → H j k ≤ collectedOn j k tr) ∧
      (∀ k, k ∉ key :: todo → H i k ≤ collectedOn i k tr) ∧ H i key ≤ collectedOn i key tr + v
  | _ => False

/-- `H` has been collected. -/
def Done (H : Nat → Key → Nat) (tr : List Ev) : Prop := ∀ j k, j < 16 → H j k ≤ collectedOn j k tr

/-- The balance of `conservation`, shard by shard. -/
def Bal (s : State) (tr : List Ev) : Prop :=
  ∀ i k, collectedOn i k tr + pendingOn s i k + takenOn s i k = handledOn i k tr + countedOn s i k

theorem collectedOn_mono (i : Nat) (k : Key) (tr e : List Ev) : collectedOn i k tr ≤ collectedOn i k (tr ++ e) := by
  rw [collectedOn_append]; omega

theorem Progress.mono {H : Nat → Key → Nat} {tr : List Ev} {th : Thread} (e : List Ev) (h : Progress H tr th) :
    Progress H (tr ++ e) th := by
  have m := fun i k => collectedOn_mono i k tr e
  cases th with
  | expWait i => exact fun j k hj => Nat.le_trans (h j k hj) (m j k)
  | expIn i todo => exact ⟨fun j k hj => Nat.le_trans (h.1 j k hj) (m j k), fun k hk => Nat.le_trans (h.2 k hk) (m i k)⟩
  | expRead i key v todo => exact ⟨fun j k hj => Nat.le_trans (h.1 j k hj) (m j k), fun k hk => Nat.le_trans (h.2 k hk) (m i k)⟩
  | expZeroed i key v todo =>
    exact ⟨fun j k hj => Nat.le_trans (h.1 j k hj) (m j k), fun k hk => Nat.le_trans (h.2.1 k hk) (m i k),
      Nat.le_trans h.2.2 (Nat.add_le_add_right (m i key) v)⟩
  | _ => exact h

theorem Done.mono {H : Nat → Key → Nat} {tr : List Ev} (e : List Ev) (h : Done H tr) : Done H (tr ++ e) :=
  fun j k hj => Nat.le_trans (h j k hj) (collectedOn_mono j k tr e)

/-- Steps of other goroutines leave a goroutine where it is. -/
theorem step_other (s : State) (a : Action) (t : Nat)
    (h : match a with | .count u _ _ => u ≠ t | .countBad u _ => u ≠ t | .export u => u ≠ t | .go u _ => u ≠ t) :
    (step s a).1.threads t = s.threads t ∧ (step s a).2 ≠ some (.exported t) := by
  have w : ∀ u th, u ≠ t → upd s.threads u th t = s.threads t := fun u th hu => upd_ne _ _ (Ne.symm hu)
  cases a with
  | count u g k => simp only [step]; split <;> simp [w u _ h]
  | countBad u g => simp only [step]; split <;> simp [w u _ h]
  | «export» u => simp only [step]; split <;> simp [w u _ h]
  | go u order =>
    simp only at h
    simp only [step, go]
    split
    · simp
    · split <;> simp [w u _ h]
    · split <;> simp [w u _ h]
    · simp [w u _ h]
    · simp [w u _ h]
    · split <;> simp [w u _ h]
    · simp [w u _ h]
    · split
      · simp [w u _ h, h]
      · split
        · split <;> simp [w u _ h]
        · simp
    · simp [w u _ h]
    · simp [w u _ h]
    · simp [w u _ h]
    · simp [w u _ h]

theorem lookup_none_of_not_mem (m : List (Key × Nat)) (k : Key) (h : k ∉ m.map Prod.fst) : m.lookup k = none := by
  induction m with
  | nil => rfl
  | cons p m ih =>
    simp only [List.map_cons, List.mem_cons, not_or] at h
    rw [List.lookup_cons, show (k == p.1) = false by simpa using h.1]
    exact ih h.2

/-- The exporter's own step. -/
theorem go_progress (H : Nat → Key → Nat) (s : State) (hi : Inv s) (tr : List Ev) (hb : Bal s tr)
    (hH : ∀ i k, H i k ≤ handledOn i k tr) (t : Nat) (order : List Key) (hp : Progress H tr (s.threads t)) :
    (Progress H (tr ++ (go s t order).2.toList) ((go s t order).1.threads t) ∧ (go s t order).2 ≠ some (.exported t)) ∨
    Done H (tr ++ (go s t order).2.toList) := by
  unfold go
  cases hth : s.threads t with
  | expWait i =>
    rw [hth] at hp
    simp only
    by_cases h16 : 16 ≤ i
    · rw [if_pos h16]
      right
      exact Done.mono _ fun j k hj => hp j k (by omega)
    · rw [if_neg h16]
      left
      cases hl : s.lock i with
      | some u => exact ⟨by rw [hth]; exact hp.mono _, by simp⟩
      | none =>
        simp only
        split
        · rename_i hperm
          refine ⟨?_, by simp⟩
          simp only [upd_same, Option.toList_none, List.append_nil]
          refine ⟨hp, fun k hk => ?_⟩
          have hmem : k ∉ (s.map i).map Prod.fst := fun hm => hk ((List.isPerm_iff.mp hperm).mem_iff.mpr hm)
          have h1 := hb i k
          have h2 : pendingOn s i k = 0 := by unfold pendingOn; rw [lookup_none_of_not_mem _ _ hmem]; rfl
          have h3 : takenOn s i k = 0 := by unfold takenOn; rw [hl]; rfl
          have h4 := hH i k
          omega
        · exact ⟨by rw [hth]; exact hp.mono _, by simp⟩
  | expIn i todo =>
    rw [hth] at hp
    left
    cases todo with
    | nil =>
      refine ⟨?_, by simp⟩
      simp only [upd_same, Option.toList_none, List.append_nil]
      intro j k hj
      by_cases hji : j < i
      · exact hp.1 j k hji
      · have : j = i := by omega
        subst this
        exact hp.2 k (by simp)
    | cons key todo =>
      refine ⟨?_, by simp⟩
      simp only [upd_same, Option.toList_none, List.append_nil]
      exact hp
  | expRead i key v todo =>
    have hlk := hi.owner t i (by rw [hth]; rfl)
    have hm := hi.expRead t i key v todo hth
    rw [hth] at hp
    left
    refine ⟨?_, by simp⟩
    simp only [upd_same, Option.toList_none, List.append_nil]
    refine ⟨hp.1, hp.2, ?_⟩
    have h1 := hb i key
    have h2 : pendingOn s i key = v := hm
    have h3 : takenOn s i key = 0 := by unfold takenOn; rw [hlk]; simp only [Option.map_some, Option.getD_some, hth]; rfl
    have h4 := hH i key
    omega
  | expZeroed i key v todo =>
    rw [hth] at hp
    left
    refine ⟨?_, by simp⟩
    simp only [upd_same, Option.toList_some]
    have m := fun i k => collectedOn_mono i k tr [.collected i key v]
    refine ⟨fun j k hj => Nat.le_trans (hp.1 j k hj) (collectedOn_mono j k _ _), fun k hk => ?_⟩
    by_cases hkk : k = key
    · subst hkk
      rw [collectedOn_append]
      have : collectedOn i k [.collected i k v] = v := by simp [collectedOn]
      rw [this]
      exact hp.2.2
    · exact Nat.le_trans (hp.2.1 k (by simp [hkk, hk])) (collectedOn_mono i k _ _)
  | _ => rw [hth] at hp; exact absurd hp (by simp [Progress])

theorem export_run (H : Nat → Key → Nat) (t : Nat) : ∀ (as : List Action) (s : State) (tr : List Ev), Inv s → Bal s tr →
    (∀ i k, H i k ≤ handledOn i k tr) → Progress H tr (s.threads t) → .exported t ∈ trace s as →
    Done H (tr ++ trace s as) := by
  intro as
  induction as with
  | nil => intro s tr _ _ _ _ h; simp [trace] at h
  | cons a as ih =>
    intro s tr hi hb hH hp hx
    obtain ⟨hi', hbal⟩ := step_ok s hi a
    have hb' : Bal (step s a).1 (tr ++ (step s a).2.toList) := by
      intro i k
      have h1 := hbal i k
      have h2 := hb i k
      rw [collectedOn_append, handledOn_append]
      omega
    have hH' : ∀ i k, H i k ≤ handledOn i k (tr ++ (step s a).2.toList) := by
      intro i k; rw [handledOn_append]; have := hH i k; omega
    have key : (Progress H (tr ++ (step s a).2.toList) ((step s a).1.threads t) ∧ (step s a).2 ≠ some (.exported t)) ∨
        Done H (tr ++ (step s a).2.toList) := by
      have busy : s.threads t ≠ .idle := by intro h; rw [h] at hp; exact hp
      have other : ∀ (u : Nat), u ≠ t → (step s a).1.threads t = s.threads t ∧ (step s a).2 ≠ some (.exported t) →
          (Progress H (tr ++ (step s a).2.toList) ((step s a).1.threads t) ∧ (step s a).2 ≠ some (.exported t)) ∨
          Done H (tr ++ (step s a).2.toList) := by
        intro u _ h; left; rw [h.1]; exact ⟨hp.mono _, h.2⟩
      have stay : step s a = (s, none) → (Progress H (tr ++ (step s a).2.toList) ((step s a).1.threads t) ∧
          (step s a).2 ≠ some (.exported t)) ∨ Done H (tr ++ (step s a).2.toList) := by
        intro h; rw [h]; left; exact ⟨hp.mono _, by simp⟩
      cases a with
      | count u g k =>
        by_cases hu : u = t
        · subst hu
          apply stay
          simp only [step]
        · exact other u hu (step_other s _ t hu)
      | countBad u g =>
        by_cases hu : u = t
        · subst hu
          apply stay
          simp only [step]
        · exact other u hu (step_other s _ t hu)
      | «export» u =>
        by_cases hu : u = t
        · subst hu
          apply stay
          simp only [step]
        · exact other u hu (step_other s _ t hu)
      | go u order =>
        by_cases hu : u = t
        · subst hu; exact go_progress H s hi tr hb hH u order hp
        · exact other u hu (step_other s _ t hu)
    rw [trace, ← List.append_assoc]
    rcases key with ⟨hp', hne⟩ | hd
    · refine ih _ _ hi' hb' hH' hp' ?_
      simp only [trace, List.mem_append, Option.mem_toList] at hx
      rcases hx with hx | hx
      · exact absurd hx hne
      · exact hx
    · exact hd.mono _

theorem overShards_le (f g : Nat → Nat) (h : ∀ i, i < 16 → f i ≤ g i) : overShards f ≤ overShards g := by
  unfold overShards
  have : ∀ l : List Nat, (∀ i ∈ l, i < 16) → (l.map f).sum ≤ (l.map g).sum := by
    intro l
    induction l with
    | nil => intro _; exact Nat.le_refl _
    | cons a l ih =>
      intro hl
      simp only [List.map_cons, List.sum_cons]
      exact Nat.add_le_add (h a (hl a (List.mem_cons_self ..))) (ih fun i hi => hl i (List.mem_cons_of_mem _ hi))
  exact this _ (by simp)

theorem trace_append (s : State) (a b : List Action) : trace s (a ++ b) = trace s a ++ trace (after s a) b := by
  induction a generalizing s with
  | nil => rfl
  | cons x a ih => simp only [List.cons_append, trace, after, ih, List.append_assoc]

/-- C74: when a call of `Export` returns, everything handled before the call has been given
to the collector, for every key and in every interleaving with other goroutines. -/
theorem export_complete (before during : List Action) (t : Nat) (k : Key)
    (hidle : (after State.init before).threads t = .idle)
    (hret : .exported t ∈ trace (after State.init (before ++ [.export t])) during) :
    handled k (trace State.init before) ≤ collected k (trace State.init (before ++ .export t :: during)) := by
  obtain ⟨hi, hrun⟩ := run_ok (before ++ [.export t]) State.init init_inv
  have hstart : (after State.init (before ++ [.export t])).threads t = .expWait 0 ∧
      trace State.init (before ++ [.export t]) = trace State.init before := by
    have ha : ∀ (s : State) (l : List Action), after s (l ++ [.export t]) = (step (after s l) (.export t)).1 := by
      intro s l
      induction l generalizing s with
      | nil => rfl
      | cons x l ih => exact ih _
    rw [trace_append, ha]
    simp only [trace, step, hidle, upd_same]
    simp
  have hbal : Bal (after State.init (before ++ [.export t])) (trace State.init (before ++ [.export t])) := by
    intro i k
    have := hrun i k
    have e1 : countedOn State.init i k = 0 := rfl
    have e2 : pendingOn State.init i k = 0 := rfl
    have e3 : takenOn State.init i k = 0 := rfl
    omega
  have hd := export_run (fun i k => handledOn i k (trace State.init before)) t during _ _ hi hbal
    (by intro i k; rw [hstart.2]; exact Nat.le_refl _)
    (by rw [hstart.1]; intro j k hj; omega) hret
  rw [← trace_append] at hd
  have hl : before ++ [Action.export t] ++ during = before ++ .export t :: during := by simp
  rw [hl] at hd
  exact overShards_le _ _ (fun i hi => hd i k hi)

/-- In `sampleRun` the export begins after one event was handled. -/
example : handled [asc "k", asc "a"] (trace State.init (sampleRun.take 7)) = 1 ∧
    collected [asc "k", asc "a"] (trace State.init sampleRun) = 1 ∧
    Ev.exported 3 ∈ trace (after State.init (sampleRun.take 8)) (sampleRun.drop 8) := by decide +kernel

end Verif.Stats
