import Verif.Stats.Window

/-!
# C28: no counted event is lost or counted twice; C73: a panic while counting
-/

namespace Verif.Stats

/-! ### Counting in traces -/

/-- Events with key `k` handled on shard `i`. -/
def handledOn (i : Nat) (k : Key) (tr : List Ev) : Nat := tr.countP (fun e => e = .handled i k)

/-- Sum of the values collected for key `k` from shard `i`. -/
def collectedOn (i : Nat) (k : Key) : List Ev → Nat
  | [] => 0
  | .collected j l v :: tr => (if j = i ∧ l = k then v else 0) + collectedOn i k tr
  | _ :: tr => collectedOn i k tr

/-- Pending count of key `k` on shard `i`. -/
def pendingOn (s : State) (i : Nat) (k : Key) : Nat := ((s.map i).lookup k).getD 0

/-! ### Mutual exclusion -/

/-- The shard whose lock this goroutine holds. -/
def Thread.holds : Thread → Option Nat
  | .locked i _ => some i
  | .read i _ _ => some i
  | .written i _ => some i
  | .badLocked i => some i
  | .expIn i _ => some i
  | .expRead i _ _ _ => some i
  | .expZeroed i _ _ _ => some i
  | _ => none

/-- Taken from the counter and not yet given to the collector. -/
def Thread.taken (i : Nat) (k : Key) : Thread → Nat
  | .expZeroed j l v _ => if j = i ∧ l = k then v else 0
  | _ => 0

/-- Counted, and the call has not returned yet. -/
def Thread.counted (i : Nat) (k : Key) : Thread → Nat
  | .written j l => if j = i ∧ l = k then 1 else 0
  | _ => 0

/-- The same for the owner of the lock of shard `i`. -/
def takenOn (s : State) (i : Nat) (k : Key) : Nat := ((s.lock i).map (fun t => (s.threads t).taken i k)).getD 0
def countedOn (s : State) (i : Nat) (k : Key) : Nat := ((s.lock i).map (fun t => (s.threads t).counted i k)).getD 0

structure Inv (s : State) : Prop where
  owner : ∀ t i, (s.threads t).holds = some i → s.lock i = some t
  read : ∀ t i k v, s.threads t = .read i k v → (s.map i).lookup k = some v
  expRead : ∀ t i k v todo, s.threads t = .expRead i k v todo → ((s.map i).lookup k).getD 0 = v

theorem upd_same {β : Type} (f : Nat → β) (a : Nat) (b : β) : upd f a b a = b := by simp [upd]
theorem upd_ne {β : Type} (f : Nat → β) {a x : Nat} (b : β) (h : x ≠ a) : upd f a b x = f x := by simp [upd, h]

theorem lookup_mset : ∀ (m : List (Key × Nat)) (k l : Key) (v : Nat),
    (mset m k v).lookup l = if l = k then some v else m.lookup l := by
  intro m
  induction m with
  | nil =>
    intro k l v
    simp only [mset, List.lookup_cons, List.lookup_nil]
    by_cases h : l = k
    · simp [h]
    · have : (l == k) = false := by simpa using h
      simp [this, h]
  | cons p m ih =>
    obtain ⟨k', v'⟩ := p
    intro k l v
    unfold mset
    by_cases hk : k' = k
    · subst hk
      rw [if_pos rfl, List.lookup_cons, List.lookup_cons]
      by_cases h : l = k'
      · simp [h]
      · have : (l == k') = false := by simpa using h
        simp [this, h]
    · rw [if_neg hk, List.lookup_cons, List.lookup_cons, ih]
      by_cases h : l = k'
      · subst h
        have : l ≠ k := hk
        simp [this]
      · have : (l == k') = false := by simpa using h
        simp [this]

theorem lookup_updMap (m : Nat → List (Key × Nat)) (i j : Nat) (k l : Key) (v : Nat) :
    (updMap m i k v j).lookup l = if j = i ∧ l = k then some v else (m j).lookup l := by
  unfold updMap
  by_cases h : j = i
  · subst h; rw [upd_same, lookup_mset]; simp
  · rw [upd_ne _ _ h]; simp [h]

/-- What one step does to the balance of every counter. -/
def Balance (s s' : State) (e : Option Ev) : Prop :=
  ∀ i k, collectedOn i k e.toList + pendingOn s' i k + takenOn s' i k + countedOn s i k =
    handledOn i k e.toList + countedOn s' i k + pendingOn s i k + takenOn s i k

/-- Goroutine `t` at shard `j` steps from `th` to `th'`. -/
structure Local (s s' : State) (e : Option Ev) (t j : Nat) (th th' : Thread) : Prop where
  before : s.threads t = th
  threads : s'.threads = upd s.threads t th'
  lock : ∀ i, i ≠ j → s'.lock i = s.lock i
  map : ∀ i, i ≠ j → s'.map i = s.map i
  only : ∀ i k, i ≠ j → th.taken i k = 0 ∧ th.counted i k = 0 ∧ th'.taken i k = 0 ∧ th'.counted i k = 0
  event : ∀ i k, i ≠ j → collectedOn i k e.toList = 0 ∧ handledOn i k e.toList = 0

theorem balance_local {s s' : State} {e : Option Ev} {t j : Nat} {th th' : Thread} (h : Local s s' e t j th th')
    (hj : ∀ k, collectedOn j k e.toList + pendingOn s' j k + takenOn s' j k + countedOn s j k =
      handledOn j k e.toList + countedOn s' j k + pendingOn s j k + takenOn s j k) : Balance s s' e := by
  intro i k
  by_cases hi : i = j
  · subst hi; exact hj k
  · obtain ⟨h1, h2⟩ := h.event i k hi
    obtain ⟨h3, h4, h5, h6⟩ := h.only i k hi
    have ht : takenOn s' i k = takenOn s i k ∧ countedOn s' i k = countedOn s i k := by
      unfold takenOn countedOn
      rw [h.lock i hi, h.threads]
      cases s.lock i with
      | none => exact ⟨rfl, rfl⟩
      | some u =>
        simp only [Option.map_some, Option.getD_some]
        by_cases hu : u = t
        · subst hu; rw [upd_same, h.before, h3, h4, h5, h6]; exact ⟨rfl, rfl⟩
        · rw [upd_ne _ _ hu]; exact ⟨rfl, rfl⟩
    have hp : pendingOn s' i k = pendingOn s i k := by unfold pendingOn; rw [h.map i hi]
    rw [h1, h2, ht.1, ht.2, hp]
    omega

/-- The invariant after such a step. -/
theorem inv_local {s s' : State} {e : Option Ev} {t j : Nat} {th th' : Thread} (hi : Inv s) (h : Local s s' e t j th th')
    (hown : ∀ i, th'.holds = some i → s'.lock i = some t)
    (hother : ∀ u, u ≠ t → (s.threads u).holds = some j → s'.lock j = some u ∧ s'.map j = s.map j)
    (hread : ∀ i k v, th' = .read i k v → (s'.map i).lookup k = some v)
    (hexp : ∀ i k v todo, th' = .expRead i k v todo → ((s'.map i).lookup k).getD 0 = v) : Inv s' := by
  constructor
  · intro u i hu
    rw [h.threads] at hu
    by_cases hut : u = t
    · subst hut; rw [upd_same] at hu; exact hown i hu
    · rw [upd_ne _ _ hut] at hu
      by_cases hij : i = j
      · subst hij; exact (hother u hut hu).1
      · rw [h.lock i hij]; exact hi.owner u i hu
  · intro u i k v hu
    rw [h.threads] at hu
    by_cases hut : u = t
    · subst hut; rw [upd_same] at hu; exact hread i k v hu
    · rw [upd_ne _ _ hut] at hu
      have hh : (s.threads u).holds = some i := by rw [hu]; rfl
      by_cases hij : i = j
      · subst hij; rw [(hother u hut hh).2]; exact hi.read u i k v hu
      · rw [h.map i hij]; exact hi.read u i k v hu
  · intro u i k v todo hu
    rw [h.threads] at hu
    by_cases hut : u = t
    · subst hut; rw [upd_same] at hu; exact hexp i k v todo hu
    · rw [upd_ne _ _ hut] at hu
      have hh : (s.threads u).holds = some i := by rw [hu]; rfl
      by_cases hij : i = j
      · subst hij; rw [(hother u hut hh).2]; exact hi.expRead u i k v todo hu
      · rw [h.map i hij]; exact hi.expRead u i k v todo hu

theorem go_ok (s : State) (hi : Inv s) (t : Nat) (order : List Key) :
    Inv (go s t order).1 ∧ Balance s (go s t order).1 (go s t order).2 := by
  have stay : Inv s ∧ Balance s s none := ⟨hi, fun i k => by simp [collectedOn, handledOn]; omega⟩
  -- nobody else is inside a shard whose lock goroutine `t` holds, or whose lock is free
  have excl : ∀ j, s.lock j = none ∨ s.lock j = some t → ∀ u, u ≠ t → (s.threads u).holds ≠ some j := by
    intro j hj u hu hh
    have := hi.owner u j hh
    rcases hj with h | h
    · rw [h] at this; simp at this
    · rw [h] at this; simp at this; exact hu this.symm
  unfold go
  cases hth : s.threads t with
  | idle => exact stay
  | wait i key =>
    simp only
    cases hl : s.lock i with
    | some u => exact stay
    | none =>
      have L : Local s { s with lock := upd s.lock i (some t), threads := upd s.threads t (.locked i key) } none t i
          (.wait i key) (.locked i key) :=
        ⟨hth, rfl, fun x hx => upd_ne _ _ hx, fun _ _ => rfl, fun _ _ _ => ⟨rfl, rfl, rfl, rfl⟩, fun _ _ _ => ⟨rfl, rfl⟩⟩
      refine ⟨inv_local hi L ?_ ?_ (by intro _ _ _ h; simp at h) (by intro _ _ _ _ h; simp at h), balance_local L ?_⟩
      · intro x hx; simp only [Thread.holds, Option.some.injEq] at hx; subst hx; exact upd_same _ _ _
      · intro u hu hh; exact absurd hh (excl i (Or.inl hl) u hu)
      · intro k; simp [collectedOn, handledOn, pendingOn, takenOn, countedOn, upd_same, hl, Thread.taken, Thread.counted]
  | locked i key =>
    have hlk := hi.owner t i (by rw [hth]; rfl)
    simp only
    cases hm : (s.map i).lookup key with
    | some v =>
      have L : Local s { s with threads := upd s.threads t (.read i key v) } none t i (.locked i key) (.read i key v) :=
        ⟨hth, rfl, fun _ _ => rfl, fun _ _ => rfl, fun _ _ _ => ⟨rfl, rfl, rfl, rfl⟩, fun _ _ _ => ⟨rfl, rfl⟩⟩
      refine ⟨inv_local hi L ?_ ?_ ?_ (by intro _ _ _ _ h; simp at h), balance_local L ?_⟩
      · intro x hx; simp only [Thread.holds, Option.some.injEq] at hx; subst hx; exact hlk
      · intro u hu hh; exact absurd hh (excl i (Or.inr hlk) u hu)
      · intro x k w h
        simp only [Thread.read.injEq] at h
        obtain ⟨rfl, rfl, rfl⟩ := h
        exact hm
      · intro k; simp [collectedOn, handledOn, pendingOn, takenOn, countedOn, upd_same, hlk, hth, Thread.taken, Thread.counted]
    | none =>
      have L : Local s { s with map := updMap s.map i key 0, threads := upd s.threads t (.read i key 0) } none t i
          (.locked i key) (.read i key 0) :=
        ⟨hth, rfl, fun _ _ => rfl, fun _ hx => upd_ne _ _ hx, fun _ _ _ => ⟨rfl, rfl, rfl, rfl⟩, fun _ _ _ => ⟨rfl, rfl⟩⟩
      refine ⟨inv_local hi L ?_ ?_ ?_ (by intro _ _ _ _ h; simp at h), balance_local L ?_⟩
      · intro x hx; simp only [Thread.holds, Option.some.injEq] at hx; subst hx; exact hlk
      · intro u hu hh; exact absurd hh (excl i (Or.inr hlk) u hu)
      · intro x k w h
        simp only [Thread.read.injEq] at h
        obtain ⟨rfl, rfl, rfl⟩ := h
        simp [lookup_updMap]
      · intro k
        simp only [pendingOn, takenOn, countedOn, lookup_updMap]
        by_cases hk : k = key
        · subst hk; simp [hm, collectedOn, handledOn, upd_same, hlk, hth, Thread.taken, Thread.counted]
        · simp [hk, collectedOn, handledOn, upd_same, hlk, hth, Thread.taken, Thread.counted]
  | read i key v =>
    have hlk := hi.owner t i (by rw [hth]; rfl)
    have hm := hi.read t i key v hth
    have L : Local s { s with map := updMap s.map i key (v + 1), threads := upd s.threads t (.written i key) } none t i
        (.read i key v) (.written i key) :=
      ⟨hth, rfl, fun _ _ => rfl, fun _ hx => upd_ne _ _ hx,
        fun x k hx => ⟨rfl, rfl, rfl, by simp [Thread.counted, Ne.symm hx]⟩, fun _ _ _ => ⟨rfl, rfl⟩⟩
    refine ⟨inv_local hi L ?_ ?_ (by intro _ _ _ h; simp at h) (by intro _ _ _ _ h; simp at h), balance_local L ?_⟩
    · intro x hx; simp only [Thread.holds, Option.some.injEq] at hx; subst hx; exact hlk
    · intro u hu hh; exact absurd hh (excl i (Or.inr hlk) u hu)
    · intro k
      simp only [pendingOn, takenOn, countedOn, lookup_updMap]
      by_cases hk : k = key
      · subst hk; simp [hm, collectedOn, handledOn, upd_same, hlk, hth, Thread.taken, Thread.counted]; omega
      · simp [hk, Ne.symm hk, collectedOn, handledOn, upd_same, hlk, hth, Thread.taken, Thread.counted]
  | written i key =>
    have hlk := hi.owner t i (by rw [hth]; rfl)
    have L : Local s { s with lock := upd s.lock i none, threads := upd s.threads t .idle } (some (.handled i key)) t i
        (.written i key) .idle :=
      ⟨hth, rfl, fun _ hx => upd_ne _ _ hx, fun _ _ => rfl,
        fun x k hx => ⟨rfl, by simp [Thread.counted, Ne.symm hx], rfl, rfl⟩,
        fun x k hx => ⟨rfl, by simp [handledOn, Ne.symm hx]⟩⟩
    refine ⟨inv_local hi L (by intro x hx; simp [Thread.holds] at hx) ?_ (by intro _ _ _ h; simp at h)
      (by intro _ _ _ _ h; simp at h), balance_local L ?_⟩
    · intro u hu hh; exact absurd hh (excl i (Or.inr hlk) u hu)
    · intro k
      simp only [pendingOn, takenOn, countedOn]
      by_cases hk : key = k
      · subst hk; simp [collectedOn, handledOn, upd_same, hlk, hth, Thread.taken, Thread.counted]; omega
      · simp [hk, collectedOn, handledOn, upd_same, hlk, hth, Thread.taken, Thread.counted]
  | badWait i =>
    simp only
    cases hl : s.lock i with
    | some u => exact stay
    | none =>
      have L : Local s { s with lock := upd s.lock i (some t), threads := upd s.threads t (.badLocked i) } none t i
          (.badWait i) (.badLocked i) :=
        ⟨hth, rfl, fun x hx => upd_ne _ _ hx, fun _ _ => rfl, fun _ _ _ => ⟨rfl, rfl, rfl, rfl⟩, fun _ _ _ => ⟨rfl, rfl⟩⟩
      refine ⟨inv_local hi L ?_ ?_ (by intro _ _ _ h; simp at h) (by intro _ _ _ _ h; simp at h), balance_local L ?_⟩
      · intro x hx; simp only [Thread.holds, Option.some.injEq] at hx; subst hx; exact upd_same _ _ _
      · intro u hu hh; exact absurd hh (excl i (Or.inl hl) u hu)
      · intro k; simp [collectedOn, handledOn, pendingOn, takenOn, countedOn, upd_same, hl, Thread.taken, Thread.counted]
  | badLocked i =>
    have hlk := hi.owner t i (by rw [hth]; rfl)
    have L : Local s { s with threads := upd s.threads t .idle } (some (.panicked i)) t i (.badLocked i) .idle :=
      ⟨hth, rfl, fun _ _ => rfl, fun _ _ => rfl, fun _ _ _ => ⟨rfl, rfl, rfl, rfl⟩,
        fun x k hx => ⟨rfl, by simp [handledOn]⟩⟩
    refine ⟨inv_local hi L (by intro x hx; simp [Thread.holds] at hx) ?_ (by intro _ _ _ h; simp at h)
      (by intro _ _ _ _ h; simp at h), balance_local L ?_⟩
    · intro u hu hh; exact absurd hh (excl i (Or.inr hlk) u hu)
    · intro k; simp [collectedOn, handledOn, pendingOn, takenOn, countedOn, upd_same, hlk, hth, Thread.taken, Thread.counted]
  | expWait i =>
    simp only
    by_cases h16 : 16 ≤ i
    · rw [if_pos h16]
      have L : Local s { s with threads := upd s.threads t .idle } (some (.exported t)) t i (.expWait i) .idle :=
        ⟨hth, rfl, fun _ _ => rfl, fun _ _ => rfl, fun _ _ _ => ⟨rfl, rfl, rfl, rfl⟩,
          fun x k hx => ⟨rfl, by simp [handledOn]⟩⟩
      refine ⟨inv_local hi L (by intro x hx; simp [Thread.holds] at hx) ?_ (by intro _ _ _ h; simp at h)
        (by intro _ _ _ _ h; simp at h), balance_local L ?_⟩
      · intro u hu hh; exact ⟨hi.owner u i hh, rfl⟩
      · intro k
        simp only [handledOn, pendingOn, takenOn, countedOn]
        cases hl : s.lock i with
        | none => simp [collectedOn]
        | some u =>
          by_cases hu : u = t
          · subst hu; simp [upd_same, hth, Thread.taken, Thread.counted, collectedOn]
          · simp [upd_ne _ _ hu, collectedOn]; omega
    · rw [if_neg h16]
      cases hl : s.lock i with
      | some u => exact stay
      | none =>
        simp only
        split
        · have L : Local s { s with lock := upd s.lock i (some t), threads := upd s.threads t (.expIn i order) } none t i
              (.expWait i) (.expIn i order) :=
            ⟨hth, rfl, fun x hx => upd_ne _ _ hx, fun _ _ => rfl, fun _ _ _ => ⟨rfl, rfl, rfl, rfl⟩, fun _ _ _ => ⟨rfl, rfl⟩⟩
          refine ⟨inv_local hi L ?_ ?_ (by intro _ _ _ h; simp at h) (by intro _ _ _ _ h; simp at h), balance_local L ?_⟩
          · intro x hx; simp only [Thread.holds, Option.some.injEq] at hx; subst hx; exact upd_same _ _ _
          · intro u hu hh; exact absurd hh (excl i (Or.inl hl) u hu)
          · intro k; simp [collectedOn, handledOn, pendingOn, takenOn, countedOn, upd_same, hl, Thread.taken, Thread.counted]
        · exact stay
  | expIn i todo =>
    have hlk := hi.owner t i (by rw [hth]; rfl)
    cases todo with
    | nil =>
      have L : Local s { s with lock := upd s.lock i none, threads := upd s.threads t (.expWait (i + 1)) } none t i
          (.expIn i []) (.expWait (i + 1)) :=
        ⟨hth, rfl, fun _ hx => upd_ne _ _ hx, fun _ _ => rfl, fun _ _ _ => ⟨rfl, rfl, rfl, rfl⟩, fun _ _ _ => ⟨rfl, rfl⟩⟩
      refine ⟨inv_local hi L (by intro x hx; simp [Thread.holds] at hx) ?_ (by intro _ _ _ h; simp at h)
        (by intro _ _ _ _ h; simp at h), balance_local L ?_⟩
      · intro u hu hh; exact absurd hh (excl i (Or.inr hlk) u hu)
      · intro k; simp [collectedOn, handledOn, pendingOn, takenOn, countedOn, upd_same, hlk, hth, Thread.taken, Thread.counted]
    | cons key todo =>
      have L : Local s { s with threads := upd s.threads t (.expRead i key (((s.map i).lookup key).getD 0) todo) } none t i
          (.expIn i (key :: todo)) (.expRead i key (((s.map i).lookup key).getD 0) todo) :=
        ⟨hth, rfl, fun _ _ => rfl, fun _ _ => rfl, fun _ _ _ => ⟨rfl, rfl, rfl, rfl⟩, fun _ _ _ => ⟨rfl, rfl⟩⟩
      refine ⟨inv_local hi L ?_ ?_ (by intro _ _ _ h; simp at h) ?_, balance_local L ?_⟩
      · intro x hx; simp only [Thread.holds, Option.some.injEq] at hx; subst hx; exact hlk
      · intro u hu hh; exact absurd hh (excl i (Or.inr hlk) u hu)
      · intro x k w td h
        simp only [Thread.expRead.injEq] at h
        obtain ⟨rfl, rfl, rfl, rfl⟩ := h
        rfl
      · intro k; simp [collectedOn, handledOn, pendingOn, takenOn, countedOn, upd_same, hlk, hth, Thread.taken, Thread.counted]
  | expRead i key v todo =>
    have hlk := hi.owner t i (by rw [hth]; rfl)
    have hm := hi.expRead t i key v todo hth
    have L : Local s { s with map := updMap s.map i key 0, threads := upd s.threads t (.expZeroed i key v todo) } none t i
        (.expRead i key v todo) (.expZeroed i key v todo) :=
      ⟨hth, rfl, fun _ _ => rfl, fun _ hx => upd_ne _ _ hx,
        fun x k hx => ⟨rfl, rfl, by simp [Thread.taken, Ne.symm hx], rfl⟩, fun _ _ _ => ⟨rfl, rfl⟩⟩
    refine ⟨inv_local hi L ?_ ?_ (by intro _ _ _ h; simp at h) (by intro _ _ _ _ h; simp at h), balance_local L ?_⟩
    · intro x hx; simp only [Thread.holds, Option.some.injEq] at hx; subst hx; exact hlk
    · intro u hu hh; exact absurd hh (excl i (Or.inr hlk) u hu)
    · intro k
      simp only [pendingOn, takenOn, countedOn, lookup_updMap]
      by_cases hk : k = key
      · subst hk; simp [hm, collectedOn, handledOn, upd_same, hlk, hth, Thread.taken, Thread.counted]
      · simp [hk, Ne.symm hk, collectedOn, handledOn, upd_same, hlk, hth, Thread.taken, Thread.counted]
  | expZeroed i key v todo =>
    have hlk := hi.owner t i (by rw [hth]; rfl)
    have L : Local s { s with threads := upd s.threads t (.expIn i todo) } (some (.collected i key v)) t i
        (.expZeroed i key v todo) (.expIn i todo) :=
      ⟨hth, rfl, fun _ _ => rfl, fun _ _ => rfl,
        fun x k hx => ⟨by simp [Thread.taken, Ne.symm hx], rfl, rfl, rfl⟩,
        fun x k hx => ⟨by simp [collectedOn, Ne.symm hx], by simp [handledOn]⟩⟩
    refine ⟨inv_local hi L ?_ ?_ (by intro _ _ _ h; simp at h) (by intro _ _ _ _ h; simp at h), balance_local L ?_⟩
    · intro x hx; simp only [Thread.holds, Option.some.injEq] at hx; subst hx; exact hlk
    · intro u hu hh; exact absurd hh (excl i (Or.inr hlk) u hu)
    · intro k
      simp only [pendingOn, takenOn, countedOn]
      by_cases hk : key = k
      · subst hk; simp [collectedOn, handledOn, upd_same, hlk, hth, Thread.taken, Thread.counted]; omega
      · simp [hk, collectedOn, handledOn, upd_same, hlk, hth, Thread.taken, Thread.counted]

theorem step_ok (s : State) (hi : Inv s) (a : Action) : Inv (step s a).1 ∧ Balance s (step s a).1 (step s a).2 := by
  have stay : Inv s ∧ Balance s s none := ⟨hi, fun i k => by simp [collectedOn, handledOn]; omega⟩
  have start : ∀ t th', s.threads t = .idle → th'.holds = none → (∀ i k, th'.taken i k = 0 ∧ th'.counted i k = 0) →
      Inv { s with threads := upd s.threads t th' } ∧ Balance s { s with threads := upd s.threads t th' } none := by
    intro t th' ht hh hz
    constructor
    · have nh : ∀ u i, (upd s.threads t th' u).holds = some i → u ≠ t := by
        rintro u i hu rfl; rw [upd_same, hh] at hu; simp at hu
      constructor
      · intro u i hu
        simp only at hu ⊢
        have := nh u i hu
        rw [upd_ne _ _ this] at hu
        exact hi.owner u i hu
      · intro u i k v hu
        simp only at hu ⊢
        have := nh u i (by rw [hu]; rfl)
        rw [upd_ne _ _ this] at hu
        exact hi.read u i k v hu
      · intro u i k v todo hu
        simp only at hu ⊢
        have := nh u i (by rw [hu]; rfl)
        rw [upd_ne _ _ this] at hu
        exact hi.expRead u i k v todo hu
    · intro i k
      simp only [handledOn, pendingOn, takenOn, countedOn]
      cases hl : s.lock i with
      | none => simp [collectedOn]
      | some u =>
        by_cases hu : u = t
        · subst hu; simp only [Option.map_some, Option.getD_some, upd_same, ht, (hz i k).1, (hz i k).2]; simp [Thread.taken, Thread.counted, collectedOn]
        · simp [upd_ne _ _ hu, collectedOn]; omega
  cases a with
  | count t g key =>
    simp only [step]
    cases ht : s.threads t with
    | idle => exact start t _ ht rfl (fun _ _ => ⟨rfl, rfl⟩)
    | _ => exact stay
  | countBad t g =>
    simp only [step]
    cases ht : s.threads t with
    | idle => exact start t _ ht rfl (fun _ _ => ⟨rfl, rfl⟩)
    | _ => exact stay
  | «export» t =>
    simp only [step]
    cases ht : s.threads t with
    | idle => exact start t _ ht rfl (fun _ _ => ⟨rfl, rfl⟩)
    | _ => exact stay
  | go t order => exact go_ok s hi t order

theorem collectedOn_append (i : Nat) (k : Key) (a b : List Ev) :
    collectedOn i k (a ++ b) = collectedOn i k a + collectedOn i k b := by
  induction a with
  | nil => simp [collectedOn]
  | cons e a ih => cases e <;> simp [collectedOn, ih] <;> omega

theorem handledOn_append (i : Nat) (k : Key) (a b : List Ev) :
    handledOn i k (a ++ b) = handledOn i k a + handledOn i k b := by
  simp [handledOn]

theorem run_ok : ∀ (as : List Action) (s : State), Inv s → Inv (after s as) ∧
    ∀ i k, collectedOn i k (trace s as) + pendingOn (after s as) i k + takenOn (after s as) i k + countedOn s i k =
      handledOn i k (trace s as) + countedOn (after s as) i k + pendingOn s i k + takenOn s i k := by
  intro as
  induction as with
  | nil => intro s hi; exact ⟨hi, fun i k => by simp [trace, after, collectedOn, handledOn]; omega⟩
  | cons a as ih =>
    intro s hi
    obtain ⟨h1, h2⟩ := step_ok s hi a
    obtain ⟨h3, h4⟩ := ih _ h1
    refine ⟨h3, fun i k => ?_⟩
    have e1 := h2 i k
    have e2 := h4 i k
    simp only [trace, after, collectedOn_append, handledOn_append]
    omega

theorem init_inv : Inv State.init := ⟨by simp [State.init, Thread.holds], by simp [State.init], by simp [State.init]⟩

/-! ### C28 -/

/-- Sum over the 16 shards. -/
def overShards (f : Nat → Nat) : Nat := ((List.range 16).map f).sum

theorem overShards_add (f g : Nat → Nat) : overShards (fun i => f i + g i) = overShards f + overShards g := by
  unfold overShards
  induction List.range 16 with
  | nil => rfl
  | cons a l ih => simp only [List.map_cons, List.sum_cons, ih]; omega

/-- Events with key `k` handled, and the values collected for it, on all shards. -/
def handled (k : Key) (tr : List Ev) : Nat := overShards (fun i => handledOn i k tr)
def collected (k : Key) (tr : List Ev) : Nat := overShards (fun i => collectedOn i k tr)
def pending (s : State) (k : Key) : Nat := overShards (fun i => pendingOn s i k)

/-- C28: in every interleaving of counting and exporting goroutines, for every key the
collected values, the pending counts and what exporters have taken and not yet given to
the collector are together the number of events handled (and of those counted whose
call has not returned yet). -/
theorem conservation (as : List Action) (k : Key) :
    collected k (trace State.init as) + pending (after State.init as) k +
      overShards (fun i => takenOn (after State.init as) i k) =
    handled k (trace State.init as) + overShards (fun i => countedOn (after State.init as) i k) := by
  have h := (run_ok as State.init init_inv).2
  unfold collected pending handled
  rw [← overShards_add, ← overShards_add, ← overShards_add]
  congr 1
  funext i
  have := h i k
  have e1 : countedOn State.init i k = 0 := rfl
  have e2 : pendingOn State.init i k = 0 := rfl
  have e3 : takenOn State.init i k = 0 := rfl
  omega

/-- C28: whenever no call is inside a critical section, what was collected and what is
pending is exactly what was handled. -/
theorem conservation_quiescent (as : List Action) (k : Key)
    (hq : ∀ t, ((after State.init as).threads t).holds = none) :
    collected k (trace State.init as) + pending (after State.init as) k = handled k (trace State.init as) := by
  have h := conservation as k
  have hz : ∀ i, takenOn (after State.init as) i k = 0 ∧ countedOn (after State.init as) i k = 0 := by
    intro i
    unfold takenOn countedOn
    cases (after State.init as).lock i with
    | none => exact ⟨rfl, rfl⟩
    | some t =>
      have := hq t
      simp only [Option.map_some, Option.getD_some]
      cases hth : (after State.init as).threads t <;> rw [hth] at this <;>
        simp [Thread.holds] at this <;> exact ⟨rfl, rfl⟩
  have e1 : overShards (fun i => takenOn (after State.init as) i k) = 0 := by
    have : (fun i => takenOn (after State.init as) i k) = fun _ => 0 := by funext i; exact (hz i).1
    rw [this]; rfl
  have e2 : overShards (fun i => countedOn (after State.init as) i k) = 0 := by
    have : (fun i => countedOn (after State.init as) i k) = fun _ => 0 := by funext i; exact (hz i).2
    rw [this]; rfl
  omega

/-- Two goroutines count, a third exports while the second waits for the lock. -/
def sampleRun : List Action :=
  [.count 1 5 [asc "k", asc "a"], .go 1 [], .go 1 [], .count 2 21 [asc "k", asc "a"], .go 2 [], .go 1 [], .go 1 [],
   .export 3] ++ List.replicate 10 (.go 3 []) ++ [.go 3 [[asc "k", asc "a"]], .go 2 [], .go 3 [], .go 3 [], .go 3 [], .go 3 [],
   .go 2 [], .go 2 [], .go 2 [], .go 2 []] ++ List.replicate 30 (.go 3 [])

example : trace State.init sampleRun =
    [.handled 5 [asc "k", asc "a"], .collected 5 [asc "k", asc "a"] 1, .handled 5 [asc "k", asc "a"], .exported 3] ∧
    pending (after State.init sampleRun) [asc "k", asc "a"] = 1 := by decide +kernel

/-! ### C73 -/

/-- C73 fails: once `Handle` has panicked on a shard (an event whose dimension property is
missing or not a string), no call of `Handle` on this shard returns any more, and nothing
is exported from it, in every continuation. -/
theorem panic_blocks_shard (s : State) (i t : Nat) (hl : s.lock i = some t)
    (hn : ∀ u, (s.threads u).holds ≠ some i) (as : List Action) :
    (after s as).lock i = some t ∧ (∀ u, ((after s as).threads u).holds ≠ some i) ∧
    (∀ k, .handled i k ∉ trace s as) ∧ ∀ k v, .collected i k v ∉ trace s as := by
  induction as generalizing s with
  | nil => exact ⟨hl, hn, by simp [trace], by simp [trace]⟩
  | cons a as ih =>
    have key : (step s a).1.lock i = some t ∧ (∀ u, ((step s a).1.threads u).holds ≠ some i) ∧
        (∀ k, (step s a).2 ≠ some (.handled i k)) ∧ ∀ k v, (step s a).2 ≠ some (.collected i k v) := by
      have keep : s.lock i = some t ∧ (∀ u, (s.threads u).holds ≠ some i) ∧
          (∀ k, (none : Option Ev) ≠ some (.handled i k)) ∧ ∀ k v, (none : Option Ev) ≠ some (.collected i k v) :=
        ⟨hl, hn, by simp, by simp⟩
      have upd' : ∀ u th', th'.holds ≠ some i → ∀ w, (upd s.threads u th' w).holds ≠ some i := by
        intro u th' h w
        by_cases hw : w = u
        · subst hw; rw [upd_same]; exact h
        · rw [upd_ne _ _ hw]; exact hn w
      have lock' : ∀ j x, j ≠ i → upd s.lock j x i = some t := fun j x hj => by rw [upd_ne _ _ (Ne.symm hj)]; exact hl
      cases a with
      | count u g k =>
        simp only [step]
        split
        · exact ⟨hl, upd' u _ (by simp [Thread.holds]), by simp, by simp⟩
        · exact keep
      | countBad u g =>
        simp only [step]
        split
        · exact ⟨hl, upd' u _ (by simp [Thread.holds]), by simp, by simp⟩
        · exact keep
      | «export» u =>
        simp only [step]
        split
        · exact ⟨hl, upd' u _ (by simp [Thread.holds]), by simp, by simp⟩
        · exact keep
      | go u order =>
        have hu := hn u
        simp only [step, go]
        cases hth : s.threads u with
        | idle => exact keep
        | wait j k =>
          simp only
          cases hlj : s.lock j with
          | some x => exact keep
          | none =>
            have hj : j ≠ i := by rintro rfl; rw [hl] at hlj; simp at hlj
            exact ⟨lock' j _ hj, upd' u _ (by simpa [Thread.holds] using hj), by simp, by simp⟩
        | locked j k =>
          rw [hth] at hu
          have hj : j ≠ i := by simpa [Thread.holds] using hu
          simp only
          split
          · exact ⟨hl, upd' u _ (by simpa [Thread.holds] using hj), by simp, by simp⟩
          · exact ⟨hl, upd' u _ (by simpa [Thread.holds] using hj), by simp, by simp⟩
        | read j k v =>
          rw [hth] at hu
          have hj : j ≠ i := by simpa [Thread.holds] using hu
          exact ⟨hl, upd' u _ (by simpa [Thread.holds] using hj), by simp, by simp⟩
        | written j k =>
          rw [hth] at hu
          have hj : j ≠ i := by simpa [Thread.holds] using hu
          exact ⟨lock' j _ hj, upd' u _ (by simp [Thread.holds]), by simp [hj], by simp⟩
        | badWait j =>
          simp only
          cases hlj : s.lock j with
          | some x => exact keep
          | none =>
            have hj : j ≠ i := by rintro rfl; rw [hl] at hlj; simp at hlj
            exact ⟨lock' j _ hj, upd' u _ (by simpa [Thread.holds] using hj), by simp, by simp⟩
        | badLocked j => exact ⟨hl, upd' u _ (by simp [Thread.holds]), by simp, by simp⟩
        | expWait j =>
          simp only
          split
          · exact ⟨hl, upd' u _ (by simp [Thread.holds]), by simp, by simp⟩
          · cases hlj : s.lock j with
            | some x => exact keep
            | none =>
              have hj : j ≠ i := by rintro rfl; rw [hl] at hlj; simp at hlj
              simp only
              split
              · exact ⟨lock' j _ hj, upd' u _ (by simpa [Thread.holds] using hj), by simp, by simp⟩
              · exact keep
        | expIn j todo =>
          rw [hth] at hu
          have hj : j ≠ i := by simpa [Thread.holds] using hu
          cases todo with
          | nil => exact ⟨lock' j _ hj, upd' u _ (by simp [Thread.holds]), by simp, by simp⟩
          | cons k todo => exact ⟨hl, upd' u _ (by simpa [Thread.holds] using hj), by simp, by simp⟩
        | expRead j k v todo =>
          rw [hth] at hu
          have hj : j ≠ i := by simpa [Thread.holds] using hu
          exact ⟨hl, upd' u _ (by simpa [Thread.holds] using hj), by simp, by simp⟩
        | expZeroed j k v todo =>
          rw [hth] at hu
          have hj : j ≠ i := by simpa [Thread.holds] using hu
          exact ⟨hl, upd' u _ (by simpa [Thread.holds] using hj), by simp, by simp [hj]⟩
    obtain ⟨k1, k2, k3, k4⟩ := key
    obtain ⟨h1, h2, h3, h4⟩ := ih _ k1 k2
    refine ⟨h1, h2, ?_, ?_⟩
    · intro k hm
      simp only [trace, List.mem_append, Option.mem_toList] at hm
      rcases hm with hm | hm
      · exact k3 k hm
      · exact h3 k hm
    · intro k v hm
      simp only [trace, List.mem_append, Option.mem_toList] at hm
      rcases hm with hm | hm
      · exact k4 k v hm
      · exact h4 k v hm

/-- Such a state is reached by one event that makes the extractor panic, whichever goroutine logs it: the shard of the goroutine's id, where
its other events are counted, is blocked. -/
theorem panic_blocks_reachable (t g : Nat) :
    trace State.init [.countBad t g, .go t [], .go t []] = [.panicked (g % 16)] ∧
    (after State.init [.countBad t g, .go t [], .go t []]).lock (g % 16) = some t ∧
    ∀ u, ((after State.init [.countBad t g, .go t [], .go t []]).threads u).holds ≠ some (g % 16) := by
  refine ⟨by simp [trace, step, go, State.init, upd], by simp [after, step, go, State.init, upd], ?_⟩
  intro u
  by_cases hu : u = t
  · subst hu; simp [after, step, go, State.init, upd, Thread.holds]
  · simp [after, step, go, State.init, upd, hu, Thread.holds]

/-- C73, partial: as long as no event makes the extractor panic, a held lock is held by a
goroutine inside a critical section, which releases it after at most three further
steps of its own when counting. -/
theorem lock_owner_inside_partial (as : List Action) (h : ∀ t g, .countBad t g ∉ as) (i t : Nat)
    (hl : (after State.init as).lock i = some t) : ((after State.init as).threads t).holds = some i := by
  have gen : ∀ (as : List Action) (s : State), Inv s → (∀ t g, .countBad t g ∉ as) →
      (∀ i t, s.lock i = some t → (s.threads t).holds = some i) →
      (∀ t i, s.threads t ≠ .badWait i ∧ s.threads t ≠ .badLocked i) →
      ∀ i t, (after s as).lock i = some t → ((after s as).threads t).holds = some i := by
    intro as
    induction as with
    | nil => intro s _ _ h _; exact h
    | cons a as ih =>
      intro s hi hb hs hn
      have hnext : (∀ i t, (step s a).1.lock i = some t → ((step s a).1.threads t).holds = some i) ∧
          (∀ t i, (step s a).1.threads t ≠ .badWait i ∧ (step s a).1.threads t ≠ .badLocked i) := by
        -- a goroutine that holds nothing starts something
        have start : ∀ u th', s.threads u = .idle → (∀ i, th' ≠ .badWait i ∧ th' ≠ .badLocked i) →
            (∀ i t, s.lock i = some t → (upd s.threads u th' t).holds = some i) ∧
            (∀ t i, upd s.threads u th' t ≠ .badWait i ∧ upd s.threads u th' t ≠ .badLocked i) := by
          intro u th' hu hth'
          constructor
          · intro i t hl
            have := hs i t hl
            by_cases ht : t = u
            · subst ht; rw [hu] at this; simp [Thread.holds] at this
            · rw [upd_ne _ _ ht]; exact this
          · intro t i
            by_cases ht : t = u
            · subst ht; rw [upd_same]; exact hth' i
            · rw [upd_ne _ _ ht]; exact hn t i
        have bad' : ∀ u th', (∀ i, th' ≠ .badWait i ∧ th' ≠ .badLocked i) →
            ∀ t i, upd s.threads u th' t ≠ .badWait i ∧ upd s.threads u th' t ≠ .badLocked i := by
          intro u th' hth' t i
          by_cases ht : t = u
          · subst ht; rw [upd_same]; exact hth' i
          · rw [upd_ne _ _ ht]; exact hn t i
        -- `u` keeps the lock of `j`
        have hold : ∀ u j th', (s.threads u).holds = some j → th'.holds = some j →
            ∀ i t, s.lock i = some t → (upd s.threads u th' t).holds = some i := by
          intro u j th' hu hth' i t hl
          have h1 := hs i t hl
          by_cases ht : t = u
          · subst ht; rw [upd_same, hth']; rw [hu] at h1; exact h1
          · rw [upd_ne _ _ ht]; exact h1
        -- `u` takes the lock of `j`
        have take : ∀ u j th', (s.threads u).holds = none → th'.holds = some j →
            ∀ i t, upd s.lock j (some u) i = some t → (upd s.threads u th' t).holds = some i := by
          intro u j th' hu hth' i t hl
          by_cases hj : i = j
          · subst hj
            rw [upd_same] at hl
            injection hl with hl
            subst hl; rw [upd_same]; exact hth'
          · rw [upd_ne _ _ hj] at hl
            have h1 := hs i t hl
            by_cases ht : t = u
            · subst ht; rw [hu] at h1; simp at h1
            · rw [upd_ne _ _ ht]; exact h1
        -- `u` releases the lock of `j`
        have release : ∀ u j th', (s.threads u).holds = some j →
            ∀ i t, upd s.lock j none i = some t → (upd s.threads u th' t).holds = some i := by
          intro u j th' hu i t hl
          by_cases hj : i = j
          · subst hj; rw [upd_same] at hl; simp at hl
          · rw [upd_ne _ _ hj] at hl
            have h1 := hs i t hl
            by_cases ht : t = u
            · subst ht; rw [hu] at h1; simp at h1; exact absurd h1.symm hj
            · rw [upd_ne _ _ ht]; exact h1
        -- `u` holds nothing and stops
        cases a with
        | count u g k =>
          simp only [step]
          cases hu : s.threads u with
          | idle => exact start u _ hu (by simp)
          | _ => exact ⟨hs, hn⟩
        | countBad u g => exact absurd (List.mem_cons_self ..) (hb u g)
        | «export» u =>
          simp only [step]
          cases hu : s.threads u with
          | idle => exact start u _ hu (by simp)
          | _ => exact ⟨hs, hn⟩
        | go u order =>
          simp only [step, go]
          cases hth : s.threads u with
          | idle => exact ⟨hs, hn⟩
          | wait j k =>
            simp only
            cases hlj : s.lock j with
            | some x => exact ⟨hs, hn⟩
            | none => exact ⟨take u j _ (by rw [hth]; rfl) rfl, bad' u _ (by simp)⟩
          | locked j k =>
            simp only
            split
            · exact ⟨hold u j _ (by rw [hth]; rfl) rfl, bad' u _ (by simp)⟩
            · exact ⟨hold u j _ (by rw [hth]; rfl) rfl, bad' u _ (by simp)⟩
          | read j k v => exact ⟨hold u j _ (by rw [hth]; rfl) rfl, bad' u _ (by simp)⟩
          | written j k => exact ⟨release u j _ (by rw [hth]; rfl), bad' u _ (by simp)⟩
          | badWait j => exact absurd hth (hn u j).1
          | badLocked j => exact absurd hth (hn u j).2
          | expWait j =>
            simp only
            split
            · refine ⟨?_, bad' u _ (by simp)⟩
              intro i t hl
              have h1 := hs i t hl
              by_cases ht : t = u
              · subst ht; rw [hth] at h1; simp [Thread.holds] at h1
              · simp only [upd_ne _ _ ht]; exact h1
            · cases hlj : s.lock j with
              | some x => exact ⟨hs, hn⟩
              | none =>
                simp only
                split
                · exact ⟨take u j _ (by rw [hth]; rfl) rfl, bad' u _ (by simp)⟩
                · exact ⟨hs, hn⟩
          | expIn j todo =>
            cases todo with
            | nil => exact ⟨release u j _ (by rw [hth]; rfl), bad' u _ (by simp)⟩
            | cons k todo => exact ⟨hold u j _ (by rw [hth]; rfl) rfl, bad' u _ (by simp)⟩
          | expRead j k v todo => exact ⟨hold u j _ (by rw [hth]; rfl) rfl, bad' u _ (by simp)⟩
          | expZeroed j k v todo => exact ⟨hold u j _ (by rw [hth]; rfl) rfl, bad' u _ (by simp)⟩
      exact ih _ (step_ok s hi a).1 (fun t g hm => hb t g (List.mem_cons_of_mem _ hm)) hnext.1 hnext.2
  exact gen as State.init init_inv h (by simp [State.init]) (by simp [State.init]) i t hl

end Verif.Stats
