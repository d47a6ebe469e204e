import Verif.Countlog.Props
import Mathlib.Data.Nat.Find

/-!
# C161: goroutines that log at the same time

In `Model` one event is logged after the other.  Here any number of goroutines log at the same time: what they do is cut into
their accesses to `handlerCache`, which may come in any order.  The levels are set before (changes of the levels are C25).
-/

namespace Verif.Countlog.Together

/-! ### Model -/

/-- What a goroutine has still to do: it returns, or does the next `Load` or `Store` of `handlerCache` (countlog.go:199 and 218,
root.go:78, 100 and 110).  Each of these is one step: `concurrent.Map` is a map with a lock (concurrent/go_below_19.go, C47) or `sync.Map`.
What handlers do in between (writing, counting) is part of what is returned; it does not touch the cache. -/
inductive Prog (α : Type) where
  | ret (a : α)
  | load (k : Key) (p : Option Handler → Prog α)
  | store (k : Key) (h : Handler) (p : Prog α)

/-- First the one and, with what it returns, then the other (statements in a row, as countlog.go:147-157). -/
def Prog.bind {α β : Type} : Prog α → (α → Prog β) → Prog β
  | .ret a, f => f a
  | .load k p, f => .load k fun o => (p o).bind f
  | .store k h p, f => .store k h (p.bind f)

/-- `Handle` of `oneHandler` and `statsAndOutput`, root.go:36-44, 57-68, with `nomalModeOnPanic` (74-84), as `handleRoot`: what
happened, and whether a panic escaped. -/
def handleRootP (w : World) (cfg : Levels) (ev : Event) (both : Bool) (site : Site) : Mode → Prog (List Act × Bool)
  | .fallback => .ret (handleFallback w cfg both site ev, false)
  | .normal =>
    let b := body w cfg both site ev
    if b.2 then
      .store (.event site.event) (.redirector site)
        (match newRootHandler w { site with file := asc "unknown", line := 0, sample := ev.props } .fallback with
        | some (.one s _) => .ret (b.1 ++ handleFallback w cfg false s ev, false)
        | some (.both s _) => .ret (b.1 ++ handleFallback w cfg true s ev, false)
        | _ => .ret (b.1, true))
    else .ret (b.1, false)

/-- `handler.Handle(event)`, for `redirector.Handle` root.go:97-113, as `handle`. -/
def handleP (w : World) (cfg : Levels) (file : Bytes) (line : Nat) (ev : Event) : Handler → Prog (List Act × Bool)
  | .one site mode => handleRootP w cfg ev false site mode
  | .both site mode => handleRootP w cfg ev true site mode
  | .redirector site => .load (.place file line) fun o =>
    match o with
    | some (.one s mode) => handleRootP w cfg ev false s mode
    | some (.both s mode) => handleRootP w cfg ev true s mode
    | some (.redirector _) => .ret ([], true) -- not stored under such keys
    | none =>
      match newRootHandler w { site with file := file, line := line, sample := ev.props } .fallback with
      | some (.one s m) => .store (.place file line) (.one s m) (handleRootP w cfg ev false s m)
      | some (.both s m) => .store (.place file line) (.both s m) (handleRootP w cfg ev true s m)
      | _ => .ret ([], true)

/-- `getHandler` and `newHandler`, countlog.go:198-220; `none` for a panic. -/
def getHandlerP (w : World) (event : Bytes) (call : Bool) (file : Bytes) (line : Nat) (props : Props) : Prog (Option Handler) :=
  .load (.event event) fun o =>
    match o with
    | some h => .ret (some h)
    | none =>
      match newRootHandler w ⟨event, call, file, line, props⟩ .normal with
      | some h => .store (.event event) h (.ret (some h))
      | none => .ret none

/-- `log`, countlog.go:146-166. -/
def logP (w : World) (cfg : Levels) (c : Call) (level : Int) (call : Bool) (err : Option Bytes) : Prog (List Act × Ret) :=
  (getHandlerP w c.event call c.file c.line c.props).bind fun o =>
    match o with
    | none => .ret ([], .panic)
    | some h => (handleP w cfg c.file c.line ⟨level, c.props, err⟩ h).bind fun r =>
      if r.2 then .ret (r.1, .panic)
      else
        match err with
        | none => .ret (r.1, .nil)
        | some msg =>
          match c.text with
          | none => .ret (r.1, .panic)
          | some text => .ret (r.1, .err (text ++ asc ": " ++ msg))

/-- A log function, countlog.go:37-127 and context.go:37-130, as `call`. -/
def callP (w : World) (cfg : Levels) (c : Call) : Prog (List Act × Ret) :=
  match entry cfg c.suppressed c.err.isSome c.api with
  | none => .ret ([], .nil)
  | some (level, isCall) => logP w cfg c level isCall (if c.api.isCall then c.err else none)

/-- A goroutine that makes calls one after the other (recovering from what panics), and tells what became of each (countlog.go:37-127). -/
def callsP (cfg : Levels) : List (World × Call) → Prog (List (List Act × Ret))
  | [] => .ret []
  | (w, c) :: cs => (callP w cfg c).bind fun r => (callsP cfg cs).bind fun rs => .ret (r :: rs)

/-- One access to the cache (concurrent/go_below_19.go 18-29 or `sync.Map`); a goroutine that has returned does nothing more. -/
def Prog.step {α : Type} (cache : Cache) : Prog α → Prog α × Cache
  | .ret a => (.ret a, cache)
  | .load k p => (p (cache.lookup k), cache)
  | .store k h p => (p, (k, h) :: cache)

/-- `handlerCache` (countlog.go:144), and goroutines by number with what they have still to do. -/
structure Run where
  cache : Cache
  prog : Nat → Prog (List (List Act × Ret))

/-- Goroutine `i` does its next access to the cache (countlog.go:199 and 218, root.go:78, 100 and 110). -/
def Run.step (s : Run) (i : Nat) : Run where
  cache := ((s.prog i).step s.cache).2
  prog j := if j = i then ((s.prog i).step s.cache).1 else s.prog j

/-- The goroutines before their calls; the cache is that of a program that has logged `past` (countlog.go:144). -/
def Run.start (past : List Op) (job : Nat → List (World × Call)) : Run :=
  ⟨(after State.init past).cache, fun i => callsP (after State.init past).cfg (job i)⟩

/-- After `n` steps, `sched k` being the goroutine that does step `k`. -/
def Run.after (sched : Nat → Nat) : Nat → Run → Run
  | 0, s => s
  | n + 1, s => (Run.after sched n s).step (sched n)

/-- A goroutine that is alone runs to its end. -/
def Prog.alone {α : Type} : Prog α → Cache → α × Cache
  | .ret a, cache => (a, cache)
  | .load k p, cache => (p (cache.lookup k)).alone cache
  | .store k h p, cache => p.alone ((k, h) :: cache)

/-! ### Rely and guarantee -/

/-- As long as what it finds satisfies `ok`, what it stores does, and what it returns satisfies `Q`. -/
def Sound (ok : Key → Handler → Prop) {α : Type} (Q : α → Prop) : Prog α → Prop
  | .ret a => Q a
  | .load k p => ∀ o : Option Handler, (∀ h, o = some h → ok k h) → Sound ok Q (p o)
  | .store k h p => ok k h ∧ Sound ok Q p

theorem Sound.mono {ok : Key → Handler → Prop} {α : Type} {P Q : α → Prop} (hpq : ∀ a, P a → Q a) :
    ∀ {p : Prog α}, Sound ok P p → Sound ok Q p
  | .ret a, h => hpq a h
  | .load _ p, h => fun o ho => Sound.mono hpq (p := p o) (h o ho)
  | .store _ _ p, h => ⟨h.1, Sound.mono hpq (p := p) h.2⟩

theorem Sound.bind {ok : Key → Handler → Prop} {α β : Type} {P : α → Prop} {Q : β → Prop} {f : α → Prog β} :
    ∀ {p : Prog α}, Sound ok P p → (∀ a, P a → Sound ok Q (f a)) → Sound ok Q (p.bind f)
  | .ret a, h, hf => hf a h
  | .load _ p, h, hf => fun o ho => Sound.bind (p := p o) (h o ho) hf
  | .store _ _ p, h, hf => ⟨h.1, Sound.bind (p := p) h.2 hf⟩

/-- Everything in the cache satisfies `ok`. -/
def CacheOk (ok : Key → Handler → Prop) (cache : Cache) : Prop := ∀ k h, cache.lookup k = some h → ok k h

theorem CacheOk.nil (ok : Key → Handler → Prop) : CacheOk ok [] := fun k h hl => by simp at hl

theorem CacheOk.add {ok : Key → Handler → Prop} {cache : Cache} (hc : CacheOk ok cache) {k : Key} {h : Handler} (hk : ok k h) :
    CacheOk ok ((k, h) :: cache) := by
  intro k' h' hl
  rw [lookup_cons_key] at hl
  by_cases he : k' = k
  · rw [if_pos he] at hl; injection hl with hl; subst hl; subst he; exact hk
  · rw [if_neg he] at hl; exact hc k' h' hl

theorem step_sound {ok : Key → Handler → Prop} {α : Type} {Q : α → Prop} (cache : Cache) (p : Prog α) (hc : CacheOk ok cache) (h : Sound ok Q p) :
    Sound ok Q (p.step cache).1 ∧ CacheOk ok (p.step cache).2 := by
  cases p with
  | ret a => exact ⟨h, hc⟩
  | load k p => exact ⟨h _ fun g hg => hc k g hg, hc⟩
  | store k g p => exact ⟨h.2, hc.add h.1⟩

theorem after_sound {ok : Key → Handler → Prop} {Q : Nat → List (List Act × Ret) → Prop} (sched : Nat → Nat) (n : Nat) (s : Run)
    (hc : CacheOk ok s.cache) (h : ∀ i, Sound ok (Q i) (s.prog i)) :
    CacheOk ok (Run.after sched n s).cache ∧ ∀ i, Sound ok (Q i) ((Run.after sched n s).prog i) := by
  induction n with
  | zero => exact ⟨hc, h⟩
  | succ n ih =>
    have hs := step_sound _ _ ih.1 (ih.2 (sched n))
    refine ⟨hs.2, fun i => ?_⟩
    simp only [Run.after, Run.step]
    by_cases hi : i = sched n
    · subst hi; simp only [if_true]; exact hs.1
    · simp only [hi, if_false]; exact ih.2 i

/-- What may be remembered: handlers made for the event of that name; at places, handlers that do not redirect, made for an event
that is logged at that place; handlers that count for events that are counted. -/
def Fit (logged : Bytes → Nat → Bytes → Prop) (counted : Bytes → Prop) (k : Key) (h : Handler) : Prop :=
  (∀ s m, h = .both s m → counted s.event) ∧
  match k with
  | .event e => h.site.event = e
  | .place f l => ∃ s, (h = .one s .fallback ∨ h = .both s .fallback) ∧ logged f l s.event

theorem fit_inv {logged : Bytes → Nat → Bytes → Prop} {counted : Bytes → Prop} {cache : Cache} (h : CacheOk (Fit logged counted) cache) :
    Inv cache :=
  ⟨fun e g hg => (h (.event e) g hg).2, fun f l g hg => let ⟨s, hs, _⟩ := (h (.place f l) g hg).2; ⟨s, hs⟩⟩

section
variable (logged : Bytes → Nat → Bytes → Prop) (counted : Bytes → Prop)

/-- What the pieces of a call return is what the call returns in one go with some fit cache. -/
theorem handleRootP_sound (w : World) (cfg : Levels) (cache : Cache) (ev : Event) (both : Bool) (site : Site) (mode : Mode) :
    Sound (Fit logged counted)
      (fun r => r = ((handleRoot w cfg cache ev both site mode).acts, (handleRoot w cfg cache ev both site mode).escaped))
      (handleRootP w cfg ev both site mode) := by
  cases mode with
  | fallback => exact rfl
  | normal =>
    obtain ⟨h1, h2⟩ := handleRoot_normal w cfg cache ev both site
    cases hb : (body w cfg both site ev).2 with
    | false => rw [h1 hb]; simp only [handleRootP, hb]; exact rfl
    | true =>
      rw [h2 hb]
      simp only [handleRootP, hb, if_true]
      refine ⟨⟨by simp, rfl⟩, ?_⟩
      cases hn : newRootHandler w { site with file := asc "unknown", line := 0, sample := ev.props } .fallback with
      | none => exact rfl
      | some h => rcases newRoot_cases _ _ _ _ hn with ⟨rfl, -⟩ | ⟨rfl, -⟩ <;> exact rfl

theorem handleP_sound (w : World) (cfg : Levels) (file : Bytes) (line : Nat) (ev : Event) (h : Handler)
    (hw : ∀ s, w.statsOf s = .handler → counted s.event)
    (hl : logged file line h.site.event) (c1 : Cache) (hc1 : CacheOk (Fit logged counted) c1) (hnp : c1.lookup (.place file line) = none) :
    Sound (Fit logged counted) (fun r => ∃ cache, CacheOk (Fit logged counted) cache ∧ (∀ e, cache.lookup (.event e) = c1.lookup (.event e)) ∧
        r = ((handle w cfg cache file line ev h).acts, (handle w cfg cache file line ev h).escaped))
      (handleP w cfg file line ev h) := by
  cases h with
  | one s m => exact (handleRootP_sound logged counted w cfg c1 ev false s m).mono fun r hr => ⟨c1, hc1, fun _ => rfl, hr⟩
  | both s m => exact (handleRootP_sound logged counted w cfg c1 ev true s m).mono fun r hr => ⟨c1, hc1, fun _ => rfl, hr⟩
  | redirector site =>
    intro o ho
    cases o with
    | some g =>
      have hfit := ho g rfl
      have hc2 : CacheOk (Fit logged counted) ((Key.place file line, g) :: c1) := hc1.add hfit
      have hlk : ((Key.place file line, g) :: c1).lookup (.place file line) = some g := by rw [lookup_cons_key, if_pos rfl]
      have hev : ∀ e, ((Key.place file line, g) :: c1).lookup (.event e) = c1.lookup (.event e) := by
        intro e; rw [lookup_cons_key, if_neg (by simp)]
      cases g with
      | one s m =>
        refine (handleRootP_sound logged counted w cfg ((Key.place file line, .one s m) :: c1) ev false s m).mono fun r hr => ⟨_, hc2, hev, ?_⟩
        simp only [handle, hlk]; exact hr
      | both s m =>
        refine (handleRootP_sound logged counted w cfg ((Key.place file line, .both s m) :: c1) ev true s m).mono fun r hr => ⟨_, hc2, hev, ?_⟩
        simp only [handle, hlk]; exact hr
      | redirector s => obtain ⟨-, t, h | h, -⟩ := hfit <;> simp at h
    | none =>
      cases hn : newRootHandler w { site with file := file, line := line, sample := ev.props } .fallback with
      | none =>
        simp only
        exact ⟨c1, hc1, fun _ => rfl, by simp only [handle, hnp, hn]⟩
      | some g =>
        have hst := newRoot_cases _ _ _ _ hn
        rcases hst with ⟨rfl, -⟩ | ⟨rfl, hst⟩
        · simp only
          refine ⟨⟨by simp, _, Or.inl rfl, hl⟩, ?_⟩
          refine (handleRootP_sound logged counted w cfg
            ((Key.place file line, .one { site with file := file, line := line, sample := ev.props } .fallback) :: c1) ev false
            { site with file := file, line := line, sample := ev.props } .fallback).mono fun r hr => ⟨c1, hc1, fun _ => rfl, ?_⟩
          simp only [handle, hnp, hn]; exact hr
        · simp only
          refine ⟨⟨?_, _, Or.inr rfl, hl⟩, ?_⟩
          · intro s m h
            injection h with h
            subst h
            exact hw _ hst
          refine (handleRootP_sound logged counted w cfg
            ((Key.place file line, .both { site with file := file, line := line, sample := ev.props } .fallback) :: c1) ev true
            { site with file := file, line := line, sample := ev.props } .fallback).mono fun r hr => ⟨c1, hc1, fun _ => rfl, ?_⟩
          simp only [handle, hnp, hn]; exact hr

theorem getHandlerP_sound (w : World) (hw : ∀ s, w.statsOf s = .handler → counted s.event) (event : Bytes) (call : Bool) (file : Bytes)
    (line : Nat) (props : Props) :
    Sound (Fit logged counted) (fun o => (o = none → ∃ c0, CacheOk (Fit logged counted) c0 ∧ (getHandler w c0 event call file line props).1 = none) ∧
        ∀ h, o = some h → Fit logged counted (.event event) h)
      (getHandlerP w event call file line props) := by
  intro o ho
  cases o with
  | some h => exact ⟨by simp, fun g hg => by injection hg with hg; subst hg; exact ho h rfl⟩
  | none =>
    cases hn : newRootHandler w ⟨event, call, file, line, props⟩ .normal with
    | none =>
      simp only
      exact ⟨fun _ => ⟨[], CacheOk.nil _, by simp [getHandler, hn]⟩, by simp⟩
    | some h =>
      have hs : Fit logged counted (.event event) h := by
        rcases newRoot_cases _ _ _ _ hn with ⟨rfl, -⟩ | ⟨rfl, hst⟩
        · exact ⟨by simp, rfl⟩
        · refine ⟨?_, rfl⟩
          intro s m h
          injection h with h
          subst h
          exact hw _ hst
      simp only
      exact ⟨hs, by simp, fun g hg => by injection hg with hg; subst hg; exact hs⟩

/-- What a call among others returns is what it returns alone with some fit cache. -/
theorem callP_sound (w : World) (cfg : Levels) (c : Call) (hw : ∀ s, w.statsOf s = .handler → counted s.event)
    (hl : logged c.file c.line c.event) :
    Sound (Fit logged counted) (fun r => ∃ cache, CacheOk (Fit logged counted) cache ∧ r = (call w cfg cache c).1) (callP w cfg c) := by
  unfold callP
  cases hen : entry cfg c.suppressed c.err.isSome c.api with
  | none => exact ⟨[], CacheOk.nil _, by simp only [call, hen]⟩
  | some p =>
    obtain ⟨level, isCall⟩ := p
    simp only
    unfold logP
    refine (getHandlerP_sound logged counted w hw c.event isCall c.file c.line c.props).bind fun o ⟨hnone, hsome⟩ => ?_
    cases o with
    | none =>
      obtain ⟨c0, hc0, hg0⟩ := hnone rfl
      refine ⟨c0, hc0, ?_⟩
      simp only [call, hen, log]
      cases hg : getHandler w c0 c.event isCall c.file c.line c.props with
      | mk o' cache' => rw [hg] at hg0; simp only at hg0; subst hg0; rfl
    | some h =>
      have hfit := hsome h rfl
      have hc1 : CacheOk (Fit logged counted) [(Key.event c.event, h)] := (CacheOk.nil _).add hfit
      have hnp : List.lookup (Key.place c.file c.line) [(Key.event c.event, h)] = none := by
        rw [lookup_cons_key, if_neg (by simp)]; rfl
      refine (handleP_sound logged counted w cfg c.file c.line ⟨level, c.props, if c.api.isCall then c.err else none⟩ h hw
        (by rw [hfit.2]; exact hl) _ hc1 hnp).bind fun r ⟨cache, hc, hsame, hr⟩ => ?_
      have hget : getHandler w cache c.event isCall c.file c.line c.props = (some h, cache) := by
        have : cache.lookup (.event c.event) = some h := by rw [hsame, lookup_cons_key, if_pos rfl]
        simp only [getHandler, this]
      have hcall : (call w cfg cache c).1 = (log w cfg cache c level isCall (if c.api.isCall then c.err else none)).1 := by
        simp only [call, hen]
      simp only [log, hget] at hcall
      subst hr
      generalize handle w cfg cache c.file c.line ⟨level, c.props, if c.api.isCall then c.err else none⟩ h = r2 at hcall
      generalize (if c.api.isCall then c.err else none) = err at hcall
      obtain ⟨acts, esc, rc⟩ := r2
      cases esc with
      | true => exact ⟨cache, hc, hcall.symm⟩
      | false =>
        cases err with
        | none => exact ⟨cache, hc, hcall.symm⟩
        | some msg =>
          cases ht : c.text with
          | none => rw [ht] at hcall; exact ⟨cache, hc, hcall.symm⟩
          | some text => rw [ht] at hcall; exact ⟨cache, hc, hcall.symm⟩

/-- The same for all calls of a goroutine. -/
theorem callsP_sound (cfg : Levels) : ∀ (cs : List (World × Call)),
    (∀ wc ∈ cs, (∀ s, wc.1.statsOf s = .handler → counted s.event) ∧ logged wc.2.file wc.2.line wc.2.event) →
    Sound (Fit logged counted) (fun rs => rs.length = cs.length ∧ ∀ (k : Nat) wc r, cs[k]? = some wc → rs[k]? = some r →
        ∃ cache, CacheOk (Fit logged counted) cache ∧ r = (call wc.1 cfg cache wc.2).1)
      (callsP cfg cs)
  | [], _ => ⟨rfl, fun k wc r h => by simp at h⟩
  | (w, c) :: cs, hl => by
    refine (callP_sound logged counted w cfg c (hl _ List.mem_cons_self).1 (hl _ List.mem_cons_self).2).bind fun r hr => ?_
    refine (callsP_sound cfg cs (fun wc hwc => hl wc (List.mem_cons_of_mem _ hwc))).bind fun rs hrs => ?_
    refine ⟨by simp [hrs.1], fun k wc r' h1 h2 => ?_⟩
    cases k with
    | zero => simp only [List.getElem?_cons_zero, Option.some.injEq] at h1 h2; subst h1; subst h2; exact hr
    | succ k => simp only [List.getElem?_cons_succ] at h1 h2; exact hrs.2 k wc r' h1 h2
end

/-! ### The pieces in a row are the calls of `Model` -/

theorem alone_bind {α β : Type} (f : α → Prog β) : ∀ (p : Prog α) (c : Cache), (p.bind f).alone c = (f (p.alone c).1).alone (p.alone c).2
  | .ret _, _ => rfl
  | .load _ p, c => alone_bind f (p _) c
  | .store _ _ p, _ => alone_bind f p _

theorem alone_ok {ok : Key → Handler → Prop} {α : Type} {Q : α → Prop} : ∀ (p : Prog α) (c : Cache), Sound ok Q p → CacheOk ok c →
    CacheOk ok (p.alone c).2
  | .ret _, _, _, hc => hc
  | .load k p, c, h, hc => alone_ok (p _) c (h _ fun g hg => hc k g hg) hc
  | .store _ _ p, _, h, hc => alone_ok p _ h.2 (hc.add h.1)

theorem handleRootP_alone (w : World) (cfg : Levels) (cache : Cache) (ev : Event) (both : Bool) (site : Site) (mode : Mode) :
    (handleRootP w cfg ev both site mode).alone cache =
      (((handleRoot w cfg cache ev both site mode).acts, (handleRoot w cfg cache ev both site mode).escaped),
        (handleRoot w cfg cache ev both site mode).cache) := by
  cases mode with
  | fallback => rfl
  | normal =>
    obtain ⟨h1, h2⟩ := handleRoot_normal w cfg cache ev both site
    cases hb : (body w cfg both site ev).2 with
    | false => rw [h1 hb]; simp only [handleRootP, hb]; rfl
    | true =>
      rw [h2 hb]
      simp only [handleRootP, hb, if_true, Prog.alone]
      cases hn : newRootHandler w { site with file := asc "unknown", line := 0, sample := ev.props } .fallback with
      | none => rfl
      | some h => rcases newRoot_cases _ _ _ _ hn with ⟨rfl, -⟩ | ⟨rfl, -⟩ <;> rfl

theorem handleP_alone (w : World) (cfg : Levels) (cache : Cache) (file : Bytes) (line : Nat) (ev : Event) (h : Handler) :
    (handleP w cfg file line ev h).alone cache =
      (((handle w cfg cache file line ev h).acts, (handle w cfg cache file line ev h).escaped), (handle w cfg cache file line ev h).cache) := by
  cases h with
  | one s m => exact handleRootP_alone ..
  | both s m => exact handleRootP_alone ..
  | redirector site =>
    simp only [handleP, handle, Prog.alone]
    cases hl : cache.lookup (.place file line) with
    | some g =>
      cases g with
      | one s m => exact handleRootP_alone ..
      | both s m => exact handleRootP_alone ..
      | redirector s => rfl
    | none =>
      simp only
      cases hn : newRootHandler w { site with file := file, line := line, sample := ev.props } .fallback with
      | none => rfl
      | some g => rcases newRoot_cases _ _ _ _ hn with ⟨rfl, -⟩ | ⟨rfl, -⟩ <;> exact handleRootP_alone ..

theorem getHandlerP_alone (w : World) (cache : Cache) (event : Bytes) (call : Bool) (file : Bytes) (line : Nat) (props : Props) :
    (getHandlerP w event call file line props).alone cache = getHandler w cache event call file line props := by
  simp only [getHandlerP, getHandler, Prog.alone]
  cases cache.lookup (.event event) with
  | some h => rfl
  | none =>
    simp only
    cases newRootHandler w ⟨event, call, file, line, props⟩ .normal <;> rfl

theorem callP_alone (w : World) (cfg : Levels) (cache : Cache) (c : Call) : (callP w cfg c).alone cache = call w cfg cache c := by
  unfold callP call
  cases entry cfg c.suppressed c.err.isSome c.api with
  | none => rfl
  | some p =>
    obtain ⟨level, isCall⟩ := p
    simp only [logP, log, alone_bind, getHandlerP_alone]
    cases getHandler w cache c.event isCall c.file c.line c.props with
    | mk o cache' =>
      cases o with
      | none => rfl
      | some h =>
        simp only [alone_bind, handleP_alone]
        generalize handle w cfg cache' c.file c.line ⟨level, c.props, if c.api.isCall then c.err else none⟩ h = r
        generalize (if c.api.isCall then c.err else none) = err
        obtain ⟨acts, esc, rc⟩ := r
        cases esc with
        | true => rfl
        | false =>
          cases err with
          | none => rfl
          | some msg => cases c.text <;> rfl

/-- C161: a goroutine that is alone gets what the calls of `Model` give, one after the other. -/
theorem alone_calls (cs : List (World × Call)) (s : State) :
    (callsP s.cfg cs).alone s.cache = (run s (cs.map fun wc => .log wc.1 wc.2), (after s (cs.map fun wc => .log wc.1 wc.2)).cache) := by
  induction cs generalizing s with
  | nil => rfl
  | cons wc cs ih =>
    obtain ⟨w, c⟩ := wc
    have := ih (step s (.log w c)).2
    simp only [callsP, alone_bind, callP_alone, List.map_cons, run, after]
    have hcfg : (step s (.log w c)).2.cfg = s.cfg := rfl
    have hcache : (step s (.log w c)).2.cache = (call w s.cfg s.cache c).2 := rfl
    rw [hcfg, hcache] at this
    rw [this]
    rfl

/-! ### Everything that is true of a call with any fit cache -/

/-- `e` is logged at this place, before or by one of the goroutines. -/
def Logged (past : List Op) (job : Nat → List (World × Call)) (file : Bytes) (line : Nat) (e : Bytes) : Prop :=
  (∃ w c, Op.log w c ∈ past ∧ c.file = file ∧ c.line = line ∧ c.event = e) ∨
    ∃ i, ∃ wc ∈ job i, wc.2.file = file ∧ wc.2.line = line ∧ wc.2.event = e

/-- Some aggregator counts events of this name, before or during the calls of the goroutines. -/
def Counted (past : List Op) (job : Nat → List (World × Call)) (e : Bytes) : Prop :=
  (∃ w c, Op.log w c ∈ past ∧ ∃ s, w.statsOf s = .handler ∧ s.event = e) ∨
    ∃ i, ∃ wc ∈ job i, ∃ s, wc.1.statsOf s = .handler ∧ s.event = e

theorem after_fit (logged : Bytes → Nat → Bytes → Prop) (counted : Bytes → Prop) : ∀ (ops : List Op) (s : State),
    CacheOk (Fit logged counted) s.cache → (∀ w c, Op.log w c ∈ ops → logged c.file c.line c.event) →
    (∀ w c, Op.log w c ∈ ops → ∀ s, w.statsOf s = .handler → counted s.event) →
    CacheOk (Fit logged counted) (after s ops).cache := by
  intro ops
  induction ops with
  | nil => intro s h _ _; exact h
  | cons op ops ih =>
    intro s h hl hc
    refine ih _ ?_ (fun w c hm => hl w c (List.mem_cons_of_mem _ hm)) (fun w c hm => hc w c (List.mem_cons_of_mem _ hm))
    cases op with
    | setMinLevel level => exact h
    | log w c =>
      have := alone_ok (callP w s.cfg c) s.cache
        (callP_sound logged counted w s.cfg c (hc w c List.mem_cons_self) (hl w c List.mem_cons_self)) h
      rw [callP_alone] at this
      exact this

/-- Whatever the interleaving: what a call returned is what it returns with some fit cache. -/
theorem as_alone (past : List Op) (job : Nat → List (World × Call)) (sched : Nat → Nat) (n i : Nat) (rs : List (List Act × Ret))
    (hret : (Run.after sched n (Run.start past job)).prog i = .ret rs) :
    rs.length = (job i).length ∧ ∀ (k : Nat) w c r, (job i)[k]? = some (w, c) → rs[k]? = some r →
      ∃ cache, CacheOk (Fit (Logged past job) (Counted past job)) cache ∧ r = (call w (after State.init past).cfg cache c).1 := by
  have h0 : CacheOk (Fit (Logged past job) (Counted past job)) (Run.start past job).cache :=
    after_fit _ _ past State.init (CacheOk.nil _) (fun w c hm => Or.inl ⟨w, c, hm, rfl, rfl, rfl⟩)
      (fun w c hm s hs => Or.inl ⟨w, c, hm, s, hs, rfl⟩)
  have h1 := (after_sound sched n (Run.start past job) h0 (fun j =>
    callsP_sound (Logged past job) (Counted past job) (after State.init past).cfg (job j) (fun wc hwc =>
      ⟨fun s hs => Or.inr ⟨j, wc, hwc, s, hs, rfl⟩, Or.inr ⟨j, wc, hwc, rfl, rfl, rfl⟩⟩))).2 i
  rw [hret] at h1
  exact ⟨h1.1, fun k w c r hk hr => h1.2 k (w, c) r hk hr⟩

/-- What the calls of `Model` give with any cache in which handlers are stored under their names (see C27). -/
theorem call_ok {w : World} (hw : SinksOk w) (cfg : Levels) (cache : Cache) (hi : Inv cache) (c : Call) (level : Int) (isCall : Bool)
    (hen : entry cfg c.suppressed c.err.isSome c.api = some (level, isCall)) :
    ∃ h cache', Inv cache' ∧ h.site.event = c.event ∧ getHandler w cache c.event isCall c.file c.line c.props = (some h, cache') ∧
      (call w cfg cache c).1 =
        ((handle w cfg cache' c.file c.line ⟨level, c.props, if c.api.isCall then c.err else none⟩ h).acts,
          match (if c.api.isCall then c.err else none), c.text with
          | none, _ => .nil
          | some _, none => .panic
          | some msg, some text => .err (text ++ asc ": " ++ msg)) := by
  have hg := getHandler_inv w cache c.event isCall c.file c.line c.props hi
  obtain ⟨h, cache', hgh⟩ := getHandler_ok hw cache c.event isCall c.file c.line c.props
  rw [hgh] at hg
  refine ⟨h, cache', hg.1, hg.2 h rfl, hgh, ?_⟩
  have hesc := handle_ok hw cfg cache' hg.1 c.file c.line ⟨level, c.props, if c.api.isCall then c.err else none⟩ h
  simp only [call, hen, log, hgh]
  revert hesc
  generalize handle w cfg cache' c.file c.line ⟨level, c.props, if c.api.isCall then c.err else none⟩ h = r
  generalize (if c.api.isCall then c.err else none) = err
  obtain ⟨acts, esc, rc⟩ := r
  intro hesc
  simp only at hesc
  subst hesc
  cases err with
  | none => rfl
  | some msg => cases c.text <;> rfl

/-- The site an act is done for. -/
def siteOf : Act → Option Site
  | .out s _ => some s
  | .stats s _ => some s
  | .loglog => none

theorem body_site (w : World) (cfg : Levels) (both : Bool) (site : Site) (ev : Event) :
    ∀ a ∈ (body w cfg both site ev).1, siteOf a = some site := by
  cases both with
  | false => by_cases h : w.outPanics site ev = true <;> simp [body, h, siteOf]
  | true =>
    by_cases hl : cfg.minCallLevel ≤ ev.level <;> by_cases h : w.outPanics site ev = true <;>
      by_cases hs : w.statsPanics site ev = true <;> simp [body, h, hs, hl, siteOf]

theorem fallback_site (w : World) (cfg : Levels) (both : Bool) (site : Site) (ev : Event) :
    ∀ a ∈ handleFallback w cfg both site ev, ∀ s, siteOf a = some s → s = site := by
  intro a ha s hs
  unfold handleFallback at ha
  have hb := body_site w cfg both site ev
  by_cases h : (body w cfg both site ev).2 = true
  · simp only [h, if_true, List.mem_append, List.mem_singleton] at ha
    rcases ha with ha | rfl
    · rw [hb a ha] at hs; injection hs with hs; exact hs.symm
    · simp [siteOf] at hs
  · simp only [h] at ha
    rw [hb a (by simpa using ha)] at hs; injection hs with hs; exact hs.symm

theorem handleRoot_site (w : World) (cfg : Levels) (cache : Cache) (ev : Event) (both : Bool) (site : Site) (mode : Mode) :
    ∀ a ∈ (handleRoot w cfg cache ev both site mode).acts, ∀ s, siteOf a = some s → s.event = site.event := by
  cases mode with
  | fallback => intro a ha s hs; rw [fallback_site w cfg both site ev a ha s hs]
  | normal =>
    obtain ⟨h1, h2⟩ := handleRoot_normal w cfg cache ev both site
    have hb0 : ∀ a ∈ (body w cfg both site ev).1, ∀ s, siteOf a = some s → s.event = site.event := by
      intro a ha s hs
      rw [body_site w cfg both site ev a ha] at hs; injection hs with hs; rw [hs]
    cases hb : (body w cfg both site ev).2 with
    | false => rw [h1 hb]; exact hb0
    | true =>
      rw [h2 hb]
      cases hn : newRootHandler w { site with file := asc "unknown", line := 0, sample := ev.props } .fallback with
      | none => exact hb0
      | some h =>
        rcases newRoot_cases _ _ _ _ hn with ⟨rfl, -⟩ | ⟨rfl, -⟩
        all_goals
          intro a ha s hs
          simp only [List.mem_append] at ha
          rcases ha with ha | ha
          · exact hb0 a ha s hs
          · rw [fallback_site w cfg _ _ ev a ha s hs]

/-- With a fit cache, and if one event only is logged at this place, everything is done by handlers made for this event. -/
theorem handle_site (logged : Bytes → Nat → Bytes → Prop) (counted : Bytes → Prop) (w : World) (cfg : Levels) (cache : Cache)
    (hc : CacheOk (Fit logged counted) cache) (file : Bytes) (line : Nat) (ev : Event) (h : Handler)
    (hl : ∀ e, logged file line e → e = h.site.event) :
    ∀ a ∈ (handle w cfg cache file line ev h).acts, ∀ s, siteOf a = some s → s.event = h.site.event := by
  cases h with
  | one s m => exact handleRoot_site _ _ _ _ _ _ _
  | both s m => exact handleRoot_site _ _ _ _ _ _ _
  | redirector t =>
    simp only [handle]
    cases hlk : cache.lookup (.place file line) with
    | some g =>
      obtain ⟨-, u, rfl | rfl, hu⟩ := hc _ _ hlk
      all_goals
        intro a ha s hs
        have := handleRoot_site _ _ _ _ _ _ _ a ha s hs
        rw [this, hl _ hu]
    | none =>
      simp only
      cases hn : newRootHandler w { t with file := file, line := line, sample := ev.props } .fallback with
      | none => simp
      | some g => rcases newRoot_cases _ _ _ _ hn with ⟨rfl, -⟩ | ⟨rfl, -⟩ <;> exact handleRoot_site _ _ _ _ _ _ _

theorem getHandler_fit (logged : Bytes → Nat → Bytes → Prop) (counted : Bytes → Prop) (w : World)
    (hw : ∀ s, w.statsOf s = .handler → counted s.event) (cache : Cache)
    (hc : CacheOk (Fit logged counted) cache) (event : Bytes) (call : Bool) (file : Bytes) (line : Nat) (props : Props) :
    CacheOk (Fit logged counted) (getHandler w cache event call file line props).2 := by
  have := alone_ok _ cache (getHandlerP_sound logged counted w hw event call file line props) hc
  rwa [getHandlerP_alone] at this

theorem getHandler_fitting (logged : Bytes → Nat → Bytes → Prop) (counted : Bytes → Prop) (w : World)
    (hw : ∀ s, w.statsOf s = .handler → counted s.event) (cache : Cache)
    (hc : CacheOk (Fit logged counted) cache) (event : Bytes) (call : Bool) (file : Bytes) (line : Nat) (props : Props) (h : Handler)
    (cache' : Cache) (hg : getHandler w cache event call file line props = (some h, cache')) : Fit logged counted (.event event) h := by
  unfold getHandler at hg
  cases hlk : cache.lookup (.event event) with
  | some g => rw [hlk] at hg; simp only [Prod.mk.injEq, Option.some.injEq] at hg; rw [← hg.1]; exact hc _ _ hlk
  | none =>
    rw [hlk] at hg
    simp only at hg
    cases hn : newRootHandler w ⟨event, call, file, line, props⟩ .normal with
    | none => rw [hn] at hg; simp at hg
    | some g =>
      rw [hn] at hg
      simp only [Prod.mk.injEq, Option.some.injEq] at hg
      rw [← hg.1]
      rcases newRoot_cases _ _ _ _ hn with ⟨rfl, -⟩ | ⟨rfl, hst⟩
      · exact ⟨by simp, rfl⟩
      · refine ⟨?_, rfl⟩
        intro s m h
        injection h with h
        subst h
        exact hw _ hst

/-! ### C161 -/

/-- A result of goroutine `i` in some interleaving: `r` is what became of its call `k`, which is `c`, made in world `w`. -/
structure Result (past : List Op) (job : Nat → List (World × Call)) (i k : Nat) (w : World) (c : Call) (r : List Act × Ret) : Prop where
  made : (job i)[k]? = some (w, c)
  got : ∃ sched n rs, (Run.after sched n (Run.start past job)).prog i = .ret rs ∧ rs[k]? = some r

theorem Result.cache {past : List Op} {job : Nat → List (World × Call)} {i k : Nat} {w : World} {c : Call} {r : List Act × Ret}
    (h : Result past job i k w c r) : ∃ cache, CacheOk (Fit (Logged past job) (Counted past job)) cache ∧
      r = (call w (after State.init past).cfg cache c).1 := by
  obtain ⟨sched, n, rs, hret, hr⟩ := h.got
  exact (as_alone past job sched n i rs hret).2 k w c r h.made hr

/-- C161: every goroutine whose turn comes again and again gets to the end of its calls, and has a result for each of them. -/
theorem together_ends (past : List Op) (job : Nat → List (World × Call)) (sched : Nat → Nat) (i : Nat)
    (fair : ∀ n, ∃ m, n ≤ m ∧ sched m = i) :
    ∃ n rs, (Run.after sched n (Run.start past job)).prog i = .ret rs ∧ rs.length = (job i).length := by
  have add : ∀ (sched : Nat → Nat) (n m : Nat) (s : Run), Run.after sched (n + m) s = Run.after (fun k => sched (n + k)) m (Run.after sched n s) := by
    intro sched n m s
    induction m with
    | zero => rfl
    | succ m ih => show (Run.after sched (n + m) s).step _ = _; rw [ih]; rfl
  have others : ∀ (sched : Nat → Nat) (m : Nat) (s : Run), (∀ k < m, sched k ≠ i) → (Run.after sched m s).prog i = s.prog i := by
    intro sched m s h
    induction m with
    | zero => rfl
    | succ m ih =>
      simp only [Run.after, Run.step]
      rw [if_neg (Ne.symm (h m (by omega))), ih (fun k hk => h k (by omega))]
  have turn : ∀ (sched : Nat → Nat) (s : Run), (∀ n, ∃ m, n ≤ m ∧ sched m = i) →
      ∃ m c, (Run.after sched (m + 1) s).prog i = ((s.prog i).step c).1 := by
    intro sched s hf
    have hex : ∃ m, sched m = i := let ⟨m, _, h⟩ := hf 0; ⟨m, h⟩
    classical
    refine ⟨Nat.find hex, (Run.after sched (Nat.find hex) s).cache, ?_⟩
    simp only [Run.after, Run.step, Nat.find_spec hex, if_true]
    rw [others sched _ s (fun k hk => Nat.find_min hex hk)]
  have later : ∀ (sched : Nat → Nat) (k : Nat), (∀ n, ∃ m, n ≤ m ∧ sched m = i) → ∀ n, ∃ m, n ≤ m ∧ sched (k + m) = i := by
    intro sched k hf n
    obtain ⟨m, hm, h⟩ := hf (k + n)
    exact ⟨m - k, by omega, by rw [show k + (m - k) = m by omega]; exact h⟩
  have ends : ∀ (p : Prog (List (List Act × Ret))) (sched : Nat → Nat) (s : Run), s.prog i = p → (∀ n, ∃ m, n ≤ m ∧ sched m = i) →
      ∃ n rs, (Run.after sched n s).prog i = .ret rs := by
    intro p
    induction p with
    | ret b => exact fun sched s hs _ => ⟨0, b, hs⟩
    | load k p ih =>
      intro sched s hs hf
      obtain ⟨m, w, h⟩ := turn sched s hf
      rw [hs] at h
      obtain ⟨n, b, hn⟩ := ih _ (fun k => sched (m + 1 + k)) _ h (later sched _ hf)
      exact ⟨m + 1 + n, b, by rw [add]; exact hn⟩
    | store k g p ih =>
      intro sched s hs hf
      obtain ⟨m, w, h⟩ := turn sched s hf
      rw [hs] at h
      obtain ⟨n, b, hn⟩ := ih (fun k => sched (m + 1 + k)) _ h (later sched _ hf)
      exact ⟨m + 1 + n, b, by rw [add]; exact hn⟩
  obtain ⟨n, rs, h⟩ := ends _ sched (Run.start past job) rfl fair
  exact ⟨n, rs, h, (as_alone past job sched n i rs h).1⟩

/-- C161, partial: whatever other goroutines log at the same time and whatever panics: no panic reaches the caller, provided the
sinks can be asked for handlers and the message of a failed call can be formatted (see C27). -/
theorem together_no_panic_partial (past : List Op) (job : Nat → List (World × Call)) (i k : Nat) (w : World) (c : Call)
    (r : List Act × Ret) (h : Result past job i k w c r) (hw : SinksOk w)
    (ht : c.api.isCall = true → c.err.isSome = true → c.text.isSome = true) : r.2 ≠ .panic := by
  obtain ⟨cache, hc, rfl⟩ := h.cache
  cases hen : entry (after State.init past).cfg c.suppressed c.err.isSome c.api with
  | none => simp [call, hen]
  | some p =>
    obtain ⟨h, cache', -, -, -, hr⟩ := call_ok hw _ cache (fit_inv hc) c p.1 p.2 hen
    rw [hr]
    by_cases hcall : c.api.isCall = true
    · simp only [hcall, if_true]
      cases he : c.err with
      | none => simp
      | some msg =>
        obtain ⟨t, hte⟩ := Option.isSome_iff_exists.mp (ht hcall (by simp [he]))
        simp [hte]
    · simp [hcall]

/-- C161: and no event is lost silently: it is handled to the end by some handler, or a panic is reported in the internal log. -/
theorem together_never_lost (past : List Op) (job : Nat → List (World × Call)) (i k : Nat) (w : World) (c : Call)
    (r : List Act × Ret) (h : Result past job i k w c r) (hw : SinksOk w)
    (hwant : wanted (lastMin 10 past) c.suppressed c.err.isSome c.api) :
    HandledOrReported (after State.init past).cfg
      ⟨c.api.levelOf c.err.isSome, c.props, if c.api.isCall then c.err else none⟩ r.1 := by
  obtain ⟨cache, hc, rfl⟩ := h.cache
  have hen := (entry_iff (after State.init past).cfg c.suppressed c.err.isSome c.api).1 (by rw [(init_cfg past).1]; exact hwant)
  obtain ⟨h, cache', hi, -, -, hr⟩ := call_ok hw _ cache (fit_inv hc) c _ _ hen
  rw [hr]
  exact handle_handled hw _ cache' hi _ _ _ _

/-- C161, partial: events that are not counted, and whose place in the source logs no other event: while nothing panics during the
call, however much panicked before or in other goroutines, the event is written exactly once if it is wanted, by a handler made for
an event of its name, with its level, properties and error; and not at all otherwise. -/
theorem together_delivered_partial (past : List Op) (job : Nat → List (World × Call)) (i k : Nat) (w : World) (c : Call)
    (r : List Act × Ret) (h : Result past job i k w c r) (hq : Quiet w) (hn : ¬ Counted past job c.event)
    (hl : ∀ e, Logged past job c.file c.line e → e = c.event) :
    (wanted (lastMin 10 past) c.suppressed c.err.isSome c.api →
      ∃ site, site.event = c.event ∧
        r.1 = [.out site ⟨c.api.levelOf c.err.isSome, c.props, if c.api.isCall then c.err else none⟩]) ∧
    (¬ wanted (lastMin 10 past) c.suppressed c.err.isSome c.api → r = ([], .nil)) := by
  have hmem : (w, c) ∈ job i := List.mem_of_getElem? h.made
  obtain ⟨cache, hc, rfl⟩ := h.cache
  obtain ⟨he1, he2⟩ := entry_iff (after State.init past).cfg c.suppressed c.err.isSome c.api
  rw [(init_cfg past).1] at he1 he2
  refine ⟨fun hwant => ?_, fun hwant => by simp only [call, he2 hwant]⟩
  obtain ⟨h, cache', hi, hsite, hgh, hr⟩ := call_ok ⟨hq.stats, hq.writer⟩ _ cache (fit_inv hc) c _ _ (he1 hwant)
  have hcw : ∀ s, w.statsOf s = .handler → Counted past job s.event := fun s hs => Or.inr ⟨i, (w, c), hmem, s, hs, rfl⟩
  have hfit := getHandler_fitting _ _ w hcw cache hc _ _ _ _ _ _ _ hgh
  have hc' := getHandler_fit _ _ w hcw cache hc c.event c.api.isCall c.file c.line c.props
  rw [hgh] at hc'
  rw [hr]
  obtain ⟨-, both, site, h2, h3⟩ := handle_quiet hq (after State.init past).cfg cache' hi c.file c.line
    ⟨c.api.levelOf c.err.isSome, c.props, if c.api.isCall then c.err else none⟩ h
  have hb : both = false := by
    cases both with
    | false => rfl
    | true =>
      exfalso
      rcases h3 rfl with ⟨m, hm⟩ | ⟨m, hm⟩ | ⟨hm1, hm2⟩
      · subst hm; exact hn (hsite ▸ hfit.1 _ _ rfl)
      · have hf := hc' _ _ hm
        obtain ⟨-, u, hu, hlog⟩ := hf
        have hu' : site = u := by
          rcases hu with hu | hu
          · simp at hu
          · injection hu
        rw [← hu'] at hlog
        have := (hc' _ _ hm).1 _ _ rfl
        rw [hl _ hlog] at this
        exact hn this
      · exact hn (by rw [← hsite, ← hm1]; exact hcw _ hm2)
  subst hb
  have hs := handle_site _ _ w (after State.init past).cfg cache' hc' c.file c.line
    ⟨c.api.levelOf c.err.isSome, c.props, if c.api.isCall then c.err else none⟩ h (by rw [hsite]; exact hl)
  refine ⟨site, ?_, h2⟩
  rw [← hsite]
  rw [h2] at hs
  exact hs _ List.mem_cons_self site rfl

/-- C161, partial: an event whose place in the source logs no other event is written and counted by handlers made for an event of
its name only, whatever panics in this and in other goroutines. -/
theorem together_own_handlers_partial (past : List Op) (job : Nat → List (World × Call)) (i k : Nat) (w : World) (c : Call)
    (r : List Act × Ret) (h : Result past job i k w c r)
    (hl : ∀ e, Logged past job c.file c.line e → e = c.event) :
    ∀ s ev, (Act.out s ev ∈ r.1 ∨ Act.stats s ev ∈ r.1) → s.event = c.event := by
  have hmem : (w, c) ∈ job i := List.mem_of_getElem? h.made
  obtain ⟨cache, hc, rfl⟩ := h.cache
  have hcw : ∀ s, w.statsOf s = .handler → Counted past job s.event := fun s hs => Or.inr ⟨i, (w, c), hmem, s, hs, rfl⟩
  unfold call
  cases hen : entry (after State.init past).cfg c.suppressed c.err.isSome c.api with
  | none => simp
  | some p =>
    simp only [log]
    cases hg : getHandler w cache c.event p.2 c.file c.line c.props with
    | mk o cache' =>
      cases o with
      | none => simp
      | some h =>
        have hfit := getHandler_fitting _ _ w hcw cache hc _ _ _ _ _ _ _ hg
        have hc' := getHandler_fit _ _ w hcw cache hc c.event p.2 c.file c.line c.props
        rw [hg] at hc'
        have hs := handle_site _ _ w (after State.init past).cfg cache' hc' c.file c.line
          ⟨p.1, c.props, if c.api.isCall then c.err else none⟩ h (by rw [hfit.2]; exact hl)
        have hev : h.site.event = c.event := hfit.2
        rw [hev] at hs
        simp only
        revert hs
        generalize handle w (after State.init past).cfg cache' c.file c.line ⟨p.1, c.props, if c.api.isCall then c.err else none⟩ h = r
        generalize (if c.api.isCall then c.err else none) = err
        obtain ⟨acts, esc, rc⟩ := r
        intro hs s ev ha
        have key : ∀ res : List Act × Ret, res.1 = acts → (Act.out s ev ∈ res.1 ∨ Act.stats s ev ∈ res.1) → s.event = c.event := by
          intro res hres ha
          rw [hres] at ha
          rcases ha with ha | ha
          · exact hs _ ha s rfl
          · exact hs _ ha s rfl
        refine key _ ?_ ha
        cases esc with
        | true => rfl
        | false =>
          cases err with
          | none => rfl
          | some msg => cases c.text <;> rfl

/-- C161, partial: an event is written at most once in a call in which no stats handler panics. -/
theorem together_once_partial (past : List Op) (job : Nat → List (World × Call)) (i k : Nat) (w : World) (c : Call)
    (r : List Act × Ret) (h : Result past job i k w c r) (hs : ∀ s e, w.statsPanics s e = false) : writes r.1 ≤ 1 := by
  obtain ⟨cache, -, rfl⟩ := h.cache
  unfold call
  cases hen : entry (after State.init past).cfg c.suppressed c.err.isSome c.api with
  | none => simp [writes]
  | some p =>
    simp only [log]
    cases getHandler w cache c.event p.2 c.file c.line c.props with
    | mk o cache' =>
      cases o with
      | none => simp [writes]
      | some h =>
        have := written_once_partial w hs (after State.init past).cfg cache' c.file c.line
          ⟨p.1, c.props, if c.api.isCall then c.err else none⟩ h
        simp only
        revert this
        generalize handle w (after State.init past).cfg cache' c.file c.line ⟨p.1, c.props, if c.api.isCall then c.err else none⟩ h = r
        generalize (if c.api.isCall then c.err else none) = err
        obtain ⟨acts, esc, rc⟩ := r
        intro this
        cases esc with
        | true => exact this
        | false =>
          cases err with
          | none => exact this
          | some msg => cases c.text <;> exact this

/-- C161: what a call function returns does not depend on other goroutines, unless it panics: nil exactly if it was given nil, else
the formatted event name and the given error. -/
theorem together_result (past : List Op) (job : Nat → List (World × Call)) (i k : Nat) (w : World) (c : Call)
    (r : List Act × Ret) (h : Result past job i k w c r) (hp : r.2 ≠ .panic) :
    (r.2 = .nil ∧ (c.api.isCall = true → c.err = none)) ∨
      ∃ text msg, c.api.isCall = true ∧ c.text = some text ∧ c.err = some msg ∧ r.2 = .err (text ++ [58, 32] ++ msg) := by
  obtain ⟨cache, -, rfl⟩ := h.cache
  cases hcall : c.api.isCall with
  | false =>
    left
    refine ⟨?_, by simp⟩
    revert hp
    simp only [call, hcall]
    cases entry (after State.init past).cfg c.suppressed c.err.isSome c.api with
    | none => simp
    | some p =>
      simp only [log, Bool.false_eq_true, if_false]
      cases getHandler w cache c.event p.2 c.file c.line c.props with
      | mk o cache' =>
        cases o with
        | none => simp
        | some h => simp only; split <;> simp
  | true =>
    have hres := call_result_partial ⟨(after State.init past).cfg, cache⟩ w c hcall hp
    cases he : c.err with
    | none => exact Or.inl ⟨hres.1.mpr he, fun _ => rfl⟩
    | some msg =>
      right
      obtain ⟨level, -, hen⟩ := hres.2.2 msg he
      simp only [call, he, Option.isSome_some, hen, log, hcall, if_true] at hp ⊢
      cases hg : getHandler w cache c.event true c.file c.line c.props with
      | mk o cache' =>
        rw [hg] at hp
        cases o with
        | none => simp at hp
        | some h =>
          simp only at hp ⊢
          by_cases hx : (handle w (after State.init past).cfg cache' c.file c.line ⟨level, c.props, some msg⟩ h).escaped = true
          · simp [hx] at hp
          · rw [if_neg hx] at hp ⊢
            cases ht : c.text with
            | none => simp [ht] at hp
            | some t => exact ⟨t, msg, trivial, rfl, rfl, rfl⟩

/-! ### Cases -/

/-- Two goroutines log the same new event at two places; the aggregator counts it. -/
def twice : Nat → List (World × Call)
  | 0 => [({ aggregating with }, { sampleCall with api := .info, err := none })]
  | 1 => [({ aggregating with }, { sampleCall with api := .info, err := none, line := 8 })]
  | _ => []

/-- What goroutine `i` has got, if it is done. -/
def done (s : Run) (i : Nat) : Option (List (List Act × Ret)) :=
  match s.prog i with
  | .ret rs => some rs
  | _ => none

/-- C161 fails for counting: if both look for the handler before the other has stored one, the event is counted in two windows;
one after the other it is counted in one. -/
theorem counted_apart :
    (done (Run.after (fun k => k % 2) 4 (Run.start [.setMinLevel 30] twice)) 0 =
        some [([.stats ⟨asc "query {id}", false, asc "a.go", 7, 1⟩ ⟨30, 1, none⟩], .nil)] ∧
      done (Run.after (fun k => k % 2) 4 (Run.start [.setMinLevel 30] twice)) 1 =
        some [([.stats ⟨asc "query {id}", false, asc "a.go", 8, 1⟩ ⟨30, 1, none⟩], .nil)]) ∧
    done (Run.after (fun k => k / 2) 4 (Run.start [.setMinLevel 30] twice)) 1 =
      some [([.stats ⟨asc "query {id}", false, asc "a.go", 7, 1⟩ ⟨30, 1, none⟩], .nil)] := by decide

/-- Two goroutines log an event whose handler panics on the other's properties, a third one another event. -/
def three : Nat → List (World × Call)
  | 0 => [(picky, { sampleCall with api := .info, err := none }), (picky, { sampleCall with api := .info, err := none, props := 3 })]
  | 1 => [(picky, { sampleCall with api := .info, err := none, line := 8, props := 2 })]
  | 2 => [(calm, { sampleCall with event := asc "other", line := 9 })]
  | _ => []

/-- All are written in this interleaving, in which goroutine 1 finds the handler of goroutine 0, while goroutine 0 finds the
redirector that goroutine 1 has put in its place. -/
example : (done (Run.after (fun k => [0, 2, 0, 1, 1, 2, 0, 0, 0].getD k 0) 9 (Run.start [] three)) 0,
      done (Run.after (fun k => [0, 2, 0, 1, 1, 2, 0, 0, 0].getD k 0) 9 (Run.start [] three)) 1,
      done (Run.after (fun k => [0, 2, 0, 1, 1, 2, 0, 0, 0].getD k 0) 9 (Run.start [] three)) 2) =
    (some [([.out ⟨asc "query {id}", false, asc "a.go", 7, 1⟩ ⟨30, 1, none⟩], .nil),
        ([.out ⟨asc "query {id}", false, asc "a.go", 7, 3⟩ ⟨30, 3, none⟩], .nil)],
      some [([.out ⟨asc "query {id}", false, asc "unknown", 0, 2⟩ ⟨30, 2, none⟩], .nil)],
      some [([.out ⟨asc "other", true, asc "a.go", 9, 1⟩ ⟨40, 1, some (asc "timeout")⟩], .err (asc "query 5: timeout"))]) := by decide

example : Result [] three 2 0 calm { sampleCall with event := asc "other", line := 9 }
    ([.out ⟨asc "other", true, asc "a.go", 9, 1⟩ ⟨40, 1, some (asc "timeout")⟩], .err (asc "query 5: timeout")) :=
  ⟨rfl, fun _ => 2, 2, _, rfl, rfl⟩

example : Quiet calm ∧ SinksOk picky := ⟨⟨by simp [calm], by simp [calm], by simp [calm], by simp [calm]⟩, by simp [picky], by simp [picky]⟩

example : ¬ Counted [] three (asc "other") ∧ ∀ e, Logged [] three (asc "a.go") 9 e → e = asc "other" := by
  have h : ∀ (P : World × Call → Prop) (i : Nat), (∃ wc ∈ three i, P wc) → (∃ wc ∈ three 0, P wc) ∨ (∃ wc ∈ three 1, P wc) ∨ ∃ wc ∈ three 2, P wc := by
    intro P i hi
    match i, hi with
    | 0, h => exact Or.inl h
    | 1, h => exact Or.inr (Or.inl h)
    | 2, h => exact Or.inr (Or.inr h)
    | _ + 3, ⟨wc, hm, _⟩ => simp [three] at hm
  constructor
  · rintro (⟨w, c, hm, -⟩ | ⟨i, hi⟩)
    · simp at hm
    · have := h _ i hi
      simp [three, picky, calm] at this
  · rintro e (⟨w, c, hm, -⟩ | ⟨i, hi⟩)
    · simp at hm
    · have := h _ i hi
      simp [three, sampleCall] at this
      exact this.symm

end Verif.Countlog.Together
