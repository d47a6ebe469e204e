import Verif.Basic

/-!
# C146: goroutines printing at the same time

Model of `fprintf` in msgfmt/msgfmt.go with its pool of buffers: any number of goroutines, each of which takes a buffer, appends the pieces of its text,
hands the buffer to its writer, and puts it back.  `writeEvent.Handle` of countlog/output/writer.go (47-54) with `recylceWriter` (66-76) does the same with a pool of its
own, so that the model is one of log events too.
-/

namespace Verif.Msgfmt.PrintPool

/-! ### Model -/

/-- Where a goroutine is in `fprintf`, msgfmt/msgfmt.go:61-68 (countlog/output/writer.go:48-55): elsewhere, appending to a buffer (62-64), or done with writing it (65). -/
inductive At where
  | out
  | formatting (buf : Nat)
  | written (buf : Nat)
  deriving DecidableEq

/-- `bufPool`, msgfmt/msgfmt.go:13-17 (countlog/output/writer.go:61-65), the bytes of all buffers, and where the goroutines are; `calls` is what writers were given, msgfmt/msgfmt.go:65, the latest
last. -/
structure St where
  pool : List Nat
  mem : Nat → Bytes
  next : Nat
  at_ : Nat → At
  calls : List (Nat × Bytes)

/-- What can happen next, msgfmt/msgfmt.go:61-68, with the number of the goroutine. -/
inductive Ev where
  /-- `bufPool.Get()`, cut to length zero (62): one from the pool, or a new one. `sync.Pool` chooses, and may drop what it has (`lost`). -/
  | getOld (g i : Nat)
  | getNew (g : Nat)
  | lost (i : Nat)
  /-- The formatter appends a piece (64), in place or, if there is no room, in a new array. -/
  | append (g : Nat) (piece : Bytes) (moves : Bool)
  /-- `writer.Write(formatted)` (65). -/
  | write (g : Nat)
  /-- `bufPool.Put(formatted)` (66). -/
  | put (g : Nat)
  /-- A formatter panics (64): the buffer is not put back. -/
  | panic (g : Nat)
  /-- A writer panics when it has been given the text (65): the buffer is not put back. -/
  | writePanic (g : Nat)

/-- An array gets these bytes, msgfmt/msgfmt.go:62, 64. -/
def setMem (m : Nat → Bytes) (b : Nat) (t : Bytes) : Nat → Bytes := fun x => if x = b then t else m x

/-- A goroutine goes on, msgfmt/msgfmt.go:61-68. -/
def setAt (m : Nat → At) (g : Nat) (a : At) : Nat → At := fun x => if x = g then a else m x

/-- One event, msgfmt/msgfmt.go:61-68; `none` if it cannot happen now. -/
def step (s : St) : Ev → Option St
  | .getOld g i =>
    match s.at_ g, s.pool[i]? with
    | .out, some b => some { s with pool := s.pool.eraseIdx i, mem := setMem s.mem b [], at_ := setAt s.at_ g (.formatting b) }
    | _, _ => none
  | .getNew g =>
    match s.at_ g with
    | .out => some { s with mem := setMem s.mem s.next [], next := s.next + 1, at_ := setAt s.at_ g (.formatting s.next) }
    | _ => none
  | .lost i => some { s with pool := s.pool.eraseIdx i }
  | .append g piece moves =>
    match s.at_ g with
    | .formatting b =>
      if moves then some { s with mem := setMem s.mem s.next (s.mem b ++ piece), next := s.next + 1, at_ := setAt s.at_ g (.formatting s.next) }
      else some { s with mem := setMem s.mem b (s.mem b ++ piece) }
    | _ => none
  | .write g =>
    match s.at_ g with
    | .formatting b => some { s with at_ := setAt s.at_ g (.written b), calls := s.calls ++ [(g, s.mem b)] }
    | _ => none
  | .put g =>
    match s.at_ g with
    | .written b => some { s with at_ := setAt s.at_ g .out, pool := b :: s.pool }
    | _ => none
  | .panic g =>
    match s.at_ g with
    | .formatting _ => some { s with at_ := setAt s.at_ g .out }
    | _ => none
  | .writePanic g =>
    match s.at_ g with
    | .formatting b => some { s with at_ := setAt s.at_ g .out, calls := s.calls ++ [(g, s.mem b)] }
    | _ => none

/-- A run, msgfmt/msgfmt.go:61-68. -/
def run (s : St) : List Ev → Option St
  | [] => some s
  | e :: es => (step s e).bind fun s => run s es

/-- At the start, msgfmt/msgfmt.go:13. -/
def start : St := ⟨[], fun _ => [], 0, fun _ => .out, []⟩

/-! ### Specification -/

/-- The text a goroutine is at: the pieces since it began. -/
def pieces (g : Nat) (text : Bytes) : Ev → Bytes
  | .getOld h _ => if h = g then [] else text
  | .getNew h => if h = g then [] else text
  | .append h piece _ => if h = g then text ++ piece else text
  | _ => text

/-- What should be written, from a list of what happens: each goroutine its own text. -/
def expected (texts : Nat → Bytes) : List Ev → List (Nat × Bytes)
  | [] => []
  | e :: es =>
    let r := expected (fun g => pieces g (texts g) e) es
    match e with
    | .write g => (g, texts g) :: r
    | .writePanic g => (g, texts g) :: r
    | _ => r

/-! ### Proofs -/

/-- The buffer a goroutine has. -/
def has (a : At) (b : Nat) : Prop := a = .formatting b ∨ a = .written b

/-- Nobody shares a buffer, and goroutines that are formatting have their text in theirs. -/
structure Ok (s : St) (texts : Nat → Bytes) : Prop where
  pool : s.pool.Nodup
  old : ∀ b ∈ s.pool, b < s.next
  fresh : ∀ g b, has (s.at_ g) b → b < s.next ∧ b ∉ s.pool
  alone : ∀ g h b, has (s.at_ g) b → has (s.at_ h) b → g = h
  text : ∀ g b, s.at_ g = .formatting b → s.mem b = texts g

theorem has_set {m : Nat → At} {g : Nat} {a : At} {h b : Nat} (hh : has (setAt m g a h) b) : h = g ∧ has a b ∨ h ≠ g ∧ has (m h) b := by
  unfold setAt at hh
  by_cases e : h = g
  · rw [if_pos e] at hh; exact .inl ⟨e, hh⟩
  · rw [if_neg e] at hh; exact .inr ⟨e, hh⟩

theorem setAt_self (m : Nat → At) (g : Nat) (a : At) : setAt m g a g = a := if_pos rfl

theorem setAt_other (m : Nat → At) {g h : Nat} (a : At) (e : h ≠ g) : setAt m g a h = m h := if_neg e

theorem setMem_self (m : Nat → Bytes) (b : Nat) (t : Bytes) : setMem m b t b = t := if_pos rfl

theorem setMem_other (m : Nat → Bytes) {b c : Nat} (t : Bytes) (e : c ≠ b) : setMem m b t c = m c := if_neg e

theorem has_formatting {b c : Nat} (h : has (.formatting b) c) : c = b := by
  rcases h with h | h
  · injection h with h; exact h.symm
  · cases h

theorem not_has_out {b : Nat} (h : has .out b) : False := by
  rcases h with h | h <;> cases h

/-- A goroutine begins with a buffer of its own. -/
theorem ok_begin {s : St} {texts : Nat → Bytes} (hs : Ok s texts) (g b : Nat) (pool : List Nat) (n : Nat) (t : Bytes)
    (hp : pool.Nodup) (hsub : ∀ x ∈ pool, x ∈ s.pool) (hn : s.next ≤ n) (hb : b < n) (hbp : b ∉ pool)
    (hfree : ∀ h, h ≠ g → ¬ has (s.at_ h) b) (texts' : Nat → Bytes) (h1 : texts' g = t) (h2 : ∀ h, h ≠ g → texts' h = texts h) :
    Ok { s with pool := pool, mem := setMem s.mem b t, next := n, at_ := setAt s.at_ g (.formatting b) } texts' := by
  refine ⟨hp, fun x hx => ?_, fun h c hc => ?_, fun h k c hc hd => ?_, fun h c hc => ?_⟩
  · have := hs.old x (hsub x hx)
    show x < n
    omega
  · rcases has_set hc with ⟨_, hc⟩ | ⟨_, hc⟩
    · rw [has_formatting hc]; exact ⟨hb, hbp⟩
    · obtain ⟨f1, f2⟩ := hs.fresh h c hc
      exact ⟨Nat.lt_of_lt_of_le f1 hn, fun hx => f2 (hsub c hx)⟩
  · rcases has_set hc with ⟨e1, hc⟩ | ⟨e1, hc⟩
    · rcases has_set hd with ⟨e2, hd⟩ | ⟨e2, hd⟩
      · rw [e1, e2]
      · rw [has_formatting hc] at hd; exact absurd hd (hfree k e2)
    · rcases has_set hd with ⟨e2, hd⟩ | ⟨e2, hd⟩
      · rw [has_formatting hd] at hc; exact absurd hc (hfree h e1)
      · exact hs.alone h k c hc hd
  · have hc : setAt s.at_ g (.formatting b) h = .formatting c := hc
    show setMem s.mem b t c = texts' h
    by_cases e : h = g
    · subst e
      rw [setAt_self] at hc
      injection hc with hc
      rw [← hc, setMem_self, h1]
    · rw [setAt_other _ _ e] at hc
      have hne : c ≠ b := fun hcb => hfree h e (.inl (hcb ▸ hc))
      rw [h2 h e, setMem_other _ _ hne, hs.text h c hc]

theorem step_ok (s t : St) (e : Ev) (texts : Nat → Bytes) (hs : Ok s texts) (h : step s e = some t) :
    Ok t (fun g => pieces g (texts g) e) ∧ ∀ es, t.calls ++ expected (fun g => pieces g (texts g) e) es = s.calls ++ expected texts (e :: es) := by
  cases e with
  | getOld g i =>
    simp only [step] at h
    split at h
    · rename_i b hg hp
      injection h with h
      subst h
      have hb : b ∈ s.pool := List.mem_of_getElem? hp
      refine ⟨ok_begin hs g b _ s.next [] (hs.pool.sublist (List.eraseIdx_sublist ..)) (fun x hx => List.mem_of_mem_eraseIdx hx) (Nat.le_refl _) (hs.old b hb) ?_ ?_ _ ?_ ?_,
        fun es => rfl⟩
      · intro hx
        obtain ⟨hi, hbi⟩ := List.getElem?_eq_some_iff.mp hp
        obtain ⟨j, hj, hne, hjb⟩ := List.mem_eraseIdx_iff_getElem.mp hx
        have hpw := List.pairwise_iff_getElem.mp hs.pool
        rcases Nat.lt_or_gt_of_ne hne with hlt | hlt
        · exact hpw j i hj hi hlt (hjb.trans hbi.symm)
        · exact hpw i j hi hj hlt (hbi.trans hjb.symm)
      · intro k _ hk
        exact (hs.fresh k b hk).2 hb
      · simp [pieces]
      · intro k hk
        simp only [pieces]
        rw [if_neg (fun e => hk e.symm)]
    · cases h
  | getNew g =>
    simp only [step] at h
    split at h
    · injection h with h
      subst h
      refine ⟨ok_begin hs g s.next s.pool (s.next + 1) [] hs.pool (fun _ h => h) (by omega) (by omega) ?_ ?_ _ ?_ ?_, fun es => rfl⟩
      · intro hx
        have := hs.old _ hx
        omega
      · intro k _ hk
        have := (hs.fresh k _ hk).1
        omega
      · simp [pieces]
      · intro k hk
        simp only [pieces]
        rw [if_neg (fun e => hk e.symm)]
    · cases h
  | lost i =>
    simp only [step] at h
    injection h with h
    subst h
    refine ⟨⟨hs.pool.sublist (List.eraseIdx_sublist ..), fun x hx => hs.old x (List.mem_of_mem_eraseIdx hx), fun g b hb => ?_, hs.alone, hs.text⟩, fun es => rfl⟩
    obtain ⟨f1, f2⟩ := hs.fresh g b hb
    exact ⟨f1, fun hx => f2 (List.mem_of_mem_eraseIdx hx)⟩
  | append g piece moves =>
    simp only [step] at h
    split at h
    · rename_i b hg
      have ht := hs.text g b hg
      by_cases hm : moves = true
      · rw [if_pos hm] at h
        injection h with h
        subst h
        refine ⟨ok_begin hs g s.next s.pool (s.next + 1) _ hs.pool (fun _ h => h) (by omega) (by omega) ?_ ?_ _ ?_ ?_, fun es => rfl⟩
        · intro hx
          have := hs.old _ hx
          omega
        · intro k _ hk
          have := (hs.fresh k _ hk).1
          omega
        · simp [pieces, ht]
        · intro k hk
          simp only [pieces]
          rw [if_neg (fun e => hk e.symm)]
      · rw [if_neg hm] at h
        injection h with h
        subst h
        have hb := hs.fresh g b (.inl hg)
        have e : setAt s.at_ g (.formatting b) = s.at_ := by
          funext k
          by_cases hk : k = g
          · rw [hk, setAt_self, hg]
          · rw [setAt_other _ _ hk]
        have := ok_begin hs g b s.pool s.next (s.mem b ++ piece) hs.pool (fun _ h => h) (Nat.le_refl _) hb.1 hb.2
          (fun k hk hkb => hk (hs.alone k g b hkb (.inl hg))) (fun k => pieces k (texts k) (.append g piece moves)) (by simp [pieces, ht])
          (fun k hk => by simp only [pieces]; rw [if_neg (fun e => hk e.symm)])
        rw [e] at this
        exact ⟨this, fun es => rfl⟩
    · cases h
  | write g =>
    simp only [step] at h
    split at h
    · rename_i b hg
      injection h with h
      subst h
      have hh : ∀ k c, has (setAt s.at_ g (.written b) k) c → has (s.at_ k) c := by
        intro k c hc
        rcases has_set hc with ⟨e, hc⟩ | ⟨_, hc⟩
        · rw [e, hg]
          rcases hc with hc | hc
          · cases hc
          · injection hc with hc
            exact .inl (by rw [hc])
        · exact hc
      refine ⟨⟨hs.pool, hs.old, fun k c hc => hs.fresh k c (hh k c hc), fun k l c hc hd => hs.alone k l c (hh k c hc) (hh l c hd), fun k c hc => ?_⟩, fun es => ?_⟩
      · have hc : setAt s.at_ g (.written b) k = .formatting c := hc
        by_cases e : k = g
        · rw [e, setAt_self] at hc; cases hc
        · rw [setAt_other _ _ e] at hc
          exact hs.text k c hc
      · show (s.calls ++ [(g, s.mem b)]) ++ expected texts es = s.calls ++ (g, texts g) :: expected texts es
        rw [hs.text g b hg, List.append_assoc]
        rfl
    · cases h
  | put g =>
    simp only [step] at h
    split at h
    · rename_i b hg
      injection h with h
      subst h
      have hb := hs.fresh g b (.inr hg)
      refine ⟨⟨List.nodup_cons.mpr ⟨hb.2, hs.pool⟩, fun x hx => ?_, fun k c hc => ?_, fun k l c hc hd => ?_, fun k c hc => ?_⟩, fun es => rfl⟩
      · rcases List.mem_cons.mp hx with rfl | hx
        · exact hb.1
        · exact hs.old x hx
      · rcases has_set hc with ⟨_, hc⟩ | ⟨e, hc⟩
        · exact (not_has_out hc).elim
        · obtain ⟨f1, f2⟩ := hs.fresh k c hc
          refine ⟨f1, fun hx => ?_⟩
          rcases List.mem_cons.mp hx with hcb | hx
          · rw [hcb] at hc
            exact e (hs.alone k g b hc (.inr hg))
          · exact f2 hx
      · rcases has_set hc with ⟨_, hc⟩ | ⟨_, hc⟩
        · exact (not_has_out hc).elim
        · rcases has_set hd with ⟨_, hd⟩ | ⟨_, hd⟩
          · exact (not_has_out hd).elim
          · exact hs.alone k l c hc hd
      · have hc : setAt s.at_ g .out k = .formatting c := hc
        by_cases e : k = g
        · rw [e, setAt_self] at hc; cases hc
        · rw [setAt_other _ _ e] at hc
          exact hs.text k c hc
    · cases h
  | panic g =>
    simp only [step] at h
    split at h
    · injection h with h
      subst h
      have hh : ∀ k c, has (setAt s.at_ g .out k) c → has (s.at_ k) c := by
        intro k c hc
        rcases has_set hc with ⟨_, hc⟩ | ⟨_, hc⟩
        · exact (not_has_out hc).elim
        · exact hc
      refine ⟨⟨hs.pool, hs.old, fun k c hc => hs.fresh k c (hh k c hc), fun k l c hc hd => hs.alone k l c (hh k c hc) (hh l c hd), fun k c hc => ?_⟩, fun es => rfl⟩
      have hc : setAt s.at_ g .out k = .formatting c := hc
      by_cases e : k = g
      · rw [e, setAt_self] at hc; cases hc
      · rw [setAt_other _ _ e] at hc
        exact hs.text k c hc
    · cases h
  | writePanic g =>
    simp only [step] at h
    split at h
    · rename_i b hg
      injection h with h
      subst h
      have hh : ∀ k c, has (setAt s.at_ g .out k) c → has (s.at_ k) c := by
        intro k c hc
        rcases has_set hc with ⟨_, hc⟩ | ⟨_, hc⟩
        · exact (not_has_out hc).elim
        · exact hc
      refine ⟨⟨hs.pool, hs.old, fun k c hc => hs.fresh k c (hh k c hc), fun k l c hc hd => hs.alone k l c (hh k c hc) (hh l c hd), fun k c hc => ?_⟩, fun es => ?_⟩
      rotate_left
      · show (s.calls ++ [(g, s.mem b)]) ++ expected texts es = s.calls ++ (g, texts g) :: expected texts es
        rw [hs.text g b hg, List.append_assoc]
        rfl
      have hc : setAt s.at_ g .out k = .formatting c := hc
      by_cases e : k = g
      · rw [e, setAt_self] at hc; cases hc
      · rw [setAt_other _ _ e] at hc
        exact hs.text k c hc
    · cases h

theorem run_ok : ∀ (es : List Ev) (s t : St) (texts : Nat → Bytes), Ok s texts → run s es = some t → t.calls = s.calls ++ expected texts es
  | [], s, t, texts, _, h => by
    injection h with h
    subst h
    simp [expected]
  | e :: es, s, t, texts, hs, h => by
    rw [run] at h
    cases hu : step s e with
    | none => rw [hu] at h; cases h
    | some u =>
      rw [hu] at h
      obtain ⟨h1, h2⟩ := step_ok s u e texts hs hu
      rw [run_ok es u t _ h1 h, h2 es]

/-- C146: in every interleaving, whatever buffers the pool hands out and whoever panics, each writer is given the text of its own call, in one piece. -/
theorem own_text (es : List Ev) (t : St) (texts : Nat → Bytes) (h : run start es = some t) : t.calls = expected texts es := by
  have h0 : Ok start texts := ⟨List.nodup_nil, (fun _ h => by cases h), (fun _ _ h => (not_has_out h).elim), (fun _ _ _ h _ => (not_has_out h).elim), (fun _ _ h => by cases h)⟩
  simpa [start] using run_ok es start t texts h0 h

/-- A writer that keeps what it is given, against the rule of package io, finds another text there when the buffer is used again. -/
theorem kept_changes : ∃ (es : List Ev) (t : St), run start es = some t ∧ t.calls = [(1, asc "abc")] ∧ t.mem 0 = asc "xy" :=
  ⟨[.getNew 1, .append 1 (asc "abc") false, .write 1, .put 1, .getOld 2 0, .append 2 (asc "xy") false], _, rfl, by decide, by decide⟩

/-! ### Cases -/

/-- Two goroutines in turns, one of which gets the buffer of the other at the end. -/
def turns : List Ev := [.getNew 1, .getNew 2, .append 1 (asc "a") false, .append 2 (asc "x") true, .append 1 (asc "b") true, .write 2, .put 2, .getOld 3 0, .append 3 (asc "z") false,
  .write 1, .write 3, .put 3]

example : (run start turns).map St.calls = some [(2, asc "x"), (1, asc "ab"), (3, asc "z")] ∧
    expected (fun _ => []) turns = [(2, asc "x"), (1, asc "ab"), (3, asc "z")] := by decide

end Verif.Msgfmt.PrintPool
