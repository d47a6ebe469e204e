import Verif.Difflib.Grouped
import Verif.Difflib.Ratio

/-!
# C56: repeated queries on one matcher

The caches of `SequenceMatcher` in test/go-difflib/difflib/difflib.go.
-/

namespace Verif.Difflib

variable {α : Type} [DecidableEq α]

/-! ### Model -/

/-- `SequenceMatcher`, difflib.go 87-98, with its caches (`none` is nil: what the methods
store is never nil).  `autoJunk` and `isJunk` are as at construction. -/
structure Matcher (α : Type) where
  autoJunk : Bool
  isJunk : Option (α → Bool)
  seqs : Seqs α
  blocks : Option (List Match)
  codes : Option (List OpCode)
  full : Option (α → Nat)

/-- `NewMatcherWithJunk`, difflib.go 106-112. -/
def Matcher.new (a b : List α) (autoJunk : Bool) (isJunk : Option (α → Bool)) : Matcher α :=
  ⟨autoJunk, isJunk, newMatcher a b autoJunk isJunk, none, none, none⟩

/-- `SetSeq1`, difflib.go 129-136 (`&a == &m.a` compares the address of the parameter, so
it is never true). -/
def Matcher.setSeq1 (m : Matcher α) (a : List α) : Matcher α :=
  { m with seqs := { m.seqs with a := a }, blocks := none, codes := none }

/-- `SetSeq2`, difflib.go 140-149. -/
def Matcher.setSeq2 (m : Matcher α) (b : List α) : Matcher α :=
  { m with seqs := newMatcher m.seqs.a b m.autoJunk m.isJunk, blocks := none, codes := none, full := none }

/-- `GetMatchingBlocks`, difflib.go 305-356.  The computation always ends
(`matching_blocks`), `getD` is never used. -/
def Matcher.getBlocks (m : Matcher α) : Matcher α × List Match :=
  match m.blocks with
  | some bs => (m, bs)
  | none => let bs := (matchingBlocks m.seqs).getD []; ({ m with blocks := some bs }, bs)

/-- `GetOpCodes`, difflib.go 373-407. -/
def Matcher.getCodes (m : Matcher α) : Matcher α × List OpCode :=
  match m.codes with
  | some cs => (m, cs)
  | none =>
    let (m, bs) := m.getBlocks
    let cs := opCodesLoop 0 0 bs
    ({ m with codes := some cs }, cs)

/-- `GetGroupedOpCodes`, difflib.go 413-452: it changes the slice the cache holds. -/
def Matcher.getGrouped (m : Matcher α) (n : Int) : Matcher α × List (List OpCode) :=
  let (m, cs) := m.getCodes
  ({ m with codes := some (groupedOpCodes n cs).1 }, (groupedOpCodes n cs).2)

/-- The numbers of matches the ratios are computed from: `Ratio` (difflib.go 465-471). -/
def Matcher.ratioMatches (m : Matcher α) : Matcher α × Nat :=
  let (m, bs) := m.getBlocks
  (m, (bs.map Match.Size).sum)

/-- `QuickRatio` (difflib.go 477-503) up to the final division. -/
def Matcher.quickMatches (m : Matcher α) : Matcher α × Nat :=
  match m.full with
  | some f => (m, quickLoop f m.seqs.a (fun _ => none) 0)
  | none =>
    let f := countAll m.seqs.b fun _ => 0
    ({ m with full := some f }, quickLoop f m.seqs.a (fun _ => none) 0)

/-- The exported methods (difflib.go 115-520). -/
inductive Call (α : Type) where
  | setSeq1 (a : List α)
  | setSeq2 (b : List α)
  | blocks
  | codes
  | grouped (n : Int)
  | ratio
  | quickRatio
  | realQuickRatio

/-- What they return; ratios by the two arguments of `calculateRatio` (difflib.go 40-45). -/
inductive Reply where
  | nothing
  | blocks (bs : List Match)
  | codes (cs : List OpCode)
  | grouped (gs : List (List OpCode))
  | ratio (matched length : Nat)
  deriving DecidableEq, Repr

/-- One call (difflib.go 115-520). -/
def Matcher.call (m : Matcher α) : Call α → Matcher α × Reply
  | .setSeq1 a => (m.setSeq1 a, .nothing)
  | .setSeq2 b => (m.setSeq2 b, .nothing)
  | .blocks => let (m, bs) := m.getBlocks; (m, .blocks bs)
  | .codes => let (m, cs) := m.getCodes; (m, .codes cs)
  | .grouped n => let (m, gs) := m.getGrouped n; (m, .grouped gs)
  | .ratio => let (m, k) := m.ratioMatches; (m, .ratio k (m.seqs.a.length + m.seqs.b.length))
  | .quickRatio => let (m, k) := m.quickMatches; (m, .ratio k (m.seqs.a.length + m.seqs.b.length))
  | .realQuickRatio => (m, .ratio (min m.seqs.a.length m.seqs.b.length) (m.seqs.a.length + m.seqs.b.length))

/-- The matcher after some calls (difflib.go 115-520). -/
def Matcher.after (m : Matcher α) : List (Call α) → Matcher α
  | [] => m
  | c :: cs => (m.call c).1.after cs

/-! ### Specification -/

/-- The sequences last set. -/
def current (a b : List α) : List (Call α) → List α × List α
  | [] => (a, b)
  | .setSeq1 a' :: cs => current a' b cs
  | .setSeq2 b' :: cs => current a b' cs
  | _ :: cs => current a b cs

/-- The context sizes of the grouped queries since a sequence was last set; `seen` before. -/
def contexts (seen : List Nat) : List (Call α) → List Nat
  | [] => seen
  | .setSeq1 _ :: cs => contexts [] cs
  | .setSeq2 _ :: cs => contexts [] cs
  | .grouped n :: cs => contexts (contextSize n :: seen) cs
  | _ :: cs => contexts seen cs

/-- The queries the in-place change does not reach: all but opcodes after a grouped query,
and grouped queries after one with less context. -/
def Unaffected (seen : List Nat) : Call α → Prop
  | .codes => seen = []
  | .grouped n => ∀ k ∈ seen, contextSize n ≤ k
  | _ => True

/-! ### Proof -/

/-- Both fixups. -/
def fixBoth (n : Nat) (cs : List OpCode) : List OpCode := fixLast n (fixFirst n cs)

theorem firstLines_firstLines (n k : Nat) (h : n ≤ k) (c : OpCode) : firstLines n (firstLines k c) = firstLines n c := by
  simp only [firstLines, OpCode.mk.injEq, true_and]
  constructor <;> omega

theorem lastLines_lastLines (n k : Nat) (h : n ≤ k) (c : OpCode) : lastLines n (lastLines k c) = lastLines n c := by
  simp only [lastLines, OpCode.mk.injEq, true_and, and_true]
  constructor <;> omega

theorem fix_single (n k : Nat) (h : n ≤ k) (c : OpCode) :
    firstLines n (lastLines n (firstLines k (lastLines k c))) = firstLines n (lastLines n c) := by
  simp only [lastLines, firstLines, OpCode.mk.injEq, true_and]
  refine ⟨?_, ?_, ?_, ?_⟩ <;> omega

/-- Less context afterwards gives what it would have given at first. -/
theorem fixBoth_fixBoth (n k : Nat) (h : n ≤ k) (cs : List OpCode) : fixBoth n (fixBoth k cs) = fixBoth n cs := by
  unfold fixBoth
  cases cs with
  | nil => rfl
  | cons c cs =>
    rcases List.eq_nil_or_concat cs with rfl | ⟨l, d, rfl⟩
    · by_cases hc : c.Tag = .e
      · have t1 : (lastLines k c).Tag = .e := hc
        have t2 : (firstLines k (lastLines k c)).Tag = .e := hc
        have t3 : (lastLines n (firstLines k (lastLines k c))).Tag = .e := hc
        have t4 : (lastLines n c).Tag = .e := hc
        simp only [fixFirst, fixLast, if_pos hc, if_pos t1, if_pos t2, if_pos t3, if_pos t4]
        rw [fix_single n k h]
      · simp only [fixFirst, fixLast, if_neg hc]
    · rw [List.concat_eq_append]
      have e : ∀ (m : Nat) (x : OpCode), fixFirst m (x :: (l ++ [d])) = (if x.Tag = .e then lastLines m x else x) :: (l ++ [d]) :=
        fun m x => rfl
      have e' : ∀ (m : Nat) (x y : OpCode), fixLast m (x :: (l ++ [y])) = x :: (l ++ [if y.Tag = .e then firstLines m y else y]) := by
        intro m x y
        have := fixLast_concat m (x :: l) y
        simpa using this
      rw [e, e', e, e']
      rw [show fixFirst n ((if c.Tag = .e then lastLines k c else c) :: (l ++ [if d.Tag = .e then firstLines k d else d])) =
        (if (if c.Tag = .e then lastLines k c else c).Tag = .e then lastLines n (if c.Tag = .e then lastLines k c else c)
          else (if c.Tag = .e then lastLines k c else c)) :: (l ++ [if d.Tag = .e then firstLines k d else d]) from rfl]
      have := fixLast_concat n ((if (if c.Tag = .e then lastLines k c else c).Tag = .e then lastLines n (if c.Tag = .e then lastLines k c else c)
          else (if c.Tag = .e then lastLines k c else c)) :: l) (if d.Tag = .e then firstLines k d else d)
      rw [List.cons_append] at this
      rw [this, List.cons_append]
      congr 1
      · by_cases hc : c.Tag = .e
        · have t1 : (lastLines k c).Tag = .e := hc
          simp only [if_pos hc, if_pos t1]
          exact lastLines_lastLines n k h c
        · simp only [if_neg hc]
      · by_cases hd : d.Tag = .e
        · have t1 : (firstLines k d).Tag = .e := hd
          simp only [if_pos hd, if_pos t1]
          rw [firstLines_firstLines n k h d]
        · simp only [if_neg hd]

theorem fixBoth_nil (n : Nat) (cs : List OpCode) : fixBoth n cs = [] ↔ cs = [] := by
  unfold fixBoth
  constructor
  · intro h
    cases cs with
    | nil => rfl
    | cons c cs =>
      rw [fixFirst] at h
      cases cs with
      | nil => simp [fixLast] at h
      | cons d cs => simp [fixLast] at h
  · rintro rfl; rfl

theorem grouped_eq (n : Int) (cs : List OpCode) : groupedOpCodes n cs =
    if cs = [] then ([], []) else (fixBoth (contextSize n) cs, groupLoop (contextSize n) [] (fixBoth (contextSize n) cs)) := by
  rw [groupedOpCodes]
  by_cases h : cs = []
  · subst h
    rw [if_pos rfl, if_pos rfl]
    have : groupLoop (contextSize n) [] (fixLast (contextSize n) (fixFirst (contextSize n) [⟨.e, 0, 1, 0, 1⟩])) = [] := by
      rw [fixFirst, if_pos rfl, fixLast, if_pos (by rfl), groupLoop, if_neg, groupLoop, if_neg]
      · simp [firstLines, lastLines]
      · rintro ⟨_, h⟩
        simp only [firstLines, lastLines] at h
        omega
    rw [this]
  · rw [if_neg h, if_neg h]; rfl

/-- What holds between calls: the caches belong to the sequences, and the opcodes have been
cut at most to the context sizes seen. -/
structure Matcher.Inv (m : Matcher α) (a b : List α) (aj : Bool) (ij : Option (α → Bool)) (seen : List Nat) : Prop where
  autoJunk : m.autoJunk = aj
  isJunk : m.isJunk = ij
  seqs : m.seqs = newMatcher a b aj ij
  blocks : ∀ bs, m.blocks = some bs → matchingBlocks (newMatcher a b aj ij) = some bs
  full : ∀ f, m.full = some f → f = countAll b fun _ => 0
  codes : ∀ cs, m.codes = some cs → ∃ fresh, opCodes (newMatcher a b aj ij) = some fresh ∧
    (seen = [] → cs = fresh) ∧ (cs = [] ↔ fresh = []) ∧ ∀ n, (∀ k ∈ seen, n ≤ k) → fixBoth n cs = fixBoth n fresh
  seen : m.codes = none → seen = []

theorem Matcher.Inv.getBlocks {m : Matcher α} {a b : List α} {aj : Bool} {ij : Option (α → Bool)} {seen : List Nat}
    (h : m.Inv a b aj ij seen) : (m.getBlocks.1).Inv a b aj ij seen ∧
      matchingBlocks (newMatcher a b aj ij) = some m.getBlocks.2 ∧ m.getBlocks.1.codes = m.codes := by
  obtain ⟨bs0, hbs0⟩ : ∃ bs0, matchingBlocks (newMatcher a b aj ij) = some bs0 := by
    obtain ⟨bs, h, _⟩ := matching_blocks a b aj ij
    exact ⟨_, h⟩
  unfold Matcher.getBlocks
  cases hb : m.blocks with
  | some bs => exact ⟨h, h.blocks bs hb, rfl⟩
  | none =>
    have e : (matchingBlocks m.seqs).getD [] = bs0 := by rw [h.seqs, hbs0]; rfl
    simp only [e]
    refine ⟨⟨h.autoJunk, h.isJunk, h.seqs, ?_, h.full, h.codes, h.seen⟩, hbs0, trivial⟩
    intro bs hbs
    simp only [Option.some.injEq] at hbs
    rw [← hbs]; exact hbs0

theorem Matcher.Inv.getCodes {m : Matcher α} {a b : List α} {aj : Bool} {ij : Option (α → Bool)} {seen : List Nat}
    (h : m.Inv a b aj ij seen) : (m.getCodes.1).Inv a b aj ij seen ∧
      ∃ fresh, opCodes (newMatcher a b aj ij) = some fresh ∧ (seen = [] → m.getCodes.2 = fresh) ∧
        (m.getCodes.2 = [] ↔ fresh = []) ∧ (∀ n, (∀ k ∈ seen, n ≤ k) → fixBoth n m.getCodes.2 = fixBoth n fresh) := by
  unfold Matcher.getCodes
  cases hc : m.codes with
  | some cs =>
    obtain ⟨fresh, f1, f2, f3, f4⟩ := h.codes cs hc
    exact ⟨h, fresh, f1, f2, f3, f4⟩
  | none =>
    obtain ⟨hi, hb, _⟩ := h.getBlocks
    have hs := h.seen hc
    have hfresh : opCodes (newMatcher a b aj ij) = some (opCodesLoop 0 0 m.getBlocks.2) := by rw [opCodes, hb]; rfl
    refine ⟨⟨hi.autoJunk, hi.isJunk, hi.seqs, hi.blocks, hi.full, ?_, ?_⟩, _, hfresh, fun _ => rfl, Iff.rfl, fun _ _ => rfl⟩
    · intro cs hcs
      simp only [Option.some.injEq] at hcs
      subst hcs
      exact ⟨_, hfresh, fun _ => rfl, Iff.rfl, fun _ _ => rfl⟩
    · intro h; simp at h

/-- One call keeps the invariant, and unaffected queries reply as on a new matcher. -/
theorem call_spec {m : Matcher α} {a b : List α} {aj : Bool} {ij : Option (α → Bool)} {seen : List Nat}
    (h : m.Inv a b aj ij seen) (c : Call α) :
    (m.call c).1.Inv (current a b [c]).1 (current a b [c]).2 aj ij (contexts seen [c]) ∧
    (Unaffected seen c → (m.call c).2 = ((Matcher.new a b aj ij).call c).2) := by
  have hnew : (Matcher.new a b aj ij).Inv a b aj ij [] := by
    refine ⟨rfl, rfl, rfl, ?_, ?_, ?_, fun _ => rfl⟩ <;> intro x hx <;> simp [Matcher.new] at hx
  have hseqs : ∀ {m' : Matcher α} {s : List Nat}, m'.Inv a b aj ij s → m'.seqs.a = a ∧ m'.seqs.b = b := by
    intro m' s hm
    rw [hm.seqs]
    exact ⟨rfl, rfl⟩
  cases c with
  | setSeq1 a' =>
    refine ⟨⟨h.autoJunk, h.isJunk, ?_, ?_, h.full, ?_, fun _ => rfl⟩, fun _ => rfl⟩
    · simp only [Matcher.call, Matcher.setSeq1, current]
      rw [h.seqs]
      rfl
    · intro x hx; simp [Matcher.call, Matcher.setSeq1] at hx
    · intro x hx; simp [Matcher.call, Matcher.setSeq1] at hx
  | setSeq2 b' =>
    refine ⟨⟨h.autoJunk, h.isJunk, ?_, ?_, ?_, ?_, fun _ => rfl⟩, fun _ => rfl⟩
    · simp only [Matcher.call, Matcher.setSeq2, current]
      rw [(hseqs h).1, h.autoJunk, h.isJunk]
    · intro x hx; simp [Matcher.call, Matcher.setSeq2] at hx
    · intro x hx; simp [Matcher.call, Matcher.setSeq2] at hx
    · intro x hx; simp [Matcher.call, Matcher.setSeq2] at hx
  | blocks =>
    obtain ⟨h1, h2, _⟩ := h.getBlocks
    obtain ⟨_, n2, _⟩ := hnew.getBlocks
    refine ⟨h1, fun _ => ?_⟩
    rw [h2] at n2
    injection n2 with n2
    simp only [Matcher.call]
    rw [n2]
  | codes =>
    obtain ⟨h1, fresh, f1, f2, _⟩ := h.getCodes
    obtain ⟨_, fresh', g1, g2, _⟩ := hnew.getCodes
    refine ⟨h1, fun hu => ?_⟩
    rw [f1] at g1
    injection g1 with g1
    simp only [Matcher.call]
    rw [f2 hu, g2 rfl, g1]
  | grouped n =>
    obtain ⟨h1, fresh, f1, f2, f3, f4⟩ := h.getCodes
    obtain ⟨_, fresh', g1, g2, _⟩ := hnew.getCodes
    rw [f1] at g1
    injection g1 with g1
    subst g1
    simp only [Matcher.call, Matcher.getGrouped, current, contexts]
    refine ⟨⟨h1.autoJunk, h1.isJunk, h1.seqs, h1.blocks, h1.full, ?_, ?_⟩, ?_⟩
    · intro cs hcs
      simp only [Option.some.injEq] at hcs
      subst hcs
      refine ⟨fresh, f1, ?_, ?_, ?_⟩
      · intro h; simp at h
      · rw [grouped_eq]
        by_cases hc : m.getCodes.2 = []
        · rw [if_pos hc]; simp [f3.mp hc]
        · rw [if_neg hc]
          simp only [fixBoth_nil]
          exact f3
      · intro k hk
        rw [grouped_eq]
        by_cases hc : m.getCodes.2 = []
        · rw [if_pos hc, f3.mp hc]
        · rw [if_neg hc]
          simp only
          rw [fixBoth_fixBoth _ _ (hk _ (List.mem_cons_self ..))]
          exact f4 k (fun x hx => hk x (List.mem_cons_of_mem _ hx))
    · intro h; simp at h
    · intro hu
      rw [g2 rfl, grouped_eq, grouped_eq]
      by_cases hc : m.getCodes.2 = []
      · rw [if_pos hc, if_pos (f3.mp hc)]
      · rw [if_neg hc, if_neg (fun x => hc (f3.mpr x))]
        simp only
        rw [f4 _ hu]
  | ratio =>
    obtain ⟨h1, h2, _⟩ := h.getBlocks
    obtain ⟨n1, n2, _⟩ := hnew.getBlocks
    refine ⟨h1, fun _ => ?_⟩
    rw [h2] at n2
    injection n2 with n2
    simp only [Matcher.call, Matcher.ratioMatches]
    rw [n2, (hseqs h1).1, (hseqs h1).2, (hseqs n1).1, (hseqs n1).2]
  | quickRatio =>
    have hq : m.quickMatches.1.Inv a b aj ij seen ∧ m.quickMatches.2 = quickLoop (countAll b fun _ => 0) a (fun _ => none) 0 := by
      unfold Matcher.quickMatches
      cases hf : m.full with
      | some f =>
        simp only
        rw [h.full f hf, (hseqs h).1]
        exact ⟨h, rfl⟩
      | none =>
        simp only
        rw [(hseqs h).1, (hseqs h).2]
        refine ⟨⟨h.autoJunk, h.isJunk, h.seqs, h.blocks, ?_, h.codes, h.seen⟩, rfl⟩
        intro f hf
        simp only [Option.some.injEq] at hf
        exact hf.symm
    refine ⟨hq.1, fun _ => ?_⟩
    simp only [Matcher.call]
    rw [hq.2, (hseqs hq.1).1, (hseqs hq.1).2]
    rfl
  | realQuickRatio =>
    refine ⟨h, fun _ => ?_⟩
    simp only [Matcher.call]
    rw [(hseqs h).1, (hseqs h).2, (hseqs hnew).1, (hseqs hnew).2]

theorem after_inv : ∀ (cs : List (Call α)) (m : Matcher α) (a b : List α) (aj : Bool) (ij : Option (α → Bool)) (seen : List Nat),
    m.Inv a b aj ij seen → (m.after cs).Inv (current a b cs).1 (current a b cs).2 aj ij (contexts seen cs) := by
  intro cs
  induction cs with
  | nil => intro m a b aj ij seen h; exact h
  | cons c cs ih =>
    intro m a b aj ij seen h
    have := ih _ _ _ _ _ _ (call_spec h c).1
    rw [Matcher.after]
    cases c <;> exact this

/-- C56 (partly): after every history of calls, a query replies as a new matcher of the
same sequences would - except the opcodes after a grouped query, and grouped queries after
one with less context.  Missing: those, for which it is false, see `grouped_changes_codes` and
`grouped_changes_grouped`. -/
theorem queries_agree_partial (a b : List α) (aj : Bool) (ij : Option (α → Bool)) (history : List (Call α)) (q : Call α)
    (hq : Unaffected (contexts [] history) q) :
    (((Matcher.new a b aj ij).after history).call q).2 =
      ((Matcher.new (current a b history).1 (current a b history).2 aj ij).call q).2 := by
  have hnew : (Matcher.new a b aj ij).Inv a b aj ij [] := by
    refine ⟨rfl, rfl, rfl, ?_, ?_, ?_, fun _ => rfl⟩ <;> intro x hx <;> simp [Matcher.new] at hx
  exact (call_spec (after_inv history _ a b aj ij [] hnew) q).2 hq

/-- C56: what a new matcher replies is what the methods compute without caches. -/
theorem new_replies (a b : List α) (aj : Bool) (ij : Option (α → Bool)) :
    (∃ bs cs, matchingBlocks (newMatcher a b aj ij) = some bs ∧ opCodes (newMatcher a b aj ij) = some cs ∧
      ((Matcher.new a b aj ij).call .blocks).2 = .blocks bs ∧ ((Matcher.new a b aj ij).call .codes).2 = .codes cs ∧
      ∀ n, ((Matcher.new a b aj ij).call (.grouped n)).2 = .grouped (groupedOpCodes n cs).2) ∧
    (∃ k, ((Matcher.new a b aj ij).call .ratio).2 = .ratio k (a.length + b.length) ∧
      ∀ rnd, ratio rnd (newMatcher a b aj ij) = some (calculateRatio rnd k (a.length + b.length))) ∧
    (∃ k, ((Matcher.new a b aj ij).call .quickRatio).2 = .ratio k (a.length + b.length) ∧
      ∀ rnd, quickRatio rnd (newMatcher a b aj ij) = calculateRatio rnd k (a.length + b.length)) ∧
    (∃ k, ((Matcher.new a b aj ij).call .realQuickRatio).2 = .ratio k (a.length + b.length) ∧
      ∀ rnd, realQuickRatio rnd (newMatcher a b aj ij) = calculateRatio rnd k (a.length + b.length)) := by
  obtain ⟨hg, ha, hb, _⟩ := newMatcher_good a b aj ij
  obtain ⟨bs, h1, _⟩ := matchingBlocks_spec _ hg
  refine ⟨⟨_, _, h1, by rw [opCodes, h1]; rfl, ?_, ?_, fun n => ?_⟩, ⟨_, by
    simp only [Matcher.call, Matcher.ratioMatches, Matcher.getBlocks, Matcher.new, ha, hb]
    rfl, fun rnd => ?_⟩, ⟨_, by
    simp only [Matcher.call, Matcher.quickMatches, Matcher.new, ha, hb]
    rfl, fun rnd => ?_⟩, ⟨_, by
    simp only [Matcher.call, Matcher.new, ha, hb]
    rfl, fun rnd => ?_⟩⟩
  · simp only [Matcher.call, Matcher.getBlocks, Matcher.new, h1, Option.getD_some]
  · simp only [Matcher.call, Matcher.getCodes, Matcher.getBlocks, Matcher.new, h1, Option.getD_some]
  · simp only [Matcher.call, Matcher.getGrouped, Matcher.getCodes, Matcher.getBlocks, Matcher.new, h1, Option.getD_some]
  · rw [ratio, h1, ha, hb]; rfl
  · rw [quickRatio, ha, hb]
  · rw [realQuickRatio, ha, hb]

/-- Histories meeting the hypothesis. -/
example : Unaffected (contexts [] [(.codes : Call UInt8), .grouped 3, .ratio, .setSeq1 (asc "ab"), .codes]) (.codes : Call UInt8) := rfl
example : Unaffected (contexts [] [(.grouped 3 : Call UInt8), .grouped 5, .codes]) (.grouped 2 : Call UInt8) := by
  intro k hk
  simp only [contexts, List.mem_cons, List.not_mem_nil, or_false] at hk
  rcases hk with rfl | rfl <;> decide

/-- C56 is false as stated: asking for groups changes the opcodes. -/
theorem grouped_changes_codes : ∃ (a b : List UInt8),
    (((Matcher.new a b true none).after [.codes, .grouped 1]).call .codes).2 ≠
      ((Matcher.new a b true none).call .codes).2 :=
  ⟨asc "abcdX", asc "abcdY", by decide +kernel⟩

/-- And later groups with more context. -/
theorem grouped_changes_grouped : ∃ (a b : List UInt8),
    (((Matcher.new a b true none).after [.grouped 1]).call (.grouped 3)).2 ≠
      ((Matcher.new a b true none).call (.grouped 3)).2 :=
  ⟨asc "abcdX", asc "abcdY", by decide +kernel⟩

end Verif.Difflib
