import Verif.Difflib.Grouped

/-!
# C55: grouped opcodes with 64-bit arithmetic

`Grouped.lean` computes in `Nat`; here the same code (difflib.go 413-452) on `int`s.  The
two agree for context sizes below 2^62; far above it sums overflow and the groups are wrong.
-/

namespace Verif.Difflib

variable {α : Type} [DecidableEq α]

/-! ### Model -/

/-- Go's `int` on 64-bit platforms: sums wrap around (difflib.go 413-452). -/
def wrap64 (x : Int) : Int := (x + 2 ^ 63) % 2 ^ 64 - 2 ^ 63

/-- `OpCode` (difflib.go 53-59) with `int` fields. -/
structure ICode where
  Tag : Tag
  I1 : Int
  I2 : Int
  J1 : Int
  J2 : Int
  deriving DecidableEq, Repr

/-- `OpCode{c.Tag, max(i1, i2-n), i2, max(j1, j2-n), j2}`, difflib.go 425 and 444. -/
def lastLines64 (n : Int) (c : ICode) : ICode :=
  ⟨c.Tag, max c.I1 (wrap64 (c.I2 - n)), c.I2, max c.J1 (wrap64 (c.J2 - n)), c.J2⟩

/-- `OpCode{c.Tag, i1, min(i2, i1+n), j1, min(j2, j1+n)}`, difflib.go 430 and 440-441. -/
def firstLines64 (n : Int) (c : ICode) : ICode :=
  ⟨c.Tag, c.I1, min c.I2 (wrap64 (c.I1 + n)), c.J1, min c.J2 (wrap64 (c.J1 + n))⟩

/-- difflib.go 422-426. -/
def fixFirst64 (n : Int) : List ICode → List ICode
  | [] => []
  | c :: cs => (if c.Tag = .e then lastLines64 n c else c) :: cs

/-- difflib.go 427-431. -/
def fixLast64 (n : Int) : List ICode → List ICode
  | [] => []
  | [c] => [if c.Tag = .e then firstLines64 n c else c]
  | c :: d :: cs => c :: fixLast64 n (d :: cs)

/-- difflib.go 432-450. -/
def groupLoop64 (n : Int) (group : List ICode) : List ICode → List (List ICode)
  | [] => if 0 < group.length ∧ ¬(group.length = 1 ∧ (group.head?.map ICode.Tag) = some .e) then [group] else []
  | c :: cs =>
    if c.Tag = .e ∧ wrap64 (n + n) < wrap64 (c.I2 - c.I1) then
      (group ++ [firstLines64 n c]) :: groupLoop64 n [lastLines64 n c] cs
    else groupLoop64 n (group ++ [c]) cs

/-- `GetGroupedOpCodes`, difflib.go 413-452, from the opcodes. -/
def groupedOpCodes64 (n : Int) (codes : List ICode) : List (List ICode) :=
  let k := if n < 0 then 3 else n
  groupLoop64 k [] (fixLast64 k (fixFirst64 k (if codes = [] then [⟨.e, 0, 1, 0, 1⟩] else codes)))

/-! ### Agreement -/

/-- An opcode as `int`s. -/
def OpCode.toInt (c : OpCode) : ICode := ⟨c.Tag, c.I1, c.I2, c.J1, c.J2⟩

/-- Positions of sequences that fit in memory. -/
def Small (c : OpCode) : Prop := c.I1 < 2 ^ 62 ∧ c.I2 < 2 ^ 62 ∧ c.J1 < 2 ^ 62 ∧ c.J2 < 2 ^ 62

theorem wrap64_eq (x : Int) (h1 : -2 ^ 63 ≤ x) (h2 : x < 2 ^ 63) : wrap64 x = x := by
  unfold wrap64
  rw [Int.emod_eq_of_lt (by omega) (by omega)]
  omega

theorem lastLines64_eq (n : Nat) (hn : n < 2 ^ 62) (c : OpCode) (hc : Small c) :
    lastLines64 n c.toInt = (lastLines n c).toInt := by
  obtain ⟨h1, h2, h3, h4⟩ := hc
  simp only [lastLines64, lastLines, OpCode.toInt]
  rw [wrap64_eq _ (by omega) (by omega), wrap64_eq _ (by omega) (by omega)]
  simp only [ICode.mk.injEq, true_and, and_true]
  constructor <;> omega

theorem firstLines64_eq (n : Nat) (hn : n < 2 ^ 62) (c : OpCode) (hc : Small c) :
    firstLines64 n c.toInt = (firstLines n c).toInt := by
  obtain ⟨h1, h2, h3, h4⟩ := hc
  simp only [firstLines64, firstLines, OpCode.toInt]
  rw [wrap64_eq _ (by omega) (by omega), wrap64_eq _ (by omega) (by omega)]
  simp only [ICode.mk.injEq, true_and]
  constructor <;> omega

theorem lastLines_small (n : Nat) (c : OpCode) (hc : Small c) : Small (lastLines n c) := by
  obtain ⟨h1, h2, h3, h4⟩ := hc
  refine ⟨?_, h2, ?_, h4⟩ <;> simp only [lastLines] <;> omega

theorem firstLines_small (n : Nat) (c : OpCode) (hc : Small c) : Small (firstLines n c) := by
  obtain ⟨h1, h2, h3, h4⟩ := hc
  refine ⟨h1, ?_, h3, ?_⟩ <;> simp only [firstLines] <;> omega

theorem fixFirst64_eq (n : Nat) (hn : n < 2 ^ 62) (cs : List OpCode) (h : ∀ c ∈ cs, Small c) :
    fixFirst64 n (cs.map OpCode.toInt) = (fixFirst n cs).map OpCode.toInt ∧ ∀ c ∈ fixFirst n cs, Small c := by
  cases cs with
  | nil => exact ⟨rfl, h⟩
  | cons c cs =>
    have hc := h c (List.mem_cons_self ..)
    have ht : c.toInt.Tag = c.Tag := rfl
    rw [List.map_cons, fixFirst64, fixFirst, ht]
    by_cases he : c.Tag = .e
    · rw [if_pos he, if_pos he, lastLines64_eq n hn c hc]
      refine ⟨rfl, ?_⟩
      intro d hd
      rcases List.mem_cons.mp hd with rfl | hd
      · exact lastLines_small n c hc
      · exact h d (List.mem_cons_of_mem _ hd)
    · rw [if_neg he, if_neg he]
      exact ⟨rfl, h⟩

theorem fixLast64_eq (n : Nat) (hn : n < 2 ^ 62) : ∀ (cs : List OpCode), (∀ c ∈ cs, Small c) →
    fixLast64 n (cs.map OpCode.toInt) = (fixLast n cs).map OpCode.toInt ∧ ∀ c ∈ fixLast n cs, Small c
  | [], h => ⟨rfl, h⟩
  | [c], h => by
    have hc := h c (List.mem_cons_self ..)
    have ht : c.toInt.Tag = c.Tag := rfl
    rw [List.map_cons, List.map_nil, fixLast64, fixLast, ht]
    by_cases he : c.Tag = .e
    · rw [if_pos he, if_pos he, firstLines64_eq n hn c hc]
      refine ⟨rfl, ?_⟩
      intro d hd
      simp only [List.mem_singleton] at hd
      subst hd
      exact firstLines_small n c hc
    · rw [if_neg he, if_neg he]
      exact ⟨rfl, h⟩
  | c :: d :: cs, h => by
    have ih := fixLast64_eq n hn (d :: cs) (fun x hx => h x (List.mem_cons_of_mem _ hx))
    rw [List.map_cons, List.map_cons, fixLast64, fixLast]
    rw [List.map_cons] at ih
    refine ⟨by rw [ih.1]; rfl, ?_⟩
    intro x hx
    rcases List.mem_cons.mp hx with rfl | hx
    · exact h _ (List.mem_cons_self ..)
    · exact ih.2 x hx

theorem groupLoop64_eq (n : Nat) (hn : n < 2 ^ 62) : ∀ (cs g : List OpCode), (∀ c ∈ cs, Small c) → (∀ c ∈ cs, c.I1 ≤ c.I2) →
    groupLoop64 n (g.map OpCode.toInt) (cs.map OpCode.toInt) = (groupLoop n g cs).map (List.map OpCode.toInt) := by
  intro cs
  induction cs with
  | nil =>
    intro g _ _
    have e : (g.map OpCode.toInt).head?.map ICode.Tag = g.head?.map OpCode.Tag := by cases g <;> rfl
    rw [List.map_nil, groupLoop64, groupLoop, e, List.length_map]
    by_cases h : 0 < g.length ∧ ¬(g.length = 1 ∧ g.head?.map OpCode.Tag = some .e)
    · rw [if_pos h, if_pos h]; rfl
    · rw [if_neg h, if_neg h]; rfl
  | cons c cs ih =>
    intro g h hle
    have hc := h c (List.mem_cons_self ..)
    have hlc := hle c (List.mem_cons_self ..)
    have ih' := fun g => ih g (fun x hx => h x (List.mem_cons_of_mem _ hx)) (fun x hx => hle x (List.mem_cons_of_mem _ hx))
    rw [List.map_cons, groupLoop64, groupLoop]
    have hw : (wrap64 ((n : Int) + n) < wrap64 (c.toInt.I2 - c.toInt.I1)) ↔ n + n < c.I2 - c.I1 := by
      obtain ⟨h1, h2, h3, h4⟩ := hc
      rw [wrap64_eq _ (by omega) (by omega), wrap64_eq _ (by simp only [OpCode.toInt]; omega) (by simp only [OpCode.toInt]; omega)]
      simp only [OpCode.toInt]
      omega
    have ht : (c.toInt.Tag = .e ∧ wrap64 ((n : Int) + n) < wrap64 (c.toInt.I2 - c.toInt.I1)) ↔
        (c.Tag = .e ∧ n + n < c.I2 - c.I1) := and_congr Iff.rfl hw
    by_cases hs : c.Tag = .e ∧ n + n < c.I2 - c.I1
    · rw [if_pos (ht.mpr hs), if_pos hs, firstLines64_eq n hn c hc, lastLines64_eq n hn c hc]
      have := ih' [lastLines n c]
      rw [List.map_cons, List.map_nil] at this
      rw [this]
      simp
    · rw [if_neg (fun h => hs (ht.mp h)), if_neg hs]
      have := ih' (g ++ [c])
      rw [List.map_append, List.map_cons, List.map_nil] at this
      rw [this]

theorem fixFirst_le (n : Nat) (cs : List OpCode) (h : ∀ c ∈ cs, c.I1 ≤ c.I2) : ∀ c ∈ fixFirst n cs, c.I1 ≤ c.I2 := by
  cases cs with
  | nil => exact h
  | cons c cs =>
    intro d hd
    rw [fixFirst] at hd
    rcases List.mem_cons.mp hd with rfl | hd
    · have := h c (List.mem_cons_self ..)
      split
      · simp only [lastLines]; omega
      · exact this
    · exact h d (List.mem_cons_of_mem _ hd)

theorem fixLast_le (n : Nat) : ∀ (cs : List OpCode), (∀ c ∈ cs, c.I1 ≤ c.I2) → ∀ c ∈ fixLast n cs, c.I1 ≤ c.I2
  | [], h => h
  | [c], h => by
    intro d hd
    rw [fixLast] at hd
    simp only [List.mem_singleton] at hd
    subst hd
    have := h c (List.mem_cons_self ..)
    split
    · simp only [firstLines]; omega
    · exact this
  | c :: d :: cs, h => by
    intro x hx
    rw [fixLast] at hx
    rcases List.mem_cons.mp hx with rfl | hx
    · exact h _ (List.mem_cons_self ..)
    · exact fixLast_le n (d :: cs) (fun y hy => h y (List.mem_cons_of_mem _ hy)) x hx

theorem groupedOpCodes64_eq (n : Int) (hn : n < 2 ^ 62) (cs : List OpCode) (h : ∀ c ∈ cs, Small c) (hle : ∀ c ∈ cs, c.I1 ≤ c.I2) :
    groupedOpCodes64 n (cs.map OpCode.toInt) = (groupedOpCodes n cs).2.map (List.map OpCode.toInt) := by
  have hk : (if n < 0 then 3 else n : Int) = (contextSize n : Int) := by
    unfold contextSize; split <;> omega
  have hk62 : contextSize n < 2 ^ 62 := by unfold contextSize; split <;> omega
  have main : ∀ cs : List OpCode, (∀ c ∈ cs, Small c) → (∀ c ∈ cs, c.I1 ≤ c.I2) →
      groupLoop64 (contextSize n) [] (fixLast64 (contextSize n) (fixFirst64 (contextSize n) (cs.map OpCode.toInt))) =
      (groupLoop (contextSize n) [] (fixLast (contextSize n) (fixFirst (contextSize n) cs))).map (List.map OpCode.toInt) := by
    intro cs h hle
    obtain ⟨a1, a2⟩ := fixFirst64_eq _ hk62 cs h
    obtain ⟨b1, b2⟩ := fixLast64_eq _ hk62 _ a2
    rw [a1, b1]
    exact groupLoop64_eq _ hk62 _ [] b2 (fixLast_le _ _ (fixFirst_le _ _ hle))
  rw [groupedOpCodes64, groupedOpCodes]
  rw [hk]
  by_cases hc : cs = []
  · subst hc
    rw [if_pos rfl]
    simp only [List.map_nil, if_true]
    exact main [⟨.e, 0, 1, 0, 1⟩] (by intro c hc; simp only [List.mem_singleton] at hc; subst hc; unfold Small; decide)
      (by intro c hc; simp only [List.mem_singleton] at hc; subst hc; decide)
  · rw [if_neg hc, if_neg (by simpa using hc)]
    exact main cs h hle

/-- C55 (for context sizes below 2^62; every real sequence is shorter than that): the
groups computed with `int`s are those of `grouped_opcodes`.  Missing: larger sizes, for which
it is false, see `huge_context`. -/
theorem grouped_opcodes_partial (a b : List α) (autoJunk : Bool) (isJunk : Option (α → Bool)) (n : Int) (hn : n < 2 ^ 62)
    (ha : a.length < 2 ^ 62) (hb : b.length < 2 ^ 62) :
    ∃ codes groups, opCodes (newMatcher a b autoJunk isJunk) = some codes ∧
      groupedOpCodes64 n (codes.map OpCode.toInt) = groups.map (List.map OpCode.toInt) ∧
      Hunks a b (contextSize n) 0 0 groups ∧ changes groups.flatten = changes codes ∧ applyGroups a b 0 groups = b := by
  obtain ⟨codes, h1, h2, h3⟩ := grouped_opcodes a b autoJunk isJunk n
  obtain ⟨codes', g1, _, g3, g4, g5⟩ := opcodes_correct a b autoJunk isJunk
  rw [h1] at g1
  injection g1 with g1
  subst g1
  obtain ⟨_, _, hbound⟩ := Tiles.bounds g3 g4
  have hle : ∀ c ∈ codes, c.I1 ≤ c.I2 ∧ c.J1 ≤ c.J2 := by
    intro c hc
    have := g4 c hc
    unfold ValidCode at this
    cases ht : c.Tag <;> rw [ht] at this <;> simp only at this <;> omega
  refine ⟨codes, (groupedOpCodes n codes).2, h1, ?_, h2, h3, by rw [hunks_apply a b _ _ 0 0 h2, List.drop_zero]⟩
  apply groupedOpCodes64_eq n hn codes
  · intro c hc
    have := hbound c hc
    have := hle c hc
    exact ⟨by omega, by omega, by omega, by omega⟩
  · exact fun c hc => (hle c hc).1

/-- C55 fails for huge context sizes: asked for the largest `int` ("all context"), the
groups of these two sequences contain negative positions. -/
theorem huge_context : ∃ (a b : List Nat) (codes : List OpCode), opCodes (newMatcher a b true none) = some codes ∧
    ∃ g ∈ groupedOpCodes64 (2 ^ 63 - 1) (codes.map OpCode.toInt), ∃ c ∈ g, c.I2 < 0 :=
  ⟨[1, 2], [3, 2], [⟨.r, 0, 1, 0, 1⟩, ⟨.e, 1, 2, 1, 2⟩], by decide +kernel,
    [⟨.r, 0, 1, 0, 1⟩, ⟨.e, 1, -2 ^ 63, 1, -2 ^ 63⟩], by decide +kernel, ⟨.e, 1, -2 ^ 63, 1, -2 ^ 63⟩, by decide +kernel, by decide⟩

end Verif.Difflib
