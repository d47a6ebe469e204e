import Verif.Basic

/-!
# Model of test/go-difflib/difflib/difflib.go: matching blocks, opcodes and groups

Line numbers are those of difflib.go.  Elements are of any type with decidable equality
(strings in the code); indices are natural numbers (they are never negative in the code;
`int` overflow is not modelled).
-/

namespace Verif.Difflib

variable {α : Type} [DecidableEq α]

/-- `Match`, 47-51. -/
structure Match where
  A : Nat
  B : Nat
  Size : Nat
  deriving DecidableEq, Repr

/-- The tags of opcodes, 364-372. -/
inductive Tag where
  | r | d | i | e
  deriving DecidableEq, Repr

/-- `OpCode`, 53-59. -/
structure OpCode where
  Tag : Tag
  I1 : Nat
  I2 : Nat
  J1 : Nat
  J2 : Nat
  deriving DecidableEq, Repr

/-- The part of `SequenceMatcher` (87-98) the search uses: the sequences, `b2j` and the
keys of `bJunk`. -/
structure Seqs (α : Type) where
  a : List α
  b : List α
  b2j : α → List Nat
  isBJunk : α → Bool

/-- The first loop of `chainB`, 153-158, from index `i` on; the map is a function, absent
keys give no indices. -/
def chain : List α → Nat → (α → List Nat) → α → List Nat
  | [], _, m => m
  | s :: b, i, m => chain b (i + 1) fun x => if x = s then m x ++ [i] else m x

/-- `NewMatcherWithJunk`/`NewMatcher` (100-112), `SetSeqs` (115-118) and `chainB` (151-190).
`isJunk` is a function of the string; without one (nil) nothing is junk.  The iteration
order of the maps does not matter: each loop only tests keys one by one. -/
def newMatcher (a b : List α) (autoJunk : Bool) (isJunk : Option (α → Bool)) : Seqs α :=
  let b2j := chain b 0 fun _ => []
  let junk : α → Bool := match isJunk with
    | none => fun _ => false
    | some f => fun s => decide (b2j s ≠ []) && f s
  let b2j1 : α → List Nat := fun s => if junk s then [] else b2j s
  let n := b.length
  let popular : α → Bool := fun s => autoJunk && decide (200 ≤ n) && decide (n / 100 + 1 < (b2j1 s).length)
  { a := a, b := b, b2j := fun s => if popular s then [] else b2j1 s, isBJunk := junk }

/-- The inner loop of `findLongestMatch`, 243-256.  `prev` and `cur` are `j2len` and
`newj2len` (absent keys give 0). `i-k+1` never is negative. -/
def searchRow (prev : Nat → Nat) (i blo bhi : Nat) : List Nat → (Nat → Nat) → Match → (Nat → Nat) × Match
  | [], cur, best => (cur, best)
  | j :: js, cur, best =>
    if j < blo then searchRow prev i blo bhi js cur best
    else if bhi ≤ j then (cur, best)
    else
      let k := (if j = 0 then 0 else prev (j - 1)) + 1
      searchRow prev i blo bhi js (fun x => if x = j then k else cur x)
        (if best.Size < k then ⟨i + 1 - k, j + 1 - k, k⟩ else best)

/-- The outer loop, 239-258: `n` rows from row `i` on.  The index is always within `a`. -/
def search (m : Seqs α) (blo bhi : Nat) : Nat → Nat → (Nat → Nat) → Match → Match
  | 0, _, _, best => best
  | n + 1, i, j2len, best =>
    let row := searchRow j2len i blo bhi ((m.a[i]?.map m.b2j).getD []) (fun _ => 0) best
    search m blo bhi n (i + 1) row.1 row.2

/-- `p(b[j]) && a[i] == b[j]` (indices are in range wherever it is used) (difflib.go 264-274). -/
def eqAt (a b : List α) (p : α → Bool) (i j : Nat) : Bool :=
  match a[i]?, b[j]? with
  | some x, some y => p y && decide (x = y)
  | _, _ => false

/-- The loops extending to the left, 264-267 and 281-284; `besti` and `bestj` are the first
two numbers. -/
def extendLeft (m : Seqs α) (p : α → Bool) (alo blo : Nat) : Nat → Nat → Nat → Match
  | i + 1, j + 1, k =>
    if alo < i + 1 ∧ blo < j + 1 ∧ eqAt m.a m.b p i j then extendLeft m p alo blo i j (k + 1)
    else ⟨i + 1, j + 1, k⟩
  | i, j, k => ⟨i, j, k⟩

/-- The loops extending to the right, 268-272 and 285-289; at most `n` turns. -/
def extendRight (m : Seqs α) (p : α → Bool) (ahi bhi i j : Nat) : Nat → Nat → Nat
  | 0, k => k
  | n + 1, k =>
    if i + k < ahi ∧ j + k < bhi ∧ eqAt m.a m.b p (i + k) (j + k) then extendRight m p ahi bhi i j n (k + 1)
    else k

/-- One pair of extension loops: 264-272 with `p` "not junk", 281-289 with `p` "junk".  The
right loop makes at most `ahi` turns. -/
def extend (m : Seqs α) (p : α → Bool) (alo ahi blo bhi : Nat) (best : Match) : Match :=
  let l := extendLeft m p alo blo best.A best.B best.Size
  { l with Size := extendRight m p ahi bhi l.A l.B ahi l.Size }

/-- `findLongestMatch`, 221-292 (always called with `alo <= ahi`). -/
def findLongestMatch (m : Seqs α) (alo ahi blo bhi : Nat) : Match :=
  let best := search m blo bhi (ahi - alo) alo (fun _ => 0) ⟨alo, blo, 0⟩
  let best := extend m (fun s => !m.isBJunk s) alo ahi blo bhi best
  extend m m.isBJunk alo ahi blo bhi best

/-- `matchBlocks`, 310-324, returning what it appends to `matched`; `none` when `fuel`
nested calls are not enough. -/
def matchBlocks (m : Seqs α) : Nat → Nat → Nat → Nat → Nat → Option (List Match)
  | 0, _, _, _, _ => none
  | fuel + 1, alo, ahi, blo, bhi =>
    let x := findLongestMatch m alo ahi blo bhi
    if 0 < x.Size then
      (if alo < x.A ∧ blo < x.B then matchBlocks m fuel alo x.A blo x.B else some []).bind fun l =>
      (if x.A + x.Size < ahi ∧ x.B + x.Size < bhi then matchBlocks m fuel (x.A + x.Size) ahi (x.B + x.Size) bhi
        else some []).map fun r => l ++ x :: r
    else some []

/-- The loop of `GetMatchingBlocks` (329-351) joining adjacent blocks; `cur` is
(i1, j1, k1). -/
def collapse (cur : Match) : List Match → List Match
  | [] => if 0 < cur.Size then [cur] else []
  | x :: matched =>
    if cur.A + cur.Size = x.A ∧ cur.B + cur.Size = x.B then collapse { cur with Size := cur.Size + x.Size } matched
    else (if 0 < cur.Size then [cur] else []) ++ collapse x matched

/-- `GetMatchingBlocks` without the cache, 310-355. -/
def matchingBlocks (m : Seqs α) : Option (List Match) :=
  (matchBlocks m (m.a.length + 1) 0 m.a.length 0 m.b.length).map fun matched =>
    collapse ⟨0, 0, 0⟩ matched ++ [⟨m.a.length, m.b.length, 0⟩]

/-- The opcode for what lies before the next block, 387-397. -/
def gapCode (i j ai bj : Nat) : List OpCode :=
  if i < ai ∧ j < bj then [⟨.r, i, ai, j, bj⟩]
  else if i < ai then [⟨.d, i, ai, j, bj⟩]
  else if j < bj then [⟨.i, i, ai, j, bj⟩]
  else []

/-- The loop of `GetOpCodes`, 380-404. -/
def opCodesLoop (i j : Nat) : List Match → List OpCode
  | [] => []
  | x :: rest =>
    gapCode i j x.A x.B ++
      (if 0 < x.Size then [⟨.e, x.A, x.A + x.Size, x.B, x.B + x.Size⟩] else []) ++
      opCodesLoop (x.A + x.Size) (x.B + x.Size) rest

/-- `GetOpCodes` without the cache, 377-404. -/
def opCodes (m : Seqs α) : Option (List OpCode) := (matchingBlocks m).map (opCodesLoop 0 0)

end Verif.Difflib
