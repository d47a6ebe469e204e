import Verif.Assert.Collections

/-!
# C126: assertions about files

Model of `FileExists` and `DirExists`, test/testify/assert/assertions.go 1134-1162, on a file system with symbolic links.
-/

namespace Verif.Files

open Verif.Assert

/-! ### Model -/

/-- What is in a file system that `os.Lstat`, assertions.go 1136 and 1151, looks into.  Simplified: a path is a list of names without
`.` and `..`, links are absolute, and permissions are left out. -/
inductive Node
  | file
  | dir (es : List (Bytes × Node))
  | link (target : List Bytes)

/-- What `os.Lstat` returns, assertions.go 1136 and 1151: nothing there (`os.IsNotExist`), another error, or what is there. -/
inductive Stat
  | missing
  | error
  | found (n : Node)

/-- `os.Lstat`, assertions.go 1136 and 1151: links on the way are followed, at most `k` of them, a link at the end is not. -/
def walk (root : Node) : Nat → Node → List Bytes → Stat
  | _, n, [] => .found n
  | k, .dir es, x :: rest =>
    match es.lookup x with
    | none => .missing
    | some (.link t) =>
      match rest with
      | [] => .found (.link t)
      | _ :: _ =>
        match k with
        | 0 => .error
        | k + 1 => walk root k root (t ++ rest)
    | some n => walk root k n rest
  | _, _, _ :: _ => .error
termination_by k _ path => (k, path.length)

/-- `os.Lstat`, assertions.go 1136 and 1151; Linux follows forty links. -/
def lstat (root : Node) (path : List Bytes) : Stat := walk root 40 root path

/-- `FileInfo.IsDir`, assertions.go 1143 and 1158. -/
def Node.isDir : Node → Bool
  | .dir _ => true
  | _ => false

/-- `FileExists`, assertions.go 1135-1147. -/
def fileExists (msgOk : Bool) (root : Node) (path : List Bytes) : Outcome :=
  match lstat root path with
  | .missing => fail msgOk
  | .error => fail msgOk
  | .found n => if n.isDir then fail msgOk else .ret true false

/-- `DirExists`, assertions.go 1150-1162. -/
def dirExists (msgOk : Bool) (root : Node) (path : List Bytes) : Outcome :=
  match lstat root path with
  | .missing => fail msgOk
  | .error => fail msgOk
  | .found n => if !n.isDir then fail msgOk else .ret true false

/-! ### Specification -/

/-- `Leads root k n path m`: from `n` the path leads to `m`, following `k` links. -/
inductive Leads (root : Node) : Nat → Node → List Bytes → Node → Prop
  | here (n : Node) (h : ∀ t, n ≠ .link t) : Leads root 0 n [] n
  | down (k : Nat) (es : List (Bytes × Node)) (x : Bytes) (rest : List Bytes) (n m : Node) (h : es.lookup x = some n) (hn : ∀ t, n ≠ .link t)
      (hr : Leads root k n rest m) : Leads root k (.dir es) (x :: rest) m
  | follow (k : Nat) (es : List (Bytes × Node)) (x : Bytes) (rest t : List Bytes) (m : Node) (h : es.lookup x = some (.link t))
      (hr : Leads root k root (t ++ rest) m) : Leads root (k + 1) (.dir es) (x :: rest) m

/-- A path leads to a file system entry if the kernel follows its links, see stat(2). -/
def Reaches (root : Node) (path : List Bytes) (m : Node) : Prop := ∃ k, k ≤ 40 ∧ Leads root k root path m

/-- The path ends with the name of a link: without its last name it leads to a directory that has it. -/
def EndsInLink (root : Node) (path : List Bytes) : Prop :=
  ∃ init x es t, path = init ++ [x] ∧ Reaches root init (.dir es) ∧ es.lookup x = some (.link t)

/-! ### Proofs -/

/-- A path leads to one place. -/
theorem walk_leads (root : Node) : ∀ (k : Nat) (n : Node) (path : List Bytes) (m : Node), (∀ t, n ≠ .link t) → (∀ t, m ≠ .link t) →
    walk root k n path = .found m → (∀ t, root ≠ .link t) → ∃ j, j ≤ k ∧ Leads root j n path m
  | k, n, [], m, hn, hm, h, hroot => by
    rw [walk] at h
    cases h
    exact ⟨0, Nat.zero_le _, .here n hn⟩
  | k, .file, x :: rest, m, hn, hm, h, hroot => by simp [walk] at h
  | k, .link t, x :: rest, m, hn, hm, h, hroot => absurd rfl (hn t)
  | k, .dir es, x :: rest, m, hn, hm, h, hroot => by
    rw [walk] at h
    cases hl : es.lookup x with
    | none => rw [hl] at h; cases h
    | some n' =>
      rw [hl] at h
      cases n' with
      | link t =>
        cases rest with
        | nil => simp only at h; cases h; exact absurd rfl (hm t)
        | cons y ys =>
          cases k with
          | zero => simp only at h; cases h
          | succ k =>
            simp only at h
            obtain ⟨j, hj, hr⟩ := walk_leads root k root (t ++ y :: ys) m hroot hm h hroot
            exact ⟨j + 1, by omega, .follow j es x _ t m hl hr⟩
      | file =>
        obtain ⟨j, hj, hr⟩ := walk_leads root k .file rest m (by intro t h; cases h) hm h hroot
        exact ⟨j, hj, .down j es x rest _ m hl (by intro t h; cases h) hr⟩
      | dir es' =>
        obtain ⟨j, hj, hr⟩ := walk_leads root k (.dir es') rest m (by intro t h; cases h) hm h hroot
        exact ⟨j, hj, .down j es x rest _ m hl (by intro t h; cases h) hr⟩
termination_by k _ path => (k, path.length)

theorem leads_walk (root : Node) {j : Nat} {n : Node} {path : List Bytes} {m : Node} (h : Leads root j n path m) : ∀ k, j ≤ k →
    walk root k n path = .found m ∨ ∃ t, walk root k n path = .found (.link t) := by
  induction h with
  | here n _ => intro k _; exact Or.inl (by rw [walk])
  | down j es x rest n m h hn _ ih =>
    intro k hk
    rw [walk, h]
    cases n with
    | link t => exact absurd rfl (hn t)
    | file => exact ih k hk
    | dir es' => exact ih k hk
  | follow j es x rest t m h _ ih =>
    intro k hk
    rw [walk, h]
    cases rest with
    | nil => exact Or.inr ⟨t, rfl⟩
    | cons y ys =>
      obtain ⟨k, rfl⟩ : ∃ i, k = i + 1 := ⟨k - 1, by omega⟩
      exact ih k (by omega)

theorem walk_link (root : Node) (hroot : ∀ t, root ≠ .link t) : ∀ (k : Nat) (n : Node) (path t : List Bytes), (∀ t, n ≠ .link t) →
    walk root k n path = .found (.link t) →
    ∃ init x es j, path = init ++ [x] ∧ j ≤ k ∧ Leads root j n init (.dir es) ∧ es.lookup x = some (.link t)
  | k, n, [], t, hn, h => by
    rw [walk] at h
    cases h
    exact absurd rfl (hn t)
  | k, .file, x :: rest, t, hn, h => by simp [walk] at h
  | k, .link u, x :: rest, t, hn, h => absurd rfl (hn u)
  | k, .dir es, x :: rest, t, hn, h => by
    rw [walk] at h
    have deeper : ∀ n', es.lookup x = some n' → (∀ t, n' ≠ .link t) → (∃ init y es' j, rest = init ++ [y] ∧ j ≤ k ∧
        Leads root j n' init (.dir es') ∧ es'.lookup y = some (.link t)) →
        ∃ init y es' j, x :: rest = init ++ [y] ∧ j ≤ k ∧ Leads root j (.dir es) init (.dir es') ∧ es'.lookup y = some (.link t) := by
      rintro n' hl hn' ⟨init, y, es', j, rfl, hj, hr, hy⟩
      exact ⟨x :: init, y, es', j, rfl, hj, .down j es x init n' _ hl hn' hr, hy⟩
    cases hl : es.lookup x with
    | none => rw [hl] at h; cases h
    | some n' =>
      rw [hl] at h
      cases n' with
      | link u =>
        cases rest with
        | nil =>
          simp only at h
          cases h
          exact ⟨[], x, es, 0, rfl, Nat.zero_le _, .here _ hn, hl⟩
        | cons y ys =>
          cases k with
          | zero => simp only at h; cases h
          | succ k =>
            simp only at h
            obtain ⟨init, z, es', j, hp, hj, hr, hz⟩ := walk_link root hroot k root (u ++ y :: ys) t hroot h
            obtain ⟨ini, last, hl'⟩ : ∃ ini last, y :: ys = ini ++ [last] :=
              ⟨(y :: ys).dropLast, (y :: ys).getLast (by simp), (List.dropLast_append_getLast (by simp)).symm⟩
            rw [hl', ← List.append_assoc] at hp
            have h1 := List.append_inj' hp rfl
            have h2 : last = z := by simpa using h1.2
            subst h2
            refine ⟨x :: ini, last, es', j + 1, by rw [hl']; rfl, by omega, .follow j es x ini u _ hl (by rw [h1.1]; exact hr), hz⟩
      | file => exact deeper .file hl (by intro t h; cases h) (walk_link root hroot k .file rest t (by intro t h; cases h) h)
      | dir es' => exact deeper (.dir es') hl (by intro t h; cases h) (walk_link root hroot k (.dir es') rest t (by intro t h; cases h) h)
termination_by k _ path => (k, path.length)

theorem leads_end {root : Node} {j : Nat} {n : Node} {path : List Bytes} {m : Node} (h : Leads root j n path m) : ∀ t, m ≠ .link t := by
  induction h with
  | here n h => exact h
  | down _ _ _ _ _ _ _ _ _ ih => exact ih
  | follow _ _ _ _ _ _ _ _ ih => exact ih

theorem lstat_iff (root : Node) (path : List Bytes) (m : Node) (hroot : ∀ t, root ≠ .link t) (hp : ¬ EndsInLink root path) :
    lstat root path = .found m ↔ Reaches root path m := by
  have hp : ¬ ∃ t, lstat root path = .found (.link t) := by
    rintro ⟨t, h⟩
    obtain ⟨init, x, es, j, h1, h2, h3, h4⟩ := walk_link root hroot 40 root path t hroot h
    exact hp ⟨init, x, es, t, h1, ⟨j, h2, h3⟩, h4⟩
  constructor
  · intro h
    have hm : ∀ t, m ≠ .link t := by rintro t rfl; exact hp ⟨t, h⟩
    exact walk_leads root 40 root path m hroot hm h hroot
  · rintro ⟨j, hj, h⟩
    rcases leads_walk root h 40 hj with h | h
    · exact h
    · exact absurd h hp

theorem isDir_iff (m : Node) : m.isDir = true ↔ ∃ es, m = .dir es := by
  cases m <;> simp [Node.isDir]

/-- C126, part: `FileExists` passes exactly if the path leads to something that is not a directory, unless it ends in a link.  Missing:
paths ending in links, see `link_to_dir` and `dangling`. -/
theorem fileExists_partial (root : Node) (path : List Bytes) (hroot : ∀ t, root ≠ .link t) (hp : ¬ EndsInLink root path) :
    (fileExists true root path = .ret true false ↔ ∃ m, Reaches root path m ∧ ∀ es, m ≠ .dir es) ∧
    (fileExists true root path ≠ .ret true false → fileExists true root path = .ret false true) := by
  unfold fileExists
  have key := fun m => lstat_iff root path m hroot hp
  cases hl : lstat root path with
  | missing =>
    refine ⟨⟨fun h => by simp [fail] at h, ?_⟩, fun _ => by simp [fail]⟩
    rintro ⟨m, h, _⟩
    rw [← key m, hl] at h; cases h
  | error =>
    refine ⟨⟨fun h => by simp [fail] at h, ?_⟩, fun _ => by simp [fail]⟩
    rintro ⟨m, h, _⟩
    rw [← key m, hl] at h; cases h
  | found n =>
    simp only
    by_cases hd : n.isDir = true
    · rw [if_pos hd]
      refine ⟨⟨fun h => by simp [fail] at h, ?_⟩, fun _ => by simp [fail]⟩
      rintro ⟨m, h, h'⟩
      rw [← key m, hl] at h
      cases h
      obtain ⟨es, he⟩ := (isDir_iff _).mp hd
      exact absurd he (h' es)
    · rw [if_neg hd]
      exact ⟨⟨fun _ => ⟨n, (key n).mp hl, fun es he => hd ((isDir_iff n).mpr ⟨es, he⟩)⟩, fun _ => rfl⟩, fun h => absurd rfl h⟩

/-- C126, part: `DirExists` passes exactly if the path leads to a directory, unless it ends in a link.  Missing: paths ending in links, see
`link_to_dir`. -/
theorem dirExists_partial (root : Node) (path : List Bytes) (hroot : ∀ t, root ≠ .link t) (hp : ¬ EndsInLink root path) :
    (dirExists true root path = .ret true false ↔ ∃ es, Reaches root path (.dir es)) ∧
    (dirExists true root path ≠ .ret true false → dirExists true root path = .ret false true) := by
  unfold dirExists
  have key := fun m => lstat_iff root path m hroot hp
  cases hl : lstat root path with
  | missing =>
    refine ⟨⟨fun h => by simp [fail] at h, ?_⟩, fun _ => by simp [fail]⟩
    rintro ⟨es, h⟩
    rw [← key _, hl] at h; cases h
  | error =>
    refine ⟨⟨fun h => by simp [fail] at h, ?_⟩, fun _ => by simp [fail]⟩
    rintro ⟨es, h⟩
    rw [← key _, hl] at h; cases h
  | found n =>
    simp only
    by_cases hd : n.isDir = true
    · simp only [hd, Bool.not_true, Bool.false_eq_true, if_false]
      obtain ⟨es, rfl⟩ := (isDir_iff n).mp hd
      exact ⟨⟨fun _ => ⟨es, (key _).mp hl⟩, fun _ => trivial⟩, fun h => absurd rfl h⟩
    · have hd' : n.isDir = false := by simpa using hd
      simp only [hd', Bool.not_false, if_true]
      refine ⟨⟨fun h => by simp [fail] at h, ?_⟩, fun _ => by simp [fail]⟩
      rintro ⟨es, h⟩
      rw [← key _, hl] at h
      cases h
      exact absurd ((isDir_iff _).mpr ⟨es, rfl⟩) hd

/-- C126: a path never passes both. -/
theorem not_both (root : Node) (path : List Bytes) :
    ¬ (fileExists true root path = .ret true false ∧ dirExists true root path = .ret true false) := by
  unfold fileExists dirExists
  cases lstat root path with
  | missing => simp [fail]
  | error => simp [fail]
  | found n => cases h : n.isDir <;> simp [fail, h]

/-! ### Disagreements and a concrete case -/

/-- A file system: a directory `d` with a file `f`, a link `l` to `d` and a link `g` to nothing. -/
def sampleFs : Node :=
  .dir [(asc "d", .dir [(asc "f", .file)]), (asc "l", .link [asc "d"]), (asc "g", .link [asc "gone"])]

/-- C126 fails: a link to a directory passes as a file, and not as a directory. -/
theorem link_to_dir : fileExists true sampleFs [asc "l"] = .ret true false ∧ dirExists true sampleFs [asc "l"] = .ret false true ∧
    Reaches sampleFs [asc "l"] (.dir [(asc "f", .file)]) := by
  refine ⟨?_, ?_, 1, by decide, .follow 0 _ _ _ [asc "d"] _ rfl (.down 0 _ _ _ _ _ rfl (by intro t h; cases h) (.here _ (by intro t h; cases h)))⟩
  · simp [fileExists, lstat, walk, sampleFs, List.lookup, asc, Node.isDir]
  · simp [dirExists, lstat, walk, sampleFs, List.lookup, asc, Node.isDir, fail]

/-- C126 fails: a link to nothing passes as a file. -/
theorem dangling : fileExists true sampleFs [asc "g"] = .ret true false ∧ ∀ m, ¬ Reaches sampleFs [asc "g"] m := by
  refine ⟨by simp [fileExists, lstat, walk, sampleFs, List.lookup, asc, Node.isDir], ?_⟩
  rintro m ⟨k, hk, h⟩
  generalize hr : sampleFs = root at h
  generalize hp : [asc "g"] = p at h
  cases h with
  | here n _ => cases hp
  | down k es x rest n m h hn _ =>
    cases hp
    rw [sampleFs] at hr
    cases hr
    have : some (Node.link [asc "gone"]) = some n := h
    cases this
    exact hn _ rfl
  | follow k es x rest t m h hr' =>
    cases hp
    rw [sampleFs] at hr
    cases hr
    have ht : some (Node.link [asc "gone"]) = some (.link t) := h
    cases ht
    generalize hp2 : [asc "gone"] ++ ([] : List Bytes) = p2 at hr'
    generalize hr2 : Node.dir [(asc "d", .dir [(asc "f", .file)]), (asc "l", .link [asc "d"]), (asc "g", .link [asc "gone"])] = r2 at hr'
    cases hr' with
    | here n _ => cases hp2
    | down k es x rest n m h2 _ _ =>
      cases hp2; cases hr2
      have : (none : Option Node) = some n := h2
      cases this
    | follow k es x rest t m h2 _ =>
      cases hp2; cases hr2
      have : (none : Option Node) = some (.link t) := h2
      cases this

theorem leads_det {root : Node} {j : Nat} {n : Node} {path : List Bytes} {m : Node} (h : Leads root j n path m) : ∀ i m', Leads root i n path m' →
    m' = m := by
  induction h with
  | here n _ =>
    intro i m' h'
    cases h' with
    | here => rfl
  | down k es x rest n m h hn _ ih =>
    intro i m' h'
    cases h' with
    | down _ _ _ _ n' _ g _ hr => rw [h] at g; cases g; exact ih i m' hr
    | follow _ _ _ _ t _ g _ => rw [h] at g; cases g; exact absurd rfl (hn t)
  | follow k es x rest t m h _ ih =>
    intro i m' h'
    cases h' with
    | down _ _ _ _ n' _ g hn _ => rw [h] at g; cases g; exact absurd rfl (hn t)
    | follow _ _ _ _ t' _ g hr => rw [h] at g; cases g; exact ih _ m' hr

example : ¬ EndsInLink sampleFs [asc "l", asc "f"] ∧ fileExists true sampleFs [asc "l", asc "f"] = .ret true false ∧
    dirExists true sampleFs [asc "d"] = .ret true false := by
  refine ⟨?_, ?_, ?_⟩
  · rintro ⟨init, x, es, t, h, ⟨k, _, hr⟩, hl⟩
    have h1 := List.append_inj' (s₁ := [asc "l"]) (t₁ := [asc "f"]) h rfl
    have hx : asc "f" = x := by simpa using h1.2
    rw [← h1.1] at hr
    have hd : Leads sampleFs 1 sampleFs [asc "l"] (.dir [(asc "f", .file)]) :=
      .follow 0 _ _ _ [asc "d"] _ rfl (.down 0 _ _ _ _ _ rfl (by intro t h; cases h) (.here _ (by intro t h; cases h)))
    have := leads_det hd _ _ hr
    cases this
    rw [← hx] at hl
    have : some Node.file = some (.link t) := hl
    cases this
  · simp [fileExists, lstat, walk, sampleFs, List.lookup, asc, Node.isDir]
  · simp [dirExists, lstat, walk, sampleFs, List.lookup, asc, Node.isDir]

end Verif.Files
