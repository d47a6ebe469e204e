import Verif.Spew.Same

/-!
# go-spew: the order of map keys

Models `valuesSorter` of /repo/test/go-spew/spew/common.go (219-341) and its use at
/repo/test/go-spew/spew/dump.go 386-390.
-/

namespace Verif.Spew

/-- A map key as `valueSortLess` (common.go 295-322) sees it by its kind.  A float is `none` for NaN and a
place in the order of floats otherwise; any other key has only `Value.String()`, and is one of several
(the number tells which). -/
inductive Key where
  | bool (b : Bool)
  | int (z : Int)
  | uint (n : Nat)
  | float (f : Option Int)
  | str (s : Bytes)
  | arr (ks : List Key)
  | other (shown : Bytes) (which : Nat)

/-- `<` of Go strings, as used at common.go 306, 322 and 330. -/
def strLess : Bytes → Bytes → Bool
  | [], [] => false
  | [], _ :: _ => true
  | _ :: _, [] => false
  | a :: s, b :: t => if a = b then strLess s t else a < b

mutual
  /-- `av.Interface() == bv.Interface()`, common.go 315. -/
  def goEq : Key → Key → Bool
    | .bool a, .bool b => a == b
    | .int a, .int b => a == b
    | .uint a, .uint b => a == b
    | .float (some a), .float (some b) => a == b
    | .str a, .str b => a == b
    | .arr as, .arr bs => goEqs as bs
    | .other _ i, .other _ j => i == j
    | _, _ => false
  /-- `==` of arrays, common.go 315. -/
  def goEqs : List Key → List Key → Bool
    | [], [] => true
    | a :: as, b :: bs => goEq a b && goEqs as bs
    | _, _ => false
end

mutual
  /-- `valueSortLess`, common.go 295-322.  Keys of one map have one type, so the cases of different kinds
  do not come up. -/
  def less : Key → Key → Bool
    | .bool a, .bool b => !a && b
    | .int a, .int b => a < b
    | .uint a, .uint b => a < b
    | .float (some a), .float (some b) => a < b
    | .str a, .str b => strLess a b
    | .arr as, .arr bs => lessArr as bs
    | .other s _, .other t _ => strLess s t
    | _, _ => false
  /-- The loop over arrays, common.go 309-320.  After it, `Value.String()` is the same for both: their type. -/
  def lessArr : List Key → List Key → Bool
    | a :: as, b :: bs => if goEq a b then lessArr as bs else less a b
    | _, _ => false
end

/-- `canSortSimply`, common.go 256-275. -/
def canSortSimply : Key → Bool
  | .other _ _ => false
  | _ => true

/-- A key to be sorted: as `valueSortLess` sees it, what `handleMethods` (common.go 237) makes of it, and what
`Sprintf("%#v")` (common.go 247) does. -/
structure Item where
  key : Key
  meth : Bytes × Bool
  spewed : Bytes

/-- `newValuesSorter` (common.go 228-251) and `Less` (326-331): how items are compared, which depends on the
first of them and on whether methods handle all of them. -/
def lessFor (disableMethods spewKeys : Bool) (items : List Item) (a b : Item) : Bool :=
  match items with
  | [] => false
  | i :: _ =>
    if canSortSimply i.key then less a.key b.key
    else if !disableMethods && items.all (fun i => i.meth.2) then strLess a.meth.1 b.meth.1
    else if spewKeys then strLess a.spewed b.spewed
    else less a.key b.key

/-- `sortValues`, common.go 336-341: any arrangement in which no item is less than an earlier one.  This is all
that `sort.Sort` promises. -/
def Sorted (disableMethods spewKeys : Bool) (items sorted : List Item) : Prop :=
  sorted.Perm items ∧ sorted.Pairwise fun a b => lessFor disableMethods spewKeys items b a = false

/-! ## Specification -/

/-- Types of keys that have a natural order: everything but structs, pointers, interfaces, channels. -/
inductive KTy where
  | bool | int | uint | float | str
  | arr (n : Nat) (t : KTy)

/-- `k` is a key of type `t`, with no NaN in it. -/
def KeyOf : KTy → Key → Prop
  | .bool, .bool _ => True
  | .int, .int _ => True
  | .uint, .uint _ => True
  | .float, .float (some _) => True
  | .str, .str _ => True
  | .arr n t, .arr ks => ks.length = n ∧ ∀ k ∈ ks, KeyOf t k
  | _, _ => False

/-! ## Proofs -/

/-- A strict total order on the keys with `P`, and equality. -/
structure Total (P : Key → Prop) : Prop where
  eq : ∀ a b, P a → P b → (goEq a b = true ↔ a = b)
  irrefl : ∀ a, P a → less a a = false
  trans : ∀ a b c, P a → P b → P c → less a b = true → less b c = true → less a c = true
  tri : ∀ a b, P a → P b → less a b = true ∨ a = b ∨ less b a = true

theorem strLess_irrefl : ∀ s, strLess s s = false := by
  intro s
  induction s with
  | nil => rfl
  | cons a s ih => simp [strLess, ih]

theorem strLess_trans : ∀ s t u, strLess s t = true → strLess t u = true → strLess s u = true := by
  intro s
  induction s with
  | nil =>
    intro t u h1 h2
    cases t with
    | nil => cases h1
    | cons b t => cases u with
      | nil => cases h2
      | cons c u => rfl
  | cons a s ih =>
    intro t u h1 h2
    cases t with
    | nil => cases h1
    | cons b t =>
      cases u with
      | nil => cases h2
      | cons c u =>
        simp only [strLess] at h1 h2 ⊢
        by_cases hab : a = b
        · subst hab
          rw [if_pos rfl] at h1
          by_cases hac : a = c
          · rw [if_pos hac] at h2 ⊢; exact ih _ _ h1 h2
          · rw [if_neg hac] at h2 ⊢; exact h2
        · rw [if_neg hab] at h1
          by_cases hbc : b = c
          · subst hbc
            rw [if_neg hab]; exact h1
          · rw [if_neg hbc] at h2
            simp only [decide_eq_true_eq, UInt8.lt_iff_toNat_lt] at h1 h2
            rw [if_neg (by rintro rfl; omega)]
            simp only [decide_eq_true_eq, UInt8.lt_iff_toNat_lt]
            omega

theorem strLess_tri : ∀ s t, strLess s t = true ∨ s = t ∨ strLess t s = true := by
  intro s
  induction s with
  | nil =>
    intro t
    cases t with
    | nil => exact .inr (.inl rfl)
    | cons b t => exact .inl rfl
  | cons a s ih =>
    intro t
    cases t with
    | nil => exact .inr (.inr rfl)
    | cons b t =>
      simp only [strLess]
      by_cases hab : a = b
      · subst hab
        simp only [if_true, List.cons.injEq, true_and]
        exact ih t
      · rw [if_neg hab, if_neg (fun h => hab h.symm)]
        simp only [decide_eq_true_eq, UInt8.lt_iff_toNat_lt]
        have : a.toNat ≠ b.toNat := fun h => hab (UInt8.toNat_inj.1 h)
        omega

theorem goEqs_iff {P : Key → Prop} (hP : Total P) : ∀ as bs : List Key, (∀ k ∈ as, P k) → (∀ k ∈ bs, P k) →
    (goEqs as bs = true ↔ as = bs) := by
  intro as
  induction as with
  | nil => intro bs _ _; cases bs <;> simp [goEqs]
  | cons a as ih =>
    intro bs h1 h2
    cases bs with
    | nil => simp [goEqs]
    | cons b bs =>
      simp only [goEqs, Bool.and_eq_true, List.cons.injEq]
      rw [hP.eq a b (h1 a (by simp)) (h2 b (by simp)), ih bs (fun k hk => h1 k (by simp [hk])) (fun k hk => h2 k (by simp [hk]))]

theorem lessArr_irrefl {P : Key → Prop} (hP : Total P) : ∀ as : List Key, (∀ k ∈ as, P k) → lessArr as as = false := by
  intro as
  induction as with
  | nil => intro _; simp [lessArr]
  | cons a as ih =>
    intro h
    simp only [lessArr]
    rw [if_pos ((hP.eq a a (h a (by simp)) (h a (by simp))).2 rfl)]
    exact ih fun k hk => h k (by simp [hk])

theorem lessArr_trans {P : Key → Prop} (hP : Total P) : ∀ as bs cs : List Key, (∀ k ∈ as, P k) → (∀ k ∈ bs, P k) → (∀ k ∈ cs, P k) →
    lessArr as bs = true → lessArr bs cs = true → lessArr as cs = true := by
  intro as
  induction as with
  | nil => intro bs cs _ _ _ h; simp [lessArr] at h
  | cons a as ih =>
    intro bs cs ha hb hc h1 h2
    cases bs with
    | nil => simp [lessArr] at h1
    | cons b bs =>
      cases cs with
      | nil => simp [lessArr] at h2
      | cons c cs =>
        have pa := ha a (by simp)
        have pb := hb b (by simp)
        have pc := hc c (by simp)
        simp only [lessArr] at h1 h2 ⊢
        by_cases hab : goEq a b = true
        · rw [if_pos hab] at h1
          have := (hP.eq a b pa pb).1 hab
          subst this
          by_cases hac : goEq a c = true
          · rw [if_pos hac] at h2 ⊢
            exact ih bs cs (fun k hk => ha k (by simp [hk])) (fun k hk => hb k (by simp [hk])) (fun k hk => hc k (by simp [hk])) h1 h2
          · rw [if_neg hac] at h2 ⊢; exact h2
        · rw [if_neg hab] at h1
          by_cases hbc : goEq b c = true
          · have := (hP.eq b c pb pc).1 hbc
            subst this
            rw [if_neg hab]; exact h1
          · rw [if_neg hbc] at h2
            have h3 := hP.trans a b c pa pb pc h1 h2
            have hac : ¬goEq a c = true := by
              intro hac
              have := (hP.eq a c pa pc).1 hac
              subst this
              rw [hP.irrefl a pa] at h3; cases h3
            rw [if_neg hac]; exact h3

theorem lessArr_tri {P : Key → Prop} (hP : Total P) : ∀ as bs : List Key, as.length = bs.length → (∀ k ∈ as, P k) → (∀ k ∈ bs, P k) →
    lessArr as bs = true ∨ as = bs ∨ lessArr bs as = true := by
  intro as
  induction as with
  | nil => intro bs hl _ _; cases bs <;> simp_all
  | cons a as ih =>
    intro bs hl ha hb
    cases bs with
    | nil => simp at hl
    | cons b bs =>
      have pa := ha a (by simp)
      have pb := hb b (by simp)
      simp only [lessArr]
      by_cases hab : a = b
      · subst hab
        rw [if_pos ((hP.eq a a pa pa).2 rfl), if_pos ((hP.eq a a pa pa).2 rfl)]
        simp only [List.cons.injEq, true_and]
        exact ih bs (by simpa using hl) (fun k hk => ha k (by simp [hk])) (fun k hk => hb k (by simp [hk]))
      · rw [if_neg (fun h => hab ((hP.eq a b pa pb).1 h)), if_neg (fun h => hab ((hP.eq b a pb pa).1 h).symm)]
        rcases hP.tri a b pa pb with h | h | h
        · exact .inl h
        · exact absurd h hab
        · exact .inr (.inr h)

/-- Keys of a natural type are in a strict total order. -/
theorem keys_total : ∀ t : KTy, Total (KeyOf t) := by
  intro t
  induction t with
  | bool =>
    refine ⟨?_, ?_, ?_, ?_⟩
    · intro a b ha hb; cases a <;> cases b <;> simp_all [KeyOf, goEq]
    · intro a ha; cases a <;> simp_all [KeyOf, less]
    · intro a b c ha hb hc; cases a <;> cases b <;> cases c <;> simp_all [KeyOf, less]
    · intro a b ha hb
      cases a <;> cases b <;> simp_all [KeyOf, less]
      rename_i x y; cases x <;> cases y <;> simp
  | int =>
    refine ⟨?_, ?_, ?_, ?_⟩
    · intro a b ha hb; cases a <;> cases b <;> simp_all [KeyOf, goEq]
    · intro a ha; cases a <;> simp_all [KeyOf, less]
    · intro a b c ha hb hc; cases a <;> cases b <;> cases c <;> simp_all [KeyOf, less]; omega
    · intro a b ha hb; cases a <;> cases b <;> simp_all [KeyOf, less]; omega
  | uint =>
    refine ⟨?_, ?_, ?_, ?_⟩
    · intro a b ha hb; cases a <;> cases b <;> simp_all [KeyOf, goEq]
    · intro a ha; cases a <;> simp_all [KeyOf, less]
    · intro a b c ha hb hc; cases a <;> cases b <;> cases c <;> simp_all [KeyOf, less]; omega
    · intro a b ha hb; cases a <;> cases b <;> simp_all [KeyOf, less]; omega
  | float =>
    have shape : ∀ a, KeyOf .float a → ∃ z, a = .float (some z) := by
      intro a ha
      cases a with
      | float f => cases f with
        | none => exact absurd ha (by simp [KeyOf])
        | some z => exact ⟨z, rfl⟩
      | _ => exact absurd ha (by simp [KeyOf])
    refine ⟨?_, ?_, ?_, ?_⟩
    · intro a b ha hb; obtain ⟨x, rfl⟩ := shape a ha; obtain ⟨y, rfl⟩ := shape b hb; simp [goEq]
    · intro a ha; obtain ⟨x, rfl⟩ := shape a ha; simp [less]
    · intro a b c ha hb hc
      obtain ⟨x, rfl⟩ := shape a ha; obtain ⟨y, rfl⟩ := shape b hb; obtain ⟨z, rfl⟩ := shape c hc
      simp only [less, decide_eq_true_eq]; omega
    · intro a b ha hb
      obtain ⟨x, rfl⟩ := shape a ha; obtain ⟨y, rfl⟩ := shape b hb
      simp only [less, decide_eq_true_eq, Key.float.injEq, Option.some.injEq]; omega
  | str =>
    have shape : ∀ a, KeyOf .str a → ∃ z, a = .str z := by
      intro a ha
      cases a with
      | str s => exact ⟨s, rfl⟩
      | _ => exact absurd ha (by simp [KeyOf])
    refine ⟨?_, ?_, ?_, ?_⟩
    · intro a b ha hb; obtain ⟨x, rfl⟩ := shape a ha; obtain ⟨y, rfl⟩ := shape b hb; simp [goEq]
    · intro a ha; obtain ⟨x, rfl⟩ := shape a ha; simp only [less]; exact strLess_irrefl x
    · intro a b c ha hb hc
      obtain ⟨x, rfl⟩ := shape a ha; obtain ⟨y, rfl⟩ := shape b hb; obtain ⟨z, rfl⟩ := shape c hc
      simp only [less]; exact strLess_trans x y z
    · intro a b ha hb
      obtain ⟨x, rfl⟩ := shape a ha; obtain ⟨y, rfl⟩ := shape b hb
      simp only [less, Key.str.injEq]; exact strLess_tri x y
  | arr n t ih =>
    have shape : ∀ a, KeyOf (.arr n t) a → ∃ ks, a = .arr ks ∧ ks.length = n ∧ ∀ k ∈ ks, KeyOf t k := by
      intro a ha
      cases a with
      | arr ks => exact ⟨ks, rfl, by simpa only [KeyOf] using ha⟩
      | _ => exact absurd ha (by simp [KeyOf])
    refine ⟨?_, ?_, ?_, ?_⟩
    · intro a b ha hb
      obtain ⟨x, rfl, -, hx⟩ := shape a ha; obtain ⟨y, rfl, -, hy⟩ := shape b hb
      simp only [goEq, Key.arr.injEq]; exact goEqs_iff ih x y hx hy
    · intro a ha; obtain ⟨x, rfl, -, hx⟩ := shape a ha; simp only [less]; exact lessArr_irrefl ih x hx
    · intro a b c ha hb hc
      obtain ⟨x, rfl, -, hx⟩ := shape a ha; obtain ⟨y, rfl, -, hy⟩ := shape b hb; obtain ⟨z, rfl, -, hz⟩ := shape c hc
      simp only [less]; exact lessArr_trans ih x y z hx hy hz
    · intro a b ha hb
      obtain ⟨x, rfl, lx, hx⟩ := shape a ha; obtain ⟨y, rfl, ly, hy⟩ := shape b hb
      simp only [less, Key.arr.injEq]; exact lessArr_tri ih x y (lx.trans ly.symm) hx hy

theorem keyOf_simple {t : KTy} {k : Key} (h : KeyOf t k) : canSortSimply k = true := by
  cases k with
  | other s i => cases t <;> exact absurd h (by simp [KeyOf])
  | _ => rfl

/-- Which comparison is used does not depend on the order in which the keys come. -/
theorem lessFor_perm {dm sk : Bool} {xs ys : List Item} (h : xs.Perm ys)
    (hs : (∀ i ∈ xs, canSortSimply i.key = true) ∨ ∀ i ∈ xs, canSortSimply i.key = false) (a b : Item) :
    lessFor dm sk xs a b = lessFor dm sk ys a b := by
  have hall : xs.all (fun i => i.meth.2) = ys.all (fun i => i.meth.2) := by
    rw [Bool.eq_iff_iff, List.all_eq_true, List.all_eq_true]
    exact ⟨fun hx i hi => hx i (h.mem_iff.2 hi), fun hx i hi => hx i (h.mem_iff.1 hi)⟩
  cases xs with
  | nil => rw [List.nil_perm.1 h]
  | cons x xs =>
    cases ys with
    | nil => exact absurd (List.perm_nil.1 h) (by simp)
    | cons y ys =>
      have hy : y ∈ x :: xs := h.mem_iff.2 (by simp)
      simp only [lessFor]
      rw [hall]
      rcases hs with hs | hs
      · rw [hs x (by simp), hs y hy]
      · rw [hs x (by simp), hs y hy]

/-- **C108, where it holds**: keys of a natural type (booleans, numbers, strings, arrays of those, no NaN) come
out in one order only, whatever the order in which the map gave them.  `sort.Sort` need not be stable. -/
theorem keys_one_order_partial {dm sk : Bool} {t : KTy} {xs ys xs' ys' : List Item} (hp : xs.Perm ys)
    (hk : ∀ i ∈ xs, KeyOf t i.key) (hd : ∀ i ∈ xs, ∀ j ∈ xs, i.key = j.key → i = j)
    (hx : Sorted dm sk xs xs') (hy : Sorted dm sk ys ys') : xs' = ys' := by
  have hsimple : ∀ i ∈ xs, canSortSimply i.key = true := fun i hi => keyOf_simple (hk i hi)
  have hless : ∀ zs, zs.Perm xs → zs ≠ [] → ∀ a b, lessFor dm sk zs a b = less a.key b.key := by
    intro zs hz hne a b
    cases zs with
    | nil => exact absurd rfl hne
    | cons z zs => simp only [lessFor, hsimple z (hz.mem_iff.1 (by simp)), if_true]
  by_cases hne : xs = []
  · subst hne
    have h1 := List.perm_nil.1 hx.1
    have h2 := List.nil_perm.1 hp
    subst h2
    rw [h1, List.perm_nil.1 hy.1]
  · have hyne : ys ≠ [] := fun h => hne (by subst h; exact List.perm_nil.1 hp)
    have px : xs'.Pairwise fun a b => less b.key a.key = false := hx.2.imp fun {a b} h => by
      rw [← hless xs (.refl _) hne]; exact h
    have py : ys'.Pairwise fun a b => less b.key a.key = false := hy.2.imp fun {a b} h => by
      rw [← hless ys hp.symm hyne]; exact h
    refine List.Perm.eq_of_pairwise (le := fun a b => less b.key a.key = false) ?_ px py ((hx.1.trans hp).trans hy.1.symm)
    intro a b ha hb h1 h2
    have ha' : a ∈ xs := hx.1.mem_iff.1 ha
    have hb' : b ∈ xs := hp.mem_iff.2 (hy.1.mem_iff.1 hb)
    rcases (keys_total t).tri a.key b.key (hk a ha') (hk b hb') with h | h | h
    · rw [h] at h2; cases h2
    · exact hd a ha' b hb' h
    · rw [h] at h1; cases h1

/-- **C108, where it holds**: keys of other types come out in one order only when every one has an `Error` or
`String` method and no two of the texts are the same. -/
theorem keys_with_methods_partial {sk : Bool} {xs ys xs' ys' : List Item} (hp : xs.Perm ys)
    (ho : ∀ i ∈ xs, canSortSimply i.key = false) (hm : ∀ i ∈ xs, i.meth.2 = true)
    (hd : ∀ i ∈ xs, ∀ j ∈ xs, i.meth.1 = j.meth.1 → i = j)
    (hx : Sorted false sk xs xs') (hy : Sorted false sk ys ys') : xs' = ys' := by
  have hless : ∀ zs, zs.Perm xs → zs ≠ [] → ∀ a b, lessFor false sk zs a b = strLess a.meth.1 b.meth.1 := by
    intro zs hz hne a b
    have hall : zs.all (fun i => i.meth.2) = true := by
      rw [List.all_eq_true]
      exact fun i hi => hm i (hz.mem_iff.1 hi)
    cases zs with
    | nil => exact absurd rfl hne
    | cons z zs =>
      simp only [lessFor, ho z (hz.mem_iff.1 (by simp)), hall]
      simp
  by_cases hne : xs = []
  · subst hne
    have h1 := List.perm_nil.1 hx.1
    have h2 := List.nil_perm.1 hp
    subst h2
    rw [h1, List.perm_nil.1 hy.1]
  · have hyne : ys ≠ [] := fun h => hne (by subst h; exact List.perm_nil.1 hp)
    have px : xs'.Pairwise fun a b => strLess b.meth.1 a.meth.1 = false := hx.2.imp fun {a b} h => by
      rw [← hless xs (.refl _) hne]; exact h
    have py : ys'.Pairwise fun a b => strLess b.meth.1 a.meth.1 = false := hy.2.imp fun {a b} h => by
      rw [← hless ys hp.symm hyne]; exact h
    refine List.Perm.eq_of_pairwise (le := fun a b => strLess b.meth.1 a.meth.1 = false) ?_ px py ((hx.1.trans hp).trans hy.1.symm)
    intro a b ha hb h1 h2
    have ha' : a ∈ xs := hx.1.mem_iff.1 ha
    have hb' : b ∈ xs := hp.mem_iff.2 (hy.1.mem_iff.1 hb)
    rcases strLess_tri a.meth.1 b.meth.1 with h | h | h
    · rw [h] at h2; cases h2
    · exact hd a ha' b hb' h
    · rw [h] at h1; cases h1

/-- **C108**: there is such an order, and it is increasing. -/
theorem sorted_increases {dm sk : Bool} {t : KTy} {xs xs' : List Item} (hk : ∀ i ∈ xs, KeyOf t i.key)
    (hd : ∀ i ∈ xs, ∀ j ∈ xs, i.key = j.key → i = j) (hn : xs.Nodup) (hx : Sorted dm sk xs xs') :
    xs'.Pairwise fun a b => less a.key b.key = true := by
  have hnd : xs'.Nodup := hx.1.nodup_iff.2 hn
  have := hx.2.and hnd
  refine List.Pairwise.imp_of_mem ?_ this
  rintro a b ha hb ⟨h1, h2⟩
  have ha' := hx.1.mem_iff.1 ha
  have hb' := hx.1.mem_iff.1 hb
  have hl : lessFor dm sk xs b a = less b.key a.key := by
    cases xs with
    | nil => cases ha'
    | cons x xs => simp only [lessFor, keyOf_simple (hk x (by simp)), if_true]
  rw [hl] at h1
  rcases (keys_total t).tri a.key b.key (hk a ha') (hk b hb') with h | h | h
  · exact h
  · exact absurd (hd a ha' b hb' h) h2
  · rw [h] at h1; cases h1

/-! ## The dump -/

/-- The entries of a map as `dump` (dump.go 386-390) goes through them: `items` tells how a key is compared. -/
def Ordered (dm sk : Bool) (item : Val → Item) (contents entries : List (Val × Val)) : Prop :=
  entries.Perm contents ∧ Sorted dm sk (contents.map fun kv => item kv.1) (entries.map fun kv => item kv.1)

/-- **C108, where it holds**: a dump with sorted keys does not depend on the order in which the maps gave their
keys, nor on what `sort.Sort` does with them, when the keys of each map are of a natural type. -/
theorem sdump_deterministic_partial {E : Env} {sk : Bool} {item : Val → Item} {contents₁ contents₂ entries₁ entries₂ : Nat → List (Val × Val)}
    (hp : ∀ a, (contents₁ a).Perm (contents₂ a))
    (hk : ∀ a, ∃ t, ∀ kv ∈ contents₁ a, KeyOf t (item kv.1).key)
    (hd : ∀ a, ∀ kv ∈ contents₁ a, ∀ kw ∈ contents₁ a, (item kv.1).key = (item kw.1).key → kv = kw)
    (h₁ : ∀ a, Ordered E.disableMethods sk item (contents₁ a) (entries₁ a))
    (h₂ : ∀ a, Ordered E.disableMethods sk item (contents₂ a) (entries₂ a)) (n : Nat) (v : Option Val) :
    sdump { E with entries := entries₁ } n v = sdump { E with entries := entries₂ } n v := by
  have : entries₁ = entries₂ := by
    funext a
    obtain ⟨t, ht⟩ := hk a
    have hsimple : ∀ i ∈ (contents₁ a).map (fun kv => item kv.1), canSortSimply i.key = true := by
      intro i hi
      obtain ⟨kv, hkv, rfl⟩ := List.mem_map.1 hi
      exact keyOf_simple (ht kv hkv)
    have hsort : ∀ (cs : List (Val × Val)) (es : List (Val × Val)), cs.Perm (contents₁ a) → Ordered E.disableMethods sk item cs es →
        es.Pairwise fun kv kw => less (item kw.1).key (item kv.1).key = false := by
      intro cs es hc he
      have := List.pairwise_map.1 he.2.2
      refine List.Pairwise.imp_of_mem ?_ this
      intro kv kw hv _ h
      have hne := he.1.mem_iff.1 hv
      cases cs with
      | nil => cases hne
      | cons c cs =>
        have hc' : canSortSimply (item c.1).key = true := hsimple _ (List.mem_map.2 ⟨c, hc.mem_iff.1 (by simp), rfl⟩)
        simp only [List.map_cons, lessFor, hc', if_true] at h
        exact h
    refine List.Perm.eq_of_pairwise (le := fun kv kw => less (item kw.1).key (item kv.1).key = false) ?_
      (hsort _ _ (.refl _) (h₁ a)) (hsort _ _ (hp a).symm (h₂ a)) (((h₁ a).1.trans (hp a)).trans (h₂ a).1.symm)
    intro kv kw hv hw l1 l2
    have hv' := (h₁ a).1.mem_iff.1 hv
    have hw' := (hp a).mem_iff.2 ((h₂ a).1.mem_iff.1 hw)
    rcases (keys_total t).tri (item kv.1).key (item kw.1).key (ht kv hv') (ht kw hw') with h | h | h
    · rw [h] at l2; cases l2
    · exact hd a kv hv' kw hw' h
    · rw [h] at l1; cases l1
  rw [this]

/-! ## Where the order is left open -/

/-- **C108 fails**: keys of an interface type (or a struct or pointer type without methods) all count as equal,
because `Value.String()` is only the type; whatever order the map gave them in counts as sorted.  So two dumps
of one `map[interface{}]int` can differ, although `SortKeys` is set. -/
theorem interface_keys_any_order (i j : Nat) (dm sk' : Bool) (m : Bytes) :
    let x : Item := ⟨.other (asc "<interface {} Value>") i, (m, false), []⟩
    let y : Item := ⟨.other (asc "<interface {} Value>") j, (m, false), []⟩
    Sorted dm false [x, y] [x, y] ∧ Sorted dm false [x, y] [y, x] ∧ (sk' = true → Sorted dm sk' [x, y] [y, x]) := by
  have h : ∀ sk k l, lessFor dm sk
      [⟨.other (asc "<interface {} Value>") i, (m, false), []⟩, ⟨.other (asc "<interface {} Value>") j, (m, false), []⟩]
      ⟨.other (asc "<interface {} Value>") k, (m, false), []⟩ ⟨.other (asc "<interface {} Value>") l, (m, false), []⟩ = false := by
    intro sk k l
    cases dm <;> cases sk <;> simp [lessFor, canSortSimply, less, strLess_irrefl, strLess]
  refine ⟨⟨.refl _, ?_⟩, ⟨.swap _ _ _, ?_⟩, fun _ => ⟨.swap _ _ _, ?_⟩⟩ <;>
    simp only [List.pairwise_cons, List.mem_singleton, List.not_mem_nil, false_implies, implies_true, List.Pairwise.nil, and_true] <;>
    · rintro b rfl; exact h _ _ _

/-- **C108 fails**: NaN is not less than anything and nothing is less than it, so the comparison is no order:
`2 < 1` is false around a NaN, and `[2, NaN, 1]` passes for sorted between neighbours. -/
theorem nan_breaks_order : less (.float (some 2)) (.float none) = false ∧ less (.float none) (.float (some 2)) = false ∧
    less (.float (some 1)) (.float none) = false ∧ less (.float none) (.float (some 1)) = false ∧
    less (.float (some 1)) (.float (some 2)) = true := by
  simp [less]

/-! ## Concrete cases -/

/-- An item without methods. -/
def Item.of (k : Key) : Item := ⟨k, ([], false), []⟩

/-- Three arrays in two orders. -/
example : Sorted false false [.of (.arr [.int 2, .int 0]), .of (.arr [.int 1, .int 9]), .of (.arr [.int 1, .int (-3)])]
    [.of (.arr [.int 1, .int (-3)]), .of (.arr [.int 1, .int 9]), .of (.arr [.int 2, .int 0])] ∧
    ∀ i ∈ [Item.of (.arr [.int 2, .int 0]), .of (.arr [.int 1, .int 9]), .of (.arr [.int 1, .int (-3)])], KeyOf (.arr 2 .int) i.key := by
  refine ⟨⟨?_, ?_⟩, ?_⟩
  · exact (List.Perm.swap _ _ _).trans (.trans (.cons _ (.swap _ _ _)) (.swap _ _ _))
  · simp [lessFor, canSortSimply, Item.of, less, lessArr, goEq]
  · simp [Item.of, KeyOf]

/-- A map of two entries whose keys come in the wrong order is dumped in the right one. -/
example : ∃ entries, Ordered false false (fun v => match v with | .str _ s => .of (.str s) | _ => .of (.bool true))
    [(.str (asc "string") (asc "b"), .bool (asc "bool") true), (.str (asc "string") (asc "a"), .bool (asc "bool") false)] entries ∧
    sdump (Env.sample (fun _ => .invalid) (fun _ => []) (fun _ => entries)) 9 (some (.map (asc "map[string]bool") 1)) =
      some (asc "(map[string]bool) (len=2) {\n (string) (len=1) \"a\": (bool) false,\n (string) (len=1) \"b\": (bool) true\n}\n") := by
  refine ⟨[(.str (asc "string") (asc "a"), .bool (asc "bool") false), (.str (asc "string") (asc "b"), .bool (asc "bool") true)],
    ⟨.swap _ _ _, .swap _ _ _, ?_⟩, by decide +kernel⟩
  simp [lessFor, canSortSimply, Item.of, less, strLess, asc]

end Verif.Spew
