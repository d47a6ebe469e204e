import Mathlib.Data.List.Induction
import Verif.Difflib.Model

/-!
# C53: the longest match is really longest
-/

namespace Verif.Difflib

variable {α : Type} [DecidableEq α]

/-! ### Specification -/

/-- `a[i:i+k]` and `b[j:j+k]` exist, are equal and consist of elements with `P`. -/
def Common (a b : List α) (P : α → Prop) (i j k : Nat) : Prop :=
  ∀ t, t < k → ∃ x, a[i + t]? = some x ∧ b[j + t]? = some x ∧ P x

/-- A common block within `a[alo:ahi]` and `b[blo:bhi]`. -/
structure Block (a b : List α) (P : α → Prop) (alo ahi blo bhi i j k : Nat) : Prop where
  common : Common a b P i j k
  ilo : alo ≤ i
  ihi : i + k ≤ ahi
  jlo : blo ≤ j
  jhi : j + k ≤ bhi

/-- A matcher made for `a` and `b`: `b2j` lists the indices of the kept elements in
increasing order. -/
structure Seqs.Good (m : Seqs α) (keep : α → Prop) : Prop where
  mem : ∀ x j, j ∈ m.b2j x ↔ m.b[j]? = some x ∧ keep x
  sorted : ∀ x, (m.b2j x).Pairwise (· < ·)

/-! ### `chainB` -/

theorem chain_eq (b : List α) : ∀ (i : Nat) (m : α → List Nat) (x : α),
    chain b i m x = m x ++ (List.range b.length).filterMap fun t => if b[t]? = some x then some (i + t) else none := by
  induction b with
  | nil => intro i m x; simp [chain]
  | cons s b ih =>
    intro i m x
    rw [chain, ih, List.length_cons, List.range_succ_eq_map, List.filterMap_cons]
    have tail : ((List.range b.length).map Nat.succ).filterMap (fun t => if (s :: b)[t]? = some x then some (i + t) else none) =
        (List.range b.length).filterMap fun t => if b[t]? = some x then some (i + 1 + t) else none := by
      rw [List.filterMap_map]
      congr 1
      funext t
      simp only [Function.comp, List.getElem?_cons_succ, Nat.succ_eq_add_one]
      rw [show i + (t + 1) = i + 1 + t by omega]
    rw [tail]
    by_cases hx : x = s
    · subst hx; simp
    · simp [hx, Ne.symm hx]

theorem chain_mem (b : List α) (x : α) (j : Nat) : j ∈ chain b 0 (fun _ => []) x ↔ b[j]? = some x := by
  rw [chain_eq]
  simp only [List.nil_append, List.mem_filterMap, List.mem_range, Nat.zero_add]
  constructor
  · rintro ⟨t, _, h⟩
    split at h
    · rename_i hb; injection h with h; subst h; exact hb
    · simp at h
  · intro h
    refine ⟨j, ?_, by rw [if_pos h]⟩
    exact (List.getElem?_eq_some_iff.mp h).1

theorem chain_sorted (b : List α) (x : α) : (chain b 0 (fun _ => []) x).Pairwise (· < ·) := by
  rw [chain_eq, List.nil_append]
  refine List.Pairwise.filterMap _ ?_ (List.pairwise_lt_range (n := b.length))
  intro t t' htt u hu u' hu'
  split at hu <;> simp at hu
  split at hu' <;> simp at hu'
  omega

/-- The elements `chainB` leaves in `b2j`: neither junk nor popular. -/
def kept (b : List α) (autoJunk : Bool) (isJunk : Option (α → Bool)) (x : α) : Prop :=
  (∀ f, isJunk = some f → f x = false) ∧
  (autoJunk = true → 200 ≤ b.length → ((List.range b.length).filter fun j => b[j]? = some x).length ≤ b.length / 100 + 1)

theorem filter_range_length (b : List α) (x : α) :
    (chain b 0 (fun _ => []) x).length = ((List.range b.length).filter fun j => b[j]? = some x).length := by
  rw [chain_eq, List.nil_append]
  simp only [Nat.zero_add]
  generalize List.range b.length = l
  induction l with
  | nil => rfl
  | cons t l ih =>
    by_cases h : b[t]? = some x
    · simp [h, ih]
    · simp [h, ih]

theorem newMatcher_good (a b : List α) (autoJunk : Bool) (isJunk : Option (α → Bool)) :
    (newMatcher a b autoJunk isJunk).Good (kept b autoJunk isJunk) ∧
    (newMatcher a b autoJunk isJunk).a = a ∧ (newMatcher a b autoJunk isJunk).b = b ∧
    ∀ x, (newMatcher a b autoJunk isJunk).isBJunk x = true ↔ x ∈ b ∧ ∃ f, isJunk = some f ∧ f x = true := by
  have hne : ∀ x, chain b 0 (fun _ => []) x ≠ [] ↔ x ∈ b := by
    intro x
    rw [List.mem_iff_getElem?]
    constructor
    · intro h
      obtain ⟨j, hj⟩ := List.exists_mem_of_ne_nil _ h
      exact ⟨j, (chain_mem b x j).mp hj⟩
    · rintro ⟨j, hj⟩ h0
      have := (chain_mem b x j).mpr hj
      rw [h0] at this
      simp at this
  have hj : ∀ x, (newMatcher a b autoJunk isJunk).isBJunk x = true ↔ x ∈ b ∧ ∃ f, isJunk = some f ∧ f x = true := by
    intro x
    cases isJunk with
    | none => simp [newMatcher]
    | some f => simp only [newMatcher, Bool.and_eq_true, decide_eq_true_eq, hne]; simp
  refine ⟨⟨?_, ?_⟩, rfl, rfl, hj⟩
  · intro x j
    have hb2j : (newMatcher a b autoJunk isJunk).b2j x =
        if (autoJunk && decide (200 ≤ b.length) && decide (b.length / 100 + 1 <
          (if (newMatcher a b autoJunk isJunk).isBJunk x then [] else chain b 0 (fun _ => []) x).length)) = true then []
        else if (newMatcher a b autoJunk isJunk).isBJunk x then [] else chain b 0 (fun _ => []) x := rfl
    have hb : (newMatcher a b autoJunk isJunk).b = b := rfl
    rw [hb2j, hb]
    by_cases hjk : (newMatcher a b autoJunk isJunk).isBJunk x = true
    · simp only [hjk, if_true]
      have := (hj x).mp hjk
      constructor
      · intro h; split at h <;> simp at h
      · rintro ⟨_, hk, _⟩
        obtain ⟨_, f, hf, hx⟩ := this
        rw [hk f hf] at hx; simp at hx
    · rw [if_neg hjk]
      rw [filter_range_length]
      by_cases hp : (autoJunk && decide (200 ≤ b.length) && decide (b.length / 100 + 1 <
          ((List.range b.length).filter fun j => b[j]? = some x).length)) = true
      · rw [if_pos hp]
        simp only [Bool.and_eq_true, decide_eq_true_eq] at hp
        constructor
        · intro h; simp at h
        · rintro ⟨_, _, hk⟩
          have := hk hp.1.1 hp.1.2
          omega
      · rw [if_neg hp, chain_mem]
        simp only [Bool.and_eq_true, decide_eq_true_eq] at hp
        constructor
        · intro h
          refine ⟨h, ?_, ?_⟩
          · intro f hf
            by_cases hfx : f x = true
            · exact absurd ((hj x).mpr ⟨List.mem_iff_getElem?.mpr ⟨j, h⟩, f, hf, hfx⟩) hjk
            · simpa using hfx
          · intro h1 h2
            rcases Nat.lt_or_ge (b.length / 100 + 1) ((List.range b.length).filter fun j => b[j]? = some x).length with hlt | hge
            · exact absurd ⟨⟨h1, h2⟩, hlt⟩ hp
            · exact hge
        · exact fun h => h.1
  · intro x
    simp only [newMatcher]
    repeat' split
    all_goals first | exact List.Pairwise.nil | exact chain_sorted b x

/-! ### The search -/

/-- Number of equal kept elements up to (i, j). -/
def lenAt (ok : Nat → Nat → Bool) : Nat → Nat → Nat
  | 0, j => if ok 0 j then 1 else 0
  | i + 1, 0 => if ok (i + 1) 0 then 1 else 0
  | i + 1, j + 1 => if ok (i + 1) (j + 1) then lenAt ok i j + 1 else 0

theorem lenAt_not (ok : Nat → Nat → Bool) (i j : Nat) (h : ok i j = false) : lenAt ok i j = 0 := by
  cases i with
  | zero => simp [lenAt, h]
  | succ i => cases j <;> simp [lenAt, h]

theorem lenAt_ok (ok : Nat → Nat → Bool) (i j : Nat) (h : ok i j = true) :
    lenAt ok i j = (if i = 0 ∨ j = 0 then 0 else lenAt ok (i - 1) (j - 1)) + 1 := by
  cases i with
  | zero => simp [lenAt, h]
  | succ i => cases j <;> simp [lenAt, h]

theorem lenAt_run (ok : Nat → Nat → Bool) : ∀ i j, lenAt ok i j ≤ i + 1 ∧ lenAt ok i j ≤ j + 1 ∧
    (∀ t, t < lenAt ok i j → ok (i - t) (j - t) = true) ∧
    ∀ k, k ≤ i + 1 → k ≤ j + 1 → (∀ t, t < k → ok (i - t) (j - t) = true) → k ≤ lenAt ok i j := by
  intro i
  induction i with
  | zero =>
    intro j
    by_cases h : ok 0 j = true
    · have : lenAt ok 0 j = 1 := by simp [lenAt, h]
      rw [this]
      refine ⟨by omega, by omega, ?_, fun k h1 _ _ => by omega⟩
      intro t ht
      have : t = 0 := by omega
      subst this; simpa using h
    · have : lenAt ok 0 j = 0 := by simp [lenAt, h]
      rw [this]
      refine ⟨by omega, by omega, fun t ht => by omega, fun k h1 _ h3 => ?_⟩
      rcases Nat.eq_zero_or_pos k with h0 | h0
      · omega
      · exact absurd (h3 0 h0) h
  | succ i ih =>
    intro j
    by_cases h : ok (i + 1) j = true
    · cases j with
      | zero =>
        have : lenAt ok (i + 1) 0 = 1 := by simp [lenAt, h]
        rw [this]
        refine ⟨by omega, by omega, ?_, fun k _ h1 _ => by omega⟩
        intro t ht
        have : t = 0 := by omega
        subst this; simpa using h
      | succ j =>
        have : lenAt ok (i + 1) (j + 1) = lenAt ok i j + 1 := by simp [lenAt, h]
        rw [this]
        obtain ⟨h1, h2, h3, h4⟩ := ih j
        refine ⟨by omega, by omega, ?_, ?_⟩
        · intro t ht
          cases t with
          | zero => exact h
          | succ t => simpa [Nat.succ_sub_succ] using h3 t (by omega)
        · intro k hk1 hk2 hk
          have := h4 (k - 1) (by omega) (by omega) (fun t ht => by simpa [Nat.succ_sub_succ] using hk (t + 1) (by omega))
          omega
    · have : lenAt ok (i + 1) j = 0 := lenAt_not ok _ _ (by simpa using h)
      rw [this]
      refine ⟨by omega, by omega, fun t ht => by omega, fun k h1 _ h3 => ?_⟩
      rcases Nat.eq_zero_or_pos k with h0 | h0
      · omega
      · exact absurd (h3 0 h0) h

/-- One comparison, line 253-255. -/
def upd (ok : Nat → Nat → Bool) (best : Match) (p : Nat × Nat) : Match :=
  if best.Size < lenAt ok p.1 p.2 then ⟨p.1 + 1 - lenAt ok p.1 p.2, p.2 + 1 - lenAt ok p.1 p.2, lenAt ok p.1 p.2⟩ else best

theorem searchRow_eq (ok : Nat → Nat → Bool) (prev : Nat → Nat) (i blo bhi : Nat)
    (hprev : ∀ j, prev j = if i = 0 then 0 else lenAt ok (i - 1) j) :
    ∀ (js : List Nat) (cur : Nat → Nat) (best : Match), js.Pairwise (· < ·) →
      (∀ j ∈ js, blo ≤ j → j < bhi → ok i j = true) →
      (∀ x, (searchRow prev i blo bhi js cur best).1 x = if x ∈ js ∧ blo ≤ x ∧ x < bhi then lenAt ok i x else cur x) ∧
      (searchRow prev i blo bhi js cur best).2 =
        ((js.filter fun j => blo ≤ j ∧ j < bhi).map fun j => (i, j)).foldl (upd ok) best := by
  intro js
  induction js with
  | nil => intro cur best _ _; exact ⟨fun x => by simp [searchRow], rfl⟩
  | cons j js ih =>
    intro cur best hs hok
    rw [List.pairwise_cons] at hs
    rw [searchRow]
    by_cases hlo : j < blo
    · rw [if_pos hlo]
      obtain ⟨h1, h2⟩ := ih cur best hs.2 (fun x hx => hok x (List.mem_cons_of_mem _ hx))
      refine ⟨fun x => ?_, ?_⟩
      · rw [h1]
        have : (x ∈ j :: js ∧ blo ≤ x ∧ x < bhi) ↔ (x ∈ js ∧ blo ≤ x ∧ x < bhi) := by
          simp only [List.mem_cons]
          constructor
          · rintro ⟨rfl | h, h'⟩
            · omega
            · exact ⟨h, h'⟩
          · rintro ⟨h, h'⟩; exact ⟨Or.inr h, h'⟩
        simp only [this]
      · rw [h2, List.filter_cons_of_neg (by simp; omega)]
    · rw [if_neg hlo]
      by_cases hhi : bhi ≤ j
      · rw [if_pos hhi]
        have hall : ∀ x ∈ j :: js, bhi ≤ x := by
          intro x hx
          rcases List.mem_cons.mp hx with rfl | h
          · exact hhi
          · exact Nat.le_trans hhi (Nat.le_of_lt (hs.1 x h))
        refine ⟨fun x => ?_, ?_⟩
        · rw [if_neg]
          rintro ⟨hx, _, hlt⟩
          have := hall x hx
          omega
        · have : ((j :: js).filter fun j => blo ≤ j ∧ j < bhi) = [] := by
            rw [List.filter_eq_nil_iff]
            intro x hx
            have := hall x hx
            simp; omega
          rw [this]; rfl
      · rw [if_neg hhi]
        have hk : (if j = 0 then 0 else prev (j - 1)) + 1 = lenAt ok i j := by
          rw [lenAt_ok ok i j (hok j (List.mem_cons_self ..) (by omega) (by omega)), hprev]
          by_cases hj : j = 0
          · simp [hj]
          · by_cases hi : i = 0 <;> simp [hj, hi]
        simp only [hk]
        obtain ⟨h1, h2⟩ := ih (fun x => if x = j then lenAt ok i j else cur x)
          (if best.Size < lenAt ok i j then ⟨i + 1 - lenAt ok i j, j + 1 - lenAt ok i j, lenAt ok i j⟩ else best) hs.2
          (fun x hx => hok x (List.mem_cons_of_mem _ hx))
        refine ⟨fun x => ?_, ?_⟩
        · rw [h1]
          by_cases hx : x = j
          · subst hx
            have hn : x ∉ js := fun h => by have := hs.1 x h; omega
            rw [if_neg (by rintro ⟨h, _⟩; exact hn h), if_pos rfl, if_pos ⟨List.mem_cons_self .., by omega, by omega⟩]
          · simp only [List.mem_cons, hx, false_or, if_false]
        · rw [h2, List.filter_cons_of_pos (by simp; omega)]
          rfl

/-- The pairs compared, row by row. -/
def pairsFrom (m : Seqs α) (blo bhi : Nat) : Nat → Nat → List (Nat × Nat)
  | 0, _ => []
  | n + 1, i =>
    ((((m.a[i]?.map m.b2j).getD []).filter fun j => blo ≤ j ∧ j < bhi).map fun j => (i, j)) ++ pairsFrom m blo bhi n (i + 1)

/-- The cells with equal kept elements in the window. -/
def okAt (m : Seqs α) (alo blo bhi : Nat) (i j : Nat) : Bool :=
  decide (alo ≤ i) && decide (blo ≤ j) && decide (j < bhi) && decide (j ∈ (m.a[i]?.map m.b2j).getD [])

omit [DecidableEq α] in
theorem search_eq {keep : α → Prop} (m : Seqs α) (hm : m.Good keep) (alo blo bhi : Nat) :
    ∀ (n i : Nat) (prev : Nat → Nat) (best : Match), alo ≤ i →
      (∀ j, prev j = if i = 0 then 0 else lenAt (okAt m alo blo bhi) (i - 1) j) →
      search m blo bhi n i prev best = (pairsFrom m blo bhi n i).foldl (upd (okAt m alo blo bhi)) best := by
  intro n
  induction n with
  | zero => intro i prev best _ _; rfl
  | succ n ih =>
    intro i prev best hi hprev
    have hsorted : ((m.a[i]?.map m.b2j).getD []).Pairwise (· < ·) := by
      cases m.a[i]? with
      | none => exact List.Pairwise.nil
      | some x => exact hm.sorted x
    obtain ⟨h1, h2⟩ := searchRow_eq (okAt m alo blo bhi) prev i blo bhi hprev ((m.a[i]?.map m.b2j).getD []) (fun _ => 0) best
      hsorted (by intro j hj h1 h2; simp [okAt, hi, h1, h2, hj])
    rw [search, pairsFrom, List.foldl_append, ← h2]
    apply ih (i + 1) _ _ (by omega)
    intro j
    rw [h1, if_neg (show ¬ i + 1 = 0 by omega), Nat.add_sub_cancel]
    by_cases hj : j ∈ (m.a[i]?.map m.b2j).getD [] ∧ blo ≤ j ∧ j < bhi
    · rw [if_pos hj]
    · rw [if_neg hj, lenAt_not]
      simp only [okAt, hi, decide_true, Bool.true_and]
      rw [Bool.eq_false_iff]
      intro hc
      simp only [Bool.and_eq_true, decide_eq_true_eq] at hc
      exact hj ⟨hc.2, hc.1.1, hc.1.2⟩

/-- The first largest. -/
theorem foldl_upd (ok : Nat → Nat → Bool) (init : Match) (hinit : init.Size = 0) : ∀ (ps : List (Nat × Nat)),
    (ps.foldl (upd ok) init = init ∧ ∀ p ∈ ps, lenAt ok p.1 p.2 = 0) ∨
    ∃ pre p post, ps = pre ++ p :: post ∧ 0 < lenAt ok p.1 p.2 ∧
      ps.foldl (upd ok) init = ⟨p.1 + 1 - lenAt ok p.1 p.2, p.2 + 1 - lenAt ok p.1 p.2, lenAt ok p.1 p.2⟩ ∧
      (∀ q ∈ pre, lenAt ok q.1 q.2 < lenAt ok p.1 p.2) ∧ ∀ q ∈ post, lenAt ok q.1 q.2 ≤ lenAt ok p.1 p.2 := by
  intro ps
  induction ps using List.reverseRecOn with
  | nil => left; exact ⟨rfl, by simp⟩
  | append_singleton ps q ih =>
    rw [List.foldl_append, List.foldl_cons, List.foldl_nil]
    rcases ih with ⟨h1, h2⟩ | ⟨pre, p, post, h0, hpos, h1, h2, h3⟩
    · rw [h1]
      by_cases hq : 0 < lenAt ok q.1 q.2
      · right
        refine ⟨ps, q, [], by simp, hq, ?_, ?_, by simp⟩
        · rw [upd, if_pos (by omega)]
        · intro x hx; rw [h2 x hx]; exact hq
      · left
        refine ⟨by rw [upd, if_neg (by omega)], ?_⟩
        intro x hx
        simp only [List.mem_append, List.mem_singleton] at hx
        rcases hx with hx | rfl
        · exact h2 x hx
        · omega
    · rw [h1]
      right
      by_cases hq : lenAt ok p.1 p.2 < lenAt ok q.1 q.2
      · refine ⟨ps, q, [], by simp, by omega, ?_, ?_, by simp⟩
        · rw [upd, if_pos hq]
        · intro x hx
          rw [h0] at hx
          simp only [List.mem_append, List.mem_cons] at hx
          rcases hx with hx | rfl | hx
          · have := h2 x hx; omega
          · exact hq
          · have := h3 x hx; omega
      · refine ⟨pre, p, post ++ [q], by simp [h0], hpos, ?_, h2, ?_⟩
        · rw [upd, if_neg hq]
        · intro x hx
          simp only [List.mem_append, List.mem_singleton] at hx
          rcases hx with hx | rfl
          · exact h3 x hx
          · omega

/-- Lexicographic order of cells. -/
def Before (p q : Nat × Nat) : Prop := p.1 < q.1 ∨ (p.1 = q.1 ∧ p.2 < q.2)

omit [DecidableEq α] in
theorem pairsFrom_mem (m : Seqs α) (blo bhi : Nat) : ∀ (n i : Nat) (p : Nat × Nat), p ∈ pairsFrom m blo bhi n i ↔
    i ≤ p.1 ∧ p.1 < i + n ∧ blo ≤ p.2 ∧ p.2 < bhi ∧ p.2 ∈ (m.a[p.1]?.map m.b2j).getD [] := by
  intro n
  induction n with
  | zero => intro i p; simp [pairsFrom]; omega
  | succ n ih =>
    intro i p
    obtain ⟨x, y⟩ := p
    rw [pairsFrom, List.mem_append, ih]
    simp only [List.mem_map, List.mem_filter, decide_eq_true_eq, Prod.mk.injEq]
    constructor
    · rintro (⟨j, ⟨hj, h1, h2⟩, rfl, rfl⟩ | ⟨h1, h2, h3⟩)
      · exact ⟨by omega, by omega, h1, h2, hj⟩
      · exact ⟨by omega, by omega, h3⟩
    · rintro ⟨h1, h2, h3, h4, h5⟩
      by_cases hx : x = i
      · subst hx; left; exact ⟨y, ⟨h5, h3, h4⟩, rfl, rfl⟩
      · right; exact ⟨by omega, by omega, h3, h4, h5⟩

omit [DecidableEq α] in
theorem pairsFrom_sorted {keep : α → Prop} (m : Seqs α) (hm : m.Good keep) (blo bhi : Nat) : ∀ (n i : Nat),
    (pairsFrom m blo bhi n i).Pairwise Before := by
  intro n
  induction n with
  | zero => intro i; exact List.Pairwise.nil
  | succ n ih =>
    intro i
    rw [pairsFrom, List.pairwise_append]
    refine ⟨?_, ih (i + 1), ?_⟩
    · rw [List.pairwise_map]
      have hsorted : ((m.a[i]?.map m.b2j).getD []).Pairwise (· < ·) := by
        cases m.a[i]? with
        | none => exact List.Pairwise.nil
        | some x => exact hm.sorted x
      exact (hsorted.filter _).imp (fun h => Or.inr ⟨rfl, h⟩)
    · intro p hp q hq
      simp only [List.mem_map] at hp
      obtain ⟨j, _, rfl⟩ := hp
      have := ((pairsFrom_mem m blo bhi n (i + 1) q).mp hq).1
      left
      simp only
      omega

omit [DecidableEq α] in
theorem mem_b2j {keep : α → Prop} (m : Seqs α) (hm : m.Good keep) (i j : Nat) :
    j ∈ (m.a[i]?.map m.b2j).getD [] ↔ ∃ x, m.a[i]? = some x ∧ m.b[j]? = some x ∧ keep x := by
  cases h : m.a[i]? with
  | none => simp
  | some x =>
    simp only [Option.map_some, Option.getD_some, hm.mem]
    constructor
    · intro h; exact ⟨x, rfl, h⟩
    · rintro ⟨y, hy, h⟩; injection hy with hy; subst hy; exact h

omit [DecidableEq α] in
/-- The search before the extensions: the longest block of kept elements in the window, the
first such block. -/
theorem search_longest {keep : α → Prop} (m : Seqs α) (hm : m.Good keep) (alo ahi blo bhi : Nat) (hab : alo ≤ ahi)
    (hbb : blo ≤ bhi) :
    let r := search m blo bhi (ahi - alo) alo (fun _ => 0) ⟨alo, blo, 0⟩
    Block m.a m.b keep alo ahi blo bhi r.A r.B r.Size ∧
    (r.Size = 0 → r.A = alo ∧ r.B = blo) ∧
    (∀ i j k, Block m.a m.b keep alo ahi blo bhi i j k → k ≤ r.Size) ∧
    (∀ i j, 0 < r.Size → Block m.a m.b keep alo ahi blo bhi i j r.Size → r.A < i ∨ (r.A = i ∧ r.B ≤ j)) := by
  intro r
  have hr : r = (pairsFrom m blo bhi (ahi - alo) alo).foldl (upd (okAt m alo blo bhi)) ⟨alo, blo, 0⟩ := by
    apply search_eq m hm alo blo bhi _ _ _ _ (Nat.le_refl _)
    intro j
    by_cases h : alo = 0
    · simp [h]
    · rw [if_neg h, lenAt_not]
      simp [okAt]; omega
  -- blocks are cells with a long run
  have okiff : ∀ i j, okAt m alo blo bhi i j = true ↔ alo ≤ i ∧ blo ≤ j ∧ j < bhi ∧
      ∃ x, m.a[i]? = some x ∧ m.b[j]? = some x ∧ keep x := by
    intro i j
    simp only [okAt, Bool.and_eq_true, decide_eq_true_eq, mem_b2j m hm]
    constructor
    · rintro ⟨⟨⟨h1, h2⟩, h3⟩, h4⟩; exact ⟨h1, h2, h3, h4⟩
    · rintro ⟨h1, h2, h3, h4⟩; exact ⟨⟨⟨h1, h2⟩, h3⟩, h4⟩
  have toCell : ∀ i j k, 0 < k → Block m.a m.b keep alo ahi blo bhi i j k →
      (i + k - 1, j + k - 1) ∈ pairsFrom m blo bhi (ahi - alo) alo ∧ k ≤ lenAt (okAt m alo blo bhi) (i + k - 1) (j + k - 1) := by
    intro i j k hk hb
    have h1 := hb.ilo; have h2 := hb.ihi; have h3 := hb.jlo; have h4 := hb.jhi
    have hc : ∀ t, t < k → okAt m alo blo bhi (i + k - 1 - t) (j + k - 1 - t) = true := by
      intro t ht
      rw [okiff]
      obtain ⟨x, hx⟩ := hb.common (k - 1 - t) (by omega)
      rw [show i + (k - 1 - t) = i + k - 1 - t by omega, show j + (k - 1 - t) = j + k - 1 - t by omega] at hx
      exact ⟨by omega, by omega, by omega, x, hx⟩
    constructor
    · rw [pairsFrom_mem]
      have := (okiff _ _).mp (hc 0 hk)
      rw [mem_b2j m hm]
      simp only [Nat.sub_zero] at this
      exact ⟨by simp only; omega, by simp only; omega, this.2.1, this.2.2.1, this.2.2.2⟩
    · exact (lenAt_run (okAt m alo blo bhi) _ _).2.2.2 k (by omega) (by omega) hc
  have ofCell : ∀ p ∈ pairsFrom m blo bhi (ahi - alo) alo, ∀ k, k = lenAt (okAt m alo blo bhi) p.1 p.2 → 0 < k →
      Block m.a m.b keep alo ahi blo bhi (p.1 + 1 - k) (p.2 + 1 - k) k := by
    intro p hp k hkk hk
    rw [pairsFrom_mem] at hp
    obtain ⟨h1, h2, h3, _⟩ := lenAt_run (okAt m alo blo bhi) p.1 p.2
    rw [← hkk] at h1 h2 h3
    have hlast := (okiff _ _).mp (h3 (k - 1) (by omega))
    refine ⟨?_, by omega, by omega, by omega, by omega⟩
    intro t ht
    have := (okiff _ _).mp (h3 (k - 1 - t) (by omega))
    obtain ⟨x, hx⟩ := this.2.2.2
    rw [show p.1 - (k - 1 - t) = p.1 + 1 - k + t by omega, show p.2 - (k - 1 - t) = p.2 + 1 - k + t by omega] at hx
    exact ⟨x, hx⟩
  rcases foldl_upd (okAt m alo blo bhi) ⟨alo, blo, 0⟩ rfl (pairsFrom m blo bhi (ahi - alo) alo) with
    ⟨h1, h2⟩ | ⟨pre, p, post, h0, hpos, h1, h2, h3⟩
  · rw [← hr] at h1
    rw [h1]
    refine ⟨⟨fun t ht => absurd ht (Nat.not_lt_zero t), Nat.le_refl _, hab, Nat.le_refl _, hbb⟩, fun _ => ⟨rfl, rfl⟩, ?_, ?_⟩
    · intro i j k hb
      rcases Nat.eq_zero_or_pos k with hk | hk
      · omega
      · obtain ⟨hm1, hm2⟩ := toCell i j k hk hb
        have := h2 _ hm1
        simp only at this
        omega
    · intro i j h; simp at h
  · rw [← hr] at h1
    have hpm : p ∈ pairsFrom m blo bhi (ahi - alo) alo := by rw [h0]; simp
    have hsz : r.Size = lenAt (okAt m alo blo bhi) p.1 p.2 := by rw [h1]
    have hA : r.A = p.1 + 1 - r.Size := by rw [h1]
    have hB : r.B = p.2 + 1 - r.Size := by rw [h1]
    rw [← hsz] at hpos h2 h3
    refine ⟨?_, by omega, ?_, ?_⟩
    · rw [hA, hB]; exact ofCell p hpm r.Size hsz hpos
    · intro i j k hb
      rcases Nat.eq_zero_or_pos k with hk | hk
      · omega
      · obtain ⟨hm1, hm2⟩ := toCell i j k hk hb
        rw [h0] at hm1
        simp only [List.mem_append, List.mem_cons] at hm1
        rcases hm1 with hx | rfl | hx
        · have := h2 _ hx; simp only at this; omega
        · simp only at hsz; omega
        · have := h3 _ hx; simp only at this; omega
    · intro i j hk hb
      obtain ⟨hm1, hm2⟩ := toCell i j _ hk hb
      have hpr := lenAt_run (okAt m alo blo bhi) p.1 p.2
      rw [← hsz] at hpr
      rw [h0] at hm1
      simp only [List.mem_append, List.mem_cons] at hm1
      rcases hm1 with hx | hx | hx
      · have := h2 _ hx; simp only at this; omega
      · subst hx; simp only at hA hB; omega
      · have hs := pairsFrom_sorted m hm blo bhi (ahi - alo) alo
        rw [h0, List.pairwise_append] at hs
        have := (List.pairwise_cons.mp hs.2.1).1 _ hx
        simp only [Before] at this
        omega

end Verif.Difflib
