import Verif.Dump.Dump

/-!
# C77: the table of a dump shows what memory holds
-/

namespace Verif.Dump

/-! ### Specification -/

/-- The words a value takes in memory. -/
inductive Words (env : Nat → Ty) : Ty → Nat → Prop
  | int : Words env .int 1
  | str : Words env .str 2
  | ptr (t : Ty) : Words env (.ptr t) 1
  | slice (t : Ty) : Words env (.slice t) 3
  | pair {a b : Ty} {m n : Nat} : Words env a m → Words env b n → Words env (.pair a b) (m + n)
  | named {n k : Nat} : Words env (env n) k → Words env (.named n) k

/-- A type without pointers; strings and slices are allowed. -/
inductive NoPtr (env : Nat → Ty) : Ty → Prop
  | int : NoPtr env .int
  | str : NoPtr env .str
  | slice {t : Ty} : NoPtr env t → NoPtr env (.slice t)
  | pair {a b : Ty} : NoPtr env a → NoPtr env b → NoPtr env (.pair a b)
  | named {n : Nat} : NoPtr env (env n) → NoPtr env (.named n)

/-- What the value of a type at an address looks like: numbers as they are, strings and slices by their headers, structs field by
field. -/
inductive Image (env : Nat → Ty) (mem : Addr → Nat) : Ty → Addr → Out → Prop
  | int (a : Addr) : Image env mem .int a (.num (mem a))
  | str (a : Addr) : Image env mem .str a (.strHeader (mem a) (mem (a + 1)))
  | slice (t : Ty) (a : Addr) : Image env mem (.slice t) a (.sliceHeader (mem a) (mem (a + 1)) (mem (a + 2)))
  | pair {x y : Ty} {a k : Nat} {u v : Out} : Image env mem x a u → Words env x k → Image env mem y (a + k) v →
      Image env mem (.pair x y) a (.both u v)
  | named {n : Nat} {a : Addr} {o : Out} : Image env mem (env n) a o → Image env mem (.named n) a o

/-- What `n` values of a type, one after the other from an address, look like. -/
inductive Images (env : Nat → Ty) (mem : Addr → Nat) (t : Ty) : Nat → Addr → Out → Prop
  | nil (a : Addr) : Images env mem t 0 a .nothing
  | cons {n a k : Nat} {x y : Out} : Image env mem t a x → Words env t k → Images env mem t n (a + k) y →
      Images env mem t (n + 1) a (.both x y)

/-- What stands in the table at `b` is what memory holds there, as far as a string or slice header found in memory at `p` says. -/
def Shown (env : Nat → Ty) (mem : Addr → Nat) (b : Addr) (o : Out) : Prop :=
  ∃ p, mem p = b ∧ ((∃ words : List Nat, o = .text words ∧ words.length = mem (p + 1) ∧ ∀ i w, words[i]? = some w → w = mem (b + i)) ∨
    ∃ t, NoPtr env t ∧ Images env mem t (mem (p + 1)) b o)

/-! ### Proofs -/

theorem likePtr_noPtr (env : Nat → Ty) (t : Ty) (h : NoPtr env t) : ∀ fuel, likePtr env fuel t = false := by
  induction h with
  | int => intro fuel; cases fuel <;> rfl
  | str => intro fuel; cases fuel <;> rfl
  | slice _ _ => intro fuel; cases fuel <;> rfl
  | pair _ _ _ _ => intro fuel; cases fuel <;> rfl
  | named _ ih => intro fuel; cases fuel with
    | zero => rfl
    | succ n => exact ih n

theorem words_size (env : Nat → Ty) (t : Ty) (h : NoPtr env t) : ∀ fuel e, fieldEncoderOf env fuel t = some e →
    ∀ k, fuel ≤ k → Words env t (size env k t) := by
  induction h with
  | int =>
    intro fuel e he k hk
    cases fuel with
    | zero => cases he
    | succ n => obtain ⟨k, rfl⟩ : ∃ m, k = m + 1 := ⟨k - 1, by omega⟩; exact .int
  | str =>
    intro fuel e he k hk
    cases fuel with
    | zero => cases he
    | succ n => obtain ⟨k, rfl⟩ : ∃ m, k = m + 1 := ⟨k - 1, by omega⟩; exact .str
  | slice _ _ =>
    intro fuel e he k hk
    cases fuel with
    | zero => cases he
    | succ n => obtain ⟨k, rfl⟩ : ∃ m, k = m + 1 := ⟨k - 1, by omega⟩; exact .slice _
  | pair _ _ iha ihb =>
    intro fuel e he k hk
    cases fuel with
    | zero => cases he
    | succ n =>
      simp only [fieldEncoderOf, Option.bind_eq_bind, Option.bind_eq_some_iff] at he
      obtain ⟨x, hx, y, hy, _⟩ := he
      obtain ⟨k, rfl⟩ : ∃ m, k = m + 1 := ⟨k - 1, by omega⟩
      exact .pair (iha n x hx k (by omega)) (ihb n y hy k (by omega))
  | named _ ih =>
    intro fuel e he k hk
    cases fuel with
    | zero => cases he
    | succ n =>
      obtain ⟨k, rfl⟩ : ∃ m, k = m + 1 := ⟨k - 1, by omega⟩
      exact .named (ih n e he k (by omega))

/-- What encoding a value guarantees here: memory stays as it is, the entries of the table have a property `P`, and what is returned shows the value. -/
def Faithful (env : Nat → Ty) (mem : Addr → Nat) (P : Addr → Out → Prop) (t : Ty) (enc : St → Addr → Option (St × Out)) : Prop :=
  ∀ s a s' o, s.mem = mem → (∀ b o, (b, o) ∈ s.table → P b o) → enc s a = some (s', o) →
    s'.mem = mem ∧ (∀ b o, (b, o) ∈ s'.table → P b o) ∧ Image env mem t a o

theorem put_shown (P : Addr → Out → Prop) (s : St) (a : Addr) (x : Out)
    (h : ∀ b o, (b, o) ∈ s.table → P b o) (hx : P a x) :
    ∀ b o, (b, o) ∈ (s.put a x).table → P b o := by
  intro b o ho
  simp only [St.put, List.mem_cons, List.mem_filter] at ho
  rcases ho with ho | ⟨ho, _⟩
  · injection ho with h1 h2
    subst h1 h2
    exact hx
  · exact h b o ho

theorem elems_faithful (env : Nat → Ty) (mem : Addr → Nat) (P : Addr → Out → Prop) (t : Ty) (enc : St → Addr → Option (St × Out)) (k : Nat)
    (hk : Words env t k) (hf : Faithful env mem P t enc) : ∀ (n : Nat) (s : St) (a : Addr) (s' : St) (o : Out), s.mem = mem →
    (∀ b o, (b, o) ∈ s.table → P b o) → encodeElems enc k n a s = some (s', o) →
    s'.mem = mem ∧ (∀ b o, (b, o) ∈ s'.table → P b o) ∧ Images env mem t n a o := by
  intro n
  induction n with
  | zero =>
    intro s a s' o hm ht h
    simp only [encodeElems, Option.some.injEq, Prod.mk.injEq] at h
    obtain ⟨rfl, rfl⟩ := h
    exact ⟨hm, ht, .nil a⟩
  | succ n ih =>
    intro s a s' o hm ht h
    simp only [encodeElems, Option.bind_eq_bind, Option.bind_eq_some_iff] at h
    obtain ⟨⟨s1, x⟩, h1, ⟨s2, y⟩, h2, h⟩ := h
    simp only [Option.some.injEq, Prod.mk.injEq] at h
    obtain ⟨rfl, rfl⟩ := h
    obtain ⟨m1, t1, i1⟩ := hf s a s1 x hm ht h1
    obtain ⟨m2, t2, i2⟩ := ih s1 (a + k) s2 y m1 t1 h2
    exact ⟨m2, t2, .cons i1 hk i2⟩

theorem read_eq {s : St} {a n : Nat} (h : read s a = some n) : n = s.mem a := by
  unfold read at h
  split at h
  · cases h
  · injection h with h; exact h.symm

theorem encode_faithful (env : Nat → Ty) (mem : Addr → Nat) (P : Addr → Out → Prop) (hP : ∀ b o, Shown env mem b o → P b o) (t : Ty)
    (h : NoPtr env t) : ∀ fuel e,
    fieldEncoderOf env fuel t = some e → Faithful env mem P t (encode e) := by
  induction h with
  | int =>
    intro fuel e he
    cases fuel with
    | zero => cases he
    | succ n =>
      cases he
      intro s a s' o hm ht h
      simp only [encode, Option.bind_eq_bind, Option.bind_eq_some_iff] at h
      obtain ⟨n, hn, h⟩ := h
      simp only [Option.some.injEq, Prod.mk.injEq] at h
      obtain ⟨rfl, rfl⟩ := h
      have e1 : n = mem a := by rw [read_eq hn, hm]
      rw [e1]
      exact ⟨hm, ht, .int a⟩
  | str =>
    intro fuel e he
    cases fuel with
    | zero => cases he
    | succ n =>
      cases he
      intro s a s' o hm ht h
      simp only [encode, Option.bind_eq_bind, Option.bind_eq_some_iff] at h
      obtain ⟨data, hdata, len, hlen, h⟩ := h
      simp only [Option.some.injEq, Prod.mk.injEq] at h
      obtain ⟨rfl, rfl⟩ := h
      have e1 : data = mem a := by rw [read_eq hdata, hm]
      have e2 : len = mem (a + 1) := by rw [read_eq hlen, hm]
      refine ⟨?_, ?_, ?_⟩
      · split <;> exact hm
      · split
        · refine put_shown P s data _ ht (hP _ _ ⟨a, e1.symm, .inl ⟨_, rfl, by simp [e2], ?_⟩⟩)
          intro i w hw
          rw [List.getElem?_map, Option.map_eq_some_iff] at hw
          obtain ⟨j, hj, rfl⟩ := hw
          obtain ⟨_, hj⟩ := List.getElem?_eq_some_iff.mp hj
          rw [List.getElem_range] at hj
          rw [hm, hj]
        · exact ht
      · rw [e1, e2]; exact .str a
  | @slice t ht' ih =>
    intro fuel e he
    cases fuel with
    | zero => cases he
    | succ n =>
      simp only [fieldEncoderOf, Option.map_eq_some_iff] at he
      obtain ⟨e', he', rfl⟩ := he
      cases n with
      | zero => cases he'
      | succ m =>
        simp only [encoderOf, Option.bind_eq_bind, Option.bind_eq_some_iff] at he'
        obtain ⟨e'', he'', h⟩ := he'
        rw [likePtr_noPtr env t ht' m] at h
        simp only [Bool.false_eq_true, if_false, Option.some.injEq] at h
        subst h
        have hw : Words env t (size env (m + 1) t) := words_size env t ht' m e'' he'' (m + 1) (by omega)
        intro s a s' o hm ht h
        simp only [encode, Option.bind_eq_bind, Option.bind_eq_some_iff] at h
        obtain ⟨data, hdata, len, hlen, cap, hcap, ⟨s1, x⟩, h1, h⟩ := h
        simp only [Option.some.injEq, Prod.mk.injEq] at h
        obtain ⟨rfl, rfl⟩ := h
        have e1 : data = mem a := by rw [read_eq hdata, hm]
        have e2 : len = mem (a + 1) := by rw [read_eq hlen, hm]
        have e3 : cap = mem (a + 2) := by rw [read_eq hcap, hm]
        obtain ⟨m1, t1, i1⟩ := elems_faithful env mem P t _ _ hw (ih m e'' he'') len s data s1 x hm ht h1
        refine ⟨?_, ?_, ?_⟩
        · split <;> exact m1
        · split
          · exact put_shown P s1 data _ t1 (hP _ _ ⟨a, e1.symm, .inr ⟨t, ht', e2 ▸ i1⟩⟩)
          · exact t1
        · rw [e1, e2, e3]; exact .slice t a
  | @pair x y hx hy ihx ihy =>
    intro fuel e he
    cases fuel with
    | zero => cases he
    | succ n =>
      simp only [fieldEncoderOf, Option.bind_eq_bind, Option.bind_eq_some_iff] at he
      obtain ⟨ex, hex, ey, hey, he⟩ := he
      injection he with he
      subst he
      intro s a s' o hm ht h
      simp only [encode, Option.bind_eq_bind, Option.bind_eq_some_iff] at h
      obtain ⟨⟨s1, u⟩, h1, ⟨s2, v⟩, h2, h⟩ := h
      simp only [Option.some.injEq, Prod.mk.injEq] at h
      obtain ⟨rfl, rfl⟩ := h
      obtain ⟨m1, t1, i1⟩ := ihx n ex hex s a s1 u hm ht h1
      obtain ⟨m2, t2, i2⟩ := ihy n ey hey s1 _ s2 v m1 t1 h2
      exact ⟨m2, t2, .pair i1 (words_size env x hx n ex hex n (Nat.le_refl n)) i2⟩
  | named hn ih =>
    intro fuel e he
    cases fuel with
    | zero => cases he
    | succ n =>
      intro s a s' o hm ht h
      obtain ⟨m1, t1, i1⟩ := ih n e he s a s' o hm ht h
      exact ⟨m1, t1, .named i1⟩

/-- C77 (partly): for a value of a type without pointers, whatever is in memory: the root refers to the value, the entry of the
value shows it as memory holds it, and every other entry shows the words of a string or the elements of a slice whose header is in
memory.  Missing: pointers, of which only completeness is proved (`complete_partial`) and for which it is false, see
`pointer_to_pointer`. -/
theorem shows_memory_partial (env : Nat → Ty) (fuel : Nat) (t : Ty) (data : Addr) (mem : Addr → Nat) (next : Addr) (root : Out)
    (table : List (Addr × Out)) (ht : NoPtr env t) (h : dump env fuel t data mem next = some (root, table)) :
    root = .ref data ∧ (∃ o, (data, o) ∈ table ∧ Image env mem t data o) ∧
    ∀ b o, (b, o) ∈ table → (b = data ∧ Image env mem t data o) ∨ Shown env mem b o := by
  simp only [dump, Option.map_eq_some_iff] at h
  obtain ⟨⟨s', o⟩, h, h'⟩ := h
  simp only [Prod.mk.injEq] at h'
  obtain ⟨rfl, rfl⟩ := h'
  simp only [encodeEface, Option.bind_eq_bind, Option.bind_eq_some_iff] at h
  obtain ⟨e, he, ⟨s1, x⟩, h1, h⟩ := h
  simp only [Option.some.injEq, Prod.mk.injEq] at h
  obtain ⟨rfl, rfl⟩ := h
  cases fuel with
  | zero => cases he
  | succ n =>
    simp only [encoderOf, Option.bind_eq_bind, Option.bind_eq_some_iff] at he
    obtain ⟨e', he', hx⟩ := he
    rw [likePtr_noPtr env t ht n] at hx
    simp only [Bool.false_eq_true, if_false, Option.some.injEq] at hx
    subst hx
    obtain ⟨_, t1, i1⟩ := encode_faithful env mem (Shown env mem) (fun _ _ h => h) t ht n e' he' ⟨mem, next, []⟩ data s1 x rfl (fun b o hb => by cases hb) h1
    refine ⟨rfl, ⟨x, by simp [St.put], i1⟩, ?_⟩
    intro b o ho
    simp only [St.put, List.mem_cons, List.mem_filter] at ho
    rcases ho with ho | ⟨ho, _⟩
    · injection ho with h1 h2
      subst h1 h2
      exact .inl ⟨rfl, i1⟩
    · exact .inr (t1 b o ho)

/-- The entry of a header has the length of that header, if no other header in memory has the same address. -/
theorem shown_length (env : Nat → Ty) (mem : Addr → Nat) (p b : Addr) (o : Out)
    (huniq : ∀ q, mem q = b → q = p) (h : Shown env mem b o) :
    (∃ words : List Nat, o = .text words ∧ words.length = mem (p + 1)) ∨ ∃ t, Images env mem t (mem (p + 1)) b o := by
  obtain ⟨q, hq, h⟩ := h
  rw [huniq q hq] at h
  rcases h with ⟨w, h1, h2, _⟩ | ⟨t, _, h⟩
  · exact .inl ⟨w, h1, h2⟩
  · exact .inr ⟨t, h⟩

/-- C77 fails for slices that share their start: a struct of `x[:3]` and `x[:1]` is dumped with one element only, since the entry
of the shorter slice replaces the other. -/
theorem shared_slices_lose_elements :
    dump (fun _ => .int) 9 (.pair (.slice .int) (.slice .int)) 10
      (fun a => if a = 10 then 50 else if a = 11 then 3 else if a = 12 then 3 else if a = 13 then 50 else if a = 14 then 1
        else if a = 15 then 3 else a) 100 =
    some (.ref 10, [(10, .both (.sliceHeader 50 3 3) (.sliceHeader 50 1 3)), (50, .both (.num 50) .nothing)]) := rfl

/-- A slice of structs of a number and a string, meeting the hypotheses. -/
example : NoPtr (fun _ => .int) (.slice (.pair .int .str)) ∧
    dump (fun _ => .int) 9 (.slice (.pair .int .str)) 10
      (fun a => if a = 10 then 20 else if a = 11 then 2 else if a = 12 then 2 else if a = 20 then 7 else if a = 21 then 60
        else if a = 22 then 2 else if a = 23 then 8 else if a = 24 then 70 else if a = 25 then 1 else a) 100 =
    some (.ref 10, [(10, .sliceHeader 20 2 2),
      (20, .both (.both (.num 7) (.strHeader 60 2)) (.both (.both (.num 8) (.strHeader 70 1)) .nothing)),
      (70, .text [70]), (60, .text [60, 61])]) :=
  ⟨.slice (.pair .int .str), rfl⟩

/-! ### Cases -/

/-- A pointer to a struct of an integer and a string, which is complete by `complete_partial`. -/
example : dump (fun _ => .int) 9 (.ptr (.pair .int .str)) 10
    (fun a => if a = 10 then 7 else if a = 11 then 20 else if a = 12 then 2 else a) 100 =
    some (.ref 10, [(10, .ref 100), (100, .both (.num 7) (.strHeader 20 2)), (20, .text [20, 21])]) := rfl

end Verif.Dump
