import Verif.Test.JsonKeys

/-!
# C124: several placeholders as keys and as values

The model is that of JsonKeys.lean (test/must/json.go 53-152).
-/

namespace Verif.JsonEqual

/-! ### Specification -/

/-- A text in braces. -/
def Braced (x : Bytes) : Prop := ∃ w, x = 123 :: w ++ [125]

/-- The document `a` is the template `m` with every placeholder read as `ρ` says, those that are keys as strings. -/
structure ReadAs (ρ : Bytes → Doc) (m a : Members) : Prop where
  strings : ∀ x, Braced x → (m.get x).isSome → ∃ foo, ρ x = .str foo
  keys : ∀ k, (a.get k).isSome ↔ (∃ x, Braced x ∧ (m.get x).isSome ∧ ρ x = .str k) ∨ ¬ Braced k ∧ (m.get k).isSome
  named : ∀ x d foo v, Braced x → m.get x = some d → ρ x = .str foo → a.get foo = some v → Same d v
  bound : ∀ n d x v, m.get n = some d → IsName d x → a.get n = some v → Same (ρ x) v
  rest : ∀ k d v, ¬ Braced k → m.get k = some d → (¬ ∃ x, IsName d x) → a.get k = some v → Same d v

/-- A template whose placeholders are all keys or members of the outermost object, each key being the value of a member too. -/
structure Placeholders (m : Members) : Prop where
  wf : m.WF
  keyPlain : ∀ x d, Braced x → m.get x = some d → d.Plain ∧ d.Literal ∧ ¬ IsAny d ∧ ¬ ∃ s, IsName d s
  keyBound : ∀ x, Braced x → (m.get x).isSome → ∃ n d, m.get n = some d ∧ IsName d x
  rest : ∀ k d, ¬ Braced k → m.get k = some d → (¬ ∃ s, IsName d s) → d.Plain ∧ d.Literal ∧ ¬ IsAny d

/-- The names that the placeholders among the keys are bound to are not keys of the template and differ, and the document has no
placeholder of the template as a key. -/
structure Apart (m a : Members) : Prop where
  noKey : ∀ x, Braced x → (m.get x).isSome → a.get x = none
  fresh : ∀ n x foo, m.get n = some (.str x) → Braced x → (m.get x).isSome → a.get n = some (.str foo) → m.get foo = none
  inj : ∀ n x n' x' foo, m.get n = some (.str x) → Braced x → (m.get x).isSome → a.get n = some (.str foo) →
    m.get n' = some (.str x') → Braced x' → (m.get x').isSome → a.get n' = some (.str foo) → x = x'

/-! ### Proofs -/

theorem holds_unique (h : Heap) (v : V) (d d' : Doc) (h1 : Holds h v d) (h2 : Holds h v d') : d = d' := by
  obtain ⟨N, hN⟩ := read_holds h d v h1
  obtain ⟨M, hM⟩ := read_holds h d' v h2
  have := hN (N + M) (by omega)
  rw [hM (N + M) (by omega)] at this
  exact (Option.some.inj this).symm

mutual
theorem read_uniform : ∀ (d : Doc), ∃ N, ∀ (h : Heap) (v : V), Holds h v d → ∀ n ≥ N, readV n h v = some d
  | .null => ⟨1, fun h v hv n hn => by obtain ⟨n, rfl⟩ : ∃ k, n = k + 1 := ⟨n - 1, by omega⟩; rw [show v = .null from hv]; rfl⟩
  | .bool b => ⟨1, fun h v hv n hn => by obtain ⟨n, rfl⟩ : ∃ k, n = k + 1 := ⟨n - 1, by omega⟩; rw [show v = .bool b from hv]; rfl⟩
  | .num b => ⟨1, fun h v hv n hn => by obtain ⟨n, rfl⟩ : ∃ k, n = k + 1 := ⟨n - 1, by omega⟩; rw [show v = .num b from hv]; rfl⟩
  | .str b => ⟨1, fun h v hv n hn => by obtain ⟨n, rfl⟩ : ∃ k, n = k + 1 := ⟨n - 1, by omega⟩; rw [show v = .str b from hv]; rfl⟩
  | .arr l => by
    obtain ⟨N, hN⟩ := readL_uniform l
    refine ⟨N + 1, fun h v ⟨vs, hv, hl⟩ n hn => ?_⟩
    obtain ⟨n, rfl⟩ : ∃ k, n = k + 1 := ⟨n - 1, by omega⟩
    subst hv
    simp only [readV, hN h vs hl n (by omega), Option.map_some]
  | .obj m => by
    obtain ⟨N, hN⟩ := readM_uniform m
    refine ⟨N + 1, fun h v ⟨a, kvs, hv, ha, hm⟩ n hn => ?_⟩
    obtain ⟨n, rfl⟩ : ∃ k, n = k + 1 := ⟨n - 1, by omega⟩
    subst hv
    have : h.getD a [] = kvs := by rw [List.getD_eq_getElem?_getD, ha]; rfl
    simp only [readV, this, hN h kvs hm n (by omega), Option.map_some]
theorem readL_uniform : ∀ (l : Items), ∃ N, ∀ (h : Heap) (vs : List V), HoldsL h vs l → ∀ n ≥ N, readL n h vs = some l
  | .nil => ⟨1, fun h vs hv n hn => by obtain ⟨n, rfl⟩ : ∃ k, n = k + 1 := ⟨n - 1, by omega⟩; rw [show vs = [] from hv]; rfl⟩
  | .cons d r => by
    obtain ⟨N, hN⟩ := read_uniform d
    obtain ⟨M, hM⟩ := readL_uniform r
    refine ⟨N + M + 1, fun h vs ⟨v, vs', hv, hd, hr⟩ n hn => ?_⟩
    obtain ⟨n, rfl⟩ : ∃ k, n = k + 1 := ⟨n - 1, by omega⟩
    subst hv
    simp only [readL, hN h v hd n (by omega), hM h vs' hr n (by omega)]
theorem readM_uniform : ∀ (m : Members), ∃ N, ∀ (h : Heap) (kvs : List (Bytes × V)), HoldsM h kvs m → ∀ n ≥ N, readM n h kvs = some m
  | .nil => ⟨1, fun h vs hv n hn => by obtain ⟨n, rfl⟩ : ∃ k, n = k + 1 := ⟨n - 1, by omega⟩; rw [show vs = [] from hv]; rfl⟩
  | .cons k d r => by
    obtain ⟨N, hN⟩ := read_uniform d
    obtain ⟨M, hM⟩ := readM_uniform r
    refine ⟨N + M + 1, fun h vs ⟨v, vs', hv, hd, hr⟩ n hn => ?_⟩
    obtain ⟨n, rfl⟩ : ∃ k, n = k + 1 := ⟨n - 1, by omega⟩
    subst hv
    simp only [readM, hN h v hd n (by omega), hM h vs' hr n (by omega)]
end

/-- One fuel for all members. -/
theorem read_members (h : Heap) (x : Members) (X : List (Bytes × V)) (hx : HoldsM h X x) :
    ∃ N, ∀ n d w, x.get n = some d → X.lookup n = some w → ∀ j ≥ N, ∀ Y, readV j (h ++ Y) w = some d := by
  have key : ∀ ks : List Bytes, ∃ N, ∀ n ∈ ks, ∀ d w, x.get n = some d → X.lookup n = some w → ∀ j ≥ N, ∀ Y, readV j (h ++ Y) w = some d := by
    intro ks
    induction ks with
    | nil => exact ⟨0, by simp⟩
    | cons k ks ih =>
      obtain ⟨N, hN⟩ := ih
      rcases holdsM_get h k x X hx with ⟨_, g⟩ | ⟨v, d, g1, g2, g3⟩
      · refine ⟨N, fun n hn d w hd hw j hj => ?_⟩
        rcases List.mem_cons.mp hn with he | hn
        · rw [he, g] at hd; cases hd
        · exact hN n hn d w hd hw j hj
      · obtain ⟨M, hM⟩ := read_uniform d
        refine ⟨N + M, fun n hn d' w hd hw j hj Y => ?_⟩
        rcases List.mem_cons.mp hn with he | hn
        · rw [he] at hd hw
          rw [g2] at hd
          rw [g1] at hw
          cases hd
          cases hw
          exact hM _ v (holds_mono h Y d v g3) j (by omega)
        · exact hN n hn d' w hd hw j (by omega) Y
  obtain ⟨N, hN⟩ := key x.keys
  exact ⟨N, fun n d w hd => hN n ((mem_keys x n).mpr (by rw [hd]; rfl)) d w hd⟩

/-- The parts of a comparison. -/
structure World (m a : Members) (base : Heap) (E A : List (Bytes × V)) (aA N : Nat) : Prop where
  tmpl : Placeholders m
  wfA : a.WF
  apart : Apart m a
  holdsE : HoldsM base E m
  nodupE : (E.map Prod.fst).Nodup
  atA : base[aA]? = some A
  holdsA : HoldsM base A a
  bound : ∀ k d, (¬ ∃ s, IsName d s) → m.get k = some d → ∀ j ≥ N, ∀ (s : Store) (v w : V), Holds s.heap v d →
    Calm s (substK j s v w) (∃ d', Holds s.heap w d' ∧ Same d d')
  read : ∀ n d w, a.get n = some d → A.lookup n = some w → ∀ j ≥ N, ∀ X, readV j (base ++ X) w = some d
  readE : ∀ n d w, m.get n = some d → E.lookup n = some w → ∀ j ≥ N, ∀ X, readV j (base ++ X) w = some d

/-- How far the loop has come, by the keys left. -/
structure Inv (m : Members) (base : Heap) (E A : List (Bytes × V)) (aA : Nat) (ks : List Bytes) (E' : List (Bytes × V))
    (vars : List (Bytes × Variable)) : Prop where
  nodup : (E'.map Prod.fst).Nodup
  len : E'.length + 2 * ks.length ≤ E.length + 2 * m.keys.length
  moved : ∀ x foo, Braced x → (m.get x).isSome → x ∉ ks → vars.lookup x = some ⟨.str foo, []⟩ →
    E'.lookup x = none ∧ E'.lookup foo = E.lookup x
  kept : ∀ k d, m.get k = some d → ¬ Braced k → (k ∈ ks ∨ (¬ ∃ x, IsName d x) ∨ A.lookup k = none) → E'.lookup k = E.lookup k
  taken : ∀ k d x, m.get k = some d → ¬ Braced k → k ∉ ks → IsName d x → (A.lookup k).isSome → E'.lookup k = A.lookup k
  waiting : ∀ x, Braced x → (m.get x).isSome → (x ∈ ks ∨ ∀ v, vars.lookup x ≠ some ⟨v, []⟩) → E'.lookup x = E.lookup x
  new : ∀ k, m.get k = none → (E'.lookup k).isSome → ∃ x, Braced x ∧ (m.get x).isSome ∧ x ∉ ks ∧ vars.lookup x = some ⟨.str k, []⟩
  source : ∀ x v, vars.lookup x = some ⟨v, []⟩ → ∃ n d, n ∉ ks ∧ m.get n = some d ∧ IsName d x ∧ A.lookup n = some v
  agreed : ∀ n d x w, n ∉ ks → m.get n = some d → IsName d x → A.lookup n = some w →
    ∃ v, vars.lookup x = some ⟨v, []⟩ ∧ ∀ d1 d2, Holds base v d1 → Holds base w d2 → Same d1 d2
  pending : ∀ x v c cs, vars.lookup x = some ⟨v, c :: cs⟩ → Braced x ∧ (m.get x).isSome ∧ x ∉ ks ∧ c :: cs = [⟨x, base.length, aA⟩]
  seen : ∀ x, Braced x → (m.get x).isSome → x ∉ ks →
    (∃ foo, vars.lookup x = some ⟨.str foo, []⟩) ∨ ∃ v, vars.lookup x = some ⟨v, [⟨x, base.length, aA⟩]⟩

section
variable {m a : Members} {base : Heap} {E A : List (Bytes × V)} {aA N : Nat}

theorem braced_iff (x : Bytes) : Braced x ↔ isVar x = true := (isVar_iff x).symm

theorem name_str {d : Doc} {x : Bytes} (h : IsName d x) : d = .str x := h.1

theorem name_unique {d : Doc} {x y : Bytes} (h : IsName d x) (h' : IsName d y) : x = y := by
  have := h.1.symm.trans h'.1
  injection this

theorem World.getA (W : World m a base E A aA N) (k : Bytes) :
    (A.lookup k = none ∧ a.get k = none) ∨ ∃ v d, A.lookup k = some v ∧ a.get k = some d ∧ Holds base v d := holdsM_get base k a A W.holdsA

theorem World.getE (W : World m a base E A aA N) (k : Bytes) (d : Doc) (h : m.get k = some d) :
    ∃ v, E.lookup k = some v ∧ Holds base v d := by
  rcases holdsM_get base k m E W.holdsE with ⟨_, h2⟩ | ⟨v, d', h1, h2, h3⟩
  · rw [h] at h2; cases h2
  · rw [h] at h2; cases h2; exact ⟨v, h1, h3⟩

theorem World.ofA (W : World m a base E A aA N) (k : Bytes) (v : V) (h : A.lookup k = some v) :
    ∃ d, a.get k = some d ∧ Holds base v d := by
  rcases W.getA k with ⟨h1, _⟩ | ⟨v', d, h1, h2, h3⟩
  · rw [h] at h1; cases h1
  · rw [h] at h1; cases h1; exact ⟨d, h2, h3⟩

theorem World.toA (W : World m a base E A aA N) (k : Bytes) (d : Doc) (h : a.get k = some d) :
    ∃ v, A.lookup k = some v ∧ Holds base v d := by
  rcases W.getA k with ⟨_, h1⟩ | ⟨v', d', h1, h2, h3⟩
  · rw [h] at h1; cases h1
  · rw [h] at h2; cases h2; exact ⟨v', h1, h3⟩

/-- A name is not the value of a placeholder among the keys. -/
theorem World.nameKey (W : World m a base E A aA N) {n : Bytes} {d : Doc} {x : Bytes} (h : m.get n = some d) (hn : IsName d x) : ¬ Braced n :=
  fun hb => (W.tmpl.keyPlain n d hb h).2.2.2 ⟨x, hn⟩

/-- What a placeholder among the keys is bound to is new. -/
theorem Inv.foo (W : World m a base E A aA N) {ks : List Bytes} {E' : List (Bytes × V)} {vars : List (Bytes × Variable)}
    (I : Inv m base E A aA ks E' vars) {x foo : Bytes} (hb : Braced x) (hx : (m.get x).isSome) (hv : vars.lookup x = some ⟨.str foo, []⟩) :
    m.get foo = none := by
  obtain ⟨n, d, _, h2, h3, h4⟩ := I.source x _ hv
  obtain ⟨u, h5, h6⟩ := W.ofA n _ h4
  have : u = .str foo := holds_unique base _ _ _ h6 rfl
  rw [this] at h5
  rw [h3.1] at h2
  exact W.apart.fresh n x foo h2 hb hx h5

theorem World.fooOf (W : World m a base E A aA N) {n d x foo} (hb : Braced x) (hx : (m.get x).isSome) (hd : m.get n = some d) (hn : IsName d x)
    (hv : A.lookup n = some (.str foo)) : m.get foo = none := by
  obtain ⟨u, h5, h6⟩ := W.ofA n _ hv
  have : u = .str foo := holds_unique base _ _ _ h6 rfl
  rw [this] at h5
  rw [hn.1] at hd
  exact W.apart.fresh n x foo hd hb hx h5

theorem World.fooInj (W : World m a base E A aA N) {n d x n' d' x' foo} (hb : Braced x) (hx : (m.get x).isSome) (hd : m.get n = some d)
    (hn : IsName d x) (hv : A.lookup n = some (.str foo)) (hb' : Braced x') (hx' : (m.get x').isSome) (hd' : m.get n' = some d')
    (hn' : IsName d' x') (hv' : A.lookup n' = some (.str foo)) : x = x' := by
  obtain ⟨u, h5, h6⟩ := W.ofA n _ hv
  have : u = .str foo := holds_unique base _ _ _ h6 rfl
  rw [this] at h5
  obtain ⟨u', h5', h6'⟩ := W.ofA n' _ hv'
  have : u' = .str foo := holds_unique base _ _ _ h6' rfl
  rw [this] at h5'
  rw [hn.1] at hd
  rw [hn'.1] at hd'
  exact W.apart.inj n x n' x' foo hd hb hx h5 hd' hb' hx' h5'

theorem length_assocDel (l : List (Bytes × V)) (k : Bytes) : (assocDel l k).length ≤ l.length := List.length_filter_le _ _

theorem length_assocSet (l : List (Bytes × V)) (k : Bytes) (v : V) : (assocSet l k v).length ≤ l.length + 1 := by
  induction l with
  | nil => simp [assocSet]
  | cons p l ih =>
    obtain ⟨x, u⟩ := p
    simp only [assocSet]
    split
    · simp
    · simp only [List.length_cons]; omega

theorem nodup_assocDel (l : List (Bytes × V)) (k : Bytes) (h : (l.map Prod.fst).Nodup) : ((assocDel l k).map Prod.fst).Nodup :=
  h.sublist ((List.filter_sublist).map _)

theorem mem_assocSet (l : List (Bytes × V)) (k j : Bytes) (v : V) (h : j ∈ (assocSet l k v).map Prod.fst) : j = k ∨ j ∈ l.map Prod.fst := by
  induction l with
  | nil => simpa [assocSet] using h
  | cons p l ih =>
    obtain ⟨x, u⟩ := p
    simp only [assocSet] at h
    by_cases hk : k = x
    · rw [if_pos hk] at h
      simp only [List.map_cons, List.mem_cons] at h ⊢
      rcases h with h | h
      · exact Or.inl h
      · exact Or.inr (Or.inr h)
    · rw [if_neg hk] at h
      simp only [List.map_cons, List.mem_cons] at h ⊢
      rcases h with h | h
      · exact Or.inr (Or.inl h)
      · rcases ih h with h | h
        · exact Or.inl h
        · exact Or.inr (Or.inr h)

theorem nodup_assocSet (l : List (Bytes × V)) (k : Bytes) (v : V) (h : (l.map Prod.fst).Nodup) : ((assocSet l k v).map Prod.fst).Nodup := by
  induction l with
  | nil => simp [assocSet]
  | cons p l ih =>
    obtain ⟨x, u⟩ := p
    simp only [List.map_cons, List.nodup_cons] at h
    simp only [assocSet]
    by_cases hk : k = x
    · rw [if_pos hk]
      simp only [List.map_cons, List.nodup_cons]
      rw [hk]
      exact h
    · rw [if_neg hk]
      simp only [List.map_cons, List.nodup_cons]
      refine ⟨fun hx => ?_, ih h.2⟩
      rcases mem_assocSet l k x v hx with hx | hx
      · exact hk hx.symm
      · exact h.1 hx

/-- The function that waits for a placeholder. -/
theorem run_sub' (W : World m a base E A aA N) (E1 : List (Bytes × V)) (vars : List (Bytes × Variable)) (x foo : Bytes) (D : Doc) (vD : V)
    (hb : Braced x) (hD : m.get x = some D) (hl : E.lookup x = some vD) (hE1 : E1.lookup x = some vD) (j : Nat) (hj : N + 1 ≤ j) :
    (runSub j (top base E1 vars) ⟨x, base.length, aA⟩ (.str foo) = .panic ∧ ¬ ∃ u, a.get foo = some u ∧ Same D u) ∨
      runSub j (top base E1 vars) ⟨x, base.length, aA⟩ (.str foo) = .ok (top base (assocSet (assocDel E1 x) foo vD) vars) := by
  obtain ⟨j, rfl⟩ : ∃ k, j = k + 1 := ⟨j - 1, by omega⟩
  have hgx : (top base E1 vars).get base.length x = some vD := by rw [top_get, hE1]
  have hh : Holds base vD D := by
    obtain ⟨v, h1, h2⟩ := W.getE x D hD
    rw [hl] at h1; cases h1; exact h2
  simp only [runSub, hgx, top_get_other base _ A vars aA W.atA]
  rcases W.getA foo with ⟨h1, h2⟩ | ⟨v, d, h1, h2, h3⟩
  · rw [h1]
    refine Or.inl ⟨rfl, ?_⟩
    rintro ⟨v, hv, _⟩
    rw [h2] at hv
    cases hv
  · rw [h1]
    simp only
    have hc := W.bound x D (W.tmpl.keyPlain x D hb hD).2.2.2 hD j (by omega) (top base E1 vars) vD v (holds_mono base _ D vD hh)
    have hfin : ∀ r : Run Store, r = .ok (top base E1 vars) →
        (r.bind fun s => .ok ((s.del base.length x).set base.length foo vD)) = .ok (top base (assocSet (assocDel E1 x) foo vD) vars) := by
      intro r hr
      rw [hr]
      simp only [Run.bind, top_del, top_set]
    by_cases hs : Same D d
    · exact Or.inr (hfin _ (hc.2 ⟨d, holds_mono base _ d v h3, hs⟩))
    · rcases hc.1 with hc | hc
      · exact Or.inr (hfin _ hc)
      · rw [hc]
        refine Or.inl ⟨rfl, ?_⟩
        rintro ⟨u, hu, hsu⟩
        rw [h2] at hu
        cases hu
        exact hs hsu

theorem run_sub_other (c : Sub) (s : Store) (v : V) (j : Nat) (hv : ∀ foo, v ≠ .str foo) : runSub (j + 1) s c v = .panic := by
  cases v with
  | str w => exact absurd rfl (hv w)
  | _ => simp only [runSub]

/-- A turn that changes nothing. -/
theorem inv_skip {k : Bytes} {ks : List Bytes} {E' : List (Bytes × V)} {vars : List (Bytes × Variable)}
    (I : Inv m base E A aA (k :: ks) E' vars) (d : Doc) (hd : m.get k = some d) (hk : ¬ Braced k)
    (hn : (¬ ∃ x, IsName d x) ∨ A.lookup k = none) : Inv m base E A aA ks E' vars := by
  have hne : ∀ y, y ≠ k → y ∉ ks → y ∉ k :: ks := by simp_all
  have hbr : ∀ y, Braced y → y ≠ k := fun y hy he => hk (he ▸ hy)
  refine { nodup := I.nodup, len := by have := I.len; simp only [List.length_cons] at this; omega, moved := ?_, kept := ?_, taken := ?_, waiting := ?_, new := ?_, source := ?_, agreed := ?_, pending := ?_, seen := ?_ }
  · intro x foo h1 h2 h3 h4
    exact I.moved x foo h1 h2 (hne x (hbr x h1) h3) h4
  · intro y d' h1 h2 h3
    by_cases hy : y = k
    · subst hy
      exact I.kept y d' h1 h2 (Or.inl (by simp))
    · exact I.kept y d' h1 h2 (h3.imp_left (by intro h; simp [h]))
  · intro y d' x h1 h2 h3 h4 h5
    by_cases hy : y = k
    · subst hy
      rw [hd] at h1; cases h1
      rcases hn with hn | hn
      · exact absurd ⟨x, h4⟩ hn
      · rw [hn] at h5; cases h5
    · exact I.taken y d' x h1 h2 (hne y hy h3) h4 h5
  · intro x h1 h2 h3
    exact I.waiting x h1 h2 (h3.imp_left (by intro h; simp [h]))
  · intro y h1 h2
    obtain ⟨x, h3, h4, h5, h6⟩ := I.new y h1 h2
    exact ⟨x, h3, h4, by simp_all, h6⟩
  · intro x v h
    obtain ⟨n, d', h3, h4⟩ := I.source x v h
    exact ⟨n, d', by simp_all, h4⟩
  · intro n d' x w h1 h2 h3 h4
    by_cases hy : n = k
    · subst hy
      rw [hd] at h2; cases h2
      rcases hn with hn | hn
      · exact absurd ⟨x, h3⟩ hn
      · rw [hn] at h4; cases h4
    · exact I.agreed n d' x w (hne n hy h1) h2 h3 h4
  · intro x v c cs h
    obtain ⟨h1, h2, h3, h4⟩ := I.pending x v c cs h
    exact ⟨h1, h2, by simp_all, h4⟩
  · intro x h1 h2 h3
    exact I.seen x h1 h2 (hne x (hbr x h1) h3)

theorem lookup_vars_ne (vars : List (Bytes × Variable)) (x y : Bytes) (v : Variable) (h : y ≠ x) :
    List.lookup y ((x, v) :: vars) = vars.lookup y := by
  rw [List.lookup_cons, show (y == x) = false from by simpa using h]

theorem lookup_vars_self (vars : List (Bytes × Variable)) (x : Bytes) (v : Variable) : List.lookup x ((x, v) :: vars) = some v := by
  simp

/-- A placeholder as a key that is not bound yet. -/
theorem inv_wait (W : World m a base E A aA N) {k : Bytes} {ks : List Bytes} {E' : List (Bytes × V)} {vars : List (Bytes × Variable)}
    (I : Inv m base E A aA (k :: ks) E' vars) (hk : Braced k) (hm : (m.get k).isSome) (hl : vars.lookup k = none) (hnd : k ∉ ks) :
    Inv m base E A aA ks E' ((k, ⟨.null, [⟨k, base.length, aA⟩]⟩) :: vars) := by
  have hne : ∀ y, y ≠ k → y ∉ ks → y ∉ k :: ks := by simp_all
  have hname : ∀ n d x, m.get n = some d → IsName d x → n ≠ k := fun n d x h1 h2 he => W.nameKey h1 h2 (he ▸ hk)
  have hlk : ∀ (x : Bytes) (v : V), List.lookup x ((k, (⟨.null, [⟨k, base.length, aA⟩]⟩ : Variable)) :: vars) = some ⟨v, []⟩ →
      x ≠ k ∧ vars.lookup x = some ⟨v, []⟩ := by
    intro x v h
    by_cases hx : x = k
    · subst hx
      rw [lookup_vars_self] at h
      cases h
    · rw [lookup_vars_ne _ _ _ _ hx] at h
      exact ⟨hx, h⟩
  have hlk' : ∀ (x : Bytes) (v : V), vars.lookup x = some ⟨v, []⟩ →
      List.lookup x ((k, (⟨.null, [⟨k, base.length, aA⟩]⟩ : Variable)) :: vars) = some ⟨v, []⟩ := by
    intro x v h
    rw [lookup_vars_ne, h]
    intro hx
    rw [hx, hl] at h
    cases h
  refine { nodup := I.nodup, len := by have := I.len; simp only [List.length_cons] at this; omega, moved := ?_, kept := ?_, taken := ?_, waiting := ?_, new := ?_, source := ?_, agreed := ?_, pending := ?_, seen := ?_ }
  · intro x foo h1 h2 h3 h4
    obtain ⟨h5, h6⟩ := hlk x _ h4
    exact I.moved x foo h1 h2 (hne x h5 h3) h6
  · intro y d' h1 h2 h3
    exact I.kept y d' h1 h2 (h3.imp_left (by intro h; simp [h]))
  · intro y d' x h1 h2 h3 h4 h5
    exact I.taken y d' x h1 h2 (hne y (hname y d' x h1 h4) h3) h4 h5
  · intro x h1 h2 h3
    by_cases hx : x = k
    · exact I.waiting x h1 h2 (Or.inl (by simp [hx]))
    · refine I.waiting x h1 h2 (h3.imp (by intro h; simp [h]) ?_)
      intro h v hv
      exact h v (hlk' x v hv)
  · intro y h1 h2
    obtain ⟨x, h3, h4, h5, h6⟩ := I.new y h1 h2
    exact ⟨x, h3, h4, by simp_all, hlk' x _ h6⟩
  · intro x v h
    obtain ⟨h5, h6⟩ := hlk x _ h
    obtain ⟨n, d', h3, h4⟩ := I.source x v h6
    exact ⟨n, d', by simp_all, h4⟩
  · intro n d' x w h1 h2 h3 h4
    obtain ⟨v, h5, h6⟩ := I.agreed n d' x w (hne n (hname n d' x h2 h3) h1) h2 h3 h4
    exact ⟨v, hlk' x v h5, h6⟩
  · intro x v c cs h
    by_cases hx : x = k
    · subst hx
      rw [lookup_vars_self] at h
      cases h
      exact ⟨hk, hm, hnd, rfl⟩
    · rw [lookup_vars_ne _ _ _ _ hx] at h
      obtain ⟨h1, h2, h3, h4⟩ := I.pending x v c cs h
      exact ⟨h1, h2, by simp_all, h4⟩
  · intro x h1 h2 h3
    by_cases hx : x = k
    · subst hx
      exact Or.inr ⟨.null, lookup_vars_self _ _ _⟩
    · rw [lookup_vars_ne _ _ _ _ hx]
      exact I.seen x h1 h2 (hne x hx h3)

/-- A placeholder as a key that is bound. -/
theorem inv_rename (W : World m a base E A aA N) {k : Bytes} {ks : List Bytes} {E' : List (Bytes × V)} {vars : List (Bytes × Variable)}
    (I : Inv m base E A aA (k :: ks) E' vars) (hk : Braced k) (hm : (m.get k).isSome) (foo : Bytes) (vD : V)
    (hl : vars.lookup k = some ⟨.str foo, []⟩) (hE : E.lookup k = some vD) (hnd : k ∉ ks) :
    Inv m base E A aA ks (assocSet (assocDel E' k) foo vD) vars := by
  have hne : ∀ y, y ≠ k → y ∉ ks → y ∉ k :: ks := by simp_all
  have hname : ∀ n d x, m.get n = some d → IsName d x → n ≠ k := fun n d x h1 h2 he => W.nameKey h1 h2 (he ▸ hk)
  have hfoo := I.foo W hk hm hl
  have hmf : ∀ y, (m.get y).isSome → y ≠ foo := fun y hy he => by rw [he, hfoo] at hy; cases hy
  have hbr : ∀ y, ¬ Braced y → y ≠ k := fun y hy he => hy (he ▸ hk)
  have hlook : ∀ y, (assocSet (assocDel E' k) foo vD).lookup y = if y = foo then some vD else if y = k then none else E'.lookup y := by
    intro y; rw [lookup_set, lookup_del]
  refine { nodup := nodup_assocSet _ _ _ (nodup_assocDel _ _ I.nodup), len := ?_, moved := ?_, kept := ?_, taken := ?_, waiting := ?_, new := ?_,
           source := ?_, agreed := ?_, pending := ?_, seen := ?_ }
  · have := I.len
    have g1 := length_assocSet (assocDel E' k) foo vD
    have g2 := length_assocDel E' k
    simp only [List.length_cons] at this
    omega
  · intro x foo' h1 h2 h3 h4
    by_cases hx : x = k
    · subst hx
      rw [hl] at h4
      cases h4
      rw [hlook, if_neg (hmf _ hm), if_pos rfl, hlook, if_pos rfl, hE]
      exact ⟨rfl, rfl⟩
    · obtain ⟨h5, h6⟩ := I.moved x foo' h1 h2 (hne x hx h3) h4
      have hff : foo' ≠ foo := by
        intro he
        subst he
        obtain ⟨n, d, _, g2, g3, g4⟩ := I.source x _ h4
        obtain ⟨n', d', _, g2', g3', g4'⟩ := I.source k _ hl
        exact hx (W.fooInj h1 h2 g2 g3 g4 hk hm g2' g3' g4')
      have hfk : foo' ≠ k := by
        intro he
        have := I.foo W h1 h2 h4
        rw [he] at this
        rw [this] at hm
        cases hm
      rw [hlook, if_neg (hmf _ h2), if_neg hx, hlook, if_neg hff, if_neg hfk]
      exact ⟨h5, h6⟩
  · intro y d' h1 h2 h3
    rw [hlook, if_neg (hmf y (by rw [h1]; rfl)), if_neg (hbr y h2)]
    exact I.kept y d' h1 h2 (h3.imp_left (by intro h; simp [h]))
  · intro y d' x h1 h2 h3 h4 h5
    rw [hlook, if_neg (hmf y (by rw [h1]; rfl)), if_neg (hbr y h2)]
    exact I.taken y d' x h1 h2 (hne y (hname y d' x h1 h4) h3) h4 h5
  · intro x h1 h2 h3
    by_cases hx : x = k
    · subst hx
      rcases h3 with h3 | h3
      · rw [hlook, if_neg (hmf _ hm), if_pos rfl]
        exact absurd h3 hnd
      · exact absurd hl (h3 _)
    · rw [hlook, if_neg (hmf _ h2), if_neg hx]
      exact I.waiting x h1 h2 (h3.imp_left (by intro h; simp [h]))
  · intro y h1 h2
    rw [hlook] at h2
    by_cases hy : y = foo
    · subst hy
      exact ⟨k, hk, hm, hnd, hl⟩
    · rw [if_neg hy] at h2
      by_cases hyk : y = k
      · rw [if_pos hyk] at h2; cases h2
      · rw [if_neg hyk] at h2
        obtain ⟨x, h3, h4, h5, h6⟩ := I.new y h1 h2
        exact ⟨x, h3, h4, by simp_all, h6⟩
  · intro x v h
    obtain ⟨n, d', h3, h4⟩ := I.source x v h
    exact ⟨n, d', by simp_all, h4⟩
  · intro n d' x w h1 h2 h3 h4
    exact I.agreed n d' x w (hne n (hname n d' x h2 h3) h1) h2 h3 h4
  · intro x v c cs h
    obtain ⟨h1, h2, h3, h4⟩ := I.pending x v c cs h
    exact ⟨h1, h2, by simp_all, h4⟩
  · intro x h1 h2 h3
    by_cases hx : x = k
    · subst hx
      exact Or.inl ⟨foo, hl⟩
    · exact I.seen x h1 h2 (hne x hx h3)

/-- A member whose value is a placeholder that is bound, or not even waited for. -/
theorem inv_bind (W : World m a base E A aA N) {k x : Bytes} {ks : List Bytes} {E' : List (Bytes × V)} {vars vars' : List (Bytes × Variable)}
    (I : Inv m base E A aA (k :: ks) E' vars) (d : Doc) (hd : m.get k = some d) (hn : IsName d x) (v v0 : V) (hv : A.lookup k = some v)
    (h1 : vars'.lookup x = some ⟨v0, []⟩) (h2 : ∀ y, y ≠ x → vars'.lookup y = vars.lookup y)
    (h3 : vars.lookup x = some ⟨v0, []⟩ ∨ vars.lookup x = none ∧ v0 = v)
    (h4 : ∀ d1 d2, Holds base v0 d1 → Holds base v d2 → Same d1 d2) (hnd : k ∉ ks) : Inv m base E A aA ks (assocSet E' k v) vars' := by
  have hk := W.nameKey hd hn
  have hne : ∀ y, y ≠ k → y ∉ ks → y ∉ k :: ks := by simp_all
  have hbr : ∀ y, Braced y → y ≠ k := fun y hy he => hk (he ▸ hy)
  have hold : ∀ (y : Bytes) (u : V), vars.lookup y = some ⟨u, []⟩ → vars'.lookup y = some ⟨u, []⟩ := by
    intro y u hy
    by_cases hyx : y = x
    · subst hyx
      rcases h3 with h3 | ⟨h3, _⟩
      · rw [h3] at hy; cases hy; exact h1
      · rw [h3] at hy; cases hy
    · rw [h2 y hyx, hy]
  have hseen : ∀ y foo, Braced y → (m.get y).isSome → y ∉ ks → vars'.lookup y = some ⟨.str foo, []⟩ → vars.lookup y = some ⟨.str foo, []⟩ := by
    intro y foo hy hm hks hl
    by_cases hyx : y = x
    · subst hyx
      rw [h1] at hl
      cases hl
      rcases h3 with h3 | ⟨h3, _⟩
      · exact h3
      · rcases I.seen y hy hm (hne y (hbr y hy) hks) with ⟨foo', g⟩ | ⟨v', g⟩
        · rw [h3] at g; cases g
        · rw [h3] at g; cases g
    · rw [← h2 y hyx, hl]
  refine { nodup := nodup_assocSet _ _ _ I.nodup, len := ?_, moved := ?_, kept := ?_, taken := ?_, waiting := ?_, new := ?_,
           source := ?_, agreed := ?_, pending := ?_, seen := ?_ }
  · have := I.len
    have g1 := length_assocSet E' k v
    simp only [List.length_cons] at this
    omega
  · intro y foo g1 g2 g3 g4
    have g5 := hseen y foo g1 g2 g3 g4
    have hfk : foo ≠ k := by
      intro he
      have := I.foo W g1 g2 g5
      rw [he, hd] at this
      cases this
    rw [lookup_set, if_neg (hbr y g1), lookup_set, if_neg hfk]
    exact I.moved y foo g1 g2 (hne y (hbr y g1) g3) g5
  · intro y d' g1 g2 g3
    by_cases hy : y = k
    · subst hy
      rw [hd] at g1; cases g1
      rcases g3 with g3 | g3 | g3
      · exact absurd g3 hnd
      · exact absurd ⟨x, hn⟩ g3
      · rw [hv] at g3; cases g3
    · rw [lookup_set, if_neg hy]
      exact I.kept y d' g1 g2 (g3.imp_left (by intro h; simp [h]))
  · intro y d' z g1 g2 g3 g4 g5
    by_cases hy : y = k
    · subst hy
      rw [lookup_set, if_pos rfl, hv]
    · rw [lookup_set, if_neg hy]
      exact I.taken y d' z g1 g2 (hne y hy g3) g4 g5
  · intro y g1 g2 g3
    rw [lookup_set, if_neg (hbr y g1)]
    refine I.waiting y g1 g2 (g3.imp (by intro h; simp [h]) ?_)
    intro h u hu
    exact h u (hold y u hu)
  · intro y g1 g2
    have hy : y ≠ k := by intro he; rw [he, hd] at g1; cases g1
    rw [lookup_set, if_neg hy] at g2
    obtain ⟨z, g3, g4, g5, g6⟩ := I.new y g1 g2
    exact ⟨z, g3, g4, by simp_all, hold z _ g6⟩
  · intro y u g
    by_cases hyx : y = x
    · subst hyx
      rw [h1] at g
      cases g
      rcases h3 with h3 | ⟨h3, h3'⟩
      · obtain ⟨n, d', g3, g4⟩ := I.source y _ h3
        exact ⟨n, d', by simp_all, g4⟩
      · exact ⟨k, d, hnd, hd, hn, by rw [hv, h3']⟩
    · rw [h2 y hyx] at g
      obtain ⟨n, d', g3, g4⟩ := I.source y _ g
      exact ⟨n, d', by simp_all, g4⟩
  · intro n d' y w g1 g2 g3 g4
    by_cases hnk : n = k
    · subst hnk
      rw [hd] at g2; cases g2
      have := name_unique g3 hn
      subst this
      rw [hv] at g4; cases g4
      exact ⟨v0, h1, h4⟩
    · obtain ⟨u, g5, g6⟩ := I.agreed n d' y w (hne n hnk g1) g2 g3 g4
      exact ⟨u, hold y u g5, g6⟩
  · intro y u c cs g
    by_cases hyx : y = x
    · subst hyx
      rw [h1] at g
      cases g
    · rw [h2 y hyx] at g
      obtain ⟨g1, g2, g3, g4⟩ := I.pending y u c cs g
      exact ⟨g1, g2, by simp_all, g4⟩
  · intro y g1 g2 g3
    rcases I.seen y g1 g2 (hne y (hbr y g1) g3) with ⟨foo, g⟩ | ⟨u, g⟩
    · exact Or.inl ⟨foo, hold y _ g⟩
    · refine Or.inr ⟨u, ?_⟩
      rw [h2 y, g]
      intro he
      rw [he] at g
      rcases h3 with h3 | ⟨h3, _⟩
      · rw [h3] at g; cases g
      · rw [h3] at g; cases g

/-- A member whose value is a placeholder that is waited for. -/
theorem inv_release (W : World m a base E A aA N) {k x : Bytes} {ks : List Bytes} {E' : List (Bytes × V)} {vars : List (Bytes × Variable)}
    (I : Inv m base E A aA (k :: ks) E' vars) (d : Doc) (hd : m.get k = some d) (hn : IsName d x) (foo : Bytes)
    (hv : A.lookup k = some (.str foo)) (u : V) (c : Sub) (cs : List Sub) (hl : vars.lookup x = some ⟨u, c :: cs⟩) (vD : V)
    (hE : E.lookup x = some vD) (hnd : k ∉ ks) :
    Inv m base E A aA ks (assocSet (assocDel (assocSet E' k (.str foo)) x) foo vD) ((x, ⟨.str foo, []⟩) :: vars) := by
  have hk := W.nameKey hd hn
  have hne : ∀ y, y ≠ k → y ∉ ks → y ∉ k :: ks := by simp_all
  have hbr : ∀ y, Braced y → y ≠ k := fun y hy he => hk (he ▸ hy)
  obtain ⟨hx, hm, hxks, _⟩ := I.pending x u c cs hl
  have hxks' : x ∉ ks := by simp_all
  have hfoo := W.fooOf hx hm hd hn hv
  have hmf : ∀ y, (m.get y).isSome → y ≠ foo := fun y hy he => by rw [he, hfoo] at hy; cases hy
  have hlook : ∀ y, (assocSet (assocDel (assocSet E' k (.str foo)) x) foo vD).lookup y =
      if y = foo then some vD else if y = x then none else if y = k then some (.str foo) else E'.lookup y := by
    intro y; rw [lookup_set, lookup_del, lookup_set]
  have hxk := hbr x hx
  have hold : ∀ (y : Bytes) (w : V), vars.lookup y = some ⟨w, []⟩ → y ≠ x ∧ List.lookup y ((x, (⟨.str foo, []⟩ : Variable)) :: vars) = some ⟨w, []⟩ := by
    intro y w hy
    have hyx : y ≠ x := by
      intro he
      rw [he, hl] at hy
      cases hy
    exact ⟨hyx, by rw [lookup_vars_ne _ _ _ _ hyx, hy]⟩
  refine { nodup := nodup_assocSet _ _ _ (nodup_assocDel _ _ (nodup_assocSet _ _ _ I.nodup)), len := ?_, moved := ?_, kept := ?_, taken := ?_,
           waiting := ?_, new := ?_, source := ?_, agreed := ?_, pending := ?_, seen := ?_ }
  · have := I.len
    have g1 := length_assocSet (assocDel (assocSet E' k (.str foo)) x) foo vD
    have g2 := length_assocDel (assocSet E' k (.str foo)) x
    have g3 := length_assocSet E' k (.str foo)
    simp only [List.length_cons] at this
    omega
  · intro y foo' g1 g2 g3 g4
    by_cases hyx : y = x
    · subst hyx
      rw [lookup_vars_self] at g4
      cases g4
      rw [hlook, if_neg (hmf _ hm), if_pos rfl, hlook, if_pos rfl, hE]
      exact ⟨rfl, rfl⟩
    · rw [lookup_vars_ne _ _ _ _ hyx] at g4
      obtain ⟨g5, g6⟩ := I.moved y foo' g1 g2 (hne y (hbr y g1) g3) g4
      have hf' := I.foo W g1 g2 g4
      have hff : foo' ≠ foo := by
        intro he
        subst he
        obtain ⟨n, d', _, q2, q3, q4⟩ := I.source y _ g4
        exact hyx (W.fooInj g1 g2 q2 q3 q4 hx hm hd hn hv)
      have hfx : foo' ≠ x := by
        intro he
        rw [he] at hf'
        rw [hf'] at hm
        cases hm
      have hfk : foo' ≠ k := by
        intro he
        rw [he, hd] at hf'
        cases hf'
      rw [hlook, if_neg (hmf _ g2), if_neg hyx, if_neg (hbr y g1), hlook, if_neg hff, if_neg hfx, if_neg hfk]
      exact ⟨g5, g6⟩
  · intro y d' g1 g2 g3
    have hyx : y ≠ x := fun he => g2 (he ▸ hx)
    by_cases hy : y = k
    · subst hy
      rw [hd] at g1; cases g1
      rcases g3 with g3 | g3 | g3
      · exact absurd g3 hnd
      · exact absurd ⟨x, hn⟩ g3
      · rw [hv] at g3; cases g3
    · rw [hlook, if_neg (hmf y (by rw [g1]; rfl)), if_neg hyx, if_neg hy]
      exact I.kept y d' g1 g2 (g3.imp_left (by intro h; simp [h]))
  · intro y d' z g1 g2 g3 g4 g5
    have hyx : y ≠ x := fun he => g2 (he ▸ hx)
    rw [hlook, if_neg (hmf y (by rw [g1]; rfl)), if_neg hyx]
    by_cases hy : y = k
    · subst hy
      rw [if_pos rfl, hv]
    · rw [if_neg hy]
      exact I.taken y d' z g1 g2 (hne y hy g3) g4 g5
  · intro y g1 g2 g3
    by_cases hyx : y = x
    · subst hyx
      rcases g3 with g3 | g3
      · exact absurd g3 hxks'
      · exact absurd (lookup_vars_self _ _ _) (g3 _)
    · rw [hlook, if_neg (hmf _ g2), if_neg hyx, if_neg (hbr y g1)]
      refine I.waiting y g1 g2 (g3.imp (by intro h; simp [h]) ?_)
      intro h w hw
      exact h w (hold y w hw).2
  · intro y g1 g2
    rw [hlook] at g2
    by_cases hyf : y = foo
    · subst hyf
      exact ⟨x, hx, hm, hxks', lookup_vars_self _ _ _⟩
    · rw [if_neg hyf] at g2
      by_cases hyx : y = x
      · rw [if_pos hyx] at g2; cases g2
      · rw [if_neg hyx] at g2
        have hy : y ≠ k := by intro he; rw [he, hd] at g1; cases g1
        rw [if_neg hy] at g2
        obtain ⟨z, g3, g4, g5, g6⟩ := I.new y g1 g2
        exact ⟨z, g3, g4, by simp_all, (hold z _ g6).2⟩
  · intro y w g
    by_cases hyx : y = x
    · subst hyx
      rw [lookup_vars_self] at g
      cases g
      exact ⟨k, d, hnd, hd, hn, hv⟩
    · rw [lookup_vars_ne _ _ _ _ hyx] at g
      obtain ⟨n, d', g3, g4⟩ := I.source y _ g
      exact ⟨n, d', by simp_all, g4⟩
  · intro n d' y w g1 g2 g3 g4
    by_cases hnk : n = k
    · subst hnk
      rw [hd] at g2; cases g2
      have := name_unique g3 hn
      subst this
      rw [hv] at g4; cases g4
      refine ⟨.str foo, lookup_vars_self _ _ _, fun d1 d2 q1 q2 => ?_⟩
      rw [holds_unique base _ _ _ q1 q2]
      exact same_refl _
    · obtain ⟨w', g5, g6⟩ := I.agreed n d' y w (hne n hnk g1) g2 g3 g4
      exact ⟨w', (hold y w' g5).2, g6⟩
  · intro y w c' cs' g
    by_cases hyx : y = x
    · subst hyx
      rw [lookup_vars_self] at g
      cases g
    · rw [lookup_vars_ne _ _ _ _ hyx] at g
      obtain ⟨g1, g2, g3, g4⟩ := I.pending y w c' cs' g
      exact ⟨g1, g2, by simp_all, g4⟩
  · intro y g1 g2 g3
    by_cases hyx : y = x
    · subst hyx
      exact Or.inl ⟨foo, lookup_vars_self _ _ _⟩
    · rw [lookup_vars_ne _ _ _ _ hyx]
      exact I.seen y g1 g2 (hne y (hbr y g1) g3)

/-- What the values of members for one placeholder have in common. -/
theorem ReadAs.foo {ρ : Bytes → Doc} (R : ReadAs ρ m a) (W : World m a base E A aA N) {n d x v} (hb : Braced x) (hx : (m.get x).isSome)
    (hd : m.get n = some d) (hn : IsName d x) (hv : A.lookup n = some v) :
    ∃ foo, v = .str foo ∧ ρ x = .str foo ∧ ∃ u, a.get foo = some u ∧ ∀ D, m.get x = some D → Same D u := by
  obtain ⟨foo, hf⟩ := R.strings x hb hx
  obtain ⟨dv, h1, h2⟩ := W.ofA n v hv
  have h3 := R.bound n d x dv hd hn h1
  rw [hf] at h3
  cases h3
  have hvf : v = .str foo := h2
  obtain ⟨u, hu⟩ := Option.isSome_iff_exists.mp ((R.keys foo).mpr (Or.inl ⟨x, hb, hx, hf⟩))
  exact ⟨foo, hvf, hf, u, hu, fun D hD => R.named x D foo u hb hD hf hu⟩

/-- A turn ends the loop, and then the document is not what the template says, or keeps the invariant. -/
theorem many_turn (W : World m a base E A aA N) (k : Bytes) (ks : List Bytes) (hk : (m.get k).isSome) (hnd : k ∉ ks) (E' : List (Bytes × V))
    (vars : List (Bytes × Variable)) (I : Inv m base E A aA (k :: ks) E' vars) (j : Nat) (hj : N + 6 ≤ j) :
    ((keyK j (top base E' vars) base.length aA k = .panic ∨ keyK j (top base E' vars) base.length aA k = .fatal) ∧ ¬ ∃ ρ, ReadAs ρ m a) ∨
    ∃ E'' vars', keyK j (top base E' vars) base.length aA k = .ok (top base E'' vars') ∧ Inv m base E A aA ks E'' vars' := by
  obtain ⟨i, rfl⟩ : ∃ i, j = i + 6 := ⟨j - 6, by omega⟩
  obtain ⟨d, hd⟩ := Option.isSome_iff_exists.mp hk
  obtain ⟨v, hEv, hh⟩ := W.getE k d hd
  by_cases hb : Braced k
  · have hvar := (braced_iff k).mp hb
    have hplain := W.tmpl.keyPlain k d hb hd
    have hAk : A.lookup k = none := by
      rcases W.getA k with ⟨h1, _⟩ | ⟨v', d', h1, h2, h3⟩
      · exact h1
      · rw [W.apart.noKey k hb hk] at h2; cases h2
    have hEk : E'.lookup k = some v := by rw [I.waiting k hb hk (Or.inl (by simp)), hEv]
    cases hl : vars.lookup k with
    | none =>
      refine Or.inr ⟨E', (k, ⟨.null, [⟨k, base.length, aA⟩]⟩) :: vars, ?_, inv_wait W I hb hk hl hnd⟩
      have h1 : subVar (i + 5) (top base E' vars) k ⟨k, base.length, aA⟩ = .ok (top base E' ((k, ⟨.null, [⟨k, base.length, aA⟩]⟩) :: vars)) := by
        simp only [subVar, top, hl, Store.setVar]
      simp only [keyK, hvar, if_true, h1, ok_bind, top_get, hEk, top_get_other base _ A _ aA W.atA, hAk]
      cases d with
      | null => exact absurd hplain.1 (by simp [Doc.Plain])
      | bool b => rw [show v = .bool b from hh]
      | num b => rw [show v = .num b from hh]
      | arr l => obtain ⟨vs, rfl, _⟩ := hh; rfl
      | obj l => obtain ⟨a', kvs, rfl, _⟩ := hh; rfl
      | str b =>
        rw [show v = .str b from hh]
        have : b ≠ anything := fun hb => hplain.2.2.1 (by rw [hb]; rfl)
        simp only [this, if_false]
    | some w =>
      obtain ⟨u, subs⟩ := w
      cases subs with
      | cons c cs =>
        exact absurd (by simp) (I.pending k u c cs hl).2.2.1
      | nil =>
        obtain ⟨n, dn, g1, g2, g3, g4⟩ := I.source k u hl
        have h1 : subVar (i + 5) (top base E' vars) k ⟨k, base.length, aA⟩ =
            runSub (i + 4) (top base E' vars) ⟨k, base.length, aA⟩ u := by
          simp only [subVar, top, hl]
        by_cases hu : ∃ foo, u = .str foo
        · obtain ⟨foo, rfl⟩ := hu
          rcases run_sub' W E' vars k foo d v hb hd hEv hEk (i + 4) (by omega) with ⟨r1, r2⟩ | r1
          · refine Or.inl ⟨Or.inl ?_, ?_⟩
            · simp only [keyK, hvar, if_true, h1, r1, Run.bind]
            · rintro ⟨ρ, R⟩
              obtain ⟨foo', q1, _, u, q3, q4⟩ := R.foo W hb hk g2 g3 g4
              cases q1
              exact r2 ⟨u, q3, q4 d hd⟩
          · refine Or.inr ⟨_, vars, ?_, inv_rename W I hb hk foo v hl hEv hnd⟩
            have hxf : k ≠ foo := by
              intro he
              have := I.foo W hb hk hl
              rw [← he, hd] at this
              cases this
            have hnone : (top base (assocSet (assocDel E' k) foo v) vars).get base.length k = none := by
              rw [top_get, lookup_set, if_neg hxf, lookup_del, if_pos rfl]
            simp only [keyK, hvar, if_true, h1, r1, Run.bind, hnone]
        · refine Or.inl ⟨Or.inl ?_, ?_⟩
          · simp only [keyK, hvar, if_true, h1, run_sub_other ⟨k, base.length, aA⟩ (top base E' vars) u (i + 3) (fun foo h => hu ⟨foo, h⟩), Run.bind]
          · rintro ⟨ρ, R⟩
            obtain ⟨foo', q1, _⟩ := R.foo W hb hk g2 g3 g4
            exact hu ⟨foo', q1⟩
  · have hvar : isVar k = false := by
      by_contra h
      exact hb ((braced_iff k).mpr (by simpa using h))
    have hEk : E'.lookup k = some v := by rw [I.kept k d hd hb (Or.inl (by simp)), hEv]
    by_cases hn : ∃ x, IsName d x
    · obtain ⟨x, hn⟩ := hn
      have hn' := (isName_iff _ _).mp hn
      have hvx : v = .str x := by rw [hn'.1] at hh; exact hh
      rw [hvx] at hEk
      cases hA : A.lookup k with
      | none =>
        refine Or.inr ⟨E', vars, ?_, inv_skip I d hd hb (Or.inr hA)⟩
        simp only [keyK, hvar, Bool.false_eq_true, if_false, ok_bind, top_get, hEk, top_get_other base _ A vars aA W.atA, hA]
        rw [if_neg hn'.2.1]
      | some w =>
        have hrun : keyK (i + 6) (top base E' vars) base.length aA k = bindVar (i + 5) (top base (assocSet E' k w) vars) x w := by
          simp only [keyK, hvar, Bool.false_eq_true, if_false, ok_bind, top_get, hEk, top_get_other base _ A vars aA W.atA, hA, hn'.2.2,
            if_true, top_set]
          rw [if_neg hn'.2.1]
        rw [hrun]
        obtain ⟨dw, hdw, hhw⟩ := W.ofA k w hA
        cases hl : vars.lookup x with
        | none =>
          refine Or.inr ⟨_, (x, ⟨w, []⟩) :: vars, ?_, inv_bind W I d hd hn w w hA (lookup_vars_self _ _ _)
            (fun y hy => lookup_vars_ne _ _ _ _ hy) (Or.inr ⟨hl, rfl⟩) ?_ hnd⟩
          · simp only [bindVar, top, hl, Store.setVar]
          · intro d1 d2 q1 q2
            rw [holds_unique base _ _ _ q1 q2]
            exact same_refl _
        | some u =>
          obtain ⟨u, subs⟩ := u
          cases subs with
          | nil =>
            obtain ⟨n, dn, g1, g2, g3, g4⟩ := I.source x u hl
            obtain ⟨du, hdu, hhu⟩ := W.ofA n u g4
            have hcmp : bindVar (i + 5) (top base (assocSet E' k w) vars) x w =
                if deepEqual du dw then .ok (top base (assocSet E' k w) vars) else .fatal := by
              simp only [bindVar, top, hl, W.read n du u hdu g4 (i + 4) (by omega), W.read k dw w hdw hA (i + 4) (by omega)]
            rw [hcmp]
            have hiff := deep_iff du dw (get_wf a W.wfA n du hdu) (get_wf a W.wfA k dw hdw)
            by_cases hs : deepEqual du dw = true
            · rw [if_pos hs]
              refine Or.inr ⟨_, vars, rfl, inv_bind W I d hd hn w u hA hl (fun _ _ => rfl) (Or.inl hl) ?_ hnd⟩
              intro d1 d2 q1 q2
              rw [holds_unique base _ _ _ q1 hhu, holds_unique base _ _ _ q2 hhw]
              exact hiff.mp hs
            · rw [if_neg hs]
              refine Or.inl ⟨Or.inr rfl, ?_⟩
              rintro ⟨ρ, R⟩
              exact hs (hiff.mpr (same_trans (same_symm (R.bound n dn x du g2 g3 hdu)) (R.bound k d x dw hd hn hdw)))
          | cons c cs =>
            obtain ⟨p1, p2, p3, p4⟩ := I.pending x u c cs hl
            obtain ⟨D, hD⟩ := Option.isSome_iff_exists.mp p2
            obtain ⟨vD, hvD, _⟩ := W.getE x D hD
            have hxk : x ≠ k := fun he => hb (he ▸ p1)
            have hcs : bindVar (i + 5) (top base (assocSet E' k w) vars) x w =
                ((runSub (i + 3) (top base (assocSet E' k w) vars) ⟨x, base.length, aA⟩ w).bind fun s => .ok s).bind fun s =>
                  .ok (s.setVar x ⟨w, []⟩) := by
              rw [p4] at hl
              simp only [bindVar, top, hl, runSubs]
            have hE1 : (assocSet E' k w).lookup x = some vD := by
              rw [lookup_set, if_neg hxk, I.waiting x p1 p2 (Or.inr (by intro v' h; rw [hl] at h; cases h)), hvD]
            rw [hcs]
            by_cases hu : ∃ foo, w = .str foo
            · obtain ⟨foo, rfl⟩ := hu
              rcases run_sub' W _ vars x foo D vD p1 hD hvD hE1 (i + 3) (by omega) with ⟨r1, r2⟩ | r1
              · rw [r1]
                refine Or.inl ⟨Or.inl rfl, ?_⟩
                rintro ⟨ρ, R⟩
                obtain ⟨foo', q1, _, u, q3, q4⟩ := R.foo W p1 p2 hd hn hA
                cases q1
                exact r2 ⟨u, q3, q4 D hD⟩
              · rw [r1]
                exact Or.inr ⟨_, (x, ⟨.str foo, []⟩) :: vars, rfl, inv_release W I d hd hn foo hA u c cs hl vD hvD hnd⟩
            · rw [run_sub_other ⟨x, base.length, aA⟩ (top base (assocSet E' k w) vars) w (i + 2) (fun foo h => hu ⟨foo, h⟩)]
              refine Or.inl ⟨Or.inl rfl, ?_⟩
              rintro ⟨ρ, R⟩
              obtain ⟨foo', q1, _⟩ := R.foo W p1 p2 hd hn hA
              exact hu ⟨foo', q1⟩
    · have hplain := W.tmpl.rest k d hb hd hn
      have hc := key_calm (top base E' vars) base.length aA k d v hvar (by rw [top_get, hEk]) (holds_mono base _ d v hh) hplain.1
        hplain.2.2 hn N (fun j hj w => W.bound k d hn hd j hj _ v w (holds_mono base _ d v hh)) (i + 6) (by omega)
      by_cases hsp : ∃ ρ, ReadAs ρ m a
      · refine Or.inr ⟨E', vars, hc.2 ?_, inv_skip I d hd hb (Or.inl hn)⟩
        obtain ⟨ρ, R⟩ := hsp
        obtain ⟨u, hu⟩ := Option.isSome_iff_exists.mp ((R.keys k).mpr (Or.inr ⟨hb, hk⟩))
        obtain ⟨w, hw1, hw2⟩ := W.toA k u hu
        exact ⟨w, u, by rw [top_get_other base _ A vars aA W.atA, hw1], holds_mono base _ u w hw2, R.rest k d u hb hd hn hu⟩
      · rcases hc.1 with hc | hc
        · exact Or.inr ⟨E', vars, hc, inv_skip I d hd hb (Or.inl hn)⟩
        · exact Or.inl ⟨Or.inl hc, hsp⟩

theorem many_loop (W : World m a base E A aA N) : ∀ (ks : List Bytes), (∀ k ∈ ks, (m.get k).isSome) → ks.Nodup →
    ∀ (E' : List (Bytes × V)) (vars : List (Bytes × Variable)), Inv m base E A aA ks E' vars → ∀ j ≥ N + 7 + ks.length,
    ((keysK j (top base E' vars) base.length aA ks = .panic ∨ keysK j (top base E' vars) base.length aA ks = .fatal) ∧ ¬ ∃ ρ, ReadAs ρ m a) ∨
    ∃ E'' vars', keysK j (top base E' vars) base.length aA ks = .ok (top base E'' vars') ∧ Inv m base E A aA [] E'' vars' := by
  intro ks
  induction ks with
  | nil =>
    intro _ _ E' vars I j hj
    obtain ⟨j, rfl⟩ : ∃ k, j = k + 1 := ⟨j - 1, by omega⟩
    exact Or.inr ⟨E', vars, rfl, I⟩
  | cons k ks ih =>
    intro hm hnd E' vars I j hj
    simp only [List.length_cons] at hj
    obtain ⟨j, rfl⟩ : ∃ k, j = k + 1 := ⟨j - 1, by omega⟩
    obtain ⟨hnd1, hnd2⟩ := List.nodup_cons.mp hnd
    simp only [keysK]
    rcases many_turn W k ks (hm k (by simp)) hnd1 E' vars I j (by omega) with ⟨h1 | h1, h2⟩ | ⟨E'', vars', h1, h2⟩
    · rw [h1]; exact Or.inl ⟨Or.inl rfl, h2⟩
    · rw [h1]; exact Or.inl ⟨Or.inr rfl, h2⟩
    · rw [h1]
      exact ih (fun k' hk' => hm k' (by simp [hk'])) hnd2 E'' vars' h2 j (by omega)

theorem build_members (h : Heap) (l : List (Bytes × V)) (hnd : (l.map Prod.fst).Nodup)
    (B : Nat) (hv : ∀ k v, l.lookup k = some v → ∃ d, d.WF ∧ Holds h v d ∧ ∀ j ≥ B, ∀ Y, readV j (h ++ Y) v = some d) :
    ∃ x : Members, HoldsM h l x ∧ x.WF ∧ ∀ j ≥ B + 1 + l.length, ∀ Y, readM j (h ++ Y) l = some x := by
  induction l with
  | nil =>
    refine ⟨.nil, rfl, trivial, fun j hj Y => ?_⟩
    obtain ⟨j, rfl⟩ : ∃ k, j = k + 1 := ⟨j - 1, by omega⟩
    rfl
  | cons p l ih =>
    obtain ⟨k, v⟩ := p
    simp only [List.map_cons, List.nodup_cons] at hnd
    have hnot : l.lookup k = none := by
      cases hl : l.lookup k with
      | none => rfl
      | some u =>
        exfalso
        apply hnd.1
        have : ∀ (l : List (Bytes × V)) u, l.lookup k = some u → k ∈ l.map Prod.fst := by
          intro l
          induction l with
          | nil => intro u h; cases h
          | cons q l ih =>
            intro u h
            obtain ⟨y, w⟩ := q
            simp only [List.lookup_cons] at h
            by_cases hy : k = y
            · simp [hy]
            · rw [show (k == y) = false from by simpa using hy] at h
              simp only [List.map_cons, List.mem_cons]
              exact Or.inr (ih u h)
        exact this l u hl
    obtain ⟨x, h1, h2, h3⟩ := ih hnd.2 (by
      intro y u hy
      apply hv y u
      have : y ≠ k := by intro he; rw [he, hnot] at hy; cases hy
      rw [List.lookup_cons, show (y == k) = false from by simpa using this]
      exact hy)
    obtain ⟨d, hd1, hd2, hd3⟩ := hv k v (by simp)
    refine ⟨.cons k d x, ⟨v, l, rfl, hd2, h1⟩, ⟨?_, hd1, h2⟩, fun j hj Y => ?_⟩
    · rcases holdsM_get h k x l h1 with ⟨_, g⟩ | ⟨u, _, g, _⟩
      · exact g
      · rw [hnot] at g; cases g
    · simp only [List.length_cons] at hj
      obtain ⟨j, rfl⟩ : ∃ k, j = k + 1 := ⟨j - 1, by omega⟩
      simp only [readM, hd3 j (by omega) Y, h3 j (by omega) Y]

/-- What the values of the template stand for in the end. -/
theorem final_values (W : World m a base E A aA N) {E' : List (Bytes × V)} {vars : List (Bytes × Variable)} (I : Inv m base E A aA [] E' vars)
    (k : Bytes) (v : V) (h : E'.lookup k = some v) : ∃ d, d.WF ∧ Holds base v d ∧ ∀ j ≥ N, ∀ Y, readV j (base ++ Y) v = some d := by
  have hE : ∀ x, (m.get x).isSome → E.lookup x = some v → ∃ d, d.WF ∧ Holds base v d ∧ ∀ j ≥ N, ∀ Y, readV j (base ++ Y) v = some d := by
    intro x hx hl
    obtain ⟨d, hd⟩ := Option.isSome_iff_exists.mp hx
    obtain ⟨u, h1, h2⟩ := W.getE x d hd
    rw [hl] at h1; cases h1
    exact ⟨d, get_wf m W.tmpl.wf x d hd, h2, W.readE x d v hd hl⟩
  cases hm : m.get k with
  | none =>
    obtain ⟨x, h1, h2, h3, h4⟩ := I.new k hm (by rw [h]; rfl)
    have h5 := (I.moved x k h1 h2 h3 h4).2
    rw [h] at h5
    exact hE x h2 h5.symm
  | some d =>
    by_cases hb : Braced k
    · by_cases hw : ∃ u, vars.lookup k = some ⟨u, []⟩
      · obtain ⟨u, hu⟩ := hw
        rcases I.seen k hb (by rw [hm]; rfl) (by simp) with ⟨foo, g⟩ | ⟨u', g⟩
        · have := (I.moved k foo hb (by rw [hm]; rfl) (by simp) g).1
          rw [h] at this; cases this
        · rw [hu] at g; cases g
      · have := I.waiting k hb (by rw [hm]; rfl) (Or.inr (fun u hu => hw ⟨u, hu⟩))
        rw [h] at this
        exact hE k (by rw [hm]; rfl) this.symm
    · by_cases hn : ∃ x, IsName d x
      · obtain ⟨x, hn⟩ := hn
        cases hA : A.lookup k with
        | none =>
          have := I.kept k d hm hb (Or.inr (Or.inr hA))
          rw [h] at this
          exact hE k (by rw [hm]; rfl) this.symm
        | some w =>
          have := I.taken k d x hm hb (by simp) hn (by rw [hA]; rfl)
          rw [h, hA] at this
          cases this
          obtain ⟨u, g1, g2⟩ := W.ofA k v hA
          exact ⟨u, get_wf a W.wfA k u g1, g2, W.read k u v g1 hA⟩
      · have := I.kept k d hm hb (Or.inr (Or.inl hn))
        rw [h] at this
        exact hE k (by rw [hm]; rfl) this.symm

/-- In the end the template is the same as the document exactly if the document is what the template says. -/
theorem final_iff (W : World m a base E A aA N) {E' : List (Bytes × V)} {vars : List (Bytes × Variable)} (I : Inv m base E A aA [] E' vars)
    (x : Members) (hx : HoldsM base E' x) : Same (.obj x) (.obj a) ↔ ∃ ρ, ReadAs ρ m a := by
  have hget : ∀ k v d, E'.lookup k = some v → Holds base v d → x.get k = some d := by
    intro k v d h1 h2
    rcases holdsM_get base k x E' hx with ⟨g, _⟩ | ⟨v', d', g1, g2, g3⟩
    · rw [h1] at g; cases g
    · rw [h1] at g1; cases g1
      rw [holds_unique base _ _ _ h2 g3, g2]
  have hsome : ∀ k, (x.get k).isSome ↔ (E'.lookup k).isSome := by
    intro k
    rcases holdsM_get base k x E' hx with ⟨g1, g2⟩ | ⟨v', d', g1, g2, _⟩
    · rw [g1, g2]; simp
    · rw [g1, g2]; simp
  have hEsome : ∀ k, (m.get k).isSome → (E.lookup k).isSome := by
    intro k hk
    obtain ⟨d, hd⟩ := Option.isSome_iff_exists.mp hk
    obtain ⟨v, h1, _⟩ := W.getE k d hd
    rw [h1]; rfl
  have hmember : ∀ k, ¬ Braced k → (m.get k).isSome → (E'.lookup k).isSome := by
    intro k hb hk
    obtain ⟨d, hd⟩ := Option.isSome_iff_exists.mp hk
    by_cases hn : (¬ ∃ y, IsName d y) ∨ A.lookup k = none
    · rw [I.kept k d hd hb (Or.inr hn)]
      exact hEsome k hk
    · simp only [not_or, not_not] at hn
      obtain ⟨⟨y, hn⟩, hA⟩ := hn
      have hA' : (A.lookup k).isSome := by
        cases h : A.lookup k with
        | none => exact absurd h hA
        | some _ => rfl
      rw [I.taken k d y hd hb (by simp) hn hA']
      exact hA'
  constructor
  · intro hs
    cases hs with
    | obj _ _ s1 s2 =>
    have hbound : ∀ y, Braced y → (m.get y).isSome → ∃ foo, vars.lookup y = some ⟨.str foo, []⟩ := by
      intro y hb hm
      rcases I.seen y hb hm (by simp) with h | ⟨v, h⟩
      · exact h
      · exfalso
        have h1 := I.waiting y hb hm (Or.inr (by intro u hu; rw [h] at hu; cases hu))
        have h2 := (hsome y).mpr (by rw [h1]; exact hEsome y hm)
        rw [s1 y, W.apart.noKey y hb hm] at h2
        cases h2
    classical
    let ρ : Bytes → Doc := fun y => if h : ∃ d v, vars.lookup y = some ⟨v, []⟩ ∧ Holds base v d then h.choose else .null
    have hρ : ∀ y v d, vars.lookup y = some ⟨v, []⟩ → Holds base v d → ρ y = d := by
      intro y v d h1 h2
      have hex : ∃ d v, vars.lookup y = some ⟨v, []⟩ ∧ Holds base v d := ⟨d, v, h1, h2⟩
      have : ρ y = hex.choose := dif_pos hex
      rw [this]
      obtain ⟨v', g1, g2⟩ := hex.choose_spec
      rw [h1] at g1; cases g1
      exact holds_unique base _ _ _ g2 h2
    have hρs : ∀ y foo, vars.lookup y = some ⟨.str foo, []⟩ → ρ y = .str foo := fun y foo h => hρ y _ _ h rfl
    refine ⟨ρ, ?_, ?_, ?_, ?_, ?_⟩
    · intro y hb hm
      obtain ⟨foo, h⟩ := hbound y hb hm
      exact ⟨foo, hρs y foo h⟩
    · intro k
      rw [← s1 k, hsome]
      constructor
      · intro hk
        cases hm : m.get k with
        | none =>
          obtain ⟨y, h1, h2, h3, h4⟩ := I.new k hm hk
          exact Or.inl ⟨y, h1, h2, hρs y k h4⟩
        | some d =>
          refine Or.inr ⟨?_, by simp⟩
          intro hb
          obtain ⟨foo, h⟩ := hbound k hb (by rw [hm]; rfl)
          rw [(I.moved k foo hb (by rw [hm]; rfl) (by simp) h).1] at hk
          cases hk
      · rintro (⟨y, h1, h2, h3⟩ | ⟨h1, h2⟩)
        · obtain ⟨foo, h⟩ := hbound y h1 h2
          have := hρs y foo h
          rw [h3] at this
          cases this
          rw [(I.moved y k h1 h2 (by simp) h).2]
          exact hEsome y h2
        · exact hmember k h1 h2
    · intro y d foo v hb hd hf hv
      obtain ⟨foo', h⟩ := hbound y hb (by rw [hd]; rfl)
      have := hρs y foo' h
      rw [hf] at this
      cases this
      obtain ⟨u, g1, g2⟩ := W.getE y d hd
      exact s2 foo d v (hget foo u d (by rw [(I.moved y foo hb (by rw [hd]; rfl) (by simp) h).2, g1]) g2) hv
    · intro n d y v hd hn hv
      obtain ⟨w, g1, g2⟩ := W.toA n v hv
      obtain ⟨u, g3, g4⟩ := I.agreed n d y w (by simp) hd hn g1
      obtain ⟨n', d', _, _, _, g5⟩ := I.source y u g3
      obtain ⟨du, _, g7⟩ := W.ofA n' u g5
      rw [hρ y u du g3 g7]
      exact g4 du v g7 g2
    · intro k d v hb hd hn hv
      obtain ⟨u, g1, g2⟩ := W.getE k d hd
      exact s2 k d v (hget k u d (by rw [I.kept k d hd hb (Or.inr (Or.inl hn)), g1]) g2) hv
  · rintro ⟨ρ, R⟩
    have hbound : ∀ y, Braced y → (m.get y).isSome → ∃ foo, vars.lookup y = some ⟨.str foo, []⟩ ∧ ρ y = .str foo := by
      intro y hb hm
      obtain ⟨n, d, hd, hn⟩ := W.tmpl.keyBound y hb hm
      obtain ⟨v, hv⟩ := Option.isSome_iff_exists.mp ((R.keys n).mpr (Or.inr ⟨W.nameKey hd hn, by rw [hd]; rfl⟩))
      obtain ⟨w, hw, _⟩ := W.toA n v hv
      obtain ⟨u, hu, _⟩ := I.agreed n d y w (by simp) hd hn hw
      obtain ⟨n', d', _, g2, g3, g4⟩ := I.source y u hu
      obtain ⟨foo, q1, q2, _⟩ := R.foo W hb hm g2 g3 g4
      rw [q1] at hu
      exact ⟨foo, hu, q2⟩
    refine .obj x a (fun k => isSome_eq_of ?_) ?_
    · rw [hsome, R.keys k]
      constructor
      · intro hk
        cases hm : m.get k with
        | none =>
          obtain ⟨y, h1, h2, h3, h4⟩ := I.new k hm hk
          obtain ⟨foo, g1, g2⟩ := hbound y h1 h2
          rw [h4] at g1
          cases g1
          exact Or.inl ⟨y, h1, h2, g2⟩
        | some d =>
          refine Or.inr ⟨?_, by simp⟩
          intro hb
          obtain ⟨foo, h, _⟩ := hbound k hb (by rw [hm]; rfl)
          rw [(I.moved k foo hb (by rw [hm]; rfl) (by simp) h).1] at hk
          cases hk
      · rintro (⟨y, h1, h2, h3⟩ | ⟨h1, h2⟩)
        · obtain ⟨foo, h, g⟩ := hbound y h1 h2
          rw [h3] at g
          cases g
          rw [(I.moved y k h1 h2 (by simp) h).2]
          exact hEsome y h2
        · exact hmember k h1 h2
    · intro k u v hu hv
      cases hm : m.get k with
      | none =>
        obtain ⟨y, h1, h2, h3, h4⟩ := I.new k hm ((hsome k).mp (by rw [hu]; rfl))
        obtain ⟨foo, g1, g2⟩ := hbound y h1 h2
        rw [h4] at g1
        cases g1
        obtain ⟨d, hd⟩ := Option.isSome_iff_exists.mp h2
        obtain ⟨w, q1, q2⟩ := W.getE y d hd
        have := hget k w d (by rw [(I.moved y k h1 h2 h3 h4).2, q1]) q2
        rw [hu] at this
        cases this
        exact R.named y u k v h1 hd g2 hv
      | some d =>
        have hb : ¬ Braced k := by
          intro hb
          obtain ⟨foo, h, _⟩ := hbound k hb (by rw [hm]; rfl)
          have h1 := (hsome k).mp (by rw [hu]; rfl)
          rw [(I.moved k foo hb (by rw [hm]; rfl) (by simp) h).1] at h1
          cases h1
        obtain ⟨w, q1, q2⟩ := W.toA k v hv
        by_cases hn : ∃ y, IsName d y
        · obtain ⟨y, hn⟩ := hn
          have := hget k w v (by rw [I.taken k d y hm hb (by simp) hn (by rw [q1]; rfl), q1]) q2
          rw [hu] at this
          cases this
          exact same_refl _
        · obtain ⟨w', q3, q4⟩ := W.getE k d hm
          have := hget k w' d (by rw [I.kept k d hm hb (Or.inr (Or.inl hn)), q3]) q4
          rw [hu] at this
          cases this
          exact R.rest k u v hb hm hn hv

end

/-- C124, partial: with any number of placeholders as keys and as values of the outermost object, each key being the value of a member
too and bound to a name of its own that is no key of the template, the document is accepted exactly if the placeholders can be read as
something that makes the template the document, whatever the order of the maps. -/
theorem many_keys_partial (m a : Members) (h : Placeholders m) (ha : a.WF) (hp : Apart m a) :
    ∃ N, ∀ fuel ≥ N, ∃ r, jsonEqualK fuel (.obj m) (.obj a) = some r ∧ (r = .accepted ↔ ∃ ρ, ReadAs ρ m a) := by
  obtain ⟨_, hA⟩ := load_holds (.obj a) []
  obtain ⟨aA, A, hA1, hA2, hA3⟩ := hA
  obtain ⟨⟨X, hX⟩, hE⟩ := loadM_holds m (load (.obj a) []).2
  generalize hhA : (load (.obj a) []).2 = hp' at *
  generalize hbase : (loadM m hp').2 = base at *
  generalize hEE : (loadM m hp').1 = E at *
  have hatA : base[aA]? = some A := by
    rw [hX, List.getElem?_append_left (List.getElem?_eq_some_iff.mp hA2).1]; exact hA2
  have hHA : HoldsM base A a := by rw [hX]; exact holdsM_mono hp' X a A hA3
  have hks : E.map Prod.fst = m.keys := holdsM_keys base m E hE
  have hnd := nodup_keys m h.wf
  obtain ⟨N1, hN1⟩ : ∃ N, ∀ k ∈ m.keys, ∀ d, (¬ ∃ s, IsName d s) → m.get k = some d → ∀ j ≥ N, ∀ (s : Store) (v w : V), Holds s.heap v d →
      Calm s (substK j s v w) (∃ d', Holds s.heap w d' ∧ Same d d') := by
    have key : ∀ ks : List Bytes, ∃ N, ∀ k ∈ ks, ∀ d, (¬ ∃ s, IsName d s) → m.get k = some d → ∀ j ≥ N, ∀ (s : Store) (v w : V),
        Holds s.heap v d → Calm s (substK j s v w) (∃ d', Holds s.heap w d' ∧ Same d d') := by
      intro ks
      induction ks with
      | nil => exact ⟨0, by simp⟩
      | cons k ks ih =>
        obtain ⟨N, hN⟩ := ih
        by_cases hex : ∃ d, (¬ ∃ s, IsName d s) ∧ m.get k = some d
        · obtain ⟨d, hn, hd⟩ := hex
          have hpl : d.Plain ∧ d.Literal := by
            by_cases hb : Braced k
            · exact ⟨(h.keyPlain k d hb hd).1, (h.keyPlain k d hb hd).2.1⟩
            · exact ⟨(h.rest k d hb hd hn).1, (h.rest k d hb hd hn).2.1⟩
          obtain ⟨M, hM⟩ := subst_calm d (get_wf m h.wf k d hd) hpl.1 hpl.2
          refine ⟨N + M, fun k' hk' d' hn' hd' j hj => ?_⟩
          rcases List.mem_cons.mp hk' with he | hk'
          · rw [he, hd] at hd'
            cases hd'
            exact hM j (by omega)
          · exact hN k' hk' d' hn' hd' j (by omega)
        · refine ⟨N, fun k' hk' d' hn' hd' j hj => ?_⟩
          rcases List.mem_cons.mp hk' with he | hk'
          · exact absurd ⟨d', hn', by rw [← he]; exact hd'⟩ hex
          · exact hN k' hk' d' hn' hd' j hj
    exact key m.keys
  obtain ⟨N2, hN2⟩ := read_members base a A hHA
  obtain ⟨N3, hN3⟩ := read_members base m E hE
  have W : World m a base E A aA (N1 + N2 + N3) :=
    { tmpl := h, wfA := ha, apart := hp, holdsE := hE, nodupE := by rw [hks]; exact hnd, atA := hatA, holdsA := hHA
      bound := fun k d hn hd j hj => hN1 k ((mem_keys m k).mpr (by rw [hd]; rfl)) d hn hd j (by omega)
      read := fun n d w hd hw j hj => hN2 n d w hd hw j (by omega)
      readE := fun n d w hd hw j hj => hN3 n d w hd hw j (by omega) }
  have I0 : Inv m base E A aA m.keys E [] := by
    have hall : ∀ k, (m.get k).isSome → ¬ k ∉ m.keys := fun k hk hn => hn ((mem_keys m k).mpr hk)
    refine { nodup := W.nodupE, len := Nat.le_refl _, moved := ?_, kept := ?_, taken := ?_, waiting := ?_, new := ?_, source := ?_, agreed := ?_, pending := ?_, seen := ?_ }
    · intro x foo _ h2 h3; exact absurd h3 (hall x h2)
    · intro k d _ _ _; rfl
    · intro k d x h1 _ h3; exact absurd h3 (hall k (by rw [h1]; rfl))
    · intro x _ _ _; rfl
    · intro k h1 h2
      rcases holdsM_get base k m E hE with ⟨g, _⟩ | ⟨v, d, _, g, _⟩
      · rw [g] at h2; cases h2
      · rw [h1] at g; cases g
    · intro x v h; cases h
    · intro n d x w h1 h2; exact absurd h1 (hall n (by rw [h2]; rfl))
    · intro x v c cs h; cases h
    · intro x _ h2 h3; exact absurd h3 (hall x h2)
  obtain ⟨R, hR⟩ := read_uniform (.obj a)
  generalize N1 + N2 + N3 = N at W
  refine ⟨N + 10 + E.length + 3 * m.keys.length + R, fun fuel hf => ?_⟩
  obtain ⟨j, rfl⟩ : ∃ j, fuel = j + 1 := ⟨fuel - 1, by omega⟩
  have hstart : substK (j + 1) ⟨base ++ [E], []⟩ (.ref base.length) (.ref aA) = keysK j (top base E []) base.length aA m.keys := by
    simp only [substK, top]
    rw [← hks]
    simp [List.getD_eq_getElem?_getD]
  have hload : jsonEqualK (j + 1) (.obj m) (.obj a) =
      match keysK j (top base E []) base.length aA m.keys with
      | .fuel => none
      | .panic => some .panicked
      | .fatal => some .failed
      | .ok s =>
        match readV (j + 1) s.heap (.ref base.length), readV (j + 1) s.heap (.ref aA) with
        | some d, some d' => some (if deepEqual d d' then .accepted else .failed)
        | _, _ => none := by
    have hy : load (.obj m) hp' = (.ref base.length, base ++ [E]) := by
      simp only [load, hbase, hEE]
    rw [← hstart]
    simp only [jsonEqualK, hhA, hA1, hy]
    rfl
  rw [hload]
  rcases many_loop W m.keys (fun k hk => (mem_keys m k).mp hk) hnd E [] I0 j (by omega) with ⟨h1 | h1, h2⟩ | ⟨E'', vars', h1, I⟩
  · rw [h1]
    exact ⟨.panicked, rfl, (fun hr => by cases hr), fun hr => absurd hr h2⟩
  · rw [h1]
    exact ⟨.failed, rfl, (fun hr => by cases hr), fun hr => absurd hr h2⟩
  · rw [h1]
    obtain ⟨x, hx1, hx2, hx3⟩ := build_members base E'' I.nodup N (final_values W I)
    have hlen := I.len
    simp only [List.length_nil] at hlen
    have hread : readV (j + 1) (base ++ [E'']) (.ref base.length) = some (.obj x) := by
      have : (base ++ [E'']).getD base.length [] = E'' := by simp [List.getD_eq_getElem?_getD]
      simp only [readV, this, hx3 j (by omega) [E''], Option.map_some]
    have hreadA : readV (j + 1) (base ++ [E'']) (.ref aA) = some (.obj a) :=
      hR _ _ (holds_mono base _ (.obj a) (.ref aA) ⟨aA, A, rfl, hatA, hHA⟩) (j + 1) (by omega)
    simp only [top, hread, hreadA]
    refine ⟨_, rfl, ?_⟩
    rw [← final_iff W I x hx1, ← deep_iff (.obj x) (.obj a) hx2 ha]
    by_cases hd : deepEqual (.obj x) (.obj a) = true
    · simp [hd]
    · simp [hd]

/-- C124, partial: two orders of the outermost maps accept the same documents. -/
theorem many_orders_partial (m m' a a' : Members) (hm : ∀ k, m.get k = m'.get k) (haa : ∀ k, a.get k = a'.get k) (h : Placeholders m)
    (h' : m'.WF) (ha : a.WF) (ha' : a'.WF) (hp : Apart m a) :
    ∃ N, ∀ fuel ≥ N, jsonEqualK fuel (.obj m) (.obj a) = some .accepted ↔ jsonEqualK fuel (.obj m') (.obj a') = some .accepted := by
  have hP : Placeholders m' :=
    { wf := h', keyPlain := fun x d hb hd => h.keyPlain x d hb (by rw [hm]; exact hd)
      keyBound := fun x hb hx => by
        obtain ⟨n, d, h1, h2⟩ := h.keyBound x hb (by rw [hm]; exact hx)
        exact ⟨n, d, by rw [← hm]; exact h1, h2⟩
      rest := fun k d hb hd hn => h.rest k d hb (by rw [hm]; exact hd) hn }
  have hA : Apart m' a' :=
    { noKey := fun x hb hx => by rw [← haa]; exact hp.noKey x hb (by rw [hm]; exact hx)
      fresh := fun n x foo h1 h2 h3 h4 => by
        rw [← hm] at h1 h3 ⊢
        rw [← haa] at h4
        exact hp.fresh n x foo h1 h2 h3 h4
      inj := fun n x n' x' foo h1 h2 h3 h4 h5 h6 h7 h8 => by
        rw [← hm] at h1 h3 h5 h7
        rw [← haa] at h4 h8
        exact hp.inj n x n' x' foo h1 h2 h3 h4 h5 h6 h7 h8 }
  have hR : (∃ ρ, ReadAs ρ m a) ↔ ∃ ρ, ReadAs ρ m' a' := by
    have hgm : m.get = m'.get := funext hm
    have hga : a.get = a'.get := funext haa
    constructor
    · rintro ⟨ρ, R⟩
      refine ⟨ρ, ?_, ?_, ?_, ?_, ?_⟩
      · rw [← hgm]; exact R.strings
      · rw [← hgm, ← hga]; exact R.keys
      · rw [← hgm, ← hga]; exact R.named
      · rw [← hgm, ← hga]; exact R.bound
      · rw [← hgm, ← hga]; exact R.rest
    · rintro ⟨ρ, R⟩
      refine ⟨ρ, ?_, ?_, ?_, ?_, ?_⟩
      · rw [hgm]; exact R.strings
      · rw [hgm, hga]; exact R.keys
      · rw [hgm, hga]; exact R.named
      · rw [hgm, hga]; exact R.bound
      · rw [hgm, hga]; exact R.rest
  obtain ⟨N, hN⟩ := many_keys_partial m a h ha hp
  obtain ⟨M, hM⟩ := many_keys_partial m' a' hP ha' hA
  refine ⟨N + M, fun fuel hf => ?_⟩
  obtain ⟨r, h1, h2⟩ := hN fuel (by omega)
  obtain ⟨r', h3, h4⟩ := hM fuel (by omega)
  rw [h1, h3]
  simp only [Option.some.injEq]
  rw [h2, h4, hR]

/-! ### A concrete case -/

/-- A template with two placeholders as keys, one of them bound twice, and one that is a value only. -/
def manyTemplate : Members := objOf [(asc "{id}", .obj (objOf [(asc "size", .num 3)])), (asc "last", .str (asc "{id}")),
  (asc "first", .str (asc "{to}")), (asc "{to}", .num 7), (asc "again", .str (asc "{to}")), (asc "free", .str (asc "{x}")), (asc "ok", .bool true)]

/-- A document it matches. -/
def manyDocument : Members := objOf [(asc "last", .str (asc "a7")), (asc "ok", .bool true), (asc "a7", .obj (objOf [(asc "size", .num 3)])),
  (asc "b2", .num 7), (asc "again", .str (asc "b2")), (asc "first", .str (asc "b2")), (asc "free", .arr (.cons (.num 1) .nil))]

theorem manyTemplate_ok : Placeholders manyTemplate where
  wf := by simp [manyTemplate, objOf, Members.WF, Members.get, Doc.WF, asc]
  keyPlain := by
    intro k d hb hd
    have hb := (braced_iff k).mp hb
    have := (mem_keys manyTemplate k).mpr (by rw [hd]; rfl)
    simp only [manyTemplate, objOf, Members.keys, List.mem_cons, List.not_mem_nil, or_false] at this
    rcases this with rfl | rfl | rfl | rfl | rfl | rfl | rfl
    · cases hd
      refine ⟨by simp [Doc.Plain, objOf, Members.Plain]; decide, ?_, by simp [IsAny], by simp [IsName]⟩
      simp [Doc.Literal, objOf, Members.Literal, IsAny, IsName]
    · exact absurd hb (by decide)
    · exact absurd hb (by decide)
    · cases hd
      exact ⟨trivial, trivial, by simp [IsAny], by simp [IsName]⟩
    · exact absurd hb (by decide)
    · exact absurd hb (by decide)
    · exact absurd hb (by decide)
  keyBound := by
    intro k hb hk
    have hb := (braced_iff k).mp hb
    have := (mem_keys manyTemplate k).mpr hk
    simp only [manyTemplate, objOf, Members.keys, List.mem_cons, List.not_mem_nil, or_false] at this
    rcases this with rfl | rfl | rfl | rfl | rfl | rfl | rfl
    · exact ⟨asc "last", _, rfl, (isName_iff _ _).mpr ⟨rfl, by decide, by decide⟩⟩
    · exact absurd hb (by decide)
    · exact absurd hb (by decide)
    · exact ⟨asc "again", _, rfl, (isName_iff _ _).mpr ⟨rfl, by decide, by decide⟩⟩
    · exact absurd hb (by decide)
    · exact absurd hb (by decide)
    · exact absurd hb (by decide)
  rest := by
    intro k d hb hd hn
    have hb : ¬ isVar k = true := fun h => hb ((braced_iff k).mpr h)
    have := (mem_keys manyTemplate k).mpr (by rw [hd]; rfl)
    simp only [manyTemplate, objOf, Members.keys, List.mem_cons, List.not_mem_nil, or_false] at this
    rcases this with rfl | rfl | rfl | rfl | rfl | rfl | rfl
    · exact absurd (by decide) hb
    · cases hd; exact absurd ⟨asc "{id}", (isName_iff _ _).mpr ⟨rfl, by decide, by decide⟩⟩ hn
    · cases hd; exact absurd ⟨asc "{to}", (isName_iff _ _).mpr ⟨rfl, by decide, by decide⟩⟩ hn
    · exact absurd (by decide) hb
    · cases hd; exact absurd ⟨asc "{to}", (isName_iff _ _).mpr ⟨rfl, by decide, by decide⟩⟩ hn
    · cases hd; exact absurd ⟨asc "{x}", (isName_iff _ _).mpr ⟨rfl, by decide, by decide⟩⟩ hn
    · cases hd
      exact ⟨trivial, trivial, by simp [IsAny]⟩

theorem manyDocument_apart : Apart manyTemplate manyDocument := by
  have hkeys : ∀ n x, manyTemplate.get n = some (.str x) → (manyTemplate.get x).isSome →
      n = asc "last" ∧ x = asc "{id}" ∨ n = asc "first" ∧ x = asc "{to}" ∨ n = asc "again" ∧ x = asc "{to}" := by
    intro n x hn hx
    have := (mem_keys manyTemplate n).mpr (by rw [hn]; rfl)
    simp only [manyTemplate, objOf, Members.keys, List.mem_cons, List.not_mem_nil, or_false] at this
    rcases this with rfl | rfl | rfl | rfl | rfl | rfl | rfl
    · cases hn
    · cases hn; exact Or.inl ⟨rfl, rfl⟩
    · cases hn; exact Or.inr (Or.inl ⟨rfl, rfl⟩)
    · cases hn
    · cases hn; exact Or.inr (Or.inr ⟨rfl, rfl⟩)
    · cases hn; exact absurd hx (by decide +kernel)
    · cases hn
  refine ⟨?_, ?_, ?_⟩
  · intro k hb hk
    have hb := (braced_iff k).mp hb
    have := (mem_keys manyTemplate k).mpr hk
    simp only [manyTemplate, objOf, Members.keys, List.mem_cons, List.not_mem_nil, or_false] at this
    rcases this with rfl | rfl | rfl | rfl | rfl | rfl | rfl
    · rfl
    · exact absurd hb (by decide)
    · exact absurd hb (by decide)
    · rfl
    · exact absurd hb (by decide)
    · exact absurd hb (by decide)
    · exact absurd hb (by decide)
  · intro n x foo h1 _ h3 h4
    rcases hkeys n x h1 h3 with ⟨rfl, rfl⟩ | ⟨rfl, rfl⟩ | ⟨rfl, rfl⟩ <;> cases h4 <;> rfl
  · intro n x n' x' foo h1 _ h3 h4 h1' _ h3' h4'
    rcases hkeys n x h1 h3 with ⟨rfl, rfl⟩ | ⟨rfl, rfl⟩ | ⟨rfl, rfl⟩ <;>
      rcases hkeys n' x' h1' h3' with ⟨rfl, rfl⟩ | ⟨rfl, rfl⟩ | ⟨rfl, rfl⟩ <;> cases h4 <;> first | rfl | (cases h4')

example : jsonEqualK 60 (.obj manyTemplate) (.obj manyDocument) = some .accepted := by decide +kernel

/-- With the two members for one placeholder apart it fails. -/
example : jsonEqualK 60 (.obj manyTemplate) (.obj (manyDocument.set (asc "again") (.str (asc "a7")))) = some .failed := by decide +kernel

end Verif.JsonEqual
