import Verif.Spew.Inject

/-!
# go-spew: values with the same dump

From dumps that agree to values that agree.
-/

namespace Verif.Spew

/-! ## Specification: values that agree -/

mutual
  /-- `v` and `w` agree: the same types, numbers, texts, lengths, field names and parts.  Capacities and
  addresses may differ; nothing is said about two pointers that are both shown as `(<nil>)` or both as
  `(<already shown>)`. -/
  inductive Same (E : Env) : Val → Val → Prop where
    | bool {ty b} : Same E (.bool ty b) (.bool ty b)
    | num {ty t} : Same E (.num ty t) (.num ty t)
    | str {ty s} : Same E (.str ty s) (.str ty s)
    | word {ty n l c c'} : Same E (.word ty n l c) (.word ty n l c')
    | nilIface {ty} : Same E (.nilIface ty) (.nilIface ty)
    | nilSlice {ty c c'} : Same E (.slice ty 0 c) (.slice ty 0 c')
    | nilMap {ty} : Same E (.map ty 0) (.map ty 0)
    | nilBlob {ty s s' c c'} : Same E (.blob ty true s c) (.blob ty true s' c')
    | blob {ty s c c'} : Same E (.blob ty false s c) (.blob ty false s c')
    | slice {ty a a' c c'} : a ≠ 0 → a' ≠ 0 → SameElems E (E.elems a) (E.elems a') → Same E (.slice ty a c) (.slice ty a' c')
    | array {ty vs ws} : SameElems E vs ws → Same E (.array ty vs) (.array ty ws)
    | map {ty a a'} : a ≠ 0 → a' ≠ 0 → SameEntries E (E.entries a) (E.entries a') → Same E (.map ty a) (.map ty a')
    | struct {ty fs gs} : SameFields E fs gs → Same E (.struct ty fs) (.struct ty gs)
    /-- Following as many pointers leads to values that agree. -/
    | ptr {v v' chain chain' w w'} : IsPtr v → IsPtr v' → Leads E v chain w → Leads E v' chain' w' → chain.length = chain'.length →
        ¬IsPtr w → ¬IsPtr w' → Same E w w' → Same E v v'
    /-- Both end at a nil pointer or a nil interface. -/
    | ptrNil {v v' chain chain' w w'} : IsPtr v → IsPtr v' → Leads E v chain w → Leads E v' chain' w' →
        ((∃ ty, w = .ptr ty 0) ∨ ∃ ty, w = .nilIface ty) → ((∃ ty, w' = .ptr ty 0) ∨ ∃ ty, w' = .nilIface ty) →
        rep (asc "*") chain.length ++ typeName w = rep (asc "*") chain'.length ++ typeName w' → Same E v v'
    /-- Both end at a pointer that was seen before. -/
    | ptrShown {v v' chain chain' ty ty' a a'} : Leads E v chain (.ptr ty a) → Leads E v' chain' (.ptr ty' a') → a ≠ 0 → a' ≠ 0 →
        rep (asc "*") chain.length ++ ty = rep (asc "*") chain'.length ++ ty' → Same E v v'
  /-- Elements that agree one by one. -/
  inductive SameElems (E : Env) : List Val → List Val → Prop where
    | nil : SameElems E [] []
    | cons {v w vs ws} : Same E (unpack v) (unpack w) → SameElems E vs ws → SameElems E (v :: vs) (w :: ws)
  /-- Entries that agree one by one. -/
  inductive SameEntries (E : Env) : List (Val × Val) → List (Val × Val) → Prop where
    | nil : SameEntries E [] []
    | cons {v w vs ws} : Same E (unpack v.1) (unpack w.1) → Same E (unpack v.2) (unpack w.2) → SameEntries E vs ws →
        SameEntries E (v :: vs) (w :: ws)
  /-- Fields that agree one by one, with their names. -/
  inductive SameFields (E : Env) : List (Bytes × Val) → List (Bytes × Val) → Prop where
    | nil : SameFields E [] []
    | cons {v w vs ws} : v.1 = w.1 → Same E (unpack v.2) (unpack w.2) → SameFields E vs ws → SameFields E (v :: vs) (w :: ws)
end

/-- Everything reached from `v` agrees with its type. -/
def AllTyped (Γ : Types) (E : Env) (v : Val) : Prop := ∀ w, Reach E v w → Typed Γ E w

theorem AllTyped.part {Γ : Types} {E : Env} {v w : Val} (h : AllTyped Γ E v) (hp : Part E w v) : AllTyped Γ E w :=
  fun u hu => h u (Reach.trans (.part .refl hp) hu)

theorem AllTyped.reach {Γ : Types} {E : Env} {v w : Val} (h : AllTyped Γ E v) (hp : Reach E v w) : AllTyped Γ E w :=
  fun u hu => h u (hp.trans hu)

theorem AllTyped.valid {Γ : Types} {E : Env} {v : Val} (h : AllTyped Γ E v) : Valid E v := by
  intro w hw he
  have := (h w hw).2.2
  subst he
  exact this

/-- What a chain of pointers leads to is not shown as `<nil>`. -/
theorem Leads.not_nil {Γ : Types} {E : Env} {v chain w} (h : Leads E v chain w) (ht : AllTyped Γ E v) (hv : IsPtr v) (hw : ¬IsPtr w) :
    ¬ShownNil w := by
  induction chain generalizing v with
  | nil => cases h; exact absurd hv hw
  | cons a chain ih =>
    cases h with
    | step h0 h =>
      rename_i ty
      by_cases hp : IsPtr (unpack (E.at_ a))
      · exact ih h (ht.reach (.target .refl ⟨ty, a, rfl, h0, rfl⟩)) hp
      · generalize hu : unpack (E.at_ a) = u at h hp
        cases h with
        | here => rw [← hu]; exact (ht _ .refl).2.2 h0
        | step _ _ => exact absurd trivial hp

theorem balanced_stars {ty : Bytes} (h : Balanced 0 ty) : ∀ k, Balanced 0 (rep (asc "*") k ++ ty) := by
  intro k
  induction k with
  | zero => simpa [rep] using h
  | succ k ih =>
    have : rep (asc "*") (k + 1) ++ ty = 42 :: (rep (asc "*") k ++ ty) := by simp [rep, List.replicate_succ, asc]
    rw [this, Balanced, if_neg (by decide), if_neg (by decide)]
    exact ih

theorem headOf_note {E : Env} (hE : Plainly E) (v : Val) : (headOf E v).note = [] := by
  simp [headOf, hE.methods]

theorem pic_ty {E : Env} {v : Val} {t : Tree} (h : Pic E v t) (hp : ¬IsPtr v) : tyOf t = some (typeName v) := by
  cases h with
  | ptr h1 => exact absurd h1 hp
  | ptrNil h1 => exact absurd h1 hp
  | ptrShown h1 =>
    cases h1 with
    | here => exact absurd trivial hp
    | step _ _ => exact absurd trivial hp
  | _ => rfl

mutual
  /-- A picture of a value with types agrees with the types. -/
  theorem pic_fits {Γ : Types} {E : Env} (hE : Plainly E) : ∀ (t : Tree) (v : Val), Pic E v t → AllTyped Γ E v → Fits Γ t
    | .leaf h l, v, hp, ht => by
      have hn := headOf_note hE v
      have hty := ht v .refl
      have hb := hty.1
      have hk := hty.2.2
      cases hp with
      | handled h1 h2 => rw [hE.methods] at h2; cases h2
      | tooDeep h1 h2 => exact absurd hE.maxDepth h2
      | iface => exact absurd hk (by simp)
      | bool => exact ⟨⟨hb, hn⟩, hk, rfl⟩
      | num => exact ⟨⟨hb, hn⟩, hk.1, rfl, hk.2⟩
      | str => exact ⟨⟨hb, hn⟩, hk⟩
      | word => exact ⟨⟨hb, hn⟩, hk⟩
      | nilIface => exact ⟨⟨hb, hn⟩, .inl hk⟩
      | nilSlice => exact ⟨⟨hb, hn⟩, .inr (.inl hk)⟩
      | nilMap => exact ⟨⟨hb, hn⟩, .inr (.inr (.inl hk))⟩
      | nilBlob => exact ⟨⟨hb, hn⟩, .inr (.inr (.inr hk))⟩
      | blob => exact ⟨⟨hb, hn⟩, hk, rfl⟩
    | .group h ks, v, hp, ht => by
      have hn := headOf_note hE v
      have hty := ht v .refl
      have hb := hty.1
      have hk := hty.2.2
      cases hp with
      | slice h0 hks =>
        rename_i ty a c
        refine ⟨⟨hb, hn⟩, .elems (E.elems a).length, ?_, ?_⟩
        · simp only [shapeOf, headOf, typeName, lenCap, if_neg h0]; rw [hk]
        · exact elems_fit hE ks _ hks fun w hw => ht.part (by
            simp only [Part, parts, h0, if_false, List.mem_map]; exact ⟨w, hw, rfl⟩)
      | array hks =>
        rename_i ty vs
        refine ⟨⟨hb, hn⟩, .elems vs.length, ?_, ?_⟩
        · simp only [shapeOf, headOf, typeName, lenCap]; rw [hk]
        · exact elems_fit hE ks _ hks fun w hw => ht.part (by
            simp only [Part, parts, List.mem_map]; exact ⟨w, hw, rfl⟩)
      | map h0 hks =>
        rename_i ty a
        refine ⟨⟨hb, hn⟩, .entries (E.entries a).length, ?_, ?_⟩
        · simp only [shapeOf, headOf, typeName, lenCap, if_neg h0]; rw [hk]
        · exact entries_fit hE ks _ hks fun w hw => ⟨ht.part (by
            simp only [Part, parts, h0, if_false, List.mem_flatMap]; exact ⟨w, hw, by simp⟩), ht.part (by
            simp only [Part, parts, h0, if_false, List.mem_flatMap]; exact ⟨w, hw, by simp⟩)⟩
      | struct hks =>
        rename_i ty fs
        refine ⟨⟨hb, hn⟩, .fields (fs.map Prod.fst), ?_, ?_⟩
        · simp only [shapeOf, headOf, typeName]; rw [hk.1, hk.2]
        · exact fields_fit hE ks _ hks fun w hw => ht.part (by
            simp only [Part, parts, List.mem_map]; exact ⟨w, hw, rfl⟩)
    | .ptr name chain t, v, hp, ht => by
      cases hp with
      | ptr h1 h2 h3 h6 h4 h5 =>
        rename_i w
        have hw := ht w h2.reach
        refine ⟨by rw [h4]; exact balanced_stars hw.1 _, ⟨_, typeName w, h4, pic_ty h5 h3, hw.2.1 h3⟩, ?_,
          pic_fits hE t w h5 (ht.reach h2.reach)⟩
        have hn := h2.not_nil ht h1 h3
        cases h5 <;> first | trivial | exact absurd rfl hn | exact hn | exact absurd rfl (h6 _)
    | .ptrNil name chain, v, hp, ht => by
      cases hp with
      | ptrNil h1 h2 h3 h4 => rw [Fits, h4]; exact balanced_stars (ht _ h2.reach).1 _
    | .ptrShown name chain, v, hp, ht => by
      cases hp with
      | ptrShown h2 h3 h4 => rw [Fits, h4]; exact balanced_stars (ht _ h2.reach).1 _
  theorem elems_fit {Γ : Types} {E : Env} (hE : Plainly E) : ∀ (ks : Kids) (vs : List Val), PicElems E vs ks →
      (∀ v ∈ vs, AllTyped Γ E (unpack v)) → KidsFit Γ (.elems vs.length) ks
    | .nil, vs, hp, _ => by cases hp; rfl
    | .elem t ks, vs, hp, h => by
      cases hp with
      | cons h1 h2 =>
        exact ⟨by simp, pic_fits hE t _ h1 (h _ (by simp)), elems_fit hE ks _ h2 fun v hv => h v (by simp [hv])⟩
    | .entry _ _ _, vs, hp, _ => nomatch hp
    | .field _ _ _, vs, hp, _ => nomatch hp
  theorem entries_fit {Γ : Types} {E : Env} (hE : Plainly E) : ∀ (ks : Kids) (vs : List (Val × Val)), PicEntries E vs ks →
      (∀ v ∈ vs, AllTyped Γ E (unpack v.1) ∧ AllTyped Γ E (unpack v.2)) → KidsFit Γ (.entries vs.length) ks
    | .nil, vs, hp, _ => by cases hp; rfl
    | .entry k t ks, vs, hp, h => by
      cases hp with
      | cons h1 h2 h3 =>
        exact ⟨by simp, pic_fits hE k _ h1 (h _ (by simp)).1, pic_fits hE t _ h2 (h _ (by simp)).2,
          entries_fit hE ks _ h3 fun v hv => h v (by simp [hv])⟩
    | .elem _ _, vs, hp, _ => nomatch hp
    | .field _ _ _, vs, hp, _ => nomatch hp
  theorem fields_fit {Γ : Types} {E : Env} (hE : Plainly E) : ∀ (ks : Kids) (vs : List (Bytes × Val)), PicFields E vs ks →
      (∀ v ∈ vs, AllTyped Γ E (unpack v.2)) → KidsFit Γ (.fields (vs.map Prod.fst)) ks
    | .nil, vs, hp, _ => by cases hp; rfl
    | .field _ t ks, vs, hp, h => by
      cases hp with
      | cons h1 h2 =>
        exact ⟨rfl, pic_fits hE t _ h1 (h _ (by simp)), fields_fit hE ks _ h2 fun v hv => h v (by simp [hv])⟩
    | .entry _ _ _, vs, hp, _ => nomatch hp
    | .elem _ _, vs, hp, _ => nomatch hp
end

theorem star_count : ∀ (m n : Nat) (s t : Bytes), NoStar s → NoStar t → rep (asc "*") m ++ s = rep (asc "*") n ++ t → m = n := by
  intro m
  induction m with
  | zero =>
    intro n s t hs ht h
    cases n with
    | zero => rfl
    | succ n =>
      exfalso
      apply hs
      have : s = rep (asc "*") (n + 1) ++ t := by simpa [rep] using h
      rw [this]; rfl
  | succ m ih =>
    intro n s t hs ht h
    cases n with
    | zero =>
      exfalso
      apply ht
      have : t = rep (asc "*") (m + 1) ++ s := by simpa [rep] using h.symm
      rw [this]; rfl
    | succ n =>
      rw [ih n s t hs ht (by simpa [rep, List.replicate_succ, asc] using h)]

/-- Nothing shown as a leaf has two readings. -/
theorem leaf_same {Γ : Types} {E : Env} (hE : Plainly E) {h k : Head} {l : Leaf} {v w : Val} (hv : Pic E v (.leaf h l)) (hw : Pic E w (.leaf k l))
    (tv : Typed Γ E v) (tw : Typed Γ E w) (hty : h.ty = k.ty) (hlen : h.len = k.len) : Same E v w := by
  have kv := tv.2.2
  have kw := tw.2.2
  cases hv with
  | handled h1 h2 => rw [hE.methods] at h2; cases h2
  | tooDeep h1 h2 => exact absurd hE.maxDepth h2
  | iface => exact absurd kv (by simp)
  | bool => cases hw with | bool => cases hty; exact .bool
  | num => cases hw with | num => cases hty; exact .num
  | str => cases hw with | str => cases hty; exact .str
  | word => cases hw with | word => cases hty; cases hlen; exact .word
  | blob => cases hw with | blob => cases hty; exact .blob
  | nilIface =>
    cases hw with
    | nilIface => cases hty; exact .nilIface
    | _ => simp_all [headOf, typeName]
  | nilSlice =>
    cases hw with
    | nilSlice => cases hty; exact .nilSlice
    | _ => simp_all [headOf, typeName]
  | nilMap =>
    cases hw with
    | nilMap => cases hty; exact .nilMap
    | _ => simp_all [headOf, typeName]
  | nilBlob =>
    cases hw with
    | nilBlob => cases hty; exact .nilBlob
    | _ => simp_all [headOf, typeName]

theorem erase_leaf {h : Head} {l : Leaf} {u : Tree} (e : erase (.leaf h l) = erase u) :
    ∃ k, u = .leaf k l ∧ h.ty = k.ty ∧ h.len = k.len := by
  cases u with
  | leaf k m =>
    simp only [erase, Tree.leaf.injEq, Head.mk.injEq] at e
    exact ⟨k, by rw [e.2], e.1.1, e.1.2.1⟩
  | _ => simp [erase] at e

theorem erase_group {h : Head} {ks : Kids} {u : Tree} (e : erase (.group h ks) = erase u) :
    ∃ k ls, u = .group k ls ∧ h.ty = k.ty ∧ h.len = k.len ∧ eraseKids ks = eraseKids ls := by
  cases u with
  | group k ls =>
    simp only [erase, Tree.group.injEq, Head.mk.injEq] at e
    exact ⟨k, ls, rfl, e.1.1, e.1.2.1, e.2⟩
  | _ => simp [erase] at e

mutual
  /-- Values with the same picture agree. -/
  theorem pic_same {Γ : Types} {E : Env} (hE : Plainly E) : ∀ (t u : Tree) (v w : Val), Pic E v t → Pic E w u → AllTyped Γ E v → AllTyped Γ E w →
      erase t = erase u → Same E v w
    | .leaf h l, u, v, w, hv, hw, tv, tw, e => by
      obtain ⟨k, rfl, h1, h2⟩ := erase_leaf e
      exact leaf_same hE hv hw (tv v .refl) (tw w .refl) h1 h2
    | .group h ks, u, v, w, hv, hw, tv, tw, e => by
      obtain ⟨k, ls, rfl, h1, h2, e'⟩ := erase_group e
      have kv := (tv v .refl).2.2
      have kw := (tw w .refl).2.2
      cases hv with
      | slice h0 hks =>
        cases hw with
        | slice h0' hls =>
          cases h1
          refine .slice h0 h0' (elems_same hE ks ls _ _ hks hls (fun w hw => tv.part ?_) (fun w hw => tw.part ?_) e')
          · simp only [Part, parts, h0, if_false, List.mem_map]; exact ⟨w, hw, rfl⟩
          · simp only [Part, parts, h0', if_false, List.mem_map]; exact ⟨w, hw, rfl⟩
        | _ => simp_all [headOf, typeName]
      | array hks =>
        cases hw with
        | array hls =>
          cases h1
          refine .array (elems_same hE ks ls _ _ hks hls (fun w hw => tv.part ?_) (fun w hw => tw.part ?_) e')
          · simp only [Part, parts, List.mem_map]; exact ⟨w, hw, rfl⟩
          · simp only [Part, parts, List.mem_map]; exact ⟨w, hw, rfl⟩
        | _ => simp_all [headOf, typeName]
      | map h0 hks =>
        cases hw with
        | map h0' hls =>
          cases h1
          refine .map h0 h0' (entries_same hE ks ls _ _ hks hls (fun w hw => ⟨tv.part ?_, tv.part ?_⟩) (fun w hw => ⟨tw.part ?_, tw.part ?_⟩) e')
          · simp only [Part, parts, h0, if_false, List.mem_flatMap]; exact ⟨w, hw, by simp⟩
          · simp only [Part, parts, h0, if_false, List.mem_flatMap]; exact ⟨w, hw, by simp⟩
          · simp only [Part, parts, h0', if_false, List.mem_flatMap]; exact ⟨w, hw, by simp⟩
          · simp only [Part, parts, h0', if_false, List.mem_flatMap]; exact ⟨w, hw, by simp⟩
        | _ => simp_all [headOf, typeName]
      | struct hks =>
        cases hw with
        | struct hls =>
          cases h1
          refine .struct (fields_same hE ks ls _ _ hks hls (fun w hw => tv.part ?_) (fun w hw => tw.part ?_) e')
          · simp only [Part, parts, List.mem_map]; exact ⟨w, hw, rfl⟩
          · simp only [Part, parts, List.mem_map]; exact ⟨w, hw, rfl⟩
        | _ => simp_all [headOf, typeName]
    | .ptr name chain t, u, v, w, hv, hw, tv, tw, e => by
      cases u with
      | ptr name' chain' t' =>
        simp only [erase, Tree.ptr.injEq, true_and] at e
        obtain ⟨e1, e2⟩ := e
        cases hv with
        | ptr h1 h2 h3 h6 h4 h5 =>
          cases hw with
          | ptr k1 k2 k3 k6 k4 k5 =>
            have hlen := star_count _ _ _ _ ((tv _ h2.reach).2.1 h3) ((tw _ k2.reach).2.1 k3) (by rw [← h4, ← k4, e1])
            exact .ptr h1 k1 h2 k2 hlen h3 k3 (pic_same hE t t' _ _ h5 k5 (tv.reach h2.reach) (tw.reach k2.reach) e2)
      | _ => simp [erase] at e
    | .ptrNil name chain, u, v, w, hv, hw, tv, tw, e => by
      cases u with
      | ptrNil name' chain' =>
        simp only [erase, Tree.ptrNil.injEq, and_true] at e
        cases hv with
        | ptrNil h1 h2 h3 h4 =>
          cases hw with
          | ptrNil k1 k2 k3 k4 => exact .ptrNil h1 k1 h2 k2 h3 k3 (by rw [← h4, ← k4, e])
      | _ => simp [erase] at e
    | .ptrShown name chain, u, v, w, hv, hw, tv, tw, e => by
      cases u with
      | ptrShown name' chain' =>
        simp only [erase, Tree.ptrShown.injEq, and_true] at e
        cases hv with
        | ptrShown h1 h2 h3 =>
          cases hw with
          | ptrShown k1 k2 k3 => exact .ptrShown h1 k1 h2 k2 (by rw [← h3, ← k3, e])
      | _ => simp [erase] at e
  theorem elems_same {Γ : Types} {E : Env} (hE : Plainly E) : ∀ (ks ls : Kids) (vs ws : List Val), PicElems E vs ks → PicElems E ws ls →
      (∀ v ∈ vs, AllTyped Γ E (unpack v)) → (∀ v ∈ ws, AllTyped Γ E (unpack v)) → eraseKids ks = eraseKids ls → SameElems E vs ws
    | .nil, ls, vs, ws, hv, hw, _, _, e => by
      cases hv
      cases hw with
      | nil => exact .nil
      | cons _ _ => simp [eraseKids] at e
    | .elem t ks, ls, vs, ws, hv, hw, tv, tw, e => by
      cases hv with
      | cons h1 h2 =>
        cases hw with
        | nil => simp [eraseKids] at e
        | cons k1 k2 =>
          simp only [eraseKids, Kids.elem.injEq] at e
          exact .cons (pic_same hE t _ _ _ h1 k1 (tv _ (by simp)) (tw _ (by simp)) e.1)
            (elems_same hE ks _ _ _ h2 k2 (fun v hv => tv v (by simp [hv])) (fun v hv => tw v (by simp [hv])) e.2)
    | .entry _ _ _, _, _, _, hp, _, _, _, _ => nomatch hp
    | .field _ _ _, _, _, _, hp, _, _, _, _ => nomatch hp
  theorem entries_same {Γ : Types} {E : Env} (hE : Plainly E) : ∀ (ks ls : Kids) (vs ws : List (Val × Val)), PicEntries E vs ks → PicEntries E ws ls →
      (∀ v ∈ vs, AllTyped Γ E (unpack v.1) ∧ AllTyped Γ E (unpack v.2)) → (∀ v ∈ ws, AllTyped Γ E (unpack v.1) ∧ AllTyped Γ E (unpack v.2)) →
      eraseKids ks = eraseKids ls → SameEntries E vs ws
    | .nil, ls, vs, ws, hv, hw, _, _, e => by
      cases hv
      cases hw with
      | nil => exact .nil
      | cons _ _ _ => simp [eraseKids] at e
    | .entry k t ks, ls, vs, ws, hv, hw, tv, tw, e => by
      cases hv with
      | cons h1 h2 h3 =>
        cases hw with
        | nil => simp [eraseKids] at e
        | cons k1 k2 k3 =>
          simp only [eraseKids, Kids.entry.injEq] at e
          exact .cons (pic_same hE k _ _ _ h1 k1 (tv _ (by simp)).1 (tw _ (by simp)).1 e.1)
            (pic_same hE t _ _ _ h2 k2 (tv _ (by simp)).2 (tw _ (by simp)).2 e.2.1)
            (entries_same hE ks _ _ _ h3 k3 (fun v hv => tv v (by simp [hv])) (fun v hv => tw v (by simp [hv])) e.2.2)
    | .elem _ _, _, _, _, hp, _, _, _, _ => nomatch hp
    | .field _ _ _, _, _, _, hp, _, _, _, _ => nomatch hp
  theorem fields_same {Γ : Types} {E : Env} (hE : Plainly E) : ∀ (ks ls : Kids) (vs ws : List (Bytes × Val)), PicFields E vs ks → PicFields E ws ls →
      (∀ v ∈ vs, AllTyped Γ E (unpack v.2)) → (∀ v ∈ ws, AllTyped Γ E (unpack v.2)) → eraseKids ks = eraseKids ls → SameFields E vs ws
    | .nil, ls, vs, ws, hv, hw, _, _, e => by
      cases hv
      cases hw with
      | nil => exact .nil
      | cons _ _ => simp [eraseKids] at e
    | .field _ t ks, ls, vs, ws, hv, hw, tv, tw, e => by
      cases hv with
      | cons h1 h2 =>
        cases hw with
        | nil => simp [eraseKids] at e
        | cons k1 k2 =>
          simp only [eraseKids, Kids.field.injEq] at e
          exact .cons e.1 (pic_same hE t _ _ _ h1 k1 (tv _ (by simp)) (tw _ (by simp)) e.2.1)
            (fields_same hE ks _ _ _ h2 k2 (fun v hv => tv v (by simp [hv])) (fun v hv => tw v (by simp [hv])) e.2.2)
    | .entry _ _ _, _, _, _, hp, _, _, _, _ => nomatch hp
    | .elem _ _, _, _, _, hp, _, _, _, _ => nomatch hp
end

/-- **C107, where it holds**: with the configuration that `assert.Equal` explains failures with, and without
`Error` and `String` methods, two values have the same dump only if they agree in types, lengths, numbers,
texts, bytes, field names and all parts, through any pointers.  What is missing: pointers shown as `(<nil>)`
or `(<already shown>)`, pointers to nil slices and the like, and values with methods
(`nil_pointers_look_alike`, `nil_slice_looks_like_nil_pointer`, `methods_hide_difference`). -/
theorem same_dump_same_value_partial {Γ : Types} {E : Env} (hE : Plainly E) {v w : Val} (tv : AllTyped Γ E v) (tw : AllTyped Γ E w)
    {m n : Nat} {out : Bytes} (hv : sdump E m (some v) = some out) (hw : sdump E n (some w) = some out) : Same E v w := by
  obtain ⟨t, pt, e1, -⟩ := sdump_is_picture_partial tv.valid hv
  obtain ⟨u, pu, e2, -⟩ := sdump_is_picture_partial tw.valid hw
  have hlf : Term (asc "\n") := by simpa using Term.lf []
  obtain ⟨e, -⟩ := full_inj hE 0 t u _ _ (pic_fits hE t v pt tv) (pic_fits hE u w pu tw) hlf hlf (e1.symm.trans e2)
  exact pic_same hE t u v w pt pu tv tw e

/-! ## Where different values look alike -/

/-- **C107 fails**: a nil `**int` and a pointer to a nil `*int` have the same dump. -/
theorem nil_pointers_look_alike (E : Env) (hp : E.disableAddresses = true) (h : E.at_ 1 = .ptr (asc "*int") 0) :
    sdump E 9 (some (.ptr (asc "**int") 0)) = some (asc "(**int)(<nil>)\n") ∧
    sdump E 9 (some (.ptr (asc "**int") 1)) = some (asc "(**int)(<nil>)\n") := by
  constructor
  · simp [sdump, dump, dumpPtr, chase, indent, St.init, St.write, typeName, hp, asc, rep]
  · simp [sdump, dump, dumpPtr, chase, indent, St.init, St.write, prune, shownAbove, h, unpack, typeName, hp, asc, rep]

/-- **C107 fails**: a nil `*[]int` and a pointer to a nil `[]int` have the same dump. -/
theorem nil_slice_looks_like_nil_pointer :
    let E := Env.sample (fun _ => .slice (asc "[]int") 0 0) (fun _ => []) (fun _ => [])
    sdump E 9 (some (.ptr (asc "*[]int") 0)) = sdump E 9 (some (.ptr (asc "*[]int") 1)) ∧
    sdump E 9 (some (.ptr (asc "*[]int") 1)) = some (asc "(*[]int)(<nil>)\n") := by
  decide +kernel

/-- **C107 fails**: where a type has a `String` method, only what that returns is shown, whatever the parts are;
two values that `assert.Equal` calls different are then explained by an empty difference. -/
theorem methods_hide_difference :
    let E := { Env.sample (fun _ => .invalid) (fun _ => []) (fun _ => []) with meth := fun _ => .text (asc "point") }
    sdump E 9 (some (.struct (asc "main.P") [(asc "X", .num (asc "int") (asc "1"))])) = some (asc "(main.P) point\n") ∧
    sdump E 9 (some (.struct (asc "main.P") [(asc "X", .num (asc "int") (asc "2"))])) = some (asc "(main.P) point\n") := by
  decide +kernel

/-! ## A concrete case -/

/-- A quotation good enough for the example: the length in front of the text. -/
def tally (s : Bytes) : Bytes := 34 :: (List.replicate s.length 43 ++ 34 :: s)

theorem tally_quotes : Quotes tally := by
  refine ⟨fun s => rfl, fun s t x y h => ?_⟩
  simp only [tally, List.cons_append, List.cons.injEq, true_and, List.append_assoc] at h
  have hh : ∀ (z : Bytes) (c : UInt8), (34 :: z).head? = some c → (c == 43) = false := by
    intro z c hc
    simp only [List.head?_cons, Option.some.injEq] at hc
    subst hc; rfl
  obtain ⟨h1, h2⟩ := span_inj (p := (· == 43)) (by simp [List.mem_replicate]) (by simp [List.mem_replicate]) (hh _) (hh _) h
  have hl : s.length = t.length := by simpa using congrArg List.length h1
  exact List.append_inj (List.cons.inj h2).2 hl

/-- The ring of two nodes again, with that quotation. -/
def ring' : Env := { ring with quote := tally }

/-- The hypotheses of `same_dump_same_value_partial` hold for a value with a circle. -/
example : ∃ Γ, Plainly ring' ∧ AllTyped Γ ring' (.ptr (asc "*main.Node") 1) := by
  refine ⟨⟨fun _ => .struct, fun _ => [asc "Next"]⟩, ⟨?_, rfl, rfl, rfl, ?_, tally_quotes⟩, ?_⟩
  · intro c hc
    have : c = 32 := by simpa [ring', ring, Env.sample, asc] using hc
    exact .inl this
  · intro v; cases v <;> rfl
  · intro w hw
    have key : ∃ a, (a = 1 ∨ a = 2) ∧ (w = .ptr (asc "*main.Node") a ∨ w = .struct (asc "main.Node") [(asc "Next", .ptr (asc "*main.Node") a)]) := by
      have conv : ∀ w, Reach ring' (.ptr (asc "*main.Node") 1) w → Reach ring (.ptr (asc "*main.Node") 1) w := by
        intro w hw
        induction hw with
        | refl => exact .refl
        | part _ h ih => exact .part ih (by rename_i u _ _; cases u <;> exact h)
        | target _ h ih => exact .target ih h
      exact ring_reach (conv w hw)
    obtain ⟨a, ha, rfl | rfl⟩ := key
    · refine ⟨by simp [Balanced, typeName, asc], fun h => absurd trivial h, fun _ => ?_⟩
      rcases ha with rfl | rfl <;> simp [ring', ring, Env.sample, unpack, ShownNil]
    · exact ⟨by simp [Balanced, typeName, asc], fun _ => by simp [NoStar, typeName, asc], rfl, rfl⟩

end Verif.Spew
