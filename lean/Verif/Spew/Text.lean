import Verif.Spew.Ends

/-!
# go-spew: what `Sdump` writes, as a picture of the value

The state of `dump` (what to leave out next, where the pointers were) is separated from the text: every
dump is the text of a tree.
-/

namespace Verif.Spew

/-! ## Specification: pictures -/

/-- What stands in front of the contents of a value: its type, length and capacity, and what a method
added. -/
structure Head where
  ty : Bytes
  len : Nat
  cap : Nat
  note : Bytes

/-- Contents without parts. -/
inductive Leaf where
  | bool (b : Bool)
  | num (t : Bytes)
  | str (s : Bytes)
  | word (n : Nat)
  | nil
  | bytes (s : Bytes)
  /-- A method wrote the value. -/
  | handled
  | tooDeep
  | nothing

mutual
  /-- A picture of a value: everything that can be read off it. -/
  inductive Tree where
    | leaf (h : Head) (l : Leaf)
    | group (h : Head) (ks : Kids)
    /-- A pointer: stars and type, the addresses passed, and what is there. -/
    | ptr (name : Bytes) (chain : List Nat) (t : Tree)
    | ptrNil (name : Bytes) (chain : List Nat)
    | ptrShown (name : Bytes) (chain : List Nat)
  /-- The parts of a value. -/
  inductive Kids where
    | nil
    | elem (t : Tree) (ks : Kids)
    | entry (k v : Tree) (ks : Kids)
    | field (name : Bytes) (t : Tree) (ks : Kids)
end

/-- How the layout writes a length and a capacity. -/
def headText (E : Env) (h : Head) : Bytes :=
  (if h.len ≠ 0 ∨ (E.disableCapacities = false ∧ h.cap ≠ 0) then
    asc "(" ++ (if h.len ≠ 0 then asc "len=" ++ Difflib.decimal h.len else []) ++
      (if E.disableCapacities = false ∧ h.cap ≠ 0 then (if h.len ≠ 0 then asc " " else []) ++ asc "cap=" ++ Difflib.decimal h.cap else []) ++ asc ") "
  else []) ++ h.note

/-- The layout of contents without parts at a depth. -/
def leafText (E : Env) (D : Nat) : Leaf → Bytes
  | .bool b => if b then asc "true" else asc "false"
  | .num t => t
  | .str s => E.quote s
  | .word n => hexText n
  | .nil => asc "<nil>"
  | .bytes s => asc "{\n" ++ blobText E (D + 1) s ++ rep E.indent D ++ asc "}"
  | .handled => []
  | .tooDeep => asc "{\n" ++ rep E.indent (D + 1) ++ asc "<max depth reached>\n" ++ rep E.indent D ++ asc "}"
  | .nothing => []

/-- What separates a part from the rest. -/
def sep : Kids → Bytes
  | .nil => asc "\n"
  | _ => asc ",\n"

/-- The addresses shown with a pointer: one behind the other with arrows between. -/
def addrText (E : Env) (chain : List Nat) : Bytes :=
  if E.disableAddresses = false ∧ chain ≠ [] then
    asc "(" ++ (asc "->").intercalate (chain.map hexText) ++ asc ")" else []

theorem chainText_arrows : ∀ chain : List Nat, chainText chain = (asc "->").intercalate (chain.map hexText)
  | [] => rfl
  | [a] => by simp [chainText, List.intercalate]
  | a :: b :: as => by
    have := chainText_arrows (b :: as)
    simp only [chainText, List.intercalate, List.map_cons, List.intersperse_cons_cons, List.flatten_cons,
      List.append_assoc] at this ⊢
    rw [this]

mutual
  /-- The text of a picture without its type. -/
  def body (E : Env) (D : Nat) : Tree → Bytes
    | .leaf h l => headText E h ++ leafText E D l
    | .group h ks => headText E h ++ asc "{\n" ++ kidsText E (D + 1) ks ++ rep E.indent D ++ asc "}"
    | .ptr name chain t => asc "(" ++ name ++ asc ")" ++ addrText E chain ++ asc "(" ++ body E D t ++ asc ")"
    | .ptrNil name chain => asc "(" ++ name ++ asc ")" ++ addrText E chain ++ asc "(<nil>)"
    | .ptrShown name chain => asc "(" ++ name ++ asc ")" ++ addrText E chain ++ asc "(<already shown>)"
  /-- The text of the parts, one to a line. -/
  def kidsText (E : Env) (D : Nat) : Kids → Bytes
    | .nil => []
    | .elem t ks => rep E.indent D ++ typeText t ++ body E D t ++ sep ks ++ kidsText E D ks
    | .entry k v ks => rep E.indent D ++ typeText k ++ body E D k ++ asc ": " ++ typeText v ++ body E D v ++ sep ks ++ kidsText E D ks
    | .field name t ks => rep E.indent D ++ name ++ asc ": " ++ typeText t ++ body E D t ++ sep ks ++ kidsText E D ks
  /-- The type in front of what is no pointer. -/
  def typeText : Tree → Bytes
    | .leaf h _ => asc "(" ++ h.ty ++ asc ") "
    | .group h _ => asc "(" ++ h.ty ++ asc ") "
    | _ => []
end

/-- Values that are shown with braces. -/
def Holder : Val → Prop
  | .slice _ a _ => a ≠ 0
  | .blob _ isNil _ _ => isNil = false
  | .array _ _ => True
  | .map _ a => a ≠ 0
  | .struct _ _ => True
  | _ => False

/-- The head of a value. -/
def headOf (E : Env) (v : Val) : Head := ⟨typeName v, (lenCap E v).1, (lenCap E v).2, (methText E v).1⟩

mutual
  /-- `t` is a picture of `v`.  Pointers may be cut short with `ptrShown`. -/
  inductive Pic (E : Env) : Val → Tree → Prop where
    | handled {v} : ¬IsPtr v → (methText E v).2 = true → Pic E v (.leaf (headOf E v) .handled)
    | bool {ty b} : Pic E (.bool ty b) (.leaf (headOf E (.bool ty b)) (.bool b))
    | num {ty t} : Pic E (.num ty t) (.leaf (headOf E (.num ty t)) (.num t))
    | str {ty s} : Pic E (.str ty s) (.leaf (headOf E (.str ty s)) (.str s))
    | word {ty n l c} : Pic E (.word ty n l c) (.leaf (headOf E (.word ty n l c)) (.word n))
    | nilIface {ty} : Pic E (.nilIface ty) (.leaf (headOf E (.nilIface ty)) .nil)
    | iface {ty v} : Pic E (.iface ty v) (.leaf (headOf E (.iface ty v)) .nothing)
    | nilSlice {ty c} : Pic E (.slice ty 0 c) (.leaf (headOf E (.slice ty 0 c)) .nil)
    | nilMap {ty} : Pic E (.map ty 0) (.leaf (headOf E (.map ty 0)) .nil)
    | nilBlob {ty s c} : Pic E (.blob ty true s c) (.leaf (headOf E (.blob ty true s c)) .nil)
    | blob {ty s c} : Pic E (.blob ty false s c) (.leaf (headOf E (.blob ty false s c)) (.bytes s))
    | tooDeep {v} : Holder v → E.maxDepth ≠ 0 → Pic E v (.leaf (headOf E v) .tooDeep)
    | slice {ty a c ks} : a ≠ 0 → PicElems E (E.elems a) ks → Pic E (.slice ty a c) (.group (headOf E (.slice ty a c)) ks)
    | array {ty vs ks} : PicElems E vs ks → Pic E (.array ty vs) (.group (headOf E (.array ty vs)) ks)
    | map {ty a ks} : a ≠ 0 → PicEntries E (E.entries a) ks → Pic E (.map ty a) (.group (headOf E (.map ty a)) ks)
    | struct {ty fs ks} : PicFields E fs ks → Pic E (.struct ty fs) (.group (headOf E (.struct ty fs)) ks)
    | ptr {v name chain w t} : IsPtr v → Leads E v chain w → ¬IsPtr w → (∀ ty, w ≠ .nilIface ty) → name = rep (asc "*") chain.length ++ typeName w → Pic E w t →
        Pic E v (.ptr name chain t)
    | ptrNil {v name chain w} : IsPtr v → Leads E v chain w → ((∃ ty, w = .ptr ty 0) ∨ ∃ ty, w = .nilIface ty) →
        name = rep (asc "*") chain.length ++ typeName w → Pic E v (.ptrNil name chain)
    | ptrShown {v name chain ty a} : Leads E v chain (.ptr ty a) → a ≠ 0 → name = rep (asc "*") chain.length ++ ty →
        Pic E v (.ptrShown name (chain ++ [a]))
  /-- Pictures of elements. -/
  inductive PicElems (E : Env) : List Val → Kids → Prop where
    | nil : PicElems E [] .nil
    | cons {v vs t ks} : Pic E (unpack v) t → PicElems E vs ks → PicElems E (v :: vs) (.elem t ks)
  /-- Pictures of the entries of a map. -/
  inductive PicEntries (E : Env) : List (Val × Val) → Kids → Prop where
    | nil : PicEntries E [] .nil
    | cons {kv kvs k v ks} : Pic E (unpack kv.1) k → Pic E (unpack kv.2) v → PicEntries E kvs ks →
        PicEntries E (kv :: kvs) (.entry k v ks)
  /-- Pictures of the fields of a struct. -/
  inductive PicFields (E : Env) : List (Bytes × Val) → Kids → Prop where
    | nil : PicFields E [] .nil
    | cons {fv fvs t ks} : Pic E (unpack fv.2) t → PicFields E fvs ks → PicFields E (fv :: fvs) (.field fv.1 t ks)
  /-- Following the pointers of `v` passes the addresses `chain` and leads to `w`. -/
  inductive Leads (E : Env) : Val → List Nat → Val → Prop where
    | here {v} : Leads E v [] v
    | step {ty a chain w} : a ≠ 0 → Leads E (unpack (E.at_ a)) chain w → Leads E (.ptr ty a) (a :: chain) w
end

/-- What happens to an address while a picture is read from left to right: its target is shown, or it is
said to be shown already. -/
inductive Ev where
  | passed (a : Nat)
  | shown (a : Nat)

mutual
  /-- The addresses of a picture from left to right. -/
  def evs : Tree → List Ev
    | .leaf _ _ => []
    | .group _ ks => kevs ks
    | .ptr _ chain t => chain.map .passed ++ evs t
    | .ptrNil _ chain => chain.map .passed
    | .ptrShown _ chain => chain.dropLast.map .passed ++ (chain.getLast?.toList).map .shown
  /-- The addresses of parts from left to right. -/
  def kevs : Kids → List Ev
    | .nil => []
    | .elem t ks => evs t ++ kevs ks
    | .entry k v ks => evs k ++ evs v ++ kevs ks
    | .field _ t ks => evs t ++ kevs ks
end

/-- Every address said to be shown already is one of `K` or was passed before. -/
def Grounded : (Nat → Prop) → List Ev → Prop
  | _, [] => True
  | K, .passed a :: es => Grounded (fun b => K b ∨ b = a) es
  | K, .shown a :: es => K a ∧ Grounded K es

/-! ## Proofs -/

theorem Grounded.mono : ∀ {es : List Ev} {K L : Nat → Prop}, (∀ a, K a → L a) → Grounded K es → Grounded L es := by
  intro es
  induction es with
  | nil => intro K L _ _; trivial
  | cons e es ih =>
    intro K L h hK
    cases e with
    | passed a => exact ih (fun b hb => hb.imp (h b) id) hK
    | shown a => exact ⟨h a hK.1, ih h hK.2⟩

theorem grounded_append : ∀ {es fs : List Ev} {K : Nat → Prop}, Grounded K es →
    Grounded (fun a => K a ∨ Ev.passed a ∈ es) fs → Grounded K (es ++ fs) := by
  intro es
  induction es with
  | nil => intro fs K _ h; exact h.mono fun a ha => ha.elim id (fun h => nomatch h)
  | cons e es ih =>
    intro fs K h1 h2
    cases e with
    | passed a =>
      refine ih h1 (h2.mono fun b hb => ?_)
      simp only [List.mem_cons, Ev.passed.injEq] at hb
      tauto
    | shown a =>
      refine ⟨h1.1, ih h1.2 (h2.mono fun b hb => ?_)⟩
      simpa using hb

theorem grounded_passed : ∀ (chain : List Nat) (K : Nat → Prop), Grounded K (chain.map .passed) := by
  intro chain
  induction chain with
  | nil => intro K; trivial
  | cons a chain ih => intro K; exact ih _

theorem Leads.reach {E : Env} {v chain w} (h : Leads E v chain w) : Reach E v w := by
  induction chain generalizing v with
  | nil => cases h; exact .refl
  | cons a chain ih =>
    cases h with
    | step h0 h => exact Reach.trans (.target .refl ⟨_, a, rfl, h0, rfl⟩) (ih h)

/-- What the loop over the pointers found. -/
structure Found (E : Env) (v : Val) (p : Nat → Option Nat) (ch : List Nat) (ind : Nat) (c : Chase) (mid : List Nat) : Prop where
  leads : Leads E v mid c.last
  indirects : c.indirects = ind + mid.length
  value : c.stop = .value → ¬IsPtr c.last ∧ c.chain = ch ++ mid ∧ (mid ≠ [] → ∀ ty, c.last ≠ .nilIface ty)
  nil : c.stop = .nil → ((∃ ty, c.last = .ptr ty 0) ∨ ∃ ty, c.last = .nilIface ty) ∧ c.chain = ch ++ mid
  cycle : c.stop = .cycle → ∃ ty a, c.last = .ptr ty a ∧ a ≠ 0 ∧ c.chain = ch ++ mid ++ [a] ∧ c.ptrs a ≠ none
  ptrs : ∀ a, c.ptrs a ≠ none → p a ≠ none ∨ a ∈ mid

theorem chase_found {E : Env} {D : Nat} : ∀ {n p ch ind v c}, chase E D n p ch ind v = some c →
    ∃ mid, Found E v p ch ind c mid := by
  intro n
  induction n with
  | zero =>
    intro p ch ind v c h
    have hc : ¬IsPtr v ∧ c = ⟨p, ch, ind, .value, v⟩ := by
      cases v <;> first | exact ⟨fun h => h, (Option.some.inj h).symm⟩ | (exact absurd h (by simp [chase]))
    obtain ⟨hp, rfl⟩ := hc
    exact ⟨[], .here, rfl, fun _ => ⟨hp, by simp, fun h => absurd rfl h⟩, fun h => (nomatch h), fun h => (nomatch h), fun a h => .inl h⟩
  | succ n ih =>
    intro p ch ind v c h
    by_cases hp : IsPtr v
    · cases v with
      | ptr ty a =>
        rw [chase] at h
        split at h
        · rename_i h0
          cases h
          exact ⟨[], .here, rfl, fun h => (nomatch h), fun _ => ⟨.inl ⟨ty, by rw [h0]⟩, by simp⟩, fun h => (nomatch h), fun a h => .inl h⟩
        · rename_i h0
          split at h
          · rename_i h1
            cases h
            refine ⟨[], .here, rfl, fun h => (nomatch h), fun h => (nomatch h), fun _ => ⟨ty, a, rfl, h0, by simp, ?_⟩, fun a h => .inl h⟩
            unfold shownAbove at h1
            split at h1
            · rename_i he; simp [he]
            · cases h1
          · have hset : ∀ b, setPtr p a D b ≠ none → p b ≠ none ∨ b = a := by
              intro b hb
              unfold setPtr at hb
              split at hb
              · rename_i he; exact .inr he
              · exact .inl hb
            split at h
            · rename_i ty' he
              cases h
              refine ⟨[a], .step h0 (by rw [he]; exact .here), rfl, fun h => (nomatch h), fun _ => ⟨.inr ⟨ty', rfl⟩, by simp⟩, fun h => (nomatch h), ?_⟩
              intro b hb
              simpa using hset b hb
            · rename_i hve
              obtain ⟨mid, f⟩ := ih h
              refine ⟨a :: mid, .step h0 f.leads, by rw [f.indirects]; simp; omega, fun h => ?_, fun h => ?_, fun h => ?_, ?_⟩
              · obtain ⟨v1, v2, v3⟩ := f.value h
                refine ⟨v1, by simpa using v2, fun _ => ?_⟩
                cases mid with
                | nil =>
                  have hl := f.leads
                  generalize c.last = l at hl
                  generalize hu : unpack (E.at_ a) = u at hl hve
                  cases hl
                  exact fun ty he => hve ty he
                | cons b mid => exact v3 (by simp)
              · simpa using f.nil h
              · simpa using f.cycle h
              · intro b hb
                rcases f.ptrs b hb with h | h
                · rcases hset b h with h | h
                  · exact .inl h
                  · exact .inr (by simp [h])
                · exact .inr (by simp [h])
      | _ => exact absurd hp (by simp [IsPtr])
    · have hc : c = ⟨p, ch, ind, .value, v⟩ := by
        cases v <;> first | exact absurd trivial hp | exact (Option.some.inj h).symm
      subst hc
      exact ⟨[], .here, rfl, fun _ => ⟨hp, by simp, fun h => absurd rfl h⟩, fun h => (nomatch h), fun h => (nomatch h), fun a h => .inl h⟩

/-- Nothing reached from `v` is invalid (the value of a key that is not equal to itself would be). -/
def Valid (E : Env) (v : Val) : Prop := ∀ w, Reach E v w → w ≠ .invalid

/-- The text in front of what is written for a picture. -/
def lead (E : Env) (s : St) (t : Tree) : Bytes :=
  if s.noType then [] else (if s.noIndent then [] else rep E.indent s.depth) ++ typeText t

/-- What a dump in state `s` did: the text added, the addresses met. -/
structure Did (K : Nat → Prop) (s r : St) (text : Bytes) (es : List Ev) : Prop where
  depth : r.depth = s.depth
  noType : r.noType = false
  noIndent : r.noIndent = false
  out : r.out = s.out ++ text
  grounded : Grounded K es
  ptrs : ∀ a, r.ptrs a ≠ none → K a ∨ Ev.passed a ∈ es

/-- `f` writes pictures. -/
def Draws (E : Env) (f : St → Val → Option St) : Prop :=
  ∀ (s : St) (v : Val) (r : St) (K : Nat → Prop), f s v = some r → Valid E v → (s.noType = true → ¬IsPtr v ∧ s.noIndent = false) →
    (∀ a, s.ptrs a ≠ none → K a) → ∃ t, Pic E v t ∧ Did K s r (lead E s t ++ body E s.depth t) (evs t)

theorem Did.then {K : Nat → Prop} {s r t : St} {x y : Bytes} {es fs : List Ev} (h : Did K s r x es)
    (k : Did (fun a => K a ∨ Ev.passed a ∈ es) r t y fs) : Did K s t (x ++ y) (es ++ fs) where
  depth := k.depth.trans h.depth
  noType := k.noType
  noIndent := k.noIndent
  out := by rw [k.out, h.out, List.append_assoc]
  grounded := grounded_append h.grounded k.grounded
  ptrs := fun a ha => by
    rcases k.ptrs a ha with (h | h) | h
    · exact .inl h
    · exact .inr (by simp [h])
    · exact .inr (by simp [h])

theorem Did.write {K : Nat → Prop} {s r : St} {x : Bytes} {es : List Ev} (h : Did K s r x es) (y : Bytes) :
    Did K s (r.write y) (x ++ y) es where
  depth := h.depth
  noType := h.noType
  noIndent := h.noIndent
  out := by simp [St.write, h.out]
  grounded := h.grounded
  ptrs := h.ptrs

theorem Valid.part {E : Env} {v w : Val} (h : Valid E v) (hp : Part E w v) : Valid E w :=
  fun u hu => h u (Reach.trans (.part .refl hp) hu)

theorem elems_drawn {E : Env} {f} (hf : Draws E f) : ∀ (vs : List Val) (s r : St) (K : Nat → Prop), dumpElems f s vs = some r →
    (∀ v ∈ vs, Valid E (unpack v)) → s.noType = false → s.noIndent = false → (∀ a, s.ptrs a ≠ none → K a) →
    ∃ ks, PicElems E vs ks ∧ Did K s r (kidsText E s.depth ks) (kevs ks) := by
  intro vs
  induction vs with
  | nil =>
    intro s r K h _ h1 h2 hK
    cases h
    exact ⟨.nil, .nil, rfl, h1, h2, by simp [kidsText], trivial, fun a ha => .inl (hK a ha)⟩
  | cons v vs ih =>
    intro s r K h hv h1 h2 hK
    cases vs with
    | nil =>
      simp only [dumpElems, Option.map_eq_some_iff] at h
      obtain ⟨x, hx, rfl⟩ := h
      obtain ⟨t, ht, hd⟩ := hf s _ x K hx (hv v (by simp)) (by simp [h1]) hK
      refine ⟨.elem t .nil, .cons ht .nil, ?_⟩
      have := hd.write (asc "\n")
      simpa [kidsText, kevs, lead, h1, h2, sep] using this
    | cons w vs =>
      simp only [dumpElems, Option.bind_eq_some_iff] at h
      obtain ⟨x, hx, h⟩ := h
      obtain ⟨t, ht, hd⟩ := hf s _ x K hx (hv v (by simp)) (by simp [h1]) hK
      have hd := hd.write (asc ",\n")
      obtain ⟨ks, hks, hk⟩ := ih _ _ _ h (fun u hu => hv u (by simp [hu])) hd.noType hd.noIndent hd.ptrs
      refine ⟨.elem t ks, .cons ht hks, ?_⟩
      have hs : sep ks = asc ",\n" := by cases hks; rfl
      have := hd.then hk
      rw [hd.depth] at this
      simpa [kidsText, kevs, lead, h1, h2, hs] using this

theorem entry_drawn {E : Env} {f} (hf : Draws E f) {kv : Val × Val} {s r : St} {K : Nat → Prop} (h : dumpEntry f s kv = some r)
    (hv1 : Valid E (unpack kv.1)) (hv2 : Valid E (unpack kv.2)) (h1 : s.noType = false) (h2 : s.noIndent = false)
    (hK : ∀ a, s.ptrs a ≠ none → K a) :
    ∃ k v, Pic E (unpack kv.1) k ∧ Pic E (unpack kv.2) v ∧
      Did K s r (rep E.indent s.depth ++ typeText k ++ body E s.depth k ++ asc ": " ++ typeText v ++ body E s.depth v) (evs k ++ evs v) := by
  simp only [dumpEntry, Option.bind_eq_some_iff] at h
  obtain ⟨x, hx, h⟩ := h
  obtain ⟨k, hk, hd⟩ := hf s _ x K hx hv1 (by simp [h1]) hK
  have hd := hd.write (asc ": ")
  obtain ⟨v, hv, hd2⟩ := hf _ _ _ _ h hv2 (by simp [hd.noType]) hd.ptrs
  refine ⟨k, v, hk, hv, ?_⟩
  have hd3 : Did (fun a => K a ∨ Ev.passed a ∈ evs k) (x.write (asc ": ")) r (typeText v ++ body E s.depth v) (evs v) := by
    have := hd2
    have e : ({ x.write (asc ": ") with noIndent := true } : St).depth = s.depth := hd.depth
    refine ⟨this.depth, this.noType, this.noIndent, ?_, this.grounded, this.ptrs⟩
    have := this.out
    rw [e] at this
    simpa [lead, hd.noType] using this
  have := hd.then hd3
  simpa [lead, h1, h2] using this

theorem entries_drawn {E : Env} {f} (hf : Draws E f) : ∀ (vs : List (Val × Val)) (s r : St) (K : Nat → Prop), dumpEntries f s vs = some r →
    (∀ v ∈ vs, Valid E (unpack v.1) ∧ Valid E (unpack v.2)) → s.noType = false → s.noIndent = false → (∀ a, s.ptrs a ≠ none → K a) →
    ∃ ks, PicEntries E vs ks ∧ Did K s r (kidsText E s.depth ks) (kevs ks) := by
  intro vs
  induction vs with
  | nil =>
    intro s r K h _ h1 h2 hK
    cases h
    exact ⟨.nil, .nil, rfl, h1, h2, by simp [kidsText], trivial, fun a ha => .inl (hK a ha)⟩
  | cons v vs ih =>
    intro s r K h hv h1 h2 hK
    cases vs with
    | nil =>
      simp only [dumpEntries, Option.map_eq_some_iff] at h
      obtain ⟨x, hx, rfl⟩ := h
      obtain ⟨k, t, hk, ht, hd⟩ := entry_drawn hf hx (hv v (by simp)).1 (hv v (by simp)).2 h1 h2 hK
      refine ⟨.entry k t .nil, .cons hk ht .nil, ?_⟩
      have := hd.write (asc "\n")
      simpa [kidsText, kevs, sep] using this
    | cons w vs =>
      simp only [dumpEntries, Option.bind_eq_some_iff] at h
      obtain ⟨x, hx, h⟩ := h
      obtain ⟨k, t, hk, ht, hd⟩ := entry_drawn hf hx (hv v (by simp)).1 (hv v (by simp)).2 h1 h2 hK
      have hd := hd.write (asc ",\n")
      obtain ⟨ks, hks, hkd⟩ := ih _ _ _ h (fun u hu => hv u (by simp [hu])) hd.noType hd.noIndent hd.ptrs
      refine ⟨.entry k t ks, .cons hk ht hks, ?_⟩
      have hs : sep ks = asc ",\n" := by cases hks; rfl
      have := hd.then hkd
      rw [hd.depth] at this
      simpa [kidsText, kevs, hs] using this

theorem field_drawn {E : Env} {f} (hf : Draws E f) {fv : Bytes × Val} {s r : St} {K : Nat → Prop} (h : dumpField E f s fv = some r)
    (hv : Valid E (unpack fv.2)) (h1 : s.noType = false) (h2 : s.noIndent = false) (hK : ∀ a, s.ptrs a ≠ none → K a) :
    ∃ t, Pic E (unpack fv.2) t ∧ Did K s r (rep E.indent s.depth ++ fv.1 ++ asc ": " ++ typeText t ++ body E s.depth t) (evs t) := by
  have hi : indent E s = s.write (rep E.indent s.depth) := by rw [indent, h2]; rfl
  simp only [dumpField, hi] at h
  obtain ⟨t, ht, hd⟩ := hf _ _ r K h hv (by simp [St.write, h1]) hK
  refine ⟨t, ht, hd.depth, hd.noType, hd.noIndent, ?_, hd.grounded, hd.ptrs⟩
  have := hd.out
  simpa [lead, St.write, h1] using this

theorem fields_drawn {E : Env} {f} (hf : Draws E f) : ∀ (vs : List (Bytes × Val)) (s r : St) (K : Nat → Prop), dumpFields E f s vs = some r →
    (∀ v ∈ vs, Valid E (unpack v.2)) → s.noType = false → s.noIndent = false → (∀ a, s.ptrs a ≠ none → K a) →
    ∃ ks, PicFields E vs ks ∧ Did K s r (kidsText E s.depth ks) (kevs ks) := by
  intro vs
  induction vs with
  | nil =>
    intro s r K h _ h1 h2 hK
    cases h
    exact ⟨.nil, .nil, rfl, h1, h2, by simp [kidsText], trivial, fun a ha => .inl (hK a ha)⟩
  | cons v vs ih =>
    intro s r K h hv h1 h2 hK
    cases vs with
    | nil =>
      simp only [dumpFields, Option.map_eq_some_iff] at h
      obtain ⟨x, hx, rfl⟩ := h
      obtain ⟨t, ht, hd⟩ := field_drawn hf hx (hv v (by simp)) h1 h2 hK
      refine ⟨.field v.1 t .nil, .cons ht .nil, ?_⟩
      have := hd.write (asc "\n")
      simpa [kidsText, kevs, sep] using this
    | cons w vs =>
      simp only [dumpFields, Option.bind_eq_some_iff] at h
      obtain ⟨x, hx, h⟩ := h
      obtain ⟨t, ht, hd⟩ := field_drawn hf hx (hv v (by simp)) h1 h2 hK
      have hd := hd.write (asc ",\n")
      obtain ⟨ks, hks, hkd⟩ := ih _ _ _ h (fun u hu => hv u (by simp [hu])) hd.noType hd.noIndent hd.ptrs
      refine ⟨.field v.1 t ks, .cons ht hks, ?_⟩
      have hs : sep ks = asc ",\n" := by cases hks; rfl
      have := hd.then hkd
      rw [hd.depth] at this
      simpa [kidsText, kevs, hs] using this

/-- Braces around what the body wrote. -/
theorem block_drawn {E : Env} {b : St → Option St} {s r : St} {K : Nat → Prop} (h : block E b s = some r)
    (h1 : s.noType = false) (h2 : s.noIndent = false) (hK : ∀ a, s.ptrs a ≠ none → K a) :
    (E.maxDepth ≠ 0 ∧ Did K s r (leafText E s.depth .tooDeep) []) ∨
    ∃ r', b { s.write (asc "{\n") with depth := s.depth + 1 } = some r' ∧
      ∀ (text : Bytes) (es : List Ev), Did K { s.write (asc "{\n") with depth := s.depth + 1 } r' text es →
        Did K s r (asc "{\n" ++ text ++ rep E.indent s.depth ++ asc "}") es := by
  simp only [block, Option.map_eq_some_iff] at h
  obtain ⟨x, hx, rfl⟩ := h
  split at hx
  · rename_i hm
    left
    refine ⟨hm.1, ?_⟩
    have hi : indent E { s.write (asc "{\n") with depth := s.depth + 1 } =
        ({ s.write (asc "{\n") with depth := s.depth + 1 } : St).write (rep E.indent (s.depth + 1)) := by
      rw [indent]; simp [St.write, h2]
    have hx : x = (indent E { s.write (asc "{\n") with depth := s.depth + 1 }).write (asc "<max depth reached>\n") :=
      (Option.some.inj hx).symm
    rw [hi] at hx
    subst hx
    refine ⟨?_, ?_, ?_, ?_, trivial, ?_⟩
    · simp [indent_depth, St.write]
    · simp [indent, h2, St.write, h1]
    · simp [indent, h2, St.write]
    · simp [indent, h2, St.write, leafText]
    · intro a ha
      simp only [St.write, indent_ptrs] at ha
      exact .inl (hK a ha)
  · right
    refine ⟨x, hx, fun text es hd => ?_⟩
    have hxi : x.noIndent = false := hd.noIndent
    have hxd : x.depth = s.depth + 1 := hd.depth
    refine ⟨?_, ?_, ?_, ?_, hd.grounded, ?_⟩
    · simp [indent_depth, St.write, hxd]
    · simp [indent, hxi, St.write, hd.noType]
    · simp [indent, hxi, St.write]
    · have := hd.out
      simp only [St.write] at this
      simp [indent, hxi, St.write, hxd, this]
    · intro a ha
      simp only [St.write, indent_ptrs] at ha
      exact hd.ptrs a ha

/-- The picture of a value and the text of its contents, without the head. -/
def contents (E : Env) (D : Nat) : Tree → Bytes
  | .leaf _ l => leafText E D l
  | .group _ ks => asc "{\n" ++ kidsText E (D + 1) ks ++ rep E.indent D ++ asc "}"
  | _ => []

/-- The tree is no pointer and has this head. -/
def HasHead (h : Head) : Tree → Prop
  | .leaf h' _ => h' = h
  | .group h' _ => h' = h
  | _ => False

theorem kind_drawn {E : Env} {f} (hf : Draws E f) {s r : St} {v : Val} {K : Nat → Prop} (h : dumpKind E f s v = some r)
    (hp : ¬IsPtr v) (hv : Valid E v) (h1 : s.noType = false) (h2 : s.noIndent = false) (hK : ∀ a, s.ptrs a ≠ none → K a) :
    ∃ t, Pic E v t ∧ HasHead (headOf E v) t ∧ Did K s r (contents E s.depth t) (evs t) := by
  have leaf : ∀ {text l}, r = s.write text → Pic E v (.leaf (headOf E v) l) → leafText E s.depth l = text →
      ∃ t, Pic E v t ∧ HasHead (headOf E v) t ∧ Did K s r (contents E s.depth t) (evs t) := by
    intro text l hr hpic hl
    subst hr
    exact ⟨_, hpic, rfl, rfl, h1, h2, by simp [St.write, contents, hl], trivial, fun a ha => .inl (hK a ha)⟩
  have deep : Holder v → E.maxDepth ≠ 0 → Did K s r (leafText E s.depth .tooDeep) [] →
      ∃ t, Pic E v t ∧ HasHead (headOf E v) t ∧ Did K s r (contents E s.depth t) (evs t) :=
    fun hh hm hd => ⟨_, .tooDeep hh hm, rfl, hd⟩
  have some_write : ∀ {text}, dumpKind E f s v = some (s.write text) → r = s.write text := fun he => by
    rw [he] at h; exact (Option.some.inj h).symm
  cases v with
  | invalid => exact absurd rfl (hv _ .refl)
  | bool ty b => exact leaf (some_write rfl) .bool rfl
  | num ty t => exact leaf (some_write rfl) .num rfl
  | str ty t => exact leaf (some_write rfl) .str rfl
  | word ty n l c => exact leaf (some_write rfl) .word rfl
  | nilIface ty => exact leaf (some_write rfl) .nilIface rfl
  | iface ty w => exact leaf (text := []) (by simp [St.write]; exact (Option.some.inj h).symm) .iface rfl
  | ptr ty a => exact absurd trivial hp
  | slice ty a cap =>
    by_cases h0 : a = 0
    · subst h0
      exact leaf (some_write rfl) .nilSlice rfl
    · simp only [dumpKind, if_neg h0] at h
      rcases block_drawn h h1 h2 hK with ⟨hm, hd⟩ | ⟨r', hr', hd⟩
      · exact deep h0 hm hd
      · obtain ⟨ks, hks, hk⟩ := elems_drawn hf _ _ _ K hr' (fun w hw => hv.part (by
          simp only [Part, parts, h0, if_false, List.mem_map]; exact ⟨w, hw, rfl⟩)) h1 h2 hK
        exact ⟨_, .slice h0 hks, rfl, hd _ _ hk⟩
  | blob ty isNil b cap =>
    cases isNil with
    | true => exact leaf (some_write rfl) .nilBlob rfl
    | false =>
      simp only [dumpKind, Bool.false_eq_true, if_false] at h
      rcases block_drawn h h1 h2 hK with ⟨hm, hd⟩ | ⟨r', hr', hd⟩
      · exact deep rfl hm hd
      · have hr' := (Option.some.inj hr').symm
        subst hr'
        exact ⟨_, .blob, rfl, hd _ _ ⟨rfl, h1, h2, rfl, trivial, fun a ha => .inl (hK a ha)⟩⟩
  | array ty vs =>
    simp only [dumpKind] at h
    rcases block_drawn h h1 h2 hK with ⟨hm, hd⟩ | ⟨r', hr', hd⟩
    · exact deep trivial hm hd
    · obtain ⟨ks, hks, hk⟩ := elems_drawn hf _ _ _ K hr' (fun w hw => hv.part (by
        simp only [Part, parts, List.mem_map]; exact ⟨w, hw, rfl⟩)) h1 h2 hK
      exact ⟨_, .array hks, rfl, hd _ _ hk⟩
  | map ty a =>
    by_cases h0 : a = 0
    · subst h0
      exact leaf (some_write rfl) .nilMap rfl
    · simp only [dumpKind, if_neg h0] at h
      rcases block_drawn h h1 h2 hK with ⟨hm, hd⟩ | ⟨r', hr', hd⟩
      · exact deep h0 hm hd
      · obtain ⟨ks, hks, hk⟩ := entries_drawn hf _ _ _ K hr' (fun w hw => ⟨hv.part (by
          simp only [Part, parts, h0, if_false, List.mem_flatMap]; exact ⟨w, hw, by simp⟩), hv.part (by
          simp only [Part, parts, h0, if_false, List.mem_flatMap]; exact ⟨w, hw, by simp⟩)⟩) h1 h2 hK
        exact ⟨_, .map h0 hks, rfl, hd _ _ hk⟩
  | struct ty fs =>
    simp only [dumpKind] at h
    rcases block_drawn h h1 h2 hK with ⟨hm, hd⟩ | ⟨r', hr', hd⟩
    · exact deep trivial hm hd
    · obtain ⟨ks, hks, hk⟩ := fields_drawn hf _ _ _ K hr' (fun w hw => hv.part (by
        simp only [Part, parts, List.mem_map]; exact ⟨w, hw, rfl⟩)) h1 h2 hK
      exact ⟨_, .struct hks, rfl, hd _ _ hk⟩

theorem body_head {E : Env} {D : Nat} {h : Head} {t : Tree} (ht : HasHead h t) :
    body E D t = headText E h ++ contents E D t ∧ typeText t = asc "(" ++ h.ty ++ asc ") " := by
  cases t with
  | leaf h' l => cases ht; exact ⟨rfl, rfl⟩
  | group h' ks => cases ht; exact ⟨by simp [body, contents], rfl⟩
  | _ => exact absurd ht (by simp [HasHead])

theorem headText_eq (E : Env) (v : Val) : headText E (headOf E v) = lenText E v ++ (methText E v).1 := rfl

theorem rest_drawn {E : Env} {f} (hf : Draws E f) {s r : St} {v : Val} {K : Nat → Prop} (h : dumpRest E f s v = some r)
    (hp : ¬IsPtr v) (hv : Valid E v) (h1 : s.noType = true → s.noIndent = false) (hK : ∀ a, s.ptrs a ≠ none → K a) :
    ∃ t, Pic E v t ∧ Did K s r (lead E s t ++ body E s.depth t) (evs t) := by
  simp only [dumpRest] at h
  generalize hs' : ({ (if s.noType = true then s else (indent E s).write (asc "(" ++ typeName v ++ asc ") ")) with
    noType := false } : St) = s1 at h
  have e1 : s1.depth = s.depth := by rw [← hs']; split <;> simp [St.write, indent_depth]
  have e2 : s1.ptrs = s.ptrs := by rw [← hs']; split <;> simp [St.write, indent_ptrs]
  have e3 : s1.noType = false := by rw [← hs']
  have e4 : s1.noIndent = false := by
    rw [← hs']
    split
    · rename_i ht; exact h1 ht
    · by_cases hi : s.noIndent = true <;> simp [indent, hi, St.write]
  have e5 : ∀ t, HasHead (headOf E v) t → s1.out = s.out ++ lead E s t := by
    intro t ht
    rw [← hs', lead, (body_head (E := E) (D := 0) ht).2]
    by_cases hn : s.noType = true
    · simp [hn]
    · by_cases hi : s.noIndent = true <;> simp [hn, indent, hi, St.write, headOf]
  by_cases hm : (methText E v).2 = true
  · rw [if_pos hm] at h
    cases h
    refine ⟨_, .handled hp hm, e1, e3, e4, ?_, trivial, fun a ha => .inl (hK a ?_)⟩
    · have := e5 (.leaf (headOf E v) .handled) rfl
      simp [St.write, this, body, headText_eq, leafText]
    · simpa [St.write, e2] using ha
  · rw [if_neg hm] at h
    generalize hs2 : (s1.write (lenText E v)).write (methText E v).1 = s2 at h
    have f1 : s2.depth = s.depth := by rw [← hs2]; simpa [St.write] using e1
    have f2 : s2.ptrs = s.ptrs := by rw [← hs2]; simpa [St.write] using e2
    have f3 : s2.noType = false := by rw [← hs2]; simpa [St.write] using e3
    have f4 : s2.noIndent = false := by rw [← hs2]; simpa [St.write] using e4
    obtain ⟨t, ht, hh, hd⟩ := kind_drawn hf h hp hv f3 f4 (by rw [f2]; exact hK)
    refine ⟨t, ht, hd.depth.trans f1, hd.noType, hd.noIndent, ?_, hd.grounded, hd.ptrs⟩
    have := e5 t hh
    rw [hd.out, ← hs2]
    simp only [St.write, this, (body_head hh).1, headText_eq]
    rw [e1]
    simp

/-- Everything `dump` writes is a picture. -/
theorem dump_draws (E : Env) : ∀ n, Draws E (dump E n) := by
  intro n
  induction n with
  | zero => intro s v r K h; cases h
  | succ n ih =>
    intro s v r K h hv h1 hK
    by_cases hp : IsPtr v
    · cases v with
      | ptr ty a =>
        have hnt : s.noType = false := by
          by_contra hc
          exact (h1 (by simpa using hc)).1 trivial
        simp only [dump, dumpPtr] at h
        split at h
        · cases h
        · rename_i c hc
          obtain ⟨mid, f⟩ := chase_found hc
          have hi1 : (indent E s).noIndent = false := by unfold indent; split <;> simp_all [St.write]
          have hi2 : (indent E s).noType = false := by unfold indent; split <;> simp_all [St.write]
          have hi3 : (indent E s).out = s.out ++ (if s.noIndent then [] else rep E.indent s.depth) := by
            unfold indent; split <;> simp_all [St.write]
          have hptrs : ∀ b, c.ptrs b ≠ none → K b ∨ b ∈ mid := by
            intro b hb
            rcases f.ptrs b hb with hb | hb
            · left
              refine hK b ?_
              intro hn
              rw [indent_ptrs] at hb
              exact hb (by unfold prune; rw [hn])
            · exact .inr hb
          have hname : rep (asc "*") c.indirects = rep (asc "*") mid.length := by rw [f.indirects]; simp
          generalize hs1 : ((if E.disableAddresses = false ∧ c.chain ≠ [] then
              (({ indent E s with ptrs := c.ptrs } : St).write (asc "(" ++ rep (asc "*") c.indirects ++ typeName c.last ++ asc ")")).write
                (asc "(" ++ chainText c.chain ++ asc ")")
            else ({ indent E s with ptrs := c.ptrs } : St).write (asc "(" ++ rep (asc "*") c.indirects ++ typeName c.last ++ asc ")")).write
              (asc "(")) = s1 at h
          have g1 : s1.depth = s.depth := by rw [← hs1]; split <;> simp [St.write, indent_depth]
          have g2 : s1.ptrs = c.ptrs := by rw [← hs1]; split <;> simp [St.write]
          have g3 : s1.noType = false := by rw [← hs1]; split <;> simp [St.write, hi2]
          have g4 : s1.noIndent = false := by rw [← hs1]; split <;> simp [St.write, hi1]
          have g5 : s1.out = s.out ++ (if s.noIndent then [] else rep E.indent s.depth) ++
              (asc "(" ++ (rep (asc "*") mid.length ++ typeName c.last) ++ asc ")" ++ addrText E c.chain ++ asc "(") := by
            rw [← hs1, hname, addrText, ← chainText_arrows]
            split <;> simp [St.write, hi3]
          split at h
          · rename_i hst
            cases h
            obtain ⟨hl, hch⟩ := f.nil hst
            rw [List.nil_append] at hch
            refine ⟨_, .ptrNil trivial f.leads hl rfl, g1, g3, g4, ?_, grounded_passed _ _, ?_⟩
            · simp [St.write, g5, lead, hnt, typeText, body, hch]
              rfl
            · intro b hb
              simp only [St.write, g2] at hb
              simpa [evs] using hptrs b hb
          · rename_i hst
            cases h
            obtain ⟨ty', a', hl, ha', hch, hca⟩ := f.cycle hst
            rw [List.nil_append] at hch
            refine ⟨_, .ptrShown (hl ▸ f.leads) ha' rfl, g1, g3, g4, ?_, ?_, ?_⟩
            · simp [St.write, g5, lead, hnt, typeText, body, hch, hl, typeName]
              rfl
            · simp only [evs, List.dropLast_concat, List.getLast?_append, List.getLast?_singleton, Option.some_or,
                Option.toList_some, List.map_cons, List.map_nil]
              refine grounded_append (grounded_passed _ _) ⟨?_, trivial⟩
              simpa using hptrs a' hca
            · intro b hb
              simp only [St.write, g2] at hb
              simpa [evs] using hptrs b hb
          · rename_i hst
            simp only [Option.map_eq_some_iff] at h
            obtain ⟨x, hx, rfl⟩ := h
            obtain ⟨hlp, hch, hln⟩ := f.value hst
            have hmid : mid ≠ [] := by
              intro hm
              have := f.leads
              rw [hm] at this
              generalize c.last = l at this hlp
              cases this
              exact hlp trivial
            rw [List.nil_append] at hch
            obtain ⟨t, ht, hd⟩ := ih { s1 with noType := true } c.last x (fun b => K b ∨ Ev.passed b ∈ mid.map .passed) hx
              (fun w hw => hv w (f.leads.reach.trans hw)) (fun _ => ⟨hlp, g4⟩) (by
                intro b hb
                simp only [g2] at hb
                simpa using hptrs b hb)
            refine ⟨_, .ptr trivial f.leads hlp (hln hmid) rfl ht, hd.depth.trans g1, hd.noType, hd.noIndent, ?_, ?_, ?_⟩
            · have := hd.out
              simp only [lead, if_true, List.nil_append, g1] at this
              simp [St.write, this, g5, lead, hnt, typeText, body, hch]
            · exact grounded_append (grounded_passed _ _) hd.grounded
            · intro b hb
              rcases hd.ptrs b hb with (h | h) | h
              · exact .inl h
              · exact .inr (by simp only [evs, List.mem_append]; exact .inl h)
              · exact .inr (by simp [evs, h])
      | _ => exact absurd hp (by simp [IsPtr])
    · rw [dump_of_not_ptr hp (hv v .refl)] at h
      exact rest_drawn ih h hp hv (fun hn => (h1 hn).2) hK

/-- **C104**: what `Sdump` writes is, for every value it ends on, the text of a picture of that value, laid
out with one part to a line; and every pointer that the picture calls already shown is one whose target
stands further to the left in the same dump.  What is missing: values of keys that are not equal to themselves
(`nan_key_value_lost`). -/
theorem sdump_is_picture_partial {E : Env} {n : Nat} {v : Val} {out : Bytes} (hv : Valid E v) (h : sdump E n (some v) = some out) :
    ∃ t, Pic E v t ∧ out = typeText t ++ body E 0 t ++ asc "\n" ∧ Grounded (fun _ => False) (evs t) := by
  simp only [sdump, Option.map_eq_some_iff] at h
  obtain ⟨r, hr, rfl⟩ := h
  obtain ⟨t, ht, hd⟩ := dump_draws E n St.init v r (fun _ => False) hr hv (by simp [St.init]) (by simp [St.init])
  refine ⟨t, ht, ?_, hd.grounded⟩
  have := hd.out
  simp only [St.init, List.nil_append] at this
  rw [this]
  simp [lead, rep]

/-- The ring of two nodes has no invalid parts, so its dump is a picture. -/
example : Valid ring (.ptr (asc "*main.Node") 1) := by
  intro w hw
  obtain ⟨a, -, rfl | rfl⟩ := ring_reach hw <;> simp

/-! ### Heads -/

/-- The length and capacity to be shown of a value: of slices and arrays both (an array's capacity is its length), of channels both, of maps
and strings the length; of anything else, and of nil, none. -/
inductive Measures (E : Env) : Val → Nat → Nat → Prop where
  | slice (ty a cap) (h : a ≠ 0) : Measures E (.slice ty a cap) (E.elems a).length cap
  | nilSlice (ty cap) : Measures E (.slice ty 0 cap) 0 0
  | blob (ty s cap) : Measures E (.blob ty false s cap) s.length cap
  | nilBlob (ty s cap) : Measures E (.blob ty true s cap) 0 0
  | array (ty vs) : Measures E (.array ty vs) vs.length vs.length
  | word (ty n len cap) : Measures E (.word ty n len cap) len cap
  | map (ty a) (h : a ≠ 0) : Measures E (.map ty a) (E.entries a).length 0
  | nilMap (ty) : Measures E (.map ty 0) 0 0
  | str (ty s) : Measures E (.str ty s) s.length 0
  | bool (ty b) : Measures E (.bool ty b) 0 0
  | num (ty t) : Measures E (.num ty t) 0 0
  | ptr (ty a) : Measures E (.ptr ty a) 0 0
  | struct (ty fs) : Measures E (.struct ty fs) 0 0
  | iface (ty v) : Measures E (.iface ty v) 0 0
  | nilIface (ty) : Measures E (.nilIface ty) 0 0
  | invalid : Measures E .invalid 0 0

/-- What is written of a value's method, and whether that stands for the value.  With methods disabled, and for values without one, nothing; with
`ContinueOnMethod` the text in parentheses and then the value; a panic is told and the value follows. -/
inductive Says (E : Env) (v : Val) : Bytes → Bool → Prop where
  | disabled (h : E.disableMethods = true) : Says E v [] false
  | interface (h : (∃ ty, v = .nilIface ty) ∨ ∃ ty w, v = .iface ty w) : Says E v [] false
  | noMethod (h : E.meth v = .none) : Says E v [] false
  | text (t) (h : E.disableMethods = false) (hm : E.meth v = .text t) (hc : E.continueOnMethod = false) : Says E v t true
  | textToo (t) (h : E.disableMethods = false) (hm : E.meth v = .text t) (hc : E.continueOnMethod = true) :
      Says E v (asc "(" ++ t ++ asc ") ") false
  | panics (t) (h : E.disableMethods = false) (hm : E.meth v = .panics t) (hc : E.continueOnMethod = false) :
      Says E v (asc "(PANIC=" ++ t ++ asc ")") false
  | panicsToo (t) (h : E.disableMethods = false) (hm : E.meth v = .panics t) (hc : E.continueOnMethod = true) :
      Says E v (asc "((PANIC=" ++ t ++ asc ")") false

/-- **C104**: the heads of the pictures hold the type, the length and the capacity of the value, and what its method says; and methods are not
called when disabled. -/
theorem head_is_right (E : Env) (v : Val) :
    Measures E v (headOf E v).len (headOf E v).cap ∧ Says E v (headOf E v).note (methText E v).2 ∧
    (E.disableMethods = true → (headOf E v).note = [] ∧ (methText E v).2 = false) := by
  refine ⟨?_, ?_, ?_⟩
  · unfold headOf
    cases v with
    | slice ty a cap =>
      by_cases h : a = 0
      · subst h; simp only [lenCap, if_true]; exact .nilSlice ty cap
      · simp only [lenCap, if_neg h]; exact .slice ty a cap h
    | blob ty b s cap =>
      cases b
      · exact .blob ty s cap
      · exact .nilBlob ty s cap
    | array ty vs => exact .array ty vs
    | word ty n len cap => exact .word ty n len cap
    | map ty a =>
      by_cases h : a = 0
      · subst h; simp only [lenCap, if_true]; exact .nilMap ty
      · simp only [lenCap, if_neg h]; exact .map ty a h
    | str ty s => exact .str ty s
    | bool ty b => exact .bool ty b
    | num ty t => exact .num ty t
    | ptr ty a => exact .ptr ty a
    | struct ty fs => exact .struct ty fs
    | iface ty v => exact .iface ty v
    | nilIface ty => exact .nilIface ty
    | invalid => exact .invalid
  · show Says E v (methText E v).1 (methText E v).2
    by_cases hd : E.disableMethods = true
    · simp only [methText, hd, if_true]; exact .disabled hd
    · have hd' : E.disableMethods = false := by simpa using hd
      have key : ∀ w, w = v → (match E.meth w with
          | .none => (([] : Bytes), false)
          | .text t => if E.continueOnMethod then (asc "(" ++ t ++ asc ") ", false) else (t, true)
          | .panics t => ((if E.continueOnMethod then asc "(" else []) ++ asc "(PANIC=" ++ t ++ asc ")", false)) = methText E v → Says E v (methText E v).1 (methText E v).2 := by
        rintro w rfl hw
        rw [← hw]
        cases hm : E.meth w with
        | none => exact .noMethod hm
        | text t =>
          by_cases hc : E.continueOnMethod = true
          · simp only [hc, if_true]; exact .textToo t hd' hm hc
          · simp only [hc]; exact .text t hd' hm (by simpa using hc)
        | panics t =>
          by_cases hc : E.continueOnMethod = true
          · simp only [hc, if_true]; exact .panicsToo t hd' hm hc
          · simp only [hc]; exact .panics t hd' hm (by simpa using hc)
      cases v with
      | nilIface ty => simp only [methText, hd', Bool.false_eq_true, if_false]; exact .interface (.inl ⟨ty, rfl⟩)
      | iface ty w => simp only [methText, hd', Bool.false_eq_true, if_false]; exact .interface (.inr ⟨ty, w, rfl⟩)
      | _ => exact key _ rfl (by simp only [methText, hd', Bool.false_eq_true, if_false]; rfl)
  · intro h
    simp [headOf, methText, h]

example : Measures (Env.sample (fun _ => .invalid) (fun _ => []) (fun _ => [])) (.array (asc "[2]bool") [.bool (asc "bool") true, .bool (asc "bool") false]) 2 2 :=
  .array _ _

/-- **C104**: not everything that is called already shown goes round in a circle.  Here two pointers to the
same number stand beside each other at different depths, `x := 5; T{A: &x, B: U{C: &x}}`; the second is
not followed. -/
theorem shared_pointer_said_shown :
    sdump (Env.sample (fun _ => .num (asc "int") (asc "5")) (fun _ => []) (fun _ => [])) 9
      (some (.struct (asc "main.T") [(asc "A", .ptr (asc "*int") 1), (asc "B", .struct (asc "main.U") [(asc "C", .ptr (asc "*int") 1)])])) =
    some (asc "(main.T) {\n A: (*int)(5),\n B: (main.U) {\n  C: (*int)(<already shown>)\n }\n}\n") := by
  decide +kernel

/-- At the same depth both are followed. -/
example :
    sdump (Env.sample (fun _ => .num (asc "int") (asc "5")) (fun _ => []) (fun _ => [])) 9
      (some (.struct (asc "main.T") [(asc "A", .ptr (asc "*int") 1), (asc "B", .ptr (asc "*int") 1)])) =
    some (asc "(main.T) {\n A: (*int)(5),\n B: (*int)(5)\n}\n") := by
  decide +kernel

/-- **C104**: the value of a key that is not equal to itself is not shown (`MapIndex` does not find it), and the
closing brace after it loses its indentation: `T{M: map[float64]int{math.NaN(): 1}}`. -/
theorem nan_key_value_lost :
    sdump (Env.sample (fun _ => .invalid) (fun _ => []) (fun _ => [(.num (asc "float64") (asc "NaN"), .invalid)])) 9
      (some (.struct (asc "main.T") [(asc "M", .map (asc "map[float64]int") 1)])) =
    some (asc "(main.T) {\n M: (map[float64]int) (len=1) {\n  (float64) NaN: <invalid>\n}\n}\n") := by
  decide +kernel

end Verif.Spew
