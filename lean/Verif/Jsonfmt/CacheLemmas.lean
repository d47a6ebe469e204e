import Verif.Jsonfmt.CacheModel

/-!
# What remembered encoders print

`fresh` builds encoders without looking anything up and with no prefix for the encoders of keys, `text` prints with
those.  Whatever has been marshalled before, the encoders found are these (`build_fresh`, `encode_text`), up to the
prefixes kept for keys that are interfaces.
-/

namespace Verif.Jsonfmt.Cache

/-- The extension does not look at the path. -/
def PathFree (cf : Config) : Prop := ∀ x ∈ cf.extensions, ∀ p q t, x p t = x q t

/-- What the extensions of a configuration say about a type: the first that has something to say. -/
def hook (cf : Config) (t : Ty) : Option Hook := cf.extensions.findSome? (fun x => x [] t)

theorem consult_first (l : List Extension) (p : Bytes) (t : Ty) : consult l p t = l.findSome? (fun x => x p t) := by
  induction l with
  | nil => rfl
  | cons x xs ih => rw [consult, List.findSome?_cons, ih]; cases x p t <;> rfl

theorem consult_free (cf : Config) (h : PathFree cf) (p : Bytes) (t : Ty) : consult cf.extensions p t = hook cf t := by
  rw [consult_first]
  unfold hook
  unfold PathFree at h
  revert h
  generalize cf.extensions = l
  intro h
  induction l with
  | nil => rfl
  | cons x xs ih =>
    rw [List.findSome?_cons, List.findSome?_cons, h x (by simp) p [] t, ih (fun y hy => h y (by simp [hy]))]

mutual
/-- Every key type of a map in `t` can be encoded. -/
def KeysOk (hk : Ty → Bool) (t : Ty) : Prop :=
  hk t = true ∨ match t with
  | .ptr t => KeysOk hk t
  | .slice t => KeysOk hk t
  | .array _ t => KeysOk hk t
  | .map k v => Clean hk k ∧ KeysOk hk v
  | .struct fs => KeysOkFields hk fs
  | _ => True
/-- Every part of `t` can be encoded; fields of structs need not. -/
def Clean (hk : Ty → Bool) (t : Ty) : Prop :=
  hk t = true ∨ match t with
  | .func _ => False
  | .chan _ => False
  | .other _ => False
  | .ptr t => Clean hk t
  | .slice t => Clean hk t
  | .array _ t => Clean hk t
  | .map k v => Clean hk k ∧ Clean hk v
  | .struct fs => KeysOkFields hk fs
  | _ => True
def KeysOkFields (hk : Ty → Bool) : Fields → Prop
  | .nil => True
  | .cons _ _ ty rest => KeysOk hk ty ∧ KeysOkFields hk rest
end

theorem clean_keysOk (hk : Ty → Bool) : ∀ t : Ty, Clean hk t → KeysOk hk t
  | .ptr t, h => by
    rw [Clean] at h; rw [KeysOk]; exact h.imp id (clean_keysOk hk t)
  | .slice t, h => by
    rw [Clean] at h; rw [KeysOk]; exact h.imp id (clean_keysOk hk t)
  | .array _ t, h => by
    rw [Clean] at h; rw [KeysOk]; exact h.imp id (clean_keysOk hk t)
  | .map k v, h => by
    rw [Clean] at h; rw [KeysOk]; exact h.imp id (fun h => ⟨h.1, clean_keysOk hk v h.2⟩)
  | .struct fs, h => by rw [Clean] at h; rw [KeysOk]; exact h
  | .func _, _ => by simp [KeysOk]
  | .chan _, _ => by simp [KeysOk]
  | .other _, _ => by simp [KeysOk]
  | .iface, _ => by simp [KeysOk]
  | .bool, _ => by simp [KeysOk]
  | .int8, _ => by simp [KeysOk]
  | .uint8, _ => by simp [KeysOk]
  | .int16, _ => by simp [KeysOk]
  | .uint16, _ => by simp [KeysOk]
  | .int32, _ => by simp [KeysOk]
  | .uint32, _ => by simp [KeysOk]
  | .int64, _ => by simp [KeysOk]
  | .uint64, _ => by simp [KeysOk]
  | .float, _ => by simp [KeysOk]
  | .str, _ => by simp [KeysOk]
  | .bytes, _ => by simp [KeysOk]
  | .err, _ => by simp [KeysOk]
  | .marshaler, _ => by simp [KeysOk]

mutual
/-- More extensions help. -/
theorem keysOk_mono (hk : Ty → Bool) (t : Ty) (h : KeysOk (fun _ => false) t) : KeysOk hk t := by
  have no : ¬ (fun _ : Ty => false) t = true := by simp
  cases t with
  | ptr t => rw [KeysOk] at h ⊢; exact Or.inr (keysOk_mono hk t (h.resolve_left no))
  | slice t => rw [KeysOk] at h ⊢; exact Or.inr (keysOk_mono hk t (h.resolve_left no))
  | array _ t => rw [KeysOk] at h ⊢; exact Or.inr (keysOk_mono hk t (h.resolve_left no))
  | map k v => rw [KeysOk] at h ⊢; have h := h.resolve_left no; exact Or.inr ⟨clean_mono hk k h.1, keysOk_mono hk v h.2⟩
  | struct fs => rw [KeysOk] at h ⊢; exact Or.inr (keysOkFields_mono hk fs (h.resolve_left no))
  | _ => simp [KeysOk]
theorem clean_mono (hk : Ty → Bool) (t : Ty) (h : Clean (fun _ => false) t) : Clean hk t := by
  have no : ¬ (fun _ : Ty => false) t = true := by simp
  cases t with
  | ptr t => rw [Clean] at h ⊢; exact Or.inr (clean_mono hk t (h.resolve_left no))
  | slice t => rw [Clean] at h ⊢; exact Or.inr (clean_mono hk t (h.resolve_left no))
  | array _ t => rw [Clean] at h ⊢; exact Or.inr (clean_mono hk t (h.resolve_left no))
  | map k v => rw [Clean] at h ⊢; have h := h.resolve_left no; exact Or.inr ⟨clean_mono hk k h.1, clean_mono hk v h.2⟩
  | struct fs => rw [Clean] at h ⊢; exact Or.inr (keysOkFields_mono hk fs (h.resolve_left no))
  | func _ => simp [Clean] at h
  | chan _ => simp [Clean] at h
  | other _ => simp [Clean] at h
  | _ => simp [Clean]
theorem keysOkFields_mono (hk : Ty → Bool) (fs : Fields) (h : KeysOkFields (fun _ => false) fs) : KeysOkFields hk fs := by
  cases fs with
  | nil => trivial
  | cons _ _ ty rest =>
    rw [KeysOkFields] at h ⊢
    exact ⟨keysOk_mono hk ty h.1, keysOkFields_mono hk rest h.2⟩
end

mutual
/-- Encoders built without caches; encoders of keys with no prefix. -/
def fresh (cf : Config) (c : Nat) (pfx : Bytes) (t : Ty) : Enc :=
  match hook cf t with
  | some h => .ext h
  | none =>
    match t with
    | .ptr t => .ptr (fresh cf c (pfx ++ asc " [ptrElem]") t)
    | .slice t => .slice (fresh cf c (pfx ++ asc " [sliceElem]") t)
    | .array _ t => .array (fresh cf c (pfx ++ asc " [sliceElem]") t)
    | .map kt vt => .map (wrapKey c [] kt (fresh cf c [] kt)) (fresh cf c (pfx ++ asc " [mapElem]") vt)
    | .struct fs => .struct (freshFields cf c false fs)
    | .iface => .dyn
    | .func n => .plain (.unsupported (unsupportedMsg n pfx))
    | .chan n => .plain (.unsupported (unsupportedMsg n pfx))
    | .other n => .plain (.unsupported (unsupportedMsg n pfx))
    | .bytes => .plain .bytes
    | .err => .plain .err
    | .marshaler => .plain .marshaler
    | .bool => .plain .bool
    | .int8 => .plain .int8
    | .uint8 => .plain .uint8
    | .int16 => .plain .int16
    | .uint16 => .plain .uint16
    | .int32 => .plain .int32
    | .uint32 => .plain .uint32
    | .int64 => .plain .int64
    | .uint64 => .plain .uint64
    | .float => .plain .float
    | .str => .plain .str
def freshFields (cf : Config) (c : Nat) (some : Bool) : Fields → FieldEncs
  | .nil => .nil
  | .cons name tag ty rest =>
    if getFieldName cf.unexported name tag ty = [] then .skip (freshFields cf c some rest)
    else
      .cons ((if some then [44] else []) ++ [34] ++ getFieldName cf.unexported name tag ty ++ [34, 58])
        (fresh cf c (((if some then [44] else []) ++ [34] ++ getFieldName cf.unexported name tag ty ++ [34, 58]) ++ asc " ." ++
          getFieldName cf.unexported name tag ty) ty) (freshFields cf c true rest)
end

/-- The encoder of keys of type `kt`. -/
def freshKey (cf : Config) (c : Nat) (kt : Ty) : KeyEnc := wrapKey c [] kt (fresh cf c [] kt)

def hooked (cf : Config) (t : Ty) : Bool := (hook cf t).isSome

/-- Where everything can be encoded the prefix does not matter. -/
theorem fresh_prefix (cf : Config) (c : Nat) (t : Ty) (h : Clean (hooked cf) t) (p q : Bytes) :
    fresh cf c p t = fresh cf c q t := by
  cases hh : hook cf t with
  | some x =>
    rw [fresh.eq_def, fresh.eq_def cf c q, hh]
  | none =>
    have no : ¬ hooked cf t = true := by simp [hooked, hh]
    cases t with
    | ptr t => rw [Clean] at h; simp only [fresh, hh]; rw [fresh_prefix cf c t (h.resolve_left no)]
    | slice t => rw [Clean] at h; simp only [fresh, hh]; rw [fresh_prefix cf c t (h.resolve_left no)]
    | array _ t => rw [Clean] at h; simp only [fresh, hh]; rw [fresh_prefix cf c t (h.resolve_left no)]
    | map k v => rw [Clean] at h; simp only [fresh, hh]; rw [fresh_prefix cf c v (h.resolve_left no).2]
    | func _ => rw [Clean] at h; exact (h.resolve_left no).elim
    | chan _ => rw [Clean] at h; exact (h.resolve_left no).elim
    | other _ => rw [Clean] at h; exact (h.resolve_left no).elim
    | _ => simp only [fresh, hh]
termination_by structural t

mutual
/-- Without the prefixes kept for keys that are interfaces. -/
def strip : Enc → Enc
  | .plain e => .plain e
  | .ext h => .ext h
  | .ptr e => .ptr (strip e)
  | .slice e => .slice (strip e)
  | .array e => .array (strip e)
  | .map k e => .map (stripKey k) (strip e)
  | .struct fs => .struct (stripFields fs)
  | .dyn => .dyn
def stripKey : KeyEnc → KeyEnc
  | .number e => .number (strip e)
  | .string e => .string (strip e)
  | .iface c _ => .iface c []
def stripFields : FieldEncs → FieldEncs
  | .nil => .nil
  | .skip r => .skip (stripFields r)
  | .cons p e r => .cons p (strip e) (stripFields r)
end

theorem strip_wrap (c : Nat) (p : Bytes) (k : Ty) (e : Enc) : stripKey (wrapKey c p k e) = wrapKey c [] k (strip e) := by
  unfold wrapKey
  by_cases h : keyIsString k
  · simp only [h, if_true, stripKey]
  · simp only [h]
    cases k <;> rfl

/-- What is remembered of encodable key types is right. -/
def GoodKeys (cf : Config) (c : Nat) (k : KeyCache) : Prop :=
  ∀ kt ke, k kt = some ke → Clean (hooked cf) kt → stripKey ke = freshKey cf c kt

theorem good_store {cf : Config} {c : Nat} {k : KeyCache} (h : GoodKeys cf c k) (kt : Ty) (ke : KeyEnc)
    (hk : Clean (hooked cf) kt → stripKey ke = freshKey cf c kt) :
    GoodKeys cf c (fun t => if t = kt then some ke else k t) := by
  intro t e ht hc
  by_cases he : t = kt
  · subst he
    simp only [if_true, Option.some.injEq] at ht
    subst ht
    exact hk hc
  · simp only [he, if_false] at ht
    exact h t e ht hc

mutual
/-- Encoders built with what is remembered are those built without, and what is remembered stays right. -/
theorem build_fresh (cf : Config) (hp : PathFree cf) (c : Nat) (t : Ty) (pfx : Bytes) (k : KeyCache) (hk : GoodKeys cf c k) :
    GoodKeys cf c (build cf c pfx t k).2 ∧ (KeysOk (hooked cf) t → strip (build cf c pfx t k).1 = fresh cf c pfx t) := by
  cases hh : hook cf t with
  | some x =>
    rw [build.eq_def, consult_free cf hp, hh]
    refine ⟨hk, fun _ => ?_⟩
    rw [fresh.eq_def, hh]; rfl
  | none =>
    have no : ¬ hooked cf t = true := by simp [hooked, hh]
    have hcon : consult cf.extensions pfx t = none := by rw [consult_free cf hp, hh]
    cases t with
    | ptr t =>
      have ih := build_fresh cf hp c t (pfx ++ asc " [ptrElem]") k hk
      simp only [build, hcon, fresh, hh, strip]
      exact ⟨ih.1, fun h => by rw [KeysOk] at h; rw [ih.2 (h.resolve_left no)]⟩
    | slice t =>
      have ih := build_fresh cf hp c t (pfx ++ asc " [sliceElem]") k hk
      simp only [build, hcon, fresh, hh, strip]
      exact ⟨ih.1, fun h => by rw [KeysOk] at h; rw [ih.2 (h.resolve_left no)]⟩
    | array n t =>
      have ih := build_fresh cf hp c t (pfx ++ asc " [sliceElem]") k hk
      simp only [build, hcon, fresh, hh, strip]
      exact ⟨ih.1, fun h => by rw [KeysOk] at h; rw [ih.2 (h.resolve_left no)]⟩
    | map kt vt =>
      simp only [build, hcon, fresh, hh]
      cases hkt : k kt with
      | some ke =>
        have ih := build_fresh cf hp c vt (pfx ++ asc " [mapElem]") k hk
        simp only [strip]
        refine ⟨ih.1, fun h => ?_⟩
        rw [KeysOk] at h
        obtain ⟨h1, h2⟩ := h.resolve_left no
        rw [ih.2 h2, hk kt ke hkt h1]; rfl
      | none =>
        have ihk := build_fresh cf hp c kt (pfx ++ asc " [mapKey]") k hk
        have hke : Clean (hooked cf) kt →
            stripKey (wrapKey c pfx kt (build cf c (pfx ++ asc " [mapKey]") kt k).1) = freshKey cf c kt := by
          intro h
          rw [strip_wrap, ihk.2 (clean_keysOk _ _ h), fresh_prefix cf c kt h _ []]; rfl
        have ih := build_fresh cf hp c vt (pfx ++ asc " [mapElem]") _ (good_store ihk.1 kt _ hke)
        simp only [strip]
        refine ⟨ih.1, fun h => ?_⟩
        rw [KeysOk] at h
        obtain ⟨h1, h2⟩ := h.resolve_left no
        rw [ih.2 h2, hke h1]; rfl
    | struct fs =>
      have ih := buildFields_fresh cf hp c fs false k hk
      simp only [build, hcon, fresh, hh, strip]
      exact ⟨ih.1, fun h => by rw [KeysOk] at h; rw [ih.2 (h.resolve_left no)]⟩
    | _ => simp only [build, hcon, fresh, hh, strip]; exact ⟨hk, fun _ => trivial⟩
termination_by structural t
theorem buildFields_fresh (cf : Config) (hp : PathFree cf) (c : Nat) (fs : Fields) (any : Bool) (k : KeyCache)
    (hk : GoodKeys cf c k) : GoodKeys cf c (buildFields cf c any fs k).2 ∧
      (KeysOkFields (hooked cf) fs → stripFields (buildFields cf c any fs k).1 = freshFields cf c any fs) := by
  cases fs with
  | nil => exact ⟨hk, fun _ => rfl⟩
  | cons name tag ty rest =>
    simp only [buildFields, freshFields, KeysOkFields]
    by_cases hn : getFieldName cf.unexported name tag ty = []
    · have ih := buildFields_fresh cf hp c rest any k hk
      simp only [hn, if_true, stripFields]
      exact ⟨ih.1, fun h => by rw [ih.2 h.2]⟩
    · simp only [hn, if_false, stripFields]
      have ih1 := build_fresh cf hp c ty (((if any then [44] else []) ++ [34] ++ getFieldName cf.unexported name tag ty ++
        [34, 58]) ++ asc " ." ++ getFieldName cf.unexported name tag ty) k hk
      have ih2 := buildFields_fresh cf hp c rest true _ ih1.1
      exact ⟨ih2.1, fun h => by rw [ih2.2 h.2, ih1.2 h.1]⟩
termination_by structural fs
end

/-! ### Printing -/

/-- A key in an interface is encodable. -/
def KeyOk : Val → Prop
  | .iface t _ => Clean (fun _ => false) t
  | _ => True

mutual
/-- The types in interfaces inside `v` have encodable keys only. -/
def ValOk : Val → Prop
  | .ptr v => ValOk v
  | .seq vs => ValsOk vs
  | .map ps => PairsOk ps
  | .struct vs => ValsOk vs
  | .iface t v => KeysOk (fun _ => false) t ∧ ValOk v
  | _ => True
def ValsOk : Vals → Prop
  | .nil => True
  | .cons v vs => ValOk v ∧ ValsOk vs
def PairsOk : Pairs → Prop
  | .nil => True
  | .cons k v ps => KeyOk k ∧ ValOk k ∧ ValOk v ∧ PairsOk ps
end

/-- The text of a key. -/
def keyText (enc : Enc → Bytes → Bytes) : KeyEnc → Bytes → Bytes
  | .number e, space => enc e (space ++ [34]) ++ [34, 58]
  | .string e, space => enc e space ++ [58]
  | .iface _ _, space => space

mutual
/-- Printing with encoders built anew. -/
def text (conf : Nat → Config) : Val → Enc → Bytes → Bytes
  | v, .plain e, space => Jsonfmt.encode v e space
  | v, .ext h, space => h v space
  | .nil, .ptr _, space => space ++ [110, 117, 108, 108]
  | .ptr v, .ptr e, space => text conf v e space
  | .seq vs, .slice e, space => textElems conf vs e true (space ++ [91]) ++ [93]
  | .seq vs, .array e, space => textElems conf vs e true (space ++ [91]) ++ [93]
  | .nil, .map _ _, space => space ++ [110, 117, 108, 108]
  | .map kvs, .map ke ee, space => textPairs conf kvs ke ee true (space ++ [123]) ++ [125]
  | .struct vs, .struct fs, space => textFields conf vs fs (space ++ [123]) ++ [125]
  | .nil, .dyn, space => space ++ [110, 117, 108, 108]
  | .iface t v, .dyn, space => text conf v (fresh (conf 0) 0 [] t) space
  | _, _, space => space
def textElems (conf : Nat → Config) : Vals → Enc → Bool → Bytes → Bytes
  | .nil, _, _, space => space
  | .cons v vs, e, first, space => textElems conf vs e false (text conf v e (if first then space else space ++ [44]))
def textPairs (conf : Nat → Config) : Pairs → KeyEnc → Enc → Bool → Bytes → Bytes
  | .nil, _, _, _, space => space
  | .cons k v ps, ke, ee, first, space =>
    textPairs conf ps ke ee false (text conf v ee
      (match ke with
        | .iface c _ =>
          match k with
          | .iface t k => keyText (text conf k) (freshKey (conf c) c t) (if first then space else space ++ [44])
          | _ => if first then space else space ++ [44]
        | ke => keyText (text conf k) ke (if first then space else space ++ [44])))
def textFields (conf : Nat → Config) : Vals → FieldEncs → Bytes → Bytes
  | .cons _ vs, .skip fs, space => textFields conf vs fs space
  | .cons v vs, .cons pfx e fs, space => textFields conf vs fs (text conf v e (space ++ pfx))
  | _, _, space => space
end

/-- What is remembered is right. -/
def Good (conf : Nat → Config) (w : World) : Prop := ∀ c, GoodKeys (conf c) c (w c).keys ∧
  ∀ t e, (w c).encs t = some e → KeysOk (hooked (conf c)) t → strip e = fresh (conf c) c [] t

theorem good_init (conf : Nat → Config) : Good conf World.init := fun c =>
  ⟨fun _ _ h => by simp [World.init] at h, fun _ _ h => by simp [World.init] at h⟩

theorem good_set {conf : Nat → Config} {w : World} (h : Good conf w) (c : Nat) (x : Caches) (h1 : GoodKeys (conf c) c x.keys)
    (h2 : ∀ t e, x.encs t = some e → KeysOk (hooked (conf c)) t → strip e = fresh (conf c) c [] t) : Good conf (w.set c x) := by
  intro d
  unfold World.set
  by_cases hd : d = c
  · subst hd; simp only [if_true]; exact ⟨h1, h2⟩
  · simp only [hd, if_false]; exact h d

theorem encoderOf_good (conf : Nat → Config) (hp : ∀ c, PathFree (conf c)) (c : Nat) (t : Ty) (w : World) (h : Good conf w) :
    Good conf (encoderOf conf c t w).2 ∧
      (KeysOk (hooked (conf c)) t → strip (encoderOf conf c t w).1 = fresh (conf c) c [] t) := by
  unfold encoderOf
  cases he : (w c).encs t with
  | some e => exact ⟨h, (h c).2 t e he⟩
  | none =>
    have hb := build_fresh (conf c) (hp c) c t [] (w c).keys (h c).1
    refine ⟨good_set h c _ hb.1 ?_, hb.2⟩
    intro u e hu hk
    by_cases hut : u = t
    · subst hut
      simp only [if_true, Option.some.injEq] at hu
      subst hu
      exact hb.2 hk
    · simp only [hut, if_false] at hu
      exact (h c).2 u e hu hk

theorem keyEncoderOf_good (conf : Nat → Config) (hp : ∀ c, PathFree (conf c)) (c : Nat) (pfx : Bytes) (kt : Ty) (w : World)
    (h : Good conf w) : Good conf (keyEncoderOf conf c pfx kt w).2 ∧
      (Clean (hooked (conf c)) kt → stripKey (keyEncoderOf conf c pfx kt w).1 = freshKey (conf c) c kt) := by
  unfold keyEncoderOf
  cases he : (w c).keys kt with
  | some e => exact ⟨h, (h c).1 kt e he⟩
  | none =>
    have hb := build_fresh (conf c) (hp c) c kt (pfx ++ asc " [mapKey]") (w c).keys (h c).1
    have hke : Clean (hooked (conf c)) kt →
        stripKey (wrapKey c pfx kt (build (conf c) c (pfx ++ asc " [mapKey]") kt (w c).keys).1) = freshKey (conf c) c kt := by
      intro hc
      rw [strip_wrap, hb.2 (clean_keysOk _ _ hc), fresh_prefix (conf c) c kt hc _ []]; rfl
    exact ⟨good_set h c _ (good_store hb.1 kt _ hke) (h c).2, hke⟩

section
variable (conf : Nat → Config)

theorem encodePairs_nil (ke : KeyEnc) (ee : Enc) (first : Bool) (space : Bytes) (w : World) :
    encodePairs conf .nil ke ee first space w = (space, w) := rfl

theorem encodePairs_number (k v : Val) (ps : Pairs) (e ee : Enc) (first : Bool) (space : Bytes) (w : World) :
    encodePairs conf (.cons k v ps) (.number e) ee first space w =
      encodePairs conf ps (.number e) ee false
        (encode conf v ee (withKey (encode conf k) (.number e) (if first then space else space ++ [44]) w).1
          (withKey (encode conf k) (.number e) (if first then space else space ++ [44]) w).2).1
        (encode conf v ee (withKey (encode conf k) (.number e) (if first then space else space ++ [44]) w).1
          (withKey (encode conf k) (.number e) (if first then space else space ++ [44]) w).2).2 := rfl

theorem encodePairs_string (k v : Val) (ps : Pairs) (e ee : Enc) (first : Bool) (space : Bytes) (w : World) :
    encodePairs conf (.cons k v ps) (.string e) ee first space w =
      encodePairs conf ps (.string e) ee false
        (encode conf v ee (withKey (encode conf k) (.string e) (if first then space else space ++ [44]) w).1
          (withKey (encode conf k) (.string e) (if first then space else space ++ [44]) w).2).1
        (encode conf v ee (withKey (encode conf k) (.string e) (if first then space else space ++ [44]) w).1
          (withKey (encode conf k) (.string e) (if first then space else space ++ [44]) w).2).2 := rfl

theorem encodePairs_iface (t : Ty) (k v : Val) (ps : Pairs) (c : Nat) (pfx : Bytes) (ee : Enc) (first : Bool) (space : Bytes)
    (w : World) : encodePairs conf (.cons (.iface t k) v ps) (.iface c pfx) ee first space w =
      encodePairs conf ps (.iface c pfx) ee false
        (encode conf v ee (withKey (encode conf k) (keyEncoderOf conf c pfx t w).1 (if first then space else space ++ [44])
            (keyEncoderOf conf c pfx t w).2).1
          (withKey (encode conf k) (keyEncoderOf conf c pfx t w).1 (if first then space else space ++ [44])
            (keyEncoderOf conf c pfx t w).2).2).1
        (encode conf v ee (withKey (encode conf k) (keyEncoderOf conf c pfx t w).1 (if first then space else space ++ [44])
            (keyEncoderOf conf c pfx t w).2).1
          (withKey (encode conf k) (keyEncoderOf conf c pfx t w).1 (if first then space else space ++ [44])
            (keyEncoderOf conf c pfx t w).2).2).2 := rfl

theorem encodePairs_other (k v : Val) (hk : ∀ t u, k ≠ .iface t u) (ps : Pairs) (c : Nat) (pfx : Bytes) (ee : Enc)
    (first : Bool) (space : Bytes) (w : World) : encodePairs conf (.cons k v ps) (.iface c pfx) ee first space w =
      encodePairs conf ps (.iface c pfx) ee false (encode conf v ee (if first then space else space ++ [44]) w).1
        (encode conf v ee (if first then space else space ++ [44]) w).2 := by
  cases k with
  | iface t u => exact absurd rfl (hk t u)
  | _ => rfl

theorem textPairs_number (k v : Val) (ps : Pairs) (e ee : Enc) (first : Bool) (space : Bytes) :
    textPairs conf (.cons k v ps) (.number e) ee first space = textPairs conf ps (.number e) ee false
      (text conf v ee (keyText (text conf k) (.number e) (if first then space else space ++ [44]))) := rfl

theorem textPairs_string (k v : Val) (ps : Pairs) (e ee : Enc) (first : Bool) (space : Bytes) :
    textPairs conf (.cons k v ps) (.string e) ee first space = textPairs conf ps (.string e) ee false
      (text conf v ee (keyText (text conf k) (.string e) (if first then space else space ++ [44]))) := rfl

theorem textPairs_iface (t : Ty) (k v : Val) (ps : Pairs) (c : Nat) (pfx : Bytes) (ee : Enc) (first : Bool) (space : Bytes) :
    textPairs conf (.cons (.iface t k) v ps) (.iface c pfx) ee first space = textPairs conf ps (.iface c pfx) ee false
      (text conf v ee (keyText (text conf k) (freshKey (conf c) c t) (if first then space else space ++ [44]))) := rfl

theorem textPairs_other (k v : Val) (hk : ∀ t u, k ≠ .iface t u) (ps : Pairs) (c : Nat) (pfx : Bytes) (ee : Enc)
    (first : Bool) (space : Bytes) : textPairs conf (.cons k v ps) (.iface c pfx) ee first space =
      textPairs conf ps (.iface c pfx) ee false (text conf v ee (if first then space else space ++ [44])) := by
  cases k with
  | iface t u => exact absurd rfl (hk t u)
  | _ => rfl
end

theorem withKey_text (conf : Nat → Config) (k : Val)
    (ih : ∀ e space w, Good conf w → Good conf (encode conf k e space w).2 ∧
      (ValOk k → (encode conf k e space w).1 = text conf k (strip e) space)) (ke : KeyEnc) (space : Bytes) (w : World)
    (h : Good conf w) : Good conf (withKey (encode conf k) ke space w).2 ∧
      (ValOk k → (withKey (encode conf k) ke space w).1 = keyText (text conf k) (stripKey ke) space) := by
  cases ke with
  | number e =>
    have := ih e (space ++ [34]) w h
    simp only [withKey, keyText, stripKey]
    exact ⟨this.1, fun hv => by rw [this.2 hv]⟩
  | string e =>
    have := ih e space w h
    simp only [withKey, keyText, stripKey]
    exact ⟨this.1, fun hv => by rw [this.2 hv]⟩
  | iface c p => exact ⟨h, fun _ => rfl⟩

mutual
/-- What is printed with remembered encoders is what is printed with new ones. -/
theorem encode_text (conf : Nat → Config) (hp : ∀ c, PathFree (conf c)) (v : Val) (e : Enc) (space : Bytes) (w : World)
    (h : Good conf w) : Good conf (encode conf v e space w).2 ∧
      (ValOk v → (encode conf v e space w).1 = text conf v (strip e) space) := by
  cases v with
  | nil => cases e <;> simp only [encode, text, strip] <;> exact ⟨h, fun _ => trivial⟩
  | ptr v =>
    cases e with
    | ptr e => simp only [encode, text, strip, ValOk]; exact encode_text conf hp v e space w h
    | _ => simp only [encode, text, strip]; exact ⟨h, fun _ => trivial⟩
  | seq vs =>
    cases e with
    | slice e =>
      have ih := elems_text conf hp vs e true (space ++ [91]) w h
      simp only [encode, text, strip, ValOk]; exact ⟨ih.1, fun hv => by rw [ih.2 hv]⟩
    | array e =>
      have ih := elems_text conf hp vs e true (space ++ [91]) w h
      simp only [encode, text, strip, ValOk]; exact ⟨ih.1, fun hv => by rw [ih.2 hv]⟩
    | _ => simp only [encode, text, strip]; exact ⟨h, fun _ => trivial⟩
  | map ps =>
    cases e with
    | map ke ee =>
      have ih := pairs_text conf hp ps ke ee true (space ++ [123]) w h
      simp only [encode, text, strip, ValOk]; exact ⟨ih.1, fun hv => by rw [ih.2 hv]⟩
    | _ => simp only [encode, text, strip]; exact ⟨h, fun _ => trivial⟩
  | struct vs =>
    cases e with
    | struct fs =>
      have ih := fields_text conf hp vs fs (space ++ [123]) w h
      simp only [encode, text, strip, ValOk]; exact ⟨ih.1, fun hv => by rw [ih.2 hv]⟩
    | _ => simp only [encode, text, strip]; exact ⟨h, fun _ => trivial⟩
  | iface t v =>
    cases e with
    | dyn =>
      have he := encoderOf_good conf hp 0 t w h
      have ih := encode_text conf hp v (encoderOf conf 0 t w).1 space (encoderOf conf 0 t w).2 he.1
      simp only [encode, text, strip, ValOk]
      exact ⟨ih.1, fun hv => by rw [ih.2 hv.2, he.2 (keysOk_mono _ _ hv.1)]⟩
    | _ => simp only [encode, text, strip]; exact ⟨h, fun _ => trivial⟩
  | _ => cases e <;> simp only [encode, text, strip] <;> exact ⟨h, fun _ => trivial⟩
termination_by structural v
theorem elems_text (conf : Nat → Config) (hp : ∀ c, PathFree (conf c)) (vs : Vals) (e : Enc) (first : Bool) (space : Bytes)
    (w : World) (h : Good conf w) : Good conf (encodeElems conf vs e first space w).2 ∧
      (ValsOk vs → (encodeElems conf vs e first space w).1 = textElems conf vs (strip e) first space) := by
  cases vs with
  | nil => simp only [encodeElems, textElems]; exact ⟨h, fun _ => trivial⟩
  | cons v vs =>
    have ih1 := encode_text conf hp v e (if first then space else space ++ [44]) w h
    have ih2 := elems_text conf hp vs e false (encode conf v e (if first then space else space ++ [44]) w).1 _ ih1.1
    simp only [encodeElems, textElems, ValsOk]
    exact ⟨ih2.1, fun hv => by rw [ih2.2 hv.2, ih1.2 hv.1]⟩
termination_by structural vs
theorem pairs_text (conf : Nat → Config) (hp : ∀ c, PathFree (conf c)) (ps : Pairs) (ke : KeyEnc) (ee : Enc) (first : Bool)
    (space : Bytes) (w : World) (h : Good conf w) : Good conf (encodePairs conf ps ke ee first space w).2 ∧
      (PairsOk ps → (encodePairs conf ps ke ee first space w).1 = textPairs conf ps (stripKey ke) (strip ee) first space) := by
  cases ps with
  | nil => exact ⟨h, fun _ => rfl⟩
  | cons k v ps =>
    have rest : ∀ (r : Bytes × World) (s : Bytes), Good conf r.2 → (ValOk k → r.1 = s) →
        Good conf (encodePairs conf ps ke ee false (encode conf v ee r.1 r.2).1 (encode conf v ee r.1 r.2).2).2 ∧
        (ValOk k → ValOk v → PairsOk ps → (encodePairs conf ps ke ee false (encode conf v ee r.1 r.2).1 (encode conf v ee r.1 r.2).2).1 =
          textPairs conf ps (stripKey ke) (strip ee) false (text conf v (strip ee) s)) := by
      intro r s hr hs
      have ih2 := encode_text conf hp v ee r.1 r.2 hr
      have ih3 := pairs_text conf hp ps ke ee false (encode conf v ee r.1 r.2).1 _ ih2.1
      exact ⟨ih3.1, fun hk hv hps => by rw [ih3.2 hps, ih2.2 hv, hs hk]⟩
    have key := withKey_text conf k (fun e s w h => encode_text conf hp k e s w h)
    cases ke with
    | number e =>
      have hk := key (.number e) (if first then space else space ++ [44]) w h
      have := rest _ _ hk.1 hk.2
      rw [encodePairs_number, stripKey, textPairs_number, PairsOk]
      exact ⟨this.1, fun ho => this.2 ho.2.1 ho.2.2.1 ho.2.2.2⟩
    | string e =>
      have hk := key (.string e) (if first then space else space ++ [44]) w h
      have := rest _ _ hk.1 hk.2
      rw [encodePairs_string, stripKey, textPairs_string, PairsOk]
      exact ⟨this.1, fun ho => this.2 ho.2.1 ho.2.2.1 ho.2.2.2⟩
    | iface c pfx =>
      by_cases hki : ∃ t u, k = .iface t u
      · cases k with
        | iface t k =>
          have he := keyEncoderOf_good conf hp c pfx t w h
          have hk := withKey_text conf k (fun e s w h => encode_text conf hp k e s w h) (keyEncoderOf conf c pfx t w).1
            (if first then space else space ++ [44]) _ he.1
          have := rest _ _ hk.1 (fun hv => hk.2 (by rw [ValOk] at hv; exact hv.2))
          rw [encodePairs_iface, stripKey, textPairs_iface, PairsOk]
          refine ⟨this.1, fun ho => ?_⟩
          rw [← he.2 (clean_mono _ _ ho.1)]
          exact this.2 ho.2.1 ho.2.2.1 ho.2.2.2
        | _ => obtain ⟨t, u, h⟩ := hki; cases h
      · have hki' : ∀ t u, k ≠ .iface t u := fun t u h => hki ⟨t, u, h⟩
        have := rest (if first then space else space ++ [44], w) _ h (fun _ => rfl)
        rw [encodePairs_other conf k v hki', stripKey, textPairs_other conf k v hki', PairsOk]
        exact ⟨this.1, fun ho => this.2 ho.2.1 ho.2.2.1 ho.2.2.2⟩
termination_by structural ps
theorem fields_text (conf : Nat → Config) (hp : ∀ c, PathFree (conf c)) (vs : Vals) (fs : FieldEncs) (space : Bytes)
    (w : World) (h : Good conf w) : Good conf (encodeFields conf vs fs space w).2 ∧
      (ValsOk vs → (encodeFields conf vs fs space w).1 = textFields conf vs (stripFields fs) space) := by
  cases vs with
  | nil => cases fs <;> simp only [encodeFields, textFields] <;> exact ⟨h, fun _ => trivial⟩
  | cons v vs =>
    cases fs with
    | nil => simp only [encodeFields, textFields, stripFields]; exact ⟨h, fun _ => trivial⟩
    | skip fs =>
      have ih := fields_text conf hp vs fs space w h
      simp only [encodeFields, textFields, stripFields, ValsOk]
      exact ⟨ih.1, fun hv => ih.2 hv.2⟩
    | cons p e fs =>
      have ih1 := encode_text conf hp v e (space ++ p) w h
      have ih2 := fields_text conf hp vs fs (encode conf v e (space ++ p) w).1 _ ih1.1
      simp only [encodeFields, textFields, stripFields, ValsOk]
      exact ⟨ih2.1, fun hv => by rw [ih2.2 hv.2, ih1.2 hv.1]⟩
termination_by structural vs
end

theorem marshal_text (conf : Nat → Config) (hp : ∀ c, PathFree (conf c)) (c : Nat) (t : Ty) (v : Val) (w : World)
    (h : Good conf w) : Good conf (marshal conf c t v w).2 ∧
      (KeysOk (hooked (conf c)) t → ValOk v → (marshal conf c t v w).1 = text conf v (fresh (conf c) c [] t) []) := by
  have he := encoderOf_good conf hp c t w h
  have hv := encode_text conf hp v (encoderOf conf c t w).1 [] _ he.1
  unfold marshal
  exact ⟨hv.1, fun ht hv' => by rw [hv.2 hv', he.2 ht]⟩

theorem history_good (conf : Nat → Config) (hp : ∀ c, PathFree (conf c)) : ∀ (hist : List (Nat × Ty × Val)) (w : World),
    Good conf w → Good conf (history conf hist w)
  | [], _, h => h
  | (c, t, v) :: rest, w, h => history_good conf hp rest _ (marshal_text conf hp c t v w h).1

end Verif.Jsonfmt.Cache
